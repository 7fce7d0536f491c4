import Verif.Lemmas.ScaleRun
import Verif.Props.Laws
import Verif.ExRun

/-!
# C111: the simulation does not depend on the units

All inputs are rewritten in new units of mass, length and time (and, separately, of the thickness of
the slab).  A step of the rewritten simulation is the rewritten step.  `Lemmas/Scale.lean` has the
units, `scalePt`, `scaleMat`, `scalePh`, `scaleGrid`, `scalePar` say what each number is multiplied
by.
-/

set_option linter.unusedSectionVars false

namespace Mpm
open Spec

section
variable {K : Type} [Field K] [LinearOrder K] [IsStrictOrderedRing K] [FloorRing K] {ns N : ℕ}

/-- C111: a step in the new units is the step, in the new units, failures included, whatever
the interpolation does.  The nodal shear rate that `calculate_gammadot` stores last is left out. -/
theorem c111_step (U : NewUnits K) (P : Par K) (hs : P.segregate_grid = false)
    (hc : P.check_positions = false)
    (hf : P.B.inlet_right = true ∨ P.B.inlet_top = true → P.initial_flow = .none)
    (interp : Interp K P.G.N) (interp' : Interp K (scalePar U P).G.N) (s : St P) (hn : Counted s.L)
    (hL : ∀ a ∈ s.L, Consistent P.ops P.G.s a) :
    hideRate <$> timeMarch (scalePar U P) interp' (scaleSt U s) =
      (scaleSt U ∘ hideRate) <$> timeMarch P interp s := by
  unfold timeMarch
  rw [gridPhase_scale P hs hc s hn hL]
  cases gridPhase P s with
  | error e => rfl
  | ok s1 =>
    have h := momentumPhase_scale (U := U) P interp interp' s1
    have hb : ∀ {P : Par K} (i : Interp K P.G.N) (s : St P), P.segregate_grid = false →
        (segregationPhase P i s >>= pointsPhase P) = pointsPhase P s := by
      intro P i s h
      unfold segregationPhase
      rw [h]
      rfl
    change hideRate <$> (momentumPhase (scalePar U P) interp' (scaleSt U s1) >>= fun s =>
      segregationPhase (scalePar U P) interp' s >>= pointsPhase (scalePar U P)) =
        (scaleSt U ∘ hideRate) <$> (momentumPhase P interp s1 >>= fun s =>
          segregationPhase P interp s >>= pointsPhase P)
    simp only [hb interp _ hs, hb (P := scalePar U P) interp' _ hs]
    cases h1 : momentumPhase P interp s1 with
    | error e =>
      rw [h1] at h
      cases h2 : momentumPhase (scalePar U P) interp' (scaleSt U s1) with
      | error e' => rw [h2] at h; cases h; rfl
      | ok s2 => rw [h2] at h; cases h
    | ok t =>
      rw [h1] at h
      cases h2 : momentumPhase (scalePar U P) interp' (scaleSt U s1) with
      | error e' => rw [h2] at h; cases h
      | ok t' =>
        rw [h2] at h
        have ht : hideRate t' = scaleSt U (hideRate t) := Except.ok.inj h
        change hideRate <$> pointsPhase (scalePar U P) t' =
          (scaleSt U ∘ hideRate) <$> pointsPhase P t
        rw [← pointsPhase_hide, ht, pointsPhase_scale P (hideRate t) hf, pointsPhase_hide]
        cases pointsPhase P t <;> rfl

theorem timeMarch_hide (P : Par K) (interp : Interp K P.G.N) (s : St P) :
    timeMarch P interp (hideRate s) = timeMarch P interp s := rfl

theorem hideRate_idem {P : Par K} (s : St P) : hideRate (hideRate s) = hideRate s := by
  unfold hideRate
  simp only [Function.update_idem]

theorem steps_hide (P : Par K) (interp : Interp K P.G.N) (n : ℕ) (s : St P) :
    hideRate <$> steps P interp n (hideRate s) = hideRate <$> steps P interp n s := by
  cases n with
  | zero => exact congrArg Except.ok (hideRate_idem s)
  | succ n => rfl

/-- C111: so is any number of steps. -/
theorem c111_steps (U : NewUnits K) (P : Par K) (hs : P.segregate_grid = false)
    (hc : P.check_positions = false)
    (hf : P.B.inlet_right = true ∨ P.B.inlet_top = true → P.initial_flow = .none)
    (interp : Interp K P.G.N) (interp' : Interp K (scalePar U P).G.N) (n : ℕ) (s : St P)
    (hn : Counted s.L) (hL : ∀ a ∈ s.L, Consistent P.ops P.G.s a) :
    hideRate <$> steps (scalePar U P) interp' n (scaleSt U s) =
      (scaleSt U ∘ hideRate) <$> steps P interp n s := by
  induction n generalizing s with
  | zero => exact congrArg Except.ok (hideRate_scale s)
  | succ n ih =>
    have h := c111_step U P hs hc hf interp interp' s hn hL
    change hideRate <$> (timeMarch (scalePar U P) interp' (scaleSt U s) >>= fun s =>
      steps (scalePar U P) interp' n (stepTime (scalePar U P) s)) =
        (scaleSt U ∘ hideRate) <$> (timeMarch P interp s >>= fun s =>
          steps P interp n (stepTime P s))
    cases h1 : timeMarch P interp s with
    | error e =>
      rw [h1] at h
      cases h2 : timeMarch (scalePar U P) interp' (scaleSt U s) with
      | error e' => rw [h2] at h; cases h; rfl
      | ok s2 => rw [h2] at h; cases h
    | ok t =>
      rw [h1] at h
      cases h2 : timeMarch (scalePar U P) interp' (scaleSt U s) with
      | error e' => rw [h2] at h; cases h
      | ok t' =>
        rw [h2] at h
        have ht : hideRate t' = scaleSt U (hideRate t) := Except.ok.inj h
        change hideRate <$> steps (scalePar U P) interp' n (stepTime (scalePar U P) t') =
          (scaleSt U ∘ hideRate) <$> steps P interp n (stepTime P t)
        have e : hideRate (stepTime (scalePar U P) t') =
            hideRate (scaleSt U (stepTime P t) : St (scalePar U P)) := by
          have h3 : hideRate (stepTime (scalePar U P) t') =
            stepTime (scalePar U P) (hideRate t') := rfl
          rw [h3, ht, ← hideRate_scale]
          have h4 : U.T * t.dyn.t + U.T * t.dyn.dt = U.T * (t.dyn.t + t.dyn.dt) := (mul_add _ _ _).symm
          unfold hideRate stepTime
          simp only [scaleDyn, h4]
        rw [← steps_hide, e, steps_hide]
        exact ih (stepTime P t) (timeMarch_counted (s' := t) hn h1)
          (step_consistent (s' := t) hs hn hL h1)

theorem linspace_scale (c x y : K) (n i : ℕ) :
    linspace (c * x) (c * y) n i = c * linspace x y n i := by
  unfold linspace
  rw [← mul_sub, mul_div_assoc]; ring

/-- C111: the grid built in the new units. -/
theorem c111_grid (U : NewUnits K) (P : GP K) (B : BP K) :
    mkGrid (scaleGP U P) B = scaleGrid U <$> mkGrid P B := by
  have hx : gridDx (scaleGP U P) = U.L * gridDx P := by
    unfold gridDx; simp only [linspace_scale, mul_sub]
  have hy : gridDy (scaleGP U P) = U.L * gridDy P := by
    unfold gridDy; simp only [linspace_scale, mul_sub]
  have hX : gridX (scaleGP U P) = fun n => U.L * gridX P n := funext fun n => linspace_scale _ _ _ _ _
  have hY : gridY (scaleGP U P) = fun n => U.L * gridY P n := funext fun n => linspace_scale _ _ _ _ _
  have hV : nodeVolume (scaleGP U P) B = fun n => U.vol * nodeVolume P B n := by
    unfold nodeVolume
    rw [hx, hy]
    funext n
    unfold NewUnits.vol; ring
  unfold mkGrid
  refine ite_equiv rfl (congrArg Except.ok ?_)
  rw [hx, hy, hX, hY, hV, ← wipe_scale]
  rfl

/-- What the constructor reads of a phase, in the new units. -/
def Spec.scaleInit (U : NewUnits K) (I : PhaseInit K ns) : PhaseInit K ns :=
  { I with X := I.X.map (U.L * ·), Y := I.Y.map (U.L * ·) }

theorem mkPoints_scale (U : NewUnits K) (P : Par K) (hf : P.initial_flow = .none) (S0 S0' : First K)
    (ph : Phase K ns) (g : K) (X Y : List K) (PHI : Option (List (Fin ns → K))) (i : ℕ) :
    mkPoints (scalePar U P) S0' (scalePh U ph) (U.acc * g) (X.map (U.L * ·)) (Y.map (U.L * ·)) PHI i
      = List.map (scalePt U ph.law) <$> mkPoints P S0 ph g X Y PHI i := by
  induction i with
  | zero => rfl
  | succ i ih =>
    unfold mkPoints
    refine res_bind_map ih fun l _ => ?_
    rw [List.getElem?_map, List.getElem?_map]
    cases X[i]? with
    | none => rfl
    | some x =>
      cases Y[i]? with
      | none => rfl
      | some y =>
        cases PHI with
        | none =>
          refine res_bind_map (mkParticle_scale P hf S0 S0' ph g x y none) fun mp _ => ?_
          exact congrArg Except.ok (List.map_append (l₁ := l) (l₂ := [mp])).symm
        | some F =>
          dsimp only [Option.map_some]
          cases F[i]? with
          | none => rfl
          | some f =>
            refine res_bind_map (mkParticle_scale P hf S0 S0' ph g x y (some f)) fun mp _ => ?_
            exact congrArg Except.ok (List.map_append (l₁ := l) (l₂ := [mp])).symm

/-- C111: the points built in the new units. -/
theorem c111_points (U : NewUnits K) (P : Par K) (hf : P.initial_flow = .none) (g : K)
    (S : List (Phase K ns × PhaseInit K ns)) :
    mkList (scalePar U P) (U.acc * g) (S.map fun x => (scalePh U x.1, scaleInit U x.2))
      = List.map (scalePhSt U) <$> mkList P g S := by
  have key : ∀ (S0 S0' : First K) (T : List (Phase K ns × PhaseInit K ns)),
      (T.map fun x => (scalePh U x.1, scaleInit U x.2)).mapM (fun x => do
          let l ← mkPoints (scalePar U P) S0' x.1 (U.acc * g) x.2.X x.2.Y
            (if x.2.heterogeneous then some x.2.PHI else none) x.1.n
          return ({ ph := x.1, pts := l } : PhaseSt K ns))
        = List.map (scalePhSt U) <$> T.mapM (fun x => do
          let l ← mkPoints P S0 x.1 g x.2.X x.2.Y
            (if x.2.heterogeneous then some x.2.PHI else none) x.1.n
          return ({ ph := x.1, pts := l } : PhaseSt K ns)) := by
    intro S0 S0' T
    induction T with
    | nil => rfl
    | cons x T ih =>
      rw [List.map_cons, List.mapM_cons, List.mapM_cons]
      refine res_bind_map (f := scalePhSt U) ?_ fun x' _ => res_bind_map ih fun _ _ => rfl
      exact res_bind_map (mkPoints_scale U P hf S0 S0' x.1 g x.2.X x.2.Y _ x.1.n) fun _ _ => rfl
  unfold mkList
  cases S with
  | nil => exact key _ _ []
  | cons x S => exact key _ _ (x :: S)

/-! ## Formulas with inconsistent units -/

variable {U : NewUnits K}

/-- C111, `ken_simple` excluded: the law compares the density with the number 2500, so in units in
which the number is passed the material carries a stress that it does not carry otherwise. -/
theorem c111_ken_simple (law0 : Law) (c : LawCtx K ns) {mp : Particle K ns}
    {r : Particle K ns × List (Vis × XF K)} (hr : runLaw .ken_simple c mp = .ok r)
    (h1 : mp.rho ≤ 2500) (h2 : 2500 < U.dens * mp.rho)
    (hp : mp.pressure + c.mat.Kb * (mp.dstrain.trace / 3) < 0) :
    runLaw .ken_simple (scaleCtx U .ken_simple law0 c) (scalePt U .ken_simple mp) ≠
      Prod.map (scalePt U .ken_simple) (scaleVis U) <$> runLaw .ken_simple c mp := by
  intro h
  rw [hr] at h
  obtain ⟨-, -, -, -, -, -, -, -, -, e⟩ := kenSimple_ok (l := r.2) (mp' := r.1) hr
  obtain ⟨_, -, -, -, -, -, -, p', d', e'⟩ := kenSimple_ok (mp' := scalePt U .ken_simple r.1)
    (l := scaleVis U r.2) h
  rw [if_neg h1.not_gt] at e
  rw [if_pos (show 2500 < (scalePt U .ken_simple mp).rho from h2)] at e'
  have hd : (scalePt U .ken_simple r.1).dev_stress.trace = 0 := by
    rw [d', Matrix.trace_smul, Matrix.trace_sub, Matrix.trace_smul, Matrix.trace_one]
    simp
  have e2 : (scalePt U .ken_simple r.1).dstress = -(scalePt U .ken_simple mp).stress := by
    change U.stress • r.1.dstress = -(U.stress • mp.stress)
    rw [e, smul_neg]
  rw [e2] at e'
  have e3 := congrArg Matrix.trace e'
  rw [Matrix.trace_sub, Matrix.trace_add, hd, Matrix.trace_neg, Matrix.trace_smul,
    Matrix.trace_one, p'] at e3
  have hlt : U.stress * mp.pressure + U.stress * c.mat.Kb * (mp.dstrain.trace / 3) < 0 := by
    have := mul_neg_of_pos_of_neg U.stress_pos hp
    linarith
  have e4 : min ((scalePt U .ken_simple mp).pressure + (scaleCtx U .ken_simple law0 c).mat.Kb *
      ((scalePt U .ken_simple mp).dstrain.trace / 3)) 0 =
      U.stress * mp.pressure + U.stress * c.mat.Kb * (mp.dstrain.trace / 3) := min_eq_left hlt.le
  rw [e4] at e3
  simp only [smul_eq_mul, Fintype.card_fin, Nat.cast_ofNat] at e3
  linarith

/-- C111, `ken_kamrin` excluded: the shear rate is at least `1e-5` of whatever the unit is. -/
theorem c111_ken_kamrin (law0 : Law) {c : LawCtx K ns} (ho : GoodOps c.ops) {mp : Particle K ns}
    {r : Particle K ns × List (Vis × XF K)} (hr : runLaw .ken_kamrin c mp = .ok r)
    (hd : mp.dstrain = 0) (hT : U.T ≠ 1) :
    runLaw .ken_kamrin (scaleCtx U .ken_kamrin law0 c) (scalePt U .ken_kamrin mp) ≠
      Prod.map (scalePt U .ken_kamrin) (scaleVis U) <$> runLaw .ken_kamrin c mp := by
  have key : ∀ {c : LawCtx K ns} (_ : GoodOps c.ops) {mp : Particle K ns} (_ : mp.dstrain = 0)
      {r : Particle K ns × List (Vis × XF K)} (_ : runLaw .ken_kamrin c mp = .ok r),
      r.1.gammadot = 1 / 10 ^ 5 := by
    intro c ho mp hd r hr
    simp only [runLaw, lawKenKamrin] at hr
    split at hr
    · cases hr
    obtain ⟨I0, -, hr⟩ := res_bind_ok.1 hr
    cases hr
    simp only [hd, Matrix.trace_zero, zero_div, zero_smul, sub_zero, smul_zero]
    have h0 : frob (0 : Mat K) 0 = 0 := by simp [frob]
    rw [h0, mul_zero, ho.sqrt_zero]
    exact max_eq_right (by positivity)
  intro h
  rw [hr] at h
  have h1 := key ho hd hr
  have h2 : (scalePt U .ken_kamrin r.1).gammadot = 1 / 10 ^ 5 :=
    key (c := scaleCtx U .ken_kamrin law0 c) ho (mp := scalePt U .ken_kamrin mp) hd h
  change U.rate * r.1.gammadot = 1 / 10 ^ 5 at h2
  rw [h1] at h2
  apply hT
  have h3 : U.rate = 1 := by
    have : (0 : K) < 1 / 10 ^ 5 := by positivity
    exact (mul_eq_right₀ this.ne').1 h2
  unfold NewUnits.rate at h3
  rw [div_eq_one_iff_eq U.T_ne] at h3
  exact h3.symm

/-- C111, segregation excluded: with another unit of time only, the diffusivity is divided by the
power 3/2 of the unit, and not by the unit. -/
theorem c111_diffusion {o : Ops K} (ho : GoodOps o) (hL : U.L = 1) {b : K} (hb : 0 < b)
    (hT : U.T = b ^ 2) (l rho_s s : K) (g p : XF K) (m : K) :
    diffusivity o l (U.dens * rho_s) s (scaleX U.rate g) (scaleX (U.M * U.stress) p) (U.M * m) =
      scaleX (1 / b ^ 3) (diffusivity o l rho_s s g p m) := by
  have habs : ∀ {c : K} (_ : 0 < c) (x : XF K), (scaleX c x).abs = scaleX c x.abs := by
    intro c hc x
    cases x with
    | fin x => exact congrArg XF.fin (by rw [abs_mul, abs_of_pos hc])
    | _ => rfl
  have hr := ho.sqrt_pos U.dens_pos
  have hr2 : o.sqrt U.dens ^ 2 = U.dens := by rw [sq]; exact ho.sqrt_mul _ U.dens_pos.le
  set e := o.sqrt U.dens with he
  have h1 : U.rate = (1 / b) ^ 2 := by unfold NewUnits.rate; rw [hT]; ring
  have h2 : U.stress = (e / b ^ 2) ^ 2 := by
    rw [div_pow, hr2]
    unfold NewUnits.stress NewUnits.dens NewUnits.vol
    rw [hT, hL]
    have := U.W_ne
    have := hb.ne'
    field_simp
  have h3 : (XF.fin (U.dens * rho_s) : XF K) = scaleX (e ^ 2) (.fin rho_s) := by rw [hr2]; rfl
  have h4 : (XF.fin (U.M * m) : XF K) = scaleX U.M (.fin m) := rfl
  have hs : 0 < U.stress := U.stress_pos
  have hm : 0 < U.M * U.stress := mul_pos U.M_pos hs
  unfold diffusivity
  rw [h4, scaleX_div hm U.M_pos, mul_div_cancel_left₀ _ U.M_ne, habs hs, habs U.rate_pos, h1, h2, h3,
    scaleX_sqrt ho (by positivity), scaleX_sqrt ho (by positivity), scaleX_sqrt ho hr]
  have h5 : ∀ x : XF K, x = scaleX 1 x := fun x => (scaleX_one x).symm
  rw [h5 (.fin l * pow15 o s), scaleX_mul one_pos (by positivity),
    scaleX_mul (by positivity) (by positivity), scaleX_div (by positivity) hr, scaleX_one]
  congr 1
  have := hb.ne'
  have := hr.ne'
  field_simp

end
end Mpm

/-! ## The hypotheses can be met -/

namespace Mpm
open Spec

/-- Grams instead of kilograms, millimetres for metres, milliseconds for seconds. -/
def Ex.units (K : Type) [Field K] [LinearOrder K] [IsStrictOrderedRing K] : NewUnits K :=
  { M := 1000, L := 1000, T := 1000, W := 1000, M_pos := by norm_num, L_pos := by norm_num
    T_pos := by norm_num, W_pos := by norm_num }

/-- A run in the new units. -/
example : ∃ G s', mkGrid Ex.par.G Ex.par.B = .ok G ∧
    steps Ex.par (Ex.noInterp Ex.par) 2 { dyn := Ex.dyn, L := Ex.L, G := G } = .ok s' ∧
    hideRate <$> steps (scalePar (Ex.units ℚ) Ex.par) (Ex.noInterp _) 2
      (scaleSt (Ex.units ℚ) { dyn := Ex.dyn, L := Ex.L, G := G } :
        St (scalePar (Ex.units ℚ) Ex.par)) = .ok (scaleSt (Ex.units ℚ) (hideRate s')) := by
  obtain ⟨G, s', hG, hs, -⟩ := Ex.run_ok (P := Ex.par) (d := Ex.dyn) (L := Ex.L) (n := 2)
    (check := fun _ => true) (by decide +kernel)
  have key : ∀ a ∈ Ex.L, Consistent Ex.par.ops Ex.par.G.s a := by
    intro a ha
    simp only [Ex.L, List.mem_cons, List.not_mem_nil, or_false] at ha
    subst ha
    refine ⟨⟨⟨by simp [Ex.ph], by simp [Ex.ph]⟩, fun h => ?_⟩, fun h => ?_, fun mp _ h => ?_⟩
    · simp [TakesRoot, Ex.ph] at h
    · cases h
    · cases h
  refine ⟨G, s', hG, hs, ?_⟩
  rw [c111_steps (Ex.units ℚ) Ex.par rfl rfl (fun h => by rcases h with h | h <;> cases h)
    (Ex.noInterp _) (Ex.noInterp _) 2 { dyn := Ex.dyn, L := Ex.L, G := G } Ex.countedL key, hs]
  rfl

/-- The other laws, over the reals. -/
example : Consistent (realOps 1) (![1, 2] : Fin 2 → ℝ)
    { ph := { n := 1, law := .pouliquen, par := Ex.matF ℝ, A := 1, hasIv := false, iv := 0,
              phi := ![1, 0], inlet_rate := 1, gap := ![0, 0], yp := [] }
      pts := [Ex.pointF ℝ] } := by
  have h1 : ∀ x y : ℝ, 0 ≤ x → 0 ≤ y → ∀ j, 0 ≤ (![x, y] : Fin 2 → ℝ) j := by
    intro x y hx hy j
    fin_cases j
    · exact hx
    · exact hy
  have h2 : ∀ l, (Ex.matF ℝ).I_0 = .arr l → ∀ x ∈ l, 0 ≤ x := by
    intro l hl x hx
    cases hl
    simp only [List.mem_cons, List.not_mem_nil, or_false, or_self] at hx
    rw [hx]; exact zero_le_one
  refine ⟨⟨⟨by simp, by simp⟩, fun _ => realOps_good one_pos⟩, fun _ => ⟨h1 _ _ ?_ ?_, h1 _ _ ?_ ?_, h2⟩,
    fun mp hmp _ => ?_⟩
  · norm_num
  · norm_num
  · norm_num
  · norm_num
  · simp only [List.mem_cons, List.not_mem_nil, or_false] at hmp
    subst hmp
    refine ⟨h1 _ _ ?_ ?_, h1 _ _ ?_ ?_, h2⟩ <;> norm_num

/-- The exceptions. -/
example : ∃ r r', runLaw .ken_simple (Ex.ctxS (realOps 1)) { Ex.pointF ℝ with rho := 3 } = .ok r ∧
    2500 < ({ Ex.units ℝ with L := 1, W := 1, L_pos := one_pos, W_pos := one_pos } :
      NewUnits ℝ).dens * 3 ∧
    (Ex.pointF ℝ).pressure + (Ex.ctxS (realOps 1)).mat.Kb * ((Ex.pointF ℝ).dstrain.trace / 3) < 0 ∧
    runLaw .ken_kamrin (Ex.ctxS (realOps 1)) { Ex.pointF ℝ with dstrain := 0 } = .ok r' ∧
    (Ex.units ℝ).T ≠ 1 := by
  have hdt : (Ex.ctxS (realOps 1)).dt ≠ 0 := by simp [Ex.ctxS, Ex.ctxF]
  simp only [runLaw, lawKenSimple, lawKenKamrin, if_neg hdt]
  refine ⟨_, _, rfl, ?_, ?_, rfl, ?_⟩
  · norm_num [NewUnits.dens, NewUnits.vol, Ex.units]
  · have ht : (Ex.pointF ℝ).dstrain.trace = 0 := by simp [Ex.pointF, Matrix.trace_fin_three]
    rw [ht]
    norm_num [Ex.pointF]
  · norm_num [Ex.units]

end Mpm

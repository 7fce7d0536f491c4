import Verif.Lemmas.ScaleLaw
import Verif.Model.Main
import Verif.Props.Translate

/-! A time step in other units. -/

set_option linter.unusedSectionVars false

namespace Mpm
open Spec

namespace Spec
section
variable {K : Type} [Field K] [LinearOrder K] {ns N : ℕ} (U : NewUnits K)

/-- The domain. -/
abbrev scaleGP (P : GP K) : GP K :=
  { P with
    x_m := U.L * P.x_m, x_M := U.L * P.x_M, y_m := U.L * P.y_m, y_M := U.L * P.y_M
    dx := U.L * P.dx, dy := U.L * P.dy, thickness := U.W * P.thickness, s := U.L • P.s }

/-- The part of the parameters that changes. -/
def scaleDyn (d : Dyn K) : Dyn K :=
  { t := U.T * d.t, dt := U.T * d.dt, tstep := d.tstep, g := U.acc * d.g, q_v := U.stress * d.q_v
    q_h := U.stress * d.q_h }

/-- A phase. -/
def scalePh (ph : Phase K ns) : Phase K ns :=
  { n := ph.n, law := ph.law, par := scaleMat U ph.law ph.par, A := U.L ^ 2 * ph.A
    hasIv := ph.hasIv, iv := U.vel • ph.iv, phi := ph.phi, inlet_rate := U.T * ph.inlet_rate
    gap := U.L • ph.gap, yp := ph.yp.map (U.L * ·) }

/-- A phase with its points. -/
def scalePhSt (a : PhaseSt K ns) : PhaseSt K ns :=
  { ph := scalePh U a.ph, pts := a.pts.map (scalePt U a.ph.law) }

/-- Nodal values reported by the laws: each is the sum of a quantity times a mass. -/
def scaleVisF (vis : Vis → Fin N → XF K) : Vis → Fin N → XF K :=
  fun v n => scaleX (U.M * visUnit U v) (vis v n)

/-- The grid. -/
def scaleGrid (G : Grid K N ns) : Grid K N ns :=
  { dx := U.L * G.dx, dy := U.L * G.dy, X := fun n => U.L * G.X n, Y := fun n => U.L * G.Y n
    boundary_v := G.boundary_v, boundary_h := G.boundary_h, boundary_tot := G.boundary_tot
    boundary_conveyor := G.boundary_conveyor, V := fun n => U.vol * G.V n
    fi := fun n => U.force • G.fi n, fe := fun n => U.force • G.fe n, m := fun n => U.M * G.m n
    q := fun n => U.mom • G.q n, q_dot := fun n => U.force • G.q_dot n
    ext_f := fun n => U.stress • G.ext_f n, vis := scaleVisF U G.vis
    s_bar := fun n => U.L * G.s_bar n, dphi := G.dphi, pk := fun n => scaleX U.stress (G.pk n)
    dpk := fun n => U.stress * G.dpk n, pkm := fun n => U.M * U.stress * G.pkm n
    grad_pk := fun n => (U.stress / U.L) • G.grad_pk n, phim := fun n => U.M • G.phim n
    phi := G.phi }

end

section
variable {K : Type} [Field K] [LinearOrder K] [IsStrictOrderedRing K] (U : NewUnits K)

/-- The parameters.  The user's forces are a function of the time in the new unit. -/
abbrev scalePar (P : Par K) : Par K :=
  { P with
    G := scaleGP U P.G, M_tol := U.M * P.M_tol
    M_tol_nonneg := mul_nonneg U.M_pos.le P.M_tol_nonneg
    max_g := U.acc * P.max_g, initial_pressure := U.stress * P.initial_pressure
    top_gap := P.top_gap.map (U.L * ·), v_0 := U.vel * P.v_0, intruder_v := U.vel • P.intruder_v
    s_bar_0 := U.L * P.s_bar_0
    forces := fun t => (U.acc * (P.forces (t / U.T)).1, U.stress * (P.forces (t / U.T)).2.1,
      U.stress * (P.forces (t / U.T)).2.2) }

/-- The whole state. -/
abbrev scaleSt {P : Par K} (s : St P) : St (scalePar U P) :=
  { dyn := scaleDyn U s.dyn, L := s.L.map (scalePhSt U), G := scaleGrid U s.G }

end
end Spec

section
variable {K : Type} [Field K] [LinearOrder K] [IsStrictOrderedRing K] {ns N : ℕ} {U : NewUnits K}

theorem Spec.NewUnits.mom_eq : U.mom = U.M * U.vel := by
  unfold NewUnits.mom NewUnits.vel; rw [mul_div_assoc]
theorem Spec.NewUnits.force_eq : U.force = U.M * U.acc := by
  unfold NewUnits.force NewUnits.acc; rw [mul_div_assoc]
theorem Spec.NewUnits.vel_eq : U.vel = U.T * U.acc := by
  have := U.T_ne; unfold NewUnits.vel NewUnits.acc; field_simp
theorem Spec.NewUnits.L_eq : U.L = U.T * U.vel := by
  have := U.T_ne; unfold NewUnits.vel; field_simp
theorem Spec.NewUnits.T_rate : U.T * U.rate = 1 := by
  have := U.T_ne; unfold NewUnits.rate; field_simp
theorem Spec.NewUnits.vol_dens : U.dens * U.vol = U.M := by
  have := U.vol_pos.ne'; unfold NewUnits.dens; field_simp
theorem Spec.NewUnits.force_vol : U.vol * U.stress / U.L = U.force := by
  have := U.T_ne; have := U.L_ne; have := U.W_ne
  unfold NewUnits.vol NewUnits.stress NewUnits.force; field_simp
theorem Spec.NewUnits.force_dens : U.stress * U.M / U.dens / U.L = U.force := by
  have := U.T_ne; have := U.L_ne; have := U.W_ne; have := U.M_ne
  unfold NewUnits.dens NewUnits.vol NewUnits.stress NewUnits.force; field_simp
theorem Spec.NewUnits.force_pos : 0 < U.force := by
  have := U.T_pos; have := U.L_pos; have := U.M_pos
  unfold NewUnits.force; positivity
theorem Spec.NewUnits.vel_pos : 0 < U.vel := by
  have := U.T_pos; have := U.L_pos
  unfold NewUnits.vel; positivity

/-! ## Points -/

theorem get_scale (iv : Vec K) (v : VRef K) : (scaleV U v).get (U.vel • iv) = U.vel • v.get iv := by
  cases v <;> rfl

theorem addVel_scale (d : Vec K) (v : VRef K) (iv : Vec K) :
    addVel (U.vel • d) (scaleV U v, U.vel • iv) =
      Prod.map (scaleV U) (U.vel • ·) (addVel d (v, iv)) := by
  cases v <;> simp only [addVel, scaleV, Prod.map, smul_add]

theorem addAt_scale (c : K) (f : Fin N → K) (n : Fin N) (x : K) :
    addAt (fun i => c * f i) n (c * x) = fun i => c * addAt f n x i := by
  funext i
  unfold addAt
  by_cases h : i = n
  · subst h; simp [mul_add]
  · simp [h]

theorem addAt_smul (c : K) (f : Fin N → Vec K) (n : Fin N) (x : Vec K) :
    addAt (fun i => c • f i) n (c • x) = fun i => c • addAt f n x i := by
  funext i
  unfold addAt
  by_cases h : i = n
  · subst h; simp [smul_add]
  · simp [h]

theorem shapeN_scale (dx dy : K) (x : Vec K) :
    shapeN (U.L * dx) (U.L * dy) (U.L • x) = shapeN dx dy x := by
  have h := U.L_ne
  have h2 : U.L * dx * (U.L * dy) = U.L ^ 2 * (dx * dy) := by ring
  funext r
  fin_cases r <;> simp only [shapeN, Pi.smul_apply, smul_eq_mul, h2, ← mul_sub] <;>
    (rw [← mul_div_mul_left _ (dx * dy) (pow_ne_zero 2 h)]; congr 1; ring)

theorem shapeG_scale (dx dy : K) (x : Vec K) (r : Fin 4) :
    shapeG (U.L * dx) (U.L * dy) (U.L • x) r = (1 / U.L) • shapeG dx dy x r := by
  have h := U.L_ne
  have h2 : U.L * dx * (U.L * dy) = U.L ^ 2 * (dx * dy) := by ring
  have h3 : ∀ a, U.L * a / (U.L ^ 2 * (dx * dy)) = 1 / U.L * (a / (dx * dy)) := by
    intro a
    rw [pow_two, mul_assoc, mul_div_mul_left _ _ h, div_mul_eq_div_div, div_mul_eq_mul_div, one_mul,
      div_right_comm]
  funext k
  fin_cases r <;> fin_cases k <;>
    simp only [shapeG, Pi.smul_apply, smul_eq_mul, h2, ← mul_sub, ← mul_neg, h3, Matrix.cons_val,
      zero_div, mul_zero, Fin.zero_eta, Fin.mk_one, Fin.reduceFinMk]

theorem basis_scale (law : Law) (G : Grid K N ns) (mp : Particle K ns) :
    (scalePt U law mp).getBasisFunctions (scaleGrid U G) =
      scalePt U law <$> mp.getBasisFunctions G := by
  refine res_bind_id fun n => ?_
  have hx : (![(scalePt U law mp).x 0 - (scaleGrid U G).X n, (scalePt U law mp).x 1
      - (scaleGrid U G).Y n, (scalePt U law mp).x 2 - 0] : Vec K)
      = U.L • ![mp.x 0 - G.X n, mp.x 1 - G.Y n, mp.x 2 - 0] := by
    funext k
    fin_cases k <;> simp [scalePt, scaleGrid, mul_sub]
  dsimp only
  rw [hx]
  refine ite_iff ?_ rfl (congrArg Except.ok ?_)
  · have h2 : (scaleGrid U G).dx * (scaleGrid U G).dy = U.L ^ 2 * (G.dx * G.dy) := by
      simp only [scaleGrid]; ring
    rw [h2, mul_eq_zero_iff' (pow_pos U.L_pos 2)]
  · simp only [scalePt, scaleGrid, Particle.mk.injEq, true_and, and_true]
    exact ⟨funext fun r => shapeG_scale _ _ _ r, shapeN_scale _ _ _⟩

theorem nodeVel_scale (M_tol : K) (G : Grid K N ns) (n : Fin N) :
    nodeVel (U.M * M_tol) (scaleGrid U G) n = U.vel • nodeVel M_tol G n := by
  unfold nodeVel
  have h : U.M * M_tol < (scaleGrid U G).m n ↔ M_tol < G.m n := mul_lt_mul_iff_right₀ U.M_pos
  simp only [h]
  split
  · funext k
    simp only [scaleGrid, Pi.smul_apply, smul_eq_mul, NewUnits.mom_eq]
    rw [mul_assoc, mul_div_mul_left _ _ U.M_ne, mul_div_assoc]
  · simp

theorem node_scale (law : Law) (nx N : ℕ) (mp : Particle K ns) (r : Fin 4) :
    (scalePt U law mp).node nx N r = mp.node nx N r := rfl

theorem updateStrain_scale (law : Law) (nx : ℕ) (M_tol dt : K) (G : Grid K N ns)
    (mp : Particle K ns) :
    (scalePt U law mp).updateStrain nx (U.M * M_tol) (U.T * dt) (scaleGrid U G) =
      scalePt U law <$> mp.updateStrain nx M_tol dt G := by
  have h0 : ({ scalePt U law mp with dstrain := 0, LL := 0 } : Particle K ns) =
      scalePt U law { mp with dstrain := 0, LL := 0 } := by
    simp [scalePt]
  unfold Particle.updateStrain
  rw [h0]
  refine res_bind_map (f := scalePt U law) (for4_equiv (ψ := scalePt U law) (fun r mp => ?_) _)
    fun _ _ => rfl
  refine res_bind_id fun n => congrArg Except.ok ?_
  have hv : U.vel * (1 / U.L) = U.rate := by
    have := U.L_ne; have := U.T_ne; unfold NewUnits.vel NewUnits.rate; field_simp
  have h1 : ∀ v g : Vec K, Matrix.vecMulVec (U.vel • v) ((1 / U.L) • g) =
      U.rate • Matrix.vecMulVec v g := by
    intro v g
    rw [Matrix.vecMulVec_smul, Matrix.smul_vecMulVec, smul_smul, mul_comm, hv]
  have h2 : ∀ v g : Vec K, Matrix.vecMulVec ((1 / U.L) • g) (U.vel • v) =
      U.rate • Matrix.vecMulVec g v := by
    intro v g
    rw [Matrix.vecMulVec_smul, Matrix.smul_vecMulVec, smul_smul, hv]
  simp only [scalePt, nodeVel_scale, h1, h2, Particle.mk.injEq, true_and, and_true]
  refine ⟨?_, ?_⟩
  · congr 1
    rw [← smul_add, smul_smul]
    congr 1
    have := U.T_rate
    linear_combination (1 / 2 * dt) * this
  · simp only [smul_add]

theorem applyStress_scale (law : Law) (dt : K) (mp : Particle K ns) :
    (scalePt U law mp).applyStress (U.T * dt) = scalePt U law (mp.applyStress dt) := by
  unfold Particle.applyStress
  simp only [scalePt, Particle.mk.injEq, true_and, and_true]
  have h : (U.T * dt) • (U.rate • mp.LL * U.stress • mp.stress + U.stress • mp.stress * U.rate • mp.LL)
      = U.stress • dt • (mp.LL * mp.stress + mp.stress * mp.LL) := by
    rw [Matrix.smul_mul, Matrix.mul_smul, Matrix.smul_mul, Matrix.mul_smul, smul_smul U.rate,
      smul_smul U.stress, mul_comm U.stress U.rate, ← smul_add, smul_smul, smul_smul]
    congr 1
    have := U.T_rate
    linear_combination (dt * U.stress) * this
  rw [h, ← smul_sub, ← smul_add]

theorem scaleVisF_apply (vis : Vis → Fin N → XF K) (v : Vis) (n : Fin N) :
    scaleVisF U vis v n = scaleX (U.M * visUnit U v) (vis v n) := rfl

theorem scatterVis_scale (law : Law) (nx : ℕ) (mp : Particle K ns) (l : List (Vis × XF K))
    (vis : Vis → Fin N → XF K) :
    scatterVis nx (scalePt U law mp) (scaleVis U l) (scaleVisF U vis) =
      scaleVisF U <$> scatterVis nx mp l vis := by
  refine for4_equiv (ψ := scaleVisF U) (fun r vis => res_bind_id fun n => congrArg Except.ok ?_) vis
  have hu : ∀ v, 0 < visUnit U v := by
    have h1 := U.rate_pos; have h2 := U.stress_pos; have h3 := U.visc_pos
    have h4 := div_pos h2 U.T_pos
    intro v; cases v <;> first | exact one_pos | assumption
  have hM := U.M_pos
  induction l generalizing vis with
  | nil => rfl
  | cons e l ih =>
    simp only [scaleVis, List.map_cons, List.foldl_cons] at ih ⊢
    rw [← ih]
    congr 1
    funext v
    by_cases hv : v = e.1
    · subst hv
      funext k
      simp only [scaleVisF_apply, Function.update_self]
      unfold addAt
      have h1 : (XF.fin ((scalePt U law mp).N r) * scaleX (visUnit U e.1) e.2 *
          XF.fin ((scalePt U law mp).m) : XF K) =
          scaleX (U.M * visUnit U e.1) (.fin (mp.N r) * e.2 * .fin mp.m) := by
        have h2 : (XF.fin ((scalePt U law mp).N r) : XF K) = scaleX 1 (.fin (mp.N r)) :=
          (scaleX_one _).symm
        have h3 : (XF.fin ((scalePt U law mp).m) : XF K) = scaleX U.M (.fin mp.m) := rfl
        rw [h2, h3, scaleX_mul one_pos (hu _), scaleX_mul (by have := hu e.1; positivity) hM]
        congr 1; ring
      by_cases hk : k = n
      · subst hk
        simp only [Function.update_self]
        rw [h1, scaleVisF_apply, scaleX_add]
      · simp only [Function.update_of_ne hk, scaleVisF_apply]
    · funext k
      simp only [scaleVisF_apply, Function.update_of_ne hv]

theorem updateStress_scale {law : Law} (hd : Dimensional law) (law0 : Law) (nx : ℕ)
    (c : LawCtx K ns) (ho : TakesRoot law → GoodOps c.ops) (mp : Particle K ns)
    (hz : Sized law c.mat c.s mp.phi) (vis : Vis → Fin N → XF K) :
    (scalePt U law mp).updateStress nx law (scaleCtx U law law0 c) (scaleVisF U vis) =
      Prod.map (scalePt U law) (scaleVisF U) <$> mp.updateStress nx law c vis := by
  refine res_bind_map (runLaw_scale hd law0 c ho mp hz) fun r _ => ?_
  refine res_bind_map (scatterVis_scale law nx r.1 r.2 vis) fun vis' _ => ?_
  exact congrArg (fun x => (Except.ok (x, scaleVisF U vis') : Res _))
    (applyStress_scale law c.dt r.1)

theorem updateStrain_phi {nx : ℕ} {M_tol dt : K} {G : Grid K N ns} {mp mp' : Particle K ns}
    (h : mp.updateStrain nx M_tol dt G = .ok mp') : mp'.phi = mp.phi := by
  unfold Particle.updateStrain for4 at h
  obtain ⟨a, ha, h⟩ := res_bind_ok.1 h
  obtain ⟨a0, h0, ha⟩ := res_bind_ok.1 ha
  obtain ⟨a1, h1, ha⟩ := res_bind_ok.1 ha
  obtain ⟨a2, h2, ha⟩ := res_bind_ok.1 ha
  obtain ⟨_, -, h0⟩ := res_bind_ok.1 h0
  obtain ⟨_, -, h1⟩ := res_bind_ok.1 h1
  obtain ⟨_, -, h2⟩ := res_bind_ok.1 h2
  obtain ⟨_, -, ha⟩ := res_bind_ok.1 ha
  cases h0; cases h1; cases h2; cases ha; cases h
  rfl

theorem stressStrain_scale {law : Law} (hd : Dimensional law) (law0 : Law) (nx : ℕ) (M_tol : K)
    (G : Grid K N ns) (c : LawCtx K ns) (ho : TakesRoot law → GoodOps c.ops) (mp : Particle K ns)
    (hz : Sized law c.mat c.s mp.phi) (vis : Vis → Fin N → XF K) :
    (scalePt U law mp).stressStrain nx (U.M * M_tol) (scaleGrid U G) law (scaleCtx U law law0 c)
        (scaleVisF U vis) =
      Prod.map (scalePt U law) (scaleVisF U) <$> mp.stressStrain nx M_tol G law c vis := by
  refine res_bind_map (updateStrain_scale law nx M_tol c.dt G mp) fun mp' h => ?_
  exact updateStress_scale hd law0 nx c ho mp' (by rw [updateStrain_phi h]; exact hz) vis

theorem p2g_scale (law : Law) (nx : ℕ) (vel : Vec K) (mp : Particle K ns) (G : Grid K N ns) :
    (scalePt U law mp).p2g nx false (U.vel • vel) (scaleGrid U G) =
      scaleGrid U <$> mp.p2g nx false vel G := by
  refine for4_equiv (ψ := scaleGrid U) (fun r G => res_bind_id fun n => congrArg Except.ok ?_) G
  simp only [scaleGrid, scalePt, Grid.mk.injEq, true_and, and_true, Bool.false_eq_true, if_false]
  refine ⟨?_, ?_⟩
  · rw [← addAt_scale]; congr 1; ring
  · rw [← addAt_smul, NewUnits.mom_eq, smul_smul, smul_smul]; congr 2; ring

theorem nodalForces_scale (law : Law) (nx : ℕ) (mp : Particle K ns) (G : Grid K N ns) :
    (scalePt U law mp).nodalForces nx (scaleGrid U G) = scaleGrid U <$> mp.nodalForces nx G := by
  refine for4_equiv (ψ := scaleGrid U) (fun r G => res_bind_id fun n => congrArg Except.ok ?_) G
  simp only [scaleGrid, scalePt, Grid.mk.injEq, true_and, and_true]
  refine ⟨?_, ?_⟩
  · rw [← addAt_smul, Matrix.smul_mulVec, Matrix.mulVec_smul, smul_smul, smul_smul, smul_smul,
      ← NewUnits.force_vol]
    congr 2; ring
  · rw [← addAt_smul, NewUnits.force_eq, smul_smul, smul_smul]; congr 2; ring

theorem gravity_scale (law : Law) (P : Par K) (g : K) (p : ℕ) (mp : Particle K ns) :
    (scalePt U law mp).incrementGravity (scalePar U P) (U.acc * g) p =
      scalePt U law (mp.incrementGravity P g p) := by
  unfold Particle.incrementGravity
  split
  · simp only [scalePt, Particle.mk.injEq, true_and, and_true]
    funext k
    fin_cases k <;> simp [bodyForce, mul_assoc]
  · rfl

theorem over_mass {a b : K} (x m : K) (h : a = U.M * b) : a * x / (U.M * m) = b * (x / m) := by
  rw [h, mul_assoc, mul_div_mul_left _ _ U.M_ne, mul_div_assoc]

theorem move_scale (law : Law) (nx : ℕ) (M_tol dt : K) (G : Grid K N ns) (mp : Particle K ns)
    (iv : Vec K) :
    (scalePt U law mp).move nx (U.M * M_tol) (U.T * dt) (scaleGrid U G) (U.vel • iv)
      = Prod.map (scalePt U law) (U.vel • ·) <$> mp.move nx M_tol dt G iv := by
  have hm : ∀ n, U.M * M_tol < (scaleGrid U G).m n ↔ M_tol < G.m n :=
    fun n => mul_lt_mul_iff_right₀ U.M_pos
  have h0 : ∀ mp : Particle K ns, ({ scalePt U law mp with rho := 0 } : Particle K ns) =
      scalePt U law { mp with rho := 0 } := fun mp => by simp [scalePt]
  unfold Particle.move
  refine res_bind_map (f := Prod.map (scalePt U law) (U.vel • ·))
    (for4_equiv (ψ := Prod.map (scalePt U law) (U.vel • ·)) (fun r s => ?_) (mp, iv)) fun s _ => ?_
  · refine res_bind_id fun n => ite_iff (hm n) ?_ rfl
    have hq : (fun k => U.T * dt * s.1.N r * (scaleGrid U G).q_dot n k / (scaleGrid U G).m n) =
        U.vel • fun k => dt * s.1.N r * G.q_dot n k / G.m n := by
      funext k
      have h : U.T * dt * s.1.N r * (scaleGrid U G).q_dot n k =
          (U.T * U.force) * (dt * s.1.N r * G.q_dot n k) := by
        simp only [scaleGrid, Pi.smul_apply, smul_eq_mul]; ring
      rw [h, Pi.smul_apply, smul_eq_mul]
      exact over_mass _ _ (by rw [NewUnits.force_eq, NewUnits.vel_eq]; ring)
    have hx : (fun k => U.T * dt * s.1.N r * (scaleGrid U G).q n k / (scaleGrid U G).m n) =
        U.L • fun k => dt * s.1.N r * G.q n k / G.m n := by
      funext k
      have h : U.T * dt * s.1.N r * (scaleGrid U G).q n k =
          (U.T * U.mom) * (dt * s.1.N r * G.q n k) := by
        simp only [scaleGrid, Pi.smul_apply, smul_eq_mul]; ring
      rw [h, Pi.smul_apply, smul_eq_mul]
      exact over_mass _ _ (by rw [NewUnits.mom_eq, NewUnits.L_eq]; ring)
    have ha := addVel_scale (U := U) (fun k => dt * s.1.N r * G.q_dot n k / G.m n) s.1.v s.2
    refine congrArg Except.ok (Prod.ext ?_ ?_)
    · simp only [Prod.map, scalePt, Particle.mk.injEq, true_and, and_true]
      refine ⟨?_, ?_⟩
      · rw [hx, smul_add]
      · rw [hq]; exact congrArg Prod.fst ha
    · exact (congrArg (fun d => (addVel d (scaleV U s.1.v, U.vel • s.2)).2) hq).trans
        (congrArg Prod.snd ha)
  · refine res_bind_map (f := scalePt U law) ?_ fun _ _ => rfl
    refine Eq.trans (congrArg (for4 _) (h0 s.1)) ?_
    refine for4_equiv (ψ := scalePt U law) (fun r s => ?_) _
    refine res_bind_id fun n => ite_iff (hm n) ?_ rfl
    refine ite_iff (mul_eq_zero_iff' U.vol_pos _) rfl (congrArg Except.ok ?_)
    simp only [scalePt, scaleGrid, Particle.mk.injEq, and_true]
    rw [mul_add]
    congr 1
    have hv := U.vol_pos.ne'
    rw [← mul_assoc, mul_comm (s.N r), mul_assoc, ← NewUnits.vol_dens, mul_comm U.dens, mul_assoc,
      mul_div_mul_left _ _ hv, mul_div_assoc]

theorem moveRigid_scale (law : Law) (dt : K) (v : Vec K) (mp : Particle K ns) :
    (scalePt U law mp).moveRigid (U.T * dt) (U.vel • v) = scalePt U law (mp.moveRigid dt v) := by
  unfold Particle.moveRigid
  simp only [scalePt, scaleV, Particle.mk.injEq, true_and, and_true]
  rw [smul_add, smul_smul, smul_smul, NewUnits.L_eq]
  congr 2; ring

/-! ## The grid -/

theorem makeCyclic_scale {nx ny : ℕ} {α β : Type} [Add α] [Add β] {f : α → β}
    (hf : ∀ x y, f (x + y) = f x + f y) (a : Fin (ny * nx) → α) :
    makeCyclic (nx := nx) (ny := ny) (fun i => f (a i)) = fun i => f (makeCyclic a i) := by
  funext i
  unfold makeCyclic
  dsimp only
  split_ifs <;> simp only [hf]

theorem maskOff_scale (c x : K) (b : Bool) : maskOff (c * x) b = c * maskOff x b := mul_assoc _ _ _

theorem sgn_scale {c : K} (hc : 0 < c) (x : K) : sgn (c * x) = sgn x := by
  unfold sgn
  simp only [mul_pos_iff_of_pos_left hc, mul_neg_iff' hc]

theorem roughNode_scale {c : K} (hc : 0 < c) (mu : K) (bh bv n1 : Bool) (q : Vec K) :
    roughNode mu bh bv n1 (c • q) = c • roughNode mu bh bv n1 q := by
  have h1 : ∀ x y : K, min |c * x| (mu * |c * y|) = c * min |x| (mu * |y|) := by
    intro x y
    rw [mul_min_of_nonneg _ _ hc.le, abs_mul, abs_mul, abs_of_pos hc]
    congr 1; ring
  have h2 : ∀ a x y : K, a * (c * x) * y = c * (a * x * y) := fun a x y => by ring
  funext k
  unfold roughNode
  simp only [Pi.smul_apply, smul_eq_mul, h1, sgn_scale hc, mul_neg_iff' hc,
    mul_pos_iff_of_pos_left hc]
  fin_cases k
  · simp only [Fin.zero_eta, Matrix.cons_val_zero]
    split_ifs <;> ring
  · simp only [Fin.mk_one, Matrix.cons_val_one, Matrix.cons_val_zero]
    split_ifs <;> ring
  · rfl

theorem wipe_scale (G : Grid K N ns) : (scaleGrid U G).wipe = scaleGrid U G.wipe := by
  have h : scaleVisF U (fun _ _ => .fin 0) = fun (_ : Vis) (_ : Fin N) => (XF.fin 0 : XF K) := by
    funext v n
    exact congrArg XF.fin (mul_zero _)
  have h1 : scaleX U.stress (.fin 0) = XF.fin 0 := congrArg XF.fin (mul_zero _)
  unfold Grid.wipe
  simp only [scaleGrid, h, h1, smul_zero, mul_zero, Grid.mk.injEq, true_and, and_true]
  refine ⟨?_, ?_⟩ <;> (funext n k; simp)

theorem zeroBoundary_scale (rough : Bool) (G : Grid K N ns) :
    (scaleGrid U G).zeroBoundaryMomentum rough = scaleGrid U (G.zeroBoundaryMomentum rough) := by
  unfold Grid.zeroBoundaryMomentum
  simp only [scaleGrid, Grid.mk.injEq, true_and, and_true]
  funext n k
  cases rough <;> fin_cases k <;> simp [maskOff_scale]

theorem cyclicMQ_scale {nx ny : ℕ} (G : Grid K (ny * nx) ns) :
    (scaleGrid U G).makeCyclicMQ = scaleGrid U G.makeCyclicMQ := by
  unfold Grid.makeCyclicMQ
  simp only [scaleGrid, Grid.mk.injEq, true_and, and_true]
  exact ⟨makeCyclic_scale (fun x y => mul_add _ x y) _, makeCyclic_scale (fun x y => smul_add _ x y) _⟩

theorem cyclicForces_scale {nx ny : ℕ} (G : Grid K (ny * nx) ns) :
    (scaleGrid U G).makeCyclicForces = scaleGrid U G.makeCyclicForces := by
  unfold Grid.makeCyclicForces
  simp only [scaleGrid, Grid.mk.injEq, true_and, and_true]
  exact ⟨makeCyclic_scale (fun x y => smul_add _ x y) _, makeCyclic_scale (fun x y => smul_add _ x y) _⟩

theorem cyclicVis_scale {nx ny : ℕ} (l : List Vis) (G : Grid K (ny * nx) ns) :
    (scaleGrid U G).makeCyclicVis l = scaleGrid U (G.makeCyclicVis l) := by
  unfold Grid.makeCyclicVis
  simp only [scaleGrid, Grid.mk.injEq, true_and, and_true]
  funext v
  unfold scaleVisF
  by_cases h : v ∈ l
  · simp only [if_pos h]
    exact makeCyclic_scale (fun x y => (scaleX_add _ x y).symm) _
  · simp only [if_neg h]

theorem BCs_scale {nx ny : ℕ} (B : BP K) (q_v q_h rho0 : K) (an : Bool) (G : Grid K (ny * nx) ns) :
    (scaleGrid U G).BCs B (U.stress * q_v) (U.stress * q_h) (U.dens * rho0) an =
      scaleGrid U <$> G.BCs B q_v q_h rho0 an := by
  have hd := U.dens_pos
  have hL := U.L_pos
  have hf : ∀ e m d : K, 2 * (U.stress * e) * (U.M * m) / (U.dens * rho0) / (U.L * d) =
      U.force * (2 * e * m / rho0 / d) := by
    intro e m d
    rw [← NewUnits.force_dens]
    simp only [div_eq_mul_inv, mul_inv]
    ring
  unfold Grid.BCs
  refine ite_iff ?_ rfl ?_
  · simp only [scaleGrid, mul_eq_zero_iff' hd, mul_eq_zero_iff' hL]
  · cases B.vertical_force <;> cases B.horizontal_force
    all_goals
      refine ite_equiv rfl (congrArg Except.ok ?_)
      simp only [scaleGrid, Grid.mk.injEq, true_and, and_true, if_true, if_false, Bool.false_eq_true,
        Pi.smul_apply, smul_eq_mul, Function.update_self, ← mul_add, ← mul_sub, ← mul_ite, hf]
    all_goals
      refine ⟨?_, ?_⟩ <;> funext n k <;> fin_cases k <;> simp [← mul_add, ← mul_sub, ← mul_ite, hf]

theorem momentum_scale {nx ny : ℕ} (B : BP K) (damping : Bool) (dt v_0 : K)
    (G : Grid K (ny * nx) ns) :
    (scaleGrid U G).updateMomentum B damping (U.T * dt) (U.vel * v_0) =
      scaleGrid U (G.updateMomentum B damping dt v_0) := by
  have hF := U.force_pos
  have hTF : U.T * U.force = U.mom := by
    rw [NewUnits.force_eq, NewUnits.mom_eq, NewUnits.vel_eq]; ring
  have hmask : ∀ (v : Vec K) (b1 b2 : Bool),
      ![maskOff ((U.force • v) 0) b1, maskOff ((U.force • v) 1) b2, (U.force • v) 2] =
        U.force • ![maskOff (v 0) b1, maskOff (v 1) b2, v 2] := by
    intro v b1 b2
    funext k
    fin_cases k <;> simp [maskOff_scale]
  have hd : (if damping = true then fun i => (7 / 10 : K) • ((scaleGrid U G).fe i - (scaleGrid U G).fi i)
      else fun i => (scaleGrid U G).fe i - (scaleGrid U G).fi i) = fun i => U.force •
        (if damping = true then fun i => (7 / 10 : K) • (G.fe i - G.fi i)
          else fun i => G.fe i - G.fi i) i := by
    cases damping
    · funext i; simp only [scaleGrid, Bool.false_eq_true, if_false, smul_sub]
    · funext i; simp only [scaleGrid, if_true, ← smul_sub]; rw [smul_comm]
  have hr : ∀ (qd : Fin (ny * nx) → Vec K) (bh bv : Fin (ny * nx) → Bool),
      (if B.roughness = true then
        if B.wall_mu ≠ 0 then
          fun i : Fin (ny * nx) => roughNode B.wall_mu (bh i) (bv i) (decide ((i : ℕ) = 1)) (U.force • qd i)
        else fun i => ![maskOff ((U.force • qd i) 0) (bh i), maskOff ((U.force • qd i) 1) (bv i),
          (U.force • qd i) 2]
      else fun i => U.force • qd i) = fun i => U.force •
      (if B.roughness = true then
        if B.wall_mu ≠ 0 then
          fun i : Fin (ny * nx) => roughNode B.wall_mu (bh i) (bv i) (decide ((i : ℕ) = 1)) (qd i)
        else fun i => ![maskOff (qd i 0) (bh i), maskOff (qd i 1) (bv i), qd i 2]
      else qd) i := by
    intro qd bh bv
    funext i
    split_ifs
    · exact roughNode_scale hF _ _ _ _ _
    · exact hmask _ _ _
    · rfl
  have hq : ∀ (v : Vec K) (i : Fin (ny * nx)),
      (scaleGrid U G).q i + (U.T * dt) • (U.force • v) = U.mom • (G.q i + dt • v) := by
    intro v i
    simp only [scaleGrid]
    rw [smul_smul, smul_add, smul_smul, ← hTF]
    congr 2; ring
  have hc : ∀ q : Fin (ny * nx) → Vec K,
      (if B.conveyor = true then
        fun i => if G.boundary_conveyor i = true then
          Function.update (U.mom • q i) 0 (U.vel * v_0 * (U.M * G.m i)) else U.mom • q i
      else fun i => U.mom • q i) = fun i => U.mom •
      (if B.conveyor = true then
        fun i => if G.boundary_conveyor i = true then
          Function.update (q i) 0 (v_0 * G.m i) else q i
      else q) i := by
    intro q
    funext i
    by_cases hB : B.conveyor = true
    · simp only [if_pos hB]
      by_cases hb : G.boundary_conveyor i = true
      · simp only [if_pos hb]
        funext k
        fin_cases k
        · simp [NewUnits.mom_eq]; ring
        · simp
        · simp
      · simp only [if_neg hb]
    · simp only [if_neg hB]
  unfold Grid.updateMomentum
  dsimp only
  rw [hd]
  have hb : (scaleGrid U G).boundary_h = G.boundary_h := rfl
  have hb' : (scaleGrid U G).boundary_v = G.boundary_v := rfl
  have hb'' : (scaleGrid U G).boundary_conveyor = G.boundary_conveyor := rfl
  have hm : (scaleGrid U G).m = fun i => U.M * G.m i := rfl
  rw [hb, hb', hb'', hm]
  generalize (if (B.roughness && decide (B.wall_mu ≠ 0)) = true then
    fun i => G.boundary_h i || inBottom nx ny i || inTop nx ny i else G.boundary_h) = bh
  generalize (if (B.roughness && decide (B.wall_mu ≠ 0)) = true then
    fun i => G.boundary_v i || inLeft nx ny i || inRight nx ny i else G.boundary_v) = bv
  rw [hr]
  simp only [hmask, hq]
  rw [hc]
  rfl

end
end Mpm

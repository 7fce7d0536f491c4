import Verif.Props.FloatBalance
import Verif.Props.FloatFluid
import Verif.Props.FloatYield
import Verif.Props.History

/-!
# C148: whole time steps in floating point with all laws but `dp` and `dp_rate`

`Besides.all` adds `von_mises`, `bingham` and `ken_kamrin` to the laws of C141.  Without rounding its runs are
those of the exact model, failures included; with rounding what C141 and C143 say holds for it too.
-/

set_option linter.unusedSectionVars false

namespace Mpm
namespace Spec

/-- The laws that `Besides.all` has. -/
def RoundedLaw (law : Law) : Prop :=
  law = .rigid ∨ law = .elastic ∨ law = .elastic_time ∨ law = .viscous ∨ law = .pouliquen ∨
    law = .linear_mu ∨ law = .ken_simple ∨ law = .von_mises ∨ law = .bingham ∨ law = .ken_kamrin

/-- Nothing stored that a law would turn into stress at rest: the plastic law keeps the deviator and the
volumetric stress apart from the stress, and the Bingham law an increment that it never resets. -/
def Unloaded {K : Type} [Field K] (law : Law) (dev : Mat K) (kk : K) (inc : Mat K) : Prop :=
  (law = .von_mises → dev = 0 ∧ kk = 0) ∧ (law = .bingham → inc = 0)

end Spec
open Spec

section
variable {K : Type} [Field K] [LinearOrder K] [IsStrictOrderedRing K] [FloorRing K]
  {rnd : K → K} {u : K} {P : Par K}

theorem updateYieldR_frame {ns N nx : ℕ} {law : Law} {c : LawCtx K ns} {mp b : Particle K ns}
    {vis w : Vis → Fin N → XF K} (h : mp.updateYieldR rnd nx law c vis = .ok (b, w)) :
    SameKin mp b ∧ b.m = mp.m := by
  obtain ⟨x, h1, rfl⟩ := updateYieldR_ok h
  have key : SameKin mp x.1 ∧ x.1.m = mp.m := by
    rcases yieldLawR_ok h1 with ⟨-, -, e⟩ | ⟨-, -, _, f, -, -, e⟩ | ⟨-, -, _, -, e⟩ <;>
      (rw [e]; exact ⟨by constructor <;> rfl, rfl⟩)
  exact ⟨key.1.trans (by constructor <;> rfl), key.2⟩

theorem Besides.all_plain : Plain (Besides.all rnd P) where
  stress := by
    intro d L p ph mp b vis w h
    change (if ph.law = .von_mises ∨ ph.law = .bingham ∨ ph.law = .ken_kamrin then _ else _) = _ at h
    split at h
    · exact ⟨(updateYieldR_frame h).1, fun _ => (updateYieldR_frame h).2⟩
    · exact updateStressR_frame h
  late := fun h => roundedLate (rnd := rnd) h

/-! ## Without rounding -/

theorem forPhases_congr {ns : ℕ} {σ : Type} {f g : ℕ → PhaseSt K ns → σ → Res (PhaseSt K ns × σ)}
    {L : List (PhaseSt K ns)} (h : ∀ p, ∀ a ∈ L, ∀ s, f p a s = g p a s) (p : ℕ) (s : σ) :
    forPhases f p L s = forPhases g p L s := by
  induction L generalizing p s with
  | nil => rfl
  | cons a L ih =>
    unfold forPhases
    rw [h p a List.mem_cons_self]
    refine bind_congr fun x => ?_
    dsimp only
    rw [ih fun p b hb => h p b (List.mem_cons_of_mem _ hb)]

theorem all_stress_exact {interp : Interp K P.G.N} {d : Dyn K} {L : List (PhaseSt K P.G.ns)} {p : ℕ}
    {ph : Phase K P.G.ns} (hl : RoundedLaw ph.law) (mp : Particle K P.G.ns) (vis : Vis → Fin P.G.N → XF K) :
    (Besides.all id P).stress d L p ph mp vis = (Besides.exact P interp).stress d L p ph mp vis := by
  show (if ph.law = .von_mises ∨ ph.law = .bingham ∨ ph.law = .ken_kamrin then
    mp.updateYieldR id P.G.nx ph.law (lawCtx P d P.G.s ((mat0 L).getD ph.par) p ph) vis else
    mp.updateStressR id P.G.nx ph.law (lawCtx P d P.G.s ((mat0 L).getD ph.par) p ph) vis) =
    mp.updateStress P.G.nx ph.law (lawCtx P d P.G.s ((mat0 L).getD ph.par) p ph) vis
  split
  · next h => exact c146_exact h _ _ _
  · next h =>
    rcases hl with e | e | e | e | e | e | e | e | e | e
    · exact c140_exact (.inl e) _ _ _
    · exact c140_exact (.inr (.inl e)) _ _ _
    · exact c140_exact (.inr (.inr (.inl e))) _ _ _
    · exact c140_exact (.inr (.inr (.inr e))) _ _ _
    · exact c144_exact (.inl e) _ _ _
    · exact c144_exact (.inr (.inl e)) _ _ _
    · exact c144_exact (.inr (.inr e)) _ _ _
    · exact absurd (.inl e) h
    · exact absurd (.inr (.inl e)) h
    · exact absurd (.inr (.inr e)) h

theorem mapPhases_laws {ns : ℕ} {f : ℕ → PhaseSt K ns → Res (PhaseSt K ns)}
    (hf : ∀ p a b, f p a = .ok b → b.ph.law = a.ph.law) {p : ℕ} {L L' : List (PhaseSt K ns)}
    (h : mapPhases f p L = .ok L') : L'.map (·.ph.law) = L.map (·.ph.law) := by
  induction L generalizing p L' with
  | nil => cases h; rfl
  | cons a L ih =>
    unfold mapPhases at h
    obtain ⟨b, h1, h⟩ := res_bind_ok.1 h
    obtain ⟨M, h2, h⟩ := res_bind_ok.1 h
    cases h
    rw [List.map_cons, List.map_cons, hf _ _ _ h1, ih h2]

theorem mapPoints_laws {ns : ℕ} {f : ℕ → Phase K ns → Particle K ns → Res (Particle K ns)}
    {L L' : List (PhaseSt K ns)} (h : mapPoints f L = .ok L') : L'.map (·.ph.law) = L.map (·.ph.law) := by
  refine mapPhases_laws (fun p a b h => ?_) h
  obtain ⟨_, -, h⟩ := res_bind_ok.1 h
  cases h
  rfl

theorem forPhases_laws {ns : ℕ} {σ : Type} {f : ℕ → PhaseSt K ns → σ → Res (PhaseSt K ns × σ)}
    (hf : ∀ p a s b t, f p a s = .ok (b, t) → b.ph.law = a.ph.law) {p : ℕ} {L L' : List (PhaseSt K ns)}
    {s t : σ} (h : forPhases f p L s = .ok (L', t)) : L'.map (·.ph.law) = L.map (·.ph.law) := by
  induction L generalizing p L' s with
  | nil => cases h; rfl
  | cons a L ih =>
    unfold forPhases at h
    obtain ⟨⟨b, s1⟩, h1, h⟩ := res_bind_ok.1 h
    obtain ⟨⟨M, s2⟩, h2, h⟩ := res_bind_ok.1 h
    cases h
    rw [List.map_cons, List.map_cons, hf _ _ _ _ _ h1, ih h2]

/-- Laws up to the stresses. -/
theorem gridPhaseR_laws {E : Besides P} {s : St P} (T : GridPhaseR rnd E s) :
    T.Lc.map (·.ph.law) = s.L.map (·.ph.law) ∧ T.Ld.map (·.ph.law) = s.L.map (·.ph.law) := by
  have e1 : T.Lc.map (·.ph.law) = s.L.map (·.ph.law) :=
    (mapPoints_laws T.hc).trans ((mapPoints_laws T.hb).trans (mapPoints_laws T.ha))
  refine ⟨e1, Eq.trans ?_ e1⟩
  have h := T.hLd
  unfold updateStressStrainR at h
  obtain ⟨⟨L1, vis⟩, h1, h⟩ := res_bind_ok.1 h
  have e := congrArg Prod.fst (Except.ok.inj h)
  change L1 = T.Ld at e
  subst e
  refine forPhases_laws (fun p a s b t h => ?_) h1
  obtain ⟨_, -, h⟩ := res_bind_ok.1 h
  cases h
  rfl

theorem roundedLaw_map {ns : ℕ} {L L' : List (PhaseSt K ns)} (e : L'.map (·.ph.law) = L.map (·.ph.law))
    (h : ∀ a ∈ L, RoundedLaw a.ph.law) : ∀ a ∈ L', RoundedLaw a.ph.law := by
  intro a ha
  have : a.ph.law ∈ L.map (·.ph.law) := e ▸ List.mem_map_of_mem ha
  obtain ⟨b, hb, e⟩ := List.mem_map.1 this
  rw [← e]
  exact h b hb

theorem all_nodalMass {interp : Interp K P.G.N} (hs : P.segregate_grid = false) (L : List (PhaseSt K P.G.ns))
    (G : Grid K P.G.N P.G.ns) : getNodalMassMomentumR id (Besides.all id P) L G =
      getNodalMassMomentumR id (Besides.exact P interp) L G := by
  unfold getNodalMassMomentumR
  simp only [hs, Bool.false_eq_true, if_false]

theorem all_stressStrain {interp : Interp K P.G.N} {d : Dyn K} {L : List (PhaseSt K P.G.ns)}
    (hl : ∀ a ∈ L, RoundedLaw a.ph.law) (G : Grid K P.G.N P.G.ns) :
    updateStressStrainR id (Besides.all id P) d L G =
      updateStressStrainR id (Besides.exact P interp) d L G := by
  have hv : (Besides.all id P).visCyclic = (Besides.exact P interp).visCyclic := by
    funext vis v
    show (if v ∈ cyclicVis then fun i => XF.rd id (makeCyclic (vis v) i) else vis v) = if v ∈ cyclicVis then makeCyclic (vis v) else vis v
    simp only [XF.rd_id]
  unfold updateStressStrainR
  rw [hv]
  refine congrArg (fun x => x >>= _) (forPhases_congr (fun p a ha vis => ?_) 0 G.vis)
  have : (fun (mp : Particle K P.G.ns) vis => mp.updateStrainR id P.G.nx P.M_tol d.dt G >>= fun mp =>
      (Besides.all id P).stress d L p a.ph mp vis) = fun (mp : Particle K P.G.ns) vis =>
      mp.updateStrainR id P.G.nx P.M_tol d.dt G >>= fun mp =>
      (Besides.exact P interp).stress d L p a.ph mp vis :=
    funext fun mp => funext fun vis => bind_congr fun mp => all_stress_exact (hl a ha) mp vis
  rw [this]

theorem res_bind_congr {α β : Type} {x : Res α} {f g : α → Res β} (h : ∀ a, x = .ok a → f a = g a) :
    (x >>= f) = (x >>= g) := by
  cases x with
  | error _ => rfl
  | ok a => exact h a rfl

theorem all_gridPhase {interp : Interp K P.G.N} (hs : P.segregate_grid = false) {s : St P}
    (hl : ∀ a ∈ s.L, RoundedLaw a.ph.law) : gridPhaseR id (Besides.all id P) s = gridPhase P s := by
  rw [← gridPhaseR_id P interp]
  unfold gridPhaseR
  refine res_bind_congr fun La ha => ?_
  refine res_bind_congr fun Lb hb => ?_
  refine res_bind_congr fun Lc hc => ?_
  refine res_bind_congr fun Lc' hc' => ?_
  have e : Lc' = Lc := by
    unfold whenSet at hc'
    split at hc'
    · exact recoverPositionsR_id hc'
    · cases hc'; rfl
  have el : Lc'.map (·.ph.law) = s.L.map (·.ph.law) := by
    rw [e]; exact (mapPoints_laws hc).trans ((mapPoints_laws hb).trans (mapPoints_laws ha))
  rw [all_nodalMass (interp := interp) hs]
  refine bind_congr fun G => ?_
  dsimp only
  rw [all_stressStrain (interp := interp) (roundedLaw_map el hl)]

/-- C148.  Without rounding and segregation one step is that of the exact model: it fails where that fails, in
the same way, and else leaves the same state, but for the nodal shear rate that only figures show. -/
theorem c148_exact (interp : Interp K P.G.N) (hs : P.segregate_grid = false) (hr : P.B.inlet_right = false)
    (ht : P.B.inlet_top = false) {s : St P} (hl : ∀ a ∈ s.L, RoundedLaw a.ph.law) :
    timeMarch P interp s = (timeMarchR id (Besides.all id P) s).map fun s' =>
      { s' with G := s'.G.calcGammadot interp P.ops.big P.M_tol } := by
  have hp : ∀ s : St P, pointsPhaseR id (Besides.all id P) s = pointsPhaseR id (Besides.exact P interp) s := by
    intro s
    unfold pointsPhaseR
    simp only [hr, ht, whenSet, Bool.false_eq_true, if_false]
  have hm : ∀ s : St P, pointsPhase P { s with G := s.G.calcGammadot interp P.ops.big P.M_tol } =
      (pointsPhase P s).map fun s' => { s' with G := s'.G.calcGammadot interp P.ops.big P.M_tol } := by
    intro s
    have e : movePoints P.G.nx P.M_tol s.dyn.dt P.intruder_v
        (s.G.calcGammadot interp P.ops.big P.M_tol) s.L =
        movePoints P.G.nx P.M_tol s.dyn.dt P.intruder_v s.G s.L := rfl
    unfold pointsPhase
    rw [show ({ s with G := s.G.calcGammadot interp P.ops.big P.M_tol } : St P).G =
      s.G.calcGammadot interp P.ops.big P.M_tol from rfl, e]
    rcases movePoints P.G.nx P.M_tol s.dyn.dt P.intruder_v s.G s.L with _ | L
    · rfl
    dsimp only [Bind.bind, Except.bind]
    rcases whenSet P.B.outlet_left (outletLeft P.G) L with _ | L
    · rfl
    dsimp only
    rcases whenSet P.B.outlet_bottom (outletBottom P.G) L with _ | L
    · rfl
    dsimp only
    rcases whenSet P.B.inlet_right (inletRight P s.dyn) L with _ | L
    · rfl
    dsimp only
    rcases whenSet P.B.inlet_top (inletTop P s.dyn) L with _ | L
    · rfl
    dsimp only
    rcases whenSet P.B.cyclic_lr (cyclicLR P.G) L with _ | L <;> rfl
  rw [← c138_exact P interp]
  unfold timeMarchR
  rw [all_gridPhase (interp := interp) hs hl, gridPhaseR_id]
  rcases gridPhase P s with _ | s1
  · rfl
  dsimp only [Bind.bind, Except.bind]
  rcases momentumPhaseR id s1 with _ | s2
  · rfl
  have l1 : (Besides.all id P).late s2 = .ok s2 := by
    show (if P.segregate_grid then _ else _) = _
    simp [hs]
  have l2 : (Besides.exact P interp).late s2 =
      .ok { s2 with G := s2.G.calcGammadot interp P.ops.big P.M_tol } := by
    show segregationPhase P interp _ = _
    simp [segregationPhase, hs]
  dsimp only
  rw [l1, l2]
  dsimp only
  rw [hp, pointsPhaseR_id, pointsPhaseR_id, hm]

theorem movePointsR_laws {ns N nx : ℕ} {M_tol dt : K} {iv : Vec K} {G : Grid K N ns}
    {L L' : List (PhaseSt K ns)} (h : movePointsR rnd nx M_tol dt iv G L = .ok L') :
    L'.map (·.ph.law) = L.map (·.ph.law) := by
  refine mapPhases_laws (fun p a b h => ?_) h
  split at h
  · obtain ⟨_, -, h⟩ := res_bind_ok.1 h
    cases h
    rfl
  · obtain ⟨⟨_, _⟩, -, h⟩ := res_bind_ok.1 h
    cases h
    rfl

theorem timeMarchR_laws {E : Besides P} (hE : Plain E) (hB : Closed P.B) {s s' : St P}
    (h : timeMarchR rnd E s = .ok s') : s'.L.map (·.ph.law) = s.L.map (·.ph.law) := by
  obtain ⟨T⟩ := timeMarchR_ok hE h
  obtain ⟨L, h1, h2, -⟩ := T.points hB
  have e : s'.L.map (·.ph.law) = L.map (·.ph.law) := by
    split at h2
    · exact mapPoints_laws h2
    · cases h2; rfl
  exact e.trans ((movePointsR_laws h1).trans (gridPhaseR_laws T.T).2)

/-- C148.  Hence whole runs of a closed system without rounding are those of the exact model: they fail in the
same way or end with the same points at the same time. -/
theorem c148_run (interp : Interp K P.G.N) (hs : P.segregate_grid = false) (hB : Closed P.B) {s : St P}
    (hl : ∀ a ∈ s.L, RoundedLaw a.ph.law) (n : ℕ) :
    (steps P interp n s).map (fun s => (s.dyn, s.L)) =
      (stepsR id (Besides.all id P) n s).map fun s => (s.dyn, s.L) := by
  induction n generalizing s with
  | zero => rfl
  | succ n ih =>
    unfold steps stepsR
    rw [c148_exact interp hs hB.2.2.1 hB.2.2.2 hl]
    rcases h : timeMarchR id (Besides.all id P) s with _ | s1
    · rfl
    have hl' : ∀ a ∈ (stepTime P s1).L, RoundedLaw a.ph.law :=
      roundedLaw_map (L' := s1.L) (timeMarchR_laws Besides.all_plain hB h) hl
    refine Eq.trans ?_ (ih hl')
    show (steps P interp n (stepTime P { s1 with G := s1.G.calcGammadot interp P.ops.big P.M_tol })).map _ = _
    cases n with
    | zero => rfl
    | succ n =>
      refine congrArg _ (c29_previous_grid_run (s := stepTime P s1) (s' := stepTime P
        { s1 with G := s1.G.calcGammadot interp P.ops.big P.M_tol }) rfl rfl ⟨?_, rfl, rfl⟩ n)
      constructor <;> rfl

/-! ## With rounding -/

/-- C148.  Over any number of rounded steps of a closed system the points stay the same, in number, order
and phase; volumes and grain sizes keep all their digits, and so do masses unless the law changes them. -/
theorem c148_bodies {n : ℕ} {s s' : St P} (hB : Closed P.B) (hL : Counted s.L) (hr : NoRigid s.L)
    (ho : OwnVel s.L) (h : stepsR rnd (Besides.all rnd P) n s = .ok s') :
    List.Forall₂ (fun a a' => a'.ph = a.ph ∧ List.Forall₂ (fun mp mp' => mp'.V = mp.V ∧ mp'.phi = mp.phi ∧
      (a.ph.law ≠ .elastic_time → mp'.m = mp.m)) a.pts a'.pts) s.L s'.L :=
  bodyR_steps Besides.all_plain hB hL hr ho h

/-- C148.  Over any number of rounded steps, without periodic sides, nothing crosses a wall: momentum and
its rate normal to a wall are exactly zero at its nodes. -/
theorem c148_walls (z : rnd 0 = 0) {n : ℕ} {s s' : St P} (hc : P.B.cyclic_lr = false)
    (h : stepsR rnd (Besides.all rnd P) (n + 1) s = .ok s') (i : Fin P.G.N) :
    (s.G.boundary_v i = true → (P.B.conveyor = true → s.G.boundary_conveyor i = false) →
      s'.G.q_dot i 0 = 0 ∧ s'.G.q i 0 = 0) ∧
    (s.G.boundary_h i = true → s'.G.q_dot i 1 = 0 ∧ s'.G.q i 1 = 0) :=
  wallR_steps Besides.all_plain z hc h i

theorem Besides.all_calm (z : rnd 0 = 0) : Calm rnd Unloaded (Besides.all rnd P) := by
  intro d L p ph mp b vis w h hl hd hm hlaw
  change (if ph.law = .von_mises ∨ ph.law = .bingham ∨ ph.law = .ken_kamrin then _ else _) = _ at h
  obtain ⟨hm, hU1, hU2⟩ := hm
  split at h
  · have k := (updateYieldR_frame h).1
    obtain ⟨m1, m2, m3, m4, m5⟩ := hm
    obtain ⟨x, h1, rfl⟩ := updateYieldR_ok h
    have v0 : volR rnd mp = 0 := by simp [volR, traceR, hd, z]
    have s0 : shearR rnd mp = 0 := by ext i j; simp [shearR, v0, hd, z]
    have key : (x.1.applyStressR rnd (lawCtxR rnd P d P.G.s ((mat0 L).getD ph.par) p ph).dt).stress = 0 ∧
        x.1.pressure = 0 ∧ Unloaded ph.law x.1.dev_stress x.1.sigma_kk x.1.dstress := by
      rcases yieldLawR_ok h1 with ⟨e0, -, e⟩ | ⟨e0, -, _, f, -, -, e⟩ | ⟨e0, -, _, -, e⟩
      · obtain ⟨u1, u2⟩ := hU1 e0
        have pd : plasticDevR rnd (lawCtxR rnd P d P.G.s ((mat0 L).getD ph.par) p ph) mp.dev_stress
            mp.dstrain = 0 := by
          ext i j
          simp [plasticDevR, plasticIncR, devR, traceR, u1, hd, z]
        have pd' := fun i j => congrFun (congrFun pd i) j
        rw [hd] at pd'
        rw [e]
        refine ⟨?_, ?_, fun _ => ⟨pd, ?_⟩, fun h => absurd (e0.symm.trans h) (by decide)⟩
        · ext i j
          simp [Particle.applyStressR, vonMisesR, pd', u2, traceR, hd, mdotR, hl, z, m2]
        · simp [vonMisesR, traceR, m2, z]
        · simp [vonMisesR, u2, traceR, hd, z]
      · have u1 := hU2 e0
        rw [e]
        refine ⟨?_, ?_, ⟨fun h => absurd (e0.symm.trans h) (by decide), fun _ => u1⟩⟩
        · ext i j
          simp [Particle.applyStressR, binghamR, pressureR, volumetricR, v0, s0, u1, m3, mdotR, hl, z]
        · simp [binghamR, pressureR, v0, m3, z]
      · rw [e]
        refine ⟨?_, ?_, ⟨fun h => absurd (e0.symm.trans h) (by decide), fun h => absurd (e0.symm.trans h) (by decide)⟩⟩
        · ext i j
          simp [Particle.applyStressR, kenKamrinR, kenRatesR, pressureR, volumetricR, v0, s0, m2, m3, mdotR,
            hl, z]
        · simp [kenKamrinR, pressureR, v0, m3, z]
    exact ⟨⟨k.v.trans m1, key.1, key.2.1, k.b.trans m4, fun i => by rw [k.x]; exact m5 i⟩, key.2.2⟩
  · next hy =>
    exact ⟨AtRestR.stress z h hl hd hm hlaw, fun h => absurd (.inl h) hy, fun h => absurd (.inr (.inl h)) hy⟩

/-- C148.  Without loads, a body at rest in which no law has stored anything stays exactly where it is,
without velocity or stress, over any number of rounded steps. -/
theorem c148_rest (z : rnd 0 = 0) {n : ℕ} {s s' : St P} (hB : Closed P.B)
    (hF : ∀ t, (P.forces t).1 = 0) (hv : P.B.vertical_force = false) (hh : P.B.horizontal_force = false)
    (hc : P.B.conveyor = false)
    (hx : P.B.cyclic_lr = true → ∀ mp ∈ points s.L, P.G.x_m ≤ mp.x 0 ∧ mp.x 0 ≤ P.G.x_M)
    (hL : Counted s.L) (hR : NoRigid s.L)
    (hs : ∀ a ∈ s.L, ∀ mp ∈ a.pts, AtRestR rnd mp ∧ Unloaded a.ph.law mp.dev_stress mp.sigma_kk mp.dstress)
    (h : stepsR rnd (Besides.all rnd P) n s = .ok s') :
    List.Forall₂ (fun mp mp' => mp'.x = mp.x ∧ AtRestR rnd mp') (points s.L) (points s'.L) := by
  have hi : ∀ x ∈ items s.L, RestQ rnd Unloaded x.1.law x.2 := by
    intro x hx
    obtain ⟨a, ha, e, hm⟩ := mem_items.1 hx
    have := hs a ha _ hm
    rw [e] at this
    exact this
  have k := (restR_steps Besides.all_plain (Besides.all_calm z) z hB hF hv hh hc hx hL hR hi h).mem
  refine k.points.imp ?_
  rintro a b ⟨ph, ha, -, hab⟩
  exact ⟨(hab (hi _ ha)).2, (hab (hi _ ha)).1.1⟩

/-- C148.  The balance of momentum of one rounded time step, as C143. -/
theorem c148_balance {s s' : St P} (hr : Rounding rnd u) (odd : ∀ x, rnd (-x) = -rnd x)
    (hB : Closed P.B) (hcy : P.B.cyclic_lr = false) (hro : P.B.roughness = false)
    (hco : P.B.conveyor = false) (hda : P.damping = false) (hvf : P.B.vertical_force = false)
    (hhf : P.B.horizontal_force = false)
    (hL : Counted s.L) (hR : NoRigid s.L) (hE : ∀ a ∈ s.L, a.ph.law ≠ .elastic_time) (ho : OwnVel s.L)
    (hm : ∀ mp ∈ points s.L, 0 ≤ mp.m) (hdx : 0 < s.G.dx) (hdy : 0 < s.G.dy)
    (rx : rnd s.G.dx = s.G.dx) (ry : rnd s.G.dy = s.G.dy)
    (hcell : ∀ mp ∈ points s.L, ∀ n, mp.getReferenceNodeR rnd P.G s.G.dx s.G.dy = .ok n →
      NearCell s.G 0 n) {k : Fin 3}
    (hv : k = 0 → ∀ i, s.G.boundary_v i = false) (hh : k = 1 → ∀ i, s.G.boundary_h i = false)
    (h : timeMarchR rnd (Besides.all rnd P) s = .ok s') {c : ℕ}
    (hc : ∀ n : Fin P.G.N, (arrivals P.G.nx n s'.L).length ≤ c)
    (heavy : ∀ n : Fin P.G.N, arrivals P.G.nx n s'.L ≠ [] → P.M_tol < s'.G.m n) :
    |totalMomentum s'.L k - (totalMomentum s.L k + s'.dyn.dt * weightIn s'.L k)| ≤
      gam u (8 + c) * momentumSize s.L k + |s'.dyn.dt| * (gam u (16 + 2 * c) *
        (weightSize s'.L k + stressPush s.G.dx s.G.dy s'.L k)) :=
  balanceR Besides.all_plain hr odd hB hcy hro hco hda hvf hhf hL hR hE ho hm hdx hdy rx ry hcell hv hh h
    hc heavy

end
end Mpm

/-! ## Examples -/

namespace Mpm
open Spec

/-- The same point three times, in phases of the three laws. -/
def Ex.trio (mp : Particle ℚ 2) : List (PhaseSt ℚ 2) :=
  [{ ph := { Ex.ph with n := 1, law := .von_mises }, pts := [mp] },
   { ph := { Ex.ph with n := 1, law := .bingham }, pts := [mp] },
   { ph := { Ex.ph with n := 1, law := .ken_kamrin }, pts := [mp] }]

theorem Ex.trio_mem {mp : Particle ℚ 2} {p : PhaseSt ℚ 2 → Prop}
    (h : ∀ law, law = .von_mises ∨ law = .bingham ∨ law = .ken_kamrin →
      p { ph := { Ex.ph with n := 1, law := law }, pts := [mp] }) : ∀ a ∈ Ex.trio mp, p a := by
  intro a ha
  simp only [Ex.trio, List.mem_cons, List.not_mem_nil, or_false] at ha
  rcases ha with rfl | rfl | rfl
  · exact h _ (.inl rfl)
  · exact h _ (.inr (.inl rfl))
  · exact h _ (.inr (.inr rfl))

theorem Ex.trio_pts {mp : Particle ℚ 2} : ∀ a ∈ points (Ex.trio mp), a = mp := by
  intro a ha
  simpa [points, Ex.trio] using ha

theorem Ex.trio_counted (mp : Particle ℚ 2) : Counted (Ex.trio mp) := Ex.trio_mem fun _ _ => rfl

theorem Ex.trio_soft (mp : Particle ℚ 2) : NoRigid (Ex.trio mp) :=
  Ex.trio_mem (p := fun a => a.ph.law ≠ .rigid) fun law h e => by
    rcases h with rfl | rfl | rfl <;> cases e

theorem Ex.trio_laws (mp : Particle ℚ 2) : ∀ a ∈ Ex.trio mp, RoundedLaw a.ph.law :=
  Ex.trio_mem (p := fun a => RoundedLaw a.ph.law) fun law h => by
    rcases h with rfl | rfl | rfl <;> simp [RoundedLaw]

/-- A point at rest. -/
def Ex.idle : Particle ℚ 2 :=
  { Ex.mp with x := ![fl 53 (2/5), fl 53 (1/7), 0], v := .own 0, b := 0, stress := 0, sigma_kk := 0 }

/-- The same in motion. -/
def Ex.thrown : Particle ℚ 2 := { Ex.idle with v := .own ![fl 53 (-1/3), fl 53 (-1/7), 0] }

/-- C148.  Three bodies at rest, in binary64. -/
example : ∃ (G : Grid ℚ Ex.parCalm.G.N Ex.parCalm.G.ns) (s : St Ex.parCalm),
    mkGridR (fl 53) Ex.parCalm.G Ex.parCalm.B = .ok G ∧
    stepsR (fl 53) (Besides.all (fl 53) Ex.parCalm) 1 { dyn := Ex.dyn, L := Ex.trio Ex.idle, G := G } = .ok s ∧
    List.Forall₂ (fun mp mp' => mp'.x = mp.x ∧ AtRestR (fl 53) mp') (points (Ex.trio Ex.idle))
      (points s.L) := by
  have h : Ex.okAnd (mkGridR (fl 53) Ex.parCalm.G Ex.parCalm.B) (fun G =>
      Ex.okAnd (stepsR (fl 53) (Besides.all (fl 53) Ex.parCalm) 1
        { dyn := Ex.dyn, L := Ex.trio Ex.idle, G := G }) fun s => true) = true := by decide +kernel
  obtain ⟨G, h1, h⟩ := Ex.okAnd_ok h
  obtain ⟨s, h2, -⟩ := Ex.okAnd_ok h
  refine ⟨G, s, h1, h2, c148_rest (s := { dyn := Ex.dyn, L := Ex.trio Ex.idle, G := G })
    (fl_zero 53) ⟨rfl, rfl, rfl, rfl⟩ (fun _ => rfl) rfl rfl rfl
    (fun h => by cases h) (Ex.trio_counted _) (Ex.trio_soft _) ?_ h2⟩
  refine Ex.trio_mem (p := fun a => ∀ mp ∈ a.pts, _) fun law _ mp hmp => ?_
  rw [List.mem_singleton.1 hmp]
  exact ⟨⟨rfl, rfl, rfl, rfl, by decide +kernel⟩, fun _ => ⟨rfl, rfl⟩, fun _ => rfl⟩

/-- C148.  What is stored matters: a body at rest without stress, in which the plastic law has stored a
volumetric stress, or the Bingham law an increment, does not stay without stress. -/
theorem c148_loaded : ∃ (G : Grid ℚ Ex.parCalm.G.N Ex.parCalm.G.ns) (s : St Ex.parCalm),
    mkGridR (fl 53) Ex.parCalm.G Ex.parCalm.B = .ok G ∧
    AtRestR (fl 53) { Ex.idle with sigma_kk := 3, dstress := 1 } ∧
    stepsR (fl 53) (Besides.all (fl 53) Ex.parCalm) 1
      { dyn := Ex.dyn, L := Ex.trio { Ex.idle with sigma_kk := 3, dstress := 1 }, G := G } = .ok s ∧
    (points s.L).map (fun mp => mp.stress 0 0) = [1, 1, 0] := by
  have h : Ex.okAnd (mkGridR (fl 53) Ex.parCalm.G Ex.parCalm.B) (fun G =>
      Ex.okAnd (stepsR (fl 53) (Besides.all (fl 53) Ex.parCalm) 1
        { dyn := Ex.dyn, L := Ex.trio { Ex.idle with sigma_kk := 3, dstress := 1 }, G := G }) fun s =>
      decide ((points s.L).map (fun mp => mp.stress 0 0) = [1, 1, 0])) = true := by decide +kernel
  obtain ⟨G, h1, h⟩ := Ex.okAnd_ok h
  obtain ⟨s, h2, h⟩ := Ex.okAnd_ok h
  exact ⟨G, s, h1, ⟨rfl, rfl, rfl, rfl, by decide +kernel⟩, h2, of_decide_eq_true h⟩

/-- C148.  Two steps without rounding, of three bodies in motion. -/
example : ∃ (G : Grid ℚ Ex.par.G.N Ex.par.G.ns) (s t : St Ex.par),
    mkGridR id Ex.par.G Ex.par.B = .ok G ∧
    stepsR id (Besides.all id Ex.par) 2 { dyn := Ex.dyn, L := Ex.trio Ex.mp, G := G } = .ok s ∧
    steps Ex.par (Ex.noInterp _) 2 { dyn := Ex.dyn, L := Ex.trio Ex.mp, G := G } = .ok t ∧
    t.L = s.L ∧ t.dyn = s.dyn ∧ ∃ mp ∈ points s.L, mp.stress ≠ Ex.mp.stress := by
  have h : Ex.okAnd (mkGridR id Ex.par.G Ex.par.B) (fun G =>
      Ex.okAnd (stepsR id (Besides.all id Ex.par) 2
        { dyn := Ex.dyn, L := Ex.trio Ex.mp, G := G }) fun s =>
      (points s.L).any fun mp => decide (mp.stress ≠ Ex.mp.stress)) = true := by decide +kernel
  obtain ⟨G, h1, h⟩ := Ex.okAnd_ok h
  obtain ⟨s, h2, h⟩ := Ex.okAnd_ok h
  obtain ⟨p, hp, h3⟩ := List.any_eq_true.1 h
  have e := c148_run (P := Ex.par) (Ex.noInterp _) rfl ⟨rfl, rfl, rfl, rfl⟩
    (s := { dyn := Ex.dyn, L := Ex.trio Ex.mp, G := G }) (Ex.trio_laws _) 2
  rw [h2] at e
  rcases ht : steps Ex.par (Ex.noInterp _) 2 { dyn := Ex.dyn, L := Ex.trio Ex.mp, G := G } with _ | t
  · rw [ht] at e; cases e
  · rw [ht] at e
    have e' := Except.ok.inj e
    exact ⟨G, s, t, h1, h2, ht, congrArg Prod.snd e', congrArg Prod.fst e', p, hp, of_decide_eq_true h3⟩

/-- C148.  The three bodies moving against floor and wall, in binary64: mass and volume stay, and at the node
in the corner there is no momentum, while other nodes have some. -/
example : ∃ (G : Grid ℚ Ex.parCalm.G.N Ex.parCalm.G.ns) (s : St Ex.parCalm),
    mkGridR (fl 53) Ex.parCalm.G Ex.parCalm.B = .ok G ∧
    stepsR (fl 53) (Besides.all (fl 53) Ex.parCalm) 1
      { dyn := Ex.dyn, L := Ex.trio Ex.thrown, G := G } = .ok s ∧
    (points s.L).map (fun mp => (mp.V, mp.m)) = [(1, 3), (1, 3), (1, 3)] ∧
    s.G.q (⟨0, by decide⟩ : Fin 9) 0 = 0 ∧ s.G.q (⟨0, by decide⟩ : Fin 9) 1 = 0 ∧
    s.G.q (⟨4, by decide⟩ : Fin 9) 0 ≠ 0 ∧ s.G.q (⟨4, by decide⟩ : Fin 9) 1 ≠ 0 := by
  have h : Ex.okAnd (mkGridR (fl 53) Ex.parCalm.G Ex.parCalm.B) (fun G =>
      (G.boundary_v (⟨0, by decide⟩ : Fin 9) && G.boundary_h (⟨0, by decide⟩ : Fin 9)) &&
      Ex.okAnd (stepsR (fl 53) (Besides.all (fl 53) Ex.parCalm) 1
        { dyn := Ex.dyn, L := Ex.trio Ex.thrown, G := G }) fun s =>
      decide (s.G.q (⟨4, by decide⟩ : Fin 9) 0 ≠ 0) && decide (s.G.q (⟨4, by decide⟩ : Fin 9) 1 ≠ 0)) =
      true := by decide +kernel
  obtain ⟨G, h1, h⟩ := Ex.okAnd_ok h
  obtain ⟨hb, h⟩ := Bool.and_eq_true_iff.1 h
  obtain ⟨hb1, hb2⟩ := Bool.and_eq_true_iff.1 hb
  obtain ⟨s, h2, h⟩ := Ex.okAnd_ok h
  obtain ⟨k1, k2⟩ := Bool.and_eq_true_iff.1 h
  obtain ⟨w1, w2⟩ := c148_walls (fl_zero 53) rfl h2 (⟨0, by decide⟩ : Fin 9)
  refine ⟨G, s, h1, h2, ?_, (w1 hb1 fun h => by cases h).2, (w2 hb2).2, of_decide_eq_true k1,
    of_decide_eq_true k2⟩
  have := c148_bodies ⟨rfl, rfl, rfl, rfl⟩ (Ex.trio_counted _) (Ex.trio_soft _) (fun mp hmp =>
    ⟨![fl 53 (-1/3), fl 53 (-1/7), 0], by rw [Ex.trio_pts mp hmp]; rfl⟩) h2
  obtain ⟨A, _, ⟨-, hA⟩, t1, e⟩ := List.forall₂_cons_left_iff.1 this
  obtain ⟨B, _, ⟨-, hB⟩, t2, rfl⟩ := List.forall₂_cons_left_iff.1 t1
  obtain ⟨C, _, ⟨-, hC⟩, t3, rfl⟩ := List.forall₂_cons_left_iff.1 t2
  cases t3
  obtain ⟨a, _, ⟨a1, -, a3⟩, t, ea⟩ := List.forall₂_cons_left_iff.1 hA
  cases t
  obtain ⟨b, _, ⟨b1, -, b3⟩, t, eb⟩ := List.forall₂_cons_left_iff.1 hB
  cases t
  obtain ⟨c, _, ⟨c1, -, c3⟩, t, ec⟩ := List.forall₂_cons_left_iff.1 hC
  cases t
  rw [e]
  simp only [points, List.flatMap_cons, List.flatMap_nil, ea, eb, ec, List.map_cons, List.map_nil,
    List.cons_append, List.nil_append]
  rw [a1, a3 (by decide), b1, b3 (by decide), c1, c3 (by decide)]
  rfl

/-- C148.  Three stressed bodies falling freely in binary64: their momentum does not grow by their weight
times the time step, but nearly. -/
example : ∃ (G : Grid ℚ Ex.par.G.N Ex.par.G.ns) (s : St Ex.par),
    mkGridR (fl 53) Ex.par.G Ex.par.B = .ok G ∧
    timeMarchR (fl 53) (Besides.all (fl 53) Ex.par) { dyn := Ex.dyn, L := Ex.trio Ex.faller, G := G } = .ok s ∧
    totalMomentum s.L 1 ≠ totalMomentum (Ex.trio Ex.faller) 1 + s.dyn.dt * weightIn s.L 1 ∧
    stressPush G.dx G.dy s.L 1 ≠ 0 ∧
    |totalMomentum s.L 1 - (totalMomentum (Ex.trio Ex.faller) 1 + s.dyn.dt * weightIn s.L 1)| ≤
      gam (1 / 2 ^ 53) (8 + 3) * momentumSize (Ex.trio Ex.faller) 1 + |s.dyn.dt| * (gam (1 / 2 ^ 53) (16 + 2 * 3) *
        (weightSize s.L 1 + stressPush G.dx G.dy s.L 1)) := by
  have h : Ex.okAnd (mkGridR (fl 53) Ex.par.G Ex.par.B) (fun G =>
      (decide (0 < G.dx ∧ 0 < G.dy ∧ fl 53 G.dx = G.dx ∧ fl 53 G.dy = G.dy) &&
        decide (∀ i, G.boundary_h i = false) &&
        Ex.okAnd (Ex.faller.getReferenceNodeR (fl 53) Ex.par.G G.dx G.dy) (fun n =>
          decide (∃ i : Fin 9, pyIdx 9 n.n_star = .ok i ∧
            (-(0 * G.dx) ≤ n.x 0 - G.X i ∧ n.x 0 - G.X i ≤ (1 + 0) * G.dx) ∧
            (-(0 * G.dy) ≤ n.x 1 - G.Y i ∧ n.x 1 - G.Y i ≤ (1 + 0) * G.dy)))) &&
      Ex.okAnd (timeMarchR (fl 53) (Besides.all (fl 53) Ex.par)
        { dyn := Ex.dyn, L := Ex.trio Ex.faller, G := G }) fun s =>
      decide (∀ n : Fin 9, (arrivals 3 n s.L).length ≤ 3) &&
      (List.finRange 9).all (fun n =>
        decide ((arrivals 3 n s.L).length = 0) || decide ((0 : ℚ) < s.G.m (n : Fin 9))) &&
      decide (totalMomentum s.L 1 ≠ totalMomentum (Ex.trio Ex.faller) 1 + s.dyn.dt * weightIn s.L 1) &&
      decide (stressPush G.dx G.dy s.L 1 ≠ 0)) = true := by
    decide +kernel
  obtain ⟨G, h1, h⟩ := Ex.okAnd_ok h
  obtain ⟨hg, h⟩ := Bool.and_eq_true_iff.1 h
  obtain ⟨hg, hcell⟩ := Bool.and_eq_true_iff.1 hg
  obtain ⟨hg, hb⟩ := Bool.and_eq_true_iff.1 hg
  obtain ⟨dx, dy, rx, ry⟩ := of_decide_eq_true hg
  obtain ⟨s, h2, h⟩ := Ex.okAnd_ok h
  obtain ⟨h, k4⟩ := Bool.and_eq_true_iff.1 h
  obtain ⟨h, k3⟩ := Bool.and_eq_true_iff.1 h
  obtain ⟨k1, k2⟩ := Bool.and_eq_true_iff.1 h
  refine ⟨G, s, h1, h2, of_decide_eq_true k3, of_decide_eq_true k4, ?_⟩
  refine c148_balance (s := { dyn := Ex.dyn, L := Ex.trio Ex.faller, G := G }) (c136_bits (by norm_num))
    (fl_neg 53) ⟨rfl, rfl, rfl, rfl⟩ rfl rfl rfl rfl rfl rfl (Ex.trio_counted _) (Ex.trio_soft _) ?_ ?_ ?_
    dx dy rx ry ?_ (fun h => by cases h) (fun _ => of_decide_eq_true hb) h2 (of_decide_eq_true k1) ?_
  · exact Ex.trio_mem (p := fun a => a.ph.law ≠ .elastic_time) fun law h e => by
      rcases h with rfl | rfl | rfl <;> cases e
  · intro mp hmp
    rw [Ex.trio_pts mp hmp]
    exact ⟨_, rfl⟩
  · intro mp hmp
    rw [Ex.trio_pts mp hmp]
    show (0 : ℚ) ≤ 3
    norm_num
  · intro mp hmp n hn
    rw [Ex.trio_pts mp hmp] at hn
    obtain ⟨n', hn', q⟩ := Ex.okAnd_ok hcell
    have : n' = n := Except.ok.inj (hn'.symm.trans hn)
    subst this
    have q' := of_decide_eq_true q
    exact q'
  · intro n hn
    have := Bool.or_eq_true_iff.1 (List.all_eq_true.1 k2 n (List.mem_finRange _))
    rcases this with h | h
    · exact absurd (List.length_eq_zero_iff.1 (of_decide_eq_true h)) hn
    · exact of_decide_eq_true h

end Mpm

import Verif.Lemmas.Step
import Verif.Lemmas.Track
import Verif.Props.FloatLaw

/-! The pieces of one time step with rounding. -/

set_option linter.unusedSectionVars false

namespace Mpm
open Spec

section
variable {K : Type} [Field K] [LinearOrder K] [IsStrictOrderedRing K] [FloorRing K]
  {rnd : K → K} {ns N nx : ℕ}

theorem recoverPositionsR_id {G : Grid K N ns} {L L' : List (PhaseSt K ns)}
    (h : recoverPositionsR rnd nx G L = .ok L') : L' = L := by
  refine mapPoints_id (f := fun _ _ mp => mp.checkPositionR rnd nx G) ?_ h
  intro p ph a b h
  unfold Particle.checkPositionR at h
  obtain ⟨x, _, h⟩ := res_bind_ok.1 h
  split at h
  · cases h
  · cases h; rfl

variable {P : Par K} {E : Besides P}

/-- All intermediate results of the first half of a time step. -/
structure GridPhaseR (rnd : K → K) {P : Par K} (E : Besides P) (s : St P) where
  d : Dyn K
  La : List (PhaseSt K P.G.ns)
  Lb : List (PhaseSt K P.G.ns)
  Lc : List (PhaseSt K P.G.ns)
  Ld : List (PhaseSt K P.G.ns)
  Ga : Grid K P.G.N P.G.ns
  Gb : Grid K P.G.N P.G.ns
  Gc : Grid K P.G.N P.G.ns
  Gd : Grid K P.G.N P.G.ns
  hd : d = s.dyn.updateForces P
  ha : updateForcesR rnd P d.g s.L = .ok La
  hb : getReferenceNodesR rnd P.G s.G.wipe La = .ok Lb
  hc : getBasisFunctionsR rnd s.G.wipe Lb = .ok Lc
  hGa : getNodalMassMomentumR rnd E Lc s.G.wipe = .ok Ga
  hGb : Gb = if P.B.cyclic_lr then Ga.makeCyclicMQR rnd else Ga
  hLd : updateStressStrainR rnd E d Lc Gb = .ok (Ld, Gc)
  hGd : getNodalForcesR rnd P Ld Gc = .ok Gd

theorem gridPhaseR_ok {s s' : St P} (h : gridPhaseR rnd E s = .ok s') :
    ∃ T : GridPhaseR rnd E s, s' = { dyn := T.d, L := T.Ld, G := T.Gd } := by
  unfold gridPhaseR at h
  obtain ⟨La, ha, h⟩ := res_bind_ok.1 h
  obtain ⟨Lb, hb, h⟩ := res_bind_ok.1 h
  obtain ⟨Lc, hc, h⟩ := res_bind_ok.1 h
  obtain ⟨Lc', hc', h⟩ := res_bind_ok.1 h
  have e : Lc' = Lc := by
    unfold whenSet at hc'
    split at hc'
    · exact recoverPositionsR_id hc'
    · cases hc'; rfl
  rw [e] at h
  obtain ⟨Ga, hGa, h⟩ := res_bind_ok.1 h
  dsimp only at h
  obtain ⟨⟨Ld, Gc⟩, hLd, h⟩ := res_bind_ok.1 h
  obtain ⟨Gd, hGd, h⟩ := res_bind_ok.1 h
  cases h
  exact ⟨⟨_, La, Lb, Lc, Ld, Ga, _, Gc, Gd, rfl, ha, hb, hc, hGa, rfl, hLd, hGd⟩, rfl⟩

theorem updateForcesR_rel {g : K} {L L' : List (PhaseSt K ns)} (hL : Counted L)
    (h : updateForcesR rnd P g L = .ok L') :
    PtsRel (fun _ a b => ∃ f, b = { a with b := f } ∧ (f = a.b ∨ f = bodyForceR rnd P g)) L L' := by
  refine mapPoints_rel (f := fun p _ mp => .ok (mp.incrementGravityR rnd P g p)) ?_ hL h
  intro p ph a b h
  cases h
  unfold Particle.incrementGravityR
  split
  · exact ⟨_, rfl, .inr rfl⟩
  · exact ⟨_, rfl, .inl rfl⟩

theorem getReferenceNodesR_rel {G : Grid K N ns} {L L' : List (PhaseSt K ns)} (hL : Counted L)
    (h : getReferenceNodesR rnd P.G G L = .ok L') :
    PtsRel (fun _ a b => ∃ n, b = { a with n_star := n }) L L' := by
  refine mapPoints_rel (f := fun _ _ mp => mp.getReferenceNodeR rnd P.G G.dx G.dy) ?_ hL h
  intro p ph a b h
  unfold Particle.getReferenceNodeR at h
  split at h
  · cases h
  · cases h; exact ⟨_, rfl⟩

theorem getBasisFunctionsR_rel {G : Grid K N ns} {L L' : List (PhaseSt K ns)} (hL : Counted L)
    (h : getBasisFunctionsR rnd G L = .ok L') :
    PtsRel (fun _ a b => ∃ w g, b = { a with N := w, Gs := g }) L L' := by
  refine mapPoints_rel (f := fun _ _ mp => mp.getBasisFunctionsR rnd G) ?_ hL h
  intro p ph a b h
  obtain ⟨_, _, _, e⟩ := basisR_ok h
  exact ⟨_, _, e⟩

theorem updateStressStrainR_rel {d : Dyn K} {L L' : List (PhaseSt K P.G.ns)}
    {G G' : Grid K P.G.N P.G.ns} (hL : Counted L) (h : updateStressStrainR rnd E d L G = .ok (L', G')) :
    PtsRel (fun ph a b => ∃ p vis vis' c, a.updateStrainR rnd P.G.nx P.M_tol d.dt G = .ok c ∧
      E.stress d L p ph c vis = .ok (b, vis')) L L' := by
  unfold updateStressStrainR at h
  obtain ⟨⟨L1, vis⟩, h1, h⟩ := res_bind_ok.1 h
  cases h
  refine forPhases_forall₂ ?_ h1
  intro p a ha vis a' vis' h2
  obtain ⟨⟨pts, v⟩, h3, h2⟩ := res_bind_ok.1 h2
  cases h2
  refine ⟨rfl, ?_⟩
  rw [hL a ha] at h3
  refine forN_forall₂ (fun a v b v' h => ?_) h3
  obtain ⟨c, h1, h2⟩ := res_bind_ok.1 h
  exact ⟨p, _, _, c, h1, h2⟩

theorem updateStressStrainR_grid {d : Dyn K} {L L' : List (PhaseSt K P.G.ns)}
    {G G' : Grid K P.G.N P.G.ns} (h : updateStressStrainR rnd E d L G = .ok (L', G')) :
    G' = { G with vis := G'.vis } := by
  unfold updateStressStrainR at h
  obtain ⟨⟨L1, vis⟩, h1, h⟩ := res_bind_ok.1 h
  cases h
  rfl

/-- What a rounded law leaves alone. -/
theorem updateStressR_frame {law : Law} {c : LawCtx K ns} {mp b : Particle K ns}
    {vis w : Vis → Fin N → XF K} (h : mp.updateStressR rnd nx law c vis = .ok (b, w)) :
    SameKin mp b ∧ (law ≠ .elastic_time → b.m = mp.m) := by
  obtain ⟨x, h1, h2⟩ := res_bind_ok.1 h
  obtain ⟨y, h3, h4⟩ := res_bind_ok.1 h2
  cases h4
  have key : SameKin mp x.1 ∧ (law ≠ .elastic_time → x.1.m = mp.m) := by
    rcases runLawR_ok h1 with ⟨rfl, e⟩ | ⟨rfl, e⟩ | ⟨rfl, _, _, e⟩ | ⟨rfl, -, e⟩ | ⟨rfl, -, q, -, e⟩ |
      ⟨rfl, -, q, -, e⟩ | ⟨rfl, -, q, -, e⟩
    · rw [e]; exact ⟨SameKin.refl _, fun _ => rfl⟩
    · rw [e]; exact ⟨by constructor <;> rfl, fun _ => rfl⟩
    · rw [e]; exact ⟨by constructor <;> rfl, fun h => absurd rfl h⟩
    · rw [e]; exact ⟨by constructor <;> rfl, fun _ => rfl⟩
    · rw [e]; exact ⟨by constructor <;> rfl, fun _ => rfl⟩
    · rw [e.whole]; exact ⟨by constructor <;> rfl, fun _ => rfl⟩
    · rw [e]; exact ⟨by constructor <;> rfl, fun _ => rfl⟩
  exact ⟨key.1.trans (by constructor <;> rfl), key.2⟩

/-- What whole steps need of the laws and of the rest: the laws leave the motion and, but for
`elastic_time`, the mass of a point alone, and there is no segregation. -/
structure Plain (E : Besides P) : Prop where
  stress : ∀ {d : Dyn K} {L : List (PhaseSt K P.G.ns)} {p : ℕ} {ph : Phase K P.G.ns}
    {mp b : Particle K P.G.ns} {vis w : Vis → Fin P.G.N → XF K},
    E.stress d L p ph mp vis = .ok (b, w) → SameKin mp b ∧ (ph.law ≠ .elastic_time → b.m = mp.m)
  late : ∀ {s s' : St P}, E.late s = .ok s' → P.segregate_grid = false ∧ s' = s

theorem roundedLate {s s' : St P} (h : (Besides.rounded rnd P).late s = .ok s') :
    P.segregate_grid = false ∧ s' = s := by
  change (if P.segregate_grid then _ else _) = _ at h
  have hs : P.segregate_grid = false := by
    by_contra hs
    rw [if_pos (by simpa using hs)] at h
    cases h
  rw [if_neg (by simp [hs])] at h
  exact ⟨hs, (Except.ok.inj h).symm⟩

theorem Besides.rounded_plain : Plain (Besides.rounded rnd P) where
  stress := fun h => updateStressR_frame h
  late := roundedLate

/-- The points before and after the first half of a step. -/
theorem GridPhaseR.rel {s : St P} (T : GridPhaseR rnd E s) (hE : Plain E) (hL : Counted s.L) :
    PtsRel (fun ph a b => b.x = a.x ∧ b.v = a.v ∧ b.V = a.V ∧ b.phi = a.phi ∧
      (ph.law ≠ .elastic_time → b.m = a.m)) s.L T.Ld := by
  have ra := updateForcesR_rel hL T.ha
  have la := ra.counted hL
  have rb := getReferenceNodesR_rel la T.hb
  have lb := rb.counted la
  have rc := getBasisFunctionsR_rel lb T.hc
  have lc := rc.counted lb
  have rd := updateStressStrainR_rel lc T.hLd
  refine (((ra.comp rb).comp rc).comp rd).mono ?_
  rintro ph a e ⟨d, ⟨c, ⟨b, ⟨f, rfl, -⟩, n, rfl⟩, w, g, rfl⟩, p, vis, vis', o, ho, he⟩
  obtain ⟨-, -, ⟨_, _, _, rfl⟩, -⟩ := updateStrainR_ok ho
  obtain ⟨k, m⟩ := hE.stress he
  exact ⟨k.x, k.v, k.V, k.phi, m⟩

/-- The second half of a step. -/
structure StepR (rnd : K → K) {P : Par K} (E : Besides P) (s s' : St P) where
  T : GridPhaseR rnd E s
  H : Grid K P.G.N P.G.ns
  hseg : P.segregate_grid = false
  hH : T.Gd.BCsR rnd P.B T.d.q_v T.d.q_h (((mat0 T.Ld).map (·.rho)).getD 0)
    (P.aniso && decide (T.d.t = 0)) = .ok H
  hG : s'.G = H.updateMomentumR rnd P.B P.damping T.d.dt P.v_0
  hp : pointsPhaseR rnd E
    { dyn := T.d, L := T.Ld, G := H.updateMomentumR rnd P.B P.damping T.d.dt P.v_0 } = .ok s'

theorem timeMarchR_ok (hE : Plain E) {s s' : St P} (h : timeMarchR rnd E s = .ok s') :
    Nonempty (StepR rnd E s s') := by
  unfold timeMarchR at h
  obtain ⟨s1, h1, h⟩ := res_bind_ok.1 h
  obtain ⟨s2, h2, h⟩ := res_bind_ok.1 h
  obtain ⟨s3, h3, h⟩ := res_bind_ok.1 h
  obtain ⟨T, rfl⟩ := gridPhaseR_ok h1
  unfold momentumPhaseR at h2
  obtain ⟨H, hH, h2⟩ := res_bind_ok.1 h2
  cases h2
  obtain ⟨hs, rfl⟩ := hE.late h3
  refine ⟨T, H, hs, hH, ?_, h⟩
  unfold pointsPhaseR at h
  obtain ⟨_, -, h⟩ := res_bind_ok.1 h
  obtain ⟨_, -, h⟩ := res_bind_ok.1 h
  obtain ⟨_, -, h⟩ := res_bind_ok.1 h
  obtain ⟨_, -, h⟩ := res_bind_ok.1 h
  obtain ⟨_, -, h⟩ := res_bind_ok.1 h
  obtain ⟨_, -, h⟩ := res_bind_ok.1 h
  cases h
  rfl

/-- No points enter or leave. -/
def Spec.Closed (B : BP K) : Prop :=
  B.outlet_left = false ∧ B.outlet_bottom = false ∧ B.inlet_right = false ∧ B.inlet_top = false

theorem StepR.points {s s' : St P} (T : StepR rnd E s s') (hB : Closed P.B) :
    ∃ L, movePointsR rnd P.G.nx P.M_tol T.T.d.dt P.intruder_v s'.G T.T.Ld = .ok L ∧
      (if P.B.cyclic_lr then cyclicLRR rnd P.G L else .ok L) = .ok s'.L ∧ s'.dyn = T.T.d := by
  obtain ⟨b1, b2, b3, b4⟩ := hB
  have h := T.hp
  unfold pointsPhaseR at h
  simp only [whenSet, b1, b2, b3, b4, Bool.false_eq_true, if_false] at h
  obtain ⟨L, h1, h⟩ := res_bind_ok.1 h
  obtain ⟨_, e, h⟩ := res_bind_ok.1 h; cases e
  obtain ⟨_, e, h⟩ := res_bind_ok.1 h; cases e
  obtain ⟨_, e, h⟩ := res_bind_ok.1 h; cases e
  obtain ⟨_, e, h⟩ := res_bind_ok.1 h; cases e
  obtain ⟨M, e, h⟩ := res_bind_ok.1 h
  have e2 := Except.ok.inj h
  rw [T.hG]
  exact ⟨L, h1, e.trans (congrArg (fun z : St P => (.ok z.L : Res _)) e2), (congrArg St.dyn e2).symm⟩

end
end Mpm

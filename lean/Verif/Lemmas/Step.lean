import Verif.Lemmas.Stress

/-! The pieces of one time step. -/

set_option linter.unusedSectionVars false

namespace Mpm
open Spec

section
variable {K : Type} [Field K] [LinearOrder K] {ns N : ℕ}

theorem mapN_id {α : Type} {f : α → Res α} (hf : ∀ a b, f a = .ok b → b = a) {n : ℕ}
    {l l' : List α} (h : mapN f n l = .ok l') : l' = l := by
  induction n generalizing l l' with
  | zero => cases h; rfl
  | succ n ih =>
    cases l with
    | nil => cases h
    | cons a l =>
      obtain ⟨b, h1, h⟩ := res_bind_ok.1 h
      obtain ⟨t, h2, h⟩ := res_bind_ok.1 h
      cases h
      rw [hf _ _ h1, ih h2]

theorem mapPoints_id {f : ℕ → Phase K ns → Particle K ns → Res (Particle K ns)}
    (hf : ∀ p ph a b, f p ph a = .ok b → b = a) {L L' : List (PhaseSt K ns)}
    (h : mapPoints f L = .ok L') : L' = L := by
  unfold mapPoints at h
  generalize 0 = p0 at h
  induction L generalizing L' p0 with
  | nil => cases h; rfl
  | cons a L ih =>
    obtain ⟨a', T, h1, h2, rfl⟩ := mapPhases_cons_ok.1 h
    obtain ⟨pts, h3, h1⟩ := res_bind_ok.1 h1
    cases h1
    rw [mapN_id (hf _ _) h3, ih _ h2]

theorem checkPosition_id {nx : ℕ} {G : Grid K N ns} {a b : Particle K ns}
    (h : a.checkPosition nx G = .ok b) : b = a := by
  unfold Particle.checkPosition at h
  obtain ⟨x, _, h⟩ := res_bind_ok.1 h
  split at h
  · cases h
  · cases h; rfl

theorem recoverPositions_id {nx : ℕ} {G : Grid K N ns} {L L' : List (PhaseSt K ns)}
    (h : recoverPositions nx G L = .ok L') : L' = L :=
  mapPoints_id (fun _ _ _ _ h => checkPosition_id h) h

variable [FloorRing K] {P : Par K} {interp : Interp K P.G.N}

/-- All intermediate results of the first half of a time step. -/
structure GridPhase (P : Par K) (s : St P) where
  d : Dyn K
  La : List (PhaseSt K P.G.ns)
  Lb : List (PhaseSt K P.G.ns)
  Lc : List (PhaseSt K P.G.ns)
  Ld : List (PhaseSt K P.G.ns)
  Ga : Grid K P.G.N P.G.ns
  Gb : Grid K P.G.N P.G.ns
  Gc : Grid K P.G.N P.G.ns
  Gd : Grid K P.G.N P.G.ns
  hd : d = s.dyn.updateForces P
  ha : updateForces P d.g s.L = .ok La
  hb : getReferenceNodes P.G s.G.wipe La = .ok Lb
  hc : getBasisFunctions s.G.wipe Lb = .ok Lc
  hGa : getNodalMassMomentum P P.G.s Lc s.G.wipe = .ok Ga
  hGb : Gb = if P.B.cyclic_lr then Ga.makeCyclicMQ else Ga
  hLd : updateStressStrain P d P.G.s Lc Gb = .ok (Ld, Gc)
  hGd : getNodalForces P Ld Gc = .ok Gd

theorem gridPhase_ok {s s' : St P} (h : gridPhase P s = .ok s') :
    ∃ T : GridPhase P s, s' = { dyn := T.d, L := T.Ld, G := T.Gd } := by
  unfold gridPhase at h
  obtain ⟨La, ha, h⟩ := res_bind_ok.1 h
  obtain ⟨Lb, hb, h⟩ := res_bind_ok.1 h
  obtain ⟨Lc, hc, h⟩ := res_bind_ok.1 h
  obtain ⟨Lc', hc', h⟩ := res_bind_ok.1 h
  have e : Lc' = Lc := by
    unfold whenSet at hc'
    split at hc'
    · exact recoverPositions_id hc'
    · cases hc'; rfl
  rw [e] at h
  obtain ⟨Ga, hGa, h⟩ := res_bind_ok.1 h
  dsimp only at h
  obtain ⟨⟨Ld, Gc⟩, hLd, h⟩ := res_bind_ok.1 h
  obtain ⟨Gd, hGd, h⟩ := res_bind_ok.1 h
  cases h
  exact ⟨⟨_, La, Lb, Lc, Ld, Ga, _, Gc, Gd, rfl, ha, hb, hc, hGa, rfl, hLd, hGd⟩, rfl⟩

/-- `update_forces` on the points. -/
theorem updateForces_rel {g : K} {L L' : List (PhaseSt K ns)} (hL : Counted L)
    (h : updateForces P g L = .ok L') :
    PtsRel (fun _ a b => b = { a with b := b.b } ∧ (b.b = a.b ∨ b.b = bodyForce P g)) L L' := by
  refine mapPoints_rel (f := fun p _ mp => .ok (mp.incrementGravity P g p)) ?_ hL h
  intro p ph a b h
  cases h
  unfold Particle.incrementGravity
  split
  · exact ⟨rfl, .inr rfl⟩
  · exact ⟨rfl, .inl rfl⟩

theorem updateForces_total {g : K} {L : List (PhaseSt K ns)} (hL : Counted L) :
    ∃ L', updateForces P g L = .ok L' := by
  unfold updateForces mapPoints
  generalize 0 = p0
  induction L generalizing p0 with
  | nil => exact ⟨[], rfl⟩
  | cons a L ih =>
    obtain ⟨T, hT⟩ := ih (fun b hb => hL b (List.mem_cons_of_mem _ hb)) (p0 + 1)
    have h1 : mapN (fun mp => .ok (mp.incrementGravity P g p0)) a.ph.n a.pts =
        .ok (a.pts.map fun mp => mp.incrementGravity P g p0) := by
      rw [hL a List.mem_cons_self]
      generalize a.pts = l
      induction l with
      | nil => rfl
      | cons b l ihl => simp [mapN, ihl]
    exact ⟨_, mapPhases_cons_ok.2 ⟨{ a with pts := a.pts.map fun mp => mp.incrementGravity P g p0 },
      T, by simp [h1], hT, rfl⟩⟩

/-- A fold that raises no exception preserves what every step preserves. -/
theorem getNodalForces_grid {nx ny : ℕ} {L : List (PhaseSt K ns)} {G G' : Grid K (ny * nx) ns}
    (hL : Counted L) (h : getNodalForces P L G = .ok G') :
    G' = { G with fi := G'.fi, fe := G'.fe } := by
  unfold getNodalForces at h
  obtain ⟨G1, h1, h'⟩ := res_bind_ok.1 h
  have e : G1 = { G with fi := G1.fi, fe := G1.fe } := by
    rw [((nodalForcesAll_ok hL).1 h1).2]
    generalize items L = l
    clear h1 h hL
    induction l generalizing G with
    | nil => rfl
    | cons a l ih => rw [List.foldl_cons, ih]; rfl
  cases h'
  split
  · rw [e]; rfl
  · exact e

end

section
variable {K : Type} [Field K] [LinearOrder K] [IsStrictOrderedRing K] [FloorRing K]
  {P : Par K} {interp : Interp K P.G.N}

/-- The points after the first half of a step: what has happened to each of them. -/
theorem GridPhase.rel {s : St P} (T : GridPhase P s) (hL : Counted s.L) :
    PtsRel (fun ph a b => b.x = a.x ∧ b.v = a.v ∧ b.V = a.V ∧ b.rho = a.rho ∧ b.phi = a.phi ∧
      b.pk = a.pk ∧ (ph.law ≠ .elastic_time → b.m = a.m) ∧ (∑ r, b.N r = 1) ∧ (∑ r, b.Gs r = 0) ∧
      (b.b = a.b ∨ b.b = bodyForce P T.d.g)) s.L T.Ld ∧
    Counted T.La ∧ Counted T.Lb ∧ Counted T.Lc ∧ Counted T.Ld := by
  have r1 := updateForces_rel hL T.ha
  have c1 := r1.counted hL
  obtain ⟨r2, c2, c3⟩ := locate_all c1 T.hb T.hc
  have r3 := updateStressStrain_frame c3 T.hLd
  refine ⟨((r1.comp r2).comp r3).mono ?_, c1, c2, c3, r3.counted c3⟩
  rintro ph a d ⟨c, ⟨b, ⟨h1, h1'⟩, h2⟩, h3, h3'⟩
  have e2 := h2.eq
  have f1 : c.x = a.x := by rw [e2, h1]
  have f2 : c.v = a.v := by rw [e2, h1]
  have f3 : c.V = a.V := by rw [e2, h1]
  have f4 : c.rho = a.rho := by rw [e2, h1]
  have f5 : c.phi = a.phi := by rw [e2, h1]
  have f6 : c.pk = a.pk := by rw [e2, h1]
  have f7 : c.m = a.m := by rw [e2, h1]
  have f8 : c.b = b.b := by rw [e2]
  refine ⟨h3.x.trans f1, h3.v.trans f2, h3.V.trans f3, h3.rho.trans f4, h3.phi.trans f5,
    h3.pk.trans f6, fun hl => (h3' hl).trans f7, ?_, ?_, ?_⟩
  · rw [h3.N]; exact h2.sumN
  · rw [h3.Gs]; exact h2.sumG
  · rw [h3.b, f8]; exact h1'

end
end Mpm

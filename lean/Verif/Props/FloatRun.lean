import Verif.Lemmas.FloatTrack
import Verif.Props.FloatUnits

/-!
# C141: whole time steps in floating point

The time step of `Model/FloatStep.lean` with the laws of `Model/FloatLaw.lean`, every operation rounded:
what holds exactly, in spite of rounding, over any number of steps.
-/

set_option linter.unusedSectionVars false

namespace Mpm
namespace Spec
section
variable {K : Type} [Field K] [LinearOrder K] {ns : ℕ}

/-- A point at rest, without stress or load, whose position is representable. -/
def AtRestR (rnd : K → K) (mp : Particle K ns) : Prop :=
  mp.v = .own 0 ∧ mp.stress = 0 ∧ mp.pressure = 0 ∧ mp.b = 0 ∧ ∀ k, rnd (mp.x k) = mp.x k

end
end Spec
open Spec

section
variable {K : Type} [Field K] [LinearOrder K] [IsStrictOrderedRing K] [FloorRing K]
  {rnd : K → K} {P : Par K} {E : Besides P}

/-! ## Over one step -/

theorem cyclicLRR_rel {ns : ℕ} {L L' : List (PhaseSt K ns)} (hL : Counted L)
    (h : (if P.B.cyclic_lr then cyclicLRR rnd P.G L else .ok L) = .ok L') :
    PtsRel (fun _ a b => b = { a with x := b.x } ∧ (P.B.cyclic_lr = false → b.x = a.x) ∧
      (P.G.x_m ≤ a.x 0 ∧ a.x 0 ≤ P.G.x_M → b.x = a.x)) L L' := by
  cases hc : P.B.cyclic_lr
  · rw [hc] at h
    cases h
    exact .refl (fun _ _ => ⟨rfl, fun _ => rfl, fun _ => rfl⟩) _
  · rw [hc, if_pos rfl] at h
    refine mapPoints_rel (f := fun _ _ mp =>
      .ok { mp with x := Function.update mp.x 0 (wrapXR rnd P.G (mp.x 0)) }) ?_ hL h
    intro p ph a b h
    cases h
    refine ⟨rfl, fun h => by simp at h, fun hx => ?_⟩
    have : wrapXR rnd P.G (a.x 0) = a.x 0 := by
      simp [wrapXR, not_lt.2 hx.1, not_lt.2 hx.2]
    simp [this]

theorem ownVel_of_rel {ns : ℕ} {R : Phase K ns → Particle K ns → Particle K ns → Prop}
    {L L' : List (PhaseSt K ns)} (h : PtsRel R L L') {p : Particle K ns → Prop}
    (hp : ∀ ph a b, R ph a b → p b) : ∀ mp ∈ points L', p mp := by
  intro mp hmp
  obtain ⟨a, ha, hm⟩ := List.mem_flatMap.1 hmp
  have := (mem_items (x := (a.ph, mp))).2 ⟨a, ha, rfl, hm⟩
  have key : ∀ (l l' : List (Phase K ns × Particle K ns)),
      List.Forall₂ (fun x y => y.1 = x.1 ∧ R x.1 x.2 y.2) l l' → ∀ y ∈ l', p y.2 := by
    intro l l' h
    induction h with
    | nil => simp
    | cons h _ ih => exact List.forall_mem_cons.2 ⟨hp _ _ _ h.2, ih⟩
  exact key _ _ h.items _ this

theorem items_of_rel {ns : ℕ} {R : Phase K ns → Particle K ns → Particle K ns → Prop}
    {L L' : List (PhaseSt K ns)} (h : PtsRel R L L') {p : Phase K ns → Particle K ns → Prop}
    (hp : ∀ ph a b, R ph a b → p ph b) : ∀ x ∈ items L', p x.1 x.2 := by
  have key : ∀ (l l' : List (Phase K ns × Particle K ns)),
      List.Forall₂ (fun x y => y.1 = x.1 ∧ R x.1 x.2 y.2) l l' → ∀ y ∈ l', p y.1 y.2 := by
    intro l l' h
    induction h with
    | nil => simp
    | cons h _ ih => exact List.forall_mem_cons.2 ⟨by rw [h.1]; exact hp _ _ _ h.2, ih⟩
  exact key _ _ h.items

theorem laws_of_rel {ns : ℕ} {R : Phase K ns → Particle K ns → Particle K ns → Prop}
    {L L' : List (PhaseSt K ns)} (h : PtsRel R L L') {p : Law → Prop}
    (hp : ∀ a ∈ L, p a.ph.law) : ∀ a ∈ L', p a.ph.law := by
  induction h with
  | nil => simp
  | cons h _ ih =>
    refine List.forall_mem_cons.2 ⟨?_, ih fun a ha => hp a (List.mem_cons_of_mem _ ha)⟩
    rw [h.1]
    exact hp _ List.mem_cons_self

/-- C141.  One step. -/
theorem bodyR_step (hE : Plain E) {s s' : St P} (hB : Closed P.B) (hL : Counted s.L) (hr : NoRigid s.L)
    (ho : OwnVel s.L) (h : timeMarchR rnd E s = .ok s') :
    PtsRel (fun ph a b => b.V = a.V ∧ b.phi = a.phi ∧ (ph.law ≠ .elastic_time → b.m = a.m) ∧
      ∃ w, b.v = .own w) s.L s'.L := by
  obtain ⟨T⟩ := timeMarchR_ok hE h
  obtain ⟨L, h1, h2, -⟩ := T.points hB
  have ra := T.T.rel hE hL
  have ra' := ra.mem
  have la := ra.counted hL
  have oa : OwnVel T.T.Ld := by
    refine ownVel_of_rel ra' (p := fun mp => ∃ v, mp.v = .own v) ?_
    rintro ph a b ⟨ha, -, -, e, -⟩
    rw [e]
    obtain ⟨A, hA, -, hm⟩ := mem_items.1 ha
    exact ho a (List.mem_flatMap.2 ⟨A, hA, hm⟩)
  have rb := movePointsR_own la (laws_of_rel (p := (· ≠ .rigid)) ra hr) oa h1
  have rc := cyclicLRR_rel (rb.counted la) h2
  refine ((ra.comp rb).comp rc).mono ?_
  rintro ph a d ⟨c, ⟨b, ⟨-, -, b3, b4, b5⟩, hm, w, hw⟩, hd, -⟩
  obtain ⟨-, ⟨x, v, rho, rfl⟩, -⟩ := c138_sum hm
  rw [hd]
  exact ⟨b3, b4, b5, w, hw⟩

theorem bodyR_steps (hE : Plain E) {n : ℕ} {s s' : St P} (hB : Closed P.B) (hL : Counted s.L)
    (hr : NoRigid s.L) (ho : OwnVel s.L) (h : stepsR rnd E n s = .ok s') :
    PtsRel (fun ph a b => b.V = a.V ∧ b.phi = a.phi ∧ (ph.law ≠ .elastic_time → b.m = a.m)) s.L s'.L := by
  induction n generalizing s with
  | zero => cases h; exact .refl (fun _ _ => ⟨rfl, rfl, fun _ => rfl⟩) _
  | succ n ih =>
    obtain ⟨s1, h1, h⟩ := res_bind_ok.1 h
    have r1 := bodyR_step hE hB hL hr ho h1
    have r2 := ih (s := stepTimeR rnd P s1) (r1.counted hL) (laws_of_rel (p := (· ≠ .rigid)) r1 hr)
      (ownVel_of_rel r1 fun _ _ _ h => h.2.2.2) h
    refine (r1.comp r2).mono ?_
    rintro ph a c ⟨b, ⟨a1, a2, a3, -⟩, b1, b2, b3⟩
    exact ⟨b1.trans a1, b2.trans a2, fun h => (b3 h).trans (a3 h)⟩

/-- C141.  Over any number of rounded steps of a closed system the points stay the same, in number, order
and phase; volumes and grain sizes keep all their digits, and so do masses unless the law changes them. -/
theorem c141_bodies {n : ℕ} {s s' : St P} (hB : Closed P.B) (hL : Counted s.L) (hr : NoRigid s.L)
    (ho : OwnVel s.L) (h : stepsR rnd (Besides.rounded rnd P) n s = .ok s') :
    List.Forall₂ (fun a a' => a'.ph = a.ph ∧ List.Forall₂ (fun mp mp' => mp'.V = mp.V ∧ mp'.phi = mp.phi ∧
      (a.ph.law ≠ .elastic_time → mp'.m = mp.m)) a.pts a'.pts) s.L s'.L :=
  bodyR_steps Besides.rounded_plain hB hL hr ho h

/-! ## Walls -/

/-- What the mapping to the grid leaves alone. -/
theorem p2gAllR_frame {N ns nx : ℕ} {seg : Bool} {L : List (PhaseSt K ns)} {G G' : Grid K N ns}
    (h : p2gAllR rnd nx seg L G = .ok G') :
    G' = { G with m := G'.m, q := G'.q, phim := G'.phim, pkm := G'.pkm } := by
  unfold p2gAllR at h
  refine foldPhases_inv (fun H => H = { G with m := H.m, q := H.q, phim := H.phim, pkm := H.pkm }) ?_ h rfl
  intro a H H' e hs
  refine foldN_inv (fun H => H = { G with m := H.m, q := H.q, phim := H.phim, pkm := H.pkm }) ?_ hs e
  intro mp H H' e hs
  refine for4_inv (fun H => H = { G with m := H.m, q := H.q, phim := H.phim, pkm := H.pkm }) ?_ e hs
  intro r H H' e hs
  obtain ⟨n, -, hs⟩ := res_bind_ok.1 hs
  rw [e] at hs
  cases seg <;> cases hs <;> rfl

theorem nodalMassR_frame {E : Besides P} {L : List (PhaseSt K P.G.ns)} {G G' : Grid K P.G.N P.G.ns}
    (hs : P.segregate_grid = false) (h : getNodalMassMomentumR rnd E L G = .ok G') :
    ∃ G1, p2gAllR rnd P.G.nx false L G = .ok G1 ∧ G' = G1.zeroBoundaryMomentum P.B.roughness ∧
      G'.boundary_v = G.boundary_v ∧ G'.boundary_h = G.boundary_h ∧ G'.fi = G.fi ∧ G'.fe = G.fe := by
  unfold getNodalMassMomentumR at h
  obtain ⟨G1, h1, h⟩ := res_bind_ok.1 h
  simp only [hs, Bool.false_eq_true, if_false] at h h1
  cases h
  refine ⟨G1, h1, rfl, ?_⟩
  have e := p2gAllR_frame h1
  refine ⟨?_, ?_, ?_, ?_⟩
  · exact (congrArg Grid.boundary_v e : _)
  · exact (congrArg Grid.boundary_h e : _)
  · exact (congrArg Grid.fi e : _)
  · exact (congrArg Grid.fe e : _)

theorem nodalForcesAllR_frame {N ns nx : ℕ} {L : List (PhaseSt K ns)} {G G' : Grid K N ns}
    (h : nodalForcesAllR rnd nx L G = .ok G') : G' = { G with fi := G'.fi, fe := G'.fe } := by
  unfold nodalForcesAllR at h
  refine foldPhases_inv (fun H => H = { G with fi := H.fi, fe := H.fe }) ?_ h rfl
  intro a H H' e hs
  refine foldN_inv (fun H => H = { G with fi := H.fi, fe := H.fe }) ?_ hs e
  intro mp H H' e hs
  refine for4_inv (fun H => H = { G with fi := H.fi, fe := H.fe }) ?_ e hs
  intro r H H' e hs
  obtain ⟨n, -, hs⟩ := res_bind_ok.1 hs
  rw [e] at hs
  cases hs
  rfl

theorem getNodalForcesR_frame {L : List (PhaseSt K P.G.ns)} {G G' : Grid K P.G.N P.G.ns}
    (h : getNodalForcesR rnd P L G = .ok G') : G' = { G with fi := G'.fi, fe := G'.fe } := by
  unfold getNodalForcesR at h
  obtain ⟨G1, h1, h⟩ := res_bind_ok.1 h
  have e := nodalForcesAllR_frame h1
  have e2 := Except.ok.inj h
  rw [← e2, e]
  split <;> rfl

theorem BCsR_frame {nx ny ns : ℕ} {B : BP K} {q_v q_h rho0 : K} {b : Bool} {G G' : Grid K (ny * nx) ns}
    (h : G.BCsR rnd B q_v q_h rho0 b = .ok G') : G' = { G with ext_f := G'.ext_f, fe := G'.fe } := by
  unfold Grid.BCsR at h
  split_ifs at h
  all_goals
    have e := Except.ok.inj h
    rw [← e]

/-- A field of a grid from an equation for the grid. -/
local macro "field " f:ident e:ident : term => `(by have h := congrArg $f $e; exact h)

/-- From the masses to the momentum update: momenta and flags. -/
theorem StepR.grid {s s' : St P} (T : StepR rnd E s s') :
    T.H.q = T.T.Gb.q ∧ T.H.boundary_v = s.G.boundary_v ∧ T.H.boundary_h = s.G.boundary_h ∧
      T.H.boundary_conveyor = s.G.boundary_conveyor := by
  obtain ⟨G1, h1, h2, -⟩ := nodalMassR_frame T.hseg T.T.hGa
  have e0 := p2gAllR_frame h1
  have e1 : T.T.Gb.boundary_v = T.T.Ga.boundary_v ∧ T.T.Gb.boundary_h = T.T.Ga.boundary_h ∧
      T.T.Gb.boundary_conveyor = T.T.Ga.boundary_conveyor := by
    rw [T.T.hGb]
    split <;> exact ⟨rfl, rfl, rfl⟩
  have e2 := updateStressStrainR_grid T.T.hLd
  have e3 := getNodalForcesR_frame T.T.hGd
  have e4 := BCsR_frame T.hH
  have a1 : T.T.Ga.boundary_v = s.G.boundary_v ∧ T.T.Ga.boundary_h = s.G.boundary_h ∧
      T.T.Ga.boundary_conveyor = s.G.boundary_conveyor := by
    rw [h2]
    exact ⟨field Grid.boundary_v e0, field Grid.boundary_h e0, field Grid.boundary_conveyor e0⟩
  refine ⟨?_, ?_, ?_, ?_⟩
  · exact Eq.trans (b := T.T.Gd.q) (field Grid.q e4) (Eq.trans (b := T.T.Gc.q)
      (field Grid.q e3) (field Grid.q e2))
  · exact Eq.trans (b := T.T.Gd.boundary_v) (field Grid.boundary_v e4) (Eq.trans (b := T.T.Gc.boundary_v)
      (field Grid.boundary_v e3) (Eq.trans (b := T.T.Gb.boundary_v) (field Grid.boundary_v e2) (e1.1.trans a1.1)))
  · exact Eq.trans (b := T.T.Gd.boundary_h) (field Grid.boundary_h e4) (Eq.trans (b := T.T.Gc.boundary_h)
      (field Grid.boundary_h e3) (Eq.trans (b := T.T.Gb.boundary_h) (field Grid.boundary_h e2) (e1.2.1.trans a1.2.1)))
  · exact Eq.trans (b := T.T.Gd.boundary_conveyor) (field Grid.boundary_conveyor e4) (Eq.trans (b := T.T.Gc.boundary_conveyor)
      (field Grid.boundary_conveyor e3) (Eq.trans (b := T.T.Gb.boundary_conveyor) (field Grid.boundary_conveyor e2) (e1.2.2.trans a1.2.2)))

/-- C141.  One step: walls hold exactly, and stay walls. -/
theorem wallR_step (hE : Plain E) (z : rnd 0 = 0) {s s' : St P} (hc : P.B.cyclic_lr = false)
    (h : timeMarchR rnd E s = .ok s') (i : Fin P.G.N) :
    (s.G.boundary_v i = true → s'.G.boundary_v i = true ∧
      ((P.B.conveyor = true → s.G.boundary_conveyor i = false) →
        s'.G.q_dot i 0 = 0 ∧ s'.G.q i 0 = 0)) ∧
    (s.G.boundary_h i = true → s'.G.boundary_h i = true ∧ s'.G.q_dot i 1 = 0 ∧ s'.G.q i 1 = 0) ∧
    s'.G.boundary_conveyor i = s.G.boundary_conveyor i := by
  obtain ⟨T⟩ := timeMarchR_ok hE h
  obtain ⟨g1, g2, g3, g4⟩ := T.grid
  obtain ⟨G1, h1, h2, -⟩ := nodalMassR_frame T.hseg T.T.hGa
  have e0 := p2gAllR_frame h1
  have b : T.T.Gb = G1.zeroBoundaryMomentum P.B.roughness := by
    rw [T.T.hGb, hc, if_neg (by decide), h2]
  rw [b] at g1
  rw [T.hG]
  have f1 : G1.boundary_v = s.G.boundary_v := field Grid.boundary_v e0
  have f2 : G1.boundary_h = s.G.boundary_h := field Grid.boundary_h e0
  obtain ⟨w1, w2⟩ := c138_walls z (B := P.B) P.damping T.T.d.dt P.v_0 T.H i
  refine ⟨fun hb => ?_, fun hb => ?_, ?_⟩
  · have hb' : T.H.boundary_v i = true := by rw [g2, hb]
    refine ⟨?_, fun hv => w1 hb' ?_ fun h => by rw [g4]; exact hv h⟩
    · unfold Grid.updateMomentumR
      dsimp only
      split_ifs <;> simp [hb']
    · rw [g1]
      unfold Grid.zeroBoundaryMomentum
      cases P.B.roughness <;> simp [f1, hb, maskOff]
  · have hb' : T.H.boundary_h i = true := by rw [g3, hb]
    refine ⟨?_, w2 hb' ?_⟩
    · unfold Grid.updateMomentumR
      dsimp only
      split_ifs <;> simp [hb']
    · rw [g1]
      unfold Grid.zeroBoundaryMomentum
      cases P.B.roughness <;> simp [f2, hb, maskOff]
  · exact congrFun g4 i

theorem wallR_steps (hE : Plain E) (z : rnd 0 = 0) {n : ℕ} {s s' : St P} (hc : P.B.cyclic_lr = false)
    (h : stepsR rnd E (n + 1) s = .ok s') (i : Fin P.G.N) :
    (s.G.boundary_v i = true → (P.B.conveyor = true → s.G.boundary_conveyor i = false) →
      s'.G.q_dot i 0 = 0 ∧ s'.G.q i 0 = 0) ∧
    (s.G.boundary_h i = true → s'.G.q_dot i 1 = 0 ∧ s'.G.q i 1 = 0) := by
  induction n generalizing s with
  | zero =>
    obtain ⟨s1, h1, h⟩ := res_bind_ok.1 h
    cases h
    obtain ⟨w1, w2, -⟩ := wallR_step hE z hc h1 i
    exact ⟨fun hb hv => (w1 hb).2 hv, fun hb => (w2 hb).2⟩
  | succ n ih =>
    obtain ⟨s1, h1, h⟩ := res_bind_ok.1 h
    obtain ⟨w1, w2, w3⟩ := wallR_step hE z hc h1 i
    obtain ⟨i1, i2⟩ := ih (s := stepTimeR rnd P s1) h
    exact ⟨fun hb hv => i1 (w1 hb).1 fun h => w3.trans (hv h), fun hb => i2 (w2 hb).1⟩

/-- C141.  Over any number of rounded steps, without periodic sides, nothing crosses a wall: momentum and
its rate normal to a wall are exactly zero at its nodes. -/
theorem c141_walls (z : rnd 0 = 0) {n : ℕ} {s s' : St P} (hc : P.B.cyclic_lr = false)
    (h : stepsR rnd (Besides.rounded rnd P) (n + 1) s = .ok s') (i : Fin P.G.N) :
    (s.G.boundary_v i = true → (P.B.conveyor = true → s.G.boundary_conveyor i = false) →
      s'.G.q_dot i 0 = 0 ∧ s'.G.q i 0 = 0) ∧
    (s.G.boundary_h i = true → s'.G.q_dot i 1 = 0 ∧ s'.G.q i 1 = 0) :=
  wallR_steps Besides.rounded_plain z hc h i

/-! ## Rest -/

theorem AtRestR.stress (z : rnd 0 = 0) {ns N nx : ℕ} {law : Law} {c : LawCtx K ns}
    {mp b : Particle K ns} {vis w : Vis → Fin N → XF K}
    (h : mp.updateStressR rnd nx law c vis = .ok (b, w)) (hl : mp.LL = 0) (hd : mp.dstrain = 0)
    (hm : AtRestR rnd mp) (hlaw : law ≠ .rigid) : AtRestR rnd b := by
  obtain ⟨m1, m2, m3, m4, m5⟩ := hm
  obtain ⟨k, -⟩ := updateStressR_frame h
  refine ⟨k.v.trans m1, ?_, ?_, k.b.trans m4, fun i => by rw [k.x]; exact m5 i⟩
  all_goals
    obtain ⟨x, h1, h2⟩ := res_bind_ok.1 h
    obtain ⟨y, h3, h4⟩ := res_bind_ok.1 h2
    cases h4
    have v0 : volR rnd mp = 0 := by simp [volR, traceR, hd, z]
    have s0 : shearR rnd mp = 0 := by ext i j; simp [shearR, v0, hd, z]
    have p0 : pressureR rnd c mp = 0 := by simp [pressureR, v0, m3, z]
    rcases runLawR_ok h1 with ⟨rfl, e⟩ | ⟨rfl, e⟩ | ⟨rfl, _, _, e⟩ | ⟨rfl, -, e⟩ | ⟨rfl, -, q, -, e⟩ |
      ⟨rfl, dt0, q, -, e⟩ | ⟨rfl, -, q, -, e⟩
  · exact absurd rfl hlaw
  · rw [e]
    ext i j
    simp [Particle.applyStressR, elasticR, hookeR, devR, traceR, mdotR, hd, hl, z, m2]
  · rw [e]
    ext i j
    simp [Particle.applyStressR, elasticTimeR, elasticR, hookeR, devR, traceR, mdotR, hd, hl, z, m2]
  · rw [e]
    ext i j
    simp [Particle.applyStressR, viscousR, traceR, mdotR, hd, hl, z, m2, m3]
  · rw [e]
    ext i j
    simp [Particle.applyStressR, pouliquenR, mdotR, hl, z, m2, s0, p0]
  · have d0 : ∀ i j, x.1.dev_stress i j = 0 := fun i j => e.dev_zero z dt0 (by rw [s0]; rfl)
    have q0 : x.1.pressure = 0 := by rw [e.whole]; simp [p0]
    have i0 : ∀ i j, x.1.dstress i j = 0 := fun i j => by rw [e.inc i j, d0, q0]; simp [m2, z]
    have l0 : x.1.LL = 0 := by rw [e.whole]; exact hl
    have t0 : x.1.stress = 0 := by rw [e.whole]; exact m2
    ext i j
    simp [Particle.applyStressR, mdotR, l0, z, t0, i0]
  · rw [e]
    ext i j
    simp [Particle.applyStressR, kenSimpleR, mdotR, hl, z, m2, s0, p0]
  · exact absurd rfl hlaw
  · rw [e]; simp [Particle.applyStressR, elasticR, traceR, z, m2]
  · rw [e]; simp [Particle.applyStressR, elasticTimeR, elasticR, traceR, z, m2]
  · rw [e]; simp [Particle.applyStressR, viscousR, traceR, hd, z, m3]
  · rw [e]; simp [Particle.applyStressR, pouliquenR, p0]
  · show x.1.pressure = 0
    rw [e.whole]; simp [p0]
  · rw [e]; simp [Particle.applyStressR, kenSimpleR, p0]

theorem restR_strain (z : rnd 0 = 0) {ns N nx : ℕ} {M_tol dt : K} {G : Grid K N ns}
    {mp mp' : Particle K ns} (hq : ∀ n, G.q n = 0) (h : mp.updateStrainR rnd nx M_tol dt G = .ok mp') :
    mp'.dstrain = 0 ∧ mp'.LL = 0 := by
  have hv : ∀ n, nodeVelR rnd M_tol G n = 0 := by
    intro n
    unfold nodeVelR
    split
    · funext k; simp [hq, z]
    · rfl
  obtain ⟨nd, -, -, h1, -, h2⟩ := updateStrainR_ok h
  constructor
  · ext i j
    rw [h1]
    refine runSum_zeros z ?_
    simp [hv, z]
  · ext i j
    rw [h2]
    refine runSum_zeros z ?_
    simp [hv, z]

theorem updateMomentumR_zero (z : rnd 0 = 0) {nx ny ns : ℕ} {B : BP K} (hc : B.conveyor = false)
    (damping : Bool) (dt v_0 : K) {G : Grid K (ny * nx) ns} (hq : ∀ n, G.q n = 0) (hf : ∀ n, G.fi n = 0)
    (he : ∀ n, G.fe n = 0) (n : Fin (ny * nx)) :
    (G.updateMomentumR rnd B damping dt v_0).q n = 0 ∧
      (G.updateMomentumR rnd B damping dt v_0).q_dot n = 0 := by
  have e : (G.updateMomentumR rnd B damping dt v_0).q_dot n = 0 := by
    unfold Grid.updateMomentumR
    dsimp only
    have e1 : (fun (i : Fin (ny * nx)) k => rnd (G.fe i k - G.fi i k)) = fun _ => (0 : Vec K) := by
      funext i k
      simp [he, hf, z]
    have e2 : (fun (i : Fin (ny * nx)) k => rnd (rnd (7 / 10) * rnd (G.fe i k - G.fi i k))) =
        fun _ => (0 : Vec K) := by
      funext i k
      simp [he, hf, z]
    have e3 : ∀ (mu : K) (a b c : Bool), roughNodeR rnd mu a b c 0 = (0 : Vec K) := by
      intro mu a b c
      funext k
      fin_cases k <;> simp [roughNodeR, z]
    simp only [e1, e2, ite_self]
    funext k
    fin_cases k <;> (simp only []; split_ifs <;> simp [maskOff, e3])
  refine ⟨?_, e⟩
  have e' : (G.updateMomentumR rnd B damping dt v_0).q n = fun k =>
      rnd (G.q n k + rnd (dt * (G.updateMomentumR rnd B damping dt v_0).q_dot n k)) := by
    unfold Grid.updateMomentumR
    simp only [hc, Bool.false_eq_true, if_false]
  rw [e', e, hq]
  funext k
  simp [z]

theorem BCsR_none {nx ny ns : ℕ} {B : BP K} {q_v q_h rho0 : K} {b : Bool} {G G' : Grid K (ny * nx) ns}
    (hv : B.vertical_force = false) (hh : B.horizontal_force = false)
    (h : G.BCsR rnd B q_v q_h rho0 b = .ok G') : G' = G := by
  unfold Grid.BCsR at h
  simp only [hv, hh, Bool.false_eq_true, false_and, or_self, if_false] at h
  split at h
  · cases h
  · exact (Except.ok.inj h).symm

/-- Rest with something more about the stored deviator, volumetric stress and increment. -/
def RestQ (rnd : K → K) {ns : ℕ} (Q : Law → Mat K → K → Mat K → Prop) (law : Law) (mp : Particle K ns) :
    Prop :=
  AtRestR rnd mp ∧ Q law mp.dev_stress mp.sigma_kk mp.dstress

/-- A law that does not stir a point at rest. -/
def Calm (rnd : K → K) (Q : Law → Mat K → K → Mat K → Prop) (E : Besides P) : Prop :=
  ∀ {d : Dyn K} {L : List (PhaseSt K P.G.ns)} {p : ℕ} {ph : Phase K P.G.ns} {mp b : Particle K P.G.ns}
    {vis w : Vis → Fin P.G.N → XF K}, E.stress d L p ph mp vis = .ok (b, w) → mp.LL = 0 →
    mp.dstrain = 0 → RestQ rnd Q ph.law mp → ph.law ≠ .rigid → RestQ rnd Q ph.law b

theorem restR_step {Q : Law → Mat K → K → Mat K → Prop} (hE : Plain E) (hQ : Calm rnd Q E)
    (z : rnd 0 = 0) {s s' : St P} (hB : Closed P.B) (hF : ∀ t, (P.forces t).1 = 0)
    (hv : P.B.vertical_force = false) (hh : P.B.horizontal_force = false) (hc : P.B.conveyor = false)
    (hx : P.B.cyclic_lr = true → ∀ mp ∈ points s.L, P.G.x_m ≤ mp.x 0 ∧ mp.x 0 ≤ P.G.x_M)
    (hL : Counted s.L) (hR : NoRigid s.L) (hs : ∀ x ∈ items s.L, RestQ rnd Q x.1.law x.2)
    (h : timeMarchR rnd E s = .ok s') :
    PtsRel (fun ph a b => RestQ rnd Q ph.law b ∧ b.x = a.x) s.L s'.L := by
  obtain ⟨⟨T, H, hseg, hH, hG, hp⟩⟩ := timeMarchR_ok hE h
  obtain ⟨M, hM, hM', -⟩ := StepR.points ⟨T, H, hseg, hH, hG, hp⟩ hB
  change movePointsR rnd P.G.nx P.M_tol T.d.dt P.intruder_v s'.G T.Ld = .ok M at hM
  have ra := updateForcesR_rel hL T.ha
  have la := ra.counted hL
  have rb := getReferenceNodesR_rel la T.hb
  have lb := rb.counted la
  have rc := getBasisFunctionsR_rel lb T.hc
  have lc := rc.counted lb
  have hg : T.d.g = 0 := by
    rw [T.hd]
    exact hF s.dyn.t
  have r1 : PtsRel (fun ph a b => RestQ rnd Q ph.law b ∧ b.x = a.x) s.L T.Lc := by
    refine ((ra.mem.comp rb).comp rc).mono ?_
    rintro ph a d ⟨c, ⟨b, ⟨ha, -, f, rfl, hf⟩, n, rfl⟩, w, g, rfl⟩
    obtain ⟨⟨m1, m2, m3, m4, m5⟩, mQ⟩ : RestQ rnd Q ph.law a := hs _ ha
    refine ⟨⟨⟨m1, m2, m3, ?_, m5⟩, mQ⟩, rfl⟩
    show f = 0
    rcases hf with rfl | rfl
    · exact m4
    · rw [hg]
      funext k
      fin_cases k <;> simp [bodyForceR, z]
  have s1 : ∀ mp ∈ points T.Lc, AtRestR rnd mp := ownVel_of_rel r1 fun _ _ _ h => h.1.1
  have i1 := items_of_rel r1 (p := fun ph b => RestQ rnd Q ph.law b) fun _ _ _ h => h.1
  -- momenta
  obtain ⟨G1, h1, h2, -, -, h5, h6⟩ := nodalMassR_frame hseg T.hGa
  have q1 : ∀ n, G1.q n = 0 := by
    intro n
    funext k
    rw [((c137_sum lc h1).2 n).2.1 k]
    refine runSum_zeros z ?_
    intro x hx
    obtain ⟨a, ha, rfl⟩ := List.mem_map.1 hx
    rw [(s1 _ (mem_arrivals ha)).1]
    simp [VRef.get, z]
  have q2 : ∀ n, T.Ga.q n = 0 := by
    intro n
    rw [h2]
    funext k
    unfold Grid.zeroBoundaryMomentum
    cases P.B.roughness <;> fin_cases k <;> simp [q1, maskOff]
  have q3 : ∀ n, T.Gb.q n = 0 := by
    intro n
    rw [T.hGb]
    split
    · funext k
      simp [Grid.makeCyclicMQR, makeCyclicR, q2, z]
    · exact q2 n
  have f3 : ∀ n, T.Gb.fi n = 0 ∧ T.Gb.fe n = 0 := by
    intro n
    have : T.Gb.fi = T.Ga.fi ∧ T.Gb.fe = T.Ga.fe := by
      rw [T.hGb]
      split <;> exact ⟨rfl, rfl⟩
    rw [this.1, this.2, h5, h6]
    exact ⟨rfl, rfl⟩
  -- stresses
  have rd := updateStressStrainR_rel lc T.hLd
  have ld := rd.counted lc
  have lawc := laws_of_rel (p := (· ≠ .rigid)) r1 hR
  have r2 : PtsRel (fun ph a b => RestQ rnd Q ph.law b ∧ b.x = a.x) T.Lc T.Ld := by
    refine rd.mem.mono ?_
    rintro ph a b ⟨ha, -, p, vis, vis', c, hc, hb⟩
    obtain ⟨A, hA, hph, hm⟩ := mem_items.1 ha
    obtain ⟨d0, l0⟩ := restR_strain z q3 hc
    have hl : ph.law ≠ .rigid := by
      have := lawc A hA
      rwa [hph] at this
    have hc' : RestQ rnd Q ph.law c ∧ c.x = a.x := by
      obtain ⟨-, -, ⟨_, _, _, rfl⟩, -⟩ := updateStrainR_ok hc
      exact ⟨i1 _ ha, rfl⟩
    exact ⟨hQ hb l0 d0 hc'.1 hl, (hE.stress hb).1.x.trans hc'.2⟩
  have s2 : ∀ mp ∈ points T.Ld, AtRestR rnd mp := ownVel_of_rel r2 fun _ _ _ h => h.1.1
  have i2 := items_of_rel r2 (p := fun ph b => RestQ rnd Q ph.law b) fun _ _ _ h => h.1
  -- forces
  have e2 := updateStressStrainR_grid T.hLd
  have f4 : ∀ n, T.Gc.fi n = 0 ∧ T.Gc.fe n = 0 := by
    intro n
    rw [e2]
    exact f3 n
  have hGd := T.hGd
  unfold getNodalForcesR at hGd
  obtain ⟨G2, g1, g2⟩ := res_bind_ok.1 hGd
  obtain ⟨-, g3⟩ := c138_forces_sum ld g1
  have f5 : ∀ n, G2.fi n = 0 ∧ G2.fe n = 0 := by
    intro n
    rw [g3]
    refine ⟨funext fun k => ?_, funext fun k => ?_⟩
    · show runSum rnd (T.Gc.fi n k) _ = 0
      rw [(f4 n).1]
      refine runSum_zeros z ?_
      intro x hx
      obtain ⟨a, ha, rfl⟩ := List.mem_map.1 hx
      rw [(s2 _ (mem_arrivals ha)).2.1]
      simp [dotR, z]
    · show runSum rnd (T.Gc.fe n k) _ = 0
      rw [(f4 n).2]
      refine runSum_zeros z ?_
      intro x hx
      obtain ⟨a, ha, rfl⟩ := List.mem_map.1 hx
      rw [(s2 _ (mem_arrivals ha)).2.2.2.1]
      simp [z]
  have e3 := getNodalForcesR_frame T.hGd
  have q4 : ∀ n, T.Gd.q n = 0 := by
    intro n
    rw [e3, e2]
    exact q3 n
  have f6 : ∀ n, T.Gd.fi n = 0 ∧ T.Gd.fe n = 0 := by
    intro n
    rw [← Except.ok.inj g2]
    split
    · refine ⟨funext fun k => ?_, funext fun k => ?_⟩ <;>
        simp [Grid.makeCyclicForcesR, makeCyclicR, f5, z]
    · exact f5 n
  have eH := BCsR_none hv hh hH
  subst eH
  have q5 := updateMomentumR_zero z hc P.damping T.d.dt P.v_0 q4 (fun n => (f6 n).1) fun n => (f6 n).2
  rw [← hG] at q5
  -- motion
  have ro : OwnVel T.Ld := fun mp hmp => ⟨_, (s2 mp hmp).1⟩
  have rm := movePointsR_own ld (laws_of_rel (p := (· ≠ .rigid)) r2 lawc) ro hM
  have r3 : PtsRel (fun ph a b => RestQ rnd Q ph.law b ∧ b.x = a.x) T.Ld M := by
    refine rm.mem.mono ?_
    rintro ph a b ⟨ha, -, hm, w, hw⟩
    obtain ⟨⟨m1, m2, m3, m4, m5⟩, mQ⟩ : RestQ rnd Q ph.law a := i2 _ ha
    have hxx : b.x = a.x := funext fun k => (c138_rest z hm k).1 (m5 k) fun c _ => by simp [q5]
    have hvv : w = 0 := by
      funext k
      have := (c138_rest z hm k).2 (by simp [m1, VRef.get, z]) fun c _ => by simp [q5]
      rw [hw, m1] at this
      exact this
    obtain ⟨-, ⟨x, v, rho, rfl⟩, -⟩ := c138_sum hm
    refine ⟨⟨⟨by rw [hw, hvv], m2, m3, m4, ?_⟩, mQ⟩, hxx⟩
    rw [hxx]
    exact m5
  have r4 := cyclicLRR_rel (rm.counted ld) hM'
  refine (((r1.mem.comp r2).comp r3).comp r4).mono ?_
  rintro ph a e ⟨d, ⟨c, ⟨b, ⟨ha, -, -, e1⟩, -, e2⟩, hd, e3⟩, e4, e5, e6⟩
  obtain ⟨A, hA, -, hmem⟩ := mem_items.1 ha
  have ex : d.x = a.x := e3.trans (e2.trans e1)
  have key : e.x = d.x := by
    cases hcy : P.B.cyclic_lr
    · exact e5 hcy
    · exact e6 (by rw [ex]; exact hx hcy a (List.mem_flatMap.2 ⟨A, hA, hmem⟩))
  refine ⟨?_, key.trans ex⟩
  rw [e4, key]
  exact hd

theorem restR_steps {Q : Law → Mat K → K → Mat K → Prop} (hE : Plain E) (hQ : Calm rnd Q E)
    (z : rnd 0 = 0) {n : ℕ} {s s' : St P} (hB : Closed P.B)
    (hF : ∀ t, (P.forces t).1 = 0) (hv : P.B.vertical_force = false) (hh : P.B.horizontal_force = false)
    (hc : P.B.conveyor = false)
    (hx : P.B.cyclic_lr = true → ∀ mp ∈ points s.L, P.G.x_m ≤ mp.x 0 ∧ mp.x 0 ≤ P.G.x_M)
    (hL : Counted s.L) (hR : NoRigid s.L) (hs : ∀ x ∈ items s.L, RestQ rnd Q x.1.law x.2)
    (h : stepsR rnd E n s = .ok s') :
    PtsRel (fun ph a b => RestQ rnd Q ph.law a → RestQ rnd Q ph.law b ∧ b.x = a.x) s.L s'.L := by
  induction n generalizing s with
  | zero => cases h; exact .refl (fun _ _ h => ⟨h, rfl⟩) _
  | succ n ih =>
    obtain ⟨s1, h1, h⟩ := res_bind_ok.1 h
    have r1 := restR_step hE hQ z hB hF hv hh hc hx hL hR hs h1
    have hx1 : P.B.cyclic_lr = true → ∀ mp ∈ points s1.L, P.G.x_m ≤ mp.x 0 ∧ mp.x 0 ≤ P.G.x_M := by
      intro hcy
      refine ownVel_of_rel r1.mem (p := fun mp => P.G.x_m ≤ mp.x 0 ∧ mp.x 0 ≤ P.G.x_M) ?_
      rintro ph a b ⟨ha, -, -, e⟩
      obtain ⟨A, hA, -, hmem⟩ := mem_items.1 ha
      rw [e]
      exact hx hcy a (List.mem_flatMap.2 ⟨A, hA, hmem⟩)
    have r2 := ih (s := stepTimeR rnd P s1) hx1 (r1.counted hL) (laws_of_rel (p := (· ≠ .rigid)) r1 hR)
      (items_of_rel r1 (p := fun ph b => RestQ rnd Q ph.law b) fun _ _ _ h => h.1) h
    refine (r1.comp r2).mono ?_
    rintro ph a c ⟨b, ⟨a1, a2⟩, b1⟩ -
    exact ⟨(b1 a1).1, (b1 a1).2.trans a2⟩

theorem Besides.rounded_calm (z : rnd 0 = 0) : Calm rnd (fun _ _ _ _ => True) (Besides.rounded rnd P) :=
  fun h hl hd hm hlaw => ⟨AtRestR.stress z h hl hd hm.1 hlaw, trivial⟩

/-- C141.  Without loads, a body at rest stays exactly where it is, without velocity or stress, over any
number of rounded steps. -/
theorem c141_rest (z : rnd 0 = 0) {n : ℕ} {s s' : St P} (hB : Closed P.B)
    (hF : ∀ t, (P.forces t).1 = 0) (hv : P.B.vertical_force = false) (hh : P.B.horizontal_force = false)
    (hc : P.B.conveyor = false)
    (hx : P.B.cyclic_lr = true → ∀ mp ∈ points s.L, P.G.x_m ≤ mp.x 0 ∧ mp.x 0 ≤ P.G.x_M)
    (hL : Counted s.L) (hR : NoRigid s.L) (hs : ∀ mp ∈ points s.L, AtRestR rnd mp)
    (h : stepsR rnd (Besides.rounded rnd P) n s = .ok s') :
    List.Forall₂ (fun mp mp' => mp'.x = mp.x ∧ AtRestR rnd mp') (points s.L) (points s'.L) := by
  have hi : ∀ x ∈ items s.L, RestQ rnd (fun _ _ _ _ => True) x.1.law x.2 :=
    fun x hx => ⟨hs _ (mem_points_items hx), trivial⟩
  have k := (restR_steps Besides.rounded_plain (Besides.rounded_calm z) z hB hF hv hh hc hx hL hR hi h).mem
  refine k.points.imp ?_
  rintro a b ⟨ph, ha, -, hab⟩
  exact ⟨(hab (hi _ ha)).2, (hab (hi _ ha)).1.1⟩

end
end Mpm

/-! ## Examples -/

namespace Mpm
open Spec

/-- The example without gravity, with a floor and a wall on the left. -/
def Ex.parCalm : Par ℚ :=
  { Ex.par with forces := fun _ => (0, 0, 0), B := { Ex.bp with has_bottom := true, has_left := true } }

/-- One point without stress at a position that binary64 cannot represent exactly in decimals. -/
def Ex.calm (v : Vec ℚ) : List (PhaseSt ℚ 2) :=
  [{ ph := { Ex.ph with n := 1 }
     pts := [{ Ex.mp with x := ![fl 53 (2/5), fl 53 (1/7), 0], v := .own v, b := 0, stress := 0 }] }]

theorem Ex.calm_counted (v : Vec ℚ) : Counted (Ex.calm v) := by
  intro a ha
  rw [List.mem_singleton.1 ha]; rfl

theorem Ex.calm_soft (v : Vec ℚ) : NoRigid (Ex.calm v) := by
  intro a ha
  rw [List.mem_singleton.1 ha]
  exact fun h => by cases h

theorem Ex.calm_own (v : Vec ℚ) : OwnVel (Ex.calm v) := by
  intro mp hmp
  have : mp ∈ [({ Ex.mp with
    x := ![fl 53 (2/5), fl 53 (1/7), 0], v := .own v, b := 0, stress := 0 } : Particle ℚ 2)] := hmp
  rw [List.mem_singleton.1 this]
  exact ⟨_, rfl⟩

/-- C141.  A body at rest, in binary64. -/
example : ∃ (G : Grid ℚ Ex.parCalm.G.N Ex.parCalm.G.ns) (s : St Ex.parCalm),
    mkGridR (fl 53) Ex.parCalm.G Ex.parCalm.B = .ok G ∧
    stepsR (fl 53) (Besides.rounded (fl 53) Ex.parCalm) 1 { dyn := Ex.dyn, L := Ex.calm 0, G := G } = .ok s ∧
    List.Forall₂ (fun mp mp' => mp'.x = mp.x ∧ AtRestR (fl 53) mp') (points (Ex.calm 0)) (points s.L) := by
  have h : Ex.okAnd (mkGridR (fl 53) Ex.parCalm.G Ex.parCalm.B) (fun G =>
      Ex.okAnd (stepsR (fl 53) (Besides.rounded (fl 53) Ex.parCalm) 1
        { dyn := Ex.dyn, L := Ex.calm 0, G := G }) fun s => true) = true := by decide +kernel
  obtain ⟨G, h1, h⟩ := Ex.okAnd_ok h
  obtain ⟨s, h2, -⟩ := Ex.okAnd_ok h
  refine ⟨G, s, h1, h2, c141_rest (s := { dyn := Ex.dyn, L := Ex.calm 0, G := G })
    (fl_zero 53) ⟨rfl, rfl, rfl, rfl⟩ (fun _ => rfl) rfl rfl rfl
    (fun h => by cases h) (Ex.calm_counted 0) (Ex.calm_soft 0) ?_ h2⟩
  intro mp hmp
  have : mp ∈ [({ Ex.mp with
    x := ![fl 53 (2/5), fl 53 (1/7), 0], v := .own 0, b := 0, stress := 0 } : Particle ℚ 2)] := hmp
  rw [List.mem_singleton.1 this]
  refine ⟨rfl, rfl, rfl, rfl, ?_⟩
  decide +kernel

/-- C141.  The same body moving against floor and wall: its mass and volume stay, and at the node in the
corner there is no momentum, while other nodes have some. -/
example : ∃ (G : Grid ℚ Ex.parCalm.G.N Ex.parCalm.G.ns) (s : St Ex.parCalm),
    mkGridR (fl 53) Ex.parCalm.G Ex.parCalm.B = .ok G ∧
    stepsR (fl 53) (Besides.rounded (fl 53) Ex.parCalm) 1
      { dyn := Ex.dyn, L := Ex.calm ![fl 53 (-1/3), fl 53 (-1/7), 0], G := G } = .ok s ∧
    (∃ mp, points s.L = [mp] ∧ mp.V = 1 ∧ mp.m = 3) ∧
    s.G.q (⟨0, by decide⟩ : Fin 9) 0 = 0 ∧ s.G.q (⟨0, by decide⟩ : Fin 9) 1 = 0 ∧
    s.G.q (⟨4, by decide⟩ : Fin 9) 0 ≠ 0 ∧ s.G.q (⟨4, by decide⟩ : Fin 9) 1 ≠ 0 := by
  have h : Ex.okAnd (mkGridR (fl 53) Ex.parCalm.G Ex.parCalm.B) (fun G =>
      (G.boundary_v (⟨0, by decide⟩ : Fin 9) && G.boundary_h (⟨0, by decide⟩ : Fin 9)) &&
      Ex.okAnd (stepsR (fl 53) (Besides.rounded (fl 53) Ex.parCalm) 1
        { dyn := Ex.dyn, L := Ex.calm ![fl 53 (-1/3), fl 53 (-1/7), 0], G := G }) fun s =>
      decide (s.G.q (⟨4, by decide⟩ : Fin 9) 0 ≠ 0) && decide (s.G.q (⟨4, by decide⟩ : Fin 9) 1 ≠ 0)) =
      true := by decide +kernel
  obtain ⟨G, h1, h⟩ := Ex.okAnd_ok h
  obtain ⟨hb, h⟩ := Bool.and_eq_true_iff.1 h
  obtain ⟨hb1, hb2⟩ := Bool.and_eq_true_iff.1 hb
  obtain ⟨s, h2, h⟩ := Ex.okAnd_ok h
  obtain ⟨k1, k2⟩ := Bool.and_eq_true_iff.1 h
  obtain ⟨w1, w2⟩ := c141_walls (fl_zero 53) rfl h2 (⟨0, by decide⟩ : Fin 9)
  refine ⟨G, s, h1, h2, ?_, (w1 hb1 fun h => by cases h).2, (w2 hb2).2, of_decide_eq_true k1,
    of_decide_eq_true k2⟩
  have := c141_bodies ⟨rfl, rfl, rfl, rfl⟩ (Ex.calm_counted _) (Ex.calm_soft _) (Ex.calm_own _) h2
  obtain ⟨_, _, ⟨hp, hl⟩, ht, e⟩ := List.forall₂_cons_left_iff.1 this
  cases ht
  obtain ⟨mp, _, ⟨e1, -, e3⟩, ht, e'⟩ := List.forall₂_cons_left_iff.1 hl
  cases ht
  refine ⟨mp, ?_, e1, e3 (by decide)⟩
  rw [e]
  simp [points, e']

/-- Without walls. -/
def Ex.parFree : Par ℚ := { Ex.par with forces := fun _ => (0, 0, 0) }

/-- C141.  The same body in uniform motion does not stay without stress, as it does in exact arithmetic:
rounding breaks the equivalence of rest and uniform motion. -/
theorem c141_motion : ∃ (G : Grid ℚ Ex.parFree.G.N Ex.parFree.G.ns) (s t : St Ex.parFree),
    mkGridR (fl 53) Ex.parFree.G Ex.parFree.B = .ok G ∧
    stepsR (fl 53) (Besides.rounded (fl 53) Ex.parFree) 1
      { dyn := Ex.dyn, L := Ex.calm ![fl 53 (1/3), fl 53 (1/7), 0], G := G } = .ok s ∧
    (∃ mp ∈ points s.L, mp.stress 0 1 ≠ 0) ∧
    stepsR id (Besides.rounded id Ex.parFree) 1
      { dyn := Ex.dyn, L := Ex.calm ![fl 53 (1/3), fl 53 (1/7), 0], G := G } = .ok t ∧
    ∀ mp ∈ points t.L, mp.stress = 0 := by
  have h : Ex.okAnd (mkGridR (fl 53) Ex.parFree.G Ex.parFree.B) (fun G =>
      Ex.okAnd (stepsR (fl 53) (Besides.rounded (fl 53) Ex.parFree) 1
        { dyn := Ex.dyn, L := Ex.calm ![fl 53 (1/3), fl 53 (1/7), 0], G := G }) fun s =>
      ((points s.L).any fun p => decide (p.stress 0 1 ≠ 0)) &&
      Ex.okAnd (stepsR id (Besides.rounded id Ex.parFree) 1
        { dyn := Ex.dyn, L := Ex.calm ![fl 53 (1/3), fl 53 (1/7), 0], G := G }) fun t =>
      (points t.L).all fun p => decide (p.stress = 0)) = true := by decide +kernel
  obtain ⟨G, h1, h⟩ := Ex.okAnd_ok h
  obtain ⟨s, h2, h⟩ := Ex.okAnd_ok h
  obtain ⟨h3, h⟩ := Bool.and_eq_true_iff.1 h
  obtain ⟨t, h4, h⟩ := Ex.okAnd_ok h
  obtain ⟨p, hp, h3⟩ := List.any_eq_true.1 h3
  exact ⟨G, s, t, h1, h2, ⟨p, hp, of_decide_eq_true h3⟩, h4, fun mp hmp =>
    of_decide_eq_true (List.all_eq_true.1 h mp hmp)⟩

end Mpm

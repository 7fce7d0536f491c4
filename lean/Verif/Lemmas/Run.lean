import Verif.Lemmas.Track

/-! A time step raises no exception under benign conditions. -/

set_option linter.unusedSectionVars false

namespace Mpm
open Spec

section
variable {K : Type} [Field K] [LinearOrder K] [IsStrictOrderedRing K] [FloorRing K] {ns N : ℕ}

theorem momentumPhase_exists {P : Par K} (hv : P.B.vertical_force = false)
    (hh : P.B.horizontal_force = false) (ha : P.aniso = false) (interp : Interp K P.G.N)
    (s : St P) : ∃ s', momentumPhase P interp s = .ok s' := by
  unfold momentumPhase Grid.BCs
  simp only [hv, hh, ha, Bool.false_eq_true, false_and, or_self, if_false, Bool.false_and]
  exact ⟨_, rfl⟩

/-- After the first half of a step every point has four valid nodes. -/
theorem gridPhase_nodes {P : Par K} {s s1 : St P} (hL : Counted s.L) (h : gridPhase P s = .ok s1) :
    Counted s1.L ∧ ∀ mp ∈ points s1.L, NodesOk P.G.nx P.G.N mp := by
  obtain ⟨T, rfl⟩ := gridPhase_ok h
  obtain ⟨_, _, _, _, c4⟩ := T.rel hL
  refine ⟨c4, ?_⟩
  have h := T.hGd
  unfold getNodalForces at h
  obtain ⟨G1, h1, _⟩ := res_bind_ok.1 h
  have := ((nodalForcesAll_ok c4).1 h1).1
  intro mp hmp
  rw [← items_map_snd] at hmp
  obtain ⟨x, hx, rfl⟩ := List.mem_map.1 hmp
  exact this x hx

theorem movePoints_exists {nx : ℕ} {M_tol dt : K} {iv : Vec K} {G : Grid K N ns}
    (hV : ∀ k, G.V k ≠ 0) {L : List (PhaseSt K ns)} (hL : Counted L)
    (hn : ∀ mp ∈ points L, NodesOk nx N mp) :
    ∃ L', movePoints nx M_tol dt iv G L = .ok L' := by
  refine mapPhases_exists ?_ 0
  intro p a ha
  dsimp only
  split
  · have : ∃ pts, mapN (fun mp : Particle K ns => .ok (mp.moveRigid dt iv)) a.ph.n a.pts = .ok pts := by
      refine ⟨a.pts.map (·.moveRigid dt iv), mapN_of_forall₂ (hL a ha) ?_⟩
      rw [List.forall₂_map_right_iff]
      refine forall₂_refl ?_ a.pts
      intro _
      rfl
    obtain ⟨pts, h⟩ := this
    rw [h]
    exact ⟨_, rfl⟩
  · have : ∃ r, forN (fun (mp : Particle K ns) iv => mp.move nx M_tol dt G iv) a.ph.n a.pts a.ph.iv
        = .ok r := by
      rw [hL a ha]
      refine forN_exists ?_ _
      intro mp hmp iv
      obtain ⟨nd, hnd⟩ := nodesOk_iff.1 (hn mp (List.mem_flatMap.2 ⟨a, ha, hmp⟩))
      exact ⟨_, move_of_nodes hnd fun r _ => hV _⟩
    obtain ⟨⟨pts, iv'⟩, h⟩ := this
    rw [h]
    exact ⟨_, rfl⟩

theorem outlet_exists {test : Particle K ns → Bool} {L : List (PhaseSt K ns)} (hL : Counted L) :
    ∃ L', mapPhases (fun _ a => do
      let (n, l) ← outletLoop test a.ph.n (a.ph.n, a.pts)
      return { ph := { a.ph with n := n }, pts := l }) 0 L = .ok L' := by
  refine mapPhases_exists ?_ 0
  intro p a ha
  dsimp only
  rw [hL a ha, outletLoop_eq]
  exact ⟨_, rfl⟩

/-- The last part of a step, without inlets. -/
theorem pointsPhase_exists {P : Par K} (hi : P.B.inlet_right = false) (ht : P.B.inlet_top = false)
    {s : St P} (hV : ∀ k, s.G.V k ≠ 0) (hL : Counted s.L)
    (hn : ∀ mp ∈ points s.L, NodesOk P.G.nx P.G.N mp) : ∃ s', pointsPhase P s = .ok s' := by
  obtain ⟨L1, h1⟩ := movePoints_exists (M_tol := P.M_tol) (dt := s.dyn.dt) (iv := P.intruder_v)
    hV hL hn
  have rm := movePoints_rel hL h1
  have c1 : Counted L1 := by
    intro B hB
    obtain ⟨A, hA, hr⟩ := forall₂_right rm hB
    rw [hr.1, ← hr.2.1.length_eq]
    exact hL A hA
  have w : ∀ {L : List (PhaseSt K P.G.ns)} {c : Bool}
      {f : List (PhaseSt K P.G.ns) → Res (List (PhaseSt K P.G.ns))}, Counted L →
      (∃ L', f L = .ok L' ∧ Counted L') → ∃ L', whenSet c f L = .ok L' ∧ Counted L' := by
    intro L c f hL h
    cases c
    · exact ⟨L, rfl, hL⟩
    · exact h
  have q0 : Phase K P.G.ns → Particle K P.G.ns → Prop := fun _ _ => True
  obtain ⟨L2, h2, c2⟩ := w (c := P.B.outlet_left) (f := outletLeft P.G) c1 (by
    obtain ⟨L', h⟩ := outlet_exists (test := fun mp : Particle K P.G.ns =>
      decide (mp.x 0 < P.G.x_m + P.G.dx)) c1
    exact ⟨L', h, (outlet_turnover (q := q0) (out := True) (inn := True) trivial (outlet_rel c1 h)).counted⟩)
  obtain ⟨L3, h3, c3⟩ := w (c := P.B.outlet_bottom) (f := outletBottom P.G) c2 (by
    obtain ⟨L', h⟩ := outlet_exists (test := fun mp : Particle K P.G.ns =>
      decide (mp.x 1 < P.G.y_m)) c2
    exact ⟨L', h, (outlet_turnover (q := q0) (out := True) (inn := True) trivial (outlet_rel c2 h)).counted⟩)
  obtain ⟨L4, h4, _⟩ := w (c := P.B.cyclic_lr) (f := cyclicLR P.G) c3 (by
    obtain ⟨L', h⟩ : ∃ L', cyclicLR P.G L3 = .ok L' := ⟨_, mapPoints_ok_of
      (g := fun _ mp => { mp with x := Function.update mp.x 0 (wrapX P.G (mp.x 0)) }) c3
      fun _ _ _ => rfl⟩
    exact ⟨L', h, (mapPoints_raw c3 h).counted c3⟩)
  refine ⟨{ s with L := L4 }, ?_⟩
  unfold pointsPhase
  refine res_bind_ok.2 ⟨L1, h1, res_bind_ok.2 ⟨L2, h2, res_bind_ok.2 ⟨L3, h3, ?_⟩⟩⟩
  rw [hi, ht]
  exact res_bind_ok.2 ⟨L3, rfl, res_bind_ok.2 ⟨L3, rfl, res_bind_ok.2 ⟨L4, h4, rfl⟩⟩⟩

/-- A whole step. -/
theorem timeMarch_exists {P : Par K} {s : St P} (hP : GoodGrid P.G) (hG : Geometry P.G s.G)
    (hV : ∀ k, s.G.V k ≠ 0) (hL : Counted s.L) (hx : ∀ mp ∈ points s.L, InDomain P.G mp.x)
    (hc : P.check_positions = false) (hl : ∀ a ∈ s.L, SafeLaw s.dyn.dt a.ph.law)
    (hv : P.B.vertical_force = false) (hh : P.B.horizontal_force = false) (ha : P.aniso = false)
    (hs : P.segregate_grid = false) (hi : P.B.inlet_right = false) (ht : P.B.inlet_top = false)
    (interp : Interp K P.G.N) : ∃ s', timeMarch P interp s = .ok s' := by
  obtain ⟨s1, h1⟩ := gridPhase_exists hP hG hL hx hc hl
  obtain ⟨s2, h2⟩ := momentumPhase_exists hv hh ha interp s1
  obtain ⟨c1, n1⟩ := gridPhase_nodes hL h1
  obtain ⟨_, l2, t2, _⟩ := momentumPhase_table h2
  have h3 : segregationPhase P interp s2 = .ok s2 := by
    unfold segregationPhase; rw [hs]; rfl
  have V2 : s2.G.V = s.G.V := by
    obtain ⟨T, rfl⟩ := gridPhase_ok h1
    exact t2.V.trans T.static.2.2.2.1.V
  obtain ⟨s4, h4⟩ := pointsPhase_exists hi ht (s := s2) (by rw [V2]; exact hV) (by rw [l2]; exact c1)
    (by rw [l2]; exact n1)
  refine ⟨s4, ?_⟩
  unfold timeMarch
  exact res_bind_ok.2 ⟨s1, h1, res_bind_ok.2 ⟨s2, h2, res_bind_ok.2 ⟨s2, h3, h4⟩⟩⟩

end
end Mpm

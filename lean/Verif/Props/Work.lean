import Verif.Props.Fall

/-!
# C110: energy balance of the nodes over a step
-/

set_option linter.unusedSectionVars false

namespace Mpm
open Spec

namespace Spec
section
variable {K : Type} [Field K] [LinearOrder K] {ns N : ℕ}

/-- Kinetic energy of the nodes heavy enough to have a velocity. -/
def movingEnergy (M_tol : K) (G : Grid K N ns) : K :=
  ∑ k, G.m k / 2 * ∑ i, velocityAt M_tol G k i ^ 2

/-- Power of the nodal forces `f` on the nodal velocities. -/
def nodalPower (M_tol : K) (G : Grid K N ns) (f : Fin N → Vec K) : K :=
  ∑ k, ∑ i, f k i * velocityAt M_tol G k i

/-- `|dq/dt|^2 / m` summed over the nodes heavy enough to have a velocity. -/
def accelSum (M_tol : K) (G : Grid K N ns) : K :=
  ∑ k, if M_tol < G.m k then (∑ i, G.q_dot k i ^ 2) / G.m k else 0

/-- Velocity of the grid at the position `x`. -/
def gridVelocity (P : GP K) (M_tol : K) (G : Grid K P.N ns) (x : Vec K) (i : Fin 3) : K :=
  ∑ k, hat P x k * velocityAt M_tol G k i

end
end Spec

section
variable {K : Type} [Field K] [LinearOrder K] [IsStrictOrderedRing K] [FloorRing K]
variable {P : Par K} {s s1 s2 s' : St P}

/-- The momentum rate of a node without wall friction, component by component. -/
theorem updateMomentum_qdot {nx ny ns : ℕ} {B : BP K} {damping : Bool} {dt v0 : K}
    (hr : B.roughness = false ∨ B.wall_mu = 0) (G : Grid K (ny * nx) ns) (k : Fin (ny * nx)) :
    (G.updateMomentum B damping dt v0).q_dot k 2 =
      dampFactor (K := K) damping * (G.fe k 2 - G.fi k 2) ∧
    (G.updateMomentum B damping dt v0).q_dot k 0 =
      (if G.boundary_v k = true ∨ (B.roughness = true ∧ G.boundary_h k = true) then 0 else
        dampFactor (K := K) damping * (G.fe k 0 - G.fi k 0)) ∧
    (G.updateMomentum B damping dt v0).q_dot k 1 =
      (if G.boundary_h k = true ∨ (B.roughness = true ∧ G.boundary_v k = true) then 0 else
        dampFactor (K := K) damping * (G.fe k 1 - G.fi k 1)) := by
  have hf : (B.roughness && decide (B.wall_mu ≠ 0)) = false := by
    rcases hr with h | h <;> simp [h]
  have hd : ∀ i, (if damping = true then fun i => (7 / 10 : K) • (G.fe i - G.fi i)
      else fun i => G.fe i - G.fi i) k i = dampFactor (K := K) damping * (G.fe k i - G.fi k i) := by
    intro i
    unfold dampFactor
    cases damping <;> simp
  unfold Grid.updateMomentum
  simp only [hf, Bool.false_eq_true, if_false]
  cases hro : B.roughness
  · refine ⟨hd 2, ?_, ?_⟩
    · change maskOff _ _ = _
      rw [maskOff_eq]
      simp only [Bool.false_eq_true, false_and, or_false, if_false]
      rw [← hd 0]
    · change maskOff _ _ = _
      rw [maskOff_eq]
      simp only [Bool.false_eq_true, false_and, or_false, if_false]
      rw [← hd 1]
  · have hmu : B.wall_mu = 0 := by
      rcases hr with h | h
      · rw [h] at hro; cases hro
      · exact h
    simp only [hmu, ne_eq, not_true_eq_false, if_false, if_true, true_and]
    refine ⟨hd 2, ?_, ?_⟩
    · change maskOff (maskOff _ _) _ = _
      rw [maskOff_eq, maskOff_eq, ← hd 0]
      by_cases h1 : G.boundary_v k = true <;> by_cases h2 : G.boundary_h k = true <;> simp [h1, h2]
    · change maskOff (maskOff _ _) _ = _
      rw [maskOff_eq, maskOff_eq, ← hd 1]
      by_cases h1 : G.boundary_v k = true <;> by_cases h2 : G.boundary_h k = true <;> simp [h1, h2]

/-- Walls do no work. -/
theorem wall_power (hcy : P.B.cyclic_lr = false)
    (hr : P.B.roughness = false ∨ P.B.wall_mu = 0) {interp : Interp K P.G.N}
    (h1 : gridPhase P s = .ok s1) (h2 : momentumPhase P interp s1 = .ok s2) (k : Fin P.G.N)
    (i : Fin 3) :
    s2.G.q_dot k i * s1.G.q k i =
      dampFactor (K := K) P.damping * (s2.G.fe k i - s1.G.fi k i) * s1.G.q k i := by
  obtain ⟨T, rfl⟩ := gridPhase_ok h1
  obtain ⟨w0, w1⟩ := mapped_walls T k
  obtain ⟨-, -, -, st, hq, -⟩ := T.static
  have hb : T.Gb = T.Ga := by rw [T.hGb, hcy]; rfl
  obtain ⟨G1, hG1, e⟩ := momentumPhase_frame h2
  have e1 := BCs_frame hG1
  have fi1 : G1.fi = T.Gd.fi := by rw [e1]
  have v1 : G1.boundary_v = s.G.boundary_v := by rw [e1]; exact st.bv
  have u1 : G1.boundary_h = s.G.boundary_h := by rw [e1]; exact st.bh
  have ed : s2.G.q_dot = _ := congrArg (fun s : St P => s.G.q_dot) e
  have ef : s2.G.fe = G1.fe := congrArg (fun s : St P => s.G.fe) e
  obtain ⟨d2, d0, d1⟩ := updateMomentum_qdot (damping := P.damping) (dt := T.d.dt) (v0 := P.v_0)
    hr G1 k
  rw [v1, u1] at d0 d1
  have hq' : T.Gd.q = T.Ga.q := by rw [hq, hb]
  rw [ed, ef]
  change (G1.updateMomentum P.B P.damping T.d.dt P.v_0).q_dot k i * T.Gd.q k i =
    _ * (_ - T.Gd.fi k i) * T.Gd.q k i
  rw [hq', ← fi1]
  fin_cases i
  · change (G1.updateMomentum P.B P.damping T.d.dt P.v_0).q_dot k 0 * T.Ga.q k 0 =
      _ * (_ - G1.fi k 0) * T.Ga.q k 0
    rw [d0]
    split_ifs with hw
    · rw [w0 hw]; ring
    · rfl
  · change (G1.updateMomentum P.B P.damping T.d.dt P.v_0).q_dot k 1 * T.Ga.q k 1 =
      _ * (_ - G1.fi k 1) * T.Ga.q k 1
    rw [d1]
    split_ifs with hw
    · rw [w1 hw]; ring
    · rfl
  · change (G1.updateMomentum P.B P.damping T.d.dt P.v_0).q_dot k 2 * T.Ga.q k 2 =
      _ * (_ - G1.fi k 2) * T.Ga.q k 2
    rw [d2]
    rfl

/-- C110.  Over the momentum update the kinetic energy of the nodes changes by the work of the
external forces, minus the work of the point stresses on the strain increments of the step, plus an
error of second order in `dt` that is never negative.  Walls without friction do no work. -/
theorem c110_balance (hcy : P.B.cyclic_lr = false) (hc : P.B.conveyor = false)
    (hr : P.B.roughness = false ∨ P.B.wall_mu = 0) {interp : Interp K P.G.N} (hL : Counted s.L)
    (h0 : ∀ mp ∈ points s.L, mp.stress.IsSymm ∧ mp.strain.IsSymm ∧ mp.dev_stress.IsSymm ∧
      mp.dstress.IsSymm)
    (h1 : gridPhase P s = .ok s1) (h2 : momentumPhase P interp s1 = .ok s2) :
    movingEnergy P.M_tol s2.G - movingEnergy P.M_tol s1.G =
      dampFactor (K := K) P.damping * (s.dyn.dt * nodalPower P.M_tol s1.G s2.G.fe -
        ((points s1.L).map fun mp => mp.V * contract mp.stress mp.dstrain).sum) +
      s.dyn.dt ^ 2 / 2 * accelSum P.M_tol s2.G ∧
    0 ≤ s.dyn.dt ^ 2 / 2 * accelSum P.M_tol s2.G := by
  have hvw := c80_virtual_work hL hcy h0 h1
  have hdt : s1.dyn.dt = s.dyn.dt := by
    obtain ⟨T, rfl⟩ := gridPhase_ok h1
    change T.d.dt = _
    rw [T.hd]; rfl
  obtain ⟨-, -, -, hm, -⟩ := momentumPhase_table h2
  have hq : ∀ k i, s2.G.q k i = s1.G.q k i + s.dyn.dt * s2.G.q_dot k i := by
    intro k i
    obtain ⟨G1, hG1, e⟩ := momentumPhase_frame h2
    have e1 := BCs_frame hG1
    have Q := updateMomentum_q hc (damping := P.damping) (dt := s1.dyn.dt) (v0 := P.v_0) G1 k
    have eq : s2.G.q k = _ := (congrArg (fun s : St P => s.G.q k) e).trans Q
    have ed : s2.G.q_dot k = _ := congrArg (fun s : St P => s.G.q_dot k) e
    rw [eq, ed, ← hdt]
    rw [show G1.q = s1.G.q by rw [e1]]
    rfl
  have hmass : ∀ k, P.M_tol < s1.G.m k → s1.G.m k ≠ 0 := fun k h => (P.M_tol_nonneg.trans_lt h).ne'
  constructor
  · rw [← hvw]
    unfold movingEnergy nodalPower accelSum
    rw [← mul_sub, ← Finset.sum_sub_distrib, ← Finset.sum_sub_distrib, mul_left_comm, Finset.mul_sum,
      Finset.mul_sum, Finset.mul_sum, ← Finset.sum_add_distrib]
    refine Finset.sum_congr rfl fun k _ => ?_
    by_cases hk : P.M_tol < s1.G.m k
    · have hk2 : P.M_tol < s2.G.m k := by rw [hm]; exact hk
      have a1 : ∀ i, velocityAt P.M_tol s1.G k i = s1.G.q k i / s1.G.m k := fun i => if_pos hk
      have a2 : ∀ i, velocityAt P.M_tol s2.G k i =
          (s1.G.q k i + s.dyn.dt * s2.G.q_dot k i) / s1.G.m k := fun i => by
        rw [← hq, ← hm]; exact if_pos hk2
      have hw := fun i => wall_power hcy hr h1 h2 k i
      have hk0 := hmass k hk
      rw [if_pos hk2, hm]
      simp only [a1, a2, Fin.sum_univ_three]
      have w0 := hw 0
      have w1 := hw 1
      have w2 := hw 2
      field_simp
      linear_combination 2 * s.dyn.dt * (w0 + w1 + w2)
    · have hk2 : ¬ P.M_tol < s2.G.m k := by rw [hm]; exact hk
      have a1 : ∀ i, velocityAt P.M_tol s1.G k i = 0 := fun i => if_neg hk
      have a2 : ∀ i, velocityAt P.M_tol s2.G k i = 0 := fun i => if_neg hk2
      rw [if_neg hk2]
      simp [a1, a2]
  · refine mul_nonneg (by positivity) (Finset.sum_nonneg fun k _ => ?_)
    split_ifs with hk
    · exact div_nonneg (Finset.sum_nonneg fun i _ => sq_nonneg _) (P.M_tol_nonneg.trans hk.le)
    · exact le_rfl

/-- C110.  Without loads on the boundaries, the power of the external forces is that of the weights
of the points moving with the grid. -/
theorem c110_weights (hP : GoodGrid P.G) (hG : Geometry P.G s.G) (hL : Counted s.L)
    (hx : ∀ mp ∈ points s.L, InDomain P.G mp.x) (hcy : P.B.cyclic_lr = false)
    (hv : P.B.vertical_force = false) (hh : P.B.horizontal_force = false)
    {interp : Interp K P.G.N} (h1 : gridPhase P s = .ok s1)
    (h2 : momentumPhase P interp s1 = .ok s2) :
    nodalPower P.M_tol s1.G s2.G.fe = ((points s1.L).map fun mp =>
      mp.m * ∑ i, mp.b i * gridVelocity P.G P.M_tol s1.G mp.x i).sum := by
  obtain ⟨T, rfl⟩ := gridPhase_ok h1
  obtain ⟨w0, w1⟩ := gridPhase_forces_zero T hL
  obtain ⟨-, -, -, c3, c4⟩ := T.rel hL
  have hn := getNodalForces_acyclic hcy T.hGd
  obtain ⟨G1, hG1, e⟩ := momentumPhase_frame h2
  have eG1 : G1 = T.Gd := BCs_none hv hh hG1
  have ef : s2.G.fe = T.Gd.fe := by
    rw [← eG1]; exact congrArg (fun s : St P => s.G.fe) e
  rw [ef]
  unfold nodalPower
  change ∑ k, ∑ i, T.Gd.fe k i * velocityAt P.M_tol T.Gd k i = ((points T.Ld).map _).sum
  have e : ∀ k, ∑ i, T.Gd.fe k i * velocityAt P.M_tol T.Gd k i = ((points T.Ld).map fun mp =>
      weight P.G.nx mp k * mp.m * ∑ i, mp.b i * velocityAt P.M_tol T.Gd k i).sum := by
    intro k
    rw [nodalForcesAll_fe c4 hn k, w1, zero_add]
    generalize points T.Ld = l
    induction l with
    | nil => simp
    | cons a l ih =>
      simp only [List.map_cons, List.sum_cons, Pi.add_apply, Pi.smul_apply, smul_eq_mul]
      rw [← ih, Finset.mul_sum, ← Finset.sum_add_distrib]
      refine Finset.sum_congr rfl fun i _ => ?_
      ring
  simp only [e]
  rw [list_sum_finset]
  refine congrArg List.sum (List.map_congr_left fun b hb => ?_)
  obtain ⟨a, ha, ph, ew, ex, -⟩ := forall₂_right (gridPhase_hat hP hG hL hx T).points hb
  rw [← ex] at ew
  unfold gridVelocity
  simp only [ew, Finset.mul_sum]
  rw [Finset.sum_comm]
  refine Finset.sum_congr rfl fun i _ => Finset.sum_congr rfl fun k _ => ?_
  ring

end
/-! ## The hypotheses can be met -/

/-- Two points above a rough floor.  None of the terms is zero. -/
example : ∃ G s1 s2, mkGrid (Ex.parB Ex.rough).G Ex.rough = .ok G ∧ Counted (Ex.stB Ex.rough G).L ∧
    GoodGrid (Ex.parB Ex.rough).G ∧ Geometry (Ex.parB Ex.rough).G G ∧
    (∀ mp ∈ points (Ex.stB Ex.rough G).L, InDomain (Ex.parB Ex.rough).G mp.x) ∧
    (∀ mp ∈ points (Ex.stB Ex.rough G).L, mp.stress.IsSymm ∧ mp.strain.IsSymm ∧
      mp.dev_stress.IsSymm ∧ mp.dstress.IsSymm) ∧
    Ex.rough.cyclic_lr = false ∧ Ex.rough.conveyor = false ∧ Ex.rough.wall_mu = 0 ∧
    Ex.rough.vertical_force = false ∧ Ex.rough.horizontal_force = false ∧
    gridPhase (Ex.parB Ex.rough) (Ex.stB Ex.rough G) = .ok s1 ∧
    momentumPhase (Ex.parB Ex.rough) (Ex.noInterp _) s1 = .ok s2 ∧
    movingEnergy (Ex.parB Ex.rough).M_tol s1.G = 305 / 44 ∧
    movingEnergy (Ex.parB Ex.rough).M_tol s2.G = 437806556601377 / 68999040000000 ∧
    nodalPower (Ex.parB Ex.rough).M_tol s1.G s2.G.fe = -60 ∧
    accelSum (Ex.parB Ex.rough).M_tol s2.G = 1599553545377 / 3449952000 := by
  obtain ⟨G, h1, h2⟩ := Ex.okAnd_ok (r := mkGrid (Ex.parB Ex.rough).G Ex.rough)
    (check := fun G => Ex.okAnd (gridPhase (Ex.parB Ex.rough) (Ex.stB Ex.rough G))
      fun s1 => Ex.okAnd (momentumPhase (Ex.parB Ex.rough) (Ex.noInterp _) s1) fun s2 =>
        decide (movingEnergy (Ex.parB Ex.rough).M_tol s1.G = 305 / 44 ∧
          movingEnergy (Ex.parB Ex.rough).M_tol s2.G = 437806556601377 / 68999040000000 ∧
          nodalPower (Ex.parB Ex.rough).M_tol s1.G s2.G.fe = -60 ∧
          accelSum (Ex.parB Ex.rough).M_tol s2.G = 1599553545377 / 3449952000))
    (by decide +kernel)
  obtain ⟨s1, h3, h4⟩ := Ex.okAnd_ok h2
  obtain ⟨s2, h5, h6⟩ := Ex.okAnd_ok h4
  refine ⟨G, s1, s2, h1, Ex.countedL, Ex.good, mkGrid_geometry h1, Ex.inDomainL, ?_, rfl, rfl, rfl,
    rfl, rfl, h3, h5, of_decide_eq_true h6⟩
  have key : ∀ mp ∈ points Ex.L, mp.stress.IsSymm ∧ mp.strain.IsSymm ∧
      mp.dev_stress.IsSymm ∧ mp.dstress.IsSymm := by
    intro mp hmp
    have : mp = Ex.mp ∨ mp = Ex.mp2 := by simpa [points, Ex.L] using hmp
    unfold Matrix.IsSymm
    rcases this with rfl | rfl <;> decide +kernel
  exact key

end Mpm

import Verif.Lemmas.Run
import Mathlib.Algebra.Order.Group.Abs
import Mathlib.Tactic.Linarith

/-!
# C16–C23: boundaries, momentum update, cyclic summation and nodal volumes
-/

set_option linter.unusedSectionVars false

namespace Mpm
open Spec

section
variable {K : Type} [Field K] [LinearOrder K] [IsStrictOrderedRing K] [FloorRing K] {ns N : ℕ}

/-! ## C16 -/

theorem markIf_iff {n : ℕ} {c : Bool} {a b : Option ℤ} {st : ℕ} {f : Fin n → Bool} {k : Fin n} :
    markIf c a b st f k = true ↔ (c = true ∧ inSlice n a b st k = true) ∨ f k = true := by
  unfold markIf setSlice
  cases c <;> simp

theorem nodeX_eq_left {P : GP K} (hP : GoodGrid P) {i : ℕ} : nodeX P i = P.x_m ↔ i = 0 := by
  have h := cellX_pos hP
  have e : nodeX P i = P.x_m + i * cellX P := rfl
  rw [e]
  constructor
  · intro h1
    have : (i : K) * cellX P = 0 := by linarith
    rcases mul_eq_zero.1 this with h2 | h2
    · exact_mod_cast h2
    · exact absurd h2 h.ne'
  · rintro rfl; simp

theorem nodeX_eq_right {P : GP K} (hP : GoodGrid P) {i : ℕ} : nodeX P i = P.x_M ↔ i = P.nx - 1 := by
  have h := cellX_pos hP
  have hm := cellX_mul hP
  have hn := hP.nx
  have e : nodeX P i = P.x_m + i * cellX P := rfl
  rw [e]
  have hc : ((P.nx - 1 : ℕ) : K) = (P.nx : K) - 1 := by
    rw [Nat.cast_sub (by omega)]; simp
  constructor
  · intro h1
    have : ((i : K) - ((P.nx - 1 : ℕ) : K)) * cellX P = 0 := by rw [hc]; linarith
    rcases mul_eq_zero.1 this with h2 | h2
    · have : (i : K) = ((P.nx - 1 : ℕ) : K) := by linarith
      exact_mod_cast this
    · exact absurd h2 h.ne'
  · rintro rfl; rw [hc]; linarith

theorem nodeY_eq_bottom {P : GP K} (hP : GoodGrid P) {i : ℕ} : nodeY P i = P.y_m ↔ i = 0 := by
  have h := cellY_pos hP
  have e : nodeY P i = P.y_m + i * cellY P := rfl
  rw [e]
  constructor
  · intro h1
    have : (i : K) * cellY P = 0 := by linarith
    rcases mul_eq_zero.1 this with h2 | h2
    · exact_mod_cast h2
    · exact absurd h2 h.ne'
  · rintro rfl; simp

theorem nodeY_eq_top {P : GP K} (hP : GoodGrid P) {i : ℕ} : nodeY P i = P.y_M ↔ i = P.ny - 1 := by
  have h := cellY_pos hP
  have hm := cellY_mul hP
  have hn := hP.ny
  have e : nodeY P i = P.y_m + i * cellY P := rfl
  rw [e]
  have hc : ((P.ny - 1 : ℕ) : K) = (P.ny : K) - 1 := by
    rw [Nat.cast_sub (by omega)]; simp
  constructor
  · intro h1
    have : ((i : K) - ((P.ny - 1 : ℕ) : K)) * cellY P = 0 := by rw [hc]; linarith
    rcases mul_eq_zero.1 this with h2 | h2
    · have : (i : K) = ((P.ny - 1 : ℕ) : K) := by linarith
      exact_mod_cast this
    · exact absurd h2 h.ne'
  · rintro rfl; rw [hc]; linarith

theorem mkGrid_masks {P : GP K} {B : BP K} {G : Grid K P.N P.ns} (h : mkGrid P B = .ok G) :
    G.boundary_h = boundaryH B P.nx P.ny ∧ G.boundary_v = boundaryV B P.nx P.ny ∧
      G.V = nodeVolume P B ∧ 2 ≤ P.nx ∧ 2 ≤ P.ny ∧
      (∀ k, G.boundary_tot k = (G.boundary_v k || G.boundary_h k)) := by
  unfold mkGrid at h
  split at h
  · cases h
  · cases h
    refine ⟨rfl, rfl, rfl, by omega, by omega, fun _ => rfl⟩

/-- None of the internal obstacles is switched on. -/
structure Spec.OnlyEdges (B : BP K) : Prop where
  wall : B.wall = false
  two_walls : B.two_walls = false
  silo_left : B.silo_left = false
  silo_bottom : B.silo_bottom = false
  box : B.box = false

/-- With edge options only, a node restrains vertical motion iff it lies on the bottom
(`has_bottom`) or top (`has_top`) edge, and horizontal motion iff it lies on the left
(`has_left`) or right (`has_right`) edge, or on the bottom edge with `no_slip_bottom`. -/
theorem c16_edges {P : GP K} (hP : GoodGrid P) {B : BP K} (hB : OnlyEdges B)
    {G : Grid K P.N P.ns} (h : mkGrid P B = .ok G) (k : Fin P.N) :
    (G.boundary_h k = true ↔ (B.has_bottom = true ∧ G.Y k = P.y_m) ∨
      (B.has_top = true ∧ G.Y k = P.y_M)) ∧
    (G.boundary_v k = true ↔ (B.has_left = true ∧ G.X k = P.x_m) ∨
      (B.has_right = true ∧ G.X k = P.x_M) ∨ (B.no_slip_bottom = true ∧ G.Y k = P.y_m)) ∧
    (G.boundary_tot k = true ↔ G.boundary_h k = true ∨ G.boundary_v k = true) := by
  have hg := mkGrid_geometry h
  obtain ⟨eh, ev, -, -, -, et⟩ := mkGrid_masks h
  rw [hg.X, hg.Y, nodeX_eq_left hP, nodeX_eq_right hP, nodeY_eq_bottom hP, nodeY_eq_top hP]
  refine ⟨?_, ?_, ?_⟩
  · rw [eh]
    simp only [boundaryH, markIf_iff, hB.silo_bottom, hB.box, Bool.false_eq_true, false_and,
      false_or, or_false]
    rw [← inBottom_iff, ← inTop_iff]
    exact or_comm
  · rw [ev]
    simp only [boundaryV, markIf_iff, hB.wall, hB.two_walls, hB.silo_left, hB.box,
      Bool.false_eq_true, false_and, false_or, or_false]
    rw [← inBottom_iff, ← inLeft_iff, ← inRight_iff]
    unfold inLeft inRight inBottom
    tauto
  · rw [et, Bool.or_eq_true]; exact or_comm

/-! ## C18 -/

/-- After the mapping, momentum through a wall is zero. -/
theorem mapped_walls {P : Par K} {s : St P} (T : GridPhase P s) (k : Fin P.G.N) :
    (s.G.boundary_v k = true ∨ (P.B.roughness = true ∧ s.G.boundary_h k = true) →
      T.Ga.q k 0 = 0) ∧
    (s.G.boundary_h k = true ∨ (P.B.roughness = true ∧ s.G.boundary_v k = true) →
      T.Ga.q k 1 = 0) := by
  obtain ⟨G1, h1, e⟩ := getNodalMassMomentum_ok T.hGa
  have h2 := (wipe_static s.G).trans (p2gAll_static h1)
  obtain ⟨-, z0, z1⟩ := zeroBoundary_q P.B.roughness
    (if P.segregate_grid then G1.nodalFractions P.ops.big P.G.s else G1) k
  rw [← e] at z0 z1
  have bv : (if P.segregate_grid then G1.nodalFractions P.ops.big P.G.s else G1).boundary_v k
      = s.G.boundary_v k := by rw [← h2.bv]; split <;> rfl
  have bh : (if P.segregate_grid then G1.nodalFractions P.ops.big P.G.s else G1).boundary_h k
      = s.G.boundary_h k := by rw [← h2.bh]; split <;> rfl
  rw [bv, bh] at z0 z1
  exact ⟨fun h => by rw [z0, if_pos h], fun h => by rw [z1, if_pos h]⟩

theorem updateMomentum_q {nx ny : ℕ} {B : BP K} (hc : B.conveyor = false) {damping : Bool}
    {dt v0 : K} (G : Grid K (ny * nx) ns) (k : Fin (ny * nx)) :
    (G.updateMomentum B damping dt v0).q k =
      G.q k + dt • (G.updateMomentum B damping dt v0).q_dot k := by
  unfold Grid.updateMomentum
  simp [hc]

theorem updateMomentum_walls {nx ny : ℕ} {B : BP K} {damping : Bool}
    {dt v0 : K} (G : Grid K (ny * nx) ns) (k : Fin (ny * nx)) :
    ((G.updateMomentum B damping dt v0).boundary_v k = true →
      (G.updateMomentum B damping dt v0).q_dot k 0 = 0) ∧
    ((G.updateMomentum B damping dt v0).boundary_h k = true →
      (G.updateMomentum B damping dt v0).q_dot k 1 = 0) := by
  constructor
  · intro h
    have e : (G.updateMomentum B damping dt v0).q_dot k 0 =
      maskOff _ ((G.updateMomentum B damping dt v0).boundary_v k) := rfl
    rw [e, h, maskOff_eq, if_pos rfl]
  · intro h
    have e : (G.updateMomentum B damping dt v0).q_dot k 1 =
      maskOff _ ((G.updateMomentum B damping dt v0).boundary_h k) := rfl
    rw [e, h, maskOff_eq, if_pos rfl]

theorem wallMarks_mono {B : BP K} {N : ℕ} {mark b : Fin N → Bool} {k : Fin N} (h : b k = true) :
    wallMarks B mark b k = true := by simp [wallMarks, h]

/-- In every step without cyclic boundaries and conveyor, whatever the particles and forces, the
node momentum and its rate of change have no component through a marked wall. -/
theorem c18_no_flow {P : Par K} (hcyc : P.B.cyclic_lr = false) (hc : P.B.conveyor = false)
    {interp : Interp K P.G.N} {s s1 s2 : St P} (h1 : gridPhase P s = .ok s1)
    (h2 : momentumPhase P interp s1 = .ok s2) (k : Fin P.G.N) :
    (s.G.boundary_v k = true → s2.G.q k 0 = 0 ∧ s2.G.q_dot k 0 = 0) ∧
    (s.G.boundary_h k = true → s2.G.q k 1 = 0 ∧ s2.G.q_dot k 1 = 0) := by
  obtain ⟨T, rfl⟩ := gridPhase_ok h1
  obtain ⟨w0, w1⟩ := mapped_walls T k
  obtain ⟨-, -, -, st, hq, -⟩ := T.static
  have hb : T.Gb = T.Ga := by rw [T.hGb, hcyc]; rfl
  obtain ⟨G1, hG1, e⟩ := momentumPhase_frame h2
  obtain ⟨-, -, -, -, bh, bv⟩ := momentumPhase_table h2
  have e1 := BCs_frame hG1
  have q1 : G1.q = T.Ga.q := by rw [e1]; show T.Gd.q = _; rw [hq, hb]
  obtain ⟨r0, r1⟩ := updateMomentum_walls (B := P.B) (damping := P.damping) (dt := T.d.dt)
    (v0 := P.v_0) G1 k
  have Q := updateMomentum_q hc (damping := P.damping) (dt := T.d.dt) (v0 := P.v_0) G1 k
  have eq : s2.G.q k = _ := (congrArg (fun s : St P => s.G.q k) e).trans Q
  have ed : s2.G.q_dot k = _ := congrArg (fun s : St P => s.G.q_dot k) e
  have ev : s2.G.boundary_v k = _ := congrArg (fun s : St P => s.G.boundary_v k) e
  have eh : s2.G.boundary_h k = _ := congrArg (fun s : St P => s.G.boundary_h k) e
  constructor
  · intro hm
    have hz : (G1.updateMomentum P.B P.damping T.d.dt P.v_0).q_dot k 0 = 0 := by
      refine r0 ?_
      refine ev.symm.trans ?_
      rw [bv]
      exact wallMarks_mono (by show T.Gd.boundary_v k = true; rw [st.bv]; exact hm)
    refine ⟨?_, by rw [ed]; exact hz⟩
    rw [eq, Pi.add_apply, q1, w0 (Or.inl hm), Pi.smul_apply, hz]; simp
  · intro hm
    have hz : (G1.updateMomentum P.B P.damping T.d.dt P.v_0).q_dot k 1 = 0 := by
      refine r1 ?_
      refine eh.symm.trans ?_
      rw [bh]
      exact wallMarks_mono (by show T.Gd.boundary_h k = true; rw [st.bh]; exact hm)
    refine ⟨?_, by rw [ed]; exact hz⟩
    rw [eq, Pi.add_apply, q1, w1 (Or.inl hm), Pi.smul_apply, hz]; simp

/-- With rough walls (and no wall friction coefficient) both components vanish on all marked
nodes. -/
theorem c18_rough {P : Par K} (hcyc : P.B.cyclic_lr = false) (hc : P.B.conveyor = false)
    (hr : P.B.roughness = true) (hmu : P.B.wall_mu = 0)
    {interp : Interp K P.G.N} {s s1 s2 : St P} (h1 : gridPhase P s = .ok s1)
    (h2 : momentumPhase P interp s1 = .ok s2) (k : Fin P.G.N)
    (hk : s.G.boundary_v k = true ∨ s.G.boundary_h k = true) :
    s2.G.q k 0 = 0 ∧ s2.G.q_dot k 0 = 0 ∧ s2.G.q k 1 = 0 ∧ s2.G.q_dot k 1 = 0 := by
  obtain ⟨T, rfl⟩ := gridPhase_ok h1
  obtain ⟨w0, w1⟩ := mapped_walls T k
  obtain ⟨-, -, -, st, hq, -⟩ := T.static
  have hb : T.Gb = T.Ga := by rw [T.hGb, hcyc]; rfl
  obtain ⟨G1, hG1, e⟩ := momentumPhase_frame h2
  have e1 := BCs_frame hG1
  have q1 : G1.q = T.Ga.q := by rw [e1]; show T.Gd.q = _; rw [hq, hb]
  have v1 : G1.boundary_v = s.G.boundary_v := by rw [e1]; exact st.bv
  have u1 : G1.boundary_h = s.G.boundary_h := by rw [e1]; exact st.bh
  have Q := updateMomentum_q hc (damping := P.damping) (dt := T.d.dt) (v0 := P.v_0) G1 k
  have eq : s2.G.q k = _ := (congrArg (fun s : St P => s.G.q k) e).trans Q
  have ed : s2.G.q_dot k = _ := congrArg (fun s : St P => s.G.q_dot k) e
  have hz : (G1.updateMomentum P.B P.damping T.d.dt P.v_0).q_dot k 0 = 0 ∧
      (G1.updateMomentum P.B P.damping T.d.dt P.v_0).q_dot k 1 = 0 := by
    unfold Grid.updateMomentum
    simp only [hr, hmu, ne_eq, not_true_eq_false, decide_false, Bool.and_false,
      Bool.false_eq_true, if_false, if_true, Matrix.cons_val_zero, Matrix.cons_val_one,
      maskOff_eq, v1, u1]
    rcases hk with h | h <;> simp [h]
  have z0 : T.Ga.q k 0 = 0 := w0 (by tauto)
  have z1 : T.Ga.q k 1 = 0 := w1 (by tauto)
  refine ⟨?_, ?_, ?_, ?_⟩
  · rw [eq, Pi.add_apply, q1, z0, Pi.smul_apply, hz.1]; simp
  · rw [ed]; exact hz.1
  · rw [eq, Pi.add_apply, q1, z1, Pi.smul_apply, hz.2]; simp
  · rw [ed]; exact hz.2

/-! ## C19 -/

/-- Factor on the nodal force: 0.7 with damping. -/
def Spec.dampFactor (damping : Bool) : K := if damping then 7 / 10 else 1

/-- Off the walls the momentum rate is the (damped) resultant force. -/
theorem updateMomentum_qdot_free {nx ny : ℕ} {B : BP K} {damping : Bool} {dt v0 : K}
    (G : Grid K (ny * nx) ns) (k : Fin (ny * nx))
    (hv : (G.updateMomentum B damping dt v0).boundary_v k = false)
    (hh : (G.updateMomentum B damping dt v0).boundary_h k = false) :
    (G.updateMomentum B damping dt v0).q_dot k =
      (dampFactor (K := K) damping) • (G.fe k - G.fi k) := by
  have key : ∀ (qd : Vec K) (mu : K) (b : Bool), roughNode mu false false b qd = qd := by
    intro qd mu b
    funext c
    fin_cases c <;> simp [roughNode]
  have hv' : (if (B.roughness && decide (B.wall_mu ≠ 0)) = true then
      fun i => G.boundary_v i || inLeft nx ny i || inRight nx ny i else G.boundary_v) k = false := hv
  have hh' : (if (B.roughness && decide (B.wall_mu ≠ 0)) = true then
      fun i => G.boundary_h i || inBottom nx ny i || inTop nx ny i else G.boundary_h) k = false := hh
  unfold Grid.updateMomentum
  dsimp only
  rw [hv', hh']
  have e3 : ∀ v : Vec K, ![maskOff (v 0) false, maskOff (v 1) false, v 2] = v := by
    intro v; funext c; fin_cases c <;> simp [maskOff_eq]
  rw [e3]
  unfold dampFactor
  cases hro : B.roughness
  · cases damping <;> simp
  · by_cases hmu : B.wall_mu = 0
    · simp only [hro, hmu, ne_eq, not_true_eq_false, decide_false, Bool.and_false,
        Bool.false_eq_true, if_false, if_true] at hh' hv' ⊢
      rw [hh', hv', e3]
      cases damping <;> simp
    · simp only [hro, hmu, ne_eq, not_false_eq_true, decide_true, Bool.and_true,
        if_true] at hh' hv' ⊢
      rw [hh', hv', key]
      cases damping <;> simp

/-- Off the walls the momentum changes by `dt` times the (damped) resultant force. -/
theorem c19_newton {nx ny : ℕ} {B : BP K} (hc : B.conveyor = false) {damping : Bool} {dt v0 : K}
    (G : Grid K (ny * nx) ns) (k : Fin (ny * nx))
    (hv : (G.updateMomentum B damping dt v0).boundary_v k = false)
    (hh : (G.updateMomentum B damping dt v0).boundary_h k = false) :
    (G.updateMomentum B damping dt v0).q k =
      G.q k + dt • (dampFactor (K := K) damping) • (G.fe k - G.fi k) := by
  rw [updateMomentum_q hc, updateMomentum_qdot_free G k hv hh]

/-- On a grid without walls the total momentum changes by `dt` times the (damped) total force. -/
theorem c19_total {nx ny : ℕ} {B : BP K} (hc : B.conveyor = false) {damping : Bool} {dt v0 : K}
    (G : Grid K (ny * nx) ns)
    (hv : ∀ k, (G.updateMomentum B damping dt v0).boundary_v k = false)
    (hh : ∀ k, (G.updateMomentum B damping dt v0).boundary_h k = false) :
    ∑ k, (G.updateMomentum B damping dt v0).q k =
      ∑ k, G.q k + dt • (dampFactor (K := K) damping) • (∑ k, G.fe k - ∑ k, G.fi k) := by
  simp only [c19_newton hc G _ (hv _) (hh _), Finset.sum_add_distrib, ← Finset.smul_sum,
    Finset.sum_sub_distrib]

/-- In a step, on a grid without walls: the internal forces cancel, and the total nodal momentum
changes by `dt` times the total external force (weights plus applied boundary stresses). -/
theorem c19_total_step {P : Par K} (hcyc : P.B.cyclic_lr = false) (hc : P.B.conveyor = false)
    (hr : P.B.roughness = false ∨ P.B.wall_mu = 0) {interp : Interp K P.G.N} {s s1 s2 : St P}
    (hL : Counted s.L)
    (hv : ∀ k, s.G.boundary_v k = false) (hh : ∀ k, s.G.boundary_h k = false)
    (h1 : gridPhase P s = .ok s1) (h2 : momentumPhase P interp s1 = .ok s2) :
    ∑ k, s2.G.q k = ∑ k, s1.G.q k +
      s1.dyn.dt • (dampFactor (K := K) P.damping) • ∑ k, s2.G.fe k ∧
    (P.B.vertical_force = false → P.B.horizontal_force = false →
      ∑ k, s2.G.fe k = totalWeight s1.L) := by
  obtain ⟨b1, b2⟩ := c08_forces_balance_step hcyc hL h1
  obtain ⟨G1, hG1, e⟩ := momentumPhase_frame h2
  have e1 := BCs_frame hG1
  obtain ⟨-, -, -, -, bh, bv⟩ := momentumPhase_table h2
  have nm : ∀ {N : ℕ} (mark b : Fin N → Bool) k, b k = false → wallMarks P.B mark b k = false := by
    intro N mark b k hb
    rcases hr with h | h <;> simp [wallMarks, h, hb]
  obtain ⟨T, rfl⟩ := gridPhase_ok h1
  obtain ⟨-, -, -, st, -, -⟩ := T.static
  have eq : s2.G.q = _ := congrArg (fun s : St P => s.G.q) e
  have ev : s2.G.boundary_v = _ := congrArg (fun s : St P => s.G.boundary_v) e
  have eh : s2.G.boundary_h = _ := congrArg (fun s : St P => s.G.boundary_h) e
  have ef : s2.G.fe = G1.fe := congrArg (fun s : St P => s.G.fe) e
  have t := c19_total hc (damping := P.damping) (dt := T.d.dt) (v0 := P.v_0) G1
    (fun k => (congrFun ev k).symm.trans (by
      rw [bv]; exact nm _ _ _ (by show T.Gd.boundary_v k = _; rw [st.bv]; exact hv k)))
    (fun k => (congrFun eh k).symm.trans (by
      rw [bh]; exact nm _ _ _ (by show T.Gd.boundary_h k = _; rw [st.bh]; exact hh k)))
  have q1 : G1.q = T.Gd.q := by rw [e1]
  have f1 : G1.fi = T.Gd.fi := by rw [e1]
  constructor
  · rw [eq, ef]
    refine t.trans ?_
    rw [q1, f1]
    have b1' : ∑ k, T.Gd.fi k = 0 := b1
    rw [b1', sub_zero]
  · intro h3 h4
    rw [ef, BCs_none h3 h4 hG1]
    exact b2

/-! ## C20 -/

/-- With wall friction one momentum update marks the four edges, whatever was marked before;
other marks stay as they were. -/
theorem c20_marks {nx ny : ℕ} {B : BP K} (hr : B.roughness = true) (hmu : B.wall_mu ≠ 0)
    {damping : Bool} {dt v0 : K} (G : Grid K (ny * nx) ns) (k : Fin (ny * nx)) :
    ((G.updateMomentum B damping dt v0).boundary_h k = true ↔
      G.boundary_h k = true ∨ (k : ℕ) / nx = 0 ∨ (k : ℕ) / nx = ny - 1) ∧
    ((G.updateMomentum B damping dt v0).boundary_v k = true ↔
      G.boundary_v k = true ∨ (k : ℕ) % nx = 0 ∨ (k : ℕ) % nx = nx - 1) := by
  obtain ⟨-, -, bh, bv⟩ := updateMomentum_table (B := B) (damping := damping) (dt := dt) (v0 := v0) G
  rw [bh, bv]
  simp only [wallMarks, hr, hmu, ne_eq, not_false_eq_true, decide_true, Bool.and_true,
    Bool.true_and, Bool.or_eq_true, inBottom_iff, inTop_iff, inLeft_iff, inRight_iff]
  exact ⟨trivial, trivial⟩

/-- Without wall friction no momentum update changes the masks. -/
theorem c20_unchanged {nx ny : ℕ} {B : BP K} (h : B.roughness = false ∨ B.wall_mu = 0)
    {damping : Bool} {dt v0 : K} (G : Grid K (ny * nx) ns) :
    (G.updateMomentum B damping dt v0).boundary_h = G.boundary_h ∧
    (G.updateMomentum B damping dt v0).boundary_v = G.boundary_v := by
  obtain ⟨-, -, bh, bv⟩ := updateMomentum_table (B := B) (damping := damping) (dt := dt) (v0 := v0) G
  rw [bh, bv]
  constructor <;> funext k <;> rcases h with h | h <;> simp [wallMarks, h]

/-- In a run: marks are only ever added. -/
theorem c20_monotone {P : Par K} {interp : Interp K P.G.N} {n : ℕ} {s s' : St P}
    (h : steps P interp n s = .ok s') (k : Fin P.G.N) :
    (s.G.boundary_h k = true → s'.G.boundary_h k = true) ∧
    (s.G.boundary_v k = true → s'.G.boundary_v k = true) := by
  constructor <;> intro hk
  · refine steps_inv (fun s => s.G.boundary_h k = true) ?_ h hk
    intro s s' hs h
    show s'.G.boundary_h k = true
    rw [(timeMarch_table h).2.1]
    exact wallMarks_mono hs
  · refine steps_inv (fun s => s.G.boundary_v k = true) ?_ h hk
    intro s s' hs h
    show s'.G.boundary_v k = true
    rw [(timeMarch_table h).2.2.1]
    exact wallMarks_mono hs

/-- In a run with wall friction: after the first step, and for ever after, the four edges are
walls. -/
theorem c20_history {P : Par K} (hr : P.B.roughness = true) (hmu : P.B.wall_mu ≠ 0)
    {interp : Interp K P.G.N} {n : ℕ} {s s' : St P}
    (h : steps P interp (n + 1) s = .ok s') (k : Fin P.G.N) :
    ((k : ℕ) / P.G.nx = 0 ∨ (k : ℕ) / P.G.nx = P.G.ny - 1 → s'.G.boundary_h k = true) ∧
    ((k : ℕ) % P.G.nx = 0 ∨ (k : ℕ) % P.G.nx = P.G.nx - 1 → s'.G.boundary_v k = true) := by
  obtain ⟨s1, h1, h2⟩ := steps_succ.1 h
  obtain ⟨m1, m2⟩ := c20_monotone h2 k
  obtain ⟨-, bh, bv, -⟩ := timeMarch_table h1
  constructor
  · intro hk
    refine m1 ?_
    show s1.G.boundary_h k = true
    rw [bh]
    rw [← inBottom_iff, ← inTop_iff] at hk
    simp [wallMarks, hr, hmu, hk]
  · intro hk
    refine m2 ?_
    show s1.G.boundary_v k = true
    rw [bv]
    rw [← inLeft_iff, ← inRight_iff] at hk
    simp [wallMarks, hr, hmu, hk]

/-! ## C21 -/

theorem friction_scalar {b F c : K} (h0 : 0 ≤ F) (h1 : F ≤ |b|) (h2 : F ≤ c) :
    0 ≤ b * (b - sgn b * F) ∧ |b - sgn b * F| ≤ |b| ∧ |b| - |b - sgn b * F| ≤ c := by
  unfold sgn
  rcases lt_trichotomy b 0 with h | h | h
  · rw [if_neg (not_lt.2 h.le), if_pos h]
    rw [abs_of_neg h] at h1 ⊢
    have : b - -1 * F ≤ 0 := by linarith
    rw [abs_of_nonpos this]
    exact ⟨mul_nonneg_of_nonpos_of_nonpos h.le this, by linarith, by linarith⟩
  · subst h
    have : F = 0 := le_antisymm (by simpa using h1) h0
    simp [this]
    linarith
  · rw [if_pos h]
    rw [abs_of_pos h] at h1 ⊢
    have : 0 ≤ b - 1 * F := by linarith
    rw [abs_of_nonneg this]
    exact ⟨mul_nonneg h.le this, by linarith, by linarith⟩

theorem roughNode_bounds {mu : K} (hmu : 0 ≤ mu) (bh bv b1 : Bool) (q : Vec K) :
    (0 ≤ q 0 * roughNode mu bh bv b1 q 0 ∧ |roughNode mu bh bv b1 q 0| ≤ |q 0| ∧
      |q 0| - |roughNode mu bh bv b1 q 0| ≤ mu * |q 1|) ∧
    (0 ≤ q 1 * roughNode mu bh bv b1 q 1 ∧ |roughNode mu bh bv b1 q 1| ≤ |q 1| ∧
      |q 1| - |roughNode mu bh bv b1 q 1| ≤ mu * |q 0|) := by
  have m0 : 0 ≤ mu * |q 0| := mul_nonneg hmu (abs_nonneg _)
  have m1 : 0 ≤ mu * |q 1| := mul_nonneg hmu (abs_nonneg _)
  have p0 := abs_nonneg (q 0)
  have p1 := abs_nonneg (q 1)
  have bound : ∀ {x y F : K}, 0 ≤ x → 0 ≤ y → F = 0 ∨ F = min x y → 0 ≤ F ∧ F ≤ x ∧ F ≤ y := by
    rintro x y F hx hy (rfl | rfl)
    · exact ⟨le_refl _, hx, hy⟩
    · exact ⟨le_min hx hy, min_le_left _ _, min_le_right _ _⟩
  have ind : ∀ {c : Prop} [Decidable c] {F m : K}, F = 0 ∨ F = m →
      F * (if c then 1 else 0) = 0 ∨ F * (if c then 1 else 0) = m := by
    rintro c _ F m (rfl | rfl)
    · simp
    · split_ifs <;> simp
  have ind0 : ∀ {b : Bool} {m : K}, (if b then (1 : K) else 0) * m = 0 ∨
      (if b then (1 : K) else 0) * m = m := by
    intro b m; cases b <;> simp
  unfold roughNode
  simp only [Matrix.cons_val_zero, Matrix.cons_val_one]
  cases b1
  · simp only [Bool.false_eq_true, if_false]
    obtain ⟨a1, a2, a3⟩ := bound p0 m1 (ind0 (b := bh))
    obtain ⟨c1, c2, c3⟩ := bound p1 m0 (ind0 (b := bv))
    exact ⟨friction_scalar a1 a2 a3, friction_scalar c1 c2 c3⟩
  · simp only [if_true]
    obtain ⟨a1, a2, a3⟩ := bound p0 m1 (ind (c := q 1 < 0) (ind (c := 0 < q 1) (ind0 (b := bh))))
    obtain ⟨c1, c2, c3⟩ := bound p1 m0 (ind (c := 0 < q 0) (ind (c := q 0 < 0) (ind0 (b := bv))))
    exact ⟨friction_scalar a1 a2 a3, friction_scalar c1 c2 c3⟩

/-- Friction with a non-negative coefficient, at any node: the momentum rate along a wall after
friction does not point against the one before, is not larger, and is smaller by at most
`wall_mu` times the normal one.  Component 0 at nodes not restrained horizontally, component 1 at
nodes not restrained vertically (the other components are removed altogether, C18). -/
theorem c21_friction {nx ny : ℕ} {B : BP K} (hr : B.roughness = true) (hmu : 0 < B.wall_mu)
    {damping : Bool} {dt v0 : K} (G : Grid K (ny * nx) ns) (k : Fin (ny * nx)) {before after : Vec K}
    (hb : before = (dampFactor (K := K) damping) • (G.fe k - G.fi k))
    (ha : after = (G.updateMomentum B damping dt v0).q_dot k) :
    ((G.updateMomentum B damping dt v0).boundary_v k = false →
      0 ≤ before 0 * after 0 ∧ |after 0| ≤ |before 0| ∧
        |before 0| - |after 0| ≤ B.wall_mu * |before 1|) ∧
    ((G.updateMomentum B damping dt v0).boundary_h k = false →
      0 ≤ before 1 * after 1 ∧ |after 1| ≤ |before 1| ∧
        |before 1| - |after 1| ≤ B.wall_mu * |before 0|) := by
  set G' := G.updateMomentum B damping dt v0 with hG'
  have hq : after = ![maskOff (roughNode B.wall_mu (G'.boundary_h k) (G'.boundary_v k)
        (decide ((k : ℕ) = 1)) before 0) (G'.boundary_v k),
      maskOff (roughNode B.wall_mu (G'.boundary_h k) (G'.boundary_v k)
        (decide ((k : ℕ) = 1)) before 1) (G'.boundary_h k), before 2] := by
    rw [ha, hb, hG']
    unfold Grid.updateMomentum dampFactor
    cases damping <;> simp [hr, hmu.ne', roughNode]
  obtain ⟨r0, r1⟩ := roughNode_bounds hmu.le (G'.boundary_h k) (G'.boundary_v k)
    (decide ((k : ℕ) = 1)) before
  constructor
  · intro hv
    have e : after 0 = roughNode B.wall_mu (G'.boundary_h k) (G'.boundary_v k)
        (decide ((k : ℕ) = 1)) before 0 := by rw [hq, hv]; simp [maskOff_eq]
    rw [e]
    exact r0
  · intro hh
    have e : after 1 = roughNode B.wall_mu (G'.boundary_h k) (G'.boundary_v k)
        (decide ((k : ℕ) = 1)) before 1 := by rw [hq, hh]; simp [maskOff_eq]
    rw [e]
    exact r1

/-- Finding: because of the chained assignments, node number 1 (bottom row, second column) never
feels any friction. -/
theorem c21_node_one {nx ny : ℕ} {B : BP K} (hr : B.roughness = true) (hmu : B.wall_mu ≠ 0)
    {damping : Bool} {dt v0 : K} (G : Grid K (ny * nx) ns) (k : Fin (ny * nx)) (hk : (k : ℕ) = 1)
    (hv : (G.updateMomentum B damping dt v0).boundary_v k = false) :
    (G.updateMomentum B damping dt v0).q_dot k 0 =
      ((dampFactor (K := K) damping) • (G.fe k - G.fi k)) 0 := by
  have e : (G.updateMomentum B damping dt v0).q_dot k 0 =
    maskOff (roughNode B.wall_mu ((G.updateMomentum B damping dt v0).boundary_h k)
      ((G.updateMomentum B damping dt v0).boundary_v k) true
      ((dampFactor (K := K) damping) • (G.fe k - G.fi k)) 0)
      ((G.updateMomentum B damping dt v0).boundary_v k) := by
    unfold Grid.updateMomentum dampFactor
    cases damping <;> simp [hr, hmu, hk]
  rw [e, hv, maskOff_eq, if_neg (by simp)]
  generalize (dampFactor (K := K) damping) • (G.fe k - G.fi k) = q
  simp only [roughNode, Matrix.cons_val_zero, if_true]
  rcases lt_trichotomy (q 1) 0 with h | h | h
  · rw [if_neg (not_lt.2 h.le)]; simp
  · rw [h]; simp
  · rw [if_neg (not_lt.2 h.le)]; simp

end

/-! ## The hypotheses can be met -/

/-- C16: all four edges of the example grid. -/
example : OnlyEdges { Ex.bp with has_bottom := true, has_left := true } ∧
    ∃ G, mkGrid Ex.gp { Ex.bp with has_bottom := true, has_left := true } = .ok G ∧
      G.boundary_h ⟨1, by decide⟩ = true ∧ G.boundary_h ⟨4, by decide⟩ = false ∧
      G.boundary_v ⟨3, by decide⟩ = true ∧ G.boundary_v ⟨4, by decide⟩ = false := by
  refine ⟨⟨rfl, rfl, rfl, rfl, rfl⟩, ?_⟩
  obtain ⟨G, hG⟩ := mkGrid_exists { Ex.bp with has_bottom := true, has_left := true } Ex.good
  obtain ⟨h1, h2, -⟩ := mkGrid_masks hG
  refine ⟨G, hG, ?_⟩
  rw [h1, h2]
  decide +kernel

/-- The example parameters with other boundary options. -/
def Ex.parB (B : BP ℚ) : Par ℚ := { Ex.par with B := B }

def Ex.stB (B : BP ℚ) (G : Grid ℚ (Ex.parB B).G.N (Ex.parB B).G.ns) : St (Ex.parB B) :=
  { dyn := { t := 0, dt := 1/100, tstep := 0, g := -10, q_v := 0, q_h := 0 }, L := Ex.L, G := G }

/-- Floor; rough and frictional floor. -/
def Ex.floor : BP ℚ := { Ex.bp with has_bottom := true }
def Ex.rough : BP ℚ := { Ex.bp with has_bottom := true, roughness := true }
def Ex.friction : BP ℚ := { Ex.bp with has_bottom := true, roughness := true, wall_mu := 1/2 }

/-- The example points get through the first half of a step and the momentum update. -/
theorem Ex.half (B : BP ℚ) (hv : B.vertical_force = false) (hh : B.horizontal_force = false)
    (interp : Interp ℚ (Ex.parB B).G.N) :
    ∃ G s1 s2, mkGrid (Ex.parB B).G B = .ok G ∧ Counted (Ex.stB B G).L ∧
      gridPhase (Ex.parB B) (Ex.stB B G) = .ok s1 ∧
      momentumPhase (Ex.parB B) interp s1 = .ok s2 := by
  obtain ⟨G, hG⟩ := mkGrid_exists B Ex.good
  obtain ⟨s1, hs⟩ := gridPhase_exists (P := Ex.parB B) (s := Ex.stB B G) Ex.good
    (mkGrid_geometry hG) Ex.countedL Ex.inDomain rfl (by
      intro a ha
      have ha' : a = { ph := Ex.ph, pts := [Ex.mp, Ex.mp2] } := List.mem_singleton.1 ha
      rw [ha']
      exact Or.inr (Or.inl rfl))
  obtain ⟨s2, h2⟩ := momentumPhase_exists (P := Ex.parB B) hv hh rfl interp s1
  exact ⟨G, s1, s2, hG, Ex.countedL, hs, h2⟩

/-- C18: a floor. -/
example (interp : Interp ℚ (Ex.parB Ex.floor).G.N) : ∃ s s1 s2,
    Ex.floor.cyclic_lr = false ∧ Ex.floor.conveyor = false ∧
    gridPhase (Ex.parB Ex.floor) s = .ok s1 ∧ momentumPhase (Ex.parB Ex.floor) interp s1 = .ok s2 ∧
    s.G.boundary_h ⟨1, by decide⟩ = true := by
  obtain ⟨G, s1, s2, hG, _, h1, h2⟩ := Ex.half Ex.floor rfl rfl interp
  refine ⟨_, s1, s2, rfl, rfl, h1, h2, ?_⟩
  show G.boundary_h _ = _
  rw [(mkGrid_masks hG).1]
  decide +kernel

/-- C18 (rough). -/
example (interp : Interp ℚ (Ex.parB Ex.rough).G.N) : ∃ s s1 s2,
    Ex.rough.cyclic_lr = false ∧ Ex.rough.conveyor = false ∧ Ex.rough.roughness = true ∧
    Ex.rough.wall_mu = 0 ∧
    gridPhase (Ex.parB Ex.rough) s = .ok s1 ∧ momentumPhase (Ex.parB Ex.rough) interp s1 = .ok s2 ∧
    s.G.boundary_h ⟨1, by decide⟩ = true := by
  obtain ⟨G, s1, s2, hG, _, h1, h2⟩ := Ex.half Ex.rough rfl rfl interp
  refine ⟨_, s1, s2, rfl, rfl, rfl, rfl, h1, h2, ?_⟩
  show G.boundary_h _ = _
  rw [(mkGrid_masks hG).1]
  decide +kernel

/-- C20, C21: friction; a node of the top row becomes a wall although only the floor is set. -/
example (interp : Interp ℚ (Ex.parB Ex.friction).G.N) : ∃ s s1 s2,
    gridPhase (Ex.parB Ex.friction) s = .ok s1 ∧
    momentumPhase (Ex.parB Ex.friction) interp s1 = .ok s2 ∧
    Ex.friction.roughness = true ∧ 0 < Ex.friction.wall_mu ∧
    s.G.boundary_h ⟨7, by decide⟩ = false ∧ s2.G.boundary_h ⟨7, by decide⟩ = true := by
  obtain ⟨G, s1, s2, hG, _, h1, h2⟩ := Ex.half Ex.friction rfl rfl interp
  refine ⟨_, s1, s2, h1, h2, rfl, by norm_num [Ex.friction], ?_, ?_⟩
  · show G.boundary_h _ = _
    rw [(mkGrid_masks hG).1]
    decide +kernel
  · rw [(momentumPhase_table h2).2.2.2.2.1]
    simp only [wallMarks, Bool.or_eq_true]
    right
    decide +kernel

/-- C19: a grid without walls. -/
example (interp : Interp ℚ (Ex.parB Ex.bp).G.N) : ∃ s s1 s2, Counted s.L ∧
    (∀ k, s.G.boundary_v k = false) ∧ (∀ k, s.G.boundary_h k = false) ∧
    gridPhase (Ex.parB Ex.bp) s = .ok s1 ∧ momentumPhase (Ex.parB Ex.bp) interp s1 = .ok s2 := by
  obtain ⟨G, s1, s2, hG, hL, h1, h2⟩ := Ex.half Ex.bp rfl rfl interp
  obtain ⟨e1, e2, -⟩ := mkGrid_masks hG
  refine ⟨_, s1, s2, hL, ?_, ?_, h1, h2⟩
  · show ∀ k, G.boundary_v k = false
    rw [e2]; decide +kernel
  · show ∀ k, G.boundary_h k = false
    rw [e1]; decide +kernel

end Mpm

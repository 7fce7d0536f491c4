import Verif.Props.Rest
import Verif.Props.Light
import Verif.Props.Run

/-!
# Points on grid lines stop a run with adaptive time steps (C134)
-/

set_option linter.unusedSectionVars false

namespace Mpm
open Spec

namespace Spec
section
variable {K : Type} [Field K] [LinearOrder K] {ns : ℕ}

/-- The force of the stresses of the points on a node, by component.  Each point comes with the
position it has at the start of the step and the stress it has at its end. -/
def pull (G : GP K) (L L' : List (PhaseSt K ns)) (k : Fin G.N) (e : Fin 3) : K :=
  (((points L).zip (points L')).map fun z => z.2.V *
    (z.2.stress e 0 * hatGrad G z.1.x k 0 + z.2.stress e 1 * hatGrad G z.1.x k 1)).sum

/-- The point is on no line of the grid. -/
def ClearOfLines (G : GP K) (x : Vec K) : Prop :=
  (∀ i : ℕ, x 0 ≠ nodeX G i) ∧ ∀ j : ℕ, x 1 ≠ nodeY G j

end
end Spec

section
variable {K : Type} [Field K] [LinearOrder K] [IsStrictOrderedRing K] [FloorRing K]
variable {P : Par K} {interp : Interp K P.G.N} {s u : St P} {A : LoopPar K}

theorem BCs_massless {nx ny ns : ℕ} {B : BP K} {qv qh rho : K} {a0 : Bool} {G G' : Grid K (ny * nx) ns}
    (h : G.BCs B qv qh rho a0 = .ok G') {k : Fin (ny * nx)} (hk : G.m k = 0) :
    G'.fe k = G.fe k ∧ G'.fi k = G.fi k ∧ G'.q k = G.q k ∧ G'.m k = G.m k ∧
      G'.boundary_v = G.boundary_v ∧ G'.boundary_h = G.boundary_h := by
  rw [BCs_eq] at h
  split at h
  · cases h
  · split at h
    · cases h
    · cases h
      refine ⟨?_, rfl, rfl, rfl, rfl, rfl⟩
      funext i
      simp [loaded, hk]

/-- The points when the nodal forces are computed, and at the end of the step. -/
theorem stall_points (hP : GoodGrid P.G) (hG : Geometry P.G s.G) (hL : Counted s.L)
    (hx : ∀ mp ∈ points s.L, InDomain P.G mp.x) (T : GridPhase P s) :
    List.Forall₂ (fun a d => (∀ k, weight P.G.nx d k = hat P.G a.x k) ∧
      ∀ k, gradWeight P.G.nx d k = hatGrad P.G a.x k) (points s.L) (points T.Ld) := by
  obtain ⟨-, -, -, c3, c4⟩ := T.rel hL
  have r1 := updateForces_rel hL T.ha
  have c1 := r1.counted hL
  have hG' := Mpm.Geometry.wipe hG
  have r2 : PtsRel (fun _ a b => a.getReferenceNode P.G s.G.wipe.dx s.G.wipe.dy = .ok b) T.La T.Lb :=
    mapPoints_rel (f := fun _ _ mp => mp.getReferenceNode P.G s.G.wipe.dx s.G.wipe.dy)
      (fun _ _ _ _ h => h) c1 T.hb
  have r3 : PtsRel (fun _ a b => a.getBasisFunctions s.G.wipe = .ok b) T.Lb T.Lc :=
    mapPoints_rel (f := fun _ _ mp => mp.getBasisFunctions s.G.wipe) (fun _ _ _ _ h => h)
      (r2.counted c1) T.hc
  have r4 := updateStressStrain_rel c3 T.hLd
  have r := ((r1.comp (r2.comp r3)).comp r4).mem.points
  refine r.imp ?_
  rintro a e ⟨ph, ha, -, d, ⟨b, ⟨e1, -⟩, c, hc, hd'⟩, p, vis, vis', h4⟩
  obtain ⟨A, hA, rfl, hmp⟩ := mem_items.1 ha
  have hax := hx a (mem_points_of hA hmp)
  have ex : b.x = a.x := by rw [e1]
  obtain ⟨i, j, nd, hcell, g1, g2, -⟩ := located_basis hP hG' (mp := b) (by rw [ex]; exact hax)
  rw [g1, Except.ok.injEq] at hc
  rw [← hc, g2, Except.ok.injEq] at hd'
  obtain ⟨k4, -⟩ := stressStrain_frame h4
  have hn : e.n_star = (i : ℤ) + (j : ℤ) * P.G.nx := by rw [k4.n_star, ← hd']; rfl
  constructor
  · intro k
    rw [← ex]
    exact weight_of_cell hP hcell hn (by rw [k4.N, ← hd']) k
  · intro k
    rw [← ex]
    exact gradWeight_of_cell hP hcell hn (by rw [k4.Gs, ← hd']) k

/-- From the forces to the end of the step. -/
theorem stall_rest (hB : NoPorts P.B) {s1 s2 s3 : St P} (hL : Counted s1.L)
    (h2 : momentumPhase P interp s1 = .ok s2) (h3 : segregationPhase P interp s2 = .ok s3)
    (h4 : pointsPhase P s3 = .ok u) :
    List.Forall₂ (fun a b => b.stress = a.stress ∧ b.V = a.V) (points s1.L) (points u.L) := by
  have e2 : s2.L = s1.L := (momentumPhase_table h2).2.1
  have c2 : Counted s2.L := by rw [e2]; exact hL
  have r3 := segregationPhase_rel c2 h3
  have c3 := r3.counted c2
  unfold pointsPhase at h4
  rw [hB.outlet_left, hB.outlet_bottom, hB.inlet_right, hB.inlet_top, hB.cyclic] at h4
  obtain ⟨L1, k1, h4⟩ := res_bind_ok.1 h4
  have eu : u.L = L1 := by cases h4; rfl
  have rm := movePoints_rel c3 k1
  rw [e2] at r3
  rw [eu]
  have f1 := r3.points
  have f2 : List.Forall₂ (fun a b => b.stress = a.stress ∧ b.V = a.V) (points s3.L) (points L1) := by
    clear * - rm
    generalize s3.L = L0 at rm
    induction rm with
    | nil => exact .nil
    | cons h _ ih =>
      unfold Spec.points at ih ⊢
      rw [List.flatMap_cons, List.flatMap_cons]
      exact List.rel_append (h.2.1.imp fun _ _ h => ⟨h.mats.1, h.mats.2.2.2.2.2.2.1⟩) ih
  refine (forall₂_comp f1 f2).imp ?_
  rintro a c ⟨b, ⟨-, k⟩, e1, e2⟩
  have := SegStep.frame k
  rw [e1, e2, this]
  exact ⟨rfl, rfl⟩

/-- C134.  A node at which no point has weight has no mass, and at the end of the step it has the
momentum that the stresses of the points next to it give it, unless a wall holds it. -/
theorem c134_empty (hP : GoodGrid P.G) (hB : NoPorts P.B) (hc : P.B.conveyor = false)
    (hr : P.B.roughness = false ∨ P.B.wall_mu = 0) (hG : Geometry P.G s.G) (hL : Counted s.L)
    (hx : ∀ mp ∈ points s.L, InDomain P.G mp.x) (h : timeMarch P interp s = .ok u) {k : Fin P.G.N}
    (hk : ∀ mp ∈ points s.L, hat P.G mp.x k = 0) :
    u.G.m k = 0 ∧ ∀ e, (HeldAt P s.G k e → u.G.q k e = 0) ∧
      (¬ HeldAt P s.G k e → u.G.q k e =
        -(s.dyn.dt * (dampFactor P.damping * pull P.G s.L u.L k e))) := by
  obtain ⟨T, s1, s2, s3, h1, e1, h2, h3, h4, h5, -⟩ := timeMarch_idx hL h
  obtain ⟨-, -, -, c3, c4⟩ := T.rel hL
  obtain ⟨w0, w1⟩ := gridPhase_forces_zero T hL
  have hm : T.Gd.m k = 0 := by
    rw [gridPhase_mass hP hG hL hx hB.cyclic T k]
    unfold nodalMass
    refine List.sum_eq_zero fun y hy => ?_
    obtain ⟨mp, hmp, rfl⟩ := List.mem_map.1 hy
    rw [hk mp hmp, zero_mul]
  have hq : ∀ e, T.Gd.q k e = 0 := by
    intro e
    rcases (gridPhase_momentum hP hG hL hx hB.cyclic T k e).1 with h | h
    · exact h
    · rw [h]
      refine List.sum_eq_zero fun y hy => ?_
      obtain ⟨z, hz, rfl⟩ := List.mem_map.1 hy
      rw [hk z.2 (mem_points_items hz), zero_mul, zero_mul]
  have p1 := stall_points hP hG hL hx T
  have p2 : List.Forall₂ (fun a b => b.stress = a.stress ∧ b.V = a.V) (points T.Ld) (points u.L) := by
    have := stall_rest (s1 := s1) hB (by rw [e1]; exact c4) h2 h3 h4
    rwa [e1] at this
  have g := getNodalForces_acyclic hB.cyclic T.hGd
  have hfe : T.Gd.fe k = 0 := by
    rw [nodalForcesAll_fe c4 g, w1, zero_add]
    refine List.sum_eq_zero fun y hy => ?_
    obtain ⟨d, hd, rfl⟩ := List.mem_map.1 hy
    obtain ⟨a, ha, ea, -⟩ := forall₂_right p1 hd
    rw [ea, hk a ha]
    simp
  have hfi : ∀ e, T.Gd.fi k e = pull P.G s.L u.L k e := by
    intro e
    rw [nodalForcesAll_fi c4 g, w0, zero_add]
    unfold pull
    generalize Spec.points s.L = l at p1
    generalize Spec.points T.Ld = l' at p1 p2
    generalize Spec.points u.L = l'' at p2
    clear * - p1 p2
    induction p1 generalizing l'' with
    | nil => cases p2; rfl
    | cons h _ ih =>
      cases p2 with
      | cons h' p2 =>
        rw [List.map_cons, List.sum_cons, List.zip_cons_cons, List.map_cons, List.sum_cons, ← ih _ p2,
          Pi.add_apply, h'.1, h'.2]
        refine congrArg (· + _) ?_
        rw [h.2 k, Pi.smul_apply, smul_eq_mul, Matrix.mulVec, dotProduct, Fin.sum_univ_three,
          show ∀ x, hatGrad P.G x k 2 = 0 from fun _ => rfl, mul_zero, add_zero]
  obtain ⟨-, -, -, st, -⟩ := T.static
  obtain ⟨-, -, em, eq, -⟩ := segregationPhase_frame h3
  obtain ⟨G1, g1, g2⟩ := momentumPhase_frame h2
  have hG1 : s1.G = T.Gd := by rw [e1]
  have hdt : s1.dyn.dt = s.dyn.dt := by rw [e1]; show T.d.dt = _; rw [T.hd]; rfl
  rw [hG1] at g1
  obtain ⟨b1, b2, b3, b4, b5, b6⟩ := BCs_massless (nx := P.G.nx) (ny := P.G.ny) g1 hm
  have x1 : s2.G.m = G1.m := by rw [g2]; rfl
  have x2 : s2.G.q = (G1.updateMomentum P.B P.damping s1.dyn.dt P.v_0).q := by rw [g2]
  rw [h5, em, eq, x1, x2]
  refine ⟨b4.trans hm, ?_⟩
  obtain ⟨u2, u0, u1⟩ := updateMomentum_qdot (damping := P.damping) (dt := s1.dyn.dt) (v0 := P.v_0)
    hr G1 k
  rw [b5, b6, show T.Gd.boundary_v = s.G.boundary_v from st.bv,
    show T.Gd.boundary_h = s.G.boundary_h from st.bh] at u0 u1
  rw [b1, b2, hfe] at u0 u1 u2
  have hQ : ∀ e, (G1.updateMomentum P.B P.damping s1.dyn.dt P.v_0).q k e =
      s.dyn.dt * (G1.updateMomentum P.B P.damping s1.dyn.dt P.v_0).q_dot k e := by
    intro e
    rw [updateMomentum_q hc, Pi.add_apply, Pi.smul_apply, b3, hq e, zero_add, smul_eq_mul, hdt]
  have hf : ∀ e, (0 : Vec K) e - T.Gd.fi k e = - pull P.G s.L u.L k e := by
    intro e; rw [hfi e]; simp
  rw [hf] at u0 u1 u2
  intro e
  rw [hQ e]
  unfold HeldAt
  fin_cases e
  · refine ⟨fun hH => ?_, fun hH => ?_⟩
    · have : s.G.boundary_v k = true ∨ (P.B.roughness = true ∧ s.G.boundary_h k = true) := by
        rcases hH with ⟨-, h⟩ | ⟨h, -⟩
        · exact h
        · exact absurd h (by decide)
      rw [if_pos this] at u0
      exact (congrArg _ u0).trans (mul_zero _)
    · rw [if_neg fun h => hH (.inl ⟨rfl, h⟩)] at u0
      refine (congrArg _ u0).trans ?_
      show _ = -(s.dyn.dt * (dampFactor P.damping * pull P.G s.L u.L k 0))
      ring
  · refine ⟨fun hH => ?_, fun hH => ?_⟩
    · have : s.G.boundary_h k = true ∨ (P.B.roughness = true ∧ s.G.boundary_v k = true) := by
        rcases hH with ⟨h, -⟩ | ⟨-, h⟩
        · exact absurd h (by decide)
        · exact h
      rw [if_pos this] at u1
      exact (congrArg _ u1).trans (mul_zero _)
    · rw [if_neg fun h => hH (.inr ⟨rfl, h⟩)] at u1
      refine (congrArg _ u1).trans ?_
      show _ = -(s.dyn.dt * (dampFactor P.damping * pull P.G s.L u.L k 1))
      ring
  · refine ⟨fun hH => ?_, fun _ => ?_⟩
    · rcases hH with ⟨h, -⟩ | ⟨h, -⟩
      · exact absurd h (by decide)
      · exact absurd h (by decide)
    · refine (congrArg _ u2).trans ?_
      show _ = -(s.dyn.dt * (dampFactor P.damping * pull P.G s.L u.L k 2))
      ring

/-- C134.  A node without mass that has a momentum in the plane makes the next time step at most
`CFL min(dx, dy) / 10` divided by the largest number of the machine. -/
theorem c134_stops (hC : 0 ≤ A.CFL) (hx : 0 < P.G.dx) (hy : 0 < P.G.dy) (hb : 0 < P.ops.big)
    (hc : ∀ c ∈ A.critical, ∃ x, c = XF.fin x) {N ns : ℕ} {G : Grid K N ns} {k : Fin N}
    (hm : G.m k = 0) (hq : G.q k 0 ≠ 0 ∨ G.q k 1 ≠ 0) :
    ∃ dt, defaultTimestep P A G = .fin dt ∧
      dt ≤ A.CFL * (1 / 10 * min P.G.dx P.G.dy / P.ops.big) := by
  have hs : ∀ i, G.q k i ≠ 0 → |nodeSpeed P.ops.big G k i| = P.ops.big := by
    intro i h
    unfold nodeSpeed
    rw [if_pos hm, if_neg h]
    split
    · exact abs_of_pos hb
    · rw [abs_neg]; exact abs_of_pos hb
  have hM : P.ops.big ≤ maxSpeed P.ops.big G := by
    have := (c53_speed P.ops.big G).1 k
    rcases hq with h | h
    · rw [← hs 0 h]; rw [hs 0 h] at this ⊢; exact this.1
    · rw [← hs 1 h]; rw [hs 1 h] at this ⊢; exact this.2
  obtain ⟨m, h1, h2, -⟩ := c53_moving (P := P) (A := A) (G := G) (by intro h; rw [h] at hM; exact absurd hb (not_lt.2 hM)) hc
  refine ⟨_, h1, mul_le_mul_of_nonneg_left (h2.trans ?_) hC⟩
  have : 0 < min P.G.dx P.G.dy := lt_min hx hy
  exact div_le_div_of_nonneg_left (by positivity) hb hM

theorem sum_zero_each {α : Type} {f : α → K} {l : List α} (hf : ∀ z ∈ l, 0 ≤ f z)
    (h : (l.map f).sum = 0) {a : α} (ha : a ∈ l) : f a = 0 := by
  refine le_antisymm ?_ (hf a ha)
  rw [← h]
  refine List.single_le_sum ?_ _ (List.mem_map_of_mem ha)
  intro y hy
  obtain ⟨z, hz, rfl⟩ := List.mem_map.1 hy
  exact hf z hz

theorem tent_far {h d : K} (hh : 0 < h) (hd : h ≤ |d|) : tent h d = 0 :=
  max_eq_left (sub_nonpos.2 ((one_le_div hh).2 hd))

theorem tent_near {h d : K} (hh : 0 < h) (hd : |d| < h) : 0 < tent h d :=
  lt_max_of_lt_right (sub_pos.2 ((div_lt_one hh).2 hd))

theorem tilt_far {h d : K} (hh : 0 < h) (hd : h ≤ |d|) (hn : d ≠ -h) : tilt h d = 0 := by
  unfold tilt
  rcases le_abs.1 hd with h1 | h1
  · rw [if_neg (by rintro ⟨-, h⟩; linarith), if_neg (by rintro ⟨-, h⟩; linarith)]
  · rw [if_neg, if_neg (by rintro ⟨h, -⟩; linarith)]
    rintro ⟨h, -⟩
    exact hn (le_antisymm (by linarith) h)

theorem tilt_edge {h : K} (hh : 0 < h) : tilt h (-h) = 1 / h := by
  unfold tilt
  exact if_pos ⟨le_refl _, by linarith⟩

/-- C134.  Let no point lie strictly between the vertical grid lines `i` and `i+2`, and let the
points on line `i` be in compression at the end of the step.  Then a node of column `i+1` that is
not held and has one of those points in its rows makes the next time step as good as zero. -/
theorem c134_side (hP : GoodGrid P.G) (hB : NoPorts P.B) (hc : P.B.conveyor = false)
    (hr : P.B.roughness = false ∨ P.B.wall_mu = 0) (hG : Geometry P.G s.G) (hL : Counted s.L)
    (hx : ∀ mp ∈ points s.L, InDomain P.G mp.x) (h : timeMarch P interp s = .ok u)
    (hdt : 0 < s.dyn.dt) {k : Fin P.G.N} {i : ℕ} (hi : (k : ℕ) % P.G.nx = i + 1)
    (hside : ∀ mp ∈ points s.L, mp.x 0 ≤ nodeX P.G i ∨ nodeX P.G (i + 2) ≤ mp.x 0)
    (hfree : ¬ HeldAt P s.G k 0)
    (hcomp : ∀ z ∈ (points s.L).zip (points u.L), z.1.x 0 = nodeX P.G i →
      0 < z.2.V ∧ z.2.stress 0 0 < 0)
    (hone : ∃ mp ∈ points s.L, mp.x 0 = nodeX P.G i ∧
      |mp.x 1 - nodeY P.G ((k : ℕ) / P.G.nx)| < cellY P.G)
    (hlen : (points u.L).length = (points s.L).length)
    (hC : 0 ≤ A.CFL) (hdx : 0 < P.G.dx) (hdy : 0 < P.G.dy) (hb : 0 < P.ops.big)
    (hcr : ∀ c ∈ A.critical, ∃ x, c = XF.fin x) :
    u.G.m k = 0 ∧ 0 < u.G.q k 0 ∧ ∃ dt, defaultTimestep P A u.G = .fin dt ∧
      dt ≤ A.CFL * (1 / 10 * min P.G.dx P.G.dy / P.ops.big) := by
  have px := cellX_pos hP
  have py := cellY_pos hP
  have n1 : nodeX P.G (i + 1) = nodeX P.G i + cellX P.G := by
    unfold nodeX cellX; push_cast; ring
  have n2 : nodeX P.G (i + 2) = nodeX P.G (i + 1) + cellX P.G := by
    unfold nodeX cellX; push_cast; ring
  have hfar : ∀ mp ∈ points s.L, cellX P.G ≤ |mp.x 0 - nodeX P.G ((k : ℕ) % P.G.nx)| := by
    intro mp hmp
    rw [hi]
    rcases hside mp hmp with h | h
    · exact le_abs.2 (.inr (by linarith))
    · exact le_abs.2 (.inl (by linarith))
  have hhat : ∀ mp ∈ points s.L, hat P.G mp.x k = 0 := by
    intro mp hmp
    unfold hat
    rw [tent_far px (hfar mp hmp), zero_mul]
  obtain ⟨hm, hq⟩ := c134_empty hP hB hc hr hG hL hx h hhat
  have hterm : ∀ z ∈ (points s.L).zip (points u.L), z.2.V * (z.2.stress 0 0 * hatGrad P.G z.1.x k 0 +
      z.2.stress 0 1 * hatGrad P.G z.1.x k 1) ≤ 0 ∧ (z.1.x 0 = nodeX P.G i →
      |z.1.x 1 - nodeY P.G ((k : ℕ) / P.G.nx)| < cellY P.G →
      z.2.V * (z.2.stress 0 0 * hatGrad P.G z.1.x k 0 +
      z.2.stress 0 1 * hatGrad P.G z.1.x k 1) < 0) := by
    intro z hz
    have hz1 := (List.of_mem_zip hz).1
    have g1 : hatGrad P.G z.1.x k 1 = 0 := by
      show tent _ _ * _ = 0
      rw [tent_far px (hfar _ hz1), zero_mul]
    rw [g1, mul_zero, add_zero]
    by_cases hl : z.1.x 0 = nodeX P.G i
    · obtain ⟨hV, hσ⟩ := hcomp z hz hl
      have g0 : hatGrad P.G z.1.x k 0 =
          1 / cellX P.G * tent (cellY P.G) (z.1.x 1 - nodeY P.G ((k : ℕ) / P.G.nx)) := by
        show tilt _ _ * _ = _
        rw [hi, hl, n1, show nodeX P.G i - (nodeX P.G i + cellX P.G) = -cellX P.G by ring,
          tilt_edge px]
      rw [g0]
      constructor
      · have t0 : 0 ≤ tent (cellY P.G) (z.1.x 1 - nodeY P.G ((k : ℕ) / P.G.nx)) := le_max_left _ _
        have : 0 ≤ 1 / cellX P.G * tent (cellY P.G) (z.1.x 1 - nodeY P.G ((k : ℕ) / P.G.nx)) := by
          positivity
        exact mul_nonpos_of_nonneg_of_nonpos hV.le (mul_nonpos_of_nonpos_of_nonneg hσ.le this)
      · intro _ hy
        have t0 := tent_near py hy
        have : 0 < 1 / cellX P.G * tent (cellY P.G) (z.1.x 1 - nodeY P.G ((k : ℕ) / P.G.nx)) := by
          positivity
        exact mul_neg_of_pos_of_neg hV (mul_neg_of_neg_of_pos hσ this)
    · have g0 : hatGrad P.G z.1.x k 0 = 0 := by
        show tilt _ _ * _ = 0
        rw [tilt_far px (hfar _ hz1), zero_mul]
        rw [hi, n1]
        intro h
        exact hl (by linarith)
      rw [g0, mul_zero, mul_zero]
      exact ⟨le_refl _, fun h => absurd h hl⟩
  have hpull : pull P.G s.L u.L k 0 < 0 := by
    obtain ⟨mp, hmp, h1, h2⟩ := hone
    unfold pull
    generalize hf : (fun z : Particle K P.G.ns × Particle K P.G.ns => z.2.V *
      (z.2.stress 0 0 * hatGrad P.G z.1.x k 0 + z.2.stress 0 1 * hatGrad P.G z.1.x k 1)) = f
    have hle : ∀ z ∈ (points s.L).zip (points u.L), f z ≤ 0 := by
      intro z hz; rw [← hf]; exact (hterm z hz).1
    have hlt : ∃ z ∈ (points s.L).zip (points u.L), f z < 0 := by
      obtain ⟨n, hn, e⟩ := List.getElem_of_mem hmp
      have hn' : n < ((points s.L).zip (points u.L)).length := by
        rw [List.length_zip, hlen]; simpa using hn
      have hz := List.getElem_mem hn'
      refine ⟨_, hz, ?_⟩
      rw [← hf]
      refine (hterm _ hz).2 ?_ ?_
      · rw [List.getElem_zip]; simp only [e]; exact h1
      · rw [List.getElem_zip]; simp only [e]; exact h2
    clear * - hle hlt
    generalize (points s.L).zip (points u.L) = l at hle hlt
    induction l with
    | nil => obtain ⟨_, h, -⟩ := hlt; cases h
    | cons a l ih =>
      rw [List.map_cons, List.sum_cons]
      have ha := hle a List.mem_cons_self
      have hs : (l.map f).sum ≤ 0 := by
        have hle' : ∀ z ∈ l, f z ≤ 0 := fun z hz => hle z (List.mem_cons_of_mem _ hz)
        clear * - hle'
        induction l with
        | nil => exact le_refl _
        | cons b l ih =>
          rw [List.map_cons, List.sum_cons]
          have := hle' b List.mem_cons_self
          have := ih fun z hz => hle' z (List.mem_cons_of_mem _ hz)
          linarith
      obtain ⟨z, hz, hlt⟩ := hlt
      rcases List.mem_cons.1 hz with rfl | hz
      · linarith
      · have := ih (fun z hz => hle z (List.mem_cons_of_mem _ hz)) ⟨z, hz, hlt⟩
        linarith
  have hdf : (0 : K) < dampFactor P.damping := by unfold dampFactor; split <;> norm_num
  have hq0 : 0 < u.G.q k 0 := by
    rw [(hq 0).2 hfree]
    have := mul_neg_of_pos_of_neg hdt (mul_neg_of_pos_of_neg hdf hpull)
    linarith
  exact ⟨hm, hq0, c134_stops hC hdx hdy hb hcr hm (.inl hq0.ne')⟩

/-- C134.  If the points are on no grid line and have mass, a node without mass has no momentum,
and the speed that sets the next time step is that of a node with mass. -/
theorem c134_clean (hP : GoodGrid P.G) (hB : NoPorts P.B) (hc : P.B.conveyor = false)
    (hr : P.B.roughness = false ∨ P.B.wall_mu = 0) (hG : Geometry P.G s.G) (hL : Counted s.L)
    (hx : ∀ mp ∈ points s.L, InDomain P.G mp.x) (h : timeMarch P interp s = .ok u)
    (hmass : ∀ mp ∈ points s.L, 0 < mp.m) (hoff : ∀ mp ∈ points s.L, ClearOfLines P.G mp.x) :
    (∀ k, u.G.m k = 0 → u.G.q k = 0) ∧
    (maxSpeed P.ops.big u.G = 0 ∨ ∃ k, u.G.m k ≠ 0 ∧
      (maxSpeed P.ops.big u.G = |u.G.q k 0 / u.G.m k| ∨ maxSpeed P.ops.big u.G = |u.G.q k 1 / u.G.m k|)) := by
  have px := cellX_pos hP
  have py := cellY_pos hP
  have hz : ∀ k, u.G.m k = 0 → u.G.q k = 0 := by
    intro k hk
    rw [(step_grid hP hL hG hx hB.cyclic h).1] at hk
    have hhat : ∀ mp ∈ points s.L, hat P.G mp.x k = 0 := by
      intro mp hmp
      unfold nodalMass at hk
      have : hat P.G mp.x k * mp.m = 0 :=
        sum_zero_each (f := fun mp : Particle K P.G.ns => hat P.G mp.x k * mp.m)
          (fun z hz => mul_nonneg (hat_nonneg' _ _ _) (hmass z hz).le) hk hmp
      rcases mul_eq_zero.1 this with h | h
      · exact h
      · exact absurd h (hmass mp hmp).ne'
    have hgrad : ∀ mp ∈ points s.L, hatGrad P.G mp.x k 0 = 0 ∧ hatGrad P.G mp.x k 1 = 0 := by
      intro mp hmp
      have fx : cellX P.G ≤ |mp.x 0 - nodeX P.G ((k : ℕ) % P.G.nx)| →
          mp.x 0 - nodeX P.G ((k : ℕ) % P.G.nx) ≠ -cellX P.G := by
        intro _ h
        rcases Nat.eq_zero_or_pos ((k : ℕ) % P.G.nx) with h0 | h0
        · rw [h0] at h
          have : nodeX P.G 0 = P.G.x_m := by unfold nodeX; push_cast; ring
          have := (hx mp hmp).1.1
          linarith
        · obtain ⟨c, hc⟩ := Nat.exists_eq_add_of_lt h0
          rw [hc] at h
          refine (hoff mp hmp).1 c ?_
          have : nodeX P.G (0 + c + 1) = nodeX P.G c + cellX P.G := by
            unfold nodeX cellX; push_cast; ring
          linarith
      have fy : cellY P.G ≤ |mp.x 1 - nodeY P.G ((k : ℕ) / P.G.nx)| →
          mp.x 1 - nodeY P.G ((k : ℕ) / P.G.nx) ≠ -cellY P.G := by
        intro _ h
        rcases Nat.eq_zero_or_pos ((k : ℕ) / P.G.nx) with h0 | h0
        · rw [h0] at h
          have : nodeY P.G 0 = P.G.y_m := by unfold nodeY; push_cast; ring
          have := (hx mp hmp).2.1
          linarith
        · obtain ⟨c, hc⟩ := Nat.exists_eq_add_of_lt h0
          rw [hc] at h
          refine (hoff mp hmp).2 c ?_
          have : nodeY P.G (0 + c + 1) = nodeY P.G c + cellY P.G := by
            unfold nodeY cellY; push_cast; ring
          linarith
      have := hhat mp hmp
      unfold hat at this
      rcases mul_eq_zero.1 this with h | h
      · have hd : cellX P.G ≤ |mp.x 0 - nodeX P.G ((k : ℕ) % P.G.nx)| := by
          by_contra hn
          exact absurd h (tent_near px (not_le.1 hn)).ne'
        constructor
        · show tilt _ _ * _ = 0
          rw [tilt_far px hd (fx hd), zero_mul]
        · show tent _ _ * _ = 0
          rw [h, zero_mul]
      · have hd : cellY P.G ≤ |mp.x 1 - nodeY P.G ((k : ℕ) / P.G.nx)| := by
          by_contra hn
          exact absurd h (tent_near py (not_le.1 hn)).ne'
        constructor
        · show _ * tent _ _ = 0
          rw [h, mul_zero]
        · show _ * tilt _ _ = 0
          rw [tilt_far py hd (fy hd), mul_zero]
    have hp : ∀ e, pull P.G s.L u.L k e = 0 := by
      intro e
      unfold pull
      refine List.sum_eq_zero fun y hy => ?_
      obtain ⟨z, hz, rfl⟩ := List.mem_map.1 hy
      obtain ⟨a, b⟩ := hgrad _ (List.of_mem_zip hz).1
      rw [a, b]; ring
    obtain ⟨-, hq⟩ := c134_empty hP hB hc hr hG hL hx h hhat
    funext e
    by_cases hH : HeldAt P s.G k e
    · exact (hq e).1 hH
    · rw [(hq e).2 hH, hp e]; simp
  refine ⟨hz, ?_⟩
  rcases (c53_speed P.ops.big u.G).2 with h | ⟨k, h⟩
  · exact .inl h
  · by_cases hk : u.G.m k = 0
    · left
      have : ∀ i, nodeSpeed P.ops.big u.G k i = 0 := by
        intro i
        unfold nodeSpeed
        rw [if_pos hk, hz k hk]
        exact if_pos rfl
      rw [this, this, abs_zero, or_self] at h
      exact h
    · right
      refine ⟨k, hk, ?_⟩
      have : ∀ i, nodeSpeed P.ops.big u.G k i = u.G.q k i / u.G.m k := fun i => if_neg hk
      rwa [this, this] at h

end

/-- A point on the middle grid line, in compression and at rest. -/
def Ex.edge : Particle ℚ 2 :=
  { Ex.mp with x := ![1, 1/2, 0], v := .own 0, stress := !![-1, 0, 0; 0, -1, 0; 0, 0, -1] }

def Ex.edgeL : List (PhaseSt ℚ 2) := [{ ph := { Ex.ph with n := 1 }, pts := [Ex.edge] }]

/-- The hypotheses of `c134_side`, and so of `c134_empty` and `c134_stops`, are met: the point sits
on the line `x = 1`, the nodes at `x = 2` have no mass and move. -/
example : ∃ s u : St Ex.par, mkGrid Ex.par.G Ex.par.B = .ok s.G ∧ s.L = Ex.edgeL ∧
    timeMarch Ex.par (Ex.noInterp _) s = .ok u ∧ u.G.m (⟨5, by decide⟩ : Fin 9) = 0 ∧
    0 < u.G.q (⟨5, by decide⟩ : Fin 9) 0 ∧
    ∃ dt, defaultTimestep Ex.par Ex.shortDyn u.G = .fin dt ∧
      dt ≤ Ex.shortDyn.CFL * (1 / 10 * min Ex.par.G.dx Ex.par.G.dy / Ex.par.ops.big) := by
  have hrun : Ex.run Ex.par Ex.dyn Ex.edgeL 1 (fun s =>
      decide ((points s.L).length = 1) && (points s.L).all fun mp =>
        decide (0 < mp.V ∧ mp.stress 0 0 < 0)) = true := by decide +kernel
  obtain ⟨G, s', hG, hs, hcheck⟩ := Ex.run_one hrun
  rw [Bool.and_eq_true, List.all_eq_true] at hcheck
  obtain ⟨hl, hc⟩ := hcheck
  have hmem : ∀ mp ∈ points Ex.edgeL, mp.x = ![1, 1/2, 0] := by
    intro mp hmp
    rw [List.mem_singleton.1 (show mp ∈ [Ex.edge] from hmp)]
    rfl
  have hn : nodeX Ex.par.G 1 = 1 := by decide +kernel
  have hw : mkGrid Ex.par.G Ex.par.B = .ok G → G.boundary_v (⟨5, by decide⟩ : Fin 9) = false ∧
      G.boundary_h (⟨5, by decide⟩ : Fin 9) = false := by
    intro h
    have := Ex.okAnd_ok (r := mkGrid Ex.par.G Ex.par.B) (check := fun G =>
      decide (G.boundary_v (⟨5, by decide⟩ : Fin 9) = false ∧
        G.boundary_h (⟨5, by decide⟩ : Fin 9) = false)) (by decide +kernel)
    obtain ⟨G', h', hc⟩ := this
    rw [h] at h'
    cases h'
    exact of_decide_eq_true hc
  refine ⟨⟨Ex.dyn, Ex.edgeL, G⟩, s', hG, rfl, hs, ?_⟩
  refine c134_side (i := 1) Ex.good ⟨rfl, rfl, rfl, rfl, rfl⟩ rfl (.inl rfl)
    (mkGrid_geometry hG) ?_ ?_ hs (by norm_num [Ex.dyn]) rfl ?_ ?_ ?_ ?_ ?_ ?_ ?_ ?_ ?_ ?_
  · intro A hA
    rw [List.mem_singleton.1 hA]; rfl
  · intro mp hmp
    rw [hmem mp hmp]
    simp only [InDomain, Ex.par, Ex.gp, Matrix.cons_val_zero, Matrix.cons_val_one]; norm_num
  · intro mp hmp
    rw [hmem mp hmp, hn]
    exact .inl (le_refl _)
  · rintro (⟨-, h⟩ | ⟨h, -⟩)
    · rcases h with h | ⟨h, -⟩
      · exact absurd ((hw hG).1.symm.trans h) (by decide)
      · exact absurd h (by decide)
    · exact absurd h (by decide)
  · intro z hz _
    exact of_decide_eq_true (hc z.2 (List.of_mem_zip hz).2)
  · refine ⟨Ex.edge, List.mem_singleton_self _, ?_, ?_⟩
    · rw [hn]; rfl
    · decide +kernel
  · exact of_decide_eq_true hl
  · decide +kernel
  · decide +kernel
  · decide +kernel
  · decide +kernel
  · intro c hc
    rw [List.mem_singleton.1 hc]
    exact ⟨_, rfl⟩

/-- The hypotheses of `c134_clean` are met by the two points of the examples. -/
example : ∃ s u : St Ex.par, mkGrid Ex.par.G Ex.par.B = .ok s.G ∧ s.L = Ex.L ∧
    timeMarch Ex.par (Ex.noInterp _) s = .ok u ∧ (∀ k, u.G.m k = 0 → u.G.q k = 0) ∧
    ∃ k, u.G.m k = 0 := by
  have hrun : Ex.run Ex.par Ex.dyn Ex.L 1 (fun s =>
      decide (s.G.m (⟨8, by decide⟩ : Fin 9) = 0)) = true := by decide +kernel
  obtain ⟨G, s', hG, hs, hc⟩ := Ex.run_one hrun
  refine ⟨⟨Ex.dyn, Ex.L, G⟩, s', hG, rfl, hs, ?_, _, of_decide_eq_true hc⟩
  have key : ∀ (a : ℕ) (x : ℚ), (∃ n : ℤ, x = n / 4 ∧ n % 4 ≠ 0) → x ≠ 0 + a * 1 := by
    rintro a x ⟨n, rfl, hn⟩ h
    have : (n : ℚ) = ((4 * a : ℤ) : ℚ) := by push_cast; linarith
    rw [Int.cast_inj] at this
    omega
  have n1 : ∀ i, nodeX Ex.par.G i = 0 + i * 1 := by intro i; norm_num [nodeX, Ex.par, Ex.gp]
  have n2 : ∀ i, nodeY Ex.par.G i = 0 + i * 1 := by intro i; norm_num [nodeY, Ex.par, Ex.gp]
  refine (c134_clean Ex.good ⟨rfl, rfl, rfl, rfl, rfl⟩ rfl (.inl rfl) (mkGrid_geometry hG)
    Ex.countedL Ex.inDomainL hs ?_ ?_).1
  · intro mp hmp
    rcases List.mem_cons.1 (show mp ∈ [Ex.mp, Ex.mp2] from hmp) with rfl | h
    · decide +kernel
    · rw [List.mem_singleton.1 h]; decide +kernel
  · intro mp hmp
    unfold ClearOfLines
    simp only [n1, n2]
    rcases List.mem_cons.1 (show mp ∈ [Ex.mp, Ex.mp2] from hmp) with rfl | h
    · exact ⟨fun i => key i _ ⟨2, by norm_num [Ex.mp], by decide⟩,
        fun i => key i _ ⟨5, by norm_num [Ex.mp], by decide⟩⟩
    · rw [List.mem_singleton.1 h]
      exact ⟨fun i => key i _ ⟨6, by norm_num [Ex.mp2], by decide⟩,
        fun i => key i _ ⟨1, by norm_num [Ex.mp2], by decide⟩⟩

end Mpm

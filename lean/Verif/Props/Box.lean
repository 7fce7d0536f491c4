import Verif.Lemmas.Run
import Verif.Props.Boundary
import Verif.Props.Volume
import Verif.Props.Fluids
import Verif.ExRun

/-!
# A closed box

C70: four walls and time steps below the Courant limit keep every point inside, and a run raises
no exception.
-/

set_option linter.unusedSectionVars false

namespace Mpm
open Spec

namespace Spec
section
variable {K : Type} [Field K] [LinearOrder K] {ns : ℕ}

/-- All four edges are walls. -/
structure Walls (B : BP K) : Prop where
  left : B.has_left = true
  right : B.has_right = true
  bottom : B.has_bottom = true
  top : B.has_top = true
  cyclic : B.cyclic_lr = false
  conveyor : B.conveyor = false
  inlet_right : B.inlet_right = false
  inlet_top : B.inlet_top = false

/-- No node that counts moves as far as one cell in one time step. -/
def Courant (P : Par K) (dt : K) (G : Grid K P.G.N ns) : Prop :=
  ∀ k, P.M_tol < G.m k →
    dt * |G.q k 0 / G.m k| < cellX P.G ∧ dt * |G.q k 1 / G.m k| < cellY P.G

/-- Laws and parameters for which the law cannot fail whatever the state of the point. -/
def LawOk (ns : ℕ) (dt : K) : Law → Mat0 K → Prop
  | .rigid, _ => True
  | .elastic, _ => True
  | .elastic_time, m => 1 - 2 * m.nu ≠ 0 ∧ 1 + m.nu ≠ 0
  | .von_mises, m => 0 < m.k ∧ 2 ≤ m.s
  | .viscous, _ => dt ≠ 0
  | .bingham, m => dt ≠ 0 ∧ 0 ≤ m.gamma_c ∧ ∃ x, m.mu_0 = .scalar x
  | .ken_kamrin, m => dt ≠ 0 ∧ ∃ x, m.I_0 = .scalar x
  | .pouliquen, m => dt ≠ 0 ∧ ∃ l1 l2 l3, HasArrays ns m l1 l2 l3
  | .ken_simple, m => dt ≠ 0 ∧ ∃ x, m.mu_0 = .scalar x
  | _, _ => False

/-- The options that could stop a run for reasons that have nothing to do with the motion: position
check, the broken probe of the anisotropy mode, division by zero in the segregation scheme and in
the applied boundary forces. -/
structure Plain (P : Par K) (L : List (PhaseSt K P.G.ns)) : Prop where
  check : P.check_positions = false
  aniso : P.aniso = false
  spacing : P.segregate_grid = true → P.G.dx ≠ 0 ∧ P.G.dy ≠ 0 ∧ P.normalise_phi = false
  loaded : P.B.vertical_force = true ∨ P.B.horizontal_force = true →
    ∃ m, mat0 L = some m ∧ m.rho ≠ 0

end
end Spec

section
variable {K : Type} [Field K] [LinearOrder K] [IsStrictOrderedRing K] [FloorRing K] {ns : ℕ}

/-! ## The laws -/

theorem lawOk_runs {law : Law} {c : LawCtx K ns} (h : LawOk ns c.dt law c.mat)
    (mp : Particle K ns) : ∃ r, runLaw law c mp = .ok r := by
  cases law
  case rigid => exact ⟨_, rfl⟩
  case elastic => exact ⟨_, rfl⟩
  case elastic_time =>
    obtain ⟨h1, h2⟩ := h
    simp [runLaw, lawElasticTime, h1, h2]
  case von_mises =>
    obtain ⟨h1, h2⟩ := h
    have h3 : ¬ (c.mat.s - 2 < 0) := by linarith
    simp [runLaw, lawVonMises, h1.ne', h1.not_gt, h3]
  case viscous =>
    have h : c.dt ≠ 0 := h
    simp [runLaw, lawViscous, h]
  case bingham =>
    obtain ⟨h1, h2, x, h3⟩ := h
    simp only [runLaw, lawBingham, h1, if_false, h3, PyNum.num, res_ok_bind]
    split
    · exact ⟨_, rfl⟩
    · rename_i h4
      rw [if_neg]
      · exact ⟨_, rfl⟩
      · intro h5; rw [h5] at h4; exact h4 h2
  case ken_kamrin =>
    obtain ⟨h1, x, h3⟩ := h
    simp only [runLaw, lawKenKamrin, h1, if_false, h3, PyNum.num, res_ok_bind]
    exact ⟨_, rfl⟩
  case pouliquen =>
    obtain ⟨h1, l1, l2, l3, h3⟩ := h
    obtain ⟨r, hr, -⟩ := pouliquen_form h1 (h3.means mp.phi)
    exact ⟨r, hr⟩
  case ken_simple =>
    obtain ⟨h1, x, h3⟩ := h
    simp only [runLaw, lawKenSimple, h1, if_false, h3, PyNum.num, res_ok_bind]
    exact ⟨_, rfl⟩
  all_goals exact absurd h id

/-! ## One axis -/

/-- Positions inside and one of them, with positive weight, below the upper end: the weighted
mean stays inside the half-open interval. -/
theorem mean_stays {w X u : Fin 4 → K} {lo hi : K} (hw : ∀ r, 0 ≤ w r) (h1 : ∑ r, w r = 1)
    (hl : ∀ r, lo ≤ X r + u r) (hh : ∀ r, X r + u r ≤ hi)
    (hs : ∃ r, 0 < w r ∧ X r + u r < hi) :
    lo ≤ (∑ r, w r * X r) + ∑ r, w r * u r ∧ (∑ r, w r * X r) + ∑ r, w r * u r < hi := by
  have e : (∑ r, w r * X r) + ∑ r, w r * u r = ∑ r, w r * (X r + u r) := by
    rw [← Finset.sum_add_distrib]
    exact Finset.sum_congr rfl fun r _ => by ring
  have c : ∀ a : K, a = ∑ r, w r * a := fun a => by rw [← Finset.sum_mul, h1, one_mul]
  rw [e]
  constructor
  · rw [c lo]
    exact Finset.sum_le_sum fun r _ => mul_le_mul_of_nonneg_left (hl r) (hw r)
  · rw [c hi]
    obtain ⟨r, p, q⟩ := hs
    exact Finset.sum_lt_sum (fun r _ => mul_le_mul_of_nonneg_left (hh r) (hw r))
      ⟨r, Finset.mem_univ _, mul_lt_mul_of_pos_left q p⟩

/-- Node `c` of `n` equally spaced ones, moved by less than the spacing unless it is at an end. -/
theorem node_stays {a h u : K} {n c : ℕ} (hh : 0 < h) (hc : c < n)
    (h0 : c = 0 → u = 0) (h1 : c = n - 1 → u = 0) (hu : |u| < h) :
    a ≤ a + c * h + u ∧ a + c * h + u ≤ a + ((n : K) - 1) * h := by
  have hn : (((n - 1 : ℕ) : K)) = (n : K) - 1 := by rw [Nat.cast_sub (by omega)]; simp
  obtain ⟨u1, u2⟩ := abs_lt.1 hu
  constructor
  · rcases Nat.eq_zero_or_pos c with e | e
    · rw [h0 e, e]; simp
    · have : (1 : K) ≤ c := by exact_mod_cast e
      have := mul_le_mul_of_nonneg_right this hh.le
      linarith
  · rcases Nat.eq_or_lt_of_le (Nat.le_sub_one_of_lt hc) with e | e
    · rw [h1 e, e, hn]; simp
    · have : ((c + 1 : ℕ) : K) ≤ (n - 1 : ℕ) := by exact_mod_cast e
      rw [hn] at this
      have := mul_le_mul_of_nonneg_right this hh.le
      push_cast at this
      linarith

/-! ## The walls -/

theorem walls_marked {P : GP K} {B : BP K} (hB : Walls B) {G : Grid K P.N P.ns}
    (h : mkGrid P B = .ok G) (k : Fin P.N) :
    ((k : ℕ) % P.nx = 0 ∨ (k : ℕ) % P.nx = P.nx - 1 → G.boundary_v k = true) ∧
    ((k : ℕ) / P.nx = 0 ∨ (k : ℕ) / P.nx = P.ny - 1 → G.boundary_h k = true) := by
  obtain ⟨eh, ev, -⟩ := mkGrid_masks h
  have mono : ∀ {c : Bool} {a b : Option ℤ} {st : ℕ} {f : Fin P.N → Bool}, f k = true →
      markIf c a b st f k = true := fun h => markIf_iff.2 (Or.inr h)
  have hit : ∀ {c : Bool} {a b : Option ℤ} {st : ℕ} {f : Fin P.N → Bool}, c = true →
      inSlice P.N a b st k = true → markIf c a b st f k = true :=
    fun h h' => markIf_iff.2 (Or.inl ⟨h, h'⟩)
  rw [eh, ev]
  constructor
  · rintro (hk | hk)
    · have hk := (inLeft_iff k).2 hk
      unfold boundaryV
      repeat first | exact hit hB.left hk | apply mono
    · have hk := (inRight_iff k).2 hk
      unfold boundaryV
      repeat first | exact hit hB.right hk | apply mono
  · rintro (hk | hk)
    · have hk := (inBottom_iff k).2 hk
      unfold boundaryH
      repeat first | exact hit hB.bottom hk | apply mono
    · have hk := (inTop_iff k).2 hk
      unfold boundaryH
      repeat first | exact hit hB.top hk | apply mono

/-- The displacement of node `k` in one step. -/
def nodeDisp {N : ℕ} (M_tol dt : K) (G : Grid K N ns) (k : Fin N) (c : Fin 3) : K :=
  if M_tol < G.m k then dt * (G.q k c / G.m k) else 0

theorem dispInc_eq {N : ℕ} (M_tol dt w : K) (G : Grid K N ns) (k : Fin N) (c : Fin 3) :
    dispInc M_tol dt w G k c = w * nodeDisp M_tol dt G k c := by
  unfold dispInc nodeDisp
  split
  · ring
  · simp

/-- In one time step of a box with four walls, below the Courant limit, every point stays in the
domain. -/
theorem c70_step {P : Par K} (hP : GoodGrid P.G) (hB : Walls P.B)
    {interp : Interp K P.G.N} {s s' : St P} {G0 : Grid K P.G.N P.G.ns}
    (hG0 : mkGrid P.G P.B = .ok G0) (hgeo : Geometry P.G s.G)
    (hv : ∀ k, G0.boundary_v k = true → s.G.boundary_v k = true)
    (hh : ∀ k, G0.boundary_h k = true → s.G.boundary_h k = true)
    (hdt : 0 ≤ s.dyn.dt) (hL : Counted s.L) (hr : ∀ A ∈ s.L, A.ph.law ≠ .rigid)
    (hx : ∀ mp ∈ points s.L, InDomain P.G mp.x)
    (h : timeMarch P interp s = .ok s') (hC : Courant P s.dyn.dt s'.G) :
    ∀ mp ∈ points s'.L, InDomain P.G mp.x := by
  obtain ⟨T, s1, s2, s3, k1, e1, k2, k3, k4, eG, hR⟩ := timeMarch_points hL h
  have hd : T.d.dt = s.dyn.dt := by rw [T.hd]; rfl
  have hcx := cellX_pos hP
  have hcy := cellY_pos hP
  obtain ⟨-, -, -, q3, -, -⟩ := segregationPhase_frame k3
  rw [eG] at hC
  have n0 : ∀ k : Fin P.G.N, ((k : ℕ) % P.G.nx = 0 ∨ (k : ℕ) % P.G.nx = P.G.nx - 1 →
      nodeDisp P.M_tol T.d.dt s3.G k 0 = 0) ∧ |nodeDisp P.M_tol T.d.dt s3.G k 0| < cellX P.G := by
    intro k
    constructor
    · intro hk
      have := (c18_no_flow hB.cyclic hB.conveyor k1 k2 k).1 (hv k ((walls_marked hB hG0 k).1 hk))
      unfold nodeDisp
      rw [q3, this.1]; simp
    · unfold nodeDisp
      split
      · rename_i hm
        rw [abs_mul, hd, abs_of_nonneg hdt]
        exact (hC k hm).1
      · simpa using hcx
  have n1 : ∀ k : Fin P.G.N, ((k : ℕ) / P.G.nx = 0 ∨ (k : ℕ) / P.G.nx = P.G.ny - 1 →
      nodeDisp P.M_tol T.d.dt s3.G k 1 = 0) ∧ |nodeDisp P.M_tol T.d.dt s3.G k 1| < cellY P.G := by
    intro k
    constructor
    · intro hk
      have := (c18_no_flow hB.cyclic hB.conveyor k1 k2 k).2 (hh k ((walls_marked hB hG0 k).2 hk))
      unfold nodeDisp
      rw [q3, this.1]; simp
    · unfold nodeDisp
      split
      · rename_i hm
        rw [abs_mul, hd, abs_of_nonneg hdt]
        exact (hC k hm).2
      · simpa using hcy
  intro b hb
  obtain ⟨B, hB', hb⟩ := List.mem_flatMap.1 hb
  obtain ⟨A, hA, p, -, -, hpts⟩ : ∃ A ∈ s.L, ∃ p, SamePhase A.ph B.ph ∧ B.ph.n = B.pts.length ∧
      ∀ b ∈ B.pts, (∃ a ∈ A.pts, Evolved P T.d (mat0 s.L) s.G.wipe T.Gb s3.G p A.ph a b) ∨
          ((P.B.inlet_right = true ∨ P.B.inlet_top = true) ∧ Fresh P T.d A.ph b) := by
    refine forall₂_right (R := fun A B => ∃ p, SamePhase A.ph B.ph ∧ B.ph.n = B.pts.length ∧
      ∀ b ∈ B.pts, (∃ a ∈ A.pts, Evolved P T.d (mat0 s.L) s.G.wipe T.Gb s3.G p A.ph a b) ∨
          ((P.B.inlet_right = true ∨ P.B.inlet_top = true) ∧ Fresh P T.d A.ph b))
      (hR.forall₂ ?_) hB'
    exact fun p A B h => ⟨p, h⟩
  rcases hpts b hb with ⟨a, ha, hev⟩ | ⟨hi, -⟩
  swap
  · rcases hi with hi | hi
    · rw [hB.inlet_right] at hi; cases hi
    · rw [hB.inlet_top] at hi; cases hi
  obtain ⟨a5, a6, hmv, hw, hx5, -, -, -, -, -, hloc⟩ := hev.parts
  obtain ⟨i, j, hcell, hn, hN⟩ := hloc hP (Mpm.Geometry.wipe hgeo)
    (hx a (List.mem_flatMap.2 ⟨A, hA, ha⟩))
  rcases hmv with ⟨hl', -⟩ | ⟨-, iv, iv', hmove⟩
  · exact absurd hl' (hr A hA)
  obtain ⟨nd, hnd, -, e⟩ := move_ok hmove
  have hk : ∀ r, (nd r : ℕ) % P.G.nx = i + cornerX r ∧ (nd r : ℕ) / P.G.nx = j + cornerY r := by
    intro r
    obtain ⟨k, hk, hcol, hrow⟩ := corner_index hcell.2.2.1 hcell.2.2.2 r
    have := hnd r
    unfold Particle.node at this
    rw [hn] at this
    have e5 : nd r = k := Except.ok.inj (this.symm.trans hk)
    rw [e5]; exact ⟨hcol, hrow⟩
  have hb6 : b = a6 := by rw [hw]; unfold wrapped; rw [hB.cyclic]; rfl
  have e6 : a6 = (moveClosed P.M_tol T.d.dt s3.G nd a5 iv).1 := congrArg Prod.fst e
  obtain ⟨⟨x1, x2⟩, ⟨y1, y2⟩, hi, hj⟩ := hcell
  have ex : ∀ i, nodeX P.G i = P.G.x_m + i * cellX P.G := fun _ => rfl
  have ey : ∀ i, nodeY P.G i = P.G.y_m + i * cellY P.G := fun _ => rfl
  have fx : nodeX P.G (i + 1) = nodeX P.G i + cellX P.G := nodeX_succ P.G i
  have fy : nodeY P.G (j + 1) = nodeY P.G j + cellY P.G := nodeY_succ P.G j
  have hw0 : ∀ r, 0 ≤ a5.N r := fun r => by
    rw [hN]
    exact (c02_unit_interval hcx hcy _ (by simp; constructor <;> linarith)
      (by simp; constructor <;> linarith) r).1
  have hw1 : ∑ r, a5.N r = 1 := by
    rw [hN]; exact shapeN_sum (mul_pos hcx hcy).ne' _
  have p1 : 0 < a5.N 0 + a5.N 3 := by
    have : a5.N 0 + a5.N 3 = (cellX P.G - (a.x 0 - nodeX P.G i)) / cellX P.G := by
      rw [hN]; simp [atCell, shapeN]; field_simp; ring
    rw [this]
    exact div_pos (by linarith) hcx
  have p2 : 0 < a5.N 0 + a5.N 1 := by
    have : a5.N 0 + a5.N 1 = (cellY P.G - (a.x 1 - nodeY P.G j)) / cellY P.G := by
      rw [hN]; simp [atCell, shapeN]; field_simp; ring
    rw [this]
    exact div_pos (by linarith) hcy
  have m1 : ∑ r, a5.N r * (P.G.x_m + ((i + cornerX r : ℕ) : K) * cellX P.G) = a.x 0 := by
    have : nodeX P.G i = P.G.x_m + i * cellX P.G := rfl
    rw [hN, Fin.sum_univ_four]; simp [atCell, shapeN, cornerX, this]; field_simp; ring
  have m2 : ∑ r, a5.N r * (P.G.y_m + ((j + cornerY r : ℕ) : K) * cellY P.G) = a.x 1 := by
    have : nodeY P.G j = P.G.y_m + j * cellY P.G := rfl
    rw [hN, Fin.sum_univ_four]; simp [atCell, shapeN, cornerY, this]; field_simp; ring
  have c1 : ∀ r, cornerX r ≤ 1 := by decide
  have c2 : ∀ r, cornerY r ≤ 1 := by decide
  have ux := fun r => node_stays (a := P.G.x_m) (n := P.G.nx) (c := i + cornerX r)
    (u := nodeDisp P.M_tol T.d.dt s3.G (nd r) 0) hcx (by have := c1 r; omega)
    (fun h => (n0 (nd r)).1 (Or.inl ((hk r).1.trans h)))
    (fun h => (n0 (nd r)).1 (Or.inr ((hk r).1.trans h))) (n0 (nd r)).2
  have uy := fun r => node_stays (a := P.G.y_m) (n := P.G.ny) (c := j + cornerY r)
    (u := nodeDisp P.M_tol T.d.dt s3.G (nd r) 1) hcy (by have := c2 r; omega)
    (fun h => (n1 (nd r)).1 (Or.inl ((hk r).2.trans h)))
    (fun h => (n1 (nd r)).1 (Or.inr ((hk r).2.trans h))) (n1 (nd r)).2
  have hX : P.G.x_m + ((P.G.nx : K) - 1) * cellX P.G = P.G.x_M := by
    have := cellX_mul hP; linarith
  have hY : P.G.y_m + ((P.G.ny : K) - 1) * cellY P.G = P.G.y_M := by
    have := cellY_mul hP; linarith
  rw [hX] at ux
  rw [hY] at uy
  have i1 : ((i + 1 : ℕ) : K) ≤ (P.G.nx : K) - 1 := by
    have : ((i + 1 + 1 : ℕ) : K) ≤ (P.G.nx : K) := by exact_mod_cast hi
    push_cast at this ⊢; linarith
  have j1 : ((j + 1 : ℕ) : K) ≤ (P.G.ny : K) - 1 := by
    have : ((j + 1 + 1 : ℕ) : K) ≤ (P.G.ny : K) := by exact_mod_cast hj
    push_cast at this ⊢; linarith
  have i2 := mul_le_mul_of_nonneg_right i1 hcx.le
  have j2 := mul_le_mul_of_nonneg_right j1 hcy.le
  push_cast at i2 j2
  have sx : ∀ r, cornerX r = 0 → P.G.x_m + ((i + cornerX r : ℕ) : K) * cellX P.G +
      nodeDisp P.M_tol T.d.dt s3.G (nd r) 0 < P.G.x_M := by
    intro r hr0
    have := (abs_lt.1 (n0 (nd r)).2).2
    rw [hr0, add_zero]
    linarith
  have sy : ∀ r, cornerY r = 0 → P.G.y_m + ((j + cornerY r : ℕ) : K) * cellY P.G +
      nodeDisp P.M_tol T.d.dt s3.G (nd r) 1 < P.G.y_M := by
    intro r hr0
    have := (abs_lt.1 (n1 (nd r)).2).2
    rw [hr0, add_zero]
    linarith
  have ox := mean_stays hw0 hw1 (fun r => (ux r).1) (fun r => (ux r).2) (by
    rcases (hw0 0).lt_or_eq with h0 | h0
    · exact ⟨0, h0, sx 0 rfl⟩
    · exact ⟨3, by linarith, sx 3 rfl⟩)
  have oy := mean_stays hw0 hw1 (fun r => (uy r).1) (fun r => (uy r).2) (by
    rcases (hw0 0).lt_or_eq with h0 | h0
    · exact ⟨0, h0, sy 0 rfl⟩
    · exact ⟨1, by linarith, sy 1 rfl⟩)
  rw [m1] at ox
  rw [m2] at oy
  have bx : ∀ c, b.x c = a.x c + ∑ r, a5.N r * nodeDisp P.M_tol T.d.dt s3.G (nd r) c := by
    intro c
    rw [hb6, e6]
    simp [moveClosed, Finset.sum_apply, dispInc_eq, hx5]
  unfold InDomain
  rw [bx, bx]
  exact ⟨ox, oy⟩

/-! ## Absence of exceptions -/

theorem mapPhi_exists {N nx : ℕ} {M_tol : K} {G : Grid K N ns} {mp : Particle K ns}
    (h : NodesOk nx N mp) : ∃ b, mp.mapPhi nx M_tol G = .ok b := by
  obtain ⟨nd, hnd⟩ := nodesOk_iff.1 h
  unfold Particle.mapPhi for4
  have key : ∀ (r : Fin 4) (a : Particle K ns), a.n_star = mp.n_star → ∃ b : Particle K ns, (do
      let n ← a.node nx N r
      if M_tol < G.m n then
        return { a with
          phi := fun j => a.phi j + a.N r * G.dphi n j
          pk := a.pk + a.N r * G.dpk n }
      else return a : Res (Particle K ns)) = .ok b ∧ b.n_star = mp.n_star := by
    intro r a ha
    have : a.node nx N r = .ok (nd r) := by
      have := hnd r
      unfold Particle.node at this ⊢
      rw [ha]; exact this
    rw [this, res_ok_bind]
    split
    · exact ⟨_, rfl, ha⟩
    · exact ⟨_, rfl, ha⟩
  obtain ⟨b0, h0, e0⟩ := key 0 mp rfl
  obtain ⟨b1, h1, e1⟩ := key 1 b0 e0
  obtain ⟨b2, h2, e2⟩ := key 2 b1 e1
  obtain ⟨b3, h3, e3⟩ := key 3 b2 e2
  exact ⟨b3, res_bind_ok.2 ⟨b0, h0, res_bind_ok.2 ⟨b1, h1, res_bind_ok.2 ⟨b2, h2, h3⟩⟩⟩⟩

theorem momentumPhase_runs {P : Par K} (hP : GoodGrid P.G) (interp : Interp K P.G.N)
    {s : St P} (hG : Geometry P.G s.G) (hp : Plain P s.L) :
    ∃ s', momentumPhase P interp s = .ok s' := by
  unfold momentumPhase Grid.BCs
  rw [hp.aniso]
  simp only [Bool.false_and, Bool.false_eq_true, if_false]
  rw [if_neg]
  · exact ⟨_, rfl⟩
  · have h1 := (cellX_pos hP).ne'
    have h2 := (cellY_pos hP).ne'
    rw [hG.dx, hG.dy]
    have h3 : P.B.vertical_force = true ∨ P.B.horizontal_force = true →
        (Option.map (·.rho) (mat0 s.L)).getD 0 ≠ 0 := by
      intro h
      obtain ⟨m, e, hm⟩ := hp.loaded h
      rw [e]; exact hm
    rintro (⟨a, b | b⟩ | ⟨a, b | b⟩)
    · exact h3 (Or.inl a) b
    · exact h2 b
    · exact h3 (Or.inr a) b
    · exact h1 b

theorem segregationPhase_runs {P : Par K} (interp : Interp K P.G.N) {s : St P} (hL : Counted s.L)
    (hp : P.segregate_grid = true → P.G.dx ≠ 0 ∧ P.G.dy ≠ 0 ∧ P.normalise_phi = false)
    (hn : ∀ mp ∈ points s.L, NodesOk P.G.nx P.G.N mp) :
    ∃ s', segregationPhase P interp s = .ok s' ∧ Counted s'.L ∧
      ∀ mp ∈ points s'.L, NodesOk P.G.nx P.G.N mp := by
  by_cases hs : P.segregate_grid = true
  · obtain ⟨h1, h2, h3⟩ := hp hs
    have : ∃ s', segregationPhase P interp s = .ok s' := by
      unfold segregationPhase
      rw [if_pos hs, if_neg (by tauto)]
      dsimp only
      have : ∀ G : Grid K P.G.N P.G.ns, ∃ L', moveGrainsize P G s.L = .ok L' := by
        intro G
        obtain ⟨L', h⟩ := mapPoints_exists (L := s.L)
          (f := fun _ _ mp => mp.mapPhi P.G.nx P.M_tol G) hL (fun p x hx =>
            mapPhi_exists (hn x.2 (by
              rw [← items_map_snd]; exact List.mem_map.2 ⟨x, hx, rfl⟩)))
        refine ⟨L', ?_⟩
        unfold moveGrainsize
        rw [h, h3]; rfl
      obtain ⟨L', h⟩ := this _
      rw [h]
      exact ⟨_, rfl⟩
    obtain ⟨s', h⟩ := this
    have hr := segregationPhase_rel hL h
    refine ⟨s', h, hr.counted hL, ?_⟩
    intro b hb
    obtain ⟨a, ha, ph, hab⟩ := forall₂_right hr.points hb
    have := hab.frame
    have e : b.n_star = a.n_star := by rw [this]
    have := hn a ha
    unfold NodesOk at this ⊢
    rw [e]; exact this
  · refine ⟨s, ?_, hL, hn⟩
    unfold segregationPhase
    rw [if_neg hs]

/-- A step of a plain configuration raises no exception. -/
theorem timeMarch_runs {P : Par K} {s : St P} (hP : GoodGrid P.G) (hG : Geometry P.G s.G)
    (hV : ∀ k, s.G.V k ≠ 0) (hL : Counted s.L) (hx : ∀ mp ∈ points s.L, InDomain P.G mp.x)
    (hp : Plain P s.L) (hl : ∀ A ∈ s.L, LawOk P.G.ns s.dyn.dt A.ph.law A.ph.par)
    (hi : P.B.inlet_right = false) (ht : P.B.inlet_top = false)
    (interp : Interp K P.G.N) : ∃ s', timeMarch P interp s = .ok s' := by
  obtain ⟨s1, h1⟩ := gridPhase_runs hP hG hL hx (fun h => by rw [hp.check] at h; cases h)
    (fun A hA _ _ mp => lawOk_runs (hl A hA) mp)
  obtain ⟨c1, n1⟩ := gridPhase_nodes hL h1
  have st : SameStatic s.G s1.G ∧ mat0 s1.L = mat0 s.L := by
    obtain ⟨T, rfl⟩ := gridPhase_ok h1
    exact ⟨T.static.2.2.2.1, (T.rel hL).1.mat0⟩
  obtain ⟨s2, h2⟩ := momentumPhase_runs hP interp (st.1.toSameTable.geometry hG)
    (s := s1) ⟨hp.check, hp.aniso, hp.spacing, by rw [st.2]; exact hp.loaded⟩
  obtain ⟨_, l2, t2, _⟩ := momentumPhase_table h2
  obtain ⟨s3, h3, c3, n3⟩ := segregationPhase_runs interp (s := s2) (by rw [l2]; exact c1)
    hp.spacing (by rw [l2]; exact n1)
  obtain ⟨-, t3, -⟩ := segregationPhase_frame h3
  obtain ⟨s4, h4⟩ := pointsPhase_exists hi ht (s := s3) (by
    rw [t3.V, t2.V, st.1.V]; exact hV) c3 n3
  refine ⟨s4, ?_⟩
  unfold timeMarch
  exact res_bind_ok.2 ⟨s1, h1, res_bind_ok.2 ⟨s2, h2, res_bind_ok.2 ⟨s3, h3, h4⟩⟩⟩

/-- What stays true from step to step. -/
structure BoxInv (P : Par K) (G0 : Grid K P.G.N P.G.ns) (τ : K) (s : St P) : Prop where
  geo : Geometry P.G s.G
  V : ∀ k, s.G.V k ≠ 0
  v : ∀ k, G0.boundary_v k = true → s.G.boundary_v k = true
  h : ∀ k, G0.boundary_h k = true → s.G.boundary_h k = true
  dt : s.dyn.dt = τ
  counted : Counted s.L
  plain : Plain P s.L
  laws : ∀ A ∈ s.L, LawOk P.G.ns τ A.ph.law A.ph.par ∧ A.ph.law ≠ .rigid
  dom : ∀ mp ∈ points s.L, InDomain P.G mp.x

theorem BoxInv.step {P : Par K} (hP : GoodGrid P.G) (hB : Walls P.B) {interp : Interp K P.G.N}
    {G0 : Grid K P.G.N P.G.ns} (hG0 : mkGrid P.G P.B = .ok G0) {dt : K} (hdt : 0 ≤ dt)
    {s : St P} (hs : BoxInv P G0 dt s)
    (hC : ∀ s', timeMarch P interp s = .ok s' → Courant P dt s'.G) :
    ∃ s', timeMarch P interp s = .ok s' ∧ BoxInv P G0 dt (stepTime P s') := by
  obtain ⟨s', h⟩ := timeMarch_runs hP hs.geo hs.V hs.counted hs.dom hs.plain
    (by rw [hs.dt]; exact fun A hA => (hs.laws A hA).1) hB.inlet_right hB.inlet_top interp
  refine ⟨s', h, ?_⟩
  obtain ⟨t, th, tv, td⟩ := timeMarch_table h
  obtain ⟨T, s1, s2, s3, k1, e1, k2, k3, k4, eG, hR⟩ := timeMarch_points hs.counted h
  have hph : List.Forall₂ (fun A B : PhaseSt K P.G.ns => SamePhase A.ph B.ph) s.L s'.L :=
    hR.forall₂ fun p A B h => h.1
  have m0 : mat0 s'.L = mat0 s.L := by
    revert hph
    generalize s.L = l, s'.L = l'
    intro hph
    cases hph with
    | nil => rfl
    | cons h _ =>
      unfold SamePhase at h
      unfold mat0
      simp only [Option.some.injEq]
      rw [h]
  constructor
  · exact t.geometry hs.geo
  · show ∀ k, s'.G.V k ≠ 0
    rw [t.V]; exact hs.V
  · intro k hk
    show s'.G.boundary_v k = true
    rw [tv]; exact wallMarks_mono (hs.v k hk)
  · intro k hk
    show s'.G.boundary_h k = true
    rw [th]; exact wallMarks_mono (hs.h k hk)
  · show s'.dyn.dt = dt
    rw [td]; exact hs.dt
  · have := timeMarch_counted hs.counted h
    exact this
  · exact ⟨hs.plain.check, hs.plain.aniso, hs.plain.spacing, by
      show _ → ∃ m, mat0 s'.L = some m ∧ _
      rw [m0]; exact hs.plain.loaded⟩
  · intro B hB'
    obtain ⟨A, hA, e⟩ := forall₂_right hph hB'
    have := hs.laws A hA
    rw [e]; exact this
  · have := c70_step hP hB hG0 hs.geo hs.v hs.h (by rw [hs.dt]; exact hdt) hs.counted
      (fun A hA => (hs.laws A hA).2) hs.dom h (by rw [hs.dt]; exact hC s' h)
    exact this

/-- A run in a closed box: as long as the Courant condition held in the steps made so far, no step
raises an exception and no point leaves the domain. -/
theorem c70_run {P : Par K} (hP : GoodGrid P.G) (hth : 0 < P.G.thickness) (hB : Walls P.B)
    {interp : Interp K P.G.N} {s : St P} (hG : mkGrid P.G P.B = .ok s.G)
    (hdt : 0 ≤ s.dyn.dt) (hL : Counted s.L) (hp : Plain P s.L)
    (hl : ∀ A ∈ s.L, LawOk P.G.ns s.dyn.dt A.ph.law A.ph.par ∧ A.ph.law ≠ .rigid)
    (hx : ∀ mp ∈ points s.L, InDomain P.G mp.x) (n : ℕ)
    (hC : ∀ m < n, ∀ s', steps P interp (m + 1) s = .ok s' → Courant P s.dyn.dt s'.G) :
    ∃ s', steps P interp n s = .ok s' ∧ Counted s'.L ∧ ∀ mp ∈ points s'.L, InDomain P.G mp.x := by
  have key : ∀ (n : ℕ) (u : St P), BoxInv P s.G s.dyn.dt u →
      (∀ m < n, ∀ s', steps P interp (m + 1) u = .ok s' → Courant P s.dyn.dt s'.G) →
      ∃ s', steps P interp n u = .ok s' ∧ Counted s'.L ∧ ∀ mp ∈ points s'.L, InDomain P.G mp.x := by
    intro n
    induction n with
    | zero => exact fun u hu _ => ⟨u, rfl, hu.counted, hu.dom⟩
    | succ n ih =>
      intro u hu hC
      obtain ⟨u1, h1, i1⟩ := hu.step (interp := interp) hP hB hG hdt (fun u' h' =>
        hC 0 (Nat.succ_pos n) (stepTime P u') (steps_succ.2 ⟨u', h', rfl⟩))
      obtain ⟨s', h2, h3⟩ := ih (stepTime P u1) i1 (fun m hm s' h' =>
        hC (m + 1) (Nat.succ_lt_succ hm) s' (steps_succ.2 ⟨u1, h1, h'⟩))
      exact ⟨s', steps_succ.2 ⟨u1, h1, h2⟩, h3⟩
  exact key n s ⟨mkGrid_geometry hG, fun k => (c23_positive hP hth hG k).ne', fun _ h => h,
    fun _ h => h, rfl, hL, hp, hl, hx⟩ hC

end
end Mpm

/-! ## The hypotheses can be met, and the Courant condition matters -/

namespace Mpm
open Spec

namespace Ex

def boxBP : BP ℚ := { bp with has_left := true, has_right := true, has_bottom := true, has_top := true }
def boxPar : Par ℚ := { par with B := boxBP }

theorem boxWalls : Walls boxPar.B := ⟨rfl, rfl, rfl, rfl, rfl, rfl, rfl, rfl⟩

/-- The Courant condition, as a computation. -/
def courantB (dt : ℚ) (s : St boxPar) : Bool :=
  decide (∀ k : Fin boxPar.G.N, 0 < s.G.m k → dt * |s.G.q k 0 / s.G.m k| < 1 ∧
    dt * |s.G.q k 1 / s.G.m k| < 1)

theorem boxStep : run boxPar dyn L 1 (courantB (1 / 100)) = true := by decide +kernel

end Ex

example : ∃ s : St Ex.boxPar, GoodGrid Ex.boxPar.G ∧ 0 < Ex.boxPar.G.thickness ∧
    Walls Ex.boxPar.B ∧ mkGrid Ex.boxPar.G Ex.boxPar.B = .ok s.G ∧ 0 ≤ s.dyn.dt ∧ Counted s.L ∧
    Plain Ex.boxPar s.L ∧
    (∀ A ∈ s.L, LawOk Ex.boxPar.G.ns s.dyn.dt A.ph.law A.ph.par ∧ A.ph.law ≠ .rigid) ∧
    (∀ mp ∈ points s.L, InDomain Ex.boxPar.G mp.x) ∧ points s.L ≠ [] ∧
    (∀ m < 1, ∀ s', steps Ex.boxPar (Ex.noInterp Ex.boxPar) (m + 1) s = .ok s' →
      Courant Ex.boxPar s.dyn.dt s'.G) := by
  obtain ⟨G, s', hG, hs, hc⟩ := Ex.run_ok Ex.boxStep
  refine ⟨⟨Ex.dyn, Ex.L, G⟩, Ex.good, by decide +kernel, Ex.boxWalls, hG,
    (by decide +kernel : (0 : ℚ) ≤ 1 / 100), Ex.countedL, ⟨rfl, rfl, ?_, ?_⟩, ?_, Ex.inDomainL,
    (by simp [points, Ex.L] : points Ex.L ≠ []), ?_⟩
  · intro h; cases h
  · rintro (h | h) <;> cases h
  · intro A hA
    have : A = { ph := Ex.ph, pts := [Ex.mp, Ex.mp2] } := List.mem_singleton.1 hA
    rw [this]
    exact ⟨trivial, by decide⟩
  · intro m hm u hu
    obtain rfl : m = 0 := by omega
    obtain rfl : u = s' := Except.ok.inj (hu.symm.trans hs)
    unfold Ex.courantB at hc
    have e1 : cellX Ex.boxPar.G = 1 := by decide +kernel
    have e2 : cellY Ex.boxPar.G = 1 := by decide +kernel
    unfold Courant
    rw [e1, e2]
    exact of_decide_eq_true hc

/-- Without the Courant condition the walls do not hold: with four walls, one time step of length
1 carries a point of the example out of the domain. -/
theorem c70_fast_escapes : ∃ s s' : St Ex.boxPar, Walls Ex.boxPar.B ∧
    mkGrid Ex.boxPar.G Ex.boxPar.B = .ok s.G ∧ Counted s.L ∧
    (∀ mp ∈ points s.L, InDomain Ex.boxPar.G mp.x) ∧
    timeMarch Ex.boxPar (Ex.noInterp Ex.boxPar) s = .ok s' ∧
    ∃ mp ∈ points s'.L, ¬ InDomain Ex.boxPar.G mp.x := by
  obtain ⟨G, s', hG, hs, hc⟩ := Ex.run_one (P := Ex.boxPar) (d := { Ex.dyn with dt := 1 })
    (L := Ex.L) (check := fun s => (points s.L).any fun mp =>
      !decide ((0 ≤ mp.x 0 ∧ mp.x 0 < 2) ∧ (0 ≤ mp.x 1 ∧ mp.x 1 < 2))) (by decide +kernel)
  refine ⟨⟨{ Ex.dyn with dt := 1 }, Ex.L, G⟩, s', Ex.boxWalls, hG, Ex.countedL, Ex.inDomainL, hs, ?_⟩
  obtain ⟨mp, hmp, h⟩ := List.any_eq_true.1 hc
  refine ⟨mp, hmp, ?_⟩
  show ¬ ((0 ≤ mp.x 0 ∧ mp.x 0 < 2) ∧ (0 ≤ mp.x 1 ∧ mp.x 1 < 2))
  simp only [Bool.not_eq_true', decide_eq_false_iff_not] at h
  exact h

end Mpm

import Verif.Props.Silo
import Verif.Examples

/-!
# C61: internal obstacles (`wall`, `two_walls`, `silo_left`, `box`)
-/

set_option linter.unusedSectionVars false

namespace Mpm
open Spec

section
variable {nx ny : ℕ}

theorem inSlice_both (N a b step i : ℕ) :
    inSlice N (some (a : ℤ)) (some (b : ℤ)) step i = true ↔
      min a N ≤ i ∧ i < min b N ∧ (i - min a N) % step = 0 := by
  simp [inSlice, sliceBound_nat, and_assoc]

/-- The slice `a[r*nx+c::nx]` is column `c` from row `r` upwards. -/
theorem column_from {r c : ℕ} (hc : c < nx) (k : Fin (ny * nx)) :
    (min (r * nx + c) (ny * nx) ≤ (k : ℕ) ∧ ((k : ℕ) - min (r * nx + c) (ny * nx)) % nx = 0) ↔
      (k : ℕ) % nx = c ∧ r ≤ (k : ℕ) / nx := by
  have hk := k.isLt
  have he := node_eq k
  have hcl := node_col_lt k
  have hrl := node_row_lt k
  have hnx := nx_pos_of_node k
  have mono : ∀ {a b : ℕ}, a < b → a * nx + nx ≤ b * nx := fun {a b} h => by
    have := Nat.mul_le_mul_right nx (Nat.succ_le_of_lt h)
    rwa [Nat.succ_mul] at this
  constructor
  · rintro ⟨h1, h2⟩
    have hmin : min (r * nx + c) (ny * nx) = r * nx + c := by omega
    rw [hmin] at h1 h2
    obtain ⟨d, hd⟩ := Nat.dvd_of_mod_eq_zero h2
    have e : (k : ℕ) = c + nx * (r + d) := by rw [Nat.mul_add, Nat.mul_comm nx r]; omega
    rw [e, Nat.add_mul_mod_self_left, Nat.mod_eq_of_lt hc, Nat.add_mul_div_left _ _ hnx,
      Nat.div_eq_of_lt hc]
    omega
  · rintro ⟨h1, h2⟩
    have hle : r * nx ≤ (k : ℕ) / nx * nx := Nat.mul_le_mul_right _ h2
    have hmin : min (r * nx + c) (ny * nx) = r * nx + c := by
      have := mono hrl
      omega
    rw [hmin]
    refine ⟨by omega, ?_⟩
    have e : (k : ℕ) - (r * nx + c) = ((k : ℕ) / nx - r) * nx := by
      rw [Nat.sub_mul]; omega
    rw [e, Nat.mul_mod_left]

theorem column_slice {r c b : ℕ} (hc : c < nx) (k : Fin (ny * nx)) :
    inSlice (ny * nx) (some ((r * nx + c : ℕ) : ℤ)) (some (b : ℤ)) nx k = true ↔
      (k : ℕ) % nx = c ∧ r ≤ (k : ℕ) / nx ∧ (k : ℕ) < min b (ny * nx) := by
  rw [inSlice_both, ← and_assoc, and_right_comm, column_from hc, and_assoc]

theorem column_open {r c : ℕ} (hc : c < nx) (k : Fin (ny * nx)) :
    inSlice (ny * nx) (some ((r * nx + c : ℕ) : ℤ)) none nx k = true ↔
      (k : ℕ) % nx = c ∧ r ≤ (k : ℕ) / nx := by
  have hk := k.isLt
  rw [inSlice_lo, ← and_assoc, and_right_comm, column_from hc]
  exact ⟨fun h => h.1, fun h => ⟨h, hk⟩⟩

theorem row_lt_iff (k : Fin (ny * nx)) (h : ℕ) :
    ((k : ℕ) / nx < h → (k : ℕ) / nx * nx + nx ≤ h * nx) ∧
    (h ≤ (k : ℕ) / nx → h * nx ≤ (k : ℕ) / nx * nx) := by
  constructor
  · intro hl
    have := Nat.mul_le_mul_right nx (Nat.succ_le_of_lt hl)
    rwa [Nat.succ_mul] at this
  · exact fun hl => Nat.mul_le_mul_right _ hl

variable {K : Type} [Field K] [LinearOrder K] [IsStrictOrderedRing K] [FloorRing K] {ns N : ℕ}

/-- The horizontal restraints that are not internal obstacles are all off. -/
structure Spec.NoSides (B : BP K) : Prop where
  has_left : B.has_left = false
  has_right : B.has_right = false
  no_slip_bottom : B.no_slip_bottom = false

/-- `wall`: horizontal motion is restrained exactly on the lower half of the middle column. -/
theorem c61_wall {P : GP K} {B : BP K} (hB : NoSides B) (hw : B.wall = true)
    (h2 : B.two_walls = false) (hs : B.silo_left = false) (hb : B.box = false)
    {G : Grid K P.N P.ns} (h : mkGrid P B = .ok G) (k : Fin P.N) :
    G.boundary_v k = true ↔ (k : ℕ) % P.nx = (P.nx - 1) / 2 ∧ (k : ℕ) / P.nx < P.ny / 2 := by
  obtain ⟨-, ev, -, hnx, hny, -⟩ := mkGrid_masks h
  have hk := k.isLt
  have he := node_eq k
  have hN : P.ny * P.nx = P.ny / 2 * P.nx + P.ny / 2 * P.nx + P.ny % 2 * P.nx := by
    rw [← Nat.add_mul, ← Nat.add_mul]; congr 1; omega
  obtain ⟨r1, r2⟩ := row_lt_iff k (P.ny / 2)
  have e1 : ((P.nx : ℤ) - 1) / 2 = ((0 * P.nx + (P.nx - 1) / 2 : ℕ) : ℤ) := by omega
  have e2 : ((P.ny : ℤ) * P.nx - 1) / 2 = (((P.ny * P.nx - 1) / 2 : ℕ) : ℤ) := by
    rw [← Nat.cast_mul]
    have : 0 < P.ny * P.nx := by positivity
    omega
  rw [ev]
  simp only [boundaryV, markIf_iff, hB.has_left, hB.has_right, hB.no_slip_bottom, hw, h2, hs, hb,
    Bool.false_eq_true, false_and, false_or, or_false, true_and, e1, e2]
  rw [column_slice (by omega : (P.nx - 1) / 2 < P.nx) k]
  simp only [Nat.zero_le, true_and]
  refine and_congr_right fun hc => ?_
  have hd : P.ny % 2 = 0 ∨ P.ny % 2 = 1 := by omega
  have hp : P.ny / 2 * P.nx ≥ P.nx := Nat.le_mul_of_pos_left _ (by omega)
  rw [hc] at he
  generalize (k : ℕ) / P.nx * P.nx = J at *
  generalize P.ny / 2 * P.nx = H at *
  by_cases hj : (k : ℕ) / P.nx < P.ny / 2
  · have := r1 hj
    simp only [hj, iff_true]
    rcases hd with hd | hd <;> simp only [hd] at hN <;> omega
  · have := r2 (by omega)
    simp only [hj, iff_false]
    rcases hd with hd | hd <;> simp only [hd] at hN <;> omega

/-- `two_walls`: horizontal motion is restrained exactly on the lower half of the column at one
quarter (including the middle row) and on the upper half of the column at three quarters. -/
theorem c61_two_walls {P : GP K} (h3 : 3 ≤ P.nx) {B : BP K} (hB : NoSides B)
    (hw : B.wall = false)
    (h2 : B.two_walls = true) (hs : B.silo_left = false) (hb : B.box = false)
    {G : Grid K P.N P.ns} (h : mkGrid P B = .ok G) (k : Fin P.N) :
    G.boundary_v k = true ↔
      ((k : ℕ) % P.nx = (P.nx - 1) / 4 ∧ (k : ℕ) / P.nx < (P.ny + 1) / 2) ∨
      ((k : ℕ) % P.nx = 3 * (P.nx - 1) / 4 ∧ P.ny / 2 ≤ (k : ℕ) / P.nx) := by
  obtain ⟨-, ev, -, hnx, hny, -⟩ := mkGrid_masks h
  have hk := k.isLt
  have he := node_eq k
  have hN : P.ny * P.nx = P.ny / 2 * P.nx + P.ny / 2 * P.nx + P.ny % 2 * P.nx := by
    rw [← Nat.add_mul, ← Nat.add_mul]; congr 1; omega
  obtain ⟨r1, r2⟩ := row_lt_iff k ((P.ny + 1) / 2)
  have hH : (P.ny + 1) / 2 * P.nx = P.ny / 2 * P.nx + P.ny % 2 * P.nx := by
    rw [← Nat.add_mul]; congr 1; omega
  have e1 : ((P.nx : ℤ) - 1) / 4 = ((0 * P.nx + (P.nx - 1) / 4 : ℕ) : ℤ) := by omega
  have e2 : ((P.ny : ℤ) * P.nx - 1) / 2 = (((P.ny * P.nx - 1) / 2 : ℕ) : ℤ) := by
    rw [← Nat.cast_mul]
    have : 0 < P.ny * P.nx := by positivity
    omega
  have e3 : (P.ny : ℤ) / 2 * P.nx + 3 * ((P.nx : ℤ) - 1) / 4 =
      ((P.ny / 2 * P.nx + 3 * (P.nx - 1) / 4 : ℕ) : ℤ) := by
    push_cast
    congr 2
    omega
  rw [ev]
  simp only [boundaryV, markIf_iff, hB.has_left, hB.has_right, hB.no_slip_bottom, hw, h2, hs, hb,
    Bool.false_eq_true, false_and, false_or, or_false, true_and, e1, e2, e3]
  rw [column_slice (by omega : (P.nx - 1) / 4 < P.nx) k,
    column_open (by omega : 3 * (P.nx - 1) / 4 < P.nx) k, or_comm]
  simp only [Nat.zero_le, true_and]
  refine or_congr (and_congr_right fun hc => ?_) Iff.rfl
  have hd : P.ny % 2 = 0 ∨ P.ny % 2 = 1 := by omega
  have hp : P.ny / 2 * P.nx ≥ P.nx := Nat.le_mul_of_pos_left _ (by omega)
  rw [hc] at he
  generalize (k : ℕ) / P.nx * P.nx = J at *
  generalize P.ny / 2 * P.nx = H at *
  generalize (P.ny + 1) / 2 * P.nx = H' at *
  by_cases hj : (k : ℕ) / P.nx < (P.ny + 1) / 2
  · have := r1 hj
    simp only [hj, iff_true]
    rcases hd with hd | hd <;> simp only [hd] at hN hH <;> omega
  · have := r2 (by omega)
    simp only [hj, iff_false]
    rcases hd with hd | hd <;> simp only [hd] at hN hH <;> omega

/-- `silo_left`: on grids with at least 6 rows and 3 columns the wall is the second column, with an
opening of six rows around the middle. -/
theorem c61_silo_left {P : GP K} (h3 : 3 ≤ P.nx) (h6 : 6 ≤ P.ny) {B : BP K} (hB : NoSides B)
    (hw : B.wall = false)
    (h2 : B.two_walls = false) (hs : B.silo_left = true) (hb : B.box = false)
    {G : Grid K P.N P.ns} (h : mkGrid P B = .ok G) (k : Fin P.N) :
    G.boundary_v k = true ↔ (k : ℕ) % P.nx = 1 ∧
      ((k : ℕ) / P.nx < P.ny / 2 - 3 ∨ P.ny / 2 + 3 ≤ (k : ℕ) / P.nx) := by
  obtain ⟨-, ev, -, hnx, hny, -⟩ := mkGrid_masks h
  have hk := k.isLt
  have he := node_eq k
  obtain ⟨r1, r2⟩ := row_lt_iff k (P.ny / 2 - 3)
  have hle : (P.ny / 2 - 3) * P.nx ≤ P.ny * P.nx := Nat.mul_le_mul_right _ (by omega)
  have e1 : (1 : ℤ) = ((0 * P.nx + 1 : ℕ) : ℤ) := by simp
  have e2 : ((P.ny : ℤ) / 2 - 3) * P.nx = (((P.ny / 2 - 3) * P.nx : ℕ) : ℤ) := by
    push_cast
    congr 1
    omega
  have e3 : ((P.ny : ℤ) / 2 + 3) * P.nx + 1 = (((P.ny / 2 + 3) * P.nx + 1 : ℕ) : ℤ) := by
    push_cast; rfl
  have hneg : ∀ a i : ℕ, inSlice (P.ny * P.nx) (some (a : ℤ)) (some (-1)) P.nx i = true ↔
      min a (P.ny * P.nx) ≤ i ∧ i < P.ny * P.nx - 1 ∧
        (i - min a (P.ny * P.nx)) % P.nx = 0 := by
    intro a i
    have : sliceBound (P.ny * P.nx) (-1) = P.ny * P.nx - 1 := by
      unfold sliceBound
      rw [if_pos (by omega)]
      omega
    simp [inSlice, sliceBound_nat, this, and_assoc]
  rw [ev]
  simp only [boundaryV, markIf_iff, hB.has_left, hB.has_right, hB.no_slip_bottom, hw, h2, hs, hb,
    Bool.false_eq_true, false_and, false_or, or_false, true_and]
  rw [e3, hneg, e2, show (some (1 : ℤ)) = some ((0 * P.nx + 1 : ℕ) : ℤ) by rw [← e1],
    column_slice (by omega : 1 < P.nx) k, ← and_assoc, and_right_comm,
    column_from (by omega : 1 < P.nx) k]
  simp only [Nat.zero_le, true_and]
  rw [Nat.min_eq_left hle]
  have hlast : (k : ℕ) % P.nx = 1 → (k : ℕ) < P.ny * P.nx - 1 := by
    intro h1
    have hr := node_row_lt k
    have := (row_lt_iff k P.ny).1 hr
    omega
  have hiff : (k : ℕ) % P.nx = 1 →
      ((k : ℕ) < (P.ny / 2 - 3) * P.nx ↔ (k : ℕ) / P.nx < P.ny / 2 - 3) := by
    intro h1
    by_cases hj : (k : ℕ) / P.nx < P.ny / 2 - 3
    · have := r1 hj
      simp only [hj, iff_true]; omega
    · have := r2 (by omega)
      simp only [hj, iff_false]; omega
  constructor
  · rintro (⟨⟨a, b⟩, _⟩ | ⟨a, b⟩)
    · exact ⟨a, Or.inr b⟩
    · exact ⟨a, Or.inl ((hiff a).1 b)⟩
  · rintro ⟨a, b | b⟩
    · exact Or.inr ⟨a, (hiff a).2 b⟩
    · exact Or.inl ⟨⟨a, b⟩, hlast a⟩

/-- `box` on a square grid of at least 9 by 9 nodes: the restrained nodes are the sides of the
square with corners (4,4) and (8,8): left and right sides stop horizontal motion, bottom and top
stop vertical motion. -/
theorem c61_box {P : GP K} (hsq : P.nx = P.ny) (h9 : 9 ≤ P.nx) {B : BP K} (hB : NoSides B)
    (hw : B.wall = false) (h2 : B.two_walls = false) (hs : B.silo_left = false)
    (hb : B.box = true) (t1 : B.has_bottom = false) (t2 : B.has_top = false)
    (t3 : B.silo_bottom = false) {G : Grid K P.N P.ns} (h : mkGrid P B = .ok G) (k : Fin P.N) :
    (G.boundary_v k = true ↔ ((k : ℕ) % P.nx = 4 ∨ (k : ℕ) % P.nx = 8) ∧
      4 ≤ (k : ℕ) / P.nx ∧ (k : ℕ) / P.nx ≤ 8) ∧
    (G.boundary_h k = true ↔ ((k : ℕ) / P.nx = 4 ∨ (k : ℕ) / P.nx = 8) ∧
      4 ≤ (k : ℕ) % P.nx ∧ (k : ℕ) % P.nx ≤ 8) := by
  obtain ⟨eh, ev, -, hnx, hny, -⟩ := mkGrid_masks h
  have hk := k.isLt
  have he := node_eq k
  have hc := node_col_lt k
  have hN : 9 * P.nx ≤ P.ny * P.nx := Nat.mul_le_mul_right _ (by omega)
  have e1 : 4 * (P.ny : ℤ) + 4 = ((4 * P.nx + 4 : ℕ) : ℤ) := by rw [hsq]; push_cast; rfl
  have e2 : 4 * (P.ny : ℤ) + 8 = ((4 * P.nx + 8 : ℕ) : ℤ) := by rw [hsq]; push_cast; rfl
  have e3 : 8 * ((P.ny : ℤ) + 1) = ((8 * P.nx + 8 : ℕ) : ℤ) := by rw [hsq]; push_cast; ring
  have e4 : 8 * ((P.ny : ℤ) + 2) = ((8 * P.nx + 16 : ℕ) : ℤ) := by rw [hsq]; push_cast; ring
  have e5 : 8 * (P.ny : ℤ) + 4 = ((8 * P.nx + 4 : ℕ) : ℤ) := by rw [hsq]; push_cast; rfl
  have e6 : 8 * (P.ny : ℤ) + 8 + 1 = ((8 * P.nx + 9 : ℕ) : ℤ) := by rw [hsq]; push_cast; ring
  have e7 : 4 * (P.ny : ℤ) + 8 + 1 = ((4 * P.nx + 9 : ℕ) : ℤ) := by rw [hsq]; push_cast; ring
  obtain ⟨r4, r4'⟩ := row_lt_iff k 4
  obtain ⟨r5, r5'⟩ := row_lt_iff k 5
  obtain ⟨r8, r8'⟩ := row_lt_iff k 8
  obtain ⟨r9, r9'⟩ := row_lt_iff k 9
  constructor
  · rw [ev]
    simp only [boundaryV, markIf_iff, hB.has_left, hB.has_right, hB.no_slip_bottom, hw, h2, hs,
      hb, Bool.false_eq_true, false_and, false_or, or_false, true_and]
    rw [e2, e4, e1, e3, column_slice (by omega : 8 < P.nx) k,
      column_slice (by omega : 4 < P.nx) k]
    generalize (k : ℕ) / P.nx * P.nx = J at *
    generalize (k : ℕ) % P.nx = c at *
    generalize (k : ℕ) / P.nx = r at *
    have hk' : (k : ℕ) < P.ny * P.nx := hk
    generalize (k : ℕ) = kk at hk' he ⊢
    generalize P.ny * P.nx = M at hN hk' ⊢
    omega
  · rw [eh]
    simp only [boundaryH, markIf_iff, t1, t2, t3, hb, Bool.false_eq_true, false_and, false_or,
      or_false, true_and]
    rw [e5, e6, e7, e1, inSlice_both, inSlice_both]
    simp only [Nat.mod_one, and_true]
    generalize (k : ℕ) / P.nx * P.nx = J at *
    generalize (k : ℕ) % P.nx = c at *
    generalize (k : ℕ) / P.nx = r at *
    have hk' : (k : ℕ) < P.ny * P.nx := hk
    generalize (k : ℕ) = kk at hk' he ⊢
    generalize P.ny * P.nx = M at hN hk' ⊢
    omega

/-! ### Examples and the non-square box -/

section
open Ex

/-- 9 by 9 nodes. -/
def Ex.gp9 : GP ℚ := { gp with nx := 9, ny := 9 }
/-- 10 columns, 9 rows. -/
def Ex.gp109 : GP ℚ := { gp with nx := 10, ny := 9 }

/-- The `wall` of a 9 by 9 grid is marked in row 3 and not in row 4. -/
example : ∃ G, mkGrid gp9 { bp with wall := true } = .ok G ∧
    G.boundary_v ⟨3 * 9 + 4, by decide⟩ = true ∧ G.boundary_v ⟨4 * 9 + 4, by decide⟩ = false := by
  refine ⟨_, rfl, ?_, ?_⟩ <;> decide +kernel

example : ∃ G, mkGrid gp9 { bp with two_walls := true } = .ok G ∧
    G.boundary_v ⟨4 * 9 + 2, by decide⟩ = true ∧ G.boundary_v ⟨4 * 9 + 6, by decide⟩ = true ∧
    G.boundary_v ⟨3 * 9 + 6, by decide⟩ = false := by
  refine ⟨_, rfl, ?_, ?_, ?_⟩ <;> decide +kernel

example : ∃ G, mkGrid gp9 { bp with silo_left := true } = .ok G ∧
    G.boundary_v ⟨0 * 9 + 1, by decide⟩ = true ∧ G.boundary_v ⟨1 * 9 + 1, by decide⟩ = false ∧
    G.boundary_v ⟨7 * 9 + 1, by decide⟩ = true := by
  refine ⟨_, rfl, ?_, ?_, ?_⟩ <;> decide +kernel

example : ∃ G, mkGrid gp9 { bp with box := true } = .ok G ∧
    G.boundary_v ⟨8 * 9 + 4, by decide⟩ = true ∧ G.boundary_h ⟨8 * 9 + 8, by decide⟩ = true ∧
    G.boundary_h ⟨5 * 9 + 5, by decide⟩ = false := by
  refine ⟨_, rfl, ?_, ?_, ?_⟩ <;> decide +kernel

/-- On a grid that is not square the box is misplaced: with 10 columns and 9 rows its bottom side
and left side start in column 0 of row 4, and nodes (5,4) of the bottom side and (8,5) of the right
side are open. -/
theorem c61_box_not_square : ∃ G, mkGrid gp109 { bp with box := true } = .ok G ∧
    G.boundary_h ⟨4 * 10 + 0, by decide⟩ = true ∧ G.boundary_v ⟨4 * 10 + 0, by decide⟩ = true ∧
    G.boundary_h ⟨4 * 10 + 5, by decide⟩ = false ∧ G.boundary_v ⟨5 * 10 + 8, by decide⟩ = false := by
  refine ⟨_, rfl, ?_, ?_, ?_, ?_⟩ <;> decide +kernel

end

end
end Mpm

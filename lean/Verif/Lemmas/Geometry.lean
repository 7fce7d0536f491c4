import Verif.Lemmas.Basic
import Verif.Spec
import Mathlib.Tactic.Positivity
import Mathlib.Tactic.FinCases
import Mathlib.Algebra.Order.Floor.Semiring

/-! Grid geometry: node tables, reference nodes, shape functions. -/

set_option linter.unusedSectionVars false

namespace Mpm
open Spec

theorem pyIdx_nonneg {n : ℕ} {i : ℕ} (h : i < n) : pyIdx n (i : ℤ) = .ok ⟨i, h⟩ := by
  unfold pyIdx
  rw [dif_pos ⟨by omega, by omega⟩]
  simp

theorem pyIdx_ok_iff {n : ℕ} {i : ℤ} {k : Fin n} :
    pyIdx n i = .ok k ↔ (i = (k : ℕ)) ∨ (i = (k : ℕ) - (n : ℤ)) := by
  unfold pyIdx
  have hk := k.isLt
  split
  · rename_i h
    rw [Except.ok.injEq, Fin.ext_iff]
    constructor
    · intro h'; left; simp at h'; omega
    · rintro (h' | h') <;> simp <;> omega
  · split
    · rename_i h1 h
      rw [Except.ok.injEq, Fin.ext_iff]
      constructor
      · intro h'; right; simp at h'; omega
      · rintro (h' | h') <;> simp <;> omega
    · rename_i h1 h2
      constructor
      · intro h; cases h
      · rintro (h' | h') <;> omega

theorem pyIdx_error {n : ℕ} {i : ℤ} (h : i < -(n : ℤ) ∨ (n : ℤ) ≤ i) :
    pyIdx n i = .error .index := by
  unfold pyIdx
  rw [dif_neg (by omega), dif_neg (by omega)]

theorem pyIdx_cases {n : ℕ} (i : ℤ) : (∃ k, pyIdx n i = .ok k) ∨ pyIdx n i = .error .index := by
  unfold pyIdx
  split
  · exact .inl ⟨_, rfl⟩
  · split
    · exact .inl ⟨_, rfl⟩
    · exact .inr rfl

section
variable {K : Type} [Field K] [LinearOrder K] [IsStrictOrderedRing K]

theorem gridDx_eq (P : GP K) : gridDx P = cellX P := by
  simp [gridDx, linspace, cellX]

theorem gridDy_eq (P : GP K) : gridDy P = cellY P := by
  simp [gridDy, linspace, cellY]

theorem gridX_eq (P : GP K) (n : Fin P.N) : gridX P n = nodeX P (n % P.nx) := rfl
theorem gridY_eq (P : GP K) (n : Fin P.N) : gridY P n = nodeY P (n / P.nx) := rfl

theorem natSub1_pos {n : ℕ} (h : 2 ≤ n) : (0 : K) < (n : K) - 1 := by
  have : (2 : K) ≤ n := by exact_mod_cast h
  linarith

theorem cellX_pos {P : GP K} (h : GoodGrid P) : 0 < cellX P :=
  div_pos (sub_pos.2 h.x) (natSub1_pos h.nx)

theorem cellY_pos {P : GP K} (h : GoodGrid P) : 0 < cellY P :=
  div_pos (sub_pos.2 h.y) (natSub1_pos h.ny)

theorem nodeX_succ (P : GP K) (i : ℕ) : nodeX P (i + 1) = nodeX P i + cellX P := by
  simp only [nodeX, cellX]; push_cast; ring

theorem nodeY_succ (P : GP K) (i : ℕ) : nodeY P (i + 1) = nodeY P i + cellY P := by
  simp only [nodeY, cellY]; push_cast; ring

theorem cellX_mul {P : GP K} (h : GoodGrid P) : cellX P * ((P.nx : K) - 1) = P.x_M - P.x_m :=
  div_mul_cancel₀ _ (natSub1_pos h.nx).ne'

theorem cellY_mul {P : GP K} (h : GoodGrid P) : cellY P * ((P.ny : K) - 1) = P.y_M - P.y_m :=
  div_mul_cancel₀ _ (natSub1_pos h.ny).ne'

variable [FloorRing K]

/-- One-dimensional cell search. -/
theorem trunc_cell {a b d x : K} {n : ℕ} (hd : 0 < d) (hdn : d * ((n : K) - 1) = b - a)
    (h1 : a ≤ x) (h2 : x < b) :
    ∃ i : ℕ, pyTrunc ((x - a) / d) = i ∧ i + 1 < n ∧ a + i * d ≤ x ∧ x < a + (i + 1) * d := by
  have h0 : 0 ≤ (x - a) / d := div_nonneg (sub_nonneg.2 h1) hd.le
  refine ⟨⌊(x - a) / d⌋.toNat, ?_, ?_, ?_, ?_⟩
  · unfold pyTrunc
    rw [if_pos h0, Int.toNat_of_nonneg (Int.floor_nonneg.2 h0)]
  all_goals
    have hf : ((⌊(x - a) / d⌋.toNat : ℕ) : K) = ((⌊(x - a) / d⌋ : ℤ) : K) := by
      rw [← Int.cast_natCast, Int.toNat_of_nonneg (Int.floor_nonneg.2 h0)]
  · have hlt : (x - a) / d < (n : K) - 1 := by
      rw [div_lt_iff₀ hd, mul_comm, hdn]; linarith
    have : ⌊(x - a) / d⌋ < (n : ℤ) - 1 := by
      rw [Int.floor_lt]; push_cast; exact hlt
    have := Int.floor_nonneg.2 h0
    omega
  · rw [hf]
    have := Int.floor_le ((x - a) / d)
    rw [le_div_iff₀ hd] at this
    linarith
  · rw [hf]
    have := Int.lt_floor_add_one ((x - a) / d)
    rw [div_lt_iff₀ hd] at this
    linarith

theorem inDomain_cell {P : GP K} (hP : GoodGrid P) {x : Vec K} (h : InDomain P x) :
    ∃ i j : ℕ, InCell P x i j ∧ pyTrunc ((x 0 - P.x_m) / cellX P) = i ∧
      pyTrunc ((x 1 - P.y_m) / cellY P) = j := by
  obtain ⟨i, hi, hi1, hi2, hi3⟩ :=
    trunc_cell (cellX_pos hP) (cellX_mul hP) h.1.1 h.1.2
  obtain ⟨j, hj, hj1, hj2, hj3⟩ :=
    trunc_cell (cellY_pos hP) (cellY_mul hP) h.2.1 h.2.2
  refine ⟨i, j, ⟨⟨hi2, ?_⟩, ⟨hj2, ?_⟩, hi1, hj1⟩, hi, hj⟩
  · have : nodeX P (i + 1) = P.x_m + ((i : K) + 1) * cellX P := by
      simp only [nodeX, cellX]; push_cast; ring
    rw [this]; exact hi3
  · have : nodeY P (j + 1) = P.y_m + ((j : K) + 1) * cellY P := by
      simp only [nodeY, cellY]; push_cast; ring
    rw [this]; exact hj3

end

section shape
variable {K : Type} [Field K]

theorem shapeN_sum {dx dy : K} (h : dx * dy ≠ 0) (x : Vec K) : ∑ r, shapeN dx dy x r = 1 := by
  have h1 : dx ≠ 0 := left_ne_zero_of_mul h
  have h2 : dy ≠ 0 := right_ne_zero_of_mul h
  rw [Fin.sum_univ_four]
  simp only [shapeN]
  field_simp
  ring

theorem shapeG_sum (dx dy : K) (x : Vec K) : ∑ r, shapeG dx dy x r = 0 := by
  rw [Fin.sum_univ_four]
  funext k
  fin_cases k <;> simp [shapeG] <;> ring

end shape
end Mpm

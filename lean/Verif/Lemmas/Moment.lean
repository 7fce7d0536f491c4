import Verif.Lemmas.Tilt

/-!
# First moments of the tent weights over regular lines of points
-/

set_option linter.unusedSectionVars false

namespace Mpm
open Spec

section
variable {K : Type} [Field K] [LinearOrder K] [IsStrictOrderedRing K]

theorem sum_square_pieces (p : ℕ) :
    ∑ r ∈ Finset.range p, ((r : K) + 1 / 2) ^ 2 = (p : K) ^ 3 / 3 - p / 12 := by
  induction p with
  | zero => simp
  | succ p ih => rw [Finset.sum_range_succ, ih]; push_cast; ring

/-- The first moment of one cell's points about a node. -/
theorem sum_moment_cell {a d : K} (hd : 0 < d) {p : ℕ} (hp : 0 < p) (i k : ℕ) :
    ∑ r ∈ Finset.range p, tent d (piece (a + i * d) (d / p) r - (a + k * d)) *
        (piece (a + i * d) (d / p) r - (a + k * d)) =
      (if k = i then 1 else if k = i + 1 then -1 else 0) * (d * ((p : K) / 6 + 1 / (12 * p))) := by
  have hp' : (0 : K) < p := by exact_mod_cast hp
  have key : ∀ r ∈ Finset.range p, tent d (piece (a + i * d) (d / p) r - (a + k * d)) *
      (piece (a + i * d) (d / p) r - (a + k * d)) =
      (if k = i then 1 else if k = i + 1 then -1 else 0) *
        (d * (((r : K) + 1 / 2) / p - ((r : K) + 1 / 2) ^ 2 / p ^ 2)) := by
    intro r hr
    have hr' : (r : K) + 1 ≤ p := by exact_mod_cast Finset.mem_range.1 hr
    have h0 : (0 : K) ≤ r := Nat.cast_nonneg r
    have hdp : 0 < d / p := div_pos hd hp'
    have h3 : ((r : K) + 1 / 2) * (d / p) < d := by
      calc ((r : K) + 1 / 2) * (d / p) < p * (d / p) :=
            mul_lt_mul_of_pos_right (by linarith) hdp
        _ = d := by field_simp
    have h4 : 0 ≤ ((r : K) + 1 / 2) * (d / p) := mul_nonneg (by linarith) hdp.le
    have e := tent_col (a := a) (y := piece (a + i * d) (d / p) r) hd (i := i)
      (by unfold piece; linarith) (by unfold piece; push_cast; linarith) k
    rw [e]
    unfold piece
    by_cases h1 : k = i
    · subst h1
      rw [if_pos rfl, if_pos rfl]
      field_simp
      ring
    · rw [if_neg h1, if_neg h1]
      by_cases h2 : k = i + 1
      · subst h2
        rw [if_pos rfl, if_pos rfl]
        push_cast
        field_simp
        ring
      · rw [if_neg h2, if_neg h2]
        ring
  rw [Finset.sum_congr rfl key, ← Finset.mul_sum, ← Finset.mul_sum, Finset.sum_sub_distrib,
    ← Finset.sum_div, ← Finset.sum_div, sum_pieces, sum_square_pieces]
  congr 2
  field_simp
  ring

/-- The cells of a line beside an inner node balance; the first moment about an end of the line is
that of one cell. -/
theorem sum_moment_line {a d : K} (hd : 0 < d) {p : ℕ} (hp : 0 < p) (i0 c k : ℕ) :
    ∑ r ∈ Finset.range (c * p), tent d (piece (a + i0 * d) (d / p) r - (a + k * d)) *
        (piece (a + i0 * d) (d / p) r - (a + k * d)) =
      ((if i0 ≤ k ∧ k < i0 + c then 1 else 0) - (if i0 < k ∧ k ≤ i0 + c then 1 else 0)) *
        (d * ((p : K) / 6 + 1 / (12 * p))) := by
  have hp' : (p : K) ≠ 0 := by exact_mod_cast hp.ne'
  induction c with
  | zero =>
    simp only [zero_mul, Finset.range_zero, Finset.sum_empty]
    rw [if_neg (by omega), if_neg (by omega)]
    ring
  | succ c ih =>
    rw [Nat.succ_mul, Finset.sum_range_add, ih]
    have e := sum_moment_cell (a := a) hd hp (i0 + c) k
    have e2 : ∀ r, piece (a + i0 * d) (d / p) (c * p + r) =
        piece (a + (i0 + c : ℕ) * d) (d / p) r := by
      intro r
      unfold piece
      push_cast
      field_simp
      ring
    simp only [e2]
    rw [e, ← add_mul]
    congr 1
    split_ifs <;> first | omega | ring

end
end Mpm

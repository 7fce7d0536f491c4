import Verif.Lemmas.XF
import Verif.Lemmas.Slices
import Mathlib.Algebra.BigOperators.Fin
import Mathlib.Algebra.BigOperators.Field

/-! `numpy.gradient` along one line of nodes. -/

set_option linter.unusedSectionVars false

namespace Mpm

section
variable {K : Type} [Field K] [LinearOrder K] [IsStrictOrderedRing K] {n : ℕ}

/-- The neighbours between which the difference quotient at `i` is taken. -/
def loOf (i : Fin n) : Fin n := ⟨i.val - 1, by omega⟩
def hiOf (i : Fin n) : Fin n := ⟨min (i.val + 1) (n - 1), by omega⟩

/-- The difference quotient for finite values. -/
def dq (h : K) (f : Fin n → K) (i : Fin n) : K :=
  (f (hiOf i) - f (loOf i)) / ((((hiOf i).val - (loOf i).val : ℕ) : K) * h)

theorem npGradient_eq (h : K) (f : Fin n → XF K) (i : Fin n) :
    npGradient h f i = (f (hiOf i) - f (loOf i)) / .fin ((((hiOf i).val - (loOf i).val : ℕ) : K) * h) :=
  rfl

theorem span_pos (hn : 2 ≤ n) (i : Fin n) : 0 < (hiOf i).val - (loOf i).val := by
  have := i.isLt
  simp only [hiOf, loOf]
  omega

theorem npGradient_fin (hn : 2 ≤ n) {h : K} (hh : h ≠ 0) {f : Fin n → XF K} {g : Fin n → K}
    (hf : ∀ i, f i = .fin (g i)) (i : Fin n) : npGradient h f i = .fin (dq h g i) := by
  rw [npGradient_eq, hf, hf, XF.fin_sub, XF.fin_div]
  · rfl
  · have := span_pos hn i
    exact mul_ne_zero (Nat.cast_ne_zero.2 this.ne') hh

theorem npGradient_nan {h : K} {f : Fin n → XF K} {i : Fin n}
    (hf : f (hiOf i) = .nan ∨ f (loOf i) = .nan) : npGradient h f i = .nan := by
  rw [npGradient_eq]
  rcases hf with hf | hf <;> rw [hf]
  · rw [XF.nan_sub, XF.nan_div]
  · rw [XF.sub_nan, XF.nan_div]

theorem dq_inner {h : K} {f : Fin n → K} {i : Fin n} (h0 : i.val ≠ 0) (h1 : i.val + 1 ≠ n) :
    dq h f i = (f ⟨i.val + 1, by have := i.isLt; omega⟩ - f ⟨i.val - 1, by have := i.isLt; omega⟩) /
      (2 * h) := by
  have hi := i.isLt
  have e1 : hiOf i = ⟨i.val + 1, by omega⟩ := by simp only [hiOf, Fin.mk.injEq]; omega
  have e2 : (hiOf i).val - (loOf i).val = 2 := by simp only [hiOf, loOf]; omega
  unfold dq
  rw [e2, e1]
  rfl

/-- Exact for linear data. -/
theorem dq_linear (hn : 2 ≤ n) {h : K} (hh : h ≠ 0) {f : Fin n → K} {a b : K}
    (hf : ∀ i : Fin n, f i = a + b * ((i : ℕ) * h)) (i : Fin n) : dq h f i = b := by
  have hp := span_pos hn i
  have hne : (((hiOf i).val - (loOf i).val : ℕ) : K) ≠ 0 := Nat.cast_ne_zero.2 hp.ne'
  have hle : (loOf i).val ≤ (hiOf i).val := by omega
  unfold dq
  rw [hf, hf, div_eq_iff (mul_ne_zero hne hh), Nat.cast_sub hle]
  ring

/-- Additive in the data. -/
theorem dq_sum {ι : Type} (s : Finset ι) (h : K) (f : ι → Fin n → K) (i : Fin n) :
    ∑ j ∈ s, dq h (f j) i = dq h (fun i => ∑ j ∈ s, f j i) i := by
  unfold dq
  rw [← Finset.sum_div, Finset.sum_sub_distrib]

theorem dq_const {h : K} {f : Fin n → K} {a : K} (hf : ∀ i, f i = a) (i : Fin n) :
    dq h f i = 0 := by
  unfold dq
  rw [hf, hf, sub_self, zero_div]

/-- Weight one half at both ends of a line. -/
def endHalf (n : ℕ) (i : ℕ) : K := if i = 0 ∨ i = n - 1 then 1 / 2 else 1

/-- With half weights at the ends the difference quotients telescope. -/
theorem sum_dq {m : ℕ} {h : K} (hh : h ≠ 0) (f : Fin (m + 2) → K) :
    ∑ i : Fin (m + 2), endHalf (m + 2) i * dq h f i = (f (Fin.last _) - f 0) / h := by
  have key : ∀ i : Fin (m + 2), endHalf (m + 2) i * dq h f i =
      (f (hiOf i) - f (loOf i)) / (2 * h) := by
    intro i
    have hi := i.isLt
    unfold endHalf
    by_cases h0 : i.val = 0
    · rw [if_pos (Or.inl h0)]
      have e2 : (hiOf i).val - (loOf i).val = 1 := by simp only [hiOf, loOf]; omega
      unfold dq
      rw [e2]
      field_simp
      simp
    · by_cases h1 : i.val = m + 1
      · rw [if_pos (Or.inr (by omega))]
        have e2 : (hiOf i).val - (loOf i).val = 1 := by simp only [hiOf, loOf]; omega
        unfold dq
        rw [e2]
        field_simp
        simp
      · rw [if_neg (by omega)]
        have e2 : (hiOf i).val - (loOf i).val = 2 := by simp only [hiOf, loOf]; omega
        unfold dq
        rw [e2, one_mul]
        rfl
  rw [Finset.sum_congr rfl fun i _ => key i, ← Finset.sum_div, Finset.sum_sub_distrib]
  have s1 : ∑ i : Fin (m + 2), f (hiOf i) = (∑ i : Fin (m + 1), f i.succ) + f (Fin.last _) := by
    rw [Fin.sum_univ_castSucc]
    congr 1
    · refine Finset.sum_congr rfl fun i _ => ?_
      congr 1
      apply Fin.ext
      have := i.isLt
      simp only [hiOf, Fin.val_castSucc, Fin.val_succ]
      omega
    · congr 1
      apply Fin.ext
      simp [hiOf]
  have s2 : ∑ i : Fin (m + 2), f (loOf i) = f 0 + ∑ i : Fin (m + 1), f i.castSucc := by
    rw [Fin.sum_univ_succ]
    congr 1
  have s3 : ∑ i : Fin (m + 2), f i = f 0 + ∑ i : Fin (m + 1), f i.succ := Fin.sum_univ_succ f
  have s4 : ∑ i : Fin (m + 2), f i = (∑ i : Fin (m + 1), f i.castSucc) + f (Fin.last _) :=
    Fin.sum_univ_castSucc f
  rw [s1, s2]
  have : (∑ i : Fin (m + 1), f i.succ) - ∑ i : Fin (m + 1), f i.castSucc = f (Fin.last _) - f 0 := by
    linarith
  field_simp
  linear_combination this

end
end Mpm

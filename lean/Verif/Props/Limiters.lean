import Verif.Model.NewIntegrator
import Verif.Spec
import Mathlib.Data.Rat.Floor
import Mathlib.Tactic.Linarith
import Mathlib.Tactic.LinearCombination
import Mathlib.Tactic.Ring
import Mathlib.Tactic.FieldSimp
import Mathlib.Tactic.Positivity
import Mathlib.Algebra.Order.Field.Basic
import Mathlib.Algebra.Order.AbsoluteValue.Basic

/-!
# C118: the limiters of new_integrator.py that are not in use
-/

set_option linter.unusedSectionVars false

namespace Mpm
open Spec

section
variable {K : Type} [Field K] [LinearOrder K] [IsStrictOrderedRing K]

/-! ## Specification -/

/-- A limiter of two difference quotients: a slope of linear data is found, and the result scales
with the data. -/
structure Spec.SlopeLimiter (f : K → K → K) : Prop where
  linear : ∀ a, f a a = a
  scale : ∀ k a b, f (k * a) (k * b) = k * f a b

/-- The smallest of three numbers of the same sign, `theta` being given to the outer ones. -/
def Spec.ThreeMinmod (a b c theta x : K) : Prop :=
  (0 < a → 0 < b → 0 < c → x ≤ theta * a ∧ x ≤ b ∧ x ≤ theta * c) ∧
  (a < 0 → b < 0 → c < 0 → theta * a ≤ x ∧ b ≤ x ∧ theta * c ≤ x)

/-! ## C118 -/

theorem div0_scale {k a b : K} (hk : k ≠ 0) : NI.div0 (k * a) (k * b) = NI.div0 a b := by
  unfold NI.div0
  by_cases hb : b = 0
  · simp [hb]
  · rw [if_neg (mul_ne_zero hk hb), if_neg hb, mul_div_mul_left _ _ hk]

/-- `minmod`, which is in use, is a limiter. -/
theorem c118_minmod : SlopeLimiter (minmod (K := K)) := by
  have hs : ∀ a : K, sgn a * |a| = a := by
    intro a
    unfold sgn
    rcases lt_trichotomy a 0 with h | h | h
    · simp [h, h.not_gt, abs_of_neg h]
    · simp [h]
    · simp [h, h.not_gt, abs_of_pos h]
  constructor
  · intro a
    unfold minmod
    rw [min_self]
    linear_combination hs a
  · intro k a b
    unfold minmod
    have e : ∀ a b : K, sgn (a * b) = sgn a * sgn b := by
      intro a b
      rcases lt_trichotomy a 0 with ha | ha | ha <;> rcases lt_trichotomy b 0 with hb | hb | hb
      · have := mul_pos_of_neg_of_neg ha hb
        unfold sgn; simp [ha, hb, ha.not_gt, hb.not_gt, this]
      · unfold sgn; simp [hb]
      · have := mul_neg_of_neg_of_pos ha hb
        unfold sgn; simp [ha, hb, ha.not_gt, this, this.not_gt]
      · unfold sgn; simp [ha]
      · unfold sgn; simp [ha]
      · unfold sgn; simp [ha]
      · have := mul_neg_of_pos_of_neg ha hb
        unfold sgn; simp [ha, hb, hb.not_gt, this, this.not_gt]
      · unfold sgn; simp [hb]
      · have := mul_pos ha hb
        unfold sgn; simp [ha, hb, this]
    rw [e, e, abs_mul, abs_mul, ← mul_min_of_nonneg _ _ (abs_nonneg k)]
    linear_combination (1 / 2 * (sgn a + sgn b) * min |a| |b|) * hs k

/-- `vanLeer` and `vanAlbada1` do not change when both differences are multiplied by a number:
they are limiters of a ratio, and nobody multiplies them by a slope. -/
theorem c118_scale {k a b : K} (hk : k ≠ 0) :
    NI.vanLeer (k * a) (k * b) = NI.vanLeer a b ∧
    NI.vanAlbada1 (k * a) (k * b) = NI.vanAlbada1 a b := by
  unfold NI.vanLeer NI.vanAlbada1
  rw [div0_scale hk]
  exact ⟨rfl, rfl⟩

/-- For linear data both give 1, whatever the slope, -/
theorem c118_linear {a : K} (ha : a ≠ 0) : NI.vanLeer a a = 1 ∧ NI.vanAlbada1 a a = 1 := by
  unfold NI.vanLeer NI.vanAlbada1 NI.div0
  rw [if_neg ha, div_self ha]
  norm_num

/-- so neither is a limiter of slopes, as `KT` would need. -/
theorem c118_not_slope : ¬ SlopeLimiter (NI.vanLeer (K := K)) ∧
    ¬ SlopeLimiter (NI.vanAlbada1 (K := K)) := by
  refine ⟨fun h => ?_, fun h => ?_⟩ <;> have h2 := h.linear 2
  · rw [(c118_linear two_ne_zero).1] at h2; norm_num at h2
  · rw [(c118_linear two_ne_zero).2] at h2; norm_num at h2

/-- `vanLeer` lies between 0 and 2 and vanishes unless the differences have the same sign. -/
theorem c118_vanLeer (a b : K) : 0 ≤ NI.vanLeer a b ∧ NI.vanLeer a b < 2 ∧
    (a * b ≤ 0 → NI.vanLeer a b = 0) := by
  unfold NI.vanLeer
  have h1 : 0 < 1 + |NI.div0 a b| := by positivity
  have h2 := neg_abs_le (NI.div0 a b)
  have h3 := le_abs_self (NI.div0 a b)
  refine ⟨div_nonneg (by linarith) h1.le, ?_, ?_⟩
  · rw [div_lt_iff₀ h1]; linarith
  · intro h
    have hr : NI.div0 a b ≤ 0 := by
      unfold NI.div0
      split
      · exact le_rfl
      · rename_i hb
        have : a / b = a * b / (b * b) := by field_simp
        rw [this]
        exact div_nonpos_of_nonpos_of_nonneg h (mul_self_nonneg b)
    simp only
    rw [abs_of_nonpos hr]
    simp

/-- `vanAlbada1` does not: it is negative for differences of opposite sign, the first being the
smaller one, -/
theorem c118_vanAlbada1 {a b : K} (hb : b ≠ 0) (h : a * b < 0) (hs : |a| < |b|) :
    NI.vanAlbada1 a b < 0 := by
  unfold NI.vanAlbada1 NI.div0
  rw [if_neg hb]
  have hr : a / b < 0 := by
    have : a / b = a * b / (b * b) := by field_simp
    rw [this]
    exact div_neg_of_neg_of_pos h (mul_self_pos.2 hb)
  have hr1 : |a / b| < 1 := by rw [abs_div, div_lt_one (abs_pos.2 hb)]; exact hs
  have hr2 := (abs_lt.1 hr1).1
  refine div_neg_of_neg_of_pos ?_ (by positivity)
  have : (a / b) ^ 2 + a / b = a / b * (a / b + 1) := by ring
  rw [this]
  exact mul_neg_of_neg_of_pos hr (by linarith)

/-- and both jump to 0 where the second difference vanishes, although they tend to 2 and 1. -/
theorem c118_zero (a : K) : NI.vanLeer a 0 = 0 ∧ NI.vanAlbada1 a 0 = 0 := by
  unfold NI.vanLeer NI.vanAlbada1 NI.div0
  simp

/-- `minmod2` does not look at the size of its third argument, -/
theorem c118_third {a b c c' theta : K} (hc : 0 < c ↔ 0 < c') (hc' : c < 0 ↔ c' < 0) :
    NI.minmod2 a b c theta = NI.minmod2 a b c' theta := by
  unfold NI.minmod2
  simp only [hc, hc']

/-- so it is the limiter of three differences exactly when the third one does not matter. -/
theorem c118_minmod2 {a b c theta : K} (ha : 0 < a) (hb : 0 < b) (hc : 0 < c) :
    NI.minmod2 a b c theta = min (theta * a) b ∧
    (ThreeMinmod a b c theta (NI.minmod2 a b c theta) ↔ min (theta * a) b ≤ theta * c) := by
  have e : NI.minmod2 a b c theta = min (theta * a) b := by
    unfold NI.minmod2
    rw [if_neg (fun h => h.1.not_gt ha), if_pos ⟨ha, hb, hc⟩]
  refine ⟨e, ?_⟩
  rw [e]
  constructor
  · intro h; exact (h.1 ha hb hc).2.2
  · intro h
    exact ⟨fun _ _ _ => ⟨min_le_left _ _, min_le_right _ _, h⟩, fun h => absurd h ha.not_gt⟩

end

/-! ## The hypotheses can be met -/

example : NI.vanAlbada1 (-1 : ℚ) 2 < 0 := c118_vanAlbada1 (by norm_num) (by norm_num) (by norm_num)

/-- Differences 4, 4, 1: the limiter should not exceed 2 and gives 4. -/
example : NI.minmod2 (4 : ℚ) 4 1 2 = 4 ∧ ¬ ThreeMinmod (4 : ℚ) 4 1 2 (NI.minmod2 4 4 1 2) := by
  obtain ⟨h1, h2⟩ := c118_minmod2 (a := (4 : ℚ)) (b := 4) (c := 1) (theta := 2) (by norm_num)
    (by norm_num) (by norm_num)
  refine ⟨h1.trans (by norm_num), fun h => ?_⟩
  have := h2.1 h
  norm_num at this

end Mpm

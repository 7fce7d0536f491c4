import Verif.Lemmas.XF

/-! The slope limiters of `integrators.py`. -/

set_option linter.unusedSectionVars false

namespace Mpm

section
variable {K : Type} [Field K] [LinearOrder K] [IsStrictOrderedRing K]

theorem sgn_pos {a : K} (h : 0 < a) : sgn a = 1 := if_pos h
theorem sgn_neg {a : K} (h : a < 0) : sgn a = -1 := by
  unfold sgn; rw [if_neg (not_lt.2 h.le), if_pos h]
theorem sgn_zero : sgn (0 : K) = 0 := by simp [sgn]
theorem sgn_opp (a : K) : sgn (-a) = -sgn a := by
  rcases lt_trichotomy a 0 with h | h | h
  · rw [sgn_neg h, sgn_pos (neg_pos.2 h), neg_neg]
  · subst h; simp [sgn_zero]
  · rw [sgn_pos h, sgn_neg (neg_neg_iff_pos.2 h)]

theorem minmod_pos {a b : K} (ha : 0 < a) (hb : 0 < b) : minmod a b = min a b := by
  unfold minmod
  rw [sgn_pos ha, sgn_pos hb, abs_of_pos ha, abs_of_pos hb]
  ring

theorem maxmod_pos {a b : K} (ha : 0 < a) (hb : 0 < b) : maxmod a b = max a b := by
  unfold maxmod
  rw [sgn_pos ha, sgn_pos hb, abs_of_pos ha, abs_of_pos hb]
  ring

theorem minmod_neg (a b : K) : minmod (-a) (-b) = -minmod a b := by
  unfold minmod
  rw [sgn_opp, sgn_opp, abs_neg, abs_neg]
  ring

theorem maxmod_neg (a b : K) : maxmod (-a) (-b) = -maxmod a b := by
  unfold maxmod
  rw [sgn_opp, sgn_opp, abs_neg, abs_neg]
  ring

theorem minmod_comm (a b : K) : minmod a b = minmod b a := by
  unfold minmod; rw [min_comm, add_comm (sgn a)]

theorem maxmod_comm (a b : K) : maxmod a b = maxmod b a := by
  unfold maxmod; rw [max_comm, add_comm (sgn a)]

theorem minmod_opp {a b : K} (h : a * b ≤ 0) : minmod a b = 0 := by
  unfold minmod
  rcases lt_trichotomy a 0 with ha | ha | ha
  · rcases lt_trichotomy b 0 with hb | hb | hb
    · exact absurd h (not_le.2 (mul_pos_of_neg_of_neg ha hb))
    · subst hb; simp
    · rw [sgn_neg ha, sgn_pos hb]; ring
  · subst ha; simp
  · rcases lt_trichotomy b 0 with hb | hb | hb
    · rw [sgn_pos ha, sgn_neg hb]; ring
    · subst hb; simp
    · exact absurd h (not_le.2 (mul_pos ha hb))

theorem maxmod_zero : maxmod (0 : K) 0 = 0 := by simp [maxmod]

theorem superbee_opp {a b : K} (h : a * b ≤ 0) : superbee a b = 0 := by
  unfold superbee
  rw [minmod_opp (a := a) (b := 2 * b) (by nlinarith), minmod_opp (a := 2 * a) (by nlinarith),
    maxmod_zero]

theorem superbee_neg (a b : K) : superbee (-a) (-b) = -superbee a b := by
  unfold superbee
  rw [show 2 * -b = -(2 * b) by ring, show 2 * -a = -(2 * a) by ring, minmod_neg, minmod_neg,
    maxmod_neg]

theorem superbee_pos {a b : K} (ha : 0 < a) (hb : 0 < b) :
    superbee a b = min (2 * min a b) (max a b) := by
  unfold superbee
  rw [minmod_pos ha (by linarith), minmod_pos (by linarith) hb,
    maxmod_pos (lt_min ha (by linarith)) (lt_min (by linarith) hb)]
  rcases le_total a b with h | h
  · rw [min_eq_left (a := a) (b := 2 * b) (by linarith), min_eq_left h, max_eq_right h]
    exact max_eq_right (le_min (by linarith) h)
  · rw [min_eq_right (a := 2 * a) (b := b) (by linarith), min_eq_right h, max_eq_left h, min_comm a]
    exact max_eq_left (le_min (by linarith) h)

theorem superbee_comm (a b : K) : superbee a b = superbee b a := by
  unfold superbee
  rw [maxmod_comm, minmod_comm (2 * a), minmod_comm a]

theorem limiter_zero_left (b : K) : limiter 0 b = 0 := superbee_opp (by simp)
theorem limiter_zero_right (a : K) : limiter a 0 = 0 := superbee_opp (by simp)

theorem superbee_smul_pos {c : K} (hc : 0 < c) (a b : K) :
    superbee (c * a) (c * b) = c * superbee a b := by
  have key : ∀ a b : K, 0 < a → 0 < b → superbee (c * a) (c * b) = c * superbee a b := by
    intro a b ha hb
    rw [superbee_pos (mul_pos hc ha) (mul_pos hc hb), superbee_pos ha hb,
      mul_min_of_nonneg _ _ hc.le, mul_max_of_nonneg _ _ hc.le, ← mul_min_of_nonneg _ _ hc.le]
    congr 1
    ring
  by_cases h : a * b ≤ 0
  · rw [superbee_opp h, superbee_opp, mul_zero]
    have : c * a * (c * b) = c * c * (a * b) := by ring
    rw [this]
    exact mul_nonpos_of_nonneg_of_nonpos (mul_nonneg hc.le hc.le) h
  · rcases pos_and_pos_or_neg_and_neg_of_mul_pos (not_le.1 h) with ⟨ha, hb⟩ | ⟨ha, hb⟩
    · exact key a b ha hb
    · have := key (-a) (-b) (neg_pos.2 ha) (neg_pos.2 hb)
      rw [mul_neg, mul_neg, superbee_neg, superbee_neg] at this
      linarith

theorem superbee_smul (c a b : K) : superbee (c * a) (c * b) = c * superbee a b := by
  rcases lt_trichotomy c 0 with hc | hc | hc
  · have := superbee_smul_pos (neg_pos.2 hc) a b
    rw [neg_mul, neg_mul, superbee_neg] at this
    linarith
  · subst hc; simp [superbee_opp]
  · exact superbee_smul_pos hc a b

end
end Mpm

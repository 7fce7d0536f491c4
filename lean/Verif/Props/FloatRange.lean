import Verif.Model.FloatRange
import Verif.Props.FloatRun
import Verif.Props.FloatUnits

/-!
# The ends of the range of floating point numbers (C142)
-/

set_option linter.unusedSectionVars false

namespace Mpm
open Spec

namespace Spec
section
variable {K : Type} [Field K] [LinearOrder K]

/-- The numbers with `p` significant bits that are multiples of `2^e`. -/
def IsFloatU (p : ℕ) (e : ℤ) (y : K) : Prop := ∃ n k : ℤ, |n| < 2 ^ p ∧ e ≤ k ∧ y = n * 2 ^ k

end
end Spec

section
variable {K : Type} [Field K] [LinearOrder K] [IsStrictOrderedRing K] [FloorRing K] {p : ℕ} {e : ℤ}

theorem Spec.IsFloatU.isFloat {y : K} (h : IsFloatU p e y) : IsFloat p y := by
  obtain ⟨n, k, hn, -, rfl⟩ := h
  exact ⟨n, k, hn, rfl⟩

theorem Spec.IsFloatU.mult {y : K} (h : IsFloatU p e y) : ∃ n : ℤ, y = n * 2 ^ e := by
  obtain ⟨n, k, -, hk, rfl⟩ := h
  obtain ⟨j, hj⟩ := Int.le.dest hk
  refine ⟨n * 2 ^ j, ?_⟩
  rw [← hj, zpow_add₀ two_ne_zero, zpow_natCast]
  push_cast
  ring

theorem fl_of_isFloat (hp : 1 ≤ p) {x : K} (h : IsFloat p x) : fl p x = x := by
  rcases eq_or_ne x 0 with rfl | hx
  · exact fl_zero p
  · have := (c136_nearest hp hx h).1
    rw [sub_self, abs_zero] at this
    exact sub_eq_zero.1 (abs_eq_zero.1 (le_antisymm this (abs_nonneg _)))

/-- Below `2^(e+p)` the numbers are the multiples of `2^e`. -/
theorem flU_small {x : K} (h : |x| < 2 ^ (e + p)) : flU p e x = roundEven (x / 2 ^ e) * 2 ^ e := by
  rcases eq_or_ne x 0 with rfl | hx
  · unfold flU
    have := roundEven_int (K := K) 0
    rw [Int.cast_zero] at this
    simp [this]
  · have h1 := (log_spec (abs_pos.2 hx)).1.trans_lt h
    have h2 := (zpow_lt_zpow_iff_right₀ (a := (2 : K)) one_lt_two).1 h1
    unfold flU
    rw [max_eq_right (by omega)]

/-- From `2^(e+p-1)` on they are those with `p` bits. -/
theorem flU_normal {x : K} (h : 2 ^ (e + p - 1) ≤ |x|) : flU p e x = fl p x := by
  have hx : 0 < |x| := (two_zpow_pos _).trans_le h
  have h1 := h.trans_lt (log_spec hx).2
  have h2 := (zpow_lt_zpow_iff_right₀ (a := (2 : K)) one_lt_two).1 h1
  unfold flU fl
  rw [max_eq_left (by omega)]

theorem flU_zero : flU p e (0 : K) = 0 := by
  rw [flU_small (by rw [abs_zero]; exact two_zpow_pos _)]
  have := roundEven_int (K := K) 0
  rw [Int.cast_zero] at this
  simp [this]

theorem flU_neg (x : K) : flU p e (-x) = -flU p e x := by
  unfold flU
  rw [abs_neg, neg_div, roundEven_neg]
  push_cast
  ring

theorem pow_split (hp : 1 ≤ p) : (2 : K) ^ (e + p - 1) = ((2 ^ (p - 1) : ℤ) : K) * 2 ^ e := by
  push_cast
  rw [← zpow_natCast, ← zpow_add₀ two_ne_zero]
  congr 1
  omega

theorem pow_lt : (2 : K) ^ (e + p - 1) < 2 ^ (e + p) := zpow_lt_zpow_right₀ one_lt_two (by omega)

/-- C142.  Above `2^(e+p-1)` rounding with underflow is rounding to `p` bits; below, the error is at most
half of `2^e`. -/
theorem c142_normal (x : K) :
    (2 ^ (e + p - 1) ≤ |x| → flU p e x = fl p x) ∧
    (|x| < 2 ^ (e + p - 1) → |flU p e x - x| ≤ 2 ^ e / 2) := by
  refine ⟨flU_normal, fun h => ?_⟩
  have hu := two_zpow_pos (K := K) e
  rw [flU_small (h.trans pow_lt)]
  have e1 : (roundEven (x / 2 ^ e) : K) * 2 ^ e - x = (roundEven (x / 2 ^ e) - x / 2 ^ e) * 2 ^ e := by
    rw [sub_mul, div_mul_cancel₀ _ hu.ne']
  rw [e1, abs_mul, abs_of_pos hu]
  refine (mul_le_mul_of_nonneg_right (roundEven_err _) hu.le).trans (le_of_eq ?_)
  ring

theorem flU_err (x : K) : |flU p e x - x| ≤ 1 / 2 ^ p * |x| + 2 ^ e / 2 := by
  have hu := two_zpow_pos (K := K) e
  have h0 : 0 ≤ 1 / 2 ^ p * |x| := by positivity
  rcases le_or_gt (2 ^ (e + p - 1)) |x| with h | h
  · rw [flU_normal h]
    linarith [fl_err p x]
  · linarith [(c142_normal (p := p) (e := e) x).2 h]

theorem flU_small_le (hp : 1 ≤ p) {x : K} (h : x ≤ 2 ^ (e + p - 1)) :
    (roundEven (x / 2 ^ e) : K) * 2 ^ e ≤ 2 ^ (e + p - 1) := by
  have hu := two_zpow_pos (K := K) e
  rw [pow_split hp]
  refine mul_le_mul_of_nonneg_right ?_ hu.le
  have : roundEven (x / 2 ^ e) ≤ 2 ^ (p - 1) := by
    rw [← roundEven_int (K := K) (2 ^ (p - 1))]
    refine roundEven_mono ?_
    rw [div_le_iff₀ hu, ← pow_split hp]
    exact h
  exact_mod_cast this

theorem flU_nonneg (hp : 1 ≤ p) {x : K} (hx : 0 ≤ x) : 0 ≤ flU p e x := by
  rcases le_or_gt (2 ^ (e + p - 1)) |x| with h | h
  · rw [flU_normal h]
    exact fl_nonneg hp hx
  · rw [flU_small (h.trans pow_lt)]
    have hu := two_zpow_pos (K := K) e
    refine mul_nonneg ?_ hu.le
    have : (0 : ℤ) ≤ roundEven (x / 2 ^ e) := by
      have h0 := roundEven_int (K := K) 0
      rw [Int.cast_zero] at h0
      rw [← h0]
      exact roundEven_mono (div_nonneg hx hu.le)
    exact_mod_cast this

theorem fl_two_zpow (hp : 1 ≤ p) (k : ℤ) : fl p (2 ^ k : K) = 2 ^ k :=
  fl_of_isFloat hp ⟨1, k, by rw [abs_one]; exact one_lt_pow₀ one_lt_two (by omega), by simp⟩

theorem flU_mono_nonneg (hp : 1 ≤ p) {x y : K} (hx : 0 ≤ x) (h : x ≤ y) : flU p e x ≤ flU p e y := by
  have hy := hx.trans h
  rcases le_or_gt (2 ^ (e + p - 1)) x with h1 | h1
  · rw [flU_normal (by rwa [abs_of_nonneg hx]), flU_normal (by rw [abs_of_nonneg hy]; exact h1.trans h)]
    exact fl_mono hp h
  · rw [flU_small (x := x) (by rw [abs_of_nonneg hx]; exact h1.trans pow_lt)]
    rcases le_or_gt (2 ^ (e + p - 1)) y with h2 | h2
    · rw [flU_normal (by rwa [abs_of_nonneg hy])]
      refine (flU_small_le hp h1.le).trans ?_
      rw [← fl_two_zpow hp]
      exact fl_mono hp h2
    · rw [flU_small (x := y) (by rw [abs_of_nonneg hy]; exact h2.trans pow_lt)]
      have hu := two_zpow_pos (K := K) e
      refine mul_le_mul_of_nonneg_right ?_ hu.le
      exact_mod_cast roundEven_mono (div_le_div_of_nonneg_right h hu.le)

theorem flU_mono (hp : 1 ≤ p) : Monotone (flU p e : K → K) := by
  intro x y h
  rcases le_or_gt 0 x with hx | hx
  · exact flU_mono_nonneg hp hx h
  · rcases le_or_gt y 0 with hy | hy
    · have := flU_mono_nonneg (e := e) hp (neg_nonneg.2 hy) (neg_le_neg h)
      rw [flU_neg, flU_neg] at this
      linarith
    · have h1 := flU_nonneg (e := e) hp (neg_nonneg.2 hx.le)
      rw [flU_neg] at h1
      have h2 := flU_nonneg (e := e) hp hy.le
      linarith

/-- C142.  The result is a number of `p` bits and a multiple of `2^e`, and no such number is nearer; such
numbers are not changed. -/
theorem c142_nearest (hp : 1 ≤ p) (x : K) : IsFloatU p e (flU p e x) ∧
    (∀ y, IsFloatU p e y → |flU p e x - x| ≤ |y - x|) ∧ (IsFloatU p e x → flU p e x = x) ∧
    Monotone (flU p e : K → K) := by
  have near : ∀ y, IsFloatU p e y → |flU p e x - x| ≤ |y - x| := by
    intro y hy
    rcases le_or_gt (2 ^ (e + p - 1)) |x| with h | h
    · rw [flU_normal h]
      exact (c136_nearest hp (abs_pos.1 ((two_zpow_pos _).trans_le h)) hy.isFloat).1
    · rw [flU_small (h.trans pow_lt)]
      obtain ⟨n, rfl⟩ := hy.mult
      have hu := two_zpow_pos (K := K) e
      have scale : ∀ n : ℤ, |(n : K) * 2 ^ e - x| = |(n : K) - x / 2 ^ e| * 2 ^ e := by
        intro n
        rw [← abs_of_pos hu, ← abs_mul, abs_of_pos hu, sub_mul, div_mul_cancel₀ _ hu.ne']
      rw [scale, scale]
      exact mul_le_mul_of_nonneg_right (roundEven_nearest _ n).1 hu.le
  refine ⟨?_, near, fun h => ?_, flU_mono hp⟩
  · rcases lt_or_ge |x| (2 ^ (e + p - 1)) with h | h
    · rw [flU_small (h.trans pow_lt)]
      refine ⟨_, e, ?_, le_rfl, rfl⟩
      have hu := two_zpow_pos (K := K) e
      obtain ⟨h1, h2⟩ := abs_lt.1 h
      have a := flU_small_le (e := e) hp h2.le
      have b := flU_small_le (e := e) hp (x := -x) (by linarith)
      rw [neg_div, roundEven_neg] at b
      rw [pow_split hp] at a b
      have a' := le_of_mul_le_mul_right a hu
      have b' := le_of_mul_le_mul_right b hu
      have a2 : roundEven (x / 2 ^ e) ≤ 2 ^ (p - 1) := by exact_mod_cast a'
      have b2 : -roundEven (x / 2 ^ e) ≤ 2 ^ (p - 1) := by exact_mod_cast b'
      have h3 : (2 : ℤ) ^ (p - 1) < 2 ^ p := pow_lt_pow_right₀ (by norm_num) (by omega)
      rw [abs_lt]
      constructor <;> linarith
    · rw [flU_normal h]
      have hx : 0 < |x| := (two_zpow_pos _).trans_le h
      -- a number of `p` bits that is not below `2^(e+p-1)` is a multiple of `2^e`
      have key : ∀ {x : K}, 2 ^ (e + p - 1) ≤ x → IsFloatU p e (fl p x) := by
        intro x h
        have hx : 0 < x := (two_zpow_pos _).trans_le h
        have h1 := h.trans_lt (log_spec hx).2
        have h2 := (zpow_lt_zpow_iff_right₀ (a := (2 : K)) one_lt_two).1 h1
        obtain ⟨r1, r2⟩ := fl_range hp hx
        rcases r2.lt_or_eq with r | r
        · refine ⟨_, Int.log 2 x - p + 1, ?_, by omega, by unfold fl; rw [abs_of_pos hx]⟩
          rw [abs_of_nonneg (le_trans (by positivity) r1)]
          exact r
        · refine ⟨1, Int.log 2 x + 1, ?_, by omega, ?_⟩
          · rw [abs_one]
            exact one_lt_pow₀ one_lt_two (by omega)
          · unfold fl
            rw [abs_of_pos hx, r]
            push_cast
            rw [one_mul, ← zpow_natCast, ← zpow_add₀ two_ne_zero]
            congr 1
            omega
      rcases abs_cases x with ⟨ha, -⟩ | ⟨ha, -⟩
      · rw [ha] at h
        exact key h
      · rw [ha] at h
        obtain ⟨n, k, hn, hk, hf⟩ := key h
        refine ⟨-n, k, by rwa [abs_neg], hk, ?_⟩
        rw [fl_neg] at hf
        push_cast
        rw [neg_mul, ← hf, neg_neg]
  · have := near x h
    rw [sub_self, abs_zero] at this
    exact sub_eq_zero.1 (abs_eq_zero.1 (le_antisymm this (abs_nonneg _)))

/-- C142.  Sums and differences do not underflow: they are rounded as without a smallest number. -/
theorem c142_sums (hp : 1 ≤ p) {x y : K} (hx : IsFloatU p e x) (hy : IsFloatU p e y) :
    flU p e (x + y) = fl p (x + y) ∧ flU p e (x - y) = fl p (x - y) ∧
    |flU p e (x + y) - (x + y)| ≤ 1 / 2 ^ p * |x + y| ∧
    (flU p e (x - y) = 0 ↔ x = y) := by
  have key : ∀ n : ℤ, flU p e ((n : K) * 2 ^ e) = fl p ((n : K) * 2 ^ e) := by
    intro n
    have hu := two_zpow_pos (K := K) e
    rcases le_or_gt (2 ^ (e + p - 1)) |(n : K) * 2 ^ e| with h | h
    · exact flU_normal h
    · have hn : |n| < 2 ^ p := by
        rw [abs_mul, abs_of_pos hu, pow_split hp] at h
        have h' := lt_of_mul_lt_mul_right h hu.le
        have h2 : |n| < 2 ^ (p - 1) := by exact_mod_cast h'
        exact h2.trans_le (pow_le_pow_right₀ (by norm_num) (by omega))
      rw [(c142_nearest hp _).2.2.1 ⟨n, e, hn, le_rfl, rfl⟩, fl_of_isFloat hp ⟨n, e, hn, rfl⟩]
  obtain ⟨a, rfl⟩ := hx.mult
  obtain ⟨b, rfl⟩ := hy.mult
  have h1 : (a : K) * 2 ^ e + b * 2 ^ e = ((a + b : ℤ) : K) * 2 ^ e := by push_cast; ring
  have h2 : (a : K) * 2 ^ e - b * 2 ^ e = ((a - b : ℤ) : K) * 2 ^ e := by push_cast; ring
  refine ⟨by rw [h1]; exact key _, by rw [h2]; exact key _, by rw [h1, key]; exact fl_err p _, ?_⟩
  constructor
  · intro h
    rw [h2, key] at h
    by_contra hne
    have h3 := fl_err p (((a - b : ℤ) : K) * 2 ^ e)
    rw [h, zero_sub, abs_neg, ← h2] at h3
    have h4 : 0 < |(a : K) * 2 ^ e - b * 2 ^ e| := abs_pos.2 (sub_ne_zero.2 hne)
    have h5 : (1 : K) / 2 ^ p ≤ 1 / 2 := by
      rw [div_le_div_iff_of_pos_left one_pos (by positivity) two_pos]
      exact le_self_pow₀ one_le_two (by omega)
    nlinarith
  · rintro h
    rw [h, sub_self, flU_zero]

/-- C142.  Products do: with `p` bits and no smallest number a product is zero only if a factor is, with a
smallest number all products up to half of it are zero. -/
theorem c142_products (hp : 1 ≤ p) (x y : K) :
    (fl p (x * y) = 0 ↔ x = 0 ∨ y = 0) ∧ (flU p e (x * y) = 0 ↔ |x * y| ≤ 2 ^ e / 2) := by
  have small : (1 : K) / 2 ^ p ≤ 1 / 2 := by
    rw [div_le_div_iff_of_pos_left one_pos (by positivity) two_pos]
    exact le_self_pow₀ one_le_two (by omega)
  have zero : ∀ z : K, fl p z = 0 → z = 0 := by
    intro z h
    have h3 := fl_err p z
    rw [h, zero_sub, abs_neg] at h3
    by_contra hne
    have := abs_pos.2 hne
    nlinarith
  refine ⟨⟨fun h => mul_eq_zero.1 (zero _ h), fun h => by rw [mul_eq_zero.2 h, fl_zero]⟩, ?_⟩
  generalize x * y = z
  have hu := two_zpow_pos (K := K) e
  have hle : (2 : K) ^ e ≤ 2 ^ (e + p - 1) := zpow_le_zpow_right₀ one_le_two (by omega)
  constructor
  · intro h
    rcases le_or_gt (2 ^ (e + p - 1)) |z| with h1 | h1
    · rw [flU_normal h1] at h
      rw [zero z h, abs_zero]
      positivity
    · have := (c142_normal z).2 h1
      rwa [h, zero_sub, abs_neg] at this
  · intro h
    have h1 : |z| < 2 ^ (e + p - 1) := by linarith
    rw [flU_small (h1.trans pow_lt)]
    have hq : |z / 2 ^ e| ≤ 1 / 2 := by
      rw [abs_div, abs_of_pos hu, div_le_iff₀ hu]
      linarith
    have hz : roundEven (z / 2 ^ e) = 0 := by
      obtain ⟨a, b⟩ := abs_le.1 hq
      have c := (roundEven_nearest (z / 2 ^ e) 0)
      have d := roundEven_err (z / 2 ^ e)
      rw [Int.cast_zero, zero_sub, abs_neg] at c
      obtain ⟨d1, d2⟩ := abs_le.1 d
      have r1 : (-1 : K) ≤ roundEven (z / 2 ^ e) := by linarith
      have r2 : (roundEven (z / 2 ^ e) : K) ≤ 1 := by linarith
      have r1' : -1 ≤ roundEven (z / 2 ^ e) := by exact_mod_cast r1
      have r2' : roundEven (z / 2 ^ e) ≤ 1 := by exact_mod_cast r2
      by_contra hne
      rcases (by omega : roundEven (z / 2 ^ e) = 1 ∨ roundEven (z / 2 ^ e) = -1) with h | h <;>
        rw [h] at c <;> push_cast at c
      · have e1 : z / 2 ^ e = 1 / 2 := by
          have := (abs_le.1 (c.1.trans hq)).2
          linarith
        rw [e1] at c
        have := c.2 (by norm_num)
        norm_num at this
      · have e1 : z / 2 ^ e = -(1 / 2) := by
          have := (abs_le.1 (c.1.trans hq)).1
          linarith
        rw [e1] at c
        have := c.2 (by norm_num)
        norm_num at this
    rw [hz, Int.cast_zero, zero_mul]

/-- C142.  Numbers below the largest number and half a unit in its last place do not overflow, all others
do. -/
theorem c142_overflow (hp : 1 ≤ p) {m : ℤ} (hm : e + p ≤ m) (x : K) :
    (|x| < 2 ^ m - 2 ^ (m - p) / 2 → flX p e m x = .fin (flU p e x)) ∧
    (2 ^ m - 2 ^ (m - p) / 2 ≤ x → flX p e m x = .pinf) ∧
    (x ≤ -(2 ^ m - 2 ^ (m - p) / 2) → flX p e m x = .ninf) := by
  have hv := two_zpow_pos (K := K) (m - p)
  have e0 : (2 : K) ^ m = 2 ^ (m - 1) * 2 := by
    rw [← zpow_add_one₀ two_ne_zero]; congr 1; omega
  have e1 : (2 : K) ^ m = ((2 ^ p : ℤ) : K) * 2 ^ (m - p) := by
    push_cast
    rw [← zpow_natCast, ← zpow_add₀ two_ne_zero]
    congr 1
    omega
  have hvm : (2 : K) ^ (m - p) ≤ 2 ^ (m - 1) := zpow_le_zpow_right₀ one_le_two (by omega)
  have hem : (2 : K) ^ (e + p - 1) ≤ 2 ^ (m - 1) := zpow_le_zpow_right₀ one_le_two (by omega)
  have hm0 := two_zpow_pos (K := K) m
  have hm1 := two_zpow_pos (K := K) (m - 1)
  -- in the last binade
  have last : ∀ {x : K}, 2 ^ (m - 1) ≤ x → x < 2 ^ m →
      flU p e x = (roundEven (x / 2 ^ (m - p)) : ℤ) * 2 ^ (m - p) := by
    intro x h1 h2
    have hx : 0 < x := hm1.trans_le h1
    rw [flU_normal (by rw [abs_of_pos hx]; exact hem.trans h1)]
    unfold fl
    rw [abs_of_pos hx, log_eq h1 (by rw [show m - 1 + 1 = m by omega]; exact h2)]
    rw [show m - 1 - (p : ℤ) + 1 = m - p by omega]
  have below : ∀ {x : K}, 0 ≤ x → x < 2 ^ m - 2 ^ (m - p) / 2 → flU p e x < 2 ^ m := by
    intro x h0 h
    rcases lt_or_ge x (2 ^ (m - 1)) with h1 | h1
    · have h2 := flU_mono_nonneg (e := e) hp h0 h1.le
      rw [flU_normal (x := 2 ^ (m - 1)) (by rw [abs_of_pos hm1]; exact hem), fl_two_zpow hp] at h2
      linarith
    · rw [last h1 (by linarith), e1]
      refine mul_lt_mul_of_pos_right ?_ hv
      have h3 : x / 2 ^ (m - p) < ((2 ^ p : ℤ) : K) - 1 / 2 := by
        rw [div_lt_iff₀ hv, sub_mul, ← e1]
        linarith
      have h4 := (abs_le.1 (roundEven_err (x / 2 ^ (m - p)))).2
      have h5 : (roundEven (x / 2 ^ (m - p)) : K) < ((2 ^ p : ℤ) : K) := by linarith
      exact h5
  have above : ∀ {x : K}, 2 ^ m - 2 ^ (m - p) / 2 ≤ x → 2 ^ m ≤ flU p e x := by
    intro x h
    rcases le_or_gt (2 ^ m) x with h1 | h1
    · have h2 := flU_mono_nonneg (e := e) hp hm0.le h1
      rwa [flU_normal (x := 2 ^ m) (by rw [abs_of_pos hm0]; exact hem.trans (by linarith)),
        fl_two_zpow hp] at h2
    · rw [last (by linarith) h1, e1]
      refine mul_le_mul_of_nonneg_right ?_ hv.le
      have h3 : ((2 ^ p : ℤ) : K) - 1 / 2 ≤ x / 2 ^ (m - p) := by
        rw [le_div_iff₀ hv, sub_mul, ← e1]
        linarith
      have h4 : x / 2 ^ (m - p) < ((2 ^ p : ℤ) : K) := by
        rw [div_lt_iff₀ hv, ← e1]
        exact h1
      have hf : ⌊x / 2 ^ (m - p)⌋ = 2 ^ p - 1 := by
        rw [Int.floor_eq_iff]
        push_cast at h3 h4 ⊢
        constructor <;> linarith
      have hodd : ((2 : ℤ) ^ p - 1) % 2 ≠ 0 := by
        obtain ⟨q, rfl⟩ : ∃ q, p = q + 1 := ⟨p - 1, by omega⟩
        rw [pow_succ]
        omega
      have : roundEven (x / 2 ^ (m - p)) = 2 ^ p := by
        unfold roundEven
        rw [hf, if_neg (by push_cast at h3 ⊢; linarith)]
        split_ifs <;> omega
      rw [this]
  refine ⟨fun h => ?_, fun h => ?_, fun h => ?_⟩
  · have h1 := below (abs_nonneg x) h
    have h2 : |flU p e x| < 2 ^ m := by
      rcases abs_cases x with ⟨ha, hx⟩ | ⟨ha, hx⟩
      · rw [ha] at h1
        rwa [abs_of_nonneg (flU_nonneg hp hx)]
      · rw [ha] at h1
        have h3 := flU_nonneg (e := e) hp (neg_nonneg.2 hx.le)
        rw [flU_neg] at h1 h3
        rw [abs_of_nonpos (by linarith)]
        exact h1
    obtain ⟨h3, h4⟩ := abs_lt.1 h2
    unfold flX
    rw [if_neg (not_le.2 h4), if_neg (not_le.2 h3)]
  · unfold flX
    rw [if_pos (above h)]
  · have h1 := above (x := -x) (by linarith)
    rw [flU_neg] at h1
    unfold flX
    rw [if_neg (by linarith), if_pos (by linarith)]

set_option exponentiation.threshold 2000 in
/-- The largest number of float64, and the smallest that overflows. -/
example : flX 53 (-1074) 1024 (2 ^ 1024 - 2 ^ 971 : ℚ) = .fin (2 ^ 1024 - 2 ^ 971) ∧
    flX 53 (-1074) 1024 (2 ^ 1024 - 2 ^ 970 : ℚ) = .pinf ∧
    flX 53 (-1074) 1024 (-(2 ^ 1024 - 2 ^ 970) : ℚ) = .ninf := by
  obtain ⟨a, -, -⟩ := c142_overflow (K := ℚ) (p := 53) (e := -1074) (m := 1024) (by norm_num)
    (by norm_num) (2 ^ 1024 - 2 ^ 971)
  obtain ⟨-, b, -⟩ := c142_overflow (K := ℚ) (p := 53) (e := -1074) (m := 1024) (by norm_num)
    (by norm_num) (2 ^ 1024 - 2 ^ 970)
  obtain ⟨-, -, c⟩ := c142_overflow (K := ℚ) (p := 53) (e := -1074) (m := 1024) (by norm_num)
    (by norm_num) (-(2 ^ 1024 - 2 ^ 970))
  refine ⟨?_, b (by norm_num), c (by norm_num)⟩
  rw [a (by norm_num)]
  congr 1
  exact (c142_nearest (by norm_num) _).2.2.1 ⟨2 ^ 53 - 1, 971, by norm_num, by norm_num, by norm_num⟩

set_option exponentiation.threshold 2000 in
/-- Below the smallest number: `2^-537` squared is the smallest number, `2^-538` squared is nothing. -/
example : flU 53 (-1074) ((2 : ℚ) ^ (-537 : ℤ) * 2 ^ (-537 : ℤ)) = 2 ^ (-1074 : ℤ) ∧
    flU 53 (-1074) ((2 : ℚ) ^ (-538 : ℤ) * 2 ^ (-538 : ℤ)) = 0 ∧
    fl 53 ((2 : ℚ) ^ (-538 : ℤ) * 2 ^ (-538 : ℤ)) ≠ 0 := by
  refine ⟨?_, (c142_products (by norm_num) _ _).2.2 ?_, fun h => ?_⟩
  · rw [← zpow_add₀ two_ne_zero]
    exact (c142_nearest (by norm_num) _).2.2.1 ⟨1, -1074, by norm_num, le_rfl, by norm_num⟩
  · rw [← zpow_add₀ two_ne_zero, abs_of_pos (two_zpow_pos _)]
    norm_num
  · rcases (c142_products (K := ℚ) (p := 53) (e := 0) (by norm_num) _ _).1.1 h with h | h <;>
      exact (two_zpow_pos _).ne' h

/-! ## Units -/

/-- C142.  Changes of units by powers of two keep all digits of numbers that are not too small in both
units. -/
theorem c142_power (k : ℤ) {x : K} (h : 2 ^ (e + p - 1) ≤ |x|) (h' : 2 ^ (e + p - 1) ≤ |2 ^ k * x|) :
    flU p e (2 ^ k * x) = 2 ^ k * flU p e x := by
  rw [flU_normal h, flU_normal h', c139_power]

/-- C142.  No change of units keeps all digits of all numbers. -/
theorem c142_units (hp : 1 ≤ p) {c : K} (hc : 0 < c) : SameDigits (flU p e) c ↔ c = 1 := by
  have hu := two_zpow_pos (K := K) e
  refine ⟨fun h => ?_, fun h x => by rw [h, one_mul, one_mul]⟩
  have z : flU p e ((1 : K) * (2 ^ e / 2)) = 0 := by
    refine (c142_products hp _ _).2.2 ?_
    rw [one_mul, abs_of_pos (by positivity)]
  rw [one_mul] at z
  have h1 := h (2 ^ e / 2)
  rw [z, mul_zero] at h1
  have h2 := (c142_products hp _ _).2.1 h1
  rw [abs_of_pos (by positivity)] at h2
  have c1 : c ≤ 1 := by
    have : c * (2 ^ e / 2) ≤ 1 * (2 ^ e / 2) := by rw [one_mul]; exact h2
    exact le_of_mul_le_mul_right this (by positivity)
  have h3 := h (2 ^ e)
  have one : IsFloatU p e (2 ^ e : K) :=
    ⟨1, e, by rw [abs_one]; exact one_lt_pow₀ one_lt_two (by omega), le_rfl, by simp⟩
  rw [(c142_nearest hp _).2.2.1 one] at h3
  have h4 := (c142_nearest (e := e) hp (c * 2 ^ e)).1
  rw [h3] at h4
  obtain ⟨n, hn⟩ := h4.mult
  have hcn := mul_right_cancel₀ hu.ne' hn
  rw [hcn] at c1 hc ⊢
  have a : n ≤ 1 := by exact_mod_cast c1
  have b : 0 < n := by exact_mod_cast hc
  rw [show n = 1 by omega, Int.cast_one]

/-! ## Whole runs -/

section
variable {W : Type} {P : Par K} {march : St P → Res (St P)} {newdt : St P → XF K} {A : LoopPar K}
  {hooks : Call → St P × W → Res (St P × W)}

theorem loopBodyR_congr {rnd rnd' : K → K} (hm : KeepsClock march) (hk : KeepsTime hooks) {l : LoopSt P W}
    (h : rnd (l.s.dyn.t + l.s.dyn.dt) = rnd' (l.s.dyn.t + l.s.dyn.dt)) :
    loopBodyR rnd P march newdt A hooks l = loopBodyR rnd' P march newdt A hooks l := by
  unfold loopBodyR
  rcases h1 : march l.s with _ | s1
  · rfl
  obtain ⟨t1, d1, -⟩ := hm _ _ h1
  simp only [res_ok_bind]
  rcases h2 : callHook P hooks .before
    { l with s := s1, log := l.log ++ [⟨.march, l.s.dyn.t, l.s.dyn.tstep⟩] } with _ | l1
  · rfl
  obtain ⟨t2, d2, -⟩ := hk _ _ _ (callHook_ok h2).1
  simp only [res_ok_bind]
  split_ifs
  · rfl
  · rfl
  rcases h3 : nthHook P A hooks l1 with _ | l2
  · rfl
  have h23 : l2.s.dyn.t = l1.s.dyn.t ∧ l2.s.dyn.dt = l1.s.dyn.dt := by
    unfold nthHook at h3
    split at h3
    · obtain ⟨t3, d3, -⟩ := hk _ _ _ (callHook_ok h3).1
      exact ⟨t3, d3⟩
    · cases h3
      exact ⟨rfl, rfl⟩
  simp only [res_ok_bind]
  rcases h4 : callHook P hooks .after l2 with _ | l3
  · rfl
  obtain ⟨t4, d4, -⟩ := hk _ _ _ (callHook_ok h4).1
  simp only [res_ok_bind]
  simp only at t2 d2 t4 d4
  unfold advanceR stepTimeR
  rw [t4, d4, h23.1, h23.2, t2, d2, t1, d1, h]

theorem loopBodyR_dt {rnd : K → K} (hm : KeepsClock march) (hk : KeepsTime hooks) {l l' : LoopSt P W}
    (h : loopBodyR rnd P march newdt A hooks l = .ok l') :
    l'.s.dyn.dt = l.s.dyn.dt ∨ A.dynamic = true ∧ ∃ s, newdt s = .fin l'.s.dyn.dt := by
  unfold loopBodyR at h
  obtain ⟨s1, h1, h⟩ := res_bind_ok.1 h
  obtain ⟨l1, h2, h⟩ := res_bind_ok.1 h
  split at h
  · cases h
  split at h
  · cases h
  obtain ⟨l2, h3, h⟩ := res_bind_ok.1 h
  obtain ⟨l3, h4, h5⟩ := res_bind_ok.1 h
  obtain ⟨-, d1, -⟩ := hm _ _ h1
  obtain ⟨-, d2, -⟩ := hk _ _ _ (callHook_ok h2).1
  obtain ⟨-, d4, -⟩ := hk _ _ _ (callHook_ok h4).1
  have d3 : l2.s.dyn.dt = l1.s.dyn.dt := by
    unfold nthHook at h3
    split at h3
    · exact (hk _ _ _ (callHook_ok h3).1).2.1
    · cases h3
      rfl
  simp only at d2 d4
  have D : l3.s.dyn.dt = l.s.dyn.dt := by rw [d4, d3, d2, d1]
  unfold advanceR at h5
  simp only at h5
  split at h5
  · rename_i hd
    split at h5
    · rename_i dt hdt
      cases h5
      exact .inr ⟨hd, _, hdt⟩
    · split at h5
      · cases h5
      · cases h5
        exact .inl D
  · cases h5
    exact .inl D

/-- C142.  The clock never underflows: a run whose times and time steps are numbers of the machine is the
run with numbers of `p` bits of C136, with the same calls of the hooks, the same exceptions and the same
end. -/
theorem c142_run (hp : 1 ≤ p) (hm : KeepsClock march) (hk : KeepsTime hooks) {s : St P} (w : W)
    (ht : IsFloatU p e s.dyn.t) (hd : IsFloatU p e s.dyn.dt)
    (hn : A.dynamic = true → ∀ u dt, newdt u = .fin dt → IsFloatU p e dt) (fuel : ℕ) :
    mainRunR (flU p e) P march newdt A hooks fuel s w = mainRunR (fl p) P march newdt A hooks fuel s w := by
  have key : ∀ (fuel : ℕ) (l : LoopSt P W), IsFloatU p e l.s.dyn.t → IsFloatU p e l.s.dyn.dt →
      loopR (flU p e) P march newdt A hooks fuel l = loopR (fl p) P march newdt A hooks fuel l := by
    intro fuel
    induction fuel with
    | zero => intro l _ _; rfl
    | succ fuel ih =>
      intro l ht hd
      unfold loopR
      rw [← loopBodyR_congr hm hk (c142_sums hp ht hd).1]
      split_ifs
      · rcases h : loopBodyR (flU p e) P march newdt A hooks l with _ | l'
        · rfl
        · refine ih l' ?_ ?_
          · rw [(loopBodyR_keeps hm hk h).2.1]
            exact (c142_nearest hp _).1
          · rcases loopBodyR_dt hm hk h with h | ⟨h1, u, h2⟩
            · rw [h]
              exact hd
            · exact hn h1 u _ h2
      · rfl
  unfold mainRunR
  rcases h : callHook P hooks .initial { s := s, w := w, log := [] } with _ | l
  · rfl
  · obtain ⟨t1, d1, -⟩ := hk _ _ _ (callHook_ok h).1
    simp only at t1 d1
    simp only
    rw [key fuel l (by rw [t1]; exact ht) (by rw [d1]; exact hd)]

end

section
variable {P : Par K}

/-- C142.  The walls and bodies of C141 with underflow. -/
theorem c142_walls {n : ℕ} {s s' : St P} (hc : P.B.cyclic_lr = false)
    (h : stepsR (flU p e) (Besides.rounded (flU p e) P) (n + 1) s = .ok s') (i : Fin P.G.N) :
    (s.G.boundary_v i = true → (P.B.conveyor = true → s.G.boundary_conveyor i = false) →
      s'.G.q_dot i 0 = 0 ∧ s'.G.q i 0 = 0) ∧
    (s.G.boundary_h i = true → s'.G.q_dot i 1 = 0 ∧ s'.G.q i 1 = 0) :=
  c141_walls flU_zero hc h i

/-- C142.  Bodies at rest with underflow. -/
theorem c142_rest {n : ℕ} {s s' : St P} (hB : Closed P.B)
    (hF : ∀ t, (P.forces t).1 = 0) (hv : P.B.vertical_force = false) (hh : P.B.horizontal_force = false)
    (hc : P.B.conveyor = false)
    (hx : P.B.cyclic_lr = true → ∀ mp ∈ points s.L, P.G.x_m ≤ mp.x 0 ∧ mp.x 0 ≤ P.G.x_M)
    (hL : Counted s.L) (hR : NoRigid s.L) (hs : ∀ mp ∈ points s.L, AtRestR (flU p e) mp)
    (h : stepsR (flU p e) (Besides.rounded (flU p e) P) n s = .ok s') :
    List.Forall₂ (fun mp mp' => mp'.x = mp.x ∧ AtRestR (flU p e) mp') (points s.L) (points s'.L) :=
  c141_rest flU_zero hB hF hv hh hc hx hL hR hs h

end

/-- C142.  The body of C141 with float64: it moves against floor and wall, and in the corner there is no
momentum, while another node has some. -/
example : ∃ (G : Grid ℚ Ex.parCalm.G.N Ex.parCalm.G.ns) (s : St Ex.parCalm),
    mkGridR (flU 53 (-1074)) Ex.parCalm.G Ex.parCalm.B = .ok G ∧
    stepsR (flU 53 (-1074)) (Besides.rounded (flU 53 (-1074)) Ex.parCalm) 1
      { dyn := Ex.dyn, L := Ex.calm ![fl 53 (-1/3), fl 53 (-1/7), 0], G := G } = .ok s ∧
    s.G.q (⟨0, by decide⟩ : Fin 9) 0 = 0 ∧ s.G.q (⟨0, by decide⟩ : Fin 9) 1 = 0 ∧
    s.G.q (⟨4, by decide⟩ : Fin 9) 0 ≠ 0 := by
  have h : Ex.okAnd (mkGridR (flU 53 (-1074)) Ex.parCalm.G Ex.parCalm.B) (fun G =>
      (G.boundary_v (⟨0, by decide⟩ : Fin 9) && G.boundary_h (⟨0, by decide⟩ : Fin 9)) &&
      Ex.okAnd (stepsR (flU 53 (-1074)) (Besides.rounded (flU 53 (-1074)) Ex.parCalm) 1
        { dyn := Ex.dyn, L := Ex.calm ![fl 53 (-1/3), fl 53 (-1/7), 0], G := G }) fun s =>
      decide (s.G.q (⟨4, by decide⟩ : Fin 9) 0 ≠ 0)) = true := by decide +kernel
  obtain ⟨G, h1, h⟩ := Ex.okAnd_ok h
  obtain ⟨hb, h⟩ := Bool.and_eq_true_iff.1 h
  obtain ⟨hb1, hb2⟩ := Bool.and_eq_true_iff.1 hb
  obtain ⟨s, h2, h⟩ := Ex.okAnd_ok h
  obtain ⟨w1, w2⟩ := c142_walls rfl h2 (⟨0, by decide⟩ : Fin 9)
  exact ⟨G, s, h1, h2, (w1 hb1 fun h => by cases h).2, (w2 hb2).2, of_decide_eq_true h⟩

/-- C142.  The same body at rest. -/
example : ∃ (G : Grid ℚ Ex.parCalm.G.N Ex.parCalm.G.ns) (s : St Ex.parCalm),
    mkGridR (flU 53 (-1074)) Ex.parCalm.G Ex.parCalm.B = .ok G ∧
    stepsR (flU 53 (-1074)) (Besides.rounded (flU 53 (-1074)) Ex.parCalm) 1
      { dyn := Ex.dyn, L := Ex.calm 0, G := G } = .ok s ∧
    List.Forall₂ (fun mp mp' => mp'.x = mp.x ∧ AtRestR (flU 53 (-1074)) mp')
      (points (Ex.calm 0)) (points s.L) := by
  have h : Ex.okAnd (mkGridR (flU 53 (-1074)) Ex.parCalm.G Ex.parCalm.B) (fun G =>
      Ex.okAnd (stepsR (flU 53 (-1074)) (Besides.rounded (flU 53 (-1074)) Ex.parCalm) 1
        { dyn := Ex.dyn, L := Ex.calm 0, G := G }) fun s => true) = true := by decide +kernel
  obtain ⟨G, h1, h⟩ := Ex.okAnd_ok h
  obtain ⟨s, h2, -⟩ := Ex.okAnd_ok h
  refine ⟨G, s, h1, h2, c142_rest (s := { dyn := Ex.dyn, L := Ex.calm 0, G := G })
    ⟨rfl, rfl, rfl, rfl⟩ (fun _ => rfl) rfl rfl rfl
    (fun h => by cases h) (Ex.calm_counted 0) (Ex.calm_soft 0) ?_ h2⟩
  intro mp hmp
  have : mp ∈ [({ Ex.mp with
    x := ![fl 53 (2/5), fl 53 (1/7), 0], v := .own 0, b := 0, stress := 0 } : Particle ℚ 2)] := hmp
  rw [List.mem_singleton.1 this]
  refine ⟨rfl, rfl, rfl, rfl, ?_⟩
  decide +kernel

/-- C142.  Times and time steps that are numbers of float64: 0 and the number next to 1/10. -/
example : IsFloatU 53 (-1074) (0 : ℚ) ∧ IsFloatU 53 (-1074) (fl 53 (1/10) : ℚ) ∧
    flU 53 (-1074) (fl 53 (1/10) + fl 53 (2/10) : ℚ) ≠ fl 53 (3/10) :=
  ⟨⟨0, 0, by norm_num, by norm_num, by norm_num⟩,
    ⟨7205759403792794, -56, by norm_num, by norm_num, by decide +kernel⟩, by decide +kernel⟩

end
end Mpm

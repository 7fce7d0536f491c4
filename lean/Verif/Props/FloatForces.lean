import Verif.Model.FloatForces
import Verif.Props.Forces
import Verif.Props.Float

/-!
# C153: the ramped loads in floating point
-/

set_option linter.unusedSectionVars false

namespace Mpm
open Spec

section
variable {K : Type} [Field K] [LinearOrder K] [IsStrictOrderedRing K] {rnd exp : K → K} {u : K}

theorem Spec.Rounding.atZero (hr : Rounding rnd u) : rnd 0 = 0 := by
  have := hr.err 0
  rw [abs_zero, mul_zero, sub_zero] at this
  exact abs_nonpos_iff.1 this

/-- C153.  Without rounding the ramp is that of the exact model. -/
theorem c153_exact (exp : K → K) (m t_c t : K) : rampUpR id exp m t_c t = rampUp exp m t_c t := rfl

theorem rampArgR_mono (hr : Rounding rnd u) {t_c t t' : K} (h0 : 0 ≤ t) (h : t ≤ t') :
    rampArgR rnd t_c t' ≤ rampArgR rnd t_c t ∧ rampArgR rnd t_c t ≤ 0 := by
  have z := hr.atZero
  have hc : 0 ≤ rnd (t_c ^ 2) := z ▸ hr.mono (sq_nonneg t_c)
  have a : rnd (t ^ 2) ≤ rnd (t' ^ 2) := hr.mono (pow_le_pow_left₀ h0 h 2)
  have b : 0 ≤ rnd (t ^ 2) := z ▸ hr.mono (sq_nonneg t)
  have c : rnd (-3 * rnd (t ^ 2)) ≤ 0 := by
    have := hr.mono (show -3 * rnd (t ^ 2) ≤ 0 by linarith)
    rwa [z] at this
  refine ⟨hr.mono (div_le_div_of_nonneg_right (hr.mono (by linarith)) hc), ?_⟩
  have := hr.mono (div_nonpos_of_nonpos_of_nonneg c hc)
  rwa [z] at this

/-- C153.  With any rounding and any exponential that grows from zero to one on negative numbers, the ramp starts at
zero, has the sign of its final value, never decreases in magnitude and never exceeds the final magnitude. -/
theorem c153_ramp (hr : Rounding rnd u) (one : rnd 1 = 1) (he : Monotone exp) (h1 : exp 0 = 1)
    (hpos : ∀ x, 0 ≤ exp x) {m : K} (hm : rnd m = m) (t_c : K) :
    rampUpR rnd exp m t_c 0 = 0 ∧
    (∀ t, 0 ≤ t → 0 ≤ m → 0 ≤ rampUpR rnd exp m t_c t ∧ rampUpR rnd exp m t_c t ≤ m) ∧
    (∀ t, 0 ≤ t → m ≤ 0 → m ≤ rampUpR rnd exp m t_c t ∧ rampUpR rnd exp m t_c t ≤ 0) ∧
    (∀ t t', 0 ≤ t → t ≤ t' → |rampUpR rnd exp m t_c t| ≤ |rampUpR rnd exp m t_c t'|) := by
  have z := hr.atZero
  have f : ∀ t, 0 ≤ t → 0 ≤ rnd (1 - rnd (exp (rampArgR rnd t_c t))) ∧
      rnd (1 - rnd (exp (rampArgR rnd t_c t))) ≤ 1 := by
    intro t ht
    have a : rnd (exp (rampArgR rnd t_c t)) ≤ 1 := by
      have := hr.mono (he (rampArgR_mono hr (t_c := t_c) ht le_rfl).2)
      rwa [h1, one] at this
    have b : 0 ≤ rnd (exp (rampArgR rnd t_c t)) := z ▸ hr.mono (hpos _)
    constructor
    · have := hr.mono (sub_nonneg.2 a)
      rwa [z] at this
    · have := hr.mono (show 1 - rnd (exp (rampArgR rnd t_c t)) ≤ 1 by linarith)
      rwa [one] at this
  have up : ∀ t, 0 ≤ t → 0 ≤ m → 0 ≤ rampUpR rnd exp m t_c t ∧ rampUpR rnd exp m t_c t ≤ m := by
    intro t ht h
    obtain ⟨a, b⟩ := f t ht
    constructor
    · have := hr.mono (mul_nonneg h a)
      rwa [z] at this
    · have := hr.mono (mul_le_of_le_one_right h b)
      rwa [hm] at this
  have dn : ∀ t, 0 ≤ t → m ≤ 0 → m ≤ rampUpR rnd exp m t_c t ∧ rampUpR rnd exp m t_c t ≤ 0 := by
    intro t ht h
    obtain ⟨a, b⟩ := f t ht
    constructor
    · have := hr.mono (show m ≤ m * rnd (1 - rnd (exp (rampArgR rnd t_c t))) by nlinarith)
      rwa [hm] at this
    · have := hr.mono (mul_nonpos_of_nonpos_of_nonneg h a)
      rwa [z] at this
  refine ⟨?_, up, dn, ?_⟩
  · simp [rampUpR, rampArgR, z, h1, one]
  · intro t t' h0 h
    have g : rnd (1 - rnd (exp (rampArgR rnd t_c t))) ≤ rnd (1 - rnd (exp (rampArgR rnd t_c t'))) :=
      hr.mono (sub_le_sub_left (hr.mono (he (rampArgR_mono hr h0 h).1)) 1)
    rcases le_total 0 m with hs | hs
    · rw [abs_of_nonneg (up t h0 hs).1, abs_of_nonneg (up t' (h0.trans h) hs).1]
      exact hr.mono (mul_le_mul_of_nonneg_left g hs)
    · rw [abs_of_nonpos (dn t h0 hs).2, abs_of_nonpos (dn t' (h0.trans h) hs).2]
      exact neg_le_neg (hr.mono (mul_le_mul_of_nonpos_left g hs))

theorem rounds_neg (hr : Rounding rnd u) {x : K} (hx : x ≤ 0) : x + u * x ≤ rnd x ∧ rnd x ≤ x - u * x := by
  have := abs_le.1 (hr.err x)
  rw [abs_of_nonpos hx] at this
  constructor <;> linarith [this.1, this.2]

theorem rounds_pos (hr : Rounding rnd u) {x : K} (hx : 0 ≤ x) : x - u * x ≤ rnd x ∧ rnd x ≤ x + u * x := by
  have := abs_le.1 (hr.err x)
  rw [abs_of_nonneg hx] at this
  constructor <;> linarith [this.1, this.2]

end

section
variable {K : Type} [Field K] [LinearOrder K] [IsStrictOrderedRing K] [FloorRing K]

/-- A number next to one. -/
theorem fl_near_one {p : ℕ} (hp : 1 ≤ p) {z : K} (h1 : 1 - 1 / 2 ^ (p + 2) ≤ z) (h2 : z ≤ 1) : fl p z = 1 := by
  have one : fl p (1 : K) = 1 := by
    refine fl_rep (n := 2 ^ (p - 1)) one_pos ?_
    rw [Int.log_one_right]
    push_cast
    rw [← zpow_natCast, ← zpow_add₀ two_ne_zero, Nat.cast_sub hp]
    have : ((p : ℤ) - (1 : ℕ) + (0 - p + 1)) = 0 := by push_cast; ring
    rw [this, zpow_zero]
  have up : fl p z ≤ 1 := one ▸ fl_mono hp h2
  refine le_antisymm up ?_
  rcases h2.eq_or_lt with rfl | h2
  · exact one.ge
  have q : (0 : K) < 2 ^ p := by positivity
  have hq : (1 : K) / 2 ^ (p + 2) = 1 / 4 / 2 ^ p := by rw [pow_add]; field_simp; norm_num
  have hq1 : (1 : K) / 4 / 2 ^ p ≤ 1 / 4 := div_le_self (by norm_num) (one_le_pow₀ one_le_two)
  have hz : 0 < z := by linarith
  have hl : Int.log 2 |z| = -1 := by
    rw [abs_of_pos hz]
    refine le_antisymm ?_ ?_
    · have : Int.log 2 z < 0 := (Int.lt_zpow_iff_log_lt (b := 2) one_lt_two hz).1 (by simpa using h2)
      omega
    · refine (Int.zpow_le_iff_le_log (b := 2) one_lt_two hz).1 ?_
      rw [zpow_neg_one]
      push_cast
      linarith
  unfold fl
  rw [hl]
  have e : (-1 - (p : ℤ) + 1) = -p := by ring
  rw [e, zpow_neg, zpow_natCast, div_inv_eq_mul, ← div_eq_mul_inv, le_div_iff₀ q, one_mul]
  have r := (abs_le.1 (roundEven_err (z * 2 ^ p))).1
  have h3 : (2 : K) ^ p - 1 / 4 ≤ z * 2 ^ p := by
    have := mul_le_mul_of_nonneg_right h1 q.le
    rw [hq, sub_mul, one_mul, div_mul_cancel₀ _ q.ne'] at this
    exact this
  have h4 : ((2 ^ p - 1 : ℤ) : K) < roundEven (z * 2 ^ p) := by push_cast; linarith
  have h5 : (2 : ℤ) ^ p ≤ roundEven (z * 2 ^ p) := by have := Int.cast_lt.1 h4; omega
  exact_mod_cast h5

end

section
open Real

theorem exp_close {u x y : ℝ} (u0 : 0 ≤ u) (hu : u ≤ 1 / 100) (x0 : x ≤ 0) (up : y ≤ (1 - 5 * u) * x)
    (dn : (1 + 5 * u) * x ≤ y) : |exp y - exp x| ≤ 2 * u := by
  have key : ∀ w : ℝ, 0 ≤ w → w * exp (-w) ≤ 10 / 27 := by
    intro w hw
    have h1 := add_one_le_exp (w - 1)
    have h2 : exp (w - 1) * exp 1 = exp w := by rw [← exp_add]; ring_nf
    have h3 : w * exp 1 ≤ exp w := by
      rw [← h2]; exact mul_le_mul_of_nonneg_right (by linarith) (exp_pos 1).le
    have h4 : w * (27 / 10) ≤ exp w :=
      (mul_le_mul_of_nonneg_left (by linarith [exp_one_gt_d9]) hw).trans h3
    rw [exp_neg, ← div_eq_mul_inv, div_le_iff₀ (exp_pos w)]
    linarith
  set w := -((1 - 5 * u) * x) with hw
  have w0 : 0 ≤ w := by nlinarith
  have k := key w w0
  have lip : ∀ p q : ℝ, p ≤ q → q ≤ -w → exp q - exp p ≤ (q - p) * exp (-w) := by
    intro p q h1 h2
    have h3 := add_one_le_exp (p - q)
    have h4 : exp (p - q) * exp q = exp p := by rw [← exp_add]; ring_nf
    have h5 : (p - q + 1) * exp q ≤ exp p := by
      rw [← h4]; exact mul_le_mul_of_nonneg_right h3 (exp_pos q).le
    have h6 : (q - p) * exp q ≤ (q - p) * exp (-w) :=
      mul_le_mul_of_nonneg_left (exp_le_exp.2 h2) (by linarith)
    linarith
  have fin : -(5 * u * x) * exp (-w) ≤ 2 * u := by
    have h1 : -(5 * u * x) * (95 / 100) ≤ 5 * u * w := by
      rw [hw]; nlinarith [mul_nonneg u0 (neg_nonneg.2 x0)]
    have h2 := mul_le_mul_of_nonneg_right h1 (exp_pos (-w)).le
    have h3 : 5 * u * w * exp (-w) ≤ 5 * u * (10 / 27) := by
      rw [mul_assoc]; exact mul_le_mul_of_nonneg_left k (by linarith)
    nlinarith
  have xw : x ≤ -w := by rw [hw]; nlinarith
  have ew := (exp_pos (-w)).le
  rw [abs_le]
  constructor
  · rcases le_total x y with h | h
    · linarith [exp_le_exp.2 h]
    · have := lip y x h xw
      nlinarith
  · rcases le_total x y with h | h
    · have := lip x y h (by rw [hw]; linarith)
      nlinarith
    · linarith [exp_le_exp.2 h]

theorem rampArgR_close {rnd : ℝ → ℝ} {u : ℝ} (hr : Rounding rnd u) (hu : u ≤ 1 / 100) {t_c : ℝ}
    (hc : t_c ≠ 0) (t : ℝ) : -3 * t ^ 2 / t_c ^ 2 ≤ 0 ∧ rampArgR rnd t_c t ≤ 0 ∧
      rampArgR rnd t_c t ≤ (1 - 5 * u) * (-3 * t ^ 2 / t_c ^ 2) ∧
      (1 + 5 * u) * (-3 * t ^ 2 / t_c ^ 2) ≤ rampArgR rnd t_c t := by
  have z := hr.atZero
  have u0 := hr.nonneg
  set x := -3 * t ^ 2 / t_c ^ 2 with hx
  set y := rampArgR rnd t_c t with hy
  have c2 : 0 < t_c ^ 2 := by positivity
  have t2 := sq_nonneg t
  have a := rounds_pos hr t2
  have a0 : 0 ≤ rnd (t ^ 2) := z ▸ hr.mono t2
  have b := rounds_pos hr c2.le
  have bp : 0 < rnd (t_c ^ 2) := by nlinarith
  have c := rounds_neg hr (show -3 * rnd (t ^ 2) ≤ 0 by linarith)
  have c0 : rnd (-3 * rnd (t ^ 2)) ≤ 0 := by
    have := hr.mono (show -3 * rnd (t ^ 2) ≤ 0 by linarith)
    rwa [z] at this
  have x0 : x ≤ 0 := div_nonpos_of_nonpos_of_nonneg (by linarith) c2.le
  have xm : x * t_c ^ 2 = -3 * t ^ 2 := div_mul_cancel₀ _ c2.ne'
  have q0 : rnd (-3 * rnd (t ^ 2)) / rnd (t_c ^ 2) ≤ 0 := div_nonpos_of_nonpos_of_nonneg c0 bp.le
  have e := rounds_neg hr q0
  have y0 : y ≤ 0 := by
    have := hr.mono q0
    rwa [z] at this
  -- the argument
  have r1 : rnd (-3 * rnd (t ^ 2)) ≤ (1 - u) ^ 2 * (x * t_c ^ 2) := by rw [xm]; nlinarith
  have r2 : (1 + u) ^ 2 * (x * t_c ^ 2) ≤ rnd (-3 * rnd (t ^ 2)) := by rw [xm]; nlinarith
  have X : x * t_c ^ 2 ≤ 0 := mul_nonpos_of_nonpos_of_nonneg x0 c2.le
  have up : y ≤ (1 - 5 * u) * x := by
    have q1 : rnd (-3 * rnd (t ^ 2)) / rnd (t_c ^ 2) ≤ (1 - 3 * u) * x := by
      rw [div_le_iff₀ bp]
      refine r1.trans ?_
      have h1 : (1 + u) * (x * t_c ^ 2) ≤ x * rnd (t_c ^ 2) := by nlinarith
      have h2 : (1 - u) ^ 2 * (x * t_c ^ 2) ≤ (1 - 3 * u) * ((1 + u) * (x * t_c ^ 2)) := by
        nlinarith [mul_nonneg (sq_nonneg u) (neg_nonneg.2 X)]
      have h3 := mul_le_mul_of_nonneg_left h1 (show 0 ≤ 1 - 3 * u by linarith)
      linarith
    have h4 : (1 - u) * (rnd (-3 * rnd (t ^ 2)) / rnd (t_c ^ 2)) ≤ (1 - u) * ((1 - 3 * u) * x) :=
      mul_le_mul_of_nonneg_left q1 (by linarith)
    have h5 : (1 - u) * ((1 - 3 * u) * x) ≤ (1 - 5 * u) * x := by
      nlinarith [mul_nonneg u0 (neg_nonneg.2 x0), mul_nonneg (sq_nonneg u) (neg_nonneg.2 x0)]
    have h6 : y ≤ _ := e.2
    linarith
  have dn : (1 + 5 * u) * x ≤ y := by
    have q1 : (1 + 7 / 2 * u) * x ≤ rnd (-3 * rnd (t ^ 2)) / rnd (t_c ^ 2) := by
      rw [le_div_iff₀ bp]
      refine le_trans ?_ r2
      have h1 : x * rnd (t_c ^ 2) ≤ (1 - u) * (x * t_c ^ 2) := by nlinarith
      have h2 : (1 + 7 / 2 * u) * ((1 - u) * (x * t_c ^ 2)) ≤ (1 + u) ^ 2 * (x * t_c ^ 2) := by
        have : 0 ≤ u * (1 / 2 - 9 / 2 * u) * -(x * t_c ^ 2) :=
          mul_nonneg (mul_nonneg u0 (by linarith)) (neg_nonneg.2 X)
        nlinarith
      have h3 := mul_le_mul_of_nonneg_left h1 (show 0 ≤ 1 + 7 / 2 * u by linarith)
      linarith
    have h4 : (1 + u) * ((1 + 7 / 2 * u) * x) ≤ (1 + u) * (rnd (-3 * rnd (t ^ 2)) / rnd (t_c ^ 2)) :=
      mul_le_mul_of_nonneg_left q1 (by linarith)
    have h5 : (1 + 5 * u) * x ≤ (1 + u) * ((1 + 7 / 2 * u) * x) := by
      have : 0 ≤ u * (1 / 2 - 7 / 2 * u) * -x := mul_nonneg (mul_nonneg u0 (by linarith)) (neg_nonneg.2 x0)
      nlinarith
    have h6 : _ ≤ y := e.1
    linarith
  exact ⟨x0, y0, up, dn⟩

/-- C153.  At any time the error of the ramp is at most five roundings of its final value: relative to the load
itself, which starts from zero, it is not bounded. -/
theorem c153_error {rnd : ℝ → ℝ} {u : ℝ} (hr : Rounding rnd u) (one : rnd 1 = 1) (hu : u ≤ 1 / 100) (m : ℝ) {t_c : ℝ}
    (hc : t_c ≠ 0) (t : ℝ) : |rampUpR rnd exp m t_c t - rampUp exp m t_c t| ≤ 5 * u * |m| := by
  have z := hr.atZero
  have u0 := hr.nonneg
  obtain ⟨x0, y0, up, dn⟩ := rampArgR_close hr hu hc t
  unfold rampUpR rampUp
  generalize -3 * t ^ 2 / t_c ^ 2 = x at *
  generalize rampArgR rnd t_c t = y at *
  -- the exponential
  have E := exp_close u0 hu x0 up dn
  -- the rest
  have E0 := exp_pos y
  have E1 : exp y ≤ 1 := exp_le_one_iff.2 y0
  have X0 := exp_pos x
  have X1 : exp x ≤ 1 := exp_le_one_iff.2 x0
  have f := hr.err (exp y)
  rw [abs_of_pos E0] at f
  have f0 : 0 ≤ rnd (exp y) := z ▸ hr.mono E0.le
  have f1 : rnd (exp y) ≤ 1 := one ▸ hr.mono E1
  have g := hr.err (1 - rnd (exp y))
  rw [abs_of_nonneg (sub_nonneg.2 f1)] at g
  have g0 : 0 ≤ rnd (1 - rnd (exp y)) := z ▸ hr.mono (by linarith)
  have g1 : rnd (1 - rnd (exp y)) ≤ 1 := one ▸ hr.mono (by linarith)
  have D : |rnd (1 - rnd (exp y)) - (1 - exp x)| ≤ 4 * u := by
    rw [abs_le] at f g E ⊢
    constructor <;> nlinarith
  have h := hr.err (m * rnd (1 - rnd (exp y)))
  rw [abs_mul, abs_of_nonneg g0] at h
  have h' : |rnd (m * rnd (1 - rnd (exp y))) - m * rnd (1 - rnd (exp y))| ≤ u * |m| :=
    h.trans (mul_le_mul_of_nonneg_left (mul_le_of_le_one_right (abs_nonneg m) g1) u0)
  have k : |m * rnd (1 - rnd (exp y)) - m * (1 - exp x)| ≤ 4 * u * |m| := by
    rw [← mul_sub, abs_mul, mul_comm]
    exact mul_le_mul_of_nonneg_right D (abs_nonneg m)
  have := abs_sub_le (rnd (m * rnd (1 - rnd (exp y)))) (m * rnd (1 - rnd (exp y))) (m * (1 - exp x))
  linarith

/-- C153.  In double precision nothing happens at first: up to a billionth of the ramp time the load is exactly zero. -/
theorem c153_dead (m : ℝ) {t_c t : ℝ} (hc : 0 < t_c) (h0 : 0 ≤ t) (h : t ≤ t_c / 10 ^ 9) :
    rampUpR (fl 53) exp m t_c t = 0 := by
  have hr := c136_bits (K := ℝ) (p := 53) (by decide)
  have z := hr.atZero
  have hx : -(1 / 2 ^ 55) ≤ rampArgR (fl 53) t_c t := by
    have ht : t ^ 2 ≤ t_c ^ 2 / 10 ^ 18 := by
      have := pow_le_pow_left₀ h0 h 2
      rw [div_pow] at this
      norm_num at this ⊢
      exact this
    have a := rounds_pos hr (sq_nonneg t)
    have b := rounds_pos hr (sq_nonneg t_c)
    have c := rounds_neg hr (show -3 * fl 53 (t ^ 2) ≤ 0 by linarith [fl_nonneg (p := 53) (by decide) (sq_nonneg t)])
    have c2 : 0 < t_c ^ 2 := by positivity
    have bp : 0 < fl 53 (t_c ^ 2) := by norm_num at b; linarith
    have d : -(1 / 2 ^ 56) ≤ fl 53 (-3 * fl 53 (t ^ 2)) / fl 53 (t_c ^ 2) := by
      rw [le_div_iff₀ bp]
      norm_num at a b c ⊢
      linarith
    have d0 : fl 53 (-3 * fl 53 (t ^ 2)) / fl 53 (t_c ^ 2) ≤ 0 := by
      refine div_nonpos_of_nonpos_of_nonneg ?_ bp.le
      have := hr.mono (show -3 * fl 53 (t ^ 2) ≤ 0 by linarith [fl_nonneg (p := 53) (by decide) (sq_nonneg t)])
      rwa [z] at this
    have e := (rounds_neg hr d0).1
    unfold rampArgR
    norm_num at d e ⊢
    linarith
  have hx0 : rampArgR (fl 53) t_c t ≤ 0 := (rampArgR_mono hr h0 le_rfl).2
  have hE : fl 53 (exp (rampArgR (fl 53) t_c t)) = 1 := by
    refine fl_near_one (by decide) ?_ (exp_le_one_iff.2 hx0)
    linarith [add_one_le_exp (rampArgR (fl 53) t_c t)]
  unfold rampUpR
  rw [hE, sub_self, z, mul_zero, z]

/-- C153.  And from four times the ramp time on the load is exactly its final value, which without rounding it never
reaches. -/
theorem c153_full {m : ℝ} (hm : fl 53 m = m) {t_c t : ℝ} (hc : 0 < t_c) (h : 4 * t_c ≤ t) :
    rampUpR (fl 53) exp m t_c t = m ∧ (m ≠ 0 → rampUp exp m t_c t ≠ m) := by
  have hr := c136_bits (K := ℝ) (p := 53) (by decide)
  have z := hr.atZero
  have h0 : 0 ≤ t := by linarith
  have hx : rampArgR (fl 53) t_c t ≤ -40 := by
    have ht : 16 * t_c ^ 2 ≤ t ^ 2 := by nlinarith
    have a := rounds_pos hr (sq_nonneg t)
    have b := rounds_pos hr (sq_nonneg t_c)
    have c := rounds_neg hr (show -3 * fl 53 (t ^ 2) ≤ 0 by linarith [fl_nonneg (p := 53) (by decide) (sq_nonneg t)])
    have c2 : 0 < t_c ^ 2 := by positivity
    have bp : 0 < fl 53 (t_c ^ 2) := by norm_num at b; linarith
    have d : fl 53 (-3 * fl 53 (t ^ 2)) / fl 53 (t_c ^ 2) ≤ -45 := by
      rw [div_le_iff₀ bp]
      norm_num at a b c ⊢
      linarith
    have e := (rounds_neg hr (d.trans (by norm_num))).2
    unfold rampArgR
    norm_num at d e ⊢
    linarith
  have hE : exp (rampArgR (fl 53) t_c t) ≤ 1 / 2 ^ 56 := by
    refine (exp_le_exp.2 hx).trans ?_
    rw [exp_neg, inv_eq_one_div]
    refine one_div_le_one_div_of_le (by positivity) ?_
    have e1 : exp 40 = exp 1 ^ 40 := by rw [← exp_nat_mul]; norm_num
    rw [e1]
    refine le_trans ?_ (pow_le_pow_left₀ (by norm_num) exp_one_gt_d9.le 40)
    norm_num
  have hp := (exp_pos (rampArgR (fl 53) t_c t)).le
  have hF := rounds_pos hr hp
  have hF0 := fl_nonneg (p := 53) (by decide) hp
  have h1 : fl 53 (1 - fl 53 (exp (rampArgR (fl 53) t_c t))) = 1 := by
    refine fl_near_one (by decide) ?_ (by linarith)
    norm_num at hF hE ⊢
    linarith [hF.2]
  constructor
  · unfold rampUpR
    rw [h1, mul_one, hm]
  · intro h2 h3
    have := (c102_ramp m hc.ne').2.2.2.2 t h2
    rw [h3] at this
    exact lt_irrefl _ this

theorem Ex.ten : fl 53 (-10 : ℝ) = -10 := by
  have h : fl 53 (10 : ℝ) = 10 := by
    refine fl_rep (n := 5 * 2 ^ 50) (by norm_num) ?_
    have : Int.log 2 (10 : ℝ) = 3 := by
      have := Int.log_natCast (R := ℝ) 2 10
      push_cast at this
      rw [this]
      decide
    rw [this]
    norm_num
  rw [fl_neg, h]

/-- C153.  Gravity of -10 and a ramp of half a second. -/
example : rampUpR (fl 53) exp (-10) (1 / 2) (1 / 10 ^ 10) = 0 ∧ rampUp exp (-10) (1 / 2) (1 / 10 ^ 10) ≠ 0 ∧
    rampUpR (fl 53) exp (-10) (1 / 2) 2 = -10 ∧ rampUp exp (-10) (1 / 2) 2 ≠ -10 := by
  obtain ⟨h1, h2⟩ := c153_full Ex.ten (t_c := 1 / 2) (t := 2) (by norm_num) (by norm_num)
  refine ⟨c153_dead _ (by norm_num) (by norm_num) (by norm_num), ?_, h1, h2 (by norm_num)⟩
  unfold rampUp
  have : exp (-3 * (1 / 10 ^ 10) ^ 2 / (1 / 2) ^ 2) < 1 := by
    rw [← exp_zero]; exact exp_lt_exp.2 (by norm_num)
  intro h
  linarith

/-- C153.  The same ramp in between. -/
example : rampUpR (fl 53) exp (-10) (1 / 2) (1 / 4) ≤ 0 ∧
    |rampUpR (fl 53) exp (-10) (1 / 2) (1 / 4)| ≤ |rampUpR (fl 53) exp (-10) (1 / 2) (1 / 3)| ∧
    |rampUpR (fl 53) exp (-10) (1 / 2) (1 / 4) - rampUp exp (-10) (1 / 2) (1 / 4)| ≤ 5 * (1 / 2 ^ 53) * 10 := by
  have hr := c136_bits (K := ℝ) (p := 53) (by decide)
  have one : fl 53 (1 : ℝ) = 1 := fl_near_one (by decide) (by norm_num) le_rfl
  obtain ⟨-, -, h3, h4⟩ := c153_ramp hr one exp_monotone exp_zero (fun x => (exp_pos x).le) Ex.ten (1 / 2)
  have h5 := c153_error hr one (by norm_num) (-10) (t_c := 1 / 2) (by norm_num) (1 / 4)
  rw [abs_neg, abs_of_pos (show (0 : ℝ) < 10 by norm_num)] at h5
  exact ⟨(h3 _ (by norm_num) (by norm_num)).2, h4 _ _ (by norm_num) (by norm_num), h5⟩

end
end Mpm

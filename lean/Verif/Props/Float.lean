import Mathlib.Data.Rat.Floor
import Mathlib.Tactic.LinearCombination
import Verif.Model.Float
import Verif.Props.Loop

/-!
# The main loop in floating point (C136)
-/

set_option linter.unusedSectionVars false

namespace Mpm
open Spec

namespace Spec
section
variable {K : Type} [Field K] [LinearOrder K]

/-- What is used of the rounding of floating point numbers: it is monotone, leaves its own results
alone, and its relative error is at most `u`. -/
structure Rounding (rnd : K → K) (u : K) : Prop where
  nonneg : 0 ≤ u
  small : u ≤ 1 / 2
  mono : Monotone rnd
  fix : ∀ x, rnd (rnd x) = rnd x
  err : ∀ x, |rnd x - x| ≤ u * |x|

/-- The numbers with `p` significant bits. -/
def IsFloat (p : ℕ) (y : K) : Prop := ∃ n e : ℤ, |n| < 2 ^ p ∧ y = n * 2 ^ e

/-- A time step that leaves the clock alone. -/
def KeepsClock {P : Par K} (march : St P → Res (St P)) : Prop :=
  ∀ s u, march s = .ok u → u.dyn.t = s.dyn.t ∧ u.dyn.dt = s.dyn.dt ∧ u.dyn.tstep = s.dyn.tstep

/-- The times shown by a clock that adds `dt` again and again and rounds. -/
def clock (rnd : K → K) (t₀ dt : K) : ℕ → K
  | 0 => t₀
  | k + 1 => rnd (clock rnd t₀ dt k + dt)

end
end Spec

section
variable {K : Type} [Field K] [LinearOrder K] [IsStrictOrderedRing K] [FloorRing K]

/-! ## Rounding to `p` bits -/

theorem roundEven_le (x : K) : ⌊x⌋ ≤ roundEven x ∧ roundEven x ≤ ⌊x⌋ + 1 := by
  unfold roundEven
  split_ifs <;> omega

theorem roundEven_err (x : K) : |(roundEven x : K) - x| ≤ 1 / 2 := by
  have h1 := Int.floor_le x
  have h2 := Int.lt_floor_add_one x
  unfold roundEven
  split_ifs with a b c <;> push_cast <;> rw [abs_le] <;> constructor <;> linarith

theorem roundEven_int (n : ℤ) : roundEven (n : K) = n := by
  unfold roundEven
  rw [Int.floor_intCast, sub_self, if_pos (by norm_num)]

theorem roundEven_mono : Monotone (roundEven : K → ℤ) := by
  intro x y h
  rcases (Int.floor_mono h).lt_or_eq with hf | hf
  · have := (roundEven_le x).2
    have := (roundEven_le y).1
    omega
  · have hx : x - (⌊y⌋ : K) ≤ y - (⌊y⌋ : K) := by linarith
    unfold roundEven
    rw [hf]
    split_ifs <;> first | omega | (exfalso; linarith)

theorem roundEven_neg (x : K) : roundEven (-x) = -roundEven x := by
  by_cases hx : ∃ n : ℤ, x = n
  · obtain ⟨n, rfl⟩ := hx
    rw [← Int.cast_neg, roundEven_int, roundEven_int]
  · have h1 := Int.floor_le x
    have h2 := Int.lt_floor_add_one x
    have h3 : (⌊x⌋ : K) ≠ x := fun e => hx ⟨_, e.symm⟩
    have hf : ⌊-x⌋ = -⌊x⌋ - 1 := by
      rw [Int.floor_eq_iff]
      push_cast
      constructor
      · linarith
      · have := lt_of_le_of_ne h1 h3
        linarith
    unfold roundEven
    rw [hf]
    push_cast
    split_ifs <;> first | omega | (exfalso; linarith)

theorem two_zpow_pos (e : ℤ) : (0 : K) < 2 ^ e := zpow_pos two_pos e

theorem log_spec {x : K} (hx : 0 < x) : (2 : K) ^ Int.log 2 x ≤ x ∧ x < 2 ^ (Int.log 2 x + 1) := by
  have h1 := Int.zpow_log_le_self (b := 2) (r := x) (by norm_num) hx
  have h2 := Int.lt_zpow_succ_log_self (b := 2) (by norm_num) x
  exact ⟨by exact_mod_cast h1, by exact_mod_cast h2⟩

theorem log_eq {x : K} {e : ℤ} (h1 : (2 : K) ^ e ≤ x) (h2 : x < 2 ^ (e + 1)) : Int.log 2 x = e := by
  have hx : 0 < x := (two_zpow_pos e).trans_le h1
  obtain ⟨g1, g2⟩ := log_spec hx
  have a : e < Int.log 2 x + 1 :=
    (zpow_lt_zpow_iff_right₀ (a := (2 : K)) one_lt_two).1 (h1.trans_lt g2)
  have b : Int.log 2 x < e + 1 :=
    (zpow_lt_zpow_iff_right₀ (a := (2 : K)) one_lt_two).1 (g1.trans_lt h2)
  omega

theorem fl_zero (p : ℕ) : fl p (0 : K) = 0 := by
  unfold fl
  rw [zero_div]
  have := roundEven_int (K := K) 0
  rw [Int.cast_zero] at this
  rw [this, Int.cast_zero, zero_mul]

theorem fl_neg (p : ℕ) (x : K) : fl p (-x) = -fl p x := by
  unfold fl
  rw [abs_neg, neg_div, roundEven_neg]
  push_cast
  ring

/-- The significand of a positive number. -/
theorem fl_range {p : ℕ} (hp : 1 ≤ p) {x : K} (hx : 0 < x) :
    (2 : ℤ) ^ (p - 1) ≤ roundEven (x / 2 ^ (Int.log 2 x - p + 1)) ∧
      roundEven (x / 2 ^ (Int.log 2 x - p + 1)) ≤ (2 : ℤ) ^ p := by
  obtain ⟨h1, h2⟩ := log_spec hx
  have hu := two_zpow_pos (K := K) (Int.log 2 x - p + 1)
  have e1 : ((2 ^ (p - 1) : ℤ) : K) = 2 ^ Int.log 2 x / 2 ^ (Int.log 2 x - p + 1) := by
    rw [← zpow_sub₀ two_ne_zero, show Int.log 2 x - (Int.log 2 x - p + 1) = ((p - 1 : ℕ) : ℤ) by omega,
      zpow_natCast]
    push_cast; rfl
  have e2 : ((2 ^ p : ℤ) : K) = 2 ^ (Int.log 2 x + 1) / 2 ^ (Int.log 2 x - p + 1) := by
    rw [← zpow_sub₀ two_ne_zero, show Int.log 2 x + 1 - (Int.log 2 x - p + 1) = (p : ℤ) by omega,
      zpow_natCast]
    push_cast; rfl
  constructor
  · rw [← roundEven_int (K := K) (2 ^ (p - 1)), e1]
    exact roundEven_mono (div_le_div_of_nonneg_right h1 hu.le)
  · rw [← roundEven_int (K := K) (2 ^ p), e2]
    exact roundEven_mono (div_le_div_of_nonneg_right h2.le hu.le)

theorem fl_between {p : ℕ} (hp : 1 ≤ p) {x : K} (hx : 0 < x) :
    (2 : K) ^ Int.log 2 x ≤ fl p x ∧ fl p x ≤ 2 ^ (Int.log 2 x + 1) := by
  obtain ⟨h1, h2⟩ := fl_range hp hx
  have hu := two_zpow_pos (K := K) (Int.log 2 x - p + 1)
  unfold fl
  rw [abs_of_pos hx]
  have c1 : ((2 ^ (p - 1) : ℤ) : K) ≤ (roundEven (x / 2 ^ (Int.log 2 x - p + 1)) : ℤ) := by
    exact_mod_cast h1
  have c2 : ((roundEven (x / 2 ^ (Int.log 2 x - p + 1)) : ℤ) : K) ≤ ((2 ^ p : ℤ) : K) := by
    exact_mod_cast h2
  constructor
  · refine le_trans (le_of_eq ?_) (mul_le_mul_of_nonneg_right c1 hu.le)
    push_cast
    rw [← zpow_natCast, ← zpow_add₀ two_ne_zero]
    congr 1
    omega
  · refine le_trans (mul_le_mul_of_nonneg_right c2 hu.le) (le_of_eq ?_)
    push_cast
    rw [← zpow_natCast, ← zpow_add₀ two_ne_zero]
    congr 1
    omega

theorem fl_nonneg {p : ℕ} (hp : 1 ≤ p) {x : K} (hx : 0 ≤ x) : 0 ≤ fl p x := by
  rcases hx.eq_or_lt with rfl | hx
  · rw [fl_zero]
  · exact (two_zpow_pos _).le.trans (fl_between hp hx).1

theorem fl_mono_pos {p : ℕ} (hp : 1 ≤ p) {x y : K} (hx : 0 < x) (h : x ≤ y) : fl p x ≤ fl p y := by
  have hy := hx.trans_le h
  rcases (Int.log_mono_right (b := 2) hx h).lt_or_eq with hl | hl
  · refine (fl_between hp hx).2.trans (le_trans ?_ (fl_between hp hy).1)
    exact zpow_le_zpow_right₀ one_le_two hl
  · unfold fl
    rw [abs_of_pos hx, abs_of_pos hy, hl]
    have hu := two_zpow_pos (K := K) (Int.log 2 y - p + 1)
    refine mul_le_mul_of_nonneg_right ?_ hu.le
    exact_mod_cast roundEven_mono (div_le_div_of_nonneg_right h hu.le)

theorem fl_mono {p : ℕ} (hp : 1 ≤ p) : Monotone (fl p : K → K) := by
  intro x y h
  rcases lt_or_ge 0 x with hx | hx
  · exact fl_mono_pos hp hx h
  · rcases lt_or_ge y 0 with hy | hy
    · have := fl_mono_pos hp (neg_pos.2 hy) (neg_le_neg h)
      rw [fl_neg, fl_neg] at this
      linarith
    · have h1 := fl_nonneg hp (neg_nonneg.2 hx)
      rw [fl_neg] at h1
      have h2 := fl_nonneg hp hy
      linarith

/-- A number with at most `p` bits is not changed. -/
theorem fl_rep {p : ℕ} {x : K} (hx : 0 < x) {n : ℤ} (h : x = n * 2 ^ (Int.log 2 x - p + 1)) :
    fl p x = x := by
  have hu := two_zpow_pos (K := K) (Int.log 2 x - p + 1)
  unfold fl
  rw [abs_of_pos hx]
  have : x / 2 ^ (Int.log 2 x - p + 1) = n := by rw [div_eq_iff hu.ne']; exact h
  rw [this, roundEven_int]
  exact h.symm

theorem fl_fix_pos {p : ℕ} (hp : 1 ≤ p) {x : K} (hx : 0 < x) : fl p (fl p x) = fl p x := by
  obtain ⟨h1, h2⟩ := fl_between hp hx
  obtain ⟨-, g2⟩ := fl_range hp hx
  have hpos : 0 < fl p x := (two_zpow_pos _).trans_le h1
  have hf : fl p x = (roundEven (x / 2 ^ (Int.log 2 x - p + 1)) : ℤ) * 2 ^ (Int.log 2 x - p + 1) := by
    unfold fl
    rw [abs_of_pos hx]
  rcases h2.lt_or_eq with h2 | h2
  · have e := log_eq h1 h2
    refine fl_rep hpos (n := roundEven (x / 2 ^ (Int.log 2 x - p + 1))) ?_
    rw [e]
    exact hf
  · have e : Int.log 2 (fl p x) = Int.log 2 x + 1 :=
      log_eq h2.ge (by rw [h2]; exact zpow_lt_zpow_right₀ one_lt_two (by omega))
    refine fl_rep hpos (n := 2 ^ (p - 1)) ?_
    rw [e, h2]
    push_cast
    rw [← zpow_natCast, ← zpow_add₀ two_ne_zero]
    congr 1
    omega

theorem fl_err (p : ℕ) (x : K) : |fl p x - x| ≤ 1 / 2 ^ p * |x| := by
  rcases eq_or_ne x 0 with rfl | hx
  · rw [fl_zero]; simp
  obtain ⟨h1, -⟩ := log_spec (abs_pos.2 hx)
  have hu := two_zpow_pos (K := K) (Int.log 2 |x| - p + 1)
  have e : fl p x - x = ((roundEven (x / 2 ^ (Int.log 2 |x| - p + 1)) : ℤ) -
      x / 2 ^ (Int.log 2 |x| - p + 1)) * 2 ^ (Int.log 2 |x| - p + 1) := by
    rw [sub_mul, div_mul_cancel₀ _ hu.ne']
    rfl
  rw [e, abs_mul, abs_of_pos hu]
  refine (mul_le_mul_of_nonneg_right (roundEven_err _) hu.le).trans ?_
  have e2 : (1 / 2 : K) * 2 ^ (Int.log 2 |x| - p + 1) = 1 / 2 ^ p * 2 ^ Int.log 2 |x| := by
    rw [zpow_add₀ two_ne_zero, zpow_sub₀ two_ne_zero, zpow_one, zpow_natCast]
    field_simp
  rw [e2]
  exact mul_le_mul_of_nonneg_left h1 (by positivity)

/-- C136.  Rounding to `p` bits is monotone, changes no number of `p` bits, and has relative error
at most `2^-p`. -/
theorem c136_bits {p : ℕ} (hp : 1 ≤ p) : Rounding (fl p : K → K) (1 / 2 ^ p) := by
  refine ⟨by positivity, ?_, fl_mono hp, ?_, fl_err p⟩
  · rw [div_le_div_iff_of_pos_left one_pos (by positivity) two_pos]
    exact le_self_pow₀ one_le_two (by omega)
  · intro x
    rcases lt_trichotomy x 0 with hx | rfl | hx
    · have := fl_fix_pos hp (neg_pos.2 hx)
      rw [fl_neg, fl_neg] at this
      exact neg_injective this
    · rw [fl_zero, fl_zero]
    · exact fl_fix_pos hp hx

/-- C136.  It gives a number of `p` bits. -/
theorem c136_float {p : ℕ} (hp : 1 ≤ p) (x : K) : IsFloat p (fl p x) := by
  have pos : ∀ {x : K}, 0 < x → IsFloat p (fl p x) := by
    intro x hx
    obtain ⟨h1, h2⟩ := fl_range hp hx
    rcases h2.lt_or_eq with h | h
    · refine ⟨_, Int.log 2 x - p + 1, ?_, by unfold fl; rw [abs_of_pos hx]⟩
      rw [abs_of_nonneg (le_trans (by positivity) h1)]
      exact h
    · refine ⟨1, Int.log 2 x + 1, ?_, ?_⟩
      · rw [abs_one]
        exact one_lt_pow₀ one_lt_two (by omega)
      · unfold fl
        rw [abs_of_pos hx, h]
        push_cast
        rw [one_mul, ← zpow_natCast, ← zpow_add₀ two_ne_zero]
        congr 1
        omega
  rcases lt_trichotomy x 0 with hx | rfl | hx
  · obtain ⟨n, e, hn, h⟩ := pos (neg_pos.2 hx)
    refine ⟨-n, e, by rw [abs_neg]; exact hn, ?_⟩
    rw [fl_neg] at h
    push_cast
    rw [neg_mul, ← h, neg_neg]
  · exact ⟨0, 0, by rw [abs_zero]; positivity, by rw [fl_zero]; simp⟩
  · exact pos hx

theorem roundEven_nearest (z : K) (n : ℤ) :
    |(roundEven z : K) - z| ≤ |(n : K) - z| ∧
      (|(roundEven z : K) - z| = |(n : K) - z| → n = roundEven z ∨ roundEven z % 2 = 0) := by
  have h1 := Int.floor_le z
  have h2 := Int.lt_floor_add_one z
  rcases lt_trichotomy n ⌊z⌋ with h | h | h
  · have hn : (n : K) + 1 ≤ ⌊z⌋ := by exact_mod_cast h
    have e : |(n : K) - z| = z - n := by rw [abs_sub_comm]; exact abs_of_nonneg (by linarith)
    have := roundEven_err z
    rw [e]
    refine ⟨by linarith, fun he => ?_⟩
    linarith
  · subst h
    have e : |((⌊z⌋ : ℤ) : K) - z| = z - ⌊z⌋ := by rw [abs_sub_comm]; exact abs_of_nonneg (by linarith)
    rw [e]
    unfold roundEven
    split_ifs with a b c
    · rw [e]; exact ⟨le_rfl, fun _ => .inl rfl⟩
    · push_cast
      rw [abs_of_nonneg (by linarith)]
      exact ⟨by linarith, fun he => by linarith⟩
    · rw [e]; exact ⟨le_rfl, fun _ => .inl rfl⟩
    · push_cast
      rw [abs_of_nonneg (by linarith)]
      exact ⟨by linarith, fun _ => .inr (by omega)⟩
  · have hn : (⌊z⌋ : K) + 1 ≤ n := by exact_mod_cast h
    have e : |(n : K) - z| = n - z := abs_of_nonneg (by linarith)
    rw [e]
    unfold roundEven
    have e0 : |((⌊z⌋ : ℤ) : K) - z| = z - ⌊z⌋ := by rw [abs_sub_comm]; exact abs_of_nonneg (by linarith)
    split_ifs with a b c
    · rw [e0]; exact ⟨by linarith, fun he => by linarith⟩
    · push_cast
      rw [abs_of_nonneg (by linarith)]
      refine ⟨by linarith, fun he => .inl ?_⟩
      have : (n : K) = ((⌊z⌋ + 1 : ℤ) : K) := by push_cast; linarith
      exact_mod_cast this
    · rw [e0]; exact ⟨by linarith, fun _ => .inr c⟩
    · push_cast
      rw [abs_of_nonneg (by linarith)]
      refine ⟨by linarith, fun he => .inl ?_⟩
      have : (n : K) = ((⌊z⌋ + 1 : ℤ) : K) := by push_cast; linarith
      exact_mod_cast this

/-- C136.  No number of `p` bits is nearer, and in case of a tie the even multiple of the spacing
of the numbers of that size is taken. -/
theorem c136_nearest {p : ℕ} (hp : 1 ≤ p) {x y : K} (hx : x ≠ 0) (hy : IsFloat p y) :
    |fl p x - x| ≤ |y - x| ∧ (|fl p x - x| = |y - x| → y = fl p x ∨
      ∃ n : ℤ, n % 2 = 0 ∧ fl p x = n * 2 ^ (Int.log 2 |x| - p + 1)) := by
  obtain ⟨m, k, hm, rfl⟩ := hy
  obtain ⟨h1, -⟩ := log_spec (abs_pos.2 hx)
  have hu := two_zpow_pos (K := K) (Int.log 2 |x| - p + 1)
  set s : K := 2 ^ (Int.log 2 |x| - p + 1) with hs
  have scale : ∀ n : ℤ, |(n : K) * s - x| = |(n : K) - x / s| * s := by
    intro n
    rw [← abs_of_pos hu, ← abs_mul, abs_of_pos hu, sub_mul, div_mul_cancel₀ _ hu.ne']
  have hfl : fl p x = (roundEven (x / s) : ℤ) * s := rfl
  -- multiples of the spacing
  have mult : ∀ n : ℤ, |fl p x - x| ≤ |(n : K) * s - x| ∧
      (|fl p x - x| = |(n : K) * s - x| → (n : K) * s = fl p x ∨
        ∃ n : ℤ, n % 2 = 0 ∧ fl p x = n * s) := by
    intro n
    obtain ⟨a, b⟩ := roundEven_nearest (x / s) n
    rw [hfl, scale, scale]
    refine ⟨mul_le_mul_of_nonneg_right a hu.le, fun he => ?_⟩
    rcases b (mul_right_cancel₀ hu.ne' he) with h | h
    · left; rw [h]
    · right; exact ⟨_, h, rfl⟩
  by_cases hk : Int.log 2 |x| - p + 1 ≤ k
  · obtain ⟨j, hj⟩ := Int.eq_ofNat_of_zero_le (sub_nonneg.2 hk)
    have e : (m : K) * 2 ^ k = ((m * 2 ^ j : ℤ) : K) * s := by
      push_cast
      rw [hs, mul_assoc, ← zpow_natCast, ← zpow_add₀ two_ne_zero]
      congr 2
      omega
    rw [e]
    exact mult _
  · -- smaller than all numbers of the size of `x`
    have hy : |(m : K) * 2 ^ k| < 2 ^ Int.log 2 |x| := by
      rw [abs_mul, abs_of_pos (two_zpow_pos (K := K) k)]
      have hm' : |(m : K)| < 2 ^ (p : ℤ) := by
        rw [zpow_natCast]
        exact_mod_cast hm
      calc |(m : K)| * 2 ^ k < 2 ^ (p : ℤ) * 2 ^ k := mul_lt_mul_of_pos_right hm' (two_zpow_pos k)
        _ = 2 ^ ((p : ℤ) + k) := (zpow_add₀ two_ne_zero _ _).symm
        _ ≤ 2 ^ Int.log 2 |x| := zpow_le_zpow_right₀ one_le_two (by omega)
    have hlt : |fl p x - x| < |(m : K) * 2 ^ k - x| := by
      have e2 : (2 : K) ^ Int.log 2 |x| = ((2 ^ (p - 1) : ℤ) : K) * s := by
        push_cast
        rw [hs, ← zpow_natCast, ← zpow_add₀ two_ne_zero]
        congr 1
        omega
      have h3 : |fl p x - x| ≤ |x| - 2 ^ Int.log 2 |x| := by
        rcases abs_cases x with ⟨ha, -⟩ | ⟨ha, -⟩
        · have := (mult (2 ^ (p - 1))).1
          have a : |(2 : K) ^ Int.log 2 |x| - x| = x - 2 ^ Int.log 2 |x| := by
            rw [abs_sub_comm]; exact abs_of_nonneg (by linarith)
          rw [← e2, a] at this
          linarith
        · have := (mult (-2 ^ (p - 1))).1
          rw [Int.cast_neg, neg_mul, ← e2, abs_of_nonneg (a := -(2 : K) ^ Int.log 2 |x| - x)
            (by linarith)] at this
          linarith
      have h4 := abs_sub_abs_le_abs_sub x ((m : K) * 2 ^ k)
      rw [abs_sub_comm] at h4
      linarith
    exact ⟨hlt.le, fun he => absurd he hlt.ne⟩

/-- C136.  The bound for ties is met: between `1` and `1 + 2^-52` the even one is `1`, between `1 + 2^-52`
and `1 + 2^-51` it is `1 + 2^-51`. -/
example : fl 53 (1 + 1 / 2 ^ 53 : ℚ) = 1 ∧ fl 53 (1 + 3 / 2 ^ 53 : ℚ) = 1 + 1 / 2 ^ 51 ∧
    IsFloat 53 (1 + 1 / 2 ^ 52 : ℚ) := by
  refine ⟨by decide +kernel, by decide +kernel, 2 ^ 52 + 1, -52, by norm_num, ?_⟩
  norm_num

/-- C136.  A small enough increment is lost altogether. -/
theorem c136_lost {p : ℕ} (hp : 1 ≤ p) {t dt : K} (ht : 0 < t) (hr : fl p t = t) (h0 : 0 ≤ dt)
    (h : dt * 2 ^ (p + 1) ≤ t) : fl p (t + dt) = t := by
  obtain ⟨h1, h2⟩ := log_spec ht
  set e := Int.log 2 t with he
  have hu := two_zpow_pos (K := K) (e - p + 1)
  set n := roundEven (t / 2 ^ (e - p + 1)) with hn
  have ht' : t = n * 2 ^ (e - p + 1) := by
    conv_lhs => rw [← hr]
    unfold fl
    rw [abs_of_pos ht]
  have hs : dt < 1 / 2 * 2 ^ (e - p + 1) := by
    have : dt * 2 ^ (p + 1) < 2 ^ (e + 1) := h.trans_lt h2
    have e3 : (1 / 2 : K) * 2 ^ (e - p + 1) * 2 ^ (p + 1) = 2 ^ (e + 1) := by
      rw [zpow_add₀ two_ne_zero, zpow_sub₀ two_ne_zero, zpow_natCast, zpow_add₀ two_ne_zero, pow_succ,
        zpow_one]
      field_simp
    rw [← e3] at this
    exact lt_of_mul_lt_mul_right this (by positivity)
  have hp2 : (2 : K) ^ (e + 1) = ((2 ^ p : ℤ) : K) * 2 ^ (e - p + 1) := by
    push_cast
    rw [← zpow_natCast, ← zpow_add₀ two_ne_zero]
    congr 1
    omega
  have hn2 : n + 1 ≤ 2 ^ p := by
    rw [hp2, ht'] at h2
    have := lt_of_mul_lt_mul_right h2 hu.le
    exact_mod_cast this
  have hlt : t + dt < 2 ^ (e + 1) := by
    have : ((n : K) + 1) * 2 ^ (e - p + 1) ≤ 2 ^ (e + 1) := by
      rw [hp2]
      refine mul_le_mul_of_nonneg_right ?_ hu.le
      exact_mod_cast hn2
    nlinarith
  have hl : Int.log 2 (t + dt) = e := log_eq (by linarith) hlt
  have hq : (t + dt) / 2 ^ (e - p + 1) = n + dt / 2 ^ (e - p + 1) := by
    rw [add_div]
    congr 1
    rw [div_eq_iff hu.ne']
    exact ht'
  have d0 : 0 ≤ dt / 2 ^ (e - p + 1) := div_nonneg h0 hu.le
  have d1 : dt / 2 ^ (e - p + 1) < 1 / 2 := by rw [div_lt_iff₀ hu]; exact hs
  have hfl : ⌊(n : K) + dt / 2 ^ (e - p + 1)⌋ = n := by
    rw [Int.floor_eq_iff]
    constructor <;> linarith
  unfold fl
  rw [abs_of_pos (by linarith), hl, hq]
  unfold roundEven
  rw [hfl, if_pos (by linarith)]
  exact ht'.symm

/-! ## The clock -/

theorem Spec.Rounding.lower {rnd : K → K} {u x : K} (hr : Rounding rnd u) (hx : 0 ≤ x) :
    x - u * x ≤ rnd x ∧ rnd x ≤ x + u * x ∧ 0 ≤ rnd x := by
  have h := abs_le.1 (hr.err x)
  rw [abs_of_nonneg hx] at h
  have := mul_le_mul_of_nonneg_right hr.small hx
  refine ⟨by linarith [h.1], by linarith [h.2], by linarith [h.1]⟩

theorem clock_nonneg {rnd : K → K} {u t₀ dt : K} (hr : Rounding rnd u) (h0 : 0 ≤ t₀) (hd : 0 ≤ dt)
    (k : ℕ) : 0 ≤ clock rnd t₀ dt k := by
  induction k with
  | zero => exact h0
  | succ k ih => exact (hr.lower (add_nonneg ih hd)).2.2

/-- One tick, as long as the run goes on. -/
theorem clock_tick {rnd : K → K} {u t₀ dt T : K} (hr : Rounding rnd u) (h0 : 0 ≤ t₀) (hd : 0 ≤ dt)
    {k : ℕ} (hk : clock rnd t₀ dt k ≤ T) :
    clock rnd t₀ dt k + dt - u * (T + dt) ≤ clock rnd t₀ dt (k + 1) ∧
      clock rnd t₀ dt (k + 1) ≤ clock rnd t₀ dt k + dt + u * (T + dt) := by
  have h := hr.lower (add_nonneg (clock_nonneg hr h0 hd k) hd)
  have := mul_le_mul_of_nonneg_left (add_le_add_left hk dt) hr.nonneg
  refine ⟨?_, ?_⟩
  · show _ ≤ rnd _; linarith [h.1]
  · show rnd _ ≤ _; linarith [h.2.1]

/-- C136.  The clock drifts by at most `u (t_f + dt)` per step. -/
theorem c136_drift {rnd : K → K} {u t₀ dt T : K} (hr : Rounding rnd u) (h0 : 0 ≤ t₀) (hd : 0 ≤ dt)
    {n : ℕ} (hn : ∀ k < n, clock rnd t₀ dt k ≤ T) :
    |clock rnd t₀ dt n - (t₀ + n * dt)| ≤ n * (u * (T + dt)) := by
  induction n with
  | zero => simp [clock]
  | succ n ih =>
    have h1 := abs_le.1 (ih fun k hk => hn k (by omega))
    obtain ⟨h2, h3⟩ := clock_tick hr h0 hd (hn n (by omega))
    push_cast
    rw [abs_le]
    constructor <;> linarith [h1.1, h1.2]

variable {W : Type} {rnd : K → K} {P : Par K} {interp : Interp K P.G.N} {march : St P → Res (St P)}
  {newdt : St P → XF K} {A : LoopPar K} {hooks : Call → St P × W → Res (St P × W)}

theorem loopR_exact (fuel : ℕ) (l : LoopSt P W) :
    loopR id P (timeMarch P interp) (fun s => defaultTimestep P A s.G) A hooks fuel l =
      loop P interp A hooks fuel l := by
  induction fuel generalizing l with
  | zero => rfl
  | succ fuel ih =>
    unfold loopR loop
    have : loopBodyR id P (timeMarch P interp) (fun s => defaultTimestep P A s.G) A hooks l =
      loopBody P interp A hooks l := rfl
    rw [this]
    simp only [ih]
    rfl

/-- C136.  Without rounding this is the loop of the other claims. -/
theorem c136_exact (fuel : ℕ) (s : St P) (w : W) :
    mainRunR id P (timeMarch P interp) (fun s => defaultTimestep P A s.G) A hooks fuel s w =
      mainRun P interp A hooks fuel s w := by
  unfold mainRunR mainRun
  simp only [loopR_exact]
  rfl

theorem loopBodyR_keeps (hm : KeepsClock march) (hk : KeepsTime hooks) {l l' : LoopSt P W}
    (h : loopBodyR rnd P march newdt A hooks l = .ok l') :
    l'.log = l.log ++ stepCalls l.s.dyn.t l.s.dyn.tstep
        (saveTest l.s.dyn.t l.s.dyn.dt A.savetime) ∧
      l'.s.dyn.t = rnd (l.s.dyn.t + l.s.dyn.dt) ∧ l'.s.dyn.tstep = l.s.dyn.tstep + 1 ∧
      (A.dynamic = false → l'.s.dyn.dt = l.s.dyn.dt) := by
  unfold loopBodyR at h
  obtain ⟨s1, h1, h⟩ := res_bind_ok.1 h
  obtain ⟨l1, h2, h⟩ := res_bind_ok.1 h
  split at h
  · cases h
  split at h
  · cases h
  obtain ⟨l2, h3, h⟩ := res_bind_ok.1 h
  obtain ⟨l3, h4, h5⟩ := res_bind_ok.1 h
  obtain ⟨t1, d1, k1⟩ := hm _ _ h1
  obtain ⟨c2, e2⟩ := callHook_ok h2
  obtain ⟨c4, e4⟩ := callHook_ok h4
  obtain ⟨t2, d2, k2⟩ := hk _ _ _ c2
  obtain ⟨t4, d4, k4⟩ := hk _ _ _ c4
  simp only at t2 d2 k2 t4 d4 k4 e2
  have h6 : l'.log = l3.log ∧ l'.s.dyn.t = rnd (l3.s.dyn.t + l3.s.dyn.dt) ∧
      l'.s.dyn.tstep = l3.s.dyn.tstep + 1 ∧ (A.dynamic = false → l'.s.dyn.dt = l3.s.dyn.dt) := by
    unfold advanceR at h5
    simp only at h5
    split at h5
    · rename_i hd
      split at h5
      · cases h5
        exact ⟨rfl, rfl, rfl, fun h => by simp [hd] at h⟩
      · split at h5
        · cases h5
        · cases h5
          exact ⟨rfl, rfl, rfl, fun _ => rfl⟩
    · cases h5
      exact ⟨rfl, rfl, rfl, fun _ => rfl⟩
  obtain ⟨e5, t5, k5, d5⟩ := h6
  have h23 : l2.s.dyn.t = l1.s.dyn.t ∧ l2.s.dyn.dt = l1.s.dyn.dt ∧
      l2.s.dyn.tstep = l1.s.dyn.tstep ∧ l2.log = l1.log ++
        (if saveTest l1.s.dyn.t l1.s.dyn.dt A.savetime then
          [⟨.nth, l1.s.dyn.t, l1.s.dyn.tstep⟩] else []) := by
    unfold nthHook at h3
    split at h3
    · rename_i hs
      obtain ⟨c3, e3⟩ := callHook_ok h3
      obtain ⟨t3, d3, k3⟩ := hk _ _ _ c3
      rw [if_pos hs]
      exact ⟨t3, d3, k3, e3⟩
    · rename_i hs
      cases h3
      rw [if_neg hs, List.append_nil]
      exact ⟨rfl, rfl, rfl, rfl⟩
  obtain ⟨t3, d3, k3, e3⟩ := h23
  have T1 : l1.s.dyn.t = l.s.dyn.t := t2.trans t1
  have D1 : l1.s.dyn.dt = l.s.dyn.dt := d2.trans d1
  have K1 : l1.s.dyn.tstep = l.s.dyn.tstep := k2.trans k1
  refine ⟨?_, ?_, ?_, ?_⟩
  · rw [e5, e4, e3, e2, t3, k3, T1, D1, K1, t1, k1]
    simp only [stepCalls, List.append_assoc]
    rfl
  · rw [t5, t4, d4, t3, d3, T1, D1]
  · rw [k5, k4, k3, K1]
  · intro hd
    rw [d5 hd, d4, d3, D1]

theorem loopR_any (hm : KeepsClock march) (hk : KeepsTime hooks) {fuel : ℕ} {l l' : LoopSt P W}
    (h : loopR rnd P march newdt A hooks fuel l = some (.ok l')) :
    ∃ (n : ℕ) (t dt : ℕ → K), t 0 = l.s.dyn.t ∧ dt 0 = l.s.dyn.dt ∧
      (∀ k < n, t (k + 1) = rnd (t k + dt k)) ∧ (∀ k < n, t k ≤ A.t_f) ∧ A.t_f < t n ∧
      (A.dynamic = false → ∀ k < n, dt k = l.s.dyn.dt) ∧
      l'.s.dyn.t = t n ∧ l'.s.dyn.tstep = l.s.dyn.tstep + n ∧
      l'.log = l.log ++ (List.range n).flatMap fun k =>
        stepCalls (t k) (l.s.dyn.tstep + k) (saveTest (t k) (dt k) A.savetime) := by
  induction fuel generalizing l with
  | zero => cases h
  | succ fuel ih =>
    unfold loopR at h
    split at h
    · rename_i hle
      split at h
      · cases h
      · rename_i l1 hb
        obtain ⟨e1, t1, k1, d1⟩ := loopBodyR_keeps hm hk hb
        obtain ⟨n, t, dt, h0, h0', h1, h2, h3, hd, h4, h5, h6⟩ := ih h
        refine ⟨n + 1, consSeq l.s.dyn.t t, consSeq l.s.dyn.dt dt,
          rfl, rfl, ?_, ?_, h3, ?_, h4, by rw [h5, k1]; omega, ?_⟩
        · rintro (_ | k) hk'
          · show t 0 = rnd (l.s.dyn.t + l.s.dyn.dt); rw [h0, t1]
          · exact h1 k (by omega)
        · rintro (_ | k) hk'
          · exact hle
          · exact h2 k (by omega)
        · rintro hA (_ | k) hk'
          · rfl
          · exact (hd hA k (by omega)).trans (d1 hA)
        · rw [h6, e1, List.range_succ_eq_map, List.flatMap_cons, List.flatMap_map,
            List.append_assoc]
          have e : ∀ k : ℕ, l.s.dyn.tstep + (k + 1) = l1.s.dyn.tstep + k := by
            intro k; rw [k1]; omega
          simp only [Nat.succ_eq_add_one, e, Nat.add_zero, consSeq]
    · rename_i hle
      cases h
      exact ⟨0, fun _ => l'.s.dyn.t, fun _ => l'.s.dyn.dt, rfl, rfl, by simp, by simp,
        not_le.1 hle, by simp, rfl, rfl, by simp⟩

theorem mainRunR_ok {fuel : ℕ} {s : St P} {w : W} {l : LoopSt P W}
    (h : mainRunR rnd P march newdt A hooks fuel s w = some (.ok l)) :
    ∃ l1 l2, callHook P hooks .initial { s := s, w := w, log := [] } = .ok l1 ∧
      loopR rnd P march newdt A hooks fuel l1 = some (.ok l2) ∧
      callHook P hooks .final l2 = .ok l := by
  unfold mainRunR at h
  split at h
  · cases h
  · rename_i l1 h1
    split at h
    · cases h
    · cases h
    · rename_i l2 h2
      exact ⟨l1, l2, h1, h2, by simpa using h⟩

/-- C136, either kind of time stepping: the complete schedule of a run, with times that are rounded
sums of the time before and the time step.  `march` and `newdt` stand for the time step and
`update_timestep` with whatever rounding. -/
theorem c136_schedule (hm : KeepsClock march) (hk : KeepsTime hooks) {fuel : ℕ} {s : St P} {w : W}
    {l : LoopSt P W} (h : mainRunR rnd P march newdt A hooks fuel s w = some (.ok l)) :
    ∃ (n : ℕ) (t dt : ℕ → K), t 0 = s.dyn.t ∧ dt 0 = s.dyn.dt ∧
      (∀ k < n, t (k + 1) = rnd (t k + dt k)) ∧ (∀ k < n, t k ≤ A.t_f) ∧ A.t_f < t n ∧
      (A.dynamic = false → ∀ k < n, dt k = s.dyn.dt) ∧
      l.log = [⟨.initial, s.dyn.t, s.dyn.tstep⟩] ++
        ((List.range n).flatMap fun k => stepCalls (t k) (s.dyn.tstep + k)
          (saveTest (t k) (dt k) A.savetime)) ++ [⟨.final, t n, s.dyn.tstep + n⟩] := by
  obtain ⟨l1, l2, h1, h2, h3⟩ := mainRunR_ok h
  obtain ⟨c1, e1⟩ := callHook_ok h1
  obtain ⟨c3, e3⟩ := callHook_ok h3
  obtain ⟨t1, d1, k1⟩ := hk _ _ _ c1
  simp only at t1 d1 k1
  obtain ⟨n, t, dt, a0, a0', a1, a2, a3, ad, a4, a5, a6⟩ := loopR_any hm hk h2
  rw [t1] at a0
  rw [d1] at a0' ad
  refine ⟨n, t, dt, a0, a0', a1, a2, a3, ad, ?_⟩
  rw [e3, a6, e1, a4, a5, k1]
  rfl

/-- C136, static time steps: the times are those of the rounding clock. -/
theorem c136_static (hm : KeepsClock march) (hk : KeepsTime hooks) (hd : A.dynamic = false) {fuel : ℕ}
    {s : St P} {w : W} {l : LoopSt P W}
    (h : mainRunR rnd P march newdt A hooks fuel s w = some (.ok l)) :
    let time := clock rnd s.dyn.t s.dyn.dt
    ∃ n : ℕ, (∀ k < n, time k ≤ A.t_f) ∧ A.t_f < time n ∧
      l.log = [⟨.initial, s.dyn.t, s.dyn.tstep⟩] ++
        ((List.range n).flatMap fun k => stepCalls (time k) (s.dyn.tstep + k)
          (saveTest (time k) s.dyn.dt A.savetime)) ++ [⟨.final, time n, s.dyn.tstep + n⟩] := by
  obtain ⟨n, t, dt, a0, -, a1, a2, a3, ad, e⟩ := c136_schedule hm hk h
  have key : ∀ k ≤ n, t k = clock rnd s.dyn.t s.dyn.dt k := by
    intro k hk
    induction k with
    | zero => exact a0
    | succ k ih => rw [a1 k (by omega), ih (by omega), ad hd k (by omega)]; rfl
  refine ⟨n, fun k hk => key k hk.le ▸ a2 k hk, key n le_rfl ▸ a3, ?_⟩
  rw [e, key n le_rfl]
  congr 2
  rw [List.flatMap_congr]
  intro k hk
  have hk := List.mem_range.1 hk
  rw [key k hk.le, ad hd k hk]

/-- C136.  The number of time steps differs by at most one from that of exact arithmetic, as long as
the drift of the clock over the run is less than a time step. -/
theorem c136_count {u : K} (hr : Rounding rnd u) (hm : KeepsClock march) (hk : KeepsTime hooks)
    (hd : A.dynamic = false) {fuel : ℕ} {s : St P} {w : W} {l : LoopSt P W} (h0 : 0 ≤ s.dyn.t)
    (hdt : 0 < s.dyn.dt) (h : mainRunR rnd P march newdt A hooks fuel s w = some (.ok l)) :
    let n := (l.log.filter fun e => e.call = .march).length
    n * (u * (A.t_f + s.dyn.dt)) ≤ s.dyn.dt →
      n ≤ stepCount s.dyn.t s.dyn.dt A.t_f + 1 ∧ stepCount s.dyn.t s.dyn.dt A.t_f ≤ n + 1 := by
  obtain ⟨n, a1, a2, e⟩ := c136_static hm hk hd h
  have hlen : (l.log.filter fun e => e.call = .march).length = n := by
    rw [e]
    simp only [List.filter_append]
    rw [filter_march (clock rnd s.dyn.t s.dyn.dt)]
    simp
  simp only [hlen]
  intro hs
  have hb := abs_le.1 (c136_drift hr h0 hdt.le a1)
  constructor
  · rcases n with _ | _ | n
    · omega
    · omega
    · have h1 := abs_le.1 (c136_drift hr h0 hdt.le fun k (hk : k < n + 1) => a1 k (by omega))
      have h2 := a1 (n + 1) (by omega)
      have hu : 0 ≤ u * (A.t_f + s.dyn.dt) :=
        mul_nonneg hr.nonneg (by have := a1 0 (by omega); simp only [clock] at this; linarith)
      have := (c50_count (t₀ := s.dyn.t) (t_f := A.t_f) hdt n).2 (by
        push_cast at h1 h2 hs ⊢
        nlinarith [h1.1])
      omega
  · by_contra hc
    have := (c50_count (t₀ := s.dyn.t) (t_f := A.t_f) hdt (n + 1)).1 (by omega)
    push_cast at this
    nlinarith [hb.2]

/-- C136.  When adding the time step does not change the time, the run never finishes. -/
theorem c136_stuck (hm : KeepsClock march) (hk : KeepsTime hooks) (hd : A.dynamic = false) {s : St P}
    {w : W} (ht : s.dyn.t ≤ A.t_f) (hs : rnd (s.dyn.t + s.dyn.dt) = s.dyn.t) (fuel : ℕ)
    (l : LoopSt P W) : mainRunR rnd P march newdt A hooks fuel s w ≠ some (.ok l) := by
  intro h
  obtain ⟨n, -, a2, -⟩ := c136_static hm hk hd h
  have : ∀ k, clock rnd s.dyn.t s.dyn.dt k = s.dyn.t := by
    intro k
    induction k with
    | zero => rfl
    | succ k ih => show rnd _ = _; rw [ih, hs]
  rw [this] at a2
  exact absurd ht (not_le.2 a2)

/-- C136.  With numbers of `p` bits, runs longer than `2^(p+2)` time steps never finish. -/
theorem c136_endless {p : ℕ} (hp : 1 ≤ p) (hm : KeepsClock march) (hk : KeepsTime hooks)
    (hd : A.dynamic = false) {s : St P} {w : W} (h0 : 0 ≤ s.dyn.t) (hr : fl p s.dyn.t = s.dyn.t)
    (hdt : 0 < s.dyn.dt) (ht : s.dyn.t ≤ A.t_f) (hl : s.dyn.dt * 2 ^ (p + 2) ≤ A.t_f) (fuel : ℕ)
    (l : LoopSt P W) : mainRunR (fl p) P march newdt A hooks fuel s w ≠ some (.ok l) := by
  intro h
  obtain ⟨n, a1, a2, -⟩ := c136_static hm hk hd h
  have R := c136_bits (K := K) hp
  rcases n with _ | n
  · exact absurd ht (not_le.2 a2)
  have hle := a1 n (by omega)
  have hfix : fl p (clock (fl p) s.dyn.t s.dyn.dt n) = clock (fl p) s.dyn.t s.dyn.dt n := by
    cases n with
    | zero => exact hr
    | succ n => exact R.fix _
  have hpos := clock_nonneg R h0 hdt.le n
  have h2p : (0 : K) < 2 ^ (p + 1) := by positivity
  by_cases hb : s.dyn.dt * 2 ^ (p + 1) ≤ clock (fl p) s.dyn.t s.dyn.dt n
  · have hc : 0 < clock (fl p) s.dyn.t s.dyn.dt n := (mul_pos hdt h2p).trans_le hb
    have : clock (fl p) s.dyn.t s.dyn.dt (n + 1) = clock (fl p) s.dyn.t s.dyn.dt n :=
      c136_lost hp hc hfix hdt.le hb
    rw [this] at a2
    exact absurd hle (not_le.2 a2)
  · have hu := (R.lower (add_nonneg hpos hdt.le)).2.1
    have h3 : clock (fl p) s.dyn.t s.dyn.dt n + s.dyn.dt ≤ s.dyn.dt * 2 ^ (p + 1) + s.dyn.dt := by
      linarith
    have h4 := mul_le_mul_of_nonneg_left h3 R.nonneg
    have e4 : (1 / 2 ^ p : K) * (s.dyn.dt * 2 ^ (p + 1) + s.dyn.dt) = 2 * s.dyn.dt + 1 / 2 ^ p * s.dyn.dt := by
      rw [pow_succ]; field_simp
    have h5 := mul_le_mul_of_nonneg_right R.small hdt.le
    have h6 : (4 : K) ≤ 2 ^ (p + 1) := by
      have := pow_le_pow_right₀ (one_le_two (α := K)) (show 2 ≤ p + 1 by omega)
      norm_num at this ⊢
      exact this
    have h7 := mul_le_mul_of_nonneg_left h6 hdt.le
    have e8 : s.dyn.dt * 2 ^ (p + 2) = s.dyn.dt * 2 ^ (p + 1) + s.dyn.dt * 2 ^ (p + 1) := by
      rw [pow_succ 2 (p + 1)]; ring
    have : A.t_f < fl p (clock (fl p) s.dyn.t s.dyn.dt n + s.dyn.dt) := a2
    linarith

/-- C136.  A run whose time step exceeds the rounding error of the clock is finished, or stopped by an
exception, in the time that the error leaves. -/
theorem c136_ends {u : K} (hr : Rounding rnd u) (hm : KeepsClock march) (hk : KeepsTime hooks)
    (hd : A.dynamic = false) {s : St P} (w : W) (h0 : 0 ≤ s.dyn.t) (hdt : 0 < s.dyn.dt) {fuel : ℕ}
    (hf : A.t_f < s.dyn.t + fuel * (s.dyn.dt - u * (A.t_f + s.dyn.dt))) :
    mainRunR rnd P march newdt A hooks (fuel + 1) s w ≠ none := by
  have key : ∀ (fuel : ℕ) (l : LoopSt P W), 0 ≤ l.s.dyn.t → l.s.dyn.dt = s.dyn.dt →
      A.t_f < l.s.dyn.t + fuel * (s.dyn.dt - u * (A.t_f + s.dyn.dt)) →
      loopR rnd P march newdt A hooks (fuel + 1) l ≠ none := by
    intro fuel
    induction fuel with
    | zero =>
      intro l _ _ hf
      unfold loopR
      rw [if_neg (by push_cast at hf; rw [zero_mul, add_zero] at hf; exact not_le.2 hf)]
      exact fun h => by cases h
    | succ fuel ih =>
      intro l hl hld hf
      unfold loopR
      split
      · rename_i hle
        split
        · exact fun h => by cases h
        · rename_i l1 hb
          obtain ⟨-, t1, -, d1⟩ := loopBodyR_keeps hm hk hb
          have hn : 0 ≤ l.s.dyn.t + l.s.dyn.dt := by rw [hld]; linarith
          have h := hr.lower hn
          have h2 := mul_le_mul_of_nonneg_left (add_le_add_left hle s.dyn.dt) hr.nonneg
          refine ih l1 (by rw [t1]; exact h.2.2) ((d1 hd).trans hld) ?_
          rw [t1]
          have h1 := h.1
          rw [hld] at h1 ⊢
          push_cast at hf
          linarith
      · exact fun h => by cases h
  unfold mainRunR
  split
  · simp
  · rename_i l hl
    obtain ⟨c1, -⟩ := callHook_ok hl
    obtain ⟨t1, d1, -⟩ := hk _ _ _ c1
    simp only at t1 d1
    have := key fuel l (by rw [t1]; exact h0) d1 (by rw [t1]; exact hf)
    split
    · rename_i h; exact absurd h this
    · simp
    · simp

/-! ## What is saved -/

theorem clock_le {u t₀ dt T : K} (hr : Rounding rnd u) (h0 : 0 ≤ t₀) (hd : 0 ≤ dt)
    (hu : u * (T + dt) ≤ dt) {a b : ℕ} (hab : a ≤ b) (hT : ∀ k < b, clock rnd t₀ dt k ≤ T) :
    clock rnd t₀ dt a + (b - a : ℕ) * (dt - u * (T + dt)) ≤ clock rnd t₀ dt b := by
  obtain ⟨d, rfl⟩ := Nat.exists_eq_add_of_le hab
  clear hab
  rw [Nat.add_sub_cancel_left]
  induction d with
  | zero => simp
  | succ d ih =>
    have h1 := ih fun k hk => hT k (by omega)
    have h2 := (clock_tick hr h0 hd (hT (a + d) (by omega))).1
    rw [← Nat.add_assoc]
    push_cast
    linarith

theorem save_window {t dt save : K} {j : ℕ} (hs : 0 < save) (h1 : j * save ≤ t) (h2 : t < (j + 1) * save) :
    pyMod t save = t - j * save := by
  rw [pyMod_window hs (j := j) (by exact_mod_cast h1) (by exact_mod_cast h2)]
  push_cast
  ring

/-- C136.  Two steps that pass the time test in the same save window follow each other, and the first
is within the rounding error of the beginning of the window. -/
theorem c136_twice {u t₀ dt save T : K} (hr : Rounding rnd u) (h0 : 0 ≤ t₀) (hd : 0 < dt) (hs : 0 < save)
    (hu : 2 * (u * (T + dt)) ≤ dt) {a b j : ℕ} (hab : a < b) (hT : ∀ k < b, clock rnd t₀ dt k ≤ T)
    (ha : j * save ≤ clock rnd t₀ dt a) (hb : clock rnd t₀ dt b < (j + 1) * save)
    (hb' : pyMod (clock rnd t₀ dt b) save < dt) :
    b = a + 1 ∧ clock rnd t₀ dt a < j * save + u * (T + dt) := by
  have hT0 : 0 ≤ T := (clock_nonneg hr h0 hd.le a).trans (hT a hab)
  have hu0 : 0 ≤ u * (T + dt) := mul_nonneg hr.nonneg (by linarith)
  have hl := clock_le hr h0 hd.le (by linarith : u * (T + dt) ≤ dt) hab.le hT
  have hc : (1 : K) ≤ (b - a : ℕ) := by exact_mod_cast (by omega : 1 ≤ b - a)
  have hl1 : dt - u * (T + dt) ≤ (b - a : ℕ) * (dt - u * (T + dt)) := by nlinarith
  rw [save_window (dt := dt) hs (by linarith) hb] at hb'
  refine ⟨?_, by linarith⟩
  by_contra hne
  have hc : (2 : K) ≤ (b - a : ℕ) := by exact_mod_cast (by omega : 2 ≤ b - a)
  nlinarith

/-- C136.  If the first step of a save window does not pass the time test, the step before was within the
rounding error of the beginning of the window. -/
theorem c136_missed {u t₀ dt save T : K} (hr : Rounding rnd u) (h0 : 0 ≤ t₀) (hd : 0 < dt) (hs : 0 < save)
    {k j : ℕ} (hT : clock rnd t₀ dt k ≤ T) (h1 : clock rnd t₀ dt k < j * save)
    (h2 : j * save ≤ clock rnd t₀ dt (k + 1)) (h3 : clock rnd t₀ dt (k + 1) < (j + 1) * save)
    (h4 : ¬ pyMod (clock rnd t₀ dt (k + 1)) save < dt) :
    j * save - u * (T + dt) ≤ clock rnd t₀ dt k := by
  rw [save_window (dt := dt) hs h2 h3] at h4
  have := (clock_tick hr h0 hd.le hT).2
  linarith

theorem filter_nth' (time : ℕ → K) (k0 : ℕ) (sv : ℕ → Bool) (p : K → Bool) (L : List ℕ) :
    (L.flatMap fun k => stepCalls (time k) (k0 + k) (sv k)).filter
        (fun e => decide (e.call = .nth) && p e.t) =
      (L.filter fun k => sv k && p (time k)).map fun k => ⟨.nth, time k, k0 + k⟩ := by
  induction L with
  | nil => rfl
  | cons a L ih =>
    rw [List.flatMap_cons, List.filter_append, ih, List.filter_cons]
    cases h : sv a <;> cases h' : p (time a) <;> simp [stepCalls, h']

theorem length_le_two {p : ℕ → Bool} {n a : ℕ} (h : ∀ k < n, p k = true → k = a ∨ k = a + 1) :
    ((List.range n).filter p).length ≤ 2 := by
  have hs : ((List.range n).filter p) ⊆ [a, a + 1] := by
    intro k hk
    obtain ⟨h1, h2⟩ := List.mem_filter.1 hk
    rcases h k (List.mem_range.1 h1) h2 with rfl | rfl <;> simp
  have hn : ((List.range n).filter p).Nodup := List.nodup_range.filter _
  exact (hn.subperm hs).length_le

/-- C136.  In a run from time 0 with a time step shorter than `savetime`, at most two steps in each save
window are saved; and exactly one, if no time of the run comes within the rounding error of the
beginning of the window. -/
theorem c136_saves {u : K} (hr : Rounding rnd u) (hm : KeepsClock march) (hk : KeepsTime hooks)
    (hd : A.dynamic = false) {fuel : ℕ} {s : St P} {w : W} {l : LoopSt P W} (h0 : s.dyn.t = 0)
    (hdt : 0 < s.dyn.dt) (hs : s.dyn.dt + u * (A.t_f + s.dyn.dt) ≤ A.savetime) (ht : 0 ≤ A.t_f)
    (hu : 2 * (u * (A.t_f + s.dyn.dt)) ≤ s.dyn.dt)
    (h : mainRunR rnd P march newdt A hooks fuel s w = some (.ok l)) (j : ℕ) :
    let ε := u * (A.t_f + s.dyn.dt)
    let saves := l.log.filter fun e => decide (e.call = .nth) &&
      decide (j * A.savetime ≤ e.t ∧ e.t < (j + 1) * A.savetime)
    saves.length ≤ 2 ∧ (1 ≤ j → j * A.savetime + s.dyn.dt + ε ≤ A.t_f →
      (∀ e ∈ l.log, e.call = .march → ε < |e.t - j * A.savetime|) → saves.length = 1) := by
  obtain ⟨n, a1, a2, e⟩ := c136_static hm hk hd h
  set time := clock rnd s.dyn.t s.dyn.dt with htime
  have h0' : 0 ≤ s.dyn.t := h0.ge
  have hu0 : 0 ≤ u * (A.t_f + s.dyn.dt) := mul_nonneg hr.nonneg (by linarith)
  have hsv : 0 < A.savetime := by linarith
  set p : K → Bool := fun t => decide (j * A.savetime ≤ t ∧ t < (j + 1) * A.savetime) with hp
  have sel : (l.log.filter fun e => decide (e.call = .nth) && p e.t) =
      ((List.range n).filter fun k => saveTest (time k) s.dyn.dt A.savetime && p (time k)).map
        fun k => ⟨.nth, time k, s.dyn.tstep + k⟩ := by
    rw [e]
    simp only [List.filter_append]
    rw [filter_nth' time]
    simp
  show (l.log.filter fun e => decide (e.call = .nth) && p e.t).length ≤ 2 ∧ (1 ≤ j → _ → _ →
    (l.log.filter fun e => decide (e.call = .nth) && p e.t).length = 1)
  rw [sel, List.length_map]
  have pspec : ∀ k, (saveTest (time k) s.dyn.dt A.savetime && p (time k)) = true →
      j * A.savetime ≤ time k ∧ time k < (j + 1) * A.savetime ∧
        pyMod (time k) A.savetime < s.dyn.dt := by
    intro k hk
    simp only [hp, saveTest, Bool.and_eq_true, decide_eq_true_eq] at hk
    exact ⟨hk.2.1, hk.2.2, hk.1.1⟩
  constructor
  · by_cases hex : ∃ k < n, (saveTest (time k) s.dyn.dt A.savetime && p (time k)) = true
    · obtain ⟨hl, hp'⟩ := Nat.find_spec hex
      refine length_le_two (a := Nat.find hex) fun k hk hpk => ?_
      have hmin : Nat.find hex ≤ k := Nat.find_min' hex ⟨hk, hpk⟩
      rcases hmin.eq_or_lt with h | h
      · exact .inl h.symm
      · right
        obtain ⟨q1, q2, q3⟩ := pspec _ hp'
        obtain ⟨r1, r2, r3⟩ := pspec _ hpk
        exact (c136_twice hr h0' hdt hsv hu h (fun i hi => a1 i (hi.trans hk)) q1 r2 r3).1
    · have : ((List.range n).filter fun k => saveTest (time k) s.dyn.dt A.savetime && p (time k)) = [] := by
        rw [List.filter_eq_nil_iff]
        exact fun k hk hpk => hex ⟨k, List.mem_range.1 hk, hpk⟩
      rw [this]
      exact Nat.zero_le _
  · intro hj hend hfar
    have far : ∀ k < n, u * (A.t_f + s.dyn.dt) < |time k - j * A.savetime| := by
      intro k hk
      refine hfar ⟨.march, time k, s.dyn.tstep + k⟩ ?_ rfl
      rw [e]
      simp only [List.mem_append, List.mem_flatMap]
      exact .inl (.inr ⟨k, List.mem_range.2 hk, by simp [stepCalls]⟩)
    have hjs : 0 < (j : K) * A.savetime := mul_pos (by exact_mod_cast hj) hsv
    -- the first time in the window
    have hex : ∃ k, j * A.savetime ≤ time k := ⟨n, by linarith⟩
    have hlow := Nat.find_spec hex
    set m := Nat.find hex with hm'
    have hm0 : m ≠ 0 := by
      intro h
      rw [h] at hlow
      have : time 0 = s.dyn.t := rfl
      rw [this, h0] at hlow
      linarith
    obtain ⟨i, hi⟩ := Nat.exists_eq_succ_of_ne_zero hm0
    have hbef : time i < j * A.savetime := not_le.1 (Nat.find_min hex (by omega : i < m))
    have hin : i < n := by
      by_contra hc
      have := Nat.find_min' hex (show (j : K) * A.savetime ≤ time n by linarith)
      omega
    have tick := clock_tick hr h0' hdt.le (a1 i hin)
    rw [← htime] at tick
    have hfi := far i hin
    rw [abs_of_neg (by linarith)] at hfi
    rw [hi] at hlow
    have hmn : i + 1 < n := by
      by_contra hc
      have : n = i + 1 := by omega
      rw [this] at a2
      linarith [tick.2]
    have hwin : time (i + 1) < (j + 1) * A.savetime := by
      have : (j + 1 : K) * A.savetime = j * A.savetime + A.savetime := by ring
      linarith [tick.2]
    have hmod : pyMod (time (i + 1)) A.savetime < s.dyn.dt := by
      rw [save_window (dt := s.dyn.dt) hsv hlow hwin]
      linarith [tick.2]
    have hne : time (i + 1) ≠ s.dyn.dt := by
      intro h
      have h1 : A.savetime ≤ j * A.savetime := by
        have : (1 : K) ≤ j := by exact_mod_cast hj
        nlinarith
      have h2 := far (i + 1) hmn
      rw [h] at hlow h2
      rw [abs_of_nonneg (by linarith)] at h2
      linarith
    have hsel : (List.range n).filter (fun k => saveTest (time k) s.dyn.dt A.savetime && p (time k)) =
        (List.range n).filter fun k => decide (k = i + 1) := by
      refine List.filter_congr fun k hk => ?_
      have hk := List.mem_range.1 hk
      rw [Bool.eq_iff_iff, decide_eq_true_iff]
      constructor
      · intro hpk
        obtain ⟨r1, r2, r3⟩ := pspec k hpk
        have hge : i + 1 ≤ k := by
          have := Nat.find_min' hex r1
          omega
        rcases hge.eq_or_lt with h | h
        · exact h.symm
        · have := (c136_twice hr h0' hdt hsv hu h (fun i hi => a1 i (hi.trans hk)) hlow r2 r3).2
          have h2 := far (i + 1) hmn
          rw [abs_of_nonneg (by linarith)] at h2
          rw [← htime] at this
          linarith
      · rintro rfl
        simp only [hp, saveTest, Bool.and_eq_true, decide_eq_true_eq]
        exact ⟨⟨hmod, hne⟩, hlow, hwin⟩
    rw [hsel]
    have : (List.range n).filter (fun k => decide (k = i + 1)) = [i + 1] := by
      have h1 : (List.range n).filter (fun k => decide (k = i + 1)) =
          List.replicate ((List.range n).count (i + 1)) (i + 1) := by
        rw [← List.filter_eq]
      rw [h1, List.count_eq_one_of_mem List.nodup_range (List.mem_range.2 hmn)]
      rfl
    rw [this]
    rfl

end

/-! ## The hypotheses can be met, and how saving goes wrong -/

/-- The clock of double precision numbers, with `timeMarch` for the steps. -/
def Ex.double (A : LoopPar ℚ) (fuel : ℕ) (s : St Ex.par) : Option (Res (LoopSt Ex.par Unit)) :=
  mainRunR (fl 53) Ex.par (timeMarch Ex.par (Ex.noInterp _)) (fun s => defaultTimestep Ex.par A s.G) A
    (fun _ x => .ok x) fuel s ()

def Ex.doubleCheck (A : LoopPar ℚ) (dt : ℚ) (fuel : ℕ) (check : LoopSt Ex.par Unit → Bool) : Bool :=
  match mkGrid Ex.par.G Ex.par.B with
  | .error _ => false
  | .ok G => match Ex.double A fuel { dyn := { Ex.dyn with t := 0, dt := dt }, L := [], G := G } with
    | some (.ok l) => check l
    | _ => false

theorem Ex.doubleCheck_ok {A : LoopPar ℚ} {dt : ℚ} {fuel : ℕ} {check : LoopSt Ex.par Unit → Bool}
    (h : Ex.doubleCheck A dt fuel check = true) : ∃ s l, s.dyn.t = 0 ∧ s.dyn.dt = dt ∧
      Ex.double A fuel s = some (.ok l) ∧ check l = true := by
  unfold Ex.doubleCheck at h
  split at h
  · cases h
  · split at h
    · rename_i l hl
      exact ⟨_, l, rfl, rfl, hl, h⟩
    · cases h

/-- `t_f = 1`, `savetime = 0.5`; the time step is 0.1. -/
def Ex.tenth : LoopPar ℚ := { t_f := 1, savetime := 1/2, dynamic := false, CFL := 1, critical := [] }

/-- `t_f = 0.1`, `savetime = 0.021`, as python reads them; the time step is 0.007. -/
def Ex.sevens : LoopPar ℚ :=
  { t_f := fl 53 (1/10), savetime := fl 53 (21/1000), dynamic := false, CFL := 1, critical := [] }

/-- C136.  `dt = 0.1`, `savetime = 0.5`, `t_f = 1` in double precision: the second save window is saved
twice, at 0.5 and at 0.6, since 0.6 - 0.5 < 0.1; and there are eleven steps, one more than fit into
`t_f` without rounding, since the stored 0.1 is more than a tenth. -/
theorem c136_two_saves : ∃ (s : St Ex.par) (l : LoopSt Ex.par Unit), s.dyn.t = 0 ∧
    s.dyn.dt = fl 53 (1/10) ∧ Ex.double Ex.tenth 12 s = some (.ok l) ∧
    (l.log.filter (fun e => e.call = .nth)).map (·.tstep) = [0, 5, 6] ∧
    (l.log.filter fun e => decide (e.call = .nth) &&
      decide ((1 : ℕ) * Ex.tenth.savetime ≤ e.t ∧ e.t < ((1 : ℕ) + 1) * Ex.tenth.savetime)).length = 2 ∧
    (l.log.filter fun e => e.call = .march).length = 11 ∧
    stepCount s.dyn.t s.dyn.dt Ex.tenth.t_f = 10 := by
  obtain ⟨s, l, h0, hd, h, hc⟩ := Ex.doubleCheck_ok (A := Ex.tenth) (dt := fl 53 (1/10)) (fuel := 12)
    (check := fun l => decide ((l.log.filter (fun e => e.call = .nth)).map (·.tstep) = [0, 5, 6] ∧
      (l.log.filter fun e => decide (e.call = .nth) &&
        decide ((1 : ℕ) * Ex.tenth.savetime ≤ e.t ∧ e.t < ((1 : ℕ) + 1) * Ex.tenth.savetime)).length = 2 ∧
      (l.log.filter fun e => e.call = .march).length = 11)) (by decide +kernel)
  obtain ⟨c1, c2, c3⟩ := of_decide_eq_true hc
  exact ⟨s, l, h0, hd, h, c1, c2, c3, by rw [h0, hd]; decide +kernel⟩

/-- C136.  `dt = 0.007`, `savetime = 0.021` in double precision: the save windows from 0.021 and from
0.042 are saved, the one from 0.063 is not, although the run goes on through it. -/
theorem c136_no_save : ∃ (s : St Ex.par) (l : LoopSt Ex.par Unit), s.dyn.t = 0 ∧
    s.dyn.dt = fl 53 (7/1000) ∧ Ex.double Ex.sevens 16 s = some (.ok l) ∧
    (3 + 1 : ℕ) * Ex.sevens.savetime ≤ Ex.sevens.t_f ∧
    (l.log.filter fun e => decide (e.call = .nth) &&
      decide ((3 : ℕ) * Ex.sevens.savetime ≤ e.t ∧ e.t < ((3 : ℕ) + 1) * Ex.sevens.savetime)) = [] := by
  obtain ⟨s, l, h0, hd, h, hc⟩ := Ex.doubleCheck_ok (A := Ex.sevens) (dt := fl 53 (7/1000)) (fuel := 16)
    (check := fun l => decide ((l.log.filter fun e => decide (e.call = .nth) &&
      decide ((3 : ℕ) * Ex.sevens.savetime ≤ e.t ∧ e.t < ((3 : ℕ) + 1) * Ex.sevens.savetime)) = []))
    (by decide +kernel)
  exact ⟨s, l, h0, hd, h, by decide +kernel, of_decide_eq_true hc⟩

/-- Hypotheses of `c136_schedule`, `c136_static`, `c136_count` and `c136_saves` (with a window whose
beginning no time comes close to). -/
example : ∃ (s : St Ex.par) (l : LoopSt Ex.par Unit) (u : ℚ), Rounding (fl 53 : ℚ → ℚ) u ∧
    KeepsClock (timeMarch Ex.par (Ex.noInterp _)) ∧
    KeepsTime (P := Ex.par) (W := Unit) (fun _ x => .ok x) ∧ Ex.tenth.dynamic = false ∧ s.dyn.t = 0 ∧
    0 < s.dyn.dt ∧ s.dyn.dt + u * (Ex.tenth.t_f + s.dyn.dt) ≤ Ex.tenth.savetime ∧
    2 * (u * (Ex.tenth.t_f + s.dyn.dt)) ≤ s.dyn.dt ∧ Ex.double Ex.tenth 10 s = some (.ok l) ∧
    (l.log.filter fun e => e.call = .march).length * (u * (Ex.tenth.t_f + s.dyn.dt)) ≤ s.dyn.dt ∧
    (1 : ℕ) * Ex.tenth.savetime + s.dyn.dt + u * (Ex.tenth.t_f + s.dyn.dt) ≤ Ex.tenth.t_f ∧
    ∀ e ∈ l.log, e.call = .march →
      u * (Ex.tenth.t_f + s.dyn.dt) < |e.t - (1 : ℕ) * Ex.tenth.savetime| := by
  obtain ⟨s, l, h0, hd, h, hc⟩ := Ex.doubleCheck_ok (A := Ex.tenth) (dt := fl 53 (3/20)) (fuel := 10)
    (check := fun l => decide (((l.log.filter fun e => e.call = .march).length *
        (1 / 2 ^ 53 * (Ex.tenth.t_f + fl 53 (3/20))) ≤ (fl 53 (3/20) : ℚ)) ∧
      ∀ e ∈ l.log, e.call = .march →
      1 / 2 ^ 53 * (Ex.tenth.t_f + fl 53 (3/20)) < |e.t - (1 : ℕ) * Ex.tenth.savetime|)) (by decide +kernel)
  obtain ⟨c1, c2⟩ := of_decide_eq_true hc
  exact ⟨s, l, 1 / 2 ^ 53, c136_bits (by norm_num), fun _ _ h => timeMarch_clock h,
    fun _ _ _ h => by cases h; exact ⟨rfl, rfl, rfl⟩, rfl, h0, by rw [hd]; decide +kernel,
    by rw [hd]; decide +kernel, by rw [hd]; decide +kernel, h, by rw [hd]; exact c1,
    by rw [hd]; decide +kernel, by rw [hd]; exact c2⟩

/-- Hypotheses of `c136_stuck` and `c136_endless`: a run from 1000 s to 2000 s with steps of 10^-14 s,
and one with steps of 10^-17 s up to 1 s. -/
example : (fl 53 (1000 : ℚ) = 1000 ∧ fl 53 (1000 + fl 53 (1/10^14) : ℚ) = 1000) ∧
    (0 : ℚ) < fl 53 (1/10^17) ∧ (fl 53 (1/10^17) : ℚ) * 2 ^ (53 + 2) ≤ 1 := by
  decide +kernel

/-- Hypotheses of `c136_ends`. -/
example : (1 : ℚ) < 0 + (10 : ℕ) * (fl 53 (11/100) - 1 / 2 ^ 53 * (1 + fl 53 (11/100))) := by
  decide +kernel

end Mpm

import Verif.Model.Round
import Verif.Props.Layout
import Mathlib.RingTheory.RootsOfUnity.Complex

/-!
# C128: round bodies
-/

set_option linter.unusedSectionVars false

namespace Mpm
open Spec

namespace Spec

/-- `N` points at equal angles on a circle, beginning straight above the centre, clockwise. -/
noncomputable def onCircle (c : ℝ × ℝ) (ρ : ℝ) (N : ℕ) : List (ℝ × ℝ) :=
  (List.range N).map fun (j : ℕ) =>
    (c.1 + ρ * Real.sin (2 * Real.pi * (j / N)), c.2 + ρ * Real.cos (2 * Real.pi * (j / N)))

/-- Circles of radius `r k/(nr-1)`, `k < nr`, with `N k` points. -/
noncomputable def circles (nr : ℕ) (r : ℝ) (c : ℝ × ℝ) (N : ℕ → ℕ) : List (ℝ × ℝ) :=
  (List.range nr).flatMap fun (k : ℕ) => onCircle c (r * k / ((nr : ℝ) - 1)) (N k)

end Spec

section
variable {K : Type} [Field K] [LinearOrder K] [IsStrictOrderedRing K] [FloorRing K]

theorem npAround_near (x : K) : |(npAround x : K) - x| ≤ 1 / 2 := by
  have h1 := Int.floor_le x
  have h2 := Int.lt_floor_add_one x
  unfold npAround
  rw [abs_le]
  split_ifs with a b c <;> push_cast <;> constructor <;> linarith

/-- Halfway between two integers the even one is taken. -/
theorem npAround_half (n : ℤ) : npAround ((n : K) + 1 / 2) % 2 = 0 := by
  have hf : ⌊(n : K) + 1 / 2⌋ = n := by
    rw [Int.floor_eq_iff]; constructor <;> linarith
  unfold npAround
  rw [hf]
  have e : (n : K) + 1 / 2 - n = 1 / 2 := by ring
  rw [e, if_neg (lt_irrefl _), if_neg (lt_irrefl _)]
  split_ifs with h <;> omega

end

/-! ## Points on a circle -/

theorem onCircle_length (c : ℝ × ℝ) (ρ : ℝ) (N : ℕ) : (onCircle c ρ N).length = N := by
  simp [onCircle]

theorem root_sum {N m : ℕ} (hN : N ≠ 0) (hm : ¬ N ∣ m) :
    ∑ j ∈ Finset.range N, Complex.exp ((m * (2 * Real.pi * (j / N)) : ℝ) * Complex.I) = 0 := by
  have hp := Complex.isPrimitiveRoot_exp N hN
  set ζ := Complex.exp (2 * Real.pi * Complex.I / N) with hζ
  have hw : ζ ^ m ≠ 1 := fun h => hm (hp.dvd_of_pow_eq_one m h)
  have hs : ∑ j ∈ Finset.range N, (ζ ^ m) ^ j = 0 := by
    have h := geom_sum_mul (ζ ^ m) N
    rw [← pow_mul, mul_comm m N, pow_mul, hp.pow_eq_one, one_pow, sub_self] at h
    exact (mul_eq_zero.1 h).resolve_right (sub_ne_zero.2 hw)
  rw [← hs]
  refine Finset.sum_congr rfl fun j _ => ?_
  rw [← pow_mul, hζ, ← Complex.exp_nat_mul]
  congr 1
  push_cast
  ring

theorem circle_sums {N m : ℕ} (hN : N ≠ 0) (hm : ¬ N ∣ m) :
    ∑ j ∈ Finset.range N, Real.cos (m * (2 * Real.pi * (j / N))) = 0 ∧
    ∑ j ∈ Finset.range N, Real.sin (m * (2 * Real.pi * (j / N))) = 0 := by
  have h := root_sum hN hm
  constructor
  · have := congrArg Complex.re h
    rw [Complex.re_sum, Complex.zero_re] at this
    rw [← this]
    exact Finset.sum_congr rfl fun j _ => (Complex.exp_ofReal_mul_I_re _).symm
  · have := congrArg Complex.im h
    rw [Complex.im_sum, Complex.zero_im] at this
    rw [← this]
    exact Finset.sum_congr rfl fun j _ => (Complex.exp_ofReal_mul_I_im _).symm

theorem onCircle_sum {M : Type} [AddCommMonoid M] (c : ℝ × ℝ) (ρ : ℝ) (N : ℕ) (f : ℝ × ℝ → M) :
    ((onCircle c ρ N).map f).sum = ∑ j ∈ Finset.range N,
      f (c.1 + ρ * Real.sin (2 * Real.pi * (j / N)), c.2 + ρ * Real.cos (2 * Real.pi * (j / N))) := by
  unfold onCircle
  rw [List.map_map, sum_map_range]
  rfl

/-- The sum of the abscissas. -/
theorem onCircle_x (c : ℝ × ℝ) (ρ : ℝ) (N : ℕ) :
    ((onCircle c ρ N).map (·.1)).sum = N * c.1 := by
  rw [onCircle_sum, Finset.sum_add_distrib, ← Finset.mul_sum]
  rcases Nat.lt_or_ge N 2 with h | h
  · interval_cases N <;> simp
  · have := (circle_sums (N := N) (m := 1) (by omega) (by intro h; have := Nat.le_of_dvd one_pos h; omega)).2
    simp only [Nat.cast_one, one_mul] at this
    rw [this]
    simp

/-- The sum of the ordinates. -/
theorem onCircle_y (c : ℝ × ℝ) (ρ : ℝ) (N : ℕ) :
    ((onCircle c ρ N).map (·.2)).sum = N * c.2 + if N = 1 then ρ else 0 := by
  rw [onCircle_sum, Finset.sum_add_distrib, ← Finset.mul_sum]
  rcases Nat.lt_or_ge N 2 with h | h
  · interval_cases N <;> simp
  · have := (circle_sums (N := N) (m := 1) (by omega) (by intro h; have := Nat.le_of_dvd one_pos h; omega)).1
    simp only [Nat.cast_one, one_mul] at this
    rw [this, if_neg (by omega)]
    simp

/-- Second moments, from three points on. -/
theorem onCircle_moments (c : ℝ × ℝ) (ρ : ℝ) {N : ℕ} (hN : N = 0 ∨ 3 ≤ N) :
    ((onCircle c ρ N).map fun q => (q.1 - c.1) ^ 2).sum = N * ρ ^ 2 / 2 ∧
    ((onCircle c ρ N).map fun q => (q.2 - c.2) ^ 2).sum = N * ρ ^ 2 / 2 ∧
    ((onCircle c ρ N).map fun q => (q.1 - c.1) * (q.2 - c.2)).sum = 0 := by
  rcases hN with rfl | hN
  · simp [onCircle]
  obtain ⟨hc, hs⟩ := circle_sums (N := N) (m := 2) (by omega)
    (by intro h; have := Nat.le_of_dvd two_pos h; omega)
  rw [onCircle_sum, onCircle_sum, onCircle_sum]
  refine ⟨?_, ?_, ?_⟩
  · have e : ∀ j ∈ Finset.range N, (c.1 + ρ * Real.sin (2 * Real.pi * ((j : ℝ) / N)) - c.1) ^ 2 =
        ρ ^ 2 / 2 - ρ ^ 2 / 2 * Real.cos ((2 : ℕ) * (2 * Real.pi * ((j : ℝ) / N))) := by
      intro j _
      push_cast
      rw [Real.cos_two_mul, Real.cos_sq']
      ring
    rw [Finset.sum_congr rfl e, Finset.sum_sub_distrib, ← Finset.mul_sum, hc]
    simp
    ring
  · have e : ∀ j ∈ Finset.range N, (c.2 + ρ * Real.cos (2 * Real.pi * ((j : ℝ) / N)) - c.2) ^ 2 =
        ρ ^ 2 / 2 + ρ ^ 2 / 2 * Real.cos ((2 : ℕ) * (2 * Real.pi * ((j : ℝ) / N))) := by
      intro j _
      push_cast
      rw [Real.cos_two_mul]
      ring
    rw [Finset.sum_congr rfl e, Finset.sum_add_distrib, ← Finset.mul_sum, hc]
    simp
    ring
  · have e : ∀ j ∈ Finset.range N, (c.1 + ρ * Real.sin (2 * Real.pi * ((j : ℝ) / N)) - c.1) *
        (c.2 + ρ * Real.cos (2 * Real.pi * ((j : ℝ) / N)) - c.2) =
        ρ ^ 2 / 2 * Real.sin ((2 : ℕ) * (2 * Real.pi * ((j : ℝ) / N))) := by
      intro j _
      push_cast
      rw [Real.sin_two_mul]
      ring
    rw [Finset.sum_congr rfl e, ← Finset.mul_sum, hs, mul_zero]

theorem onCircle_polar (c : ℝ × ℝ) (ρ : ℝ) (N : ℕ) :
    ((onCircle c ρ N).map fun q => (q.1 - c.1) ^ 2 + (q.2 - c.2) ^ 2).sum = N * ρ ^ 2 := by
  rw [onCircle_sum]
  have e : ∀ j ∈ Finset.range N, (c.1 + ρ * Real.sin (2 * Real.pi * ((j : ℝ) / N)) - c.1) ^ 2 +
      (c.2 + ρ * Real.cos (2 * Real.pi * ((j : ℝ) / N)) - c.2) ^ 2 = ρ ^ 2 := by
    intro j _
    have := Real.sin_sq_add_cos_sq (2 * Real.pi * ((j : ℝ) / N))
    linear_combination ρ ^ 2 * this
  rw [Finset.sum_congr rfl e]
  simp


/-! ## The layout of ball.py -/

theorem ringPoints_circle (c : ℝ × ℝ) (ρ : ℝ) (d : ℕ) :
    ringPoints realCirc c ρ d = onCircle c ρ d := by
  unfold ringPoints linspaceL onCircle
  rw [List.map_map]
  refine List.map_congr_left fun j hj => ?_
  rw [List.mem_range] at hj
  have e : linspace (0 : ℝ) ((1 - 1 / (d : ℝ)) * 2 * realCirc.pi) d j =
      2 * Real.pi * ((j : ℝ) / d) := by
    unfold linspace realCirc
    rcases Nat.lt_or_ge d 2 with h | h
    · have hj0 : j = 0 := by omega
      subst hj0
      simp
    · have h2 : (2 : ℝ) ≤ d := by exact_mod_cast h
      have h3 : (d : ℝ) - 1 ≠ 0 := by linarith
      have h4 : (d : ℝ) ≠ 0 := by linarith
      field_simp
      ring
  simp only [Function.comp_apply, e]
  rfl

theorem ballLayout_circles {nr nphi : ℕ} {r : ℝ} (hr : r ≠ 0) (c : ℝ × ℝ) :
    ballLayout realCirc nr nphi r c =
      circles nr r c fun k => (npAround ((nphi : ℝ) * k / ((nr : ℝ) - 1))).toNat := by
  unfold ballLayout linspaceL circles
  rw [List.flatMap_map]
  refine congrArg (List.flatMap · _) ?_
  funext k
  have e1 : linspace (0 : ℝ) r nr k = r * k / ((nr : ℝ) - 1) := by
    unfold linspace; ring
  have e2 : (nphi : ℝ) * (r * k / ((nr : ℝ) - 1)) / r = (nphi : ℝ) * k / ((nr : ℝ) - 1) := by
    rw [mul_div_assoc', div_div, mul_comm ((nr : ℝ) - 1) r, ← div_div]
    congr 1
    field_simp
  simp only [e1, e2]
  split_ifs with h
  · exact ringPoints_circle _ _ _
  · rw [Int.toNat_of_nonpos (not_lt.1 h)]
    rfl

theorem toNat_near {x : ℝ} (hx : 0 ≤ x) : |((npAround x).toNat : ℝ) - x| ≤ 1 / 2 := by
  have h := npAround_near x
  have h0 : 0 ≤ npAround x := by
    by_contra hc
    have : (npAround x : ℝ) ≤ -1 := by exact_mod_cast (by omega : npAround x ≤ -1)
    rw [abs_le] at h
    linarith [h.1]
  have e : (((npAround x).toNat : ℤ) : ℝ) = (npAround x : ℝ) := by rw [Int.toNat_of_nonneg h0]
  rw [show ((npAround x).toNat : ℝ) = (((npAround x).toNat : ℤ) : ℝ) by norm_cast, e]
  exact h

theorem ring_arg {nr nphi : ℕ} (h : 2 ≤ nr) (k : ℕ) : 0 ≤ (nphi : ℝ) * k / ((nr : ℝ) - 1) := by
  have : (2 : ℝ) ≤ nr := by exact_mod_cast h
  have : (0 : ℝ) < (nr : ℝ) - 1 := by linarith
  positivity

/-- C128.  The points of ball.py lie on `nr` circles around the centre with radii growing evenly from
zero to `r`; the `k`-th circle has the nearest integer to `nphi k/(nr-1)` points, at equal angles. -/
theorem c128_circles {nr nphi : ℕ} (hn : 2 ≤ nr) {r : ℝ} (hr : r ≠ 0) (c : ℝ × ℝ) :
    ∃ N : ℕ → ℕ, (∀ k, |(N k : ℝ) - nphi * k / ((nr : ℝ) - 1)| ≤ 1 / 2) ∧
      ballLayout realCirc nr nphi r c = circles nr r c N :=
  ⟨_, fun k => toNat_near (ring_arg hn k), ballLayout_circles hr c⟩

theorem circles_sum {M : Type} [AddCommMonoid M] (nr : ℕ) (r : ℝ) (c : ℝ × ℝ) (N : ℕ → ℕ)
    (f : ℝ × ℝ → M) : ((circles nr r c N).map f).sum = ∑ k ∈ Finset.range nr,
      ((onCircle c (r * k / ((nr : ℝ) - 1)) (N k)).map f).sum := by
  unfold circles
  rw [sum_flatMap, sum_map_range]

theorem circles_length (nr : ℕ) (r : ℝ) (c : ℝ × ℝ) (N : ℕ → ℕ) :
    (circles nr r c N).length = ∑ k ∈ Finset.range nr, N k := by
  have h := circles_sum nr r c N (fun _ => 1)
  simp only [List.map_const', List.sum_replicate, onCircle_length, smul_eq_mul, mul_one] at h
  exact h

/-- C128.  No point is farther from the centre than `r`. -/
theorem c128_inside {nr nphi : ℕ} (hn : 2 ≤ nr) {r : ℝ} (hr : 0 < r) (c : ℝ × ℝ) {q : ℝ × ℝ}
    (hq : q ∈ ballLayout realCirc nr nphi r c) :
    (q.1 - c.1) ^ 2 + (q.2 - c.2) ^ 2 ≤ r ^ 2 ∧ |q.1 - c.1| ≤ r ∧ |q.2 - c.2| ≤ r := by
  have h2 : (2 : ℝ) ≤ nr := by exact_mod_cast hn
  rw [ballLayout_circles hr.ne'] at hq
  unfold circles at hq
  obtain ⟨k, hk, hq⟩ := List.mem_flatMap.1 hq
  rw [List.mem_range] at hk
  unfold onCircle at hq
  obtain ⟨j, _, rfl⟩ := List.mem_map.1 hq
  have hk' : (k : ℝ) ≤ (nr : ℝ) - 1 := by
    have : k + 1 ≤ nr := hk
    have : (k : ℝ) + 1 ≤ nr := by exact_mod_cast this
    linarith
  have hρ0 : 0 ≤ r * k / ((nr : ℝ) - 1) := by
    have : (0 : ℝ) < (nr : ℝ) - 1 := by linarith
    positivity
  have hρ : r * k / ((nr : ℝ) - 1) ≤ r := by
    rw [div_le_iff₀ (by linarith)]
    exact mul_le_mul_of_nonneg_left hk' hr.le
  have hs := Real.sin_sq_add_cos_sq
    (2 * Real.pi * ((j : ℝ) / ((npAround ((nphi : ℝ) * k / ((nr : ℝ) - 1))).toNat : ℝ)))
  set ρ := r * k / ((nr : ℝ) - 1)
  set θ := 2 * Real.pi * ((j : ℝ) / ((npAround ((nphi : ℝ) * k / ((nr : ℝ) - 1))).toNat : ℝ))
  have e : (c.1 + ρ * Real.sin θ - c.1) ^ 2 + (c.2 + ρ * Real.cos θ - c.2) ^ 2 = ρ ^ 2 := by
    linear_combination ρ ^ 2 * hs
  have hsq : ρ ^ 2 ≤ r ^ 2 := by gcongr
  refine ⟨by rw [e]; exact hsq, abs_le_of_sq_le_sq ?_ hr.le, abs_le_of_sq_le_sq ?_ hr.le⟩
  · nlinarith [sq_nonneg (c.2 + ρ * Real.cos θ - c.2)]
  · nlinarith [sq_nonneg (c.1 + ρ * Real.sin θ - c.1)]

/-- C128.  The number of points is `nphi nr/2`, up to half a point per circle. -/
theorem c128_count {nr nphi : ℕ} (hn : 2 ≤ nr) {r : ℝ} (hr : r ≠ 0) (c : ℝ × ℝ) :
    |((ballLayout realCirc nr nphi r c).length : ℝ) - nphi * nr / 2| ≤ nr / 2 := by
  have h2 : (2 : ℝ) ≤ nr := by exact_mod_cast hn
  have h3 : (nr : ℝ) - 1 ≠ 0 := by linarith
  rw [ballLayout_circles hr, circles_length]
  have e : (nphi : ℝ) * nr / 2 = ∑ k ∈ Finset.range nr, (nphi : ℝ) * k / ((nr : ℝ) - 1) := by
    rw [← Finset.sum_div, ← Finset.mul_sum]
    have g : ∑ k ∈ Finset.range nr, (k : ℝ) = nr * ((nr : ℝ) - 1) / 2 := by
      have := Finset.sum_range_id_mul_two nr
      have h : ((∑ i ∈ Finset.range nr, i : ℕ) : ℝ) * 2 = nr * ((nr : ℝ) - 1) := by
        rw [show (nr : ℝ) - 1 = ((nr - 1 : ℕ) : ℝ) by rw [Nat.cast_sub (by omega)]; simp]
        exact_mod_cast this
      push_cast at h
      linarith
    rw [g]
    field_simp
  rw [e]
  push_cast
  rw [← Finset.sum_sub_distrib]
  refine (Finset.abs_sum_le_sum_abs _ _).trans ?_
  refine (Finset.sum_le_sum fun k _ => toNat_near (ring_arg (nphi := nphi) hn k)).trans ?_
  simp
  linarith


theorem npAround_zero : npAround (0 : ℝ) = 0 := by
  unfold npAround
  simp

theorem npAround_two {x : ℝ} (h : 3 / 2 ≤ x) : 2 ≤ npAround x := by
  have h1 := abs_le.1 (npAround_near x)
  rcases h.eq_or_lt with h | h
  · have h2 := npAround_half (K := ℝ) 1
    rw [show ((1 : ℤ) : ℝ) + 1 / 2 = x by rw [← h]; norm_num] at h2
    have : (1 : ℝ) ≤ npAround x := by linarith [h1.1]
    have : 1 ≤ npAround x := by exact_mod_cast this
    omega
  · have : (1 : ℝ) < npAround x := by linarith [h1.1]
    have : 1 < npAround x := by exact_mod_cast this
    omega

theorem npAround_three {x : ℝ} (h : 5 / 2 < x) : 3 ≤ npAround x := by
  have h1 := abs_le.1 (npAround_near x)
  have : (2 : ℝ) < npAround x := by linarith [h1.1]
  have : 2 < npAround x := by exact_mod_cast this
  omega

theorem npAround_one {x : ℝ} (h : 1 / 2 < x) (h' : x < 3 / 2) : npAround x = 1 := by
  have h1 := abs_le.1 (npAround_near x)
  have a : (0 : ℝ) < npAround x := by linarith [h1.1]
  have b : (npAround x : ℝ) < 2 := by linarith [h1.2]
  have a : 0 < npAround x := by exact_mod_cast a
  have b : npAround x < 2 := by exact_mod_cast b
  omega

/-- On every circle but the innermost `nphi k/(nr-1)` is at least `nphi/(nr-1)`. -/
theorem ring_least {nr nphi : ℕ} (hn : 2 ≤ nr) {k : ℕ} (hk : k ≠ 0) :
    (nphi : ℝ) / ((nr : ℝ) - 1) ≤ nphi * k / ((nr : ℝ) - 1) := by
  have h2 : (2 : ℝ) ≤ nr := by exact_mod_cast hn
  have h1 : (1 : ℝ) ≤ k := by exact_mod_cast Nat.one_le_iff_ne_zero.2 hk
  have : (0 : ℝ) ≤ nphi := by positivity
  refine div_le_div_of_nonneg_right ?_ (by linarith)
  nlinarith

theorem ring_ratio {nr nphi a b : ℕ} (hn : 2 ≤ nr) (hb : 0 < b) (h : a * (nr - 1) ≤ b * nphi) :
    (a : ℝ) / b ≤ nphi / ((nr : ℝ) - 1) := by
  have h2 : (2 : ℝ) ≤ nr := by exact_mod_cast hn
  have hb' : (0 : ℝ) < b := by exact_mod_cast hb
  rw [div_le_div_iff₀ hb' (by linarith)]
  have : ((a * (nr - 1) : ℕ) : ℝ) ≤ ((b * nphi : ℕ) : ℝ) := by exact_mod_cast h
  push_cast [Nat.cast_sub (by omega : 1 ≤ nr)] at this
  linarith

/-- The sum of the heights: every circle with a single point has it above the centre. -/
theorem circles_y (nr : ℕ) (r : ℝ) (c : ℝ × ℝ) (N : ℕ → ℕ) :
    ((circles nr r c N).map (·.2)).sum = (circles nr r c N).length * c.2 +
      ∑ k ∈ Finset.range nr, if N k = 1 then r * k / ((nr : ℝ) - 1) else 0 := by
  rw [circles_sum, circles_length]
  simp only [onCircle_y]
  rw [Finset.sum_add_distrib, ← Finset.sum_mul]
  push_cast
  rfl

theorem circles_x (nr : ℕ) (r : ℝ) (c : ℝ × ℝ) (N : ℕ → ℕ) :
    ((circles nr r c N).map (·.1)).sum = (circles nr r c N).length * c.1 := by
  rw [circles_sum, circles_length]
  simp only [onCircle_x]
  rw [← Finset.sum_mul]
  push_cast
  rfl

/-- C128.  With at least 3/2 points of `nphi` per circle, the mean position of the points is the
centre. -/
theorem c128_centre {nr nphi : ℕ} (hn : 2 ≤ nr) (h : 3 * (nr - 1) ≤ 2 * nphi) {r : ℝ} (hr : r ≠ 0)
    (c : ℝ × ℝ) :
    ((ballLayout realCirc nr nphi r c).map (·.1)).sum =
        (ballLayout realCirc nr nphi r c).length * c.1 ∧
    ((ballLayout realCirc nr nphi r c).map (·.2)).sum =
        (ballLayout realCirc nr nphi r c).length * c.2 := by
  rw [ballLayout_circles hr]
  refine ⟨circles_x _ _ _ _, ?_⟩
  rw [circles_y, Finset.sum_eq_zero, add_zero]
  intro k _
  rcases Nat.eq_zero_or_pos k with rfl | hk
  · simp
  · have h1 := ring_least (nphi := nphi) hn hk.ne'
    have h2 := ring_ratio (a := 3) (b := 2) hn two_pos h
    have h3 : 2 ≤ npAround ((nphi : ℝ) * k / ((nr : ℝ) - 1)) :=
      npAround_two (by push_cast at h2; linarith)
    rw [if_neg (by omega)]

/-- C128.  But if some circle has a single point, the mean position is above the centre. -/
theorem c128_above {nr nphi : ℕ} {r : ℝ} (hr : 0 < r) (c : ℝ × ℝ)
    {k : ℕ} (hk : k < nr) (h1 : (nr : ℝ) - 1 < 2 * (nphi * k)) (h2 : 2 * (nphi * k) < 3 * ((nr : ℝ) - 1)) :
    ((ballLayout realCirc nr nphi r c).length : ℝ) * c.2 <
      ((ballLayout realCirc nr nphi r c).map (·.2)).sum := by
  rw [ballLayout_circles hr.ne', circles_y]
  have hp : (0 : ℝ) < (nr : ℝ) - 1 := by linarith
  have hk0 : 0 < (k : ℝ) := by
    rcases Nat.eq_zero_or_pos k with rfl | hk
    · simp at h1; linarith
    · exact_mod_cast hk
  refine lt_add_of_pos_right _ (Finset.sum_pos' (fun i _ => ?_) ⟨k, Finset.mem_range.2 hk, ?_⟩)
  · split_ifs
    · positivity
    · exact le_rfl
  · rw [npAround_one]
    · simp only [Int.toNat_one, if_true]
      positivity
    · rw [lt_div_iff₀ hp]; linarith
    · rw [div_lt_iff₀ hp]; linarith

/-- C128.  The points are arranged alike in all directions: with more than 5/2 points of `nphi` per
circle the second moments about the centre are equal and the mixed one vanishes. -/
theorem c128_isotropic {nr nphi : ℕ} (hn : 2 ≤ nr) (h : 5 * (nr - 1) < 2 * nphi) {r : ℝ} (hr : r ≠ 0)
    (c : ℝ × ℝ) :
    ((ballLayout realCirc nr nphi r c).map fun q => (q.1 - c.1) ^ 2).sum =
      ((ballLayout realCirc nr nphi r c).map fun q => (q.2 - c.2) ^ 2).sum ∧
    ((ballLayout realCirc nr nphi r c).map fun q => (q.1 - c.1) * (q.2 - c.2)).sum = 0 := by
  rw [ballLayout_circles hr, circles_sum, circles_sum, circles_sum]
  have key : ∀ k : ℕ, (npAround ((nphi : ℝ) * k / ((nr : ℝ) - 1))).toNat = 0 ∨
      3 ≤ (npAround ((nphi : ℝ) * k / ((nr : ℝ) - 1))).toNat := by
    intro k
    rcases Nat.eq_zero_or_pos k with rfl | hk
    · left; simp [npAround_zero]
    · right
      have h1 := ring_least (nphi := nphi) hn hk.ne'
      have h2 : (2 : ℝ) ≤ nr := by exact_mod_cast hn
      have h3 : (5 : ℝ) / 2 < nphi / ((nr : ℝ) - 1) := by
        rw [div_lt_div_iff₀ two_pos (by linarith)]
        have : ((5 * (nr - 1) : ℕ) : ℝ) < ((2 * nphi : ℕ) : ℝ) := by exact_mod_cast h
        push_cast [Nat.cast_sub (by omega : 1 ≤ nr)] at this
        linarith
      have h4 : 3 ≤ npAround ((nphi : ℝ) * k / ((nr : ℝ) - 1)) := npAround_three (by linarith)
      omega
  constructor
  · refine Finset.sum_congr rfl fun k _ => ?_
    obtain ⟨a, b, _⟩ := onCircle_moments c (r * k / ((nr : ℝ) - 1)) (key k)
    rw [a, b]
  · exact Finset.sum_eq_zero fun k _ => (onCircle_moments c (r * k / ((nr : ℝ) - 1)) (key k)).2.2

/-! ## The constructed ball -/

section
variable {P : Par ℝ} {g : ℝ}

theorem placed_mass {ns : ℕ} {l : List (ℝ × ℝ)} {a : Phase ℝ ns × PhaseInit ℝ ns} (ha : At l a)
    {L : List (PhaseSt ℝ ns)} (h : mkList P g [a] = .ok L) :
    totalMass L = a.1.par.rho * (a.1.A * P.G.thickness) * l.length ∧
    massMoment L = (a.1.par.rho * (a.1.A * P.G.thickness)) •
      ![(l.map (·.1)).sum, (l.map (·.2)).sum, 0] := by
  have r := c64_points h
  cases r with
  | cons hab r =>
    cases r
    rename_i b
    obtain ⟨_, hn, hpl⟩ := hab
    have hm : ∀ mp ∈ b.pts, mp.m = a.1.par.rho * (a.1.A * P.G.thickness) := by
      intro mp hmp
      obtain ⟨i, hi⟩ := List.getElem?_of_mem hmp
      exact (hpl i mp hi).m
    have hz : ∀ mp ∈ b.pts, mp.x 2 = 0 := by
      intro mp hmp
      obtain ⟨i, hi⟩ := List.getElem?_of_mem hmp
      exact (hpl i mp hi).z
    have hpts : points [b] = b.pts := by simp [points]
    constructor
    · unfold totalMass
      rw [hpts, List.map_congr_left hm, List.map_const', List.sum_replicate, hn, ha.n,
        nsmul_eq_mul, mul_comm]
    · unfold massMoment
      rw [hpts]
      have e : b.pts.map (fun mp => mp.m • mp.x) = b.pts.map fun mp =>
          (fun x y => (a.1.par.rho * (a.1.A * P.G.thickness)) • (![x, y, 0] : Vec ℝ)) (mp.x 0) (mp.x 1) := by
        refine List.map_congr_left fun mp hmp => ?_
        rw [hm mp hmp]
        congr 1
        funext i
        fin_cases i
        · rfl
        · rfl
        · exact hz mp hmp
      rw [e]
      refine (placed_sum ha hn hpl fun x y =>
        (a.1.par.rho * (a.1.A * P.G.thickness)) • (![x, y, 0] : Vec ℝ)).trans ?_
      clear e hm hz hpl hn hpts h ha
      induction l with
      | nil => funext i; fin_cases i <;> simp
      | cons q l ih =>
        rw [List.map_cons, List.sum_cons, ih]
        funext i
        fin_cases i <;> simp [mul_add]

/-- C128.  The ball that ball.py constructs has the mass of a disc of radius `r` (times the thickness)
and its centre of mass in the centre. -/
theorem c128_ball {ns nr nphi : ℕ} (hn : 2 ≤ nr) (h : 3 * (nr - 1) ≤ 2 * nphi) {r : ℝ} (hr : 0 < r)
    {c : ℝ × ℝ} {a : Phase ℝ ns × PhaseInit ℝ ns} (ha : At (ballLayout realCirc nr nphi r c) a)
    (hA : a.1.A = discArea realCirc r a.1.n) {L : List (PhaseSt ℝ ns)} (hL : mkList P g [a] = .ok L) :
    totalMass L = a.1.par.rho * (Real.pi * r ^ 2) * P.G.thickness ∧
    massMoment L = totalMass L • ![c.1, c.2, 0] := by
  obtain ⟨hm, hx⟩ := placed_mass ha hL
  obtain ⟨cx, cy⟩ := c128_centre hn h hr.ne' c
  have hc := abs_le.1 (c128_count (nphi := nphi) hn hr.ne' c)
  have h2 : (2 : ℝ) ≤ nr := by exact_mod_cast hn
  have hphi : (2 : ℝ) ≤ nphi := by exact_mod_cast (by omega : 2 ≤ nphi)
  have hpos : (0 : ℝ) < (ballLayout realCirc nr nphi r c).length := by nlinarith [hc.1]
  have htot : totalMass L = a.1.par.rho * (Real.pi * r ^ 2) * P.G.thickness := by
    rw [hm, hA, ha.n]
    change a.1.par.rho * (Real.pi * r ^ 2 / (ballLayout realCirc nr nphi r c).length *
      P.G.thickness) * _ = _
    have := hpos.ne'
    field_simp
  refine ⟨htot, ?_⟩
  rw [hx, cx, cy, hm]
  funext i
  fin_cases i <;> simp <;> ring

end


theorem npAround_eq {x : ℝ} {n : ℤ} (h1 : n - 1 / 2 < x) (h2 : x < n + 1 / 2) : npAround x = n := by
  have h := abs_le.1 (npAround_near x)
  have a : (n : ℝ) - 1 < npAround x := by linarith [h.1]
  have b : (npAround x : ℝ) < n + 1 := by linarith [h.2]
  have a : n - 1 < npAround x := by exact_mod_cast a
  have b : npAround x < n + 1 := by exact_mod_cast b
  omega

/-- The numbers of points on the circles of ball.py. -/
theorem ball_numbers (k : ℕ) (hk : k < 20) :
    (npAround (((50 : ℕ) : ℝ) * k / (((20 : ℕ) : ℝ) - 1))).toNat =
      [0, 3, 5, 8, 11, 13, 16, 18, 21, 24, 26, 29, 32, 34, 37, 39, 42, 45, 47, 50].getD k 0 := by
  have key : npAround (((50 : ℕ) : ℝ) * k / (((20 : ℕ) : ℝ) - 1)) =
      (([0, 3, 5, 8, 11, 13, 16, 18, 21, 24, 26, 29, 32, 34, 37, 39, 42, 45, 47, 50] :
        List ℕ).getD k 0 : ℤ) := by
    interval_cases k <;> apply npAround_eq <;> norm_num
  rw [key, Int.toNat_natCast]

/-- C128.  ball.py as shipped (20 circles, 50 points on the last one): 500 points, none in the centre;
with equal masses, their polar moment of inertia about the centre is 4993/4750 of that of a disc of
their mass, 5 % too large. -/
theorem c128_shipped {r : ℝ} (hr : r ≠ 0) (c : ℝ × ℝ) :
    (ballLayout realCirc 20 50 r c).length = 500 ∧
    ((ballLayout realCirc 20 50 r c).map fun q => (q.1 - c.1) ^ 2 + (q.2 - c.2) ^ 2).sum =
      4993 / 4750 * (500 * (r ^ 2 / 2)) := by
  rw [ballLayout_circles hr, circles_length, circles_sum]
  simp only [onCircle_polar]
  constructor
  · rw [Finset.sum_congr rfl fun k hk => ball_numbers k (Finset.mem_range.1 hk)]
    rfl
  · rw [Finset.sum_congr rfl fun k hk => by rw [ball_numbers k (Finset.mem_range.1 hk)]]
    simp only [Finset.sum_range_succ, Finset.sum_range_zero]
    norm_num
    ring

/-- C128.  With its centre and radius, it is inside the domain of the file and does not touch the
ground. -/
theorem c128_shipped_inside {q : ℝ × ℝ} (hq : q ∈ ballLayout realCirc 20 50 (3 / 10) (0, 1)) :
    (-1 < q.1 ∧ q.1 < 1) ∧ (0 < q.2 ∧ q.2 < 2) := by
  obtain ⟨_, h1, h2⟩ := c128_inside (by norm_num) (by norm_num) (0, 1) hq
  rw [abs_le] at h1 h2
  simp only [sub_zero] at h1 h2
  exact ⟨⟨by linarith [h1.1], by linarith [h1.2]⟩, by linarith [h2.1], by linarith [h2.2]⟩

/-- C128.  The same loops without `int(...)` (brazillian.py, flow.py, stokes.py) stop with TypeError in
the first circle. -/
theorem c128_float {nr : ℕ} (h : 0 < nr) (r : ℝ) : floatRings nr r = .error .type := by
  obtain ⟨n, rfl⟩ : ∃ n, nr = n + 1 := ⟨nr - 1, by omega⟩
  unfold floatRings linspaceL
  rw [List.range_succ_eq_map, List.map_cons, List.foldlM_cons]
  rfl

/-- C128.  The area of brazillian.py would give its disc (radius 0.45) 16/81 of its mass. -/
theorem c128_brazillian {n : ℕ} (h : 0 < n) :
    (n : ℝ) * brazilArea realCirc n = 16 / 81 * (Real.pi * (45 / 100) ^ 2) := by
  have : (n : ℝ) ≠ 0 := by exact_mod_cast h.ne'
  change (n : ℝ) * (Real.pi * (2 / 10) ^ 2 / n) = _
  field_simp
  norm_num

/-! ## Examples -/

namespace Ex

noncomputable def ballPar : Par ℝ := { granPar with pressure := .none, initial_flow := .none }

end Ex

/-- The ball of ball.py, of any material, can be constructed. -/
example (ph : Phase ℝ 2) : ∃ (a : Phase ℝ 2 × PhaseInit ℝ 2) (L : List (PhaseSt ℝ 2)),
    At (ballLayout realCirc 20 50 (3 / 10) (0, 1)) a ∧
    a.1.A = discArea realCirc (3 / 10) a.1.n ∧ mkList Ex.ballPar (-10) [a] = .ok L ∧
    3 * (20 - 1) ≤ 2 * 50 ∧ 5 * (20 - 1) < 2 * 50 := by
  obtain ⟨L, h⟩ := Ex.placed_ok (P := Ex.ballPar) (g := -10) rfl rfl ph
    [(ballLayout realCirc 20 50 (3 / 10) (0, 1),
      discArea realCirc (3 / 10) (ballLayout realCirc 20 50 (3 / 10) (0, 1)).length)]
  exact ⟨_, L, Ex.placed_at ph _ _, rfl, h, by norm_num, by norm_num⟩

/-- Twenty circles with twenty points on the last one: the first circle has a single point. -/
example : ((ballLayout realCirc 20 20 1 (0, 0)).length : ℝ) * 0 <
    ((ballLayout realCirc 20 20 1 (0, 0)).map (·.2)).sum :=
  c128_above one_pos (0, 0) (k := 1) (by norm_num) (by norm_num) (by norm_num)

end Mpm

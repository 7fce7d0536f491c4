import Verif.Py
import Mathlib.Analysis.SpecialFunctions.Pow.Real

/-! The elementary functions: what the theorems assume of them, and the real ones. -/

set_option linter.unusedSectionVars false

namespace Mpm

namespace Spec

/-- The assumptions on `Ops`: a square root, powers of one, a positive largest number. -/
structure GoodOps {K : Type} [Field K] [LinearOrder K] (o : Ops K) : Prop where
  sqrt_nonneg : ∀ x, 0 ≤ x → 0 ≤ o.sqrt x
  sqrt_mul : ∀ x, 0 ≤ x → o.sqrt x * o.sqrt x = x
  one_pow : ∀ y, o.pow 1 y = 1
  big_pos : 0 < o.big

end Spec

/-- The functions of real analysis, `big` being whatever the largest float is. -/
noncomputable def realOps (big : ℝ) : Ops ℝ :=
  { sqrt := Real.sqrt, pow := fun x y => x ^ y, log := Real.log, big := big }

theorem realOps_good {big : ℝ} (h : 0 < big) : Spec.GoodOps (realOps big) where
  sqrt_nonneg x _ := Real.sqrt_nonneg x
  sqrt_mul x hx := Real.mul_self_sqrt hx
  one_pow y := Real.one_rpow y
  big_pos := h

section
variable {K : Type} [Field K] [LinearOrder K] [IsStrictOrderedRing K] {o : Ops K}

namespace Spec.GoodOps

theorem sqrt_zero (h : GoodOps o) : o.sqrt 0 = 0 := by
  have := h.sqrt_mul 0 le_rfl
  exact mul_self_eq_zero.1 this

theorem sqrt_eq (h : GoodOps o) {x y : K} (hy : 0 ≤ y) (hx : y * y = x) : o.sqrt x = y := by
  have h0 : 0 ≤ x := hx ▸ mul_nonneg hy hy
  exact (mul_self_inj (h.sqrt_nonneg x h0) hy).1 ((h.sqrt_mul x h0).trans hx.symm)

theorem sqrt_mul_of (h : GoodOps o) {x y : K} (hx : 0 ≤ x) (hy : 0 ≤ y) :
    o.sqrt (x * y) = o.sqrt x * o.sqrt y := by
  refine h.sqrt_eq (mul_nonneg (h.sqrt_nonneg x hx) (h.sqrt_nonneg y hy)) ?_
  calc o.sqrt x * o.sqrt y * (o.sqrt x * o.sqrt y)
      = (o.sqrt x * o.sqrt x) * (o.sqrt y * o.sqrt y) := by ring
    _ = x * y := by rw [h.sqrt_mul x hx, h.sqrt_mul y hy]

theorem sqrt_pos (h : GoodOps o) {x : K} (hx : 0 < x) : 0 < o.sqrt x := by
  refine lt_of_le_of_ne (h.sqrt_nonneg x hx.le) fun e => ?_
  have := h.sqrt_mul x hx.le
  rw [← e, mul_zero] at this
  exact hx.ne this

theorem sqrt_le (h : GoodOps o) {x y : K} (hx : 0 ≤ x) (hxy : x ≤ y) : o.sqrt x ≤ o.sqrt y := by
  refine (mul_self_le_mul_self_iff (h.sqrt_nonneg x hx) (h.sqrt_nonneg y (hx.trans hxy))).2 ?_
  rw [h.sqrt_mul x hx, h.sqrt_mul y (hx.trans hxy)]
  exact hxy

theorem sqrt_eq_zero (h : GoodOps o) {x : K} (hx : 0 ≤ x) : o.sqrt x = 0 ↔ x = 0 := by
  constructor
  · intro e
    have := h.sqrt_mul x hx
    rw [e, mul_zero] at this
    exact this.symm
  · rintro rfl; exact h.sqrt_zero

end Spec.GoodOps
end
end Mpm

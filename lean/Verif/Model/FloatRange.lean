import Verif.Model.Float

/-!
# Floating point: the ends of the range

`fl` has no smallest and no largest number.  Here both are there.
-/

namespace Mpm
section
variable {K : Type} [Field K] [LinearOrder K] [FloorRing K]

/-- Rounding to `p` significant bits and to nothing finer than `2^e` (IEEE 754: gradual underflow).
Python floats and numpy's float64 have `p = 53`, `e = -1074`. -/
def flU (p : ℕ) (e : ℤ) (x : K) : K :=
  roundEven (x / 2 ^ max (Int.log 2 |x| - p + 1) e) * 2 ^ max (Int.log 2 |x| - p + 1) e

/-- The same with overflow: from `2^m` on the result is infinite; `m = 1024` for float64. -/
def flX (p : ℕ) (e m : ℤ) (x : K) : XF K :=
  if 2 ^ m ≤ flU p e x then .pinf
  else if flU p e x ≤ -2 ^ m then .ninf
  else .fin (flU p e x)

end
end Mpm

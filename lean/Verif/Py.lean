import Mathlib.Algebra.Order.Field.Basic
import Mathlib.Algebra.Order.Floor.Ring
import Mathlib.Algebra.BigOperators.Fin
import Mathlib.Data.Matrix.Basic
import Mathlib.LinearAlgebra.Matrix.Trace
import Mathlib.Logic.Equiv.Fin.Basic

/-!
# Python / numpy semantics used by the model

Nothing in this file is specific to poly-mpm.  It fixes how Python list/array
indexing, slices, exceptions and non-finite floats are represented.
-/

namespace Mpm

/-- Exceptions the modelled code can raise.  `nonFinite` is not a Python
exception: it marks that a value which the code keeps on using became `nan`/`inf`
at a place where the model only carries finite numbers.  `unmodelled` marks a branch that is
outside the model. -/
inductive Err where
  | index        -- IndexError
  | attribute    -- AttributeError
  | type         -- TypeError
  | name         -- NameError
  | value        -- ValueError
  | zeroDiv      -- ZeroDivisionError
  | sysExit      -- sys.exit()
  | nonFinite    -- model marker, see above
  | unmodelled   -- model marker: a branch the model does not cover (always stated where used)
  deriving DecidableEq, Repr

/-- A computation that may raise. -/
abbrev Res := Except Err

/-- 3-vectors `array([x,y,z])`. -/
abbrev Vec (K : Type) := Fin 3 → K

/-- 3x3 arrays. -/
abbrev Mat (K : Type) := Matrix (Fin 3) (Fin 3) K

/-- Python indexing `a[i]` on an array of length `n`: negative indices count from
the end, everything else out of range raises IndexError. -/
def pyIdx (n : ℕ) (i : ℤ) : Res (Fin n) :=
  if h : 0 ≤ i ∧ i < n then .ok ⟨i.toNat, by omega⟩
  else if h : -(n : ℤ) ≤ i ∧ i < 0 then .ok ⟨(i + n).toNat, by omega⟩
  else .error .index

/-- Normalisation of one slice bound (Python language reference, "slicings"):
negative bounds count from the end; bounds are clamped to `[0, n]`. -/
def sliceBound (n : ℕ) (i : ℤ) : ℕ :=
  if i < 0 then (i + n).toNat else min i.toNat n

/-- Membership of index `i` in the slice `start:stop:step` (positive step) of an
array of length `n`; `none` is an omitted bound. -/
def inSlice (n : ℕ) (start stop : Option ℤ) (step : ℕ) (i : ℕ) : Bool :=
  let lo := match start with | none => 0 | some s => sliceBound n s
  let hi := match stop with | none => n | some s => sliceBound n s
  decide (lo ≤ i) && decide (i < hi) && decide ((i - lo) % step = 0)

/-- `a[start:stop:step] = x`. -/
def setSlice {n : ℕ} {α : Type} (a : Fin n → α) (start stop : Option ℤ) (step : ℕ)
    (x : α) : Fin n → α :=
  fun i => if inSlice n start stop step i then x else a i

/-- `a[start:stop:step] = f(a[start:stop:step])` for elementwise `f`, e.g. `a[:k] /= 2`. -/
def mapSlice {n : ℕ} {α : Type} (a : Fin n → α) (start stop : Option ℤ) (step : ℕ)
    (f : α → α) : Fin n → α :=
  fun i => if inSlice n start stop step i then f (a i) else a i

/-- `a[i] += x` for one array element. -/
def addAt {n : ℕ} {α : Type} [Add α] (a : Fin n → α) (i : Fin n) (x : α) : Fin n → α :=
  Function.update a i (a i + x)

/-- `for i in range(n): l[i], s = f(l[i], s)` over a Python list `l`: raises IndexError
when `n` exceeds the length, and leaves elements from `n` on untouched. -/
def forN {α σ : Type} (f : α → σ → Res (α × σ)) : ℕ → List α → σ → Res (List α × σ)
  | 0, l, s => .ok (l, s)
  | _ + 1, [], _ => .error .index
  | n + 1, a :: l, s => do
      let (a', s') ← f a s
      let (l', s'') ← forN f n l s'
      return (a' :: l', s'')

/-- `for r in range(4): s = f(r, s)`. -/
def for4 {σ : Type} (f : Fin 4 → σ → Res σ) (s : σ) : Res σ := do
  let s ← f 0 s
  let s ← f 1 s
  let s ← f 2 s
  f 3 s

/-- `if c: x = f(x)`. -/
def whenSet {α : Type} (c : Bool) (f : α → Res α) (a : α) : Res α :=
  if c then f a else .ok a

/-- `trunc` followed by `int`: rounding towards zero. -/
def pyTrunc {K : Type} [Field K] [LinearOrder K] [FloorRing K] (x : K) : ℤ :=
  if 0 ≤ x then ⌊x⌋ else ⌈x⌉

/-- Python's `a % b` on floats, for `b ≠ 0`. -/
def pyMod {K : Type} [Field K] [LinearOrder K] [FloorRing K] (a b : K) : K :=
  a - b * (⌊a / b⌋ : ℤ)

/-! ### Extended numbers: floats with specials, without rounding -/

/-- Floating point values: finite, infinities, NaN.  Rounding and the sign of zero are
not represented (every zero counts as `+0`). -/
inductive XF (K : Type) where
  | fin (x : K)
  | pinf
  | ninf
  | nan
  deriving DecidableEq, Repr

namespace XF
variable {K : Type}

/-- `isfinite`. -/
def isFinite : XF K → Bool
  | fin _ => true
  | _ => false

/-- Extract a finite value, or flag. -/
def toRes : XF K → Res K
  | fin x => .ok x
  | _ => .error .nonFinite

section arith
variable [Field K] [LinearOrder K]

/-- sign of infinity times/divided by a non-zero finite number -/
def infSign (x : K) : XF K := if 0 < x then pinf else ninf

/-- IEEE addition on specials. -/
def add : XF K → XF K → XF K
  | fin a, fin b => fin (a + b)
  | nan, _ => nan
  | _, nan => nan
  | pinf, ninf => nan
  | ninf, pinf => nan
  | pinf, _ => pinf
  | _, pinf => pinf
  | ninf, _ => ninf
  | _, ninf => ninf

/-- IEEE negation. -/
def neg : XF K → XF K
  | fin a => fin (-a)
  | pinf => ninf
  | ninf => pinf
  | nan => nan

/-- IEEE subtraction. -/
def sub (a b : XF K) : XF K := add a (neg b)

/-- IEEE multiplication on specials. -/
def mul : XF K → XF K → XF K
  | fin a, fin b => fin (a * b)
  | nan, _ => nan
  | _, nan => nan
  | fin a, pinf => if a = 0 then nan else infSign a
  | fin a, ninf => if a = 0 then nan else infSign (-a)
  | pinf, fin a => if a = 0 then nan else infSign a
  | ninf, fin a => if a = 0 then nan else infSign (-a)
  | pinf, pinf => pinf
  | ninf, ninf => pinf
  | pinf, ninf => ninf
  | ninf, pinf => ninf

/-- IEEE division on specials; a zero divisor counts as `+0`. -/
def div : XF K → XF K → XF K
  | nan, _ => nan
  | _, nan => nan
  | fin a, fin b => if b = 0 then (if a = 0 then nan else infSign a) else fin (a / b)
  | fin _, pinf => fin 0
  | fin _, ninf => fin 0
  | pinf, fin b => if b < 0 then ninf else pinf
  | ninf, fin b => if b < 0 then pinf else ninf
  | pinf, pinf => nan
  | pinf, ninf => nan
  | ninf, pinf => nan
  | ninf, ninf => nan

instance : Add (XF K) := ⟨add⟩
instance : Sub (XF K) := ⟨sub⟩
instance : Neg (XF K) := ⟨neg⟩
instance : Mul (XF K) := ⟨mul⟩
instance : Div (XF K) := ⟨div⟩
instance : Zero (XF K) := ⟨fin 0⟩

/-- `abs`. -/
def abs : XF K → XF K
  | fin a => fin |a|
  | pinf => pinf
  | ninf => pinf
  | nan => nan

/-- numpy `minimum` (NaN propagates). -/
def min : XF K → XF K → XF K
  | nan, _ => nan
  | _, nan => nan
  | ninf, _ => ninf
  | _, ninf => ninf
  | pinf, b => b
  | a, pinf => a
  | fin a, fin b => fin (Min.min a b)

/-- numpy `maximum` (NaN propagates). -/
def max : XF K → XF K → XF K
  | nan, _ => nan
  | _, nan => nan
  | pinf, _ => pinf
  | _, pinf => pinf
  | ninf, b => b
  | a, ninf => a
  | fin a, fin b => fin (Max.max a b)

/-- `nan_to_num`: NaN becomes 0, infinities become plus/minus the largest finite number. -/
def nanToNum (big : K) : XF K → K
  | fin a => a
  | pinf => big
  | ninf => -big
  | nan => 0

/-- `sqrt` of a float, given the real square root. -/
def sqrt (sq : K → K) : XF K → XF K
  | fin a => if a < 0 then nan else fin (sq a)
  | pinf => pinf
  | ninf => nan
  | nan => nan

/-- `a > b` (false as soon as a NaN is involved). -/
def gt : XF K → XF K → Bool
  | fin a, fin b => decide (b < a)
  | pinf, fin _ => true
  | pinf, ninf => true
  | fin _, ninf => true
  | _, _ => false

end arith
end XF

/-- Functions which the code takes from numpy and the generic model takes as parameters. -/
structure Ops (K : Type) where
  /-- `numpy.sqrt` on finite non-negative numbers -/
  sqrt : K → K
  /-- `x**y` on finite numbers -/
  pow : K → K → K
  /-- `numpy.log` on finite positive numbers -/
  log : K → K
  /-- the largest finite float, used by `nan_to_num` -/
  big : K

end Mpm

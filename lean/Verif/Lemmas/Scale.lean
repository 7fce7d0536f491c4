import Verif.Lemmas.Equiv
import Verif.Lemmas.Ops
import Mathlib.Tactic.FieldSimp
import Mathlib.Tactic.Ring
import Mathlib.Tactic.Positivity
import Mathlib.Tactic.Linarith

/-! Units of mass, length, time and thickness, and floats multiplied by a positive number. -/

set_option linter.unusedSectionVars false

namespace Mpm
open Spec

namespace Spec

/-- New units: how many of them make up an old unit of mass, length in the plane, time and
thickness.  `W = L` is the usual case; `W = 1` leaves the thickness of the slab alone. -/
structure NewUnits (K : Type) [Field K] [LinearOrder K] where
  M : K
  L : K
  T : K
  W : K
  M_pos : 0 < M
  L_pos : 0 < L
  T_pos : 0 < T
  W_pos : 0 < W

section
variable {K : Type} [Field K] [LinearOrder K] (U : NewUnits K)

/-- Volume. -/
def NewUnits.vol : K := U.L ^ 2 * U.W
/-- Stress. -/
def NewUnits.stress : K := U.M / (U.T ^ 2 * U.W)
/-- Density. -/
def NewUnits.dens : K := U.M / U.vol
/-- Viscosity. -/
def NewUnits.visc : K := U.M / (U.T * U.W)
/-- Velocity. -/
def NewUnits.vel : K := U.L / U.T
/-- Acceleration. -/
def NewUnits.acc : K := U.L / U.T ^ 2
/-- Momentum. -/
def NewUnits.mom : K := U.M * U.L / U.T
/-- Force. -/
def NewUnits.force : K := U.M * U.L / U.T ^ 2
/-- Rate. -/
def NewUnits.rate : K := 1 / U.T

/-- A float in units that are `c` times smaller. -/
def scaleX (c : K) : XF K → XF K
  | .fin a => .fin (c * a)
  | .pinf => .pinf
  | .ninf => .ninf
  | .nan => .nan

end
end Spec

section
variable {K : Type} [Field K] [LinearOrder K] [IsStrictOrderedRing K]

theorem scaleX_one (x : XF K) : scaleX 1 x = x := by
  cases x <;> simp [scaleX]

theorem scaleX_add (c : K) (x y : XF K) : scaleX c x + scaleX c y = scaleX c (x + y) := by
  cases x <;> cases y <;> first | rfl | exact congrArg XF.fin (mul_add c _ _).symm

theorem scaleX_neg (c : K) (x : XF K) : -scaleX c x = scaleX c (-x) := by
  cases x <;> first | rfl | exact congrArg XF.fin (mul_neg c _).symm

theorem scaleX_sub (c : K) (x y : XF K) : scaleX c x - scaleX c y = scaleX c (x - y) := by
  change scaleX c x + -scaleX c y = scaleX c (x + -y)
  rw [scaleX_neg, scaleX_add]

theorem scaleX_infSign {c d : K} (hc : 0 < c) (x : K) :
    XF.infSign (c * x) = scaleX d (XF.infSign x) := by
  unfold XF.infSign
  simp only [mul_pos_iff_of_pos_left hc]
  split <;> rfl

theorem scaleX_mul {a b : K} (ha : 0 < a) (hb : 0 < b) (x y : XF K) :
    scaleX a x * scaleX b y = scaleX (a * b) (x * y) := by
  have h1 : ∀ {c : K}, 0 < c → ∀ z, (c * z = 0) = (z = 0) := fun hc z => by
    simp [hc.ne']
  have h2 : ∀ {c : K}, 0 < c → ∀ {d : K} z, (if c * z = 0 then XF.nan else XF.infSign (c * z)) =
      scaleX d (if z = 0 then XF.nan else XF.infSign z) := fun hc d z => by
    simp only [h1 hc]
    split
    · rfl
    · exact scaleX_infSign hc z
  have h3 : ∀ {c : K}, 0 < c → ∀ {d : K} z, (if c * z = 0 then XF.nan else XF.infSign (-(c * z))) =
      scaleX d (if z = 0 then XF.nan else XF.infSign (-z)) := fun hc d z => by
    simp only [h1 hc, ← mul_neg]
    split
    · rfl
    · exact scaleX_infSign hc (-z)
  cases x <;> cases y <;> first
    | rfl
    | exact congrArg XF.fin (by ring)
    | exact h2 ha _
    | exact h2 hb _
    | exact h3 ha _
    | exact h3 hb _

theorem scaleX_div {a b : K} (ha : 0 < a) (hb : 0 < b) (x y : XF K) :
    scaleX a x / scaleX b y = scaleX (a / b) (x / y) := by
  have hz : ∀ z : K, (b * z = 0) = (z = 0) := fun z => by simp [hb.ne']
  have hz' : ∀ z : K, (a * z = 0) = (z = 0) := fun z => by simp [ha.ne']
  have hn : ∀ z : K, (b * z < 0) = (z < 0) := fun z => by
    rw [mul_neg_iff]; simp [hb, hb.le.not_gt]
  have h1 : ∀ x y : K, (if b * y = 0 then (if a * x = 0 then XF.nan else XF.infSign (a * x)) else
      XF.fin (a * x / (b * y))) = scaleX (a / b) (if y = 0 then (if x = 0 then XF.nan else
        XF.infSign x) else XF.fin (x / y)) := fun x y => by
    simp only [hz, hz']
    split
    · split
      · rfl
      · exact scaleX_infSign ha x
    · exact congrArg XF.fin (mul_div_mul_comm _ _ _ _)
  have h2 : ∀ y : K, (if b * y < 0 then XF.ninf else XF.pinf : XF K) =
      scaleX (a / b) (if y < 0 then XF.ninf else XF.pinf) := fun y => by
    simp only [hn]; split <;> rfl
  have h3 : ∀ y : K, (if b * y < 0 then XF.pinf else XF.ninf : XF K) =
      scaleX (a / b) (if y < 0 then XF.pinf else XF.ninf) := fun y => by
    simp only [hn]; split <;> rfl
  cases x <;> cases y <;> first
    | rfl
    | exact h1 _ _
    | exact h2 _
    | exact h3 _
    | exact congrArg XF.fin (mul_zero _).symm

theorem scaleX_min {c : K} (hc : 0 < c) (x y : XF K) :
    (scaleX c x).min (scaleX c y) = scaleX c (x.min y) := by
  cases x <;> cases y <;> first
    | rfl
    | exact congrArg XF.fin (mul_min_of_nonneg _ _ hc.le).symm

theorem scaleX_finite (c : K) (x : XF K) : (scaleX c x).isFinite = x.isFinite := by
  cases x <;> rfl

theorem scaleX_toNum (c : K) (x : XF K) : (scaleX c x).nanToNum 0 = c * x.nanToNum 0 := by
  cases x <;> simp [scaleX, XF.nanToNum]

theorem scaleX_toRes (c : K) (x : XF K) : (scaleX c x).toRes = (c * ·) <$> x.toRes := by
  cases x <;> rfl

theorem finMat_scale (c : K) (A : Fin 3 → Fin 3 → XF K) :
    finMat (fun i j => scaleX c (A i j)) = (c • ·) <$> finMat A := by
  unfold finMat
  simp only [scaleX_finite]
  refine ite_equiv ?_ rfl
  refine congrArg Except.ok ?_
  funext i j
  exact scaleX_toNum c (A i j)

theorem Spec.GoodOps.sqrt_scale {o : Ops K} (ho : GoodOps o) {a x : K} (ha : 0 ≤ a) (hx : 0 ≤ x) :
    o.sqrt (a ^ 2 * x) = a * o.sqrt x := by
  have h0 : 0 ≤ a ^ 2 * x := by positivity
  have h1 := ho.sqrt_nonneg _ h0
  have h2 := ho.sqrt_nonneg _ hx
  have h3 := ho.sqrt_mul _ h0
  have h4 := ho.sqrt_mul _ hx
  have h5 : o.sqrt (a ^ 2 * x) ^ 2 = (a * o.sqrt x) ^ 2 := by
    rw [sq, h3, mul_pow, sq (o.sqrt x), h4]
  exact (pow_left_inj₀ h1 (by positivity) two_ne_zero).1 h5

theorem scaleX_sqrt {o : Ops K} (ho : GoodOps o) {a : K} (ha : 0 < a) (x : XF K) :
    XF.sqrt o.sqrt (scaleX (a ^ 2) x) = scaleX a (XF.sqrt o.sqrt x) := by
  cases x
  case fin x =>
    change (if a ^ 2 * x < 0 then XF.nan else .fin (o.sqrt (a ^ 2 * x))) =
      scaleX a (if x < 0 then XF.nan else .fin (o.sqrt x))
    have : (a ^ 2 * x < 0) = (x < 0) := by
      have h2 : 0 < a ^ 2 := by positivity
      rw [mul_neg_iff]; simp [h2, h2.le.not_gt]
    simp only [this]
    split
    · rfl
    · rename_i h
      exact congrArg XF.fin (ho.sqrt_scale ha.le (not_lt.1 h))
  all_goals rfl

theorem frob_scale {n : ℕ} (a : K) (A B : Matrix (Fin n) (Fin n) K) :
    frob (a • A) (a • B) = a ^ 2 * frob A B := by
  unfold frob
  simp only [Matrix.smul_apply, smul_eq_mul, Finset.mul_sum]
  refine Finset.sum_congr rfl fun i _ => Finset.sum_congr rfl fun j _ => ?_
  ring

theorem frob_self {n : ℕ} (A : Matrix (Fin n) (Fin n) K) : 0 ≤ frob A A :=
  Finset.sum_nonneg fun _ _ => Finset.sum_nonneg fun _ _ => mul_self_nonneg _

theorem norm_smul' {o : Ops K} (ho : GoodOps o) {n : ℕ} {a : K} (ha : 0 ≤ a)
    (A : Matrix (Fin n) (Fin n) K) :
    o.sqrt (frob (a • A) (a • A)) = a * o.sqrt (frob A A) := by
  rw [frob_scale, ho.sqrt_scale ha (frob_self A)]

end
end Mpm

import Verif.Lemmas.Equiv
import Verif.Lemmas.ScaleLaw
import Verif.Lemmas.Fields
import Mathlib.LinearAlgebra.Matrix.Symmetric

/-! Exchanging the axes and changing their signs: vectors, tensors and the constitutive laws. -/

set_option linter.unusedSectionVars false

namespace Mpm

namespace Spec

/-- New axes in the plane: the old ones, perhaps exchanged, with signs. -/
structure Axes (K : Type) [Field K] where
  swap : Bool
  fx : K
  fy : K
  hx : fx = 1 ∨ fx = -1
  hy : fy = 1 ∨ fy = -1

section
variable {K : Type} [Field K] [LinearOrder K] {ns : ℕ} (A : Axes K)

/-- The old axis behind a new one. -/
def Axes.p : Equiv.Perm (Fin 3) := if A.swap then Equiv.swap 0 1 else Equiv.refl _

/-- The signs. -/
def Axes.f : Fin 3 → K := ![A.fx, A.fy, 1]

/-- Components of a vector along the new axes. -/
def Axes.v (a : Vec K) : Vec K := fun i => A.f i * a (A.p i)

/-- Components of a tensor along the new axes. -/
def Axes.m (M : Mat K) : Mat K := fun i j => A.f i * A.f j * M (A.p i) (A.p j)

/-- The two stress components among the nodal fields. -/
def Axes.vis : Vis → Vis
  | .sigmah => if A.swap then .sigmav else .sigmah
  | .sigmav => if A.swap then .sigmah else .sigmav
  | v => v

/-- A velocity. -/
def Axes.ref : VRef K → VRef K
  | .own a => .own (A.v a)
  | .shared => .shared

/-- What the laws see of a point, along the new axes. -/
def Axes.inner (mp : Particle K ns) : Particle K ns :=
  { mp with
    stress := A.m mp.stress, strain := A.m mp.strain, dstrain := A.m mp.dstrain
    dstress := A.m mp.dstress, de_ij := A.m mp.de_ij, dev_stress := A.m mp.dev_stress
    LL := A.m mp.LL
    sigmav := if A.swap then mp.sigmah else mp.sigmav
    sigmah := if A.swap then mp.sigmav else mp.sigmah }

/-- The sign of a component. -/
def signX (c : K) : XF K → XF K
  | .fin x => .fin (c * x)
  | .nan => .nan
  | .pinf => if 0 < c then .pinf else .ninf
  | .ninf => if 0 < c then .ninf else .pinf

end
end Spec

open Spec

section
variable {K : Type} [Field K] [LinearOrder K] [IsStrictOrderedRing K] {ns : ℕ} {A : Axes K}

theorem Spec.Axes.f_sq (i : Fin 3) : A.f i * A.f i = 1 := by
  have hx : A.fx * A.fx = 1 := by rcases A.hx with h | h <;> rw [h] <;> ring
  have hy : A.fy * A.fy = 1 := by rcases A.hy with h | h <;> rw [h] <;> ring
  fin_cases i <;> simp [Axes.f, hx, hy]

theorem Spec.Axes.f_cases (i : Fin 3) : A.f i = 1 ∨ A.f i = -1 := by
  fin_cases i
  · exact A.hx
  · exact A.hy
  · exact Or.inl rfl

theorem Spec.Axes.ff_cases (i j : Fin 3) : A.f i * A.f j = 1 ∨ A.f i * A.f j = -1 := by
  rcases A.f_cases i with h | h <;> rcases A.f_cases j with h' | h' <;> rw [h, h'] <;> simp

/-! ### Vectors and tensors -/

theorem Spec.Axes.v_apply (a : Vec K) (i : Fin 3) : A.v a i = A.f i * a (A.p i) := rfl
theorem Spec.Axes.m_apply (M : Mat K) (i j : Fin 3) :
    A.m M i j = A.f i * A.f j * M (A.p i) (A.p j) := rfl

theorem Spec.Axes.v_zero : A.v 0 = 0 := by funext i; simp [Axes.v]
theorem Spec.Axes.v_add (a b : Vec K) : A.v (a + b) = A.v a + A.v b := by
  funext i; simp [Axes.v, mul_add]
theorem Spec.Axes.v_sub (a b : Vec K) : A.v (a - b) = A.v a - A.v b := by
  funext i; simp [Axes.v, mul_sub]
theorem Spec.Axes.v_smul (c : K) (a : Vec K) : A.v (c • a) = c • A.v a := by
  funext i; simp only [Axes.v, Pi.smul_apply, smul_eq_mul]; ring

/-- As a linear map. -/
def Spec.Axes.lin (A : Axes K) : Vec K →ₗ[K] Vec K where
  toFun := A.v
  map_add' := A.v_add
  map_smul' := A.v_smul

theorem Spec.Axes.v_sum {ι : Type} (s : Finset ι) (a : ι → Vec K) :
    A.v (∑ i ∈ s, a i) = ∑ i ∈ s, A.v (a i) := map_sum A.lin a s

theorem Spec.Axes.m_zero : A.m 0 = 0 := by ext i j; simp [Axes.m]
theorem Spec.Axes.m_add (M N : Mat K) : A.m (M + N) = A.m M + A.m N := by
  ext i j; simp [Axes.m, mul_add]
theorem Spec.Axes.m_sub (M N : Mat K) : A.m (M - N) = A.m M - A.m N := by
  ext i j; simp [Axes.m, mul_sub]
theorem Spec.Axes.m_neg (M : Mat K) : A.m (-M) = -A.m M := by ext i j; simp [Axes.m]
theorem Spec.Axes.m_smul (c : K) (M : Mat K) : A.m (c • M) = c • A.m M := by
  ext i j; simp only [Axes.m, Matrix.smul_apply, smul_eq_mul]; ring

def Spec.Axes.mlin (A : Axes K) : Mat K →ₗ[K] Mat K where
  toFun := A.m
  map_add' := A.m_add
  map_smul' := A.m_smul

theorem Spec.Axes.m_sum {ι : Type} (s : Finset ι) (M : ι → Mat K) :
    A.m (∑ i ∈ s, M i) = ∑ i ∈ s, A.m (M i) := map_sum A.mlin M s

theorem Spec.Axes.m_one : A.m 1 = 1 := by
  ext i j
  rw [A.m_apply]
  by_cases h : i = j
  · subst h; rw [Matrix.one_apply_eq, Matrix.one_apply_eq, A.f_sq, mul_one]
  · rw [Matrix.one_apply_ne h, Matrix.one_apply_ne (fun e => h (A.p.injective e)), mul_zero]

theorem Spec.Axes.m_transpose (M : Mat K) : (A.m M).transpose = A.m M.transpose := by
  ext i j; simp only [Matrix.transpose_apply, A.m_apply]; ring

theorem Spec.Axes.m_diag (M : Mat K) (i : Fin 3) : A.m M i i = M (A.p i) (A.p i) := by
  rw [A.m_apply, A.f_sq, one_mul]

theorem Spec.Axes.m_trace (M : Mat K) : (A.m M).trace = M.trace := by
  unfold Matrix.trace
  simp only [Matrix.diag_apply, A.m_diag]
  exact Equiv.sum_comp A.p (fun i => M i i)

theorem Spec.Axes.m_frob (M N : Mat K) : frob (A.m M) (A.m N) = frob M N := by
  unfold frob
  have h : ∀ i j, A.m M i j * A.m N i j = M (A.p i) (A.p j) * N (A.p i) (A.p j) := by
    intro i j
    rw [A.m_apply, A.m_apply]
    have h1 := A.f_sq i; have h2 := A.f_sq j
    linear_combination (M (A.p i) (A.p j) * N (A.p i) (A.p j)) * (A.f j * A.f j * h1 + h2)
  simp only [h]
  rw [Equiv.sum_comp A.p (fun i => ∑ j, M i (A.p j) * N i (A.p j))]
  exact Finset.sum_congr rfl fun i _ => Equiv.sum_comp A.p (fun j => M i j * N i j)

theorem Spec.Axes.m_vecMulVec (a b : Vec K) :
    Matrix.vecMulVec (A.v a) (A.v b) = A.m (Matrix.vecMulVec a b) := by
  ext i j
  simp only [Matrix.vecMulVec_apply, A.v_apply, A.m_apply]; ring

theorem Spec.Axes.m_mulVec (M : Mat K) (a : Vec K) :
    (A.m M).mulVec (A.v a) = A.v (M.mulVec a) := by
  ext i
  simp only [Matrix.mulVec, dotProduct, A.v_apply, A.m_apply, Finset.mul_sum]
  rw [← Equiv.sum_comp A.p (fun j => A.f i * (M (A.p i) j * a j))]
  refine Finset.sum_congr rfl fun j _ => ?_
  linear_combination (A.f i * M (A.p i) (A.p j) * a (A.p j)) * A.f_sq j

theorem Spec.Axes.m_mul (M N : Mat K) : A.m M * A.m N = A.m (M * N) := by
  ext i j
  simp only [Matrix.mul_apply, A.m_apply, Finset.mul_sum]
  rw [← Equiv.sum_comp A.p (fun k => A.f i * A.f j * (M (A.p i) k * N k (A.p j)))]
  refine Finset.sum_congr rfl fun k _ => ?_
  linear_combination (A.f i * A.f j * M (A.p i) (A.p k) * N (A.p k) (A.p j)) * A.f_sq k

theorem Spec.Axes.p_two : A.p 2 = 2 := by
  unfold Axes.p; split <;> rfl

theorem Spec.Axes.p_plane (i : Fin 3) : (A.p i).val < 2 ↔ i.val < 2 := by
  unfold Axes.p
  split <;> fin_cases i <;> simp [Equiv.swap_apply_def]

theorem Spec.Axes.v_two (a : Vec K) : A.v a 2 = a 2 := by
  rw [A.v_apply, A.p_two]; exact one_mul _

/-! ### The block in the plane -/

/-- The exchange within the plane. -/
def Spec.Axes.p2 (A : Axes K) : Equiv.Perm (Fin 2) := if A.swap then Equiv.swap 0 1 else Equiv.refl _

/-- A tensor in the plane. -/
def Spec.Axes.m2 (A : Axes K) (M : Matrix (Fin 2) (Fin 2) K) : Matrix (Fin 2) (Fin 2) K :=
  fun i j => A.f i.castSucc * A.f j.castSucc * M (A.p2 i) (A.p2 j)

theorem Spec.Axes.p_castSucc (i : Fin 2) : A.p i.castSucc = (A.p2 i).castSucc := by
  unfold Axes.p Axes.p2
  split <;> fin_cases i <;> rfl

theorem Spec.Axes.m2_apply (M : Matrix (Fin 2) (Fin 2) K) (i j : Fin 2) :
    A.m2 M i j = A.f i.castSucc * A.f j.castSucc * M (A.p2 i) (A.p2 j) := rfl

theorem block2_axes (M : Mat K) : block2 (A.m M) = A.m2 (block2 M) := by
  ext i j
  simp only [block2, A.m_apply, A.m2_apply, A.p_castSucc]

theorem Spec.Axes.m2_trace (M : Matrix (Fin 2) (Fin 2) K) : (A.m2 M).trace = M.trace := by
  unfold Matrix.trace
  simp only [Matrix.diag_apply, A.m2_apply, A.f_sq, one_mul]
  exact Equiv.sum_comp A.p2 (fun i => M i i)

theorem Spec.Axes.m2_frob (M N : Matrix (Fin 2) (Fin 2) K) :
    frob (A.m2 M) (A.m2 N) = frob M N := by
  unfold frob
  have h : ∀ i j, A.m2 M i j * A.m2 N i j = M (A.p2 i) (A.p2 j) * N (A.p2 i) (A.p2 j) := by
    intro i j
    rw [A.m2_apply, A.m2_apply]
    have h1 := A.f_sq i.castSucc; have h2 := A.f_sq j.castSucc
    linear_combination (M (A.p2 i) (A.p2 j) * N (A.p2 i) (A.p2 j)) *
      (A.f j.castSucc * A.f j.castSucc * h1 + h2)
  simp only [h]
  rw [Equiv.sum_comp A.p2 (fun i => ∑ j, M i (A.p2 j) * N i (A.p2 j))]
  exact Finset.sum_congr rfl fun i _ => Equiv.sum_comp A.p2 (fun j => M i j * N i j)

theorem Spec.Axes.m2_sub (M N : Matrix (Fin 2) (Fin 2) K) : A.m2 (M - N) = A.m2 M - A.m2 N := by
  ext i j; simp [Axes.m2, mul_sub]
theorem Spec.Axes.m2_neg (M : Matrix (Fin 2) (Fin 2) K) : A.m2 (-M) = -A.m2 M := by
  ext i j; simp [Axes.m2]
theorem Spec.Axes.m2_smul (c : K) (M : Matrix (Fin 2) (Fin 2) K) : A.m2 (c • M) = c • A.m2 M := by
  ext i j; simp only [Axes.m2, Matrix.smul_apply, smul_eq_mul]; ring
theorem Spec.Axes.m2_one : A.m2 1 = 1 := by
  ext i j
  rw [A.m2_apply]
  by_cases h : i = j
  · subst h; rw [Matrix.one_apply_eq, Matrix.one_apply_eq, A.f_sq, mul_one]
  · rw [Matrix.one_apply_ne h, Matrix.one_apply_ne (fun e => h (A.p2.injective e)), mul_zero]

/-! ### Signs of extended numbers -/

theorem signX_one (x : XF K) : signX 1 x = x := by cases x <;> simp [signX]
theorem signX_neg_one (x : XF K) : signX (-1) x = -x := by
  have h : ¬ (0 : K) < -1 := by simp
  change _ = XF.neg x
  cases x <;> simp [signX, XF.neg, h]
theorem neg_add' (x y : XF K) : -(x + y) = -x + -y := by
  change XF.neg (XF.add x y) = XF.add (XF.neg x) (XF.neg y)
  cases x <;> cases y <;> simp [XF.add, XF.neg, add_comm]
theorem neg_neg' (x : XF K) : - -x = x := by
  change XF.neg (XF.neg x) = x
  cases x <;> simp [XF.neg]
theorem neg_sub'' (x y : XF K) : -(x - y) = -x - -y := neg_add' x (-y)
theorem infSign_neg {a : K} (h : a ≠ 0) : XF.infSign (-a) = -XF.infSign a := by
  change _ = XF.neg _
  unfold XF.infSign
  rcases lt_or_gt_of_ne h with h' | h'
  · simp [h', h'.le.not_gt, XF.neg]
  · simp [h', h'.le.not_gt, XF.neg]
theorem mul_neg' (x y : XF K) : x * -y = -(x * y) := by
  change XF.mul x (XF.neg y) = XF.neg (XF.mul x y)
  have hi := @infSign_neg K _ _ _
  cases x with
  | fin a =>
    cases y with
    | fin b => simp [XF.mul, XF.neg]
    | nan => rfl
    | pinf =>
      by_cases h : a = 0
      · simp [XF.mul, XF.neg, h]
      · simp only [XF.mul, XF.neg, if_neg h, hi h]; rfl
    | ninf =>
      by_cases h : a = 0
      · simp [XF.mul, XF.neg, h]
      · simp only [XF.mul, XF.neg, if_neg h, hi h]; exact (neg_neg' _).symm
  | nan => cases y <;> rfl
  | pinf =>
    cases y with
    | fin b =>
      by_cases h : b = 0
      · simp [XF.mul, XF.neg, h]
      · simp only [XF.mul, XF.neg, if_neg h, if_neg (neg_ne_zero.2 h), hi h]; rfl
    | nan => rfl
    | pinf => rfl
    | ninf => rfl
  | ninf =>
    cases y with
    | fin b =>
      by_cases h : b = 0
      · simp [XF.mul, XF.neg, h]
      · simp only [XF.mul, XF.neg, if_neg h, if_neg (neg_ne_zero.2 h), neg_neg, hi h]
        exact (neg_neg' _).symm
    | nan => rfl
    | pinf => rfl
    | ninf => rfl
theorem neg_div' (x y : XF K) : -x / y = -(x / y) := by
  change XF.div (XF.neg x) y = XF.neg (XF.div x y)
  cases x with
  | fin a =>
    cases y with
    | fin b =>
      by_cases h : b = 0
      · subst h
        by_cases ha : a = 0
        · simp [XF.div, XF.neg, ha]
        · simp only [XF.div, XF.neg, if_true, if_neg ha, if_neg (neg_ne_zero.2 ha),
            infSign_neg ha]
          rfl
      · simp [XF.div, XF.neg, h, neg_div]
    | nan => rfl
    | pinf => simp [XF.div, XF.neg]
    | ninf => simp [XF.div, XF.neg]
  | nan => cases y <;> rfl
  | pinf =>
    cases y with
    | fin b => simp only [XF.div, XF.neg]; split <;> rfl
    | nan => rfl
    | pinf => rfl
    | ninf => rfl
  | ninf =>
    cases y with
    | fin b => simp only [XF.div, XF.neg]; split <;> rfl
    | nan => rfl
    | pinf => rfl
    | ninf => rfl
theorem mul_comm' (x y : XF K) : x * y = y * x := by
  change XF.mul x y = XF.mul y x
  cases x <;> cases y <;> simp [XF.mul, mul_comm]
theorem neg_mul' (x y : XF K) : -x * y = -(x * y) := by
  rw [mul_comm', mul_neg', mul_comm']
theorem neg_abs' (x : XF K) : (-x).abs = x.abs := by
  cases x with
  | fin a => exact congrArg XF.fin (abs_neg a)
  | pinf => rfl
  | ninf => rfl
  | nan => rfl
theorem neg_finite (x : XF K) : (-x).isFinite = x.isFinite := by cases x <;> rfl
theorem neg_toNum (big : K) (x : XF K) : (-x).nanToNum big = -x.nanToNum big := by
  cases x <;> simp [XF.nanToNum] <;> rfl
theorem fin_neg (x : K) : (XF.fin (-x) : XF K) = -XF.fin x := rfl

theorem finite_axes {X Y : Fin 3 → Fin 3 → XF K}
    (h : ∀ i j, Y i j = signX (A.f i * A.f j) (X (A.p i) (A.p j))) :
    (∀ i j, (Y i j).isFinite = true) ↔ ∀ i j, (X i j).isFinite = true := by
  have hf : ∀ i j, (Y i j).isFinite = (X (A.p i) (A.p j)).isFinite := by
    intro i j
    rw [h]
    rcases A.ff_cases i j with e | e <;> rw [e]
    · rw [signX_one]
    · rw [signX_neg_one, neg_finite]
  constructor
  · intro g i j
    have := g (A.p.symm i) (A.p.symm j)
    rwa [hf, Equiv.apply_symm_apply, Equiv.apply_symm_apply] at this
  · intro g i j; rw [hf]; exact g _ _

theorem toNum_axes {X Y : Fin 3 → Fin 3 → XF K}
    (h : ∀ i j, Y i j = signX (A.f i * A.f j) (X (A.p i) (A.p j))) :
    (fun i j => (Y i j).nanToNum 0) = A.m fun i j => (X i j).nanToNum 0 := by
  funext i j
  change (Y i j).nanToNum 0 = A.f i * A.f j * (X (A.p i) (A.p j)).nanToNum 0
  rw [h]
  rcases A.ff_cases i j with e | e <;> rw [e]
  · rw [signX_one, one_mul]
  · rw [signX_neg_one, neg_toNum, neg_one_mul]

theorem finMat_axes {X Y : Fin 3 → Fin 3 → XF K}
    (h : ∀ i j, Y i j = signX (A.f i * A.f j) (X (A.p i) (A.p j))) :
    finMat Y = A.m <$> finMat X := by
  unfold finMat
  exact ite_iff (finite_axes h) (congrArg Except.ok (toNum_axes h)) rfl

end
end Mpm

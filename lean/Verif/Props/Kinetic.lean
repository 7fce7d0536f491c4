import Verif.Lemmas.XF
import Verif.Lemmas.Ops
import Verif.Lemmas.Grid
import Verif.ExRun
import Mathlib.Tactic.Linarith
import Mathlib.Tactic.Ring
import Mathlib.Tactic.FieldSimp

/-!
# C117: kinetic pressure and diffusivity at a node
-/

set_option linter.unusedSectionVars false

namespace Mpm
open Spec

/-! ## Specification -/

/-- The inertial number of a flow of grains of size `s` and density `rho`. -/
noncomputable def Spec.inertialNo (gammadot s rho p : ℝ) : ℝ := |gammadot| * s * √(rho / p)

/-- The diffusivity the comment at integrators.py:264,265 speaks of. -/
noncomputable def Spec.quotedD (l gammadot s rho p : ℝ) : ℝ :=
  l * |gammadot| * s ^ 2 / √(inertialNo gammadot s rho p)

/-! ## Lemmas -/

theorem xf_abs_fin {K : Type} [Field K] [LinearOrder K] (a : K) :
    (XF.fin a : XF K).abs = .fin |a| := rfl

theorem xf_sqrt_fin {K : Type} [Field K] [LinearOrder K] (sq : K → K) {a : K} (h : 0 ≤ a) :
    XF.sqrt sq (.fin a) = .fin (sq a) := if_neg h.not_gt

theorem rpow_three_halves {s : ℝ} (hs : 0 ≤ s) : s ^ (3 / 2 : ℝ) = s * √s := by
  rw [Real.sqrt_eq_rpow, show (3 / 2 : ℝ) = 1 + 1 / 2 by norm_num]
  rcases hs.eq_or_lt with rfl | h
  · rw [Real.zero_rpow (by norm_num)]; simp
  · rw [Real.rpow_add h, Real.rpow_one]

theorem sqrt_sqrt_mul (x : ℝ) : √(√x) * √(√x) = √x :=
  Real.mul_self_sqrt (Real.sqrt_nonneg x)

/-! ## C117 -/

section
variable {nx ny ns : ℕ}

/-- At a node of mass `m` with finite shear rate and summed pressure the kinetic pressure is
`|gammadot| s √(rho_s p)`, `p` being the mean pressure: a finite number also for `p = 0`. -/
theorem c117_pk (interp : Interp ℝ (ny * nx)) (big M_tol rho_s : ℝ) (hrho : 0 ≤ rho_s)
    (G : Grid ℝ (ny * nx) ns) (n : Fin (ny * nx)) {gd p : ℝ} (hm : G.m n ≠ 0)
    (hg : G.vis .gammadot n = .fin gd) (hp : G.vis .pressure n = .fin p) :
    (G.updatePk interp (realOps big) M_tol rho_s).pk n =
      .fin (|gd| * G.s_bar n * √(rho_s * |p / G.m n|)) := by
  unfold Grid.updatePk
  simp only [hg, hp, XF.fin_div _ hm, xf_abs_fin, XF.fin_mul]
  rw [xf_sqrt_fin _ (mul_nonneg hrho (abs_nonneg _))]
  rfl

/-- That is the mean pressure times the inertial number, where the latter makes sense. -/
theorem c117_pk_inertial (interp : Interp ℝ (ny * nx)) (big M_tol rho_s : ℝ) (hrho : 0 ≤ rho_s)
    (G : Grid ℝ (ny * nx) ns) (n : Fin (ny * nx)) {gd p : ℝ} (hm : G.m n ≠ 0)
    (hg : G.vis .gammadot n = .fin gd) (hp : G.vis .pressure n = .fin p) (hp0 : p ≠ 0) :
    (G.updatePk interp (realOps big) M_tol rho_s).pk n =
      .fin (|p / G.m n| * inertialNo gd (G.s_bar n) rho_s |p / G.m n|) := by
  rw [c117_pk interp big M_tol rho_s hrho G n hm hg hp]
  have h : 0 < |p / G.m n| := abs_pos.2 (div_ne_zero hp0 hm)
  generalize |p / G.m n| = q at h ⊢
  congr 1
  unfold inertialNo
  have : √(rho_s * q) = q * √(rho_s / q) := by
    rw [show rho_s * q = q ^ 2 * (rho_s / q) by field_simp, Real.sqrt_mul (by positivity),
      Real.sqrt_sq h.le]
  rw [this]
  ring

/-- The kinetic pressure changes nothing but itself and its gradient. -/
theorem c117_pk_frame (interp : Interp ℝ (ny * nx)) (ops : Ops ℝ) (M_tol rho_s : ℝ)
    (G : Grid ℝ (ny * nx) ns) :
    G.updatePk interp ops M_tol rho_s =
      { G with pk := (G.updatePk interp ops M_tol rho_s).pk
               grad_pk := (G.updatePk interp ops M_tol rho_s).grad_pk } := rfl

end

/-- The diffusivity at a node of mass `m`. -/
theorem c117_diffusivity {big l rho_s s gd p m : ℝ} (hrho : 0 < rho_s) (hs : 0 ≤ s) (hm : m ≠ 0) :
    diffusivity (realOps big) l rho_s s (.fin gd) (.fin p) m =
      .fin (l * (s * √s) * √|gd| * √(|p / m| / rho_s)) := by
  unfold diffusivity pow15
  rw [if_neg hs.not_gt, XF.fin_div _ hm, xf_abs_fin, xf_abs_fin, xf_sqrt_fin _ (abs_nonneg _),
    xf_sqrt_fin _ (abs_nonneg _), xf_sqrt_fin _ hrho.le, XF.fin_mul, XF.fin_mul, XF.fin_mul,
    XF.fin_div _ (show (realOps big).sqrt rho_s ≠ 0 from (Real.sqrt_pos.2 hrho).ne')]
  congr 1
  change l * s ^ (3 / 2 : ℝ) * √|gd| * √|p / m| / √rho_s = _
  rw [rpow_three_halves hs, Real.sqrt_div (abs_nonneg _)]
  ring

/-- The quoted formula, too, can be written without a quotient by the shear rate; but it has a
fourth root of `p / rho_s`, where the code has a square root. -/
theorem c117_quoted {l rho_s s gd p : ℝ} (hrho : 0 < rho_s) (hs : 0 < s) (hp : 0 < p)
    (hg : gd ≠ 0) :
    quotedD l gd s rho_s p = l * (s * √s) * √|gd| * √(√(p / rho_s)) := by
  have h1 : 0 < |gd| := abs_pos.2 hg
  unfold quotedD inertialNo
  rw [Real.sqrt_mul (by positivity), Real.sqrt_mul (by positivity)]
  have e1 : |gd| = √|gd| * √|gd| := (Real.mul_self_sqrt h1.le).symm
  have e2 : s = √s * √s := (Real.mul_self_sqrt hs.le).symm
  have e3 : √(√(rho_s / p)) * √(√(p / rho_s)) = 1 := by
    rw [← Real.sqrt_mul (Real.sqrt_nonneg _), ← Real.sqrt_mul (by positivity)]
    rw [show rho_s / p * (p / rho_s) = 1 by field_simp]
    simp
  have p1 : 0 < √|gd| := Real.sqrt_pos.2 h1
  have p2 : 0 < √s := Real.sqrt_pos.2 hs
  have p3 : 0 < √(√(rho_s / p)) := Real.sqrt_pos.2 (Real.sqrt_pos.2 (by positivity))
  rw [div_eq_iff (by positivity)]
  calc l * |gd| * s ^ 2 = l * (√|gd| * √|gd|) * (s * (√s * √s)) * 1 := by
        rw [← e1, ← e2]; ring
    _ = _ := by rw [← e3]; ring

/-- So the diffusivity in use is the quoted one times the fourth root of `p / rho_s`, -/
theorem c117_factor {big l rho_s s gd p m : ℝ} (hrho : 0 < rho_s) (hs : 0 < s) (hm : m ≠ 0)
    (hp : p ≠ 0) (hg : gd ≠ 0) :
    diffusivity (realOps big) l rho_s s (.fin gd) (.fin p) m =
      .fin (quotedD l gd s rho_s |p / m| * √(√(|p / m| / rho_s))) := by
  have h : 0 < |p / m| := abs_pos.2 (div_ne_zero hp hm)
  rw [c117_diffusivity hrho hs.le hm, c117_quoted hrho hs h hg]
  congr 1
  conv_lhs => rw [← sqrt_sqrt_mul (|p / m| / rho_s)]
  ring

/-- and the two are equal only for a mean pressure that is numerically the solid density. -/
theorem c117_equal_iff {big l rho_s s gd p m : ℝ} (hl : l ≠ 0) (hrho : 0 < rho_s) (hs : 0 < s)
    (hm : m ≠ 0) (hp : p ≠ 0) (hg : gd ≠ 0) :
    diffusivity (realOps big) l rho_s s (.fin gd) (.fin p) m =
      .fin (quotedD l gd s rho_s |p / m|) ↔ |p / m| = rho_s := by
  have h : 0 < |p / m| := abs_pos.2 (div_ne_zero hp hm)
  have h1 : 0 < |gd| := abs_pos.2 hg
  rw [c117_factor hrho hs hm hp hg, XF.fin.injEq]
  have hq : quotedD l gd s rho_s |p / m| ≠ 0 := by
    unfold quotedD inertialNo
    have : 0 < √(|gd| * s * √(rho_s / |p / m|)) := Real.sqrt_pos.2 (by positivity)
    have := h1.ne'
    have := hs.ne'
    positivity
  rw [mul_eq_left₀ hq, Real.sqrt_eq_one, Real.sqrt_eq_one, div_eq_one_iff_eq hrho.ne']

/-- Grains `a` times as large spread `a^(3/2)` times as fast. -/
theorem c117_size {big l rho_s s gd p m a : ℝ} (ha : 0 ≤ a) (hrho : 0 < rho_s) (hs : 0 ≤ s)
    (hm : m ≠ 0) :
    diffusivity (realOps big) l rho_s (a * s) (.fin gd) (.fin p) m =
      .fin (a * √a) * diffusivity (realOps big) l rho_s s (.fin gd) (.fin p) m := by
  rw [c117_diffusivity hrho (mul_nonneg ha hs) hm, c117_diffusivity hrho hs hm, XF.fin_mul,
    Real.sqrt_mul ha]
  congr 1
  ring

/-! ## The hypotheses can be met -/

/-- A flow at pressure 16 of grains of density 1: the diffusivity in use is twice the quoted
one. -/
example (big : ℝ) : diffusivity (realOps big) 1 1 1 (.fin 1) (.fin 16) 1 = .fin 4 ∧
    quotedD 1 1 1 1 16 = 2 := by
  have e16 : √(16 : ℝ) = 4 := by
    rw [show (16 : ℝ) = 4 ^ 2 by norm_num]; exact Real.sqrt_sq (by norm_num)
  have e4 : √(4 : ℝ) = 2 := by
    rw [show (4 : ℝ) = 2 ^ 2 by norm_num]; exact Real.sqrt_sq (by norm_num)
  constructor
  · rw [c117_diffusivity one_pos zero_le_one one_ne_zero]
    simp [e16]
  · rw [c117_quoted one_pos one_pos (by norm_num) one_ne_zero]
    simp [e16, e4]

/-- A domain of 2 by 2 nodes. -/
noncomputable def Ex.realGP : GP ℝ :=
  { x_m := 0, x_M := 1, y_m := 0, y_M := 1, nx := 2, ny := 2, dx := 1, dy := 1
    thickness := 1, ns := 1, s := ![1] }

/-- All hypotheses of `c117_pk` and `c117_pk_inertial` hold on a grid of mass 1, shear rate 1,
pressure 4 and size 1, where the kinetic pressure is 2. -/
example : ∃ (G : Grid ℝ (Ex.realGP.ny * Ex.realGP.nx) Ex.realGP.ns),
    (∀ n, G.m n ≠ 0 ∧ G.vis .gammadot n = .fin 1 ∧ G.vis .pressure n = .fin 4) ∧
    ∀ interp n, (G.updatePk interp (realOps 1) 0 1).pk n = .fin 2 := by
  obtain ⟨G, -⟩ := mkGrid_exists (P := Ex.realGP) ({ wall_mu := 0 } : BP ℝ)
    (by constructor <;> simp [Ex.realGP])
  let G' : Grid ℝ (Ex.realGP.ny * Ex.realGP.nx) Ex.realGP.ns :=
    { G with m := fun _ => 1, s_bar := fun _ => 1
             vis := fun f _ => match f with | .gammadot => .fin 1 | _ => .fin 4 }
  have h : ∀ n, G'.m n ≠ 0 ∧ G'.vis .gammadot n = .fin 1 ∧ G'.vis .pressure n = .fin 4 :=
    fun n => ⟨one_ne_zero, rfl, rfl⟩
  refine ⟨G', h, fun interp n => ?_⟩
  rw [c117_pk interp 1 0 1 zero_le_one G' n (h n).1 (h n).2.1 (h n).2.2]
  have e4 : √(4 : ℝ) = 2 := by
    rw [show (4 : ℝ) = 2 ^ 2 by norm_num]; exact Real.sqrt_sq (by norm_num)
  change XF.fin (|(1 : ℝ)| * 1 * √(1 * |4 / 1|)) = _
  simp [e4]

end Mpm

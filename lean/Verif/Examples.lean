import Verif.Spec
import Mathlib.Data.Rat.Floor
import Mathlib.Tactic.NormNum

/-! Concrete objects used in the non-vacuity examples beside the theorems. -/

namespace Mpm.Ex

/-- A 2 by 2 domain with 3 by 3 nodes and two grain sizes. -/
def gp : GP ℚ :=
  { x_m := 0, x_M := 2, y_m := 0, y_M := 2, nx := 3, ny := 3, dx := 1, dy := 1
    thickness := 1, ns := 2, s := ![1, 2] }

theorem good : Spec.GoodGrid gp := by constructor <;> simp [gp]

def bp : BP ℚ := { wall_mu := 0 }

/-- A point of mass 3 at (1/2, 5/4), with its own velocity. -/
def mp : Particle ℚ 2 :=
  { rho := 1, x := ![1/2, 5/4, 0], v := .own ![1, 2, 0], V := 1, m := 3, b := ![0, -10, 0]
    stress := !![1, 2, 0; 2, 3, 0; 0, 0, 1], strain := 0, dstrain := 0, dstress := 0, de_ij := 0
    dev_stress := 0, sigma_kk := 5, gammadot := 0, pressure := 0, pk := 0, sigmav := 0
    sigmah := 0, yieldfunction := 0, Gs := fun _ => 0, N := fun _ => 0, n_star := 0
    phi := ![1/4, 3/4], LL := 0, mu := none, I := .fin 0, eta := .fin 0 }

/-- A second point in another cell. -/
def mp2 : Particle ℚ 2 := { mp with x := ![3/2, 1/4, 0], m := 2, v := .own ![-1, 0, 0] }

def mat : Mat0 ℚ :=
  { rho := 1, rho_s := 1, Kb := 10, Gs := 5, k := 1, s := 2, mu_s := 1, mu_v := 0, mu_1 := 0
    mu_2 := 1, mu_0 := .scalar 1, delta_mu := .scalar 1, I_0 := .scalar 1, tau_0 := 1
    gamma_c := 1, eta_max := 100, b := 1, E_0 := 1, nu := 1/4, t_0 := 0, rho_f := 1, mu := 1
    beta := 1, t_star := 1, packing := 1 }

def ph : Phase ℚ 2 :=
  { n := 2, law := .elastic, par := mat, A := 1, hasIv := false, iv := 0, phi := ![1/2, 1/2]
    inlet_rate := 1, gap := ![0, 0], yp := [] }

def L : List (PhaseSt ℚ 2) := [{ ph := ph, pts := [mp, mp2] }]

theorem countedL : Spec.Counted L := by
  intro a ha
  simp [L] at ha
  subst ha
  rfl

/-- Square root and power are irrelevant in the examples over `ℚ`. -/
def ops : Ops ℚ := { sqrt := fun x => x, pow := fun x _ => x, log := fun x => x, big := 10 ^ 300 }

def par : Par ℚ :=
  { ops := ops, G := gp, B := bp, M_tol := 0, M_tol_nonneg := le_refl _, damping := false
    sinθ := 0, cosθ := 1, tanθ := 0, max_g := -10, pressure := .none, initial_pressure := 0
    top_gap := none, initial_flow := .none, segregate_grid := false, normalise_phi := false
    check_positions := false, aniso := false, v_0 := 0, intruder_v := 0, c := 1, l := 1
    s_bar_0 := 1, forces := fun _ => (-10, 0, 0) }

end Mpm.Ex

import Verif.Model.Init
import Verif.Model.Main
import Mathlib.Analysis.SpecialFunctions.Trigonometric.Basic

/-!
# Model of `update_forces` in the input files

`P.update_forces()` (MPM.py:21) belongs to the input file.  This file models the versions in
`inputs/`, and a time step in which it changes `P.theta` and `P.intruder_v` as well.
-/

namespace Mpm

section
variable {K : Type} [Field K] [LinearOrder K]

/-- `m*(1.-exp(-3.*self.t**2/t_c**2))`: triaxial.py:23,24, dam_break.py, incline.py, fluid.py:38,39,
stokes.py:35,37, slope_stab.py:23 and eleven others for `g`; francois.py:26 for `intruder_v`. -/
def rampUp (exp : K → K) (m t_c t : K) : K := m * (1 - exp (-3 * t ^ 2 / t_c ^ 2))

/-- triaxial.py:21-24 (also brazillian.py, vm_unit_test.py, fluid.py:38,39, stokes.py:34-37) as an
assignment of attributes; slope_stab.py:23,27 is the case of `q` constantly 0. -/
def assignForces (g q : K → K) (t : K) (o : Obj K) : Obj K :=
  (o.set "g" (.num (g t))).set "q" (.num (q t))

/-- Any number of calls, at the times `ts`. -/
def assignAll (g q : K → K) (o : Obj K) (ts : List K) : Obj K :=
  ts.foldl (fun o t => assignForces g q t o) o

/-- The attributes read in a step: particle.py:331 (`P.g`), grid.py:247,248 (`P.q_v`) and
grid.py:251,252 (`P.q_h`). -/
def readForces (o : Obj K) : Res (K × K × K) := do
  let g ← (← o.get "g").toNum
  let v ← (← o.get "q_v").toNum
  let h ← (← o.get "q_h").toNum
  return (g, v, h)

/-- dp_unit_test.py:24-30, dp_rate_unit_test.py:24-30: `(g, q_v, q_h)`. -/
def dpForces (max_q t_c t : K) : K × K × K :=
  if t < t_c then (0, max_q * t / t_c, max_q * t / t_c)
  else (0, 2 * max_q - t / t_c * max_q, t * max_q / t_c)

/-- pouliquen_unit_test.py:23-30. -/
def pouliquenForces (max_q t_c t : K) : K × K × K :=
  if t < t_c then (0, t * max_q / t_c, t * max_q / t_c)
  else (0, max_q - (t - t_c) * max_q / t_c, max_q + (t - t_c) * max_q / t_c)

/-- What `update_forces` may change besides `g`, `q_v`, `q_h`: the sine, cosine and tangent of
`P.theta`, and `P.intruder_v`. -/
structure Steer (K : Type) where
  sinθ : K
  cosθ : K
  tanθ : K
  intruder_v : Vec K

/-- The parameters after such an assignment. -/
def Par.steered (P : Par K) (σ : Steer K) : Par K :=
  { P with sinθ := σ.sinθ, cosθ := σ.cosθ, tanθ := σ.tanθ, intruder_v := σ.intruder_v }

/-- The state does not contain these parameters. -/
def St.steer {P : Par K} (σ : Steer K) (s : St P) : St (P.steered σ) := St.mk s.dyn s.L s.G

def St.unsteer {P : Par K} {σ : Steer K} (s : St (P.steered σ)) : St P := St.mk s.dyn s.L s.G

variable [FloorRing K] (P : Par K) (interp : Interp K P.G.N) (σ : K → Steer K)

/-- MPM.py:19-46 for an `update_forces` that also sets `P.theta` and `P.intruder_v`.  It is called
before anything in the step reads them, at time `P.t`; `wipe` (MPM.py:20) reads neither. -/
def timeMarchV (s : St P) : Res (St P) := do
  let s' ← timeMarch (P.steered (σ s.dyn.t)) interp (s.steer (σ s.dyn.t))
  return s'.unsteer

/-- MPM.py:62,63,90,91 with such a step. -/
def stepsV : ℕ → St P → Res (St P)
  | 0, s => .ok s
  | n + 1, s => do
      let s ← timeMarchV P interp σ s
      stepsV n (stepTime P s)

end

section
open Real

/-- bi_drum.py:31, bi_square_drum.py:34: the rotation period. -/
noncomputable def drumPeriod (r max_g Fr : ℝ) : ℝ := √(4 * π ^ 2 * r / (|max_g| * Fr))

/-- bi_drum.py:32. -/
noncomputable def drumAngle (r max_g Fr t : ℝ) : ℝ := t / drumPeriod r max_g Fr * 2 * π

/-- bi_square_drum.py:35. -/
noncomputable def squareDrumAngle (r max_g Fr t : ℝ) : ℝ := -(t / drumPeriod r max_g Fr) * 2 * π

/-- vicky_latest.py:23-27. -/
noncomputable def tiltAngle (t : ℝ) : ℝ := if t < 1 / 2 then 30 * π / 180 else 0

/-- fluid.py:33-37. -/
noncomputable def fluidAngle (t : ℝ) : ℝ := if t < 4 * (1 / 2) then 0 * π / 180 else 45 * π / 180

/-- `sin(P.theta)`, `cos(P.theta)`, `tan(abs(P.theta))` for an angle. -/
noncomputable def steerBy (θ : ℝ) (v : Vec ℝ) : Steer ℝ :=
  { sinθ := sin θ, cosθ := cos θ, tanθ := tan |θ|, intruder_v := v }

end
end Mpm

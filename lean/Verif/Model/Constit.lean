import Verif.Model.Particle

/-!
# Model of `constit.py`

Every law is a function from a material point (after `update_strain`) to the changed point and
the list of values it adds to the grid for visualisation.  `Law` dispatch models
`exec(P.S[p].law + '(self,P,G,p)')` (particle.py:156).

Arithmetic that can leave the finite numbers is done in `XF`.  A point only carries finite
numbers: where the Python code would go on with a NaN/inf stress the model stops with
`Err.nonFinite`.
-/

namespace Mpm

section
variable {K : Type} [Field K] [LinearOrder K] {ns : ℕ}

/-- What a law reads besides the material point: `P.S[p]`, `P.S[0]`, `p`, `P.t`, `P.dt`,
`P.G.s`, `P.max_g`, `P.G.y_M - P.G.y_m`. -/
structure LawCtx (K : Type) (ns : ℕ) where
  ops : Ops K
  mat : Mat0 K
  mat0 : Mat0 K
  p : ℕ
  t : K
  dt : K
  s : Fin ns → K
  max_g : K
  height : K

/-- `sum(sum(A*B))`. -/
def frob {n : ℕ} (A B : Matrix (Fin n) (Fin n) K) : K := ∑ i, ∑ j, A i j * B i j

/-- `A - trace(A)/3*eye(3)`. -/
def dev3 (A : Mat K) : Mat K := A - (A.trace / 3) • (1 : Mat K)

/-- `for i in range(P.G.ns): s_bar += MP.phi[i]*P.G.s[i]`. -/
def meanSize (s phi : Fin ns → K) : K := ∑ i, phi i * s i

/-- The loop over size fractions of constit.py:425-430: `acc += MP.phi[i]*a[i]` for the three
material parameters, any of which may not be an array. -/
def phiMeans (phi : Fin ns → K) (mu_0 delta_mu I_0 : PyNum K) : Res (K × K × K) :=
  (List.finRange ns).foldlM (fun (acc : K × K × K) (i : Fin ns) => do
    let a ← mu_0.get i
    let b ← delta_mu.get i
    let c ← I_0.get i
    return (acc.1 + phi i * a, acc.2.1 + phi i * b, acc.2.2 + phi i * c)) (0, 0, 0)

/-- Result of a law: the point and its contributions to nodal fields (each contribution `x` is
added as `N[r]*x*m`). -/
abbrev LawRes (K : Type) (ns : ℕ) := Particle K ns × List (Vis × XF K)

/-- All entries of an extended matrix must be finite for the point to carry it. -/
def finMat (A : Fin 3 → Fin 3 → XF K) : Res (Mat K) :=
  if ∀ i j, (A i j).isFinite = true then .ok fun i j => (A i j).nanToNum 0
  else .error .nonFinite

/-- constit.py:28-40. -/
def lawRigid (_ : LawCtx K ns) (mp : Particle K ns) : Res (LawRes K ns) := .ok (mp, [])

/-- constit.py:42-68. -/
def lawElastic (c : LawCtx K ns) (mp : Particle K ns) : Res (LawRes K ns) :=
  let de_kk := mp.dstrain.trace
  let de_ij := mp.dstrain - (de_kk / 3) • (1 : Mat K)
  let mp := { mp with
    dstress := (c.mat.Kb * de_kk) • (1 : Mat K) + (2 * c.mat.Gs) • de_ij
    gammadot := c.ops.sqrt (frob de_ij de_ij)
    pressure := mp.stress.trace / 3
    sigmav := mp.stress 1 1
    sigmah := mp.stress 0 0 }
  .ok (mp, [(.pressure, .fin mp.pressure), (.gammadot, .fin mp.gammadot / .fin c.dt),
            (.sigmav, .fin mp.sigmav), (.sigmah, .fin mp.sigmah)])

/-- constit.py:83-85, the mass reduction. -/
def elasticTimeMass (c : LawCtx K ns) (m V : K) : K :=
  if c.p = 0 ∧ c.mat.t_0 < c.t then
    if c.mat.rho_f * V < m then m * (95 / 100) else m
  else m

/-- constit.py:70-112.  The moduli are Python floats, so zero denominators raise. -/
def lawElasticTime (c : LawCtx K ns) (mp : Particle K ns) : Res (LawRes K ns) :=
  let mp := { mp with m := elasticTimeMass c mp.m mp.V }
  if 3 * (1 - 2 * c.mat.nu) = 0 ∨ 2 * (1 + c.mat.nu) = 0 then .error .zeroDiv
  else
    let K_curr := c.mat.E_0 / (3 * (1 - 2 * c.mat.nu))
    let G_curr := c.mat.E_0 / (2 * (1 + c.mat.nu))
    let de_kk := mp.dstrain.trace
    let de_ij := mp.dstrain - (de_kk / 3) • (1 : Mat K)
    let mp := { mp with
      dstress := (K_curr * de_kk) • (1 : Mat K) + (2 * G_curr) • de_ij
      gammadot := c.ops.sqrt (frob de_ij de_ij)
      pressure := -mp.stress.trace / 3
      sigmav := -mp.stress 1 1
      sigmah := -mp.stress 0 0 }
    .ok (mp, [(.pressure, .fin mp.pressure), (.gammadot, .fin mp.gammadot / .fin c.dt),
              (.sigmav, .fin mp.sigmav), (.sigmah, .fin mp.sigmah)])

/-- constit.py:115-153.  A negative `k` (negative base of a power) is not modelled. -/
def lawVonMises (c : LawCtx K ns) (mp : Particle K ns) : Res (LawRes K ns) :=
  let de_kk := mp.dstrain.trace
  let de_ij := mp.dstrain - (de_kk / 3) • (1 : Mat K)
  let dsigma_kk := 3 * c.mat.Kb * de_kk
  let dev_work_norm := |frob mp.dev_stress de_ij|
  let dev_stress_norm := c.ops.sqrt (frob mp.dev_stress mp.dev_stress)
  if c.mat.k = 0 then .error .nonFinite
  else if c.mat.k < 0 then .error .unmodelled
  else if dev_stress_norm = 0 ∧ c.mat.s - 2 < 0 then .error .nonFinite     -- 0*inf
  else
    let ratio := dev_stress_norm / (c.ops.sqrt 2 * c.mat.k)
    let dev_dstress : Mat K := (2 * c.mat.Gs) •
      (de_ij - (dev_work_norm / (2 * c.mat.k ^ 2) * c.ops.pow ratio (c.mat.s - 2)) • mp.dev_stress)
    let sigma_kk := mp.sigma_kk + dsigma_kk
    let dev_stress := mp.dev_stress + dev_dstress
    let mp := { mp with
      sigma_kk := sigma_kk
      dev_stress := dev_stress
      dstress := (dev_stress + (sigma_kk / 3) • (1 : Mat K)) - mp.stress
      yieldfunction := ratio - 1
      gammadot := c.ops.sqrt (frob de_ij de_ij)
      pressure := mp.stress.trace / 3
      sigmav := mp.stress 1 1
      sigmah := mp.stress 0 0 }
    .ok (mp, [(.pressure, .fin mp.pressure), (.yieldfunction, .fin mp.yieldfunction),
              (.gammadot, .fin mp.gammadot / .fin c.dt),
              (.sigmav, .fin mp.sigmav), (.sigmah, .fin mp.sigmah),
              (.dev_stress, .fin (c.ops.sqrt (frob dev_stress dev_stress))),
              (.dev_stress_dot, .fin (c.ops.sqrt (frob dev_dstress dev_dstress)) / .fin c.dt)])

/-- constit.py:155-231.  Up to line 201 nothing observable fails (`mu_target` is unused); line 202
reads the attribute `MP.mu`, which no code running under this law sets.  What would follow if it
existed is not modelled. -/
def lawDp (_ : LawCtx K ns) (mp : Particle K ns) : Res (LawRes K ns) :=
  match mp.mu with
  | none => .error .attribute
  | some _ => .error .unmodelled

/-- The in-plane block `A[:2,:2]`. -/
def block2 (A : Mat K) : Matrix (Fin 2) (Fin 2) K := fun i j => A i.castSucc j.castSucc

/-- constit.py:245-263, `dp_guts` of `dp_rate`, all parameters from phase 0. -/
def dpRateGuts (ops : Ops K) (mat0 : Mat0 K) (dstrain stress : Matrix (Fin 2) (Fin 2) K) :
    Fin 2 → Fin 2 → XF K :=
  let de_kk := dstrain.trace
  let de_ij := dstrain - (de_kk / 2) • (1 : Matrix (Fin 2) (Fin 2) K)
  let p := stress.trace / 2
  let s_ij := stress - p • (1 : Matrix (Fin 2) (Fin 2) K)
  let q := ops.sqrt (3 * frob s_ij s_ij / 2)
  let lambda_2 := q - mat0.mu * p
  let Gamma_2 := if 0 < lambda_2 then lambda_2 else 0
  fun i j =>
    .fin (2 * mat0.Gs) *
        (.fin (de_ij i j) - .fin (3 * s_ij i j) / .fin (2 * q * p * mat0.t_star) * .fin Gamma_2)
      + .fin (mat0.Kb * (1 : Matrix (Fin 2) (Fin 2) K) i j) *
        (.fin de_kk + .fin (mat0.beta * q) / .fin (mat0.mu * p * p * mat0.t_star) * .fin Gamma_2)

/-- constit.py:233-302. -/
def lawDpRate (c : LawCtx K ns) (mp : Particle K ns) : Res (LawRes K ns) := do
  let dstrain := -block2 mp.dstrain
  let stress := -block2 mp.stress
  let d := dpRateGuts c.ops c.mat0 dstrain stress
  let p := stress.trace / 2
  let s_ij := stress - p • (1 : Matrix (Fin 2) (Fin 2) K)
  let q := c.ops.sqrt (3 * frob s_ij s_ij / 2)
  let dstress ← finMat fun i j =>
    if h : i.val < 2 ∧ j.val < 2 then -(d ⟨i, h.1⟩ ⟨j, h.2⟩) else .fin (mp.dstress i j)
  let yieldfunction ← (.fin q / .fin (c.mat.mu * p) - .fin 1 : XF K).toRes
  let e2 := dstrain - (dstrain.trace / 2) • (1 : Matrix (Fin 2) (Fin 2) K)
  let mp := { mp with
    dstress := dstress
    gammadot := c.ops.sqrt (frob e2 e2)
    pressure := mp.stress.trace / 2
    sigmav := mp.stress 1 1
    sigmah := mp.stress 0 0
    yieldfunction := yieldfunction }
  return (mp, [(.pressure, .fin p), (.gammadot, .fin mp.gammadot / .fin c.dt),
               (.dev_stress, .fin q)])

/-- constit.py:304-332. -/
def lawViscous (c : LawCtx K ns) (mp : Particle K ns) : Res (LawRes K ns) :=
  if c.dt = 0 then .error .nonFinite
  else
    let de_kk := mp.dstrain.trace / 3
    let de_ij := mp.dstrain - de_kk • (1 : Mat K)
    let pressure := mp.pressure + c.mat.Kb * de_kk
    let dev_stress : Mat K := (2 * c.mat.mu_s / c.dt) • de_ij
    let viscous_volumetric : Mat K := (c.mat.mu_v * de_kk / c.dt) • (1 : Mat K)
    let mp := { mp with
      de_ij := de_ij
      pressure := pressure
      dev_stress := dev_stress
      dstress := pressure • (1 : Mat K) + dev_stress - viscous_volumetric - mp.stress
      gammadot := c.ops.sqrt (frob de_ij de_ij) / c.dt }
    .ok (mp, [(.pressure, .fin pressure),
              (.dev_stress, .fin (c.ops.sqrt (frob dev_stress dev_stress)))])

/-- constit.py:334-360.  Sets the stress itself and leaves `dstress` alone. -/
def lawBingham (c : LawCtx K ns) (mp : Particle K ns) : Res (LawRes K ns) := do
  if c.dt = 0 then .error .nonFinite
  else
    let mu_0 ← c.mat.mu_0.num
    let de_kk := mp.dstrain.trace / 3
    let de_ij := mp.dstrain - de_kk • (1 : Mat K)
    let gammadot := c.ops.sqrt (frob de_ij de_ij) / c.dt
    let pressure := mp.pressure + c.mat.Kb * de_kk
    let dev_stress ← (
      if gammadot ≤ c.mat.gamma_c then .ok ((2 * mu_0 / c.dt) • de_ij)
      else if gammadot = 0 then .error .nonFinite
      else .ok ((2 * (c.mat.mu_s + c.mat.tau_0 / gammadot) / c.dt) • de_ij) : Res (Mat K))
    let viscous_volumetric : Mat K := (c.mat.mu_v * de_kk / c.dt) • (1 : Mat K)
    let mp := { mp with
      de_ij := de_ij
      gammadot := gammadot
      pressure := pressure
      dev_stress := dev_stress
      stress := pressure • (1 : Mat K) + dev_stress - viscous_volumetric }
    return (mp, [(.pressure, .fin pressure),
                 (.dev_stress, .fin (c.ops.sqrt (frob dev_stress dev_stress)))])

/-- constit.py:381-387: the viscosity of `ken_kamrin` as a function of pressure, shear rate
(already bounded below) and density. -/
def kenKamrinEta (c : LawCtx K ns) (I_0 pressure gammadot rho : K) : K :=
  let I : XF K := .fin (c.ops.sqrt 2 * 1 * gammadot) /
    XF.sqrt c.ops.sqrt (.fin |pressure| / .fin rho)
  let mu := (.fin c.mat.mu_s + .fin (c.mat.mu_2 - c.mat.mu_s) /
    (.fin ((.fin I_0 / I : XF K).nanToNum c.ops.big) + .fin 1) : XF K).nanToNum c.ops.big
  let eta := (.fin (mu * pressure) / .fin (c.ops.sqrt 2 * gammadot) : XF K).nanToNum c.ops.big
  let eta := max eta 0
  let eta_max := 250 * rho * c.max_g * c.height ^ 3
  min eta eta_max

/-- constit.py:362-399. -/
def lawKenKamrin (c : LawCtx K ns) (mp : Particle K ns) : Res (LawRes K ns) := do
  if c.dt = 0 then .error .nonFinite
  else
    let I_0 ← c.mat.I_0.num
    let de_kk := mp.dstrain.trace / 3
    let de_ij := mp.dstrain - de_kk • (1 : Mat K)
    let pressure := mp.pressure + c.mat.Kb * de_kk
    let gammadot_ij : Mat K := (2 / c.dt) • de_ij
    let gammadot := max (c.ops.sqrt (1 / 2 * frob gammadot_ij gammadot_ij)) (1 / 10 ^ 5)
    let eta := kenKamrinEta c I_0 pressure gammadot mp.rho
    let dev_stress : Mat K := eta • gammadot_ij
    let viscous_volumetric : Mat K := (c.mat.mu_v * de_kk / c.dt) • (1 : Mat K)
    let mp := { mp with
      de_ij := de_ij
      pressure := pressure
      gammadot := gammadot
      dev_stress := dev_stress
      dstress := pressure • (1 : Mat K) + dev_stress - viscous_volumetric - mp.stress }
    return (mp, [(.pressure, .fin pressure), (.gammadot, .fin gammadot / .fin c.dt),
                 (.dev_stress, .fin (c.ops.sqrt (frob dev_stress dev_stress)))])

/-- constit.py:436,510: inertial number `gammadot*s_bar*sqrt(rho_s/abs(pressure))`. -/
def inertial (ops : Ops K) (rho_s gammadot s_bar pressure : K) : XF K :=
  .fin (gammadot * s_bar) * XF.sqrt ops.sqrt (.fin rho_s / .fin |pressure|)

/-- constit.py:443: `mu_0 + delta_mu/(I_0/I + 1.)`. -/
def muI (mu_0 delta_mu I_0 : K) (I : XF K) : XF K :=
  .fin mu_0 + .fin delta_mu / (.fin I_0 / I + .fin 1)

/-- constit.py:446,515: `2.*sqrt(2)*mu*abs(pressure)/gammadot`. -/
def etaOf (ops : Ops K) (mu : XF K) (pressure gammadot : K) : XF K :=
  .fin (2 * ops.sqrt 2) * mu * .fin |pressure| / .fin gammadot

/-- constit.py:448,464 etc.: `pressure*eye(3) + eta*de_ij/dt - stress`, entry by entry. -/
def flowStressInc (pressure : K) (eta : XF K) (de_ij : Mat K) (dt : K) (stress : Mat K) :
    Fin 3 → Fin 3 → XF K :=
  fun i j => .fin (pressure * (1 : Mat K) i j) + eta * .fin (de_ij i j) / .fin dt
    - .fin (stress i j)

/-- constit.py:453-457: no tension, and no pressure at low density. -/
def pouliquenPressure (c : LawCtx K ns) (rho pressure : K) : K :=
  if 0 < pressure ∨ rho < c.mat.rho * (8 / 10) then 0 else pressure

/-- constit.py:401-488. -/
def lawPouliquen (c : LawCtx K ns) (mp : Particle K ns) : Res (LawRes K ns) := do
  let s_bar := meanSize c.s mp.phi
  let (mu_0, delta_mu, I_0) ← phiMeans mp.phi c.mat.mu_0 c.mat.delta_mu c.mat.I_0
  if c.dt = 0 then .error .nonFinite
  else
    let de_kk := mp.dstrain.trace / 3
    let de_ij := mp.dstrain - de_kk • (1 : Mat K)
    let gammadot := c.ops.sqrt (frob ((2 / c.dt) • de_ij) ((2 / c.dt) • de_ij))
    let I := inertial c.ops c.mat.rho_s gammadot s_bar mp.pressure
    let mu := muI mu_0 delta_mu I_0 I
    let eta := etaOf c.ops mu mp.pressure gammadot
    let eta_limited := min (eta.nanToNum c.ops.big) c.mat.eta_max
    let pressure := pouliquenPressure c mp.rho (mp.pressure + c.mat.Kb * de_kk)
    let dstressX := flowStressInc pressure (.fin eta_limited) de_ij c.dt mp.stress
    if ∀ i j, (dstressX i j).isFinite = true then
      let dev_stress : Mat K := (eta_limited / c.dt) • de_ij
      let mp := { mp with
        de_ij := de_ij
        gammadot := gammadot
        I := I
        mu := some mu
        eta := eta
        dev_stress := dev_stress
        pressure := pressure
        dstress := fun i j => (dstressX i j).nanToNum 0 }
      return (mp, [(.pressure, .fin pressure),
                   (.dev_stress, .fin (c.ops.sqrt (frob dev_stress dev_stress)) /
                      .fin (c.ops.sqrt 2)),
                   (.mu, mu), (.I, I), (.eta, eta)])
    else .error .sysExit

/-- constit.py:502-524 up to the stress increment, which may be NaN: returns (I, mu, eta, new
pressure, increment). -/
def linearMuRaw (c : LawCtx K ns) (mp : Particle K ns) (mu_0 : K) :
    XF K × XF K × XF K × K × (Fin 3 → Fin 3 → XF K) :=
  let s_bar := meanSize c.s mp.phi
  let de_kk := mp.dstrain.trace / 3
  let de_ij := mp.dstrain - de_kk • (1 : Mat K)
  let gammadot := c.ops.sqrt (frob ((2 / c.dt) • de_ij) ((2 / c.dt) • de_ij))
  let I := inertial c.ops c.mat.rho_s gammadot s_bar mp.pressure
  let mu := .fin mu_0 + .fin c.mat.b * I
  let eta := (etaOf c.ops mu mp.pressure gammadot).min (.fin c.mat.eta_max)
  let pressure := mp.pressure + c.mat.Kb * de_kk
  let pressure := if 0 < pressure then 0 else pressure
  (I, mu, eta, pressure, flowStressInc pressure eta de_ij c.dt mp.stress)

/-- constit.py:490-532. -/
def lawLinearMu (c : LawCtx K ns) (mp : Particle K ns) : Res (LawRes K ns) := do
  let mu_0 ← c.mat.mu_0.num
  if c.dt = 0 then .error .nonFinite
  else
    let (I, mu, eta, pressure, d) := linearMuRaw c mp mu_0
    let de_kk := mp.dstrain.trace / 3
    let de_ij := mp.dstrain - de_kk • (1 : Mat K)
    let dstress ← finMat d
    let dev ← finMat fun i j => eta * .fin (de_ij i j) / .fin c.dt
    let mp := { mp with
      de_ij := de_ij
      gammadot := c.ops.sqrt (frob ((2 / c.dt) • de_ij) ((2 / c.dt) • de_ij))
      I := I
      mu := some mu
      eta := eta
      dev_stress := dev
      pressure := pressure
      dstress := dstress }
    return (mp, [(.pressure, .fin pressure),
                 (.dev_stress, .fin (c.ops.sqrt (frob dev dev)) / .fin (c.ops.sqrt 2)),
                 (.mu, mu), (.I, I)])

/-- constit.py:534-586.  `MP.gammadot` is not updated by this law.  The `isfinite` test of line 570
cannot fail on finite inputs, `nan_to_num` having been applied in line 554, and is left out. -/
def lawKenSimple (c : LawCtx K ns) (mp : Particle K ns) : Res (LawRes K ns) := do
  let mu_0 ← c.mat.mu_0.num
  if c.dt = 0 then .error .nonFinite
  else
    let de_kk := mp.dstrain.trace / 3
    let de_ij := mp.dstrain - de_kk • (1 : Mat K)
    let eta := min ((etaOf c.ops (.fin mu_0) mp.pressure mp.gammadot).nanToNum c.ops.big)
      c.mat.eta_max
    let dev_stress : Mat K := (eta / c.dt) • de_ij
    let pressure := mp.pressure + c.mat.Kb * de_kk
    let pressure := if 0 < pressure then 0 else pressure
    let mp := { mp with
      de_ij := de_ij
      eta := .fin eta
      dev_stress := dev_stress
      pressure := pressure
      dstress := if 2500 < mp.rho then pressure • (1 : Mat K) + dev_stress - mp.stress
                 else -mp.stress }
    return (mp, [(.pressure, .fin pressure),
                 (.dev_stress, .fin (c.ops.sqrt (frob dev_stress dev_stress)) /
                    .fin (c.ops.sqrt 2)),
                 (.eta, .fin eta)])

/-- particle.py:156, `exec(P.S[p].law + '(self,P,G,p)')`; unknown names raise NameError. -/
def runLaw (law : Law) (c : LawCtx K ns) (mp : Particle K ns) : Res (LawRes K ns) :=
  match law with
  | .rigid => lawRigid c mp
  | .elastic => lawElastic c mp
  | .elastic_time => lawElasticTime c mp
  | .von_mises => lawVonMises c mp
  | .dp => lawDp c mp
  | .dp_rate => lawDpRate c mp
  | .viscous => lawViscous c mp
  | .bingham => lawBingham c mp
  | .ken_kamrin => lawKenKamrin c mp
  | .pouliquen => lawPouliquen c mp
  | .linear_mu => lawLinearMu c mp
  | .ken_simple => lawKenSimple c mp
  | .viscous_size | .pouliquen2D | .other => .error .name

/-- The loop `for r in range(4): G.f[n] += MP.N[r]*value*MP.m` at the end of every law. -/
def scatterVis {N : ℕ} (nx : ℕ) (mp : Particle K ns) (l : List (Vis × XF K))
    (vis : Vis → Fin N → XF K) : Res (Vis → Fin N → XF K) :=
  for4 (fun r vis => do
    let n ← mp.node nx N r
    return l.foldl (fun vis e =>
      Function.update vis e.1 (addAt (vis e.1) n (.fin (mp.N r) * e.2 * .fin mp.m))) vis) vis

/-- particle.py:148-158, `update_stress`. -/
def Particle.updateStress {N : ℕ} (nx : ℕ) (law : Law) (c : LawCtx K ns) (mp : Particle K ns)
    (vis : Vis → Fin N → XF K) : Res (Particle K ns × (Vis → Fin N → XF K)) := do
  let (mp, l) ← runLaw law c mp
  let vis ← scatterVis nx mp l vis
  return (mp.applyStress c.dt, vis)

end
end Mpm

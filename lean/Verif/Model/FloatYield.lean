import Verif.Model.FloatLaw

/-!
# Laws with rounding: `von_mises`, `bingham`, `ken_kamrin`

As `Model/FloatLaw.lean`.  The power is rounded once, as the square root is.  `Besides.all` puts these laws
next to those of `runLawR` in the whole time steps of `Model/FloatStep.lean`.
-/

namespace Mpm

section
variable {K : Type} [Field K] [LinearOrder K] (rnd : K → K) {ns : ℕ}

/-- `sum(sum(A*B))`. -/
def sumProdR (A B : Mat K) : K :=
  let col : Fin 3 → K := fun j =>
    rnd (rnd (rnd (A 0 j * B 0 j) + rnd (A 1 j * B 1 j)) + rnd (A 2 j * B 2 j))
  rnd (rnd (col 0 + col 1) + col 2)

/-- `sqrt(sum(sum(A**2)))`, also for numpy's `norm`. -/
def normR (ops : Ops K) (A : Mat K) : K := rnd (ops.sqrt (sumSqR rnd A))

/-- constit.py:133,139: `dev_stress_norm/(sqrt(2.)*k)`. -/
def yieldRatioR (c : LawCtx K ns) (dev : Mat K) : K :=
  rnd (normR rnd c.ops dev / rnd (rnd (c.ops.sqrt 2) * c.mat.k))

/-- constit.py:132,133: `dev_work_norm/(2.*(k**2))*(ratio**(s-2.))`. -/
def plasticR (c : LawCtx K ns) (dev e : Mat K) : K :=
  rnd (rnd (|sumProdR rnd dev (devR rnd e)| / rnd (2 * rnd (c.mat.k ^ 2))) *
    rnd (c.ops.pow (yieldRatioR rnd c dev) (rnd (c.mat.s - 2))))

/-- constit.py:132,133, `dev_dstress`. -/
def plasticIncR (c : LawCtx K ns) (dev e : Mat K) : Mat K := fun i j =>
  rnd (rnd (2 * c.mat.Gs) * rnd (devR rnd e i j - rnd (plasticR rnd c dev e * dev i j)))

/-- constit.py:135, the new deviatoric stress. -/
def plasticDevR (c : LawCtx K ns) (dev e : Mat K) : Mat K := fun i j =>
  rnd (dev i j + plasticIncR rnd c dev e i j)

/-- constit.py:127-143. -/
def vonMisesR (c : LawCtx K ns) (mp : Particle K ns) : Particle K ns :=
  let sigma_kk := rnd (mp.sigma_kk + rnd (rnd (3 * c.mat.Kb) * traceR rnd mp.dstrain))
  let dev_stress := plasticDevR rnd c mp.dev_stress mp.dstrain
  { mp with
    sigma_kk := sigma_kk
    dev_stress := dev_stress
    dstress := fun i j =>
      rnd (rnd (dev_stress i j + rnd (rnd (sigma_kk * (1 : Mat K) i j) / 3)) - mp.stress i j)
    yieldfunction := rnd (yieldRatioR rnd c mp.dev_stress - 1)
    gammadot := normR rnd c.ops (devR rnd mp.dstrain)
    pressure := rnd (traceR rnd mp.stress / 3)
    sigmav := mp.stress 1 1
    sigmah := mp.stress 0 0 }

/-- `N[r]*v*m` and `N[r]*v/dt*m`, from left to right. -/
def shownR (mp : Particle K ns) (r : Fin 4) (v : K) : XF K := .fin (rnd (rnd (mp.N r * v) * mp.m))
def shownRateR (dt : K) (mp : Particle K ns) (r : Fin 4) (v : K) : XF K :=
  XF.rd rnd (XF.rd rnd (.fin (rnd (mp.N r * v)) / .fin dt) * .fin mp.m)

/-- constit.py:145-153; `inc` is `dev_dstress`. -/
def vonMisesVisR (ops : Ops K) (dt : K) (inc : Mat K) (mp : Particle K ns) (r : Fin 4) :
    List (Vis × XF K) :=
  [(.pressure, shownR rnd mp r mp.pressure), (.yieldfunction, shownR rnd mp r mp.yieldfunction),
   (.gammadot, shownRateR rnd dt mp r mp.gammadot),
   (.sigmav, shownR rnd mp r mp.sigmav), (.sigmah, shownR rnd mp r mp.sigmah),
   (.dev_stress, shownR rnd mp r (normR rnd ops mp.dev_stress)),
   (.dev_stress_dot, shownRateR rnd dt mp r (normR rnd ops inc))]

/-- constit.py:353, 391: `mu_v*de_kk*eye(3)/dt`. -/
def volumetricR (c : LawCtx K ns) (mp : Particle K ns) : Mat K := fun i j =>
  rnd (rnd (rnd (c.mat.mu_v * volR rnd mp) * (1 : Mat K) i j) / c.dt)

/-- constit.py:349: the shear rate of `bingham`. -/
def binghamRateR (c : LawCtx K ns) (mp : Particle K ns) : K :=
  rnd (normR rnd c.ops (shearR rnd mp) / c.dt)

/-- constit.py:351,352: twice the viscosity.  For a shear rate of zero, numpy divides by zero. -/
def binghamFactorR (c : LawCtx K ns) (mu_0 gammadot : K) : Res K :=
  if gammadot ≤ c.mat.gamma_c then .ok (rnd (2 * mu_0))
  else if gammadot = 0 then .error .nonFinite
  else .ok (rnd (2 * rnd (c.mat.mu_s + rnd (c.mat.tau_0 / gammadot))))

/-- constit.py:346-354. -/
def binghamR (c : LawCtx K ns) (mp : Particle K ns) (factor : K) : Particle K ns :=
  let pressure := pressureR rnd c mp
  let dev_stress : Mat K := fun i j => rnd (rnd (factor * shearR rnd mp i j) / c.dt)
  { mp with
    de_ij := shearR rnd mp
    gammadot := binghamRateR rnd c mp
    pressure := pressure
    dev_stress := dev_stress
    stress := fun i j => rnd (rnd (rnd (pressure * (1 : Mat K) i j) + dev_stress i j) -
      volumetricR rnd c mp i j) }

/-- constit.py:378: `gammadot_ij`. -/
def kenRatesR (c : LawCtx K ns) (mp : Particle K ns) : Mat K := fun i j =>
  rnd (rnd (2 * shearR rnd mp i j) / c.dt)

/-- constit.py:379,380: the shear rate, bounded below by the float nearest to `1e-5`. -/
def kenRateR (c : LawCtx K ns) (mp : Particle K ns) : K :=
  max (rnd (c.ops.sqrt (rnd (1 / 2 * sumSqR rnd (kenRatesR rnd c mp))))) (rnd (1 / 10 ^ 5))

/-- constit.py:386: `250.*rho*max_g*(y_M-y_m)**3`. -/
def kenCapR (c : LawCtx K ns) (rho : K) : K :=
  rnd (rnd (rnd (250 * rho) * c.max_g) * rnd (c.height ^ 3))

/-- constit.py:382-387. -/
def kenEtaR (c : LawCtx K ns) (I_0 pressure gammadot rho : K) : K :=
  let I := XF.rd rnd (.fin (rnd (rnd (rnd (c.ops.sqrt 2) * 1) * gammadot)) /
    XF.rd rnd (XF.sqrt c.ops.sqrt (XF.rd rnd (.fin |pressure| / .fin rho))))
  let mu := (XF.rd rnd (.fin c.mat.mu_s + XF.rd rnd (.fin (rnd (c.mat.mu_2 - c.mat.mu_s)) /
    XF.rd rnd (.fin ((XF.rd rnd (.fin I_0 / I)).nanToNum c.ops.big) + .fin 1)))).nanToNum c.ops.big
  let eta := (XF.rd rnd (.fin (rnd (mu * pressure)) /
    .fin (rnd (rnd (c.ops.sqrt 2) * gammadot)))).nanToNum c.ops.big
  min (max eta 0) (kenCapR rnd c rho)

/-- constit.py:372-393. -/
def kenKamrinR (c : LawCtx K ns) (mp : Particle K ns) (I_0 : K) : Particle K ns :=
  let pressure := pressureR rnd c mp
  let eta := kenEtaR rnd c I_0 pressure (kenRateR rnd c mp) mp.rho
  let dev_stress : Mat K := fun i j => rnd (eta * kenRatesR rnd c mp i j)
  { mp with
    de_ij := shearR rnd mp
    pressure := pressure
    gammadot := kenRateR rnd c mp
    dev_stress := dev_stress
    dstress := fun i j => rnd (rnd (rnd (rnd (pressure * (1 : Mat K) i j) + dev_stress i j) -
      volumetricR rnd c mp i j) - mp.stress i j) }

/-- The three laws; the failures are those of `Model/Constit.lean`. -/
def yieldLawR (law : Law) (c : LawCtx K ns) (mp : Particle K ns) : Res (LawResR K ns) :=
  match law with
  | .von_mises =>
      if c.mat.k = 0 then .error .nonFinite
      else if c.mat.k < 0 then .error .unmodelled
      else if normR rnd c.ops mp.dev_stress = 0 ∧ rnd (c.mat.s - 2) < 0 then .error .nonFinite
      else
        let inc := plasticIncR rnd c mp.dev_stress mp.dstrain
        let mp := vonMisesR rnd c mp
        .ok (mp, vonMisesVisR rnd c.ops c.dt inc mp)
  | .bingham =>
      if c.dt = 0 then .error .nonFinite
      else do
        let mu_0 ← c.mat.mu_0.num
        let f ← binghamFactorR rnd c mu_0 (binghamRateR rnd c mp)
        let mp := binghamR rnd c mp f
        .ok (mp, viscousVisR rnd c.ops mp)
  | .ken_kamrin =>
      if c.dt = 0 then .error .nonFinite
      else do
        let I_0 ← c.mat.I_0.num
        let mp := kenKamrinR rnd c mp I_0
        .ok (mp, fun r => [(.pressure, shownR rnd mp r mp.pressure),
          (.gammadot, shownRateR rnd c.dt mp r mp.gammadot),
          (.dev_stress, shownR rnd mp r (normR rnd c.ops mp.dev_stress))])
  | _ => .error .unmodelled

/-- particle.py:148-158 for these laws. -/
def Particle.updateYieldR {N : ℕ} (nx : ℕ) (law : Law) (c : LawCtx K ns) (mp : Particle K ns)
    (vis : Vis → Fin N → XF K) : Res (Particle K ns × (Vis → Fin N → XF K)) := do
  let (mp, l) ← yieldLawR rnd law c mp
  let vis ← scatterVisR rnd nx mp l vis
  return (mp.applyStressR rnd c.dt, vis)

/-- As `Besides.rounded`, with these laws too: all but `dp` and `dp_rate`. -/
def Besides.all [FloorRing K] (P : Par K) : Besides P :=
  { Besides.rounded rnd P with
    stress := fun d L p ph mp vis =>
      if ph.law = .von_mises ∨ ph.law = .bingham ∨ ph.law = .ken_kamrin then
        mp.updateYieldR rnd P.G.nx ph.law (lawCtxR rnd P d P.G.s ((mat0 L).getD ph.par) p ph) vis
      else (Besides.rounded rnd P).stress d L p ph mp vis }

end
end Mpm

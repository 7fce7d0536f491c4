import Verif.Model.FloatStep

/-!
# Laws with rounding: `rigid`, `elastic`, `elastic_time`, `viscous`, `pouliquen`, `linear_mu`, `ken_simple`

As `Model/Constit.lean`, every operation rounded by `rnd`.  `sum` in constit.py is python's: it adds
rows, then entries, from left to right.  `trace` adds the diagonal from left to right, and so does `dot`
(Simplification: BLAS could use fused multiply-add).  The square root is rounded once.
-/

namespace Mpm

section
variable {K : Type} [Field K] [LinearOrder K] (rnd : K → K) {ns : ℕ}

/-- Rounding of a float that may be infinite or NaN. -/
def XF.rd : XF K → XF K
  | .fin x => .fin (rnd x)
  | x => x

/-- numpy `trace` of a 3×3 matrix. -/
def traceR (A : Mat K) : K := rnd (rnd (A 0 0 + A 1 1) + A 2 2)

/-- `A - t*eye(3)/3.` (constit.py:55) with `t = trace(A)`. -/
def devR (A : Mat K) : Mat K := fun i j =>
  rnd (A i j - rnd (rnd (traceR rnd A * (1 : Mat K) i j) / 3))

/-- constit.py:56, `K*de_kk*eye(3) + 2.*G*de_ij`. -/
def hookeR (Kb Gs : K) (e : Mat K) : Mat K := fun i j =>
  rnd (rnd (rnd (Kb * traceR rnd e) * (1 : Mat K) i j) + rnd (rnd (2 * Gs) * devR rnd e i j))

/-- `sum(sum(A**2))`. -/
def sumSqR (A : Mat K) : K :=
  let col : Fin 3 → K := fun j => rnd (rnd (rnd (A 0 j ^ 2) + rnd (A 1 j ^ 2)) + rnd (A 2 j ^ 2))
  rnd (rnd (col 0 + col 1) + col 2)

/-- The products `dot(A,B)` of 3×3 matrices. -/
def mdotR (A B : Mat K) : Mat K := fun i j =>
  rnd (rnd (rnd (A i 0 * B 0 j) + rnd (A i 1 * B 1 j)) + rnd (A i 2 * B 2 j))

/-- particle.py:158. -/
def Particle.applyStressR (dt : K) (mp : Particle K ns) : Particle K ns :=
  { mp with stress := fun i j => rnd (mp.stress i j + rnd (mp.dstress i j -
      rnd (rnd (mdotR rnd mp.LL mp.stress i j + mdotR rnd mp.stress mp.LL i j) * dt))) }

/-- constit.py:54-62.  `trace(MP.stress)/3.` etc. are for visualisation. -/
def elasticR (ops : Ops K) (Kb Gs : K) (mp : Particle K ns) : Particle K ns :=
  { mp with
    dstress := hookeR rnd Kb Gs mp.dstrain
    gammadot := rnd (ops.sqrt (sumSqR rnd (devR rnd mp.dstrain)))
    pressure := rnd (traceR rnd mp.stress / 3)
    sigmav := mp.stress 1 1
    sigmah := mp.stress 0 0 }

/-- constit.py:83-85. -/
def elasticTimeMassR (c : LawCtx K ns) (m V : K) : K :=
  if c.p = 0 ∧ c.mat.t_0 < c.t then
    if rnd (c.mat.rho_f * V) < m then rnd (m * rnd (95 / 100)) else m
  else m

/-- constit.py:98-106, signs of the reports reversed. -/
def elasticTimeR (ops : Ops K) (Kb Gs : K) (mp : Particle K ns) : Particle K ns :=
  { elasticR rnd ops Kb Gs mp with
    pressure := rnd (-traceR rnd mp.stress / 3), sigmav := -mp.stress 1 1, sigmah := -mp.stress 0 0 }

/-- constit.py:316-326. -/
def viscousR (c : LawCtx K ns) (mp : Particle K ns) : Particle K ns :=
  let de_kk := rnd (traceR rnd mp.dstrain / 3)
  let de_ij : Mat K := fun i j => rnd (mp.dstrain i j - rnd (de_kk * (1 : Mat K) i j))
  let pressure := rnd (mp.pressure + rnd (c.mat.Kb * de_kk))
  let dev_stress : Mat K := fun i j => rnd (rnd (rnd (2 * c.mat.mu_s) * de_ij i j) / c.dt)
  let volumetric : Mat K := fun i j =>
    rnd (rnd (rnd (c.mat.mu_v * de_kk) * (1 : Mat K) i j) / c.dt)
  { mp with
    de_ij := de_ij
    pressure := pressure
    dev_stress := dev_stress
    dstress := fun i j => rnd (rnd (rnd (rnd (pressure * (1 : Mat K) i j) + dev_stress i j) -
      volumetric i j) - mp.stress i j)
    gammadot := rnd (rnd (c.ops.sqrt (sumSqR rnd de_ij)) / c.dt) }

/-- A law: the point, and what it adds to the nodes at its corner number `r`. -/
abbrev LawResR (K : Type) (ns : ℕ) := Particle K ns × (Fin 4 → List (Vis × XF K))

/-- constit.py:66-69, 109-112: `N[r]*pressure*m` etc., from left to right. -/
def elasticVisR (dt : K) (mp : Particle K ns) (r : Fin 4) : List (Vis × XF K) :=
  let x : K → XF K := fun v => .fin (rnd (rnd (mp.N r * v) * mp.m))
  [(.pressure, x mp.pressure),
   (.gammadot, XF.rd rnd (XF.rd rnd (.fin (rnd (mp.N r * mp.gammadot)) / .fin dt) * .fin mp.m)),
   (.sigmav, x mp.sigmav), (.sigmah, x mp.sigmah)]

/-- constit.py:330,332.  Simplification: `norm` is the root of `sumSqR`. -/
def viscousVisR (ops : Ops K) (mp : Particle K ns) (r : Fin 4) : List (Vis × XF K) :=
  let x : K → XF K := fun v => .fin (rnd (rnd (mp.N r * v) * mp.m))
  [(.pressure, x mp.pressure), (.dev_stress, x (rnd (ops.sqrt (sumSqR rnd mp.dev_stress))))]

/-- constit.py:432, 505, 550: the volumetric strain increment. -/
def volR (mp : Particle K ns) : K := rnd (traceR rnd mp.dstrain / 3)

/-- constit.py:433, 506, 551: the shear strain increment. -/
def shearR (mp : Particle K ns) : Mat K := fun i j =>
  rnd (mp.dstrain i j - rnd (volR rnd mp * (1 : Mat K) i j))

/-- constit.py:435, 508: the norm of `2.*MP.de_ij/P.dt`. -/
def shearRateR (c : LawCtx K ns) (mp : Particle K ns) : K :=
  rnd (c.ops.sqrt (sumSqR rnd fun i j => rnd (rnd (2 * shearR rnd mp i j) / c.dt)))

/-- constit.py:425-426, 503: `s_bar += MP.phi[i]*P.G.s[i]`. -/
def meanSizeR (s phi : Fin ns → K) : K :=
  (List.finRange ns).foldl (fun acc i => rnd (acc + rnd (phi i * s i))) 0

/-- constit.py:425-430. -/
def phiMeansR (phi : Fin ns → K) (mu_0 delta_mu I_0 : PyNum K) : Res (K × K × K) :=
  (List.finRange ns).foldlM (fun (acc : K × K × K) (i : Fin ns) => do
    let a ← mu_0.get i
    let b ← delta_mu.get i
    let c ← I_0.get i
    return (rnd (acc.1 + rnd (phi i * a)), rnd (acc.2.1 + rnd (phi i * b)),
      rnd (acc.2.2 + rnd (phi i * c)))) (0, 0, 0)

/-- constit.py:436, 510. -/
def inertialR (ops : Ops K) (rho_s gammadot s_bar pressure : K) : XF K :=
  XF.rd rnd (.fin (rnd (gammadot * s_bar)) *
    XF.rd rnd (XF.sqrt ops.sqrt (XF.rd rnd (.fin rho_s / .fin |pressure|))))

/-- constit.py:443. -/
def muIR (mu_0 delta_mu I_0 : K) (I : XF K) : XF K :=
  XF.rd rnd (.fin mu_0 + XF.rd rnd (.fin delta_mu / XF.rd rnd (XF.rd rnd (.fin I_0 / I) + .fin 1)))

/-- constit.py:446, 515, 553, from left to right. -/
def etaOfR (ops : Ops K) (mu : XF K) (pressure gammadot : K) : XF K :=
  XF.rd rnd (XF.rd rnd (XF.rd rnd (.fin (rnd (2 * rnd (ops.sqrt 2))) * mu) * .fin |pressure|) /
    .fin gammadot)

/-- constit.py:450-451, 519-520, 559-560. -/
def pressureR (c : LawCtx K ns) (mp : Particle K ns) : K :=
  rnd (mp.pressure + rnd (c.mat.Kb * volR rnd mp))

/-- constit.py:401-488 up to the reports.  Simplification: without overflow the increment is finite, so the
test of line 467 is left out. -/
def pouliquenR (c : LawCtx K ns) (mp : Particle K ns) (mu_0 delta_mu I_0 : K) : Particle K ns :=
  let gammadot := shearRateR rnd c mp
  let I := inertialR rnd c.ops c.mat.rho_s gammadot (meanSizeR rnd c.s mp.phi) mp.pressure
  let mu := muIR rnd mu_0 delta_mu I_0 I
  let eta := etaOfR rnd c.ops mu mp.pressure gammadot
  let eta_limited := min (eta.nanToNum c.ops.big) c.mat.eta_max
  let dev_stress : Mat K := fun i j => rnd (rnd (eta_limited * shearR rnd mp i j) / c.dt)
  let pressure := pressureR rnd c mp
  let pressure :=
    if 0 < pressure ∨ mp.rho < rnd (c.mat.rho * rnd (8 / 10)) then 0 else pressure
  { mp with
    de_ij := shearR rnd mp
    gammadot := gammadot
    I := I
    mu := some mu
    eta := eta
    dev_stress := dev_stress
    pressure := pressure
    dstress := fun i j => rnd (rnd (rnd (pressure * (1 : Mat K) i j) + dev_stress i j) -
      mp.stress i j) }

/-- constit.py:502-524 up to the reports. -/
def linearMuR (c : LawCtx K ns) (mp : Particle K ns) (mu_0 : K) : Res (Particle K ns) := do
  let gammadot := shearRateR rnd c mp
  let I := inertialR rnd c.ops c.mat.rho_s gammadot (meanSizeR rnd c.s mp.phi) mp.pressure
  let mu := XF.rd rnd (.fin mu_0 + XF.rd rnd (.fin c.mat.b * I))
  let eta := (etaOfR rnd c.ops mu mp.pressure gammadot).min (.fin c.mat.eta_max)
  let devX : Fin 3 → Fin 3 → XF K := fun i j =>
    XF.rd rnd (XF.rd rnd (eta * .fin (shearR rnd mp i j)) / .fin c.dt)
  let pressure := pressureR rnd c mp
  let pressure := if 0 < pressure then 0 else pressure
  let dstress ← finMat fun i j => XF.rd rnd (XF.rd rnd (.fin (rnd (pressure * (1 : Mat K) i j)) +
    devX i j) - .fin (mp.stress i j))
  let dev ← finMat devX
  return { mp with
    de_ij := shearR rnd mp
    gammadot := gammadot
    I := I
    mu := some mu
    eta := eta
    dev_stress := dev
    pressure := pressure
    dstress := dstress }

/-- constit.py:550-568 up to the reports; the test of line 570 as in `pouliquenR`. -/
def kenSimpleR (c : LawCtx K ns) (mp : Particle K ns) (mu_0 : K) : Particle K ns :=
  let eta := min ((etaOfR rnd c.ops (.fin mu_0) mp.pressure mp.gammadot).nanToNum c.ops.big)
    c.mat.eta_max
  let dev_stress : Mat K := fun i j => rnd (rnd (eta * shearR rnd mp i j) / c.dt)
  let pressure := pressureR rnd c mp
  let pressure := if 0 < pressure then 0 else pressure
  { mp with
    de_ij := shearR rnd mp
    eta := .fin eta
    dev_stress := dev_stress
    pressure := pressure
    dstress := fun i j => if 2500 < mp.rho then
        rnd (rnd (rnd (pressure * (1 : Mat K) i j) + dev_stress i j) - mp.stress i j)
      else -mp.stress i j }

/-- constit.py:482-488, 526-532, 582-586: `N[r]*pressure*m`, `N[r]*norm(dev_stress)/sqrt(2.)*m` and so on,
from left to right. -/
def flowVisR (ops : Ops K) (mp : Particle K ns) (more : List (Vis × XF K)) (r : Fin 4) :
    List (Vis × XF K) :=
  (.pressure, .fin (rnd (rnd (mp.N r * mp.pressure) * mp.m))) ::
  (.dev_stress, XF.rd rnd (XF.rd rnd (.fin (rnd (mp.N r * rnd (ops.sqrt (sumSqR rnd mp.dev_stress)))) /
    .fin (rnd (ops.sqrt 2))) * .fin mp.m)) ::
  more.map fun e => (e.1, XF.rd rnd (XF.rd rnd (.fin (mp.N r) * e.2) * .fin mp.m))

/-- Laws of constit.py; `von_mises`, `bingham` and `ken_kamrin` are in `Model/FloatYield.lean`, `dp` and `dp_rate` are not modelled with rounding. -/
def runLawR (law : Law) (c : LawCtx K ns) (mp : Particle K ns) : Res (LawResR K ns) :=
  match law with
  | .rigid => .ok (mp, fun _ => [])
  | .elastic =>
      let mp := elasticR rnd c.ops c.mat.Kb c.mat.Gs mp
      .ok (mp, elasticVisR rnd c.dt mp)
  | .elastic_time =>
      let mp := { mp with m := elasticTimeMassR rnd c mp.m mp.V }
      let k3 := rnd (3 * rnd (1 - rnd (2 * c.mat.nu)))
      let g2 := rnd (2 * rnd (1 + c.mat.nu))
      if k3 = 0 ∨ g2 = 0 then .error .zeroDiv
      else
        let mp := elasticTimeR rnd c.ops (rnd (c.mat.E_0 / k3)) (rnd (c.mat.E_0 / g2)) mp
        .ok (mp, elasticVisR rnd c.dt mp)
  | .viscous =>
      if c.dt = 0 then .error .nonFinite
      else
        let mp := viscousR rnd c mp
        .ok (mp, viscousVisR rnd c.ops mp)
  | .pouliquen => do
      let (mu_0, delta_mu, I_0) ← phiMeansR rnd mp.phi c.mat.mu_0 c.mat.delta_mu c.mat.I_0
      if c.dt = 0 then .error .nonFinite
      else
        let mp := pouliquenR rnd c mp mu_0 delta_mu I_0
        .ok (mp, flowVisR rnd c.ops mp [(.mu, mp.mu.getD .nan), (.I, mp.I), (.eta, mp.eta)])
  | .linear_mu => do
      let mu_0 ← c.mat.mu_0.num
      if c.dt = 0 then .error .nonFinite
      else
        let mp ← linearMuR rnd c mp mu_0
        .ok (mp, flowVisR rnd c.ops mp [(.mu, mp.mu.getD .nan), (.I, mp.I)])
  | .ken_simple => do
      let mu_0 ← c.mat.mu_0.num
      if c.dt = 0 then .error .nonFinite
      else
        let mp := kenSimpleR rnd c mp mu_0
        .ok (mp, flowVisR rnd c.ops mp [(.eta, mp.eta)])
  | _ => .error .unmodelled

/-- The loop over the corners at the end of a law. -/
def scatterVisR {N : ℕ} (nx : ℕ) (mp : Particle K ns) (l : Fin 4 → List (Vis × XF K))
    (vis : Vis → Fin N → XF K) : Res (Vis → Fin N → XF K) :=
  for4 (fun r vis => do
    let n ← mp.node nx N r
    return (l r).foldl (fun vis e =>
      Function.update vis e.1 (Function.update (vis e.1) n (XF.rd rnd (vis e.1 n + e.2)))) vis) vis

/-- particle.py:148-158. -/
def Particle.updateStressR {N : ℕ} (nx : ℕ) (law : Law) (c : LawCtx K ns) (mp : Particle K ns)
    (vis : Vis → Fin N → XF K) : Res (Particle K ns × (Vis → Fin N → XF K)) := do
  let (mp, l) ← runLawR rnd law c mp
  let vis ← scatterVisR rnd nx mp l vis
  return (mp.applyStressR rnd c.dt, vis)

/-- What a law reads, with a rounded height. -/
def lawCtxR (P : Par K) (d : Dyn K) (s : Fin ns → K) (m0 : Mat0 K) (p : ℕ) (ph : Phase K ns) :
    LawCtx K ns :=
  { lawCtx P d s m0 p ph with height := rnd (P.G.y_M - P.G.y_m) }

/-- particle.py:8-101 for a point that starts without stress and with no steady flow. -/
def mkParticleR (P : Par K) (ph : Phase K ns) (g x y : K) : Res (Particle K ns) :=
  if P.pressure = .none ∧ P.initial_flow = .none then
    let V := rnd (ph.A * P.G.thickness)
    .ok {
      rho := ph.par.rho, x := ![x, y, 0], v := if ph.hasIv then .shared else .own 0, V := V
      m := rnd (ph.par.rho * V), b := bodyForceR rnd P g
      stress := 0, strain := 0, dstrain := 0, dstress := 0, de_ij := 0, dev_stress := 0
      sigma_kk := 0, gammadot := 0, pressure := 0, pk := 0, sigmav := 0, sigmah := 0
      yieldfunction := 0, Gs := fun _ => 0, N := fun _ => 0, n_star := 0, phi := ph.phi
      LL := 0, mu := none, I := .fin 0, eta := .fin 0 }
  else .error .unmodelled

/-- The rest of a step without segregation.  Simplifications: the nodal shear rate
(grid.py:298-310, MPM.py:32), which without segregation only figures show, is not computed. -/
def Besides.rounded [FloorRing K] (P : Par K) : Besides P where
  fractions := fun G => (G.phi, G.s_bar, G.pk)
  stress := fun d L p ph mp vis =>
    mp.updateStressR rnd P.G.nx ph.law (lawCtxR rnd P d P.G.s ((mat0 L).getD ph.par) p ph) vis
  visCyclic := fun vis v => if v ∈ cyclicVis then
    fun i => XF.rd rnd (makeCyclic (vis v) i) else vis v
  late := fun s => if P.segregate_grid then .error .unmodelled else .ok s
  point := fun _ ph g x y => mkParticleR rnd P ph g x y

/-- The laws `rigid`, `elastic`, `elastic_time` and `viscous` only. -/
def Besides.first [FloorRing K] (P : Par K) : Besides P :=
  { Besides.rounded rnd P with
    stress := fun d L p ph mp vis =>
      if ph.law = .rigid ∨ ph.law = .elastic ∨ ph.law = .elastic_time ∨ ph.law = .viscous then
        (Besides.rounded rnd P).stress d L p ph mp vis
      else .error .unmodelled }

end
end Mpm

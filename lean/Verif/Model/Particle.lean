import Verif.Model.Params

/-!
# Model of `particle.py`
-/

namespace Mpm

/-- What `self.v` refers to (particle.py:11-14): an array of its own, or the phase's
`initial_v` array object, which all points of the phase then share. -/
inductive VRef (K : Type) where
  | own (v : Vec K)
  | shared

/-- A material point, `particle.Particle`.  `LL` is the single array that both `self.L` and
`self.L_T` name (particle.py:134); it and `mu`, `I`, `eta` do not exist after construction
(`mu = none` is the missing attribute; the others are never read before being written). -/
structure Particle (K : Type) (ns : ℕ) where
  rho : K
  x : Vec K
  v : VRef K
  V : K
  m : K
  b : Vec K
  stress : Mat K
  strain : Mat K
  dstrain : Mat K
  dstress : Mat K
  de_ij : Mat K
  dev_stress : Mat K
  sigma_kk : K
  gammadot : K
  pressure : K
  pk : K
  sigmav : K
  sigmah : K
  yieldfunction : K
  Gs : Fin 4 → Vec K
  N : Fin 4 → K
  n_star : ℤ
  phi : Fin ns → K
  LL : Mat K
  mu : Option (XF K)
  I : XF K
  eta : XF K

/-- The array that `self.v` refers to. -/
def VRef.get {K : Type} (iv : Vec K) : VRef K → Vec K
  | .own v => v
  | .shared => iv

section
variable {K : Type} [Field K] [LinearOrder K]

/-- `array([P.g*sin(P.theta),P.g*cos(P.theta),0.])` (particle.py:17,331) -/
def bodyForce (P : Par K) (g : K) : Vec K := ![g * P.sinθ, g * P.cosθ, 0]

/-- particle.py:37-38,41-42: isotropic linear elasticity. -/
def hooke (Kb Gs : K) (e : Mat K) : Mat K :=
  (Kb * e.trace) • (1 : Mat K) + (2 * Gs) • (e - (e.trace / 3) • (1 : Mat K))

/-- particle.py:34,48: the strain for a given stress. -/
def hookeInv (Kb Gs : K) (s : Mat K) : Mat K :=
  (s.trace / (9 * Kb)) • (1 : Mat K) + (1 / (2 * Gs)) • (s - (s.trace / 3) • (1 : Mat K))

/-- particle.py:19-32, lithostatic stress (`K_0 = 1`). -/
def lithoStress (P : Par K) (rho y : K) : Mat K :=
  let depth := match P.top_gap with
    | some gap => P.G.y_M - gap - y
    | none => P.G.y_M - y
  let syy := P.cosθ * rho * P.max_g * depth
  let sxy := P.sinθ * rho * P.max_g * depth
  !![syy, sxy, 0; sxy, syy, 0; 0, 0, syy]

/-- particle.py:18-51: initial (stress, strain).  With zero moduli numpy divides by zero. -/
def initStress (P : Par K) (mat : Mat0 K) (y : K) : Res (Mat K × Mat K) :=
  match P.pressure with
  | .lithostatic =>
      if mat.Kb = 0 ∨ mat.Gs = 0 then .error .nonFinite
      else
        let s := lithoStress P mat.rho y
        .ok (s, hookeInv mat.Kb mat.Gs s)
  | .nonZero =>
      let e : Mat K := fun _ _ => -(1 / 10 ^ 15)
      .ok (hooke mat.Kb mat.Gs e, e)
  | .temperature =>
      let e : Mat K := (-(1 / 10 ^ 5 : K)) • (1 : Mat K)
      .ok (hooke mat.Kb mat.Gs e, e)
  | .compression =>
      if mat.Kb = 0 ∨ mat.Gs = 0 then .error .nonFinite
      else
        let s : Mat K := (-P.initial_pressure) • (1 : Mat K)
        .ok (s, hookeInv mat.Kb mat.Gs s)
  | .none => .ok (0, 0)

/-- particle.py:75, steady viscous flow down a slope. -/
def steadyViscousU (P : Par K) (mat : Mat0 K) (y : K) : K :=
  mat.rho * P.max_g * P.sinθ * (P.G.y_M * y - y ^ 2 / 2) / mat.mu_s

/-- What the constructor reads of `P.S[0]`. -/
structure First (K : Type) where
  law : Law
  rho : K

/-- particle.py:77, the factor of the steady mu(I) profile.  `mu_0`, `I_0` are used as numbers
here (while the pouliquen law indexes them); arrays are not modelled. -/
def bagnoldA (P : Par K) (mat : Mat0 K) (mu_0 I_0 : K) : K :=
  P.ops.sqrt (|P.max_g| * P.s_bar_0) * (2 / 3) * I_0 * (P.tanθ - mu_0) / (mat.mu_1 - P.tanθ) *
    P.ops.sqrt (mat.packing * P.cosθ)

/-- particle.py:78 -/
def bagnoldU (P : Par K) (A y : K) : K :=
  A * (P.ops.pow P.G.y_M (3 / 2) - P.ops.pow (P.G.y_M - y) (3 / 2)) / P.ops.pow P.s_bar_0 (3 / 2)

/-- particle.py:79 -/
def bagnoldRate (P : Par K) (A y : K) : K :=
  3 / 2 * A * P.ops.sqrt (P.G.y_M - y) / P.ops.pow P.s_bar_0 (3 / 2)

/-- particle.py:83-85: relative distance from the nearer wall. -/
def poiseuilleY (P : Par K) (y : K) : K :=
  let y_star := y / (P.G.y_M - P.G.y_m)
  if 1 / 2 < y_star then 1 / 2 - |y_star - 1 / 2| else y_star

/-- particle.py:82-97, the velocity of the Poiseuille profile; non-finite intermediate values are
flagged.  `rho0` is `P.S[0].rho`. -/
def poiseuilleU (P : Par K) (rho0 : K) (mat : Mat0 K) (mu_0 I_0 y : K) : Res K :=
  let H := P.G.y_M - P.G.y_m
  if H = 0 ∨ P.s_bar_0 = 0 ∨ P.initial_pressure = 0 ∨ mat.rho_s = 0 then .error .nonFinite
  else
    let y_star := poiseuilleY P y
    let Kg := |rho0 * P.max_g|
    let Lambda := H / P.s_bar_0
    let beta := P.ops.sqrt |Kg * H / P.initial_pressure|
    if beta = 0 then .error .nonFinite
    else
      let y_star_c := 1 / 2 - mu_0 / beta ^ 2
      let arg := if y_star < y_star_c then
          -(2 * beta ^ 2 * y_star + 2 * mat.mu_1 - beta ^ 2) / (beta ^ 2 - 2 * mat.mu_1)
        else (mat.mu_1 - mu_0) / (mat.mu_1 - beta ^ 2 / 2)
      let den := if y_star < y_star_c then beta ^ 2 - 2 * mat.mu_1 else mat.mu_1 - beta ^ 2 / 2
      if den = 0 ∨ arg ≤ 0 ∨ Kg * H / mat.rho_s < 0 then .error .nonFinite
      else
        let u_star := if y_star < y_star_c then
            Lambda * I_0 / beta ^ 3 * (beta ^ 2 * y_star + (mu_0 - mat.mu_1) * P.ops.log arg)
          else
            Lambda * I_0 / beta ^ 3 *
              (beta ^ 2 / 2 - mu_0 + (mu_0 - mat.mu_1) * P.ops.log arg)
        .ok (-u_star * P.ops.sqrt (Kg * H / mat.rho_s))

/-- particle.py:73-97: the initial velocity, shear rate and kinetic pressure.  `v` is what
`self.v` was before. -/
def initFlow (P : Par K) (S0 : First K) (mat : Mat0 K) (pressure y : K) (v : VRef K) :
    Res (VRef K × K × K) :=
  match P.initial_flow with
  | .none => .ok (v, 0, 0)
  | .steady =>
      if S0.law = .viscous ∨ S0.law = .viscous_size then
        if mat.mu_s = 0 then .error .nonFinite
        else .ok (.own ![steadyViscousU P mat y, 0, 0], 0, 0)
      else if S0.law = .pouliquen ∨ S0.law = .pouliquen2D then do
        let I_0 ← mat.I_0.num
        let mu_0 ← mat.mu_0.num
        if mat.mu_1 = P.tanθ ∨ P.s_bar_0 ≤ 0 ∨ mat.packing * P.cosθ < 0 ∨ P.G.y_M < 0 ∨
            P.G.y_M < y then .error .nonFinite
        else
          let A := bagnoldA P mat mu_0 I_0
          let gd := bagnoldRate P A y
          .ok (.own ![bagnoldU P A y, 0, 0], gd,
            P.l * P.s_bar_0 * P.ops.sqrt |pressure * mat.rho| * |gd|)
      else .ok (v, 0, 0)
  | .steadyPoiseulle => do
      let I_0 ← mat.I_0.num
      let mu_0 ← mat.mu_0.num
      let u ← poiseuilleU P S0.rho mat mu_0 I_0 y
      .ok (.own ![u, 0, 0], 0, 0)

/-- particle.py:8-101, `Particle.__init__(x,y,P,G,p,phi)`.  `g` is the current `P.g`. -/
def mkParticle {ns : ℕ} (P : Par K) (S0 : First K) (ph : Phase K ns) (g x y : K)
    (phi : Option (Fin ns → K)) : Res (Particle K ns) := do
  let st ← initStress P ph.par y
  let V := ph.A * P.G.thickness
  let sigma_kk := st.1.trace
  let fl ← initFlow P S0 ph.par (sigma_kk / 3) y (if ph.hasIv then .shared else .own 0)
  return {
    rho := ph.par.rho, x := ![x, y, 0], v := fl.1, V := V, m := ph.par.rho * V
    b := bodyForce P g
    stress := st.1, strain := st.2, dstrain := 0, dstress := 0, de_ij := 0
    dev_stress := st.1 - (sigma_kk / 3) • (1 : Mat K)
    sigma_kk := sigma_kk, gammadot := fl.2.1, pressure := sigma_kk / 3, pk := fl.2.2
    sigmav := st.1 1 1, sigmah := st.1 0 0, yieldfunction := 0
    Gs := fun _ => 0, N := fun _ => 0, n_star := 0
    phi := match phi with
      | some f => f
      | none => ph.phi
    LL := 0, mu := none, I := .fin 0, eta := .fin 0 }

variable {ns : ℕ}

/-- particle.py:160-173, `get_reference_node`.  Finite positions only; a degenerate grid
(zero spacing) gives non-finite quotients. -/
def Particle.getReferenceNode [FloorRing K] (P : GP K) (dx dy : K) (mp : Particle K ns) :
    Res (Particle K ns) :=
  if dx = 0 ∨ dy = 0 then .error .nonFinite
  else .ok { mp with
    n_star := pyTrunc ((mp.x 0 - P.x_m) / dx) + pyTrunc ((mp.x 1 - P.y_m) / dy) * P.nx }

/-- particle.py:176-184, `get_basis_functions`. -/
def Particle.getBasisFunctions {N : ℕ} (G : Grid K N ns) (mp : Particle K ns) :
    Res (Particle K ns) := do
  let n ← pyIdx N mp.n_star
  let x : Vec K := ![mp.x 0 - G.X n, mp.x 1 - G.Y n, mp.x 2 - 0]
  if G.dx * G.dy = 0 then .error .nonFinite
  else .ok { mp with N := shapeN G.dx G.dy x, Gs := shapeG G.dx G.dy x }

/-- particle.py:195 etc.: the array index of the `r`-th node around a point. -/
def Particle.node (nx N : ℕ) (mp : Particle K ns) (r : Fin 4) : Res (Fin N) :=
  pyIdx N (nearbyNodes nx mp.n_star r)

/-- particle.py:186-200, `get_nodal_mass_momentum`.  `vel` is the array `self.v`. -/
def Particle.p2g {N : ℕ} (nx : ℕ) (seg : Bool) (vel : Vec K) (mp : Particle K ns)
    (G : Grid K N ns) : Res (Grid K N ns) :=
  for4 (fun r G => do
    let n ← mp.node nx N r
    let G := { G with
      m := addAt G.m n (mp.N r * mp.m)
      q := addAt G.q n ((mp.N r * mp.m) • vel) }
    return if seg then
      { G with
        phim := addAt G.phim n ((mp.N r * mp.m) • mp.phi)
        pkm := addAt G.pkm n (mp.N r * mp.m * mp.pk) }
    else G) G

/-- particle.py:137-140: nodal velocity used for strains. -/
def nodeVel {N : ℕ} (M_tol : K) (G : Grid K N ns) (n : Fin N) : Vec K :=
  if M_tol < G.m n then fun k => G.q n k / G.m n else 0

/-- particle.py:126-146, `update_strain`.  `self.L` and `self.L_T` are one array, so both
increments accumulate in `LL`. -/
def Particle.updateStrain {N : ℕ} (nx : ℕ) (M_tol dt : K) (G : Grid K N ns)
    (mp : Particle K ns) : Res (Particle K ns) := do
  let mp ← for4 (fun r (mp : Particle K ns) => do
    let n ← mp.node nx N r
    let v := nodeVel M_tol G n
    let L := Matrix.vecMulVec v (mp.Gs r)
    let L_T := Matrix.vecMulVec (mp.Gs r) v
    return { mp with
      LL := mp.LL + L + L_T
      dstrain := mp.dstrain + (1 / 2 * dt) • (L + L_T) }) { mp with dstrain := 0, LL := 0 }
  return { mp with strain := mp.strain + mp.dstrain }

/-- particle.py:158, the stress update after the constitutive law has run. -/
def Particle.applyStress (dt : K) (mp : Particle K ns) : Particle K ns :=
  { mp with stress := mp.stress +
      (mp.dstress - dt • (mp.LL * mp.stress + mp.stress * mp.LL)) }

/-- particle.py:260-279, `move_material_points`.  The state is the point together with the
phase's `initial_v` array, because `self.v += ...` works in place. -/
def addVel (d : Vec K) (s : VRef K × Vec K) : VRef K × Vec K :=
  match s.1 with
  | .own v => (.own (v + d), s.2)
  | .shared => (.shared, s.2 + d)

def Particle.move {N : ℕ} (nx : ℕ) (M_tol dt : K) (G : Grid K N ns)
    (mp : Particle K ns) (iv : Vec K) : Res (Particle K ns × Vec K) := do
  let (mp, iv) ← for4 (fun r (s : Particle K ns × Vec K) => do
    let n ← s.1.node nx N r
    if M_tol < G.m n then
      let (v', iv') := addVel (fun k => dt * s.1.N r * G.q_dot n k / G.m n) (s.1.v, s.2)
      return ({ s.1 with
        x := s.1.x + fun k => dt * s.1.N r * G.q n k / G.m n
        v := v' }, iv')
    else return s) (mp, iv)
  let mp ← for4 (fun r (mp : Particle K ns) => do
    let n ← mp.node nx N r
    if M_tol < G.m n then
      if G.V n = 0 then .error .nonFinite
      else return { mp with rho := mp.rho + mp.N r * G.m n / G.V n }
    else return mp) { mp with rho := 0 }
  return (mp, iv)

/-- particle.py:281-290, `move_rigid_points`.  `self.v = P.intruder_v` binds the shared constant
array, which is never modified in place because rigid points are only ever moved here. -/
def Particle.moveRigid (dt : K) (intruder_v : Vec K) (mp : Particle K ns) : Particle K ns :=
  { mp with x := mp.x + dt • intruder_v, v := .own intruder_v }

/-- particle.py:292-306, the position returned by `recover_position`. -/
def Particle.recoverPosition {N : ℕ} (nx : ℕ) (G : Grid K N ns) (mp : Particle K ns) :
    Res (Vec K) :=
  for4 (fun r x => do
    let n ← mp.node nx N r
    return x + mp.N r • ![G.X n, G.Y n, 0]) 0

/-- particle.py:308-319, `get_nodal_forces`. -/
def Particle.nodalForces {N : ℕ} (nx : ℕ) (mp : Particle K ns) (G : Grid K N ns) :
    Res (Grid K N ns) :=
  for4 (fun r G => do
    let n ← mp.node nx N r
    return { G with
      fi := addAt G.fi n (mp.V • Matrix.mulVec mp.stress (mp.Gs r))
      fe := addAt G.fe n ((mp.N r * mp.m) • mp.b) }) G

/-- particle.py:322-331, `increment_gravity`. -/
def Particle.incrementGravity (P : Par K) (g : K) (p : ℕ) (mp : Particle K ns) : Particle K ns :=
  if p = 0 then { mp with b := bodyForce P g } else mp

/-- particle.py:247-258, `map_phi_to_mp`. -/
def Particle.mapPhi {N : ℕ} (nx : ℕ) (M_tol : K) (G : Grid K N ns) (mp : Particle K ns) :
    Res (Particle K ns) :=
  for4 (fun r (mp : Particle K ns) => do
    let n ← mp.node nx N r
    if M_tol < G.m n then
      return { mp with
        phi := fun j => mp.phi j + mp.N r * G.dphi n j
        pk := mp.pk + mp.N r * G.dpk n }
    else return mp) mp

/-- particle.py:202-214, `add_to_boundary`. -/
def Particle.addToBoundary {N : ℕ} (nx : ℕ) (mp : Particle K ns) : Res (Fin N → Bool) :=
  for4 (fun r mask => do
    let n ← mp.node nx N r
    return Function.update mask n true) (fun _ => false)

end
end Mpm

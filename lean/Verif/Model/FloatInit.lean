import Verif.Model.FloatDp

/-!
# The constructor of points with rounding

particle.py:8-101, for every kind of initial stress and flow.  Guards against non-finite values are those of
`Model/Particle.lean`, asked of the computed numbers.  `Besides.built` takes the inlets' new points from here.
-/

namespace Mpm

section
variable {K : Type} [Field K] [LinearOrder K] (rnd : K → K) {ns : ℕ}

/-- particle.py:23,29: `P.G.y_M - P.G.top_gap - y` or `P.G.y_M - y`. -/
def depthR (P : Par K) (y : K) : K := match P.top_gap with
  | some gap => rnd (rnd (P.G.y_M - gap) - y)
  | none => rnd (P.G.y_M - y)

/-- particle.py:19-32; the factor `K_0 = 1.` changes nothing. -/
def lithoStressR (P : Par K) (rho y : K) : Mat K :=
  let syy := rnd (rnd (rnd (P.cosθ * rho) * P.max_g) * depthR rnd P y)
  let sxy := rnd (rnd (rnd (P.sinθ * rho) * P.max_g) * depthR rnd P y)
  !![syy, sxy, 0; sxy, syy, 0; 0, 0, syy]

/-- particle.py:34,48: `eye(3)*trace(stress)/(9.*K) + (stress - eye(3)*trace(stress)/3.)/(2.*G)`. -/
def hookeInvR (Kb Gs : K) (s : Mat K) : Mat K := fun i j =>
  rnd (rnd (rnd ((1 : Mat K) i j * traceR rnd s) / rnd (9 * Kb)) +
    rnd (rnd (s i j - rnd (rnd ((1 : Mat K) i j * traceR rnd s) / 3)) / rnd (2 * Gs)))

/-- particle.py:18-51.  The literals `1e-15` and `1e-5` are rounded. -/
def initStressR (P : Par K) (mat : Mat0 K) (y : K) : Res (Mat K × Mat K) :=
  match P.pressure with
  | .lithostatic =>
      if mat.Kb = 0 ∨ mat.Gs = 0 then .error .nonFinite
      else
        let s := lithoStressR rnd P mat.rho y
        .ok (s, hookeInvR rnd mat.Kb mat.Gs s)
  | .nonZero =>
      let e : Mat K := fun _ _ => -rnd (1 / 10 ^ 15)
      .ok (hookeR rnd mat.Kb mat.Gs e, e)
  | .temperature =>
      let e : Mat K := (-rnd (1 / 10 ^ 5 : K)) • (1 : Mat K)
      .ok (hookeR rnd mat.Kb mat.Gs e, e)
  | .compression =>
      if mat.Kb = 0 ∨ mat.Gs = 0 then .error .nonFinite
      else
        let s : Mat K := (-P.initial_pressure) • (1 : Mat K)
        .ok (s, hookeInvR rnd mat.Kb mat.Gs s)
  | .none => .ok (0, 0)

/-- particle.py:75. -/
def steadyViscousUR (P : Par K) (mat : Mat0 K) (y : K) : K :=
  rnd (rnd (rnd (rnd (mat.rho * P.max_g) * P.sinθ) *
    rnd (rnd (P.G.y_M * y) - rnd (rnd (y ^ 2) / 2))) / mat.mu_s)

/-- particle.py:77. -/
def bagnoldAR (P : Par K) (mat : Mat0 K) (mu_0 I_0 : K) : K :=
  rnd (rnd (rnd (rnd (rnd (rnd (P.ops.sqrt (rnd (|P.max_g| * P.s_bar_0))) * rnd (2 / 3)) * I_0) *
    rnd (P.tanθ - mu_0)) / rnd (mat.mu_1 - P.tanθ)) * rnd (P.ops.sqrt (rnd (mat.packing * P.cosθ))))

/-- particle.py:78. -/
def bagnoldUR (P : Par K) (A y : K) : K :=
  rnd (rnd (A * rnd (rnd (P.ops.pow P.G.y_M (3 / 2)) - rnd (P.ops.pow (rnd (P.G.y_M - y)) (3 / 2)))) /
    rnd (P.ops.pow P.s_bar_0 (3 / 2)))

/-- particle.py:79. -/
def bagnoldRateR (P : Par K) (A y : K) : K :=
  rnd (rnd (rnd (3 / 2 * A) * rnd (P.ops.sqrt (rnd (P.G.y_M - y)))) / rnd (P.ops.pow P.s_bar_0 (3 / 2)))

/-- particle.py:80. -/
def kineticR (P : Par K) (pressure rho gammadot : K) : K :=
  rnd (rnd (rnd (P.l * P.s_bar_0) * rnd (P.ops.sqrt |rnd (pressure * rho)|)) * |gammadot|)

/-- particle.py:83-85. -/
def poiseuilleYR (P : Par K) (y : K) : K :=
  let y_star := rnd (y / rnd (P.G.y_M - P.G.y_m))
  if 1 / 2 < y_star then rnd (1 / 2 - |rnd (y_star - 1 / 2)|) else y_star

/-- particle.py:82-97. -/
def poiseuilleUR (P : Par K) (rho0 : K) (mat : Mat0 K) (mu_0 I_0 y : K) : Res K :=
  let H := rnd (P.G.y_M - P.G.y_m)
  if H = 0 ∨ P.s_bar_0 = 0 ∨ P.initial_pressure = 0 ∨ mat.rho_s = 0 then .error .nonFinite
  else
    let y_star := poiseuilleYR rnd P y
    let Kg := |rnd (rho0 * P.max_g)|
    let Lambda := rnd (H / P.s_bar_0)
    let beta := rnd (P.ops.sqrt |rnd (rnd (Kg * H) / P.initial_pressure)|)
    if beta = 0 then .error .nonFinite
    else
      let b2 := rnd (beta ^ 2)
      let y_star_c := rnd (1 / 2 - rnd (mu_0 / b2))
      let den := if y_star < y_star_c then rnd (b2 - rnd (2 * mat.mu_1)) else rnd (mat.mu_1 - rnd (b2 / 2))
      let arg := if y_star < y_star_c then
          rnd (-rnd (rnd (rnd (rnd (2 * b2) * y_star) + rnd (2 * mat.mu_1)) - b2) / den)
        else rnd (rnd (mat.mu_1 - mu_0) / den)
      if den = 0 ∨ arg ≤ 0 ∨ rnd (rnd (Kg * H) / mat.rho_s) < 0 then .error .nonFinite
      else
        let scale := rnd (rnd (Lambda * I_0) / rnd (beta ^ 3))
        let part := rnd (rnd (mu_0 - mat.mu_1) * rnd (P.ops.log arg))
        let u_star := if y_star < y_star_c then rnd (scale * rnd (rnd (b2 * y_star) + part))
          else rnd (scale * rnd (rnd (rnd (b2 / 2) - mu_0) + part))
        .ok (rnd (-u_star * rnd (P.ops.sqrt (rnd (rnd (Kg * H) / mat.rho_s)))))

/-- particle.py:73-97. -/
def initFlowR (P : Par K) (S0 : First K) (mat : Mat0 K) (pressure y : K) (v : VRef K) :
    Res (VRef K × K × K) :=
  match P.initial_flow with
  | .none => .ok (v, 0, 0)
  | .steady =>
      if S0.law = .viscous ∨ S0.law = .viscous_size then
        if mat.mu_s = 0 then .error .nonFinite
        else .ok (.own ![steadyViscousUR rnd P mat y, 0, 0], 0, 0)
      else if S0.law = .pouliquen ∨ S0.law = .pouliquen2D then do
        let I_0 ← mat.I_0.num
        let mu_0 ← mat.mu_0.num
        if mat.mu_1 = P.tanθ ∨ P.s_bar_0 ≤ 0 ∨ mat.packing * P.cosθ < 0 ∨ P.G.y_M < 0 ∨
            P.G.y_M < y then .error .nonFinite
        else
          let A := bagnoldAR rnd P mat mu_0 I_0
          let gd := bagnoldRateR rnd P A y
          .ok (.own ![bagnoldUR rnd P A y, 0, 0], gd, kineticR rnd P pressure mat.rho gd)
      else .ok (v, 0, 0)
  | .steadyPoiseulle => do
      let I_0 ← mat.I_0.num
      let mu_0 ← mat.mu_0.num
      let u ← poiseuilleUR rnd P S0.rho mat mu_0 I_0 y
      .ok (.own ![u, 0, 0], 0, 0)

/-- particle.py:8-101. -/
def mkPointR (P : Par K) (S0 : First K) (ph : Phase K ns) (g x y : K) (phi : Option (Fin ns → K)) :
    Res (Particle K ns) := do
  let st ← initStressR rnd P ph.par y
  let V := rnd (ph.A * P.G.thickness)
  let sigma_kk := traceR rnd st.1
  let pressure := rnd (sigma_kk / 3)
  let fl ← initFlowR rnd P S0 ph.par pressure y (if ph.hasIv then .shared else .own 0)
  return {
    rho := ph.par.rho, x := ![x, y, 0], v := fl.1, V := V, m := rnd (ph.par.rho * V)
    b := bodyForceR rnd P g
    stress := st.1, strain := st.2, dstrain := 0, dstress := 0, de_ij := 0
    dev_stress := devR rnd st.1
    sigma_kk := sigma_kk, gammadot := fl.2.1, pressure := pressure, pk := fl.2.2
    sigmav := st.1 1 1, sigmah := st.1 0 0, yieldfunction := 0
    Gs := fun _ => 0, N := fun _ => 0, n_star := 0
    phi := match phi with
      | some f => f
      | none => ph.phi
    LL := 0, mu := none, I := .fin 0, eta := .fin 0 }

/-- As `Besides.every`, with every kind of new point at the inlets. -/
def Besides.built [FloorRing K] (P : Par K) : Besides P :=
  { Besides.every rnd P with point := fun S0 ph g x y => mkPointR rnd P S0 ph g x y none }

end
end Mpm

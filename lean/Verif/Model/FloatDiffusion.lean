import Verif.Model.FloatGradient
import Verif.Model.FloatSeg

/-!
# Diffusion of grain sizes with rounding: `Diffusion` and `increment_grainsize` of integrators.py, `update_pk` of grid.py

As `Model/Integrators.lean`, every operation rounded by `rnd`.  Absolute values and the products with `~boundary`,
which is zero or one, are exact.  Simplification: roots and powers are rounded correctly.
-/

namespace Mpm

section
variable {K : Type} [Field K] [LinearOrder K] (rnd : K → K) {nx ny ns : ℕ}

/-- integrators.py:265: the diffusivity at a node. -/
def diffusivityR (ops : Ops K) (l rho_s s_bar : K) (gammadot pressure : XF K) (m : K) : XF K :=
  (((((.fin l * (pow15 ops s_bar).rd rnd).rd rnd * (XF.sqrt ops.sqrt gammadot.abs).rd rnd).rd rnd *
    (XF.sqrt ops.sqrt ((pressure / .fin m).rd rnd).abs).rd rnd).rd rnd) /
      (XF.sqrt ops.sqrt (.fin rho_s)).rd rnd).rd rnd

/-- integrators.py:263-278, `Diffusion`.  `rho_s` is `P.S[0].rho_s`. -/
def diffusionIncR (P : Par K) (dt rho_s : K) (G : Grid K (ny * nx) ns)
    (n : Fin (ny * nx)) (j : Fin ns) : XF K :=
  let Dphi : Fin (ny * nx) → XF K := fun k =>
    (diffusivityR rnd P.ops P.l rho_s (G.s_bar k) (G.vis .gammadot k) (G.vis .pressure k) (G.m k) *
      .fin (G.phi k j)).rd rnd
  let open_ : Fin (ny * nx) → XF K := fun k => if G.boundary_tot k then .fin 0 else .fin 1
  let dx : Fin (ny * nx) → XF K := fun k =>
    npGradientR rnd P.G.dx (fun ix => Dphi (mkNode ix (rowF k))) (colF k) * open_ k
  let dy : Fin (ny * nx) → XF K := fun k =>
    npGradientR rnd P.G.dy (fun iy => Dphi (mkNode (colF k) iy)) (rowF k) * open_ k
  (.fin dt * (npGradientR rnd P.G.dx (fun ix => dx (mkNode ix (rowF n))) (colF n)
    + npGradientR rnd P.G.dy (fun iy => dy (mkNode (colF n) iy)) (rowF n)).rd rnd).rd rnd

/-- integrators.py:280-283, `increment_grainsize`, followed by `nan_to_num` (grid.py:373,374). -/
def phiIncrementR (P : Par K) (dt rho_s : K) (s : Fin ns → K) (G : Grid K (ny * nx) ns)
    (n : Fin (ny * nx)) (j : Fin ns) : K :=
  (((ktXR rnd P dt s G n j + ktYR rnd P dt s G n j).rd rnd + diffusionIncR rnd P dt rho_s G n j).rd rnd).nanToNum
    P.ops.big

/-- grid.py:376,414,416, `update_pk`.  `rho_s` is `P.S[0].rho_s`. -/
def Grid.updatePkR (interp : Interp K (ny * nx)) (ops : Ops K) (M_tol rho_s : K)
    (G : Grid K (ny * nx) ns) : Grid K (ny * nx) ns :=
  let pk : Fin (ny * nx) → XF K := fun n =>
    (((G.vis .gammadot n).abs * .fin (G.s_bar n)).rd rnd *
      (XF.sqrt ops.sqrt ((.fin rho_s * ((G.vis .pressure n / .fin (G.m n)).rd rnd).abs).rd rnd)).rd rnd).rd rnd
  { G with
    pk := pk
    grad_pk := fun n i => (calcGradientR rnd interp ops.big M_tol G pk n i).nanToNum ops.big }

/-- MPM.py:32-36: the increments of the fractions and of the kinetic pressure on the grid. -/
def schemeIncR (P : Par K) (interp : Interp K P.G.N) (s : St P) :
    Res ((Fin P.G.N → Fin P.G.ns → K) × (Fin P.G.N → K)) :=
  if P.G.dx = 0 ∨ P.G.dy = 0 then .error .nonFinite
  else
    let rho_s := ((mat0 s.L).map (·.rho_s)).getD 0
    let G := (s.G.calcGammadotR (nx := P.G.nx) (ny := P.G.ny) rnd interp P.ops.big P.M_tol).updatePkR
      (nx := P.G.nx) (ny := P.G.ny) rnd interp P.ops P.M_tol rho_s
    .ok (phiIncrementR (nx := P.G.nx) (ny := P.G.ny) rnd P s.dyn.dt rho_s P.G.s G, G.dpk)

end
end Mpm

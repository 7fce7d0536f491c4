import Verif.Model.FloatLaw
import Verif.Model.Integrators

/-!
# Nodal gradients with rounding: `calculate_gradient` and `calculate_gammadot` of grid.py

As `Model/Integrators.lean`, every operation rounded by `rnd`: the nodal velocities, the difference of the two
neighbours, the width `2. * dx` over which it is taken, the quotient and the final sum.
-/

namespace Mpm

section
variable {K : Type} [Field K] [LinearOrder K] (rnd : K → K)

/-- `numpy.gradient` along one line of nodes with spacing `h`. -/
def npGradientR {n : ℕ} (h : K) (f : Fin n → XF K) (i : Fin n) : XF K :=
  let lo : Fin n := ⟨i.val - 1, by omega⟩
  let hi : Fin n := ⟨min (i.val + 1) (n - 1), by omega⟩
  ((f hi - f lo).rd rnd / .fin (rnd (((hi.val - lo.val : ℕ) : K) * h))).rd rnd

/-- `numpy.gradient` of a masked array, see `maGradient`. -/
def maGradientR {n : ℕ} (h : K) (mask : Fin n → Bool) (f : Fin n → XF K) (i : Fin n) : XF K :=
  if mask ⟨min (i.val + 1) (n - 1), by omega⟩ || mask ⟨i.val - 1, by omega⟩ then
    f ⟨min (i.val + 1) (n - 1), by omega⟩
  else npGradientR rnd h f i

variable {nx ny ns : ℕ}

/-- grid.py:321-362, `calculate_gradient` with `smooth=False`. -/
def calcGradientR (interp : Interp K (ny * nx)) (big M_tol : K) (G : Grid K (ny * nx) ns)
    (Z : Fin (ny * nx) → XF K) (n : Fin (ny * nx)) : Vec (XF K) :=
  let Zm := interp fun k => (decide (G.m k < M_tol), Z k)
  let Zi : Fin (ny * nx) → XF K := fun k => .fin ((Zm k).2.nanToNum big)
  ![maGradientR rnd G.dx (fun ix => (Zm (mkNode ix (rowF n))).1)
      (fun ix => Zi (mkNode ix (rowF n))) (colF n),
    maGradientR rnd G.dy (fun iy => (Zm (mkNode (colF n) iy)).1)
      (fun iy => Zi (mkNode (colF n) iy)) (rowF n),
    .fin 0]

/-- grid.py:298-310, `calculate_gammadot`. -/
def Grid.calcGammadotR (interp : Interp K (ny * nx)) (big M_tol : K) (G : Grid K (ny * nx) ns) :
    Grid K (ny * nx) ns :=
  let u : Fin (ny * nx) → XF K := fun n => (.fin (G.q n 0) / .fin (G.m n) : XF K).rd rnd
  let v : Fin (ny * nx) → XF K := fun n => (.fin (G.q n 1) / .fin (G.m n) : XF K).rd rnd
  { G with vis := Function.update G.vis .gammadot fun n =>
      (calcGradientR rnd interp big M_tol G u n 1 + calcGradientR rnd interp big M_tol G v n 0).rd rnd }

end
end Mpm

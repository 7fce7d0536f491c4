import Verif.Model.Particle
import Verif.Model.MPList

/-!
# Model of what `plotting.py` shows and saves

The numbers handed to matplotlib and to `numpy.save`, node by node and point by point.  Colours,
sizes, axes and labels other than the titles of the panels are left out.  A masked entry is `none`.
`G.grad_gammadot` is not a field of the model's grid: `wipe` sets it to zero (grid.py:181) and
`calculate_grad_gammadot` (grid.py:312-318) is never called.
-/

namespace Mpm

section
variable {K : Type} [Field K] [LinearOrder K] {N ns : ℕ}

/-- `ma.masked_invalid`: what is not finite is masked. -/
def XF.masked : XF K → Option K
  | .fin a => some a
  | _ => none

/-- `ma.masked_less_equal(a,0.)`; comparisons with NaN are false, so NaN stays. -/
def XF.maskedNonPos : XF K → Option (XF K)
  | .fin a => if a ≤ 0 then none else some (.fin a)
  | .ninf => none
  | a => some a

/-- A panel: its title and what it shows at every node. -/
abbrev Panel (K : Type) (N : ℕ) := String × (Fin N → Option K)

/-- plotting.py:148-152, 224-229, 263-267: `ma.masked_invalid(z[i]/G.m)`. -/
def Grid.panel (G : Grid K N ns) (title : String) (z : Fin N → XF K) : Panel K N :=
  (title, fun n => (z n / .fin (G.m n)).masked)

/-- The same for a `z[i]` that is masked already.  Division by zero of masked arrays masks. -/
def Grid.maskedPanel (G : Grid K N ns) (title : String) (z : Fin N → Option (XF K)) : Panel K N :=
  (title, fun n => (z n).bind fun a => (a / .fin (G.m n)).masked)

/-- `|G.gammadot|` etc. at a node. -/
def Grid.qx (G : Grid K N ns) (n : Fin N) : XF K := .fin (G.q n 0)
def Grid.qy (G : Grid K N ns) (n : Fin N) : XF K := .fin (G.q n 1)
/-- `G.m*G.m/G.V` -/
def Grid.zRho (G : Grid K N ns) (n : Fin N) : XF K := .fin (G.m n * G.m n) / .fin (G.V n)
/-- `G.s_bar*G.m` -/
def Grid.zSize (G : Grid K N ns) (n : Fin N) : XF K := .fin (G.s_bar n * G.m n)

/-- plotting.py:138-146. -/
def Grid.viscousPanels (G : Grid K N ns) : List (Panel K N) :=
  [G.panel "u" G.qx,
   G.panel "v" G.qy,
   G.panel "s_bar" G.zSize,
   G.panel "rho" G.zRho,
   G.panel "|gammadot|" fun n => (G.vis .gammadot n).abs * .fin (G.m n),
   G.panel "grad_x |gammadot|" fun n => .fin (0 * G.m n),
   G.panel "grad_y |gammadot|" fun n => .fin (0 * G.m n)]

/-- plotting.py:189-223; `last` is the index `-1` of the grain sizes. -/
def Grid.granularPanels (dt eta_max : K) (last : Fin ns) (G : Grid K N ns) : List (Panel K N) :=
  [G.panel "rho" G.zRho,
   G.panel "s_bar" G.zSize,
   G.panel "u" G.qx,
   G.panel "v" G.qy,
   G.panel "|gammadot|" fun n => (G.vis .gammadot n).abs * .fin (G.m n),
   G.panel "P" fun n => -G.vis .pressure n,
   G.panel "sigma_xy" fun n => G.vis .dev_stress n,
   G.panel "|sigma_xy/P|" fun n => (G.vis .dev_stress n / G.vis .pressure n).abs * .fin (G.m n),
   G.panel "mu" fun n => G.vis .mu n,
   G.maskedPanel "eta/eta_max" fun n => (G.vis .eta n / .fin eta_max).maskedNonPos,
   G.panel "p_k" fun n => G.pk n * .fin (G.m n),
   G.panel "I" fun n => G.vis .I n,
   G.panel "grad_y p_k" fun n => .fin (G.grad_pk n 1 * G.m n),
   G.panel "phidot_M" fun n => .fin (G.dphi n last) / .fin dt * .fin (G.m n)]

/-- plotting.py:260,261. -/
def Grid.dpPanels (G : Grid K N ns) : List (Panel K N) :=
  [G.panel "rho" G.zRho,
   G.panel "s_bar" G.zSize,
   G.panel "u" G.qx,
   G.panel "v" G.qy,
   G.panel "p" fun n => G.vis .pressure n,
   G.panel "q" fun n => G.vis .dev_stress n,
   G.panel "|gammadot|" fun n => (G.vis .gammadot n).abs,
   G.panel "q/p" fun n => .fin (G.m n) * G.vis .dev_stress n / G.vis .pressure n]

/-- plotting.py:270-318: contours, which are not masked. -/
def Grid.contours (G : Grid K N ns) : List (String × (Fin N → XF K)) :=
  [("rho", fun n => .fin (G.m n) / .fin (G.V n)),
   ("u", fun n => .fin (G.q n 0) / .fin (G.m n)),
   ("v", fun n => .fin (G.q n 1) / .fin (G.m n)),
   ("y_Phi", fun n => G.vis .yieldfunction n / .fin (G.m n)),
   ("sigma_v", fun n => G.vis .sigmav n / .fin (G.m n)),
   ("sigma_h", fun n => G.vis .sigmah n / .fin (G.m n)),
   ("|epsdot_ij|", fun n => G.vis .gammadot n / .fin (G.m n)),
   ("P", fun n => -G.vis .pressure n / .fin (G.m n)),
   ("|s_ij|", fun n => G.vis .dev_stress n / .fin (G.m n)),
   ("|sdot_ij|", fun n => G.vis .dev_stress_dot n / .fin (G.m n))]

/-- plotting.py:117,125,158,255,268: which figure a law gets. -/
inductive Layout where
  | nothing | viscous | granular | dp | other
  deriving DecidableEq, Repr

def layoutOf (law : String) : Layout :=
  if law = "rigid" then .nothing
  else if law ∈ ["viscous", "viscous_size", "shear_maxwell", "marks2012"] then .viscous
  else if law ∈ ["bingham", "pouliquen2D", "pouliquen", "HB", "linear_mu"] then .granular
  else if law ∈ ["dp", "dp_rate"] then .dp
  else .other

/-- plotting.py:130,163: the line `((G.q[:,0]/G.m)[P.G.nx//2::P.G.nx],G.y)`. -/
def Grid.profile {nx ny : ℕ} (P : GP K) (G : Grid K (ny * nx) ns) : List (XF K × K) :=
  List.zipWith (fun (n : Fin (ny * nx)) y => (.fin (G.q n 0) / .fin (G.m n), y))
    ((List.finRange (ny * nx)).filter fun n => inSlice (ny * nx) (some ((nx : ℤ) / 2)) none nx n)
    ((List.range ny).map fun j => linspace P.y_m P.y_M ny j)

/-- plotting.py:600-606, 615-620: shown at a node by `draw_gsd_grid`. -/
def Grid.sizeShown (M_tol : K) (f : Fin N → K) (G : Grid K N ns) (n : Fin N) : Option K :=
  if G.m n < M_tol then none else some (f n)

/-- plotting.py:610,621: the mean in the title. -/
def titleMean (f : Fin N → K) : XF K := .fin (∑ n, f n) / .fin (N : K)

/-- plotting.py:82-85: `draw_grid` multiplies the coordinates with the mask. -/
def marker (b : Bool) (x y : K) : K × K := if b then (x * 1, y * 1) else (x * 0, y * 0)

/-- The green pluses, red crosses and red pluses of `draw_grid`. -/
def Grid.greenMarkers (G : Grid K N ns) : List (K × K) :=
  (List.finRange N).map fun n => marker (!G.boundary_tot n) (G.X n) (G.Y n)
def Grid.redCrosses (G : Grid K N ns) : List (K × K) :=
  (List.finRange N).map fun n => marker (G.boundary_h n) (G.X n) (G.Y n)
def Grid.redPluses (G : Grid K N ns) : List (K × K) :=
  (List.finRange N).map fun n => marker (G.boundary_v n) (G.X n) (G.Y n)

/-- plotting.py:538-558: the wedges drawn for one point, as `(theta1, theta2)` in degrees. -/
def wedges (phi : List K) : List (K × K) :=
  (phi.foldl (fun (a : List (K × K) × K) f =>
    (a.1 ++ [(a.2 * 360, (a.2 + f) * 360)], a.2 + f)) ([], 0)).1

/-- plotting.py:568, 574, 580, 581: `a.reshape(P.G.ny,P.G.nx)`. -/
def reshape {α : Type} (nx ny : ℕ) (a : Fin (ny * nx) → α) (r : Fin ny) (c : Fin nx) : α :=
  a (mkNode c r)

/-- plotting.py:565-582: the arrays that are saved. -/
def Grid.savedSize {nx ny : ℕ} (G : Grid K (ny * nx) ns) : Fin ny → Fin nx → K :=
  reshape nx ny G.s_bar
def Grid.savedDensity {nx ny : ℕ} (G : Grid K (ny * nx) ns) : Fin ny → Fin nx → XF K :=
  reshape nx ny fun n => .fin (G.m n) / .fin (G.V n)
def Grid.savedU {nx ny : ℕ} (G : Grid K (ny * nx) ns) : Fin ny → Fin nx → XF K :=
  reshape nx ny fun n => .fin (G.q n 0) / .fin (G.m n)
def Grid.savedV {nx ny : ℕ} (G : Grid K (ny * nx) ns) : Fin ny → Fin nx → XF K :=
  reshape nx ny fun n => .fin (G.q n 1) / .fin (G.m n)

/-- plotting.py:587-590: the rows of the saved table of points. -/
def savedPhi (L : List (PhaseSt K ns)) : Res (List (List K)) :=
  foldPhases (fun a rows =>
    foldN (fun mp rows => .ok (rows ++ [[mp.x 0, mp.x 1] ++ List.ofFn mp.phi])) a.ph.n a.pts rows) L []

end
end Mpm

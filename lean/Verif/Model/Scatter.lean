import Verif.Model.Figures
import Verif.Model.Measure

/-!
# Model of the figures of the material points

plotting.py:94-111 (`draw_gamma_dot`), 327-514 (`draw_material_points`) and 516-527
(`draw_energy`): the numbers handed to `scatter`, `quiver` and `plot`.  Sizes, colours, limits and
colour bars are left out, and so are the markers of the grid, which are in `Model/Figures.lean`.

Two attributes of a point that only these figures read are no fields of the model's particles and
are arguments here: `dev_dstress`, which von_mises sets (constit.py:132), and `q`, which dp and
dp_rate set (constit.py:172, 253).  Neither is set by the constructor.
-/

namespace Mpm

/-- `[l[i] for i in range(n)]`: IndexError if the list is too short. -/
def firstN {α : Type} (n : ℕ) (l : List α) : Res (List α) :=
  if n ≤ l.length then .ok (l.take n) else .error .index

section
variable {K : Type} [Field K] [LinearOrder K] {ns : ℕ}

/-- A panel: its title and, for every point, where it is drawn and the numbers shown there: none
for a marker, two for an arrow, one for a colour. -/
abbrev PointPanel (K : Type) := String × List (K × K × List (XF K))

/-- One panel over the points of a phase. -/
def pointPanel (title : String) (show_ : Particle K ns → List (XF K)) (pts : List (Particle K ns)) :
    PointPanel K :=
  (title, pts.map fun mp => (mp.x 0, mp.x 1, show_ mp))

/-- The two panels that all figures begin with: markers, and velocities as arrows.  `iv` is the
array behind a shared velocity. -/
def placePanels (iv : Vec K) (pts : List (Particle K ns)) : List (PointPanel K) :=
  [pointPanel "MP's" (fun _ => []) pts,
   pointPanel "u" (fun mp => [.fin (mp.v.get iv 0), .fin (mp.v.get iv 1)]) pts]

/-- `L.S[p][i].gammadot/P.dt`: plotting.py:103, 349, 392. -/
def shownRate (dt : K) (mp : Particle K ns) : XF K := .fin mp.gammadot / .fin dt

/-- plotting.py:336-377. -/
def elasticPoints (dt : K) (iv : Vec K) (pts : List (Particle K ns)) : List (PointPanel K) :=
  placePanels iv pts ++
  [pointPanel "sigma_v" (fun mp => [.fin mp.sigmav]) pts,
   pointPanel "sigma_h" (fun mp => [.fin mp.sigmah]) pts,
   pointPanel "P" (fun mp => [.fin mp.pressure]) pts,
   pointPanel "gammadot" (fun mp => [shownRate dt mp]) pts]

/-- plotting.py:378-444, given what `dev_dstress` is on every point. -/
def vonMisesPoints (ops : Ops K) (dt : K) (iv : Vec K) (pts : List (Particle K ns × Mat K)) :
    List (PointPanel K) :=
  let l := pts.map (·.1)
  placePanels iv l ++
  [pointPanel "y_Phi" (fun mp => [.fin mp.yieldfunction]) l,
   pointPanel "sigma_v" (fun mp => [.fin mp.sigmav]) l,
   pointPanel "sigma_h" (fun mp => [.fin mp.sigmah]) l,
   pointPanel "|epsdot_ij|" (fun mp => [shownRate dt mp]) l,
   pointPanel "P" (fun mp => [.fin mp.pressure]) l,
   pointPanel "|sigma_ij|" (fun mp => [.fin (ops.sqrt (frob mp.dev_stress mp.dev_stress))]) l,
   ("|sigmadot_ij|", pts.map fun a =>
      (a.1.x 0, a.1.x 1, [.fin (ops.sqrt (frob a.2 a.2)) / .fin dt]))]

/-- plotting.py:445-475, given what `q` is on every point. -/
def dpPoints (iv : Vec K) (pts : List (Particle K ns × K)) : List (PointPanel K) :=
  let l := pts.map (·.1)
  placePanels iv l ++
  [pointPanel "p" (fun mp => [.fin mp.pressure]) l,
   ("q", pts.map fun a => (a.1.x 0, a.1.x 1, [.fin a.2]))]

/-- Read an attribute of every point: AttributeError if one does not have it. -/
def withAttr {α β : Type} (get : α → Option β) : List α → Res (List (α × β))
  | [] => .ok []
  | a :: l => match get a with
    | none => .error .attribute
    | some b => do
      let r ← withAttr get l
      return (a, b) :: r

/-- plotting.py:335-510: the figure of one phase.  The names of laws other than these four are not
looked at. -/
def pointsFigure (ops : Ops K) (dt : K) (dev_dstress : Particle K ns → Option (Mat K))
    (q : Particle K ns → Option K) (a : PhaseSt K ns) : Res (List (PointPanel K)) := do
  let pts ← firstN a.ph.n a.pts
  match a.ph.law with
  | .elastic => return elasticPoints dt a.ph.iv pts
  | .von_mises => do
      let l ← withAttr dev_dstress pts
      return vonMisesPoints ops dt a.ph.iv l
  | .dp => do
      let l ← withAttr q pts
      return dpPoints a.ph.iv l
  | _ => return placePanels a.ph.iv pts

/-- plotting.py:94-109: the figures of `draw_gamma_dot`, one for each phase that is not rigid. -/
def gammaDotFigures (dt : K) : List (PhaseSt K ns) → Res (List (PointPanel K))
  | [] => .ok []
  | a :: L =>
    if a.ph.law = .rigid then gammaDotFigures dt L
    else do
      let pts ← firstN a.ph.n a.pts
      let r ← gammaDotFigures dt L
      return pointPanel "gammadot" (fun mp => [shownRate dt mp]) pts :: r

/-- plotting.py:518-522: the four curves of `draw_energy`, of the rows `(t,K,G,S)` of
`P.O.energy`. -/
def energyCurves (rows : List (K × XF K × XF K × XF K)) : List (String × List (K × XF K)) :=
  [("KE", rows.map fun r => (r.1, r.2.1)),
   ("GPE", rows.map fun r => (r.1, r.2.2.1)),
   ("strain energy", rows.map fun r => (r.1, r.2.2.2)),
   ("total energy", rows.map fun r => (r.1, r.2.1 + r.2.2.1 + r.2.2.2))]

end
end Mpm

import Verif.Model.Float
import Verif.Model.MPList

/-!
# Floating point: the grid and the mapping of the points to it

The same functions as in `Model/Grid.lean`, `Model/Particle.lean` and `Model/MPList.lean`, with every
addition, subtraction, multiplication and division of the program followed by the rounding `rnd`.
Integers (node numbers) and negation are exact.
-/

namespace Mpm
section
variable {K : Type} [Field K] [LinearOrder K] (rnd : K → K)

/-- numpy `linspace(a,b,n)[i]`: `arange(n)*step + a` with `step = (b-a)/(n-1)`, and the last entry
replaced by `b`. -/
def linspaceR (a b : K) (n : ℕ) (i : ℕ) : K :=
  if i + 1 = n then b
  else rnd (rnd ((i : K) * rnd (rnd (b - a) / ((n : K) - 1))) + a)

/-- grid.py:89,90. -/
def gridDxR (P : GP K) : K :=
  rnd (linspaceR rnd P.x_m P.x_M P.nx 1 - linspaceR rnd P.x_m P.x_M P.nx 0)
def gridDyR (P : GP K) : K :=
  rnd (linspaceR rnd P.y_m P.y_M P.ny 1 - linspaceR rnd P.y_m P.y_M P.ny 0)

/-- grid.py:91,92. -/
def gridXR (P : GP K) (n : Fin P.N) : K := linspaceR rnd P.x_m P.x_M P.nx ((n : ℕ) % P.nx)
def gridYR (P : GP K) (n : Fin P.N) : K := linspaceR rnd P.y_m P.y_M P.ny ((n : ℕ) / P.nx)

/-- grid.py:77-112, as `mkGrid`, with rounded coordinates.  Simplification: the nodal volumes, which
the mapping does not read, are those of `mkGrid`. -/
def mkGridR (P : GP K) (B : BP K) : Res (Grid K P.N P.ns) := do
  let G ← mkGrid P B
  return { G with
    dx := gridDxR rnd P, dy := gridDyR rnd P, X := gridXR rnd P, Y := gridYR rnd P }

/-- grid.py:222-225, the shape functions. -/
def shapeNR (dx dy : K) (x : Vec K) : Fin 4 → K
  | 0 => rnd (rnd (rnd (dx - x 0) * rnd (dy - x 1)) / rnd (dx * dy))
  | 1 => rnd (rnd (x 0 * rnd (dy - x 1)) / rnd (dx * dy))
  | 2 => rnd (rnd (x 0 * x 1) / rnd (dx * dy))
  | 3 => rnd (rnd (rnd (dx - x 0) * x 1) / rnd (dx * dy))

/-- grid.py:226-229, their gradients. -/
def shapeGR (dx dy : K) (x : Vec K) : Fin 4 → Vec K
  | 0 => ![rnd (-rnd (dy - x 1) / rnd (dx * dy)), rnd (-rnd (dx - x 0) / rnd (dx * dy)),
      rnd (0 / rnd (dx * dy))]
  | 1 => ![rnd (rnd (dy - x 1) / rnd (dx * dy)), rnd (-x 0 / rnd (dx * dy)), rnd (0 / rnd (dx * dy))]
  | 2 => ![rnd (x 1 / rnd (dx * dy)), rnd (x 0 / rnd (dx * dy)), rnd (0 / rnd (dx * dy))]
  | 3 => ![rnd (-x 1 / rnd (dx * dy)), rnd (rnd (dx - x 0) / rnd (dx * dy)), rnd (0 / rnd (dx * dy))]

variable {ns : ℕ}

/-- particle.py:160-173. -/
def Particle.getReferenceNodeR [FloorRing K] (P : GP K) (dx dy : K) (mp : Particle K ns) :
    Res (Particle K ns) :=
  if dx = 0 ∨ dy = 0 then .error .nonFinite
  else .ok { mp with
    n_star := pyTrunc (rnd (rnd (mp.x 0 - P.x_m) / dx)) +
      pyTrunc (rnd (rnd (mp.x 1 - P.y_m) / dy)) * P.nx }

/-- particle.py:176-184. -/
def Particle.getBasisFunctionsR {N : ℕ} (G : Grid K N ns) (mp : Particle K ns) :
    Res (Particle K ns) := do
  let n ← pyIdx N mp.n_star
  let x : Vec K := ![rnd (mp.x 0 - G.X n), rnd (mp.x 1 - G.Y n), rnd (mp.x 2 - 0)]
  if rnd (G.dx * G.dy) = 0 then .error .nonFinite
  else .ok { mp with N := shapeNR rnd G.dx G.dy x, Gs := shapeGR rnd G.dx G.dy x }

/-- `a[i] += x` with rounding. -/
def addAtR {n : ℕ} (a : Fin n → K) (i : Fin n) (x : K) : Fin n → K :=
  Function.update a i (rnd (a i + x))

/-- `a[i] += x` for rows, with rounding. -/
def addRowR {n : ℕ} {ι : Type} (a : Fin n → ι → K) (i : Fin n) (x : ι → K) : Fin n → ι → K :=
  Function.update a i fun j => rnd (a i j + x j)

/-- particle.py:186-200; `N[r]*m*v` is `(N[r]*m)*v`. -/
def Particle.p2gR {N : ℕ} (nx : ℕ) (seg : Bool) (vel : Vec K) (mp : Particle K ns)
    (G : Grid K N ns) : Res (Grid K N ns) :=
  for4 (fun r G => do
    let n ← mp.node nx N r
    let G := { G with
      m := addAtR rnd G.m n (rnd (mp.N r * mp.m))
      q := addRowR rnd G.q n fun k => rnd (rnd (mp.N r * mp.m) * vel k) }
    return if seg then
      { G with
        phim := addRowR rnd G.phim n fun j => rnd (rnd (mp.N r * mp.m) * mp.phi j)
        pkm := addAtR rnd G.pkm n (rnd (rnd (mp.N r * mp.m) * mp.pk)) }
    else G) G

/-- mplist.py:96-99. -/
def wrapXR (P : GP K) (x : K) : K :=
  let x := if x < P.x_m then rnd (x + rnd (P.x_M - P.x_m)) else x
  if P.x_M < x then rnd (x - rnd (P.x_M - P.x_m)) else x

/-- mplist.py:101-110. -/
def getReferenceNodesR [FloorRing K] {N : ℕ} (P : GP K) (G : Grid K N ns)
    (L : List (PhaseSt K ns)) : Res (List (PhaseSt K ns)) :=
  mapPoints (fun _ _ mp => mp.getReferenceNodeR rnd P G.dx G.dy) L

/-- mplist.py:112-121. -/
def getBasisFunctionsR {N : ℕ} (G : Grid K N ns) (L : List (PhaseSt K ns)) :
    Res (List (PhaseSt K ns)) :=
  mapPoints (fun _ _ mp => mp.getBasisFunctionsR rnd G) L

/-- mplist.py:130-132. -/
def p2gAllR {N : ℕ} (nx : ℕ) (seg : Bool) (L : List (PhaseSt K ns)) (G : Grid K N ns) :
    Res (Grid K N ns) :=
  foldPhases (fun a G => foldN (fun mp G => mp.p2gR rnd nx seg (mp.v.get a.ph.iv) G) a.ph.n a.pts G)
    L G

/-- MPM.py:29-32 with mplist.py:130-132: reference nodes, basis functions, masses and momenta. -/
def toGridR [FloorRing K] (P : GP K) (seg : Bool) (L : List (PhaseSt K ns)) {N : ℕ}
    (G : Grid K N ns) : Res (List (PhaseSt K ns) × Grid K N ns) := do
  let L ← getReferenceNodesR rnd P G L
  let L ← getBasisFunctionsR rnd G L
  let G ← p2gAllR rnd P.nx seg L G
  return (L, G)

end
end Mpm

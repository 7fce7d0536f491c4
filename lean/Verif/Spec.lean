import Verif.Model.Main

/-!
# Specification vocabulary

What the properties talk about, stated without reference to how the code loops.
-/

namespace Mpm.Spec

section
variable {K : Type} [Field K] [LinearOrder K] {ns N : ℕ}

/-- All stored material points. -/
def points (L : List (PhaseSt K ns)) : List (Particle K ns) := L.flatMap (·.pts)

/-- Total mass of the material points. -/
def totalMass (L : List (PhaseSt K ns)) : K := ((points L).map (·.m)).sum

/-- Velocity of a point of a phase (its own array, or the phase's shared one). -/
def velocity (a : PhaseSt K ns) (mp : Particle K ns) : Vec K :=
  match mp.v with
  | .own v => v
  | .shared => a.ph.iv

/-- Total momentum of the material points. -/
def totalMomentum (L : List (PhaseSt K ns)) : Vec K :=
  (L.map fun a => (a.pts.map fun mp => mp.m • velocity a mp).sum).sum

/-- Total body force. -/
def totalWeight (L : List (PhaseSt K ns)) : Vec K :=
  ((points L).map fun mp => mp.m • mp.b).sum

/-- Mass moment. -/
def massMoment (L : List (PhaseSt K ns)) : Vec K :=
  ((points L).map fun mp => mp.m • mp.x).sum

/-- Interpolation weight of node `k` for a point: the shape function values of those of its four
nodes that are node `k`. -/
def weight (nx : ℕ) (mp : Particle K ns) (k : Fin N) : K :=
  ∑ r : Fin 4, if pyIdx N (nearbyNodes nx mp.n_star r) = .ok k then mp.N r else 0

/-- The same for the gradients. -/
def gradWeight (nx : ℕ) (mp : Particle K ns) (k : Fin N) : Vec K :=
  ∑ r : Fin 4, if pyIdx N (nearbyNodes nx mp.n_star r) = .ok k then mp.Gs r else 0

/-- All four node numbers of the point are valid array indices. -/
def NodesOk (nx N : ℕ) (mp : Particle K ns) : Prop :=
  ∀ r, ∃ k : Fin N, pyIdx N (nearbyNodes nx mp.n_star r) = .ok k

/-- Every phase's counter `P.S[p].n` equals the number of points stored for it. -/
def Counted (L : List (PhaseSt K ns)) : Prop := ∀ a ∈ L, a.ph.n = a.pts.length

/-- A grid extent that is not degenerate. -/
structure GoodGrid (P : GP K) : Prop where
  nx : 2 ≤ P.nx
  ny : 2 ≤ P.ny
  x : P.x_m < P.x_M
  y : P.y_m < P.y_M

/-- Coordinates of the node in column `i`, row `j`, and the cell size. -/
def nodeX (P : GP K) (i : ℕ) : K := P.x_m + i * ((P.x_M - P.x_m) / (P.nx - 1))
def nodeY (P : GP K) (j : ℕ) : K := P.y_m + j * ((P.y_M - P.y_m) / (P.ny - 1))
def cellX (P : GP K) : K := (P.x_M - P.x_m) / (P.nx - 1)
def cellY (P : GP K) : K := (P.y_M - P.y_m) / (P.ny - 1)

/-- A grid object that has the node table and spacings of the parameters. -/
structure Geometry (P : GP K) (G : Grid K P.N ns) : Prop where
  dx : G.dx = cellX P
  dy : G.dy = cellY P
  X : ∀ k, G.X k = nodeX P ((k : ℕ) % P.nx)
  Y : ∀ k, G.Y k = nodeY P ((k : ℕ) / P.nx)

/-- Offsets (columns, rows) of the four corners of a cell, counter-clockwise from lower left. -/
def cornerX : Fin 4 → ℕ := ![0, 1, 1, 0]
def cornerY : Fin 4 → ℕ := ![0, 0, 1, 1]

/-- Half-open domain. -/
def InDomain (P : GP K) (x : Vec K) : Prop :=
  (P.x_m ≤ x 0 ∧ x 0 < P.x_M) ∧ (P.y_m ≤ x 1 ∧ x 1 < P.y_M)

/-- The point `x` lies in the half-open cell with lower left node `(i,j)`. -/
def InCell (P : GP K) (x : Vec K) (i j : ℕ) : Prop :=
  (nodeX P i ≤ x 0 ∧ x 0 < nodeX P (i + 1)) ∧ (nodeY P j ≤ x 1 ∧ x 1 < nodeY P (j + 1)) ∧
    i + 1 < P.nx ∧ j + 1 < P.ny

/-- The tent function of half-width `h`: `1 - |d|/h` within distance `h`, zero beyond. -/
def tent (h d : K) : K := max 0 (1 - |d| / h)

/-- The bilinear weight of node `k` at position `x`. -/
def hat (P : GP K) (x : Vec K) (k : Fin P.N) : K :=
  tent (cellX P) (x 0 - nodeX P ((k : ℕ) % P.nx)) * tent (cellY P) (x 1 - nodeY P ((k : ℕ) / P.nx))

end
end Mpm.Spec

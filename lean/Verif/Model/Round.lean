import Verif.Model.Inputs
import Mathlib.Algebra.Order.Floor.Ring
import Mathlib.Analysis.SpecialFunctions.Trigonometric.Basic

/-!
# Round bodies and other special layouts of the input files

`inputs/ball.py:60-72`, `inputs/brazillian.py:81-92`, `inputs/flow.py:117-129`,
`inputs/stokes.py:119-131`, `inputs/bi_drum.py:92-142`, `inputs/slope_stab.py:83-101`,
`inputs/pierre.py:93-112`, `inputs/vicky.py:66-81`, `inputs/vicky_latest.py:75-90`,
`inputs/bi_square_drum.py:103-115`.

Numbers are exact; `sin`, `cos` and `pi` are parameters of the model (`Circ`), instantiated with the
real functions in the theorems.
-/

namespace Mpm

variable {K : Type} [Field K] [LinearOrder K]

/-- numpy `sin`, `cos`, `pi`. -/
structure Circ (K : Type) where
  sin : K → K
  cos : K → K
  pi : K

/-- The real functions. -/
noncomputable def realCirc : Circ ℝ := ⟨Real.sin, Real.cos, Real.pi⟩

/-- numpy `around(x)`: the nearest integer, the even one of two. -/
def npAround [FloorRing K] (x : K) : ℤ :=
  if x - ⌊x⌋ < 1 / 2 then ⌊x⌋
  else if 1 / 2 < x - ⌊x⌋ then ⌊x⌋ + 1
  else if ⌊x⌋ % 2 = 0 then ⌊x⌋ else ⌊x⌋ + 1

/-- ball.py:68-71: `for j in linspace(0,(1.-1./(dnphi))*2*pi,dnphi)`, the points of the ring of radius
`i`, for `d = dnphi > 0`. -/
def ringPoints (T : Circ K) (c : K × K) (i : K) (d : ℕ) : List (K × K) :=
  (linspaceL 0 ((1 - 1 / (d : K)) * 2 * T.pi) d).map fun j =>
    (c.1 + i * T.sin j, c.2 + i * T.cos j)

/-- ball.py:65-71. -/
def ballLayout [FloorRing K] (T : Circ K) (nr nphi : ℕ) (r : K) (c : K × K) : List (K × K) :=
  (linspaceL 0 r nr).flatMap fun i =>
    let dnphi := npAround ((nphi : K) * i / r)
    if 0 < dnphi then ringPoints T c i dnphi.toNat else []

/-- ball.py:72 (flow.py:129, stokes.py:131): `self.A = pi*r**2/self.n`. -/
def discArea (T : Circ K) (r : K) (n : ℕ) : K := T.pi * r ^ 2 / n

/-- brazillian.py:92: `self.A = pi*0.2**2/self.n`, whatever the radius. -/
def brazilArea (T : Circ K) (n : ℕ) : K := T.pi * (2 / 10) ^ 2 / n

/-- brazillian.py:86-91, flow.py:122-127, stokes.py:124-129: the same loops without the conversion
`int(...)`: `linspace` is called with a number of points of type `float64`, which numpy (1.18 and later;
requirements.txt asks for 1.22) refuses with TypeError; in the first ring, whose number is `0.0`, as
in all others. -/
def floatRings (nr : ℕ) (r : K) : Res (List (K × K)) :=
  (linspaceL 0 r nr).foldlM (fun _ _ => .error .type) []

/-- bi_drum.py:98-107: the grains: `(X[i]-c[0])**2 + (Y[i]-c[1])**2 < P.r**2` and
`((Y[i]-c[1])/P.r + 1.)/2. < fill`, with `c = [0.,0.]`. -/
def drumGrain (r fill x y : K) : Bool :=
  decide ((x - 0) ^ 2 + (y - 0) ^ 2 < r ^ 2) && decide (((y - 0) / r + 1) / 2 < fill)

/-- bi_drum.py:137: the drum: `(X[i]-c[0])**2 + (Y[i]-c[1])**2 >= P.r**2`. -/
def drumWall (r x y : K) : Bool := decide ((x - 0) ^ 2 + (y - 0) ^ 2 ≥ r ^ 2)

/-- bi_drum.py:127-140: the drum has `(G.ny-2)*pts_per_cell` rows of points between the same heights
as the `(G.ny-1)*pts_per_cell` rows of the grains. -/
def drumLayout (G : GP K) (ppc : ℕ) (keep : K → K → Bool) : List (K × K) :=
  placePoints keep (axisPoints G.x_m G.x_M (gridDx G) ppc ((G.nx - 1) * ppc))
    (axisPoints G.y_m G.y_M (gridDy G) ppc ((G.ny - 2) * ppc))

/-- slope_stab.py:92-95, pierre.py:103-106: the two nested tests; `m` is the slope gradient,
`tan(self.slope_angle*pi/180.)`, and `(cx,cy)` the corner. -/
def slopeKeep (m cx cy x y : K) : Bool :=
  (decide (x > cx) || decide (y < cy)) && !(decide (x > cx) && decide (y > m * (x - cx) + cy))

/-- slope_stab.py:99-101, pierre.py:110-112. -/
def slopeArea (G : GP K) (cx cy : K) (n : ℕ) : K :=
  ((G.x_M - G.x_m) * (G.y_M - G.y_m) - (cx - G.x_m) * (G.y_M - cy)) / n

/-- vicky.py:70,71: `int(self.L/(G.x_M-G.x_m)*(G.nx-1))` for positive sizes. -/
def cellsAcross [FloorRing K] (L W : K) (n : ℕ) : ℕ := ⌊L / W * ((n : K) - 1)⌋.toNat

/-- vicky.py:69-80, vicky_latest.py:78-89: a pile of width `L` around `x = 0` and of height `H` above
`y = 0`. -/
def pileLayout [FloorRing K] (G : GP K) (L H : K) (ppc : ℕ) : List (K × K) :=
  placePoints (fun _ _ => true)
    (axisPoints (-L / 2) (L / 2) (gridDx G) ppc (cellsAcross L (G.x_M - G.x_m) G.nx * ppc))
    (axisPoints 0 H (gridDy G) ppc (cellsAcross H (G.y_M - G.y_m) G.ny * ppc))

/-- vicky.py:81, vicky_latest.py:90: `self.A = self.L*self.H/self.n`. -/
def pileArea (L H : K) (n : ℕ) : K := L * H / n

/-- bi_square_drum.py:103-114: `(G.ny-1)//2*pts_per_cell + 2` rows of points, up to half a gap below
the middle. -/
def squareDrumLayout (G : GP K) (ppc : ℕ) : List (K × K) :=
  placePoints (fun _ _ => true)
    (axisPoints G.x_m G.x_M (gridDx G) ppc ((G.nx - 1) * ppc))
    (linspaceL (G.y_m + gridDy G / (2 * (ppc : K)))
      ((G.y_M + G.y_m) / 2 - gridDy G / (2 * (ppc : K)) / 2) ((G.ny - 1) / 2 * ppc + 2))

/-- bi_square_drum.py:51,115: `(G.y_M - G.y_m - G.top_gap)*(G.x_M - G.x_m)/self.n` with `top_gap`
half of the height. -/
def squareDrumArea (G : GP K) (n : ℕ) : K :=
  (G.y_M - G.y_m - 1 / 2 * (G.y_M - G.y_m)) * (G.x_M - G.x_m) / n

end Mpm

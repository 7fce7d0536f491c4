import Verif.Model.MPList
import Verif.Model.Loop

/-!
# Model of the set-up code in `inputs/*.py`

The input files build the lists `P.S[p].X`, `P.S[p].Y` of point positions, the area `P.S[p].A` per
point, the grain sizes `P.G.s` and the fractions `P.S[p].PHI`, and they supply `update_forces` and
`critical_time`.  Here each of these is a function of the grid parameters; the numbers which a file
fixes (`pts_per_cell = 3`, `nx`, ...) are arguments.  `G.dx`, `G.dy` are computed in the input
files as `self.x[1] - self.x[0]` from the same `linspace` as in grid.py, hence `gridDx`, `gridDy`.
-/

namespace Mpm

/-- numpy `tile(l,n)`. -/
def tile {α : Type} (l : List α) (n : ℕ) : List α := (List.replicate n l).flatten

/-- numpy `repeat(l,n)`. -/
def repeatEach {α : Type} (l : List α) (n : ℕ) : List α := l.flatMap (List.replicate n)

section
variable {K : Type} [Field K] [LinearOrder K]

/-- numpy `linspace(a,b,n)`. -/
def linspaceL (a b : K) (n : ℕ) : List K := (List.range n).map (linspace a b n)

/-- One axis of a layout, `linspace(a+gap,b-gap,n)` with `gap = d/(2*pts_per_cell)`. -/
def axisPoints (a b d : K) (ppc n : ℕ) : List K :=
  linspaceL (a + d / (2 * (ppc : K))) (b - d / (2 * (ppc : K))) n

/-- The common loop (silo.py:86-91 and all others):
`X = tile(xp,self.y); Y = repeat(yp,self.x)`, then for every `i in range(self.x*self.y)` that passes
the test, `self.X.append(X[i]); self.Y.append(Y[i]); self.n += 1`.  The result is the pair of lists
`self.X`, `self.Y` zipped; `self.x`, `self.y` are the lengths of `xp`, `yp`. -/
def placePoints (keep : K → K → Bool) (xp yp : List K) : List (K × K) :=
  ((tile xp yp.length).zip (repeatEach yp xp.length)).filter fun p => keep p.1 p.2

/-- The whole domain: silo.py:80-91, bi_double_insets.py:87-100, bi_seg_test.py:92-106,
bi_vertical_chute.py:97-111, bingham_unit_test.py:84-96, chuteflow.py:85-96, dp_rate_unit_test.py:75-88,
dp_unit_test.py:82-95, gsd.py:79-113, poly_seg_test.py:80-93, pouliquen_unit_test.py:81-93,
seg_unit_test.py:66-78, tri_seg_test.py:88-101, viscous_unit_test.py:79-91; with a test, tunnel.py:61-81
and bi_drum.py:93-109. -/
def fullLayout (G : GP K) (ppc : ℕ) (keep : K → K → Bool) : List (K × K) :=
  placePoints keep (axisPoints G.x_m G.x_M (gridDx G) ppc ((G.nx - 1) * ppc))
    (axisPoints G.y_m G.y_M (gridDy G) ppc ((G.ny - 1) * ppc))

/-- All but the top row of cells: incline.py:81-92, francois.py:73-87 and 106-120 (there with a test). -/
def toplessLayout (G : GP K) (ppc : ℕ) (keep : K → K → Bool) : List (K × K) :=
  placePoints keep (axisPoints G.x_m G.x_M (gridDx G) ppc ((G.nx - 1) * ppc))
    (axisPoints G.y_m (G.y_M - gridDy G) (gridDy G) ppc ((G.ny - 2) * ppc))

/-- dam_break.py:67-79: the right quarter, without the top row of cells. -/
def damLayout (G : GP K) (ppc : ℕ) : List (K × K) :=
  placePoints (fun _ _ => true)
    (axisPoints (G.x_M - (G.x_m + G.x_M) / 4) G.x_M (gridDx G) ppc ((G.nx - 1) / 4 * ppc))
    (axisPoints G.y_m (G.y_M - gridDy G) (gridDy G) ppc ((G.ny - 2) * ppc))

/-- bi_dam_break.py:94-103 with `L_1 = 1` (line 34): the rightmost of `L` boxes. -/
def boxLayout (G : GP K) (L ppc : ℕ) : List (K × K) :=
  placePoints (fun _ _ => true)
    (axisPoints (G.x_m + ((L : K) - 1) / L * (G.x_M - G.x_m)) G.x_M (gridDx G) ppc
      ((G.nx - 1) / L * ppc))
    (axisPoints G.y_m G.y_M (gridDy G) ppc ((G.ny - 1) * ppc))

/-- bi_conveyor.py:78-89 with `top_gap` half of the height (line 46): the lower half. -/
def conveyorLayout (G : GP K) (ppc : ℕ) : List (K × K) :=
  placePoints (fun _ _ => true) (axisPoints G.x_m G.x_M (gridDx G) ppc ((G.nx - 1) * ppc))
    (axisPoints G.y_m (G.y_M - (G.y_M - G.y_m) / 2) (gridDy G) ppc ((G.ny - 1) / 2 * ppc))

/-- francois.py:84,117: the tests of the two materials. -/
def outsideDisc (xc yc R x y : K) : Bool := decide ((x - xc) ^ 2 + (y - yc) ^ 2 > R ^ 2)
def insideDisc (xc yc R x y : K) : Bool := decide ((x - xc) ^ 2 + (y - yc) ^ 2 ≤ R ^ 2)

/-- tunnel.py:71-77: the tests of the two materials; both inequalities are strict. -/
def tunnelOut (x y : K) : Bool := decide ((x - 0) ^ 2 + (y - -30) ^ 2 > 10 ^ 2)
def tunnelIn (x y : K) : Bool := decide ((x - 0) ^ 2 + (y - -30) ^ 2 < 10 ^ 2)

/-- `self.A = G.dx*G.dy/self.pts_per_cell**2` (silo.py:92, bi_seg_test.py:107, ...). -/
def cellArea (G : GP K) (ppc : ℕ) : K := gridDx G * gridDy G / (ppc : K) ^ 2

/-- `self.A = (G.x_M-G.x_m)*(G.y_M-G.y_m)/self.n` (incline.py:94, dp_unit_test.py:96, ...). -/
def domainArea (G : GP K) (n : ℕ) : K := (G.x_M - G.x_m) * (G.y_M - G.y_m) / n

/-- chuteflow.py:97. -/
def chuteArea (G : GP K) (n : ℕ) : K := (G.x_M - G.x_m) * (G.y_M - G.y_m) / 2 / n

/-- dam_break.py:81. -/
def damArea (G : GP K) (n : ℕ) : K := (G.x_M - G.x_m) * (G.y_M - G.y_m - gridDy G) / 4 / n

/-! ## Grain sizes and initial fractions -/

/-- bi_dam_break.py:54,55 (also PSM_slope_stab.py:55,56, bi_double_insets.py:53,54,
bi_seg_test.py:53,54, bi_vertical_chute.py:54,55): `s_edges = linspace(s_m,s_M,ns+1)`,
`s = (s_edges[1:] + s_edges[:-1])/2.`. -/
def sizeBins (s_m s_M : K) (ns : ℕ) : List K :=
  let e := linspaceL s_m s_M (ns + 1)
  List.zipWith (fun a b => (a + b) / 2) e.tail e.dropLast

/-- bi_dam_break.py:57: `self.ds = self.s[1]-self.s[0]`. -/
def sizeStep (s : List K) : Res K :=
  match s[1]?, s[0]? with
  | some b, some a => .ok (b - a)
  | _, _ => .error .index

/-- The word `args[2]`: bi_dam_break.py:107,115,123. -/
inductive Grading where
  | top | bot | mix | other
  deriving DecidableEq

/-- `this_phi = zeros([ns]); this_phi[i] = 1.` -/
def oneHot (ns : ℕ) (i : ℤ) : Res (Fin ns → K) := do
  let j ← pyIdx ns i
  return fun k => if k = j then 1 else 0

/-- bi_dam_break.py:107-124 (PSM_slope_stab.py:104-117) for one point at height `y`: what is appended
to `self.PHI`.  For `H = 0` the quotient is not finite and `int` raises ValueError; for another word
nothing is appended. -/
def gradedPhi [FloorRing K] (w : Grading) (G : GP K) (y : K) : Res (List (Fin G.ns → K)) :=
  let H := G.y_M - G.y_m
  match w with
  | .top => if H = 0 then .error .value else do
      let f ← oneHot G.ns ⌊(H - y) / H * G.ns⌋
      return [f]
  | .bot => if H = 0 then .error .value else do
      let f ← oneHot G.ns ⌊y / H * G.ns⌋
      return [f]
  | .mix => .ok [fun _ => 1 / G.ns]
  | .other => .ok []

/-- The list `self.PHI` after the loop over the points. -/
def gradedPHI [FloorRing K] (w : Grading) (G : GP K) : List (K × K) → Res (List (Fin G.ns → K))
  | [] => .ok []
  | q :: l => do
      let f ← gradedPhi w G q.2
      let F ← gradedPHI w G l
      return f ++ F

/-- PSM_slope_stab.py:119-124: `int(ns/2*c + ns/2)` for the cosine `c`. -/
def layeredPhi [FloorRing K] (ns : ℕ) (c : K) : Res (Fin ns → K) :=
  oneHot ns (pyTrunc ((ns : K) / 2 * c + (ns : K) / 2))

end
end Mpm

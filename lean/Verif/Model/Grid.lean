import Verif.Py

/-!
# Model of `grid.py`

The grid arrays are flat, of length `ny*nx`, numbered row by row from the bottom left
(grid.py:62-75).  They are modelled as functions on `Fin (ny*nx)`.
-/

namespace Mpm

/-- `P.G`: grid parameters of the input file (initialise.py:60-64 of the defaults, e.g.
inputs/ball.py Grid_Params).  `dx`,`dy` are the user supplied `P.G.dx`,`P.G.dy`, which are
separate from the `G.dx`,`G.dy` computed by `Grid.__init__`. -/
structure GP (K : Type) where
  x_m : K
  x_M : K
  y_m : K
  y_M : K
  nx : ℕ
  ny : ℕ
  dx : K
  dy : K
  thickness : K
  ns : ℕ
  s : Fin ns → K

/-- Number of grid nodes, `P.G.ny*P.G.nx`. -/
abbrev GP.N {K : Type} (P : GP K) : ℕ := P.ny * P.nx

/-- `P.B`: boundary options (initialise.py:38-58).  `wall_mu = 0` stands for both `False`
and `0.`, which Python treats alike in `if P.B.wall_mu`. -/
structure BP (K : Type) where
  wall : Bool := false
  two_walls : Bool := false
  roughness : Bool := false
  wall_mu : K
  no_slip_bottom : Bool := false
  cyclic_lr : Bool := false
  has_top : Bool := false
  has_bottom : Bool := false
  has_right : Bool := false
  has_left : Bool := false
  box : Bool := false
  outlet_left : Bool := false
  outlet_bottom : Bool := false
  inlet_right : Bool := false
  inlet_top : Bool := false
  vertical_force : Bool := false
  horizontal_force : Bool := false
  conveyor : Bool := false
  silo_left : Bool := false
  silo_bottom : Bool := false

/-- Grid fields that the constitutive laws accumulate for visualisation (and, for
`pressure`, for the segregation model): grid.py:180-191. -/
inductive Vis where
  | gammadot | yieldfunction | pressure | sigmah | sigmav | dev_stress | dev_stress_dot
  | mu_s | mu | I | eta
  deriving DecidableEq, Repr

/-- A `grid.Grid` instance with `N` nodes and `ns` grain sizes.  The first group of fields is
set by `Grid.__init__` (grid.py:77-170), the second by `Grid.wipe` (grid.py:172-207).
Plot-only arrays (`x_plot`, `dx_plot`, kernels) are modelled separately. -/
structure Grid (K : Type) (N ns : ℕ) where
  dx : K
  dy : K
  X : Fin N → K
  Y : Fin N → K
  boundary_v : Fin N → Bool
  boundary_h : Fin N → Bool
  boundary_tot : Fin N → Bool
  boundary_conveyor : Fin N → Bool
  V : Fin N → K
  -- wiped every step
  fi : Fin N → Vec K
  fe : Fin N → Vec K
  m : Fin N → K
  q : Fin N → Vec K
  q_dot : Fin N → Vec K
  ext_f : Fin N → Vec K
  vis : Vis → Fin N → XF K
  s_bar : Fin N → K
  dphi : Fin N → Fin ns → K
  pk : Fin N → XF K
  dpk : Fin N → K
  pkm : Fin N → K
  grad_pk : Fin N → Vec K
  phim : Fin N → Fin ns → K
  phi : Fin N → Fin ns → K

section
variable {K : Type} [Field K] [LinearOrder K]

/-- numpy `linspace(a,b,n)[i]`.  (numpy overwrites the last entry with `b`, which in exact
arithmetic is the value of the formula already.) -/
def linspace (a b : K) (n : ℕ) (i : ℕ) : K := a + (i : K) * ((b - a) / ((n : K) - 1))

/-- grid.py:89,90: `self.dx = self.x[1] - self.x[0]`. -/
def gridDx (P : GP K) : K := linspace P.x_m P.x_M P.nx 1 - linspace P.x_m P.x_M P.nx 0
def gridDy (P : GP K) : K := linspace P.y_m P.y_M P.ny 1 - linspace P.y_m P.y_M P.ny 0

/-- grid.py:91: `self.X = tile(self.x,P.G.ny)`. -/
def gridX (P : GP K) (n : Fin P.N) : K := linspace P.x_m P.x_M P.nx ((n : ℕ) % P.nx)
/-- grid.py:92: `self.Y = repeat(self.y,P.G.nx)`. -/
def gridY (P : GP K) (n : Fin P.N) : K := linspace P.y_m P.y_M P.ny ((n : ℕ) / P.nx)

/-- `if c: a[start:stop:step] = 1` -/
def markIf {n : ℕ} (c : Bool) (start stop : Option ℤ) (step : ℕ) (a : Fin n → Bool) :
    Fin n → Bool :=
  if c then setSlice a start stop step true else a

/-- grid.py:129-159, the writes to `boundary_v` in program order. -/
def boundaryV (B : BP K) (nx ny : ℕ) : Fin (ny * nx) → Bool :=
  let a : Fin (ny * nx) → Bool := fun _ => false
  let a := markIf B.no_slip_bottom none (some nx) 1 a                                -- 132
  let a := markIf B.has_left none none nx a                                          -- 134
  let a := markIf B.has_right (some ((nx : ℤ) - 1)) none nx a                        -- 135
  let a := markIf B.wall (some (((nx : ℤ) - 1) / 2))
              (some (((ny : ℤ) * nx - 1) / 2)) nx a                                  -- 136
  let a := markIf B.two_walls (some (((nx : ℤ) - 1) / 4))
              (some (((ny : ℤ) * nx - 1) / 2)) nx a                                  -- 138
  let a := markIf B.two_walls
              (some (((ny : ℤ) / 2) * nx + (3 * ((nx : ℤ) - 1)) / 4)) none nx a      -- 139
  let a := markIf B.silo_left (some 1) (some (((ny : ℤ) / 2 - 3) * nx)) nx a         -- 141
  let a := markIf B.silo_left (some (((ny : ℤ) / 2 + 3) * nx + 1)) (some (-1)) nx a  -- 142
  let a := markIf B.box (some (4 * (ny : ℤ) + 4)) (some (8 * ((ny : ℤ) + 1))) nx a   -- 151
  let a := markIf B.box (some (4 * (ny : ℤ) + 8)) (some (8 * ((ny : ℤ) + 2))) nx a   -- 152
  a

/-- grid.py:130-154, the writes to `boundary_h` in program order. -/
def boundaryH (B : BP K) (nx ny : ℕ) : Fin (ny * nx) → Bool :=
  let a : Fin (ny * nx) → Bool := fun _ => false
  let a := markIf B.has_bottom none (some nx) 1 a                                    -- 131
  let a := markIf B.has_top (some (((ny : ℤ) - 1) * nx)) none 1 a                    -- 133
  let a := markIf B.silo_bottom none (some ((nx : ℤ) / 2 - 2)) 1 a                   -- 144
  let a := markIf B.silo_bottom (some ((nx : ℤ) / 2 + 3)) none 1 a                   -- 145
  let a := markIf B.box (some (4 * (ny : ℤ) + 4)) (some (4 * (ny : ℤ) + 8 + 1)) 1 a  -- 153
  let a := markIf B.box (some (8 * (ny : ℤ) + 4)) (some (8 * (ny : ℤ) + 8 + 1)) 1 a  -- 154
  a

/-- grid.py:156-158 `boundary_conveyor[2:nx-2] = 1`. -/
def boundaryConveyor (nx ny : ℕ) : Fin (ny * nx) → Bool :=
  setSlice (fun _ => false) (some 2) (some ((nx : ℤ) - 2)) 1 true

/-- grid.py:163-170: `weighting` and `V`. -/
def weighting (B : BP K) (nx ny : ℕ) : Fin (ny * nx) → K :=
  let w : Fin (ny * nx) → K := fun _ => 1
  let w := mapSlice w none (some nx) 1 (· / 2)                              -- bottom
  let w := mapSlice w (some (((ny : ℤ) - 1) * nx)) none 1 (· / 2)           -- top
  if B.cyclic_lr then w
  else
    let w := mapSlice w none none nx (· / 2)                                -- left
    mapSlice w (some ((nx : ℤ) - 1)) none nx (· / 2)                        -- right

def nodeVolume (P : GP K) (B : BP K) : Fin P.N → K :=
  fun n => weighting B P.nx P.ny n * gridDx P * gridDy P * P.thickness

/-- grid.py:172-207, `Grid.wipe`.  `phim`,`phi` exist only with `segregate_grid`; keeping them
(as zeros) otherwise is harmless because nothing reads them then. -/
def Grid.wipe {N ns : ℕ} (G : Grid K N ns) : Grid K N ns :=
  { G with
    fi := fun _ => 0, fe := fun _ => 0, m := fun _ => 0, q := fun _ => 0
    q_dot := fun _ => 0, ext_f := fun _ => 0
    vis := fun _ _ => .fin 0
    s_bar := fun _ => 0, dphi := fun _ _ => 0
    pk := fun _ => .fin 0, dpk := fun _ => 0, pkm := fun _ => 0
    grad_pk := fun _ _ => 0
    phim := fun _ _ => 0, phi := fun _ _ => 0 }

/-- grid.py:77-112, `Grid.__init__`: raises IndexError at `self.x[1]`/`self.y[1]` for fewer than
two nodes in a direction.  The fields of `wipe` do not exist before the first `wipe`; they are
created as zeros here. -/
def mkGrid (P : GP K) (B : BP K) : Res (Grid K P.N P.ns) :=
  if P.nx < 2 ∨ P.ny < 2 then .error .index
  else .ok <| Grid.wipe
    { dx := gridDx P, dy := gridDy P, X := gridX P, Y := gridY P
      boundary_v := boundaryV B P.nx P.ny
      boundary_h := boundaryH B P.nx P.ny
      boundary_tot := fun n => boundaryV B P.nx P.ny n || boundaryH B P.nx P.ny n   -- 161
      boundary_conveyor :=
        if B.conveyor then boundaryConveyor P.nx P.ny else fun _ => false
      V := nodeVolume P B
      fi := fun _ => 0, fe := fun _ => 0, m := fun _ => 0, q := fun _ => 0
      q_dot := fun _ => 0, ext_f := fun _ => 0, vis := fun _ _ => .fin 0
      s_bar := fun _ => 0, dphi := fun _ _ => 0, pk := fun _ => .fin 0
      dpk := fun _ => 0, pkm := fun _ => 0, grad_pk := fun _ _ => 0
      phim := fun _ _ => 0, phi := fun _ _ => 0 }

/-- grid.py:209-213, `Grid.nearby_nodes`. -/
def nearbyNodes (nx : ℕ) (n_star : ℤ) (r : Fin 4) : ℤ :=
  if r = 0 ∨ r = 1 then n_star + (r : ℕ)
  else n_star + nx + 3 - (r : ℕ)

/-- grid.py:215-230, `Grid.N`, shape functions; `x` is the position relative to the reference
node. -/
def shapeN (dx dy : K) (x : Vec K) : Fin 4 → K
  | 0 => (dx - x 0) * (dy - x 1) / (dx * dy)
  | 1 => (x 0) * (dy - x 1) / (dx * dy)
  | 2 => (x 0) * (x 1) / (dx * dy)
  | 3 => (dx - x 0) * (x 1) / (dx * dy)

/-- grid.py:226-229, gradients of the shape functions. -/
def shapeG (dx dy : K) (x : Vec K) : Fin 4 → Vec K
  | 0 => ![-(dy - x 1) / (dx * dy), -(dx - x 0) / (dx * dy), 0 / (dx * dy)]
  | 1 => ![(dy - x 1) / (dx * dy), -x 0 / (dx * dy), 0 / (dx * dy)]
  | 2 => ![x 1 / (dx * dy), x 0 / (dx * dy), 0 / (dx * dy)]
  | 3 => ![-x 1 / (dx * dy), (dx - x 0) / (dx * dy), 0 / (dx * dy)]

omit [Field K] [LinearOrder K] in
theorem nx_pos_of_node {nx ny : ℕ} (i : Fin (ny * nx)) : 0 < nx := by
  rcases Nat.eq_zero_or_pos nx with h | h
  · exact absurd i.isLt (by simp [h])
  · exact h

/-- Column of a node number, `n % nx`. -/
def colF {nx ny : ℕ} (n : Fin (ny * nx)) : Fin nx :=
  ⟨(n : ℕ) % nx, Nat.mod_lt _ (nx_pos_of_node n)⟩

/-- Row of a node number, `n // nx`. -/
def rowF {nx ny : ℕ} (n : Fin (ny * nx)) : Fin ny :=
  ⟨(n : ℕ) / nx, Nat.div_lt_of_lt_mul (lt_of_lt_of_eq n.isLt (Nat.mul_comm _ _))⟩

/-- Number of the node in column `ix`, row `iy` (the table of grid.py:64-74); this is also what
`reshape(ny,nx)` uses. -/
def mkNode {nx ny : ℕ} (ix : Fin nx) (iy : Fin ny) : Fin (ny * nx) :=
  ⟨(iy : ℕ) * nx + ix, by
    have := Nat.mul_le_mul_right nx (Nat.succ_le_of_lt iy.isLt)
    rw [Nat.succ_mul] at this
    have := ix.isLt
    omega⟩

/-- The node in the last column of the row of `i` (the entry of `param[nx-1::nx]` that numpy
pairs with the row's entry of `param[::nx]`). -/
def rightOf {nx ny : ℕ} (i : Fin (ny * nx)) : Fin (ny * nx) :=
  ⟨(i : ℕ) / nx * nx + (nx - 1), by
    have h := nx_pos_of_node i
    have hr : (i : ℕ) / nx < ny := Nat.div_lt_of_lt_mul (lt_of_lt_of_eq i.isLt (Nat.mul_comm _ _))
    have := Nat.mul_le_mul_right nx (Nat.succ_le_of_lt hr)
    rw [Nat.succ_mul] at this
    omega⟩

/-- The node in the first column of the row of `i`. -/
def leftOf {nx ny : ℕ} (i : Fin (ny * nx)) : Fin (ny * nx) :=
  ⟨(i : ℕ) / nx * nx, lt_of_le_of_lt (Nat.div_mul_le_self _ _) i.isLt⟩

/-- grid.py:232-240, `Grid.make_cyclic` for one field: `temp = a[::nx].copy()`,
`a[::nx] += a[nx-1::nx]`, `a[nx-1::nx] += temp`. -/
def makeCyclic {nx ny : ℕ} {α : Type} [Add α] (a : Fin (ny * nx) → α) : Fin (ny * nx) → α :=
  let a1 : Fin (ny * nx) → α :=
    fun i => if (i : ℕ) % nx = 0 then a i + a (rightOf i) else a i
  fun i => if (i : ℕ) % nx = nx - 1 then a1 i + a (leftOf i) else a1 i

/-- grid.py:232-240 applied to the labels used by the code (`MPM.py:27,38`,
`mplist.py:164,176`). -/
def Grid.makeCyclicMQ {nx ny ns : ℕ} (G : Grid K (ny * nx) ns) : Grid K (ny * nx) ns :=
  { G with m := makeCyclic G.m, q := makeCyclic G.q }

def Grid.makeCyclicForces {nx ny ns : ℕ} (G : Grid K (ny * nx) ns) : Grid K (ny * nx) ns :=
  { G with fi := makeCyclic G.fi, fe := makeCyclic G.fe }

def Grid.makeCyclicVis {nx ny ns : ℕ} (l : List Vis) (G : Grid K (ny * nx) ns) :
    Grid K (ny * nx) ns :=
  { G with vis := fun v => if v ∈ l then makeCyclic (G.vis v) else G.vis v }

/-- Row tests of the slices `[:nx]`, `[(ny-1)*nx:]` and column tests of `[::nx]`, `[nx-1::nx]`. -/
def inBottom (nx ny : ℕ) (i : Fin (ny * nx)) : Bool :=
  inSlice (ny * nx) none (some nx) 1 i
def inTop (nx ny : ℕ) (i : Fin (ny * nx)) : Bool :=
  inSlice (ny * nx) (some (((ny : ℤ) - 1) * nx)) none 1 i
def inLeft (nx ny : ℕ) (i : Fin (ny * nx)) : Bool :=
  inSlice (ny * nx) none none nx i
def inRight (nx ny : ℕ) (i : Fin (ny * nx)) : Bool :=
  inSlice (ny * nx) (some ((nx : ℤ) - 1)) none nx i

/-- grid.py:242-255, `Grid.BCs`.  `rho0` is `P.S[0].rho`; `anisoAt0` is
`P.mode == 'anisotropy' and P.t == 0`, in which case the float index `nx*ny/2` raises
IndexError.  A zero density or spacing would make the forces non-finite. -/
def Grid.BCs {nx ny ns : ℕ} (B : BP K) (q_v q_h rho0 : K) (anisoAt0 : Bool)
    (G : Grid K (ny * nx) ns) : Res (Grid K (ny * nx) ns) :=
  if (B.vertical_force ∧ (rho0 = 0 ∨ G.dy = 0)) ∨ (B.horizontal_force ∧ (rho0 = 0 ∨ G.dx = 0)) then
    .error .nonFinite
  else
  let G :=
    if B.vertical_force then
      let e : Fin (ny * nx) → Vec K := fun i =>
        Function.update (G.ext_f i) 1
          (let a := G.ext_f i 1
           let a := if inBottom nx ny i then a + q_v else a
           if inTop nx ny i then a - q_v else a)
      { G with
        ext_f := e
        fe := fun i => Function.update (G.fe i) 1
                (G.fe i 1 + 2 * e i 1 * G.m i / rho0 / G.dy) }
    else G
  let G :=
    if B.horizontal_force then
      let e : Fin (ny * nx) → Vec K := fun i =>
        Function.update (G.ext_f i) 0
          (let a := G.ext_f i 0
           let a := if inLeft nx ny i then a + q_h else a
           if inRight nx ny i then a - q_h else a)
      { G with
        ext_f := e
        fe := fun i => Function.update (G.fe i) 0
                (G.fe i 0 + 2 * e i 0 * G.m i / rho0 / G.dx) }
    else G
  if anisoAt0 then .error .index else .ok G

/-- numpy `sign`. -/
def sgn (x : K) : K := if 0 < x then 1 else if x < 0 then -1 else 0

/-- `x*(1.-mask)` for a boolean mask. -/
def maskOff (x : K) (b : Bool) : K := x * (1 - (if b then 1 else 0))

/-- grid.py:268-288 for a single node `i`: the effect of roughness on `q_dot`.  Because of the
chained assignment `bottom = self.boundary_h[:P.G.nx] = 1` the names `bottom`, `top`, `left`,
`right` are all the integer `1`, so lines 279-282 only touch node number 1.
`bh`,`bv` are the masks after the slice assignments of lines 270-273. -/
def roughNode (mu : K) (bh bv : Bool) (isNode1 : Bool) (qd : Vec K) : Vec K :=
  let Ff_h := (if bh then 1 else 0) * min |qd 0| (mu * |qd 1|)                       -- 275
  let Ff_v := (if bv then 1 else 0) * min |qd 1| (mu * |qd 0|)                       -- 276
  let Ff_v := if isNode1 then Ff_v * (if qd 0 < 0 then 1 else 0) else Ff_v           -- 279
  let Ff_v := if isNode1 then Ff_v * (if 0 < qd 0 then 1 else 0) else Ff_v           -- 280
  let Ff_h := if isNode1 then Ff_h * (if 0 < qd 1 then 1 else 0) else Ff_h           -- 281
  let Ff_h := if isNode1 then Ff_h * (if qd 1 < 0 then 1 else 0) else Ff_h           -- 282
  ![qd 0 - sgn (qd 0) * Ff_h, qd 1 - sgn (qd 1) * Ff_v, qd 2]                        -- 284,285

/-- grid.py:257-296, `Grid.update_momentum`.  `v_0` is the conveyor speed `P.v_0`, which the
input file must define when `conveyor` is set. -/
def Grid.updateMomentum {nx ny ns : ℕ} (B : BP K) (damping : Bool) (dt v_0 : K)
    (G : Grid K (ny * nx) ns) : Grid K (ny * nx) ns :=
  let qd : Fin (ny * nx) → Vec K := fun i => G.fe i - G.fi i                          -- 264
  let qd : Fin (ny * nx) → Vec K :=
    if damping then fun i => (7 / 10 : K) • qd i else qd                              -- 265
  let friction : Bool := B.roughness && decide (B.wall_mu ≠ 0)
  let bh : Fin (ny * nx) → Bool :=
    if friction then fun i => G.boundary_h i || inBottom nx ny i || inTop nx ny i     -- 270,271
    else G.boundary_h
  let bv : Fin (ny * nx) → Bool :=
    if friction then fun i => G.boundary_v i || inLeft nx ny i || inRight nx ny i     -- 272,273
    else G.boundary_v
  let qd : Fin (ny * nx) → Vec K :=
    if B.roughness then
      if B.wall_mu ≠ 0 then
        fun i => roughNode B.wall_mu (bh i) (bv i) (decide ((i : ℕ) = 1)) (qd i)
      else fun i => ![maskOff (qd i 0) (bh i), maskOff (qd i 1) (bv i), qd i 2]       -- 287,288
    else qd
  let qd : Fin (ny * nx) → Vec K :=
    fun i => ![maskOff (qd i 0) (bv i), maskOff (qd i 1) (bh i), qd i 2]              -- 291,292
  let q : Fin (ny * nx) → Vec K := fun i => G.q i + dt • qd i                         -- 294
  let q : Fin (ny * nx) → Vec K :=
    if B.conveyor then
      fun i => if G.boundary_conveyor i then Function.update (q i) 0 (v_0 * G.m i) else q i
    else q                                                                            -- 296
  { G with q_dot := qd, q := q, boundary_h := bh, boundary_v := bv }

end
end Mpm

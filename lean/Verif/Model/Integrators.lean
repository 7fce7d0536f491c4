import Verif.Model.Params

/-!
# Model of `integrators.py` and of the finite difference part of `grid.py`

A 2D array `reshape(ny,nx,ns)` is addressed through `mkNode`; the `ax=0`/`ax=1` versions of the
schemes work on rows/columns of nodes.  The transposes and reshapes of the Python code only
arrange this and do not appear.
-/

namespace Mpm

section
variable {K : Type} [Field K] [LinearOrder K]

/-- integrators.py:19-30, `div0`. -/
def div0 (a b : XF K) : XF K :=
  if (a / b).isFinite then a / b else .fin 0

/-- integrators.py:32-40, `minmod`. -/
def minmod (a b : K) : K := 1 / 2 * (sgn a + sgn b) * min |a| |b|

/-- integrators.py:42-50, `maxmod`. -/
def maxmod (a b : K) : K := 1 / 2 * (sgn a + sgn b) * max |a| |b|

/-- integrators.py:52-60, `superbee`. -/
def superbee (a b : K) : K := maxmod (minmod a (2 * b)) (minmod (2 * a) b)

/-- integrators.py:62-71, `limiter`. -/
def limiter (a b : K) : K := superbee a b

/-- integrators.py:166-168,171-173, `pad_KT` along one grid line: two copies of the first and
of the last entry. -/
def padKT {n : ℕ} {α : Type} [NeZero n] (u : Fin n → α) (i : Fin (n + 4)) : α :=
  u ⟨min (i.val - 2) (n - 1), by have := NeZero.pos n; omega⟩

/-- integrators.py:216-220: padding of the driving gradient along a row with cyclic
boundaries: the two loop passes give `[g_0, g_{n-1}, g_0, ..., g_{n-1}, g_0, g_{n-1}]`. -/
def padCyc {n : ℕ} {α : Type} [NeZero n] (u : Fin n → α) (i : Fin (n + 4)) : α :=
  if i.val = 0 ∨ i.val = n + 2 then u ⟨0, NeZero.pos n⟩
  else if i.val = 1 ∨ i.val = n + 3 then u ⟨n - 1, by have := NeZero.pos n; omega⟩
  else u ⟨min (i.val - 2) (n - 1), by have := NeZero.pos n; omega⟩

/-- integrators.py:205: `sum(phi*(1./S),axis=2)`. -/
def invHarmonic {ns : ℕ} (s phi : Fin ns → K) : XF K :=
  Fin.foldl ns (fun acc i => acc + .fin (phi i) * (.fin 1 / .fin (s i))) (.fin 0)

/-- integrators.py:247-249: segregation velocity at one (padded) node for one size. -/
def ktFlux {ns : ℕ} (c : K) (s phi : Fin ns → K) (j : Fin ns) (g : K) (bnd : Bool) : XF K :=
  if bnd then .fin 0
  else .fin c * (.fin 1 / (invHarmonic s phi * .fin (s j)) - .fin 1) * .fin g

/-- integrators.py:152-157, `BC` along one line of `n+4` entries. -/
def ktBC {n : ℕ} (c : Fin (n + 4) → K) (v : Fin (n + 4) → XF K) : Fin (n + 4) → XF K :=
  let i0 : Fin (n + 4) := ⟨0, by omega⟩
  let i1 : Fin (n + 4) := ⟨1, by omega⟩
  let i2 : Fin (n + 4) := ⟨2, by omega⟩
  let m1 : Fin (n + 4) := ⟨n + 3, by omega⟩
  let m2 : Fin (n + 4) := ⟨n + 2, by omega⟩
  let m3 : Fin (n + 4) := ⟨n + 1, by omega⟩
  let v := Function.update v i1 (-div0 (.fin (c i2) * v i2) (.fin (c i1)))
  let v := Function.update v i0 (-div0 (.fin (c i1) * v i1) (.fin (c i0)))
  let v := Function.update v m2 (-div0 (.fin (c m3) * v m3) (.fin (c m2)))
  Function.update v m1 (-div0 (.fin (c m2) * v m2) (.fin (c m1)))

/-- integrators.py:181-191: the increment `gc` along one padded line.  `roll(a,1)[i]` is
`a[i-1]` and `roll(a,-1)[i]` is `a[i+1]`, both modulo the length. -/
def ktCore {n : ℕ} (dt dx : K) (C : Fin (n + 4) → K) (V : Fin (n + 4) → XF K)
    (i : Fin (n + 4)) : XF K :=
  let cx : Fin (n + 4) → K := fun i =>
    limiter ((C i - C (i - 1)) / dx) ((C (i + 1) - C i) / dx)                        -- 182
  let cpr := C (i - 1) - cx (i - 1) * dx / 2                                         -- 183
  let cpl := C i + cx i * dx / 2                                                     -- 184
  let cmr := C i - cx i * dx / 2                                                     -- 185
  let cml := C (i + 1) + cx (i + 1) * dx / 2                                         -- 186
  let vp := (V i + V (i - 1)) / .fin 2                                               -- 187
  let vm := (V i + V (i + 1)) / .fin 2                                               -- 188
  let ap := (V i).abs.max (V (i - 1)).abs                                            -- 189
  let am := (V i).abs.max (V (i + 1)).abs                                            -- 190
  .fin dt * (vp * .fin (cpr + cpl) - vm * .fin (cmr + cml) + ap * .fin (cpr - cpl)
    - am * .fin (cmr - cml)) / .fin (2 * dx)                                         -- 191

/-- integrators.py:176-194, `KT` along one line of `n` nodes, for size `j`.
`phi`, `g`, `bnd` are the nodal fractions, driving gradient and boundary/empty flags along the
line. -/
def ktLine {n ns : ℕ} [NeZero n] (cyc : Bool) (c dt dx : K) (s : Fin ns → K)
    (phi : Fin n → Fin ns → K) (g : Fin n → K) (bnd : Fin n → Bool) (j : Fin ns)
    (k : Fin n) : XF K :=
  let C : Fin (n + 4) → K := padKT fun i => phi i j
  let gp : Fin (n + 4) → K := if cyc then padCyc g else padKT g
  let V0 : Fin (n + 4) → XF K := fun i => ktFlux c s (padKT phi i) j (gp i) (padKT bnd i)
  ktCore dt dx C (ktBC C V0) ⟨k.val + 2, by omega⟩

/-- numpy `gradient` along one line with spacing `h`, edge order 1: central differences inside,
one-sided differences at both ends. -/
def npGradient {n : ℕ} (h : K) (f : Fin n → XF K) (i : Fin n) : XF K :=
  let lo : Fin n := ⟨i.val - 1, by omega⟩
  let hi : Fin n := ⟨min (i.val + 1) (n - 1), by omega⟩
  (f hi - f lo) / .fin (((hi.val - lo.val : ℕ) : K) * h)

variable {nx ny ns : ℕ}

/-- integrators.py:201,202: boundary nodes and empty nodes. -/
def ktBoundary {N : ℕ} (M_tol : K) (G : Grid K N ns) (n : Fin N) : Bool :=
  G.boundary_tot n || decide (G.m n < M_tol)

/-- integrators.py:176-194 with `ax=0`. -/
def ktX (P : Par K) (dt : K) (s : Fin ns → K) (G : Grid K (ny * nx) ns)
    (n : Fin (ny * nx)) (j : Fin ns) : XF K :=
  haveI : NeZero nx := ⟨(nx_pos_of_node n).ne'⟩
  ktLine P.B.cyclic_lr P.c dt P.G.dx s (fun ix => G.phi (mkNode ix (rowF n)))
    (fun ix => G.grad_pk (mkNode ix (rowF n)) 0)
    (fun ix => ktBoundary P.M_tol G (mkNode ix (rowF n))) j (colF n)

theorem ny_pos_of_node {nx ny : ℕ} (i : Fin (ny * nx)) : 0 < ny := by
  rcases Nat.eq_zero_or_pos ny with h | h
  · exact absurd i.isLt (by simp [h])
  · exact h

/-- integrators.py:176-194 with `ax=1`. -/
def ktY (P : Par K) (dt : K) (s : Fin ns → K) (G : Grid K (ny * nx) ns)
    (n : Fin (ny * nx)) (j : Fin ns) : XF K :=
  haveI : NeZero ny := ⟨(ny_pos_of_node n).ne'⟩
  ktLine false P.c dt P.G.dy s (fun iy => G.phi (mkNode (colF n) iy))
    (fun iy => G.grad_pk (mkNode (colF n) iy) 1)
    (fun iy => ktBoundary P.M_tol G (mkNode (colF n) iy)) j (rowF n)

/-- `x**1.5` for a float `x`. -/
def pow15 (ops : Ops K) (x : K) : XF K := if x < 0 then .nan else .fin (ops.pow x (3 / 2))

/-- integrators.py:265: the diffusivity at a node. -/
def diffusivity (ops : Ops K) (l rho_s s_bar : K) (gammadot pressure : XF K) (m : K) : XF K :=
  .fin l * pow15 ops s_bar * XF.sqrt ops.sqrt gammadot.abs *
    XF.sqrt ops.sqrt (pressure / .fin m).abs / XF.sqrt ops.sqrt (.fin rho_s)

/-- integrators.py:263-278, `Diffusion`.  `rho_s` is `P.S[0].rho_s`. -/
def diffusionInc (P : Par K) (dt rho_s : K) (G : Grid K (ny * nx) ns)
    (n : Fin (ny * nx)) (j : Fin ns) : XF K :=
  let Dphi : Fin (ny * nx) → XF K := fun k =>
    diffusivity P.ops P.l rho_s (G.s_bar k) (G.vis .gammadot k) (G.vis .pressure k) (G.m k) *
      .fin (G.phi k j)
  let open_ : Fin (ny * nx) → XF K := fun k => if G.boundary_tot k then .fin 0 else .fin 1
  let dx : Fin (ny * nx) → XF K := fun k =>
    npGradient P.G.dx (fun ix => Dphi (mkNode ix (rowF k))) (colF k) * open_ k
  let dy : Fin (ny * nx) → XF K := fun k =>
    npGradient P.G.dy (fun iy => Dphi (mkNode (colF k) iy)) (rowF k) * open_ k
  .fin dt * (npGradient P.G.dx (fun ix => dx (mkNode ix (rowF n))) (colF n)
    + npGradient P.G.dy (fun iy => dy (mkNode (colF n) iy)) (rowF n))

/-- integrators.py:280-283, `increment_grainsize`, followed by `nan_to_num`
(grid.py:373,374). -/
def phiIncrement (P : Par K) (dt rho_s : K) (s : Fin ns → K) (G : Grid K (ny * nx) ns)
    (n : Fin (ny * nx)) (j : Fin ns) : K :=
  ((ktX P dt s G n j + ktY P dt s G n j) + diffusionInc P dt rho_s G n j).nanToNum P.ops.big

/-- `numpy.gradient` of a `numpy.ma` masked array along one line, as the data that remain when the
mask is dropped (`array([...])`, grid.py:359).  Where one of the two operands of `f[hi] - f[lo]` is
masked, `numpy.ma` puts the data of the first operand in place of the result, and the division by
the spacing does the same once more. -/
def maGradient {n : ℕ} (h : K) (mask : Fin n → Bool) (f : Fin n → XF K) (i : Fin n) : XF K :=
  if mask ⟨min (i.val + 1) (n - 1), by omega⟩ || mask ⟨i.val - 1, by omega⟩ then
    f ⟨min (i.val + 1) (n - 1), by omega⟩
  else npGradient h f i

/-- astropy's `interpolate_replace_nans` on a masked array of nodal values: every entry has a mask
and the data behind it, before and after.  What the library does is a parameter of the model. -/
abbrev Interp (K : Type) (N : ℕ) := (Fin N → Bool × XF K) → Fin N → Bool × XF K

/-- grid.py:321-362, `calculate_gradient` with `smooth=False`: mask empty nodes, interpolate,
`nan_to_num` (which also acts on the data behind the mask), `numpy.gradient`.  All results are
finite when the spacings are non-zero. -/
def calcGradient (interp : Interp K (ny * nx)) (big M_tol : K) (G : Grid K (ny * nx) ns)
    (Z : Fin (ny * nx) → XF K) (n : Fin (ny * nx)) : Vec (XF K) :=
  let Zm := interp fun k => (decide (G.m k < M_tol), Z k)
  let Zi : Fin (ny * nx) → XF K := fun k => .fin ((Zm k).2.nanToNum big)
  ![maGradient G.dx (fun ix => (Zm (mkNode ix (rowF n))).1)
      (fun ix => Zi (mkNode ix (rowF n))) (colF n),
    maGradient G.dy (fun iy => (Zm (mkNode (colF n) iy)).1)
      (fun iy => Zi (mkNode (colF n) iy)) (rowF n),
    .fin 0]

/-- grid.py:298-310, `calculate_gammadot`. -/
def Grid.calcGammadot (interp : Interp K (ny * nx)) (big M_tol : K) (G : Grid K (ny * nx) ns) :
    Grid K (ny * nx) ns :=
  let u : Fin (ny * nx) → XF K := fun n => .fin (G.q n 0) / .fin (G.m n)
  let v : Fin (ny * nx) → XF K := fun n => .fin (G.q n 1) / .fin (G.m n)
  { G with vis := Function.update G.vis .gammadot fun n =>
      calcGradient interp big M_tol G u n 1 + calcGradient interp big M_tol G v n 0 }

/-- grid.py:376,414,416, `update_pk`.  `rho_s` is `P.S[0].rho_s`.  The gradient is finite on a
grid with non-zero spacings, so taking the finite part loses nothing. -/
def Grid.updatePk (interp : Interp K (ny * nx)) (ops : Ops K) (M_tol rho_s : K)
    (G : Grid K (ny * nx) ns) : Grid K (ny * nx) ns :=
  let pk : Fin (ny * nx) → XF K := fun n =>
    (G.vis .gammadot n).abs * .fin (G.s_bar n) *
      XF.sqrt ops.sqrt (.fin rho_s * (G.vis .pressure n / .fin (G.m n)).abs)
  { G with
    pk := pk
    grad_pk := fun n i => (calcGradient interp ops.big M_tol G pk n i).nanToNum ops.big }

end
end Mpm

import Verif.Model.Integrators

/-!
# Model of the unused parts of `integrators.py` and `grid.py`

The first advection scheme of `integrators.py` (`NT`, lines 75-150), `normalise_phi_increment`
(lines 285-295) and the plotting edges of `grid.py` (lines 97-103).  As in `Model/Integrators.lean`
the schemes are written for one line of nodes, and the transposes and reshapes do not appear.

The intermediate values of `NT` may be infinite or NaN, so its limiters work on floats.
-/

namespace Mpm

section
variable {K : Type} [Field K] [LinearOrder K]

/-- numpy `sign`. -/
def XF.sgn : XF K → XF K
  | .fin x => .fin (Mpm.sgn x)
  | .pinf => .fin 1
  | .ninf => .fin (-1)
  | .nan => .nan

/-- integrators.py:32-40, `minmod` on floats. -/
def minmodX (a b : XF K) : XF K := .fin (1 / 2) * (a.sgn + b.sgn) * a.abs.min b.abs

/-- integrators.py:42-50, `maxmod` on floats. -/
def maxmodX (a b : XF K) : XF K := .fin (1 / 2) * (a.sgn + b.sgn) * a.abs.max b.abs

/-- integrators.py:52-71, `limiter`, which is `superbee`, on floats. -/
def limiterX (a b : XF K) : XF K := maxmodX (minmodX a (.fin 2 * b)) (minmodX (.fin 2 * a) b)

/-- integrators.py:106,107,118,119 with `pad = 1`: one copy of the first and of the last entry. -/
def padOne {n : ℕ} {α : Type} [NeZero n] (u : Fin n → α) (i : Fin (n + 2)) : α :=
  u ⟨min (i.val - 1) (n - 1), by have := NeZero.pos n; omega⟩

/-- integrators.py:103: `sum(phi*(1./S),axis=2)`, for fractions that may not be finite. -/
def invHarmonicX {ns : ℕ} (s : Fin ns → K) (phi : Fin ns → XF K) : XF K :=
  Fin.foldl ns (fun acc i => acc + phi i * (.fin 1 / .fin (s i))) (.fin 0)

/-- integrators.py:91-130, `flux` at one padded node for size `j`. -/
def ntFlux {ns : ℕ} (c : K) (s : Fin ns → K) (phi : Fin ns → XF K) (j : Fin ns) (g : K)
    (bnd : Bool) : XF K :=
  if bnd then .fin 0                                                                 -- 129
  else .fin c * (.fin 1 - .fin 1 / (invHarmonicX s phi * .fin (s j))) * .fin g * phi j -- 127,128

/-- integrators.py:133,75-88: the padded fractions `U`. -/
def ntU {n ns : ℕ} [NeZero n] (phi : Fin n → Fin ns → K) (i : Fin (n + 4)) (j : Fin ns) : K :=
  padKT phi i j

/-- integrators.py:135, `U_prime`. -/
def ntUPrime {n ns : ℕ} [NeZero n] (phi : Fin n → Fin ns → K) (i : Fin (n + 2)) (j : Fin ns) : K :=
  limiter (ntU phi ⟨i.val + 2, by omega⟩ j - ntU phi ⟨i.val + 1, by omega⟩ j)
    (ntU phi ⟨i.val + 1, by omega⟩ j - ntU phi ⟨i.val, by omega⟩ j)

/-- integrators.py:136, `F`. -/
def ntF {n ns : ℕ} [NeZero n] (c : K) (s : Fin ns → K) (phi : Fin n → Fin ns → K) (g : Fin n → K)
    (bnd : Fin n → Bool) (i : Fin (n + 4)) (j : Fin ns) : XF K :=
  ntFlux c s (fun k => .fin (ntU phi i k)) j (padKT g i) (padKT bnd i)

/-- integrators.py:139,137, `u_staggered`. -/
def ntStaggered {n ns : ℕ} [NeZero n] (c dt dx : K) (s : Fin ns → K) (phi : Fin n → Fin ns → K)
    (g : Fin n → K) (bnd : Fin n → Bool) (i : Fin (n + 2)) (j : Fin ns) : XF K :=
  let F := fun i => ntF c s phi g bnd i j
  let F_prime := limiterX (F ⟨i.val + 2, by omega⟩ - F ⟨i.val + 1, by omega⟩)
    (F ⟨i.val + 1, by omega⟩ - F ⟨i.val, by omega⟩)                                  -- 137
  .fin (ntU phi ⟨i.val + 1, by omega⟩ j) + .fin dt * F_prime / .fin (2 * dx)         -- 139

/-- integrators.py:140, `F_staggered`. -/
def ntFStaggered {n ns : ℕ} [NeZero n] (c dt dx : K) (s : Fin ns → K) (phi : Fin n → Fin ns → K)
    (g : Fin n → K) (bnd : Fin n → Bool) (i : Fin (n + 2)) (j : Fin ns) : XF K :=
  ntFlux c s (ntStaggered c dt dx s phi g bnd i) j (padOne g i) (padOne bnd i)

/-- integrators.py:142-145, `u_next_staggered`. -/
def ntNext {n ns : ℕ} [NeZero n] (c dt dx : K) (s : Fin ns → K) (phi : Fin n → Fin ns → K)
    (g : Fin n → K) (bnd : Fin n → Bool) (i : Fin (n + 1)) (j : Fin ns) : XF K :=
  .fin (1 / 2 * (ntU phi ⟨i.val + 1, by omega⟩ j + ntU phi ⟨i.val + 2, by omega⟩ j))
    + .fin (1 / 8 * (ntUPrime phi ⟨i.val, by omega⟩ j - ntUPrime phi ⟨i.val + 1, by omega⟩ j))
    + .fin dt * (ntFStaggered c dt dx s phi g bnd ⟨i.val + 1, by omega⟩ j
        - ntFStaggered c dt dx s phi g bnd ⟨i.val, by omega⟩ j) / .fin dx

/-- integrators.py:132-150, `NT` along one line of `n` nodes, for size `j`. -/
def ntLine {n ns : ℕ} [NeZero n] (c dt dx : K) (s : Fin ns → K) (phi : Fin n → Fin ns → K)
    (g : Fin n → K) (bnd : Fin n → Bool) (j : Fin ns) (k : Fin n) : XF K :=
  (ntNext c dt dx s phi g bnd ⟨k.val + 1, by omega⟩ j
      + ntNext c dt dx s phi g bnd ⟨k.val, by omega⟩ j) / .fin 2                     -- 147
    - .fin (phi k j)                                                                 -- 149,150

variable {nx ny ns : ℕ}

/-- integrators.py:132-150 with `ax=0`. -/
def ntX (P : Par K) (dt : K) (s : Fin ns → K) (G : Grid K (ny * nx) ns)
    (n : Fin (ny * nx)) (j : Fin ns) : XF K :=
  haveI : NeZero nx := ⟨(nx_pos_of_node n).ne'⟩
  ntLine P.c dt P.G.dx s (fun ix => G.phi (mkNode ix (rowF n)))
    (fun ix => G.grad_pk (mkNode ix (rowF n)) 0)
    (fun ix => ktBoundary P.M_tol G (mkNode ix (rowF n))) j (colF n)

/-- integrators.py:132-150 with `ax=1`. -/
def ntY (P : Par K) (dt : K) (s : Fin ns → K) (G : Grid K (ny * nx) ns)
    (n : Fin (ny * nx)) (j : Fin ns) : XF K :=
  haveI : NeZero ny := ⟨(ny_pos_of_node n).ne'⟩
  ntLine P.c dt P.G.dy s (fun iy => G.phi (mkNode (colF n) iy))
    (fun iy => G.grad_pk (mkNode (colF n) iy) 1)
    (fun iy => ktBoundary P.M_tol G (mkNode (colF n) iy)) j (rowF n)

/-- `sum` of a masked array: entries at which `d` is not finite are left out. -/
def validSum {N : ℕ} (d : Fin N → XF K) (f : Fin N → K → K) : K :=
  Fin.foldl N (fun acc k => match d k with
    | .fin x => acc + f k x
    | _ => acc) 0

/-- integrators.py:290,291: `phi[phi<0] = 0.0`, `phi[phi>1] = 1.0`. -/
def clip01 (x : K) : K :=
  if 1 < (if x < 0 then 0 else x) then 1 else (if x < 0 then 0 else x)

/-- integrators.py:285-295, `normalise_phi_increment`, for one size (the loop over `i` treats every
size on its own).  `ma.masked_invalid` hides the nodes at which the sum is not finite: they do not
enter the two sums and come out as NaN.  If the clipped sum is zero then all clipped entries are
zero and `0*(phi_tot/0.)` is NaN. -/
def normaliseInc {N : ℕ} (phi : Fin N → K) (dphi : Fin N → XF K) (n : Fin N) : XF K :=
  let tot := validSum dphi fun k d => phi k + d                                      -- 288,289
  let ctot := validSum dphi fun k d => clip01 (phi k + d)                            -- 290-292
  match dphi n with
  | .fin d => if ctot = 0 then .nan else .fin (clip01 (phi n + d) * (tot / ctot) - phi n) -- 292,293
  | _ => .nan

/-- grid.py:97, `x_plot` (98 with `y_m`, `y_M`, `ny` is the same): `n + 1` entries. -/
def plotEdges (a b : K) (n : ℕ) (i : Fin (n + 1)) : K :=
  let d := linspace a b n 1 - linspace a b n 0
  if i.val = 0 then a - d / 2
  else if i.val = n then b + d / 2
  else (linspace a b n i.val + linspace a b n (i.val - 1)) / 2

/-- grid.py:102, `dx_plot` (103 for `y`). -/
def plotWidths (a b : K) (n : ℕ) (i : Fin n) : K :=
  let d := linspace a b n 1 - linspace a b n 0
  if i.val = 0 ∨ i.val = n - 1 then d / 2 else d

/-- constit.py:20-26, `RK4`, for a stress of any type. -/
def rk4 {D S : Type} [AddCommGroup S] [Module K S] (func : D → S → S) (dstrain : D) (stress : S) : S :=
  let d1 := func dstrain stress
  let d2 := func dstrain (stress + (1 / 2 : K) • d1)
  let d3 := func dstrain (stress + (1 / 2 : K) • d2)
  let d4 := func dstrain (stress + d3)
  (1 / 6 : K) • (d1 + (2 : K) • d2 + (2 : K) • d3 + d4)

end

end Mpm

import Verif.Lemmas.Gradient
import Verif.Lemmas.Grid
import Verif.Props.Volume
import Verif.Props.Segregation

/-!
# C71-C73: nodal gradients and the diffusion of grain sizes
-/

set_option linter.unusedSectionVars false

namespace Mpm
open Spec

namespace Spec
section
variable {K : Type} [Field K] [LinearOrder K] {nx ny ns : ℕ}

/-- The filling of masked entries leaves the numbers that are there alone. -/
def KeepsData {N : ℕ} (interp : Interp K N) : Prop :=
  ∀ Z k z, Z k = (false, .fin z) → interp Z k = (false, .fin z)

/-- Every node on one of the four edges is a wall node. -/
def WalledIn (nx ny : ℕ) (b : Fin (ny * nx) → Bool) : Prop :=
  ∀ k : Fin (ny * nx), (k : ℕ) % nx = 0 ∨ (k : ℕ) % nx = nx - 1 ∨ (k : ℕ) / nx = 0 ∨
    (k : ℕ) / nx = ny - 1 → b k = true

/-- Trapezoid weight of a node: the fraction of a cell that belongs to it. -/
def share (nx ny : ℕ) (k : Fin (ny * nx)) : K :=
  (if (k : ℕ) / nx = 0 ∨ (k : ℕ) / nx = ny - 1 then 1 / 2 else 1) *
    (if (k : ℕ) % nx = 0 ∨ (k : ℕ) % nx = nx - 1 then 1 / 2 else 1)

end
end Spec

section
variable {K : Type} [Field K] [LinearOrder K] [IsStrictOrderedRing K] {nx ny ns : ℕ}

theorem mkNode_self (n : Fin (ny * nx)) : mkNode (colF n) (rowF n) = n :=
  node_ext ((mkNode_row _ _).trans rfl) ((mkNode_col _ _).trans rfl)

theorem calcGradient_fin {interp : Interp K (ny * nx)} {big M_tol : K}
    {G : Grid K (ny * nx) ns} {Z : Fin (ny * nx) → XF K} {z : Fin (ny * nx) → K}
    (hnx : 2 ≤ nx) (hny : 2 ≤ ny) (hdx : G.dx ≠ 0) (hdy : G.dy ≠ 0) (hI : KeepsData interp)
    (hm : ∀ k, M_tol ≤ G.m k) (hZ : ∀ k, Z k = .fin (z k)) (n : Fin (ny * nx)) :
    calcGradient interp big M_tol G Z n =
      ![.fin (dq G.dx (fun ix => z (mkNode ix (rowF n))) (colF n)),
        .fin (dq G.dy (fun iy => z (mkNode (colF n) iy)) (rowF n)), .fin 0] := by
  have hz : ∀ k, interp (fun k => (decide (G.m k < M_tol), Z k)) k = (false, .fin (z k)) := by
    intro k
    refine hI _ k (z k) ?_
    rw [decide_eq_false (not_lt.2 (hm k)), hZ]
  unfold calcGradient maGradient
  simp only [hz, XF.nanToNum, Bool.or_self, Bool.false_eq_true, if_false]
  rw [npGradient_fin hnx hdx (fun _ => rfl), npGradient_fin hny hdy (fun _ => rfl)]

/-- C71.  On a grid without empty nodes the gradient of a linear field is exact at every node,
those on the edges included. -/
theorem c71_linear {P : GP K} (hP : GoodGrid P) {G : Grid K P.N ns} (hG : Geometry P G)
    {interp : Interp K P.N} (hI : KeepsData interp) {big M_tol : K} (hm : ∀ k, M_tol ≤ G.m k)
    {Z : Fin P.N → XF K} {a b c : K} (hZ : ∀ k, Z k = .fin (a + b * G.X k + c * G.Y k))
    (n : Fin P.N) : calcGradient interp big M_tol G Z n = ![.fin b, .fin c, .fin 0] := by
  have hx := (cellX_pos hP).ne'
  have hy := (cellY_pos hP).ne'
  rw [← hG.dx] at hx
  rw [← hG.dy] at hy
  have h := calcGradient_fin (nx := P.nx) (ny := P.ny) (big := big) hP.nx hP.ny hx hy hI hm hZ n
  rw [dq_linear hP.nx hx (a := a + b * P.x_m + c * G.Y n) (b := b),
    dq_linear hP.ny hy (a := a + b * G.X n + c * P.y_m) (b := c)] at h
  · exact h
  · intro i
    rw [hG.X, hG.Y, hG.X, hG.dy, mkNode_row, mkNode_col]
    simp only [nodeY, cellY, colF]
    ring
  · intro i
    rw [hG.X, hG.Y, hG.Y, hG.dx, mkNode_row, mkNode_col]
    simp only [nodeX, cellX, rowF]
    ring

/-- C71.  Inside the grid the gradient is the central difference over two cells. -/
theorem c71_central {P : GP K} (hP : GoodGrid P) {G : Grid K P.N ns} (hG : Geometry P G)
    {interp : Interp K P.N} (hI : KeepsData interp) {big M_tol : K} (hm : ∀ k, M_tol ≤ G.m k)
    {Z : Fin P.N → XF K} {z : Fin P.N → K} (hZ : ∀ k, Z k = .fin (z k)) {w n e s t : Fin P.N}
    (hw : (w : ℕ) + 1 = n) (he : (e : ℕ) = n + 1) (hs : (s : ℕ) + P.nx = n)
    (ht : (t : ℕ) = n + P.nx) (hn0 : (n : ℕ) % P.nx ≠ 0) (hn1 : (n : ℕ) % P.nx + 1 ≠ P.nx) :
    calcGradient interp big M_tol G Z n =
      ![.fin ((z e - z w) / (2 * cellX P)), .fin ((z t - z s) / (2 * cellY P)), .fin 0] := by
  have hx := (cellX_pos hP).ne'
  have hy := (cellY_pos hP).ne'
  rw [← hG.dx] at hx
  rw [← hG.dy] at hy
  have hnx : 0 < P.nx := by have := hP.nx; omega
  have en := node_eq (nx := P.nx) (ny := P.ny) n
  have hrn := node_row_lt (nx := P.nx) (ny := P.ny) n
  have hrt := node_row_lt (nx := P.nx) (ny := P.ny) t
  have r1 : (t : ℕ) / P.nx = (n : ℕ) / P.nx + 1 := by rw [ht, Nat.add_div_right _ hnx]
  have r0 : (n : ℕ) / P.nx = (s : ℕ) / P.nx + 1 := by rw [← hs, Nat.add_div_right _ hnx]
  have c1 : (t : ℕ) % P.nx = (n : ℕ) % P.nx := by rw [ht, Nat.add_mod_right]
  have c0 : (s : ℕ) % P.nx = (n : ℕ) % P.nx := by rw [← hs, Nat.add_mod_right]
  have h := calcGradient_fin (nx := P.nx) (ny := P.ny) (big := big) hP.nx hP.ny hx hy hI hm hZ n
  have hc := node_col_lt (nx := P.nx) (ny := P.ny) n
  have q0 : (rowF n : ℕ) ≠ 0 := by
    change (n : ℕ) / P.nx ≠ 0
    rw [r0]; exact Nat.succ_ne_zero _
  have q1 : (rowF n : ℕ) + 1 ≠ P.ny := by
    change (n : ℕ) / P.nx + 1 ≠ P.ny
    rw [← r1]; exact hrt.ne
  rw [dq_inner (i := colF n) hn0 hn1, dq_inner (i := rowF n) q0 q1, hG.dx, hG.dy] at h
  rw [h]
  have k1 : (mkNode ⟨(colF n : ℕ) + 1, by have := (colF n).isLt; simp only [colF] at *; omega⟩
      (rowF n) : Fin (P.ny * P.nx)) = e := by
    apply Fin.ext
    simp only [mkNode, colF, rowF]
    omega
  have k2 : (mkNode ⟨(colF n : ℕ) - 1, by have := (colF n).isLt; omega⟩ (rowF n) :
      Fin (P.ny * P.nx)) = w := by
    apply Fin.ext
    simp only [mkNode, colF, rowF]
    omega
  have k3 : (mkNode (colF n) ⟨(rowF n : ℕ) + 1, by have := (rowF n).isLt; omega⟩ :
      Fin (P.ny * P.nx)) = t := by
    refine node_ext ((mkNode_row _ _).trans ?_) ((mkNode_col _ _).trans ?_)
    · exact r1.symm
    · exact c1.symm
  have k4 : (mkNode (colF n) ⟨(rowF n : ℕ) - 1, by have := (rowF n).isLt; omega⟩ :
      Fin (P.ny * P.nx)) = s := by
    refine node_ext ((mkNode_row _ _).trans ?_) ((mkNode_col _ _).trans ?_)
    · change (n : ℕ) / P.nx - 1 = _
      rw [r0, Nat.add_sub_cancel]
    · exact c0.symm
  simp only [k1, k2, k3, k4]

/-- C71.  For a velocity field that is linear in space the stored shear rate is the sum of the two
off-diagonal velocity gradients at every node.  It has a sign, and stretching does not count. -/
theorem c71_gammadot {P : GP K} (hP : GoodGrid P) {G : Grid K P.N ns} (hG : Geometry P G)
    {interp : Interp K P.N} (hI : KeepsData interp) {big M_tol : K} (hm : ∀ k, M_tol ≤ G.m k)
    (hm0 : ∀ k, G.m k ≠ 0) {u0 v0 : K} {A : Matrix (Fin 2) (Fin 2) K}
    (hu : ∀ k, G.q k 0 = G.m k * (u0 + A 0 0 * G.X k + A 0 1 * G.Y k))
    (hv : ∀ k, G.q k 1 = G.m k * (v0 + A 1 0 * G.X k + A 1 1 * G.Y k)) (n : Fin P.N) :
    (G.calcGammadot interp big M_tol).vis .gammadot n = .fin (A 0 1 + A 1 0) := by
  have e : ∀ (q : Fin P.N → K) (w0 a b : K), (∀ k, q k = G.m k * (w0 + a * G.X k + b * G.Y k)) →
      ∀ k, (.fin (q k) / .fin (G.m k) : XF K) = .fin (w0 + a * G.X k + b * G.Y k) := by
    intro q w0 a b h k
    rw [h, XF.fin_div _ (hm0 k), mul_div_cancel_left₀ _ (hm0 k)]
  have h1 := c71_linear (big := big) hP hG hI hm (e _ _ _ _ hu) n
  have h2 := c71_linear (big := big) hP hG hI hm (e _ _ _ _ hv) n
  have : (G.calcGammadot interp big M_tol).vis .gammadot n =
      calcGradient interp big M_tol G (fun n => .fin (G.q n 0) / .fin (G.m n)) n 1 +
        calcGradient interp big M_tol G (fun n => .fin (G.q n 1) / .fin (G.m n)) n 0 := by
    unfold Grid.calcGammadot
    simp only [Function.update_self]
  rw [this, h1, h2]
  rfl

/-- C71.  Where shear rate, mean size, density and pressure are the same everywhere, nothing drives
segregation. -/
theorem c71_uniform {P : GP K} (hP : GoodGrid P) {G : Grid K P.N ns} (hG : Geometry P G)
    {interp : Interp K P.N} (hI : KeepsData interp) {ops : Ops K} {M_tol rho_s m g s p : K}
    (hr : 0 ≤ rho_s) (hM : M_tol ≤ m) (hm0 : m ≠ 0) (hm : ∀ k, G.m k = m)
    (hg : ∀ k, G.vis .gammadot k = .fin g) (hs : ∀ k, G.s_bar k = s)
    (hp : ∀ k, G.vis .pressure k = .fin p) (n : Fin P.N) :
    (G.updatePk interp ops M_tol rho_s).grad_pk n = 0 := by
  have h := c71_linear (big := ops.big) hP hG hI (M_tol := M_tol) (fun k => (hm k).symm ▸ hM)
    (Z := (G.updatePk interp ops M_tol rho_s).pk)
    (a := |g| * s * ops.sqrt (rho_s * |p / m|)) (b := 0) (c := 0) (fun k => by
      simp only [Grid.updatePk, hm, hg, hs, hp]
      rw [XF.fin_div _ hm0]
      simp only [XF.abs, XF.fin_mul, XF.sqrt]
      rw [if_neg (not_lt.2 (mul_nonneg hr (abs_nonneg _))), XF.fin_mul]
      congr 1; ring) n
  funext i
  change (calcGradient interp ops.big M_tol G (G.updatePk interp ops M_tol rho_s).pk n i).nanToNum
    ops.big = 0
  rw [h]
  fin_cases i <;> rfl

/-- A grid of `nx` by `ny` nodes with unit spacing, mass and mean size, the given wall nodes, the
given diffusivities and fractions. -/
def Ex.diffG {nx ny : ℕ} (b : Fin (ny * nx) → Bool) (D : Fin (ny * nx) → ℚ)
    (phi : Fin (ny * nx) → Fin 2 → ℚ) : Grid ℚ (ny * nx) 2 :=
  { dx := 1, dy := 1, X := fun k => ((k : ℕ) % nx : ℕ), Y := fun k => ((k : ℕ) / nx : ℕ)
    boundary_v := b, boundary_h := b, boundary_tot := b, boundary_conveyor := fun _ => false
    V := fun _ => 1, fi := fun _ => 0, fe := fun _ => 0, m := fun _ => 1, q := fun _ => 0
    q_dot := fun _ => 0, ext_f := fun _ => 0
    vis := fun v k => match v with
      | .gammadot => .fin 1
      | .pressure => .fin (D k)
      | _ => .fin 0
    s_bar := fun _ => 1, dphi := fun _ _ => 0, pk := fun _ => .fin 0, dpk := fun _ => 0
    pkm := fun _ => 0, grad_pk := fun _ => 0, phim := phi, phi := phi }

/-- What the library does to arrays without unmasked NaNs: nothing. -/
def Ex.asIs {N : ℕ} : Interp ℚ N := fun Z => Z

theorem Ex.asIs_keeps {N : ℕ} : KeepsData (Ex.asIs (N := N)) := fun _ _ _ h => h

/-- A sheared grid; and one that is stretched, whose shear rate is zero. -/
example (a b : ℚ) (n : Fin Ex.gp.N) :
    ∃ G : Grid ℚ Ex.gp.N 2, Geometry Ex.gp G ∧ (∀ k, G.q k 0 = b * G.X k + a * G.Y k) ∧
      (∀ k, G.q k 1 = -b * G.Y k) ∧ (∀ k, G.m k = 1) ∧
      (G.calcGammadot Ex.asIs 1 0).vis .gammadot n = .fin a := by
  obtain ⟨G0, h0⟩ := mkGrid_exists Ex.bp Ex.good
  have hG0 := mkGrid_geometry h0
  let G : Grid ℚ Ex.gp.N 2 :=
    { G0 with m := fun _ => 1, q := fun k => ![b * G0.X k + a * G0.Y k, -b * G0.Y k, 0] }
  have hG : Geometry Ex.gp G := ⟨hG0.dx, hG0.dy, hG0.X, hG0.Y⟩
  refine ⟨G, hG, fun _ => rfl, fun _ => rfl, fun _ => rfl, ?_⟩
  have := c71_gammadot (big := 1) Ex.good hG Ex.asIs_keeps (M_tol := 0) (fun _ => zero_le_one)
    (fun _ => one_ne_zero) (u0 := 0) (v0 := 0) (A := !![b, a; 0, -b])
    (fun k => by simp [G]) (fun k => by simp [G]) n
  simpa using this

/-! ### Diffusion -/

/-- The diffusion increment for finite diffusivities. -/
def diffFin (hx hy dt : K) (open_ f : Fin (ny * nx) → K) (n : Fin (ny * nx)) : K :=
  dt * (dq hx (fun ix => dq hx (fun i => f (mkNode i (rowF n))) ix * open_ (mkNode ix (rowF n)))
      (colF n) +
    dq hy (fun iy => dq hy (fun i => f (mkNode (colF n) i)) iy * open_ (mkNode (colF n) iy)) (rowF n))

/-- The diffusivity of a node. -/
def nodeD (P : Par K) (rho_s : K) (G : Grid K (ny * nx) ns) (k : Fin (ny * nx)) : XF K :=
  diffusivity P.ops P.l rho_s (G.s_bar k) (G.vis .gammadot k) (G.vis .pressure k) (G.m k)

def openOf (b : Fin (ny * nx) → Bool) (k : Fin (ny * nx)) : K := if b k then 0 else 1

theorem diffusionInc_fin {P : Par K} {dt rho_s : K} {G : Grid K (ny * nx) ns} (hnx : 2 ≤ nx)
    (hny : 2 ≤ ny) (hdx : P.G.dx ≠ 0) (hdy : P.G.dy ≠ 0) {D : Fin (ny * nx) → K}
    (hD : ∀ k, nodeD P rho_s G k = .fin (D k)) (n : Fin (ny * nx)) (j : Fin ns) :
    diffusionInc P dt rho_s G n j =
      .fin (diffFin P.G.dx P.G.dy dt (openOf G.boundary_tot) (fun k => D k * G.phi k j) n) := by
  have hf : ∀ k, nodeD P rho_s G k * .fin (G.phi k j) = .fin (D k * G.phi k j) := by
    intro k; rw [hD, XF.fin_mul]
  have ho : ∀ k, (if G.boundary_tot k then .fin 0 else .fin 1 : XF K) =
      .fin (openOf G.boundary_tot k) := by
    intro k; unfold openOf; split <;> rfl
  unfold nodeD at hf
  unfold diffusionInc diffFin
  simp only [ho, rowF_mkNode, colF_mkNode]
  rw [npGradient_fin hnx hdx (g := fun ix => dq P.G.dx (fun i => D (mkNode i (rowF n)) *
      G.phi (mkNode i (rowF n)) j) ix * openOf G.boundary_tot (mkNode ix (rowF n))) (fun ix => by
        rw [npGradient_fin hnx hdx (fun i => hf _), XF.fin_mul]),
    npGradient_fin hny hdy (g := fun iy => dq P.G.dy (fun i => D (mkNode (colF n) i) *
      G.phi (mkNode (colF n) i) j) iy * openOf G.boundary_tot (mkNode (colF n) iy)) (fun iy => by
        rw [npGradient_fin hny hdy (fun i => hf _), XF.fin_mul]), XF.fin_add, XF.fin_mul]

theorem sum_dq' {n : ℕ} (hn : 2 ≤ n) {h : K} (hh : h ≠ 0) (f : Fin n → K)
    (h0 : f ⟨0, by omega⟩ = 0) (h1 : f ⟨n - 1, by omega⟩ = 0) :
    ∑ i : Fin n, endHalf n i * dq h f i = 0 := by
  obtain ⟨m, rfl⟩ : ∃ m, n = m + 2 := ⟨n - 2, by omega⟩
  rw [sum_dq hh f]
  have e1 : f (Fin.last (m + 1)) = 0 := h1
  have e0 : f 0 = 0 := h0
  rw [e1, e0, sub_zero, zero_div]

theorem sum_scaled {ι : Type} [Fintype ι] {w d : ι → K} (h : ∑ i, w i * d i = 0) (a b : K) :
    ∑ i, a * w i * (b * d i) = 0 := by
  rw [← mul_zero (a * b), ← h, Finset.mul_sum]
  exact Finset.sum_congr rfl fun i _ => by ring

theorem sum_scaled' {ι : Type} [Fintype ι] {w d : ι → K} (h : ∑ i, w i * d i = 0) (a b : K) :
    ∑ i, w i * a * (b * d i) = 0 := by
  rw [← mul_zero (a * b), ← h, Finset.mul_sum]
  exact Finset.sum_congr rfl fun i _ => by ring

/-- C72.  In a box with walls on all sides, and with finite diffusivities, diffusion keeps the
total of every size weighted with the nodal share of the volume. -/
theorem c72_weighted {P : Par K} {dt rho_s : K} {G : Grid K (ny * nx) ns} (hnx : 2 ≤ nx)
    (hny : 2 ≤ ny) (hdx : P.G.dx ≠ 0) (hdy : P.G.dy ≠ 0) {D : Fin (ny * nx) → K}
    (hD : ∀ k, diffusivity P.ops P.l rho_s (G.s_bar k) (G.vis .gammadot k) (G.vis .pressure k)
      (G.m k) = .fin (D k)) (hB : WalledIn nx ny G.boundary_tot) (j : Fin ns) :
    ∃ u : Fin (ny * nx) → K, (∀ n, diffusionInc P dt rho_s G n j = .fin (u n)) ∧
      ∑ n, share nx ny n * u n = 0 := by
  refine ⟨_, fun n => diffusionInc_fin hnx hny hdx hdy hD n j, ?_⟩
  have hs : ∀ (i : Fin nx) (k : Fin ny), (share nx ny (mkNode i k) : K) =
      endHalf ny k * endHalf nx i := by
    intro i k
    simp only [share, mkNode_row, mkNode_col, endHalf]
  have wx : ∀ (i : Fin nx) (k : Fin ny), (i : ℕ) = 0 ∨ (i : ℕ) = nx - 1 →
      (openOf G.boundary_tot (mkNode i k) : K) = 0 := by
    intro i k h
    refine if_pos (hB _ ?_)
    rw [mkNode_col]
    rcases h with h | h
    · exact .inl h
    · exact .inr (.inl h)
  have wy : ∀ (i : Fin nx) (k : Fin ny), (k : ℕ) = 0 ∨ (k : ℕ) = ny - 1 →
      (openOf G.boundary_tot (mkNode i k) : K) = 0 := by
    intro i k h
    refine if_pos (hB _ ?_)
    rw [mkNode_row]
    rcases h with h | h
    · exact .inr (.inr (.inl h))
    · exact .inr (.inr (.inr h))
  rw [sum_nodes]
  simp only [hs, diffFin, rowF_mkNode, colF_mkNode, mul_add, Finset.sum_add_distrib]
  have A : ∀ k : Fin ny, ∑ i : Fin nx, endHalf ny (k : ℕ) * endHalf nx (i : ℕ) * (dt *
      dq P.G.dx (fun ix => dq P.G.dx (fun i => D (mkNode i k) * G.phi (mkNode i k) j) ix *
        openOf G.boundary_tot (mkNode ix k)) i) = 0 := by
    intro k
    have := sum_dq' hnx hdx (fun ix => dq P.G.dx (fun i => D (mkNode i k) * G.phi (mkNode i k) j) ix *
        openOf G.boundary_tot (mkNode ix k)) (by rw [wx _ _ (.inl rfl), mul_zero])
        (by rw [wx _ _ (.inr rfl), mul_zero])
    exact sum_scaled this _ dt
  have B : ∀ i : Fin nx, ∑ k : Fin ny, endHalf ny (k : ℕ) * endHalf nx (i : ℕ) * (dt *
      dq P.G.dy (fun iy => dq P.G.dy (fun k => D (mkNode i k) * G.phi (mkNode i k) j) iy *
        openOf G.boundary_tot (mkNode i iy)) k) = 0 := by
    intro i
    have := sum_dq' hny hdy (fun iy => dq P.G.dy (fun k => D (mkNode i k) * G.phi (mkNode i k) j) iy *
        openOf G.boundary_tot (mkNode i iy)) (by rw [wy _ _ (.inl rfl), mul_zero])
        (by rw [wy _ _ (.inr rfl), mul_zero])
    exact sum_scaled' this _ dt
  rw [Finset.sum_eq_zero fun k _ => A k, zero_add, Finset.sum_comm]
  exact Finset.sum_eq_zero fun i _ => B i

/-- C72.  On the solver's own grid the weights are its nodal volumes: the volume of every size is
kept. -/
theorem c72_volume {P : Par K} {rho_s dt : K} {G0 G : Grid K P.G.N P.G.ns} (hP : GoodGrid P.G)
    (h0 : mkGrid P.G P.B = .ok G0) (hV : G.V = G0.V) (hcyc : P.B.cyclic_lr = false)
    (hdx : P.G.dx ≠ 0) (hdy : P.G.dy ≠ 0) {D : Fin P.G.N → K}
    (hD : ∀ k, diffusivity P.ops P.l rho_s (G.s_bar k) (G.vis .gammadot k) (G.vis .pressure k)
      (G.m k) = .fin (D k)) (hB : WalledIn P.G.nx P.G.ny G.boundary_tot) (j : Fin P.G.ns) :
    ∃ u : Fin P.G.N → K, (∀ n, diffusionInc (nx := P.G.nx) (ny := P.G.ny) P dt rho_s G n j =
      .fin (u n)) ∧ ∑ n, G.V n * (G.phi n j + u n) = ∑ n, G.V n * G.phi n j := by
  obtain ⟨u, hu, hs⟩ := c72_weighted (nx := P.G.nx) (ny := P.G.ny) (dt := dt) hP.nx hP.ny hdx hdy
    hD hB j
  refine ⟨u, hu, ?_⟩
  have hV' : ∀ k, G.V k = (cellX P.G * cellY P.G * P.G.thickness) * share P.G.nx P.G.ny k := by
    intro k
    rw [hV, mkGrid_V hP h0 k, hcyc, if_neg (by simp), mul_comm]
    rfl
  simp only [mul_add, Finset.sum_add_distrib]
  rw [add_eq_left]
  generalize cellX P.G * cellY P.G * P.G.thickness = c at hV'
  simp only [hV', mul_assoc]
  rw [← Finset.mul_sum]
  exact mul_eq_zero_of_right _ hs

/-- Walls on the rim of the grid. -/
def Ex.rim (nx ny : ℕ) (k : Fin (ny * nx)) : Bool :=
  decide ((k : ℕ) % nx = 0 ∨ (k : ℕ) % nx = nx - 1 ∨ (k : ℕ) / nx = 0 ∨ (k : ℕ) / nx = ny - 1)

theorem Ex.rim_walled (nx ny : ℕ) : WalledIn nx ny (Ex.rim nx ny) := fun _ h => decide_eq_true h

/-- Fractions of the first size on a grid of four by three nodes: half, but for one node. -/
def Ex.diffPhi (k : Fin (3 * 4)) (j : Fin 2) : ℚ :=
  if (k : ℕ) = 6 then (if j = 0 then 1 else 0) else 1 / 2

/-- The hypotheses of C72 hold on a concrete grid, and something moves. -/
example : (∀ k, diffusivity Ex.ops 1 1 ((Ex.diffG (nx := 4) (ny := 3) (Ex.rim 4 3) (fun _ => 1)
      Ex.diffPhi).s_bar k) (.fin 1) (.fin 1) 1 = .fin 1) ∧
    diffusionInc Ex.par (1/4) 1 (Ex.diffG (nx := 4) (ny := 3) (Ex.rim 4 3) (fun _ => 1)
      Ex.diffPhi) 6 0 = .fin (-1/32) ∧
    diffusionInc Ex.par (1/4) 1 (Ex.diffG (nx := 4) (ny := 3) (Ex.rim 4 3) (fun _ => 1)
      Ex.diffPhi) 4 0 = .fin (1/16) := by
  refine ⟨?_, ?_, ?_⟩ <;> decide +kernel

/-- C72.  The unweighted total, which advection keeps (C45), is not kept by diffusion: the two
halves of one and the same increment conserve different totals. -/
theorem c72_plain_total_lost : ∃ u : Fin (3 * 4) → ℚ,
    (∀ n, diffusionInc Ex.par (1/4) 1 (Ex.diffG (nx := 4) (ny := 3) (Ex.rim 4 3) (fun _ => 1)
      Ex.diffPhi) n 0 = .fin (u n)) ∧ (∑ n, u n) ≠ 0 := by
  refine ⟨![0, 0, 0, 0, 1/16, 0, -1/32, 0, 0, 0, 0, 0], ?_, ?_⟩ <;> decide +kernel

/-! ### What diffusion does to the fractions of a node -/

theorem diffFin_sum {hx hy dt : K} {o : Fin (ny * nx) → K} (f : Fin ns → Fin (ny * nx) → K)
    (n : Fin (ny * nx)) :
    ∑ j, diffFin hx hy dt o (f j) n = diffFin hx hy dt o (fun k => ∑ j, f j k) n := by
  unfold diffFin
  rw [← Finset.mul_sum, Finset.sum_add_distrib, dq_sum, dq_sum]
  simp only [← Finset.sum_mul, dq_sum]

theorem diffFin_const {hx hy dt : K} {o f : Fin (ny * nx) → K} {a : K} (hf : ∀ k, f k = a)
    (n : Fin (ny * nx)) : diffFin hx hy dt o f n = 0 := by
  unfold diffFin
  rw [dq_const (a := 0) (fun i => by rw [dq_const (a := a) (fun i => hf _), zero_mul]),
    dq_const (a := 0) (fun i => by rw [dq_const (a := a) (fun i => hf _), zero_mul]), add_zero,
    mul_zero]

/-- C73.  Where the diffusivity is the same everywhere, the fractions of a node that add up to one
still do after diffusion. -/
theorem c73_sum_kept {P : Par K} {dt rho_s : K} {G : Grid K (ny * nx) ns} (hnx : 2 ≤ nx)
    (hny : 2 ≤ ny) (hdx : P.G.dx ≠ 0) (hdy : P.G.dy ≠ 0) {D : K}
    (hD : ∀ k, diffusivity P.ops P.l rho_s (G.s_bar k) (G.vis .gammadot k) (G.vis .pressure k)
      (G.m k) = .fin D) (hphi : ∀ k, ∑ j, G.phi k j = 1) (n : Fin (ny * nx)) :
    ∃ u : Fin ns → K, (∀ j, diffusionInc P dt rho_s G n j = .fin (u j)) ∧
      ∑ j, (G.phi n j + u j) = 1 := by
  refine ⟨_, fun j => diffusionInc_fin hnx hny hdx hdy hD n j, ?_⟩
  rw [Finset.sum_add_distrib, hphi, diffFin_sum, diffFin_const (a := D), add_zero]
  intro k
  rw [← Finset.mul_sum, hphi, mul_one]

/-- C73.  In a uniform mixture under uniform conditions nothing diffuses. -/
theorem c73_uniform {P : Par K} {dt rho_s : K} {G : Grid K (ny * nx) ns} (hnx : 2 ≤ nx)
    (hny : 2 ≤ ny) (hdx : P.G.dx ≠ 0) (hdy : P.G.dy ≠ 0) {D : K} {c : Fin ns → K}
    (hD : ∀ k, diffusivity P.ops P.l rho_s (G.s_bar k) (G.vis .gammadot k) (G.vis .pressure k)
      (G.m k) = .fin D) (hphi : ∀ k j, G.phi k j = c j) (n : Fin (ny * nx)) (j : Fin ns) :
    diffusionInc P dt rho_s G n j = .fin 0 := by
  rw [diffusionInc_fin hnx hny hdx hdy hD, diffFin_const (a := D * c j)]
  intro k
  rw [hphi]

/-- Diffusivities that increase to the right. -/
def Ex.diffD (k : Fin (3 * 4)) : ℚ := ((k : ℕ) % 4 : ℕ)

/-- C73.  But where the diffusivity varies, a mixture that is the same everywhere does not stay so
and its fractions do not keep adding up to one: the diffusivity is inside both derivatives. -/
theorem c73_sum_lost : ∃ u : Fin 2 → ℚ,
    (∀ j, diffusionInc Ex.par (1/4) 1 (Ex.diffG (nx := 4) (ny := 3) (Ex.rim 4 3) Ex.diffD
      (fun _ _ => 1/2)) 5 j = .fin (u j)) ∧ ∑ j, ((1/2 : ℚ) + u j) ≠ 1 := by
  refine ⟨![1/16, 1/16], ?_, ?_⟩ <;> decide +kernel

/-- C73.  Blind to checkerboards: if the product of diffusivity and fraction only depends on whether
row and column are even or odd, nothing diffuses in a box, however large the differences. -/
theorem c73_checkerboard {P : Par K} {dt rho_s : K} {G : Grid K (ny * nx) ns} (hnx : 2 ≤ nx)
    (hny : 2 ≤ ny) (hdx : P.G.dx ≠ 0) (hdy : P.G.dy ≠ 0) {D : Fin (ny * nx) → K}
    (hD : ∀ k, diffusivity P.ops P.l rho_s (G.s_bar k) (G.vis .gammadot k) (G.vis .pressure k)
      (G.m k) = .fin (D k)) (hB : WalledIn nx ny G.boundary_tot) {j : Fin ns} {a : ℕ → ℕ → K}
    (hf : ∀ k, D k * G.phi k j = a ((k : ℕ) % nx % 2) ((k : ℕ) / nx % 2)) (n : Fin (ny * nx)) :
    diffusionInc P dt rho_s G n j = .fin 0 := by
  rw [diffusionInc_fin hnx hny hdx hdy hD]
  have hx : ∀ (ix : Fin nx) (iy : Fin ny), dq P.G.dx (fun i => D (mkNode i iy) *
      G.phi (mkNode i iy) j) ix * openOf G.boundary_tot (mkNode ix iy) = 0 := by
    intro ix iy
    by_cases h : (ix : ℕ) = 0 ∨ (ix : ℕ) = nx - 1
    · refine mul_eq_zero_of_right _ (if_pos (hB _ ?_))
      rw [mkNode_col]
      rcases h with h | h
      · exact .inl h
      · exact .inr (.inl h)
    · have hi := ix.isLt
      rw [dq_inner (by omega) (by omega)]
      simp only [hf, mkNode_row, mkNode_col]
      rw [show ((ix : ℕ) + 1) % 2 = ((ix : ℕ) - 1) % 2 by omega, sub_self, zero_div, zero_mul]
  have hy : ∀ (ix : Fin nx) (iy : Fin ny), dq P.G.dy (fun i => D (mkNode ix i) *
      G.phi (mkNode ix i) j) iy * openOf G.boundary_tot (mkNode ix iy) = 0 := by
    intro ix iy
    by_cases h : (iy : ℕ) = 0 ∨ (iy : ℕ) = ny - 1
    · refine mul_eq_zero_of_right _ (if_pos (hB _ ?_))
      rw [mkNode_row]
      rcases h with h | h
      · exact .inr (.inr (.inl h))
      · exact .inr (.inr (.inr h))
    · have hi := iy.isLt
      rw [dq_inner (by omega) (by omega)]
      simp only [hf, mkNode_row, mkNode_col]
      rw [show ((iy : ℕ) + 1) % 2 = ((iy : ℕ) - 1) % 2 by omega, sub_self, zero_div, zero_mul]
  unfold diffFin
  rw [dq_const (a := 0) (fun i => hx _ _), dq_const (a := 0) (fun i => hy _ _), add_zero, mul_zero]

/-- Nodes filled entirely with one size or the other, like the fields of a chess board. -/
def Ex.chess {nx ny : ℕ} (k : Fin (ny * nx)) (j : Fin 2) : ℚ :=
  if ((k : ℕ) % nx % 2 + (k : ℕ) / nx % 2) % 2 = j then 1 else 0

example (n : Fin (5 * 5)) (j : Fin 2) : diffusionInc Ex.par (1/4) 1 (Ex.diffG (nx := 5) (ny := 5)
    (Ex.rim 5 5) (fun _ => 1) Ex.chess) n j = .fin 0 :=
  c73_checkerboard (D := fun _ => 1) (by decide) (by decide) (by decide +kernel) (by decide +kernel)
    (fun k => by
      change diffusivity Ex.ops 1 1 1 (.fin 1) (.fin 1) 1 = .fin 1
      decide +kernel) (Ex.rim_walled 5 5)
    (a := fun x y => if (x + y) % 2 = (j : ℕ) then 1 else 0)
    (fun k => by rw [one_mul]; rfl) n

theorem nodeD_nan {P : Par K} {rho_s : K} {G : Grid K (ny * nx) ns} {k : Fin (ny * nx)}
    (hm : G.m k = 0) (hp : G.vis .pressure k = .fin 0) : nodeD P rho_s G k = .nan := by
  unfold nodeD diffusivity
  rw [hm, hp, XF.zero_div_zero]
  simp only [XF.abs, XF.sqrt]
  rw [XF.mul_nan, XF.nan_div]

/-- The difference quotient of a difference quotient sees the node itself and those two away. -/
theorem twoAway {n : ℕ} {i k : Fin n} (h : k = i ∨ (k : ℕ) = i + 2 ∨ (k : ℕ) + 2 = i) :
    (hiOf (hiOf i) = k ∨ loOf (hiOf i) = k) ∨ (hiOf (loOf i) = k ∨ loOf (loOf i) = k) := by
  have hi := i.isLt
  have hk := k.isLt
  simp only [hiOf, loOf, Fin.ext_iff] at *
  omega

theorem npGradient_twice_nan {n : ℕ} {h : K} {f o : Fin n → XF K} {i k : Fin n}
    (hk : k = i ∨ (k : ℕ) = i + 2 ∨ (k : ℕ) + 2 = i) (hf : f k = .nan) :
    npGradient h (fun x => npGradient h f x * o x) i = .nan := by
  apply npGradient_nan
  rcases twoAway hk with h1 | h1
  · left
    rw [npGradient_nan (by rcases h1 with h1 | h1 <;> rw [h1] <;> simp [hf]), XF.nan_mul]
  · right
    rw [npGradient_nan (by rcases h1 with h1 | h1 <;> rw [h1] <;> simp [hf]), XF.nan_mul]

/-- C73.  An empty node (no mass, no pressure) freezes the grain sizes of the nodes two to its left,
right, above and below, and its own: their increment is zero whatever advection says, even with
the diffusion constant set to zero, and across walls. -/
theorem c73_frozen {P : Par K} {dt rho_s : K} {s : Fin ns → K} {G : Grid K (ny * nx) ns}
    {k n : Fin (ny * nx)} (hm : G.m k = 0) (hp : G.vis .pressure k = .fin 0)
    (hk : k = n ∨
      (k : ℕ) / nx = (n : ℕ) / nx ∧ ((k : ℕ) = n + 2 ∨ (k : ℕ) + 2 = n) ∨
      (k : ℕ) = n + 2 * nx ∨ (k : ℕ) + 2 * nx = n) (j : Fin ns) :
    phiIncrement P dt rho_s s G n j = 0 := by
  have hnx := nx_pos_of_node n
  have hD := nodeD_nan (P := P) (rho_s := rho_s) hm hp
  have key : diffusionInc P dt rho_s G n j = .nan := by
    have hf : nodeD P rho_s G k * .fin (G.phi k j) = .nan := by rw [hD, XF.nan_mul]
    have hx : ((k : ℕ) / nx = (n : ℕ) / nx ∧ (colF k = colF n ∨ (colF k : ℕ) = colF n + 2 ∨
          (colF k : ℕ) + 2 = colF n)) ∨
        (colF k = colF n ∧ ((rowF k : ℕ) = rowF n + 2 ∨ (rowF k : ℕ) + 2 = rowF n)) := by
      rcases hk with rfl | ⟨hr, h | h⟩ | h | h
      · exact .inl ⟨rfl, .inl rfl⟩
      · refine .inl ⟨hr, .inr (.inl ?_)⟩
        change (k : ℕ) % nx = (n : ℕ) % nx + 2
        have e1 := node_eq k
        have e2 := node_eq n
        rw [hr] at e1
        omega
      · refine .inl ⟨hr, .inr (.inr ?_)⟩
        change (k : ℕ) % nx + 2 = (n : ℕ) % nx
        have e1 := node_eq k
        have e2 := node_eq n
        rw [hr] at e1
        omega
      · refine .inr ⟨Fin.ext ?_, .inl ?_⟩
        · change (k : ℕ) % nx = (n : ℕ) % nx
          rw [h, Nat.add_mul_mod_self_right]
        · change (k : ℕ) / nx = (n : ℕ) / nx + 2
          rw [h, Nat.add_mul_div_right _ _ hnx]
      · refine .inr ⟨Fin.ext ?_, .inr ?_⟩
        · change (k : ℕ) % nx = (n : ℕ) % nx
          rw [← h, Nat.add_mul_mod_self_right]
        · change (k : ℕ) / nx + 2 = (n : ℕ) / nx
          rw [← h, Nat.add_mul_div_right _ _ hnx]
    unfold nodeD at hf
    unfold diffusionInc
    simp only [rowF_mkNode, colF_mkNode]
    rcases hx with ⟨hr, hc⟩ | ⟨hc, hr⟩
    · have e : mkNode (colF k) (rowF n) = k :=
        node_ext ((mkNode_row _ _).trans hr.symm) ((mkNode_col _ _).trans rfl)
      rw [npGradient_twice_nan hc (by rw [e]; exact hf), XF.nan_add, XF.mul_nan]
    · have e : mkNode (colF n) (rowF k) = k :=
        node_ext ((mkNode_row _ _).trans rfl)
          ((mkNode_col _ _).trans (congrArg Fin.val hc.symm))
      rw [npGradient_twice_nan (.inr hr) (by rw [e]; exact hf), XF.add_nan, XF.mul_nan]
  unfold phiIncrement
  rw [key, XF.add_nan]
  rfl

/-- A grid of five by three nodes on which advection carries the first size to the right, and on
which the node on the right end of the lower row is empty. -/
def Ex.frozenG : Grid ℚ (3 * 5) 2 :=
  { Ex.diffG (nx := 5) (ny := 3) (fun _ => false) (fun k => if (k : ℕ) = 4 then 0 else 1)
      (fun k _ => if (k : ℕ) % 5 = 2 then 1/4 else 1/2) with
    m := fun k => if (k : ℕ) = 4 then 0 else 1
    grad_pk := fun _ => ![1, 0, 0] }

/-- Parameters without diffusion. -/
def Ex.noDiff : Par ℚ := { Ex.par with l := 0, M_tol := 1/2, M_tol_nonneg := by norm_num }

/-- C73.  So next to empty nodes the conservation of advection is lost, and with it grains of a
size, even without any diffusion. -/
theorem c73_frozen_total : ∃ a : Fin (3 * 5) → ℚ,
    (∀ n, ktX Ex.noDiff (1/4) ![1, 2] Ex.frozenG n 0 + ktY Ex.noDiff (1/4) ![1, 2] Ex.frozenG n 0 =
      .fin (a n)) ∧ ∑ n, a n = 0 ∧
    ∑ n, phiIncrement Ex.noDiff (1/4) 1 ![1, 2] Ex.frozenG n 0 = -11/48 := by
  refine ⟨![-1/24, -5/48, 5/48, 1/48, 1/48, -1/24, -5/48, 5/48, 0, 1/24, -1/24, -5/48, 5/48, 0,
    1/24], ?_, ?_, ?_⟩ <;> decide +kernel

/-- The theorem applies to that grid: two to the left of the empty node. -/
example (j : Fin 2) : phiIncrement Ex.noDiff (1/4) 1 ![1, 2] Ex.frozenG 2 j = 0 := by
  have h1 : Ex.frozenG.m (4 : Fin 15) = 0 := by simp [Ex.frozenG]
  have h2 : Ex.frozenG.vis .pressure (4 : Fin 15) = .fin 0 := by simp [Ex.frozenG, Ex.diffG]
  exact c73_frozen (nx := 5) (ny := 3) (G := Ex.frozenG) (k := (4 : Fin 15)) (n := (2 : Fin 15)) h1 h2
    (.inr (.inl ⟨by decide, .inl (by decide)⟩)) j

end
end Mpm

import Verif.Lemmas.Moment
import Verif.Props.Bed
import Verif.Props.Strain

/-!
# C125: a body in uniform deformation
-/

set_option linter.unusedSectionVars false

namespace Mpm
open Spec

namespace Spec
section
variable {K : Type} [Field K] [LinearOrder K] {ns : ℕ}

/-- The points fill the cells of a block with `p*p` points each, all of the same mass. -/
structure Spread (P : GP K) (i0 c j0 r p : ℕ) (m : K) (L : List (PhaseSt K ns)) : Prop where
  places : (points L).map (fun mp => (mp.x 0, mp.x 1)) = block P i0 c j0 r p
  mass : ∀ mp ∈ points L, mp.m = m

/-- The velocity of every point is that of the affine field `x ↦ v + A x` where it is. -/
def Flows (v : Vec K) (A : Mat K) (L : List (PhaseSt K ns)) : Prop :=
  ∀ B ∈ L, ∀ mp ∈ B.pts, ∀ i, mp.v.get B.ph.iv i = v i + A i 0 * mp.x 0 + A i 1 * mp.x 1

/-- How far, in cells, the centre of the mass that a node gets is from the node: the ends of a line
of cells get mass from one side only. -/
def offCentre (i0 c p k : ℕ) : K :=
  if k = i0 then 1 / 3 + 1 / (6 * (p : K) ^ 2)
  else if k = i0 + c then -(1 / 3 + 1 / (6 * (p : K) ^ 2)) else 0

/-- The share of a uniform gradient along a line of cells that cell `i` feels. -/
def feltShare (i0 c p i : ℕ) : K := 1 + offCentre i0 c p (i + 1) - offCentre i0 c p i

/-- The gradient felt in cell `(i, j)` of a block. -/
def feltGrad (i0 c j0 r p i j : ℕ) (A : Mat K) : Mat K := fun a b =>
  if b = 0 then A a 0 * feltShare i0 c p i
  else if b = 1 then A a 1 * feltShare j0 r p j else 0

/-- None of the corners of cell `(i, j)` is held by a wall. -/
def NoWallAt (P : GP K) (G : Grid K P.N ns) (i j : ℕ) : Prop :=
  ∀ k : Fin P.N, (k : ℕ) % P.nx = i ∨ (k : ℕ) % P.nx = i + 1 →
    (k : ℕ) / P.nx = j ∨ (k : ℕ) / P.nx = j + 1 → G.boundary_v k = false ∧ G.boundary_h k = false

end
end Spec

section
variable {K : Type} [Field K] [LinearOrder K] [IsStrictOrderedRing K] [FloorRing K] {ns : ℕ}

theorem touching_ends {i0 c : ℕ} (hc : 0 < c) : touching i0 c i0 = 1 ∧ touching i0 c (i0 + c) = 1 := by
  unfold touching
  constructor <;> rw [Finset.card_eq_one]
  · refine ⟨i0, Finset.ext fun q => ?_⟩
    simp only [Finset.mem_filter, Finset.mem_Ico, Finset.mem_singleton]
    omega
  · refine ⟨i0 + c - 1, Finset.ext fun q => ?_⟩
    simp only [Finset.mem_filter, Finset.mem_Ico, Finset.mem_singleton]
    omega

/-- The first moment of a line of cells about a node. -/
theorem line_moment {a d : K} (hd : 0 < d) {p : ℕ} (hp : 0 < p) {i0 c : ℕ} (hc : 0 < c) (k : ℕ) :
    ∑ r ∈ Finset.range (c * p), tent d (piece (a + i0 * d) (d / p) r - (a + k * d)) *
        (piece (a + i0 * d) (d / p) r - (a + k * d)) =
      offCentre i0 c p k * d * ((p : K) / 2 * touching i0 c k) := by
  have hp' : (p : K) ≠ 0 := by exact_mod_cast hp.ne'
  rw [sum_moment_line hd hp]
  unfold offCentre
  by_cases h1 : k = i0
  · subst h1
    rw [if_pos ⟨le_rfl, by omega⟩, if_neg (by omega), if_pos rfl, (touching_ends hc).1]
    push_cast
    field_simp
    ring
  · rw [if_neg h1]
    by_cases h2 : k = i0 + c
    · subst h2
      rw [if_neg (by omega), if_pos ⟨by omega, le_rfl⟩, if_pos rfl, (touching_ends hc).2]
      push_cast
      field_simp
      ring
    · rw [if_neg h2]
      by_cases h3 : i0 ≤ k ∧ k < i0 + c
      · rw [if_pos h3, if_pos (by omega)]; ring
      · rw [if_neg h3, if_neg (by omega)]; ring

/-- An affine function, weighted with the weights of a node, over a block. -/
theorem block_affine {G : GP K} (hG : GoodGrid G) {i0 c j0 r p : ℕ} (hp : 0 < p) (hc : 0 < c) (hr : 0 < r)
    (k : Fin G.N) (v a b : K) :
    ((block G i0 c j0 r p).map fun q => hat G ![q.1, q.2, 0] k * (v + a * q.1 + b * q.2)).sum =
      (p : K) ^ 2 / 4 * (touching i0 c ((k : ℕ) % G.nx) * touching j0 r ((k : ℕ) / G.nx)) *
        (v + a * (nodeX G ((k : ℕ) % G.nx) + offCentre i0 c p ((k : ℕ) % G.nx) * cellX G) +
          b * (nodeY G ((k : ℕ) / G.nx) + offCentre j0 r p ((k : ℕ) / G.nx) * cellY G)) := by
  have s1 := sum_tent_line (a := G.x_m) (cellX_pos hG) hp i0 c ((k : ℕ) % G.nx)
  have s2 := sum_tent_line (a := G.y_m) (cellY_pos hG) hp j0 r ((k : ℕ) / G.nx)
  have m1 := line_moment (a := G.x_m) (cellX_pos hG) hp (i0 := i0) hc ((k : ℕ) % G.nx)
  have m2 := line_moment (a := G.y_m) (cellY_pos hG) hp (i0 := j0) hr ((k : ℕ) / G.nx)
  have e := sum_block G i0 c j0 r p (fun x y => hat G ![x, y, 0] k * (v + a * x + b * y))
  rw [e]
  obtain ⟨f, hf⟩ : ∃ f : ℕ → K, f = fun q => tent (cellX G)
    (piece (nodeX G i0) (cellX G / p) q - nodeX G ((k : ℕ) % G.nx)) := ⟨_, rfl⟩
  obtain ⟨g, hg⟩ : ∃ g : ℕ → K, g = fun q => tent (cellY G)
    (piece (nodeY G j0) (cellY G / p) q - nodeY G ((k : ℕ) / G.nx)) := ⟨_, rfl⟩
  obtain ⟨x, hx⟩ : ∃ x : ℕ → K, x = fun q =>
    piece (nodeX G i0) (cellX G / p) q - nodeX G ((k : ℕ) % G.nx) := ⟨_, rfl⟩
  obtain ⟨y, hy⟩ : ∃ y : ℕ → K, y = fun q =>
    piece (nodeY G j0) (cellY G / p) q - nodeY G ((k : ℕ) / G.nx) := ⟨_, rfl⟩
  have s1' : ∑ q ∈ Finset.range (c * p), f q = (p : K) / 2 * touching i0 c ((k : ℕ) % G.nx) := by
    rw [hf]; exact s1
  have s2' : ∑ q ∈ Finset.range (r * p), g q = (p : K) / 2 * touching j0 r ((k : ℕ) / G.nx) := by
    rw [hg]; exact s2
  have m1' : ∑ q ∈ Finset.range (c * p), f q * x q = offCentre i0 c p ((k : ℕ) % G.nx) * cellX G *
      ((p : K) / 2 * touching i0 c ((k : ℕ) % G.nx)) := by rw [hf, hx]; exact m1
  have m2' : ∑ q ∈ Finset.range (r * p), g q * y q = offCentre j0 r p ((k : ℕ) / G.nx) * cellY G *
      ((p : K) / 2 * touching j0 r ((k : ℕ) / G.nx)) := by rw [hg, hy]; exact m2
  have e2 : ∀ q1 q2, hat G ![piece (nodeX G i0) (cellX G / p) q2, piece (nodeY G j0) (cellY G / p) q1, 0] k *
      (v + a * piece (nodeX G i0) (cellX G / p) q2 + b * piece (nodeY G j0) (cellY G / p) q1) =
      (v + a * nodeX G ((k : ℕ) % G.nx) + b * nodeY G ((k : ℕ) / G.nx)) * g q1 * f q2 +
        a * g q1 * (f q2 * x q2) + b * (g q1 * y q1) * f q2 := by
    intro q1 q2
    rw [hf, hg, hx, hy]
    change tent (cellX G) (piece (nodeX G i0) (cellX G / p) q2 - nodeX G ((k : ℕ) % G.nx)) *
      tent (cellY G) (piece (nodeY G j0) (cellY G / p) q1 - nodeY G ((k : ℕ) / G.nx)) * _ = _
    ring
  simp only [e2]
  simp only [Finset.sum_add_distrib, ← Finset.mul_sum, ← Finset.sum_mul]
  rw [s1', s2', m1', m2']
  ring

theorem spread_sum {M : Type} [AddCommMonoid M] {G : GP K} {i0 c j0 r p : ℕ} {m : K}
    {L : List (PhaseSt K ns)} (h : Spread G i0 c j0 r p m L) (f : K → K → M) :
    ((points L).map fun mp => f (mp.x 0) (mp.x 1)).sum =
      ((block G i0 c j0 r p).map fun q => f q.1 q.2).sum := by
  rw [← h.places, List.map_map]
  rfl

theorem hat_flat {G : GP K} (x : Vec K) (k : Fin G.N) : hat G ![x 0, x 1, 0] k = hat G x k := rfl

theorem spread_mass {G : GP K} (hG : GoodGrid G) {i0 c j0 r p : ℕ} (hp : 0 < p) {m : K}
    {L : List (PhaseSt K ns)} (h : Spread G i0 c j0 r p m L) (k : Fin G.N) :
    nodalMass G L k = m * ((p : K) ^ 2 / 4 *
      (touching i0 c ((k : ℕ) % G.nx) * touching j0 r ((k : ℕ) / G.nx))) := by
  unfold nodalMass
  rw [← c97_weights hG hp, ← spread_sum h (fun x y => hat G ![x, y, 0] k), ← List.sum_map_mul_left]
  refine congrArg List.sum (List.map_congr_left fun mp hmp => ?_)
  rw [h.mass mp hmp, hat_flat, mul_comm]

theorem spread_momentum {G : GP K} (hG : GoodGrid G) {i0 c j0 r p : ℕ} (hp : 0 < p) (hc : 0 < c)
    (hr : 0 < r) {m : K} {L : List (PhaseSt K ns)} (h : Spread G i0 c j0 r p m L) {v : Vec K} {A : Mat K}
    (hv : Flows v A L) (k : Fin G.N) (i : Fin 3) :
    ((items L).map fun x => hat G x.2.x k * x.2.m * x.2.v.get x.1.iv i).sum = nodalMass G L k *
      (v i + A i 0 * (nodeX G ((k : ℕ) % G.nx) + offCentre i0 c p ((k : ℕ) % G.nx) * cellX G) +
        A i 1 * (nodeY G ((k : ℕ) / G.nx) + offCentre j0 r p ((k : ℕ) / G.nx) * cellY G)) := by
  have e : ((items L).map fun x => hat G x.2.x k * x.2.m * x.2.v.get x.1.iv i) =
      ((items L).map (·.2)).map fun mp => m * (hat G ![mp.x 0, mp.x 1, 0] k *
        (v i + A i 0 * mp.x 0 + A i 1 * mp.x 1)) := by
    rw [List.map_map]
    refine List.map_congr_left fun x hx => ?_
    obtain ⟨B, hB, e, hmp⟩ := mem_items.1 hx
    have hm := h.mass x.2 (mem_points_of hB hmp)
    have := hv B hB x.2 hmp i
    rw [← e] at *
    simp only [Function.comp_apply]
    rw [hm, this, hat_flat]
    ring
  rw [e, items_map_snd, List.sum_map_mul_left,
    spread_sum h (fun x y => hat G ![x, y, 0] k * (v i + A i 0 * x + A i 1 * y)),
    block_affine hG hp hc hr, spread_mass hG hp h]
  ring

variable {P : Par K} {s s1 s' : St P} {interp : Interp K P.G.N}

/-- C125.  A block in uniform deformation: the velocity of a node is that of the field at the centre of
the mass the node gets.  Inside the block this is the node itself. -/
theorem c125_nodes (hP : GoodGrid P.G) (hG : Geometry P.G s.G) (hL : Counted s.L)
    (hx : ∀ mp ∈ points s.L, InDomain P.G mp.x) (hcy : P.B.cyclic_lr = false)
    {i0 c j0 r p : ℕ} (hp : 0 < p) (hc : 0 < c) (hr : 0 < r) {m : K} (h : Spread P.G i0 c j0 r p m s.L)
    {v : Vec K} {A : Mat K} (hv : Flows v A s.L) (hs : gridPhase P s = .ok s1) (k : Fin P.G.N)
    (hk : s.G.boundary_v k = false ∧ s.G.boundary_h k = false) (i : Fin 3) :
    s1.G.q k i = s1.G.m k *
      (v i + A i 0 * (nodeX P.G ((k : ℕ) % P.G.nx) + offCentre i0 c p ((k : ℕ) % P.G.nx) * cellX P.G) +
        A i 1 * (nodeY P.G ((k : ℕ) / P.G.nx) + offCentre j0 r p ((k : ℕ) / P.G.nx) * cellY P.G)) := by
  obtain ⟨T, rfl⟩ := gridPhase_ok hs
  obtain ⟨-, -, -, -, eq, -⟩ := T.static
  change T.Gd.q k i = T.Gd.m k * _
  rw [gridPhase_mass hP hG hL hx hcy T, ← spread_momentum hP hp hc hr h hv, eq, T.hGb, hcy]
  exact (gridPhase_mapped_momentum hP hG hL hx T k i).2 hk.1 hk.2

theorem wrapped_strain (P : Par K) (b : Particle K P.G.ns) : (wrapped P b).strain = b.strain := by
  unfold wrapped; split <;> rfl

/-- The corners of cell `(i, j)` are heavy and follow an affine field. -/
def Spec.CornersFollow (P : Par K) (G : Grid K P.G.N P.G.ns) (i j : ℕ) (w : Vec K) (B : Mat K) : Prop :=
  ∀ k : Fin P.G.N, (k : ℕ) % P.G.nx = i ∨ (k : ℕ) % P.G.nx = i + 1 →
    (k : ℕ) / P.G.nx = j ∨ (k : ℕ) / P.G.nx = j + 1 → P.M_tol < G.m k ∧
      ∀ l, G.q k l = G.m k * (w l + B l 0 * nodeX P.G ((k : ℕ) % P.G.nx) +
        B l 1 * nodeY P.G ((k : ℕ) / P.G.nx))

theorem affine_located (hP : GoodGrid P.G) {Gw Gb : Grid K P.G.N P.G.ns} (hw : Geometry P.G Gw)
    (hb : Geometry P.G Gb) {a a2 a3 : Particle K P.G.ns} (hx : InDomain P.G a.x) {i j : ℕ}
    (hc : InCell P.G a.x i j) {w : Vec K} {B : Mat K} (hA : CornersFollow P Gb i j w B)
    (h2 : a.getReferenceNode P.G Gw.dx Gw.dy = .ok a2) (h3 : a2.getBasisFunctions Gw = .ok a3) :
    AffineAround P.G P.M_tol Gb a3 w B := by
  obtain ⟨i', j', nd, hc', g1, g2, hnd, hX, hY⟩ := located_basis hP hw hx
  rw [g1, Except.ok.injEq] at h2
  rw [← h2, g2, Except.ok.injEq] at h3
  rw [← h3]
  obtain ⟨rfl, rfl⟩ := c01_cell_unique hP hc' hc
  intro q k hk
  have hkq : nd q = k := by
    have := hnd q
    unfold Particle.node at this
    rw [hk, Except.ok.injEq] at this
    exact this.symm
  subst hkq
  obtain ⟨k1, k2⟩ := hA (nd q) (by rw [hX]; fin_cases q <;> simp [cornerX])
    (by rw [hY]; fin_cases q <;> simp [cornerY])
  refine ⟨k1, funext fun l => ?_⟩
  rw [k2, hb.X, hb.Y]
  simp [Matrix.mulVec, dotProduct, Fin.sum_univ_three]
  left
  ring

/-- The strain of a point in a cell whose corners follow an affine field. -/
theorem evolved_strain (hP : GoodGrid P.G) {d : Dyn K} {m0 : Option (Mat0 K)}
    {Gw Gb Gm : Grid K P.G.N P.G.ns} (hw : Geometry P.G Gw) (hb : Geometry P.G Gb) {p : ℕ}
    {ph : Phase K P.G.ns} {a b : Particle K P.G.ns} (hx : InDomain P.G a.x) {i j : ℕ}
    (hc : InCell P.G a.x i j) {w : Vec K} {B : Mat K} (hA : CornersFollow P Gb i j w B)
    (h : Evolved P d m0 Gw Gb Gm p ph a b) :
    b.strain = a.strain + (1 / 2 * d.dt) • (inPlane B + (inPlane B).transpose) := by
  obtain ⟨a2, a3, a4, a5, a6, h2, h3, ⟨_, _, h4⟩, h5, h6, h7⟩ := h
  have e1 : a.incrementGravity P d.g p = { a with b := (a.incrementGravity P d.g p).b } := by
    unfold Particle.incrementGravity; split <;> rfl
  have hx' : InDomain P.G (a.incrementGravity P d.g p).x := by rw [e1]; exact hx
  have hc' : InCell P.G (a.incrementGravity P d.g p).x i j := by rw [e1]; exact hc
  have e3 := (locate_one h2 h3).eq
  obtain ⟨c1, c2, l, u1, u2, -, u4⟩ := stressStrain_ok h4
  have hs : a3.strain = a.strain := by rw [e3, e1]
  have st := affine_strain (dt := d.dt) hP P.M_tol_nonneg hw hb hx' h2 h3
    (affine_located hP hw hb hx' hc' hA h2 h3)
  rw [show (lawCtx P d P.G.s (m0.getD ph.par) p ph).dt = d.dt from rfl, st, Except.ok.injEq] at u1
  have s2 := (runLaw_frame u2).2.1
  have s4 : a4.strain = a.strain + (1 / 2 * d.dt) • (inPlane B + (inPlane B).transpose) := by
    rw [u4]
    change c2.strain = _
    rw [s2, ← u1, ← hs]
  have s5 : a5.strain = a4.strain := by rw [h5.frame]
  have s6 : a6.strain = a5.strain := by
    rcases h6 with ⟨-, rfl⟩ | ⟨-, iv, iv', hm⟩
    · rfl
    · obtain ⟨nd, -, -, e6⟩ := move_ok hm
      exact congrArg (fun z => z.1.strain) e6
  rw [h7, wrapped_strain, s6, s5, s4]

/-- The affine field that the corners of cell `(i, j)` follow, without its gradient. -/
def Spec.feltBase (P : GP K) (i0 c j0 r p i j : ℕ) (v : Vec K) (A : Mat K) : Vec K := fun l =>
  v l + A l 0 * (nodeX P i * (1 - feltShare i0 c p i) + offCentre i0 c p i * cellX P) +
    A l 1 * (nodeY P j * (1 - feltShare j0 r p j) + offCentre j0 r p j * cellY P)

/-- A point of a block is in one of the cells of the block. -/
theorem block_cell {G : GP K} (hP : GoodGrid G) {i0 c j0 r p : ℕ} (hp : 0 < p) {m : K}
    {L : List (PhaseSt K ns)} (h : Spread G i0 c j0 r p m L) {a : Particle K ns} (ha : a ∈ points L)
    {i j : ℕ} (hc : InCell G a.x i j) : (i0 ≤ i ∧ i < i0 + c) ∧ j0 ≤ j ∧ j < j0 + r := by
  have hpos : (a.x 0, a.x 1) ∈ block G i0 c j0 r p := by
    rw [← h.places]
    exact List.mem_map_of_mem ha
  obtain ⟨yb, hyb, hq⟩ := List.mem_flatMap.1 hpos
  obtain ⟨xa, hxa, exy⟩ := List.mem_map.1 hq
  have ex := congrArg Prod.fst exy
  have ey := congrArg Prod.snd exy
  simp only at ex ey
  have hi' : i0 + xa / p = i := (piece_cell (a := G.x_m) (cellX_pos hP) hp i0 xa i).1
    ⟨by have := hc.1.1; rw [← ex] at this; exact this, by have := hc.1.2; rw [← ex] at this; exact this⟩
  have hj' : j0 + yb / p = j := (piece_cell (a := G.y_m) (cellY_pos hP) hp j0 yb j).1
    ⟨by have := hc.2.1.1; rw [← ey] at this; exact this, by have := hc.2.1.2; rw [← ey] at this; exact this⟩
  have hxc : xa / p < c := (Nat.div_lt_iff_lt_mul hp).2 (List.mem_range.1 hxa)
  have hyr : yb / p < r := (Nat.div_lt_iff_lt_mul hp).2 (List.mem_range.1 hyb)
  obtain ⟨xq, hxq⟩ : ∃ z : ℕ, z = xa / p := ⟨_, rfl⟩
  obtain ⟨yq, hyq⟩ : ∃ z : ℕ, z = yb / p := ⟨_, rfl⟩
  rw [← hxq] at hi' hxc
  rw [← hyq] at hj' hyr
  omega

theorem patch_corners (hP : GoodGrid P.G) (hG : Geometry P.G s.G) (hL : Counted s.L)
    (hx : ∀ mp ∈ points s.L, InDomain P.G mp.x) (hcy : P.B.cyclic_lr = false)
    {i0 c j0 r p : ℕ} (hp : 0 < p) {m : K} (h : Spread P.G i0 c j0 r p m s.L) (hm : 0 < m)
    (hM : ∀ k, nodalMass P.G s.L k = 0 ∨ P.M_tol < nodalMass P.G s.L k)
    {v : Vec K} {A : Mat K} (hv : Flows v A s.L) (T : GridPhase P s) {i j : ℕ}
    (hij : (i0 ≤ i ∧ i < i0 + c) ∧ j0 ≤ j ∧ j < j0 + r) (hn : NoWallAt P.G s.G i j) :
    CornersFollow P T.Gb i j (feltBase P.G i0 c j0 r p i j v A) (feltGrad i0 c j0 r p i j A) := by
  have hmb : ∀ k, T.Gb.m k = nodalMass P.G s.L k := by
    intro k
    rw [← gridPhase_mass hP hG hL hx hcy T, T.static.2.2.2.2.2]
  have tx : ∀ k, k = i ∨ k = i + 1 → 0 < touching i0 c k := by
    intro k hk
    refine Finset.card_pos.2 ⟨i, Finset.mem_filter.2 ⟨Finset.mem_Ico.2 (by omega), ?_⟩⟩
    omega
  have ty : ∀ k, k = j ∨ k = j + 1 → 0 < touching j0 r k := by
    intro k hk
    refine Finset.card_pos.2 ⟨j, Finset.mem_filter.2 ⟨Finset.mem_Ico.2 (by omega), ?_⟩⟩
    omega
  have hp' : (0 : K) < p := by exact_mod_cast hp
  intro k hk1 hk2
  have heavy : P.M_tol < nodalMass P.G s.L k := by
    refine (hM k).resolve_left ?_
    rw [spread_mass hP hp h]
    have t1 : (0 : K) < touching i0 c ((k : ℕ) % P.G.nx) := by exact_mod_cast tx _ hk1
    have t2 : (0 : K) < touching j0 r ((k : ℕ) / P.G.nx) := by exact_mod_cast ty _ hk2
    have := mul_pos hm (mul_pos (div_pos (pow_pos hp' 2) four_pos) (mul_pos t1 t2))
    exact this.ne'
  rw [hmb]
  refine ⟨heavy, fun l => ?_⟩
  obtain ⟨w1, w2⟩ := hn k hk1 hk2
  have hq1 := (gridPhase_mapped_momentum hP hG hL hx T k l).2 w1 w2
  rw [spread_momentum hP hp (by omega) (by omega) h hv] at hq1
  have hq2 : T.Gb.q k l = T.Ga.q k l := by rw [T.hGb, hcy]; rfl
  rw [hq2, hq1]
  congr 1
  have cx : nodeX P.G ((k : ℕ) % P.G.nx) + offCentre i0 c p ((k : ℕ) % P.G.nx) * cellX P.G =
      nodeX P.G i * (1 - feltShare i0 c p i) + offCentre i0 c p i * cellX P.G +
        feltShare i0 c p i * nodeX P.G ((k : ℕ) % P.G.nx) := by
    rcases hk1 with e | e <;> rw [e]
    · ring
    · rw [nodeX_succ]; unfold feltShare; ring
  have cy : nodeY P.G ((k : ℕ) / P.G.nx) + offCentre j0 r p ((k : ℕ) / P.G.nx) * cellY P.G =
      nodeY P.G j * (1 - feltShare j0 r p j) + offCentre j0 r p j * cellY P.G +
        feltShare j0 r p j * nodeY P.G ((k : ℕ) / P.G.nx) := by
    rcases hk2 with e | e <;> rw [e]
    · ring
    · rw [nodeY_succ]; unfold feltShare; ring
  rw [cx, cy]
  unfold feltGrad feltBase
  simp only [if_true, one_ne_zero, if_false]
  ring

/-- C125.  In the first step of a block in uniform deformation, a point away from walls is strained by
the gradient of the field, reduced by a factor for each direction which depends on the cell alone. -/
theorem c125_strain (hP : GoodGrid P.G) (hG : Geometry P.G s.G) (hL : Counted s.L)
    (hx : ∀ mp ∈ points s.L, InDomain P.G mp.x) (hcy : P.B.cyclic_lr = false)
    (hi : P.B.inlet_right = false ∧ P.B.inlet_top = false)
    (ho : P.B.outlet_left = false ∧ P.B.outlet_bottom = false)
    {i0 c j0 r p : ℕ} (hp : 0 < p) {m : K} (h : Spread P.G i0 c j0 r p m s.L) (hm : 0 < m)
    (hM : ∀ k, nodalMass P.G s.L k = 0 ∨ P.M_tol < nodalMass P.G s.L k)
    {v : Vec K} {A : Mat K} (hv : Flows v A s.L) (h1 : timeMarch P interp s = .ok s') :
    List.Forall₂ (fun a b => ∀ i j, InCell P.G a.x i j → NoWallAt P.G s.G i j → ∀ e f, b.strain e f =
      a.strain e f + s.dyn.dt * ((feltGrad i0 c j0 r p i j A e f + feltGrad i0 c j0 r p i j A f e) / 2))
      (points s.L) (points s'.L) := by
  obtain ⟨T, s1, s2, s3, k1, e1, k2, k3, k4, k5, hR⟩ := timeMarch_idx hL h1
  obtain ⟨-, stb, -, -, eq, -⟩ := T.static
  have hw := Mpm.Geometry.wipe hG
  have hgb : Geometry P.G T.Gb := stb.1.geometry hG
  have hdt : T.d.dt = s.dyn.dt := by rw [T.hd]; rfl
  have hF : List.Forall₂ (fun A B => List.Forall₂ (fun a b => a ∈ points s.L ∧ ∃ ph q,
      Evolved P T.d (mat0 s.L) s.G.wipe T.Gb s3.G q ph a b) A.pts B.pts) s.L s'.L := by
    refine (hR.and_left (p := fun A => A ∈ s.L) (fun A hA => hA)).forall₂ ?_
    rintro q A B ⟨hA, -, -, evo, kept, new, hev, -, -, hk, hn, -, hB⟩
    rw [hn hi.1 hi.2, List.append_nil, hk ho.1 ho.2] at hB
    rw [hB]
    exact (forall₂_and_left (p := fun a => a ∈ points s.L) hev
      (fun a ha => mem_points_of hA ha)).imp fun a b hab => ⟨hab.1, _, _, hab.2⟩
  refine (forall₂_points hF).imp ?_
  rintro a b ⟨ha, ph, q, hab⟩ i j hc hn e f
  have key := evolved_strain hP hw hgb (hx a ha) hc
    (patch_corners hP hG hL hx hcy hp h hm hM hv T (block_cell hP hp h ha hc) hn) hab
  have hin : inPlane (feltGrad i0 c j0 r p i j A) = feltGrad i0 c j0 r p i j A := by
    funext e f
    unfold inPlane
    split
    · rename_i hf; subst hf; rfl
    · rfl
  rw [key, hin, hdt]
  simp only [Matrix.add_apply, Matrix.smul_apply, Matrix.transpose_apply, smul_eq_mul]
  ring

/-- C125.  What a cell feels of a uniform gradient along a line of cells: all of it inside, between a
half and two thirds of it at the ends of the line, at most a third if the line is a single cell, and
nothing if that cell has one point along the line. -/
theorem c125_share {i0 c p i : ℕ} (hp : 0 < p) (hi : i0 ≤ i) (hi' : i < i0 + c) :
    (i0 < i → i + 1 < i0 + c → feltShare i0 c p i = (1 : K)) ∧
    (1 < c → i = i0 ∨ i + 1 = i0 + c → feltShare i0 c p i = (2 / 3 - 1 / (6 * (p : K) ^ 2) : K) ∧
      (1 / 2 : K) ≤ feltShare i0 c p i ∧ feltShare i0 c p i < (2 / 3 : K)) ∧
    (c = 1 → feltShare i0 c p i = (1 / 3 - 1 / (3 * (p : K) ^ 2) : K) ∧
      (feltShare i0 c p i = (0 : K) ↔ p = 1) ∧ feltShare i0 c p i < (1 / 3 : K)) := by
  have hp1 : (1 : K) ≤ p := by exact_mod_cast hp
  have hp2 : (1 : K) ≤ (p : K) ^ 2 := one_le_pow₀ hp1
  have hp3 : (0 : K) < (p : K) ^ 2 := lt_of_lt_of_le one_pos hp2
  have h6 : 1 / (6 * (p : K) ^ 2) = 1 / (p : K) ^ 2 / 6 := by field_simp
  have h3 : 1 / (3 * (p : K) ^ 2) = 1 / (p : K) ^ 2 / 3 := by field_simp
  have hb : 0 < 1 / (p : K) ^ 2 := by positivity
  have hb1 : 1 / (p : K) ^ 2 ≤ 1 := (div_le_one hp3).2 hp2
  refine ⟨fun h1 h2 => ?_, fun hc h1 => ?_, fun hc => ?_⟩
  · unfold feltShare offCentre
    rw [if_neg (by omega), if_neg (by omega), if_neg (by omega), if_neg (by omega)]
    ring
  · have e : feltShare i0 c p i = (2 / 3 - 1 / (6 * (p : K) ^ 2) : K) := by
      unfold feltShare offCentre
      rcases h1 with rfl | h1
      · rw [if_neg (by omega), if_neg (by omega), if_pos rfl]
        ring
      · rw [if_neg (by omega), if_pos h1, if_neg (by omega), if_neg (by omega)]
        ring
    rw [e, h6]
    exact ⟨rfl, by linarith, by linarith⟩
  · have e : feltShare i0 c p i = (1 / 3 - 1 / (3 * (p : K) ^ 2) : K) := by
      unfold feltShare offCentre
      rw [if_neg (by omega), if_pos (by omega), if_pos (by omega), h6, h3]
      ring
    rw [e, h3]
    refine ⟨rfl, ⟨fun h => ?_, fun h => ?_⟩, by linarith⟩
    · have h1 : 1 / (p : K) ^ 2 = 1 := by linarith
      rw [div_eq_one_iff_eq hp3.ne'] at h1
      have h2 : (p : K) = 1 := by nlinarith
      exact_mod_cast h2
    · subst h
      norm_num

/-- C125.  Inside the block the points are strained as the body is. -/
theorem c125_inside (hP : GoodGrid P.G) (hG : Geometry P.G s.G) (hL : Counted s.L)
    (hx : ∀ mp ∈ points s.L, InDomain P.G mp.x) (hcy : P.B.cyclic_lr = false)
    (hi : P.B.inlet_right = false ∧ P.B.inlet_top = false)
    (ho : P.B.outlet_left = false ∧ P.B.outlet_bottom = false)
    {i0 c j0 r p : ℕ} (hp : 0 < p) {m : K} (h : Spread P.G i0 c j0 r p m s.L) (hm : 0 < m)
    (hM : ∀ k, nodalMass P.G s.L k = 0 ∨ P.M_tol < nodalMass P.G s.L k)
    {v : Vec K} {A : Mat K} (hA : ∀ e, A e 2 = 0) (hv : Flows v A s.L)
    (h1 : timeMarch P interp s = .ok s') :
    List.Forall₂ (fun a b => ∀ i j, InCell P.G a.x i j → NoWallAt P.G s.G i j →
      i0 < i → i + 1 < i0 + c → j0 < j → j + 1 < j0 + r → ∀ e f, b.strain e f =
      a.strain e f + s.dyn.dt * ((A e f + A f e) / 2)) (points s.L) (points s'.L) := by
  refine (c125_strain hP hG hL hx hcy hi ho hp h hm hM hv h1).imp ?_
  intro a b hab i j hc hn a1 a2 a3 a4 e f
  rw [hab i j hc hn e f]
  have e1 := (c125_share (K := K) (i0 := i0) (c := c) (i := i) hp (by omega) (by omega)).1 a1 a2
  have e2 := (c125_share (K := K) (i0 := j0) (c := r) (i := j) hp (by omega) (by omega)).1 a3 a4
  have key : feltGrad i0 c j0 r p i j A = A := by
    funext e f
    unfold feltGrad
    rw [e1, e2]
    fin_cases f
    · simp
    · simp
    · simp [hA]
  rw [key]

/-- C125.  A column of cells with one point each is not strained across, however it is stretched. -/
theorem c125_thread (hP : GoodGrid P.G) (hG : Geometry P.G s.G) (hL : Counted s.L)
    (hx : ∀ mp ∈ points s.L, InDomain P.G mp.x) (hcy : P.B.cyclic_lr = false)
    (hi : P.B.inlet_right = false ∧ P.B.inlet_top = false)
    (ho : P.B.outlet_left = false ∧ P.B.outlet_bottom = false)
    {i0 j0 r : ℕ} {m : K} (h : Spread P.G i0 1 j0 r 1 m s.L) (hm : 0 < m)
    (hM : ∀ k, nodalMass P.G s.L k = 0 ∨ P.M_tol < nodalMass P.G s.L k)
    {v : Vec K} {A : Mat K} (hv : Flows v A s.L) (h1 : timeMarch P interp s = .ok s') :
    List.Forall₂ (fun a b => ∀ i j, InCell P.G a.x i j → NoWallAt P.G s.G i j →
      b.strain 0 0 = a.strain 0 0) (points s.L) (points s'.L) := by
  have k := forall₂_and_left (p := fun a => a ∈ points s.L)
    (c125_strain hP hG hL hx hcy hi ho one_pos h hm hM hv h1) (fun a ha => ha)
  refine k.imp ?_
  rintro a b ⟨ha, hab⟩ i j hc hn
  rw [hab i j hc hn 0 0]
  obtain ⟨⟨b1, b2⟩, -⟩ := block_cell hP one_pos h ha hc
  have e1 := (c125_share (K := K) (i0 := i0) (c := 1) (p := 1) (i := i) one_pos b1 b2).2.2 rfl
  have e2 := e1.2.1.2 rfl
  unfold feltGrad
  rw [if_pos rfl, e2]
  ring

end
/-! ### Examples -/

/-- A point of mass 1 with the velocity of a stretch along x. -/
def Ex.stretched (x y : ℚ) : Particle ℚ 2 :=
  { Ex.mp with x := ![x, y, 0], m := 1, v := .own ![x, 0, 0], stress := 0 }

def Ex.stretch : Mat ℚ := !![1, 0, 0; 0, 0, 0; 0, 0, 0]

def Ex.patchL (l : List (ℚ × ℚ)) : List (PhaseSt ℚ 2) :=
  [{ ph := { Ex.ph with n := l.length }, pts := l.map fun q => Ex.stretched q.1 q.2 }]

theorem Ex.patch_places (l : List (ℚ × ℚ)) :
    (points (Ex.patchL l)).map (fun mp => (mp.x 0, mp.x 1)) = l := by
  unfold points Ex.patchL
  simp only [List.flatMap_cons, List.flatMap_nil, List.append_nil, List.map_map]
  conv_rhs => rw [← List.map_id l]
  refine List.map_congr_left fun q _ => rfl

theorem Ex.patch_spread {G : GP ℚ} {i0 c j0 r p : ℕ} :
    Spread G i0 c j0 r p 1 (Ex.patchL (block G i0 c j0 r p)) := by
  refine ⟨Ex.patch_places _, ?_⟩
  intro mp h
  unfold points Ex.patchL at h
  simp only [List.flatMap_cons, List.flatMap_nil, List.append_nil, List.mem_map] at h
  obtain ⟨q, -, rfl⟩ := h
  rfl

theorem Ex.patch_flows (l : List (ℚ × ℚ)) : Flows (K := ℚ) 0 Ex.stretch (Ex.patchL l) := by
  intro B hB mp h i
  unfold Ex.patchL at hB
  rw [List.mem_singleton] at hB
  subst hB
  simp only [List.mem_map] at h
  obtain ⟨q, -, rfl⟩ := h
  fin_cases i <;> simp [Ex.stretched, Ex.stretch, VRef.get]

theorem Ex.patch_counted (l : List (ℚ × ℚ)) : Counted (Ex.patchL l) := by
  intro B hB
  unfold Ex.patchL at hB
  rw [List.mem_singleton] at hB
  subst hB
  simp

def Ex.fourPar : Par ℚ := { Ex.par with
  G := { Ex.gp with nx := 4, ny := 4, x_M := 3, y_M := 3 } }

theorem Ex.fourGood : GoodGrid Ex.fourPar.G := by constructor <;> simp [Ex.fourPar, Ex.gp]

theorem Ex.patch_inside {G : GP ℚ} {l : List (ℚ × ℚ)}
    (h : l.all (fun q => decide ((G.x_m ≤ q.1 ∧ q.1 < G.x_M) ∧ G.y_m ≤ q.2 ∧ q.2 < G.y_M)) = true) :
    ∀ mp ∈ points (Ex.patchL l), InDomain G mp.x := by
  intro mp hm
  rw [← Ex.patch_places l] at h
  have := List.all_eq_true.1 h _ (List.mem_map_of_mem hm)
  exact of_decide_eq_true (p := (G.x_m ≤ mp.x 0 ∧ mp.x 0 < G.x_M) ∧ G.y_m ≤ mp.x 1 ∧ mp.x 1 < G.y_M) this

theorem Ex.patch_heavy {G : GP ℚ} (hG : GoodGrid G) {i0 c j0 r : ℕ} (k : Fin G.N) :
    nodalMass G (Ex.patchL (block G i0 c j0 r 1)) k = 0 ∨
      0 < nodalMass G (Ex.patchL (block G i0 c j0 r 1)) k := by
  refine (eq_or_lt_of_le ?_).imp Eq.symm id
  rw [spread_mass hG one_pos Ex.patch_spread]
  positivity

/-- Hypotheses of `c125_nodes` and `c125_strain`: the four cells of the small grid, all at the
surface of the block, feel half of the stretch. -/
example : ∃ Gr s', GoodGrid Ex.par.G ∧ mkGrid Ex.par.G Ex.par.B = .ok Gr ∧
    Counted (Ex.patchL (block Ex.par.G 0 2 0 2 1)) ∧
    Spread Ex.par.G 0 2 0 2 1 1 (Ex.patchL (block Ex.par.G 0 2 0 2 1)) ∧
    Flows (K := ℚ) 0 Ex.stretch (Ex.patchL (block Ex.par.G 0 2 0 2 1)) ∧
    (∀ mp ∈ points (Ex.patchL (block Ex.par.G 0 2 0 2 1)), InDomain Ex.par.G mp.x) ∧
    (∀ k, nodalMass Ex.par.G (Ex.patchL (block Ex.par.G 0 2 0 2 1)) k = 0 ∨
      Ex.par.M_tol < nodalMass Ex.par.G (Ex.patchL (block Ex.par.G 0 2 0 2 1)) k) ∧
    (∀ i j, NoWallAt Ex.par.G Gr i j) ∧
    timeMarch Ex.par (Ex.noInterp _) ⟨Ex.dyn, Ex.patchL (block Ex.par.G 0 2 0 2 1), Gr⟩ = .ok s' ∧
    (points s'.L).map (fun b => b.strain 0 0) = [1/200, 1/200, 1/200, 1/200] := by
  obtain ⟨G, s', h1, h2, h3⟩ := Ex.run_one (P := Ex.par) (d := Ex.dyn)
    (L := Ex.patchL (block Ex.par.G 0 2 0 2 1))
    (check := fun s => decide ((points s.L).map (fun b => b.strain 0 0) = [1/200, 1/200, 1/200, 1/200]))
    (by decide +kernel)
  refine ⟨G, s', Ex.good, h1, Ex.patch_counted _, Ex.patch_spread, Ex.patch_flows _,
    Ex.patch_inside (by decide +kernel), fun k => Ex.patch_heavy Ex.good k, fun i j k _ _ => ?_, h2, of_decide_eq_true h3⟩
  obtain ⟨m1, m2, -⟩ := mkGrid_masks h1
  have hb : ∀ k, boundaryV Ex.par.B Ex.par.G.nx Ex.par.G.ny k = false ∧
    boundaryH Ex.par.B Ex.par.G.nx Ex.par.G.ny k = false := by decide +kernel
  rw [m1, m2]
  exact hb k

/-- Hypotheses of `c125_inside`: nine cells, of which the middle one feels all of the stretch. -/
example : ∃ Gr s', GoodGrid Ex.fourPar.G ∧ mkGrid Ex.fourPar.G Ex.fourPar.B = .ok Gr ∧
    Counted (Ex.patchL (block Ex.fourPar.G 0 3 0 3 1)) ∧
    Spread Ex.fourPar.G 0 3 0 3 1 1 (Ex.patchL (block Ex.fourPar.G 0 3 0 3 1)) ∧
    Flows (K := ℚ) 0 Ex.stretch (Ex.patchL (block Ex.fourPar.G 0 3 0 3 1)) ∧
    (∀ mp ∈ points (Ex.patchL (block Ex.fourPar.G 0 3 0 3 1)), InDomain Ex.fourPar.G mp.x) ∧
    (∀ k, nodalMass Ex.fourPar.G (Ex.patchL (block Ex.fourPar.G 0 3 0 3 1)) k = 0 ∨
      Ex.fourPar.M_tol < nodalMass Ex.fourPar.G (Ex.patchL (block Ex.fourPar.G 0 3 0 3 1)) k) ∧
    (∀ i j, NoWallAt Ex.fourPar.G Gr i j) ∧
    timeMarch Ex.fourPar (Ex.noInterp _) ⟨Ex.dyn, Ex.patchL (block Ex.fourPar.G 0 3 0 3 1), Gr⟩ = .ok s' ∧
    (points s'.L).map (fun b => b.strain 0 0) =
      [1/200, 1/100, 1/200, 1/200, 1/100, 1/200, 1/200, 1/100, 1/200] := by
  obtain ⟨G, s', h1, h2, h3⟩ := Ex.run_one (P := Ex.fourPar) (d := Ex.dyn)
    (L := Ex.patchL (block Ex.fourPar.G 0 3 0 3 1))
    (check := fun s => decide ((points s.L).map (fun b => b.strain 0 0) =
      [1/200, 1/100, 1/200, 1/200, 1/100, 1/200, 1/200, 1/100, 1/200])) (by decide +kernel)
  refine ⟨G, s', Ex.fourGood, h1, Ex.patch_counted _, Ex.patch_spread, Ex.patch_flows _,
    Ex.patch_inside (by decide +kernel), fun k => Ex.patch_heavy Ex.fourGood k, fun i j k _ _ => ?_, h2, of_decide_eq_true h3⟩
  obtain ⟨m1, m2, -⟩ := mkGrid_masks h1
  have hb : ∀ k, boundaryV Ex.fourPar.B Ex.fourPar.G.nx Ex.fourPar.G.ny k = false ∧
    boundaryH Ex.fourPar.B Ex.fourPar.G.nx Ex.fourPar.G.ny k = false := by decide +kernel
  rw [m1, m2]
  exact hb k

/-- Hypotheses of `c125_thread`. -/
example : ∃ Gr s', mkGrid Ex.par.G Ex.par.B = .ok Gr ∧
    Counted (Ex.patchL (block Ex.par.G 0 1 0 2 1)) ∧
    Spread Ex.par.G 0 1 0 2 1 1 (Ex.patchL (block Ex.par.G 0 1 0 2 1)) ∧
    Flows (K := ℚ) 0 Ex.stretch (Ex.patchL (block Ex.par.G 0 1 0 2 1)) ∧
    (∀ mp ∈ points (Ex.patchL (block Ex.par.G 0 1 0 2 1)), InDomain Ex.par.G mp.x) ∧
    (∀ k, nodalMass Ex.par.G (Ex.patchL (block Ex.par.G 0 1 0 2 1)) k = 0 ∨
      Ex.par.M_tol < nodalMass Ex.par.G (Ex.patchL (block Ex.par.G 0 1 0 2 1)) k) ∧
    (∀ i j, NoWallAt Ex.par.G Gr i j) ∧
    timeMarch Ex.par (Ex.noInterp _) ⟨Ex.dyn, Ex.patchL (block Ex.par.G 0 1 0 2 1), Gr⟩ = .ok s' ∧
    (points s'.L).map (fun b => b.strain 0 0) = [0, 0] := by
  obtain ⟨G, s', h1, h2, h3⟩ := Ex.run_one (P := Ex.par) (d := Ex.dyn)
    (L := Ex.patchL (block Ex.par.G 0 1 0 2 1))
    (check := fun s => decide ((points s.L).map (fun b => b.strain 0 0) = [0, 0])) (by decide +kernel)
  refine ⟨G, s', h1, Ex.patch_counted _, Ex.patch_spread, Ex.patch_flows _,
    Ex.patch_inside (by decide +kernel), fun k => Ex.patch_heavy Ex.good k, fun i j k _ _ => ?_, h2, of_decide_eq_true h3⟩
  obtain ⟨m1, m2, -⟩ := mkGrid_masks h1
  have hb : ∀ k, boundaryV Ex.par.B Ex.par.G.nx Ex.par.G.ny k = false ∧
    boundaryH Ex.par.B Ex.par.G.nx Ex.par.G.ny k = false := by decide +kernel
  rw [m1, m2]
  exact hb k

end Mpm

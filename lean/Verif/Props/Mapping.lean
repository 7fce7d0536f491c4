import Verif.Lemmas.Grid
import Verif.Examples

/-!
# C01–C08: locating points on the grid and mapping to it
-/

set_option linter.unusedSectionVars false

namespace Mpm
open Spec

section
variable {K : Type} [Field K] [LinearOrder K] [IsStrictOrderedRing K] [FloorRing K] {ns : ℕ}

/-! ## C01 -/

/-- The cell containing a point is unique. -/
theorem c01_cell_unique {P : GP K} (hP : GoodGrid P) {x : Vec K} {i j i' j' : ℕ}
    (h : InCell P x i j) (h' : InCell P x i' j') : i = i' ∧ j = j' := by
  have aux : ∀ {a d y : K} {i i' : ℕ}, 0 < d → a + i * d ≤ y → y < a + i * d + d →
      a + i' * d ≤ y → y < a + i' * d + d → i ≤ i' := by
    intro a d y i i' hd h1 _ _ h4
    by_contra hc
    have : (i' : K) + 1 ≤ i := by exact_mod_cast (not_le.1 hc)
    have := mul_le_mul_of_nonneg_right this hd.le
    linarith [add_mul (i' : K) 1 d]
  have hx := cellX_pos hP
  have hy := cellY_pos hP
  obtain ⟨⟨a1, a2⟩, ⟨a3, a4⟩, -⟩ := h
  obtain ⟨⟨b1, b2⟩, ⟨b3, b4⟩, -⟩ := h'
  rw [nodeX_succ] at a2 b2
  rw [nodeY_succ] at a4 b4
  exact ⟨le_antisymm (aux hx a1 a2 b1 b2) (aux hx b1 b2 a1 a2),
    le_antisymm (aux hy a3 a4 b3 b4) (aux hy b3 b4 a3 a4)⟩

/-- For every grid and every point of the half-open domain the reference node is the lower left
corner of the cell containing the point, and the four nodes reported for the point are valid
and are the four corners of that cell, counter-clockwise. -/
theorem c01_reference_node {P : GP K} (hP : GoodGrid P) {B : BP K} {G : Grid K P.N P.ns}
    (hG : mkGrid P B = .ok G) (mp : Particle K P.ns) (hx : InDomain P mp.x) :
    ∃ i j : ℕ, InCell P mp.x i j ∧
      ∃ mp', mp.getReferenceNode P G.dx G.dy = .ok mp' ∧
        mp' = { mp with n_star := mp'.n_star } ∧
        ∀ r, ∃ k : Fin P.N, pyIdx P.N (nearbyNodes P.nx mp'.n_star r) = .ok k ∧
          nearbyNodes P.nx mp'.n_star r = (k : ℕ) ∧
          G.X k = nodeX P (i + cornerX r) ∧ G.Y k = nodeY P (j + cornerY r) := by
  have hg := mkGrid_geometry hG
  obtain ⟨i, j, nd, hc, href, hnd, hX, hY⟩ := located hP hg hx
  refine ⟨i, j, hc, _, href, rfl, fun r => ⟨nd r, hnd r, ?_, ?_, ?_⟩⟩
  · rcases pyIdx_ok_iff.1 (hnd r) with h | h
    · exact h
    · exfalso
      have : (0 : ℤ) ≤ nearbyNodes P.nx ((i : ℤ) + (j : ℤ) * P.nx) r := by
        have : (0 : ℤ) ≤ (j : ℤ) * P.nx := by positivity
        unfold nearbyNodes
        have := r.isLt
        split <;> simp <;> omega
      rw [h] at this
      have := (nd r).isLt
      omega
  · rw [hg.X, hX]
  · rw [hg.Y, hY]

example : ∃ G, mkGrid Ex.gp Ex.bp = .ok G ∧ InDomain Ex.gp Ex.mp.x :=
  ⟨_, rfl, by simp [InDomain, Ex.gp, Ex.mp]; norm_num⟩

/-! ## C02 -/

/-- Partition of unity, for any local position. -/
theorem c02_partition_of_unity {dx dy : K} (hx : dx ≠ 0) (hy : dy ≠ 0) (x : Vec K) :
    (∑ r, shapeN dx dy x r = 1) ∧ (∑ r, shapeG dx dy x r = 0) :=
  ⟨shapeN_sum (mul_ne_zero hx hy) x, shapeG_sum dx dy x⟩

/-- Inside the cell all values are between 0 and 1. -/
theorem c02_unit_interval {dx dy : K} (hx : 0 < dx) (hy : 0 < dy) (x : Vec K)
    (h0 : 0 ≤ x 0 ∧ x 0 ≤ dx) (h1 : 0 ≤ x 1 ∧ x 1 ≤ dy) (r : Fin 4) :
    0 ≤ shapeN dx dy x r ∧ shapeN dx dy x r ≤ 1 := by
  have hd : 0 < dx * dy := mul_pos hx hy
  have a1 : 0 ≤ dx - x 0 := sub_nonneg.2 h0.2
  have a2 : 0 ≤ dy - x 1 := sub_nonneg.2 h1.2
  have nonneg : ∀ r, 0 ≤ shapeN dx dy x r := by
    intro r
    fin_cases r <;> simp only [shapeN] <;>
      exact div_nonneg (mul_nonneg (by first | exact a1 | exact h0.1)
        (by first | exact a2 | exact h1.1)) hd.le
  refine ⟨nonneg r, ?_⟩
  rw [← shapeN_sum hd.ne' x]
  exact Finset.single_le_sum (fun i _ => nonneg i) (Finset.mem_univ r)

/-- At corner `r` of the cell shape function `r` is one and the others vanish. -/
theorem c02_corners {dx dy : K} (hx : dx ≠ 0) (hy : dy ≠ 0) (r r' : Fin 4) (z : K) :
    shapeN dx dy ![cornerX r * dx, cornerY r * dy, z] r' = if r = r' then 1 else 0 := by
  fin_cases r <;> fin_cases r' <;> simp [shapeN, cornerX, cornerY, hx, hy]

/-- The gradients are the derivatives of the shape functions (which are affine in each
coordinate): difference quotients are exact. -/
theorem c02_gradients {dx dy : K} (x : Vec K) (h : K) (r : Fin 4) :
    shapeN dx dy ![x 0 + h, x 1, x 2] r - shapeN dx dy x r = h * shapeG dx dy x r 0 ∧
    shapeN dx dy ![x 0, x 1 + h, x 2] r - shapeN dx dy x r = h * shapeG dx dy x r 1 ∧
    shapeG dx dy x r 2 = 0 := by
  fin_cases r <;> simp [shapeN, shapeG] <;> constructor <;> ring

example : (0 : ℚ) < 1 ∧ (0 : ℚ) ≤ (![1/2, 1/4, 0] : Vec ℚ) 0 ∧ (![1/2, 1/4, 0] : Vec ℚ) 0 ≤ 1 := by
  norm_num

/-! ## C03 -/

/-- Locating a point, computing its shape functions and recovering its position gives the in-plane
position back exactly, and the diagnostic of `recover_position` passes. -/
theorem c03_position_recovered {P : GP K} (hP : GoodGrid P) {B : BP K} {G : Grid K P.N P.ns}
    (hG : mkGrid P B = .ok G) (mp : Particle K P.ns) (hx : InDomain P mp.x) :
    ∃ mp1 mp2, mp.getReferenceNode P G.dx G.dy = .ok mp1 ∧ mp1.getBasisFunctions G = .ok mp2 ∧
      mp2.recoverPosition P.nx G = .ok ![mp.x 0, mp.x 1, 0] ∧
      (mp.x 2 = 0 → mp2.checkPosition P.nx G = .ok mp2) := by
  have hg := mkGrid_geometry hG
  obtain ⟨i, j, nd, hc, href, hbas, hnd, hX, hY⟩ := located_basis hP hg hx
  refine ⟨_, _, href, hbas, ?_⟩
  have hrec : (atCell P mp i j).recoverPosition P.nx G = .ok ![mp.x 0, mp.x 1, 0] := by
    unfold Particle.recoverPosition for4
    simp only [hnd, res_ok_bind, res_pure, Except.ok.injEq, hg.X, hg.Y, hX, hY]
    have e1 : nodeX P (i + 1) = nodeX P i + cellX P := nodeX_succ P i
    have e2 : nodeY P (j + 1) = nodeY P j + cellY P := nodeY_succ P j
    have n1 := (cellX_pos hP).ne'
    have n2 := (cellY_pos hP).ne'
    funext k
    fin_cases k
    · simp [cornerX, shapeN, e1, atCell]
      field_simp
      ring
    · simp [cornerY, shapeN, e2, atCell]
      field_simp
      ring
    · simp
  refine ⟨hrec, fun hz => ?_⟩
  unfold Particle.checkPosition
  rw [hrec]
  simp only [res_ok_bind]
  rw [if_neg]
  · rfl
  · rintro ⟨k, hk⟩
    have hpos : (0 : K) < 1 / 10 ^ 10 := by positivity
    have : |(![mp.x 0, mp.x 1, 0] : Vec K) k - (atCell P mp i j).x k| = 0 := by
      fin_cases k <;> simp [hz, atCell]
    rw [this] at hk
    linarith

example : ∃ G, mkGrid Ex.gp Ex.bp = .ok G ∧ InDomain Ex.gp Ex.mp.x ∧ Ex.mp.x 2 = 0 :=
  ⟨_, rfl, by simp [InDomain, Ex.gp, Ex.mp]; norm_num, rfl⟩

/-! ## C04 -/

/-- Locate one point, compute its shape functions and map it to the grid. -/
def mapOne (P : GP K) (seg : Bool) (vel : Vec K) (G : Grid K P.N ns) (mp : Particle K ns) :
    Res (Grid K P.N ns) := do
  let mp ← mp.getReferenceNode P G.dx G.dy
  let mp ← mp.getBasisFunctions G
  mp.p2g P.nx seg vel G

/-- The node number the code computes for a position. -/
def refNumber (P : GP K) (x : Vec K) : ℤ :=
  pyTrunc ((x 0 - P.x_m) / cellX P) + pyTrunc ((x 1 - P.y_m) / cellY P) * P.nx

theorem pyIdx_isOk {n : ℕ} {i : ℤ} : (∃ k, pyIdx n i = .ok k) ↔ -(n : ℤ) ≤ i ∧ i < n := by
  constructor
  · rintro ⟨k, hk⟩
    have := k.isLt
    rcases pyIdx_ok_iff.1 hk with h | h <;> omega
  · intro h
    rcases pyIdx_cases (n := n) i with h1 | h1
    · exact h1
    · exfalso
      unfold pyIdx at h1
      split at h1
      · cases h1
      · split at h1
        · cases h1
        · omega

theorem nodesOk_range {nx N : ℕ} {mp : Particle K ns} :
    NodesOk nx N mp ↔ -(N : ℤ) ≤ mp.n_star ∧ mp.n_star + nx + 1 < N := by
  unfold NodesOk
  simp only [pyIdx_isOk]
  constructor
  · intro h
    have h0 := h 0
    have h2 := h 2
    simp [nearbyNodes] at h0 h2
    omega
  · intro h r
    have hr := r.isLt
    unfold nearbyNodes
    by_cases h01 : r = 0 ∨ r = 1
    · rw [if_pos h01]
      have : (r : ℕ) ≤ 1 := by rcases h01 with rfl | rfl <;> decide
      omega
    · rw [if_neg h01]
      have : 2 ≤ (r : ℕ) := by
        by_contra hc
        apply h01
        rcases Nat.lt_or_ge (r : ℕ) 1 with h1 | h1
        · left; ext; simp; omega
        · right; ext; simp; omega
      omega

/-- Mapping a point succeeds exactly when its four node numbers lie in `[-N, N)` (Python accepts
negative array indices); otherwise it raises IndexError.  Nothing else can happen. -/
theorem c04_exact {P : GP K} (hP : GoodGrid P) {G : Grid K P.N ns} (hG : Geometry P G)
    (seg : Bool) (vel : Vec K) (mp : Particle K ns) :
    ((∃ G', mapOne P seg vel G mp = .ok G') ↔
      -(P.N : ℤ) ≤ refNumber P mp.x ∧ refNumber P mp.x + P.nx + 1 < P.N) ∧
    ((¬ ∃ G', mapOne P seg vel G mp = .ok G') → mapOne P seg vel G mp = .error .index) := by
  have hdx := cellX_pos hP
  have hdy := cellY_pos hP
  have href : mp.getReferenceNode P G.dx G.dy = .ok { mp with n_star := refNumber P mp.x } := by
    unfold Particle.getReferenceNode
    rw [hG.dx, hG.dy, if_neg (by rintro (h | h) <;> linarith)]
    rfl
  unfold mapOne
  rw [href]
  simp only [res_ok_bind]
  by_cases hb : ∃ k, pyIdx P.N (refNumber P mp.x) = .ok k
  · obtain ⟨k, hk⟩ := hb
    unfold Particle.getBasisFunctions
    simp only [hk, res_ok_bind, hG.dx, hG.dy]
    rw [if_neg (mul_pos hdx hdy).ne']
    simp only [res_ok_bind]
    by_cases hn : -(P.N : ℤ) ≤ refNumber P mp.x ∧ refNumber P mp.x + P.nx + 1 < P.N
    · refine ⟨⟨fun _ => hn, fun _ => ⟨_, p2g_ok.2 ⟨nodesOk_range.2 hn, rfl⟩⟩⟩, fun h => ?_⟩
      exact absurd ⟨_, p2g_ok.2 ⟨nodesOk_range.2 hn, rfl⟩⟩ h
    · refine ⟨⟨?_, fun h => absurd h hn⟩, fun _ => p2g_error fun h => hn (nodesOk_range.1 h)⟩
      rintro ⟨G', h⟩
      exact nodesOk_range.1 (p2g_ok.1 h).1
  · have he : pyIdx P.N (refNumber P mp.x) = .error .index :=
      (pyIdx_cases _).resolve_left hb
    unfold Particle.getBasisFunctions
    simp only [he, res_error_bind]
    refine ⟨⟨?_, ?_⟩, fun _ => trivial⟩
    · rintro ⟨G', h⟩; cases h
    · intro h
      exact absurd (pyIdx_isOk.2 ⟨h.1, by omega⟩) hb

example : ∃ G, mkGrid Ex.gp Ex.bp = .ok G ∧ Geometry Ex.gp G := ⟨_, rfl, mkGrid_geometry rfl⟩

/-- Rounding towards zero: a coordinate less than one cell below the lower limit is located in the
first cell. -/
theorem trunc_just_below {a d x : K} (hd : 0 < d) (h1 : a - d < x) (h2 : x < a) :
    pyTrunc ((x - a) / d) = 0 := by
  have hneg : (x - a) / d < 0 := div_neg_of_neg_of_pos (by linarith) hd
  have hgt : -1 < (x - a) / d := by rw [lt_div_iff₀ hd]; linarith
  unfold pyTrunc
  rw [if_neg (not_le.2 hneg), Int.ceil_eq_iff]
  constructor
  · push_cast; linarith
  · push_cast; exact hneg.le

theorem trunc_ge {a d x : K} {n : ℕ} (hd : 0 < d) (h : a + n * d ≤ x) :
    (n : ℤ) ≤ pyTrunc ((x - a) / d) := by
  have h1 : (n : K) ≤ (x - a) / d := by rw [le_div_iff₀ hd]; linarith
  have h0 : 0 ≤ (x - a) / d := le_trans (Nat.cast_nonneg n) h1
  unfold pyTrunc
  rw [if_pos h0, Int.le_floor]
  exact_mod_cast h1

/-- A point less than one cell to the left of the domain is accepted: it is mapped to the
leftmost cell of its row, with a negative weight for the right-hand nodes. -/
theorem c04_left_of_domain {P : GP K} (hP : GoodGrid P) {G : Grid K P.N ns} (hG : Geometry P G)
    (mp : Particle K ns) (hx1 : P.x_m - cellX P < mp.x 0) (hx2 : mp.x 0 < P.x_m)
    (hy : P.y_m ≤ mp.x 1 ∧ mp.x 1 < P.y_M) :
    ∃ j : ℕ, j + 1 < P.ny ∧ ∃ mp1 mp2, mp.getReferenceNode P G.dx G.dy = .ok mp1 ∧
      mp1.n_star = j * P.nx ∧ mp1.getBasisFunctions G = .ok mp2 ∧ NodesOk P.nx P.N mp2 ∧
      mp2.N 1 < 0 := by
  have hdx := cellX_pos hP
  have hdy := cellY_pos hP
  have hnx := hP.nx
  obtain ⟨j, hj, hj1, hj2, hj3⟩ := trunc_cell hdy (cellY_mul hP) hy.1 hy.2
  have hcell : ((j : ℤ) + 1) * P.nx + P.nx ≤ P.ny * P.nx := by
    have : (j : ℤ) + 1 + 1 ≤ P.ny := by omega
    calc ((j : ℤ) + 1) * P.nx + P.nx = ((j : ℤ) + 1 + 1) * P.nx := by ring
      _ ≤ P.ny * P.nx := mul_le_mul_of_nonneg_right this (by positivity)
  have hjn : 0 ≤ (j : ℤ) * P.nx := by positivity
  have hlt : j * P.nx < P.N := by
    have : ((j * P.nx : ℕ) : ℤ) < P.N := by push_cast; nlinarith
    exact_mod_cast this
  have h0 : pyIdx P.N ((j : ℤ) * P.nx) = .ok ⟨j * P.nx, hlt⟩ := by
    have := pyIdx_nonneg hlt
    push_cast at this
    exact this
  refine ⟨j, hj1, { mp with n_star := (j : ℤ) * P.nx }, { mp with
      n_star := (j : ℤ) * P.nx
      N := shapeN (cellX P) (cellY P) ![mp.x 0 - nodeX P 0, mp.x 1 - nodeY P j, mp.x 2 - 0]
      Gs := shapeG (cellX P) (cellY P) ![mp.x 0 - nodeX P 0, mp.x 1 - nodeY P j, mp.x 2 - 0] },
    ?_, rfl, ?_, ?_, ?_⟩
  · unfold Particle.getReferenceNode
    rw [hG.dx, hG.dy, if_neg (by rintro (h | h) <;> linarith), hj,
      trunc_just_below hdx hx1 hx2, zero_add]
  · unfold Particle.getBasisFunctions
    simp only [h0, res_ok_bind, hG.dx, hG.dy, hG.X, hG.Y]
    rw [if_neg (mul_pos hdx hdy).ne', Nat.mul_mod_left,
      Nat.mul_div_cancel _ (by omega : 0 < P.nx)]
  · refine nodesOk_range.2 ⟨?_, ?_⟩
    · show -((P.ny * P.nx : ℕ) : ℤ) ≤ (j : ℤ) * P.nx
      push_cast; nlinarith
    · show (j : ℤ) * P.nx + P.nx + 1 < ((P.ny * P.nx : ℕ) : ℤ)
      push_cast; nlinarith
  · simp only [shapeN]
    refine div_neg_of_neg_of_pos (mul_neg_of_neg_of_pos ?_ ?_) (mul_pos hdx hdy)
    · simp [nodeX]; linarith
    · simp [nodeY]
      have : cellY P = (P.y_M - P.y_m) / (P.ny - 1) := rfl
      rw [← this]
      linarith

/-- The same below the domain. -/
theorem c04_below_domain {P : GP K} (hP : GoodGrid P) {G : Grid K P.N ns} (hG : Geometry P G)
    (mp : Particle K ns) (hy1 : P.y_m - cellY P < mp.x 1) (hy2 : mp.x 1 < P.y_m)
    (hx : P.x_m ≤ mp.x 0 ∧ mp.x 0 < P.x_M) :
    ∃ i : ℕ, i + 1 < P.nx ∧ ∃ mp1 mp2, mp.getReferenceNode P G.dx G.dy = .ok mp1 ∧
      mp1.n_star = i ∧ mp1.getBasisFunctions G = .ok mp2 ∧ NodesOk P.nx P.N mp2 ∧
      mp2.N 3 < 0 := by
  have hdx := cellX_pos hP
  have hdy := cellY_pos hP
  have hny := hP.ny
  obtain ⟨i, hi, hi1, hi2, hi3⟩ := trunc_cell hdx (cellX_mul hP) hx.1 hx.2
  have hN : 2 * P.nx ≤ P.N := Nat.mul_le_mul_right _ hny
  have hlt : i < P.N := by omega
  have h0 : pyIdx P.N (i : ℤ) = .ok ⟨i, hlt⟩ := pyIdx_nonneg hlt
  refine ⟨i, hi1, { mp with n_star := (i : ℤ) }, { mp with
      n_star := (i : ℤ)
      N := shapeN (cellX P) (cellY P) ![mp.x 0 - nodeX P i, mp.x 1 - nodeY P 0, mp.x 2 - 0]
      Gs := shapeG (cellX P) (cellY P) ![mp.x 0 - nodeX P i, mp.x 1 - nodeY P 0, mp.x 2 - 0] },
    ?_, rfl, ?_, ?_, ?_⟩
  · unfold Particle.getReferenceNode
    rw [hG.dx, hG.dy, if_neg (by rintro (h | h) <;> linarith), hi,
      trunc_just_below hdy hy1 hy2, zero_mul, add_zero]
  · unfold Particle.getBasisFunctions
    simp only [h0, res_ok_bind, hG.dx, hG.dy, hG.X, hG.Y]
    rw [if_neg (mul_pos hdx hdy).ne', Nat.mod_eq_of_lt (by omega : i < P.nx),
      Nat.div_eq_of_lt (by omega : i < P.nx)]
  · refine nodesOk_range.2 ⟨?_, ?_⟩ <;> simp only <;> omega
  · simp only [shapeN]
    refine div_neg_of_neg_of_pos (mul_neg_of_pos_of_neg ?_ ?_) (mul_pos hdx hdy)
    · simp [nodeX]
      have : cellX P = (P.x_M - P.x_m) / (P.nx - 1) := rfl
      rw [← this]
      linarith
    · simp [nodeY]; linarith

/-- A point at or above the top edge (and not left of the domain) makes the mapping raise
IndexError. -/
theorem c04_above_top {P : GP K} (hP : GoodGrid P) {G : Grid K P.N ns} (hG : Geometry P G)
    (seg : Bool) (vel : Vec K) (mp : Particle K ns) (hx : P.x_m ≤ mp.x 0)
    (hy : P.y_M ≤ mp.x 1) : mapOne P seg vel G mp = .error .index := by
  have hdx := cellX_pos hP
  have hdy := cellY_pos hP
  have hny := hP.ny
  have h1 := trunc_ge (n := 0) (a := P.x_m) (x := mp.x 0) hdx (by simpa using hx)
  have h2 := trunc_ge (n := P.ny - 1) (a := P.y_m) (x := mp.x 1) hdy (by
    have := cellY_mul hP
    rw [Nat.cast_sub (by omega)]
    push_cast
    linarith)
  obtain ⟨h3, h4⟩ := c04_exact hP hG seg vel mp
  refine h4 fun h => ?_
  have h5 := (h3.1 h).2
  unfold refNumber at h5
  have h6 : ((P.ny - 1 : ℕ) : ℤ) * P.nx ≤ pyTrunc ((mp.x 1 - P.y_m) / cellY P) * P.nx :=
    mul_le_mul_of_nonneg_right h2 (by positivity)
  have h7 : ((P.ny - 1 : ℕ) : ℤ) * P.nx + P.nx = ((P.ny * P.nx : ℕ) : ℤ) := by
    rw [Nat.cast_sub (by omega)]; push_cast; ring
  push_cast at h1
  have : ((P.N : ℕ) : ℤ) = ((P.ny * P.nx : ℕ) : ℤ) := rfl
  omega

/-- A point at or beyond the right edge in the top row of cells does so too: even exactly on the
edge, where the weights of the missing nodes would be zero. -/
theorem c04_right_edge_top_row {P : GP K} (hP : GoodGrid P) {G : Grid K P.N ns}
    (hG : Geometry P G) (seg : Bool) (vel : Vec K) (mp : Particle K ns) (hx : P.x_M ≤ mp.x 0)
    (hy : P.y_M - cellY P ≤ mp.x 1) : mapOne P seg vel G mp = .error .index := by
  have hdx := cellX_pos hP
  have hdy := cellY_pos hP
  have hnx := hP.nx
  have hny := hP.ny
  have h1 := trunc_ge (n := P.nx - 1) (a := P.x_m) (x := mp.x 0) hdx (by
    have := cellX_mul hP
    rw [Nat.cast_sub (by omega)]
    push_cast
    linarith)
  have h2 := trunc_ge (n := P.ny - 2) (a := P.y_m) (x := mp.x 1) hdy (by
    have := cellY_mul hP
    rw [Nat.cast_sub (by omega)]
    push_cast
    linarith)
  obtain ⟨h3, h4⟩ := c04_exact hP hG seg vel mp
  refine h4 fun h => ?_
  have h5 := (h3.1 h).2
  unfold refNumber at h5
  have h6 : ((P.ny - 2 : ℕ) : ℤ) * P.nx ≤ pyTrunc ((mp.x 1 - P.y_m) / cellY P) * P.nx :=
    mul_le_mul_of_nonneg_right h2 (by positivity)
  have h7 : ((P.ny - 2 : ℕ) : ℤ) * P.nx + P.nx + P.nx = ((P.ny * P.nx : ℕ) : ℤ) := by
    rw [Nat.cast_sub (by omega)]; push_cast; ring
  have : ((P.N : ℕ) : ℤ) = ((P.ny * P.nx : ℕ) : ℤ) := rfl
  omega

/-- A point in the bottom row of cells, `c` whole cells to the left of the domain
(`1 ≤ c ≤ nx`), is mapped without any exception to a reference node in the *top* row of the
grid. -/
theorem c04_wraps_around {P : GP K} (hP : GoodGrid P) {G : Grid K P.N ns} (hG : Geometry P G)
    (mp : Particle K ns) (c : ℕ) (hc : 1 ≤ c ∧ c ≤ P.nx)
    (hx : P.x_m - (c + 1) * cellX P < mp.x 0 ∧ mp.x 0 ≤ P.x_m - c * cellX P)
    (hy : P.y_m ≤ mp.x 1 ∧ mp.x 1 < P.y_m + cellY P) :
    ∃ mp1 mp2, mp.getReferenceNode P G.dx G.dy = .ok mp1 ∧ mp1.getBasisFunctions G = .ok mp2 ∧
      NodesOk P.nx P.N mp2 ∧
      ∃ k : Fin P.N, mp2.node P.nx P.N 0 = .ok k ∧ (k : ℕ) / P.nx = P.ny - 1 := by
  have hdx := cellX_pos hP
  have hdy := cellY_pos hP
  have hnx := hP.nx
  have hny := hP.ny
  have hcK : (1 : K) ≤ c := by exact_mod_cast hc.1
  have hi : pyTrunc ((mp.x 0 - P.x_m) / cellX P) = -(c : ℤ) := by
    have hneg : (mp.x 0 - P.x_m) / cellX P < 0 :=
      div_neg_of_neg_of_pos (by nlinarith [hx.2]) hdx
    unfold pyTrunc
    rw [if_neg (not_le.2 hneg), Int.ceil_eq_iff]
    constructor
    · rw [lt_div_iff₀ hdx]; push_cast; linarith [hx.1]
    · rw [div_le_iff₀ hdx]; push_cast; linarith [hx.2]
  have hj : pyTrunc ((mp.x 1 - P.y_m) / cellY P) = 0 := by
    have h0 : 0 ≤ (mp.x 1 - P.y_m) / cellY P := div_nonneg (by linarith [hy.1]) hdy.le
    unfold pyTrunc
    rw [if_pos h0, Int.floor_eq_iff]
    push_cast
    exact ⟨h0, by rw [div_lt_iff₀ hdy]; linarith [hy.2]⟩
  have hN : (P.ny - 1) * P.nx + P.nx = P.N := by
    have : P.ny - 1 + 1 = P.ny := by omega
    calc (P.ny - 1) * P.nx + P.nx = (P.ny - 1 + 1) * P.nx := by ring
      _ = P.N := by rw [this]
  have hk : pyIdx P.N (-(c : ℤ)) = .ok ⟨P.N - c, by omega⟩ := by
    rw [pyIdx_ok_iff]
    right
    simp only
    rw [Nat.cast_sub (by omega)]
    ring
  have h2N : 2 * P.nx ≤ P.N := Nat.mul_le_mul_right _ hny
  refine ⟨{ mp with n_star := -(c : ℤ) }, { mp with
      n_star := -(c : ℤ)
      N := shapeN G.dx G.dy ![mp.x 0 - G.X ⟨P.N - c, by omega⟩, mp.x 1 - G.Y ⟨P.N - c, by omega⟩,
        mp.x 2 - 0]
      Gs := shapeG G.dx G.dy ![mp.x 0 - G.X ⟨P.N - c, by omega⟩,
        mp.x 1 - G.Y ⟨P.N - c, by omega⟩, mp.x 2 - 0] }, ?_, ?_, ?_, ⟨P.N - c, by omega⟩, ?_, ?_⟩
  · unfold Particle.getReferenceNode
    rw [hG.dx, hG.dy, if_neg (by rintro (h | h) <;> linarith), hi, hj, zero_mul, add_zero]
  · unfold Particle.getBasisFunctions
    simp only [hk, res_ok_bind]
    rw [if_neg (by rw [hG.dx, hG.dy]; exact (mul_pos hdx hdy).ne')]
  · refine nodesOk_range.2 ⟨?_, ?_⟩ <;> simp only <;> omega
  · unfold Particle.node
    simpa [nearbyNodes] using hk
  · have e : P.N - c = (P.ny - 1) * P.nx + (P.nx - c) := by omega
    show (P.N - c) / P.nx = P.ny - 1
    rw [e, Nat.add_comm, Nat.add_mul_div_right _ _ (by omega : 0 < P.nx), Nat.div_eq_of_lt (by omega),
      Nat.zero_add]

example : Ex.gp.x_m - (1 + 1) * cellX Ex.gp < (-3/2 : ℚ) ∧ (-3/2 : ℚ) ≤ Ex.gp.x_m - 1 * cellX Ex.gp := by
  simp [Ex.gp, cellX]; norm_num

example : Ex.gp.x_m - cellX Ex.gp < (-1/2 : ℚ) ∧ (-1/2 : ℚ) < Ex.gp.x_m := by
  simp [Ex.gp, cellX]; norm_num

example : Ex.gp.x_M ≤ (2 : ℚ) ∧ Ex.gp.y_M - cellY Ex.gp ≤ (3/2 : ℚ) := by
  simp [Ex.gp, cellY]; norm_num

end
end Mpm

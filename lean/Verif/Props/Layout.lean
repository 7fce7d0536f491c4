import Verif.Lemmas.Layout
import Verif.Props.Cyclic
import Verif.Props.Initial

/-!
# C97, C98: the point arrangements of the input files
-/

set_option linter.unusedSectionVars false

namespace Mpm
open Spec

namespace Spec
variable {K : Type} [Field K] [LinearOrder K]

/-- The cells `i0 ≤ i < i0+c`, `j0 ≤ j < j0+r` of the grid, each cut into `p` by `p` equal parts with
a point in the middle of every part, row by row from below, each row from the left. -/
def block (P : GP K) (i0 c j0 r p : ℕ) : List (K × K) :=
  (List.range (r * p)).flatMap fun b => (List.range (c * p)).map fun a =>
    (piece (nodeX P i0) (cellX P / p) a, piece (nodeY P j0) (cellY P / p) b)

instance (P : GP K) (x : Vec K) (i j : ℕ) : Decidable (InCell P x i j) :=
  inferInstanceAs (Decidable (_ ∧ _))

/-- The data of a phase places its points at the positions `l`, in that order. -/
structure At {ns : ℕ} (l : List (K × K)) (a : Phase K ns × PhaseInit K ns) : Prop where
  X : a.2.X = l.map (·.1)
  Y : a.2.Y = l.map (·.2)
  n : a.1.n = l.length

/-- The volume which the points fill around node `k`, with the tent weights. -/
def nodalSpace (P : GP K) {ns : ℕ} (L : List (PhaseSt K ns)) (k : Fin P.N) : K :=
  ((points L).map fun mp => hat P mp.x k * mp.V).sum

end Spec

section
variable {K : Type} [Field K] [LinearOrder K] [IsStrictOrderedRing K] {G : GP K}

theorem sum_block {M : Type} [AddCommMonoid M] (P : GP K) (i0 c j0 r p : ℕ) (f : K → K → M) :
    ((block P i0 c j0 r p).map fun q => f q.1 q.2).sum =
      ∑ b ∈ Finset.range (r * p), ∑ a ∈ Finset.range (c * p),
        f (piece (nodeX P i0) (cellX P / p) a) (piece (nodeY P j0) (cellY P / p) b) := by
  unfold block
  rw [sum_flatMap, sum_map_range]
  refine Finset.sum_congr rfl fun b _ => ?_
  rw [List.map_map, ← sum_map_range]
  rfl

theorem place_block {a b a' b' : K} {i0 c j0 r p : ℕ} (hp : 0 < p)
    (ha : a = nodeX G i0) (hb : b - a = c * cellX G) (ha' : a' = nodeY G j0)
    (hb' : b' - a' = r * cellY G) :
    placePoints (fun _ _ => true) (axisPoints a b (cellX G) p (c * p))
      (axisPoints a' b' (cellY G) p (r * p)) = block G i0 c j0 r p := by
  rw [placePoints_all, axisPoints_eq hp hb, axisPoints_eq hp hb', ha, ha', block, List.flatMap_map]
  refine congrArg (List.flatMap · _) ?_
  funext y
  rw [List.map_map]
  rfl

theorem cells_x (hG : GoodGrid G) : G.x_M - G.x_m = ((G.nx - 1 : ℕ) : K) * cellX G := by
  have := hG.nx
  have h : (G.nx : K) - 1 ≠ 0 := by
    have : (2 : K) ≤ G.nx := by exact_mod_cast hG.nx
    intro h; linarith
  rw [Nat.cast_sub (by omega)]
  unfold cellX
  push_cast
  field_simp

theorem cells_y (hG : GoodGrid G) : G.y_M - G.y_m = ((G.ny - 1 : ℕ) : K) * cellY G := by
  have := hG.ny
  have h : (G.ny : K) - 1 ≠ 0 := by
    have : (2 : K) ≤ G.ny := by exact_mod_cast hG.ny
    intro h; linarith
  rw [Nat.cast_sub (by omega)]
  unfold cellY
  push_cast
  field_simp

/-! ## C97: which cells are filled -/

/-- C97.  The loop over the whole domain fills every cell. -/
theorem c97_full (hG : GoodGrid G) {p : ℕ} (hp : 0 < p) :
    fullLayout G p (fun _ _ => true) = block G 0 (G.nx - 1) 0 (G.ny - 1) p := by
  unfold fullLayout
  rw [gridDx_eq, gridDy_eq]
  exact place_block hp (by simp [nodeX]) (cells_x hG) (by simp [nodeY]) (cells_y hG)

/-- C97.  incline.py and francois.py fill all rows of cells but the top one. -/
theorem c97_topless (hG : GoodGrid G) {p : ℕ} (hp : 0 < p) :
    toplessLayout G p (fun _ _ => true) = block G 0 (G.nx - 1) 0 (G.ny - 2) p := by
  unfold toplessLayout
  rw [gridDx_eq, gridDy_eq]
  refine place_block hp (by simp [nodeX]) (cells_x hG) (by simp [nodeY]) ?_
  have := hG.ny
  have e := cells_y hG
  rw [show G.ny - 1 = G.ny - 2 + 1 by omega] at e
  push_cast at e
  change G.y_M - cellY G - G.y_m = _
  linarith

/-- C97.  dam_break.py fills the right quarter of the cells, without the top row, if the domain
starts at zero and the number of columns is divisible by four. -/
theorem c97_dam (hG : GoodGrid G) {p c : ℕ} (hp : 0 < p) (h0 : G.x_m = 0) (hc : G.nx - 1 = 4 * c) :
    damLayout G p = block G (3 * c) c 0 (G.ny - 2) p := by
  unfold damLayout
  rw [gridDx_eq, gridDy_eq]
  have hq : (G.nx - 1) / 4 = c := by omega
  rw [hq]
  have ex := cells_x hG
  rw [hc] at ex
  push_cast at ex
  refine place_block hp ?_ ?_ (by simp [nodeY]) ?_
  · unfold nodeX
    change _ = G.x_m + _ * cellX G
    push_cast
    rw [h0] at ex ⊢
    linarith
  · rw [h0] at ex ⊢
    change _ = _ * cellX G
    linarith
  · have := hG.ny
    have e := cells_y hG
    rw [show G.ny - 1 = G.ny - 2 + 1 by omega] at e
    push_cast at e
    change G.y_M - cellY G - G.y_m = _
    linarith

theorem head_rows {α β : Type} {f : ℕ → α} {g : ℕ → β} {m n : ℕ} (hm : 0 < m) (hn : 0 < n) :
    ((List.range m).flatMap fun b => (List.range n).map fun a => (f a, g b)).head? =
      some (f 0, g 0) := by
  obtain ⟨m, rfl⟩ : ∃ k, m = k + 1 := ⟨m - 1, by omega⟩
  obtain ⟨n, rfl⟩ : ∃ k, n = k + 1 := ⟨n - 1, by omega⟩
  rw [List.range_succ_eq_map, List.range_succ_eq_map]
  simp

/-- C97.  The block of dam_break.py begins a quarter of `x_m + x_M` from the right end, which is not a
quarter of the width: it fills the right quarter of the cells only if the domain starts at zero. -/
theorem c97_dam_origin (hG : GoodGrid G) {p c : ℕ} (hp : 0 < p) (hc0 : 0 < c) (hny : 2 < G.ny)
    (hc : G.nx - 1 = 4 * c) :
    damLayout G p = block G (3 * c) c 0 (G.ny - 2) p ↔ G.x_m = 0 := by
  refine ⟨fun h => ?_, fun h0 => c97_dam hG hp h0 hc⟩
  have hq : (G.nx - 1) / 4 = c := by omega
  have ex := cells_x hG
  rw [hc] at ex
  push_cast at ex
  have h1 := congrArg List.head? h
  unfold damLayout at h1
  rw [placePoints_all, block, head_rows (Nat.mul_pos (by omega) hp) (Nat.mul_pos hc0 hp), hq] at h1
  unfold axisPoints linspaceL at h1
  rw [List.flatMap_map] at h1
  simp only [List.map_map] at h1
  have h2 := head_rows (f := linspace (G.x_M - (G.x_m + G.x_M) / 4 + gridDx G / (2 * (p : K)))
    (G.x_M - gridDx G / (2 * (p : K))) (c * p)) (g := linspace (G.y_m + gridDy G / (2 * (p : K)))
    (G.y_M - gridDy G - gridDy G / (2 * (p : K))) ((G.ny - 2) * p))
    (Nat.mul_pos (show 0 < G.ny - 2 by omega) hp) (Nat.mul_pos hc0 hp)
  have h3 := congrArg Prod.fst (Option.some.inj (h2.symm.trans h1))
  have hp' : (p : K) ≠ 0 := Nat.cast_ne_zero.2 hp.ne'
  simp only [linspace, piece, nodeX, gridDx_eq, Nat.cast_zero, zero_mul, add_zero] at h3
  change _ = G.x_m + ((3 * c : ℕ) : K) * cellX G + _ at h3
  push_cast at h3
  have e : cellX G / (2 * (p : K)) = (0 + 1 / 2) * (cellX G / p) := by field_simp; ring
  rw [e] at h3
  linarith

/-- C97.  bi_dam_break.py fills the rightmost of `L` equal boxes of cells, if the number of columns is
divisible by `L`. -/
theorem c97_box (hG : GoodGrid G) {p c L : ℕ} (hp : 0 < p) (hL : 0 < L) (hc : G.nx - 1 = L * c) :
    boxLayout G L p = block G ((L - 1) * c) c 0 (G.ny - 1) p := by
  unfold boxLayout
  rw [gridDx_eq, gridDy_eq]
  have hq : (G.nx - 1) / L = c := by rw [hc, Nat.mul_div_cancel_left c hL]
  rw [hq]
  have ex := cells_x hG
  rw [hc] at ex
  have hL' : (L : K) ≠ 0 := by exact_mod_cast hL.ne'
  push_cast at ex
  refine place_block hp ?_ ?_ (by simp [nodeY]) (cells_y hG)
  · unfold nodeX
    change _ = G.x_m + _ * cellX G
    rw [ex]
    push_cast [Nat.cast_sub hL]
    field_simp
  · have : G.x_M - (G.x_m + ((L : K) - 1) / L * (G.x_M - G.x_m)) = (G.x_M - G.x_m) / L := by
      field_simp; ring
    rw [this, ex]
    change _ = _ * cellX G
    field_simp

/-- C97.  bi_conveyor.py fills the lower half of the cells, if the number of rows is even. -/
theorem c97_conveyor (hG : GoodGrid G) {p r : ℕ} (hp : 0 < p) (hr : G.ny - 1 = 2 * r) :
    conveyorLayout G p = block G 0 (G.nx - 1) 0 r p := by
  unfold conveyorLayout
  rw [gridDx_eq, gridDy_eq]
  have hq : (G.ny - 1) / 2 = r := by omega
  rw [hq]
  have e := cells_y hG
  rw [hr] at e
  push_cast at e
  refine place_block hp (by simp [nodeX]) (cells_x hG) (by simp [nodeY]) ?_
  change _ = _ * cellY G
  linarith

/-! ## C97: what a block of filled cells is -/

/-- C97.  The number of points. -/
theorem c97_count (P : GP K) (i0 c j0 r p : ℕ) : (block P i0 c j0 r p).length = c * r * (p * p) := by
  have h := sum_block P i0 c j0 r p (fun _ _ => 1)
  rw [List.map_const', List.sum_replicate] at h
  simp at h
  rw [h]; ring

/-- C97.  Every cell of the block holds `p*p` points, every other cell none. -/
theorem c97_cells (hG : GoodGrid G) {i0 c j0 r p : ℕ} (hp : 0 < p) (hc : i0 + c < G.nx)
    (hr : j0 + r < G.ny) (i j : ℕ) :
    ((block G i0 c j0 r p).filter fun q => InCell G ![q.1, q.2, 0] i j).length =
      if (i0 ≤ i ∧ i < i0 + c) ∧ (j0 ≤ j ∧ j < j0 + r) then p * p else 0 := by
  have e1 : ∀ l : List (K × K), (l.filter fun q => InCell G ![q.1, q.2, 0] i j).length =
      (l.map fun q => if InCell G ![q.1, q.2, 0] i j then 1 else 0).sum := by
    intro l
    induction l with
    | nil => rfl
    | cons a l ih =>
      rw [List.filter_cons, List.map_cons, List.sum_cons, ← ih]
      split <;> simp_all [Nat.add_comm]
  by_cases hb : i + 1 < G.nx ∧ j + 1 < G.ny
  · have e2 : ∀ a b, InCell G ![piece (nodeX G i0) (cellX G / p) a, piece (nodeY G j0) (cellY G / p) b, 0]
        i j ↔ (i0 + a / p = i ∧ j0 + b / p = j) := by
      intro a b
      have k1 := piece_cell (a := G.x_m) (cellX_pos hG) hp i0 a i
      have k2 := piece_cell (a := G.y_m) (cellY_pos hG) hp j0 b j
      unfold InCell
      constructor
      · rintro ⟨h1, h2, -⟩
        exact ⟨k1.1 h1, k2.1 h2⟩
      · rintro ⟨h1, h2⟩
        exact ⟨k1.2 h1, k2.2 h2, hb⟩
    have e3 := sum_block G i0 c j0 r p (fun x y => if InCell G ![x, y, 0] i j then 1 else 0)
    rw [e1, e3]
    simp only [e2]
    have e4 : ∀ a b : ℕ, (if i0 + a / p = i ∧ j0 + b / p = j then 1 else 0) =
        (if i0 + a / p = i then 1 else 0) * (if j0 + b / p = j then 1 else 0) := by
      intro a b
      split_ifs <;> simp_all
    simp only [e4, ← Finset.sum_mul, ← Finset.mul_sum]
    rw [Finset.sum_boole, Finset.sum_boole, Nat.cast_id, Nat.cast_id, card_quotient hp,
      card_quotient hp]
    split_ifs <;> simp_all
  · rw [if_neg (by omega), e1]
    refine List.sum_eq_zero fun x hx => ?_
    obtain ⟨q, -, rfl⟩ := List.mem_map.1 hx
    exact if_neg fun h => hb h.2.2

theorem piece_inside {a d : K} (hd : 0 < d) {p : ℕ} (hp : 0 < p) {i0 c r n : ℕ} (hr : r < c * p)
    (hn : i0 + c ≤ n) :
    a < piece (a + i0 * d) (d / p) r ∧ piece (a + i0 * d) (d / p) r < a + n * d := by
  have hp' : (0 : K) < p := by exact_mod_cast hp
  constructor
  · unfold piece
    have h1 : 0 < ((r : K) + 1 / 2) * (d / p) :=
      mul_pos (by have := Nat.cast_nonneg (α := K) r; linarith) (div_pos hd hp')
    have h2 : 0 ≤ (i0 : K) * d := mul_nonneg (Nat.cast_nonneg _) hd.le
    linarith
  · have h := ((piece_cell (a := a) hd hp i0 r (i0 + r / p)).2 rfl).2
    have h1 : r / p < c := Nat.div_lt_of_lt_mul (by rw [Nat.mul_comm]; exact hr)
    have h2 : i0 + r / p + 1 ≤ n := by
      generalize r / p = q at h1
      omega
    have h3 : ((i0 + r / p + 1 : ℕ) : K) * d ≤ n * d :=
      mul_le_mul_of_nonneg_right (by exact_mod_cast h2) hd.le
    linarith

/-- C97.  Every point is inside the domain. -/
theorem c97_inside (hG : GoodGrid G) {i0 c j0 r p : ℕ} (hp : 0 < p) (hc : i0 + c < G.nx)
    (hr : j0 + r < G.ny) {q : K × K} (hq : q ∈ block G i0 c j0 r p) :
    (G.x_m < q.1 ∧ q.1 < G.x_M) ∧ (G.y_m < q.2 ∧ q.2 < G.y_M) := by
  obtain ⟨b, hb, h⟩ := List.mem_flatMap.1 hq
  obtain ⟨a, ha, rfl⟩ := List.mem_map.1 h
  have ha' := List.mem_range.1 ha
  have hb' := List.mem_range.1 hb
  have ex := cells_x hG
  have ey := cells_y hG
  rw [sub_eq_iff_eq_add'] at ex ey
  rw [ex, ey]
  exact ⟨piece_inside (cellX_pos hG) hp ha' (by omega), piece_inside (cellY_pos hG) hp hb' (by omega)⟩

/-- C97.  The weights of a node sum up to a quarter of `p*p` for each cell of the block at that
node. -/
theorem c97_weights (hG : GoodGrid G) {i0 c j0 r p : ℕ} (hp : 0 < p) (k : Fin G.N) :
    ((block G i0 c j0 r p).map fun q => hat G ![q.1, q.2, 0] k).sum =
      (p : K) ^ 2 / 4 * (touching i0 c ((k : ℕ) % G.nx) * touching j0 r ((k : ℕ) / G.nx)) := by
  have e := sum_block G i0 c j0 r p (fun x y => hat G ![x, y, 0] k)
  rw [e]
  have e2 : ∀ x y : K, hat G ![x, y, 0] k = tent (cellX G) (x - nodeX G ((k : ℕ) % G.nx)) *
      tent (cellY G) (y - nodeY G ((k : ℕ) / G.nx)) := fun x y => rfl
  simp only [e2, ← Finset.sum_mul]
  rw [← Finset.mul_sum]
  have s1 := sum_tent_line (a := G.x_m) (cellX_pos hG) hp i0 c ((k : ℕ) % G.nx)
  have s2 := sum_tent_line (a := G.y_m) (cellY_pos hG) hp j0 r ((k : ℕ) / G.nx)
  change ∑ a ∈ Finset.range (c * p), tent (cellX G)
    (piece (nodeX G i0) (cellX G / p) a - nodeX G ((k : ℕ) % G.nx)) = _ at s1
  change ∑ b ∈ Finset.range (r * p), tent (cellY G)
    (piece (nodeY G j0) (cellY G / p) b - nodeY G ((k : ℕ) / G.nx)) = _ at s2
  rw [s1, s2]
  ring

/-! ## C98: the volume and the mass around each node -/

theorem placed_sum {M : Type} [AddCommMonoid M] {ns : ℕ} {P : Par K} {g : K}
    {l : List (K × K)} {a : Phase K ns × PhaseInit K ns} (ha : At l a) {pts : List (Particle K ns)}
    (hn : pts.length = a.1.n)
    (h : ∀ i mp, pts[i]? = some mp → Placed P g a.1 a.2 i mp) (f : K → K → M) :
    (pts.map fun mp => f (mp.x 0) (mp.x 1)).sum = (l.map fun q => f q.1 q.2).sum := by
  refine congrArg List.sum (List.ext_getElem? fun i => ?_)
  rw [List.getElem?_map, List.getElem?_map]
  cases hi : pts[i]? with
  | none =>
    have := List.getElem?_eq_none_iff.1 hi
    rw [List.getElem?_eq_none (by rw [← ha.n, ← hn]; exact this)]
    rfl
  | some mp =>
    have q := h i mp hi
    have hx := q.x
    have hy := q.y
    rw [ha.X, List.getElem?_map] at hx
    rw [ha.Y, List.getElem?_map] at hy
    cases hl : l[i]? with
    | none => rw [hl] at hx; cases hx
    | some r =>
      rw [hl] at hx hy
      simp only [Option.map_some, Option.some.injEq] at hx hy ⊢
      rw [hx, hy]

end

section
variable {K : Type} [Field K] [LinearOrder K] [IsStrictOrderedRing K] [FloorRing K] {P : Par K}
  {g : K}

theorem placed_space {ns : ℕ} {l : List (K × K)} {a : Phase K ns × PhaseInit K ns} (ha : At l a)
    {pts : List (Particle K ns)} (hn : pts.length = a.1.n)
    (h : ∀ i mp, pts[i]? = some mp → Placed P g a.1 a.2 i mp) (k : Fin P.G.N) :
    (pts.map fun mp => hat P.G mp.x k * mp.V).sum =
      a.1.A * P.G.thickness * (l.map fun q => hat P.G ![q.1, q.2, 0] k).sum := by
  have e := placed_sum ha hn h (fun x y => hat P.G ![x, y, 0] k * (a.1.A * P.G.thickness))
  rw [mul_comm, ← List.sum_map_mul_right, ← e]
  refine congrArg List.sum (List.map_congr_left fun mp hmp => ?_)
  obtain ⟨i, hi⟩ := List.getElem?_of_mem hmp
  rw [(h i mp hi).V]
  rfl

/-- The volume around a node, phase by phase. -/
theorem mkList_space {S : List (Phase K P.G.ns × PhaseInit K P.G.ns)} {L : List (PhaseSt K P.G.ns)}
    (h : mkList P g S = .ok L) {l : List (List (K × K))} (hl : List.Forall₂ At l S) (k : Fin P.G.N) :
    nodalSpace P.G L k = ((l.zip S).map fun q => q.2.1.A * P.G.thickness *
      (q.1.map fun q => hat P.G ![q.1, q.2, 0] k).sum).sum := by
  have r := c64_points h
  clear h
  induction hl generalizing L with
  | nil => cases r; rfl
  | @cons x a l S hx _ ih =>
    cases r with
    | cons hab r =>
      rename_i b L
      rw [List.zip_cons_cons, List.map_cons, List.sum_cons, ← ih r]
      unfold nodalSpace points
      rw [List.flatMap_cons, List.map_append, List.sum_append, placed_space hx hab.2.1 hab.2.2]

theorem mkList_one {a : Phase K P.G.ns × PhaseInit K P.G.ns} {L : List (PhaseSt K P.G.ns)}
    (h : mkList P g [a] = .ok L) (k : Fin P.G.N) :
    nodalMass P.G L k = a.1.par.rho * nodalSpace P.G L k := by
  have r := c64_points h
  cases r with
  | cons hab r =>
    cases r
    rename_i b
    unfold nodalMass nodalSpace points
    rw [List.flatMap_cons, List.flatMap_nil, List.append_nil, ← List.sum_map_mul_left]
    refine congrArg List.sum (List.map_congr_left fun mp hmp => ?_)
    obtain ⟨i, hi⟩ := List.getElem?_of_mem hmp
    rw [(hab.2.2 i mp hi).V, (hab.2.2 i mp hi).m]
    ring

/-- C98.  A phase that fills a block of cells with `p*p` points each of area `A` gives each corner of
each cell of the block a quarter of the volume of the cell's points. -/
theorem c98_block (hG : GoodGrid P.G) {p i0 c j0 r : ℕ} (hp : 0 < p)
    {a : Phase K P.G.ns × PhaseInit K P.G.ns} (ha : At (block P.G i0 c j0 r p) a)
    {L : List (PhaseSt K P.G.ns)} (h : mkList P g [a] = .ok L) (k : Fin P.G.N) :
    nodalSpace P.G L k = (p : K) ^ 2 * a.1.A * P.G.thickness / 4 *
      (touching i0 c ((k : ℕ) % P.G.nx) * touching j0 r ((k : ℕ) / P.G.nx)) := by
  rw [mkList_space h (.cons ha .nil)]
  simp only [List.zip_cons_cons, List.zip_nil_right, List.map_cons, List.map_nil, List.sum_cons,
    List.sum_nil, add_zero]
  rw [c97_weights hG hp]
  ring

theorem touching_all {n i : ℕ} (hn : 2 ≤ n) (hi : i < n) :
    (touching 0 (n - 1) i : K) = 2 * halfEnd n i := by
  have e : touching 0 (n - 1) i = if i = 0 ∨ i = n - 1 then 1 else 2 := by
    unfold touching
    rw [Nat.zero_add]
    split
    · rename_i h
      rw [Finset.card_eq_one]
      rcases h with rfl | rfl
      · refine ⟨0, Finset.ext fun q => ?_⟩
        simp only [Finset.mem_filter, Finset.mem_Ico, Finset.mem_singleton]
        omega
      · refine ⟨n - 2, Finset.ext fun q => ?_⟩
        simp only [Finset.mem_filter, Finset.mem_Ico, Finset.mem_singleton]
        omega
    · rename_i h
      rw [Finset.card_eq_two]
      refine ⟨i - 1, i, by omega, Finset.ext fun q => ?_⟩
      simp only [Finset.mem_filter, Finset.mem_Ico, Finset.mem_singleton, Finset.mem_insert]
      omega
  rw [e]
  unfold halfEnd
  split_ifs <;> norm_num

/-- Volume of the part of the domain that is nearest to node `k`. -/
def Spec.ownVolume (P : GP K) (k : Fin P.N) : K :=
  halfEnd P.ny ((k : ℕ) / P.nx) * halfEnd P.nx ((k : ℕ) % P.nx) * (cellX P * cellY P * P.thickness)

theorem own_space (hG : GoodGrid P.G) {p : ℕ} (hp : 0 < p)
    (f : K) (k : Fin P.G.N) :
    f * P.G.thickness * (((fullLayout P.G p (fun _ _ => true)).map
      fun q => hat P.G ![q.1, q.2, 0] k).sum) * (cellArea P.G p) = f * ownVolume P.G k := by
  have hp' : (p : K) ≠ 0 := by exact_mod_cast hp.ne'
  have hk : (k : ℕ) / P.G.nx < P.G.ny :=
    Nat.div_lt_of_lt_mul (by rw [Nat.mul_comm]; exact k.isLt)
  have hk' : (k : ℕ) % P.G.nx < P.G.nx := Nat.mod_lt _ (by have := hG.nx; omega)
  rw [c97_full hG hp, c97_weights hG hp, touching_all hG.nx hk', touching_all hG.ny hk, cellArea,
    gridDx_eq, gridDy_eq, ownVolume]
  field_simp
  ring

/-- C98.  The two ways in which the files compute the area of a point agree. -/
theorem c98_area (hG : GoodGrid P.G) {p n : ℕ} (hp : 0 < p)
    (hn : n = (fullLayout P.G p (fun _ _ => true)).length) :
    domainArea P.G n = cellArea P.G p := by
  have hp' : (p : K) ≠ 0 := by exact_mod_cast hp.ne'
  have h1 : ((P.G.nx - 1 : ℕ) : K) ≠ 0 := by have := hG.nx; exact_mod_cast (by omega)
  have h2 : ((P.G.ny - 1 : ℕ) : K) ≠ 0 := by have := hG.ny; exact_mod_cast (by omega)
  rw [hn, c97_full hG hp, c97_count, domainArea, cells_x hG, cells_y hG, cellArea, gridDx_eq,
    gridDy_eq]
  push_cast
  field_simp

theorem full_keep (G : GP K) (p : ℕ) (f : K → K → Bool) :
    fullLayout G p f = (fullLayout G p (fun _ _ => true)).filter fun q => f q.1 q.2 := by
  unfold fullLayout
  rw [placePoints_eq, placePoints_all]

theorem shared_space {p : ℕ} {S : List (Phase K P.G.ns × PhaseInit K P.G.ns)}
    {keeps : List (K → K → Bool)}
    (hS : List.Forall₂ (fun f a => At (fullLayout P.G p f) a ∧ a.1.A = cellArea P.G p) keeps S)
    {L : List (PhaseSt K P.G.ns)} (h : mkList P g S = .ok L) (k : Fin P.G.N) :
    nodalSpace P.G L k = cellArea P.G p * P.G.thickness *
      ((fullLayout P.G p (fun _ _ => true)).map fun q =>
        ((keeps.filter fun f => f q.1 q.2).length : K) * hat P.G ![q.1, q.2, 0] k).sum := by
  have hl : List.Forall₂ At (keeps.map (fullLayout P.G p)) S := by
    rw [List.forall₂_map_left_iff]
    exact hS.imp fun _ _ h => h.1
  rw [mkList_space h hl]
  clear h hl
  induction hS with
  | nil => simp
  | @cons f a keeps S hx _ ih =>
    rw [List.map_cons, List.zip_cons_cons, List.map_cons, List.sum_cons, ih, hx.2, full_keep,
      sum_filter_map (fun q : K × K => f q.1 q.2) (fun q => hat P.G ![q.1, q.2, 0] k), ← mul_add,
      ← List.sum_map_add]
    congr 3
    funext q
    rw [List.filter_cons]
    cases f q.1 q.2
    · simp
    · simp; ring

/-- C98.  Phases that share out the points of the whole domain among themselves fill all of the
domain: every node's own volume, no less and no more. -/
theorem c98_shared (hG : GoodGrid P.G) {p : ℕ} (hp : 0 < p)
    {S : List (Phase K P.G.ns × PhaseInit K P.G.ns)} {keeps : List (K → K → Bool)}
    (hS : List.Forall₂ (fun f a => At (fullLayout P.G p f) a ∧ a.1.A = cellArea P.G p) keeps S)
    (hk : ∀ q ∈ fullLayout P.G p (fun _ _ => true), (keeps.filter fun f => f q.1 q.2).length = 1)
    {L : List (PhaseSt K P.G.ns)} (h : mkList P g S = .ok L) (k : Fin P.G.N) :
    nodalSpace P.G L k = ownVolume P.G k := by
  rw [shared_space hS h, ← one_mul (ownVolume P.G k), ← own_space hG hp 1 k, one_mul]
  have e : ((fullLayout P.G p (fun _ _ => true)).map fun q =>
      ((keeps.filter fun f => f q.1 q.2).length : K) * hat P.G ![q.1, q.2, 0] k) =
      (fullLayout P.G p (fun _ _ => true)).map fun q => hat P.G ![q.1, q.2, 0] k := by
    refine List.map_congr_left fun q hq => ?_
    rw [hk q hq, Nat.cast_one, one_mul]
  rw [e]
  ring

theorem hat_nonneg' (G : GP K) (x : Vec K) (k : Fin G.N) : 0 ≤ hat G x k :=
  mul_nonneg (le_max_left _ _) (le_max_left _ _)

/-- C98.  Phases with points at different places of the arrangement never fill a node more than its
own volume. -/
theorem c98_part (hG : GoodGrid P.G) (hth : 0 ≤ P.G.thickness) {p : ℕ} (hp : 0 < p)
    {S : List (Phase K P.G.ns × PhaseInit K P.G.ns)} {keeps : List (K → K → Bool)}
    (hS : List.Forall₂ (fun f a => At (fullLayout P.G p f) a ∧ a.1.A = cellArea P.G p) keeps S)
    (hk : ∀ q ∈ fullLayout P.G p (fun _ _ => true), (keeps.filter fun f => f q.1 q.2).length ≤ 1)
    {L : List (PhaseSt K P.G.ns)} (h : mkList P g S = .ok L) (k : Fin P.G.N) :
    nodalSpace P.G L k ≤ ownVolume P.G k := by
  have hA : 0 ≤ cellArea P.G p := by
    rw [cellArea, gridDx_eq, gridDy_eq]
    exact div_nonneg (mul_nonneg (cellX_pos hG).le (cellY_pos hG).le) (sq_nonneg _)
  have e : ownVolume P.G k = cellArea P.G p * P.G.thickness *
      ((fullLayout P.G p (fun _ _ => true)).map fun q => hat P.G ![q.1, q.2, 0] k).sum := by
    rw [← one_mul (ownVolume P.G k), ← own_space hG hp 1 k]; ring
  rw [shared_space hS h, e]
  refine mul_le_mul_of_nonneg_left (List.sum_le_sum fun q hq => ?_) (mul_nonneg hA hth)
  have : ((keeps.filter fun f => f q.1 q.2).length : K) ≤ 1 := by exact_mod_cast hk q hq
  calc _ ≤ 1 * hat P.G ![q.1, q.2, 0] k := mul_le_mul_of_nonneg_right this (hat_nonneg' _ _ _)
    _ = _ := one_mul _

theorem mkList_counted {S : List (Phase K P.G.ns × PhaseInit K P.G.ns)}
    {L : List (PhaseSt K P.G.ns)} (h : mkList P g S = .ok L) : Counted L := by
  have r := c64_points h
  intro b hb
  obtain ⟨a, -, hab⟩ := forall₂_right r hb
  rw [hab.1, hab.2.1]

theorem mkList_at {a : Phase K P.G.ns × PhaseInit K P.G.ns} {l : List (K × K)} (ha : At l a)
    {L : List (PhaseSt K P.G.ns)} (h : mkList P g [a] = .ok L) :
    ∀ mp ∈ points L, (mp.x 0, mp.x 1) ∈ l := by
  intro mp hmp
  have r := c64_points h
  cases r with
  | cons hab r =>
    cases r
    rename_i b
    simp only [points, List.flatMap_cons, List.flatMap_nil, List.append_nil] at hmp
    obtain ⟨i, hi⟩ := List.getElem?_of_mem hmp
    have q := hab.2.2 i mp hi
    have hx := q.x
    have hy := q.y
    rw [ha.X, List.getElem?_map] at hx
    rw [ha.Y, List.getElem?_map] at hy
    cases hl : l[i]? with
    | none => rw [hl] at hx; cases hx
    | some r =>
      rw [hl] at hx hy
      simp only [Option.map_some, Option.some.injEq] at hx hy
      rw [← hx, ← hy]
      exact List.mem_of_getElem? hl

/-- C98.  With one phase everywhere, the first step finds the density of the phase at every node of
the grid, periodic or not: nodal mass is density times nodal volume. -/
theorem c98_density (hG : GoodGrid P.G) {p : ℕ} (hp : 0 < p)
    {a : Phase K P.G.ns × PhaseInit K P.G.ns} (ha : At (fullLayout P.G p (fun _ _ => true)) a)
    (hA : a.1.A = cellArea P.G p ∨ a.1.A = domainArea P.G a.1.n)
    {L : List (PhaseSt K P.G.ns)} (h : mkList P g [a] = .ok L) {Gr : Grid K P.G.N P.G.ns}
    (hGr : mkGrid P.G P.B = .ok Gr) {d : Dyn K} {s1 : St P} (h1 : gridPhase P ⟨d, L, Gr⟩ = .ok s1)
    (k : Fin P.G.N) : s1.G.m k = a.1.par.rho * Gr.V k := by
  have hA' : a.1.A = cellArea P.G p := by
    rcases hA with h | h
    · exact h
    · rw [h, c98_area hG hp ha.n]
  have hm : ∀ k, nodalMass P.G L k = a.1.par.rho * ownVolume P.G k := by
    intro k
    rw [mkList_one h, c98_shared hG hp (.cons ⟨ha, hA'⟩ .nil) (fun _ _ => rfl) h]
  have hc := mkList_counted h
  have hx : ∀ mp ∈ points L, InDomain P.G mp.x := by
    intro mp hmp
    have hq := mkList_at ha h mp hmp
    rw [c97_full hG hp] at hq
    have := c97_inside hG hp (by have := hG.nx; omega) (by have := hG.ny; omega) hq
    exact ⟨⟨this.1.1.le, this.1.2⟩, this.2.1.le, this.2.2⟩
  have hgeo := mkGrid_geometry hGr
  cases hcy : P.B.cyclic_lr with
  | false =>
    obtain ⟨T, rfl⟩ := gridPhase_ok h1
    change T.Gd.m k = _
    rw [gridPhase_mass hG hgeo hc hx hcy T, mkGrid_V hG hGr, hm, hcy]
    simp only [ownVolume, Bool.false_eq_true, if_false]
  | true =>
    rw [c94_mass hG hgeo hc hx hcy h1 k, mkGrid_V hG hGr, hcy]
    simp only [hm, if_true, mul_one]
    by_cases he : OnEdge (nx := P.G.nx) (ny := P.G.ny) k
    · have hnx := hG.nx
      rw [copies_edge he, Finset.sum_pair]
      · unfold ownVolume halfEnd
        rw [leftOf_row, leftOf_col, rightOf_row, rightOf_col]
        rw [if_pos (Or.inl rfl : 0 = 0 ∨ 0 = P.G.nx - 1), if_pos (Or.inr rfl : P.G.nx - 1 = 0 ∨ _)]
        ring
      · intro e
        have h1 := leftOf_col (nx := P.G.nx) (ny := P.G.ny) k
        rw [e, rightOf_col] at h1
        omega
    · rw [copies_inner he, Finset.sum_singleton]
      unfold ownVolume
      rw [show (halfEnd P.G.nx ((k : ℕ) % P.G.nx) : K) = 1 from if_neg he]
      ring

/-! ## C99: single files -/

theorem touching_inner {n i : ℕ} (hi : i < n) :
    (touching 0 n i : K) = if i = 0 then 1 else 2 := by
  have h := touching_all (K := K) (n := n + 1) (i := i) (by omega) (by omega)
  rw [Nat.add_sub_cancel] at h
  rw [h]
  unfold halfEnd
  split_ifs <;> first | omega | norm_num

/-- C99.  chuteflow.py: half of the stated density everywhere. -/
theorem c99_chuteflow (hG : GoodGrid P.G) {p : ℕ} (hp : 0 < p)
    {a : Phase K P.G.ns × PhaseInit K P.G.ns} (ha : At (fullLayout P.G p (fun _ _ => true)) a)
    (hA : a.1.A = chuteArea P.G a.1.n)
    {L : List (PhaseSt K P.G.ns)} (h : mkList P g [a] = .ok L) (k : Fin P.G.N) :
    nodalMass P.G L k = a.1.par.rho / 2 * ownVolume P.G k := by
  have e : chuteArea P.G a.1.n = cellArea P.G p / 2 := by
    rw [← c98_area hG hp ha.n]; unfold chuteArea domainArea; ring
  rw [mkList_one h, mkList_space h (.cons ha .nil)]
  simp only [List.zip_cons_cons, List.zip_nil_right, List.map_cons, List.map_nil, List.sum_cons,
    List.sum_nil, add_zero]
  rw [hA, e, ← own_space hG hp (a.1.par.rho / 2) k]
  ring

/-- C99.  incline.py: the top row of cells is empty but its area is shared out among the points, so
that the density is too large by `(ny-1)/(ny-2)` at every node below the surface. -/
theorem c99_incline (hG : GoodGrid P.G) (hny : 3 ≤ P.G.ny) {p : ℕ} (hp : 0 < p)
    {a : Phase K P.G.ns × PhaseInit K P.G.ns} (ha : At (toplessLayout P.G p (fun _ _ => true)) a)
    (hA : a.1.A = domainArea P.G a.1.n)
    {L : List (PhaseSt K P.G.ns)} (h : mkList P g [a] = .ok L) (k : Fin P.G.N)
    (hk : (k : ℕ) / P.G.nx < P.G.ny - 2) :
    nodalMass P.G L k =
      a.1.par.rho * (((P.G.ny : K) - 1) / ((P.G.ny : K) - 2)) * ownVolume P.G k := by
  have hp' : (p : K) ≠ 0 := by exact_mod_cast hp.ne'
  have hnx := hG.nx
  have h1 : ((P.G.nx - 1 : ℕ) : K) ≠ 0 := by exact_mod_cast (by omega)
  have h2 : ((P.G.ny - 2 : ℕ) : K) ≠ 0 := by exact_mod_cast (by omega)
  have e1 : ((P.G.ny - 1 : ℕ) : K) = (P.G.ny : K) - 1 := by
    rw [Nat.cast_sub (by omega)]; simp
  have e2 : ((P.G.ny - 2 : ℕ) : K) = (P.G.ny : K) - 2 := by
    rw [Nat.cast_sub (by omega)]; simp
  rw [c97_topless hG hp] at ha
  have hk' : (k : ℕ) % P.G.nx < P.G.nx := Nat.mod_lt _ (by omega)
  rw [mkList_one h, c98_block hG hp ha h, hA, ha.n, c97_count, domainArea, cells_x hG, cells_y hG,
    touching_all hG.nx hk', touching_inner hk, ownVolume]
  have e3 : (halfEnd P.G.ny ((k : ℕ) / P.G.nx) : K) = (if (k : ℕ) / P.G.nx = 0 then 1 else 2) / 2 := by
    unfold halfEnd
    split_ifs <;> first | omega | norm_num
  rw [e3, ← e1, ← e2]
  push_cast
  field_simp
  ring

/-- C99.  dam_break.py: the area of a point is right. -/
theorem c99_dam_break (hG : GoodGrid P.G) (hny : 3 ≤ P.G.ny) {p c : ℕ} (hp : 0 < p)
    (h0 : P.G.x_m = 0) (hc : P.G.nx - 1 = 4 * c) :
    damArea P.G (damLayout P.G p).length = cellArea P.G p := by
  have hp' : (p : K) ≠ 0 := by exact_mod_cast hp.ne'
  have hnx := hG.nx
  have h1 : (c : K) ≠ 0 := by exact_mod_cast (by omega)
  have h2 : ((P.G.ny - 2 : ℕ) : K) ≠ 0 := by exact_mod_cast (by omega)
  have e : P.G.y_M - P.G.y_m - cellY P.G = ((P.G.ny - 2 : ℕ) : K) * cellY P.G := by
    rw [cells_y hG, show P.G.ny - 1 = P.G.ny - 2 + 1 by omega]
    push_cast; ring
  rw [c97_dam hG hp h0 hc, c97_count, damArea, cellArea, gridDx_eq, gridDy_eq, e, cells_x hG, hc]
  push_cast
  field_simp

theorem placePoints_length (xp yp : List K) :
    (placePoints (fun _ _ => true) xp yp).length = xp.length * yp.length := by
  rw [placePoints_all]
  induction yp with
  | nil => rfl
  | cons y l ih => rw [List.flatMap_cons, List.length_append, ih]; simp; ring

/-- C99.  bi_conveyor.py with an odd number of rows: the area of all points falls short of the half
of the domain over which they are spread by one part in the number of rows. -/
theorem c99_conveyor (hG : GoodGrid P.G) {p r : ℕ} (hp : 0 < p) (hr : P.G.ny - 1 = 2 * r + 1) :
    ((conveyorLayout P.G p).length : K) * cellArea P.G p =
      (1 - 1 / ((P.G.ny : K) - 1)) * ((P.G.x_M - P.G.x_m) * (P.G.y_M - P.G.y_m) / 2) := by
  have hp' : (p : K) ≠ 0 := by exact_mod_cast hp.ne'
  have hny := hG.ny
  have e1 : (P.G.ny : K) - 1 = 2 * r + 1 := by
    have : P.G.ny = 2 * r + 1 + 1 := by omega
    rw [this]; push_cast; ring
  have hd : (2 * (r : K) + 1) ≠ 0 := by
    have := Nat.cast_nonneg (α := K) r
    intro h; linarith
  have hlen : (conveyorLayout P.G p).length = (P.G.nx - 1) * p * (r * p) := by
    unfold conveyorLayout
    rw [placePoints_length, show (P.G.ny - 1) / 2 = r by omega]
    simp [axisPoints, linspaceL]
  rw [hlen, e1, cells_x hG, cells_y hG, cellArea, gridDx_eq, gridDy_eq, hr]
  push_cast
  field_simp
  ring

theorem topless_keep (G : GP K) (p : ℕ) (f : K → K → Bool) :
    toplessLayout G p f = (toplessLayout G p (fun _ _ => true)).filter fun q => f q.1 q.2 := by
  unfold toplessLayout
  rw [placePoints_eq, placePoints_all]

/-- C99.  francois.py: the grains and the intruder together fill all cells but those of the top row,
wherever the intruder is and however large. -/
theorem c99_francois (hG : GoodGrid P.G) {p : ℕ} (hp : 0 < p) (xc yc R : K)
    {a b : Phase K P.G.ns × PhaseInit K P.G.ns} (ha : At (toplessLayout P.G p (outsideDisc xc yc R)) a)
    (hb : At (toplessLayout P.G p (insideDisc xc yc R)) b)
    (hA : a.1.A = cellArea P.G p) (hB : b.1.A = cellArea P.G p)
    {L : List (PhaseSt K P.G.ns)} (h : mkList P g [a, b] = .ok L) (k : Fin P.G.N) :
    nodalSpace P.G L k = cellX P.G * cellY P.G * P.G.thickness / 4 *
      (touching 0 (P.G.nx - 1) ((k : ℕ) % P.G.nx) * touching 0 (P.G.ny - 2) ((k : ℕ) / P.G.nx)) := by
  have hp' : (p : K) ≠ 0 := by exact_mod_cast hp.ne'
  rw [mkList_space h (.cons ha (.cons hb .nil))]
  simp only [List.zip_cons_cons, List.zip_nil_right, List.map_cons, List.map_nil, List.sum_cons,
    List.sum_nil, add_zero]
  rw [hA, hB, ← mul_add, topless_keep P.G p (outsideDisc xc yc R),
    topless_keep P.G p (insideDisc xc yc R),
    sum_filter_map (fun q : K × K => outsideDisc xc yc R q.1 q.2),
    sum_filter_map (fun q : K × K => insideDisc xc yc R q.1 q.2), ← List.sum_map_add]
  have e : ((toplessLayout P.G p (fun _ _ => true)).map fun q =>
      (if outsideDisc xc yc R q.1 q.2 then hat P.G ![q.1, q.2, 0] k else 0) +
        if insideDisc xc yc R q.1 q.2 then hat P.G ![q.1, q.2, 0] k else 0) =
      (toplessLayout P.G p (fun _ _ => true)).map fun q => hat P.G ![q.1, q.2, 0] k := by
    refine List.map_congr_left fun q _ => ?_
    unfold outsideDisc insideDisc
    by_cases hq : (q.1 - xc) ^ 2 + (q.2 - yc) ^ 2 ≤ R ^ 2
    · simp [hq, not_lt.2 hq]
    · simp [hq, not_le.1 hq]
  rw [e, c97_topless hG hp, c97_weights hG hp, cellArea, gridDx_eq, gridDy_eq]
  field_simp

/-- tunnel.py:26-39. -/
structure Spec.TunnelGrid (G : GP K) : Prop where
  x_m : G.x_m = -100
  x_M : G.x_M = 100
  y_m : G.y_m = -100
  y_M : G.y_M = 0
  nx : G.nx = 51
  ny : G.ny = 21

theorem tunnel_circle {G : GP K} (hT : TunnelGrid G) {q : K × K}
    (hq : q ∈ fullLayout G 3 (fun _ _ => true)) : (q.1 - 0) ^ 2 + (q.2 - -30) ^ 2 ≠ 10 ^ 2 := by
  have hG : GoodGrid G := ⟨by rw [hT.nx]; norm_num, by rw [hT.ny]; norm_num,
    by rw [hT.x_m, hT.x_M]; norm_num, by rw [hT.y_m, hT.y_M]; norm_num⟩
  rw [c97_full hG (by norm_num)] at hq
  obtain ⟨b, -, h⟩ := List.mem_flatMap.1 hq
  obtain ⟨a, -, rfl⟩ := List.mem_map.1 h
  intro e
  simp only [piece, nodeX, nodeY, cellX, cellY, hT.x_m, hT.x_M, hT.y_m, hT.y_M, hT.nx, hT.ny] at e
  have e2 : (8 * (a : K) - 596) ^ 2 + (10 * (b : K) - 415) ^ 2 = 3600 := by
    push_cast at e
    linear_combination 36 * e
  have e3 : (8 * (a : ℤ) - 596) ^ 2 + (10 * (b : ℤ) - 415) ^ 2 = 3600 := by
    exact_mod_cast e2
  have e4 : (8 * (a : ℤ) - 596) ^ 2 + (10 * (b : ℤ) - 415) ^ 2 =
      2 * (32 * (a : ℤ) ^ 2 - 4768 * a + 177608 + 50 * (b : ℤ) ^ 2 - 4150 * b + 86112) + 1 := by ring
  rw [e4] at e3
  omega

/-- C99.  tunnel.py: no point of the arrangement is on the circle, hence the two materials together
fill every node's own volume. -/
theorem c99_tunnel (hT : TunnelGrid P.G) {a b : Phase K P.G.ns × PhaseInit K P.G.ns}
    (ha : At (fullLayout P.G 3 tunnelIn) a) (hb : At (fullLayout P.G 3 tunnelOut) b)
    (hA : a.1.A = domainArea P.G (fullLayout P.G 3 (fun _ _ => true)).length)
    (hB : b.1.A = domainArea P.G (fullLayout P.G 3 (fun _ _ => true)).length)
    {L : List (PhaseSt K P.G.ns)} (h : mkList P g [a, b] = .ok L) (k : Fin P.G.N) :
    nodalSpace P.G L k = ownVolume P.G k := by
  have hG : GoodGrid P.G := ⟨by rw [hT.nx]; norm_num, by rw [hT.ny]; norm_num,
    by rw [hT.x_m, hT.x_M]; norm_num, by rw [hT.y_m, hT.y_M]; norm_num⟩
  rw [c98_area hG (by norm_num) rfl] at hA hB
  refine c98_shared hG (by norm_num) (.cons ⟨ha, hA⟩ (.cons ⟨hb, hB⟩ .nil)) (fun q hq => ?_) h k
  have hne := tunnel_circle hT hq
  rcases lt_or_gt_of_ne hne with hlt | hgt
  · have e1 : tunnelIn q.1 q.2 = true := decide_eq_true hlt
    have e2 : tunnelOut q.1 q.2 = false := decide_eq_false (not_lt.2 hlt.le)
    simp [e1, e2]
  · have e1 : tunnelIn q.1 q.2 = false := decide_eq_false (not_lt.2 hgt.le)
    have e2 : tunnelOut q.1 q.2 = true := decide_eq_true hgt
    simp [e1, e2]

/-- C99.  Dividing the area of the whole domain by the number of points that pass a test, as stokes.py
does, makes every point too large by the ratio of all points to those. -/
theorem c99_hole (hG : GoodGrid P.G) {p : ℕ} (hp : 0 < p) (keep : K → K → Bool)
    (hn : fullLayout P.G p keep ≠ []) :
    domainArea P.G (fullLayout P.G p keep).length =
      ((fullLayout P.G p (fun _ _ => true)).length : K) / (fullLayout P.G p keep).length *
        cellArea P.G p := by
  have h2 : ((fullLayout P.G p keep).length : K) ≠ 0 := by
    exact_mod_cast (List.length_pos_iff.2 hn).ne'
  have h1 : ((fullLayout P.G p (fun _ _ => true)).length : K) ≠ 0 := by
    have h3 : (fullLayout P.G p keep).length ≤ (fullLayout P.G p (fun _ _ => true)).length := by
      rw [full_keep]; exact List.length_filter_le _ _
    have := List.length_pos_iff.2 hn
    exact_mod_cast (by omega)
  rw [← c98_area (P := P) hG hp rfl]
  unfold domainArea
  field_simp

/-! ## The hypotheses can be met -/

theorem mkPoints_exists (hp : P.pressure = .none) (hf : P.initial_flow = .none) {ns : ℕ} (S0 : First K)
    (ph : Phase K ns) (X Y : List K) {n : ℕ} (hX : n ≤ X.length) (hY : n ≤ Y.length) :
    ∃ l, mkPoints P S0 ph g X Y none n = .ok l := by
  induction n with
  | zero => exact ⟨_, rfl⟩
  | succ n ih =>
    obtain ⟨l, hl⟩ := ih (by omega) (by omega)
    have e1 : X[n]? = some X[n] := List.getElem?_eq_getElem (by omega)
    have e2 : Y[n]? = some Y[n] := List.getElem?_eq_getElem (by omega)
    have e3 : ∀ x y, ∃ mp, mkParticle P S0 ph g x y none = .ok mp := by
      intro x y
      unfold mkParticle initStress initFlow
      rw [hp, hf]
      exact ⟨_, rfl⟩
    obtain ⟨mp, hmp⟩ := e3 X[n] Y[n]
    refine ⟨l ++ [mp], ?_⟩
    unfold mkPoints
    rw [hl, e1, e2]
    change (mkParticle P S0 ph g X[n] Y[n] none >>= fun mp => pure (l ++ [mp])) = _
    rw [hmp]
    rfl

namespace Ex

/-- A phase placed at given positions. -/
def placed {ns : ℕ} (ph : Phase K ns) (l : List (K × K)) (A : K) : Phase K ns × PhaseInit K ns :=
  ({ ph with n := l.length, A := A }, ⟨l.map (·.1), l.map (·.2), false, []⟩)

theorem placed_at {ns : ℕ} (ph : Phase K ns) (l : List (K × K)) (A : K) : At l (placed ph l A) :=
  ⟨rfl, rfl, rfl⟩

/-- Any number of placed phases can be constructed. -/
theorem placed_ok (hp : P.pressure = .none) (hf : P.initial_flow = .none) {ns : ℕ} (ph : Phase K ns)
    (ls : List (List (K × K) × K)) : ∃ L, mkList P g (ls.map fun q => placed ph q.1 q.2) = .ok L := by
  have key : ∀ S0 : First K, ∃ L, (ls.map fun q => placed ph q.1 q.2).mapM (m := Res) (fun a => do
      let l ← mkPoints P S0 a.1 g a.2.X a.2.Y
        (if a.2.heterogeneous then some a.2.PHI else none) a.1.n
      return ({ ph := a.1, pts := l } : PhaseSt K ns)) = .ok L := by
    intro S0
    induction ls with
    | nil => exact ⟨[], rfl⟩
    | cons q ls ih =>
      obtain ⟨L, hL⟩ := ih
      obtain ⟨l, hl⟩ := mkPoints_exists (g := g) hp hf S0 (placed ph q.1 q.2).1
        (placed ph q.1 q.2).2.X (placed ph q.1 q.2).2.Y (n := (placed ph q.1 q.2).1.n)
        (by simp [placed]) (by simp [placed])
      refine ⟨⟨(placed ph q.1 q.2).1, l⟩ :: L, ?_⟩
      rw [List.map_cons, List.mapM_cons, hL]
      have e : (placed ph q.1 q.2).2.heterogeneous = false := rfl
      rw [e]
      simp only [Bool.false_eq_true, if_false]
      rw [hl]
      rfl
  exact key _

/-- The arrangement of the tunnel. -/
def tunnelGP : GP ℚ :=
  { x_m := -100, x_M := 100, y_m := -100, y_M := 0, nx := 51, ny := 21, dx := 4, dy := 5
    thickness := 1, ns := 2, s := ![1, 2] }

def cyclicPar (b : Bool) : Par ℚ := { par with B := { bp with cyclic_lr := b } }

end Ex

/-- One phase everywhere, on an ordinary and on a periodic grid; the first step runs. -/
example (b : Bool) : ∃ L Gr s1,
    mkList (Ex.cyclicPar b) (-10) [Ex.placed Ex.ph (fullLayout Ex.gp 1 (fun _ _ => true)) 1] = .ok L ∧
    cellArea Ex.gp 1 = 1 ∧ mkGrid Ex.gp (Ex.cyclicPar b).B = .ok Gr ∧
    gridPhase (Ex.cyclicPar b) ⟨Ex.dyn, L, Gr⟩ = .ok s1 ∧ L.length = 1 := by
  obtain ⟨⟨L, Gr, s1⟩, e, h⟩ := Ex.okAnd_ok (r := (do
      let L ← mkList (Ex.cyclicPar b) (-10) [Ex.placed Ex.ph (fullLayout Ex.gp 1 (fun _ _ => true)) 1]
      let Gr ← mkGrid Ex.gp (Ex.cyclicPar b).B
      let s1 ← gridPhase (Ex.cyclicPar b) ⟨Ex.dyn, L, Gr⟩
      return (L, Gr, s1) : Res (_ × _ × St (Ex.cyclicPar b))))
    (check := fun x => decide (x.1.length = 1)) (by cases b <;> decide +kernel)
  obtain ⟨L', h1, e⟩ := res_bind_ok.1 e
  obtain ⟨Gr', h2, e⟩ := res_bind_ok.1 e
  obtain ⟨s1', h3, e⟩ := res_bind_ok.1 e
  cases e
  exact ⟨L, Gr, s1, h1, by norm_num [cellArea, gridDx, gridDy, linspace, Ex.gp], h2, h3,
    of_decide_eq_true h⟩

/-- A domain with three rows of nodes without its top row of cells. -/
example : ∃ L, mkList Ex.par (-10) [Ex.placed Ex.ph (toplessLayout Ex.gp 2 (fun _ _ => true))
    (domainArea Ex.gp (toplessLayout Ex.gp 2 (fun _ _ => true)).length)] = .ok L ∧
    (toplessLayout Ex.gp 2 (fun _ _ => true)).length = 8 := by
  obtain ⟨L, h⟩ := Ex.placed_ok (P := Ex.par) (g := -10) rfl rfl Ex.ph
    [(toplessLayout Ex.gp 2 (fun _ _ => true),
      domainArea Ex.gp (toplessLayout Ex.gp 2 (fun _ _ => true)).length)]
  refine ⟨L, h, ?_⟩
  rw [c97_topless Ex.good (by norm_num), c97_count]
  rfl

/-- The two materials of the tunnel. -/
example : TunnelGrid Ex.tunnelGP ∧ ∃ L, mkList { Ex.par with G := Ex.tunnelGP } (-10)
    [Ex.placed Ex.ph (fullLayout Ex.tunnelGP 3 tunnelIn) 1,
      Ex.placed Ex.ph (fullLayout Ex.tunnelGP 3 tunnelOut) 1] = .ok L := by
  refine ⟨⟨rfl, rfl, rfl, rfl, rfl, rfl⟩, ?_⟩
  obtain ⟨L, h⟩ := Ex.placed_ok (P := { Ex.par with G := Ex.tunnelGP }) (g := -10) rfl rfl Ex.ph
    [(fullLayout Ex.tunnelGP 3 tunnelIn, 1), (fullLayout Ex.tunnelGP 3 tunnelOut, 1)]
  simp only [List.map_cons, List.map_nil] at h
  exact ⟨L, h⟩

/-- A dam with four columns of cells, and a conveyor with three rows. -/
example : ∃ G : GP ℚ, GoodGrid G ∧ G.x_m = 0 ∧ G.nx - 1 = 4 * 1 ∧ G.ny - 1 = 2 * 1 + 1 ∧
    damLayout G 1 = [(7 / 2, 1 / 2), (7 / 2, 3 / 2)] := by
  refine ⟨{ Ex.gp with nx := 5, ny := 4, x_M := 4, y_M := 3 }, ⟨by norm_num, by norm_num,
    by norm_num [Ex.gp], by norm_num [Ex.gp]⟩, rfl, rfl, rfl, ?_⟩
  rw [c97_dam ⟨by norm_num, by norm_num, by norm_num [Ex.gp], by norm_num [Ex.gp]⟩ (c := 1)
    (by norm_num) rfl rfl]
  norm_num [block, piece, nodeX, nodeY, cellX, cellY, Ex.gp, List.range_succ]

end
end Mpm

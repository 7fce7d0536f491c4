import Verif.Props.Round

/-!
# C129: layouts with a corner cut off, piles and drums
-/

set_option linter.unusedSectionVars false

namespace Mpm
open Spec

namespace Spec
variable {K : Type} [Field K] [LinearOrder K]

/-- Left of and above the corner `(cx,cy)`. -/
def cornerCut (cx cy : K) (q : K × K) : Bool := decide (q.1 < cx ∧ cy < q.2)

/-- Right of the corner and above the slope of gradient `m` that begins there. -/
def slopeCut (m cx cy : K) (q : K × K) : Bool :=
  decide (cx < q.1 ∧ m * (q.1 - cx) + cy < q.2)

end Spec

section
variable {K : Type} [Field K] [LinearOrder K] [IsStrictOrderedRing K] {G : GP K}

theorem piece_lt {a d : K} (hd : 0 < d) {p : ℕ} (hp : 0 < p) (r i : ℕ) :
    (piece a (d / p) r < a + i * d ↔ r < i * p) ∧ (a + i * d < piece a (d / p) r ↔ i * p ≤ r) := by
  have hp' : (0 : K) < p := by exact_mod_cast hp
  have hdp : 0 < d / p := div_pos hd hp'
  have e : a + i * d = a + ((i * p : ℕ) : K) * (d / p) := by
    push_cast; field_simp
  unfold piece
  rw [e]
  constructor
  · constructor
    · intro h
      have h : ((r : K) + 1 / 2) < ((i * p : ℕ) : K) := lt_of_mul_lt_mul_right (by linarith) hdp.le
      by_contra hc
      have : ((i * p : ℕ) : K) ≤ r := by exact_mod_cast not_lt.1 hc
      linarith
    · intro h
      have : ((r : K) + 1) ≤ ((i * p : ℕ) : K) := by exact_mod_cast h
      have := mul_lt_mul_of_pos_right (by linarith : ((r : K) + 1 / 2) < ((i * p : ℕ) : K)) hdp
      linarith
  · constructor
    · intro h
      have h : ((i * p : ℕ) : K) < ((r : K) + 1 / 2) := lt_of_mul_lt_mul_right (by linarith) hdp.le
      by_contra hc
      have : (r : K) + 1 ≤ ((i * p : ℕ) : K) := by exact_mod_cast not_le.1 hc
      linarith
    · intro h
      have : ((i * p : ℕ) : K) ≤ r := by exact_mod_cast h
      have := mul_lt_mul_of_pos_right (by linarith : ((i * p : ℕ) : K) < ((r : K) + 1 / 2)) hdp
      linarith

/-- No point of a layout is on a grid line. -/
theorem off_lines (hG : GoodGrid G) {p : ℕ} (hp : 0 < p) {q : K × K}
    (hq : q ∈ fullLayout G p (fun _ _ => true)) (i j : ℕ) : q.1 ≠ nodeX G i ∧ q.2 ≠ nodeY G j := by
  rw [c97_full hG hp] at hq
  unfold block at hq
  obtain ⟨b, _, hq⟩ := List.mem_flatMap.1 hq
  obtain ⟨a, _, rfl⟩ := List.mem_map.1 hq
  have e : nodeX G 0 = G.x_m := by simp [nodeX]
  have e' : nodeY G 0 = G.y_m := by simp [nodeY]
  simp only [e, e']
  constructor
  · intro h
    obtain ⟨h1, h2⟩ := piece_lt (a := G.x_m) (cellX_pos hG) hp a i
    change _ = G.x_m + i * cellX G at h
    rcases Nat.lt_or_ge a (i * p) with c | c
    · exact absurd (h1.2 c) (by rw [h]; exact lt_irrefl _)
    · exact absurd (h2.2 c) (by rw [h]; exact lt_irrefl _)
  · intro h
    obtain ⟨h1, h2⟩ := piece_lt (a := G.y_m) (cellY_pos hG) hp b j
    change _ = G.y_m + j * cellY G at h
    rcases Nat.lt_or_ge b (j * p) with c | c
    · exact absurd (h1.2 c) (by rw [h]; exact lt_irrefl _)
    · exact absurd (h2.2 c) (by rw [h]; exact lt_irrefl _)

/-- C129.  slope_stab.py and pierre.py keep exactly the points of the full layout that are neither in
the missing corner nor above the slope, if the corner is a grid node. -/
theorem c129_kept (hG : GoodGrid G) {p i j : ℕ} (hp : 0 < p) (m : K) :
    fullLayout G p (slopeKeep m (nodeX G i) (nodeY G j)) =
      (fullLayout G p (fun _ _ => true)).filter fun q =>
        !cornerCut (nodeX G i) (nodeY G j) q && !slopeCut m (nodeX G i) (nodeY G j) q := by
  have hk : ∀ f : K → K → Bool, fullLayout G p f =
      (fullLayout G p (fun _ _ => true)).filter fun q => f q.1 q.2 := by
    intro f
    unfold fullLayout
    rw [placePoints_eq, placePoints_all]
  rw [hk]
  refine List.filter_congr fun q hq => ?_
  obtain ⟨hx, hy⟩ := off_lines hG hp hq i j
  rw [Bool.eq_iff_iff]
  simp only [slopeKeep, cornerCut, slopeCut, Bool.and_eq_true, Bool.or_eq_true, decide_eq_true_eq,
    Bool.not_eq_true', Bool.and_eq_false_iff, decide_eq_false_iff_not, not_and, gt_iff_lt, not_lt]
  constructor
  · rintro ⟨h1, h2⟩
    refine ⟨fun h => ?_, fun h => ?_⟩
    · rcases h1 with h1 | h1
      · exact absurd h h1.not_gt
      · exact h1.le
    · rcases h2 with h2 | h2
      · exact absurd h h2.not_gt
      · exact h2
  · rintro ⟨h1, h2⟩
    constructor
    · rcases lt_or_gt_of_ne hx with h | h
      · exact Or.inr (lt_of_le_of_ne (h1 h) hy)
      · exact Or.inl h
    · rcases le_or_gt q.1 (nodeX G i) with h | h
      · exact Or.inl h
      · exact Or.inr (h2 h)

/-- C129.  The missing corner takes `p*p` points out of each of its cells. -/
theorem c129_corner (hG : GoodGrid G) {p i j : ℕ} (hp : 0 < p) (hi : i < G.nx) (hj : j < G.ny) :
    ((fullLayout G p (fun _ _ => true)).filter (cornerCut (nodeX G i) (nodeY G j))).length =
      i * (G.ny - 1 - j) * (p * p) := by
  have hl : ∀ (l : List (K × K)) (f : K × K → Bool), (l.filter f).length =
      (l.map fun q => if f (q.1, q.2) then 1 else 0).sum := by
    intro l f
    induction l with
    | nil => rfl
    | cons q l ih => rw [List.filter_cons, List.map_cons, List.sum_cons, ← ih]; split_ifs <;> simp <;> ring
  rw [hl, c97_full hG hp, sum_block G 0 (G.nx - 1) 0 (G.ny - 1) p
    (fun x y => if cornerCut (nodeX G i) (nodeY G j) (x, y) then 1 else 0)]
  have e : nodeX G 0 = G.x_m := by simp [nodeX]
  have e' : nodeY G 0 = G.y_m := by simp [nodeY]
  have key : ∀ b ∈ Finset.range ((G.ny - 1) * p), (∑ a ∈ Finset.range ((G.nx - 1) * p),
      if cornerCut (nodeX G i) (nodeY G j)
        (piece (nodeX G 0) (cellX G / p) a, piece (nodeY G 0) (cellY G / p) b) then 1 else 0) =
      if j * p ≤ b then i * p else 0 := by
    intro b _
    have t : ∀ a ∈ Finset.range ((G.nx - 1) * p), (if cornerCut (nodeX G i) (nodeY G j)
        (piece (nodeX G 0) (cellX G / p) a, piece (nodeY G 0) (cellY G / p) b) then 1 else 0) =
        if a < i * p then (if j * p ≤ b then 1 else 0) else 0 := by
      intro a _
      have h1 := (piece_lt (a := G.x_m) (cellX_pos hG) hp a i).1
      have h2 := (piece_lt (a := G.y_m) (cellY_pos hG) hp b j).2
      simp only [cornerCut, decide_eq_true_eq, e, e']
      change (if piece G.x_m (cellX G / p) a < G.x_m + i * cellX G ∧
        G.y_m + j * cellY G < piece G.y_m (cellY G / p) b then 1 else 0) = _
      simp only [h1, h2]
      by_cases ha : a < i * p <;> by_cases hb : j * p ≤ b <;> simp [ha, hb]
    rw [Finset.sum_congr rfl t, ← Finset.sum_filter]
    have s : (Finset.range ((G.nx - 1) * p)).filter (fun a => a < i * p) = Finset.range (i * p) := by
      ext a
      simp only [Finset.mem_filter, Finset.mem_range]
      have : i * p ≤ (G.nx - 1) * p := Nat.mul_le_mul_right p (by omega)
      omega
    rw [s, Finset.sum_const, Finset.card_range]
    split_ifs <;> simp
  rw [Finset.sum_congr rfl key, ← Finset.sum_filter, Finset.sum_const]
  have s : (Finset.range ((G.ny - 1) * p)).filter (fun b => j * p ≤ b) =
      Finset.Ico (j * p) ((G.ny - 1) * p) := by
    ext b
    simp only [Finset.mem_filter, Finset.mem_range, Finset.mem_Ico]
    omega
  rw [s, Nat.card_Ico, smul_eq_mul, ← Nat.sub_mul]
  ring

theorem filter_split {α : Type} (l : List α) (f g : α → Bool) (h : ∀ q, f q = true → g q = false) :
    (l.filter fun q => !f q && !g q).length + (l.filter g).length + (l.filter f).length = l.length := by
  induction l with
  | nil => rfl
  | cons q l ih =>
    simp only [List.filter_cons]
    cases hf : f q
    · cases hg : g q <;> simp <;> omega
    · rw [h q hf]; simp; omega

/-- C129.  The area of a point in slope_stab.py and pierre.py counts the points above the slope as if
they were there: the kept points have the area that they would have together with the cut ones. -/
theorem c129_area (hG : GoodGrid G) {p i j : ℕ} (hp : 0 < p) (hi : i < G.nx) (hj : j < G.ny) (m : K)
    {n : ℕ} (hn : n = (fullLayout G p (slopeKeep m (nodeX G i) (nodeY G j))).length) (h0 : n ≠ 0) :
    (n : K) * slopeArea G (nodeX G i) (nodeY G j) n = cellArea G p *
      (n + ((fullLayout G p (fun _ _ => true)).filter (slopeCut m (nodeX G i) (nodeY G j))).length) := by
  have hp' : (p : K) ≠ 0 := by exact_mod_cast hp.ne'
  have h0' : (n : K) ≠ 0 := by exact_mod_cast h0
  have hs := filter_split (fullLayout G p (fun _ _ => true)) (cornerCut (nodeX G i) (nodeY G j))
    (slopeCut m (nodeX G i) (nodeY G j)) (by
      intro q hq
      simp only [cornerCut, slopeCut, decide_eq_true_eq, decide_eq_false_iff_not] at hq ⊢
      exact fun h => absurd h.1 hq.1.not_gt)
  rw [← c129_kept hG hp m, ← hn, c129_corner hG hp hi hj, c97_full hG hp, c97_count] at hs
  rw [c97_full hG hp]
  set u := ((block G 0 (G.nx - 1) 0 (G.ny - 1) p).filter (slopeCut m (nodeX G i) (nodeY G j))).length
  have hs' : (n : K) + u + i * ((G.ny : K) - 1 - j) * (p * p) =
      ((G.nx - 1 : ℕ) : K) * ((G.ny - 1 : ℕ) : K) * (p * p) := by
    have : ((G.ny - 1 - j : ℕ) : K) = (G.ny : K) - 1 - j := by
      rw [Nat.cast_sub (by omega), Nat.cast_sub (by omega)]; simp
    rw [← this]
    exact_mod_cast hs
  unfold slopeArea cellArea
  have ex : nodeX G i - G.x_m = i * cellX G := by unfold nodeX cellX; ring
  have ey : G.y_M - nodeY G j = ((G.ny : K) - 1 - j) * cellY G := by
    have := cells_y hG
    rw [Nat.cast_sub (by omega)] at this
    push_cast at this
    unfold nodeY
    change G.y_M - (G.y_m + j * cellY G) = _
    linear_combination this
  rw [gridDx_eq, gridDy_eq, ex, ey, cells_x hG, cells_y hG, mul_div_cancel₀ _ h0']
  field_simp
  linear_combination -(cellX G * cellY G) * hs'

/-- C129.  Hence it is a point's share of a cell exactly if the slope cuts nothing off. -/
theorem c129_share (hG : GoodGrid G) {p i j : ℕ} (hp : 0 < p) (hi : i < G.nx) (hj : j < G.ny) (m : K)
    {n : ℕ} (hn : n = (fullLayout G p (slopeKeep m (nodeX G i) (nodeY G j))).length) (h0 : n ≠ 0) :
    slopeArea G (nodeX G i) (nodeY G j) n = cellArea G p ↔
      ∀ q ∈ fullLayout G p (fun _ _ => true), slopeCut m (nodeX G i) (nodeY G j) q = false := by
  have h := c129_area hG hp hi hj m hn h0
  have h0' : (n : K) ≠ 0 := by exact_mod_cast h0
  have hc : cellArea G p ≠ 0 := by
    have hp' : (0 : K) < p := by exact_mod_cast hp
    have h1 := cellX_pos hG
    have h2 := cellY_pos hG
    unfold cellArea
    rw [gridDx_eq, gridDy_eq]
    positivity
  set u := ((fullLayout G p (fun _ _ => true)).filter (slopeCut m (nodeX G i) (nodeY G j))).length
    with hu
  have h1 : slopeArea G (nodeX G i) (nodeY G j) n = cellArea G p ↔ u = 0 := by
    constructor
    · intro e
      rw [e] at h
      have : cellArea G p * (u : K) = 0 := by linear_combination -h
      exact_mod_cast (mul_eq_zero.1 this).resolve_left hc
    · intro e
      rw [e] at h
      refine mul_left_cancel₀ h0' ?_
      rw [h]; push_cast; ring
  rw [h1, hu, List.length_eq_zero_iff, List.filter_eq_nil_iff]
  simp

/-- C129.  A slope as steep as that of the files (90 degrees, a gradient of about `1.6e16` in floating
point) cuts nothing off: it suffices that over half a point's width it rises to the top. -/
theorem c129_steep (hG : GoodGrid G) {p i j : ℕ} (hp : 0 < p) {m : K}
    (hm : G.y_M - nodeY G j ≤ m * (cellX G / p / 2)) (hm0 : 0 ≤ m) {q : K × K}
    (hq : q ∈ fullLayout G p (fun _ _ => true)) : slopeCut m (nodeX G i) (nodeY G j) q = false := by
  have hp' : (0 : K) < p := by exact_mod_cast hp
  have hin := c97_inside hG (i0 := 0) (j0 := 0) (c := G.nx - 1) (r := G.ny - 1) hp
    (by have := hG.nx; omega) (by have := hG.ny; omega) (q := q) (by rw [← c97_full hG hp]; exact hq)
  rw [c97_full hG hp] at hq
  unfold block at hq
  obtain ⟨b, _, hq⟩ := List.mem_flatMap.1 hq
  obtain ⟨a, _, rfl⟩ := List.mem_map.1 hq
  simp only [slopeCut, decide_eq_false_iff_not, not_and, not_lt]
  intro h
  have e : nodeX G 0 = G.x_m := by simp [nodeX]
  simp only [e] at h ⊢
  have h1 := (piece_lt (a := G.x_m) (cellX_pos hG) hp a i).2.1 h
  have h2 : ((i * p : ℕ) : K) ≤ a := by exact_mod_cast h1
  have h3 : cellX G / p / 2 ≤ piece G.x_m (cellX G / p) a - nodeX G i := by
    have hd := div_pos (cellX_pos hG) hp'
    have : nodeX G i = G.x_m + ((i * p : ℕ) : K) * (cellX G / p) := by
      unfold nodeX
      change _ + _ * cellX G = _
      push_cast; field_simp
    rw [this]
    unfold piece
    nlinarith
  have := mul_le_mul_of_nonneg_left h3 hm0
  linarith [hin.2.2]

/-! ## Piles -/

section
variable [FloorRing K]

/-- The number of cell widths in a length. -/
theorem cells_in (hG : GoodGrid G) (L : K) :
    L / (G.x_M - G.x_m) * ((G.nx : K) - 1) = L / cellX G ∧
    L / (G.y_M - G.y_m) * ((G.ny : K) - 1) = L / cellY G := by
  unfold cellX cellY
  constructor <;> rw [div_div_eq_mul_div, div_mul_eq_mul_div]

theorem pile_count (hG : GoodGrid G) (L H : K) (p : ℕ) :
    (pileLayout G L H p).length =
      ⌊L / cellX G⌋.toNat * p * (⌊H / cellY G⌋.toNat * p) := by
  unfold pileLayout cellsAcross
  rw [placePoints_length, (cells_in hG L).1, (cells_in hG H).2]
  simp [axisPoints, linspaceL]

/-- C129.  The points of a pile (vicky.py, vicky_latest.py) have its area together; but a single one
has more than its share of a cell unless the pile is a whole number of cells wide and high. -/
theorem c129_pile (hG : GoodGrid G) {L H : K} {p : ℕ} (hp : 0 < p) (hL : cellX G ≤ L)
    (hH : cellY G ≤ H) :
    ((pileLayout G L H p).length : K) * pileArea L H (pileLayout G L H p).length = L * H ∧
    cellArea G p ≤ pileArea L H (pileLayout G L H p).length ∧
    (pileArea L H (pileLayout G L H p).length = cellArea G p ↔
      (∃ a : ℕ, L = a * cellX G) ∧ ∃ b : ℕ, H = b * cellY G) := by
  have hx := cellX_pos hG
  have hy := cellY_pos hG
  have hp' : (0 : K) < p := by exact_mod_cast hp
  have fl : ∀ {x d : K}, 0 < d → d ≤ x → ∃ a : ℕ, ⌊x / d⌋.toNat = a ∧ 1 ≤ a ∧ (a : K) * d ≤ x ∧
      (x = a * d ↔ ∃ b : ℕ, x = b * d) := by
    intro x d hd hx
    have h1 : 1 ≤ x / d := by rwa [le_div_iff₀ hd, one_mul]
    have h2 : 1 ≤ ⌊x / d⌋ := Int.le_floor.2 (by exact_mod_cast h1)
    have h3 : (⌊x / d⌋.toNat : ℤ) = ⌊x / d⌋ := Int.toNat_of_nonneg (by omega)
    refine ⟨⌊x / d⌋.toNat, rfl, by omega, ?_, fun h => ⟨_, h⟩, ?_⟩
    · have := Int.floor_le (x / d)
      rw [← h3] at this
      rw [← le_div_iff₀ hd]
      exact_mod_cast this
    · rintro ⟨b, hb⟩
      have e : x / d = b := by rw [hb]; field_simp
      rw [e, Int.floor_natCast, Int.toNat_natCast]
      exact hb
  obtain ⟨a, ea, ha, hal, hai⟩ := fl hx hL
  obtain ⟨b, eb, hb, hbl, hbi⟩ := fl hy hH
  have ha' : (1 : K) ≤ a := by exact_mod_cast ha
  have hb' : (1 : K) ≤ b := by exact_mod_cast hb
  rw [pile_count hG, ea, eb]
  unfold pileArea cellArea
  rw [gridDx_eq, gridDy_eq]
  push_cast
  have hn : (0 : K) < a * p * (b * p) := by positivity
  have hle : a * cellX G * (b * cellY G) ≤ L * H :=
    mul_le_mul hal hbl (by positivity) (hx.le.trans hL)
  refine ⟨by rw [mul_div_cancel₀ _ hn.ne'], ?_, ?_⟩
  · rw [div_le_div_iff₀ (by positivity) hn]
    nlinarith [mul_le_mul_of_nonneg_right hle (by positivity : (0 : K) ≤ (p : K) ^ 2)]
  · rw [← hai, ← hbi, div_eq_div_iff hn.ne' (by positivity)]
    constructor
    · intro h
      have h : L * H = a * cellX G * (b * cellY G) := by
        have hpp : (p : K) ^ 2 ≠ 0 := by positivity
        refine mul_right_cancel₀ hpp ?_
        rw [h]; ring
      have hLp := hx.trans_le hL
      constructor
      · refine le_antisymm ?_ hal
        by_contra hc
        have : a * cellX G * (b * cellY G) < L * H :=
          mul_lt_mul (not_le.1 hc) hbl (by positivity) hLp.le
        linarith
      · refine le_antisymm ?_ hbl
        by_contra hc
        have : a * cellX G * (b * cellY G) < L * H :=
          mul_lt_mul' hal (not_le.1 hc) (by positivity) hLp
        linarith
    · rintro ⟨h1, h2⟩
      rw [h1, h2]; ring

/-- A point of `linspace` lies between its ends. -/
theorem linspaceL_mem {a b x : K} {n : ℕ} (hab : a ≤ b) (h : x ∈ linspaceL a b n) : a ≤ x ∧ x ≤ b := by
  unfold linspaceL at h
  obtain ⟨i, hi, rfl⟩ := List.mem_map.1 h
  rw [List.mem_range] at hi
  unfold linspace
  rcases Nat.lt_or_ge 1 n with hn | hn
  · have hn' : (0 : K) < (n : K) - 1 := by
      have : (1 : K) < n := by exact_mod_cast hn
      linarith
    have hi' : (i : K) ≤ (n : K) - 1 := by
      have : i + 1 ≤ n := hi
      have : (i : K) + 1 ≤ n := by exact_mod_cast this
      linarith
    have e : (i : K) * ((b - a) / ((n : K) - 1)) = (i : K) / ((n : K) - 1) * (b - a) := by ring
    have h0 : 0 ≤ (i : K) / ((n : K) - 1) := by positivity
    have h1 : (i : K) / ((n : K) - 1) ≤ 1 := by rwa [div_le_one hn']
    rw [e]
    constructor
    · linarith [mul_nonneg h0 (sub_nonneg.2 hab)]
    · linarith [mul_le_of_le_one_left (sub_nonneg.2 hab) h1]
  · have : i = 0 := by omega
    subst this
    simp [hab]

/-- C129.  The pile stands on `y = 0`, symmetrically about `x = 0`: all points are at least half a
point's width inside its width and height. -/
theorem c129_pile_place (hG : GoodGrid G) {L H : K} {p : ℕ} (hp : 0 < p) (hL : cellX G ≤ L)
    (hH : cellY G ≤ H) : ∀ q ∈ pileLayout G L H p,
      |q.1| ≤ L / 2 - cellX G / p / 2 ∧ cellY G / p / 2 ≤ q.2 ∧ q.2 ≤ H - cellY G / p / 2 := by
  have hp1 : (1 : K) ≤ p := by exact_mod_cast hp
  have hx : cellX G / p ≤ cellX G := div_le_self (cellX_pos hG).le hp1
  have hy : cellY G / p ≤ cellY G := div_le_self (cellY_pos hG).le hp1
  intro q hq
  unfold pileLayout at hq
  rw [placePoints_all] at hq
  obtain ⟨y, hy', hq⟩ := List.mem_flatMap.1 hq
  obtain ⟨x, hx', rfl⟩ := List.mem_map.1 hq
  unfold axisPoints at hx' hy'
  rw [gridDx_eq] at hx'
  rw [gridDy_eq] at hy'
  have ex : cellX G / (2 * (p : K)) = cellX G / p / 2 := by rw [div_div, mul_comm]
  have ey : cellY G / (2 * (p : K)) = cellY G / p / 2 := by rw [div_div, mul_comm]
  rw [ex] at hx'
  rw [ey] at hy'
  obtain ⟨h1, h2⟩ := linspaceL_mem (by linarith) hx'
  obtain ⟨h3, h4⟩ := linspaceL_mem (by linarith) hy'
  exact ⟨abs_le.2 ⟨by linarith, by linarith⟩, by linarith, by linarith⟩

theorem linspaceL_sum {a b : K} {n : ℕ} (hn : 2 ≤ n) : (linspaceL a b n).sum = n * ((a + b) / 2) := by
  have h2 : (2 : K) ≤ n := by exact_mod_cast hn
  have h3 : (n : K) - 1 ≠ 0 := by linarith
  unfold linspaceL
  rw [sum_map_range]
  unfold linspace
  rw [Finset.sum_add_distrib, ← Finset.sum_mul, Finset.sum_const, Finset.card_range, nsmul_eq_mul]
  have g : ∑ k ∈ Finset.range n, (k : K) = n * ((n : K) - 1) / 2 := by
    have := Finset.sum_range_id_mul_two n
    have h : ((∑ i ∈ Finset.range n, i : ℕ) : K) * 2 = n * ((n : K) - 1) := by
      rw [show (n : K) - 1 = ((n - 1 : ℕ) : K) by rw [Nat.cast_sub (by omega)]; simp]
      exact_mod_cast this
    push_cast at h
    linarith
  rw [g]
  field_simp
  ring

/-- C129.  With two or more columns and rows of points the pile has its centre in the middle, at
`(0, H/2)`. -/
theorem c129_pile_centre (G : GP K) {L H : K} {p : ℕ} (hx : 2 ≤ cellsAcross L (G.x_M - G.x_m) G.nx * p)
    (hy : 2 ≤ cellsAcross H (G.y_M - G.y_m) G.ny * p) :
    ((pileLayout G L H p).map (·.1)).sum = 0 ∧
    ((pileLayout G L H p).map (·.2)).sum = (pileLayout G L H p).length * (H / 2) := by
  have key : ∀ xs ys : List K,
      ((placePoints (fun _ _ => true) xs ys).map (·.1)).sum = ys.length * xs.sum ∧
      ((placePoints (fun _ _ => true) xs ys).map (·.2)).sum = xs.length * ys.sum := by
    intro xs ys
    rw [placePoints_all]
    induction ys with
    | nil => simp
    | cons y ys ih =>
      rw [List.flatMap_cons, List.map_append, List.map_append, List.sum_append, List.sum_append, ih.1,
        ih.2, List.map_map, List.map_map]
      have e1 : (xs.map ((·.1) ∘ fun x => (x, y))) = xs := by
        conv_rhs => rw [← List.map_id xs]
        rfl
      have e2 : (xs.map ((·.2) ∘ fun x => (x, y))).sum = xs.length * y := by
        have : (xs.map ((·.2) ∘ fun x => (x, y))) = xs.map fun _ => y := rfl
        rw [this, List.map_const', List.sum_replicate, nsmul_eq_mul]
      rw [e1, e2]
      constructor
      · rw [List.length_cons]; push_cast; ring
      · rw [List.sum_cons]; ring
  unfold pileLayout
  rw [(key _ _).1, (key _ _).2, placePoints_length]
  unfold axisPoints
  rw [linspaceL_sum hx, linspaceL_sum hy]
  have hl : ∀ (a b : K) (n : ℕ), (linspaceL a b n).length = n := by
    intro a b n; simp [linspaceL]
  rw [hl, hl]
  constructor
  · ring
  · push_cast; ring

/-- C129.  vicky.py as shipped: the pile is 4.5 cells wide, so that a point has 9/8 of its share of a
cell; vicky_latest.py: 38/3 cells, 19/18. -/
theorem c129_pile_shipped :
    (∀ G : GP K, G.x_m = -1 → G.x_M = 1 → G.y_m = 0 → G.y_M = 1 → G.nx = 19 → G.ny = 10 →
      pileArea (1 / 2) 1 (pileLayout G (1 / 2) 1 3).length = 9 / 8 * cellArea G 3) ∧
    (∀ G : GP K, G.x_m = -(5 / 2) → G.x_M = 1 / 2 → G.y_m = 0 → G.y_M = 1 → G.nx = 39 → G.ny = 20 →
      pileArea 1 1 (pileLayout G 1 1 3).length = 19 / 18 * cellArea G 3) := by
  constructor
  · intro G h1 h2 h3 h4 h5 h6
    have hG : GoodGrid G := ⟨by omega, by omega, by rw [h1, h2]; norm_num, by rw [h3, h4]; norm_num⟩
    have ex : cellX G = 1 / 9 := by unfold cellX; rw [h1, h2, h5]; norm_num
    have ey : cellY G = 1 / 9 := by unfold cellY; rw [h3, h4, h6]; norm_num
    have f1 : ⌊(1 / 2 : K) / (1 / 9)⌋ = 4 := by rw [Int.floor_eq_iff]; norm_num
    have f2 : ⌊(1 : K) / (1 / 9)⌋ = 9 := by rw [Int.floor_eq_iff]; norm_num
    rw [pile_count hG, ex, ey, f1, f2,
      show Int.toNat 4 = 4 from rfl, show Int.toNat 9 = 9 from rfl]
    unfold pileArea cellArea
    rw [gridDx_eq, gridDy_eq, ex, ey]
    norm_num
  · intro G h1 h2 h3 h4 h5 h6
    have hG : GoodGrid G := ⟨by omega, by omega, by rw [h1, h2]; norm_num, by rw [h3, h4]; norm_num⟩
    have ex : cellX G = 3 / 38 := by unfold cellX; rw [h1, h2, h5]; norm_num
    have ey : cellY G = 1 / 19 := by unfold cellY; rw [h3, h4, h6]; norm_num
    have f1 : ⌊(1 : K) / (3 / 38)⌋ = 12 := by rw [Int.floor_eq_iff]; norm_num
    have f2 : ⌊(1 : K) / (1 / 19)⌋ = 19 := by rw [Int.floor_eq_iff]; norm_num
    rw [pile_count hG, ex, ey, f1, f2,
      show Int.toNat 12 = 12 from rfl, show Int.toNat 19 = 19 from rfl]
    unfold pileArea cellArea
    rw [gridDx_eq, gridDy_eq, ex, ey]
    norm_num

/-! ## Drums -/

/-- C129.  bi_square_drum.py: all points lie between the bottom and the middle of the box, and have
the area of half of the box together. -/
theorem c129_square_drum (hG : GoodGrid G) {p : ℕ} (hp2 : 2 ≤ p) :
    (∀ q ∈ squareDrumLayout G p, (G.x_m < q.1 ∧ q.1 < G.x_M) ∧
      G.y_m < q.2 ∧ q.2 < (G.y_m + G.y_M) / 2) ∧
    ((squareDrumLayout G p).length : K) * squareDrumArea G (squareDrumLayout G p).length =
      (G.x_M - G.x_m) * (G.y_M - G.y_m) / 2 := by
  have hx := cellX_pos hG
  have hy := cellY_pos hG
  have hp : 0 < p := by omega
  have hp' : (2 : K) ≤ p := by exact_mod_cast hp2
  have hlen : (squareDrumLayout G p).length = (G.nx - 1) * p * ((G.ny - 1) / 2 * p + 2) := by
    unfold squareDrumLayout
    rw [placePoints_length]
    simp [axisPoints, linspaceL]
  have hgap : cellY G / (2 * p) ≤ cellY G / 4 := by
    refine div_le_div_of_nonneg_left hy.le (by norm_num) ?_
    linarith
  have hgap0 : 0 < cellY G / (2 * p) := by positivity
  have hH : cellY G ≤ G.y_M - G.y_m := by
    rw [cells_y hG]
    have : (1 : K) ≤ ((G.ny - 1 : ℕ) : K) := by
      have := hG.ny
      exact_mod_cast (by omega : 1 ≤ G.ny - 1)
    nlinarith
  constructor
  · intro q hq
    unfold squareDrumLayout at hq
    rw [placePoints_all] at hq
    obtain ⟨y, hy', hq⟩ := List.mem_flatMap.1 hq
    obtain ⟨x, hx', rfl⟩ := List.mem_map.1 hq
    constructor
    · rw [gridDx_eq, axisPoints_eq hp (cells_x hG)] at hx'
      obtain ⟨a, ha, rfl⟩ := List.mem_map.1 hx'
      rw [List.mem_range] at ha
      have h1 := piece_lt (a := G.x_m) hx hp a 0
      have h2 := piece_lt (a := G.x_m) hx hp a (G.nx - 1)
      have e := cells_x hG
      refine ⟨?_, ?_⟩
      · have := h1.2.2 (by simp); simpa using this
      · have := h2.1.2 ha; rw [← e] at this; linarith
    · unfold linspaceL at hy'
      obtain ⟨b, hb, rfl⟩ := List.mem_map.1 hy'
      rw [List.mem_range] at hb
      rw [gridDy_eq]
      unfold linspace
      set n := (G.ny - 1) / 2 * p + 2
      have hn : (0 : K) < (n : K) - 1 := by
        have : (2 : K) ≤ n := by exact_mod_cast (by omega : 2 ≤ n)
        linarith
      have hb' : (b : K) ≤ (n : K) - 1 := by
        have : b + 1 ≤ n := hb
        have : (b : K) + 1 ≤ n := by exact_mod_cast this
        linarith
      have hb0 : (0 : K) ≤ b := by positivity
      set g := cellY G / (2 * p)
      set w := (G.y_M + G.y_m) / 2 - g / 2 - (G.y_m + g)
      have hw : 0 ≤ w := by
        have : w = (G.y_M - G.y_m) / 2 - g - g / 2 := by simp only [w]; ring
        rw [this]; linarith
      have ht0 : 0 ≤ (b : K) / ((n : K) - 1) := by positivity
      have ht1 : (b : K) / ((n : K) - 1) ≤ 1 := by rwa [div_le_one hn]
      have e : (b : K) * (w / ((n : K) - 1)) = (b : K) / ((n : K) - 1) * w := by ring
      rw [e]
      set t := (b : K) / ((n : K) - 1)
      have ew : G.y_m + g + w = (G.y_M + G.y_m) / 2 - g / 2 := by simp only [w]; ring
      have h1 : 0 ≤ t * w := mul_nonneg ht0 hw
      have h2 : t * w ≤ w := mul_le_of_le_one_left hw ht1
      constructor <;> linarith
  · rw [hlen]
    unfold squareDrumArea
    have h1 : ((G.nx - 1) * p * ((G.ny - 1) / 2 * p + 2) : ℕ) ≠ 0 := by
      have := hG.nx
      have : 0 < (G.nx - 1) * p := Nat.mul_pos (by omega) hp
      positivity
    have h1' : (((G.nx - 1) * p * ((G.ny - 1) / 2 * p + 2) : ℕ) : K) ≠ 0 := by exact_mod_cast h1
    rw [mul_div_cancel₀ _ h1']
    ring

/-- C129.  With an even number `2 r` of rows of cells a point of bi_square_drum.py has
`r p/(r p + 2)` of its share of a cell. -/
theorem c129_square_share (hG : GoodGrid G) {p r : ℕ} (hp : 0 < p) (hr : G.ny - 1 = 2 * r) :
    squareDrumArea G (squareDrumLayout G p).length =
      (r * p / (r * p + 2)) * cellArea G p := by
  have hp' : (p : K) ≠ 0 := by exact_mod_cast hp.ne'
  have hlen : (squareDrumLayout G p).length = (G.nx - 1) * p * (r * p + 2) := by
    unfold squareDrumLayout
    rw [placePoints_length, show (G.ny - 1) / 2 = r by omega]
    simp [axisPoints, linspaceL]
  have h1 : ((G.nx - 1 : ℕ) : K) ≠ 0 := by
    have := hG.nx
    exact_mod_cast (by omega : G.nx - 1 ≠ 0)
  have h2 : (r : K) * p + 2 ≠ 0 := by positivity
  unfold squareDrumArea cellArea
  rw [hlen, gridDx_eq, gridDy_eq, cells_x hG, cells_y hG, hr]
  push_cast
  field_simp
  ring

/-- C129.  bi_drum.py: the drum is outside the circle; its points are spread over all of the box, but
their number is that of all but one row of cells, so that they have too little area. -/
theorem c129_drum_wall (hG : GoodGrid G) {p : ℕ} (hp : 0 < p) :
    (∀ r : K, ∀ q ∈ drumLayout G p (drumWall r), r ^ 2 ≤ q.1 ^ 2 + q.2 ^ 2) ∧
    ((drumLayout G p fun _ _ => true).length : K) * cellArea G p =
      (1 - 1 / ((G.ny : K) - 1)) * ((G.x_M - G.x_m) * (G.y_M - G.y_m)) := by
  constructor
  · intro r q hq
    unfold drumLayout at hq
    rw [placePoints_eq] at hq
    have := (List.mem_filter.1 hq).2
    simpa [drumWall] using this
  · have hp' : (p : K) ≠ 0 := by exact_mod_cast hp.ne'
    have hlen : (drumLayout G p fun _ _ => true).length = (G.nx - 1) * p * ((G.ny - 2) * p) := by
      unfold drumLayout
      rw [placePoints_length]
      simp [axisPoints, linspaceL]
    have hny := hG.ny
    have e1 : ((G.ny - 1 : ℕ) : K) = (G.ny : K) - 1 := by rw [Nat.cast_sub (by omega)]; simp
    have e2 : ((G.ny - 2 : ℕ) : K) = (G.ny : K) - 1 - 1 := by
      rw [Nat.cast_sub (by omega)]; push_cast; ring
    have h1 : (G.ny : K) - 1 ≠ 0 := by rw [← e1]; exact_mod_cast (by omega : G.ny - 1 ≠ 0)
    rw [hlen, cells_x hG, cells_y hG, e1, cellArea, gridDx_eq, gridDy_eq]
    push_cast
    rw [e2]
    field_simp

end

end

/-- C129.  bi_drum.py: the grains fill the lower half of the drum, but their points share out the area
of all of it: their mass is twice that of the half disc. -/
theorem c129_drum {P : Par ℝ} {g r : ℝ} (hr : 0 < r) {p ns : ℕ} {a : Phase ℝ ns × PhaseInit ℝ ns}
    (ha : At (fullLayout P.G p (drumGrain r (1 / 2))) a) (h0 : a.1.n ≠ 0)
    (hA : a.1.A = discArea realCirc r a.1.n) {L : List (PhaseSt ℝ ns)} (hL : mkList P g [a] = .ok L) :
    (∀ q ∈ fullLayout P.G p (drumGrain r (1 / 2)), q.1 ^ 2 + q.2 ^ 2 < r ^ 2 ∧ q.2 < 0) ∧
    totalMass L = 2 * (a.1.par.rho * (Real.pi * r ^ 2 / 2) * P.G.thickness) := by
  constructor
  · intro q hq
    rw [full_keep] at hq
    have := (List.mem_filter.1 hq).2
    simp only [drumGrain, sub_zero, Bool.and_eq_true, decide_eq_true_eq] at this
    refine ⟨this.1, ?_⟩
    have h : q.2 / r < 0 := by linarith [this.2]
    exact ((div_neg_iff.1 h).resolve_left fun h => absurd h.2 hr.not_gt).1
  · have h1 : (a.1.n : ℝ) ≠ 0 := by exact_mod_cast h0
    rw [(placed_mass ha hL).1, hA, ← ha.n]
    change _ * (Real.pi * r ^ 2 / a.1.n * _) * _ = _
    field_simp

/-! ## Examples -/

namespace Ex

/-- A grid of 6 by 4 cells. -/
def cutGP : GP ℚ := { gp with x_M := 6, y_M := 4, nx := 7, ny := 5 }

theorem cutGP_good : GoodGrid cutGP :=
  ⟨by decide, by decide, by norm_num [cutGP, gp], by norm_num [cutGP, gp]⟩

end Ex

/-- A corner of 2 by 2 cells, a steep and a gentle slope. -/
example : (fullLayout Ex.cutGP 1 (slopeKeep 10 (nodeX Ex.cutGP 2) (nodeY Ex.cutGP 2))).length = 20 ∧
    (fullLayout Ex.cutGP 1 (slopeKeep 1 (nodeX Ex.cutGP 2) (nodeY Ex.cutGP 2))).length = 19 := by
  decide +kernel

/-- A pile of whole cells and one that is not. -/
example : (pileLayout Ex.cutGP 2 2 1).length = 4 ∧ (pileLayout Ex.cutGP (5 / 2) 2 1).length = 4 := by
  decide +kernel

example : (squareDrumLayout Ex.cutGP 2).length = 72 := by decide +kernel

/-- A drum in a box of 2 by 2 cells and one point per cell: the grains can be constructed. -/
example (ph : Phase ℝ 2) : ∃ (P : Par ℝ) (a : Phase ℝ 2 × PhaseInit ℝ 2) (L : List (PhaseSt ℝ 2)),
    At (fullLayout P.G 1 (drumGrain 1 (1 / 2))) a ∧ a.1.n ≠ 0 ∧
    a.1.A = discArea realCirc 1 a.1.n ∧ mkList P (-10) [a] = .ok L := by
  let P : Par ℝ := { Ex.ballPar with G := { Ex.ballPar.G with x_m := -1, x_M := 1, y_m := -1, y_M := 1 } }
  obtain ⟨L, h⟩ := Ex.placed_ok (P := P) (g := -10) rfl rfl ph
    [(fullLayout P.G 1 (drumGrain 1 (1 / 2)),
      discArea realCirc 1 (fullLayout P.G 1 (drumGrain 1 (1 / 2))).length)]
  refine ⟨P, _, L, Ex.placed_at ph _ _, ?_, rfl, h⟩
  change (fullLayout P.G 1 (drumGrain 1 (1 / 2))).length ≠ 0
  have hm : ((-1 / 2, -1 / 2) : ℝ × ℝ) ∈ fullLayout P.G 1 (drumGrain 1 (1 / 2)) := by
    have hG : GoodGrid P.G :=
      ⟨by change 2 ≤ 3; omega, by change 2 ≤ 3; omega, by change (-1 : ℝ) < 1; norm_num,
        by change (-1 : ℝ) < 1; norm_num⟩
    rw [full_keep, c97_full hG one_pos, List.mem_filter]
    constructor
    · unfold block
      refine List.mem_flatMap.2 ⟨0, List.mem_range.2 (by change 0 < (3 - 1) * 1; omega),
        List.mem_map.2 ⟨0, List.mem_range.2 (by change 0 < (3 - 1) * 1; omega), ?_⟩⟩
      simp only [piece, nodeX, nodeY, cellX, cellY, P, Ex.ballPar, Ex.granPar]
      norm_num
    · simp only [drumGrain, Bool.and_eq_true, decide_eq_true_eq]
      norm_num
  exact fun h => by rw [List.length_eq_zero_iff.1 h] at hm; cases hm

end Mpm

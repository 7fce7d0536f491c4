import Verif.Model.Slope
import Verif.Props.Layout
import Verif.Props.Loop

/-!
# Points under a slope (C107) and critical times (C108)
-/

set_option linter.unusedSectionVars false

namespace Mpm
open Spec

section
variable {K : Type} [Field K] [LinearOrder K] [IsStrictOrderedRing K] [FloorRing K]
variable {G : GP K}

/-! ## C107 -/

/-- A row: `n` points, as many as pieces of length `h` fit into the length. -/
theorem slopeRow_eq (G : GP K) (ppc : ℕ) (L_1 t y : K) (hn : 1 ≤ (L_1 - y / t) / gridDx G * ppc) :
    slopeRow G ppc L_1 t y = (linspaceL (G.x_m + gridDx G / (2 * (ppc : K)))
      (L_1 - y / t - gridDx G / (2 * (ppc : K)))
      (⌊(L_1 - y / t) / gridDx G * ppc⌋.toNat)).map fun x => (x, y) := by
  unfold slopeRow
  have h0 : (0 : K) ≤ (L_1 - y / t) / gridDx G * ppc := zero_le_one.trans hn
  have h1 : 0 < ⌊(L_1 - y / t) / gridDx G * ppc⌋ := Int.lt_of_lt_of_le zero_lt_one (Int.le_floor.2 (by exact_mod_cast hn))
  simp only [pyTrunc, if_pos h0, if_pos h1]

theorem slopeRow_nil (G : GP K) (ppc : ℕ) (L_1 t y : K) (hn : (L_1 - y / t) / gridDx G * ppc < 1) :
    slopeRow G ppc L_1 t y = [] := by
  unfold slopeRow
  have : ¬ 0 < pyTrunc ((L_1 - y / t) / gridDx G * ppc) := by
    unfold pyTrunc
    split
    · rw [not_lt, ← Int.lt_add_one_iff, zero_add]
      exact Int.floor_lt.2 (by exact_mod_cast hn)
    · rename_i h
      rw [not_lt]
      exact Int.ceil_le.2 (by push_cast; exact (not_le.1 h).le)
  simp only [if_neg this]

/-- C107.  How many points a row holds: the largest number of pieces of the point spacing that fit
between the left edge and the slope. -/
theorem c107_count (hG : GoodGrid G) {ppc : ℕ} (hp : 0 < ppc) {L_1 t y : K} (hy : y / t ≤ L_1) :
    ((slopeRow G ppc L_1 t y).length : K) * (cellX G / ppc) ≤ L_1 - y / t ∧
    L_1 - y / t < ((slopeRow G ppc L_1 t y).length + 1 : K) * (cellX G / ppc) := by
  have hx := cellX_pos hG
  have hp' : (0 : K) < ppc := by exact_mod_cast hp
  have hh : 0 < cellX G / ppc := div_pos hx hp'
  have e : L_1 - y / t = (L_1 - y / t) / gridDx G * ppc * (cellX G / ppc) := by
    rw [gridDx_eq]; field_simp
  by_cases hn : 1 ≤ (L_1 - y / t) / gridDx G * ppc
  · rw [slopeRow_eq _ _ _ _ _ hn]
    simp only [linspaceL, List.length_map, List.length_range]
    have h0 : 0 ≤ ⌊(L_1 - y / t) / gridDx G * ppc⌋ := Int.floor_nonneg.2 (zero_le_one.trans hn)
    have ec : ((⌊(L_1 - y / t) / gridDx G * ppc⌋.toNat : ℕ) : K) =
        ((⌊(L_1 - y / t) / gridDx G * ppc⌋ : ℤ) : K) := by
      rw [← Int.cast_natCast, Int.toNat_of_nonneg h0]
    rw [ec]
    constructor
    · conv_rhs => rw [e]
      exact mul_le_mul_of_nonneg_right (Int.floor_le _) hh.le
    · conv_lhs => rw [e]
      exact mul_lt_mul_of_pos_right (Int.lt_floor_add_one _) hh
  · have hn := not_le.1 hn
    rw [slopeRow_nil _ _ _ _ _ hn]
    simp only [List.length_nil, Nat.cast_zero, zero_mul, zero_add, one_mul]
    refine ⟨sub_nonneg.2 hy, ?_⟩
    conv_lhs => rw [e]
    calc _ < 1 * (cellX G / ppc) := mul_lt_mul_of_pos_right hn hh
      _ = _ := one_mul _

theorem linspace_between {a b : K} (h : a ≤ b) {n i : ℕ} (hi : i < n) :
    a ≤ linspace a b n i ∧ linspace a b n i ≤ b := by
  unfold linspace
  rcases Nat.lt_or_ge 1 n with h1 | h1
  · have hn : (0 : K) < (n : K) - 1 := by
      have : (1 : K) < n := by exact_mod_cast h1
      linarith
    have hi' : (i : K) ≤ (n : K) - 1 := by
      have : (i : K) + 1 ≤ n := by exact_mod_cast hi
      linarith
    have hd : 0 ≤ b - a := sub_nonneg.2 h
    have h2 : 0 ≤ (i : K) * ((b - a) / ((n : K) - 1)) := by positivity
    refine ⟨by linarith, ?_⟩
    have h3 : (i : K) * ((b - a) / ((n : K) - 1)) ≤ b - a := by
      rw [mul_div_assoc', div_le_iff₀ hn, mul_comm (b - a)]
      exact mul_le_mul_of_nonneg_right hi' hd
    linarith
  · have : i = 0 := by omega
    subst this
    simp [h]

/-- C107.  All points lie under the slope through the top left corner, by at least half a point
spacing, and inside the domain by at least half a spacing on the other sides. -/
theorem c107_inside (hG : GoodGrid G) {ppc : ℕ} (hp : 0 < ppc) {t : K} (ht : 0 < t)
    (h0 : G.x_m = 0) {q : K × K} (hq : q ∈ slopeLayout G ppc (G.y_M / t) t) :
    G.x_m + cellX G / ppc / 2 ≤ q.1 ∧ G.y_m + cellY G / ppc / 2 ≤ q.2 ∧
    q.2 + cellY G / ppc / 2 ≤ G.y_M ∧ t * (q.1 + cellX G / ppc / 2) + q.2 ≤ G.y_M := by
  have hx := cellX_pos hG
  have hyc := cellY_pos hG
  have hp' : (0 : K) < ppc := by exact_mod_cast hp
  unfold slopeLayout at hq
  obtain ⟨y, hy, hq⟩ := List.mem_flatMap.1 hq
  rw [gridDy_eq, axisPoints_eq hp (cells_y hG)] at hy
  obtain ⟨j, hj, rfl⟩ := List.mem_map.1 hy
  have hj := List.mem_range.1 hj
  set y := piece G.y_m (cellY G / ppc) j with hyd
  by_cases hn : 1 ≤ (G.y_M / t - y / t) / gridDx G * ppc
  · rw [slopeRow_eq _ _ _ _ _ hn] at hq
    obtain ⟨x, hx', rfl⟩ := List.mem_map.1 hq
    obtain ⟨i, hi, rfl⟩ := List.mem_map.1 hx'
    have hi := List.mem_range.1 hi
    rw [gridDx_eq] at hn
    have hL : cellX G / ppc ≤ G.y_M / t - y / t := by
      rw [div_mul_eq_mul_div, one_le_div hx] at hn
      rw [div_le_iff₀ hp']
      exact hn
    have hgap : cellX G / (2 * (ppc : K)) = cellX G / ppc / 2 := by
      rw [div_div, mul_comm]
    have hb := linspace_between (a := G.x_m + gridDx G / (2 * (ppc : K)))
      (b := G.y_M / t - y / t - gridDx G / (2 * (ppc : K))) (by
        rw [gridDx_eq, hgap, h0]; linarith) hi
    generalize linspace (G.x_m + gridDx G / (2 * (ppc : K)))
      (G.y_M / t - y / t - gridDx G / (2 * (ppc : K))) _ i = x at hb
    rw [gridDx_eq, hgap] at hb
    refine ⟨hb.1, ?_, ?_, ?_⟩
    · change G.y_m + _ ≤ y
      rw [hyd]; unfold piece
      have : (0 : K) ≤ j * (cellY G / ppc) := by positivity
      linarith
    · change y + _ ≤ _
      rw [hyd]; unfold piece
      have e := cells_y hG
      have h1 : ((j : K) + 1) * (cellY G / ppc) ≤ ((G.ny - 1 : ℕ) : K) * ppc * (cellY G / ppc) := by
        refine mul_le_mul_of_nonneg_right ?_ (div_nonneg hyc.le hp'.le)
        exact_mod_cast hj
      have h2 : ((G.ny - 1 : ℕ) : K) * ppc * (cellY G / ppc) = ((G.ny - 1 : ℕ) : K) * cellY G := by
        field_simp
      rw [h2, ← e] at h1
      linarith
    · change t * (x + _) + y ≤ _
      have h1 : x + cellX G / ppc / 2 ≤ (G.y_M - y) / t := by rw [sub_div]; linarith [hb.2]
      rw [le_div_iff₀ ht] at h1
      linarith
  · rw [slopeRow_nil _ _ _ _ _ (not_le.1 hn)] at hq
    cases hq

/-- C107.  If the domain is twice as long as the slope, the points are in the domain. -/
theorem c107_domain (hG : GoodGrid G) {ppc : ℕ} (hp : 0 < ppc) {t : K} (ht : 0 < t)
    (h0 : G.x_m = 0) (h1 : G.y_m = 0) (h2 : G.x_M = 2 * (G.y_M / t)) {q : K × K}
    (hq : q ∈ slopeLayout G ppc (G.y_M / t) t) : InDomain G ![q.1, q.2, 0] := by
  obtain ⟨a, b, c, d⟩ := c107_inside hG hp ht h0 hq
  have hx := cellX_pos hG
  have hyc := cellY_pos hG
  have hp' : (0 : K) < ppc := by exact_mod_cast hp
  have e1 : 0 < cellX G / ppc / 2 := by positivity
  have e2 : 0 < cellY G / ppc / 2 := by positivity
  have e3 : q.1 ≤ G.y_M / t := by
    rw [le_div_iff₀ ht, mul_comm]
    have : t * q.1 ≤ t * (q.1 + cellX G / ppc / 2) := mul_le_mul_of_nonneg_left (by linarith) ht.le
    linarith
  have e4 : 0 < G.y_M / t := by linarith
  refine ⟨⟨?_, ?_⟩, ?_, ?_⟩
  · change _ ≤ q.1; linarith
  · change q.1 < _; linarith
  · change _ ≤ q.2; linarith
  · change q.2 < _; linarith

/-- C107.  Neighbours in a row are at least the point spacing of the other directions apart and less
than twice that. -/
theorem c107_spacing (hG : GoodGrid G) {ppc : ℕ} (hp : 0 < ppc) {L_1 t y : K} (h0 : G.x_m = 0)
    {i : ℕ} {q q' : K × K} (hq : (slopeRow G ppc L_1 t y)[i]? = some q)
    (hq' : (slopeRow G ppc L_1 t y)[i + 1]? = some q') :
    q'.2 = q.2 ∧ cellX G / ppc ≤ q'.1 - q.1 ∧ q'.1 - q.1 < 2 * (cellX G / ppc) := by
  have hx := cellX_pos hG
  have hp' : (0 : K) < ppc := by exact_mod_cast hp
  have hh : 0 < cellX G / ppc := div_pos hx hp'
  by_cases hn : 1 ≤ (L_1 - y / t) / gridDx G * ppc
  · have hy : y / t ≤ L_1 := by
      by_contra hc
      have : (L_1 - y / t) / gridDx G * ppc ≤ 0 := by
        rw [gridDx_eq]
        exact mul_nonpos_of_nonpos_of_nonneg
          (div_nonpos_of_nonpos_of_nonneg (by linarith [not_le.1 hc]) hx.le) hp'.le
      linarith
    obtain ⟨c1, c2⟩ := c107_count hG hp hy
    have hlen : i + 1 < (slopeRow G ppc L_1 t y).length := by
      by_contra hc
      rw [List.getElem?_eq_none (not_lt.1 hc)] at hq'
      cases hq'
    generalize hN : (slopeRow G ppc L_1 t y).length = N at c1 c2 hlen
    rw [slopeRow_eq _ _ _ _ _ hn] at hq hq' hN
    simp only [linspaceL, List.length_map, List.length_range] at hN
    rw [hN] at hq hq'
    simp only [linspaceL, List.map_map, List.getElem?_map, List.getElem?_range hlen,
      List.getElem?_range (Nat.lt_of_succ_lt hlen), Option.map_some, Option.some.injEq,
      Function.comp_apply] at hq hq'
    subst hq hq'
    refine ⟨rfl, ?_⟩
    have hN1 : (0 : K) < (N : K) - 1 := by
      have : ((1 : ℕ) : K) < N := by exact_mod_cast (by omega : 1 < N)
      push_cast at this; linarith
    have hN2 : (2 : K) ≤ N := by exact_mod_cast (by omega : 2 ≤ N)
    have es : linspace (G.x_m + gridDx G / (2 * (ppc : K))) (L_1 - y / t - gridDx G / (2 * (ppc : K)))
        N (i + 1) - linspace (G.x_m + gridDx G / (2 * (ppc : K)))
        (L_1 - y / t - gridDx G / (2 * (ppc : K))) N i =
        (L_1 - y / t - cellX G / ppc) / ((N : K) - 1) := by
      unfold linspace
      rw [gridDx_eq, h0]
      push_cast
      have : L_1 - y / t - cellX G / (2 * (ppc : K)) - (0 + cellX G / (2 * (ppc : K))) =
          L_1 - y / t - cellX G / ppc := by
        field_simp; ring
      rw [this]
      ring
    simp only
    rw [es, le_div_iff₀ hN1, div_lt_iff₀ hN1]
    generalize L_1 - y / t = L at c1 c2
    generalize cellX G / (ppc : K) = h at hh c1 c2
    constructor
    · nlinarith
    · nlinarith
  · rw [slopeRow_nil _ _ _ _ _ (not_le.1 hn)] at hq
    cases hq

/-- The triangle under the slope is the sum of its strips. -/
theorem slope_strips (hG : GoodGrid G) {ppc : ℕ} (hp : 0 < ppc) {t : K} (ht : 0 < t) :
    ∑ j ∈ Finset.range ((G.ny - 1) * ppc),
      (G.y_M / t - piece G.y_m (cellY G / ppc) j / t) * (cellY G / ppc) =
      (G.y_M - G.y_m) * ((G.y_M - G.y_m) / t) / 2 := by
  have hp' : (ppc : K) ≠ 0 := by exact_mod_cast hp.ne'
  have e := cells_y hG
  have hs : ∀ n : ℕ, ∑ j ∈ Finset.range n,
      (G.y_M / t - piece G.y_m (cellY G / ppc) j / t) * (cellY G / ppc) =
      ((G.y_M - G.y_m) * (n * (cellY G / ppc)) - (n * (cellY G / ppc)) ^ 2 / 2) / t := by
    intro n
    induction n with
    | zero => simp
    | succ n ih =>
      rw [Finset.sum_range_succ, ih]
      unfold piece
      push_cast
      field_simp
      ring
  rw [hs]
  have : (((G.ny - 1) * ppc : ℕ) : K) * (cellY G / ppc) = G.y_M - G.y_m := by
    rw [e]; push_cast; field_simp
  rw [this]
  field_simp
  ring

/-- C107.  The area of the points (their number times the cell area over `pts_per_cell²`) is at most
the area of the triangle under the slope, and falls short of it by less than one point per row. -/
theorem c107_area (hG : GoodGrid G) {ppc : ℕ} (hp : 0 < ppc) {t : K} (ht : 0 < t) :
    ((slopeLayout G ppc (G.y_M / t) t).length : K) * cellArea G ppc ≤
      (G.y_M - G.y_m) * ((G.y_M - G.y_m) / t) / 2 ∧
    (G.y_M - G.y_m) * ((G.y_M - G.y_m) / t) / 2 ≤
      ((slopeLayout G ppc (G.y_M / t) t).length + ((G.ny - 1) * ppc : ℕ) : K) * cellArea G ppc := by
  have hx := cellX_pos hG
  have hyc := cellY_pos hG
  have hp' : (0 : K) < ppc := by exact_mod_cast hp
  have hh : 0 < cellY G / ppc := div_pos hyc hp'
  have eA : cellArea G ppc = (cellX G / ppc) * (cellY G / ppc) := by
    unfold cellArea
    rw [gridDx_eq, gridDy_eq]; field_simp
  have eL : ((slopeLayout G ppc (G.y_M / t) t).length : K) = ∑ j ∈ Finset.range ((G.ny - 1) * ppc),
      ((slopeRow G ppc (G.y_M / t) t (piece G.y_m (cellY G / ppc) j)).length : K) := by
    unfold slopeLayout
    rw [gridDy_eq, axisPoints_eq hp (cells_y hG), List.length_flatMap, List.map_map, sum_map_range]
    push_cast
    rfl
  have hle : ∀ j ∈ Finset.range ((G.ny - 1) * ppc),
      piece G.y_m (cellY G / ppc) j / t ≤ G.y_M / t := by
    intro j hj
    have hj := Finset.mem_range.1 hj
    refine div_le_div_of_nonneg_right ?_ ht.le
    unfold piece
    have e := cells_y hG
    have h1 : ((j : K) + 1) * (cellY G / ppc) ≤ ((G.ny - 1 : ℕ) : K) * ppc * (cellY G / ppc) := by
      refine mul_le_mul_of_nonneg_right ?_ hh.le
      exact_mod_cast hj
    have h2 : ((G.ny - 1 : ℕ) : K) * ppc * (cellY G / ppc) = ((G.ny - 1 : ℕ) : K) * cellY G := by
      field_simp
    rw [h2, ← e] at h1
    linarith
  rw [← slope_strips hG hp ht, eA, eL]
  constructor
  · rw [← mul_assoc, Finset.sum_mul, Finset.sum_mul]
    refine Finset.sum_le_sum fun j hj => ?_
    exact mul_le_mul_of_nonneg_right (c107_count hG hp (hle j hj)).1 hh.le
  · have : (((G.ny - 1) * ppc : ℕ) : K) = ∑ _j ∈ Finset.range ((G.ny - 1) * ppc), (1 : K) := by
      simp
    rw [this, ← Finset.sum_add_distrib, ← mul_assoc, Finset.sum_mul, Finset.sum_mul]
    refine Finset.sum_le_sum fun j hj => ?_
    exact mul_le_mul_of_nonneg_right (c107_count hG hp (hle j hj)).2.le hh.le

/-! ## C108 -/

/-- The square root function is right at `x` (for instance because it is right everywhere). -/
def Spec.IsRoot (o : Ops K) (x : K) : Prop := 0 ≤ o.sqrt x ∧ o.sqrt x * o.sqrt x = x

theorem isRoot {o : Ops K} (ho : GoodOps o) {x : K} (hx : 0 ≤ x) : IsRoot o x :=
  ⟨ho.sqrt_nonneg x hx, ho.sqrt_mul x hx⟩

theorem Spec.IsRoot.pos {o : Ops K} {x : K} (h : IsRoot o x) (hx : 0 < x) :
    0 < o.sqrt x ∧ o.sqrt x * o.sqrt x = x := by
  refine ⟨lt_of_le_of_ne h.1 fun e => ?_, h.2⟩
  have := h.2
  rw [← e, zero_mul] at this
  exact hx.ne this

/-- C108.  `critical_time` of bi_square_drum.py: the time a wave of speed `√(K/ρ)` needs for the
shorter side of a cell. -/
theorem c108_elastic {o : Ops K} {mat : Mat0 K} (hs : IsRoot o (mat.Kb / mat.rho))
    (hK : 0 < mat.Kb) (hr : 0 < mat.rho) (hx : 0 < G.dx) (hy : 0 < G.dy) :
    ∃ c, elasticTime o G mat = .ok (.fin c) ∧ 0 < c ∧ c ^ 2 * mat.Kb = min G.dx G.dy ^ 2 * mat.rho := by
  have hq : 0 < mat.Kb / mat.rho := div_pos hK hr
  obtain ⟨hs, this⟩ := hs.pos hq
  have hd : 0 < min G.dx G.dy := lt_min hx hy
  refine ⟨min G.dx G.dy / o.sqrt (mat.Kb / mat.rho), ?_, div_pos hd hs, ?_⟩
  · unfold elasticTime
    rw [if_neg hr.ne']
    simp only [XF.sqrt, if_neg (not_lt.2 hq.le)]
    rw [XF.fin_div _ hs.ne']
  · rw [div_pow, pow_two (o.sqrt _), this]
    field_simp

/-- C108.  `critical_time` of the flow files: the largest time in which neither such a wave nor
momentum diffusing with viscosity `eta_max` gets further than the shorter side of a cell. -/
theorem c108_flow {o : Ops K} {mat : Mat0 K} (hs : IsRoot o (mat.Kb / mat.rho))
    (hK : 0 < mat.Kb) (hr : 0 < mat.rho) (he : 0 < mat.eta_max) (hx : 0 < G.dx) (hy : 0 < G.dy) :
    ∃ c, flowTime o G mat = .ok (.fin c) ∧ 0 < c ∧ c ^ 2 * mat.Kb ≤ min G.dx G.dy ^ 2 * mat.rho ∧
      c * mat.eta_max ≤ min G.dx G.dy ^ 2 * mat.rho ∧
      (c ^ 2 * mat.Kb = min G.dx G.dy ^ 2 * mat.rho ∨ c * mat.eta_max = min G.dx G.dy ^ 2 * mat.rho) := by
  obtain ⟨c, h1, h2, h3⟩ := c108_elastic (G := G) hs hK hr hx hy
  have hd : 0 < min G.dx G.dy := lt_min hx hy
  have hv : 0 < min G.dx G.dy ^ 2 / mat.eta_max * mat.rho := by positivity
  have hv2 : min G.dx G.dy ^ 2 / mat.eta_max * mat.rho * mat.eta_max =
      min G.dx G.dy ^ 2 * mat.rho := by field_simp
  refine ⟨min (min G.dx G.dy ^ 2 / mat.eta_max * mat.rho) c, ?_, lt_min hv h2, ?_, ?_, ?_⟩
  · unfold flowTime
    rw [h1, res_ok_bind, XF.fin_div _ he.ne', XF.fin_mul]
    rfl
  · rw [← h3]
    refine mul_le_mul_of_nonneg_right ?_ hK.le
    exact pow_le_pow_left₀ (lt_min hv h2).le (min_le_right _ _) 2
  · calc _ ≤ min G.dx G.dy ^ 2 / mat.eta_max * mat.rho * mat.eta_max :=
          mul_le_mul_of_nonneg_right (min_le_left _ _) he.le
      _ = _ := hv2
  · rcases min_choice (min G.dx G.dy ^ 2 / mat.eta_max * mat.rho) c with h | h
    · right; rw [h, hv2]
    · left; rw [h, h3]

/-- With positive finite critical times the dynamic time step is positive and at most `CFL` times
each of them, whatever the nodes do. -/
theorem dynamic_dt {N ns : ℕ} {P : Par K} {A : LoopPar K} {G : Grid K N ns} (hC : 0 < A.CFL)
    (hx : 0 < P.G.dx) (hy : 0 < P.G.dy) (hne : A.critical ≠ [])
    (hc : ∀ c ∈ A.critical, ∃ x, c = XF.fin x ∧ 0 < x) :
    ∃ dt, defaultTimestep P A G = .fin dt ∧ 0 < dt ∧ ∀ x, XF.fin x ∈ A.critical → dt ≤ A.CFL * x := by
  have hd : 0 < 1 / 10 * min P.G.dx P.G.dy := mul_pos (by norm_num) (lt_min hx hy)
  have hc' : ∀ c ∈ A.critical, ∃ x, c = XF.fin x := fun c h => (hc c h).imp fun _ h => h.1
  have hpos : ∀ m, XF.fin m ∈ A.critical → 0 < m := by
    intro m hm
    obtain ⟨x, e, h⟩ := hc _ hm
    rw [XF.fin.inj e]; exact h
  by_cases hv : maxSpeed P.ops.big G = 0
  · obtain ⟨c, l, hl⟩ := List.exists_cons_of_ne_nil hne
    obtain ⟨a, rfl, ha⟩ := hc c (by rw [hl]; simp)
    obtain ⟨m, h1, h2, h3, h4⟩ := foldl_min_fin l (fun c h => hc' c (by rw [hl]; simp [h])) a
    have hm : XF.fin m ∈ A.critical := by
      rw [hl]
      rcases h4 with rfl | h4
      · simp
      · simp [h4]
    refine ⟨A.CFL * m, ?_, mul_pos hC (hpos m hm), fun x hx => mul_le_mul_of_nonneg_left ?_ hC.le⟩
    · unfold defaultTimestep
      simp only
      rw [hv, hl, XF.fin_div_zero hd, List.foldl_cons]
      change XF.fin A.CFL * List.foldl XF.min (.fin a) l = _
      rw [h1, XF.fin_mul]
    · rw [hl] at hx
      rcases List.mem_cons.1 hx with e | hx
      · rw [XF.fin.inj e]; exact h2
      · exact h3 x hx
  · obtain ⟨m, h1, h2, h3, h4⟩ := c53_moving hv hc'
    refine ⟨A.CFL * m, h1, mul_pos hC ?_, fun x hx => mul_le_mul_of_nonneg_left (h3 x hx) hC.le⟩
    rcases h4 with h4 | h4
    · rw [h4]
      refine div_pos hd (lt_of_le_of_ne ?_ (Ne.symm hv))
      rcases (c53_speed P.ops.big G).2 with s2 | ⟨n, s2 | s2⟩
      · exact absurd s2 hv
      · rw [s2]; exact abs_nonneg _
      · rw [s2]; exact abs_nonneg _
    · exact hpos m h4

/-- C108.  In a run with dynamic time stepping every pass through the main loop leaves a positive
time step in which neither an elastic wave nor diffusing momentum gets further than `CFL`
(`√CFL` for diffusion) times the shorter side of a cell, for every phase with that
`critical_time`, whatever the hooks of the input file do to the state. -/
theorem c108_loop {W : Type} {P : Par K} {interp : Interp K P.G.N} {A : LoopPar K}
    {hooks : Call → St P × W → Res (St P × W)} {l l' : LoopSt P W}
    (hdyn : A.dynamic = true) (hC : 0 < A.CFL) (hx : 0 < P.G.dx) (hy : 0 < P.G.dy)
    (hc : ∀ c ∈ A.critical, ∃ x, c = XF.fin x ∧ 0 < x)
    (h : loopBody P interp A hooks l = .ok l') {mat : Mat0 K}
    (hs : IsRoot P.ops (mat.Kb / mat.rho)) (hK : 0 < mat.Kb) (hr : 0 < mat.rho)
    (he : 0 < mat.eta_max) {x : XF K} (hx' : flowTime P.ops P.G mat = .ok x) (hm : x ∈ A.critical) :
    0 < l'.s.dyn.dt ∧
    l'.s.dyn.dt ^ 2 * mat.Kb ≤ (A.CFL * min P.G.dx P.G.dy) ^ 2 * mat.rho ∧
    l'.s.dyn.dt * mat.eta_max ≤ A.CFL * min P.G.dx P.G.dy ^ 2 * mat.rho := by
  unfold loopBody at h
  obtain ⟨s1, -, h⟩ := res_bind_ok.1 h
  obtain ⟨l1, -, h⟩ := res_bind_ok.1 h
  split at h
  · cases h
  split at h
  · cases h
  obtain ⟨l2, -, h⟩ := res_bind_ok.1 h
  obtain ⟨l3, -, h⟩ := res_bind_ok.1 h
  unfold advance at h
  obtain ⟨dt, e1, e2, e3⟩ := dynamic_dt (G := (stepTime P l3.s).G) hC hx hy
    (List.ne_nil_of_mem hm) hc
  simp only [hdyn, if_true, e1] at h
  cases h
  change 0 < dt ∧ dt ^ 2 * mat.Kb ≤ _ ∧ dt * mat.eta_max ≤ _
  obtain ⟨c, f1, f2, f3, f4, -⟩ := c108_flow (G := P.G) hs hK hr he hx hy
  rw [hx', Except.ok.injEq] at f1
  subst f1
  have f5 := e3 c hm
  refine ⟨e2, ?_, ?_⟩
  · calc dt ^ 2 * mat.Kb ≤ (A.CFL * c) ^ 2 * mat.Kb :=
          mul_le_mul_of_nonneg_right (pow_le_pow_left₀ e2.le f5 2) hK.le
      _ = A.CFL ^ 2 * (c ^ 2 * mat.Kb) := by ring
      _ ≤ A.CFL ^ 2 * (min P.G.dx P.G.dy ^ 2 * mat.rho) :=
          mul_le_mul_of_nonneg_left f3 (sq_nonneg _)
      _ = _ := by ring
  · calc dt * mat.eta_max ≤ A.CFL * c * mat.eta_max := mul_le_mul_of_nonneg_right f5 he.le
      _ = A.CFL * (c * mat.eta_max) := by ring
      _ ≤ A.CFL * (min P.G.dx P.G.dy ^ 2 * mat.rho) := mul_le_mul_of_nonneg_left f4 hC.le
      _ = _ := by ring

end
/-- A slope of inclination 1 on three by three nodes, four points per cell: three rows of points and
an empty one. -/
example : GoodGrid Ex.gp ∧ Ex.gp.x_m = 0 ∧ Ex.gp.y_m = 0 ∧
    slopeLayout Ex.gp 2 (Ex.gp.y_M / 1) 1 = [(1/4, 1/4), (7/8, 1/4), (3/2, 1/4), (1/4, 3/4), (1, 3/4),
      (1/4, 5/4)] := by
  refine ⟨⟨?_, ?_, ?_, ?_⟩, ?_, ?_, ?_⟩ <;> decide +kernel

/-- A steeper slope, half as long as the domain. -/
example : Ex.gp.x_M = 2 * (Ex.gp.y_M / 2) ∧
    slopeLayout Ex.gp 2 (Ex.gp.y_M / 2) 2 = [(1/4, 1/4), (1/4, 3/4)] := by
  refine ⟨?_, ?_⟩ <;> decide +kernel

/-- Neighbours that are not at the point spacing. -/
example : slopeRow Ex.gp 2 (11/10) 2 (0 : ℚ) = [(1/4, 0), (17/20, 0)] := by
  decide +kernel

def Ex.waveMat : Mat0 ℚ := { Ex.mat with Kb := 1, rho := 1, eta_max := 2 }

/-- One pass of the main loop with dynamic time steps and the critical time of such a material. -/
example : ∃ (s : St Ex.par) (l : LoopSt Ex.par Unit), s.L = Ex.L ∧
    IsRoot Ex.par.ops (Ex.waveMat.Kb / Ex.waveMat.rho) ∧
    flowTime Ex.par.ops Ex.par.G Ex.waveMat = .ok (.fin (1/2)) ∧
    loopBody Ex.par (Ex.noInterp _)
      { t_f := 1, savetime := 1, dynamic := true, CFL := 1/10, critical := [.fin (1/2)] }
      (fun _ x => .ok x) { s := s, w := (), log := [] } = .ok l ∧ l.s.dyn.dt = 14850 / 2861087 := by
  obtain ⟨G, h1, h2⟩ := Ex.okAnd_ok (r := mkGrid Ex.par.G Ex.par.B)
    (check := fun G => Ex.okAnd (loopBody Ex.par (Ex.noInterp _)
      { t_f := 1, savetime := 1, dynamic := true, CFL := 1/10, critical := [.fin (1/2)] }
      (fun _ x => .ok x) { s := { dyn := Ex.dyn, L := Ex.L, G := G }, w := (), log := [] })
      fun l => decide (l.s.dyn.dt = 14850 / 2861087)) (by decide +kernel)
  obtain ⟨l, h3, h4⟩ := Ex.okAnd_ok h2
  exact ⟨_, l, rfl, by unfold IsRoot; decide +kernel, by decide +kernel, h3, of_decide_eq_true h4⟩

end Mpm

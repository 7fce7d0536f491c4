import Verif.Props.Layout
import Verif.ExRun
import Verif.Props.Segregation

/-!
# C100, C101: grain sizes and initial fractions in the input files
-/

set_option linter.unusedSectionVars false

namespace Mpm
open Spec

section
variable {K : Type} [Field K] [LinearOrder K] [IsStrictOrderedRing K]

/-! ## C100 -/

/-- C100.  The sizes are the middles of `ns` equal parts of the range. -/
theorem c100_bins (s_m s_M : K) {ns : ℕ} (hn : 0 < ns) :
    sizeBins s_m s_M ns = (List.range ns).map (piece s_m ((s_M - s_m) / ns)) := by
  have hn' : (ns : K) ≠ 0 := by exact_mod_cast hn.ne'
  refine List.ext_getElem (by simp [sizeBins, linspaceL]) fun i h1 h2 => ?_
  simp only [sizeBins, linspaceL, List.getElem_zipWith, List.getElem_tail, List.getElem_dropLast,
    List.getElem_map, List.getElem_range]
  unfold linspace piece
  push_cast
  rw [add_sub_cancel_right]
  field_simp
  ring

/-- C100.  They increase and lie inside the range. -/
theorem c100_order {s_m s_M : K} (h : s_m < s_M) {ns : ℕ} (hn : 0 < ns) :
    (sizeBins s_m s_M ns).Pairwise (· < ·) ∧ (sizeBins s_m s_M ns).length = ns ∧
      ∀ s ∈ sizeBins s_m s_M ns, s_m < s ∧ s < s_M := by
  have hn' : (0 : K) < ns := by exact_mod_cast hn
  have hd : 0 < (s_M - s_m) / ns := div_pos (sub_pos.2 h) hn'
  rw [c100_bins s_m s_M hn]
  refine ⟨?_, by simp, ?_⟩
  · rw [List.pairwise_map]
    refine List.pairwise_lt_range.imp fun {a b} hab => ?_
    have : (a : K) < b := by exact_mod_cast hab
    unfold piece
    have := mul_lt_mul_of_pos_right (add_lt_add_left this (1 / 2 : K)) hd
    linarith
  · intro s hs
    obtain ⟨i, hi, rfl⟩ := List.mem_map.1 hs
    have hi' : (i : K) + 1 ≤ ns := by exact_mod_cast List.mem_range.1 hi
    have h0 : (0 : K) ≤ i := Nat.cast_nonneg i
    unfold piece
    constructor
    · have : 0 < ((i : K) + 1 / 2) * ((s_M - s_m) / ns) := mul_pos (by linarith) hd
      linarith
    · have : ((i : K) + 1 / 2) * ((s_M - s_m) / ns) < ns * ((s_M - s_m) / ns) :=
        mul_lt_mul_of_pos_right (by linarith) hd
      rw [mul_div_cancel₀ _ hn'.ne'] at this
      linarith

/-- C100.  Their mean is the middle of the range, which bi_seg_test.py:56 takes as `s_bar_0`. -/
theorem c100_mean (s_m s_M : K) {ns : ℕ} (hn : 0 < ns) :
    (sizeBins s_m s_M ns).sum / ns = (s_m + s_M) / 2 := by
  have hn' : (ns : K) ≠ 0 := by exact_mod_cast hn.ne'
  rw [c100_bins s_m s_M hn, sum_map_range]
  unfold piece
  rw [Finset.sum_add_distrib, ← Finset.sum_mul, sum_pieces]
  simp
  field_simp
  ring

/-- C100.  The step is the width of a part; with a single size (or none) the constructor raises
IndexError. -/
theorem c100_step (s_m s_M : K) (ns : ℕ) :
    sizeStep (sizeBins s_m s_M ns) =
      if 2 ≤ ns then .ok ((s_M - s_m) / ns) else .error .index := by
  rcases Nat.eq_zero_or_pos ns with rfl | hn
  · rfl
  · rw [c100_bins s_m s_M hn]
    unfold sizeStep
    split_ifs with h
    · rw [List.getElem?_map, List.getElem?_map, List.getElem?_range (by omega),
        List.getElem?_range (by omega)]
      simp only [Option.map_some]
      refine congrArg Except.ok ?_
      unfold piece
      push_cast
      ring
    · have : ns = 1 := by omega
      subst this
      rfl

/-! ## C101 -/

variable [FloorRing K] {G : GP K}

/-- All of class `i`. -/
def Spec.pureClass {ns : ℕ} (i : Fin ns) : Fin ns → K := fun k => if k = i then 1 else 0

theorem pure_distribution {ns : ℕ} (i : Fin ns) : Distribution (pureClass (K := K) i) := by
  constructor
  · intro j
    unfold pureClass
    split_ifs <;> norm_num
  · simp [pureClass]

theorem oneHot_ok {ns : ℕ} {z : ℤ} (h0 : 0 ≤ z) (h1 : z < ns) :
    ∃ i : Fin ns, ((i : ℕ) : ℤ) = z ∧ oneHot (K := K) ns z = .ok (pureClass i) := by
  refine ⟨⟨z.toNat, by omega⟩, by simp [h0], ?_⟩
  unfold oneHot pyIdx
  rw [dif_pos ⟨h0, h1⟩]
  rfl

/-- C101.  'top': a point gets the class of its slab, counted from the top. -/
theorem c101_top (hm : G.y_m = 0) {y : K} (hy : 0 < y) (hy' : y ≤ G.y_M) (hn : 0 < G.ns) :
    ∃ i : Fin G.ns, gradedPhi .top G y = .ok [pureClass i] ∧
      G.y_M - ((i : K) + 1) * (G.y_M / G.ns) < y ∧ y ≤ G.y_M - (i : K) * (G.y_M / G.ns) := by
  have hH : 0 < G.y_M := lt_of_lt_of_le hy hy'
  have hn' : (0 : K) < G.ns := by exact_mod_cast hn
  have h0 : 0 ≤ (G.y_M - y) / G.y_M * G.ns :=
    mul_nonneg (div_nonneg (by linarith) hH.le) hn'.le
  have h1 : (G.y_M - y) / G.y_M * G.ns < G.ns := by
    have : (G.y_M - y) / G.y_M < 1 := by rw [div_lt_one hH]; linarith
    calc _ < 1 * (G.ns : K) := mul_lt_mul_of_pos_right this hn'
      _ = _ := one_mul _
  obtain ⟨i, hi, e⟩ := oneHot_ok (K := K) (ns := G.ns) (z := ⌊(G.y_M - y) / G.y_M * G.ns⌋)
    (Int.floor_nonneg.2 h0) (Int.floor_lt.2 (by exact_mod_cast h1))
  have hle := Int.floor_le ((G.y_M - y) / G.y_M * G.ns)
  have hlt := Int.lt_floor_add_one ((G.y_M - y) / G.y_M * G.ns)
  rw [← hi] at hle hlt
  push_cast at hle hlt
  have ey : (G.y_M - y) / G.y_M * G.ns * (G.y_M / G.ns) = G.y_M - y := by field_simp
  have hw : 0 < G.y_M / G.ns := div_pos hH hn'
  refine ⟨i, ?_, ?_, ?_⟩
  · unfold gradedPhi
    simp only [hm, sub_zero]
    rw [if_neg hH.ne', e]
    rfl
  · have := mul_lt_mul_of_pos_right hlt hw
    rw [ey] at this
    linarith
  · have := mul_le_mul_of_nonneg_right hle hw.le
    rw [ey] at this
    linarith

/-- C101.  'bot': counted from the bottom. -/
theorem c101_bot (hm : G.y_m = 0) {y : K} (hy : 0 ≤ y) (hy' : y < G.y_M) (hn : 0 < G.ns) :
    ∃ i : Fin G.ns, gradedPhi .bot G y = .ok [pureClass i] ∧
      (i : K) * (G.y_M / G.ns) ≤ y ∧ y < ((i : K) + 1) * (G.y_M / G.ns) := by
  have hH : 0 < G.y_M := lt_of_le_of_lt hy hy'
  have hn' : (0 : K) < G.ns := by exact_mod_cast hn
  have h0 : 0 ≤ y / G.y_M * G.ns := mul_nonneg (div_nonneg hy hH.le) hn'.le
  have h1 : y / G.y_M * G.ns < G.ns := by
    have : y / G.y_M < 1 := by rw [div_lt_one hH]; exact hy'
    calc _ < 1 * (G.ns : K) := mul_lt_mul_of_pos_right this hn'
      _ = _ := one_mul _
  obtain ⟨i, hi, e⟩ := oneHot_ok (K := K) (ns := G.ns) (z := ⌊y / G.y_M * G.ns⌋)
    (Int.floor_nonneg.2 h0) (Int.floor_lt.2 (by exact_mod_cast h1))
  have hle := Int.floor_le (y / G.y_M * G.ns)
  have hlt := Int.lt_floor_add_one (y / G.y_M * G.ns)
  rw [← hi] at hle hlt
  push_cast at hle hlt
  have ey : y / G.y_M * G.ns * (G.y_M / G.ns) = y := by field_simp
  have hw : 0 < G.y_M / G.ns := div_pos hH hn'
  refine ⟨i, ?_, ?_, ?_⟩
  · unfold gradedPhi
    simp only [hm, sub_zero]
    rw [if_neg hH.ne', e]
    rfl
  · have := mul_le_mul_of_nonneg_right hle hw.le
    rwa [ey] at this
  · have := mul_lt_mul_of_pos_right hlt hw
    rwa [ey] at this

theorem slabs_ordered {h y y' : K} (hh : 0 < h) {i i' : ℕ} (h1 : (i : K) * h ≤ y)
    (h2 : y' < ((i' : K) + 1) * h) (hy : y ≤ y') : i ≤ i' := by
  have : (i : K) * h < ((i' : K) + 1) * h := lt_of_le_of_lt (h1.trans hy) h2
  have := lt_of_mul_lt_mul_right this hh.le
  have : i < i' + 1 := by exact_mod_cast this
  omega

/-- C101.  'top': higher points are never larger; 'bot': never smaller. -/
theorem c101_sorted (hm : G.y_m = 0) {y y' : K} (hy : 0 < y) (hyy : y ≤ y') (hy' : y' < G.y_M)
    {i i' : Fin G.ns} :
    (gradedPhi .top G y = .ok [pureClass i] → gradedPhi .top G y' = .ok [pureClass i'] → i' ≤ i) ∧
    (gradedPhi .bot G y = .ok [pureClass i] → gradedPhi .bot G y' = .ok [pureClass i'] → i ≤ i') := by
  have hn : 0 < G.ns := lt_of_le_of_lt (Nat.zero_le _) i.isLt
  have hn' : (0 : K) < G.ns := by exact_mod_cast hn
  have hw : 0 < G.y_M / G.ns := div_pos (hy.trans_le (hyy.trans hy'.le)) hn'
  have inj : ∀ {a b : Fin G.ns}, (Except.ok [pureClass (K := K) a] : Res _) = .ok [pureClass b] →
      a = b := by
    intro a b h
    have h := congrFun (List.singleton_inj.1 (Except.ok.inj h)) a
    unfold pureClass at h
    rw [if_pos rfl] at h
    by_contra hne
    rw [if_neg hne] at h
    exact one_ne_zero h
  constructor
  · intro h h'
    obtain ⟨j, e, g1, g2⟩ := c101_top hm hy (hyy.trans hy'.le) hn
    obtain ⟨j', e', g1', g2'⟩ := c101_top hm (hy.trans_le hyy) hy'.le hn
    obtain rfl := inj (h.symm.trans e)
    obtain rfl := inj (h'.symm.trans e')
    exact Fin.le_def.2 (slabs_ordered hw (y := G.y_M - y') (y' := G.y_M - y) (by linarith)
      (by linarith) (by linarith))
  · intro h h'
    obtain ⟨j, e, g1, g2⟩ := c101_bot hm hy.le (hyy.trans_lt hy') hn
    obtain ⟨j', e', g1', g2'⟩ := c101_bot hm (hy.trans_le hyy).le hy' hn
    obtain rfl := inj (h.symm.trans e)
    obtain rfl := inj (h'.symm.trans e')
    exact Fin.le_def.2 (slabs_ordered hw g1 g2' hyy)

/-- C101.  For points strictly between bottom and top every point gets one entry, and it is a
distribution. -/
theorem c101_list (hm : G.y_m = 0) (hn : 0 < G.ns) {w : Grading} (hw : w ≠ .other) {l : List (K × K)}
    (hl : ∀ q ∈ l, 0 < q.2 ∧ q.2 < G.y_M) :
    ∃ F, gradedPHI w G l = .ok F ∧
      List.Forall₂ (fun q f => gradedPhi w G q.2 = .ok [f] ∧ Distribution f) l F := by
  induction l with
  | nil => exact ⟨[], rfl, .nil⟩
  | cons q l ih =>
    obtain ⟨F, e, hF⟩ := ih fun a ha => hl a (List.mem_cons_of_mem _ ha)
    obtain ⟨h1, h2⟩ := hl q List.mem_cons_self
    have : ∃ f, gradedPhi w G q.2 = .ok [f] ∧ Distribution f := by
      cases w with
      | top =>
        obtain ⟨i, e, -⟩ := c101_top hm h1 h2.le hn
        exact ⟨_, e, pure_distribution i⟩
      | bot =>
        obtain ⟨i, e, -⟩ := c101_bot hm h1.le h2 hn
        exact ⟨_, e, pure_distribution i⟩
      | mix =>
        have hn' : (0 : K) < G.ns := by exact_mod_cast hn
        refine ⟨_, rfl, fun _ => (div_pos one_pos hn').le, ?_⟩
        simp
        field_simp
      | other => exact absurd rfl hw
    obtain ⟨f, ef, hf⟩ := this
    refine ⟨f :: F, ?_, .cons ⟨ef, hf⟩ hF⟩
    unfold gradedPHI
    rw [ef, e]
    rfl

/-- C101.  Any other word leaves `PHI` empty, and the list of points cannot be constructed. -/
theorem c101_other {P : Par K} {g : K} {l : List (K × K)} (hl : l ≠ []) :
    gradedPHI .other P.G l = .ok [] ∧
    ∀ a : Phase K P.G.ns × PhaseInit K P.G.ns, At l a → a.2.heterogeneous = true → a.2.PHI = [] →
      ∃ e, mkList P g [a] = .error e := by
  constructor
  · clear hl
    induction l with
    | nil => rfl
    | cons q l ih =>
      unfold gradedPHI
      rw [ih]
      rfl
  · intro a ha hh hp
    refine c64_too_few (List.mem_singleton.2 rfl) (Or.inr (Or.inr ⟨hh, ?_⟩))
    rw [hp, ha.n]
    exact List.length_pos_iff.2 hl

/-- C101.  'layered': the index is valid except where the cosine is one, where it is one too large
and IndexError is raised. -/
theorem c101_layered {ns : ℕ} (hn : 0 < ns) {c : K} (hc : -1 ≤ c) (hc' : c ≤ 1) :
    (c < 1 → ∃ i : Fin ns, layeredPhi ns c = .ok (pureClass i)) ∧
    (c = 1 → layeredPhi (K := K) ns c = .error .index) := by
  have hn' : (0 : K) < ns := by exact_mod_cast hn
  have h0 : 0 ≤ (ns : K) / 2 * c + (ns : K) / 2 := by
    have : (ns : K) / 2 * (-1) ≤ (ns : K) / 2 * c := mul_le_mul_of_nonneg_left hc (by linarith)
    linarith
  constructor
  · intro h
    have h1 : (ns : K) / 2 * c + (ns : K) / 2 < ns := by
      have : (ns : K) / 2 * c < (ns : K) / 2 * 1 := mul_lt_mul_of_pos_left h (by linarith)
      linarith
    obtain ⟨i, -, e⟩ := oneHot_ok (K := K) (ns := ns) (z := ⌊(ns : K) / 2 * c + (ns : K) / 2⌋)
      (Int.floor_nonneg.2 h0) (Int.floor_lt.2 (by exact_mod_cast h1))
    refine ⟨i, ?_⟩
    unfold layeredPhi pyTrunc
    rw [if_pos h0, e]
  · rintro rfl
    unfold layeredPhi pyTrunc
    rw [if_pos h0]
    have : (ns : K) / 2 * 1 + (ns : K) / 2 = ((ns : ℤ) : K) := by push_cast; ring
    rw [this, Int.floor_intCast]
    unfold oneHot pyIdx
    rw [dif_neg (by omega), dif_neg (by omega)]
    rfl

/-- The amount of class `i` in the entry of a point. -/
def amountAt (w : Grading) (G : GP K) (i : Fin G.ns) (y : K) : K :=
  match gradedPhi w G y with
  | .ok [f] => f i
  | _ => 0

theorem rows_scaled (hG : GoodGrid G) (hm : G.y_m = 0) {p q : ℕ} (hp : 0 < p)
    (hq : G.ns * q = (G.ny - 1) * p) (hn : 0 < G.ns) (b : ℕ) :
    piece (nodeY G 0) (cellY G / p) b = piece (0 + (0 : ℕ) * (G.y_M / G.ns)) (G.y_M / G.ns / q) b := by
  have hny := hG.ny
  have hp' : (p : K) ≠ 0 := by exact_mod_cast hp.ne'
  have hn' : (G.ns : K) ≠ 0 := by exact_mod_cast hn.ne'
  have hr : ((G.ny - 1 : ℕ) : K) ≠ 0 := by exact_mod_cast (by omega)
  have hq' : (q : K) ≠ 0 := by
    intro h
    have h : q = 0 := by exact_mod_cast h
    rw [h, Nat.mul_zero] at hq
    have := Nat.mul_pos (show 0 < G.ny - 1 by omega) hp
    omega
  have e := cells_y hG
  rw [hm, sub_zero] at e
  have eq : (G.ns : K) * q = ((G.ny - 1 : ℕ) : K) * p := by exact_mod_cast hq
  have e2 : cellY G / p = G.y_M / G.ns / q := by
    rw [e, div_div, eq]
    field_simp
  unfold nodeY piece
  rw [hm, e2]
  push_cast
  ring

/-- C101.  On a layout over the full height with equally many rows of points for every size class,
all three gradings use the same amount of every class. -/
theorem c101_shares (hG : GoodGrid G) (hm : G.y_m = 0) {i0 c p q : ℕ} (hp : 0 < p) (hc : i0 + c < G.nx)
    (hq : G.ns * q = (G.ny - 1) * p) {w : Grading} (hw : w ≠ .other) {F : List (Fin G.ns → K)}
    (hF : gradedPHI w G (block G i0 c 0 (G.ny - 1) p) = .ok F) (i : Fin G.ns) :
    (F.map fun f => f i).sum = (c * p : K) * q := by
  have hn : 0 < G.ns := lt_of_le_of_lt (Nat.zero_le _) i.isLt
  have hn' : (0 : K) < G.ns := by exact_mod_cast hn
  have hny := hG.ny
  have hH : 0 < G.y_M := by have := hG.y; rwa [hm] at this
  have hin : ∀ pt ∈ block G i0 c 0 (G.ny - 1) p, 0 < pt.2 ∧ pt.2 < G.y_M := by
    intro pt hpt
    have := (c97_inside hG hp hc (by omega) hpt).2
    rwa [hm] at this
  obtain ⟨F', e, hF'⟩ := c101_list hm hn hw hin
  rw [hF] at e
  cases e
  have hq0 : 0 < q := by
    rcases Nat.eq_zero_or_pos q with rfl | h
    · rw [Nat.mul_zero] at hq
      have := Nat.mul_pos (show 0 < G.ny - 1 by omega) hp
      omega
    · exact h
  have s1 : (F.map fun f => f i).sum =
      ((block G i0 c 0 (G.ny - 1) p).map fun pt => amountAt w G i pt.2).sum := by
    refine congrArg List.sum ?_
    clear hF hin
    revert hF'
    generalize block G i0 c 0 (G.ny - 1) p = l
    intro hF'
    induction hF' with
    | nil => rfl
    | cons h _ ih =>
      rw [List.map_cons, List.map_cons, ih]
      congr 1
      unfold amountAt
      rw [h.1]
  have s2 := sum_block G i0 c 0 (G.ny - 1) p (fun _ y => amountAt w G i y)
  rw [s1, s2]
  simp only [Finset.sum_const, Finset.card_range, nsmul_eq_mul, ← Finset.mul_sum]
  push_cast
  congr 1
  have hw0 : 0 < G.y_M / G.ns := div_pos hH hn'
  have hrow : ∀ b ∈ Finset.range ((G.ny - 1) * p),
      0 < piece (nodeY G 0) (cellY G / p) b ∧ piece (nodeY G 0) (cellY G / p) b < G.y_M := by
    intro b hb
    have := piece_inside (a := G.y_m) (cellY_pos hG) hp (i0 := 0) (c := G.ny - 1) (n := G.ny - 1)
      (Finset.mem_range.1 hb) (by omega)
    have e := cells_y hG
    rw [sub_eq_iff_eq_add'] at e
    rw [← e] at this
    rw [hm] at this
    have e0 : nodeY G 0 = (0 : K) + (0 : ℕ) * cellY G := by unfold nodeY; rw [hm]; simp
    rw [e0]
    exact this
  have count : ((Finset.range (G.ns * q)).filter fun r => 0 + r / q = (i : ℕ)).card = q := by
    rw [card_quotient hq0, if_pos ⟨Nat.zero_le _, by omega⟩]
  have sumB : ∑ b ∈ Finset.range (G.ns * q), (if 0 + b / q = (i : ℕ) then (1 : K) else 0) = q := by
    rw [Finset.sum_boole, count]
  cases w with
  | other => exact absurd rfl hw
  | mix =>
    have : ∀ b ∈ Finset.range ((G.ny - 1) * p),
        amountAt .mix G i (piece (nodeY G 0) (cellY G / p) b) = 1 / (G.ns : K) := fun _ _ => rfl
    rw [Finset.sum_congr rfl this, Finset.sum_const, Finset.card_range, ← hq, nsmul_eq_mul]
    push_cast
    field_simp
  | bot =>
    rw [← sumB, hq]
    refine Finset.sum_congr rfl fun b hb => ?_
    obtain ⟨h0, h1⟩ := hrow b hb
    obtain ⟨j, e, g1, g2⟩ := c101_bot hm h0.le h1 hn
    unfold amountAt
    rw [e]
    rw [rows_scaled hG hm hp hq hn] at g1 g2
    have := (piece_cell (a := (0 : K)) hw0 hq0 0 b j).1 ⟨by linarith, by push_cast; push_cast at g2; linarith⟩
    simp only [pureClass]
    refine if_congr ?_ rfl rfl
    rw [Fin.ext_iff, ← this]
    exact eq_comm
  | top =>
    rw [← sumB, ← Finset.sum_range_reflect (fun b => if 0 + b / q = (i : ℕ) then (1 : K) else 0), hq]
    refine Finset.sum_congr rfl fun b hb => ?_
    obtain ⟨h0, h1⟩ := hrow b hb
    obtain ⟨j, e, g1, g2⟩ := c101_top hm h0 h1.le hn
    unfold amountAt
    rw [e]
    rw [rows_scaled hG hm hp hq hn] at g1 g2
    have hb' : b < G.ns * q := by rw [hq]; exact Finset.mem_range.1 hb
    have er : G.y_M - piece (0 + ((0 : ℕ) : K) * (G.y_M / G.ns)) (G.y_M / G.ns / q) b =
        piece (0 + ((0 : ℕ) : K) * (G.y_M / G.ns)) (G.y_M / G.ns / q) ((G.ny - 1) * p - 1 - b) := by
      have hq' : (q : K) ≠ 0 := by exact_mod_cast hq0.ne'
      unfold piece
      rw [← hq, Nat.cast_sub (by omega), Nat.cast_sub (by omega)]
      push_cast
      field_simp
      ring
    have := (piece_cell (a := (0 : K)) hw0 hq0 0 ((G.ny - 1) * p - 1 - b) j).1
      ⟨by rw [← er]; linarith, by rw [← er]; push_cast; push_cast at g1; linarith⟩
    simp only [pureClass]
    refine if_congr ?_ rfl rfl
    rw [Fin.ext_iff, ← this]
    exact eq_comm

/-- Two classes on four rows. -/
example : GoodGrid Ex.gp ∧ Ex.gp.y_m = 0 ∧ Ex.gp.ns * 2 = (Ex.gp.ny - 1) * 2 ∧
    ∃ F, gradedPHI .top Ex.gp (block Ex.gp 0 2 0 (Ex.gp.ny - 1) 2) = .ok F ∧ F.length = 16 := by
  refine ⟨Ex.good, rfl, rfl, ?_⟩
  obtain ⟨F, h, hF⟩ := c101_list (G := Ex.gp) (w := .top) rfl (by decide) (by decide)
    (l := block Ex.gp 0 2 0 (Ex.gp.ny - 1) 2)
    (fun q hq => (c97_inside Ex.good (by norm_num) (by decide) (by decide) hq).2)
  refine ⟨F, h, ?_⟩
  rw [← hF.length_eq, c97_count]
  rfl

example :
    Ex.okAnd (gradedPhi .top Ex.gp (1 / 2)) (fun l => decide (l.map List.ofFn = [[0, 1]])) = true ∧
    Ex.okAnd (gradedPhi .top Ex.gp (3 / 2)) (fun l => decide (l.map List.ofFn = [[1, 0]])) = true ∧
    Ex.okAnd (gradedPhi .bot Ex.gp (1 / 2)) (fun l => decide (l.map List.ofFn = [[1, 0]])) = true ∧
    Ex.okAnd (layeredPhi (K := ℚ) 2 (1 / 2)) (fun f => decide (List.ofFn f = [0, 1])) = true := by
  decide +kernel

example : sizeBins (1 : ℚ) 5 2 = [2, 4] ∧ sizeStep (sizeBins (1 : ℚ) 5 2) = .ok 2 := by
  rw [c100_step, c100_bins _ _ (by norm_num)]
  norm_num [piece, List.range_succ]

end
end Mpm

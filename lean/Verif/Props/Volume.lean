import Verif.Props.Boundary
import Mathlib.Tactic.Linarith
import Mathlib.Tactic.FieldSimp
import Mathlib.Tactic.Ring

/-!
# C22, C23: cyclic summation and nodal volumes
-/

set_option linter.unusedSectionVars false

namespace Mpm
namespace Spec

/-- Physically distinct nodes of a grid whose left and right columns are identified: all but the
last column. -/
def distinct (nx ny : ℕ) : Finset (Fin (ny * nx)) :=
  Finset.univ.filter fun k => (k : ℕ) % nx ≠ nx - 1

end Spec
open Spec

section
variable {nx ny : ℕ}

theorem distinct_sum {M : Type} [AddCommMonoid M] (f : Fin (ny * nx) → M) :
    ∑ k ∈ distinct nx ny, f k =
      ∑ j : Fin ny, ∑ i : Fin nx, if (i : ℕ) ≠ nx - 1 then f (mkNode i j) else 0 := by
  unfold distinct
  rw [Finset.sum_filter, sum_nodes]
  refine Finset.sum_congr rfl fun j _ => Finset.sum_congr rfl fun i _ => ?_
  rw [mkNode_col]

/-- The left node of every row becomes left + right, the right node right + left, and the other
nodes keep their values. -/
theorem c22_values {α : Type} [AddCommMonoid α] (hnx : 2 ≤ nx) (a : Fin (ny * nx) → α)
    (l r k : Fin (ny * nx)) (hl : (l : ℕ) % nx = 0) (hr : (r : ℕ) % nx = nx - 1)
    (hlr : (l : ℕ) / nx = (r : ℕ) / nx) (hk0 : (k : ℕ) % nx ≠ 0) (hk1 : (k : ℕ) % nx ≠ nx - 1) :
    makeCyclic a l = a l + a r ∧ makeCyclic a r = a l + a r ∧ makeCyclic a k = a k := by
  have e1 : rightOf l = r := node_ext ((rightOf_row l).trans hlr) ((rightOf_col l).trans hr.symm)
  have e2 : leftOf r = l := node_ext ((leftOf_row r).trans hlr.symm) ((leftOf_col r).trans hl.symm)
  refine ⟨?_, ?_, ?_⟩
  · simp only [makeCyclic]
    rw [if_neg (by omega), if_pos hl, e1]
  · simp only [makeCyclic]
    rw [if_pos hr, if_neg (by omega), e2, add_comm]
  · simp only [makeCyclic]
    rw [if_neg hk1, if_neg hk0]

/-- Values at any node, by column. -/
theorem makeCyclic_eq {α : Type} [AddCommMonoid α] (hnx : 2 ≤ nx) (a : Fin (ny * nx) → α)
    (k : Fin (ny * nx)) :
    makeCyclic a k = if (k : ℕ) % nx = 0 ∨ (k : ℕ) % nx = nx - 1 then a (leftOf k) + a (rightOf k)
      else a k := by
  by_cases h0 : (k : ℕ) % nx = 0
  · rw [if_pos (Or.inl h0)]
    have := leftOf_col k
    have e : leftOf k = k := node_ext (leftOf_row k) (by omega)
    simp only [makeCyclic]
    rw [if_neg (by omega), if_pos h0, e]
  · by_cases h1 : (k : ℕ) % nx = nx - 1
    · rw [if_pos (Or.inr h1)]
      have := rightOf_col k
      have e : rightOf k = k := node_ext (rightOf_row k) (by omega)
      simp only [makeCyclic]
      rw [if_pos h1, if_neg h0, e, add_comm]
    · rw [if_neg (by tauto)]
      simp only [makeCyclic]
      rw [if_neg h1, if_neg h0]

/-- The total over distinct nodes afterwards is the total over all nodes before. -/
theorem c22_total {α : Type} [AddCommMonoid α] (hnx : 2 ≤ nx) (a : Fin (ny * nx) → α) :
    ∑ k ∈ distinct nx ny, makeCyclic a k = ∑ k, a k := by
  rw [distinct_sum, sum_nodes]
  refine Finset.sum_congr rfl fun j _ => ?_
  obtain ⟨n, rfl⟩ : ∃ n, nx = n + 2 := ⟨nx - 2, by omega⟩
  rw [Fin.sum_univ_succ, Fin.sum_univ_castSucc (n := n), Fin.sum_univ_succ, Fin.sum_univ_castSucc (n := n)]
  have hc : ∀ i : Fin n, (if ((i.castSucc.succ : Fin (n + 2)) : ℕ) ≠ n + 2 - 1 then
      makeCyclic a (mkNode i.castSucc.succ j) else 0) = a (mkNode i.castSucc.succ j) := by
    intro i
    have hi := i.isLt
    rw [if_pos (by simp; omega), makeCyclic_eq hnx, mkNode_col, if_neg (by simp; omega)]
  rw [Finset.sum_congr rfl fun i _ => hc i]
  have h0 : makeCyclic a (mkNode (0 : Fin (n + 2)) j) =
      a (mkNode 0 j) + a (mkNode (Fin.last n).succ j) := by
    rw [makeCyclic_eq hnx, mkNode_col, if_pos (Or.inl (by simp))]
    congr 2
    · apply node_ext
      · rw [leftOf_row]
      · rw [leftOf_col, mkNode_col]; simp
    · apply node_ext
      · rw [rightOf_row, mkNode_row, mkNode_row]
      · rw [rightOf_col, mkNode_col]; simp
  rw [h0, if_pos (by simp), if_neg (by simp), add_zero]
  rw [add_comm (∑ _, _) (a (mkNode (Fin.last n).succ j)), add_assoc]

/-- Applied twice, the edge values are doubled and the others unchanged. -/
theorem c22_twice {α : Type} [AddCommMonoid α] (hnx : 2 ≤ nx) (a : Fin (ny * nx) → α)
    (k : Fin (ny * nx)) :
    makeCyclic (makeCyclic a) k =
      if (k : ℕ) % nx = 0 ∨ (k : ℕ) % nx = nx - 1 then makeCyclic a k + makeCyclic a k
      else makeCyclic a k := by
  rw [makeCyclic_eq hnx (makeCyclic a) k]
  split
  · rename_i h
    have e1 : makeCyclic a (leftOf k) = makeCyclic a k := by
      rw [makeCyclic_eq hnx a (leftOf k), makeCyclic_eq hnx a k, if_pos h,
        if_pos (Or.inl (leftOf_col k)),
        node_ext (k := leftOf (leftOf k)) (l := leftOf k) (leftOf_row _)
          (by rw [leftOf_col, leftOf_col]),
        node_ext (k := rightOf (leftOf k)) (l := rightOf k)
          (by rw [rightOf_row, rightOf_row, leftOf_row]) (by rw [rightOf_col, rightOf_col])]
    have e2 : makeCyclic a (rightOf k) = makeCyclic a k := by
      rw [makeCyclic_eq hnx a (rightOf k), makeCyclic_eq hnx a k, if_pos h,
        if_pos (Or.inr (rightOf_col k)),
        node_ext (k := leftOf (rightOf k)) (l := leftOf k)
          (by rw [leftOf_row, leftOf_row, rightOf_row]) (by rw [leftOf_col, leftOf_col]),
        node_ext (k := rightOf (rightOf k)) (l := rightOf k) (rightOf_row _)
          (by rw [rightOf_col, rightOf_col])]
    rw [e1, e2]
  · rfl

/-- A grid with a single column is not a special case of the above: there make_cyclic triples
every value. -/
theorem c22_single_column {α : Type} [AddCommMonoid α] (a : Fin (ny * 1) → α) (k : Fin (ny * 1)) :
    makeCyclic a k = a k + a k + a k := by
  have h1 : rightOf k = k := Fin.ext (by simp [rightOf])
  have h2 : leftOf k = k := Fin.ext (by simp [leftOf])
  simp only [makeCyclic]
  rw [if_pos (Nat.mod_one _), if_pos (Nat.mod_one _), h1, h2]

end

section
variable {K : Type} [Field K] [LinearOrder K] [IsStrictOrderedRing K]

/-- Share of a cell width belonging to column `i`. -/
def halfEnd (n i : ℕ) : K := if i = 0 ∨ i = n - 1 then 1 / 2 else 1

theorem weighting_eq {nx ny : ℕ} (hnx : 2 ≤ nx) (hny : 2 ≤ ny) (B : BP K) (k : Fin (ny * nx)) :
    weighting B nx ny k = halfEnd ny ((k : ℕ) / nx) *
      (if B.cyclic_lr then 1 else halfEnd nx ((k : ℕ) % nx)) := by
  have hb : ∀ w : Fin (ny * nx) → K, mapSlice w none (some nx) 1 (· / 2) k =
      if (k : ℕ) / nx = 0 then w k / 2 else w k := by
    intro w
    simp only [mapSlice]
    exact if_congr (inBottom_iff k) rfl rfl
  have ht : ∀ w : Fin (ny * nx) → K, mapSlice w (some (((ny : ℤ) - 1) * nx)) none 1 (· / 2) k =
      if (k : ℕ) / nx = ny - 1 then w k / 2 else w k := by
    intro w
    simp only [mapSlice]
    exact if_congr (inTop_iff k) rfl rfl
  have hl : ∀ w : Fin (ny * nx) → K, mapSlice w none none nx (· / 2) k =
      if (k : ℕ) % nx = 0 then w k / 2 else w k := by
    intro w
    simp only [mapSlice]
    exact if_congr (inLeft_iff k) rfl rfl
  have hr : ∀ w : Fin (ny * nx) → K, mapSlice w (some ((nx : ℤ) - 1)) none nx (· / 2) k =
      if (k : ℕ) % nx = nx - 1 then w k / 2 else w k := by
    intro w
    simp only [mapSlice]
    exact if_congr (inRight_iff k) rfl rfl
  unfold weighting halfEnd
  cases B.cyclic_lr
  · simp only [Bool.false_eq_true, if_false]
    rw [hr, hl, ht, hb]
    generalize (k : ℕ) / nx = a
    generalize (k : ℕ) % nx = b
    split_ifs <;> first | omega | norm_num
  · simp only [if_true]
    rw [ht, hb]
    generalize (k : ℕ) / nx = a
    split_ifs <;> first | omega | norm_num

theorem sum_halfEnd {n : ℕ} (hn : 2 ≤ n) : ∑ i : Fin n, (halfEnd n i : K) = (n : K) - 1 := by
  obtain ⟨m, rfl⟩ : ∃ m, n = m + 2 := ⟨n - 2, by omega⟩
  rw [Fin.sum_univ_succ, Fin.sum_univ_castSucc]
  have hc : ∀ i : Fin m, (halfEnd (m + 2) ((i.castSucc.succ : Fin (m + 2)) : ℕ) : K) = 1 := by
    intro i
    have hi := i.isLt
    unfold halfEnd
    rw [if_neg (by simp; omega)]
  rw [Finset.sum_congr rfl fun i _ => hc i]
  simp [halfEnd]
  ring

theorem halfEnd_pos (n i : ℕ) : 0 < (halfEnd n i : K) := by
  unfold halfEnd
  split_ifs <;> norm_num

theorem mkGrid_V {P : GP K} {B : BP K} (hP : GoodGrid P) {G : Grid K P.N P.ns}
    (h : mkGrid P B = .ok G) (k : Fin P.N) :
    G.V k = halfEnd P.ny ((k : ℕ) / P.nx) *
      (if B.cyclic_lr then 1 else halfEnd P.nx ((k : ℕ) % P.nx)) *
        (cellX P * cellY P * P.thickness) := by
  have e : G.V = nodeVolume P B := by
    unfold mkGrid at h
    split at h
    · cases h
    · cases h; rfl
  have ed : gridDx P = cellX P := gridDx_eq P
  have ed' : gridDy P = cellY P := gridDy_eq P
  rw [e, nodeVolume, weighting_eq hP.nx hP.ny, ed, ed']
  ring

/-- Nodal volumes are positive. -/
theorem c23_positive {P : GP K} {B : BP K} (hP : GoodGrid P) (hth : 0 < P.thickness)
    {G : Grid K P.N P.ns} (h : mkGrid P B = .ok G) (k : Fin P.N) : 0 < G.V k := by
  rw [mkGrid_V hP h]
  refine mul_pos (mul_pos (halfEnd_pos _ _) ?_)
    (mul_pos (mul_pos (cellX_pos hP) (cellY_pos hP)) hth)
  split_ifs
  · exact one_pos
  · exact halfEnd_pos _ _

/-- Without cyclic boundaries they add up to the volume of the domain. -/
theorem c23_total {P : GP K} {B : BP K} (hP : GoodGrid P) (hc : B.cyclic_lr = false)
    {G : Grid K P.N P.ns} (h : mkGrid P B = .ok G) :
    ∑ k, G.V k = (P.x_M - P.x_m) * (P.y_M - P.y_m) * P.thickness := by
  have hx := cellX_mul hP
  have hy := cellY_mul hP
  rw [Finset.sum_congr rfl fun k _ => mkGrid_V hP h k, sum_nodes]
  simp only [mkNode_row, mkNode_col, hc, Bool.false_eq_true, if_false]
  simp only [← Finset.sum_mul, ← Finset.mul_sum, sum_halfEnd hP.nx]
  rw [sum_halfEnd hP.ny, ← hx, ← hy]
  ring

/-- With cyclic boundaries those of the physically distinct nodes do. -/
theorem c23_total_cyclic {P : GP K} {B : BP K} (hP : GoodGrid P) (hc : B.cyclic_lr = true)
    {G : Grid K P.N P.ns} (h : mkGrid P B = .ok G) :
    ∑ k ∈ distinct P.nx P.ny, G.V k = (P.x_M - P.x_m) * (P.y_M - P.y_m) * P.thickness := by
  have hx := cellX_mul hP
  have hy := cellY_mul hP
  rw [Finset.sum_congr rfl fun k _ => mkGrid_V hP h k, distinct_sum]
  simp only [mkNode_row, hc, if_true, mul_one]
  have e : ∀ j : Fin P.ny, (∑ i : Fin P.nx, if (i : ℕ) ≠ P.nx - 1 then
      (halfEnd P.ny j : K) * (cellX P * cellY P * P.thickness) else 0) =
      ((P.nx : K) - 1) * (halfEnd P.ny j * (cellX P * cellY P * P.thickness)) := by
    intro j
    rw [← Finset.sum_filter, Finset.sum_const, nsmul_eq_mul]
    congr 1
    have hpos : P.nx - 1 < P.nx := by have := hP.nx; omega
    have : (Finset.univ.filter fun i : Fin P.nx => (i : ℕ) ≠ P.nx - 1) =
        Finset.univ.erase ⟨P.nx - 1, hpos⟩ := by
      ext i
      simp [Fin.ext_iff]
    rw [this, Finset.card_erase_of_mem (Finset.mem_univ _), Finset.card_univ, Fintype.card_fin,
      Nat.cast_sub (by have := hP.nx; omega)]
    simp
  rw [Finset.sum_congr rfl fun j _ => e j, ← Finset.mul_sum, ← Finset.sum_mul,
    sum_halfEnd hP.ny, ← hx, ← hy]
  ring

end

/-! ## The hypotheses can be met -/

example : ∃ G, GoodGrid Ex.gp ∧ 0 < Ex.gp.thickness ∧ Ex.bp.cyclic_lr = false ∧
    mkGrid Ex.gp Ex.bp = .ok G := by
  obtain ⟨G, hG⟩ := mkGrid_exists (P := Ex.gp) Ex.bp Ex.good
  exact ⟨G, Ex.good, by simp [Ex.gp], rfl, hG⟩

example : ∃ G, ({ Ex.bp with cyclic_lr := true } : BP ℚ).cyclic_lr = true ∧
    mkGrid Ex.gp { Ex.bp with cyclic_lr := true } = .ok G := by
  obtain ⟨G, hG⟩ := mkGrid_exists (P := Ex.gp) { Ex.bp with cyclic_lr := true } Ex.good
  exact ⟨G, rfl, hG⟩

/-- Nodes 0 (left), 2 (right) and 1 of a grid with three columns. -/
example : ((0 : Fin (3 * 3)) : ℕ) % 3 = 0 ∧ ((2 : Fin (3 * 3)) : ℕ) % 3 = 3 - 1 ∧
    ((0 : Fin (3 * 3)) : ℕ) / 3 = ((2 : Fin (3 * 3)) : ℕ) / 3 ∧ ((1 : Fin (3 * 3)) : ℕ) % 3 ≠ 0 ∧
    ((1 : Fin (3 * 3)) : ℕ) % 3 ≠ 3 - 1 := by decide

end Mpm

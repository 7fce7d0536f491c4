import Verif.Lemmas.Geometry
import Mathlib.Algebra.BigOperators.Group.Finset.Basic
import Mathlib.Data.Fintype.BigOperators
import Mathlib.Tactic.IntervalCases

/-! Rows, columns and Python slices of the node numbering. -/

set_option linter.unusedSectionVars false

namespace Mpm
open Spec

section
variable {nx ny : ℕ}

theorem node_row_lt (k : Fin (ny * nx)) : (k : ℕ) / nx < ny :=
  Nat.div_lt_of_lt_mul (lt_of_lt_of_eq k.isLt (Nat.mul_comm _ _))

theorem node_col_lt (k : Fin (ny * nx)) : (k : ℕ) % nx < nx := Nat.mod_lt _ (nx_pos_of_node k)

theorem node_eq (k : Fin (ny * nx)) : (k : ℕ) = (k : ℕ) / nx * nx + (k : ℕ) % nx := by
  exact (Nat.div_add_mod' _ _).symm

theorem nx_le (k : Fin (ny * nx)) : nx ≤ ny * nx := by
  exact Nat.le_mul_of_pos_left _ (Nat.zero_lt_of_lt (node_row_lt k))

theorem sliceBound_nat (n a : ℕ) : sliceBound n (a : ℤ) = min a n := by
  unfold sliceBound
  rw [if_neg (by omega), Int.toNat_natCast]

theorem inSlice_lo (N a step i : ℕ) :
    inSlice N (some (a : ℤ)) none step i = true ↔
      min a N ≤ i ∧ i < N ∧ (i - min a N) % step = 0 := by
  simp [inSlice, sliceBound_nat, and_assoc]

theorem inSlice_hi (N a step i : ℕ) :
    inSlice N none (some (a : ℤ)) step i = true ↔ i < min a N ∧ i % step = 0 := by
  simp [inSlice, sliceBound_nat]

theorem inBottom_iff (k : Fin (ny * nx)) : inBottom nx ny k = true ↔ (k : ℕ) / nx = 0 := by
  have h := nx_pos_of_node k
  rw [inBottom, inSlice_hi, Nat.min_eq_left (nx_le k), Nat.div_eq_zero_iff]
  constructor
  · rintro ⟨h1, _⟩; exact Or.inr h1
  · intro h1; exact ⟨by omega, Nat.mod_one _⟩

theorem inTop_iff (k : Fin (ny * nx)) : inTop nx ny k = true ↔ (k : ℕ) / nx = ny - 1 := by
  have h := nx_pos_of_node k
  have hk := k.isLt
  have hr := node_row_lt k
  have hp : 0 < ny := Nat.zero_lt_of_lt hr
  have e : (((ny : ℤ) - 1) * nx) = (((ny - 1) * nx : ℕ) : ℤ) := by
    rw [Nat.cast_mul, Nat.cast_sub (by omega)]; simp
  have hle : (ny - 1) * nx ≤ ny * nx := Nat.mul_le_mul_right _ (by omega)
  rw [inTop, e, inSlice_lo, Nat.min_eq_left hle]
  constructor
  · rintro ⟨h1, _⟩
    have := (Nat.le_div_iff_mul_le h).2 h1
    generalize (k : ℕ) / nx = r at *
    omega
  · intro h1
    exact ⟨(Nat.le_div_iff_mul_le h).1 (le_of_eq h1.symm), hk, Nat.mod_one _⟩

theorem inLeft_iff (k : Fin (ny * nx)) : inLeft nx ny k = true ↔ (k : ℕ) % nx = 0 := by
  have hk := k.isLt
  simp only [inLeft, inSlice, Bool.and_eq_true, decide_eq_true_eq, Nat.zero_le, true_and,
    Nat.sub_zero]
  exact ⟨fun h => h.2, fun h => ⟨hk, h⟩⟩

theorem inRight_iff (k : Fin (ny * nx)) : inRight nx ny k = true ↔ (k : ℕ) % nx = nx - 1 := by
  have h := nx_pos_of_node k
  have hk := k.isLt
  have hle := nx_le k
  have hc := node_col_lt k
  have he := node_eq k
  have e : ((nx : ℤ) - 1) = ((nx - 1 : ℕ) : ℤ) := by omega
  rw [inRight, e, inSlice_lo, Nat.min_eq_left (by omega)]
  constructor
  · rintro ⟨h1, _, h2⟩
    obtain ⟨c, hc⟩ := Nat.dvd_of_mod_eq_zero h2
    have : (k : ℕ) = nx - 1 + nx * c := by omega
    rw [this, Nat.add_mul_mod_self_left, Nat.mod_eq_of_lt (by omega)]
  · intro h1
    have e2 : (k : ℕ) - (nx - 1) = (k : ℕ) / nx * nx := by omega
    exact ⟨by omega, hk, by rw [e2, Nat.mul_mod_left]⟩

/-- Sums over all nodes, row by row. -/
theorem sum_nodes {M : Type} [AddCommMonoid M] (f : Fin (ny * nx) → M) :
    ∑ k, f k = ∑ j : Fin ny, ∑ i : Fin nx, f (mkNode i j) := by
  rw [← Fintype.sum_prod_type' (f := fun (j : Fin ny) (i : Fin nx) => f (mkNode i j))]
  symm
  refine Fintype.sum_equiv finProdFinEquiv _ _ ?_
  rintro ⟨j, i⟩
  congr 1
  apply Fin.ext
  simp [mkNode, finProdFinEquiv]
  ring

theorem mkNode_row (i : Fin nx) (j : Fin ny) : (mkNode i j : ℕ) / nx = j := by
  have h : 0 < nx := by have := i.isLt; omega
  simp only [mkNode]
  rw [Nat.add_comm, Nat.add_mul_div_right _ _ h, Nat.div_eq_of_lt i.isLt, Nat.zero_add]

theorem mkNode_col (i : Fin nx) (j : Fin ny) : (mkNode i j : ℕ) % nx = i := by
  simp only [mkNode]
  rw [Nat.add_comm, Nat.add_mul_mod_self_right, Nat.mod_eq_of_lt i.isLt]

theorem node_ext {k l : Fin (ny * nx)} (h1 : (k : ℕ) / nx = (l : ℕ) / nx)
    (h2 : (k : ℕ) % nx = (l : ℕ) % nx) : k = l := by
  apply Fin.ext
  rw [node_eq k, node_eq l, h1, h2]

theorem rightOf_row (k : Fin (ny * nx)) : (rightOf k : ℕ) / nx = (k : ℕ) / nx := by
  have h := nx_pos_of_node k
  simp only [rightOf]
  rw [Nat.add_comm, Nat.add_mul_div_right _ _ h, Nat.div_eq_of_lt (by omega), Nat.zero_add]

theorem rightOf_col (k : Fin (ny * nx)) : (rightOf k : ℕ) % nx = nx - 1 := by
  have h := nx_pos_of_node k
  simp only [rightOf]
  rw [Nat.add_comm, Nat.add_mul_mod_self_right, Nat.mod_eq_of_lt (by omega)]

theorem leftOf_row (k : Fin (ny * nx)) : (leftOf k : ℕ) / nx = (k : ℕ) / nx := by
  have h := nx_pos_of_node k
  simp only [leftOf]
  rw [Nat.mul_div_cancel _ h]

theorem leftOf_col (k : Fin (ny * nx)) : (leftOf k : ℕ) % nx = 0 := by
  simp only [leftOf]
  rw [Nat.mul_mod_left]

end
end Mpm

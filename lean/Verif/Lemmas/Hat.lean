import Verif.Lemmas.Grid
import Verif.Lemmas.Scatter
import Mathlib.Tactic.Positivity

/-!
# The interpolation weights as tent functions
-/

set_option linter.unusedSectionVars false

namespace Mpm
open Spec

section
variable {K : Type} [Field K] [LinearOrder K] [IsStrictOrderedRing K] {ns : ℕ}

theorem tent_col {a h y : K} (hh : 0 < h) {i : ℕ} (h1 : a + i * h ≤ y)
    (h2 : y < a + (i + 1 : ℕ) * h) (c : ℕ) :
    tent h (y - (a + c * h)) =
      if c = i then (h - (y - (a + i * h))) / h
      else if c = i + 1 then (y - (a + i * h)) / h else 0 := by
  unfold tent
  push_cast at h2
  split
  · subst c
    rw [abs_of_nonneg (by linarith), max_eq_right]
    · field_simp
    · rw [sub_nonneg, div_le_one hh]; linarith
  · split
    · subst c
      rw [abs_of_nonpos (by push_cast; linarith), max_eq_right]
      · push_cast; field_simp; ring
      · rw [sub_nonneg, div_le_one hh]; push_cast; linarith
    · rename_i n1 n2
      rw [max_eq_left]
      rw [sub_nonpos, le_div_iff₀ hh, one_mul]
      rcases Nat.lt_or_ge c i with hc | hc
      · have : (c : K) + 1 ≤ i := by exact_mod_cast hc
        have := mul_le_mul_of_nonneg_right this hh.le
        refine le_trans ?_ (le_abs_self _)
        linarith [add_mul (c : K) 1 h]
      · have : (i : K) + 1 + 1 ≤ c := by
          have : i + 1 + 1 ≤ c := by omega
          exact_mod_cast this
        have := mul_le_mul_of_nonneg_right this hh.le
        refine le_trans ?_ (neg_le_abs _)
        linarith [add_mul ((i : K) + 1) 1 h]

/-- The shape function values of a located point are the tent weights of the nodes. -/
theorem weight_atCell {P : GP K} (hP : GoodGrid P) {mp : Particle K ns} {i j : ℕ}
    (hc : InCell P mp.x i j) (k : Fin P.N) : weight P.nx (atCell P mp i j) k = hat P mp.x k := by
  choose nd hnd using fun r => corner_index hc.2.2.1 hc.2.2.2 r
  have hnode : ∀ r, (atCell P mp i j).node P.nx P.N r = .ok (nd r) := fun r => (hnd r).1
  rw [weight_eq hnode]
  have hk : ∀ r, nd r = k ↔ ((k : ℕ) % P.nx = i + cornerX r ∧ (k : ℕ) / P.nx = j + cornerY r) := by
    intro r
    constructor
    · rintro rfl; exact ⟨(hnd r).2.1, (hnd r).2.2⟩
    · rintro ⟨h1, h2⟩
      apply Fin.ext
      have e1 := Nat.mod_add_div (nd r : ℕ) P.nx
      have e2 := Nat.mod_add_div (k : ℕ) P.nx
      rw [(hnd r).2.1, (hnd r).2.2] at e1
      rw [h1, h2] at e2
      omega
  have hx := cellX_pos hP
  have hy := cellY_pos hP
  unfold hat
  have tx := tent_col (a := P.x_m) hx hc.1.1 hc.1.2 ((k : ℕ) % P.nx)
  have ty := tent_col (a := P.y_m) hy hc.2.1.1 hc.2.1.2 ((k : ℕ) / P.nx)
  change tent (cellX P) (mp.x 0 - nodeX P _) = _ at tx
  change tent (cellY P) (mp.x 1 - nodeY P _) = _ at ty
  rw [tx, ty]
  simp only [hk, Fin.sum_univ_four]
  have n1 := hx.ne'
  have n2 := hy.ne'
  generalize (k : ℕ) % P.nx = c
  generalize (k : ℕ) / P.nx = r
  have c0 : cornerX 0 = 0 ∧ cornerX 1 = 1 ∧ cornerX 2 = 1 ∧ cornerX 3 = 0 := ⟨rfl, rfl, rfl, rfl⟩
  have r0 : cornerY 0 = 0 ∧ cornerY 1 = 0 ∧ cornerY 2 = 1 ∧ cornerY 3 = 1 := ⟨rfl, rfl, rfl, rfl⟩
  rw [c0.1, c0.2.1, c0.2.2.1, c0.2.2.2, r0.1, r0.2.1, r0.2.2.1, r0.2.2.2]
  have e0 : P.x_m + i * cellX P = nodeX P i := rfl
  have e1 : P.y_m + j * cellY P = nodeY P j := rfl
  rw [e0, e1]
  by_cases h1 : c = i
  · subst c
    by_cases h2 : r = j
    · subst r; simp [atCell, shapeN]; field_simp
    · by_cases h3 : r = j + 1
      · subst r; simp [atCell, shapeN]; field_simp
      · simp [h2, h3]
  · by_cases h1' : c = i + 1
    · subst c
      by_cases h2 : r = j
      · subst r; simp [atCell, shapeN]; field_simp
      · by_cases h3 : r = j + 1
        · subst r; simp [atCell, shapeN]; field_simp
        · simp [h2, h3]
    · simp [h1, h1']

end
end Mpm

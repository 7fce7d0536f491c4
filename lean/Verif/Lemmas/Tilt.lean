import Verif.Lemmas.Layout
import Verif.Lemmas.Hat

/-!
# The gradients of the interpolation weights, and their sums over regular lines of points
-/

set_option linter.unusedSectionVars false

namespace Mpm
open Spec

namespace Spec
variable {K : Type} [Field K] [LinearOrder K]

/-- The slope of the tent function of half-width `h`, from the right where it has a kink. -/
def tilt (h d : K) : K :=
  if -h ≤ d ∧ d < 0 then 1 / h else if 0 ≤ d ∧ d < h then -(1 / h) else 0

/-- The gradient of the bilinear weight of node `k` at position `x`. -/
def hatGrad (P : GP K) (x : Vec K) (k : Fin P.N) : Vec K :=
  ![tilt (cellX P) (x 0 - nodeX P ((k : ℕ) % P.nx)) *
      tent (cellY P) (x 1 - nodeY P ((k : ℕ) / P.nx)),
    tent (cellX P) (x 0 - nodeX P ((k : ℕ) % P.nx)) *
      tilt (cellY P) (x 1 - nodeY P ((k : ℕ) / P.nx)), 0]

end Spec

section
variable {K : Type} [Field K] [LinearOrder K] [IsStrictOrderedRing K] {ns : ℕ}

theorem tilt_col {a h y : K} (hh : 0 < h) {i : ℕ} (h1 : a + i * h ≤ y)
    (h2 : y < a + (i + 1 : ℕ) * h) (c : ℕ) :
    tilt h (y - (a + c * h)) =
      if c = i then -(1 / h) else if c = i + 1 then 1 / h else 0 := by
  push_cast at h2
  by_cases e1 : c = i
  · rw [if_pos e1]
    subst c
    unfold tilt
    rw [if_neg (by intro h; linarith [h.2]), if_pos ⟨by linarith, by linarith⟩]
  · rw [if_neg e1]
    by_cases e2 : c = i + 1
    · rw [if_pos e2]
      subst c
      unfold tilt
      push_cast
      rw [if_pos ⟨by linarith, by linarith⟩]
    · rw [if_neg e2]
      unfold tilt
      rcases Nat.lt_or_ge c i with hc | hc
      · have : (c : K) + 1 ≤ i := by exact_mod_cast hc
        have := mul_le_mul_of_nonneg_right this hh.le
        rw [if_neg (by intro h'; linarith [h'.2, add_mul (c : K) 1 h]),
          if_neg (by intro h'; linarith [h'.2, add_mul (c : K) 1 h])]
      · have : (i : K) + 1 + 1 ≤ c := by
          have : i + 1 + 1 ≤ c := by omega
          exact_mod_cast this
        have := mul_le_mul_of_nonneg_right this hh.le
        rw [if_neg (by intro h'; linarith [h'.1, add_mul ((i : K) + 1) 1 h]),
          if_neg (by intro h'; linarith [h'.1, add_mul ((i : K) + 1) 1 h])]

/-- The shape function gradients of a located point are the gradients of the tent weights. -/
theorem gradWeight_atCell {P : GP K} (hP : GoodGrid P) {mp : Particle K ns} {i j : ℕ}
    (hc : InCell P mp.x i j) (k : Fin P.N) :
    gradWeight P.nx (atCell P mp i j) k = hatGrad P mp.x k := by
  choose nd hnd using fun r => corner_index hc.2.2.1 hc.2.2.2 r
  have hnode : ∀ r, (atCell P mp i j).node P.nx P.N r = .ok (nd r) := fun r => (hnd r).1
  rw [gradWeight_eq hnode]
  have hk : ∀ r, nd r = k ↔ ((k : ℕ) % P.nx = i + cornerX r ∧ (k : ℕ) / P.nx = j + cornerY r) := by
    intro r
    constructor
    · rintro rfl; exact ⟨(hnd r).2.1, (hnd r).2.2⟩
    · rintro ⟨h1, h2⟩
      apply Fin.ext
      have e1 := Nat.mod_add_div (nd r : ℕ) P.nx
      have e2 := Nat.mod_add_div (k : ℕ) P.nx
      rw [(hnd r).2.1, (hnd r).2.2] at e1
      rw [h1, h2] at e2
      omega
  have hx := cellX_pos hP
  have hy := cellY_pos hP
  unfold hatGrad
  have tx := tent_col (a := P.x_m) hx hc.1.1 hc.1.2 ((k : ℕ) % P.nx)
  have ty := tent_col (a := P.y_m) hy hc.2.1.1 hc.2.1.2 ((k : ℕ) / P.nx)
  have sx := tilt_col (a := P.x_m) hx hc.1.1 hc.1.2 ((k : ℕ) % P.nx)
  have sy := tilt_col (a := P.y_m) hy hc.2.1.1 hc.2.1.2 ((k : ℕ) / P.nx)
  change tent (cellX P) (mp.x 0 - nodeX P _) = _ at tx
  change tent (cellY P) (mp.x 1 - nodeY P _) = _ at ty
  change tilt (cellX P) (mp.x 0 - nodeX P _) = _ at sx
  change tilt (cellY P) (mp.x 1 - nodeY P _) = _ at sy
  rw [tx, ty, sx, sy]
  simp only [hk, Fin.sum_univ_four]
  have n1 := hx.ne'
  have n2 := hy.ne'
  generalize (k : ℕ) % P.nx = c
  generalize (k : ℕ) / P.nx = r
  have c0 : cornerX 0 = 0 ∧ cornerX 1 = 1 ∧ cornerX 2 = 1 ∧ cornerX 3 = 0 := ⟨rfl, rfl, rfl, rfl⟩
  have r0 : cornerY 0 = 0 ∧ cornerY 1 = 0 ∧ cornerY 2 = 1 ∧ cornerY 3 = 1 := ⟨rfl, rfl, rfl, rfl⟩
  rw [c0.1, c0.2.1, c0.2.2.1, c0.2.2.2, r0.1, r0.2.1, r0.2.2.1, r0.2.2.2]
  have e0 : P.x_m + i * cellX P = nodeX P i := rfl
  have e1 : P.y_m + j * cellY P = nodeY P j := rfl
  rw [e0, e1]
  by_cases h1 : c = i
  · subst c
    by_cases h2 : r = j
    · subst r
      ext t
      fin_cases t <;> simp [atCell, shapeG] <;> field_simp <;> ring
    · by_cases h3 : r = j + 1
      · subst r
        ext t
        fin_cases t <;> simp [atCell, shapeG] <;> field_simp
        ring
      · ext t
        fin_cases t <;> simp [h2, h3]
  · by_cases h1' : c = i + 1
    · subst c
      by_cases h2 : r = j
      · subst r
        ext t
        fin_cases t <;> simp [atCell, shapeG] <;> field_simp
        ring
      · by_cases h3 : r = j + 1
        · subst r
          ext t
          fin_cases t <;> simp [atCell, shapeG] <;> field_simp
        · ext t
          fin_cases t <;> simp [h2, h3]
    · ext t
      fin_cases t <;> simp [h1, h1']

theorem gradWeight_of_cell {P : GP K} (hP : GoodGrid P) {a b : Particle K ns} {i j : ℕ}
    (hc : InCell P a.x i j) (hn : b.n_star = (i : ℤ) + (j : ℤ) * P.nx)
    (hG : b.Gs = (atCell P a i j).Gs) (k : Fin P.N) : gradWeight P.nx b k = hatGrad P a.x k := by
  rw [← gradWeight_atCell hP hc]
  unfold gradWeight
  rw [hn, hG]; rfl

/-- A cell of a line pulls its ends apart. -/
theorem sum_tilt_cell {a d : K} (hd : 0 < d) {p : ℕ} (hp : 0 < p) (f : K → K) (i k : ℕ) :
    ∑ r ∈ Finset.range p, f (piece (a + i * d) (d / p) r) *
        tilt d (piece (a + i * d) (d / p) r - (a + k * d)) =
      (if k = i then -(1 / d) else if k = i + 1 then 1 / d else 0) *
        ∑ r ∈ Finset.range p, f (piece (a + i * d) (d / p) r) := by
  have hp' : (0 : K) < p := by exact_mod_cast hp
  rw [Finset.mul_sum]
  refine Finset.sum_congr rfl fun r hr => ?_
  have hr' : (r : K) + 1 ≤ p := by exact_mod_cast Finset.mem_range.1 hr
  have h0 : (0 : K) ≤ r := Nat.cast_nonneg r
  have hdp : 0 < d / p := div_pos hd hp'
  have h3 : ((r : K) + 1 / 2) * (d / p) < d := by
    calc ((r : K) + 1 / 2) * (d / p) < p * (d / p) :=
          mul_lt_mul_of_pos_right (by linarith) hdp
      _ = d := by field_simp
  have h4 : 0 ≤ ((r : K) + 1 / 2) * (d / p) := mul_nonneg (by linarith) hdp.le
  rw [tilt_col (a := a) (y := piece (a + i * d) (d / p) r) hd (i := i)
    (by unfold piece; linarith) (by unfold piece; push_cast; linarith) k, mul_comm]

/-- The mean position of a cell's points is its middle. -/
theorem sum_piece_cell {a d : K} {p : ℕ} (hp : 0 < p) (i : ℕ) (u v : K) :
    ∑ r ∈ Finset.range p, (u - v * piece (a + i * d) (d / p) r) =
      p * (u - v * (a + i * d + d / 2)) := by
  have hp' : (p : K) ≠ 0 := by exact_mod_cast hp.ne'
  have s : ∑ r ∈ Finset.range p, ((r : K) + 1 / 2) * (d / p) = p * d / 2 := by
    rw [← Finset.sum_mul, sum_pieces]; field_simp
  unfold piece
  rw [Finset.sum_sub_distrib, ← Finset.mul_sum, Finset.sum_add_distrib, s]
  simp
  ring

/-- A line of cells pulls at node `k` with the cell before it, and pushes with the one after. -/
theorem sum_tilt_line {a d : K} (hd : 0 < d) {p : ℕ} (hp : 0 < p) (u v : K) (c k : ℕ) :
    ∑ r ∈ Finset.range (c * p), (u - v * piece a (d / p) r) *
        tilt d (piece a (d / p) r - (a + k * d)) =
      (if 1 ≤ k ∧ k ≤ c then p / d * (u - v * (a + k * d - d / 2)) else 0) -
      (if k < c then p / d * (u - v * (a + k * d + d / 2)) else 0) := by
  have hp' : (p : K) ≠ 0 := by exact_mod_cast hp.ne'
  induction c with
  | zero =>
    simp only [zero_mul, Finset.range_zero, Finset.sum_empty]
    rw [if_neg (by omega), if_neg (by omega), sub_zero]
  | succ c ih =>
    rw [Nat.succ_mul, Finset.sum_range_add, ih]
    have e := sum_tilt_cell (a := a) hd hp (fun y => u - v * y) c k
    rw [sum_piece_cell hp] at e
    have e2 : ∀ r, piece a (d / p) (c * p + r) = piece (a + (c : ℕ) * d) (d / p) r := by
      intro r
      unfold piece
      push_cast
      field_simp
      ring
    simp only [e2]
    rw [e]
    by_cases h1 : k = c
    · subst h1
      simp only [if_true, lt_irrefl, if_false, Nat.lt_succ_self, Nat.le_succ, le_refl, and_true]
      ring
    · by_cases h2 : k = c + 1
      · subst h2
        rw [if_neg (by omega), if_neg (by omega), if_neg (by omega), if_pos rfl,
          if_pos (by omega), if_neg (by omega)]
        push_cast
        ring
      · rw [if_neg h1, if_neg h2]
        by_cases h3 : 1 ≤ k ∧ k ≤ c
        · rw [if_pos h3, if_pos (show k < c by omega), if_pos (show 1 ≤ k ∧ k ≤ c + 1 by omega),
            if_pos (show k < c + 1 by omega)]
          ring
        · by_cases h4 : k < c
          · rw [if_neg h3, if_pos h4, if_neg (show ¬ (1 ≤ k ∧ k ≤ c + 1) by omega),
              if_pos (show k < c + 1 by omega)]
            ring
          · rw [if_neg h3, if_neg h4, if_neg (show ¬ (1 ≤ k ∧ k ≤ c + 1) by omega),
              if_neg (show ¬ k < c + 1 by omega)]
            ring

end
end Mpm

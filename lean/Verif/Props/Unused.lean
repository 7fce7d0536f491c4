import Verif.Model.NT
import Verif.Props.Segregation
import Mathlib.Algebra.Module.LinearMap.Defs
import Mathlib.Tactic.Module

/-!
# C90 to C92: normalise_phi_increment, plotting edges, RK4
-/

set_option linter.unusedSectionVars false

namespace Mpm
open Spec

section
variable {K : Type} [Field K] [LinearOrder K] [IsStrictOrderedRing K]

/-! ## C90 -/

theorem clip01_eq (x : K) : clip01 x = max 0 (min 1 x) := clip_eq x

/-- Nodes at which the increment is a number. -/
def valid {N : ℕ} (d : Fin N → XF K) : Finset (Fin N) := Finset.univ.filter fun k => (d k).isFinite

theorem validSum_eq {N : ℕ} {d : Fin N → XF K} {x : Fin N → K}
    (hx : ∀ k, (d k).isFinite = true → d k = .fin (x k)) (f : Fin N → K → K) :
    validSum d f = ∑ k ∈ valid d, f k (x k) := by
  unfold validSum valid
  rw [Finset.sum_filter]
  induction N with
  | zero => simp [Fin.foldl_zero]
  | succ m ih =>
    rw [Fin.foldl_succ_last, ih (d := fun i => d i.castSucc) (x := fun i => x i.castSucc)
      (fun k => hx _) (fun i => f i.castSucc), Fin.sum_univ_castSucc]
    cases h : d (Fin.last m) with
    | fin y =>
      have := hx (Fin.last m) (by rw [h]; rfl)
      rw [h] at this
      simp [XF.isFinite, XF.fin.inj this]
    | _ => simp [XF.isFinite]

/-- Whatever the increments, some of which may be infinite or NaN: at the nodes where they are
numbers, the rescaled increments add up to the same change of the total; the others become NaN. -/
theorem c90_total {N : ℕ} {phi : Fin N → K} {d : Fin N → XF K} {x : Fin N → K}
    (hx : ∀ k, (d k).isFinite = true → d k = .fin (x k))
    (hpos : ∃ k, (d k).isFinite = true ∧ 0 < phi k + x k) :
    ∃ u : Fin N → K,
      (∀ k, normaliseInc phi d k = if (d k).isFinite then .fin (u k) else .nan) ∧
      ∑ k ∈ valid d, u k = ∑ k ∈ valid d, x k := by
  have hc : ∑ k ∈ valid d, max 0 (min 1 (phi k + x k)) ≠ 0 := by
    obtain ⟨k, hf, hk⟩ := hpos
    refine (Finset.sum_pos' (fun i _ => le_max_left _ _)
      ⟨k, Finset.mem_filter.2 ⟨Finset.mem_univ k, hf⟩, ?_⟩).ne'
    exact lt_max_of_lt_right (lt_min one_pos hk)
  refine ⟨fun k => max 0 (min 1 (phi k + x k)) * ((∑ k ∈ valid d, (phi k + x k)) /
    ∑ k ∈ valid d, max 0 (min 1 (phi k + x k))) - phi k, fun k => ?_, ?_⟩
  · unfold normaliseInc
    simp only [clip01_eq]
    rw [validSum_eq hx, validSum_eq hx]
    cases h : d k with
    | fin y =>
      have := hx k (by rw [h]; rfl)
      rw [h] at this
      simp only
      rw [if_neg hc, XF.fin.inj this]
      rfl
    | _ => rfl
  · rw [Finset.sum_sub_distrib, ← Finset.sum_mul, mul_div_cancel₀ _ hc, Finset.sum_add_distrib,
      add_sub_cancel_left]

/-- Fractions do not end up negative unless the total is. -/
theorem c90_nonneg {N : ℕ} {phi : Fin N → K} {d : Fin N → XF K} {x : Fin N → K}
    (hx : ∀ k, (d k).isFinite = true → d k = .fin (x k))
    (ht : 0 ≤ ∑ k ∈ valid d, (phi k + x k)) {k : Fin N} {u : K}
    (h : normaliseInc phi d k = .fin u) : 0 ≤ phi k + u := by
  unfold normaliseInc at h
  simp only [clip01_eq] at h
  rw [validSum_eq hx, validSum_eq hx] at h
  cases hd : d k with
  | fin y =>
    rw [hd] at h
    simp only at h
    split at h
    · cases h
    · rw [← XF.fin.inj h, add_sub_cancel]
      exact mul_nonneg (le_max_left _ _) (div_nonneg ht (Finset.sum_nonneg fun i _ => le_max_left _ _))
  | _ => rw [hd] at h; cases h

/-- But they can end up above one, which the clipping was there to prevent. -/
theorem c90_above_one : ∃ (phi : Fin 2 → ℚ) (d : Fin 2 → ℚ) (u : ℚ),
    normaliseInc phi (fun k => .fin (d k)) 0 = .fin u ∧ 1 < phi 0 + u := by
  refine ⟨![1, 1], ![1/2, 0], 1/4, ?_, ?_⟩ <;> decide +kernel

/-- Increments that leave all fractions in range are not changed. -/
theorem c90_fixed {N : ℕ} {phi d : Fin N → K} (h : ∀ k, 0 ≤ phi k + d k ∧ phi k + d k ≤ 1)
    (hpos : ∃ k, 0 < phi k + d k) (k : Fin N) :
    normaliseInc phi (fun k => .fin (d k)) k = .fin (d k) := by
  have hx : ∀ k, ((fun k => .fin (d k) : Fin N → XF K) k).isFinite = true →
    (fun k => .fin (d k) : Fin N → XF K) k = .fin (d k) := fun _ _ => rfl
  have e : ∀ k, max 0 (min 1 (phi k + d k)) = phi k + d k := fun k => by
    rw [min_eq_right (h k).2, max_eq_right (h k).1]
  have hc : ∑ k ∈ valid (fun k => .fin (d k) : Fin N → XF K), (phi k + d k) ≠ 0 := by
    obtain ⟨k, hk⟩ := hpos
    have hm : k ∈ valid (fun k => .fin (d k) : Fin N → XF K) :=
      Finset.mem_filter.2 ⟨Finset.mem_univ k, rfl⟩
    exact (Finset.sum_pos' (fun i _ => (h i).1) ⟨k, hm, hk⟩).ne'
  unfold normaliseInc
  simp only [clip01_eq, e]
  rw [validSum_eq hx, validSum_eq hx]
  simp only [e]
  rw [if_neg hc, div_self hc, mul_one, add_sub_cancel_left]

example : ∃ (phi : Fin 2 → ℚ) (d : Fin 2 → XF ℚ) (x : Fin 2 → ℚ),
    (∀ k, (d k).isFinite = true → d k = .fin (x k)) ∧
    (∃ k, (d k).isFinite = true ∧ 0 < phi k + x k) ∧ (d 1).isFinite = false :=
  ⟨![1, 1], ![.fin (1/2), .nan], ![1/2, 0], by decide +kernel, by decide +kernel, rfl⟩

/-! ## C91 -/

/-- Node `i` is the centre of plotting cell `i`, and all cells are one grid spacing wide. -/
theorem c91_centred {a b : K} {n : ℕ} (hn : 2 ≤ n) (i : Fin n) :
    plotEdges a b n i.succ + plotEdges a b n i.castSucc = 2 * linspace a b n i ∧
    plotEdges a b n i.succ - plotEdges a b n i.castSucc = (b - a) / ((n : K) - 1) := by
  have hn1 : ((n : K) - 1) ≠ 0 := by
    have : (2 : K) ≤ n := by exact_mod_cast hn
    exact ne_of_gt (by linarith)
  have hend : linspace a b n (n - 1) = b := by
    unfold linspace
    rw [Nat.cast_sub (by omega), Nat.cast_one]
    field_simp
    ring
  have hd : linspace a b n 1 - linspace a b n 0 = (b - a) / ((n : K) - 1) := by
    unfold linspace; push_cast; ring
  have hstep : ∀ k : ℕ, linspace a b n (k + 1) = linspace a b n k + (b - a) / ((n : K) - 1) := by
    intro k; unfold linspace; push_cast; ring
  have h0 : linspace a b n 0 = a := by unfold linspace; push_cast; ring
  obtain ⟨i, hi⟩ := i
  unfold plotEdges
  simp only [Fin.val_succ, Fin.val_castSucc, hd]
  rw [if_neg (by omega), if_neg (show ¬ i = n by omega), Nat.add_sub_cancel]
  by_cases e0 : i = 0
  · subst e0
    rw [if_pos rfl, if_neg (by omega), hstep, h0]
    constructor <;> ring
  · rw [if_neg e0]
    obtain ⟨k, rfl⟩ : ∃ k, i = k + 1 := ⟨i - 1, by omega⟩
    rw [Nat.add_sub_cancel]
    by_cases e1 : k + 1 + 1 = n
    · rw [if_pos e1]
      have : linspace a b n (k + 1) = b := by rw [show k + 1 = n - 1 by omega]; exact hend
      rw [hstep k] at this ⊢
      constructor <;> linear_combination -this
    · rw [if_neg e1, hstep (k + 1), hstep k]
      constructor <;> ring

/-- The recorded widths are not these: the first and last are half of it. -/
theorem c91_widths {a b : K} {n : ℕ} (hn : 2 ≤ n) (hab : a < b) (i : Fin n) :
    plotWidths a b n i = plotEdges a b n i.succ - plotEdges a b n i.castSucc ↔
      0 < i.val ∧ i.val + 1 < n := by
  have hn1 : 0 < ((n : K) - 1) := by
    have : (2 : K) ≤ n := by exact_mod_cast hn
    linarith
  have hd : linspace a b n 1 - linspace a b n 0 = (b - a) / ((n : K) - 1) := by
    unfold linspace; push_cast; ring
  have hp : 0 < (b - a) / ((n : K) - 1) := div_pos (sub_pos.2 hab) hn1
  rw [(c91_centred hn i).2]
  unfold plotWidths
  simp only [hd]
  have := i.isLt
  split
  · constructor
    · intro h; linarith
    · omega
  · exact ⟨fun _ => by omega, fun _ => rfl⟩

/-- At both ends they are half of it. -/
theorem c91_half {a b : K} {n : ℕ} (hn : 2 ≤ n) {i : Fin n} (hi : i.val = 0 ∨ i.val + 1 = n) :
    2 * plotWidths a b n i = plotEdges a b n i.succ - plotEdges a b n i.castSucc := by
  have hd : linspace a b n 1 - linspace a b n 0 = (b - a) / ((n : K) - 1) := by
    unfold linspace; push_cast; ring
  rw [(c91_centred hn i).2]
  unfold plotWidths
  simp only [hd]
  rw [if_pos (by omega)]
  ring

/-- Their sum is the width of the domain, while the plotted cells reach half a cell further on both
sides. -/
theorem c91_extent {a b : K} {n : ℕ} :
    plotEdges a b n 0 = a - (b - a) / ((n : K) - 1) / 2 ∧
    (0 < n → plotEdges a b n (Fin.last n) = b + (b - a) / ((n : K) - 1) / 2) := by
  have hd : linspace a b n 1 - linspace a b n 0 = (b - a) / ((n : K) - 1) := by
    unfold linspace; push_cast; ring
  constructor
  · unfold plotEdges
    simp only [hd]
    exact if_pos rfl
  · intro h
    unfold plotEdges
    simp only [hd, Fin.val_last]
    rw [if_neg (by omega), if_pos trivial]

theorem c91_sum {a b : K} {n : ℕ} (hn : 2 ≤ n) : ∑ i, plotWidths a b n i = b - a := by
  have hn1 : ((n : K) - 1) ≠ 0 := by
    have : (2 : K) ≤ n := by exact_mod_cast hn
    exact ne_of_gt (by linarith)
  have hd : linspace a b n 1 - linspace a b n 0 = (b - a) / ((n : K) - 1) := by
    unfold linspace; push_cast; ring
  unfold plotWidths
  simp only [hd]
  obtain ⟨m, rfl⟩ : ∃ m, n = m + 2 := ⟨n - 2, by omega⟩
  rw [Fin.sum_univ_succ, Fin.sum_univ_castSucc]
  have : ∀ i : Fin m, (if (i.castSucc.succ : Fin (m + 2)).val = 0 ∨
      (i.castSucc.succ : Fin (m + 2)).val = m + 2 - 1 then (b - a) / (((m + 2 : ℕ) : K) - 1) / 2
      else (b - a) / (((m + 2 : ℕ) : K) - 1)) = (b - a) / (((m + 2 : ℕ) : K) - 1) := by
    intro i
    rw [if_neg]
    have := i.isLt
    simp only [Fin.val_succ, Fin.val_castSucc]
    omega
  simp only [this]
  rw [if_pos (Or.inl (Fin.val_zero _)), if_pos (Or.inr (by simp)), Finset.sum_const, Finset.card_univ,
    Fintype.card_fin, nsmul_eq_mul]
  field_simp
  push_cast
  ring

example : plotEdges (0 : ℚ) 2 3 0 = -1/2 ∧ plotEdges (0 : ℚ) 2 3 3 = 5/2 ∧
    plotWidths (0 : ℚ) 2 3 0 = 1/2 := by decide +kernel

/-! ## C92 -/

variable {S : Type} [AddCommGroup S] [Module K S]

/-- For a rate that is linear in the stress (with a constant part), one call returns the first four
terms of the series of the exact solution. -/
theorem c92_linear {D : Type} (A : S →ₗ[K] S) (b : D → S) (e : D) (x : S) :
    rk4 (K := K) (fun e x => b e + A x) e x =
      (b e + A x) + (1 / 2 : K) • A (b e + A x) + (1 / 6 : K) • A (A (b e + A x)) +
        (1 / 24 : K) • A (A (A (b e + A x))) := by
  unfold rk4
  simp only [map_add, map_smul]
  module

/-- A rate that does not depend on the stress is returned as it is. -/
theorem c92_constant {D : Type} (b : D → S) (e : D) (x : S) :
    rk4 (K := K) (fun e _ => b e) e x = b e := by
  unfold rk4
  simp only
  module

end
end Mpm

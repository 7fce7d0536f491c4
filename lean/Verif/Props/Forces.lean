import Verif.Model.Forces
import Verif.Props.Init
import Mathlib.Analysis.SpecialFunctions.ExpDeriv
import Mathlib.Analysis.Complex.ExponentialBounds
import Mathlib.Analysis.Calculus.MeanValue

/-!
# C102, C103: the time-dependent loads of the input files
-/

set_option linter.unusedSectionVars false

namespace Mpm
open Spec

/-! ## C102: ramps -/

section
open Real

/-- C102.  The ramp starts at zero, has the sign of its final value, grows in magnitude with time
and stays strictly below the final magnitude. -/
theorem c102_ramp (m : ℝ) {t_c : ℝ} (hc : t_c ≠ 0) :
    rampUp exp m t_c 0 = 0 ∧
    (∀ t, 0 ≤ m → 0 ≤ rampUp exp m t_c t) ∧ (∀ t, m ≤ 0 → rampUp exp m t_c t ≤ 0) ∧
    (∀ t t', 0 ≤ t → t ≤ t' → |rampUp exp m t_c t| ≤ |rampUp exp m t_c t'|) ∧
    (∀ t, m ≠ 0 → |rampUp exp m t_c t| < |m|) := by
  have hle : ∀ t : ℝ, exp (-3 * t ^ 2 / t_c ^ 2) ≤ 1 := fun t => by
    rw [exp_le_one_iff, neg_mul, neg_div]
    have : 0 ≤ 3 * t ^ 2 / t_c ^ 2 := by positivity
    linarith
  have habs : ∀ t : ℝ, |rampUp exp m t_c t| = |m| * (1 - exp (-3 * t ^ 2 / t_c ^ 2)) := fun t => by
    unfold rampUp
    rw [abs_mul, abs_of_nonneg (sub_nonneg.2 (hle t))]
  refine ⟨by simp [rampUp], fun t h => mul_nonneg h (sub_nonneg.2 (hle t)),
    fun t h => mul_nonpos_of_nonpos_of_nonneg h (sub_nonneg.2 (hle t)), fun t t' h0 h => ?_,
    fun t h => ?_⟩
  · rw [habs, habs]
    refine mul_le_mul_of_nonneg_left (sub_le_sub_left (exp_le_exp.2 ?_) _) (abs_nonneg _)
    have : t ^ 2 ≤ t' ^ 2 := by gcongr
    rw [neg_mul, neg_mul, neg_div, neg_div]
    refine neg_le_neg ?_
    gcongr
  · rw [habs]
    have h1 := exp_pos (-3 * t ^ 2 / t_c ^ 2)
    have h2 := abs_pos.2 h
    nlinarith

/-- C102.  From `t_c` on at least 95% of the final value is reached; the final value is the limit. -/
theorem c102_reached (m : ℝ) {t_c : ℝ} (hc : 0 < t_c) :
    (∀ t, t_c ≤ t → 19 / 20 * |m| ≤ |rampUp exp m t_c t|) ∧
    Filter.Tendsto (rampUp exp m t_c) Filter.atTop (nhds m) := by
  constructor
  · intro t ht
    refine le_trans ?_ ((c102_ramp m hc.ne').2.2.2.1 t_c t hc.le ht)
    unfold rampUp
    rw [abs_mul, mul_comm (19 / 20)]
    refine mul_le_mul_of_nonneg_left ?_ (abs_nonneg _)
    have e : -3 * t_c ^ 2 / t_c ^ 2 = -3 := by field_simp
    rw [e]
    have h3 : exp (-3) < 1 / 20 := by
      rw [exp_neg, ← one_div]
      refine one_div_lt_one_div_of_lt (by norm_num) ?_
      have h1 := exp_one_gt_d9
      have h2 : exp 3 = exp 1 ^ 3 := by rw [← exp_nat_mul]; norm_num
      rw [h2]
      calc (20 : ℝ) < 2.7182818283 ^ 3 := by norm_num
        _ < _ := by gcongr
    refine le_trans ?_ (le_abs_self _)
    linarith
  · have h1 : Filter.Tendsto (fun t : ℝ => -3 * t ^ 2 / t_c ^ 2) Filter.atTop Filter.atBot := by
      have h2 : Filter.Tendsto (fun t : ℝ => 3 / t_c ^ 2 * t ^ 2) Filter.atTop Filter.atTop :=
        Filter.Tendsto.const_mul_atTop (by positivity) (Filter.tendsto_pow_atTop (by norm_num))
      refine (Filter.tendsto_neg_atTop_atBot.comp h2).congr fun t => ?_
      simp only [Function.comp]
      ring
    have h2 := (tendsto_exp_atBot.comp h1).const_sub 1 |>.const_mul m
    rw [sub_zero, mul_one] at h2
    exact h2

/-- C102.  The ramp has no jumps: in a step of any size it changes by at most
`sqrt 3 * |m| * dt / t_c`. -/
theorem c102_smooth (m : ℝ) {t_c : ℝ} (hc : 0 < t_c) (t t' : ℝ) :
    |rampUp exp m t_c t' - rampUp exp m t_c t| ≤ √3 * |m| / t_c * |t' - t| := by
  have hd : ∀ x : ℝ, HasDerivAt (rampUp exp m t_c)
      (m * (6 * x / t_c ^ 2 * exp (-3 * x ^ 2 / t_c ^ 2))) x := by
    intro x
    have h1 : HasDerivAt (fun t : ℝ => -3 * t ^ 2 / t_c ^ 2) (-3 * (2 * x) / t_c ^ 2) x := by
      have := ((hasDerivAt_pow 2 x).const_mul (-3)).div_const (t_c ^ 2)
      simpa using this
    have h2 := ((h1.exp).const_sub 1).const_mul m
    refine h2.congr_deriv ?_
    ring
  have hb : ∀ x : ℝ, ‖m * (6 * x / t_c ^ 2 * exp (-3 * x ^ 2 / t_c ^ 2))‖ ≤ √3 * |m| / t_c := by
    intro x
    have hs : √3 ^ 2 = 3 := sq_sqrt (by norm_num)
    set u := √3 * |x| / t_c with hu
    have hu0 : 0 ≤ u := by positivity
    have e2 : u ^ 2 = 3 * x ^ 2 / t_c ^ 2 := by
      rw [hu, div_pow, mul_pow, hs, sq_abs]
    have h1 : 2 * u ≤ exp (u ^ 2) := by
      have := add_one_le_exp (u ^ 2)
      nlinarith [sq_nonneg (u - 1)]
    have h2 : 2 * u * exp (-u ^ 2) ≤ 1 := by
      rw [exp_neg]
      rw [← div_eq_mul_inv, div_le_one (exp_pos _)]
      exact h1
    have e3 : |6 * x / t_c ^ 2| = √3 / t_c * (2 * u) := by
      rw [abs_div, abs_mul, abs_of_pos (show (0 : ℝ) < 6 by norm_num), abs_of_pos (by positivity : 0 < t_c ^ 2),
        hu]
      field_simp
      rw [hs]
      ring
    have e4 : -3 * x ^ 2 / t_c ^ 2 = -u ^ 2 := by rw [e2]; ring
    rw [norm_mul, norm_mul, Real.norm_eq_abs, Real.norm_eq_abs, Real.norm_eq_abs, abs_exp, e3, e4]
    have : √3 / t_c * (2 * u) * exp (-u ^ 2) ≤ √3 / t_c * 1 := by
      rw [mul_assoc]
      exact mul_le_mul_of_nonneg_left h2 (by positivity)
    calc |m| * (√3 / t_c * (2 * u) * exp (-u ^ 2)) ≤ |m| * (√3 / t_c * 1) :=
          mul_le_mul_of_nonneg_left this (abs_nonneg _)
      _ = _ := by ring
  have := convex_univ.norm_image_sub_le_of_norm_hasDerivWithin_le
    (f := rampUp exp m t_c) (fun x _ => (hd x).hasDerivWithinAt) (fun x _ => hb x)
    (Set.mem_univ t) (Set.mem_univ t')
  simpa [Real.norm_eq_abs] using this

example : |rampUp exp (-10) (1 / 2) 1| < 10 ∧ 19 / 20 * 10 ≤ |rampUp exp (-10) (1 / 2) 1| := by
  have h1 := (c102_ramp (-10) (t_c := 1 / 2) (by norm_num)).2.2.2.2 1 (by norm_num)
  have h2 := (c102_reached (-10) (t_c := 1 / 2) (by norm_num)).1 1 (by norm_num)
  norm_num at h1 h2 ⊢
  exact ⟨h1, h2⟩

end

section
variable {K : Type} [Field K] [LinearOrder K] [IsStrictOrderedRing K] [FloorRing K]

theorem assignAll_attr (g q : K → K) (o : Obj K) (ts : List K) {n : String} (h1 : n ≠ "g") (h2 : n ≠ "q") :
    assignAll g q o ts n = o n := by
  unfold assignAll
  induction ts generalizing o with
  | nil => rfl
  | cons t ts ih =>
    rw [List.foldl_cons, ih]
    unfold assignForces
    rw [Obj.set_other h2, Obj.set_other h1]

theorem assignAll_g (g q : K → K) (o : Obj K) (ts : List K) (t : K) :
    assignAll g q o (ts ++ [t]) "g" = some (.num (g t)) := by
  unfold assignAll
  rw [List.foldl_append, List.foldl_cons, List.foldl_nil]
  unfold assignForces
  rw [Obj.set_other (by decide), Obj.set_self]

/-- C102.  An input file that sets `max_q` but neither `q_v` nor `q_h`, and whose `update_forces`
assigns `g` and `q`: whatever it assigns to `q`, and however often it has been called, the step
reads the full `max_q` for both surface loads, together with the current `g`. -/
theorem c102_ignored {mode : String} {p p' : Params K} (h : getParameters mode p = .ok p') {Q : K}
    (hQ : p.P "max_q" = some (.num Q)) (hv : p.P "q_v" = none) (hh : p.P "q_h" = none)
    (g q : K → K) (ts : List K) (t : K) :
    readForces (assignAll g q p'.P (ts ++ [t])) = .ok (g t, Q, Q) := by
  obtain ⟨k1, k2⟩ : p'.P "q_v" = some (.num Q) ∧ p'.P "q_h" = some (.num Q) := by
    obtain ⟨-, -, -, -, d1, d2, -⟩ := c54_computed h
    have := (c54_keep h).1 _ _ (by decide) hQ
    exact ⟨(d1 hv).trans this, (d2 hh).trans this⟩
  unfold readForces Obj.get
  rw [assignAll_g, assignAll_attr _ _ _ _ (by decide) (by decide),
    assignAll_attr _ _ _ _ (by decide) (by decide), k1, k2]
  rfl

/-- A file with a load that is meant to start from zero. -/
def Ex.loadFile : Params ℚ where
  P n := if n = "max_q" then some (.num 200) else if n = "t_f" then some (.num 5)
    else if n = "dt" then some (.num (1 / 1000)) else Option.none
  B _ := Option.none
  G _ := Option.none
  O _ := Option.none
  S := .one fun n => if n = "law" then some (.str "von_mises") else Option.none

example : ∃ p', getParameters "triaxial" Ex.loadFile = .ok p' ∧ Ex.loadFile.P "max_q" = some (.num 200) ∧
    Ex.loadFile.P "q_v" = none ∧ Ex.loadFile.P "q_h" = none ∧
    readForces (assignAll (fun _ => 0) (fun t => 200 * t) p'.P ([] ++ [0])) = .ok (0, 200, 200) := by
  have h : (getParameters "triaxial" Ex.loadFile).toBool = true := by decide +kernel
  cases hp : getParameters "triaxial" Ex.loadFile with
  | error e => rw [hp] at h; cases h
  | ok p' => exact ⟨p', rfl, rfl, rfl, rfl, c102_ignored hp rfl rfl rfl _ _ [] 0⟩

end

/-! ## C103: load paths of the element tests -/

section
variable {K : Type} [Field K] [LinearOrder K] [IsStrictOrderedRing K]

/-- C103.  The two files write the same path. -/
theorem c103_same (max_q : K) {t_c : K} (hc : t_c ≠ 0) (t : K) :
    pouliquenForces max_q t_c t = dpForces max_q t_c t := by
  unfold pouliquenForces dpForces
  split <;> refine Prod.ext rfl (Prod.ext ?_ ?_) <;> simp only <;> field_simp <;> ring

/-- C103.  Until `t_c` the loads are equal and grow in proportion to time; from then on their sum
is constant and their difference grows in proportion to time. -/
theorem c103_path (max_q : K) {t_c : K} (hc : 0 < t_c) (t : K) :
    (dpForces max_q t_c t).1 = 0 ∧
    (t ≤ t_c → (dpForces max_q t_c t).2.1 = t / t_c * max_q ∧ (dpForces max_q t_c t).2.2 = t / t_c * max_q) ∧
    (t_c ≤ t → (dpForces max_q t_c t).2.1 + (dpForces max_q t_c t).2.2 = 2 * max_q ∧
      (dpForces max_q t_c t).2.2 - (dpForces max_q t_c t).2.1 = 2 * ((t - t_c) / t_c) * max_q) := by
  have hc' := hc.ne'
  unfold dpForces
  refine ⟨by split <;> rfl, fun h => ?_, fun h => ?_⟩
  · rcases h.lt_or_eq with h | rfl
    · rw [if_pos h]
      constructor <;> ring
    · rw [if_neg (lt_irrefl _)]
      constructor <;> simp only <;> field_simp <;> ring
  · rw [if_neg (not_lt.2 h)]
    constructor <;> simp only <;> field_simp <;> ring

/-- C103.  No jump, also not at `t_c`: both loads change by at most `|max_q|/t_c` per unit of time. -/
theorem c103_smooth (max_q : K) {t_c : K} (hc : 0 < t_c) (t t' : K) :
    |(dpForces max_q t_c t').2.1 - (dpForces max_q t_c t).2.1| ≤ |max_q| / t_c * |t' - t| ∧
    |(dpForces max_q t_c t').2.2 - (dpForces max_q t_c t).2.2| ≤ |max_q| / t_c * |t' - t| := by
  have hc' := hc.ne'
  have e2 : ∀ t, (dpForces max_q t_c t).2.2 = max_q / t_c * t := by
    intro t
    unfold dpForces
    split <;> simp only <;> ring
  have e1 : ∀ t, (dpForces max_q t_c t).2.1 = max_q / t_c * (t_c - |t - t_c|) := by
    intro t
    unfold dpForces
    split
    · rename_i h
      rw [abs_of_neg (sub_neg.2 h)]
      simp only
      ring
    · rename_i h
      rw [abs_of_nonneg (sub_nonneg.2 (not_lt.1 h))]
      simp only
      field_simp
      ring
  have ea : |max_q / t_c| = |max_q| / t_c := by rw [abs_div, abs_of_pos hc]
  rw [e1, e1, e2, e2, ← mul_sub, ← mul_sub, abs_mul, abs_mul, ea]
  refine ⟨mul_le_mul_of_nonneg_left ?_ (by positivity), le_refl _⟩
  have := abs_abs_sub_abs_le_abs_sub (t - t_c) (t' - t_c)
  rw [show t_c - |t' - t_c| - (t_c - |t - t_c|) = |t - t_c| - |t' - t_c| by ring]
  refine this.trans (le_of_eq ?_)
  rw [abs_sub_comm]
  congr 1
  ring

/-- C103.  Signs: the vertical load presses (has the sign of `max_q`) only before twice `t_c`, and
pulls after.  With `t_c = t_f/10` (dp_unit_test) it ends at `-8 max_q`, with `t_c = t_f/2` at 0. -/
theorem c103_sign {max_q t_c : K} (hq : 0 < max_q) (hc : 0 < t_c) :
    (∀ t, 0 < (dpForces max_q t_c t).2.1 ↔ 0 < t ∧ t < 2 * t_c) ∧
    (∀ t, (dpForces max_q t_c t).2.1 < 0 ↔ t < 0 ∨ 2 * t_c < t) ∧
    (∀ t_f, t_c = t_f / 10 → dpForces max_q t_c t_f = (0, -8 * max_q, 10 * max_q)) ∧
    (∀ t_f, t_c = t_f / 2 → dpForces max_q t_c t_f = (0, 0, 2 * max_q)) := by
  have hk : 0 < max_q / t_c := div_pos hq hc
  have e1 : ∀ t, (dpForces max_q t_c t).2.1 = max_q / t_c * (if t < t_c then t else 2 * t_c - t) := by
    intro t
    have hc' := hc.ne'
    unfold dpForces
    split
    · simp only
      ring
    · simp only
      field_simp
  refine ⟨fun t => ?_, fun t => ?_, ?_, ?_⟩
  · rw [e1, mul_pos_iff_of_pos_left hk]
    split
    · exact ⟨fun h => ⟨h, by linarith⟩, fun h => h.1⟩
    · exact ⟨fun h => ⟨by linarith, by linarith⟩, fun h => by linarith [h.2]⟩
  · rw [e1, mul_neg_iff, or_iff_left (fun h => absurd h.1 (not_lt.2 hk.le)), and_iff_right hk]
    split
    · exact ⟨fun h => .inl h, fun h => h.elim id fun h => by linarith⟩
    · exact ⟨fun h => .inr (by linarith), fun h => h.elim (fun h => by linarith) fun h => by linarith⟩
  · rintro t_f rfl
    have : t_f ≠ 0 := by rintro rfl; simp at hc
    have h0 : 0 < t_f := by linarith
    unfold dpForces
    rw [if_neg (by linarith)]
    refine Prod.ext rfl (Prod.ext ?_ ?_) <;> simp only <;> field_simp <;> ring
  · rintro t_f rfl
    have : t_f ≠ 0 := by rintro rfl; simp at hc
    have h0 : 0 < t_f := by linarith
    unfold dpForces
    rw [if_neg (by linarith)]
    refine Prod.ext rfl (Prod.ext ?_ ?_) <;> simp only <;> field_simp <;> ring

example : dpForces (6 : ℚ) 1 (1 / 2) = (0, 3, 3) ∧ dpForces (6 : ℚ) 1 3 = (0, -6, 18) := by
  decide +kernel

end
end Mpm

import Verif.Model.FloatGradient
import Verif.Props.Diffusion
import Verif.Props.FloatLaw
import Verif.Props.FloatMap
import Verif.Props.FloatForces

/-!
# C154: nodal gradients and the nodal shear rate in floating point
-/

set_option linter.unusedSectionVars false

namespace Mpm
open Spec

namespace Spec
section
variable {K : Type} [Field K] [LinearOrder K]

/-- The sizes of the two values between which the difference quotient at `i` is taken, over its width. -/
def reach {n : ℕ} (h : K) (f : Fin n → K) (i : Fin n) : K :=
  (|f (hiOf i)| + |f (loOf i)|) * |((((hiOf i).val - (loOf i).val : ℕ) : K) * h)⁻¹|

end
end Spec

section
variable {K : Type} [Field K] [LinearOrder K] [IsStrictOrderedRing K] {rnd : K → K} {u : K} {n nx ny ns : ℕ}

theorem maGradientR_id (h : K) (mask : Fin n → Bool) (f : Fin n → XF K) (i : Fin n) :
    maGradientR id h mask f i = maGradient h mask f i := by
  unfold maGradientR maGradient npGradientR npGradient
  simp only [XF.rd_id, id_eq]

/-- C154.  Without rounding gradients and shear rates are those of the exact model. -/
theorem c154_exact (interp : Interp K (ny * nx)) (big M_tol : K) (G : Grid K (ny * nx) ns) :
    (∀ Z, calcGradientR id interp big M_tol G Z = calcGradient interp big M_tol G Z) ∧
    G.calcGammadotR id interp big M_tol = G.calcGammadot interp big M_tol := by
  have e : ∀ Z, calcGradientR id interp big M_tol G Z = calcGradient interp big M_tol G Z := by
    intro Z
    funext k
    unfold calcGradientR calcGradient
    simp only [maGradientR_id]
  refine ⟨e, ?_⟩
  unfold Grid.calcGammadotR Grid.calcGammadot
  simp only [e, XF.rd_id]

/-- The rounded difference quotient. -/
def dqR (rnd : K → K) (h : K) (f : Fin n → K) (i : Fin n) : K :=
  rnd (rnd (f (hiOf i) - f (loOf i)) / rnd ((((hiOf i).val - (loOf i).val : ℕ) : K) * h))

theorem npGradientR_fin (hr : Rounding rnd u) (hn : 2 ≤ n) {h : K} (hh : h ≠ 0) {f : Fin n → XF K} {g : Fin n → K}
    (hf : ∀ i, f i = .fin (g i)) (i : Fin n) : npGradientR rnd h f i = .fin (dqR rnd h g i) := by
  have e : npGradientR rnd h f i = ((f (hiOf i) - f (loOf i)).rd rnd /
    .fin (rnd ((((hiOf i).val - (loOf i).val : ℕ) : K) * h))).rd rnd := rfl
  rw [e, hf, hf, XF.fin_sub]
  have hp := span_pos hn i
  have := hr.ne_zero.2 (mul_ne_zero (Nat.cast_ne_zero.2 hp.ne' : (((hiOf i).val - (loOf i).val : ℕ) : K) ≠ 0) hh)
  show XF.rd rnd (.fin (rnd _) / .fin _) = _
  rw [XF.fin_div _ this]
  rfl

theorem calcGradientR_fin (hr : Rounding rnd u) {interp : Interp K (ny * nx)} {big M_tol : K}
    {G : Grid K (ny * nx) ns} {Z : Fin (ny * nx) → XF K} {z : Fin (ny * nx) → K}
    (hnx : 2 ≤ nx) (hny : 2 ≤ ny) (hdx : G.dx ≠ 0) (hdy : G.dy ≠ 0) (hI : KeepsData interp)
    (hm : ∀ k, M_tol ≤ G.m k) (hZ : ∀ k, Z k = .fin (z k)) (n : Fin (ny * nx)) :
    calcGradientR rnd interp big M_tol G Z n =
      ![.fin (dqR rnd G.dx (fun ix => z (mkNode ix (rowF n))) (colF n)),
        .fin (dqR rnd G.dy (fun iy => z (mkNode (colF n) iy)) (rowF n)), .fin 0] := by
  have hz : ∀ k, interp (fun k => (decide (G.m k < M_tol), Z k)) k = (false, .fin (z k)) := by
    intro k
    refine hI _ k (z k) ?_
    rw [decide_eq_false (not_lt.2 (hm k)), hZ]
  unfold calcGradientR maGradientR
  simp only [hz, XF.nanToNum, Bool.or_self, Bool.false_eq_true, if_false]
  rw [npGradientR_fin hr hnx hdx (fun _ => rfl), npGradientR_fin hr hny hdy (fun _ => rfl)]

theorem dqR_zero (hr : Rounding rnd u) {h : K} {f : Fin n → K} {i : Fin n} (e : f (hiOf i) = f (loOf i)) :
    dqR rnd h f i = 0 := by
  unfold dqR
  rw [e, sub_self, hr.atZero, zero_div, hr.atZero]

theorem dqR_app (hr : Rounding rnd u) (hn : 2 ≤ n) {h : K} (hh : h ≠ 0) {f g : Fin n → K} {k : ℕ}
    (hf : ∀ i, App u k |f i| (f i) (g i)) (i : Fin n) :
    App u (k + 3) (reach h f i) (dq h f i) (dqR rnd h g i) := by
  have hne := mul_ne_zero (Nat.cast_ne_zero.2 (span_pos hn i).ne' : (((hiOf i).val - (loOf i).val : ℕ) : K) ≠ 0) hh
  have neg : App u k |f (loOf i)| (-f (loOf i)) (-g (loOf i)) := by
    have := hf (loOf i)
    exact ⟨by rw [abs_neg], by rw [neg_sub_neg, abs_sub_comm]; exact this.err⟩
  have a := (((hf (hiOf i)).add neg).round hr).mul hr (App.inv hr hne)
  have b := a.round hr
  unfold dq dqR reach
  simp only [← sub_eq_add_neg, ← div_eq_mul_inv] at b
  exact b

/-- C154.  A difference quotient of stored numbers is zero exactly where its two numbers agree, and off by at most
`gam u 3` times their sizes over the width otherwise. -/
theorem c154_gradient (hr : Rounding rnd u) {interp : Interp K (ny * nx)} {big M_tol : K}
    {G : Grid K (ny * nx) ns} {Z : Fin (ny * nx) → XF K} {z : Fin (ny * nx) → K}
    (hnx : 2 ≤ nx) (hny : 2 ≤ ny) (hdx : G.dx ≠ 0) (hdy : G.dy ≠ 0) (hI : KeepsData interp)
    (hm : ∀ k, M_tol ≤ G.m k) (hZ : ∀ k, Z k = .fin (z k)) (n : Fin (ny * nx)) :
    ∃ x y X Y : K, calcGradient interp big M_tol G Z n = ![.fin X, .fin Y, .fin 0] ∧
      calcGradientR rnd interp big M_tol G Z n = ![.fin x, .fin y, .fin 0] ∧
      |x - X| ≤ gam u 3 * reach G.dx (fun ix => z (mkNode ix (rowF n))) (colF n) ∧
      |y - Y| ≤ gam u 3 * reach G.dy (fun iy => z (mkNode (colF n) iy)) (rowF n) ∧
      (X = 0 → x = 0) ∧ (Y = 0 → y = 0) := by
  have ex : ∀ {N : ℕ} {h : K} {f : Fin N → K} {i : Fin N}, 2 ≤ N → h ≠ 0 → dq h f i = 0 → dqR rnd h f i = 0 := by
    intro N h f i hN hh e
    refine dqR_zero hr ?_
    have hne := mul_ne_zero
      (Nat.cast_ne_zero.2 (span_pos hN i).ne' : (((hiOf i).val - (loOf i).val : ℕ) : K) ≠ 0) hh
    unfold dq at e
    exact sub_eq_zero.1 ((div_eq_zero_iff.1 e).resolve_right hne)
  have hx := dqR_app hr hnx hdx (f := fun ix => z (mkNode ix (rowF n))) (fun i => App.exact _ le_rfl) (colF n)
  have hy := dqR_app hr hny hdy (f := fun iy => z (mkNode (colF n) iy)) (fun i => App.exact _ le_rfl) (rowF n)
  exact ⟨_, _, _, _, calcGradient_fin hnx hny hdx hdy hI hm hZ n, calcGradientR_fin hr hnx hny hdx hdy hI hm hZ n,
    hx.err, hy.err, ex hnx hdx, ex hny hdy⟩

/-- C154.  The nodal shear rate on a grid without empty nodes is off by at most `gam u 5` times the sizes of the four
velocities it is made from over the widths. -/
theorem c154_gammadot (hr : Rounding rnd u) {interp : Interp K (ny * nx)} {big M_tol : K}
    {G : Grid K (ny * nx) ns} (hnx : 2 ≤ nx) (hny : 2 ≤ ny) (hdx : G.dx ≠ 0) (hdy : G.dy ≠ 0)
    (hI : KeepsData interp) (h0 : 0 < M_tol) (hm : ∀ k, M_tol ≤ G.m k) (n : Fin (ny * nx)) :
    ∃ g γ : K, (G.calcGammadot interp big M_tol).vis .gammadot n = .fin γ ∧
      (G.calcGammadotR rnd interp big M_tol).vis .gammadot n = .fin g ∧
      |g - γ| ≤ gam u 5 * (reach G.dy (fun iy => G.q (mkNode (colF n) iy) 0 / G.m (mkNode (colF n) iy)) (rowF n) +
        reach G.dx (fun ix => G.q (mkNode ix (rowF n)) 1 / G.m (mkNode ix (rowF n))) (colF n)) := by
  have hM : ∀ k, G.m k ≠ 0 := fun k => (h0.trans_le (hm k)).ne'
  have e1 : ∀ i k, (.fin (G.q k i) / .fin (G.m k) : XF K) = .fin (G.q k i / G.m k) := fun i k => XF.fin_div _ (hM k)
  have e2 : ∀ i k, (.fin (G.q k i) / .fin (G.m k) : XF K).rd rnd = .fin (rnd (G.q k i / G.m k)) := by
    intro i k; rw [e1]; rfl
  have hv : ∀ i k, App u 1 |G.q k i / G.m k| (G.q k i / G.m k) (rnd (G.q k i / G.m k)) :=
    fun i k => (App.exact _ le_rfl).round hr
  have hx := dqR_app hr hnx hdx (f := fun ix => G.q (mkNode ix (rowF n)) 1 / G.m (mkNode ix (rowF n)))
    (fun i => hv 1 _) (colF n)
  have hy := dqR_app hr hny hdy (f := fun iy => G.q (mkNode (colF n) iy) 0 / G.m (mkNode (colF n) iy))
    (fun i => hv 0 _) (rowF n)
  refine ⟨_, _, ?_, ?_, ((hy.add hx).round hr).err⟩
  · simp only [Grid.calcGammadot, Function.update_self]
    rw [calcGradient_fin hnx hny hdx hdy hI hm (e1 0), calcGradient_fin hnx hny hdx hdy hI hm (e1 1)]
    rfl
  · simp only [Grid.calcGammadotR, Function.update_self]
    rw [calcGradientR_fin hr hnx hny hdx hdy hI hm (e2 0), calcGradientR_fin hr hnx hny hdx hdy hI hm (e2 1)]
    rfl

/-- C154.  A body that moves as one, so that all stored nodal velocities agree, has no shear rate at all. -/
theorem c154_rigid (hr : Rounding rnd u) {interp : Interp K (ny * nx)} {big M_tol : K}
    {G : Grid K (ny * nx) ns} (hnx : 2 ≤ nx) (hny : 2 ≤ ny) (hdx : G.dx ≠ 0) (hdy : G.dy ≠ 0)
    (hI : KeepsData interp) (h0 : 0 < M_tol) (hm : ∀ k, M_tol ≤ G.m k) {a b : K}
    (ha : ∀ k, rnd (G.q k 0 / G.m k) = a) (hb : ∀ k, rnd (G.q k 1 / G.m k) = b) (n : Fin (ny * nx)) :
    (G.calcGammadotR rnd interp big M_tol).vis .gammadot n = .fin 0 := by
  have hM : ∀ k, G.m k ≠ 0 := fun k => (h0.trans_le (hm k)).ne'
  have e : ∀ i k, (.fin (G.q k i) / .fin (G.m k) : XF K).rd rnd = .fin (rnd (G.q k i / G.m k)) := by
    intro i k; rw [XF.fin_div _ (hM k)]; rfl
  simp only [Grid.calcGammadotR, Function.update_self]
  rw [calcGradientR_fin hr hnx hny hdx hdy hI hm (z := fun _ => a) (fun k => by rw [e, ha]),
    calcGradientR_fin hr hnx hny hdx hdy hI hm (z := fun _ => b) (fun k => by rw [e, hb])]
  show XF.rd rnd (.fin _ + .fin _) = _
  rw [dqR_zero hr rfl, dqR_zero hr rfl]
  show XF.fin (rnd (0 + 0)) = _
  rw [add_zero, hr.atZero]

end

/-- Two by two nodes that all move with the velocity `fl 53 (1/10)`; the upper ones carry the mass `m`. -/
def Ex.driftG (m : ℚ) : Grid ℚ (2 * 2) 2 :=
  { Ex.diffG (nx := 2) (ny := 2) (fun _ => false) (fun _ => 1) (fun _ _ => 1 / 2) with
    m := fun k => if (k : ℕ) < 2 then 1 else m
    q := fun k => ![fl 53 (fl 53 (1 / 10) * if (k : ℕ) < 2 then 1 else m), 0, 0] }

/-- In binary64: with equal masses, or with twice the mass, no shear rate at all. -/
example (n : Fin (2 * 2)) :
    ((Ex.driftG 1).calcGammadotR (nx := 2) (ny := 2) (fl 53) Ex.asIs 1 1).vis .gammadot n = .fin 0 ∧
    ((Ex.driftG 2).calcGammadotR (nx := 2) (ny := 2) (fl 53) Ex.asIs 1 1).vis .gammadot n = .fin 0 := by
  have hr := c136_bits (K := ℚ) (p := 53) (by norm_num)
  constructor
  · refine c154_rigid hr le_rfl le_rfl one_ne_zero one_ne_zero Ex.asIs_keeps one_pos (a := fl 53 (1 / 10)) (b := 0)
      ?_ ?_ ?_ n <;> decide +kernel
  · refine c154_rigid hr le_rfl le_rfl one_ne_zero one_ne_zero Ex.asIs_keeps one_pos (a := fl 53 (1 / 10)) (b := 0)
      ?_ ?_ ?_ n <;> decide +kernel

/-- With three times the mass the momenta are rounded, and a body that moves as one shows a shear rate,
within the bound. -/
example : ∃ g γ : ℚ,
    ((Ex.driftG 3).calcGammadot (nx := 2) (ny := 2) Ex.asIs 1 1).vis .gammadot 0 = .fin γ ∧
    ((Ex.driftG 3).calcGammadotR (nx := 2) (ny := 2) (fl 53) Ex.asIs 1 1).vis .gammadot 0 = .fin g ∧
    g ≠ 0 ∧ g ≠ γ ∧ |g - γ| ≤ gam (1 / 2 ^ 53) 5 * (1 / 5 + 1 / 10 ^ 10) := by
  have hr := c136_bits (K := ℚ) (p := 53) (by norm_num)
  obtain ⟨g, γ, h1, h2, h3⟩ := c154_gammadot (nx := 2) (ny := 2) hr (G := Ex.driftG 3) (big := 1) le_rfl le_rfl
    one_ne_zero one_ne_zero Ex.asIs_keeps one_pos (by decide +kernel) 0
  have k : ∀ x : XF ℚ, x = ((Ex.driftG 3).calcGammadotR (nx := 2) (ny := 2) (fl 53) Ex.asIs 1 1).vis .gammadot 0 →
      x ≠ .fin 0 ∧ x ≠ ((Ex.driftG 3).calcGammadot (nx := 2) (ny := 2) Ex.asIs 1 1).vis .gammadot 0 := by
    rintro x rfl
    decide +kernel
  obtain ⟨a, b⟩ := k _ h2.symm
  rw [h1] at b
  refine ⟨g, γ, h1, h2, fun e => a (by rw [e]), fun e => b (by rw [e]), h3.trans ?_⟩
  decide +kernel

/-- The gradient of stored numbers: 1 to 4 at the four nodes. -/
example : ∃ x y X Y : ℚ,
    calcGradient (nx := 2) (ny := 2) Ex.asIs 1 1 (Ex.driftG 1) (fun k => .fin ((k : ℕ) + 1)) 0 = ![.fin X, .fin Y, .fin 0] ∧
    calcGradientR (nx := 2) (ny := 2) (fl 53) Ex.asIs 1 1 (Ex.driftG 1) (fun k => .fin ((k : ℕ) + 1)) 0 =
      ![.fin x, .fin y, .fin 0] ∧ |x - X| ≤ gam (1 / 2 ^ 53) 3 * 3 ∧ |y - Y| ≤ gam (1 / 2 ^ 53) 3 * 4 := by
  have hr := c136_bits (K := ℚ) (p := 53) (by norm_num)
  obtain ⟨x, y, X, Y, h1, h2, h3, h4, -⟩ := c154_gradient (nx := 2) (ny := 2) hr (G := Ex.driftG 1) (big := 1)
    (M_tol := 1) (Z := fun k => .fin ((k : ℕ) + 1)) le_rfl le_rfl one_ne_zero one_ne_zero Ex.asIs_keeps
    (by decide +kernel) (fun _ => rfl) 0
  exact ⟨x, y, X, Y, h1, h2, h3.trans (by decide +kernel), h4.trans (by decide +kernel)⟩

end Mpm

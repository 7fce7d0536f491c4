import Verif.Lemmas.Law

/-! Arithmetic with specials, and the mixture loop of the mu(I) law. -/

set_option linter.unusedSectionVars false

namespace Mpm
open Spec

section
variable {K : Type} [Field K] [LinearOrder K] [IsStrictOrderedRing K] {ns : ℕ}

namespace XF

theorem fin_mul (a b : K) : (fin a * fin b : XF K) = fin (a * b) := rfl
theorem fin_add (a b : K) : (fin a + fin b : XF K) = fin (a + b) := rfl
theorem fin_sub (a b : K) : (fin a - fin b : XF K) = fin (a - b) := by
  rw [sub_eq_add_neg]; rfl
theorem fin_div (a : K) {b : K} (h : b ≠ 0) : (fin a / fin b : XF K) = fin (a / b) := if_neg h
theorem fin_div_zero {a : K} (h : 0 < a) : (fin a / fin 0 : XF K) = pinf := by
  change (if (0 : K) = 0 then _ else _) = _
  rw [if_pos rfl, if_neg h.ne']
  exact if_pos h
theorem zero_div_zero : (fin 0 / fin 0 : XF K) = nan := by
  change (if (0 : K) = 0 then _ else _) = _
  rw [if_pos rfl, if_pos rfl]
theorem nan_mul (a : XF K) : nan * a = nan := by cases a <;> rfl
theorem mul_nan (a : XF K) : a * nan = nan := by cases a <;> rfl
theorem nan_add (a : XF K) : nan + a = nan := by cases a <;> rfl
theorem add_nan (a : XF K) : a + nan = nan := by cases a <;> rfl
theorem nan_sub (a : XF K) : nan - a = nan := nan_add _
theorem sub_nan (a : XF K) : a - nan = nan := add_nan a
theorem nan_div (a : XF K) : nan / a = nan := by cases a <;> rfl
theorem div_nan (a : XF K) : a / nan = nan := by cases a <;> rfl
theorem neg_nan : -(nan : XF K) = nan := rfl
theorem nan_min (a : XF K) : XF.min nan a = nan := by cases a <;> rfl

/-- A special value, infinite or NaN. -/
def Special (a : XF K) : Prop := a.isFinite = false

theorem Special.fin_mul {b : XF K} (h : Special b) (a : K) : Special (fin a * b) := by
  change Special (XF.mul _ _)
  cases b with
  | fin x => cases h
  | nan => rfl
  | pinf =>
    simp only [XF.mul, infSign]
    split
    · rfl
    · split <;> rfl
  | ninf =>
    simp only [XF.mul, infSign]
    split
    · rfl
    · split <;> rfl

theorem Special.fin_add {b : XF K} (h : Special b) (a : K) : Special (fin a + b) := by
  cases b with
  | fin x => cases h
  | nan => rfl
  | pinf => rfl
  | ninf => rfl

theorem Special.mul_zero {a : XF K} (h : Special a) : a * fin 0 = nan := by
  change XF.mul _ _ = _
  cases a with
  | fin x => cases h
  | nan => rfl
  | pinf => simp [XF.mul]
  | ninf => simp [XF.mul]

theorem Special.sqrt {sq : K → K} {a : XF K} (h : Special a) : Special (XF.sqrt sq a) := by
  cases a with
  | fin x => cases h
  | nan => rfl
  | pinf => rfl
  | ninf => rfl

theorem special_div_zero (a : K) : Special (fin a / fin 0) := by
  change Special (XF.div _ _)
  simp only [XF.div, if_pos, infSign]
  split
  · rfl
  · split <;> rfl

/-- Not negative: a finite non-negative number, plus infinity or NaN. -/
def NonNeg : XF K → Prop
  | fin a => 0 ≤ a
  | pinf => True
  | ninf => False
  | nan => True

theorem NonNeg.fin_iff {a : K} : NonNeg (fin a) ↔ 0 ≤ a := Iff.rfl

theorem NonNeg.add {a b : XF K} (ha : NonNeg a) (hb : NonNeg b) : NonNeg (a + b) := by
  cases a <;> cases b <;> simp_all only [NonNeg] <;> first | exact add_nonneg ha hb | trivial

theorem infSign_nonneg {a : K} (h0 : 0 ≤ a) (h : a ≠ 0) : infSign a = pinf :=
  if_pos (lt_of_le_of_ne h0 (Ne.symm h))

theorem NonNeg.mul {a b : XF K} (ha : NonNeg a) (hb : NonNeg b) : NonNeg (a * b) := by
  change NonNeg (XF.mul a b)
  cases a <;> cases b <;> simp_all only [NonNeg, XF.mul]
  · exact mul_nonneg ha hb
  · rename_i x
    by_cases h : x = 0
    · rw [if_pos h]; trivial
    · rw [if_neg h, infSign_nonneg ha h]; trivial
  · rename_i x
    by_cases h : x = 0
    · rw [if_pos h]; trivial
    · rw [if_neg h, infSign_nonneg hb h]; trivial

theorem NonNeg.div {a b : XF K} (ha : NonNeg a) (hb : NonNeg b) : NonNeg (a / b) := by
  change NonNeg (XF.div a b)
  cases a <;> cases b <;> simp_all only [NonNeg, XF.div]
  · rename_i x y
    by_cases h : y = 0
    · rw [if_pos h]
      by_cases hx : x = 0
      · rw [if_pos hx]; trivial
      · rw [if_neg hx, infSign_nonneg ha hx]; trivial
    · rw [if_neg h]
      exact div_nonneg ha hb
  · exact le_rfl
  · rename_i y
    rw [if_neg (not_lt.2 hb)]; trivial

theorem NonNeg.sqrt {sq : K → K} (hs : ∀ x, 0 ≤ x → 0 ≤ sq x) (a : XF K) : NonNeg (sqrt sq a) := by
  cases a with
  | fin x =>
    by_cases h : x < 0
    · simp only [XF.sqrt, if_pos h]; trivial
    · simp only [XF.sqrt, if_neg h]; exact hs x (not_lt.1 h)
  | pinf => trivial
  | ninf => trivial
  | nan => trivial

theorem NonNeg.nanToNum {big : K} (hb : 0 ≤ big) {a : XF K} (ha : NonNeg a) :
    0 ≤ a.nanToNum big := by
  cases a with
  | fin x => exact ha
  | pinf => exact hb
  | ninf => exact ha.elim
  | nan => exact le_rfl

end XF

theorem inertial_nonneg {o : Ops K} (ho : GoodOps o) {rho_s g s p : K} (hg : 0 ≤ g) (hs : 0 ≤ s) :
    XF.NonNeg (inertial o rho_s g s p) :=
  XF.NonNeg.mul (a := .fin (g * s)) (mul_nonneg hg hs) (XF.NonNeg.sqrt ho.sqrt_nonneg _)

/-- The friction coefficient of the mu(I) law: a number in the stated interval, or NaN. -/
theorem muI_range {mu_0 delta_mu I_0 : K} (hd : 0 ≤ delta_mu) (hI : 0 ≤ I_0) {I : XF K}
    (h : XF.NonNeg I) : muI mu_0 delta_mu I_0 I = .nan ∨
      ∃ m, muI mu_0 delta_mu I_0 I = .fin m ∧ mu_0 ≤ m ∧ m ≤ mu_0 + delta_mu := by
  cases I with
  | ninf => exact h.elim
  | nan => exact .inl rfl
  | pinf =>
    right
    refine ⟨mu_0 + delta_mu, ?_, by linarith, le_rfl⟩
    change (XF.fin mu_0 + .fin delta_mu / (.fin 0 + .fin 1) : XF K) = _
    rw [XF.fin_add, zero_add, XF.fin_div _ one_ne_zero, div_one]; rfl
  | fin i =>
    have h : 0 ≤ i := h
    by_cases hi : i = 0
    · subst hi
      by_cases h0 : I_0 = 0
      · subst h0
        left
        unfold muI
        rw [XF.zero_div_zero, XF.nan_add, XF.div_nan, XF.add_nan]
      · right
        refine ⟨mu_0, ?_, le_rfl, by linarith⟩
        unfold muI
        rw [XF.fin_div_zero (lt_of_le_of_ne hI (Ne.symm h0))]
        change XF.fin (mu_0 + 0) = _
        rw [add_zero]
    · right
      have hi : 0 < i := lt_of_le_of_ne h (Ne.symm hi)
      have h1 : 0 ≤ I_0 / i := div_nonneg hI h
      have h2 : 0 < I_0 / i + 1 := by linarith
      refine ⟨mu_0 + delta_mu / (I_0 / i + 1), ?_, ?_, ?_⟩
      · unfold muI
        rw [XF.fin_div _ hi.ne', XF.fin_add, XF.fin_div _ h2.ne']
        rfl
      · linarith [div_nonneg hd h2.le]
      · have : delta_mu / (I_0 / i + 1) ≤ delta_mu := div_le_self hd (by linarith)
        linarith

/-- One pass of the loop over sizes. -/
theorem phiMeans_step {f : Fin ns → Res (K × K × K)} (l : List (Fin ns)) (g : Fin ns → K × K × K)
    (hg : ∀ i ∈ l, f i = .ok (g i)) (acc : K × K × K) :
    l.foldlM (fun (acc : K × K × K) i => do
      let a ← f i
      return (acc.1 + a.1, acc.2.1 + a.2.1, acc.2.2 + a.2.2)) acc =
    (.ok (acc.1 + (l.map fun i => (g i).1).sum, acc.2.1 + (l.map fun i => (g i).2.1).sum,
      acc.2.2 + (l.map fun i => (g i).2.2).sum) : Res (K × K × K)) := by
  induction l generalizing acc with
  | nil => simp [List.foldlM]
  | cons i l ih =>
    rw [List.foldlM_cons, hg i (by simp)]
    refine (ih (fun j hj => hg j (by simp [hj])) _).trans ?_
    simp only [List.map_cons, List.sum_cons, add_assoc]

/-- The mixture parameters, when the three parameters are long enough arrays. -/
theorem phiMeans_arr (phi : Fin ns → K) {l1 l2 l3 : List K} (h1 : ns ≤ l1.length)
    (h2 : ns ≤ l2.length) (h3 : ns ≤ l3.length) :
    phiMeans phi (.arr l1) (.arr l2) (.arr l3) =
      .ok (∑ i, phi i * l1.getD i 0, ∑ i, phi i * l2.getD i 0, ∑ i, phi i * l3.getD i 0) := by
  have key : ∀ (l : List K), ns ≤ l.length → ∀ i : Fin ns,
      (PyNum.arr l).get i = .ok (l.getD i 0) := by
    intro l hl i
    have : (i : ℕ) < l.length := by omega
    simp [PyNum.get, List.getElem?_eq_getElem this, List.getD_eq_getElem?_getD]
  have := phiMeans_step (f := fun i : Fin ns => .ok (phi i * l1.getD i 0, phi i * l2.getD i 0,
    phi i * l3.getD i 0)) (List.finRange ns) _ (fun i _ => rfl) (0, 0, 0)
  unfold phiMeans
  simp only [key l1 h1, key l2 h2, key l3 h3]
  refine this.trans ?_
  simp only [zero_add, ← Fin.sum_univ_def]

variable [FloorRing K]

/-- In every step that does not fail, the law of every phase ran without failing on each of its
points, as the point was at the start of the step up to its basis functions, body force and
strain. -/
theorem timeMarch_law {P : Par K} {interp : Interp K P.G.N} {s s' : St P} (hL : Counted s.L)
    (h : timeMarch P interp s = .ok s') {A : PhaseSt K P.G.ns} (hA : A ∈ s.L)
    {a : Particle K P.G.ns} (ha : a ∈ A.pts) :
    ∃ (d : Dyn K) (p : ℕ) (a4 a5 : Particle K P.G.ns) (l : List (Vis × XF K)),
      d = s.dyn.updateForces P ∧ s.L[p]? = some A ∧
      runLaw A.ph.law (lawCtx P d P.G.s ((mat0 s.L).getD A.ph.par) p A.ph) a4 = .ok (a5, l) ∧
      a4 = { a with b := a4.b, n_star := a4.n_star, N := a4.N, Gs := a4.Gs, LL := a4.LL
                    dstrain := a4.dstrain, strain := a4.strain } := by
  obtain ⟨T, s1, s2, s3, -, -, -, -, -, -, hR⟩ := timeMarch_idx hL h
  obtain ⟨i, hi⟩ := List.mem_iff_getElem?.1 hA
  obtain ⟨B, -, -, -, evo, kept, new, hev, -⟩ := hR.right hi
  obtain ⟨b, -, hab⟩ := forall₂_left hev ha
  obtain ⟨a3, a4, a5, l, e3, h4, h5, -⟩ := hab.law
  obtain ⟨nd, -, e4⟩ := updateStrain_ok h4
  refine ⟨T.d, i, a4, a5, l, T.hd, hi, h5, ?_⟩
  rw [e4, e3]

end
end Mpm

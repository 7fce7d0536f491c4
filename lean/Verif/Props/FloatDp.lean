import Verif.Model.FloatDp
import Verif.Props.FloatSeg
import Verif.Props.FloatYieldRun
import Verif.Props.Laws
import Verif.Props.NT

/-!
# C150: `dp_rate` in floating point, and whole time steps with every law

Without rounding the law is that of the exact model, failures included.  With rounding its stress increment is
within 14 roundings of the terms of the exact one, at the shear stress, pressure and overstress that were
computed, and these are near the exact ones.  Some things hold to the last digit.  `Besides.every` has every
law, so runs without rounding are those of the exact model whatever the laws.
-/

set_option linter.unusedSectionVars false

namespace Mpm
namespace Spec

/-- Size of what an in-plane deviator is computed from. -/
def planeSize {K : Type} [Field K] [LinearOrder K] (A : Mat K) (i j : Fin 2) : K :=
  |A i.castSucc j.castSucc| + if i = j then (|A 0 0| + |A 1 1|) / 2 else 0

/-- The stress increment of `dp_rate` at computed shear stress `q`, pressure `p` and overstress `g`: elastic,
less relaxation in shear and dilation at rates `1 / t`. -/
def dpIncrement {K : Type} [Field K] (M : Mat0 K) (e s : Mat K) (q p g : K) (i j : Fin 2) : K :=
  2 * M.Gs * (planeDev e i j - 3 * planeDev s i j * (2 * q * p * M.t_star)⁻¹ * g) +
    if i = j then M.Kb * (e 0 0 + e 1 1 - M.beta * q * (M.mu * p * p * M.t_star)⁻¹ * g) else 0

/-- Its terms without cancellation. -/
def dpSize {K : Type} [Field K] [LinearOrder K] (M : Mat0 K) (e s : Mat K) (q p g : K) (i j : Fin 2) : K :=
  |2 * M.Gs| * (planeSize e i j + 3 * planeSize s i j * |(2 * q * p * M.t_star)⁻¹| * |g|) +
    if i = j then |M.Kb| * (|e 0 0| + |e 1 1| + |M.beta * q| * |(M.mu * p * p * M.t_star)⁻¹| * |g|) else 0

end Spec
open Spec

section
variable {K : Type} [Field K] [LinearOrder K] [IsStrictOrderedRing K] {ns N nx : ℕ}

/-! ## Without rounding -/

theorem trace2R_id (A : Matrix (Fin 2) (Fin 2) K) : trace2R id A = A.trace := by
  simp [trace2R, Matrix.trace_fin_two]

theorem dev2R_id (A : Matrix (Fin 2) (Fin 2) K) :
    dev2R id A = A - (A.trace / 2) • (1 : Matrix (Fin 2) (Fin 2) K) := by
  ext i j
  simp [dev2R, trace2R_id, mul_div_right_comm]

theorem shear2R_id (A : Matrix (Fin 2) (Fin 2) K) (p : K) :
    shear2R id A p = A - p • (1 : Matrix (Fin 2) (Fin 2) K) := by
  ext i j
  simp [shear2R, mul_comm]

theorem sumSq2R_id (A : Matrix (Fin 2) (Fin 2) K) : sumSq2R id A = frob A A := by
  simp only [sumSq2R, frob, id, Fin.sum_univ_two]; ring

theorem dpRateGutsR_id (ops : Ops K) (mat0 : Mat0 K) (e s : Matrix (Fin 2) (Fin 2) K) :
    dpRateGutsR id ops mat0 e s = dpRateGuts ops mat0 e s := by
  funext i j
  simp only [dpRateGutsR, dpRateGuts, relaxR, dilateR, excessR, equivR, shearNormR, meanR, trace2R_id, dev2R_id,
    shear2R_id, sumSq2R_id, XF.rd_id, id]

/-- C150.  With the identity as rounding these are the laws of the exact model, failures included. -/
theorem c150_law {law : Law} (hl : law = .dp_rate ∨ law = .dp ∨ law = .viscous_size ∨ law = .pouliquen2D ∨
      law = .other) (c : LawCtx K ns) (mp : Particle K ns) (vis : Vis → Fin N → XF K) :
    mp.updateDpR id nx law c vis = mp.updateStress nx law c vis := by
  unfold Particle.updateDpR Particle.updateStress
  simp only [applyStressR_id]
  rcases hl with rfl | rfl | rfl | rfl | rfl
  · have hp : -(mp.stress 0 0 + mp.stress 1 1) / 2 = (-block2 mp.stress).trace / 2 := by
      simp [Matrix.trace_fin_two, block2]
    simp only [dpLawR, runLaw, dpRateLawR, lawDpRate, dpRateGutsR_id, equivR, shearNormR, meanR, trace2R_id,
      shear2R_id, sumSq2R_id, dev2R_id, traceR_id, XF.rd_id, id, hp, bind_assoc, pure_bind]
    refine bind_congr fun D => ?_
    refine bind_congr fun y => ?_
    refine congrArg (fun x => x >>= fun v => (pure (_, v) : Res _)) (scatterVisR_id (fun r => ?_) vis)
    simp only [shownR_id, shownRateR_id, List.map_cons, List.map_nil]
    congr 2
    show XF.fin _ = XF.fin _
    congr 1
    ring
  · show (dpLawR id .dp c mp >>= _) = (lawDp c mp >>= _)
    simp only [dpLawR, lawDp]
    cases mp.mu <;> rfl
  · rfl
  · rfl
  · rfl

variable {rnd : K → K} {u : K}

theorem XF.rd_fin {a : XF K} {x : K} (h : XF.rd rnd a = .fin x) : ∃ v, a = .fin v ∧ x = rnd v := by
  cases a with
  | fin v => exact ⟨v, rfl, (XF.fin.inj h).symm⟩
  | pinf => cases h
  | ninf => cases h
  | nan => cases h

theorem guts_ok {ops : Ops K} {mat0 : Mat0 K} {e s : Matrix (Fin 2) (Fin 2) K} {i j : Fin 2} {g : K}
    (h : dpRateGutsR rnd ops mat0 e s i j = .fin g) :
    ∃ r t, relaxR rnd ops mat0 s i j = .fin r ∧ dilateR rnd ops mat0 s = .fin t ∧
      g = rnd (rnd (rnd (2 * mat0.Gs) * rnd (dev2R rnd e i j - r)) +
        rnd (rnd (mat0.Kb * (1 : Matrix (Fin 2) (Fin 2) K) i j) * rnd (trace2R rnd e + t))) := by
  unfold dpRateGutsR at h
  obtain ⟨a, h0, rfl⟩ := XF.rd_fin h
  obtain ⟨b, c, h1, h2, rfl⟩ := XF.add_fin h0
  obtain ⟨b1, h3, rfl⟩ := XF.rd_fin h1
  obtain ⟨b2, h4, rfl⟩ := XF.mul_fin h3
  obtain ⟨b3, h5, rfl⟩ := XF.rd_fin h4
  obtain ⟨b4, r, h6, h7, rfl⟩ := XF.sub_fin h5
  obtain ⟨c1, k3, rfl⟩ := XF.rd_fin h2
  obtain ⟨c2, k4, rfl⟩ := XF.mul_fin k3
  obtain ⟨c3, k5, rfl⟩ := XF.rd_fin k4
  obtain ⟨c4, t, k6, k7, rfl⟩ := XF.add_fin k5
  rw [← XF.fin.inj h6, ← XF.fin.inj k6]
  exact ⟨r, t, h7, k7, rfl⟩

theorem XF.mul_fin_right {c x : K} {a : XF K} (h : a * .fin c = .fin x) : ∃ v, a = .fin v ∧ x = v * c := by
  cases a with
  | fin v => exact ⟨v, rfl, (XF.fin.inj h).symm⟩
  | nan => cases h
  | pinf =>
    have := XF.Special.mul_fin (K := K) (a := .pinf) rfl c
    rw [h] at this; cases this
  | ninf =>
    have := XF.Special.mul_fin (K := K) (a := .ninf) rfl c
    rw [h] at this; cases this

theorem relax_ok {ops : Ops K} {mat0 : Mat0 K} {s : Matrix (Fin 2) (Fin 2) K} {i j : Fin 2} {r : K}
    (h : relaxR rnd ops mat0 s i j = .fin r) :
    rnd (rnd (rnd (2 * equivR rnd ops s) * meanR rnd s) * mat0.t_star) ≠ 0 ∧
    r = rnd (rnd (rnd (3 * shear2R rnd s (meanR rnd s) i j) /
      rnd (rnd (rnd (2 * equivR rnd ops s) * meanR rnd s) * mat0.t_star)) * excessR rnd ops mat0 s) := by
  unfold relaxR at h
  obtain ⟨a, h0, rfl⟩ := XF.rd_fin h
  obtain ⟨b, h1, rfl⟩ := XF.mul_fin_right h0
  obtain ⟨b, h2, rfl⟩ := XF.rd_fin h1
  obtain ⟨hd, y, h3, rfl⟩ := XF.div_fin h2
  rw [← XF.fin.inj h3]
  exact ⟨hd, rfl⟩

theorem dilate_ok {ops : Ops K} {mat0 : Mat0 K} {s : Matrix (Fin 2) (Fin 2) K} {t : K}
    (h : dilateR rnd ops mat0 s = .fin t) :
    rnd (rnd (rnd (mat0.mu * meanR rnd s) * meanR rnd s) * mat0.t_star) ≠ 0 ∧
    t = rnd (rnd (rnd (mat0.beta * equivR rnd ops s) /
      rnd (rnd (rnd (mat0.mu * meanR rnd s) * meanR rnd s) * mat0.t_star)) * excessR rnd ops mat0 s) := by
  unfold dilateR at h
  obtain ⟨a, h0, rfl⟩ := XF.rd_fin h
  obtain ⟨b, h1, rfl⟩ := XF.mul_fin_right h0
  obtain ⟨b, h2, rfl⟩ := XF.rd_fin h1
  obtain ⟨hd, y, h3, rfl⟩ := XF.div_fin h2
  rw [← XF.fin.inj h3]
  exact ⟨hd, rfl⟩

/-- What `dp_rate` returns. -/
theorem updateDpR_ok {law : Law} {c : LawCtx K ns} {mp b : Particle K ns} {vis w : Vis → Fin N → XF K}
    (h : mp.updateDpR rnd nx law c vis = .ok (b, w)) :
    law = .dp_rate ∧ ∃ D y,
      (∀ i j : Fin 2, dpRateGutsR rnd c.ops c.mat0 (-block2 mp.dstrain) (-block2 mp.stress) i j =
        .fin (-D i.castSucc j.castSucc)) ∧
      (∀ i j : Fin 3, (¬ (i.val < 2 ∧ j.val < 2)) → D i j = mp.dstress i j) ∧
      (XF.rd rnd (XF.rd rnd (.fin (equivR rnd c.ops (-block2 mp.stress)) /
        .fin (rnd (c.mat.mu * meanR rnd (-block2 mp.stress)))) - .fin 1) : XF K) = .fin y ∧
      b = ({ mp with
        dstress := D
        gammadot := rnd (c.ops.sqrt (sumSq2R rnd (dev2R rnd (-block2 mp.dstrain))))
        pressure := rnd (traceR rnd mp.stress / 2)
        sigmav := mp.stress 1 1
        sigmah := mp.stress 0 0
        yieldfunction := y } : Particle K ns).applyStressR rnd c.dt := by
  obtain ⟨x, h1, h2⟩ := res_bind_ok.1 h
  obtain ⟨v, -, h3⟩ := res_bind_ok.1 h2
  have hl : law = .dp_rate := by
    cases law <;> first | rfl | (exfalso; revert h1; simp only [dpLawR]; first | (intro h; cases h) |
      (split <;> (intro h; cases h)))
  subst hl
  refine ⟨rfl, ?_⟩
  change dpRateLawR rnd c mp = _ at h1
  unfold dpRateLawR at h1
  obtain ⟨D, k1, h1⟩ := res_bind_ok.1 h1
  obtain ⟨y, k2, h1⟩ := res_bind_ok.1 h1
  cases h1
  refine ⟨D, y, fun i j => ?_, fun i j hij => ?_, ?_, (congrArg Prod.fst (Except.ok.inj h3)).symm⟩
  · have := finMat_ok k1 i.castSucc j.castSucc
    rw [dif_pos ⟨i.2, j.2⟩] at this
    change -dpRateGutsR rnd c.ops c.mat0 (-block2 mp.dstrain) (-block2 mp.stress) i j = _ at this
    revert this
    cases dpRateGutsR rnd c.ops c.mat0 (-block2 mp.dstrain) (-block2 mp.stress) i j with
    | fin x => intro h; rw [← XF.fin.inj h, neg_neg]
    | pinf => intro h; cases h
    | ninf => intro h; cases h
    | nan => intro h; cases h
  · have := finMat_ok k1 i j
    rw [dif_neg hij] at this
    exact (XF.fin.inj this).symm
  · revert k2
    cases (XF.rd rnd (XF.rd rnd (.fin (equivR rnd c.ops (-block2 mp.stress)) /
        .fin (rnd (c.mat.mu * meanR rnd (-block2 mp.stress)))) - .fin 1) : XF K) with
    | fin x => intro h; rw [Except.ok.inj h]
    | pinf => intro h; cases h
    | ninf => intro h; cases h
    | nan => intro h; cases h

theorem updateDpR_frame {law : Law} {c : LawCtx K ns} {mp b : Particle K ns}
    {vis w : Vis → Fin N → XF K} (h : mp.updateDpR rnd nx law c vis = .ok (b, w)) :
    SameKin mp b ∧ b.m = mp.m := by
  obtain ⟨-, D, y, -, -, -, rfl⟩ := updateDpR_ok h
  exact ⟨by constructor <;> rfl, rfl⟩

/-- C150.  A point without in-plane stress makes the law fail, whatever the rounding. -/
theorem c150_unstressed (z : rnd 0 = 0) {c : LawCtx K ns} {mp : Particle K ns}
    (hs : ∀ i j : Fin 2, mp.stress i.castSucc j.castSucc = 0) (vis : Vis → Fin N → XF K) :
    ∃ e, mp.updateDpR rnd nx .dp_rate c vis = .error e := by
  cases h : mp.updateDpR rnd nx .dp_rate c vis with
  | error e => exact ⟨e, rfl⟩
  | ok x =>
    exfalso
    obtain ⟨b, w⟩ := x
    obtain ⟨-, D, y, h1, -⟩ := updateDpR_ok h
    obtain ⟨r, t, h2, -⟩ := guts_ok (h1 0 0)
    obtain ⟨h3, -⟩ := relax_ok h2
    have e : -block2 mp.stress = 0 := by ext i j; simp [block2, hs]
    refine h3 ?_
    rw [e]
    simp [meanR, trace2R, z]

/-! ## Errors -/

theorem App.trans (hr : Rounding rnd u) {j k : ℕ} {c x y z : K} (h : App u k c x y) (h' : App u j |y| y z) :
    App u (j + k) c x z := by
  refine ⟨h.size, ?_⟩
  have e := abs_add_le (z - y) (y - x)
  rw [sub_add_sub_cancel] at e
  have g := gam_nonneg hr.nonneg hr.lt_one j
  have h1 := mul_le_mul_of_nonneg_left h.bound g
  have h2 : gam u (j + k) * c = gam u j * ((1 + gam u k) * c) + gam u k * c := by
    have := hr.lt_one.ne'
    unfold gam
    rw [pow_add]
    field_simp
    ring
  linarith [h'.err, h.err]

/-- The inverse of a product of four numbers. -/
theorem App.inv4 (hr : Rounding rnd u) {a b c d : K} (h : rnd (rnd (rnd (a * b) * c) * d) ≠ 0) :
    App u 3 |(a * b * c * d)⁻¹| (a * b * c * d)⁻¹ (rnd (rnd (rnd (a * b) * c) * d))⁻¹ := by
  have h1 := hr.ne_zero.1 h
  have h2 := hr.ne_zero.1 (left_ne_zero_of_mul h1)
  have h3 := hr.ne_zero.1 (left_ne_zero_of_mul h2)
  have k3 := (App.inv hr h3).times hr c⁻¹
  rw [← mul_inv, ← mul_inv, ← abs_mul, ← mul_inv] at k3
  have k2 := (k3.trans hr (App.inv hr h2)).times hr d⁻¹
  rw [← mul_inv, ← mul_inv, ← abs_mul, ← mul_inv] at k2
  exact k2.trans hr (App.inv hr h1)

theorem App.mean (hr : Rounding rnd u) (A : Mat K) :
    App u 2 ((|A 0 0| + |A 1 1|) / 2) (planePressure A) (meanR rnd (-block2 A)) := by
  have h1 : App u 1 (|A 0 0| + |A 1 1|) (-A 0 0 + -A 1 1) (trace2R rnd (-block2 A)) :=
    ((App.exact (-A 0 0) (abs_neg _).le).add (App.exact (-A 1 1) (abs_neg _).le)).round hr
  have h2 := (h1.over hr 2).round hr
  rw [abs_two] at h2
  have e : planePressure A = (-A 0 0 + -A 1 1) / 2 := by unfold planePressure; ring
  rw [e]
  exact h2

theorem App.dev2 (hr : Rounding rnd u) (A : Mat K) (i j : Fin 2) :
    App u 4 (planeSize A i j) (-planeDev A i j) (dev2R rnd (-block2 A) i j) := by
  have h1 : App u 1 (|A 0 0| + |A 1 1|) (-A 0 0 + -A 1 1) (trace2R rnd (-block2 A)) :=
    ((App.exact (-A 0 0) (abs_neg _).le).add (App.exact (-A 1 1) (abs_neg _).le)).round hr
  have h2 := ((((h1.times hr ((1 : Matrix (Fin 2) (Fin 2) K) i j)).round hr).over hr 2)).round hr
  have h3 := (((App.exact (u := u) (-A i.castSucc j.castSucc) (abs_neg _).le).weaken hr (Nat.zero_le 3)
    le_rfl).sub h2).round hr
  have e1 : -planeDev A i j = -A i.castSucc j.castSucc -
      (-A 0 0 + -A 1 1) * (1 : Matrix (Fin 2) (Fin 2) K) i j / 2 := by
    unfold planeDev; rw [Matrix.one_apply]; split <;> ring
  have e2 : planeSize A i j = |A i.castSucc j.castSucc| +
      (|A 0 0| + |A 1 1|) * |(1 : Matrix (Fin 2) (Fin 2) K) i j| / |2| := by
    unfold planeSize; rw [Matrix.one_apply, abs_two]; split <;> simp
  rw [e1, e2]
  exact h3

theorem App.shear2 (hr : Rounding rnd u) (A : Mat K) (i j : Fin 2) :
    App u 4 (planeSize A i j) (-planeDev A i j) (shear2R rnd (-block2 A) (meanR rnd (-block2 A)) i j) := by
  have h2 := ((App.exact (u := u) ((1 : Matrix (Fin 2) (Fin 2) K) i j) le_rfl).mul hr (App.mean hr A)).round hr
  have h3 := (((App.exact (u := u) (-A i.castSucc j.castSucc) (abs_neg _).le).weaken hr (Nat.zero_le 3)
    le_rfl).sub h2).round hr
  have e1 : -planeDev A i j = -A i.castSucc j.castSucc -
      (1 : Matrix (Fin 2) (Fin 2) K) i j * planePressure A := by
    unfold planeDev planePressure; rw [Matrix.one_apply]; split <;> ring
  have e2 : planeSize A i j = |A i.castSucc j.castSucc| +
      |(1 : Matrix (Fin 2) (Fin 2) K) i j| * ((|A 0 0| + |A 1 1|) / 2) := by
    unfold planeSize; rw [Matrix.one_apply]; split <;> simp
  rw [e1, e2]
  exact h3

/-- The argument of the root in `q`. -/
theorem App.shearArg (hr : Rounding rnd u) (A : Mat K) :
    App u 13 (3 * (∑ i, ∑ j, planeSize A i j ^ 2) / 2) (3 * planeDevSq A / 2)
      (rnd (rnd (3 * sumSq2R rnd (shear2R rnd (-block2 A) (meanR rnd (-block2 A)))) / 2)) := by
  have h := fun i j => ((App.shear2 hr A i j).mul hr (App.shear2 hr A i j)).round hr
  have h1 := (((h 0 0).add (h 1 0)).round hr).add (((h 0 1).add (h 1 1)).round hr) |>.round hr
  have h2 := ((((App.exact (u := u) 3 (abs_of_pos three_pos).le).mul hr h1).round hr).over hr 2).round hr
  rw [abs_two] at h2
  have e1 : planeDevSq A = -planeDev A 0 0 * -planeDev A 0 0 + -planeDev A 1 0 * -planeDev A 1 0 +
      (-planeDev A 0 1 * -planeDev A 0 1 + -planeDev A 1 1 * -planeDev A 1 1) := by
    simp only [planeDevSq, Fin.sum_univ_two]; ring
  have e2 : ∑ i, ∑ j, planeSize A i j ^ 2 = planeSize A 0 0 * planeSize A 0 0 +
      planeSize A 1 0 * planeSize A 1 0 + (planeSize A 0 1 * planeSize A 0 1 +
      planeSize A 1 1 * planeSize A 1 1) := by
    simp only [Fin.sum_univ_two]; ring
  rw [e1, e2]
  simp only [sumSq2R, pow_two]
  exact h2

theorem App.guts (hr : Rounding rnd u) {ops : Ops K} {M : Mat0 K} {e s : Mat K} {i j : Fin 2} {g : K}
    (h : dpRateGutsR rnd ops M (-block2 e) (-block2 s) i j = .fin g) :
    App u 14 (dpSize M e s (equivR rnd ops (-block2 s)) (meanR rnd (-block2 s))
        (excessR rnd ops M (-block2 s)) i j)
      (-dpIncrement M e s (equivR rnd ops (-block2 s)) (meanR rnd (-block2 s))
        (excessR rnd ops M (-block2 s)) i j) g := by
  obtain ⟨r, t, h1, h2, rfl⟩ := guts_ok h
  obtain ⟨d1, rfl⟩ := relax_ok h1
  obtain ⟨d2, rfl⟩ := dilate_ok h2
  generalize equivR rnd ops (-block2 s) = q at *
  generalize excessR rnd ops M (-block2 s) = x at *
  have kr := ((((((App.exact (u := u) 3 (abs_of_pos three_pos).le).mul hr (App.shear2 hr s i j)).round
    hr).mul hr (App.inv4 hr d1)).round hr).times hr x).round hr
  have kt := (((((App.exact (u := u) (M.beta * q) le_rfl).round hr).mul hr (App.inv4 hr d2)).round
    hr).times hr x).round hr
  have ke : App u 1 (|e 0 0| + |e 1 1|) (-e 0 0 + -e 1 1) (trace2R rnd (-block2 e)) :=
    ((App.exact (-e 0 0) (abs_neg _).le).add (App.exact (-e 1 1) (abs_neg _).le)).round hr
  have a1 := ((((App.exact (u := u) (2 * M.Gs) le_rfl).round hr).mul hr
    ((((App.dev2 hr e i j).weaken hr (show 4 ≤ 10 by decide) le_rfl).sub kr).round hr))).round hr
  have a2 := ((((App.exact (u := u) (M.Kb * (1 : Matrix (Fin 2) (Fin 2) K) i j) le_rfl).round hr).mul hr
    (((ke.weaken hr (show 1 ≤ 6 by decide) le_rfl).add kt).round hr))).round hr
  have a3 := (a1.add (a2.weaken hr (show 9 ≤ 13 by decide) le_rfl)).round hr
  simp only [div_eq_mul_inv]
  convert a3 using 1
  · unfold dpSize
    rw [Matrix.one_apply, abs_mul M.Kb]
    split <;> simp
  · unfold dpIncrement
    rw [Matrix.one_apply]
    split <;> ring

/-- C150.  The computed pressure, the square of the computed shear stress under the root, and the overstress:
each within a few roundings of its terms.  The overstress is that of the computed `q` and `p`. -/
theorem c150_measures (hr : Rounding rnd u) (ops : Ops K) (M : Mat0 K) (s : Mat K) :
    |meanR rnd (-block2 s) - planePressure s| ≤ gam u 2 * ((|s 0 0| + |s 1 1|) / 2) ∧
    (∃ X, equivR rnd ops (-block2 s) = rnd (ops.sqrt X) ∧
      |X - 3 * planeDevSq s / 2| ≤ gam u 13 * (3 * (∑ i, ∑ j, planeSize s i j ^ 2) / 2)) ∧
    |excessR rnd ops M (-block2 s) -
        max (equivR rnd ops (-block2 s) - M.mu * meanR rnd (-block2 s)) 0| ≤
      gam u 2 * (|equivR rnd ops (-block2 s)| + |M.mu * meanR rnd (-block2 s)|) := by
  refine ⟨(App.mean hr s).err, ⟨_, rfl, (App.shearArg hr s).err⟩, ?_⟩
  unfold excessR
  generalize equivR rnd ops (-block2 s) = q
  generalize meanR rnd (-block2 s) = p
  have h1 := (((App.exact (u := u) q le_rfl).weaken hr (Nat.zero_le 1) le_rfl).sub
    ((App.exact (u := u) (M.mu * p) le_rfl).round hr)).round hr
  dsimp only
  have h2 : (if 0 < rnd (q - rnd (M.mu * p)) then rnd (q - rnd (M.mu * p)) else 0) =
      max (rnd (q - rnd (M.mu * p))) 0 := by
    split
    · next h => rw [max_eq_left h.le]
    · next h => rw [max_eq_right (not_lt.1 h)]
  rw [h2]
  exact (abs_max_sub_max_le_abs _ _ _).trans h1.err

/-- C150.  The stress increment of `dp_rate`, on both sides of the yield surface: within 14 roundings of its
terms it is the elastic increment less relaxation and dilation, at the shear stress, pressure and overstress
of `c150_measures`.  Out of the plane the previous increment is kept. -/
theorem c150_increment (hr : Rounding rnd u) {c : LawCtx K ns} {mp b : Particle K ns}
    {vis w : Vis → Fin N → XF K} (h : mp.updateDpR rnd nx .dp_rate c vis = .ok (b, w)) :
    let q := equivR rnd c.ops (-block2 mp.stress)
    let p := meanR rnd (-block2 mp.stress)
    let g := excessR rnd c.ops c.mat0 (-block2 mp.stress)
    (∀ i j : Fin 2, |b.dstress i.castSucc j.castSucc - dpIncrement c.mat0 mp.dstrain mp.stress q p g i j| ≤
      gam u 14 * dpSize c.mat0 mp.dstrain mp.stress q p g i j) ∧
    ∀ i : Fin 3, b.dstress i 2 = mp.dstress i 2 ∧ b.dstress 2 i = mp.dstress 2 i := by
  obtain ⟨-, D, y, h1, h2, -, rfl⟩ := updateDpR_ok h
  refine ⟨fun i j => ?_, fun i => ⟨h2 i 2 (by simp), h2 2 i (by simp)⟩⟩
  have := (App.guts hr (h1 i j)).neg.err
  rwa [neg_neg, neg_neg] at this

theorem excess_zero (hr : Rounding rnd u) (one : rnd 1 = 1) {ops : Ops K} {M : Mat0 K} {m y : K} {s : Mat K}
    (hm : m = M.mu) (hmu : 0 < M.mu) (hp : 0 < planePressure s)
    (hy : (XF.rd rnd (XF.rd rnd (.fin (equivR rnd ops (-block2 s)) /
        .fin (rnd (m * meanR rnd (-block2 s)))) - .fin 1) : XF K) = .fin y) :
    (y < 0 → excessR rnd ops M (-block2 s) = 0) ∧ (0 < y → 0 < excessR rnd ops M (-block2 s)) := by
  have z : rnd 0 = 0 := not_ne_iff.1 fun h => hr.ne_zero.1 h rfl
  have pos : ∀ {x : K}, 0 < x → 0 < rnd x := fun {x} h =>
    lt_of_le_of_ne (by rw [← z]; exact hr.mono h.le) (hr.ne_zero.2 h.ne').symm
  have hM : 0 < rnd (m * meanR rnd (-block2 s)) := by
    refine pos (mul_pos (hm ▸ hmu) (pos ?_))
    refine div_pos (pos ?_) two_pos
    have : planePressure s * 2 = (-block2 s) 0 0 + (-block2 s) 1 1 := by
      simp [planePressure, block2]; ring
    rw [← this]
    exact mul_pos hp two_pos
  obtain ⟨a, h0, rfl⟩ := XF.rd_fin hy
  obtain ⟨a, b, h1, h2, rfl⟩ := XF.sub_fin h0
  rw [← XF.fin.inj h2]
  obtain ⟨a, h3, rfl⟩ := XF.rd_fin h1
  obtain ⟨-, x, h4, rfl⟩ := XF.div_fin h3
  rw [← XF.fin.inj h4]
  subst hm
  unfold excessR
  generalize equivR rnd ops (-block2 s) = q at *
  dsimp only
  constructor
  · intro h
    have k1 : rnd (q / rnd (M.mu * meanR rnd (-block2 s))) < 1 := by
      by_contra hn
      have := hr.mono (sub_nonneg.2 (not_lt.1 hn))
      rw [z] at this
      exact absurd h (not_lt.2 this)
    have k2 : q / rnd (M.mu * meanR rnd (-block2 s)) < 1 := by
      by_contra hn
      have := hr.mono (not_lt.1 hn)
      rw [one] at this
      exact absurd k1 (not_lt.2 this)
    rw [div_lt_one hM] at k2
    rw [if_neg]
    refine not_lt.2 ?_
    have := hr.mono (sub_nonpos.2 k2.le)
    rwa [z] at this
  · intro h
    have k1 : 1 < rnd (q / rnd (M.mu * meanR rnd (-block2 s))) := by
      by_contra hn
      have := hr.mono (sub_nonpos.2 (not_lt.1 hn))
      rw [z] at this
      exact absurd h (not_lt.2 this)
    have k2 : 1 < q / rnd (M.mu * meanR rnd (-block2 s)) := by
      by_contra hn
      have := hr.mono (not_lt.1 hn)
      rw [one] at this
      exact absurd k1 (not_lt.2 this)
    rw [one_lt_div hM] at k2
    have := pos (sub_pos.2 k2)
    rwa [if_pos this]

/-- C150.  Under pressure, when the phase has the friction of the first: a point that the law records as below
yield gets an elastic increment, up to rounding, and one that it records above yield has a positive overstress. -/
theorem c150_yield (hr : Rounding rnd u) (one : rnd 1 = 1) {c : LawCtx K ns} {mp b : Particle K ns}
    {vis w : Vis → Fin N → XF K} (hm : c.mat.mu = c.mat0.mu) (hmu : 0 < c.mat0.mu)
    (hp : 0 < planePressure mp.stress) (h : mp.updateDpR rnd nx .dp_rate c vis = .ok (b, w)) :
    (b.yieldfunction < 0 → ∀ i j : Fin 2, |b.dstress i.castSucc j.castSucc -
        (2 * c.mat0.Gs * planeDev mp.dstrain i j +
          if i = j then c.mat0.Kb * (mp.dstrain 0 0 + mp.dstrain 1 1) else 0)| ≤
      gam u 14 * (|2 * c.mat0.Gs| * planeSize mp.dstrain i j +
          if i = j then |c.mat0.Kb| * (|mp.dstrain 0 0| + |mp.dstrain 1 1|) else 0)) ∧
    (0 < b.yieldfunction → 0 < excessR rnd c.ops c.mat0 (-block2 mp.stress)) := by
  have h' := c150_increment hr h
  obtain ⟨-, D, y, h1, -, h2, rfl⟩ := updateDpR_ok h
  obtain ⟨k1, k2⟩ := excess_zero hr one hm hmu hp h2
  refine ⟨fun hy i j => ?_, k2⟩
  have := h'.1 i j
  rw [k1 hy] at this
  simpa only [dpIncrement, dpSize, abs_zero, mul_zero, sub_zero, add_zero] using this

/-- C150.  At rest and under pressure the shear stress never grows away from zero, exactly: its increment has
the other sign or none. -/
theorem c150_direction (hr : Rounding rnd u) {c : LawCtx K ns} {mp b : Particle K ns}
    {vis w : Vis → Fin N → XF K} (hroot : ∀ x, 0 ≤ c.ops.sqrt x) (hG : 0 ≤ c.mat0.Gs)
    (ht : 0 ≤ c.mat0.t_star) (hp : 0 ≤ planePressure mp.stress)
    (he : ∀ i j : Fin 2, mp.dstrain i.castSucc j.castSucc = 0)
    (h : mp.updateDpR rnd nx .dp_rate c vis = .ok (b, w)) : b.dstress 0 1 * mp.stress 0 1 ≤ 0 := by
  have z : rnd 0 = 0 := not_ne_iff.1 fun h => hr.ne_zero.1 h rfl
  have nn : ∀ {x : K}, 0 ≤ x → 0 ≤ rnd x := fun {x} h => by rw [← z]; exact hr.mono h
  have np : ∀ {x : K}, x ≤ 0 → rnd x ≤ 0 := fun {x} h => by rw [← z]; exact hr.mono h
  obtain ⟨-, D, y, h1, -, -, rfl⟩ := updateDpR_ok h
  obtain ⟨r, t, h2, -, h3⟩ := guts_ok (h1 0 1)
  obtain ⟨-, h4⟩ := relax_ok h2
  change D 0 1 * mp.stress 0 1 ≤ 0
  change -D 0 1 = _ at h3
  have e0 : dev2R rnd (-block2 mp.dstrain) 0 1 = 0 := by
    have : -block2 mp.dstrain = 0 := by ext i j; simp [block2, he]
    rw [this]; simp [dev2R, trace2R, z]
  have e1 : shear2R rnd (-block2 mp.stress) (meanR rnd (-block2 mp.stress)) 0 1 = rnd (-mp.stress 0 1) := by
    simp [shear2R, z, block2]
  have e2 : (1 : Matrix (Fin 2) (Fin 2) K) 0 1 = 0 := by simp
  rw [e0, e2, mul_zero, z, zero_mul, z, add_zero, zero_sub] at h3
  rw [e1] at h4
  have pm : 0 ≤ meanR rnd (-block2 mp.stress) := by
    refine nn (div_nonneg (nn ?_) two_pos.le)
    have : planePressure mp.stress * 2 = (-block2 mp.stress) 0 0 + (-block2 mp.stress) 1 1 := by
      simp [planePressure, block2]; ring
    rw [← this]
    exact mul_nonneg hp two_pos.le
  have pq : 0 ≤ equivR rnd c.ops (-block2 mp.stress) := nn (hroot _)
  have px : 0 ≤ excessR rnd c.ops c.mat0 (-block2 mp.stress) := by
    unfold excessR; dsimp only; split
    · next h => exact h.le
    · exact le_rfl
  have pd := nn (mul_nonneg (nn (mul_nonneg (nn (mul_nonneg two_pos.le pq)) pm)) ht)
  have pG := nn (mul_nonneg two_pos.le hG)
  rcases le_total 0 (mp.stress 0 1) with hs | hs
  · refine mul_nonpos_of_nonpos_of_nonneg ?_ hs
    have r0 : r ≤ 0 := h4 ▸ np (mul_nonpos_of_nonpos_of_nonneg (np (div_nonpos_of_nonpos_of_nonneg
      (np (mul_nonpos_of_nonneg_of_nonpos three_pos.le (np (neg_nonpos.2 hs)))) pd)) px)
    have := nn (nn (mul_nonneg pG (nn (neg_nonneg.2 r0))))
    linarith
  · refine mul_nonpos_of_nonneg_of_nonpos ?_ hs
    have r0 : 0 ≤ r := h4 ▸ nn (mul_nonneg (nn (div_nonneg
      (nn (mul_nonneg three_pos.le (nn (neg_nonneg.2 hs)))) pd)) px)
    have := np (np (mul_nonpos_of_nonneg_of_nonpos pG (np (neg_nonpos.2 r0))))
    linarith

/-- C150.  Symmetric stress and strain give a symmetric increment in the plane, to the last digit. -/
theorem c150_symmetric {c : LawCtx K ns} {mp b : Particle K ns} {vis w : Vis → Fin N → XF K}
    (hs : mp.stress 0 1 = mp.stress 1 0) (he : mp.dstrain 0 1 = mp.dstrain 1 0)
    (h : mp.updateDpR rnd nx .dp_rate c vis = .ok (b, w)) : b.dstress 0 1 = b.dstress 1 0 := by
  obtain ⟨-, D, y, h1, -, -, rfl⟩ := updateDpR_ok h
  have e : dpRateGutsR rnd c.ops c.mat0 (-block2 mp.dstrain) (-block2 mp.stress) 0 1 =
      dpRateGutsR rnd c.ops c.mat0 (-block2 mp.dstrain) (-block2 mp.stress) 1 0 := by
    have e1 : (-block2 mp.dstrain) 0 1 = (-block2 mp.dstrain) 1 0 := congrArg Neg.neg he
    have e2 : (-block2 mp.stress) 0 1 = (-block2 mp.stress) 1 0 := congrArg Neg.neg hs
    simp only [dpRateGutsR, relaxR, dev2R, shear2R, e1, e2, Matrix.one_apply, Fin.isValue, zero_ne_one,
      one_ne_zero, if_false]
  rw [h1, h1] at e
  exact neg_injective (XF.fin.inj e)

/-- C150.  Without velocity gradient the new state of a point does not depend on the time step. -/
theorem c150_no_time (z : rnd 0 = 0) {c : LawCtx K ns} {mp b b' : Particle K ns} {dt' : K}
    {vis vis' w w' : Vis → Fin N → XF K} (hl : mp.LL = 0)
    (h : mp.updateDpR rnd nx .dp_rate c vis = .ok (b, w))
    (h' : mp.updateDpR rnd nx .dp_rate { c with dt := dt' } vis' = .ok (b', w')) : b' = b := by
  obtain ⟨-, D, y, h1, h2, h3, rfl⟩ := updateDpR_ok h
  obtain ⟨-, D', y', h1', h2', h3', rfl⟩ := updateDpR_ok h'
  have eD : D' = D := by
    ext i j
    by_cases hij : i.val < 2 ∧ j.val < 2
    · have := (h1' ⟨i, hij.1⟩ ⟨j, hij.2⟩).symm.trans (h1 ⟨i, hij.1⟩ ⟨j, hij.2⟩)
      exact neg_injective (XF.fin.inj this)
    · rw [h2 i j hij, h2' i j hij]
  have ey : y' = y := XF.fin.inj (h3'.symm.trans h3)
  subst eD ey
  simp only [Particle.applyStressR, mdotR, hl, Matrix.zero_apply, mul_zero, zero_mul, z, add_zero]

end

/-! ## Whole time steps -/

section
variable {K : Type} [Field K] [LinearOrder K] [IsStrictOrderedRing K] [FloorRing K]
  {rnd : K → K} {u : K} {P : Par K}

theorem Besides.every_plain : Plain (Besides.every rnd P) where
  stress := by
    intro d L p ph mp b vis w h
    change (if ph.law = .dp_rate ∨ ph.law = .dp ∨ ph.law = .viscous_size ∨ ph.law = .pouliquen2D ∨
      ph.law = .other then _ else _) = _ at h
    split at h
    · exact ⟨(updateDpR_frame h).1, fun _ => (updateDpR_frame h).2⟩
    · exact Besides.all_plain.stress h
  late := fun h => roundedLate (rnd := rnd) h

theorem every_stress_exact (interp : Interp K P.G.N) :
    (Besides.every id P).stress = (Besides.exact P interp).stress := by
  funext d L p ph mp vis
  change (if ph.law = .dp_rate ∨ ph.law = .dp ∨ ph.law = .viscous_size ∨ ph.law = .pouliquen2D ∨
      ph.law = .other then
    mp.updateDpR id P.G.nx ph.law (lawCtx P d P.G.s ((mat0 L).getD ph.par) p ph) vis else
    (Besides.all id P).stress d L p ph mp vis) = _
  split
  · next h => exact c150_law h _ _ _
  · next h =>
    refine all_stress_exact ?_ mp vis
    revert h
    unfold RoundedLaw
    cases ph.law <;> simp

theorem every_gridPhase (interp : Interp K P.G.N) (hs : P.segregate_grid = false) (s : St P) :
    gridPhaseR id (Besides.every id P) s = gridPhase P s := by
  have hv : (Besides.every id P).visCyclic = (Besides.exact P interp).visCyclic := by
    funext vis v
    show (if v ∈ cyclicVis then fun i => XF.rd id (makeCyclic (vis v) i) else vis v) =
      if v ∈ cyclicVis then makeCyclic (vis v) else vis v
    simp only [XF.rd_id]
  have hm : ∀ L G, getNodalMassMomentumR id (Besides.every id P) L G =
      getNodalMassMomentumR id (Besides.exact P interp) L G := by
    intro L G
    unfold getNodalMassMomentumR
    simp only [hs, Bool.false_eq_true, if_false]
  have hst : ∀ d L G, updateStressStrainR id (Besides.every id P) d L G =
      updateStressStrainR id (Besides.exact P interp) d L G := by
    intro d L G
    unfold updateStressStrainR
    rw [hv, every_stress_exact interp]
  rw [← gridPhaseR_id P interp]
  unfold gridPhaseR
  simp only [hm, hst]

/-- C150.  With every law and without rounding or segregation, one step is that of the exact model: it fails
where that fails, in the same way, and else leaves the same state, but for the nodal shear rate that only
figures show. -/
theorem c150_exact (interp : Interp K P.G.N) (hs : P.segregate_grid = false) (hr : P.B.inlet_right = false)
    (ht : P.B.inlet_top = false) (s : St P) :
    timeMarch P interp s = (timeMarchR id (Besides.every id P) s).map fun s' =>
      { s' with G := s'.G.calcGammadot interp P.ops.big P.M_tol } := by
  have hp : ∀ s : St P, pointsPhaseR id (Besides.every id P) s = pointsPhaseR id (Besides.exact P interp) s := by
    intro s
    unfold pointsPhaseR
    simp only [hr, ht, whenSet, Bool.false_eq_true, if_false]
  have hm : ∀ s : St P, pointsPhase P { s with G := s.G.calcGammadot interp P.ops.big P.M_tol } =
      (pointsPhase P s).map fun s' => { s' with G := s'.G.calcGammadot interp P.ops.big P.M_tol } := by
    intro s
    have e : movePoints P.G.nx P.M_tol s.dyn.dt P.intruder_v
        (s.G.calcGammadot interp P.ops.big P.M_tol) s.L =
        movePoints P.G.nx P.M_tol s.dyn.dt P.intruder_v s.G s.L := rfl
    unfold pointsPhase
    rw [show ({ s with G := s.G.calcGammadot interp P.ops.big P.M_tol } : St P).G =
      s.G.calcGammadot interp P.ops.big P.M_tol from rfl, e]
    rcases movePoints P.G.nx P.M_tol s.dyn.dt P.intruder_v s.G s.L with _ | L
    · rfl
    dsimp only [Bind.bind, Except.bind]
    rcases whenSet P.B.outlet_left (outletLeft P.G) L with _ | L
    · rfl
    dsimp only
    rcases whenSet P.B.outlet_bottom (outletBottom P.G) L with _ | L
    · rfl
    dsimp only
    rcases whenSet P.B.inlet_right (inletRight P s.dyn) L with _ | L
    · rfl
    dsimp only
    rcases whenSet P.B.inlet_top (inletTop P s.dyn) L with _ | L
    · rfl
    dsimp only
    rcases whenSet P.B.cyclic_lr (cyclicLR P.G) L with _ | L <;> rfl
  rw [← c138_exact P interp]
  unfold timeMarchR
  rw [every_gridPhase interp hs, gridPhaseR_id]
  rcases gridPhase P s with _ | s1
  · rfl
  dsimp only [Bind.bind, Except.bind]
  rcases momentumPhaseR id s1 with _ | s2
  · rfl
  have l1 : (Besides.every id P).late s2 = .ok s2 := by
    show (if P.segregate_grid then _ else _) = _
    simp [hs]
  have l2 : (Besides.exact P interp).late s2 =
      .ok { s2 with G := s2.G.calcGammadot interp P.ops.big P.M_tol } := by
    show segregationPhase P interp _ = _
    simp [segregationPhase, hs]
  dsimp only
  rw [l1, l2]
  dsimp only
  rw [hp, pointsPhaseR_id, pointsPhaseR_id, hm]

/-- C150.  Hence whole runs of a closed system without rounding are those of the exact model, whatever the
laws: they fail in the same way or end with the same points at the same time. -/
theorem c150_run (interp : Interp K P.G.N) (hs : P.segregate_grid = false) (hB : Closed P.B) (s : St P)
    (n : ℕ) : (steps P interp n s).map (fun s => (s.dyn, s.L)) =
      (stepsR id (Besides.every id P) n s).map fun s => (s.dyn, s.L) := by
  induction n generalizing s with
  | zero => rfl
  | succ n ih =>
    unfold steps stepsR
    rw [c150_exact interp hs hB.2.2.1 hB.2.2.2]
    rcases h : timeMarchR id (Besides.every id P) s with _ | s1
    · rfl
    refine Eq.trans ?_ (ih (stepTime P s1))
    show (steps P interp n (stepTime P { s1 with G := s1.G.calcGammadot interp P.ops.big P.M_tol })).map _ = _
    cases n with
    | zero => rfl
    | succ n =>
      refine congrArg _ (c29_previous_grid_run (s := stepTime P s1) (s' := stepTime P
        { s1 with G := s1.G.calcGammadot interp P.ops.big P.M_tol }) rfl rfl ⟨?_, rfl, rfl⟩ n)
      constructor <;> rfl

/-- C150.  As C148, with every law: the points of a closed system stay the same, in number, order and phase;
volumes and grain sizes keep all their digits, and so do masses unless the law changes them. -/
theorem c150_bodies {n : ℕ} {s s' : St P} (hB : Closed P.B) (hL : Counted s.L) (hr : NoRigid s.L)
    (ho : OwnVel s.L) (h : stepsR rnd (Besides.every rnd P) n s = .ok s') :
    List.Forall₂ (fun a a' => a'.ph = a.ph ∧ List.Forall₂ (fun mp mp' => mp'.V = mp.V ∧ mp'.phi = mp.phi ∧
      (a.ph.law ≠ .elastic_time → mp'.m = mp.m)) a.pts a'.pts) s.L s'.L :=
  bodyR_steps Besides.every_plain hB hL hr ho h

/-- C150.  Nothing crosses a wall. -/
theorem c150_walls (z : rnd 0 = 0) {n : ℕ} {s s' : St P} (hc : P.B.cyclic_lr = false)
    (h : stepsR rnd (Besides.every rnd P) (n + 1) s = .ok s') (i : Fin P.G.N) :
    (s.G.boundary_v i = true → (P.B.conveyor = true → s.G.boundary_conveyor i = false) →
      s'.G.q_dot i 0 = 0 ∧ s'.G.q i 0 = 0) ∧
    (s.G.boundary_h i = true → s'.G.q_dot i 1 = 0 ∧ s'.G.q i 1 = 0) :=
  wallR_steps Besides.every_plain z hc h i

theorem Besides.every_calm (z : rnd 0 = 0) : Calm rnd Unloaded (Besides.every rnd P) := by
  intro d L p ph mp b vis w h hl hd hm hlaw
  change (if ph.law = .dp_rate ∨ ph.law = .dp ∨ ph.law = .viscous_size ∨ ph.law = .pouliquen2D ∨
      ph.law = .other then _ else _) = _ at h
  split at h
  · exfalso
    have e := (updateDpR_ok h).1
    rw [e] at h
    obtain ⟨x, hx⟩ := c150_unstressed (nx := P.G.nx) z (c := lawCtxR rnd P d P.G.s ((mat0 L).getD ph.par) p ph)
      (mp := mp) (fun i j => by rw [hm.1.2.1]; rfl) vis
    rw [hx] at h
    cases h
  · exact Besides.all_calm z h hl hd hm hlaw

/-- C150.  Without loads, a body at rest in which no law has stored anything stays exactly where it is.  For
`dp_rate` there is no such run: the law fails without stress (`c150_unstressed`). -/
theorem c150_rest (z : rnd 0 = 0) {n : ℕ} {s s' : St P} (hB : Closed P.B)
    (hF : ∀ t, (P.forces t).1 = 0) (hv : P.B.vertical_force = false) (hh : P.B.horizontal_force = false)
    (hc : P.B.conveyor = false)
    (hx : P.B.cyclic_lr = true → ∀ mp ∈ points s.L, P.G.x_m ≤ mp.x 0 ∧ mp.x 0 ≤ P.G.x_M)
    (hL : Counted s.L) (hR : NoRigid s.L)
    (hs : ∀ a ∈ s.L, ∀ mp ∈ a.pts, AtRestR rnd mp ∧ Unloaded a.ph.law mp.dev_stress mp.sigma_kk mp.dstress)
    (h : stepsR rnd (Besides.every rnd P) n s = .ok s') :
    List.Forall₂ (fun mp mp' => mp'.x = mp.x ∧ AtRestR rnd mp') (points s.L) (points s'.L) := by
  have hi : ∀ x ∈ items s.L, RestQ rnd Unloaded x.1.law x.2 := by
    intro x hx
    obtain ⟨a, ha, e, hm⟩ := mem_items.1 hx
    have := hs a ha _ hm
    rw [e] at this
    exact this
  have k := (restR_steps Besides.every_plain (Besides.every_calm z) z hB hF hv hh hc hx hL hR hi h).mem
  refine k.points.imp ?_
  rintro a b ⟨ph, ha, -, hab⟩
  exact ⟨(hab (hi _ ha)).2, (hab (hi _ ha)).1.1⟩

/-- C150.  The balance of momentum of one rounded time step, with every law. -/
theorem c150_balance {s s' : St P} (hr : Rounding rnd u) (odd : ∀ x, rnd (-x) = -rnd x)
    (hB : Closed P.B) (hcy : P.B.cyclic_lr = false) (hro : P.B.roughness = false)
    (hco : P.B.conveyor = false) (hda : P.damping = false) (hvf : P.B.vertical_force = false)
    (hhf : P.B.horizontal_force = false)
    (hL : Counted s.L) (hR : NoRigid s.L) (hE : ∀ a ∈ s.L, a.ph.law ≠ .elastic_time) (ho : OwnVel s.L)
    (hm : ∀ mp ∈ points s.L, 0 ≤ mp.m) (hdx : 0 < s.G.dx) (hdy : 0 < s.G.dy)
    (rx : rnd s.G.dx = s.G.dx) (ry : rnd s.G.dy = s.G.dy)
    (hcell : ∀ mp ∈ points s.L, ∀ n, mp.getReferenceNodeR rnd P.G s.G.dx s.G.dy = .ok n →
      NearCell s.G 0 n) {k : Fin 3}
    (hv : k = 0 → ∀ i, s.G.boundary_v i = false) (hh : k = 1 → ∀ i, s.G.boundary_h i = false)
    (h : timeMarchR rnd (Besides.every rnd P) s = .ok s') {c : ℕ}
    (hc : ∀ n : Fin P.G.N, (arrivals P.G.nx n s'.L).length ≤ c)
    (heavy : ∀ n : Fin P.G.N, arrivals P.G.nx n s'.L ≠ [] → P.M_tol < s'.G.m n) :
    |totalMomentum s'.L k - (totalMomentum s.L k + s'.dyn.dt * weightIn s'.L k)| ≤
      gam u (8 + c) * momentumSize s.L k + |s'.dyn.dt| * (gam u (16 + 2 * c) *
        (weightSize s'.L k + stressPush s.G.dx s.G.dy s'.L k)) :=
  balanceR Besides.every_plain hr odd hB hcy hro hco hda hvf hhf hL hR hE ho hm hdx hdy rx ry hcell hv hh h
    hc heavy

end
end Mpm

/-! ## Examples -/

namespace Mpm
open Spec

/-- Parameters for `dp_rate`, at friction `mu`. -/
def Ex.ctxD (mu : ℚ) : LawCtx ℚ 2 :=
  { Ex.lawC with
    ops := { Ex.ops with sqrt := fun x => |x| }
    mat := { Ex.mat with mu := mu }
    mat0 := { Ex.mat with mu := mu } }

/-- A point under pressure and shear, at rest; and one that is deformed too. -/
def Ex.squeezed : Particle ℚ 2 :=
  { Ex.amid with
    stress := !![fl 53 (-10 / 3), fl 53 (1 / 7), 0; fl 53 (1 / 7), -1, 0; 0, 0, -1], dstrain := 0, LL := 0 }

def Ex.kneaded : Particle ℚ 2 :=
  { Ex.squeezed with dstrain := !![fl 53 (1 / 3), fl 53 (1 / 5), 0; fl 53 (1 / 5), fl 53 (1 / 11), 0; 0, 0, 0] }

/-- What the shear component of the increment at rest should be, and its size. -/
def Ex.aim : ℚ :=
  dpIncrement (Ex.ctxD 1).mat0 0 Ex.squeezed.stress
    (equivR (fl 53) (Ex.ctxD 1).ops (-block2 Ex.squeezed.stress)) (meanR (fl 53) (-block2 Ex.squeezed.stress))
    (excessR (fl 53) (Ex.ctxD 1).ops (Ex.ctxD 1).mat0 (-block2 Ex.squeezed.stress)) 0 1

def Ex.aimSize : ℚ :=
  dpSize (Ex.ctxD 1).mat0 0 Ex.squeezed.stress
    (equivR (fl 53) (Ex.ctxD 1).ops (-block2 Ex.squeezed.stress)) (meanR (fl 53) (-block2 Ex.squeezed.stress))
    (excessR (fl 53) (Ex.ctxD 1).ops (Ex.ctxD 1).mat0 (-block2 Ex.squeezed.stress)) 0 1

/-- C150.  Above yield, in binary64: the increment is not the exact one but near it, against the shear stress
and symmetric; a step twice as long gives the same point. -/
example : ∃ b b' : Particle ℚ 2, ∃ w w' : Vis → Fin 12 → XF ℚ,
    Ex.squeezed.updateDpR (fl 53) 4 .dp_rate (Ex.ctxD 1) (fun _ _ => .fin 0) = .ok (b, w) ∧
    Ex.squeezed.updateDpR (fl 53) 4 .dp_rate { Ex.ctxD 1 with dt := 1 / 50 } (fun _ _ => .fin 0) = .ok (b', w') ∧
    b' = b ∧ b.dstress 0 1 = b.dstress 1 0 ∧ b.dstress 0 1 * Ex.squeezed.stress 0 1 < 0 ∧
    0 < excessR (fl 53) (Ex.ctxD 1).ops (Ex.ctxD 1).mat0 (-block2 Ex.squeezed.stress) ∧
    b.dstress 0 1 ≠ Ex.aim ∧ |b.dstress 0 1 - Ex.aim| ≤ gam (1 / 2 ^ 53) 14 * Ex.aimSize := by
  have hr := c136_bits (K := ℚ) (p := 53) (by decide)
  have h : Ex.okAnd (Ex.squeezed.updateDpR (N := 12) (fl 53) 4 .dp_rate (Ex.ctxD 1) (fun _ _ => .fin 0)) (fun a =>
      Ex.okAnd (Ex.squeezed.updateDpR (N := 12) (fl 53) 4 .dp_rate { Ex.ctxD 1 with dt := 1 / 50 }
        (fun _ _ => .fin 0)) fun _ => decide (a.1.dstress 0 1 ≠ 0 ∧ a.1.dstress 0 1 ≠ Ex.aim)) = true := by
    decide +kernel
  obtain ⟨⟨b, w⟩, h1, h⟩ := Ex.okAnd_ok h
  obtain ⟨⟨b', w'⟩, h2, h⟩ := Ex.okAnd_ok h
  obtain ⟨k1, k2⟩ := of_decide_eq_true h
  have hs : Ex.squeezed.stress 0 1 ≠ 0 := by decide +kernel
  refine ⟨b, b', w, w', h1, h2, c150_no_time (fl_zero 53) rfl h1 h2, c150_symmetric rfl rfl h1,
    lt_of_le_of_ne (c150_direction hr (fun x => abs_nonneg x) (by decide +kernel) (by decide +kernel)
      (by decide +kernel) (fun _ _ => rfl) h1) (mul_ne_zero k1 hs), by decide +kernel, k2,
    (c150_increment hr h1).1 0 1⟩

/-- C150.  Below and above yield, in binary64. -/
example : ∃ b b' : Particle ℚ 2, ∃ w w' : Vis → Fin 12 → XF ℚ,
    Ex.kneaded.updateDpR (fl 53) 4 .dp_rate (Ex.ctxD 3) (fun _ _ => .fin 0) = .ok (b, w) ∧
    Ex.kneaded.updateDpR (fl 53) 4 .dp_rate (Ex.ctxD 1) (fun _ _ => .fin 0) = .ok (b', w') ∧
    b.yieldfunction < 0 ∧ 0 < b'.yieldfunction ∧
    0 < excessR (fl 53) (Ex.ctxD 1).ops (Ex.ctxD 1).mat0 (-block2 Ex.kneaded.stress) ∧
    b.dstress 0 0 ≠ 2 * (Ex.ctxD 3).mat0.Gs * planeDev Ex.kneaded.dstrain 0 0 +
        (Ex.ctxD 3).mat0.Kb * (Ex.kneaded.dstrain 0 0 + Ex.kneaded.dstrain 1 1) ∧
    |b.dstress 0 0 - (2 * (Ex.ctxD 3).mat0.Gs * planeDev Ex.kneaded.dstrain 0 0 +
        (Ex.ctxD 3).mat0.Kb * (Ex.kneaded.dstrain 0 0 + Ex.kneaded.dstrain 1 1))| ≤
      gam (1 / 2 ^ 53) 14 * (|2 * (Ex.ctxD 3).mat0.Gs| * planeSize Ex.kneaded.dstrain 0 0 +
        |(Ex.ctxD 3).mat0.Kb| * (|Ex.kneaded.dstrain 0 0| + |Ex.kneaded.dstrain 1 1|)) := by
  have hr := c136_bits (K := ℚ) (p := 53) (by decide)
  have h : Ex.okAnd (Ex.kneaded.updateDpR (N := 12) (fl 53) 4 .dp_rate (Ex.ctxD 3) (fun _ _ => .fin 0)) (fun a =>
      Ex.okAnd (Ex.kneaded.updateDpR (N := 12) (fl 53) 4 .dp_rate (Ex.ctxD 1)
        (fun _ _ => .fin 0)) fun b => decide (a.1.yieldfunction < 0 ∧ 0 < b.1.yieldfunction ∧
        a.1.dstress 0 0 ≠ 2 * (Ex.ctxD 3).mat0.Gs * planeDev Ex.kneaded.dstrain 0 0 +
        (Ex.ctxD 3).mat0.Kb * (Ex.kneaded.dstrain 0 0 + Ex.kneaded.dstrain 1 1))) = true := by
    decide +kernel
  obtain ⟨⟨b, w⟩, h1, h⟩ := Ex.okAnd_ok h
  obtain ⟨⟨b', w'⟩, h2, h⟩ := Ex.okAnd_ok h
  obtain ⟨k1, k2, k3⟩ := of_decide_eq_true h
  have one := fl_one' (K := ℚ) (p := 53) (by decide)
  exact ⟨b, b', w, w', h1, h2, k1, k2,
    (c150_yield hr one rfl (by decide +kernel) (by decide +kernel) h2).2 k2, k3,
    (c150_yield hr one rfl (by decide +kernel) (by decide +kernel) h1).1 k1 0 0⟩

/-- The three bodies of C148 and one of `dp_rate`. -/
def Ex.quartet (mp : Particle ℚ 2) : List (PhaseSt ℚ 2) :=
  { ph := { Ex.ph with n := 1, law := .dp_rate }, pts := [mp] } :: Ex.trio mp

/-- C150.  Two steps without rounding of bodies of four laws. -/
example : ∃ (G : Grid ℚ Ex.par.G.N Ex.par.G.ns) (s t : St Ex.par),
    mkGridR id Ex.par.G Ex.par.B = .ok G ∧
    stepsR id (Besides.every id Ex.par) 2 { dyn := Ex.dyn, L := Ex.quartet Ex.mpP, G := G } = .ok s ∧
    steps Ex.par (Ex.noInterp _) 2 { dyn := Ex.dyn, L := Ex.quartet Ex.mpP, G := G } = .ok t ∧
    t.L = s.L ∧ t.dyn = s.dyn ∧ ∃ mp ∈ points s.L, mp.yieldfunction ≠ 0 := by
  have h : Ex.okAnd (mkGridR id Ex.par.G Ex.par.B) (fun G =>
      Ex.okAnd (stepsR id (Besides.every id Ex.par) 2
        { dyn := Ex.dyn, L := Ex.quartet Ex.mpP, G := G }) fun s =>
      (points s.L).any fun mp => decide (mp.yieldfunction ≠ 0)) = true := by decide +kernel
  obtain ⟨G, h1, h⟩ := Ex.okAnd_ok h
  obtain ⟨s, h2, h⟩ := Ex.okAnd_ok h
  obtain ⟨p, hp, h3⟩ := List.any_eq_true.1 h
  have e := c150_run (P := Ex.par) (Ex.noInterp _) rfl ⟨rfl, rfl, rfl, rfl⟩
    { dyn := Ex.dyn, L := Ex.quartet Ex.mpP, G := G } 2
  rw [h2] at e
  rcases ht : steps Ex.par (Ex.noInterp _) 2 { dyn := Ex.dyn, L := Ex.quartet Ex.mpP, G := G } with _ | t
  · rw [ht] at e; cases e
  · rw [ht] at e
    have e' := Except.ok.inj e
    exact ⟨G, s, t, h1, h2, ht, congrArg Prod.snd e', congrArg Prod.fst e', p, hp, of_decide_eq_true h3⟩

/-- C150.  A stressed body of `dp_rate` among the others moving against floor and wall, in binary64. -/
example : ∃ (G : Grid ℚ Ex.parCalm.G.N Ex.parCalm.G.ns) (s : St Ex.parCalm),
    mkGridR (fl 53) Ex.parCalm.G Ex.parCalm.B = .ok G ∧
    stepsR (fl 53) (Besides.every (fl 53) Ex.parCalm) 1
      { dyn := Ex.dyn, L := Ex.quartet { Ex.thrown with stress := Ex.mpP.stress }, G := G } = .ok s ∧
    List.Forall₂ (fun a a' => a'.ph = a.ph ∧ List.Forall₂ (fun mp mp' => mp'.V = mp.V ∧ mp'.phi = mp.phi ∧
      (a.ph.law ≠ .elastic_time → mp'.m = mp.m)) a.pts a'.pts)
      (Ex.quartet { Ex.thrown with stress := Ex.mpP.stress }) s.L ∧
    s.G.q (⟨0, by decide⟩ : Fin 9) 0 = 0 ∧ s.G.q (⟨0, by decide⟩ : Fin 9) 1 = 0 ∧
    s.G.q (⟨4, by decide⟩ : Fin 9) 0 ≠ 0 := by
  have h : Ex.okAnd (mkGridR (fl 53) Ex.parCalm.G Ex.parCalm.B) (fun G =>
      (G.boundary_v (⟨0, by decide⟩ : Fin 9) && G.boundary_h (⟨0, by decide⟩ : Fin 9)) &&
      Ex.okAnd (stepsR (fl 53) (Besides.every (fl 53) Ex.parCalm) 1
        { dyn := Ex.dyn, L := Ex.quartet { Ex.thrown with stress := Ex.mpP.stress }, G := G }) fun s =>
      decide (s.G.q (⟨4, by decide⟩ : Fin 9) 0 ≠ 0)) = true := by decide +kernel
  obtain ⟨G, h1, h⟩ := Ex.okAnd_ok h
  obtain ⟨hb, h⟩ := Bool.and_eq_true_iff.1 h
  obtain ⟨hb1, hb2⟩ := Bool.and_eq_true_iff.1 hb
  obtain ⟨s, h2, h⟩ := Ex.okAnd_ok h
  obtain ⟨w1, w2⟩ := c150_walls (fl_zero 53) rfl h2 (⟨0, by decide⟩ : Fin 9)
  refine ⟨G, s, h1, h2, c150_bodies (s := { dyn := Ex.dyn, L := _, G := G }) ⟨rfl, rfl, rfl, rfl⟩ ?_ ?_ ?_ h2,
    (w1 hb1 fun h => by cases h).2, (w2 hb2).2, of_decide_eq_true h⟩
  · exact List.forall_mem_cons.2 ⟨rfl, Ex.trio_counted _⟩
  · exact (List.forall_mem_cons (p := fun a : PhaseSt ℚ 2 => a.ph.law ≠ .rigid)).2
      ⟨(fun e => by cases e), Ex.trio_soft _⟩
  · intro mp hmp
    have : mp ∈ [{ Ex.thrown with stress := Ex.mpP.stress }] ++
      points (Ex.trio { Ex.thrown with stress := Ex.mpP.stress }) := hmp
    have e : mp = { Ex.thrown with stress := Ex.mpP.stress } := by
      rcases List.mem_append.1 this with h | h
      · exact List.mem_singleton.1 h
      · exact Ex.trio_pts _ h
    exact ⟨![fl 53 (-1/3), fl 53 (-1/7), 0], by rw [e]; rfl⟩

/-- C150.  The other bodies at rest. -/
example : ∃ (G : Grid ℚ Ex.parCalm.G.N Ex.parCalm.G.ns) (s : St Ex.parCalm),
    mkGridR (fl 53) Ex.parCalm.G Ex.parCalm.B = .ok G ∧
    stepsR (fl 53) (Besides.every (fl 53) Ex.parCalm) 1 { dyn := Ex.dyn, L := Ex.trio Ex.idle, G := G } = .ok s ∧
    List.Forall₂ (fun mp mp' => mp'.x = mp.x ∧ AtRestR (fl 53) mp') (points (Ex.trio Ex.idle))
      (points s.L) := by
  have h : Ex.okAnd (mkGridR (fl 53) Ex.parCalm.G Ex.parCalm.B) (fun G =>
      Ex.okAnd (stepsR (fl 53) (Besides.every (fl 53) Ex.parCalm) 1
        { dyn := Ex.dyn, L := Ex.trio Ex.idle, G := G }) fun s => true) = true := by decide +kernel
  obtain ⟨G, h1, h⟩ := Ex.okAnd_ok h
  obtain ⟨s, h2, -⟩ := Ex.okAnd_ok h
  refine ⟨G, s, h1, h2, c150_rest (s := { dyn := Ex.dyn, L := Ex.trio Ex.idle, G := G })
    (fl_zero 53) ⟨rfl, rfl, rfl, rfl⟩ (fun _ => rfl) rfl rfl rfl
    (fun h => by cases h) (Ex.trio_counted _) (Ex.trio_soft _) ?_ h2⟩
  refine Ex.trio_mem (p := fun a => ∀ mp ∈ a.pts, _) fun law _ mp hmp => ?_
  rw [List.mem_singleton.1 hmp]
  exact ⟨⟨rfl, rfl, rfl, rfl, by decide +kernel⟩, fun _ => ⟨rfl, rfl⟩, fun _ => rfl⟩

end Mpm

import Verif.Model.FloatYield
import Verif.Props.FloatLaw
import Verif.Props.FloatRange

/-!
# C146: `von_mises`, `bingham` and `ken_kamrin` in floating point

With every operation rounded the deviator that `von_mises` stores does not stay traceless, but its trace
grows at most linearly; the stress follows what is stored without accumulating errors.  A Bingham fluid at
rest carries its pressure only, exactly, but rounding can decide whether it yields.  The viscosity of
`ken_kamrin` is its negative cap.
-/

set_option linter.unusedSectionVars false

namespace Mpm
open Spec

section
variable {K : Type} [Field K] [LinearOrder K] [IsStrictOrderedRing K] {ns N nx : ℕ}

/-! ## Without rounding -/

theorem sumProdR_id (A B : Mat K) : sumProdR id A B = frob A B := by
  simp only [sumProdR, frob, id, Fin.sum_univ_three]; ring

theorem shownR_id (mp : Particle K ns) (r : Fin 4) (v : K) :
    shownR id mp r v = .fin (mp.N r) * .fin v * .fin mp.m := rfl

theorem shownRateR_id (dt : K) (mp : Particle K ns) (r : Fin 4) (v : K) :
    shownRateR id dt mp r v = .fin (mp.N r) * (.fin v / .fin dt) * .fin mp.m := by
  simp only [shownRateR, XF.rd_id, id, XF.mul_div_fin]

theorem shearR_exact (mp : Particle K ns) : shearR id mp = mp.dstrain - (mp.dstrain.trace / 3) • (1 : Mat K) := by
  ext i j; simp [shearR, volR, traceR_id]

theorem plasticIncR_id (c : LawCtx K ns) (dev e : Mat K) : plasticIncR id c dev e = (2 * c.mat.Gs) •
    (e - (e.trace / 3) • (1 : Mat K) - (|frob dev (e - (e.trace / 3) • (1 : Mat K))| / (2 * c.mat.k ^ 2) *
      c.ops.pow (c.ops.sqrt (frob dev dev) / (c.ops.sqrt 2 * c.mat.k)) (c.mat.s - 2)) • dev) := by
  ext i j
  simp only [plasticIncR, plasticR, yieldRatioR, normR, sumSqR_id, devR_id, sumProdR_id, id]
  rfl

/-- C146.  With the identity as rounding these are the laws of the exact model. -/
theorem c146_exact {law : Law} (hl : law = .von_mises ∨ law = .bingham ∨ law = .ken_kamrin)
    (c : LawCtx K ns) (mp : Particle K ns) (vis : Vis → Fin N → XF K) :
    mp.updateYieldR id nx law c vis = mp.updateStress nx law c vis := by
  unfold Particle.updateYieldR Particle.updateStress
  simp only [applyStressR_id]
  rcases hl with rfl | rfl | rfl
  · simp only [yieldLawR, runLaw, lawVonMises, normR, sumSqR_id, id]
    split_ifs
    · rfl
    · rfl
    · rfl
    · have e : vonMisesR id c mp = (let de_kk := mp.dstrain.trace
        let de_ij := mp.dstrain - (de_kk / 3) • (1 : Mat K)
        let dsigma_kk := 3 * c.mat.Kb * de_kk
        let dev_work_norm := |frob mp.dev_stress de_ij|
        let dev_stress_norm := c.ops.sqrt (frob mp.dev_stress mp.dev_stress)
        let ratio := dev_stress_norm / (c.ops.sqrt 2 * c.mat.k)
        let dev_dstress : Mat K := (2 * c.mat.Gs) •
          (de_ij - (dev_work_norm / (2 * c.mat.k ^ 2) * c.ops.pow ratio (c.mat.s - 2)) • mp.dev_stress)
        let sigma_kk := mp.sigma_kk + dsigma_kk
        let dev_stress := mp.dev_stress + dev_dstress
        { mp with
          sigma_kk := sigma_kk
          dev_stress := dev_stress
          dstress := (dev_stress + (sigma_kk / 3) • (1 : Mat K)) - mp.stress
          yieldfunction := ratio - 1
          gammadot := c.ops.sqrt (frob de_ij de_ij)
          pressure := mp.stress.trace / 3
          sigmav := mp.stress 1 1
          sigmah := mp.stress 0 0 }) := by
        have h1 : plasticDevR id c mp.dev_stress mp.dstrain =
            mp.dev_stress + plasticIncR id c mp.dev_stress mp.dstrain := rfl
        simp only [vonMisesR, h1, plasticIncR_id, yieldRatioR, normR, sumSqR_id, devR_id, traceR_id, id]
        congr 1
        ext i j
        simp only [Matrix.sub_apply, Matrix.add_apply, Matrix.smul_apply, smul_eq_mul]
        ring
      rw [e, plasticIncR_id]
      refine congrArg (fun x => x >>= fun v => (pure (_, v) : Res _)) (scatterVisR_id (fun r => ?_) vis)
      simp only [vonMisesVisR, shownR_id, shownRateR_id, normR, sumSqR_id, id, List.map_cons, List.map_nil]
  · have hv : ∀ i j, volumetricR id c mp i j =
        (c.mat.mu_v * (mp.dstrain.trace / 3) / c.dt) * (1 : Mat K) i j := by
      intro i j; simp only [volumetricR, volR, traceR_id, id]; ring
    have hg : binghamRateR id c mp = c.ops.sqrt (frob (mp.dstrain - (mp.dstrain.trace / 3) • (1 : Mat K))
        (mp.dstrain - (mp.dstrain.trace / 3) • (1 : Mat K))) / c.dt := by
      simp only [binghamRateR, normR, sumSqR_id, shearR_exact, id]
    have key : ∀ f : K, binghamR id c mp f = { mp with
        de_ij := mp.dstrain - (mp.dstrain.trace / 3) • (1 : Mat K)
        gammadot := binghamRateR id c mp
        pressure := mp.pressure + c.mat.Kb * (mp.dstrain.trace / 3)
        dev_stress := (f / c.dt) • (mp.dstrain - (mp.dstrain.trace / 3) • (1 : Mat K))
        stress := (mp.pressure + c.mat.Kb * (mp.dstrain.trace / 3)) • (1 : Mat K) +
          (f / c.dt) • (mp.dstrain - (mp.dstrain.trace / 3) • (1 : Mat K)) -
          (c.mat.mu_v * (mp.dstrain.trace / 3) / c.dt) • (1 : Mat K) } := by
      intro f
      have h2 : (fun i j => f * (mp.dstrain - (mp.dstrain.trace / 3) • (1 : Mat K)) i j / c.dt : Mat K) =
          (f / c.dt) • (mp.dstrain - (mp.dstrain.trace / 3) • (1 : Mat K)) := by
        ext i j; simp only [Matrix.smul_apply, smul_eq_mul]; ring
      simp only [binghamR, shearR_exact, id, hv, pressureR, volR, traceR_id]
      rw [h2]
      congr 1
      ext i j
      simp only [Matrix.sub_apply, Matrix.add_apply, Matrix.smul_apply, smul_eq_mul]
      ring
    have fin : ∀ f : K, (scatterVisR id nx (binghamR id c mp f) (viscousVisR id c.ops (binghamR id c mp f)) vis) =
        scatterVis nx (binghamR id c mp f) [(.pressure, .fin (binghamR id c mp f).pressure), (.dev_stress,
          .fin (c.ops.sqrt (frob (binghamR id c mp f).dev_stress (binghamR id c mp f).dev_stress)))] vis :=
      fun f => scatterVisR_id (fun r => by
        simp only [viscousVisR, sumSqR_id, id, List.map_cons, List.map_nil]; rfl) vis
    simp only [yieldLawR, runLaw, lawBingham]
    by_cases hdt : c.dt = 0
    · simp only [hdt, if_true]; rfl
    rw [if_neg hdt, if_neg hdt]
    rcases hm : c.mat.mu_0.num with _ | mu_0
    · rfl
    simp only [hg, binghamFactorR, id]
    rw [hg] at key
    by_cases h1 : c.ops.sqrt (frob (mp.dstrain - (mp.dstrain.trace / 3) • (1 : Mat K))
        (mp.dstrain - (mp.dstrain.trace / 3) • (1 : Mat K))) / c.dt ≤ c.mat.gamma_c
    · simp only [if_pos h1]
      refine (congrArg (fun x => x >>= fun v => (pure (_, v) : Res _)) (fin _)).trans ?_
      rw [key]
      rfl
    simp only [if_neg h1]
    by_cases h2 : c.ops.sqrt (frob (mp.dstrain - (mp.dstrain.trace / 3) • (1 : Mat K))
        (mp.dstrain - (mp.dstrain.trace / 3) • (1 : Mat K))) / c.dt = 0
    · simp only [if_pos h2]; rfl
    simp only [if_neg h2]
    refine (congrArg (fun x => x >>= fun v => (pure (_, v) : Res _)) (fin _)).trans ?_
    rw [key]
    rfl
  · have hk : kenRatesR id c mp = (2 / c.dt) • (mp.dstrain - (mp.dstrain.trace / 3) • (1 : Mat K)) := by
      ext i j
      simp only [kenRatesR, shearR_exact, id, Matrix.smul_apply, smul_eq_mul]
      ring
    have hr : kenRateR id c mp = max (c.ops.sqrt (1 / 2 * frob ((2 / c.dt) • (mp.dstrain -
        (mp.dstrain.trace / 3) • (1 : Mat K))) ((2 / c.dt) • (mp.dstrain -
        (mp.dstrain.trace / 3) • (1 : Mat K))))) (1 / 10 ^ 5) := by
      simp only [kenRateR, hk, sumSqR_id, id]
    have he : ∀ a b d e : K, kenEtaR id c a b d e = kenKamrinEta c a b d e := by
      intro a b d e
      simp only [kenEtaR, kenKamrinEta, kenCapR, XF.rd_id, id]
    have key : ∀ I_0 : K, kenKamrinR id c mp I_0 = { mp with
        de_ij := mp.dstrain - (mp.dstrain.trace / 3) • (1 : Mat K)
        pressure := mp.pressure + c.mat.Kb * (mp.dstrain.trace / 3)
        gammadot := kenRateR id c mp
        dev_stress := kenKamrinEta c I_0 (mp.pressure + c.mat.Kb * (mp.dstrain.trace / 3))
          (kenRateR id c mp) mp.rho • ((2 / c.dt) • (mp.dstrain - (mp.dstrain.trace / 3) • (1 : Mat K)))
        dstress := (mp.pressure + c.mat.Kb * (mp.dstrain.trace / 3)) • (1 : Mat K) +
          kenKamrinEta c I_0 (mp.pressure + c.mat.Kb * (mp.dstrain.trace / 3))
          (kenRateR id c mp) mp.rho • ((2 / c.dt) • (mp.dstrain - (mp.dstrain.trace / 3) • (1 : Mat K))) -
          (c.mat.mu_v * (mp.dstrain.trace / 3) / c.dt) • (1 : Mat K) - mp.stress } := by
      intro I_0
      simp only [kenKamrinR, shearR_exact, id, pressureR, volR, traceR_id, he, hk, volumetricR]
      congr 1
      ext i j
      simp only [Matrix.sub_apply, Matrix.add_apply, Matrix.smul_apply, smul_eq_mul]
      ring
    simp only [yieldLawR, runLaw, lawKenKamrin]
    by_cases hdt : c.dt = 0
    · simp only [hdt, if_true]; rfl
    rw [if_neg hdt, if_neg hdt]
    rcases hm : c.mat.I_0.num with _ | I_0
    · rfl
    have fin : scatterVisR id nx (kenKamrinR id c mp I_0) (fun r =>
        [(.pressure, shownR id (kenKamrinR id c mp I_0) r (kenKamrinR id c mp I_0).pressure),
          (.gammadot, shownRateR id c.dt (kenKamrinR id c mp I_0) r (kenKamrinR id c mp I_0).gammadot),
          (.dev_stress, shownR id (kenKamrinR id c mp I_0) r
            (normR id c.ops (kenKamrinR id c mp I_0).dev_stress))]) vis =
        scatterVis nx (kenKamrinR id c mp I_0) [(.pressure, .fin (kenKamrinR id c mp I_0).pressure),
          (.gammadot, .fin (kenKamrinR id c mp I_0).gammadot / .fin c.dt), (.dev_stress,
          .fin (c.ops.sqrt (frob (kenKamrinR id c mp I_0).dev_stress (kenKamrinR id c mp I_0).dev_stress)))]
          vis :=
      scatterVisR_id (fun r => by
        simp only [shownR_id, shownRateR_id, normR, sumSqR_id, id, List.map_cons, List.map_nil]) vis
    refine (congrArg (fun x => x >>= fun v => (pure (_, v) : Res _)) fin).trans ?_
    rw [key, hr]
    rfl

/-! ## What a step gives -/

variable {rnd : K → K} {u : K}

/-- The three laws, inverted. -/
theorem yieldLawR_ok {law : Law} {c : LawCtx K ns} {mp : Particle K ns} {x : LawResR K ns}
    (h : yieldLawR rnd law c mp = .ok x) :
    (law = .von_mises ∧ 0 < c.mat.k ∧ x.1 = vonMisesR rnd c mp) ∨
    (law = .bingham ∧ c.dt ≠ 0 ∧ ∃ mu_0 f, c.mat.mu_0.num = .ok mu_0 ∧
      binghamFactorR rnd c mu_0 (binghamRateR rnd c mp) = .ok f ∧ x.1 = binghamR rnd c mp f) ∨
    (law = .ken_kamrin ∧ c.dt ≠ 0 ∧ ∃ I_0, c.mat.I_0.num = .ok I_0 ∧ x.1 = kenKamrinR rnd c mp I_0) := by
  cases law <;> simp only [yieldLawR] at h <;> try cases h
  · split_ifs at h with h1 h2 h3
    cases h
    exact .inl ⟨rfl, lt_of_le_of_ne (not_lt.1 h2) (Ne.symm h1), rfl⟩
  · split_ifs at h with h1
    obtain ⟨mu_0, h2, h⟩ := res_bind_ok.1 h
    obtain ⟨f, h3, h⟩ := res_bind_ok.1 h
    cases h
    exact .inr (.inl ⟨rfl, h1, mu_0, f, h2, h3, rfl⟩)
  · split_ifs at h with h1
    obtain ⟨I_0, h2, h⟩ := res_bind_ok.1 h
    cases h
    exact .inr (.inr ⟨rfl, h1, I_0, h2, rfl⟩)

theorem updateYieldR_ok {law : Law} {c : LawCtx K ns} {mp b : Particle K ns} {vis w : Vis → Fin N → XF K}
    (h : mp.updateYieldR rnd nx law c vis = .ok (b, w)) :
    ∃ x, yieldLawR rnd law c mp = .ok x ∧ b = x.1.applyStressR rnd c.dt := by
  obtain ⟨x, h1, h2⟩ := res_bind_ok.1 h
  obtain ⟨y, h3, h4⟩ := res_bind_ok.1 h2
  cases h4
  exact ⟨x, h1, rfl⟩

theorem updateYieldR_vonMises {c : LawCtx K ns} {mp b : Particle K ns} {vis w : Vis → Fin N → XF K}
    (h : mp.updateYieldR rnd nx .von_mises c vis = .ok (b, w)) :
    b = (vonMisesR rnd c mp).applyStressR rnd c.dt := by
  obtain ⟨x, h1, rfl⟩ := updateYieldR_ok h
  rcases yieldLawR_ok h1 with ⟨-, -, e⟩ | ⟨e, -⟩ | ⟨e, -⟩
  · rw [e]
  · cases e
  · cases e

theorem updateYieldR_bingham {c : LawCtx K ns} {mp b : Particle K ns} {vis w : Vis → Fin N → XF K}
    (h : mp.updateYieldR rnd nx .bingham c vis = .ok (b, w)) :
    c.dt ≠ 0 ∧ ∃ mu_0 f, c.mat.mu_0.num = .ok mu_0 ∧
      binghamFactorR rnd c mu_0 (binghamRateR rnd c mp) = .ok f ∧
      b = (binghamR rnd c mp f).applyStressR rnd c.dt := by
  obtain ⟨x, h1, rfl⟩ := updateYieldR_ok h
  rcases yieldLawR_ok h1 with ⟨e, -⟩ | ⟨-, h2, mu_0, f, h3, h4, e⟩ | ⟨e, -⟩
  · cases e
  · exact ⟨h2, mu_0, f, h3, h4, by rw [e]⟩
  · cases e

theorem updateYieldR_kenKamrin {c : LawCtx K ns} {mp b : Particle K ns} {vis w : Vis → Fin N → XF K}
    (h : mp.updateYieldR rnd nx .ken_kamrin c vis = .ok (b, w)) :
    c.dt ≠ 0 ∧ ∃ I_0, b = (kenKamrinR rnd c mp I_0).applyStressR rnd c.dt := by
  obtain ⟨x, h1, rfl⟩ := updateYieldR_ok h
  rcases yieldLawR_ok h1 with ⟨e, -⟩ | ⟨e, -⟩ | ⟨-, h2, I_0, -, e⟩
  · cases e
  · cases e
  · exact ⟨h2, I_0, by rw [e]⟩

/-! ## The trace of the von Mises deviator -/

/-- Sizes of the deviator of the strain increment. -/
def Spec.shearSize (e : Mat K) : Mat K := fun i j =>
  |e i j| + diag (e.map abs) * (1 : Mat K) i j / 3

/-- Sizes for the new deviatoric stress: the old one, and the elastic and plastic increments. -/
def Spec.plasticSize (Gs f : K) (dev e : Mat K) : Mat K := fun i j =>
  |dev i j| + 2 * |Gs| * (shearSize e i j + |f * dev i j|)

theorem plasticDevR_app (hr : Rounding rnd u) (c : LawCtx K ns) (dev e : Mat K) (i j : Fin 3) :
    App u 9 (plasticSize c.mat.Gs (plasticR rnd c dev e) dev e i j)
      (dev i j + 2 * c.mat.Gs * (devR id e i j - plasticR rnd c dev e * dev i j))
      (plasticDevR rnd c dev e i j) := by
  have h0 : ∀ i j, App u 0 (e.map abs i j) (e i j) (e i j) := fun i j => App.exact _ le_rfl
  have h1 := devR_app hr h0 i j
  have h2 := (App.exact (u := u) (plasticR rnd c dev e * dev i j) le_rfl).round hr
  have h3 := (h1.sub (h2.weaken hr (k := 0 + 5) (by omega) le_rfl)).round hr
  have h4 := (App.exact (2 * c.mat.Gs) (u := u) le_rfl).round hr
  rw [abs_mul, abs_of_pos (by norm_num : (0 : K) < 2)] at h4
  have h5 := (h4.mul hr h3).round hr
  exact (((App.exact (dev i j) le_rfl).weaken hr (Nat.zero_le _) le_rfl).add
    (h5.weaken hr (k := 8) (by omega) le_rfl)).round hr

/-- C146.  A `von_mises` step multiplies the trace of the stored deviator by the factor of the exact law, up
to a bounded number of roundings. -/
theorem c146_trace (hr : Rounding rnd u) {c : LawCtx K ns} {mp b : Particle K ns}
    {vis w : Vis → Fin N → XF K} (h : mp.updateYieldR rnd nx .von_mises c vis = .ok (b, w)) :
    |b.dev_stress.trace - (1 - 2 * c.mat.Gs * plasticR rnd c mp.dev_stress mp.dstrain) * mp.dev_stress.trace| ≤
      gam u 9 * diag (plasticSize c.mat.Gs (plasticR rnd c mp.dev_stress mp.dstrain) mp.dev_stress mp.dstrain) := by
  rw [updateYieldR_vonMises h]
  have a := plasticDevR_app hr c mp.dev_stress mp.dstrain
  have := (((a 0 0).add (a 1 1)).add (a 2 2)).err
  have e : (vonMisesR rnd c mp).dev_stress = plasticDevR rnd c mp.dev_stress mp.dstrain := rfl
  show |((vonMisesR rnd c mp).dev_stress).trace - _| ≤ _
  rw [e, Matrix.trace_fin_three, Matrix.trace_fin_three]
  refine le_of_eq_of_le (congrArg _ ?_) this
  simp only [devR, traceR, id, Matrix.one_apply_eq]
  ring

/-- C146.  Along any history of strain increments that is not overstable the trace of the deviator grows at
most linearly with the number of steps. -/
theorem c146_drift (hr : Rounding rnd u) {c : LawCtx K ns} {a b : ℕ → Particle K ns}
    {vis w : ℕ → Vis → Fin N → XF K} {n : ℕ}
    (h : ∀ t < n, (a t).updateYieldR rnd nx .von_mises c (vis t) = .ok (b t, w t))
    (hab : ∀ t < n, (a (t + 1)).dev_stress = (b t).dev_stress) {S : K}
    (hf : ∀ t < n, 0 ≤ c.mat.Gs * plasticR rnd c (a t).dev_stress (a t).dstrain ∧
      c.mat.Gs * plasticR rnd c (a t).dev_stress (a t).dstrain ≤ 1)
    (hS : ∀ t < n, diag (plasticSize c.mat.Gs (plasticR rnd c (a t).dev_stress (a t).dstrain) (a t).dev_stress
      (a t).dstrain) ≤ S) :
    |(a n).dev_stress.trace| ≤ |(a 0).dev_stress.trace| + n * (gam u 9 * S) := by
  induction n with
  | zero => simp
  | succ n ih =>
    have ih := ih (fun t ht => h t (ht.trans n.lt_succ_self)) (fun t ht => hab t (ht.trans n.lt_succ_self))
      (fun t ht => hf t (ht.trans n.lt_succ_self)) (fun t ht => hS t (ht.trans n.lt_succ_self))
    have h1 := c146_trace hr (h n n.lt_succ_self)
    rw [hab n n.lt_succ_self]
    have h2 : |(1 - 2 * c.mat.Gs * plasticR rnd c (a n).dev_stress (a n).dstrain) *
        (a n).dev_stress.trace| ≤ |(a n).dev_stress.trace| := by
      rw [abs_mul]
      refine mul_le_of_le_one_left (abs_nonneg _) (abs_le.2 ?_)
      have := hf n n.lt_succ_self
      constructor <;> nlinarith
    have h3 := mul_le_mul_of_nonneg_left (hS n n.lt_succ_self)
      (gam_nonneg hr.nonneg (by have := hr.small; linarith) 9)
    have h4 := abs_sub_abs_le_abs_sub (b n).dev_stress.trace ((1 - 2 * c.mat.Gs *
      plasticR rnd c (a n).dev_stress (a n).dstrain) * (a n).dev_stress.trace)
    push_cast
    linarith

/-! ## Rest -/

/-- C146.  Without strain `von_mises` keeps its deviator and its volumetric stress, exactly. -/
theorem c146_still (z : rnd 0 = 0) {c : LawCtx K ns} {mp b : Particle K ns} {vis w : Vis → Fin N → XF K}
    (h : mp.updateYieldR rnd nx .von_mises c vis = .ok (b, w)) (he : mp.dstrain = 0)
    (hd : ∀ i j, rnd (mp.dev_stress i j) = mp.dev_stress i j) (hs : rnd mp.sigma_kk = mp.sigma_kk) :
    b.dev_stress = mp.dev_stress ∧ b.sigma_kk = mp.sigma_kk := by
  rw [updateYieldR_vonMises h]
  constructor
  · ext i j
    simp [Particle.applyStressR, vonMisesR, plasticDevR, plasticIncR, plasticR, sumProdR, devR, traceR, he, z, hd]
  · simp [Particle.applyStressR, vonMisesR, traceR, he, z, hs]

/-- C146.  A Bingham fluid at rest has no shear stress: its stress is its pressure, exactly. -/
theorem c146_rest (z : rnd 0 = 0) {c : LawCtx K ns} {mp b : Particle K ns} {vis w : Vis → Fin N → XF K}
    (h : mp.updateYieldR rnd nx .bingham c vis = .ok (b, w)) (he : mp.dstrain = 0) (hl : mp.LL = 0)
    (hd : mp.dstress = 0) (hp : rnd mp.pressure = mp.pressure) :
    b.dev_stress = 0 ∧ b.pressure = mp.pressure ∧ b.stress = mp.pressure • (1 : Mat K) := by
  obtain ⟨-, mu_0, f, -, -, rfl⟩ := updateYieldR_bingham h
  have h1 : ∀ i j, rnd (mp.pressure * (1 : Mat K) i j) = mp.pressure * (1 : Mat K) i j := by
    intro i j; rw [Matrix.one_apply]; split_ifs <;> simp [hp, z]
  refine ⟨?_, ?_, ?_⟩
  · ext i j
    simp [Particle.applyStressR, binghamR, shearR, volR, traceR, he, z]
  · simp [Particle.applyStressR, binghamR, pressureR, volR, traceR, he, z, hp]
  · ext i j
    simp [Particle.applyStressR, binghamR, shearR, volR, traceR, pressureR, volumetricR, mdotR, he, hl, hd, z,
      hp, h1]

/-! ## Symmetry -/

variable [FloorRing K]

/-- C146.  Symmetric strains give symmetric stresses, exactly. -/
theorem c146_symmetric {law : Law} {c : LawCtx K ns} {mp b : Particle K ns} {vis w : Vis → Fin N → XF K}
    (h : mp.updateYieldR rnd nx law c vis = .ok (b, w)) (he : ∀ i j, mp.dstrain i j = mp.dstrain j i)
    (hv : ∀ i j, mp.dev_stress i j = mp.dev_stress j i) (hs : ∀ i j, mp.stress i j = mp.stress j i)
    (hd : ∀ i j, mp.dstress i j = mp.dstress j i) :
    (∀ i j, b.dev_stress i j = b.dev_stress j i) ∧ (∀ i j, b.dstress i j = b.dstress j i) ∧
      ((∀ i j, mp.LL i j = mp.LL j i) → ∀ i j, b.stress i j = b.stress j i) := by
  obtain ⟨x, h1, rfl⟩ := updateYieldR_ok h
  have hsh : ∀ i j, shearR rnd mp i j = shearR rnd mp j i := by
    intro i j
    simp only [shearR]
    rw [he i j, mat_one_symm i j]
  have hvol : ∀ i j, volumetricR rnd c mp i j = volumetricR rnd c mp j i := by
    intro i j
    simp only [volumetricR]
    rw [mat_one_symm i j]
  have key : x.1.LL = mp.LL ∧ (∀ i j, x.1.stress i j = x.1.stress j i) ∧
      (∀ i j, x.1.dstress i j = x.1.dstress j i) ∧ ∀ i j, x.1.dev_stress i j = x.1.dev_stress j i := by
    rcases yieldLawR_ok h1 with ⟨-, -, e⟩ | ⟨-, -, mu_0, f, -, -, e⟩ | ⟨-, -, I_0, -, e⟩
    · have hp : ∀ i j, plasticDevR rnd c mp.dev_stress mp.dstrain i j =
          plasticDevR rnd c mp.dev_stress mp.dstrain j i := by
        intro i j
        simp only [plasticDevR, plasticIncR, devR]
        rw [he i j, hv i j, mat_one_symm i j]
      rw [e]
      refine ⟨rfl, hs, fun i j => ?_, hp⟩
      simp only [vonMisesR]
      rw [hp i j, hs i j, mat_one_symm i j]
    · rw [e]
      refine ⟨rfl, fun i j => ?_, hd, fun i j => ?_⟩
      · simp only [binghamR]
        rw [hsh i j, hvol i j, mat_one_symm i j]
      · simp only [binghamR]
        rw [hsh i j]
    · have hk : ∀ i j, kenRatesR rnd c mp i j = kenRatesR rnd c mp j i := by
        intro i j
        simp only [kenRatesR]
        rw [hsh i j]
      rw [e]
      refine ⟨rfl, hs, fun i j => ?_, fun i j => ?_⟩
      · simp only [kenKamrinR]
        rw [hk i j, hvol i j, hs i j, mat_one_symm i j]
      · simp only [kenKamrinR]
        rw [hk i j]
  refine ⟨key.2.2.2, key.2.2.1, fun hl => applyStressR_symm key.2.1 key.2.2.1 ?_⟩
  rw [key.1]; exact hl

/-! ## The stress a law aims at -/

/-- C146.  After a step without rotation the stress is the stored deviator and volumetric stress up to five
roundings, whatever the history: errors of the stress do not accumulate. -/
theorem c146_target (hr : Rounding rnd u) {c : LawCtx K ns} {mp b : Particle K ns}
    {vis w : Vis → Fin N → XF K} (h : mp.updateYieldR rnd nx .von_mises c vis = .ok (b, w)) (hl : mp.LL = 0)
    (i j : Fin 3) :
    |b.stress i j - (b.dev_stress i j + b.sigma_kk / 3 * (1 : Mat K) i j)| ≤
      gam u 5 * (|b.dev_stress i j| + |b.sigma_kk| / 3 * (1 : Mat K) i j + 2 * |mp.stress i j|) := by
  have hb := updateYieldR_vonMises h
  have z := hr.zero
  have e1 : b.dev_stress = (vonMisesR rnd c mp).dev_stress := by rw [hb]; rfl
  have e2 : b.sigma_kk = (vonMisesR rnd c mp).sigma_kk := by rw [hb]; rfl
  have e3 : b.stress i j = rnd (mp.stress i j + rnd (rnd (rnd ((vonMisesR rnd c mp).dev_stress i j +
      rnd (rnd ((vonMisesR rnd c mp).sigma_kk * (1 : Mat K) i j) / 3)) - mp.stress i j))) := by
    rw [hb]
    simp [Particle.applyStressR, vonMisesR, mdotR, hl, z]
  rw [e3, e1, e2]
  generalize (vonMisesR rnd c mp).dev_stress i j = d
  generalize (vonMisesR rnd c mp).sigma_kk = σ
  generalize mp.stress i j = s
  rw [hr.fix]
  have h1 := (((App.exact (u := u) (σ * (1 : Mat K) i j) le_rfl).round hr).over hr 3).round hr
  rw [abs_mul, one_abs, abs_of_pos (by norm_num : (0 : K) < 3)] at h1
  have h2 := (((App.exact (u := u) d le_rfl).weaken hr (Nat.zero_le _) le_rfl).add h1).round hr
  have hs : ∀ k, App u k |s| s s := fun k => (App.exact s le_rfl).weaken hr (Nat.zero_le _) le_rfl
  have h3 := ((hs _).add ((h2.sub (hs _)).round hr)).round hr
  have := h3.err
  refine (le_of_eq (congrArg _ ?_)).trans (this.trans (le_of_eq ?_))
  · ring
  · ring

/-- Two floats within a factor of two of each other have a float as difference (Sterbenz). -/
theorem isFloat_sub {p : ℕ} {x y : K} (hx : IsFloat p x) (hy : IsFloat p y) (h1 : y ≤ 2 * x) (h2 : x ≤ 2 * y) :
    IsFloat p (x - y) := by
  have key : ∀ {x y : K}, (∃ m n e : ℤ, ∃ k : ℕ, |m| < 2 ^ p ∧ x = m * 2 ^ e ∧ y = n * 2 ^ (e + k)) →
      y ≤ 2 * x → x ≤ 2 * y → IsFloat p (x - y) := by
    rintro x y ⟨m, n, e, k, hm, rfl, rfl⟩ h1 h2
    have he : (0 : K) < 2 ^ e := two_zpow_pos _
    have e1 : (n : K) * 2 ^ (e + k : ℤ) = ((n * 2 ^ k : ℤ) : K) * 2 ^ e := by
      rw [zpow_add₀ (by norm_num), zpow_natCast]; push_cast; ring
    rw [e1] at h1 h2 ⊢
    refine ⟨m - n * 2 ^ k, e, ?_, by push_cast; ring⟩
    have a1 : n * 2 ^ k ≤ 2 * m := by
      have : ((n * 2 ^ k : ℤ) : K) ≤ ((2 * m : ℤ) : K) := by
        refine le_of_mul_le_mul_right ?_ he
        push_cast at h1 ⊢
        linarith
      exact_mod_cast this
    have a2 : m ≤ 2 * (n * 2 ^ k) := by
      have : ((m : ℤ) : K) ≤ ((2 * (n * 2 ^ k) : ℤ) : K) := by
        refine le_of_mul_le_mul_right ?_ he
        push_cast at h2 ⊢
        linarith
      exact_mod_cast this
    refine lt_of_le_of_lt ?_ hm
    rw [abs_of_nonneg (by omega : (0 : ℤ) ≤ m)]
    exact abs_le.2 ⟨by omega, by omega⟩
  obtain ⟨m, e, hm, rfl⟩ := hx
  obtain ⟨n, f, hn, rfl⟩ := hy
  rcases le_total e f with hef | hef
  · obtain ⟨k, rfl⟩ := Int.le.dest hef
    exact key ⟨m, n, e, k, hm, rfl, rfl⟩ h1 h2
  · obtain ⟨k, rfl⟩ := Int.le.dest hef
    obtain ⟨l, g, hl, e2⟩ := key ⟨n, m, f, k, hn, rfl, rfl⟩ h2 h1
    exact ⟨-l, g, by rwa [abs_neg], by push_cast; linarith⟩

/-- C146.  With `p` bits the stress becomes exactly the sum of the stored deviator and volumetric stress
(rounded) as soon as it is within a factor of two of it. -/
theorem c146_settles {p : ℕ} (hp : 1 ≤ p) {c : LawCtx K ns} {mp b : Particle K ns}
    {vis w : Vis → Fin N → XF K} (h : mp.updateYieldR (fl p) nx .von_mises c vis = .ok (b, w)) (hl : mp.LL = 0)
    {i j : Fin 3} (hs : IsFloat p (mp.stress i j))
    (h2 : let T := fl p (b.dev_stress i j + fl p (fl p (b.sigma_kk * (1 : Mat K) i j) / 3))
      (T ≤ 2 * mp.stress i j ∧ mp.stress i j ≤ 2 * T) ∨ (2 * mp.stress i j ≤ T ∧ 2 * T ≤ mp.stress i j)) :
    b.stress i j = fl p (b.dev_stress i j + fl p (fl p (b.sigma_kk * (1 : Mat K) i j) / 3)) := by
  have hb := updateYieldR_vonMises h
  have hr : Rounding (fl p) (1 / 2 ^ p : K) := c136_bits hp
  have e1 : b.dev_stress = (vonMisesR (fl p) c mp).dev_stress := by rw [hb]; rfl
  have e2 : b.sigma_kk = (vonMisesR (fl p) c mp).sigma_kk := by rw [hb]; rfl
  have e3 : b.stress i j = fl p (mp.stress i j + fl p (fl p (fl p ((vonMisesR (fl p) c mp).dev_stress i j +
      fl p (fl p ((vonMisesR (fl p) c mp).sigma_kk * (1 : Mat K) i j) / 3)) - mp.stress i j))) := by
    rw [hb]
    simp [Particle.applyStressR, vonMisesR, mdotR, hl, fl_zero]
  rw [← e1, ← e2, hr.fix] at e3
  have hT := c136_float hp (b.dev_stress i j + fl p (fl p (b.sigma_kk * (1 : Mat K) i j) / 3))
  rw [e3]
  revert h2 hT
  generalize fl p (b.dev_stress i j + fl p (fl p (b.sigma_kk * (1 : Mat K) i j) / 3)) = T
  intro h2 hT
  have hd : IsFloat p (T - mp.stress i j) := by
    rcases h2 with ⟨h2, h3⟩ | ⟨h2, h3⟩
    · exact isFloat_sub hT hs h3 h2
    · have neg : ∀ {x : K}, IsFloat p x → IsFloat p (-x) := by
        rintro x ⟨m, e, hm, rfl⟩
        exact ⟨-m, e, by rwa [abs_neg], by push_cast; ring⟩
      have := isFloat_sub (neg hs) (neg hT) (by linarith) (by linarith)
      rwa [neg_sub_neg] at this
  rw [fl_of_isFloat hp hd, add_sub_cancel, fl_of_isFloat hp hT]

/-! ## Bingham -/

theorem shearR_app (hr : Rounding rnd u) (mp : Particle K ns) (i j : Fin 3) :
    App u 5 (shearSize mp.dstrain i j) (shearR id mp i j) (shearR rnd mp i j) := by
  have h : ∀ i j, App u 0 (mp.dstrain.map abs i j) (mp.dstrain i j) (mp.dstrain i j) :=
    fun i j => App.exact _ le_rfl
  have t := ((traceR_app hr h).over hr 3).round hr
  rw [abs_of_pos (by norm_num : (0 : K) < 3)] at t
  have o := (one_abs (K := K) i j) ▸ (t.times hr ((1 : Mat K) i j)).round hr
  have e := (((h i j).weaken hr (Nat.zero_le _) le_rfl).sub o).round hr
  refine e.weaken hr le_rfl (le_of_eq ?_)
  simp only [shearSize, Matrix.map_apply]
  ring

/-- C146.  The shear stress of a Bingham fluid is that of the branch its own computed shear rate selects, up
to ten roundings. -/
theorem c146_bingham (hr : Rounding rnd u) {c : LawCtx K ns} {mp b : Particle K ns}
    {vis w : Vis → Fin N → XF K} (h : mp.updateYieldR rnd nx .bingham c vis = .ok (b, w)) :
    ∃ mu_0, c.mat.mu_0.num = .ok mu_0 ∧ ∀ i j,
      (b.gammadot ≤ c.mat.gamma_c →
        |b.dev_stress i j - 2 * mu_0 * dev3 mp.dstrain i j / c.dt| ≤
          gam u 10 * (2 * |mu_0| * shearSize mp.dstrain i j / |c.dt|)) ∧
      (c.mat.gamma_c < b.gammadot → b.gammadot ≠ 0 ∧
        |b.dev_stress i j - 2 * (c.mat.mu_s + c.mat.tau_0 / b.gammadot) * dev3 mp.dstrain i j / c.dt| ≤
          gam u 10 * (2 * (|c.mat.mu_s| + |c.mat.tau_0 / b.gammadot|) * shearSize mp.dstrain i j /
            |c.dt|)) := by
  obtain ⟨-, mu_0, f, hm, hf, hb⟩ := updateYieldR_bingham h
  have e1 : b.dev_stress = (binghamR rnd c mp f).dev_stress := by rw [hb]; rfl
  have e2 : b.gammadot = binghamRateR rnd c mp := by rw [hb]; rfl
  have e3 : shearR id mp = dev3 mp.dstrain := shearR_exact mp
  have go : ∀ {k : ℕ} {C F : K}, k ≤ 3 → App u k C F f → ∀ i j,
      |b.dev_stress i j - F * dev3 mp.dstrain i j / c.dt| ≤
        gam u 10 * (C * shearSize mp.dstrain i j / |c.dt|) := by
    intro k C F hk hF i j
    have := ((((hF.mul hr (shearR_app hr mp i j)).round hr).over hr c.dt).round hr).weaken hr
      (k := 10) (by omega) le_rfl
    rw [e3] at this
    rw [e1]
    exact this.err
  refine ⟨mu_0, hm, fun i j => ⟨fun h1 => ?_, fun h1 => ?_⟩⟩
  · rw [e2] at h1
    simp only [binghamFactorR, if_pos h1] at hf
    cases hf
    have := (App.exact (2 * mu_0) (u := u) le_rfl).round hr
    rw [abs_mul, abs_of_pos (by norm_num : (0 : K) < 2)] at this
    exact go (by norm_num) this i j
  · rw [e2] at h1
    simp only [binghamFactorR, if_neg h1.not_ge] at hf
    split_ifs at hf with h2
    cases hf
    rw [e2]
    refine ⟨h2, ?_⟩
    have h3 := (App.exact (c.mat.tau_0 / binghamRateR rnd c mp) (u := u) le_rfl).round hr
    have h4 := (((App.exact c.mat.mu_s le_rfl).weaken hr (Nat.zero_le _) le_rfl).add h3).round hr
    have h5 := ((App.exact (2 : K) (u := u) (abs_of_pos (by norm_num)).le).mul hr h4).round hr
    exact go (by norm_num) h5 i j

/-! ## ken_kamrin -/

/-- C146.  Under downward gravity the viscosity of `ken_kamrin` is its (negative) cap with rounding as well:
the shear stress is that of the viscosity `250*rho*max_g*H^3` up to a bounded number of roundings, whatever
the pressure and the friction, and points against the shear. -/
theorem c146_cap (hr : Rounding rnd u) {c : LawCtx K ns} {mp b : Particle K ns}
    {vis w : Vis → Fin N → XF K} (h : mp.updateYieldR rnd nx .ken_kamrin c vis = .ok (b, w))
    (hg : c.max_g < 0) (hρ : 0 < mp.rho) (hH : 0 < c.height) (i j : Fin 3) :
    |b.dev_stress i j - 250 * mp.rho * c.max_g * c.height ^ 3 * (2 * dev3 mp.dstrain i j / c.dt)| ≤
      gam u 12 * (250 * mp.rho * |c.max_g| * c.height ^ 3 * (2 * shearSize mp.dstrain i j / |c.dt|)) ∧
    (0 < c.dt → b.dev_stress i j * b.de_ij i j ≤ 0) := by
  obtain ⟨-, I_0, hb⟩ := updateYieldR_kenKamrin h
  have z := hr.zero
  have nn : ∀ {x : K}, 0 ≤ x → 0 ≤ rnd x := fun hx => by have := hr.mono hx; rwa [z] at this
  have np : ∀ {x : K}, x ≤ 0 → rnd x ≤ 0 := fun hx => by have := hr.mono hx; rwa [z] at this
  have cap : kenCapR rnd c mp.rho ≤ 0 :=
    np (mul_nonpos_of_nonpos_of_nonneg (np (mul_nonpos_of_nonneg_of_nonpos
      (nn (by positivity)) hg.le)) (nn (by positivity)))
  have e1 : b.dev_stress i j = rnd (kenCapR rnd c mp.rho * kenRatesR rnd c mp i j) := by
    rw [hb]
    show rnd (kenEtaR rnd c I_0 _ _ mp.rho * _) = _
    unfold kenEtaR
    dsimp only
    rw [min_eq_right (cap.trans (le_max_right _ _))]
  have e2 : b.de_ij i j = shearR rnd mp i j := by rw [hb]; rfl
  constructor
  · have a1 := (App.exact (250 * mp.rho) (u := u) (abs_of_pos (by positivity)).le).round hr
    have a2 := (a1.times hr c.max_g).round hr
    have a3 := (App.exact (c.height ^ 3) (u := u) (abs_of_pos (by positivity)).le).round hr
    have a4 := (a2.mul hr a3).round hr
    have b1 := ((App.exact (2 : K) (u := u) (abs_of_pos (by norm_num)).le).mul hr (shearR_app hr mp i j)).round hr
    have b2 := (b1.over hr c.dt).round hr
    have := ((a4.mul hr b2).round hr).weaken hr (k := 12) (by omega) le_rfl
    rw [e1]
    have e3 : shearR id mp = dev3 mp.dstrain := shearR_exact mp
    rw [e3] at this
    exact this.err
  · intro hdt
    rw [e1, e2]
    rcases le_total 0 (shearR rnd mp i j) with hs | hs
    · refine mul_nonpos_of_nonpos_of_nonneg (np (mul_nonpos_of_nonpos_of_nonneg cap ?_)) hs
      exact nn (div_nonneg (nn (by positivity)) hdt.le)
    · refine mul_nonpos_of_nonneg_of_nonpos (nn (mul_nonneg_of_nonpos_of_nonpos cap ?_)) hs
      exact np (div_nonpos_of_nonpos_of_nonneg (np (by linarith)) hdt.le)

end

section

/-! ## Binary64 -/

/-- Square roots of the numbers needed. -/
def Ex.root (x : ℚ) : ℚ := if x = 4 then 2 else if x = 2 then 7 / 5 else 0

/-- A context for the three laws. -/
def Ex.ctxY : LawCtx ℚ 2 :=
  { Ex.ctxR with
    max_g := -10, height := 2
    ops := { Ex.ctxR.ops with sqrt := Ex.root, pow := fun _ _ => 1 }, dt := 3
    mat := { Ex.ctxR.mat with
      k := 5, s := 4, Gs := 7, Kb := 11, mu_s := 1, mu_v := 1, tau_0 := 1
      mu_0 := .scalar 1000000, I_0 := .scalar 1, gamma_c := fl 53 (2 / 3) } }

/-- A point that shears, and one that is stretched. -/
def Ex.sheared : Particle ℚ 2 := { Ex.amid with dstrain := !![0, 1, 1; 1, 0, 0; 1, 0, 0] }

def Ex.pulled : Particle ℚ 2 := { Ex.amid with dstrain := !![3, 0, 0; 0, 0, 0; 0, 0, 1], dev_stress := 0 }

/-- C146.  In binary64 the deviator does not stay traceless, which it does in exact arithmetic. -/
theorem c146_traced : ∃ b b' : Particle ℚ 2, ∃ w w' : Vis → Fin 12 → XF ℚ,
    Ex.pulled.dev_stress.trace = 0 ∧
    Ex.pulled.updateStress 4 .von_mises Ex.ctxY (fun _ _ => .fin 0) = .ok (b, w) ∧
    Ex.pulled.updateYieldR (fl 53) 4 .von_mises Ex.ctxY (fun _ _ => .fin 0) = .ok (b', w') ∧
    b.dev_stress.trace = 0 ∧ b'.dev_stress.trace = 3 / 2 ^ 49 := by
  have h : Ex.okAnd (Ex.pulled.updateStress 4 .von_mises Ex.ctxY (N := 12) (fun _ _ => .fin 0)) (fun b =>
      decide (b.1.dev_stress.trace = 0)) = true := by decide +kernel
  have h' : Ex.okAnd (Ex.pulled.updateYieldR (fl 53) 4 .von_mises Ex.ctxY (N := 12) (fun _ _ => .fin 0))
      (fun b => decide (b.1.dev_stress.trace = 3 / 2 ^ 49)) = true := by decide +kernel
  obtain ⟨⟨b, w⟩, h, k⟩ := Ex.okAnd_ok h
  obtain ⟨⟨b', w'⟩, h', k'⟩ := Ex.okAnd_ok h'
  exact ⟨b, b', w, w', by simp [Ex.pulled], h, h', of_decide_eq_true k, of_decide_eq_true k'⟩

/-- C146.  The bounds for that point: `c146_trace`, and `c146_drift` for one step. -/
example : ∃ b : Particle ℚ 2, ∃ w : Vis → Fin 12 → XF ℚ,
    Ex.pulled.updateYieldR (fl 53) 4 .von_mises Ex.ctxY (fun _ _ => .fin 0) = .ok (b, w) ∧
    b.dev_stress.trace ≠ 0 ∧ |b.dev_stress.trace| ≤ 1 / 10 ^ 12 := by
  have hS : diag (plasticSize Ex.ctxY.mat.Gs (plasticR (fl 53) Ex.ctxY Ex.pulled.dev_stress
      Ex.pulled.dstrain) Ex.pulled.dev_stress Ex.pulled.dstrain) ≤ (1000 : ℚ) := by decide +kernel
  have hf : plasticR (fl 53) Ex.ctxY Ex.pulled.dev_stress Ex.pulled.dstrain = 0 := by decide +kernel
  obtain ⟨-, b, -, w, h0, -, h, -, ht⟩ := c146_traced
  refine ⟨b, w, h, by rw [ht]; norm_num, ?_⟩
  have := c146_drift (n := 1) (a := fun t => if t = 0 then Ex.pulled else b) (b := fun _ => b)
    (c136_bits (p := 53) (by norm_num)) (c := Ex.ctxY) (nx := 4) (vis := fun _ _ _ => .fin 0) (w := fun _ => w)
    (fun t ht => by rw [if_pos (by omega)]; exact h) (fun t _ => by rw [if_neg (by omega)]) (S := 1000)
    (fun t ht => by rw [if_pos (by omega), hf]; norm_num) (fun t ht => by rw [if_pos (by omega)]; exact hS)
  simp only [one_ne_zero, if_false, if_true, h0, abs_zero, zero_add] at this
  refine this.trans ?_
  norm_num [gam]

/-- C146.  Whether a Bingham fluid yields may differ: just above the critical shear rate of the exact model
binary64 stays below it, and the shear stress is 400000 times that of the exact model. -/
theorem c146_jump : ∃ b b' : Particle ℚ 2, ∃ w w' : Vis → Fin 12 → XF ℚ,
    Ex.sheared.updateStress 4 .bingham Ex.ctxY (fun _ _ => .fin 0) = .ok (b, w) ∧
    Ex.sheared.updateYieldR (fl 53) 4 .bingham Ex.ctxY (fun _ _ => .fin 0) = .ok (b', w') ∧
    Ex.ctxY.mat.gamma_c < b.gammadot ∧ b'.gammadot ≤ Ex.ctxY.mat.gamma_c ∧
    |b'.gammadot - b.gammadot| ≤ b.gammadot / 2 ^ 53 ∧
    399999 * b.dev_stress 0 1 < b'.dev_stress 0 1 ∧ 0 < b.dev_stress 0 1 := by
  have h : Ex.okAnd (Ex.sheared.updateStress 4 .bingham Ex.ctxY (N := 12) (fun _ _ => .fin 0)) (fun b =>
      Ex.okAnd (Ex.sheared.updateYieldR (fl 53) 4 .bingham Ex.ctxY (N := 12) (fun _ _ => .fin 0)) fun b' =>
      decide (Ex.ctxY.mat.gamma_c < b.1.gammadot ∧ b'.1.gammadot ≤ Ex.ctxY.mat.gamma_c ∧
    |b'.1.gammadot - b.1.gammadot| ≤ b.1.gammadot / 2 ^ 53 ∧
    399999 * b.1.dev_stress 0 1 < b'.1.dev_stress 0 1 ∧ 0 < b.1.dev_stress 0 1)) = true := by decide +kernel
  obtain ⟨⟨b, w⟩, h, k⟩ := Ex.okAnd_ok h
  obtain ⟨⟨b', w'⟩, h', k'⟩ := Ex.okAnd_ok k
  exact ⟨b, b', w, w', h, h', of_decide_eq_true k'⟩

/-- C146.  The shear stress of that point is that of its plug. -/
example : ∃ b : Particle ℚ 2, ∃ w : Vis → Fin 12 → XF ℚ,
    Ex.sheared.updateYieldR (fl 53) 4 .bingham Ex.ctxY (fun _ _ => .fin 0) = .ok (b, w) ∧
    |b.dev_stress 0 1 - 2000000 / 3| ≤ 1 / 10 ^ 8 := by
  obtain ⟨-, b, -, w, -, h, -, h1, -⟩ := c146_jump
  refine ⟨b, w, h, ?_⟩
  obtain ⟨mu_0, hm, hb⟩ := c146_bingham (c136_bits (by norm_num)) h
  have := (hb 0 1).1 h1
  cases hm
  have e1 : (2 * 1000000 * dev3 Ex.sheared.dstrain 0 1 / Ex.ctxY.dt : ℚ) = 2000000 / 3 := by decide +kernel
  have e2 : 2 * |(1000000 : ℚ)| * shearSize Ex.sheared.dstrain 0 1 / |Ex.ctxY.dt| ≤ 1000000 := by
    decide +kernel
  rw [e1] at this
  refine this.trans ((mul_le_mul_of_nonneg_left e2 (gam_nonneg (by norm_num) (by norm_num) _)).trans ?_)
  norm_num [gam]

/-- A point under stress that does not strain. -/
def Ex.stressed : Particle ℚ 2 :=
  { Ex.amid with
    dstrain := 0, LL := 0, dstress := 0, pressure := 5, sigma_kk := 3
    dev_stress := !![1, 1/2, 0; 1/2, 1, 0; 0, 0, -2]
    stress := !![3, 3/4, 0; 3/4, 2, 0; 0, 0, -1] }

/-- C146.  It keeps what it stores and its stress becomes the sum, which it was not. -/
example : ∃ b : Particle ℚ 2, ∃ w : Vis → Fin 12 → XF ℚ,
    Ex.stressed.updateYieldR (fl 53) 4 .von_mises Ex.ctxY (fun _ _ => .fin 0) = .ok (b, w) ∧
    b.dev_stress = Ex.stressed.dev_stress ∧ b.sigma_kk = 3 ∧ b.stress 0 0 = 2 ∧
    |b.stress 0 1 - 1 / 2| ≤ 1 / 10 ^ 14 := by
  have h : Ex.okAnd (Ex.stressed.updateYieldR (fl 53) 4 .von_mises Ex.ctxY (N := 12) (fun _ _ => .fin 0))
      (fun _ => true) = true := by decide +kernel
  obtain ⟨⟨b, w⟩, h, -⟩ := Ex.okAnd_ok h
  obtain ⟨h1, h2⟩ := c146_still (fl_zero _) h rfl (Ex.all33 (by decide +kernel)) (by decide +kernel)
  have h2 : b.sigma_kk = 3 := h2
  have hT : fl 53 (Ex.stressed.dev_stress 0 0 + fl 53 (fl 53 (3 * (1 : Mat ℚ) 0 0) / 3)) = 2 := by
    decide +kernel
  have hs : Ex.stressed.stress 0 0 = 3 := rfl
  refine ⟨b, w, h, h1, h2, ?_, ?_⟩
  · rw [c146_settles (by norm_num) h rfl (i := 0) (j := 0) ⟨3, 0, by norm_num, by rw [hs]; norm_num⟩ ?_, h1, h2, hT]
    rw [h1, h2, hT, hs]
    exact .inl ⟨by norm_num, by norm_num⟩
  · have := c146_target (c136_bits (by norm_num)) h rfl 0 1
    rw [h1, h2] at this
    have e1 : (Ex.stressed.dev_stress 0 1 + 3 / 3 * (1 : Mat ℚ) 0 1 : ℚ) = 1 / 2 := by decide +kernel
    have e2 : |Ex.stressed.dev_stress 0 1| + |(3 : ℚ)| / 3 * (1 : Mat ℚ) 0 1 + 2 * |Ex.stressed.stress 0 1| ≤ 2 := by
      decide +kernel
    rw [e1] at this
    refine this.trans ((mul_le_mul_of_nonneg_left e2 (gam_nonneg (by norm_num) (by norm_num) _)).trans ?_)
    norm_num [gam]

/-- C146.  As a Bingham fluid it is left with its pressure. -/
example : ∃ b : Particle ℚ 2, ∃ w : Vis → Fin 12 → XF ℚ,
    Ex.stressed.updateYieldR (fl 53) 4 .bingham Ex.ctxY (fun _ _ => .fin 0) = .ok (b, w) ∧
    b.dev_stress = 0 ∧ b.stress = (5 : ℚ) • (1 : Mat ℚ) := by
  have h : Ex.okAnd (Ex.stressed.updateYieldR (fl 53) 4 .bingham Ex.ctxY (N := 12) (fun _ _ => .fin 0))
      (fun _ => true) = true := by decide +kernel
  obtain ⟨⟨b, w⟩, h, -⟩ := Ex.okAnd_ok h
  obtain ⟨h1, -, h2⟩ := c146_rest (fl_zero _) h rfl rfl rfl (by decide +kernel)
  exact ⟨b, w, h, h1, h2⟩

/-- C146.  The sheared point under `ken_kamrin`: symmetric, and against the shear. -/
example : ∃ b : Particle ℚ 2, ∃ w : Vis → Fin 12 → XF ℚ,
    Ex.sheared.updateYieldR (fl 53) 4 .ken_kamrin Ex.ctxY (fun _ _ => .fin 0) = .ok (b, w) ∧
    b.dev_stress 0 1 = b.dev_stress 1 0 ∧ b.dev_stress 0 1 < 0 ∧ 0 < b.de_ij 0 1 ∧
    |b.dev_stress 0 1 + 40000 / 3 * Ex.sheared.rho| ≤ 1 / 10 ^ 10 * Ex.sheared.rho := by
  have h : Ex.okAnd (Ex.sheared.updateYieldR (fl 53) 4 .ken_kamrin Ex.ctxY (N := 12) (fun _ _ => .fin 0))
      (fun b => decide (b.1.dev_stress 0 1 < 0 ∧ 0 < b.1.de_ij 0 1)) = true := by decide +kernel
  obtain ⟨⟨b, w⟩, h, k⟩ := Ex.okAnd_ok h
  have k := of_decide_eq_true k
  have hs := c146_symmetric h (Ex.symm3 (by decide +kernel)) (Ex.symm3 (by decide +kernel))
    (Ex.symm3 (by decide +kernel)) (Ex.symm3 (by decide +kernel))
  have hρ : 0 < Ex.sheared.rho := by decide +kernel
  refine ⟨b, w, h, hs.1 0 1, k.1, k.2, ?_⟩
  have := (c146_cap (c136_bits (by norm_num)) h (by decide +kernel) hρ (by decide +kernel) 0 1).1
  have e1 : (250 * Ex.sheared.rho * Ex.ctxY.max_g * Ex.ctxY.height ^ 3 *
      (2 * dev3 Ex.sheared.dstrain 0 1 / Ex.ctxY.dt) : ℚ) = -(40000 / 3 * Ex.sheared.rho) := by decide +kernel
  have e2 : 250 * Ex.sheared.rho * |Ex.ctxY.max_g| * Ex.ctxY.height ^ 3 *
      (2 * shearSize Ex.sheared.dstrain 0 1 / |Ex.ctxY.dt|) ≤ 40000 * Ex.sheared.rho := by decide +kernel
  rw [e1, sub_neg_eq_add] at this
  refine this.trans ((mul_le_mul_of_nonneg_left e2 (gam_nonneg (by norm_num) (by norm_num) _)).trans ?_)
  rw [← mul_assoc]
  exact mul_le_mul_of_nonneg_right (by norm_num [gam]) hρ.le

end
end Mpm

import Verif.Props.Laws

/-!
# What the constitutive laws report to the grid (C106)

The nodal fields `gammadot`, `dev_stress`, `dev_stress_dot`, `yieldfunction`, `mu`, `I` are sums over
the material points of shape function times mass times a value chosen by the law.  Here that value is
compared with the strain increment of the step and with the stress before and after it.
-/

set_option linter.unusedSectionVars false

namespace Mpm
open Spec

namespace Spec
section
variable {K : Type} [Field K] [LinearOrder K] {ns : ℕ}

/-- Sum of squares of the entries of the traceless part. -/
def devSq (A : Mat K) : K := ∑ i, ∑ j, deviator A i j ^ 2

end
end Spec

section
variable {K : Type} [Field K] [LinearOrder K] [IsStrictOrderedRing K] {ns : ℕ}

theorem devSq_nonneg (A : Mat K) : 0 ≤ devSq A :=
  Finset.sum_nonneg fun _ _ => Finset.sum_nonneg fun _ _ => sq_nonneg _

theorem frob_dev (A : Mat K) :
    frob (A - (A.trace / 3) • (1 : Mat K)) (A - (A.trace / 3) • (1 : Mat K)) = devSq A := by
  rw [← deviator_eq]
  unfold frob devSq
  simp only [pow_two]

theorem deviator_idem {A : Mat K} (h : A.trace = 0) : deviator A = A := by
  rw [deviator_eq, h, zero_div, zero_smul, sub_zero]

theorem frob_traceless {A : Mat K} (h : A.trace = 0) : frob A A = devSq A := by
  unfold devSq
  rw [deviator_idem h]
  unfold frob
  simp only [pow_two]

theorem trace_dev (A : Mat K) : (A - (A.trace / 3) • (1 : Mat K)).trace = 0 := by
  simp [Matrix.trace, Fin.sum_univ_three]; ring

theorem deviator_add_iso (k : K) (A : Mat K) : deviator (k • (1 : Mat K) + A) = deviator A := by
  ext i j
  by_cases h : i = j
  · subst h; simp [deviator]; ring
  · simp [deviator, Matrix.one_apply, h]

theorem devSq_add_iso (k : K) (A : Mat K) : devSq (k • (1 : Mat K) + A) = devSq A := by
  unfold devSq; rw [deviator_add_iso]

theorem sqrt_sq_div {o : Ops K} (ho : GoodOps o) {x k : K} (hx : 0 ≤ x) (hk : 0 < k) :
    0 ≤ o.sqrt x / k ∧ (o.sqrt x / k * k) ^ 2 = x := by
  refine ⟨div_nonneg (ho.sqrt_nonneg _ hx) hk.le, ?_⟩
  rw [div_mul_cancel₀ _ hk.ne', pow_two, ho.sqrt_mul _ hx]

/-- C106.  Under the solid laws the shear rate reported to the grid is the norm of the deviatoric
strain increment of this step over the step size. -/
theorem c106_solid_rate {c : LawCtx K ns} (ho : GoodOps c.ops) (hdt : 0 < c.dt) {law : Law}
    (hl : law = .elastic ∨ law = .elastic_time ∨ law = .von_mises) {mp mp' : Particle K ns}
    {l : List (Vis × XF K)} (h : runLaw law c mp = .ok (mp', l)) :
    ∃ g, listed .gammadot l = [.fin g] ∧ 0 ≤ g ∧ (g * c.dt) ^ 2 = devSq mp.dstrain := by
  refine ⟨c.ops.sqrt (devSq mp.dstrain) / c.dt, ?_, sqrt_sq_div ho (devSq_nonneg _) hdt⟩
  rw [← XF.fin_div _ hdt.ne', ← frob_dev]
  rcases hl with rfl | rfl | rfl
  · cases h; rfl
  · simp only [runLaw, lawElasticTime] at h
    split at h
    · cases h
    · cases h; rfl
  · simp only [runLaw, lawVonMises] at h
    split at h
    · cases h
    split at h
    · cases h
    split at h
    · cases h
    cases h; rfl

/-- C106.  The same for `dp_rate`, in the plane. -/
theorem c106_plane_rate {c : LawCtx K ns} (ho : GoodOps c.ops) (hdt : 0 < c.dt)
    {mp mp' : Particle K ns} {l : List (Vis × XF K)} (h : runLaw .dp_rate c mp = .ok (mp', l)) :
    ∃ g, listed .gammadot l = [.fin g] ∧ 0 ≤ g ∧ (g * c.dt) ^ 2 = planeDevSq mp.dstrain := by
  have h0 : 0 ≤ planeDevSq mp.dstrain :=
    Finset.sum_nonneg fun _ _ => Finset.sum_nonneg fun _ _ => sq_nonneg _
  refine ⟨c.ops.sqrt (planeDevSq mp.dstrain) / c.dt, ?_, sqrt_sq_div ho h0 hdt⟩
  rw [← XF.fin_div _ hdt.ne']
  have e : frob (-block2 mp.dstrain - ((-block2 mp.dstrain).trace / 2) • (1 : Matrix (Fin 2) (Fin 2) K))
      (-block2 mp.dstrain - ((-block2 mp.dstrain).trace / 2) • (1 : Matrix (Fin 2) (Fin 2) K)) =
      planeDevSq mp.dstrain := by
    unfold frob planeDevSq
    simp only [neg_block2_dev, neg_mul_neg, pow_two]
  rw [← e]
  simp only [runLaw, lawDpRate] at h
  obtain ⟨d, _, h⟩ := res_bind_ok.1 h
  obtain ⟨y, _, h⟩ := res_bind_ok.1 h
  cases h; rfl

/-- C106.  `ken_kamrin` measures a shear rate (bounded below) and reports that rate divided by the
step size once more. -/
theorem c106_ken_kamrin_rate {c : LawCtx K ns} (ho : GoodOps c.ops) (hdt : 0 < c.dt)
    {mp mp' : Particle K ns} {l : List (Vis × XF K)} (h : runLaw .ken_kamrin c mp = .ok (mp', l)) :
    ∃ g, 1 / 10 ^ 5 ≤ g ∧ (g = 1 / 10 ^ 5 ∨ g ^ 2 = 2 * devSq (rate c.dt mp.dstrain)) ∧
      2 * devSq (rate c.dt mp.dstrain) ≤ g ^ 2 ∧
      mp'.gammadot = g ∧ listed .gammadot l = [.fin (g / c.dt)] := by
  simp only [runLaw, lawKenKamrin, if_neg hdt.ne'] at h
  obtain ⟨a, _, h⟩ := res_bind_ok.1 h
  have e : 1 / 2 * frob ((2 / c.dt) • (mp.dstrain - (mp.dstrain.trace / 3) • (1 : Mat K)))
      ((2 / c.dt) • (mp.dstrain - (mp.dstrain.trace / 3) • (1 : Mat K))) =
      2 * devSq (rate c.dt mp.dstrain) := by
    rw [frob_smul, frob_smul_right]
    have : devSq (rate c.dt mp.dstrain) = 1 / c.dt * (1 / c.dt *
        frob (mp.dstrain - (mp.dstrain.trace / 3) • (1 : Mat K))
          (mp.dstrain - (mp.dstrain.trace / 3) • (1 : Mat K))) := by
      unfold devSq
      rw [rate_dev, ← frob_smul_right, ← frob_smul]
      unfold frob
      simp only [pow_two]
    rw [this]; ring
  rw [e] at h
  have h0 : 0 ≤ 2 * devSq (rate c.dt mp.dstrain) := mul_nonneg two_pos.le (devSq_nonneg _)
  have hs : c.ops.sqrt (2 * devSq (rate c.dt mp.dstrain)) ^ 2 = 2 * devSq (rate c.dt mp.dstrain) := by
    rw [pow_two, ho.sqrt_mul _ h0]
  refine ⟨_, le_max_right (c.ops.sqrt (2 * devSq (rate c.dt mp.dstrain))) _, ?_, ?_, ?_, ?_⟩
  · rcases max_choice (c.ops.sqrt (2 * devSq (rate c.dt mp.dstrain))) (1 / 10 ^ 5) with hm | hm
    · right; rw [hm, hs]
    · left; exact hm
  · calc _ = c.ops.sqrt (2 * devSq (rate c.dt mp.dstrain)) ^ 2 := hs.symm
      _ ≤ _ := pow_le_pow_left₀ (ho.sqrt_nonneg _ h0) (le_max_left _ _) 2
  · cases h; rfl
  · rw [← XF.fin_div _ hdt.ne']
    cases h; rfl

/-- C106.  The other laws report no shear rate at all: the nodal field gets nothing from them. -/
theorem c106_no_rate {c : LawCtx K ns} {law : Law}
    (hl : law = .rigid ∨ law = .viscous ∨ law = .bingham ∨ law = .pouliquen ∨ law = .linear_mu ∨
      law = .ken_simple) {mp mp' : Particle K ns} {l : List (Vis × XF K)}
    (h : runLaw law c mp = .ok (mp', l)) : listed .gammadot l = [] := by
  rcases hl with rfl | rfl | rfl | rfl | rfl | rfl
  · cases h; rfl
  · simp only [runLaw, lawViscous] at h
    split at h
    · cases h
    · cases h; rfl
  · simp only [runLaw, lawBingham] at h
    split at h
    · cases h
    obtain ⟨a, _, h⟩ := res_bind_ok.1 h
    obtain ⟨b, _, h⟩ := res_bind_ok.1 h
    cases h; rfl
  · simp only [runLaw, lawPouliquen] at h
    obtain ⟨⟨a, b, c⟩, _, h⟩ := res_bind_ok.1 h
    split at h
    · cases h
    dsimp only at h
    split at h
    · cases h; rfl
    · cases h
  · simp only [runLaw, lawLinearMu] at h
    obtain ⟨a, _, h⟩ := res_bind_ok.1 h
    split at h
    · cases h
    obtain ⟨b, _, h⟩ := res_bind_ok.1 h
    obtain ⟨d, _, h⟩ := res_bind_ok.1 h
    cases h; rfl
  · simp only [runLaw, lawKenSimple] at h
    obtain ⟨a, _, h⟩ := res_bind_ok.1 h
    split at h
    · cases h
    cases h; rfl

/-- C106.  `viscous`, `ken_kamrin` and `von_mises` report as shear stress the norm of the deviator of
the stress they aim at (old stress plus increment), `bingham` that of the stress it has set. -/
theorem c106_shear_stress {c : LawCtx K ns} (ho : GoodOps c.ops) {law : Law}
    {mp mp' : Particle K ns} {l : List (Vis × XF K)} (h : runLaw law c mp = .ok (mp', l)) :
    (law = .viscous ∨ law = .ken_kamrin ∨ law = .von_mises ∧ mp.dev_stress.trace = 0 →
      ∃ q, listed .dev_stress l = [.fin q] ∧ 0 ≤ q ∧ q ^ 2 = devSq (mp.stress + mp'.dstress)) ∧
    (law = .bingham →
      ∃ q, listed .dev_stress l = [.fin q] ∧ 0 ≤ q ∧ q ^ 2 = devSq mp'.stress) := by
  have key : ∀ (s : Mat K), s.trace = 0 → 0 ≤ c.ops.sqrt (frob s s) ∧
      c.ops.sqrt (frob s s) ^ 2 = devSq s := fun s hs => by
    have h0 := frob_self_nonneg s
    exact ⟨ho.sqrt_nonneg _ h0, by rw [pow_two, ho.sqrt_mul _ h0, frob_traceless hs]⟩
  have iso : ∀ (p v k : K) (D S : Mat K),
      S + (p • (1 : Mat K) + k • D - v • (1 : Mat K) - S) = (p - v) • (1 : Mat K) + k • D := by
    intro p v k D S
    rw [sub_smul]; abel
  have htr : ∀ k : K, (k • (mp.dstrain - (mp.dstrain.trace / 3) • (1 : Mat K))).trace = 0 :=
    fun k => by rw [Matrix.trace_smul, trace_dev, smul_zero]
  refine ⟨?_, ?_⟩
  · rintro (rfl | rfl | ⟨rfl, ht⟩)
    · simp only [runLaw, lawViscous] at h
      split at h
      · cases h
      cases h
      obtain ⟨h1, h2⟩ := key _ (htr (2 * c.mat.mu_s / c.dt))
      refine ⟨_, rfl, h1, h2.trans ?_⟩
      rw [iso, devSq_add_iso]
    · simp only [runLaw, lawKenKamrin] at h
      split at h
      · cases h
      obtain ⟨a, _, h⟩ := res_bind_ok.1 h
      cases h
      refine ⟨_, rfl, (key _ ?_).1, (key _ ?_).2.trans ?_⟩
      · rw [smul_smul]; exact htr _
      · rw [smul_smul]; exact htr _
      · simp only [smul_smul]
        rw [iso, devSq_add_iso]
    · simp only [runLaw, lawVonMises] at h
      split at h
      · cases h
      split at h
      · cases h
      split at h
      · cases h
      cases h
      refine ⟨_, rfl, (key _ ?_).1, (key _ ?_).2.trans ?_⟩
      all_goals try
        rw [Matrix.trace_add, ht, zero_add, Matrix.trace_smul, Matrix.trace_sub, trace_dev,
          Matrix.trace_smul, ht, smul_zero, sub_zero, smul_zero]
      rw [add_sub_cancel, add_comm (_ + _) (_ • (1 : Mat K)), devSq_add_iso]
  · rintro rfl
    simp only [runLaw, lawBingham] at h
    split at h
    · cases h
    obtain ⟨a, _, h⟩ := res_bind_ok.1 h
    obtain ⟨b, hb, h⟩ := res_bind_ok.1 h
    have htb : b.trace = 0 := by
      split at hb
      · cases hb; exact htr _
      split at hb
      · cases hb
      · cases hb; exact htr _
    cases h
    obtain ⟨h1, h2⟩ := key b htb
    refine ⟨_, rfl, h1, h2.trans ?_⟩
    change _ = devSq (_ • (1 : Mat K) + b - _ • (1 : Mat K))
    rw [add_sub_right_comm, ← sub_smul, devSq_add_iso]

theorem special_div_fin {a : XF K} (h : XF.Special a) (b : K) : XF.Special (a / .fin b) := by
  change XF.Special (XF.div _ _)
  cases a with
  | fin x => cases h
  | nan => rfl
  | pinf => simp only [XF.div]; split <;> rfl
  | ninf => simp only [XF.div]; split <;> rfl

end

section
variable {K : Type} [Field K] [LinearOrder K] [IsStrictOrderedRing K] [FloorRing K] {ns : ℕ}

/-- C106.  The granular flow laws `pouliquen`, `linear_mu` and `ken_simple` (where dense) report that
norm divided by `√2`, so that their values and those of `viscous` are not comparable. -/
theorem c106_flow_stress {c : LawCtx K ns} (ho : GoodOps c.ops) {law : Law}
    {mp mp' : Particle K ns} {l : List (Vis × XF K)} (h : runLaw law c mp = .ok (mp', l))
    (hl : law = .pouliquen ∨ law = .linear_mu ∨ law = .ken_simple ∧ 2500 < mp.rho) :
    ∃ q, listed .dev_stress l = [.fin q] ∧ 0 ≤ q ∧ 2 * q ^ 2 = devSq (mp.stress + mp'.dstress) := by
  have h2 : 0 < c.ops.sqrt 2 := ho.sqrt_pos two_pos
  have key : ∀ (s : Mat K), s.trace = 0 → 0 ≤ c.ops.sqrt (frob s s) / c.ops.sqrt 2 ∧
      2 * (c.ops.sqrt (frob s s) / c.ops.sqrt 2) ^ 2 = devSq s := fun s hs => by
    have h0 := frob_self_nonneg s
    refine ⟨div_nonneg (ho.sqrt_nonneg _ h0) h2.le, ?_⟩
    rw [div_pow, pow_two, pow_two, ho.sqrt_mul _ h0, ho.sqrt_mul _ two_pos.le, frob_traceless hs]
    ring
  have htr : ∀ k : K, (k • (mp.dstrain - (mp.dstrain.trace / 3) • (1 : Mat K))).trace = 0 :=
    fun k => by rw [Matrix.trace_smul, trace_dev, smul_zero]
  have lst : ∀ s : Mat K, (XF.fin (c.ops.sqrt (frob s s)) / .fin (c.ops.sqrt 2) : XF K) =
      .fin (c.ops.sqrt (frob s s) / c.ops.sqrt 2) := fun s => XF.fin_div _ h2.ne'
  rcases hl with rfl | rfl | ⟨rfl, hr⟩
  · simp only [runLaw, lawPouliquen] at h
    obtain ⟨⟨m0, dm, i0⟩, _, h⟩ := res_bind_ok.1 h
    split at h
    · cases h
    rename_i hdt
    dsimp only at h
    split at h
    · cases h
      refine ⟨_, congrArg (fun x => [x]) (lst _), (key _ (htr _)).1, (key _ (htr _)).2.trans ?_⟩
      rw [← devSq_add_iso (pouliquenPressure c mp.rho (mp.pressure + c.mat.Kb *
        (mp.dstrain.trace / 3)))]
      congr 1
      ext i j
      change _ = mp.stress i j + XF.nanToNum 0 _
      rw [flowStressInc_of_fin hdt]
      change _ = mp.stress i j + (_ - mp.stress i j)
      rw [add_sub_cancel]
      simp only [Matrix.add_apply, Matrix.smul_apply, smul_eq_mul]
      ring
    · cases h
  · simp only [runLaw, lawLinearMu] at h
    obtain ⟨a, _, h⟩ := res_bind_ok.1 h
    split at h
    · cases h
    rename_i hdt
    obtain ⟨b, hb, h⟩ := res_bind_ok.1 h
    obtain ⟨d, hd, h⟩ := res_bind_ok.1 h
    obtain ⟨e, he⟩ : ∃ e, (linearMuRaw c mp a).2.2.1 = .fin e := by
      have h0 := finMat_ok hd 0 0
      by_cases hs : XF.Special (linearMuRaw c mp a).2.2.1
      · have := special_div_fin (special_mul_fin hs
          ((mp.dstrain - (mp.dstrain.trace / 3) • (1 : Mat K)) 0 0)) c.dt
        rw [h0] at this
        cases this
      · cases hE : (linearMuRaw c mp a).2.2.1 with
        | fin e => exact ⟨e, rfl⟩
        | pinf => exact absurd (by rw [hE]; rfl) hs
        | ninf => exact absurd (by rw [hE]; rfl) hs
        | nan => exact absurd (by rw [hE]; rfl) hs
    have ed : d = (e / c.dt) • (mp.dstrain - (mp.dstrain.trace / 3) • (1 : Mat K)) := by
      ext i j
      have := finMat_ok hd i j
      rw [he, XF.fin_mul, XF.fin_div _ hdt] at this
      rw [← XF.fin.inj this, Matrix.smul_apply, smul_eq_mul]
      ring
    have eb : ∀ i j, b i j = ((linearMuRaw c mp a).2.2.2.1 • (1 : Mat K) + d) i j - mp.stress i j := by
      intro i j
      have := finMat_ok hb i j
      have e2 : (linearMuRaw c mp a).2.2.2.2 = flowStressInc (linearMuRaw c mp a).2.2.2.1
        (linearMuRaw c mp a).2.2.1 (mp.dstrain - (mp.dstrain.trace / 3) • (1 : Mat K)) c.dt
        mp.stress := rfl
      rw [e2, he, flowStressInc_of_fin hdt] at this
      rw [← XF.fin.inj this, ed]
      simp only [Matrix.add_apply, Matrix.smul_apply, smul_eq_mul]
      ring
    cases h
    have ht : d.trace = 0 := by rw [ed]; exact htr _
    refine ⟨_, congrArg (fun x => [x]) (lst _), (key _ ht).1, (key _ ht).2.trans ?_⟩
    rw [← devSq_add_iso (linearMuRaw c mp a).2.2.2.1]
    congr 1
    ext i j
    change _ = mp.stress i j + b i j
    rw [eb]; ring
  · simp only [runLaw, lawKenSimple] at h
    obtain ⟨a, _, h⟩ := res_bind_ok.1 h
    split at h
    · cases h
    cases h
    refine ⟨_, congrArg (fun x => [x]) (lst _), (key _ (htr _)).1, (key _ (htr _)).2.trans ?_⟩
    simp only [if_pos hr]
    rw [add_sub_cancel, devSq_add_iso]

/-- C106.  `dp_rate` reports `√(3/2)` times the norm of the in-plane deviator of the stress the point
had before the step. -/
theorem c106_dp_rate {c : LawCtx K ns} (ho : GoodOps c.ops) {mp mp' : Particle K ns}
    {l : List (Vis × XF K)} (h : runLaw .dp_rate c mp = .ok (mp', l)) :
    ∃ q, listed .dev_stress l = [.fin q] ∧ 0 ≤ q ∧ 2 * q ^ 2 = 3 * planeDevSq mp.stress := by
  have h0 : 0 ≤ planeDevSq mp.stress :=
    Finset.sum_nonneg fun _ _ => Finset.sum_nonneg fun _ _ => sq_nonneg _
  have h1 : 0 ≤ 3 * planeDevSq mp.stress / 2 := by positivity
  refine ⟨planeShear c.ops mp.stress, ?_, ho.sqrt_nonneg _ h1, ?_⟩
  · simp only [runLaw, lawDpRate] at h
    obtain ⟨d, _, h⟩ := res_bind_ok.1 h
    obtain ⟨y, _, h⟩ := res_bind_ok.1 h
    cases h
    rw [← neg_block2_shear]
    rfl
  · unfold planeShear
    rw [pow_two, ho.sqrt_mul _ h1]; ring

/-- C106.  `von_mises` reports the change of its deviatoric stress over the step, per unit time, and
how far the norm of the old deviator is from `√2 k`: negative inside the yield surface, zero on it. -/
theorem c106_von_mises {c : LawCtx K ns} (ho : GoodOps c.ops) (hdt : 0 < c.dt)
    {mp mp' : Particle K ns} {l : List (Vis × XF K)} (h : runLaw .von_mises c mp = .ok (mp', l)) :
    (∃ q, listed .dev_stress_dot l = [.fin q] ∧ 0 ≤ q ∧ (q * c.dt) ^ 2 =
      ∑ i, ∑ j, (mp'.dev_stress i j - mp.dev_stress i j) ^ 2) ∧
    ∃ f, listed .yieldfunction l = [.fin f] ∧ (0 ≤ f ↔ 2 * c.mat.k ^ 2 ≤ ∑ i, ∑ j, mp.dev_stress i j ^ 2) ∧
      (f = 0 ↔ ∑ i, ∑ j, mp.dev_stress i j ^ 2 = 2 * c.mat.k ^ 2) := by
  simp only [runLaw, lawVonMises] at h
  split at h
  · cases h
  split at h
  · cases h
  split at h
  · cases h
  rename_i hk0 hk1 _
  have hk : 0 < c.mat.k := lt_of_le_of_ne (not_lt.1 hk1) (Ne.symm hk0)
  cases h
  refine ⟨⟨_, congrArg (fun x => [x]) (XF.fin_div _ hdt.ne'), ?_⟩, _, rfl, ?_⟩
  · obtain ⟨h1, h2⟩ := sqrt_sq_div ho (frob_self_nonneg _) hdt
    refine ⟨h1, h2.trans ?_⟩
    unfold frob
    refine Finset.sum_congr rfl fun i _ => Finset.sum_congr rfl fun j _ => ?_
    simp only [Matrix.add_apply, add_sub_cancel_left, pow_two]
  · have e : ∑ i, ∑ j, mp.dev_stress i j ^ 2 = frob mp.dev_stress mp.dev_stress := by
      unfold frob; simp only [pow_two]
    rw [e]
    have h0 := frob_self_nonneg mp.dev_stress
    have hs := ho.sqrt_nonneg _ h0
    have hq := ho.sqrt_mul _ h0
    have h2 := ho.sqrt_pos (two_pos : (0 : K) < 2)
    have h3 := ho.sqrt_mul _ (two_pos : (0 : K) < 2).le
    generalize c.ops.sqrt (frob mp.dev_stress mp.dev_stress) = S at *
    generalize c.ops.sqrt 2 = r at *
    have hrk : 0 < r * c.mat.k := mul_pos h2 hk
    have e2 : 2 * c.mat.k ^ 2 = (r * c.mat.k) ^ 2 := by rw [mul_pow, pow_two r, h3]
    rw [← hq, e2, ← pow_two]
    refine ⟨?_, ?_⟩
    · rw [sub_nonneg, one_le_div hrk, pow_le_pow_iff_left₀ hrk.le hs two_ne_zero]
    · rw [sub_eq_zero, div_eq_one_iff_eq hrk.ne', pow_left_inj₀ hs hrk.le two_ne_zero]

/-- C106.  The friction coefficient that `pouliquen` reports is the mu(I) curve at the inertial number
it reports. -/
theorem c106_friction {c : LawCtx K ns} (ho : GoodOps c.ops) {l1 l2 l3 : List K}
    (ha : HasArrays ns c.mat l1 l2 l3) (hdt : 0 < c.dt) (hrs : 0 ≤ c.mat.rho_s)
    {mp mp' : Particle K ns} {l : List (Vis × XF K)} (h : runLaw .pouliquen c mp = .ok (mp', l))
    (hp : mp.pressure ≠ 0) (hs : 0 ≤ ∑ i, mp.phi i * c.s i)
    (hI : 0 < ∑ i, mp.phi i * l3.getD i 0) :
    ∃ i m : K, listed .I l = [.fin i] ∧ listed .mu l = [.fin m] ∧ 0 ≤ i ∧
      i ^ 2 * |mp.pressure| = 4 * devSq (rate c.dt mp.dstrain) * (∑ i, mp.phi i * c.s i) ^ 2 *
        c.mat.rho_s ∧
      (m - ∑ i, mp.phi i * l1.getD i 0) * (∑ i, mp.phi i * l3.getD i 0 + i) =
        (∑ i, mp.phi i * l2.getD i 0) * i := by
  obtain ⟨e1, e2⟩ := c39_law ho ha hdt h
  have e2 := e2 hp hrs
  have f1 := pouliquen_listed h (v := .I) (by simp)
  have f2 := pouliquen_listed h (v := .mu) (by simp)
  rw [f1, f2]
  simp only [pointValue]
  have hp' : 0 < |mp.pressure| := abs_pos.2 hp
  set i : K := 2 * mnorm c.ops (deviator (rate c.dt mp.dstrain)) *
      (∑ i, mp.phi i * c.s i) * c.ops.sqrt (c.mat.rho_s / |mp.pressure|) with hi
  have hq : 0 ≤ c.mat.rho_s / |mp.pressure| := by positivity
  have hi0 : 0 ≤ i := mul_nonneg (mul_nonneg (mul_nonneg two_pos.le (mnorm_nonneg ho _)) hs)
    (ho.sqrt_nonneg _ hq)
  have hm : muI (∑ i, mp.phi i * l1.getD i 0) (∑ i, mp.phi i * l2.getD i 0)
      (∑ i, mp.phi i * l3.getD i 0) (.fin i) = .fin ((∑ i, mp.phi i * l1.getD i 0) +
        (∑ i, mp.phi i * l2.getD i 0) * i / ((∑ i, mp.phi i * l3.getD i 0) + i)) := by
    generalize (∑ i, mp.phi i * l3.getD i 0) = I_0 at *
    generalize (∑ i, mp.phi i * l2.getD i 0) = delta_mu at *
    rcases hi0.eq_or_lt with h0 | h0
    · rw [← h0]
      unfold muI
      rw [XF.fin_div_zero hI, mul_zero, zero_div]
      rfl
    · unfold muI
      have h2 : 0 < I_0 / i + 1 := by positivity
      rw [XF.fin_div _ h0.ne', XF.fin_add, XF.fin_div _ h2.ne', XF.fin_add]
      congr 2
      field_simp
  refine ⟨i, _, by rw [e2], by rw [e1, e2, Option.getD_some, hm], hi0, ?_, ?_⟩
  · have hn : mnorm c.ops (deviator (rate c.dt mp.dstrain)) ^ 2 = devSq (rate c.dt mp.dstrain) := by
      have e3 : ∑ i, ∑ j, deviator (rate c.dt mp.dstrain) i j * deviator (rate c.dt mp.dstrain) i j =
          devSq (rate c.dt mp.dstrain) := by unfold devSq; simp only [pow_two]
      unfold mnorm
      rw [pow_two, e3, ho.sqrt_mul _ (devSq_nonneg _)]
    have hr : c.ops.sqrt (c.mat.rho_s / |mp.pressure|) ^ 2 = c.mat.rho_s / |mp.pressure| := by
      rw [pow_two, ho.sqrt_mul _ hq]
    rw [hi, mul_pow, mul_pow, mul_pow, hn, hr]
    field_simp
    ring
  · rw [add_sub_cancel_left, div_mul_cancel₀]
    exact (add_pos_of_pos_of_nonneg hI hi0).ne'

/-- The shear rate a point stands for at the nodes: that of its strain increment under the solid
laws, nothing under the flow laws. -/
def Spec.reportedRate (o : Ops K) (dt : K) (law : Law) (mp : Particle K ns) : K :=
  if law = .elastic ∨ law = .elastic_time ∨ law = .von_mises then o.sqrt (devSq mp.dstrain) / dt
  else 0

theorem runLaw_dstrain {law : Law} {c : LawCtx K ns} {mp mp' : Particle K ns}
    {l : List (Vis × XF K)} (h : runLaw law c mp = .ok (mp', l)) : mp'.dstrain = mp.dstrain :=
  (runLaw_frame h).2.2.1

theorem runLaw_rate {law : Law} {c : LawCtx K ns} (hdt : c.dt ≠ 0) {mp mp' : Particle K ns}
    {l : List (Vis × XF K)} (hd : law ≠ .dp_rate ∧ law ≠ .ken_kamrin)
    (h : runLaw law c mp = .ok (mp', l)) :
    ∃ xs : List K, listed .gammadot l = xs.map .fin ∧
      xs.sum = reportedRate c.ops c.dt law mp' := by
  unfold reportedRate
  rw [runLaw_dstrain h]
  by_cases hl : law = .elastic ∨ law = .elastic_time ∨ law = .von_mises
  · rw [if_pos hl]
    refine ⟨[_], ?_, List.sum_singleton⟩
    rw [List.map_singleton, ← XF.fin_div _ hdt, ← frob_dev]
    rcases hl with rfl | rfl | rfl
    · cases h; rfl
    · simp only [runLaw, lawElasticTime] at h
      split at h
      · cases h
      · cases h; rfl
    · simp only [runLaw, lawVonMises] at h
      split at h
      · cases h
      split at h
      · cases h
      split at h
      · cases h
      cases h; rfl
  · rw [if_neg hl]
    refine ⟨[], ?_, rfl⟩
    cases law
    case dp => simp only [runLaw, lawDp] at h; split at h <;> cases h
    case viscous_size => cases h
    case pouliquen2D => cases h
    case other => cases h
    all_goals first
      | exact absurd rfl hd.1
      | exact absurd rfl hd.2
      | (exfalso; apply hl; simp; done)
      | exact c106_no_rate (by simp) h

theorem stressStrain_rate {N nx : ℕ} {M_tol : K} {G : Grid K N ns} {law : Law}
    {c : LawCtx K ns} (hdt : c.dt ≠ 0) {mp mp' : Particle K ns} {vis vis' : Vis → Fin N → XF K}
    (hd : law ≠ .dp_rate ∧ law ≠ .ken_kamrin)
    (h : mp.stressStrain nx M_tol G law c vis = .ok (mp', vis')) (k : Fin N) :
    vis' .gammadot k = vis .gammadot k +
      .fin (weight nx mp' k * mp'.m * reportedRate c.ops c.dt law mp') := by
  obtain ⟨mp1, mp2, l, _, h2, h3, rfl⟩ := stressStrain_ok h
  obtain ⟨xs, hx, hs⟩ := runLaw_rate hdt hd h2
  rw [scatterVis_fin h3 hx, hs]
  congr 2
  change weight nx mp2 k * reportedRate c.ops c.dt law mp2 * mp2.m =
    weight nx mp2 k * mp2.m * reportedRate c.ops c.dt law mp2
  ring

/-- C106.  The nodal shear rate after the first half of a time step (before it is divided by the
nodal mass): the sum over the points of shape function times mass times the shear rate of the point,
where only points of solid laws count. -/
theorem c106_nodal {P : Par K} {s s' : St P} (hL : Counted s.L) (hcy : P.B.cyclic_lr = false)
    (hdt : s.dyn.dt ≠ 0) (hd : ∀ a ∈ s.L, a.ph.law ≠ .dp_rate ∧ a.ph.law ≠ .ken_kamrin)
    (h : gridPhase P s = .ok s') (k : Fin P.G.N) :
    s'.G.vis .gammadot k = .fin (((items s'.L).map fun x =>
      weight P.G.nx x.2 k * x.2.m * reportedRate P.ops s.dyn.dt x.1.law x.2).sum) := by
  obtain ⟨T, rfl⟩ := gridPhase_ok h
  obtain ⟨e1, e2⟩ := gridPhase_vis hL T
  have r1 := updateForces_rel hL T.ha
  have rL := r1.comp (locate_all (r1.counted hL) T.hb T.hc).1
  change T.Gd.vis .gammadot k = _
  rw [e2]
  have edt : T.d.dt = s.dyn.dt := by rw [T.hd]; rfl
  have hLd := T.hLd
  unfold updateStressStrain at hLd
  obtain ⟨⟨L1, vis⟩, h1, h2⟩ := res_bind_ok.1 hLd
  rw [hcy] at h2
  obtain ⟨e3, e4⟩ := Prod.mk.inj (Except.ok.inj h2)
  have e3 : L1 = T.Ld := e3
  rw [← e4]
  change vis .gammadot k = _
  subst e3
  have key := forPhases_sum (π := fun v : Vis → Fin P.G.N → XF K => v .gammadot k)
    (w := fun a => (a.pts.map fun mp =>
      (XF.fin (weight P.G.nx mp k * mp.m * reportedRate P.ops s.dyn.dt a.ph.law mp) : XF K)).sum)
    (C := fun a => (a.ph.law ≠ .dp_rate ∧ a.ph.law ≠ .ken_kamrin) ∧ a.ph.n = a.pts.length) (by
      rintro p a v a' v' ⟨ha, hn⟩ h2
      obtain ⟨⟨pts, v1⟩, h3, h2⟩ := res_bind_ok.1 h2
      cases h2
      refine forN_sum (C := fun _ => True)
        (π := fun v : Vis → Fin P.G.N → XF K => v .gammadot k)
        (fun b s1 b' s1' _ hb => ?_) hn (fun _ _ => trivial) h3
      have := stressStrain_rate (by change T.d.dt ≠ 0; rw [edt]; exact hdt) ha hb k
      rw [← edt]
      exact this)
    (fun a ha => ⟨by
      obtain ⟨a0, ha0, e0, -⟩ := forall₂_right rL ha
      rw [e0]; exact hd a0 ha0, (T.rel hL).2.2.2.1 a ha⟩) h1
  refine key.trans ?_
  rw [e1]
  refine (zero_add _).trans ?_
  exact items_sum _ (fun ph mp => weight P.G.nx mp k * mp.m *
    reportedRate P.ops s.dyn.dt ph.law mp)

end
/-- The laws run on a point that shears, with the functions of real analysis. -/
example : GoodOps (Ex.ctxF (realOps 1)).ops ∧ 0 < (Ex.ctxF (realOps 1)).dt ∧
    (∃ r, runLaw .elastic (Ex.ctxF (realOps 1)) (Ex.pointF ℝ) = .ok r) ∧
    (∃ r, runLaw .von_mises (Ex.ctxF (realOps 1)) (Ex.pointF ℝ) = .ok r) ∧
    (∃ r, runLaw .viscous (Ex.ctxF (realOps 1)) (Ex.pointF ℝ) = .ok r) ∧
    (∃ r, runLaw .ken_kamrin (Ex.ctxS (realOps 1)) (Ex.pointF ℝ) = .ok r) ∧
    (∃ r, runLaw .bingham (Ex.ctxS (realOps 1)) (Ex.pointF ℝ) = .ok r) ∧
    (∃ r, runLaw .pouliquen (Ex.ctxF (realOps 1)) (Ex.pointF ℝ) = .ok r) ∧
    (Ex.pointF ℝ).dev_stress.trace = 0 ∧ (Ex.pointF ℝ).pressure ≠ 0 ∧
    devSq (Ex.pointF ℝ).dstrain = 8 := by
  have hdt : 0 < (Ex.ctxF (realOps 1)).dt := by simp [Ex.ctxF]
  have hdt' : (Ex.ctxS (realOps 1)).dt ≠ 0 := by simp [Ex.ctxS, Ex.ctxF]
  refine ⟨realOps_good one_pos, hdt, ⟨_, rfl⟩, c35_runs (by simp [Ex.ctxF, Ex.matF])
    (by simp [Ex.ctxF, Ex.matF]) _, c36_runs hdt.ne' _, ?_, c37_runs (mu0 := 2) rfl hdt'
    (by simp [Ex.ctxS, Ex.ctxF, Ex.matF]) _, ?_, ?_, ?_, ?_⟩
  · simp only [runLaw, lawKenKamrin, if_neg hdt']
    exact ⟨_, rfl⟩
  · have ha : HasArrays 2 (Ex.ctxF (realOps 1)).mat [1, 1] [1, 1] [1, 1] :=
      ⟨rfl, rfl, rfl, le_rfl, le_rfl, le_rfl⟩
    obtain ⟨r, hr, -⟩ := c38_total ha hdt (Ex.pointF ℝ)
    exact ⟨r, hr⟩
  · simp [Ex.pointF, Matrix.trace, Fin.sum_univ_three]
  · simp [Ex.pointF]
  · simp [Ex.pointF, devSq, deviator, Fin.sum_univ_three]; norm_num

/-- `ken_kamrin` reports its rate over the step size; `ken_simple` and `pouliquen` report none. -/
example : Ex.okAnd (runLaw .ken_kamrin (Ex.ctxS Ex.ops) (Ex.pointF ℚ)) (fun r =>
    decide (listed .gammadot r.2 = [.fin (r.1.gammadot * 100)] ∧ r.1.gammadot ≠ 0)) = true ∧
    Ex.okAnd (runLaw .ken_simple (Ex.ctxS Ex.ops) { Ex.pointF ℚ with rho := 2600 }) (fun r =>
    decide (listed .gammadot r.2 = [] ∧ listed .dev_stress r.2 ≠ [])) = true ∧
    Ex.okAnd (runLaw .linear_mu (Ex.ctxS Ex.ops) (Ex.pointF ℚ)) (fun r =>
    decide (listed .gammadot r.2 = [] ∧ listed .dev_stress r.2 ≠ [])) = true ∧
    Ex.okAnd (runLaw .dp_rate Ex.lawC Ex.mpP) (fun r =>
    decide (listed .gammadot r.2 = [.fin 0] ∧ listed .dev_stress r.2 = [.fin 3])) = true := by
  refine ⟨?_, ?_, ?_, ?_⟩ <;> decide +kernel

/-- Nodal shear rates of two elastic points that shear. -/
example : ∃ G s', mkGrid Ex.par.G Ex.par.B = .ok G ∧ Ex.par.B.cyclic_lr = false ∧
    gridPhase Ex.par { dyn := Ex.dyn, L := Ex.L, G := G } = .ok s' ∧ Ex.dyn.dt ≠ 0 ∧
    (∀ a ∈ Ex.L, a.ph.law ≠ .dp_rate ∧ a.ph.law ≠ .ken_kamrin) ∧
    s'.G.vis .gammadot ⟨4, by decide⟩ ≠ .fin 0 := by
  obtain ⟨G, h1, h2⟩ := Ex.okAnd_ok (r := mkGrid Ex.par.G Ex.par.B)
    (check := fun G => Ex.okAnd (gridPhase Ex.par { dyn := Ex.dyn, L := Ex.L, G := G })
      fun s' => decide (s'.G.vis .gammadot ⟨4, by decide⟩ ≠ .fin 0))
    (by decide +kernel)
  obtain ⟨s', h3, h4⟩ := Ex.okAnd_ok h2
  exact ⟨G, s', h1, rfl, h3, by decide +kernel, by decide +kernel, of_decide_eq_true h4⟩

end Mpm

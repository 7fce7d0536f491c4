import Verif.Model.FloatLaw
import Verif.Lemmas.MatClosed

/-! What a rounded law that succeeds has computed. -/

set_option linter.unusedSectionVars false

namespace Mpm

section
variable {K : Type} [Field K] [LinearOrder K] [IsStrictOrderedRing K] {rnd : K → K} {ns : ℕ}

/-- The point after `linear_mu`, given its viscosity. -/
structure LinearMuR (rnd : K → K) (c : LawCtx K ns) (mp : Particle K ns) (mu_0 : K) (b : Particle K ns) :
    Prop where
  whole : b = { mp with
    de_ij := shearR rnd mp
    gammadot := shearRateR rnd c mp
    I := b.I
    mu := b.mu
    eta := b.eta
    dev_stress := b.dev_stress
    pressure := if 0 < pressureR rnd c mp then 0 else pressureR rnd c mp
    dstress := b.dstress }
  I : b.I = inertialR rnd c.ops c.mat.rho_s (shearRateR rnd c mp) (meanSizeR rnd c.s mp.phi) mp.pressure
  mu : b.mu = some (XF.rd rnd (.fin mu_0 + XF.rd rnd (.fin c.mat.b * b.I)))
  eta : b.eta = (etaOfR rnd c.ops (XF.rd rnd (.fin mu_0 + XF.rd rnd (.fin c.mat.b * b.I))) mp.pressure
    (shearRateR rnd c mp)).min (.fin c.mat.eta_max)
  dev : ∀ i j, XF.rd rnd (XF.rd rnd (b.eta * .fin (shearR rnd mp i j)) / .fin c.dt) =
    .fin (b.dev_stress i j)
  inc : ∀ i j, b.dstress i j = rnd (rnd (rnd (b.pressure * (1 : Mat K) i j) + b.dev_stress i j) -
    mp.stress i j)

theorem linearMuR_ok {c : LawCtx K ns} {mp b : Particle K ns} {mu_0 : K}
    (h : linearMuR rnd c mp mu_0 = .ok b) : LinearMuR rnd c mp mu_0 b := by
  obtain ⟨d, hd, h⟩ := res_bind_ok.1 h
  obtain ⟨e, he, h⟩ := res_bind_ok.1 h
  cases h
  have he' := fun i j => finMat_ok he i j
  refine ⟨rfl, rfl, rfl, rfl, he', fun i j => ?_⟩
  have hd' := finMat_ok hd i j
  have e1 := he' i j
  dsimp only at hd' e1 ⊢
  rw [e1] at hd'
  rw [sub_eq_add_neg]
  exact (XF.fin.inj hd').symm

/-- Without shear there is no shear stress. -/
theorem LinearMuR.dev_zero (z : rnd 0 = 0) {c : LawCtx K ns} {mp b : Particle K ns} {mu_0 : K}
    (h : LinearMuR rnd c mp mu_0 b) (hd : c.dt ≠ 0) {i j : Fin 3} (h0 : shearR rnd mp i j = 0) :
    b.dev_stress i j = 0 := by
  have := h.dev i j
  rw [h0] at this
  cases he : b.eta with
  | fin e =>
    rw [he] at this
    change XF.rd rnd (XF.div (.fin (rnd (e * 0))) (.fin c.dt)) = _ at this
    simp only [XF.div, hd, if_false, mul_zero, z, zero_div, XF.rd] at this
    exact (XF.fin.inj this).symm
  | pinf => rw [he] at this; change XF.rd rnd (XF.rd rnd (if (0 : K) = 0 then _ else _) / _) = _ at this; rw [if_pos rfl] at this; cases this
  | ninf => rw [he] at this; change XF.rd rnd (XF.rd rnd (if (0 : K) = 0 then _ else _) / _) = _ at this; rw [if_pos rfl] at this; cases this
  | nan => rw [he] at this; cases this

/-- The outcome of a law. -/
theorem runLawR_ok {law : Law} {c : LawCtx K ns} {mp : Particle K ns} {x : LawResR K ns}
    (h : runLawR rnd law c mp = .ok x) :
    (law = .rigid ∧ x.1 = mp) ∨
    (law = .elastic ∧ x.1 = elasticR rnd c.ops c.mat.Kb c.mat.Gs mp) ∨
    (law = .elastic_time ∧ ∃ Kb Gs, x.1 = elasticTimeR rnd c.ops Kb Gs
      { mp with m := elasticTimeMassR rnd c mp.m mp.V }) ∨
    (law = .viscous ∧ c.dt ≠ 0 ∧ x.1 = viscousR rnd c mp) ∨
    (law = .pouliquen ∧ c.dt ≠ 0 ∧ ∃ q, phiMeansR rnd mp.phi c.mat.mu_0 c.mat.delta_mu c.mat.I_0 = .ok q ∧
      x.1 = pouliquenR rnd c mp q.1 q.2.1 q.2.2) ∨
    (law = .linear_mu ∧ c.dt ≠ 0 ∧ ∃ mu_0, c.mat.mu_0.num = .ok mu_0 ∧ LinearMuR rnd c mp mu_0 x.1) ∨
    (law = .ken_simple ∧ c.dt ≠ 0 ∧ ∃ mu_0, c.mat.mu_0.num = .ok mu_0 ∧ x.1 = kenSimpleR rnd c mp mu_0) := by
  unfold runLawR at h
  split at h
  · cases h; exact .inl ⟨rfl, rfl⟩
  · cases h; exact .inr (.inl ⟨rfl, rfl⟩)
  · dsimp only at h
    split_ifs at h
    cases h
    exact .inr (.inr (.inl ⟨rfl, _, _, rfl⟩))
  · split_ifs at h with hd
    cases h
    exact .inr (.inr (.inr (.inl ⟨rfl, hd, rfl⟩)))
  · obtain ⟨q, hq, h⟩ := res_bind_ok.1 h
    dsimp only at h
    split_ifs at h with hd
    cases h
    exact .inr (.inr (.inr (.inr (.inl ⟨rfl, hd, q, hq, rfl⟩))))
  · obtain ⟨q, hq, h⟩ := res_bind_ok.1 h
    split_ifs at h with hd
    obtain ⟨b, hb, h⟩ := res_bind_ok.1 h
    cases h
    exact .inr (.inr (.inr (.inr (.inr (.inl ⟨rfl, hd, q, hq, linearMuR_ok hb⟩)))))
  · obtain ⟨q, hq, h⟩ := res_bind_ok.1 h
    dsimp only at h
    split_ifs at h with hd
    cases h
    exact .inr (.inr (.inr (.inr (.inr (.inr ⟨rfl, hd, q, hq, rfl⟩)))))
  · cases h

end
end Mpm

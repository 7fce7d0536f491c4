import Verif.Lemmas.Law
import Verif.Props.History

/-!
# C33 to C35: elasticity, initial stress, von Mises plasticity
-/

set_option linter.unusedSectionVars false

namespace Mpm
open Spec

namespace Spec
variable {K : Type} [Field K] [LinearOrder K]

/-- `s` is the stress of an isotropic linear elastic solid with bulk modulus `Kb` and shear modulus
`Gs` at strain `e`: the traces are related by `3 Kb`, the deviators by `2 Gs`. -/
structure Isotropic (Kb Gs : K) (e s : Mat K) : Prop where
  vol : s.trace = 3 * Kb * e.trace
  dev : s - (s.trace / 3) • (1 : Mat K) = (2 * Gs) • (e - (e.trace / 3) • (1 : Mat K))

end Spec

section
variable {K : Type} [Field K] [LinearOrder K] [IsStrictOrderedRing K] [FloorRing K] {ns : ℕ}

/-! ## C33 -/

/-- At most one stress is related to a strain. -/
theorem isotropic_unique {Kb Gs : K} {e s s' : Mat K} (h : Isotropic Kb Gs e s)
    (h' : Isotropic Kb Gs e s') : s = s' := by
  have h1 := h.dev.trans h'.dev.symm
  rw [h.vol, h'.vol] at h1
  exact sub_left_injective h1

theorem hooke_isotropic (Kb Gs : K) (e : Mat K) : Isotropic Kb Gs e (hooke Kb Gs e) := by
  have htr : (hooke Kb Gs e).trace = 3 * Kb * e.trace := by
    unfold hooke
    rw [Matrix.trace_add, Matrix.trace_smul, Matrix.trace_smul, trace_sub_third, trace_one3]
    simp only [smul_eq_mul]; ring
  refine ⟨htr, ?_⟩
  rw [htr]
  unfold hooke
  have : 3 * Kb * e.trace / 3 = Kb * e.trace := by field_simp
  rw [this, add_sub_cancel_left]

theorem elastic_law {c : LawCtx K ns} {mp mp' : Particle K ns} {l : List (Vis × XF K)}
    (h : runLaw .elastic c mp = .ok (mp', l)) : mp'.dstress = hooke c.mat.Kb c.mat.Gs mp.dstrain := by
  cases h; rfl

/-- The elastic law never fails and is isotropic linear elasticity. -/
theorem c33_isotropic (c : LawCtx K ns) (mp : Particle K ns) :
    ∃ r, runLaw .elastic c mp = .ok r ∧ Isotropic c.mat.Kb c.mat.Gs mp.dstrain r.1.dstress ∧
      (mp.dstrain.IsSymm → r.1.dstress.IsSymm) := by
  refine ⟨_, rfl, hooke_isotropic c.mat.Kb c.mat.Gs mp.dstrain, fun h => ?_⟩
  exact (symmSet (ns := ns)).hooke c.mat.Kb c.mat.Gs h

/-- Linearity: the increment of a combination of strain increments is the combination of the
increments.  With `a = -1`, `b = 0` it says that opposite increments cancel. -/
theorem c33_linear {c : LawCtx K ns} {a b : K} {mp mp1 mp2 : Particle K ns}
    {r r1 r2 : LawRes K ns} (he : mp.dstrain = a • mp1.dstrain + b • mp2.dstrain)
    (h : runLaw .elastic c mp = .ok r) (h1 : runLaw .elastic c mp1 = .ok r1)
    (h2 : runLaw .elastic c mp2 = .ok r2) :
    r.1.dstress = a • r1.1.dstress + b • r2.1.dstress := by
  obtain ⟨r, l⟩ := r; obtain ⟨r1, l1⟩ := r1; obtain ⟨r2, l2⟩ := r2
  rw [elastic_law h, elastic_law h1, elastic_law h2, he]
  unfold hooke
  simp only [Matrix.trace_add, Matrix.trace_smul, smul_eq_mul]
  ext i j
  simp only [Matrix.add_apply, Matrix.sub_apply, Matrix.smul_apply, smul_eq_mul]
  ring

/-- Second-order work of the law is `K tr(e)^2 + 2G |dev e|^2`, hence non-negative; it is positive
for positive moduli and a non-zero strain increment. -/
theorem c33_work {c : LawCtx K ns} {mp mp' : Particle K ns} {l : List (Vis × XF K)}
    (h : runLaw .elastic c mp = .ok (mp', l)) :
    (0 ≤ c.mat.Kb → 0 ≤ c.mat.Gs → 0 ≤ frob mp'.dstress mp.dstrain) ∧
    (0 < c.mat.Kb → 0 < c.mat.Gs → mp.dstrain ≠ 0 → 0 < frob mp'.dstress mp.dstrain) := by
  rw [elastic_law h]
  generalize he : mp.dstrain = e
  have hd : frob (e - (e.trace / 3) • (1 : Mat K)) e =
      frob (e - (e.trace / 3) • (1 : Mat K)) (e - (e.trace / 3) • (1 : Mat K)) := by
    have h0 := trace_sub_third e
    generalize hD : e - (e.trace / 3) • (1 : Mat K) = D at h0 ⊢
    have : frob D D = frob e D - e.trace / 3 * D.trace := by
      rw [← frob_one D, ← frob_smul, ← frob_sub, hD]
    rw [this, h0, mul_zero, sub_zero, frob_comm]
  have hw : frob (hooke c.mat.Kb c.mat.Gs e) e = c.mat.Kb * (e.trace * e.trace) +
      2 * c.mat.Gs * frob (e - (e.trace / 3) • (1 : Mat K)) (e - (e.trace / 3) • (1 : Mat K)) := by
    unfold hooke
    rw [frob_add, frob_smul, frob_smul, frob_one, hd]; ring
  rw [hw]
  have n1 := mul_self_nonneg e.trace
  have n2 := frob_self_nonneg (e - (e.trace / 3) • (1 : Mat K))
  refine ⟨fun hK hG => by positivity, fun hK hG hne => ?_⟩
  by_cases ht : e.trace = 0
  · have : e - (e.trace / 3) • (1 : Mat K) ≠ 0 := by
      rw [ht]; simpa using hne
    have := frob_self_pos this
    positivity
  · have : 0 < e.trace * e.trace := mul_self_pos.2 ht
    positivity

/-- The moduli of `elastic_time` are those of Young's modulus `E_0` and Poisson ratio `nu`: a
uniaxial strain `e` with lateral contraction `-nu e` gives the uniaxial stress `E_0 e`. -/
theorem c33_young {c : LawCtx K ns} {mp mp' : Particle K ns} {l : List (Vis × XF K)} {e : K}
    (he : mp.dstrain = !![e, 0, 0; 0, -c.mat.nu * e, 0; 0, 0, -c.mat.nu * e])
    (h : runLaw .elastic_time c mp = .ok (mp', l)) :
    mp'.dstress = !![c.mat.E_0 * e, 0, 0; 0, 0, 0; 0, 0, 0] := by
  simp only [runLaw, lawElasticTime] at h
  split at h
  · cases h
  rename_i hz
  push Not at hz
  obtain ⟨h1, h2⟩ := hz
  cases h
  simp only [he, trace3]
  have h1 : (1 - 2 * c.mat.nu) ≠ 0 := fun h => h1 (by rw [h, mul_zero])
  have h2 : (1 + c.mat.nu) ≠ 0 := fun h => h2 (by rw [h, mul_zero])
  ext i j
  fin_cases i <;> fin_cases j <;> simp <;> field_simp <;> ring

/-- It refuses the incompressible limit. -/
theorem c33_young_fails {c : LawCtx K ns} (mp : Particle K ns)
    (h : c.mat.nu = 1 / 2 ∨ c.mat.nu = -1) : runLaw .elastic_time c mp = .error .zeroDiv := by
  have hc : 3 * (1 - 2 * c.mat.nu) = 0 ∨ 2 * (1 + c.mat.nu) = 0 := by
    rcases h with h | h
    · left; rw [h]; ring
    · right; rw [h]; ring
  simp only [runLaw, lawElasticTime, hc, if_true]

/-! ## C34 -/

theorem hooke_hookeInv {Kb Gs : K} (hK : Kb ≠ 0) (hG : Gs ≠ 0) (s : Mat K) :
    hooke Kb Gs (hookeInv Kb Gs s) = s := by
  have ht : (hookeInv Kb Gs s).trace = s.trace / (3 * Kb) := by
    unfold hookeInv
    rw [Matrix.trace_add, Matrix.trace_smul, Matrix.trace_smul, trace_sub_third, trace_one3]
    simp only [smul_eq_mul]; field_simp; ring
  unfold hooke
  rw [ht]
  unfold hookeInv
  ext i j
  simp only [Matrix.add_apply, Matrix.sub_apply, Matrix.smul_apply, smul_eq_mul]
  field_simp; ring

/-- Every freshly made point has the elastic strain of its stress, whatever the preset; the stress
is symmetric, `pressure` is its mean and `dev_stress` its deviator. -/
theorem c34_consistent {P : Par K} {S0 : First K} {ph : Phase K ns} {g x y : K}
    {phi : Option (Fin ns → K)} {mp : Particle K ns}
    (h : mkParticle P S0 ph g x y phi = .ok mp) :
    Isotropic ph.par.Kb ph.par.Gs mp.strain mp.stress ∧ mp.stress.IsSymm ∧
      mp.sigma_kk = mp.stress.trace ∧ mp.stress = mp.pressure • (1 : Mat K) + mp.dev_stress ∧
      mp.dev_stress.trace = 0 := by
  have hsym := mkParticle_symm h
  obtain ⟨st, h1, h⟩ := res_bind_ok.1 h
  obtain ⟨fl, h2, h⟩ := res_bind_ok.1 h
  have hiso : Isotropic ph.par.Kb ph.par.Gs st.2 st.1 := by
    unfold initStress at h1
    cases hp : P.pressure <;> rw [hp] at h1 <;> simp only at h1
    · split at h1
      · cases h1
      · rename_i hz
        push Not at hz
        cases h1
        have := hooke_isotropic ph.par.Kb ph.par.Gs
          (hookeInv ph.par.Kb ph.par.Gs (lithoStress P ph.par.rho y))
        rwa [hooke_hookeInv hz.1 hz.2] at this
    · cases h1; exact hooke_isotropic _ _ _
    · cases h1; exact hooke_isotropic _ _ _
    · split at h1
      · cases h1
      · rename_i hz
        push Not at hz
        cases h1
        have := hooke_isotropic ph.par.Kb ph.par.Gs
          (hookeInv ph.par.Kb ph.par.Gs ((-P.initial_pressure) • (1 : Mat K)))
        rwa [hooke_hookeInv hz.1 hz.2] at this
    · cases h1
      exact ⟨by simp, by simp⟩
  cases h
  refine ⟨hiso, hsym.stress, rfl, ?_, trace_sub_third _⟩
  simp only
  abel

/-- Hence the elastic law, run on a fresh point whose strain is applied as one increment, returns
its stress. -/
theorem c34_elastic {P : Par K} {S0 : First K} {ph : Phase K ns} {g x y : K}
    {phi : Option (Fin ns → K)} {mp mp' : Particle K ns} {c : LawCtx K ns}
    {l : List (Vis × XF K)} (h : mkParticle P S0 ph g x y phi = .ok mp) (hc : c.mat = ph.par)
    (hl : runLaw .elastic c { mp with dstrain := mp.strain } = .ok (mp', l)) :
    mp'.dstress = mp.stress := by
  have h1 := (c34_consistent h).1
  obtain ⟨r, hr, h2, -⟩ := c33_isotropic c { mp with dstrain := mp.strain }
  rw [hl, Except.ok.injEq] at hr
  subst hr
  rw [hc] at h2
  exact isotropic_unique h2 h1

/-- The free surface of the lithostatic preset. -/
def Spec.surface (P : Par K) : K := P.G.y_M - P.top_gap.getD 0

theorem litho_entries {P : Par K} {S0 : First K} {ph : Phase K ns} {g x y : K}
    {phi : Option (Fin ns → K)} {mp : Particle K ns} (hp : P.pressure = .lithostatic)
    (h : mkParticle P S0 ph g x y phi = .ok mp) :
    mp.stress = (ph.par.rho * P.max_g * (surface P - y)) •
      (!![P.cosθ, P.sinθ, 0; P.sinθ, P.cosθ, 0; 0, 0, P.cosθ] : Mat K) := by
  obtain ⟨st, h1, h⟩ := res_bind_ok.1 h
  obtain ⟨fl, h2, h⟩ := res_bind_ok.1 h
  unfold initStress at h1
  rw [hp] at h1
  simp only at h1
  split at h1
  · cases h1
  cases h1; cases h
  cases hg : P.top_gap <;> simp only [lithoStress, surface, hg, Option.getD_none, Option.getD_some]
  all_goals
    ext i j
    fin_cases i <;> fin_cases j <;> simp <;> ring

/-- Lithostatic: no stress at the free surface; below it, gravity pointing down, all normal
stresses are compressive, and no direction is in tension as long as the slope is at most 45
degrees. -/
theorem c34_lithostatic {P : Par K} {S0 : First K} {ph : Phase K ns} {g x y : K}
    {phi : Option (Fin ns → K)} {mp : Particle K ns} (hp : P.pressure = .lithostatic)
    (h : mkParticle P S0 ph g x y phi = .ok mp) :
    (y = surface P → mp.stress = 0) ∧
    (y < surface P → 0 < ph.par.rho → P.max_g < 0 → 0 < P.cosθ →
      (∀ i, mp.stress i i < 0) ∧ mp.pressure < 0 ∧
      (|P.sinθ| ≤ P.cosθ → ∀ v : Vec K, ∑ i, ∑ j, v i * mp.stress i j * v j ≤ 0)) := by
  have hs := litho_entries hp h
  obtain ⟨-, -, -, e2, e3⟩ := c34_consistent h
  refine ⟨fun hy => ?_, fun hy hr hg hc => ?_⟩
  · rw [hs, hy, sub_self, mul_zero, zero_smul]
  have hk : ph.par.rho * P.max_g * (surface P - y) < 0 :=
    mul_neg_of_neg_of_pos (mul_neg_of_pos_of_neg hr hg) (sub_pos.2 hy)
  generalize ph.par.rho * P.max_g * (surface P - y) = k at hs hk
  have hii : ∀ i, mp.stress i i = k * P.cosθ := by
    intro i; rw [hs]; fin_cases i <;> simp
  have hneg : k * P.cosθ < 0 := mul_neg_of_neg_of_pos hk hc
  refine ⟨fun i => by rw [hii]; exact hneg, ?_, fun ha v => ?_⟩
  · have := congrArg Matrix.trace e2
    rw [Matrix.trace_add, Matrix.trace_smul, e3, trace_one3, add_zero, trace3, hii, hii, hii,
      smul_eq_mul] at this
    linarith
  · have hq : ∑ i, ∑ j, v i * mp.stress i j * v j =
        k * (P.cosθ * (v 0 ^ 2 + v 1 ^ 2 + v 2 ^ 2) + 2 * P.sinθ * (v 0 * v 1)) := by
      rw [hs]; simp [Fin.sum_univ_three]; ring
    rw [hq]
    refine mul_nonpos_of_nonpos_of_nonneg hk.le ?_
    have h1 := abs_le.1 ha
    nlinarith [sq_nonneg (v 0 + v 1), sq_nonneg (v 0 - v 1), sq_nonneg (v 2), hc]

/-- Lithostatic: the stress gradient balances the weight, layer by layer: the traction
difference over any height is the weight of the column between (per unit area), in both directions. -/
theorem c34_equilibrium {P : Par K} {S0 : First K} {ph : Phase K ns} {g x y y' : K}
    {phi phi' : Option (Fin ns → K)} {mp mp' : Particle K ns} (hp : P.pressure = .lithostatic)
    (hg : g = P.max_g) (h : mkParticle P S0 ph g x y phi = .ok mp)
    (h' : mkParticle P S0 ph g x y' phi' = .ok mp') (i : Fin 3) :
    mp'.stress i 1 - mp.stress i 1 + (y' - y) * (ph.par.rho * mp.b i) = 0 := by
  have hb : mp.b = bodyForce P g := by
    obtain ⟨_, -, -, -, -, -, -, hb, -⟩ := mkParticle_fields h
    exact hb
  rw [litho_entries hp h, litho_entries hp h', hb, hg]
  unfold bodyForce
  fin_cases i <;> simp <;> ring

/-- 'compression': the isotropic stress of the given pressure. -/
theorem c34_compression {P : Par K} {S0 : First K} {ph : Phase K ns} {g x y : K}
    {phi : Option (Fin ns → K)} {mp : Particle K ns} (hp : P.pressure = .compression)
    (h : mkParticle P S0 ph g x y phi = .ok mp) :
    mp.stress = (-P.initial_pressure) • (1 : Mat K) ∧ mp.pressure = -P.initial_pressure ∧
      mp.dev_stress = 0 := by
  obtain ⟨st, h1, h⟩ := res_bind_ok.1 h
  obtain ⟨fl, h2, h⟩ := res_bind_ok.1 h
  unfold initStress at h1
  rw [hp] at h1
  simp only at h1
  split at h1
  · cases h1
  cases h1; cases h
  have ht : ((-P.initial_pressure) • (1 : Mat K)).trace / 3 = -P.initial_pressure := by
    rw [Matrix.trace_smul, trace_one3, smul_eq_mul]; field_simp
  refine ⟨rfl, ht, ?_⟩
  simp only [ht, sub_self]

/-! ## C35 -/

/-- What the von Mises law computes. -/
theorem vonMises_law {c : LawCtx K ns} {mp mp' : Particle K ns} {l : List (Vis × XF K)}
    (h : runLaw .von_mises c mp = .ok (mp', l)) :
    0 < c.mat.k ∧
    mp'.dev_stress = mp.dev_stress + (2 * c.mat.Gs) • ((mp.dstrain - (mp.dstrain.trace / 3) • 1) -
      (|frob mp.dev_stress (mp.dstrain - (mp.dstrain.trace / 3) • 1)| / (2 * c.mat.k ^ 2) *
        c.ops.pow (c.ops.sqrt (frob mp.dev_stress mp.dev_stress) / (c.ops.sqrt 2 * c.mat.k))
          (c.mat.s - 2)) • mp.dev_stress) ∧
    mp'.sigma_kk = mp.sigma_kk + 3 * c.mat.Kb * mp.dstrain.trace ∧
    mp'.stress = mp.stress ∧
    mp'.stress + mp'.dstress = mp'.dev_stress + (mp'.sigma_kk / 3) • 1 := by
  simp only [runLaw, lawVonMises] at h
  split at h
  · cases h
  rename_i h0
  split at h
  · cases h
  rename_i h1
  split at h
  · cases h
  cases h
  refine ⟨lt_of_le_of_ne (not_lt.1 h1) (Ne.symm h0), rfl, rfl, rfl, ?_⟩
  simp only [add_sub_cancel]

/-- One call: a traceless stored deviator stays traceless; the mean stress changes elastically; the
new stress is the stored deviator plus a third of the stored trace. -/
theorem c35_step {c : LawCtx K ns} {mp mp' : Particle K ns} {l : List (Vis × XF K)}
    (h : runLaw .von_mises c mp = .ok (mp', l)) :
    (mp.dev_stress.trace = 0 → mp'.dev_stress.trace = 0 ∧
      (mp'.stress + mp'.dstress).trace = mp.sigma_kk + 3 * c.mat.Kb * mp.dstrain.trace) ∧
    mp'.sigma_kk = mp.sigma_kk + 3 * c.mat.Kb * mp.dstrain.trace ∧
    mp'.stress + mp'.dstress = mp'.dev_stress + (mp'.sigma_kk / 3) • 1 := by
  obtain ⟨-, h1, h2, -, h3⟩ := vonMises_law h
  refine ⟨fun h0 => ?_, h2, h3⟩
  have ht : mp'.dev_stress.trace = 0 := by
    rw [h1, Matrix.trace_add, Matrix.trace_smul, Matrix.trace_sub, Matrix.trace_smul, h0,
      trace_sub_third]
    simp
  refine ⟨ht, ?_⟩
  rw [h3, Matrix.trace_add, ht, Matrix.trace_smul, trace_one3, h2, smul_eq_mul]
  field_simp; ring

/-- At the yield surface, any strain increment: the deviatoric stress does not grow to first order,
it does not change at all if the increment is along the current deviator, and in the opposite
direction it changes with twice the elastic stiffness. -/
theorem c35_yield {c : LawCtx K ns} (ho : GoodOps c.ops) {mp mp' : Particle K ns}
    {l : List (Vis × XF K)} (h : runLaw .von_mises c mp = .ok (mp', l))
    (hy : frob mp.dev_stress mp.dev_stress = 2 * c.mat.k ^ 2) (hG : 0 ≤ c.mat.Gs) :
    frob (mp'.dev_stress - mp.dev_stress) mp.dev_stress ≤ 0 ∧
    (∀ a : K, mp.dstrain - (mp.dstrain.trace / 3) • 1 = a • mp.dev_stress →
      (0 ≤ a → mp'.dev_stress = mp.dev_stress) ∧
      (a ≤ 0 → mp'.dev_stress = mp.dev_stress +
        (2 * (2 * c.mat.Gs)) • (mp.dstrain - (mp.dstrain.trace / 3) • 1))) := by
  obtain ⟨hk, h1, -⟩ := vonMises_law h
  have hk2 : (0 : K) < 2 * c.mat.k ^ 2 := by positivity
  have hs : c.ops.sqrt (frob mp.dev_stress mp.dev_stress) = c.ops.sqrt 2 * c.mat.k := by
    rw [hy, ho.sqrt_mul_of (by norm_num) (by positivity),
      ho.sqrt_eq hk.le (by ring : c.mat.k * c.mat.k = c.mat.k ^ 2)]
  have h2 : c.ops.sqrt 2 * c.mat.k ≠ 0 := (mul_pos (ho.sqrt_pos (by norm_num)) hk).ne'
  rw [hs, div_self h2, ho.one_pow, mul_one] at h1
  constructor
  · rw [h1, add_sub_cancel_left, frob_smul, frob_sub, frob_smul, hy,
      frob_comm _ mp.dev_stress, div_mul_cancel₀ _ hk2.ne']
    have := le_abs_self (frob mp.dev_stress (mp.dstrain - (mp.dstrain.trace / 3) • 1))
    nlinarith
  · intro a ha
    rw [ha, frob_smul_right, hy, abs_mul, abs_of_pos hk2, mul_div_cancel_right₀ _ hk2.ne'] at h1
    refine ⟨fun h0 => ?_, fun h0 => ?_⟩
    · rw [h1, abs_of_nonneg h0, sub_self, smul_zero, add_zero]
    · rw [h1, abs_of_nonpos h0, ha, neg_smul, sub_neg_eq_add, ← two_smul K, smul_smul, mul_comm]

/-- From zero deviatoric stress the first increment is elastic. -/
theorem c35_elastic_start {c : LawCtx K ns} {mp mp' : Particle K ns} {l : List (Vis × XF K)}
    (h : runLaw .von_mises c mp = .ok (mp', l)) (h0 : mp.dev_stress = 0) :
    mp'.dev_stress = (2 * c.mat.Gs) • (mp.dstrain - (mp.dstrain.trace / 3) • 1) := by
  obtain ⟨-, h1, -⟩ := vonMises_law h
  rw [h1, h0, smul_zero, sub_zero, zero_add]

/-- The law runs for every state when `k > 0` and the exponent is at least 2. -/
theorem c35_runs {c : LawCtx K ns} (hk : 0 < c.mat.k) (hs : 2 ≤ c.mat.s) (mp : Particle K ns) :
    ∃ r, runLaw .von_mises c mp = .ok r := by
  have h1 : ¬ (c.ops.sqrt (frob mp.dev_stress mp.dev_stress) = 0 ∧ c.mat.s - 2 < 0) := by
    rintro ⟨-, h⟩; linarith
  simp only [runLaw, lawVonMises, hk.ne', not_lt.2 hk.le, h1, if_false]
  exact ⟨_, rfl⟩

/-- Over any run: the stored deviators of a von Mises phase stay traceless, including those of
points made by inlets. -/
theorem c35_traceless {P : Par K} {interp : Interp K P.G.N} {n : ℕ} {s s' : St P}
    (hL : Counted s.L)
    (h0 : ∀ A ∈ s.L, A.ph.law = .von_mises → ∀ mp ∈ A.pts, mp.dev_stress.trace = 0)
    (h : steps P interp n s = .ok s') :
    ∀ A ∈ s'.L, A.ph.law = .von_mises → ∀ mp ∈ A.pts, mp.dev_stress.trace = 0 := by
  refine (fun hR => ?_) (steps_descend (s := s) (n := n)
    (fun _ ph a b => ph.law = .von_mises → a.dev_stress.trace = 0 → b.dev_stress.trace = 0)
    (fun _ _ _ _ h => h) (fun _ _ _ _ _ h1 h2 hl h => h2 hl (h1 hl h))
    (fun _ _ _ _ _ hs h hl => h (by rw [hs.fields.1]; exact hl)) ?_ hL h).2
  · intro B hB hl b hb
    obtain ⟨i, hi⟩ := List.mem_iff_getElem?.1 hB
    obtain ⟨A, hA, hs, k⟩ := hR.left hi
    rw [hs.fields.1] at hl
    rcases k b hb with ⟨a, ha, hab⟩ | ⟨-, d, f, -, ⟨S0, ph', x, y, mp, -, hm, rfl⟩, hfb⟩
    · exact hab hl (h0 A (List.mem_of_getElem? hA) hl a ha)
    · refine hfb hl ?_
      rw [wrapped_frame]
      exact (c34_consistent hm).2.2.2.2
  · intro d _ m0 Gw Gb Gm p ph a b hev hl ht
    obtain ⟨a3, a4, a5, l, e3, h4, h5, hb⟩ := hev.law
    obtain ⟨nd, _, rfl⟩ := updateStrain_ok h4
    rw [hl] at h5
    have h3 : a3.dev_stress.trace = 0 := by rw [e3]; exact ht
    have := ((c35_step h5).1 h3).1
    rw [hb]
    exact this

end

/-! ## Examples -/

/-- Material parameters over any field. -/
def Ex.matF (K : Type) [Field K] : Mat0 K :=
  { rho := 1, rho_s := 1, Kb := 10, Gs := 5, k := 1, s := 2, mu_s := 1, mu_v := 0, mu_1 := 0
    mu_2 := 1, mu_0 := .arr [1, 1], delta_mu := .arr [1, 1], I_0 := .arr [1, 1], tau_0 := 1
    gamma_c := 1, eta_max := 100, b := 1, E_0 := 1, nu := 1/4, t_0 := 0, rho_f := 1, mu := 1
    beta := 1, t_star := 1, packing := 1 }

def Ex.ctxF {K : Type} [Field K] (o : Ops K) : LawCtx K 2 :=
  { ops := o, mat := Ex.matF K, mat0 := Ex.matF K, p := 0, t := 1, dt := 1 / 100, s := ![1, 2]
    max_g := -10, height := 2 }

/-- A point at yield (`k = 1`) that is strained against its deviatoric stress. -/
def Ex.pointF (K : Type) [Field K] : Particle K 2 :=
  { rho := 1, x := 0, v := .own 0, V := 1, m := 1, b := 0
    stress := !![1, 0, 0; 0, -1, 0; 0, 0, 0], strain := 0
    dstrain := !![-2, 0, 0; 0, 2, 0; 0, 0, 0], dstress := 0, de_ij := 0
    dev_stress := !![1, 0, 0; 0, -1, 0; 0, 0, 0]
    sigma_kk := 0, gammadot := 0, pressure := -1, pk := 0, sigmav := 0
    sigmah := 0, yieldfunction := 0, Gs := fun _ => 0, N := fun _ => 0, n_star := 0
    phi := ![1/4, 3/4], LL := 0, mu := none, I := .fin 0, eta := .fin 0 }

/-- The hypotheses of `c33_linear`, `c33_work` and the failure cases. -/
example : ∃ r, runLaw .elastic (Ex.ctxF Ex.ops) (Ex.pointF ℚ) = .ok r ∧ (Ex.pointF ℚ).dstrain ≠ 0 ∧
    frob r.1.dstress (Ex.pointF ℚ).dstrain = 80 :=
  ⟨_, rfl, by decide +kernel, by decide +kernel⟩

example : ∃ r, runLaw .elastic_time (Ex.ctxF Ex.ops)
    { Ex.pointF ℚ with dstrain := !![1, 0, 0; 0, -(1/4) * 1, 0; 0, 0, -(1/4) * 1] } = .ok r ∧
    r.1.dstress 0 0 = 1 := by
  obtain ⟨r, h1, h2⟩ := Ex.okAnd_ok (r := runLaw .elastic_time (Ex.ctxF Ex.ops)
    { Ex.pointF ℚ with dstrain := !![1, 0, 0; 0, -(1/4) * 1, 0; 0, 0, -(1/4) * 1] })
    (check := fun r => decide (r.1.dstress 0 0 = 1)) (by decide +kernel)
  exact ⟨r, h1, of_decide_eq_true h2⟩

/-- A slope of slope angle with sine 3/5: a point is made below the surface, under compression. -/
example : ∃ mp, mkParticle { Ex.par with pressure := .lithostatic, sinθ := 3/5, cosθ := 4/5
                                         top_gap := some (1/2) }
      { law := .elastic, rho := 1 } Ex.ph (-10) 1 1 none = .ok mp ∧
    mp.stress = !![-4, -3, 0; -3, -4, 0; 0, 0, -4] := by
  obtain ⟨r, h1, h2⟩ := Ex.okAnd_ok (r := mkParticle { Ex.par with
        pressure := .lithostatic, sinθ := 3/5, cosθ := 4/5, top_gap := some (1/2) }
      { law := .elastic, rho := 1 } Ex.ph (-10) 1 1 none)
    (check := fun r => decide (r.stress = !![-4, -3, 0; -3, -4, 0; 0, 0, -4])) (by decide +kernel)
  exact ⟨r, h1, of_decide_eq_true h2⟩

example : ∃ mp, mkParticle { Ex.par with pressure := .compression, initial_pressure := 7 }
      { law := .elastic, rho := 1 } Ex.ph (-10) 1 1 none = .ok mp ∧ mp.pressure = -7 := by
  obtain ⟨r, h1, h2⟩ := Ex.okAnd_ok (r := mkParticle { Ex.par with
      pressure := .compression, initial_pressure := 7 }
      { law := .elastic, rho := 1 } Ex.ph (-10) 1 1 none)
    (check := fun r => decide (r.pressure = -7)) (by decide +kernel)
  exact ⟨r, h1, of_decide_eq_true h2⟩

/-- The yield theorem applies, with the opposite direction, to the real square root. -/
example : ∃ r, runLaw .von_mises (Ex.ctxF (realOps 1)) (Ex.pointF ℝ) = .ok r ∧
    GoodOps (Ex.ctxF (realOps 1)).ops ∧
    frob (Ex.pointF ℝ).dev_stress (Ex.pointF ℝ).dev_stress = 2 * (Ex.ctxF (realOps 1)).mat.k ^ 2 ∧
    (Ex.pointF ℝ).dstrain - ((Ex.pointF ℝ).dstrain.trace / 3) • 1 =
      (-2 : ℝ) • (Ex.pointF ℝ).dev_stress := by
  obtain ⟨r, h⟩ := c35_runs (c := Ex.ctxF (realOps 1)) (by simp [Ex.ctxF, Ex.matF])
    (by simp [Ex.ctxF, Ex.matF]) (Ex.pointF ℝ)
  refine ⟨r, h, realOps_good one_pos, ?_, ?_⟩
  · simp [frob, Ex.pointF, Ex.ctxF, Ex.matF, Fin.sum_univ_three]; norm_num
  · ext i j
    fin_cases i <;> fin_cases j <;> simp [Ex.pointF, trace3]

/-- A von Mises phase over two steps, straining. -/
example : ∃ s s' : St Ex.par, Counted s.L ∧
    (∀ A ∈ s.L, A.ph.law = .von_mises → ∀ mp ∈ A.pts, mp.dev_stress.trace = 0) ∧
    steps Ex.par (Ex.noInterp _) 2 s = .ok s' ∧
    ∃ A ∈ s'.L, A.ph.law = .von_mises ∧ ∃ mp ∈ A.pts, mp.dev_stress ≠ 0 := by
  obtain ⟨G, s', hG, hs, hc⟩ := Ex.run_ok (P := Ex.par) (d := Ex.dyn)
    (L := [{ ph := { Ex.ph with law := .von_mises }, pts := [Ex.mp, Ex.mp2] }]) (n := 2)
    (check := fun s => decide (∃ A ∈ s.L, A.ph.law = .von_mises ∧ ∃ mp ∈ A.pts, mp.dev_stress ≠ 0))
    (by decide +kernel)
  refine ⟨_, s', ?_, ?_, hs, of_decide_eq_true hc⟩
  · have : ∀ a ∈ ([{ ph := { Ex.ph with law := .von_mises }, pts := [Ex.mp, Ex.mp2] }] :
      List (PhaseSt ℚ 2)), a.ph.n = a.pts.length := by decide +kernel
    exact this
  · have : ∀ A ∈ ([{ ph := { Ex.ph with law := .von_mises }, pts := [Ex.mp, Ex.mp2] }] :
      List (PhaseSt ℚ 2)), A.ph.law = .von_mises → ∀ mp ∈ A.pts, mp.dev_stress.trace = 0 := by
      decide +kernel
    exact this

end Mpm

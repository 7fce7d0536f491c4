import Verif.Lemmas.Scale
import Verif.Lemmas.Law
import Verif.Props.Fluids

/-! The constitutive laws in other units. -/

set_option linter.unusedSectionVars false

namespace Mpm
open Spec

namespace Spec
section
variable {K : Type} [Field K] [LinearOrder K] {ns : ℕ} (U : NewUnits K)

/-- A parameter given as a number or an array. -/
def scaleNum (c : K) : PyNum K → PyNum K
  | .scalar x => .scalar (c * x)
  | .arr l => .arr (l.map (c * ·))

/-- `mu_s` is a viscosity for two laws and a friction coefficient for `ken_kamrin`. -/
def musUnit (law : Law) : K := if law = .viscous ∨ law = .bingham then U.visc else 1

/-- `mu_0` is a viscosity for `bingham` and a friction coefficient otherwise. -/
def mu0Unit (law : Law) : K := if law = .bingham then U.visc else 1

/-- The attribute `gammadot` of a point is a rate for some laws and an increment for the others. -/
def gammaUnit (law : Law) : K :=
  if law = .viscous ∨ law = .bingham ∨ law = .pouliquen ∨ law = .linear_mu ∨ law = .ken_kamrin ∨
    law = .ken_simple then U.rate else 1

/-- Material parameters in the new units.  `t_star` has no unit. -/
def scaleMat (law : Law) (m : Mat0 K) : Mat0 K :=
  { m with
    rho := U.dens * m.rho, rho_s := U.dens * m.rho_s, rho_f := U.dens * m.rho_f
    Kb := U.stress * m.Kb, Gs := U.stress * m.Gs, k := U.stress * m.k, E_0 := U.stress * m.E_0
    tau_0 := U.stress * m.tau_0
    mu_s := musUnit U law * m.mu_s, mu_v := U.visc * m.mu_v, eta_max := U.visc * m.eta_max
    mu_0 := scaleNum (mu0Unit U law) m.mu_0
    gamma_c := U.rate * m.gamma_c, t_0 := U.T * m.t_0 }

/-- A velocity. -/
def scaleV : VRef K → VRef K
  | .own v => .own (U.vel • v)
  | .shared => .shared

/-- A point of a phase with law `law`. -/
def scalePt (law : Law) (mp : Particle K ns) : Particle K ns :=
  { rho := U.dens * mp.rho, x := U.L • mp.x, v := scaleV U mp.v, V := U.vol * mp.V, m := U.M * mp.m
    b := U.acc • mp.b, stress := U.stress • mp.stress, strain := mp.strain, dstrain := mp.dstrain
    dstress := U.stress • mp.dstress, de_ij := mp.de_ij, dev_stress := U.stress • mp.dev_stress
    sigma_kk := U.stress * mp.sigma_kk, gammadot := gammaUnit U law * mp.gammadot
    pressure := U.stress * mp.pressure, pk := U.stress * mp.pk, sigmav := U.stress * mp.sigmav
    sigmah := U.stress * mp.sigmah, yieldfunction := mp.yieldfunction
    Gs := fun r => (1 / U.L) • mp.Gs r, N := mp.N, n_star := mp.n_star, phi := mp.phi
    LL := U.rate • mp.LL, mu := mp.mu, I := mp.I, eta := scaleX U.visc mp.eta }

/-- What a law reads. -/
def scaleCtx (law law0 : Law) (c : LawCtx K ns) : LawCtx K ns :=
  { ops := c.ops, mat := scaleMat U law c.mat, mat0 := scaleMat U law0 c.mat0, p := c.p
    t := U.T * c.t, dt := U.T * c.dt, s := U.L • c.s, max_g := U.acc * c.max_g
    height := U.L * c.height }

/-- Units of the values that laws report to the nodes. -/
def visUnit : Vis → K
  | .gammadot => U.rate
  | .yieldfunction | .mu_s | .mu | .I => 1
  | .pressure | .sigmah | .sigmav | .dev_stress => U.stress
  | .dev_stress_dot => U.stress / U.T
  | .eta => U.visc

/-- A list of reports. -/
def scaleVis (l : List (Vis × XF K)) : List (Vis × XF K) :=
  l.map fun e => (e.1, scaleX (visUnit U e.1) e.2)

/-- The laws whose formulas have consistent units. -/
def Dimensional (law : Law) : Prop := law ≠ .ken_kamrin ∧ law ≠ .ken_simple

/-- The laws that take square roots. -/
def TakesRoot (law : Law) : Prop :=
  law = .von_mises ∨ law = .dp_rate ∨ law = .viscous ∨ law = .bingham ∨ law = .pouliquen ∨
    law = .linear_mu

/-- Sizes and fractions are not negative, nor is `I_0` of the law `pouliquen`. -/
def Sized (law : Law) (m : Mat0 K) (s phi : Fin ns → K) : Prop :=
  law = .pouliquen → (∀ j, 0 ≤ s j) ∧ (∀ j, 0 ≤ phi j) ∧ ∀ l, m.I_0 = .arr l → ∀ x ∈ l, 0 ≤ x

end
end Spec

section
variable {K : Type} [Field K] [LinearOrder K] [IsStrictOrderedRing K] {ns : ℕ} {U : NewUnits K}

theorem Spec.NewUnits.stress_pos : 0 < U.stress := by
  have := U.M_pos; have := U.T_pos; have := U.W_pos; unfold NewUnits.stress; positivity
theorem Spec.NewUnits.vol_pos : 0 < U.vol := by
  have := U.L_pos; have := U.W_pos; unfold NewUnits.vol; positivity
theorem Spec.NewUnits.dens_pos : 0 < U.dens := by
  have := U.M_pos; have := U.vol_pos; unfold NewUnits.dens; positivity
theorem Spec.NewUnits.visc_pos : 0 < U.visc := by
  have := U.M_pos; have := U.T_pos; have := U.W_pos; unfold NewUnits.visc; positivity
theorem Spec.NewUnits.rate_pos : 0 < U.rate := by
  have := U.T_pos; unfold NewUnits.rate; positivity

theorem Spec.NewUnits.M_ne : U.M ≠ 0 := U.M_pos.ne'
theorem Spec.NewUnits.L_ne : U.L ≠ 0 := U.L_pos.ne'
theorem Spec.NewUnits.T_ne : U.T ≠ 0 := U.T_pos.ne'
theorem Spec.NewUnits.W_ne : U.W ≠ 0 := U.W_pos.ne'

theorem num_scale (c : K) (a : PyNum K) : (scaleNum c a).num = (c * ·) <$> a.num := by
  cases a <;> rfl

theorem num_scale_one (a : PyNum K) : scaleNum 1 a = a := by
  cases a <;> simp [scaleNum]

theorem fin_div_scale {a b c x y z w: K} (ha : 0 < a) (hb : 0 < b) (hx : z = a * x) (hy : w = b * y)
    (hc : c = a / b) : (XF.fin z / XF.fin w : XF K) = scaleX c (.fin x / .fin y) := by
  rw [hx, hy, hc]
  exact scaleX_div ha hb (.fin x) (.fin y)

theorem trace_scale (c : K) {n : ℕ} (A : Matrix (Fin n) (Fin n) K) : (c • A).trace = c * A.trace :=
  Matrix.trace_smul c A

theorem elastic_scale (law0 : Law) (c : LawCtx K ns) (mp : Particle K ns) :
    lawElastic (scaleCtx U .elastic law0 c) (scalePt U .elastic mp) =
      Prod.map (scalePt U .elastic) (scaleVis U) <$> lawElastic c mp := by
  have hg : gammaUnit U .elastic = 1 := rfl
  unfold lawElastic
  refine congrArg Except.ok (Prod.ext ?_ ?_)
  · simp only [Prod.map, scalePt, scaleCtx, scaleMat, Particle.mk.injEq, true_and, and_true, hg,
      trace_scale, one_mul, Matrix.smul_apply, smul_eq_mul, mul_div_assoc]
    rw [smul_add, smul_smul, smul_smul]
    congr 2 <;> ring
  · simp only [Prod.map, scaleVis, List.map_cons, List.map_nil, visUnit]
    refine List.cons_eq_cons.2 ⟨Prod.ext rfl ?_, List.cons_eq_cons.2 ⟨Prod.ext rfl ?_, ?_⟩⟩
    · exact congrArg XF.fin (by simp only [scalePt, trace_scale]; ring)
    · exact fin_div_scale zero_lt_one U.T_pos (one_mul _).symm rfl rfl
    · rfl

theorem ite_iff {γ δ : Type} {g : γ → δ} {c c' : Prop} [Decidable c] [Decidable c'] (hc : c' ↔ c)
    {x y : Res γ} {x' y' : Res δ} (hx : x' = g <$> x) (hy : y' = g <$> y) :
    (if c' then x' else y') = g <$> (if c then x else y) := by
  by_cases h : c
  · rw [if_pos h, if_pos (hc.2 h), hx]
  · rw [if_neg h, if_neg (mt hc.1 h), hy]

theorem mul_eq_zero_iff' {c : K} (hc : 0 < c) (x : K) : c * x = 0 ↔ x = 0 := by simp [hc.ne']

theorem mul_neg_iff' {c : K} (hc : 0 < c) (x : K) : c * x < 0 ↔ x < 0 := by
  rw [mul_neg_iff]; simp [hc, hc.le.not_gt]

theorem mass_scale (law0 : Law) (c : LawCtx K ns) (m V : K) :
    elasticTimeMass (scaleCtx U .elastic_time law0 c) (U.M * m) (U.vol * V) =
      U.M * elasticTimeMass c m V := by
  unfold elasticTimeMass
  have h1 : (scaleCtx U .elastic_time law0 c).p = 0 ∧
      (scaleCtx U .elastic_time law0 c).mat.t_0 < (scaleCtx U .elastic_time law0 c).t ↔
      c.p = 0 ∧ c.mat.t_0 < c.t :=
    and_congr Iff.rfl (mul_lt_mul_iff_right₀ U.T_pos)
  have h2 : (scaleCtx U .elastic_time law0 c).mat.rho_f * (U.vol * V) < U.M * m ↔
      c.mat.rho_f * V < m := by
    have : (scaleCtx U .elastic_time law0 c).mat.rho_f * (U.vol * V) = U.M * (c.mat.rho_f * V) := by
      have := U.vol_pos.ne'
      simp only [scaleCtx, scaleMat, NewUnits.dens]
      field_simp
    rw [this]
    exact mul_lt_mul_iff_right₀ U.M_pos
  simp only [h1, h2]
  split_ifs <;> ring

theorem elasticTime_scale (law0 : Law) (c : LawCtx K ns) (mp : Particle K ns) :
    lawElasticTime (scaleCtx U .elastic_time law0 c) (scalePt U .elastic_time mp) =
      Prod.map (scalePt U .elastic_time) (scaleVis U) <$> lawElasticTime c mp := by
  have hg : gammaUnit U .elastic_time = 1 := rfl
  have hm := mass_scale (U := U) law0 c mp.m mp.V
  unfold lawElasticTime
  refine ite_equiv rfl (congrArg Except.ok (Prod.ext ?_ ?_))
  · simp only [Prod.map, scalePt, Particle.mk.injEq, true_and, and_true, hg,
      trace_scale, one_mul, Matrix.smul_apply, smul_eq_mul]
    refine ⟨hm, ?_, rfl, by ring, by ring, by ring⟩
    simp only [scaleCtx, scaleMat]
    rw [smul_add, smul_smul, smul_smul]
    congr 2 <;> ring
  · simp only [Prod.map, scaleVis, List.map_cons, List.map_nil, visUnit]
    refine List.cons_eq_cons.2 ⟨Prod.ext rfl ?_, List.cons_eq_cons.2 ⟨Prod.ext rfl ?_,
      List.cons_eq_cons.2 ⟨Prod.ext rfl ?_, List.cons_eq_cons.2 ⟨Prod.ext rfl ?_, rfl⟩⟩⟩⟩
    · exact congrArg XF.fin (by simp only [scalePt, trace_scale]; ring)
    · exact fin_div_scale zero_lt_one U.T_pos (one_mul _).symm rfl rfl
    · exact congrArg XF.fin (mul_neg _ _).symm
    · exact congrArg XF.fin (mul_neg _ _).symm

theorem vonMises_scale (law0 : Law) (c : LawCtx K ns) (ho : GoodOps c.ops) (mp : Particle K ns) :
    lawVonMises (scaleCtx U .von_mises law0 c) (scalePt U .von_mises mp) =
      Prod.map (scalePt U .von_mises) (scaleVis U) <$> lawVonMises c mp := by
  have hg : gammaUnit U .von_mises = 1 := rfl
  have hs := U.stress_pos
  have hn : c.ops.sqrt (frob (U.stress • mp.dev_stress) (U.stress • mp.dev_stress)) =
    U.stress * c.ops.sqrt (frob mp.dev_stress mp.dev_stress) := norm_smul' ho hs.le _
  have hr : ∀ n k : K, U.stress * n / (c.ops.sqrt 2 * (U.stress * k)) = n / (c.ops.sqrt 2 * k) := by
    intro n k
    rw [mul_left_comm, mul_div_mul_left _ _ hs.ne']
  set n := c.ops.sqrt (frob mp.dev_stress mp.dev_stress) with hnd
  have hd : ∀ e : Mat K, (2 * (U.stress * c.mat.Gs)) •
      (e - (|frob (U.stress • mp.dev_stress) e| / (2 * (U.stress * c.mat.k) ^ 2) *
        c.ops.pow (n / (c.ops.sqrt 2 * c.mat.k)) (c.mat.s - 2)) • (U.stress • mp.dev_stress)) =
      U.stress • ((2 * c.mat.Gs) • (e - (|frob mp.dev_stress e| / (2 * c.mat.k ^ 2) *
        c.ops.pow (n / (c.ops.sqrt 2 * c.mat.k)) (c.mat.s - 2)) • mp.dev_stress)) := by
    intro e
    rw [frob_smul, abs_mul, abs_of_pos hs, smul_smul, smul_smul]
    congr 1
    · ring
    · congr 2
      rw [mul_pow]
      by_cases hk : c.mat.k = 0
      · simp [hk]
      · field_simp
  unfold lawVonMises
  simp only [scaleCtx, scaleMat, scalePt, hn, ← hnd]
  refine ite_iff (mul_eq_zero_iff' hs _) rfl (ite_iff (mul_neg_iff' hs _) rfl
    (ite_iff (and_congr_left fun _ => mul_eq_zero_iff' hs _) rfl ?_))
  simp only [hr, hd, ← smul_add]
  refine congrArg Except.ok (Prod.ext ?_ ?_)
  · simp only [Prod.map, scalePt, Particle.mk.injEq, true_and, and_true, hg,
      trace_scale, one_mul, Matrix.smul_apply, smul_eq_mul]
    refine ⟨?_, ?_, by ring⟩
    · have e : ∀ a b d : K, (U.stress * a + 3 * (U.stress * b) * d) / 3 =
          U.stress * ((a + 3 * b * d) / 3) := by intros; ring
      rw [e, mul_smul U.stress (_ / 3), ← smul_add, ← smul_sub]
    · ring
  · simp only [Prod.map, scaleVis, List.map_cons, List.map_nil, visUnit]
    refine List.cons_eq_cons.2 ⟨Prod.ext rfl ?_, List.cons_eq_cons.2 ⟨Prod.ext rfl ?_,
      List.cons_eq_cons.2 ⟨Prod.ext rfl ?_, List.cons_eq_cons.2 ⟨Prod.ext rfl rfl,
        List.cons_eq_cons.2 ⟨Prod.ext rfl rfl, List.cons_eq_cons.2 ⟨Prod.ext rfl ?_,
          List.cons_eq_cons.2 ⟨Prod.ext rfl ?_, rfl⟩⟩⟩⟩⟩⟩⟩
    · exact congrArg XF.fin (by simp only [trace_scale]; ring)
    · exact (scaleX_one _).symm
    · exact fin_div_scale zero_lt_one U.T_pos (one_mul _).symm rfl rfl
    · exact congrArg XF.fin (norm_smul' ho hs.le _)
    · exact fin_div_scale hs U.T_pos (norm_smul' ho hs.le _) rfl rfl

theorem dp_scale (law0 : Law) (c : LawCtx K ns) (mp : Particle K ns) :
    lawDp (scaleCtx U .dp law0 c) (scalePt U .dp mp) =
      Prod.map (scalePt U .dp) (scaleVis U) <$> lawDp c mp := by
  unfold lawDp
  have h : (scalePt U .dp mp).mu = mp.mu := rfl
  rw [h]
  cases mp.mu <;> rfl

theorem block2_smul (a : K) (A : Mat K) : block2 (a • A) = a • block2 A := rfl

theorem dpRateGuts_scale {ops : Ops K} (ho : GoodOps ops) (law0 : Law) (m : Mat0 K)
    (e s : Matrix (Fin 2) (Fin 2) K) (i j : Fin 2) :
    dpRateGuts ops (scaleMat U law0 m) e (U.stress • s) i j =
      scaleX U.stress (dpRateGuts ops m e s i j) := by
  have hs := U.stress_pos
  unfold dpRateGuts
  have hp : (U.stress • s).trace / 2 = U.stress * (s.trace / 2) := by rw [trace_scale]; ring
  have hsij : U.stress • s - (U.stress * (s.trace / 2)) • (1 : Matrix (Fin 2) (Fin 2) K) =
      U.stress • (s - (s.trace / 2) • 1) := by
    rw [mul_smul, ← smul_sub]
  have hq : ∀ A : Matrix (Fin 2) (Fin 2) K,
      ops.sqrt (3 * frob (U.stress • A) (U.stress • A) / 2) =
      U.stress * ops.sqrt (3 * frob A A / 2) := by
    intro A
    rw [frob_scale, ← ho.sqrt_scale hs.le (by have := frob_self A; positivity)]
    congr 1; ring
  simp only [hp, hsij, hq]
  generalize s - (s.trace / 2) • (1 : Matrix (Fin 2) (Fin 2) K) = S
  generalize s.trace / 2 = p
  generalize ops.sqrt (3 * frob S S / 2) = q
  generalize e - (e.trace / 2) • (1 : Matrix (Fin 2) (Fin 2) K) = E
  have hΓ : ((if 0 < U.stress * q - (scaleMat U law0 m).mu * (U.stress * p) then
      U.stress * q - (scaleMat U law0 m).mu * (U.stress * p) else 0)) =
      U.stress * (if 0 < q - m.mu * p then q - m.mu * p else 0) := by
    have h1 : U.stress * q - (scaleMat U law0 m).mu * (U.stress * p) = U.stress * (q - m.mu * p) := by
      change _ - m.mu * _ = _; ring
    rw [h1]
    simp only [mul_pos_iff_of_pos_left hs]
    split_ifs <;> simp
  rw [hΓ]
  generalize (if 0 < q - m.mu * p then q - m.mu * p else 0) = Γ
  rw [← scaleX_add]
  congr 1
  · have h1 : (XF.fin (2 * (scaleMat U law0 m).Gs)) = scaleX U.stress (.fin (2 * m.Gs)) :=
      congrArg XF.fin (by change 2 * (U.stress * m.Gs) = _; ring)
    have h2 : (XF.fin (3 * (U.stress • S) i j) / .fin (2 * (U.stress * q) * (U.stress * p) *
        (scaleMat U law0 m).t_star) * .fin (U.stress * Γ) : XF K) =
        scaleX 1 (.fin (3 * S i j) / .fin (2 * q * p * m.t_star) * .fin Γ) := by
      rw [fin_div_scale (a := U.stress) (b := U.stress ^ 2) (x := 3 * S i j)
        (y := 2 * q * p * m.t_star) hs (by positivity)
        (by rw [Matrix.smul_apply, smul_eq_mul]; ring) (by change _ * m.t_star = _; ring) rfl]
      exact (scaleX_mul (by positivity) hs _ (.fin Γ)).trans (by
        congr 1; field_simp)
    rw [h1, h2]
    conv_lhs => rw [← scaleX_one (XF.fin (E i j)), scaleX_sub]
    rw [scaleX_mul hs one_pos, mul_one]
  · have h1 : (XF.fin ((scaleMat U law0 m).Kb * (1 : Matrix (Fin 2) (Fin 2) K) i j)) =
        scaleX U.stress (.fin (m.Kb * (1 : Matrix (Fin 2) (Fin 2) K) i j)) :=
      congrArg XF.fin (by change U.stress * m.Kb * _ = _; ring)
    have h2 : (XF.fin ((scaleMat U law0 m).beta * (U.stress * q)) / .fin ((scaleMat U law0 m).mu *
        (U.stress * p) * (U.stress * p) * (scaleMat U law0 m).t_star) * .fin (U.stress * Γ) : XF K) =
        scaleX 1 (.fin (m.beta * q) / .fin (m.mu * p * p * m.t_star) * .fin Γ) := by
      rw [fin_div_scale (a := U.stress) (b := U.stress ^ 2) (x := m.beta * q)
        (y := m.mu * p * p * m.t_star) hs (by positivity)
        (by change m.beta * _ = _; ring) (by change m.mu * _ * _ * m.t_star = _; ring) rfl]
      exact (scaleX_mul (by positivity) hs _ (.fin Γ)).trans (by
        congr 1; field_simp)
    rw [h1, h2]
    conv_lhs => rw [← scaleX_one (XF.fin e.trace), scaleX_add]
    rw [scaleX_mul hs one_pos, mul_one]

theorem dpRate_scale (law0 : Law) (c : LawCtx K ns) (ho : GoodOps c.ops) (mp : Particle K ns) :
    lawDpRate (scaleCtx U .dp_rate law0 c) (scalePt U .dp_rate mp) =
      Prod.map (scalePt U .dp_rate) (scaleVis U) <$> lawDpRate c mp := by
  have hg : gammaUnit U .dp_rate = 1 := rfl
  have hs := U.stress_pos
  have hst : -block2 (U.stress • mp.stress) = U.stress • -block2 mp.stress := by
    rw [block2_smul, smul_neg]
  unfold lawDpRate
  simp only [scaleCtx, scalePt, hst]
  generalize hS : -block2 mp.stress = S
  have hp : (U.stress • S).trace / 2 = U.stress * (S.trace / 2) := by rw [trace_scale]; ring
  have hsij : U.stress • S - (U.stress * (S.trace / 2)) • (1 : Matrix (Fin 2) (Fin 2) K) =
      U.stress • (S - (S.trace / 2) • 1) := by
    rw [mul_smul, ← smul_sub]
  have hq : ∀ A : Matrix (Fin 2) (Fin 2) K,
      c.ops.sqrt (3 * frob (U.stress • A) (U.stress • A) / 2) =
      U.stress * c.ops.sqrt (3 * frob A A / 2) := by
    intro A
    rw [frob_scale, ← ho.sqrt_scale hs.le (by have := frob_self A; positivity)]
    congr 1; ring
  simp only [hp, hsij, hq]
  refine res_bind_map (f := (U.stress • ·)) ?_ fun d _ => ?_
  · rw [← finMat_scale]
    congr 1
    funext i j
    by_cases h : i.val < 2 ∧ j.val < 2
    · simp only [dif_pos h]
      rw [dpRateGuts_scale ho, scaleX_neg]
    · simp only [dif_neg h]
      rfl
  · refine res_bind_map (f := id) ?_ fun y _ => ?_
    · refine Eq.trans (congrArg XF.toRes ?_) (id_map _).symm
      congr 1
      rw [fin_div_scale hs hs rfl (y := c.mat.mu * (S.trace / 2))
        (by change c.mat.mu * _ = _; ring) rfl, div_self hs.ne', scaleX_one]
    · refine congrArg Except.ok (Prod.ext ?_ ?_)
      · simp only [Prod.map, scalePt, Particle.mk.injEq, true_and, and_true, hg,
          trace_scale, one_mul, Matrix.smul_apply, smul_eq_mul, id_eq]
        ring
      · simp only [Prod.map, scaleVis, List.map_cons, List.map_nil, visUnit]
        refine List.cons_eq_cons.2 ⟨Prod.ext rfl rfl, List.cons_eq_cons.2 ⟨Prod.ext rfl ?_, rfl⟩⟩
        exact fin_div_scale zero_lt_one U.T_pos (one_mul _).symm rfl rfl

theorem visc_over (x d : K) : U.visc * x / (U.T * d) = U.stress * (x / d) := by
  have h1 : U.visc = U.T * U.stress := by
    unfold NewUnits.visc NewUnits.stress; have := U.T_ne; have := U.W_ne; field_simp
  rw [h1, mul_assoc, mul_div_mul_left _ _ U.T_ne, mul_div_assoc]

theorem over_T (x d : K) : x / (U.T * d) = U.rate * (x / d) := by
  unfold NewUnits.rate
  rw [div_mul_eq_div_div, div_mul_eq_mul_div, one_mul, div_right_comm]

theorem viscous_scale (law0 : Law) (c : LawCtx K ns) (ho : GoodOps c.ops) (mp : Particle K ns) :
    lawViscous (scaleCtx U .viscous law0 c) (scalePt U .viscous mp) =
      Prod.map (scalePt U .viscous) (scaleVis U) <$> lawViscous c mp := by
  have hs := U.stress_pos
  have hg : gammaUnit U .viscous = U.rate := rfl
  have hm : musUnit U .viscous = U.visc := rfl
  unfold lawViscous
  refine ite_iff (mul_eq_zero_iff' U.T_pos _) rfl ?_
  simp only [scaleCtx, scalePt, scaleMat, hm]
  generalize mp.dstrain - (mp.dstrain.trace / 3) • (1 : Mat K) = e
  generalize mp.dstrain.trace / 3 = k
  have h1 : 2 * (U.visc * c.mat.mu_s) / (U.T * c.dt) = U.stress * (2 * c.mat.mu_s / c.dt) := by
    rw [mul_left_comm, visc_over]
  have h2 : U.visc * c.mat.mu_v * k / (U.T * c.dt) = U.stress * (c.mat.mu_v * k / c.dt) := by
    rw [mul_assoc, visc_over]
  have h3 : U.stress * mp.pressure + U.stress * c.mat.Kb * k =
      U.stress * (mp.pressure + c.mat.Kb * k) := by ring
  simp only [h1, h2, h3, mul_smul]
  generalize (2 * c.mat.mu_s / c.dt) • e = D
  generalize mp.pressure + c.mat.Kb * k = P
  rw [norm_smul' ho hs.le]
  refine congrArg Except.ok (Prod.ext ?_ ?_)
  · simp only [Prod.map, scalePt, Particle.mk.injEq, true_and, and_true, hg]
    refine ⟨?_, over_T _ _⟩
    simp only [smul_sub, smul_add, smul_smul]
  · rfl

theorem bingham_scale (law0 : Law) (c : LawCtx K ns) (ho : GoodOps c.ops) (mp : Particle K ns) :
    lawBingham (scaleCtx U .bingham law0 c) (scalePt U .bingham mp) =
      Prod.map (scalePt U .bingham) (scaleVis U) <$> lawBingham c mp := by
  have hs := U.stress_pos
  have hg : gammaUnit U .bingham = U.rate := rfl
  have hm : musUnit U .bingham = U.visc := rfl
  have hm0 : mu0Unit U .bingham = U.visc := rfl
  unfold lawBingham
  refine ite_iff (mul_eq_zero_iff' U.T_pos _) rfl ?_
  refine res_bind_map (f := (U.visc * ·)) ?_ fun mu_0 _ => ?_
  · change (scaleNum (mu0Unit U .bingham) c.mat.mu_0).num = _
    rw [hm0, num_scale]
  simp only [scaleCtx, scalePt, scaleMat, hm]
  generalize mp.dstrain - (mp.dstrain.trace / 3) • (1 : Mat K) = e
  generalize mp.dstrain.trace / 3 = k
  have h2 : U.visc * c.mat.mu_v * k / (U.T * c.dt) = U.stress * (c.mat.mu_v * k / c.dt) := by
    rw [mul_assoc, visc_over]
  have h3 : U.stress * mp.pressure + U.stress * c.mat.Kb * k =
      U.stress * (mp.pressure + c.mat.Kb * k) := by ring
  simp only [h2, h3, over_T (U := U) (c.ops.sqrt (frob e e)) c.dt]
  generalize c.ops.sqrt (frob e e) / c.dt = g
  refine res_bind_map (f := (U.stress • ·)) ?_ fun D _ => ?_
  · refine ite_iff (mul_le_mul_iff_right₀ U.rate_pos) ?_
      (ite_iff (mul_eq_zero_iff' U.rate_pos _) rfl ?_)
    · refine congrArg Except.ok ?_
      rw [mul_left_comm, visc_over, mul_smul]
    · refine congrArg Except.ok ?_
      have h4 : U.visc * c.mat.mu_s + U.stress * c.mat.tau_0 / (U.rate * g) =
          U.visc * (c.mat.mu_s + c.mat.tau_0 / g) := by
        have : U.stress = U.rate * U.visc := by
          unfold NewUnits.visc NewUnits.stress NewUnits.rate; have := U.T_ne; have := U.W_ne; field_simp
        rw [this, mul_assoc, mul_div_mul_left _ _ U.rate_pos.ne']
        ring
      rw [h4, mul_left_comm, visc_over, mul_smul]
  · rw [norm_smul' ho hs.le]
    refine congrArg Except.ok (Prod.ext ?_ ?_)
    · simp only [Prod.map, scalePt, Particle.mk.injEq, true_and, and_true, hg]
      simp only [smul_sub, smul_add, smul_smul]
    · rfl

theorem meanSize_scale (a : K) (s phi : Fin ns → K) :
    meanSize (a • s) phi = a * meanSize s phi := by
  unfold meanSize
  rw [Finset.mul_sum]
  exact Finset.sum_congr rfl fun i _ => by simp only [Pi.smul_apply, smul_eq_mul]; ring

theorem rate_scale {o : Ops K} (ho : GoodOps o) (dt : K) (e : Mat K) :
    o.sqrt (frob ((2 / (U.T * dt)) • e) ((2 / (U.T * dt)) • e)) =
      U.rate * o.sqrt (frob ((2 / dt) • e) ((2 / dt) • e)) := by
  rw [over_T, mul_smul, norm_smul' ho U.rate_pos.le]

theorem inertial_scale {o : Ops K} (ho : GoodOps o) (rho_s g s p : K) :
    inertial o (U.dens * rho_s) (U.rate * g) (U.L * s) (U.stress * p) = inertial o rho_s g s p := by
  have hs := U.stress_pos
  have hd := U.dens_pos
  have hM := U.M_ne
  have hT := U.T_ne
  have hL := U.L_ne
  have hW := U.W_ne
  have hTL : 0 < U.T / U.L := div_pos U.T_pos U.L_pos
  unfold inertial
  rw [abs_mul, abs_of_pos hs, fin_div_scale hd hs rfl rfl (c := (U.T / U.L) ^ 2)
    (by unfold NewUnits.dens NewUnits.stress NewUnits.vol; field_simp), scaleX_sqrt ho hTL]
  have h1 : (XF.fin (U.rate * g * (U.L * s)) : XF K) = scaleX (U.L / U.T) (.fin (g * s)) :=
    congrArg XF.fin (by unfold NewUnits.rate; field_simp)
  rw [h1, scaleX_mul (div_pos U.L_pos U.T_pos) hTL]
  have : U.L / U.T * (U.T / U.L) = 1 := by field_simp
  rw [this, scaleX_one]

theorem etaOf_scale (o : Ops K) (mu : XF K) (p g : K) :
    etaOf o mu (U.stress * p) (U.rate * g) = scaleX U.visc (etaOf o mu p g) := by
  have hs := U.stress_pos
  have hr := U.rate_pos
  unfold etaOf
  rw [abs_mul, abs_of_pos hs]
  have h1 : (XF.fin (2 * o.sqrt 2) * mu * .fin (U.stress * |p|) : XF K) =
      scaleX U.stress (.fin (2 * o.sqrt 2) * mu * .fin |p|) := by
    conv_lhs => rw [← scaleX_one (XF.fin (2 * o.sqrt 2) * mu)]
    exact (scaleX_mul one_pos hs _ (.fin |p|)).trans (by rw [one_mul])
  rw [h1]
  refine (scaleX_div hs hr _ (.fin g)).trans ?_
  congr 1
  unfold NewUnits.stress NewUnits.rate NewUnits.visc
  have := U.T_ne; have := U.W_ne
  field_simp

theorem dev_scale (eta : XF K) (e dt : K) :
    scaleX U.visc eta * .fin e / .fin (U.T * dt) = scaleX U.stress (eta * .fin e / .fin dt) := by
  have h1 : scaleX U.visc eta * .fin e = scaleX U.visc (eta * .fin e) := by
    conv_lhs => rw [← scaleX_one (XF.fin e)]
    rw [scaleX_mul U.visc_pos one_pos, mul_one]
  rw [h1]
  refine (scaleX_div U.visc_pos U.T_pos _ (.fin dt)).trans ?_
  congr 1
  unfold NewUnits.stress NewUnits.visc
  have := U.T_ne; have := U.W_ne
  field_simp

theorem flowStressInc_scale (p : K) (eta : XF K) (de : Mat K) (dt : K) (stress : Mat K)
    (i j : Fin 3) :
    flowStressInc (U.stress * p) (scaleX U.visc eta) de (U.T * dt) (U.stress • stress) i j =
      scaleX U.stress (flowStressInc p eta de dt stress i j) := by
  unfold flowStressInc
  rw [dev_scale, ← scaleX_sub, ← scaleX_add]
  congr 2
  exact congrArg XF.fin (mul_assoc _ _ _)

theorem linearMuRaw_scale (law0 : Law) (c : LawCtx K ns) (ho : GoodOps c.ops) (mp : Particle K ns)
    (mu_0 : K) :
    linearMuRaw (scaleCtx U .linear_mu law0 c) (scalePt U .linear_mu mp) mu_0 =
      ((linearMuRaw c mp mu_0).1, (linearMuRaw c mp mu_0).2.1,
       scaleX U.visc (linearMuRaw c mp mu_0).2.2.1, U.stress * (linearMuRaw c mp mu_0).2.2.2.1,
       fun i j => scaleX U.stress ((linearMuRaw c mp mu_0).2.2.2.2 i j)) := by
  have hs := U.stress_pos
  have hP : (linearMuRaw (scaleCtx U .linear_mu law0 c) (scalePt U .linear_mu mp) mu_0).2.2.2.1 =
      U.stress * (linearMuRaw c mp mu_0).2.2.2.1 := by
    change (if 0 < U.stress * mp.pressure + U.stress * c.mat.Kb * (mp.dstrain.trace / 3) then 0
      else U.stress * mp.pressure + U.stress * c.mat.Kb * (mp.dstrain.trace / 3)) =
      U.stress * (if 0 < mp.pressure + c.mat.Kb * (mp.dstrain.trace / 3) then 0
        else mp.pressure + c.mat.Kb * (mp.dstrain.trace / 3))
    generalize mp.dstrain.trace / 3 = k
    have h3 : U.stress * mp.pressure + U.stress * c.mat.Kb * k =
      U.stress * (mp.pressure + c.mat.Kb * k) := by ring
    rw [h3]
    simp only [mul_pos_iff_of_pos_left hs]
    split_ifs <;> simp
  have hI : (linearMuRaw (scaleCtx U .linear_mu law0 c) (scalePt U .linear_mu mp) mu_0).1 =
      (linearMuRaw c mp mu_0).1 := by
    unfold linearMuRaw
    simp only [scaleCtx, scalePt, scaleMat, meanSize_scale, rate_scale ho, inertial_scale ho]
  have hmu : (linearMuRaw (scaleCtx U .linear_mu law0 c) (scalePt U .linear_mu mp) mu_0).2.1 =
      (linearMuRaw c mp mu_0).2.1 := by
    change XF.fin mu_0 + .fin c.mat.b * _ = XF.fin mu_0 + .fin c.mat.b * _
    exact congrArg (fun x => XF.fin mu_0 + .fin c.mat.b * x) hI
  have hE : (linearMuRaw (scaleCtx U .linear_mu law0 c) (scalePt U .linear_mu mp) mu_0).2.2.1 =
      scaleX U.visc (linearMuRaw c mp mu_0).2.2.1 := by
    refine Eq.trans ?_ (scaleX_min U.visc_pos _ (.fin c.mat.eta_max))
    refine congrArg (fun x => XF.min x (.fin (U.visc * c.mat.eta_max))) ?_
    have : ∀ m1 m2 : XF K, m1 = m2 → ∀ e : Mat K,
        etaOf c.ops m1 (U.stress * mp.pressure)
          (c.ops.sqrt (frob ((2 / (U.T * c.dt)) • e) ((2 / (U.T * c.dt)) • e))) =
        scaleX U.visc (etaOf c.ops m2 mp.pressure
          (c.ops.sqrt (frob ((2 / c.dt) • e) ((2 / c.dt) • e)))) := by
      rintro m1 _ rfl e
      rw [rate_scale ho, etaOf_scale]
    exact this _ _ hmu _
  refine Prod.ext hI (Prod.ext hmu (Prod.ext hE (Prod.ext hP ?_)))
  funext i j
  refine Eq.trans ?_ (flowStressInc_scale _ _ _ _ _ i j)
  change flowStressInc _ _ _ (U.T * c.dt) (U.stress • mp.stress) i j = _
  have : ∀ p1 p2 e1 e2 (de : Mat K), p1 = p2 → e1 = e2 →
      flowStressInc p1 e1 de (U.T * c.dt) (U.stress • mp.stress) i j =
      flowStressInc p2 e2 de (U.T * c.dt) (U.stress • mp.stress) i j := by
    rintro _ _ _ _ _ rfl rfl; rfl
  exact this _ _ _ _ _ hP hE

theorem linearMu_scale (law0 : Law) (c : LawCtx K ns) (ho : GoodOps c.ops) (mp : Particle K ns) :
    lawLinearMu (scaleCtx U .linear_mu law0 c) (scalePt U .linear_mu mp) =
      Prod.map (scalePt U .linear_mu) (scaleVis U) <$> lawLinearMu c mp := by
  have hs := U.stress_pos
  have hg : gammaUnit U .linear_mu = U.rate := rfl
  have hm0 : mu0Unit U .linear_mu = 1 := rfl
  unfold lawLinearMu
  refine res_bind_map (f := id) ?_ fun mu_0 _ => ?_
  · change (scaleNum (mu0Unit U .linear_mu) c.mat.mu_0).num = _
    rw [hm0, num_scale_one]
    exact (id_map _).symm
  refine ite_iff (mul_eq_zero_iff' U.T_pos _) rfl ?_
  simp only [id_eq, linearMuRaw_scale law0 c ho mp]
  obtain ⟨I, mu, E, P, d⟩ := linearMuRaw c mp mu_0
  simp only [scaleCtx, scalePt, rate_scale ho]
  generalize mp.dstrain - (mp.dstrain.trace / 3) • (1 : Mat K) = e
  refine res_bind_map (f := (U.stress • ·)) (finMat_scale _ _) fun d _ => ?_
  refine res_bind_map (f := (U.stress • ·)) ?_ fun D _ => ?_
  · rw [← finMat_scale]
    congr 1
    funext i j
    exact dev_scale _ _ _
  rw [norm_smul' ho hs.le]
  refine congrArg Except.ok (Prod.ext ?_ ?_)
  · simp only [Prod.map, scalePt, hg]
  · simp only [Prod.map, scaleVis, List.map_cons, List.map_nil, visUnit, scaleX_one]
    refine List.cons_eq_cons.2 ⟨Prod.ext rfl rfl, List.cons_eq_cons.2 ⟨Prod.ext rfl ?_, rfl⟩⟩
    exact fin_div_scale hs one_pos rfl (one_mul _).symm (div_one _).symm

/-- The mean of `I_0` over the sizes. -/
theorem phiMeans_nonneg {phi : Fin ns → K} {a b c : PyNum K} (hphi : ∀ j, 0 ≤ phi j)
    (hc : ∀ l, c = .arr l → ∀ x ∈ l, 0 ≤ x) {m : K × K × K} (h : phiMeans phi a b c = .ok m) :
    0 ≤ m.2.2 := by
  unfold phiMeans at h
  have key : ∀ (l : List (Fin ns)) (acc m : K × K × K), 0 ≤ acc.2.2 →
      l.foldlM (fun (acc : K × K × K) (i : Fin ns) => do
        let x ← a.get i
        let y ← b.get i
        let z ← c.get i
        return (acc.1 + phi i * x, acc.2.1 + phi i * y, acc.2.2 + phi i * z)) acc =
      (.ok m : Res (K × K × K)) → 0 ≤ m.2.2 := by
    intro l
    induction l with
    | nil => intro acc m h0 h; cases h; exact h0
    | cons i l ih =>
      intro acc m h0 h
      rw [List.foldlM_cons] at h
      obtain ⟨r, hr, h⟩ := res_bind_ok.1 h
      obtain ⟨x, -, hr⟩ := res_bind_ok.1 hr
      obtain ⟨y, -, hr⟩ := res_bind_ok.1 hr
      obtain ⟨z, hz, hr⟩ := res_bind_ok.1 hr
      cases hr
      refine ih _ m ?_ h
      refine add_nonneg h0 (mul_nonneg (hphi i) ?_)
      cases hcc : c with
      | scalar x => rw [hcc] at hz; cases hz
      | arr l' =>
        rw [hcc] at hz
        unfold PyNum.get at hz
        cases hl : l'[(i : ℕ)]? with
        | none => simp [hl] at hz
        | some w =>
          simp [hl] at hz
          subst hz
          exact hc l' hcc _ (List.mem_of_getElem? hl)
  exact key _ _ _ le_rfl h

/-- With sizes and `I_0` that are not negative, `eta` is infinite only at rest. -/
theorem eta_cases {o : Ops K} (ho : GoodOps o) {m0 dm i0 rho_s g sb p : K} (hg : 0 < g)
    (hsb : 0 ≤ sb) (hi : 0 ≤ i0) :
    (∃ x, etaOf o (muI m0 dm i0 (inertial o rho_s g sb p)) p g = .fin x) ∨
    etaOf o (muI m0 dm i0 (inertial o rho_s g sb p)) p g = .nan := by
  have hI : (∃ x, 0 ≤ x ∧ inertial o rho_s g sb p = .fin x) ∨ inertial o rho_s g sb p = .nan ∨
      inertial o rho_s g sb p = .pinf := by
    unfold inertial
    have : (∃ x, 0 ≤ x ∧ XF.sqrt o.sqrt (.fin rho_s / .fin |p|) = .fin x) ∨
        XF.sqrt o.sqrt (.fin rho_s / .fin |p|) = .nan ∨
        XF.sqrt o.sqrt (.fin rho_s / .fin |p|) = .pinf := by
      cases (.fin rho_s / .fin |p| : XF K) with
      | fin x =>
        by_cases hx : x < 0
        · right; left; exact if_pos hx
        · left; exact ⟨o.sqrt x, ho.sqrt_nonneg _ (not_lt.1 hx), if_neg hx⟩
      | pinf => right; right; rfl
      | ninf => right; left; rfl
      | nan => right; left; rfl
    rcases this with ⟨x, hx, e⟩ | e | e
    · left; exact ⟨g * sb * x, by positivity, by rw [e]; rfl⟩
    · right; left; rw [e]; rfl
    · rw [e]
      by_cases h0 : g * sb = 0
      · right; left; exact if_pos h0
      · right; right
        refine (if_neg h0).trans (if_pos ?_)
        exact lt_of_le_of_ne (by positivity) (Ne.symm h0)
  have hmu : (∃ x, muI m0 dm i0 (inertial o rho_s g sb p) = .fin x) ∨
      muI m0 dm i0 (inertial o rho_s g sb p) = .nan := by
    unfold muI
    rcases hI with ⟨x, hx, e⟩ | e | e
    · rw [e]
      by_cases hx0 : x = 0
      · by_cases hi0 : i0 = 0
        · right; rw [hx0, hi0]
          have : (.fin 0 / .fin 0 : XF K) = .nan := by
            change (if (0 : K) = 0 then (if (0 : K) = 0 then XF.nan else _) else _) = _
            simp
          rw [this]; rfl
        · left
          have : (.fin i0 / .fin x : XF K) = .pinf := by
            rw [hx0]
            change (if (0 : K) = 0 then (if i0 = 0 then XF.nan else XF.infSign i0) else _) = _
            rw [if_pos rfl, if_neg hi0]
            exact if_pos (lt_of_le_of_ne hi (Ne.symm hi0))
          rw [this]
          exact ⟨m0 + 0, rfl⟩
      · left
        have hx' : 0 < x := lt_of_le_of_ne hx (Ne.symm hx0)
        have h2 : 0 < i0 / x + 1 := by positivity
        rw [XF.fin_div _ hx0, XF.fin_add, XF.fin_div _ h2.ne', XF.fin_add]
        exact ⟨_, rfl⟩
    · right; rw [e]; rfl
    · left; rw [e]
      have : (.fin i0 / .pinf + .fin 1 : XF K) = .fin (0 + 1) := rfl
      rw [this, XF.fin_div _ (by simp), XF.fin_add]
      exact ⟨_, rfl⟩
  rcases hmu with ⟨x, e⟩ | e
  · left; rw [e]; unfold etaOf
    rw [XF.fin_mul, XF.fin_mul, XF.fin_div _ hg.ne']
    exact ⟨_, rfl⟩
  · right; rw [e]; rfl

theorem pouliquen_scale (law0 : Law) (c : LawCtx K ns) (ho : GoodOps c.ops) (mp : Particle K ns)
    (hz : Sized .pouliquen c.mat c.s mp.phi) :
    lawPouliquen (scaleCtx U .pouliquen law0 c) (scalePt U .pouliquen mp) =
      Prod.map (scalePt U .pouliquen) (scaleVis U) <$> lawPouliquen c mp := by
  obtain ⟨hs0, hphi, hI0⟩ := hz rfl
  have hs := U.stress_pos
  have hg : gammaUnit U .pouliquen = U.rate := rfl
  have hm0 : mu0Unit U .pouliquen = 1 := rfl
  unfold lawPouliquen
  refine res_bind_map (f := id) ?_ fun m hm => ?_
  · change phiMeans mp.phi (scaleNum (mu0Unit U .pouliquen) c.mat.mu_0) _ _ = _
    rw [hm0, num_scale_one]
    exact (id_map _).symm
  have hi0 := phiMeans_nonneg hphi hI0 hm
  obtain ⟨mu_0, dm, i0⟩ := m
  change 0 ≤ i0 at hi0
  have hsb : 0 ≤ meanSize c.s mp.phi := Finset.sum_nonneg fun i _ => mul_nonneg (hphi i) (hs0 i)
  simp only [id_eq]
  by_cases hdt : c.dt = 0
  · rw [if_pos hdt, if_pos (show (scaleCtx U .pouliquen law0 c).dt = 0 from
      (mul_eq_zero_iff' U.T_pos _).2 hdt)]
    rfl
  rw [if_neg hdt, if_neg (show ¬ (scaleCtx U .pouliquen law0 c).dt = 0 from
      mt (mul_eq_zero_iff' U.T_pos _).1 hdt)]
  have hP : ∀ k, pouliquenPressure (scaleCtx U .pouliquen law0 c) (U.dens * mp.rho)
      (U.stress * mp.pressure + U.stress * c.mat.Kb * k) =
      U.stress * pouliquenPressure c mp.rho (mp.pressure + c.mat.Kb * k) := by
    intro k
    have h3 : U.stress * mp.pressure + U.stress * c.mat.Kb * k =
      U.stress * (mp.pressure + c.mat.Kb * k) := by ring
    have h4 : U.dens * mp.rho < (scaleCtx U .pouliquen law0 c).mat.rho * (8 / 10) ↔
        mp.rho < c.mat.rho * (8 / 10) := by
      change U.dens * mp.rho < U.dens * c.mat.rho * (8 / 10) ↔ _
      rw [mul_assoc]
      exact mul_lt_mul_iff_right₀ U.dens_pos
    unfold pouliquenPressure
    rw [h3]
    simp only [mul_pos_iff_of_pos_left hs, h4]
    split_ifs <;> simp
  have h6 : (scaleCtx U .pouliquen law0 c).mat.Kb = U.stress * c.mat.Kb := rfl
  have h7 : (scaleCtx U .pouliquen law0 c).mat.rho_s = U.dens * c.mat.rho_s := rfl
  have h8 : (scaleCtx U .pouliquen law0 c).mat.eta_max = U.visc * c.mat.eta_max := rfl
  have h9 : (scaleCtx U .pouliquen law0 c).s = U.L • c.s := rfl
  have h10 : (scaleCtx U .pouliquen law0 c).dt = U.T * c.dt := rfl
  have h11 : (scaleCtx U .pouliquen law0 c).ops = c.ops := rfl
  simp only [scalePt, h6, h7, h8, h9, h10, h11, hP, meanSize_scale, rate_scale ho,
    inertial_scale ho, etaOf_scale]
  generalize he : mp.dstrain - (mp.dstrain.trace / 3) • (1 : Mat K) = e
  generalize pouliquenPressure c mp.rho (mp.pressure + c.mat.Kb * (mp.dstrain.trace / 3)) = P
  have hgn : 0 ≤ c.ops.sqrt (frob ((2 / c.dt) • e) ((2 / c.dt) • e)) :=
    ho.sqrt_nonneg _ (frob_self _)
  have key : e = 0 ∨
      min ((scaleX U.visc (etaOf c.ops (muI mu_0 dm i0 (inertial c.ops c.mat.rho_s
        (c.ops.sqrt (frob ((2 / c.dt) • e) ((2 / c.dt) • e))) (meanSize c.s mp.phi) mp.pressure))
        mp.pressure (c.ops.sqrt (frob ((2 / c.dt) • e) ((2 / c.dt) • e))))).nanToNum c.ops.big)
        (U.visc * c.mat.eta_max) =
      U.visc * min ((etaOf c.ops (muI mu_0 dm i0 (inertial c.ops c.mat.rho_s
        (c.ops.sqrt (frob ((2 / c.dt) • e) ((2 / c.dt) • e))) (meanSize c.s mp.phi) mp.pressure))
        mp.pressure (c.ops.sqrt (frob ((2 / c.dt) • e) ((2 / c.dt) • e)))).nanToNum c.ops.big)
        c.mat.eta_max := by
    rcases hgn.eq_or_lt with h | h
    · left
      have := mnorm_eq_zero ho (A := (2 / c.dt) • e) h.symm
      exact (smul_eq_zero.1 this).resolve_left (div_ne_zero two_ne_zero hdt)
    · right
      rw [mul_min_of_nonneg _ _ U.visc_pos.le]
      congr 1
      rcases eta_cases (m0 := mu_0) (dm := dm) (rho_s := c.mat.rho_s) (p := mp.pressure) ho h hsb hi0
        with ⟨x, hx⟩ | hx
      · rw [hx]; rfl
      · rw [hx]; simp [scaleX, XF.nanToNum]
  generalize c.ops.sqrt (frob ((2 / c.dt) • e) ((2 / c.dt) • e)) = g at key ⊢
  generalize inertial c.ops c.mat.rho_s g (meanSize c.s mp.phi) mp.pressure = I at key ⊢
  generalize muI mu_0 dm i0 I = mu at key ⊢
  generalize etaOf c.ops mu mp.pressure g = E at key ⊢
  generalize min ((scaleX U.visc E).nanToNum c.ops.big) (U.visc * c.mat.eta_max) = l' at key ⊢
  generalize min (E.nanToNum c.ops.big) c.mat.eta_max = l at key ⊢
  have hF : ∀ i j, flowStressInc (U.stress * P) (.fin l') e (U.T * c.dt) (U.stress • mp.stress) i j =
      scaleX U.stress (flowStressInc P (.fin l) e c.dt mp.stress i j) := by
    intro i j
    rw [← flowStressInc_scale]
    rcases key with h | h
    · unfold flowStressInc
      simp only [h, Matrix.zero_apply]
      congr 3
      exact congrArg XF.fin (by simp)
    · rw [h]; rfl
  have hD : (l' / (U.T * c.dt)) • e = U.stress • (l / c.dt) • e := by
    rcases key with h | h
    · simp [h]
    · rw [h, visc_over, mul_smul]
  have hN := norm_smul' ho hs.le ((l / c.dt) • e)
  simp only [hF, scaleX_finite, hD, hN]
  refine ite_iff Iff.rfl (congrArg Except.ok (Prod.ext ?_ ?_)) rfl
  · simp only [Prod.map, scalePt, hg, scaleX_toNum]
    rfl
  · simp only [Prod.map, scaleVis, List.map_cons, List.map_nil, visUnit, scaleX_one]
    refine List.cons_eq_cons.2 ⟨Prod.ext rfl rfl, List.cons_eq_cons.2 ⟨Prod.ext rfl ?_, rfl⟩⟩
    exact fin_div_scale hs one_pos rfl (one_mul _).symm (div_one _).symm

/-- A law in other units. -/
theorem runLaw_scale {law : Law} (hd : Dimensional law) (law0 : Law) (c : LawCtx K ns)
    (ho : TakesRoot law → GoodOps c.ops) (mp : Particle K ns) (hz : Sized law c.mat c.s mp.phi) :
    runLaw law (scaleCtx U law law0 c) (scalePt U law mp) =
      Prod.map (scalePt U law) (scaleVis U) <$> runLaw law c mp := by
  cases law with
  | rigid => rfl
  | elastic => exact elastic_scale law0 c mp
  | elastic_time => exact elasticTime_scale law0 c mp
  | von_mises => exact vonMises_scale law0 c (ho (by simp [TakesRoot])) mp
  | dp => exact dp_scale law0 c mp
  | dp_rate => exact dpRate_scale law0 c (ho (by simp [TakesRoot])) mp
  | viscous => exact viscous_scale law0 c (ho (by simp [TakesRoot])) mp
  | bingham => exact bingham_scale law0 c (ho (by simp [TakesRoot])) mp
  | ken_kamrin => exact absurd rfl hd.1
  | pouliquen => exact pouliquen_scale law0 c (ho (by simp [TakesRoot])) mp hz
  | linear_mu => exact linearMu_scale law0 c (ho (by simp [TakesRoot])) mp
  | ken_simple => exact absurd rfl hd.2
  | viscous_size | pouliquen2D | other => rfl

end
end Mpm

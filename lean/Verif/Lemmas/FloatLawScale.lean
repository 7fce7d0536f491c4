import Verif.Model.FloatLaw
import Verif.Lemmas.FloatScaleStep

/-! The laws that are modelled with rounding, in units that do not change the digits. -/

set_option linter.unusedSectionVars false

namespace Mpm
open Spec

section
variable {K : Type} [Field K] [LinearOrder K] [IsStrictOrderedRing K] [FloorRing K] {rnd : K → K}

/-- The square root is homogeneous. -/
def Spec.RootScales (ops : Ops K) : Prop := ∀ c x, 0 < c → ops.sqrt (c ^ 2 * x) = c * ops.sqrt x

theorem rd_scale {c : K} (hc : SameDigits rnd c) (x : XF K) :
    XF.rd rnd (scaleX c x) = scaleX c (XF.rd rnd x) := by
  cases x <;> first | rfl | exact congrArg XF.fin (hc _)

theorem traceR_scale {c : K} (hc : SameDigits rnd c) (A : Mat K) :
    traceR rnd (c • A) = c * traceR rnd A := by
  simp only [traceR, Matrix.smul_apply, smul_eq_mul, ← mul_add, hc _]

theorem sumSqR_scale {c : K} (hc : SameDigits rnd c) (A : Mat K) :
    sumSqR rnd (c • A) = c ^ 2 * sumSqR rnd A := by
  simp only [sumSqR, Matrix.smul_apply, smul_eq_mul, mul_pow, ← mul_add, hc.sq _]

theorem mdotR_scale {c d : K} (hc : SameDigits rnd c) (hd : SameDigits rnd d) (A B : Mat K) (i j : Fin 3) :
    mdotR rnd (c • A) (d • B) i j = c * d * mdotR rnd A B i j := by
  have h : ∀ a b : K, rnd (c * a * (d * b)) = c * d * rnd (a * b) := fun a b => by
    rw [mul_mul_mul_comm, hc.mul hd]
  simp only [mdotR, Matrix.smul_apply, smul_eq_mul, h, ← mul_add, (hc.mul hd) _]

theorem hookeR_scale {c : K} (hc : SameDigits rnd c) (Kb Gs : K) (e : Mat K) :
    hookeR rnd (c * Kb) (c * Gs) e = c • hookeR rnd Kb Gs e := by
  funext i j
  simp only [hookeR, Matrix.smul_apply, smul_eq_mul, mul_left_comm (2 : K) c, mul_assoc, hc _,
    ← mul_add]

variable {U : NewUnits K} (hb : U.Binary rnd) {ns N : ℕ}
include hb

theorem Spec.NewUnits.Binary.visc : SameDigits rnd U.visc :=
  hb.M.div (hb.T.mul hb.W) (mul_pos U.T_pos U.W_pos).ne'

theorem applyStressR_scale (law : Law) (dt : K) (mp : Particle K ns) :
    (scalePt U law mp).applyStressR rnd (U.T * dt) = scalePt U law (mp.applyStressR rnd dt) := by
  unfold Particle.applyStressR
  have h : ∀ i j, rnd (rnd (mdotR rnd (U.rate • mp.LL) (U.stress • mp.stress) i j +
      mdotR rnd (U.stress • mp.stress) (U.rate • mp.LL) i j) * (U.T * dt)) = U.stress *
      rnd (rnd (mdotR rnd mp.LL mp.stress i j + mdotR rnd mp.stress mp.LL i j) * dt) := by
    intro i j
    rw [mdotR_scale hb.rate hb.stress, mdotR_scale hb.stress hb.rate, mul_comm U.stress U.rate, ← mul_add,
      hb.rate.mul hb.stress, ← hb.stress]
    congr 1
    have := NewUnits.T_rate (U := U)
    linear_combination (U.stress * dt * rnd (mdotR rnd mp.LL mp.stress i j +
      mdotR rnd mp.stress mp.LL i j)) * this
  have h' : (fun i j => rnd ((U.stress • mp.stress) i j + rnd ((U.stress • mp.dstress) i j -
      rnd (rnd (mdotR rnd (U.rate • mp.LL) (U.stress • mp.stress) i j +
        mdotR rnd (U.stress • mp.stress) (U.rate • mp.LL) i j) * (U.T * dt)))) : Mat K) =
      U.stress • (fun i j => rnd (mp.stress i j + rnd (mp.dstress i j -
        rnd (rnd (mdotR rnd mp.LL mp.stress i j + mdotR rnd mp.stress mp.LL i j) * dt))) : Mat K) := by
    funext i j
    simp only [h, Matrix.smul_apply, smul_eq_mul, ← mul_sub, ← mul_add, hb.stress _]
    rfl
  exact congrArg (fun s => ({ scalePt U law mp with stress := s } : Particle K ns)) h'

theorem elasticR_scale {law : Law} (hg : gammaUnit U law = 1) (ops : Ops K) (Kb Gs : K)
    (mp : Particle K ns) :
    elasticR rnd ops (U.stress * Kb) (U.stress * Gs) (scalePt U law mp) =
      scalePt U law (elasticR rnd ops Kb Gs mp) := by
  unfold elasticR
  simp only [scalePt, hg, hookeR_scale hb.stress, traceR_scale hb.stress, mul_div_assoc, hb.stress _,
    one_mul, Matrix.smul_apply, smul_eq_mul]

theorem elasticTimeR_scale {law : Law} (hg : gammaUnit U law = 1) (ops : Ops K) (Kb Gs : K)
    (mp : Particle K ns) :
    elasticTimeR rnd ops (U.stress * Kb) (U.stress * Gs) (scalePt U law mp) =
      scalePt U law (elasticTimeR rnd ops Kb Gs mp) := by
  unfold elasticTimeR
  rw [elasticR_scale hb hg]
  simp only [scalePt, traceR_scale hb.stress, ← mul_neg, mul_div_assoc, hb.stress _,
    Matrix.smul_apply, smul_eq_mul]

/-- What a law adds at a corner, in the new units. -/
def scaleRep (U : NewUnits K) (l : List (Vis × XF K)) : List (Vis × XF K) :=
  l.map fun e => (e.1, scaleX (U.M * visUnit U e.1) e.2)

theorem report_scale {c : K} (hc : SameDigits rnd c) (n v m : K) :
    rnd (rnd (n * (c * v)) * (U.M * m)) = U.M * c * rnd (rnd (n * v) * m) := by
  rw [mul_left_comm n, hc, ← (hb.M.mul hc)]
  congr 1; ring

theorem elasticVisR_scale {law : Law} (hg : gammaUnit U law = 1) (dt : K) (mp : Particle K ns)
    (r : Fin 4) : elasticVisR rnd (U.T * dt) (scalePt U law mp) r =
      scaleRep U (elasticVisR rnd dt mp r) := by
  unfold elasticVisR scaleRep
  simp only [scalePt, hg, one_mul, report_scale hb hb.stress, List.map_cons, List.map_nil, visUnit,
    List.cons.injEq, Prod.mk.injEq, true_and, and_true]
  have h1 : (XF.fin (rnd (mp.N r * mp.gammadot)) / XF.fin (U.T * dt) : XF K) =
      scaleX U.rate (XF.fin (rnd (mp.N r * mp.gammadot)) / XF.fin dt) :=
    fin_div_scale zero_lt_one U.T_pos (one_mul _).symm rfl rfl
  refine ⟨rfl, ?_, rfl, rfl⟩
  rw [h1, rd_scale hb.rate, show (XF.fin (U.M * mp.m) : XF K) = scaleX U.M (.fin mp.m) from rfl,
    scaleX_mul U.rate_pos U.M_pos, rd_scale (hb.rate.mul hb.M), mul_comm U.rate]

theorem massR_scale (law0 : Law) (c : LawCtx K ns) (m V : K) :
    elasticTimeMassR rnd (scaleCtx U .elastic_time law0 c) (U.M * m) (U.vol * V) =
      U.M * elasticTimeMassR rnd c m V := by
  unfold elasticTimeMassR
  have h1 : rnd ((scaleCtx U .elastic_time law0 c).mat.rho_f * (U.vol * V)) =
      U.M * rnd (c.mat.rho_f * V) := by
    rw [← hb.M, ← NewUnits.vol_dens]
    congr 1
    simp only [scaleCtx, scaleMat]; ring
  have h2 : (scaleCtx U .elastic_time law0 c).mat.t_0 < (scaleCtx U .elastic_time law0 c).t ↔
      c.mat.t_0 < c.t := mul_lt_mul_iff_right₀ U.T_pos
  rw [h1]
  simp only [h2, mul_lt_mul_iff_right₀ U.M_pos, mul_assoc, hb.M _, mul_ite]
  rfl

theorem viscousR_scale (law0 : Law) (c : LawCtx K ns) (mp : Particle K ns) :
    viscousR rnd (scaleCtx U .viscous law0 c) (scalePt U .viscous mp) =
      scalePt U .viscous (viscousR rnd c mp) := by
  have hg : gammaUnit U .viscous = U.rate := rfl
  have hm : musUnit U .viscous = U.visc := rfl
  have hv : U.visc / U.T = U.stress := by
    have := U.T_ne; have := U.W_ne
    unfold NewUnits.visc NewUnits.stress; field_simp
  have h1 : ∀ x : K, rnd (U.visc * x / (U.T * c.dt)) = U.stress * rnd (x / c.dt) := fun x => by
    rw [mul_div_mul_comm, hv, hb.stress]
  have h2 : ∀ x : K, rnd (x / (U.T * c.dt)) = U.rate * rnd (x / c.dt) := fun x => by
    rw [← hb.rate]; congr 1; unfold NewUnits.rate; rw [div_mul_div_comm, one_mul]
  unfold viscousR
  simp only [scaleCtx, scalePt, scaleMat, hg, hm, mul_left_comm (2 : K) U.visc, mul_assoc, hb.visc _,
    hb.stress _, h1, h2, ← mul_add, ← mul_sub, Matrix.smul_apply, smul_eq_mul]
  rfl

theorem viscousVisR_scale (ops : Ops K) (ho : RootScales ops) (mp : Particle K ns) (r : Fin 4) :
    viscousVisR rnd ops (scalePt U .viscous mp) r = scaleRep U (viscousVisR rnd ops mp r) := by
  have h : rnd (ops.sqrt (sumSqR rnd (U.stress • mp.dev_stress))) =
      U.stress * rnd (ops.sqrt (sumSqR rnd mp.dev_stress)) := by
    rw [sumSqR_scale hb.stress, ho _ _ U.stress_pos, hb.stress]
  unfold viscousVisR scaleRep
  simp only [scalePt, h, report_scale hb hb.stress, List.map_cons, List.map_nil, visUnit, scaleX]

theorem runLawR_scale {law : Law}
    (hl : law = .rigid ∨ law = .elastic ∨ law = .elastic_time ∨ law = .viscous) (law0 : Law)
    (c : LawCtx K ns) (ho : RootScales c.ops) (mp : Particle K ns) :
    runLawR rnd law (scaleCtx U law law0 c) (scalePt U law mp) =
      Prod.map (scalePt U law) (fun l r => scaleRep U (l r)) <$> runLawR rnd law c mp := by
  cases law with
  | rigid => rfl
  | elastic =>
    have h := elasticR_scale hb (law := .elastic) rfl c.ops c.mat.Kb c.mat.Gs mp
    refine congrArg Except.ok (Prod.ext h (funext fun r => ?_))
    change elasticVisR rnd (U.T * c.dt) (elasticR rnd c.ops (U.stress * c.mat.Kb) (U.stress * c.mat.Gs)
      (scalePt U .elastic mp)) r = _
    rw [h]
    exact elasticVisR_scale hb rfl c.dt _ r
  | elastic_time =>
    have e : (fun m => ({ scalePt U .elastic_time mp with m := m } : Particle K ns))
        (elasticTimeMassR rnd (scaleCtx U .elastic_time law0 c) (scalePt U .elastic_time mp).m
          (scalePt U .elastic_time mp).V) =
        scalePt U .elastic_time { mp with m := elasticTimeMassR rnd c mp.m mp.V } :=
      congrArg (fun m => ({ scalePt U .elastic_time mp with m := m } : Particle K ns))
        (massR_scale hb law0 c mp.m mp.V)
    dsimp only at e
    unfold runLawR
    dsimp only
    rw [e]
    refine ite_equiv rfl ?_
    generalize ({ mp with m := elasticTimeMassR rnd c mp.m mp.V } : Particle K ns) = q
    have hE : ∀ k : K, rnd ((scaleCtx U .elastic_time law0 c).mat.E_0 / k) =
        U.stress * rnd (c.mat.E_0 / k) := fun k => by
      rw [← hb.stress, ← mul_div_assoc]; rfl
    rw [hE, hE]
    have h := fun k g => elasticTimeR_scale hb (law := .elastic_time) rfl c.ops k g q
    refine congrArg Except.ok (Prod.ext (h _ _) (funext fun r => ?_))
    refine Eq.trans ?_ (elasticVisR_scale hb (law := .elastic_time) rfl c.dt _ r)
    exact congrArg (fun q => elasticVisR rnd (U.T * c.dt) q r) (h _ _)
  | viscous =>
    unfold runLawR
    refine ite_iff (mul_eq_zero_iff' U.T_pos _) rfl ?_
    have h := viscousR_scale hb law0 c mp
    refine congrArg Except.ok (Prod.ext h (funext fun r => ?_))
    change viscousVisR rnd c.ops (viscousR rnd (scaleCtx U .viscous law0 c) (scalePt U .viscous mp)) r = _
    rw [h]
    exact viscousVisR_scale hb c.ops ho _ r
  | _ => rcases hl with h | h | h | h <;> cases h

theorem Spec.NewUnits.Binary.vis (v : Vis) : SameDigits rnd (U.M * visUnit U v) := by
  refine hb.M.mul ?_
  cases v <;> first
    | exact SameDigits.one
    | exact hb.rate
    | exact hb.stress
    | exact hb.visc
    | exact hb.stress.div hb.T U.T_ne

theorem scatterVisR_scale (law : Law) (nx : ℕ) (mp : Particle K ns) (l : Fin 4 → List (Vis × XF K))
    (vis : Vis → Fin N → XF K) :
    scatterVisR rnd nx (scalePt U law mp) (fun r => scaleRep U (l r)) (scaleVisF U vis) =
      scaleVisF U <$> scatterVisR rnd nx mp l vis := by
  refine for4_equiv (ψ := scaleVisF U) (fun r vis => res_bind_id fun n => congrArg Except.ok ?_) vis
  change List.foldl _ _ (scaleRep U (l r)) = _
  generalize l r = l
  induction l generalizing vis with
  | nil => rfl
  | cons e l ih =>
    simp only [scaleRep, List.map_cons, List.foldl_cons] at ih ⊢
    rw [← ih]
    congr 1
    funext v
    by_cases hv : v = e.1
    · subst hv
      funext k
      simp only [scaleVisF_apply, Function.update_self]
      by_cases hk : k = n
      · subst hk
        simp only [Function.update_self]
        rw [scaleX_add, rd_scale (hb.vis _)]
      · simp only [Function.update_of_ne hk, scaleVisF_apply]
    · funext k
      simp only [Function.update_of_ne hv, scaleVisF_apply]

theorem updateStressR_scale {law : Law}
    (hl : law = .rigid ∨ law = .elastic ∨ law = .elastic_time ∨ law = .viscous) (law0 : Law) (nx : ℕ) (c : LawCtx K ns) (ho : RootScales c.ops)
    (mp : Particle K ns) (vis : Vis → Fin N → XF K) :
    (scalePt U law mp).updateStressR rnd nx law (scaleCtx U law law0 c) (scaleVisF U vis) =
      Prod.map (scalePt U law) (scaleVisF U) <$> mp.updateStressR rnd nx law c vis := by
  refine res_bind_map (runLawR_scale hb hl law0 c ho mp) fun r _ => ?_
  refine res_bind_map (scatterVisR_scale hb law nx r.1 r.2 vis) fun vis' _ => ?_
  exact congrArg (fun x => (Except.ok (x, scaleVisF U vis') : Res _))
    (applyStressR_scale hb law c.dt r.1)

theorem lawCtxR_scale (P : Par K) (d : Dyn K) (s : Fin ns → K) (m : Mat0 K) (law0 : Law) (p : ℕ)
    (ph : Phase K ns) : lawCtxR rnd (scalePar U P) (scaleDyn U d) (U.L • s) (scaleMat U law0 m) p
      (scalePh U ph) = scaleCtx U ph.law law0 (lawCtxR rnd P d s m p ph) := by
  unfold lawCtxR
  rw [lawCtx_scale]
  have : rnd ((scalePar U P).G.y_M - (scalePar U P).G.y_m) = U.L * rnd (P.G.y_M - P.G.y_m) := by
    rw [← hb.L, mul_sub]
  rw [this]
  rfl

theorem mkParticleR_scale (P : Par K) (ph : Phase K ns) (g x y : K) :
    mkParticleR rnd (scalePar U P) (scalePh U ph) (U.acc * g) (U.L * x) (U.L * y) =
      scalePt U ph.law <$> mkParticleR rnd P ph g x y := by
  unfold mkParticleR
  refine ite_equiv (congrArg Except.ok ?_) rfl
  have hV : rnd ((scalePh U ph).A * (scalePar U P).G.thickness) =
      U.vol * rnd (ph.A * P.G.thickness) := by
    rw [← hb.vol]; congr 1; unfold NewUnits.vol; simp only [scalePh]; ring
  have hm : ∀ V : K, rnd ((scalePh U ph).par.rho * (U.vol * V)) = U.M * rnd (ph.par.rho * V) := by
    intro V
    rw [← hb.M, ← NewUnits.vol_dens]; congr 1; simp only [scalePh, scaleMat]; ring
  have hbf : bodyForceR rnd (scalePar U P) (U.acc * g) = U.acc • bodyForceR rnd P g := by
    funext k
    unfold bodyForceR
    fin_cases k <;> simp [mul_assoc, hb.acc _]
  rw [hV, hm, hbf]
  simp only [scalePt, scalePh, Particle.mk.injEq, true_and, mul_zero, smul_zero]
  refine ⟨rfl, ?_, ?_, congrArg XF.fin (mul_zero _).symm⟩
  · funext k; fin_cases k <;> simp
  · change (if ph.hasIv = true then VRef.shared else VRef.own 0) = _
    split_ifs
    · rfl
    · exact congrArg VRef.own (smul_zero _).symm

/-- C139 applies to the first of the rounded laws. -/
theorem first_same (P : Par K) (ho : RootScales P.ops) :
    SameIn U (Besides.first rnd P) (Besides.first rnd (scalePar U P)) where
  fractions := fun _ => rfl
  stress := fun d L p ph mp vis => by
    have h : ∃ law0, (mat0 (sc U L)).getD (scalePh U ph).par =
        scaleMat U law0 ((mat0 L).getD ph.par) := by
      cases L with
      | nil => exact ⟨ph.law, rfl⟩
      | cons a L => exact ⟨a.ph.law, rfl⟩
    obtain ⟨law0, h⟩ := h
    refine dite (ph.law = .rigid ∨ ph.law = .elastic ∨ ph.law = .elastic_time ∨ ph.law = .viscous)
      (fun hl => ?_) fun hl => ?_
    swap
    · refine (if_neg hl).trans (Eq.trans ?_ (congrArg (Prod.map (scalePt U ph.law) (scaleVisF U) <$> ·)
        (if_neg hl).symm))
      rfl
    refine (if_pos hl).trans (Eq.trans ?_ (congrArg (Prod.map (scalePt U ph.law) (scaleVisF U) <$> ·)
      (if_pos hl).symm))
    change (scalePt U ph.law mp).updateStressR rnd P.G.nx ph.law (lawCtxR rnd (scalePar U P)
      (scaleDyn U d) (U.L • P.G.s) ((mat0 (sc U L)).getD (scalePh U ph).par) p (scalePh U ph)) _ = _
    rw [h, lawCtxR_scale hb]
    exact updateStressR_scale hb hl law0 _ _ ho mp vis
  visCyclic := fun vis => by
    funext v
    change (if v ∈ cyclicVis then fun i => XF.rd rnd (makeCyclic (nx := P.G.nx) (ny := P.G.ny)
      (scaleVisF U vis v) i) else scaleVisF U vis v) = _
    by_cases h : v ∈ cyclicVis
    · rw [if_pos h]
      funext i
      rw [scaleVisF_apply]
      change _ = scaleX _ ((if v ∈ cyclicVis then fun i => XF.rd rnd (makeCyclic (nx := P.G.nx)
        (ny := P.G.ny) (vis v) i) else vis v) i)
      rw [if_pos h, ← rd_scale (hb.vis v)]
      congr 1
      exact congrFun (makeCyclic_scale (fun x y => (scaleX_add _ x y).symm) (vis v)) i
    · rw [if_neg h]
      funext i
      rw [scaleVisF_apply, scaleVisF_apply]
      change _ = scaleX _ ((if v ∈ cyclicVis then fun i => XF.rd rnd (makeCyclic (nx := P.G.nx)
        (ny := P.G.ny) (vis v) i) else vis v) i)
      rw [if_neg h]
  late := fun s => ite_equiv rfl rfl
  point := fun _ ph g x y => mkParticleR_scale hb P ph g x y

end
end Mpm

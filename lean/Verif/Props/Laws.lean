import Verif.Props.Fluids
import Verif.Props.Fields

/-!
# The rate dependent plastic law (C83), the constant friction law (C84) and NaN at nodes (C85)
-/

set_option linter.unusedSectionVars false

namespace Mpm
open Spec

namespace Spec
section
variable {K : Type} [Field K] [LinearOrder K] {ns : ℕ}

/-- Mean in-plane pressure, compression positive. -/
def planePressure (A : Mat K) : K := -(A 0 0 + A 1 1) / 2

/-- In-plane deviator. -/
def planeDev (A : Mat K) (i j : Fin 2) : K :=
  A i.castSucc j.castSucc - if i = j then (A 0 0 + A 1 1) / 2 else 0

/-- Sum of squares of the in-plane deviator. -/
def planeDevSq (A : Mat K) : K := ∑ i, ∑ j, planeDev A i j ^ 2

/-- Shear stress measure `q`. -/
def planeShear (o : Ops K) (A : Mat K) : K := o.sqrt (3 * planeDevSq A / 2)

end
end Spec

section
variable {K : Type} [Field K] [LinearOrder K] [IsStrictOrderedRing K] {ns : ℕ}

/-! ## C83 -/

theorem neg_block2_trace (A : Mat K) : (-block2 A).trace / 2 = planePressure A := by
  simp [block2, Matrix.trace, Fin.sum_univ_two, planePressure]

theorem neg_block2_dev (A : Mat K) (i j : Fin 2) :
    (-block2 A - ((-block2 A).trace / 2) • (1 : Matrix (Fin 2) (Fin 2) K)) i j =
      -planeDev A i j := by
  rw [neg_block2_trace]
  simp only [Matrix.sub_apply, Matrix.neg_apply, Matrix.smul_apply, smul_eq_mul, planeDev, block2,
    planePressure, Matrix.one_apply]
  split <;> ring

theorem neg_block2_shear (o : Ops K) (A : Mat K) :
    o.sqrt (3 * frob (-block2 A - ((-block2 A).trace / 2) • (1 : Matrix (Fin 2) (Fin 2) K))
      (-block2 A - ((-block2 A).trace / 2) • (1 : Matrix (Fin 2) (Fin 2) K)) / 2) =
      planeShear o A := by
  unfold planeShear frob planeDevSq
  simp only [neg_block2_dev, neg_mul_neg, pow_two]

theorem special_add_left {a : XF K} (h : XF.Special a) (b : XF K) : XF.Special (a + b) := by
  cases a <;> cases b <;> first | rfl | cases h

theorem special_mul_fin {a : XF K} (h : XF.Special a) (b : K) : XF.Special (a * .fin b) := by
  change XF.Special (XF.mul _ _)
  cases a with
  | fin x => cases h
  | nan => rfl
  | pinf =>
    simp only [XF.mul, XF.infSign]
    split
    · rfl
    · split <;> rfl
  | ninf =>
    simp only [XF.mul, XF.infSign]
    split
    · rfl
    · split <;> rfl

theorem special_fin_sub {b : XF K} (h : XF.Special b) (a : K) : XF.Special (.fin a - b) := by
  cases b <;> first | rfl | cases h

theorem special_neg {b : XF K} (h : XF.Special b) : XF.Special (-b) := by
  cases b <;> first | rfl | cases h

/-- What a successful call of the law says: divisors are not zero, and the increment. -/
theorem dpRate_ok {c : LawCtx K ns} {mp mp' : Particle K ns} {l : List (Vis × XF K)}
    (h : runLaw .dp_rate c mp = .ok (mp', l)) :
    let p := planePressure mp.stress
    let q := planeShear c.ops mp.stress
    let Γ := if 0 < q - c.mat0.mu * p then q - c.mat0.mu * p else 0
    2 * q * p * c.mat0.t_star ≠ 0 ∧ c.mat0.mu * p * p * c.mat0.t_star ≠ 0 ∧
    ∀ i j : Fin 2, mp'.dstress i.castSucc j.castSucc =
      2 * c.mat0.Gs * (planeDev mp.dstrain i j -
        3 * planeDev mp.stress i j / (2 * q * p * c.mat0.t_star) * Γ) -
      c.mat0.Kb * (1 : Matrix (Fin 2) (Fin 2) K) i j *
        (2 * planePressure mp.dstrain + c.mat0.beta * q / (c.mat0.mu * p * p * c.mat0.t_star) * Γ) := by
  intro p q Γ
  simp only [runLaw, lawDpRate] at h
  obtain ⟨M, h1, h⟩ := res_bind_ok.1 h
  obtain ⟨y, h2, h⟩ := res_bind_ok.1 h
  obtain ⟨rfl, rfl⟩ := Prod.mk.inj (Except.ok.inj h)
  clear h
  have key : ∀ i j : Fin 2,
      -dpRateGuts c.ops c.mat0 (-block2 mp.dstrain) (-block2 mp.stress) i j =
        .fin (M i.castSucc j.castSucc) := by
    intro i j
    have := finMat_ok h1 i.castSucc j.castSucc
    rw [dif_pos ⟨i.2, j.2⟩] at this
    exact this
  have guts : ∀ i j : Fin 2, dpRateGuts c.ops c.mat0 (-block2 mp.dstrain) (-block2 mp.stress) i j =
      .fin (2 * c.mat0.Gs) * (.fin (-planeDev mp.dstrain i j) -
        .fin (3 * -planeDev mp.stress i j) / .fin (2 * q * p * c.mat0.t_star) * .fin Γ) +
      .fin (c.mat0.Kb * (1 : Matrix (Fin 2) (Fin 2) K) i j) *
        (.fin (2 * planePressure mp.dstrain) +
          .fin (c.mat0.beta * q) / .fin (c.mat0.mu * p * p * c.mat0.t_star) * .fin Γ) := by
    intro i j
    unfold dpRateGuts
    simp only [neg_block2_shear]
    simp only [neg_block2_dev]
    simp only [neg_block2_trace]
    have : (-block2 mp.dstrain).trace = 2 * planePressure mp.dstrain := by
      rw [← neg_block2_trace]; ring
    rw [this]
  simp only [guts] at key
  have hA : 2 * q * p * c.mat0.t_star ≠ 0 := by
    intro h0
    have := key 0 0
    rw [h0] at this
    have hs := special_neg (special_add_left (XF.Special.fin_mul (special_fin_sub
      (special_mul_fin (XF.special_div_zero (3 * -planeDev mp.stress 0 0)) Γ)
      (-planeDev mp.dstrain 0 0)) (2 * c.mat0.Gs)) (.fin (c.mat0.Kb *
        (1 : Matrix (Fin 2) (Fin 2) K) 0 0) * (.fin (2 * planePressure mp.dstrain) +
          .fin (c.mat0.beta * q) / .fin (c.mat0.mu * p * p * c.mat0.t_star) * .fin Γ)))
    rw [this] at hs
    cases hs
  have hB : c.mat0.mu * p * p * c.mat0.t_star ≠ 0 := by
    intro h0
    have := key 0 0
    rw [h0, add_comm] at this
    have hs := special_neg (special_add_left (XF.Special.fin_mul (XF.Special.fin_add
      (special_mul_fin (XF.special_div_zero (c.mat0.beta * q)) Γ)
      (2 * planePressure mp.dstrain)) (c.mat0.Kb * (1 : Matrix (Fin 2) (Fin 2) K) 0 0))
      (.fin (2 * c.mat0.Gs) * (.fin (-planeDev mp.dstrain 0 0) -
        .fin (3 * -planeDev mp.stress 0 0) / .fin (2 * q * p * c.mat0.t_star) * .fin Γ)))
    rw [this] at hs
    cases hs
  refine ⟨hA, hB, fun i j => ?_⟩
  have := key i j
  rw [XF.fin_div _ hA, XF.fin_div _ hB, XF.fin_mul, XF.fin_mul, XF.fin_sub, XF.fin_add, XF.fin_mul,
    XF.fin_mul, XF.fin_add] at this
  have e := XF.fin.inj this
  change M i.castSucc j.castSucc = _
  rw [← e]
  ring

/-- C83.  Below yield the in-plane stress increment is that of isotropic (plane) elasticity with the
moduli of the first phase. -/
theorem c83_elastic {c : LawCtx K ns} {mp mp' : Particle K ns} {l : List (Vis × XF K)}
    (hq : planeShear c.ops mp.stress ≤ c.mat0.mu * planePressure mp.stress)
    (h : runLaw .dp_rate c mp = .ok (mp', l)) (i j : Fin 2) :
    mp'.dstress i.castSucc j.castSucc = 2 * c.mat0.Gs * planeDev mp.dstrain i j +
      if i = j then c.mat0.Kb * (mp.dstrain 0 0 + mp.dstrain 1 1) else 0 := by
  rw [(dpRate_ok h).2.2, if_neg (by linarith), Matrix.one_apply]
  unfold planePressure
  split <;> ring

/-- C83.  Beyond yield a point that does not strain relaxes: its deviator shrinks (or overshoots) by a
factor that does not involve the step size, and its pressure grows. -/
theorem c83_relax {c : LawCtx K ns} {mp mp' : Particle K ns} {l : List (Vis × XF K)}
    (hq : c.mat0.mu * planePressure mp.stress < planeShear c.ops mp.stress)
    (he : mp.dstrain = 0) (h : runLaw .dp_rate c mp = .ok (mp', l)) :
    let p := planePressure mp.stress
    let q := planeShear c.ops mp.stress
    (∀ i j, planeDev (mp.stress + mp'.dstress) i j =
      (1 - 3 * c.mat0.Gs * (q - c.mat0.mu * p) / (q * p * c.mat0.t_star)) *
        planeDev mp.stress i j) ∧
    planePressure (mp.stress + mp'.dstress) =
      p + c.mat0.Kb * c.mat0.beta * q * (q - c.mat0.mu * p) /
        (c.mat0.mu * p ^ 2 * c.mat0.t_star) := by
  intro p q
  obtain ⟨hA, hB, e⟩ := dpRate_ok h
  rw [if_pos (sub_pos.2 hq)] at e
  have z : ∀ i j, planeDev mp.dstrain i j = 0 := by
    intro i j; rw [he]; simp [planeDev]
  have zp : planePressure mp.dstrain = 0 := by rw [he]; simp [planePressure]
  simp only [z, zp] at e
  change ∀ i j : Fin 2, _ = 2 * c.mat0.Gs * (0 - 3 * planeDev mp.stress i j /
    (2 * q * p * c.mat0.t_star) * (q - c.mat0.mu * p)) - c.mat0.Kb *
    (1 : Matrix (Fin 2) (Fin 2) K) i j * (2 * 0 + c.mat0.beta * q /
      (c.mat0.mu * p * p * c.mat0.t_star) * (q - c.mat0.mu * p)) at e
  change 2 * q * p * c.mat0.t_star ≠ 0 at hA
  change c.mat0.mu * p * p * c.mat0.t_star ≠ 0 at hB
  have hpd : p = -(mp.stress 0 0 + mp.stress 1 1) / 2 := rfl
  clear_value p q
  have e00 := e 0 0
  have e11 := e 1 1
  have c0 : (Fin.castSucc (0 : Fin 2) : Fin 3) = 0 := rfl
  have c1 : (Fin.castSucc (1 : Fin 2) : Fin 3) = 1 := rfl
  rw [c0] at e00
  rw [c1] at e11
  have hp : p ≠ 0 := fun h => hA (by rw [h]; ring)
  have hq0 : q ≠ 0 := fun h => hA (by rw [h]; ring)
  have ht : c.mat0.t_star ≠ 0 := fun h => hA (by rw [h]; ring)
  have hm : c.mat0.mu ≠ 0 := fun h => hB (by rw [h]; ring)
  have d0 : planeDev mp.stress 0 0 = (mp.stress 0 0 - mp.stress 1 1) / 2 := by
    unfold planeDev; rw [if_pos rfl, c0]; ring
  have d1 : planeDev mp.stress 1 1 = -(mp.stress 0 0 - mp.stress 1 1) / 2 := by
    unfold planeDev; rw [if_pos rfl, c1]; ring
  rw [d0] at e00
  rw [d1] at e11
  rw [Matrix.one_apply_eq] at e00 e11
  refine ⟨fun i j => ?_, ?_⟩
  · have eij := e i j
    unfold planeDev at eij ⊢
    simp only [Matrix.add_apply]
    rw [eij, e00, e11]
    rw [Matrix.one_apply]
    split
    · field_simp
      ring
    · field_simp
      ring
  · unfold planePressure
    simp only [Matrix.add_apply]
    rw [e00, e11]
    have : p = -(mp.stress 0 0 + mp.stress 1 1) / 2 := hpd
    rw [eq_div_iff two_ne_zero] at this
    have h2 : mp.stress 1 1 = -(p * 2) - mp.stress 0 0 := by rw [this]; ring
    rw [h2]
    field_simp
    ring

/-- C83.  If three times the shear modulus times the excess `q - mu p` exceeds `2 q p t_star`, the
shear stress of a point at rest grows in every step instead of relaxing. -/
theorem c83_overshoot {c : LawCtx K ns} {mp mp' : Particle K ns} {l : List (Vis × XF K)}
    (hq : c.mat0.mu * planePressure mp.stress < planeShear c.ops mp.stress)
    (hd : 0 < planeDevSq mp.stress)
    (hs : 0 < planeShear c.ops mp.stress * planePressure mp.stress * c.mat0.t_star)
    (ho : 2 * (planeShear c.ops mp.stress * planePressure mp.stress * c.mat0.t_star) <
      3 * c.mat0.Gs * (planeShear c.ops mp.stress - c.mat0.mu * planePressure mp.stress))
    (he : mp.dstrain = 0) (h : runLaw .dp_rate c mp = .ok (mp', l)) :
    planeDevSq mp.stress < planeDevSq (mp.stress + mp'.dstress) := by
  have e := (c83_relax hq he h).1
  have e2 : planeDevSq (mp.stress + mp'.dstress) =
      (1 - 3 * c.mat0.Gs * (planeShear c.ops mp.stress - c.mat0.mu * planePressure mp.stress) /
        (planeShear c.ops mp.stress * planePressure mp.stress * c.mat0.t_star)) ^ 2 *
      planeDevSq mp.stress := by
    unfold planeDevSq
    simp only [e, mul_pow, Finset.mul_sum]
  have hr : 2 < 3 * c.mat0.Gs * (planeShear c.ops mp.stress - c.mat0.mu *
      planePressure mp.stress) / (planeShear c.ops mp.stress * planePressure mp.stress *
        c.mat0.t_star) := by
    rw [lt_div_iff₀ hs]; exact ho
  rw [e2]
  generalize 3 * c.mat0.Gs * (planeShear c.ops mp.stress - c.mat0.mu *
      planePressure mp.stress) / (planeShear c.ops mp.stress * planePressure mp.stress *
        c.mat0.t_star) = r at hr
  refine lt_mul_of_one_lt_left hd ?_
  nlinarith

/-- C83.  The step size has no influence on what the law does to the point: halving it doubles the
number of relaxations per unit of time. -/
theorem c83_no_time (c : LawCtx K ns) (mp : Particle K ns) (dt : K) :
    (runLaw .dp_rate { c with dt := dt } mp).map (·.1) = (runLaw .dp_rate c mp).map (·.1) := by
  simp only [runLaw, lawDpRate]
  cases finMat (fun i j => if h : i.val < 2 ∧ j.val < 2 then
      -(dpRateGuts c.ops c.mat0 (-block2 mp.dstrain) (-block2 mp.stress) ⟨i, h.1⟩ ⟨j, h.2⟩)
      else .fin (mp.dstress i j)) with
  | error e => rfl
  | ok M =>
    simp only [res_ok_bind]
    cases (XF.fin (c.ops.sqrt (3 * frob (-block2 mp.stress - ((-block2 mp.stress).trace / 2) •
        (1 : Matrix (Fin 2) (Fin 2) K)) (-block2 mp.stress - ((-block2 mp.stress).trace / 2) •
        (1 : Matrix (Fin 2) (Fin 2) K)) / 2)) / XF.fin (c.mat.mu * ((-block2 mp.stress).trace / 2))
        - XF.fin 1 : XF K).toRes with
    | error e => rfl
    | ok y => rfl

/-! ## C84 -/

theorem kenSimple_ok {c : LawCtx K ns} {mp mp' : Particle K ns} {l : List (Vis × XF K)}
    (h : runLaw .ken_simple c mp = .ok (mp', l)) :
    ∃ mu_0, c.mat.mu_0 = .scalar mu_0 ∧ c.dt ≠ 0 ∧ mp'.gammadot = mp.gammadot ∧
      mp'.rho = mp.rho ∧ mp'.stress = mp.stress ∧ mp'.LL = mp.LL ∧
      mp'.pressure = min (mp.pressure + c.mat.Kb * (mp.dstrain.trace / 3)) 0 ∧
      mp'.dev_stress = (min ((etaOf c.ops (.fin mu_0) mp.pressure mp.gammadot).nanToNum c.ops.big)
        c.mat.eta_max / c.dt) • (mp.dstrain - (mp.dstrain.trace / 3) • (1 : Mat K)) ∧
      mp'.dstress = if 2500 < mp.rho then mp'.pressure • (1 : Mat K) + mp'.dev_stress - mp.stress
        else -mp.stress := by
  simp only [runLaw, lawKenSimple] at h
  obtain ⟨mu_0, h1, h⟩ := res_bind_ok.1 h
  split at h
  · cases h
  rename_i hdt
  obtain ⟨rfl, rfl⟩ := Prod.mk.inj (Except.ok.inj h)
  clear h
  refine ⟨mu_0, ?_, hdt, rfl, rfl, rfl, rfl, ?_, rfl, rfl⟩
  · cases hm : c.mat.mu_0 with
    | scalar x => rw [hm] at h1; cases h1; rfl
    | _ => rw [hm] at h1; cases h1
  · simp only
    split
    · rename_i h0; exact (min_eq_right h0.le).symm
    · rename_i h0; exact (min_eq_left (not_lt.1 h0)).symm

theorem etaOf_zero_rate {o : Ops K} (ho : GoodOps o) {mu p : K} (hmu : 0 < mu) :
    (etaOf o (.fin mu) p 0).nanToNum o.big = if p = 0 then 0 else o.big := by
  have h2 : 0 < o.sqrt 2 := by
    rcases (ho.sqrt_nonneg 2 zero_le_two).lt_or_eq with h | h
    · exact h
    · have := ho.sqrt_mul 2 zero_le_two
      rw [← h] at this
      norm_num at this
  unfold etaOf
  rw [XF.fin_mul, XF.fin_mul]
  split
  · rename_i hp
    rw [hp, abs_zero, mul_zero, XF.zero_div_zero]
    rfl
  · rename_i hp
    rw [XF.fin_div_zero (by have := abs_pos.2 hp; positivity)]
    rfl

/-- C84.  As the law never sets the shear rate it divides by, the material is a Newtonian fluid of
viscosity `eta_max` wherever the pressure is not zero, and inviscid elsewhere: the friction
coefficient plays no part. -/
theorem c84_no_friction {c : LawCtx K ns} (ho : GoodOps c.ops) (hb : c.mat.eta_max ≤ c.ops.big)
    (he : 0 ≤ c.mat.eta_max) {mp mp' : Particle K ns} {l : List (Vis × XF K)}
    (hg : mp.gammadot = 0) {mu : K} (hmu : 0 < mu) (hm : c.mat.mu_0 = .scalar mu)
    (h : runLaw .ken_simple c mp = .ok (mp', l)) :
    mp'.gammadot = 0 ∧ (2500 < mp.rho → mp.stress + mp'.dstress =
      (min (mp.pressure + c.mat.Kb * (mp.dstrain.trace / 3)) 0) • (1 : Mat K) +
      ((if mp.pressure = 0 then 0 else c.mat.eta_max) / c.dt) •
        (mp.dstrain - (mp.dstrain.trace / 3) • (1 : Mat K))) ∧
    (mp.rho ≤ 2500 → mp.stress + mp'.dstress = 0) := by
  obtain ⟨mu_0, e0, hdt, e1, -, -, -, e2, e3, e4⟩ := kenSimple_ok h
  rw [hm] at e0
  cases e0
  refine ⟨e1.trans hg, fun hr => ?_, fun hr => ?_⟩
  · rw [e4, if_pos hr, e2, e3, hg, etaOf_zero_rate ho hmu, add_sub_cancel]
    congr 3
    split
    · exact min_eq_left he
    · exact min_eq_right hb
  · rw [e4, if_neg (not_lt.2 hr), add_neg_cancel]

end

section
variable {K : Type} [Field K] [LinearOrder K] [IsStrictOrderedRing K] [FloorRing K]

theorem evolved_gammadot {P : Par K} {d : Dyn K} {m0 : Option (Mat0 K)}
    {Gw Gb Gm : Grid K P.G.N P.G.ns} {p : ℕ} {ph : Phase K P.G.ns} {a b : Particle K P.G.ns}
    (h : Evolved P d m0 Gw Gb Gm p ph a b) (hl : ph.law = .ken_simple) :
    b.gammadot = a.gammadot := by
  obtain ⟨a2, a3, a4, a5, a6, h2, h3, ⟨vis, vis', h4⟩, h5, h6, h7⟩ := h
  have e1 : (a.incrementGravity P d.g p).gammadot = a.gammadot := by
    unfold Particle.incrementGravity; split <;> rfl
  have e2 : a2.gammadot = a.gammadot := by
    unfold Particle.getReferenceNode at h2
    split at h2
    · cases h2
    rw [Except.ok.injEq] at h2
    rw [← h2, ← e1]
  obtain ⟨k, _, _, e3⟩ := getBasis_ok h3
  obtain ⟨mp1, mp2, l, k1, k2, -, e4⟩ := stressStrain_ok h4
  obtain ⟨nd, -, e5⟩ := updateStrain_ok k1
  rw [hl] at k2
  obtain ⟨_, -, -, e6, -⟩ := kenSimple_ok k2
  have g4 : a4.gammadot = a.gammadot := by
    rw [e4]
    change mp2.gammadot = _
    rw [e6, e5]
    change a3.gammadot = _
    rw [e3]
    exact e2
  have g6 : a6.gammadot = a5.gammadot := by
    rcases h6 with ⟨_, rfl⟩ | ⟨_, iv, iv', h⟩
    · rfl
    · obtain ⟨nd, _, _, e⟩ := move_ok h
      have e1 : a6 = (moveClosed P.M_tol d.dt Gm nd a5 iv).1 := congrArg Prod.fst e
      rw [e1]; rfl
  rw [h7, wrapped_frame P a6]
  change a6.gammadot = _
  rw [g6, h5.frame]
  exact g4

/-- C84.  Over any run the points of this law keep the shear rate they were made with: zero, unless
the first phase follows `pouliquen` and starts from the steady profile. -/
theorem c84_run {P : Par K} {interp : Interp K P.G.N} {n : ℕ} {s s' : St P} (hL : Counted s.L)
    (hf : P.initial_flow ≠ .steady)
    (h0 : ∀ A ∈ s.L, A.ph.law = .ken_simple → ∀ mp ∈ A.pts, mp.gammadot = 0)
    (h : steps P interp n s = .ok s') :
    ∀ B ∈ s'.L, B.ph.law = .ken_simple → ∀ mp ∈ B.pts, mp.gammadot = 0 := by
  obtain ⟨-, hR⟩ := steps_descend (fun _ ph a b => ph.law = .ken_simple →
      b.gammadot = a.gammadot) (fun _ _ _ _ => rfl) (fun _ _ _ _ _ h h' x => (h' x).trans (h x))
    (fun _ _ _ _ _ hs h x => h (hs.fields.1.trans x))
    (fun d _ _ _ _ _ _ _ _ _ h => evolved_gammadot h) hL h
  intro B hB hl b hb
  obtain ⟨i, hi⟩ := List.getElem?_of_mem hB
  obtain ⟨A, hA, hs, k⟩ := hR.left hi
  have hlA : A.ph.law = .ken_simple := hs.fields.1.symm.trans hl
  rcases k b hb with ⟨a, ha, hab⟩ | ⟨-, d, f, -, ⟨S0, ph', x, y, mp, -, hm, rfl⟩, hfb⟩
  · rw [hab hlA]
    exact h0 A (List.mem_of_getElem? hA) hlA a ha
  · rw [hfb hlA, wrapped_frame]
    change mp.gammadot = 0
    unfold mkParticle at hm
    obtain ⟨st, h1, hm⟩ := res_bind_ok.1 hm
    obtain ⟨fl, h2, hm⟩ := res_bind_ok.1 hm
    cases hm
    change fl.2.1 = 0
    unfold initFlow at h2
    split at h2
    · cases h2; rfl
    · rename_i hfl; exact absurd hfl hf
    · obtain ⟨_, -, h2⟩ := res_bind_ok.1 h2
      obtain ⟨_, -, h2⟩ := res_bind_ok.1 h2
      obtain ⟨_, -, h2⟩ := res_bind_ok.1 h2
      cases h2; rfl

/-! ## C85 -/

theorem forN_hit {α σ : Type} {f : α → σ → Res (α × σ)} {Q : σ → Prop} {W : α → Prop}
    (hm : ∀ a s a' s', f a s = .ok (a', s') → Q s → Q s')
    (hw : ∀ a s a' s', f a s = .ok (a', s') → W a' → Q s') {n : ℕ} {l l' : List α} {s s' : σ}
    (hn : n = l.length) (h : forN f n l s = .ok (l', s')) :
    (Q s → Q s') ∧ ((∃ a ∈ l', W a) → Q s') := by
  subst hn
  induction l generalizing l' s with
  | nil => cases h; exact ⟨id, by simp⟩
  | cons a l ih =>
    obtain ⟨⟨a', s1⟩, h1, h⟩ := res_bind_ok.1 h
    obtain ⟨⟨t, s2⟩, h2, h⟩ := res_bind_ok.1 h
    cases h
    obtain ⟨k1, k2⟩ := ih h2
    refine ⟨fun hq => k1 (hm _ _ _ _ h1 hq), ?_⟩
    rintro ⟨b, hb, hW⟩
    rcases List.mem_cons.1 hb with rfl | hb
    · exact k1 (hw _ _ _ _ h1 hW)
    · exact k2 ⟨b, hb, hW⟩

theorem forPhases_hit {ns : ℕ} {σ : Type}
    {f : ℕ → PhaseSt K ns → σ → Res (PhaseSt K ns × σ)} {Q : σ → Prop}
    {W : PhaseSt K ns → Prop} {C : PhaseSt K ns → Prop}
    (hf : ∀ p a s a' s', C a → f p a s = .ok (a', s') → (Q s → Q s') ∧ (W a' → Q s'))
    {p : ℕ} {L L' : List (PhaseSt K ns)} {s s' : σ} (hC : ∀ a ∈ L, C a)
    (h : forPhases f p L s = .ok (L', s')) : (Q s → Q s') ∧ ((∃ a ∈ L', W a) → Q s') := by
  induction L generalizing L' s p with
  | nil => cases h; exact ⟨id, by simp⟩
  | cons a L ih =>
    obtain ⟨a', s1, T, h1, h2, rfl⟩ := forPhases_cons_ok.1 h
    obtain ⟨k1, k2⟩ := ih (fun b hb => hC b (List.mem_cons_of_mem _ hb)) h2
    obtain ⟨j1, j2⟩ := hf p a s a' s1 (hC a (by simp)) h1
    refine ⟨fun hq => k1 (j1 hq), ?_⟩
    rintro ⟨b, hb, hW⟩
    rcases List.mem_cons.1 hb with rfl | hb
    · exact k1 (j2 hW)
    · exact k2 ⟨b, hb, hW⟩

theorem nan_sum {ι : Type} [DecidableEq ι] {s : Finset ι} {f : ι → XF K} {i : ι} (hi : i ∈ s)
    (h : f i = .nan) : ∑ j ∈ s, f j = .nan := by
  rw [← Finset.add_sum_erase _ _ hi, h, XF.nan_add]

/-- The value of a nodal field that a point of the mu(I) law stands for. -/
def Spec.pointValue {ns : ℕ} (mp : Particle K ns) : Vis → XF K
  | .mu => mp.mu.getD (.fin 0)
  | .I => mp.I
  | .eta => mp.eta
  | _ => .fin 0

theorem pouliquen_listed {ns : ℕ} {c : LawCtx K ns} {mp mp' : Particle K ns}
    {l : List (Vis × XF K)} (h : runLaw .pouliquen c mp = .ok (mp', l)) {v : Vis}
    (hv : v = .mu ∨ v = .I ∨ v = .eta) : listed v l = [pointValue mp' v] := by
  simp only [runLaw, lawPouliquen] at h
  obtain ⟨⟨a, b, d⟩, _, h⟩ := res_bind_ok.1 h
  split at h
  · cases h
  dsimp only at h
  split at h
  · cases h
    rcases hv with rfl | rfl | rfl <;> rfl
  · cases h

variable {P : Par K} {s s' : St P}

/-- C85.  One point of the mu(I) law with a NaN friction coefficient, inertial number or viscosity
makes that field NaN at all four nodes of its cell, also at those where its shape function is zero. -/
theorem c85_poison (hL : Counted s.L) (hcy : P.B.cyclic_lr = false) (h : gridPhase P s = .ok s')
    {v : Vis} (hv : v = .mu ∨ v = .I ∨ v = .eta) {B : PhaseSt K P.G.ns} (hB : B ∈ s'.L)
    (hl : B.ph.law = .pouliquen) {b : Particle K P.G.ns} (hb : b ∈ B.pts)
    (hn : pointValue b v = .nan) {r : Fin 4} {k : Fin P.G.N} (hk : b.node P.G.nx P.G.N r = .ok k) :
    s'.G.vis v k = .nan := by
  obtain ⟨T, rfl⟩ := gridPhase_ok h
  obtain ⟨-, e2⟩ := gridPhase_vis hL T
  change T.Gd.vis v k = _
  change B ∈ T.Ld at hB
  rw [e2]
  have hLd := T.hLd
  unfold updateStressStrain at hLd
  obtain ⟨⟨L1, vis⟩, h1, h2⟩ := res_bind_ok.1 hLd
  rw [hcy] at h2
  obtain ⟨e3, e4⟩ := Prod.mk.inj (Except.ok.inj h2)
  rw [← e4]
  change vis v k = .nan
  have mono : ∀ (ph : Phase K P.G.ns) (c : LawCtx K P.G.ns) (mp : Particle K P.G.ns)
      (x : Vis → Fin P.G.N → XF K) (mp' : Particle K P.G.ns) (x' : Vis → Fin P.G.N → XF K),
      mp.stressStrain P.G.nx P.M_tol T.Gb ph.law c x = .ok (mp', x') →
      (x v k = .nan → x' v k = .nan) ∧
      ((ph.law = .pouliquen ∧ pointValue mp' v = .nan ∧
        ∃ r, mp'.node P.G.nx P.G.N r = .ok k) → x' v k = .nan) := by
    intro ph c mp x mp' x' hs
    obtain ⟨mp1, mp2, l, _, h2, h3, rfl⟩ := stressStrain_ok hs
    obtain ⟨nd, hnd⟩ := nodesOk_iff.1 (scatterVis_nodes h3)
    have e := scatterVis_of_nodes hnd h3 v k
    refine ⟨fun hx => by rw [e, hx, XF.nan_add], ?_⟩
    rintro ⟨hlaw, hp, r, hr⟩
    rw [hlaw] at h2
    have hp2 : pointValue mp2 v = .nan := by
      rw [← hp]
      rcases hv with rfl | rfl | rfl <;> rfl
    have hr2 : mp2.node P.G.nx P.G.N r = .ok k := hr
    have hk : nd r = k := Except.ok.inj ((hnd r).symm.trans hr2)
    rw [e, pouliquen_listed h2 hv, hp2, nan_sum (Finset.mem_univ r), XF.add_nan]
    rw [if_pos hk]
    simp [XF.mul_nan, XF.nan_mul]
  refine (forPhases_hit (Q := fun x : Vis → Fin P.G.N → XF K => x v k = .nan)
    (W := fun a => a.ph.law = .pouliquen ∧ ∃ b ∈ a.pts, pointValue b v = .nan ∧
      ∃ r, b.node P.G.nx P.G.N r = .ok k)
    (C := fun a => a.ph.n = a.pts.length) ?_ (T.rel hL).2.2.2.1 h1).2
    ⟨B, by rw [e3]; exact hB, hl, b, hb, hn, r, hk⟩
  intro p a x a' x' hn h3
  obtain ⟨⟨pts, v1⟩, h4, h5⟩ := res_bind_ok.1 h3
  cases h5
  have := forN_hit (Q := fun x : Vis → Fin P.G.N → XF K => x v k = .nan)
    (W := fun b => a.ph.law = .pouliquen ∧ pointValue b v = .nan ∧
      ∃ r, b.node P.G.nx P.G.N r = .ok k)
    (fun mp x mp' x' hh => (mono a.ph _ mp x mp' x' hh).1)
    (fun mp x mp' x' hh => (mono a.ph _ mp x mp' x' hh).2) hn h4
  exact ⟨this.1, fun ⟨hl, b, hb, hw⟩ => this.2 ⟨b, hb, hl, hw⟩⟩

theorem inertial_nan {o : Ops K} (ho : GoodOps o) {rho_s g sb p : K} (hr : 0 < rho_s)
    (hg : 0 ≤ g) (hs : 0 < sb) :
    (p = 0 ∧ g = 0 → inertial o rho_s g sb p = .nan) ∧
    (¬ (p = 0 ∧ g = 0) → inertial o rho_s g sb p = .pinf ∧ 0 < g ∧ p = 0 ∨
      ∃ x, 0 ≤ x ∧ (x = 0 → g = 0) ∧ p ≠ 0 ∧ inertial o rho_s g sb p = .fin x) := by
  unfold inertial
  constructor
  · rintro ⟨rfl, rfl⟩
    rw [abs_zero, XF.fin_div_zero hr, zero_mul]
    change XF.mul (.fin 0) .pinf = _
    simp [XF.mul]
  · intro h
    by_cases hp : p = 0
    · subst hp
      have hg0 : 0 < g := lt_of_le_of_ne hg fun e => h ⟨rfl, e.symm⟩
      left
      refine ⟨?_, hg0, rfl⟩
      rw [abs_zero, XF.fin_div_zero hr]
      change XF.mul (.fin (g * sb)) .pinf = _
      have : g * sb ≠ 0 := (mul_pos hg0 hs).ne'
      simp [XF.mul, this, XF.infSign, mul_pos hg0 hs]
    · right
      have hap := abs_pos.2 hp
      have hd : 0 < rho_s / |p| := div_pos hr hap
      refine ⟨g * sb * o.sqrt (rho_s / |p|), by
        have := ho.sqrt_nonneg _ hd.le; positivity, fun hz => ?_, hp, ?_⟩
      · have h1 : o.sqrt (rho_s / |p|) ≠ 0 := by
          intro e
          have := ho.sqrt_mul _ hd.le
          rw [e, mul_zero] at this
          exact hd.ne this
        rcases mul_eq_zero.1 hz with h2 | h2
        · exact (mul_eq_zero.1 h2).resolve_right hs.ne'
        · exact absurd h2 h1
      · rw [XF.fin_div _ hap.ne']
        simp only [XF.sqrt, if_neg (not_lt.2 hd.le)]
        rfl

/-- C85.  The friction coefficient and the inertial number of a point become NaN exactly when it has
no pressure and does not shear, as at the start of every run without initial stress.  The stress
stays finite. -/
theorem c85_when {ns : ℕ} {c : LawCtx K ns} (ho : GoodOps c.ops) {l1 l2 l3 : List K}
    (ha : HasArrays ns c.mat l1 l2 l3) (hdt : 0 < c.dt) (hr : 0 < c.mat.rho_s)
    {mp mp' : Particle K ns} {l : List (Vis × XF K)} (hs : 0 < ∑ i, mp.phi i * c.s i)
    (hI : 0 < ∑ i : Fin ns, mp.phi i * l3.getD i 0) (h : runLaw .pouliquen c mp = .ok (mp', l)) :
    (mp'.I = .nan ↔ mp.pressure = 0 ∧ deviator mp.dstrain = 0) ∧
    (mp'.mu = some .nan ↔ mp.pressure = 0 ∧ deviator mp.dstrain = 0) := by
  obtain ⟨r, hr', hg, hi, hm, -⟩ := pouliquen_form hdt.ne' (ha.means mp.phi)
  rw [h] at hr'
  cases hr'
  have hD : mp.dstrain - (mp.dstrain.trace / 3) • (1 : Mat K) = deviator mp.dstrain := by
    ext i j
    simp only [Matrix.sub_apply, Matrix.smul_apply, smul_eq_mul, deviator, trace3,
      Matrix.one_apply]
    split <;> ring
  rw [hD, pouliquen_rate ho hdt] at hi hm
  set g := 2 / c.dt * mnorm c.ops (deviator mp.dstrain) with hgdef
  have hg0 : 0 ≤ g := mul_nonneg (by positivity) (mnorm_nonneg ho _)
  have hgz : g = 0 ↔ deviator mp.dstrain = 0 := by
    rw [hgdef, mul_eq_zero]
    constructor
    · rintro (h | h)
      · exact absurd h (by positivity)
      · exact mnorm_eq_zero ho h
    · intro h
      rw [h, mnorm_zero ho]; exact .inr rfl
  obtain ⟨k1, k2⟩ := inertial_nan (p := mp.pressure) ho hr hg0
    (show 0 < meanSize c.s mp.phi from hs)
  rw [← hgz]
  by_cases hc : mp.pressure = 0 ∧ g = 0
  · have e := k1 hc
    refine ⟨⟨fun _ => hc, fun _ => hi.trans e⟩, ⟨fun _ => hc, fun _ => ?_⟩⟩
    rw [hm, e]
    unfold muI
    rw [XF.div_nan, XF.nan_add, XF.div_nan, XF.add_nan]
  · refine ⟨⟨fun hn => ?_, fun h => absurd h hc⟩, ⟨fun hn => ?_, fun h => absurd h hc⟩⟩
    · rw [hi] at hn
      rcases k2 hc with ⟨e, -⟩ | ⟨x, -, -, -, e⟩
      · rw [e] at hn; cases hn
      · rw [e] at hn; cases hn
    · rw [hm] at hn
      have hn' := Option.some.inj hn
      exfalso
      rcases k2 hc with ⟨e, -⟩ | ⟨x, hx, -, -, e⟩
      · rw [e] at hn'
        unfold muI at hn'
        change XF.fin _ + XF.fin _ / (XF.fin 0 + XF.fin 1) = _ at hn'
        rw [XF.fin_add, XF.fin_div _ (by norm_num), XF.fin_add] at hn'
        cases hn'
      · rw [e] at hn'
        unfold muI at hn'
        rcases hx.lt_or_eq with h0 | h0
        · rw [XF.fin_div _ h0.ne', XF.fin_add, XF.fin_div _ (by positivity), XF.fin_add] at hn'
          cases hn'
        · rw [← h0, XF.fin_div_zero hI] at hn'
          change XF.fin _ + XF.fin _ / XF.pinf = _ at hn'
          cases hn'

end
/-! ## The hypotheses can be met -/

/-- A point under compression with some shear. -/
def Ex.mpP : Particle ℚ 2 := { Ex.mp with stress := !![-3, 0, 0; 0, -1, 0; 0, 0, -1] }

/-- Above yield, at rest: the shear stress grows and the pressure too. -/
example : Ex.lawC.mat0.mu * planePressure Ex.mpP.stress < planeShear Ex.lawC.ops Ex.mpP.stress ∧
    0 < planeDevSq Ex.mpP.stress ∧
    0 < planeShear Ex.lawC.ops Ex.mpP.stress * planePressure Ex.mpP.stress * Ex.lawC.mat0.t_star ∧
    2 * (planeShear Ex.lawC.ops Ex.mpP.stress * planePressure Ex.mpP.stress *
      Ex.lawC.mat0.t_star) < 3 * Ex.lawC.mat0.Gs *
      (planeShear Ex.lawC.ops Ex.mpP.stress - Ex.lawC.mat0.mu * planePressure Ex.mpP.stress) ∧
    Ex.mpP.dstrain = 0 ∧ Ex.okAnd (runLaw .dp_rate Ex.lawC Ex.mpP) (fun r => decide
      (planeDevSq (Ex.mpP.stress + r.1.dstress) = 9 / 2 ∧ planeDevSq Ex.mpP.stress = 2 ∧
        planePressure (Ex.mpP.stress + r.1.dstress) = 19 / 2)) = true := by
  refine ⟨?_, ?_, ?_, ?_, rfl, ?_⟩ <;> decide +kernel

/-- Below yield. -/
example : let c := { Ex.lawC with mat0 := { Ex.mat with mu := 2 }, mat := { Ex.mat with mu := 2 } }
    planeShear c.ops Ex.mpP.stress ≤ c.mat0.mu * planePressure Ex.mpP.stress ∧
    Ex.okAnd (runLaw .dp_rate c { Ex.mpP with dstrain := !![1, 0, 0; 0, 0, 0; 0, 0, 0] })
      (fun r => decide (r.1.dstress 0 0 = 15 ∧ r.1.dstress 1 1 = 5)) = true := by
  refine ⟨?_, ?_⟩ <;> decide +kernel

/-- A dense and a loose point of `ken_simple` under a pressure. -/
example : ∃ r r', (realOps 1000).big = 1000 ∧
    runLaw .ken_simple (Ex.ctxS (realOps 1000)) { Ex.pointF ℝ with gammadot := 0, rho := 2600 } =
      .ok r ∧
    runLaw .ken_simple (Ex.ctxS (realOps 1000)) { Ex.pointF ℝ with gammadot := 0, rho := 2500 } =
      .ok r' ∧ (Ex.ctxS (realOps 1000)).mat.mu_0 = .scalar 2 ∧
    0 ≤ (Ex.ctxS (realOps 1000)).mat.eta_max ∧ (Ex.ctxS (realOps 1000)).mat.eta_max ≤ 1000 ∧
    (Ex.pointF ℝ).pressure ≠ 0 := by
  have hdt : (Ex.ctxS (realOps 1000)).dt ≠ 0 := by simp [Ex.ctxS, Ex.ctxF]
  simp only [runLaw, lawKenSimple, if_neg hdt]
  exact ⟨_, _, rfl, rfl, rfl, rfl, by simp [Ex.ctxS, Ex.ctxF, Ex.matF],
    by simp [Ex.ctxS, Ex.ctxF, Ex.matF]; norm_num, by simp [Ex.pointF]⟩

/-- Two steps of `ken_simple`. -/
example : ∃ s s' : St Ex.par, Counted s.L ∧ steps Ex.par (Ex.noInterp _) 2 s = .ok s' ∧
    Ex.par.initial_flow ≠ .steady ∧ ∃ B, s'.L[0]? = some B ∧ B.ph.law = .ken_simple ∧
      ∃ b ∈ B.pts, b.pressure ≠ 0 ∧ b.gammadot = 0 := by
  obtain ⟨G, s', hG, hs, hc⟩ := Ex.run_ok (P := Ex.par) (d := Ex.dyn)
    (L := [{ ph := { Ex.ph with law := .ken_simple }, pts := [Ex.mp, Ex.mp2] }]) (n := 2)
    (check := fun s => match s.L with
      | [B] => decide (B.ph.law = .ken_simple ∧ ∃ b ∈ B.pts, b.pressure ≠ 0 ∧ b.gammadot = 0)
      | _ => false)
    (by decide +kernel)
  refine ⟨_, s', ?_, hs, by decide, ?_⟩
  · have : ∀ a ∈ ([{ ph := { Ex.ph with law := .ken_simple }, pts := [Ex.mp, Ex.mp2] }] :
        List (PhaseSt ℚ 2)), a.ph.n = a.pts.length := by decide +kernel
    exact this
  · split at hc
    · rename_i B hB
      rw [hB]
      exact ⟨B, rfl, of_decide_eq_true hc⟩
    · cases hc

/-- A stress-free point of the mu(I) law at rest, on the left edge of a cell (so that two of its four
shape functions vanish), next to one under pressure. -/
def Ex.Lrest : List (PhaseSt ℚ 2) :=
  [{ ph := { Ex.ph with law := .pouliquen, par := { Ex.mat with mu_0 := .arr [1, 1], delta_mu := .arr [1, 1], I_0 := .arr [1, 1] } }
     pts := [{ Ex.mp with v := .own 0, stress := 0, x := ![1, 1/2, 0] },
             { Ex.mp with v := .own 0, stress := -1, pressure := -1, x := ![1/2, 1/2, 0] }] }]

/-- The first point is NaN and so are its nodes 1, 2, 4 and 5 (it has no weight at 2 and 5, where there
is no mass either), the others are not. -/
example : ∃ G s', mkGrid Ex.par.G Ex.par.B = .ok G ∧ Ex.par.B.cyclic_lr = false ∧
    Counted Ex.Lrest ∧ gridPhase Ex.par { dyn := Ex.dyn, L := Ex.Lrest, G := G } = .ok s' ∧
    (∃ B ∈ s'.L, B.ph.law = .pouliquen ∧ ∃ b ∈ B.pts, pointValue b .mu = .nan ∧
      b.node Ex.par.G.nx Ex.par.G.N 1 = .ok ⟨2, by decide⟩ ∧ b.N 1 = 0) ∧
    s'.G.m ⟨2, by decide⟩ = 0 ∧ s'.G.vis .mu ⟨2, by decide⟩ = .nan ∧
    s'.G.vis .mu ⟨0, by decide⟩ ≠ .nan ∧ s'.G.vis .mu ⟨8, by decide⟩ = .fin 0 := by
  obtain ⟨G, h1, h2⟩ := Ex.okAnd_ok (r := mkGrid Ex.par.G Ex.par.B)
    (check := fun G => Ex.okAnd (gridPhase Ex.par { dyn := Ex.dyn, L := Ex.Lrest, G := G })
      fun s' => decide ((∃ B ∈ s'.L, B.ph.law = .pouliquen ∧ ∃ b ∈ B.pts, pointValue b .mu = .nan ∧
        b.node Ex.par.G.nx Ex.par.G.N 1 = .ok ⟨2, by decide⟩ ∧ b.N 1 = 0) ∧
        s'.G.m ⟨2, by decide⟩ = 0 ∧ s'.G.vis .mu ⟨2, by decide⟩ = .nan ∧
        s'.G.vis .mu ⟨0, by decide⟩ ≠ .nan ∧ s'.G.vis .mu ⟨8, by decide⟩ = .fin 0))
    (by decide +kernel)
  obtain ⟨s', h3, h4⟩ := Ex.okAnd_ok h2
  refine ⟨G, s', h1, rfl, ?_, h3, of_decide_eq_true h4⟩
  intro a ha
  have : a = _ := List.mem_singleton.1 ha
  rw [this]
  rfl

/-- C85, a point without pressure or strain: the law runs and gives NaN. -/
example : ∃ r, runLaw .pouliquen (Ex.ctxF (realOps 1))
      { Ex.pointF ℝ with pressure := 0, dstrain := 0 } = .ok r ∧ r.1.I = .nan ∧
    r.1.mu = some .nan := by
  have ha : HasArrays 2 (Ex.ctxF (realOps 1)).mat [1, 1] [1, 1] [1, 1] :=
    ⟨rfl, rfl, rfl, le_rfl, le_rfl, le_rfl⟩
  have hdt : 0 < (Ex.ctxF (realOps 1)).dt := by simp [Ex.ctxF]
  obtain ⟨r, hr, -⟩ := c38_total ha hdt { Ex.pointF ℝ with pressure := 0, dstrain := 0 }
  have hd : deviator (0 : Mat ℝ) = 0 := by ext i j; simp [deviator]
  have := c85_when (realOps_good one_pos) ha hdt (by simp [Ex.ctxF, Ex.matF]) (mp' := r.1) (l := r.2)
    (by simp [Ex.pointF, Ex.ctxF, Fin.sum_univ_two]; try norm_num)
    (by simp [Ex.pointF, Fin.sum_univ_two]; try norm_num) hr
  exact ⟨r, hr, this.1.2 ⟨rfl, hd⟩, this.2.2 ⟨rfl, hd⟩⟩

end Mpm

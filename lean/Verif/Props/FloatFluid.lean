import Verif.Props.FloatRun

/-!
# C144: fluids in floating point

The laws `pouliquen`, `linear_mu` and `ken_simple` with every operation rounded.
-/

set_option linter.unusedSectionVars false

namespace Mpm
open Spec

section
variable {K : Type} [Field K] [LinearOrder K] [IsStrictOrderedRing K] {ns N nx : ℕ}

/-- The laws that keep a pressure without tension. -/
def Spec.IsFluid (law : Law) : Prop := law = .pouliquen ∨ law = .linear_mu ∨ law = .ken_simple

/-! ## Without rounding -/

theorem volR_id (mp : Particle K ns) : volR id mp = mp.dstrain.trace / 3 := by
  simp only [volR, traceR_id, id]

theorem shearR_id (mp : Particle K ns) :
    shearR id mp = mp.dstrain - (mp.dstrain.trace / 3) • (1 : Mat K) := by
  ext i j
  simp [shearR, volR_id]

theorem devR_limited (c : LawCtx K ns) (mp : Particle K ns) (x : K) :
    (fun i j => id (id (x * shearR id mp i j) / c.dt) : Mat K) = (x / c.dt) • shearR id mp := by
  ext i j
  simp only [id, Matrix.smul_apply, smul_eq_mul]
  ring

theorem shearRateR_id (c : LawCtx K ns) (mp : Particle K ns) :
    shearRateR id c mp = c.ops.sqrt (frob ((2 / c.dt) • shearR id mp) ((2 / c.dt) • shearR id mp)) := by
  show c.ops.sqrt (sumSqR id (fun i j => id (id (2 * shearR id mp i j) / c.dt) : Mat K)) = _
  rw [devR_limited, sumSqR_id]

theorem meanSizeR_id (s phi : Fin ns → K) : meanSizeR id s phi = meanSize s phi := by
  unfold meanSizeR meanSize
  rw [Fin.sum_univ_def, List.sum_eq_foldl, List.foldl_map]
  rfl

theorem flowVisR_id (ops : Ops K) (mp : Particle K ns) (more : List (Vis × XF K)) (r : Fin 4) :
    flowVisR id ops mp more r = ((.pressure, .fin mp.pressure) ::
      (.dev_stress, .fin (ops.sqrt (frob mp.dev_stress mp.dev_stress)) / .fin (ops.sqrt 2)) :: more).map
      fun e => (e.1, .fin (mp.N r) * e.2 * .fin mp.m) := by
  simp only [flowVisR, XF.rd_id, id, sumSqR_id, XF.mul_div_fin, List.map_cons]
  rfl

theorem inertialR_id (ops : Ops K) (a b c d : K) : inertialR id ops a b c d = inertial ops a b c d := by
  simp only [inertialR, inertial, XF.rd_id, id]

theorem muIR_id (a b c : K) (I : XF K) : muIR id a b c I = muI a b c I := by
  simp only [muIR, muI, XF.rd_id]

theorem etaOfR_id (ops : Ops K) (mu : XF K) (p g : K) : etaOfR id ops mu p g = etaOf ops mu p g := by
  simp only [etaOfR, etaOf, XF.rd_id, id]

theorem flowStressInc_eq (p e dt : K) (hd : dt ≠ 0) (de st : Mat K) (i j : Fin 3) :
    flowStressInc p (.fin e) de dt st i j = .fin (p * (1 : Mat K) i j + e * de i j / dt - st i j) := by
  show XF.sub (XF.add (.fin _) (XF.div (.fin (e * de i j)) (.fin dt))) (.fin _) = _
  simp only [XF.div, hd, if_false, XF.add, XF.sub, XF.neg, sub_eq_add_neg]

theorem pouliquenR_id {c : LawCtx K ns} (hd : c.dt ≠ 0) (mp : Particle K ns) :
    runLaw .pouliquen c mp = (phiMeansR id mp.phi c.mat.mu_0 c.mat.delta_mu c.mat.I_0 >>= fun q =>
      let b := pouliquenR id c mp q.1 q.2.1 q.2.2
      .ok (b, [(.pressure, .fin b.pressure),
        (.dev_stress, .fin (c.ops.sqrt (frob b.dev_stress b.dev_stress)) / .fin (c.ops.sqrt 2)),
        (.mu, b.mu.getD .nan), (.I, b.I), (.eta, b.eta)])) := by
  unfold runLaw lawPouliquen
  have e : phiMeansR id mp.phi c.mat.mu_0 c.mat.delta_mu c.mat.I_0 =
    phiMeans mp.phi c.mat.mu_0 c.mat.delta_mu c.mat.I_0 := rfl
  rw [e]
  refine bind_congr fun q => ?_
  obtain ⟨mu_0, delta_mu, I_0⟩ := q
  dsimp only
  rw [if_neg hd]
  simp only [flowStressInc_eq _ _ _ hd]
  refine (if_pos fun _ _ => rfl).trans ?_
  have hp : (if 0 < pressureR id c mp ∨ mp.rho < id (c.mat.rho * id (8 / 10)) then 0
      else pressureR id c mp) = pouliquenPressure c mp.rho (mp.pressure + c.mat.Kb * (mp.dstrain.trace / 3)) := by
    simp only [pressureR, volR_id, pouliquenPressure, id]
  simp only [← shearR_id]
  simp only [pouliquenR, shearRateR_id, meanSizeR_id, inertialR_id, muIR_id, etaOfR_id, hp, devR_limited]
  refine congrArg Except.ok (Prod.ext ?_ rfl)
  dsimp only
  congr 1

theorem linearMuR_id {c : LawCtx K ns} (hd : c.dt ≠ 0) (mp : Particle K ns) :
    runLaw .linear_mu c mp = (c.mat.mu_0.num >>= fun q => linearMuR id c mp q >>= fun b =>
      .ok (b, [(.pressure, .fin b.pressure),
        (.dev_stress, .fin (c.ops.sqrt (frob b.dev_stress b.dev_stress)) / .fin (c.ops.sqrt 2)),
        (.mu, b.mu.getD .nan), (.I, b.I)])) := by
  unfold runLaw lawLinearMu
  refine bind_congr fun mu_0 => ?_
  rw [if_neg hd]
  unfold linearMuR linearMuRaw
  simp only [← shearR_id, shearRateR_id, meanSizeR_id, inertialR_id, etaOfR_id, XF.rd_id, pressureR, volR_id,
    id, bind_assoc, pure_bind]
  rfl

theorem kenSimpleR_id {c : LawCtx K ns} (hd : c.dt ≠ 0) (mp : Particle K ns) :
    runLaw .ken_simple c mp = (c.mat.mu_0.num >>= fun q =>
      let b := kenSimpleR id c mp q
      .ok (b, [(.pressure, .fin b.pressure),
        (.dev_stress, .fin (c.ops.sqrt (frob b.dev_stress b.dev_stress)) / .fin (c.ops.sqrt 2)),
        (.eta, b.eta)])) := by
  unfold runLaw lawKenSimple
  refine bind_congr fun mu_0 => ?_
  rw [if_neg hd]
  simp only [← shearR_id]
  simp only [kenSimpleR, etaOfR_id, devR_limited, pressureR, volR_id]
  refine congrArg Except.ok (Prod.ext ?_ rfl)
  simp only [id]
  congr 1
  ext i j
  split_ifs <;> simp [mul_div_right_comm]

/-- C144.  With the identity as rounding these are the laws of the exact model. -/
theorem c144_exact {law : Law} (hl : IsFluid law) (c : LawCtx K ns) (mp : Particle K ns)
    (vis : Vis → Fin N → XF K) : mp.updateStressR id nx law c vis = mp.updateStress nx law c vis := by
  by_cases hd : c.dt = 0
  · unfold Particle.updateStressR Particle.updateStress
    have e : phiMeansR id mp.phi c.mat.mu_0 c.mat.delta_mu c.mat.I_0 =
      phiMeans mp.phi c.mat.mu_0 c.mat.delta_mu c.mat.I_0 := rfl
    rcases hl with rfl | rfl | rfl
    · simp only [runLawR, runLaw, lawPouliquen, hd, if_true, e, bind_assoc]
      refine bind_congr fun q => ?_
      rfl
    · simp only [runLawR, runLaw, lawLinearMu, hd, if_true, bind_assoc]
      refine bind_congr fun q => ?_
      rfl
    · simp only [runLawR, runLaw, lawKenSimple, hd, if_true, bind_assoc]
      refine bind_congr fun q => ?_
      rfl
  unfold Particle.updateStressR Particle.updateStress
  simp only [applyStressR_id]
  rcases hl with rfl | rfl | rfl
  · rw [pouliquenR_id hd]
    simp only [runLawR, hd, if_false, bind_assoc]
    refine bind_congr fun q => ?_
    exact congrArg (fun x => x >>= fun v => (pure (_, v) : Res _))
      (scatterVisR_id (flowVisR_id c.ops _ _) vis)
  · rw [linearMuR_id hd]
    simp only [runLawR, hd, if_false, bind_assoc]
    refine bind_congr fun q => bind_congr fun b => ?_
    exact congrArg (fun x => x >>= fun v => (pure (_, v) : Res _))
      (scatterVisR_id (flowVisR_id c.ops _ _) vis)
  · rw [kenSimpleR_id hd]
    simp only [runLawR, hd, if_false, bind_assoc]
    refine bind_congr fun q => ?_
    exact congrArg (fun x => x >>= fun v => (pure (_, v) : Res _))
      (scatterVisR_id (flowVisR_id c.ops _ _) vis)

/-! ## Pressure -/

variable {rnd : K → K} {u : K}

/-- What the whole of `update_stress` does to a point. -/
theorem updateStressR_law {law : Law} {c : LawCtx K ns} {mp b : Particle K ns} {vis w : Vis → Fin N → XF K}
    (h : mp.updateStressR rnd nx law c vis = .ok (b, w)) :
    ∃ x, runLawR rnd law c mp = .ok x ∧ b = x.1.applyStressR rnd c.dt := by
  obtain ⟨x, h1, h2⟩ := res_bind_ok.1 h
  obtain ⟨y, h3, h4⟩ := res_bind_ok.1 h2
  cases h4
  exact ⟨x, h1, rfl⟩

/-- C144.  The pressure of a fluid is never tensile, and otherwise the running rounded sum of the
volumetric strain; below the (rounded) limit density `pouliquen` has none. -/
theorem c144_pressure {law : Law} (hl : IsFluid law) {c : LawCtx K ns} {mp b : Particle K ns}
    {vis w : Vis → Fin N → XF K} (h : mp.updateStressR rnd nx law c vis = .ok (b, w)) :
    b.pressure = if law = .pouliquen ∧ mp.rho < rnd (c.mat.rho * rnd (8 / 10)) then 0 else
      min 0 (rnd (mp.pressure + rnd (c.mat.Kb *
        rnd (rnd (rnd (mp.dstrain 0 0 + mp.dstrain 1 1) + mp.dstrain 2 2) / 3)))) := by
  obtain ⟨x, h1, rfl⟩ := updateStressR_law h
  have m0 : ∀ p : K, (if 0 < p then 0 else p) = min 0 p := by
    intro p
    split_ifs with h
    · exact (min_eq_left h.le).symm
    · exact (min_eq_right (not_lt.1 h)).symm
  show x.1.pressure = _
  rcases runLawR_ok h1 with ⟨rfl, e⟩ | ⟨rfl, e⟩ | ⟨rfl, _, _, e⟩ | ⟨rfl, -, e⟩ | ⟨rfl, -, q, -, e⟩ |
    ⟨rfl, -, q, -, e⟩ | ⟨rfl, -, q, -, e⟩
  · rcases hl with h | h | h <;> cases h
  · rcases hl with h | h | h <;> cases h
  · rcases hl with h | h | h <;> cases h
  · rcases hl with h | h | h <;> cases h
  · rw [e]
    show (if 0 < pressureR rnd c mp ∨ mp.rho < rnd (c.mat.rho * rnd (8 / 10)) then 0
      else pressureR rnd c mp) = _
    by_cases hd : mp.rho < rnd (c.mat.rho * rnd (8 / 10))
    · rw [if_pos (.inr hd), if_pos ⟨rfl, hd⟩]
    · refine Eq.trans ?_ (if_neg fun h => hd h.2).symm
      simp only [hd, or_false]
      exact m0 _
  · rw [e.whole]
    exact (m0 _).trans (if_neg (by rintro ⟨h, -⟩; cases h)).symm
  · rw [e]
    exact (m0 _).trans (if_neg (by rintro ⟨h, -⟩; cases h)).symm

theorem c144_sign {law : Law} (hl : IsFluid law) {c : LawCtx K ns} {mp b : Particle K ns}
    {vis w : Vis → Fin N → XF K} (h : mp.updateStressR rnd nx law c vis = .ok (b, w)) : b.pressure ≤ 0 := by
  rw [c144_pressure hl h]
  split_ifs
  · exact le_rfl
  · exact min_le_left _ _

/-! ## Friction and viscosity -/

theorem XF.NonNeg.rd (hm : Monotone rnd) (z : rnd 0 = 0) {a : XF K} (h : XF.NonNeg a) :
    XF.NonNeg (XF.rd rnd a) := by
  cases a with
  | fin x =>
    have := hm (show (0 : K) ≤ x from h)
    rw [z] at this
    exact this
  | pinf => trivial
  | ninf => exact h
  | nan => trivial

theorem meanSizeR_nonneg (hm : Monotone rnd) (z : rnd 0 = 0) {s phi : Fin ns → K} (hs : ∀ i, 0 ≤ s i)
    (hp : ∀ i, 0 ≤ phi i) : 0 ≤ meanSizeR rnd s phi := by
  unfold meanSizeR
  have key : ∀ (l : List (Fin ns)) (a : K), 0 ≤ a →
      0 ≤ l.foldl (fun acc i => rnd (acc + rnd (phi i * s i))) a := by
    intro l
    induction l with
    | nil => exact fun a h => h
    | cons i l ih =>
      intro a h
      refine ih _ ?_
      have h1 : 0 ≤ rnd (phi i * s i) := z ▸ hm (mul_nonneg (hp i) (hs i))
      exact z ▸ hm (add_nonneg h h1)
  exact key _ _ le_rfl

/-- Arrays (or numbers) without negative entries. -/
def Spec.NoNeg (a : PyNum K) : Prop := (∀ x, a = .scalar x → 0 ≤ x) ∧ ∀ l, a = .arr l → ∀ x ∈ l, 0 ≤ x

theorem Spec.NoNeg.get {a : PyNum K} (h : NoNeg a) {i : ℕ} {x : K} (hx : a.get i = .ok x) : 0 ≤ x := by
  cases a with
  | scalar y => cases hx
  | arr l =>
    unfold PyNum.get at hx
    cases hl : l[i]? with
    | none => simp [hl] at hx
    | some w =>
      simp [hl] at hx
      subst hx
      exact h.2 l rfl _ (List.mem_of_getElem? hl)

theorem Spec.NoNeg.num {a : PyNum K} (h : NoNeg a) {x : K} (hx : a.num = .ok x) : 0 ≤ x := by
  cases a with
  | scalar y => cases hx; exact h.1 _ rfl
  | arr l => cases hx

theorem phiMeansR_nonneg (hm : Monotone rnd) (z : rnd 0 = 0) {phi : Fin ns → K} {a b c : PyNum K}
    (hp : ∀ j, 0 ≤ phi j) (ha : NoNeg a) (hb : NoNeg b) (hc : NoNeg c) {m : K × K × K}
    (h : phiMeansR rnd phi a b c = .ok m) : 0 ≤ m.1 ∧ 0 ≤ m.2.1 ∧ 0 ≤ m.2.2 := by
  have acc0 : ∀ {x a : K} {i : Fin ns}, 0 ≤ x → 0 ≤ a → 0 ≤ rnd (x + rnd (phi i * a)) := by
    intro x a i hx ha
    have h1 : 0 ≤ rnd (phi i * a) := z ▸ hm (mul_nonneg (hp i) ha)
    exact z ▸ hm (add_nonneg hx h1)
  unfold phiMeansR at h
  have key : ∀ (l : List (Fin ns)) (acc m : K × K × K), (0 ≤ acc.1 ∧ 0 ≤ acc.2.1 ∧ 0 ≤ acc.2.2) →
      l.foldlM (fun (acc : K × K × K) (i : Fin ns) => do
        let x ← a.get i
        let y ← b.get i
        let z ← c.get i
        return (rnd (acc.1 + rnd (phi i * x)), rnd (acc.2.1 + rnd (phi i * y)),
          rnd (acc.2.2 + rnd (phi i * z)))) acc =
      (.ok m : Res (K × K × K)) → 0 ≤ m.1 ∧ 0 ≤ m.2.1 ∧ 0 ≤ m.2.2 := by
    intro l
    induction l with
    | nil => intro acc m h0 h; cases h; exact h0
    | cons i l ih =>
      intro acc m h0 h
      rw [List.foldlM_cons] at h
      obtain ⟨r, hr, h⟩ := res_bind_ok.1 h
      obtain ⟨x, hx, hr⟩ := res_bind_ok.1 hr
      obtain ⟨y, hy, hr⟩ := res_bind_ok.1 hr
      obtain ⟨w, hw, hr⟩ := res_bind_ok.1 hr
      cases hr
      exact ih _ m ⟨acc0 h0.1 (ha.get hx), acc0 h0.2.1 (hb.get hy), acc0 h0.2.2 (hc.get hw)⟩ h
  exact key _ _ _ ⟨le_rfl, le_rfl, le_rfl⟩ h

theorem muIR_range (hm : Monotone rnd) (z : rnd 0 = 0) (o : rnd 1 = 1) {mu_0 delta_mu I_0 : K}
    (hd : 0 ≤ delta_mu) (hI : 0 ≤ I_0) {I : XF K} (h : XF.NonNeg I) : muIR rnd mu_0 delta_mu I_0 I = .nan ∨
      ∃ m, muIR rnd mu_0 delta_mu I_0 I = .fin m ∧ rnd mu_0 ≤ m ∧ m ≤ rnd (mu_0 + rnd delta_mu) := by
  have h1 : XF.NonNeg (XF.rd rnd (.fin I_0 / I)) := (XF.NonNeg.div (a := .fin I_0) hI h).rd hm z
  unfold muIR
  generalize XF.rd rnd (.fin I_0 / I) = r at h1
  cases r with
  | ninf => exact h1.elim
  | nan => exact .inl rfl
  | pinf =>
    right
    refine ⟨rnd (mu_0 + rnd 0), rfl, by rw [z, add_zero], hm (add_le_add_right (hm hd) _)⟩
  | fin r =>
    right
    have h1 : 0 ≤ r := h1
    have h2 : 1 ≤ rnd (r + 1) := o ▸ hm (by linarith)
    have h3 : rnd (r + 1) ≠ 0 := by linarith
    have e : (XF.rd rnd (.fin mu_0 + XF.rd rnd (.fin delta_mu / XF.rd rnd (XF.fin r + .fin 1))) : XF K) =
        .fin (rnd (mu_0 + rnd (delta_mu / rnd (r + 1)))) := by
      change XF.rd rnd (XF.add (.fin mu_0) (XF.rd rnd (XF.div (.fin delta_mu) (.fin (rnd (r + 1)))))) = _
      simp only [XF.div, h3, if_false]
      rfl
    rw [e]
    refine ⟨_, rfl, hm ?_, hm (add_le_add_right (hm (div_le_self hd h2)) _)⟩
    have : 0 ≤ rnd (delta_mu / rnd (r + 1)) := z ▸ hm (div_nonneg hd (by linarith))
    linarith

/-- Nothing negative where roots, sizes and parameters are concerned. -/
structure Spec.PlainFluid (c : LawCtx K ns) (mp : Particle K ns) : Prop where
  root : ∀ x, 0 ≤ c.ops.sqrt x
  big : 0 ≤ c.ops.big
  sizes : ∀ i, 0 ≤ c.s i
  phi : ∀ i, 0 ≤ mp.phi i
  mu_0 : NoNeg c.mat.mu_0
  delta_mu : NoNeg c.mat.delta_mu
  I_0 : NoNeg c.mat.I_0
  b : 0 ≤ c.mat.b
  rate : 0 ≤ mp.gammadot
  cap : 0 ≤ c.mat.eta_max

theorem shearRateR_nonneg (hm : Monotone rnd) (z : rnd 0 = 0) {c : LawCtx K ns} {mp : Particle K ns}
    (hs : ∀ x, 0 ≤ c.ops.sqrt x) : 0 ≤ shearRateR rnd c mp := z ▸ hm (hs _)

theorem inertialR_nonneg (hm : Monotone rnd) (z : rnd 0 = 0) {o : Ops K} (hs : ∀ x, 0 ≤ o.sqrt x)
    {rho_s g s p : K} (hg : 0 ≤ g) (h : 0 ≤ s) : XF.NonNeg (inertialR rnd o rho_s g s p) := by
  have h1 : XF.NonNeg (.fin (rnd (g * s))) := XF.NonNeg.rd hm z (a := .fin (g * s)) (mul_nonneg hg h)
  exact (h1.mul ((XF.NonNeg.sqrt (fun x _ => hs x) _).rd hm z)).rd hm z

theorem etaOfR_nonneg (hm : Monotone rnd) (z : rnd 0 = 0) {o : Ops K} (hs : ∀ x, 0 ≤ o.sqrt x)
    {mu : XF K} {p g : K} (hmu : XF.NonNeg mu) (hg : 0 ≤ g) : XF.NonNeg (etaOfR rnd o mu p g) := by
  have h0 : 0 ≤ rnd (o.sqrt 2) := z ▸ hm (hs 2)
  have h1 : 0 ≤ rnd (2 * rnd (o.sqrt 2)) := z ▸ hm (mul_nonneg zero_le_two h0)
  have h2 := (XF.NonNeg.mul (a := .fin (rnd (2 * rnd (o.sqrt 2)))) h1 hmu).rd hm z
  have h3 := (h2.mul (b := .fin |p|) (abs_nonneg p)).rd hm z
  exact (h3.div (b := .fin g) hg).rd hm z

/-- C144.  The friction coefficient of `pouliquen` is NaN or lies, rounded or not, between the (rounded)
mean of `mu_0` and the mean of `mu_0 + delta_mu`. -/
theorem c144_friction (hm : Monotone rnd) (z : rnd 0 = 0) (o : rnd 1 = 1) {c : LawCtx K ns}
    {mp b : Particle K ns} {vis w : Vis → Fin N → XF K} (hp : PlainFluid c mp)
    (h : mp.updateStressR rnd nx .pouliquen c vis = .ok (b, w)) {mu_0 delta_mu I_0 : K}
    (hq : phiMeansR rnd mp.phi c.mat.mu_0 c.mat.delta_mu c.mat.I_0 = .ok (mu_0, delta_mu, I_0)) :
    b.mu = some .nan ∨ ∃ m, b.mu = some (.fin m) ∧ rnd mu_0 ≤ m ∧ m ≤ rnd (mu_0 + rnd delta_mu) := by
  obtain ⟨x, h1, rfl⟩ := updateStressR_law h
  show x.1.mu = _ ∨ ∃ m, x.1.mu = _ ∧ _
  rcases runLawR_ok h1 with ⟨e, -⟩ | ⟨e, -⟩ | ⟨e, -⟩ | ⟨e, -⟩ | ⟨-, -, q, h2, e⟩ | ⟨e, -⟩ | ⟨e, -⟩
  any_goals cases e
  · obtain rfl := Except.ok.inj (h2.symm.trans hq)
    obtain ⟨n0, n1, n2⟩ := phiMeansR_nonneg hm z hp.phi hp.mu_0 hp.delta_mu hp.I_0 h2
    rw [e]
    have hI := inertialR_nonneg hm z hp.root (rho_s := c.mat.rho_s) (p := mp.pressure)
      (shearRateR_nonneg hm z (mp := mp) hp.root) (meanSizeR_nonneg hm z hp.sizes hp.phi)
    rcases muIR_range hm z o (mu_0 := mu_0) n1 n2 hI with h | ⟨m, h, h3⟩
    · exact .inl (congrArg some h)
    · exact .inr ⟨m, congrArg some h, h3⟩

/-- C144.  The cap on the viscosity holds exactly: no component of the shear stress is larger than
`eta_max*|de_ij|/dt` evaluated with rounding. -/
theorem c144_cap (hm : Monotone rnd) (z : rnd 0 = 0) (odd : ∀ x, rnd (-x) = -rnd x) (o : rnd 1 = 1) {law : Law}
    (hl : IsFluid law) {c : LawCtx K ns} {mp b : Particle K ns} {vis w : Vis → Fin N → XF K}
    (hp : PlainFluid c mp) (hdt : 0 < c.dt) (h : mp.updateStressR rnd nx law c vis = .ok (b, w))
    (i j : Fin 3) : |b.dev_stress i j| ≤ rnd (rnd (c.mat.eta_max * |b.de_ij i j|) / c.dt) := by
  have ab : ∀ x, |rnd x| = rnd |x| := by
    intro x
    rcases le_total 0 x with h | h
    · have : 0 ≤ rnd x := z ▸ hm h
      rw [abs_of_nonneg h, abs_of_nonneg this]
    · have : rnd x ≤ 0 := z ▸ hm h
      rw [abs_of_nonpos h, abs_of_nonpos this, odd]
  have key : ∀ e y : K, 0 ≤ e → e ≤ c.mat.eta_max →
      |rnd (rnd (e * y) / c.dt)| ≤ rnd (rnd (c.mat.eta_max * |y|) / c.dt) := by
    intro e y h0 h1
    rw [ab, abs_div, ab, abs_of_pos hdt, abs_mul, abs_of_nonneg h0]
    exact hm (div_le_div_of_nonneg_right (hm (mul_le_mul_of_nonneg_right h1 (abs_nonneg y))) hdt.le)
  obtain ⟨x, h1, rfl⟩ := updateStressR_law h
  show |x.1.dev_stress i j| ≤ rnd (rnd (c.mat.eta_max * |x.1.de_ij i j|) / c.dt)
  have hg := shearRateR_nonneg hm z (c := c) (mp := mp) hp.root
  have hI := inertialR_nonneg hm z hp.root (rho_s := c.mat.rho_s) (p := mp.pressure) hg
    (meanSizeR_nonneg hm z hp.sizes hp.phi)
  rcases runLawR_ok h1 with ⟨e, -⟩ | ⟨e, -⟩ | ⟨e, -⟩ | ⟨e, -⟩ | ⟨-, -, q, h2, e⟩ | ⟨-, hd, q, h2, e⟩ |
    ⟨-, -, q, h2, e⟩
  any_goals (rw [e] at hl; rcases hl with h | h | h <;> cases h)
  · rw [e]
    refine key _ _ (le_min (XF.NonNeg.nanToNum hp.big (etaOfR_nonneg hm z hp.root ?_ hg)) hp.cap)
      (min_le_right _ _)
    obtain ⟨n0, n1, n2⟩ := phiMeansR_nonneg hm z hp.phi hp.mu_0 hp.delta_mu hp.I_0 h2
    rcases muIR_range hm z o (mu_0 := q.1) n1 n2 hI with h | ⟨m, h, h3, -⟩
    · rw [h]; trivial
    · rw [h]
      exact (z ▸ hm n0 : (0 : K) ≤ rnd q.1).trans h3
  · have hmu : XF.NonNeg (XF.rd rnd (.fin q + XF.rd rnd (.fin c.mat.b * x.1.I))) := by
      rw [e.I]
      exact (XF.NonNeg.add (a := .fin q) (hp.mu_0.num h2)
        ((XF.NonNeg.mul (a := .fin c.mat.b) hp.b hI).rd hm z)).rd hm z
    have he := etaOfR_nonneg hm z hp.root (p := mp.pressure) hmu hg
    have h5 := e.dev i j
    have h6 : x.1.de_ij = shearR rnd mp := by rw [e.whole]
    rw [h6]
    have h7 := e.eta
    cases h8 : etaOfR rnd c.ops (XF.rd rnd (.fin q + XF.rd rnd (.fin c.mat.b * x.1.I))) mp.pressure
        (shearRateR rnd c mp) with
    | fin y =>
      rw [h8] at h7 he
      have h9 : x.1.eta = .fin (min y c.mat.eta_max) := h7
      rw [h9] at h5
      change XF.rd rnd (XF.div (.fin (rnd (min y c.mat.eta_max * shearR rnd mp i j))) (.fin c.dt)) = _ at h5
      simp only [XF.div, hd, if_false, XF.rd] at h5
      rw [← XF.fin.inj h5]
      exact key _ _ (le_min he hp.cap) (min_le_right _ _)
    | pinf =>
      rw [h8] at h7
      have h9 : x.1.eta = .fin c.mat.eta_max := h7
      rw [h9] at h5
      change XF.rd rnd (XF.div (.fin (rnd (c.mat.eta_max * shearR rnd mp i j))) (.fin c.dt)) = _ at h5
      simp only [XF.div, hd, if_false, XF.rd] at h5
      rw [← XF.fin.inj h5]
      exact key _ _ hp.cap le_rfl
    | ninf => rw [h8] at he; exact he.elim
    | nan =>
      rw [h8] at h7
      have h9 : x.1.eta = .nan := h7
      rw [h9] at h5
      cases h5
  · rw [e]
    exact key _ _ (le_min (XF.NonNeg.nanToNum hp.big (etaOfR_nonneg hm z hp.root (mu := .fin q)
      (hp.mu_0.num h2) hp.rate)) hp.cap) (min_le_right _ _)

/-! ## Stress -/

/-- The increment of a fluid's stress, unless `ken_simple` drops it. -/
theorem flowIncR {law : Law} (hl : IsFluid law) {c : LawCtx K ns} {mp : Particle K ns}
    (hk : law = .ken_simple → 2500 < mp.rho) {x : LawResR K ns} (h : runLawR rnd law c mp = .ok x) :
    x.1.stress = mp.stress ∧ x.1.LL = mp.LL ∧ ∀ i j, x.1.dstress i j =
      rnd (rnd (rnd (x.1.pressure * (1 : Mat K) i j) + x.1.dev_stress i j) - mp.stress i j) := by
  rcases runLawR_ok h with ⟨e, -⟩ | ⟨e, -⟩ | ⟨e, -⟩ | ⟨e, -⟩ | ⟨-, -, q, h2, e⟩ | ⟨-, hd, q, h2, e⟩ |
    ⟨rfl, -, q, h2, e⟩
  any_goals (rw [e] at hl; rcases hl with h | h | h <;> cases h)
  · rw [e]; exact ⟨rfl, rfl, fun _ _ => rfl⟩
  · exact ⟨by rw [e.whole], by rw [e.whole], e.inc⟩
  · rw [e]; exact ⟨rfl, rfl, fun _ _ => if_pos (hk rfl)⟩

/-- C144.  The stress is the pressure and the shear stress just stored, less the spin term, up to a few
roundings of these terms and of the old stress. -/
theorem c144_stress (hr : Rounding rnd u) {law : Law} (hl : IsFluid law) {c : LawCtx K ns}
    {mp b : Particle K ns} {vis w : Vis → Fin N → XF K} (hk : law = .ken_simple → 2500 < mp.rho)
    (h : mp.updateStressR rnd nx law c vis = .ok (b, w)) (i j : Fin 3) :
    |b.stress i j - (b.pressure * (1 : Mat K) i j + b.dev_stress i j -
      ((mp.LL * mp.stress) i j + (mp.stress * mp.LL) i j) * c.dt)| ≤
    gam u 7 * (2 * |mp.stress i j| + |b.pressure| * (1 : Mat K) i j + |b.dev_stress i j| +
      ((mp.LL.map abs * mp.stress.map abs) i j + (mp.stress.map abs * mp.LL.map abs) i j) * |c.dt|) := by
  obtain ⟨x, h1, rfl⟩ := updateStressR_law h
  obtain ⟨e1, e2, e3⟩ := flowIncR hl hk h1
  show |(x.1.applyStressR rnd c.dt).stress i j - (x.1.pressure * (1 : Mat K) i j + x.1.dev_stress i j - _)| ≤
    gam u 7 * (2 * |mp.stress i j| + |x.1.pressure| * (1 : Mat K) i j + |x.1.dev_stress i j| + _)
  have hd : ∀ i j, App u 3 (|x.1.pressure * (1 : Mat K) i j| + |x.1.dev_stress i j| + |mp.stress i j|)
      (x.1.pressure * (1 : Mat K) i j + x.1.dev_stress i j - mp.stress i j) (x.1.dstress i j) := by
    intro i j
    rw [e3]
    have a1 := (App.exact (u := u) (x.1.pressure * (1 : Mat K) i j) le_rfl).round hr
    have a2 := (a1.add ((App.exact (x.1.dev_stress i j) le_rfl).weaken hr (k := 1) (Nat.zero_le _)
      le_rfl)).round hr
    exact (a2.sub ((App.exact (mp.stress i j) le_rfl).weaken hr (k := 2) (Nat.zero_le _) le_rfl)).round hr
  have hg : ∀ i j, App u 0 (mp.LL.map abs i j) (x.1.LL i j) (x.1.LL i j) := by
    intro i j; rw [e2]; exact App.exact _ le_rfl
  have a := applyStressR_app hr (k := 3) (l := 0) (m := 5) c.dt
    (mp := { x.1 with
      dstress := fun i j => x.1.pressure * (1 : Mat K) i j + x.1.dev_stress i j - mp.stress i j })
    (mp' := x.1) rfl hd (g := mp.LL.map abs) (fun i j => hg i j) (by omega) (by omega) i j
  have b := a.err
  refine le_of_eq_of_le (congrArg abs ?_) (b.trans (le_of_eq (congrArg (gam u 7 * ·) ?_)))
  · show _ = _ - id (x.1.stress i j + id (_ - id (id (mdotR id x.1.LL x.1.stress i j +
      mdotR id x.1.stress x.1.LL i j) * c.dt)))
    simp only [id, mdotR_id, e1, e2]
    ring
  · show Spec.stressSize c.dt x.1.stress _ _ i j = _
    rw [e1]
    unfold stressSize
    dsimp only
    rw [abs_mul, abs_of_nonneg (show 0 ≤ (1 : Mat K) i j by
      rw [Matrix.one_apply]; split_ifs <;> simp)]
    ring

/-- C144.  Light material that is not sheared (or, for `ken_simple`, any below 2500) loses its stress
without a trace if it does not turn or stretch. -/
theorem c144_light (z : rnd 0 = 0) (odd : ∀ x, rnd (-x) = -rnd x) {law : Law} {c : LawCtx K ns}
    {mp b : Particle K ns} {vis w : Vis → Fin N → XF K}
    (hw : law = .pouliquen ∧ mp.rho < rnd (c.mat.rho * rnd (8 / 10)) ∧ mp.dstrain = 0 ∨
      law = .ken_simple ∧ mp.rho ≤ 2500) (hL : mp.LL = 0)
    (hs : ∀ i j, rnd (mp.stress i j) = mp.stress i j)
    (h : mp.updateStressR rnd nx law c vis = .ok (b, w)) : b.stress = 0 := by
  obtain ⟨x, h1, rfl⟩ := updateStressR_law h
  have key : x.1.stress = mp.stress → x.1.LL = 0 → (∀ i j, x.1.dstress i j = -mp.stress i j) →
      (x.1.applyStressR rnd c.dt).stress = 0 := by
    intro e1 e2 e3
    ext i j
    show rnd (x.1.stress i j + rnd (x.1.dstress i j - rnd (rnd (mdotR rnd x.1.LL x.1.stress i j +
      mdotR rnd x.1.stress x.1.LL i j) * c.dt))) = 0
    rw [e1, e2, e3]
    simp only [mdotR, Matrix.zero_apply, zero_mul, mul_zero, z, add_zero, sub_zero, odd, hs, add_neg_cancel]
  rcases hw with ⟨rfl, hd, h0⟩ | ⟨rfl, hd⟩
  · rcases runLawR_ok h1 with ⟨e, -⟩ | ⟨e, -⟩ | ⟨e, -⟩ | ⟨e, -⟩ | ⟨-, -, q, h2, e⟩ | ⟨e, -⟩ | ⟨e, -⟩
    any_goals cases e
    rw [e]
    have e4 : ∀ i j, shearR rnd mp i j = 0 := by
      intro i j
      simp only [shearR, volR, traceR, h0, Matrix.zero_apply, add_zero, z, zero_div, zero_mul, sub_zero]
    rw [e] at key
    refine key rfl hL fun i j => ?_
    show rnd (rnd (rnd ((if _ then 0 else _) * (1 : Mat K) i j) +
      rnd (rnd (_ * shearR rnd mp i j) / c.dt)) - mp.stress i j) = _
    rw [if_pos (.inr hd), e4]
    simp only [mul_zero, zero_mul, z, zero_div, add_zero, zero_sub, odd, hs]
  · rcases runLawR_ok h1 with ⟨e, -⟩ | ⟨e, -⟩ | ⟨e, -⟩ | ⟨e, -⟩ | ⟨e, -⟩ | ⟨e, -⟩ | ⟨-, -, q, h2, e⟩
    any_goals cases e
    rw [e] at key ⊢
    exact key rfl hL fun i j => if_neg (not_lt.2 hd)

/-- C144.  `linear_mu` cannot start: at zero pressure its shear stress is NaN, whatever the rounding. -/
theorem c144_stuck {c : LawCtx K ns} {mp : Particle K ns} {vis : Vis → Fin N → XF K} (hp : mp.pressure = 0)
    {r : Particle K ns × (Vis → Fin N → XF K)} : mp.updateStressR rnd nx .linear_mu c vis ≠ .ok r := by
  intro h
  obtain ⟨x, h1, -⟩ := updateStressR_law (b := r.1) (w := r.2) h
  rcases runLawR_ok h1 with ⟨f, -⟩ | ⟨f, -⟩ | ⟨f, -⟩ | ⟨f, -⟩ | ⟨f, -⟩ | ⟨-, -, q, h2, e⟩ | ⟨f, -⟩
  any_goals cases f
  have rdS : ∀ {a : XF K}, XF.Special a → XF.Special (XF.rd rnd a) := by
    intro a h
    cases a <;> exact h
  have hI : XF.Special x.1.I := by
    rw [e.I]
    unfold inertialR
    rw [hp, abs_zero]
    exact rdS ((rdS (rdS (XF.special_div_zero _)).sqrt).fin_mul _)
  have he : x.1.eta = .nan := by
    rw [e.eta]
    have := rdS ((rdS ((rdS (hI.fin_mul c.mat.b)).fin_add q)).fin_mul (rnd (2 * rnd (c.ops.sqrt 2))))
    unfold etaOfR
    rw [hp, abs_zero, this.mul_zero]
    show XF.min (XF.rd rnd (XF.rd rnd .nan / _)) _ = _
    rw [show XF.rd rnd (.nan : XF K) = .nan from rfl, XF.nan_div]
    exact XF.nan_min _
  have := e.dev 0 0
  rw [he, XF.nan_mul, show XF.rd rnd (.nan : XF K) = .nan from rfl, XF.nan_div] at this
  cases this

end

section
variable {K : Type} [Field K] [LinearOrder K] [IsStrictOrderedRing K] [FloorRing K] {ns N nx : ℕ} {P : Par K}
  {rnd : K → K}

/-- C144.  With `p` bits a compressed fluid does not notice small strains: its pressure keeps all its
digits although the material is compressed or stretched. -/
theorem c144_frozen {p : ℕ} (hp : 1 ≤ p) {law : Law} (hl : IsFluid law) {c : LawCtx K ns}
    {mp b : Particle K ns} {vis w : Vis → Fin N → XF K} (h : mp.updateStressR (fl p) nx law c vis = .ok (b, w))
    (hf : fl p mp.pressure = mp.pressure) (h0 : mp.pressure ≤ 0)
    (hd : law = .pouliquen → fl p (c.mat.rho * fl p (8 / 10)) ≤ mp.rho)
    (hs : |fl p (c.mat.Kb * fl p (fl p (fl p (mp.dstrain 0 0 + mp.dstrain 1 1) + mp.dstrain 2 2) / 3))| *
      2 ^ (p + 2) ≤ |mp.pressure|) : b.pressure = mp.pressure := by
  rw [c144_pressure hl h, if_neg (fun q => absurd q.2 (not_lt.2 (hd q.1))), fl_keep hp hf hs, min_eq_right h0]

/-- The pressures before and after one step. -/
theorem fluid_step {s s' : St P} (hB : Closed P.B) (hL : Counted s.L) (hr : NoRigid s.L)
    (ho : OwnVel s.L) (h : timeMarchR rnd (Besides.rounded rnd P) s = .ok s') :
    PtsRel (fun ph a b => (IsFluid ph.law → b.pressure ≤ 0) ∧ (ph.law = .linear_mu → a.pressure ≠ 0) ∧
      ∃ w, b.v = .own w) s.L s'.L := by
  obtain ⟨T⟩ := timeMarchR_ok Besides.rounded_plain h
  obtain ⟨L, h1, h2, -⟩ := T.points hB
  have ra := updateForcesR_rel hL T.T.ha
  have la := ra.counted hL
  have rb := getReferenceNodesR_rel la T.T.hb
  have lb := rb.counted la
  have rc := getBasisFunctionsR_rel lb T.T.hc
  have lc := rc.counted lb
  have rd := updateStressStrainR_rel lc T.T.hLd
  have re := T.T.rel Besides.rounded_plain hL
  have ld := rd.counted lc
  have od : OwnVel T.T.Ld := by
    refine ownVel_of_rel re.mem (p := fun mp => ∃ v, mp.v = .own v) ?_
    rintro ph a b ⟨ha, -, -, e, -⟩
    rw [e]
    obtain ⟨A, hA, -, hm⟩ := mem_items.1 ha
    exact ho a (List.mem_flatMap.2 ⟨A, hA, hm⟩)
  have rm := movePointsR_own ld (laws_of_rel (p := (· ≠ .rigid)) re hr) od h1
  have rw' := cyclicLRR_rel (rm.counted ld) h2
  refine (((((ra.comp rb).comp rc).comp rd).comp rm).comp rw').mono ?_
  rintro ph a e ⟨g, ⟨f, ⟨d, ⟨c, ⟨b, ⟨v, hb, -⟩, n, hc⟩, w, y, hf⟩, p, vis, vis', o, ho, he⟩, hm, k, hk⟩,
    hd, -⟩
  have pd : d.pressure = a.pressure := by rw [hf, hc, hb]
  have po : o.pressure = d.pressure := by
    obtain ⟨-, -, ⟨_, _, _, e⟩, -⟩ := updateStrainR_ok ho
    rw [e]
  have pg : g.pressure = f.pressure := by
    obtain ⟨-, ⟨_, _, _, e⟩, -⟩ := c138_sum hm
    rw [e]
  have pe : e.pressure = g.pressure := by rw [hd]
  have ve : e.v = g.v := by rw [hd]
  have he : o.updateStressR rnd P.G.nx ph.law
    (lawCtxR rnd P T.T.d P.G.s ((mat0 T.T.Lc).getD ph.par) p ph) vis = .ok (f, vis') := he
  refine ⟨fun hl => ?_, fun hl hp => ?_, k, ve.trans hk⟩
  · rw [pe, pg]
    exact c144_sign hl he
  · rw [hl] at he
    exact c144_stuck (po.trans (pd.trans hp)) he

/-- C144.  After any positive number of rounded steps no point of a fluid is in tension. -/
theorem c144_run {n : ℕ} {s s' : St P} (hB : Closed P.B) (hL : Counted s.L) (hr : NoRigid s.L)
    (ho : OwnVel s.L) (h : stepsR rnd (Besides.rounded rnd P) (n + 1) s = .ok s') :
    ∀ a ∈ s'.L, IsFluid a.ph.law → ∀ mp ∈ a.pts, mp.pressure ≤ 0 := by
  have last : ∀ {L L' : List (PhaseSt K P.G.ns)} {Q : Phase K P.G.ns → Particle K P.G.ns → Prop},
      PtsRel (fun ph _ b => Q ph b) L L' → ∀ a ∈ L', ∀ mp ∈ a.pts, Q a.ph mp := by
    intro L L' Q h
    induction h with
    | nil => simp
    | @cons A A' _ _ h _ ih =>
      refine List.forall_mem_cons.2 ⟨fun mp hmp => ?_, ih⟩
      obtain ⟨h1, h2⟩ := h
      rw [h1]
      generalize A.pts = l, A'.pts = l' at h2 hmp
      induction h2 with
      | nil => simp at hmp
      | cons k _ ih2 =>
        rcases List.mem_cons.1 hmp with rfl | hmp
        · exact k
        · exact ih2 hmp
  induction n generalizing s with
  | zero =>
    obtain ⟨s1, h1, h⟩ := res_bind_ok.1 h
    cases h
    have r := fluid_step hB hL hr ho h1
    intro a ha hl mp hmp
    exact last (Q := fun ph b => IsFluid ph.law → b.pressure ≤ 0) (r.mono fun _ _ _ h => h.1) a ha mp hmp hl
  | succ n ih =>
    obtain ⟨s1, h1, h⟩ := res_bind_ok.1 h
    have r := fluid_step hB hL hr ho h1
    exact ih (s := stepTimeR rnd P s1) (r.counted hL) (laws_of_rel (p := (· ≠ .rigid)) r hr)
      (ownVel_of_rel r fun _ _ _ h => h.2.2) h

/-- C144.  A step of a system with a `linear_mu` point without pressure fails. -/
theorem c144_start {s s' : St P} (hB : Closed P.B) (hL : Counted s.L) (hr : NoRigid s.L)
    (ho : OwnVel s.L) (h : timeMarchR rnd (Besides.rounded rnd P) s = .ok s') :
    ∀ a ∈ s.L, a.ph.law = .linear_mu → ∀ mp ∈ a.pts, mp.pressure ≠ 0 := by
  have r := fluid_step hB hL hr ho h
  have first : ∀ {L L' : List (PhaseSt K P.G.ns)} {Q : Phase K P.G.ns → Particle K P.G.ns → Prop},
      PtsRel (fun ph a _ => Q ph a) L L' → ∀ a ∈ L, ∀ mp ∈ a.pts, Q a.ph mp := by
    intro L L' Q h
    induction h with
    | nil => simp
    | @cons A A' _ _ h _ ih =>
      refine List.forall_mem_cons.2 ⟨fun mp hmp => ?_, ih⟩
      obtain ⟨h1, h2⟩ := h
      generalize A.pts = l, A'.pts = l' at h2 hmp
      induction h2 with
      | nil => simp at hmp
      | cons k _ ih2 =>
        rcases List.mem_cons.1 hmp with rfl | hmp
        · exact k
        · exact ih2 hmp
  intro a ha hl mp hmp
  exact first (Q := fun ph b => ph.law = .linear_mu → b.pressure ≠ 0) (r.mono fun _ _ _ h => h.2.1) a ha mp
    hmp hl

end
end Mpm

/-! ## Examples -/

namespace Mpm
open Spec

/-- A context for fluids in binary64, with a constant in place of the square root. -/
def Ex.ctxRF (law : Law) : LawCtx ℚ 2 :=
  { Ex.ctxR with
    ops := { Ex.ops with sqrt := fun _ => 1 }
    mat := if law = .pouliquen then
      { Ex.mat with mu_0 := .arr [1/3, 1/2], delta_mu := .arr [1/5, 1/7], I_0 := .arr [1, 1/3] } else Ex.mat }

/-- A sheared point under pressure. -/
def Ex.fluid : Particle ℚ 2 :=
  { Ex.bent with
    rho := 3000, pressure := -1, gammadot := 1
    dstrain := !![-1/30, 1/7, 0; 1/7, 1/90, 0; 0, 0, 0]
    LL := !![-1/3, 1/7, 0; 1/7, 1/9, 0; 0, 0, 0] }

/-- A point after a law in binary64. -/
def Ex.flow (law : Law) (mp : Particle ℚ 2) (check : Particle ℚ 2 → Bool) : Bool :=
  Ex.okAnd (mp.updateStressR (fl 53) 4 law (Ex.ctxRF law) (N := 12) fun _ _ => .fin 0) fun b => check b.1

theorem Ex.flow_ok {law : Law} {mp : Particle ℚ 2} {check : Particle ℚ 2 → Bool}
    (h : Ex.flow law mp check = true) : ∃ (b : Particle ℚ 2) (w : Vis → Fin 12 → XF ℚ),
      mp.updateStressR (fl 53) 4 law (Ex.ctxRF law) (fun _ _ => .fin 0) = .ok (b, w) ∧ check b = true := by
  obtain ⟨⟨b, w⟩, h1, h2⟩ := Ex.okAnd_ok h
  exact ⟨b, w, h1, h2⟩

theorem Ex.fluid_plain (law : Law) : PlainFluid (Ex.ctxRF law) Ex.fluid := by
  have e1 : ∀ x y : ℚ, 0 ≤ x → 0 ≤ y → NoNeg (.arr [x, y]) := fun x y hx hy =>
    ⟨fun _ h => (by cases h), fun l h z hz => (by
      cases h
      simp only [List.mem_cons, List.not_mem_nil, or_false] at hz
      rcases hz with rfl | rfl <;> assumption)⟩
  have e2 : NoNeg (.scalar (1 : ℚ)) := ⟨fun _ h => (by cases h; norm_num), fun _ h => (by cases h)⟩
  unfold Ex.ctxRF
  split_ifs
  · refine ⟨fun _ => zero_le_one, by norm_num [Ex.ops], ?_, ?_, e1 _ _ (by norm_num) (by norm_num),
      e1 _ _ (by norm_num) (by norm_num), e1 _ _ (by norm_num) (by norm_num), by norm_num [Ex.mat], zero_le_one,
      by norm_num [Ex.mat]⟩ <;> decide +kernel
  · refine ⟨fun _ => zero_le_one, by norm_num [Ex.ops], ?_, ?_, e2, e2, e2, by norm_num [Ex.mat], zero_le_one,
      by norm_num [Ex.mat]⟩ <;> decide +kernel

/-- C144.  Each of the three laws in binary64: rounding changes pressure and stress; the claims hold. -/
example : ∀ law ∈ [Law.pouliquen, .linear_mu, .ken_simple],
    ∃ (b : Particle ℚ 2) (w : Vis → Fin 12 → XF ℚ),
      Ex.fluid.updateStressR (fl 53) 4 law (Ex.ctxRF law) (fun _ _ => .fin 0) = .ok (b, w) ∧
      b.pressure < 0 ∧ b.pressure ≠ -1 + 10 * (-1/30 + 1/90) / 3 ∧ b.dev_stress 0 1 ≠ 0 ∧
      |b.dev_stress 0 1| ≤ fl 53 (fl 53 (100 * |b.de_ij 0 1|) / (Ex.ctxRF law).dt) ∧
      |b.stress 0 1 - (b.pressure * 0 + b.dev_stress 0 1 - ((Ex.fluid.LL * Ex.fluid.stress) 0 1 +
        (Ex.fluid.stress * Ex.fluid.LL) 0 1) * (Ex.ctxRF law).dt)| ≤ gam (1 / 2 ^ 53) 7 * 1000 := by
  intro law hl
  have h : Ex.flow law Ex.fluid (fun b => decide (b.pressure < 0) &&
      (decide (b.pressure ≠ -1 + 10 * (-1/30 + 1/90) / 3) && (decide (b.dev_stress 0 1 ≠ 0) &&
      decide (2 * |Ex.fluid.stress 0 1| + |b.pressure| * (1 : Mat ℚ) 0 1 + |b.dev_stress 0 1| +
        ((Ex.fluid.LL.map abs * Ex.fluid.stress.map abs) 0 1 +
          (Ex.fluid.stress.map abs * Ex.fluid.LL.map abs) 0 1) * |(Ex.ctxRF law).dt| ≤ 1000)))) = true := by
    revert law
    decide +kernel
  have hf : IsFluid law := by
    simp only [List.mem_cons, List.not_mem_nil, or_false] at hl
    exact hl
  obtain ⟨b, w, h1, h⟩ := Ex.flow_ok h
  obtain ⟨k1, h⟩ := Bool.and_eq_true_iff.1 h
  obtain ⟨k2, h⟩ := Bool.and_eq_true_iff.1 h
  obtain ⟨k3, k4⟩ := Bool.and_eq_true_iff.1 h
  have hr := c136_bits (K := ℚ) (p := 53) (by norm_num)
  have hd : 0 < (Ex.ctxRF law).dt := by
    show 0 < Ex.ctxR.dt
    decide +kernel
  refine ⟨b, w, h1, of_decide_eq_true k1, of_decide_eq_true k2, of_decide_eq_true k3, ?_, ?_⟩
  · have := c144_cap hr.mono (fl_zero 53) (fl_neg 53) (by decide +kernel) hf (Ex.fluid_plain law) hd h1 0 1
    rwa [show (Ex.ctxRF law).mat.eta_max = 100 by unfold Ex.ctxRF; split_ifs <;> rfl] at this
  · have := c144_stress hr hf (fun _ => by norm_num [Ex.fluid]) h1 0 1
    refine this.trans (mul_le_mul_of_nonneg_left (of_decide_eq_true k4) ?_)
    unfold gam
    norm_num

/-- C144.  A friction coefficient strictly between its limits. -/
example : ∃ (b : Particle ℚ 2) (w : Vis → Fin 12 → XF ℚ) (m : ℚ) (q : ℚ × ℚ × ℚ),
    Ex.fluid.updateStressR (fl 53) 4 .pouliquen (Ex.ctxRF .pouliquen) (fun _ _ => .fin 0) = .ok (b, w) ∧
    phiMeansR (fl 53) Ex.fluid.phi (Ex.ctxRF .pouliquen).mat.mu_0 (Ex.ctxRF .pouliquen).mat.delta_mu
      (Ex.ctxRF .pouliquen).mat.I_0 = .ok q ∧
    b.mu = some (.fin m) ∧ fl 53 q.1 ≤ m ∧ m ≤ fl 53 (q.1 + fl 53 q.2.1) ∧ m ≠ fl 53 q.1 := by
  have h : Ex.okAnd (phiMeansR (fl 53) Ex.fluid.phi (Ex.ctxRF .pouliquen).mat.mu_0
      (Ex.ctxRF .pouliquen).mat.delta_mu (Ex.ctxRF .pouliquen).mat.I_0) (fun q =>
      Ex.flow .pouliquen Ex.fluid fun b => match b.mu with
        | some (.fin m) => decide (m ≠ fl 53 q.1)
        | _ => false) = true := by decide +kernel
  obtain ⟨q, h1, h⟩ := Ex.okAnd_ok h
  obtain ⟨b, w, h2, h⟩ := Ex.flow_ok h
  have hr := c136_bits (K := ℚ) (p := 53) (by norm_num)
  rcases c144_friction hr.mono (fl_zero 53) (by decide +kernel) (Ex.fluid_plain _) h2 h1 with e | ⟨m, e, k1, k2⟩
  · rw [e] at h; cases h
  · rw [e] at h
    exact ⟨b, w, m, q, h2, h1, e, k1, k2, of_decide_eq_true h⟩

/-- C144.  Light material loses its stress, and the same strain that moves a small pressure leaves a large
one alone. -/
example : (∀ law ∈ [Law.pouliquen, .ken_simple], ∃ (b : Particle ℚ 2) (w : Vis → Fin 12 → XF ℚ),
      ({ Ex.fluid with rho := 1/2, LL := 0, dstrain := 0, stress := !![1, 3, 0; 3, 5, 0; 0, 0, 1/4] }).updateStressR
        (fl 53) 4 law (Ex.ctxRF law) (fun _ _ => .fin 0) = .ok (b, w) ∧ b.stress = 0) ∧
    ∀ law ∈ [Law.pouliquen, .linear_mu, .ken_simple], ∃ (b : Particle ℚ 2) (w : Vis → Fin 12 → XF ℚ),
      ({ Ex.fluid with pressure := -2 ^ 60 }).updateStressR (fl 53) 4 law (Ex.ctxRF law) (fun _ _ => .fin 0) =
        .ok (b, w) ∧ b.pressure = -2 ^ 60 := by
  constructor
  · intro law hl
    have h : Ex.flow law { Ex.fluid with
        rho := 1/2, LL := 0, dstrain := 0, stress := !![1, 3, 0; 3, 5, 0; 0, 0, 1/4] } (fun _ => true) = true := by
      revert law
      decide +kernel
    obtain ⟨b, w, h, -⟩ := Ex.flow_ok h
    refine ⟨b, w, h, c144_light (fl_zero 53) (fl_neg 53) ?_ rfl (Ex.all33 (by decide +kernel)) h⟩
    simp only [List.mem_cons, List.not_mem_nil, or_false] at hl
    rcases hl with rfl | rfl
    · exact .inl ⟨rfl, by decide +kernel, rfl⟩
    · exact .inr ⟨rfl, by norm_num⟩
  · intro law hl
    have h : Ex.flow law { Ex.fluid with pressure := -2 ^ 60 } (fun _ => true) = true := by
      revert law
      decide +kernel
    have hf : IsFluid law := by
      simp only [List.mem_cons, List.not_mem_nil, or_false] at hl
      exact hl
    obtain ⟨b, w, h, -⟩ := Ex.flow_ok h
    refine ⟨b, w, h, c144_frozen (by norm_num) hf h (by decide +kernel) (by norm_num) ?_ ?_⟩
    · rintro rfl; decide +kernel
    · rw [show (Ex.ctxRF law).mat.Kb = 10 by unfold Ex.ctxRF; split_ifs <;> rfl]
      decide +kernel

/-- C144.  The old stress enters: although pressure and shear stress alone determine the new stress in
exact arithmetic, a large old one wipes them out. -/
theorem c144_absorbed : ∃ (b b' : Particle ℚ 2) (w w' : Vis → Fin 12 → XF ℚ),
    ({ Ex.fluid with LL := 0, dstrain := 0, stress := (-2 ^ 60 : ℚ) • (1 : Mat ℚ) }).updateStressR (fl 53) 4
      .pouliquen (Ex.ctxRF .pouliquen) (fun _ _ => .fin 0) = .ok (b, w) ∧
    ({ Ex.fluid with LL := 0, dstrain := 0, stress := (-2 ^ 60 : ℚ) • (1 : Mat ℚ) }).updateStress 4
      .pouliquen (Ex.ctxRF .pouliquen) (fun _ _ => .fin 0) = .ok (b', w') ∧
    b.pressure = -1 ∧ b.stress = 0 ∧ b'.pressure = -1 ∧ b'.stress = -1 := by
  have h : Ex.okAnd (({ Ex.fluid with
      LL := 0, dstrain := 0, stress := (-2 ^ 60 : ℚ) • (1 : Mat ℚ) }).updateStressR (fl 53) 4
      .pouliquen (Ex.ctxRF .pouliquen) (N := 12) (fun _ _ => .fin 0)) (fun b =>
      Ex.okAnd (({ Ex.fluid with
        LL := 0, dstrain := 0, stress := (-2 ^ 60 : ℚ) • (1 : Mat ℚ) }).updateStress 4
        .pouliquen (Ex.ctxRF .pouliquen) (N := 12) (fun _ _ => .fin 0)) fun b' =>
      decide (b.1.pressure = -1 ∧ b.1.stress = 0 ∧ b'.1.pressure = -1 ∧ b'.1.stress = -1)) = true := by
    decide +kernel
  obtain ⟨⟨b, w⟩, h1, h⟩ := Ex.okAnd_ok h
  obtain ⟨⟨b', w'⟩, h2, h⟩ := Ex.okAnd_ok h
  exact ⟨b, b', w, w', h1, h2, of_decide_eq_true h⟩

/-- One point of a fluid. -/
def Ex.drop (law : Law) (p : ℚ) : List (PhaseSt ℚ 2) :=
  [{ ph := { Ex.ph with n := 1, law := law }
     pts := [{ Ex.mp with x := ![2/5, 1/7, 0], v := .own ![1/3, 1/7, 0], pressure := p }] }]

theorem Ex.drop_counted (law : Law) (p : ℚ) : Counted (Ex.drop law p) := by
  intro a ha
  rw [List.mem_singleton.1 ha]; rfl

theorem Ex.drop_soft {law : Law} (hl : law ≠ .rigid) (p : ℚ) : NoRigid (Ex.drop law p) := by
  intro a ha
  rw [List.mem_singleton.1 ha]
  exact hl

theorem Ex.drop_own (law : Law) (p : ℚ) : OwnVel (Ex.drop law p) := by
  intro mp hmp
  have : mp ∈ [({ Ex.mp with
    x := ![2/5, 1/7, 0], v := .own ![1/3, 1/7, 0], pressure := p } : Particle ℚ 2)] := hmp
  rw [List.mem_singleton.1 this]
  exact ⟨_, rfl⟩

/-- C144.  A step of `linear_mu` in binary64 starting from pressure ends without tension, and cannot be done
from none. -/
example : ∃ (G : Grid ℚ Ex.par.G.N Ex.par.G.ns) (s : St Ex.par),
    mkGridR (fl 53) Ex.par.G Ex.par.B = .ok G ∧
    stepsR (fl 53) (Besides.rounded (fl 53) Ex.par) 1
      { dyn := Ex.dyn, L := Ex.drop .linear_mu (-1), G := G } = .ok s ∧
    (∀ a ∈ s.L, IsFluid a.ph.law → ∀ mp ∈ a.pts, mp.pressure ≤ 0) ∧
    ∀ s', timeMarchR (fl 53) (Besides.rounded (fl 53) Ex.par)
      { dyn := Ex.dyn, L := Ex.drop .linear_mu 0, G := G } ≠ .ok s' := by
  have h : Ex.okAnd (mkGridR (fl 53) Ex.par.G Ex.par.B) (fun G =>
      Ex.okAnd (stepsR (fl 53) (Besides.rounded (fl 53) Ex.par) 1
        { dyn := Ex.dyn, L := Ex.drop .linear_mu (-1), G := G }) fun _ => true) = true := by decide +kernel
  obtain ⟨G, h1, h⟩ := Ex.okAnd_ok h
  obtain ⟨s, h2, -⟩ := Ex.okAnd_ok h
  refine ⟨G, s, h1, h2, c144_run ⟨rfl, rfl, rfl, rfl⟩ (Ex.drop_counted _ _) (Ex.drop_soft (by decide) _)
    (Ex.drop_own _ _) h2, fun s' h3 => ?_⟩
  exact c144_start ⟨rfl, rfl, rfl, rfl⟩ (Ex.drop_counted _ _) (Ex.drop_soft (by decide) _)
    (Ex.drop_own _ _) h3 _ (List.mem_singleton.2 rfl) rfl _ (List.mem_singleton.2 rfl) rfl

end Mpm

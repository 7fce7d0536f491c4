import Verif.Lemmas.ScaleStep
import Verif.Props.Boost
import Verif.Props.Segregation

/-! Lists of points and whole steps in other units. -/

set_option linter.unusedSectionVars false

namespace Mpm
open Spec

section
variable {K : Type} [Field K] [LinearOrder K] [IsStrictOrderedRing K] [FloorRing K] {ns N : ℕ}
  {U : NewUnits K}

/-- All phases in the new units. -/
abbrev sc (U : NewUnits K) (L : List (PhaseSt K ns)) : List (PhaseSt K ns) := L.map (scalePhSt U)

theorem mapPoints_scale {f f' : ℕ → Phase K ns → Particle K ns → Res (Particle K ns)}
    (h : ∀ p ph mp, f' p (scalePh U ph) (scalePt U ph.law mp) = scalePt U ph.law <$> f p ph mp)
    (L : List (PhaseSt K ns)) : mapPoints f' (sc U L) = sc U <$> mapPoints f L := by
  refine mapPhases_equiv (fun p a => ?_) 0 L
  exact res_bind_map (f := List.map (scalePt U a.ph.law)) (mapN_equiv (h p a.ph) _ _) fun _ _ => rfl

theorem updateForces_scale (P : Par K) (g : K) (L : List (PhaseSt K ns)) :
    updateForces (scalePar U P) (U.acc * g) (sc U L) = sc U <$> updateForces P g L :=
  mapPoints_scale (fun p ph mp => congrArg Except.ok (gravity_scale ph.law P g p mp)) L

theorem trunc_scale (x a d : K) : pyTrunc ((U.L * x - U.L * a) / (U.L * d)) = pyTrunc ((x - a) / d) := by
  rw [← mul_sub, mul_div_mul_left _ _ U.L_ne]

theorem reference_scale (law : Law) (P : GP K) (dx dy : K) (mp : Particle K ns) :
    (scalePt U law mp).getReferenceNode (scaleGP U P) (U.L * dx) (U.L * dy) =
      scalePt U law <$> mp.getReferenceNode P dx dy := by
  unfold Particle.getReferenceNode
  refine ite_iff (by rw [mul_eq_zero_iff' U.L_pos, mul_eq_zero_iff' U.L_pos]) rfl
    (congrArg Except.ok ?_)
  simp only [scalePt, Particle.mk.injEq, true_and, and_true, Pi.smul_apply, smul_eq_mul, trunc_scale]

theorem referenceNodes_scale (P : GP K) (G : Grid K N ns) (L : List (PhaseSt K ns)) :
    getReferenceNodes (scaleGP U P) (scaleGrid U G) (sc U L) = sc U <$> getReferenceNodes P G L :=
  mapPoints_scale (fun _ ph mp => reference_scale ph.law P G.dx G.dy mp) L

theorem basisFunctions_scale (G : Grid K N ns) (L : List (PhaseSt K ns)) :
    getBasisFunctions (scaleGrid U G) (sc U L) = sc U <$> getBasisFunctions G L :=
  mapPoints_scale (fun _ ph mp => basis_scale ph.law G mp) L

theorem p2gAll_scale (nx : ℕ) (L : List (PhaseSt K ns)) (G : Grid K N ns) :
    p2gAll nx false (sc U L) (scaleGrid U G) = scaleGrid U <$> p2gAll nx false L G := by
  refine foldPhases_equiv (φ := scalePhSt U) (fun x G => ?_) L G
  refine foldN_equiv (φ := scalePt U x.ph.law) (fun mp G => ?_) x.ph.n x.pts G
  change (scalePt U x.ph.law mp).p2g nx false ((scaleV U mp.v).get (U.vel • x.ph.iv)) _ = _
  rw [get_scale]
  exact p2g_scale x.ph.law nx _ mp G

theorem nodalMass_scale (P : Par K) (hs : P.segregate_grid = false) (s s' : Fin ns → K)
    (L : List (PhaseSt K ns)) (G : Grid K N ns) :
    getNodalMassMomentum (scalePar U P) s' (sc U L) (scaleGrid U G) =
      scaleGrid U <$> getNodalMassMomentum P s L G := by
  unfold getNodalMassMomentum
  simp only [hs]
  refine res_bind_map (p2gAll_scale P.G.nx L G) fun G _ => congrArg Except.ok ?_
  exact zeroBoundary_scale _ _

theorem mat0_scale {L : List (PhaseSt K ns)} {a b : PhaseSt K ns} (hb : b ∈ L) :
    ∃ law0, ∀ m m', (mat0 (sc U L)).getD m' = scaleMat U law0 ((mat0 L).getD m) := by
  cases L with
  | nil => cases hb
  | cons c L => exact ⟨c.ph.law, fun _ _ => rfl⟩

theorem lawCtx_scale (P : Par K) (d : Dyn K) (s : Fin ns → K) (m : Mat0 K) (law0 : Law) (p : ℕ)
    (ph : Phase K ns) : lawCtx (scalePar U P) (scaleDyn U d) (U.L • s) (scaleMat U law0 m) p
      (scalePh U ph) = scaleCtx U ph.law law0 (lawCtx P d s m p ph) := by
  unfold lawCtx scaleCtx
  simp only [scaleDyn, scalePh, mul_sub]

/-- What the law needs of a phase and of its points. -/
def Spec.Consistent (ops : Ops K) (s : Fin ns → K) (a : PhaseSt K ns) : Prop :=
  (Dimensional a.ph.law ∧ (TakesRoot a.ph.law → GoodOps ops)) ∧ Sized a.ph.law a.ph.par s a.ph.phi ∧
    ∀ mp ∈ a.pts, Sized a.ph.law a.ph.par s mp.phi

theorem stressStrainAll_scale {nx ny : ℕ} (P : Par K) (d : Dyn K)
    (s : Fin ns → K) (L : List (PhaseSt K ns)) (hn : Counted L) (hL : ∀ a ∈ L, Consistent P.ops s a)
    (G : Grid K (ny * nx) ns) :
    updateStressStrain (scalePar U P) (scaleDyn U d) (U.L • s) (sc U L) (scaleGrid U G) =
      Prod.map (sc U) (scaleGrid U) <$> updateStressStrain P d s L G := by
  refine res_bind_map (f := Prod.map (sc U) (scaleVisF U)) (forPhases_equiv_mem (ψ := scaleVisF U)
    (φ := scalePhSt U) 0 L (fun p x hx vis => ?_) G.vis) fun r _ => ?_
  · obtain ⟨law0, h0⟩ := mat0_scale (U := U) (a := x) hx
    refine res_bind_map (f := Prod.map (List.map (scalePt U x.ph.law)) (scaleVisF U)) ?_ fun _ _ => rfl
    rw [h0 x.ph.par]
    change forN _ x.ph.n (x.pts.map (scalePt U x.ph.law)) (scaleVisF U vis) = _
    rw [hn x hx]
    refine forN_equiv_mem (ψ := scaleVisF U) (φ := scalePt U x.ph.law) x.pts (fun mp hmp vis => ?_) vis
    have hc := hL x hx
    change (scalePt U x.ph.law mp).stressStrain nx (U.M * P.M_tol) (scaleGrid U G) x.ph.law
      (lawCtx (scalePar U P) (scaleDyn U d) (U.L • s) _ p (scalePh U x.ph)) _ = _
    rw [lawCtx_scale]
    exact stressStrain_scale hc.1.1 law0 nx P.M_tol G _ hc.1.2 mp (hc.2.2 mp hmp) vis
  · have h : ({ scaleGrid U G with vis := scaleVisF U r.2 } : Grid K (ny * nx) ns) =
        scaleGrid U { G with vis := r.2 } := rfl
    refine congrArg Except.ok (Prod.ext rfl ?_)
    change (if P.B.cyclic_lr = true then Grid.makeCyclicVis cyclicVis
      ({ scaleGrid U G with vis := scaleVisF U r.2 } : Grid K (ny * nx) ns) else _) =
        scaleGrid U (if P.B.cyclic_lr = true then _ else _)
    rw [h]
    cases P.B.cyclic_lr
    · rfl
    · exact cyclicVis_scale _ _

theorem forces_scale {nx ny : ℕ} (P : Par K) (L : List (PhaseSt K ns)) (G : Grid K (ny * nx) ns) :
    getNodalForces (scalePar U P) (sc U L) (scaleGrid U G) = scaleGrid U <$> getNodalForces P L G := by
  refine res_bind_map (f := scaleGrid U) (foldPhases_equiv (φ := scalePhSt U) (fun x G => ?_) L G)
    fun G _ => congrArg Except.ok ?_
  · exact foldN_equiv (φ := scalePt U x.ph.law) (fun mp G => nodalForces_scale x.ph.law nx mp G)
      x.ph.n x.pts G
  · change (if P.B.cyclic_lr = true then _ else _) = scaleGrid U (if P.B.cyclic_lr = true then _ else _)
    cases P.B.cyclic_lr
    · rfl
    · exact cyclicForces_scale _

theorem movePoints_scale (nx : ℕ) (M_tol dt : K) (v : Vec K) (G : Grid K N ns)
    (L : List (PhaseSt K ns)) :
    movePoints nx (U.M * M_tol) (U.T * dt) (U.vel • v) (scaleGrid U G) (sc U L) =
      sc U <$> movePoints nx M_tol dt v G L := by
  refine mapPhases_equiv (φ := scalePhSt U) (fun _ x => ?_) 0 L
  refine ite_equiv ?_ ?_
  · refine res_bind_map (f := List.map (scalePt U x.ph.law)) (mapN_equiv (fun mp => ?_) x.ph.n x.pts)
      fun _ _ => rfl
    exact congrArg Except.ok (moveRigid_scale x.ph.law dt v mp)
  · exact res_bind_map (f := Prod.map (List.map (scalePt U x.ph.law)) (U.vel • ·))
      (forN_equiv (ψ := (U.vel • ·)) (fun mp iv => move_scale x.ph.law nx M_tol dt G mp iv) x.ph.n
        x.pts x.ph.iv) fun _ _ => rfl

theorem outletLeft_scale (P : GP K) (L : List (PhaseSt K ns)) :
    outletLeft (scaleGP U P) (sc U L) = sc U <$> outletLeft P L := by
  refine mapPhases_equiv (φ := scalePhSt U) (fun _ x => ?_) 0 L
  refine res_bind_map (f := Prod.map id (List.map (scalePt U x.ph.law))) (outletLoop_equiv
    (fun mp => ?_) x.ph.n x.ph.n x.pts) fun _ _ => rfl
  have h : (U.L * mp.x 0 < U.L * P.x_m + U.L * P.dx) ↔ mp.x 0 < P.x_m + P.dx := by
    rw [← mul_add, mul_lt_mul_iff_right₀ U.L_pos]
  exact decide_eq_decide.2 h

theorem outletBottom_scale (P : GP K) (L : List (PhaseSt K ns)) :
    outletBottom (scaleGP U P) (sc U L) = sc U <$> outletBottom P L := by
  refine mapPhases_equiv (φ := scalePhSt U) (fun _ x => ?_) 0 L
  refine res_bind_map (f := Prod.map id (List.map (scalePt U x.ph.law))) (outletLoop_equiv
    (fun mp => ?_) x.ph.n x.ph.n x.pts) fun _ _ => rfl
  exact decide_eq_decide.2 (mul_lt_mul_iff_right₀ U.L_pos)

/-! ## New points -/

theorem hooke_scale (Kb Gs : K) (e : Mat K) :
    hooke (U.stress * Kb) (U.stress * Gs) e = U.stress • hooke Kb Gs e := by
  unfold hooke
  rw [smul_add, smul_smul, smul_smul]
  congr 2 <;> ring

theorem hookeInv_scale (Kb Gs : K) (s : Mat K) :
    hookeInv (U.stress * Kb) (U.stress * Gs) (U.stress • s) = hookeInv Kb Gs s := by
  have h := U.stress_pos.ne'
  unfold hookeInv
  rw [Matrix.trace_smul, smul_eq_mul]
  congr 1
  · congr 1
    rw [mul_left_comm, mul_div_mul_left _ _ h]
  · rw [mul_div_assoc, mul_smul U.stress (s.trace / 3), ← smul_sub, smul_smul]
    congr 1
    rw [mul_left_comm, one_div, mul_inv, mul_right_comm, inv_mul_cancel₀ h, one_mul, one_div]

theorem stress_depth : U.dens * U.acc * U.L = U.stress := by
  have := U.T_ne; have := U.L_ne; have := U.W_ne
  unfold NewUnits.dens NewUnits.vol NewUnits.stress NewUnits.acc; field_simp

theorem lithoStress_scale (P : Par K) (rho y : K) :
    lithoStress (scalePar U P) (U.dens * rho) (U.L * y) = U.stress • lithoStress P rho y := by
  have h : ∀ c d : K, c * (U.dens * rho) * (U.acc * P.max_g) * (U.L * d) =
      U.stress * (c * rho * P.max_g * d) := by
    intro c d; rw [← stress_depth]; ring
  unfold lithoStress
  cases hg : P.top_gap with
  | none =>
    simp only [hg, Option.map_none, ← mul_sub, h]
    ext i j; fin_cases i <;> fin_cases j <;> simp
  | some g =>
    simp only [hg, Option.map_some, ← mul_sub, h]
    ext i j; fin_cases i <;> fin_cases j <;> simp

theorem initStress_scale (law : Law) (P : Par K) (mat : Mat0 K) (y : K) :
    initStress (scalePar U P) (scaleMat U law mat) (U.L * y) =
      Prod.map (U.stress • ·) id <$> initStress P mat y := by
  have hc : (scaleMat U law mat).Kb = 0 ∨ (scaleMat U law mat).Gs = 0 ↔ mat.Kb = 0 ∨ mat.Gs = 0 := by
    simp only [scaleMat, mul_eq_zero_iff' U.stress_pos]
  unfold initStress
  cases P.pressure
  case lithostatic =>
    refine ite_iff hc rfl (congrArg Except.ok ?_)
    have := lithoStress_scale (U := U) P mat.rho y
    simp only [scaleMat] at this ⊢
    rw [this, hookeInv_scale]; rfl
  case nonZero =>
    exact congrArg (fun x => (Except.ok (x, _) : Res (Mat K × Mat K))) (hooke_scale _ _ _)
  case temperature =>
    exact congrArg (fun x => (Except.ok (x, _) : Res (Mat K × Mat K))) (hooke_scale _ _ _)
  case compression =>
    refine ite_iff hc rfl (congrArg Except.ok ?_)
    have : (-(U.stress * P.initial_pressure)) • (1 : Mat K) =
        U.stress • (-P.initial_pressure) • (1 : Mat K) := by rw [smul_smul, mul_neg]
    simp only [scaleMat]
    rw [this, hookeInv_scale]; rfl
  case none => exact congrArg (fun x => (Except.ok (x, _) : Res (Mat K × Mat K))) (smul_zero _).symm

theorem mkParticle_scale (P : Par K) (hf : P.initial_flow = .none) (S0 S0' : First K)
    (ph : Phase K ns) (g x y : K) (phi : Option (Fin ns → K)) :
    mkParticle (scalePar U P) S0' (scalePh U ph) (U.acc * g) (U.L * x) (U.L * y) phi =
      scalePt U ph.law <$> mkParticle P S0 ph g x y phi := by
  unfold mkParticle
  refine res_bind_map (initStress_scale ph.law P ph.par y) fun st _ => ?_
  unfold initFlow
  simp only [hf]
  refine congrArg Except.ok ?_
  have hv : U.L ^ 2 * ph.A * (U.W * P.G.thickness) = U.vol * (ph.A * P.G.thickness) := by
    unfold NewUnits.vol; ring
  have ht : (U.stress • st.1).trace = U.stress * st.1.trace := trace_scale _ _
  have hp : U.stress * st.1.trace / 3 = U.stress * (st.1.trace / 3) := mul_div_assoc _ _ _
  simp only [scalePt, scalePh, Prod.map, hv, ht, hp, Particle.mk.injEq, true_and, mul_zero, smul_zero, id]
  refine ⟨rfl, ?_, ?_, ?_, ?_, ?_, rfl, rfl, congrArg XF.fin (mul_zero _).symm⟩
  · funext k; fin_cases k <;> simp
  · change (if ph.hasIv = true then VRef.shared else VRef.own 0) = _
    split_ifs
    · rfl
    · exact congrArg VRef.own (smul_zero _).symm
  · simp only [scaleMat]
    rw [← NewUnits.vol_dens]; ring
  · funext k; fin_cases k <;> simp [bodyForce, mul_assoc]
  · rw [mul_smul, ← smul_sub]

theorem appendPoint_scale (P : Par K) (hf : P.initial_flow = .none) (S0 S0' : First K) (g x y : K)
    (a : PhaseSt K ns) : appendPoint (scalePar U P) S0' (U.acc * g) (U.L * x) (U.L * y) (scalePhSt U a) =
      scalePhSt U <$> appendPoint P S0 g x y a := by
  refine res_bind_map (mkParticle_scale P hf S0 S0' a.ph g x y none) fun mp _ => ?_
  refine congrArg Except.ok ?_
  unfold scalePhSt
  simp only [List.map_append, List.map_cons, List.map_nil]
  rfl

theorem inletDue_scale (d : Dyn K) (rate : K) :
    inletDue (scaleDyn U d) (U.T * rate) = id <$> inletDue d rate := by
  have hm : pyMod (U.T * d.t) (U.T * rate) = U.T * pyMod d.t rate := by
    unfold pyMod
    rw [mul_div_mul_left _ _ U.T_ne]; ring
  unfold inletDue
  refine ite_iff (mul_eq_zero_iff' U.T_pos _) rfl (congrArg Except.ok ?_)
  change (decide (pyMod (U.T * d.t) (U.T * rate) < U.T * d.dt) && decide (U.T * d.t ≠ 0)) = _
  rw [hm]
  simp only [mul_lt_mul_iff_right₀ U.T_pos, ne_eq, mul_eq_zero_iff' U.T_pos]
  rfl

theorem inletRight_scale (P : Par K) (hf : P.initial_flow = .none) (d : Dyn K)
    (L : List (PhaseSt K ns)) :
    inletRight (scalePar U P) (scaleDyn U d) (sc U L) = sc U <$> inletRight P d L := by
  unfold inletRight
  refine mapPhases_equiv (φ := scalePhSt U) (fun _ x => ?_) 0 L
  refine res_bind_map (inletDue_scale d x.ph.inlet_rate) fun due hdue => ite_equiv ?_ rfl
  clear hdue
  change List.foldlM _ _ (x.ph.yp.map (U.L * ·)) = _
  generalize x.ph.yp = l
  induction l generalizing x with
  | nil => rfl
  | cons y l ih =>
    rw [List.map_cons, List.foldlM_cons, List.foldlM_cons]
    refine res_bind_map ?_ fun x' _ => ih x'
    change appendPoint _ _ (U.acc * d.g) (U.L * P.G.x_M - U.L * x.ph.gap 0) (U.L * y) _ = _
    rw [← mul_sub]
    exact appendPoint_scale P hf _ _ _ _ _ _

theorem inletTop_scale (P : Par K) (hf : P.initial_flow = .none) (d : Dyn K)
    (L : List (PhaseSt K ns)) :
    inletTop (scalePar U P) (scaleDyn U d) (sc U L) = sc U <$> inletTop P d L := by
  unfold inletTop
  refine mapPhases_equiv (φ := scalePhSt U) (fun _ x => ?_) 0 L
  refine res_bind_map (inletDue_scale d x.ph.inlet_rate) fun due _ => ite_equiv ?_ rfl
  change appendPoint _ _ (U.acc * d.g) ((U.L * P.G.x_M - U.L * P.G.x_m) / 2)
    (U.L * P.G.y_M - U.L * x.ph.gap 1) _ = _
  rw [← mul_sub, ← mul_sub, mul_div_assoc]
  exact appendPoint_scale P hf _ _ _ _ _ _

theorem wrapX_scale (P : GP K) (x : K) : wrapX (scaleGP U P) (U.L * x) = U.L * wrapX P x := by
  unfold wrapX
  simp only [mul_lt_mul_iff_right₀ U.L_pos, ← mul_sub, ← mul_add, ← mul_ite]

theorem cyclic_scale (P : GP K) (L : List (PhaseSt K ns)) :
    cyclicLR (scaleGP U P) (sc U L) = sc U <$> cyclicLR P L := by
  refine mapPoints_scale (fun _ ph mp => congrArg Except.ok ?_) L
  simp only [scalePt, Particle.mk.injEq, true_and, and_true, Pi.smul_apply, smul_eq_mul, wrapX_scale]
  funext k
  by_cases hk : k = 0
  · subst hk; simp
  · simp [Function.update_of_ne hk]

/-! ## Fractions are not touched -/

theorem mapN_from {α : Type} {f : α → Res α} {n : ℕ} {l l' : List α} (h : mapN f n l = .ok l') :
    ∀ b ∈ l', ∃ a ∈ l, b = a ∨ f a = .ok b := by
  induction l generalizing n l' with
  | nil =>
    cases n with
    | zero => cases h; simp
    | succ n => cases h
  | cons a l ih =>
    cases n with
    | zero => cases h; exact fun b hb => ⟨b, hb, .inl rfl⟩
    | succ n =>
      obtain ⟨a', ha, h⟩ := res_bind_ok.1 h
      obtain ⟨r, hr, h⟩ := res_bind_ok.1 h
      cases h
      intro b hb
      rcases List.mem_cons.1 hb with rfl | hb
      · exact ⟨a, by simp, .inr ha⟩
      · obtain ⟨c, hc, h⟩ := ih hr b hb
        exact ⟨c, by simp [hc], h⟩

theorem mapPhases_from {f : ℕ → PhaseSt K ns → Res (PhaseSt K ns)} {p : ℕ}
    {L L' : List (PhaseSt K ns)} (h : mapPhases f p L = .ok L') :
    ∀ b ∈ L', ∃ p, ∃ a ∈ L, f p a = .ok b := by
  induction L generalizing p L' with
  | nil => cases h; simp
  | cons a L ih =>
    obtain ⟨a', ha, h⟩ := res_bind_ok.1 h
    obtain ⟨r, hr, h⟩ := res_bind_ok.1 h
    cases h
    intro b hb
    rcases List.mem_cons.1 hb with rfl | hb
    · exact ⟨p, a, by simp, ha⟩
    · obtain ⟨q, c, hc, h⟩ := ih hr b hb
      exact ⟨q, c, by simp [hc], h⟩

theorem mapPoints_consistent {f : ℕ → Phase K ns → Particle K ns → Res (Particle K ns)}
    (hf : ∀ p ph a b, f p ph a = .ok b → b.phi = a.phi) {L L' : List (PhaseSt K ns)} {ops : Ops K}
    {s : Fin ns → K}
    (h : mapPoints f L = .ok L') (hL : ∀ a ∈ L, Consistent ops s a) : ∀ a ∈ L', Consistent ops s a := by
  intro b hb
  obtain ⟨p, a, ha, h⟩ := mapPhases_from h b hb
  obtain ⟨l, hl, h⟩ := res_bind_ok.1 h
  cases h
  obtain ⟨h1, h2, h3⟩ := hL a ha
  refine ⟨h1, h2, fun mp hmp => ?_⟩
  obtain ⟨c, hc, rfl | h⟩ := mapN_from hl mp hmp
  · exact h3 _ hc
  · rw [hf _ _ _ _ h]; exact h3 _ hc

theorem gravity_phi (P : Par K) (g : K) (p : ℕ) (a : Particle K ns) :
    (a.incrementGravity P g p).phi = a.phi := by
  unfold Particle.incrementGravity; split <;> rfl

theorem reference_phi {P : GP K} {dx dy : K} {a b : Particle K ns}
    (h : a.getReferenceNode P dx dy = .ok b) : b.phi = a.phi := by
  unfold Particle.getReferenceNode at h
  split at h
  · cases h
  · cases h; rfl

theorem basis_phi {G : Grid K N ns} {a b : Particle K ns} (h : a.getBasisFunctions G = .ok b) :
    b.phi = a.phi := by
  obtain ⟨n, -, h⟩ := res_bind_ok.1 h
  split at h
  · cases h
  · cases h; rfl

theorem step_consistent {P : Par K} (hs : P.segregate_grid = false) {interp : Interp K P.G.N}
    {s s' : St P} (hn : Counted s.L) (hL : ∀ a ∈ s.L, Consistent P.ops P.G.s a)
    (h : timeMarch P interp s = .ok s') : ∀ a ∈ s'.L, Consistent P.ops P.G.s a := by
  obtain ⟨T, _, _, s3, _, _, _, _, _, _, hR⟩ := timeMarch_points hn h
  intro B hB
  obtain ⟨i, hi⟩ := List.getElem?_of_mem hB
  obtain ⟨A, hA, hsame, -, hpts⟩ := hR.left hi
  obtain ⟨h1, h2, h3⟩ := hL A (List.mem_of_getElem? hA)
  obtain ⟨e1, e2, -, -, e3⟩ := hsame.fields
  refine ⟨e1 ▸ h1, by rw [e1, e2, e3]; exact h2, fun b hb => ?_⟩
  rw [e1, e2]
  rcases hpts b hb with ⟨a, ha, a2, a3, a4, a5, a6, k1, k2, ⟨_, _, k3⟩, hseg, hmv, rfl⟩ | ⟨-, hf⟩
  · have e : (wrapped P a6).phi = a.phi := by
      rw [wrapped_phi, hmv.phi]
      rcases hseg with ⟨-, rfl⟩ | ⟨h0, -⟩
      · rw [(stressStrain_frame k3).1.phi, basis_phi k2, reference_phi k1, gravity_phi]
      · rw [hs] at h0; cases h0
    rw [e]; exact h3 a ha
  · obtain ⟨S0, ph', x, y, mp, hsame, hmk, rfl⟩ := hf
    rw [wrapped_phi]
    unfold mkParticle at hmk
    obtain ⟨_, _, hmk⟩ := res_bind_ok.1 hmk
    obtain ⟨_, _, hmk⟩ := res_bind_ok.1 hmk
    cases hmk
    simp only []
    rw [hsame.fields.2.2.2.2]
    exact h2

/-! ## A step -/

/-- The state without the nodal shear rate that `calculate_gammadot` computes last. -/
def Spec.hideRate {P : Par K} (s : St P) : St P :=
  { s with G := { s.G with vis := Function.update s.G.vis .gammadot fun _ => .fin 0 } }

theorem counted_mapPoints {f : ℕ → Phase K ns → Particle K ns → Res (Particle K ns)}
    {L L' : List (PhaseSt K ns)} (hL : Counted L) (h : mapPoints f L = .ok L') : Counted L' :=
  (mapPoints_rel (R := fun _ _ _ => True) (fun _ _ _ _ _ => trivial) hL h).counted hL

theorem dyn_scale (P : Par K) (d : Dyn K) :
    (scaleDyn U d).updateForces (scalePar U P) = scaleDyn U (d.updateForces P) := by
  have h : U.T * d.t / U.T = d.t := mul_div_cancel_left₀ _ U.T_ne
  unfold Dyn.updateForces
  simp only [scaleDyn, h]

theorem gridPhase_scale (P : Par K) (hs : P.segregate_grid = false)
    (hc : P.check_positions = false) (s : St P) (hn : Counted s.L)
    (hL : ∀ a ∈ s.L, Consistent P.ops P.G.s a) :
    gridPhase (scalePar U P) (scaleSt U s) = scaleSt U <$> gridPhase P s := by
  unfold gridPhase
  have hd := dyn_scale (U := U) P s.dyn
  have hw : (scaleGrid U s.G).wipe = scaleGrid U s.G.wipe := wipe_scale _
  dsimp only
  rw [hd, hw]
  generalize s.dyn.updateForces P = d
  simp only [hc]
  refine res_bind_map (updateForces_scale P d.g s.L) fun L1 h1 => ?_
  refine res_bind_map (referenceNodes_scale P.G s.G.wipe L1) fun L2 h2 => ?_
  refine res_bind_map (basisFunctions_scale s.G.wipe L2) fun L3 h3 => ?_
  have n1 := counted_mapPoints hn h1
  have n2 := counted_mapPoints n1 h2
  have n3 := counted_mapPoints n2 h3
  have c1 := mapPoints_consistent (fun p _ a b h => by cases h; exact gravity_phi _ _ _ _) h1 hL
  have c2 := mapPoints_consistent (fun p _ a b h => reference_phi h) h2 c1
  have c3 := mapPoints_consistent (fun p _ a b h => basis_phi h) h3 c2
  refine res_bind_map (whenSet_moved (φ := sc U) L3 fun h => by cases h) fun L4 h4 => ?_
  cases h4
  refine res_bind_map (nodalMass_scale P hs P.G.s _ L3 s.G.wipe) fun G _ => ?_
  have hG : (if P.B.cyclic_lr = true then (scaleGrid U G).makeCyclicMQ (nx := P.G.nx)
      (ny := P.G.ny) else scaleGrid U G)
      = scaleGrid U (if P.B.cyclic_lr = true then G.makeCyclicMQ (nx := P.G.nx)
        (ny := P.G.ny) else G) := by
    cases P.B.cyclic_lr
    · rfl
    · exact cyclicMQ_scale _
  rw [hG]
  refine res_bind_map (stressStrainAll_scale (nx := P.G.nx) (ny := P.G.ny) P d P.G.s L3 n3 c3 _)
    fun r _ => ?_
  exact res_bind_map (forces_scale (nx := P.G.nx) (ny := P.G.ny) P r.1 r.2) fun _ _ => rfl

theorem pointsPhase_scale (P : Par K) (s : St P)
    (hf : P.B.inlet_right = true ∨ P.B.inlet_top = true → P.initial_flow = .none) :
    pointsPhase (scalePar U P) (scaleSt U s) = scaleSt U <$> pointsPhase P s := by
  unfold pointsPhase
  refine res_bind_map (movePoints_scale P.G.nx P.M_tol s.dyn.dt P.intruder_v s.G s.L) fun L _ => ?_
  refine res_bind_map (whenSet_moved (φ := sc U) L fun _ => outletLeft_scale P.G L) fun L _ => ?_
  refine res_bind_map (whenSet_moved (φ := sc U) L fun _ => outletBottom_scale P.G L) fun L _ => ?_
  refine res_bind_map (whenSet_moved (φ := sc U) L fun h =>
    inletRight_scale P (hf (.inl h)) s.dyn L) fun L _ => ?_
  refine res_bind_map (whenSet_moved (φ := sc U) L fun h =>
    inletTop_scale P (hf (.inr h)) s.dyn L) fun L _ => ?_
  exact res_bind_map (whenSet_moved (φ := sc U) L fun _ => cyclic_scale P.G L) fun _ _ => rfl

theorem pointsPhase_hide (P : Par K) (s : St P) :
    pointsPhase P (hideRate s) = hideRate <$> pointsPhase P s := by
  unfold pointsPhase
  refine res_bind_id fun L => res_bind_id fun L => res_bind_id fun L => res_bind_id fun L =>
    res_bind_id fun L => res_bind_id fun L => rfl

theorem rho0_scale (L : List (PhaseSt K ns)) :
    ((mat0 (sc U L)).map (·.rho)).getD 0 = U.dens * ((mat0 L).map (·.rho)).getD 0 := by
  cases L with
  | nil => exact (mul_zero _).symm
  | cons a L => rfl

theorem hideRate_scale {P : Par K} (s : St P) :
    (hideRate (scaleSt U s) : St (scalePar U P)) = scaleSt U (hideRate s) := by
  have h : Function.update (scaleVisF U s.G.vis) .gammadot (fun _ => .fin 0) =
      scaleVisF U (Function.update s.G.vis .gammadot fun _ => .fin 0) := by
    funext v n
    by_cases hv : v = .gammadot
    · subst hv
      rw [scaleVisF_apply, Function.update_self, Function.update_self]
      exact congrArg XF.fin (mul_zero _).symm
    · rw [scaleVisF_apply, Function.update_of_ne hv, Function.update_of_ne hv, scaleVisF_apply]
  unfold hideRate
  simp only [scaleGrid, h]
  rfl

theorem hideRate_calc {P : Par K} (interp : Interp K P.G.N) (big tol : K) (d : Dyn K)
    (L : List (PhaseSt K P.G.ns)) (G : Grid K P.G.N P.G.ns) :
    hideRate (St.mk d L (G.calcGammadot (nx := P.G.nx) (ny := P.G.ny) interp big tol) : St P) =
      hideRate (St.mk d L G) := by
  unfold hideRate Grid.calcGammadot
  simp only [Function.update_idem]

theorem momentumPhase_scale (P : Par K) (interp : Interp K P.G.N)
    (interp' : Interp K (scalePar U P).G.N) (s : St P) :
    hideRate <$> momentumPhase (scalePar U P) interp' (scaleSt U s) =
      (scaleSt U ∘ hideRate) <$> momentumPhase P interp s := by
  have hB : (scaleSt U s).G.BCs (nx := P.G.nx) (ny := P.G.ny) P.B (scaleSt U s).dyn.q_v
      (scaleSt U s).dyn.q_h (((mat0 (scaleSt U s).L).map (·.rho)).getD 0)
      (P.aniso && decide ((scaleSt U s).dyn.t = 0)) = scaleGrid U <$> s.G.BCs (nx := P.G.nx)
      (ny := P.G.ny) P.B s.dyn.q_v s.dyn.q_h (((mat0 s.L).map (·.rho)).getD 0)
      (P.aniso && decide (s.dyn.t = 0)) := by
    have ht : decide ((scaleSt U s).dyn.t = 0) = decide (s.dyn.t = 0) :=
      decide_eq_decide.2 (mul_eq_zero_iff' U.T_pos _)
    have hr : ((mat0 (scaleSt U s).L).map (·.rho)).getD 0 = _ := rho0_scale (U := U) s.L
    rw [ht, hr]
    exact BCs_scale _ _ _ _ _ _
  unfold momentumPhase
  cases hb : s.G.BCs (nx := P.G.nx) (ny := P.G.ny) P.B s.dyn.q_v s.dyn.q_h
      (((mat0 s.L).map (·.rho)).getD 0) (P.aniso && decide (s.dyn.t = 0)) with
  | error e =>
    rw [hb] at hB
    erw [hB]
    rfl
  | ok G =>
    rw [hb] at hB
    erw [hB]
    have hm := momentum_scale (U := U) (nx := P.G.nx) (ny := P.G.ny) P.B P.damping s.dyn.dt P.v_0 G
    refine congrArg Except.ok ((hideRate_calc (P := scalePar U P) interp' _ _ _ _ _).trans ?_)
    refine Eq.trans ?_ (congrArg (scaleSt U) (hideRate_calc interp _ _ s.dyn s.L _).symm)
    rw [← hideRate_scale]
    exact congrArg (fun G => hideRate (St.mk (scaleDyn U s.dyn) (sc U s.L) G : St (scalePar U P))) hm

end
end Mpm

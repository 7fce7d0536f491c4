import Verif.Props.Laws
import Verif.Props.Work

/-!
# C121: which fluids dissipate

The power of the stress a fluid law aims at, on the strain increment of the step.  The volumetric
viscous stress has the sign of a negative viscosity.
-/

set_option linter.unusedSectionVars false

namespace Mpm
open Spec

namespace Spec
variable {K : Type} [Field K] [LinearOrder K]

/-- Square of a matrix, `A : A`. -/
def square (A : Mat K) : K := contract A A

/-- Power (times `dt`) of viscous stresses with shear viscosity `eta/2` and bulk viscosity `zeta`. -/
def viscousWork (eta zeta dt : K) (de : Mat K) : K :=
  dt * (eta * square (deviator (rate dt de)) + zeta * (rate dt de).trace ^ 2)

/-- A strain increment in the plane. -/
def PlaneStrain (A : Mat K) : Prop := ∀ i, A i 2 = 0 ∧ A 2 i = 0

end Spec

section
variable {K : Type} [Field K] [LinearOrder K] [IsStrictOrderedRing K] [FloorRing K] {ns : ℕ}

theorem contract_frob (A B : Mat K) : contract A B = frob A B := rfl

theorem square_nonneg (A : Mat K) : 0 ≤ square A := frob_self_nonneg A

theorem frob_deviator (A : Mat K) : frob (deviator A) A = square (deviator A) := by
  unfold square
  rw [contract_frob, deviator_eq]
  have ht := trace_sub_third A
  generalize hD : A - (A.trace / 3) • (1 : Mat K) = D at *
  have : A = D + (A.trace / 3) • (1 : Mat K) := by rw [← hD]; abel
  conv_lhs => rw [this]
  rw [frob_comm, frob_add, frob_smul, frob_one, ht, mul_zero, add_zero]

/-- Work of an isotropic plus a viscous stress. -/
theorem work_split {dt : K} (hdt : dt ≠ 0) (p e z : K) (A : Mat K) :
    contract ((p + z * (rate dt A).trace) • (1 : Mat K) + e • deviator (rate dt A)) A =
      p * A.trace + viscousWork e z dt A := by
  have e1 : A = dt • rate dt A := by
    ext i j; simp only [rate, Matrix.smul_apply, smul_eq_mul]; field_simp
  have e2 := frob_deviator (rate dt A)
  have e3 : A.trace = dt * (rate dt A).trace := by
    conv_lhs => rw [e1]
    rw [Matrix.trace_smul, smul_eq_mul]
  rw [contract_frob, frob_add, frob_smul, frob_smul, frob_one]
  have e4 : frob (deviator (rate dt A)) A = dt * square (deviator (rate dt A)) := by
    conv_lhs => rw [e1]
    rw [frob_smul_right]
    rw [← e1, e2]
  rw [e4]
  unfold viscousWork
  linear_combination z * (rate dt A).trace * e3

/-- C121.  The viscous law: the pressure does work on the change of volume, the shear stress dissipates,
and the volumetric viscous stress works like one of bulk viscosity `-mu_v/3`. -/
theorem c121_viscous {c : LawCtx K ns} {mp mp' : Particle K ns} {l : List (Vis × XF K)}
    (hdt : c.dt ≠ 0) (h : runLaw .viscous c mp = .ok (mp', l)) :
    contract (mp'.stress + mp'.dstress) mp.dstrain = mp'.pressure * mp.dstrain.trace +
      viscousWork (2 * c.mat.mu_s) (-(c.mat.mu_v / 3)) c.dt mp.dstrain := by
  rw [(c36_newtonian h).2.2, ← work_split hdt]
  congr 3
  ring

/-- C121.  The same for `bingham`, which sets the stress itself. -/
theorem c121_bingham {c : LawCtx K ns} {mu0 : K} (hm : c.mat.mu_0 = .scalar mu0)
    {mp mp' : Particle K ns} {l : List (Vis × XF K)} (hdt : 0 < c.dt) (ho : GoodOps c.ops)
    (h : runLaw .bingham c mp = .ok (mp', l)) :
    contract mp'.stress mp.dstrain = mp'.pressure * mp.dstrain.trace +
      viscousWork (2 * if mnorm c.ops (deviator (rate c.dt mp.dstrain)) ≤ c.mat.gamma_c then mu0
        else c.mat.mu_s + c.mat.tau_0 / mnorm c.ops (deviator (rate c.dt mp.dstrain)))
        (-(c.mat.mu_v / 3)) c.dt mp.dstrain := by
  simp only [runLaw, lawBingham, if_neg hdt.ne', hm, PyNum.num] at h
  obtain ⟨_, e0, h⟩ := res_bind_ok.1 h
  obtain rfl := Except.ok.inj e0
  obtain ⟨dev, hd, h⟩ := res_bind_ok.1 h
  obtain ⟨rfl, rfl⟩ := Prod.mk.inj (Except.ok.inj h)
  clear h
  have eg : mnorm c.ops (deviator (rate c.dt mp.dstrain)) =
      c.ops.sqrt (frob (mp.dstrain - (mp.dstrain.trace / 3) • (1 : Mat K))
        (mp.dstrain - (mp.dstrain.trace / 3) • (1 : Mat K))) / c.dt := by
    rw [rate_dev, mnorm_smul ho, abs_of_pos (one_div_pos.2 hdt)]
    unfold mnorm
    change _ * c.ops.sqrt (frob _ _) = _
    ring
  rw [← eg] at hd
  rw [← work_split hdt.ne']
  have hr : ∀ a : K, (2 * a / c.dt) • (mp.dstrain - (mp.dstrain.trace / 3) • (1 : Mat K)) =
      (2 * a) • deviator (rate c.dt mp.dstrain) := by
    intro a
    rw [rate_dev, smul_smul]; congr 1; ring
  have hdev : dev = (2 * if mnorm c.ops (deviator (rate c.dt mp.dstrain)) ≤ c.mat.gamma_c then mu0
        else c.mat.mu_s + c.mat.tau_0 / mnorm c.ops (deviator (rate c.dt mp.dstrain))) •
      deviator (rate c.dt mp.dstrain) := by
    by_cases hg : mnorm c.ops (deviator (rate c.dt mp.dstrain)) ≤ c.mat.gamma_c
    · simp only [if_pos hg] at hd ⊢
      rw [← hr]; exact (Except.ok.inj hd).symm
    · simp only [if_neg hg] at hd ⊢
      split at hd
      · cases hd
      rw [← hr]; exact (Except.ok.inj hd).symm
  simp only
  rw [← hdev, rate_eq, Matrix.trace_smul, smul_eq_mul]
  congr 1
  rw [show -(c.mat.mu_v / 3) * (1 / c.dt * mp.dstrain.trace) =
      -(c.mat.mu_v * (mp.dstrain.trace / 3) / c.dt) by ring]
  generalize c.mat.mu_v * (mp.dstrain.trace / 3) / c.dt = z
  rw [← sub_eq_add_neg, sub_smul]
  abel

/-- C121.  The same for `ken_kamrin`.  Under downward gravity the shear viscosity is negative, too,
so with `0 ≤ mu_v` all viscous work is negative. -/
theorem c121_ken_kamrin {c : LawCtx K ns} (hg : c.max_g < 0) (hh : 0 < c.height) (hdt : 0 < c.dt)
    {mp mp' : Particle K ns} (hr : 0 < mp.rho) {l : List (Vis × XF K)}
    (h : runLaw .ken_kamrin c mp = .ok (mp', l)) :
    (∃ eta < (0 : K), contract (mp'.stress + mp'.dstress) mp.dstrain =
      mp'.pressure * mp.dstrain.trace +
        viscousWork (2 * eta) (-(c.mat.mu_v / 3)) c.dt mp.dstrain) ∧
    (0 ≤ c.mat.mu_v → contract (mp'.stress + mp'.dstress) mp.dstrain ≤
      mp'.pressure * mp.dstrain.trace) := by
  obtain ⟨⟨eta, he, hd⟩, -⟩ := c41_negative hg hh hdt hr h
  have key : contract (mp'.stress + mp'.dstress) mp.dstrain = mp'.pressure * mp.dstrain.trace +
        viscousWork (2 * eta) (-(c.mat.mu_v / 3)) c.dt mp.dstrain := by
    rw [← work_split hdt.ne', ← hd]
    simp only [runLaw, lawKenKamrin, if_neg hdt.ne'] at h
    obtain ⟨i0, -, h⟩ := res_bind_ok.1 h
    obtain ⟨rfl, rfl⟩ := Prod.mk.inj (Except.ok.inj h)
    clear h
    simp only
    rw [rate_eq, Matrix.trace_smul, smul_eq_mul]
    congr 1
    rw [show -(c.mat.mu_v / 3) * (1 / c.dt * mp.dstrain.trace) =
        -(c.mat.mu_v * (mp.dstrain.trace / 3) / c.dt) by ring]
    generalize c.mat.mu_v * (mp.dstrain.trace / 3) / c.dt = z
    rw [← sub_eq_add_neg, sub_smul]
    abel
  refine ⟨⟨eta, he, key⟩, fun hv => ?_⟩
  rw [key]
  unfold viscousWork
  have h1 : 2 * eta * square (deviator (rate c.dt mp.dstrain)) ≤ 0 :=
    mul_nonpos_of_nonpos_of_nonneg (by linarith) (square_nonneg _)
  have h2 : -(c.mat.mu_v / 3) * (rate c.dt mp.dstrain).trace ^ 2 ≤ 0 :=
    mul_nonpos_of_nonpos_of_nonneg (by linarith) (sq_nonneg _)
  have := mul_nonneg hdt.le (neg_nonneg.2 (add_nonpos h1 h2))
  linarith

/-- In plane strain the deviatoric part is at least a sixth of the squared change of volume. -/
theorem plane_deviator {A : Mat K} (hA : PlaneStrain A) :
    A.trace ^ 2 / 6 ≤ square (deviator A) := by
  have h22 := (hA 2).1
  have e : square (deviator A) = frob A A - A.trace ^ 2 / 3 := by
    rw [← frob_deviator, deviator_eq, frob_sub, frob_smul, frob_one]
    ring
  rw [e]
  unfold frob
  simp only [trace3, Fin.sum_univ_three, (hA 0).1, (hA 1).1, (hA 0).2, (hA 1).2, h22]
  nlinarith [sq_nonneg (A 0 0 - A 1 1), sq_nonneg (A 0 1), sq_nonneg (A 1 0)]

/-- The equal stretch in both directions of the plane. -/
def Spec.stretch (e : K) : Mat K := fun i j => if i = j ∧ i ≠ 2 then e else 0

theorem stretch_plane (e : K) : PlaneStrain (stretch e) := by
  intro i
  unfold stretch
  constructor
  · rw [if_neg]; rintro ⟨rfl, h⟩; exact h rfl
  · rw [if_neg]; rintro ⟨-, h⟩; exact h rfl

theorem stretch_work {dt : K} (hdt : dt ≠ 0) (a z e : K) :
    viscousWork a (-(z / 3)) dt (stretch e) = 2 / 3 * (a - 2 * z) * e ^ 2 / dt := by
  unfold viscousWork
  have e1 : (rate dt (stretch e)).trace = 2 * e / dt := by
    rw [trace3]; simp [rate, stretch]; ring
  have e2 : square (deviator (rate dt (stretch e))) = 2 / 3 * (e / dt) ^ 2 := by
    unfold square contract deviator rate stretch
    simp [Fin.sum_univ_three]
    ring
  rw [e1, e2]
  field_simp
  ring

/-- C121.  In the plane the viscous stresses of the viscous law dissipate in every motion exactly if
the bulk viscosity is at most the shear viscosity. -/
theorem c121_planar {c : LawCtx K ns} (hdt : 0 < c.dt) (hs : 0 ≤ c.mat.mu_s) (mp0 : Particle K ns) :
    (∀ mp mp' l, runLaw .viscous c mp = .ok (mp', l) → PlaneStrain mp.dstrain →
      mp'.pressure * mp.dstrain.trace ≤ contract (mp'.stress + mp'.dstress) mp.dstrain) ↔
    c.mat.mu_v ≤ c.mat.mu_s := by
  constructor
  · intro h
    obtain ⟨⟨mp', l⟩, hr⟩ := c36_runs hdt.ne' { mp0 with dstrain := stretch 1 }
    have h1 := h _ _ _ hr (stretch_plane 1)
    rw [c121_viscous hdt.ne' hr] at h1
    have h2 : (0 : K) ≤ viscousWork (2 * c.mat.mu_s) (-(c.mat.mu_v / 3)) c.dt (stretch 1) := by
      linarith
    rw [stretch_work hdt.ne'] at h2
    by_contra hn
    have : 2 / 3 * (2 * c.mat.mu_s - 2 * c.mat.mu_v) * 1 ^ 2 / c.dt < 0 :=
      div_neg_of_neg_of_pos (by nlinarith) hdt
    linarith
  · intro hv mp mp' l h hp
    rw [c121_viscous hdt.ne' h]
    have hp' : PlaneStrain (rate c.dt mp.dstrain) := fun i => by
      unfold rate; rw [(hp i).1, (hp i).2, zero_div]; exact ⟨rfl, rfl⟩
    have h1 := plane_deviator hp'
    have h2 : 0 ≤ viscousWork (2 * c.mat.mu_s) (-(c.mat.mu_v / 3)) c.dt mp.dstrain := by
      unfold viscousWork
      refine mul_nonneg hdt.le ?_
      have h3 := mul_le_mul_of_nonneg_left h1 (by linarith : 0 ≤ 2 * c.mat.mu_s)
      have h4 := mul_nonneg (sub_nonneg.2 hv) (sq_nonneg (rate c.dt mp.dstrain).trace)
      nlinarith
    linarith

/-- C121.  Parameters of `inputs/pierre.py`: `mu_v = mu_0` and `gamma_c = tau_0/(mu_0 - mu_s)`.  A
point stretched alike in both directions, faster than the yield rate, does negative viscous work. -/
theorem c121_pierre {c : LawCtx K ns} {mu0 : K} (hm : c.mat.mu_0 = .scalar mu0)
    (hv : c.mat.mu_v = mu0) (hs : c.mat.mu_s < mu0) (ht : 0 < c.mat.tau_0)
    (hc : c.mat.gamma_c = c.mat.tau_0 / (mu0 - c.mat.mu_s))
    {mp mp' : Particle K ns} {l : List (Vis × XF K)} (hdt : 0 < c.dt) (ho : GoodOps c.ops)
    {e : K} (he : mp.dstrain = stretch e)
    (hf : c.mat.gamma_c < mnorm c.ops (deviator (rate c.dt mp.dstrain)))
    (h : runLaw .bingham c mp = .ok (mp', l)) :
    contract mp'.stress mp.dstrain < mp'.pressure * mp.dstrain.trace := by
  have key := c121_bingham hm hdt ho h
  rw [if_neg (not_le.2 hf), hv] at key
  rw [key, he, stretch_work hdt.ne', ← he]
  have hgc : 0 < c.mat.gamma_c := by rw [hc]; exact div_pos ht (by linarith)
  have hlt : c.mat.tau_0 / mnorm c.ops (deviator (rate c.dt mp.dstrain)) < mu0 - c.mat.mu_s := by
    rw [div_lt_iff₀ (hgc.trans hf)]
    rw [hc, div_lt_iff₀ (by linarith)] at hf
    linarith
  have he0 : e ≠ 0 := by
    rintro rfl
    have : deviator (rate c.dt mp.dstrain) = 0 := by
      rw [he]; ext i j; simp [deviator, rate, stretch]
    rw [this, mnorm_zero ho] at hf
    linarith
  have : 2 / 3 * (2 * (c.mat.mu_s + c.mat.tau_0 / mnorm c.ops (deviator (rate c.dt mp.dstrain))) -
      2 * mu0) * e ^ 2 / c.dt < 0 := by
    refine div_neg_of_neg_of_pos (mul_neg_of_neg_of_pos ?_ (by positivity)) hdt
    linarith
  linarith

/-- C121.  The granular laws dissipate, given non-negative parameters. -/
theorem c121_pouliquen {c : LawCtx K ns} (ho : GoodOps c.ops) {l1 l2 l3 : List K}
    (ha : HasArrays ns c.mat l1 l2 l3) (hdt : 0 < c.dt) {mp : Particle K ns}
    (hn : NonNegMix c.mat c.s mp.phi l1 l2 l3) {mp' : Particle K ns} {l : List (Vis × XF K)}
    (h : runLaw .pouliquen c mp = .ok (mp', l)) :
    ∃ eta, 0 ≤ eta ∧ eta ≤ c.mat.eta_max ∧ contract (mp'.stress + mp'.dstress) mp.dstrain =
      mp'.pressure * mp.dstrain.trace + viscousWork eta 0 c.dt mp.dstrain := by
  obtain ⟨⟨eta, h0, h1, hd⟩, -⟩ := c38_friction ho ha hdt hn h
  refine ⟨eta, h0, h1, ?_⟩
  obtain ⟨r, hr, -, -, -, -, hs, -, ht⟩ := pouliquen_form hdt.ne' (ha.means mp.phi)
  rw [hr, Except.ok.injEq] at h
  subst h
  rw [← work_split hdt.ne', zero_mul, add_zero, ← hd, ht, hs, add_sub_cancel]

/-- C121.  Likewise `linear_mu`, away from zero pressure. -/
theorem c121_linear_mu {c : LawCtx K ns} (ho : GoodOps c.ops) {mu0 : K}
    (hm : c.mat.mu_0 = .scalar mu0) (h0 : 0 < mu0) (hdt : 0 < c.dt) (hrs : 0 ≤ c.mat.rho_s)
    (hb : 0 ≤ c.mat.b) (he : 0 ≤ c.mat.eta_max) {mp mp' : Particle K ns} {l : List (Vis × XF K)}
    (hsz : 0 ≤ ∑ i, mp.phi i * c.s i) (hp : mp.pressure ≠ 0)
    (h : runLaw .linear_mu c mp = .ok (mp', l)) :
    ∃ eta, 0 ≤ eta ∧ eta ≤ c.mat.eta_max ∧ contract (mp'.stress + mp'.dstress) mp.dstrain =
      mp'.pressure * mp.dstrain.trace + viscousWork eta 0 c.dt mp.dstrain := by
  obtain ⟨r, hr, hs, -, ht, eta, h1, h2, hd⟩ := c40_capped ho hm h0 hdt hrs hp
  rw [hr, Except.ok.injEq] at h
  subst h
  refine ⟨eta, h2 hb hsz he, h1, ?_⟩
  rw [← work_split hdt.ne', zero_mul, add_zero, ← hd, ht]

/-- C121.  Likewise `ken_simple`, which has no stress at all below the density 2500. -/
theorem c121_ken_simple {c : LawCtx K ns} (ho : GoodOps c.ops) {mu0 : K}
    (hm : c.mat.mu_0 = .scalar mu0) (h0 : 0 ≤ mu0) (hdt : 0 < c.dt) (he : 0 ≤ c.mat.eta_max)
    {mp mp' : Particle K ns} {l : List (Vis × XF K)} (hg : 0 ≤ mp.gammadot)
    (h : runLaw .ken_simple c mp = .ok (mp', l)) :
    (2500 < mp.rho → ∃ eta, 0 ≤ eta ∧ eta ≤ c.mat.eta_max ∧
      contract (mp'.stress + mp'.dstress) mp.dstrain =
        mp'.pressure * mp.dstrain.trace + viscousWork eta 0 c.dt mp.dstrain) ∧
    (mp.rho ≤ 2500 → contract (mp'.stress + mp'.dstress) mp.dstrain = 0) := by
  obtain ⟨mu_0, e0, -, -, -, hs, -, -, e3, e4⟩ := kenSimple_ok h
  rw [hm] at e0
  cases e0
  have h2 : 0 < c.ops.sqrt 2 := ho.sqrt_pos two_pos
  have hX : XF.NonNeg (etaOf c.ops (.fin mu0) mp.pressure mp.gammadot) :=
    (((XF.NonNeg.fin_iff.2 (by positivity)).mul (XF.NonNeg.fin_iff.2 h0)).mul
      (XF.NonNeg.fin_iff.2 (abs_nonneg _))).div (XF.NonNeg.fin_iff.2 hg)
  refine ⟨fun hr => ⟨_, le_min (hX.nanToNum ho.big_pos.le) he, min_le_right _ _, ?_⟩, fun hr => ?_⟩
  · rw [← work_split hdt.ne', zero_mul, add_zero, hs, e4, if_pos hr, add_sub_cancel, e3, rate_dev,
      smul_smul]
    congr 4
    ring
  · rw [hs, e4, if_neg (not_lt.2 hr), add_neg_cancel]
    simp [contract]

/-! ## A step -/

variable {P : Par K}

/-- What the first half of a step does to the points: a law on the strain increment of the step, then
the stress update. -/
theorem gridPhase_law {s : St P} (T : GridPhase P s) (hL : Counted s.L) :
    PtsRel (fun ph a b => ∃ c m m' l, runLaw ph.law c m = .ok (m', l) ∧ b = m'.applyStress c.dt ∧
      c.mat = ph.par ∧ c.dt = s.dyn.dt ∧ m.stress = a.stress ∧ m.pressure = a.pressure) s.L T.Ld := by
  have r1 := updateForces_rel hL T.ha
  have c1 := r1.counted hL
  obtain ⟨r2, c2, c3⟩ := locate_all c1 T.hb T.hc
  have r3 := (updateStressStrain_idx c3 T.hLd).rel
  refine ((r1.comp r2).comp r3).mono ?_
  rintro ph a d ⟨c, ⟨b, ⟨h1, -⟩, h2⟩, p, vis, vis', h3⟩
  obtain ⟨m, m', l, e1, e2, -, rfl⟩ := stressStrain_ok h3
  have e3 := h2.eq
  refine ⟨_, m, m', l, e2, rfl, rfl, ?_, ?_, ?_⟩
  · change T.d.dt = _
    rw [T.hd]; rfl
  · obtain ⟨nd, -, rfl⟩ := updateStrain_ok e1
    change c.stress = _
    rw [e3, h1]
  · obtain ⟨nd, -, rfl⟩ := updateStrain_ok e1
    change c.pressure = _
    rw [e3, h1]

/-- The work per volume of a stress-free point of the viscous law. -/
theorem viscous_first {c : LawCtx K ns} {m m' : Particle K ns} {l : List (Vis × XF K)}
    (hdt : c.dt ≠ 0) (h : runLaw .viscous c m = .ok (m', l)) (hs : m.stress = 0)
    (hp : m.pressure = 0) :
    contract (m'.applyStress c.dt).stress (m'.applyStress c.dt).dstrain =
      c.mat.Kb / 3 * m'.dstrain.trace ^ 2 +
        viscousWork (2 * c.mat.mu_s) (-(c.mat.mu_v / 3)) c.dt m'.dstrain := by
  have e1 := c121_viscous hdt h
  have e2 := (c36_newtonian h).2.1
  have e3 : m'.dstrain = m.dstrain := (runLaw_frame h).2.2.1
  have e4 : m'.stress = m.stress := by
    simp only [runLaw, lawViscous, if_neg hdt] at h
    cases h; rfl
  have e5 : (m'.applyStress c.dt).stress = m'.stress + m'.dstress := by
    unfold Particle.applyStress
    simp only
    rw [e4, hs, Matrix.mul_zero, Matrix.zero_mul, add_zero, smul_zero, sub_zero]
  rw [e5]
  change contract _ m'.dstrain = _
  rw [e3, e1, e2, hp]
  ring

/-- C121.  The first step of a stress-free body of viscous material: the kinetic energy of the nodes
changes by the work of the external forces, minus what is stored by the compressibility and what
the shear viscosity dissipates, plus what the volumetric viscosity supplies, plus the error of the
explicit step. -/
theorem c121_step {s s1 s2 : St P} (hcy : P.B.cyclic_lr = false) (hc : P.B.conveyor = false)
    (hr : P.B.roughness = false ∨ P.B.wall_mu = 0) {interp : Interp K P.G.N} (hL : Counted s.L)
    (h0 : ∀ mp ∈ points s.L, mp.stress = 0 ∧ mp.pressure = 0 ∧ mp.strain.IsSymm ∧
      mp.dev_stress.IsSymm ∧ mp.dstress.IsSymm) {M : Mat0 K}
    (hlaw : ∀ A ∈ s.L, A.ph.law = .viscous ∧ A.ph.par = M) (hdt : s.dyn.dt ≠ 0)
    (h1 : gridPhase P s = .ok s1) (h2 : momentumPhase P interp s1 = .ok s2) :
    movingEnergy P.M_tol s2.G - movingEnergy P.M_tol s1.G =
      dampFactor (K := K) P.damping * (s.dyn.dt * nodalPower P.M_tol s1.G s2.G.fe -
        ((points s1.L).map fun mp => mp.V * (M.Kb / 3 * mp.dstrain.trace ^ 2 +
          viscousWork (2 * M.mu_s) (-(M.mu_v / 3)) s.dyn.dt mp.dstrain)).sum) +
      s.dyn.dt ^ 2 / 2 * accelSum P.M_tol s2.G := by
  rw [(c110_balance hcy hc hr hL (fun mp hmp => by
    obtain ⟨e, -, h⟩ := h0 mp hmp
    exact ⟨by rw [e]; exact Matrix.isSymm_zero, h⟩) h1 h2).1]
  congr 4
  obtain ⟨T, rfl⟩ := gridPhase_ok h1
  refine List.map_congr_left fun b hb => ?_
  congr 1
  obtain ⟨B, hB, hbB⟩ := List.mem_flatMap.1 hb
  obtain ⟨A, hA, -, hAB⟩ := forall₂_right (gridPhase_law T hL) hB
  obtain ⟨a, ha, c, m, m', l, k1, rfl, k3, k4, k5, k6⟩ := forall₂_right hAB hbB
  obtain ⟨q1, q2⟩ := hlaw A hA
  obtain ⟨z1, z2, -⟩ := h0 a (List.mem_flatMap.2 ⟨A, hA, ha⟩)
  rw [q1] at k1
  rw [viscous_first (by rw [k4]; exact hdt) k1 (k5.trans z1) (k6.trans z2), k3, q2, k4]
  rfl

/-- C121.  Without shear viscosity and with `K dt ≤ mu_v` the first step adds to the kinetic energy
at least the work of the external forces, and more if the bulk viscosity exceeds `K dt` and any point
changes its volume. -/
theorem c121_growth {s s1 s2 : St P} (hcy : P.B.cyclic_lr = false) (hc : P.B.conveyor = false)
    (hr : P.B.roughness = false ∨ P.B.wall_mu = 0) {interp : Interp K P.G.N} (hL : Counted s.L)
    (h0 : ∀ mp ∈ points s.L, mp.stress = 0 ∧ mp.pressure = 0 ∧ mp.strain.IsSymm ∧
      mp.dev_stress.IsSymm ∧ mp.dstress.IsSymm) {M : Mat0 K}
    (hlaw : ∀ A ∈ s.L, A.ph.law = .viscous ∧ A.ph.par = M) (hdt : 0 < s.dyn.dt)
    (hV : ∀ mp ∈ points s.L, 0 < mp.V) (hs : M.mu_s = 0) (hv : M.Kb * s.dyn.dt ≤ M.mu_v)
    (h1 : gridPhase P s = .ok s1) (h2 : momentumPhase P interp s1 = .ok s2) :
    dampFactor (K := K) P.damping * (s.dyn.dt * nodalPower P.M_tol s1.G s2.G.fe) ≤
      movingEnergy P.M_tol s2.G - movingEnergy P.M_tol s1.G ∧
    (M.Kb * s.dyn.dt < M.mu_v → (∃ mp ∈ points s1.L, mp.dstrain.trace ≠ 0) →
      dampFactor (K := K) P.damping * (s.dyn.dt * nodalPower P.M_tol s1.G s2.G.fe) <
        movingEnergy P.M_tol s2.G - movingEnergy P.M_tol s1.G) := by
  have key := c121_step hcy hc hr hL h0 hlaw hdt.ne' h1 h2
  have hacc := (c110_balance hcy hc hr hL (fun mp hmp => by
    obtain ⟨e, -, h⟩ := h0 mp hmp
    exact ⟨by rw [e]; exact Matrix.isSymm_zero, h⟩) h1 h2).2
  have hdamp : 0 < dampFactor (K := K) P.damping := by
    unfold dampFactor; split <;> norm_num
  have hV1 : ∀ mp ∈ points s1.L, 0 < mp.V := by
    intro b hb
    obtain ⟨T, rfl⟩ := gridPhase_ok h1
    obtain ⟨a, ha, ph, -, -, e, -⟩ := forall₂_right (T.rel hL).1.points hb
    rw [e]; exact hV a ha
  have e : ∀ A : Mat K, M.Kb / 3 * A.trace ^ 2 +
      viscousWork (2 * M.mu_s) (-(M.mu_v / 3)) s.dyn.dt A =
        -((M.mu_v - M.Kb * s.dyn.dt) / (3 * s.dyn.dt) * A.trace ^ 2) := by
    intro A
    unfold viscousWork
    rw [hs, rate_eq, Matrix.trace_smul, smul_eq_mul]
    field_simp
    ring
  have hsum : ((points s1.L).map fun mp => mp.V * (M.Kb / 3 * mp.dstrain.trace ^ 2 +
      viscousWork (2 * M.mu_s) (-(M.mu_v / 3)) s.dyn.dt mp.dstrain)).sum =
      -((points s1.L).map fun mp => mp.V *
        ((M.mu_v - M.Kb * s.dyn.dt) / (3 * s.dyn.dt) * mp.dstrain.trace ^ 2)).sum := by
    rw [neg_eq_neg_one_mul (List.sum _), ← List.sum_map_mul_left]
    refine congrArg List.sum (List.map_congr_left fun mp _ => ?_)
    rw [e]; ring
  rw [hsum] at key
  have hnn : ∀ mp ∈ points s1.L, 0 ≤ mp.V *
      ((M.mu_v - M.Kb * s.dyn.dt) / (3 * s.dyn.dt) * mp.dstrain.trace ^ 2) := fun mp hmp =>
    mul_nonneg (hV1 mp hmp).le (mul_nonneg (div_nonneg (sub_nonneg.2 hv) (by positivity)) (sq_nonneg _))
  refine ⟨?_, fun hlt hex => ?_⟩
  · rw [key]
    have h3 : 0 ≤ ((points s1.L).map fun mp => mp.V *
        ((M.mu_v - M.Kb * s.dyn.dt) / (3 * s.dyn.dt) * mp.dstrain.trace ^ 2)).sum :=
      List.sum_nonneg (by simpa using hnn)
    have := mul_nonneg hdamp.le h3
    linarith
  · rw [key]
    obtain ⟨mp, hmp, ht⟩ := hex
    have h3 : 0 < ((points s1.L).map fun mp => mp.V *
        ((M.mu_v - M.Kb * s.dyn.dt) / (3 * s.dyn.dt) * mp.dstrain.trace ^ 2)).sum := by
      refine lt_of_lt_of_le (b := mp.V *
        ((M.mu_v - M.Kb * s.dyn.dt) / (3 * s.dyn.dt) * mp.dstrain.trace ^ 2)) ?_ ?_
      · have := hV1 mp hmp
        have : 0 < M.mu_v - M.Kb * s.dyn.dt := sub_pos.2 hlt
        positivity
      · exact List.single_le_sum (by simpa using hnn) _ (List.mem_map.2 ⟨mp, hmp, rfl⟩)
    have := mul_pos hdamp h3
    linarith

end
/-! ## The hypotheses can be met -/

namespace Ex
/-- No weight. -/
def parFloat : Par ℚ := { par with forces := fun _ => (0, 0, 0), max_g := 0 }
/-- An inviscid fluid with bulk viscosity. -/
def bulkMat : Mat0 ℚ := { mat with Kb := 1, mu_s := 0, mu_v := 5 }
def bulkL : List (PhaseSt ℚ 2) :=
  [{ ph := { ph with law := .viscous, par := bulkMat },
     pts := [{ mp with stress := 0, b := 0 }, { mp2 with stress := 0, b := 0 }] }]
def bulkSt (G : Grid ℚ parFloat.G.N 2) : St parFloat := { dyn := dyn, L := bulkL, G := G }
end Ex
/-- Two weightless points moving towards each other: the energy of the first step grows. -/
example : ∃ G s1 s2, mkGrid Ex.parFloat.G Ex.parFloat.B = .ok G ∧ Counted (Ex.bulkSt G).L ∧
    gridPhase Ex.parFloat (Ex.bulkSt G) = .ok s1 ∧
    momentumPhase Ex.parFloat (Ex.noInterp _) s1 = .ok s2 ∧
    (∃ mp ∈ points s1.L, mp.dstrain.trace ≠ 0) ∧ nodalPower 0 s1.G s2.G.fe = 0 ∧
    movingEnergy 0 s1.G < movingEnergy 0 s2.G := by
  obtain ⟨G, h1, h2⟩ := Ex.okAnd_ok (r := mkGrid Ex.parFloat.G Ex.parFloat.B)
    (check := fun G => Ex.okAnd (gridPhase Ex.parFloat (Ex.bulkSt G))
      fun s1 => Ex.okAnd (momentumPhase Ex.parFloat (Ex.noInterp _) s1) fun s2 =>
        decide ((∃ mp ∈ points s1.L, mp.dstrain.trace ≠ 0) ∧ nodalPower 0 s1.G s2.G.fe = 0))
    (by decide +kernel)
  obtain ⟨s1, h3, h4⟩ := Ex.okAnd_ok h2
  obtain ⟨s2, h5, h6⟩ := Ex.okAnd_ok h4
  obtain ⟨h7, h8⟩ := of_decide_eq_true h6
  have hL : Counted (Ex.bulkSt G).L := by
    intro a ha
    have : a = _ := List.mem_singleton.1 ha
    subst this; rfl
  refine ⟨G, s1, s2, h1, hL, h3, h5, h7, h8, ?_⟩
  have hp : ∀ mp ∈ points Ex.bulkL, (mp.stress = 0 ∧ mp.pressure = 0 ∧ mp.strain.IsSymm ∧
      mp.dev_stress.IsSymm ∧ mp.dstress.IsSymm) ∧ 0 < mp.V := by
    intro mp hmp
    have : mp = { Ex.mp with stress := 0, b := 0 } ∨ mp = { Ex.mp2 with stress := 0, b := 0 } := by
      simpa [points, Ex.bulkL] using hmp
    unfold Matrix.IsSymm
    rcases this with rfl | rfl <;> decide +kernel
  have := (c121_growth (P := Ex.parFloat) (s := Ex.bulkSt G) (M := Ex.bulkMat) rfl rfl (.inl rfl) hL
    (fun mp h => (hp mp h).1) (by
      intro A hA
      have : A = _ := List.mem_singleton.1 hA
      subst this; exact ⟨rfl, rfl⟩)
    (by change (0 : ℚ) < 1 / 100; norm_num) (fun mp h => (hp mp h).2) rfl
    (by change (1 : ℚ) * (1 / 100) ≤ 5; norm_num) h3 h5).2
    (by change (1 : ℚ) * (1 / 100) < 5; norm_num) h7
  change _ * (_ * nodalPower 0 s1.G s2.G.fe) < movingEnergy 0 s2.G - movingEnergy 0 s1.G at this
  rw [h8, mul_zero, mul_zero] at this
  linarith

/-- A context with the parameters of the viscous phase. -/
def Ex.bulkC : LawCtx ℚ 2 :=
  { ops := Ex.ops, mat := Ex.bulkMat, mat0 := Ex.bulkMat, p := 0, t := 0, dt := 1, s := ![1, 2], max_g := -1
    height := 1 }

/-- The viscous and the Bingham law run on stretched points; the bulk viscosity exceeds the shear
viscosity. -/
example : (∃ r, runLaw .viscous Ex.bulkC { Ex.mp with dstrain := stretch 1 } = .ok r) ∧
    Ex.bulkC.mat.mu_s < Ex.bulkC.mat.mu_v ∧ PlaneStrain (stretch (1 : ℚ)) :=
  ⟨c36_runs (by decide) _, by decide +kernel, stretch_plane 1⟩

/-- The parameters of pierre.py, and a point stretched faster than the yield rate. -/
noncomputable def Ex.pierreC : LawCtx ℝ 0 :=
  { ops := realOps 1
    mat := { rho := 1, rho_s := 1, Kb := 1, Gs := 1, k := 1, s := 1, mu_s := 1, mu_v := 3, mu_1 := 0
             mu_2 := 0, mu_0 := .scalar 3, delta_mu := .scalar 0, I_0 := .scalar 1, tau_0 := 1
             gamma_c := 1 / 2, eta_max := 1, b := 0, E_0 := 1, nu := 0, t_0 := 0, rho_f := 1, mu := 1
             beta := 1, t_star := 1, packing := 1 }
    mat0 := { rho := 1, rho_s := 1, Kb := 1, Gs := 1, k := 1, s := 1, mu_s := 1, mu_v := 3, mu_1 := 0
              mu_2 := 0, mu_0 := .scalar 3, delta_mu := .scalar 0, I_0 := .scalar 1, tau_0 := 1
              gamma_c := 1 / 2, eta_max := 1, b := 0, E_0 := 1, nu := 0, t_0 := 0, rho_f := 1, mu := 1
              beta := 1, t_star := 1, packing := 1 }
    p := 0, t := 0, dt := 1, s := ![], max_g := -1, height := 1 }

example (mp0 : Particle ℝ 0) : ∃ mp' l,
    runLaw .bingham Ex.pierreC { mp0 with dstrain := stretch 3 } = .ok (mp', l) ∧
    contract mp'.stress (stretch 3) < mp'.pressure * (stretch (3 : ℝ)).trace := by
  obtain ⟨⟨mp', l⟩, h⟩ := c37_runs (c := Ex.pierreC) (mu0 := 3) rfl (by norm_num [Ex.pierreC])
    (by norm_num [Ex.pierreC]) { mp0 with dstrain := stretch 3 }
  refine ⟨mp', l, h, c121_pierre (mu0 := 3) rfl rfl (by norm_num [Ex.pierreC])
    (by norm_num [Ex.pierreC]) (by norm_num [Ex.pierreC]) (by norm_num [Ex.pierreC])
    (realOps_good one_pos) (e := 3) rfl ?_ h⟩
  change (1 / 2 : ℝ) < Real.sqrt _
  refine Real.lt_sqrt_of_sq_lt ?_
  simp [deviator, rate, stretch, Fin.sum_univ_three, Ex.pierreC]
  norm_num

/-- The laws with one friction coefficient run on a compressed, sheared point. -/
example (mp0 : Particle ℝ 0) : ∃ m : Particle ℝ 0, deviator m.dstrain ≠ 0 ∧ m.pressure ≠ 0 ∧ 2500 < m.rho ∧
    (∃ r, runLaw .linear_mu Ex.pierreC m = .ok r) ∧ (∃ r, runLaw .ken_simple Ex.pierreC m = .ok r) ∧
    (∃ r, runLaw .ken_kamrin Ex.pierreC m = .ok r) := by
  refine ⟨{ mp0 with dstrain := stretch 3, pressure := -1, rho := 2600 }, ?_, by norm_num, by norm_num,
    ?_, ?_, ?_⟩
  · intro h
    have := congrFun (congrFun h 0) 0
    have e : ¬ (0 : Fin 3) = 2 := by decide
    have e' : ¬ (1 : Fin 3) = 2 := by decide
    norm_num [deviator, stretch, e, e'] at this
  · obtain ⟨r, hr, -⟩ := c40_capped (c := Ex.pierreC) (realOps_good one_pos) (mu0 := 3) rfl (by norm_num)
      (by norm_num [Ex.pierreC]) (by norm_num [Ex.pierreC])
      (mp := { mp0 with dstrain := stretch 3, pressure := -1, rho := 2600 }) (by norm_num)
    exact ⟨r, hr⟩
  · have h : Ex.pierreC.dt ≠ 0 := by norm_num [Ex.pierreC]
    simp only [runLaw, lawKenSimple, if_neg h]
    exact ⟨_, rfl⟩
  · have h : Ex.pierreC.dt ≠ 0 := by norm_num [Ex.pierreC]
    simp only [runLaw, lawKenKamrin, if_neg h]
    exact ⟨_, rfl⟩

end Mpm

import Verif.Lemmas.XF
import Verif.Props.Solids

/-!
# C36 to C41 and C43: fluids, mu(I) laws, and laws that cannot run
-/

set_option linter.unusedSectionVars false

namespace Mpm
open Spec

namespace Spec
variable {K : Type} [Field K] [LinearOrder K]

/-- Strain rate of a strain increment over a time `dt`. -/
def rate (dt : K) (de : Mat K) : Mat K := fun i j => de i j / dt

/-- The traceless part of a matrix. -/
def deviator (A : Mat K) : Mat K := fun i j => A i j - if i = j then (A 0 0 + A 1 1 + A 2 2) / 3 else 0

/-- Euclidean norm of a matrix. -/
def mnorm (o : Ops K) (A : Mat K) : K := o.sqrt (∑ i, ∑ j, A i j * A i j)

end Spec

section
variable {K : Type} [Field K] [LinearOrder K] [IsStrictOrderedRing K] {ns : ℕ}

theorem deviator_eq (A : Mat K) : deviator A = A - (A.trace / 3) • (1 : Mat K) := by
  ext i j
  by_cases h : i = j
  · subst h; simp [deviator, trace3]
  · simp [deviator, Matrix.one_apply, h]

theorem rate_eq (dt : K) (A : Mat K) : rate dt A = (1 / dt) • A := by
  ext i j; simp [rate]; ring

theorem rate_dev (dt : K) (A : Mat K) :
    deviator (rate dt A) = (1 / dt) • (A - (A.trace / 3) • (1 : Mat K)) := by
  rw [rate_eq, deviator_eq, Matrix.trace_smul, smul_sub, smul_smul, smul_eq_mul]
  congr 2; ring

theorem mnorm_smul {o : Ops K} (ho : GoodOps o) (k : K) (A : Mat K) :
    mnorm o (k • A) = |k| * mnorm o A := by
  change o.sqrt (frob (k • A) (k • A)) = |k| * o.sqrt (frob A A)
  rw [frob_smul, frob_smul_right]
  refine ho.sqrt_eq (mul_nonneg (abs_nonneg k) (ho.sqrt_nonneg _ (frob_self_nonneg A))) ?_
  have h1 := ho.sqrt_mul _ (frob_self_nonneg A)
  have h2 := abs_mul_abs_self k
  calc |k| * o.sqrt (frob A A) * (|k| * o.sqrt (frob A A))
      = (|k| * |k|) * (o.sqrt (frob A A) * o.sqrt (frob A A)) := by ring
    _ = k * (k * frob A A) := by rw [h1, h2]; ring

theorem mnorm_nonneg {o : Ops K} (ho : GoodOps o) (A : Mat K) : 0 ≤ mnorm o A :=
  ho.sqrt_nonneg _ (frob_self_nonneg A)

theorem mnorm_eq_zero {o : Ops K} (ho : GoodOps o) {A : Mat K} (h : mnorm o A = 0) : A = 0 := by
  by_contra hA
  have := (ho.sqrt_eq_zero (frob_self_nonneg A)).1 h
  exact (frob_self_pos hA).ne' this

theorem mnorm_zero {o : Ops K} (ho : GoodOps o) : mnorm o (0 : Mat K) = 0 := by
  unfold mnorm
  simp [ho.sqrt_zero]

/-! ## C36 -/

/-- The viscous law: deviatoric stress `2 mu_s` times the deviatoric strain rate, whatever the
history of the point; the pressure moves by `K` times the mean strain increment; and the stress the
law aims at is pressure (less the volumetric viscous part) plus deviator. -/
theorem c36_newtonian {c : LawCtx K ns} {mp mp' : Particle K ns} {l : List (Vis × XF K)}
    (h : runLaw .viscous c mp = .ok (mp', l)) :
    mp'.dev_stress = (2 * c.mat.mu_s) • deviator (rate c.dt mp.dstrain) ∧
    mp'.pressure = mp.pressure + c.mat.Kb * (mp.dstrain.trace / 3) ∧
    mp'.stress + mp'.dstress = (mp'.pressure - c.mat.mu_v * ((rate c.dt mp.dstrain).trace / 3)) •
      (1 : Mat K) + (2 * c.mat.mu_s) • deviator (rate c.dt mp.dstrain) := by
  simp only [runLaw, lawViscous] at h
  split at h
  · cases h
  cases h
  have e : (2 * c.mat.mu_s / c.dt) • (mp.dstrain - (mp.dstrain.trace / 3) • (1 : Mat K)) =
      (2 * c.mat.mu_s) • deviator (rate c.dt mp.dstrain) := by
    rw [rate_dev, smul_smul]; congr 1; ring
  refine ⟨e, rfl, ?_⟩
  simp only
  rw [← e, rate_eq, Matrix.trace_smul, smul_eq_mul, sub_smul,
    show c.mat.mu_v * (1 / c.dt * mp.dstrain.trace / 3) =
      c.mat.mu_v * (mp.dstrain.trace / 3) / c.dt by ring]
  abel

/-- It runs for every state, given a time step. -/
theorem c36_runs {c : LawCtx K ns} (hdt : c.dt ≠ 0) (mp : Particle K ns) :
    ∃ r, runLaw .viscous c mp = .ok r := by
  simp only [runLaw, lawViscous, if_neg hdt]
  exact ⟨_, rfl⟩

/-- Viscous dissipation is never negative. -/
theorem c36_dissipation {c : LawCtx K ns} {mp mp' : Particle K ns} {l : List (Vis × XF K)}
    (h : runLaw .viscous c mp = .ok (mp', l)) (hdt : 0 < c.dt) (hmu : 0 ≤ c.mat.mu_s) :
    0 ≤ ∑ i, ∑ j, mp'.dev_stress i j * mp.dstrain i j := by
  have h1 := (c36_newtonian h).1
  change 0 ≤ frob mp'.dev_stress mp.dstrain
  rw [h1, rate_dev, smul_smul, frob_smul]
  refine mul_nonneg (by positivity) ?_
  have e : frob (mp.dstrain - (mp.dstrain.trace / 3) • (1 : Mat K)) mp.dstrain =
      frob (mp.dstrain - (mp.dstrain.trace / 3) • (1 : Mat K))
        (mp.dstrain - (mp.dstrain.trace / 3) • (1 : Mat K)) := by
    have ht := trace_sub_third mp.dstrain
    generalize hD : mp.dstrain - (mp.dstrain.trace / 3) • (1 : Mat K) = D at *
    have : mp.dstrain = D + (mp.dstrain.trace / 3) • (1 : Mat K) := by rw [← hD]; abel
    conv_lhs => rw [this]
    rw [frob_comm, frob_add, frob_smul, frob_one, ht, mul_zero, add_zero]
  rw [e]
  exact frob_self_nonneg _

variable [FloorRing K]

/-- Over any run, for every point of a viscous phase: the pressure is that of its first ancestor
plus `K` times the mean strain accumulated since.  The ancestor is a point stored at the start, or
one made by an inlet, whose pressure is then `K` times its volumetric strain. -/
theorem c36_pressure {P : Par K} {interp : Interp K P.G.N} {n : ℕ} {s s' : St P}
    (hL : Counted s.L) (h : steps P interp n s = .ok s') {p : ℕ} {B : PhaseSt K P.G.ns}
    (hB : s'.L[p]? = some B) (hl : B.ph.law = .viscous) {b : Particle K P.G.ns} (hb : b ∈ B.pts) :
    ∃ p0 e0, b.pressure = p0 + B.ph.par.Kb * ((b.strain.trace - e0) / 3) ∧
      ((∃ A a, s.L[p]? = some A ∧ a ∈ A.pts ∧ a.pressure = p0 ∧ a.strain.trace = e0) ∨
       ((P.B.inlet_right = true ∨ P.B.inlet_top = true) ∧ p0 = B.ph.par.Kb * e0)) := by
  refine (fun hR => ?_) (steps_descend (s := s) (n := n)
    (fun _ ph a b => ph.law = .viscous →
      b.pressure = a.pressure + ph.par.Kb * ((b.strain.trace - a.strain.trace) / 3))
    (fun _ _ _ _ => by ring) (fun _ _ _ _ _ h1 h2 hl => by rw [h2 hl, h1 hl]; ring)
    (fun _ _ _ _ _ hs h hl => by
      rw [← hs.fields.2.1]; exact h (by rw [hs.fields.1]; exact hl)) ?_ hL h).2
  · obtain ⟨A, hA, hs, k⟩ := hR.left hB
    have hl' : A.ph.law = .viscous := by rw [← hs.fields.1]; exact hl
    have hp : B.ph.par = A.ph.par := hs.fields.2.1
    rcases k b hb with ⟨a, ha, hab⟩ | ⟨hi, d, f, -, ⟨S0, ph', x, y, mp, hs', hm, rfl⟩, hfb⟩
    · exact ⟨_, _, by rw [hp]; exact hab hl', .inl ⟨A, a, hA, ha, rfl, rfl⟩⟩
    · have h0 := hfb hl'
      rw [wrapped_frame] at h0
      refine ⟨_, _, by rw [hp]; exact h0, .inr ⟨hi, ?_⟩⟩
      have hc := c34_consistent hm
      have e1 := congrArg Matrix.trace hc.2.2.2.1
      rw [Matrix.trace_add, Matrix.trace_smul, hc.2.2.2.2, trace_one3, smul_eq_mul, add_zero,
        hc.1.vol, hs'.fields.2.1] at e1
      simp only
      rw [hp]
      linarith
  · intro d _ m0 Gw Gb Gm p ph a b hev hl
    obtain ⟨a3, a4, a5, l, e3, h4, h5, hb⟩ := hev.law
    obtain ⟨nd, _, rfl⟩ := updateStrain_ok h4
    rw [hl] at h5
    have h6 := (c36_newtonian h5).2.1
    have h7 : a5.strain = a3.strain + a5.dstrain ∧ a5.dstrain =
        (1 / 2 * d.dt) • ((∑ r, Matrix.vecMulVec (nodeVel P.M_tol Gb (nd r)) (a3.Gs r)) +
          (∑ r, Matrix.vecMulVec (nodeVel P.M_tol Gb (nd r)) (a3.Gs r)).transpose) := by
      simp only [runLaw, lawViscous] at h5
      split at h5
      · cases h5
      · cases h5; exact ⟨rfl, rfl⟩
    have e4 : a3.pressure = a.pressure ∧ a3.strain = a.strain := by rw [e3]; exact ⟨rfl, rfl⟩
    have hb1 : b.pressure = a5.pressure ∧ b.strain = a5.strain := by rw [hb]; exact ⟨rfl, rfl⟩
    rw [hb1.1, hb1.2, h6, h7.1, h7.2, Matrix.trace_add, e4.2]
    simp only [e4.1, lawCtx]
    ring

/-- Inside a step the stored stress is not the Newtonian one: the stress-rate correction of
`update_stress` is added to it, with the old stress. -/
theorem c36_stored {P : Par K} {interp : Interp K P.G.N} {s s' : St P} (hL : Counted s.L)
    (h : timeMarch P interp s = .ok s') (hi1 : P.B.inlet_right = false)
    (hi2 : P.B.inlet_top = false) {p : ℕ} {B : PhaseSt K P.G.ns} (hB : s'.L[p]? = some B)
    (hl : B.ph.law = .viscous) {b : Particle K P.G.ns} (hb : b ∈ B.pts) :
    ∃ A a, s.L[p]? = some A ∧ a ∈ A.pts ∧
      b.stress = (b.pressure - B.ph.par.mu_v * ((rate s.dyn.dt b.dstrain).trace / 3)) • (1 : Mat K) +
        (2 * B.ph.par.mu_s) • deviator (rate s.dyn.dt b.dstrain) -
        s.dyn.dt • (b.LL * a.stress + a.stress * b.LL) := by
  obtain ⟨T, s1, s2, s3, -, -, -, -, -, -, hR⟩ := timeMarch_points hL h
  obtain ⟨A, hA, hs, -, k⟩ := hR.left hB
  rcases k b hb with ⟨a, ha, hev⟩ | ⟨hi, -⟩
  · refine ⟨A, a, hA, ha, ?_⟩
    have hl' : A.ph.law = .viscous := by rw [← hs.fields.1]; exact hl
    obtain ⟨a3, a4, a5, l, e3, h4, h5, hb⟩ := hev.law
    obtain ⟨nd, _, e4⟩ := updateStrain_ok h4
    rw [hl'] at h5
    have h6 := (c36_newtonian h5).2.2
    have hdt : T.d.dt = s.dyn.dt := by rw [T.hd]; rfl
    have e5 : a5.LL = a4.LL ∧ a5.dstrain = a4.dstrain ∧ a5.stress = a4.stress := by
      simp only [runLaw, lawViscous] at h5
      split at h5
      · cases h5
      · cases h5; exact ⟨rfl, rfl, rfl⟩
    have e6 : a4.stress = a.stress := by rw [e4, e3]
    have hbs : b.stress = a5.stress + (a5.dstress - T.d.dt • (a5.LL * a5.stress + a5.stress * a5.LL)) ∧
        b.pressure = a5.pressure ∧ b.dstrain = a5.dstrain ∧ b.LL = a5.LL := by
      rw [hb]; exact ⟨rfl, rfl, rfl, rfl⟩
    rw [hbs.1, hbs.2.1, hbs.2.2.1, hbs.2.2.2, hs.fields.2.1, ← hdt, ← add_sub_assoc, h6,
      e5.2.1, e5.2.2, e6]
    rfl
  · rw [hi1, hi2] at hi; simp at hi

/-! ## C37 -/

/-- The flow curve of a Bingham fluid, regularised below the rate `gc`: norm of the deviatoric
stress against shear rate. -/
def Spec.binghamCurve (mu0 mus tau0 gc g : K) : K :=
  if g ≤ gc then 2 * mu0 * g else 2 * (mus * g + tau0)

/-- The Bingham law follows that curve, its shear rate being the norm of the deviatoric strain
rate. -/
theorem c37_curve {c : LawCtx K ns} (ho : GoodOps c.ops) {mu0 : K} (hm : c.mat.mu_0 = .scalar mu0)
    (hdt : 0 < c.dt) (h0 : 0 ≤ mu0) (hs : 0 ≤ c.mat.mu_s) (ht : 0 ≤ c.mat.tau_0)
    {mp mp' : Particle K ns} {l : List (Vis × XF K)} (h : runLaw .bingham c mp = .ok (mp', l)) :
    mp'.gammadot = mnorm c.ops (deviator (rate c.dt mp.dstrain)) ∧
    mnorm c.ops mp'.dev_stress =
      binghamCurve mu0 c.mat.mu_s c.mat.tau_0 c.mat.gamma_c mp'.gammadot := by
  simp only [runLaw, lawBingham, if_neg hdt.ne', hm, PyNum.num] at h
  rw [rate_dev, mnorm_smul ho, abs_of_pos (one_div_pos.2 hdt)]
  generalize mp.dstrain - (mp.dstrain.trace / 3) • (1 : Mat K) = D at h ⊢
  obtain ⟨_, e0, h⟩ := res_bind_ok.1 h
  obtain rfl := Except.ok.inj e0
  obtain ⟨dev, hd, h⟩ := res_bind_ok.1 h
  have eg : mp'.gammadot = mnorm c.ops D / c.dt ∧ mp'.dev_stress = dev := by cases h; exact ⟨rfl, rfl⟩
  refine ⟨by rw [eg.1]; ring, ?_⟩
  rw [eg.1, eg.2]
  change (if mnorm c.ops D / c.dt ≤ c.mat.gamma_c then _ else _) = _ at hd
  have hn := mnorm_nonneg ho D
  unfold binghamCurve
  split at hd
  · rename_i hg
    rw [if_pos hg]
    rw [Except.ok.injEq] at hd
    rw [← hd, mnorm_smul ho, abs_of_nonneg (by positivity)]
    ring
  · rename_i hg
    rw [if_neg hg]
    change (if mnorm c.ops D / c.dt = 0 then _ else _) = _ at hd
    split at hd
    · cases hd
    rename_i hz
    rw [Except.ok.injEq] at hd
    have hD : mnorm c.ops D ≠ 0 := fun e => hz (by rw [e, zero_div])
    have hgp : 0 < mnorm c.ops D / c.dt := lt_of_le_of_ne (div_nonneg hn hdt.le) (Ne.symm hz)
    rw [← hd, mnorm_smul ho, abs_of_nonneg]
    · change 2 * (c.mat.mu_s + c.mat.tau_0 / (mnorm c.ops D / c.dt)) / c.dt * _ = _
      field_simp
    · change 0 ≤ 2 * (c.mat.mu_s + c.mat.tau_0 / (mnorm c.ops D / c.dt)) / c.dt
      positivity

/-- The law runs in every state. -/
theorem c37_runs {c : LawCtx K ns} {mu0 : K} (hm : c.mat.mu_0 = .scalar mu0) (hdt : c.dt ≠ 0)
    (hg : 0 ≤ c.mat.gamma_c) (mp : Particle K ns) : ∃ r, runLaw .bingham c mp = .ok r := by
  simp only [runLaw, lawBingham, if_neg hdt, hm, PyNum.num]
  simp only [bind, Except.bind]
  split
  · rename_i h
    split at h
    · cases h
    split at h
    · rename_i h1 h2
      exact absurd (by rw [h2]; exact hg) h1
    · cases h
  · exact ⟨_, rfl⟩

theorem binghamCurve_mono {mu0 mus tau0 gc g g' : K} (hr : gc * (mu0 - mus) = tau0)
    (hs : 0 ≤ mus) (h0 : mus ≤ mu0) (h : g ≤ g') :
    binghamCurve mu0 mus tau0 gc g ≤ binghamCurve mu0 mus tau0 gc g' ∧
    binghamCurve mu0 mus tau0 gc g' - binghamCurve mu0 mus tau0 gc g ≤ 2 * mu0 * (g' - g) := by
  unfold binghamCurve
  split <;> split
  · constructor <;> nlinarith
  · rename_i h1 h2
    push Not at h2
    constructor
    · nlinarith [mul_nonneg (sub_nonneg.2 h0) (sub_nonneg.2 h1), mul_nonneg hs (sub_nonneg.2 h)]
    · nlinarith [mul_nonneg (sub_nonneg.2 h0) (sub_nonneg.2 h2.le)]
  · rename_i h1 h2
    exact absurd (h.trans h2) h1
  · constructor <;> nlinarith

/-- With `gamma_c = tau_0/(mu_0-mu_s)` the stress norm grows with the shear rate, is Lipschitz in
it, and is at least `2 tau_0` while flowing. -/
theorem c37_monotone {c : LawCtx K ns} (ho : GoodOps c.ops) {mu0 : K}
    (hm : c.mat.mu_0 = .scalar mu0) (hdt : 0 < c.dt) (hs : 0 ≤ c.mat.mu_s)
    (h0 : c.mat.mu_s < mu0) (ht : 0 ≤ c.mat.tau_0)
    (hr : c.mat.gamma_c = c.mat.tau_0 / (mu0 - c.mat.mu_s))
    {mp mp' mq mq' : Particle K ns} {l l' : List (Vis × XF K)}
    (h : runLaw .bingham c mp = .ok (mp', l)) (h' : runLaw .bingham c mq = .ok (mq', l')) :
    (mp'.gammadot ≤ mq'.gammadot → mnorm c.ops mp'.dev_stress ≤ mnorm c.ops mq'.dev_stress) ∧
    |mnorm c.ops mq'.dev_stress - mnorm c.ops mp'.dev_stress| ≤
      2 * mu0 * |mq'.gammadot - mp'.gammadot| ∧
    (c.mat.gamma_c < mp'.gammadot → 2 * c.mat.tau_0 ≤ mnorm c.ops mp'.dev_stress) := by
  have hr' : c.mat.gamma_c * (mu0 - c.mat.mu_s) = c.mat.tau_0 := by
    rw [hr, div_mul_cancel₀ _ (sub_pos.2 h0).ne']
  have e := c37_curve ho hm hdt (hs.trans h0.le) hs ht h
  have e' := c37_curve ho hm hdt (hs.trans h0.le) hs ht h'
  have hg : 0 ≤ mp'.gammadot := by rw [e.1]; exact mnorm_nonneg ho _
  rw [e.2, e'.2]
  refine ⟨fun h1 => (binghamCurve_mono hr' hs h0.le h1).1, ?_, fun h1 => ?_⟩
  · rcases le_total mp'.gammadot mq'.gammadot with h1 | h1
    · obtain ⟨a, b⟩ := binghamCurve_mono hr' hs h0.le h1
      rw [abs_of_nonneg (sub_nonneg.2 a), abs_of_nonneg (sub_nonneg.2 h1)]
      exact b
    · obtain ⟨a, b⟩ := binghamCurve_mono hr' hs h0.le h1
      rw [abs_sub_comm, abs_of_nonneg (sub_nonneg.2 a), abs_sub_comm, abs_of_nonneg (sub_nonneg.2 h1)]
      exact b
  · unfold binghamCurve
    rw [if_neg (not_le.2 h1)]
    nlinarith [mul_nonneg hs hg]

/-- Without that relation the curve jumps at `gamma_c`: no constant bounds its slope there. -/
theorem c37_jump {mu0 mus tau0 gc : K} (hr : gc * (mu0 - mus) ≠ tau0) (C : K) :
    ∃ g, gc < g ∧ C * (g - gc) <
      |binghamCurve mu0 mus tau0 gc g - binghamCurve mu0 mus tau0 gc gc| := by
  set J := tau0 - gc * (mu0 - mus) with hJ
  have hJ0 : 0 < |J| := abs_pos.2 (sub_ne_zero.2 (Ne.symm hr))
  set D := |C| + 2 * |mus| + 1 with hD
  have hDp : 0 < D := by positivity
  refine ⟨gc + |J| / D, by linarith [div_pos hJ0 hDp], ?_⟩
  unfold binghamCurve
  rw [if_neg (by linarith [div_pos hJ0 hDp]), if_pos le_rfl]
  have e : 2 * (mus * (gc + |J| / D) + tau0) - 2 * mu0 * gc = 2 * J + 2 * mus * (|J| / D) := by
    rw [hJ]; ring
  rw [e, add_sub_cancel_left]
  set x := |J| / D with hx
  have hxp : 0 < x := div_pos hJ0 hDp
  have hxD : x * D = |J| := div_mul_cancel₀ _ hDp.ne'
  have h1 : |2 * J| - |2 * mus * x| ≤ |2 * J + 2 * mus * x| := by
    have := abs_sub_abs_le_abs_sub (2 * J) (-(2 * mus * x))
    rw [abs_neg, sub_neg_eq_add] at this
    exact this
  have h2 : |2 * J| = 2 * |J| := by rw [abs_mul]; simp
  have h3 : |2 * mus * x| = 2 * |mus| * x := by rw [abs_mul, abs_mul, abs_of_pos hxp]; simp
  have h4 : C * x ≤ |C| * x := mul_le_mul_of_nonneg_right (le_abs_self C) hxp.le
  rw [h2, h3] at h1
  have : |C| * x + 2 * |mus| * x + x = |J| := by rw [← hxD, hD]; ring
  linarith

/-! ## C38 -/

theorem flowStressInc_of_fin {p e dt : K} {de stress : Mat K} (hdt : dt ≠ 0) (i j : Fin 3) :
    flowStressInc p (.fin e) de dt stress i j =
      .fin (p * (1 : Mat K) i j + e * de i j / dt - stress i j) := by
  unfold flowStressInc
  rw [XF.fin_mul, XF.fin_div _ hdt, XF.fin_add, XF.fin_sub]

/-- Shear rate as the mu(I) laws measure it. -/
theorem pouliquen_rate {c : LawCtx K ns} (ho : GoodOps c.ops) (hdt : 0 < c.dt) (D : Mat K) :
    c.ops.sqrt (frob ((2 / c.dt) • D) ((2 / c.dt) • D)) = 2 / c.dt * mnorm c.ops D := by
  have := mnorm_smul ho (2 / c.dt) D
  rw [abs_of_pos (by positivity)] at this
  exact this

/-- All that the mu(I) law does, given the mixture parameters. -/
theorem pouliquen_form {c : LawCtx K ns} {mp : Particle K ns} (hdt : c.dt ≠ 0) {m0 dm i0 : K}
    (hm : phiMeans mp.phi c.mat.mu_0 c.mat.delta_mu c.mat.I_0 = .ok (m0, dm, i0)) :
    ∃ r, runLaw .pouliquen c mp = .ok r ∧
      (let D := mp.dstrain - (mp.dstrain.trace / 3) • (1 : Mat K)
       let g := c.ops.sqrt (frob ((2 / c.dt) • D) ((2 / c.dt) • D))
       let I := inertial c.ops c.mat.rho_s g (meanSize c.s mp.phi) mp.pressure
       let e := min ((etaOf c.ops (muI m0 dm i0 I) mp.pressure g).nanToNum c.ops.big) c.mat.eta_max
       r.1.gammadot = g ∧ r.1.I = I ∧ r.1.mu = some (muI m0 dm i0 I) ∧
       r.1.dev_stress = (e / c.dt) • D ∧ r.1.stress = mp.stress ∧
       r.1.pressure = pouliquenPressure c mp.rho (mp.pressure + c.mat.Kb * (mp.dstrain.trace / 3)) ∧
       r.1.dstress = r.1.pressure • (1 : Mat K) + r.1.dev_stress - mp.stress) := by
  simp only [runLaw, lawPouliquen]
  rw [hm]
  simp only [Except.bind, bind, if_neg hdt]
  rw [if_pos]
  · refine ⟨_, rfl, rfl, rfl, rfl, rfl, rfl, rfl, ?_⟩
    ext i j
    simp only [flowStressInc_of_fin hdt, XF.nanToNum, Matrix.sub_apply, Matrix.add_apply,
      Matrix.smul_apply, smul_eq_mul]
    ring
  · intro i j
    rw [flowStressInc_of_fin hdt]; rfl

/-- The parameters of the mu(I) law are arrays with an entry for every size. -/
def Spec.HasArrays (ns : ℕ) (m : Mat0 K) (l1 l2 l3 : List K) : Prop :=
  m.mu_0 = .arr l1 ∧ m.delta_mu = .arr l2 ∧ m.I_0 = .arr l3 ∧
  ns ≤ l1.length ∧ ns ≤ l2.length ∧ ns ≤ l3.length

theorem Spec.HasArrays.means {m : Mat0 K} {l1 l2 l3 : List K} (h : HasArrays ns m l1 l2 l3)
    (phi : Fin ns → K) : phiMeans phi m.mu_0 m.delta_mu m.I_0 =
      .ok (∑ i, phi i * l1.getD i 0, ∑ i, phi i * l2.getD i 0, ∑ i, phi i * l3.getD i 0) := by
  obtain ⟨e1, e2, e3, h1, h2, h3⟩ := h
  rw [e1, e2, e3, phiMeans_arr phi h1 h2 h3]

/-- The mu(I) law terminates normally for every finite state, singular or not; the stress it aims
at is a pressure that is never tensile, and zero at low density, plus a viscous deviator with a
viscosity not above `eta_max`. -/
theorem c38_total {c : LawCtx K ns} {l1 l2 l3 : List K} (ha : HasArrays ns c.mat l1 l2 l3)
    (hdt : 0 < c.dt) (mp : Particle K ns) :
    ∃ r, runLaw .pouliquen c mp = .ok r ∧ r.1.stress = mp.stress ∧
      r.1.pressure ≤ 0 ∧ (mp.rho < 8 / 10 * c.mat.rho → r.1.pressure = 0) ∧
      (8 / 10 * c.mat.rho ≤ mp.rho → r.1.pressure =
        min (mp.pressure + c.mat.Kb * (mp.dstrain.trace / 3)) 0) ∧
      r.1.stress + r.1.dstress = r.1.pressure • (1 : Mat K) + r.1.dev_stress ∧
      ∃ eta ≤ c.mat.eta_max, r.1.dev_stress = eta • deviator (rate c.dt mp.dstrain) := by
  obtain ⟨r, hr, -, -, -, hd, hs, hp, hi⟩ := pouliquen_form hdt.ne' (ha.means mp.phi)
  refine ⟨r, hr, hs, ?_, fun h => ?_, fun h => ?_, ?_, ?_⟩
  · rw [hp]
    unfold pouliquenPressure
    split
    · exact le_rfl
    · rename_i h; push Not at h; exact h.1
  · rw [hp]
    exact if_pos (.inr (by rw [mul_comm]; exact h))
  · rw [hp]
    unfold pouliquenPressure
    split
    · rename_i h'
      rcases h' with h' | h'
      · rw [min_eq_right h'.le]
      · exact absurd h' (not_lt.2 (by rw [mul_comm]; exact h))
    · rename_i h'
      push Not at h'
      rw [min_eq_left h'.1]
  · rw [hi, hs]; abel
  · have key : ∀ e, r.1.dev_stress = (min e c.mat.eta_max / c.dt) •
        (mp.dstrain - (mp.dstrain.trace / 3) • (1 : Mat K)) →
        ∃ eta ≤ c.mat.eta_max, r.1.dev_stress = eta • deviator (rate c.dt mp.dstrain) := by
      intro e he
      refine ⟨_, min_le_right e _, ?_⟩
      rw [he, rate_dev, smul_smul]
      congr 1
      ring
    exact key _ hd

/-- In particular it never reaches its `sys.exit()`, whatever the parameters. -/
theorem c38_no_exit {c : LawCtx K ns} (mp : Particle K ns) :
    runLaw .pouliquen c mp ≠ .error .sysExit := by
  intro h
  cases hm : phiMeans mp.phi c.mat.mu_0 c.mat.delta_mu c.mat.I_0 with
  | ok m =>
    by_cases hdt : c.dt = 0
    · simp only [runLaw, lawPouliquen] at h
      rw [hm] at h
      simp only [Except.bind, bind, if_pos hdt] at h
      cases h
    · obtain ⟨r, hr, -⟩ := pouliquen_form hdt hm
      rw [hr] at h; cases h
  | error e =>
    simp only [runLaw, lawPouliquen] at h
    rw [hm] at h
    simp only [Except.bind, bind, Except.error.injEq] at h
    subst h
    have key : ∀ (l : List (Fin ns)) (acc : K × K × K),
        l.foldlM (fun (acc : K × K × K) (i : Fin ns) => do
          let a ← c.mat.mu_0.get i
          let b ← c.mat.delta_mu.get i
          let d ← c.mat.I_0.get i
          return (acc.1 + mp.phi i * a, acc.2.1 + mp.phi i * b, acc.2.2 + mp.phi i * d)) acc ≠
        (.error .sysExit : Res (K × K × K)) := by
      have hget : ∀ (a : PyNum K) (i : ℕ), a.get i ≠ .error .sysExit := by
        intro a i
        unfold PyNum.get
        cases a with
        | scalar x => simp
        | arr l => cases h : l[i]? <;> simp [h]
      intro l
      induction l with
      | nil => intro acc h; cases h
      | cons i l ih =>
        intro acc h
        rw [List.foldlM_cons] at h
        cases h1 : c.mat.mu_0.get i with
        | error e =>
          rw [h1] at h
          have : e = .sysExit := by simpa [bind, Except.bind] using h
          exact hget _ _ (this ▸ h1)
        | ok a =>
          cases h2 : c.mat.delta_mu.get i with
          | error e =>
            rw [h1, h2] at h
            have : e = .sysExit := by simpa [bind, Except.bind] using h
            exact hget _ _ (this ▸ h2)
          | ok b =>
            cases h3 : c.mat.I_0.get i with
            | error e =>
              rw [h1, h2, h3] at h
              have : e = .sysExit := by simpa [bind, Except.bind] using h
              exact hget _ _ (this ▸ h3)
            | ok d =>
              rw [h1, h2, h3] at h
              exact ih _ h
    exact key _ _ hm

/-- Parameters and size fractions are not negative. -/
def Spec.NonNegMix (m : Mat0 K) (s phi : Fin ns → K) (l1 l2 l3 : List K) : Prop :=
  (∀ x ∈ l1, 0 ≤ x) ∧ (∀ x ∈ l2, 0 ≤ x) ∧ (∀ x ∈ l3, 0 ≤ x) ∧ (∀ i, 0 ≤ s i) ∧ (∀ i, 0 ≤ phi i) ∧
  0 ≤ m.eta_max

theorem mix_nonneg {phi : Fin ns → K} (hp : ∀ i, 0 ≤ phi i) {l : List K} (hl : ∀ x ∈ l, 0 ≤ x) :
    0 ≤ ∑ i, phi i * l.getD i 0 := by
  refine Finset.sum_nonneg fun i _ => mul_nonneg (hp i) ?_
  rw [List.getD_eq_getElem?_getD]
  cases h : l[(i : ℕ)]? with
  | none => exact le_rfl
  | some x => exact hl x (List.mem_of_getElem? h)

/-- For non-negative parameters the viscosity is not negative and the deviatoric stress is
frictional: its norm is at most `√2` times the largest friction coefficient of the mixture times the
pressure the point had, in every state, singular or not. -/
theorem c38_friction {c : LawCtx K ns} (ho : GoodOps c.ops) {l1 l2 l3 : List K}
    (ha : HasArrays ns c.mat l1 l2 l3) (hdt : 0 < c.dt) {mp : Particle K ns}
    (hn : NonNegMix c.mat c.s mp.phi l1 l2 l3) {mp' : Particle K ns} {l : List (Vis × XF K)}
    (h : runLaw .pouliquen c mp = .ok (mp', l)) :
    (∃ eta, 0 ≤ eta ∧ eta ≤ c.mat.eta_max ∧
      mp'.dev_stress = eta • deviator (rate c.dt mp.dstrain)) ∧
    mnorm c.ops mp'.dev_stress ≤ c.ops.sqrt 2 *
      (∑ i, mp.phi i * l1.getD i 0 + ∑ i, mp.phi i * l2.getD i 0) * |mp.pressure| := by
  obtain ⟨hn1, hn2, hn3, hn4, hn5, hn6⟩ := hn
  obtain ⟨r, hr, -, -, -, hd, -, -, -⟩ := pouliquen_form hdt.ne' (ha.means mp.phi)
  rw [hr, Except.ok.injEq] at h
  subst h
  simp only at hd
  rw [pouliquen_rate ho hdt] at hd
  rw [rate_dev]
  generalize hD : mp.dstrain - (mp.dstrain.trace / 3) • (1 : Mat K) = D at hd ⊢
  have hm0 := mix_nonneg hn5 hn1
  have hm1 := mix_nonneg hn5 hn2
  have hm2 := mix_nonneg hn5 hn3
  generalize (∑ i, mp.phi i * l1.getD i 0) = a at *
  generalize (∑ i, mp.phi i * l2.getD i 0) = b at *
  generalize (∑ i, mp.phi i * l3.getD i 0) = i0 at *
  have hs : 0 ≤ meanSize c.s mp.phi := Finset.sum_nonneg fun i _ => mul_nonneg (hn5 i) (hn4 i)
  have hDn := mnorm_nonneg ho D
  have hg : 0 ≤ 2 / c.dt * mnorm c.ops D := by positivity
  have hI : XF.NonNeg (inertial c.ops c.mat.rho_s (2 / c.dt * mnorm c.ops D) (meanSize c.s mp.phi)
    mp.pressure) := inertial_nonneg ho hg hs
  have h2 : 0 < c.ops.sqrt 2 := ho.sqrt_pos two_pos
  have hmu := muI_range (mu_0 := a) hm1 hm2 hI
  generalize muI a b i0 _ = mu at hd hmu
  set e := min ((etaOf c.ops mu mp.pressure (2 / c.dt * mnorm c.ops D)).nanToNum c.ops.big)
    c.mat.eta_max with he
  have hmn : XF.NonNeg mu := by
    rcases hmu with rfl | ⟨m, rfl, h1, -⟩
    · trivial
    · exact XF.NonNeg.fin_iff.2 (hm0.trans h1)
  have hX : XF.NonNeg (etaOf c.ops mu mp.pressure (2 / c.dt * mnorm c.ops D)) :=
    (((XF.NonNeg.fin_iff.2 (by positivity)).mul hmn).mul (XF.NonNeg.fin_iff.2 (abs_nonneg _))).div
      (XF.NonNeg.fin_iff.2 hg)
  have hen : 0 ≤ e := le_min (hX.nanToNum ho.big_pos.le) hn6
  refine ⟨⟨e, hen, min_le_right _ _, ?_⟩, ?_⟩
  · rw [hd, smul_smul]; congr 1; ring
  · rw [hd, mnorm_smul ho, abs_of_nonneg (div_nonneg hen hdt.le)]
    have hR : 0 ≤ c.ops.sqrt 2 * (a + b) * |mp.pressure| := by positivity
    rcases hDn.eq_or_lt with h0 | h0
    · rw [← h0, mul_zero]; exact hR
    rcases hmu with rfl | ⟨m, rfl, h1, h1'⟩
    · have : e ≤ 0 := by
        refine (min_le_left _ _).trans ?_
        unfold etaOf
        rw [XF.mul_nan, XF.nan_mul, XF.nan_div]
        exact le_rfl
      rw [le_antisymm this hen, zero_div, zero_mul]
      exact hR
    · have hgp : 0 < 2 / c.dt * mnorm c.ops D := by positivity
      have hle : e ≤ 2 * c.ops.sqrt 2 * m * |mp.pressure| / (2 / c.dt * mnorm c.ops D) := by
        refine (min_le_left _ _).trans ?_
        unfold etaOf
        rw [XF.fin_mul, XF.fin_mul, XF.fin_div _ hgp.ne']
        exact le_rfl
      calc e / c.dt * mnorm c.ops D
          ≤ 2 * c.ops.sqrt 2 * m * |mp.pressure| / (2 / c.dt * mnorm c.ops D) / c.dt *
              mnorm c.ops D := by gcongr
        _ = c.ops.sqrt 2 * m * |mp.pressure| := by field_simp
        _ ≤ c.ops.sqrt 2 * (a + b) * |mp.pressure| := by gcongr

/-! ## C39 -/

/-- The friction coefficient as a function of the inertial number: finite, between `mu_0` and
`mu_0+delta_mu`, increasing, and with the two limits at rest and at infinite inertial number. -/
theorem c39_curve {mu_0 delta_mu I_0 : K} (hd : 0 < delta_mu) (hI : 0 < I_0) :
    muI mu_0 delta_mu I_0 (.fin 0) = .fin mu_0 ∧
    muI mu_0 delta_mu I_0 .pinf = .fin (mu_0 + delta_mu) ∧
    ∀ i, 0 ≤ i → ∃ m, muI mu_0 delta_mu I_0 (.fin i) = .fin m ∧ mu_0 ≤ m ∧ m < mu_0 + delta_mu ∧
      ∀ i', i < i' → ∃ m', muI mu_0 delta_mu I_0 (.fin i') = .fin m' ∧ m < m' := by
  have hform : ∀ i, 0 ≤ i → muI mu_0 delta_mu I_0 (.fin i) = .fin (mu_0 + delta_mu * i / (I_0 + i)) := by
    intro i hi
    rcases hi.eq_or_lt with rfl | hi
    · unfold muI
      rw [XF.fin_div_zero hI, mul_zero, zero_div]
      rfl
    · unfold muI
      have h2 : 0 < I_0 / i + 1 := by positivity
      rw [XF.fin_div _ hi.ne', XF.fin_add, XF.fin_div _ h2.ne', XF.fin_add]
      congr 2
      field_simp
  refine ⟨?_, ?_, fun i hi => ⟨_, hform i hi, ?_, ?_, fun i' hi' => ⟨_, hform i' (hi.trans hi'.le), ?_⟩⟩⟩
  · rw [hform 0 le_rfl]; simp
  · change (XF.fin mu_0 + .fin delta_mu / (.fin 0 + .fin 1) : XF K) = _
    rw [XF.fin_add, zero_add, XF.fin_div _ one_ne_zero, div_one]; rfl
  · have : 0 ≤ delta_mu * i / (I_0 + i) := by positivity
    linarith
  · have : delta_mu * i / (I_0 + i) < delta_mu := by
      rw [div_lt_iff₀ (by linarith)]
      nlinarith [mul_pos hd hI]
    linarith
  · have hp : 0 < I_0 + i := by linarith
    have hp' : 0 < I_0 + i' := by linarith
    have : delta_mu * i / (I_0 + i) < delta_mu * i' / (I_0 + i') := by
      rw [div_lt_div_iff₀ hp hp']
      nlinarith [mul_pos (mul_pos hd hI) (sub_pos.2 hi')]
    linarith

/-- The law stores the inertial number `shear rate · mean size · sqrt(rho_s/|pressure|)` and that
friction coefficient, the parameters being averages over the size fractions. -/
theorem c39_law {c : LawCtx K ns} (ho : GoodOps c.ops) {l1 l2 l3 : List K}
    (ha : HasArrays ns c.mat l1 l2 l3) (hdt : 0 < c.dt) {mp mp' : Particle K ns}
    {l : List (Vis × XF K)} (h : runLaw .pouliquen c mp = .ok (mp', l)) :
    mp'.mu = some (muI (∑ i, mp.phi i * l1.getD i 0) (∑ i, mp.phi i * l2.getD i 0)
      (∑ i, mp.phi i * l3.getD i 0) mp'.I) ∧
    (mp.pressure ≠ 0 → 0 ≤ c.mat.rho_s → mp'.I = .fin (2 * mnorm c.ops (deviator (rate c.dt mp.dstrain)) *
      (∑ i, mp.phi i * c.s i) * c.ops.sqrt (c.mat.rho_s / |mp.pressure|))) := by
  obtain ⟨r, hr, -, hI, hmu, -, -, -, -⟩ := pouliquen_form hdt.ne' (ha.means mp.phi)
  rw [hr, Except.ok.injEq] at h
  subst h
  refine ⟨by rw [hI]; exact hmu, fun hp hrs => ?_⟩
  rw [hI, pouliquen_rate ho hdt, rate_dev, mnorm_smul ho, abs_of_pos (one_div_pos.2 hdt)]
  unfold inertial
  rw [XF.fin_div _ (abs_pos.2 hp).ne']
  have : ¬ c.mat.rho_s / |mp.pressure| < 0 := not_lt.2 (by positivity)
  simp only [XF.sqrt, if_neg this]
  rw [XF.fin_mul]
  congr 1
  unfold meanSize
  ring

/-! ## C40 -/

/-- The linear mu(I) law away from zero pressure: it runs, never leaves a tensile pressure, and the
viscosity is at most `eta_max`, and not negative for sensible parameters. -/
theorem c40_capped {c : LawCtx K ns} (ho : GoodOps c.ops) {mu0 : K} (hm : c.mat.mu_0 = .scalar mu0)
    (h0 : 0 < mu0) (hdt : 0 < c.dt) (hrs : 0 ≤ c.mat.rho_s) {mp : Particle K ns}
    (hp : mp.pressure ≠ 0) :
    ∃ r, runLaw .linear_mu c mp = .ok r ∧ r.1.stress = mp.stress ∧
      r.1.pressure = min (mp.pressure + c.mat.Kb * (mp.dstrain.trace / 3)) 0 ∧
      r.1.stress + r.1.dstress = r.1.pressure • (1 : Mat K) + r.1.dev_stress ∧
      ∃ eta ≤ c.mat.eta_max,
        (0 ≤ c.mat.b → 0 ≤ ∑ i, mp.phi i * c.s i → 0 ≤ c.mat.eta_max → 0 ≤ eta) ∧
        r.1.dev_stress = eta • deviator (rate c.dt mp.dstrain) := by
  obtain ⟨e, hle, hnn, heta⟩ : ∃ e ≤ c.mat.eta_max,
      (0 ≤ c.mat.b → 0 ≤ ∑ i, mp.phi i * c.s i → 0 ≤ c.mat.eta_max → 0 ≤ e) ∧
      (linearMuRaw c mp mu0).2.2.1 = .fin e := by
    simp only [linearMuRaw]
    rw [pouliquen_rate ho hdt]
    generalize mp.dstrain - (mp.dstrain.trace / 3) • (1 : Mat K) = D
    have hDn := mnorm_nonneg ho D
    have h2 : 0 < c.ops.sqrt 2 := ho.sqrt_pos two_pos
    have hp' : 0 < |mp.pressure| := abs_pos.2 hp
    unfold etaOf inertial
    rw [XF.fin_div _ hp'.ne']
    have : ¬ c.mat.rho_s / |mp.pressure| < 0 := not_lt.2 (by positivity)
    simp only [XF.sqrt, if_neg this, XF.fin_mul, XF.fin_add]
    rcases hDn.eq_or_lt with h | h
    · rw [← h]
      simp only [mul_zero, zero_mul, add_zero]
      rw [XF.fin_div_zero (by positivity)]
      exact ⟨_, le_rfl, fun _ _ h => h, rfl⟩
    · rw [XF.fin_div _ (by positivity)]
      refine ⟨_, min_le_right _ _, fun hb hsz he => le_min ?_ he, rfl⟩
      have hsz' : 0 ≤ meanSize c.s mp.phi := hsz
      have hsq := ho.sqrt_nonneg _ (not_lt.1 this)
      positivity
  have hX : ∀ i j, (linearMuRaw c mp mu0).2.2.2.2 i j = .fin
      (((linearMuRaw c mp mu0).2.2.2.1 • (1 : Mat K) +
        (e / c.dt) • (mp.dstrain - (mp.dstrain.trace / 3) • (1 : Mat K)) - mp.stress) i j) := by
    intro i j
    have : (linearMuRaw c mp mu0).2.2.2.2 = flowStressInc (linearMuRaw c mp mu0).2.2.2.1
        (linearMuRaw c mp mu0).2.2.1 (mp.dstrain - (mp.dstrain.trace / 3) • (1 : Mat K)) c.dt
        mp.stress := rfl
    rw [this, heta, flowStressInc_of_fin hdt.ne']
    simp only [Matrix.sub_apply, Matrix.add_apply, Matrix.smul_apply, smul_eq_mul]
    congr 1; ring
  have hY : ∀ i j, (linearMuRaw c mp mu0).2.2.1 *
      .fin ((mp.dstrain - (mp.dstrain.trace / 3) • (1 : Mat K)) i j) / .fin c.dt = .fin
      (((e / c.dt) • (mp.dstrain - (mp.dstrain.trace / 3) • (1 : Mat K))) i j) := by
    intro i j
    rw [heta, XF.fin_mul, XF.fin_div _ hdt.ne', Matrix.smul_apply, smul_eq_mul]
    congr 1; ring
  simp only [runLaw, lawLinearMu, hm, PyNum.num]
  simp only [bind, Except.bind, if_neg hdt.ne', finMat_of hX, finMat_of hY]
  refine ⟨_, rfl, rfl, ?_, ?_, e, hle, hnn, ?_⟩
  · simp only [linearMuRaw]
    split
    · rename_i h; rw [min_eq_right h.le]
    · rename_i h; rw [min_eq_left (not_lt.1 h)]
  · simp only; abel
  · simp only [rate_dev, smul_smul]
    congr 1; ring

/-- At zero pressure every component of its stress increment is NaN, whatever the strain, the
history and the parameters. -/
theorem c40_nan {c : LawCtx K ns} {mp : Particle K ns} (mu0 : K) (hp : mp.pressure = 0)
    (i j : Fin 3) : (linearMuRaw c mp mu0).2.2.2.2 i j = .nan ∧
      (c.mat.mu_0 = .scalar mu0 → c.dt ≠ 0 → runLaw .linear_mu c mp = .error .nonFinite) := by
  have heta : (linearMuRaw c mp mu0).2.2.1 = .nan := by
    simp only [linearMuRaw]
    generalize c.ops.sqrt (frob ((2 / c.dt) • (mp.dstrain - (mp.dstrain.trace / 3) • (1 : Mat K)))
      ((2 / c.dt) • (mp.dstrain - (mp.dstrain.trace / 3) • (1 : Mat K)))) = g
    have hI : XF.Special (inertial c.ops c.mat.rho_s g (meanSize c.s mp.phi) mp.pressure) := by
      unfold inertial
      rw [hp, abs_zero]
      exact ((XF.special_div_zero _).sqrt).fin_mul _
    have h4 : etaOf c.ops (.fin mu0 + .fin c.mat.b * inertial c.ops c.mat.rho_s g
        (meanSize c.s mp.phi) mp.pressure) mp.pressure g = .nan := by
      have := ((hI.fin_mul c.mat.b).fin_add mu0).fin_mul (2 * c.ops.sqrt 2)
      unfold etaOf
      rw [hp] at this ⊢
      rw [abs_zero, this.mul_zero, XF.nan_div]
    rw [h4, XF.nan_min]
  have hX : ∀ i j, (linearMuRaw c mp mu0).2.2.2.2 i j = .nan := by
    intro i j
    have : (linearMuRaw c mp mu0).2.2.2.2 = flowStressInc (linearMuRaw c mp mu0).2.2.2.1
        (linearMuRaw c mp mu0).2.2.1 (mp.dstrain - (mp.dstrain.trace / 3) • (1 : Mat K)) c.dt
        mp.stress := rfl
    rw [this, heta]
    unfold flowStressInc
    rw [XF.nan_mul, XF.nan_div, XF.add_nan, XF.nan_sub]
  refine ⟨hX i j, fun hm hdt => ?_⟩
  simp only [runLaw, lawLinearMu, hm, PyNum.num]
  simp only [bind, Except.bind, if_neg hdt]
  have : finMat (linearMuRaw c mp mu0).2.2.2.2 = .error .nonFinite := by
    unfold finMat
    rw [if_neg]
    intro h
    have := h 0 0
    rw [hX] at this
    cases this
  rw [this]

/-- So no step succeeds (without a NaN in the stress) while a point of such a phase has zero
pressure; that includes every point as first made without an initial pressure, and every point
whose pressure was just cut off at zero. -/
theorem c40_step {P : Par K} {interp : Interp K P.G.N} {s s' : St P} (hL : Counted s.L)
    (h : timeMarch P interp s = .ok s') {A : PhaseSt K P.G.ns} (hA : A ∈ s.L)
    (hl : A.ph.law = .linear_mu) {a : Particle K P.G.ns} (ha : a ∈ A.pts) : a.pressure ≠ 0 := by
  intro hp
  obtain ⟨d, p, a4, a5, l, -, -, h5, e4⟩ := timeMarch_law hL h hA ha
  rw [hl] at h5
  have hp4 : a4.pressure = 0 := by rw [e4]; exact hp
  cases hm : A.ph.par.mu_0 with
  | arr x =>
    simp only [runLaw, lawLinearMu, lawCtx, hm, PyNum.num] at h5
    cases h5
  | scalar mu0 =>
    by_cases hdt : d.dt = 0
    · simp only [runLaw, lawLinearMu] at h5
      obtain ⟨m, -, h5⟩ := res_bind_ok.1 h5
      split at h5
      · cases h5
      · rename_i h; exact h hdt
    · rw [(c40_nan mu0 hp4 0 0).2 hm hdt] at h5
      cases h5

/-- The two ways to get there. -/
theorem c40_reach {c : LawCtx K ns} {mp mp' : Particle K ns} {l : List (Vis × XF K)} :
    (runLaw .linear_mu c mp = .ok (mp', l) →
      0 ≤ mp.pressure + c.mat.Kb * (mp.dstrain.trace / 3) → mp'.pressure = 0) ∧
    (∀ (P : Par K) (S0 : First K) (ph : Phase K ns) (g x y : K) (phi : Option (Fin ns → K))
      (q : Particle K ns), P.pressure = .none → mkParticle P S0 ph g x y phi = .ok q →
      q.pressure = 0) := by
  constructor
  · intro h hp
    simp only [runLaw, lawLinearMu] at h
    obtain ⟨m, -, h⟩ := res_bind_ok.1 h
    split at h
    · cases h
    obtain ⟨x, -, h⟩ := res_bind_ok.1 h
    obtain ⟨y, -, h⟩ := res_bind_ok.1 h
    cases h
    simp only [linearMuRaw]
    split
    · rfl
    · rename_i h'; exact le_antisymm (not_lt.1 h') hp
  · intro P S0 ph g x y phi q hP h
    have hc := c34_consistent h
    have hs : q.stress = 0 := by
      obtain ⟨st, h1, h⟩ := res_bind_ok.1 h
      obtain ⟨fl, h2, h⟩ := res_bind_ok.1 h
      unfold initStress at h1
      rw [hP] at h1
      cases h1
      cases h
      rfl
    have e := congrArg Matrix.trace hc.2.2.2.1
    rw [Matrix.trace_add, Matrix.trace_smul, hc.2.2.2.2, trace_one3, hs, Matrix.trace_zero,
      smul_eq_mul, add_zero] at e
    linarith

/-! ## C41 -/

/-- Under downward gravity the viscosity of `ken_kamrin` is negative in every state of positive
density, so the deviatoric stress always opposes the strain rate it should follow and does negative
work. -/
theorem c41_negative {c : LawCtx K ns} (hg : c.max_g < 0) (hh : 0 < c.height) (hdt : 0 < c.dt)
    {mp mp' : Particle K ns} (hr : 0 < mp.rho) {l : List (Vis × XF K)}
    (h : runLaw .ken_kamrin c mp = .ok (mp', l)) :
    (∃ eta < (0 : K), mp'.dev_stress = (2 * eta) • deviator (rate c.dt mp.dstrain)) ∧
    (deviator mp.dstrain ≠ 0 → ∑ i, ∑ j, mp'.dev_stress i j * deviator mp.dstrain i j < 0) := by
  simp only [runLaw, lawKenKamrin, if_neg hdt.ne'] at h
  obtain ⟨i0, -, h⟩ := res_bind_ok.1 h
  have hk : ∀ p g, kenKamrinEta c i0 p g mp.rho < 0 := by
    intro p g
    unfold kenKamrinEta
    refine (min_le_right _ _).trans_lt ?_
    have h1 : 0 < 250 * mp.rho := by positivity
    have h2 : 0 < c.height ^ 3 := by positivity
    exact mul_neg_of_neg_of_pos (mul_neg_of_pos_of_neg h1 hg) h2
  have key : ∃ eta < (0 : K), mp'.dev_stress =
      (2 * eta) • deviator (rate c.dt mp.dstrain) := by
    cases h
    have aux : ∀ e : K, e < 0 → ∃ eta < (0 : K), e • ((2 / c.dt) • (mp.dstrain - (mp.dstrain.trace / 3) •
        (1 : Mat K))) = (2 * eta) • deviator (rate c.dt mp.dstrain) := by
      intro e he
      refine ⟨e, he, ?_⟩
      rw [rate_dev, smul_smul, smul_smul]
      congr 1; ring
    exact aux _ (hk _ _)
  refine ⟨key, fun hD => ?_⟩
  obtain ⟨e, he, hd⟩ := key
  change frob mp'.dev_stress (deviator mp.dstrain) < 0
  rw [hd, rate_dev, ← deviator_eq, frob_smul, frob_smul]
  exact mul_neg_of_neg_of_pos (by linarith) (mul_pos (one_div_pos.2 hdt) (frob_self_pos hD))

/-- C41.  More exactly: whatever the state, the parameters and the shear rate, the viscosity is the
(negative) upper bound `250*rho*max_g*height^3` itself, so the friction law has no effect at all. -/
theorem c41_constant {c : LawCtx K ns} (hg : c.max_g < 0) (hh : 0 < c.height) (hdt : 0 < c.dt)
    {mp mp' : Particle K ns} (hr : 0 < mp.rho) {l : List (Vis × XF K)}
    (h : runLaw .ken_kamrin c mp = .ok (mp', l)) :
    mp'.dev_stress = (2 * (250 * mp.rho * c.max_g * c.height ^ 3)) • deviator (rate c.dt mp.dstrain) := by
  simp only [runLaw, lawKenKamrin, if_neg hdt.ne'] at h
  obtain ⟨i0, -, h⟩ := res_bind_ok.1 h
  have hk : ∀ p g, kenKamrinEta c i0 p g mp.rho = 250 * mp.rho * c.max_g * c.height ^ 3 := by
    intro p g
    unfold kenKamrinEta
    refine min_eq_right ?_
    have h1 : 0 < 250 * mp.rho := by positivity
    have h2 : 0 < c.height ^ 3 := by positivity
    exact (mul_neg_of_neg_of_pos (mul_neg_of_pos_of_neg h1 hg) h2).le.trans (le_max_right _ _)
  cases h
  simp only [hk]
  rw [rate_dev, smul_smul, smul_smul]
  congr 1; ring

/-- C41.  If gravity is given as a positive number instead, the viscosity is between zero and that
bound. -/
theorem c41_upward {c : LawCtx K ns} (hg : 0 ≤ c.max_g) (hh : 0 < c.height) (hdt : 0 < c.dt)
    {mp mp' : Particle K ns} (hr : 0 < mp.rho) {l : List (Vis × XF K)}
    (h : runLaw .ken_kamrin c mp = .ok (mp', l)) :
    ∃ eta, 0 ≤ eta ∧ eta ≤ 250 * mp.rho * c.max_g * c.height ^ 3 ∧
      mp'.dev_stress = (2 * eta) • deviator (rate c.dt mp.dstrain) := by
  simp only [runLaw, lawKenKamrin, if_neg hdt.ne'] at h
  obtain ⟨i0, -, h⟩ := res_bind_ok.1 h
  have hk : ∀ p g, 0 ≤ kenKamrinEta c i0 p g mp.rho ∧
      kenKamrinEta c i0 p g mp.rho ≤ 250 * mp.rho * c.max_g * c.height ^ 3 := by
    intro p g
    unfold kenKamrinEta
    exact ⟨le_min (le_max_right _ _) (by positivity), min_le_right _ _⟩
  cases h
  have aux : ∀ e : K, 0 ≤ e ∧ e ≤ 250 * mp.rho * c.max_g * c.height ^ 3 → ∃ eta, 0 ≤ eta ∧
      eta ≤ 250 * mp.rho * c.max_g * c.height ^ 3 ∧ e • ((2 / c.dt) • (mp.dstrain - (mp.dstrain.trace / 3) •
        (1 : Mat K))) = (2 * eta) • deviator (rate c.dt mp.dstrain) := by
    intro e he
    refine ⟨e, he.1, he.2, ?_⟩
    rw [rate_dev, smul_smul, smul_smul]
    congr 1; ring
  exact aux _ (hk _ _)

/-! ## C43 -/

/-- `dp` raises AttributeError on every point without a friction coefficient, and so on every point
as constructed, however strained and stressed since. -/
theorem c43_dp {c : LawCtx K ns} {P : Par K} {S0 : First K} {ph : Phase K ns} {g x y : K}
    {phi : Option (Fin ns → K)} {q mp : Particle K ns}
    (h : mkParticle P S0 ph g x y phi = .ok q) (hmu : mp.mu = q.mu) :
    runLaw .dp c mp = .error .attribute := by
  have : q.mu = none := by
    obtain ⟨st, h1, h⟩ := res_bind_ok.1 h
    obtain ⟨fl, h2, h⟩ := res_bind_ok.1 h
    cases h; rfl
  simp only [runLaw, lawDp, hmu, this]

/-- No step succeeds with such a point. -/
theorem c43_dp_step {P : Par K} {interp : Interp K P.G.N} {s s' : St P} (hL : Counted s.L)
    (h : timeMarch P interp s = .ok s') {A : PhaseSt K P.G.ns} (hA : A ∈ s.L)
    (hl : A.ph.law = .dp) {a : Particle K P.G.ns} (ha : a ∈ A.pts) : a.mu ≠ none := by
  intro hmu
  obtain ⟨d, p, a4, a5, l, -, -, h5, e4⟩ := timeMarch_law hL h hA ha
  rw [hl] at h5
  have hm : a4.mu = none := by rw [e4]; exact hmu
  simp only [runLaw, lawDp, hm] at h5
  cases h5

/-- `pouliquen` with a scalar parameter raises: a TypeError if the parameters read before it are
arrays (or it is the first), an IndexError if one of those is an empty array. -/
theorem c43_pouliquen {c : LawCtx K ns} (hns : 0 < ns) (mp : Particle K ns) {x : K}
    (h : c.mat.mu_0 = .scalar x ∨ c.mat.delta_mu = .scalar x ∨ c.mat.I_0 = .scalar x) :
    (runLaw .pouliquen c mp = .error .type ∨ runLaw .pouliquen c mp = .error .index) ∧
    (c.mat.mu_0 ≠ .arr [] → c.mat.delta_mu ≠ .arr [] → runLaw .pouliquen c mp = .error .type) := by
  obtain ⟨n, rfl⟩ : ∃ n, ns = n + 1 := ⟨ns - 1, by omega⟩
  have hget : ∀ a : PyNum K, (∃ x, a.get 0 = .ok x) ∨ (a = .arr [] ∧ a.get 0 = .error .index) ∨
      ((∃ x, a = .scalar x) ∧ a.get 0 = .error .type) := by
    intro a
    cases a with
    | scalar x => exact .inr (.inr ⟨⟨x, rfl⟩, rfl⟩)
    | arr l => cases l with
      | nil => exact .inr (.inl ⟨rfl, rfl⟩)
      | cons y l => exact .inl ⟨y, rfl⟩
  have hsc : ∀ (a : PyNum K), a = .scalar x → a.get 0 = .error .type := by
    rintro a rfl; rfl
  have hrun : runLaw .pouliquen c mp = .error .type ∨ runLaw .pouliquen c mp = .error .index ∧
      (c.mat.mu_0 = .arr [] ∨ c.mat.delta_mu = .arr []) := by
    simp only [runLaw, lawPouliquen, phiMeans, List.finRange_succ, List.foldlM_cons]
    simp only [bind, Except.bind, Fin.val_zero]
    rcases hget c.mat.mu_0 with ⟨a, e1⟩ | ⟨e0, e1⟩ | ⟨-, e1⟩
    · rw [e1]
      simp only
      rcases hget c.mat.delta_mu with ⟨b, e2⟩ | ⟨e0, e2⟩ | ⟨-, e2⟩
      · rw [e2]
        simp only
        rcases h with h | h | h
        · rw [hsc _ h] at e1; cases e1
        · rw [hsc _ h] at e2; cases e2
        · rw [hsc _ h]; exact .inl rfl
      · rw [e2]; exact .inr ⟨rfl, .inr e0⟩
      · rw [e2]; exact .inl rfl
    · rw [e1]; exact .inr ⟨rfl, .inl e0⟩
    · rw [e1]; exact .inl rfl
  refine ⟨hrun.imp id And.left, fun h1 h2 => ?_⟩
  rcases hrun with h | ⟨-, h | h⟩
  · exact h
  · exact absurd h h1
  · exact absurd h h2

/-- `dp_rate` gives NaN on every component of the in-plane stress increment when the in-plane
stress has no shear, so the law never completes with finite stresses. -/
theorem c43_dp_rate {c : LawCtx K ns} (ho : GoodOps c.ops) {mp : Particle K ns}
    (h1 : mp.stress 0 0 = mp.stress 1 1) (h2 : mp.stress 0 1 = 0) (h3 : mp.stress 1 0 = 0) :
    (∀ i j, dpRateGuts c.ops c.mat0 (-block2 mp.dstrain) (-block2 mp.stress) i j = .nan) ∧
    runLaw .dp_rate c mp = .error .nonFinite := by
  have hs : (-block2 mp.stress) - ((-block2 mp.stress).trace / 2) • (1 : Matrix (Fin 2) (Fin 2) K) = 0 := by
    ext i j
    have e0 : (Fin.castSucc (0 : Fin 2) : Fin 3) = 0 := rfl
    have e1 : (Fin.castSucc (1 : Fin 2) : Fin 3) = 1 := rfl
    fin_cases i <;> fin_cases j <;>
      simp [block2, Matrix.trace, Fin.sum_univ_two, e0, e1, h1, h2, h3] <;> ring
  have hn : ∀ i j, dpRateGuts c.ops c.mat0 (-block2 mp.dstrain) (-block2 mp.stress) i j = .nan := by
    intro i j
    unfold dpRateGuts
    simp only [hs]
    have hq : c.ops.sqrt (3 * frob (0 : Matrix (Fin 2) (Fin 2) K) 0 / 2) = 0 := by
      simp [frob, ho.sqrt_zero]
    rw [hq]
    simp only [Matrix.zero_apply, mul_zero, zero_mul]
    rw [XF.zero_div_zero, XF.nan_mul, XF.sub_nan, XF.mul_nan, XF.nan_add]
  refine ⟨hn, ?_⟩
  simp only [runLaw, lawDpRate]
  have : finMat (fun i j => if h : i.val < 2 ∧ j.val < 2 then
      -(dpRateGuts c.ops c.mat0 (-block2 mp.dstrain) (-block2 mp.stress) ⟨i, h.1⟩ ⟨j, h.2⟩)
      else .fin (mp.dstress i j)) = .error .nonFinite := by
    unfold finMat
    rw [if_neg]
    intro h
    have := h 0 0
    simp only [Fin.val_zero, Nat.ofNat_pos, and_self, dite_true, hn] at this
    cases this
  rw [this]
  rfl

/-- So no step succeeds with finite stresses while a point of such a phase has a shear-free in-plane
stress, as every point made without initial pressure has. -/
theorem c43_dp_rate_step {P : Par K} (ho : GoodOps P.ops) {interp : Interp K P.G.N} {s s' : St P}
    (hL : Counted s.L) (h : timeMarch P interp s = .ok s') {A : PhaseSt K P.G.ns} (hA : A ∈ s.L)
    (hl : A.ph.law = .dp_rate) {a : Particle K P.G.ns} (ha : a ∈ A.pts) :
    ¬ (a.stress 0 0 = a.stress 1 1 ∧ a.stress 0 1 = 0 ∧ a.stress 1 0 = 0) := by
  rintro ⟨h1, h2, h3⟩
  obtain ⟨d, p, a4, a5, l, -, -, h5, e4⟩ := timeMarch_law hL h hA ha
  rw [hl] at h5
  have hm : a4.stress = a.stress := by rw [e4]
  rw [(c43_dp_rate ho (by rw [hm]; exact h1) (by rw [hm]; exact h2) (by rw [hm]; exact h3)).2] at h5
  cases h5

end

/-! ## Examples -/

/-- Scalar parameters, for the laws that need them; `gamma_c = tau_0/(mu_0-mu_s)`. -/
def Ex.ctxS {K : Type} [Field K] (o : Ops K) : LawCtx K 2 :=
  { Ex.ctxF o with mat := { Ex.matF K with mu_0 := .scalar 2, delta_mu := .scalar 1, I_0 := .scalar 1 } }

/-- A viscous phase over two steps, with a pressure that moved. -/
example : ∃ s s' : St Ex.par, Counted s.L ∧ steps Ex.par (Ex.noInterp _) 2 s = .ok s' ∧
    ∃ B, s'.L[0]? = some B ∧ B.ph.law = .viscous ∧ ∃ b ∈ B.pts, b.pressure ≠ 0 ∧
      b.dev_stress ≠ 0 := by
  obtain ⟨G, s', hG, hs, hc⟩ := Ex.run_ok (P := Ex.par) (d := Ex.dyn)
    (L := [{ ph := { Ex.ph with law := .viscous }, pts := [Ex.mp, Ex.mp2] }]) (n := 2)
    (check := fun s => match s.L with
      | [B] => decide (B.ph.law = .viscous ∧ ∃ b ∈ B.pts, b.pressure ≠ 0 ∧ b.dev_stress ≠ 0)
      | _ => false)
    (by decide +kernel)
  refine ⟨_, s', ?_, hs, ?_⟩
  · have : ∀ a ∈ ([{ ph := { Ex.ph with law := .viscous }, pts := [Ex.mp, Ex.mp2] }] :
      List (PhaseSt ℚ 2)), a.ph.n = a.pts.length := by decide +kernel
    exact this
  · split at hc
    · rename_i B h
      obtain ⟨h1, h2⟩ := of_decide_eq_true hc
      exact ⟨B, by rw [h]; rfl, h1, h2⟩
    · cases hc

/-- The Bingham theorems apply to real functions. -/
example : GoodOps (Ex.ctxS (realOps 1)).ops ∧ (Ex.ctxS (realOps 1)).mat.mu_0 = .scalar 2 ∧
    (Ex.ctxS (realOps 1)).mat.gamma_c = (Ex.ctxS (realOps 1)).mat.tau_0 /
      (2 - (Ex.ctxS (realOps 1)).mat.mu_s) ∧
    ∃ r, runLaw .bingham (Ex.ctxS (realOps 1)) (Ex.pointF ℝ) = .ok r := by
  refine ⟨realOps_good one_pos, rfl, ?_, c37_runs (mu0 := 2) rfl ?_ ?_ _⟩
  · simp [Ex.ctxS, Ex.ctxF, Ex.matF]; norm_num
  · simp [Ex.ctxS, Ex.ctxF]
  · simp [Ex.ctxS, Ex.ctxF, Ex.matF]

/-- So do those on the mu(I) law. -/
example : GoodOps (Ex.ctxF (realOps 1)).ops ∧
    HasArrays 2 (Ex.ctxF (realOps 1)).mat [1, 1] [1, 1] [1, 1] ∧ 0 < (Ex.ctxF (realOps 1)).dt ∧
    NonNegMix (Ex.ctxF (realOps 1)).mat (Ex.ctxF (realOps 1)).s (Ex.pointF ℝ).phi
      [1, 1] [1, 1] [1, 1] ∧ (Ex.pointF ℝ).pressure ≠ 0 ∧ 0 ≤ (Ex.ctxF (realOps 1)).mat.rho_s := by
  refine ⟨realOps_good one_pos, ⟨rfl, rfl, rfl, by simp, by simp, by simp⟩, ?_, ⟨?_, ?_, ?_, ?_, ?_, ?_⟩,
    ?_, ?_⟩
  · simp [Ex.ctxF]
  · simp
  · simp
  · simp
  · intro i; fin_cases i <;> simp [Ex.ctxF]
  · intro i; fin_cases i <;> simp [Ex.pointF] <;> norm_num
  · simp [Ex.ctxF, Ex.matF]
  · simp [Ex.pointF]
  · simp [Ex.ctxF, Ex.matF]

/-- The linear law: a regular state over the reals, and a successful step over the rationals. -/
example : (Ex.ctxS (realOps 1)).mat.mu_0 = .scalar 2 ∧ 0 < (Ex.ctxS (realOps 1)).dt ∧
    0 ≤ (Ex.ctxS (realOps 1)).mat.rho_s ∧ (Ex.pointF ℝ).pressure ≠ 0 := by
  refine ⟨rfl, ?_, ?_, ?_⟩ <;> simp [Ex.ctxS, Ex.ctxF, Ex.matF, Ex.pointF]

example : ∃ s s' : St Ex.par, Counted s.L ∧ timeMarch Ex.par (Ex.noInterp _) s = .ok s' ∧
    ∃ A ∈ s.L, A.ph.law = .linear_mu ∧ ∃ a ∈ A.pts, a.pressure ≠ 0 := by
  obtain ⟨G, s', hG, hs, hc⟩ := Ex.run_ok (P := Ex.par) (d := Ex.dyn)
    (L := [{ ph := { Ex.ph with law := .linear_mu, par := { Ex.ph.par with mu_0 := .scalar 1, rho_s := 1 } }
             pts := [{ Ex.mp with pressure := -1 }, { Ex.mp2 with pressure := -2 }] }]) (n := 1)
    (check := fun _ => true)
    (by decide +kernel)
  obtain ⟨s1, h1, h2⟩ := steps_succ.1 hs
  refine ⟨_, s1, ?_, h1, _, List.mem_singleton.2 rfl, rfl, _, List.mem_cons_self, ?_⟩
  · have : ∀ a ∈ ([{ ph := { Ex.ph with law := .linear_mu, par := { Ex.ph.par with mu_0 := .scalar 1, rho_s := 1 } }
                     pts := [{ Ex.mp with pressure := -1 }, { Ex.mp2 with pressure := -2 }] }] :
      List (PhaseSt ℚ 2)), a.ph.n = a.pts.length := by decide +kernel
    exact this
  · decide +kernel

/-- `ken_kamrin` runs with a negative viscosity. -/
example : (Ex.ctxS (realOps 1)).max_g < 0 ∧ 0 < (Ex.ctxS (realOps 1)).height ∧
    0 < (Ex.ctxS (realOps 1)).dt ∧ 0 < (Ex.pointF ℝ).rho ∧
    (∃ r, runLaw .ken_kamrin (Ex.ctxS (realOps 1)) (Ex.pointF ℝ) = .ok r) ∧
    deviator (Ex.pointF ℝ).dstrain ≠ 0 := by
  refine ⟨by simp [Ex.ctxS, Ex.ctxF], by simp [Ex.ctxS, Ex.ctxF], by simp [Ex.ctxS, Ex.ctxF],
    by simp [Ex.pointF], ?_, ?_⟩
  · have hdt : (Ex.ctxS (realOps 1)).dt ≠ 0 := by simp [Ex.ctxS, Ex.ctxF]
    simp only [runLaw, lawKenKamrin, if_neg hdt]
    exact ⟨_, rfl⟩
  · intro h
    have := congrFun (congrFun h 0) 0
    simp [deviator, Ex.pointF] at this

/-- It also runs with gravity given as a positive number. -/
example : 0 ≤ ({ Ex.ctxS (realOps 1) with max_g := 10 } : LawCtx ℝ _).max_g ∧
    ∃ r, runLaw .ken_kamrin { Ex.ctxS (realOps 1) with max_g := 10 } (Ex.pointF ℝ) = .ok r := by
  refine ⟨by norm_num, ?_⟩
  have hdt : ({ Ex.ctxS (realOps 1) with max_g := 10 } : LawCtx ℝ _).dt ≠ 0 := by simp [Ex.ctxS, Ex.ctxF]
  simp only [runLaw, lawKenKamrin, if_neg hdt]
  exact ⟨_, rfl⟩

/-- The failures: a constructed point, a scalar parameter, a point without shear stress. -/
example : (∃ mp, mkParticle Ex.par { law := .dp, rho := 1 } Ex.ph (-10) 1 1 none = .ok mp) ∧
    (Ex.ctxS Ex.ops).mat.mu_0 = .scalar 2 ∧
    runLaw .dp_rate (Ex.ctxF (realOps 1)) { Ex.pointF ℝ with stress := 0 } = .error .nonFinite := by
  refine ⟨?_, rfl, (c43_dp_rate (realOps_good one_pos) rfl rfl rfl).2⟩
  obtain ⟨r, h1, h2⟩ := Ex.okAnd_ok (r := mkParticle Ex.par { law := .dp, rho := 1 } Ex.ph (-10) 1 1 none)
    (check := fun _ => true) (by decide +kernel)
  exact ⟨r, h1⟩

end Mpm

import Verif.Props.Solids
import Verif.Props.Fluids
import Verif.Props.Lists
import Verif.Examples
import Mathlib.Analysis.SpecialFunctions.Pow.Deriv
import Mathlib.Analysis.SpecialFunctions.Log.Deriv

/-!
# Initial conditions

C64 the constructed material points; C65 the initial stress and the viscous profile are in
equilibrium; C66 the Bagnold profile; C67 the Poiseuille profile.
-/

set_option linter.unusedSectionVars false

namespace Mpm
open Spec

section
variable {K : Type} [Field K] [LinearOrder K] [IsStrictOrderedRing K] [FloorRing K]
  {ns : ℕ}

/-! ## C64 -/

/-- What the constructor must produce for the `i`-th point of a phase. -/
structure Spec.Placed (P : Par K) (g : K) (ph : Phase K ns) (D : PhaseInit K ns) (i : ℕ)
    (mp : Particle K ns) : Prop where
  x : D.X[i]? = some (mp.x 0)
  y : D.Y[i]? = some (mp.x 1)
  z : mp.x 2 = 0
  rho : mp.rho = ph.par.rho
  m : mp.m = ph.par.rho * (ph.A * P.G.thickness)
  V : mp.V = ph.A * P.G.thickness
  phi : if D.heterogeneous then D.PHI[i]? = some mp.phi else mp.phi = ph.phi
  b : mp.b = ![g * P.sinθ, g * P.cosθ, 0]
  rest : P.initial_flow = .none → mp.v = if ph.hasIv then .shared else .own 0

theorem mkParticle_made {P : Par K} {S0 : First K} {ph : Phase K ns} {g x y : K}
    {phi : Option (Fin ns → K)} {mp : Particle K ns}
    (h : mkParticle P S0 ph g x y phi = .ok mp) :
    mp.x = ![x, y, 0] ∧ mp.rho = ph.par.rho ∧ mp.m = ph.par.rho * (ph.A * P.G.thickness) ∧
      mp.V = ph.A * P.G.thickness ∧ mp.phi = phi.getD ph.phi ∧
      mp.b = ![g * P.sinθ, g * P.cosθ, 0] ∧
      (P.initial_flow = .none → mp.v = if ph.hasIv then .shared else .own 0) := by
  obtain ⟨st, h1, h⟩ := res_bind_ok.1 h
  obtain ⟨fl, h2, h⟩ := res_bind_ok.1 h
  cases h
  refine ⟨rfl, rfl, rfl, rfl, ?_, rfl, fun hf => ?_⟩
  · cases phi <;> rfl
  · unfold initFlow at h2
    rw [hf] at h2
    cases h2
    rfl

theorem mkPoints_placed {P : Par K} {S0 : First K} {ph : Phase K ns} {g : K} {D : PhaseInit K ns}
    {n : ℕ} {l : List (Particle K ns)}
    (h : mkPoints P S0 ph g D.X D.Y (if D.heterogeneous then some D.PHI else none) n = .ok l) :
    l.length = n ∧ ∀ i mp, l[i]? = some mp → Placed P g ph D i mp := by
  refine ⟨mkPoints_length h, ?_⟩
  induction n generalizing l with
  | zero => cases h; intro i mp hi; simp at hi
  | succ n ih =>
    unfold mkPoints at h
    obtain ⟨l1, h1, h⟩ := res_bind_ok.1 h
    have hlen := mkPoints_length h1
    have ih := ih h1
    have fin : ∀ q, Placed P g ph D n q → ∀ i mp, (l1 ++ [q])[i]? = some mp →
        Placed P g ph D i mp := by
      intro q hq i mp hi
      rw [List.getElem?_append] at hi
      split at hi
      · exact ih i mp hi
      · rename_i hge
        rw [hlen] at hi hge
        have : i = n := by
          by_contra hne
          rw [List.getElem?_eq_none (by simp; omega)] at hi
          cases hi
        subst this
        simp at hi
        exact hi ▸ hq
    split at h
    · rename_i x y hX hY
      cases hh : D.heterogeneous <;> rw [hh] at h
      · simp only [Bool.false_eq_true, if_false] at h
        obtain ⟨q, hq, h⟩ := res_bind_ok.1 h
        cases h
        obtain ⟨e1, e2, e3, e4, e5, e6, e7⟩ := mkParticle_made hq
        exact fin q ⟨by rw [hX, e1]; rfl, by rw [hY, e1]; rfl, by rw [e1]; rfl, e2, e3, e4,
          by rw [hh]; exact e5, e6, e7⟩
      · simp only [if_true] at h
        split at h
        · cases h
        rename_i f hf
        obtain ⟨q, hq, h⟩ := res_bind_ok.1 h
        cases h
        obtain ⟨e1, e2, e3, e4, e5, e6, e7⟩ := mkParticle_made hq
        exact fin q ⟨by rw [hX, e1]; rfl, by rw [hY, e1]; rfl, by rw [e1]; rfl, e2, e3, e4,
          by rw [hh]; simp only [if_true]; rw [hf, e5]; rfl, e6, e7⟩
    · cases h

/-- Every phase gets the requested number of points, in the order of the coordinate lists, each at
its coordinates, with the phase's density, volume `A` times thickness, and the fractions given for
that point (or the phase's). -/
theorem c64_points {P : Par K} {g : K} {S : List (Phase K ns × PhaseInit K ns)}
    {L : List (PhaseSt K ns)} (h : mkList P g S = .ok L) :
    List.Forall₂ (fun a b => b.ph = a.1 ∧ b.pts.length = a.1.n ∧
      ∀ i mp, b.pts[i]? = some mp → Placed P g a.1 a.2 i mp) S L := by
  refine (mapM_forall₂ h).imp ?_
  intro a b h
  obtain ⟨l, h1, h⟩ := res_bind_ok.1 h
  cases h
  exact ⟨rfl, mkPoints_placed h1⟩

/-- A phase that asks for more points than it gives coordinates cannot be constructed. -/
theorem c64_too_few {P : Par K} {g : K} {S : List (Phase K ns × PhaseInit K ns)}
    {a : Phase K ns × PhaseInit K ns} (ha : a ∈ S)
    (hn : a.2.X.length < a.1.n ∨ a.2.Y.length < a.1.n ∨
      (a.2.heterogeneous = true ∧ a.2.PHI.length < a.1.n)) : ∃ e, mkList P g S = .error e := by
  cases h : mkList P g S with
  | error e => exact ⟨e, rfl⟩
  | ok L =>
    exfalso
    have r := c64_points h
    have key : ∀ {S : List (Phase K ns × PhaseInit K ns)} {L : List (PhaseSt K ns)},
        List.Forall₂ (fun a b => b.ph = a.1 ∧ b.pts.length = a.1.n ∧
          ∀ i mp, b.pts[i]? = some mp → Placed P g a.1 a.2 i mp) S L → a ∈ S →
        ∃ b : PhaseSt K ns, b.pts.length = a.1.n ∧
          ∀ i mp, b.pts[i]? = some mp → Placed P g a.1 a.2 i mp := by
      intro S L r
      induction r with
      | nil => intro ha; cases ha
      | cons hab _ ih =>
        intro ha
        rcases List.mem_cons.1 ha with rfl | ha
        · exact ⟨_, hab.2⟩
        · exact ih ha
    obtain ⟨b, hl, hb⟩ := key r ha
    have hpos : a.1.n - 1 < b.pts.length := by omega
    have q := hb (a.1.n - 1) _ (List.getElem?_eq_getElem hpos)
    rcases hn with hn | hn | ⟨hh, hn⟩
    · have := q.x
      rw [List.getElem?_eq_none (by omega)] at this
      cases this
    · have := q.y
      rw [List.getElem?_eq_none (by omega)] at this
      cases this
    · have := q.phi
      rw [hh, if_pos rfl, List.getElem?_eq_none (by omega)] at this
      cases this

section
open Ex

/-- Two heterogeneous points. -/
example : ∃ L, mkList par (-10) [(ph, ⟨[1/2, 1], [1, 3/2], true, [![1, 0], ![0, 1]]⟩)] = .ok L ∧
    ∃ a ∈ L, ∃ p q, a.pts = [p, q] ∧ p.x = ![1/2, 1, 0] ∧ q.phi = ![0, 1] := by
  refine ⟨_, rfl, _, List.mem_singleton.2 rfl, _, _, rfl, rfl, rfl⟩

/-- One coordinate is missing. -/
example : mkList par (-10) [(ph, ⟨[1/2], [1, 3/2], false, []⟩)] = .error .index := rfl
end

/-! ## C65 -/

/-- A lithostatic material is in equilibrium with gravity: between two heights, the vertical and
shear stress change by minus the weight (per area) of the material in between. -/
theorem c65_lithostatic {P : Par K} {S0 : First K} {ph : Phase K ns} {x1 x2 y1 y2 : K}
    {f1 f2 : Option (Fin ns → K)} {mp1 mp2 : Particle K ns} (hp : P.pressure = .lithostatic)
    (h1 : mkParticle P S0 ph P.max_g x1 y1 f1 = .ok mp1)
    (h2 : mkParticle P S0 ph P.max_g x2 y2 f2 = .ok mp2) :
    ∀ c : Fin 2, mp2.stress c.castSucc 1 - mp1.stress c.castSucc 1 =
      -((y2 - y1) * mp1.rho * mp1.b c.castSucc) := by
  rw [litho_entries hp h1, litho_entries hp h2, (mkParticle_made h1).2.1,
    (mkParticle_made h1).2.2.2.2.2.1]
  intro c
  fin_cases c <;> simp <;> ring

/-- The horizontal velocity the constructor gives to a point at height `y` of a steady flow down a
slope, if the first phase is viscous. -/
theorem viscous_velocity {P : Par K} {S0 : First K} {ph : Phase K ns} {g x y : K}
    {f : Option (Fin ns → K)} {mp : Particle K ns} (hf : P.initial_flow = .steady)
    (hl : S0.law = .viscous ∨ S0.law = .viscous_size) (h : mkParticle P S0 ph g x y f = .ok mp) :
    ph.par.mu_s ≠ 0 ∧ mp.v = .own ![steadyViscousU P ph.par y, 0, 0] := by
  obtain ⟨st, h1, h⟩ := res_bind_ok.1 h
  obtain ⟨fl, h2, h⟩ := res_bind_ok.1 h
  cases h
  unfold initFlow at h2
  rw [hf] at h2
  simp only [hl, if_true] at h2
  split at h2
  · cases h2
  rename_i hz
  cases h2
  exact ⟨hz, rfl⟩

/-- Steady viscous flow down a slope.  Let `u` be the initial velocity as a function of height.  The
material is at rest at `y = 0`, the profile is symmetric about the top `y_M` (no shear stress
there), and the viscous forces balance gravity: for any layer between `y - h` and `y + h`, the
viscosity times the second difference of the velocity is minus the downslope weight. -/
theorem c65_viscous {P : Par K} {S0 : First K} {ph : Phase K ns} (hf : P.initial_flow = .steady)
    (hl : S0.law = .viscous ∨ S0.law = .viscous_size) (hmu : ph.par.mu_s ≠ 0) :
    ∃ u : K → K, u 0 = 0 ∧ (∀ h, u (P.G.y_M + h) = u (P.G.y_M - h)) ∧
      (∀ y h, ph.par.mu_s * (u (y + h) - 2 * u y + u (y - h)) =
        -(h ^ 2 * ph.par.rho * (P.max_g * P.sinθ))) ∧
      ∀ (g x y : K) (f : Option (Fin ns → K)) (mp : Particle K ns),
        mkParticle P S0 ph g x y f = .ok mp → mp.v = .own ![u y, 0, 0] := by
  refine ⟨steadyViscousU P ph.par, ?_, fun h => ?_, fun y h => ?_, fun g x y f mp hm =>
    (viscous_velocity hf hl hm).2⟩
  · simp [steadyViscousU]
  · unfold steadyViscousU
    ring
  · unfold steadyViscousU
    field_simp
    ring

/-- The profile ignores `y_m`: the material at the bottom of the domain is at rest only if the bottom
is at height 0 (or mirrors it at the top). -/
theorem c65_slip {P : Par K} {S0 : First K} {ph : Phase K ns} {g x : K}
    {f : Option (Fin ns → K)} {mp : Particle K ns} (hf : P.initial_flow = .steady)
    (hl : S0.law = .viscous ∨ S0.law = .viscous_size)
    (hr : ph.par.rho ≠ 0) (hg : P.max_g ≠ 0) (hs : P.sinθ ≠ 0)
    (h : mkParticle P S0 ph g x P.G.y_m f = .ok mp) :
    mp.v = .own 0 ↔ P.G.y_m = 0 ∨ P.G.y_m = 2 * P.G.y_M := by
  obtain ⟨hz, e⟩ := viscous_velocity hf hl h
  have e2 : steadyViscousU P ph.par P.G.y_m = ph.par.rho * P.max_g * P.sinθ / ph.par.mu_s *
      (P.G.y_m * (2 * P.G.y_M - P.G.y_m) / 2) := by
    unfold steadyViscousU; field_simp
  have e3 : (mp.v = .own 0) ↔ steadyViscousU P ph.par P.G.y_m = 0 := by
    rw [e, VRef.own.injEq]
    constructor
    · intro h; exact congrFun h 0
    · intro h; rw [h]; ext i; fin_cases i <;> rfl
  have hc : ph.par.rho * P.max_g * P.sinθ / ph.par.mu_s ≠ 0 :=
    div_ne_zero (mul_ne_zero (mul_ne_zero hr hg) hs) hz
  rw [e3, e2, mul_eq_zero, or_iff_right hc, div_eq_zero_iff, or_iff_left two_ne_zero, mul_eq_zero,
    sub_eq_zero, eq_comm (a := 2 * _)]

section
open Ex

/-- A viscous flow down a slope with sine 3/5, cosine 4/5. -/
def Ex.slope : Par ℚ := { par with sinθ := 3/5, cosθ := 4/5, tanθ := 3/4, initial_flow := .steady
                                   pressure := .lithostatic }

example : ∃ p q, mkParticle slope { law := .viscous, rho := 1 } ph (-10) 1 0 none = .ok p ∧
    mkParticle slope { law := .viscous, rho := 1 } ph (-10) 1 2 none = .ok q ∧
    p.v = .own 0 ∧ q.v = .own ![-12, 0, 0] ∧ p.stress = !![-16, -12, 0; -12, -16, 0; 0, 0, -16] := by
  refine ⟨_, _, rfl, rfl, ?_, ?_, ?_⟩
  · rw [VRef.own.injEq]; decide +kernel
  · rw [VRef.own.injEq]; decide +kernel
  · decide +kernel

end

end

/-! ## C66 -/

section
open Ex

/-- Friction coefficient of a granular flow with inertial number `I`. -/
noncomputable def Spec.friction (mu_0 mu_1 I_0 I : ℝ) : ℝ := mu_0 + (mu_1 - mu_0) * I / (I_0 + I)

variable {ns : ℕ}

/-- The initial velocity and shear rate of a point of a steady granular flow. -/
theorem bagnold_velocity {P : Par ℝ} {S0 : First ℝ} {ph : Phase ℝ ns} {g x y mu_0 I_0 : ℝ}
    {f : Option (Fin ns → ℝ)} {mp : Particle ℝ ns} (hf : P.initial_flow = .steady)
    (hl : S0.law = .pouliquen ∨ S0.law = .pouliquen2D) (hm0 : ph.par.mu_0 = .scalar mu_0)
    (hI0 : ph.par.I_0 = .scalar I_0) (h : mkParticle P S0 ph g x y f = .ok mp) :
    y ≤ P.G.y_M ∧ mp.v = .own ![bagnoldU P (bagnoldA P ph.par mu_0 I_0) y, 0, 0] ∧
      mp.gammadot = bagnoldRate P (bagnoldA P ph.par mu_0 I_0) y := by
  obtain ⟨st, h1, h⟩ := res_bind_ok.1 h
  obtain ⟨fl, h2, h⟩ := res_bind_ok.1 h
  cases h
  have nv : ¬ (S0.law = .viscous ∨ S0.law = .viscous_size) := by
    rcases hl with hl | hl <;> rw [hl] <;> decide
  unfold initFlow at h2
  rw [hf] at h2
  simp only [nv, hl, if_true, if_false] at h2
  rw [hm0, hI0] at h2
  obtain ⟨i, hi, h2⟩ := res_bind_ok.1 h2
  obtain ⟨m, hm, h2⟩ := res_bind_ok.1 h2
  cases hi; cases hm
  split at h2
  · cases h2
  rename_i hz
  cases h2
  push Not at hz
  exact ⟨hz.2.2.2.2, rfl, rfl⟩

/-- Steady granular flow down a slope: with real square roots and powers, the initial velocity `u`
vanishes at height 0, the stored shear rate is its derivative, and vanishes at the top. -/
theorem c66_profile {P : Par ℝ} {big : ℝ} (ho : P.ops = realOps big) {S0 : First ℝ}
    {ph : Phase ℝ ns} {mu_0 I_0 : ℝ} (hf : P.initial_flow = .steady)
    (hl : S0.law = .pouliquen ∨ S0.law = .pouliquen2D) (hm0 : ph.par.mu_0 = .scalar mu_0)
    (hI0 : ph.par.I_0 = .scalar I_0) :
    ∃ u γ : ℝ → ℝ, u 0 = 0 ∧ γ P.G.y_M = 0 ∧ (∀ y, y < P.G.y_M → HasDerivAt u (γ y) y) ∧
      ContinuousOn u (Set.Iic P.G.y_M) ∧
      ∀ (g x y : ℝ) (f : Option (Fin ns → ℝ)) (mp : Particle ℝ ns),
        mkParticle P S0 ph g x y f = .ok mp → mp.v = .own ![u y, 0, 0] ∧ mp.gammadot = γ y := by
  refine ⟨bagnoldU P (bagnoldA P ph.par mu_0 I_0), bagnoldRate P (bagnoldA P ph.par mu_0 I_0),
    ?_, ?_, fun y hy => ?_, ?_, fun g x y f mp h => (bagnold_velocity hf hl hm0 hI0 h).2⟩
  · simp [bagnoldU]
  · simp [bagnoldRate, ho, realOps]
  · generalize bagnoldA P ph.par mu_0 I_0 = A
    have h1 : HasDerivAt (fun y : ℝ => P.G.y_M - y) (-1) y := by
      simpa using (hasDerivAt_id y).const_sub P.G.y_M
    have h2 := h1.rpow_const (p := 3 / 2) (Or.inl (by linarith))
    have h3 := ((h2.const_sub (P.G.y_M ^ (3 / 2 : ℝ))).const_mul A).div_const
      (P.s_bar_0 ^ (3 / 2 : ℝ))
    have e : bagnoldU P A = fun y =>
        A * (P.G.y_M ^ (3 / 2 : ℝ) - (P.G.y_M - y) ^ (3 / 2 : ℝ)) / P.s_bar_0 ^ (3 / 2 : ℝ) := by
      funext y; simp [bagnoldU, ho, realOps]
    rw [e]
    refine h3.congr_deriv ?_
    simp only [bagnoldRate, ho, realOps]
    rw [show (3 / 2 - 1 : ℝ) = 1 / 2 by norm_num, ← Real.sqrt_eq_rpow]
    ring
  · have e : bagnoldU P (bagnoldA P ph.par mu_0 I_0) = fun y => bagnoldA P ph.par mu_0 I_0 *
        (P.G.y_M ^ (3 / 2 : ℝ) - (P.G.y_M - y) ^ (3 / 2 : ℝ)) / P.s_bar_0 ^ (3 / 2 : ℝ) := by
      funext y; simp [bagnoldU, ho, realOps]
    rw [e]
    refine ContinuousOn.div_const (continuousOn_const.mul (continuousOn_const.sub ?_)) _
    refine ContinuousOn.rpow_const (by fun_prop) fun y hy => ?_
    right; norm_num

/-- Under lithostatic pressure that flow is in equilibrium with gravity: below the surface, the
friction coefficient of the constructed point is exactly the slope.  The density must be packing
times grain density, and there must be no gap at the top. -/
theorem c66_friction {P : Par ℝ} {big : ℝ} (ho : P.ops = realOps big) {S0 : First ℝ}
    {ph : Phase ℝ ns} {g x y mu_0 I_0 : ℝ} {f : Option (Fin ns → ℝ)} {mp : Particle ℝ ns}
    (hf : P.initial_flow = .steady) (hl : S0.law = .pouliquen ∨ S0.law = .pouliquen2D)
    (hm0 : ph.par.mu_0 = .scalar mu_0) (hI0 : ph.par.I_0 = .scalar I_0)
    (hp : P.pressure = .lithostatic) (hgap : P.top_gap = none)
    (hrho : ph.par.rho = ph.par.packing * ph.par.rho_s) (h1 : 0 < ph.par.packing)
    (h2 : 0 < ph.par.rho_s) (h3 : P.max_g ≠ 0) (h4 : 0 < P.cosθ) (h5 : 0 < P.s_bar_0)
    (h6 : 0 < I_0) (h7 : mu_0 < P.tanθ) (h8 : P.tanθ < ph.par.mu_1) (hy : y < P.G.y_M)
    (h : mkParticle P S0 ph g x y f = .ok mp) :
    0 < mp.gammadot ∧
    friction mu_0 ph.par.mu_1 I_0
      (mp.gammadot * P.s_bar_0 * √(ph.par.rho_s / |mp.pressure|)) = P.tanθ := by
  obtain ⟨-, -, e⟩ := bagnold_velocity hf hl hm0 hI0 h
  have ep : |mp.pressure| = ph.par.packing * P.cosθ * (|P.max_g| * (P.G.y_M - y)) * ph.par.rho_s := by
    have hd : 0 < P.G.y_M - y := by linarith
    have := (c34_consistent h).2.2.1
    have hs := litho_entries hp h
    have e2 : mp.pressure = mp.stress.trace / 3 := by
      obtain ⟨st, h1, h⟩ := res_bind_ok.1 h
      obtain ⟨fl, h2, h⟩ := res_bind_ok.1 h
      cases h
      rfl
    rw [e2, hs]
    simp only [surface, hgap, Option.getD_none, sub_zero, Matrix.trace_smul, trace3]
    simp only [Matrix.of_apply, Matrix.cons_val', Matrix.cons_val_zero, Matrix.cons_val_one,
      Matrix.cons_val, smul_eq_mul]
    rw [hrho, show ph.par.packing * ph.par.rho_s * P.max_g * (P.G.y_M - y) *
      (P.cosθ + P.cosθ + P.cosθ) / 3 =
      ph.par.packing * P.cosθ * (P.max_g * (P.G.y_M - y)) * ph.par.rho_s by ring]
    rw [abs_mul, abs_mul, abs_mul, abs_mul, abs_of_pos h1, abs_of_pos h2, abs_of_pos h4,
      abs_of_pos hd]
  have hd : 0 < P.G.y_M - y := by linarith
  have hg : 0 < |P.max_g| := abs_pos.2 h3
  have hr : 0 < ph.par.mu_1 - P.tanθ := by linarith
  have hr2 : 0 < P.tanθ - mu_0 := by linarith
  have hpow : P.s_bar_0 ^ (3 / 2 : ℝ) = P.s_bar_0 * √P.s_bar_0 := by
    rw [show (3 / 2 : ℝ) = 1 + 1 / 2 by norm_num, Real.rpow_add h5, Real.rpow_one,
      ← Real.sqrt_eq_rpow]
  have hss : 0 < √P.s_bar_0 := Real.sqrt_pos.2 h5
  have hsg : 0 < √|P.max_g| := Real.sqrt_pos.2 hg
  have hsd : 0 < √(P.G.y_M - y) := Real.sqrt_pos.2 hd
  have hsp : 0 < √ph.par.packing := Real.sqrt_pos.2 h1
  have hsc : 0 < √P.cosθ := Real.sqrt_pos.2 h4
  have eg : mp.gammadot = I_0 * (P.tanθ - mu_0) / (ph.par.mu_1 - P.tanθ) *
      (√|P.max_g| * √ph.par.packing * √P.cosθ * √(P.G.y_M - y)) / P.s_bar_0 := by
    rw [e]
    simp only [bagnoldRate, bagnoldA, ho, realOps]
    rw [hpow, Real.sqrt_mul hg.le, Real.sqrt_mul h1.le]
    field_simp
  have eI : mp.gammadot * P.s_bar_0 * √(ph.par.rho_s / |mp.pressure|) =
      I_0 * (P.tanθ - mu_0) / (ph.par.mu_1 - P.tanθ) := by
    have : ph.par.rho_s / |mp.pressure| =
        1 / (ph.par.packing * P.cosθ * (|P.max_g| * (P.G.y_M - y))) := by
      rw [ep]; field_simp
    rw [eg, this, Real.sqrt_div zero_le_one, Real.sqrt_one, Real.sqrt_mul (by positivity),
      Real.sqrt_mul h1.le, Real.sqrt_mul hg.le]
    field_simp
  refine ⟨by rw [eg]; positivity, ?_⟩
  rw [eI]
  unfold friction
  have : ph.par.mu_1 - mu_0 ≠ 0 := by linarith
  have : I_0 + I_0 * (P.tanθ - mu_0) / (ph.par.mu_1 - P.tanθ) =
      I_0 * (ph.par.mu_1 - mu_0) / (ph.par.mu_1 - P.tanθ) := by
    field_simp; ring
  rw [this]
  field_simp
  ring

/-! ## C67 -/

/-- The initial velocity of a point of a Poiseuille flow. -/
theorem poiseuille_velocity {K : Type} [Field K] [LinearOrder K] {P : Par K} {S0 : First K}
    {ph : Phase K ns} {g x y mu_0 I_0 : K}
    {f : Option (Fin ns → K)} {mp : Particle K ns} (hf : P.initial_flow = .steadyPoiseulle)
    (hm0 : ph.par.mu_0 = .scalar mu_0)
    (hI0 : ph.par.I_0 = .scalar I_0) (h : mkParticle P S0 ph g x y f = .ok mp) :
    ∃ u, poiseuilleU P S0.rho ph.par mu_0 I_0 y = .ok u ∧ mp.v = .own ![u, 0, 0] := by
  obtain ⟨st, h1, h⟩ := res_bind_ok.1 h
  obtain ⟨fl, h2, h⟩ := res_bind_ok.1 h
  cases h
  unfold initFlow at h2
  rw [hf] at h2
  simp only at h2
  rw [hm0, hI0] at h2
  obtain ⟨i, hi, h2⟩ := res_bind_ok.1 h2
  cases hi
  obtain ⟨m, hm, h2⟩ := res_bind_ok.1 h2
  cases hm
  obtain ⟨u, hu, h2⟩ := res_bind_ok.1 h2
  cases h2
  exact ⟨u, hu, rfl⟩

/-- The distance from the nearer wall, relative to the height. -/
theorem poiseuilleY_low {P : Par ℝ} {y : ℝ} (hH : P.G.y_m < P.G.y_M)
    (hy : y ≤ (P.G.y_M - P.G.y_m) / 2) : poiseuilleY P y = y / (P.G.y_M - P.G.y_m) := by
  have h : 0 < P.G.y_M - P.G.y_m := by linarith
  unfold poiseuilleY
  rw [if_neg]
  rw [not_lt, div_le_div_iff₀ h two_pos]
  linarith

theorem poiseuilleY_high {P : Par ℝ} {y : ℝ} (hH : P.G.y_m < P.G.y_M)
    (hy : (P.G.y_M - P.G.y_m) / 2 ≤ y) :
    poiseuilleY P y = 1 - y / (P.G.y_M - P.G.y_m) := by
  have h : 0 < P.G.y_M - P.G.y_m := by linarith
  unfold poiseuilleY
  simp only
  have h2 : 1 / 2 ≤ y / (P.G.y_M - P.G.y_m) := by
    rw [div_le_div_iff₀ two_pos h]; linarith
  split
  · rw [abs_of_nonneg (by linarith)]; ring
  · linarith

theorem poiseuilleY_min {P : Par ℝ} {y : ℝ} (hH : P.G.y_m < P.G.y_M) :
    poiseuilleY P y = min (y / (P.G.y_M - P.G.y_m)) (1 - y / (P.G.y_M - P.G.y_m)) := by
  have h : 0 < P.G.y_M - P.G.y_m := by linarith
  rcases le_total y ((P.G.y_M - P.G.y_m) / 2) with hy | hy
  · have : y / (P.G.y_M - P.G.y_m) ≤ 1 / 2 := by rw [div_le_div_iff₀ h two_pos]; linarith
    rw [poiseuilleY_low hH hy, min_eq_left (by linarith)]
  · have : 1 / 2 ≤ y / (P.G.y_M - P.G.y_m) := by rw [div_le_div_iff₀ two_pos h]; linarith
    rw [poiseuilleY_high hH hy, min_eq_right (by linarith)]

/-- Plane granular flow driven by gravity between two walls.  Let `H` be the height of the domain,
`p` the confining pressure, and `b = rho |g| H / p` the driving force, between the static and the
dynamic friction: `mu_0 < b/2 < mu_1`.  As a function of `y` on `[0,H]`, the initial velocity `u`
vanishes at both walls, is symmetric and continuous; it is constant in the core, where the shear
stress is below the static friction; and outside the core, at each height, the shear rate is positive
and its friction coefficient is exactly the ratio of shear stress to pressure,
`rho |g| (H/2 - y) / p`. -/
theorem c67_profile {P : Par ℝ} {big : ℝ} (ho : P.ops = realOps big) {S0 : First ℝ}
    {ph : Phase ℝ ns} {mu_0 I_0 H b : ℝ} (hf : P.initial_flow = .steadyPoiseulle)
    (hm0 : ph.par.mu_0 = .scalar mu_0) (hI0 : ph.par.I_0 = .scalar I_0)
    (hH : H = P.G.y_M - P.G.y_m) (hHp : 0 < H) (hs : 0 < P.s_bar_0)
    (hp : P.initial_pressure ≠ 0) (hr : 0 < ph.par.rho_s) (hI : 0 < I_0) (hmu : 0 < mu_0)
    (hb : b = |S0.rho * P.max_g| * H / |P.initial_pressure|)
    (hb1 : mu_0 < b / 2) (hb2 : b / 2 < ph.par.mu_1) :
    ∃ u γ : ℝ → ℝ, u 0 = 0 ∧ (∀ y, u (H - y) = u y) ∧ ContinuousOn u (Set.Icc 0 H) ∧
      (∀ y, b * (1 / 2 - y / H) ≤ mu_0 → y ≤ H / 2 → u y = u (H / 2)) ∧
      (∀ y, 0 ≤ y → mu_0 < b * (1 / 2 - y / H) → HasDerivAt u (γ y) y ∧ 0 < γ y ∧
        friction mu_0 ph.par.mu_1 I_0 (γ y * P.s_bar_0 * √(ph.par.rho_s / |P.initial_pressure|)) =
          |S0.rho * P.max_g| * (H / 2 - y) / |P.initial_pressure|) ∧
      ∀ (g x y : ℝ) (f : Option (Fin ns → ℝ)) (mp : Particle ℝ ns), 0 ≤ y → y ≤ H →
        mkParticle P S0 ph g x y f = .ok mp → mp.v = .own ![u y, 0, 0] := by
  have hlt : P.G.y_m < P.G.y_M := by linarith
  have hp0 : 0 < |P.initial_pressure| := abs_pos.2 hp
  have hb0 : 0 < b := by linarith
  have hKg : 0 < |S0.rho * P.max_g| := by
    rcases (abs_nonneg (S0.rho * P.max_g)).eq_or_lt with h0 | h0
    · rw [← h0, zero_mul, zero_div] at hb; linarith
    · exact h0
  generalize hκ : |S0.rho * P.max_g| = κ at *
  generalize hm1 : ph.par.mu_1 = mu_1 at *
  have hβ : √|κ * H / P.initial_pressure| ^ 2 = b := by
    rw [Real.sq_sqrt (abs_nonneg _), abs_div, abs_mul, abs_of_pos hKg, abs_of_pos hHp, ← hb]
  have hβp : 0 < √|κ * H / P.initial_pressure| := by
    rw [Real.sqrt_pos]; exact abs_pos.2 (div_ne_zero (mul_pos hKg hHp).ne' hp)
  generalize hβe : √|κ * H / P.initial_pressure| = β at *
  obtain ⟨C, hC⟩ : ∃ C, C = H / P.s_bar_0 * I_0 / β ^ 3 := ⟨_, rfl⟩
  obtain ⟨S, hS⟩ : ∃ S, S = √(κ * H / ph.par.rho_s) := ⟨_, rfl⟩
  obtain ⟨zc, hzc⟩ : ∃ zc, zc = 1 / 2 - mu_0 / b := ⟨_, rfl⟩
  have hbz : b * zc = b / 2 - mu_0 := by rw [hzc]; field_simp
  have hzc0 : 0 < zc := by
    by_contra h0
    have := mul_nonpos_of_nonneg_of_nonpos hb0.le (not_lt.1 h0)
    linarith
  have hzc1 : zc < 1 / 2 := by
    rw [hzc]; have := div_pos hmu hb0; linarith
  obtain ⟨F, hF⟩ : ∃ F : ℝ → ℝ, F = fun z => -(C * (b * z + (mu_0 - mu_1) *
    Real.log ((2 * b * z + 2 * mu_1 - b) / (2 * mu_1 - b)))) * S := ⟨_, rfl⟩
  have hm : 0 < 2 * mu_1 - b := by linarith
  have harg : ∀ z, 0 ≤ z → 0 < 2 * b * z + 2 * mu_1 - b := fun z hz => by
    have : 0 ≤ 2 * b * z := by positivity
    linarith
  refine ⟨fun y => F (min (min (y / H) (1 - y / H)) zc), fun y => -(C * (b + (mu_0 - mu_1) *
    (2 * b / (2 * b * (y / H) + 2 * mu_1 - b)))) * S / H, ?_, ?_, ?_, ?_, ?_, ?_⟩
  · simp only [zero_div, sub_zero]
    rw [min_eq_left zero_le_one, min_eq_left hzc0.le, hF]
    simp only [mul_zero, zero_add]
    rw [div_self hm.ne', Real.log_one]
    ring
  · intro y
    simp only
    rw [sub_div, div_self hHp.ne', sub_sub_cancel, min_comm (1 - y / H)]
  · have hFc : ContinuousOn F (Set.Ici 0) := by
      rw [hF]
      have : ContinuousOn (fun z => Real.log ((2 * b * z + 2 * mu_1 - b) / (2 * mu_1 - b)))
          (Set.Ici 0) := ContinuousOn.log (by fun_prop) fun z hz =>
            (div_pos (harg z hz) hm).ne'
      fun_prop
    refine hFc.comp (by fun_prop) ?_
    rintro y ⟨h0, h1⟩
    have : y / H ≤ 1 := (div_le_one hHp).2 h1
    exact le_min (le_min (by positivity) (by linarith)) hzc0.le
  · intro y h1 h2
    have e1 : zc ≤ y / H := by
      by_contra hlt
      have := mul_lt_mul_of_pos_left (not_le.1 hlt) hb0
      nlinarith
    have e2 : y / H ≤ 1 / 2 := by rw [div_le_div_iff₀ hHp two_pos]; linarith
    have e3 : H / 2 / H = 1 / 2 := by field_simp
    simp only [e3]
    rw [min_eq_right (le_min e1 (by linarith)), min_eq_right (le_min hzc1.le (by linarith))]
  · intro y hy h1
    have e1 : y / H < zc := by
      by_contra hge
      have := mul_le_mul_of_nonneg_left (not_lt.1 hge) hb0.le
      nlinarith
    have hz : 0 ≤ y / H := by positivity
    have ha := harg _ hz
    have hA : 0 < mu_1 - b * (1 / 2 - y / H) := by linarith
    have hder : HasDerivAt F (-(C * (b + (mu_0 - mu_1) *
        (2 * b / (2 * b * (y / H) + 2 * mu_1 - b)))) * S) (y / H) := by
      rw [hF]
      have d1 : HasDerivAt (fun z : ℝ => (2 * b * z + 2 * mu_1 - b) / (2 * mu_1 - b))
          (2 * b / (2 * mu_1 - b)) (y / H) := by
        have := ((((hasDerivAt_id (y / H)).const_mul (2 * b)).add_const (2 * mu_1)).sub_const
          b).div_const (2 * mu_1 - b)
        simpa using this
      have d2 := d1.log (div_pos ha hm).ne'
      have d3 := ((((hasDerivAt_id (y / H)).const_mul b).add (d2.const_mul
        (mu_0 - mu_1))).const_mul C).neg.mul_const S
      refine d3.congr_deriv ?_
      have e : 2 * b / (2 * mu_1 - b) / ((2 * b * (y / H) + 2 * mu_1 - b) / (2 * mu_1 - b)) =
          2 * b / (2 * b * (y / H) + 2 * mu_1 - b) := div_div_div_cancel_right₀ hm.ne' _ _
      rw [e]
      ring
    have hder2 : HasDerivAt (fun y => F (y / H)) (-(C * (b + (mu_0 - mu_1) *
        (2 * b / (2 * b * (y / H) + 2 * mu_1 - b)))) * S * (1 / H)) y :=
      HasDerivAt.comp y (h₂ := F) hder ((hasDerivAt_id y).div_const H)
    have hC0 : 0 < C := by rw [hC]; positivity
    have hS0 : 0 < S := by rw [hS]; exact Real.sqrt_pos.2 (by positivity)
    have hval : -(b + (mu_0 - mu_1) * (2 * b / (2 * b * (y / H) + 2 * mu_1 - b))) =
        b * (b * (1 / 2 - y / H) - mu_0) / (mu_1 - b * (1 / 2 - y / H)) := by
      have : 2 * b * (y / H) + 2 * mu_1 - b = 2 * (mu_1 - b * (1 / 2 - y / H)) := by ring
      rw [this]
      generalize b * (1 / 2 - y / H) = m at *
      field_simp
      ring
    have hpos : 0 < b * (b * (1 / 2 - y / H) - mu_0) / (mu_1 - b * (1 / 2 - y / H)) :=
      div_pos (mul_pos hb0 (by linarith)) hA
    have hγ : -(C * (b + (mu_0 - mu_1) * (2 * b / (2 * b * (y / H) + 2 * mu_1 - b)))) * S / H =
        C * S / H * (b * (b * (1 / 2 - y / H) - mu_0) / (mu_1 - b * (1 / 2 - y / H))) := by
      rw [← hval]; ring
    refine ⟨?_, by simp only [hγ]; positivity, ?_⟩
    · refine (hder2.congr_of_eventuallyEq ?_).congr_deriv (by ring)
      have ho : IsOpen {w : ℝ | w / H < zc} := isOpen_lt (by fun_prop) (by fun_prop)
      filter_upwards [ho.mem_nhds e1] with w hw
      have hw : w / H < zc := hw
      rw [min_eq_left (by linarith : w / H ≤ 1 - w / H), min_eq_left hw.le]
    · have hSr : S * √(ph.par.rho_s / |P.initial_pressure|) = β := by
        rw [hS, ← Real.sqrt_mul (by positivity), ← hβe, abs_div, abs_mul, abs_of_pos hKg,
          abs_of_pos hHp]
        congr 1
        field_simp
      have hIval : C * S / H * (b * (b * (1 / 2 - y / H) - mu_0) / (mu_1 - b * (1 / 2 - y / H))) *
          P.s_bar_0 * √(ph.par.rho_s / |P.initial_pressure|) =
          I_0 * (b * (1 / 2 - y / H) - mu_0) / (mu_1 - b * (1 / 2 - y / H)) := by
        have : C * S / H * (b * (b * (1 / 2 - y / H) - mu_0) / (mu_1 - b * (1 / 2 - y / H))) *
          P.s_bar_0 * √(ph.par.rho_s / |P.initial_pressure|) =
          C / H * (b * (b * (1 / 2 - y / H) - mu_0) / (mu_1 - b * (1 / 2 - y / H))) *
          P.s_bar_0 * (S * √(ph.par.rho_s / |P.initial_pressure|)) := by ring
        rw [this, hSr, hC, ← hβ]
        field_simp
      have hrhs : κ * (H / 2 - y) / |P.initial_pressure| = b * (1 / 2 - y / H) := by
        rw [hb]; field_simp
      simp only
      rw [hγ, hIval, hrhs]
      generalize b * (1 / 2 - y / H) = m at *
      unfold friction
      have h3 : I_0 + I_0 * (m - mu_0) / (mu_1 - m) = I_0 * (mu_1 - mu_0) / (mu_1 - m) := by
        field_simp; ring
      have h4 : mu_1 - mu_0 ≠ 0 := by linarith
      rw [h3]
      field_simp
      ring
  · intro g x y f mp hy0 hy1 h
    obtain ⟨u, hu, e⟩ := poiseuille_velocity hf hm0 hI0 h
    rw [e]
    have : u = F (min (min (y / H) (1 - y / H)) zc) := by
      unfold poiseuilleU at hu
      simp only [poiseuilleY_min hlt, ho, realOps, ← hH, hκ, hβe, hm1] at hu
      have e1 : ∀ z, -(2 * b * z + 2 * mu_1 - b) / (b - 2 * mu_1) =
          (2 * b * z + 2 * mu_1 - b) / (2 * mu_1 - b) := fun z => by
        rw [← neg_sub (2 * mu_1) b, neg_div_neg_eq]
      simp only [hβ, ← hzc, ← hC, ← hS] at hu
      rw [hF]
      by_cases hlt : min (y / H) (1 - y / H) < zc
      · simp only [hlt, if_true, e1] at hu
        split at hu
        · cases hu
        split at hu
        · cases hu
        split at hu
        · cases hu
        cases hu
        rw [min_eq_left hlt.le]
      · simp only [hlt, if_false] at hu
        split at hu
        · cases hu
        split at hu
        · cases hu
        split at hu
        · cases hu
        cases hu
        rw [min_eq_right (not_lt.1 hlt)]
        have e2 : (2 * b * zc + 2 * mu_1 - b) / (2 * mu_1 - b) = (mu_1 - mu_0) / (mu_1 - b / 2) := by
          have : mu_1 - b / 2 ≠ 0 := by linarith
          rw [show 2 * b * zc = 2 * (b * zc) by ring, hbz, div_eq_div_iff hm.ne' this]
          ring
        simp only [e2, hbz]
    rw [this]

/-- A slope with sine 3/5, `mu_0 = 1/4 < 3/4 < mu_1 = 1`, over the reals. -/
noncomputable def Ex.granMat : Mat0 ℝ :=
  { rho := 1, rho_s := 2, Kb := 10, Gs := 5, k := 1, s := 2, mu_s := 1, mu_v := 0, mu_1 := 1
    mu_2 := 1, mu_0 := .scalar (1/4), delta_mu := .scalar 1, I_0 := .scalar 1, tau_0 := 1
    gamma_c := 1, eta_max := 100, b := 1, E_0 := 1, nu := 1/4, t_0 := 0, rho_f := 1, mu := 1
    beta := 1, t_star := 1, packing := 1/2 }

noncomputable def Ex.granPh : Phase ℝ 2 :=
  { n := 2, law := .pouliquen, par := granMat, A := 1, hasIv := false, iv := 0, phi := ![1/2, 1/2]
    inlet_rate := 1, gap := ![0, 0], yp := [] }

noncomputable def Ex.granPar : Par ℝ :=
  { ops := realOps 1
    G := { x_m := 0, x_M := 2, y_m := 0, y_M := 2, nx := 3, ny := 3, dx := 1, dy := 1
           thickness := 1, ns := 2, s := ![1, 2] }
    B := { wall_mu := 0 }, M_tol := 0, M_tol_nonneg := le_refl _, damping := false
    sinθ := 3/5, cosθ := 4/5, tanθ := 3/4, max_g := -10, pressure := .lithostatic
    initial_pressure := 20
    top_gap := none, initial_flow := .steady, segregate_grid := false, normalise_phi := false
    check_positions := false, aniso := false, v_0 := 0, intruder_v := 0, c := 1, l := 1
    s_bar_0 := 1, forces := fun _ => (-10, 0, 0) }

/-- A point of the granular flow exists. -/
example : ∃ mp, mkParticle granPar { law := .pouliquen, rho := 1 } granPh (-10) 1 1 none = .ok mp := by
  simp only [mkParticle, initStress, initFlow, granPar, granPh, granMat, PyNum.num]
  norm_num
  exact ⟨_, rfl⟩

/-- A point of the Poiseuille flow exists, with `b = 1` between twice the friction coefficients. -/
example : ∃ mp, mkParticle { granPar with initial_flow := .steadyPoiseulle }
      { law := .pouliquen, rho := 1 } granPh (-10) 1 (1/4) none = .ok mp ∧
    |(1 : ℝ) * granPar.max_g| * 2 / |granPar.initial_pressure| = 1 := by
  have hY : poiseuilleY { granPar with initial_flow := .steadyPoiseulle } (1 / 4) = 1 / 8 := by
    norm_num [poiseuilleY, granPar]
  simp only [mkParticle, initStress, initFlow, poiseuilleU, hY]
  simp only [granPar, granPh, granMat, PyNum.num, realOps]
  norm_num

end
end Mpm

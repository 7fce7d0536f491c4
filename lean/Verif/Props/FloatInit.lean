import Verif.Model.FloatInit
import Verif.Props.FloatDp

/-!
# C151: the constructor in floating point, and runs with inlets

Without rounding the constructor is that of the exact model for every kind of initial stress and flow, so whole
runs without segregation are those of the exact model for every law and every boundary.  With rounding the
lithostatic stress, the strain, mass, pressure and the viscous flow that points start with are within a few
roundings of their terms; symmetry and the rest on the base are exact.
-/

set_option linter.unusedSectionVars false

namespace Mpm
namespace Spec
section
variable {K : Type} [Field K] [LinearOrder K]

/-- Depth of a point below the surface of the fill. -/
def depthBelow (P : Par K) (y : K) : K := P.G.y_M - P.top_gap.getD 0 - y

/-- Size of what it is computed from. -/
def depthSize (P : Par K) (y : K) : K := |P.G.y_M| + |P.top_gap.getD 0| + |y|

/-- Kronecker's delta. -/
def unitMat (i j : Fin 3) : K := if i = j then 1 else 0

/-- The strain that belongs to a stress, as the constructor has it. -/
def strainFor (Kb Gs : K) (s : Mat K) (i j : Fin 3) : K :=
  unitMat i j * (s 0 0 + s 1 1 + s 2 2) * (9 * Kb)⁻¹ +
    (s i j - unitMat i j * (s 0 0 + s 1 1 + s 2 2) / 3) * (2 * Gs)⁻¹

/-- The size of its terms. -/
def strainSize (Kb Gs : K) (s : Mat K) (i j : Fin 3) : K :=
  unitMat i j * (|s 0 0| + |s 1 1| + |s 2 2|) * |(9 * Kb)⁻¹| +
    (|s i j| + unitMat i j * (|s 0 0| + |s 1 1| + |s 2 2|) / 3) * |(2 * Gs)⁻¹|

end
end Spec
open Spec

section
variable {K : Type} [Field K] [LinearOrder K] [IsStrictOrderedRing K] {ns : ℕ}

/-! ## Without rounding -/

theorem lithoStressR_id (P : Par K) (rho y : K) : lithoStressR id P rho y = lithoStress P rho y := by
  unfold lithoStressR lithoStress depthR
  cases P.top_gap <;> rfl

theorem hookeInvR_id (Kb Gs : K) (s : Mat K) : hookeInvR id Kb Gs s = hookeInv Kb Gs s := by
  ext i j
  simp only [hookeInvR, hookeInv, traceR_id, id, Matrix.add_apply, Matrix.smul_apply, Matrix.sub_apply,
    smul_eq_mul]
  ring

theorem initStressR_id (P : Par K) (mat : Mat0 K) (y : K) : initStressR id P mat y = initStress P mat y := by
  have h : ∀ e, hookeR id mat.Kb mat.Gs e = hooke mat.Kb mat.Gs e := fun e => hookeR_id _ _ e
  unfold initStressR initStress
  simp only [lithoStressR_id, hookeInvR_id, id]
  cases P.pressure with
  | nonZero => exact congrArg (fun x => (Except.ok (x, _) : Res (Mat K × Mat K))) (h _)
  | temperature => exact congrArg (fun x => (Except.ok (x, _) : Res (Mat K × Mat K))) (h _)
  | _ => rfl

theorem poiseuilleUR_id (P : Par K) (rho0 : K) (mat : Mat0 K) (mu_0 I_0 y : K) :
    poiseuilleUR id P rho0 mat mu_0 I_0 y = poiseuilleU P rho0 mat mu_0 I_0 y := by
  unfold poiseuilleUR poiseuilleU
  have e : poiseuilleYR id P y = poiseuilleY P y := rfl
  simp only [e, id]
  split_ifs <;> rfl

theorem initFlowR_id (P : Par K) (S0 : First K) (mat : Mat0 K) (p y : K) (v : VRef K) :
    initFlowR id P S0 mat p y v = initFlow P S0 mat p y v := by
  unfold initFlowR initFlow
  simp only [poiseuilleUR_id]
  rfl

/-- C151.  With the identity as rounding the constructor is that of the exact model, failures included. -/
theorem c151_constructor (P : Par K) (S0 : First K) (ph : Phase K ns) (g x y : K)
    (phi : Option (Fin ns → K)) : mkPointR id P S0 ph g x y phi = mkParticle P S0 ph g x y phi := by
  unfold mkPointR mkParticle
  have hd : ∀ A : Mat K, devR id A = A - (A.trace / 3) • (1 : Mat K) := fun A => by
    ext i j
    simp [devR, traceR_id, mul_div_right_comm]
  simp only [initStressR_id, initFlowR_id, traceR_id, hd, id]
  rfl

/-! ## With rounding -/

variable {rnd : K → K} {u : K}

theorem mkPointR_ok {P : Par K} {S0 : First K} {ph : Phase K ns} {g x y : K} {phi : Option (Fin ns → K)}
    {b : Particle K ns} (h : mkPointR rnd P S0 ph g x y phi = .ok b) :
    initStressR rnd P ph.par y = .ok (b.stress, b.strain) ∧
    (∃ gd pk, initFlowR rnd P S0 ph.par b.pressure y (if ph.hasIv then .shared else .own 0) =
      .ok (b.v, gd, pk) ∧ b.gammadot = gd ∧ b.pk = pk) ∧
    b.m = rnd (ph.par.rho * rnd (ph.A * P.G.thickness)) ∧ b.V = rnd (ph.A * P.G.thickness) ∧
    b.sigma_kk = traceR rnd b.stress ∧ b.pressure = rnd (traceR rnd b.stress / 3) ∧
    b.x = ![x, y, 0] ∧ b.dev_stress = devR rnd b.stress := by
  obtain ⟨⟨s, e⟩, h1, h⟩ := res_bind_ok.1 h
  obtain ⟨⟨v, gd, pk⟩, h2, h⟩ := res_bind_ok.1 h
  cases h
  exact ⟨h1, ⟨gd, pk, h2, rfl, rfl⟩, rfl, rfl, rfl, rfl, rfl, rfl⟩

theorem App.depth (hr : Rounding rnd u) (P : Par K) (y : K) :
    App u 2 (depthSize P y) (depthBelow P y) (depthR rnd P y) := by
  unfold depthSize depthBelow depthR
  have ey := (App.exact (u := u) y le_rfl).weaken hr (Nat.zero_le 1) le_rfl
  cases P.top_gap with
  | none =>
    have := ((App.exact (u := u) P.G.y_M le_rfl).sub (App.exact (u := u) y le_rfl)).round hr
    simpa using this.weaken hr (show 1 ≤ 2 by decide) le_rfl
  | some gap =>
    exact (((((App.exact (u := u) P.G.y_M le_rfl).sub (App.exact (u := u) gap le_rfl)).round hr).sub ey).round hr)

theorem App.litho (hr : Rounding rnd u) (P : Par K) (a rho y : K) :
    App u 5 (|a * rho * P.max_g| * depthSize P y) (a * rho * P.max_g * depthBelow P y)
      (rnd (rnd (rnd (a * rho) * P.max_g) * depthR rnd P y)) := by
  have h := ((((App.exact (u := u) (a * rho) le_rfl).round hr).times hr P.max_g).round hr).mul hr
    (App.depth hr P y) |>.round hr
  rw [← abs_mul] at h
  exact h

/-- C151.  The lithostatic start: the normal stresses are the same and the shear stresses too, to the last digit,
out of the plane there is no shear, and they are the weight of what is above within 5 roundings of its terms. -/
theorem c151_litho (hr : Rounding rnd u) {P : Par K} {S0 : First K} {ph : Phase K ns} {g x y : K}
    {phi : Option (Fin ns → K)} {b : Particle K ns} (hp : P.pressure = .lithostatic)
    (h : mkPointR rnd P S0 ph g x y phi = .ok b) :
    b.stress 0 0 = b.stress 1 1 ∧ b.stress 2 2 = b.stress 1 1 ∧ b.stress 1 0 = b.stress 0 1 ∧
    (∀ i : Fin 2, b.stress i.castSucc 2 = 0 ∧ b.stress 2 i.castSucc = 0) ∧
    |b.stress 1 1 - P.cosθ * ph.par.rho * P.max_g * depthBelow P y| ≤
      gam u 5 * (|P.cosθ * ph.par.rho * P.max_g| * depthSize P y) ∧
    |b.stress 0 1 - P.sinθ * ph.par.rho * P.max_g * depthBelow P y| ≤
      gam u 5 * (|P.sinθ * ph.par.rho * P.max_g| * depthSize P y) := by
  have h1 := (mkPointR_ok h).1
  unfold initStressR at h1
  rw [hp] at h1
  dsimp only at h1
  split at h1
  · cases h1
  have e := congrArg Prod.fst (Except.ok.inj h1)
  change lithoStressR rnd P ph.par.rho y = b.stress at e
  rw [← e]
  refine ⟨rfl, rfl, rfl, fun i => ?_, (App.litho hr P P.cosθ _ y).err, (App.litho hr P P.sinθ _ y).err⟩
  fin_cases i <;> exact ⟨rfl, rfl⟩

theorem App.trace3 (hr : Rounding rnd u) (s : Mat K) :
    App u 2 (|s 0 0| + |s 1 1| + |s 2 2|) (s 0 0 + s 1 1 + s 2 2) (traceR rnd s) :=
  ((((App.exact (u := u) (s 0 0) le_rfl).add (App.exact (s 1 1) le_rfl)).round hr).add
    ((App.exact (u := u) (s 2 2) le_rfl).weaken hr (Nat.zero_le 1) le_rfl)).round hr

theorem App.strain (hr : Rounding rnd u) {Kb Gs : K} (hK : Kb ≠ 0) (hG : Gs ≠ 0) (s : Mat K) (i j : Fin 3) :
    App u 8 (strainSize Kb Gs s i j) (strainFor Kb Gs s i j) (hookeInvR rnd Kb Gs s i j) := by
  have nine : (9 : K) * Kb ≠ 0 := mul_ne_zero (by norm_num) hK
  have two : (2 : K) * Gs ≠ 0 := mul_ne_zero two_ne_zero hG
  have e1 : (1 : Mat K) i j = unitMat i j := Matrix.one_apply
  have e2 : |unitMat (K := K) i j| ≤ unitMat i j := by
    unfold unitMat; split <;> simp
  have t := ((App.exact (u := u) (unitMat i j) e2).mul hr (App.trace3 hr s)).round hr
  have a := (t.mul hr (App.inv hr nine)).round hr
  have t3 := (t.over hr 3).round hr
  rw [abs_of_pos (three_pos (α := K))] at t3
  have d := ((((App.exact (u := u) (s i j) le_rfl).weaken hr (Nat.zero_le 4) le_rfl).sub t3).round hr).mul hr
    (App.inv hr two) |>.round hr
  have k := ((a.weaken hr (show 5 ≤ 7 by decide) le_rfl).add d).round hr
  unfold hookeInvR
  rw [e1]
  simp only [div_eq_mul_inv] at k ⊢
  simpa only [strainSize, strainFor, div_eq_mul_inv] using k

/-- C151.  Where the stress is given, the initial strain belongs to it within 8 roundings of its terms; under
`compression` the stress is the given pressure to the last digit. -/
theorem c151_strain (hr : Rounding rnd u) {P : Par K} {S0 : First K} {ph : Phase K ns} {g x y : K}
    {phi : Option (Fin ns → K)} {b : Particle K ns} (hp : P.pressure = .lithostatic ∨ P.pressure = .compression)
    (h : mkPointR rnd P S0 ph g x y phi = .ok b) :
    ph.par.Kb ≠ 0 ∧ ph.par.Gs ≠ 0 ∧
    (∀ i j, |b.strain i j - strainFor ph.par.Kb ph.par.Gs b.stress i j| ≤
      gam u 8 * strainSize ph.par.Kb ph.par.Gs b.stress i j) ∧
    (P.pressure = .compression → ∀ i j, b.stress i j = if i = j then -P.initial_pressure else 0) := by
  have h1 := (mkPointR_ok h).1
  unfold initStressR at h1
  have key : ∀ s : Mat K, (if ph.par.Kb = 0 ∨ ph.par.Gs = 0 then .error .nonFinite
      else (.ok (s, hookeInvR rnd ph.par.Kb ph.par.Gs s) : Res (Mat K × Mat K))) = .ok (b.stress, b.strain) →
      ph.par.Kb ≠ 0 ∧ ph.par.Gs ≠ 0 ∧ (∀ i j, |b.strain i j - strainFor ph.par.Kb ph.par.Gs b.stress i j| ≤
      gam u 8 * strainSize ph.par.Kb ph.par.Gs b.stress i j) ∧ b.stress = s := by
    intro s h
    split at h
    · cases h
    next hn =>
      rw [not_or] at hn
      have e := Except.ok.inj h
      have e1 : s = b.stress := congrArg Prod.fst e
      have e2 : hookeInvR rnd ph.par.Kb ph.par.Gs s = b.strain := congrArg Prod.snd e
      refine ⟨hn.1, hn.2, fun i j => ?_, e1.symm⟩
      rw [← e2, ← e1]
      exact (App.strain hr hn.1 hn.2 s i j).err
  rcases hp with hp | hp <;> rw [hp] at h1 <;> obtain ⟨k1, k2, k3, k4⟩ := key _ h1
  · exact ⟨k1, k2, k3, fun h => by rw [hp] at h; cases h⟩
  · refine ⟨k1, k2, k3, fun _ i j => ?_⟩
    rw [k4, Matrix.smul_apply, Matrix.one_apply]
    split <;> simp

/-- C151.  Whatever the start, stress and strain of a new point are symmetric to the last digit. -/
theorem c151_symmetric {P : Par K} {S0 : First K} {ph : Phase K ns} {g x y : K}
    {phi : Option (Fin ns → K)} {b : Particle K ns} (h : mkPointR rnd P S0 ph g x y phi = .ok b) (i j : Fin 3) :
    b.stress i j = b.stress j i ∧ b.strain i j = b.strain j i := by
  have hI : (1 : Mat K) i j = (1 : Mat K) j i := by rw [Matrix.one_apply, Matrix.one_apply]; simp only [eq_comm]
  have h1 := (mkPointR_ok h).1
  have inv : ∀ (a c : K) (s : Mat K), s i j = s j i → hookeInvR rnd a c s i j = hookeInvR rnd a c s j i := by
    intro a c s hs; simp only [hookeInvR, hs, hI]
  have hoo : ∀ (a c : K) (e : Mat K), e i j = e j i → hookeR rnd a c e i j = hookeR rnd a c e j i := by
    intro a c s hs; simp only [hookeR, devR, hs, hI]
  have litho : lithoStressR rnd P ph.par.rho y i j = lithoStressR rnd P ph.par.rho y j i := by
    unfold lithoStressR; fin_cases i <;> fin_cases j <;> rfl
  have scaled : ∀ a : K, (a • (1 : Mat K)) i j = (a • (1 : Mat K)) j i := by
    intro a; rw [Matrix.smul_apply, Matrix.smul_apply, hI]
  have fin : ∀ s e : Mat K, (.ok (s, e) : Res (Mat K × Mat K)) = .ok (b.stress, b.strain) →
      s i j = s j i → e i j = e j i → b.stress i j = b.stress j i ∧ b.strain i j = b.strain j i := by
    intro s e h h1 h2
    have h := Except.ok.inj h
    rw [← show s = b.stress from congrArg Prod.fst h, ← show e = b.strain from congrArg Prod.snd h]
    exact ⟨h1, h2⟩
  unfold initStressR at h1
  split at h1
  · split at h1
    · cases h1
    · exact fin _ _ h1 litho (inv _ _ _ litho)
  · exact fin _ _ h1 (hoo _ _ _ rfl) rfl
  · exact fin _ _ h1 (hoo _ _ _ (scaled _)) (scaled _)
  · split at h1
    · cases h1
    · exact fin _ _ h1 (scaled _) (inv _ _ _ (scaled _))
  · exact fin _ _ h1 rfl rfl

/-- C151.  Mass within 2 and pressure within 3 roundings. -/
theorem c151_bulk (hr : Rounding rnd u) {P : Par K} {S0 : First K} {ph : Phase K ns} {g x y : K}
    {phi : Option (Fin ns → K)} {b : Particle K ns} (h : mkPointR rnd P S0 ph g x y phi = .ok b) :
    |b.m - ph.par.rho * (ph.A * P.G.thickness)| ≤ gam u 2 * |ph.par.rho * (ph.A * P.G.thickness)| ∧
    |b.pressure - (b.stress 0 0 + b.stress 1 1 + b.stress 2 2) / 3| ≤
      gam u 3 * ((|b.stress 0 0| + |b.stress 1 1| + |b.stress 2 2|) / 3) := by
  obtain ⟨-, -, hm, -, -, hp, -⟩ := mkPointR_ok h
  rw [hm, hp]
  have k1 := ((App.exact (u := u) ph.par.rho le_rfl).mul hr
    ((App.exact (u := u) (ph.A * P.G.thickness) le_rfl).round hr)).round hr
  rw [← abs_mul] at k1
  have k2 := ((App.trace3 hr b.stress).over hr 3).round hr
  rw [abs_of_pos (three_pos (α := K))] at k2
  exact ⟨k1.err, k2.err⟩

/-- C151.  The steady viscous flow: along the slope within 7 roundings of the terms of the parabola, and exactly
at rest on the base. -/
theorem c151_viscous (hr : Rounding rnd u) {P : Par K} {S0 : First K} {ph : Phase K ns} {g x y : K}
    {phi : Option (Fin ns → K)} {b : Particle K ns} (hf : P.initial_flow = .steady) (hl : S0.law = .viscous)
    (h : mkPointR rnd P S0 ph g x y phi = .ok b) :
    ∃ w, b.v = .own ![w, 0, 0] ∧ |w - ph.par.rho * P.max_g * P.sinθ * (P.G.y_M * y - y ^ 2 / 2) / ph.par.mu_s| ≤
      gam u 7 * (|ph.par.rho * P.max_g * P.sinθ| * (|P.G.y_M * y| + |y ^ 2| / 2) / |ph.par.mu_s|) ∧
      (y = 0 → w = 0) := by
  obtain ⟨-, ⟨gd, pk, h1, -⟩, -⟩ := mkPointR_ok h
  unfold initFlowR at h1
  rw [hf] at h1
  dsimp only at h1
  rw [if_pos (.inl hl)] at h1
  split at h1
  · cases h1
  have e : VRef.own ![steadyViscousUR rnd P ph.par y, 0, 0] = b.v := congrArg Prod.fst (Except.ok.inj h1)
  refine ⟨_, e.symm, ?_, ?_⟩
  · have a := ((((App.exact (u := u) (ph.par.rho * P.max_g) le_rfl).round hr).times hr P.sinθ).round hr)
    rw [← abs_mul] at a
    have sq := ((((App.exact (u := u) (y ^ 2) le_rfl).round hr).over hr 2)).round hr
    rw [abs_two] at sq
    have d := ((((App.exact (u := u) (P.G.y_M * y) le_rfl).round hr).weaken hr (show 1 ≤ 2 by decide) le_rfl).sub
      sq).round hr
    exact ((((a.mul hr d).round hr).over hr ph.par.mu_s).round hr).err
  · rintro rfl
    have z : rnd 0 = 0 := not_ne_iff.1 fun h => hr.ne_zero.1 h rfl
    simp [steadyViscousUR, z]

end

section
variable {K : Type} [Field K] [LinearOrder K] [IsStrictOrderedRing K] [FloorRing K]
  {rnd : K → K} {u : K} {P : Par K}

theorem Besides.built_plain : Plain (Besides.built rnd P) where
  stress := fun h => Besides.every_plain.stress h
  late := fun h => roundedLate (rnd := rnd) h

theorem built_gridPhase (interp : Interp K P.G.N) (hs : P.segregate_grid = false) (s : St P) :
    gridPhaseR id (Besides.built id P) s = gridPhase P s := by
  have hm : ∀ L G, getNodalMassMomentumR id (Besides.built id P) L G =
      getNodalMassMomentumR id (Besides.every id P) L G := by
    intro L G
    unfold getNodalMassMomentumR
    simp only [hs, Bool.false_eq_true, if_false]
  have h1 : (Besides.built id P).stress = (Besides.every id P).stress := rfl
  have h2 : (Besides.built id P).visCyclic = (Besides.every id P).visCyclic := rfl
  have hst : ∀ d L G, updateStressStrainR id (Besides.built id P) d L G =
      updateStressStrainR id (Besides.every id P) d L G := by
    intro d L G
    unfold updateStressStrainR
    rw [h1, h2]
  rw [← every_gridPhase interp hs s]
  unfold gridPhaseR
  simp only [hm, hst]

/-- C151.  With every law, every boundary and every kind of new point, without rounding or segregation, one step
is that of the exact model: it fails where that fails, in the same way, and else leaves the same state, but for
the nodal shear rate that only figures show. -/
theorem c151_exact (interp : Interp K P.G.N) (hs : P.segregate_grid = false) (s : St P) :
    timeMarch P interp s = (timeMarchR id (Besides.built id P) s).map fun s' =>
      { s' with G := s'.G.calcGammadot interp P.ops.big P.M_tol } := by
  have hg := built_gridPhase interp hs s
  have hpt : (Besides.built id P).point = (Besides.exact P interp).point := by
    funext S0 ph g x y
    exact c151_constructor P S0 ph g x y none
  have hp : ∀ s : St P, pointsPhaseR id (Besides.built id P) s = pointsPhaseR id (Besides.exact P interp) s := by
    intro s
    have a : ∀ S0 g x y a, appendPointR (Besides.built id P) S0 g x y a =
        appendPointR (Besides.exact P interp) S0 g x y a := by
      intro S0 g x y a
      unfold appendPointR
      rw [hpt]
    have e2 : inletRightR id (Besides.built id P) = inletRightR id (Besides.exact P interp) := by
      funext d L
      unfold inletRightR
      simp only [a]
    have e3 : inletTopR id (Besides.built id P) = inletTopR id (Besides.exact P interp) := by
      funext d L
      unfold inletTopR
      simp only [a]
    unfold pointsPhaseR
    rw [e2, e3]
  have hm : ∀ s : St P, pointsPhase P { s with G := s.G.calcGammadot interp P.ops.big P.M_tol } =
      (pointsPhase P s).map fun s' => { s' with G := s'.G.calcGammadot interp P.ops.big P.M_tol } := by
    intro s
    have e : movePoints P.G.nx P.M_tol s.dyn.dt P.intruder_v
        (s.G.calcGammadot interp P.ops.big P.M_tol) s.L =
        movePoints P.G.nx P.M_tol s.dyn.dt P.intruder_v s.G s.L := rfl
    unfold pointsPhase
    rw [show ({ s with G := s.G.calcGammadot interp P.ops.big P.M_tol } : St P).G =
      s.G.calcGammadot interp P.ops.big P.M_tol from rfl, e]
    rcases movePoints P.G.nx P.M_tol s.dyn.dt P.intruder_v s.G s.L with _ | L
    · rfl
    dsimp only [Bind.bind, Except.bind]
    rcases whenSet P.B.outlet_left (outletLeft P.G) L with _ | L
    · rfl
    dsimp only
    rcases whenSet P.B.outlet_bottom (outletBottom P.G) L with _ | L
    · rfl
    dsimp only
    rcases whenSet P.B.inlet_right (inletRight P s.dyn) L with _ | L
    · rfl
    dsimp only
    rcases whenSet P.B.inlet_top (inletTop P s.dyn) L with _ | L
    · rfl
    dsimp only
    rcases whenSet P.B.cyclic_lr (cyclicLR P.G) L with _ | L <;> rfl
  rw [← c138_exact P interp]
  unfold timeMarchR
  rw [hg, gridPhaseR_id]
  rcases gridPhase P s with _ | s1
  · rfl
  dsimp only [Bind.bind, Except.bind]
  rcases momentumPhaseR id s1 with _ | s2
  · rfl
  have l1 : (Besides.built id P).late s2 = .ok s2 := by
    show (if P.segregate_grid then _ else _) = _
    simp [hs]
  have l2 : (Besides.exact P interp).late s2 =
      .ok { s2 with G := s2.G.calcGammadot interp P.ops.big P.M_tol } := by
    show segregationPhase P interp _ = _
    simp [segregationPhase, hs]
  dsimp only
  rw [l1, l2]
  dsimp only
  rw [hp, pointsPhaseR_id, pointsPhaseR_id, hm]

theorem run_of_step {interp : Interp K P.G.N} {E : Besides P}
    (hE : ∀ s : St P, timeMarch P interp s = (timeMarchR id E s).map fun s' =>
      { s' with G := s'.G.calcGammadot interp P.ops.big P.M_tol }) (s : St P) (n : ℕ) :
    (steps P interp n s).map (fun s => (s.dyn, s.L)) =
      (stepsR id E n s).map fun s => (s.dyn, s.L) := by
  induction n generalizing s with
  | zero => rfl
  | succ n ih =>
    unfold steps stepsR
    rw [hE]
    rcases h : timeMarchR id E s with _ | s1
    · rfl
    refine Eq.trans ?_ (ih (stepTime P s1))
    show (steps P interp n (stepTime P { s1 with G := s1.G.calcGammadot interp P.ops.big P.M_tol })).map _ = _
    cases n with
    | zero => rfl
    | succ n =>
      refine congrArg _ (c29_previous_grid_run (s := stepTime P s1) (s' := stepTime P
        { s1 with G := s1.G.calcGammadot interp P.ops.big P.M_tol }) rfl rfl ⟨?_, rfl, rfl⟩ n)
      constructor <;> rfl

/-- C151.  Hence whole runs without rounding and segregation are those of the exact model, whatever the laws and
boundaries: they fail in the same way or end with the same points at the same time. -/
theorem c151_run (interp : Interp K P.G.N) (hs : P.segregate_grid = false) (s : St P)
    (n : ℕ) : (steps P interp n s).map (fun s => (s.dyn, s.L)) =
      (stepsR id (Besides.built id P) n s).map fun s => (s.dyn, s.L) :=
  run_of_step (c151_exact interp hs) s n

/-- C151.  With rounding, nothing crosses a wall, whatever flows in. -/
theorem c151_walls (z : rnd 0 = 0) {n : ℕ} {s s' : St P} (hc : P.B.cyclic_lr = false)
    (h : stepsR rnd (Besides.built rnd P) (n + 1) s = .ok s') (i : Fin P.G.N) :
    (s.G.boundary_v i = true → (P.B.conveyor = true → s.G.boundary_conveyor i = false) →
      s'.G.q_dot i 0 = 0 ∧ s'.G.q i 0 = 0) ∧
    (s.G.boundary_h i = true → s'.G.q_dot i 1 = 0 ∧ s'.G.q i 1 = 0) :=
  wallR_steps Besides.built_plain z hc h i

end
end Mpm

/-! ## Examples -/

namespace Mpm
open Spec

/-- A slope with steady viscous flow under its weight. -/
def Ex.parSlope : Par ℚ :=
  { Ex.par with
    pressure := .lithostatic, initial_flow := .steady, top_gap := some (fl 53 (1 / 7))
    sinθ := fl 53 (1 / 3), cosθ := fl 53 (7 / 10) }

def Ex.phV : Phase ℚ 2 := { Ex.ph with law := .viscous, par := { Ex.mat with Gs := fl 53 (1 / 11) } }

/-- C151.  A point on the slope in binary64: stress, strain and velocity are not the exact ones, but near them. -/
example : ∃ b : Particle ℚ 2, ∃ w : ℚ,
    mkPointR (fl 53) Ex.parSlope ⟨.viscous, 1⟩ Ex.phV (-10) 1 (fl 53 (1 / 5)) none = .ok b ∧
    b.v = .own ![w, 0, 0] ∧ b.stress 0 1 = b.stress 1 0 ∧ b.strain 0 1 = b.strain 1 0 ∧ b.strain 0 1 ≠ 0 ∧
    b.stress 1 1 ≠ Ex.parSlope.cosθ * Ex.phV.par.rho * Ex.parSlope.max_g *
      depthBelow Ex.parSlope (fl 53 (1 / 5)) ∧
    |b.stress 1 1 - Ex.parSlope.cosθ * Ex.phV.par.rho * Ex.parSlope.max_g *
      depthBelow Ex.parSlope (fl 53 (1 / 5))| ≤ gam (1 / 2 ^ 53) 5 *
        (|Ex.parSlope.cosθ * Ex.phV.par.rho * Ex.parSlope.max_g| * depthSize Ex.parSlope (fl 53 (1 / 5))) ∧
    b.strain 0 1 ≠ strainFor Ex.phV.par.Kb Ex.phV.par.Gs b.stress 0 1 ∧
    |b.strain 0 1 - strainFor Ex.phV.par.Kb Ex.phV.par.Gs b.stress 0 1| ≤
      gam (1 / 2 ^ 53) 8 * strainSize Ex.phV.par.Kb Ex.phV.par.Gs b.stress 0 1 ∧
    |w - Ex.phV.par.rho * Ex.parSlope.max_g * Ex.parSlope.sinθ *
        (Ex.parSlope.G.y_M * fl 53 (1 / 5) - fl 53 (1 / 5) ^ 2 / 2) / Ex.phV.par.mu_s| ≤
      gam (1 / 2 ^ 53) 7 * (|Ex.phV.par.rho * Ex.parSlope.max_g * Ex.parSlope.sinθ| *
        (|Ex.parSlope.G.y_M * fl 53 (1 / 5)| + |(fl 53 (1 / 5) : ℚ) ^ 2| / 2) / |Ex.phV.par.mu_s|) := by
  have hr := c136_bits (K := ℚ) (p := 53) (by decide)
  have h : Ex.okAnd (mkPointR (fl 53) Ex.parSlope ⟨.viscous, 1⟩ Ex.phV (-10) 1 (fl 53 (1 / 5)) none) (fun b =>
      decide (b.strain 0 1 ≠ 0 ∧ b.stress 1 1 ≠ Ex.parSlope.cosθ * Ex.phV.par.rho * Ex.parSlope.max_g *
      depthBelow Ex.parSlope (fl 53 (1 / 5)) ∧
      b.strain 0 1 ≠ strainFor Ex.phV.par.Kb Ex.phV.par.Gs b.stress 0 1)) = true := by decide +kernel
  obtain ⟨b, h1, h⟩ := Ex.okAnd_ok h
  obtain ⟨k1, k2, k3⟩ := of_decide_eq_true h
  obtain ⟨w, e1, e2, -⟩ := c151_viscous hr rfl rfl h1
  exact ⟨b, w, h1, e1, (c151_symmetric h1 0 1).1, (c151_symmetric h1 0 1).2, k1, k2,
    (c151_litho hr rfl h1).2.2.2.2.1, k3, (c151_strain hr (.inl rfl) h1).2.2.1 0 1, e2⟩

/-- C151.  The other kinds of start in binary64. -/
example : (∀ p ∈ [PressureMode.nonZero, .temperature, .compression, .none],
    ∀ f ∈ [(FlowMode.steady, Law.pouliquen), (.none, .elastic)],
    Ex.okAnd (mkPointR (fl 53) { Ex.parSlope with
        pressure := p, initial_flow := f.1, initial_pressure := 7, tanθ := 2 } ⟨f.2, 1⟩ Ex.phV (-10) 1 1 none)
      (fun b => decide (b.m = 1)) = true) ∧
    Ex.okAnd (mkPointR (fl 53) { Ex.parSlope with initial_flow := .steadyPoiseulle, initial_pressure := 7 }
      ⟨.pouliquen, 1⟩ { Ex.phV with par := { Ex.mat with mu_1 := 3 } } (-10) 1 (1 / 5) none)
      (fun b => match b.v with | .own v => decide (v 0 ≠ 0) | .shared => false) = true := by
  decide +kernel

/-- A box that is fed with stressed points from the top, with a wall. -/
def Ex.parFed : Par ℚ := { Ex.feedPar with pressure := .lithostatic, B := { Ex.feedPar.B with has_bottom := true } }

def Ex.fed : List (PhaseSt ℚ 2) := [{ ph := Ex.feedPh, pts := [Ex.mp] }]

/-- C151.  Three steps without rounding during which stressed points are added. -/
example : ∃ (G : Grid ℚ Ex.parFed.G.N Ex.parFed.G.ns) (s t : St Ex.parFed),
    mkGridR id Ex.parFed.G Ex.parFed.B = .ok G ∧
    stepsR id (Besides.built id Ex.parFed) 3 { dyn := Ex.dyn, L := Ex.fed, G := G } = .ok s ∧
    steps Ex.parFed (Ex.noInterp _) 3 { dyn := Ex.dyn, L := Ex.fed, G := G } = .ok t ∧
    t.L = s.L ∧ t.dyn = s.dyn ∧ (points s.L).length = 3 := by
  have h : Ex.okAnd (mkGridR id Ex.parFed.G Ex.parFed.B) (fun G =>
      Ex.okAnd (stepsR id (Besides.built id Ex.parFed) 3
        { dyn := Ex.dyn, L := Ex.fed, G := G }) fun s => decide ((points s.L).length = 3)) = true := by
    decide +kernel
  obtain ⟨G, h1, h⟩ := Ex.okAnd_ok h
  obtain ⟨s, h2, h⟩ := Ex.okAnd_ok h
  have e := c151_run (P := Ex.parFed) (Ex.noInterp _) rfl { dyn := Ex.dyn, L := Ex.fed, G := G } 3
  rw [h2] at e
  rcases ht : steps Ex.parFed (Ex.noInterp _) 3 { dyn := Ex.dyn, L := Ex.fed, G := G } with _ | t
  · rw [ht] at e; cases e
  · rw [ht] at e
    have e' := Except.ok.inj e
    exact ⟨G, s, t, h1, h2, ht, congrArg Prod.snd e', congrArg Prod.fst e', of_decide_eq_true h⟩

/-- C151.  The same in binary64 against the floor. -/
example : ∃ (G : Grid ℚ Ex.parFed.G.N Ex.parFed.G.ns) (s : St Ex.parFed),
    mkGridR (fl 53) Ex.parFed.G Ex.parFed.B = .ok G ∧
    stepsR (fl 53) (Besides.built (fl 53) Ex.parFed) 2 { dyn := Ex.dyn, L := Ex.fed, G := G } = .ok s ∧
    (points s.L).length = 2 ∧ s.G.q (⟨0, by decide⟩ : Fin 9) 1 = 0 ∧ s.G.q (⟨3, by decide⟩ : Fin 9) 1 ≠ 0 := by
  have h : Ex.okAnd (mkGridR (fl 53) Ex.parFed.G Ex.parFed.B) (fun G =>
      G.boundary_h (⟨0, by decide⟩ : Fin 9) &&
      Ex.okAnd (stepsR (fl 53) (Besides.built (fl 53) Ex.parFed) 2
        { dyn := Ex.dyn, L := Ex.fed, G := G }) fun s =>
      decide ((points s.L).length = 2 ∧ s.G.q (⟨3, by decide⟩ : Fin 9) 1 ≠ 0)) = true := by decide +kernel
  obtain ⟨G, h1, h⟩ := Ex.okAnd_ok h
  obtain ⟨hb, h⟩ := Bool.and_eq_true_iff.1 h
  obtain ⟨s, h2, h⟩ := Ex.okAnd_ok h
  have h := of_decide_eq_true h
  exact ⟨G, s, h1, h2, h.1, ((c151_walls (fl_zero 53) rfl h2 _).2 hb).2, h.2⟩
end Mpm

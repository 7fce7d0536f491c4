import Verif.Lemmas.FloatLawScale
import Verif.Props.FloatStep
import Verif.Props.Units
import Verif.ExRun
import Verif.Lemmas.Ops
import Mathlib.Data.Rat.Floor

/-!
# C139: rounding and the units

A program that rounds every operation gives different digits when the same problem is posed in other
units — except when the units differ by powers of two, for rounding to a number of bits commutes with
such factors.  Then every number of a run is the old number times its unit, bit for bit.
-/

set_option linter.unusedSectionVars false

namespace Mpm
open Spec

section
variable {K : Type} [Field K] [LinearOrder K] [IsStrictOrderedRing K] [FloorRing K] {rnd : K → K}
  {U : NewUnits K} (hb : U.Binary rnd)
include hb

section
variable {P : Par K} {E : Besides P} {E' : Besides (scalePar U P)} (hE : SameIn U E E')
include hE

/-- **C139**: one time step in units that do not change the digits. -/
theorem c139_step (hc : P.check_positions = false) (s : St P) :
    timeMarchR rnd E' (scaleSt U s) = scaleSt U <$> timeMarchR rnd E s := by
  unfold timeMarchR
  refine res_bind_map (gridPhaseR_scale hb hE hc s) fun s _ => ?_
  refine res_bind_map (momentumPhaseR_scale hb s) fun s _ => ?_
  exact res_bind_map (hE.late s) fun s _ => pointsPhaseR_scale hb hE s

/-- **C139**: any number of time steps, with the rounded clock. -/
theorem c139_steps (hc : P.check_positions = false) (n : ℕ) (s : St P) :
    stepsR rnd E' n (scaleSt U s) = scaleSt U <$> stepsR rnd E n s := by
  induction n generalizing s with
  | zero => rfl
  | succ n ih =>
    refine res_bind_map (c139_step hb hE hc s) fun s _ => ?_
    rw [← ih]
    congr 1
    have : rnd (U.T * s.dyn.t + U.T * s.dyn.dt) = U.T * rnd (s.dyn.t + s.dyn.dt) := by
      rw [← mul_add, hb.T]
    unfold stepTimeR
    simp only [scaleDyn, this]
    rfl

end

theorem linspaceR_scale (a b : K) (n i : ℕ) :
    linspaceR rnd (U.L * a) (U.L * b) n i = U.L * linspaceR rnd a b n i := by
  unfold linspaceR
  split_ifs
  · rfl
  · rw [← mul_sub, hb.L, mul_div_assoc, hb.L, mul_left_comm, hb.L, ← mul_add, hb.L]

/-- **C139**: the grid. -/
theorem c139_grid (P : GP K) (B : BP K) :
    mkGridR rnd (scaleGP U P) B = scaleGrid U <$> mkGridR rnd P B := by
  have hx : gridDxR rnd (scaleGP U P) = U.L * gridDxR rnd P := by
    unfold gridDxR; rw [linspaceR_scale hb, linspaceR_scale hb, ← mul_sub, hb.L]
  have hy : gridDyR rnd (scaleGP U P) = U.L * gridDyR rnd P := by
    unfold gridDyR; rw [linspaceR_scale hb, linspaceR_scale hb, ← mul_sub, hb.L]
  have hX : gridXR rnd (scaleGP U P) = fun n => U.L * gridXR rnd P n :=
    funext fun n => linspaceR_scale hb _ _ _ _
  have hY : gridYR rnd (scaleGP U P) = fun n => U.L * gridYR rnd P n :=
    funext fun n => linspaceR_scale hb _ _ _ _
  refine res_bind_map (c111_grid U P B) fun G _ => congrArg Except.ok ?_
  rw [hx, hy, hX, hY]
  rfl

end

section
variable {K : Type} [Field K] [LinearOrder K] [IsStrictOrderedRing K] [FloorRing K]

/-- **C139**: rounding to any number of bits commutes with powers of two. -/
theorem c139_power (p : ℕ) (k : ℤ) : SameDigits (fl p : K → K) (2 ^ k) := by
  intro x
  rcases eq_or_ne x 0 with rfl | hx
  · rw [mul_zero, fl_zero, mul_zero]
  have h2 := two_zpow_pos (K := K) k
  obtain ⟨g1, g2⟩ := log_spec (abs_pos.2 hx)
  have hl : Int.log 2 |2 ^ k * x| = Int.log 2 |x| + k := by
    rw [abs_mul, abs_of_pos h2]
    apply log_eq
    · rw [zpow_add₀ two_ne_zero, mul_comm]
      exact mul_le_mul_of_nonneg_left g1 h2.le
    · rw [show Int.log 2 |x| + k + 1 = (Int.log 2 |x| + 1) + k by ring, zpow_add₀ two_ne_zero, mul_comm]
      exact mul_lt_mul_of_pos_right g2 h2
  unfold fl
  rw [hl, show Int.log 2 |x| + k - p + 1 = k + (Int.log 2 |x| - p + 1) by ring, zpow_add₀ two_ne_zero,
    mul_div_mul_left _ _ h2.ne']
  ring

/-- **C139**: and with no other factors. -/
theorem c139_only {p : ℕ} (hp : 1 ≤ p) {c : K} (hc : 0 < c) :
    SameDigits (fl p) c ↔ ∃ k : ℤ, c = 2 ^ k := by
  constructor
  · intro h
    have h1 : fl p (1 : K) = 1 := by
      have := fl_rep (p := p) (x := (1 : K)) one_pos (n := 2 ^ (p - 1)) ?_
      · exact this
      · have h0 : Int.log 2 (1 : K) = 0 := log_eq (by simp) (by norm_num)
        rw [h0]
        push_cast
        rw [← zpow_natCast, ← zpow_add₀ two_ne_zero, show ((p - 1 : ℕ) : ℤ) + (0 - p + 1) = 0 by omega,
          zpow_zero]
    have key : ∀ {c : K}, SameDigits (fl p) c → IsFloat p c := by
      intro c h
      have := h 1
      rw [mul_one, h1, mul_one] at this
      rw [← this]
      exact c136_float hp c
    obtain ⟨m, i, -, hm⟩ := key h
    obtain ⟨m', j, -, hm'⟩ := key (h.inv hc.ne')
    have hmp : 0 < m := by
      have : (0 : K) < m := pos_of_mul_pos_left (hm ▸ hc) (two_zpow_pos i).le
      exact_mod_cast this
    have hmp' : 0 < m' := by
      have : (0 : K) < m' := pos_of_mul_pos_left (hm' ▸ inv_pos.2 hc) (two_zpow_pos j).le
      exact_mod_cast this
    have e : ((m * m' : ℤ) : K) = 2 ^ (-(i + j)) := by
      have e1 : c * c⁻¹ = 1 := mul_inv_cancel₀ hc.ne'
      rw [hm', hm] at e1
      have e2 : ((m * m' : ℤ) : K) * 2 ^ (i + j) = 1 := by
        rw [zpow_add₀ two_ne_zero]; push_cast; linear_combination e1
      rw [zpow_neg]
      exact eq_inv_of_mul_eq_one_left e2
    have hj : 0 ≤ -(i + j) := by
      by_contra hlt
      push Not at hlt
      have h3 : (2 : K) ^ (-(i + j)) < 1 := zpow_lt_one_of_neg₀ one_lt_two hlt
      have h4 : (1 : K) ≤ ((m * m' : ℤ) : K) := by exact_mod_cast Int.mul_pos hmp hmp'
      linarith
    obtain ⟨k, hk⟩ := Int.eq_ofNat_of_zero_le hj
    rw [hk, zpow_natCast] at e
    have e' : m * m' = 2 ^ k := by exact_mod_cast e
    have hd : m.natAbs ∣ 2 ^ k := by
      have := Int.natAbs_dvd_natAbs.2 (Dvd.intro _ e')
      rwa [Int.natAbs_pow] at this
    obtain ⟨l, -, hl⟩ := (Nat.dvd_prime_pow Nat.prime_two).1 hd
    refine ⟨l + i, ?_⟩
    have : (m : K) = 2 ^ l := by
      have : m = 2 ^ l := by
        rw [← Int.natAbs_of_nonneg hmp.le, hl]; push_cast; rfl
      rw [this]; push_cast; rfl
    rw [hm, this, zpow_add₀ two_ne_zero, zpow_natCast]
  · rintro ⟨k, rfl⟩
    exact c139_power p k

/-- **C139**: runs of rigid, elastic and viscous bodies in `p` bits. -/
theorem c139_run {U : NewUnits K} {a b c d : ℤ} (hM : U.M = 2 ^ a) (hL : U.L = 2 ^ b) (hT : U.T = 2 ^ c)
    (hW : U.W = 2 ^ d) (p : ℕ) (P : Par K) (ho : RootScales P.ops) (hc : P.check_positions = false)
    (n : ℕ) (s : St P) :
    stepsR (fl p) (Besides.first (fl p) (scalePar U P)) n (scaleSt U s) =
      scaleSt U <$> stepsR (fl p) (Besides.first (fl p) P) n s := by
  have hb : U.Binary (fl p) :=
    ⟨hM ▸ c139_power p a, hL ▸ c139_power p b, hT ▸ c139_power p c, hW ▸ c139_power p d⟩
  exact c139_steps hb (first_same hb P ho) hc n s

end

/-- C139.  The square root of real analysis scales as required. -/
theorem realOps_root (big : ℝ) : RootScales (realOps big) := by
  intro c x hc
  show Real.sqrt (c ^ 2 * x) = c * Real.sqrt x
  rw [Real.sqrt_mul (sq_nonneg c), Real.sqrt_sq hc.le]

/-- The first example with a square root that scales (elastic bodies take none). -/
def Ex.parFU : Par ℚ := { Ex.par with ops := { Ex.ops with sqrt := fun _ => 0 } }

/-- Its first point alone. -/
def Ex.oneFU : List (PhaseSt ℚ 2) := [{ ph := { Ex.ph with n := 1 }, pts := [Ex.mp] }]

/-- Units that are powers of two of the old ones. -/
def Ex.binary : NewUnits ℚ :=
  { M := 2 ^ (-3 : ℤ), L := 2 ^ (10 : ℤ), T := 2 ^ (1 : ℤ), W := 2 ^ (-2 : ℤ)
    M_pos := two_zpow_pos _, L_pos := two_zpow_pos _, T_pos := two_zpow_pos _
    W_pos := two_zpow_pos _ }

/-- C139.  A moving elastic body in binary64, in units that differ by powers of two: the same digits. -/
example : ∃ (G : Grid ℚ Ex.parFU.G.N Ex.parFU.G.ns) (s : St Ex.parFU),
    mkGridR (fl 53) Ex.parFU.G Ex.parFU.B = .ok G ∧
    mkGridR (fl 53) (scaleGP Ex.binary Ex.parFU.G) Ex.parFU.B = .ok (scaleGrid Ex.binary G) ∧
    stepsR (fl 53) (Besides.first (fl 53) Ex.parFU) 1 { dyn := Ex.dyn, L := Ex.oneFU, G := G } =
      .ok s ∧
    stepsR (fl 53) (Besides.first (fl 53) (scalePar Ex.binary Ex.parFU)) 1
      (scaleSt Ex.binary { dyn := Ex.dyn, L := Ex.oneFU, G := G }) = .ok (scaleSt Ex.binary s) ∧
    ∃ p ∈ points s.L, p.x 1 ≠ 5/4 := by
  have h : Ex.okAnd (mkGridR (fl 53) Ex.parFU.G Ex.parFU.B) (fun G =>
      Ex.okAnd (stepsR (fl 53) (Besides.first (fl 53) Ex.parFU) 1
        { dyn := Ex.dyn, L := Ex.oneFU, G := G }) fun s =>
      (points s.L).any fun p => decide (p.x 1 ≠ 5/4)) = true := by decide +kernel
  obtain ⟨G, h1, h⟩ := Ex.okAnd_ok h
  obtain ⟨s, h2, h⟩ := Ex.okAnd_ok h
  obtain ⟨p, hp, h⟩ := List.any_eq_true.1 h
  have hb : Ex.binary.Binary (fl 53) :=
    ⟨c139_power _ _, c139_power _ _, c139_power _ _, c139_power _ _⟩
  refine ⟨G, s, h1, ?_, h2, ?_, p, hp, of_decide_eq_true h⟩
  · rw [c139_grid hb, h1]; rfl
  · rw [c139_run (a := -3) (b := 10) (c := 1) (d := -2) rfl rfl rfl rfl 53 Ex.parFU
      (fun c _ _ => (mul_zero c).symm) rfl 1, h2]
    rfl

/-- C139.  In grams, millimetres and milliseconds the same body gets other digits. -/
theorem c139_decimal : ¬ SameDigits (fl 53) (1000 : ℚ) ∧
    ∃ (G : Grid ℚ Ex.parFU.G.N Ex.parFU.G.ns) (s : St Ex.parFU),
    mkGridR (fl 53) Ex.parFU.G Ex.parFU.B = .ok G ∧
    stepsR (fl 53) (Besides.first (fl 53) Ex.parFU) 1 { dyn := Ex.dyn, L := Ex.oneFU, G := G } =
      .ok s ∧
    ∃ t, stepsR (fl 53) (Besides.first (fl 53) (scalePar (Ex.units ℚ) Ex.parFU)) 1
      (scaleSt (Ex.units ℚ) { dyn := Ex.dyn, L := Ex.oneFU, G := G }) = .ok t ∧
      t ≠ scaleSt (Ex.units ℚ) s := by
  constructor
  · intro h
    have := h (1 / 10)
    revert this
    decide +kernel
  have h : Ex.okAnd (mkGridR (fl 53) Ex.parFU.G Ex.parFU.B) (fun G =>
      Ex.okAnd (stepsR (fl 53) (Besides.first (fl 53) Ex.parFU) 1
        { dyn := Ex.dyn, L := Ex.oneFU, G := G }) fun s =>
      Ex.okAnd (stepsR (fl 53) (Besides.first (fl 53) (scalePar (Ex.units ℚ) Ex.parFU)) 1
        (scaleSt (Ex.units ℚ) { dyn := Ex.dyn, L := Ex.oneFU, G := G })) fun t =>
      decide (((points (scaleSt (Ex.units ℚ) s).L).map fun p => p.x 1) ≠
        ((points t.L).map fun p => p.x 1))) = true := by
    decide +kernel
  obtain ⟨G, h1, h⟩ := Ex.okAnd_ok h
  obtain ⟨s, h2, h⟩ := Ex.okAnd_ok h
  obtain ⟨t, h3, h⟩ := Ex.okAnd_ok h
  refine ⟨G, s, h1, h2, t, h3, fun e => of_decide_eq_true h ?_⟩
  rw [e]

end Mpm

import Verif.Model.Measure
import Verif.Lemmas.Lists
import Verif.Lemmas.Ops
import Verif.Examples
import Mathlib.Analysis.SpecialFunctions.Trigonometric.Arctan
import Mathlib.Tactic.FieldSimp

/-! C55 and C59: `MatPointList.update_timestep` and the energy measures. -/

set_option linter.unusedSectionVars false

namespace Mpm
open Spec

/-! ## C55 -/

section
variable {K : Type} [Field K] [LinearOrder K] [IsStrictOrderedRing K] [FloorRing K] {ns : ℕ}

theorem pyTrunc_intCast (n : ℤ) : pyTrunc (n : K) = n := by
  unfold pyTrunc
  split_ifs
  · exact Int.floor_intCast n
  · exact Int.ceil_intCast n

namespace Spec

/-- What can happen to the attributes: a time step (MPM.py:90,91: `t += dt`, `tstep += 1`) or a call of
`update_timestep` with whatever the points are by then. -/
inductive Act (K : Type) (ns : ℕ) where
  | advance
  | update (L : List (PhaseSt K ns))

def Act.isUpdate : Act K ns → Bool
  | .advance => false
  | .update _ => true

/-- One such event. -/
def act : Act K ns → StepCtl K → Res (StepCtl K)
  | .advance, c => .ok { c with t := c.t + c.dt, tstep := c.tstep + 1 }
  | .update L, c => listTimestep L c

/-- A history of events. -/
def acts : List (Act K ns) → StepCtl K → Res (StepCtl K)
  | [], c => .ok c
  | a :: l, c => do
    let c ← act a c
    acts l c

/-- Some point is beyond the threshold. -/
def SomeYielded (L : List (PhaseSt K ns)) : Prop := ∃ mp ∈ points L, 99 / 100 < mp.yieldfunction

end Spec

theorem anyYielded_ok {L : List (PhaseSt K ns)} (hL : Counted L) (y : Bool) :
    ∃ y', anyYielded L y = .ok y' ∧ (y' = true ↔ y = true ∨ SomeYielded L) := by
  unfold anyYielded
  rw [foldPhases_foldN (fun _ mp y => .ok (if 99 / 100 < mp.yieldfunction then true else y)) hL]
  unfold SomeYielded
  rw [← items_map_snd]
  generalize items L = l
  induction l generalizing y with
  | nil => exact ⟨y, rfl, by simp⟩
  | cons a l ih =>
    obtain ⟨y', h1, h2⟩ := ih (if 99 / 100 < a.2.yieldfunction then true else y)
    refine ⟨y', h1, h2.trans ?_⟩
    by_cases h : 99 / 100 < a.2.yieldfunction <;> simp [h]

/-- The refinement itself. -/
theorem listTimestep_cases {L : List (PhaseSt K ns)} {c c' : StepCtl K}
    (h : listTimestep L c = .ok c') :
    (c.hasYielded = false ∧ c' = c) ∨
    (c.q.isSome ∧ c'.hasYielded = true ∧ c'.t = c.t ∧ c'.tstep = c.tstep ∧ c'.q = c.q ∧
      c'.nt = c.tstep + 20 * (c.nt - c.tstep) ∧ c'.dt = c.dt / 20 ∧
      c'.savetime = c.savetime / 20) := by
  unfold listTimestep at h
  obtain ⟨y, h1, h⟩ := res_bind_ok.1 h
  split_ifs at h with hy
  · split at h
    · cases h
    · rename_i q hq
      cases h
      refine Or.inr ⟨by rw [hq]; rfl, rfl, rfl, rfl, rfl, ?_, rfl, rfl⟩
      show c.tstep + pyTrunc (((c.nt - c.tstep : ℤ) : K) * 20) = _
      have e : (((c.nt - c.tstep : ℤ) : K) * 20) = ((20 * (c.nt - c.tstep) : ℤ) : K) := by
        push_cast; ring
      rw [e, pyTrunc_intCast]
  · cases h
    refine Or.inl ⟨?_, rfl⟩
    cases hc : c.hasYielded with
    | false => rfl
    | true =>
      exfalso
      unfold yieldFlag at h1
      rw [if_pos hc] at h1
      cases h1
      exact hy rfl

/-- C55.  Before anything has yielded the call changes nothing, unless a point is beyond the
threshold; then it refines: 20 times as many remaining steps, each a twentieth as long.  It cannot
do so when `P.q` does not exist. -/
theorem c55_trigger {L : List (PhaseSt K ns)} (hL : Counted L) (c : StepCtl K) :
    (c.hasYielded = false → ¬ SomeYielded L → listTimestep L c = .ok c) ∧
    (c.hasYielded = true ∨ SomeYielded L → c.q = none → listTimestep L c = .error .attribute) ∧
    (c.hasYielded = true ∨ SomeYielded L → c.q ≠ none → listTimestep L c = .ok
      { t := c.t, dt := c.dt / 20, nt := c.tstep + 20 * (c.nt - c.tstep), tstep := c.tstep,
        savetime := c.savetime / 20, hasYielded := true, q := c.q }) := by
  obtain ⟨y, hy, hy'⟩ := anyYielded_ok hL false
  have flag : yieldFlag L c = .ok (c.hasYielded || y) := by
    unfold yieldFlag
    cases hc : c.hasYielded with
    | true => rfl
    | false => simpa using hy
  have hy'' : y = true ↔ SomeYielded L := by simpa using hy'
  have on : (c.hasYielded = true ∨ SomeYielded L) → (c.hasYielded || y) = true := by
    intro h
    rcases h with h | h
    · rw [h]; rfl
    · rw [hy''.2 h, Bool.or_true]
  refine ⟨fun h1 h2 => ?_, fun h1 h2 => ?_, fun h1 h2 => ?_⟩
  · unfold listTimestep
    rw [flag, h1, Bool.eq_false_iff.2 (fun e => h2 (hy''.1 e))]
    rfl
  · unfold listTimestep
    rw [flag, on h1, h2]
    rfl
  · obtain ⟨q, hq⟩ := Option.ne_none_iff_exists'.1 h2
    have e : (((c.nt - c.tstep : ℤ) : K) * 20) = ((20 * (c.nt - c.tstep) : ℤ) : K) := by
      push_cast; ring
    unfold listTimestep
    rw [flag, on h1, hq]
    simp only [e, pyTrunc_intCast]
    rfl

/-- C55.  The time at which the remaining steps will end, `t + (nt - tstep) * dt`, is the same
throughout any history of steps and refinements; so is the number of steps per save. -/
theorem c55_end_time {l : List (Act K ns)} {c c' : StepCtl K} (h : acts l c = .ok c') :
    c'.t + ((c'.nt - c'.tstep : ℤ) : K) * c'.dt = c.t + ((c.nt - c.tstep : ℤ) : K) * c.dt ∧
    c'.savetime * c.dt = c.savetime * c'.dt := by
  induction l generalizing c with
  | nil => cases h; exact ⟨rfl, rfl⟩
  | cons a l ih =>
    obtain ⟨c1, h1, h2⟩ := res_bind_ok.1 h
    obtain ⟨e1, e2⟩ := ih h2
    rw [e1]
    cases a with
    | advance =>
      cases h1
      refine ⟨?_, e2⟩
      push_cast
      ring
    | update L =>
      rcases listTimestep_cases h1 with ⟨-, rfl⟩ | ⟨-, -, g1, g2, -, g3, g4, g5⟩
      · exact ⟨rfl, e2⟩
      · rw [g1, g2, g3, g4]
        rw [g4, g5] at e2
        refine ⟨?_, ?_⟩
        · push_cast; ring
        · linear_combination 20 * e2

/-- C55.  Once a point has yielded every later call refines again: after `k` calls the time step is
`dt / 20^k`, whatever the points do. -/
theorem c55_repeats {l : List (Act K ns)} {c c' : StepCtl K} (h : acts l c = .ok c')
    (hc : c.hasYielded = true) :
    c'.hasYielded = true ∧ c'.dt = c.dt / 20 ^ (l.countP Act.isUpdate) ∧
    c'.savetime = c.savetime / 20 ^ (l.countP Act.isUpdate) := by
  induction l generalizing c with
  | nil => cases h; simp [hc]
  | cons a l ih =>
    obtain ⟨c1, h1, h2⟩ := res_bind_ok.1 h
    cases a with
    | advance =>
      cases h1
      have := ih h2 hc
      rwa [List.countP_cons_of_neg (by simp [Act.isUpdate])]
    | update L =>
      rcases listTimestep_cases h1 with ⟨g, -⟩ | ⟨-, g0, -, -, -, -, g4, g5⟩
      · rw [hc] at g; cases g
      · obtain ⟨i1, i2, i3⟩ := ih h2 g0
        rw [List.countP_cons_of_pos (by rfl), i2, i3, g4, g5, pow_succ]
        refine ⟨i1, ?_, ?_⟩
        · rw [div_div, mul_comm]
        · rw [div_div, mul_comm]

/-- C55.  The number of remaining steps grows twentyfold with each of those calls. -/
theorem c55_steps {L : ℕ → List (PhaseSt K ns)} {k : ℕ} {c c' : StepCtl K}
    (h : acts ((List.range k).map fun i => .update (L i)) c = .ok c') (hc : c.hasYielded = true) :
    c'.tstep = c.tstep ∧ c'.nt - c'.tstep = 20 ^ k * (c.nt - c.tstep) := by
  suffices H : ∀ (l : List ℕ) (c : StepCtl K), acts (l.map fun i => .update (L i)) c = .ok c' →
      c.hasYielded = true →
      c'.tstep = c.tstep ∧ c'.nt - c'.tstep = 20 ^ l.length * (c.nt - c.tstep) by
    simpa using H _ c h hc
  intro l
  induction l with
  | nil => intro c h _; cases h; simp
  | cons i l ih =>
    intro c h hc
    obtain ⟨c1, h1, h2⟩ := res_bind_ok.1 h
    rcases listTimestep_cases h1 with ⟨g, -⟩ | ⟨-, g0, -, g2, -, g3, -⟩
    · rw [hc] at g; cases g
    · obtain ⟨i1, i2⟩ := ih c1 h2 g0
      refine ⟨i1.trans g2, i2.trans ?_⟩
      rw [g2, g3, List.length_cons, pow_succ]
      ring

end

/-! ## C59 -/

section
variable {K : Type} [Field K] [LinearOrder K] [IsStrictOrderedRing K] {ns : ℕ}

/-- C59.  Kinetic energy is never negative and vanishes exactly at rest. -/
theorem c59_kinetic (ops : Ops K) (tr : Trig K) (θ g : K) (iv : Vec K) (mp : Particle K ns) :
    ∃ k, (mp.energy ops tr θ g iv).1 = .fin k ∧ (0 ≤ mp.m → 0 ≤ k) ∧
      (0 < mp.m → (k = 0 ↔ mp.v.get iv = 0)) := by
  refine ⟨_, rfl, fun hm => ?_, fun hm => ?_⟩
  · have : 0 ≤ ∑ i, mp.v.get iv i ^ 2 := Finset.sum_nonneg fun i _ => sq_nonneg _
    positivity
  · have h2 : (1 / 2 * mp.m : K) ≠ 0 := by positivity
    rw [mul_eq_zero, or_iff_right h2, Finset.sum_eq_zero_iff_of_nonneg fun i _ => sq_nonneg _]
    constructor
    · intro h
      funext i
      exact pow_eq_zero_iff (two_ne_zero) |>.1 (h i (Finset.mem_univ i))
    · intro h i _
      rw [h]; simp

/-- C59.  The stored elastic energy of a linear elastic state is not negative. -/
theorem c59_elastic (ops : Ops K) (tr : Trig K) (θ g : K) (iv : Vec K) (mp : Particle K ns)
    {Kb Gs : K} (hK : 0 ≤ Kb) (hG : 0 ≤ Gs) (hV : 0 ≤ mp.V)
    (h : mp.stress = (Kb * mp.strain.trace) • (1 : Mat K) +
      (2 * Gs) • (mp.strain - (mp.strain.trace / 3) • (1 : Mat K))) :
    ∃ s, (mp.energy ops tr θ g iv).2.2 = .fin s ∧ 0 ≤ s := by
  refine ⟨_, rfl, ?_⟩
  rw [h]
  generalize mp.strain = e
  have key : (∑ j, ∑ i, ((Kb * e.trace) • (1 : Mat K) +
      (2 * Gs) • (e - (e.trace / 3) • (1 : Mat K))) i j * e i j) =
      Kb * e.trace ^ 2 + 2 * Gs * (∑ j, ∑ i, (e - (e.trace / 3) • (1 : Mat K)) i j ^ 2) := by
    simp [Fin.sum_univ_three, Matrix.trace]
    ring
  rw [key]
  have : 0 ≤ ∑ j, ∑ i, (e - (e.trace / 3) • (1 : Mat K)) i j ^ 2 :=
    Finset.sum_nonneg fun j _ => Finset.sum_nonneg fun i _ => sq_nonneg _
  positivity

end

/-- The trigonometric functions of real analysis. -/
noncomputable def realTrig : Trig ℝ :=
  { sin := Real.sin, arctan := Real.arctan, halfPi := Real.pi / 2 }

theorem sqrt_mul_sin_arctan {x y : ℝ} (θ : ℝ) (hx : x ≠ 0) :
    √(x ^ 2 + y ^ 2) * Real.sin (θ + Real.arctan |y / x|) =
      |x| * Real.sin θ + |y| * Real.cos θ := by
  have hx' : 0 < |x| := abs_pos.2 hx
  have hs : √(x ^ 2 + y ^ 2) = |x| * √(1 + |y / x| ^ 2) := by
    rw [← Real.sqrt_sq_eq_abs x, ← Real.sqrt_mul (sq_nonneg x)]
    congr 1
    rw [sq_abs]
    field_simp
  have hp : (0 : ℝ) < √(1 + |y / x| ^ 2) := Real.sqrt_pos.2 (by positivity)
  rw [Real.sin_add, Real.cos_arctan, Real.sin_arctan, hs, abs_div]
  rw [abs_div] at hp
  field_simp

/-- C59.  The reported height, for any inclination: `|x| sin θ + |y| cos θ` for every point of the
plane other than the origin. -/
theorem c59_height {big : ℝ} (θ : ℝ) {x : Vec ℝ} (h2 : x 2 = 0) (h0 : x 0 ≠ 0 ∨ x 1 ≠ 0) :
    height (realOps big) realTrig θ x = .fin (|x 0| * Real.sin θ + |x 1| * Real.cos θ) := by
  have hsum : ∑ i, x i ^ 2 = x 0 ^ 2 + x 1 ^ 2 := by
    rw [Fin.sum_univ_three, h2]; simp
  have hpow : (realOps big).pow (∑ i, x i ^ 2) (1 / 2) = √(x 0 ^ 2 + x 1 ^ 2) := by
    rw [hsum]; exact (Real.sqrt_eq_rpow _).symm
  unfold height
  rw [hpow]
  by_cases hx : x 0 = 0
  · have hy : x 1 ≠ 0 := h0.resolve_left fun h => h hx
    have e : XF.abs ((.fin (x 1) / .fin (x 0) : XF ℝ)) = .pinf := by
      show XF.abs (XF.div (.fin (x 1)) (.fin (x 0))) = _
      simp only [XF.div, hx, if_true, if_neg hy, XF.infSign]
      split_ifs <;> rfl
    rw [e]
    show XF.fin (√(x 0 ^ 2 + x 1 ^ 2) * Real.sin (θ + Real.pi / 2)) = _
    rw [Real.sin_add_pi_div_two, hx]
    simp [Real.sqrt_sq_eq_abs]
  · have e : XF.abs ((.fin (x 1) / .fin (x 0) : XF ℝ)) = .fin |x 1 / x 0| := by
      show XF.abs (XF.div (.fin (x 1)) (.fin (x 0))) = _
      simp only [XF.div, if_neg hx]
      rfl
    rw [e]
    show XF.fin (√(x 0 ^ 2 + x 1 ^ 2) * Real.sin (θ + Real.arctan |x 1 / x 0|)) = _
    rw [sqrt_mul_sin_arctan θ hx]

/-- C59.  In a horizontal domain the reported height is the distance `|y|` from the line `y = 0`. -/
theorem c59_level {big : ℝ} {x : Vec ℝ} (h2 : x 2 = 0) (h0 : x 0 ≠ 0) :
    height (realOps big) realTrig 0 x = .fin |x 1| := by
  rw [c59_height 0 h2 (Or.inl h0)]
  simp

/-- C59.  The height is NaN exactly at the origin, for every inclination. -/
theorem c59_nan {big : ℝ} (θ : ℝ) {x : Vec ℝ} (h2 : x 2 = 0) :
    height (realOps big) realTrig θ x = .nan ↔ x 0 = 0 ∧ x 1 = 0 := by
  constructor
  · intro h
    by_contra hne
    rw [c59_height θ h2 (by tauto)] at h
    cases h
  · rintro ⟨h0, h1⟩
    have e : (.fin (x 1) / .fin (x 0) : XF ℝ) = .nan := by
      show XF.div (.fin (x 1)) (.fin (x 0)) = _
      simp only [XF.div, h0, h1, if_true]
    unfold height
    rw [e]
    rfl

/-- C59.  So the gravitational energy is that of a point above the axes: it is right in the quadrant
`x, y ≥ 0` only, and a point below `y = 0` counts as if it were above. -/
theorem c59_potential {ns : ℕ} {big : ℝ} (θ g : ℝ) (iv : Vec ℝ) {mp : Particle ℝ ns}
    (h2 : mp.x 2 = 0) (h0 : mp.x 0 ≠ 0 ∨ mp.x 1 ≠ 0) :
    (mp.energy (realOps big) realTrig θ g iv).2.1 =
      .fin (-mp.m * g * (|mp.x 0| * Real.sin θ + |mp.x 1| * Real.cos θ)) := by
  show XF.mul (.fin (-mp.m * g)) (height (realOps big) realTrig θ mp.x) = _
  rw [c59_height θ h2 h0]
  rfl

theorem xf_foldl_nan {α : Type} (f : α → XF ℝ) (l : List α) (s : XF ℝ) (hs : s = .nan) :
    l.foldl (fun s a => s + f a) s = .nan := by
  induction l generalizing s with
  | nil => exact hs
  | cons a l ih =>
    refine ih _ ?_
    rw [hs]
    show XF.add .nan (f a) = .nan
    simp only [XF.add]

/-- C59.  The totals over all points: the kinetic energy is their sum and not negative, and one point
at the origin makes the total gravitational energy NaN. -/
theorem c59_total {ns : ℕ} {big : ℝ} (θ g t : ℝ) {L : List (PhaseSt ℝ ns)} (hL : Counted L)
    (hm : ∀ mp ∈ points L, 0 ≤ mp.m) (h2 : ∀ mp ∈ points L, mp.x 2 = 0) :
    ∃ k e s, measureEnergy (realOps big) realTrig θ g t L = .ok (t, .fin k, e, .fin s) ∧ 0 ≤ k ∧
      k = ((items L).map fun x => 1 / 2 * x.2.m * ∑ i, x.2.v.get x.1.iv i ^ 2).sum ∧
      (e = .nan ↔ ∃ mp ∈ points L, mp.x 0 = 0 ∧ mp.x 1 = 0) := by
  have fold : ∀ (l : List (Phase ℝ ns × Particle ℝ ns)) (k s : ℝ) (e : XF ℝ),
      (∀ x ∈ l, 0 ≤ x.2.m ∧ x.2.x 2 = 0) → (e = .nan ∨ ∃ y, e = .fin y) →
      ∃ k' e' s', l.foldlM (fun (e : XF ℝ × XF ℝ × XF ℝ) x =>
          let d := x.2.energy (realOps big) realTrig θ g x.1.iv
          (.ok (e.1 + d.1, e.2.1 + d.2.1, e.2.2 + d.2.2) : Res (XF ℝ × XF ℝ × XF ℝ)))
          ((.fin k, e, .fin s) : XF ℝ × XF ℝ × XF ℝ) = .ok (.fin k', e', .fin s') ∧
        k' = k + (l.map fun x => 1 / 2 * x.2.m * ∑ i, x.2.v.get x.1.iv i ^ 2).sum ∧
        (e' = .nan ↔ e = .nan ∨ ∃ x ∈ l, x.2.x 0 = 0 ∧ x.2.x 1 = 0) := by
    intro l
    induction l with
    | nil => intro k s e _ _; exact ⟨k, e, s, rfl, by simp, by simp⟩
    | cons x l ih =>
      intro k s e hl he
      have hx := hl x (by simp)
      have hg : ((x.2.energy (realOps big) realTrig θ g x.1.iv).2.1 = .nan ∧
            x.2.x 0 = 0 ∧ x.2.x 1 = 0) ∨
          ((∃ y, (x.2.energy (realOps big) realTrig θ g x.1.iv).2.1 = .fin y) ∧
            ¬ (x.2.x 0 = 0 ∧ x.2.x 1 = 0)) := by
        by_cases h0 : x.2.x 0 = 0 ∧ x.2.x 1 = 0
        · refine Or.inl ⟨?_, h0⟩
          show XF.mul (.fin (-x.2.m * g)) (height (realOps big) realTrig θ x.2.x) = _
          rw [(c59_nan θ hx.2).2 h0]
          rfl
        · exact Or.inr ⟨⟨_, c59_potential θ g x.1.iv hx.2 (by tauto)⟩, h0⟩
      have he1 : (e + (x.2.energy (realOps big) realTrig θ g x.1.iv).2.1 = .nan ∨
          ∃ y, e + (x.2.energy (realOps big) realTrig θ g x.1.iv).2.1 = .fin y) ∧
          (e + (x.2.energy (realOps big) realTrig θ g x.1.iv).2.1 = .nan ↔
            e = .nan ∨ (x.2.x 0 = 0 ∧ x.2.x 1 = 0)) := by
        rcases he with rfl | ⟨y, rfl⟩ <;> rcases hg with ⟨hg, h0⟩ | ⟨⟨z, hg⟩, h0⟩ <;> rw [hg]
        · exact ⟨Or.inl rfl, ⟨fun _ => Or.inl rfl, fun _ => rfl⟩⟩
        · exact ⟨Or.inl rfl, ⟨fun _ => Or.inl rfl, fun _ => rfl⟩⟩
        · exact ⟨Or.inl rfl, ⟨fun _ => Or.inr h0, fun _ => rfl⟩⟩
        · refine ⟨Or.inr ⟨y + z, rfl⟩, ⟨fun h => ?_, fun h => ?_⟩⟩
          · cases h
          · rcases h with h | h
            · cases h
            · exact absurd h h0
      obtain ⟨k', e', s', i1, i2, i3⟩ := ih (k + 1 / 2 * x.2.m * ∑ i, x.2.v.get x.1.iv i ^ 2)
        (s + 1 / 2 * (∑ j, ∑ i, x.2.stress i j * x.2.strain i j) * x.2.V)
        (e + (x.2.energy (realOps big) realTrig θ g x.1.iv).2.1)
        (fun y hy => hl y (by simp [hy])) he1.1
      refine ⟨k', e', s', i1, ?_, ?_⟩
      · rw [i2, List.map_cons, List.sum_cons, add_assoc]
      · rw [i3, he1.2]
        simp only [List.mem_cons, exists_eq_or_imp, or_assoc]
  obtain ⟨k, e, s, h1, h3, h4⟩ := fold (items L) 0 0 (.fin 0) (by
    intro x hx
    obtain ⟨a, ha, -, hp⟩ := mem_items.1 hx
    have : x.2 ∈ points L := List.mem_flatMap.2 ⟨a, ha, hp⟩
    exact ⟨hm _ this, h2 _ this⟩) (Or.inr ⟨0, rfl⟩)
  refine ⟨k, e, s, ?_, ?_, by rw [h3, zero_add], ?_⟩
  · unfold measureEnergy
    rw [foldPhases_foldN (fun ph mp (e : XF ℝ × XF ℝ × XF ℝ) =>
      let d := mp.energy (realOps big) realTrig θ g ph.iv
      .ok (e.1 + d.1, e.2.1 + d.2.1, e.2.2 + d.2.2)) hL, h1]
    rfl
  · rw [h3, zero_add]
    refine List.sum_nonneg fun y hy => ?_
    obtain ⟨x, hx, rfl⟩ := List.mem_map.1 hy
    obtain ⟨a, ha, -, hp⟩ := mem_items.1 hx
    have : 0 ≤ x.2.m := hm _ (List.mem_flatMap.2 ⟨a, ha, hp⟩)
    have : 0 ≤ ∑ i, x.2.v.get x.1.iv i ^ 2 := Finset.sum_nonneg fun i _ => sq_nonneg _
    positivity
  · rw [h4, ← items_map_snd]
    constructor
    · rintro (h | ⟨x, hx, h⟩)
      · cases h
      · exact ⟨x.2, List.mem_map.2 ⟨x, hx, rfl⟩, h⟩
    · rintro ⟨mp, hmp, h⟩
      obtain ⟨x, hx, rfl⟩ := List.mem_map.1 hmp
      exact Or.inr ⟨x, hx, h⟩

/-! ## The hypotheses can be met -/

def Ex.yieldedL : List (PhaseSt ℚ 2) :=
  [{ ph := Ex.ph, pts := [Ex.mp, { Ex.mp2 with yieldfunction := 2 }] }]

def Ex.ctl : StepCtl ℚ :=
  { t := 1, dt := 1/10, nt := 40, tstep := 10, savetime := 1, hasYielded := false, q := some 0 }

/-- Nothing yields at first, then one point does, then it unloads: two refinements. -/
def Ex.actList : List (Act ℚ 2) :=
  [.update Ex.L, .advance, .update Ex.yieldedL, .advance, .update Ex.L]

def Ex.ctlCheck : Bool :=
  match acts Ex.actList Ex.ctl with
  | .ok c => decide (c.dt = 1/4000 ∧ c.nt = 11592 ∧ c.tstep = 12 ∧ c.t = 221/200 ∧
      c.hasYielded = true)
  | .error _ => false

theorem Ex.ctl_ok : ∃ c, acts Ex.actList Ex.ctl = .ok c ∧ c.dt = 1/4000 ∧ c.hasYielded = true ∧
    c.t + ((c.nt - c.tstep : ℤ) : ℚ) * c.dt = 4 := by
  have h : Ex.ctlCheck = true := by decide +kernel
  unfold Ex.ctlCheck at h
  split at h
  · rename_i c hc
    obtain ⟨h1, h2, h3, h4, h5⟩ := of_decide_eq_true h
    exact ⟨c, hc, h1, h5, by rw [h1, h2, h3, h4]; norm_num⟩
  · simp at h

example : SomeYielded Ex.yieldedL :=
  ⟨{ Ex.mp2 with yieldfunction := 2 }, by simp [points, Ex.yieldedL], by norm_num⟩

example : ¬ SomeYielded Ex.L := by
  rintro ⟨mp, hmp, h⟩
  simp only [points, Ex.L, List.flatMap_cons, List.flatMap_nil, List.append_nil, List.mem_cons,
    List.not_mem_nil, or_false] at hmp
  rcases hmp with rfl | rfl <;> norm_num [Ex.mp, Ex.mp2] at h

/-- A point 4 below the axis is reported 4 above it. -/
example : height (realOps 1) realTrig 0 ![3, -4, 0] = .fin 4 := by
  rw [c59_level (by simp) (by simp)]
  norm_num

/-- A real point. -/
noncomputable def Ex.realMp (x : Vec ℝ) : Particle ℝ 0 :=
  { rho := 1, x := x, v := .own ![1, 2, 0], V := 1, m := 3, b := 0
    stress := 0, strain := 0, dstrain := 0, dstress := 0, de_ij := 0
    dev_stress := 0, sigma_kk := 0, gammadot := 0, pressure := 0, pk := 0, sigmav := 0
    sigmah := 0, yieldfunction := 0, Gs := fun _ => 0, N := fun _ => 0, n_star := 0
    phi := fun _ => 0, LL := 0, mu := none, I := .fin 0, eta := .fin 0 }

noncomputable def Ex.realPh : Phase ℝ 0 :=
  { n := 2, law := .elastic
    par := { rho := 1, rho_s := 1, Kb := 10, Gs := 5, k := 1, s := 2, mu_s := 1, mu_v := 0, mu_1 := 0,
             mu_2 := 1, mu_0 := .scalar 1, delta_mu := .scalar 1, I_0 := .scalar 1, tau_0 := 1,
             gamma_c := 1, eta_max := 100, b := 1, E_0 := 1, nu := 1/4, t_0 := 0, rho_f := 1,
             mu := 1, beta := 1, t_star := 1, packing := 1 }
    A := 1, hasIv := false, iv := 0, phi := fun _ => 0
    inlet_rate := 1, gap := ![0, 0], yp := [] }

/-- Two points, one of them at the origin: the total kinetic energy is finite, the gravitational energy
is lost. -/
example : ∃ s, measureEnergy (realOps 1) realTrig 0 (-10) 7
    [{ ph := Ex.realPh, pts := [Ex.realMp ![1, 1, 0], Ex.realMp 0] }] =
      .ok (7, .fin 15, .nan, .fin s) := by
  obtain ⟨k, e, s, h1, -, h2, h3⟩ := c59_total (big := 1) 0 (-10) 7
    (L := [{ ph := Ex.realPh, pts := [Ex.realMp ![1, 1, 0], Ex.realMp 0] }])
    (by intro a ha; simp at ha; subst ha; rfl)
    (by intro mp hmp; simp [points] at hmp; rcases hmp with rfl | rfl <;> norm_num [Ex.realMp])
    (by intro mp hmp; simp [points] at hmp; rcases hmp with rfl | rfl <;> rfl)
  refine ⟨s, ?_⟩
  have e2 : (![1, 2, 0] : Vec ℝ) 2 = 0 := rfl
  rw [h1, h3.2 ⟨Ex.realMp 0, by simp [points], rfl, rfl⟩, h2]
  norm_num [items, Ex.realMp, VRef.get, Fin.sum_univ_three, e2]

end Mpm

import Verif.Model.Loop
import Verif.Lemmas.Frame
import Verif.ExRun
import Mathlib.Data.List.Range

set_option linter.unusedSectionVars false

/-!
# The main loop (C50, C51, C52)
-/

namespace Mpm
open Spec

namespace Spec
section
variable {K : Type} [Field K] [LinearOrder K]

/-- Hooks that leave the clock alone: time, time step and step number. -/
def KeepsTime {P : Par K} {W : Type} (hooks : Call → St P × W → Res (St P × W)) : Prop :=
  ∀ c x y, hooks c x = .ok y → y.1.dyn.t = x.1.dyn.t ∧ y.1.dyn.dt = x.1.dyn.dt ∧
    y.1.dyn.tstep = x.1.dyn.tstep

/-- The calls of one time step at time `t`, step number `k`. -/
def stepCalls (t : K) (k : ℕ) (save : Bool) : List (Event K) :=
  [⟨.march, t, k⟩, ⟨.before, t, k⟩] ++ (if save then [⟨.nth, t, k⟩] else []) ++ [⟨.after, t, k⟩]

/-- The order of calls in one time step. -/
def stepOrder (save : Bool) : List Call :=
  [.march, .before] ++ (if save then [.nth] else []) ++ [.after]

/-- The number of time steps from `t₀` to `t_f`. -/
def stepCount [FloorRing K] (t₀ dt t_f : K) : ℕ :=
  if t₀ ≤ t_f then ⌊(t_f - t₀) / dt⌋.toNat + 1 else 0

end
end Spec

section
variable {K : Type} [Field K] [LinearOrder K] [IsStrictOrderedRing K] [FloorRing K] {W : Type}
variable {P : Par K} {interp : Interp K P.G.N} {A : LoopPar K}
  {hooks : Call → St P × W → Res (St P × W)}

theorem callHook_ok {c : Call} {l l' : LoopSt P W} (h : callHook P hooks c l = .ok l') :
    hooks c (l.s, l.w) = .ok (l'.s, l'.w) ∧
      l'.log = l.log ++ [⟨c, l.s.dyn.t, l.s.dyn.tstep⟩] := by
  unfold callHook at h
  obtain ⟨⟨s, w⟩, h1, h2⟩ := res_bind_ok.1 h
  cases h2
  exact ⟨h1, rfl⟩

theorem timeMarch_clock {s s' : St P} (h : timeMarch P interp s = .ok s') :
    s'.dyn.t = s.dyn.t ∧ s'.dyn.dt = s.dyn.dt ∧ s'.dyn.tstep = s.dyn.tstep := by
  obtain ⟨-, -, -, e⟩ := timeMarch_table h
  rw [e]
  exact ⟨rfl, rfl, rfl⟩

/-- What one pass through the loop does, for any hooks. -/
theorem loopBody_parts {l l' : LoopSt P W} (h : loopBody P interp A hooks l = .ok l') :
    A.t_f ≠ 0 ∧ A.savetime ≠ 0 ∧
    ∃ (s1 : St P) (l1 l2 l3 : LoopSt P W), timeMarch P interp l.s = .ok s1 ∧
      callHook P hooks .before
        { l with s := s1, log := l.log ++ [⟨.march, l.s.dyn.t, l.s.dyn.tstep⟩] } = .ok l1 ∧
      nthHook P A hooks l1 = .ok l2 ∧
      callHook P hooks .after l2 = .ok l3 ∧ advance P A l3 = .ok l' := by
  unfold loopBody at h
  obtain ⟨s1, h1, h⟩ := res_bind_ok.1 h
  obtain ⟨l1, h2, h⟩ := res_bind_ok.1 h
  split at h
  · cases h
  · rename_i ht
    split at h
    · cases h
    · rename_i hsv
      obtain ⟨l2, h3, h⟩ := res_bind_ok.1 h
      obtain ⟨l3, h4, h⟩ := res_bind_ok.1 h
      exact ⟨ht, hsv, s1, l1, l2, l3, h1, h2, h3, h4, h⟩

theorem advance_ok {l l' : LoopSt P W} (h : advance P A l = .ok l') :
    l'.log = l.log ∧ l'.w = l.w ∧ l'.s.L = l.s.L ∧ l'.s.G = l.s.G ∧
      l'.s.dyn.t = l.s.dyn.t + l.s.dyn.dt ∧ l'.s.dyn.tstep = l.s.dyn.tstep + 1 ∧
      (A.dynamic = false → l'.s.dyn.dt = l.s.dyn.dt) ∧
      (A.dynamic = true → l'.s.dyn.t ≤ A.t_f →
        defaultTimestep P A l.s.G = .fin l'.s.dyn.dt) := by
  unfold advance at h
  simp only at h
  split at h
  · rename_i hd
    split at h
    · rename_i dt e
      cases h
      exact ⟨rfl, rfl, rfl, rfl, rfl, rfl, fun h => by simp [hd] at h, fun _ _ => e⟩
    · split at h
      · cases h
      · rename_i hle
        cases h
        exact ⟨rfl, rfl, rfl, rfl, rfl, rfl, fun _ => rfl, fun _ h => absurd h hle⟩
  · rename_i hd
    cases h
    exact ⟨rfl, rfl, rfl, rfl, rfl, rfl, fun _ => rfl, fun h => absurd h hd⟩

theorem loopBody_order {l l' : LoopSt P W} (h : loopBody P interp A hooks l = .ok l') :
    ∃ (es : List (Event K)) (b : Bool), l'.log = l.log ++ es ∧ es.map (·.call) = stepOrder b := by
  obtain ⟨-, -, s1, l1, l2, l3, h1, h2, h3, h4, h5⟩ := loopBody_parts h
  obtain ⟨-, e2⟩ := callHook_ok h2
  obtain ⟨-, e4⟩ := callHook_ok h4
  obtain ⟨e5, -⟩ := advance_ok h5
  unfold nthHook at h3
  split at h3
  · obtain ⟨-, e3⟩ := callHook_ok h3
    rw [e5, e4, e3, e2]
    exact ⟨_, true, by simp only [List.append_assoc]; rfl, rfl⟩
  · cases h3
    rw [e5, e4, e2]
    exact ⟨_, false, by simp only [List.append_assoc]; rfl, rfl⟩

theorem loopBody_keeps (hk : KeepsTime hooks) {l l' : LoopSt P W}
    (h : loopBody P interp A hooks l = .ok l') :
    l'.log = l.log ++ stepCalls l.s.dyn.t l.s.dyn.tstep
        (saveTest l.s.dyn.t l.s.dyn.dt A.savetime) ∧
      l'.s.dyn.t = l.s.dyn.t + l.s.dyn.dt ∧ l'.s.dyn.tstep = l.s.dyn.tstep + 1 ∧
      (A.dynamic = false → l'.s.dyn.dt = l.s.dyn.dt) ∧ A.t_f ≠ 0 ∧ A.savetime ≠ 0 := by
  obtain ⟨g1, g2, s1, l1, l2, l3, h1, h2, h3, h4, h5⟩ := loopBody_parts h
  obtain ⟨t1, d1, k1⟩ := timeMarch_clock h1
  obtain ⟨c2, e2⟩ := callHook_ok h2
  obtain ⟨c4, e4⟩ := callHook_ok h4
  obtain ⟨e5, -, -, -, t5, k5, d5, -⟩ := advance_ok h5
  obtain ⟨t2, d2, k2⟩ := hk _ _ _ c2
  obtain ⟨t4, d4, k4⟩ := hk _ _ _ c4
  simp only at t2 d2 k2 t4 d4 k4 e2
  have h23 : l2.s.dyn.t = l1.s.dyn.t ∧ l2.s.dyn.dt = l1.s.dyn.dt ∧
      l2.s.dyn.tstep = l1.s.dyn.tstep ∧ l2.log = l1.log ++
        (if saveTest l1.s.dyn.t l1.s.dyn.dt A.savetime then
          [⟨.nth, l1.s.dyn.t, l1.s.dyn.tstep⟩] else []) := by
    unfold nthHook at h3
    split at h3
    · rename_i hs
      obtain ⟨c3, e3⟩ := callHook_ok h3
      obtain ⟨t3, d3, k3⟩ := hk _ _ _ c3
      rw [if_pos hs]
      exact ⟨t3, d3, k3, e3⟩
    · rename_i hs
      cases h3
      rw [if_neg hs, List.append_nil]
      exact ⟨rfl, rfl, rfl, rfl⟩
  obtain ⟨t3, d3, k3, e3⟩ := h23
  have T1 : l1.s.dyn.t = l.s.dyn.t := t2.trans t1
  have D1 : l1.s.dyn.dt = l.s.dyn.dt := d2.trans d1
  have K1 : l1.s.dyn.tstep = l.s.dyn.tstep := k2.trans k1
  refine ⟨?_, ?_, ?_, ?_, g1, g2⟩
  · rw [e5, e4, e3, e2, t3, k3, T1, D1, K1, t1, k1]
    simp only [stepCalls, List.append_assoc]
    rfl
  · rw [t5, t4, d4, t3, d3, T1, D1]
  · rw [k5, k4, k3, K1]
  · intro hd
    rw [d5 hd, d4, d3, D1]

/-- The loop with hooks that leave the clock alone and static time steps. -/
theorem loop_static (hk : KeepsTime hooks) (hd : A.dynamic = false) {fuel : ℕ} {l l' : LoopSt P W}
    (h : loop P interp A hooks fuel l = some (.ok l')) :
    ∃ n : ℕ, (∀ k < n, l.s.dyn.t + k * l.s.dyn.dt ≤ A.t_f) ∧ A.t_f < l.s.dyn.t + n * l.s.dyn.dt ∧
      l'.s.dyn.t = l.s.dyn.t + n * l.s.dyn.dt ∧ l'.s.dyn.tstep = l.s.dyn.tstep + n ∧
      l'.log = l.log ++ (List.range n).flatMap fun k : ℕ =>
        stepCalls (l.s.dyn.t + k * l.s.dyn.dt) (l.s.dyn.tstep + k)
          (saveTest (l.s.dyn.t + k * l.s.dyn.dt) l.s.dyn.dt A.savetime) := by
  induction fuel generalizing l with
  | zero => cases h
  | succ fuel ih =>
    unfold loop at h
    split at h
    · rename_i hle
      split at h
      · cases h
      · rename_i l1 hb
        obtain ⟨e1, t1, k1, d1, -, -⟩ := loopBody_keeps hk hb
        replace d1 := d1 hd
        obtain ⟨n, h1, h2, h3, h4, h5⟩ := ih h
        have et : ∀ k : ℕ, l.s.dyn.t + ((k + 1 : ℕ) : K) * l.s.dyn.dt
            = l1.s.dyn.t + k * l1.s.dyn.dt := by
          intro k; rw [t1, d1]; push_cast; ring
        refine ⟨n + 1, ?_, by rw [et]; exact h2, by rw [et]; exact h3, by rw [h4, k1]; omega, ?_⟩
        · rintro (_ | k) hk'
          · simpa using hle
          · rw [et]; exact h1 k (by omega)
        · rw [h5, e1, List.range_succ_eq_map, List.flatMap_cons, List.flatMap_map,
            List.append_assoc]
          have e : ∀ k : ℕ, l.s.dyn.tstep + (k + 1) = l1.s.dyn.tstep + k := by
            intro k; rw [k1]; omega
          simp only [Function.comp_def, Nat.succ_eq_add_one, et, e, d1]
          simp
    · rename_i hle
      cases h
      exact ⟨0, by simp, by simpa using not_le.1 hle, by simp, by simp, by simp⟩

theorem stepCount_unique {t₀ dt t_f : K} (hdt : 0 < dt) {n : ℕ}
    (h1 : ∀ k < n, t₀ + k * dt ≤ t_f) (h2 : t_f < t₀ + n * dt) : n = stepCount t₀ dt t_f := by
  unfold stepCount
  rcases n with _ | n
  · rw [if_neg (by simpa using h2)]
  · have h0 : t₀ ≤ t_f := by simpa using h1 0 (by omega)
    have hn := h1 n (by omega)
    rw [if_pos h0]
    have : ⌊(t_f - t₀) / dt⌋ = (n : ℤ) := by
      rw [Int.floor_eq_iff]
      constructor
      · rw [le_div_iff₀ hdt]; push_cast; linarith
      · rw [div_lt_iff₀ hdt]; push_cast at h2 ⊢; linarith
    rw [this]; rfl

/-! ## C51: the order of the calls -/

theorem loop_order {fuel : ℕ} {l l' : LoopSt P W}
    (h : loop P interp A hooks fuel l = some (.ok l')) :
    ∃ bs : List Bool, l'.log.map (·.call) = l.log.map (·.call) ++ bs.flatMap stepOrder := by
  induction fuel generalizing l with
  | zero => cases h
  | succ fuel ih =>
    unfold loop at h
    split at h
    · split at h
      · cases h
      · rename_i l1 hb
        obtain ⟨es, b, e1, e2⟩ := loopBody_order hb
        obtain ⟨bs, e3⟩ := ih h
        refine ⟨b :: bs, ?_⟩
        rw [e3, e1, List.map_append, e2, List.flatMap_cons, List.append_assoc]
    · cases h
      exact ⟨[], by simp⟩

theorem mainRun_ok {fuel : ℕ} {s : St P} {w : W} {l : LoopSt P W}
    (h : mainRun P interp A hooks fuel s w = some (.ok l)) :
    ∃ l1 l2, callHook P hooks .initial { s := s, w := w, log := [] } = .ok l1 ∧
      loop P interp A hooks fuel l1 = some (.ok l2) ∧ callHook P hooks .final l2 = .ok l := by
  unfold mainRun at h
  split at h
  · cases h
  · rename_i l1 h1
    split at h
    · cases h
    · cases h
    · rename_i l2 h2
      exact ⟨l1, l2, h1, h2, by simpa using h⟩

/-- C51.  In a run that ends without an exception, whatever the hooks do and with either kind of
time stepping: `initial_graphs` is called once, first; `final_graphs` once, last; in between,
every time step is followed by `before_every_timestep`, possibly `after_every_nth_timestep`, and
`after_every_timestep`, in this order. -/
theorem c51_order {fuel : ℕ} {s : St P} {w : W} {l : LoopSt P W}
    (h : mainRun P interp A hooks fuel s w = some (.ok l)) :
    ∃ saved : List Bool,
      l.log.map (·.call) = [.initial] ++ saved.flatMap stepOrder ++ [.final] := by
  obtain ⟨l1, l2, h1, h2, h3⟩ := mainRun_ok h
  obtain ⟨-, e1⟩ := callHook_ok h1
  obtain ⟨-, e3⟩ := callHook_ok h3
  obtain ⟨bs, e2⟩ := loop_order h2
  exact ⟨bs, by rw [e3, List.map_append, e2, e1]; rfl⟩

/-- C51.  Counting: as many calls of each per-step hook as time steps, and no more calls of
`after_every_nth_timestep` than that. -/
theorem c51_counts {fuel : ℕ} {s : St P} {w : W} {l : LoopSt P W}
    (h : mainRun P interp A hooks fuel s w = some (.ok l)) :
    let n := fun c : Call => (l.log.map (·.call)).count c
    n .initial = 1 ∧ n .final = 1 ∧ n .before = n .march ∧ n .after = n .march ∧
      n .nth ≤ n .march := by
  obtain ⟨bs, e⟩ := c51_order h
  simp only [e]
  clear e h
  suffices H : ∀ bs : List Bool, (bs.flatMap stepOrder).count .initial = 0 ∧
      (bs.flatMap stepOrder).count .final = 0 ∧
      (bs.flatMap stepOrder).count .before = (bs.flatMap stepOrder).count .march ∧
      (bs.flatMap stepOrder).count .after = (bs.flatMap stepOrder).count .march ∧
      (bs.flatMap stepOrder).count .nth ≤ (bs.flatMap stepOrder).count .march by
    obtain ⟨a1, a2, a3, a4, a5⟩ := H bs
    simp [List.count_append, List.count_cons, a1, a2, a3, a4, a5]
  intro bs
  induction bs with
  | nil => simp
  | cons b bs ih =>
    obtain ⟨a1, a2, a3, a4, a5⟩ := ih
    cases b <;> simp [List.count_append, List.count_cons, stepOrder, a1, a2, a3, a4] <;> omega

/-- C50, C51, C52 together: with static time steps and hooks that leave the clock alone, the
complete schedule of a run. -/
theorem c51_schedule (hk : KeepsTime hooks) (hd : A.dynamic = false) {fuel : ℕ} {s : St P} {w : W}
    {l : LoopSt P W} (hdt : 0 < s.dyn.dt)
    (h : mainRun P interp A hooks fuel s w = some (.ok l)) :
    let n := stepCount s.dyn.t s.dyn.dt A.t_f
    let time := fun k : ℕ => s.dyn.t + k * s.dyn.dt
    l.log = [⟨.initial, s.dyn.t, s.dyn.tstep⟩] ++
      ((List.range n).flatMap fun k => stepCalls (time k) (s.dyn.tstep + k)
        (saveTest (time k) s.dyn.dt A.savetime)) ++
      [⟨.final, time n, s.dyn.tstep + n⟩] := by
  obtain ⟨l1, l2, h1, h2, h3⟩ := mainRun_ok h
  obtain ⟨c1, e1⟩ := callHook_ok h1
  obtain ⟨c3, e3⟩ := callHook_ok h3
  obtain ⟨t1, d1, k1⟩ := hk _ _ _ c1
  simp only at t1 d1 k1
  obtain ⟨n, a1, a2, a3, a4, a5⟩ := loop_static hk hd h2
  rw [t1, d1] at a1 a2 a3
  have en := stepCount_unique hdt a1 a2
  simp only
  rw [← en, e3, a5, e1, a3, a4, t1, d1, k1]
  rfl

/-! ## C50: which time steps are taken -/

theorem filter_march (time : ℕ → K) (k0 : ℕ) (sv : ℕ → Bool) (L : List ℕ) :
    (L.flatMap fun k => stepCalls (time k) (k0 + k) (sv k)).filter (fun e => e.call = .march) =
      L.map fun k => ⟨.march, time k, k0 + k⟩ := by
  induction L with
  | nil => rfl
  | cons a L ih =>
    rw [List.flatMap_cons, List.filter_append, ih, List.map_cons]
    cases h : sv a <;> simp [stepCalls]

/-- C50.  A run with static time step takes exactly `⌊(t_f - t₀)/dt⌋ + 1` time steps (none if
`t_f < t₀`), step `k` at time `t₀ + k dt`, and the step counter counts them. -/
theorem c50_steps (hk : KeepsTime hooks) (hd : A.dynamic = false) {fuel : ℕ} {s : St P} {w : W}
    {l : LoopSt P W} (hdt : 0 < s.dyn.dt)
    (h : mainRun P interp A hooks fuel s w = some (.ok l)) :
    l.log.filter (fun e => e.call = .march) =
      (List.range (stepCount s.dyn.t s.dyn.dt A.t_f)).map
        fun k : ℕ => ⟨.march, s.dyn.t + k * s.dyn.dt, s.dyn.tstep + k⟩ := by
  rw [c51_schedule hk hd hdt h]
  simp only [List.filter_append]
  rw [filter_march (fun k : ℕ => s.dyn.t + k * s.dyn.dt)]
  simp

/-- The number of steps in closed form: the times at which a step is taken are exactly those of
the form `t₀ + k dt` not beyond `t_f`. -/
theorem c50_count {t₀ dt t_f : K} (hdt : 0 < dt) (k : ℕ) :
    k < stepCount t₀ dt t_f ↔ t₀ + k * dt ≤ t_f := by
  unfold stepCount
  have hk : (0 : K) ≤ k * dt := mul_nonneg (Nat.cast_nonneg k) hdt.le
  split
  · rename_i h0
    have hf : 0 ≤ ⌊(t_f - t₀) / dt⌋ := Int.floor_nonneg.2 (div_nonneg (sub_nonneg.2 h0) hdt.le)
    have : k < ⌊(t_f - t₀) / dt⌋.toNat + 1 ↔ (k : ℤ) ≤ ⌊(t_f - t₀) / dt⌋ := by omega
    rw [this, Int.le_floor, le_div_iff₀ hdt]
    push_cast
    constructor <;> intro h <;> linarith
  · rename_i h0
    constructor
    · intro h; omega
    · intro h; exact absurd (by linarith) h0

theorem loop_mono {fuel fuel' : ℕ} (hf : fuel ≤ fuel') {l : LoopSt P W}
    {r : Res (LoopSt P W)} (h : loop P interp A hooks fuel l = some r) :
    loop P interp A hooks fuel' l = some r := by
  induction fuel generalizing l fuel' with
  | zero => cases h
  | succ fuel ih =>
    obtain ⟨f, rfl⟩ : ∃ f, fuel' = f + 1 := ⟨fuel' - 1, by omega⟩
    unfold loop at h ⊢
    split
    · rename_i hle
      rw [if_pos hle] at h
      split at h
      · exact h
      · exact ih (by omega) h
    · rename_i hle
      rwa [if_neg hle] at h

/-- C50.  The result of a run does not depend on the cut-off of the model. -/
theorem c50_deterministic {f1 f2 : ℕ} {s : St P} {w : W} {r1 r2 : Res (LoopSt P W)}
    (h1 : mainRun P interp A hooks f1 s w = some r1)
    (h2 : mainRun P interp A hooks f2 s w = some r2) : r1 = r2 := by
  have mono : ∀ {f f' : ℕ} {r : Res (LoopSt P W)}, f ≤ f' →
      mainRun P interp A hooks f s w = some r → mainRun P interp A hooks f' s w = some r := by
    intro f f' r hf h
    unfold mainRun at h ⊢
    split
    · rename_i e he; rw [he] at h; exact h
    · rename_i l hl
      rw [hl] at h
      simp only at h
      cases hlo : loop P interp A hooks f l with
      | none => rw [hlo] at h; cases h
      | some x =>
        rw [hlo] at h
        rw [loop_mono hf hlo]
        exact h
  rcases le_total f1 f2 with hf | hf
  · rw [mono hf h1] at h2; exact Option.some.inj h2
  · rw [mono hf h2] at h1; exact (Option.some.inj h1).symm

theorem loop_ends (hk : KeepsTime hooks) (hd : A.dynamic = false) {fuel : ℕ} {l : LoopSt P W}
    (hf : A.t_f < l.s.dyn.t + fuel * l.s.dyn.dt) :
    loop P interp A hooks (fuel + 1) l ≠ none := by
  induction fuel generalizing l with
  | zero =>
    unfold loop
    rw [if_neg (by simpa using hf)]
    simp
  | succ fuel ih =>
    unfold loop
    split
    · split
      · simp
      · rename_i l1 h1
        obtain ⟨-, t1, -, d1, -⟩ := loopBody_keeps hk h1
        refine ih ?_
        rw [t1, d1 hd]
        push_cast at hf
        linarith
    · simp

/-- C50.  A run with positive static time step ends: the loop condition is tested at most once
more than there are steps. -/
theorem c50_ends (hk : KeepsTime hooks) (hd : A.dynamic = false) {s : St P} (w : W)
    (hdt : 0 < s.dyn.dt) :
    mainRun P interp A hooks (stepCount s.dyn.t s.dyn.dt A.t_f + 1) s w ≠ none := by
  unfold mainRun
  split
  · simp
  · rename_i l hl
    obtain ⟨c1, e1⟩ := callHook_ok hl
    obtain ⟨t1, d1, k1⟩ := hk _ _ _ c1
    have := loop_ends (P := P) (interp := interp) hk hd (l := l)
      (fuel := stepCount s.dyn.t s.dyn.dt A.t_f) (by
        rw [t1, d1]
        have := (c50_count (t₀ := s.dyn.t) (t_f := A.t_f) hdt
          (stepCount s.dyn.t s.dyn.dt A.t_f)).not.1 (lt_irrefl _)
        exact not_le.1 this)
    split
    · rename_i h; exact absurd h this
    · simp
    · simp

/-- C50.  With a time step of zero or less, a run that starts in time never finishes: it goes on
for ever, or stops with an exception. -/
theorem c50_never (hk : KeepsTime hooks) (hd : A.dynamic = false) {s : St P} {w : W}
    (hdt : s.dyn.dt ≤ 0) (ht : s.dyn.t ≤ A.t_f) (fuel : ℕ) (l : LoopSt P W) :
    mainRun P interp A hooks fuel s w ≠ some (.ok l) := by
  intro h
  obtain ⟨l1, l2, h1, h2, h3⟩ := mainRun_ok h
  obtain ⟨c1, -⟩ := callHook_ok h1
  obtain ⟨t1, d1, -⟩ := hk _ _ _ c1
  obtain ⟨n, -, a2, -⟩ := loop_static hk hd h2
  rw [t1, d1] at a2
  have : (n : K) * s.dyn.dt ≤ 0 := mul_nonpos_of_nonneg_of_nonpos (Nat.cast_nonneg n) hdt
  simp only at a2
  linarith

/-- C50.  A run with `t_f = 0` or `savetime = 0` that takes any step stops with an exception: the
progress line divides by the one, the save test by the other. -/
theorem c50_zero_division (h0 : A.t_f = 0 ∨ A.savetime = 0) (hk : KeepsTime hooks)
    {s : St P} {w : W} (ht : s.dyn.t ≤ A.t_f) (fuel : ℕ) (l : LoopSt P W) :
    mainRun P interp A hooks fuel s w ≠ some (.ok l) := by
  intro h
  obtain ⟨l1, l2, h1, h2, h3⟩ := mainRun_ok h
  obtain ⟨c1, -⟩ := callHook_ok h1
  obtain ⟨t1, d1, -⟩ := hk _ _ _ c1
  cases fuel with
  | zero => cases h2
  | succ fuel =>
    unfold loop at h2
    rw [if_pos (by rw [t1]; exact ht)] at h2
    split at h2
    · cases h2
    · rename_i l3 hb
      obtain ⟨a, b, -⟩ := loopBody_parts hb
      rcases h0 with h0 | h0
      · exact a h0
      · exact b h0

/-- A sequence with one more entry in front. -/
def consSeq (a : K) (f : ℕ → K) : ℕ → K
  | 0 => a
  | k + 1 => f k

/-- The loop with hooks that leave the clock alone, either kind of time stepping. -/
theorem loop_any (hk : KeepsTime hooks) {fuel : ℕ} {l l' : LoopSt P W}
    (h : loop P interp A hooks fuel l = some (.ok l')) :
    ∃ (n : ℕ) (t dt : ℕ → K), t 0 = l.s.dyn.t ∧ dt 0 = l.s.dyn.dt ∧
      (∀ k, t (k + 1) = t k + dt k) ∧ (∀ k < n, t k ≤ A.t_f) ∧ A.t_f < t n ∧
      l'.s.dyn.t = t n ∧ l'.s.dyn.tstep = l.s.dyn.tstep + n ∧
      l'.log = l.log ++ (List.range n).flatMap fun k =>
        stepCalls (t k) (l.s.dyn.tstep + k) (saveTest (t k) (dt k) A.savetime) := by
  induction fuel generalizing l with
  | zero => cases h
  | succ fuel ih =>
    unfold loop at h
    split at h
    · rename_i hle
      split at h
      · cases h
      · rename_i l1 hb
        obtain ⟨e1, t1, k1, -⟩ := loopBody_keeps hk hb
        obtain ⟨n, t, dt, h0, h0', h1, h2, h3, h4, h5, h6⟩ := ih h
        refine ⟨n + 1, consSeq l.s.dyn.t t, consSeq l.s.dyn.dt dt,
          rfl, rfl, ?_, ?_, h3, h4, by rw [h5, k1]; omega, ?_⟩
        · rintro (_ | k)
          · show t 0 = l.s.dyn.t + l.s.dyn.dt; rw [h0, t1]
          · exact h1 k
        · rintro (_ | k) hk'
          · exact hle
          · exact h2 k (by omega)
        · rw [h6, e1, List.range_succ_eq_map, List.flatMap_cons, List.flatMap_map,
            List.append_assoc]
          have e : ∀ k : ℕ, l.s.dyn.tstep + (k + 1) = l1.s.dyn.tstep + k := by
            intro k; rw [k1]; omega
          simp only [Nat.succ_eq_add_one, e, Nat.add_zero, consSeq]
    · rename_i hle
      cases h
      refine ⟨0, fun k => l'.s.dyn.t + k * l'.s.dyn.dt, fun _ => l'.s.dyn.dt, by simp, rfl, ?_,
        by simp, by simpa using not_le.1 hle, by simp, by simp, by simp⟩
      intro k
      push_cast
      ring

/-- C50, either kind of time stepping: the steps are taken at times `t₀, t₀ + dt₀, ...`, all not
beyond `t_f`, the first time beyond `t_f` is the one `final_graphs` sees, and the step counter
counts the steps. -/
theorem c50_times (hk : KeepsTime hooks) {fuel : ℕ} {s : St P} {w : W} {l : LoopSt P W}
    (h : mainRun P interp A hooks fuel s w = some (.ok l)) :
    ∃ (n : ℕ) (t dt : ℕ → K), t 0 = s.dyn.t ∧ dt 0 = s.dyn.dt ∧
      (∀ k, t (k + 1) = t k + dt k) ∧ (∀ k < n, t k ≤ A.t_f) ∧ A.t_f < t n ∧
      l.log.filter (fun e => e.call = .march) =
        (List.range n).map (fun k => ⟨.march, t k, s.dyn.tstep + k⟩) ∧
      l.log.getLast? = some ⟨.final, t n, s.dyn.tstep + n⟩ := by
  obtain ⟨l1, l2, h1, h2, h3⟩ := mainRun_ok h
  obtain ⟨c1, e1⟩ := callHook_ok h1
  obtain ⟨c3, e3⟩ := callHook_ok h3
  obtain ⟨t1, d1, k1⟩ := hk _ _ _ c1
  simp only at t1 d1 k1
  obtain ⟨n, t, dt, a0, a0', a1, a2, a3, a4, a5, a6⟩ := loop_any hk h2
  refine ⟨n, t, dt, a0.trans t1, a0'.trans d1, a1, a2, a3, ?_, ?_⟩
  · rw [e3, a6, e1]
    simp only [List.filter_append]
    rw [filter_march t, k1]
    simp
  · rw [e3, List.getLast?_append, a4, a5, k1]
    rfl

/-! ## C52: which time steps are saved -/

theorem filter_nth (time : ℕ → K) (k0 : ℕ) (sv : ℕ → Bool) (L : List ℕ) :
    (L.flatMap fun k => stepCalls (time k) (k0 + k) (sv k)).filter (fun e => e.call = .nth) =
      (L.filter sv).map fun k => ⟨.nth, time k, k0 + k⟩ := by
  induction L with
  | nil => rfl
  | cons a L ih =>
    rw [List.flatMap_cons, List.filter_append, ih, List.filter_cons]
    cases h : sv a <;> simp [stepCalls]

/-- C52.  `after_every_nth_timestep` runs after exactly those steps whose time, modulo the save
interval, is less than the time step, except a step at time `dt`. -/
theorem c52_saved (hk : KeepsTime hooks) (hd : A.dynamic = false) {fuel : ℕ} {s : St P} {w : W}
    {l : LoopSt P W} (hdt : 0 < s.dyn.dt)
    (h : mainRun P interp A hooks fuel s w = some (.ok l)) :
    let time := fun k : ℕ => s.dyn.t + k * s.dyn.dt
    l.log.filter (fun e => e.call = .nth) =
      ((List.range (stepCount s.dyn.t s.dyn.dt A.t_f)).filter fun k =>
        decide (time k - A.savetime * (⌊time k / A.savetime⌋ : ℤ) < s.dyn.dt ∧
          time k ≠ s.dyn.dt)).map fun k => ⟨.nth, time k, s.dyn.tstep + k⟩ := by
  simp only
  rw [c51_schedule hk hd hdt h]
  simp only [List.filter_append]
  rw [filter_nth (fun k : ℕ => s.dyn.t + k * s.dyn.dt)]
  have e : (fun k : ℕ => saveTest (s.dyn.t + k * s.dyn.dt) s.dyn.dt A.savetime) = fun k : ℕ =>
      decide ((s.dyn.t + k * s.dyn.dt) - A.savetime *
        (⌊(s.dyn.t + k * s.dyn.dt) / A.savetime⌋ : ℤ) < s.dyn.dt ∧
          s.dyn.t + k * s.dyn.dt ≠ s.dyn.dt) := by
    funext k
    rw [Bool.eq_iff_iff]
    simp only [saveTest, pyMod, Bool.and_eq_true, decide_eq_true_eq]
    exact and_congr decide_eq_true_iff Iff.rfl
  rw [e]
  simp

/-- The position of a time in its save window. -/
theorem pyMod_window {t save : K} (hs : 0 < save) {j : ℤ} (h1 : j * save ≤ t)
    (h2 : t < (j + 1) * save) : pyMod t save = t - save * j := by
  have : ⌊t / save⌋ = j := by
    rw [Int.floor_eq_iff]
    exact ⟨by rwa [le_div_iff₀ hs], by rwa [div_lt_iff₀ hs]⟩
  rw [pyMod, this]

/-- C52.  With a time step not larger than the save interval, exactly one multiple of the time
step in each save window passes the time test: the first one. -/
theorem c52_window {dt save : K} (hdt : 0 < dt) (hs : dt ≤ save) (j : ℕ) :
    ∃! k : ℕ, (j * save ≤ k * dt ∧ k * dt < (j + 1) * save) ∧ pyMod (k * dt) save < dt := by
  have hs0 : 0 < save := hdt.trans_le hs
  have hj : (0 : K) ≤ j * save := mul_nonneg (Nat.cast_nonneg j) hs0.le
  have key : ∀ k : ℕ, (j * save ≤ k * dt ∧ k * dt < (j + 1) * save) →
      pyMod (k * dt) save = k * dt - j * save := by
    rintro k ⟨h1, h2⟩
    rw [pyMod_window hs0 (j := j) (by exact_mod_cast h1) (by exact_mod_cast h2)]
    push_cast; ring
  have c1 : j * save ≤ (⌈j * save / dt⌉₊ : K) * dt := by
    rw [← div_le_iff₀ hdt]; exact Nat.le_ceil _
  have c2 : (⌈j * save / dt⌉₊ : K) * dt < j * save + dt := by
    have := Nat.ceil_lt_add_one (div_nonneg hj hdt.le)
    have := mul_lt_mul_of_pos_right this hdt
    rwa [add_mul, one_mul, div_mul_cancel₀ _ hdt.ne'] at this
  refine ⟨⌈j * save / dt⌉₊, ⟨⟨c1, by linarith⟩, ?_⟩, ?_⟩
  · rw [key _ ⟨c1, by linarith⟩]; linarith
  · rintro k ⟨hw, hm⟩
    rw [key k hw] at hm
    have h1 : (k : K) * dt < ((⌈j * save / dt⌉₊ + 1 : ℕ) : K) * dt := by push_cast; linarith
    have h2 : ((⌈j * save / dt⌉₊ : ℕ) : K) * dt < ((k + 1 : ℕ) : K) * dt := by
      push_cast; linarith [hw.1]
    have h1' := Nat.cast_lt.1 (lt_of_mul_lt_mul_right h1 hdt.le)
    have h2' := Nat.cast_lt.1 (lt_of_mul_lt_mul_right h2 hdt.le)
    omega

/-- C52.  When the time step is smaller than the save interval, the extra condition `t != dt`
excludes nothing: the second step would not be saved anyway. -/
theorem c52_second {dt save : K} (hdt : 0 < dt) (hs : dt < save) :
    ¬ pyMod dt save < dt := by
  rw [pyMod_window (hdt.trans hs) (j := 0) (by simpa using hdt.le) (by simpa using hs)]
  simp

/-- C52.  When it is not smaller, every step passes the time test, so all steps of a run from time
0 are saved except the second one. -/
theorem c52_coarse {dt save : K} (hs : 0 < save) (h : save ≤ dt) (k : ℕ) :
    saveTest (k * dt) dt save = true ↔ k ≠ 1 := by
  have hdt : 0 < dt := hs.trans_le h
  have h1 : pyMod ((k : K) * dt) save < dt := by
    have := Int.lt_floor_add_one ((k : K) * dt / save)
    rw [div_lt_iff₀ hs] at this
    rw [pyMod]
    nlinarith
  have h2 : (k : K) * dt = dt ↔ k = 1 := by
    constructor
    · intro e
      have : (k : K) = 1 := by
        apply mul_right_cancel₀ hdt.ne'
        rw [e, one_mul]
      exact_mod_cast this
    · rintro rfl; simp
  simp only [saveTest, h1, decide_true, Bool.true_and, decide_eq_true_eq, ne_eq, h2]

/-- C52, the property itself: in a run from time 0 with `dt < savetime`, at most one step in each
save window `[j·savetime, (j+1)·savetime)` is saved, and exactly one if the run goes on for at
least a time step after the window's start. -/
theorem c52_run (hk : KeepsTime hooks) (hd : A.dynamic = false) {fuel : ℕ} {s : St P} {w : W}
    {l : LoopSt P W} (hdt : 0 < s.dyn.dt) (hs : s.dyn.dt < A.savetime) (h0 : s.dyn.t = 0)
    (h : mainRun P interp A hooks fuel s w = some (.ok l)) (j : ℕ) :
    let saves := l.log.filter fun e => e.call = .nth ∧ j * A.savetime ≤ e.t ∧
      e.t < (j + 1) * A.savetime
    saves.length ≤ 1 ∧ (j * A.savetime + s.dyn.dt ≤ A.t_f → saves.length = 1) := by
  obtain ⟨k, ⟨hk1, hk2⟩, hk3⟩ := c52_window hdt hs.le j
  have sel : (l.log.filter fun e => e.call = .nth ∧ j * A.savetime ≤ e.t ∧
      e.t < (j + 1) * A.savetime) = ((List.range (stepCount s.dyn.t s.dyn.dt A.t_f)).filter
        fun i => decide (i = k)).map fun i : ℕ => ⟨.nth, s.dyn.t + i * s.dyn.dt, s.dyn.tstep + i⟩ := by
    have e1 : (l.log.filter fun e => e.call = .nth ∧ j * A.savetime ≤ e.t ∧
        e.t < (j + 1) * A.savetime) = (l.log.filter fun e => e.call = .nth).filter
          fun e => j * A.savetime ≤ e.t ∧ e.t < (j + 1) * A.savetime := by
      rw [List.filter_filter]
      congr 1
      funext e
      simp only [Bool.decide_and]
      rw [Bool.and_comm]
    rw [e1, c52_saved hk hd hdt h, List.filter_map, List.filter_filter]
    congr 1
    refine List.filter_congr fun i _ => ?_
    simp only [Function.comp_def, h0, zero_add]
    rw [← Bool.decide_and]
    apply decide_eq_decide.2
    have em : (i : K) * s.dyn.dt - A.savetime * (⌊(i : K) * s.dyn.dt / A.savetime⌋ : ℤ) =
        pyMod (i * s.dyn.dt) A.savetime := rfl
    rw [em]
    constructor
    · rintro ⟨w1, w2, -⟩
      exact hk3 i ⟨w1, w2⟩
    · rintro rfl
      refine ⟨hk1, hk2, ?_⟩
      intro e
      rw [e] at hk2
      exact c52_second hdt hs hk2
  simp only
  rw [sel, List.length_map, ← List.countP_eq_length_filter]
  have ec : (List.range (stepCount s.dyn.t s.dyn.dt A.t_f)).countP (fun i => decide (i = k)) =
      (List.range (stepCount s.dyn.t s.dyn.dt A.t_f)).count k := by
    rw [List.count]
    rfl
  rw [ec]
  have hnd := List.nodup_range (n := stepCount s.dyn.t s.dyn.dt A.t_f)
  refine ⟨List.nodup_iff_count_le_one.1 hnd k, fun hle => ?_⟩
  refine List.count_eq_one_of_mem hnd (List.mem_range.2 ?_)
  rw [c50_count hdt, h0, zero_add]
  have : (k : K) * s.dyn.dt < j * A.savetime + s.dyn.dt := by
    rw [pyMod_window (hdt.trans hs) (j := j) (by exact_mod_cast hk1.1)
      (by exact_mod_cast hk1.2)] at hk2
    push_cast at hk2
    linarith
  linarith

/-- C52.  The first step of a run from time 0 is always saved. -/
theorem c52_first {dt save : K} (hdt : 0 < dt) : saveTest 0 dt save = true := by
  simp [saveTest, pyMod, hdt, hdt.ne]

end

/-! ## The hypotheses can be met -/

/-- Does a run of `main` from a fresh grid end, in a state passing `check`? -/
def Ex.mainCheck (A : LoopPar ℚ) (d : Dyn ℚ) (L : List (PhaseSt ℚ 2)) (fuel : ℕ)
    (check : LoopSt Ex.par Unit → Bool) : Bool :=
  match mkGrid Ex.par.G Ex.par.B with
  | .error _ => false
  | .ok G => match mainRun Ex.par (Ex.noInterp _) A (fun _ x => .ok x) fuel
      { dyn := d, L := L, G := G } () with
    | some (.ok l) => check l
    | _ => false

theorem Ex.mainCheck_ok {A : LoopPar ℚ} {d : Dyn ℚ} {L : List (PhaseSt ℚ 2)} {fuel : ℕ}
    {check : LoopSt Ex.par Unit → Bool} (h : Ex.mainCheck A d L fuel check = true) :
    ∃ G l, mkGrid Ex.par.G Ex.par.B = .ok G ∧ mainRun Ex.par (Ex.noInterp _) A (fun _ x => .ok x)
      fuel { dyn := d, L := L, G := G } () = some (.ok l) ∧ check l = true := by
  unfold Ex.mainCheck at h
  split at h
  · simp at h
  · rename_i G hG
    split at h
    · rename_i l hl
      exact ⟨G, l, hG, hl, h⟩
    · simp at h

def Ex.loopPar : LoopPar ℚ :=
  { t_f := 5/100, savetime := 2/100, dynamic := false, CFL := 1, critical := [] }

/-- Hooks that do nothing, the default, leave the clock alone. -/
theorem Ex.keeps : KeepsTime (P := Ex.par) (W := Unit) fun _ x => .ok x := by
  rintro c x y h
  cases h
  exact ⟨rfl, rfl, rfl⟩

/-- Six steps, of which every other one is saved. -/
example : ∃ (s : St Ex.par) (l : LoopSt Ex.par Unit), s.dyn.t = 0 ∧ 0 < s.dyn.dt ∧
    s.dyn.dt < Ex.loopPar.savetime ∧ Ex.loopPar.dynamic = false ∧
    mainRun Ex.par (Ex.noInterp _) Ex.loopPar (fun _ x => .ok x) 7 s () = some (.ok l) ∧
    (l.log.filter (fun e => e.call = .march)).map (·.t) =
      [0, 1/100, 2/100, 3/100, 4/100, 5/100] ∧
    (l.log.filter (fun e => e.call = .nth)).map (·.tstep) = [0, 2, 4] := by
  obtain ⟨G, l, -, h, hc⟩ := Ex.mainCheck_ok (A := Ex.loopPar) (d := Ex.dyn) (L := []) (fuel := 7)
    (check := fun l => decide ((l.log.filter (fun e => e.call = .march)).map (·.t) =
      [0, 1/100, 2/100, 3/100, 4/100, 5/100] ∧
      (l.log.filter (fun e => e.call = .nth)).map (·.tstep) = [0, 2, 4])) (by decide +kernel)
  exact ⟨_, l, rfl, by norm_num [Ex.dyn], by norm_num [Ex.dyn, Ex.loopPar], rfl, h,
    of_decide_eq_true hc⟩

/-- With two material points and `dt = savetime`: the second step is not saved. -/
example : ∃ (s : St Ex.par) (l : LoopSt Ex.par Unit), s.L = Ex.L ∧
    mainRun Ex.par (Ex.noInterp _) Ex.loopPar (fun _ x => .ok x) 7 s () = some (.ok l) ∧
    (l.log.filter (fun e => e.call = .march)).map (·.t) = [0, 2/100, 4/100] ∧
    (l.log.filter (fun e => e.call = .nth)).map (·.tstep) = [0, 2] := by
  obtain ⟨G, l, -, h, hc⟩ := Ex.mainCheck_ok (A := Ex.loopPar) (d := { Ex.dyn with dt := 2/100 })
    (L := Ex.L) (fuel := 7)
    (check := fun l => decide ((l.log.filter (fun e => e.call = .march)).map (·.t) =
      [0, 2/100, 4/100] ∧
      (l.log.filter (fun e => e.call = .nth)).map (·.tstep) = [0, 2])) (by decide +kernel)
  exact ⟨_, l, rfl, h, of_decide_eq_true hc⟩

def Ex.dynPar : LoopPar ℚ :=
  { t_f := 19/10, savetime := 1, dynamic := true, CFL := 1, critical := [.fin (3/10)] }

/-- With dynamic time steps C52 fails: the save test compares with the step to come, not with the
step just taken.  Here all steps are shorter than the save interval, three steps are taken, two of
them in the save window from 1 to 2, and neither is saved. -/
theorem c52_dynamic_gap : ∃ (s : St Ex.par) (l : LoopSt Ex.par Unit), 0 < s.dyn.dt ∧
    s.dyn.dt < Ex.dynPar.savetime ∧ Ex.dynPar.dynamic = true ∧
    mainRun Ex.par (Ex.noInterp _) Ex.dynPar (fun _ x => .ok x) 5 s () = some (.ok l) ∧
    (l.log.filter (fun e => e.call = .march)).map (·.t) = [1/2, 7/5, 17/10] ∧
    (l.log.filter (fun e => e.call = .nth)).map (·.t) = [1/2] := by
  obtain ⟨G, l, -, h, hc⟩ := Ex.mainCheck_ok (A := Ex.dynPar)
    (d := { Ex.dyn with t := 1/2, dt := 9/10 }) (L := []) (fuel := 5)
    (check := fun l => decide ((l.log.filter (fun e => e.call = .march)).map (·.t) =
      [1/2, 7/5, 17/10] ∧
      (l.log.filter (fun e => e.call = .nth)).map (·.t) = [1/2])) (by decide +kernel)
  exact ⟨_, l, by norm_num, by norm_num [Ex.dynPar], rfl, h, of_decide_eq_true hc⟩

/-! ## C53: the default dynamic time step -/

section
variable {K : Type} [Field K] [LinearOrder K] [IsStrictOrderedRing K]

namespace Spec

/-- Nodal velocity component as the code sees it: nodes without mass count as at rest, and a
component that overflows as the largest float. -/
def nodeSpeed {N ns : ℕ} (big : K) (G : Grid K N ns) (n : Fin N) (i : Fin 3) : K :=
  if G.m n = 0 then (if G.q n i = 0 then 0 else if 0 < G.q n i then big else -big)
  else G.q n i / G.m n

end Spec

theorem nodeSpeed_eq {N ns : ℕ} (big : K) (G : Grid K N ns) (n : Fin N) (i : Fin 3) :
    (XF.fin (G.q n i) / XF.fin (G.m n)).nanToNum big = nodeSpeed big G n i := by
  show (XF.div (XF.fin (G.q n i)) (XF.fin (G.m n))).nanToNum big = _
  simp only [XF.div, nodeSpeed, XF.infSign]
  split_ifs <;> rfl

theorem foldl_max_ge (N : ℕ) (f : Fin N → K) (g : Fin N → K) (a : K) :
    a ≤ Fin.foldl N (fun a n => max (max a (f n)) (g n)) a ∧
    (∀ n, f n ≤ Fin.foldl N (fun a n => max (max a (f n)) (g n)) a) ∧
    (∀ n, g n ≤ Fin.foldl N (fun a n => max (max a (f n)) (g n)) a) ∧
    (Fin.foldl N (fun a n => max (max a (f n)) (g n)) a = a ∨
      ∃ n, Fin.foldl N (fun a n => max (max a (f n)) (g n)) a = f n ∨
        Fin.foldl N (fun a n => max (max a (f n)) (g n)) a = g n) := by
  induction N generalizing a with
  | zero => simp
  | succ N ih =>
    rw [Fin.foldl_succ_last]
    obtain ⟨h1, h2, h3, h4⟩ := ih (fun n => f n.castSucc) (fun n => g n.castSucc) a
    set r := Fin.foldl N (fun a n => max (max a (f n.castSucc)) (g n.castSucc)) a with hr
    refine ⟨h1.trans ((le_max_left _ _).trans (le_max_left _ _)), ?_, ?_, ?_⟩
    · intro n
      refine Fin.lastCases ?_ (fun n => ?_) n
      · exact (le_max_right _ _).trans (le_max_left _ _)
      · exact (h2 n).trans ((le_max_left _ _).trans (le_max_left _ _))
    · intro n
      refine Fin.lastCases ?_ (fun n => ?_) n
      · exact le_max_right _ _
      · exact (h3 n).trans ((le_max_left _ _).trans (le_max_left _ _))
    · rcases max_choice (max r (f (Fin.last N))) (g (Fin.last N)) with e | e
      · rcases max_choice r (f (Fin.last N)) with e' | e'
        · rw [e, e']
          rcases h4 with h4 | ⟨n, h4⟩
          · exact Or.inl h4
          · exact Or.inr ⟨n.castSucc, h4⟩
        · exact Or.inr ⟨Fin.last N, Or.inl (e.trans e')⟩
      · exact Or.inr ⟨Fin.last N, Or.inr e⟩

/-- C53.  The speed used is the largest of the nodal velocity components in x and y. -/
theorem c53_speed {N ns : ℕ} (big : K) (G : Grid K N ns) :
    (∀ n, |nodeSpeed big G n 0| ≤ maxSpeed big G ∧ |nodeSpeed big G n 1| ≤ maxSpeed big G) ∧
    (maxSpeed big G = 0 ∨ ∃ n, maxSpeed big G = |nodeSpeed big G n 0| ∨
      maxSpeed big G = |nodeSpeed big G n 1|) := by
  unfold maxSpeed
  simp only [nodeSpeed_eq]
  obtain ⟨-, h2, h3, h4⟩ := foldl_max_ge N (fun n => |nodeSpeed big G n 0|)
    (fun n => |nodeSpeed big G n 1|) 0
  exact ⟨fun n => ⟨h2 n, h3 n⟩, h4⟩

theorem foldl_min_fin (l : List (XF K)) (hl : ∀ c ∈ l, ∃ x, c = XF.fin x) (a : K) :
    ∃ m, l.foldl XF.min (.fin a) = .fin m ∧ m ≤ a ∧ (∀ x, XF.fin x ∈ l → m ≤ x) ∧
      (m = a ∨ XF.fin m ∈ l) := by
  induction l generalizing a with
  | nil => exact ⟨a, rfl, le_refl _, by simp, Or.inl rfl⟩
  | cons c l ih =>
    obtain ⟨x, rfl⟩ := hl c (by simp)
    obtain ⟨m, h1, h2, h3, h4⟩ := ih (fun c hc => hl c (by simp [hc])) (min a x)
    refine ⟨m, h1, h2.trans (min_le_left _ _), ?_, ?_⟩
    · intro y hy
      rcases List.mem_cons.1 hy with e | hy
      · cases e; exact h2.trans (min_le_right _ _)
      · exact h3 y hy
    · rcases h4 with h4 | h4
      · rcases min_choice a x with e | e
        · exact Or.inl (h4.trans e)
        · right; rw [h4, e]; simp
      · exact Or.inr (by simp [h4])

/-- C53.  When something moves and every critical time is finite, the new time step is `CFL` times
the smallest of the cell crossing time `0.1 min(dx,dy)/speed` and the critical times. -/
theorem c53_moving {N ns : ℕ} {P : Par K} {A : LoopPar K} {G : Grid K N ns}
    (hv : maxSpeed P.ops.big G ≠ 0) (hc : ∀ c ∈ A.critical, ∃ x, c = XF.fin x) :
    ∃ m, defaultTimestep P A G = .fin (A.CFL * m) ∧
      m ≤ 1 / 10 * min P.G.dx P.G.dy / maxSpeed P.ops.big G ∧
      (∀ x, XF.fin x ∈ A.critical → m ≤ x) ∧
      (m = 1 / 10 * min P.G.dx P.G.dy / maxSpeed P.ops.big G ∨ XF.fin m ∈ A.critical) := by
  obtain ⟨m, h1, h2⟩ := foldl_min_fin A.critical hc
    (1 / 10 * min P.G.dx P.G.dy / maxSpeed P.ops.big G)
  refine ⟨m, ?_, h2⟩
  have e : (XF.fin (1 / 10 * min P.G.dx P.G.dy) / XF.fin (maxSpeed P.ops.big G) : XF K) =
      .fin (1 / 10 * min P.G.dx P.G.dy / maxSpeed P.ops.big G) := by
    show XF.div _ _ = _
    simp only [XF.div, if_neg hv]
  unfold defaultTimestep
  simp only
  rw [e, h1]
  rfl

/-- C53.  At that time step no nodal velocity component crosses more than `0.1 CFL` of the smaller
grid spacing in one step. -/
theorem c53_courant {N ns : ℕ} {P : Par K} {A : LoopPar K} {G : Grid K N ns} (hC : 0 ≤ A.CFL)
    (hv : maxSpeed P.ops.big G ≠ 0) (hc : ∀ c ∈ A.critical, ∃ x, c = XF.fin x)
    (hcp : ∀ x, XF.fin x ∈ A.critical → 0 ≤ x) (hx : 0 ≤ P.G.dx) (hy : 0 ≤ P.G.dy) :
    ∃ dt, defaultTimestep P A G = .fin dt ∧ 0 ≤ dt ∧
      (∀ x, XF.fin x ∈ A.critical → dt ≤ A.CFL * x) ∧
      ∀ n, G.m n ≠ 0 →
        |G.q n 0 / G.m n| * dt ≤ A.CFL / 10 * min P.G.dx P.G.dy ∧
        |G.q n 1 / G.m n| * dt ≤ A.CFL / 10 * min P.G.dx P.G.dy := by
  obtain ⟨m, h1, h2, h3, h4⟩ := c53_moving hv hc
  obtain ⟨s1, s2⟩ := c53_speed P.ops.big G
  have hpos : 0 < maxSpeed P.ops.big G := by
    refine lt_of_le_of_ne ?_ (Ne.symm hv)
    rcases s2 with s2 | ⟨n, s2 | s2⟩
    · exact absurd s2 hv
    · rw [s2]; exact abs_nonneg _
    · rw [s2]; exact abs_nonneg _
  have hd : 0 ≤ min P.G.dx P.G.dy := le_min hx hy
  have hm : 0 ≤ m := by
    rcases h4 with h4 | h4
    · rw [h4]; positivity
    · exact hcp m h4
  refine ⟨A.CFL * m, h1, mul_nonneg hC hm, fun x hx => mul_le_mul_of_nonneg_left (h3 x hx) hC, ?_⟩
  have key : ∀ v : K, |v| ≤ maxSpeed P.ops.big G →
      |v| * (A.CFL * m) ≤ A.CFL / 10 * min P.G.dx P.G.dy := by
    intro v hv'
    have a1 : |v| * m ≤ 1 / 10 * min P.G.dx P.G.dy := by
      calc |v| * m ≤ maxSpeed P.ops.big G * m := mul_le_mul_of_nonneg_right hv' hm
        _ ≤ maxSpeed P.ops.big G * (1 / 10 * min P.G.dx P.G.dy / maxSpeed P.ops.big G) :=
            mul_le_mul_of_nonneg_left h2 hpos.le
        _ = 1 / 10 * min P.G.dx P.G.dy := by field_simp
    calc |v| * (A.CFL * m) = A.CFL * (|v| * m) := by ring
      _ ≤ A.CFL * (1 / 10 * min P.G.dx P.G.dy) := mul_le_mul_of_nonneg_left a1 hC
      _ = A.CFL / 10 * min P.G.dx P.G.dy := by ring
  intro n hn
  have e : ∀ i, nodeSpeed P.ops.big G n i = G.q n i / G.m n := fun i => if_neg hn
  obtain ⟨b1, b2⟩ := s1 n
  rw [e] at b1 b2
  exact ⟨key _ b1, key _ b2⟩

/-- C53.  At rest and without critical times the new time step is infinite. -/
theorem c53_rest {N ns : ℕ} {P : Par K} {A : LoopPar K} {G : Grid K N ns} (hC : 0 < A.CFL)
    (hx : 0 < P.G.dx) (hy : 0 < P.G.dy) (hq : ∀ n, G.q n 0 = 0 ∧ G.q n 1 = 0)
    (hc : A.critical = []) : defaultTimestep P A G = .pinf := by
  have hv : maxSpeed P.ops.big G = 0 := by
    have z : ∀ n i, (G.q n i = 0) → nodeSpeed P.ops.big G n i = 0 := by
      intro n i h; unfold nodeSpeed; rw [h]; simp
    rcases (c53_speed P.ops.big G).2 with h | ⟨n, h | h⟩
    · exact h
    · rw [h, z n 0 (hq n).1, abs_zero]
    · rw [h, z n 1 (hq n).2, abs_zero]
  have hd : 0 < 1 / 10 * min P.G.dx P.G.dy := mul_pos (by norm_num) (lt_min hx hy)
  unfold defaultTimestep
  simp only
  rw [hv, hc]
  show XF.mul (.fin A.CFL) (XF.div (.fin (1 / 10 * min P.G.dx P.G.dy)) (.fin 0)) = .pinf
  simp only [XF.div, if_true, if_neg hd.ne', XF.infSign, if_pos hd, XF.mul, if_neg hC.ne',
    if_pos hC]

/-- C53.  At rest with finite critical times, `CFL` times the smallest of them. -/
theorem c53_rest_critical {N ns : ℕ} {P : Par K} {A : LoopPar K} {G : Grid K N ns}
    (hx : 0 < P.G.dx) (hy : 0 < P.G.dy) (hq : ∀ n, G.q n 0 = 0 ∧ G.q n 1 = 0)
    (hne : A.critical ≠ []) (hc : ∀ c ∈ A.critical, ∃ x, c = XF.fin x) :
    ∃ m, defaultTimestep P A G = .fin (A.CFL * m) ∧ XF.fin m ∈ A.critical ∧
      ∀ x, XF.fin x ∈ A.critical → m ≤ x := by
  have hv : maxSpeed P.ops.big G = 0 := by
    have z : ∀ n i, (G.q n i = 0) → nodeSpeed P.ops.big G n i = 0 := by
      intro n i h; unfold nodeSpeed; rw [h]; simp
    rcases (c53_speed P.ops.big G).2 with h | ⟨n, h | h⟩
    · exact h
    · rw [h, z n 0 (hq n).1, abs_zero]
    · rw [h, z n 1 (hq n).2, abs_zero]
  have hd : 0 < 1 / 10 * min P.G.dx P.G.dy := mul_pos (by norm_num) (lt_min hx hy)
  have e : (XF.fin (1 / 10 * min P.G.dx P.G.dy) / XF.fin 0 : XF K) = .pinf := by
    show XF.div _ _ = _
    simp only [XF.div, if_true, if_neg hd.ne', XF.infSign, if_pos hd]
  unfold defaultTimestep
  simp only
  rw [hv, e]
  match hA : A.critical, hne with
  | c :: l, _ =>
    rw [hA] at hc
    obtain ⟨x, rfl⟩ := hc c (by simp)
    obtain ⟨m, h1, h2, h3, h4⟩ := foldl_min_fin l (fun c hc' => hc c (by simp [hc'])) x
    refine ⟨m, ?_, ?_, ?_⟩
    · rw [List.foldl_cons]
      show XF.fin A.CFL * l.foldl XF.min (XF.fin x) = XF.fin (A.CFL * m)
      rw [h1]; rfl
    · rcases h4 with h4 | h4
      · rw [h4]; simp
      · simp [h4]
    · intro y hy'
      rcases List.mem_cons.1 hy' with e | hy'
      · cases e; exact h2
      · exact h3 y hy'

end

/-- A node of mass 2 with momentum (3, -4): speed 2, so `dt = 0.1 * 0.1 / 2`; with a smaller
critical time that one; at rest infinite. -/
example : ∃ G : Grid ℚ Ex.par.G.N Ex.par.G.ns, mkGrid Ex.par.G Ex.par.B = .ok G ∧
    defaultTimestep Ex.par { Ex.loopPar with CFL := 1/10 }
      { G with m := fun _ => 2, q := fun _ => ![3, -4, 0] } = .fin (1/200) ∧
    defaultTimestep Ex.par { Ex.loopPar with CFL := 1/10, critical := [.fin 1, .fin (1/50)] }
      { G with m := fun _ => 2, q := fun _ => ![3, -4, 0] } = .fin (1/500) ∧
    defaultTimestep Ex.par { Ex.loopPar with CFL := 1/10 } G = .pinf := by
  obtain ⟨G, h1, h2⟩ := Ex.okAnd_ok (r := mkGrid Ex.par.G Ex.par.B) (check := fun G => decide (
    defaultTimestep Ex.par { Ex.loopPar with CFL := 1/10 }
      { G with m := fun _ => 2, q := fun _ => ![3, -4, 0] } = .fin (1/200) ∧
    defaultTimestep Ex.par { Ex.loopPar with CFL := 1/10, critical := [.fin 1, .fin (1/50)] }
      { G with m := fun _ => 2, q := fun _ => ![3, -4, 0] } = .fin (1/500) ∧
    defaultTimestep Ex.par { Ex.loopPar with CFL := 1/10 } G = .pinf)) (by decide +kernel)
  exact ⟨G, h1, of_decide_eq_true h2⟩

end Mpm

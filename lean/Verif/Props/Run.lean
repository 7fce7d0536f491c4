import Verif.Props.Loop
import Verif.Props.Order
import Verif.Props.Balance
import Verif.Props.Box
import Verif.Props.Planar

set_option linter.unusedSectionVars false

/-!
# A run of the program and its time steps (C123)
-/

namespace Mpm
open Spec

namespace Spec
section
variable {K : Type} [Field K] [LinearOrder K]

/-- Hooks that only look: they may draw, save and count, but leave the simulation alone. -/
def Looks {P : Par K} {W : Type} (hooks : Call → St P × W → Res (St P × W)) : Prop :=
  ∀ c x y, hooks c x = .ok y → y.1 = x.1

/-- Hooks that never raise an exception. -/
def NeverFails {P : Par K} {W : Type} (hooks : Call → St P × W → Res (St P × W)) : Prop :=
  ∀ c x, ∃ y, hooks c x = .ok y

/-- Hooks that only look and note down what they see. -/
def notes {P : Par K} : Call → St P × List (Call × St P) → Res (St P × List (Call × St P)) :=
  fun c x => .ok (x.1, x.2 ++ [(c, x.1)])

/-- What is noted in one time step, when `u` is the state after the step. -/
def seen {P : Par K} (save : Bool) (u : St P) : List (Call × St P) :=
  [(.before, u)] ++ (if save then [(.nth, u)] else []) ++ [(.after, u)]

/-- How the clock goes on after a time step.  With dynamic time steps the next one is chosen from the
grid as the step left it; if it is not finite the loop must be over. -/
def Ticks (P : Par K) (A : LoopPar K) (u s : St P) : Prop :=
  s.L = u.L ∧ s.G = u.G ∧
    if A.dynamic then
      (∃ dt, defaultTimestep P A u.G = .fin dt ∧ s.dyn =
        { u.dyn with t := u.dyn.t + u.dyn.dt, tstep := u.dyn.tstep + 1, dt := dt }) ∨
      ((∀ dt, defaultTimestep P A u.G ≠ .fin dt) ∧ A.t_f < u.dyn.t + u.dyn.dt ∧
        s.dyn = { u.dyn with t := u.dyn.t + u.dyn.dt, tstep := u.dyn.tstep + 1 })
    else s.dyn = { u.dyn with t := u.dyn.t + u.dyn.dt, tstep := u.dyn.tstep + 1 }

/-- A run as a chain of time steps from `s` to `s'`, without any output: `us` are the states which
the steps leave. -/
inductive Chain [FloorRing K] (P : Par K) (interp : Interp K P.G.N) (A : LoopPar K) :
    St P → List (St P) → St P → Prop
  | done {s : St P} : A.t_f < s.dyn.t → Chain P interp A s [] s
  | step {s u s1 s' : St P} {us : List (St P)} : s.dyn.t ≤ A.t_f → timeMarch P interp s = .ok u →
      Ticks P A u s1 → Chain P interp A s1 us s' → Chain P interp A s (u :: us) s'

end
end Spec

section
variable {K : Type} [Field K] [LinearOrder K] [IsStrictOrderedRing K] [FloorRing K] {W W' : Type}
variable {P : Par K} {interp : Interp K P.G.N} {A : LoopPar K}
  {hooks : Call → St P × W → Res (St P × W)} {hooks' : Call → St P × W' → Res (St P × W')}

theorem Spec.Looks.keeps (h : Looks hooks) : KeepsTime hooks := by
  intro c x y e
  rw [h c x y e]
  exact ⟨rfl, rfl, rfl⟩

theorem callHook_looks (hl : Looks hooks) {c : Call} {l l' : LoopSt P W}
    (h : callHook P hooks c l = .ok l') : l'.s = l.s :=
  hl _ _ _ (callHook_ok h).1

theorem nthHook_looks (hl : Looks hooks) {l l' : LoopSt P W}
    (h : nthHook P A hooks l = .ok l') : l'.s = l.s := by
  unfold nthHook at h
  split at h
  · exact callHook_looks hl h
  · cases h; rfl

/-- One pass through the loop, with hooks that only look. -/
theorem loopBody_looks (hl : Looks hooks) {l l' : LoopSt P W}
    (h : loopBody P interp A hooks l = .ok l') :
    ∃ s1, timeMarch P interp l.s = .ok s1 ∧
      ∃ l3 : LoopSt P W, l3.s = s1 ∧ advance P A l3 = .ok l' := by
  obtain ⟨-, -, s1, l1, l2, l3, h1, h2, h3, h4, h5⟩ := loopBody_parts h
  refine ⟨s1, h1, l3, ?_, h5⟩
  rw [callHook_looks hl h4, nthHook_looks hl h3, callHook_looks hl h2]

theorem advance_static (hd : A.dynamic = false) {l l' : LoopSt P W}
    (h : advance P A l = .ok l') : l'.s = stepTime P l.s := by
  unfold advance at h
  simp only [hd, Bool.false_eq_true, if_false] at h
  cases h
  rfl

theorem advance_ticks {l l' : LoopSt P W} (h : advance P A l = .ok l') :
    Ticks P A l.s l'.s ∧ l'.w = l.w ∧ l'.log = l.log := by
  unfold advance at h
  simp only at h
  split at h
  · rename_i hd
    split at h
    · rename_i dt e
      cases h
      exact ⟨⟨rfl, rfl, by rw [if_pos hd]; exact .inl ⟨dt, e, rfl⟩⟩, rfl, rfl⟩
    · rename_i hn
      split at h
      · cases h
      · rename_i hle
        cases h
        exact ⟨⟨rfl, rfl, by rw [if_pos hd]; exact .inr ⟨hn, not_le.1 hle, rfl⟩⟩, rfl, rfl⟩
  · rename_i hd
    cases h
    exact ⟨⟨rfl, rfl, by rw [if_neg hd]; rfl⟩, rfl, rfl⟩

theorem Spec.Ticks.unique {u s s' : St P} (h : Ticks P A u s) (h' : Ticks P A u s') : s = s' := by
  obtain ⟨d, L, G⟩ := s
  obtain ⟨d', L', G'⟩ := s'
  obtain ⟨(rfl : L = u.L), (rfl : G = u.G), h⟩ := h
  obtain ⟨(rfl : L' = u.L), (rfl : G' = u.G), h'⟩ := h'
  have : d = d' := by
    split at h
    · rename_i hd
      rw [if_pos hd] at h'
      rcases h with ⟨dt, e, h⟩ | ⟨e, -, h⟩ <;> rcases h' with ⟨dt', e', h'⟩ | ⟨e', -, h'⟩
      · rw [e] at e'
        cases e'
        exact h.trans h'.symm
      · exact absurd e (e' _)
      · exact absurd e' (e _)
      · exact h.trans h'.symm
    · rename_i hd
      rw [if_neg hd] at h'
      exact h.trans h'.symm
  rw [this]

theorem loop_chain (hl : Looks hooks) {fuel : ℕ} {l l' : LoopSt P W}
    (h : loop P interp A hooks fuel l = some (.ok l')) :
    ∃ us, Chain P interp A l.s us l'.s := by
  induction fuel generalizing l with
  | zero => cases h
  | succ fuel ih =>
    unfold loop at h
    split at h
    · rename_i hle
      split at h
      · cases h
      · rename_i l1 hb
        obtain ⟨s1, h1, l3, e3, h3⟩ := loopBody_looks hl hb
        have e1 := (advance_ticks h3).1
        rw [e3] at e1
        obtain ⟨us, hu⟩ := ih h
        exact ⟨s1 :: us, .step hle h1 e1 hu⟩
    · rename_i hle
      cases h
      exact ⟨[], .done (not_le.1 hle)⟩

/-- C123.  A run with hooks that only look is a chain of time steps, static or dynamic. -/
theorem c123_chain (hl : Looks hooks) {fuel : ℕ} {s : St P} {w : W} {l : LoopSt P W}
    (h : mainRun P interp A hooks fuel s w = some (.ok l)) : ∃ us, Chain P interp A s us l.s := by
  obtain ⟨l1, l2, h1, h2, h3⟩ := mainRun_ok h
  obtain ⟨us, hu⟩ := loop_chain hl h2
  have e1 : l1.s = s := callHook_looks hl h1
  rw [e1, ← callHook_looks hl h3] at hu
  exact ⟨us, hu⟩

/-- C123.  There is only one chain from a state. -/
theorem c123_unique {s s1 s2 : St P} {u1 u2 : List (St P)} (h1 : Chain P interp A s u1 s1)
    (h2 : Chain P interp A s u2 s2) : u1 = u2 ∧ s1 = s2 := by
  induction h1 generalizing u2 with
  | done a =>
    cases h2 with
    | done => exact ⟨rfl, rfl⟩
    | step b => exact absurd b (not_le.2 a)
  | step a b c d ih =>
    cases h2 with
    | done a' => exact absurd a (not_le.2 a')
    | step a' b' c' d' =>
      rw [b] at b'
      cases b'
      cases c.unique c'
      obtain ⟨e1, e2⟩ := ih d'
      exact ⟨by rw [e1], e2⟩

/-- C123.  What is drawn or saved has no influence: two runs from the same state, with the same
constants but with other hooks that only look, end in the same state. -/
theorem c123_observers (hl : Looks hooks) (hl' : Looks hooks') {f f' : ℕ} {s : St P} {w : W} {w' : W'}
    {l : LoopSt P W} {l' : LoopSt P W'} (h : mainRun P interp A hooks f s w = some (.ok l))
    (h' : mainRun P interp A hooks' f' s w' = some (.ok l')) : l.s = l'.s := by
  obtain ⟨us, hu⟩ := c123_chain hl h
  obtain ⟨vs, hv⟩ := c123_chain hl' h'
  exact (c123_unique hu hv).2

theorem looks_notes : Looks (notes (P := P)) := by
  intro c x y h
  cases h
  rfl

theorem callHook_notes {c : Call} {l l' : LoopSt P (List (Call × St P))}
    (h : callHook P notes c l = .ok l') : l'.s = l.s ∧ l'.w = l.w ++ [(c, l.s)] := by
  have := (callHook_ok h).1
  simp only [notes, Except.ok.injEq, Prod.mk.injEq] at this
  exact ⟨this.1.symm, this.2.symm⟩

theorem loop_notes {fuel : ℕ} {l l' : LoopSt P (List (Call × St P))}
    (h : loop P interp A notes fuel l = some (.ok l')) :
    ∃ us, Chain P interp A l.s us l'.s ∧ l'.w = l.w ++ us.flatMap fun u =>
      seen (saveTest u.dyn.t u.dyn.dt A.savetime) u := by
  induction fuel generalizing l with
  | zero => cases h
  | succ fuel ih =>
    unfold loop at h
    split at h
    · rename_i hle
      split at h
      · cases h
      · rename_i l1 hb
        obtain ⟨-, -, s1, a1, a2, a3, h1, h2, h3, h4, h5⟩ := loopBody_parts hb
        obtain ⟨e2, w2⟩ := callHook_notes h2
        obtain ⟨e4, w4⟩ := callHook_notes h4
        obtain ⟨tk, w5, -⟩ := advance_ticks h5
        have h23 : a2.s = a1.s ∧ a2.w = a1.w ++
            (if saveTest a1.s.dyn.t a1.s.dyn.dt A.savetime then [(.nth, a1.s)] else []) := by
          unfold nthHook at h3
          split at h3
          · rename_i hs
            rw [if_pos hs]
            exact callHook_notes h3
          · rename_i hs
            cases h3
            rw [if_neg hs, List.append_nil]
            exact ⟨rfl, rfl⟩
        obtain ⟨e3, w3⟩ := h23
        simp only at e2 w2
        rw [e4, e3, e2] at tk
        obtain ⟨us, hu, hw⟩ := ih h
        refine ⟨s1 :: us, .step hle h1 tk hu, ?_⟩
        rw [hw, w5, w4, w3, w2, e3, e2, List.flatMap_cons]
        simp only [seen, List.append_assoc]
    · rename_i hle
      cases h
      exact ⟨[], .done (not_le.1 hle), by simp⟩

/-- C123.  What the hooks get to see, with static and with dynamic time steps: first the initial
state; then, for every step of the chain, the state which the step leaves, two times or, if it is
to be saved, three times; last the state at the end. -/
theorem c123_seen {fuel : ℕ} {s : St P} {l : LoopSt P (List (Call × St P))}
    (h : mainRun P interp A notes fuel s [] = some (.ok l)) :
    ∃ us, Chain P interp A s us l.s ∧ l.w = [(.initial, s)] ++ (us.flatMap fun u =>
      seen (saveTest u.dyn.t u.dyn.dt A.savetime) u) ++ [(.final, l.s)] := by
  obtain ⟨l1, l2, h1, h2, h3⟩ := mainRun_ok h
  obtain ⟨e1, w1⟩ := callHook_notes h1
  obtain ⟨e3, w3⟩ := callHook_notes h3
  obtain ⟨us, hu, hw⟩ := loop_notes h2
  simp only at e1 w1
  rw [e1, ← e3] at hu
  exact ⟨us, hu, by rw [w3, hw, w1, e3]; rfl⟩

/-- C123.  What every step and the choice of the next time step preserve holds in every state of a
run. -/
theorem c123_invariant (I : St P → Prop)
    (hs : ∀ s u, I s → timeMarch P interp s = .ok u → I u)
    (hc : ∀ u s, I u → s.L = u.L → s.G = u.G → I s) {s s' : St P} {us : List (St P)}
    (h : Chain P interp A s us s') (hI : I s) : I s' ∧ ∀ u ∈ us, I u := by
  induction h with
  | done _ => exact ⟨hI, by simp⟩
  | step a b c _ ih =>
    have h1 := hs _ _ hI b
    obtain ⟨i1, i2⟩ := ih (hc _ _ h1 c.1 c.2.1)
    exact ⟨i1, by simpa using ⟨h1, i2⟩⟩

theorem loop_steps (hl : Looks hooks) (hd : A.dynamic = false) {fuel : ℕ} {l l' : LoopSt P W}
    (h : loop P interp A hooks fuel l = some (.ok l')) :
    ∃ n : ℕ, (∀ k < n, l.s.dyn.t + k * l.s.dyn.dt ≤ A.t_f) ∧ A.t_f < l.s.dyn.t + n * l.s.dyn.dt ∧
      steps P interp n l.s = .ok l'.s := by
  induction fuel generalizing l with
  | zero => cases h
  | succ fuel ih =>
    unfold loop at h
    split at h
    · rename_i hle
      split at h
      · cases h
      · rename_i l1 hb
        obtain ⟨s1, h1, l3, e3, h3⟩ := loopBody_looks hl hb
        have e1 := advance_static hd h3
        rw [e3] at e1
        obtain ⟨t1, d1, -⟩ := timeMarch_clock h1
        obtain ⟨n, g1, g2, g3⟩ := ih h
        have et : ∀ k : ℕ, l.s.dyn.t + ((k + 1 : ℕ) : K) * l.s.dyn.dt
            = l1.s.dyn.t + k * l1.s.dyn.dt := by
          intro k; rw [e1]; simp only [stepTime]; rw [t1, d1]; push_cast; ring
        refine ⟨n + 1, ?_, by rw [et]; exact g2, steps_succ.2 ⟨s1, h1, by rw [← e1]; exact g3⟩⟩
        rintro (_ | k) hk'
        · simpa using hle
        · rw [et]; exact g1 k (by omega)
    · rename_i hle
      cases h
      exact ⟨0, by simp, by simpa using not_le.1 hle, rfl⟩

/-- C123.  With static time steps and hooks that only look, the state at the end of a run is that
after `stepCount` time steps from the initial state: the run is determined by its steps. -/
theorem c123_run (hl : Looks hooks) (hd : A.dynamic = false) {fuel : ℕ} {s : St P} {w : W}
    {l : LoopSt P W} (hdt : 0 < s.dyn.dt)
    (h : mainRun P interp A hooks fuel s w = some (.ok l)) :
    steps P interp (stepCount s.dyn.t s.dyn.dt A.t_f) s = .ok l.s := by
  obtain ⟨l1, l2, h1, h2, h3⟩ := mainRun_ok h
  have e1 : l1.s = s := callHook_looks hl h1
  obtain ⟨n, g1, g2, g3⟩ := loop_steps hl hd h2
  rw [e1] at g1 g2 g3
  rw [← stepCount_unique hdt g1 g2, callHook_looks hl h3]
  exact g3

theorem callHook_total (ht : NeverFails hooks) (c : Call) (l : LoopSt P W) :
    ∃ l', callHook P hooks c l = .ok l' := by
  obtain ⟨y, hy⟩ := ht c (l.s, l.w)
  exact ⟨_, res_bind_ok.2 ⟨y, hy, rfl⟩⟩

theorem loopBody_total (hl : Looks hooks) (ht : NeverFails hooks) (hd : A.dynamic = false)
    (h0 : A.t_f ≠ 0) (h1 : A.savetime ≠ 0) {l : LoopSt P W} {s1 : St P}
    (h : timeMarch P interp l.s = .ok s1) :
    ∃ l', loopBody P interp A hooks l = .ok l' ∧ l'.s = stepTime P s1 := by
  obtain ⟨l1, e1⟩ := callHook_total ht .before
    { l with s := s1, log := l.log ++ [⟨.march, l.s.dyn.t, l.s.dyn.tstep⟩] }
  obtain ⟨l2, e2⟩ : ∃ l2, nthHook P A hooks l1 = .ok l2 := by
    unfold nthHook
    split
    · exact callHook_total ht _ _
    · exact ⟨_, rfl⟩
  obtain ⟨l3, e3⟩ := callHook_total ht .after l2
  have e4 : advance P A l3 = .ok { l3 with s := stepTime P l3.s } := by
    unfold advance
    simp only [hd, Bool.false_eq_true, if_false]
  refine ⟨{ l3 with s := stepTime P l3.s }, ?_, ?_⟩
  · unfold loopBody
    refine res_bind_ok.2 ⟨s1, h, res_bind_ok.2 ⟨l1, e1, ?_⟩⟩
    rw [if_neg h0, if_neg h1]
    exact res_bind_ok.2 ⟨l2, e2, res_bind_ok.2 ⟨l3, e3, e4⟩⟩
  · simp only
    rw [callHook_looks hl e3, nthHook_looks hl e2, callHook_looks hl e1]

theorem loop_of_steps (hl : Looks hooks) (ht : NeverFails hooks) (hd : A.dynamic = false)
    (h0 : A.t_f ≠ 0) (h1 : A.savetime ≠ 0) {n : ℕ} {l : LoopSt P W} {s' : St P}
    (ha : ∀ k < n, l.s.dyn.t + k * l.s.dyn.dt ≤ A.t_f) (hb : A.t_f < l.s.dyn.t + n * l.s.dyn.dt)
    (h : steps P interp n l.s = .ok s') :
    ∃ l', loop P interp A hooks (n + 1) l = some (.ok l') ∧ l'.s = s' := by
  induction n generalizing l with
  | zero =>
    cases h
    refine ⟨l, ?_, rfl⟩
    unfold loop
    rw [if_neg (not_le.2 (by simpa using hb))]
  | succ n ih =>
    obtain ⟨s1, e1, e2⟩ := steps_succ.1 h
    obtain ⟨l1, b1, b2⟩ := loopBody_total hl ht hd h0 h1 e1
    obtain ⟨t1, d1, -⟩ := timeMarch_clock e1
    have et : ∀ k : ℕ, l.s.dyn.t + ((k + 1 : ℕ) : K) * l.s.dyn.dt
        = l1.s.dyn.t + k * l1.s.dyn.dt := by
      intro k; rw [b2]; simp only [stepTime]; rw [t1, d1]; push_cast; ring
    obtain ⟨l', c1, c2⟩ := ih (l := l1) (fun k hk => by rw [← et]; exact ha _ (by omega))
      (by rw [← et]; exact hb) (by rw [b2]; exact e2)
    refine ⟨l', ?_, c2⟩
    unfold loop
    rw [if_pos (by simpa using ha 0 (by omega)), b1]
    exact c1

/-- C123.  The other way round: if the time steps up to `t_f` all succeed, and the hooks only look
and never fail, then the program runs to its end and ends in the state after these steps.
Together with `c123_run`: when and with what result the program runs depends on the steps only. -/
theorem c123_ends (hl : Looks hooks) (ht : NeverFails hooks) (hd : A.dynamic = false)
    (h0 : A.t_f ≠ 0) (h1 : A.savetime ≠ 0) {s s' : St P} (w : W) (hdt : 0 < s.dyn.dt)
    (h : steps P interp (stepCount s.dyn.t s.dyn.dt A.t_f) s = .ok s') :
    ∃ fuel l, mainRun P interp A hooks fuel s w = some (.ok l) ∧ l.s = s' := by
  obtain ⟨l1, e1⟩ := callHook_total ht .initial { s := s, w := w, log := [] }
  have k1 : l1.s = s := callHook_looks hl e1
  have hc := fun k => c50_count (t₀ := s.dyn.t) (t_f := A.t_f) hdt k
  obtain ⟨l2, e2, k2⟩ := loop_of_steps (n := stepCount s.dyn.t s.dyn.dt A.t_f) (l := l1) hl ht hd h0 h1
    (fun k hk => by rw [k1]; exact (hc k).1 hk)
    (by rw [k1]; exact not_le.1 fun h => lt_irrefl _ ((hc _).2 h)) (by rw [k1]; exact h)
  obtain ⟨l3, e3⟩ := callHook_total ht .final l2
  refine ⟨stepCount s.dyn.t s.dyn.dt A.t_f + 1, l3, ?_, (callHook_looks hl e3).trans k2⟩
  unfold mainRun
  rw [e1]
  simp only
  rw [e2]
  simp only
  rw [e3]

/-! ## What holds in every state of a run, with static and with dynamic time steps -/

theorem step_one {s u : St P} (h : timeMarch P interp s = .ok u) :
    steps P interp 1 s = .ok (stepTime P u) := steps_succ.2 ⟨u, h, rfl⟩

theorem step_totalMass (ho1 : P.B.outlet_left = false) (ho2 : P.B.outlet_bottom = false)
    (hi1 : P.B.inlet_right = false) (hi2 : P.B.inlet_top = false) {s u : St P} (hL : Counted s.L)
    (hlaw : ∀ A ∈ s.L, A.ph.law ≠ .elastic_time) (h : timeMarch P interp s = .ok u) :
    totalMass u.L = totalMass s.L ∧ ∀ A ∈ u.L, A.ph.law ≠ .elastic_time := by
  obtain ⟨-, hR⟩ := steps_closed (P := P) (s := s) ho1 ho2 hi1 hi2
    (fun _ ph a b => ph.law ≠ .elastic_time → b.m = a.m)
    (fun _ _ _ _ => rfl) (fun _ _ _ _ _ h1 h2 h => (h2 h).trans (h1 h))
    (fun _ _ _ _ _ hs h => by rw [← hs.fields.1]; exact h)
    (fun _ _ _ _ _ _ _ _ _ _ hev => (evolved_mass hev).2.1) hL (step_one h)
  have h2 : List.Forall₂ (fun A B : PhaseSt K P.G.ns => A.ph.law ≠ .elastic_time ∧
      B.ph.law = A.ph.law ∧ A.pts.map (·.m) = B.pts.map (·.m)) s.L u.L := by
    refine (hR.and_left hlaw).forall₂ ?_
    rintro i A B ⟨hA, hs, hp⟩
    exact ⟨hA, hs.fields.1, forall₂_map_eq (fun a b hab => (hab hA).symm) hp⟩
  constructor
  · unfold totalMass points
    rw [List.map_flatMap, List.map_flatMap]
    revert h2
    generalize s.L = L, u.L = L'
    intro h2
    induction h2 with
    | nil => rfl
    | cons e _ ih => rw [List.flatMap_cons, List.flatMap_cons, List.sum_append, List.sum_append, ih, e.2.2]
  · intro B hB
    obtain ⟨A, -, hA, e, -⟩ := forall₂_right h2 hB
    rw [e]; exact hA

/-- C123.  The total mass is the same at the start, in every state that is drawn or saved, and at
the end, if the options have neither outlets nor inlets and no phase is `elastic_time`. -/
theorem c123_mass (ho1 : P.B.outlet_left = false) (ho2 : P.B.outlet_bottom = false)
    (hi1 : P.B.inlet_right = false) (hi2 : P.B.inlet_top = false) {s s' : St P} {us : List (St P)}
    (hL : Counted s.L) (hlaw : ∀ A ∈ s.L, A.ph.law ≠ .elastic_time)
    (h : Chain P interp A s us s') :
    totalMass s'.L = totalMass s.L ∧ ∀ u ∈ us, totalMass u.L = totalMass s.L := by
  obtain ⟨a, b⟩ := c123_invariant (I := fun u => Counted u.L ∧
    (∀ A ∈ u.L, A.ph.law ≠ .elastic_time) ∧ totalMass u.L = totalMass s.L)
    (by
      rintro v u ⟨h1, h2, h3⟩ hm
      obtain ⟨k1, k2⟩ := step_totalMass ho1 ho2 hi1 hi2 h1 h2 hm
      exact ⟨timeMarch_counted h1 hm, k2, k1.trans h3⟩)
    (by rintro u v ⟨h1, h2, h3⟩ e -; rw [e]; exact ⟨h1, h2, h3⟩) h ⟨hL, hlaw, rfl⟩
  exact ⟨a.2.2, fun u hu => (b u hu).2.2⟩

/-- C123.  In every state of a run from freshly made points, whatever the options: the numbers of
points match the lists, and stresses and strains are symmetric. -/
theorem c123_symmetric {g : K} {S : List (Phase K P.G.ns × PhaseInit K P.G.ns)} {s s' : St P}
    {us : List (St P)} (hS : mkList P g S = .ok s.L) (h : Chain P interp A s us s') :
    ∀ u ∈ s' :: us, Counted u.L ∧ ∀ mp ∈ points u.L, mp.stress.IsSymm ∧ mp.strain.IsSymm := by
  obtain ⟨a, b⟩ := c123_invariant (I := fun u => Counted u.L ∧
    ∀ mp ∈ points u.L, MatOk (fun A => A.IsSymm) mp)
    (by
      rintro v u ⟨h1, h2⟩ hm
      have := symm_run h1 h2 (step_one hm)
      exact ⟨timeMarch_counted h1 hm, this⟩)
    (by rintro u v ⟨h1, h2⟩ e -; rw [e]; exact ⟨h1, h2⟩) h ⟨(c27_constructed hS).1, by
      intro a ha
      obtain ⟨A, hA, ha⟩ := List.mem_flatMap.1 ha
      obtain ⟨S0, x, y, phi, hk⟩ := mkList_mem hS A hA a ha
      exact mkParticle_symm hk⟩
  intro u hu
  rcases List.mem_cons.1 hu with rfl | hu
  · exact ⟨a.1, fun mp hmp => ⟨(a.2 mp hmp).stress, (a.2 mp hmp).strain⟩⟩
  · exact ⟨(b u hu).1, fun mp hmp => ⟨((b u hu).2 mp hmp).stress, ((b u hu).2 mp hmp).strain⟩⟩

/-- C123.  In every state of a run from a planar start, motion and nodal fields are planar. -/
theorem c123_planar (hv : P.intruder_v 2 = 0)
    (hin : P.B.inlet_right = true ∨ P.B.inlet_top = true → P.pressure ≠ .nonZero)
    {s s' : St P} {us : List (St P)} (hL : Counted s.L) (hz : PlanarList s.L)
    (h : Chain P interp A s us s') :
    PlanarList s'.L ∧ ∀ u ∈ us, PlanarList u.L ∧ PlanarGrid u.G := by
  induction h with
  | done _ => exact ⟨hz, by simp⟩
  | step a b c _ ih =>
    obtain ⟨h1, h2⟩ := planar_step hL hz hv hin b
    obtain ⟨i1, i2⟩ := ih (by rw [c.1]; exact timeMarch_counted hL b) (by rw [c.1]; exact h1)
    exact ⟨i1, by simpa using ⟨⟨h1, h2⟩, i2⟩⟩

/-- C123.  In a box with four walls, a run in which every step satisfied the Courant condition with
the time step it was made with loses no point. -/
theorem c123_box (hP : GoodGrid P.G) (hB : Walls P.B) {s s' : St P} {us : List (St P)}
    (hG : mkGrid P.G P.B = .ok s.G) (hL : Counted s.L) (hr : ∀ A ∈ s.L, A.ph.law ≠ .rigid)
    (hx : ∀ mp ∈ points s.L, InDomain P.G mp.x) (h : Chain P interp A s us s')
    (hC : ∀ u ∈ us, 0 ≤ u.dyn.dt ∧ Courant P u.dyn.dt u.G) :
    (∀ mp ∈ points s'.L, InDomain P.G mp.x) ∧
      ∀ u ∈ us, ∀ mp ∈ points u.L, InDomain P.G mp.x := by
  have key : ∀ {v v' : St P} {us : List (St P)}, Chain P interp A v us v' → Geometry P.G v.G →
      (∀ k, s.G.boundary_v k = true → v.G.boundary_v k = true) →
      (∀ k, s.G.boundary_h k = true → v.G.boundary_h k = true) → Counted v.L →
      (∀ A ∈ v.L, A.ph.law ≠ .rigid) → (∀ mp ∈ points v.L, InDomain P.G mp.x) →
      (∀ u ∈ us, 0 ≤ u.dyn.dt ∧ Courant P u.dyn.dt u.G) →
      (∀ mp ∈ points v'.L, InDomain P.G mp.x) ∧
        ∀ u ∈ us, ∀ mp ∈ points u.L, InDomain P.G mp.x := by
    intro v v' us h
    induction h with
    | done _ => exact fun _ _ _ _ _ hx _ => ⟨hx, by simp⟩
    | step a b c _ ih =>
      intro g1 g2 g3 g4 g5 g6 g7
      obtain ⟨d1, d2⟩ := g7 _ (List.mem_cons_self ..)
      obtain ⟨t, th, tv, td⟩ := timeMarch_table b
      have ed := (timeMarch_clock b).2.1
      rw [ed] at d1 d2
      have hx' := c70_step hP hB hG g1 g2 g3 d1 g4 g5 g6 b d2
      obtain ⟨T, s1, s2, s3, k1, e1, k2, k3, k4, eG, hR⟩ := timeMarch_points g4 b
      have hph := hR.forall₂ (S := fun A B : PhaseSt K P.G.ns => SamePhase A.ph B.ph)
        fun p A B h => h.1
      obtain ⟨i1, i2⟩ := ih (by rw [c.2.1]; exact t.geometry g1)
        (by rw [c.2.1]; intro k hk; rw [tv]; exact wallMarks_mono (g2 k hk))
        (by rw [c.2.1]; intro k hk; rw [th]; exact wallMarks_mono (g3 k hk))
        (by rw [c.1]; exact timeMarch_counted g4 b)
        (by
          rw [c.1]
          intro B hB
          obtain ⟨A, hA, e⟩ := forall₂_right hph hB
          rw [e.fields.1]; exact g5 A hA)
        (by rw [c.1]; exact hx') (fun u hu => g7 u (List.mem_cons_of_mem _ hu))
      exact ⟨i1, by simpa using ⟨hx', i2⟩⟩
  exact key h (mkGrid_geometry hG) (fun _ h => h) (fun _ h => h) hL hr hx hC

/-- C123.  The order in which the points of a phase are stored changes nothing on the grid, also
with dynamic time steps: the two runs take the same steps and leave the same grids. -/
theorem c123_order {s s' t : St P} {us : List (St P)} (hL : Counted s.L) (hd : t.dyn = s.dyn)
    (hG : t.G = s.G) (ho : Reordered s.L t.L) (h : Chain P interp A s us s') :
    ∃ vs t', Chain P interp A t vs t' ∧ t'.dyn = s'.dyn ∧ t'.G = s'.G ∧ Reordered s'.L t'.L ∧
      List.Forall₂ (fun u v => v.dyn = u.dyn ∧ v.G = u.G ∧ Reordered u.L v.L) us vs := by
  have hs : SameSt s t := ⟨hd, hG, sameList_of ho hL⟩
  clear hd hG ho hL
  induction h generalizing t with
  | done a => exact ⟨[], t, .done (by rw [hs.dyn]; exact a), hs.dyn, hs.grid, hs.pts.reordered, .nil⟩
  | @step s u s1 s' us a b c _ ih =>
    obtain ⟨v, b', k⟩ := timeMarch_same hs b
    obtain ⟨vs, t', d', r⟩ := ih (t := ⟨s1.dyn, v.L, v.G⟩)
      ⟨rfl, by rw [c.2.1]; exact k.grid, by rw [c.1]; exact k.pts⟩
    have tk : Ticks P A v ⟨s1.dyn, v.L, v.G⟩ := by
      refine ⟨rfl, rfl, ?_⟩
      have := c.2.2
      rw [k.grid, k.dyn]
      exact this
    refine ⟨v :: vs, t', .step (by rw [hs.dyn]; exact a) b' tk d', r.1, r.2.1, r.2.2.1,
      .cons ⟨k.dyn, k.grid, k.pts.reordered⟩ r.2.2.2⟩

end
end Mpm

namespace Mpm
open Spec

/-! ## Examples -/

/-- Does a run of `main` from a fresh grid, with hooks that note what they see, end in a state
passing `check`? -/
def Ex.noteCheck (P : Par ℚ) (A : LoopPar ℚ) (d : Dyn ℚ) (L : List (PhaseSt ℚ P.G.ns)) (fuel : ℕ)
    (check : LoopSt P (List (Call × St P)) → Bool) : Bool :=
  match mkGrid P.G P.B with
  | .error _ => false
  | .ok G => match mainRun P (Ex.noInterp _) A Spec.notes fuel { dyn := d, L := L, G := G } [] with
    | some (.ok l) => check l
    | _ => false

theorem Ex.noteCheck_ok {P : Par ℚ} {A : LoopPar ℚ} {d : Dyn ℚ} {L : List (PhaseSt ℚ P.G.ns)}
    {fuel : ℕ} {check : LoopSt P (List (Call × St P)) → Bool}
    (h : Ex.noteCheck P A d L fuel check = true) :
    ∃ G l, mkGrid P.G P.B = .ok G ∧ mainRun P (Ex.noInterp _) A Spec.notes fuel
      { dyn := d, L := L, G := G } [] = some (.ok l) ∧ check l = true := by
  unfold Ex.noteCheck at h
  split at h
  · simp at h
  · rename_i G hG
    split at h
    · rename_i l hl
      exact ⟨G, l, hG, hl, h⟩
    · simp at h

/-- Two points, static time steps: three steps, of which the first and the last are saved. -/
def Ex.shortPar : LoopPar ℚ :=
  { t_f := 1/50, savetime := 1/50, dynamic := false, CFL := 1, critical := [] }

theorem Ex.shortRun : Ex.noteCheck Ex.par Ex.shortPar Ex.dyn Ex.L 4 (fun l =>
    decide (l.w.map (·.1) = [.initial, .before, .nth, .after, .before, .after, .before, .nth, .after,
      .final] ∧ (points l.s.L).length = 2)) = true := by decide +kernel

/-- The same with dynamic time steps. -/
def Ex.shortDyn : LoopPar ℚ :=
  { t_f := 1/50, savetime := 1/50, dynamic := true, CFL := 1, critical := [.fin (1/100)] }

theorem Ex.shortDynRun : Ex.noteCheck Ex.par Ex.shortDyn Ex.dyn Ex.L 6 (fun l =>
    decide (5 ≤ l.w.length)) = true := by decide +kernel

/-- A point without stress, at rest, in a box with four walls. -/
def Ex.restL : List (PhaseSt ℚ 2) :=
  [{ ph := { Ex.ph with n := 1 }, pts := [{ Ex.mp with stress := 0, v := .own 0 }] }]

def Ex.restDyn : LoopPar ℚ :=
  { t_f := 1/100, savetime := 1, dynamic := true, CFL := 1, critical := [] }

theorem Ex.restRun : Ex.noteCheck Ex.boxPar Ex.restDyn Ex.dyn Ex.restL 3 (fun l =>
    (points l.s.L).any fun mp => decide (mp.x 1 < 0)) = true := by decide +kernel

theorem Ex.shortMain : ∃ s l, mkGrid Ex.par.G Ex.par.B = .ok s.G ∧ s.L = Ex.L ∧ s.dyn = Ex.dyn ∧
    mainRun Ex.par (Ex.noInterp _) Ex.shortPar notes 4 s [] = some (.ok l) := by
  obtain ⟨G, l, hG, h, -⟩ := Ex.noteCheck_ok Ex.shortRun
  exact ⟨_, l, hG, rfl, rfl, h⟩

theorem Ex.shortMainDyn : ∃ s l, mkGrid Ex.par.G Ex.par.B = .ok s.G ∧ s.L = Ex.L ∧ s.dyn = Ex.dyn ∧
    mainRun Ex.par (Ex.noInterp _) Ex.shortDyn notes 6 s [] = some (.ok l) ∧ 5 ≤ l.w.length := by
  obtain ⟨G, l, hG, h, hc⟩ := Ex.noteCheck_ok Ex.shortDynRun
  exact ⟨_, l, hG, rfl, rfl, h, of_decide_eq_true hc⟩

/-- Hypotheses of `c123_run`, `c123_seen` and `c123_chain`. -/
example : ∃ (s : St Ex.par) (l : LoopSt Ex.par (List (Call × St Ex.par))), points s.L ≠ [] ∧
    0 < s.dyn.dt ∧ Looks (notes (P := Ex.par)) ∧ NeverFails (notes (P := Ex.par)) ∧
    Ex.shortPar.dynamic = false ∧ Ex.shortPar.t_f ≠ 0 ∧ Ex.shortPar.savetime ≠ 0 ∧
    mainRun Ex.par (Ex.noInterp _) Ex.shortPar notes 4 s [] = some (.ok l) ∧
    steps Ex.par (Ex.noInterp _) 3 s = .ok l.s := by
  obtain ⟨s, l, -, hL, hd, h⟩ := Ex.shortMain
  have hdt : 0 < s.dyn.dt := by rw [hd]; decide +kernel
  refine ⟨s, l, by rw [hL]; exact List.cons_ne_nil _ _, hdt, looks_notes, fun _ _ => ⟨_, rfl⟩, rfl,
    by norm_num [Ex.shortPar], by norm_num [Ex.shortPar], h, ?_⟩
  have := c123_run looks_notes rfl hdt h
  rw [hd, show stepCount Ex.dyn.t Ex.dyn.dt Ex.shortPar.t_f = 3 by decide +kernel] at this
  exact this

/-- Hypotheses of `c123_observers`: hooks that note everything, and hooks that only count. -/
example : ∃ (s : St Ex.par) (l : LoopSt Ex.par (List (Call × St Ex.par))) (f : ℕ)
    (m : LoopSt Ex.par ℕ), Looks (P := Ex.par) (fun (_ : Call) x => .ok (x.1, x.2 + 1)) ∧
    mainRun Ex.par (Ex.noInterp _) Ex.shortPar notes 4 s [] = some (.ok l) ∧
    mainRun Ex.par (Ex.noInterp _) Ex.shortPar (fun _ x => .ok (x.1, x.2 + 1)) f s 0 = some (.ok m) := by
  obtain ⟨s, l, -, hL, hd, h⟩ := Ex.shortMain
  have hdt : 0 < s.dyn.dt := by rw [hd]; decide +kernel
  have hl : Looks (P := Ex.par) (fun (_ : Call) (x : St Ex.par × ℕ) => .ok (x.1, x.2 + 1)) := by
    intro c x y h; cases h; rfl
  obtain ⟨f, m, hm, -⟩ := c123_ends (A := Ex.shortPar) (interp := Ex.noInterp _) hl
    (fun _ _ => ⟨_, rfl⟩) rfl (by norm_num [Ex.shortPar]) (by norm_num [Ex.shortPar]) 0 hdt
    (c123_run looks_notes rfl hdt h)
  exact ⟨s, l, f, m, hl, h, hm⟩

/-- Hypotheses of `c123_mass` and `c123_order` with dynamic time steps; the points exchanged. -/
example : ∃ (s t s' : St Ex.par) (us : List (St Ex.par)), Ex.par.B.outlet_left = false ∧
    Ex.par.B.outlet_bottom = false ∧ Ex.par.B.inlet_right = false ∧ Ex.par.B.inlet_top = false ∧
    Counted s.L ∧ (∀ A ∈ s.L, A.ph.law ≠ .elastic_time) ∧ Ex.shortDyn.dynamic = true ∧
    Chain Ex.par (Ex.noInterp _) Ex.shortDyn s us s' ∧ us ≠ [] ∧ t.dyn = s.dyn ∧ t.G = s.G ∧
    Reordered s.L t.L ∧ t.L ≠ s.L := by
  obtain ⟨s, l, -, hL, hd, h, hw⟩ := Ex.shortMainDyn
  obtain ⟨us, hu, e⟩ := c123_seen h
  refine ⟨s, ⟨s.dyn, [{ ph := Ex.ph, pts := [Ex.mp2, Ex.mp] }], s.G⟩, l.s, us, rfl, rfl, rfl, rfl,
    by rw [hL]; exact Ex.countedL, ?_, rfl, hu, ?_, rfl, rfl, ?_, ?_⟩
  · rw [hL]
    intro A hA
    rw [List.mem_singleton.1 hA]
    decide
  · rintro rfl
    rw [e] at hw
    simp at hw
  · rw [hL]
    exact .cons ⟨rfl, .swap _ _ _⟩ .nil
  · rw [hL]
    intro h
    have : [(3/2 : ℚ), 1/2] = [1/2, 3/2] :=
      congrArg (fun L : List (PhaseSt ℚ 2) => (points L).map fun mp : Particle ℚ 2 => mp.x 0) h
    revert this
    decide +kernel

/-- Hypotheses of `c123_symmetric` and `c123_planar`: freshly made points, fed from the top. -/
example : ∃ (s s' : St Ex.feedPar) (us : List (St Ex.feedPar)),
    mkList Ex.feedPar (-10) [(Ex.feedPh, Ex.feedInit)] = .ok s.L ∧ Ex.feedPar.intruder_v 2 = 0 ∧
    Ex.feedPar.pressure ≠ .nonZero ∧
    Chain Ex.feedPar (Ex.noInterp _) Ex.shortDyn s us s' ∧ (points s'.L).length = 3 := by
  obtain ⟨L, hL, hr⟩ := Ex.okAnd_ok (r := mkList Ex.feedPar (-10) [(Ex.feedPh, Ex.feedInit)])
    (check := fun L => Ex.noteCheck Ex.feedPar Ex.shortDyn Ex.dyn L 4 fun l =>
      decide ((points l.s.L).length = 3)) (by decide +kernel)
  obtain ⟨G, l, -, h, hc⟩ := Ex.noteCheck_ok hr
  obtain ⟨us, hu⟩ := c123_chain looks_notes h
  exact ⟨_, _, us, hL, rfl, by decide, hu, of_decide_eq_true hc⟩

def Ex.oneStep : LoopPar ℚ := { Ex.shortPar with t_f := 1/200 }

/-- Hypotheses of `c123_box`. -/
example : ∃ (s s' u : St Ex.boxPar), GoodGrid Ex.boxPar.G ∧ Walls Ex.boxPar.B ∧
    mkGrid Ex.boxPar.G Ex.boxPar.B = .ok s.G ∧ s.L = Ex.L ∧
    Chain Ex.boxPar (Ex.noInterp _) Ex.oneStep s [u] s' ∧
    0 ≤ u.dyn.dt ∧ Courant Ex.boxPar u.dyn.dt u.G := by
  obtain ⟨G, u, hG, hs, hc⟩ := Ex.run_one Ex.boxStep
  obtain ⟨t1, d1, -⟩ := timeMarch_clock hs
  refine ⟨⟨Ex.dyn, Ex.L, G⟩, stepTime _ u, u, Ex.good, Ex.boxWalls, hG, rfl,
    .step (show Ex.dyn.t ≤ Ex.oneStep.t_f by decide +kernel) hs (s1 := stepTime _ u)
      ⟨rfl, rfl, by rw [if_neg (by decide)]; rfl⟩ (.done ?_), ?_, ?_⟩
  · show Ex.oneStep.t_f < u.dyn.t + u.dyn.dt
    rw [t1, d1]
    show Ex.oneStep.t_f < Ex.dyn.t + Ex.dyn.dt
    decide +kernel
  · rw [d1]
    show 0 ≤ Ex.dyn.dt
    decide +kernel
  · have e1 : cellX Ex.boxPar.G = 1 := by decide +kernel
    have e2 : cellY Ex.boxPar.G = 1 := by decide +kernel
    rw [d1]
    unfold Courant
    rw [e1, e2]
    exact of_decide_eq_true hc

/-- C123.  The dynamic time step does not keep a box closed: it is chosen from the velocities of
the step before.  A point without stress, at rest in a box with four walls, is carried through the
bottom in the second step, although no time step is longer than a tenth of the time in which the
fastest node, when the step was chosen, crosses a cell. -/
theorem c123_dynamic_escapes : ∃ (s s' : St Ex.boxPar) (us : List (St Ex.boxPar)), Walls Ex.boxPar.B ∧
    mkGrid Ex.boxPar.G Ex.boxPar.B = .ok s.G ∧ Counted s.L ∧
    (∀ A ∈ s.L, A.ph.law ≠ .rigid) ∧ (∀ mp ∈ points s.L, InDomain Ex.boxPar.G mp.x) ∧
    Ex.restDyn.dynamic = true ∧ Ex.restDyn.CFL = 1 ∧
    Chain Ex.boxPar (Ex.noInterp _) Ex.restDyn s us s' ∧
    ∃ mp ∈ points s'.L, ¬ InDomain Ex.boxPar.G mp.x := by
  obtain ⟨G, l, hG, h, hc⟩ := Ex.noteCheck_ok Ex.restRun
  obtain ⟨us, hu⟩ := c123_chain looks_notes h
  obtain ⟨mp, hmp, hx⟩ := List.any_eq_true.1 hc
  refine ⟨_, l.s, us, Ex.boxWalls, hG, ?_, ?_, ?_, rfl, rfl, hu, mp, hmp, ?_⟩
  · intro A hA
    rw [List.mem_singleton.1 (hA : A ∈ Ex.restL)]
    rfl
  · intro A hA
    rw [List.mem_singleton.1 (hA : A ∈ Ex.restL)]
    decide
  · intro p hp
    have hp' : p = { Ex.mp with stress := 0, v := .own 0 } :=
      List.mem_singleton.1 (show p ∈ [{ Ex.mp with stress := 0, v := .own 0 }] from hp)
    rw [hp']
    show (0 ≤ (1/2 : ℚ) ∧ (1/2 : ℚ) < 2) ∧ (0 ≤ (5/4 : ℚ) ∧ (5/4 : ℚ) < 2)
    norm_num
  · intro hI
    have h1 := of_decide_eq_true hx
    exact absurd (hI.2.1 : (0 : ℚ) ≤ mp.x 1) (not_le.2 h1)

end Mpm

import Verif.Props.Run
import Verif.Props.Shipped
import Verif.Props.Translate
import Verif.Props.Restart
import Verif.Props.Swap
import Verif.Props.Reflect
import Verif.Props.Holes
import Verif.Props.Units
import Verif.Props.Stall

/-!
# Symmetries and memory of whole runs with adaptive time steps (C135)
-/

set_option linter.unusedSectionVars false

namespace Mpm
open Spec

namespace Spec
section
variable {K : Type} [Field K] [LinearOrder K]

/-- The parameters of the loop in new units. -/
def scaleLoop (U : NewUnits K) (A : LoopPar K) : LoopPar K :=
  { t_f := U.T * A.t_f, savetime := U.T * A.savetime, dynamic := A.dynamic, CFL := A.CFL
    critical := A.critical.map (scaleX U.T) }

/-- The state with another clock. -/
def clocked {P : Par K} (s : St P) (t dt : K) (n : ℕ) : St P :=
  ⟨{ s.dyn with t := t, dt := dt, tstep := n }, s.L, s.G⟩

end
end Spec

section
variable {K : Type} [Field K] [LinearOrder K] [IsStrictOrderedRing K] [FloorRing K]
variable {P Q : Par K} {interp : Interp K P.G.N} {interq : Interp K Q.G.N} {A B : LoopPar K}

/-- Two runs that stay related: `R` relates the states before the steps and `R'` those after. -/
theorem chain_sim {R R' : St P → St Q → Prop} {Good Good' : St P → Prop}
    (hstep : ∀ s t u, R s t → Good s → timeMarch P interp s = .ok u →
      ∃ v, timeMarch Q interq t = .ok v ∧ R' u v)
    (htick : ∀ u v s, R' u v → Good' u → Ticks P A u s → ∃ t, Ticks Q B v t ∧ R s t)
    (hend : ∀ s t, R s t → (A.t_f < s.dyn.t ↔ B.t_f < t.dyn.t))
    (hgood : ∀ s s' : St P, s'.L = s.L → s'.G = s.G → Good s → Good s')
    {s s' : St P} {us : List (St P)} (h : Chain P interp A s us s') :
    ∀ {t : St Q}, R s t → (∀ u ∈ (s :: us).dropLast, Good u) → (∀ u ∈ us, Good' u) →
      ∃ vs t', Chain Q interq B t vs t' ∧ R s' t' ∧ List.Forall₂ R' us vs := by
  induction h with
  | done a =>
    intro t hR _ _
    exact ⟨[], t, .done ((hend _ _ hR).1 a), hR, .nil⟩
  | @step s u s1 s' us a b c _ ih =>
    intro t hR hg hg'
    have hs : Good s := hg s (by simp)
    obtain ⟨v, hv, r⟩ := hstep _ _ _ hR hs b
    obtain ⟨t1, tk, r1⟩ := htick _ _ _ r (hg' u List.mem_cons_self) c
    obtain ⟨vs, t', k1, k2, k3⟩ := ih r1 (by
      intro w hw
      cases us with
      | nil => simp at hw
      | cons x us =>
        rw [List.dropLast_cons_of_ne_nil (by simp)] at hw
        rcases List.mem_cons.1 hw with rfl | hw
        · exact hgood u _ c.1 c.2.1 (hg u (by simp))
        · exact hg w (by
            rw [List.dropLast_cons_of_ne_nil (by simp), List.dropLast_cons_of_ne_nil (by simp)]
            exact List.mem_cons_of_mem _ (List.mem_cons_of_mem _ hw)))
      (fun w hw => hg' w (List.mem_cons_of_mem _ hw))
    refine ⟨v :: vs, t', .step ?_ hv tk k1, k2, .cons r k3⟩
    exact not_lt.1 fun h => absurd ((hend _ _ hR).2 h) (not_lt.2 a)

/-- The same choice of time step, the same clock. -/
theorem ticks_same {u : St P} {v : St Q} {s : St P} (hd : B.dynamic = A.dynamic) (hf : B.t_f = A.t_f)
    (he : defaultTimestep Q B v.G = defaultTimestep P A u.G) (ht : v.dyn.t = u.dyn.t)
    (hdt : v.dyn.dt = u.dyn.dt) (hn : v.dyn.tstep = u.dyn.tstep) (h : Ticks P A u s) :
    ∃ t dt n, s = clocked u t dt n ∧ Ticks Q B v (clocked v t dt n) := by
  obtain ⟨d, L, G⟩ := s
  obtain ⟨(rfl : L = u.L), (rfl : G = u.G), h⟩ := h
  cases hD : A.dynamic with
  | false =>
    rw [hD, if_neg (by decide)] at h
    obtain rfl : d = _ := h
    refine ⟨_, _, _, rfl, rfl, rfl, ?_⟩
    rw [hd, hD, if_neg (by decide)]
    show ({ v.dyn with t := u.dyn.t + u.dyn.dt, dt := u.dyn.dt, tstep := u.dyn.tstep + 1 } : Dyn K) = _
    rw [← ht, ← hdt, ← hn]
  | true =>
    rw [hD, if_pos rfl] at h
    rcases h with ⟨dt, e, h⟩ | ⟨e, hlt, h⟩
    · obtain rfl : d = _ := h
      refine ⟨_, _, _, rfl, rfl, rfl, ?_⟩
      rw [hd, hD, if_pos rfl]
      refine .inl ⟨dt, he.trans e, ?_⟩
      show ({ v.dyn with t := u.dyn.t + u.dyn.dt, dt := dt, tstep := u.dyn.tstep + 1 } : Dyn K) = _
      rw [← ht, ← hdt, ← hn]
    · obtain rfl : d = _ := h
      refine ⟨_, _, _, rfl, rfl, rfl, ?_⟩
      rw [hd, hD, if_pos rfl]
      refine .inr ⟨by rw [he]; exact e, by rw [ht, hdt, hf]; exact hlt, ?_⟩
      show ({ v.dyn with t := u.dyn.t + u.dyn.dt, dt := u.dyn.dt, tstep := u.dyn.tstep + 1 } : Dyn K) = _
      rw [← ht, ← hdt, ← hn]

theorem maxSpeed_nonneg {N ns : ℕ} (big : K) (G : Grid K N ns) : 0 ≤ maxSpeed big G := by
  unfold maxSpeed
  exact (foldl_max_ge N _ _ 0).1

theorem maxSpeed_le {N N' ns ns' : ℕ} {big : K} {G : Grid K N ns} {H : Grid K N' ns'}
    (h : ∀ n, ∃ n', (|nodeSpeed big G n 0| = |nodeSpeed big H n' 0| ∧
        |nodeSpeed big G n 1| = |nodeSpeed big H n' 1|) ∨
      (|nodeSpeed big G n 0| = |nodeSpeed big H n' 1| ∧
        |nodeSpeed big G n 1| = |nodeSpeed big H n' 0|)) : maxSpeed big G ≤ maxSpeed big H := by
  rcases (c53_speed big G).2 with e | ⟨n, e⟩
  · rw [e]; exact maxSpeed_nonneg big H
  · obtain ⟨n', k⟩ := h n
    have hH := (c53_speed big H).1 n'
    rcases e with e | e <;> rcases k with ⟨k0, k1⟩ | ⟨k0, k1⟩ <;> rw [e]
    · rw [k0]; exact hH.1
    · rw [k0]; exact hH.2
    · rw [k1]; exact hH.2
    · rw [k1]; exact hH.1

theorem nodeSpeed_neg {N N' ns ns' : ℕ} {big : K} {G : Grid K N ns} {H : Grid K N' ns'} {n : Fin N}
    {n' : Fin N'} {i j : Fin 3} (hm : G.m n = H.m n') (hq : G.q n i = H.q n' j ∨ G.q n i = -H.q n' j) :
    |nodeSpeed big G n i| = |nodeSpeed big H n' j| := by
  unfold nodeSpeed
  rw [hm]
  rcases hq with e | e <;> rw [e]
  by_cases h0 : H.m n' = 0
  · rw [if_pos h0, if_pos h0]
    rcases lt_trichotomy (H.q n' j) 0 with h | h | h
    · rw [if_neg (by linarith : ¬ -H.q n' j = 0), if_pos (by linarith), if_neg h.ne, if_neg h.not_gt,
        abs_neg]
    · rw [h, neg_zero]
    · rw [if_neg (by linarith : ¬ -H.q n' j = 0), if_neg (by linarith), if_neg h.ne', if_pos h, abs_neg]
  · rw [if_neg h0, if_neg h0, neg_div, abs_neg]

theorem timestep_same (hc : B.CFL = A.CFL) (hr : B.critical = A.critical)
    (hd : min Q.G.dx Q.G.dy = min P.G.dx P.G.dy) {N N' ns ns' : ℕ} {G : Grid K N ns}
    {H : Grid K N' ns'} (hs : maxSpeed Q.ops.big H = maxSpeed P.ops.big G) :
    defaultTimestep Q B H = defaultTimestep P A G := by
  unfold defaultTimestep
  simp only
  rw [hc, hr, hd, hs]

/-! ## Moving -/

/-- C135.  A whole run of a set-up that has been moved is the moved run, with adaptive time steps
too. -/
theorem c135_moved (a b : K) (ht : P.B.inlet_top = true → a = 0)
    (hf : P.B.inlet_right = true ∨ P.B.inlet_top = true → P.initial_flow = .none ∨ b = 0)
    {s s' : St P} {us : List (St P)} (h : Chain P interp A s us s') :
    Chain (movedPar a b P) interp A (movedSt a b s) (us.map (movedSt a b)) (movedSt a b s') := by
  induction h with
  | done a => exact .done a
  | @step s u s1 s' us hle hm hk _ ih =>
    refine .step hle (u := movedSt a b u) ?_ ?_ ih
    · rw [c93_step (P := P) (interp := interp) a b s ht hf, hm]; rfl
    · obtain ⟨k1, k2, k3⟩ := hk
      refine ⟨?_, ?_, ?_⟩
      · show List.map _ _ = List.map _ _; rw [k1]
      · show movedGrid _ _ _ = movedGrid _ _ _; rw [k2]
      · exact k3

/-! ## Memory -/

/-- C135.  Two states that agree in what `SameFuture` lists go through the same run: the same time
steps, the same grids, the same points as far as the future goes. -/
theorem c135_memory {s t s' : St P} {us : List (St P)} (hd : t.dyn = s.dyn) (hG : SameStatic s.G t.G)
    (hc : Counted s.L) (hL : SameFutures P.segregate_grid s.L t.L) (h : Chain P interp A s us s') :
    ∃ vs t', Chain P interp A t vs t' ∧ t'.dyn = s'.dyn ∧
      SameFutures P.segregate_grid s'.L t'.L ∧
      List.Forall₂ (fun u v => v.dyn = u.dyn ∧ v.G = u.G ∧ SameFutures P.segregate_grid u.L v.L) us vs := by
  obtain ⟨vs, t', k1, k2, k3⟩ := chain_sim (interq := interp) (B := A)
    (R := fun s t => t.dyn = s.dyn ∧ SameStatic s.G t.G ∧ Counted s.L ∧
      SameFutures P.segregate_grid s.L t.L)
    (R' := fun u v => v.dyn = u.dyn ∧ v.G = u.G ∧ Counted u.L ∧ SameFutures P.segregate_grid u.L v.L)
    (Good := fun _ => True) (Good' := fun _ => True)
    (fun s t u hR _ hu => by
      have h := timeMarch_like (interp := interp) hR.1 hR.2.1 hR.2.2.1 hR.2.2.2
      rw [hu] at h
      cases hv : timeMarch P interp t with
      | error e => rw [hv] at h; exact h.elim
      | ok v => rw [hv] at h; exact ⟨v, rfl, h.dyn, h.G, h.next⟩)
    (fun u v s hR _ hk => by
      obtain ⟨a, b, n, rfl, e⟩ := ticks_same (P := P) (Q := P) (B := A) rfl rfl (by rw [hR.2.1])
        (by rw [hR.1]) (by rw [hR.1]) (by rw [hR.1]) hk
      refine ⟨_, e, congrArg (fun d : Dyn K => ({ d with t := a, dt := b, tstep := n } : Dyn K)) hR.1,
        ?_, hR.2.2⟩
      show SameStatic u.G v.G
      rw [hR.2.1]; exact .refl _)
    (fun s t hR => by rw [hR.1]) (fun _ _ _ _ _ => trivial) h (t := t) ⟨hd, hG, hc, hL⟩ (fun _ _ => trivial)
    (fun _ _ => trivial)
  exact ⟨vs, t', k1, k2.1, k2.2.2.2, k3.imp fun _ _ k => ⟨k.1, k.2.1, k.2.2.2⟩⟩

/-! ## Exchanging the axes -/

theorem step_laws {s u : St P} (hc : Counted s.L) (h : timeMarch P interp s = .ok u) :
    ∀ a ∈ u.L, ∃ b ∈ s.L, b.ph.law = a.ph.law := by
  obtain ⟨_, _, _, _, _, _, _, _, _, _, h⟩ := timeMarch_points hc h
  intro B hB
  obtain ⟨i, hi⟩ := List.getElem?_of_mem hB
  obtain ⟨A, hA, hr⟩ := h.left hi
  exact ⟨A, List.mem_of_getElem? hA, (congrArg Phase.law hr.1).symm⟩

theorem speed_sym (S : Sym K P.G.nx P.G.ny) (B' : BP K) (r : K) (G : Grid K P.G.N P.G.ns)
    (H : Grid K (S.par P B').G.N (S.par P B').G.ns) (hm : H.m = (S.grid r G).m)
    (hq : H.q = (S.grid r G).q) : maxSpeed (S.par P B').ops.big H = maxSpeed P.ops.big G := by
  have key : ∀ k : Fin (S.ny' * S.nx'),
      (|nodeSpeed P.ops.big H k 0| = |nodeSpeed P.ops.big G (S.e.symm k) 0| ∧
        |nodeSpeed P.ops.big H k 1| = |nodeSpeed P.ops.big G (S.e.symm k) 1|) ∨
      (|nodeSpeed P.ops.big H k 0| = |nodeSpeed P.ops.big G (S.e.symm k) 1| ∧
        |nodeSpeed P.ops.big H k 1| = |nodeSpeed P.ops.big G (S.e.symm k) 0|) := by
    intro k
    have em : H.m k = G.m (S.e.symm k) := congrFun hm k
    have eq : H.q k = S.A.v (G.q (S.e.symm k)) := congrFun hq k
    have e0 : H.q k 0 = S.A.fx * (if S.A.swap then G.q (S.e.symm k) 1 else G.q (S.e.symm k) 0) := by
      rw [eq]; exact v_zero_comp _ _
    have e1 : H.q k 1 = S.A.fy * (if S.A.swap then G.q (S.e.symm k) 0 else G.q (S.e.symm k) 1) := by
      rw [eq]; exact v_one_comp _ _
    have sg : ∀ f x : K, f = 1 ∨ f = -1 → f * x = x ∨ f * x = -x := by
      rintro f x (rfl | rfl)
      · exact .inl (one_mul _)
      · exact .inr (neg_one_mul _)
    cases hsw : S.A.swap
    · rw [hsw] at e0 e1
      exact .inl ⟨nodeSpeed_neg em (by rw [e0]; exact sg _ _ S.A.hx),
        nodeSpeed_neg em (by rw [e1]; exact sg _ _ S.A.hy)⟩
    · rw [hsw] at e0 e1
      exact .inr ⟨nodeSpeed_neg em (by rw [e0]; exact sg _ _ S.A.hx),
        nodeSpeed_neg em (by rw [e1]; exact sg _ _ S.A.hy)⟩
  refine le_antisymm ?_ ?_
  · exact maxSpeed_le (G := H) (H := G) fun k => ⟨S.e.symm k, key k⟩
  · refine maxSpeed_le (G := G) (H := H) fun k => ⟨S.e k, ?_⟩
    have := key (S.e k)
    rw [Equiv.symm_apply_apply] at this
    rcases this with ⟨a, b⟩ | ⟨a, b⟩
    · exact .inl ⟨a.symm, b.symm⟩
    · exact .inr ⟨b.symm, a.symm⟩

theorem map_eq_ok {α β γ : Type} {f : α → γ} {g : β → γ} {x : Res α} {b : β}
    (h : f <$> x = g <$> (.ok b : Res β)) : ∃ a, x = .ok a ∧ f a = g b := by
  cases x with
  | error e => cases h
  | ok a => exact ⟨a, rfl, Except.ok.inj h⟩

/-- C135.  With the axes exchanged a whole run is the run with the axes exchanged, the adaptive time
steps being the same. -/
theorem c135_swapped (hP : GoodGrid P.G) (hB : BothAxes P.B) {s s' : St P} {us : List (St P)}
    (g : Geometry P.G s.G) (hc : Counted s.L)
    (hH : P.G.x_M - P.G.x_m = P.G.y_M - P.G.y_m ∨ ∀ a ∈ s.L, a.ph.law ≠ .ken_kamrin)
    (hin : ∀ u ∈ (s :: us).dropLast, ∀ mp ∈ points u.L, InDomain P.G mp.x)
    (h : Chain P interp A s us s') :
    ∃ vs t', Chain (swapPar P) (swapInterp interp) A (swapSt s) vs t' ∧ SameButEta t' (swapSt s') ∧
      List.Forall₂ (fun u v => SameButEta v (swapSt u)) us vs := by
  let R : St P → St (swapPar P) → Prop := fun s t => SameButEta t (swapSt s) ∧ Geometry P.G s.G ∧
    Counted s.L ∧ (P.G.x_M - P.G.x_m = P.G.y_M - P.G.y_m ∨ ∀ a ∈ s.L, a.ph.law ≠ .ken_kamrin)
  obtain ⟨vs, t', k1, k2, k3⟩ := chain_sim (Q := swapPar P) (interq := swapInterp interp) (B := A)
    (R := R) (R' := R) (Good := fun s => ∀ mp ∈ points s.L, InDomain P.G mp.x)
    (Good' := fun _ => True)
    (fun s t u hR hg hu => by
      obtain ⟨⟨r1, r2, r3, r4⟩, r5, r6, r7⟩ := hR
      have h := timeMarch_sym (r := 1) (S := transpose K P.G.nx P.G.ny) transpose_ok hB.flags
        (transpose_geo hP) (interp := interp) (.inl ⟨rfl, rfl⟩) r5 r6
        (fun a ha mp hmp => hg mp (List.mem_flatMap.2 ⟨a, ha, hmp⟩)) (fun _ => r7)
      rw [hu] at h
      have et : timeMarch (swapPar P) (swapInterp interp) t =
          timeMarch (swapPar P) (swapInterp interp) (swapSt s) := by
        have : ({ t with G := { t.G with vis := (swapSt s).G.vis } } : St (swapPar P)) = swapSt s := by
          obtain ⟨d, L, G⟩ := t
          cases r1; cases r2
          exact congrArg (St.mk _ _) r4
        rw [← this]
        rfl
      obtain ⟨v, hv, e⟩ := map_eq_ok h
      refine ⟨v, et.trans hv, ?_, ?_, ?_, ?_⟩
      · have e1 : (transpose K P.G.nx P.G.ny).A.fx * (transpose K P.G.nx P.G.ny).A.fy = (1 : K) :=
          mul_one _
        rw [e1] at e
        exact sameButEta_of_tidy e
      · exact (timeMarch_table hu).1.geometry r5
      · exact timeMarch_counted r6 hu
      · refine r7.imp id fun h a ha => ?_
        obtain ⟨b, hb, e⟩ := step_laws r6 hu a ha
        rw [← e]
        exact h b hb)
    (fun u v s hR _ hk => by
      obtain ⟨⟨r1, r2, r3, r4⟩, r5⟩ := hR
      obtain ⟨a, b, n, rfl, e⟩ := ticks_same (P := P) (Q := swapPar P) (B := A) rfl rfl
        (timestep_same rfl rfl (min_comm _ _) (speed_sym _ _ 1 u.G v.G
          ((congrArg Grid.m r4 :) : v.G.m = _) ((congrArg Grid.q r4 :) : v.G.q = _)))
        (by rw [r1]; rfl) (by rw [r1]; rfl) (by rw [r1]; rfl) hk
      exact ⟨_, e, ⟨congrArg (fun d : Dyn K => ({ d with t := a, dt := b, tstep := n } : Dyn K)) r1,
        r2, r3, r4⟩, r5⟩)
    (fun s t hR => by rw [hR.1.1]; rfl)
    (fun s s' e _ h => by rw [e]; exact h) h (t := swapSt s) ⟨⟨rfl, rfl, fun _ _ => rfl, rfl⟩, g, hc, hH⟩ hin
    (fun _ _ => trivial)
  exact ⟨vs, t', k1, k2.1, k3.imp fun _ _ k => k.1⟩

/-! ## Left and right -/

/-- C135.  With left and right exchanged a whole run is the mirrored run, the adaptive time steps
being the same, as long as no step starts with a point on a vertical grid line. -/
theorem c135_mirrored (hI : OddInterp interp) (hC : ClearsMask interp) (hP : GoodGrid P.G)
    (hB : BothSides P.B) {s s' : St P} {us : List (St P)} (g : Geometry P.G s.G) (hc : Counted s.L)
    (hin : ∀ u ∈ (s :: us).dropLast, ∀ mp ∈ points u.L, InDomain P.G mp.x ∧
      ∀ i : ℕ, mp.x 0 ≠ nodeX P.G i)
    (h : Chain P interp A s us s') :
    Chain (flipPar P) (flipInterp interp) A (flipSt s) (us.map flipSt) (flipSt s') := by
  let R : St P → St (flipPar P) → Prop := fun s t => t = flipSt s ∧ Geometry P.G s.G ∧ Counted s.L
  obtain ⟨vs, t', k1, k2, k3⟩ := chain_sim (Q := flipPar P) (interq := flipInterp interp) (B := A)
    (R := R) (R' := R) (Good := fun s => ∀ mp ∈ points s.L, InDomain P.G mp.x ∧
      ∀ i : ℕ, mp.x 0 ≠ nodeX P.G i)
    (Good' := fun _ => True)
    (fun s t u hR hg hu => by
      obtain ⟨rfl, r5, r6⟩ := hR
      have h := timeMarch_sym (r := -1) (S := mirror P.G) (mirror_ok P.G) hB.flags (mirror_geo hP)
        (interp := interp) (.inr ⟨hI, hC⟩) r5 r6
        (fun a ha mp hmp => hg mp (List.mem_flatMap.2 ⟨a, ha, hmp⟩))
        (fun h => absurd h Bool.false_ne_true)
      rw [hu] at h
      obtain ⟨v, hv, e⟩ := map_eq_ok h
      have e1 : (mirror P.G).A.fx * (mirror P.G).A.fy = (-1 : K) := mul_one _
      rw [e1] at e
      exact ⟨v, hv, e, (timeMarch_table hu).1.geometry r5, timeMarch_counted r6 hu⟩)
    (fun u v s hR _ hk => by
      obtain ⟨rfl, r5⟩ := hR
      obtain ⟨a, b, n, rfl, e⟩ := ticks_same (P := P) (Q := flipPar P) (B := A) (v := flipSt u) rfl rfl
        (timestep_same rfl rfl rfl (speed_sym _ _ (-1) u.G _ rfl rfl)) rfl rfl rfl hk
      exact ⟨_, e, rfl, r5⟩)
    (fun s t hR => by rw [hR.1]; rfl)
    (fun s s' e _ h => by rw [e]; exact h) h (t := flipSt s) ⟨rfl, g, hc⟩ hin
    (fun _ _ => trivial)
  have e : vs = us.map flipSt := by
    clear * - k3
    induction k3 with
    | nil => rfl
    | cons h _ ih => rw [List.map_cons, ih, h.1]
  rw [← e, ← k2.1]
  exact k1

/-- C135.  Without segregation this holds whatever is done to empty nodes, the stored nodal shear
rate apart. -/
theorem c135_mirrored_unsegregated (hs : P.segregate_grid = false) (j : Interp K (flipPar P).G.N)
    (hP : GoodGrid P.G) (hB : BothSides P.B) {s s' : St P} {us : List (St P)}
    (g : Geometry P.G s.G) (hc : Counted s.L)
    (hin : ∀ u ∈ (s :: us).dropLast, ∀ mp ∈ points u.L, InDomain P.G mp.x ∧
      ∀ i : ℕ, mp.x 0 ≠ nodeX P.G i)
    (h : Chain P interp A s us s') :
    ∃ vs t', Chain (flipPar P) j A (flipSt s) vs t' ∧ hideRate t' = hideRate (flipSt s') ∧
      List.Forall₂ (fun u v => hideRate v = hideRate (flipSt u)) us vs := by
  let R : St P → St (flipPar P) → Prop := fun s t => hideRate t = hideRate (flipSt s) ∧
    Geometry P.G s.G ∧ Counted s.L
  obtain ⟨vs, t', k1, k2, k3⟩ := chain_sim (Q := flipPar P) (interq := j) (B := A)
    (R := R) (R' := R) (Good := fun s => ∀ mp ∈ points s.L, InDomain P.G mp.x ∧
      ∀ i : ℕ, mp.x 0 ≠ nodeX P.G i)
    (Good' := fun _ => True)
    (fun s t u hR hg hu => by
      obtain ⟨r, r5, r6⟩ := hR
      have h := timeMarch_sym (r := -1) (S := mirror P.G) (mirror_ok P.G) hB.flags (mirror_geo hP)
        (interp := zeros K P.G.N) (.inr ⟨zeros_odd P.G.N, fun _ _ => rfl⟩) r5 r6
        (fun a ha mp hmp => hg mp (List.mem_flatMap.2 ⟨a, ha, hmp⟩))
        (fun h => absurd h Bool.false_ne_true)
      have h1 := timeMarch_any hs interp (zeros K P.G.N) s
      rw [hu] at h1
      obtain ⟨u', hu', e'⟩ := map_eq_ok h1.symm
      rw [hu'] at h
      obtain ⟨v, hv, e⟩ := map_eq_ok h
      have e1 : (mirror P.G).A.fx * (mirror P.G).A.fy = (-1 : K) := mul_one _
      rw [e1] at e
      have h2 := timeMarch_any (P := flipPar P) hs j (flipInterp (zeros K P.G.N)) (flipSt s)
      rw [show timeMarch (flipPar P) (flipInterp (zeros K P.G.N)) (flipSt s) = .ok v from hv] at h2
      obtain ⟨w, hw, ew⟩ := map_eq_ok h2
      refine ⟨w, ?_, ?_, (timeMarch_table hu).1.geometry r5, timeMarch_counted r6 hu⟩
      · rw [← timeMarch_hide, r, timeMarch_hide]; exact hw
      · rw [ew]
        have e2 : v = flipSt u' := e
        rw [e2, hide_flip, e', ← hide_flip])
    (fun u v s hR _ hk => by
      obtain ⟨r, r5⟩ := hR
      have rd : v.dyn = (flipSt u).dyn := (congrArg St.dyn r :)
      obtain ⟨a, b, n, rfl, e⟩ := ticks_same (P := P) (Q := flipPar P) (B := A) rfl rfl
        (timestep_same rfl rfl rfl (speed_sym _ _ (-1) u.G v.G
          (congrArg (fun s : St (flipPar P) => s.G.m) r) (congrArg (fun s : St (flipPar P) => s.G.q) r)))
        (by rw [rd]; rfl) (by rw [rd]; rfl) (by rw [rd]; rfl) hk
      exact ⟨_, e, congrArg (fun s => clocked s a b n) r, r5⟩)
    (fun s t hR => by
      have rd : t.dyn = (flipSt s).dyn := (congrArg St.dyn hR.1 :)
      rw [rd]; rfl)
    (fun s s' e _ h => by rw [e]; exact h) h (t := flipSt s) ⟨rfl, g, hc⟩ hin
    (fun _ _ => trivial)
  exact ⟨vs, t', k1, k2.1, k3.imp fun _ _ k => k.1⟩

/-! ## Units -/

theorem speed_scale (U : NewUnits K) (big : K) {N ns : ℕ} {G H : Grid K N ns}
    (hz : ∀ k, G.m k = 0 → G.q k 0 = 0 ∧ G.q k 1 = 0) (hm : H.m = (scaleGrid U G).m)
    (hq : H.q = (scaleGrid U G).q) : maxSpeed big H = U.vel * maxSpeed big G := by
  have hv : 0 < U.vel := by unfold NewUnits.vel; exact div_pos U.L_pos U.T_pos
  have key : ∀ k i, (i = 0 ∨ i = 1) → |nodeSpeed big H k i| = U.vel * |nodeSpeed big G k i| := by
    intro k i hi
    have em : H.m k = U.M * G.m k := congrFun hm k
    have eq : H.q k i = U.mom * G.q k i := congrFun (congrFun hq k) i
    unfold nodeSpeed
    rw [em, eq]
    by_cases h : G.m k = 0
    · have h0 : G.q k i = 0 := by
        rcases hi with rfl | rfl
        · exact (hz k h).1
        · exact (hz k h).2
      rw [h, h0]; simp
    · rw [if_neg h, if_neg (mul_ne_zero U.M_pos.ne' h), NewUnits.mom_eq,
        show U.M * U.vel * G.q k i / (U.M * G.m k) = U.vel * (G.q k i / G.m k) by
          have := U.M_pos.ne'; field_simp, abs_mul, abs_of_pos hv]
  refine le_antisymm ?_ ?_
  · rcases (c53_speed big H).2 with e | ⟨n, e | e⟩ <;> rw [e]
    · exact mul_nonneg hv.le (maxSpeed_nonneg _ _)
    · rw [key n 0 (.inl rfl)]
      exact mul_le_mul_of_nonneg_left ((c53_speed big G).1 n).1 hv.le
    · rw [key n 1 (.inr rfl)]
      exact mul_le_mul_of_nonneg_left ((c53_speed big G).1 n).2 hv.le
  · rcases (c53_speed big G).2 with e | ⟨n, e | e⟩ <;> rw [e]
    · rw [mul_zero]; exact maxSpeed_nonneg _ _
    · rw [← key n 0 (.inl rfl)]; exact ((c53_speed big H).1 n).1
    · rw [← key n 1 (.inr rfl)]; exact ((c53_speed big H).1 n).2

theorem timestep_scale (U : NewUnits K) {N N' ns : ℕ} {G : Grid K N ns} {H : Grid K N' ns}
    (hs : maxSpeed P.ops.big H = U.vel * maxSpeed P.ops.big G) :
    defaultTimestep (scalePar U P) (scaleLoop U A) H = scaleX U.T (defaultTimestep P A G) := by
  have hv : 0 < U.vel := by unfold NewUnits.vel; exact div_pos U.L_pos U.T_pos
  have hT : U.L / U.vel = U.T := by
    unfold NewUnits.vel
    have := U.L_pos.ne'; have := U.T_pos.ne'
    field_simp
  unfold defaultTimestep
  simp only
  have e0 : (XF.fin (1 / 10 * min (scalePar U P).G.dx (scalePar U P).G.dy) : XF K) =
      scaleX U.L (.fin (1 / 10 * min P.G.dx P.G.dy)) := by
    show XF.fin (1 / 10 * min (U.L * P.G.dx) (U.L * P.G.dy)) = .fin (U.L * _)
    rw [← mul_min_of_nonneg _ _ U.L_pos.le]
    congr 1; ring
  have e1 : (XF.fin (maxSpeed (scalePar U P).ops.big H) : XF K) =
      scaleX U.vel (.fin (maxSpeed P.ops.big G)) := congrArg XF.fin hs
  rw [e0, e1, scaleX_div U.L_pos hv, hT]
  have hf : ∀ (l : List (XF K)) (x : XF K), (l.map (scaleX U.T)).foldl XF.min (scaleX U.T x) =
      scaleX U.T (l.foldl XF.min x) := by
    intro l
    induction l with
    | nil => intro x; rfl
    | cons a l ih =>
      intro x
      rw [List.map_cons, List.foldl_cons, List.foldl_cons, ← ih, scaleX_min U.T_pos]
  have h1 := scaleX_mul (a := 1) (b := U.T) one_pos U.T_pos (.fin A.CFL)
    (A.critical.foldl XF.min (.fin (1 / 10 * min P.G.dx P.G.dy) / .fin (maxSpeed P.ops.big G)))
  rw [scaleX_one, one_mul] at h1
  rw [← h1, ← hf]
  rfl

/-- C135.  A whole run in new units is the run in new units, adaptive time steps included, provided
no node has momentum without having mass (C134): such a node makes the time step a fixed number of
the machine instead of a time. -/
theorem c135_units (U : NewUnits K) (hs : P.segregate_grid = false) (hc : P.check_positions = false)
    (hf : P.B.inlet_right = true ∨ P.B.inlet_top = true → P.initial_flow = .none)
    (interp' : Interp K (scalePar U P).G.N) {s s' : St P} {us : List (St P)}
    (hn : Counted s.L) (hL : ∀ a ∈ s.L, Consistent P.ops P.G.s a)
    (hz : A.dynamic = true → ∀ u ∈ us, ∀ k, u.G.m k = 0 → u.G.q k 0 = 0 ∧ u.G.q k 1 = 0)
    (h : Chain P interp A s us s') :
    ∃ vs t', Chain (scalePar U P) interp' (scaleLoop U A) (scaleSt U s) vs t' ∧
      hideRate t' = scaleSt U (hideRate s') ∧
      List.Forall₂ (fun u v => hideRate v = scaleSt U (hideRate u)) us vs := by
  let R : St P → St (scalePar U P) → Prop := fun s t => hideRate t = scaleSt U (hideRate s) ∧
    Counted s.L ∧ ∀ a ∈ s.L, Consistent P.ops P.G.s a
  obtain ⟨vs, t', k1, k2, k3⟩ := chain_sim (Q := scalePar U P) (interq := interp')
    (B := scaleLoop U A) (R := R) (R' := R) (Good := fun _ => True)
    (Good' := fun u => A.dynamic = true → ∀ k, u.G.m k = 0 → u.G.q k 0 = 0 ∧ u.G.q k 1 = 0)
    (fun s t u hR _ hu => by
      obtain ⟨r, r5, r6⟩ := hR
      have h := c111_step U P hs hc hf interp interp' s r5 r6
      rw [hu] at h
      obtain ⟨v, hv, e⟩ := map_eq_ok h
      refine ⟨v, ?_, e, timeMarch_counted r5 hu, step_consistent hs r5 r6 hu⟩
      rw [← timeMarch_hide, r, ← hideRate_scale, timeMarch_hide]
      exact hv)
    (fun u v s hR hg hk => by
      obtain ⟨r, r5, r6⟩ := hR
      have rd : v.dyn = scaleDyn U u.dyn := (congrArg St.dyn r :)
      have em : v.G.m = (scaleGrid U u.G).m := (congrArg (fun s : St (scalePar U P) => s.G.m) r :)
      have eq : v.G.q = (scaleGrid U u.G).q := (congrArg (fun s : St (scalePar U P) => s.G.q) r :)
      obtain ⟨d, L, G⟩ := s
      obtain ⟨(rfl : L = u.L), (rfl : G = u.G), hk⟩ := hk
      refine ⟨⟨scaleDyn U d, v.L, v.G⟩, ⟨rfl, rfl, ?_⟩,
        congrArg (fun t : St (scalePar U P) => (⟨scaleDyn U d, t.L, t.G⟩ : St (scalePar U P))) r, r5, r6⟩
      have ea : U.T * u.dyn.t + U.T * u.dyn.dt = U.T * (u.dyn.t + u.dyn.dt) := (mul_add _ _ _).symm
      show if A.dynamic = true then _ else _
      cases hD : A.dynamic with
      | false =>
        rw [hD, if_neg (by decide)] at hk
        obtain rfl : d = _ := hk
        rw [if_neg (by decide), rd]
        simp only [scaleDyn, ea]
      | true =>
        rw [hD, if_pos rfl] at hk
        have et := timestep_scale (P := P) (A := A) U (speed_scale U P.ops.big (hg hD) em eq)
        rw [if_pos rfl, et, rd]
        rcases hk with ⟨dt, e, hk⟩ | ⟨e, hlt, hk⟩
        · obtain rfl : d = _ := hk
          refine .inl ⟨U.T * dt, by rw [e]; rfl, ?_⟩
          simp only [scaleDyn, ea]
        · obtain rfl : d = _ := hk
          refine .inr ⟨?_, ?_, ?_⟩
          · intro dt h
            cases e2 : defaultTimestep P A u.G with
            | fin x => exact e x e2
            | pinf => rw [e2] at h; cases h
            | ninf => rw [e2] at h; cases h
            | nan => rw [e2] at h; cases h
          · show U.T * A.t_f < U.T * u.dyn.t + U.T * u.dyn.dt
            rw [ea]
            exact mul_lt_mul_of_pos_left hlt U.T_pos
          · simp only [scaleDyn, ea])
    (fun s t hR => by
      have rd : t.dyn = scaleDyn U s.dyn := (congrArg St.dyn hR.1 :)
      rw [rd]
      exact (mul_lt_mul_iff_right₀ U.T_pos).symm)
    (fun _ _ _ _ h => h) h (t := scaleSt U s) ⟨hideRate_scale s, hn, hL⟩ (fun _ _ => trivial)
    (fun u hu hd => hz hd u hu)
  exact ⟨vs, t', k1, k2.1, k3.imp fun _ _ k => k.1⟩

/-! ## Runs of `main` -/

theorem callHook_looking {P : Par K} {W : Type} {hooks : Call → St P × W → Res (St P × W)}
    (hl : Looks hooks) (hn : NeverFails hooks) (c : Call) (l : LoopSt P W) :
    ∃ l', callHook P hooks c l = .ok l' ∧ l'.s = l.s := by
  obtain ⟨y, hy⟩ := hn c (l.s, l.w)
  refine ⟨_, res_bind_ok.2 ⟨y, hy, rfl⟩, hl _ _ _ hy⟩

/-- C135.  A chain of time steps is what `main` runs through, with hooks that look and do not
raise. -/
theorem c135_main {W : Type} {hooks : Call → St P × W → Res (St P × W)} (hl : Looks hooks)
    (hn : NeverFails hooks) (ht : A.t_f ≠ 0) (hs : A.savetime ≠ 0) {s s' : St P} {us : List (St P)}
    (h : Chain P interp A s us s') (w : W) :
    ∃ fuel l, mainRun P interp A hooks fuel s w = some (.ok l) ∧ l.s = s' := by
  have key : ∀ {s s' : St P} {us : List (St P)}, Chain P interp A s us s' → ∀ l : LoopSt P W,
      l.s = s → ∃ fuel l', loop P interp A hooks fuel l = some (.ok l') ∧ l'.s = s' := by
    intro s s' us h
    induction h with
    | done hlt =>
      rintro l rfl
      exact ⟨1, l, by unfold loop; rw [if_neg (not_le.2 hlt)], rfl⟩
    | @step s u s1 s' us hle hm hk hc ih =>
      rintro l rfl
      obtain ⟨l1, e1, k1⟩ := callHook_looking hl hn .before
        { l with s := u, log := l.log ++ [⟨.march, l.s.dyn.t, l.s.dyn.tstep⟩] }
      have e2 : ∃ l2, nthHook P A hooks l1 = .ok l2 ∧ l2.s = l1.s := by
        unfold nthHook
        split
        · exact callHook_looking hl hn _ _
        · exact ⟨_, rfl, rfl⟩
      obtain ⟨l2, e2, k2⟩ := e2
      obtain ⟨l3, e3, k3⟩ := callHook_looking hl hn .after l2
      have e4 := advance_of_ticks (l := l3) (A := A) (s1 := s1) (by rw [k3, k2, k1]; exact hk)
      obtain ⟨fuel, l', g1, g2⟩ := ih { l3 with s := s1 } rfl
      refine ⟨fuel + 1, l', ?_, g2⟩
      have hb : loopBody P interp A hooks l = .ok { l3 with s := s1 } := by
        unfold loopBody
        refine res_bind_ok.2 ⟨u, hm, res_bind_ok.2 ⟨l1, e1, ?_⟩⟩
        rw [if_neg ht, if_neg hs]
        exact res_bind_ok.2 ⟨l2, e2, res_bind_ok.2 ⟨l3, e3, e4⟩⟩
      unfold loop
      rw [if_pos hle, hb]
      exact g1
  obtain ⟨l1, e1, k1⟩ := callHook_looking hl hn .initial (⟨s, w, []⟩ : LoopSt P W)
  obtain ⟨fuel, l2, e2, k2⟩ := key h l1 k1
  obtain ⟨l3, e3, k3⟩ := callHook_looking hl hn .final l2
  refine ⟨fuel, l3, ?_, k3.trans k2⟩
  unfold mainRun
  rw [e1]
  simp only
  rw [e2]
  simp only
  rw [e3]

end

/-! ## The hypotheses can be met -/

/-- A run with adaptive time steps in which every state passes a test. -/
theorem Ex.chained {P : Par ℚ} {A : LoopPar ℚ} {d : Dyn ℚ} {L : List (PhaseSt ℚ P.G.ns)} {fuel : ℕ}
    {check : St P → Bool} (h : Ex.noteCheck P A d L fuel
      (fun l => decide (3 ≤ l.w.length) && l.w.all fun x => check x.2) = true) :
    ∃ s us s', mkGrid P.G P.B = .ok s.G ∧ s.L = L ∧ s.dyn = d ∧ us ≠ [] ∧
      Chain P (Ex.noInterp P) A s us s' ∧ ∀ u ∈ s :: us, check u = true := by
  obtain ⟨G, l, hG, h, hc⟩ := Ex.noteCheck_ok h
  obtain ⟨us, hu, e⟩ := c123_seen h
  rw [Bool.and_eq_true, List.all_eq_true, decide_eq_true_eq] at hc
  refine ⟨_, us, _, hG, rfl, rfl, ?_, hu, ?_⟩
  · rintro rfl
    rw [e] at hc
    simp at hc
  · intro u hu
    rw [e] at hc
    rcases List.mem_cons.1 hu with rfl | hu
    · exact hc.2 (.initial, _) (by simp)
    · refine hc.2 (.before, u) ?_
      simp only [List.mem_append, List.mem_flatMap]
      exact .inl (.inr ⟨u, hu, by simp [seen]⟩)

/-- Moved, in new units, and with made-up strains: the same run with adaptive time steps. -/
example : ∃ (s s' : St Ex.par) (us : List (St Ex.par)), us ≠ [] ∧ Ex.shortDyn.dynamic = true ∧
    Chain Ex.par (Ex.noInterp _) Ex.shortDyn s us s' ∧
    Chain (movedPar 5 7 Ex.par) (Ex.noInterp _) Ex.shortDyn (movedSt 5 7 s) (us.map (movedSt 5 7))
      (movedSt 5 7 s') ∧
    (∃ vs t', Chain (scalePar (Ex.units ℚ) Ex.par) (Ex.noInterp _) (scaleLoop (Ex.units ℚ) Ex.shortDyn)
      (scaleSt (Ex.units ℚ) s) vs t' ∧ hideRate t' = scaleSt (Ex.units ℚ) (hideRate s')) ∧
    (∃ vs t', Chain Ex.par (Ex.noInterp _) Ex.shortDyn
      { s with L := Ex.memL .elastic fun q =>
        { q with strain := 1, b := 0, dev_stress := 1, pressure := 7, rho := 0 } } vs t' ∧
      t'.dyn = s'.dyn) ∧
    ∃ fuel l, mainRun Ex.par (Ex.noInterp _) Ex.shortDyn notes fuel s [] = some (.ok l) ∧ l.s = s' := by
  obtain ⟨s, us, s', hG, hL, hd, hn, h, hc⟩ := Ex.chained (P := Ex.par) (A := Ex.shortDyn)
    (d := Ex.dyn) (L := Ex.memL .elastic id) (fuel := 6)
    (check := fun u => decide (∀ k, u.G.m k = 0 → u.G.q k 0 = 0 ∧ u.G.q k 1 = 0))
    (by decide +kernel)
  have key : ∀ a ∈ s.L, Consistent Ex.par.ops Ex.par.G.s a := by
    rw [hL]
    intro a ha
    have e := List.mem_singleton.1 ha
    rw [e]
    refine ⟨⟨⟨by simp [Ex.ph], by simp [Ex.ph]⟩, fun h => ?_⟩, fun h => ?_, fun mp _ h => ?_⟩
    · simp [TakesRoot] at h
    · cases h
    · cases h
  have hcn : Counted s.L := by rw [hL]; exact Ex.memCounted _ _
  refine ⟨s, s', us, hn, rfl, h, c135_moved 5 7 (fun h => by cases h)
    (fun h => by rcases h with h | h <;> cases h) h, ?_, ?_,
    c135_main looks_notes (fun _ _ => ⟨_, rfl⟩) (by norm_num [Ex.shortDyn]) (by norm_num [Ex.shortDyn])
      h []⟩
  · obtain ⟨vs, t', k1, k2, -⟩ := c135_units (Ex.units ℚ) rfl rfl
      (fun h => by rcases h with h | h <;> cases h) (Ex.noInterp _) hcn key
      (fun _ u hu => of_decide_eq_true (hc u (List.mem_cons_of_mem _ hu))) h
    exact ⟨vs, t', k1, k2⟩
  · have kf : ∀ q : Particle ℚ 2, SameFuture false .elastic 0 q
        { q with strain := 1, b := 0, dev_stress := 1, pressure := 7, rho := 0 } := by
      intro q
      constructor <;> simp
    obtain ⟨vs, t', k1, k2, -⟩ := c135_memory (s := s) (t := { s with L := Ex.memL .elastic fun q =>
        { q with strain := 1, b := 0, dev_stress := 1, pressure := 7, rho := 0 } }) rfl (.refl _) hcn
      (by
        rw [hL]
        refine ⟨rfl, ?_⟩
        rintro (_ | i) A B hA hB
        · cases hA
          cases hB
          exact ⟨rfl, .cons (kf _) (.cons (kf _) .nil)⟩
        · cases hA) h
    exact ⟨vs, t', k1, k2⟩

/-- The axes exchanged. -/
example : ∃ (s s' : St Ex.parWide) (us : List (St Ex.parWide)), us ≠ [] ∧
    Chain Ex.parWide (Ex.noInterp _) Ex.shortDyn s us s' ∧
    ∃ vs t', Chain (swapPar Ex.parWide) (swapInterp (Ex.noInterp _)) Ex.shortDyn (swapSt s) vs t' ∧
      SameButEta t' (swapSt s') := by
  obtain ⟨s, us, s', hG, hL, hd, hn, h, hc⟩ := Ex.chained (P := Ex.parWide) (A := Ex.shortDyn)
    (d := Ex.dyn) (L := Ex.L) (fuel := 6)
    (check := fun s => (points s.L).all fun mp => decide (0 ≤ mp.x 0 ∧ mp.x 0 < 2) &&
      decide (0 ≤ mp.x 1 ∧ mp.x 1 < 3)) (by decide +kernel)
  obtain ⟨vs, t', k1, k2, -⟩ := c135_swapped Ex.goodWide Ex.bothWide (mkGrid_geometry hG)
    (by rw [hL]; exact Ex.countedL) (.inr (by
      rw [hL]
      intro a ha
      have e : a = { ph := Ex.ph, pts := [Ex.mp, Ex.mp2] } := List.mem_singleton.1 ha
      rw [e]
      exact fun h => by cases h))
    (fun u hu mp hmp => by
      have := List.all_eq_true.1 (hc u (List.mem_of_mem_dropLast hu)) mp hmp
      simp only [Bool.and_eq_true, decide_eq_true_eq] at this
      exact this) h
  exact ⟨s, s', us, hn, h, vs, t', k1, k2⟩

/-- Left and right exchanged. -/
example : ∃ (s s' : St Ex.pairPar) (us : List (St Ex.pairPar)), us ≠ [] ∧
    Chain Ex.pairPar (Ex.noInterp _) Ex.shortDyn s us s' ∧
    Chain (flipPar Ex.pairPar) (flipInterp (Ex.noInterp _)) Ex.shortDyn (flipSt s) (us.map flipSt)
      (flipSt s') ∧
    ∃ vs t', Chain (flipPar Ex.pairPar) (Ex.noInterp _) Ex.shortDyn (flipSt s) vs t' ∧
      hideRate t' = hideRate (flipSt s') := by
  obtain ⟨s, us, s', hG, hL, hd, hn, h, hc⟩ := Ex.chained (P := Ex.pairPar) (A := Ex.shortDyn)
    (d := Ex.dyn) (L := Ex.pairL) (fuel := 6)
    (check := fun s => (points s.L).all fun mp => decide (0 < mp.x 0 ∧ mp.x 0 < 2 ∧ mp.x 0 ≠ 1 ∧
        0 ≤ mp.x 1 ∧ mp.x 1 < 2)) (by decide +kernel)
  have hline : ∀ x : Vec ℚ, (0 < x 0 ∧ x 0 < 2 ∧ x 0 ≠ 1 ∧ 0 ≤ x 1 ∧ x 1 < 2) →
      InDomain Ex.gp x ∧ ∀ i : ℕ, x 0 ≠ nodeX Ex.gp i := by
    rintro x ⟨h1, h2, h3, h4, h5⟩
    refine ⟨⟨⟨h1.le, h2⟩, h4, h5⟩, fun i hi => ?_⟩
    have e : nodeX Ex.gp i = i := by norm_num [nodeX, Ex.gp]
    rw [e] at hi
    rw [hi] at h1 h2 h3
    have a1 : 0 < i := by exact_mod_cast h1
    have a2 : i < 2 := by exact_mod_cast h2
    have a3 : i = 1 := by omega
    exact h3 (by rw [a3]; rfl)
  have hin : ∀ u ∈ (s :: us).dropLast, ∀ mp ∈ points u.L, InDomain Ex.pairPar.G mp.x ∧
      ∀ i : ℕ, mp.x 0 ≠ nodeX Ex.pairPar.G i := fun u hu mp hmp =>
    hline _ (of_decide_eq_true (List.all_eq_true.1 (hc u (List.mem_of_mem_dropLast hu)) mp hmp))
  have hcn : Counted s.L := by
    rw [hL]
    intro a ha
    have e := List.mem_singleton.1 ha
    rw [e]
    rfl
  obtain ⟨vs, t', k1, k2, -⟩ := c135_mirrored_unsegregated rfl (Ex.noInterp _) Ex.pairGood Ex.pairSides
    (mkGrid_geometry hG) hcn hin h
  exact ⟨s, s', us, hn, h, c135_mirrored (fun _ _ => by unfold Ex.noInterp; decide +kernel)
    (fun _ _ => rfl) Ex.pairGood Ex.pairSides (mkGrid_geometry hG) hcn hin h, vs, t', k1, k2⟩

end Mpm

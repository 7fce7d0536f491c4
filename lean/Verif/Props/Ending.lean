import Verif.Props.Lists

/-!
# C116: how a time step ends
-/

set_option linter.unusedSectionVars false

namespace Mpm
open Spec

section
variable {K : Type} [Field K] [LinearOrder K] [IsStrictOrderedRing K] [FloorRing K] {ns N : ℕ}

/-! ## Specification -/

/-- The way a point goes in a step: a rigid one with the intruder, any other by `dt` times the
mean of the velocities of the four corners of its cell, the light ones counting as at rest. -/
def Spec.Goes (P : Par K) (dt : K) (G : Grid K P.G.N P.G.ns) (ph : Phase K P.G.ns)
    (x x' : Vec K) : Prop :=
  (ph.law = .rigid → x' = x + dt • P.intruder_v) ∧
  (ph.law ≠ .rigid → InDomain P.G x → ∃ (i j : ℕ) (w : Fin 4 → K) (nd : Fin 4 → Fin P.G.N),
    InCell P.G x i j ∧ (∀ r, 0 ≤ w r) ∧ ∑ r, w r = 1 ∧
    (∀ r, (nd r : ℕ) % P.G.nx = i + cornerX r ∧ (nd r : ℕ) / P.G.nx = j + cornerY r) ∧
    (∑ r, w r * nodeX P.G (i + cornerX r) = x 0 ∧ ∑ r, w r * nodeY P.G (j + cornerY r) = x 1) ∧
    ∀ c, x' c = x c + dt * ∑ r, if P.M_tol < G.m (nd r) then w r * (G.q (nd r) c / G.m (nd r))
      else 0)

/-- The point is not past an open outlet. -/
def Spec.Remains (P : Par K) (x : Vec K) : Prop :=
  (P.B.outlet_left = true → P.G.x_m + P.G.dx ≤ x 0) ∧ (P.B.outlet_bottom = true → P.G.y_m ≤ x 1)

instance (P : Par K) (x : Vec K) : Decidable (Remains P x) := by unfold Spec.Remains; infer_instance

/-- Back into the domain, if the sides are joined. -/
def Spec.Around (P : Par K) (x x' : Vec K) : Prop :=
  x' 1 = x 1 ∧ x' 2 = x 2 ∧ (P.B.cyclic_lr = false → x' 0 = x 0) ∧
  (P.B.cyclic_lr = true → P.G.x_m ≤ x 0 → x 0 ≤ P.G.x_M → x' 0 = x 0) ∧
  (P.B.cyclic_lr = true → x 0 < P.G.x_m → P.G.x_m ≤ x 0 + (P.G.x_M - P.G.x_m) →
    x' 0 = x 0 + (P.G.x_M - P.G.x_m)) ∧
  (P.B.cyclic_lr = true → P.G.x_M < x 0 → x' 0 = x 0 - (P.G.x_M - P.G.x_m))

/-- `new` are the points made by `inlet_right` and then by `inlet_top` for a phase. -/
def Spec.Enter (P : Par K) (d : Dyn K) (ph : Phase K ns) (new : List (Particle K ns)) : Prop :=
  ∃ right top : List (Particle K ns), new = right ++ top ∧
    (P.B.inlet_right = true ∧ d.t ≠ 0 ∧ onSchedule d.t d.dt ph.inlet_rate →
      List.Forall₂ (NewPoint P ph d.g (P.G.x_M - ph.gap 0)) ph.yp right) ∧
    (¬ (P.B.inlet_right = true ∧ d.t ≠ 0 ∧ onSchedule d.t d.dt ph.inlet_rate) → right = []) ∧
    (P.B.inlet_top = true ∧ d.t ≠ 0 ∧ onSchedule d.t d.dt ph.inlet_rate →
      ∃ b, top = [b] ∧
        NewPoint P ph d.g ((P.G.x_M - P.G.x_m) / 2) (P.G.y_M - ph.gap 1) b) ∧
    (¬ (P.B.inlet_top = true ∧ d.t ≠ 0 ∧ onSchedule d.t d.dt ph.inlet_rate) → top = [])

/-- The last part of a step for a phase, from the points as they were moved: those past an open
outlet go, the new ones are appended, and all are taken around, with nothing but the abscissa
changed. -/
def Spec.Ends (P : Par K) (d : Dyn K) (ph : Phase K ns) (moved last : List (Particle K ns)) : Prop :=
  ∃ new, Enter P d ph new ∧
    List.Forall₂ (fun e b => b = { e with x := b.x } ∧ Around P e.x b.x)
      ((moved.filter fun e => decide (Remains P e.x)) ++ new) last

/-! ## Lemmas -/

/-- A point is moved after its preparation, which leaves its position alone. -/
theorem going_parts {P : Par K} {d : Dyn K} {m0 : Option (Mat0 K)}
    {Gw Gb Gm : Grid K P.G.N P.G.ns} {p : ℕ} {ph : Phase K P.G.ns}
    {a a2 a3 a4 a5 : Particle K P.G.ns}
    (h2 : (a.incrementGravity P d.g p).getReferenceNode P.G Gw.dx Gw.dy = .ok a2)
    (h3 : a2.getBasisFunctions Gw = .ok a3) {vis vis'}
    (h4 : a3.stressStrain P.G.nx P.M_tol Gb ph.law
      (lawCtx P d P.G.s (m0.getD ph.par) p ph) vis = .ok (a4, vis'))
    (h5 : SegStep P Gm a4 a5) :
    a5.x = a.x ∧ (GoodGrid P.G → Geometry P.G Gw → InDomain P.G a.x →
      ∃ (i j : ℕ) (nd : Fin 4 → Fin P.G.N), InCell P.G a.x i j ∧
        (∀ r, a5.node P.G.nx P.G.N r = .ok (nd r)) ∧
        (∀ r, (nd r : ℕ) % P.G.nx = i + cornerX r ∧ (nd r : ℕ) / P.G.nx = j + cornerY r) ∧
        a5.N = (atCell P.G a i j).N) := by
  have e1 : a.incrementGravity P d.g p = { a with b := (a.incrementGravity P d.g p).b } := by
    unfold Particle.incrementGravity; split <;> rfl
  generalize a.incrementGravity P d.g p = a1 at *
  have l3 := locate_one h2 h3
  have e3 := l3.eq
  obtain ⟨k4, m4⟩ := stressStrain_frame h4
  have e5 := h5.frame
  have x3 : a3.x = a.x := by rw [e3, e1]
  have N5 : a5.N = a3.N := by rw [e5]; exact k4.N
  have n5 : a5.n_star = a3.n_star := by rw [e5]; exact k4.n_star
  refine ⟨by rw [e5]; exact k4.x.trans x3, ?_⟩
  intro hP hG hx
  have x1 : a1.x = a.x := by rw [e1]
  obtain ⟨i, j, nd, hc, e1', e2', hnd, hX, hY⟩ := located_basis hP hG (mp := a1) (by rw [x1]; exact hx)
  rw [e1', Except.ok.injEq] at h2
  rw [← h2, e2', Except.ok.injEq] at h3
  refine ⟨i, j, nd, by rw [← x1]; exact hc, fun r => ?_, fun r => ⟨hX r, hY r⟩, ?_⟩
  · have := hnd r
    unfold Particle.node at this ⊢
    rw [n5, ← h3]
    exact this
  · rw [N5, ← h3]; unfold atCell; rw [x1]

theorem moveStep_goes {P : Par K} (hP : GoodGrid P.G) {dt : K} {G : Grid K P.G.N P.G.ns}
    {ph : Phase K P.G.ns} {a a5 e : Particle K P.G.ns} (hx : a5.x = a.x)
    (hl : InDomain P.G a.x → ∃ (i j : ℕ) (nd : Fin 4 → Fin P.G.N), InCell P.G a.x i j ∧
        (∀ r, a5.node P.G.nx P.G.N r = .ok (nd r)) ∧
        (∀ r, (nd r : ℕ) % P.G.nx = i + cornerX r ∧ (nd r : ℕ) / P.G.nx = j + cornerY r) ∧
        a5.N = (atCell P.G a i j).N)
    (h : MoveStep P dt G ph a5 e) : Goes P dt G ph a.x e.x := by
  rcases h with ⟨hr, rfl⟩ | ⟨hr, iv, iv', h⟩
  · refine ⟨fun _ => ?_, fun h => absurd hr h⟩
    rw [← hx]
    rfl
  · refine ⟨fun h => absurd h hr, fun _ hd => ?_⟩
    obtain ⟨i, j, nd, hc, hnd, hij, hN⟩ := hl hd
    obtain ⟨nd', hnd', -, e1⟩ := move_ok h
    have en : nd' = nd := by
      funext r
      have := hnd r
      rw [hnd' r] at this
      exact Except.ok.inj this
    rw [en] at e1
    refine ⟨i, j, a5.N, nd, hc, fun r => ?_, ?_, hij, ?_, fun c => ?_⟩
    · rw [hN]; exact atCell_N_nonneg hP hc r
    · rw [hN]; exact shapeN_sum (mul_pos (cellX_pos hP) (cellY_pos hP)).ne' _
    · have n1 := (cellX_pos hP).ne'
      have n2 := (cellY_pos hP).ne'
      have e1 : nodeX P.G (i + 1) = nodeX P.G i + cellX P.G := nodeX_succ P.G i
      have e2 : nodeY P.G (j + 1) = nodeY P.G j + cellY P.G := nodeY_succ P.G j
      rw [hN]
      simp only [Fin.sum_univ_four, atCell, shapeN, cornerX, cornerY]
      simp [e1, e2]
      constructor <;> field_simp <;> ring
    · have e6 : e.x = a5.x + ∑ r, dispInc P.M_tol dt (a5.N r) G (nd r) :=
        congrArg (fun z => z.1.x) e1
      rw [e6, hx, Pi.add_apply, Finset.sum_apply, Finset.mul_sum]
      congr 1
      refine Finset.sum_congr rfl fun r _ => ?_
      unfold dispInc
      split
      · ring
      · simp

theorem wrapped_around (P : Par K) (hP : GoodGrid P.G) (e : Particle K ns) :
    wrapped P e = { e with x := (wrapped P e).x } ∧ Around P e.x (wrapped P e).x := by
  have hx := hP.x
  unfold wrapped Around
  cases hc : P.B.cyclic_lr
  · simp
  · simp only [if_true]
    refine ⟨trivial, by simp, by simp, by simp, ?_, ?_, ?_⟩
    · intro _ h1 h2
      simp only [Function.update_self]
      unfold wrapX
      simp only [if_neg h1.not_gt, if_neg h2.not_gt]
    · intro _ h1 h2
      simp only [Function.update_self]
      unfold wrapX
      simp only [if_pos h1]
      rw [if_neg (by linarith)]
    · intro _ h1
      simp only [Function.update_self]
      unfold wrapX
      simp only [if_neg (show ¬ e.x 0 < P.G.x_m by linarith), if_pos h1]

theorem filter_when {c : Bool} {q : Particle K ns → Prop} [DecidablePred q]
    {f : List (PhaseSt K ns) → Res (List (PhaseSt K ns))} {L L' : List (PhaseSt K ns)}
    (hf : f L = .ok L' → List.Forall₂ (fun A B => B.ph = { A.ph with n := B.pts.length } ∧
      B.pts = A.pts.filter fun mp => decide (q mp)) L L')
    (h : whenSet c f L = .ok L') (hL : Counted L) :
    List.Forall₂ (fun A B => B.ph = { A.ph with n := B.pts.length } ∧
      B.pts = A.pts.filter fun mp => decide (c = true → q mp)) L L' := by
  rcases whenSet_ok h with ⟨hc, h⟩ | ⟨hc, rfl⟩
  · subst hc
    simpa using hf h
  · subst hc
    refine (forall₂_and_left (R := fun A B => A = B) (forall₂_refl (fun _ => rfl) L') hL).imp ?_
    rintro A B ⟨h, rfl⟩
    exact ⟨by rw [← h], by simp⟩

/-- What an inlet does when it is open, and that it does nothing when it is closed. -/
theorem inlets_enter {P : Par K} {d : Dyn K} {L L1 L2 : List (PhaseSt K ns)}
    (hr : P.B.inlet_right = true ∨ P.B.inlet_top = true → ∀ a ∈ L, 0 < a.ph.inlet_rate)
    (h1 : whenSet P.B.inlet_right (inletRight P d) L = .ok L1)
    (h2 : whenSet P.B.inlet_top (inletTop P d) L1 = .ok L2) :
    List.Forall₂ (fun A B => SamePhase A.ph B.ph ∧ ∃ new, Enter P d A.ph new ∧
      B.pts = A.pts ++ new) L L2 := by
  have r1 : List.Forall₂ (fun A B => B.ph = { A.ph with n := B.ph.n } ∧
      ∃ new : List (Particle K ns), B.pts = A.pts ++ new ∧
      (P.B.inlet_right = true ∧ d.t ≠ 0 ∧ onSchedule d.t d.dt A.ph.inlet_rate →
        List.Forall₂ (NewPoint P A.ph d.g (P.G.x_M - A.ph.gap 0)) A.ph.yp new) ∧
      (¬ (P.B.inlet_right = true ∧ d.t ≠ 0 ∧ onSchedule d.t d.dt A.ph.inlet_rate) → new = []))
      L L1 := by
    rcases whenSet_ok h1 with ⟨hc, h⟩ | ⟨hc, rfl⟩
    · refine (c28_right (hr (Or.inl hc)) h).imp ?_
      rintro A B ⟨k1, k2⟩
      by_cases ho : d.t ≠ 0 ∧ onSchedule d.t d.dt A.ph.inlet_rate
      · obtain ⟨new, e1, e2, hn⟩ := k1 ho
        exact ⟨by rw [e2], new, e1, fun _ => hn, fun h => absurd ⟨hc, ho⟩ h⟩
      · rw [k2 ho]
        exact ⟨rfl, [], by simp, fun h => absurd h.2 ho, fun _ => rfl⟩
    · refine forall₂_refl (fun A => ⟨rfl, [], by simp, fun h => ?_, fun _ => rfl⟩) L1
      simp [hc] at h
  have hr1 : P.B.inlet_top = true → ∀ a ∈ L1, 0 < a.ph.inlet_rate := by
    intro ht b hb
    obtain ⟨a, ha, hab⟩ := forall₂_right r1 hb
    rw [hab.1]
    exact hr (Or.inr ht) a ha
  have r2 : List.Forall₂ (fun A B => B.ph = { A.ph with n := B.ph.n } ∧
      ∃ new : List (Particle K ns), B.pts = A.pts ++ new ∧
      (P.B.inlet_top = true ∧ d.t ≠ 0 ∧ onSchedule d.t d.dt A.ph.inlet_rate →
        ∃ b, new = [b] ∧
          NewPoint P A.ph d.g ((P.G.x_M - P.G.x_m) / 2) (P.G.y_M - A.ph.gap 1) b) ∧
      (¬ (P.B.inlet_top = true ∧ d.t ≠ 0 ∧ onSchedule d.t d.dt A.ph.inlet_rate) → new = []))
      L1 L2 := by
    rcases whenSet_ok h2 with ⟨hc, h⟩ | ⟨hc, rfl⟩
    · refine (c28_top (hr1 hc) h).imp ?_
      rintro A B ⟨k1, k2⟩
      by_cases ho : d.t ≠ 0 ∧ onSchedule d.t d.dt A.ph.inlet_rate
      · obtain ⟨b, e1, e2, hn⟩ := k1 ho
        exact ⟨by rw [e2], [b], e1, fun _ => ⟨b, rfl, hn⟩, fun h => absurd ⟨hc, ho⟩ h⟩
      · rw [k2 ho]
        exact ⟨rfl, [], by simp, fun h => absurd h.2 ho, fun _ => rfl⟩
    · refine forall₂_refl (fun A => ⟨rfl, [], by simp, fun h => ?_, fun _ => rfl⟩) L2
      simp [hc] at h
  refine (forall₂_comp r1 r2).imp ?_
  rintro A C ⟨B, ⟨e1, right, p1, a1, b1⟩, ⟨e2, top, p2, a2, b2⟩⟩
  have hs : SamePhase A.ph B.ph := by unfold SamePhase; rw [e1]
  have hs2 : SamePhase B.ph C.ph := by unfold SamePhase; rw [e2]
  refine ⟨hs.trans hs2, right ++ top, ⟨right, top, rfl, a1, b1, ?_, ?_⟩,
    by rw [p2, p1, List.append_assoc]⟩
  · intro h
    have e : A.ph.inlet_rate = B.ph.inlet_rate := by rw [e1]
    rw [e] at h
    obtain ⟨b, eb, hb⟩ := a2 h
    refine ⟨b, eb, ?_⟩
    have := hs.newPoint hb
    rw [e1] at this
    exact this
  · intro h
    have e : A.ph.inlet_rate = B.ph.inlet_rate := by rw [e1]
    rw [e] at h
    exact b2 h

/-! ## C116 -/

/-- In every step the points of a phase are moved; those past an open outlet are deleted; the
new ones are appended; and all are taken around. The counter is right at the end. -/
theorem c116_step {P : Par K} (hP : GoodGrid P.G) {interp : Interp K P.G.N} {s s' : St P}
    (hL : Counted s.L) (hG : Geometry P.G s.G)
    (hr : P.B.inlet_right = true ∨ P.B.inlet_top = true → ∀ a ∈ s.L, 0 < a.ph.inlet_rate)
    (h : timeMarch P interp s = .ok s') :
    s'.dyn.t = s.dyn.t ∧ s'.dyn.dt = s.dyn.dt ∧
    List.Forall₂ (fun A B => SamePhase A.ph B.ph ∧ B.ph.n = B.pts.length ∧
      ∃ moved, List.Forall₂ (fun a e => Goes P s.dyn.dt s'.G A.ph a.x e.x) A.pts moved ∧
        Ends P s'.dyn A.ph moved B.pts) s.L s'.L := by
  have hc := timeMarch_counted hL h
  obtain ⟨s1, s2, s3, h1, h2, h3, h4⟩ := timeMarch_ok h
  obtain ⟨T, e1⟩ := gridPhase_ok h1
  have ra := mapPoints_idx hL T.ha
  have ca := ra.counted hL
  have rb := mapPoints_idx ca T.hb
  have cb := rb.counted ca
  have rc := mapPoints_idx cb T.hc
  have cc := rc.counted cb
  have rd := updateStressStrain_idx cc T.hLd
  have cd := rd.counted cc
  have em : mat0 T.Lc = mat0 s.L := by rw [rc.rel.mat0, rb.rel.mat0, ra.rel.mat0]
  obtain ⟨d2, l2, -⟩ := momentumPhase_table h2
  have l2' : s2.L = T.Ld := by rw [l2, e1]
  have c2 : Counted s2.L := by rw [l2']; exact cd
  have re := (segregationPhase_rel c2 h3).idx
  have ce := re.counted c2
  rw [l2'] at re
  have R := (((ra.comp rb).comp rc).comp rd).comp re
  have d3 : s3.dyn = T.d := by rw [(segregationPhase_frame h3).1, d2, e1]
  have hd : T.d.dt = s.dyn.dt := by rw [T.hd]; rfl
  have ht : T.d.t = s.dyn.t := by rw [T.hd]; rfl
  obtain ⟨e4, g4'⟩ := pointsPhase_frame h4
  refine ⟨by rw [e4, d3, ht], by rw [e4, d3, hd], ?_⟩
  unfold pointsPhase at h4
  obtain ⟨L1, k1, h4⟩ := res_bind_ok.1 h4
  obtain ⟨L2, k2, h4⟩ := res_bind_ok.1 h4
  obtain ⟨L3, k3, h4⟩ := res_bind_ok.1 h4
  obtain ⟨L4, k4, h4⟩ := res_bind_ok.1 h4
  obtain ⟨L5, k5, h4⟩ := res_bind_ok.1 h4
  obtain ⟨L6, k6, h4⟩ := res_bind_ok.1 h4
  have es : s'.L = L6 := by rw [← Except.ok.inj h4]
  have rm := movePoints_rel ce k1
  have c1 : Counted L1 := by
    intro B hB
    obtain ⟨A, hA, hr⟩ := forall₂_right rm hB
    rw [hr.1, ← hr.2.1.length_eq]
    exact ce A hA
  have q2 := filter_when (q := fun mp : Particle K P.G.ns => P.G.x_m + P.G.dx ≤ mp.x 0) (fun h => by
    obtain ⟨L', h', -, hr⟩ := c26_outlet_left P.G c1
    rw [h, Except.ok.injEq] at h'
    rw [h']; exact hr) k2 c1
  have c2' : Counted L2 := by
    intro B hB
    obtain ⟨A, hA, hr⟩ := forall₂_right q2 hB
    rw [hr.1]
  have q3 := filter_when (q := fun mp : Particle K P.G.ns => P.G.y_m ≤ mp.x 1) (fun h => by
    obtain ⟨L', h', -, hr⟩ := c25_outlet_bottom P.G c2'
    rw [h, Except.ok.injEq] at h'
    rw [h']; exact hr) k3 c2'
  have RM := (IdxRel.comp R (.of_forall₂ rm)).comp ((IdxRel.of_forall₂ q2).comp (.of_forall₂ q3))
  have hr3 : P.B.inlet_right = true ∨ P.B.inlet_top = true → ∀ a ∈ L3, 0 < a.ph.inlet_rate := by
    intro hi b hb
    obtain ⟨i, hb⟩ := List.getElem?_of_mem hb
    obtain ⟨a, ha, C, ⟨D, ⟨eD, -⟩, ⟨eC, -⟩⟩, ⟨E, ⟨eE, -⟩, ⟨eb, -⟩⟩⟩ := RM.left hb
    rw [eb, eE, eC, eD]
    exact hr hi a (List.mem_of_getElem? ha)
  have q5 := inlets_enter hr3 k4 k5
  have c3 : Counted L3 := by
    intro B hB
    obtain ⟨A, hA, hr⟩ := forall₂_right q3 hB
    rw [hr.1]
  have t4 : Turnover True True (Made P s3.dyn.g) L3 L4 :=
    whenSet_turnover c3 (fun _ h => inletRight_turnover trivial c3 h) k4
  have t5 : Turnover True True (Made P s3.dyn.g) L4 L5 :=
    whenSet_turnover t4.counted (fun _ h => inletTop_turnover trivial t4.counted h) k5
  have tc : Counted L5 := t5.counted
  have r6 := cyclicLR_rel tc k6
  have RR := ((RM.comp (.of_forall₂ q5)).comp (.of_forall₂ r6)).and_right (p := fun B => B.ph.n = B.pts.length)
    (by rw [← es]; exact hc)
  rw [es]
  refine RR.forall₂ ?_
  rintro p A F ⟨hF, E, ⟨D, ⟨C, ⟨B, ⟨eB, rB⟩, ⟨eC, rC, -⟩⟩, ⟨C', ⟨e2, f2⟩, ⟨e3, f3⟩⟩⟩,
    ⟨sE, new, hn, hE⟩⟩, ⟨eF, rF⟩⟩
  have sC : SamePhase A.ph C.ph := by unfold SamePhase; rw [eC, eB]
  have sD : SamePhase A.ph D.ph := by
    have : SamePhase C.ph D.ph := by unfold SamePhase; rw [e3, e2]
    exact sC.trans this
  have key : ∀ ph : Phase K P.G.ns, SamePhase A.ph ph → Enter P s3.dyn ph new →
      Enter P s3.dyn A.ph new := by
    intro ph hs hn
    unfold SamePhase at hs
    rw [hs] at hn
    exact hn
  refine ⟨?_, hF, C.pts, ?_, new, ?_, ?_⟩
  · rw [eF]; exact sD.trans sE
  · refine (forall₂_comp rB rC).imp ?_
    rintro a e ⟨c, ⟨a4, ⟨a3, ⟨a2, ⟨a1, g1, g2⟩, g3⟩, ⟨vis, vis', g4⟩⟩, g5⟩, mv⟩
    rw [em] at g4
    rw [eB, d3, hd, ← g4'] at mv
    cases g1
    obtain ⟨hx, hl⟩ := going_parts g2 g3 g4 g5
    exact moveStep_goes hP hx (hl hP (Mpm.Geometry.wipe hG)) mv
  · rw [e4]
    exact key _ sD hn
  · have ef : D.pts = C.pts.filter fun e => decide (Remains P e.x) := by
      rw [f3, f2, List.filter_filter]
      refine List.filter_congr fun mp _ => ?_
      rw [Bool.eq_iff_iff, Bool.and_eq_true, decide_eq_true_iff, decide_eq_true_iff,
        decide_eq_true_iff]
      exact and_comm
    rw [← ef, ← hE]
    refine rF.imp ?_
    rintro a b rfl
    exact wrapped_around P hP a

/-- With an open bottom outlet, and inlets that lie above the bottom, no point is below the
bottom after a step. -/
theorem c116_bottom {P : Par K} (hP : GoodGrid P.G) {interp : Interp K P.G.N} {s s' : St P}
    (hL : Counted s.L) (hG : Geometry P.G s.G)
    (hr : P.B.inlet_right = true ∨ P.B.inlet_top = true → ∀ a ∈ s.L, 0 < a.ph.inlet_rate)
    (ho : P.B.outlet_bottom = true)
    (hi : ∀ a ∈ s.L, (∀ y ∈ a.ph.yp, P.G.y_m ≤ y) ∧ P.G.y_m ≤ P.G.y_M - a.ph.gap 1)
    (h : timeMarch P interp s = .ok s') : ∀ mp ∈ points s'.L, P.G.y_m ≤ mp.x 1 := by
  obtain ⟨-, -, hR⟩ := c116_step hP hL hG hr h
  intro b hb
  obtain ⟨B, hB, hb⟩ := List.mem_flatMap.1 hb
  obtain ⟨A, hA, -, -, moved, -, new, hn, hE⟩ := forall₂_right hR hB
  obtain ⟨e, he, -, hw, -⟩ := forall₂_right hE hb
  rw [hw]
  rcases List.mem_append.1 he with he | he
  · exact (of_decide_eq_true (List.mem_filter.1 he).2 : Remains P e.x).2 ho
  · obtain ⟨right, top, rfl, k1, k2, k3, k4⟩ := hn
    rcases List.mem_append.1 he with he | he
    · by_cases hc : P.B.inlet_right = true ∧ s'.dyn.t ≠ 0 ∧
          onSchedule s'.dyn.t s'.dyn.dt A.ph.inlet_rate
      · obtain ⟨y, hy, hN⟩ := forall₂_right (k1 hc) he
        rw [hN.1]
        exact (hi A hA).1 y hy
      · rw [k2 hc] at he
        exact absurd he (by simp)
    · by_cases hc : P.B.inlet_top = true ∧ s'.dyn.t ≠ 0 ∧
          onSchedule s'.dyn.t s'.dyn.dt A.ph.inlet_rate
      · obtain ⟨b', e', hN⟩ := k3 hc
        rw [e', List.mem_singleton] at he
        rw [he, hN.1]
        exact (hi A hA).2
      · rw [k4 hc] at he
        exact absurd he (by simp)

/-- With an open left outlet, sides that are not joined and closed inlets, no point is left of
`x_m + dx` after a step. -/
theorem c116_left {P : Par K} (hP : GoodGrid P.G) {interp : Interp K P.G.N} {s s' : St P}
    (hL : Counted s.L) (hG : Geometry P.G s.G) (hr : P.B.inlet_right = false)
    (ht : P.B.inlet_top = false) (hc : P.B.cyclic_lr = false) (ho : P.B.outlet_left = true)
    (h : timeMarch P interp s = .ok s') : ∀ mp ∈ points s'.L, P.G.x_m + P.G.dx ≤ mp.x 0 := by
  obtain ⟨-, -, hR⟩ := c116_step hP hL hG (by simp [hr, ht]) h
  intro b hb
  obtain ⟨B, hB, hb⟩ := List.mem_flatMap.1 hb
  obtain ⟨A, hA, -, -, moved, -, new, hn, hE⟩ := forall₂_right hR hB
  obtain ⟨e, he, -, -, -, hw, -⟩ := forall₂_right hE hb
  rw [hw hc]
  rcases List.mem_append.1 he with he | he
  · exact (of_decide_eq_true (List.mem_filter.1 he).2 : Remains P e.x).1 ho
  · obtain ⟨right, top, rfl, -, k2, -, k4⟩ := hn
    rw [k2 (by simp [hr]), k4 (by simp [ht])] at he
    exact absurd he (by simp)

end

/-! ## The hypotheses can be met -/

/-- Both outlets and the right inlet are open and the sides are joined; rigid points move down
and to the left. -/
def Ex.drainPar : Par ℚ :=
  { Ex.par with
    B := { Ex.bp with outlet_left := true, outlet_bottom := true, inlet_right := true
                      cyclic_lr := true }
    intruder_v := ![-25, -50, 0] }

def Ex.drainL : List (PhaseSt ℚ 2) :=
  [{ ph := { Ex.ph with law := .rigid, n := 3, inlet_rate := 1/100, gap := ![-1/4, 0], yp := [-1] }
     pts := [Ex.mp, Ex.mp2, { Ex.mp2 with x := ![3/2, 5/4, 0] }] }]

def Ex.drainDyn : Dyn ℚ := { Ex.dyn with t := 1/50 }

/-- All hypotheses of `c116_step` are met in a step in which one point is deleted at the left,
one at the bottom, one stays and one is added. The new one is not tested: it is below the bottom
and, once taken around, left of the left outlet. -/
example : ∃ s s' : St Ex.drainPar, Counted s.L ∧ Geometry Ex.drainPar.G s.G ∧
    (∀ a ∈ s.L, 0 < a.ph.inlet_rate) ∧ timeMarch Ex.drainPar (Ex.noInterp _) s = .ok s' ∧
    (points s.L).map (fun mp => (mp.x 0, mp.x 1)) = [(1/2, 5/4), (3/2, 1/4), (3/2, 5/4)] ∧
    (points s'.L).map (fun mp => (mp.x 0, mp.x 1)) = [(5/4, 3/4), (1/4, -1)] := by
  obtain ⟨G, s', hG, hs, hc⟩ := Ex.run_one (P := Ex.drainPar) (d := Ex.drainDyn) (L := Ex.drainL)
    (check := fun s => decide ((points s.L).map (fun mp => (mp.x 0, mp.x 1)) =
      [(5/4, 3/4), (1/4, -1)])) (by decide +kernel)
  exact ⟨{ dyn := Ex.drainDyn, L := Ex.drainL, G := G }, s',
    by intro a ha; rw [List.mem_singleton.1 ha]; rfl, mkGrid_geometry hG,
    by intro a ha; rw [List.mem_singleton.1 ha]; decide +kernel, hs,
    (by decide +kernel : (points Ex.drainL).map (fun mp => (mp.x 0, mp.x 1)) =
      [(1/2, 5/4), (3/2, 1/4), (3/2, 5/4)]), of_decide_eq_true hc⟩

/-- Those of `c116_bottom` and `c116_left`, with one point deleted at each outlet. -/
def Ex.drainPar2 : Par ℚ :=
  { Ex.drainPar with B := { Ex.bp with outlet_left := true, outlet_bottom := true } }

example : ∃ s s' : St Ex.drainPar2, Counted s.L ∧ Geometry Ex.drainPar2.G s.G ∧
    (∀ a ∈ s.L, (∀ y ∈ a.ph.yp, Ex.drainPar2.G.y_m ≤ y) ∧
      Ex.drainPar2.G.y_m ≤ Ex.drainPar2.G.y_M - a.ph.gap 1) ∧
    timeMarch Ex.drainPar2 (Ex.noInterp _) s = .ok s' ∧
    (points s.L).length = 3 ∧ (points s'.L).length = 1 := by
  obtain ⟨G, s', hG, hs, hc⟩ := Ex.run_one (P := Ex.drainPar2) (d := Ex.drainDyn)
    (L := [{ ph := { Ex.ph with law := .rigid, n := 3 }
             pts := [Ex.mp, Ex.mp2, { Ex.mp2 with x := ![3/2, 5/4, 0] }] }])
    (check := fun s => decide ((points s.L).length = 1)) (by decide +kernel)
  exact ⟨{ dyn := Ex.drainDyn, L := _, G := G }, s',
    by intro a ha; rw [List.mem_singleton.1 ha]; rfl, mkGrid_geometry hG,
    by intro a ha; rw [List.mem_singleton.1 ha]; decide +kernel, hs, rfl, of_decide_eq_true hc⟩

end Mpm

import Verif.Model.FloatWhole
import Verif.Props.FloatInit
import Verif.Props.FloatSize

/-!
# C152: one model with rounding for all time steps

Without rounding, and with the increments of the exact scheme, steps and runs with every law, boundary and kind of
new point, with or without segregation, are those of the exact model.  With rounding the statements on walls and on
the fractions hold for them all.
-/

set_option linter.unusedSectionVars false

namespace Mpm
open Spec

section
variable {K : Type} [Field K] [LinearOrder K] [IsStrictOrderedRing K] [FloorRing K]
  {rnd : K → K} {u : K} {P : Par K}

theorem whole_gridPhase (interp : Interp K P.G.N)
    (inc : St P → Res ((Fin P.G.N → Fin P.G.ns → K) × (Fin P.G.N → K))) (s : St P) :
    gridPhaseR id (Besides.whole id P inc) s = gridPhase P s := by
  have hf : (Besides.whole id P inc).fractions = (Besides.exact P interp).fractions := by
    funext G
    show (let H := G.nodalFractionsR id P.ops.big P.G.s; (H.phi, H.s_bar, H.pk)) = _
    rw [nodalFractionsR_id]
    rfl
  have h1 : (Besides.whole id P inc).stress = (Besides.every id P).stress := rfl
  have h2 : (Besides.whole id P inc).visCyclic = (Besides.every id P).visCyclic := rfl
  have h3 : (Besides.every id P).visCyclic = (Besides.exact P interp).visCyclic := by
    funext vis v
    show (if v ∈ cyclicVis then fun i => XF.rd id (makeCyclic (vis v) i) else vis v) =
      if v ∈ cyclicVis then makeCyclic (vis v) else vis v
    simp only [XF.rd_id]
  have hm : ∀ L G, getNodalMassMomentumR id (Besides.whole id P inc) L G =
      getNodalMassMomentumR id (Besides.exact P interp) L G := by
    intro L G
    unfold getNodalMassMomentumR
    rw [hf]
  have hst : ∀ d L G, updateStressStrainR id (Besides.whole id P inc) d L G =
      updateStressStrainR id (Besides.exact P interp) d L G := by
    intro d L G
    unfold updateStressStrainR
    rw [h1, h2, h3, every_stress_exact interp]
  rw [← gridPhaseR_id P interp]
  unfold gridPhaseR
  simp only [hm, hst]

theorem whole_pointsPhase (interp : Interp K P.G.N)
    (inc : St P → Res ((Fin P.G.N → Fin P.G.ns → K) × (Fin P.G.N → K))) (s : St P) :
    pointsPhaseR id (Besides.whole id P inc) s = pointsPhase P s := by
  have hpt : (Besides.whole id P inc).point = (Besides.exact P interp).point := by
    funext S0 ph g x y
    exact c151_constructor P S0 ph g x y none
  have a : ∀ S0 g x y a, appendPointR (Besides.whole id P inc) S0 g x y a =
      appendPointR (Besides.exact P interp) S0 g x y a := by
    intro S0 g x y a
    unfold appendPointR
    rw [hpt]
  have e2 : inletRightR id (Besides.whole id P inc) = inletRightR id (Besides.exact P interp) := by
    funext d L
    unfold inletRightR
    simp only [a]
  have e3 : inletTopR id (Besides.whole id P inc) = inletTopR id (Besides.exact P interp) := by
    funext d L
    unfold inletTopR
    simp only [a]
  rw [← pointsPhaseR_id P interp]
  unfold pointsPhaseR
  rw [e2, e3]

/-- What of a grid the motion of the points and the next step read. -/
theorem pointsPhase_grids {d : Dyn K} {L : List (PhaseSt K P.G.ns)} {G G' : Grid K P.G.N P.G.ns}
    (e : ∀ iv, movePoints P.G.nx P.M_tol d.dt iv G L = movePoints P.G.nx P.M_tol d.dt iv G' L)
    (w : G.wipe = G'.wipe) :
    (pointsPhase P { dyn := d, L := L, G := G }).map (fun s => (s.dyn, s.L, s.G.wipe)) =
      (pointsPhase P { dyn := d, L := L, G := G' }).map fun s => (s.dyn, s.L, s.G.wipe) := by
  have key : ∀ M : List (PhaseSt K P.G.ns), (d, M, G.wipe) = (d, M, G'.wipe) := fun M => by rw [w]
  unfold pointsPhase
  dsimp only
  rw [e]
  rcases movePoints P.G.nx P.M_tol d.dt P.intruder_v G' L with _ | L
  · rfl
  dsimp only [Bind.bind, Except.bind]
  rcases whenSet P.B.outlet_left (outletLeft P.G) L with _ | L
  · rfl
  dsimp only
  rcases whenSet P.B.outlet_bottom (outletBottom P.G) L with _ | L
  · rfl
  dsimp only
  rcases whenSet P.B.inlet_right (inletRight P d) L with _ | L
  · rfl
  dsimp only
  rcases whenSet P.B.inlet_top (inletTop P d) L with _ | L
  · rfl
  dsimp only
  rcases whenSet P.B.cyclic_lr (cyclicLR P.G) L with _ | L
  · rfl
  · exact congrArg Except.ok (key L)

theorem whole_step (interp : Interp K P.G.N) (s : St P) :
    (timeMarch P interp s).map (fun s => (s.dyn, s.L, s.G.wipe)) =
      (timeMarchR id (Besides.whole id P (schemeInc P interp)) s).map fun s => (s.dyn, s.L, s.G.wipe) := by
  have hg := whole_gridPhase interp (schemeInc P interp) s
  have hp := whole_pointsPhase interp (schemeInc P interp)
  rw [← c138_exact P interp]
  unfold timeMarchR
  rw [hg, gridPhaseR_id]
  rcases gridPhase P s with _ | s1
  · rfl
  dsimp only [Bind.bind, Except.bind]
  rcases momentumPhaseR id s1 with _ | s2
  · rfl
  dsimp only
  have l1 : (Besides.whole id P (schemeInc P interp)).late s2 = if P.segregate_grid then
      (schemeInc P interp s2 >>= fun i => moveGrainsize P { s2.G with dphi := i.1, dpk := i.2 } s2.L >>= fun L =>
        .ok { s2 with L := L, G := { s2.G with dphi := i.1, dpk := i.2 } }) else .ok s2 := by
    simp only [← moveGrainsizeR_id]
    rfl
  have l2 : (Besides.exact P interp).late s2 =
      segregationPhase P interp { s2 with G := s2.G.calcGammadot interp P.ops.big P.M_tol } := rfl
  have l3 : schemeInc P interp s2 = if P.G.dx = 0 ∨ P.G.dy = 0 then .error .nonFinite
      else
        let rho_s := ((mat0 s2.L).map (·.rho_s)).getD 0
        let G := (s2.G.calcGammadot interp P.ops.big P.M_tol).updatePk interp P.ops P.M_tol rho_s
        .ok (phiIncrement P s2.dyn.dt rho_s P.G.s G, G.dpk) := rfl
  rw [l1, l2, l3]
  unfold segregationPhase
  by_cases hs : P.segregate_grid = true
  · rw [if_pos hs, if_pos hs]
    by_cases h0 : P.G.dx = 0 ∨ P.G.dy = 0
    · rw [if_pos h0, if_pos h0]; rfl
    rw [if_neg h0, if_neg h0]
    dsimp only [Bind.bind, Except.bind]
    generalize ((mat0 s2.L).map (·.rho_s)).getD 0 = r
    rw [show moveGrainsize P { s2.G with
        dphi := phiIncrement P s2.dyn.dt r P.G.s
          ((s2.G.calcGammadot interp P.ops.big P.M_tol).updatePk interp P.ops P.M_tol r)
        dpk := ((s2.G.calcGammadot interp P.ops.big P.M_tol).updatePk interp P.ops P.M_tol r).dpk } s2.L =
      moveGrainsize P { (s2.G.calcGammadot interp P.ops.big P.M_tol).updatePk interp P.ops P.M_tol r with
        dphi := phiIncrement P s2.dyn.dt r P.G.s
          ((s2.G.calcGammadot interp P.ops.big P.M_tol).updatePk interp P.ops P.M_tol r) } s2.L from rfl]
    rcases moveGrainsize P { (s2.G.calcGammadot interp P.ops.big P.M_tol).updatePk interp P.ops P.M_tol r with
        dphi := phiIncrement P s2.dyn.dt r P.G.s
          ((s2.G.calcGammadot interp P.ops.big P.M_tol).updatePk interp P.ops P.M_tol r) } s2.L with _ | L
    · rfl
    dsimp only [pure, Except.pure]
    rw [hp, pointsPhaseR_id]
    exact pointsPhase_grids (fun _ => rfl) rfl
  · rw [if_neg hs, if_neg hs]
    dsimp only [pure, Except.pure]
    rw [hp, pointsPhaseR_id]
    exact pointsPhase_grids (fun _ => rfl) rfl

theorem run_of_alike {interp : Interp K P.G.N} {E : Besides P}
    (hE : ∀ s : St P, (timeMarch P interp s).map (fun s => (s.dyn, s.L, s.G.wipe)) =
      (timeMarchR id E s).map fun s => (s.dyn, s.L, s.G.wipe)) (s t : St P) (n : ℕ)
    (hd : s.dyn = t.dyn) (hL : s.L = t.L) (hG : s.G.wipe = t.G.wipe) :
    (steps P interp n s).map (fun s => (s.dyn, s.L)) = (stepsR id E n t).map fun s => (s.dyn, s.L) := by
  induction n generalizing s t with
  | zero => exact congrArg Except.ok (Prod.ext hd hL)
  | succ n ih =>
    have e : timeMarch P interp s = timeMarch P interp t := by
      have e : gridPhase P s = gridPhase P t := by
        unfold gridPhase
        rw [hG, hd, hL]
      unfold timeMarch
      rw [e]
    have h := hE t
    rw [← e] at h
    unfold steps stepsR
    rcases h1 : timeMarch P interp s with e1 | s1 <;> rcases h2 : timeMarchR id E t with e2 | t1 <;>
      rw [h1, h2] at h
    · exact congrArg Except.error (Except.error.inj h)
    · cases h
    · cases h
    · have h := Except.ok.inj h
      have hd : s1.dyn = t1.dyn := congrArg Prod.fst h
      have hL : s1.L = t1.L := congrArg (fun x => x.2.1) h
      have hG : s1.G.wipe = t1.G.wipe := congrArg (fun x => x.2.2) h
      refine ih (stepTime P s1) (stepTimeR id P t1) ?_ hL hG
      unfold stepTime stepTimeR
      rw [hd]
      rfl

/-- C152.  Without rounding and with the increments of the exact scheme, one step is that of the exact model for
every parameter set: whatever laws, boundaries and kinds of new points, with or without segregation, it fails in
the same way or ends with the same points at the same time. -/
theorem c152_exact (interp : Interp K P.G.N) (s : St P) :
    (timeMarch P interp s).map (fun s => (s.dyn, s.L)) =
      (timeMarchR id (Besides.whole id P (schemeInc P interp)) s).map fun s => (s.dyn, s.L) := by
  have h := congrArg (Except.map fun x => (x.1, x.2.1)) (whole_step interp s)
  rcases h1 : timeMarch P interp s with e | s1 <;>
    rcases h2 : timeMarchR id (Besides.whole id P (schemeInc P interp)) s with f | t1 <;> rw [h1, h2] at h <;>
    exact h

/-- C152.  And so are whole runs. -/
theorem c152_run (interp : Interp K P.G.N) (s : St P) (n : ℕ) :
    (steps P interp n s).map (fun s => (s.dyn, s.L)) =
      (stepsR id (Besides.whole id P (schemeInc P interp)) n s).map fun s => (s.dyn, s.L) :=
  run_of_alike (whole_step interp) s s n rfl rfl rfl

/-! ## With rounding -/

theorem pointsPhaseR_grid {E : Besides P} {s s' : St P} (h : pointsPhaseR rnd E s = .ok s') : s'.G = s.G := by
  unfold pointsPhaseR at h
  obtain ⟨_, -, h⟩ := res_bind_ok.1 h
  obtain ⟨_, -, h⟩ := res_bind_ok.1 h
  obtain ⟨_, -, h⟩ := res_bind_ok.1 h
  obtain ⟨_, -, h⟩ := res_bind_ok.1 h
  obtain ⟨_, -, h⟩ := res_bind_ok.1 h
  obtain ⟨_, -, h⟩ := res_bind_ok.1 h
  cases h
  rfl

/-- The last part of a step before the points move, on the grid. -/
theorem whole_late {inc : St P → Res ((Fin P.G.N → Fin P.G.ns → K) × (Fin P.G.N → K))} {s s' : St P}
    (h : (Besides.whole rnd P inc).late s = .ok s') : ∃ a b, s'.G = { s.G with dphi := a, dpk := b } := by
  change (if P.segregate_grid then _ else _) = _ at h
  split at h
  · obtain ⟨⟨dphi, dpk⟩, -, h⟩ := res_bind_ok.1 h
    dsimp only at h
    obtain ⟨L, -, h⟩ := res_bind_ok.1 h
    cases h
    exact ⟨_, _, rfl⟩
  · cases h
    exact ⟨s.G.dphi, s.G.dpk, rfl⟩

/-- A field of a grid from an equation for the grid. -/
local macro "field " f:ident e:ident : term => `(by have h := congrArg $f $e; exact h)

theorem whole_wall {inc : St P → Res ((Fin P.G.N → Fin P.G.ns → K) × (Fin P.G.N → K))} (z : rnd 0 = 0)
    {s s' : St P} (hc : P.B.cyclic_lr = false) (h : timeMarchR rnd (Besides.whole rnd P inc) s = .ok s')
    (i : Fin P.G.N) :
    (s.G.boundary_v i = true → s'.G.boundary_v i = true ∧
      ((P.B.conveyor = true → s.G.boundary_conveyor i = false) →
        s'.G.q_dot i 0 = 0 ∧ s'.G.q i 0 = 0)) ∧
    (s.G.boundary_h i = true → s'.G.boundary_h i = true ∧ s'.G.q_dot i 1 = 0 ∧ s'.G.q i 1 = 0) ∧
    s'.G.boundary_conveyor i = s.G.boundary_conveyor i := by
  unfold timeMarchR at h
  obtain ⟨s1, h1, h⟩ := res_bind_ok.1 h
  obtain ⟨s2, h2, h⟩ := res_bind_ok.1 h
  obtain ⟨s3, h3, hp⟩ := res_bind_ok.1 h
  obtain ⟨T, rfl⟩ := gridPhaseR_ok h1
  unfold momentumPhaseR at h2
  obtain ⟨H, hH, h2⟩ := res_bind_ok.1 h2
  cases h2
  obtain ⟨x, y, hG⟩ := whole_late h3
  have e' : s'.G = s3.G := pointsPhaseR_grid hp
  rw [e', hG]
  dsimp only
  -- momenta and flags up to the update
  have hGa := T.hGa
  unfold getNodalMassMomentumR at hGa
  obtain ⟨G1, p1, hGa⟩ := res_bind_ok.1 hGa
  have e0 := p2gAllR_frame p1
  have hGa := Except.ok.inj hGa
  have eb : T.Gb = T.Ga := by rw [T.hGb, hc, if_neg (by decide)]
  have e2 := updateStressStrainR_grid T.hLd
  have e3 := getNodalForcesR_frame T.hGd
  have e4 := BCsR_frame hH
  have f1 : G1.boundary_v = s.G.boundary_v := field Grid.boundary_v e0
  have f2 : G1.boundary_h = s.G.boundary_h := field Grid.boundary_h e0
  have f3 : G1.boundary_conveyor = s.G.boundary_conveyor := field Grid.boundary_conveyor e0
  have q1 : H.q = T.Gb.q := Eq.trans (b := T.Gd.q) (field Grid.q e4) (Eq.trans (b := T.Gc.q)
    (field Grid.q e3) (field Grid.q e2))
  have q2 : H.boundary_v = T.Gb.boundary_v := Eq.trans (b := T.Gd.boundary_v) (field Grid.boundary_v e4)
    (Eq.trans (b := T.Gc.boundary_v) (field Grid.boundary_v e3) (field Grid.boundary_v e2))
  have q3 : H.boundary_h = T.Gb.boundary_h := Eq.trans (b := T.Gd.boundary_h) (field Grid.boundary_h e4)
    (Eq.trans (b := T.Gc.boundary_h) (field Grid.boundary_h e3) (field Grid.boundary_h e2))
  have q4 : H.boundary_conveyor = T.Gb.boundary_conveyor :=
    Eq.trans (b := T.Gd.boundary_conveyor) (field Grid.boundary_conveyor e4)
    (Eq.trans (b := T.Gc.boundary_conveyor) (field Grid.boundary_conveyor e3) (field Grid.boundary_conveyor e2))
  rw [eb, ← hGa] at q1 q2 q3 q4
  have q2 : H.boundary_v = s.G.boundary_v := by rw [q2, ← f1]; split <;> rfl
  have q3 : H.boundary_h = s.G.boundary_h := by rw [q3, ← f2]; split <;> rfl
  have q4 : H.boundary_conveyor = s.G.boundary_conveyor := by rw [q4, ← f3]; split <;> rfl
  obtain ⟨w1, w2⟩ := c138_walls z (B := P.B) P.damping T.d.dt P.v_0 H i
  refine ⟨fun hb => ?_, fun hb => ?_, ?_⟩
  · have hb' : H.boundary_v i = true := by rw [q2, hb]
    refine ⟨?_, fun hv => w1 hb' ?_ fun h => by rw [q4]; exact hv h⟩
    · unfold Grid.updateMomentumR
      dsimp only
      split_ifs <;> simp [hb']
    · rw [q1]
      unfold Grid.zeroBoundaryMomentum
      split <;> cases P.B.roughness <;> simp [f1, hb, maskOff]
  · have hb' : H.boundary_h i = true := by rw [q3, hb]
    refine ⟨?_, w2 hb' ?_⟩
    · unfold Grid.updateMomentumR
      dsimp only
      split_ifs <;> simp [hb']
    · rw [q1]
      unfold Grid.zeroBoundaryMomentum
      split <;> cases P.B.roughness <;> simp [f2, hb, maskOff]
  · exact congrFun q4 i

/-- C152.  With rounding, nothing crosses a wall: neither with segregation, whatever its increments, nor with
points flowing in and out. -/
theorem c152_walls (z : rnd 0 = 0)
    (inc : St P → Res ((Fin P.G.N → Fin P.G.ns → K) × (Fin P.G.N → K))) {n : ℕ} {s s' : St P}
    (hc : P.B.cyclic_lr = false)
    (h : stepsR rnd (Besides.whole rnd P inc) (n + 1) s = .ok s') (i : Fin P.G.N) :
    (s.G.boundary_v i = true → (P.B.conveyor = true → s.G.boundary_conveyor i = false) →
      s'.G.q_dot i 0 = 0 ∧ s'.G.q i 0 = 0) ∧
    (s.G.boundary_h i = true → s'.G.q_dot i 1 = 0 ∧ s'.G.q i 1 = 0) := by
  induction n generalizing s with
  | zero =>
    obtain ⟨s1, h1, h⟩ := res_bind_ok.1 h
    cases h
    obtain ⟨w1, w2, -⟩ := whole_wall z hc h1 i
    exact ⟨fun hb hv => (w1 hb).2 hv, fun hb => (w2 hb).2⟩
  | succ n ih =>
    obtain ⟨s1, h1, h⟩ := res_bind_ok.1 h
    obtain ⟨w1, w2, w3⟩ := whole_wall z hc h1 i
    obtain ⟨i1, i2⟩ := ih (s := stepTimeR rnd P s1) h
    exact ⟨fun hb hv => i1 (w1 hb).1 fun h => w3.trans (hv h), fun hb => i2 (w2 hb).1⟩

/-- Fractions as they should be, and as they are stored. -/
def Spec.Stored (rnd : K → K) (u : K) {ns : ℕ} (phi : Fin ns → K) : Prop :=
  Fractions u (ns + 1) phi ∧ ∀ j, rnd (phi j) = phi j

/-- A phase whose points, and those it may still add, have such fractions. -/
def SortedPh (rnd : K → K) (u : K) {ns : ℕ} (a : PhaseSt K ns) : Prop :=
  a.ph.n = a.pts.length ∧ (∀ mp ∈ a.pts, Stored rnd u mp.phi) ∧ Stored rnd u a.ph.phi

theorem mapPhases_all {ns : ℕ} {S : PhaseSt K ns → Prop} {f : ℕ → PhaseSt K ns → Res (PhaseSt K ns)} {p0 : ℕ}
    {L L' : List (PhaseSt K ns)} (hf : ∀ p a a', S a → f p a = .ok a' → S a')
    (h : mapPhases f p0 L = .ok L') (hL : ∀ a ∈ L, S a) : ∀ a ∈ L', S a := by
  intro a' ha'
  obtain ⟨a, -, h⟩ := forall₂_mem_right
    (mapPhases_forall₂ (R := fun a a' => S a') (fun p a ha a' h => hf p a a' (hL a ha) h) h) ha'
  exact h

theorem whenSet_all {ns : ℕ} {S : PhaseSt K ns → Prop} {b : Bool}
    {f : List (PhaseSt K ns) → Res (List (PhaseSt K ns))} {L L' : List (PhaseSt K ns)}
    (hf : ∀ L', f L = .ok L' → ∀ a ∈ L', S a) (h : whenSet b f L = .ok L') (hL : ∀ a ∈ L, S a) :
    ∀ a ∈ L', S a := by
  unfold whenSet at h
  split at h
  · exact hf _ h
  · cases h; exact hL

theorem SortedPh.outlet {ns : ℕ} {test : Particle K ns → Bool} {a a' : PhaseSt K ns} (ha : SortedPh rnd u a)
    (h : (do
      let (n, l) ← outletLoop test a.ph.n (a.ph.n, a.pts)
      return { ph := { a.ph with n := n }, pts := l } : Res (PhaseSt K ns)) = .ok a') : SortedPh rnd u a' := by
  obtain ⟨h1, h2, h3⟩ := ha
  rw [h1, outletLoop_eq] at h
  cases h
  exact ⟨rfl, fun mp hmp => h2 mp (List.mem_of_mem_filter hmp), h3⟩

theorem SortedPh.add {inc : St P → Res ((Fin P.G.N → Fin P.G.ns → K) × (Fin P.G.N → K))}
    {S0 : First K} {g x y : K} {a a' : PhaseSt K P.G.ns} (ha : SortedPh rnd u a)
    (h : appendPointR (Besides.whole rnd P inc) S0 g x y a = .ok a') : SortedPh rnd u a' := by
  obtain ⟨h1, h2, h3⟩ := ha
  obtain ⟨mp, h4, h⟩ := res_bind_ok.1 h
  cases h
  have e : mp.phi = a.ph.phi := by
    change mkPointR rnd P S0 a.ph g x y none = _ at h4
    obtain ⟨⟨s, e⟩, -, h⟩ := res_bind_ok.1 h4
    obtain ⟨⟨v, gd, pk⟩, -, h⟩ := res_bind_ok.1 h
    cases h
    rfl
  refine ⟨by simp [h1], fun b hb => ?_, h3⟩
  rcases List.mem_append.1 hb with hb | hb
  · exact h2 b hb
  · rw [List.mem_singleton.1 hb, e]; exact h3

theorem SortedPh.move {ns N nx : ℕ} {M_tol dt : K} {iv : Vec K} {G : Grid K N ns}
    {L L' : List (PhaseSt K ns)} (hL : ∀ a ∈ L, SortedPh rnd u a)
    (h : movePointsR rnd nx M_tol dt iv G L = .ok L') : ∀ a ∈ L', SortedPh rnd u a := by
  have mem : ∀ {l l' : List (Particle K ns)}, List.Forall₂ (fun x y => y.phi = x.phi) l l' →
      (∀ b ∈ l, Stored rnd u b.phi) → ∀ b ∈ l', Stored rnd u b.phi := by
    intro l l' f hl b hb
    obtain ⟨c, hc, e⟩ := forall₂_mem_right f hb
    rw [e]
    exact hl c hc
  refine mapPhases_all ?_ h hL
  rintro p a a' ⟨h1, h2, h3⟩ h
  split at h
  · obtain ⟨pts, h4, h⟩ := res_bind_ok.1 h
    cases h
    have f := (mapN_forall₂ h1 h4).imp (S := fun x y => y.phi = x.phi) fun x y h => by cases h; rfl
    exact ⟨h1.trans f.length_eq, mem f h2, h3⟩
  · obtain ⟨⟨pts, iv'⟩, h4, h⟩ := res_bind_ok.1 h
    cases h
    rw [h1] at h4
    have f : List.Forall₂ (fun x y : Particle K ns => y.phi = x.phi) a.pts pts :=
      forN_forall₂ (fun x v y v' h => by obtain ⟨-, ⟨_, _, _, rfl⟩, -⟩ := c138_sum h; rfl) h4
    exact ⟨h1.trans f.length_eq, mem f h2, h3⟩

theorem SortedPh.adds {inc : St P → Res ((Fin P.G.N → Fin P.G.ns → K) × (Fin P.G.N → K))}
    {S0 : First K} {g : K} {x : PhaseSt K P.G.ns → K} (l : List K) {a a' : PhaseSt K P.G.ns} (ha : SortedPh rnd u a)
    (h : l.foldlM (fun a y => appendPointR (Besides.whole rnd P inc) S0 g (x a) y a) a = .ok a') :
    SortedPh rnd u a' := by
  induction l generalizing a with
  | nil => cases h; exact ha
  | cons y l ih =>
    rw [List.foldlM_cons] at h
    obtain ⟨b, hb, h⟩ := res_bind_ok.1 h
    exact ih (ha.add hb) h

theorem SortedPh.points {inc : St P → Res ((Fin P.G.N → Fin P.G.ns → K) × (Fin P.G.N → K))} {s s' : St P}
    (hL : ∀ a ∈ s.L, SortedPh rnd u a) (h : pointsPhaseR rnd (Besides.whole rnd P inc) s = .ok s') :
    ∀ a ∈ s'.L, SortedPh rnd u a := by
  unfold pointsPhaseR at h
  obtain ⟨L1, h1, h⟩ := res_bind_ok.1 h
  obtain ⟨L2, h2, h⟩ := res_bind_ok.1 h
  obtain ⟨L3, h3, h⟩ := res_bind_ok.1 h
  obtain ⟨L4, h4, h⟩ := res_bind_ok.1 h
  obtain ⟨L5, h5, h⟩ := res_bind_ok.1 h
  obtain ⟨L6, h6, h⟩ := res_bind_ok.1 h
  cases h
  have g1 := SortedPh.move hL h1
  have g2 := whenSet_all (fun _ h => mapPhases_all (fun _ a a' ha h => ha.outlet h) h g1) h2 g1
  have g3 := whenSet_all (fun _ h => mapPhases_all (fun _ a a' ha h => ha.outlet h) h g2) h3 g2
  have g4 := whenSet_all (fun _ h => mapPhases_all (fun _ a a' ha k => by
    obtain ⟨b, -, h⟩ := res_bind_ok.1 k
    split at h
    · exact ha.adds (x := fun a => rnd (P.G.x_M - a.ph.gap 0)) _ h
    · cases h; exact ha) h g3) h4 g3
  have g5 := whenSet_all (fun _ h => mapPhases_all (fun _ a a' ha k => by
    obtain ⟨b, -, h⟩ := res_bind_ok.1 k
    split at h
    · exact ha.add h
    · cases h; exact ha) h g4) h5 g4
  have r := cyclicLRR_rel (fun a ha => (g5 a ha).1) h6
  intro a' ha'
  obtain ⟨a, ha, e, f⟩ := forall₂_mem_right r ha'
  obtain ⟨k1, k2, k3⟩ := g5 a ha
  refine ⟨by rw [e, k1, f.length_eq], fun b hb => ?_, e ▸ k3⟩
  obtain ⟨c, hc, e2, -⟩ := forall₂_mem_right f hb
  have e3 : b.phi = c.phi := by rw [e2]
  rw [e3]
  exact k2 c hc

theorem whole_sorted (hr : Rounding rnd u) (one : rnd 1 = 1)
    {inc : St P → Res ((Fin P.G.N → Fin P.G.ns → K) × (Fin P.G.N → K))} {s s' : St P}
    (hs : P.segregate_grid = true) (hn : P.normalise_phi = true) (hL : Counted s.L)
    (hph : ∀ a ∈ s.L, Stored rnd u a.ph.phi)
    (rep : ∀ mp ∈ points s.L, ∀ j, rnd (mp.phi j) = mp.phi j)
    (h : timeMarchR rnd (Besides.whole rnd P inc) s = .ok s') : ∀ a ∈ s'.L, SortedPh rnd u a := by
  unfold timeMarchR at h
  obtain ⟨s1, h1, h⟩ := res_bind_ok.1 h
  obtain ⟨s2, h2, h⟩ := res_bind_ok.1 h
  obtain ⟨s3, h3, hp⟩ := res_bind_ok.1 h
  obtain ⟨T, rfl⟩ := gridPhaseR_ok h1
  unfold momentumPhaseR at h2
  obtain ⟨H, -, h2⟩ := res_bind_ok.1 h2
  cases h2
  refine SortedPh.points ?_ hp
  have r1 : PtsRel (fun _ a b => b.phi = a.phi) s.L T.Ld := by
    have ra := updateForcesR_rel hL T.ha
    have la := ra.counted hL
    have rb := getReferenceNodesR_rel la T.hb
    have lb := rb.counted la
    have rc := getBasisFunctionsR_rel lb T.hc
    have lc := rc.counted lb
    have rd := updateStressStrainR_rel lc T.hLd
    refine (((ra.comp rb).comp rc).comp rd).mono ?_
    rintro ph a e ⟨d, ⟨c, ⟨b, ⟨f, rfl, -⟩, n, rfl⟩, w, g, rfl⟩, p, vis, vis', o, ho, he⟩
    obtain ⟨-, -, ⟨_, _, _, rfl⟩, -⟩ := updateStrainR_ok ho
    exact ((Besides.every_plain (rnd := rnd) (P := P)).stress he).1.phi
  have c1 := r1.counted hL
  change (if P.segregate_grid then _ else _) = _ at h3
  rw [if_pos hs] at h3
  obtain ⟨⟨dphi, dpk⟩, -, h3⟩ := res_bind_ok.1 h3
  dsimp only at h3
  obtain ⟨L, hm, h4⟩ := res_bind_ok.1 h3
  cases h4
  have r2 := moveGrainsizeR_rel c1 hm
  have c2 := r2.counted c1
  intro a' ha'
  refine ⟨c2 a' ha', fun mp hmp => ?_, ?_⟩
  · obtain ⟨a, ha, _, c, hc, d, hd, -, hb⟩ := forall₂_mem_right (r1.comp r2).points
      (List.mem_flatMap.2 ⟨a', ha', hmp⟩)
    rw [if_pos hn] at hb
    have g := c149_normal hr one (mapPhiR_rep hr (by rw [hc]; exact rep a ha) hd) hb
    exact ⟨g.1, g.2.2.1⟩
  · obtain ⟨a, ha, e, -⟩ := forall₂_mem_right (r1.comp r2) ha'
    rw [e]
    exact hph a ha

/-- C152.  After any number of rounded steps with segregation and normalisation, with every law, while points flow
out and new ones flow in, and whatever the increments on the grid were, every point has fractions in [0, 1] that add
up to one but for `ns + 1` roundings; new points need only be given such fractions. -/
theorem c152_fractions (hr : Rounding rnd u) (one : rnd 1 = 1)
    (inc : St P → Res ((Fin P.G.N → Fin P.G.ns → K) × (Fin P.G.N → K))) {n : ℕ} {s s' : St P}
    (hs : P.segregate_grid = true) (hn : P.normalise_phi = true) (hL : Counted s.L)
    (hph : ∀ a ∈ s.L, Stored rnd u a.ph.phi)
    (rep : ∀ mp ∈ points s.L, ∀ j, rnd (mp.phi j) = mp.phi j)
    (h : stepsR rnd (Besides.whole rnd P inc) (n + 1) s = .ok s') :
    ∀ mp ∈ points s'.L, (∀ j, 0 ≤ mp.phi j ∧ mp.phi j ≤ 1) ∧
      |∑ j, mp.phi j - 1| ≤ gam u (P.G.ns + 1) := by
  induction n generalizing s with
  | zero =>
    obtain ⟨s1, h1, h⟩ := res_bind_ok.1 h
    cases h
    intro mp hmp
    obtain ⟨a, ha, hmp⟩ := List.mem_flatMap.1 hmp
    have := ((whole_sorted hr one hs hn hL hph rep h1 a ha).2.1 mp hmp).1
    exact ⟨this.1, this.2.gam hr⟩
  | succ n ih =>
    obtain ⟨s1, h1, h⟩ := res_bind_ok.1 h
    have q := whole_sorted hr one hs hn hL hph rep h1
    refine ih (s := stepTimeR rnd P s1) (fun a ha => (q a ha).1) (fun a ha => (q a ha).2.2) (fun mp hmp => ?_) h
    obtain ⟨a, ha, hmp⟩ := List.mem_flatMap.1 hmp
    exact ((q a ha).2.1 mp hmp).2

end
end Mpm

/-! ## Examples -/

namespace Mpm
open Spec

/-- A box that is fed with stressed points from the top, with a wall and with segregation. -/
def Ex.parAll : Par ℚ := { Ex.parFed with segregate_grid := true, normalise_phi := true }

/-- Points of fractions that double precision rounds; the next ones have others. -/
def Ex.feeding : List (PhaseSt ℚ 2) :=
  [{ ph := { Ex.feedPh with phi := ![fl 53 (1/5), fl 53 (4/5)] }
     pts := [{ Ex.mp with phi := ![fl 53 (1/3), fl 53 (2/3)] }] }]

/-- Increments that move the sizes about. -/
def Ex.stirAll (_ : St Ex.parAll) :
    Res ((Fin Ex.parAll.G.N → Fin Ex.parAll.G.ns → ℚ) × (Fin Ex.parAll.G.N → ℚ)) :=
  .ok (fun n j => if n.val < 5 then ![1/3, -1/5] j else ![-1/9, 0] j, fun _ => 1/3)

/-- C152.  Two steps in double precision, the fractions change and a point is added; at the wall nothing moves. -/
example : ∃ (G : Grid ℚ Ex.parAll.G.N Ex.parAll.G.ns) (s : St Ex.parAll),
    mkGridR (fl 53) Ex.parAll.G Ex.parAll.B = .ok G ∧
    stepsR (fl 53) (Besides.whole (fl 53) Ex.parAll Ex.stirAll) 2 { dyn := Ex.dyn, L := Ex.feeding, G := G } = .ok s ∧
    (points s.L).length = 2 ∧ (∃ mp ∈ points s.L, mp.phi (0 : Fin 2) ≠ fl 53 (1/3) ∧ mp.phi (0 : Fin 2) ≠ fl 53 (1/5)) ∧
    (∀ mp ∈ points s.L, |∑ j, mp.phi j - 1| ≤ gam (1 / 2 ^ 53) 3) ∧
    s.G.q (⟨0, by decide⟩ : Fin 9) 1 = 0 ∧ s.G.q (⟨3, by decide⟩ : Fin 9) 1 ≠ 0 := by
  have h : Ex.okAnd (mkGridR (fl 53) Ex.parAll.G Ex.parAll.B) (fun G =>
      G.boundary_h (⟨0, by decide⟩ : Fin 9) &&
      Ex.okAnd (stepsR (fl 53) (Besides.whole (fl 53) Ex.parAll Ex.stirAll) 2
        { dyn := Ex.dyn, L := Ex.feeding, G := G }) fun s =>
      decide ((points s.L).length = 2 ∧ s.G.q (⟨3, by decide⟩ : Fin 9) 1 ≠ 0) &&
      (points s.L).any fun mp => decide (mp.phi (0 : Fin 2) ≠ fl 53 (1/3) ∧ mp.phi (0 : Fin 2) ≠ fl 53 (1/5))) =
    true := by decide +kernel
  obtain ⟨G, h1, h⟩ := Ex.okAnd_ok h
  obtain ⟨hb, h⟩ := Bool.and_eq_true_iff.1 h
  obtain ⟨s, h2, h⟩ := Ex.okAnd_ok h
  obtain ⟨h3, h4⟩ := Bool.and_eq_true_iff.1 h
  obtain ⟨mp, hmp, h4⟩ := List.any_eq_true.1 h4
  have h3 := of_decide_eq_true h3
  refine ⟨G, s, h1, h2, h3.1, ⟨mp, hmp, of_decide_eq_true h4⟩, fun mp hmp => ?_,
    ((c152_walls (fl_zero 53) Ex.stirAll rfl h2 _).2 hb).2, h3.2⟩
  refine (c152_fractions (P := Ex.parAll) (s := { dyn := Ex.dyn, L := Ex.feeding, G := G }) Ex.inDouble.1
    Ex.inDouble.2 Ex.stirAll rfl rfl ?_ ?_ ?_ h2 mp hmp).2
  · intro a ha
    rw [List.mem_singleton.1 ha]
    rfl
  · intro a ha
    rw [List.mem_singleton.1 ha]
    refine ⟨⟨?_, ?_, ?_⟩, ?_⟩ <;> decide +kernel
  · intro mp hmp
    have h : (points Ex.feeding).all (fun b => decide (∀ j, fl 53 (b.phi j) = b.phi j)) = true := by decide +kernel
    exact of_decide_eq_true (List.all_eq_true.1 h mp hmp)

/-- C152.  Two steps without rounding, with the increments of the scheme: those of the exact model. -/
example : ∃ (G : Grid ℚ Ex.parAll.G.N Ex.parAll.G.ns) (s t : St Ex.parAll),
    mkGrid Ex.parAll.G Ex.parAll.B = .ok G ∧
    stepsR id (Besides.whole id Ex.parAll (schemeInc Ex.parAll (Ex.noInterp _))) 2
      { dyn := Ex.dyn, L := Ex.fed, G := G } = .ok s ∧
    steps Ex.parAll (Ex.noInterp _) 2 { dyn := Ex.dyn, L := Ex.fed, G := G } = .ok t ∧
    t.L = s.L ∧ t.dyn = s.dyn ∧ (points s.L).length = 2 := by
  obtain ⟨G, t, h1, h2, h3⟩ := Ex.run_ok (P := Ex.parAll) (d := Ex.dyn) (L := Ex.fed) (n := 2)
    (check := fun s => decide ((points s.L).length = 2)) (by decide +kernel)
  have e := c152_run (P := Ex.parAll) (Ex.noInterp _) { dyn := Ex.dyn, L := Ex.fed, G := G } 2
  rw [h2] at e
  rcases h : stepsR id (Besides.whole id Ex.parAll (schemeInc Ex.parAll (Ex.noInterp _))) 2
      { dyn := Ex.dyn, L := Ex.fed, G := G } with _ | s
  · rw [h] at e; cases e
  · rw [h] at e
    have e' := Except.ok.inj e
    have e1 : t.L = s.L := congrArg Prod.snd e'
    exact ⟨G, s, t, h1, h, h2, e1, congrArg Prod.fst e', e1 ▸ of_decide_eq_true h3⟩

end Mpm

import Verif.Lemmas.SymStep
import Verif.Lemmas.Track

/-! Symmetries of the grid: the phases of a time step. -/

set_option linter.unusedSectionVars false

namespace Mpm
open Spec

namespace Spec
section
variable {K : Type} [Field K] [LinearOrder K] [FloorRing K]

/-- A grid without its nodal inertial number. -/
def dropEta {N ns : ℕ} (G : Grid K N ns) : Grid K N ns :=
  { G with vis := fun v k => if v = .eta then .fin 0 else G.vis v k }

/-- The state without the nodal values that the code treats differently along the two axes:
MPM.py:38 makes `eta` periodic between the left and the right wall, whatever the boundary
conditions. -/
def tidy {P : Par K} (swap : Bool) (s : St P) : St P :=
  { s with G := if swap then dropEta s.G else s.G }

end
end Spec

section
variable {K : Type} [Field K] [LinearOrder K] [IsStrictOrderedRing K] [FloorRing K]
variable {P : Par K} {S : Sym K P.G.nx P.G.ny} {B' : BP K} {r : K} {Q : Vec K → Prop}

theorem basis_frame {N ns : ℕ} {G : Grid K N ns} {mp mp' : Particle K ns}
    (h : mp.getBasisFunctions G = .ok mp') : mp'.n_star = mp.n_star := by
  unfold Particle.getBasisFunctions at h
  obtain ⟨n, -, h⟩ := res_bind_ok.1 h
  split at h
  · cases h
  · cases h; rfl

theorem gridPhase_cells (hG : Sym.Geo P.G S Q) {s s1 : St P} (g : Geometry P.G s.G)
    (hc : Counted s.L) (hQ : AllPts (fun mp => Q mp.x) s.L) (h : gridPhase P s = .ok s1) :
    CellPts P.G.nx P.G.ny s1.L ∧ Counted s1.L := by
  obtain ⟨T, rfl⟩ := gridPhase_ok h
  have ra := updateForces_rel hc T.ha
  have qa : AllPts (fun mp => Q mp.x) T.La :=
    AllPts.step (fun _ a b hab hq => by rw [hab.1]; exact hq) ra hQ
  have ca := ra.counted hc
  obtain ⟨qb, cb⟩ := mapPoints_allPts (Q' := fun mp => IsCell P.G.nx P.G.ny mp.n_star)
    (fun _ _ mp mp' hq h => hG.cell mp mp' hq (by
      have e1 : s.G.wipe.dx = cellX P.G := g.dx
      have e2 : s.G.wipe.dy = cellY P.G := g.dy
      rw [e1, e2] at h; exact h)) ca qa T.hb
  obtain ⟨qc, cc⟩ := mapPoints_allPts (Q' := fun mp => IsCell P.G.nx P.G.ny mp.n_star)
    (fun _ _ mp mp' hq h => by rw [basis_frame h]; exact hq) cb qb T.hc
  have rd := updateStressStrain_frame cc T.hLd
  exact ⟨AllPts.step (fun _ a b hab hq => by rw [hab.1.n_star]; exact hq) rd qc, rd.counted cc⟩

theorem gridPhase_sym (hS : S.Ok) (hB : S.Flags P.B B') (hG : Sym.Geo P.G S Q) {s : St P}
    (g : Geometry P.G s.G) (hc : Counted s.L) (hQ : AllPts (fun mp => Q mp.x) s.L)
    (hH : S.HeightOk P s.L) :
    gridPhase (S.par P B') (S.st B' r s) = S.st B' 1 <$> gridPhase P s := by
  unfold gridPhase
  dsimp only
  have hw : (S.st B' r s).G.wipe = S.grid 1 s.G.wipe := wipe_sym 1 s.G
  rw [hw]
  have gw : Geometry P.G s.G.wipe := ⟨g.dx, g.dy, g.X, g.Y⟩
  generalize s.G.wipe = G at gw
  refine res_bind_map (f := S.pts) (updateForces_sym (P.forces s.dyn.t).1 s.L) fun La ha => ?_
  have ra := updateForces_rel hc ha
  have qa : AllPts (fun mp => Q mp.x) La :=
    AllPts.step (fun _ a b hab hq => by rw [hab.1]; exact hq) ra hQ
  have ca := ra.counted hc
  refine res_bind_map (f := S.pts) (mapPoints_sym (Q := fun mp => Q mp.x) (fun _ _ mp hq => ?_) La qa)
    fun Lb hb => ?_
  · have e1 : (S.grid 1 G).dx = if S.A.swap then cellY P.G else cellX P.G := by
      rw [dx_sym, gw.dx, gw.dy]
    have e2 : (S.grid 1 G).dy = if S.A.swap then cellX P.G else cellY P.G := by
      rw [dy_sym, gw.dx, gw.dy]
    change (S.pt mp).getReferenceNode (S.gp P.G) (S.grid 1 G).dx (S.grid 1 G).dy = S.pt <$> mp.getReferenceNode P.G G.dx G.dy
    rw [e1, e2, gw.dx, gw.dy]
    exact hG.ref mp hq
  obtain ⟨qb, cb⟩ := mapPoints_allPts (Q' := fun mp => IsCell P.G.nx P.G.ny mp.n_star)
    (fun _ _ mp mp' hq h => hG.cell mp mp' hq (by
      rw [gw.dx, gw.dy] at h; exact h)) ca qa hb
  refine res_bind_map (f := S.pts) (mapPoints_sym (fun _ _ mp hq => hG.basis 1 G mp gw hq) Lb qb)
    fun Lc hLc => ?_
  obtain ⟨qc, cc⟩ := mapPoints_allPts
    (Q' := fun mp => IsCell P.G.nx P.G.ny mp.n_star ∧ mp.N 0 + mp.N 1 + mp.N 2 + mp.N 3 = 1)
    (fun _ _ mp mp' hq h => ⟨by rw [basis_frame h]; exact hq, basis_sum G mp mp' h⟩) cb qb hLc
  refine res_bind_map (f := S.pts) (whenSet_moved (f' := recoverPositions S.nx' (S.grid 1 G)) Lc fun _ =>
    mapPoints_sym (fun _ _ mp hq => checkPosition_sym hS.corners hG.c2 G hq.1 hq.2) Lc qc)
    fun Lc' hLc' => ?_
  have e : Lc' = Lc := by
    unfold whenSet at hLc'
    split at hLc'
    · exact recoverPositions_id hLc'
    · cases hLc'; rfl
  subst e
  have qc' : CellPts P.G.nx P.G.ny Lc' := fun a ha mp hmp => (qc a ha mp hmp).1
  refine res_bind_map (f := S.grid 1) (nodalMass_sym hS.corners hB cc qc' G) fun G' _ => ?_
  have hcy : (S.par P B').B.cyclic_lr = P.B.cyclic_lr := hB.cyc
  have hG' : (if (S.par P B').B.cyclic_lr = true then (S.grid 1 G').makeCyclicMQ (nx := S.nx')
      (ny := S.ny') else S.grid 1 G')
      = S.grid 1 (if P.B.cyclic_lr = true then G'.makeCyclicMQ (nx := P.G.nx)
        (ny := P.G.ny) else G') := by
    rw [hcy]
    by_cases hb : P.B.cyclic_lr = true
    · rw [if_pos hb, if_pos hb]; exact cyclicMQ_sym hS (hB.cyc_ok hb) G'
    · rw [if_neg hb, if_neg hb]
  have hH' : S.HeightOk P Lc' := by
    intro hw
    refine (hH hw).imp id fun h => ?_
    have r1 := mapPoints_raw ca hb
    have r2 := mapPoints_raw cb hLc
    have hh : ∀ {R : Phase K P.G.ns → Particle K P.G.ns → Particle K P.G.ns → Prop}
        {A B : List (PhaseSt K P.G.ns)}, PtsRel R A B → (∀ a ∈ A, a.ph.law ≠ .ken_kamrin) →
        ∀ a ∈ B, a.ph.law ≠ .ken_kamrin := by
      intro R A B hr hA b hb
      obtain ⟨i, hi, rfl⟩ := List.mem_iff_getElem.1 hb
      have hi' : i < A.length := by rw [hr.length_eq]; exact hi
      have := (List.forall₂_iff_get.1 hr).2 i hi' hi
      have e : B[i].ph = A[i].ph := this.1
      rw [e]
      exact hA _ (List.getElem_mem hi')
    exact hh r2 (hh r1 (hh ra h))
  refine res_bind_map (f := Prod.map S.pts (S.grid 1)) (Eq.trans (congrArg (fun H =>
    updateStressStrain (nx := S.nx') (ny := S.ny') (S.par P B')
      ((S.st B' r s).dyn.updateForces (S.par P B')) P.G.s (S.pts Lc') H) hG')
    (stressAll_sym hS hB (s.dyn.updateForces P) _ rfl rfl hH' cc qc' _))
    fun x hx => ?_
  have rd := updateStressStrain_frame cc hx
  have qd : CellPts P.G.nx P.G.ny x.1 :=
    AllPts.step (fun _ a b hab hq => by rw [hab.1.n_star]; exact hq) rd qc'
  exact res_bind_map (f := S.grid 1) (forces_sym hS hB (rd.counted cc) qd x.2) fun _ _ => rfl

theorem momentumPhase_sym (hS : S.Ok) (hB : S.Flags P.B B') {interp : Interp K P.G.N}
    (hI : (S.A.fx = 1 ∧ S.A.fy = 1) ∨ (OddInterp interp ∧ ClearsMask interp)) (s : St P) :
    momentumPhase (S.par P B') (S.interp interp) (S.st B' r s) =
      S.st B' (S.A.fx * S.A.fy) <$> momentumPhase P interp s := by
  unfold momentumPhase
  have h0 := BCs_sym (s := r) hS hB.vf hB.hf s.dyn.q_v s.dyn.q_h (((mat0 s.L).map (·.rho)).getD 0)
    (P.aniso && decide (s.dyn.t = 0)) s.G
  refine res_bind_map (f := S.grid r) (Eq.trans ?_ h0) fun G _ => ?_
  · change Grid.BCs (nx := S.nx') (ny := S.ny') B' _ _ (((mat0 (S.pts s.L)).map (·.rho)).getD 0) _ _ = _
    rw [mat0_sym]
    rfl
  · refine congrArg (fun G => (Except.ok { S.st B' r s with G := G } : Res (St (S.par P B')))) ?_
    have h1 := updateMomentum_sym (s := r) hB.rough hB.mu hB.conv hB.friction hB.conv_ok P.damping
      s.dyn.dt P.v_0 G
    have h2 := calcGammadot_sym (s := r) hS hI P.ops.big P.M_tol
      (G.updateMomentum P.B P.damping s.dyn.dt P.v_0)
    exact (congrArg (fun H => Grid.calcGammadot (nx := S.nx') (ny := S.ny') (S.interp interp) P.ops.big P.M_tol H) h1).trans h2

theorem res_map_bind {α β γ : Type} (f : β → γ) (x : Res α) (k : α → Res β) :
    (f <$> (x >>= k)) = x >>= fun a => f <$> k a := by cases x <;> rfl

theorem grainsize_sym (hS : S.Corners) {L : List (PhaseSt K P.G.ns)} (hc : Counted L)
    (hL : CellPts P.G.nx P.G.ny L) (G : Grid K P.G.N P.G.ns) :
    moveGrainsize (S.par P B') (S.grid r G) (S.pts L) = S.pts <$> moveGrainsize P G L := by
  refine res_bind_map (f := S.pts) (mapPoints_sym (fun _ _ mp hq => mapPhi_sym hS P.M_tol G hq) L hL)
    fun L _ => ?_
  refine ite_equiv ?_ rfl
  refine mapPoints_sym (Q := fun _ => True) (fun _ _ mp _ => ?_) L (fun _ _ _ _ => trivial)
  change (normalisePhi mp.phi >>= _) = _
  cases normalisePhi mp.phi <;> rfl

theorem cyclicVis_off {nx ny ns : ℕ} (l : List Vis) (G : Grid K (ny * nx) ns) {v : Vis} (h : v ∉ l) :
    (G.makeCyclicVis l).vis v = G.vis v := if_neg h

theorem cyclicEta_sym (hS : S.Ok) (hr : r = 1 ∨ r = -1) (d : Dyn K) (L : List (PhaseSt K P.G.ns))
    (G : Grid K P.G.N P.G.ns) :
    tidy (P := S.par P B') S.A.swap ⟨d, L, (S.grid r G).makeCyclicVis (nx := S.nx') (ny := S.ny')
        [.eta]⟩ =
      tidy (P := S.par P B') S.A.swap ⟨d, L, S.grid r (G.makeCyclicVis [.eta])⟩ := by
  by_cases hw : S.A.swap = true
  · have hG : dropEta ((S.grid r G).makeCyclicVis (nx := S.nx') (ny := S.ny') [.eta]) =
      dropEta (S.grid r (G.makeCyclicVis [.eta])) := ?_
    · rw [hw]
      exact congrArg (fun G => (⟨d, L, G⟩ : St (S.par P B'))) hG
    unfold dropEta
    have key : ∀ (G G' : Grid K (S.ny' * S.nx') P.G.ns) (vis : Vis → Fin (S.ny' * S.nx') → XF K),
        G' = { G with vis := G'.vis } → vis = (fun v k => if v = .eta then .fin 0 else G'.vis v k) →
        ({ G with vis := vis } : Grid K (S.ny' * S.nx') P.G.ns) =
          { G' with vis := fun v k => if v = .eta then .fin 0 else G'.vis v k } := by
      intro G G' vis h1 h2
      subst h2
      rw [h1]
    refine key (S.grid r G) (S.grid r (G.makeCyclicVis [.eta])) _ rfl ?_
    funext v k
    by_cases hv : v = .eta
    · rw [if_pos hv, if_pos hv]
    · rw [if_neg hv, if_neg hv]
      have hv' : S.A.vis v ≠ .eta := by
        cases v <;> first | exact absurd rfl hv | (unfold Axes.vis; dsimp only; rw [hw]; decide) | (unfold Axes.vis; dsimp only; decide)
      rw [cyclicVis_off _ _ (by simpa using hv)]
      change S.vis r G.vis v k = S.vis r (G.makeCyclicVis [.eta]).vis v k
      unfold Sym.vis
      rw [cyclicVis_off _ _ (by simpa using hv), cyclicVis_off _ _ (by simpa using hv')]
  · have h := cyclicVis_sym (s := r) hS (by simpa using hw) [.eta] (fun h => by simp at h) G
    exact congrArg (fun G => tidy (P := S.par P B') S.A.swap { dyn := d, L := L, G := G }) h

theorem segTail_sym (hS : S.Ok) (hr : r = 1 ∨ r = -1) {s : St P} (hc : Counted s.L)
    (hL : CellPts P.G.nx P.G.ny s.L) (H : Grid K P.G.N P.G.ns) (H' : Grid K (S.ny' * S.nx') P.G.ns)
    (h : H' = S.grid r H) :
    (tidy S.A.swap <$> (moveGrainsize (S.par P B') H' (S.pts s.L) >>= fun L => Except.ok
        (⟨(S.st B' r s).dyn, L, H'.makeCyclicVis (nx := S.nx') (ny := S.ny') [.eta]⟩ :
          St (S.par P B')))) =
      (fun s => tidy S.A.swap (S.st B' r s)) <$> (moveGrainsize P H s.L >>= fun L => Except.ok
        (⟨s.dyn, L, H.makeCyclicVis [.eta]⟩ : St P)) := by
  subst h
  rw [res_map_bind]
  refine res_bind_map (f := S.pts) (grainsize_sym hS.corners hc hL _) fun L _ => ?_
  exact congrArg Except.ok (cyclicEta_sym hS hr (S.st B' r s).dyn (S.pts L) H)

theorem segGrid_sym (hS : S.Ok) (hB : S.Flags P.B B') (hr : r = 1 ∨ r = -1)
    {interp : Interp K P.G.N} (hI : (S.A.fx = 1 ∧ S.A.fy = 1) ∨ ClearsMask interp) (dt rho : K)
    (G : Grid K P.G.N P.G.ns)
    (G1 : Grid K (S.ny' * S.nx') P.G.ns)
    (h : G1 = (S.grid r G).updatePk (nx := S.nx') (ny := S.ny') (S.interp interp) P.ops P.M_tol rho) :
    ({ G1 with dphi := phiIncrement (nx := S.nx') (ny := S.ny') (S.par P B') dt rho P.G.s G1 } :
        Grid K (S.ny' * S.nx') P.G.ns) =
      S.grid r { G.updatePk interp P.ops P.M_tol rho with
        dphi := phiIncrement P dt rho P.G.s (G.updatePk interp P.ops P.M_tol rho) } := by
  rw [updatePk_sym hS hr hI P.ops P.M_tol rho G] at h
  subst h
  generalize G.updatePk interp P.ops P.M_tol rho = G2
  exact congrArg (fun d => ({ S.grid r G2 with dphi := d } :
    Grid K (S.ny' * S.nx') P.G.ns)) (phiIncrement_sym hS hB hr dt rho P.G.s G2)

theorem segregationPhase_sym (hS : S.Ok) (hB : S.Flags P.B B') (hr : r = 1 ∨ r = -1)
    {interp : Interp K P.G.N} (hI : (S.A.fx = 1 ∧ S.A.fy = 1) ∨ ClearsMask interp)
    {s : St P} (hc : Counted s.L) (hL : CellPts P.G.nx P.G.ny s.L) :
    (tidy S.A.swap <$> segregationPhase (S.par P B') (S.interp interp) (S.st B' r s)) =
      (fun s => tidy S.A.swap (S.st B' r s)) <$> segregationPhase P interp s := by
  unfold segregationPhase
  by_cases hs : P.segregate_grid = true
  · have hs' : (S.par P B').segregate_grid = true := hs
    rw [if_pos hs, if_pos hs']
    have hz : ((S.par P B').G.dx = 0 ∨ (S.par P B').G.dy = 0) ↔ (P.G.dx = 0 ∨ P.G.dy = 0) := by
      change ((if S.A.swap then P.G.dy else P.G.dx) = 0 ∨ (if S.A.swap then P.G.dx else P.G.dy) = 0) ↔ _
      cases S.A.swap
      · exact Iff.rfl
      · exact or_comm
    by_cases hd : P.G.dx = 0 ∨ P.G.dy = 0
    · rw [if_pos hd, if_pos (hz.2 hd)]
      rfl
    · rw [if_neg hd, if_neg (mt hz.1 hd)]
      dsimp only
      have hm : ((mat0 (S.st B' r s).L).map (·.rho_s)).getD 0 = ((mat0 s.L).map (·.rho_s)).getD 0 := by
        have : mat0 (S.st B' r s).L = mat0 s.L := mat0_sym s.L
        rw [this]
      rw [hm]
      generalize ((mat0 s.L).map (·.rho_s)).getD 0 = rho
      exact segTail_sym hS hr hc hL _ _ (segGrid_sym hS hB hr hI s.dyn.dt rho s.G _ rfl)
  · have hs' : ¬ (S.par P B').segregate_grid = true := hs
    rw [if_neg hs, if_neg hs']
    rfl

theorem tidy_points {P : Par K} (b : Bool) (s : St P) :
    pointsPhase P (tidy b s) = tidy b <$> pointsPhase P s := by
  unfold pointsPhase
  cases b
  · simp only [res_map_bind]
    rfl
  · simp only [res_map_bind]
    rfl

theorem cyclicLR_sym (hG : Sym.Geo P.G S Q) (h : S.A.swap = false) (L : List (PhaseSt K P.G.ns)) :
    cyclicLR (S.gp P.G) (S.pts L) = S.pts <$> cyclicLR P.G L := by
  refine mapPoints_sym (Q := fun _ => True) (fun _ _ mp _ => ?_) L (fun _ _ _ _ => trivial)
  refine congrArg (fun x : Vec K => (Except.ok { S.pt mp with x := x } : Res (Particle K P.G.ns))) ?_
  have h0 : ∀ x : Vec K, S.A.v x 0 = S.A.fx * x 0 := by
    intro x; rw [v_zero_comp, h]; rfl
  have h1 : ∀ x : Vec K, S.A.v x 1 = S.A.fy * x 1 := by
    intro x; rw [v_one_comp, h]; rfl
  funext k
  fin_cases k
  · change wrapX (S.gp P.G) (S.A.v mp.x 0 + S.c 0) = S.A.v _ 0 + S.c 0
    rw [h0, h0, hG.wrap h]
    simp
  · change S.A.v mp.x 1 + S.c 1 = S.A.v _ 1 + S.c 1
    rw [h1, h1]
    rfl
  · change S.A.v mp.x 2 + S.c 2 = S.A.v _ 2 + S.c 2
    rw [v_two_comp, v_two_comp]
    rfl

theorem pointsPhase_sym (hS : S.Ok) (hB : S.Flags P.B B') (hG : Sym.Geo P.G S Q) {s : St P}
    (hc : Counted s.L) (hL : CellPts P.G.nx P.G.ny s.L) :
    pointsPhase (S.par P B') (S.st B' r s) = S.st B' r <$> pointsPhase P s := by
  unfold pointsPhase
  refine res_bind_map (f := S.pts) (movePoints_sym hS.corners P.M_tol s.dyn.dt P.intruder_v hc hL s.G)
    fun L _ => ?_
  have e1 : (S.par P B').B.outlet_left = false := hB.closed'.1
  have e2 : (S.par P B').B.outlet_bottom = false := hB.closed'.2.1
  have e3 : (S.par P B').B.inlet_right = false := hB.closed'.2.2.1
  have e4 : (S.par P B').B.inlet_top = false := hB.closed'.2.2.2
  have e5 : (S.par P B').B.cyclic_lr = P.B.cyclic_lr := hB.cyc
  rw [e1, e2, e3, e4, e5, hB.closed.1, hB.closed.2.1, hB.closed.2.2.1, hB.closed.2.2.2]
  change (whenSet P.B.cyclic_lr (cyclicLR (S.gp P.G)) (S.pts L) >>= _) =
    S.st B' r <$> (whenSet P.B.cyclic_lr (cyclicLR P.G) L >>= _)
  exact res_bind_map (f := S.pts) (whenSet_moved L fun h => cyclicLR_sym hG (hB.cyc_ok h) L)
    fun _ _ => rfl

/-- A time step of the relabelled set-up is the relabelled time step. -/
theorem timeMarch_sym (hS : S.Ok) (hB : S.Flags P.B B') (hG : Sym.Geo P.G S Q)
    {interp : Interp K P.G.N} (hI : (S.A.fx = 1 ∧ S.A.fy = 1) ∨ (OddInterp interp ∧ ClearsMask interp)) {s : St P}
    (g : Geometry P.G s.G) (hc : Counted s.L) (hQ : AllPts (fun mp => Q mp.x) s.L)
    (hH : S.HeightOk P s.L) :
    (tidy S.A.swap <$> timeMarch (S.par P B') (S.interp interp) (S.st B' r s)) =
      (fun s => tidy S.A.swap (S.st B' (S.A.fx * S.A.fy) s)) <$> timeMarch P interp s := by
  have hr : S.A.fx * S.A.fy = 1 ∨ S.A.fx * S.A.fy = -1 := by
    rcases S.A.hx with h | h <;> rcases S.A.hy with h' | h' <;> rw [h, h'] <;> simp
  unfold timeMarch
  rw [res_map_bind]
  refine res_bind_map (f := S.st B' 1) (gridPhase_sym hS hB hG g hc hQ hH) fun s1 h1 => ?_
  obtain ⟨hL1, hc1⟩ := gridPhase_cells hG g hc hQ h1
  rw [res_map_bind]
  refine res_bind_map (f := S.st B' (S.A.fx * S.A.fy)) (momentumPhase_sym hS hB hI s1)
    fun s2 h2 => ?_
  have e2 := (momentumPhase_table h2).2.1
  have hL2 : CellPts P.G.nx P.G.ny s2.L := by rw [e2]; exact hL1
  have hc2 : Counted s2.L := by rw [e2]; exact hc1
  have h3 := segregationPhase_sym hS hB hr (hI.imp id And.right) hc2 hL2
  have ht : ∀ x : Res (St (S.par P B')), (tidy S.A.swap <$> (x >>= pointsPhase (S.par P B'))) =
      (tidy S.A.swap <$> x) >>= pointsPhase (S.par P B') := by
    intro x
    cases x with
    | error e => rfl
    | ok s => exact (tidy_points S.A.swap s).symm
  rw [ht, h3]
  refine res_bind_map (f := fun s => tidy S.A.swap (S.st B' (S.A.fx * S.A.fy) s)) rfl fun s3 h3 => ?_
  rw [tidy_points]
  have rs := segregationPhase_rel hc2 h3
  have hL3 : CellPts P.G.nx P.G.ny s3.L := by
    refine AllPts.step (fun _ a b hab hq => ?_) rs hL2
    have : b.n_star = a.n_star := by
      rcases hab with ⟨-, rfl⟩ | ⟨-, c, hc, hb⟩
      · rfl
      · have e : c.n_star = a.n_star := by rw [mapPhi_frame hc]
        rcases hb with ⟨-, rfl⟩ | ⟨-, phi, -, rfl⟩
        · exact e
        · exact e
    rw [this]; exact hq
  rw [pointsPhase_sym hS hB hG (rs.counted hc2) hL3]
  cases pointsPhase P s3 <;> rfl

/-- The points stay where the search for their cells follows the relabelling. -/
def Spec.Along (P : Par K) (interp : Interp K P.G.N) (Q : Vec K → Prop) (n : ℕ) (s : St P) : Prop :=
  ∀ m < n, ∀ s', steps P interp m s = .ok s' → AllPts (fun mp => Q mp.x) s'.L

theorem timeMarch_tidy (b : Bool) (interp : Interp K P.G.N) (s : St P) :
    timeMarch P interp (tidy b s) = timeMarch P interp s := by
  cases b <;> rfl

/-- Any number of time steps of the relabelled set-up. -/
theorem steps_sym (hS : S.Ok) (hB : S.Flags P.B B') (hG : Sym.Geo P.G S Q)
    {interp : Interp K P.G.N} (hI : (S.A.fx = 1 ∧ S.A.fy = 1) ∨ (OddInterp interp ∧ ClearsMask interp)) (n : ℕ) {s : St P}
    (g : Geometry P.G s.G) (hc : Counted s.L) (hQ : Along P interp Q n s)
    (hH : S.HeightOk P s.L) :
    (tidy S.A.swap <$> steps (S.par P B') (S.interp interp) n (S.st B' (S.A.fx * S.A.fy) s)) =
      (fun s => tidy S.A.swap (S.st B' (S.A.fx * S.A.fy) s)) <$> steps P interp n s := by
  induction n generalizing s with
  | zero => rfl
  | succ n ih =>
    have h0 := timeMarch_sym (r := S.A.fx * S.A.fy) hS hB hG hI g hc
      (hQ 0 (Nat.succ_pos n) s rfl) hH
    have ht : ∀ (n : ℕ) (s : St (S.par P B')),
        (tidy S.A.swap <$> steps (S.par P B') (S.interp interp) n (tidy S.A.swap s)) =
        tidy S.A.swap <$> steps (S.par P B') (S.interp interp) n s := by
      intro n s
      cases n with
      | zero =>
        refine congrArg Except.ok ?_
        cases S.A.swap
        · rfl
        · refine congrArg (fun vis => ({ s with G := { s.G with vis := vis } } : St (S.par P B'))) ?_
          funext v k
          by_cases hv : v = .eta
          · rw [if_pos hv, if_pos hv]
          · rw [if_neg hv, if_neg hv]
            exact if_neg hv
      | succ n =>
        exact congrArg (fun x => tidy S.A.swap <$> (x >>= fun s =>
          steps (S.par P B') (S.interp interp) n (stepTime _ s)))
          (timeMarch_tidy (P := S.par P B') S.A.swap (S.interp interp) s)
    have ht' : ∀ x : Res (St (S.par P B')), (tidy S.A.swap <$> (x >>= fun s =>
        steps (S.par P B') (S.interp interp) n (stepTime _ s))) =
        (tidy S.A.swap <$> x) >>= fun s => tidy S.A.swap <$>
          steps (S.par P B') (S.interp interp) n (stepTime _ s) := by
      intro x
      cases x with
      | error e => rfl
      | ok s =>
        refine (ht n (stepTime _ s)).symm.trans ?_
        refine congrArg (fun s => tidy S.A.swap <$> steps (S.par P B') (S.interp interp) n s) ?_
        cases S.A.swap <;> rfl
    change (tidy S.A.swap <$> (timeMarch _ _ _ >>= fun s => steps (S.par P B') (S.interp interp) n (stepTime _ s))) =
      _ <$> (timeMarch P interp s >>= fun s => steps P interp n (stepTime P s))
    rw [ht', h0]
    refine res_bind_map (f := fun s => tidy S.A.swap (S.st B' (S.A.fx * S.A.fy) s)) rfl fun s1 h1 => ?_
    have e : stepTime (S.par P B') (tidy S.A.swap (S.st B' (S.A.fx * S.A.fy) s1)) =
        tidy S.A.swap (S.st B' (S.A.fx * S.A.fy) (stepTime P s1)) := by cases S.A.swap <;> rfl
    rw [e, ht]
    have hl : ∀ a ∈ s1.L, ∃ b ∈ s.L, b.ph.law = a.ph.law := by
      obtain ⟨_, _, _, _, _, _, _, _, _, _, h⟩ := timeMarch_points hc h1
      intro B hB
      obtain ⟨i, hi⟩ := List.getElem?_of_mem hB
      obtain ⟨A, hA, hr⟩ := h.left hi
      exact ⟨A, List.mem_of_getElem? hA, (congrArg Phase.law hr.1).symm⟩
    refine ih (s := stepTime P s1) ((timeMarch_table h1).1.geometry g)
      (timeMarch_counted hc h1 : Counted s1.L) ?_ ?_
    · intro m hm s' hs'
      exact hQ (m + 1) (Nat.succ_lt_succ hm) s' (steps_succ.2 ⟨s1, h1, hs'⟩)
    · intro hw
      refine (hH hw).imp id fun h a ha => ?_
      obtain ⟨b, hb, e⟩ := hl a ha
      rw [← e]
      exact h b hb

end
end Mpm

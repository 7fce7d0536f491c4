import Verif.Props.Obstacles
import Verif.Props.Volume
import Verif.ExRun

/-!
# C62, C63: applied boundary stresses and the conveyor
-/

set_option linter.unusedSectionVars false

namespace Mpm
open Spec

section
variable {K : Type} [Field K] [LinearOrder K] [IsStrictOrderedRing K] [FloorRing K] {ns N : ℕ}

/-! ## C62 -/

/-- What `BCs` adds to the external forces of a grid whose `ext_f` has been wiped. -/
theorem BCs_fe {nx ny : ℕ} {B : BP K} {qv qh rho : K} {a0 : Bool} {G G' : Grid K (ny * nx) ns}
    (h : G.BCs B qv qh rho a0 = .ok G') (h0 : ∀ k, G.ext_f k = 0) (k : Fin (ny * nx)) :
    G'.fe k 0 = G.fe k 0 + (if B.horizontal_force then 2 * G.m k / rho / G.dx *
        ((if inLeft nx ny k then qh else 0) - (if inRight nx ny k then qh else 0)) else 0) ∧
    G'.fe k 1 = G.fe k 1 + (if B.vertical_force then 2 * G.m k / rho / G.dy *
        ((if inBottom nx ny k then qv else 0) - (if inTop nx ny k then qv else 0)) else 0) ∧
    G'.fe k 2 = G.fe k 2 := by
  have z : ∀ c, G.ext_f k c = 0 := fun c => by rw [h0]; rfl
  unfold Grid.BCs at h
  split at h
  · cases h
  · cases hv : B.vertical_force <;> cases hh : B.horizontal_force <;>
      simp only [hv, hh, Bool.false_eq_true, if_false, if_true] at h ⊢ <;> split at h <;> cases h
    · simp
    · refine ⟨?_, by simp, by simp⟩
      simp only [Function.update_self, z]
      split_ifs <;> ring
    · refine ⟨by simp, ?_, by simp⟩
      simp only [Function.update_self, z]
      split_ifs <;> ring
    · refine ⟨?_, ?_, by simp⟩
      · simp only [Function.update_self, ne_eq, Fin.reduceEq, not_false_eq_true,
          Function.update_of_ne, z]
        split_ifs <;> ring
      · simp only [Function.update_self, ne_eq, Fin.reduceEq, not_false_eq_true,
          Function.update_of_ne, z]
        split_ifs <;> ring

theorem nodalForcesAll_ext {nx N : ℕ} {L : List (PhaseSt K ns)} {G G' : Grid K N ns}
    (h : nodalForcesAll nx L G = .ok G') : G'.ext_f = G.ext_f := by
  refine foldPhases_inv (fun G' => G'.ext_f = G.ext_f) ?_ h rfl
  intro a s s' hs h
  refine foldN_inv (fun G' => G'.ext_f = G.ext_f) ?_ h hs
  intro mp s s' hs h
  rw [(nodalForces_ok.1 h).2]
  exact hs

theorem p2gAll_ext {nx N : ℕ} {seg : Bool} {L : List (PhaseSt K ns)} {G G' : Grid K N ns}
    (h : p2gAll nx seg L G = .ok G') : G'.ext_f = G.ext_f := by
  refine foldPhases_inv (fun G' => G'.ext_f = G.ext_f) ?_ h rfl
  intro a s s' hs h
  refine foldN_inv (fun G' => G'.ext_f = G.ext_f) ?_ h hs
  intro mp s s' hs h
  rw [(p2g_ok.1 h).2]
  refine Eq.trans ?_ hs
  unfold p2gClosed; split <;> rfl

/-- The applied boundary stresses are wiped at the start of every step. -/
theorem GridPhase.ext {P : Par K} {s : St P} (T : GridPhase P s) (k : Fin P.G.N) :
    T.Gd.ext_f k = 0 := by
  obtain ⟨G1, h1, e⟩ := getNodalMassMomentum_ok T.hGa
  have e1 : T.Ga.ext_f = s.G.wipe.ext_f := by
    rw [e, ← p2gAll_ext h1]
    split <;> rfl
  have e2 : T.Gb.ext_f = T.Ga.ext_f := by rw [T.hGb]; split <;> rfl
  have e3 : T.Gc.ext_f = T.Gb.ext_f := by rw [updateStressStrain_grid T.hLd]
  have e4 : T.Gd.ext_f = T.Gc.ext_f := by
    have h := T.hGd
    unfold getNodalForces at h
    obtain ⟨G2, h2, h⟩ := res_bind_ok.1 h
    rw [← Except.ok.inj h, ← nodalForcesAll_ext h2]
    split <;> rfl
  rw [e4, e3, e2, e1]
  rfl

/-- Force per unit nodal mass that a stress `q` applied at both ends of an axis exerts on a node
whose coordinate is `x`: inwards at both ends, nothing in between. -/
def Spec.inward (q lo hi rho h x : K) : K :=
  (if x = lo then 2 * q / (rho * h) else 0) - (if x = hi then 2 * q / (rho * h) else 0)

/-- In every step, the external force on a node after the boundary conditions is what gravity gave
it plus its mass times the accelerations of the requested boundary stresses; `rho` is the density
parameter of the first phase. -/
theorem c62_nodes {P : Par K} (hP : GoodGrid P.G) {interp : Interp K P.G.N} {s s1 s2 : St P}
    (hG : Geometry P.G s.G) {a : PhaseSt K P.G.ns} {rest : List (PhaseSt K P.G.ns)}
    (h1 : gridPhase P s = .ok s1) (h2 : momentumPhase P interp s1 = .ok s2)
    (hL : s1.L = a :: rest) (k : Fin P.G.N) :
    s2.G.fe k = s1.G.fe k + s1.G.m k • ![
      if P.B.horizontal_force then
        inward s1.dyn.q_h P.G.x_m P.G.x_M a.ph.par.rho (cellX P.G) (s.G.X k) else 0,
      if P.B.vertical_force then
        inward s1.dyn.q_v P.G.y_m P.G.y_M a.ph.par.rho (cellY P.G) (s.G.Y k) else 0, 0] := by
  obtain ⟨T, rfl⟩ := gridPhase_ok h1
  obtain ⟨-, -, -, st, -, -⟩ := T.static
  obtain ⟨G1, hG1, e⟩ := momentumPhase_frame h2
  have ef : s2.G.fe = G1.fe := congrArg (fun s : St P => s.G.fe) e
  obtain ⟨f0, f1, f2⟩ := BCs_fe hG1 T.ext k
  have hL' : T.Ld = a :: rest := hL
  have er : (((mat0 T.Ld).map (·.rho)).getD 0) = a.ph.par.rho := by rw [hL']; rfl
  have edx : T.Gd.dx = cellX P.G := st.dx.trans hG.dx
  have edy : T.Gd.dy = cellY P.G := st.dy.trans hG.dy
  simp only [inLeft_iff, inRight_iff, inBottom_iff, inTop_iff] at f0 f1
  have er' : (((mat0 (St.mk T.d T.Ld T.Gd : St P).L).map (·.rho)).getD 0) = a.ph.par.rho := er
  rw [er'] at f0 f1
  rw [hG.X, hG.Y]
  unfold inward
  simp only [nodeX_eq_left hP, nodeX_eq_right hP, nodeY_eq_bottom hP, nodeY_eq_top hP]
  have edx' : (St.mk T.d T.Ld T.Gd : St P).G.dx = cellX P.G := edx
  have edy' : (St.mk T.d T.Ld T.Gd : St P).G.dy = cellY P.G := edy
  rw [edx'] at f0
  rw [edy'] at f1
  rw [ef]
  funext c
  fin_cases c
  · refine f0.trans ?_
    simp only [Fin.zero_eta, Pi.add_apply, Pi.smul_apply, Matrix.cons_val_zero, smul_eq_mul]
    congr 1
    split_ifs <;> field_simp <;> ring
  · refine f1.trans ?_
    simp only [Fin.mk_one, Pi.add_apply, Pi.smul_apply, Matrix.cons_val_one, Matrix.cons_val_zero,
      smul_eq_mul]
    congr 1
    split_ifs <;> field_simp <;> ring
  · refine f2.trans ?_
    have : (![if P.B.horizontal_force then
        inward T.d.q_h P.G.x_m P.G.x_M a.ph.par.rho (cellX P.G) (s.G.X k) else 0,
      if P.B.vertical_force then
        inward T.d.q_v P.G.y_m P.G.y_M a.ph.par.rho (cellY P.G) (s.G.Y k) else 0, 0] : Vec K) 2
        = 0 := rfl
    simp

/-- A stress applied to a full edge exerts the force stress times area: if the nodes of the bottom
edge carry the mass of their volume at the density of the first phase, the upward forces on them add
up to `q` times width times thickness, and the same downwards at the top. -/
theorem c62_edge_force {P : GP K} {B : BP K} (hP : GoodGrid P) (hc : B.cyclic_lr = false)
    {G : Grid K P.N P.ns} (h : mkGrid P B = .ok G) {rho q : K} (hr : rho ≠ 0) {m : Fin P.N → K}
    (hm : ∀ k, G.Y k = P.y_m ∨ G.Y k = P.y_M → m k = rho * G.V k) :
    (∑ k, if G.Y k = P.y_m then m k * inward q P.y_m P.y_M rho (cellY P) (G.Y k) else 0) =
      q * ((P.x_M - P.x_m) * P.thickness) ∧
    (∑ k, if G.Y k = P.y_M then m k * inward q P.y_m P.y_M rho (cellY P) (G.Y k) else 0) =
      -(q * ((P.x_M - P.x_m) * P.thickness)) := by
  have hg := mkGrid_geometry h
  have hx := cellX_mul hP
  have hcy := (cellY_pos hP).ne'
  have hne : P.y_m ≠ P.y_M := hP.y.ne
  have hny := hP.ny
  have row : ∀ r : ℕ, r < P.ny → (r = 0 ∨ r = P.ny - 1) → ∀ sg : K,
      (∀ k : Fin P.N, (k : ℕ) / P.nx = r →
        m k * inward q P.y_m P.y_M rho (cellY P) (G.Y k) = sg * (m k * (2 * q / (rho * cellY P)))) →
      (∑ k : Fin P.N, if (k : ℕ) / P.nx = r then
        m k * inward q P.y_m P.y_M rho (cellY P) (G.Y k) else 0) =
        sg * (q * ((P.x_M - P.x_m) * P.thickness)) := by
    intro r hr1 hr2 sg hsg
    have e1 : ∀ k : Fin P.N, (if (k : ℕ) / P.nx = r then
        m k * inward q P.y_m P.y_M rho (cellY P) (G.Y k) else 0) =
        if (k : ℕ) / P.nx = r then
          sg * q * cellX P * P.thickness * halfEnd P.nx ((k : ℕ) % P.nx) else 0 := by
      intro k
      by_cases hk : (k : ℕ) / P.nx = r
      · rw [if_pos hk, if_pos hk, hsg k hk, hm k (by
          rw [hg.Y, nodeY_eq_bottom hP, nodeY_eq_top hP, hk]; exact hr2), mkGrid_V hP h, hk, hc]
        have : (halfEnd P.ny r : K) = 1 / 2 := by unfold halfEnd; rw [if_pos hr2]
        rw [this]
        simp only [Bool.false_eq_true, if_false]
        field_simp
      · rw [if_neg hk, if_neg hk]
    rw [Finset.sum_congr rfl fun k _ => e1 k, sum_nodes]
    simp only [mkNode_row, mkNode_col]
    rw [Finset.sum_eq_single ⟨r, hr1⟩]
    · simp only [if_true]
      rw [← Finset.mul_sum, sum_halfEnd hP.nx, ← hx]
      ring
    · intro b _ hb
      refine Finset.sum_eq_zero fun i _ => if_neg fun hbr => hb (Fin.ext hbr)
    · intro hn; exact absurd (Finset.mem_univ _) hn
  constructor
  · have := row 0 (by omega) (Or.inl rfl) 1 (by
      intro k hk
      have hY : G.Y k = P.y_m := by rw [hg.Y, nodeY_eq_bottom hP]; exact hk
      rw [hY, inward, if_pos rfl, if_neg hne]; ring)
    rw [one_mul] at this
    rw [← this]
    refine Finset.sum_congr rfl fun k _ => if_congr ?_ rfl rfl
    rw [hg.Y, nodeY_eq_bottom hP]
  · have := row (P.ny - 1) (by omega) (Or.inr rfl) (-1) (by
      intro k hk
      have hY : G.Y k = P.y_M := by rw [hg.Y, nodeY_eq_top hP]; exact hk
      rw [hY, inward, if_pos rfl, if_neg hne.symm]; ring)
    rw [neg_one_mul] at this
    rw [← this]
    refine Finset.sum_congr rfl fun k _ => if_congr ?_ rfl rfl
    rw [hg.Y, nodeY_eq_top hP]

/-! ## C63 -/

/-- The belt: the bottom row without the two outermost nodes on either side. -/
theorem c63_belt {P : GP K} {B : BP K} (hb : B.conveyor = true) {G : Grid K P.N P.ns}
    (h : mkGrid P B = .ok G) (k : Fin P.N) :
    G.boundary_conveyor k = true ↔
      (k : ℕ) / P.nx = 0 ∧ 2 ≤ (k : ℕ) % P.nx ∧ (k : ℕ) % P.nx + 2 < P.nx := by
  have hnx := nx_pos_of_node k
  have hle := nx_le k
  have hk := k.isLt
  obtain ⟨-, -, -, h2, -, -⟩ := mkGrid_masks h
  have e : G.boundary_conveyor = boundaryConveyor P.nx P.ny := by
    unfold mkGrid at h
    rw [hb] at h
    split at h
    · cases h
    · cases h; rfl
  have e2 := inSlice_both (P.ny * P.nx) 2 (P.nx - 2) 1 k
  rw [show ((P.nx - 2 : ℕ) : ℤ) = (P.nx : ℤ) - 2 by omega] at e2
  have e3 : boundaryConveyor P.nx P.ny k = true ↔
      inSlice (P.ny * P.nx) (some ((2 : ℕ) : ℤ)) (some ((P.nx : ℤ) - 2)) 1 k = true := by
    simp [boundaryConveyor, setSlice]
  rw [e, e3, e2]
  clear e e2 e3 h
  simp only [Nat.mod_one, and_true]
  have hk' : (k : ℕ) < P.ny * P.nx := hk
  by_cases hr : (k : ℕ) / P.nx = 0
  · have hlt : (k : ℕ) < P.nx := by
      rcases Nat.div_eq_zero_iff.1 hr with h | h
      · omega
      · exact h
    rw [Nat.mod_eq_of_lt hlt]
    simp only [hr, true_and]
    omega
  · have hge : P.nx ≤ (k : ℕ) := by
      by_contra hc
      exact hr (Nat.div_eq_of_lt (by omega))
    simp only [hr, false_and, iff_false]
    omega

/-- In every step the belt nodes get exactly the belt's horizontal velocity, their vertical momentum
and all other nodes get the usual update. -/
theorem c63_speed {P : Par K} (hb : P.B.conveyor = true) {interp : Interp K P.G.N}
    {s1 s2 : St P} (h2 : momentumPhase P interp s1 = .ok s2) (k : Fin P.G.N) :
    (s1.G.boundary_conveyor k = true → s2.G.q k 0 = P.v_0 * s2.G.m k ∧
      (s2.G.m k ≠ 0 → s2.G.q k 0 / s2.G.m k = P.v_0)) ∧
    (∀ c, (s1.G.boundary_conveyor k = false ∨ c ≠ 0) →
      s2.G.q k c = s1.G.q k c + s1.dyn.dt * s2.G.q_dot k c) := by
  obtain ⟨G1, hG1, e⟩ := momentumPhase_frame h2
  have e1 := BCs_frame hG1
  have eq : s2.G.q k = _ := congrArg (fun s : St P => s.G.q k) e
  have em : s2.G.m k = s1.G.m k := congrFun (momentumPhase_table h2).2.2.2.1 k
  have ed : s2.G.q_dot k = _ := congrArg (fun s : St P => s.G.q_dot k) e
  have m1 : G1.m = s1.G.m := by rw [e1]
  have q1 : G1.q = s1.G.q := by rw [e1]
  have c1 : G1.boundary_conveyor = s1.G.boundary_conveyor := by rw [e1]
  have key : (G1.updateMomentum P.B P.damping s1.dyn.dt P.v_0).q k =
      if G1.boundary_conveyor k then
        Function.update (G1.q k + s1.dyn.dt •
          (G1.updateMomentum P.B P.damping s1.dyn.dt P.v_0).q_dot k) 0 (P.v_0 * G1.m k)
      else G1.q k + s1.dyn.dt • (G1.updateMomentum P.B P.damping s1.dyn.dt P.v_0).q_dot k := by
    unfold Grid.updateMomentum
    simp only [hb, if_true]
  have eq' := eq.trans key
  rw [m1, q1, c1] at eq'
  constructor
  · intro hk
    have : s2.G.q k 0 = P.v_0 * s2.G.m k := by rw [eq', if_pos hk, em]; simp
    exact ⟨this, fun hm => by rw [this]; field_simp⟩
  · intro c hc
    rw [eq', ed]
    split_ifs with hk
    · rcases hc with hc | hc
      · rw [hc] at hk; cases hk
      · rw [Function.update_of_ne hc]; rfl
    · rfl

theorem forN_same {α σ β : Type} {f g : α → σ → Res (α × σ)} (e : α → β)
    (hfg : ∀ a s r r', f a s = .ok r → g a s = .ok r' → e r.1 = e r'.1 ∧ r.2 = r'.2)
    {n : ℕ} {l : List α} {s : σ} {r r' : List α × σ} (h : forN f n l s = .ok r)
    (h' : forN g n l s = .ok r') : r.1.map e = r'.1.map e ∧ r.2 = r'.2 := by
  induction n generalizing l s r r' with
  | zero => rw [forN_zero] at h h'; cases h; cases h'; exact ⟨rfl, rfl⟩
  | succ n ih =>
    cases l with
    | nil => cases h
    | cons a l =>
      obtain ⟨l1, s1⟩ := r
      obtain ⟨l2, s2⟩ := r'
      obtain ⟨a1, t1, k1, h1, h2, rfl⟩ := forN_cons_ok.1 h
      obtain ⟨a2, t2, k2, h3, h4, rfl⟩ := forN_cons_ok.1 h'
      obtain ⟨e1, e2⟩ := hfg _ _ _ _ h1 h3
      dsimp only at e1 e2
      rw [e2] at h2
      obtain ⟨e3, e4⟩ := ih h2 h4
      exact ⟨by simp only [List.map_cons, e1]; rw [e3], e4⟩

theorem forall₂_same {α β : Type} {R S : α → α → Prop} {e : α → β}
    (h : ∀ a b c, R a b → S a c → e b = e c) {l l1 l2 : List α}
    (h1 : List.Forall₂ R l l1) (h2 : List.Forall₂ S l l2) : l1.map e = l2.map e := by
  induction h1 generalizing l2 with
  | nil => cases h2; rfl
  | cons hr _ ih =>
    cases h2 with
    | cons hs ht => simp only [List.map_cons, h _ _ _ hr hs, ih ht]

/-- A material point apart from where it is. -/
def Spec.placeless (mp : Particle K ns) : Particle K ns := { mp with x := 0 }

/-- The belt displaces material points but does not drag them: the belt speed has no influence on
what a step does to the velocities (or to anything but the positions) of the points. -/
theorem c63_no_drag {nx ny : ℕ} {B : BP K} {damping : Bool} {M_tol dt v0 v0' : K} {iv : Vec K}
    {G : Grid K (ny * nx) ns} {L L1 L2 : List (PhaseSt K ns)} (hL : Counted L)
    (h1 : movePoints nx M_tol dt iv (G.updateMomentum B damping dt v0) L = .ok L1)
    (h2 : movePoints nx M_tol dt iv (G.updateMomentum B damping dt v0') L = .ok L2) :
    L1.map (fun a => (a.ph, a.pts.map placeless)) = L2.map (fun a => (a.ph, a.pts.map placeless)) := by
  refine forall₂_same ?_ (movePoints_phase hL h1) (movePoints_phase hL h2)
  rintro a b c (⟨hb, rfl⟩ | ⟨hb, eb, fb⟩) (⟨hc, rfl⟩ | ⟨hc, ec, fc⟩)
  · rfl
  · exact absurd hb hc
  · exact absurd hc hb
  · obtain ⟨p1, p2⟩ := forN_same (e := placeless) (f := fun mp iv => Particle.move nx M_tol dt
      (G.updateMomentum B damping dt v0) mp iv) (g := fun mp iv => Particle.move nx M_tol dt
      (G.updateMomentum B damping dt v0') mp iv) (by
        intro mp iv r r' hr hr'
        obtain ⟨nd, hn, -, rfl⟩ := move_ok hr
        obtain ⟨nd', hn', -, rfl⟩ := move_ok hr'
        have : nd = nd' := funext fun i => Except.ok.inj ((hn i).symm.trans (hn' i))
        subst this
        exact ⟨rfl, rfl⟩) fb fc
    dsimp only at p1 p2
    rw [eb, ec, p1, p2]

/-! ### Examples -/

section
open Ex

/-- 6 by 3 nodes with a conveyor and a vertical load. -/
def Ex.parC : Par ℚ :=
  { par with G := { gp with nx := 6, x_M := 5 }, B := { bp with conveyor := true, vertical_force := true }
             v_0 := 7, forces := fun _ => (-10, 4, 0) }

/-- A point above the belt and one near the top. -/
def Ex.LC : List (PhaseSt ℚ 2) :=
  [{ ph := ph, pts := [{ mp with x := ![5/2, 1/4, 0] }, { mp2 with x := ![5/2, 7/4, 0] }] }]

/-- After one step: belt nodes 2, 3 move at 7, node 8 above does not; the load 4 pushes node 2 up
and node 14 in the top row down. -/
def Ex.conveyorCheck (s : St parC) : Bool :=
  decide (s.G.q ⟨2, by decide⟩ 0 = 7 * s.G.m ⟨2, by decide⟩) &&
  decide (s.G.m ⟨2, by decide⟩ = 9 / 8) &&
  decide (s.G.q ⟨8, by decide⟩ 0 ≠ 7 * s.G.m ⟨8, by decide⟩) &&
  decide (s.G.fe ⟨2, by decide⟩ 1 = 9 / 8 * (-10) + 9 / 8 * 8) &&
  decide (s.G.fe ⟨14, by decide⟩ 1 = 3 / 4 * (-10) - 3 / 4 * 8)

example : run parC dyn LC 1 conveyorCheck = true := by decide +kernel

end

end
end Mpm

import Verif.Props.Energy
import Verif.Props.Surcharge

/-!
# C94: a time step with `cyclic_lr`
-/

set_option linter.unusedSectionVars false

namespace Mpm
namespace Spec

/-- First or last column. -/
def OnEdge {nx ny : ℕ} (k : Fin (ny * nx)) : Prop := (k : ℕ) % nx = 0 ∨ (k : ℕ) % nx = nx - 1

instance {nx ny : ℕ} (k : Fin (ny * nx)) : Decidable (OnEdge k) :=
  inferInstanceAs (Decidable (_ ∨ _))

/-- The nodes at the place of `k` when the first and the last column are the same place. -/
def copies {nx ny : ℕ} (k : Fin (ny * nx)) : Finset (Fin (ny * nx)) :=
  Finset.univ.filter fun j => j = k ∨ ((j : ℕ) / nx = (k : ℕ) / nx ∧ OnEdge j ∧ OnEdge k)

end Spec
open Spec

section
variable {nx ny : ℕ}

theorem copies_inner {k : Fin (ny * nx)} (h : ¬ OnEdge k) : copies k = {k} := by
  ext j
  simp [copies, h]

theorem copies_edge {k : Fin (ny * nx)} (h : OnEdge k) : copies k = {leftOf k, rightOf k} := by
  have hp := nx_pos_of_node k
  ext j
  simp only [copies, Finset.mem_filter, Finset.mem_univ, true_and, Finset.mem_insert,
    Finset.mem_singleton]
  constructor
  · have key : ∀ i : Fin (ny * nx), (i : ℕ) / nx = (k : ℕ) / nx → OnEdge i →
        i = leftOf k ∨ i = rightOf k := by
      rintro i e (h0 | h1)
      · exact .inl (node_ext (e.trans (leftOf_row k).symm) (h0.trans (leftOf_col k).symm))
      · exact .inr (node_ext (e.trans (rightOf_row k).symm) (h1.trans (rightOf_col k).symm))
    rintro (rfl | ⟨e, hj, -⟩)
    · exact key j rfl h
    · exact key j e hj
  · rintro (rfl | rfl)
    · exact .inr ⟨leftOf_row k, .inl (leftOf_col k), h⟩
    · exact .inr ⟨rightOf_row k, .inr (rightOf_col k), h⟩

theorem makeCyclic_copies {α : Type} [AddCommMonoid α] (hnx : 2 ≤ nx) (a : Fin (ny * nx) → α)
    (k : Fin (ny * nx)) : makeCyclic a k = ∑ j ∈ copies k, a j := by
  rw [makeCyclic_eq hnx]
  by_cases h : OnEdge k
  · rw [if_pos (show _ ∨ _ from h), copies_edge h, Finset.sum_pair]
    intro e
    have := congrArg (fun i : Fin (ny * nx) => (i : ℕ) % nx) e
    rw [leftOf_col, rightOf_col] at this
    omega
  · rw [if_neg (show ¬ (_ ∨ _) from h), copies_inner h, Finset.sum_singleton]

theorem copies_eq {l r : Fin (ny * nx)} (hl : (l : ℕ) % nx = 0) (hr : (r : ℕ) % nx = nx - 1)
    (hlr : (l : ℕ) / nx = (r : ℕ) / nx) : copies l = copies r := by
  ext j
  simp only [copies, Finset.mem_filter, Finset.mem_univ, true_and]
  have h1 : OnEdge l := .inl hl
  have h2 : OnEdge r := .inr hr
  constructor
  · rintro (rfl | ⟨e, hj, -⟩)
    · exact .inr ⟨hlr, h1, h2⟩
    · exact .inr ⟨e.trans hlr, hj, h2⟩
  · rintro (rfl | ⟨e, hj, -⟩)
    · exact .inr ⟨hlr.symm, h2, h1⟩
    · exact .inr ⟨e.trans hlr.symm, hj, h1⟩

end

section
variable {K : Type} [Field K] [LinearOrder K] [IsStrictOrderedRing K] [FloorRing K]
variable {P : Par K} {s s1 s2 : St P}

theorem cyclic_mq (hL : Counted s.L) (hcy : P.B.cyclic_lr = true) (T : GridPhase P s) :
    T.Gd.m = makeCyclic (nx := P.G.nx) (ny := P.G.ny) T.Ga.m ∧
    T.Gd.q = makeCyclic (nx := P.G.nx) (ny := P.G.ny) T.Ga.q := by
  obtain ⟨-, -, -, c3, c4⟩ := T.rel hL
  rw [getNodalForces_grid c4 T.hGd]
  change T.Gc.m = _ ∧ T.Gc.q = _
  rw [updateStressStrain_grid T.hLd]
  change T.Gb.m = _ ∧ T.Gb.q = _
  rw [T.hGb, hcy]
  exact ⟨rfl, rfl⟩

theorem cyclic_forces (hcy : P.B.cyclic_lr = true) (T : GridPhase P s) :
    ∃ G1, nodalForcesAll P.G.nx T.Ld T.Gc = .ok G1 ∧
      T.Gd.fi = makeCyclic (nx := P.G.nx) (ny := P.G.ny) G1.fi ∧
      T.Gd.fe = makeCyclic (nx := P.G.nx) (ny := P.G.ny) G1.fe := by
  have h := T.hGd
  unfold getNodalForces at h
  obtain ⟨G1, h1, h⟩ := res_bind_ok.1 h
  rw [hcy] at h
  have e := Except.ok.inj h
  refine ⟨G1, h1, ?_, ?_⟩
  · rw [← e]; rfl
  · rw [← e]; rfl

theorem cyclic_vis (hL : Counted s.L) (hcy : P.B.cyclic_lr = true) (T : GridPhase P s) {v : Vis}
    (hv : v ∈ cyclicVis) :
    ∃ a, T.Gd.vis v = makeCyclic (nx := P.G.nx) (ny := P.G.ny) a := by
  rw [(gridPhase_vis hL T).2]
  have h := T.hLd
  unfold updateStressStrain at h
  obtain ⟨⟨L1, vis⟩, h1, h⟩ := res_bind_ok.1 h
  rw [hcy] at h
  have e : _ = T.Gc := congrArg Prod.snd (Except.ok.inj h)
  refine ⟨vis v, ?_⟩
  rw [← e]
  exact if_pos hv

/-- C94.  After the first half of a step the two copies of an edge node carry the same mass, momentum,
forces, and the same values of the fields that are made periodic. -/
theorem c94_edges (hL : Counted s.L) (hnx : 2 ≤ P.G.nx) (hcy : P.B.cyclic_lr = true)
    (h : gridPhase P s = .ok s1) {l r : Fin P.G.N} (hl : (l : ℕ) % P.G.nx = 0)
    (hr : (r : ℕ) % P.G.nx = P.G.nx - 1) (hlr : (l : ℕ) / P.G.nx = (r : ℕ) / P.G.nx) :
    s1.G.m l = s1.G.m r ∧ s1.G.q l = s1.G.q r ∧ s1.G.fi l = s1.G.fi r ∧ s1.G.fe l = s1.G.fe r ∧
    ∀ v ∈ [Vis.pressure, .gammadot, .dev_stress, .yieldfunction, .mu_s, .mu, .I],
      s1.G.vis v l = s1.G.vis v r := by
  obtain ⟨T, rfl⟩ := gridPhase_ok h
  have key : ∀ {α : Type} [AddCommMonoid α] (a : Fin (P.G.ny * P.G.nx) → α),
      makeCyclic a l = makeCyclic a r := by
    intro α _ a
    rw [makeCyclic_copies hnx, makeCyclic_copies hnx, copies_eq hl hr hlr]
  obtain ⟨e1, e2⟩ := cyclic_mq hL hcy T
  obtain ⟨G1, -, e3, e4⟩ := cyclic_forces hcy T
  change T.Gd.m l = T.Gd.m r ∧ T.Gd.q l = T.Gd.q r ∧ T.Gd.fi l = T.Gd.fi r ∧ T.Gd.fe l = T.Gd.fe r ∧
    ∀ v ∈ [Vis.pressure, .gammadot, .dev_stress, .yieldfunction, .mu_s, .mu, .I],
      T.Gd.vis v l = T.Gd.vis v r
  rw [e1, e2, e3, e4]
  refine ⟨key _, key _, key _, key _, fun v hv => ?_⟩
  obtain ⟨a, e⟩ := cyclic_vis hL hcy T hv
  rw [e]
  exact key _

/-- C94.  The mass at a node is what the points give to all nodes at that place. -/
theorem c94_mass (hP : GoodGrid P.G) (hG : Geometry P.G s.G) (hL : Counted s.L)
    (hx : ∀ mp ∈ points s.L, InDomain P.G mp.x) (hcy : P.B.cyclic_lr = true)
    (h : gridPhase P s = .ok s1) (k : Fin P.G.N) :
    s1.G.m k = ∑ j ∈ copies (nx := P.G.nx) (ny := P.G.ny) k, nodalMass P.G s.L j := by
  obtain ⟨T, rfl⟩ := gridPhase_ok h
  change T.Gd.m k = _
  rw [(cyclic_mq hL hcy T).1, makeCyclic_copies hP.nx]
  exact Finset.sum_congr rfl fun j _ => gridPhase_mapped_mass hP hG hL hx T j

/-- C94.  The same for the momentum, away from walls. -/
theorem c94_momentum (hP : GoodGrid P.G) (hG : Geometry P.G s.G) (hL : Counted s.L)
    (hx : ∀ mp ∈ points s.L, InDomain P.G mp.x) (hcy : P.B.cyclic_lr = true)
    (h : gridPhase P s = .ok s1) (k : Fin P.G.N)
    (hw : ∀ j ∈ copies (nx := P.G.nx) (ny := P.G.ny) k,
      s.G.boundary_v j = false ∧ s.G.boundary_h j = false) (i : Fin 3) :
    s1.G.q k i = ∑ j ∈ copies (nx := P.G.nx) (ny := P.G.ny) k,
      ((items s.L).map fun x => hat P.G x.2.x j * x.2.m * x.2.v.get x.1.iv i).sum := by
  obtain ⟨T, rfl⟩ := gridPhase_ok h
  change T.Gd.q k i = _
  rw [(cyclic_mq hL hcy T).2, makeCyclic_copies hP.nx, Finset.sum_apply]
  exact Finset.sum_congr rfl fun j hj =>
    (gridPhase_mapped_momentum hP hG hL hx T j i).2 (hw j hj).1 (hw j hj).2

/-- C94.  Points that all move with velocity `u` give every node away from walls, on the edges too,
the momentum mass times `u`. -/
theorem c94_uniform (hP : GoodGrid P.G) (hG : Geometry P.G s.G) (hL : Counted s.L)
    (hx : ∀ mp ∈ points s.L, InDomain P.G mp.x) (hcy : P.B.cyclic_lr = true)
    (h : gridPhase P s = .ok s1) {u : Vec K} (hu : ∀ x ∈ items s.L, x.2.v.get x.1.iv = u)
    (k : Fin P.G.N) (hw : ∀ j ∈ copies (nx := P.G.nx) (ny := P.G.ny) k,
      s.G.boundary_v j = false ∧ s.G.boundary_h j = false) :
    s1.G.q k = s1.G.m k • u := by
  funext i
  rw [c94_momentum hP hG hL hx hcy h k hw i, Pi.smul_apply, c94_mass hP hG hL hx hcy h k,
    smul_eq_mul, Finset.sum_mul]
  refine Finset.sum_congr rfl fun j _ => ?_
  unfold nodalMass
  rw [← items_map_snd, List.map_map, ← List.sum_map_mul_right]
  refine congrArg List.sum (List.map_congr_left fun x hx' => ?_)
  rw [hu x hx']
  rfl

/-- C94.  The nodal forces are those of the points on all nodes at the place, with the stresses and
body forces of this step. -/
theorem c94_forces (hL : Counted s.L) (hnx : 2 ≤ P.G.nx) (hcy : P.B.cyclic_lr = true)
    (h : gridPhase P s = .ok s1) (k : Fin P.G.N) :
    s1.G.fi k = (∑ j ∈ copies (nx := P.G.nx) (ny := P.G.ny) k,
      ((points s1.L).map fun mp => mp.V • Matrix.mulVec mp.stress (gradWeight P.G.nx mp j)).sum) ∧
    s1.G.fe k = ∑ j ∈ copies (nx := P.G.nx) (ny := P.G.ny) k,
      ((points s1.L).map fun mp => (weight P.G.nx mp j * mp.m) • mp.b).sum := by
  obtain ⟨T, rfl⟩ := gridPhase_ok h
  obtain ⟨G1, h1, e3, e4⟩ := cyclic_forces hcy T
  obtain ⟨-, -, -, -, c4⟩ := T.rel hL
  obtain ⟨w0, w1⟩ := gridPhase_forces_zero T hL
  change T.Gd.fi k = _ ∧ T.Gd.fe k = _
  rw [e3, e4, makeCyclic_copies hnx, makeCyclic_copies hnx]
  constructor
  · refine Finset.sum_congr rfl fun j _ => ?_
    rw [nodalForcesAll_fi c4 h1, w0, zero_add]
  · refine Finset.sum_congr rfl fun j _ => ?_
    rw [nodalForcesAll_fe c4 h1, w1, zero_add]

/-- C94.  The nodal pressure of C77, summed over the nodes at the place. -/
theorem c94_pressure (hL : Counted s.L) (hnx : 2 ≤ P.G.nx) (hcy : P.B.cyclic_lr = true)
    (hd : ∀ a ∈ s.L, a.ph.law ≠ .dp_rate) (h : gridPhase P s = .ok s1) (k : Fin P.G.N) :
    s1.G.vis .pressure k = .fin (∑ j ∈ copies (nx := P.G.nx) (ny := P.G.ny) k,
      ((items s1.L).map fun x => weight P.G.nx x.2 j * x.2.m * heldPressure x.1 x.2).sum) := by
  obtain ⟨T, rfl⟩ := gridPhase_ok h
  obtain ⟨e1, e2⟩ := gridPhase_vis hL T
  have r1 := updateForces_rel hL T.ha
  have rL := r1.comp (locate_all (r1.counted hL) T.hb T.hc).1
  obtain ⟨vis, e, hv⟩ := updateStressStrain_pressure_pre (T.rel hL).2.2.2.1 (fun a ha => by
    obtain ⟨a0, ha0, e0, -⟩ := forall₂_right rL ha
    rw [e0]; exact hd a0 ha0) T.hLd
  change T.Gd.vis .pressure k = _
  rw [e2, e, hcy]
  change makeCyclic (nx := P.G.nx) (ny := P.G.ny) (vis .pressure) k = _
  rw [makeCyclic_copies hnx, ← fin_sum]
  refine Finset.sum_congr rfl fun j _ => ?_
  rw [hv, e1]
  exact zero_add _

/-- C94.  Over the distinct places of the periodic grid: the masses add up to the mass of the points,
the internal forces cancel, the external forces are the weight, and without walls the momenta add up
to that of the points. -/
theorem c94_totals (hL : Counted s.L) (hnx : 2 ≤ P.G.nx) (hcy : P.B.cyclic_lr = true)
    (h : gridPhase P s = .ok s1) :
    ∑ k ∈ distinct P.G.nx P.G.ny, s1.G.m k = totalMass s.L ∧
    ∑ k ∈ distinct P.G.nx P.G.ny, s1.G.fi k = 0 ∧
    ∑ k ∈ distinct P.G.nx P.G.ny, s1.G.fe k = totalWeight s1.L ∧
    ((∀ k, s.G.boundary_v k = false ∧ s.G.boundary_h k = false) →
      ∑ k ∈ distinct P.G.nx P.G.ny, s1.G.q k = totalMomentum s.L) := by
  obtain ⟨T, rfl⟩ := gridPhase_ok h
  obtain ⟨e1, e2⟩ := cyclic_mq hL hcy T
  obtain ⟨G1, h1, e3, e4⟩ := cyclic_forces hcy T
  obtain ⟨hr, -, -, -, c4⟩ := T.rel hL
  obtain ⟨w0, w1⟩ := gridPhase_forces_zero T hL
  have r1 := updateForces_rel hL T.ha
  have c1 := r1.counted hL
  change ∑ k ∈ distinct P.G.nx P.G.ny, T.Gd.m k = _ ∧ ∑ k ∈ distinct P.G.nx P.G.ny, T.Gd.fi k = _ ∧
    ∑ k ∈ distinct P.G.nx P.G.ny, T.Gd.fe k = _ ∧
    (_ → ∑ k ∈ distinct P.G.nx P.G.ny, T.Gd.q k = _)
  have hf := forces_balance_core c4 (by
    intro mp hmp
    obtain ⟨a, _, ph, ha⟩ := forall₂_right hr.points hmp
    exact ⟨ha.2.2.2.2.2.2.2.1, ha.2.2.2.2.2.2.2.2.1⟩) w0 w1 h1
  rw [e1, e2, e3, e4]
  simp only [c22_total hnx]
  refine ⟨?_, hf.1, hf.2, fun hw => ?_⟩
  · refine (c05_mass_conserved c1 T.hb T.hc T.hGa).trans ?_
    exact r1.totalMass (fun _ _ _ h => by rw [h.1])
  · refine (c06_momentum_conserved_free c1 hw T.hb T.hc T.hGa).trans ?_
    exact r1.totalMomentum (fun _ _ _ h => by rw [h.1]; exact ⟨rfl, rfl⟩)

theorem updateMomentum_alike {nx ny ns : ℕ} (hnx : 3 ≤ nx) {B : BP K} {damping : Bool} {dt v0 : K}
    (G : Grid K (ny * nx) ns) {l r : Fin (ny * nx)} (hl : (l : ℕ) % nx = 0)
    (hr : (r : ℕ) % nx = nx - 1) (hlr : (l : ℕ) / nx = (r : ℕ) / nx)
    (em : G.m l = G.m r) (eq : G.q l = G.q r) (ei : G.fi l = G.fi r) (ee : G.fe l = G.fe r)
    (ev : G.boundary_v l = G.boundary_v r) (eh : G.boundary_h l = G.boundary_h r)
    (ec : G.boundary_conveyor l = G.boundary_conveyor r) :
    (G.updateMomentum B damping dt v0).q_dot l = (G.updateMomentum B damping dt v0).q_dot r ∧
    (G.updateMomentum B damping dt v0).q l = (G.updateMomentum B damping dt v0).q r ∧
    (G.updateMomentum B damping dt v0).m l = (G.updateMomentum B damping dt v0).m r := by
  have hb : inBottom nx ny l = inBottom nx ny r := by
    rw [Bool.eq_iff_iff, inBottom_iff, inBottom_iff, hlr]
  have ht : inTop nx ny l = inTop nx ny r := by
    rw [Bool.eq_iff_iff, inTop_iff, inTop_iff, hlr]
  have h1 : (inLeft nx ny l || inRight nx ny l) = true := by
    rw [(inLeft_iff l).2 hl]; rfl
  have h2 : (inLeft nx ny r || inRight nx ny r) = true := by
    rw [(inRight_iff r).2 hr]; simp
  have n1 : decide ((l : ℕ) = 1) = false := by
    refine decide_eq_false fun e => ?_
    rw [e, Nat.mod_eq_of_lt (by omega)] at hl
    omega
  have n2 : decide ((r : ℕ) = 1) = false := by
    refine decide_eq_false fun e => ?_
    rw [e, Nat.mod_eq_of_lt (by omega)] at hr
    omega
  have hd : (G.updateMomentum B damping dt v0).q_dot l =
      (G.updateMomentum B damping dt v0).q_dot r := by
    unfold Grid.updateMomentum
    cases B.roughness <;> by_cases hw : B.wall_mu = 0 <;> cases damping <;>
      simp [hw, ei, ee, ev, eh, hb, ht, h1, h2, n1, n2, Bool.or_assoc]
  refine ⟨hd, ?_, em⟩
  have key : ∀ k, (G.updateMomentum B damping dt v0).q k =
      if B.conveyor && G.boundary_conveyor k then
        Function.update (G.q k + dt • (G.updateMomentum B damping dt v0).q_dot k) 0 (v0 * G.m k)
      else G.q k + dt • (G.updateMomentum B damping dt v0).q_dot k := by
    intro k
    unfold Grid.updateMomentum
    cases hcv : B.conveyor <;> cases hk : G.boundary_conveyor k <;> simp [hk]
  rw [key, key, hd, eq, em, ec]

/-- C94.  If the walls mark both copies of an edge node alike and no horizontal stress is applied, the
step moves both copies alike. -/
theorem c94_motion {interp : Interp K P.G.N} (hL : Counted s.L) (hnx : 3 ≤ P.G.nx)
    (hcy : P.B.cyclic_lr = true) (hf : P.B.horizontal_force = false)
    (h1 : gridPhase P s = .ok s1) (h2 : momentumPhase P interp s1 = .ok s2)
    {l r : Fin P.G.N} (hl : (l : ℕ) % P.G.nx = 0)
    (hr : (r : ℕ) % P.G.nx = P.G.nx - 1) (hlr : (l : ℕ) / P.G.nx = (r : ℕ) / P.G.nx)
    (hv : s.G.boundary_v l = s.G.boundary_v r) (hh : s.G.boundary_h l = s.G.boundary_h r)
    (hc : s.G.boundary_conveyor l = s.G.boundary_conveyor r) :
    s2.G.m l = s2.G.m r ∧ s2.G.q l = s2.G.q r ∧ s2.G.q_dot l = s2.G.q_dot r := by
  obtain ⟨em, eq, ei, ee, -⟩ := c94_edges hL (by omega) hcy h1 hl hr hlr
  obtain ⟨G1, hG1, e⟩ := momentumPhase_frame h2
  have e1 := BCs_frame hG1
  obtain ⟨T, rfl⟩ := gridPhase_ok h1
  obtain ⟨-, -, -, st, -, -⟩ := T.static
  have hfe : G1.fe l = G1.fe r := by
    have a := BCs_fe hG1 (fun k => T.ext k) l
    have b := BCs_fe hG1 (fun k => T.ext k) r
    simp only [hf, Bool.false_eq_true, if_false, add_zero] at a b
    have hb : inBottom P.G.nx P.G.ny l = inBottom P.G.nx P.G.ny r := by
      rw [Bool.eq_iff_iff, inBottom_iff, inBottom_iff, hlr]
    have ht : inTop P.G.nx P.G.ny l = inTop P.G.nx P.G.ny r := by
      rw [Bool.eq_iff_iff, inTop_iff, inTop_iff, hlr]
    funext i
    fin_cases i
    · exact a.1.trans ((congrFun ee 0).trans b.1.symm)
    · refine a.2.1.trans (Eq.trans ?_ b.2.1.symm)
      rw [hb, ht]
      change T.Gd.fe l 1 + (if _ then 2 * T.Gd.m l / _ / _ * _ else 0) = _
      rw [show T.Gd.m l = T.Gd.m r from em, show T.Gd.fe l = T.Gd.fe r from ee]
    · exact a.2.2.trans ((congrFun ee 2).trans b.2.2.symm)
  have fm : G1.m = T.Gd.m := by rw [e1]
  have fq : G1.q = T.Gd.q := by rw [e1]
  have fi : G1.fi = T.Gd.fi := by rw [e1]
  have fv : G1.boundary_v = s.G.boundary_v := by rw [e1, ← st.bv]
  have fh : G1.boundary_h = s.G.boundary_h := by rw [e1, ← st.bh]
  have fc : G1.boundary_conveyor = s.G.boundary_conveyor := by rw [e1, ← st.conv]
  have := updateMomentum_alike hnx (B := P.B) (damping := P.damping) (dt := T.d.dt) (v0 := P.v_0) G1
    hl hr hlr (by rw [fm]; exact em) (by rw [fq]; exact eq) (by rw [fi]; exact ei) hfe
    (by rw [fv]; exact hv) (by rw [fh]; exact hh) (by rw [fc]; exact hc)
  rw [e]
  exact ⟨this.2.2, this.2.1, this.1⟩

/-- C94, what is left out: the size fractions are not made periodic.  At a node whose own side carries
mass they are the means over the points of that side only, also on the edges. -/
theorem c94_fractions (hP : GoodGrid P.G) (hG : Geometry P.G s.G) (hL : Counted s.L)
    (hx : ∀ mp ∈ points s.L, InDomain P.G mp.x) (hseg : P.segregate_grid = true)
    (h : gridPhase P s = .ok s1) (k : Fin P.G.N) (hk : nodalMass P.G s.L k ≠ 0) (j : Fin P.G.ns) :
    s1.G.phi k j =
      ((points s.L).map fun mp => hat P.G mp.x k * mp.m * mp.phi j).sum / nodalMass P.G s.L k := by
  obtain ⟨T, rfl⟩ := gridPhase_ok h
  obtain ⟨-, -, -, c3, c4⟩ := T.rel hL
  have e1 : T.Gd.phi = T.Ga.phi := by
    rw [getNodalForces_grid c4 T.hGd]
    change T.Gc.phi = _
    rw [updateStressStrain_grid T.hLd]
    change T.Gb.phi = _
    rw [T.hGb]
    split <;> rfl
  have em := gridPhase_mapped_mass hP hG hL hx T k
  obtain ⟨G1, h1, e2⟩ := getNodalMassMomentum_ok T.hGa
  rw [hseg] at h1 e2
  have e3 : T.Ga.m = G1.m := by rw [e2]; rfl
  have e4 : T.Ga.phi k j = (.fin (G1.phim k j) / .fin (G1.m k) : XF K).nanToNum P.ops.big := by
    rw [e2]; rfl
  have e5 : G1.phim k j = ((points s.L).map fun mp => hat P.G mp.x k * mp.m * mp.phi j).sum := by
    rw [p2gAll_phim c3 h1]
    change (0 + _ : Fin P.G.ns → K) j = _
    rw [zero_add]
    have : ∀ l : List (Particle K P.G.ns),
        ((l.map fun mp => (weight P.G.nx mp k * mp.m) • mp.phi).sum : Fin P.G.ns → K) j =
        (l.map fun mp => weight P.G.nx mp k * mp.m * mp.phi j).sum := by
      intro l
      induction l with
      | nil => rfl
      | cons a l ih =>
        simp only [List.map_cons, List.sum_cons, Pi.add_apply, ih, Pi.smul_apply, smul_eq_mul]
    rw [this]
    refine (congrArg List.sum (forall₂_map_eq ?_ (gridPhase_cell hP hG hL hx T).points)).symm
    rintro a b ⟨ph, ii, jj, nd, hc, ey, -⟩
    have ew : weight P.G.nx b k = hat P.G a.x k := by
      rw [← weight_atCell hP hc, ey]
      rfl
    rw [ew, ey]
    rfl
  change T.Gd.phi k j = _
  rw [e1, e4, e5, ← e3, em, XF.fin_div _ hk]
  rfl

end

/-! ## The hypotheses can be met -/

namespace Ex

/-- A periodic grid; the second point consists of the first size only. -/
def parCy : Par ℚ := { par with B := { bp with cyclic_lr := true }, segregate_grid := true }

def LCy : List (PhaseSt ℚ 2) := [{ ph := ph, pts := [mp, { mp2 with phi := ![1, 0] }] }]

theorem countedCy : Counted LCy := by
  intro a ha
  simp [LCy] at ha
  subst ha
  rfl

theorem inDomainCy : ∀ mp ∈ points LCy, InDomain gp mp.x := by
  intro mp' hmp
  simp only [points, LCy, List.flatMap_cons, List.flatMap_nil, List.append_nil,
    List.mem_cons, List.not_mem_nil, or_false] at hmp
  rcases hmp with rfl | rfl
  · simp only [InDomain, gp, mp, Matrix.cons_val_zero, Matrix.cons_val_one]; norm_num
  · simp only [InDomain, gp, mp2, Matrix.cons_val_zero, Matrix.cons_val_one]; norm_num

/-- Both halves of a periodic step from a fresh grid. -/
def halvesCy : Res (St parCy × St parCy) := do
  let G ← mkGrid parCy.G parCy.B
  let s1 ← gridPhase parCy { dyn := dyn, L := LCy, G := G }
  let s2 ← momentumPhase parCy (noInterp parCy) s1
  return (s1, s2)

theorem halvesCy_ok {check : St parCy × St parCy → Bool} (h : okAnd halvesCy check = true) :
    ∃ G s1 s2, mkGrid parCy.G parCy.B = .ok G ∧
      gridPhase parCy { dyn := dyn, L := LCy, G := G } = .ok s1 ∧
      momentumPhase parCy (noInterp parCy) s1 = .ok s2 ∧ check (s1, s2) = true := by
  obtain ⟨⟨a, b⟩, e, hc⟩ := okAnd_ok h
  unfold halvesCy at e
  obtain ⟨G, hG, e⟩ := res_bind_ok.1 e
  obtain ⟨s1, h1, e⟩ := res_bind_ok.1 e
  obtain ⟨s2, h2, e⟩ := res_bind_ok.1 e
  obtain ⟨rfl, rfl⟩ := Prod.mk.inj (Except.ok.inj e)
  exact ⟨G, s1, s2, hG, h1, h2, hc⟩

/-- The copies 3 and 5 of the node in the middle of the left edge. -/
def cyL : Fin parCy.G.N := (⟨3, by decide⟩ : Fin (3 * 3))
def cyR : Fin parCy.G.N := (⟨5, by decide⟩ : Fin (3 * 3))

/-- All hypotheses hold for this step; the copies 3 and 5 get the same mass and momentum, but the
fractions of the first size there are 1/4 and 1. -/
theorem cyclic_witness : ∃ G s1 s2, mkGrid parCy.G parCy.B = .ok G ∧
    gridPhase parCy { dyn := dyn, L := LCy, G := G } = .ok s1 ∧
    momentumPhase parCy (noInterp parCy) s1 = .ok s2 ∧
    (s1.G.m cyL = 11 / 8 ∧ s1.G.m cyR = 11 / 8 ∧ s2.G.q cyL 0 = s2.G.q cyR 0 ∧
      s2.G.q cyL 0 ≠ 0) ∧ (s1.G.phi cyL (0 : Fin 2) = 1 / 4 ∧ s1.G.phi cyR (0 : Fin 2) = 1) := by
  obtain ⟨G, s1, s2, h0, h1, h2, h⟩ := halvesCy_ok (check := fun x =>
    decide ((x.1.G.m cyL = 11 / 8 ∧ x.1.G.m cyR = 11 / 8 ∧ x.2.G.q cyL 0 = x.2.G.q cyR 0 ∧
      x.2.G.q cyL 0 ≠ 0) ∧ (x.1.G.phi cyL (0 : Fin 2) = 1 / 4 ∧ x.1.G.phi cyR (0 : Fin 2) = 1)))
    (by decide +kernel)
  exact ⟨G, s1, s2, h0, h1, h2, of_decide_eq_true h⟩

end Ex

/-- C94, negative part: with `cyclic_lr` the two copies of an edge node can hold different size
fractions although they have the same mass and momentum. -/
theorem c94_fractions_differ : ∃ (P : Par ℚ) (s s1 : St P) (l r : Fin P.G.N) (j : Fin P.G.ns),
    P.B.cyclic_lr = true ∧ GoodGrid P.G ∧ Counted s.L ∧ (∀ mp ∈ points s.L, InDomain P.G mp.x) ∧
    mkGrid P.G P.B = .ok s.G ∧ gridPhase P s = .ok s1 ∧
    (l : ℕ) % P.G.nx = 0 ∧ (r : ℕ) % P.G.nx = P.G.nx - 1 ∧ (l : ℕ) / P.G.nx = (r : ℕ) / P.G.nx ∧
    s1.G.m l = s1.G.m r ∧ s1.G.phi l j ≠ s1.G.phi r j := by
  obtain ⟨G, s1, s2, h0, h1, -, ⟨m1, m2, -⟩, p1, p2⟩ := Ex.cyclic_witness
  refine ⟨Ex.parCy, ⟨Ex.dyn, Ex.LCy, G⟩, s1, Ex.cyL, Ex.cyR, (0 : Fin 2), rfl, Ex.good, Ex.countedCy,
    Ex.inDomainCy, h0, h1, rfl, rfl, rfl, m1.trans m2.symm, ?_⟩
  rw [p1, p2]
  norm_num

/-- The hypotheses of the positive statements, in the same step. -/
example : ∃ (s s1 s2 : St Ex.parCy), Counted s.L ∧ 3 ≤ Ex.parCy.G.nx ∧ GoodGrid Ex.parCy.G ∧
    Geometry Ex.parCy.G s.G ∧ (∀ mp ∈ points s.L, InDomain Ex.parCy.G mp.x) ∧
    Ex.parCy.B.cyclic_lr = true ∧ Ex.parCy.segregate_grid = true ∧
    Ex.parCy.B.horizontal_force = false ∧
    gridPhase Ex.parCy s = .ok s1 ∧ momentumPhase Ex.parCy (Ex.noInterp Ex.parCy) s1 = .ok s2 ∧
    (∀ k, s.G.boundary_v k = false ∧ s.G.boundary_h k = false) ∧
    (∀ a ∈ s.L, a.ph.law ≠ .dp_rate) ∧ s1.G.m Ex.cyL = 11 / 8 := by
  obtain ⟨G, s1, s2, h0, h1, h2, ⟨m1, -⟩, -⟩ := Ex.cyclic_witness
  refine ⟨⟨Ex.dyn, Ex.LCy, G⟩, s1, s2, Ex.countedCy, le_refl _, Ex.good, mkGrid_geometry h0,
    Ex.inDomainCy, rfl, rfl, rfl, h1, h2, ?_, ?_, m1⟩
  · obtain ⟨e1, e2, -⟩ := mkGrid_masks h0
    intro k
    change G.boundary_v k = false ∧ G.boundary_h k = false
    rw [e1, e2]
    exact ⟨rfl, rfl⟩
  · intro a ha
    obtain rfl := List.mem_singleton.1 ha
    simp [Ex.ph]

end Mpm

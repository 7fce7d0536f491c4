import Verif.Lemmas.Total
import Verif.Examples

/-!
# C05–C08: conservation when mapping points to the grid
-/

set_option linter.unusedSectionVars false

namespace Mpm
open Spec

section
variable {K : Type} [Field K] [LinearOrder K] [IsStrictOrderedRing K] [FloorRing K]

theorem zeroBoundary_m {N ns : ℕ} (rough : Bool) (G : Grid K N ns) :
    (G.zeroBoundaryMomentum rough).m = G.m := rfl

theorem maskOff_eq (x : K) (b : Bool) : maskOff x b = if b then 0 else x := by
  cases b <;> simp [maskOff]

theorem zeroBoundary_q {N ns : ℕ} (rough : Bool) (G : Grid K N ns) (k : Fin N) :
    (G.zeroBoundaryMomentum rough).q k 2 = G.q k 2 ∧
    (G.zeroBoundaryMomentum rough).q k 0 =
      (if G.boundary_v k ∨ (rough ∧ G.boundary_h k) then 0 else G.q k 0) ∧
    (G.zeroBoundaryMomentum rough).q k 1 =
      (if G.boundary_h k ∨ (rough ∧ G.boundary_v k) then 0 else G.q k 1) := by
  unfold Grid.zeroBoundaryMomentum
  cases rough <;> cases hv : G.boundary_v k <;> cases hh : G.boundary_h k <;>
    simp [maskOff_eq, hv, hh]

theorem nodalFractions_m {N ns : ℕ} (big : K) (s : Fin ns → K) (G : Grid K N ns) :
    (G.nodalFractions big s).m = G.m := rfl

/-- `get_nodal_mass_momentum` consists of the pure mapping, the nodal fractions, and the
zeroing of wall momenta. -/
theorem getNodalMassMomentum_ok {P : Par K} {N ns : ℕ} {s : Fin ns → K} {L : List (PhaseSt K ns)}
    {G G' : Grid K N ns} (h : getNodalMassMomentum P s L G = .ok G') :
    ∃ G1, p2gAll P.G.nx P.segregate_grid L G = .ok G1 ∧
      G' = (if P.segregate_grid then G1.nodalFractions P.ops.big s else G1).zeroBoundaryMomentum
        P.B.roughness := by
  unfold getNodalMassMomentum at h
  obtain ⟨G1, h1, h⟩ := res_bind_ok.1 h
  refine ⟨G1, h1, ?_⟩
  simp at h
  exact h.symm

theorem p2g_total_mass {nx N ns : ℕ} {seg : Bool} {L0 L : List (PhaseSt K ns)}
    (hr : PtsRel (fun _ => Located) L0 L) (hc : Counted L)
    {G G' : Grid K N ns} (hG : ∀ k, G.m k = 0) (h : p2gAll nx seg L G = .ok G') :
    ∑ k, G'.m k = totalMass L0 := by
  have hn := ((p2gAll_ok hc).1 h).1
  simp only [p2gAll_m hc h, hG, zero_add]
  rw [list_sum_finset, ← hr.totalMass (fun _ _ _ h => h.mass)]
  unfold totalMass
  congr 1
  refine List.map_congr_left fun mp hmp => ?_
  obtain ⟨a, _, _, ha⟩ := forall₂_right hr.points hmp
  have hno : NodesOk nx N mp := by
    rw [← items_map_snd] at hmp
    obtain ⟨x, hx, rfl⟩ := List.mem_map.1 hmp
    exact hn x hx
  rw [← Finset.sum_mul, weight_sum hno, ha.sumN, one_mul]

theorem p2g_total_momentum {nx N ns : ℕ} {seg : Bool} {L0 L : List (PhaseSt K ns)}
    (hr : PtsRel (fun _ => Located) L0 L) (hc : Counted L)
    {G G' : Grid K N ns} (hG : ∀ k, G.q k = 0) (h : p2gAll nx seg L G = .ok G') :
    ∑ k, G'.q k = totalMomentum L0 := by
  have hn := ((p2gAll_ok hc).1 h).1
  simp only [p2gAll_q hc h, hG, zero_add]
  rw [list_sum_finset, ← hr.totalMomentum (fun _ _ _ h => by rw [h.eq]; exact ⟨rfl, rfl⟩),
    ← items_momentum]
  congr 1
  refine List.map_congr_left fun x hx => ?_
  obtain ⟨a, _, _, ha⟩ := forall₂_right hr.items hx
  rw [← Finset.sum_smul, ← Finset.sum_mul, weight_sum (hn x hx), ha.sumN, one_mul]

/-! ## C05 -/

/-- Mapping all points to a wiped grid conserves mass, wherever the points are, as long as no
exception is raised. -/
theorem c05_mass_conserved {P : Par K} {ns : ℕ} {s : Fin ns → K} {L L1 L2 : List (PhaseSt K ns)}
    {G G' : Grid K P.G.N ns} (hL : Counted L)
    (h1 : getReferenceNodes P.G G.wipe L = .ok L1) (h2 : getBasisFunctions G.wipe L1 = .ok L2)
    (h3 : getNodalMassMomentum P s L2 G.wipe = .ok G') :
    ∑ k, G'.m k = totalMass L := by
  obtain ⟨hr, _, c2⟩ := locate_all hL h1 h2
  obtain ⟨G1, h4, rfl⟩ := getNodalMassMomentum_ok h3
  rw [zeroBoundary_m]
  have : (if P.segregate_grid then G1.nodalFractions P.ops.big s else G1).m = G1.m := by
    split <;> rfl
  rw [this]
  exact p2g_total_mass hr c2 (fun _ => rfl) h4

/-! ## C06 -/

/-- Conservation of momentum.  `G1` is the grid right after the mapping; the final grid differs
from it in momentum only at marked nodes, where exactly the wall-normal (if rough: also the
tangential) components are zero. -/
theorem c06_momentum_conserved {P : Par K} {ns : ℕ} {s : Fin ns → K}
    {L L1 L2 : List (PhaseSt K ns)} {G G' : Grid K P.G.N ns} (hL : Counted L)
    (h1 : getReferenceNodes P.G G.wipe L = .ok L1) (h2 : getBasisFunctions G.wipe L1 = .ok L2)
    (h3 : getNodalMassMomentum P s L2 G.wipe = .ok G') :
    ∃ q : Fin P.G.N → Vec K, ∑ k, q k = totalMomentum L ∧
      ∀ k, G'.q k 2 = q k 2 ∧
        G'.q k 0 = (if G.boundary_v k ∨ (P.B.roughness ∧ G.boundary_h k) then 0 else q k 0) ∧
        G'.q k 1 = (if G.boundary_h k ∨ (P.B.roughness ∧ G.boundary_v k) then 0 else q k 1) := by
  obtain ⟨hr, _, c2⟩ := locate_all hL h1 h2
  obtain ⟨G1, h4, rfl⟩ := getNodalMassMomentum_ok h3
  refine ⟨G1.q, p2g_total_momentum hr c2 (fun _ => rfl) h4, fun k => ?_⟩
  have e1 : (if P.segregate_grid then G1.nodalFractions P.ops.big s else G1).q = G1.q := by
    split <;> rfl
  have bv : G1.boundary_v = G.boundary_v := by
    rw [((p2gAll_ok c2).1 h4).2]
    exact foldl_const (fun (x : Phase K ns × Particle K ns) (G : Grid K P.G.N ns) =>
      p2gClosed P.G.nx P.segregate_grid (x.2.v.get x.1.iv) x.2 G) (fun G => G.boundary_v)
      (fun _ _ => rfl) _ _
  have bh : G1.boundary_h = G.boundary_h := by
    rw [((p2gAll_ok c2).1 h4).2]
    exact foldl_const (fun (x : Phase K ns × Particle K ns) (G : Grid K P.G.N ns) =>
      p2gClosed P.G.nx P.segregate_grid (x.2.v.get x.1.iv) x.2 G) (fun G => G.boundary_h)
      (fun _ _ => rfl) _ _
  have e2 : (if P.segregate_grid then G1.nodalFractions P.ops.big s else G1).boundary_v
      = G.boundary_v := by rw [← bv]; split <;> rfl
  have e3 : (if P.segregate_grid then G1.nodalFractions P.ops.big s else G1).boundary_h
      = G.boundary_h := by rw [← bh]; split <;> rfl
  have hq := zeroBoundary_q P.B.roughness
    (if P.segregate_grid then G1.nodalFractions P.ops.big s else G1) k
  rw [e1, e2, e3] at hq
  exact hq

/-- Without any marked node all of it is conserved. -/
theorem c06_momentum_conserved_free {P : Par K} {ns : ℕ} {s : Fin ns → K}
    {L L1 L2 : List (PhaseSt K ns)} {G G' : Grid K P.G.N ns} (hL : Counted L)
    (hb : ∀ k, G.boundary_v k = false ∧ G.boundary_h k = false)
    (h1 : getReferenceNodes P.G G.wipe L = .ok L1) (h2 : getBasisFunctions G.wipe L1 = .ok L2)
    (h3 : getNodalMassMomentum P s L2 G.wipe = .ok G') :
    ∑ k, G'.q k = totalMomentum L := by
  obtain ⟨q, hq, h⟩ := c06_momentum_conserved hL h1 h2 h3
  rw [← hq]
  refine Finset.sum_congr rfl fun k _ => ?_
  obtain ⟨a, b, c⟩ := h k
  simp [hb k] at b c
  funext i
  fin_cases i
  · exact b
  · exact c
  · exact a

/-! ## C07 -/

/-- Same phases, the points of each phase in another order. -/
def Reordered {ns : ℕ} (L L' : List (PhaseSt K ns)) : Prop :=
  List.Forall₂ (fun a a' => a'.ph = a.ph ∧ a.pts.Perm a'.pts) L L'

theorem Reordered.counted {ns : ℕ} {L L' : List (PhaseSt K ns)} (h : Reordered L L')
    (hL : Counted L) : Counted L' := by
  induction h with
  | nil => exact hL
  | cons h _ ih =>
    intro a ha
    rcases List.mem_cons.1 ha with rfl | ha
    · rw [h.1, ← h.2.length_eq]; exact hL _ List.mem_cons_self
    · exact ih (fun b hb => hL b (List.mem_cons_of_mem _ hb)) a ha

theorem Reordered.items {ns : ℕ} {L L' : List (PhaseSt K ns)} (h : Reordered L L') :
    (items L).Perm (items L') := by
  induction h with
  | nil => exact .nil
  | cons h _ ih =>
    rw [items_cons, items_cons]
    refine List.Perm.append ?_ ih
    rw [h.1]
    exact h.2.map _

theorem p2gClosed_comm {N ns nx : ℕ} {seg : Bool} (u v : Vec K) (a b : Particle K ns)
    (G : Grid K N ns) :
    p2gClosed nx seg u a (p2gClosed nx seg v b G) =
      p2gClosed nx seg v b (p2gClosed nx seg u a G) := by
  unfold p2gClosed
  cases seg <;> simp only [Bool.false_eq_true, if_false, if_true, Grid.mk.injEq, true_and, and_true]
  · exact ⟨by funext k; ring, by funext k; abel⟩
  · exact ⟨by funext k; ring, by funext k; abel, by funext k; ring, by funext k; abel⟩

theorem forcesClosed_comm {N ns nx : ℕ} (a b : Particle K ns) (G : Grid K N ns) :
    forcesClosed nx a (forcesClosed nx b G) = forcesClosed nx b (forcesClosed nx a G) := by
  unfold forcesClosed
  simp only [Grid.mk.injEq, true_and, and_true]
  exact ⟨by funext k; abel, by funext k; abel⟩

/-- The grid state after mapping (masses, momenta, size masses, and everything derived from
them) does not depend on the storage order; this includes which exception is raised, if any. -/
theorem c07_order_independent_mapping {P : Par K} {ns N : ℕ} {s : Fin ns → K}
    {L L' : List (PhaseSt K ns)} (hL : Counted L) (h : Reordered L L') (G : Grid K N ns) :
    getNodalMassMomentum P s L G = getNodalMassMomentum P s L' G := by
  have : p2gAll P.G.nx P.segregate_grid L G = p2gAll P.G.nx P.segregate_grid L' G := by
    rw [p2gAll_eq hL, p2gAll_eq (h.counted hL)]
    exact foldlM_perm
      (f := fun (x : Phase K ns × Particle K ns) G =>
        x.2.p2g P.G.nx P.segregate_grid (x.2.v.get x.1.iv) G)
      (fun _ _ _ => p2g_ok) (fun _ _ hn => p2g_error hn)
      (fun _ _ _ => p2gClosed_comm _ _ _ _ _) h.items G
  unfold getNodalMassMomentum
  rw [this]

/-- The same for the nodal forces. -/
theorem c07_order_independent_forces {P : Par K} {nx ny ns : ℕ}
    {L L' : List (PhaseSt K ns)} (hL : Counted L) (h : Reordered L L') (G : Grid K (ny * nx) ns) :
    getNodalForces P L G = getNodalForces P L' G := by
  have : nodalForcesAll nx L G = nodalForcesAll nx L' G := by
    rw [nodalForcesAll_eq hL, nodalForcesAll_eq (h.counted hL)]
    exact foldlM_perm
      (f := fun (x : Phase K ns × Particle K ns) (G : Grid K (ny * nx) ns) => x.2.nodalForces nx G)
      (fun _ _ _ => nodalForces_ok) (fun _ _ hn => nodalForces_error hn)
      (fun _ _ _ => forcesClosed_comm _ _ _) h.items G
  unfold getNodalForces
  rw [this]

/-! ## C08 -/

theorem forces_balance_core {nx N ns : ℕ} {L : List (PhaseSt K ns)} (hL : Counted L)
    (hb : ∀ mp ∈ points L, ∑ r, mp.N r = 1 ∧ ∑ r, mp.Gs r = 0)
    {G G' : Grid K N ns} (w0 : ∀ k, G.fi k = 0) (w1 : ∀ k, G.fe k = 0)
    (h : nodalForcesAll nx L G = .ok G') :
    ∑ k, G'.fi k = 0 ∧ ∑ k, G'.fe k = totalWeight L := by
  have hn := ((nodalForcesAll_ok hL).1 h).1
  have hno : ∀ mp ∈ points L, NodesOk nx N mp := by
    intro mp hmp
    rw [← items_map_snd] at hmp
    obtain ⟨x, hx, rfl⟩ := List.mem_map.1 hmp
    exact hn x hx
  constructor
  · simp only [nodalForcesAll_fi hL h, w0, zero_add]
    rw [list_sum_finset]
    rw [List.map_congr_left (g := fun _ => (0 : Vec K))]
    · simp
    · intro mp hmp
      rw [← Finset.smul_sum, ← Matrix.mulVec_sum, gradWeight_sum (hno mp hmp), (hb mp hmp).2]
      simp
  · simp only [nodalForcesAll_fe hL h, w1, zero_add]
    rw [list_sum_finset]
    unfold totalWeight
    congr 1
    refine List.map_congr_left fun mp hmp => ?_
    rw [← Finset.sum_smul, ← Finset.sum_mul, weight_sum (hno mp hmp), (hb mp hmp).1, one_mul]

theorem getNodalForces_acyclic {P : Par K} {nx ny ns : ℕ} (hcyc : P.B.cyclic_lr = false)
    {L : List (PhaseSt K ns)} {G G' : Grid K (ny * nx) ns} (h : getNodalForces P L G = .ok G') :
    nodalForcesAll nx L G = .ok G' := by
  unfold getNodalForces at h
  obtain ⟨G1, h1, h2⟩ := res_bind_ok.1 h
  simp [hcyc] at h2
  rw [← h2]; exact h1

/-- Internal forces sum to zero and external forces to the total weight, for points whose shape
functions were computed on some grid, whatever their stresses. -/
theorem c08_forces_balance {P : Par K} {nx ny ns : ℕ} (hcyc : P.B.cyclic_lr = false)
    {L : List (PhaseSt K ns)} (hL : Counted L)
    (hb : ∀ mp ∈ points L, ∃ (N' : ℕ) (G0 : Grid K N' ns) (mp0 mp1 : Particle K ns),
      mp0.getBasisFunctions G0 = .ok mp1 ∧ mp.N = mp1.N ∧ mp.Gs = mp1.Gs)
    {G G' : Grid K (ny * nx) ns} (h : getNodalForces P L G.wipe = .ok G') :
    ∑ k, G'.fi k = 0 ∧ ∑ k, G'.fe k = totalWeight L := by
  refine forces_balance_core hL ?_ (fun _ => rfl) (fun _ => rfl) (getNodalForces_acyclic hcyc h)
  intro mp hmp
  obtain ⟨N', G0, mp0, mp1, hb1, hb2, hb3⟩ := hb mp hmp
  obtain ⟨k, _, hd, rfl⟩ := getBasis_ok hb1
  rw [hb2, hb3]
  exact ⟨shapeN_sum hd _, shapeG_sum _ _ _⟩

theorem p2gAll_forces {nx N ns : ℕ} {seg : Bool} {L : List (PhaseSt K ns)} (hL : Counted L)
    {G G' : Grid K N ns} (h : p2gAll nx seg L G = .ok G') : G'.fi = G.fi ∧ G'.fe = G.fe := by
  rw [((p2gAll_ok hL).1 h).2]
  exact ⟨foldl_const (fun (x : Phase K ns × Particle K ns) (G : Grid K N ns) =>
      p2gClosed nx seg (x.2.v.get x.1.iv) x.2 G) (fun G => G.fi) (fun _ _ => rfl) _ _,
    foldl_const (fun (x : Phase K ns × Particle K ns) (G : Grid K N ns) =>
      p2gClosed nx seg (x.2.v.get x.1.iv) x.2 G) (fun G => G.fe) (fun _ _ => rfl) _ _⟩

theorem gridPhase_forces_zero {P : Par K} {s : St P} (T : GridPhase P s) (hL : Counted s.L) :
    (∀ k, T.Gc.fi k = 0) ∧ ∀ k, T.Gc.fe k = 0 := by
  obtain ⟨_, _, _, c3, _⟩ := T.rel hL
  obtain ⟨G1, h1, h2⟩ := getNodalMassMomentum_ok T.hGa
  obtain ⟨e1, e2⟩ := p2gAll_forces c3 h1
  have hc := updateStressStrain_grid T.hLd
  have hb : T.Gb.fi = T.Ga.fi ∧ T.Gb.fe = T.Ga.fe := by
    rw [T.hGb]; split <;> exact ⟨rfl, rfl⟩
  have ha : T.Ga.fi = G1.fi ∧ T.Ga.fe = G1.fe := by
    rw [h2]; constructor <;> (split <;> rfl)
  constructor <;> intro k
  · rw [hc]; simp only; rw [hb.1, ha.1, e1]; rfl
  · rw [hc]; simp only; rw [hb.2, ha.2, e2]; rfl

/-- The same inside an actual time step, up to and including the computation of nodal forces:
whatever the previous state, laws and stresses. -/
theorem c08_forces_balance_step {P : Par K} (hcyc : P.B.cyclic_lr = false) {s s' : St P}
    (hL : Counted s.L) (h : gridPhase P s = .ok s') :
    ∑ k, s'.G.fi k = 0 ∧ ∑ k, s'.G.fe k = totalWeight s'.L := by
  obtain ⟨T, rfl⟩ := gridPhase_ok h
  obtain ⟨hr, _, _, _, c4⟩ := T.rel hL
  obtain ⟨w0, w1⟩ := gridPhase_forces_zero T hL
  refine forces_balance_core c4 ?_ w0 w1 (getNodalForces_acyclic hcyc T.hGd)
  intro mp hmp
  obtain ⟨a, _, ph, ha⟩ := forall₂_right hr.points hmp
  exact ⟨ha.2.2.2.2.2.2.2.1, ha.2.2.2.2.2.2.2.2.1⟩

end

/-! ## The hypotheses can be met: two points on a 3 by 3 grid -/

theorem Ex.inDomain : ∀ mp ∈ points Ex.L, InDomain Ex.par.G mp.x := by
  intro mp hmp
  simp [points, Ex.L] at hmp
  rcases hmp with rfl | rfl <;>
    · simp [InDomain, Ex.par, Ex.gp, Ex.mp, Ex.mp2]; norm_num

/-- C05, C06, C07: the mapping goes through, total mass 5 and momentum (1,6,0). -/
example : ∃ (G G' : Grid ℚ Ex.par.G.N 2) (L1 L2 : List (PhaseSt ℚ 2)),
    mkGrid Ex.par.G Ex.bp = .ok G ∧ Counted Ex.L ∧
    getReferenceNodes Ex.par.G G.wipe Ex.L = .ok L1 ∧ getBasisFunctions G.wipe L1 = .ok L2 ∧
    getNodalMassMomentum Ex.par Ex.par.G.s L2 G.wipe = .ok G' ∧ totalMass Ex.L = 5 ∧
    totalMomentum Ex.L = ![1, 6, 0] := by
  obtain ⟨G, hG⟩ := mkGrid_exists Ex.bp Ex.good
  obtain ⟨L1, L2, h1, h2, h3, h4, _⟩ := locate_exists Ex.good
    (Mpm.Geometry.wipe (mkGrid_geometry hG)) Ex.countedL Ex.inDomain
  obtain ⟨G', hG'⟩ := getNodalMassMomentum_exists (P := Ex.par) (s := Ex.par.G.s) h4
    (G := G.wipe) h3
  refine ⟨G, G', L1, L2, hG, Ex.countedL, h1, h2, hG', ?_, ?_⟩
  · simp [totalMass, points, Ex.L, Ex.mp, Ex.mp2]; norm_num
  · funext i
    fin_cases i <;> simp [totalMomentum, Ex.L, Ex.mp, Ex.mp2, velocity] <;> norm_num

/-- C07: a non-trivial reordering. -/
example : Reordered Ex.L [{ ph := Ex.ph, pts := [Ex.mp2, Ex.mp] }] :=
  .cons ⟨rfl, List.Perm.swap _ _ _⟩ .nil

/-- A state for the step theorems. -/
def Ex.st (G : Grid ℚ Ex.par.G.N Ex.par.G.ns) : St Ex.par :=
  { dyn := { t := 0, dt := 1/100, tstep := 0, g := -10, q_v := 0, q_h := 0 }, L := Ex.L, G := G }

/-- C08 in a step. -/
example : ∃ (G : Grid ℚ Ex.par.G.N Ex.par.G.ns) (s' : St Ex.par), mkGrid Ex.par.G Ex.bp = .ok G ∧
    Ex.par.B.cyclic_lr = false ∧ Counted (Ex.st G).L ∧ gridPhase Ex.par (Ex.st G) = .ok s' := by
  obtain ⟨G, hG⟩ := mkGrid_exists Ex.bp Ex.good
  obtain ⟨s', hs⟩ := gridPhase_exists (P := Ex.par) (s := Ex.st G) Ex.good (mkGrid_geometry hG)
    Ex.countedL Ex.inDomain rfl (by
      intro a ha
      have ha' : a = { ph := Ex.ph, pts := [Ex.mp, Ex.mp2] } := List.mem_singleton.1 ha
      rw [ha']
      exact .inr (.inl rfl))
  exact ⟨G, s', hG, rfl, Ex.countedL, hs⟩

end Mpm

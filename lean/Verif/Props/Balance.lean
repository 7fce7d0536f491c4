import Verif.Props.Planar
import Verif.Props.Motion

/-!
# C60: mass and momentum balance over whole runs
-/

set_option linter.unusedSectionVars false

namespace Mpm
open Spec

namespace Spec
variable {K : Type} [Field K] [LinearOrder K]

/-- No inlets, outlets, wrap-around, conveyor, applied stresses or wall friction. -/
structure FreeOptions (B : BP K) : Prop where
  outlet_left : B.outlet_left = false
  outlet_bottom : B.outlet_bottom = false
  inlet_right : B.inlet_right = false
  inlet_top : B.inlet_top = false
  cyclic : B.cyclic_lr = false
  conveyor : B.conveyor = false
  vertical : B.vertical_force = false
  horizontal : B.horizontal_force = false
  friction : B.roughness = false ∨ B.wall_mu = 0

/-- No node is a wall node. -/
def NoWalls {N ns : ℕ} (G : Grid K N ns) : Prop :=
  ∀ k, G.boundary_v k = false ∧ G.boundary_h k = false

/-- No phase is rigid or loses mass. -/
def FreeLaws {ns : ℕ} (L : List (PhaseSt K ns)) : Prop :=
  ∀ A ∈ L, A.ph.law ≠ .rigid ∧ A.ph.law ≠ .elastic_time

/-- Tent-weighted mass around node `k`. -/
def nodalMass (P : GP K) {ns : ℕ} (L : List (PhaseSt K ns)) (k : Fin P.N) : K :=
  ((points L).map fun mp => hat P mp.x k * mp.m).sum

/-- Every corner of every occupied cell has more than the tolerated mass. -/
def Heavy (P : GP K) {ns : ℕ} (M_tol : K) (L : List (PhaseSt K ns)) : Prop :=
  ∀ mp ∈ points L, ∀ i j, InCell P mp.x i j → ∀ (r : Fin 4) (k : Fin P.N),
    (k : ℕ) = (i + cornerX r) + (j + cornerY r) * P.nx → M_tol < nodalMass P L k

end Spec

section
variable {K : Type} [Field K] [LinearOrder K] [IsStrictOrderedRing K] [FloorRing K]

theorem mem_points_items {ns : ℕ} {L : List (PhaseSt K ns)} {x : Phase K ns × Particle K ns}
    (h : x ∈ items L) : x.2 ∈ points L := by
  rw [← items_map_snd]; exact List.mem_map.2 ⟨x, h, rfl⟩

theorem list_sum_zero {α M : Type} [AddCommMonoid M] {f : α → M} {l : List α}
    (h : ∀ a ∈ l, f a = 0) : (l.map f).sum = 0 := by
  induction l with
  | nil => rfl
  | cons a l ih =>
    rw [List.map_cons, List.sum_cons, h a (by simp), ih fun b hb => h b (by simp [hb]), add_zero]

/-- Without walls the mapped momentum of a node nobody touches is zero. -/
theorem mapped_momentum_untouched {P : Par K} {ns : ℕ} {s : Fin ns → K} {L : List (PhaseSt K ns)}
    (hL : Counted L) {G0 G1 : Grid K P.G.N ns} (hw : NoWalls G0)
    (h : getNodalMassMomentum P s L G0.wipe = .ok G1) (k : Fin P.G.N)
    (hk : ∀ mp ∈ points L, ¬ Touches P.G.nx mp k) : G1.q k = 0 := by
  have hst := getNodalMassMomentum_static h
  obtain ⟨G2, h2, rfl⟩ := getNodalMassMomentum_ok h
  have e1 : (if P.segregate_grid then G2.nodalFractions P.ops.big s else G2).q = G2.q := by
    split <;> rfl
  have q2 : G2.q k = 0 := by
    rw [p2gAll_q hL h2]
    change 0 + _ = _
    rw [zero_add]
    refine list_sum_zero fun x hx => ?_
    rw [weight_of_not_touches (hk _ (mem_points_items hx)), zero_mul, zero_smul]
  have bs := p2gAll_static h2
  have bv : (if P.segregate_grid then G2.nodalFractions P.ops.big s else G2).boundary_v k = false := by
    have : G2.boundary_v k = false := by rw [bs.bv]; exact (hw k).1
    rw [← this]; split <;> rfl
  have bh : (if P.segregate_grid then G2.nodalFractions P.ops.big s else G2).boundary_h k = false := by
    have : G2.boundary_h k = false := by rw [bs.bh]; exact (hw k).2
    rw [← this]; split <;> rfl
  have hq := zeroBoundary_q P.B.roughness
    (if P.segregate_grid then G2.nodalFractions P.ops.big s else G2) k
  simp only [bv, bh, e1, q2] at hq
  funext i
  fin_cases i
  all_goals simp_all

/-- The points just before they are moved. -/
theorem before_move {P : Par K} (hP : GoodGrid P.G) {interp : Interp K P.G.N} {s s2 s3 : St P}
    (hL : Counted s.L) (hG : Geometry P.G s.G) (hx : ∀ mp ∈ points s.L, InDomain P.G mp.x)
    (T : GridPhase P s) (h2 : s2.L = T.Ld) (h3 : segregationPhase P interp s2 = .ok s3) :
    PtsRel (fun ph a b => ∃ i j, InCell P.G a.x i j ∧ b.n_star = (i : ℤ) + (j : ℤ) * P.G.nx ∧
      b.N = (atCell P.G a i j).N ∧ b.x = a.x ∧ b.v = a.v ∧
      (ph.law ≠ .elastic_time → b.m = a.m)) s.L s3.L ∧
    PtsRel (fun _ a b => b.n_star = a.n_star ∧ b.N = a.N ∧ b.m = a.m ∧ b.b = a.b) T.Ld s3.L ∧
    Counted T.Ld ∧ Counted s3.L := by
  have r1 := updateForces_rel hL T.ha
  have c1 := r1.counted hL
  have rb : PtsRel (fun _ a b => a.getReferenceNode P.G s.G.wipe.dx s.G.wipe.dy = .ok b) T.La T.Lb :=
    mapPoints_rel (f := fun _ _ mp => mp.getReferenceNode P.G s.G.wipe.dx s.G.wipe.dy)
      (fun _ _ _ _ h => h) c1 T.hb
  have cb := rb.counted c1
  have rc : PtsRel (fun _ a b => a.getBasisFunctions s.G.wipe = .ok b) T.Lb T.Lc :=
    mapPoints_rel (f := fun _ _ mp => mp.getBasisFunctions s.G.wipe) (fun _ _ _ _ h => h) cb T.hc
  have cc := rc.counted cb
  have rd := updateStressStrain_frame cc T.hLd
  have cd := rd.counted cc
  have c2 : Counted s2.L := by rw [h2]; exact cd
  have re := segregationPhase_rel c2 h3
  rw [h2] at re
  refine ⟨((((r1.comp rb).comp rc).comp rd).comp re).mem.mono ?_, re.mono ?_, cd, re.counted cd⟩
  · rintro ph a e ⟨ha, -, d, ⟨c, ⟨b, ⟨a1, ⟨ha1, -⟩, hb⟩, hc⟩, hd, hdm⟩, he⟩
    have hxa : InDomain P.G a1.x := by rw [ha1]; exact hx a (mem_points_items ha)
    obtain ⟨i, j, nd, hcell, g1, g2, -⟩ := located_basis hP (Mpm.Geometry.wipe hG) hxa
    rw [g1, Except.ok.injEq] at hb
    rw [← hb, g2, Except.ok.injEq] at hc
    have hf := he.frame
    have en : e.n_star = d.n_star := by rw [hf]
    have eN : e.N = d.N := by rw [hf]
    have ex : e.x = d.x := by rw [hf]
    have ev : e.v = d.v := by rw [hf]
    have em : e.m = d.m := by rw [hf]
    refine ⟨i, j, ?_, ?_, ?_, ?_, ?_, fun hl => ?_⟩
    · rw [ha1] at hcell; exact hcell
    · rw [en, hd.n_star, ← hc]; rfl
    · rw [eN, hd.N, ← hc, ha1]; rfl
    · rw [ex, hd.x, ← hc, ha1]; rfl
    · rw [ev, hd.v, ← hc, ha1]; rfl
    · rw [em, hdm hl, ← hc, ha1]; rfl
  · rintro ph a b h
    rw [h.frame]; exact ⟨rfl, rfl, rfl, rfl⟩

theorem weight_of_cell {P : GP K} (hP : GoodGrid P) {ns : ℕ} {a b : Particle K ns} {i j : ℕ}
    (hc : InCell P a.x i j) (hn : b.n_star = (i : ℤ) + (j : ℤ) * P.nx)
    (hN : b.N = (atCell P a i j).N) (k : Fin P.N) : weight P.nx b k = hat P a.x k := by
  rw [← weight_atCell hP hc]
  unfold weight
  rw [hn, hN]; rfl

/-- One step: momentum and mass moment. -/
theorem balance_step {P : Par K} (hP : GoodGrid P.G) (hB : FreeOptions P.B)
    {interp : Interp K P.G.N} {s s' : St P} (hL : Counted s.L) (hG : Geometry P.G s.G)
    (hw : NoWalls s.G) (hlaw : FreeLaws s.L) (hx : ∀ mp ∈ points s.L, InDomain P.G mp.x)
    (hheavy : Heavy P.G P.M_tol s.L) (h : timeMarch P interp s = .ok s') :
    (OwnVel s.L → totalMomentum s'.L =
      totalMomentum s.L + s.dyn.dt • (dampFactor (K := K) P.damping) • totalWeight s'.L) ∧
    massMoment s'.L = massMoment s.L + s.dyn.dt •
      (totalMomentum s.L + s.dyn.dt • (dampFactor (K := K) P.damping) • totalWeight s'.L) := by
  obtain ⟨s1, s2, s3, h1, h2, h3, h4⟩ := timeMarch_ok h
  obtain ⟨T, e1⟩ := gridPhase_ok h1
  have hdt : T.d.dt = s.dyn.dt := by rw [T.hd]; rfl
  obtain ⟨d2, l2, -, m2, bh, bv⟩ := momentumPhase_table h2
  obtain ⟨d3, -, m3, q3, qd3, -⟩ := segregationPhase_frame h3
  have l2' : s2.L = T.Ld := by rw [l2, e1]
  obtain ⟨rel, relD, cd, c3⟩ := before_move hP hL hG hx T l2' h3
  obtain ⟨-, st, -, std, eq, em⟩ := T.static
  -- the moved points
  have h4' : movePoints P.G.nx P.M_tol T.d.dt P.intruder_v s3.G s3.L = .ok s'.L := by
    unfold pointsPhase whenSet at h4
    simp only [hB.outlet_left, hB.outlet_bottom, hB.inlet_right, hB.inlet_top, hB.cyclic,
      Bool.false_eq_true, if_false, res_ok_bind] at h4
    obtain ⟨L1, g1, h4⟩ := res_bind_ok.1 h4
    cases h4
    have : s3.dyn.dt = T.d.dt := by rw [d3, d2, e1]
    rw [← this]; exact g1
  -- masses
  have hlaw3 : ∀ x ∈ items s.L, x.1.law ≠ .elastic_time := by
    intro x hxi
    obtain ⟨A, hA, hxi⟩ := List.mem_flatMap.1 hxi
    obtain ⟨mp, -, rfl⟩ := List.mem_map.1 hxi
    exact (hlaw A hA).2
  have hr3 : NoRigid s3.L := by
    intro B hBm
    obtain ⟨A, hA, e, -⟩ := forall₂_right rel hBm
    rw [e]; exact (hlaw A hA).1
  have hm3 : ∀ k, s3.G.m k = ((points s3.L).map fun mp => weight P.G.nx mp k * mp.m).sum := by
    intro k
    have hb : T.Gb.m = T.Ga.m := by rw [T.hGb, hB.cyclic]; rfl
    obtain ⟨_, _, _, c3', _⟩ := T.rel hL
    have hmap := mapped_mass c3' (fun _ => rfl) T.hGa k
    have : s3.G.m k = T.Ga.m k := by rw [m3, m2, e1]; change T.Gd.m k = _; rw [em, hb]
    rw [this, hmap]
    have rd := updateStressStrain_frame c3' T.hLd
    rw [forall₂_map_eq (f := fun mp : Particle K P.G.ns => weight P.G.nx mp k * mp.m)
      (g := fun mp : Particle K P.G.ns => weight P.G.nx mp k * mp.m) ?_ ((rd.comp relD).mem.points)]
    rintro a b ⟨ph, ha, -, c, ⟨kin, hcm⟩, hn, hN, hm, -⟩
    have hne : ph.law ≠ .elastic_time := by
      have rac := (T.rel hL).1
      obtain ⟨A, hA, ep, -⟩ := mem_items.1 ha
      have rL := ((updateForces_rel hL T.ha).comp
        (locate_all ((updateForces_rel hL T.ha).counted hL) T.hb T.hc).1)
      obtain ⟨A0, hA0, e0, -⟩ := forall₂_right rL hA
      have ep : A.ph = ph := ep
      rw [← ep, e0]; exact (hlaw A0 hA0).2
    unfold weight
    rw [hN, hm, hn, kin.n_star, kin.N, hcm hne]
  have hnm : ∀ k, s3.G.m k = nodalMass P.G s.L k := by
    intro k
    rw [hm3 k]
    unfold nodalMass
    refine congrArg List.sum (forall₂_map_eq ?_ rel.mem.points).symm
    rintro a b ⟨ph, ha, -, i, j, hc, hn, hN, -, -, hm⟩
    rw [weight_of_cell hP hc hn hN, hm (hlaw3 _ ha)]
  -- touched nodes are heavy
  have ht : ∀ mp ∈ points s3.L, ∀ k : Fin P.G.N, Touches P.G.nx mp k → P.M_tol < s3.G.m k := by
    intro b hb k ⟨r, hk⟩
    obtain ⟨a, ha, ph, i, j, hc, hn, -⟩ := forall₂_right rel.points hb
    rw [hnm]
    refine hheavy a ha i j hc r k ?_
    obtain ⟨k', hk', e1, e2⟩ := corner_index hc.2.2.1 hc.2.2.2 r
    rw [hn, hk', Except.ok.injEq] at hk
    subst hk
    have := Nat.mod_add_div (k' : ℕ) P.G.nx
    rw [e1, e2] at this
    rw [← this, Nat.mul_comm]
  -- forces
  obtain ⟨w0, w1⟩ := gridPhase_forces_zero T hL
  have hF := getNodalForces_acyclic hB.cyclic T.hGd
  have hun : ∀ k, (∀ mp ∈ points s3.L, ¬ Touches P.G.nx mp k) →
      T.Gd.fe k = 0 ∧ T.Gd.fi k = 0 := by
    intro k hk
    have hkd : ∀ mp ∈ points T.Ld, ¬ Touches P.G.nx mp k := by
      intro a ha hta
      obtain ⟨b, hb, ph, hn, -⟩ := forall₂_left relD.points ha
      exact hk b hb (by unfold Touches; rw [hn]; exact hta)
    constructor
    · rw [nodalForcesAll_fe cd hF, w1, zero_add]
      refine list_sum_zero fun mp hmp => ?_
      rw [weight_of_not_touches (hkd mp hmp), zero_mul, zero_smul]
    · rw [nodalForcesAll_fi cd hF, w0, zero_add]
      refine list_sum_zero fun mp hmp => ?_
      rw [gradWeight_of_not_touches (hkd mp hmp), Matrix.mulVec_zero, smul_zero]
  -- the momentum rates and momenta
  obtain ⟨G1, hG1, e2⟩ := momentumPhase_frame h2
  have eG1 : G1 = T.Gd := by
    have := BCs_none hB.vertical hB.horizontal hG1
    rw [this, e1]
  have hv : ∀ k, s2.G.boundary_v k = false := by
    intro k
    rw [bv, e1]
    have : T.Gd.boundary_v k = false := by rw [std.bv]; exact (hw k).1
    rcases hB.friction with h | h <;> simp [wallMarks, h, this]
  have hh : ∀ k, s2.G.boundary_h k = false := by
    intro k
    rw [bh, e1]
    have : T.Gd.boundary_h k = false := by rw [std.bh]; exact (hw k).2
    rcases hB.friction with h | h <;> simp [wallMarks, h, this]
  have d1 : s1.dyn = T.d := by rw [e1]
  have hqd : ∀ k, s3.G.q_dot k = (dampFactor (K := K) P.damping) • (T.Gd.fe k - T.Gd.fi k) := by
    intro k
    have ev : s2.G.boundary_v = _ := congrArg (fun s : St P => s.G.boundary_v) e2
    have eh : s2.G.boundary_h = _ := congrArg (fun s : St P => s.G.boundary_h) e2
    have eqd : s2.G.q_dot = _ := congrArg (fun s : St P => s.G.q_dot) e2
    rw [qd3, eqd, ← eG1]
    exact updateMomentum_qdot_free (dt := s1.dyn.dt) (v0 := P.v_0) G1 k ((congrFun ev k).symm.trans (hv k))
      ((congrFun eh k).symm.trans (hh k))
  have hq : ∀ k, s3.G.q k = T.Gd.q k + s.dyn.dt • s3.G.q_dot k := by
    intro k
    have eqq : s2.G.q = _ := congrArg (fun s : St P => s.G.q) e2
    have eqd : s2.G.q_dot = _ := congrArg (fun s : St P => s.G.q_dot) e2
    have := updateMomentum_q hB.conveyor (damping := P.damping) (dt := s1.dyn.dt) (v0 := P.v_0) G1 k
    rw [q3, qd3, eqq, eqd]
    refine this.trans ?_
    rw [eG1, d1, hdt]
  have hqd0 : ∀ k, ¬ P.M_tol < s3.G.m k → s3.G.q_dot k = 0 := by
    intro k hk
    obtain ⟨f1, f2⟩ := hun k fun mp hmp htk => hk (ht mp hmp k htk)
    rw [hqd, f1, f2, sub_zero, smul_zero]
  -- total weight
  have hweight : totalWeight s'.L = totalWeight T.Ld := by
    have r4 := movePoints_rel c3 h4'
    have : List.Forall₂ (fun a b : Particle K P.G.ns => b.m = a.m ∧ b.b = a.b)
        (points s3.L) (points s'.L) := by
      unfold points
      refine List.rel_flatMap r4 ?_
      rintro A B ⟨-, hpts, -⟩
      refine hpts.imp ?_
      intro a b hm
      obtain ⟨-, -, -, -, hb, hm', -⟩ := hm.mats
      exact ⟨hm', hb⟩
    unfold totalWeight
    rw [← forall₂_map_eq (f := fun mp : Particle K P.G.ns => mp.m • mp.b)
      (g := fun mp : Particle K P.G.ns => mp.m • mp.b) ?_ this,
      ← forall₂_map_eq (f := fun mp : Particle K P.G.ns => mp.m • mp.b)
      (g := fun mp : Particle K P.G.ns => mp.m • mp.b) ?_ relD.points]
    · rintro a b ⟨ph, -, -, h3, h4⟩; rw [h3, h4]
    · rintro a b ⟨h3, h4⟩; rw [h3, h4]
  obtain ⟨b1, b2⟩ := c08_forces_balance_step hB.cyclic hL h1
  rw [e1] at b1 b2
  change ∑ k, T.Gd.fi k = 0 at b1
  change ∑ k, T.Gd.fe k = totalWeight T.Ld at b2
  have hqdsum : ∑ k, s3.G.q_dot k = (dampFactor (K := K) P.damping) • totalWeight s'.L := by
    simp only [hqd]
    rw [← Finset.smul_sum, Finset.sum_sub_distrib, b1, b2, sub_zero, hweight]
  have hmom3 : totalMomentum s3.L = totalMomentum s.L := by
    refine PtsRel.totalMomentum ?_ rel.mem
    rintro ph a b ⟨ha, -, i, j, -, -, -, -, hv, hm⟩
    exact ⟨hm (hlaw3 _ ha), hv⟩
  constructor
  · intro hown
    have ho3 : OwnVel s3.L := by
      intro b hb
      obtain ⟨a, ha, ph, i, j, -, -, -, -, hv, -⟩ := forall₂_right rel.points hb
      rw [hv]; exact hown a ha
    rw [move_momentum P.M_tol_nonneg c3 hr3 ho3 hm3 h4', hmom3, hdt, ← hqdsum]
    congr 2
    refine Finset.sum_congr rfl fun k _ => ?_
    split
    · rfl
    · rename_i hk; exact (hqd0 k hk).symm
  · have hx3 : massMoment s3.L = massMoment s.L := by
      unfold massMoment
      refine congrArg List.sum (forall₂_map_eq ?_ rel.mem.points).symm
      rintro a b ⟨ph, ha, -, i, j, -, -, -, hx, -, hm⟩
      rw [hx, hm (hlaw3 _ ha)]
    have hqsum : ∑ k, s3.G.q k = totalMomentum s.L + s.dyn.dt •
        (dampFactor (K := K) P.damping) • totalWeight s'.L := by
      simp only [hq]
      rw [Finset.sum_add_distrib, ← Finset.smul_sum, hqdsum]
      congr 1
      have hGbq : T.Gb.q = T.Ga.q := by rw [T.hGb, hB.cyclic]; rfl
      rw [eq, hGbq]
      have r1 := updateForces_rel hL T.ha
      rw [c06_momentum_conserved_free (r1.counted hL) (fun k => hw k) T.hb T.hc T.hGa]
      refine PtsRel.totalMomentum ?_ r1
      rintro ph a b ⟨e, -⟩
      rw [e]; exact ⟨rfl, rfl⟩
    rw [move_massMoment P.M_tol_nonneg c3 hr3 hm3 h4', hx3, hdt, ← hqsum]
    congr 2
    refine Finset.sum_congr rfl fun k _ => ?_
    split
    · rfl
    · rename_i hk
      rw [hq, hqd0 k hk, smul_zero, add_zero, eq]
      -- no momentum on untouched nodes
      have hGbq : T.Gb.q = T.Ga.q := by rw [T.hGb, hB.cyclic]; rfl
      obtain ⟨_, _, _, c3', _⟩ := T.rel hL
      rw [hGbq, mapped_momentum_untouched c3' hw T.hGa k ?_]
      intro mp hmp htm
      have rd := updateStressStrain_frame c3' T.hLd
      obtain ⟨b, hb, ph, c, ⟨kin, -⟩, hn, -⟩ := forall₂_left (rd.comp relD).points hmp
      refine hk (ht b hb k ?_)
      unfold Touches
      rw [hn, kin.n_star]; exact htm

theorem own_iff {ns : ℕ} {mp : Particle K ns} : mp.isShared = false ↔ ∃ w, mp.v = .own w := by
  unfold Particle.isShared
  cases h : mp.v <;> simp

/-- What a free step keeps: list lengths, node positions, the absence of walls, the laws, and
velocities owned by the points. -/
theorem free_step {P : Par K} (hB : FreeOptions P.B) {interp : Interp K P.G.N} {s s' : St P}
    (hL : Counted s.L) (hG : Geometry P.G s.G) (hw : NoWalls s.G) (hlaw : FreeLaws s.L)
    (h : timeMarch P interp s = .ok s') :
    Counted s'.L ∧ Geometry P.G s'.G ∧ NoWalls s'.G ∧ FreeLaws s'.L ∧
      (OwnVel s.L → OwnVel s'.L) := by
  obtain ⟨tb, bh, bv, -⟩ := timeMarch_table h
  have hst : steps P interp 1 s = .ok (stepTime P s') := steps_succ.2 ⟨s', h, rfl⟩
  refine (fun hR => ?_) (steps_closed (P := P) (s := s) hB.outlet_left hB.outlet_bottom
    hB.inlet_right hB.inlet_top (fun _ _ a b => a.isShared = false → b.isShared = false)
    (fun _ _ _ h => h) (fun _ _ _ _ _ h1 h2 h => h2 (h1 h)) (fun _ _ _ _ _ _ h => h)
    ?_ hL hst)
  · refine ⟨hR.1, tb.geometry hG, fun k => ?_, fun B hBm => ?_, fun ho b hb => ?_⟩
    · obtain ⟨hv, hh⟩ := hw k
      rw [bv, bh]
      rcases hB.friction with hf | hf <;> simp [wallMarks, hf, hv, hh]
    · obtain ⟨i, hi⟩ := List.mem_iff_getElem?.1 hBm
      obtain ⟨A, hA, hs, -⟩ := hR.2.left hi
      rw [hs.fields.1]
      exact hlaw A (List.mem_of_getElem? hA)
    · obtain ⟨B, hBm, hb⟩ := List.mem_flatMap.1 hb
      obtain ⟨i, hi⟩ := List.mem_iff_getElem?.1 hBm
      obtain ⟨A, hA, hs, hpts⟩ := hR.2.left hi
      obtain ⟨a, ha, hab⟩ := forall₂_right hpts hb
      exact own_iff.1 (hab (own_iff.2 (ho a (List.mem_flatMap.2 ⟨A, List.mem_of_getElem? hA, ha⟩))))
  · intro d _ m0 Gw Gb Gm p ph a b hev hs
    obtain ⟨a5, a6, hm, hb, -, hv, -⟩ := hev.parts
    have h5 : a5.isShared = false := by
      rw [← hs]; unfold Particle.isShared; rw [hv]
    have h6 : a6.isShared = false := by
      rcases hm with ⟨_, rfl⟩ | ⟨_, iv, iv', hm⟩
      · rfl
      · rw [(move_iv hm).1, h5]
    rw [hb, wrapped_frame]
    exact h6

/-- The masses of all points over a free run. -/
theorem c60_masses {P : Par K} (hB : FreeOptions P.B) {interp : Interp K P.G.N} {n : ℕ}
    {s s' : St P} (hL : Counted s.L) (hlaw : FreeLaws s.L) (h : steps P interp n s = .ok s') :
    List.Forall₂ (fun A B => List.Forall₂ (fun a b => b.m = a.m) A.pts B.pts) s.L s'.L := by
  refine (fun hR => ?_) (steps_closed (P := P) (s := s) hB.outlet_left hB.outlet_bottom
    hB.inlet_right hB.inlet_top (fun _ ph a b => ph.law ≠ .elastic_time → b.m = a.m)
    (fun _ _ _ _ => rfl) (fun _ _ _ _ _ h1 h2 h => (h2 h).trans (h1 h))
    (fun _ _ _ _ _ hs h => by rw [← hs.fields.1]; exact h)
    (fun _ _ _ _ _ _ _ _ _ _ hev => (evolved_mass hev).2.1) hL h)
  refine (hR.2.and_left hlaw).forall₂ ?_
  rintro i A B ⟨hA, -, hp⟩
  exact hp.imp fun a b hab => hab hA.2

/-- Momentum and centre of mass over a free run during which the points stay in the domain and
around nodes above the mass tolerance.  `W k` is the total weight in step `k`. -/
theorem c60_momentum {P : Par K} (hP : GoodGrid P.G) (hB : FreeOptions P.B)
    {interp : Interp K P.G.N} {n : ℕ} {s s' : St P} (hL : Counted s.L) (hG : Geometry P.G s.G)
    (hw : NoWalls s.G) (hlaw : FreeLaws s.L) (hown : OwnVel s.L)
    (hstay : ∀ k < n, ∀ t, steps P interp k s = .ok t →
      (∀ mp ∈ points t.L, InDomain P.G mp.x) ∧ Heavy P.G P.M_tol t.L)
    {W : ℕ → Vec K} (hW : ∀ k < n, ∀ t, steps P interp (k + 1) s = .ok t → W k = totalWeight t.L)
    (h : steps P interp n s = .ok s') :
    totalMomentum s'.L = totalMomentum s.L +
        s.dyn.dt • (dampFactor (K := K) P.damping) • ∑ k ∈ Finset.range n, W k ∧
    (∀ k < n, ∀ t t', steps P interp k s = .ok t → steps P interp (k + 1) s = .ok t' →
      totalMomentum t'.L = totalMomentum t.L +
        s.dyn.dt • (dampFactor (K := K) P.damping) • totalWeight t'.L ∧
      massMoment t'.L = massMoment t.L + s.dyn.dt • totalMomentum t'.L) := by
  induction n generalizing s W with
  | zero =>
    cases h
    exact ⟨by simp, fun k hk => absurd hk (Nat.not_lt_zero _)⟩
  | succ n ih =>
    obtain ⟨s1, h1, h2⟩ := steps_succ.1 h
    obtain ⟨hx, hheavy⟩ := hstay 0 (by omega) s rfl
    obtain ⟨b1, b2⟩ := balance_step hP hB hL hG hw hlaw hx hheavy h1
    have b1 := b1 hown
    rw [← b1] at b2
    obtain ⟨k1, k2, k3, k4, k5⟩ := free_step hB hL hG hw hlaw h1
    have hdt : (stepTime P s1).dyn.dt = s.dyn.dt := by
      rw [show (stepTime P s1).dyn.dt = s1.dyn.dt from rfl, (timeMarch_table h1).2.2.2]; rfl
    obtain ⟨i1, i2⟩ := ih (s := stepTime P s1) (W := fun k => W (k + 1)) k1 k2 k3 k4 (k5 hown)
      (fun k hk t ht => hstay (k + 1) (by omega) t (steps_succ.2 ⟨s1, h1, ht⟩))
      (fun k hk t ht => hW (k + 1) (by omega) t (steps_succ.2 ⟨s1, h1, ht⟩)) h2
    rw [hdt] at i1 i2
    have w0 : W 0 = totalWeight s1.L :=
      hW 0 (by omega) (stepTime P s1) (steps_succ.2 ⟨s1, h1, rfl⟩)
    refine ⟨?_, ?_⟩
    · rw [i1, Finset.sum_range_succ', w0]
      change totalMomentum s1.L + _ = _
      rw [b1, smul_add, smul_add, add_assoc, add_comm (s.dyn.dt • _ • totalWeight s1.L)]
    · intro k hk t t' ht ht'
      cases k with
      | zero =>
        cases ht
        obtain ⟨s2, g1, g2⟩ := steps_succ.1 ht'
        rw [h1] at g1
        cases g1; cases g2
        exact ⟨b1, b2⟩
      | succ k =>
        obtain ⟨s2, g1, g2⟩ := steps_succ.1 ht
        rw [h1] at g1
        cases g1
        obtain ⟨s3, g3, g4⟩ := steps_succ.1 ht'
        rw [h1] at g3
        cases g3
        exact i2 k (by omega) t t' g2 g4

end

/-- Four points, one in each cell. -/
def Ex.freeL : List (PhaseSt ℚ 2) :=
  [{ ph := { Ex.ph with n := 2 }, pts := [Ex.mp, Ex.mp2] },
   { ph := { Ex.ph with n := 2, law := .viscous }, pts := [{ Ex.mp with x := ![1/3, 1/4, 0] },
      { Ex.mp2 with x := ![7/4, 5/4, 0] }] }]

theorem Ex.freeOptions : FreeOptions Ex.par.B :=
  ⟨rfl, rfl, rfl, rfl, rfl, rfl, rfl, rfl, .inl rfl⟩

/-- Sufficient for the points to be in the domain and around heavy nodes. -/
def Ex.stays (s : St Ex.par) : Bool :=
  decide ((∀ mp ∈ points s.L, ((0 ≤ mp.x 0 ∧ mp.x 0 < 2) ∧
      (0 ≤ mp.x 1 ∧ mp.x 1 < 2))) ∧
    ∀ k : Fin Ex.gp.N, 0 < nodalMass Ex.gp s.L k)

theorem Ex.stays_ok {s : St Ex.par} (h : Ex.stays s = true) :
    (∀ mp ∈ points s.L, InDomain Ex.gp mp.x) ∧ Heavy Ex.gp 0 s.L := by
  obtain ⟨h1, h2⟩ := of_decide_eq_true h
  exact ⟨h1, fun mp _ i j _ r k _ => h2 k⟩

/-- All hypotheses hold over two steps, and the momentum does change. -/
example : ∃ s s' : St Ex.par, Counted s.L ∧ Geometry Ex.gp s.G ∧ NoWalls s.G ∧ FreeLaws s.L ∧
    OwnVel s.L ∧ steps Ex.par (Ex.noInterp _) 2 s = .ok s' ∧
    (∀ k < 2, ∀ t, steps Ex.par (Ex.noInterp _) k s = .ok t →
      (∀ mp ∈ points t.L, InDomain Ex.gp mp.x) ∧ Heavy Ex.gp Ex.par.M_tol t.L) ∧
    totalMomentum s'.L - totalMomentum s.L = ![0, -2, 0] := by
  obtain ⟨G, s', hG, hs, hc⟩ := Ex.run_ok (P := Ex.par) (d := Ex.dyn) (L := Ex.freeL) (n := 2)
    (check := fun s => decide (totalMomentum s.L - totalMomentum Ex.freeL = ![0, -2, 0]))
    (by decide +kernel)
  obtain ⟨G0, s0, hG0, hs0, hc0⟩ := Ex.run_ok (P := Ex.par) (d := Ex.dyn) (L := Ex.freeL) (n := 0)
    (check := fun s => Ex.stays s && decide (∀ k, s.G.boundary_v k = false ∧
      s.G.boundary_h k = false)) (by decide +kernel)
  obtain ⟨G1, s1, hG1, hs1, hc1⟩ := Ex.run_ok (P := Ex.par) (d := Ex.dyn) (L := Ex.freeL) (n := 1)
    (check := Ex.stays) (by decide +kernel)
  rw [hG] at hG0 hG1
  cases hG0; cases hG1; cases hs0
  rw [Bool.and_eq_true] at hc0
  have hw : ∀ k, G.boundary_v k = false ∧ G.boundary_h k = false := of_decide_eq_true hc0.2
  refine ⟨{ dyn := Ex.dyn, L := Ex.freeL, G := G }, s', ?_, mkGrid_geometry hG,
    hw, ?_, ?_, hs, ?_, of_decide_eq_true hc⟩
  · have : ∀ a ∈ Ex.freeL, a.ph.n = a.pts.length := by decide +kernel
    exact this
  · have : ∀ A ∈ Ex.freeL, A.ph.law ≠ .rigid ∧ A.ph.law ≠ .elastic_time := by decide +kernel
    exact this
  · have : ∀ mp ∈ points Ex.freeL, mp.isShared = false := by decide +kernel
    exact fun mp hmp => own_iff.1 (this mp hmp)
  · intro k hk t ht
    have : k = 0 ∨ k = 1 := by omega
    rcases this with rfl | rfl
    · cases ht; exact Ex.stays_ok hc0.1
    · rw [hs1] at ht
      cases ht; exact Ex.stays_ok hc1

end Mpm

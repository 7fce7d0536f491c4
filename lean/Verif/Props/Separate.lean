import Verif.Lemmas.Local
import Verif.Props.Holes

/-! C131: bodies that share no node do not interact, and how far a step reaches. -/

set_option linter.unusedSectionVars false

namespace Mpm.Spec
variable {K : Type} [Field K] [LinearOrder K]

/-- All points are in the domain, and no chosen point has a node in common with a point that is not
chosen. -/
def Apart (P : Par K) (sel : ℕ → ℕ → Bool) (L : List (PhaseSt K P.G.ns)) : Prop :=
  (∀ mp ∈ points L, InDomain P.G mp.x) ∧
  ∀ (p i p' i' : ℕ) (A A' : PhaseSt K P.G.ns) (a a' : Particle K P.G.ns),
    L[p]? = some A → A.pts[i]? = some a → sel p i = true →
    L[p']? = some A' → A'.pts[i']? = some a' → sel p' i' = false →
    ∀ k, ¬ (Corner P.G a.x k ∧ Corner P.G a'.x k)

/-- A phase some of whose points use the phase's velocity array is chosen as a whole or not at
all. -/
def Whole {ns : ℕ} (sel : ℕ → ℕ → Bool) (L : List (PhaseSt K ns)) : Prop :=
  ∀ (p : ℕ) (A : PhaseSt K ns), L[p]? = some A →
    (∀ a ∈ A.pts, ∃ w, a.v = .own w) ∨ (∀ i < A.pts.length, sel p i = true) ∨
    ∀ i < A.pts.length, sel p i = false

/-- Nothing enters, leaves, or comes around, and there is no segregation. -/
structure Sealed (P : Par K) : Prop where
  cyclic_lr : P.B.cyclic_lr = false
  outlet_left : P.B.outlet_left = false
  outlet_bottom : P.B.outlet_bottom = false
  inlet_right : P.B.inlet_right = false
  inlet_top : P.B.inlet_top = false
  segregate : P.segregate_grid = false

end Mpm.Spec

namespace Mpm
open Spec

section
variable {K : Type} [Field K] [LinearOrder K] [IsStrictOrderedRing K] [FloorRing K]
  {P : Par K} {interp : Interp K P.G.N}

/-- What a point has become before the momentum update. -/
def Stressed (P : Par K) (d : Dyn K) (m0 : Option (Mat0 K)) (Gw Gb : Grid K P.G.N P.G.ns) (p : ℕ)
    (ph : Phase K P.G.ns) (a e : Particle K P.G.ns) : Prop :=
  ∃ c, InPlace P d Gw p a c ∧ ∃ vis vis', c.stressStrain P.G.nx P.M_tol Gb ph.law
    (lawCtx P d P.G.s (m0.getD ph.par) p ph) vis = .ok (e, vis')

theorem GridPhase.placed {s : St P} (T : GridPhase P s) (hL : Counted s.L) :
    PtsIdx (fun p _ a c => InPlace P T.d s.G.wipe p a c) s.L T.Lc ∧
    PtsIdx (Stressed P T.d (mat0 s.L) s.G.wipe T.Gb) s.L T.Ld ∧ Counted T.Lc ∧ Counted T.Ld := by
  have ra := mapPoints_idx hL T.ha
  have ca := ra.counted hL
  have rb := mapPoints_idx ca T.hb
  have cb := rb.counted ca
  have rc := mapPoints_idx cb T.hc
  have cc := rc.counted cb
  have rd := updateStressStrain_idx cc T.hLd
  have cd := rd.counted cc
  have em : mat0 T.Lc = mat0 s.L := by rw [rc.rel.mat0, rb.rel.mat0, ra.rel.mat0]
  have r1 : PtsIdx (fun p _ a c => InPlace P T.d s.G.wipe p a c) s.L T.Lc := by
    refine IdxRel.imp ?_ ((ra.comp rb).comp rc)
    rintro p A B ⟨h1, h2⟩
    refine ⟨h1, h2.imp ?_⟩
    rintro a c ⟨a2, ⟨a1, g1, g2⟩, g3⟩
    refine ⟨a2, ?_, g3⟩
    rw [Except.ok.inj g1]; exact g2
  refine ⟨r1, ?_, cc, cd⟩
  refine IdxRel.imp ?_ (r1.comp rd)
  rintro p A B ⟨h1, h2⟩
  refine ⟨h1, h2.imp ?_⟩
  rintro a e ⟨c, g1, g2⟩
  rw [em] at g2
  exact ⟨c, g1, g2⟩

/-- The nodal mass and momentum without wrap-around and segregation. -/
theorem GridPhase.mapped (hB : Sealed P) {s : St P} (T : GridPhase P s) :
    ∃ G1, p2gAll P.G.nx false T.Lc s.G.wipe = .ok G1 ∧
      T.Gb = G1.zeroBoundaryMomentum P.B.roughness := by
  obtain ⟨G1, h1, h2⟩ := getNodalMassMomentum_ok T.hGa
  rw [hB.segregate] at h1 h2
  refine ⟨G1, h1, ?_⟩
  have := T.hGb
  rw [hB.cyclic_lr] at this
  rw [this, h2]
  rfl

theorem GridPhase.ext_zero (hB : Sealed P) {s : St P} (T : GridPhase P s) (hL : Counted s.L) :
    ∀ k, T.Gd.ext_f k = 0 := by
  obtain ⟨-, -, c3, c4⟩ := T.placed hL
  obtain ⟨G1, h1, h2⟩ := T.mapped hB
  have e : G1.ext_f = s.G.wipe.ext_f := by
    rw [((p2gAll_ok c3).1 h1).2]
    exact foldl_const (fun (x : Phase K P.G.ns × Particle K P.G.ns) (G : Grid K P.G.N P.G.ns) =>
      p2gClosed P.G.nx false (x.2.v.get x.1.iv) x.2 G) (fun G => G.ext_f) (fun _ _ => rfl) _ _
  intro k
  rw [getNodalForces_grid c4 T.hGd]
  change T.Gc.ext_f k = 0
  rw [updateStressStrain_grid T.hLd]
  change T.Gb.ext_f k = 0
  rw [h2]
  change G1.ext_f k = 0
  rw [e]
  rfl

theorem chosen_mat0 {ns : ℕ} {sel : ℕ → ℕ → Bool} {L N : List (PhaseSt K ns)} (h : Chosen sel L N) :
    mat0 N = mat0 L := by
  cases L with
  | nil => cases N with
    | nil => rfl
    | cons B N => have := h.1; simp at this
  | cons A L => cases N with
    | nil => have := h.1; simp at this
    | cons B N =>
      have := congrArg Phase.par (h.2 0 A B rfl rfl).2.1
      exact congrArg some this

/-- The nodes `S2` see no unchosen point; of the chosen points, those at `S1` have all their nodes
in `S2`. -/
structure Nested (P : Par K) (sel : ℕ → ℕ → Bool) (S1 S2 : Fin P.G.N → Prop)
    (L : List (PhaseSt K P.G.ns)) : Prop where
  dom : ∀ mp ∈ points L, InDomain P.G mp.x
  sub : ∀ k, S1 k → S2 k
  far : ∀ (p i : ℕ) (A : PhaseSt K P.G.ns) (a : Particle K P.G.ns), L[p]? = some A →
    A.pts[i]? = some a → sel p i = false → ∀ k, S2 k → ¬ Corner P.G a.x k
  near : ∀ (p i : ℕ) (A : PhaseSt K P.G.ns) (a : Particle K P.G.ns), L[p]? = some A →
    A.pts[i]? = some a → sel p i = true → ∀ k, S1 k → Corner P.G a.x k →
    ∀ k', Corner P.G a.x k' → S2 k'

theorem point_mem {ns : ℕ} {L : List (PhaseSt K ns)} {p i : ℕ} {A : PhaseSt K ns}
    {a : Particle K ns} (h : L[p]? = some A) (h' : A.pts[i]? = some a) : a ∈ points L := by
  unfold points
  exact List.mem_flatMap.2 ⟨A, List.mem_of_getElem? h, List.mem_of_getElem? h'⟩

/-- The mapped mass and momentum at nodes which no unchosen point touches. -/
theorem mapped_local (hP : GoodGrid P.G) (hB : Sealed P) {sel : ℕ → ℕ → Bool}
    {S1 S2 : Fin P.G.N → Prop} {s t : St P} (hN : Nested P sel S1 S2 s.L) (g : Geometry P.G s.G)
    (hs : SameStatic s.G t.G) (hd : t.dyn = s.dyn) (hL : Counted s.L) (hL' : Counted t.L)
    (hc : Chosen sel s.L t.L) (T : GridPhase P s) (U : GridPhase P t) {k : Fin P.G.N} (hk : S2 k) :
    U.Gb.m k = T.Gb.m k ∧ U.Gb.q k = T.Gb.q k := by
  obtain ⟨r1, -, c1, -⟩ := T.placed hL
  obtain ⟨r2, -, c2, -⟩ := U.placed hL'
  obtain ⟨G1, m1, e1⟩ := T.mapped hB
  obtain ⟨G2, m2, e2⟩ := U.mapped hB
  have ed : U.d = T.d := by rw [U.hd, T.hd, hd]
  have gw : Geometry P.G s.G.wipe := ⟨g.dx, g.dy, g.X, g.Y⟩
  have st : SameTable s.G.wipe t.G.wipe := by
    constructor
    · exact hs.dx
    · exact hs.dy
    · exact hs.X
    · exact hs.Y
    · exact hs.V
    · exact hs.tot
    · exact hs.conv
  have z : ∀ p A i a b, s.L[p]? = some A → A.pts[i]? = some a → sel p i = false →
      InPlace P T.d s.G.wipe p a b → weight P.G.nx b k = 0 := by
    intro p A i a b hA ha hf hr
    exact (hr.weight_zero hP gw (hN.dom a (point_mem hA ha)) (hN.far p i A a hA ha hf k hk)).1
  have em : G2.m k = G1.m k := by
    rw [p2gAll_m c1 m1, p2gAll_m c2 m2, ← items_map_snd, ← items_map_snd, List.map_map,
      List.map_map]
    refine congrArg₂ (· + ·) rfl (chosen_sum hc r1 r2 ?_ ?_)
    · intro p A i a b hA ha hf hr
      change weight P.G.nx b k * b.m = 0
      rw [z p A i a b hA ha hf hr, zero_mul]
    · intro p A B i a b c hA ha hf hB hr hr'
      rw [ed] at hr'
      change weight P.G.nx c k * c.m = weight P.G.nx b k * b.m
      rw [hr.unique st hr']
  have eq : G2.q k = G1.q k := by
    rw [p2gAll_q c1 m1, p2gAll_q c2 m2]
    refine congrArg₂ (· + ·) rfl (chosen_sum hc r1 r2 ?_ ?_)
    · intro p A i a b hA ha hf hr
      change (weight P.G.nx b k * b.m) • _ = 0
      rw [z p A i a b hA ha hf hr, zero_mul, zero_smul]
    · intro p A B i a b c hA ha hf hB hr hr'
      rw [ed] at hr'
      change (weight P.G.nx c k * c.m) • c.v.get B.ph.iv = (weight P.G.nx b k * b.m) • b.v.get A.ph.iv
      rw [hr.unique st hr', hB]
  have s1 := p2gAll_static m1
  have s2 := p2gAll_static m2
  have bv : G2.boundary_v k = G1.boundary_v k := by
    rw [s1.bv, s2.bv]; exact congrFun hs.bv k
  have bh : G2.boundary_h k = G1.boundary_h k := by
    rw [s1.bh, s2.bh]; exact congrFun hs.bh k
  rw [e1, e2]
  refine ⟨em, ?_⟩
  obtain ⟨a2, a0, a1⟩ := zeroBoundary_q P.B.roughness G1 k
  obtain ⟨b2, b0, b1⟩ := zeroBoundary_q P.B.roughness G2 k
  funext j
  fin_cases j
  · change (G2.zeroBoundaryMomentum P.B.roughness).q k 0 = _
    rw [b0, bv, bh, eq]; exact a0.symm
  · change (G2.zeroBoundaryMomentum P.B.roughness).q k 1 = _
    rw [b1, bv, bh, eq]; exact a1.symm
  · change (G2.zeroBoundaryMomentum P.B.roughness).q k 2 = _
    rw [b2, eq]; exact a2.symm

/-- The nodal forces, one ring of nodes further in. -/
theorem forces_local (hP : GoodGrid P.G) (hB : Sealed P) {sel : ℕ → ℕ → Bool}
    {S1 S2 : Fin P.G.N → Prop} {s t : St P} (hN : Nested P sel S1 S2 s.L) (g : Geometry P.G s.G)
    (hs : SameStatic s.G t.G) (hd : t.dyn = s.dyn) (hL : Counted s.L) (hL' : Counted t.L)
    (hc : Chosen sel s.L t.L) (T : GridPhase P s) (U : GridPhase P t) {k : Fin P.G.N} (hk : S1 k) :
    U.Gd.fi k = T.Gd.fi k ∧ U.Gd.fe k = T.Gd.fe k := by
  obtain ⟨-, r1, -, c1⟩ := T.placed hL
  obtain ⟨-, r2, -, c2⟩ := U.placed hL'
  have ed : U.d = T.d := by rw [U.hd, T.hd, hd]
  have em : mat0 t.L = mat0 s.L := chosen_mat0 hc
  have gw : Geometry P.G s.G.wipe := ⟨g.dx, g.dy, g.X, g.Y⟩
  have st : SameTable s.G.wipe t.G.wipe := by
    constructor
    · exact hs.dx
    · exact hs.dy
    · exact hs.X
    · exact hs.Y
    · exact hs.V
    · exact hs.tot
    · exact hs.conv
  obtain ⟨z1, z2⟩ := gridPhase_forces_zero T hL
  obtain ⟨y1, y2⟩ := gridPhase_forces_zero U hL'
  have f1 := getNodalForces_acyclic hB.cyclic_lr T.hGd
  have f2 := getNodalForces_acyclic hB.cyclic_lr U.hGd
  have frame : ∀ {c e : Particle K P.G.ns} {G : Grid K P.G.N P.G.ns} {l : Law}
      {x : LawCtx K P.G.ns} {v v' : Vis → Fin P.G.N → XF K},
      c.stressStrain P.G.nx P.M_tol G l x v = .ok (e, v') →
      weight P.G.nx e k = weight P.G.nx c k ∧ gradWeight P.G.nx e k = gradWeight P.G.nx c k := by
    intro c e G l x v v' h
    obtain ⟨hk, -⟩ := stressStrain_frame h
    refine ⟨hk.weight k, ?_⟩
    unfold Spec.gradWeight
    rw [hk.n_star, hk.Gs]
  have z : ∀ p A i a b, s.L[p]? = some A → A.pts[i]? = some a → sel p i = false →
      Stressed P T.d (mat0 s.L) s.G.wipe T.Gb p A.ph a b →
      weight P.G.nx b k = 0 ∧ gradWeight P.G.nx b k = 0 := by
    rintro p A i a b hA ha hf ⟨c, hr, vis, vis', h⟩
    obtain ⟨w1, w2⟩ := hr.weight_zero hP gw (hN.dom a (point_mem hA ha))
      (hN.far p i A a hA ha hf k (hN.sub k hk))
    obtain ⟨u1, u2⟩ := frame h
    exact ⟨u1.trans w1, u2.trans w2⟩
  have y : ∀ p (A B : PhaseSt K P.G.ns) i a b c, s.L[p]? = some A → A.pts[i]? = some a →
      sel p i = true → B.ph = { A.ph with n := B.ph.n } →
      Stressed P T.d (mat0 s.L) s.G.wipe T.Gb p A.ph a b →
      Stressed P U.d (mat0 t.L) t.G.wipe U.Gb p B.ph a c →
      c = b ∨ (weight P.G.nx b k = 0 ∧ gradWeight P.G.nx b k = 0 ∧ weight P.G.nx c k = 0 ∧
        gradWeight P.G.nx c k = 0) := by
    rintro p A B i a b c hA ha hf hB ⟨b0, hb0, vis, vis', hb⟩ ⟨c0, hc0, wis, wis', hcc⟩
    rw [ed] at hc0 hcc
    rw [em] at hcc
    have e0 := hb0.unique st hc0
    rw [e0] at hcc
    have hx := hN.dom a (point_mem hA ha)
    by_cases ht : Corner P.G a.x k
    · left
      have hall := hN.near p i A a hA ha hf k hk ht
      obtain ⟨nd, n1, n2⟩ := hb0.corner hP gw hx
      rw [hB] at hcc
      refine stressStrain_local ?_ hb hcc
      intro r k' hk'
      rw [n1 r] at hk'
      cases hk'
      exact mapped_local hP ‹Sealed P› hN g hs hd hL hL' hc T U (hall _ (n2 r))
    · right
      obtain ⟨w1, w2⟩ := hb0.weight_zero hP gw hx ht
      obtain ⟨u1, u2⟩ := frame hb
      obtain ⟨v1, v2⟩ := frame hcc
      exact ⟨u1.trans w1, u2.trans w2, v1.trans w1, v2.trans w2⟩
  constructor
  · rw [nodalForcesAll_fi c1 f1, nodalForcesAll_fi c2 f2, z1, y1, ← items_map_snd, ← items_map_snd,
      List.map_map, List.map_map]
    refine congrArg₂ (· + ·) rfl (chosen_sum hc r1 r2 ?_ ?_)
    · intro p A i a b hA ha hf hr
      change b.V • Matrix.mulVec b.stress (gradWeight P.G.nx b k) = 0
      rw [(z p A i a b hA ha hf hr).2, Matrix.mulVec_zero, smul_zero]
    · intro p A B i a b c hA ha hf hB hr hr'
      change c.V • Matrix.mulVec c.stress (gradWeight P.G.nx c k) =
        b.V • Matrix.mulVec b.stress (gradWeight P.G.nx b k)
      rcases y p A B i a b c hA ha hf hB hr hr' with e | ⟨-, e1, -, e2⟩
      · rw [e]
      · rw [e1, e2, Matrix.mulVec_zero, Matrix.mulVec_zero, smul_zero, smul_zero]
  · rw [nodalForcesAll_fe c1 f1, nodalForcesAll_fe c2 f2, z2, y2, ← items_map_snd, ← items_map_snd,
      List.map_map, List.map_map]
    refine congrArg₂ (· + ·) rfl (chosen_sum hc r1 r2 ?_ ?_)
    · intro p A i a b hA ha hf hr
      change (weight P.G.nx b k * b.m) • b.b = 0
      rw [(z p A i a b hA ha hf hr).1, zero_mul, zero_smul]
    · intro p A B i a b c hA ha hf hB hr hr'
      change (weight P.G.nx c k * c.m) • c.b = (weight P.G.nx b k * b.m) • b.b
      rcases y p A B i a b c hA ha hf hB hr hr' with e | ⟨e1, -, e2, -⟩
      · rw [e]
      · rw [e1, e2, zero_mul, zero_mul, zero_smul, zero_smul]

/-- The grid after the momentum update. -/
theorem moved_local (hP : GoodGrid P.G) (hB : Sealed P) {sel : ℕ → ℕ → Bool}
    {S1 S2 : Fin P.G.N → Prop} {s t : St P} (hN : Nested P sel S1 S2 s.L) (g : Geometry P.G s.G)
    (hs : SameStatic s.G t.G) (hd : t.dyn = s.dyn) (hL : Counted s.L) (hL' : Counted t.L)
    (hc : Chosen sel s.L t.L) (T : GridPhase P s) (U : GridPhase P t) {s2 t2 s3 t3 : St P}
    (h2 : momentumPhase P interp { dyn := T.d, L := T.Ld, G := T.Gd } = .ok s2)
    (h2' : momentumPhase P interp { dyn := U.d, L := U.Ld, G := U.Gd } = .ok t2)
    (h3 : segregationPhase P interp s2 = .ok s3) (h3' : segregationPhase P interp t2 = .ok t3)
    {k : Fin P.G.N} (hk : S1 k) :
    t3.G.m k = s3.G.m k ∧ t3.G.q k = s3.G.q k ∧ t3.G.q_dot k = s3.G.q_dot k ∧
      t3.G.V k = s3.G.V k := by
  obtain ⟨-, r1, -, c1⟩ := T.placed hL
  obtain ⟨-, r2, -, c2⟩ := U.placed hL'
  obtain ⟨-, -, -, st1, q1, m1⟩ := T.static
  obtain ⟨-, -, -, st2, q2, m2⟩ := U.static
  have ed : U.d = T.d := by rw [U.hd, T.hd, hd]
  have e3 : s3 = s2 := by
    unfold segregationPhase at h3
    rw [hB.segregate] at h3
    exact (Except.ok.inj h3).symm
  have e3' : t3 = t2 := by
    unfold segregationPhase at h3'
    rw [hB.segregate] at h3'
    exact (Except.ok.inj h3').symm
  obtain ⟨G1, b1, w1⟩ := momentumPhase_frame h2
  obtain ⟨G2, b2, w2⟩ := momentumPhase_frame h2'
  have em : mat0 U.Ld = mat0 T.Ld := by
    rw [r1.rel.mat0, r2.rel.mat0, chosen_mat0 hc]
  have b2' : U.Gd.BCs (nx := P.G.nx) (ny := P.G.ny) P.B T.d.q_v T.d.q_h
      (((mat0 T.Ld).map (·.rho)).getD 0) (P.aniso && decide (T.d.t = 0)) = .ok G2 := by
    rw [← em, ← ed]; exact b2
  have ss : SameStatic T.Gd U.Gd := by
    refine ⟨?_, ?_, ?_⟩
    · constructor
      · rw [st1.dx, st2.dx, hs.dx]
      · rw [st1.dy, st2.dy, hs.dy]
      · rw [st1.X, st2.X, hs.X]
      · rw [st1.Y, st2.Y, hs.Y]
      · rw [st1.V, st2.V, hs.V]
      · rw [st1.tot, st2.tot, hs.tot]
      · rw [st1.conv, st2.conv, hs.conv]
    · rw [st1.bv, st2.bv, hs.bv]
    · rw [st1.bh, st2.bh, hs.bh]
  obtain ⟨gm, gq⟩ := mapped_local hP hB hN g hs hd hL hL' hc T U (hN.sub k hk)
  obtain ⟨gi, ge⟩ := forces_local hP hB hN g hs hd hL hL' hc T U hk
  obtain ⟨x1, x2, x3⟩ := momentum_local (dmp := P.damping) (dt := T.d.dt) (v0 := P.v_0) b1 b2' ss
    (k := k) (by rw [m1, m2, gm]) (by rw [q1, q2, gq]) gi ge
    (by rw [T.ext_zero hB hL, U.ext_zero hB hL'])
  have eV : t3.G.V k = s3.G.V k := by
    obtain ⟨-, -, v1, -⟩ := momentumPhase_table h2
    obtain ⟨-, -, v2, -⟩ := momentumPhase_table h2'
    rw [e3, e3', v1.V, v2.V]
    exact congrFun ss.V k
  rw [← ed] at x2 x3
  refine ⟨?_, ?_, ?_, eV⟩
  · rw [e3, e3', w1, w2]; exact x1
  · rw [e3, e3', w1, w2]; rw [ed] at x2 ⊢; exact x2
  · rw [e3, e3', w1, w2]; rw [ed] at x3 ⊢; exact x3

theorem MoveStep.kin {dt : K} {N : ℕ} {G : Grid K N P.G.ns} {ph : Phase K P.G.ns}
    {a b : Particle K P.G.ns} (h : MoveStep P dt G ph a b) :
    b.N = a.N ∧ b.n_star = a.n_star ∧ (a.isShared = false → b.isShared = false) := by
  rcases h with ⟨-, rfl⟩ | ⟨-, iv, iv', h⟩
  · exact ⟨rfl, rfl, fun _ => rfl⟩
  · have hs := (move_iv h).1
    obtain ⟨nd, -, -, e⟩ := move_ok h
    have e : b = (moveClosed P.M_tol dt G nd a iv).1 := congrArg Prod.fst e
    refine ⟨?_, ?_, fun h => hs.trans h⟩ <;> rw [e] <;> rfl

/-- The weights of a point after a step are those of its cell before the motion. -/
theorem Evolved.place (hB : Sealed P) {d : Dyn K} {m0 : Option (Mat0 K)}
    {Gw Gb Gm : Grid K P.G.N P.G.ns} {p : ℕ} {ph : Phase K P.G.ns} {a b : Particle K P.G.ns}
    (h : Evolved P d m0 Gw Gb Gm p ph a b) :
    ∃ c, InPlace P d Gw p a c ∧ (∀ k : Fin P.G.N, weight P.G.nx b k = weight P.G.nx c k) ∧
      (a.isShared = false → b.isShared = false) ∧ ∃ e, Stressed P d m0 Gw Gb p ph a e ∧
      e.n_star = c.n_star ∧ MoveStep P d.dt Gm ph e b := by
  obtain ⟨a2, a3, a4, a5, a6, h2, h3, ⟨vis, vis', h4⟩, h5, h6, h7⟩ := h
  have e5 : a5 = a4 := by
    rcases h5 with ⟨-, e⟩ | ⟨e, -⟩
    · exact e
    · rw [hB.segregate] at e; cases e
  have e7 : b = a6 := by
    rw [h7]; unfold wrapped; rw [hB.cyclic_lr]; rfl
  rw [e5] at h6
  rw [e7]
  have h3' : InPlace P d Gw p a a3 := ⟨a2, h2, h3⟩
  obtain ⟨k4, -⟩ := stressStrain_frame h4
  obtain ⟨kN, kn, ks⟩ := h6.kin
  refine ⟨a3, h3', fun k => ?_, ?_, a4, ⟨a3, h3', vis, vis', h4⟩, k4.n_star, h6⟩
  · rw [← k4.weight k]; unfold Spec.weight; rw [kN, kn]
  · intro h
    refine ks (Eq.trans ?_ h)
    unfold Particle.isShared; rw [k4.v, h3'.frame]

/-- One step of all points against one step of the chosen ones. -/
theorem step_local (hP : GoodGrid P.G) (hB : Sealed P) {sel : ℕ → ℕ → Bool}
    {S1 S2 : Fin P.G.N → Prop} {s t s' t' : St P} (hN : Nested P sel S1 S2 s.L)
    (g : Geometry P.G s.G) (hs : SameStatic s.G t.G) (hd : t.dyn = s.dyn) (hL : Counted s.L)
    (hL' : Counted t.L) (hc : Chosen sel s.L t.L) (h : timeMarch P interp s = .ok s')
    (h' : timeMarch P interp t = .ok t') {p : ℕ} {A A' B B' : PhaseSt K P.G.ns}
    (hA : s.L[p]? = some A) (hA' : s'.L[p]? = some A') (hBp : t.L[p]? = some B)
    (hB' : t'.L[p]? = some B') :
    SamePhase A.ph A'.ph ∧ A'.pts.length = A.pts.length ∧ SamePhase B.ph B'.ph ∧
    B'.ph.n = B'.pts.length ∧
    List.Forall₂ (fun c b => ∃ i a, A.pts[i]? = some a ∧ sel p i = true ∧
      ((∀ k, Corner P.G a.x k → S1 k) → c = b)) B'.pts (pick (sel p) A'.pts) ∧
    ((∀ a ∈ A.pts, a.isShared = false) → A'.ph.iv = A.ph.iv ∧
      ((∀ a ∈ B.pts, a.isShared = false) → B'.ph.iv = B.ph.iv)) ∧
    ((∀ a ∈ A.pts, ∀ k, Corner P.G a.x k → S1 k) → B'.pts = A'.pts →
      B'.ph.iv - B.ph.iv = A'.ph.iv - A.ph.iv) ∧
    List.Forall₂ (fun a b => a.isShared = false → b.isShared = false) A.pts A'.pts ∧
    ∀ i a, A.pts[i]? = some a → sel p i = true → (∀ k, Corner P.G a.x k → S1 k) →
      B'.pts[Nat.count (fun k => sel p k = true) i]? = A'.pts[i]? := by
  obtain ⟨T, s1, s2, s3, -, e1, h2, h3, -, -, R⟩ := timeMarch_idx hL h
  obtain ⟨U, t1, t2, t3, -, e1', h2', h3', -, -, R'⟩ := timeMarch_idx hL' h'
  rw [e1] at h2
  rw [e1'] at h2'
  have ed : U.d = T.d := by rw [U.hd, T.hd, hd]
  have em : mat0 t.L = mat0 s.L := chosen_mat0 hc
  have gw : Geometry P.G s.G.wipe := ⟨g.dx, g.dy, g.X, g.Y⟩
  have st : SameTable s.G.wipe t.G.wipe := by
    constructor
    · exact hs.dx
    · exact hs.dy
    · exact hs.X
    · exact hs.Y
    · exact hs.V
    · exact hs.tot
    · exact hs.conv
  have gm := fun k (hk : S1 k) =>
    moved_local hP hB hN g hs hd hL hL' hc T U h2 h2' h3 h3' hk
  obtain ⟨p1, n1, evo, kept, new, f1, iv1, -, o1, i1, -, x1⟩ := R.2 p A A' hA hA'
  obtain ⟨p2, n2, evo2, kept2, new2, f2, iv2, -, o2, i2, -, x2⟩ := R'.2 p B B' hBp hB'
  have k1 := o1 hB.outlet_left hB.outlet_bottom
  have k2 := o2 hB.outlet_left hB.outlet_bottom
  have w1 := i1 hB.inlet_right hB.inlet_top
  have w2 := i2 hB.inlet_right hB.inlet_top
  have y1 : A'.pts = evo := by rw [x1, k1, w1, List.append_nil]
  have y2 : B'.pts = evo2 := by rw [x2, k2, w2, List.append_nil]
  rw [← y1] at f1 iv1
  rw [← y2] at f2 iv2
  obtain ⟨c1, c2, c3⟩ := hc.2 p A B hA hBp
  have own : List.Forall₂ (fun a b => a.isShared = false → b.isShared = false) A.pts A'.pts :=
    f1.imp fun a b hab => (hab.place hB).choose_spec.2.2.1
  have own2 : List.Forall₂ (fun a b => a.isShared = false → b.isShared = false) B.pts B'.pts :=
    f2.imp fun a b hab => (hab.place hB).choose_spec.2.2.1
  have none : ∀ (G : Grid K P.G.N P.G.ns) (d : K) (ph : Phase K P.G.ns)
      (l l' : List (Particle K P.G.ns)),
      List.Forall₂ (fun a b => a.isShared = false → b.isShared = false) l l' →
      (∀ a ∈ l, a.isShared = false) → sharedChange P.G.nx P.M_tol d G ph l' = 0 := by
    intro G d ph l l' hll hl
    unfold sharedChange
    split
    · rfl
    · have : l'.filter (·.isShared) = [] := by
        rw [List.filter_eq_nil_iff]
        intro b hb
        obtain ⟨a, ha, hab⟩ := forall₂_right hll hb
        simp [hab (hl a ha)]
      rw [this]; rfl
  have same : ∀ i a b c, A.pts[i]? = some a → sel p i = true →
      Evolved P T.d (mat0 s.L) s.G.wipe T.Gb s3.G p A.ph a b →
      Evolved P U.d (mat0 t.L) t.G.wipe U.Gb t3.G p B.ph a c →
      (∀ k, Corner P.G a.x k → S1 k) → c = b := by
    intro i a b c ha hf hab hac hS
    have hm := mem_pick ha hf
    rw [ed, em] at hac
    have hx := hN.dom a (point_mem hA ha)
    obtain ⟨a0, q1, -, -, e, ⟨a0', q1', v, v', q2⟩, q3, q4⟩ := hab.place hB
    obtain ⟨b0, u1, -, -, e', ⟨b0', u1', w, w', u2⟩, u3, u4⟩ := hac.place hB
    have z1 : b0' = a0 := q1.unique st u1'
    have z2 : a0' = a0 := q1.unique (.refl _) q1'
    have z3 : b0 = a0 := q1.unique st u1
    rw [z1] at u2
    rw [z2] at q2
    rw [z3] at u3
    obtain ⟨nd, d1, d2⟩ := q1.corner hP gw hx
    have hne : B.ph = { A.ph with n := B.ph.n } := by
      have : B.pts ≠ [] := by rw [c1]; exact List.ne_nil_of_mem hm
      rw [c2, c3 this]
    have hlaw : B.ph.law = A.ph.law := by rw [hne]
    have hctx : lawCtx P T.d P.G.s ((mat0 s.L).getD B.ph.par) p B.ph =
        lawCtx P T.d P.G.s ((mat0 s.L).getD A.ph.par) p A.ph := by rw [hne]; rfl
    rw [hlaw, hctx] at u2
    have ee : e' = e := by
      refine stressStrain_local ?_ q2 u2
      intro r k hk
      rw [d1 r] at hk
      cases hk
      exact mapped_local hP hB hN g hs hd hL hL' hc T U (hN.sub _ (hS _ (d2 r)))
    rw [ee] at u4
    refine moveStep_local hlaw ?_ q4 u4
    intro r k hk
    have : e.node P.G.nx P.G.N r = .ok (nd r) := by
      rw [← d1 r]; unfold Particle.node; rw [q3]
    rw [this] at hk
    cases hk
    exact gm _ (hS _ (d2 r))
  refine ⟨p1, f1.length_eq.symm, p2, n2, ?_, ?_, ?_, own, ?_⟩
  · rw [c1] at f2
    refine (pick_pair f1 f2).imp ?_
    rintro c b ⟨i, a, ha, hf, hab, hac⟩
    exact ⟨i, a, ha, hf, same i a b c ha hf hab hac⟩
  · intro hown
    refine ⟨?_, fun hown2 => ?_⟩
    · rw [iv1, none _ _ _ _ _ own hown, add_zero]
    · rw [iv2, none _ _ _ _ _ own2 hown2, add_zero]
  · intro hS heq
    rw [iv1, iv2, heq, add_sub_cancel_left, add_sub_cancel_left]
    have hlaw : B.ph.law = A.ph.law := by rw [c2]
    unfold sharedChange
    rw [hlaw]
    split
    · rfl
    · congr 1
      refine List.map_congr_left fun b hb => ?_
      have hb' : b ∈ A'.pts := (List.mem_filter.1 hb).1
      obtain ⟨a, ha, hab⟩ := forall₂_right f1 hb'
      obtain ⟨c, q1, q2, -⟩ := hab.place hB
      have hx : InDomain P.G a.x := hN.dom a (by
        unfold points
        exact List.mem_flatMap.2 ⟨A, List.mem_of_getElem? hA, ha⟩)
      unfold dvel
      refine Finset.sum_congr rfl fun k _ => ?_
      by_cases hk : Corner P.G a.x k
      · obtain ⟨r1, -, r3, -⟩ := gm k (hS a ha k hk)
        rw [r1, r3, ed]
      · rw [q2 k, (q1.weight_zero hP gw hx hk).1, zero_smul, zero_smul]
  · intro i a ha hf hS
    obtain ⟨b, hb, hab⟩ := (IdxRel.of_forall₂ f1).right ha
    have ha' : B.pts[Nat.count (fun k => sel p k = true) i]? = some a := by
      rw [c1, pick_get hf, ha]
    obtain ⟨c, hcc, hac⟩ := (IdxRel.of_forall₂ f2).right ha'
    rw [hb, hcc, same i a b c ha hf hab hac hS]

theorem pick_shared {ns : ℕ} {f : ℕ → Bool} {l : List (Particle K ns)}
    (h : ∀ a ∈ l, a.isShared = false) : ∀ a ∈ pick f l, a.isShared = false := by
  intro a ha
  obtain ⟨i, h1, -⟩ := pick_mem ha
  exact h a (List.mem_of_getElem? h1)

/-- One step of two bodies without a common node. -/
theorem apart_step (hP : GoodGrid P.G) (hB : Sealed P) {sel : ℕ → ℕ → Bool}
    {s t s' t' : St P} (g : Geometry P.G s.G) (hs : SameStatic s.G t.G) (hd : t.dyn = s.dyn)
    (hL : Counted s.L) (hL' : Counted t.L) (hc : Chosen sel s.L t.L) (hw : Whole sel s.L)
    (ha : Apart P sel s.L) (h : timeMarch P interp s = .ok s') (h' : timeMarch P interp t = .ok t') :
    Chosen sel s'.L t'.L ∧ t'.dyn = s'.dyn ∧ SameStatic s'.G t'.G ∧ Whole sel s'.L := by
  let S : Fin P.G.N → Prop := fun k => ∃ p i A a, s.L[p]? = some A ∧ A.pts[i]? = some a ∧
    sel p i = true ∧ Corner P.G a.x k
  have hN : Nested P sel S S s.L := by
    refine ⟨ha.1, fun _ h => h, ?_, ?_⟩
    · rintro p' i' A' a' h1 h2 h3 k ⟨p, i, A, a, k1, k2, k3, k4⟩ hk
      exact ha.2 p i p' i' A A' a a' k1 k2 k3 h1 h2 h3 k ⟨k4, hk⟩
    · intro p i A a h1 h2 h3 k _ _ k' hk'
      exact ⟨p, i, A, a, h1, h2, h3, hk'⟩
  have key := fun p A A' B B' (h1 : s.L[p]? = some A) (h2 : s'.L[p]? = some A')
    (h3 : t.L[p]? = some B) (h4 : t'.L[p]? = some B') =>
    step_local hP hB hN g hs hd hL hL' hc h h' h1 h2 h3 h4
  obtain ⟨T, _, _, _, _, _, _, _, _, _, R⟩ := timeMarch_idx hL h
  obtain ⟨U, _, _, _, _, _, _, _, _, _, R'⟩ := timeMarch_idx hL' h'
  obtain ⟨w1, w2, w3, w4⟩ := timeMarch_table h
  obtain ⟨u1, u2, u3, u4⟩ := timeMarch_table h'
  refine ⟨⟨by rw [← R.1, ← R'.1, hc.1], ?_⟩, by rw [w4, u4, hd], ?_, ?_⟩
  · intro p A' B' hA' hB'
    obtain ⟨A, hA, -⟩ := R.left hA'
    obtain ⟨B, hBp, -⟩ := R'.left hB'
    obtain ⟨k1, k2, k3, k4, k5, k6, k7, k8, -⟩ := key p A A' B B' hA hA' hBp hB'
    obtain ⟨c1, c2, c3⟩ := hc.2 p A B hA hBp
    have e : B'.pts = pick (sel p) A'.pts := by
      have : B'.pts.map (fun b => b) = (pick (sel p) A'.pts).map fun b => b := by
        refine forall₂_map_eq ?_ k5
        rintro c b ⟨i, a, h1, h2, h3⟩
        exact h3 fun k hk => ⟨p, i, A, a, hA, h1, h2, hk⟩
      simpa using this
    refine ⟨e, ?_, fun hne => ?_⟩
    · unfold SamePhase at k1 k3
      rw [k3, c2, k1, ← k4]
    · have hne' : B.pts ≠ [] := by
        intro hn
        rw [hn] at c1
        apply hne
        rw [e]
        have hl := pick_length (f := sel p) k2
        rw [← c1] at hl
        exact List.eq_nil_of_length_eq_zero hl
      rcases hw p A hA with ho | ho | ho
      · have ho' : ∀ a ∈ A.pts, a.isShared = false := fun a ha => own_iff.2 (ho a ha)
        obtain ⟨x1, x2⟩ := k6 ho'
        rw [x1, x2 (by rw [c1]; exact pick_shared ho'), c3 hne']
      · have x := k7 (fun a ha k hk => by
          obtain ⟨i, hi, he⟩ := List.mem_iff_getElem.1 ha
          exact ⟨p, i, A, a, hA, by rw [List.getElem?_eq_getElem hi, he], ho i hi, hk⟩)
          (by rw [e]; exact pick_all (by rw [k2]; exact ho))
        rw [c3 hne'] at x
        exact sub_left_injective x
      · exact absurd (by rw [e]; exact pick_none (by rw [k2]; exact ho)) hne
  · refine ⟨?_, by rw [w3, u3, hs.bv], by rw [w2, u2, hs.bh]⟩
    constructor
    · rw [w1.dx, u1.dx, hs.dx]
    · rw [w1.dy, u1.dy, hs.dy]
    · rw [w1.X, u1.X, hs.X]
    · rw [w1.Y, u1.Y, hs.Y]
    · rw [w1.V, u1.V, hs.V]
    · rw [w1.tot, u1.tot, hs.tot]
    · rw [w1.conv, u1.conv, hs.conv]
  · intro p A' hA'
    obtain ⟨A, hA, -⟩ := R.left hA'
    have hlt : p < t.L.length := by
      rw [← hc.1]; exact (List.getElem?_eq_some_iff.1 hA).1
    obtain ⟨B', hB', -⟩ := R'.right (List.getElem?_eq_getElem hlt)
    obtain ⟨-, k2, -, -, -, -, -, k8, -⟩ := key p A A' _ B' hA hA' (List.getElem?_eq_getElem hlt) hB'
    rcases hw p A hA with ho | ho | ho
    · left
      intro b hb
      obtain ⟨a, ha, hab⟩ := forall₂_right k8 hb
      exact own_iff.1 (hab (own_iff.2 (ho a ha)))
    · right; left
      rw [k2]; exact ho
    · right; right
      rw [k2]; exact ho

/-- C131.  Bodies that share no node of the grid do not interact: as long as no point of the one has
a node in common with a point of the other, the points of each move, strain and are stressed, to the
last digit, as if the others were not there. -/
theorem c131_bodies (hP : GoodGrid P.G) (hB : Sealed P) {sel : ℕ → ℕ → Bool} {n : ℕ}
    {s t s' t' : St P} (g : Geometry P.G s.G) (hG : SameStatic s.G t.G) (hd : t.dyn = s.dyn)
    (hL : Counted s.L) (hL' : Counted t.L) (hc : Chosen sel s.L t.L) (hw : Whole sel s.L)
    (ha : ∀ m < n, ∀ sm, steps P interp m s = .ok sm → Apart P sel sm.L)
    (h : steps P interp n s = .ok s') (h' : steps P interp n t = .ok t') :
    Chosen sel s'.L t'.L ∧ t'.dyn = s'.dyn := by
  induction n generalizing s t with
  | zero => cases h; cases h'; exact ⟨hc, hd⟩
  | succ n ih =>
    obtain ⟨s1, h1, h⟩ := steps_succ.1 h
    obtain ⟨t1, h1', h'⟩ := steps_succ.1 h'
    obtain ⟨r1, r2, r3, r4⟩ := apart_step hP hB g hG hd hL hL' hc hw (ha 0 (by omega) s rfl) h1 h1'
    refine ih (s := stepTime P s1) (t := stepTime P t1) ((timeMarch_table h1).1.geometry g) r3 ?_
      (timeMarch_counted hL h1 : Counted s1.L) (timeMarch_counted hL' h1' : Counted t1.L) r1 r4 ?_ h h'
    · unfold stepTime
      rw [r2]
    · intro m hm sm hsm
      exact ha (m + 1) (by omega) sm (steps_succ.2 ⟨s1, h1, hsm⟩)

/-- C131.  In one step a point feels nothing that is more than two cells away: take away any points
whose cells are further than that, and it ends the step as before. -/
theorem c131_reach (hP : GoodGrid P.G) (hB : Sealed P) {sel : ℕ → ℕ → Bool} {s t s' t' : St P}
    (g : Geometry P.G s.G) (hG : SameStatic s.G t.G) (hd : t.dyn = s.dyn) (hL : Counted s.L)
    (hL' : Counted t.L) (hc : Chosen sel s.L t.L) (hx : ∀ mp ∈ points s.L, InDomain P.G mp.x)
    {p i ci cj : ℕ} {A : PhaseSt K P.G.ns} {a : Particle K P.G.ns} (hA : s.L[p]? = some A)
    (hi : A.pts[i]? = some a) (hs : sel p i = true) (hcell : InCell P.G a.x ci cj)
    (hfar : ∀ (p' i' di dj : ℕ) (A' : PhaseSt K P.G.ns) (b : Particle K P.G.ns),
      s.L[p']? = some A' → A'.pts[i']? = some b → sel p' i' = false → InCell P.G b.x di dj →
      ci + 2 < di ∨ di + 2 < ci ∨ cj + 2 < dj ∨ dj + 2 < cj)
    (h : timeMarch P interp s = .ok s') (h' : timeMarch P interp t = .ok t') :
    ∃ A' B' b, s'.L[p]? = some A' ∧ t'.L[p]? = some B' ∧ A'.pts[i]? = some b ∧
      B'.pts[Nat.count (fun k => sel p k = true) i]? = some b := by
  have uniq : ∀ {x : Vec K} {i j i' j' : ℕ}, InCell P.G x i j → InCell P.G x i' j' →
      i' = i ∧ j' = j := fun h h' => c01_cell_unique hP h' h
  have hN : Nested P sel (fun k => Corner P.G a.x k)
      (fun k => ci ≤ (k : ℕ) % P.G.nx + 1 ∧ (k : ℕ) % P.G.nx ≤ ci + 2 ∧
        cj ≤ (k : ℕ) / P.G.nx + 1 ∧ (k : ℕ) / P.G.nx ≤ cj + 2) s.L := by
    refine ⟨hx, ?_, ?_, ?_⟩
    · rintro k ⟨u, v, hc, h1, h2⟩
      obtain ⟨rfl, rfl⟩ := uniq hcell hc
      omega
    · rintro p' i' A' b h1 h2 h3 k hk ⟨u, v, hc, k1, k2⟩
      have := hfar p' i' u v A' b h1 h2 h3 hc
      omega
    · rintro p' i' A' b h1 h2 h3 k ⟨u, v, hc, k1, k2⟩ ⟨u', v', hc', k1', k2'⟩ k' ⟨u2, v2, hc2, l1, l2⟩
      obtain ⟨rfl, rfl⟩ := uniq hcell hc
      obtain ⟨rfl, rfl⟩ := uniq hc' hc2
      omega
  obtain ⟨T, _, _, _, _, _, _, _, _, _, R⟩ := timeMarch_idx hL h
  obtain ⟨U, _, _, _, _, _, _, _, _, _, R'⟩ := timeMarch_idx hL' h'
  have hlt : p < t.L.length := by
    rw [← hc.1]; exact (List.getElem?_eq_some_iff.1 hA).1
  obtain ⟨A', hA', -⟩ := R.right hA
  obtain ⟨B', hB', -⟩ := R'.right (List.getElem?_eq_getElem hlt)
  obtain ⟨-, k2, -, -, -, -, -, -, k9⟩ :=
    step_local hP hB hN g hG hd hL hL' hc h h' hA hA' (List.getElem?_eq_getElem hlt) hB'
  have := k9 i a hi hs fun _ hk => hk
  have hil : i < A'.pts.length := by
    rw [k2]; exact (List.getElem?_eq_some_iff.1 hi).1
  rw [List.getElem?_eq_getElem hil] at this
  exact ⟨A', B', _, hA', hB', List.getElem?_eq_getElem hil, this⟩

end

namespace Ex

/-- A row of four cells. -/
def rowGp : GP ℚ :=
  { x_m := 0, x_M := 4, y_m := 0, y_M := 1, nx := 5, ny := 2, dx := 1, dy := 1
    thickness := 1, ns := 2, s := ![1, 2] }
def rowPar : Par ℚ := { par with G := rowGp }

/-- A point half-way up at given place and speed. -/
def rowMp (x : ℚ × ℚ) : Particle ℚ rowPar.G.ns := { mp with x := ![x.1, 1/2, 0], v := .own ![x.2, 0, 0] }
def rowL (l : List (ℚ × ℚ)) : List (PhaseSt ℚ rowPar.G.ns) :=
  [{ ph := { ph with n := l.length }, pts := l.map rowMp }]

theorem rowGood : GoodGrid rowPar.G := by constructor <;> simp [rowPar, rowGp]
theorem rowSealed : Sealed rowPar := by constructor <;> rfl

theorem rowCounted (l : List (ℚ × ℚ)) : Counted (rowL l) := by
  intro a ha
  obtain rfl := List.mem_singleton.1 ha
  exact (List.length_map _).symm

theorem rowDomain {l : List (ℚ × ℚ)} (h : ∀ x ∈ l, 0 ≤ x.1 ∧ x.1 < 4) :
    ∀ mp ∈ points (rowL l), InDomain rowPar.G mp.x := by
  intro mp hmp
  obtain ⟨A, hA, hm⟩ := List.mem_flatMap.1 hmp
  obtain rfl := List.mem_singleton.1 hA
  obtain ⟨x, hx, rfl⟩ := List.mem_map.1 hm
  obtain ⟨h1, h2⟩ := h x hx
  refine ⟨⟨h1, h2⟩, ?_, ?_⟩
  · change (0 : ℚ) ≤ 1 / 2; norm_num
  · change (1 / 2 : ℚ) < 1; norm_num

theorem rowCell {x u : ℚ} {i j : ℕ} (h : InCell rowPar.G (rowMp (x, u)).x i j) :
    (i : ℚ) ≤ x ∧ x < i + 1 := by
  obtain ⟨⟨h1, h2⟩, -⟩ := h
  simp only [nodeX, rowPar, rowGp, rowMp, Matrix.cons_val_zero] at h1 h2
  push_cast at h1 h2
  constructor <;> linarith

theorem rowRuns {G : Grid ℚ rowPar.G.N rowPar.G.ns} (hG : mkGrid rowPar.G rowPar.B = .ok G)
    {l : List (ℚ × ℚ)} (h : ∀ x ∈ l, 0 ≤ x.1 ∧ x.1 < 4) :
    ∃ s', timeMarch rowPar (noInterp rowPar) { dyn := dyn, L := rowL l, G := G } = .ok s' := by
  refine timeMarch_exists (P := rowPar) (s := { dyn := dyn, L := rowL l, G := G }) rowGood
    (mkGrid_geometry hG) ?_ (rowCounted l) (rowDomain h) rfl ?_ rfl rfl rfl rfl rfl rfl _
  · intro k
    change G.V k ≠ 0
    rw [mkGrid_V rowGood hG]
    refine mul_ne_zero (mul_ne_zero (halfEnd_pos _ _).ne' ?_) ?_
    · split
      · exact one_ne_zero
      · exact (halfEnd_pos _ _).ne'
    · simp [cellX, cellY, rowPar, rowGp]; norm_num
  · intro a ha
    obtain rfl := List.mem_singleton.1 ha
    exact Or.inr (Or.inl rfl)

/-- The first of two points. -/
def rowSel : ℕ → ℕ → Bool := fun _ i => i == 0

theorem rowPts {l : List (ℚ × ℚ)} {p i : ℕ} {A : PhaseSt ℚ rowPar.G.ns}
    {a : Particle ℚ rowPar.G.ns} (hA : (rowL l)[p]? = some A) (ha : A.pts[i]? = some a) :
    ∃ x, l[i]? = some x ∧ a = rowMp x := by
  have h1 := List.mem_of_getElem? hA
  obtain rfl := List.mem_singleton.1 h1
  have : (l.map rowMp)[i]? = some a := ha
  rw [List.getElem?_map, Option.map_eq_some_iff] at this
  obtain ⟨x, h1, h2⟩ := this
  exact ⟨x, h1, h2.symm⟩

theorem rowChosen : Chosen rowSel (rowL [(1/2, 1), (7/2, -1)]) (rowL [(1/2, 1)]) := by
  refine ⟨rfl, fun p A B hA hB => ?_⟩
  obtain rfl := List.mem_singleton.1 (List.mem_of_getElem? hA)
  obtain rfl := List.mem_singleton.1 (List.mem_of_getElem? hB)
  exact ⟨rfl, rfl, fun _ => rfl⟩

theorem rowFar {p i : ℕ} {A : PhaseSt ℚ rowPar.G.ns} {a : Particle ℚ rowPar.G.ns}
    (hA : (rowL [(1/2, 1), (7/2, -1)])[p]? = some A) (ha : A.pts[i]? = some a) :
    (rowSel p i = true → a = rowMp (1/2, 1)) ∧ (rowSel p i = false → a = rowMp (7/2, -1)) := by
  obtain ⟨x, hx, rfl⟩ := rowPts hA ha
  match i, hx with
  | 0, hx => cases hx; exact ⟨fun _ => rfl, fun h => absurd h (by simp [rowSel])⟩
  | 1, hx => cases hx; exact ⟨fun h => absurd h (by simp [rowSel]), fun _ => rfl⟩

theorem rowLeft {u : ℚ} {i j : ℕ} (h : InCell rowPar.G (rowMp (1/2, u)).x i j) : i = 0 := by
  obtain ⟨h1, h2⟩ := rowCell h
  have : (i : ℚ) < ((1 : ℕ) : ℚ) := by push_cast; linarith
  have := Nat.cast_lt.1 this
  omega

theorem rowRight {u : ℚ} {i j : ℕ} (h : InCell rowPar.G (rowMp (7/2, u)).x i j) : i = 3 := by
  obtain ⟨h1, h2⟩ := rowCell h
  have a : (i : ℚ) < ((4 : ℕ) : ℚ) := by push_cast; linarith
  have b : ((2 : ℕ) : ℚ) < (i : ℚ) := by push_cast; linarith
  have a := Nat.cast_lt.1 a
  have b := Nat.cast_lt.1 b
  omega

theorem rowApart : Apart rowPar rowSel (rowL [(1/2, 1), (7/2, -1)]) := by
  refine ⟨rowDomain (by simp; norm_num), ?_⟩
  rintro p i p' i' A A' a a' h1 h2 h3 h1' h2' h3' k ⟨⟨u, v, hc, k1, -⟩, ⟨u', v', hc', k1', -⟩⟩
  rw [(rowFar h1 h2).1 h3] at hc
  rw [(rowFar h1' h2').2 h3'] at hc'
  have e1 := rowLeft hc
  have e2 := rowRight hc'
  omega

theorem rowWhole : Whole rowSel (rowL [(1/2, 1), (7/2, -1)]) := by
  intro p A hA
  left
  intro a ha
  obtain ⟨i, hi, rfl⟩ := List.mem_iff_getElem.1 ha
  obtain ⟨x, -, e⟩ := rowPts hA (List.getElem?_eq_getElem hi)
  rw [e]
  exact ⟨_, rfl⟩

end Ex

/-- Two points three cells apart: the first moves as if it were alone. -/
example : ∃ (G : Grid ℚ Ex.rowPar.G.N Ex.rowPar.G.ns) (s' t' : St Ex.rowPar),
    mkGrid Ex.rowPar.G Ex.rowPar.B = .ok G ∧
    steps Ex.rowPar (Ex.noInterp Ex.rowPar) 1
      { dyn := Ex.dyn, L := Ex.rowL [(1/2, 1), (7/2, -1)], G := G } = .ok s' ∧
    steps Ex.rowPar (Ex.noInterp Ex.rowPar) 1
      { dyn := Ex.dyn, L := Ex.rowL [(1/2, 1)], G := G } = .ok t' ∧ Chosen Ex.rowSel s'.L t'.L := by
  obtain ⟨G, hG⟩ := mkGrid_exists Ex.rowPar.B Ex.rowGood
  obtain ⟨s1, h1⟩ := Ex.rowRuns hG (l := [(1/2, 1), (7/2, -1)]) (by simp; norm_num)
  obtain ⟨t1, h2⟩ := Ex.rowRuns hG (l := [(1/2, 1)]) (by simp; norm_num)
  have k1 := steps_succ.2 ⟨s1, h1, (rfl : steps _ _ 0 _ = .ok (stepTime Ex.rowPar s1))⟩
  have k2 := steps_succ.2 ⟨t1, h2, (rfl : steps _ _ 0 _ = .ok (stepTime Ex.rowPar t1))⟩
  refine ⟨G, _, _, hG, k1, k2, ?_⟩
  refine (c131_bodies (P := Ex.rowPar) Ex.rowGood Ex.rowSealed
    (s := { dyn := Ex.dyn, L := Ex.rowL [(1/2, 1), (7/2, -1)], G := G })
    (t := { dyn := Ex.dyn, L := Ex.rowL [(1/2, 1)], G := G })
    (mkGrid_geometry hG) (.refl _) rfl (Ex.rowCounted _) (Ex.rowCounted _) Ex.rowChosen Ex.rowWhole ?_
    k1 k2).1
  intro m hm sm hsm
  obtain rfl : m = 0 := by omega
  cases hsm
  exact Ex.rowApart

/-- The same from the reach of a step. -/
example : ∃ (G : Grid ℚ Ex.rowPar.G.N Ex.rowPar.G.ns) (s' t' : St Ex.rowPar)
    (A' B' : PhaseSt ℚ Ex.rowPar.G.ns) (b : Particle ℚ Ex.rowPar.G.ns),
    timeMarch Ex.rowPar (Ex.noInterp Ex.rowPar)
      { dyn := Ex.dyn, L := Ex.rowL [(1/2, 1), (7/2, -1)], G := G } = .ok s' ∧
    timeMarch Ex.rowPar (Ex.noInterp Ex.rowPar)
      { dyn := Ex.dyn, L := Ex.rowL [(1/2, 1)], G := G } = .ok t' ∧
    s'.L[0]? = some A' ∧ t'.L[0]? = some B' ∧ A'.pts[0]? = some b ∧ B'.pts[0]? = some b := by
  obtain ⟨G, hG⟩ := mkGrid_exists Ex.rowPar.B Ex.rowGood
  obtain ⟨s1, h1⟩ := Ex.rowRuns hG (l := [(1/2, 1), (7/2, -1)]) (by simp; norm_num)
  obtain ⟨t1, h2⟩ := Ex.rowRuns hG (l := [(1/2, 1)]) (by simp; norm_num)
  have hc : InCell Ex.rowPar.G (Ex.rowMp (1/2, 1)).x 0 0 := by
    simp only [InCell, nodeX, nodeY, Ex.rowPar, Ex.rowGp, Ex.rowMp, Matrix.cons_val_zero,
      Matrix.cons_val_one]
    norm_num
  obtain ⟨A', B', b, x1, x2, x3, x4⟩ := c131_reach (P := Ex.rowPar) Ex.rowGood Ex.rowSealed
    (sel := Ex.rowSel) (s := { dyn := Ex.dyn, L := Ex.rowL [(1/2, 1), (7/2, -1)], G := G })
    (t := { dyn := Ex.dyn, L := Ex.rowL [(1/2, 1)], G := G }) (mkGrid_geometry hG) (.refl _) rfl
    (Ex.rowCounted _) (Ex.rowCounted _) Ex.rowChosen Ex.rowApart.1 (p := 0) (i := 0) rfl rfl rfl hc
    (fun p' i' di dj A' b k1 k2 k3 k4 => by
      rw [(Ex.rowFar k1 k2).2 k3] at k4
      have := Ex.rowRight k4
      omega) h1 h2
  exact ⟨G, s1, t1, A', B', b, h1, h2, x1, x2, x3, x4⟩

/-- C131.  The bound is sharp: a point exactly two cells away is felt in the same step, although the
two have no node in common, if there is a point between them. -/
theorem c131_reach_sharp : ∃ (G : Grid ℚ Ex.rowPar.G.N Ex.rowPar.G.ns) (s' t' : St Ex.rowPar),
    mkGrid Ex.rowPar.G Ex.rowPar.B = .ok G ∧
    timeMarch Ex.rowPar (Ex.noInterp Ex.rowPar)
      { dyn := Ex.dyn, L := Ex.rowL [(1/2, 0), (3/2, 0), (5/2, 1)], G := G } = .ok s' ∧
    timeMarch Ex.rowPar (Ex.noInterp Ex.rowPar)
      { dyn := Ex.dyn, L := Ex.rowL [(1/2, 0), (3/2, 0)], G := G } = .ok t' ∧
    (points s'.L).map (fun mp => mp.x 0) =
      [9000619 / 18000000, 27045019 / 18000000, 22567181 / 9000000] ∧
    (points t'.L).map (fun mp => mp.x 0) = [15001 / 30000, 44999 / 30000] := by
  obtain ⟨G, s', h1, h2, h3⟩ := Ex.run_one (P := Ex.rowPar) (d := Ex.dyn)
    (L := Ex.rowL [(1/2, 0), (3/2, 0), (5/2, 1)])
    (check := fun s => decide ((points s.L).map (fun mp => mp.x 0) =
      [9000619 / 18000000, 27045019 / 18000000, 22567181 / 9000000])) (by decide +kernel)
  obtain ⟨G', t', h1', h2', h3'⟩ := Ex.run_one (P := Ex.rowPar) (d := Ex.dyn)
    (L := Ex.rowL [(1/2, 0), (3/2, 0)])
    (check := fun s => decide ((points s.L).map (fun mp => mp.x 0) = [15001 / 30000, 44999 / 30000]))
    (by decide +kernel)
  rw [h1] at h1'
  cases h1'
  exact ⟨G, s', t', h1, h2, h2', of_decide_eq_true h3, of_decide_eq_true h3'⟩

namespace Ex

/-- The same points, all with the velocity array of their phase. -/
def tiedL (l : List (ℚ × ℚ)) : List (PhaseSt ℚ rowPar.G.ns) :=
  [{ ph := { ph with n := l.length }, pts := l.map fun x => { rowMp x with v := .shared } }]

end Ex

/-- C131.  Points that still have the velocity array of their phase, as all points of a phase with an
`initial_v` have, are tied together over any distance: two points three cells apart, without a common
node, each alone gets a vertical velocity of -1/10 from gravity in the step; together they both get
twice as much. -/
theorem c131_tied : ∃ (G : Grid ℚ Ex.rowPar.G.N Ex.rowPar.G.ns) (s' t' : St Ex.rowPar),
    mkGrid Ex.rowPar.G Ex.rowPar.B = .ok G ∧
    timeMarch Ex.rowPar (Ex.noInterp Ex.rowPar)
      { dyn := Ex.dyn, L := Ex.tiedL [(1/2, 0), (7/2, 0)], G := G } = .ok s' ∧
    timeMarch Ex.rowPar (Ex.noInterp Ex.rowPar)
      { dyn := Ex.dyn, L := Ex.tiedL [(1/2, 0)], G := G } = .ok t' ∧
    s'.L.map (fun A => A.ph.iv 1) = [-1/5] ∧ t'.L.map (fun A => A.ph.iv 1) = [-1/10] := by
  obtain ⟨G, s', h1, h2, h3⟩ := Ex.run_one (P := Ex.rowPar) (d := Ex.dyn)
    (L := Ex.tiedL [(1/2, 0), (7/2, 0)])
    (check := fun s => decide (s.L.map (fun A => A.ph.iv 1) = [-1/5])) (by decide +kernel)
  obtain ⟨G', t', h1', h2', h3'⟩ := Ex.run_one (P := Ex.rowPar) (d := Ex.dyn)
    (L := Ex.tiedL [(1/2, 0)])
    (check := fun s => decide (s.L.map (fun A => A.ph.iv 1) = [-1/10])) (by decide +kernel)
  rw [h1] at h1'
  cases h1'
  exact ⟨G, s', t', h1, h2, h2', of_decide_eq_true h3, of_decide_eq_true h3'⟩

end Mpm

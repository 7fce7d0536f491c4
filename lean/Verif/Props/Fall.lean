import Verif.Props.Boost
import Verif.Props.Energy

/-!
# C109: free fall

A stress-free body of any materials whose points all have the same velocity falls without being
deformed.
-/

set_option linter.unusedSectionVars false

namespace Mpm
open Spec

/-! ## What a step does to the nodes of a body away from walls -/

section
variable {K : Type} [Field K] [LinearOrder K] [IsStrictOrderedRing K] [FloorRing K]
variable {P : Par K} {s s' : St P}

/-- A step away from walls: `T` the state after the forces have been found, `s3` the one before the
points are moved. -/
structure FreeNodes (P : Par K) (s s' : St P) where
  T : GridPhase P s
  s3 : St P
  dt : T.d.dt = s.dyn.dt
  phase : ∃ s1, gridPhase P s = .ok s1
  rel : PtsRel (fun _ a b => b = { a with phi := b.phi, pk := b.pk }) T.Ld s3.L
  counted : Counted s3.L
  moved : movePoints P.G.nx P.M_tol T.d.dt P.intruder_v s3.G s3.L = .ok s'.L
  mass : s3.G.m = T.Gd.m
  q_dot : ∀ k, s3.G.q_dot k = (dampFactor (K := K) P.damping) • (T.Gd.fe k - T.Gd.fi k)
  q : ∀ k, s3.G.q k = T.Gd.q k + s.dyn.dt • s3.G.q_dot k
  q0 : T.Gd.q = T.Ga.q
  m0 : T.Gd.m = T.Ga.m

theorem freeNodes (hB : FreeOptions P.B) {interp : Interp K P.G.N} (hL : Counted s.L)
    (hw : NoWalls s.G) (h : timeMarch P interp s = .ok s') : Nonempty (FreeNodes P s s') := by
  obtain ⟨s1, s2, s3, h1, h2, h3, h4⟩ := timeMarch_ok h
  obtain ⟨T, e1⟩ := gridPhase_ok h1
  have hdt : T.d.dt = s.dyn.dt := by rw [T.hd]; rfl
  obtain ⟨d2, l2, -, m2, bh, bv⟩ := momentumPhase_table h2
  obtain ⟨d3, -, m3, q3, qd3, -⟩ := segregationPhase_frame h3
  have l2' : s2.L = T.Ld := by rw [l2, e1]
  obtain ⟨-, st, -, std, eq, em⟩ := T.static
  obtain ⟨-, -, -, -, cd⟩ := T.rel hL
  have c2 : Counted s2.L := by rw [l2']; exact cd
  have re := segregationPhase_rel c2 h3
  have h4' : movePoints P.G.nx P.M_tol T.d.dt P.intruder_v s3.G s3.L = .ok s'.L := by
    unfold pointsPhase whenSet at h4
    simp only [hB.outlet_left, hB.outlet_bottom, hB.inlet_right, hB.inlet_top, hB.cyclic,
      Bool.false_eq_true, if_false, res_ok_bind] at h4
    obtain ⟨L1, g1, h4⟩ := res_bind_ok.1 h4
    cases h4
    have : s3.dyn.dt = T.d.dt := by rw [d3, d2, e1]
    rw [← this]; exact g1
  obtain ⟨G1, hG1, e2⟩ := momentumPhase_frame h2
  have eG1 : G1 = T.Gd := by
    have := BCs_none hB.vertical hB.horizontal hG1
    rw [this, e1]
  have hv : ∀ k, s2.G.boundary_v k = false := by
    intro k
    rw [bv, e1]
    have : T.Gd.boundary_v k = false := by rw [std.bv]; exact (hw k).1
    rcases hB.friction with h | h <;> simp [wallMarks, h, this]
  have hh : ∀ k, s2.G.boundary_h k = false := by
    intro k
    rw [bh, e1]
    have : T.Gd.boundary_h k = false := by rw [std.bh]; exact (hw k).2
    rcases hB.friction with h | h <;> simp [wallMarks, h, this]
  have d1 : s1.dyn = T.d := by rw [e1]
  have hqd : ∀ k, s3.G.q_dot k = (dampFactor (K := K) P.damping) • (T.Gd.fe k - T.Gd.fi k) := by
    intro k
    have ev : s2.G.boundary_v = _ := congrArg (fun s : St P => s.G.boundary_v) e2
    have eh : s2.G.boundary_h = _ := congrArg (fun s : St P => s.G.boundary_h) e2
    have eqd : s2.G.q_dot = _ := congrArg (fun s : St P => s.G.q_dot) e2
    rw [qd3, eqd, ← eG1]
    exact updateMomentum_qdot_free (dt := s1.dyn.dt) (v0 := P.v_0) G1 k ((congrFun ev k).symm.trans (hv k))
      ((congrFun eh k).symm.trans (hh k))
  have hq : ∀ k, s3.G.q k = T.Gd.q k + s.dyn.dt • s3.G.q_dot k := by
    intro k
    have eqq : s2.G.q = _ := congrArg (fun s : St P => s.G.q) e2
    have eqd : s2.G.q_dot = _ := congrArg (fun s : St P => s.G.q_dot) e2
    have := updateMomentum_q hB.conveyor (damping := P.damping) (dt := s1.dyn.dt) (v0 := P.v_0) G1 k
    rw [q3, qd3, eqq, eqd]
    refine this.trans ?_
    rw [eG1, d1, hdt]
  refine ⟨⟨T, s3, hdt, ⟨s1, h1⟩, ?_, re.counted c2, h4', ?_, hqd, hq, ?_, ?_⟩⟩
  · rw [← l2']; exact re.mono fun _ _ _ h => h.frame
  · rw [m3, m2, e1]
  · rw [eq, T.hGb, hB.cyclic]; rfl
  · rw [em, T.hGb, hB.cyclic]; rfl

end

/-! ## No law stresses a relaxed point that is not strained -/

namespace Spec
variable {K : Type} [Field K] [LinearOrder K] {ns : ℕ}

/-- A point without any stress, also in the fields the laws keep between steps. -/
structure Relaxed (mp : Particle K ns) : Prop where
  stress : mp.stress = 0
  dstress : mp.dstress = 0
  dev_stress : mp.dev_stress = 0
  pressure : mp.pressure = 0
  sigma_kk : mp.sigma_kk = 0

end Spec

section
variable {K : Type} [Field K] [LinearOrder K] [IsStrictOrderedRing K] [FloorRing K] {ns : ℕ}

theorem law_relaxed {law : Law} {c : LawCtx K ns} {mp mp' : Particle K ns} {l : List (Vis × XF K)}
    (hr : Relaxed mp) (he : mp.dstrain = 0) (h : runLaw law c mp = .ok (mp', l)) : Relaxed mp' := by
  obtain ⟨r1, r2, r3, r4, r5⟩ := hr
  cases law with
  | rigid => cases h; exact ⟨r1, r2, r3, r4, r5⟩
  | elastic =>
    cases h
    exact ⟨r1, by simp [he], r3, by simp [r1], r5⟩
  | elastic_time =>
    simp only [runLaw, lawElasticTime] at h
    split at h
    · cases h
    cases h
    exact ⟨r1, by simp [he], r3, by simp [r1], r5⟩
  | von_mises =>
    simp only [runLaw, lawVonMises] at h
    split at h
    · cases h
    split at h
    · cases h
    split at h
    · cases h
    cases h
    exact ⟨r1, by simp [he, r1, r3, r5], by simp [he, r3], by simp [r1], by simp [he, r5]⟩
  | dp =>
    simp only [runLaw, lawDp] at h
    split at h <;> cases h
  | dp_rate =>
    exfalso
    simp only [runLaw, lawDpRate] at h
    obtain ⟨a, _, h⟩ := res_bind_ok.1 h
    obtain ⟨b, hb, h⟩ := res_bind_ok.1 h
    have e : (-block2 mp.stress).trace = 0 := by
      rw [r1]
      simp [block2, Matrix.trace]
    rw [e, zero_div, mul_zero] at hb
    generalize c.ops.sqrt _ = q at hb
    have : ∀ x : XF K, x = .nan ∨ x = .pinf ∨ x = .ninf → (x - .fin 1 : XF K).toRes = .ok b → False := by
      rintro x (rfl | rfl | rfl) h <;> cases h
    refine this _ ?_ hb
    change XF.div _ _ = _ ∨ XF.div _ _ = _ ∨ XF.div _ _ = _
    simp only [XF.div, if_true, XF.infSign]
    split
    · exact .inl rfl
    · split
      · exact .inr (.inl rfl)
      · exact .inr (.inr rfl)
  | viscous =>
    simp only [runLaw, lawViscous] at h
    split at h
    · cases h
    cases h
    exact ⟨r1, by simp [he, r1, r4], by simp [he], by simp [he, r4], r5⟩
  | bingham =>
    simp only [runLaw, lawBingham] at h
    split at h
    · cases h
    obtain ⟨a, _, h⟩ := res_bind_ok.1 h
    obtain ⟨b, hb, h⟩ := res_bind_ok.1 h
    have hdev : b = 0 := by
      split at hb
      · rw [← Except.ok.inj hb]; simp [he]
      · split at hb
        · cases hb
        · rw [← Except.ok.inj hb]; simp [he]
    cases h
    exact ⟨by simp [he, r4, hdev], r2, hdev, by simp [he, r4], r5⟩
  | ken_kamrin =>
    simp only [runLaw, lawKenKamrin] at h
    split at h
    · cases h
    obtain ⟨a, _, h⟩ := res_bind_ok.1 h
    cases h
    exact ⟨r1, by simp [he, r1, r4], by simp [he], by simp [he, r4], r5⟩
  | pouliquen =>
    simp only [runLaw, lawPouliquen] at h
    obtain ⟨⟨a, b, d⟩, _, h⟩ := res_bind_ok.1 h
    simp only at h
    split at h
    · cases h
    rename_i hdt
    have hp : pouliquenPressure c mp.rho (mp.pressure + c.mat.Kb * (mp.dstrain.trace / 3)) = 0 := by
      rw [he, r4]
      unfold pouliquenPressure
      simp
    split at h
    · rename_i hf
      have hM := flowStressInc_fin (M := fun i j => (flowStressInc _ _ _ _ _ i j).nanToNum 0) hdt
        (fun i j => finMat_ok (if_pos hf) i j)
      obtain ⟨e, _, hM⟩ := hM
      cases h
      refine ⟨r1, ?_, by simp [he], hp, r5⟩
      simp only
      rw [hM, hp, he, r1]
      simp
    · cases h
  | linear_mu =>
    simp only [runLaw, lawLinearMu] at h
    obtain ⟨a, _, h⟩ := res_bind_ok.1 h
    split at h
    · cases h
    rename_i hdt
    obtain ⟨b, hb, h⟩ := res_bind_ok.1 h
    obtain ⟨d, hd2, h⟩ := res_bind_ok.1 h
    obtain ⟨e, he2, hM⟩ := flowStressInc_fin hdt (fun i j => finMat_ok hb i j)
    have hD : d = 0 := by
      ext i j
      obtain ⟨e', he', hy⟩ := eta_fin hdt (finMat_ok hd2 i j)
      rw [hy, he]
      simp
    cases h
    refine ⟨r1, ?_, hD, by simp [linearMuRaw, he, r4], r5⟩
    simp only
    rw [hM]
    simp [linearMuRaw, he, r4, r1]
  | ken_simple =>
    simp only [runLaw, lawKenSimple] at h
    obtain ⟨a, _, h⟩ := res_bind_ok.1 h
    split at h
    · cases h
    cases h
    refine ⟨r1, ?_, by simp [he], by simp [he, r4], r5⟩
    simp [he, r4, r1]
  | viscous_size => cases h
  | pouliquen2D => cases h
  | other => cases h

/-- No law stresses a relaxed point that is not strained. -/
theorem stressStrain_relaxed {N nx : ℕ} {M_tol : K} {G : Grid K N ns} {law : Law} {c : LawCtx K ns}
    {a b : Particle K ns} {vis vis' : Vis → Fin N → XF K} {w : Vec K} (hr : Relaxed a)
    (hs : ∑ r, a.Gs r = 0) (hv : ∀ r k, a.node nx N r = .ok k → nodeVel M_tol G k = w)
    (h : a.stressStrain nx M_tol G law c vis = .ok (b, vis')) :
    Relaxed b ∧ b.strain = a.strain ∧ b.dstrain = 0 := by
  obtain ⟨mp1, mp2, l, h1, h2, -, rfl⟩ := stressStrain_ok h
  obtain ⟨nd, hnd, rfl⟩ := updateStrain_ok h1
  have hA : (∑ r, Matrix.vecMulVec (nodeVel M_tol G (nd r)) (a.Gs r) : Mat K) = 0 := by
    have : ∀ r, nodeVel M_tol G (nd r) = w := fun r => hv r _ (hnd r)
    simp only [this]
    ext i j
    rw [Matrix.sum_apply]
    simp only [Matrix.vecMulVec_apply, ← Finset.mul_sum]
    have := congrFun hs j
    rw [Finset.sum_apply] at this
    rw [this]
    simp
  simp only [hA] at h2
  have hd : (0 : Mat K) + Matrix.transpose 0 = 0 := by simp
  rw [hd, smul_zero, add_zero] at h2
  obtain ⟨f1, f2, f3, f4, -⟩ := runLaw_frame h2
  have r2 : Relaxed mp2 := by
    refine law_relaxed ?_ rfl h2
    exact ⟨hr.stress, hr.dstress, hr.dev_stress, hr.pressure, hr.sigma_kk⟩
  refine ⟨⟨?_, r2.dstress, r2.dev_stress, r2.pressure, r2.sigma_kk⟩, f2, f3⟩
  change mp2.stress + (mp2.dstress - c.dt • (mp2.LL * mp2.stress + mp2.stress * mp2.LL)) = 0
  rw [r2.stress, r2.dstress]
  simp

end

/-! ## One step -/

section
variable {K : Type} [Field K] [LinearOrder K] [IsStrictOrderedRing K] [FloorRing K]
variable {P : Par K} {s s' : St P}

theorem list_sum_smul {α : Type} (l : List α) (f : α → K) (v : Vec K) :
    (l.map fun a => f a • v).sum = (l.map f).sum • v := by
  induction l with
  | nil => simp
  | cons a l ih => simp only [List.map_cons, List.sum_cons, ih, add_smul]

/-- The grid momentum of points that all have the velocity `w`. -/
theorem uniform_momentum (hP : GoodGrid P.G) (hL : Counted s.L) (hG : Geometry P.G s.G)
    (hw : NoWalls s.G) (hx : ∀ mp ∈ points s.L, InDomain P.G mp.x) {w : Vec K}
    (hv : ∀ mp ∈ points s.L, mp.v = .own w) (T : GridPhase P s) (k : Fin P.G.N) :
    T.Ga.q k = T.Ga.m k • w := by
  funext i
  rw [(gridPhase_mapped_momentum hP hG hL hx T k i).2 (hw k).1 (hw k).2,
    gridPhase_mapped_mass hP hG hL hx T k]
  unfold nodalMass
  rw [← items_map_snd, List.map_map, Pi.smul_apply, smul_eq_mul, ← List.sum_map_mul_right]
  refine congrArg List.sum (List.map_congr_left fun x hxi => ?_)
  rw [hv x.2 (mem_points_items hxi)]
  rfl

/-- Velocity gained in a step. -/
theorem fall_step (hP : GoodGrid P.G) (hB : FreeOptions P.B) {interp : Interp K P.G.N}
    (hL : Counted s.L) (hG : Geometry P.G s.G) (hw : NoWalls s.G) (hlaw : FreeLaws s.L)
    (hx : ∀ mp ∈ points s.L, InDomain P.G mp.x) (hh : Heavy P.G P.M_tol s.L) {w γ : Vec K}
    (hv : ∀ mp ∈ points s.L, mp.v = .own w ∧ Relaxed mp) (hγ : ∀ mp ∈ points s'.L, mp.b = γ)
    (h : timeMarch P interp s = .ok s') :
    List.Forall₂ (fun a b => b.v = .own (w + s.dyn.dt • dampFactor (K := K) P.damping • γ) ∧
      b.x = a.x + s.dyn.dt • (w + s.dyn.dt • dampFactor (K := K) P.damping • γ) ∧
      Relaxed b ∧ b.strain = a.strain ∧ b.m = a.m) (points s.L) (points s'.L) := by
  obtain ⟨F⟩ := freeNodes hB hL hw h
  obtain ⟨T, s3, hdt, -, rel3, c3, hmv, em, hqd, hq, q0, m0⟩ := F
  have car := T.carried hP hG hL hx hh
  have hqa := uniform_momentum hP hL hG hw hx (fun mp hmp => (hv mp hmp).1) T
  have hGb : T.Gb = T.Ga := by rw [T.hGb, hB.cyclic]; rfl
  have r1 := updateForces_rel hL T.ha
  have rloc := locate_all (r1.counted hL) T.hb T.hc
  obtain ⟨-, -, -, cc, cd⟩ := T.rel hL
  have rss := updateStressStrain_rel cc T.hLd
  have hlaw' : ∀ x ∈ items s.L, x.1.law ≠ .rigid ∧ x.1.law ≠ .elastic_time := by
    intro x hxi
    obtain ⟨A, hA, hxi⟩ := List.mem_flatMap.1 hxi
    obtain ⟨mp, -, rfl⟩ := List.mem_map.1 hxi
    exact hlaw A hA
  -- node velocities
  have hnv : ∀ c ∈ points T.Lc, ∀ r k, c.node P.G.nx P.G.N r = .ok k →
      P.M_tol < T.Ga.m k ∧ nodeVel P.M_tol T.Gb k = w := by
    intro c hc r k hk
    obtain ⟨nd, hnd⟩ := (car c hc).nodes
    obtain rfl : nd r = k := Except.ok.inj ((hnd r).1.symm.trans hk)
    have hm := (hnd r).2
    have hm0 : T.Ga.m (nd r) ≠ 0 := (P.M_tol_nonneg.trans_lt hm).ne'
    refine ⟨hm, ?_⟩
    rw [hGb, nodeVel, if_pos hm]
    funext i
    rw [hqa, Pi.smul_apply, smul_eq_mul]
    field_simp
  -- the points before the motion
  have rel : PtsRel (fun ph a d => a ∈ points s.L ∧ ∃ c ∈ points T.Lc, c.v = a.v ∧ c.x = a.x ∧
      c.m = a.m ∧ SameKin c d ∧ d.m = c.m ∧ Relaxed d ∧ d.strain = a.strain ∧
      ph.law ≠ .rigid) s.L T.Ld := by
    refine ((r1.comp rloc.1).mem.comp rss.mem).mono ?_
    rintro ph a d ⟨c, ⟨ha, hc, b, ⟨hb, -⟩, hbc⟩, -, hd, p, vis, vis', hs⟩
    have ha' : a ∈ points s.L := mem_points_items ha
    have hc' : c ∈ points T.Lc := mem_points_items hc
    have e := hbc.eq
    have ra := (hv a ha').2
    have rc : Relaxed c := by
      rw [e, hb]; exact ⟨ra.stress, ra.dstress, ra.dev_stress, ra.pressure, ra.sigma_kk⟩
    obtain ⟨k1, k2, -⟩ := stressStrain_relaxed (w := w) rc (car c hc').sumG
      (fun r k hk => (hnv c hc' r k hk).2) hs
    have fr := stressStrain_frame hs
    have hl := hlaw' _ ha
    refine ⟨ha', c, hc', ?_, ?_, ?_, fr.1, fr.2 hl.2, k1, ?_, hl.1⟩
    · rw [e, hb]
    · rw [e, hb]
    · rw [e, hb]
    · rw [k2, e, hb]
  have rmv := movePoints_rel c3 hmv
  have hmv' : List.Forall₂ (fun a b => b.b = a.b ∧
      ∃ iv iv', a.move P.G.nx P.M_tol T.d.dt s3.G iv = .ok (b, iv')) (points s3.L) (points s'.L) := by
    unfold points
    refine List.rel_flatMap (forall₂_mem rmv) ?_
    rintro A B ⟨hA, -, -, hpts, -⟩
    refine hpts.imp fun a b hm => ⟨hm.mats.2.2.2.2.1, ?_⟩
    obtain ⟨A0, hA0, e, -⟩ := forall₂_right (rel.comp rel3) hA
    rcases hm with ⟨hl, -⟩ | ⟨-, hm⟩
    · rw [e] at hl; exact absurd hl (hlaw A0 hA0).1
    · exact hm
  -- gravity
  have hγd : ∀ d ∈ points T.Ld, d.b = γ := by
    intro d hd
    obtain ⟨e, he, ph, hde⟩ := forall₂_left rel3.points hd
    obtain ⟨b, hb, hbe, -⟩ := forall₂_left hmv' he
    have : e.b = d.b := by rw [hde]
    rw [← this, ← hbe]
    exact hγ b hb
  -- forces
  obtain ⟨w0, w1⟩ := gridPhase_forces_zero T hL
  have hF := getNodalForces_acyclic hB.cyclic T.hGd
  have hfi : ∀ k, T.Gd.fi k = 0 := by
    intro k
    rw [nodalForcesAll_fi cd hF, w0, zero_add]
    refine list_sum_zero fun d hd => ?_
    obtain ⟨a, -, ph, -, c, -, -, -, -, -, -, rd, -⟩ := forall₂_right rel.points hd
    rw [rd.stress, Matrix.zero_mulVec, smul_zero]
  have hfe : ∀ k, T.Gd.fe k = T.Ga.m k • γ := by
    intro k
    rw [nodalForcesAll_fe cd hF, w1, zero_add, mapped_mass cc (fun _ => rfl) T.hGa k,
      ← list_sum_smul]
    refine congrArg List.sum (forall₂_map_eq ?_ rss.mem.points).symm
    rintro c d ⟨ph, hc, hd, p, vis, vis', hs⟩
    obtain ⟨x, hx', e, -⟩ := forall₂_right (r1.comp rloc.1).items hc
    have fr := stressStrain_frame hs
    have hm : d.m = c.m := fr.2 (by
      have e : ph = x.1 := e
      rw [e]; exact (hlaw' x hx').2)
    rw [hγd d (mem_points_items hd), hm]
    unfold weight
    rw [fr.1.n_star, fr.1.N]
  -- the motion
  refine (forall₂_comp (forall₂_comp rel.points rel3.points) hmv').imp ?_
  rintro a b ⟨e, ⟨d, ⟨ph, ha, c, hc, cv, cx, cm, kin, dm, rd, ds, -⟩, ph', hde⟩, -, iv, iv', hm⟩
  obtain ⟨nd, hnd, -, e1⟩ := move_ok hm
  have e1 : b = _ := congrArg Prod.fst e1
  have en : e.n_star = c.n_star := by rw [hde]; exact kin.n_star
  have eN : e.N = c.N := by rw [hde]; exact kin.N
  have ev : e.v = .own w := by
    have : e.v = d.v := by rw [hde]
    rw [this, kin.v, cv, (hv a ha).1]
  have ex : e.x = a.x := by
    have : e.x = d.x := by rw [hde]
    rw [this, kin.x, cx]
  have hk : ∀ r, P.M_tol < s3.G.m (nd r) ∧ s3.G.m (nd r) = T.Ga.m (nd r) := by
    intro r
    rw [em, m0]
    refine ⟨(hnv c hc r (nd r) ?_).1, rfl⟩
    rw [← hnd r]
    unfold Particle.node
    rw [en]
  have sN : ∑ r, e.N r = 1 := by rw [eN]; exact (car c hc).sumN
  set δ : Vec K := s.dyn.dt • dampFactor (K := K) P.damping • γ with hδ
  have hvi : ∑ r, velInc P.M_tol T.d.dt (e.N r) s3.G (nd r) = δ := by
    have : ∀ r, velInc P.M_tol T.d.dt (e.N r) s3.G (nd r) = e.N r • δ := by
      intro r
      obtain ⟨k1, k2⟩ := hk r
      have hm0 : T.Ga.m (nd r) ≠ 0 := by
        rw [← k2]; exact (P.M_tol_nonneg.trans_lt k1).ne'
      rw [velInc, if_pos k1, hqd, hfi, hfe, k2, hdt, hδ]
      funext i
      simp only [Pi.smul_apply, smul_eq_mul, sub_zero]
      field_simp
    simp only [this]
    rw [← Finset.sum_smul, sN, one_smul]
  have hdi : ∑ r, dispInc P.M_tol T.d.dt (e.N r) s3.G (nd r) = s.dyn.dt • (w + δ) := by
    have : ∀ r, dispInc P.M_tol T.d.dt (e.N r) s3.G (nd r) = e.N r • (s.dyn.dt • (w + δ)) := by
      intro r
      obtain ⟨k1, k2⟩ := hk r
      have hm0 : T.Ga.m (nd r) ≠ 0 := by
        rw [← k2]; exact (P.M_tol_nonneg.trans_lt k1).ne'
      rw [dispInc, if_pos k1, hq, q0, hqa, hqd, hfi, hfe, k2, hdt, hδ]
      funext i
      simp only [Pi.smul_apply, Pi.add_apply, smul_eq_mul, sub_zero]
      field_simp
    simp only [this]
    rw [← Finset.sum_smul, sN, one_smul]
  rw [e1]
  refine ⟨?_, ?_, ?_, ?_, ?_⟩
  · change (addVel _ (e.v, iv)).1 = _
    rw [hvi, ev]
    rfl
  · change e.x + _ = _
    rw [hdi, ex]
  · have : Relaxed e := by
      rw [hde]; exact ⟨rd.stress, rd.dstress, rd.dev_stress, rd.pressure, rd.sigma_kk⟩
    exact ⟨this.stress, this.dstress, this.dev_stress, this.pressure, this.sigma_kk⟩
  · change e.strain = _
    have : e.strain = d.strain := by rw [hde]
    rw [this, ds]
  · change e.m = _
    have : e.m = d.m := by rw [hde]
    rw [this, dm, cm]

/-- Body forces change only to the one of the current gravity. -/
theorem body_step (hB : FreeOptions P.B) {interp : Interp K P.G.N} (hL : Counted s.L)
    (hw : NoWalls s.G) (h : timeMarch P interp s = .ok s') :
    ∀ b ∈ points s'.L, (∃ a ∈ points s.L, b.b = a.b) ∨ b.b = bodyForce P (P.forces s.dyn.t).1 := by
  obtain ⟨F⟩ := freeNodes hB hL hw h
  obtain ⟨T, s3, -, -, rel3, c3, hmv, -⟩ := F
  intro b hb
  have hmv' : List.Forall₂ (fun a b : Particle K P.G.ns => b.b = a.b) (points s3.L) (points s'.L) := by
    unfold points
    refine List.rel_flatMap (movePoints_rel c3 hmv) ?_
    rintro A B ⟨-, hpts, -⟩
    exact hpts.imp fun a b hm => hm.mats.2.2.2.2.1
  obtain ⟨e, he, hbe⟩ := forall₂_right hmv' hb
  obtain ⟨d, hd, ph, hde⟩ := forall₂_right rel3.points he
  obtain ⟨a, ha, ph', h1⟩ := forall₂_right (T.rel hL).1.points hd
  have e2 : b.b = d.b := by rw [hbe, hde]
  rcases h1.2.2.2.2.2.2.2.2.2 with h1 | h1
  · exact .inl ⟨a, ha, e2.trans h1⟩
  · refine .inr (e2.trans (h1.trans ?_))
    rw [T.hd]
    rfl

/-! ## Runs -/

/-- C109.  Free fall with the body force `γ k` in step `k`: velocities add up the body forces, every
point is displaced by the sum of the velocities, and nothing is strained or stressed. -/
theorem c109_run (hP : GoodGrid P.G) (hB : FreeOptions P.B) {interp : Interp K P.G.N} {n : ℕ}
    (hL : Counted s.L) (hG : Geometry P.G s.G) (hw : NoWalls s.G) (hlaw : FreeLaws s.L) {w : Vec K}
    (hv : ∀ mp ∈ points s.L, mp.v = .own w ∧ Relaxed mp)
    (hstay : ∀ k < n, ∀ t, steps P interp k s = .ok t →
      (∀ mp ∈ points t.L, InDomain P.G mp.x) ∧ Heavy P.G P.M_tol t.L)
    {γ : ℕ → Vec K} (hγ : ∀ k < n, ∀ t, steps P interp (k + 1) s = .ok t →
      ∀ mp ∈ points t.L, mp.b = γ k)
    (h : steps P interp n s = .ok s') :
    List.Forall₂ (fun a b =>
      b.v = .own (w + s.dyn.dt • dampFactor (K := K) P.damping • ∑ k ∈ Finset.range n, γ k) ∧
      b.x = a.x + s.dyn.dt • ∑ j ∈ Finset.range n,
        (w + s.dyn.dt • dampFactor (K := K) P.damping • ∑ k ∈ Finset.range (j + 1), γ k) ∧
      Relaxed b ∧ b.strain = a.strain ∧ b.m = a.m) (points s.L) (points s'.L) := by
  induction n generalizing s w γ with
  | zero =>
    cases h
    refine List.forall₂_same.2 fun a ha => ?_
    obtain ⟨h1, h2⟩ := hv a ha
    exact ⟨by simp [h1], by simp, h2, rfl, rfl⟩
  | succ n ih =>
    obtain ⟨s1, h1, h2⟩ := steps_succ.1 h
    obtain ⟨hx, hheavy⟩ := hstay 0 (by omega) s rfl
    have st := fall_step (s' := s1) hP hB hL hG hw hlaw hx hheavy hv
      (hγ 0 (by omega) (stepTime P s1) (steps_succ.2 ⟨s1, h1, rfl⟩)) h1
    obtain ⟨k1, k2, k3, k4, -⟩ := free_step hB hL hG hw hlaw h1
    have hdt : (stepTime P s1).dyn.dt = s.dyn.dt := by
      rw [show (stepTime P s1).dyn.dt = s1.dyn.dt from rfl, (timeMarch_table h1).2.2.2]; rfl
    have i1 := ih (s := stepTime P s1) (γ := fun k => γ (k + 1))
      (w := w + s.dyn.dt • dampFactor (K := K) P.damping • γ 0) k1 k2 k3 k4
      (fun b hb => by
        obtain ⟨a, -, h1, -, h2, -⟩ := forall₂_right st hb
        exact ⟨h1, h2⟩)
      (fun k hk t ht => hstay (k + 1) (by omega) t (steps_succ.2 ⟨s1, h1, ht⟩))
      (fun k hk t ht => hγ (k + 1) (by omega) t (steps_succ.2 ⟨s1, h1, ht⟩)) h2
    rw [hdt] at i1
    refine (forall₂_comp st i1).imp ?_
    rintro a c ⟨b, ⟨-, bx, -, bs, bm⟩, cv, cx, cr, cs, cm⟩
    refine ⟨?_, ?_, cr, cs.trans bs, cm.trans bm⟩
    · rw [cv, Finset.sum_range_succ']
      congr 1
      rw [smul_add, smul_add, add_assoc, add_comm (s.dyn.dt • _ • γ 0)]
    · rw [cx, bx, Finset.sum_range_succ' (fun j => w + _ • _ • ∑ k ∈ Finset.range (j + 1), γ k)]
      rw [add_assoc, ← smul_add]
      congr 2
      rw [add_comm]
      congr 1
      · refine Finset.sum_congr rfl fun j _ => ?_
        rw [Finset.sum_range_succ' _ (j + 1), smul_add, smul_add, add_assoc,
          add_comm (s.dyn.dt • _ • γ 0)]
      · simp

/-- C109.  With constant gravity every point follows the same parabola. -/
theorem c109_parabola (hP : GoodGrid P.G) (hB : FreeOptions P.B) {interp : Interp K P.G.N} {n : ℕ}
    (hL : Counted s.L) (hG : Geometry P.G s.G) (hw : NoWalls s.G) (hlaw : FreeLaws s.L) {w γ : Vec K}
    (hv : ∀ mp ∈ points s.L, mp.v = .own w ∧ Relaxed mp)
    (hstay : ∀ k < n, ∀ t, steps P interp k s = .ok t →
      (∀ mp ∈ points t.L, InDomain P.G mp.x) ∧ Heavy P.G P.M_tol t.L)
    (hb : ∀ mp ∈ points s.L, mp.b = γ) (hg : ∀ t, bodyForce P (P.forces t).1 = γ)
    (hd : P.damping = false) (h : steps P interp n s = .ok s') :
    List.Forall₂ (fun a b => b.v = .own (w + (n * s.dyn.dt) • γ) ∧
      b.x = a.x + (n * s.dyn.dt) • w + ((n * s.dyn.dt) * ((n + 1) * s.dyn.dt) / 2) • γ ∧
      Relaxed b ∧ b.strain = a.strain) (points s.L) (points s'.L) := by
  have hγ : ∀ k, ∀ u t : St P, Counted u.L → Geometry P.G u.G → NoWalls u.G → FreeLaws u.L →
      (∀ mp ∈ points u.L, mp.b = γ) → steps P interp k u = .ok t → ∀ mp ∈ points t.L, mp.b = γ := by
    intro k
    induction k with
    | zero => rintro u t - - - - hu h; cases h; exact hu
    | succ k ih =>
      intro u t a1 a2 a3 a4 hu h
      obtain ⟨s1, h1, h2⟩ := steps_succ.1 h
      obtain ⟨k1, k2, k3, k4, -⟩ := free_step hB a1 a2 a3 a4 h1
      refine ih (stepTime P s1) t k1 k2 k3 k4 (fun b hb => ?_) h2
      rcases body_step hB a1 a3 h1 b hb with ⟨a, ha, e⟩ | e
      · rw [e]; exact hu a ha
      · rw [e]; exact hg _
  have R := c109_run hP hB hL hG hw hlaw hv hstay (γ := fun _ => γ)
    (fun k _ t ht => hγ (k + 1) s t hL hG hw hlaw hb ht) h
  refine R.imp ?_
  rintro a b ⟨bv, bx, br, bs, -⟩
  refine ⟨?_, ?_, br, bs⟩
  · rw [bv, hd]
    congr 2
    funext i
    simp [dampFactor, mul_comm, mul_left_comm]
  · rw [bx, hd, add_assoc]
    congr 1
    funext i
    simp only [dampFactor, Finset.sum_const, Finset.card_range, Pi.smul_apply, Pi.add_apply,
      Finset.sum_apply, smul_eq_mul, nsmul_eq_mul, Finset.sum_add_distrib, ← Finset.mul_sum]
    have : ∑ j ∈ Finset.range n, ((j + 1 : ℕ) : K) * γ i = (n : K) * (n + 1) / 2 * γ i := by
      rw [← Finset.sum_mul]
      congr 1
      clear * -
      induction n with
      | zero => simp
      | succ n ih => rw [Finset.sum_range_succ, ih]; push_cast; ring
    simp_all
    ring

end

/-! ## The hypotheses can be met -/

/-- Four stress-free points of two materials thrown up. -/
def Ex.fallL : List (PhaseSt ℚ 2) :=
  Ex.freeL.map fun A => { A with pts := A.pts.map fun mp => { mp with
    v := .own ![1/10, 1/5, 0], b := ![0, -10, 0], stress := 0, dstress := 0, dev_stress := 0,
    pressure := 0, sigma_kk := 0 } }

/-- Two steps of the fall. -/
example : ∃ (s s' : St Ex.par) (w γ : Vec ℚ), Counted s.L ∧ Geometry Ex.gp s.G ∧ NoWalls s.G ∧
    FreeLaws s.L ∧ (∀ mp ∈ points s.L, mp.v = .own w ∧ Relaxed mp) ∧
    (∀ k < 2, ∀ t, steps Ex.par (Ex.noInterp _) k s = .ok t →
      (∀ mp ∈ points t.L, InDomain Ex.gp mp.x) ∧ Heavy Ex.gp Ex.par.M_tol t.L) ∧
    (∀ mp ∈ points s.L, mp.b = γ) ∧ (∀ t, bodyForce Ex.par (Ex.par.forces t).1 = γ) ∧
    Ex.par.damping = false ∧ steps Ex.par (Ex.noInterp _) 2 s = .ok s' ∧
    (points s.L).map (fun mp => mp.x 1) = [5/4, 1/4, 1/4, 5/4] ∧
    (points s'.L).map (fun mp => mp.x 1) = [5/4 + 1/1000, 1/4 + 1/1000, 1/4 + 1/1000, 5/4 + 1/1000] := by
  obtain ⟨G, s', hG, hs, hc⟩ := Ex.run_ok (P := Ex.par) (d := Ex.dyn) (L := Ex.fallL) (n := 2)
    (check := fun s => decide ((points s.L).map (fun mp => mp.x 1) =
      [5/4 + 1/1000, 1/4 + 1/1000, 1/4 + 1/1000, 5/4 + 1/1000])) (by decide +kernel)
  obtain ⟨G0, s0, hG0, hs0, hc0⟩ := Ex.run_ok (P := Ex.par) (d := Ex.dyn) (L := Ex.fallL) (n := 0)
    (check := fun s => Ex.stays s && decide (∀ k, s.G.boundary_v k = false ∧
      s.G.boundary_h k = false)) (by decide +kernel)
  obtain ⟨G1, s1, hG1, hs1, hc1⟩ := Ex.run_ok (P := Ex.par) (d := Ex.dyn) (L := Ex.fallL) (n := 1)
    (check := Ex.stays) (by decide +kernel)
  rw [hG] at hG0 hG1
  cases hG0; cases hG1; cases hs0
  rw [Bool.and_eq_true] at hc0
  have hw : ∀ k, G.boundary_v k = false ∧ G.boundary_h k = false := of_decide_eq_true hc0.2
  refine ⟨{ dyn := Ex.dyn, L := Ex.fallL, G := G }, s', ![1/10, 1/5, 0], ![0, -10, 0], ?_,
    mkGrid_geometry hG, hw, ?_, ?_, ?_, ?_, ?_, rfl, hs, ?_, of_decide_eq_true hc⟩
  · have : ∀ a ∈ Ex.fallL, a.ph.n = a.pts.length := by decide +kernel
    exact this
  · have : ∀ A ∈ Ex.fallL, A.ph.law ≠ .rigid ∧ A.ph.law ≠ .elastic_time := by decide +kernel
    exact this
  · intro mp hmp
    obtain ⟨A, hA, hmp⟩ := List.mem_flatMap.1 hmp
    obtain ⟨B, -, rfl⟩ := List.mem_map.1 hA
    obtain ⟨a, -, rfl⟩ := List.mem_map.1 hmp
    exact ⟨rfl, rfl, rfl, rfl, rfl, rfl⟩
  · intro k hk t ht
    have : k = 0 ∨ k = 1 := by omega
    rcases this with rfl | rfl
    · cases ht; exact Ex.stays_ok hc0.1
    · rw [hs1] at ht
      cases ht; exact Ex.stays_ok hc1
  · have : ∀ mp ∈ points Ex.fallL, mp.b = ![0, -10, 0] := by decide +kernel
    exact this
  · intro t
    change bodyForce Ex.par (Ex.par.forces 0).1 = _
    decide +kernel
  · have : (points Ex.fallL).map (fun mp => mp.x 1) = [5/4, 1/4, 1/4, 5/4] := by decide +kernel
    exact this

end Mpm

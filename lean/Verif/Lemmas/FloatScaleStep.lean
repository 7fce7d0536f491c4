import Verif.Lemmas.FloatScale

/-! Lists of points and whole steps with rounding in units that rounding commutes with. -/

set_option linter.unusedSectionVars false

namespace Mpm
open Spec

section
variable {K : Type} [Field K] [LinearOrder K] [IsStrictOrderedRing K] [FloorRing K]

/-- What a step does besides is the same in the new units. -/
structure Spec.SameIn (U : NewUnits K) {P : Par K} (E : Besides P) (E' : Besides (scalePar U P)) :
    Prop where
  fractions : ∀ G, E'.fractions (scaleGrid U G) = ((E.fractions G).1,
    fun n => U.L * (E.fractions G).2.1 n, fun n => scaleX U.stress ((E.fractions G).2.2 n))
  stress : ∀ d L p ph mp vis, E'.stress (scaleDyn U d) (sc U L) p (scalePh U ph)
      (scalePt U ph.law mp) (scaleVisF U vis) =
    Prod.map (scalePt U ph.law) (scaleVisF U) <$> E.stress d L p ph mp vis
  visCyclic : ∀ vis, E'.visCyclic (scaleVisF U vis) = scaleVisF U (E.visCyclic vis)
  late : ∀ s, E'.late (scaleSt U s) = scaleSt U <$> E.late s
  point : ∀ (L : List (PhaseSt K P.G.ns)) ph g x y, E'.point (first (sc U L)) (scalePh U ph)
      (U.acc * g) (U.L * x) (U.L * y) = scalePt U ph.law <$> E.point (first L) ph g x y

variable {rnd : K → K} {U : NewUnits K} (hb : U.Binary rnd) {ns N : ℕ}
include hb

/-! ## Lists of points -/

theorem updateForcesR_scale (P : Par K) (g : K) (L : List (PhaseSt K ns)) :
    updateForcesR rnd (scalePar U P) (U.acc * g) (sc U L) = sc U <$> updateForcesR rnd P g L :=
  mapPoints_scale (fun p ph mp => congrArg Except.ok (gravityR_scale hb ph.law P g p mp)) L

theorem truncR_scale (x a d : K) :
    pyTrunc (rnd (rnd (U.L * x - U.L * a) / (U.L * d))) = pyTrunc (rnd (rnd (x - a) / d)) := by
  rw [← mul_sub, hb.L, mul_div_mul_left _ _ U.L_ne]

theorem referenceR_scale (law : Law) (P : GP K) (dx dy : K) (mp : Particle K ns) :
    (scalePt U law mp).getReferenceNodeR rnd (scaleGP U P) (U.L * dx) (U.L * dy) =
      scalePt U law <$> mp.getReferenceNodeR rnd P dx dy := by
  unfold Particle.getReferenceNodeR
  refine ite_iff (by rw [mul_eq_zero_iff' U.L_pos, mul_eq_zero_iff' U.L_pos]) rfl
    (congrArg Except.ok ?_)
  simp only [scalePt, Pi.smul_apply, smul_eq_mul, truncR_scale hb]

theorem referenceNodesR_scale (P : GP K) (G : Grid K N ns) (L : List (PhaseSt K ns)) :
    getReferenceNodesR rnd (scaleGP U P) (scaleGrid U G) (sc U L) =
      sc U <$> getReferenceNodesR rnd P G L :=
  mapPoints_scale (fun _ ph mp => referenceR_scale hb ph.law P G.dx G.dy mp) L

theorem basisFunctionsR_scale (G : Grid K N ns) (L : List (PhaseSt K ns)) :
    getBasisFunctionsR rnd (scaleGrid U G) (sc U L) = sc U <$> getBasisFunctionsR rnd G L :=
  mapPoints_scale (fun _ ph mp => basisR_scale hb ph.law G mp) L

theorem p2gAllR_scale (nx : ℕ) (seg : Bool) (L : List (PhaseSt K ns)) (G : Grid K N ns) :
    p2gAllR rnd nx seg (sc U L) (scaleGrid U G) = scaleGrid U <$> p2gAllR rnd nx seg L G := by
  refine foldPhases_equiv (φ := scalePhSt U) (fun x G => ?_) L G
  refine foldN_equiv (φ := scalePt U x.ph.law) (fun mp G => ?_) x.ph.n x.pts G
  change (scalePt U x.ph.law mp).p2gR rnd nx seg ((scaleV U mp.v).get (U.vel • x.ph.iv)) _ = _
  rw [get_scale]
  exact p2gR_scale hb x.ph.law nx seg _ mp G

theorem forcesR_scale {nx ny : ℕ} (P : Par K) (L : List (PhaseSt K ns)) (G : Grid K (ny * nx) ns) :
    getNodalForcesR rnd (scalePar U P) (sc U L) (scaleGrid U G) =
      scaleGrid U <$> getNodalForcesR rnd P L G := by
  refine res_bind_map (f := scaleGrid U) (foldPhases_equiv (φ := scalePhSt U) (fun x G => ?_) L G)
    fun G _ => congrArg Except.ok ?_
  · exact foldN_equiv (φ := scalePt U x.ph.law) (fun mp G => nodalForcesR_scale hb x.ph.law nx mp G)
      x.ph.n x.pts G
  · change (if P.B.cyclic_lr = true then _ else _) = scaleGrid U (if P.B.cyclic_lr = true then _ else _)
    cases P.B.cyclic_lr
    · rfl
    · exact cyclicForcesR_scale hb _

theorem movePointsR_scale (nx : ℕ) (M_tol dt : K) (v : Vec K) (G : Grid K N ns)
    (L : List (PhaseSt K ns)) :
    movePointsR rnd nx (U.M * M_tol) (U.T * dt) (U.vel • v) (scaleGrid U G) (sc U L) =
      sc U <$> movePointsR rnd nx M_tol dt v G L := by
  refine mapPhases_equiv (φ := scalePhSt U) (fun _ x => ?_) 0 L
  refine ite_equiv ?_ ?_
  · refine res_bind_map (f := List.map (scalePt U x.ph.law)) (mapN_equiv (fun mp => ?_) x.ph.n x.pts)
      fun _ _ => rfl
    exact congrArg Except.ok (moveRigidR_scale hb x.ph.law dt v mp)
  · exact res_bind_map (f := Prod.map (List.map (scalePt U x.ph.law)) (U.vel • ·))
      (forN_equiv (ψ := (U.vel • ·)) (fun mp iv => moveR_scale hb x.ph.law nx M_tol dt G mp iv) x.ph.n
        x.pts x.ph.iv) fun _ _ => rfl

theorem outletLeftR_scale (P : GP K) (L : List (PhaseSt K ns)) :
    outletLeftR rnd (scaleGP U P) (sc U L) = sc U <$> outletLeftR rnd P L := by
  refine mapPhases_equiv (φ := scalePhSt U) (fun _ x => ?_) 0 L
  refine res_bind_map (f := Prod.map id (List.map (scalePt U x.ph.law))) (outletLoop_equiv
    (fun mp => ?_) x.ph.n x.ph.n x.pts) fun _ _ => rfl
  have h : (U.L * mp.x 0 < rnd (U.L * P.x_m + U.L * P.dx)) ↔ mp.x 0 < rnd (P.x_m + P.dx) := by
    rw [← mul_add, hb.L, mul_lt_mul_iff_right₀ U.L_pos]
  exact decide_eq_decide.2 h

theorem wrapXR_scale (P : GP K) (x : K) :
    wrapXR rnd (scaleGP U P) (U.L * x) = U.L * wrapXR rnd P x := by
  unfold wrapXR
  simp only [mul_lt_mul_iff_right₀ U.L_pos, ← mul_sub, hb.L _, ← mul_add, ← mul_ite]

theorem cyclicR_scale (P : GP K) (L : List (PhaseSt K ns)) :
    cyclicLRR rnd (scaleGP U P) (sc U L) = sc U <$> cyclicLRR rnd P L := by
  refine mapPoints_scale (fun _ ph mp => congrArg Except.ok ?_) L
  simp only [scalePt, Particle.mk.injEq, true_and, and_true, Pi.smul_apply, smul_eq_mul,
    wrapXR_scale hb]
  funext k
  by_cases hk : k = 0
  · subst hk; simp
  · simp [Function.update_of_ne hk]

variable {P : Par K} {E : Besides P} {E' : Besides (scalePar U P)} (hE : SameIn U E E')
include hE

theorem appendPointR_scale (L : List (PhaseSt K P.G.ns)) (g x y : K) (a : PhaseSt K P.G.ns) :
    appendPointR E' (first (sc U L)) (U.acc * g) (U.L * x) (U.L * y) (scalePhSt U a) =
      scalePhSt U <$> appendPointR E (first L) g x y a := by
  refine res_bind_map (hE.point L a.ph g x y) fun mp _ => ?_
  refine congrArg Except.ok ?_
  unfold scalePhSt
  simp only [List.map_append, List.map_cons, List.map_nil]
  rfl

theorem inletRightR_scale (d : Dyn K) (L : List (PhaseSt K P.G.ns)) :
    inletRightR rnd E' (scaleDyn U d) (sc U L) = sc U <$> inletRightR rnd E d L := by
  unfold inletRightR
  refine mapPhases_equiv (φ := scalePhSt U) (fun _ x => ?_) 0 L
  refine res_bind_map (inletDue_scale d x.ph.inlet_rate) fun due hdue => ite_equiv ?_ rfl
  clear hdue
  change List.foldlM _ _ (x.ph.yp.map (U.L * ·)) = _
  generalize x.ph.yp = l
  induction l generalizing x with
  | nil => rfl
  | cons y l ih =>
    rw [List.map_cons, List.foldlM_cons, List.foldlM_cons]
    refine res_bind_map ?_ fun x' _ => ih x'
    change appendPointR E' _ (U.acc * d.g) (rnd (U.L * P.G.x_M - U.L * x.ph.gap 0)) (U.L * y) _ = _
    rw [← mul_sub, hb.L]
    exact appendPointR_scale hb hE L _ _ _ _

theorem inletTopR_scale (d : Dyn K) (L : List (PhaseSt K P.G.ns)) :
    inletTopR rnd E' (scaleDyn U d) (sc U L) = sc U <$> inletTopR rnd E d L := by
  unfold inletTopR
  refine mapPhases_equiv (φ := scalePhSt U) (fun _ x => ?_) 0 L
  refine res_bind_map (inletDue_scale d x.ph.inlet_rate) fun due _ => ite_equiv ?_ rfl
  change appendPointR E' _ (U.acc * d.g) (rnd (rnd (U.L * P.G.x_M - U.L * P.G.x_m) / 2))
    (rnd (U.L * P.G.y_M - U.L * x.ph.gap 1)) _ = _
  rw [← mul_sub, ← mul_sub, hb.L, hb.L, mul_div_assoc, hb.L]
  exact appendPointR_scale hb hE L _ _ _ _

theorem nodalMassR_scale (L : List (PhaseSt K P.G.ns)) (G : Grid K P.G.N P.G.ns) :
    getNodalMassMomentumR rnd E' (sc U L) (scaleGrid U G) =
      scaleGrid U <$> getNodalMassMomentumR rnd E L G := by
  unfold getNodalMassMomentumR
  refine res_bind_map (p2gAllR_scale hb P.G.nx P.segregate_grid L G) fun G _ => congrArg Except.ok ?_
  refine Eq.trans (congrArg (Grid.zeroBoundaryMomentum P.B.roughness) ?_) (zeroBoundary_scale _ _)
  change (if P.segregate_grid = true then _ else _) = scaleGrid U (if P.segregate_grid = true then _ else _)
  cases P.segregate_grid
  · rfl
  · simp only [if_true, hE.fractions]
    rfl

theorem stressStrainR_scale (d : Dyn K) (L : List (PhaseSt K P.G.ns)) (G : Grid K P.G.N P.G.ns) :
    updateStressStrainR rnd E' (scaleDyn U d) (sc U L) (scaleGrid U G) =
      Prod.map (sc U) (scaleGrid U) <$> updateStressStrainR rnd E d L G := by
  refine res_bind_map (f := Prod.map (sc U) (scaleVisF U)) (forPhases_equiv (ψ := scaleVisF U)
    (φ := scalePhSt U) (fun p x vis => ?_) 0 L G.vis) fun r _ => ?_
  · refine res_bind_map (f := Prod.map (List.map (scalePt U x.ph.law)) (scaleVisF U)) ?_ fun _ _ => rfl
    refine forN_equiv (ψ := scaleVisF U) (φ := scalePt U x.ph.law) (fun mp vis => ?_) x.ph.n x.pts vis
    refine res_bind_map (updateStrainR_scale hb x.ph.law P.G.nx P.M_tol d.dt G mp) fun mp' _ => ?_
    exact hE.stress d L p x.ph mp' vis
  · refine congrArg Except.ok (Prod.ext rfl ?_)
    have hv : (if P.B.cyclic_lr = true then E'.visCyclic (scaleVisF U r.2) else scaleVisF U r.2) =
        scaleVisF U (if P.B.cyclic_lr = true then E.visCyclic r.2 else r.2) := by
      rw [hE.visCyclic, ← apply_ite (scaleVisF U)]
    exact congrArg (fun v => ({ scaleGrid U G with vis := v } : Grid K P.G.N P.G.ns)) hv

/-! ## Steps -/

theorem gridPhaseR_scale (hc : P.check_positions = false) (s : St P) :
    gridPhaseR rnd E' (scaleSt U s) = scaleSt U <$> gridPhaseR rnd E s := by
  unfold gridPhaseR
  have hd := dyn_scale (U := U) P s.dyn
  have hw : (scaleGrid U s.G).wipe = scaleGrid U s.G.wipe := wipe_scale _
  dsimp only
  rw [hd, hw]
  generalize s.dyn.updateForces P = d
  simp only [hc]
  refine res_bind_map (updateForcesR_scale hb P d.g s.L) fun L1 h1 => ?_
  refine res_bind_map (referenceNodesR_scale hb P.G s.G.wipe L1) fun L2 h2 => ?_
  refine res_bind_map (basisFunctionsR_scale hb s.G.wipe L2) fun L3 h3 => ?_
  refine res_bind_map (whenSet_moved (φ := sc U) L3 fun h => by cases h) fun L4 h4 => ?_
  refine res_bind_map (nodalMassR_scale hb hE L4 s.G.wipe) fun G _ => ?_
  have hG : (if P.B.cyclic_lr = true then (scaleGrid U G).makeCyclicMQR rnd (nx := P.G.nx)
      (ny := P.G.ny) else scaleGrid U G)
      = scaleGrid U (if P.B.cyclic_lr = true then G.makeCyclicMQR rnd (nx := P.G.nx)
        (ny := P.G.ny) else G) := by
    cases P.B.cyclic_lr
    · rfl
    · exact cyclicMQR_scale hb _
  rw [hG]
  refine res_bind_map (stressStrainR_scale hb hE d L4 _) fun r _ => ?_
  exact res_bind_map (forcesR_scale hb (nx := P.G.nx) (ny := P.G.ny) P r.1 r.2) fun _ _ => rfl

omit hE in
theorem momentumPhaseR_scale (s : St P) :
    momentumPhaseR rnd (scaleSt U s) = scaleSt U <$> momentumPhaseR rnd s := by
  have ht : decide ((scaleSt U s).dyn.t = 0) = decide (s.dyn.t = 0) :=
    decide_eq_decide.2 (mul_eq_zero_iff' U.T_pos _)
  have hr : ((mat0 (scaleSt U s).L).map (·.rho)).getD 0 = _ := rho0_scale (U := U) s.L
  unfold momentumPhaseR
  rw [ht, hr]
  refine res_bind_map (BCsR_scale hb (nx := P.G.nx) (ny := P.G.ny) P.B _ _ _ _ _) fun G _ => ?_
  exact congrArg (fun G => (Except.ok (St.mk (scaleDyn U s.dyn) (sc U s.L) G : St (scalePar U P)) :
    Res _)) (momentumR_scale hb (nx := P.G.nx) (ny := P.G.ny) P.B P.damping s.dyn.dt P.v_0 G)

theorem pointsPhaseR_scale (s : St P) :
    pointsPhaseR rnd E' (scaleSt U s) = scaleSt U <$> pointsPhaseR rnd E s := by
  unfold pointsPhaseR
  refine res_bind_map (movePointsR_scale hb P.G.nx P.M_tol s.dyn.dt P.intruder_v s.G s.L)
    fun L _ => ?_
  refine res_bind_map (whenSet_moved (φ := sc U) L fun _ => outletLeftR_scale hb P.G L) fun L _ => ?_
  refine res_bind_map (whenSet_moved (φ := sc U) L fun _ => outletBottom_scale P.G L) fun L _ => ?_
  refine res_bind_map (whenSet_moved (φ := sc U) L fun _ => inletRightR_scale hb hE s.dyn L)
    fun L _ => ?_
  refine res_bind_map (whenSet_moved (φ := sc U) L fun _ => inletTopR_scale hb hE s.dyn L)
    fun L _ => ?_
  exact res_bind_map (whenSet_moved (φ := sc U) L fun _ => cyclicR_scale hb P.G L) fun _ _ => rfl

end
end Mpm

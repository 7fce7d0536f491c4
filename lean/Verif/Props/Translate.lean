import Verif.Lemmas.Equiv
import Verif.Lemmas.Basic
import Verif.ExRun
import Verif.Props.Lists

/-!
# C93: moving the whole set-up does not change the simulation
-/

set_option linter.unusedSectionVars false

namespace Mpm
open Spec

namespace Spec
variable {K : Type} [Field K] [LinearOrder K] {ns N : ℕ}

/-- The same domain, moved by `(a, b)`. -/
abbrev movedGP (a b : K) (P : GP K) : GP K :=
  { P with x_m := P.x_m + a, x_M := P.x_M + a, y_m := P.y_m + b, y_M := P.y_M + b }

/-- The same parameters on the moved domain. -/
abbrev movedPar (a b : K) (P : Par K) : Par K := { P with G := movedGP a b P.G }

/-- The moved grid. -/
def movedGrid (a b : K) (G : Grid K N ns) : Grid K N ns :=
  { G with X := fun n => G.X n + a, Y := fun n => G.Y n + b }

/-- A moved position. -/
def movedPos (a b : K) (x : Vec K) : Vec K := x + ![a, b, 0]

/-- A moved point. -/
def movedPt (a b : K) (mp : Particle K ns) : Particle K ns := { mp with x := movedPos a b mp.x }

/-- A phase with moved inlet positions. -/
def movedPh (b : K) (ph : Phase K ns) : Phase K ns := { ph with yp := ph.yp.map (· + b) }

/-- The moved state. -/
abbrev movedSt (a b : K) {P : Par K} (s : St P) : St (movedPar a b P) :=
  { dyn := s.dyn, L := s.L.map (mapPts (movedPt a b) (movedPh b)), G := movedGrid a b s.G }

end Spec

section
variable {K : Type} [Field K] [LinearOrder K] [IsStrictOrderedRing K] {ns N : ℕ}

theorem movedPos_0 (a b : K) (x : Vec K) : movedPos a b x 0 = x 0 + a := rfl
theorem movedPos_1 (a b : K) (x : Vec K) : movedPos a b x 1 = x 1 + b := rfl
theorem movedPos_2 (a b : K) (x : Vec K) : movedPos a b x 2 = x 2 := add_zero _
theorem movedPt_x (a b : K) (mp : Particle K ns) : (movedPt a b mp).x = movedPos a b mp.x := rfl

/-! ## Points -/

theorem runLaw_moved (a b : K) (law : Law) (c : LawCtx K ns) (mp : Particle K ns) :
    runLaw law c (movedPt a b mp) = Prod.map (movedPt a b) id <$> runLaw law c mp := by
  cases law
  case rigid => rfl
  case elastic => rfl
  case elastic_time => exact ite_equiv rfl rfl
  case von_mises => exact ite_equiv rfl (ite_equiv rfl (ite_equiv rfl rfl))
  case dp =>
    change lawDp c (movedPt a b mp) = Prod.map (movedPt a b) id <$> lawDp c mp
    unfold lawDp
    have h : (movedPt a b mp).mu = mp.mu := rfl
    rw [h]
    cases mp.mu <;> rfl
  case dp_rate => exact res_bind_id fun _ => res_bind_id fun _ => rfl
  case viscous => exact ite_equiv rfl rfl
  case bingham => exact ite_equiv rfl (res_bind_id fun _ => res_bind_id fun _ => rfl)
  case ken_kamrin => exact ite_equiv rfl (res_bind_id fun _ => rfl)
  case pouliquen => exact res_bind_id fun _ => ite_equiv rfl (ite_equiv rfl rfl)
  case linear_mu =>
    exact res_bind_id fun _ => ite_equiv rfl (res_bind_id fun _ => res_bind_id fun _ => rfl)
  case ken_simple => exact res_bind_id fun _ => ite_equiv rfl rfl
  case viscous_size => rfl
  case pouliquen2D => rfl
  case other => rfl

theorem updateStress_moved (a b : K) (nx : ℕ) (law : Law) (c : LawCtx K ns) (mp : Particle K ns)
    (vis : Vis → Fin N → XF K) :
    (movedPt a b mp).updateStress nx law c vis
      = Prod.map (movedPt a b) id <$> mp.updateStress nx law c vis :=
  res_bind_map (runLaw_moved a b law c mp) fun _ _ => res_bind_id fun _ => rfl

theorem updateStrain_moved (a b : K) (nx : ℕ) (M_tol dt : K) (G : Grid K N ns)
    (mp : Particle K ns) :
    (movedPt a b mp).updateStrain nx M_tol dt (movedGrid a b G)
      = movedPt a b <$> mp.updateStrain nx M_tol dt G := by
  refine res_bind_map (f := movedPt a b) (for4_equiv (ψ := movedPt a b) (fun r s => ?_)
    { mp with dstrain := 0, LL := 0 }) fun _ _ => rfl
  exact res_bind_id fun _ => rfl

theorem stressStrain_moved (a b : K) (nx : ℕ) (M_tol : K) (G : Grid K N ns) (law : Law)
    (c : LawCtx K ns) (mp : Particle K ns) (vis : Vis → Fin N → XF K) :
    (movedPt a b mp).stressStrain nx M_tol (movedGrid a b G) law c vis
      = Prod.map (movedPt a b) id <$> mp.stressStrain nx M_tol G law c vis :=
  res_bind_map (updateStrain_moved a b nx M_tol c.dt G mp) fun _ _ =>
    updateStress_moved a b nx law c _ vis

theorem move_moved (a b : K) (nx : ℕ) (M_tol dt : K) (G : Grid K N ns) (mp : Particle K ns)
    (iv : Vec K) :
    (movedPt a b mp).move nx M_tol dt (movedGrid a b G) iv
      = Prod.map (movedPt a b) id <$> mp.move nx M_tol dt G iv := by
  refine res_bind_map (f := Prod.map (movedPt a b) id)
    (for4_equiv (ψ := Prod.map (movedPt a b) id) (fun r s => ?_) (mp, iv)) fun s _ =>
      res_bind_map (f := movedPt a b) (for4_equiv (ψ := movedPt a b) (fun r s => ?_)
        { s.1 with rho := 0 }) fun _ _ => rfl
  rotate_left
  · exact res_bind_id fun n => ite_equiv (ite_equiv rfl rfl) rfl
  refine res_bind_id fun n => ite_equiv ?_ rfl
  exact congrArg (fun x : Vec K => (Except.ok ({ s.1 with
      x := x
      v := (addVel (fun k => dt * s.1.N r * G.q_dot n k / G.m n) (s.1.v, s.2)).1 },
      (addVel (fun k => dt * s.1.N r * G.q_dot n k / G.m n) (s.1.v, s.2)).2) :
        Res (Particle K ns × Vec K))) (add_right_comm s.1.x ![a, b, 0] _)

theorem moveRigid_moved (a b : K) (dt : K) (v : Vec K) (mp : Particle K ns) :
    (movedPt a b mp).moveRigid dt v = movedPt a b (mp.moveRigid dt v) :=
  congrArg (fun x : Vec K => { mp with x := x, v := .own v }) (add_right_comm mp.x ![a, b, 0] _)

theorem p2g_moved (a b : K) (nx : ℕ) (seg : Bool) (vel : Vec K) (mp : Particle K ns)
    (G : Grid K N ns) :
    (movedPt a b mp).p2g nx seg vel (movedGrid a b G) = movedGrid a b <$> mp.p2g nx seg vel G := by
  refine for4_equiv (ψ := movedGrid a b) (fun r G => res_bind_id fun n => ?_) G
  cases seg <;> rfl

theorem nodalForces_moved (a b : K) (nx : ℕ) (mp : Particle K ns) (G : Grid K N ns) :
    (movedPt a b mp).nodalForces nx (movedGrid a b G) = movedGrid a b <$> mp.nodalForces nx G := by
  refine for4_equiv (ψ := movedGrid a b) (fun r G => ?_) G
  exact res_bind_id fun _ => rfl

theorem mapPhi_moved (a b : K) (nx : ℕ) (M_tol : K) (G : Grid K N ns) (mp : Particle K ns) :
    (movedPt a b mp).mapPhi nx M_tol (movedGrid a b G) = movedPt a b <$> mp.mapPhi nx M_tol G := by
  refine for4_equiv (ψ := movedPt a b) (fun r mp => ?_) mp
  exact res_bind_id fun _ => ite_equiv rfl rfl

theorem basis_moved (a b : K) (G : Grid K N ns) (mp : Particle K ns) :
    (movedPt a b mp).getBasisFunctions (movedGrid a b G)
      = movedPt a b <$> mp.getBasisFunctions G := by
  refine res_bind_id fun n => ?_
  have hx : (![(movedPt a b mp).x 0 - (movedGrid a b G).X n, (movedPt a b mp).x 1
      - (movedGrid a b G).Y n, (movedPt a b mp).x 2 - 0] : Vec K)
      = ![mp.x 0 - G.X n, mp.x 1 - G.Y n, mp.x 2 - 0] := by
    simp [movedPt_x, movedPos_0, movedPos_1, movedPos_2, movedGrid]
  dsimp only
  rw [hx]
  exact ite_equiv rfl rfl

/-- After `get_basis_functions` the weights of a point add up to one. -/
theorem basis_sum (G : Grid K N ns) (mp mp' : Particle K ns)
    (h : mp.getBasisFunctions G = .ok mp') : mp'.N 0 + mp'.N 1 + mp'.N 2 + mp'.N 3 = 1 := by
  unfold Particle.getBasisFunctions at h
  cases hn : pyIdx N mp.n_star with
  | error e => rw [hn] at h; cases h
  | ok n =>
    rw [hn] at h
    by_cases hd : G.dx * G.dy = 0
    · exact absurd h (by simp [bind, Except.bind, hd])
    · simp only [bind, Except.bind, if_neg hd] at h
      obtain rfl := Except.ok.inj h
      have h1 : G.dx ≠ 0 := left_ne_zero_of_mul hd
      have h2 : G.dy ≠ 0 := right_ne_zero_of_mul hd
      simp only [shapeN]
      field_simp
      ring

theorem check_moved (a b : K) (nx : ℕ) (G : Grid K N ns) (mp : Particle K ns)
    (h : mp.N 0 + mp.N 1 + mp.N 2 + mp.N 3 = 1) :
    (movedPt a b mp).checkPosition nx (movedGrid a b G)
      = movedPt a b <$> mp.checkPosition nx G := by
  have hr : (movedPt a b mp).recoverPosition nx (movedGrid a b G)
      = movedPos a b <$> mp.recoverPosition nx G := by
    have hs : ∀ (r : Fin 4) (w : K) (x : Vec K),
        (do let n ← mp.node nx N r
            return (x + w • ![a, b, 0]) + mp.N r • ![G.X n + a, G.Y n + b, 0] : Res (Vec K))
          = (fun x => x + (w + mp.N r) • ![a, b, 0]) <$> (do
            let n ← mp.node nx N r
            return x + mp.N r • ![G.X n, G.Y n, 0] : Res (Vec K)) := by
      intro r w x
      refine res_bind_id fun n => congrArg Except.ok ?_
      ext k
      fin_cases k <;> simp <;> ring
    unfold Particle.recoverPosition for4
    have h0 : (0 : Vec K) = 0 + (0 : K) • ![a, b, 0] := by simp
    conv_lhs => rw [h0]
    refine res_bind_map (hs 0 0 0) fun x _ => res_bind_map (hs 1 _ x) fun x _ =>
      res_bind_map (hs 2 _ x) fun x _ => (hs 3 _ x).trans ?_
    have : (0 + mp.N 0 + mp.N 1 + mp.N 2 + mp.N 3) = 1 := by rw [zero_add, h]
    rw [this]
    simp only [one_smul]
    rfl
  refine res_bind_map hr fun x _ => ?_
  have hc : (∃ k, (1 / 10 ^ 10 : K) < |movedPos a b x k - (movedPt a b mp).x k|)
      ↔ ∃ k, (1 / 10 ^ 10 : K) < |x k - mp.x k| := by
    refine exists_congr fun k => ?_
    have : movedPos a b x k - (movedPt a b mp).x k = x k - mp.x k := add_sub_add_right_eq_sub _ _ _
    rw [this]
  simp only [hc]
  exact ite_equiv rfl rfl

end

section
variable {K : Type} [Field K] [LinearOrder K] [IsStrictOrderedRing K] [FloorRing K] {ns N : ℕ}

theorem reference_moved (a b : K) (P : GP K) (dx dy : K) (mp : Particle K ns) :
    (movedPt a b mp).getReferenceNode (movedGP a b P) dx dy
      = movedPt a b <$> mp.getReferenceNode P dx dy := by
  unfold Particle.getReferenceNode
  refine ite_equiv rfl ?_
  have h0 : (movedPt a b mp).x 0 - (P.x_m + a) = mp.x 0 - P.x_m := add_sub_add_right_eq_sub _ _ _
  have h1 : (movedPt a b mp).x 1 - (P.y_m + b) = mp.x 1 - P.y_m := add_sub_add_right_eq_sub _ _ _
  dsimp only
  rw [h0, h1]
  rfl

/-! ## Constructing points -/

theorem initStress_moved (a b : K) (P : Par K) (mat : Mat0 K) (y : K) :
    initStress (movedPar a b P) mat (y + b) = initStress P mat y := by
  have hl : lithoStress (movedPar a b P) mat.rho (y + b) = lithoStress P mat.rho y := by
    have h1 : P.G.y_M + b - (y + b) = P.G.y_M - y := by ring
    have h2 : ∀ g, P.G.y_M + b - g - (y + b) = P.G.y_M - g - y := fun g => by ring
    unfold lithoStress
    simp only [h1, h2]
  unfold initStress
  rw [hl]

theorem initFlow_moved (a b : K) (P : Par K) (S0 : First K) (mat : Mat0 K) (p y : K) (v : VRef K)
    (h : P.initial_flow = .none ∨ b = 0) :
    initFlow (movedPar a b P) S0 mat p (y + b) v = initFlow P S0 mat p y v := by
  rcases h with h | rfl
  · unfold initFlow
    simp only [h]
  · have hP : movedPar a 0 P = { P with G := { P.G with x_m := P.G.x_m + a, x_M := P.G.x_M + a } } := by
      simp [movedPar, movedGP]
    rw [hP, add_zero]
    rfl

theorem mkParticle_moved (a b : K) (P : Par K) (S0 : First K) (ph : Phase K ns) (g x y : K)
    (phi : Option (Fin ns → K)) (h : P.initial_flow = .none ∨ b = 0) :
    mkParticle (movedPar a b P) S0 (movedPh b ph) g (x + a) (y + b) phi
      = movedPt a b <$> mkParticle P S0 ph g x y phi := by
  unfold mkParticle
  have h1 := initStress_moved a b P ph.par y
  have hx : (![x + a, y + b, 0] : Vec K) = movedPos a b ![x, y, 0] := by
    simp [movedPos]
  change (initStress (movedPar a b P) ph.par (y + b) >>= _) = _
  rw [h1]
  refine res_bind_id fun st => ?_
  change (initFlow (movedPar a b P) S0 ph.par (st.1.trace / 3) (y + b) _ >>= _) = _
  rw [initFlow_moved a b P S0 _ _ _ _ h]
  refine res_bind_id fun fl => ?_
  rw [hx]
  rfl

/-! ## Lists of points -/

/-- All points moved. -/
abbrev mv (a b : K) (L : List (PhaseSt K ns)) : List (PhaseSt K ns) :=
  L.map (mapPts (movedPt a b) (movedPh b))

theorem mapPoints_moved {a b : K}
    {f f' : ℕ → Phase K ns → Particle K ns → Res (Particle K ns)}
    (h : ∀ p ph mp, f' p (movedPh b ph) (movedPt a b mp) = movedPt a b <$> f p ph mp)
    (L : List (PhaseSt K ns)) : mapPoints f' (mv a b L) = mv a b <$> mapPoints f L :=
  mapPoints_equiv (θ := movedPh b) (fun _ => rfl) h L

theorem mat0_moved (a b : K) (L : List (PhaseSt K ns)) : mat0 (mv a b L) = mat0 L := by
  cases L <;> rfl

theorem first_moved (a b : K) (L : List (PhaseSt K ns)) : first (mv a b L) = first L := by
  cases L <;> rfl

theorem updateForces_moved (a b : K) (P : Par K) (g : K) (L : List (PhaseSt K ns)) :
    updateForces (movedPar a b P) g (mv a b L) = mv a b <$> updateForces P g L := by
  refine mapPoints_moved (fun p ph mp => ?_) L
  unfold Particle.incrementGravity
  by_cases h : p = 0
  · rw [if_pos h, if_pos h]; rfl
  · rw [if_neg h, if_neg h]; rfl

theorem referenceNodes_moved (a b : K) (P : GP K) (G : Grid K N ns) (L : List (PhaseSt K ns)) :
    getReferenceNodes (movedGP a b P) (movedGrid a b G) (mv a b L)
      = mv a b <$> getReferenceNodes P G L :=
  mapPoints_moved (fun _ _ mp => reference_moved a b P G.dx G.dy mp) L

theorem basisFunctions_moved (a b : K) (G : Grid K N ns) (L : List (PhaseSt K ns)) :
    getBasisFunctions (movedGrid a b G) (mv a b L) = mv a b <$> getBasisFunctions G L :=
  mapPoints_moved (fun _ _ mp => basis_moved a b G mp) L

theorem recover_moved (a b : K) (nx : ℕ) (G : Grid K N ns) (L : List (PhaseSt K ns))
    (h : ∀ x ∈ L, ∀ mp ∈ x.pts.take x.ph.n, mp.N 0 + mp.N 1 + mp.N 2 + mp.N 3 = 1) :
    recoverPositions nx (movedGrid a b G) (mv a b L) = mv a b <$> recoverPositions nx G L :=
  mapPoints_equiv_of (θ := movedPh b) (fun _ => rfl) (fun _ _ mp hq => check_moved a b nx G mp hq) L h

theorem p2gAll_moved (a b : K) (nx : ℕ) (seg : Bool) (L : List (PhaseSt K ns)) (G : Grid K N ns) :
    p2gAll nx seg (mv a b L) (movedGrid a b G) = movedGrid a b <$> p2gAll nx seg L G := by
  refine foldPhases_equiv (φ := mapPts (movedPt a b) (movedPh b)) (fun x G => ?_) L G
  exact foldN_equiv (φ := movedPt a b) (fun mp G => p2g_moved a b nx seg (mp.v.get x.ph.iv) mp G) x.ph.n x.pts G

theorem nodalMass_moved (a b : K) (P : Par K) (s : Fin ns → K) (L : List (PhaseSt K ns))
    (G : Grid K N ns) :
    getNodalMassMomentum (movedPar a b P) s (mv a b L) (movedGrid a b G)
      = movedGrid a b <$> getNodalMassMomentum P s L G := by
  refine res_bind_map (p2gAll_moved a b P.G.nx P.segregate_grid L G) fun G _ => ?_
  change (Except.ok ((if P.segregate_grid = true then (movedGrid a b G).nodalFractions P.ops.big s
    else movedGrid a b G).zeroBoundaryMomentum P.B.roughness) : Res _) = _
  cases P.segregate_grid <;> rfl

theorem stressStrainAll_moved {nx ny : ℕ} (a b : K) (P : Par K) (d : Dyn K) (s : Fin ns → K)
    (L : List (PhaseSt K ns)) (G : Grid K (ny * nx) ns) :
    updateStressStrain (movedPar a b P) d s (mv a b L) (movedGrid a b G)
      = Prod.map (mv a b) (movedGrid a b) <$> updateStressStrain P d s L G := by
  have hc : ∀ (m : Mat0 K) (p : ℕ) (ph : Phase K ns),
      lawCtx (movedPar a b P) d s m p (movedPh b ph) = lawCtx P d s m p ph := fun m p ph => by
    unfold lawCtx
    have : P.G.y_M + b - (P.G.y_m + b) = P.G.y_M - P.G.y_m := add_sub_add_right_eq_sub _ _ _
    simp only [this]
    rfl
  refine res_bind_map (f := Prod.map (mv a b) id) (forPhases_equiv (ψ := id)
    (φ := mapPts (movedPt a b) (movedPh b)) (fun p x vis => ?_) 0 L G.vis) fun r _ => ?_
  · refine res_bind_map (f := Prod.map (List.map (movedPt a b)) id) (forN_equiv (ψ := id)
      (φ := movedPt a b) (fun mp vis => ?_) x.ph.n x.pts vis) fun _ _ => rfl
    change Particle.stressStrain nx P.M_tol (movedGrid a b G) x.ph.law (lawCtx (movedPar a b P) d s
      ((mat0 (mv a b L)).getD x.ph.par) p (movedPh b x.ph)) (movedPt a b mp) vis = _
    rw [hc, mat0_moved]
    exact stressStrain_moved a b nx P.M_tol G x.ph.law _ mp vis
  · change (Except.ok (_, if P.B.cyclic_lr = true then _ else _) : Res _) = _
    cases P.B.cyclic_lr <;> rfl

theorem forces_moved {nx ny : ℕ} (a b : K) (P : Par K) (L : List (PhaseSt K ns))
    (G : Grid K (ny * nx) ns) :
    getNodalForces (movedPar a b P) (mv a b L) (movedGrid a b G)
      = movedGrid a b <$> getNodalForces P L G := by
  refine res_bind_map (f := movedGrid a b) (foldPhases_equiv
    (φ := mapPts (movedPt a b) (movedPh b)) (fun x G => ?_) L G) fun G _ => ?_
  · exact foldN_equiv (φ := movedPt a b) (fun mp G => nodalForces_moved a b nx mp G) x.ph.n x.pts G
  · change (Except.ok (if P.B.cyclic_lr = true then _ else _) : Res _) = _
    cases P.B.cyclic_lr <;> rfl

theorem movePoints_moved (a b : K) (nx : ℕ) (M_tol dt : K) (v : Vec K) (G : Grid K N ns)
    (L : List (PhaseSt K ns)) :
    movePoints nx M_tol dt v (movedGrid a b G) (mv a b L)
      = mv a b <$> movePoints nx M_tol dt v G L := by
  refine mapPhases_equiv (φ := mapPts (movedPt a b) (movedPh b)) (fun _ x => ?_) 0 L
  refine ite_equiv ?_ ?_
  · refine res_bind_map (f := List.map (movedPt a b)) (mapN_equiv (fun mp => ?_) x.ph.n x.pts)
      fun _ _ => rfl
    exact congrArg Except.ok (moveRigid_moved a b dt v mp)
  · exact res_bind_map (f := Prod.map (List.map (movedPt a b)) id) (forN_equiv (ψ := id)
      (fun mp iv => move_moved a b nx M_tol dt G mp iv) x.ph.n x.pts x.ph.iv) fun _ _ => rfl

theorem outletLeft_moved (a b : K) (P : GP K) (L : List (PhaseSt K ns)) :
    outletLeft (movedGP a b P) (mv a b L) = mv a b <$> outletLeft P L := by
  refine mapPhases_equiv (φ := mapPts (movedPt a b) (movedPh b)) (fun _ x => ?_) 0 L
  refine res_bind_map (f := Prod.map id (List.map (movedPt a b))) (outletLoop_equiv (fun mp => ?_)
    x.ph.n x.ph.n x.pts) fun _ _ => rfl
  have h : (mp.x 0 + a < P.x_m + a + P.dx) ↔ mp.x 0 < P.x_m + P.dx := by
    rw [add_right_comm, add_lt_add_iff_right]
  exact decide_eq_decide.2 h

theorem outletBottom_moved (a b : K) (P : GP K) (L : List (PhaseSt K ns)) :
    outletBottom (movedGP a b P) (mv a b L) = mv a b <$> outletBottom P L := by
  refine mapPhases_equiv (φ := mapPts (movedPt a b) (movedPh b)) (fun _ x => ?_) 0 L
  refine res_bind_map (f := Prod.map id (List.map (movedPt a b))) (outletLoop_equiv (fun mp => ?_)
    x.ph.n x.ph.n x.pts) fun _ _ => rfl
  exact decide_eq_decide.2 (add_lt_add_iff_right b)

theorem appendPoint_moved (a b : K) (P : Par K) (S0 : First K) (g x y : K) (l : PhaseSt K ns)
    (h : P.initial_flow = .none ∨ b = 0) :
    appendPoint (movedPar a b P) S0 g (x + a) (y + b) (mapPts (movedPt a b) (movedPh b) l)
      = mapPts (movedPt a b) (movedPh b) <$> appendPoint P S0 g x y l := by
  refine res_bind_map (mkParticle_moved a b P S0 l.ph g x y none h) fun mp _ => ?_
  refine congrArg Except.ok ?_
  unfold mapPts
  simp only [List.map_append, List.map_cons, List.map_nil]
  rfl

theorem inletRight_moved (a b : K) (P : Par K) (d : Dyn K) (L : List (PhaseSt K ns))
    (h : P.initial_flow = .none ∨ b = 0) :
    inletRight (movedPar a b P) d (mv a b L) = mv a b <$> inletRight P d L := by
  unfold inletRight
  rw [first_moved]
  refine mapPhases_equiv (φ := mapPts (movedPt a b) (movedPh b)) (fun _ x => ?_) 0 L
  refine res_bind_id fun due => ite_equiv ?_ rfl
  change List.foldlM _ _ (x.ph.yp.map (· + b)) = _
  generalize x.ph.yp = l
  induction l generalizing x with
  | nil => rfl
  | cons y l ih =>
    rw [List.map_cons, List.foldlM_cons, List.foldlM_cons]
    refine res_bind_map ?_ fun x' _ => ih x'
    have hg : P.G.x_M + a - x.ph.gap 0 = P.G.x_M - x.ph.gap 0 + a := by ring
    change appendPoint _ _ _ (P.G.x_M + a - x.ph.gap 0) (y + b) _ = _
    rw [hg]
    exact appendPoint_moved a b P _ _ _ _ _ h

theorem inletTop_moved (b : K) (P : Par K) (d : Dyn K) (L : List (PhaseSt K ns))
    (h : P.initial_flow = .none ∨ b = 0) :
    inletTop (movedPar 0 b P) d (mv 0 b L) = mv 0 b <$> inletTop P d L := by
  unfold inletTop
  rw [first_moved]
  refine mapPhases_equiv (φ := mapPts (movedPt 0 b) (movedPh b)) (fun _ x => ?_) 0 L
  refine res_bind_id fun due => ite_equiv ?_ rfl
  have hx : (P.G.x_M + 0 - (P.G.x_m + 0)) / 2 = (P.G.x_M - P.G.x_m) / 2 + 0 := by ring
  have hy : P.G.y_M + b - x.ph.gap 1 = P.G.y_M - x.ph.gap 1 + b := by ring
  change appendPoint _ _ _ ((P.G.x_M + 0 - (P.G.x_m + 0)) / 2) (P.G.y_M + b - x.ph.gap 1) _ = _
  rw [hx, hy]
  exact appendPoint_moved 0 b P _ _ _ _ _ h

theorem wrapX_moved (a b : K) (P : GP K) (x : K) :
    wrapX (movedGP a b P) (x + a) = wrapX P x + a := by
  unfold wrapX
  have hw : P.x_M + a - (P.x_m + a) = P.x_M - P.x_m := add_sub_add_right_eq_sub _ _ _
  have hl : ∀ y, (y + a < P.x_m + a) = (y < P.x_m) := fun y => propext (add_lt_add_iff_right a)
  have hr : ∀ y, (P.x_M + a < y + a) = (P.x_M < y) := fun y => propext (add_lt_add_iff_right a)
  dsimp only
  rw [hw]
  simp only [hl]
  by_cases h : x < P.x_m
  · rw [if_pos h, if_pos h]
    have : x + a + (P.x_M - P.x_m) = x + (P.x_M - P.x_m) + a := by ring
    rw [this]
    simp only [hr]
    split
    · ring
    · rfl
  · rw [if_neg h, if_neg h]
    simp only [hr]
    split
    · ring
    · rfl

theorem cyclic_moved (a b : K) (P : GP K) (L : List (PhaseSt K ns)) :
    cyclicLR (movedGP a b P) (mv a b L) = mv a b <$> cyclicLR P L := by
  refine mapPoints_moved (fun _ _ mp => ?_) L
  refine congrArg (fun x : Vec K => (Except.ok { mp with x := x } : Res (Particle K ns))) ?_
  change Function.update (movedPos a b mp.x) 0 (wrapX (movedGP a b P) (mp.x 0 + a)) = _
  rw [wrapX_moved]
  ext k
  by_cases hk : k = 0
  · subst hk
    simp [movedPos_0]
  · rw [Function.update_of_ne hk]
    change mp.x k + _ = Function.update mp.x 0 _ k + _
    rw [Function.update_of_ne hk]

theorem grainsize_moved (a b : K) (P : Par K) (G : Grid K N ns) (L : List (PhaseSt K ns)) :
    moveGrainsize (movedPar a b P) (movedGrid a b G) (mv a b L)
      = mv a b <$> moveGrainsize P G L := by
  refine res_bind_map (mapPoints_moved (fun _ _ mp => mapPhi_moved a b P.G.nx P.M_tol G mp) L) fun L _ => ite_equiv ?_ rfl
  refine mapPoints_moved (fun _ _ mp => ?_) L
  exact res_bind_id fun _ => rfl

theorem whenSet_moved {α β : Type} {c : Bool} {f : α → Res α} {f' : β → Res β} {φ : α → β} (x : α)
    (h : c = true → f' (φ x) = φ <$> f x) : whenSet c f' (φ x) = φ <$> whenSet c f x := by
  cases c
  · rfl
  · exact h rfl

/-! ## A time step -/

variable (P : Par K) (interp : Interp K P.G.N)

theorem gridPhase_moved (a b : K) (s : St P) :
    gridPhase (movedPar a b P) (movedSt a b s) = movedSt a b <$> gridPhase P s := by
  unfold gridPhase
  refine res_bind_map (updateForces_moved a b P (P.forces s.dyn.t).1 s.L) fun L _ => ?_
  refine res_bind_map (referenceNodes_moved a b P.G s.G.wipe L) fun L _ => ?_
  refine res_bind_map (basisFunctions_moved a b s.G.wipe L) fun L hL => ?_
  refine res_bind_map (whenSet_moved (f' := recoverPositions P.G.nx (movedGrid a b s.G.wipe)) L
    fun _ => recover_moved a b P.G.nx s.G.wipe L
      (mapPoints_all (fun _ _ mp mp' h => basis_sum s.G.wipe mp mp' h) hL)) fun L _ => ?_
  refine res_bind_map (nodalMass_moved a b P P.G.s L s.G.wipe) fun G _ => ?_
  have hG : (if P.B.cyclic_lr = true then (movedGrid a b G).makeCyclicMQ (nx := P.G.nx)
      (ny := P.G.ny) else movedGrid a b G)
      = movedGrid a b (if P.B.cyclic_lr = true then G.makeCyclicMQ (nx := P.G.nx)
        (ny := P.G.ny) else G) := by
    cases P.B.cyclic_lr <;> rfl
  dsimp only
  rw [hG]
  refine res_bind_map (stressStrainAll_moved (nx := P.G.nx) (ny := P.G.ny) a b P _ P.G.s L _)
    fun r _ => ?_
  exact res_bind_map (forces_moved (nx := P.G.nx) (ny := P.G.ny) a b P r.1 r.2) fun _ _ => rfl

theorem momentumPhase_moved (a b : K) (s : St P) :
    momentumPhase (movedPar a b P) interp (movedSt a b s)
      = movedSt a b <$> momentumPhase P interp s := by
  unfold momentumPhase
  refine res_bind_map (f := movedGrid a b) ?_ fun G _ => ?_
  · change Grid.BCs (nx := P.G.nx) (ny := P.G.ny) P.B s.dyn.q_v s.dyn.q_h
      (((mat0 (mv a b s.L)).map (·.rho)).getD 0) (P.aniso && decide (s.dyn.t = 0))
      (movedGrid a b s.G) = _
    rw [mat0_moved]
    unfold Grid.BCs
    refine ite_equiv rfl ?_
    dsimp only
    cases P.B.vertical_force <;> cases P.B.horizontal_force <;> exact ite_equiv rfl rfl
  · rfl

theorem segregationPhase_moved (a b : K) (s : St P) :
    segregationPhase (movedPar a b P) interp (movedSt a b s)
      = movedSt a b <$> segregationPhase P interp s := by
  unfold segregationPhase
  refine ite_equiv (ite_equiv rfl ?_) rfl
  dsimp only
  rw [mat0_moved]
  generalize ((mat0 s.L).map (·.rho_s)).getD 0 = rho
  have hp : (movedGrid a b s.G).updatePk (nx := P.G.nx) (ny := P.G.ny) interp P.ops P.M_tol rho
      = movedGrid a b (s.G.updatePk (nx := P.G.nx) (ny := P.G.ny) interp P.ops P.M_tol rho) := rfl
  have hi : ∀ G : Grid K P.G.N P.G.ns,
      phiIncrement (movedPar a b P) s.dyn.dt rho P.G.s (movedGrid a b G)
        = phiIncrement P s.dyn.dt rho P.G.s G := fun _ => rfl
  rw [hp]
  generalize s.G.updatePk (nx := P.G.nx) (ny := P.G.ny) interp P.ops P.M_tol rho = G at *
  have hd : ({ movedGrid a b G with
        dphi := phiIncrement (movedPar a b P) s.dyn.dt rho P.G.s (movedGrid a b G) } :
          Grid K P.G.N P.G.ns)
      = movedGrid a b { G with dphi := phiIncrement P s.dyn.dt rho P.G.s G } :=
    congrArg (fun d => ({ movedGrid a b G with dphi := d } : Grid K P.G.N P.G.ns)) (hi G)
  refine res_bind_map (f := mv a b) ((congrArg (fun H => moveGrainsize (movedPar a b P) H
    (mv a b s.L)) hd).trans (grainsize_moved a b P _ s.L)) fun L _ => ?_
  exact congrArg (fun H : Grid K P.G.N P.G.ns =>
    (Except.ok (St.mk s.dyn (mv a b L) (Grid.makeCyclicVis (nx := P.G.nx) (ny := P.G.ny) [.eta] H)) :
      Res (St (movedPar a b P)))) hd

theorem pointsPhase_moved (a b : K) (s : St P) (ht : P.B.inlet_top = true → a = 0)
    (hf : P.B.inlet_right = true ∨ P.B.inlet_top = true → P.initial_flow = .none ∨ b = 0) :
    pointsPhase (movedPar a b P) (movedSt a b s) = movedSt a b <$> pointsPhase P s := by
  unfold pointsPhase
  refine res_bind_map (movePoints_moved a b P.G.nx P.M_tol s.dyn.dt P.intruder_v s.G s.L)
    fun L _ => ?_
  refine res_bind_map (whenSet_moved (φ := mv a b) L fun _ => outletLeft_moved a b P.G L)
    fun L _ => ?_
  refine res_bind_map (whenSet_moved (φ := mv a b) L fun _ => outletBottom_moved a b P.G L)
    fun L _ => ?_
  refine res_bind_map (whenSet_moved (φ := mv a b) L fun h =>
    inletRight_moved a b P s.dyn L (hf (.inl h))) fun L _ => ?_
  refine res_bind_map (whenSet_moved (φ := mv a b) L fun h => ?_) fun L _ => ?_
  · obtain rfl := ht h
    exact inletTop_moved b P s.dyn L (hf (.inr h))
  exact res_bind_map (whenSet_moved (φ := mv a b) L fun _ => cyclic_moved a b P.G L) fun _ _ => rfl

/-- C93: a step of the moved simulation is the moved step, failures included. -/
theorem c93_step (a b : K) (s : St P) (ht : P.B.inlet_top = true → a = 0)
    (hf : P.B.inlet_right = true ∨ P.B.inlet_top = true → P.initial_flow = .none ∨ b = 0) :
    timeMarch (movedPar a b P) interp (movedSt a b s) = movedSt a b <$> timeMarch P interp s :=
  res_bind_map (gridPhase_moved P a b s) fun s _ =>
    res_bind_map (momentumPhase_moved P interp a b s) fun s _ =>
      res_bind_map (segregationPhase_moved P interp a b s) fun s _ =>
        pointsPhase_moved P a b s ht hf

/-- C93: so is any number of steps. -/
theorem c93_steps (a b : K) (n : ℕ) (s : St P) (ht : P.B.inlet_top = true → a = 0)
    (hf : P.B.inlet_right = true ∨ P.B.inlet_top = true → P.initial_flow = .none ∨ b = 0) :
    steps (movedPar a b P) interp n (movedSt a b s) = movedSt a b <$> steps P interp n s := by
  induction n generalizing s with
  | zero => rfl
  | succ n ih =>
    exact res_bind_map (c93_step P interp a b s ht hf) fun s _ => ih (stepTime P s)

theorem linspace_moved (x y c : K) (n i : ℕ) :
    linspace (x + c) (y + c) n i = linspace x y n i + c := by
  unfold linspace
  rw [add_sub_add_right_eq_sub]
  ring

/-- C93: the grid of the moved domain is the moved grid. -/
theorem c93_grid (a b : K) (G : GP K) (B : BP K) :
    mkGrid (movedGP a b G) B = movedGrid a b <$> mkGrid G B := by
  have hx : gridDx (movedGP a b G) = gridDx G := by
    unfold gridDx
    simp only [linspace_moved, add_sub_add_right_eq_sub]
  have hy : gridDy (movedGP a b G) = gridDy G := by
    unfold gridDy
    simp only [linspace_moved, add_sub_add_right_eq_sub]
  have hX : gridX (movedGP a b G) = fun n => gridX G n + a := by
    funext n
    exact linspace_moved _ _ _ _ _
  have hY : gridY (movedGP a b G) = fun n => gridY G n + b := by
    funext n
    exact linspace_moved _ _ _ _ _
  have hV : nodeVolume (movedGP a b G) B = nodeVolume G B := by
    unfold nodeVolume
    rw [hx, hy]
  unfold mkGrid
  refine ite_equiv rfl ?_
  rw [hx, hy, hX, hY, hV]
  rfl

/-- What the constructor reads of a phase, moved. -/
def Spec.movedInit (a b : K) (I : PhaseInit K ns) : PhaseInit K ns :=
  { I with X := I.X.map (· + a), Y := I.Y.map (· + b) }

theorem mkPoints_moved (a b : K) (P : Par K) (S0 : First K) (ph : Phase K ns) (g : K)
    (X Y : List K) (PHI : Option (List (Fin ns → K))) (h : P.initial_flow = .none ∨ b = 0) (i : ℕ) :
    mkPoints (movedPar a b P) S0 (movedPh b ph) g (X.map (· + a)) (Y.map (· + b)) PHI i
      = List.map (movedPt a b) <$> mkPoints P S0 ph g X Y PHI i := by
  induction i with
  | zero => rfl
  | succ i ih =>
    unfold mkPoints
    refine res_bind_map ih fun l _ => ?_
    rw [List.getElem?_map, List.getElem?_map]
    cases X[i]? with
    | none => rfl
    | some x =>
      cases Y[i]? with
      | none => rfl
      | some y =>
        cases PHI with
        | none =>
          refine res_bind_map (mkParticle_moved a b P S0 ph g x y none h) fun mp _ => ?_
          exact congrArg Except.ok (List.map_append (l₁ := l) (l₂ := [mp])).symm
        | some F =>
          dsimp only [Option.map_some]
          cases F[i]? with
          | none => rfl
          | some f =>
            refine res_bind_map (mkParticle_moved a b P S0 ph g x y (some f) h) fun mp _ => ?_
            exact congrArg Except.ok (List.map_append (l₁ := l) (l₂ := [mp])).symm

/-- C93: the points constructed at moved positions are the moved points. -/
theorem c93_points (a b : K) (P : Par K) (g : K) (S : List (Phase K ns × PhaseInit K ns))
    (h : P.initial_flow = .none ∨ b = 0) :
    mkList (movedPar a b P) g (S.map fun x => (movedPh b x.1, movedInit a b x.2))
      = List.map (mapPts (movedPt a b) (movedPh b)) <$> mkList P g S := by
  have key : ∀ (S0 : First K) (T : List (Phase K ns × PhaseInit K ns)),
      (T.map fun x => (movedPh b x.1, movedInit a b x.2)).mapM (fun x => do
          let l ← mkPoints (movedPar a b P) S0 x.1 g x.2.X x.2.Y
            (if x.2.heterogeneous then some x.2.PHI else none) x.1.n
          return ({ ph := x.1, pts := l } : PhaseSt K ns))
        = List.map (mapPts (movedPt a b) (movedPh b)) <$> T.mapM (fun x => do
          let l ← mkPoints P S0 x.1 g x.2.X x.2.Y
            (if x.2.heterogeneous then some x.2.PHI else none) x.1.n
          return ({ ph := x.1, pts := l } : PhaseSt K ns)) := by
    intro S0 T
    induction T with
    | nil => rfl
    | cons x T ih =>
      rw [List.map_cons, List.mapM_cons, List.mapM_cons]
      refine res_bind_map (f := mapPts (movedPt a b) (movedPh b)) ?_ fun x' _ =>
        res_bind_map ih fun _ _ => rfl
      exact res_bind_map (mkPoints_moved a b P S0 x.1 g x.2.X x.2.Y _ h x.1.n) fun _ _ => rfl
  unfold mkList
  cases S with
  | nil => exact key _ []
  | cons x S => exact key _ (x :: S)

/-! ## Where it fails -/

/-- C93: with `inlet_top` a sideways move is noticed as soon as a point enters. -/
theorem c93_inlet_top (a b : K) (P : Par K) (d : Dyn K) {L L' : List (PhaseSt K ns)}
    (hr : ∀ x ∈ L, 0 < x.ph.inlet_rate) (h : inletTop P d L = .ok L')
    (hd : ∃ x ∈ L, d.t ≠ 0 ∧ onSchedule d.t d.dt x.ph.inlet_rate) (ha : a ≠ 0) :
    inletTop (movedPar a b P) d (L.map (mapPts (movedPt a b) (movedPh b)))
      ≠ List.map (mapPts (movedPt a b) (movedPh b)) <$> inletTop P d L := by
  intro heq
  rw [h, res_map_ok] at heq
  obtain ⟨x, hx, hdx⟩ := hd
  have h1 := c28_top hr h
  have h2 := c28_top (fun y hy => by
    obtain ⟨z, hz, rfl⟩ := List.mem_map.1 hy
    exact hr z hz) heq
  rw [List.forall₂_map_left_iff, List.forall₂_map_right_iff] at h2
  obtain ⟨i, hi, rfl⟩ := List.mem_iff_getElem.1 hx
  have hi' : i < L'.length := h1.length_eq ▸ hi
  obtain ⟨p, hp, -, hn⟩ := ((List.forall₂_iff_get.1 h1).2 i hi hi').1 hdx
  obtain ⟨q, hq, -, hm⟩ := ((List.forall₂_iff_get.1 h2).2 i hi hi').1 hdx
  change L'[i].pts = L[i].pts ++ [p] at hp
  change L'[i].pts.map (movedPt a b) = L[i].pts.map (movedPt a b) ++ [q] at hq
  rw [hp, List.map_append] at hq
  have hpq : movedPt a b p = q := by simpa using List.append_cancel_left hq
  have e1 : p.x 0 = (P.G.x_M - P.G.x_m) / 2 := by rw [hn.1]; rfl
  have e2 : q.x 0 = (P.G.x_M + a - (P.G.x_m + a)) / 2 := by rw [hm.1]; rfl
  rw [← hpq, movedPt_x, movedPos_0, e1, add_sub_add_right_eq_sub] at e2
  exact ha (by linarith)

/-- C93: the steady viscous profile is tied to `y = 0`; moving the set-up up or down adds a
constant to it. -/
theorem c93_steady (a b : K) (P : Par K) (mat : Mat0 K) (y : K) :
    steadyViscousU (movedPar a b P) mat (y + b)
      = steadyViscousU P mat y
        + mat.rho * P.max_g * P.sinθ * (b * (P.G.y_M + b / 2)) / mat.mu_s := by
  unfold steadyViscousU
  rw [← add_div]
  congr 1
  ring

end

/-! ## The hypotheses can be met -/

/-- A run of the moved example. -/
example : ∃ G s', mkGrid Ex.par.G Ex.par.B = .ok G ∧
    steps Ex.par (Ex.noInterp Ex.par) 2 { dyn := Ex.dyn, L := Ex.L, G := G } = .ok s' ∧
    steps (movedPar 7 (-3) Ex.par) (Ex.noInterp Ex.par) 2
      (movedSt 7 (-3) { dyn := Ex.dyn, L := Ex.L, G := G } : St (movedPar 7 (-3) Ex.par))
      = .ok (movedSt 7 (-3) s') := by
  obtain ⟨G, s', hG, hs, -⟩ := Ex.run_ok (P := Ex.par) (d := Ex.dyn) (L := Ex.L) (n := 2)
    (check := fun _ => true) (by decide +kernel)
  refine ⟨G, s', hG, hs, ?_⟩
  rw [c93_steps Ex.par (Ex.noInterp Ex.par) 7 (-3) 2 _ (fun h => by cases h)
    (fun h => by rcases h with h | h <;> cases h), hs]
  rfl

/-- A point does enter. -/
example : (∀ x ∈ Ex.L, 0 < x.ph.inlet_rate) ∧
    (∃ x ∈ Ex.L, (1 : ℚ) ≠ 0 ∧ onSchedule 1 (1 / 100) x.ph.inlet_rate) ∧
    Ex.okAnd (inletTop Ex.par { Ex.dyn with t := 1 } Ex.L) (fun L => L.all fun x => x.ph.n == 3)
      = true := by
  refine ⟨?_, ?_, by decide +kernel⟩
  · intro x hx
    simp only [Ex.L, List.mem_cons, List.not_mem_nil, or_false] at hx
    subst hx
    norm_num [Ex.ph]
  · refine ⟨_, List.mem_cons_self, one_ne_zero, ?_⟩
    exact ⟨1, by norm_num [Ex.ph], by norm_num [Ex.ph]⟩

end Mpm

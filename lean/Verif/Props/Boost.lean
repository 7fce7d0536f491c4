import Verif.Props.Translate
import Verif.Props.Fields
import Verif.Props.Balance

/-!
# C96: adding one velocity to everything

Away from walls, and where all nodes around the points have more than the tolerated mass, a step
does not notice a common velocity.
-/

set_option linter.unusedSectionVars false

namespace Mpm
open Spec

namespace Spec
variable {K : Type} [Field K] [LinearOrder K] {ns N : ℕ}

/-- A velocity array, or the reference to the shared one, with `u` added. -/
def fasterV (u : Vec K) : VRef K → VRef K
  | .own v => .own (v + u)
  | .shared => .shared

/-- A point with `u` added to its velocity. -/
def fasterPt (u : Vec K) (mp : Particle K ns) : Particle K ns := { mp with v := fasterV u mp.v }

/-- A phase with `u` added to the velocity its points share. -/
def fasterPh (u : Vec K) (ph : Phase K ns) : Phase K ns := { ph with iv := ph.iv + u }

/-- All points with `u` added. -/
abbrev faster (u : Vec K) (L : List (PhaseSt K ns)) : List (PhaseSt K ns) :=
  L.map (mapPts (fasterPt u) (fasterPh u))

/-- A point with `u` added to its velocity that has also been carried along for a time `dt`. -/
def carriedPt (dt : K) (u : Vec K) (mp : Particle K ns) : Particle K ns :=
  { fasterPt u mp with x := mp.x + dt • u }

/-- All points carried along. -/
abbrev carried (dt : K) (u : Vec K) (L : List (PhaseSt K ns)) : List (PhaseSt K ns) :=
  L.map (mapPts (carriedPt dt u) (fasterPh u))

/-- The nodal momenta of the faster material. -/
def fasterGrid (u : Vec K) (G : Grid K N ns) : Grid K N ns :=
  { G with q := fun k => G.q k + G.m k • u }

/-- The same parameters with a faster conveyor and a faster intruder. -/
abbrev fasterPar (u : Vec K) (P : Par K) : Par K :=
  { P with v_0 := P.v_0 + u 0, intruder_v := P.intruder_v + u }

/-- Nothing looks at the positions again within the step. -/
structure OpenEnds (B : BP K) : Prop where
  outlet_left : B.outlet_left = false
  outlet_bottom : B.outlet_bottom = false
  inlet_right : B.inlet_right = false
  inlet_top : B.inlet_top = false
  cyclic : B.cyclic_lr = false

end Spec

/-! ## Loops over points about which something is known -/


theorem forN_equiv_mem {α β σ τ : Type} {f : α → σ → Res (α × σ)} {f' : β → τ → Res (β × τ)}
    {φ φ' : α → β} {ψ : σ → τ} (l : List α)
    (h : ∀ a ∈ l, ∀ s, f' (φ a) (ψ s) = Prod.map φ' ψ <$> f a s) (s : σ) :
    forN f' l.length (l.map φ) (ψ s) = Prod.map (List.map φ') ψ <$> forN f l.length l s := by
  induction l generalizing s with
  | nil => rfl
  | cons a l ih =>
    exact res_bind_map (h a (by simp) s) fun s' _ =>
      res_bind_map (ih (fun b hb => h b (by simp [hb])) s'.2) fun _ _ => rfl

theorem mapN_equiv_mem {α β : Type} {f : α → Res α} {f' : β → Res β} {φ φ' : α → β} (l : List α)
    (h : ∀ a ∈ l, f' (φ a) = φ' <$> f a) :
    mapN f' l.length (l.map φ) = List.map φ' <$> mapN f l.length l := by
  induction l with
  | nil => rfl
  | cons a l ih =>
    exact res_bind_map (h a (by simp)) fun s' _ =>
      res_bind_map (ih (fun b hb => h b (by simp [hb]))) fun _ _ => rfl

section
variable {K : Type} {ns : ℕ}

theorem mapPhases_equiv_mem {f f' : ℕ → PhaseSt K ns → Res (PhaseSt K ns)}
    {φ φ' : PhaseSt K ns → PhaseSt K ns} (p : ℕ) (L : List (PhaseSt K ns))
    (h : ∀ p, ∀ a ∈ L, f' p (φ a) = φ' <$> f p a) :
    mapPhases f' p (L.map φ) = List.map φ' <$> mapPhases f p L := by
  induction L generalizing p with
  | nil => rfl
  | cons a L ih =>
    exact res_bind_map (h p a (by simp)) fun a' _ =>
      res_bind_map (ih (p + 1) fun p b hb => h p b (by simp [hb])) fun _ _ => rfl

theorem forPhases_equiv_mem {σ τ : Type} {f : ℕ → PhaseSt K ns → σ → Res (PhaseSt K ns × σ)}
    {f' : ℕ → PhaseSt K ns → τ → Res (PhaseSt K ns × τ)} {φ φ' : PhaseSt K ns → PhaseSt K ns}
    {ψ : σ → τ} (p : ℕ) (L : List (PhaseSt K ns))
    (h : ∀ p, ∀ a ∈ L, ∀ s, f' p (φ a) (ψ s) = Prod.map φ' ψ <$> f p a s) (s : σ) :
    forPhases f' p (L.map φ) (ψ s) = Prod.map (List.map φ') ψ <$> forPhases f p L s := by
  induction L generalizing p s with
  | nil => rfl
  | cons a L ih =>
    exact res_bind_map (h p a (by simp) s) fun s' _ =>
      res_bind_map (ih (p + 1) (fun p b hb => h p b (by simp [hb])) s'.2) fun _ _ => rfl

end

/-! ## Points -/

section
variable {K : Type} [Field K] [LinearOrder K] [IsStrictOrderedRing K] {ns N : ℕ}

theorem faster_get (u iv : Vec K) (v : VRef K) : (fasterV u v).get (iv + u) = v.get iv + u := by
  cases v <;> rfl

theorem addVel_faster (u d : Vec K) (v : VRef K) (iv : Vec K) :
    addVel d (fasterV u v, iv + u) = Prod.map (fasterV u) (· + u) (addVel d (v, iv)) := by
  cases v <;> simp [addVel, fasterV, add_right_comm]

theorem runLaw_faster (u : Vec K) (law : Law) (c : LawCtx K ns) (mp : Particle K ns) :
    runLaw law c (fasterPt u mp) = Prod.map (fasterPt u) id <$> runLaw law c mp := by
  cases law
  case rigid => rfl
  case elastic => rfl
  case elastic_time => exact ite_equiv rfl rfl
  case von_mises => exact ite_equiv rfl (ite_equiv rfl (ite_equiv rfl rfl))
  case dp =>
    change lawDp c (fasterPt u mp) = Prod.map (fasterPt u) id <$> lawDp c mp
    unfold lawDp
    have h : (fasterPt u mp).mu = mp.mu := rfl
    rw [h]
    cases mp.mu <;> rfl
  case dp_rate => exact res_bind_id fun _ => res_bind_id fun _ => rfl
  case viscous => exact ite_equiv rfl rfl
  case bingham => exact ite_equiv rfl (res_bind_id fun _ => res_bind_id fun _ => rfl)
  case ken_kamrin => exact ite_equiv rfl (res_bind_id fun _ => rfl)
  case pouliquen => exact res_bind_id fun _ => ite_equiv rfl (ite_equiv rfl rfl)
  case linear_mu =>
    exact res_bind_id fun _ => ite_equiv rfl (res_bind_id fun _ => res_bind_id fun _ => rfl)
  case ken_simple => exact res_bind_id fun _ => ite_equiv rfl rfl
  case viscous_size => rfl
  case pouliquen2D => rfl
  case other => rfl

/-- What a point needs: four nodes with enough mass, and shape functions that add up. -/
structure Carried (nx : ℕ) (M_tol : K) (m : Fin N → K) (mp : Particle K ns) : Prop where
  nodes : ∃ nd : Fin 4 → Fin N, ∀ r, mp.node nx N r = .ok (nd r) ∧ M_tol < m (nd r)
  sumN : ∑ r, mp.N r = 1
  sumG : ∑ r, mp.Gs r = 0

theorem nodeVel_faster {M_tol : K} (h0 : 0 ≤ M_tol) (u : Vec K) (G : Grid K N ns) {k : Fin N}
    (hk : M_tol < G.m k) : nodeVel M_tol (fasterGrid u G) k = nodeVel M_tol G k + u := by
  have hm : G.m k ≠ 0 := (h0.trans_lt hk).ne'
  have e : nodeVel M_tol (fasterGrid u G) k = fun i => (G.q k i + G.m k * u i) / G.m k :=
    if_pos hk
  rw [e, nodeVel, if_pos hk]
  funext i
  change _ = G.q k i / G.m k + u i
  field_simp

theorem updateStrain_faster {nx : ℕ} {M_tol dt : K} (h0 : 0 ≤ M_tol) (u : Vec K) (G : Grid K N ns)
    (mp : Particle K ns) (h : Carried nx M_tol G.m mp) :
    (fasterPt u mp).updateStrain nx M_tol dt (fasterGrid u G)
      = fasterPt u <$> mp.updateStrain nx M_tol dt G := by
  obtain ⟨nd, hnd⟩ := h.nodes
  rw [updateStrain_of_nodes (nd := nd) (fun r => (hnd r).1),
    updateStrain_of_nodes (mp := fasterPt u mp) (nd := nd) (fun r => (hnd r).1)]
  have hA : (∑ r, Matrix.vecMulVec (nodeVel M_tol (fasterGrid u G) (nd r)) (mp.Gs r) : Mat K)
      = ∑ r, Matrix.vecMulVec (nodeVel M_tol G (nd r)) (mp.Gs r) := by
    have : ∀ r, (Matrix.vecMulVec (nodeVel M_tol (fasterGrid u G) (nd r)) (mp.Gs r) : Mat K)
        = Matrix.vecMulVec (nodeVel M_tol G (nd r)) (mp.Gs r)
          + Matrix.vecMulVec u (mp.Gs r) := fun r => by
      rw [nodeVel_faster h0 u G (hnd r).2, Matrix.add_vecMulVec]
    simp only [this]
    rw [Finset.sum_add_distrib]
    have hz : (∑ r, Matrix.vecMulVec u (mp.Gs r) : Mat K) = 0 := by
      ext i j
      rw [Matrix.sum_apply]
      simp only [Matrix.vecMulVec_apply, ← Finset.mul_sum]
      have := congrFun h.sumG j
      rw [Finset.sum_apply] at this
      rw [this]
      simp
    rw [hz, add_zero]
  exact congrArg (fun A : Mat K => (Except.ok { fasterPt u mp with
    LL := A + A.transpose
    dstrain := (1 / 2 * dt) • (A + A.transpose)
    strain := mp.strain + (1 / 2 * dt) • (A + A.transpose) } : Res (Particle K ns))) hA

theorem stressStrain_faster {nx : ℕ} {M_tol : K} (h0 : 0 ≤ M_tol) (u : Vec K) (G : Grid K N ns)
    (law : Law) (c : LawCtx K ns) (mp : Particle K ns) (h : Carried nx M_tol G.m mp)
    (vis : Vis → Fin N → XF K) :
    (fasterPt u mp).stressStrain nx M_tol (fasterGrid u G) law c vis
      = Prod.map (fasterPt u) id <$> mp.stressStrain nx M_tol G law c vis :=
  res_bind_map (updateStrain_faster h0 u G mp h) fun _ _ =>
    res_bind_map (runLaw_faster u law c _) fun _ _ => res_bind_id fun _ => rfl

/-- The second loop of `move_material_points`. -/
def moveTail (nx : ℕ) (M_tol : K) (G : Grid K N ns) (s : Particle K ns × Vec K) :
    Res (Particle K ns × Vec K) := do
  let mp ← for4 (fun r (mp : Particle K ns) => do
    let n ← mp.node nx N r
    if M_tol < G.m n then
      if G.V n = 0 then .error .nonFinite
      else return { mp with rho := mp.rho + mp.N r * G.m n / G.V n }
    else return mp) { s.1 with rho := 0 }
  return (mp, s.2)

theorem move_split {nx : ℕ} {M_tol dt : K} {G : Grid K N ns} {mp : Particle K ns} {iv : Vec K}
    {nd : Fin 4 → Fin N} (h : ∀ r, mp.node nx N r = .ok (nd r)) :
    mp.move nx M_tol dt G iv = moveTail nx M_tol G
        ({ mp with
            x := mp.x + ∑ r, dispInc M_tol dt (mp.N r) G (nd r)
            v := (addVel (∑ r, velInc M_tol dt (mp.N r) G (nd r)) (mp.v, iv)).1 },
          (addVel (∑ r, velInc M_tol dt (mp.N r) G (nd r)) (mp.v, iv)).2) := by
  unfold Particle.move
  rw [move_loop1 h, res_ok_bind]
  rfl

theorem moveTail_faster (nx : ℕ) (M_tol dt : K) (u : Vec K) (G : Grid K N ns)
    (s : Particle K ns × Vec K) :
    moveTail nx M_tol (fasterGrid u G) (Prod.map (carriedPt dt u) (· + u) s)
      = Prod.map (carriedPt dt u) (· + u) <$> moveTail nx M_tol G s := by
  refine res_bind_map (f := carriedPt dt u) (for4_equiv (ψ := carriedPt dt u) (fun r s => ?_)
    { s.1 with rho := 0 }) fun _ _ => rfl
  exact res_bind_id fun n => ite_equiv (ite_equiv rfl rfl) rfl

theorem move_faster {nx : ℕ} {M_tol dt : K} (h0 : 0 ≤ M_tol) (u : Vec K) (G : Grid K N ns)
    (mp : Particle K ns) (h : Carried nx M_tol G.m mp) (iv : Vec K) :
    (fasterPt u mp).move nx M_tol dt (fasterGrid u G) (iv + u)
      = Prod.map (carriedPt dt u) (· + u) <$> mp.move nx M_tol dt G iv := by
  obtain ⟨nd, hnd⟩ := h.nodes
  rw [move_split (mp := mp) (nd := nd) (fun r => (hnd r).1),
    move_split (mp := fasterPt u mp) (nd := nd) (fun r => (hnd r).1), ← moveTail_faster]
  have hd : (∑ r, dispInc M_tol dt (mp.N r) (fasterGrid u G) (nd r))
      = (∑ r, dispInc M_tol dt (mp.N r) G (nd r)) + dt • u := by
    have : ∀ r, dispInc M_tol dt (mp.N r) (fasterGrid u G) (nd r)
        = dispInc M_tol dt (mp.N r) G (nd r) + mp.N r • (dt • u) := fun r => by
      have hm : G.m (nd r) ≠ 0 := (h0.trans_lt (hnd r).2).ne'
      have e : dispInc M_tol dt (mp.N r) (fasterGrid u G) (nd r)
        = fun i => dt * mp.N r * (G.q (nd r) i + G.m (nd r) * u i) / G.m (nd r) := if_pos (hnd r).2
      rw [e, dispInc, if_pos (hnd r).2]
      funext i
      change _ = dt * mp.N r * G.q (nd r) i / G.m (nd r) + mp.N r * (dt * u i)
      field_simp
    simp only [this]
    rw [Finset.sum_add_distrib, ← Finset.sum_smul, h.sumN, one_smul]
  refine congrArg (moveTail nx M_tol (fasterGrid u G)) ?_
  have hv := addVel_faster u (∑ r, velInc M_tol dt (mp.N r) G (nd r)) mp.v iv
  have hv2 := congrArg Prod.snd hv
  refine Prod.ext ?_ hv2
  refine Eq.trans (congrArg (fun v : VRef K => ({ mp with
    x := mp.x + ∑ r, dispInc M_tol dt (mp.N r) (fasterGrid u G) (nd r), v := v } : Particle K ns))
    (congrArg Prod.fst hv)) ?_
  rw [hd, ← add_assoc]
  rfl

theorem moveRigid_faster (u : Vec K) (dt : K) (v : Vec K) (mp : Particle K ns) :
    (fasterPt u mp).moveRigid dt (v + u) = carriedPt dt u (mp.moveRigid dt v) := by
  refine congrArg (fun x : Vec K => { mp with x := x, v := .own (v + u) }) ?_
  change mp.x + dt • (v + u) = mp.x + dt • v + dt • u
  rw [smul_add, add_assoc]

theorem p2g_faster (u : Vec K) (nx : ℕ) (seg : Bool) (vel : Vec K) (mp : Particle K ns)
    (G : Grid K N ns) :
    (fasterPt u mp).p2g nx seg (vel + u) (fasterGrid u G)
      = fasterGrid u <$> mp.p2g nx seg vel G := by
  refine for4_equiv (ψ := fasterGrid u) (fun r G => res_bind_id fun n => ?_) G
  have hq : addAt (fasterGrid u G).q n ((mp.N r * mp.m) • (vel + u))
      = fun k => addAt G.q n ((mp.N r * mp.m) • vel) k
        + addAt G.m n (mp.N r * mp.m) k • u := by
    funext k
    unfold addAt
    by_cases hk : k = n
    · subst hk
      simp [fasterGrid, add_smul]
      abel
    · simp [hk, fasterGrid]
  cases seg
  · exact congrArg (fun q => (Except.ok { G with m := addAt G.m n (mp.N r * mp.m), q := q } :
      Res (Grid K N ns))) hq
  · exact congrArg (fun q => (Except.ok { G with
        m := addAt G.m n (mp.N r * mp.m)
        q := q
        phim := addAt G.phim n ((mp.N r * mp.m) • mp.phi)
        pkm := addAt G.pkm n (mp.N r * mp.m * mp.pk) } : Res (Grid K N ns))) hq

theorem nodalForces_faster (u : Vec K) (nx : ℕ) (mp : Particle K ns) (G : Grid K N ns) :
    (fasterPt u mp).nodalForces nx (fasterGrid u G) = fasterGrid u <$> mp.nodalForces nx G := by
  refine for4_equiv (ψ := fasterGrid u) (fun r G => ?_) G
  exact res_bind_id fun _ => rfl


end

/-! ## Lists of points -/

section
variable {K : Type} [Field K] [LinearOrder K] [IsStrictOrderedRing K] [FloorRing K] {ns N : ℕ}

theorem mapPoints_faster {u : Vec K}
    {f f' : ℕ → Phase K ns → Particle K ns → Res (Particle K ns)}
    (h : ∀ p ph mp, f' p (fasterPh u ph) (fasterPt u mp) = fasterPt u <$> f p ph mp)
    (L : List (PhaseSt K ns)) : mapPoints f' (faster u L) = faster u <$> mapPoints f L :=
  mapPoints_equiv (θ := fasterPh u) (fun _ => rfl) h L

theorem mat0_faster (u : Vec K) (L : List (PhaseSt K ns)) : mat0 (faster u L) = mat0 L := by
  cases L <;> rfl

theorem updateForces_faster (u : Vec K) (P : Par K) (g : K) (L : List (PhaseSt K ns)) :
    updateForces (fasterPar u P) g (faster u L) = faster u <$> updateForces P g L := by
  refine mapPoints_faster (fun p ph mp => ?_) L
  unfold Particle.incrementGravity
  by_cases h : p = 0
  · rw [if_pos h, if_pos h]; rfl
  · rw [if_neg h, if_neg h]; rfl

theorem basis_faster (u : Vec K) (G : Grid K N ns) (L : List (PhaseSt K ns)) :
    getBasisFunctions G (faster u L) = faster u <$> getBasisFunctions G L := by
  refine mapPoints_faster (fun _ _ mp => ?_) L
  exact res_bind_id fun n => ite_equiv rfl rfl

theorem recover_faster (u : Vec K) (nx : ℕ) (G : Grid K N ns) (L : List (PhaseSt K ns)) :
    recoverPositions nx G (faster u L) = faster u <$> recoverPositions nx G L := by
  refine mapPoints_faster (fun _ _ mp => ?_) L
  exact res_bind_id fun n => ite_equiv rfl rfl

theorem p2gAll_faster (u : Vec K) (nx : ℕ) (seg : Bool) (L : List (PhaseSt K ns))
    (G : Grid K N ns) :
    p2gAll nx seg (faster u L) (fasterGrid u G) = fasterGrid u <$> p2gAll nx seg L G := by
  refine foldPhases_equiv (φ := mapPts (fasterPt u) (fasterPh u)) (fun x G => ?_) L G
  refine foldN_equiv (φ := fasterPt u) (fun mp G => ?_) x.ph.n x.pts G
  have := p2g_faster u nx seg (mp.v.get x.ph.iv) mp G
  rw [← faster_get] at this
  exact this

theorem nodalMass_faster (u : Vec K) {P : Par K} (hseg : P.segregate_grid = false)
    (s : Fin ns → K) {L : List (PhaseSt K ns)} {G G' : Grid K N ns} (hw : NoWalls G)
    (h : getNodalMassMomentum P s L G = .ok G') (hz : fasterGrid u G = G) :
    getNodalMassMomentum (fasterPar u P) s (faster u L) G = .ok (fasterGrid u G') := by
  unfold getNodalMassMomentum at h ⊢
  obtain ⟨G1, h1, h2⟩ := res_bind_ok.1 h
  have e := p2gAll_faster u P.G.nx P.segregate_grid L G
  rw [hz, h1, res_map_ok] at e
  refine res_bind_ok.2 ⟨_, e, ?_⟩
  have hw1 : NoWalls G1 := by
    have b := p2gAll_static h1
    intro k
    rw [b.bv, b.bh]
    exact hw k
  have key : ∀ (H : Grid K N ns), NoWalls H → ∀ r, H.zeroBoundaryMomentum r = H := by
    intro H hH r
    have hq : (H.zeroBoundaryMomentum r).q = H.q := by
      funext k
      have := zeroBoundary_q r H k
      simp only [(hH k).1, (hH k).2, Bool.false_eq_true, and_false, or_self, if_false] at this
      funext i
      fin_cases i
      · exact this.2.1
      · exact this.2.2
      · exact this.1
    calc H.zeroBoundaryMomentum r = { H with q := (H.zeroBoundaryMomentum r).q } := rfl
      _ = H := by rw [hq]
  simp only [hseg, Bool.false_eq_true, if_false] at h2 ⊢
  rw [key _ hw1] at h2
  rw [key (fasterGrid u G1) hw1]
  cases h2
  rfl

theorem stressStrainAll_faster {nx ny : ℕ} (u : Vec K) (P : Par K) (d : Dyn K) (s : Fin ns → K)
    (L : List (PhaseSt K ns)) (hL : Counted L) (G : Grid K (ny * nx) ns)
    (hc : ∀ mp ∈ points L, Carried nx P.M_tol G.m mp) :
    updateStressStrain (fasterPar u P) d s (faster u L) (fasterGrid u G)
      = Prod.map (faster u) (fasterGrid u) <$> updateStressStrain P d s L G := by
  refine res_bind_map (f := Prod.map (faster u) id) (forPhases_equiv_mem (ψ := id)
    (φ := mapPts (fasterPt u) (fasterPh u)) 0 L (fun p x hx vis => ?_) G.vis) fun r _ => ?_
  · have hn := hL x hx
    refine res_bind_map (f := Prod.map (List.map (fasterPt u)) id) ?_ fun _ _ => rfl
    rw [mat0_faster]
    change forN _ x.ph.n (x.pts.map (fasterPt u)) (id vis) = _
    rw [hn]
    refine forN_equiv_mem (ψ := id) (φ := fasterPt u) x.pts (fun mp hmp vis => ?_) vis
    exact stressStrain_faster P.M_tol_nonneg u G x.ph.law _ mp
      (hc mp (List.mem_flatMap.2 ⟨x, hx, hmp⟩)) vis
  · change (Except.ok (_, if P.B.cyclic_lr = true then _ else _) : Res _) = _
    cases P.B.cyclic_lr <;> rfl

theorem forces_faster {nx ny : ℕ} (u : Vec K) {P : Par K}
    (L : List (PhaseSt K ns)) (G : Grid K (ny * nx) ns) :
    getNodalForces (fasterPar u P) (faster u L) (fasterGrid u G)
      = fasterGrid u <$> getNodalForces P L G := by
  refine res_bind_map (f := fasterGrid u) (foldPhases_equiv
    (φ := mapPts (fasterPt u) (fasterPh u)) (fun x G => ?_) L G) fun G _ => ?_
  · exact foldN_equiv (φ := fasterPt u) (fun mp G => nodalForces_faster u nx mp G) x.ph.n x.pts G
  · change (Except.ok (if P.B.cyclic_lr = true then _ else _) : Res _) = _
    cases P.B.cyclic_lr <;> rfl

theorem movePoints_faster {nx : ℕ} {M_tol dt : K} (h0 : 0 ≤ M_tol) (u v : Vec K)
    (G : Grid K N ns) (L : List (PhaseSt K ns)) (hL : Counted L)
    (hc : ∀ mp ∈ points L, Carried nx M_tol G.m mp) :
    movePoints nx M_tol dt (v + u) (fasterGrid u G) (faster u L)
      = carried dt u <$> movePoints nx M_tol dt v G L := by
  refine mapPhases_equiv_mem (φ := mapPts (fasterPt u) (fasterPh u))
    (φ' := mapPts (carriedPt dt u) (fasterPh u)) 0 L fun _ x hx => ?_
  have hn := hL x hx
  refine ite_equiv ?_ ?_
  · refine res_bind_map (f := List.map (carriedPt dt u)) ?_ fun _ _ => rfl
    change mapN _ x.ph.n (x.pts.map (fasterPt u)) = _
    rw [hn]
    exact mapN_equiv_mem x.pts fun mp _ => congrArg Except.ok (moveRigid_faster u dt v mp)
  · refine res_bind_map (f := Prod.map (List.map (carriedPt dt u)) (· + u)) ?_ fun _ _ => rfl
    change forN _ x.ph.n (x.pts.map (fasterPt u)) (x.ph.iv + u) = _
    rw [hn]
    exact forN_equiv_mem (ψ := (· + u)) (φ := fasterPt u) x.pts (fun mp hmp iv =>
      move_faster h0 u G mp (hc mp (List.mem_flatMap.2 ⟨x, hx, hmp⟩)) iv) x.ph.iv

theorem reference_faster (u : Vec K) (P : GP K) (G : Grid K N ns) (L : List (PhaseSt K ns)) :
    getReferenceNodes P G (faster u L) = faster u <$> getReferenceNodes P G L := by
  refine mapPoints_faster (fun _ _ mp => ?_) L
  exact ite_equiv rfl rfl

end

/-! ## A time step -/

section
variable {K : Type} [Field K] [LinearOrder K] [IsStrictOrderedRing K] [FloorRing K]
variable {P : Par K} {s s' : St P}

/-- Inside the domain and around heavy nodes every point can be carried. -/
theorem GridPhase.carried (hP : GoodGrid P.G) (hG : Geometry P.G s.G) (hL : Counted s.L)
    (hx : ∀ mp ∈ points s.L, InDomain P.G mp.x) (hh : Heavy P.G P.M_tol s.L) (T : GridPhase P s) :
    ∀ mp ∈ points T.Lc, Carried P.G.nx P.M_tol T.Ga.m mp := by
  have r1 := updateForces_rel hL T.ha
  have c1 := r1.counted hL
  have rb : PtsRel (fun _ a b => a.getReferenceNode P.G s.G.wipe.dx s.G.wipe.dy = .ok b) T.La T.Lb :=
    mapPoints_rel (f := fun _ _ mp => mp.getReferenceNode P.G s.G.wipe.dx s.G.wipe.dy)
      (fun _ _ _ _ h => h) c1 T.hb
  have cb := rb.counted c1
  have rc : PtsRel (fun _ a b => a.getBasisFunctions s.G.wipe = .ok b) T.Lb T.Lc :=
    mapPoints_rel (f := fun _ _ mp => mp.getBasisFunctions s.G.wipe) (fun _ _ _ _ h => h) cb T.hc
  intro c hc
  obtain ⟨a, ha, ph, b, ⟨a1, ⟨ha1, -⟩, hb⟩, hbc⟩ := forall₂_right ((r1.comp rb).comp rc).points hc
  have hxa : InDomain P.G a1.x := by rw [ha1]; exact hx a ha
  have loc := locate_one hb hbc
  obtain ⟨i, j, nd, hcell, g1, g2, g3, g4, g5⟩ := located_basis hP (Mpm.Geometry.wipe hG) hxa
  rw [g1, Except.ok.injEq] at hb
  rw [← hb, g2, Except.ok.injEq] at hbc
  refine ⟨⟨nd, fun r => ⟨?_, ?_⟩⟩, loc.sumN, loc.sumG⟩
  · rw [← hbc]; exact g3 r
  · rw [gridPhase_mapped_mass hP hG hL hx T]
    rw [ha1] at hcell
    refine hh a ha i j hcell r (nd r) ?_
    have := Nat.mod_add_div (nd r : ℕ) P.G.nx
    rw [g4, g5] at this
    rw [← this, Nat.mul_comm]

theorem GridPhase.check {s1 : St P} (T : GridPhase P s) (h : gridPhase P s = .ok s1) :
    whenSet P.check_positions (recoverPositions P.G.nx s.G.wipe) T.Lc = .ok T.Lc := by
  obtain ⟨d, La, Lb, Lc, Ld, Ga, Gb, Gc, Gd, rfl, ha, hb, hc, -⟩ := T
  unfold gridPhase at h
  obtain ⟨La', ha', h⟩ := res_bind_ok.1 h
  obtain rfl : La' = La := Except.ok.inj (ha'.symm.trans ha)
  obtain ⟨Lb', hb', h⟩ := res_bind_ok.1 h
  obtain rfl : Lb' = Lb := Except.ok.inj (hb'.symm.trans hb)
  obtain ⟨Lc', hc', h⟩ := res_bind_ok.1 h
  obtain rfl : Lc' = Lc := Except.ok.inj (hc'.symm.trans hc)
  obtain ⟨Le, he, h⟩ := res_bind_ok.1 h
  have e : Le = Lc' := by
    have he' := he
    unfold whenSet at he'
    split at he'
    · exact recoverPositions_id he'
    · cases he'; rfl
  rw [e] at he
  exact he

theorem gridPhase_faster (hP : GoodGrid P.G) (hcy : P.B.cyclic_lr = false)
    (hseg : P.segregate_grid = false)
    (hL : Counted s.L) (hG : Geometry P.G s.G) (hw : NoWalls s.G)
    (hx : ∀ mp ∈ points s.L, InDomain P.G mp.x) (hh : Heavy P.G P.M_tol s.L)
    (h : gridPhase P s = .ok s') (u : Vec K) :
    gridPhase (fasterPar u P) { dyn := s.dyn, L := faster u s.L, G := s.G }
      = .ok { dyn := s'.dyn, L := faster u s'.L, G := fasterGrid u s'.G } ∧
    (∀ mp ∈ points s'.L, Carried P.G.nx P.M_tol s'.G.m mp) ∧ Counted s'.L := by
  obtain ⟨T, e1⟩ := gridPhase_ok h
  have hch := T.check h
  have car := T.carried hP hG hL hx hh
  have cc := (T.rel hL).2.2.2.1
  have cd := (T.rel hL).2.2.2.2
  have hGb : T.Gb = T.Ga := by rw [T.hGb, hcy]; rfl
  have ea := updateForces_faster u P T.d.g s.L
  rw [T.ha, res_map_ok] at ea
  have eb := reference_faster u P.G s.G.wipe T.La
  rw [T.hb, res_map_ok] at eb
  have ec := basis_faster u s.G.wipe T.Lb
  rw [T.hc, res_map_ok] at ec
  have er : whenSet P.check_positions (recoverPositions P.G.nx s.G.wipe) (faster u T.Lc)
      = .ok (faster u T.Lc) := by
    have := whenSet_moved (c := P.check_positions) (φ := faster u) T.Lc
      fun _ => recover_faster u P.G.nx s.G.wipe T.Lc
    rw [this, hch]; rfl
  have hz : fasterGrid u s.G.wipe = s.G.wipe := by
    have : (fun k => s.G.wipe.q k + s.G.wipe.m k • u) = s.G.wipe.q := by
      funext k
      change (0 : Vec K) + (0 : K) • u = 0
      rw [zero_smul, add_zero]
    exact congrArg (fun q => { s.G.wipe with q := q }) this
  have em := nodalMass_faster u hseg P.G.s (G := s.G.wipe) hw T.hGa hz
  have es := stressStrainAll_faster (nx := P.G.nx) (ny := P.G.ny) u P T.d P.G.s T.Lc cc T.Ga car
  have hLd := T.hLd
  rw [hGb] at hLd
  rw [hLd, res_map_ok] at es
  have ef := forces_faster (nx := P.G.nx) (ny := P.G.ny) u (P := P) T.Ld T.Gc
  rw [T.hGd, res_map_ok] at ef
  refine ⟨?_, ?_, ?_⟩
  · have hd := T.hd
    rw [e1]
    unfold gridPhase
    refine res_bind_ok.2 ⟨faster u T.La, by rw [hd] at ea; exact ea, ?_⟩
    refine res_bind_ok.2 ⟨faster u T.Lb, eb, ?_⟩
    refine res_bind_ok.2 ⟨faster u T.Lc, ec, ?_⟩
    refine res_bind_ok.2 ⟨faster u T.Lc, er, ?_⟩
    refine res_bind_ok.2 ⟨fasterGrid u T.Ga, em, ?_⟩
    dsimp only
    rw [if_neg (by rw [hcy]; exact Bool.false_ne_true)]
    rw [hd] at es
    refine res_bind_ok.2 ⟨_, es, ?_⟩
    refine res_bind_ok.2 ⟨_, ef, ?_⟩
    rw [hd]
    rfl
  · intro b hb
    rw [e1] at hb ⊢
    have rd := updateStressStrain_frame cc T.hLd
    obtain ⟨a, ha, ph, k, -⟩ := forall₂_right rd.points hb
    have c := car a ha
    obtain ⟨-, -, -, -, -, em⟩ := T.static
    rw [hGb] at em
    change Carried P.G.nx P.M_tol T.Gd.m b
    rw [em]
    refine ⟨?_, ?_, ?_⟩
    · obtain ⟨nd, hnd⟩ := c.nodes
      refine ⟨nd, fun r => ⟨?_, (hnd r).2⟩⟩
      rw [← (hnd r).1]; unfold Particle.node; rw [k.n_star]
    · rw [k.N]; exact c.sumN
    · rw [k.Gs]; exact c.sumG
  · rw [e1]; exact cd

theorem BCs_faster {nx ny ns : ℕ} (u : Vec K) (B : BP K) (qv qh rho : K) (a0 : Bool)
    (G : Grid K (ny * nx) ns) :
    (fasterGrid u G).BCs B qv qh rho a0 = fasterGrid u <$> G.BCs B qv qh rho a0 := by
  unfold Grid.BCs
  refine ite_equiv rfl ?_
  dsimp only
  cases B.vertical_force <;> cases B.horizontal_force <;> exact ite_equiv rfl rfl

theorem updateMomentum_faster {nx ny ns : ℕ} (u : Vec K) (B : BP K) (damping : Bool) (dt v0 : K)
    (G : Grid K (ny * nx) ns) :
    (fasterGrid u G).updateMomentum B damping dt (v0 + u 0)
      = fasterGrid u (G.updateMomentum B damping dt v0) := by
  have hq : ((fasterGrid u G).updateMomentum B damping dt (v0 + u 0)).q
      = fun k => (G.updateMomentum B damping dt v0).q k + G.m k • u := by
    funext k
    unfold Grid.updateMomentum
    cases B.conveyor
    · exact add_right_comm _ _ _
    · simp only [if_true]
      by_cases hk : G.boundary_conveyor k = true
      · rw [if_pos hk, if_pos (show (fasterGrid u G).boundary_conveyor k = true from hk)]
        funext i
        by_cases hi : i = 0
        · subst hi
          simp [fasterGrid]
          ring
        · exact (Function.update_of_ne hi _ _).trans ((congrFun (add_right_comm (G.q k) (G.m k • u) _)
            i).trans (congrArg (· + (G.m k • u) i) (Function.update_of_ne hi _ _).symm))
      · rw [if_neg hk, if_neg (show ¬ (fasterGrid u G).boundary_conveyor k = true from hk)]
        exact add_right_comm _ _ _
  exact congrArg (fun q => { G.updateMomentum B damping dt v0 with q := q }) hq

/-- What a step does to the faster material, written with its result on the original one. -/
def Spec.FasterStep (u : Vec K) (dt : K) (s' : St P) (t : St (fasterPar u P)) : Prop :=
  t.dyn = s'.dyn ∧ t.L = carried dt u s'.L ∧
  t.G = { fasterGrid u s'.G with
    vis := Function.update s'.G.vis .gammadot (t.G.vis .gammadot) }

/-- C96.  A common velocity is not noticed: all strains, stresses, forces and rates of momentum are
the same, momenta differ by `m u`, velocities by `u` and the displacements by `dt u`. -/
theorem c96_step (hP : GoodGrid P.G) (hB : OpenEnds P.B) (hseg : P.segregate_grid = false)
    (hL : Counted s.L) (hG : Geometry P.G s.G) (hw : NoWalls s.G)
    (hx : ∀ mp ∈ points s.L, InDomain P.G mp.x) (hh : Heavy P.G P.M_tol s.L)
    {interp : Interp K P.G.N} (h : timeMarch P interp s = .ok s') (u : Vec K) :
    ∃ t, timeMarch (fasterPar u P) interp { dyn := s.dyn, L := faster u s.L, G := s.G } = .ok t ∧
      FasterStep u s.dyn.dt s' t := by
  obtain ⟨s1, s2, s3, h1, h2, h3, h4⟩ := timeMarch_ok h
  obtain ⟨f1, car, c1⟩ := gridPhase_faster hP hB.cyclic hseg hL hG hw hx hh h1 u
  have hdt : s1.dyn.dt = s.dyn.dt := by
    obtain ⟨T, e1⟩ := gridPhase_ok h1
    rw [e1]; change T.d.dt = _; rw [T.hd]; rfl
  unfold momentumPhase at h2
  obtain ⟨G1, g1, h2⟩ := res_bind_ok.1 h2
  cases h2
  have em1 : G1.m = s1.G.m := by rw [BCs_frame g1]
  unfold segregationPhase at h3
  rw [if_neg (by rw [hseg]; exact Bool.false_ne_true)] at h3
  cases h3
  unfold pointsPhase whenSet at h4
  simp only [hB.outlet_left, hB.outlet_bottom, hB.inlet_right, hB.inlet_top, hB.cyclic,
      Bool.false_eq_true, if_false, res_ok_bind] at h4
  obtain ⟨L1, m1, h4⟩ := res_bind_ok.1 h4
  cases h4
  have b1 := BCs_faster (nx := P.G.nx) (ny := P.G.ny) u P.B s1.dyn.q_v s1.dyn.q_h
    (((mat0 (faster u s1.L)).map (·.rho)).getD 0) (P.aniso && decide (s1.dyn.t = 0)) s1.G
  rw [mat0_faster, g1, res_map_ok] at b1
  have b2 := updateMomentum_faster (nx := P.G.nx) (ny := P.G.ny) u P.B P.damping s1.dyn.dt P.v_0 G1
  generalize hGm : G1.updateMomentum (nx := P.G.nx) (ny := P.G.ny) P.B P.damping s1.dyn.dt P.v_0 = Gm
    at m1 b2
  have emm : Gm.m = s1.G.m := by rw [← hGm, ← em1]; rfl
  have hm : movePoints P.G.nx P.M_tol s1.dyn.dt P.intruder_v Gm s1.L = .ok L1 := m1
  have b3 := movePoints_faster (nx := P.G.nx) (dt := s1.dyn.dt) P.M_tol_nonneg u P.intruder_v Gm s1.L c1
    (by rw [emm]; exact car)
  rw [hm, res_map_ok] at b3
  let Gf : Grid K P.G.N P.G.ns := Grid.calcGammadot (nx := P.G.nx) (ny := P.G.ny) interp P.ops.big P.M_tol
    (fasterGrid u Gm)
  refine ⟨{ dyn := s1.dyn, L := carried s1.dyn.dt u L1, G := Gf }, ?_, rfl, by rw [hdt], ?_⟩
  · unfold timeMarch
    refine res_bind_ok.2 ⟨_, f1, ?_⟩
    refine res_bind_ok.2 ⟨{ dyn := s1.dyn, L := faster u s1.L, G := Gf }, ?_, ?_⟩
    · unfold momentumPhase
      refine res_bind_ok.2 ⟨fasterGrid u G1, ?_, ?_⟩
      · change Grid.BCs (nx := P.G.nx) (ny := P.G.ny) P.B s1.dyn.q_v s1.dyn.q_h
          (((mat0 (faster u s1.L)).map (·.rho)).getD 0) (P.aniso && decide (s1.dyn.t = 0))
          (fasterGrid u s1.G) = _
        rw [mat0_faster]
        exact b1
      · exact congrArg (fun H : Grid K P.G.N P.G.ns => (Except.ok (St.mk s1.dyn (faster u s1.L)
          (Grid.calcGammadot (nx := P.G.nx) (ny := P.G.ny) interp P.ops.big P.M_tol H)) :
            Res (St (fasterPar u P)))) b2
    · refine res_bind_ok.2 ⟨{ dyn := s1.dyn, L := faster u s1.L, G := Gf }, ?_, ?_⟩
      · unfold segregationPhase
        rw [if_neg (by change ¬ P.segregate_grid = true; rw [hseg]; exact Bool.false_ne_true)]
      · unfold pointsPhase whenSet
        simp only [hB.outlet_left, hB.outlet_bottom, hB.inlet_right, hB.inlet_top, hB.cyclic,
          Bool.false_eq_true, if_false, res_ok_bind]
        exact res_bind_ok.2 ⟨_, b3, rfl⟩
  · have : ∀ (V : Vis → Fin P.G.N → XF K) (a b : Fin P.G.N → XF K),
        Function.update V .gammadot a
          = Function.update (Function.update V .gammadot b) .gammadot
            (Function.update V .gammadot a .gammadot) := fun V a b => by
      rw [Function.update_idem, Function.update_self]
    exact congrArg (fun V => { fasterGrid u Gm with vis := V }) (this Gm.vis _ _)

end
/-! ## The hypotheses can be met -/

/-- Four points with two laws. -/
example : ∃ s s' : St Ex.par,
    GoodGrid Ex.par.G ∧ OpenEnds Ex.par.B ∧ Ex.par.segregate_grid = false ∧ Counted s.L ∧
    Geometry Ex.par.G s.G ∧ NoWalls s.G ∧ (∀ mp ∈ points s.L, InDomain Ex.gp mp.x) ∧
    Heavy Ex.gp Ex.par.M_tol s.L ∧ timeMarch Ex.par (Ex.noInterp _) s = .ok s' := by
  obtain ⟨G, s', hG, hs, -⟩ := Ex.run_one (P := Ex.par) (d := Ex.dyn) (L := Ex.freeL)
    (check := fun _ => true) (by decide +kernel)
  obtain ⟨G0, s0, hG0, hs0, hc0⟩ := Ex.run_ok (P := Ex.par) (d := Ex.dyn) (L := Ex.freeL) (n := 0)
    (check := fun s => Ex.stays s && decide (∀ k, s.G.boundary_v k = false ∧
      s.G.boundary_h k = false)) (by decide +kernel)
  rw [hG] at hG0
  cases hG0; cases hs0
  rw [Bool.and_eq_true] at hc0
  have hw : ∀ k, G.boundary_v k = false ∧ G.boundary_h k = false := of_decide_eq_true hc0.2
  have hcnt : ∀ a ∈ Ex.freeL, a.ph.n = a.pts.length := by decide +kernel
  obtain ⟨hx, hh⟩ := Ex.stays_ok hc0.1
  exact ⟨{ dyn := Ex.dyn, L := Ex.freeL, G := G }, s', Ex.good, ⟨rfl, rfl, rfl, rfl, rfl⟩, rfl, hcnt, mkGrid_geometry hG, hw, hx, hh, hs⟩

/-- One slow point near a node, with a tolerance that the far nodes do not reach. -/
def Ex.parLight : Par ℚ := { Ex.par with M_tol := 1 / 2, M_tol_nonneg := by norm_num }

def Ex.oneL : List (PhaseSt ℚ 2) :=
  [{ ph := { Ex.ph with n := 1 }, pts := [{ Ex.mp with x := ![1/4, 1/4, 0], v := .own 0 }] }]

/-- C96.  A node below the tolerance counts as being at rest, so near the surface of the material a
common velocity is noticed: a point that would not strain at rest is strained by moving. -/
theorem c96_light : ∃ (G : Grid ℚ Ex.parLight.G.N 2) (s' t : St Ex.parLight) (a b : Particle ℚ 2),
    mkGrid Ex.parLight.G Ex.parLight.B = .ok G ∧
    timeMarch Ex.parLight (Ex.noInterp _) { dyn := Ex.dyn, L := Ex.oneL, G := G } = .ok s' ∧
    timeMarch Ex.parLight (Ex.noInterp _)
      { dyn := Ex.dyn, L := faster ![1, 0, 0] Ex.oneL, G := G } = .ok t ∧
    points s'.L = [a] ∧ points t.L = [b] ∧ a.strain = 0 ∧ b.strain 0 0 ≠ 0 := by
  obtain ⟨G, s', hG, hs, hc⟩ := Ex.run_one (P := Ex.parLight) (d := Ex.dyn) (L := Ex.oneL)
    (check := fun s => decide ((points s.L).length = 1) &&
      (points s.L).all fun mp => decide (mp.strain = 0)) (by decide +kernel)
  obtain ⟨G', t, hG', ht, hc'⟩ := Ex.run_one (P := Ex.parLight) (d := Ex.dyn)
    (L := faster ![1, 0, 0] Ex.oneL) (check := fun s => decide ((points s.L).length = 1) &&
      (points s.L).all fun mp => decide (mp.strain 0 0 ≠ 0)) (by decide +kernel)
  rw [hG] at hG'
  cases hG'
  rw [Bool.and_eq_true, List.all_eq_true] at hc hc'
  obtain ⟨a, ha⟩ := List.length_eq_one_iff.1 (of_decide_eq_true hc.1)
  obtain ⟨b, hb⟩ := List.length_eq_one_iff.1 (of_decide_eq_true hc'.1)
  refine ⟨G, s', t, a, b, hG, hs, ht, ha, hb, of_decide_eq_true (hc.2 a (by rw [ha]; simp)),
    of_decide_eq_true (hc'.2 b (by rw [hb]; simp))⟩

end Mpm

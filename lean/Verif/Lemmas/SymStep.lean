import Verif.Lemmas.SymSeg
import Verif.Lemmas.Step
import Verif.Props.Translate

/-! Symmetries of the grid: a whole time step. -/

set_option linter.unusedSectionVars false

namespace Mpm
open Spec

namespace Spec
section
variable {K : Type} [Field K] [LinearOrder K] [FloorRing K] {ns : ℕ}

/-- On points at positions satisfying `Q` the search for the cell and the weights follow the
relabelling. -/
structure Sym.Geo (P : GP K) (S : Sym K P.nx P.ny) (Q : Vec K → Prop) : Prop where
  ref : ∀ {ns : ℕ} (mp : Particle K ns), Q mp.x →
    (S.pt mp).getReferenceNode (S.gp P) (if S.A.swap then cellY P else cellX P)
      (if S.A.swap then cellX P else cellY P) = S.pt <$> mp.getReferenceNode P (cellX P) (cellY P)
  cell : ∀ {ns : ℕ} (mp mp' : Particle K ns), Q mp.x →
    mp.getReferenceNode P (cellX P) (cellY P) = .ok mp' → IsCell P.nx P.ny mp'.n_star
  basis : ∀ {ns : ℕ} (s : K) (G : Grid K P.N ns) (mp : Particle K ns), Geometry P G →
    IsCell P.nx P.ny mp.n_star →
    (S.pt mp).getBasisFunctions (S.grid s G) = S.pt <$> mp.getBasisFunctions G
  wrap : S.A.swap = false → ∀ x, wrapX (S.gp P) (S.A.fx * x + S.c 0) = S.A.fx * wrapX P x + S.c 0
  c2 : S.c 2 = 0

/-- The state. -/
def Sym.st {P : Par K} (S : Sym K P.G.nx P.G.ny) (B' : BP K) (r : K) (s : St P) : St (S.par P B') :=
  { dyn := { s.dyn with
      q_v := if S.A.swap then s.dyn.q_h else s.dyn.q_v
      q_h := if S.A.swap then s.dyn.q_v else s.dyn.q_h }
    L := S.pts s.L
    G := S.grid r s.G }

end
end Spec

section
variable {K : Type} [Field K] [LinearOrder K] [IsStrictOrderedRing K] [FloorRing K]

/-! ### Lists of points -/

section
variable {ns nx ny : ℕ} {S : Sym K nx ny} {r : K}

theorem mat0_sym (L : List (PhaseSt K ns)) : mat0 (S.pts L) = mat0 L := by cases L <;> rfl

theorem mapPoints_sym {f f' : ℕ → Phase K ns → Particle K ns → Res (Particle K ns)}
    {Q : Particle K ns → Prop} (h : ∀ p ph mp, Q mp → f' p (S.ph ph) (S.pt mp) = S.pt <$> f p ph mp)
    (L : List (PhaseSt K ns)) (hL : AllPts Q L) :
    mapPoints f' (S.pts L) = S.pts <$> mapPoints f L :=
  mapPoints_equiv_all (θ := S.ph) (fun _ => rfl) h L hL

theorem mapPoints_allPts {f : ℕ → Phase K ns → Particle K ns → Res (Particle K ns)}
    {Q Q' : Particle K ns → Prop} (h : ∀ p ph mp mp', Q mp → f p ph mp = .ok mp' → Q' mp')
    {L L' : List (PhaseSt K ns)} (hc : Counted L) (hL : AllPts Q L) (hf : mapPoints f L = .ok L') :
    AllPts Q' L' ∧ Counted L' := by
  have hr := mapPoints_raw hc hf
  exact ⟨AllPts.step (fun ph a b ⟨p, e⟩ hq => h p ph a b hq e) hr hL, hr.counted hc⟩

/-- Every point refers to a cell. -/
abbrev Spec.CellPts (nx ny : ℕ) (L : List (PhaseSt K ns)) : Prop :=
  AllPts (fun mp => IsCell nx ny mp.n_star) L

theorem p2gAll_sym (hS : S.Corners) (seg : Bool) {L : List (PhaseSt K ns)} (hc : Counted L)
    (hL : CellPts nx ny L) (G : Grid K (ny * nx) ns) :
    p2gAll S.nx' seg (S.pts L) (S.grid r G) = S.grid r <$> p2gAll nx seg L G := by
  refine foldPhases_equiv_mem (φ := mapPts S.pt S.ph) L (fun a ha G => ?_) G
  change foldN _ a.ph.n (a.pts.map S.pt) _ = _
  rw [hc a ha]
  refine foldN_equiv_mem (φ := S.pt) a.pts (fun mp hmp G => ?_) G
  have hv : (S.pt mp).v.get (S.ph a.ph).iv = S.A.v (mp.v.get a.ph.iv) := get_sym S.A mp.v a.ph.iv
  change Particle.p2g S.nx' seg ((S.pt mp).v.get (S.ph a.ph).iv) (S.pt mp) (S.grid r G) = _
  rw [hv]
  exact p2g_sym hS seg _ (hL a ha mp hmp) G

theorem forcesAll_sym (hS : S.Corners) {L : List (PhaseSt K ns)} (hc : Counted L)
    (hL : CellPts nx ny L) (G : Grid K (ny * nx) ns) :
    nodalForcesAll S.nx' (S.pts L) (S.grid r G) = S.grid r <$> nodalForcesAll nx L G := by
  refine foldPhases_equiv_mem (φ := mapPts S.pt S.ph) L (fun a ha G => ?_) G
  change foldN _ a.ph.n (a.pts.map S.pt) _ = _
  rw [hc a ha]
  exact foldN_equiv_mem (φ := S.pt) a.pts (fun mp hmp G => nodalForces_sym hS (hL a ha mp hmp) G) G

theorem movePoints_sym (hS : S.Corners) (M_tol dt : K) (v : Vec K) {L : List (PhaseSt K ns)}
    (hc : Counted L) (hL : CellPts nx ny L) (G : Grid K (ny * nx) ns) :
    movePoints S.nx' M_tol dt (S.A.v v) (S.grid r G) (S.pts L) =
      S.pts <$> movePoints nx M_tol dt v G L := by
  refine mapPhases_equiv_mem (φ := mapPts S.pt S.ph) 0 L fun _ a ha => ?_
  refine ite_equiv ?_ ?_
  · refine res_bind_map (f := List.map S.pt) (mapN_equiv (fun mp => ?_) a.ph.n a.pts)
      fun _ _ => rfl
    exact congrArg Except.ok (moveRigid_sym dt v mp)
  · refine res_bind_map (f := Prod.map (List.map S.pt) S.A.v) ?_ fun _ _ => rfl
    change forN _ a.ph.n (a.pts.map S.pt) (S.A.v a.ph.iv) = _
    rw [hc a ha]
    exact forN_equiv_mem (φ := S.pt) a.pts (fun mp hmp iv => move_sym hS M_tol dt G (hL a ha mp hmp) iv) a.ph.iv

theorem recover_eq {N nx : ℕ} {G : Grid K N ns} {mp : Particle K ns} {nd : Fin 4 → Fin N}
    (h : ∀ q, mp.node nx N q = .ok (nd q)) :
    mp.recoverPosition nx G = .ok (∑ q, mp.N q • ![G.X (nd q), G.Y (nd q), 0]) := by
  unfold Particle.recoverPosition for4
  simp only [h, res_ok_bind, res_pure]
  refine congrArg Except.ok ?_
  rw [Fin.sum_univ_four]
  simp only [zero_add]

theorem checkPosition_sym (hS : S.Corners) (h2 : S.c 2 = 0) (G : Grid K (ny * nx) ns)
    {mp : Particle K ns} (h : IsCell nx ny mp.n_star) (hN : mp.N 0 + mp.N 1 + mp.N 2 + mp.N 3 = 1) :
    (S.pt mp).checkPosition S.nx' (S.grid r G) = S.pt <$> mp.checkPosition nx G := by
  obtain ⟨nd, h1, h1'⟩ := S.nodes hS h
  have hx : (∑ q, (S.pt mp).N q • ![(S.grid r G).X (S.e (nd (S.σ q))), (S.grid r G).Y (S.e (nd (S.σ q))), 0]) =
      S.A.v (∑ q, mp.N q • ![G.X (nd q), G.Y (nd q), 0]) + S.c := by
    have e : ∀ n, (![(S.grid r G).X (S.e n), (S.grid r G).Y (S.e n), 0] : Vec K) =
        S.A.v ![G.X n, G.Y n, 0] + S.c := by
      intro n
      have c0 : (S.grid r G).X (S.e n) = S.A.v ![G.X n, G.Y n, 0] 0 + S.c 0 :=
        congrArg (fun k => S.A.v ![G.X k, G.Y k, 0] 0 + S.c 0) (S.e.symm_apply_apply n)
      have c1 : (S.grid r G).Y (S.e n) = S.A.v ![G.X n, G.Y n, 0] 1 + S.c 1 :=
        congrArg (fun k => S.A.v ![G.X k, G.Y k, 0] 1 + S.c 1) (S.e.symm_apply_apply n)
      rw [c0, c1]
      funext i
      fin_cases i
      · rfl
      · rfl
      · change (0 : K) = S.A.v _ 2 + S.c 2
        rw [v_two_comp, h2, add_zero]
        rfl
    simp only [e]
    have hs : (∑ q, (S.pt mp).N q • (S.A.v ![G.X (nd (S.σ q)), G.Y (nd (S.σ q)), 0] + S.c)) =
        ∑ q, mp.N q • (S.A.v ![G.X (nd q), G.Y (nd q), 0] + S.c) :=
      Equiv.sum_comp S.σ (fun q => mp.N q • (S.A.v ![G.X (nd q), G.Y (nd q), 0] + S.c))
    rw [hs]
    simp only [smul_add, Finset.sum_add_distrib, ← Finset.sum_smul, ← S.A.v_smul, ← S.A.v_sum]
    have h4 : (∑ q, mp.N q) = 1 := by rw [Fin.sum_univ_four]; exact hN
    rw [h4, one_smul]
  unfold Particle.checkPosition
  rw [recover_eq h1, recover_eq h1', res_ok_bind, res_ok_bind, hx]
  generalize (∑ q, mp.N q • ![G.X (nd q), G.Y (nd q), 0] : Vec K) = y
  have hc : (∃ k, (1 / 10 ^ 10 : K) < |(S.A.v y + S.c) k - (S.pt mp).x k|) ↔
      ∃ k, (1 / 10 ^ 10 : K) < |y k - mp.x k| := by
    have e : ∀ k, |(S.A.v y + S.c) k - (S.pt mp).x k| = |y (S.A.p k) - mp.x (S.A.p k)| := by
      intro k
      have : (S.A.v y + S.c) k - (S.pt mp).x k = S.A.f k * (y (S.A.p k) - mp.x (S.A.p k)) := by
        change S.A.f k * y (S.A.p k) + S.c k - (S.A.f k * mp.x (S.A.p k) + S.c k) = _
        ring
      rw [this, abs_mul]
      rcases S.A.f_cases k with h | h <;> rw [h] <;> simp
    simp only [e]
    constructor
    · rintro ⟨k, hk⟩; exact ⟨_, hk⟩
    · rintro ⟨k, hk⟩; exact ⟨S.A.p.symm k, by rwa [Equiv.apply_symm_apply]⟩
  simp only [hc]
  exact ite_equiv rfl rfl

end

section
variable {P : Par K} {S : Sym K P.G.nx P.G.ny} {B' : BP K} {r : K} {Q : Vec K → Prop}

theorem body_sym (g : K) : bodyForce (S.par P B') g = S.A.v (bodyForce P g) := by
  funext i
  fin_cases i
  · change g * (S.A.fx * if S.A.swap then P.cosθ else P.sinθ) = S.A.v _ 0
    rw [v_zero_comp]
    cases S.A.swap
    · change g * (S.A.fx * P.sinθ) = S.A.fx * (g * P.sinθ); ring
    · change g * (S.A.fx * P.cosθ) = S.A.fx * (g * P.cosθ); ring
  · change g * (S.A.fy * if S.A.swap then P.sinθ else P.cosθ) = S.A.v _ 1
    rw [v_one_comp]
    cases S.A.swap
    · change g * (S.A.fy * P.cosθ) = S.A.fy * (g * P.cosθ); ring
    · change g * (S.A.fy * P.sinθ) = S.A.fy * (g * P.sinθ); ring
  · rw [show S.A.v (bodyForce P g) ((fun i => i) ⟨2, by decide⟩) = _ from v_two_comp S.A _]
    rfl

theorem updateForces_sym (g : K) (L : List (PhaseSt K P.G.ns)) :
    updateForces (S.par P B') g (S.pts L) = S.pts <$> updateForces P g L := by
  refine mapPoints_sym (Q := fun _ => True) (fun p ph mp _ => ?_) L (fun _ _ _ _ => trivial)
  unfold Particle.incrementGravity
  by_cases h : p = 0
  · rw [if_pos h, if_pos h, body_sym]; rfl
  · rw [if_neg h, if_neg h]; rfl

theorem nodalMass_sym (hS : S.Corners) (hB : S.Flags P.B B') {L : List (PhaseSt K P.G.ns)}
    (hc : Counted L) (hL : CellPts P.G.nx P.G.ny L) (G : Grid K P.G.N P.G.ns) :
    getNodalMassMomentum (S.par P B') P.G.s (S.pts L) (S.grid r G) =
      S.grid r <$> getNodalMassMomentum P P.G.s L G := by
  refine res_bind_map (f := S.grid r) (p2gAll_sym hS P.segregate_grid hc hL G) fun G _ => ?_
  have hr : (S.par P B').B.roughness = P.B.roughness := hB.rough
  rw [hr]
  change (Except.ok ((if P.segregate_grid = true then (S.grid r G).nodalFractions P.ops.big P.G.s
    else S.grid r G).zeroBoundaryMomentum P.B.roughness) : Res _) = _
  cases P.segregate_grid
  · exact congrArg Except.ok (zeroBoundary_sym P.B.roughness G)
  · exact congrArg Except.ok (zeroBoundary_sym P.B.roughness (G.nodalFractions P.ops.big P.G.s))

theorem runLaw_height {ns : ℕ} {law : Law} (h : law ≠ .ken_kamrin) (c : LawCtx K ns) (H : K)
    (mp : Particle K ns) : runLaw law { c with height := H } mp = runLaw law c mp := by
  cases law
  case ken_kamrin => exact absurd rfl h
  all_goals rfl

/-- The law that uses the height of the domain is not among the laws, or the height does not
change. -/
def Spec.Sym.HeightOk (P : Par K) (S : Sym K P.G.nx P.G.ny) (L : List (PhaseSt K P.G.ns)) : Prop :=
  S.A.swap = true → P.G.x_M - P.G.x_m = P.G.y_M - P.G.y_m ∨ ∀ a ∈ L, a.ph.law ≠ .ken_kamrin

theorem updateStress_height {ns N nx : ℕ} {law : Law} {c c' : LawCtx K ns}
    (h : c' = c ∨ (law ≠ .ken_kamrin ∧ ∃ H, c' = { c with height := H })) (M_tol : K)
    (G : Grid K N ns) (mp : Particle K ns) (vis : Vis → Fin N → XF K) :
    mp.stressStrain nx M_tol G law c' vis = mp.stressStrain nx M_tol G law c vis := by
  rcases h with rfl | ⟨hl, H, rfl⟩
  · rfl
  · unfold Particle.stressStrain Particle.updateStress
    simp only [runLaw_height hl]

theorem stressAll_sym (hS : S.Ok) (hB : S.Flags P.B B') (d : Dyn K) (d' : Dyn K) (hd : d'.t = d.t)
    (hd' : d'.dt = d.dt) {L : List (PhaseSt K P.G.ns)} (hH : S.HeightOk P L)
    (hc : Counted L) (hL : CellPts P.G.nx P.G.ny L) (G : Grid K P.G.N P.G.ns) :
    updateStressStrain (nx := S.nx') (ny := S.ny') (S.par P B') d' P.G.s (S.pts L) (S.grid 1 G) =
      Prod.map S.pts (S.grid 1) <$> updateStressStrain (nx := P.G.nx) (ny := P.G.ny) P d P.G.s L G := by
  refine res_bind_map (f := Prod.map S.pts (S.vis 1)) (forPhases_equiv_mem (ψ := S.vis 1)
    (φ := mapPts S.pt S.ph) 0 L (fun p a ha vis => ?_) G.vis) fun x _ => ?_
  · refine res_bind_map (f := Prod.map (List.map S.pt) (S.vis 1)) ?_ fun _ _ => rfl
    change forN _ a.ph.n (a.pts.map S.pt) _ = _
    rw [hc a ha]
    refine forN_equiv_mem (φ := S.pt) a.pts (fun mp hmp vis => ?_) vis
    refine Eq.trans ?_ (stressStrain_sym (s := 1) hS.corners P.M_tol G a.ph.law (lawCtx P d P.G.s
      ((mat0 L).getD a.ph.par) p a.ph) (hL a ha mp hmp) vis)
    change Particle.stressStrain S.nx' P.M_tol (S.grid 1 G) a.ph.law
      (lawCtx (S.par P B') d' P.G.s ((mat0 (S.pts L)).getD a.ph.par) p (S.ph a.ph)) (S.pt mp) _ = _
    rw [mat0_sym]
    refine updateStress_height ?_ _ _ _ _
    by_cases hw : S.A.swap = true
    · rcases hH hw with h | h
      · left
        unfold lawCtx
        have e1 : (S.par P B').G.y_M = P.G.x_M := if_pos hw
        have e2 : (S.par P B').G.y_m = P.G.x_m := if_pos hw
        rw [e1, e2, h, hd, hd']
        rfl
      · right
        refine ⟨h a ha, (S.par P B').G.y_M - (S.par P B').G.y_m, ?_⟩
        unfold lawCtx
        rw [hd, hd']
        rfl
    · left
      unfold lawCtx
      have e1 : (S.par P B').G.y_M = P.G.y_M := if_neg hw
      have e2 : (S.par P B').G.y_m = P.G.y_m := if_neg hw
      rw [e1, e2, hd, hd']
      rfl
  · refine congrArg (fun G' => (Except.ok (S.pts x.1, G') : Res _)) ?_
    have hcy : (S.par P B').B.cyclic_lr = P.B.cyclic_lr := hB.cyc
    change (if (S.par P B').B.cyclic_lr = true then _ else _) = S.grid 1 (if P.B.cyclic_lr = true then _ else _)
    rw [hcy]
    by_cases hb : P.B.cyclic_lr = true
    · rw [if_pos hb, if_pos hb]
      exact cyclicVis_sym hS (hB.cyc_ok hb) cyclicVis (fun _ => Or.inl rfl) { G with vis := x.2 }
    · rw [if_neg hb, if_neg hb]
      rfl

theorem forces_sym (hS : S.Ok) (hB : S.Flags P.B B') {L : List (PhaseSt K P.G.ns)}
    (hc : Counted L) (hL : CellPts P.G.nx P.G.ny L) (G : Grid K P.G.N P.G.ns) :
    getNodalForces (nx := S.nx') (ny := S.ny') (S.par P B') (S.pts L) (S.grid r G) =
      S.grid r <$> getNodalForces (nx := P.G.nx) (ny := P.G.ny) P L G := by
  refine res_bind_map (f := S.grid r) (forcesAll_sym hS.corners hc hL G) fun G _ => ?_
  refine congrArg Except.ok ?_
  have hcy : (S.par P B').B.cyclic_lr = P.B.cyclic_lr := hB.cyc
  rw [hcy]
  by_cases hb : P.B.cyclic_lr = true
  · rw [if_pos hb, if_pos hb]
    exact cyclicForces_sym hS (hB.cyc_ok hb) G
  · rw [if_neg hb, if_neg hb]

end
end
end Mpm

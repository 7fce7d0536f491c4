import Verif.Lemmas.AxesLaw
import Verif.Lemmas.Move
import Verif.Lemmas.Track
import Verif.Props.Boost
import Verif.Props.Light

/-! Symmetries of the grid: what they do to points, grids and the loops over points. -/

set_option linter.unusedSectionVars false

namespace Mpm
open Spec

namespace Spec
section
variable {K : Type} [Field K] [LinearOrder K] {ns nx ny : ℕ}

/-- A relabelling of the nodes that goes with a change of axes: `e` says where a node goes, `cell`
where a cell (given by its lower left node) goes and `σ` which corner of the old cell becomes the
`r`-th corner of the new one. -/
structure Sym (K : Type) [Field K] (nx ny : ℕ) where
  A : Axes K
  c : Vec K
  nx' : ℕ
  ny' : ℕ
  e : Fin (ny * nx) ≃ Fin (ny' * nx')
  cell : ℤ → ℤ
  σ : Equiv.Perm (Fin 4)

variable (S : Sym K nx ny)

/-- Positions, velocities, ... of a point. -/
def Sym.kin : Kin K :=
  { x := fun x => S.A.v x + S.c, v := S.A.ref, b := S.A.v, N := fun N r => N (S.σ r)
    Gs := fun Gs r => S.A.v (Gs (S.σ r)), n := S.cell }

/-- A point. -/
def Sym.pt (mp : Particle K ns) : Particle K ns := S.A.pt S.kin mp

/-- A phase: only the shared initial velocity has components. -/
def Sym.ph (ph : Phase K ns) : Phase K ns := { ph with iv := S.A.v ph.iv }

/-- All points. -/
abbrev Sym.pts (L : List (PhaseSt K ns)) : List (PhaseSt K ns) := L.map (mapPts S.pt S.ph)

/-- The nodal fields; `s` is the sign of the shear rate. -/
def Sym.vis (s : K) (vis : Vis → Fin (ny * nx) → XF K) : Vis → Fin (S.ny' * S.nx') → XF K :=
  fun v k => if v = .gammadot then signX s (vis v (S.e.symm k)) else vis (S.A.vis v) (S.e.symm k)

/-- The grid. -/
def Sym.grid (s : K) (G : Grid K (ny * nx) ns) : Grid K (S.ny' * S.nx') ns :=
  { dx := if S.A.swap then G.dy else G.dx
    dy := if S.A.swap then G.dx else G.dy
    X := fun k => S.A.v ![G.X (S.e.symm k), G.Y (S.e.symm k), 0] 0 + S.c 0
    Y := fun k => S.A.v ![G.X (S.e.symm k), G.Y (S.e.symm k), 0] 1 + S.c 1
    boundary_v := fun k => if S.A.swap then G.boundary_h (S.e.symm k) else G.boundary_v (S.e.symm k)
    boundary_h := fun k => if S.A.swap then G.boundary_v (S.e.symm k) else G.boundary_h (S.e.symm k)
    boundary_tot := fun k => G.boundary_tot (S.e.symm k)
    boundary_conveyor := fun k => G.boundary_conveyor (S.e.symm k)
    V := fun k => G.V (S.e.symm k)
    fi := fun k => S.A.v (G.fi (S.e.symm k))
    fe := fun k => S.A.v (G.fe (S.e.symm k))
    m := fun k => G.m (S.e.symm k)
    q := fun k => S.A.v (G.q (S.e.symm k))
    q_dot := fun k => S.A.v (G.q_dot (S.e.symm k))
    ext_f := fun k => S.A.v (G.ext_f (S.e.symm k))
    vis := S.vis s G.vis
    s_bar := fun k => G.s_bar (S.e.symm k)
    dphi := fun k => G.dphi (S.e.symm k)
    pk := fun k => G.pk (S.e.symm k)
    dpk := fun k => G.dpk (S.e.symm k)
    pkm := fun k => G.pkm (S.e.symm k)
    grad_pk := fun k => S.A.v (G.grad_pk (S.e.symm k))
    phim := fun k => G.phim (S.e.symm k)
    phi := fun k => G.phi (S.e.symm k) }

/-- `n` is the lower left node of a cell. -/
def IsCell (nx ny : ℕ) (n : ℤ) : Prop :=
  ∃ ix iy : ℕ, ix + 1 < nx ∧ iy + 1 < ny ∧ n = (ix : ℤ) + iy * nx

/-- The corners of cells go where the symmetry says. -/
def Sym.Corners : Prop :=
  ∀ n, IsCell nx ny n → ∃ nd : Fin 4 → Fin (ny * nx),
    (∀ r, pyIdx (ny * nx) (nearbyNodes nx n r) = .ok (nd r)) ∧
    ∀ r, pyIdx (S.ny' * S.nx') (nearbyNodes S.nx' (S.cell n) r) = .ok (S.e (nd (S.σ r)))

end
end Spec

/-! ### Loops -/

section
variable {K : Type} [Field K] [LinearOrder K] {ns : ℕ}

theorem foldN_equiv_mem {α β σ τ : Type} {f : α → σ → Res σ} {f' : β → τ → Res τ} {φ : α → β}
    {ψ : σ → τ} (l : List α) (h : ∀ a ∈ l, ∀ s, f' (φ a) (ψ s) = ψ <$> f a s) (s : σ) :
    foldN f' l.length (l.map φ) (ψ s) = ψ <$> foldN f l.length l s := by
  induction l generalizing s with
  | nil => rfl
  | cons a l ih =>
    exact res_bind_map (h a (by simp) s) fun s' _ => ih (fun b hb => h b (by simp [hb])) s'

theorem foldPhases_equiv_mem {σ τ : Type} {f : PhaseSt K ns → σ → Res σ}
    {f' : PhaseSt K ns → τ → Res τ} {φ : PhaseSt K ns → PhaseSt K ns} {ψ : σ → τ}
    (L : List (PhaseSt K ns)) (h : ∀ a ∈ L, ∀ s, f' (φ a) (ψ s) = ψ <$> f a s) (s : σ) :
    foldPhases f' (L.map φ) (ψ s) = ψ <$> foldPhases f L s := by
  induction L generalizing s with
  | nil => rfl
  | cons a L ih =>
    exact res_bind_map (h a (by simp) s) fun s' _ => ih (fun b hb => h b (by simp [hb])) s'

/-- Every stored point satisfies `Q`. -/
def Spec.AllPts (Q : Particle K ns → Prop) (L : List (PhaseSt K ns)) : Prop :=
  ∀ a ∈ L, ∀ mp ∈ a.pts, Q mp

theorem AllPts.step {R : Phase K ns → Particle K ns → Particle K ns → Prop}
    {Q Q' : Particle K ns → Prop} (hR : ∀ ph a b, R ph a b → Q a → Q' b)
    {L L' : List (PhaseSt K ns)} (h : PtsRel R L L') (hQ : AllPts Q L) : AllPts Q' L' := by
  induction h with
  | nil => intro a ha; cases ha
  | @cons a a' L L' h _ ih =>
    intro b hb mp hmp
    rcases List.mem_cons.1 hb with rfl | hb
    · obtain ⟨i, hi⟩ := List.get_of_mem hmp
      have hl := h.2.length_eq
      have := h.2.get (i := i.1) (by rw [hl]; exact i.2) i.2
      rw [← hi]
      exact hR _ _ _ this (hQ a (by simp) _ (List.get_mem _ _))
    · exact ih (fun c hc => hQ c (by simp [hc])) b hb mp hmp

theorem mapPoints_equiv_all {f f' : ℕ → Phase K ns → Particle K ns → Res (Particle K ns)}
    {φ : Particle K ns → Particle K ns} {θ : Phase K ns → Phase K ns} {Q : Particle K ns → Prop}
    (hn : ∀ ph, (θ ph).n = ph.n) (h : ∀ p ph mp, Q mp → f' p (θ ph) (φ mp) = φ <$> f p ph mp)
    (L : List (PhaseSt K ns)) (hL : AllPts Q L) :
    mapPoints f' (L.map (mapPts φ θ)) = List.map (mapPts φ θ) <$> mapPoints f L :=
  mapPoints_equiv_of hn h L fun a ha mp hmp => hL a ha mp (List.mem_of_mem_take hmp)

end

section
variable {K : Type} [Field K] [LinearOrder K] [IsStrictOrderedRing K] [FloorRing K] {ns nx ny : ℕ}
  {S : Sym K nx ny} {s : K}

/-! ### Sums over corners -/

theorem Spec.Sym.sum_corners {M : Type} [AddCommMonoid M] (nd : Fin 4 → Fin (ny * nx))
    (f : Fin 4 → M) (k : Fin (S.ny' * S.nx')) :
    (∑ r, if S.e (nd (S.σ r)) = k then f (S.σ r) else 0) =
      ∑ r, if nd r = S.e.symm k then f r else 0 := by
  rw [← Equiv.sum_comp S.σ (fun r => if nd r = S.e.symm k then f r else 0)]
  simp only [Equiv.eq_symm_apply]

theorem Spec.Sym.nodes (hS : S.Corners) {mp : Particle K ns} (h : IsCell nx ny mp.n_star) :
    ∃ nd : Fin 4 → Fin (ny * nx), (∀ r, mp.node nx (ny * nx) r = .ok (nd r)) ∧
      ∀ r, (S.pt mp).node S.nx' (S.ny' * S.nx') r = .ok (S.e (nd (S.σ r))) := hS _ h

theorem weight_sym (hS : S.Corners) {mp : Particle K ns} (h : IsCell nx ny mp.n_star)
    (k : Fin (S.ny' * S.nx')) : weight S.nx' (S.pt mp) k = weight nx mp (S.e.symm k) := by
  obtain ⟨nd, h1, h2⟩ := S.nodes hS h
  rw [weight_eq h2, weight_eq h1]
  exact S.sum_corners nd mp.N k

theorem gradWeight_sym (hS : S.Corners) {mp : Particle K ns} (h : IsCell nx ny mp.n_star)
    (k : Fin (S.ny' * S.nx')) :
    gradWeight S.nx' (S.pt mp) k = S.A.v (gradWeight nx mp (S.e.symm k)) := by
  obtain ⟨nd, h1, h2⟩ := S.nodes hS h
  rw [gradWeight_eq h2, gradWeight_eq h1, S.A.v_sum]
  refine (S.sum_corners nd (fun r => S.A.v (mp.Gs r)) k).trans ?_
  refine Finset.sum_congr rfl fun r _ => ?_
  split
  · rfl
  · exact S.A.v_zero.symm

theorem get_sym (A : Axes K) (v : VRef K) (iv : Vec K) : (A.ref v).get (A.v iv) = A.v (v.get iv) := by
  cases v <;> rfl

/-! ### One point -/

theorem p2g_sym (hS : S.Corners) (seg : Bool) (vel : Vec K) {mp : Particle K ns}
    (h : IsCell nx ny mp.n_star) (G : Grid K (ny * nx) ns) :
    (S.pt mp).p2g S.nx' seg (S.A.v vel) (S.grid s G) = S.grid s <$> mp.p2g nx seg vel G := by
  obtain ⟨nd, h1, h2⟩ := S.nodes hS h
  rw [p2g_of_nodes h1, p2g_of_nodes h2]
  refine congrArg Except.ok ?_
  unfold p2gClosed
  simp only [weight_sym hS h]
  simp only [Sym.grid, Grid.mk.injEq, true_and, and_true, S.A.v_add, S.A.v_smul]
  refine ⟨rfl, rfl, ?_, ?_⟩ <;> cases seg <;> rfl

theorem nodalForces_sym (hS : S.Corners) {mp : Particle K ns} (h : IsCell nx ny mp.n_star)
    (G : Grid K (ny * nx) ns) :
    (S.pt mp).nodalForces S.nx' (S.grid s G) = S.grid s <$> mp.nodalForces nx G := by
  obtain ⟨nd, h1, h2⟩ := S.nodes hS h
  rw [nodalForces_of_nodes h1, nodalForces_of_nodes h2]
  refine congrArg Except.ok ?_
  unfold forcesClosed
  simp only [weight_sym hS h, gradWeight_sym hS h]
  have hm : ∀ g : Vec K, Matrix.mulVec (S.pt mp).stress (S.A.v g) = S.A.v (Matrix.mulVec mp.stress g) :=
    S.A.m_mulVec mp.stress
  simp only [hm]
  simp only [Sym.grid, S.A.v_add, S.A.v_smul]
  rfl

theorem nodeVel_sym (M_tol : K) (G : Grid K (ny * nx) ns) (n : Fin (ny * nx)) :
    nodeVel M_tol (S.grid s G) (S.e n) = S.A.v (nodeVel M_tol G n) := by
  unfold nodeVel
  have hm : (S.grid s G).m (S.e n) = G.m n := congrArg G.m (S.e.symm_apply_apply n)
  have hq : (S.grid s G).q (S.e n) = S.A.v (G.q n) :=
    congrArg (fun k => S.A.v (G.q k)) (S.e.symm_apply_apply n)
  rw [hm, hq]
  split
  · funext k; simp only [S.A.v_apply]; ring
  · exact S.A.v_zero.symm

theorem updateStrain_sym (hS : S.Corners) (M_tol dt : K) (G : Grid K (ny * nx) ns)
    {mp : Particle K ns} (h : IsCell nx ny mp.n_star) :
    (S.pt mp).updateStrain S.nx' M_tol dt (S.grid s G) = S.pt <$> mp.updateStrain nx M_tol dt G := by
  obtain ⟨nd, h1, h2⟩ := S.nodes hS h
  rw [updateStrain_of_nodes h1, updateStrain_of_nodes h2]
  refine congrArg Except.ok ?_
  have hA : (∑ r, Matrix.vecMulVec (nodeVel M_tol (S.grid s G) (S.e (nd (S.σ r)))) ((S.pt mp).Gs r)) =
      S.A.m (∑ r, Matrix.vecMulVec (nodeVel M_tol G (nd r)) (mp.Gs r)) := by
    rw [S.A.m_sum, ← Equiv.sum_comp S.σ (fun r => S.A.m (Matrix.vecMulVec (nodeVel M_tol G (nd r)) (mp.Gs r)))]
    refine Finset.sum_congr rfl fun r _ => ?_
    rw [nodeVel_sym]
    exact S.A.m_vecMulVec _ _
  dsimp only
  rw [hA]
  simp only [S.A.m_transpose, ← S.A.m_add, ← S.A.m_smul]
  simp only [Sym.pt, Axes.pt, Particle.mk.injEq, true_and, and_true]
  exact (S.A.m_add _ _).symm

/-! #### Reports of the laws -/

theorem Spec.Axes.vis_vis (A : Axes K) (v : Vis) : A.vis (A.vis v) = v := by
  cases hs : A.swap <;> cases v <;> simp [Axes.vis, hs]

theorem listed_rep (A : Axes K) (v : Vis) (l : List (Vis × XF K)) :
    (listed v (A.rep l)).Perm (listed (A.vis v) l) := by
  unfold listed
  refine (((A.rep_perm l).filter _).map _).trans ?_
  rw [List.filter_map, List.map_map]
  have : ((fun e : Vis × XF K => decide (e.1 = v)) ∘ Prod.map A.vis id) =
      fun e : Vis × XF K => decide (e.1 = A.vis v) := by
    funext e
    refine decide_eq_decide.2 ?_
    change A.vis e.1 = v ↔ _
    constructor
    · rintro rfl; exact (A.vis_vis _).symm
    · intro h; rw [h, A.vis_vis]
  rw [this]
  exact List.Perm.refl _

theorem scatterVis_eq {N nx : ℕ} {mp : Particle K ns} {nd : Fin 4 → Fin N}
    (h : ∀ r, mp.node nx N r = .ok (nd r)) (l : List (Vis × XF K)) (vis : Vis → Fin N → XF K) :
    scatterVis nx mp l vis = .ok fun v k => vis v k + ∑ r, if nd r = k then
      ((listed v l).map fun x => .fin (mp.N r) * x * .fin mp.m).sum else 0 := by
  have : ∃ vis', scatterVis nx mp l vis = .ok vis' := by
    unfold scatterVis for4
    simp only [h, res_ok_bind, res_pure]
    exact ⟨_, rfl⟩
  obtain ⟨vis', hv⟩ := this
  rw [hv]
  refine congrArg Except.ok ?_
  funext v k
  exact scatterVis_of_nodes h hv v k

theorem Spec.Axes.vis_gamma (A : Axes K) (v : Vis) : A.vis v = .gammadot ↔ v = .gammadot := by
  cases hs : A.swap <;> cases v <;> simp [Axes.vis, hs]

theorem scatterVis_sym (hS : S.Corners) {mp : Particle K ns} (h : IsCell nx ny mp.n_star)
    (l : List (Vis × XF K)) (vis : Vis → Fin (ny * nx) → XF K) :
    scatterVis S.nx' (S.pt mp) (S.A.rep l) (S.vis 1 vis) = S.vis 1 <$> scatterVis nx mp l vis := by
  obtain ⟨nd, h1, h2⟩ := S.nodes hS h
  rw [scatterVis_eq h1, scatterVis_eq h2]
  refine congrArg Except.ok ?_
  have hv : ∀ (vis : Vis → Fin (ny * nx) → XF K) v k, S.vis 1 vis v k = vis (S.A.vis v) (S.e.symm k) := by
    intro vis v k
    unfold Sym.vis
    split
    · rename_i hv
      rw [signX_one, (S.A.vis_gamma v).2 hv, hv]
    · rfl
  funext v k
  rw [hv, hv]
  congr 1
  refine Eq.trans ?_ (S.sum_corners nd (fun r => ((listed (S.A.vis v) l).map fun x =>
    XF.fin (mp.N r) * x * .fin mp.m).sum) k)
  refine Finset.sum_congr rfl fun r _ => ?_
  split
  · exact ((listed_rep S.A v l).map _).sum_eq
  · rfl

theorem applyStress_sym (dt : K) (mp : Particle K ns) :
    (S.pt mp).applyStress dt = S.pt (mp.applyStress dt) := by
  unfold Particle.applyStress
  simp only [Sym.pt, Axes.pt, Particle.mk.injEq, true_and, and_true]
  simp only [S.A.m_mul, S.A.m_add, S.A.m_sub, S.A.m_smul]

theorem updateStress_sym (hS : S.Corners) (law : Law) (c : LawCtx K ns) {mp : Particle K ns}
    (h : IsCell nx ny mp.n_star) (vis : Vis → Fin (ny * nx) → XF K) :
    (S.pt mp).updateStress S.nx' law c (S.vis 1 vis) =
      Prod.map S.pt (S.vis 1) <$> mp.updateStress nx law c vis := by
  unfold Particle.updateStress
  refine res_bind_map (runLaw_axes law c mp) fun r hr => ?_
  have hk := (runLaw_frame hr).1.n_star
  refine res_bind_map (scatterVis_sym hS (by rw [hk]; exact h) r.2 vis) fun vis' _ => ?_
  exact congrArg (fun mp => Except.ok (mp, S.vis 1 vis')) (applyStress_sym c.dt r.1)

theorem stressStrain_sym (hS : S.Corners) (M_tol : K) (G : Grid K (ny * nx) ns) (law : Law)
    (c : LawCtx K ns) {mp : Particle K ns} (h : IsCell nx ny mp.n_star)
    (vis : Vis → Fin (ny * nx) → XF K) :
    (S.pt mp).stressStrain S.nx' M_tol (S.grid s G) law c (S.vis 1 vis) =
      Prod.map S.pt (S.vis 1) <$> mp.stressStrain nx M_tol G law c vis := by
  refine res_bind_map (updateStrain_sym hS M_tol c.dt G h) fun mp' hm => ?_
  refine updateStress_sym hS law c ?_ vis
  obtain ⟨nd, -, rfl⟩ := updateStrain_ok hm
  exact h

/-! #### Motion -/

theorem dispInc_sym (M_tol dt w : K) (G : Grid K (ny * nx) ns) (n : Fin (ny * nx)) :
    dispInc M_tol dt w (S.grid s G) (S.e n) = S.A.v (dispInc M_tol dt w G n) := by
  unfold dispInc
  have hm : (S.grid s G).m (S.e n) = G.m n := congrArg G.m (S.e.symm_apply_apply n)
  have hq : (S.grid s G).q (S.e n) = S.A.v (G.q n) :=
    congrArg (fun k => S.A.v (G.q k)) (S.e.symm_apply_apply n)
  rw [hm, hq]
  split
  · funext k; simp only [S.A.v_apply]; ring
  · exact S.A.v_zero.symm

theorem velInc_sym (M_tol dt w : K) (G : Grid K (ny * nx) ns) (n : Fin (ny * nx)) :
    velInc M_tol dt w (S.grid s G) (S.e n) = S.A.v (velInc M_tol dt w G n) := by
  unfold velInc
  have hm : (S.grid s G).m (S.e n) = G.m n := congrArg G.m (S.e.symm_apply_apply n)
  have hq : (S.grid s G).q_dot (S.e n) = S.A.v (G.q_dot n) :=
    congrArg (fun k => S.A.v (G.q_dot k)) (S.e.symm_apply_apply n)
  rw [hm, hq]
  split
  · funext k; simp only [S.A.v_apply]; ring
  · exact S.A.v_zero.symm

theorem addVel_sym (A : Axes K) (d : Vec K) (v : VRef K) (iv : Vec K) :
    addVel (A.v d) (A.ref v, A.v iv) = Prod.map A.ref A.v (addVel d (v, iv)) := by
  cases v with
  | own a => exact Prod.ext (congrArg VRef.own (A.v_add a d).symm) rfl
  | shared => exact Prod.ext rfl (A.v_add iv d).symm

theorem for4_fails {σ : Type} {f : Fin 4 → σ → Res σ} {g : Fin 4 → σ → σ} {bad : Fin 4 → Prop}
    {e : Err} {I : σ → Prop} (h1 : ∀ r s, I s → bad r → f r s = .error e)
    (h2 : ∀ r s, I s → ¬ bad r → f r s = .ok (g r s) ∧ I (g r s)) (hb : ∃ r, bad r) {s : σ}
    (hs : I s) : for4 f s = .error e := by
  unfold for4
  by_cases b0 : bad 0
  · rw [h1 0 s hs b0]; rfl
  obtain ⟨e0, i0⟩ := h2 0 s hs b0
  rw [e0, res_ok_bind]
  by_cases b1 : bad 1
  · rw [h1 1 _ i0 b1]; rfl
  obtain ⟨e1, i1⟩ := h2 1 _ i0 b1
  rw [e1, res_ok_bind]
  by_cases b2 : bad 2
  · rw [h1 2 _ i1 b2]; rfl
  obtain ⟨e2, i2⟩ := h2 2 _ i1 b2
  rw [e2, res_ok_bind]
  obtain ⟨r, hr⟩ := hb
  refine h1 3 _ i2 ?_
  fin_cases r
  · exact absurd hr b0
  · exact absurd hr b1
  · exact absurd hr b2
  · exact hr

theorem move_loop2_error {nx N : ℕ} {M_tol : K} {G : Grid K N ns} {mp : Particle K ns}
    {nd : Fin 4 → Fin N} (h : ∀ r, mp.node nx N r = .ok (nd r))
    (hV : ∃ r, M_tol < G.m (nd r) ∧ G.V (nd r) = 0) (c : K) :
    for4 (fun r (mp : Particle K ns) => do
      let n ← mp.node nx N r
      if M_tol < G.m n then
        if G.V n = 0 then .error .nonFinite
        else return { mp with rho := mp.rho + mp.N r * G.m n / G.V n }
      else return mp) { mp with rho := c } = .error .nonFinite := by
  refine for4_fails (I := fun q => q.n_star = mp.n_star)
    (g := fun r q => if M_tol < G.m (nd r) then
      { q with rho := q.rho + q.N r * G.m (nd r) / G.V (nd r) } else q) ?_ ?_ hV rfl
  · intro r q hq hb
    have : q.node nx N r = .ok (nd r) := by unfold Particle.node; rw [hq]; exact h r
    rw [this, res_ok_bind, if_pos hb.1, if_pos hb.2]
  · intro r q hq hb
    have : q.node nx N r = .ok (nd r) := by unfold Particle.node; rw [hq]; exact h r
    rw [this, res_ok_bind]
    by_cases h1 : M_tol < G.m (nd r)
    · have h2 : ¬ G.V (nd r) = 0 := fun h2 => hb ⟨h1, h2⟩
      rw [if_pos h1, if_neg h2, if_pos h1]
      exact ⟨rfl, hq⟩
    · rw [if_neg h1, if_neg h1]
      exact ⟨rfl, hq⟩

theorem move_sym (hS : S.Corners) (M_tol dt : K) (G : Grid K (ny * nx) ns) {mp : Particle K ns}
    (h : IsCell nx ny mp.n_star) (iv : Vec K) :
    (S.pt mp).move S.nx' M_tol dt (S.grid s G) (S.A.v iv) =
      Prod.map S.pt S.A.v <$> mp.move nx M_tol dt G iv := by
  obtain ⟨nd, h1, h2⟩ := S.nodes hS h
  have hm : ∀ n, (S.grid s G).m (S.e n) = G.m n := fun n => congrArg G.m (S.e.symm_apply_apply n)
  have hVe : ∀ n, (S.grid s G).V (S.e n) = G.V n := fun n => congrArg G.V (S.e.symm_apply_apply n)
  by_cases hV : ∀ r, M_tol < G.m (nd r) → G.V (nd r) ≠ 0
  · have hV' : ∀ r, M_tol < (S.grid s G).m (S.e (nd (S.σ r))) →
        (S.grid s G).V (S.e (nd (S.σ r))) ≠ 0 := by
      intro r
      rw [hm, hVe]
      exact hV (S.σ r)
    rw [move_of_nodes h1 hV, move_of_nodes h2 hV']
    refine congrArg Except.ok ?_
    unfold moveClosed
    have hd : (∑ r, dispInc M_tol dt ((S.pt mp).N r) (S.grid s G) (S.e (nd (S.σ r)))) =
        S.A.v (∑ r, dispInc M_tol dt (mp.N r) G (nd r)) := by
      rw [S.A.v_sum, ← Equiv.sum_comp S.σ (fun r => S.A.v (dispInc M_tol dt (mp.N r) G (nd r)))]
      exact Finset.sum_congr rfl fun r _ => dispInc_sym _ _ _ _ _
    have hv : (∑ r, velInc M_tol dt ((S.pt mp).N r) (S.grid s G) (S.e (nd (S.σ r)))) =
        S.A.v (∑ r, velInc M_tol dt (mp.N r) G (nd r)) := by
      rw [S.A.v_sum, ← Equiv.sum_comp S.σ (fun r => S.A.v (velInc M_tol dt (mp.N r) G (nd r)))]
      exact Finset.sum_congr rfl fun r _ => velInc_sym _ _ _ _ _
    have hr : (∑ r, rhoInc M_tol ((S.pt mp).N r) (S.grid s G) (S.e (nd (S.σ r)))) =
        ∑ r, rhoInc M_tol (mp.N r) G (nd r) := by
      rw [← Equiv.sum_comp S.σ (fun r => rhoInc M_tol (mp.N r) G (nd r))]
      refine Finset.sum_congr rfl fun r _ => ?_
      unfold rhoInc
      rw [hm, hVe]
      rfl
    rw [hd, hv, hr]
    have ha := addVel_sym S.A (∑ r, velInc M_tol dt (mp.N r) G (nd r)) mp.v iv
    have hv' : (S.pt mp).v = S.A.ref mp.v := rfl
    rw [hv', ha]
    refine Prod.ext ?_ rfl
    simp only [Sym.pt, Axes.pt, Prod.map, Particle.mk.injEq, true_and, and_true]
    refine ⟨?_, rfl⟩
    change S.A.v mp.x + S.c + _ = S.A.v _ + S.c
    rw [S.A.v_add, add_right_comm]
  · push Not at hV
    have hV' : ∃ r, M_tol < (S.grid s G).m (S.e (nd (S.σ r))) ∧
        (S.grid s G).V (S.e (nd (S.σ r))) = 0 := by
      obtain ⟨r, hr⟩ := hV
      refine ⟨S.σ.symm r, ?_⟩
      rw [hm, hVe, Equiv.apply_symm_apply]
      exact hr
    have e1 : mp.move nx M_tol dt G iv = .error .nonFinite := by
      unfold Particle.move
      rw [move_loop1 h1, res_ok_bind]
      dsimp only
      have := move_loop2_error (M_tol := M_tol) (G := G)
        (mp := { mp with
            x := mp.x + ∑ r, dispInc M_tol dt (mp.N r) G (nd r)
            v := (addVel (∑ r, velInc M_tol dt (mp.N r) G (nd r)) (mp.v, iv)).1 }) h1 hV 0
      rw [this]
      rfl
    have e2 : (S.pt mp).move S.nx' M_tol dt (S.grid s G) (S.A.v iv) = .error .nonFinite := by
      unfold Particle.move
      rw [move_loop1 h2, res_ok_bind]
      dsimp only
      have := move_loop2_error (M_tol := M_tol) (G := S.grid s G)
        (mp := { S.pt mp with
            x := (S.pt mp).x + ∑ r, dispInc M_tol dt ((S.pt mp).N r) (S.grid s G) (S.e (nd (S.σ r)))
            v := (addVel (∑ r, velInc M_tol dt ((S.pt mp).N r) (S.grid s G) (S.e (nd (S.σ r))))
              ((S.pt mp).v, S.A.v iv)).1 }) h2 hV' 0
      rw [this]
      rfl
    rw [e1, e2]
    rfl

theorem moveRigid_sym (dt : K) (v : Vec K) (mp : Particle K ns) :
    (S.pt mp).moveRigid dt (S.A.v v) = S.pt (mp.moveRigid dt v) := by
  unfold Particle.moveRigid
  simp only [Sym.pt, Axes.pt, Particle.mk.injEq, true_and, and_true]
  refine ⟨?_, rfl⟩
  change S.A.v mp.x + S.c + _ = S.A.v _ + S.c
  rw [S.A.v_add, S.A.v_smul, add_right_comm]

theorem mapPhi_eq {N nx : ℕ} {M_tol : K} {G : Grid K N ns} {mp : Particle K ns}
    {nd : Fin 4 → Fin N} (h : ∀ r, mp.node nx N r = .ok (nd r)) :
    mp.mapPhi nx M_tol G = .ok { mp with
        phi := mp.phi + ∑ r, mp.N r • (if M_tol < G.m (nd r) then G.dphi (nd r) else 0)
        pk := mp.pk + ∑ r, mp.N r • (if M_tol < G.m (nd r) then G.dpk (nd r) else 0) } := by
  have key : ∀ (r : Fin 4) (s : Particle K ns), s.n_star = mp.n_star → ∃ s', (do
      let n ← s.node nx N r
      if M_tol < G.m n then
        return { s with
          phi := fun j => s.phi j + s.N r * G.dphi n j
          pk := s.pk + s.N r * G.dpk n }
      else return s : Res (Particle K ns)) = .ok s' ∧ s'.n_star = mp.n_star := by
    intro r s hs
    have : s.node nx N r = .ok (nd r) := by
      unfold Particle.node; rw [hs]; exact h r
    rw [this, res_ok_bind]
    split
    · exact ⟨_, rfl, hs⟩
    · exact ⟨_, rfl, hs⟩
  have : ∃ mp', mp.mapPhi nx M_tol G = .ok mp' := by
    obtain ⟨s1, e1, n1⟩ := key 0 mp rfl
    obtain ⟨s2, e2, n2⟩ := key 1 s1 n1
    obtain ⟨s3, e3, n3⟩ := key 2 s2 n2
    obtain ⟨s4, e4, _⟩ := key 3 s3 n3
    exact ⟨s4, for4_ok.2 ⟨s1, s2, s3, e1, e2, e3, e4⟩⟩
  obtain ⟨mp', hm⟩ := this
  rw [hm]
  obtain ⟨nd', h', rfl⟩ := mapPhi_closed hm
  have : nd' = nd := funext fun r => Except.ok.inj ((h' r).symm.trans (h r))
  rw [this]

theorem mapPhi_sym (hS : S.Corners) (M_tol : K) (G : Grid K (ny * nx) ns) {mp : Particle K ns}
    (h : IsCell nx ny mp.n_star) :
    (S.pt mp).mapPhi S.nx' M_tol (S.grid s G) = S.pt <$> mp.mapPhi nx M_tol G := by
  obtain ⟨nd, h1, h2⟩ := S.nodes hS h
  have hm : ∀ n, (S.grid s G).m (S.e n) = G.m n := fun n => congrArg G.m (S.e.symm_apply_apply n)
  have hd : ∀ n, (S.grid s G).dphi (S.e n) = G.dphi n :=
    fun n => congrArg G.dphi (S.e.symm_apply_apply n)
  have hk : ∀ n, (S.grid s G).dpk (S.e n) = G.dpk n :=
    fun n => congrArg G.dpk (S.e.symm_apply_apply n)
  rw [mapPhi_eq h1, mapPhi_eq h2]
  refine congrArg Except.ok ?_
  simp only [hm, hd, hk]
  rw [← Equiv.sum_comp S.σ (fun r => mp.N r • (if M_tol < G.m (nd r) then G.dphi (nd r) else 0)),
    ← Equiv.sum_comp S.σ (fun r => mp.N r • (if M_tol < G.m (nd r) then G.dpk (nd r) else 0))]
  rfl

end
end Mpm

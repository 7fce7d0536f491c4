import Verif.Props.Mapping
import Verif.Props.Transfer
import Verif.Props.Strain

/-!
# C12–C15: motion of the points
-/

set_option linter.unusedSectionVars false

namespace Mpm
open Spec

section
variable {K : Type} [Field K] [LinearOrder K] [IsStrictOrderedRing K] [FloorRing K] {ns N : ℕ}

/-! ## C12 -/

/-- The point was located in the domain, its four nodes are massive: the displacement is `dt`
times a convex combination of the velocities `q/m` of its four nodes. -/
theorem c12_convex {P : GP K} (hP : GoodGrid P) {M_tol dt : K}
    {G0 G : Grid K P.N ns} (hG0 : Geometry P G0) {mp0 mp1 mp mp' : Particle K ns}
    (hx : InDomain P mp0.x) (h1 : mp0.getReferenceNode P G0.dx G0.dy = .ok mp1)
    (h2 : mp1.getBasisFunctions G0 = .ok mp) {iv iv' : Vec K}
    (hm : ∀ r k, pyIdx P.N (nearbyNodes P.nx mp.n_star r) = .ok k → M_tol < G.m k)
    (h : mp.move P.nx M_tol dt G iv = .ok (mp', iv')) :
    ∃ (w : Fin 4 → K) (nd : Fin 4 → Fin P.N), (∀ r, 0 ≤ w r) ∧ ∑ r, w r = 1 ∧
      (∀ r, pyIdx P.N (nearbyNodes P.nx mp.n_star r) = .ok (nd r)) ∧
      ∀ c, mp'.x c = mp.x c + dt * ∑ r, w r * (G.q (nd r) c / G.m (nd r)) := by
  obtain ⟨i, j, nd, hc, e1, e2, hnd, hX, hY⟩ := located_basis hP hG0 hx
  rw [e1, Except.ok.injEq] at h1
  rw [← h1, e2, Except.ok.injEq] at h2
  subst h2
  obtain ⟨nd', hnd', _, e⟩ := move_ok h
  have hx' : mp'.x = _ := congrArg (fun r => r.1.x) e
  refine ⟨(atCell P mp0 i j).N, nd', fun r => ?_, ?_, hnd', fun c => ?_⟩
  · refine (c02_unit_interval (cellX_pos hP) (cellY_pos hP) _ ?_ ?_ r).1
    · have h1 := hc.1.1; have h2 := hc.1.2
      rw [nodeX_succ] at h2
      simp only [Matrix.cons_val_zero]
      constructor <;> linarith
    · have h1 := hc.2.1.1; have h2 := hc.2.1.2
      rw [nodeY_succ] at h2
      simp only [Matrix.cons_val_one, Matrix.cons_val_zero]
      constructor <;> linarith
  · exact shapeN_sum (mul_pos (cellX_pos hP) (cellY_pos hP)).ne' _
  · rw [hx']
    simp only [moveClosed, Pi.add_apply, Finset.sum_apply]
    rw [Finset.mul_sum]
    congr 1
    refine Finset.sum_congr rfl fun r _ => ?_
    unfold dispInc
    rw [if_pos (hm r _ (hnd' r))]
    ring

/-- Hence each component of the displacement is bounded by those of the nodal velocities. -/
theorem c12_bounds {P : GP K} (hP : GoodGrid P) {M_tol dt : K} (hdt : 0 ≤ dt)
    {G0 G : Grid K P.N ns} (hG0 : Geometry P G0) {mp0 mp1 mp mp' : Particle K ns}
    (hx : InDomain P mp0.x) (h1 : mp0.getReferenceNode P G0.dx G0.dy = .ok mp1)
    (h2 : mp1.getBasisFunctions G0 = .ok mp) {iv iv' : Vec K}
    (hm : ∀ r k, pyIdx P.N (nearbyNodes P.nx mp.n_star r) = .ok k → M_tol < G.m k)
    (h : mp.move P.nx M_tol dt G iv = .ok (mp', iv')) {c : Fin 3} {lo hi : K}
    (hb : ∀ r k, pyIdx P.N (nearbyNodes P.nx mp.n_star r) = .ok k →
      lo ≤ G.q k c / G.m k ∧ G.q k c / G.m k ≤ hi) :
    dt * lo ≤ mp'.x c - mp.x c ∧ mp'.x c - mp.x c ≤ dt * hi := by
  obtain ⟨w, nd, hw, hs, hnd, e⟩ := c12_convex hP hG0 hx h1 h2 hm h
  rw [e c, add_sub_cancel_left]
  constructor
  · refine mul_le_mul_of_nonneg_left ?_ hdt
    calc lo = ∑ r, w r * lo := by rw [← Finset.sum_mul, hs, one_mul]
      _ ≤ _ := Finset.sum_le_sum fun r _ =>
        mul_le_mul_of_nonneg_left (hb r _ (hnd r)).1 (hw r)
  · refine mul_le_mul_of_nonneg_left ?_ hdt
    calc _ ≤ ∑ r, w r * hi := Finset.sum_le_sum fun r _ =>
        mul_le_mul_of_nonneg_left (hb r _ (hnd r)).2 (hw r)
      _ = hi := by rw [← Finset.sum_mul, hs, one_mul]

/-- Equal nodal velocities: the point moves with exactly that velocity. -/
theorem c12_uniform {P : GP K} (hP : GoodGrid P) {M_tol dt : K} (hM : 0 ≤ M_tol)
    {G0 G : Grid K P.N ns} (hG0 : Geometry P G0) {mp0 mp1 mp mp' : Particle K ns}
    (hx : InDomain P mp0.x) (h1 : mp0.getReferenceNode P G0.dx G0.dy = .ok mp1)
    (h2 : mp1.getBasisFunctions G0 = .ok mp) {iv iv' u : Vec K}
    (hm : ∀ r k, pyIdx P.N (nearbyNodes P.nx mp.n_star r) = .ok k →
      M_tol < G.m k ∧ G.q k = G.m k • u)
    (h : mp.move P.nx M_tol dt G iv = .ok (mp', iv')) : mp'.x = mp.x + dt • u := by
  obtain ⟨w, nd, hw, hs, hnd, e⟩ := c12_convex hP hG0 hx h1 h2 (fun r k hk => (hm r k hk).1) h
  funext c
  rw [e c]
  have : ∀ r, G.q (nd r) c / G.m (nd r) = u c := by
    intro r
    obtain ⟨h1, h2⟩ := hm r _ (hnd r)
    rw [h2]
    simp [mul_div_cancel_left₀ _ (lt_of_le_of_lt hM h1).ne']
  simp [this, ← Finset.sum_mul, hs]

/-! ## C13, C14 -/

/-- Every point owns its velocity array. -/
def Spec.OwnVel (L : List (PhaseSt K ns)) : Prop := ∀ mp ∈ points L, ∃ v, mp.v = .own v

/-- No phase is rigid. -/
def Spec.NoRigid (L : List (PhaseSt K ns)) : Prop := ∀ a ∈ L, a.ph.law ≠ .rigid

/-- The four nodes of a point. -/
def Spec.Touches (nx : ℕ) (mp : Particle K ns) (k : Fin N) : Prop :=
  ∃ r, pyIdx N (nearbyNodes nx mp.n_star r) = .ok k

theorem weight_of_not_touches {nx : ℕ} {mp : Particle K ns} {k : Fin N}
    (h : ¬ Touches nx mp k) : weight nx mp k = 0 := by
  unfold Spec.weight
  exact Finset.sum_eq_zero fun r _ => if_neg fun e => h ⟨r, e⟩

theorem gradWeight_of_not_touches {nx : ℕ} {mp : Particle K ns} {k : Fin N}
    (h : ¬ Touches nx mp k) : gradWeight nx mp k = 0 := by
  unfold Spec.gradWeight
  exact Finset.sum_eq_zero fun r _ => if_neg fun e => h ⟨r, e⟩

theorem transfer_sum {nx : ℕ} {l : List (Particle K ns)} {m : Fin N → K}
    (hm : ∀ k, m k = (l.map fun mp => weight nx mp k * mp.m).sum) (f : Fin N → Vec K) :
    (l.map fun mp => mp.m • ∑ k, weight nx mp k • f k).sum = ∑ k, m k • f k := by
  simp only [hm]
  have : ∀ k, (l.map fun mp => weight nx mp k * mp.m).sum • f k =
      (l.map fun mp => (weight nx mp k * mp.m) • f k).sum := by
    intro k
    clear hm
    induction l with
    | nil => simp
    | cons a l ih => simp [add_smul, ih]
  simp only [this]
  rw [list_sum_finset]
  congr 1
  refine List.map_congr_left fun mp _ => ?_
  rw [Finset.smul_sum]
  refine Finset.sum_congr rfl fun k _ => ?_
  rw [smul_smul, mul_comm]

/-- What moving does to the points, phase by phase. -/
theorem movePoints_pts {nx : ℕ} {M_tol dt : K} {iv : Vec K} {G : Grid K N ns}
    {L L' : List (PhaseSt K ns)} (hL : Counted L) (hr : NoRigid L)
    (h : movePoints nx M_tol dt iv G L = .ok L') :
    List.Forall₂ (fun a a' => a'.ph = { a.ph with iv := a'.ph.iv } ∧
      List.Forall₂ (fun mp mp' => ∃ nd iv, (∀ r, mp.node nx N r = .ok (nd r)) ∧
        mp' = (moveClosed M_tol dt G nd mp iv).1) a.pts a'.pts) L L' := by
  refine (forall₂_mem (movePoints_phase hL h)).imp ?_
  rintro a a' ⟨ha, _, (⟨hl, _⟩ | ⟨_, e, h⟩)⟩
  · exact absurd hl (hr a ha)
  · refine ⟨e, forN_forall₂ (fun mp iv mp' iv' h => ?_) h⟩
    obtain ⟨nd, hnd, _, e⟩ := move_ok h
    exact ⟨nd, iv, hnd, congrArg Prod.fst e⟩

/-- Points owning their velocities: the shared array plays no role. -/
theorem movePoints_own {nx : ℕ} {M_tol dt : K} {iv : Vec K} {G : Grid K N ns}
    {L L' : List (PhaseSt K ns)} (hL : Counted L) (hr : NoRigid L) (ho : OwnVel L)
    (h : movePoints nx M_tol dt iv G L = .ok L') :
    PtsRel (fun _ mp mp' => ∃ nd, (∀ r, mp.node nx N r = .ok (nd r)) ∧
      mp' = (moveClosed M_tol dt G nd mp 0).1) L L' := by
  refine (forall₂_mem (movePoints_phase hL h)).imp ?_
  rintro a a' ⟨ha, _, (⟨hl, _⟩ | ⟨_, e, h⟩)⟩
  · exact absurd hl (hr a ha)
  · have ho' : ∀ mp ∈ a.pts, ∃ v, mp.v = .own v := fun mp hmp =>
      ho mp (List.mem_flatMap.2 ⟨a, ha, hmp⟩)
    have key : ∀ (l l' : List (Particle K ns)) (iv iv' : Vec K), (∀ mp ∈ l, ∃ v, mp.v = .own v) →
        forN (fun mp iv => mp.move nx M_tol dt G iv) l.length l iv = .ok (l', iv') →
        iv' = iv ∧ List.Forall₂ (fun mp mp' => ∃ nd, (∀ r, mp.node nx N r = .ok (nd r)) ∧
          mp' = (moveClosed M_tol dt G nd mp 0).1) l l' := by
      intro l
      induction l with
      | nil => intro l' iv iv' _ h; cases h; exact ⟨rfl, .nil⟩
      | cons mp l ih =>
        intro l' iv iv' ho h
        obtain ⟨mp', iv1, t, h1, h2, rfl⟩ := forN_cons_ok.1 h
        obtain ⟨e, ht⟩ := ih _ _ _ (fun b hb => ho b (List.mem_cons_of_mem _ hb)) h2
        obtain ⟨nd, hnd, _, e'⟩ := move_ok h1
        obtain ⟨v, hv⟩ := ho mp List.mem_cons_self
        have e1 : iv1 = iv := by
          have := congrArg Prod.snd e'
          simpa [moveClosed, hv, addVel] using this
        refine ⟨e.trans e1, .cons ⟨nd, hnd, ?_⟩ ht⟩
        have := congrArg Prod.fst e'
        simpa [moveClosed, hv, addVel] using this
    obtain ⟨e1, h2⟩ := key _ _ _ _ ho' h
    refine ⟨?_, h2⟩
    rw [e, e1]

theorem move_momentum {nx : ℕ} {M_tol dt : K} {iv : Vec K} {G : Grid K N ns}
    {L L' : List (PhaseSt K ns)} (hM : 0 ≤ M_tol) (hL : Counted L) (hr : NoRigid L)
    (ho : OwnVel L)
    (hm : ∀ k, G.m k = ((points L).map fun mp => weight nx mp k * mp.m).sum)
    (h : movePoints nx M_tol dt iv G L = .ok L') :
    totalMomentum L' = totalMomentum L + dt • ∑ k, if M_tol < G.m k then G.q_dot k else 0 := by
  have hrel := movePoints_own hL hr ho h
  rw [← items_momentum, ← items_momentum]
  have hxo : ∀ x ∈ items L, ∃ v, x.2.v = .own v := fun x hx => ho _ (by
    rw [← items_map_snd]; exact List.mem_map.2 ⟨x, hx, rfl⟩)
  have e : ((items L').map fun x => x.2.m • x.2.v.get x.1.iv) =
      (items L).map fun x => x.2.m • x.2.v.get x.1.iv + x.2.m • ∑ k, weight nx x.2 k •
        (if M_tol < G.m k then (dt / G.m k) • G.q_dot k else 0) := by
    symm
    refine forall₂_map_eq ?_ (forall₂_mem hrel.items)
    rintro a b ⟨ha, _, _, nd, hnd, e2⟩
    obtain ⟨v, hv⟩ := hxo a ha
    rw [← sum_velInc hnd, e2, ← smul_add]
    simp [moveClosed, hv, addVel, VRef.get]
  rw [e, list_sum_map_add]
  congr 1
  have e3 : ((items L).map fun x => x.2.m • ∑ k, weight nx x.2 k •
        (if M_tol < G.m k then (dt / G.m k) • G.q_dot k else 0)) =
      (points L).map fun mp => mp.m • ∑ k, weight nx mp k •
        (if M_tol < G.m k then (dt / G.m k) • G.q_dot k else 0) := by
    rw [← items_map_snd, List.map_map]; rfl
  rw [e3, transfer_sum hm, Finset.smul_sum]
  refine Finset.sum_congr rfl fun k _ => ?_
  split
  · rename_i hk
    rw [smul_smul, mul_div_cancel₀ _ (lt_of_le_of_lt hM hk).ne']
  · simp

theorem move_massMoment {nx : ℕ} {M_tol dt : K} {iv : Vec K} {G : Grid K N ns}
    {L L' : List (PhaseSt K ns)} (hM : 0 ≤ M_tol) (hL : Counted L) (hr : NoRigid L)
    (hm : ∀ k, G.m k = ((points L).map fun mp => weight nx mp k * mp.m).sum)
    (h : movePoints nx M_tol dt iv G L = .ok L') :
    massMoment L' = massMoment L + dt • ∑ k, if M_tol < G.m k then G.q k else 0 := by
  have hpts : List.Forall₂ (fun mp mp' => ∃ nd iv, (∀ r, mp.node nx N r = .ok (nd r)) ∧
        mp' = (moveClosed M_tol dt G nd mp iv).1) (points L) (points L') := by
    have := movePoints_pts hL hr h
    clear h hm hL hr
    unfold points
    induction this with
    | nil => exact .nil
    | cons h _ ih => exact List.rel_append h.2 ih
  unfold massMoment
  have e : ((points L').map fun mp => mp.m • mp.x) =
      (points L).map fun mp => mp.m • mp.x + mp.m • ∑ k, weight nx mp k •
        (if M_tol < G.m k then (dt / G.m k) • G.q k else 0) := by
    symm
    refine forall₂_map_eq ?_ hpts
    rintro a b ⟨nd, iv, hnd, rfl⟩
    rw [← sum_dispInc hnd, ← smul_add]
    simp [moveClosed]
  rw [e, list_sum_map_add, transfer_sum hm, Finset.smul_sum]
  congr 1
  refine Finset.sum_congr rfl fun k _ => ?_
  split
  · rename_i hk
    rw [smul_smul, mul_div_cancel₀ _ (lt_of_le_of_lt hM hk).ne']
  · simp

theorem mapped_mass {P : Par K} {s : Fin ns → K} {L : List (PhaseSt K ns)} (hL : Counted L)
    {G0 G1 : Grid K N ns} (hw : ∀ k, G0.m k = 0) (h : getNodalMassMomentum P s L G0 = .ok G1)
    (k : Fin N) : G1.m k = ((points L).map fun mp => weight P.G.nx mp k * mp.m).sum := by
  obtain ⟨G2, h2, rfl⟩ := getNodalMassMomentum_ok h
  have : (if P.segregate_grid then G2.nodalFractions P.ops.big s else G2).m = G2.m := by
    split <;> rfl
  rw [zeroBoundary_m, this, p2gAll_m hL h2, hw, zero_add]

/-- Points `L` (own velocities, no rigid phase) were mapped to a wiped grid; `G` has the resulting
nodal masses and any momentum rates.  Moving the points changes their momentum by `dt` times the
momentum rates of exactly the nodes above the mass tolerance. -/
theorem c13_momentum_transfer {P : Par K} {s : Fin ns → K} {dt : K} {iv : Vec K}
    {G0 G1 G : Grid K P.G.N ns} {L L' : List (PhaseSt K ns)} (hL : Counted L) (hr : NoRigid L)
    (ho : OwnVel L) (hmap : getNodalMassMomentum P s L G0.wipe = .ok G1) (hG : G.m = G1.m)
    (h : movePoints P.G.nx P.M_tol dt iv G L = .ok L') :
    totalMomentum L' =
      totalMomentum L + dt • ∑ k ∈ Finset.univ.filter (fun k => P.M_tol < G.m k), G.q_dot k := by
  rw [Finset.sum_filter]
  exact move_momentum P.M_tol_nonneg hL hr ho
    (fun k => by rw [hG]; exact mapped_mass hL (fun _ => rfl) hmap k) h

/-- If every touched node is above the tolerance and there are no momentum rates elsewhere, all of
it is transferred. -/
theorem c13_momentum_transfer_full {P : Par K} {s : Fin ns → K} {dt : K} {iv : Vec K}
    {G0 G1 G : Grid K P.G.N ns} {L L' : List (PhaseSt K ns)} (hL : Counted L) (hr : NoRigid L)
    (ho : OwnVel L) (hmap : getNodalMassMomentum P s L G0.wipe = .ok G1) (hG : G.m = G1.m)
    (ht : ∀ mp ∈ points L, ∀ k : Fin P.G.N, Touches P.G.nx mp k → P.M_tol < G.m k)
    (hq : ∀ k, G.q_dot k ≠ 0 → ∃ mp ∈ points L, Touches P.G.nx mp k)
    (h : movePoints P.G.nx P.M_tol dt iv G L = .ok L') :
    totalMomentum L' = totalMomentum L + dt • ∑ k, G.q_dot k := by
  rw [c13_momentum_transfer hL hr ho hmap hG h, Finset.sum_filter]
  congr 2
  refine Finset.sum_congr rfl fun k _ => ?_
  split
  · rfl
  · rename_i hk
    by_contra hne
    obtain ⟨mp, hmp, htk⟩ := hq k (Ne.symm hne)
    exact hk (ht mp hmp k htk)

/-- The same for the mass moment (here the points may share velocity arrays). -/
theorem c14_centre_of_mass {P : Par K} {s : Fin ns → K} {dt : K} {iv : Vec K}
    {G0 G1 G : Grid K P.G.N ns} {L L' : List (PhaseSt K ns)} (hL : Counted L) (hr : NoRigid L)
    (hmap : getNodalMassMomentum P s L G0.wipe = .ok G1) (hG : G.m = G1.m)
    (h : movePoints P.G.nx P.M_tol dt iv G L = .ok L') :
    massMoment L' =
      massMoment L + dt • ∑ k ∈ Finset.univ.filter (fun k => P.M_tol < G.m k), G.q k := by
  rw [Finset.sum_filter]
  exact move_massMoment P.M_tol_nonneg hL hr
    (fun k => by rw [hG]; exact mapped_mass hL (fun _ => rfl) hmap k) h

theorem c14_centre_of_mass_full {P : Par K} {s : Fin ns → K} {dt : K} {iv : Vec K}
    {G0 G1 G : Grid K P.G.N ns} {L L' : List (PhaseSt K ns)} (hL : Counted L) (hr : NoRigid L)
    (hmap : getNodalMassMomentum P s L G0.wipe = .ok G1) (hG : G.m = G1.m)
    (ht : ∀ mp ∈ points L, ∀ k : Fin P.G.N, Touches P.G.nx mp k → P.M_tol < G.m k)
    (hq : ∀ k, G.q k ≠ 0 → ∃ mp ∈ points L, Touches P.G.nx mp k)
    (h : movePoints P.G.nx P.M_tol dt iv G L = .ok L') :
    massMoment L' = massMoment L + dt • ∑ k, G.q k := by
  rw [c14_centre_of_mass hL hr hmap hG h, Finset.sum_filter]
  congr 2
  refine Finset.sum_congr rfl fun k _ => ?_
  split
  · rfl
  · rename_i hk
    by_contra hne
    obtain ⟨mp, hmp, htk⟩ := hq k (Ne.symm hne)
    exact hk (ht mp hmp k htk)

/-! ## C15 -/

/-- Whatever the grid: every point of a rigid phase moves by `dt * intruder_v`, has that velocity
afterwards, and keeps everything else, as does the phase itself. -/
theorem c15_rigid {nx : ℕ} {M_tol dt : K} {iv : Vec K} {G : Grid K N ns}
    {L L' : List (PhaseSt K ns)} (hL : Counted L) (h : movePoints nx M_tol dt iv G L = .ok L') :
    List.Forall₂ (fun a a' => a.ph.law = .rigid → a'.ph = a.ph ∧
      List.Forall₂ (fun mp mp' => (∀ c, mp'.x c = mp.x c + dt * iv c) ∧
        velocity a' mp' = iv ∧ mp'.m = mp.m ∧ mp' = { mp with x := mp'.x, v := mp'.v })
        a.pts a'.pts) L L' := by
  refine (movePoints_phase hL h).imp ?_
  rintro a a' (⟨_, rfl⟩ | ⟨hl, _⟩) hrig
  · refine ⟨rfl, ?_⟩
    rw [List.forall₂_map_right_iff]
    exact forall₂_refl (fun mp => ⟨fun c => by simp [Particle.moveRigid], rfl, rfl, rfl⟩) _
  · exact absurd hrig hl

/-- The law itself does nothing to a rigid point. -/
theorem c15_rigid_law {c : LawCtx K ns} {mp : Particle K ns} :
    runLaw .rigid c mp = .ok (mp, []) := rfl

end

/-! ## The hypotheses can be met -/

/-- C12–C14: two points on the grid of `Ex`, mapped; with the nodal volumes set to one they can be
moved. -/
example : ∃ (G G1 : Grid ℚ Ex.par.G.N 2) (L L' : List (PhaseSt ℚ 2)),
    Counted L ∧ NoRigid L ∧ OwnVel L ∧ L ≠ [] ∧
    getNodalMassMomentum Ex.par Ex.par.G.s L G.wipe = .ok G1 ∧
    movePoints Ex.par.G.nx Ex.par.M_tol (1/10) 0 G1 L = .ok L' := by
  obtain ⟨G, hG⟩ := mkGrid_exists Ex.bp Ex.good
  let H : Grid ℚ Ex.par.G.N 2 := { G with V := fun _ => 1 }
  have hH : Geometry Ex.par.G H := ⟨(mkGrid_geometry hG).dx, (mkGrid_geometry hG).dy,
    (mkGrid_geometry hG).X, (mkGrid_geometry hG).Y⟩
  obtain ⟨L1, L2, h1, h2, h3, h4, h5⟩ := locate_exists Ex.good
    (Mpm.Geometry.wipe hH) Ex.countedL Ex.inDomain
  obtain ⟨G1, hG1⟩ := getNodalMassMomentum_exists (P := Ex.par) (s := Ex.par.G.s) h4
    (G := H.wipe) h3
  have hrel := (locate_all Ex.countedL h1 h2).1
  cases hrel with
  | cons hr ht =>
    cases ht
    rename_i a
    obtain ⟨hph, hpts⟩ := hr
    have hn : NoRigid [a] := by
      intro b hb
      rw [List.mem_singleton.1 hb, hph]
      intro h; cases h
    have ho : OwnVel [a] := by
      intro mp hmp
      simp [points] at hmp
      obtain ⟨mp0, hmp0, e⟩ := forall₂_right hpts hmp
      rw [e.eq]
      simp at hmp0
      rcases hmp0 with rfl | rfl
      · exact ⟨_, rfl⟩
      · exact ⟨_, rfl⟩
    have hV : ∀ k, G1.V k = 1 := by
      obtain ⟨G2, h5, rfl⟩ := getNodalMassMomentum_ok hG1
      intro k
      rw [((p2gAll_ok h4).1 h5).2]
      exact congrFun (foldl_const (fun (x : Phase ℚ 2 × Particle ℚ 2) (G : Grid ℚ Ex.par.G.N 2) =>
        p2gClosed Ex.par.G.nx false (x.2.v.get x.1.iv) x.2 G) (fun G => G.V)
        (fun _ _ => rfl) _ _) k
    have hmv : ∀ mp ∈ a.pts, ∀ iv, ∃ r, mp.move Ex.par.G.nx Ex.par.M_tol (1/10) G1 iv = .ok r := by
      intro mp hmp iv
      obtain ⟨nd, hnd⟩ := nodesOk_iff.1 (h3 (a.ph, mp) (mem_items.2 ⟨a, List.mem_cons_self, rfl, hmp⟩))
      exact ⟨_, move_of_nodes hnd fun r _ => by
        have := hV (nd r)
        exact ne_of_eq_of_ne this one_ne_zero⟩
    obtain ⟨⟨pts', iv'⟩, hf⟩ : ∃ r, forN (fun mp iv => mp.move Ex.par.G.nx Ex.par.M_tol (1/10) G1 iv)
        a.pts.length a.pts a.ph.iv = .ok r := by
      generalize a.ph.iv = iv
      clear hpts h3 h4 h5 hG1 h2 hn ho
      generalize a.pts = l at hmv
      induction l generalizing iv with
      | nil => exact ⟨_, rfl⟩
      | cons b l ih =>
        obtain ⟨⟨b', iv1⟩, hb⟩ := hmv b List.mem_cons_self iv
        obtain ⟨⟨t, iv2⟩, ht⟩ := ih iv1 (fun mp hmp => hmv mp (List.mem_cons_of_mem _ hmp))
        exact ⟨_, forN_cons_ok.2 ⟨b', iv1, t, hb, ht, rfl⟩⟩
    refine ⟨H, G1, [a], [{ ph := { a.ph with iv := iv' }, pts := pts' }], h4, hn, ho, by simp, hG1, ?_⟩
    unfold movePoints
    refine mapPhases_cons_ok.2 ⟨_, [], ?_, rfl, rfl⟩
    rw [if_neg (hn a List.mem_cons_self), h4 a List.mem_cons_self, hf]
    rfl

/-- C15: a phase with law `rigid`. -/
example : Counted [({ ph := { Ex.ph with law := .rigid }, pts := [Ex.mp, Ex.mp2] } :
    PhaseSt ℚ 2)] := by
  intro a ha
  rw [List.mem_singleton.1 ha]
  rfl

end Mpm

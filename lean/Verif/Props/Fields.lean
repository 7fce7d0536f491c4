import Verif.Lemmas.Fields
import Verif.Lemmas.Total
import Verif.Lemmas.Run
import Verif.Lemmas.Hat
import Verif.Props.Segregation
import Verif.Props.Diffusion

/-!
# Nodal pressure (C77), its sign (C78) and empty nodes (C79)
-/

set_option linter.unusedSectionVars false

namespace Mpm
open Spec

namespace Spec
section
variable {K : Type} [Field K] [LinearOrder K] {ns : ℕ}

/-- The pressure a point stands for on the grid: rigid points have none. -/
def heldPressure (ph : Phase K ns) (mp : Particle K ns) : K :=
  if ph.law = .rigid then 0 else mp.pressure

end
end Spec

section
variable {K : Type} [Field K] [LinearOrder K] {ns N : ℕ}

theorem runLaw_pressure {law : Law} {c : LawCtx K ns} {mp mp' : Particle K ns}
    {l : List (Vis × XF K)} (hd : law ≠ .dp_rate) (h : runLaw law c mp = .ok (mp', l)) :
    listed .pressure l = List.map XF.fin (if law = .rigid then [] else [mp'.pressure]) := by
  cases law with
  | rigid => cases h; rfl
  | elastic => cases h; rfl
  | elastic_time =>
    simp only [runLaw, lawElasticTime] at h
    split at h
    · cases h
    · cases h; rfl
  | von_mises =>
    simp only [runLaw, lawVonMises] at h
    split at h
    · cases h
    split at h
    · cases h
    split at h
    · cases h
    cases h; rfl
  | dp =>
    simp only [runLaw, lawDp] at h
    split at h <;> cases h
  | dp_rate => exact absurd rfl hd
  | viscous =>
    simp only [runLaw, lawViscous] at h
    split at h
    · cases h
    cases h; rfl
  | bingham =>
    simp only [runLaw, lawBingham] at h
    split at h
    · cases h
    obtain ⟨a, _, h⟩ := res_bind_ok.1 h
    obtain ⟨b, _, h⟩ := res_bind_ok.1 h
    cases h; rfl
  | ken_kamrin =>
    simp only [runLaw, lawKenKamrin] at h
    split at h
    · cases h
    obtain ⟨a, _, h⟩ := res_bind_ok.1 h
    cases h; rfl
  | pouliquen =>
    simp only [runLaw, lawPouliquen] at h
    obtain ⟨⟨a, b, c⟩, _, h⟩ := res_bind_ok.1 h
    split at h
    · cases h
    dsimp only at h
    split at h
    · cases h; rfl
    · cases h
  | linear_mu =>
    simp only [runLaw, lawLinearMu] at h
    obtain ⟨a, _, h⟩ := res_bind_ok.1 h
    split at h
    · cases h
    obtain ⟨b, _, h⟩ := res_bind_ok.1 h
    obtain ⟨d, _, h⟩ := res_bind_ok.1 h
    cases h; rfl
  | ken_simple =>
    simp only [runLaw, lawKenSimple] at h
    obtain ⟨a, _, h⟩ := res_bind_ok.1 h
    split at h
    · cases h
    cases h; rfl
  | viscous_size => cases h
  | pouliquen2D => cases h
  | other => cases h

theorem stressStrain_pressure {nx : ℕ} {M_tol : K} {G : Grid K N ns} {ph : Phase K ns}
    {c : LawCtx K ns} {mp mp' : Particle K ns} {vis vis' : Vis → Fin N → XF K}
    (hd : ph.law ≠ .dp_rate) (h : mp.stressStrain nx M_tol G ph.law c vis = .ok (mp', vis'))
    (k : Fin N) :
    vis' .pressure k = vis .pressure k + .fin (weight nx mp' k * mp'.m * heldPressure ph mp') := by
  obtain ⟨mp1, mp2, l, _, h2, h3, rfl⟩ := stressStrain_ok h
  rw [scatterVis_fin h3 (runLaw_pressure hd h2)]
  congr 2
  unfold heldPressure
  split
  · simp
  · change weight nx mp2 k * [mp2.pressure].sum * mp2.m = weight nx mp2 k * mp2.m * mp2.pressure
    rw [List.sum_singleton]; ring

theorem items_sum (L : List (PhaseSt K ns)) (f : Phase K ns → Particle K ns → K) :
    (L.map fun a => (a.pts.map fun mp => (XF.fin (f a.ph mp) : XF K)).sum).sum =
      .fin (((items L).map fun x => f x.1 x.2).sum) := by
  rw [← fin_list_sum]
  induction L with
  | nil => rfl
  | cons a t ih =>
    rw [List.map_cons, List.sum_cons, ih, items_cons, List.map_append, List.sum_append,
      List.map_map]
    rfl

theorem updateStressStrain_pressure_pre {nx ny : ℕ} {P : Par K} {d : Dyn K} {s : Fin ns → K}
    {L L' : List (PhaseSt K ns)} {G G' : Grid K (ny * nx) ns} (hL : Counted L)
    (hd : ∀ a ∈ L, a.ph.law ≠ .dp_rate)
    (h : updateStressStrain P d s L G = .ok (L', G')) :
    ∃ vis : Vis → Fin (ny * nx) → XF K,
      G'.vis = (if P.B.cyclic_lr then
        fun v => if v ∈ cyclicVis then makeCyclic (vis v) else vis v else vis) ∧
      ∀ k, vis .pressure k = G.vis .pressure k + .fin (((items L').map fun x =>
      weight nx x.2 k * x.2.m * heldPressure x.1 x.2).sum) := by
  unfold updateStressStrain at h
  obtain ⟨⟨L1, vis⟩, h1, h⟩ := res_bind_ok.1 h
  obtain ⟨rfl, rfl⟩ := Prod.mk.inj (Except.ok.inj h)
  clear h
  refine ⟨vis, by split <;> rfl, fun k => ?_⟩
  have key := forPhases_sum (π := fun v : Vis → Fin (ny * nx) → XF K => v .pressure k)
    (w := fun a => (a.pts.map fun mp =>
      (XF.fin (weight nx mp k * mp.m * heldPressure a.ph mp) : XF K)).sum)
    (C := fun a => a.ph.law ≠ .dp_rate ∧ a.ph.n = a.pts.length) (by
      rintro p a v a' v' ⟨ha, hn⟩ h2
      obtain ⟨⟨pts, v1⟩, h3, h2⟩ := res_bind_ok.1 h2
      cases h2
      exact forN_sum (C := fun _ => True)
        (π := fun v : Vis → Fin (ny * nx) → XF K => v .pressure k)
        (fun b s b' s' _ hb => stressStrain_pressure ha hb k) hn (fun _ _ => trivial) h3)
    (fun a ha => ⟨hd a ha, hL a ha⟩) h1
  refine key.trans ?_
  congr 1
  exact items_sum _ (fun ph mp => weight nx mp k * mp.m * heldPressure ph mp)

theorem updateStressStrain_pressure {nx ny : ℕ} {P : Par K} {d : Dyn K} {s : Fin ns → K}
    {L L' : List (PhaseSt K ns)} {G G' : Grid K (ny * nx) ns} (hL : Counted L)
    (hcy : P.B.cyclic_lr = false) (hd : ∀ a ∈ L, a.ph.law ≠ .dp_rate)
    (h : updateStressStrain P d s L G = .ok (L', G')) (k : Fin (ny * nx)) :
    G'.vis .pressure k = G.vis .pressure k + .fin (((items L').map fun x =>
      weight nx x.2 k * x.2.m * heldPressure x.1 x.2).sum) := by
  obtain ⟨vis, e, hv⟩ := updateStressStrain_pressure_pre hL hd h
  rw [e, hcy]
  exact hv k

end

section
variable {K : Type} [Field K] [LinearOrder K] [IsStrictOrderedRing K] [FloorRing K]
variable {P : Par K} {s s' : St P}

theorem gridPhase_vis (hL : Counted s.L) (T : GridPhase P s) :
    T.Gb.vis = (fun _ _ => .fin 0) ∧ T.Gd.vis = T.Gc.vis := by
  constructor
  · have e : T.Ga.vis = fun _ _ => .fin 0 := by
      obtain ⟨G1, h1, e⟩ := getNodalMassMomentum_ok T.hGa
      have e1 : G1.vis = s.G.wipe.vis := by
        rw [((p2gAll_ok (T.rel hL).2.2.2.1).1 h1).2]
        exact foldl_const (fun (x : Phase K P.G.ns × Particle K P.G.ns) G =>
          p2gClosed P.G.nx P.segregate_grid (VRef.get x.1.iv x.2.v) x.2 G)
          (fun G : Grid K P.G.N P.G.ns => G.vis) (fun _ _ => rfl) _ _
      rw [e]
      have e2 : ∀ G : Grid K P.G.N P.G.ns, (G.zeroBoundaryMomentum P.B.roughness).vis = G.vis := by
        intro G
        unfold Grid.zeroBoundaryMomentum
        rfl
      rw [e2]
      split
      · exact e1
      · exact e1
    rw [T.hGb]
    split
    · exact e
    · exact e
  · rw [getNodalForces_grid (T.rel hL).2.2.2.2 T.hGd]

/-- C77.  After the first half of a time step the pressure stored at a node is the sum over all
material points of shape function times mass times the pressure the point has just been given. -/
theorem c77_pressure (hL : Counted s.L) (hcy : P.B.cyclic_lr = false)
    (hd : ∀ a ∈ s.L, a.ph.law ≠ .dp_rate) (h : gridPhase P s = .ok s') (k : Fin P.G.N) :
    s'.G.vis .pressure k = .fin (((items s'.L).map fun x =>
      weight P.G.nx x.2 k * x.2.m * heldPressure x.1 x.2).sum) := by
  obtain ⟨T, rfl⟩ := gridPhase_ok h
  obtain ⟨e1, e2⟩ := gridPhase_vis hL T
  have r1 := updateForces_rel hL T.ha
  have rL := r1.comp (locate_all (r1.counted hL) T.hb T.hc).1
  change T.Gd.vis .pressure k = _
  rw [e2, updateStressStrain_pressure (T.rel hL).2.2.2.1 hcy (fun a ha => by
    obtain ⟨a0, ha0, e0, -⟩ := forall₂_right rL ha
    rw [e0]; exact hd a0 ha0) T.hLd, e1]
  exact zero_add _

theorem gridPhase_hat (hP : GoodGrid P.G) (hG : Geometry P.G s.G) (hL : Counted s.L)
    (hx : ∀ mp ∈ points s.L, InDomain P.G mp.x) (T : GridPhase P s) :
    PtsRel (fun ph a b => (∀ k, weight P.G.nx b k = hat P.G a.x k) ∧ b.x = a.x ∧
      (ph.law ≠ .elastic_time → b.m = a.m)) s.L T.Ld := by
  have r1 := updateForces_rel hL T.ha
  have c1 := r1.counted hL
  have hx1 : ∀ mp ∈ points T.La, InDomain P.G mp.x := by
    intro b hb
    obtain ⟨a, ha, ph, e, -⟩ := forall₂_right r1.points hb
    rw [e]; exact hx a ha
  have r2 := locate_hat_x hP (Mpm.Geometry.wipe hG) c1 hx1 T.hb T.hc
  have r3 := updateStressStrain_frame (r2.counted c1) T.hLd
  refine ((r1.comp r2).comp r3).mono ?_
  rintro ph a d ⟨c, ⟨b, ⟨e1, -⟩, e0, e2, -, e3⟩, e4, e5⟩
  refine ⟨fun k => ?_, ?_, fun hl => ?_⟩
  · have : weight P.G.nx d k = weight P.G.nx c k := by
      unfold weight; rw [e4.n_star, e4.N]
    rw [this, e3, e1]
  · rw [e4.x, e0, e1]
  · rw [e5 hl, e2, e1]

theorem gridPhase_mapped_mass (hP : GoodGrid P.G) (hG : Geometry P.G s.G) (hL : Counted s.L)
    (hx : ∀ mp ∈ points s.L, InDomain P.G mp.x) (T : GridPhase P s) (k : Fin P.G.N) :
    T.Ga.m k = nodalMass P.G s.L k := by
  have r1 := updateForces_rel hL T.ha
  have c1 := r1.counted hL
  have hx1 : ∀ mp ∈ points T.La, InDomain P.G mp.x := by
    intro b hb
    obtain ⟨a, ha, ph, e, -⟩ := forall₂_right r1.points hb
    rw [e]; exact hx a ha
  have r2 := locate_hat_x hP (Mpm.Geometry.wipe hG) c1 hx1 T.hb T.hc
  rw [mapped_mass (r2.counted c1) (fun _ => rfl) T.hGa k]
  unfold nodalMass
  refine congrArg List.sum (forall₂_map_eq ?_ (r1.comp r2).points).symm
  rintro a c ⟨ph, b, ⟨e1, -⟩, e0, e2, -, e3⟩
  rw [e3, e2, e1]

theorem gridPhase_mass (hP : GoodGrid P.G) (hG : Geometry P.G s.G) (hL : Counted s.L)
    (hx : ∀ mp ∈ points s.L, InDomain P.G mp.x) (hcy : P.B.cyclic_lr = false)
    (T : GridPhase P s) (k : Fin P.G.N) : T.Gd.m k = nodalMass P.G s.L k := by
  have e1 : T.Gd.m = T.Gb.m := by
    rw [getNodalForces_grid (T.rel hL).2.2.2.2 T.hGd]
    change T.Gc.m = _
    rw [updateStressStrain_grid T.hLd]
  rw [e1, T.hGb, hcy]
  exact gridPhase_mapped_mass hP hG hL hx T k

/-- C77.  The sum of the nodal pressures is the sum over the points of mass times pressure. -/
theorem c77_total (hL : Counted s.L) (hcy : P.B.cyclic_lr = false)
    (hd : ∀ a ∈ s.L, a.ph.law ≠ .dp_rate) (h : gridPhase P s = .ok s') :
    ∑ k, s'.G.vis .pressure k =
      .fin (((items s'.L).map fun x => x.2.m * heldPressure x.1 x.2).sum) := by
  simp only [c77_pressure hL hcy hd h]
  rw [fin_sum]
  congr 1
  rw [list_sum_finset]
  refine congrArg List.sum (List.map_congr_left fun x hx => ?_)
  simp only [mul_assoc]
  rw [← Finset.sum_mul]
  obtain ⟨T, rfl⟩ := gridPhase_ok h
  have hn := (gridPhase_nodes hL h).2 x.2 (mem_points_items hx)
  obtain ⟨y, -, e⟩ := forall₂_right (T.rel hL).1.items hx
  rw [weight_sum hn, e.2.2.2.2.2.2.2.2.1, one_mul]

/-- C77.  Pressure over mass at a node is a weighted mean of the pressures of the points around it:
it lies between the smallest and the largest of them. -/
theorem c77_mean (hP : GoodGrid P.G) (hG : Geometry P.G s.G) (hL : Counted s.L)
    (hx : ∀ mp ∈ points s.L, InDomain P.G mp.x) (hm : ∀ mp ∈ points s.L, 0 < mp.m)
    (hcy : P.B.cyclic_lr = false)
    (hd : ∀ a ∈ s.L, a.ph.law ≠ .dp_rate ∧ a.ph.law ≠ .rigid ∧ a.ph.law ≠ .elastic_time)
    (h : gridPhase P s = .ok s') {k : Fin P.G.N} (hk : 0 < nodalMass P.G s.L k) {lo hi : K}
    (hb : ∀ mp ∈ points s'.L, 0 < hat P.G mp.x k → lo ≤ mp.pressure ∧ mp.pressure ≤ hi) :
    ∃ p, s'.G.vis .pressure k / .fin (s'.G.m k) = .fin p ∧ lo ≤ p ∧ p ≤ hi := by
  have hp := c77_pressure hL hcy (fun a ha => (hd a ha).1) h k
  obtain ⟨T, rfl⟩ := gridPhase_ok h
  have hr := gridPhase_hat hP hG hL hx T
  have em := gridPhase_mass hP hG hL hx hcy T k
  change T.Gd.vis .pressure k = _ at hp
  change ∃ p, T.Gd.vis .pressure k / .fin (T.Gd.m k) = .fin p ∧ lo ≤ p ∧ p ≤ hi
  -- what each point contributes
  have hpt : ∀ y ∈ items T.Ld, weight P.G.nx y.2 k = hat P.G y.2.x k ∧ 0 ≤ weight P.G.nx y.2 k * y.2.m ∧
      heldPressure y.1 y.2 = y.2.pressure := by
    intro y hy
    obtain ⟨x, hx', e, e1, e2, e3⟩ := forall₂_right hr.items hy
    obtain ⟨A, hA, eA, hAx⟩ := mem_items.1 hx'
    have hl := hd A hA
    have eA : A.ph = x.1 := eA
    rw [eA] at hl
    refine ⟨by rw [e1, e2], ?_, ?_⟩
    · rw [e1, e3 hl.2.2]
      exact mul_nonneg (hat_nonneg _ _) (hm x.2 (mem_points_items hx')).le
    · unfold heldPressure
      rw [e, if_neg hl.2.1]
  have em2 : nodalMass P.G s.L k = ((items T.Ld).map fun y => weight P.G.nx y.2 k * y.2.m).sum := by
    unfold nodalMass
    rw [← items_map_snd, List.map_map]
    refine congrArg List.sum (forall₂_map_eq ?_ hr.mem.items)
    rintro x y ⟨e, hx', -, e1, e2, e3⟩
    obtain ⟨A, hA, eA, hAx⟩ := mem_items.1 hx'
    have hl := hd A hA
    have eA : A.ph = x.1 := eA
    rw [eA] at hl
    change hat P.G x.2.x k * x.2.m = _
    rw [e1, e3 hl.2.2]
  have hbd : ∀ y ∈ items T.Ld, lo * (weight P.G.nx y.2 k * y.2.m) ≤
        weight P.G.nx y.2 k * y.2.m * heldPressure y.1 y.2 ∧
      weight P.G.nx y.2 k * y.2.m * heldPressure y.1 y.2 ≤ hi * (weight P.G.nx y.2 k * y.2.m) := by
    intro y hy
    obtain ⟨e1, e2, e3⟩ := hpt y hy
    rw [e3]
    rcases (hat_nonneg (P := P.G) y.2.x k).eq_or_lt with h0 | h0
    · rw [e1, ← h0]; simp
    · obtain ⟨b1, b2⟩ := hb y.2 (mem_points_items hy) h0
      rw [mul_comm lo, mul_comm hi]
      exact ⟨mul_le_mul_of_nonneg_left b1 e2, mul_le_mul_of_nonneg_left b2 e2⟩
  refine ⟨((items T.Ld).map fun x =>
    weight P.G.nx x.2 k * x.2.m * heldPressure x.1 x.2).sum / nodalMass P.G s.L k, ?_, ?_, ?_⟩
  · rw [hp, em, XF.fin_div _ hk.ne']
  · rw [le_div_iff₀ hk, em2, ← List.sum_map_mul_left]
    exact List.sum_le_sum fun y hy => (hbd y hy).1
  · rw [div_le_iff₀ hk, em2, ← List.sum_map_mul_left]
    exact List.sum_le_sum fun y hy => (hbd y hy).2

/-! ## C78 -/

/-- C78.  Under the same stress `elastic_time` reports the opposite of the pressure that `elastic`
(or `von_mises`) reports: compression is positive for one and negative for the other. -/
theorem c78_opposite {ns : ℕ} {c : LawCtx K ns} {mp a b : Particle K ns} {la lb : List (Vis × XF K)}
    {law : Law} (hl : law = .elastic ∨ law = .von_mises)
    (ha : runLaw law c mp = .ok (a, la)) (hb : runLaw .elastic_time c mp = .ok (b, lb)) :
    a.pressure = mp.stress.trace / 3 ∧ b.pressure = -a.pressure ∧
    a.sigmav = mp.stress 1 1 ∧ b.sigmav = -a.sigmav ∧
    a.sigmah = mp.stress 0 0 ∧ b.sigmah = -a.sigmah := by
  have ea : a.pressure = mp.stress.trace / 3 ∧ a.sigmav = mp.stress 1 1 ∧
      a.sigmah = mp.stress 0 0 := by
    rcases hl with rfl | rfl
    · cases ha; exact ⟨rfl, rfl, rfl⟩
    · simp only [runLaw, lawVonMises] at ha
      split at ha
      · cases ha
      split at ha
      · cases ha
      split at ha
      · cases ha
      cases ha; exact ⟨rfl, rfl, rfl⟩
  have eb : b.pressure = -mp.stress.trace / 3 ∧ b.sigmav = -mp.stress 1 1 ∧
      b.sigmah = -mp.stress 0 0 := by
    simp only [runLaw, lawElasticTime] at hb
    split at hb
    · cases hb
    · cases hb; exact ⟨rfl, rfl, rfl⟩
  obtain ⟨a1, a2, a3⟩ := ea
  obtain ⟨b1, b2, b3⟩ := eb
  exact ⟨a1, by rw [b1, a1, neg_div], a2, by rw [b2, a2], a3, by rw [b3, a3]⟩

/-- C78.  `dp_rate` adds to the grid the opposite of the pressure it stores on the point (up to the
out-of-plane stress, which only the stored one counts). -/
theorem c78_dp_rate {ns : ℕ} {c : LawCtx K ns} {mp a : Particle K ns} {la : List (Vis × XF K)}
    (ha : runLaw .dp_rate c mp = .ok (a, la)) :
    a.pressure = (mp.stress 0 0 + mp.stress 1 1 + mp.stress 2 2) / 2 ∧
    listed .pressure la = [.fin (-(a.pressure - mp.stress 2 2 / 2))] := by
  simp only [runLaw, lawDpRate] at ha
  obtain ⟨d, _, ha⟩ := res_bind_ok.1 ha
  obtain ⟨y, _, ha⟩ := res_bind_ok.1 ha
  cases ha
  refine ⟨?_, ?_⟩
  · simp [Matrix.trace, Fin.sum_univ_three]
  · simp only [listed, List.filter_cons, List.filter_nil, decide_true, if_true]
    simp [Matrix.trace, Fin.sum_univ_three, Fin.sum_univ_two, block2]
    ring

/-- C78.  Two points of equal mass at the same place under the same stress, one `elastic` and one
`elastic_time`: together they leave the nodal pressure as if neither were there. -/
theorem c78_cancel {ns N nx : ℕ} {c : LawCtx K ns} {mp a b : Particle K ns}
    {la lb : List (Vis × XF K)} {v v1 v2 : Vis → Fin N → XF K}
    (ha : runLaw .elastic c mp = .ok (a, la)) (hb : runLaw .elastic_time c mp = .ok (b, lb))
    (hm : b.m = a.m) (h1 : scatterVis nx a la v = .ok v1) (h2 : scatterVis nx b lb v1 = .ok v2)
    (k : Fin N) : v2 .pressure k = v .pressure k := by
  have e := (c78_opposite (.inl rfl) ha hb).2.1
  rw [scatterVis_fin h2 (runLaw_pressure (by decide) hb), scatterVis_fin h1 (runLaw_pressure (by decide) ha)]
  have f1 := (runLaw_frame ha).1
  have f2 := (runLaw_frame hb).1
  have ew : weight nx b k = weight nx a k := by
    unfold weight; rw [f1.n_star, f1.N, f2.n_star, f2.N]
  rw [ew, hm, add_assoc]
  have : (XF.fin (weight nx a k * (if Law.elastic = .rigid then [] else [a.pressure]).sum * a.m) +
      XF.fin (weight nx a k * (if Law.elastic_time = .rigid then [] else [b.pressure]).sum * a.m) : XF K)
      = 0 := by
    rw [XF.fin_add]
    change XF.fin _ = XF.fin 0
    congr 1
    simp [e]
  rw [this, add_zero]

/-! ## C79 -/

theorem runLaw_pressure_fin {ns : ℕ} {law : Law} {c : LawCtx K ns} {mp mp' : Particle K ns}
    {l : List (Vis × XF K)} (h : runLaw law c mp = .ok (mp', l)) :
    ∃ xs : List K, listed .pressure l = xs.map .fin := by
  by_cases hd : law = .dp_rate
  · subst hd
    exact ⟨[_], (c78_dp_rate h).2⟩
  · exact ⟨_, runLaw_pressure hd h⟩

/-- A node with zero weight for every point has no pressure. -/
theorem updateStressStrain_untouched {ns nx ny : ℕ} {d : Dyn K} {sz : Fin ns → K}
    {L L' : List (PhaseSt K ns)} {G G' : Grid K (ny * nx) ns} (hL : Counted L)
    (hcy : P.B.cyclic_lr = false) {k : Fin (ny * nx)}
    (hw : ∀ mp ∈ points L, weight nx mp k = 0)
    (h : updateStressStrain P d sz L G = .ok (L', G')) : G'.vis .pressure k = G.vis .pressure k := by
  unfold updateStressStrain at h
  obtain ⟨⟨L1, vis⟩, h1, h⟩ := res_bind_ok.1 h
  rw [hcy] at h
  obtain ⟨rfl, rfl⟩ := Prod.mk.inj (Except.ok.inj h)
  clear h
  change vis .pressure k = _
  have key := forPhases_sum (π := fun v : Vis → Fin (ny * nx) → XF K => v .pressure k)
    (w := fun a => (a.pts.map fun _ => (0 : XF K)).sum)
    (C := fun a => (∀ mp ∈ a.pts, weight nx mp k = 0) ∧ a.ph.n = a.pts.length) (by
      rintro p a v a' v' ⟨ha, hn⟩ h2
      obtain ⟨⟨pts, v1⟩, h3, h2⟩ := res_bind_ok.1 h2
      cases h2
      refine forN_sum (C := fun mp => weight nx mp k = 0)
        (π := fun v : Vis → Fin (ny * nx) → XF K => v .pressure k) ?_ hn ha h3
      intro b s b' s' hb h4
      obtain ⟨mp1, mp2, l, g1, g2, g3, -⟩ := stressStrain_ok h4
      obtain ⟨xs, hxs⟩ := runLaw_pressure_fin g2
      have ew : weight nx mp2 k = 0 := by
        have f := (updateStrain_frame g1).1.trans (runLaw_frame g2).1
        rw [← hb]
        unfold weight; rw [f.n_star, f.N]
      rw [scatterVis_fin g3 hxs, ew, zero_mul, zero_mul]
      rfl)
    (fun a ha => ⟨fun mp hmp => hw mp (List.mem_flatMap.2 ⟨a, ha, hmp⟩), hL a ha⟩) h1
  refine key.trans ?_
  simp

theorem calcGammadot_pressure {ns nx ny : ℕ} (interp : Interp K (ny * nx)) (big M_tol : K)
    (G : Grid K (ny * nx) ns) :
    (G.calcGammadot interp big M_tol).vis .pressure = G.vis .pressure := by
  unfold Grid.calcGammadot
  have hne : Vis.pressure ≠ .gammadot := by decide
  simp [Function.update_of_ne hne]

theorem momentumPhase_pressure {interp : Interp K P.G.N} (h : momentumPhase P interp s = .ok s') :
    s'.G.m = s.G.m ∧ s'.G.vis .pressure = s.G.vis .pressure := by
  refine ⟨(momentumPhase_table h).2.2.2.1, ?_⟩
  unfold momentumPhase at h
  obtain ⟨G1, g1, g2⟩ := res_bind_ok.1 h
  have ev1 : G1.vis = s.G.vis := by rw [BCs_frame g1]
  have ev2 : (G1.updateMomentum P.B P.damping s.dyn.dt P.v_0).vis = G1.vis := rfl
  rw [← Except.ok.inj g2, ← ev1, ← ev2]
  exact calcGammadot_pressure _ _ _ _

theorem segregationPhase_dphi {interp : Interp K P.G.N} (hseg : P.segregate_grid = true)
    (h : segregationPhase P interp s = .ok s') :
    ∃ (rho_s : K) (G : Grid K P.G.N P.G.ns), G.m = s.G.m ∧ G.vis = s.G.vis ∧
      s'.G.dphi = phiIncrement (nx := P.G.nx) (ny := P.G.ny) P s.dyn.dt rho_s P.G.s G := by
  unfold segregationPhase at h
  rw [hseg, if_pos rfl] at h
  dsimp only at h
  split at h
  · cases h
  · obtain ⟨L1, g1, g2⟩ := res_bind_ok.1 h
    rw [← Except.ok.inj g2]
    refine ⟨((mat0 s.L).map (·.rho_s)).getD 0, Grid.updatePk (nx := P.G.nx) (ny := P.G.ny) interp
      P.ops P.M_tol (((mat0 s.L).map (·.rho_s)).getD 0) s.G, ?_, ?_, ?_⟩
    · unfold Grid.updatePk; rfl
    · unfold Grid.updatePk; rfl
    · unfold Grid.makeCyclicVis; rfl

/-- C79.  A whole time step: where a node carries no mass, the grain sizes at the nodes two to its
left, right, above and below, and its own, receive no increment. -/
theorem c79_frozen {interp : Interp K P.G.N} (hP : GoodGrid P.G) (hseg : P.segregate_grid = true)
    (hG : Geometry P.G s.G) (hL : Counted s.L) (hx : ∀ mp ∈ points s.L, InDomain P.G mp.x)
    (hm : ∀ mp ∈ points s.L, 0 < mp.m) (hcy : P.B.cyclic_lr = false)
    (h : timeMarch P interp s = .ok s') {k n : Fin P.G.N} (hk0 : nodalMass P.G s.L k = 0)
    (hk : k = n ∨
      (k : ℕ) / P.G.nx = (n : ℕ) / P.G.nx ∧ ((k : ℕ) = n + 2 ∨ (k : ℕ) + 2 = n) ∨
      (k : ℕ) = n + 2 * P.G.nx ∨ (k : ℕ) + 2 * P.G.nx = n) (j : Fin P.G.ns) :
    s'.G.dphi n j = 0 := by
  obtain ⟨s1, s2, s3, h1, h2, h3, h4⟩ := timeMarch_ok h
  obtain ⟨T, e1⟩ := gridPhase_ok h1
  have em := gridPhase_mass hP hG hL hx hcy T k
  have hz : ∀ mp ∈ points T.Lc, weight P.G.nx mp k = 0 := by
    have r1 := updateForces_rel hL T.ha
    have c1 := r1.counted hL
    have hx1 : ∀ mp ∈ points T.La, InDomain P.G mp.x := by
      intro b hb
      obtain ⟨a, ha, ph, e, -⟩ := forall₂_right r1.points hb
      rw [e]; exact hx a ha
    have r2 := locate_hat_x hP (Mpm.Geometry.wipe hG) c1 hx1 T.hb T.hc
    intro c hc
    obtain ⟨a, ha, ph, b, ⟨e1, -⟩, -, -, -, e3⟩ := forall₂_right (r1.comp r2).points hc
    have := list_sum_eq_zero (f := fun mp : Particle K P.G.ns => hat P.G mp.x k * mp.m)
      (fun a ha => mul_nonneg (hat_nonneg _ _) (hm a ha).le) hk0 a ha
    rw [e3, e1]
    exact (mul_eq_zero.1 this).resolve_right (hm a ha).ne'
  have ep : T.Gd.vis .pressure k = .fin 0 := by
    rw [(gridPhase_vis hL T).2, updateStressStrain_untouched (T.rel hL).2.2.2.1 hcy hz T.hLd,
      (gridPhase_vis hL T).1]
  obtain ⟨em2, ev2⟩ := momentumPhase_pressure h2
  obtain ⟨rho_s, G, eG, eV, ed⟩ := segregationPhase_dphi hseg h3
  have hmk : G.m k = 0 := by rw [eG, em2, e1]; exact em.trans hk0
  have hpk : G.vis .pressure k = .fin 0 := by rw [eV, ev2, e1]; exact ep
  rw [(pointsPhase_frame h4).2, ed]
  exact c73_frozen (nx := P.G.nx) (ny := P.G.ny) hmk hpk hk j

end
/-! ## The hypotheses can be met -/

example : ∃ G s', mkGrid Ex.par.G Ex.par.B = .ok G ∧ Counted Ex.L ∧
    Ex.par.B.cyclic_lr = false ∧ (∀ mp ∈ points Ex.L, InDomain Ex.par.G mp.x) ∧
    (∀ mp ∈ points Ex.L, 0 < mp.m) ∧
    (∀ a ∈ Ex.L, a.ph.law ≠ .dp_rate ∧ a.ph.law ≠ .rigid ∧ a.ph.law ≠ .elastic_time) ∧
    gridPhase Ex.par { dyn := Ex.dyn, L := Ex.L, G := G } = .ok s' ∧
    s'.G.vis .pressure ⟨4, by decide⟩ = .fin (55 / 24) ∧
    s'.G.vis .pressure ⟨0, by decide⟩ = .fin 0 ∧ s'.G.m ⟨4, by decide⟩ = 11 / 8 := by
  obtain ⟨G, h1, h2⟩ := Ex.okAnd_ok (r := mkGrid Ex.par.G Ex.par.B)
    (check := fun G => Ex.okAnd (gridPhase Ex.par { dyn := Ex.dyn, L := Ex.L, G := G })
      fun s' => decide (s'.G.vis .pressure ⟨4, by decide⟩ = .fin (55 / 24) ∧
        s'.G.vis .pressure ⟨0, by decide⟩ = .fin 0 ∧ s'.G.m ⟨4, by decide⟩ = 11 / 8))
    (by decide +kernel)
  obtain ⟨s', h3, h4⟩ := Ex.okAnd_ok h2
  refine ⟨G, s', h1, Ex.countedL, rfl, Ex.inDomainL, ?_, ?_, h3, of_decide_eq_true h4⟩
  · intro mp hmp
    have : mp = Ex.mp ∨ mp = Ex.mp2 := by simpa [points, Ex.L] using hmp
    rcases this with rfl | rfl <;> decide +kernel
  · intro A hA
    have : A = { ph := Ex.ph, pts := [Ex.mp, Ex.mp2] } := List.mem_singleton.1 hA
    rw [this]
    decide

/-- A context in which the laws of C78 accept the example point (at a time before `t_0`). -/
def Ex.lawC : LawCtx ℚ 2 :=
  { ops := Ex.ops, mat := Ex.mat, mat0 := Ex.mat, p := 0, t := 0, dt := 1 / 100, s := ![1, 2]
    max_g := 10, height := 1 }

example : Ex.okAnd (runLaw .elastic Ex.lawC Ex.mp) (fun a => Ex.okAnd
    (runLaw .elastic_time Ex.lawC Ex.mp) fun b => Ex.okAnd (runLaw .von_mises Ex.lawC Ex.mp) fun c =>
      decide (a.1.pressure = 5 / 3 ∧ b.1.pressure = -(5 / 3) ∧ c.1.pressure = 5 / 3 ∧
        b.1.m = a.1.m)) = true := by
  decide +kernel

example : Ex.okAnd (runLaw .dp_rate Ex.lawC Ex.mp) (fun a => decide (a.1.pressure = 5 / 2 ∧
    listed .pressure a.2 = [.fin (-2)])) = true := by
  decide +kernel

example : Ex.okAnd (runLaw .elastic Ex.lawC Ex.mp) (fun a => Ex.okAnd
    (scatterVis (N := 9) 3 a.1 a.2 fun _ _ => .fin 0) fun _ => true) = true := by
  decide +kernel

/-- C79: node 0 of the example carries no mass. -/
example : ∃ G s', mkGrid Ex.parSeg.G Ex.parSeg.B = .ok G ∧
    timeMarch Ex.parSeg (Ex.noInterp _) { dyn := Ex.dyn, L := Ex.L, G := G } = .ok s' ∧
    nodalMass Ex.parSeg.G Ex.L ⟨0, by decide⟩ = 0 := by
  obtain ⟨G, s', h1, h2, h3⟩ := Ex.run_one (P := Ex.parSeg) (d := Ex.dyn) (L := Ex.L)
    (check := fun _ => true) (by decide +kernel)
  exact ⟨G, s', h1, h2, by decide +kernel⟩

end Mpm

import Verif.Model.Scatter
import Verif.Props.Listed
import Verif.Props.Density
import Verif.Props.Patch
import Verif.Props.Initial
import Verif.Props.Volume
import Verif.Props.Box
import Verif.Props.Measure
import Verif.Lemmas.Run
import Verif.ExRun

set_option linter.unusedSectionVars false

/-!
# The figures of the material points (C126)
-/

namespace Mpm
open Spec

section
variable {K : Type} [Field K] [LinearOrder K] [IsStrictOrderedRing K] {ns : ℕ}

/-- The numbers that a figure shows in the panel of a given title, point by point. -/
def Spec.shownIn (t : String) (F : List (PointPanel K)) : Option (List (List (XF K))) :=
  (F.lookup t).map fun rows => rows.map fun r => r.2.2

/-- Where the points of a panel are drawn. -/
def Spec.drawnAt (p : PointPanel K) : List (K × K) := p.2.map fun r => (r.1, r.2.1)

theorem firstN_all {α : Type} (l : List α) : firstN l.length l = .ok l := by
  unfold firstN
  rw [if_pos le_rfl, List.take_length]

theorem withAttr_some {α β : Type} {f : α → Option β} {g : α → β} {l : List α}
    (h : ∀ a ∈ l, f a = some (g a)) : withAttr f l = .ok (l.map fun a => (a, g a)) := by
  induction l with
  | nil => rfl
  | cons a l ih =>
    rw [withAttr, h a List.mem_cons_self, ih fun b hb => h b (List.mem_cons_of_mem _ hb)]
    rfl

theorem withAttr_fst {α β : Type} {f : α → Option β} {l : List α} {r : List (α × β)}
    (h : withAttr f l = .ok r) : r.map (·.1) = l := by
  induction l generalizing r with
  | nil => cases h; rfl
  | cons a l ih =>
    rw [withAttr] at h
    split at h
    · cases h
    · obtain ⟨r', h', h⟩ := res_bind_ok.1 h
      cases h
      rw [List.map_cons, ih h']

theorem withAttr_none {α β : Type} {f : α → Option β} {l : List α} (h : ∃ a ∈ l, f a = none) :
    withAttr f l = .error .attribute := by
  induction l with
  | nil => obtain ⟨a, ha, -⟩ := h; cases ha
  | cons a l ih =>
    rw [withAttr]
    split
    · rfl
    · rename_i b hb
      obtain ⟨c, hc, hn⟩ := h
      rcases List.mem_cons.1 hc with rfl | hc
      · rw [hn] at hb; cases hb
      · rw [ih ⟨c, hc, hn⟩]; rfl

/-- C126.  Every panel of the figure of a phase draws every point of the phase once, in order, where
it is; the velocity is that of the point. -/
theorem c126_places {o : Ops K} {dt : K} {dd : Particle K ns → Option (Mat K)}
    {q : Particle K ns → Option K} {A : PhaseSt K ns} (hA : A.ph.n = A.pts.length)
    {F : List (PointPanel K)} (h : pointsFigure o dt dd q A = .ok F) :
    (∀ p ∈ F, drawnAt p = A.pts.map fun mp => (mp.x 0, mp.x 1)) ∧
    shownIn "u" F =
      some (A.pts.map fun mp => [.fin (mp.v.get A.ph.iv 0), .fin (mp.v.get A.ph.iv 1)]) := by
  have e : ∀ pts : List (Particle K ns), (∀ p ∈ placePanels A.ph.iv pts,
      drawnAt p = pts.map fun mp => (mp.x 0, mp.x 1)) ∧
      ∀ G : List (PointPanel K), shownIn "u" (placePanels A.ph.iv pts ++ G) =
        some (pts.map fun mp => [.fin (mp.v.get A.ph.iv 0), .fin (mp.v.get A.ph.iv 1)]) := by
    intro pts
    refine ⟨?_, fun G => ?_⟩
    · intro p hp
      simp only [placePanels, List.mem_cons, List.not_mem_nil, or_false] at hp
      rcases hp with rfl | rfl <;> simp [drawnAt, pointPanel]
    · simp [shownIn, placePanels, pointPanel, List.lookup]
  unfold pointsFigure at h
  rw [hA, firstN_all] at h
  simp only [Except.bind, bind] at h
  have key : ∀ G : List (PointPanel K), (∀ p ∈ G, drawnAt p = A.pts.map fun mp => (mp.x 0, mp.x 1)) →
      (∀ p ∈ placePanels A.ph.iv A.pts ++ G, drawnAt p = A.pts.map fun mp => (mp.x 0, mp.x 1)) ∧
      shownIn "u" (placePanels A.ph.iv A.pts ++ G) =
        some (A.pts.map fun mp => [.fin (mp.v.get A.ph.iv 0), .fin (mp.v.get A.ph.iv 1)]) := by
    intro G hG
    refine ⟨fun p hp => ?_, (e A.pts).2 G⟩
    rcases List.mem_append.1 hp with hp | hp
    · exact (e A.pts).1 p hp
    · exact hG p hp
  split at h
  · cases h
    refine key _ fun p hp => ?_
    simp only [List.mem_cons, List.not_mem_nil, or_false] at hp
    rcases hp with rfl | rfl | rfl | rfl <;> simp [drawnAt, pointPanel]
  · obtain ⟨l, hl, h⟩ := res_bind_ok.1 h
    cases h
    unfold vonMisesPoints
    simp only [withAttr_fst hl]
    refine key _ fun p hp => ?_
    simp only [List.mem_cons, List.not_mem_nil, or_false] at hp
    have hl' := withAttr_fst hl
    rcases hp with rfl | rfl | rfl | rfl | rfl | rfl | rfl
    all_goals first
      | simp [drawnAt, pointPanel]; done
      | simp [drawnAt, ← hl']
  · obtain ⟨l, hl, h⟩ := res_bind_ok.1 h
    cases h
    unfold dpPoints
    simp only [withAttr_fst hl]
    refine key _ fun p hp => ?_
    simp only [List.mem_cons, List.not_mem_nil, or_false] at hp
    have hl' := withAttr_fst hl
    rcases hp with rfl | rfl
    · simp [drawnAt, pointPanel]
    · simp [drawnAt, ← hl']
  · cases h
    have := key [] (by simp)
    rwa [List.append_nil] at this

end

section
variable {K : Type} [Field K] [LinearOrder K] [IsStrictOrderedRing K] [FloorRing K]
variable {P : Par K} {interp : Interp K P.G.N} {s s' : St P}

/-- What the law of a point works on in a step, and what of its result is there at the end. -/
theorem Evolved.lawRun {d : Dyn K} {m0 : Option (Mat0 K)} {Gw Gb Gm : Grid K P.G.N P.G.ns} {p : ℕ}
    {ph : Phase K P.G.ns} {a b : Particle K P.G.ns} (h : Evolved P d m0 Gw Gb Gm p ph a b) :
    ∃ c1 c2 l, runLaw ph.law (lawCtx P d P.G.s (m0.getD ph.par) p ph) c1 = .ok (c2, l) ∧
      c1.stress = a.stress ∧ c1.dev_stress = a.dev_stress ∧ c1.gammadot = a.gammadot ∧
      b.strain = a.strain + c1.dstrain ∧ b.gammadot = c2.gammadot ∧ b.pressure = c2.pressure ∧
      b.sigmav = c2.sigmav ∧ b.sigmah = c2.sigmah ∧ b.yieldfunction = c2.yieldfunction ∧
      b.dev_stress = c2.dev_stress := by
  obtain ⟨a3, a4, a5, l, e3, u1, u2, u4⟩ := h.law
  obtain ⟨nd, -, w⟩ := updateStrain_ok u1
  refine ⟨a4, a5, l, u2, ?_, ?_, ?_, ?_, ?_, ?_, ?_, ?_, ?_, ?_⟩
  · rw [w, e3]
  · rw [w, e3]
  · rw [w, e3]
  · have s2 := (runLaw_frame u2).2.1
    have : b.strain = a5.strain := by rw [u4]; rfl
    rw [this, s2, w, e3]
  all_goals
    rw [u4]; rfl

/-- C126.  What the points of the laws `elastic` and `von_mises` have after a step, and the figures
show, as stress is the stress with which they entered the step; as shear rate the norm of the
deviatoric strain increment of the step. -/
theorem evolved_shown (ho : GoodOps P.ops) {d : Dyn K} {m0 : Option (Mat0 K)}
    {Gw Gb Gm : Grid K P.G.N P.G.ns} {p : ℕ} {ph : Phase K P.G.ns} {a b : Particle K P.G.ns}
    (hl : ph.law = .elastic ∨ ph.law = .von_mises) (h : Evolved P d m0 Gw Gb Gm p ph a b) :
    b.sigmav = a.stress 1 1 ∧ b.sigmah = a.stress 0 0 ∧ b.pressure = a.stress.trace / 3 ∧
      0 ≤ b.gammadot ∧ b.gammadot ^ 2 = devSq (b.strain - a.strain) := by
  obtain ⟨c1, c2, l, hr, e1, e2, -, e3, g1, g2, g3, g4, -, -⟩ := h.lawRun
  rw [g1, g2, g3, g4, e3, add_sub_cancel_left, ← e1]
  have hs := devSq_nonneg c1.dstrain
  have k : ∀ g : K, g = P.ops.sqrt (devSq c1.dstrain) → 0 ≤ g ∧ g ^ 2 = devSq c1.dstrain := by
    rintro g rfl
    exact ⟨ho.sqrt_nonneg _ hs, by rw [pow_two, ho.sqrt_mul _ hs]⟩
  rcases hl with hl | hl
  · rw [hl] at hr
    cases hr
    exact ⟨rfl, rfl, rfl, k _ (by rw [← frob_dev]; rfl)⟩
  · rw [hl] at hr
    simp only [runLaw, lawVonMises] at hr
    split at hr
    · cases hr
    split at hr
    · cases hr
    split at hr
    · cases hr
    cases hr
    exact ⟨rfl, rfl, rfl, k _ (by rw [← frob_dev]; rfl)⟩


/-- What `draw_gamma_dot` makes of a point of a law in a step of size `dt` that strained it by `e`,
`g0` being what was stored with the point before. -/
def Spec.RateShown (dt g0 : K) (e : Mat K) (g : K) : Law → Prop
  | .elastic | .elastic_time | .von_mises => 0 ≤ g ∧ (g * dt) ^ 2 = devSq e
  | .dp_rate => 0 ≤ g ∧ (g * dt) ^ 2 = planeDevSq e
  | .viscous | .bingham => 0 ≤ g ∧ (g * dt * dt) ^ 2 = devSq e
  | .pouliquen | .linear_mu => 0 ≤ g ∧ (g * dt * dt) ^ 2 = 4 * devSq e
  | .ken_kamrin => 1 / 10 ^ 5 ≤ g * dt ∧ 2 * devSq e ≤ (g * dt * dt) ^ 2 ∧
      (g * dt = 1 / 10 ^ 5 ∨ (g * dt * dt) ^ 2 = 2 * devSq e)
  | .ken_simple | .rigid => g * dt = g0
  | .dp | .viscous_size | .pouliquen2D | .other => False

theorem runLaw_stored {law : Law} {c : LawCtx K P.G.ns} (ho : GoodOps c.ops) (hdt : 0 < c.dt)
    {mp mp' : Particle K P.G.ns} {l : List (Vis × XF K)} (h : runLaw law c mp = .ok (mp', l)) :
    RateShown c.dt mp.gammadot mp.dstrain (mp'.gammadot / c.dt) law := by
  have hs := devSq_nonneg mp.dstrain
  have k : ∀ g : K, g = c.ops.sqrt (devSq mp.dstrain) →
      0 ≤ g / c.dt ∧ (g / c.dt * c.dt) ^ 2 = devSq mp.dstrain := by
    rintro g rfl
    exact sqrt_sq_div ho hs hdt
  have k2 : ∀ g : K, g = c.ops.sqrt (devSq mp.dstrain) / c.dt →
      0 ≤ g / c.dt ∧ (g / c.dt * c.dt * c.dt) ^ 2 = devSq mp.dstrain := by
    rintro g rfl
    obtain ⟨h1, h2⟩ := sqrt_sq_div ho hs hdt
    exact ⟨div_nonneg h1 hdt.le, by rw [div_mul_cancel₀ _ hdt.ne', h2]⟩
  have k4 : ∀ g : K, g = c.ops.sqrt (frob ((2 / c.dt) • (mp.dstrain - (mp.dstrain.trace / 3) • (1 : Mat K)))
      ((2 / c.dt) • (mp.dstrain - (mp.dstrain.trace / 3) • (1 : Mat K)))) →
      0 ≤ g / c.dt ∧ (g / c.dt * c.dt * c.dt) ^ 2 = 4 * devSq mp.dstrain := by
    rintro g rfl
    rw [frob_smul, frob_smul_right, frob_dev]
    have h0 : 0 ≤ 2 / c.dt * (2 / c.dt * devSq mp.dstrain) := by positivity
    refine ⟨div_nonneg (ho.sqrt_nonneg _ h0) hdt.le, ?_⟩
    rw [div_mul_cancel₀ _ hdt.ne', mul_pow, pow_two (c.ops.sqrt _), ho.sqrt_mul _ h0]
    field_simp
    ring
  cases law
  case elastic => cases h; exact k _ (by rw [← frob_dev])
  case rigid => cases h; exact div_mul_cancel₀ _ hdt.ne'
  case elastic_time =>
    simp only [runLaw, lawElasticTime] at h
    split at h
    · cases h
    cases h
    exact k _ (by rw [← frob_dev])
  case von_mises =>
    simp only [runLaw, lawVonMises] at h
    split at h
    · cases h
    split at h
    · cases h
    split at h
    · cases h
    cases h
    exact k _ (by rw [← frob_dev])
  case dp =>
    simp only [runLaw, lawDp] at h
    split at h <;> cases h
  case dp_rate =>
    obtain ⟨g, h1, h2, h3⟩ := c106_plane_rate ho hdt h
    simp only [runLaw, lawDpRate] at h
    obtain ⟨d, _, h⟩ := res_bind_ok.1 h
    obtain ⟨y, _, h⟩ := res_bind_ok.1 h
    cases h
    have h1 : [(.fin _ / .fin c.dt : XF K)] = [.fin g] := h1
    rw [XF.fin_div _ hdt.ne', List.cons.injEq, XF.fin.injEq] at h1
    rw [← h1.1] at h2 h3
    exact ⟨h2, h3⟩
  case viscous =>
    simp only [runLaw, lawViscous, if_neg hdt.ne'] at h
    cases h
    exact k2 _ (by rw [← frob_dev])
  case bingham =>
    simp only [runLaw, lawBingham, if_neg hdt.ne'] at h
    obtain ⟨a, _, h⟩ := res_bind_ok.1 h
    obtain ⟨b, _, h⟩ := res_bind_ok.1 h
    cases h
    exact k2 _ (by rw [← frob_dev])
  case ken_kamrin =>
    obtain ⟨g, h1, h2, h3, h4, -⟩ := c106_ken_kamrin_rate ho hdt h
    have e : 2 * devSq (rate c.dt mp.dstrain) * c.dt ^ 2 = 2 * devSq mp.dstrain := by
      unfold devSq
      rw [rate_dev, deviator_eq]
      simp only [Matrix.smul_apply, smul_eq_mul, mul_pow, ← Finset.mul_sum]
      field_simp
    unfold RateShown
    rw [h4, div_mul_cancel₀ _ hdt.ne', mul_pow, ← e]
    refine ⟨h1, mul_le_mul_of_nonneg_right h3 (sq_nonneg _), h2.imp_right fun h => by rw [h]⟩
  case pouliquen =>
    simp only [runLaw, lawPouliquen, if_neg hdt.ne'] at h
    obtain ⟨⟨a, b, e⟩, _, h⟩ := res_bind_ok.1 h
    simp only at h
    split at h
    · cases h
      exact k4 _ rfl
    · cases h
  case linear_mu =>
    simp only [runLaw, lawLinearMu, if_neg hdt.ne'] at h
    obtain ⟨a, _, h⟩ := res_bind_ok.1 h
    obtain ⟨b, _, h⟩ := res_bind_ok.1 h
    obtain ⟨e, _, h⟩ := res_bind_ok.1 h
    cases h
    exact k4 _ rfl
  case ken_simple =>
    simp only [runLaw, lawKenSimple, if_neg hdt.ne'] at h
    obtain ⟨a, _, h⟩ := res_bind_ok.1 h
    cases h
    exact div_mul_cancel₀ _ hdt.ne'
  all_goals cases h

/-- C126.  `draw_gamma_dot` after a step (no inlets or outlets): one figure for every phase that is
not rigid, in order, that draws every point where it is, with the value `RateShown`: the norm of
the rate of the deviatoric strain for the solid laws, but that rate divided by the step size once
more (and doubled, bounded below, or left as it was) for the others. -/
theorem c126_rate (ho : GoodOps P.ops) (hL : Counted s.L) (hdt : 0 < s.dyn.dt)
    (hi : P.B.inlet_right = false ∧ P.B.inlet_top = false)
    (hu : P.B.outlet_left = false ∧ P.B.outlet_bottom = false)
    (h : timeMarch P interp s = .ok s') :
    ∃ r : Particle K P.G.ns → K,
      gammaDotFigures s'.dyn.dt s'.L = .ok ((s'.L.filter fun B => B.ph.law ≠ .rigid).map fun B =>
        ("gammadot", B.pts.map fun b => (b.x 0, b.x 1, [.fin (r b)]))) ∧
      List.Forall₂ (fun A B => A.ph.law = B.ph.law ∧ List.Forall₂ (fun a b =>
        RateShown s.dyn.dt a.gammadot (b.strain - a.strain) (r b) B.ph.law) A.pts B.pts)
        s.L s'.L := by
  have hc := timeMarch_counted hL h
  have ed : s'.dyn.dt = s.dyn.dt := by rw [(timeMarch_table h).2.2.2]; rfl
  obtain ⟨T, s1, s2, s3, h1, e1, h2, h3, h4, h5, hR⟩ := timeMarch_idx hL h
  have et : T.d.dt = s.dyn.dt := by rw [T.hd]; rfl
  refine ⟨fun b => b.gammadot / s.dyn.dt, ?_, hR.forall₂ ?_⟩
  · rw [ed]
    clear hR h1 h2 h3 h4 h5 h ed
    generalize s'.L = L at hc ⊢
    induction L with
    | nil => rfl
    | cons A L ih =>
      have ihL := ih fun B hB => hc B (List.mem_cons_of_mem _ hB)
      rw [gammaDotFigures]
      by_cases hr : A.ph.law = .rigid
      · rw [if_pos hr, List.filter_cons_of_neg (by simpa using hr)]
        exact ihL
      · rw [if_neg hr, List.filter_cons_of_pos (by simpa using hr), hc A List.mem_cons_self,
          firstN_all, ihL, List.map_cons]
        simp only [bind, Except.bind, pure, Except.pure, pointPanel, shownRate,
          XF.fin_div _ hdt.ne']
  · rintro p A B ⟨e, -, evo, kept, new, hev, -, hk, hke, hin, -, hB⟩
    rw [hin hi.1 hi.2, List.append_nil, hke hu.1 hu.2] at hB
    have el : A.ph.law = B.ph.law := by rw [e]
    rw [hB]
    refine ⟨el, hev.imp fun a b hab => ?_⟩
    obtain ⟨c1, c2, l, hr, f1, f2, f3, f4, f5, -⟩ := hab.lawRun
    have := runLaw_stored (c := lawCtx P T.d P.G.s ((mat0 s.L).getD A.ph.par) p A.ph) ho
      (by show 0 < T.d.dt; rw [et]; exact hdt) hr
    show RateShown _ _ _ (b.gammadot / _) _
    rw [f4, add_sub_cancel_left, f5, ← f3, ← el, ← et]
    exact this

/-- C126.  The figure of a phase of the law `elastic` or `von_mises` after a step (no inlets or
outlets): drawn where the points are at the end of the step, it shows the stresses that they had at
its beginning; as shear rate it shows the norm of the rate of their deviatoric strain in the step. -/
theorem c126_behind (ho : GoodOps P.ops) (hL : Counted s.L) (hdt : 0 < s.dyn.dt)
    (hi : P.B.inlet_right = false ∧ P.B.inlet_top = false)
    (hu : P.B.outlet_left = false ∧ P.B.outlet_bottom = false)
    (h : timeMarch P interp s = .ok s') :
    List.Forall₂ (fun A B => ∀ dd q F, B.ph.law = .elastic ∨ B.ph.law = .von_mises →
      pointsFigure P.ops s'.dyn.dt dd q B = .ok F →
      (∀ p ∈ F, drawnAt p = B.pts.map fun mp => (mp.x 0, mp.x 1)) ∧
      shownIn "sigma_v" F = some (A.pts.map fun a => [.fin (a.stress 1 1)]) ∧
      shownIn "sigma_h" F = some (A.pts.map fun a => [.fin (a.stress 0 0)]) ∧
      shownIn "P" F = some (A.pts.map fun a => [.fin (a.stress.trace / 3)]) ∧
      ∃ r : Particle K P.G.ns → K,
        shownIn (if B.ph.law = .elastic then "gammadot" else "|epsdot_ij|") F =
          some (B.pts.map fun b => [.fin (r b)]) ∧
        List.Forall₂ (fun a b => 0 ≤ r b ∧
          (r b) ^ 2 = devSq (rate s.dyn.dt (b.strain - a.strain))) A.pts B.pts)
      s.L s'.L := by
  have hc := timeMarch_counted hL h
  have ed : s'.dyn.dt = s.dyn.dt := by rw [(timeMarch_table h).2.2.2]; rfl
  obtain ⟨T, s1, s2, s3, h1, e1, h2, h3, h4, h5, hR⟩ := timeMarch_idx hL h
  have hF : List.Forall₂ (fun A B => B.ph.law = .elastic ∨ B.ph.law = .von_mises →
      List.Forall₂ (fun a b => b.sigmav = a.stress 1 1 ∧ b.sigmah = a.stress 0 0 ∧
        b.pressure = a.stress.trace / 3 ∧ 0 ≤ b.gammadot ∧
        b.gammadot ^ 2 = devSq (b.strain - a.strain)) A.pts B.pts) s.L s'.L := by
    refine hR.forall₂ ?_
    rintro p A B ⟨e, -, evo, kept, new, hev, -, hk, hke, hin, -, hB⟩ hl
    rw [hin hi.1 hi.2, List.append_nil, hke hu.1 hu.2] at hB
    rw [hB]
    have el : A.ph.law = B.ph.law := by rw [e]
    exact hev.imp fun a b hab => evolved_shown ho (by rwa [el]) hab
  refine (forall₂_mem hF).imp ?_
  rintro A B ⟨-, hm, hAB⟩ dd q F hl hF
  have hB := hc B hm
  refine ⟨(c126_places hB hF).1, ?_⟩
  have hp := hAB hl
  have m : ∀ (f g : Particle K P.G.ns → K), (∀ a b, (b.sigmav = a.stress 1 1 ∧
      b.sigmah = a.stress 0 0 ∧ b.pressure = a.stress.trace / 3 ∧ 0 ≤ b.gammadot ∧
        b.gammadot ^ 2 = devSq (b.strain - a.strain)) → f b = g a) →
      B.pts.map (fun b => [XF.fin (f b)]) = A.pts.map fun a => [XF.fin (g a)] := by
    intro f g hfg
    revert hp
    generalize A.pts = l1
    generalize B.pts = l2
    intro hp
    induction hp with
    | nil => rfl
    | cons hab _ ih => rw [List.map_cons, List.map_cons, hfg _ _ hab, ih]
  have mv := m (·.sigmav) (fun a => a.stress 1 1) fun a b h => h.1
  have mh := m (·.sigmah) (fun a => a.stress 0 0) fun a b h => h.2.1
  have mp := m (·.pressure) (fun a => a.stress.trace / 3) fun a b h => h.2.2.1
  have mr : List.Forall₂ (fun a b : Particle K P.G.ns => 0 ≤ b.gammadot / s.dyn.dt ∧
      (b.gammadot / s.dyn.dt) ^ 2 = devSq (rate s.dyn.dt (b.strain - a.strain))) A.pts B.pts := by
    refine hp.imp fun a b hab => ⟨div_nonneg hab.2.2.2.1 hdt.le, ?_⟩
    rw [div_pow, hab.2.2.2.2]
    unfold devSq
    rw [rate_dev, deviator_eq]
    simp only [Matrix.smul_apply, smul_eq_mul, mul_pow, ← Finset.mul_sum]
    field_simp
  have hd : ∀ b : Particle K P.G.ns, shownRate s'.dyn.dt b = .fin (b.gammadot / s.dyn.dt) := by
    intro b; unfold shownRate; rw [ed, XF.fin_div _ hdt.ne']
  unfold pointsFigure at hF
  rw [hB, firstN_all] at hF
  simp only [Except.bind, bind] at hF
  rcases hl with hl | hl
  · rw [hl] at hF ⊢
    cases hF
    refine ⟨?_, ?_, ?_, fun b => b.gammadot / s.dyn.dt, ?_, mr⟩
    · rw [← mv]; simp [shownIn, elasticPoints, placePanels, pointPanel, List.lookup]
    · rw [← mh]; simp [shownIn, elasticPoints, placePanels, pointPanel, List.lookup]
    · rw [← mp]; simp [shownIn, elasticPoints, placePanels, pointPanel, List.lookup]
    · simp [shownIn, elasticPoints, placePanels, pointPanel, List.lookup, hd]
  · rw [hl] at hF ⊢
    simp only at hF
    obtain ⟨l, hl', hF⟩ := res_bind_ok.1 hF
    cases hF
    have hl' := withAttr_fst hl'
    refine ⟨?_, ?_, ?_, fun b => b.gammadot / s.dyn.dt, ?_, mr⟩
    · rw [← mv]; simp [shownIn, vonMisesPoints, placePanels, pointPanel, List.lookup, ← hl']
    · rw [← mh]; simp [shownIn, vonMisesPoints, placePanels, pointPanel, List.lookup, ← hl']
    · rw [← mp]; simp [shownIn, vonMisesPoints, placePanels, pointPanel, List.lookup, ← hl']
    · simp [shownIn, vonMisesPoints, placePanels, pointPanel, List.lookup, hd, ← hl']

/-- C126.  The other panels of the figure of a `von_mises` phase after a step: `y_Phi` shows how far
the deviatoric stress at the beginning of the step was beyond the yield stress `sqrt(2)*k`, as a
fraction of it; `|sigma_ij|` the norm of the deviatoric stress kept at the end of the step, and
`|sigmadot_ij|` that of `dev_dstress` divided by the size of the step. -/
theorem c126_yield (ho : GoodOps P.ops) (hL : Counted s.L) (hdt : 0 < s.dyn.dt)
    (hi : P.B.inlet_right = false ∧ P.B.inlet_top = false)
    (hu : P.B.outlet_left = false ∧ P.B.outlet_bottom = false)
    (h : timeMarch P interp s = .ok s') :
    List.Forall₂ (fun A B => ∀ (dd : Particle K P.G.ns → Mat K) q F, B.ph.law = .von_mises →
      pointsFigure P.ops s'.dyn.dt (fun b => some (dd b)) q B = .ok F →
      ∃ y d r : Particle K P.G.ns → K,
        shownIn "y_Phi" F = some (B.pts.map fun b => [.fin (y b)]) ∧
        shownIn "|sigma_ij|" F = some (B.pts.map fun b => [.fin (d b)]) ∧
        shownIn "|sigmadot_ij|" F = some (B.pts.map fun b => [.fin (r b)]) ∧
        (∀ b ∈ B.pts, 0 ≤ d b ∧ (d b) ^ 2 = ∑ i, ∑ j, b.dev_stress i j ^ 2) ∧
        (∀ b ∈ B.pts, 0 ≤ r b ∧ (r b * s.dyn.dt) ^ 2 = ∑ i, ∑ j, dd b i j ^ 2) ∧
        List.Forall₂ (fun a b => -1 ≤ y b ∧
          (y b + 1) ^ 2 * (2 * B.ph.par.k ^ 2) = ∑ i, ∑ j, a.dev_stress i j ^ 2) A.pts B.pts)
      s.L s'.L := by
  have hc := timeMarch_counted hL h
  have ed : s'.dyn.dt = s.dyn.dt := by rw [(timeMarch_table h).2.2.2]; rfl
  have fe : ∀ M : Mat K, (∑ i, ∑ j, M i j ^ 2) = frob M M := fun M => by
    unfold frob; simp only [pow_two]
  have f0 : ∀ M : Mat K, 0 ≤ frob M M := fun M => by
    rw [← fe]; exact Finset.sum_nonneg fun _ _ => Finset.sum_nonneg fun _ _ => sq_nonneg _
  have sq : ∀ M : Mat K, P.ops.sqrt (frob M M) ^ 2 = ∑ i, ∑ j, M i j ^ 2 := fun M => by
    rw [pow_two, ho.sqrt_mul _ (f0 M), fe]
  obtain ⟨T, s1, s2, s3, h1, e1, h2, h3, h4, h5, hR⟩ := timeMarch_idx hL h
  have hF : List.Forall₂ (fun A B => B.ph.law = .von_mises → List.Forall₂ (fun a b =>
      -1 ≤ b.yieldfunction ∧ (b.yieldfunction + 1) ^ 2 * (2 * B.ph.par.k ^ 2) =
        ∑ i, ∑ j, a.dev_stress i j ^ 2) A.pts B.pts) s.L s'.L := by
    refine hR.forall₂ ?_
    rintro p A B ⟨e, -, evo, kept, new, hev, -, hk, hke, hin, -, hB⟩ hl
    rw [hin hi.1 hi.2, List.append_nil, hke hu.1 hu.2] at hB
    have el : A.ph.law = B.ph.law := by rw [e]
    have ep : A.ph.par = B.ph.par := by rw [e]
    rw [hB]
    refine hev.imp fun a b hab => ?_
    obtain ⟨c1, c2, l, hr, -, f2, -, -, -, -, -, -, f9, -⟩ := hab.lawRun
    rw [el, hl] at hr
    simp only [runLaw, lawVonMises] at hr
    split at hr
    · cases hr
    rename_i k0
    split at hr
    · cases hr
    rename_i k1
    split at hr
    · cases hr
    cases hr
    have kp : 0 < B.ph.par.k := by
      rw [← ep]; exact lt_of_le_of_ne (not_lt.1 k1) (Ne.symm k0)
    have r2 := ho.sqrt_pos (x := 2) two_pos
    have m2 := ho.sqrt_mul 2 two_pos.le
    rw [f9, ← f2]
    show -1 ≤ P.ops.sqrt (frob c1.dev_stress c1.dev_stress) / (P.ops.sqrt 2 * A.ph.par.k) - 1 ∧
      (P.ops.sqrt (frob c1.dev_stress c1.dev_stress) / (P.ops.sqrt 2 * A.ph.par.k) - 1 + 1) ^ 2 *
        (2 * B.ph.par.k ^ 2) = _
    rw [ep, ← sq c1.dev_stress]
    constructor
    · have := div_nonneg (ho.sqrt_nonneg _ (f0 c1.dev_stress)) (mul_pos r2 kp).le
      linarith
    · rw [sub_add_cancel, div_pow, div_mul_eq_mul_div, div_eq_iff (pow_pos (mul_pos r2 kp) 2).ne']
      linear_combination (-(P.ops.sqrt (frob c1.dev_stress c1.dev_stress)) ^ 2 *
        B.ph.par.k ^ 2) * m2
  refine (forall₂_mem hF).imp ?_
  rintro A B ⟨-, hm, hAB⟩ dd q F hl hF
  have hB := hc B hm
  unfold pointsFigure at hF
  rw [hB, firstN_all] at hF
  simp only [Except.bind, bind] at hF
  rw [hl] at hF
  simp only at hF
  rw [withAttr_some fun a _ => rfl] at hF
  cases hF
  refine ⟨(·.yieldfunction), fun b => P.ops.sqrt (frob b.dev_stress b.dev_stress),
    fun b => P.ops.sqrt (frob (dd b) (dd b)) / s.dyn.dt, ?_, ?_, ?_, fun b _ => ⟨ho.sqrt_nonneg _ (f0 _), sq _⟩,
    fun b _ => ⟨div_nonneg (ho.sqrt_nonneg _ (f0 _)) hdt.le, ?_⟩, hAB hl⟩
  · simp [shownIn, vonMisesPoints, placePanels, pointPanel, List.lookup]
  · simp [shownIn, vonMisesPoints, placePanels, pointPanel, List.lookup]
  · simp [shownIn, vonMisesPoints, placePanels, pointPanel, List.lookup, ed, XF.fin_div _ hdt.ne']
  · rw [div_mul_cancel₀ _ hdt.ne', sq]

/-- C55.  What the refinement calls yielding, for the only law whose name suggests it: after a step
of `von_mises` phases (no inlets or outlets) a point is beyond the threshold of
`MatPointList.update_timestep` if and only if at the *beginning* of the step its deviatoric stress
was more than 1.99 times the yield stress `sqrt(2)*k`, not 0.99 times it. -/
theorem c55_threshold (ho : GoodOps P.ops) (hL : Counted s.L)
    (hi : P.B.inlet_right = false ∧ P.B.inlet_top = false)
    (hu : P.B.outlet_left = false ∧ P.B.outlet_bottom = false)
    (hl : ∀ A ∈ s.L, A.ph.law = .von_mises) (h : timeMarch P interp s = .ok s') :
    SomeYielded s'.L ↔ ∃ A ∈ s.L, ∃ a ∈ A.pts,
      (199 / 100) ^ 2 * (2 * A.ph.par.k ^ 2) < ∑ i, ∑ j, a.dev_stress i j ^ 2 := by
  obtain ⟨T, s1, s2, s3, h1, e1, h2, h3, h4, h5, hR⟩ := timeMarch_idx hL h
  have hF : List.Forall₂ (fun A B => List.Forall₂ (fun a b =>
      (99 / 100 < b.yieldfunction ↔
        (199 / 100) ^ 2 * (2 * A.ph.par.k ^ 2) < ∑ i, ∑ j, a.dev_stress i j ^ 2)) A.pts B.pts)
      s.L s'.L := by
    refine (hR.and_left (p := fun A => A.ph.law = .von_mises) hl).forall₂ ?_
    rintro p A B ⟨hA, e, -, evo, kept, new, hev, -, hk, hke, hin, -, hB⟩
    rw [hin hi.1 hi.2, List.append_nil, hke hu.1 hu.2] at hB
    rw [hB]
    refine hev.imp fun a b hab => ?_
    obtain ⟨c1, c2, l, hr, -, f2, -, -, -, -, -, -, f9, -⟩ := hab.lawRun
    rw [hA] at hr
    simp only [runLaw, lawVonMises] at hr
    split at hr
    · cases hr
    rename_i k0
    split at hr
    · cases hr
    rename_i k1
    split at hr
    · cases hr
    cases hr
    have kp : 0 < A.ph.par.k := lt_of_le_of_ne (not_lt.1 k1) (Ne.symm k0)
    rw [f9, ← f2]
    have fe : (∑ i, ∑ j, c1.dev_stress i j ^ 2) = frob c1.dev_stress c1.dev_stress := by
      unfold frob; simp only [pow_two]
    have f0 : 0 ≤ frob c1.dev_stress c1.dev_stress := by
      rw [← fe]; exact Finset.sum_nonneg fun _ _ => Finset.sum_nonneg fun _ _ => sq_nonneg _
    have r2 := ho.sqrt_pos (x := 2) two_pos
    have m2 := ho.sqrt_mul 2 two_pos.le
    rw [fe.trans (ho.sqrt_mul _ f0).symm]
    show 99 / 100 < P.ops.sqrt (frob c1.dev_stress c1.dev_stress) / (P.ops.sqrt 2 * A.ph.par.k) - 1 ↔ _
    rw [lt_sub_iff_add_lt, lt_div_iff₀ (mul_pos r2 kp), show
      (199 / 100) ^ 2 * (2 * A.ph.par.k ^ 2) = ((99 / 100 + 1) * (P.ops.sqrt 2 * A.ph.par.k)) *
        ((99 / 100 + 1) * (P.ops.sqrt 2 * A.ph.par.k)) by
        linear_combination (-(199 / 100) ^ 2 * A.ph.par.k ^ 2) * m2]
    have n0 := ho.sqrt_nonneg _ f0
    have n1 : 0 ≤ (99 / 100 + 1) * (P.ops.sqrt 2 * A.ph.par.k) := by positivity
    exact ⟨fun h => mul_self_lt_mul_self n1 h, fun h => lt_of_mul_self_lt_mul_self₀ n0 h⟩
  constructor
  · rintro ⟨b, hb, hy⟩
    obtain ⟨B, hB, hb⟩ := List.mem_flatMap.1 hb
    obtain ⟨A, hA, hAB⟩ := forall₂_right hF hB
    obtain ⟨a, ha, hab⟩ := forall₂_right hAB hb
    exact ⟨A, hA, a, ha, hab.1 hy⟩
  · rintro ⟨A, hA, a, ha, hy⟩
    obtain ⟨B, hB, hAB⟩ := forall₂_left hF hA
    obtain ⟨b, hb, hab⟩ := forall₂_left hAB ha
    exact ⟨b, List.mem_flatMap.2 ⟨B, hB, hb⟩, hab.2 hy⟩

end

section
variable {K : Type} [Field K] [LinearOrder K] [IsStrictOrderedRing K] {ns : ℕ}

/-- C126.  Before the first step no point has `dev_dstress` or `q`: the figures of `von_mises` and
`dp` end the run.  For all other laws there is a figure. -/
theorem c126_initial {o : Ops K} {dt : K} {dd : Particle K ns → Option (Mat K)}
    {q : Particle K ns → Option K} {A : PhaseSt K ns} (hA : A.ph.n = A.pts.length)
    (h0 : A.pts ≠ []) (hd : ∀ mp ∈ A.pts, dd mp = none) (hq : ∀ mp ∈ A.pts, q mp = none) :
    (A.ph.law = .von_mises ∨ A.ph.law = .dp → pointsFigure o dt dd q A = .error .attribute) ∧
    (A.ph.law ≠ .von_mises → A.ph.law ≠ .dp → ∃ F, pointsFigure o dt dd q A = .ok F) := by
  obtain ⟨mp, hmp⟩ := List.exists_mem_of_ne_nil _ h0
  have e1 := withAttr_none ⟨mp, hmp, hd mp hmp⟩
  have e2 := withAttr_none ⟨mp, hmp, hq mp hmp⟩
  unfold pointsFigure
  rw [hA, firstN_all]
  simp only [Except.bind, bind]
  refine ⟨?_, fun n1 n2 => ?_⟩
  · rintro (hl | hl) <;> rw [hl] <;> simp only [e1, e2]
  · cases hl : A.ph.law <;> first | exact absurd hl n1 | exact absurd hl n2 | exact ⟨_, rfl⟩

/-- C126.  `draw_energy`: at every listed time the fourth curve is the sum of the other three. -/
theorem c126_energy (rows : List (K × XF K × XF K × XF K)) (i : ℕ) :
    ∃ k g e t, energyCurves rows = [("KE", k), ("GPE", g), ("strain energy", e), ("total energy", t)] ∧
      (k[i]?).map (·.1) = (rows[i]?).map (·.1) ∧
      ∀ a b c d, k[i]? = some a → g[i]? = some b → e[i]? = some c → t[i]? = some d →
        a.1 = d.1 ∧ b.1 = d.1 ∧ c.1 = d.1 ∧ d.2 = a.2 + b.2 + c.2 := by
  refine ⟨_, _, _, _, rfl, ?_, ?_⟩
  · rw [List.getElem?_map]; cases rows[i]? <;> rfl
  · intro a b c d ha hb hc hd
    rw [List.getElem?_map] at ha hb hc hd
    cases h : rows[i]? with
    | none => rw [h] at ha; cases ha
    | some r =>
      rw [h] at ha hb hc hd
      cases ha; cases hb; cases hc; cases hd
      exact ⟨rfl, rfl, rfl, rfl⟩

end

/-! Examples: a step over the real numbers, with the real square root. -/

noncomputable def Ex.realPt : Particle ℝ 2 :=
  { rho := 1, x := ![1/2, 5/4, 0], v := .own ![1, 2, 0], V := 1, m := 3, b := ![0, -10, 0]
    stress := !![1, 2, 0; 2, 3, 0; 0, 0, 1], strain := 0, dstrain := 0, dstress := 0, de_ij := 0
    dev_stress := 0, sigma_kk := 5, gammadot := 0, pressure := 0, pk := 0, sigmav := 0
    sigmah := 0, yieldfunction := 0, Gs := fun _ => 0, N := fun _ => 0, n_star := 0
    phi := ![1/4, 3/4], LL := 0, mu := none, I := .fin 0, eta := .fin 0 }

noncomputable def Ex.realL : List (PhaseSt ℝ 2) :=
  [{ ph := { granPh with n := 1, law := .elastic }, pts := [realPt] },
   { ph := { granPh with n := 1, law := .viscous }, pts := [realPt] }]

noncomputable def Ex.realDyn : Dyn ℝ := { dt := 1/100, t := 0, g := -10, tstep := 0, q_v := 0, q_h := 0 }

theorem Ex.realL_mem {a : PhaseSt ℝ 2} (h : a ∈ realL) : a.ph.n = a.pts.length ∧
    a.pts = [realPt] ∧ (a.ph.law = .elastic ∨ a.ph.law = .viscous) := by
  simp only [realL, List.mem_cons, List.not_mem_nil, or_false] at h
  rcases h with rfl | rfl
  · exact ⟨rfl, rfl, Or.inl rfl⟩
  · exact ⟨rfl, rfl, Or.inr rfl⟩

theorem Ex.real_step (interp : Interp ℝ granPar.G.N) : ∃ s s' : St granPar,
    s.L = realL ∧ s.dyn = realDyn ∧ timeMarch granPar interp s = .ok s' := by
  have hP : GoodGrid granPar.G := by constructor <;> norm_num [granPar]
  obtain ⟨G, hG⟩ := mkGrid_exists granPar.B hP
  obtain ⟨s', h⟩ := timeMarch_exists (P := granPar) (s := { dyn := realDyn, L := realL, G := G })
    hP (mkGrid_geometry hG) (fun k => by
      show G.V k ≠ 0
      rw [mkGrid_V hP hG k]
      refine mul_ne_zero (mul_ne_zero (halfEnd_pos _ _).ne' ?_) ?_
      · split
        · exact one_ne_zero
        · exact (halfEnd_pos _ _).ne'
      · norm_num [cellX, cellY, granPar]) (fun a ha => (realL_mem ha).1) (by
      intro mp hmp
      obtain ⟨a, ha, hm⟩ := List.mem_flatMap.1 hmp
      rw [(realL_mem ha).2.1] at hm
      rw [List.mem_singleton.1 hm]
      norm_num [InDomain, granPar, realPt]) rfl (by
      intro a ha
      rcases (realL_mem ha).2.2 with e | e
      · exact Or.inr (Or.inl e)
      · exact Or.inr (Or.inr ⟨e, by norm_num [realDyn]⟩)) rfl rfl rfl rfl rfl rfl interp
  exact ⟨_, s', rfl, rfl, h⟩

noncomputable def Ex.realYield : List (PhaseSt ℝ 2) :=
  [{ ph := { granPh with n := 1, law := .von_mises }, pts := [{ realPt with dev_stress := !![2, 0, 0; 0, -2, 0; 0, 0, 0] }] }]

/-- A step of a `von_mises` phase as in `c55_threshold` and `c126_yield`, in which a point is at twice the yield
stress. -/
example (interp : Interp ℝ Ex.granPar.G.N) : ∃ s s' : St Ex.granPar, s.L = Ex.realYield ∧
    timeMarch Ex.granPar interp s = .ok s' ∧ SomeYielded s'.L := by
  have hP : GoodGrid Ex.granPar.G := by constructor <;> norm_num [Ex.granPar]
  obtain ⟨G, hG⟩ := mkGrid_exists Ex.granPar.B hP
  have hm : ∀ {a : PhaseSt ℝ 2}, a ∈ Ex.realYield → a = _ := fun h => List.mem_singleton.1 h
  have hc : Counted Ex.realYield := fun a ha => by rw [hm ha]; rfl
  obtain ⟨s', h⟩ := timeMarch_runs (P := Ex.granPar)
    (s := { dyn := Ex.realDyn, L := Ex.realYield, G := G })
    hP (mkGrid_geometry hG) (fun k => by
      show G.V k ≠ 0
      rw [mkGrid_V hP hG k]
      refine mul_ne_zero (mul_ne_zero (halfEnd_pos _ _).ne' ?_) ?_
      · split
        · exact one_ne_zero
        · exact (halfEnd_pos _ _).ne'
      · norm_num [cellX, cellY, Ex.granPar]) hc (by
      intro mp hmp
      obtain ⟨a, ha, h⟩ := List.mem_flatMap.1 hmp
      rw [hm ha] at h
      rw [List.mem_singleton.1 h]
      norm_num [InDomain, Ex.granPar, Ex.realPt]) 
      ⟨rfl, rfl, fun h => (Bool.false_ne_true h).elim,
        fun h => (h.elim Bool.false_ne_true Bool.false_ne_true).elim⟩ (by
      intro a ha
      rw [hm ha]
      show 0 < (1 : ℝ) ∧ 2 ≤ (2 : ℝ)
      norm_num) rfl rfl interp
  refine ⟨_, s', rfl, h, (c55_threshold (realOps_good one_pos) hc ⟨rfl, rfl⟩ ⟨rfl, rfl⟩
    (fun A hA => by rw [hm hA]) h).2 ⟨_, List.mem_singleton.2 rfl, _, List.mem_singleton.2 rfl, ?_⟩⟩
  have e : (∑ i, ∑ j, (!![2, 0, 0; 0, -2, 0; 0, 0, 0] : Mat ℝ) i j ^ 2) = 8 := by
    simp [Fin.sum_univ_three]; norm_num
  show (199 / 100 : ℝ) ^ 2 * (2 * 1 ^ 2) < ∑ i, ∑ j, (!![2, 0, 0; 0, -2, 0; 0, 0, 0] : Mat ℝ) i j ^ 2
  rw [e]
  norm_num

/-- The hypotheses of `c126_rate` and `c126_behind` hold for this step. -/
example (interp : Interp ℝ Ex.granPar.G.N) : ∃ s s' : St Ex.granPar, Counted s.L ∧ 0 < s.dyn.dt ∧
    GoodOps Ex.granPar.ops ∧ (Ex.granPar.B.inlet_right = false ∧ Ex.granPar.B.inlet_top = false) ∧
    (Ex.granPar.B.outlet_left = false ∧ Ex.granPar.B.outlet_bottom = false) ∧
    timeMarch Ex.granPar interp s = .ok s' := by
  obtain ⟨s, s', e1, e2, h⟩ := Ex.real_step interp
  refine ⟨s, s', ?_, ?_, realOps_good one_pos, ⟨rfl, rfl⟩, ⟨rfl, rfl⟩, h⟩
  · rw [e1]
    exact fun a ha => (Ex.realL_mem ha).1
  · rw [e2]; norm_num [Ex.realDyn]

/-- The figure of two points. -/
example : (pointsFigure Ex.ops (1/10) (fun _ => none) (fun _ => none)
      { ph := Ex.ph, pts := [Ex.mp, { Ex.mp2 with gammadot := 3 }] }).toOption.map
      (fun F => (F.map (·.1), shownIn "gammadot" F)) =
    some (["MP's", "u", "sigma_v", "sigma_h", "P", "gammadot"], some [[.fin 0], [.fin 30]]) := by
  decide +kernel

/-- Without `dev_dstress` there is none for `von_mises`. -/
example : pointsFigure Ex.ops (1/10) (fun _ => none) (fun _ => none)
    { ph := { Ex.ph with law := .von_mises }, pts := [Ex.mp, Ex.mp2] } = .error .attribute :=
  (c126_initial rfl (by simp) (fun _ _ => rfl) (fun _ _ => rfl)).1 (Or.inl rfl)

/-- The curves of one row. -/
example : energyCurves [((1 : ℚ), .fin 2, .fin 3, .fin 4)] =
    [("KE", [(1, .fin 2)]), ("GPE", [(1, .fin 3)]), ("strain energy", [(1, .fin 4)]),
     ("total energy", [(1, .fin 9)])] := by
  decide +kernel

end Mpm

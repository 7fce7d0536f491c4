import Verif.Lemmas.Step

/-! When the phases of a step raise no exception. -/

set_option linter.unusedSectionVars false

namespace Mpm
open Spec

section
variable {α σ : Type}

theorem forN_exists {f : α → σ → Res (α × σ)} {l : List α}
    (hf : ∀ a ∈ l, ∀ s, ∃ r, f a s = .ok r) (s : σ) : ∃ r, forN f l.length l s = .ok r := by
  induction l generalizing s with
  | nil => exact ⟨_, rfl⟩
  | cons a l ih =>
    obtain ⟨⟨a', s'⟩, h1⟩ := hf a List.mem_cons_self s
    obtain ⟨⟨t, s''⟩, h2⟩ := ih (fun b hb => hf b (List.mem_cons_of_mem _ hb)) s'
    exact ⟨(a' :: t, s''), forN_cons_ok.2 ⟨a', s', t, h1, h2, rfl⟩⟩

variable {K : Type} {ns : ℕ}

theorem forPhases_exists {f : ℕ → PhaseSt K ns → σ → Res (PhaseSt K ns × σ)}
    {L : List (PhaseSt K ns)} (hf : ∀ p, ∀ a ∈ L, ∀ s, ∃ r, f p a s = .ok r) (p0 : ℕ) (s : σ) :
    ∃ r, forPhases f p0 L s = .ok r := by
  induction L generalizing s p0 with
  | nil => exact ⟨_, rfl⟩
  | cons a L ih =>
    obtain ⟨⟨a', s'⟩, h1⟩ := hf p0 a List.mem_cons_self s
    obtain ⟨⟨t, s''⟩, h2⟩ := ih (fun p b hb => hf p b (List.mem_cons_of_mem _ hb)) (p0 + 1) s'
    exact ⟨(a' :: t, s''), forPhases_cons_ok.2 ⟨a', s', t, h1, h2, rfl⟩⟩

theorem mapPhases_exists {f : ℕ → PhaseSt K ns → Res (PhaseSt K ns)}
    {L : List (PhaseSt K ns)} (hf : ∀ p, ∀ a ∈ L, ∃ r, f p a = .ok r) (p0 : ℕ) :
    ∃ r, mapPhases f p0 L = .ok r := by
  induction L generalizing p0 with
  | nil => exact ⟨_, rfl⟩
  | cons a L ih =>
    obtain ⟨a', h1⟩ := hf p0 a List.mem_cons_self
    obtain ⟨t, h2⟩ := ih (fun p b hb => hf p b (List.mem_cons_of_mem _ hb)) (p0 + 1)
    exact ⟨a' :: t, mapPhases_cons_ok.2 ⟨a', t, h1, h2, rfl⟩⟩

end

section
variable {K : Type} [Field K] [LinearOrder K] {ns N : ℕ}

/-- Laws that succeed on every finite state. -/
def SafeLaw (dt : K) (law : Law) : Prop :=
  law = .rigid ∨ law = .elastic ∨ (law = .viscous ∧ dt ≠ 0)

theorem runLaw_exists {law : Law} {c : LawCtx K ns} (h : SafeLaw c.dt law) (mp : Particle K ns) :
    ∃ r, runLaw law c mp = .ok r := by
  rcases h with rfl | rfl | ⟨rfl, h⟩
  · exact ⟨_, rfl⟩
  · exact ⟨_, rfl⟩
  · simp [runLaw, lawViscous, h]

theorem scatterVis_exists {nx : ℕ} {mp : Particle K ns} (h : NodesOk nx N mp)
    (l : List (Vis × XF K)) (vis : Vis → Fin N → XF K) : ∃ v, scatterVis nx mp l vis = .ok v := by
  obtain ⟨nd, hnd⟩ := nodesOk_iff.1 h
  unfold scatterVis for4
  simp only [hnd, res_ok_bind, res_pure]
  exact ⟨_, rfl⟩

/-- The law of this phase runs on every point. -/
def LawRuns (P : Par K) (d : Dyn K) (s : Fin ns → K) (ph : Phase K ns) : Prop :=
  ∀ (m0 : Mat0 K) (p : ℕ) (mp : Particle K ns), ∃ r, runLaw ph.law (lawCtx P d s m0 p ph) mp = .ok r

theorem SafeLaw.runs {P : Par K} {d : Dyn K} {ph : Phase K ns} (h : SafeLaw d.dt ph.law)
    (s : Fin ns → K) : LawRuns P d s ph := fun _ _ mp => runLaw_exists h mp

theorem stressStrain_exists {nx : ℕ} {M_tol : K} {G : Grid K N ns} {law : Law} {c : LawCtx K ns}
    {mp : Particle K ns} (hn : NodesOk nx N mp)
    (hl : ∀ mp : Particle K ns, ∃ r, runLaw law c mp = .ok r)
    (vis : Vis → Fin N → XF K) : ∃ r, mp.stressStrain nx M_tol G law c vis = .ok r := by
  obtain ⟨nd, hnd⟩ := nodesOk_iff.1 hn
  have h1 := updateStrain_of_nodes (M_tol := M_tol) (dt := c.dt) (G := G) hnd
  generalize he : (let A : Mat K := ∑ r, Matrix.vecMulVec (nodeVel M_tol G (nd r)) (mp.Gs r)
       { mp with
          LL := A + A.transpose
          dstrain := (1 / 2 * c.dt) • (A + A.transpose)
          strain := mp.strain + (1 / 2 * c.dt) • (A + A.transpose) } : Particle K ns) = mp1 at h1
  obtain ⟨⟨mp2, l⟩, h2⟩ := hl mp1
  have hn2 : NodesOk nx N mp2 := by
    rw [(runLaw_frame h2).1.nodesOk, (updateStrain_frame h1).1.nodesOk]; exact hn
  obtain ⟨v, h3⟩ := scatterVis_exists hn2 l vis
  unfold Particle.stressStrain Particle.updateStress
  simp only [h1, h2, h3, res_ok_bind]
  exact ⟨_, rfl⟩

theorem updateStressStrain_exists {nx ny : ℕ} {P : Par K} {d : Dyn K} {s : Fin ns → K}
    {L : List (PhaseSt K ns)} {G : Grid K (ny * nx) ns} (hL : Counted L)
    (hn : ∀ x ∈ items L, NodesOk nx (ny * nx) x.2)
    (hl : ∀ a ∈ L, LawRuns P d s a.ph) : ∃ r, updateStressStrain P d s L G = .ok r := by
  unfold updateStressStrain
  obtain ⟨⟨L', v⟩, h⟩ := forPhases_exists (f := fun p a vis => do
    let (pts, vis) ← forN (fun (mp : Particle K ns) (vis : Vis → Fin (ny * nx) → XF K) =>
      mp.stressStrain nx P.M_tol G a.ph.law
        (lawCtx P d s ((mat0 L).getD a.ph.par) p a.ph) vis) a.ph.n a.pts vis
    return ({ a with pts := pts }, vis)) (L := L) (fun p a ha s0 => by
      obtain ⟨⟨pts, v⟩, h⟩ := forN_exists (f := fun (mp : Particle K ns)
          (vis : Vis → Fin (ny * nx) → XF K) =>
        mp.stressStrain nx P.M_tol G a.ph.law (lawCtx P d s ((mat0 L).getD a.ph.par) p a.ph) vis)
        (l := a.pts) (fun mp hmp s => stressStrain_exists
          (hn (a.ph, mp) (mem_items.2 ⟨a, ha, rfl, hmp⟩)) (hl a ha _ _) s) s0
      rw [hL a ha, h]
      exact ⟨_, rfl⟩) 0 G.vis
  rw [h]
  exact ⟨_, rfl⟩

theorem getNodalMassMomentum_exists {P : Par K} {s : Fin ns → K} {L : List (PhaseSt K ns)}
    (hL : Counted L) {G : Grid K N ns} (hn : ∀ x ∈ items L, NodesOk P.G.nx N x.2) :
    ∃ G', getNodalMassMomentum P s L G = .ok G' := by
  have h : p2gAll P.G.nx P.segregate_grid L G = .ok _ := (p2gAll_ok hL).2 ⟨hn, rfl⟩
  unfold getNodalMassMomentum
  rw [h]
  exact ⟨_, rfl⟩

theorem getNodalForces_exists {nx ny : ℕ} {P : Par K} {L : List (PhaseSt K ns)}
    (hL : Counted L) {G : Grid K (ny * nx) ns} (hn : ∀ x ∈ items L, NodesOk nx (ny * nx) x.2) :
    ∃ G', getNodalForces P L G = .ok G' := by
  have h : nodalForcesAll nx L G = .ok _ := (nodalForcesAll_ok hL).2 ⟨hn, rfl⟩
  unfold getNodalForces
  rw [h]
  exact ⟨_, rfl⟩

variable [IsStrictOrderedRing K] [FloorRing K]

theorem recover_atCell {P : GP K} (hP : GoodGrid P) {G : Grid K P.N ns} (hG : Geometry P G)
    {mp : Particle K ns} {i j : ℕ} (hc : InCell P mp.x i j) :
    (atCell P mp i j).recoverPosition P.nx G = .ok ![mp.x 0, mp.x 1, 0] := by
  choose nd hnd using fun r => corner_index hc.2.2.1 hc.2.2.2 r
  have hnode : ∀ r, (atCell P mp i j).node P.nx P.N r = .ok (nd r) := fun r => (hnd r).1
  unfold Particle.recoverPosition for4
  simp only [hnode, res_ok_bind, res_pure, Except.ok.injEq, hG.X, hG.Y, (hnd _).2.1, (hnd _).2.2]
  have e1 : nodeX P (i + 1) = nodeX P i + cellX P := nodeX_succ P i
  have e2 : nodeY P (j + 1) = nodeY P j + cellY P := nodeY_succ P j
  have n1 := (cellX_pos hP).ne'
  have n2 := (cellY_pos hP).ne'
  funext k
  fin_cases k
  · simp [cornerX, shapeN, e1, atCell]
    field_simp
    ring
  · simp [cornerY, shapeN, e2, atCell]
    field_simp
    ring
  · simp

theorem check_atCell {P : GP K} (hP : GoodGrid P) {G : Grid K P.N ns} (hG : Geometry P G)
    {mp : Particle K ns} {i j : ℕ} (hc : InCell P mp.x i j) (hz : mp.x 2 = 0) :
    (atCell P mp i j).checkPosition P.nx G = .ok (atCell P mp i j) := by
  unfold Particle.checkPosition
  rw [recover_atCell hP hG hc]
  simp only [res_ok_bind]
  rw [if_neg]
  · rfl
  · rintro ⟨k, hk⟩
    have hpos : (0 : K) < 1 / 10 ^ 10 := by positivity
    have : |(![mp.x 0, mp.x 1, 0] : Vec K) k - (atCell P mp i j).x k| = 0 := by
      fin_cases k <;> simp [hz, atCell]
    rw [this] at hk
    linarith

/-- With all points in the half-open domain and laws that cannot fail, the first half of a time
step raises no exception. -/
theorem gridPhase_runs {P : Par K} {s : St P} (hP : GoodGrid P.G) (hG : Geometry P.G s.G)
    (hL : Counted s.L) (hx : ∀ mp ∈ points s.L, InDomain P.G mp.x)
    (hc : P.check_positions = true → ∀ mp ∈ points s.L, mp.x 2 = 0)
    (hl : ∀ a ∈ s.L, LawRuns P (s.dyn.updateForces P) P.G.s a.ph) : ∃ s', gridPhase P s = .ok s' := by
  obtain ⟨La, ha⟩ := updateForces_total (P := P) (g := (s.dyn.updateForces P).g) hL
  have r1 := updateForces_rel hL ha
  have c1 := r1.counted hL
  have hx1 : ∀ mp ∈ points La, ∃ a ∈ points s.L, mp.x = a.x := by
    intro mp hmp
    obtain ⟨a, ha', ph, hr, _⟩ := forall₂_right r1.points hmp
    exact ⟨a, ha', by rw [hr]⟩
  have hw := Mpm.Geometry.wipe hG
  obtain ⟨Lb, Lc, hb, hc', hn, cc, hloc⟩ := locate_exists hP hw c1 (fun mp hmp => by
    obtain ⟨a, ha, e⟩ := hx1 mp hmp
    rw [e]; exact hx a ha)
  have r2 := (locate_all c1 hb hc').1
  have hchk : whenSet P.check_positions (recoverPositions P.G.nx s.G.wipe) Lc = .ok Lc := by
    cases hcp : P.check_positions
    · rfl
    · have : ∃ L', recoverPositions P.G.nx s.G.wipe Lc = .ok L' := by
        refine mapPoints_exists cc fun p x hxi => ?_
        obtain ⟨mp, i, j, -, hcell, e⟩ := hloc x hxi
        rw [e]
        refine ⟨_, check_atCell hP hw hcell ?_⟩
        obtain ⟨y, hy, _, hr⟩ := forall₂_right r2.items hxi
        obtain ⟨a, ha, e2⟩ := hx1 y.2 (by rw [← items_map_snd]; exact List.mem_map.2 ⟨y, hy, rfl⟩)
        have e3 : x.2.x = y.2.x := by rw [hr.eq]
        have e4 : x.2.x = mp.x := by rw [e]; rfl
        rw [← e4, e3, e2]
        exact hc hcp a ha
      obtain ⟨L', hL'⟩ := this
      have := recoverPositions_id hL'
      subst this
      exact hL'
  obtain ⟨Ga, hGa⟩ := getNodalMassMomentum_exists (P := P) (s := P.G.s) cc (G := s.G.wipe) hn
  have ph2 : ∀ a ∈ Lc, LawRuns P (s.dyn.updateForces P) P.G.s a.ph := by
    intro a ha'
    obtain ⟨a1, h1, e1, _⟩ := forall₂_right r2 ha'
    obtain ⟨a0, h0, e0, _⟩ := forall₂_right r1 h1
    rw [e1, e0]
    exact hl a0 h0
  obtain ⟨⟨Ld, Gc⟩, hLd⟩ := updateStressStrain_exists (P := P) (d := s.dyn.updateForces P)
    (s := P.G.s) (G := if P.B.cyclic_lr then Ga.makeCyclicMQ else Ga) cc hn ph2
  have r3 := updateStressStrain_frame cc hLd
  have hn3 : ∀ x ∈ items Ld, NodesOk P.G.nx P.G.N x.2 := by
    intro x hx
    obtain ⟨y, hy, _, hr⟩ := forall₂_right r3.items hx
    rw [hr.1.nodesOk]; exact hn y hy
  obtain ⟨Gd, hGd⟩ := getNodalForces_exists (P := P) (r3.counted cc) (G := Gc) hn3
  refine ⟨⟨s.dyn.updateForces P, Ld, Gd⟩, ?_⟩
  unfold gridPhase
  refine res_bind_ok.2 ⟨La, ha, res_bind_ok.2 ⟨Lb, hb, res_bind_ok.2 ⟨Lc, hc',
    res_bind_ok.2 ⟨Lc, hchk, res_bind_ok.2 ⟨Ga, hGa, ?_⟩⟩⟩⟩⟩
  exact res_bind_ok.2 ⟨(Ld, Gc), hLd, res_bind_ok.2 ⟨Gd, hGd, rfl⟩⟩

theorem gridPhase_exists {P : Par K} {s : St P} (hP : GoodGrid P.G) (hG : Geometry P.G s.G)
    (hL : Counted s.L) (hx : ∀ mp ∈ points s.L, InDomain P.G mp.x)
    (hc : P.check_positions = false)
    (hl : ∀ a ∈ s.L, SafeLaw s.dyn.dt a.ph.law) : ∃ s', gridPhase P s = .ok s' :=
  gridPhase_runs hP hG hL hx (fun h => by simp [hc] at h) fun a ha =>
    SafeLaw.runs (d := s.dyn.updateForces P) (hl a ha) _

end
end Mpm

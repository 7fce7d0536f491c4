import Verif.Lemmas.Locate

/-! What the strain and stress update leaves alone. -/

set_option linter.unusedSectionVars false

namespace Mpm
open Spec

section
variable {K : Type} [Field K] [LinearOrder K] {ns N : ℕ}

/-- Everything but mass, strain and stress-like quantities is the same. -/
structure SameKin (mp mp' : Particle K ns) : Prop where
  x : mp'.x = mp.x
  v : mp'.v = mp.v
  V : mp'.V = mp.V
  b : mp'.b = mp.b
  rho : mp'.rho = mp.rho
  pk : mp'.pk = mp.pk
  Gs : mp'.Gs = mp.Gs
  N : mp'.N = mp.N
  n_star : mp'.n_star = mp.n_star
  phi : mp'.phi = mp.phi

theorem SameKin.refl (mp : Particle K ns) : SameKin mp mp := by constructor <;> rfl

theorem SameKin.trans {a b c : Particle K ns} (h : SameKin a b) (h' : SameKin b c) :
    SameKin a c :=
  ⟨h'.x.trans h.x, h'.v.trans h.v, h'.V.trans h.V, h'.b.trans h.b, h'.rho.trans h.rho,
    h'.pk.trans h.pk, h'.Gs.trans h.Gs, h'.N.trans h.N, h'.n_star.trans h.n_star,
    h'.phi.trans h.phi⟩

theorem SameKin.nodesOk {nx : ℕ} {a b : Particle K ns} (h : SameKin a b) :
    NodesOk nx N b ↔ NodesOk nx N a := by
  unfold NodesOk; rw [h.n_star]

theorem SameKin.weight {nx : ℕ} {a b : Particle K ns} (h : SameKin a b) (k : Fin N) :
    weight nx b k = weight nx a k := by
  unfold Spec.weight; rw [h.n_star, h.N]

/-- The closed form of the strain loop. -/
theorem updateStrain_of_nodes {nx : ℕ} {M_tol dt : K} {G : Grid K N ns} {mp : Particle K ns}
    {nd : Fin 4 → Fin N} (h : ∀ r, mp.node nx N r = .ok (nd r)) :
    mp.updateStrain nx M_tol dt G = .ok
      (let A : Mat K := ∑ r, Matrix.vecMulVec (nodeVel M_tol G (nd r)) (mp.Gs r)
       { mp with
          LL := A + A.transpose
          dstrain := (1 / 2 * dt) • (A + A.transpose)
          strain := mp.strain + (1 / 2 * dt) • (A + A.transpose) }) := by
  unfold Particle.updateStrain for4
  have h' : ∀ (mp' : Particle K ns), mp'.n_star = mp.n_star → ∀ r,
      mp'.node nx N r = .ok (nd r) := by
    intro mp' e r
    rw [← h r]; unfold Particle.node; rw [e]
  simp only [h' { mp with dstrain := 0, LL := 0 } rfl, res_ok_bind, res_pure]
  have hT : ∀ r, Matrix.vecMulVec (mp.Gs r) (nodeVel M_tol G (nd r)) =
      (Matrix.vecMulVec (nodeVel M_tol G (nd r)) (mp.Gs r)).transpose := by
    intro r; rw [Matrix.transpose_vecMulVec]
  simp only [Particle.node] at h h' ⊢
  simp only [h, res_ok_bind, hT, Fin.sum_univ_four, Matrix.transpose_add, smul_add, zero_add]
  congr 2
  · abel
  · abel
  · abel

theorem updateStrain_ok {nx : ℕ} {M_tol dt : K} {G : Grid K N ns} {mp mp' : Particle K ns}
    (h : mp.updateStrain nx M_tol dt G = .ok mp') :
    ∃ nd : Fin 4 → Fin N, (∀ r, mp.node nx N r = .ok (nd r)) ∧
      mp' = (let A : Mat K := ∑ r, Matrix.vecMulVec (nodeVel M_tol G (nd r)) (mp.Gs r)
       { mp with
          LL := A + A.transpose
          dstrain := (1 / 2 * dt) • (A + A.transpose)
          strain := mp.strain + (1 / 2 * dt) • (A + A.transpose) }) := by
  by_cases hn : NodesOk nx N mp
  · obtain ⟨nd, hnd⟩ := nodesOk_iff.1 hn
    rw [updateStrain_of_nodes hnd, Except.ok.injEq] at h
    exact ⟨nd, hnd, h.symm⟩
  · exfalso
    refine hn fun r => ?_
    unfold Particle.updateStrain at h
    obtain ⟨a, h, _⟩ := res_bind_ok.1 h
    obtain ⟨s1, s2, s3, h1, h2, h3, h4⟩ := for4_ok.1 h
    obtain ⟨k0, e0, h1⟩ := res_bind_ok.1 h1
    obtain ⟨k1, e1, h2⟩ := res_bind_ok.1 h2
    obtain ⟨k2, e2, h3⟩ := res_bind_ok.1 h3
    obtain ⟨k3, e3, h4⟩ := res_bind_ok.1 h4
    cases h1; cases h2; cases h3
    unfold Particle.node at e0 e1 e2 e3
    fin_cases r
    · exact ⟨_, e0⟩
    · exact ⟨_, e1⟩
    · exact ⟨_, e2⟩
    · exact ⟨_, e3⟩

theorem runLaw_frame {law : Law} {c : LawCtx K ns} {mp mp' : Particle K ns}
    {l : List (Vis × XF K)} (h : runLaw law c mp = .ok (mp', l)) :
    SameKin mp mp' ∧ mp'.strain = mp.strain ∧ mp'.dstrain = mp.dstrain ∧ mp'.LL = mp.LL ∧
      (law ≠ .elastic_time → mp'.m = mp.m) := by
  cases law with
  | rigid => cases h; exact ⟨by constructor <;> rfl, rfl, rfl, rfl, fun _ => rfl⟩
  | elastic => cases h; exact ⟨by constructor <;> rfl, rfl, rfl, rfl, fun _ => rfl⟩
  | elastic_time =>
    simp only [runLaw, lawElasticTime] at h
    split at h
    · cases h
    · cases h; exact ⟨by constructor <;> rfl, rfl, rfl, rfl, fun h => absurd rfl h⟩
  | von_mises =>
    simp only [runLaw, lawVonMises] at h
    split at h
    · cases h
    split at h
    · cases h
    split at h
    · cases h
    cases h; exact ⟨by constructor <;> rfl, rfl, rfl, rfl, fun _ => rfl⟩
  | dp =>
    simp only [runLaw, lawDp] at h
    split at h <;> cases h
  | dp_rate =>
    simp only [runLaw, lawDpRate] at h
    obtain ⟨a, _, h⟩ := res_bind_ok.1 h
    obtain ⟨b, _, h⟩ := res_bind_ok.1 h
    cases h; exact ⟨by constructor <;> rfl, rfl, rfl, rfl, fun _ => rfl⟩
  | viscous =>
    simp only [runLaw, lawViscous] at h
    split at h
    · cases h
    cases h; exact ⟨by constructor <;> rfl, rfl, rfl, rfl, fun _ => rfl⟩
  | bingham =>
    simp only [runLaw, lawBingham] at h
    split at h
    · cases h
    obtain ⟨a, _, h⟩ := res_bind_ok.1 h
    obtain ⟨b, _, h⟩ := res_bind_ok.1 h
    cases h; exact ⟨by constructor <;> rfl, rfl, rfl, rfl, fun _ => rfl⟩
  | ken_kamrin =>
    simp only [runLaw, lawKenKamrin] at h
    split at h
    · cases h
    obtain ⟨a, _, h⟩ := res_bind_ok.1 h
    cases h; exact ⟨by constructor <;> rfl, rfl, rfl, rfl, fun _ => rfl⟩
  | pouliquen =>
    simp only [runLaw, lawPouliquen] at h
    obtain ⟨⟨a, b, d⟩, _, h⟩ := res_bind_ok.1 h
    simp only at h
    split at h
    · cases h
    split at h
    · cases h; exact ⟨by constructor <;> rfl, rfl, rfl, rfl, fun _ => rfl⟩
    · cases h
  | linear_mu =>
    simp only [runLaw, lawLinearMu] at h
    obtain ⟨a, _, h⟩ := res_bind_ok.1 h
    split at h
    · cases h
    obtain ⟨b, _, h⟩ := res_bind_ok.1 h
    obtain ⟨d, _, h⟩ := res_bind_ok.1 h
    cases h; exact ⟨by constructor <;> rfl, rfl, rfl, rfl, fun _ => rfl⟩
  | ken_simple =>
    simp only [runLaw, lawKenSimple] at h
    obtain ⟨a, _, h⟩ := res_bind_ok.1 h
    split at h
    · cases h
    cases h; exact ⟨by constructor <;> rfl, rfl, rfl, rfl, fun _ => rfl⟩
  | viscous_size => cases h
  | pouliquen2D => cases h
  | other => cases h

theorem updateStress_ok {nx : ℕ} {law : Law} {c : LawCtx K ns} {mp mp' : Particle K ns}
    {vis vis' : Vis → Fin N → XF K} (h : mp.updateStress nx law c vis = .ok (mp', vis')) :
    ∃ mp1 l, runLaw law c mp = .ok (mp1, l) ∧ scatterVis nx mp1 l vis = .ok vis' ∧
      mp' = mp1.applyStress c.dt := by
  unfold Particle.updateStress at h
  obtain ⟨⟨mp1, l⟩, h1, h⟩ := res_bind_ok.1 h
  obtain ⟨v, h2, h⟩ := res_bind_ok.1 h
  cases h
  exact ⟨mp1, l, h1, h2, rfl⟩

theorem applyStress_frame (dt : K) (mp : Particle K ns) : SameKin mp (mp.applyStress dt) := by
  constructor <;> rfl

/-- What one point undergoes in the stress phase of a step. -/
theorem stressStrain_ok {nx : ℕ} {M_tol : K} {G : Grid K N ns} {law : Law} {c : LawCtx K ns}
    {mp mp' : Particle K ns} {vis vis' : Vis → Fin N → XF K}
    (h : mp.stressStrain nx M_tol G law c vis = .ok (mp', vis')) :
    ∃ mp1 mp2 l, mp.updateStrain nx M_tol c.dt G = .ok mp1 ∧ runLaw law c mp1 = .ok (mp2, l) ∧
      scatterVis nx mp2 l vis = .ok vis' ∧ mp' = mp2.applyStress c.dt := by
  unfold Particle.stressStrain at h
  obtain ⟨mp1, h1, h⟩ := res_bind_ok.1 h
  obtain ⟨mp2, l, h2, h3, h4⟩ := updateStress_ok h
  exact ⟨mp1, mp2, l, h1, h2, h3, h4⟩

theorem updateStrain_frame {nx : ℕ} {M_tol dt : K} {G : Grid K N ns} {mp mp' : Particle K ns}
    (h : mp.updateStrain nx M_tol dt G = .ok mp') : SameKin mp mp' ∧ mp'.m = mp.m := by
  obtain ⟨nd, _, rfl⟩ := updateStrain_ok h
  exact ⟨by constructor <;> rfl, rfl⟩

theorem stressStrain_frame {nx : ℕ} {M_tol : K} {G : Grid K N ns} {law : Law} {c : LawCtx K ns}
    {mp mp' : Particle K ns} {vis vis' : Vis → Fin N → XF K}
    (h : mp.stressStrain nx M_tol G law c vis = .ok (mp', vis')) :
    SameKin mp mp' ∧ (law ≠ .elastic_time → mp'.m = mp.m) := by
  obtain ⟨mp1, mp2, l, h1, h2, _, rfl⟩ := stressStrain_ok h
  obtain ⟨f1, m1⟩ := updateStrain_frame h1
  obtain ⟨f2, _, _, _, m2⟩ := runLaw_frame h2
  exact ⟨(f1.trans f2).trans (applyStress_frame _ _), fun hl => (m2 hl).trans m1⟩

/-- The relation between the points before and after `update_stress_strain`. -/
theorem updateStressStrain_rel {nx ny : ℕ} {P : Par K} {d : Dyn K} {s : Fin ns → K}
    {L L' : List (PhaseSt K ns)} {G G' : Grid K (ny * nx) ns} (hL : Counted L)
    (h : updateStressStrain P d s L G = .ok (L', G')) :
    PtsRel (fun ph a b => ∃ p vis vis', a.stressStrain nx P.M_tol G ph.law
      (lawCtx P d s ((mat0 L).getD ph.par) p ph) vis = .ok (b, vis')) L L' := by
  unfold updateStressStrain at h
  obtain ⟨⟨L1, vis⟩, h1, h⟩ := res_bind_ok.1 h
  cases h
  refine forPhases_forall₂ ?_ h1
  intro p a ha vis a' vis' h2
  obtain ⟨⟨pts, v⟩, h3, h2⟩ := res_bind_ok.1 h2
  cases h2
  refine ⟨rfl, ?_⟩
  rw [hL a ha] at h3
  exact forN_forall₂ (fun _ _ _ _ h => ⟨p, _, _, h⟩) h3

theorem updateStressStrain_grid {nx ny : ℕ} {P : Par K} {d : Dyn K} {s : Fin ns → K}
    {L L' : List (PhaseSt K ns)} {G G' : Grid K (ny * nx) ns}
    (h : updateStressStrain P d s L G = .ok (L', G')) : G' = { G with vis := G'.vis } := by
  unfold updateStressStrain at h
  obtain ⟨⟨L1, vis⟩, h1, h⟩ := res_bind_ok.1 h
  cases h
  split <;> rfl

theorem updateStressStrain_frame {nx ny : ℕ} {P : Par K} {d : Dyn K} {s : Fin ns → K}
    {L L' : List (PhaseSt K ns)} {G G' : Grid K (ny * nx) ns} (hL : Counted L)
    (h : updateStressStrain P d s L G = .ok (L', G')) :
    PtsRel (fun ph a b => SameKin a b ∧ (ph.law ≠ .elastic_time → b.m = a.m)) L L' := by
  refine (updateStressStrain_rel hL h).mono ?_
  rintro ph a b ⟨p, vis, vis', h⟩
  exact stressStrain_frame h

end
end Mpm

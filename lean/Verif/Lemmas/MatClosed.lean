import Verif.Lemmas.Track
import Mathlib.LinearAlgebra.Matrix.Symmetric

/-!
Sets of 3 by 3 arrays that the stress update does not leave: the symmetric ones, and those without
out-of-plane shear components.
-/

set_option linter.unusedSectionVars false

namespace Mpm
open Spec

section
variable {K : Type} [Field K] [LinearOrder K] {ns N : ℕ}

theorem finMat_ok {A : Fin 3 → Fin 3 → XF K} {M : Mat K} (h : finMat A = .ok M) (i j : Fin 3) :
    A i j = .fin (M i j) := by
  unfold finMat at h
  split at h
  · rename_i hf
    have e := Except.ok.inj h
    have := hf i j
    rw [← e]
    simp only
    cases hA : A i j with
    | fin x => rfl
    | pinf => rw [hA] at this; cases this
    | ninf => rw [hA] at this; cases this
    | nan => rw [hA] at this; cases this
  · cases h

theorem finMat_of {A : Fin 3 → Fin 3 → XF K} {M : Mat K} (h : ∀ i j, A i j = .fin (M i j)) :
    finMat A = .ok M := by
  unfold finMat
  rw [if_pos fun i j => by rw [h i j]; rfl]
  congr 1
  funext i j
  rw [h i j]; rfl

/-- A finite result of `eta*x/dt` with `dt` non-zero comes from a finite viscosity. -/
theorem eta_fin {eta : XF K} {x dt y : K} (hdt : dt ≠ 0)
    (h : eta * .fin x / .fin dt = .fin y) : ∃ e, eta = .fin e ∧ y = e * x / dt := by
  change XF.div (XF.mul eta (.fin x)) (.fin dt) = .fin y at h
  cases eta with
  | fin e =>
    refine ⟨e, rfl, ?_⟩
    simp only [XF.mul, XF.div, if_neg hdt, XF.fin.injEq] at h
    exact h.symm
  | nan => cases h
  | pinf =>
    exfalso
    by_cases hx : x = 0
    · simp [XF.mul, hx, XF.div] at h
    · by_cases hp : 0 < x <;> by_cases hd : dt < 0 <;>
        simp [XF.mul, hx, XF.infSign, hp, XF.div, hd] at h
  | ninf =>
    exfalso
    by_cases hx : x = 0
    · simp [XF.mul, hx, XF.div] at h
    · by_cases hp : 0 < -x <;> by_cases hd : dt < 0 <;>
        simp only [XF.mul, if_neg hx, XF.infSign, hp, XF.div, hd, if_true, if_false, reduceCtorEq] at h

theorem flowStressInc_fin {p dt : K} {eta : XF K} {de stress M : Mat K} (hdt : dt ≠ 0)
    (h : ∀ i j, flowStressInc p eta de dt stress i j = .fin (M i j)) :
    ∃ e, eta = .fin e ∧ M = p • (1 : Mat K) + (e / dt) • de - stress := by
  have key : ∀ i j, ∃ y, eta * .fin (de i j) / .fin dt = .fin y ∧
      M i j = p * (1 : Mat K) i j + y - stress i j := by
    intro i j
    have h1 := h i j
    unfold flowStressInc at h1
    change XF.add (XF.add (.fin (p * (1 : Mat K) i j)) (eta * .fin (de i j) / .fin dt))
      (XF.neg (.fin (stress i j))) = _ at h1
    cases hy : eta * .fin (de i j) / .fin dt with
    | fin y =>
      refine ⟨y, rfl, ?_⟩
      rw [hy] at h1
      have := XF.fin.inj h1
      rw [← this]; ring
    | pinf => rw [hy] at h1; cases h1
    | ninf => rw [hy] at h1; cases h1
    | nan => rw [hy] at h1; cases h1
  obtain ⟨y0, h0, _⟩ := key 0 0
  obtain ⟨e, he, _⟩ := eta_fin hdt h0
  refine ⟨e, he, ?_⟩
  ext i j
  obtain ⟨y, hy, hM⟩ := key i j
  obtain ⟨e', he', hy'⟩ := eta_fin hdt hy
  rw [he] at he'
  rw [hM, hy', ← XF.fin.inj he']
  simp only [Matrix.sub_apply, Matrix.add_apply, Matrix.smul_apply, smul_eq_mul]
  ring

/-- A linear space of matrices with the unit matrix, closed under anticommutators, and kept by
the in-plane law `dp_rate`. -/
structure MatSet (S : Mat K → Prop) (ns : ℕ) : Prop where
  zero : S 0
  one : S 1
  add : ∀ {A B}, S A → S B → S (A + B)
  smul : ∀ (c : K) {A}, S A → S (c • A)
  anti : ∀ {A B}, S A → S B → S (A * B + B * A)
  dpRate : ∀ {c : LawCtx K ns} {mp mp' : Particle K ns} {l}, lawDpRate c mp = .ok (mp', l) →
    S mp.dstrain → S mp.stress → S mp.dstress → S mp'.dstress

namespace MatSet
variable {S : Mat K → Prop}

theorem neg (h : MatSet S ns) {A : Mat K} (hA : S A) : S (-A) := by
  have := h.smul (-1) hA
  simpa using this

theorem sub (h : MatSet S ns) {A B : Mat K} (hA : S A) (hB : S B) : S (A - B) := by
  rw [sub_eq_add_neg]; exact h.add hA (h.neg hB)

theorem unit (h : MatSet S ns) (c : K) : S (c • (1 : Mat K)) := h.smul c h.one

theorem dev (h : MatSet S ns) {A : Mat K} (c : K) (hA : S A) : S (A - c • (1 : Mat K)) :=
  h.sub hA (h.unit c)

theorem hooke (h : MatSet S ns) {A : Mat K} (Kb Gs : K) (hA : S A) : S (hooke Kb Gs A) :=
  h.add (h.unit _) (h.smul _ (h.dev _ hA))

theorem hookeInv (h : MatSet S ns) {A : Mat K} (Kb Gs : K) (hA : S A) : S (hookeInv Kb Gs A) :=
  h.add (h.unit _) (h.smul _ (h.dev _ hA))

end MatSet

/-- The stress-like arrays of a point lie in the set. -/
structure MatOk (S : Mat K → Prop) (mp : Particle K ns) : Prop where
  stress : S mp.stress
  strain : S mp.strain
  dev : S mp.dev_stress
  dstress : S mp.dstress

theorem runLaw_matOk {S : Mat K → Prop} (hS : MatSet S ns) {law : Law} {c : LawCtx K ns}
    {mp mp' : Particle K ns} {l : List (Vis × XF K)} (h : runLaw law c mp = .ok (mp', l))
    (hd : S mp.dstrain) (hm : MatOk S mp) : MatOk S mp' := by
  obtain ⟨h1, h2, h3, h4⟩ := hm
  have hst : S mp'.strain := by rw [(runLaw_frame h).2.1]; exact h2
  cases law with
  | rigid => cases h; exact ⟨h1, h2, h3, h4⟩
  | elastic =>
    cases h
    exact ⟨h1, h2, h3, hS.add (hS.unit _) (hS.smul _ (hS.dev _ hd))⟩
  | elastic_time =>
    simp only [runLaw, lawElasticTime] at h
    split at h
    · cases h
    · cases h; exact ⟨h1, h2, h3, hS.add (hS.unit _) (hS.smul _ (hS.dev _ hd))⟩
  | von_mises =>
    simp only [runLaw, lawVonMises] at h
    split at h
    · cases h
    split at h
    · cases h
    split at h
    · cases h
    cases h
    have hdev := hS.add h3 (hS.smul (2 * c.mat.Gs) (hS.sub (hS.dev (mp.dstrain.trace / 3) hd)
      (hS.smul (|frob mp.dev_stress (mp.dstrain - (mp.dstrain.trace / 3) • 1)| /
        (2 * c.mat.k ^ 2) * c.ops.pow (c.ops.sqrt (frob mp.dev_stress mp.dev_stress) /
          (c.ops.sqrt 2 * c.mat.k)) (c.mat.s - 2)) h3)))
    exact ⟨h1, h2, hdev, hS.sub (hS.add hdev (hS.unit _)) h1⟩
  | dp =>
    simp only [runLaw, lawDp] at h
    split at h <;> cases h
  | dp_rate =>
    have hd' := hS.dpRate h hd h1 h4
    simp only [runLaw, lawDpRate] at h
    obtain ⟨a, _, h⟩ := res_bind_ok.1 h
    obtain ⟨b, _, h⟩ := res_bind_ok.1 h
    cases h; exact ⟨h1, h2, h3, hd'⟩
  | viscous =>
    simp only [runLaw, lawViscous] at h
    split at h
    · cases h
    cases h
    have hdev := hS.smul (2 * c.mat.mu_s / c.dt) (hS.dev (mp.dstrain.trace / 3) hd)
    exact ⟨h1, h2, hdev, hS.sub (hS.sub (hS.add (hS.unit _) hdev) (hS.unit _)) h1⟩
  | bingham =>
    simp only [runLaw, lawBingham] at h
    split at h
    · cases h
    obtain ⟨a, _, h⟩ := res_bind_ok.1 h
    obtain ⟨b, hb, h⟩ := res_bind_ok.1 h
    have hdev : S b := by
      split at hb
      · rw [← Except.ok.inj hb]; exact hS.smul _ (hS.dev _ hd)
      · split at hb
        · cases hb
        · rw [← Except.ok.inj hb]; exact hS.smul _ (hS.dev _ hd)
    cases h
    exact ⟨hS.sub (hS.add (hS.unit _) hdev) (hS.unit _), h2, hdev, h4⟩
  | ken_kamrin =>
    simp only [runLaw, lawKenKamrin] at h
    split at h
    · cases h
    obtain ⟨a, _, h⟩ := res_bind_ok.1 h
    cases h
    have hdev : ∀ e : K, S (e • ((2 / c.dt) • (mp.dstrain - (mp.dstrain.trace / 3) • (1 : Mat K)))) :=
      fun e => hS.smul _ (hS.smul _ (hS.dev _ hd))
    exact ⟨h1, h2, hdev _, hS.sub (hS.sub (hS.add (hS.unit _) (hdev _)) (hS.unit _)) h1⟩
  | pouliquen =>
    simp only [runLaw, lawPouliquen] at h
    obtain ⟨⟨a, b, d⟩, _, h⟩ := res_bind_ok.1 h
    simp only at h
    split at h
    · cases h
    rename_i hdt
    split at h
    · rename_i hf
      have hM := flowStressInc_fin (M := fun i j => (flowStressInc _ _ _ _ _ i j).nanToNum 0) hdt
        (fun i j => finMat_ok (if_pos hf) i j)
      obtain ⟨e, _, hM⟩ := hM
      cases h
      refine ⟨h1, h2, hS.smul _ (hS.dev _ hd), ?_⟩
      simp only
      rw [hM]
      exact hS.sub (hS.add (hS.unit _) (hS.smul _ (hS.dev _ hd))) h1
    · cases h
  | linear_mu =>
    simp only [runLaw, lawLinearMu] at h
    obtain ⟨a, _, h⟩ := res_bind_ok.1 h
    split at h
    · cases h
    rename_i hdt
    obtain ⟨b, hb, h⟩ := res_bind_ok.1 h
    obtain ⟨d, hd2, h⟩ := res_bind_ok.1 h
    obtain ⟨e, he, hM⟩ := flowStressInc_fin hdt (fun i j => finMat_ok hb i j)
    have hD : d = (e / c.dt) • (mp.dstrain - (mp.dstrain.trace / 3) • (1 : Mat K)) := by
      ext i j
      obtain ⟨e', he', hy⟩ := eta_fin hdt (finMat_ok hd2 i j)
      have : e' = e := XF.fin.inj (he'.symm.trans he)
      rw [hy, this, Matrix.smul_apply, smul_eq_mul]
      ring
    cases h
    refine ⟨h1, h2, ?_, ?_⟩
    · simp only; rw [hD]; exact hS.smul _ (hS.dev _ hd)
    · simp only; rw [hM]; exact hS.sub (hS.add (hS.unit _) (hS.smul _ (hS.dev _ hd))) h1
  | ken_simple =>
    simp only [runLaw, lawKenSimple] at h
    obtain ⟨a, _, h⟩ := res_bind_ok.1 h
    split at h
    · cases h
    cases h
    refine ⟨h1, h2, hS.smul _ (hS.dev _ hd), ?_⟩
    simp only
    split
    · exact hS.sub (hS.add (hS.unit _) (hS.smul _ (hS.dev _ hd))) h1
    · exact hS.neg h1
  | viscous_size => cases h
  | pouliquen2D => cases h
  | other => cases h

theorem stressStrain_matOk {S : Mat K → Prop} (hS : MatSet S ns) {nx : ℕ} {M_tol : K}
    {G : Grid K N ns} {law : Law} {c : LawCtx K ns} {mp mp' : Particle K ns}
    {vis vis' : Vis → Fin N → XF K}
    (hA : ∀ nd : Fin 4 → Fin N, S ((∑ r, Matrix.vecMulVec (nodeVel M_tol G (nd r)) (mp.Gs r)) +
      (∑ r, Matrix.vecMulVec (nodeVel M_tol G (nd r)) (mp.Gs r)).transpose))
    (h : mp.stressStrain nx M_tol G law c vis = .ok (mp', vis')) (hm : MatOk S mp) :
    MatOk S mp' := by
  obtain ⟨mp1, mp2, l, e1, e2, _, rfl⟩ := stressStrain_ok h
  obtain ⟨nd, _, rfl⟩ := updateStrain_ok e1
  have hA' := hA nd
  have hd := hS.smul (1 / 2 * c.dt) hA'
  have k2 := runLaw_matOk hS e2 hd ⟨hm.stress, hS.add hm.strain hd, hm.dev, hm.dstress⟩
  have hL : S mp2.LL := by rw [(runLaw_frame e2).2.2.2.1]; exact hA'
  exact ⟨hS.add k2.stress (hS.sub k2.dstress (hS.smul _ (hS.anti hL k2.stress))), k2.strain,
    k2.dev, k2.dstress⟩

/-- Symmetric matrices. -/
theorem symm_dpRate {c : LawCtx K ns} {mp mp' : Particle K ns} {l : List (Vis × XF K)}
    (h : lawDpRate c mp = .ok (mp', l)) (hd : mp.dstrain.IsSymm) (hs : mp.stress.IsSymm)
    (hds : mp.dstress.IsSymm) : mp'.dstress.IsSymm := by
  unfold lawDpRate at h
  obtain ⟨M, hM, h⟩ := res_bind_ok.1 h
  obtain ⟨y, _, h⟩ := res_bind_ok.1 h
  cases h
  simp only
  have hb : ∀ {A : Mat K}, A.IsSymm → ∀ i j, (-block2 A) i j = (-block2 A) j i := by
    intro A hA i j
    simp only [Matrix.neg_apply, block2]
    rw [hA.apply]
  have hg : ∀ i j, dpRateGuts c.ops c.mat0 (-block2 mp.dstrain) (-block2 mp.stress) i j =
      dpRateGuts c.ops c.mat0 (-block2 mp.dstrain) (-block2 mp.stress) j i := by
    intro i j
    have o : (1 : Matrix (Fin 2) (Fin 2) K) i j = (1 : Matrix (Fin 2) (Fin 2) K) j i :=
      (Matrix.isSymm_one (α := K) (n := Fin 2)).apply j i
    simp only [dpRateGuts, Matrix.sub_apply, Matrix.smul_apply]
    rw [hb hd i j, hb hs i j, o]
  ext i j
  rw [Matrix.transpose_apply]
  have h1 := finMat_ok hM i j
  have h2 := finMat_ok hM j i
  beta_reduce at h1 h2
  refine XF.fin.inj (h2.symm.trans (Eq.trans ?_ h1))
  by_cases hij : i.val < 2 ∧ j.val < 2
  · rw [dif_pos hij, dif_pos ⟨hij.2, hij.1⟩, hg]
  · rw [dif_neg hij, dif_neg (fun h => hij ⟨h.2, h.1⟩), hds.apply]

theorem symmSet : MatSet (fun A : Mat K => A.IsSymm) ns where
  zero := Matrix.isSymm_zero
  one := Matrix.isSymm_one
  add := Matrix.IsSymm.add
  smul c _ h := h.smul c
  anti := by
    intro A B hA hB
    unfold Matrix.IsSymm
    rw [Matrix.transpose_add, Matrix.transpose_mul, Matrix.transpose_mul, hA.eq, hB.eq, add_comm]
  dpRate := symm_dpRate

/-- No out-of-plane shear components. -/
structure Planar (A : Mat K) : Prop where
  xz : A 0 2 = 0
  yz : A 1 2 = 0
  zx : A 2 0 = 0
  zy : A 2 1 = 0

theorem planarSet : MatSet (Planar (K := K)) ns where
  zero := ⟨rfl, rfl, rfl, rfl⟩
  one := by constructor <;> simp
  add hA hB := by
    constructor <;> simp [hA.xz, hA.yz, hA.zx, hA.zy, hB.xz, hB.yz, hB.zx, hB.zy]
  smul c _ hA := by constructor <;> simp [hA.xz, hA.yz, hA.zx, hA.zy]
  anti hA hB := by
    constructor <;>
      simp [Matrix.mul_apply, Fin.sum_univ_three, hA.xz, hA.yz, hA.zx, hA.zy, hB.xz, hB.yz,
        hB.zx, hB.zy]
  dpRate := by
    intro c mp mp' l h hd hs hds
    unfold lawDpRate at h
    obtain ⟨M, hM, h⟩ := res_bind_ok.1 h
    obtain ⟨y, _, h⟩ := res_bind_ok.1 h
    cases h
    have key : ∀ i j : Fin 3, ¬ (i.val < 2 ∧ j.val < 2) → M i j = mp.dstress i j := by
      intro i j hij
      have := finMat_ok hM i j
      beta_reduce at this
      rw [dif_neg hij] at this
      exact (XF.fin.inj this).symm
    constructor
    · exact (key 0 2 (by decide)).trans hds.xz
    · exact (key 1 2 (by decide)).trans hds.yz
    · exact (key 2 0 (by decide)).trans hds.zx
    · exact (key 2 1 (by decide)).trans hds.zy

/-- Evolution of a point, for the stress-like arrays. -/
theorem MoveStep.mats {P : Par K} {dt : K} {G : Grid K N ns} {ph : Phase K ns} {a b : Particle K ns}
    (h : MoveStep P dt G ph a b) :
    b.stress = a.stress ∧ b.strain = a.strain ∧ b.dev_stress = a.dev_stress ∧
      b.dstress = a.dstress ∧ b.b = a.b ∧ b.m = a.m ∧ b.V = a.V ∧ b.phi = a.phi ∧ b.N = a.N ∧
      b.n_star = a.n_star ∧ b.Gs = a.Gs := by
  rcases h with ⟨_, rfl⟩ | ⟨_, iv, iv', h⟩
  · exact ⟨rfl, rfl, rfl, rfl, rfl, rfl, rfl, rfl, rfl, rfl, rfl⟩
  · obtain ⟨nd, _, _, e⟩ := move_ok h
    have e1 : b = (moveClosed P.M_tol dt G nd a iv).1 := congrArg Prod.fst e
    rw [e1]
    exact ⟨rfl, rfl, rfl, rfl, rfl, rfl, rfl, rfl, rfl, rfl, rfl⟩

theorem wrapped_frame (P : Par K) (a : Particle K ns) :
    wrapped P a = { a with x := (wrapped P a).x } := by
  unfold wrapped; split <;> rfl

end
end Mpm

import Verif.Lemmas.Locate
import Verif.Lemmas.Move
import Verif.Examples

/-!
# C09–C11, C32: strains and the convected stress correction
-/

set_option linter.unusedSectionVars false

namespace Mpm
open Spec

section
variable {K : Type} [Field K] [LinearOrder K] [IsStrictOrderedRing K] [FloorRing K] {ns N : ℕ}

/-! ## C09 -/

/-- All four nodes of a point whose shape functions were computed on some grid `G0` carry mass
above the tolerance and move with one velocity `u`: no strain. -/
theorem c09_rigid_translation {N0 : ℕ} {G0 : Grid K N0 ns} {mp0 mp : Particle K ns}
    (hb : mp0.getBasisFunctions G0 = .ok mp) {nx : ℕ} {M_tol dt : K} (hM : 0 ≤ M_tol)
    {G : Grid K N ns} {u : Vec K} (hn : NodesOk nx N mp)
    (hu : ∀ r k, pyIdx N (nearbyNodes nx mp.n_star r) = .ok k →
      M_tol < G.m k ∧ G.q k = G.m k • u) :
    ∃ mp', mp.updateStrain nx M_tol dt G = .ok mp' ∧ mp'.dstrain = 0 ∧ mp'.strain = mp.strain := by
  obtain ⟨nd, hnd⟩ := nodesOk_iff.1 hn
  obtain ⟨k, _, hd, rfl⟩ := getBasis_ok hb
  refine ⟨_, updateStrain_of_nodes hnd, ?_⟩
  have hv : ∀ r, nodeVel M_tol G (nd r) = u := by
    intro r
    obtain ⟨h1, h2⟩ := hu r _ (hnd r)
    unfold nodeVel
    rw [if_pos h1, h2]
    have : G.m (nd r) ≠ 0 := (lt_of_le_of_lt hM h1).ne'
    funext i
    simp [mul_div_cancel_left₀ _ this]
  have hA : (∑ r, Matrix.vecMulVec (nodeVel M_tol G (nd r))
      (shapeG G0.dx G0.dy ![mp0.x 0 - G0.X k, mp0.x 1 - G0.Y k, mp0.x 2 - 0] r) : Mat K) = 0 := by
    simp only [hv]
    funext i j
    have := congrFun (shapeG_sum G0.dx G0.dy
      ![mp0.x 0 - G0.X k, mp0.x 1 - G0.Y k, mp0.x 2 - 0]) j
    rw [Finset.sum_apply] at this
    rw [Matrix.sum_apply]
    simp only [Matrix.vecMulVec_apply, ← Finset.mul_sum, this]
    simp
  simp only [hA]
  simp

/-! ## C10 -/

/-- The in-plane columns of a velocity gradient. -/
def Spec.inPlane (A : Mat K) : Mat K := fun i j => if j = 2 then 0 else A i j

/-- What `L` comes out as for an affine velocity field. -/
theorem affine_gradient {P : GP K} (hP : GoodGrid P) {G : Grid K P.N ns} (hG : Geometry P G)
    {mp : Particle K ns} {i j : ℕ} {nd : Fin 4 → Fin P.N}
    (hX : ∀ r, (nd r : ℕ) % P.nx = i + cornerX r) (hY : ∀ r, (nd r : ℕ) / P.nx = j + cornerY r)
    (a : Vec K) (A : Mat K) :
    (∑ r, Matrix.vecMulVec (a + A.mulVec ![G.X (nd r), G.Y (nd r), 0])
      ((atCell P mp i j).Gs r) : Mat K) = inPlane A := by
  have hx := (cellX_pos hP).ne'
  have hy := (cellY_pos hP).ne'
  funext k l
  rw [Matrix.sum_apply]
  simp only [Matrix.vecMulVec_apply, hG.X, hG.Y, hX, hY, Fin.sum_univ_four, atCell, inPlane,
    Pi.add_apply, Matrix.mulVec, dotProduct, Fin.sum_univ_three]
  have e1 : nodeX P (i + cornerX 0) = nodeX P i := rfl
  have e2 : nodeX P (i + cornerX 1) = nodeX P i + cellX P := nodeX_succ P i
  have e3 : nodeX P (i + cornerX 2) = nodeX P i + cellX P := nodeX_succ P i
  have e4 : nodeX P (i + cornerX 3) = nodeX P i := rfl
  have f1 : nodeY P (j + cornerY 0) = nodeY P j := rfl
  have f2 : nodeY P (j + cornerY 1) = nodeY P j := rfl
  have f3 : nodeY P (j + cornerY 2) = nodeY P j + cellY P := nodeY_succ P j
  have f4 : nodeY P (j + cornerY 3) = nodeY P j + cellY P := nodeY_succ P j
  rw [e1, e2, e3, e4, f1, f2, f3, f4]
  fin_cases l <;> simp [shapeG] <;> field_simp <;> ring

/-- The nodes of a located point move according to the affine field `x ↦ a + A x`. -/
def Spec.AffineAround (P : GP K) (M_tol : K) (G : Grid K P.N ns) (mp : Particle K ns) (a : Vec K)
    (A : Mat K) : Prop :=
  ∀ r k, pyIdx P.N (nearbyNodes P.nx mp.n_star r) = .ok k →
    M_tol < G.m k ∧ G.q k = G.m k • (a + A.mulVec ![G.X k, G.Y k, 0])

theorem affine_strain {P : GP K} (hP : GoodGrid P) {M_tol dt : K} (hM : 0 ≤ M_tol)
    {G0 G : Grid K P.N ns} (hG0 : Geometry P G0) (hG : Geometry P G)
    {mp0 mp1 mp : Particle K ns} (hx : InDomain P mp0.x)
    (h1 : mp0.getReferenceNode P G0.dx G0.dy = .ok mp1) (h2 : mp1.getBasisFunctions G0 = .ok mp)
    {a : Vec K} {A : Mat K} (hA : AffineAround P M_tol G mp a A) :
    mp.updateStrain P.nx M_tol dt G = .ok { mp with
      LL := inPlane A + (inPlane A).transpose
      dstrain := (1 / 2 * dt) • (inPlane A + (inPlane A).transpose)
      strain := mp.strain + (1 / 2 * dt) • (inPlane A + (inPlane A).transpose) } := by
  obtain ⟨i, j, nd, hc, e1, e2, hnd, hX, hY⟩ := located_basis hP hG0 hx
  rw [e1, Except.ok.injEq] at h1
  rw [← h1, e2, Except.ok.injEq] at h2
  subst h2
  rw [updateStrain_of_nodes hnd]
  have hv : ∀ r, nodeVel M_tol G (nd r) = a + A.mulVec ![G.X (nd r), G.Y (nd r), 0] := by
    intro r
    obtain ⟨h1, h2⟩ := hA r _ (hnd r)
    unfold nodeVel
    rw [if_pos h1, h2]
    have : G.m (nd r) ≠ 0 := (lt_of_le_of_lt hM h1).ne'
    funext i
    simp only [Pi.smul_apply, smul_eq_mul, mul_div_cancel_left₀ _ this]
  simp only [hv, affine_gradient hP hG hX hY]

/-- A point anywhere in the half-open domain, located on the grid, whose four nodes are massive and
follow an affine velocity field with gradient `A`: the strain increment is `dt` times the
symmetric part of (the in-plane columns of) `A`. -/
theorem c10_affine_exact {P : GP K} (hP : GoodGrid P) {M_tol dt : K} (hM : 0 ≤ M_tol)
    {G0 G : Grid K P.N ns} (hG0 : Geometry P G0) (hG : Geometry P G)
    {mp0 mp1 mp : Particle K ns} (hx : InDomain P mp0.x)
    (h1 : mp0.getReferenceNode P G0.dx G0.dy = .ok mp1) (h2 : mp1.getBasisFunctions G0 = .ok mp)
    {a : Vec K} {A : Mat K} (hA : AffineAround P M_tol G mp a A) :
    ∃ mp', mp.updateStrain P.nx M_tol dt G = .ok mp' ∧
      (∀ i j, mp'.dstrain i j = dt * ((inPlane A i j + inPlane A j i) / 2)) ∧
      ∀ i j, mp'.strain i j = mp.strain i j + dt * ((inPlane A i j + inPlane A j i) / 2) := by
  refine ⟨_, affine_strain hP hM hG0 hG hx h1 h2 hA, fun i j => ?_, fun i j => ?_⟩
  · simp [Matrix.add_apply]; ring
  · simp [Matrix.add_apply]; ring

/-! ## C11 -/

/-- The increment is symmetric whatever the nodal state, and a symmetric total strain stays
symmetric. -/
theorem c11_symmetric {nx : ℕ} {M_tol dt : K} {G : Grid K N ns} {mp mp' : Particle K ns}
    (h : mp.updateStrain nx M_tol dt G = .ok mp') :
    mp'.dstrain.transpose = mp'.dstrain ∧
      (mp.strain.transpose = mp.strain → mp'.strain.transpose = mp'.strain) := by
  obtain ⟨nd, _, rfl⟩ := updateStrain_ok h
  refine ⟨?_, fun hs => ?_⟩
  · simp [Matrix.transpose_add, add_comm]
  · simp [Matrix.transpose_add, hs, add_comm]

/-! ## C32 -/

/-- Only the Bingham law sets the stress itself. -/
theorem runLaw_stress {law : Law} {c : LawCtx K ns} {mp mp' : Particle K ns}
    {l : List (Vis × XF K)} (hl : law ≠ .bingham) (h : runLaw law c mp = .ok (mp', l)) :
    mp'.stress = mp.stress := by
  cases law with
  | rigid => cases h; rfl
  | elastic => cases h; rfl
  | elastic_time =>
    simp only [runLaw, lawElasticTime] at h
    split at h
    · cases h
    · cases h; rfl
  | von_mises =>
    simp only [runLaw, lawVonMises] at h
    split at h
    · cases h
    split at h
    · cases h
    split at h
    · cases h
    cases h; rfl
  | dp =>
    simp only [runLaw, lawDp] at h
    split at h <;> cases h
  | dp_rate =>
    simp only [runLaw, lawDpRate] at h
    obtain ⟨a, _, h⟩ := res_bind_ok.1 h
    obtain ⟨b, _, h⟩ := res_bind_ok.1 h
    cases h; rfl
  | viscous =>
    simp only [runLaw, lawViscous] at h
    split at h
    · cases h
    cases h; rfl
  | bingham => exact absurd rfl hl
  | ken_kamrin =>
    simp only [runLaw, lawKenKamrin] at h
    split at h
    · cases h
    obtain ⟨a, _, h⟩ := res_bind_ok.1 h
    cases h; rfl
  | pouliquen =>
    simp only [runLaw, lawPouliquen] at h
    obtain ⟨⟨a, b, d⟩, _, h⟩ := res_bind_ok.1 h
    simp only at h
    split at h
    · cases h
    split at h
    · cases h; rfl
    · cases h
  | linear_mu =>
    simp only [runLaw, lawLinearMu] at h
    obtain ⟨a, _, h⟩ := res_bind_ok.1 h
    split at h
    · cases h
    obtain ⟨b, _, h⟩ := res_bind_ok.1 h
    obtain ⟨d, _, h⟩ := res_bind_ok.1 h
    cases h; rfl
  | ken_simple =>
    simp only [runLaw, lawKenSimple] at h
    obtain ⟨a, _, h⟩ := res_bind_ok.1 h
    split at h
    · cases h
    cases h; rfl
  | viscous_size => cases h
  | pouliquen2D => cases h
  | other => cases h

/-- In a velocity field with in-plane gradient `L`, the stress changes by the increment of the law
minus `dt (D σ + σ D)` with `D = L + Lᵀ` (instead of `dt (L σ + σ Lᵀ)`). -/
theorem c32_correction {P : GP K} (hP : GoodGrid P) {M_tol : K} (hM : 0 ≤ M_tol)
    {G0 G : Grid K P.N ns} (hG0 : Geometry P G0) (hG : Geometry P G)
    {mp0 mp1 mp mp' : Particle K ns} (hx : InDomain P mp0.x)
    (h1 : mp0.getReferenceNode P G0.dx G0.dy = .ok mp1) (h2 : mp1.getBasisFunctions G0 = .ok mp)
    {a : Vec K} {A : Mat K} (hA : AffineAround P M_tol G mp a A)
    {law : Law} (hl : law ≠ .bingham) {c : LawCtx K ns} {vis vis' : Vis → Fin P.N → XF K}
    (h : mp.stressStrain P.nx M_tol G law c vis = .ok (mp', vis')) :
    mp'.stress = mp.stress + mp'.dstress -
      c.dt • ((inPlane A + (inPlane A).transpose) * mp.stress +
        mp.stress * (inPlane A + (inPlane A).transpose)) := by
  obtain ⟨mp2, mp3, l, h3, h4, _, rfl⟩ := stressStrain_ok h
  rw [affine_strain hP hM hG0 hG hx h1 h2 hA, Except.ok.injEq] at h3
  have hs := runLaw_stress hl h4
  obtain ⟨_, _, _, hL, _⟩ := runLaw_frame h4
  rw [← h3] at hs hL
  simp only [Particle.applyStress, hs, hL]
  abel

/-- Rigid rotation: no correction at all, the stress does not rotate. -/
theorem c32_rotation {P : GP K} (hP : GoodGrid P) {M_tol : K} (hM : 0 ≤ M_tol)
    {G0 G : Grid K P.N ns} (hG0 : Geometry P G0) (hG : Geometry P G)
    {mp0 mp1 mp mp' : Particle K ns} (hx : InDomain P mp0.x)
    (h1 : mp0.getReferenceNode P G0.dx G0.dy = .ok mp1) (h2 : mp1.getBasisFunctions G0 = .ok mp)
    {a : Vec K} {A : Mat K} (hA : AffineAround P M_tol G mp a A)
    (hrot : (inPlane A).transpose = -inPlane A)
    {law : Law} (hl : law ≠ .bingham) {c : LawCtx K ns} {vis vis' : Vis → Fin P.N → XF K}
    (h : mp.stressStrain P.nx M_tol G law c vis = .ok (mp', vis')) :
    mp'.stress = mp.stress + mp'.dstress := by
  rw [c32_correction hP hM hG0 hG hx h1 h2 hA hl h, hrot]
  simp

/-- Symmetric gradient: the correction is twice the convected one. -/
theorem c32_stretch {P : GP K} (hP : GoodGrid P) {M_tol : K} (hM : 0 ≤ M_tol)
    {G0 G : Grid K P.N ns} (hG0 : Geometry P G0) (hG : Geometry P G)
    {mp0 mp1 mp mp' : Particle K ns} (hx : InDomain P mp0.x)
    (h1 : mp0.getReferenceNode P G0.dx G0.dy = .ok mp1) (h2 : mp1.getBasisFunctions G0 = .ok mp)
    {a : Vec K} {A : Mat K} (hA : AffineAround P M_tol G mp a A)
    (hsym : (inPlane A).transpose = inPlane A)
    {law : Law} (hl : law ≠ .bingham) {c : LawCtx K ns} {vis vis' : Vis → Fin P.N → XF K}
    (h : mp.stressStrain P.nx M_tol G law c vis = .ok (mp', vis')) :
    mp'.stress = mp.stress + mp'.dstress -
      (2 : K) • (c.dt • (inPlane A * mp.stress + mp.stress * (inPlane A).transpose)) := by
  rw [c32_correction hP hM hG0 hG hx h1 h2 hA hl h, hsym]
  rw [Matrix.add_mul, Matrix.mul_add, smul_comm, two_smul]
  congr 2
  abel

end

/-! ## The hypotheses can be met -/

/-- A grid on which every node has mass 2 and moves with `x ↦ a + A x`. -/
def Ex.affine (G : Grid ℚ Ex.gp.N 2) (a : Vec ℚ) (A : Mat ℚ) : Grid ℚ Ex.gp.N 2 :=
  { G with m := fun _ => 2, q := fun k => (2 : ℚ) • (a + A.mulVec ![G.X k, G.Y k, 0]) }

/-- C09, C10, C11, C32: the point of `Ex.mp` on that grid, for any affine field. -/
example (a : Vec ℚ) (A : Mat ℚ) : ∃ (G0 G : Grid ℚ Ex.gp.N 2) (mp1 mp : Particle ℚ 2),
    Geometry Ex.gp G0 ∧ Geometry Ex.gp G ∧ InDomain Ex.gp Ex.mp.x ∧
    Ex.mp.getReferenceNode Ex.gp G0.dx G0.dy = .ok mp1 ∧ mp1.getBasisFunctions G0 = .ok mp ∧
    NodesOk Ex.gp.nx Ex.gp.N mp ∧ AffineAround Ex.gp 0 G mp a A := by
  obtain ⟨G, hG⟩ := mkGrid_exists Ex.bp Ex.good
  have hg : Geometry Ex.gp G := mkGrid_geometry hG
  have hx : InDomain Ex.gp Ex.mp.x := by simp [InDomain, Ex.gp, Ex.mp]; norm_num
  obtain ⟨i, j, nd, hc, e1, e2, hnd, -⟩ := located_basis Ex.good hg hx
  exact ⟨G, Ex.affine G a A, _, _, hg, ⟨hg.dx, hg.dy, hg.X, hg.Y⟩, hx, e1, e2,
    nodesOk_iff.2 ⟨nd, hnd⟩, fun r k _ => ⟨by simp [Ex.affine], rfl⟩⟩

/-- C32: a rotation and a symmetric gradient exist, neither zero. -/
example : (inPlane (!![0, 1, 0; -1, 0, 0; 0, 0, 0] : Mat ℚ)).transpose =
      -inPlane !![0, 1, 0; -1, 0, 0; 0, 0, 0] ∧
    (inPlane (!![1, 2, 0; 2, 0, 0; 0, 0, 0] : Mat ℚ)).transpose =
      inPlane !![1, 2, 0; 2, 0, 0; 0, 0, 0] := by
  constructor <;>
  · funext i j
    fin_cases i <;> fin_cases j <;> simp [inPlane, Matrix.transpose]

end Mpm

import Verif.Lemmas.Axes

/-! The constitutive laws along other axes. -/

set_option linter.unusedSectionVars false

namespace Mpm
open Spec

namespace Spec
section
variable {K : Type} [Field K] [LinearOrder K] {ns : ℕ}

/-- What happens to the parts of a point that no law looks at. -/
structure Kin (K : Type) where
  x : Vec K → Vec K
  v : VRef K → VRef K
  b : Vec K → Vec K
  N : (Fin 4 → K) → Fin 4 → K
  Gs : (Fin 4 → Vec K) → Fin 4 → Vec K
  n : ℤ → ℤ

/-- A point along the new axes. -/
def Axes.pt (A : Axes K) (k : Kin K) (mp : Particle K ns) : Particle K ns :=
  { mp with
    x := k.x mp.x, v := k.v mp.v, b := k.b mp.b, N := k.N mp.N, Gs := k.Gs mp.Gs
    n_star := k.n mp.n_star
    stress := A.m mp.stress, strain := A.m mp.strain, dstrain := A.m mp.dstrain
    dstress := A.m mp.dstress, de_ij := A.m mp.de_ij, dev_stress := A.m mp.dev_stress
    LL := A.m mp.LL
    sigmav := if A.swap then mp.sigmah else mp.sigmav
    sigmah := if A.swap then mp.sigmav else mp.sigmah }

/-- Vertical before horizontal stress, the order in which the laws report them. -/
def sortVis : List (Vis × XF K) → List (Vis × XF K)
  | (.sigmah, x) :: (.sigmav, y) :: l => (.sigmav, y) :: (.sigmah, x) :: sortVis l
  | e :: l => e :: sortVis l
  | [] => []

/-- Reports along the new axes. -/
def Axes.rep (A : Axes K) (l : List (Vis × XF K)) : List (Vis × XF K) :=
  sortVis (l.map (Prod.map A.vis id))

end
end Spec

section
variable {K : Type} [Field K] [LinearOrder K] [IsStrictOrderedRing K] {ns : ℕ} {A : Axes K}
  {k : Kin K}

theorem sortVis_perm (l : List (Vis × XF K)) : (sortVis l).Perm l := by
  induction l using sortVis.induct with
  | case1 x y l ih => exact (List.Perm.swap _ _ _).trans ((ih.cons _).cons _)
  | case2 e l h ih => rw [sortVis]; exact ih.cons _; exact h
  | case3 => exact List.Perm.refl _

theorem Spec.Axes.rep_perm (l : List (Vis × XF K)) :
    (A.rep l).Perm (l.map (Prod.map A.vis id)) := sortVis_perm _

theorem Spec.Axes.m_zz (M : Mat K) : A.m M 0 0 = if A.swap then M 1 1 else M 0 0 := by
  rw [A.m_diag]; unfold Axes.p; split <;> rfl
theorem Spec.Axes.m_oo (M : Mat K) : A.m M 1 1 = if A.swap then M 0 0 else M 1 1 := by
  rw [A.m_diag]; unfold Axes.p; split <;> rfl

theorem Spec.Axes.m_dev (c : K) (M : Mat K) :
    A.m M - c • (1 : Mat K) = A.m (M - c • (1 : Mat K)) := by
  rw [A.m_sub, A.m_smul, A.m_one]

theorem Spec.Axes.m_sphere (c : K) : c • (1 : Mat K) = A.m (c • (1 : Mat K)) := by
  rw [A.m_smul, A.m_one]

theorem neg_ite' (c : Prop) [Decidable c] (a b : K) :
    -(if c then a else b) = if c then -a else -b := by split <;> rfl

theorem rep_plain (l : List (Vis × XF K)) (h : ∀ e ∈ l, e.1 ≠ .sigmav ∧ e.1 ≠ .sigmah) :
    A.rep l = l := by
  unfold Axes.rep
  induction l with
  | nil => rfl
  | cons e l ih =>
    obtain ⟨h1, h2⟩ := h e (List.mem_cons_self ..)
    have he : Prod.map A.vis id e = e := by
      obtain ⟨v, x⟩ := e
      cases v <;> first | rfl | exact absurd rfl h1 | exact absurd rfl h2
    rw [List.map_cons, he]
    obtain ⟨v, x⟩ := e
    rw [sortVis, ih fun e he => h e (List.mem_cons_of_mem _ he)]
    intro y z l' e' _
    exact h2 (congrArg Prod.fst e')

theorem elastic_axes (c : LawCtx K ns) (mp : Particle K ns) :
    lawElastic c (A.pt k mp) = Prod.map (A.pt k) A.rep <$> lawElastic c mp := by
  unfold lawElastic
  simp only [Axes.pt, A.m_trace, A.m_dev, A.m_frob, A.m_zz, A.m_oo]
  refine congrArg Except.ok (Prod.ext ?_ ?_)
  · simp only [Prod.map, Axes.pt, Particle.mk.injEq, true_and, and_true]
    rw [A.m_add, A.m_smul, A.m_smul, A.m_one]
  · simp only [Prod.map, Axes.rep, List.map_cons, List.map_nil, Axes.vis]
    cases A.swap <;> rfl

theorem elasticTime_axes (c : LawCtx K ns) (mp : Particle K ns) :
    lawElasticTime c (A.pt k mp) = Prod.map (A.pt k) A.rep <$> lawElasticTime c mp := by
  unfold lawElasticTime
  refine ite_equiv rfl ?_
  simp only [Axes.pt, A.m_trace, A.m_dev, A.m_frob, A.m_zz, A.m_oo, neg_ite']
  refine congrArg Except.ok (Prod.ext ?_ ?_)
  · simp only [Prod.map, Axes.pt, Particle.mk.injEq, true_and, and_true]
    rw [A.m_add, A.m_smul, A.m_smul, A.m_one]
  · simp only [Prod.map, Axes.rep, List.map_cons, List.map_nil, Axes.vis]
    cases A.swap <;> rfl

theorem vonMises_axes (c : LawCtx K ns) (mp : Particle K ns) :
    lawVonMises c (A.pt k mp) = Prod.map (A.pt k) A.rep <$> lawVonMises c mp := by
  unfold lawVonMises
  simp only [Axes.pt, A.m_trace, A.m_dev, A.m_frob, A.m_zz, A.m_oo, ← A.m_smul, ← A.m_sub,
    ← A.m_add]
  refine ite_equiv rfl (ite_equiv rfl (ite_equiv rfl ?_))
  refine congrArg Except.ok (Prod.ext ?_ ?_)
  · simp only [Prod.map, Axes.pt, Particle.mk.injEq, true_and, and_true]
    simp only [A.m_sub, A.m_add, A.m_smul, A.m_one]
  · simp only [Prod.map, Axes.rep, List.map_cons, List.map_nil, Axes.vis]
    cases A.swap <;> rfl

theorem dp_axes (c : LawCtx K ns) (mp : Particle K ns) :
    lawDp c (A.pt k mp) = Prod.map (A.pt k) A.rep <$> lawDp c mp := by
  unfold lawDp
  have h : (A.pt k mp).mu = mp.mu := rfl
  rw [h]
  cases mp.mu <;> rfl

theorem signX_fin (s x : K) : signX s (.fin x) = .fin (s * x) := rfl

theorem signX_add {s : K} (hs : s = 1 ∨ s = -1) (x y : XF K) :
    signX s (x + y) = signX s x + signX s y := by
  rcases hs with rfl | rfl
  · simp only [signX_one]
  · simp only [signX_neg_one, neg_add']

theorem signX_neg' {s : K} (hs : s = 1 ∨ s = -1) (x : XF K) : signX s (-x) = -signX s x := by
  rcases hs with rfl | rfl
  · simp only [signX_one]
  · simp only [signX_neg_one]

theorem signX_sub {s : K} (hs : s = 1 ∨ s = -1) (x y : XF K) :
    signX s (x - y) = signX s x - signX s y :=
  (signX_add hs x (-y)).trans (congrArg _ (signX_neg' hs y))

theorem signX_mul {s : K} (hs : s = 1 ∨ s = -1) (x y : XF K) :
    signX s (x * y) = x * signX s y := by
  rcases hs with rfl | rfl
  · simp only [signX_one]
  · simp only [signX_neg_one, mul_neg']

theorem signX_mul_left {s : K} (hs : s = 1 ∨ s = -1) (x y : XF K) :
    signX s (x * y) = signX s x * y := by
  rw [mul_comm', signX_mul hs, mul_comm']

theorem signX_div {s : K} (hs : s = 1 ∨ s = -1) (x y : XF K) :
    signX s (x / y) = signX s x / y := by
  rcases hs with rfl | rfl
  · simp only [signX_one]
  · simp only [signX_neg_one, neg_div']

theorem dpRateGuts_axes (ops : Ops K) (m : Mat0 K) (e s : Matrix (Fin 2) (Fin 2) K) (i j : Fin 2) :
    dpRateGuts ops m (A.m2 e) (A.m2 s) i j =
      signX (A.f i.castSucc * A.f j.castSucc) (dpRateGuts ops m e s (A.p2 i) (A.p2 j)) := by
  have hs := A.ff_cases i.castSucc j.castSucc
  have hd : ∀ (c : K) (M : Matrix (Fin 2) (Fin 2) K), A.m2 M - c • (1 : Matrix (Fin 2) (Fin 2) K) =
      A.m2 (M - c • 1) := by intro c M; rw [A.m2_sub, A.m2_smul, A.m2_one]
  unfold dpRateGuts
  simp only [A.m2_trace, hd, A.m2_frob]
  rw [signX_add hs, signX_mul hs, signX_sub hs, signX_mul_left hs, signX_div hs, signX_fin,
    signX_fin, signX_mul_left hs, signX_fin]
  have h1 : (1 : Matrix (Fin 2) (Fin 2) K) i j =
      A.f i.castSucc * A.f j.castSucc * (1 : Matrix (Fin 2) (Fin 2) K) (A.p2 i) (A.p2 j) := by
    conv_lhs => rw [← A.m2_one]
    rfl
  rw [h1, A.m2_apply, A.m2_apply, mul_left_comm (3 : K), mul_left_comm m.Kb]

theorem dpRate_axes (c : LawCtx K ns) (mp : Particle K ns) :
    lawDpRate c (A.pt k mp) = Prod.map (A.pt k) A.rep <$> lawDpRate c mp := by
  have hd : ∀ (c : K) (M : Matrix (Fin 2) (Fin 2) K), A.m2 M - c • (1 : Matrix (Fin 2) (Fin 2) K) =
      A.m2 (M - c • 1) := by intro c M; rw [A.m2_sub, A.m2_smul, A.m2_one]
  unfold lawDpRate
  simp only [Axes.pt, block2_axes, ← A.m2_neg, A.m2_trace, hd, A.m2_frob]
  refine res_bind_map (f := A.m) ?_ fun d _ => res_bind_map (f := id) (id_map _).symm fun y _ => ?_
  · refine finMat_axes fun i j => ?_
    by_cases h : i.val < 2 ∧ j.val < 2
    · have h' : (A.p i).val < 2 ∧ (A.p j).val < 2 := ⟨(A.p_plane i).2 h.1, (A.p_plane j).2 h.2⟩
      simp only [dif_pos h, dif_pos h']
      rw [dpRateGuts_axes, signX_neg' (A.ff_cases i j)]
      have hp : ∀ (i : Fin 3) (h : i.val < 2) (h' : (A.p i).val < 2),
          A.p2 ⟨i, h⟩ = ⟨A.p i, h'⟩ := by
        intro i h h'
        apply Fin.castSucc_injective
        rw [← A.p_castSucc]
        rfl
      rw [hp i h.1 h'.1, hp j h.2 h'.2]
      rfl
    · have h' : ¬ ((A.p i).val < 2 ∧ (A.p j).val < 2) := by
        rwa [A.p_plane i, A.p_plane j]
      simp only [dif_neg h, dif_neg h']
      rfl
  · refine congrArg Except.ok (Prod.ext ?_ ?_)
    · simp only [Prod.map, Axes.pt, Particle.mk.injEq, true_and, and_true, A.m_trace, A.m_zz,
        A.m_oo, id_eq]
    · rfl

theorem viscous_axes (c : LawCtx K ns) (mp : Particle K ns) :
    lawViscous c (A.pt k mp) = Prod.map (A.pt k) A.rep <$> lawViscous c mp := by
  unfold lawViscous
  refine ite_equiv rfl ?_
  simp only [Axes.pt, A.m_trace, A.m_dev, A.m_frob, ← A.m_smul]
  refine congrArg Except.ok (Prod.ext ?_ rfl)
  simp only [Prod.map, Axes.pt, Particle.mk.injEq, true_and, and_true]
  simp only [A.m_sub, A.m_add, A.m_smul, A.m_one]

theorem bingham_axes (c : LawCtx K ns) (mp : Particle K ns) :
    lawBingham c (A.pt k mp) = Prod.map (A.pt k) A.rep <$> lawBingham c mp := by
  unfold lawBingham
  refine ite_equiv rfl (res_bind_map (f := id) (id_map _).symm fun mu_0 _ => ?_)
  simp only [Axes.pt, A.m_trace, A.m_dev, A.m_frob, id_eq]
  refine res_bind_map (f := A.m) (ite_equiv ?_ (ite_equiv rfl ?_)) fun D _ => ?_
  · exact congrArg Except.ok (A.m_smul _ _).symm
  · exact congrArg Except.ok (A.m_smul _ _).symm
  rw [A.m_frob]
  refine congrArg Except.ok (Prod.ext ?_ rfl)
  simp only [Prod.map, Axes.pt, Particle.mk.injEq, true_and, and_true]
  simp only [A.m_sub, A.m_add, A.m_smul, A.m_one]

theorem kenKamrin_axes (c : LawCtx K ns) (mp : Particle K ns) :
    lawKenKamrin c (A.pt k mp) = Prod.map (A.pt k) A.rep <$> lawKenKamrin c mp := by
  unfold lawKenKamrin
  refine ite_equiv rfl (res_bind_map (f := id) (id_map _).symm fun I_0 _ => ?_)
  simp only [Axes.pt, A.m_trace, A.m_dev, ← A.m_smul, A.m_frob, id_eq]
  refine congrArg Except.ok (Prod.ext ?_ rfl)
  simp only [Prod.map, Axes.pt, Particle.mk.injEq, true_and, and_true]
  simp only [A.m_sub, A.m_add, A.m_smul, A.m_one]

theorem kenSimple_axes (c : LawCtx K ns) (mp : Particle K ns) :
    lawKenSimple c (A.pt k mp) = Prod.map (A.pt k) A.rep <$> lawKenSimple c mp := by
  unfold lawKenSimple
  refine res_bind_map (f := id) (id_map _).symm fun mu_0 _ => ite_equiv rfl ?_
  simp only [Axes.pt, A.m_trace, A.m_dev, ← A.m_smul, A.m_frob, id_eq]
  refine congrArg Except.ok (Prod.ext ?_ rfl)
  simp only [Prod.map, Axes.pt, Particle.mk.injEq, true_and, and_true]
  by_cases h : 2500 < mp.rho
  · rw [if_pos h, if_pos h]
    simp only [A.m_sub, A.m_add, A.m_smul, A.m_one]
  · rw [if_neg h, if_neg h]
    exact (A.m_neg _).symm

theorem flowStressInc_axes (p : K) (eta : XF K) (e : Mat K) (dt : K) (s : Mat K) (i j : Fin 3) :
    flowStressInc p eta (A.m e) dt (A.m s) i j =
      signX (A.f i * A.f j) (flowStressInc p eta e dt s (A.p i) (A.p j)) := by
  have hs := A.ff_cases i j
  unfold flowStressInc
  rw [signX_sub hs, signX_add hs, signX_div hs, signX_mul hs, signX_fin, signX_fin, signX_fin]
  have h1 : (1 : Mat K) i j = A.f i * A.f j * (1 : Mat K) (A.p i) (A.p j) := by
    conv_lhs => rw [← A.m_one]
    rfl
  rw [h1, A.m_apply, A.m_apply, mul_left_comm p]

theorem linearMu_axes (c : LawCtx K ns) (mp : Particle K ns) :
    lawLinearMu c (A.pt k mp) = Prod.map (A.pt k) A.rep <$> lawLinearMu c mp := by
  unfold lawLinearMu
  refine res_bind_map (f := id) (id_map _).symm fun mu_0 _ => ite_equiv rfl ?_
  unfold linearMuRaw
  simp only [Axes.pt, A.m_trace, A.m_dev, ← A.m_smul, A.m_frob, id_eq]
  refine res_bind_map (f := A.m) (finMat_axes fun i j => flowStressInc_axes _ _ _ _ _ i j)
    fun d _ => res_bind_map (f := A.m) (finMat_axes fun i j => ?_) fun D _ => ?_
  · have hs := A.ff_cases i j
    rw [signX_div hs, signX_mul hs, signX_fin, A.m_apply]
  · rw [A.m_frob]
    exact congrArg Except.ok (Prod.ext rfl rfl)

theorem pouliquen_axes (c : LawCtx K ns) (mp : Particle K ns) :
    lawPouliquen c (A.pt k mp) = Prod.map (A.pt k) A.rep <$> lawPouliquen c mp := by
  unfold lawPouliquen
  refine res_bind_map (f := id) (id_map _).symm fun q _ => ite_equiv rfl ?_
  simp only [Axes.pt, A.m_trace, A.m_dev, ← A.m_smul, A.m_frob, id_eq]
  have hx := flowStressInc_axes (A := A)
    (pouliquenPressure c mp.rho (mp.pressure + c.mat.Kb * (mp.dstrain.trace / 3)))
    (.fin (min ((etaOf c.ops (muI q.1 q.2.1 q.2.2 (inertial c.ops c.mat.rho_s (c.ops.sqrt
        (frob ((2 / c.dt) • (mp.dstrain - (mp.dstrain.trace / 3) • (1 : Mat K)))
          ((2 / c.dt) • (mp.dstrain - (mp.dstrain.trace / 3) • (1 : Mat K)))))
        (meanSize c.s mp.phi) mp.pressure)) mp.pressure (c.ops.sqrt
        (frob ((2 / c.dt) • (mp.dstrain - (mp.dstrain.trace / 3) • (1 : Mat K)))
          ((2 / c.dt) • (mp.dstrain - (mp.dstrain.trace / 3) • (1 : Mat K)))))).nanToNum c.ops.big)
      c.mat.eta_max)) (mp.dstrain - (mp.dstrain.trace / 3) • (1 : Mat K)) c.dt mp.stress
  refine ite_iff (finite_axes hx) (congrArg Except.ok (Prod.ext ?_ rfl)) rfl
  rw [toNum_axes hx]
  rfl

/-- Every law gives the same along any choice of axes. -/
theorem runLaw_axes (law : Law) (c : LawCtx K ns) (mp : Particle K ns) :
    runLaw law c (A.pt k mp) = Prod.map (A.pt k) A.rep <$> runLaw law c mp := by
  cases law
  case rigid => rfl
  case elastic => exact elastic_axes c mp
  case elastic_time => exact elasticTime_axes c mp
  case von_mises => exact vonMises_axes c mp
  case dp => exact dp_axes c mp
  case dp_rate => exact dpRate_axes c mp
  case viscous => exact viscous_axes c mp
  case bingham => exact bingham_axes c mp
  case ken_kamrin => exact kenKamrin_axes c mp
  case pouliquen => exact pouliquen_axes c mp
  case linear_mu => exact linearMu_axes c mp
  case ken_simple => exact kenSimple_axes c mp
  all_goals rfl

end
end Mpm

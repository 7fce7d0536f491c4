import Verif.Props.Fields
import Verif.Props.History
import Verif.Props.Motion
import Verif.Props.Strain

/-!
# Virtual work (C80), kinetic energy (C81) and angular momentum (C82) of the transfers
-/

set_option linter.unusedSectionVars false

namespace Mpm
open Spec

namespace Spec
section
variable {K : Type} [Field K] [LinearOrder K] {ns N : ℕ}

/-- `A : B`, the sum of the products of all entries. -/
def contract (A B : Mat K) : K := ∑ i, ∑ j, A i j * B i j

/-- Velocity of a node: momentum over mass, zero for nodes that are too light. -/
def velocityAt (M_tol : K) (G : Grid K N ns) (k : Fin N) (i : Fin 3) : K :=
  if M_tol < G.m k then G.q k i / G.m k else 0

/-- Kinetic energy of the material points. -/
def kineticEnergy (L : List (PhaseSt K ns)) : K :=
  (L.map fun a => (a.pts.map fun mp => mp.m * (∑ i, velocity a mp i ^ 2) / 2).sum).sum

/-- Kinetic energy of the nodes that have mass. -/
def nodalEnergy (G : Grid K N ns) : K :=
  ∑ k ∈ Finset.univ.filter (fun k => 0 < G.m k), (∑ i, G.q k i ^ 2) / (2 * G.m k)

/-- In-plane moment about the origin of a vector `f` at the position `(x, y)`. -/
def moment (x y : K) (f : Vec K) : K := x * f 1 - y * f 0

/-- Angular momentum of the material points about the origin. -/
def angularMomentum (L : List (PhaseSt K ns)) : K :=
  (L.map fun a => (a.pts.map fun mp => mp.m * moment (mp.x 0) (mp.x 1) (velocity a mp)).sum).sum

end
end Spec

section
variable {K : Type} [Field K] [LinearOrder K] [IsStrictOrderedRing K] [FloorRing K]
variable {P : Par K} {s s' : St P}

/-! ## C80 -/

theorem sum_gradWeight {ns N nx : ℕ} {mp : Particle K ns} {nd : Fin 4 → Fin N}
    (h : ∀ r, mp.node nx N r = .ok (nd r)) (u : Fin N → Vec K) :
    ∑ k, ∑ i, (mp.V • Matrix.mulVec mp.stress (gradWeight nx mp k)) i * u k i =
      mp.V * contract mp.stress (∑ r, Matrix.vecMulVec (u (nd r)) (mp.Gs r)) := by
  have e : ∀ k, ∑ i, (mp.V • Matrix.mulVec mp.stress (gradWeight nx mp k)) i * u k i =
      ∑ r, if nd r = k then mp.V * ∑ i, ∑ j, mp.stress i j * (u k i * mp.Gs r j) else 0 := by
    intro k
    have e1 : Matrix.mulVec mp.stress (gradWeight nx mp k) =
        ∑ r, if nd r = k then Matrix.mulVec mp.stress (mp.Gs r) else 0 := by
      rw [gradWeight_eq h, Matrix.mulVec_sum]
      refine Finset.sum_congr rfl fun r _ => ?_
      split_ifs <;> simp
    rw [e1]
    simp only [Pi.smul_apply, smul_eq_mul, Finset.sum_apply, Finset.mul_sum, Finset.sum_mul]
    rw [Finset.sum_comm]
    refine Finset.sum_congr rfl fun r _ => ?_
    split_ifs
    · refine Finset.sum_congr rfl fun i _ => ?_
      simp only [Matrix.mulVec, dotProduct, Finset.mul_sum, Finset.sum_mul]
      exact Finset.sum_congr rfl fun j _ => by ring
    · simp
  simp only [e]
  rw [Finset.sum_comm]
  simp only [Finset.sum_ite_eq, Finset.mem_univ, if_true]
  rw [← Finset.mul_sum]
  congr 1
  unfold contract
  rw [Finset.sum_comm]
  refine Finset.sum_congr rfl fun i _ => ?_
  rw [Finset.sum_comm]
  refine Finset.sum_congr rfl fun j _ => ?_
  rw [Matrix.sum_apply, Finset.mul_sum]
  simp only [Matrix.vecMulVec_apply]

theorem contract_symm {A B : Mat K} (hA : A.IsSymm) (c : K) :
    contract A ((1 / 2 * c) • (B + B.transpose)) = c * contract A B := by
  have h01 : A 1 0 = A 0 1 := hA.apply 0 1
  have h02 : A 2 0 = A 0 2 := hA.apply 0 2
  have h12 : A 2 1 = A 1 2 := hA.apply 1 2
  simp only [contract, Fin.sum_univ_three, Matrix.smul_apply, Matrix.add_apply,
    Matrix.transpose_apply, smul_eq_mul, h01, h02, h12]
  ring

theorem list_sum_dot {α : Type} (l : List α) (f : α → Vec K) (u : Vec K) :
    ∑ i, (l.map f).sum i * u i = (l.map fun a => ∑ i, f a i * u i).sum := by
  induction l with
  | nil => simp
  | cons a l ih =>
    simp only [List.map_cons, List.sum_cons, Pi.add_apply, add_mul, Finset.sum_add_distrib]
    rw [← ih]

theorem gridPhase_symm (hL : Counted s.L)
    (h0 : ∀ mp ∈ points s.L, mp.stress.IsSymm ∧ mp.strain.IsSymm ∧ mp.dev_stress.IsSymm ∧
      mp.dstress.IsSymm)
    (h : gridPhase P s = .ok s') : ∀ mp ∈ points s'.L, mp.stress.IsSymm := by
  obtain ⟨T, rfl⟩ := gridPhase_ok h
  intro b hb
  obtain ⟨-, -, -, c3, c4⟩ := T.rel hL
  obtain ⟨a, ha, ph, p, vis, vis', hs⟩ := forall₂_right (updateStressStrain_rel c3 T.hLd).points hb
  refine (stressStrain_matOk symmSet (fun nd => Matrix.isSymm_add_transpose_self _) hs ?_).stress
  have r1 := updateForces_rel hL T.ha
  obtain ⟨c, hc, ph', c', ⟨e1, -⟩, e2⟩ :=
    forall₂_right (r1.comp (locate_all (r1.counted hL) T.hb T.hc).1).points ha
  obtain ⟨k1, k2, k3, k4⟩ := h0 c hc
  rw [e2.eq, e1]
  exact ⟨k1, k2, k3, k4⟩

/-- C80.  The work of the nodal internal forces on the nodal motion of a step is the work of the
updated point stresses on the strain increments of that step. -/
theorem c80_virtual_work (hL : Counted s.L) (hcy : P.B.cyclic_lr = false)
    (h0 : ∀ mp ∈ points s.L, mp.stress.IsSymm ∧ mp.strain.IsSymm ∧ mp.dev_stress.IsSymm ∧
      mp.dstress.IsSymm)
    (h : gridPhase P s = .ok s') :
    s.dyn.dt * ∑ k, ∑ i, s'.G.fi k i * velocityAt P.M_tol s'.G k i =
      ((points s'.L).map fun mp => mp.V * contract mp.stress mp.dstrain).sum := by
  obtain ⟨T, rfl⟩ := gridPhase_ok h
  obtain ⟨w0, w1⟩ := gridPhase_forces_zero T hL
  obtain ⟨-, -, -, c3, c4⟩ := T.rel hL
  have hn := getNodalForces_acyclic hcy T.hGd
  have ev : velocityAt P.M_tol T.Gd = fun k i => nodeVel P.M_tol T.Gb k i := by
    funext k i
    have e1 : T.Gd.m = T.Gb.m ∧ T.Gd.q = T.Gb.q := by
      rw [getNodalForces_grid c4 T.hGd]
      change T.Gc.m = _ ∧ T.Gc.q = _
      rw [updateStressStrain_grid T.hLd]
      exact ⟨rfl, rfl⟩
    unfold velocityAt nodeVel
    rw [e1.1, e1.2]
    split_ifs <;> rfl
  change s.dyn.dt * ∑ k, ∑ i, T.Gd.fi k i * velocityAt P.M_tol T.Gd k i = ((points T.Ld).map _).sum
  rw [ev]
  have e2 : ∀ k, ∑ i, T.Gd.fi k i * nodeVel P.M_tol T.Gb k i =
      ((points T.Ld).map fun mp => ∑ i,
        (mp.V • Matrix.mulVec mp.stress (gradWeight P.G.nx mp k)) i * nodeVel P.M_tol T.Gb k i).sum := by
    intro k
    rw [nodalForcesAll_fi c4 hn k, w0, zero_add]
    exact list_sum_dot _ _ _
  simp only [e2]
  rw [list_sum_finset, ← List.sum_map_mul_left]
  refine congrArg List.sum (List.map_congr_left fun b hb => ?_)
  obtain ⟨a, ha, ph, p, vis, vis', hs⟩ := forall₂_right (updateStressStrain_rel c3 T.hLd).points hb
  have hsym : b.stress.IsSymm := gridPhase_symm hL h0 h b hb
  obtain ⟨mp1, mp2, l, h1, h2, -, rfl⟩ := stressStrain_ok hs
  obtain ⟨nd, hnd, rfl⟩ := updateStrain_ok h1
  obtain ⟨f1, -, f3, -⟩ := runLaw_frame h2
  have hnd2 : ∀ r, (mp2.applyStress s.dyn.dt).node P.G.nx P.G.N r = .ok (nd r) := by
    intro r
    rw [← hnd r]
    unfold Particle.node
    rw [show (mp2.applyStress s.dyn.dt).n_star = mp2.n_star from rfl, f1.n_star]
  have edt : (lawCtx P T.d P.G.s ((mat0 T.Lc).getD ph.par) p ph).dt = s.dyn.dt := by
    rw [T.hd]
    rfl
  rw [edt] at hsym ⊢
  rw [sum_gradWeight hnd2, mul_left_comm]
  congr 1
  have eG : (mp2.applyStress s.dyn.dt).Gs = a.Gs := f1.Gs
  have ed : (mp2.applyStress s.dyn.dt).dstrain = _ := f3
  rw [eG, ed, ← contract_symm hsym]
  rw [edt]

/-! ## C81 -/

/-- Cauchy-Schwarz for weighted sums over a list. -/
theorem list_weighted_sq {α : Type} (l : List α) (w v : α → K) (hw : ∀ a ∈ l, 0 ≤ w a)
    (hM : 0 < (l.map w).sum) :
    (l.map fun a => w a * v a).sum ^ 2 / (l.map w).sum ≤ (l.map fun a => w a * v a ^ 2).sum := by
  set M := (l.map w).sum with hMd
  set S := (l.map fun a => w a * v a).sum with hS
  have key : ∀ c : K, (l.map fun a => w a * (v a - c) ^ 2).sum =
      (l.map fun a => w a * v a ^ 2).sum - 2 * c * S + c ^ 2 * M := by
    intro c
    rw [hS, hMd]
    clear hM hw hMd hS
    clear_value M S
    induction l with
    | nil => simp
    | cons a l ih =>
      simp only [List.map_cons, List.sum_cons, ih]
      ring
  have h0 : 0 ≤ (l.map fun a => w a * (v a - S / M) ^ 2).sum :=
    list_sum_nonneg fun a ha => mul_nonneg (hw a ha) (sq_nonneg _)
  rw [key] at h0
  have e : 2 * (S / M) * S - (S / M) ^ 2 * M = S ^ 2 / M := by
    field_simp
    ring
  linarith

theorem sum_items {ns : ℕ} {M : Type} [AddCommMonoid M] (L : List (PhaseSt K ns))
    (f : Phase K ns → Particle K ns → M) :
    (L.map fun a => (a.pts.map fun mp => f a.ph mp).sum).sum =
      ((items L).map fun x => f x.1 x.2).sum := by
  induction L with
  | nil => rfl
  | cons a t ih =>
    rw [List.map_cons, List.sum_cons, ih, items_cons, List.map_append, List.sum_append,
      List.map_map]
    rfl

theorem kineticEnergy_items {ns : ℕ} (L : List (PhaseSt K ns)) :
    kineticEnergy L = ((items L).map fun x => x.2.m * (∑ i, x.2.v.get x.1.iv i ^ 2) / 2).sum := by
  rw [← sum_items L (fun ph mp => mp.m * (∑ i, mp.v.get ph.iv i ^ 2) / 2)]
  unfold kineticEnergy velocity VRef.get
  rfl

/-- Where the points of a step are when they are mapped to the grid. -/
theorem gridPhase_cell (hP : GoodGrid P.G) (hG : Geometry P.G s.G) (hL : Counted s.L)
    (hx : ∀ mp ∈ points s.L, InDomain P.G mp.x) (T : GridPhase P s) :
    PtsRel (fun _ a c => ∃ (i j : ℕ) (nd : Fin 4 → Fin P.G.N), InCell P.G a.x i j ∧
      c = { atCell P.G a i j with b := c.b } ∧ (∀ r, c.node P.G.nx P.G.N r = .ok (nd r)) ∧
      (∀ r, (nd r : ℕ) % P.G.nx = i + cornerX r) ∧ (∀ r, (nd r : ℕ) / P.G.nx = j + cornerY r))
      s.L T.Lc := by
  have r1 := updateForces_rel hL T.ha
  have c1 := r1.counted hL
  have hG' := Mpm.Geometry.wipe hG
  have r2 : PtsRel (fun _ a b => a.getReferenceNode P.G s.G.wipe.dx s.G.wipe.dy = .ok b) T.La T.Lb :=
    mapPoints_rel (f := fun _ _ mp => mp.getReferenceNode P.G s.G.wipe.dx s.G.wipe.dy)
      (fun _ _ _ _ h => h) c1 T.hb
  have r3 : PtsRel (fun _ a b => a.getBasisFunctions s.G.wipe = .ok b) T.Lb T.Lc :=
    mapPoints_rel (f := fun _ _ mp => mp.getBasisFunctions s.G.wipe) (fun _ _ _ _ h => h)
      (r2.counted c1) T.hc
  refine (r1.comp (r2.comp r3)).mem.mono ?_
  rintro ph a b ⟨ha, -, c, ⟨e, -⟩, d, hd, hb⟩
  have hin : InDomain P.G c.x := by rw [e]; exact hx a (mem_points_items ha)
  obtain ⟨i, j, nd, hcell, g1, g2, hnd, hX, hY⟩ := located_basis hP hG' hin
  rw [g1, Except.ok.injEq] at hd
  rw [← hd, g2, Except.ok.injEq] at hb
  subst hb
  refine ⟨i, j, nd, by rw [e] at hcell; exact hcell, ?_, hnd, hX, hY⟩
  rw [e]
  rfl

/-- The momenta of a step before any periodic summation: sums over the points, set to zero by the walls. -/
theorem gridPhase_mapped_momentum (hP : GoodGrid P.G) (hG : Geometry P.G s.G) (hL : Counted s.L)
    (hx : ∀ mp ∈ points s.L, InDomain P.G mp.x) (T : GridPhase P s)
    (k : Fin P.G.N) (i : Fin 3) :
    (T.Ga.q k i = 0 ∨ T.Ga.q k i =
      ((items s.L).map fun x => hat P.G x.2.x k * x.2.m * x.2.v.get x.1.iv i).sum) ∧
    (s.G.boundary_v k = false → s.G.boundary_h k = false → T.Ga.q k i =
      ((items s.L).map fun x => hat P.G x.2.x k * x.2.m * x.2.v.get x.1.iv i).sum) := by
  obtain ⟨-, -, -, c3, c4⟩ := T.rel hL
  obtain ⟨G1, h1, e2⟩ := getNodalMassMomentum_ok T.hGa
  have eq1 : G1.q k i =
      ((items s.L).map fun x => hat P.G x.2.x k * x.2.m * x.2.v.get x.1.iv i).sum := by
    rw [p2gAll_q c3 h1]
    change (0 + _ : Vec K) i = _
    rw [zero_add]
    have : ∀ l : List (Phase K P.G.ns × Particle K P.G.ns),
        ((l.map fun x => (weight P.G.nx x.2 k * x.2.m) • (x.2.v.get x.1.iv)).sum : Vec K) i =
        (l.map fun x => weight P.G.nx x.2 k * x.2.m * x.2.v.get x.1.iv i).sum := by
      intro l
      induction l with
      | nil => rfl
      | cons a l ih =>
        simp only [List.map_cons, List.sum_cons, Pi.add_apply, ih, Pi.smul_apply, smul_eq_mul]
    rw [this]
    refine (congrArg List.sum (forall₂_map_eq ?_ (gridPhase_cell hP hG hL hx T).items)).symm
    rintro x y ⟨e, ii, jj, nd, hc, ey, -⟩
    have ew : weight P.G.nx y.2 k = hat P.G x.2.x k := by
      rw [← weight_atCell hP hc, ey]
      rfl
    have em : y.2.m = x.2.m := by rw [ey]; rfl
    have ev : y.2.v = x.2.v := by rw [ey]; rfl
    rw [ew, em, ev, e]
  have e3 : (if P.segregate_grid then G1.nodalFractions P.ops.big P.G.s else G1).q = G1.q ∧
      (if P.segregate_grid then G1.nodalFractions P.ops.big P.G.s else G1).boundary_v = s.G.boundary_v ∧
      (if P.segregate_grid then G1.nodalFractions P.ops.big P.G.s else G1).boundary_h = s.G.boundary_h := by
    have hs := (wipe_static s.G).trans (p2gAll_static h1)
    refine ⟨by split <;> rfl, ?_, ?_⟩
    · rw [← hs.bv]; split <;> rfl
    · rw [← hs.bh]; split <;> rfl
  rw [e2]
  have hz := zeroBoundary_q P.B.roughness
    (if P.segregate_grid then G1.nodalFractions P.ops.big P.G.s else G1) k
  rw [e3.1, e3.2.1, e3.2.2] at hz
  rw [← eq1]
  obtain ⟨z2, z0, z1⟩ := hz
  constructor
  · fin_cases i
    · rw [show ((⟨0, by omega⟩ : Fin 3)) = 0 from rfl, z0]; split_ifs <;> simp
    · change _ = _ ∨ _ = _
      rw [show ((⟨1, by omega⟩ : Fin 3)) = 1 from rfl, z1]; split_ifs <;> simp
    · exact .inr z2
  · intro hv hh
    rw [hv, hh] at z0 z1
    fin_cases i
    · simpa using z0
    · simpa using z1
    · exact z2

/-- The momenta of a step: sums over the points, set to zero by the walls. -/
theorem gridPhase_momentum (hP : GoodGrid P.G) (hG : Geometry P.G s.G) (hL : Counted s.L)
    (hx : ∀ mp ∈ points s.L, InDomain P.G mp.x) (hcy : P.B.cyclic_lr = false) (T : GridPhase P s)
    (k : Fin P.G.N) (i : Fin 3) :
    (T.Gd.q k i = 0 ∨ T.Gd.q k i =
      ((items s.L).map fun x => hat P.G x.2.x k * x.2.m * x.2.v.get x.1.iv i).sum) ∧
    (s.G.boundary_v k = false → s.G.boundary_h k = false → T.Gd.q k i =
      ((items s.L).map fun x => hat P.G x.2.x k * x.2.m * x.2.v.get x.1.iv i).sum) := by
  obtain ⟨-, -, -, c3, c4⟩ := T.rel hL
  have e1 : T.Gd.q = T.Ga.q := by
    rw [getNodalForces_grid c4 T.hGd]
    change T.Gc.q = _
    rw [updateStressStrain_grid T.hLd]
    change T.Gb.q = _
    rw [T.hGb, hcy]
    rfl
  rw [e1]
  exact gridPhase_mapped_momentum hP hG hL hx T k i

theorem hat_sum {P : GP K} {ns : ℕ} (hP : GoodGrid P) {mp : Particle K ns}
    (hx : InDomain P mp.x) : ∑ k, hat P mp.x k = 1 := by
  obtain ⟨i, j, hc, -, -⟩ := inDomain_cell hP hx
  simp only [← weight_atCell hP hc]
  rw [weight_sum fun r => by
    obtain ⟨k, hk, -⟩ := corner_index hc.2.2.1 hc.2.2.2 r
    exact ⟨k, hk⟩]
  exact shapeN_sum (mul_pos (cellX_pos hP) (cellY_pos hP)).ne' _

/-- C81.  Mapping the points to the grid never creates kinetic energy: the energy of the nodal
momenta of a step is at most that of the material points. -/
theorem c81_no_gain (hP : GoodGrid P.G) (hG : Geometry P.G s.G) (hL : Counted s.L)
    (hx : ∀ mp ∈ points s.L, InDomain P.G mp.x) (hm : ∀ mp ∈ points s.L, 0 ≤ mp.m)
    (hcy : P.B.cyclic_lr = false) (h : gridPhase P s = .ok s') :
    nodalEnergy s'.G ≤ kineticEnergy s.L := by
  obtain ⟨T, rfl⟩ := gridPhase_ok h
  change nodalEnergy T.Gd ≤ _
  have hw : ∀ k, ∀ x ∈ items s.L, 0 ≤ hat P.G x.2.x k * x.2.m := fun k x hx' =>
    mul_nonneg (hat_nonneg _ _) (hm x.2 (mem_points_items hx'))
  have hmass : ∀ k, T.Gd.m k = ((items s.L).map fun x => hat P.G x.2.x k * x.2.m).sum := by
    intro k
    rw [gridPhase_mass hP hG hL hx hcy T k]
    unfold nodalMass
    rw [← items_map_snd, List.map_map]
    rfl
  have hnode : ∀ k, 0 < T.Gd.m k → (∑ i, T.Gd.q k i ^ 2) / (2 * T.Gd.m k) ≤
      ((items s.L).map fun x => hat P.G x.2.x k * (x.2.m * (∑ i, x.2.v.get x.1.iv i ^ 2) / 2)).sum := by
    intro k hk
    have hi : ∀ i, T.Gd.q k i ^ 2 / T.Gd.m k ≤
        ((items s.L).map fun x => hat P.G x.2.x k * x.2.m * x.2.v.get x.1.iv i ^ 2).sum := by
      intro i
      have hcs := list_weighted_sq (items s.L) (fun x => hat P.G x.2.x k * x.2.m)
        (fun x => x.2.v.get x.1.iv i) (hw k) (by rw [← hmass]; exact hk)
      rw [← hmass] at hcs
      rcases (gridPhase_momentum hP hG hL hx hcy T k i).1 with e | e
      · rw [e]
        simp only [ne_eq, OfNat.ofNat_ne_zero, not_false_eq_true, zero_pow, zero_div]
        exact list_sum_nonneg fun x hx' => mul_nonneg (hw k x hx') (sq_nonneg _)
      · rw [e]; exact hcs
    calc (∑ i, T.Gd.q k i ^ 2) / (2 * T.Gd.m k) = (∑ i, T.Gd.q k i ^ 2 / T.Gd.m k) / 2 := by
          rw [← Finset.sum_div]; field_simp
      _ ≤ (∑ i, ((items s.L).map fun x => hat P.G x.2.x k * x.2.m * x.2.v.get x.1.iv i ^ 2).sum) / 2 := by
          have := Finset.sum_le_sum fun i (_ : i ∈ Finset.univ) => hi i
          linarith
      _ = _ := by
          rw [list_sum_finset, div_eq_mul_inv, ← List.sum_map_mul_right]
          refine congrArg List.sum (List.map_congr_left fun x _ => ?_)
          rw [← Finset.mul_sum]
          ring
  rw [kineticEnergy_items]
  calc nodalEnergy T.Gd ≤ ∑ k ∈ Finset.univ.filter (fun k => 0 < T.Gd.m k), ((items s.L).map fun x =>
        hat P.G x.2.x k * (x.2.m * (∑ i, x.2.v.get x.1.iv i ^ 2) / 2)).sum :=
        Finset.sum_le_sum fun k hk => hnode k (Finset.mem_filter.1 hk).2
    _ ≤ ∑ k, ((items s.L).map fun x =>
        hat P.G x.2.x k * (x.2.m * (∑ i, x.2.v.get x.1.iv i ^ 2) / 2)).sum := by
        refine Finset.sum_le_sum_of_subset_of_nonneg (Finset.filter_subset _ _) fun k _ _ => ?_
        refine list_sum_nonneg fun x hx' => mul_nonneg (hat_nonneg _ _) ?_
        have := hm x.2 (mem_points_items hx')
        have h2 : 0 ≤ ∑ i, x.2.v.get x.1.iv i ^ 2 := Finset.sum_nonneg fun i _ => sq_nonneg _
        positivity
    _ = _ := by
        rw [list_sum_finset]
        refine congrArg List.sum (List.map_congr_left fun x hx' => ?_)
        rw [← Finset.sum_mul, hat_sum hP (hx x.2 (mem_points_items hx')), one_mul]

/-- C81.  Nothing is lost either when all points move with one velocity and there are no walls. -/
theorem c81_uniform (hP : GoodGrid P.G) (hG : Geometry P.G s.G) (hL : Counted s.L)
    (hx : ∀ mp ∈ points s.L, InDomain P.G mp.x) (hm : ∀ mp ∈ points s.L, 0 ≤ mp.m)
    (hcy : P.B.cyclic_lr = false) (hw : ∀ k, s.G.boundary_v k = false ∧ s.G.boundary_h k = false)
    {u : Vec K} (hu : ∀ a ∈ s.L, ∀ mp ∈ a.pts, velocity a mp = u) (h : gridPhase P s = .ok s') :
    nodalEnergy s'.G = kineticEnergy s.L := by
  obtain ⟨T, rfl⟩ := gridPhase_ok h
  change nodalEnergy T.Gd = _
  have hu' : ∀ x ∈ items s.L, x.2.v.get x.1.iv = u := by
    intro x hx'
    obtain ⟨a, ha, e, hxa⟩ := mem_items.1 hx'
    have := hu a ha x.2 hxa
    rw [← this, ← e]
    unfold velocity VRef.get
    rfl
  have hmass : ∀ k, T.Gd.m k = ((items s.L).map fun x => hat P.G x.2.x k * x.2.m).sum := by
    intro k
    rw [gridPhase_mass hP hG hL hx hcy T k]
    unfold nodalMass
    rw [← items_map_snd, List.map_map]
    rfl
  have hnn : ∀ k, 0 ≤ T.Gd.m k := fun k => by
    rw [hmass]
    exact list_sum_nonneg fun x hx' => mul_nonneg (hat_nonneg _ _) (hm x.2 (mem_points_items hx'))
  have hq : ∀ k i, T.Gd.q k i = T.Gd.m k * u i := by
    intro k i
    rw [(gridPhase_momentum hP hG hL hx hcy T k i).2 (hw k).1 (hw k).2, hmass,
      ← List.sum_map_mul_right]
    refine congrArg List.sum (List.map_congr_left fun x hx' => ?_)
    rw [hu' x hx']
  have e1 : nodalEnergy T.Gd = ∑ k, T.Gd.m k * ((∑ i, u i ^ 2) / 2) := by
    unfold nodalEnergy
    rw [← Finset.sum_filter_add_sum_filter_not Finset.univ (fun k => 0 < T.Gd.m k)
      (f := fun k => T.Gd.m k * ((∑ i, u i ^ 2) / 2))]
    have z : ∑ k ∈ Finset.univ.filter (fun k => ¬ 0 < T.Gd.m k), T.Gd.m k * ((∑ i, u i ^ 2) / 2) = 0 := by
      refine Finset.sum_eq_zero fun k hk => ?_
      have : T.Gd.m k = 0 := le_antisymm (not_lt.1 (Finset.mem_filter.1 hk).2) (hnn k)
      rw [this, zero_mul]
    rw [z, add_zero]
    refine Finset.sum_congr rfl fun k hk => ?_
    have hk := (Finset.mem_filter.1 hk).2
    simp only [hq, mul_pow]
    rw [← Finset.mul_sum]
    field_simp
  rw [e1, kineticEnergy_items, ← Finset.sum_mul]
  simp only [hmass]
  rw [list_sum_finset, ← List.sum_map_mul_right]
  refine congrArg List.sum (List.map_congr_left fun x hx' => ?_)
  rw [hu' x hx', ← Finset.sum_mul, hat_sum hP (hx x.2 (mem_points_items hx'))]
  ring

/-! ## C82 -/

/-- The position of a node. -/
def nodePos {N ns : ℕ} (G : Grid K N ns) (k : Fin N) : Vec K := ![G.X k, G.Y k, 0]

theorem gridPhase_cell_end (hP : GoodGrid P.G) (hG : Geometry P.G s.G) (hL : Counted s.L)
    (hx : ∀ mp ∈ points s.L, InDomain P.G mp.x) (T : GridPhase P s) :
    PtsRel (fun _ a c => ∃ (i j : ℕ) (nd : Fin 4 → Fin P.G.N), InCell P.G a.x i j ∧
      c.x = a.x ∧ c.N = (atCell P.G a i j).N ∧ c.Gs = (atCell P.G a i j).Gs ∧
      (∀ r, c.node P.G.nx P.G.N r = .ok (nd r)) ∧
      (∀ r, (nd r : ℕ) % P.G.nx = i + cornerX r) ∧ (∀ r, (nd r : ℕ) / P.G.nx = j + cornerY r))
      s.L T.Ld := by
  obtain ⟨-, -, -, c3, c4⟩ := T.rel hL
  refine ((gridPhase_cell hP hG hL hx T).comp (updateStressStrain_frame c3 T.hLd)).mono ?_
  rintro ph a d ⟨c, ⟨i, j, nd, hc, e, hnd, hX, hY⟩, f, -⟩
  refine ⟨i, j, nd, hc, ?_, ?_, ?_, ?_, hX, hY⟩
  · rw [f.x, e]; rfl
  · rw [f.N, e]
  · rw [f.Gs, e]
  · intro r
    rw [← hnd r]
    unfold Particle.node
    rw [f.n_star]

/-- C82.  The first moments of the nodal internal forces are the volume times stress of the points:
`sum_k f_i(k) x_j(k) = sum_p V sigma_ij` for the two in-plane directions `j`. -/
theorem c82_stress_moment (hP : GoodGrid P.G) (hG : Geometry P.G s.G) (hL : Counted s.L)
    (hx : ∀ mp ∈ points s.L, InDomain P.G mp.x) (hcy : P.B.cyclic_lr = false)
    (h : gridPhase P s = .ok s') (i : Fin 3) :
    ∑ k, s'.G.fi k i * s'.G.X k = ((points s'.L).map fun mp => mp.V * mp.stress i 0).sum ∧
    ∑ k, s'.G.fi k i * s'.G.Y k = ((points s'.L).map fun mp => mp.V * mp.stress i 1).sum := by
  obtain ⟨T, rfl⟩ := gridPhase_ok h
  obtain ⟨w0, w1⟩ := gridPhase_forces_zero T hL
  obtain ⟨-, -, -, c3, c4⟩ := T.rel hL
  have hn := getNodalForces_acyclic hcy T.hGd
  have hst := T.static
  have hGd : Geometry P.G T.Gd := by
    have hs := hst.2.2.2.1
    exact ⟨hs.dx.trans hG.dx, hs.dy.trans hG.dy, fun k => by rw [hs.X]; exact hG.X k,
      fun k => by rw [hs.Y]; exact hG.Y k⟩
  have key : ∀ jj : Fin 3, jj ≠ 2 → ∑ k, T.Gd.fi k i * nodePos T.Gd k jj =
      ((points T.Ld).map fun mp => mp.V * mp.stress i jj).sum := by
    intro jj hj
    have e1 : ∀ k, T.Gd.fi k i * nodePos T.Gd k jj = ((points T.Ld).map fun mp => ∑ i',
        (mp.V • Matrix.mulVec mp.stress (gradWeight P.G.nx mp k)) i' *
          (Matrix.single i jj (1 : K)).mulVec (nodePos T.Gd k) i').sum := by
      intro k
      rw [← list_sum_dot]
      rw [nodalForcesAll_fi c4 hn k, w0, zero_add]
      have : (Matrix.single i jj (1 : K)).mulVec (nodePos T.Gd k) =
          fun i' => if i' = i then nodePos T.Gd k jj else 0 := by
        funext i'
        simp [Matrix.mulVec, dotProduct, Matrix.single_apply, eq_comm, ite_and]
      rw [this]
      simp
    simp only [e1]
    rw [list_sum_finset]
    refine congrArg List.sum (List.map_congr_left fun b hb => ?_)
    obtain ⟨a, ha, ph, ii, jj', nd, hc, ex, eN, eG, hnd, hX, hY⟩ :=
      forall₂_right (gridPhase_cell_end hP hG hL hx T).points hb
    rw [sum_gradWeight hnd (fun k => (Matrix.single i jj (1 : K)).mulVec (nodePos T.Gd k)), eG]
    have := affine_gradient (mp := a) hP hGd hX hY 0 (Matrix.single i jj (1 : K))
    simp only [zero_add] at this
    unfold nodePos
    rw [this]
    congr 1
    unfold contract inPlane
    rw [Finset.sum_eq_single i (fun i' _ h' => by simp [Matrix.single_apply, Ne.symm h'])
      (fun h' => absurd (Finset.mem_univ i) h'),
      Finset.sum_eq_single jj (fun j' _ h' => by simp [Matrix.single_apply, Ne.symm h'])
      (fun h' => absurd (Finset.mem_univ jj) h')]
    simp [hj]
  exact ⟨key 0 (by decide), key 1 (by decide)⟩

/-- C82.  Internal forces exert no total torque when the stresses are symmetric. -/
theorem c82_internal_torque (hP : GoodGrid P.G) (hG : Geometry P.G s.G) (hL : Counted s.L)
    (hx : ∀ mp ∈ points s.L, InDomain P.G mp.x) (hcy : P.B.cyclic_lr = false)
    (h0 : ∀ mp ∈ points s.L, mp.stress.IsSymm ∧ mp.strain.IsSymm ∧ mp.dev_stress.IsSymm ∧
      mp.dstress.IsSymm)
    (h : gridPhase P s = .ok s') :
    ∑ k, moment (s'.G.X k) (s'.G.Y k) (s'.G.fi k) = 0 := by
  have e1 := (c82_stress_moment hP hG hL hx hcy h 1).1
  have e0 := (c82_stress_moment hP hG hL hx hcy h 0).2
  unfold moment
  rw [Finset.sum_sub_distrib]
  simp only [mul_comm (s'.G.X _), mul_comm (s'.G.Y _)]
  rw [e1, e0, sub_eq_zero]
  refine congrArg List.sum (List.map_congr_left fun b hb => ?_)
  rw [(gridPhase_symm hL h0 h b hb).apply 0 1]

/-- Zeroth and first moments of the shape functions of a point. -/
theorem cell_moments {ns : ℕ} {G : GP K} (hP : GoodGrid G) {a c : Particle K ns} {i j : ℕ}
    {nd : Fin 4 → Fin G.N} (eN : c.N = (atCell G a i j).N)
    (hnd : ∀ r, c.node G.nx G.N r = .ok (nd r))
    (hX : ∀ r, (nd r : ℕ) % G.nx = i + cornerX r) (hY : ∀ r, (nd r : ℕ) / G.nx = j + cornerY r) :
    ∑ k : Fin G.N, weight G.nx c k * nodeX G (k % G.nx) = a.x 0 ∧
    ∑ k : Fin G.N, weight G.nx c k * nodeY G (k / G.nx) = a.x 1 := by
  have hx0 := (cellX_pos hP).ne'
  have hy0 := (cellY_pos hP).ne'
  have e1 := sum_nodes_smul hnd (fun k : Fin G.N => nodeX G (k % G.nx))
  have e2 := sum_nodes_smul hnd (fun k : Fin G.N => nodeY G (k / G.nx))
  simp only [smul_eq_mul] at e1 e2
  rw [← e1, ← e2]
  simp only [hX, hY, eN]
  have f1 : ∀ n : ℕ, nodeX G (i + n) = nodeX G i + n * cellX G := by
    intro n; unfold nodeX cellX; push_cast; ring
  have f2 : ∀ n : ℕ, nodeY G (j + n) = nodeY G j + n * cellY G := by
    intro n; unfold nodeY cellY; push_cast; ring
  simp only [f1, f2, Fin.sum_univ_four]
  constructor
  · simp [cornerX, shapeN, atCell]
    field_simp
    ring
  · simp [cornerY, shapeN, atCell]
    field_simp
    ring

/-- C82.  The torque of the nodal body forces is that of the weights of the points. -/
theorem c82_external_torque (hP : GoodGrid P.G) (hG : Geometry P.G s.G) (hL : Counted s.L)
    (hx : ∀ mp ∈ points s.L, InDomain P.G mp.x) (hcy : P.B.cyclic_lr = false)
    (h : gridPhase P s = .ok s') :
    ∑ k, moment (s'.G.X k) (s'.G.Y k) (s'.G.fe k) =
      ((points s'.L).map fun mp => mp.m * moment (mp.x 0) (mp.x 1) mp.b).sum := by
  obtain ⟨T, rfl⟩ := gridPhase_ok h
  obtain ⟨w0, w1⟩ := gridPhase_forces_zero T hL
  obtain ⟨-, -, -, c3, c4⟩ := T.rel hL
  have hn := getNodalForces_acyclic hcy T.hGd
  have hs := T.static.2.2.2.1
  change ∑ k, moment (T.Gd.X k) (T.Gd.Y k) (T.Gd.fe k) = ((points T.Ld).map _).sum
  have e : ∀ k, moment (T.Gd.X k) (T.Gd.Y k) (T.Gd.fe k) = ((points T.Ld).map fun mp =>
      weight P.G.nx mp k * nodeX P.G (k % P.G.nx) * (mp.m * mp.b 1) -
        weight P.G.nx mp k * nodeY P.G (k / P.G.nx) * (mp.m * mp.b 0)).sum := by
    intro k
    rw [hs.X, hs.Y, hG.X, hG.Y]
    unfold moment
    rw [nodalForcesAll_fe c4 hn k, w1, zero_add]
    generalize points T.Ld = l
    induction l with
    | nil => simp
    | cons a l ih =>
      simp only [List.map_cons, List.sum_cons, Pi.add_apply, Pi.smul_apply, smul_eq_mul]
      rw [← ih]
      ring
  simp only [e]
  rw [list_sum_finset]
  refine congrArg List.sum (List.map_congr_left fun b hb => ?_)
  obtain ⟨a, ha, ph, ii, jj', nd, hc, ex, eN, eG, hnd, hX, hY⟩ :=
    forall₂_right (gridPhase_cell_end hP hG hL hx T).points hb
  obtain ⟨m1, m2⟩ := cell_moments hP eN hnd hX hY
  rw [Finset.sum_sub_distrib, ← Finset.sum_mul, ← Finset.sum_mul, m1, m2, ex]
  unfold moment
  ring

/-- C82.  Without walls, mapping to the grid conserves angular momentum. -/
theorem c82_angular_momentum (hP : GoodGrid P.G) (hG : Geometry P.G s.G) (hL : Counted s.L)
    (hx : ∀ mp ∈ points s.L, InDomain P.G mp.x) (hcy : P.B.cyclic_lr = false)
    (hw : ∀ k, s.G.boundary_v k = false ∧ s.G.boundary_h k = false)
    (h : gridPhase P s = .ok s') :
    ∑ k, moment (s'.G.X k) (s'.G.Y k) (s'.G.q k) = angularMomentum s.L := by
  obtain ⟨T, rfl⟩ := gridPhase_ok h
  have hs := T.static.2.2.2.1
  change ∑ k, moment (T.Gd.X k) (T.Gd.Y k) (T.Gd.q k) = _
  have hang : angularMomentum s.L = ((items s.L).map fun x =>
      x.2.m * moment (x.2.x 0) (x.2.x 1) (x.2.v.get x.1.iv)).sum := by
    rw [← sum_items s.L (fun ph mp => mp.m * moment (mp.x 0) (mp.x 1) (mp.v.get ph.iv))]
    unfold angularMomentum velocity VRef.get
    rfl
  have e : ∀ k, moment (T.Gd.X k) (T.Gd.Y k) (T.Gd.q k) = ((items s.L).map fun x =>
      hat P.G x.2.x k * nodeX P.G (k % P.G.nx) * (x.2.m * x.2.v.get x.1.iv 1) -
        hat P.G x.2.x k * nodeY P.G (k / P.G.nx) * (x.2.m * x.2.v.get x.1.iv 0)).sum := by
    intro k
    rw [hs.X, hs.Y, hG.X, hG.Y]
    unfold moment
    rw [(gridPhase_momentum hP hG hL hx hcy T k 0).2 (hw k).1 (hw k).2,
      (gridPhase_momentum hP hG hL hx hcy T k 1).2 (hw k).1 (hw k).2]
    generalize items s.L = l
    induction l with
    | nil => simp
    | cons a l ih =>
      simp only [List.map_cons, List.sum_cons]
      rw [← ih]
      ring
  simp only [e]
  rw [list_sum_finset, hang]
  refine congrArg List.sum (List.map_congr_left fun x hx' => ?_)
  obtain ⟨i, j, hc, -, -⟩ := inDomain_cell hP (hx x.2 (mem_points_items hx'))
  choose nd hnd using fun r => corner_index hc.2.2.1 hc.2.2.2 r
  obtain ⟨m1, m2⟩ := cell_moments (c := atCell P.G x.2 i j) hP rfl (fun r => (hnd r).1)
    (fun r => (hnd r).2.1) (fun r => (hnd r).2.2)
  simp only [weight_atCell hP hc] at m1 m2
  rw [Finset.sum_sub_distrib, ← Finset.sum_mul, ← Finset.sum_mul, m1, m2]
  unfold moment
  ring

end
/-! ## The hypotheses can be met -/

/-- The energy drops from `17/2` to `169/22`, because two points that share a node have different
velocities.  The work of the stresses and all moments are not zero. -/
example : ∃ G s', mkGrid Ex.par.G Ex.par.B = .ok G ∧ GoodGrid Ex.par.G ∧ Geometry Ex.par.G G ∧
    Counted Ex.L ∧ Ex.par.B.cyclic_lr = false ∧
    (∀ mp ∈ points Ex.L, InDomain Ex.par.G mp.x) ∧ (∀ mp ∈ points Ex.L, 0 ≤ mp.m) ∧
    (∀ mp ∈ points Ex.L, mp.stress.IsSymm ∧ mp.strain.IsSymm ∧ mp.dev_stress.IsSymm ∧
      mp.dstress.IsSymm) ∧
    gridPhase Ex.par { dyn := Ex.dyn, L := Ex.L, G := G } = .ok s' ∧
    (∀ k, G.boundary_v k = false ∧ G.boundary_h k = false) ∧
    nodalEnergy s'.G = 169 / 22 ∧ kineticEnergy Ex.L = 17 / 2 ∧
    ∑ k, ∑ i, s'.G.fi k i * velocityAt 0 s'.G k i = 428981 / 145200 ∧
    angularMomentum Ex.L = -1 / 4 ∧ ∑ k, s'.G.fi k 0 * s'.G.X k = 6493 / 3300 ∧
    ∑ k, moment (s'.G.X k) (s'.G.Y k) (s'.G.fe k) = -45 := by
  obtain ⟨G, h1, h2⟩ := Ex.okAnd_ok (r := mkGrid Ex.par.G Ex.par.B)
    (check := fun G => Ex.okAnd (gridPhase Ex.par { dyn := Ex.dyn, L := Ex.L, G := G })
      fun s' => decide ((∀ k, G.boundary_v k = false ∧ G.boundary_h k = false) ∧
        nodalEnergy s'.G = 169 / 22 ∧ kineticEnergy Ex.L = 17 / 2 ∧
        ∑ k, ∑ i, s'.G.fi k i * velocityAt 0 s'.G k i = 428981 / 145200 ∧
        angularMomentum Ex.L = -1 / 4 ∧ ∑ k, s'.G.fi k 0 * s'.G.X k = 6493 / 3300 ∧
        ∑ k, moment (s'.G.X k) (s'.G.Y k) (s'.G.fe k) = -45))
    (by decide +kernel)
  obtain ⟨s', h3, h4⟩ := Ex.okAnd_ok h2
  have hmem : ∀ mp ∈ points Ex.L, mp = Ex.mp ∨ mp = Ex.mp2 := by
    intro mp hmp
    simpa [points, Ex.L] using hmp
  refine ⟨G, s', h1, Ex.good, mkGrid_geometry h1, Ex.countedL, rfl, Ex.inDomainL, ?_, ?_, h3,
    of_decide_eq_true h4⟩
  · intro mp hmp
    rcases hmem mp hmp with rfl | rfl <;> decide +kernel
  · intro mp hmp
    unfold Matrix.IsSymm
    rcases hmem mp hmp with rfl | rfl <;> decide +kernel

/-- Two points with a common velocity. -/
def Ex.Lu : List (PhaseSt ℚ 2) :=
  [{ ph := Ex.ph, pts := [Ex.mp, { Ex.mp2 with v := .own ![1, 2, 0] }] }]

/-- With one common velocity nothing is lost. -/
example : ∃ G s', mkGrid Ex.par.G Ex.par.B = .ok G ∧
    gridPhase Ex.par { dyn := Ex.dyn, L := Ex.Lu, G := G } = .ok s' ∧
    (∀ a ∈ Ex.Lu, ∀ mp ∈ a.pts, velocity a mp = ![1, 2, 0]) ∧
    nodalEnergy s'.G = 25 / 2 ∧ kineticEnergy Ex.Lu = 25 / 2 := by
  obtain ⟨G, h1, h2⟩ := Ex.okAnd_ok (r := mkGrid Ex.par.G Ex.par.B)
    (check := fun G => Ex.okAnd (gridPhase Ex.par { dyn := Ex.dyn, L := Ex.Lu, G := G })
      fun s' => decide (nodalEnergy s'.G = 25 / 2 ∧ kineticEnergy Ex.Lu = 25 / 2))
    (by decide +kernel)
  obtain ⟨s', h3, h4⟩ := Ex.okAnd_ok h2
  refine ⟨G, s', h1, h3, ?_, of_decide_eq_true h4⟩
  intro a ha mp hmp
  have e : a = { ph := Ex.ph, pts := [Ex.mp, { Ex.mp2 with v := .own ![1, 2, 0] }] } :=
    List.mem_singleton.1 ha
  subst e
  simp only [List.mem_cons, List.not_mem_nil, or_false] at hmp
  rcases hmp with rfl | rfl <;> rfl

end Mpm

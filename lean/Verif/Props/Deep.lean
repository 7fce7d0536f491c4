import Verif.Props.Patch
import Verif.Props.Ending

/-!
# C125, continued: the motion inside a body in uniform deformation
-/

set_option linter.unusedSectionVars false

namespace Mpm
open Spec

namespace Spec
section
variable {K : Type} [Field K] [LinearOrder K] {ns : ℕ}

/-- The stress of an elastic body after a time step of uniform deformation with velocity gradient `A`:
Hooke's law for the strain `dt*(A + Aᵀ)/2`, and the term the code subtracts for the rotation. -/
def hookeStep (Kb Gs dt : K) (S A : Mat K) : Mat K :=
  let D : Mat K := A + A.transpose
  S + (Kb * (dt / 2 * D.trace)) • (1 : Mat K) +
    (2 * Gs) • ((dt / 2) • D - (dt / 2 * D.trace / 3) • (1 : Mat K)) - dt • (D * S + S * D)

/-- All points are elastic with the same parameters, volume, stress and body force. -/
structure Alike (Kb Gs V : K) (S : Mat K) (β : Vec K) (L : List (PhaseSt K ns)) : Prop where
  law : ∀ A ∈ L, A.ph.law = .elastic ∧ A.ph.par.Kb = Kb ∧ A.ph.par.Gs = Gs
  volume : ∀ mp ∈ points L, mp.V = V
  stress : ∀ mp ∈ points L, mp.stress = S
  weight : ∀ mp ∈ points L, mp.b = β
  own : ∀ mp ∈ points L, ∃ v, mp.v = .own v

/-- A block of alike elastic points whose velocities follow an affine field, away from walls. -/
structure Deforms (P : Par K) (s : St P) (i0 c j0 r p : ℕ) (m V Kb Gs : K) (S A : Mat K) (v β : Vec K) :
    Prop where
  counted : Counted s.L
  geometry : Geometry P.G s.G
  inside : ∀ mp ∈ points s.L, InDomain P.G mp.x
  some : 0 < p
  spread : Spread P.G i0 c j0 r p m s.L
  mass : 0 < m
  heavy : ∀ k, nodalMass P.G s.L k = 0 ∨ P.M_tol < nodalMass P.G s.L k
  plane : ∀ e, A e 2 = 0
  flows : Flows v A s.L
  alike : Alike Kb Gs V S β s.L
  free : ∀ i j, i0 ≤ i → i < i0 + c → j0 ≤ j → j < j0 + r → NoWallAt P.G s.G i j

/-- Cell `i` is at least `n` cells away from both ends of the line of cells. -/
def Inside (n i0 c i : ℕ) : Prop := i0 + n ≤ i ∧ i + n < i0 + c

end
end Spec

section
variable {K : Type} [Field K] [LinearOrder K] [IsStrictOrderedRing K] [FloorRing K] {ns : ℕ}

/-- A uniform stress pulls at a node inside a line of cells from both sides alike. -/
theorem line_tilt {a d : K} (hd : 0 < d) {p : ℕ} (hp : 0 < p) {i0 c k : ℕ} (h1 : i0 < k) (h2 : k < i0 + c) :
    ∑ r ∈ Finset.range (c * p), tilt d (piece (a + i0 * d) (d / p) r - (a + k * d)) = 0 := by
  have e := sum_tilt_line (a := a + i0 * d) hd hp 1 0 c (k - i0)
  rw [if_pos (by omega), if_pos (by omega)] at e
  have e2 : a + (i0 : K) * d + ((k - i0 : ℕ) : K) * d = a + k * d := by
    rw [Nat.cast_sub h1.le]; ring
  rw [e2] at e
  simp only [zero_mul, sub_zero, one_mul, mul_one, sub_self] at e
  exact e

theorem block_tilt {G : GP K} (hG : GoodGrid G) {i0 c j0 r p : ℕ} (hp : 0 < p) (k : Fin G.N)
    (h1 : i0 < (k : ℕ) % G.nx) (h2 : (k : ℕ) % G.nx < i0 + c) (h3 : j0 < (k : ℕ) / G.nx)
    (h4 : (k : ℕ) / G.nx < j0 + r) (e : Fin 3) :
    ((block G i0 c j0 r p).map fun q => hatGrad G ![q.1, q.2, 0] k e).sum = 0 := by
  have s1 := line_tilt (a := G.x_m) (cellX_pos hG) hp h1 h2
  have s2 := line_tilt (a := G.y_m) (cellY_pos hG) hp h3 h4
  fin_cases e
  · have e := sum_block G i0 c j0 r p (fun x y => tilt (cellX G) (x - nodeX G ((k : ℕ) % G.nx)) *
      tent (cellY G) (y - nodeY G ((k : ℕ) / G.nx)))
    refine e.trans ?_
    simp only [← Finset.sum_mul]
    refine Finset.sum_eq_zero fun q _ => ?_
    exact mul_eq_zero_of_left s1 _
  · have e := sum_block G i0 c j0 r p (fun x y => tent (cellX G) (x - nodeX G ((k : ℕ) % G.nx)) *
      tilt (cellY G) (y - nodeY G ((k : ℕ) / G.nx)))
    refine e.trans ?_
    simp only [← Finset.sum_mul]
    rw [← Finset.mul_sum]
    exact mul_eq_zero_of_right _ s2
  · exact list_sum_zero fun _ _ => rfl

/-- A point only pulls at the corners of its cell. -/
theorem hatGrad_far {G : GP K} (hG : GoodGrid G) {x : Vec K} {i j : ℕ} (hc : InCell G x i j) {k : Fin G.N}
    (h : ¬ (((k : ℕ) % G.nx = i ∨ (k : ℕ) % G.nx = i + 1) ∧ ((k : ℕ) / G.nx = j ∨ (k : ℕ) / G.nx = j + 1)))
    (e : Fin 3) : hatGrad G x k e = 0 := by
  have t1 : tilt (cellX G) (x 0 - nodeX G ((k : ℕ) % G.nx)) = _ :=
    tilt_col (cellX_pos hG) hc.1.1 hc.1.2 ((k : ℕ) % G.nx)
  have t2 : tent (cellX G) (x 0 - nodeX G ((k : ℕ) % G.nx)) = _ :=
    tent_col (cellX_pos hG) hc.1.1 hc.1.2 ((k : ℕ) % G.nx)
  have t3 : tilt (cellY G) (x 1 - nodeY G ((k : ℕ) / G.nx)) = _ :=
    tilt_col (cellY_pos hG) hc.2.1.1 hc.2.1.2 ((k : ℕ) / G.nx)
  have t4 : tent (cellY G) (x 1 - nodeY G ((k : ℕ) / G.nx)) = _ :=
    tent_col (cellY_pos hG) hc.2.1.1 hc.2.1.2 ((k : ℕ) / G.nx)
  by_cases hx : (k : ℕ) % G.nx = i ∨ (k : ℕ) % G.nx = i + 1
  · have hy : ¬ ((k : ℕ) / G.nx = j ∨ (k : ℕ) / G.nx = j + 1) := fun hy => h ⟨hx, hy⟩
    rw [if_neg (fun h => hy (Or.inl h)), if_neg (fun h => hy (Or.inr h))] at t3 t4
    fin_cases e
    · exact mul_eq_zero_of_right _ t4
    · exact mul_eq_zero_of_right _ t3
    · rfl
  · rw [if_neg (fun h => hx (Or.inl h)), if_neg (fun h => hx (Or.inr h))] at t1 t2
    fin_cases e
    · exact mul_eq_zero_of_left t1 _
    · exact mul_eq_zero_of_left t2 _
    · rfl

variable {P : Par K} {s s' : St P} {interp : Interp K P.G.N}

/-- Inside the block the corners of a cell follow the field of the body. -/
theorem felt_inside {G : GP K} {i0 c j0 r p i j : ℕ} (hp : 0 < p) (h1 : Inside 1 i0 c i) (h2 : Inside 1 j0 r j)
    {A : Mat K} (hA : ∀ e, A e 2 = 0) (v : Vec K) :
    feltGrad i0 c j0 r p i j A = A ∧ feltBase G i0 c j0 r p i j v A = v := by
  unfold Inside at h1 h2
  have e1 := (c125_share (K := K) (i0 := i0) (c := c) (i := i) hp (by omega) (by omega)).1
    (by omega) (by omega)
  have e2 := (c125_share (K := K) (i0 := j0) (c := r) (i := j) hp (by omega) (by omega)).1
    (by omega) (by omega)
  constructor
  · funext e f
    unfold feltGrad
    rw [e1, e2]
    fin_cases f
    · simp
    · simp
    · simp [hA]
  · funext l
    unfold feltBase offCentre
    rw [e1, e2, if_neg (by omega), if_neg (by omega), if_neg (by omega), if_neg (by omega)]
    ring

theorem inPlane_self {A : Mat K} (hA : ∀ e, A e 2 = 0) : inPlane A = A := by
  funext e f
  unfold inPlane
  split
  · rename_i hf; subst hf; exact (hA e).symm
  · rfl

/-- The stress of an elastic point whose cell follows the body. -/
theorem hooke_point (hP : GoodGrid P.G) {Gw Gb : Grid K P.G.N P.G.ns} (hw : Geometry P.G Gw)
    (hb : Geometry P.G Gb) {a a2 a3 a4 : Particle K P.G.ns} (hx : InDomain P.G a.x) {i j : ℕ}
    (hc : InCell P.G a.x i j) {w : Vec K} {B : Mat K} (hB : ∀ e, B e 2 = 0) (hA : CornersFollow P Gb i j w B)
    (h2 : a.getReferenceNode P.G Gw.dx Gw.dy = .ok a2) (h3 : a2.getBasisFunctions Gw = .ok a3)
    {c : LawCtx K P.G.ns} {vis vis' : Vis → Fin P.G.N → XF K}
    (h4 : a3.stressStrain P.G.nx P.M_tol Gb .elastic c vis = .ok (a4, vis')) :
    a4.stress = hookeStep c.mat.Kb c.mat.Gs c.dt a.stress B := by
  obtain ⟨c1, c2, l, u1, u2, -, u4⟩ := stressStrain_ok h4
  have st := affine_strain (dt := c.dt) hP P.M_tol_nonneg hw hb hx h2 h3
    (affine_located hP hw hb hx hc hA h2 h3)
  rw [st, Except.ok.injEq] at u1
  have hs : a3.stress = a.stress := by rw [(locate_one h2 h3).eq]
  rw [← u1, inPlane_self hB] at u2
  cases u2
  rw [u4]
  unfold Particle.applyStress hookeStep
  simp only [hs, Matrix.trace_smul, smul_eq_mul]
  rw [show (1 / 2 * c.dt : K) = c.dt / 2 by ring]
  abel

section
variable {i0 c j0 r p : ℕ} {m V Kb Gs : K} {S A : Mat K} {v β : Vec K}

theorem deforms_corners (hP : GoodGrid P.G) (h : Deforms P s i0 c j0 r p m V Kb Gs S A v β)
    (hcy : P.B.cyclic_lr = false) (T : GridPhase P s) {i j : ℕ} (h1 : Inside 1 i0 c i) (h2 : Inside 1 j0 r j) :
    CornersFollow P T.Gb i j v A := by
  have b1 : i0 ≤ i ∧ i < i0 + c := by unfold Inside at h1; omega
  have b2 : j0 ≤ j ∧ j < j0 + r := by unfold Inside at h2; omega
  have := patch_corners hP h.geometry h.counted h.inside hcy h.some h.spread h.mass h.heavy h.flows T
    ⟨b1, b2⟩ (h.free i j b1.1 b1.2 b2.1 b2.2)
  rwa [(felt_inside (G := P.G) h.some h1 h2 h.plane v).1, (felt_inside h.some h1 h2 h.plane v).2] at this

/-- The points when the nodal forces are computed. -/
theorem deforms_points (hP : GoodGrid P.G) (h : Deforms P s i0 c j0 r p m V Kb Gs S A v β)
    (hcy : P.B.cyclic_lr = false) (T : GridPhase P s) (hβ : bodyForce P T.d.g = β) :
    PtsRel (fun _ a d => a ∈ Spec.points s.L ∧ d.m = a.m ∧ d.V = a.V ∧ d.b = a.b ∧
      (∀ k, weight P.G.nx d k = hat P.G a.x k) ∧ (∀ k, gradWeight P.G.nx d k = hatGrad P.G a.x k) ∧
      ∀ i j, InCell P.G a.x i j → Inside 1 i0 c i → Inside 1 j0 r j →
        d.stress = hookeStep Kb Gs T.d.dt S A) s.L T.Ld := by
  obtain ⟨-, -, -, c3, c4⟩ := T.rel h.counted
  have r1 := updateForces_rel h.counted T.ha
  have c1 := r1.counted h.counted
  have hG' := Mpm.Geometry.wipe h.geometry
  have hgb : Geometry P.G T.Gb := T.static.2.1.1.geometry h.geometry
  have r2 : PtsRel (fun _ a b => a.getReferenceNode P.G s.G.wipe.dx s.G.wipe.dy = .ok b) T.La T.Lb :=
    mapPoints_rel (f := fun _ _ mp => mp.getReferenceNode P.G s.G.wipe.dx s.G.wipe.dy)
      (fun _ _ _ _ h => h) c1 T.hb
  have r3 : PtsRel (fun _ a b => a.getBasisFunctions s.G.wipe = .ok b) T.Lb T.Lc :=
    mapPoints_rel (f := fun _ _ mp => mp.getBasisFunctions s.G.wipe) (fun _ _ _ _ h => h)
      (r2.counted c1) T.hc
  have r4 := updateStressStrain_rel c3 T.hLd
  refine ((r1.comp (r2.comp r3)).comp r4).mem.mono ?_
  rintro ph a e ⟨ha, -, d, ⟨b, ⟨e1, e2⟩, c', hc, hd'⟩, q, vis, vis', h4⟩
  obtain ⟨B, hB, rfl, hmp⟩ := mem_items.1 ha
  have hm := mem_points_of hB hmp
  have hβa := h.alike.weight a hm
  have eb : b = a := by
    have : b.b = a.b := by
      rcases e2 with h | h
      · exact h
      · rw [h, hβ, hβa]
    rw [e1, this]
  subst eb
  obtain ⟨i, j, nd, hcell, g1, g2, -⟩ := located_basis hP hG' (h.inside b hm)
  have g1' := hc
  have g2' := hd'
  rw [g1, Except.ok.injEq] at hc
  rw [← hc, g2, Except.ok.injEq] at hd'
  have ed : d = { b with n_star := d.n_star, N := d.N, Gs := d.Gs } := by rw [← hd']; rfl
  obtain ⟨hlaw, hK, hGs⟩ := h.alike.law B hB
  rw [hlaw] at h4
  obtain ⟨k4, m4⟩ := stressStrain_frame h4
  have hn : e.n_star = (i : ℤ) + (j : ℤ) * P.G.nx := by rw [k4.n_star, ← hd']; rfl
  refine ⟨hm, ?_, ?_, ?_, ?_, ?_, ?_⟩
  · rw [m4 (by decide), ed]
  · rw [k4.V, ed]
  · rw [k4.b, ed]
  · exact weight_of_cell hP hcell hn (by rw [k4.N, ← hd'])
  · exact gradWeight_of_cell hP hcell hn (by rw [k4.Gs, ← hd'])
  · intro i' j' hc' i1 i2
    have := hooke_point hP hG' hgb (h.inside b hm) hc' h.plane (deforms_corners hP h hcy T i1 i2) g1' g2' h4
    rw [this, h.alike.stress b hm]
    change hookeStep B.ph.par.Kb B.ph.par.Gs _ _ _ = _
    rw [hK, hGs]
    rfl

/-- The force on a node deep inside the block is the weight of its mass. -/
theorem deforms_force (hP : GoodGrid P.G) (h : Deforms P s i0 c j0 r p m V Kb Gs S A v β)
    (hcy : P.B.cyclic_lr = false) (T : GridPhase P s) (hβ : bodyForce P T.d.g = β) {k : Fin P.G.N}
    (h1 : i0 + 2 ≤ (k : ℕ) % P.G.nx) (h2 : (k : ℕ) % P.G.nx + 2 ≤ i0 + c)
    (h3 : j0 + 2 ≤ (k : ℕ) / P.G.nx) (h4 : (k : ℕ) / P.G.nx + 2 ≤ j0 + r) (e : Fin 3) :
    T.Gd.fe k e - T.Gd.fi k e = nodalMass P.G s.L k * β e := by
  obtain ⟨-, -, -, c3, c4⟩ := T.rel h.counted
  obtain ⟨w0, w1⟩ := gridPhase_forces_zero T h.counted
  have hr := (deforms_points hP h hcy T hβ).points
  have g := getNodalForces_acyclic hcy T.hGd
  obtain ⟨S', hS'⟩ : ∃ S', S' = hookeStep Kb Gs T.d.dt S A := ⟨_, rfl⟩
  rw [← hS'] at hr
  rw [nodalForcesAll_fi c4 g, nodalForcesAll_fe c4 g, w0, w1, zero_add, zero_add, list_sum_coord]
  have e1 : ((Spec.points s.L).map fun a => hat P.G a.x k * a.m * β e -
      (V * S' e 0 * hatGrad P.G ![a.x 0, a.x 1, 0] k 0 + V * S' e 1 * hatGrad P.G ![a.x 0, a.x 1, 0] k 1)).sum =
      nodalMass P.G s.L k * β e := by
    have z0 := spread_sum h.spread (fun x y => hatGrad P.G ![x, y, 0] k 0)
    have z1 := spread_sum h.spread (fun x y => hatGrad P.G ![x, y, 0] k 1)
    rw [block_tilt hP h.some k (by omega) (by omega) (by omega) (by omega)] at z0 z1
    have aux : ∀ l : List (Particle K P.G.ns), (l.map fun a => hat P.G a.x k * a.m * β e -
      (V * S' e 0 * hatGrad P.G ![a.x 0, a.x 1, 0] k 0 + V * S' e 1 * hatGrad P.G ![a.x 0, a.x 1, 0] k 1)).sum =
      (l.map fun a => hat P.G a.x k * a.m).sum * β e -
        (V * S' e 0 * (l.map fun a => hatGrad P.G ![a.x 0, a.x 1, 0] k 0).sum +
          V * S' e 1 * (l.map fun a => hatGrad P.G ![a.x 0, a.x 1, 0] k 1).sum) := by
      intro l
      induction l with
      | nil => simp
      | cons a l ih => simp only [List.map_cons, List.sum_cons, ih]; ring
    rw [aux, z0, z1, mul_zero, mul_zero, add_zero, sub_zero]
    rfl
  rw [← e1]
  symm
  refine congrArg List.sum (forall₂_map_eq ?_ hr)
  rintro a d ⟨-, ha, e1, e2, e3, e5, e6, e4⟩
  rw [e5, e1, e2, e3, h.alike.weight a ha, h.alike.volume a ha]
  simp only [Pi.smul_apply, smul_eq_mul, e6]
  obtain ⟨i, j, nd, hc, -⟩ := located_basis hP (Mpm.Geometry.wipe h.geometry) (h.inside a ha)
  by_cases hnear : ((k : ℕ) % P.G.nx = i ∨ (k : ℕ) % P.G.nx = i + 1) ∧
      ((k : ℕ) / P.G.nx = j ∨ (k : ℕ) / P.G.nx = j + 1)
  · rw [e4 i j hc (by unfold Inside; omega) (by unfold Inside; omega)]
    rw [Matrix.mulVec, dotProduct, Fin.sum_univ_three, show hatGrad P.G a.x k 2 = 0 from rfl]
    change _ - (V * S' e 0 * hatGrad P.G a.x k 0 + V * S' e 1 * hatGrad P.G a.x k 1) = _
    ring
  · have z := hatGrad_far hP hc hnear
    rw [Matrix.mulVec, dotProduct, Fin.sum_univ_three, z, z, z]
    change _ - (V * S' e 0 * hatGrad P.G a.x k 0 + V * S' e 1 * hatGrad P.G a.x k 1) = _
    rw [z, z]
    ring

/-- C125.  Two cells inside an elastic block in uniform deformation, the points move in the first step
as if nothing else were there: they fall freely, keep the velocity field of the body and stay under one
and the same stress, which follows Hooke's law. -/
theorem c125_deep (hP : GoodGrid P.G) (h : Deforms P s i0 c j0 r p m V Kb Gs S A v β)
    (hB : QuietOptions P.B) (hcy : P.B.cyclic_lr = false) (hd : P.damping = false)
    (hβ : bodyForce P (P.forces s.dyn.t).1 = β) (h1 : timeMarch P interp s = .ok s') :
    List.Forall₂ (fun a b => ∀ i j, InCell P.G a.x i j →
      (Inside 1 i0 c i → Inside 1 j0 r j → b.stress = hookeStep Kb Gs s.dyn.dt S A) ∧
      (Inside 2 i0 c i → Inside 2 j0 r j → ∃ u u', a.v = .own u ∧ b.v = .own u' ∧
        (∀ e, u e = v e + A e 0 * a.x 0 + A e 1 * a.x 1) ∧ u' = u + s.dyn.dt • β ∧
        b.x = a.x + s.dyn.dt • u')) (points s.L) (points s'.L) := by
  obtain ⟨T, s1, s2, s3, k1, ee, k2, k3, k4, k5, hR⟩ := timeMarch_idx h.counted h1
  have hg : bodyForce P T.d.g = β := by rw [T.hd]; exact hβ
  obtain ⟨-, stb, -, st, eq, em⟩ := T.static
  have hw := Mpm.Geometry.wipe h.geometry
  have hgb : Geometry P.G T.Gb := stb.1.geometry h.geometry
  have hdt : T.d.dt = s.dyn.dt := by rw [T.hd]; rfl
  have hF : List.Forall₂ (fun A B => List.Forall₂ (fun a b => A ∈ s.L ∧ a ∈ A.pts ∧ ∃ q,
      Evolved P T.d (mat0 s.L) s.G.wipe T.Gb s3.G q A.ph a b) A.pts B.pts) s.L s'.L := by
    refine (hR.and_left (p := fun A => A ∈ s.L) (fun A hA => hA)).forall₂ ?_
    rintro q A B ⟨hA, -, -, evo, kept, new, hev, -, -, hk, hn, -, hB'⟩
    rw [hn hB.inlet_right hB.inlet_top, List.append_nil, hk hB.outlet_left hB.outlet_bottom] at hB'
    rw [hB']
    exact (forall₂_and_left (p := fun a => a ∈ A.pts) hev
      (fun a ha => ha)).imp fun a b hab => ⟨hA, hab.1, _, hab.2⟩
  refine (forall₂_points ?_).imp (fun _ _ h => h)
  refine hF.imp ?_
  intro B B' hBB
  refine hBB.imp ?_
  rintro a b ⟨hB', ha, q, a2, a3, a4, a5, a6, h2, h3, ⟨vis, vis', h4⟩, h5, h6, h7⟩ i j hc
  have hm := mem_points_of hB' ha
  have hx := h.inside a hm
  obtain ⟨hlaw, hK, hGs⟩ := h.alike.law B hB'
  obtain ⟨g5, g5'⟩ := going_parts h2 h3 h4 h5
  obtain ⟨i', j', nd, hc', hnd, hij, hN⟩ := g5' hP hw hx
  obtain ⟨rfl, rfl⟩ := c01_cell_unique hP hc' hc
  have e1 : a.incrementGravity P T.d.g q = { a with b := (a.incrementGravity P T.d.g q).b } := by
    unfold Particle.incrementGravity; split <;> rfl
  rw [hlaw] at h4
  have s5 : a5.stress = a4.stress := by rw [h5.frame]
  rcases h6 with ⟨hr, -⟩ | ⟨hr, iv, iv', hmv⟩
  · rw [hlaw] at hr; cases hr
  obtain ⟨nd', hnd', -, e6⟩ := move_ok hmv
  have en : nd' = nd := by
    funext t
    have := hnd t
    rw [hnd' t] at this
    exact Except.ok.inj this
  rw [en] at e6
  have hb : b = a6 := by rw [h7]; unfold wrapped; rw [hcy]; rfl
  subst hb
  refine ⟨fun i1 i2 => ?_, fun i1 i2 => ?_⟩
  · have key := hooke_point hP hw hgb (a := a.incrementGravity P T.d.g q) (by rw [e1]; exact hx)
      (by rw [e1]; exact hc) h.plane (deforms_corners hP h hcy T i1 i2) h2 h3 h4
    have s6 : b.stress = a5.stress := congrArg (fun z => z.1.stress) e6
    rw [s6, s5, key, e1]
    change hookeStep B.ph.par.Kb B.ph.par.Gs T.d.dt a.stress A = _
    rw [hK, hGs, hdt, h.alike.stress a hm]
  · have I1 : Inside 1 i0 c i' := by unfold Inside at i1 ⊢; omega
    have I2 : Inside 1 j0 r j' := by unfold Inside at i2 ⊢; omega
    have co := deforms_corners hP h hcy T I1 I2
    -- the corners of the cell
    have hnode : ∀ t, P.M_tol < s3.G.m (nd t) ∧ (∀ e, s3.G.q_dot (nd t) e = s3.G.m (nd t) * β e) ∧
        ∀ e, s3.G.q (nd t) e = s3.G.m (nd t) * (v e + A e 0 * nodeX P.G (i' + cornerX t) +
          A e 1 * nodeY P.G (j' + cornerY t) + s.dyn.dt * β e) := by
      intro t
      obtain ⟨x1, x2⟩ := hij t
      have cX : cornerX t ≤ 1 := by fin_cases t <;> simp [cornerX]
      have cY : cornerY t ≤ 1 := by fin_cases t <;> simp [cornerY]
      have hv' : T.Gd.boundary_v (nd t) = false ∧ T.Gd.boundary_h (nd t) = false := by
        rw [st.bv, st.bh]
        exact h.free i' j' (by unfold Inside at I1; omega) (by unfold Inside at I1; omega)
          (by unfold Inside at I2; omega) (by unfold Inside at I2; omega) (nd t)
          (by rw [x1]; omega) (by rw [x2]; omega)
      have hf := deforms_force hP h hcy T hg (k := nd t) (by rw [x1]; unfold Inside at i1; omega)
        (by rw [x1]; unfold Inside at i1; omega) (by rw [x2]; unfold Inside at i2; omega)
        (by rw [x2]; unfold Inside at i2; omega)
      obtain ⟨c1, c2⟩ := co (nd t) (by rw [x1]; omega) (by rw [x2]; omega)
      have hmb : T.Gb.m (nd t) = nodalMass P.G s.L (nd t) := by
        rw [← gridPhase_mass hP h.geometry h.counted h.inside hcy T, em]
      obtain ⟨-, -, -, e2, e3, -⟩ := segregationPhase_frame k3
      have hmG : s3.G.m (nd t) = nodalMass P.G s.L (nd t) := by
        rw [← k5, (step_pressure k2 k3 k4).2, ee]
        exact gridPhase_mass hP h.geometry h.counted h.inside hcy T (nd t)
      obtain ⟨G1, f1, f2⟩ := momentumPhase_frame k2
      have f3 : G1 = s1.G := BCs_none hB.vertical hB.horizontal f1
      have f4 : s1.G = T.Gd := by rw [ee]
      rw [f3, f4] at f2
      have d1 : s1.dyn.dt = s.dyn.dt := by rw [ee]; exact hdt
      obtain ⟨u2, u0, u1⟩ := updateMomentum_qdot (damping := P.damping) (dt := s1.dyn.dt) (v0 := P.v_0)
        hB.friction (nx := P.G.nx) (ny := P.G.ny) T.Gd (nd t)
      have hq : ∀ e, (T.Gd.updateMomentum (nx := P.G.nx) (ny := P.G.ny) P.B P.damping s1.dyn.dt
          P.v_0).q_dot (nd t) e = nodalMass P.G s.L (nd t) * β e := by
        have d0 : dampFactor (K := K) P.damping = 1 := by rw [hd]; rfl
        rw [d0, one_mul] at u0 u1 u2
        rw [hv'.1, hv'.2, if_neg (by simp)] at u0 u1
        intro e
        rw [← hf e]
        fin_cases e
        · exact u0
        · exact u1
        · exact u2
      rw [hmG, e2, e3, f2]
      refine ⟨by rw [← hmb]; exact c1, hq, fun e => ?_⟩
      change (T.Gd.updateMomentum (nx := P.G.nx) (ny := P.G.ny) P.B P.damping s1.dyn.dt P.v_0).q (nd t) e = _
      rw [updateMomentum_q hB.conveyor, Pi.add_apply, Pi.smul_apply, hq, eq, c2, hmb, x1, x2, d1, smul_eq_mul]
      ring
    obtain ⟨u, hu⟩ := h.alike.own a hm
    have hue : ∀ e, u e = v e + A e 0 * a.x 0 + A e 1 * a.x 1 := by
      intro e
      have := h.flows B hB' a ha e
      rw [hu] at this
      exact this
    have hv5 : a5.v = .own u := by
      rw [h5.frame]
      change a4.v = _
      rw [(stressStrain_frame h4).1.v, (locate_one h2 h3).eq, e1, ← hu]
    have hv6 : b.v = .own (u + ∑ t, velInc P.M_tol T.d.dt (a5.N t) s3.G (nd t)) := by
      have : b.v = (addVel (∑ t, velInc P.M_tol T.d.dt (a5.N t) s3.G (nd t)) (a5.v, iv)).1 :=
        congrArg (fun z => z.1.v) e6
      rw [this, hv5]
      rfl
    have hx6 : b.x = a5.x + ∑ t, dispInc P.M_tol T.d.dt (a5.N t) s3.G (nd t) :=
      congrArg (fun z => z.1.x) e6
    have sN : ∑ t, a5.N t = 1 := by
      rw [hN]; exact shapeN_sum (mul_pos (cellX_pos hP) (cellY_pos hP)).ne' _
    have hsum : ∑ t, velInc P.M_tol T.d.dt (a5.N t) s3.G (nd t) = s.dyn.dt • β := by
      funext e
      rw [Finset.sum_apply, Pi.smul_apply, smul_eq_mul]
      have : ∀ t, velInc P.M_tol T.d.dt (a5.N t) s3.G (nd t) e = a5.N t * (s.dyn.dt * β e) := by
        intro t
        obtain ⟨n1, n2, -⟩ := hnode t
        have n0 : s3.G.m (nd t) ≠ 0 := (lt_of_le_of_lt P.M_tol_nonneg n1).ne'
        unfold velInc
        rw [if_pos n1]
        simp only [n2, hdt]
        field_simp
      simp only [this]
      rw [← Finset.sum_mul, sN, one_mul]
    have hpos : ∑ t, a5.N t * nodeX P.G (i' + cornerX t) = a.x 0 ∧
        ∑ t, a5.N t * nodeY P.G (j' + cornerY t) = a.x 1 := by
      have n1 := (cellX_pos hP).ne'
      have n2 := (cellY_pos hP).ne'
      have e1 : nodeX P.G (i' + 1) = nodeX P.G i' + cellX P.G := nodeX_succ P.G i'
      have e2 : nodeY P.G (j' + 1) = nodeY P.G j' + cellY P.G := nodeY_succ P.G j'
      rw [hN]
      simp only [Fin.sum_univ_four, atCell, shapeN, cornerX, cornerY]
      simp [e1, e2]
      constructor <;> field_simp <;> ring
    rw [hsum] at hv6
    refine ⟨u, _, hu, hv6, hue, rfl, ?_⟩
    rw [hx6, g5]
    congr 1
    funext e
    rw [Finset.sum_apply, Pi.smul_apply, smul_eq_mul, Pi.add_apply, Pi.smul_apply, smul_eq_mul, hue]
    have : ∀ t, dispInc P.M_tol T.d.dt (a5.N t) s3.G (nd t) e = s.dyn.dt * (a5.N t * (v e + s.dyn.dt * β e) +
        A e 0 * (a5.N t * nodeX P.G (i' + cornerX t)) + A e 1 * (a5.N t * nodeY P.G (j' + cornerY t))) := by
      intro t
      obtain ⟨n1, -, n3⟩ := hnode t
      have n0 : s3.G.m (nd t) ≠ 0 := (lt_of_le_of_lt P.M_tol_nonneg n1).ne'
      unfold dispInc
      rw [if_pos n1]
      simp only [n3, hdt]
      field_simp
      ring
    simp only [this]
    rw [← Finset.mul_sum, Finset.sum_add_distrib, Finset.sum_add_distrib, ← Finset.mul_sum, ← Finset.mul_sum,
      ← Finset.sum_mul, sN, hpos.1, hpos.2]
    ring

end
end
/-! ### Example -/

def Ex.sixPar : Par ℚ := { Ex.par with
  G := { Ex.gp with nx := 6, ny := 6, x_M := 5, y_M := 5 } }

theorem Ex.sixGood : GoodGrid Ex.sixPar.G := by constructor <;> simp [Ex.sixPar, Ex.gp]

/-- Hypotheses of `c125_deep`, and the motion of the middle one of 25 points. -/
example : ∃ Gr s', mkGrid Ex.sixPar.G Ex.sixPar.B = .ok Gr ∧
    Deforms Ex.sixPar ⟨Ex.dyn, Ex.patchL (block Ex.sixPar.G 0 5 0 5 1), Gr⟩ 0 5 0 5 1 1 1 10 5 0
      Ex.stretch 0 ![0, -10, 0] ∧
    QuietOptions Ex.sixPar.B ∧ bodyForce Ex.sixPar (Ex.sixPar.forces Ex.dyn.t).1 = ![0, -10, 0] ∧
    timeMarch Ex.sixPar (Ex.noInterp _) ⟨Ex.dyn, Ex.patchL (block Ex.sixPar.G 0 5 0 5 1), Gr⟩ = .ok s' ∧
    ((points s'.L).map fun b => (b.x 0, b.x 1))[12]? = some (5/2 + 1/40, 5/2 - 1/1000) := by
  obtain ⟨G, s', h1, h2, h3⟩ := Ex.run_one (P := Ex.sixPar) (d := Ex.dyn)
    (L := Ex.patchL (block Ex.sixPar.G 0 5 0 5 1))
    (check := fun s => decide (((points s.L).map fun b => (b.x 0, b.x 1))[12]? =
      some (5/2 + 1/40, 5/2 - 1/1000))) (by decide +kernel)
  refine ⟨G, s', h1, ⟨Ex.patch_counted _, mkGrid_geometry h1, Ex.patch_inside (by decide +kernel), one_pos,
    Ex.patch_spread, one_pos, fun k => Ex.patch_heavy Ex.sixGood k, by decide +kernel, Ex.patch_flows _, ?_, ?_⟩,
    ⟨Or.inl rfl, rfl, rfl, rfl, rfl, rfl, rfl, rfl⟩, by decide +kernel, h2, of_decide_eq_true h3⟩
  · have hm : ∀ mp ∈ points (Ex.patchL (block Ex.sixPar.G 0 5 0 5 1)), ∃ x y, mp = Ex.stretched x y := by
      intro mp h
      unfold points Ex.patchL at h
      simp only [List.flatMap_cons, List.flatMap_nil, List.append_nil, List.mem_map] at h
      obtain ⟨q, -, rfl⟩ := h
      exact ⟨_, _, rfl⟩
    constructor
    · intro A hA
      cases List.mem_singleton.1 (show A ∈ [_] from hA)
      exact ⟨rfl, rfl, rfl⟩
    all_goals
      intro mp h
      obtain ⟨x, y, rfl⟩ := hm mp h
    · rfl
    · rfl
    · rfl
    · exact ⟨_, rfl⟩
  · intro i j _ _ _ _ k _ _
    obtain ⟨m1, m2, -⟩ := mkGrid_masks h1
    have hb : ∀ k, boundaryV Ex.sixPar.B Ex.sixPar.G.nx Ex.sixPar.G.ny k = false ∧
      boundaryH Ex.sixPar.B Ex.sixPar.G.nx Ex.sixPar.G.ny k = false := by decide +kernel
    change G.boundary_v k = _ ∧ G.boundary_h k = _
    rw [m1, m2]
    exact hb k

end Mpm

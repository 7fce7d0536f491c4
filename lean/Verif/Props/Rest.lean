import Verif.Lemmas.Tilt
import Verif.Props.Density
import Verif.Props.Run
import Verif.Props.Work

/-!
# C124: a bed in balance stays at rest
-/

set_option linter.unusedSectionVars false

namespace Mpm
open Spec

namespace Spec
section
variable {K : Type} [Field K] [LinearOrder K] {ns : ℕ}

/-- The fields that the law of the phase keeps between the steps fit the stress of the point.  The
fluid laws can carry an isotropic stress only, the granular ones no tension; the laws left out do not
keep the stress of a point that is not strained. -/
def Calm (ph : Phase K ns) (mp : Particle K ns) : Prop :=
  match ph.law with
  | .elastic => True
  | .von_mises => mp.stress = mp.dev_stress + (mp.sigma_kk / 3) • (1 : Mat K)
  | .viscous | .ken_kamrin => mp.stress = mp.pressure • (1 : Mat K)
  | .bingham => mp.stress = mp.pressure • (1 : Mat K) ∧ mp.dstress = 0
  | .linear_mu | .pouliquen | .ken_simple => mp.stress = mp.pressure • (1 : Mat K) ∧ mp.pressure ≤ 0
  | _ => False

/-- DenseEnough enough for the laws that take the stress of thin material away. -/
def DenseEnough (ph : Phase K ns) (mp : Particle K ns) : Prop :=
  (ph.law = .pouliquen → ph.par.rho * (8 / 10) ≤ mp.rho) ∧ (ph.law = .ken_simple → 2500 < mp.rho)

/-- The same place, velocity, size and stress. -/
structure Unmoved (a c : Particle K ns) : Prop where
  x : c.x = a.x
  v : c.v = a.v
  V : c.V = a.V
  m : c.m = a.m
  b : c.b = a.b
  stress : c.stress = a.stress
  strain : c.strain = a.strain

/-- The phases and all their points are as they were, but for the density, the grain sizes and what
is computed for output. -/
def StillPhase (A B : PhaseSt K ns) : Prop :=
  SamePhase A.ph B.ph ∧ B.ph.iv = A.ph.iv ∧ List.Forall₂ Unmoved A.pts B.pts

/-- Weight minus internal force of the points at node `k`. -/
def netForce (P : GP K) (L : List (PhaseSt K ns)) (k : Fin P.N) (i : Fin 3) : K :=
  ((points L).map fun mp => mp.m * mp.b i * hat P mp.x k -
    mp.V * (mp.stress i 0 * hatGrad P mp.x k 0 + mp.stress i 1 * hatGrad P mp.x k 1)).sum

/-- The nodes at the place of node `k`: with periodic sides the two ends of a row are one place. -/
def places (P : Par K) (k : Fin P.G.N) : Finset (Fin P.G.N) :=
  if P.B.cyclic_lr then copies (nx := P.G.nx) (ny := P.G.ny) k else {k}

/-- A wall keeps component `i` of the momentum of the node at zero. -/
def HeldAt (P : Par K) (G : Grid K P.G.N ns) (k : Fin P.G.N) (i : Fin 3) : Prop :=
  (i = 0 ∧ (G.boundary_v k = true ∨ (P.B.roughness = true ∧ G.boundary_h k = true))) ∨
  (i = 1 ∧ (G.boundary_h k = true ∨ (P.B.roughness = true ∧ G.boundary_v k = true)))

/-- Wherever no wall holds, the weight is carried by the stresses. -/
def InBalance (P : Par K) (G : Grid K P.G.N ns) (L : List (PhaseSt K ns)) : Prop :=
  ∀ k i, HeldAt P G k i ∨ ∑ j ∈ places P k, netForce P.G L j i = 0

/-- Walls without Coulomb friction, no loads, belts, inlets or outlets. -/
structure QuietOptions (B : BP K) : Prop where
  friction : B.roughness = false ∨ B.wall_mu = 0
  vertical : B.vertical_force = false
  horizontal : B.horizontal_force = false
  conveyor : B.conveyor = false
  outlet_left : B.outlet_left = false
  outlet_bottom : B.outlet_bottom = false
  inlet_right : B.inlet_right = false
  inlet_top : B.inlet_top = false

end
end Spec

/-! ## The laws on a point that is not strained -/

section
variable {K : Type} [Field K] [LinearOrder K] [IsStrictOrderedRing K] [FloorRing K] {ns : ℕ}

theorem law_calm {ph : Phase K ns} {c : LawCtx K ns} {mp mp' : Particle K ns}
    {l : List (Vis × XF K)} (hc : c.mat = ph.par) (hr : Calm ph mp) (hd : DenseEnough ph mp)
    (he : mp.dstrain = 0) (h : runLaw ph.law c mp = .ok (mp', l)) :
    mp'.stress + mp'.dstress = mp.stress ∧
      Calm ph { mp' with stress := mp.stress } := by
  unfold Calm at hr ⊢
  have hd := hd
  unfold DenseEnough at hd
  generalize ph.law = law at h hr hd ⊢
  cases law with
  | rigid => exact hr.elim
  | elastic =>
    cases h
    exact ⟨by simp [he], trivial⟩
  | elastic_time => exact hr.elim
  | von_mises =>
    simp only [runLaw, lawVonMises] at h
    split at h
    · cases h
    split at h
    · cases h
    split at h
    · cases h
    cases h
    simp only at hr ⊢
    constructor
    · rw [he, hr]; simp [frob]
    · rw [he]; simp only [hr]; simp [frob]
  | dp => exact hr.elim
  | dp_rate => exact hr.elim
  | viscous =>
    simp only [runLaw, lawViscous] at h
    split at h
    · cases h
    cases h
    simp only at hr ⊢
    constructor
    · rw [he, hr]; simp
    · rw [he]; simp only [hr]; simp
  | bingham =>
    simp only [runLaw, lawBingham] at h
    split at h
    · cases h
    obtain ⟨a, _, h⟩ := res_bind_ok.1 h
    obtain ⟨b, hb, h⟩ := res_bind_ok.1 h
    have hdev : b = 0 := by
      split at hb
      · rw [← Except.ok.inj hb]; simp [he]
      · split at hb
        · cases hb
        · rw [← Except.ok.inj hb]; simp [he]
    cases h
    obtain ⟨r1, r2⟩ := hr
    simp only
    refine ⟨?_, ?_, r2⟩
    · rw [he, r1, hdev, r2]; simp
    · rw [he, r1]; simp
  | ken_kamrin =>
    simp only [runLaw, lawKenKamrin] at h
    split at h
    · cases h
    obtain ⟨a, _, h⟩ := res_bind_ok.1 h
    cases h
    simp only at hr ⊢
    constructor
    · rw [he, hr]; simp
    · rw [he]; simp only [hr]; simp
  | pouliquen =>
    simp only [runLaw, lawPouliquen] at h
    obtain ⟨⟨a, b, d⟩, _, h⟩ := res_bind_ok.1 h
    simp only at h
    split at h
    · cases h
    rename_i hdt
    obtain ⟨r1, r2⟩ := hr
    have hp : pouliquenPressure c mp.rho (mp.pressure + c.mat.Kb * (mp.dstrain.trace / 3)) =
        mp.pressure := by
      rw [he]
      unfold pouliquenPressure
      rw [hc]
      simp only [Matrix.trace_zero, zero_div, mul_zero, add_zero]
      rw [if_neg]
      rintro (h | h)
      · exact absurd h (not_lt.2 r2)
      · exact absurd (hd.1 rfl) (not_le.2 h)
    split at h
    · rename_i hf
      have hM := flowStressInc_fin (M := fun i j => (flowStressInc _ _ _ _ _ i j).nanToNum 0) hdt
        (fun i j => finMat_ok (if_pos hf) i j)
      obtain ⟨e, _, hM⟩ := hM
      cases h
      simp only
      rw [hM, hp, he, r1]
      exact ⟨by simp, rfl, r2⟩
    · cases h
  | linear_mu =>
    simp only [runLaw, lawLinearMu] at h
    obtain ⟨a, _, h⟩ := res_bind_ok.1 h
    split at h
    · cases h
    rename_i hdt
    obtain ⟨b, hb, h⟩ := res_bind_ok.1 h
    obtain ⟨d, hd2, h⟩ := res_bind_ok.1 h
    obtain ⟨e, he2, hM⟩ := flowStressInc_fin hdt (fun i j => finMat_ok hb i j)
    obtain ⟨r1, r2⟩ := hr
    have hp : (linearMuRaw c mp a).2.2.2.1 = mp.pressure := by
      simp only [linearMuRaw, he, Matrix.trace_zero, zero_div, mul_zero, add_zero]
      exact if_neg (not_lt.2 r2)
    cases h
    simp only
    rw [hM, hp]
    refine ⟨?_, r1, r2⟩
    rw [he, r1]
    simp [not_lt.2 r2]
  | ken_simple =>
    simp only [runLaw, lawKenSimple] at h
    obtain ⟨a, _, h⟩ := res_bind_ok.1 h
    split at h
    · cases h
    cases h
    obtain ⟨r1, r2⟩ := hr
    simp only
    rw [if_pos (hd.2 rfl)]
    refine ⟨?_, ?_, ?_⟩
    · rw [he, r1]; simp [not_lt.2 r2]
    · rw [he, r1]; simp [not_lt.2 r2]
    · rw [he]; simp [not_lt.2 r2, r2]
  | viscous_size => exact hr.elim
  | pouliquen2D => exact hr.elim
  | other => exact hr.elim

/-- On a grid at rest a calm point is not strained and keeps its stress. -/
theorem stressStrain_calm {N nx : ℕ} {M_tol : K} {G : Grid K N ns} {ph : Phase K ns}
    {c : LawCtx K ns} {a b : Particle K ns} {vis vis' : Vis → Fin N → XF K} (hc : c.mat = ph.par)
    (hr : Calm ph a) (hd : DenseEnough ph a) (hq : ∀ k i, G.q k i = 0)
    (h : a.stressStrain nx M_tol G ph.law c vis = .ok (b, vis')) :
    b.stress = a.stress ∧ b.strain = a.strain ∧ Calm ph b := by
  obtain ⟨mp1, mp2, l, h1, h2, -, rfl⟩ := stressStrain_ok h
  obtain ⟨nd, hnd, rfl⟩ := updateStrain_ok h1
  have hv : ∀ k, nodeVel M_tol G k = 0 := by
    intro k
    unfold nodeVel
    split
    · funext i; simp [hq]
    · rfl
  have hA : (∑ r, Matrix.vecMulVec (nodeVel M_tol G (nd r)) (a.Gs r) : Mat K) = 0 := by
    simp [hv]
  simp only [hA] at h2
  have hz : (0 : Mat K) + Matrix.transpose 0 = 0 := by simp
  rw [hz, smul_zero, add_zero] at h2
  obtain ⟨f1, f2, f3, f4, -⟩ := runLaw_frame h2
  obtain ⟨k1, k2⟩ := law_calm (ph := ph) (c := c)
    (mp := { a with LL := 0, dstrain := 0, strain := a.strain }) hc (by
      unfold Calm at hr ⊢
      exact hr) (by
      unfold DenseEnough at hd ⊢
      exact hd) rfl h2
  have e : mp2.stress + (mp2.dstress - c.dt • (mp2.LL * mp2.stress + mp2.stress * mp2.LL)) =
      a.stress := by
    rw [f4]
    simpa using k1
  refine ⟨e, f2, ?_⟩
  have : mp2.applyStress c.dt = { mp2 with stress := a.stress } := by
    unfold Particle.applyStress
    rw [e]
  rw [this]
  exact k2

theorem calm_law {ph : Phase K ns} {mp : Particle K ns} (h : Calm ph mp) :
    ph.law ≠ .rigid ∧ ph.law ≠ .elastic_time := by
  unfold Calm at h
  constructor <;> intro e <;> rw [e] at h <;> exact h

theorem wrapX_inside {P : GP K} {x : K} (h1 : P.x_m ≤ x) (h2 : x < P.x_M) : wrapX P x = x := by
  unfold wrapX
  rw [if_neg (not_lt.2 h1)]
  simp [not_lt.2 h2.le]

/-- A calm point in a step in which no node moves. -/
theorem evolved_still {P : Par K} {d : Dyn K} {m0 : Option (Mat0 K)}
    {Gw Gb Gm : Grid K P.G.N P.G.ns} {p : ℕ} {ph : Phase K P.G.ns} {a b : Particle K P.G.ns}
    (hx : InDomain P.G a.x) (hr : Calm ph a) (hd : DenseEnough ph a) (hb : bodyForce P d.g = a.b)
    (q1 : ∀ k i, Gb.q k i = 0) (q2 : ∀ k i, Gm.q k i = 0) (q3 : ∀ k i, Gm.q_dot k i = 0)
    (h : Evolved P d m0 Gw Gb Gm p ph a b) : Unmoved a b ∧ Calm ph b := by
  obtain ⟨a2, a3, a4, a5, a6, h2, h3, ⟨_, _, h4⟩, h5, h6, h7⟩ := h
  obtain ⟨l1, l2⟩ := calm_law hr
  have e1 : a.incrementGravity P d.g p = a := by
    unfold Particle.incrementGravity
    split
    · rw [hb]
    · rfl
  rw [e1] at h2
  have e3 := (locate_one h2 h3).eq
  obtain ⟨k4, m4⟩ := stressStrain_frame h4
  obtain ⟨c1, c2, c3⟩ := stressStrain_calm (ph := ph) rfl (a := a3)
    (by rw [e3]; unfold Calm at hr ⊢; exact hr) (by rw [e3]; unfold DenseEnough at hd ⊢; exact hd) q1 h4
  have e5 := h5.frame
  rcases h6 with ⟨hl, _⟩ | ⟨-, iv, iv', hm⟩
  · exact absurd hl l1
  obtain ⟨nd, -, -, e6⟩ := move_ok hm
  have e6 : a6 = (moveClosed P.M_tol d.dt Gm nd a5 iv).1 := congrArg Prod.fst e6
  have z1 : ∀ r, dispInc P.M_tol d.dt (a5.N r) Gm (nd r) = 0 := by
    intro r
    unfold dispInc
    split
    · funext i; simp [q2]
    · rfl
  have z2 : ∀ r, velInc P.M_tol d.dt (a5.N r) Gm (nd r) = 0 := by
    intro r
    unfold velInc
    split
    · funext i; simp [q3]
    · rfl
  unfold moveClosed at e6
  simp only [z1, z2, Finset.sum_const_zero, addVel_zero, add_zero] at e6
  have x6 : a6.x = a.x := by
    rw [e6]; change a5.x = _; rw [e5]; change a4.x = _; rw [k4.x, e3]
  have e7 : b = a6 := by
    rw [h7]
    unfold wrapped
    split
    · rw [wrapX_inside (by rw [x6]; exact hx.1.1) (by rw [x6]; exact hx.1.2),
        Function.update_eq_self]
    · rfl
  rw [e7]
  refine ⟨⟨x6, ?_, ?_, ?_, ?_, ?_, ?_⟩, ?_⟩
  · rw [e6]; change a5.v = _; rw [e5]; change a4.v = _; rw [k4.v, e3]
  · rw [e6]; change a5.V = _; rw [e5]; change a4.V = _; rw [k4.V, e3]
  · rw [e6]; change a5.m = _; rw [e5]; change a4.m = _; rw [m4 l2, e3]
  · rw [e6]; change a5.b = _; rw [e5]; change a4.b = _; rw [k4.b, e3]
  · rw [e6]; change a5.stress = _; rw [e5]; change a4.stress = _; rw [c1, e3]
  · rw [e6]; change a5.strain = _; rw [e5]; change a4.strain = _; rw [c2, e3]
  · rw [e6, e5]
    unfold Calm at c3 ⊢
    exact c3

end

/-! ## The nodes -/

namespace Spec
section
variable {K : Type} [Field K] [LinearOrder K]

/-- All points are inside, without velocity and with the same weight per mass, and the stresses are in
balance and can be kept. -/
structure AtRest (P : Par K) (β : Vec K) (s : St P) : Prop where
  counted : Counted s.L
  geometry : Geometry P.G s.G
  inside : ∀ mp ∈ points s.L, InDomain P.G mp.x
  slow : ∀ A ∈ s.L, ∀ mp ∈ A.pts, mp.v.get A.ph.iv = 0
  weight : ∀ mp ∈ points s.L, mp.b = β
  calm : ∀ A ∈ s.L, ∀ mp ∈ A.pts, Calm A.ph mp
  balance : InBalance P s.G s.L

/-- The mass at the place of a node. -/
def massAt (P : Par K) {ns : ℕ} (L : List (PhaseSt K ns)) (k : Fin P.G.N) : K :=
  ∑ j ∈ places P k, nodalMass P.G L j

/-- The density of the grid is enough at every point for the laws that take the stress of thin
material away. -/
def Packed (P : Par K) (s : St P) : Prop :=
  ∀ A ∈ s.L, ∀ mp ∈ A.pts,
    (A.ph.law = .pouliquen →
      A.ph.par.rho * (8 / 10) ≤ gridDensity P.G P.M_tol (massAt P s.L) s.G.V mp.x) ∧
    (A.ph.law = .ken_simple → 2500 < gridDensity P.G P.M_tol (massAt P s.L) s.G.V mp.x)

end
end Spec

section
variable {K : Type} [Field K] [LinearOrder K] [IsStrictOrderedRing K] [FloorRing K]
variable {P : Par K} {s s' : St P} {interp : Interp K P.G.N}

theorem mem_points_of {ns : ℕ} {L : List (PhaseSt K ns)} {A : PhaseSt K ns} (hA : A ∈ L)
    {mp : Particle K ns} (h : mp ∈ A.pts) : mp ∈ points L := List.mem_flatMap.2 ⟨A, hA, h⟩

/-- No node of a step from rest has momentum after the mapping. -/
theorem rest_mapped (hP : GoodGrid P.G) {β : Vec K} (hs : AtRest P β s) (T : GridPhase P s) :
    ∀ k i, T.Gb.q k i = 0 := by
  have hz : ∀ k i, T.Ga.q k i = 0 := by
    intro k i
    rcases (gridPhase_mapped_momentum hP hs.geometry hs.counted hs.inside T k i).1 with h | h
    · exact h
    · rw [h]
      refine list_sum_zero fun z hz => ?_
      obtain ⟨A, hA, hx⟩ := List.mem_flatMap.1 hz
      obtain ⟨mp, hmp, rfl⟩ := List.mem_map.1 hx
      simp [hs.slow A hA mp hmp]
  intro k i
  rw [T.hGb]
  split
  · change makeCyclic (nx := P.G.nx) (ny := P.G.ny) T.Ga.q k i = 0
    rw [makeCyclic_copies hP.nx, Finset.sum_apply]
    exact Finset.sum_eq_zero fun j _ => hz j i
  · exact hz k i

theorem list_sum_coord {α : Type} (f g : α → Vec K) (l : List α) (i : Fin 3) :
    (l.map f).sum i - (l.map g).sum i = (l.map fun a => f a i - g a i).sum := by
  induction l with
  | nil => simp
  | cons a l ih =>
    simp only [List.map_cons, List.sum_cons, Pi.add_apply, ← ih]
    ring

/-- The points when the nodal forces are computed. -/
theorem rest_points (hP : GoodGrid P.G) {β : Vec K} (hs : AtRest P β s)
    (hd : ∀ A ∈ s.L, ∀ mp ∈ A.pts, DenseEnough A.ph mp) (T : GridPhase P s)
    (hβ : bodyForce P T.d.g = β) :
    PtsRel (fun _ a d => d.m = a.m ∧ d.V = a.V ∧ d.b = a.b ∧ d.stress = a.stress ∧
      (∀ k, weight P.G.nx d k = hat P.G a.x k) ∧ ∀ k, gradWeight P.G.nx d k = hatGrad P.G a.x k)
      s.L T.Ld := by
  obtain ⟨-, -, -, c3, c4⟩ := T.rel hs.counted
  have r1 := updateForces_rel hs.counted T.ha
  have c1 := r1.counted hs.counted
  have hG' := Mpm.Geometry.wipe hs.geometry
  have r2 : PtsRel (fun _ a b => a.getReferenceNode P.G s.G.wipe.dx s.G.wipe.dy = .ok b) T.La T.Lb :=
    mapPoints_rel (f := fun _ _ mp => mp.getReferenceNode P.G s.G.wipe.dx s.G.wipe.dy)
      (fun _ _ _ _ h => h) c1 T.hb
  have r3 : PtsRel (fun _ a b => a.getBasisFunctions s.G.wipe = .ok b) T.Lb T.Lc :=
    mapPoints_rel (f := fun _ _ mp => mp.getBasisFunctions s.G.wipe) (fun _ _ _ _ h => h)
      (r2.counted c1) T.hc
  have r4 := updateStressStrain_rel c3 T.hLd
  refine ((r1.comp (r2.comp r3)).comp r4).mem.mono ?_
  rintro ph a e ⟨ha, -, d, ⟨b, ⟨e1, e2⟩, c, hc, hd'⟩, p, vis, vis', h4⟩
  obtain ⟨A, hA, rfl, hmp⟩ := mem_items.1 ha
  have hβa := hs.weight a (mem_points_of hA hmp)
  have hr := hs.calm A hA a hmp
  have eb : b = a := by
    have : b.b = a.b := by
      rcases e2 with h | h
      · exact h
      · rw [h, hβ, hβa]
    rw [e1, this]
  subst eb
  obtain ⟨i, j, nd, hcell, g1, g2, -⟩ := located_basis hP hG' (hs.inside b (mem_points_of hA hmp))
  rw [g1, Except.ok.injEq] at hc
  rw [← hc, g2, Except.ok.injEq] at hd'
  have ed : d = { b with n_star := d.n_star, N := d.N, Gs := d.Gs } := by rw [← hd']; rfl
  obtain ⟨k4, m4⟩ := stressStrain_frame h4
  obtain ⟨f1, -, -⟩ := stressStrain_calm (ph := A.ph) rfl (a := d)
    (by rw [ed]; unfold Calm at hr ⊢; exact hr)
    (by rw [ed]; have := hd A hA b hmp; unfold DenseEnough at this ⊢; exact this)
    (rest_mapped hP hs T) h4
  have hn : e.n_star = (i : ℤ) + (j : ℤ) * P.G.nx := by rw [k4.n_star, ← hd']; rfl
  refine ⟨?_, ?_, ?_, ?_, ?_, ?_⟩
  · rw [m4 (calm_law hr).2, ed]
  · rw [k4.V, ed]
  · rw [k4.b, ed]
  · rw [f1, ed]
  · exact weight_of_cell hP hcell hn (by rw [k4.N, ← hd'])
  · exact gradWeight_of_cell hP hcell hn (by rw [k4.Gs, ← hd'])

/-- The forces of a step from rest. -/
theorem rest_forces (hP : GoodGrid P.G) {β : Vec K} (hs : AtRest P β s)
    (hd : ∀ A ∈ s.L, ∀ mp ∈ A.pts, DenseEnough A.ph mp) (T : GridPhase P s)
    (hβ : bodyForce P T.d.g = β) (k : Fin P.G.N) (i : Fin 3) :
    T.Gd.fe k i - T.Gd.fi k i = ∑ j ∈ places P k, netForce P.G s.L j i := by
  obtain ⟨-, -, -, c3, c4⟩ := T.rel hs.counted
  obtain ⟨w0, w1⟩ := gridPhase_forces_zero T hs.counted
  have hr := (rest_points hP hs hd T hβ).points
  have key : ∀ {G1 : Grid K P.G.N P.G.ns}, nodalForcesAll P.G.nx T.Ld T.Gc = .ok G1 →
      ∀ j, G1.fe j i - G1.fi j i = netForce P.G s.L j i := by
    intro G1 h1 j
    rw [nodalForcesAll_fi c4 h1, nodalForcesAll_fe c4 h1, w0, w1, zero_add, zero_add,
      list_sum_coord]
    unfold netForce
    symm
    refine congrArg List.sum (forall₂_map_eq ?_ hr)
    rintro a d ⟨-, e1, e2, e3, e4, e5, e6⟩
    rw [e5, e1, e2, e3, e4]
    simp only [Pi.smul_apply, smul_eq_mul, e6]
    rw [Matrix.mulVec, dotProduct, Fin.sum_univ_three, show hatGrad P.G a.x j 2 = 0 from rfl]
    ring
  unfold places
  cases hcy : P.B.cyclic_lr
  · rw [if_neg (by simp), Finset.sum_singleton]
    exact key (getNodalForces_acyclic hcy T.hGd) k
  · obtain ⟨G1, h1, e1, e2⟩ := cyclic_forces hcy T
    rw [if_pos rfl, e1, e2, makeCyclic_copies hP.nx, makeCyclic_copies hP.nx, Finset.sum_apply,
      Finset.sum_apply, ← Finset.sum_sub_distrib]
    exact Finset.sum_congr rfl fun j _ => key h1 j

/-! ## C124 -/

theorem quiet_marks {B : BP K} (hB : QuietOptions B) {N : ℕ} (mark b : Fin N → Bool) :
    wallMarks B mark b = b := by
  funext k
  unfold wallMarks
  rcases hB.friction with h | h <;> simp [h]

theorem netForce_still {G : GP K} {ns : ℕ} {L L' : List (PhaseSt K ns)}
    (h : List.Forall₂ Unmoved (points L) (points L')) (k : Fin G.N) (i : Fin 3) :
    netForce G L' k i = netForce G L k i := by
  unfold netForce
  symm
  refine congrArg List.sum (forall₂_map_eq ?_ h)
  intro a b hab
  rw [hab.m, hab.b, hab.x, hab.V, hab.stress]

theorem still_points {ns : ℕ} {L L' : List (PhaseSt K ns)} (h : List.Forall₂ StillPhase L L') :
    List.Forall₂ Unmoved (points L) (points L') := by
  induction h with
  | nil => exact .nil
  | cons h _ ih => exact List.rel_append h.2.2 ih

theorem still_trans {ns : ℕ} {A B C : PhaseSt K ns} (h : StillPhase A B) (h' : StillPhase B C) :
    StillPhase A C := by
  refine ⟨h.1.trans h'.1, h'.2.1.trans h.2.1, (forall₂_comp h.2.2 h'.2.2).imp ?_⟩
  rintro a c ⟨b, u, v⟩
  exact ⟨v.x.trans u.x, v.v.trans u.v, v.V.trans u.V, v.m.trans u.m, v.b.trans u.b,
    v.stress.trans u.stress, v.strain.trans u.strain⟩

/-- C124.  A step from rest changes nothing: no point moves, is strained or changes its stress, no
node moves or is accelerated, and the state after the step is one of rest again. -/
theorem c124_step (hP : GoodGrid P.G) (hB : QuietOptions P.B) {β : Vec K}
    (hβ : ∀ t, bodyForce P (P.forces t).1 = β) (hs : AtRest P β s)
    (hd : ∀ A ∈ s.L, ∀ mp ∈ A.pts, DenseEnough A.ph mp) (h : timeMarch P interp s = .ok s') :
    AtRest P β s' ∧ List.Forall₂ StillPhase s.L s'.L ∧ ∀ k i, s'.G.q k i = 0 ∧ s'.G.q_dot k i = 0 := by
  obtain ⟨T, s1, s2, s3, h1, e1, h2, h3, h4, h5, hR⟩ := timeMarch_idx hs.counted h
  have hg : bodyForce P T.d.g = β := by rw [T.hd]; exact hβ _
  have q1 := rest_mapped hP hs T
  obtain ⟨-, -, -, st, eq, -⟩ := T.static
  have hmom : ∀ k i, s3.G.q k i = 0 ∧ s3.G.q_dot k i = 0 := by
    obtain ⟨-, -, -, e2, e3, -⟩ := segregationPhase_frame h3
    rw [e2, e3]
    obtain ⟨G1, g1, g2⟩ := momentumPhase_frame h2
    have g3 : G1 = s1.G := BCs_none hB.vertical hB.horizontal g1
    have g4 : s1.G = T.Gd := by rw [e1]
    rw [g3, g4] at g2
    intro k
    have hqd : ∀ i, (T.Gd.updateMomentum (nx := P.G.nx) (ny := P.G.ny) P.B P.damping s1.dyn.dt
        P.v_0).q_dot k i = 0 := by
      obtain ⟨u2, u0, u1⟩ := updateMomentum_qdot (damping := P.damping) (dt := s1.dyn.dt) (v0 := P.v_0)
        hB.friction (nx := P.G.nx) (ny := P.G.ny) T.Gd k
      intro i
      have hf := rest_forces hP hs hd T hg k i
      have hb := hs.balance k i
      have bv : T.Gd.boundary_v = s.G.boundary_v := st.bv
      have bh : T.Gd.boundary_h = s.G.boundary_h := st.bh
      unfold HeldAt at hb
      fin_cases i
      · change _ = _ at u0
        refine u0.trans ?_
        split
        · rfl
        · rename_i hn
          rw [bv, bh] at hn
          rcases hb with (⟨-, hb⟩ | ⟨hb, -⟩) | hb
          · exact absurd hb hn
          · exact absurd hb (by decide)
          · change dampFactor P.damping * (T.Gd.fe k 0 - T.Gd.fi k 0) = 0
            rw [show T.Gd.fe k 0 - T.Gd.fi k 0 = _ from hf, hb, mul_zero]
      · refine u1.trans ?_
        split
        · rfl
        · rename_i hn
          rw [bv, bh] at hn
          rcases hb with (⟨hb, -⟩ | ⟨-, hb⟩) | hb
          · exact absurd hb (by decide)
          · exact absurd hb hn
          · change dampFactor P.damping * (T.Gd.fe k 1 - T.Gd.fi k 1) = 0
            rw [show T.Gd.fe k 1 - T.Gd.fi k 1 = _ from hf, hb, mul_zero]
      · refine u2.trans ?_
        rcases hb with (⟨hb, -⟩ | ⟨hb, -⟩) | hb
        · exact absurd hb (by decide)
        · exact absurd hb (by decide)
        · rw [show T.Gd.fe k 2 - T.Gd.fi k 2 = _ from hf, hb, mul_zero]
    intro i
    rw [g2]
    change (T.Gd.updateMomentum (nx := P.G.nx) (ny := P.G.ny) P.B P.damping s1.dyn.dt P.v_0).q k i = 0 ∧
      (T.Gd.updateMomentum (nx := P.G.nx) (ny := P.G.ny) P.B P.damping s1.dyn.dt P.v_0).q_dot k i = 0
    rw [updateMomentum_q hB.conveyor]
    refine ⟨?_, hqd i⟩
    simp only [Pi.add_apply, Pi.smul_apply, hqd i, smul_zero, add_zero]
    rw [eq]; exact q1 k i
  have hF : List.Forall₂ (fun A B => A ∈ s.L ∧ StillPhase A B ∧ B.ph.n = B.pts.length ∧
      ∀ b ∈ B.pts, Calm B.ph b) s.L s'.L := by
    refine (hR.and_left (p := fun A => A ∈ s.L) (fun A hA => hA)).forall₂ ?_
    rintro p A B ⟨hA, e, en, evo, kept, new, hev, hiv, -, hk, hn, -, hB'⟩
    rw [hn hB.inlet_right hB.inlet_top, List.append_nil, hk hB.outlet_left hB.outlet_bottom] at hB'
    have hev' : List.Forall₂ (fun a b => Unmoved a b ∧ Calm A.ph b) A.pts evo := by
      refine (forall₂_and_left (p := fun a => a ∈ A.pts) hev (fun _ h => h)).imp ?_
      rintro a b ⟨ha, hab⟩
      have hx := hs.inside a (mem_points_of hA ha)
      have hb := hs.weight a (mem_points_of hA ha)
      exact evolved_still hx (hs.calm A hA a ha) (hd A hA a ha) (hg.trans hb.symm) q1
        (fun k i => (hmom k i).1) (fun k i => (hmom k i).2) hab
    have eiv : B.ph.iv = A.ph.iv := by
      rw [hiv]
      unfold sharedChange
      split
      · rw [add_zero]
      · rw [list_sum_zero, add_zero]
        intro mp _
        unfold dvel
        refine Finset.sum_eq_zero fun k _ => ?_
        split
        · have : s3.G.q_dot k = 0 := funext fun i => (hmom k i).2
          rw [this, smul_zero, smul_zero]
        · rw [smul_zero]
    rw [hB']
    refine ⟨hA, ⟨e, eiv, by rw [hB']; exact hev'.imp fun _ _ h => h.1⟩, by rw [en, hB'], ?_⟩
    intro b hb
    obtain ⟨a, -, -, hc⟩ := forall₂_right hev' hb
    have e' : B.ph = { A.ph with n := B.ph.n, iv := B.ph.iv } := e
    rw [e']
    unfold Calm at hc ⊢
    exact hc
  have hS : List.Forall₂ StillPhase s.L s'.L := hF.imp fun _ _ h => h.2.1
  have hpt := still_points hS
  obtain ⟨tab, bh, bv, -⟩ := timeMarch_table h
  rw [quiet_marks hB] at bh bv
  refine ⟨⟨?_, tab.geometry hs.geometry, ?_, ?_, ?_, ?_, ?_⟩, hS, by rw [h5]; exact hmom⟩
  · exact timeMarch_counted hs.counted h
  · intro b hb
    obtain ⟨a, ha, hab⟩ := forall₂_right hpt hb
    rw [hab.x]; exact hs.inside a ha
  · intro B hB2 b hb
    obtain ⟨A, hA, -, hAB, -⟩ := forall₂_right hF hB2
    obtain ⟨a, ha, hab⟩ := forall₂_right hAB.2.2 hb
    rw [hab.v, hAB.2.1]; exact hs.slow A hA a ha
  · intro b hb
    obtain ⟨a, ha, hab⟩ := forall₂_right hpt hb
    rw [hab.b]; exact hs.weight a ha
  · intro B hB2 b hb
    obtain ⟨A, hA, -, -, -, hc⟩ := forall₂_right hF hB2
    exact hc b hb
  · intro k i
    have := hs.balance k i
    unfold HeldAt at this ⊢
    rw [bv, bh]
    refine this.imp id fun h => ?_
    rw [← h]
    exact Finset.sum_congr rfl fun j _ => netForce_still hpt j i

theorem step_mass (hP : GoodGrid P.G) (hL : Counted s.L) (hG : Geometry P.G s.G)
    (hx : ∀ mp ∈ points s.L, InDomain P.G mp.x) (h : timeMarch P interp s = .ok s') :
    s'.G.m = massAt P s.L ∧ s'.G.V = s.G.V := by
  cases hcy : P.B.cyclic_lr
  · obtain ⟨a, b⟩ := step_grid hP hL hG hx hcy h
    refine ⟨?_, b⟩
    rw [a]
    funext k
    simp [massAt, places, hcy]
  · refine ⟨?_, (timeMarch_table h).1.V⟩
    obtain ⟨s1, s2, s3, h1, h2, h3, h4⟩ := timeMarch_ok h
    rw [(step_pressure h2 h3 h4).2]
    funext k
    rw [c94_mass hP hG hL hx hcy h1]
    simp [massAt, places, hcy]

theorem massAt_still {L L' : List (PhaseSt K P.G.ns)} (h : List.Forall₂ Unmoved (points L) (points L')) :
    massAt P L' = massAt P L := by
  funext k
  refine Finset.sum_congr rfl fun j _ => ?_
  unfold nodalMass
  symm
  refine congrArg List.sum (forall₂_map_eq ?_ h)
  intro a b hab
  rw [hab.x, hab.m]

/-- A step from rest keeps the density, too. -/
theorem rest_density (hP : GoodGrid P.G) (hB : QuietOptions P.B) {β : Vec K}
    (hβ : ∀ t, bodyForce P (P.forces t).1 = β) (hs : AtRest P β s) (hk : Packed P s)
    (hd : ∀ A ∈ s.L, ∀ mp ∈ A.pts, DenseEnough A.ph mp) (h : timeMarch P interp s = .ok s') :
    Packed P s' ∧ ∀ A ∈ s'.L, ∀ mp ∈ A.pts, DenseEnough A.ph mp := by
  obtain ⟨-, hS, -⟩ := c124_step hP hB hβ hs hd h
  obtain ⟨em, eV⟩ := step_mass hP hs.counted hs.geometry hs.inside h
  have hpt := still_points hS
  have ph : ∀ {A B : PhaseSt K P.G.ns}, SamePhase A.ph B.ph → B.ph.law = A.ph.law ∧
      B.ph.par = A.ph.par := by
    intro A B e
    have e' : B.ph = { A.ph with n := B.ph.n, iv := B.ph.iv } := e
    rw [e']
    exact ⟨rfl, rfl⟩
  constructor
  · intro B hB2 b hb
    obtain ⟨A, hA, hAB⟩ := forall₂_right hS hB2
    obtain ⟨a, ha, hab⟩ := forall₂_right hAB.2.2 hb
    rw [massAt_still hpt, eV, hab.x, (ph hAB.1).1, (ph hAB.1).2]
    exact hk A hA a ha
  · intro B hB2 b hb
    obtain ⟨A, hA, e, evo, hev, hsub, -⟩ := forall₂_right
      (c122_step hP hs.counted hs.geometry hs.inside ⟨hB.inlet_right, hB.inlet_top⟩ h) hB2
    obtain ⟨a, ha, -, -, -, hr⟩ := forall₂_right hev (hsub.subset hb)
    have hr := hr (calm_law (hs.calm A hA a ha)).1
    rw [em, eV] at hr
    unfold DenseEnough
    rw [(ph e).1, (ph e).2, hr]
    exact hk A hA a ha

/-- C124.  From rest nothing happens in any number of steps. -/
theorem c124_steps (hP : GoodGrid P.G) (hB : QuietOptions P.B) {β : Vec K}
    (hβ : ∀ t, bodyForce P (P.forces t).1 = β) (hs : AtRest P β s) (hk : Packed P s)
    (hd : ∀ A ∈ s.L, ∀ mp ∈ A.pts, DenseEnough A.ph mp) {n : ℕ} (h : steps P interp n s = .ok s') :
    AtRest P β s' ∧ List.Forall₂ StillPhase s.L s'.L := by
  have := steps_inv (p := fun u => AtRest P β u ∧ Packed P u ∧
      (∀ A ∈ u.L, ∀ mp ∈ A.pts, DenseEnough A.ph mp) ∧ List.Forall₂ StillPhase s.L u.L) ?_ h
    ⟨hs, hk, hd, forall₂_refl (fun A => ⟨rfl, rfl, forall₂_refl
      (fun a => ⟨rfl, rfl, rfl, rfl, rfl, rfl, rfl⟩) _⟩) _⟩
  · exact ⟨this.1, this.2.2.2⟩
  · rintro u v ⟨a, b, c, d⟩ h1
    obtain ⟨k1, k2, -⟩ := c124_step hP hB hβ a c h1
    obtain ⟨k3, k4⟩ := rest_density hP hB hβ a b c h1
    refine ⟨⟨k1.counted, k1.geometry, k1.inside, k1.slow, k1.weight, k1.calm, k1.balance⟩, k3, k4,
      (forall₂_comp d k2).imp ?_⟩
    rintro A C ⟨B, h, h'⟩
    exact still_trans h h'

/-- C124.  The same for all states of a run of the main program, with static or with dynamic time
steps. -/
theorem c124_run (hP : GoodGrid P.G) (hB : QuietOptions P.B) {β : Vec K}
    (hβ : ∀ t, bodyForce P (P.forces t).1 = β) (hs : AtRest P β s) (hk : Packed P s)
    (hd : ∀ A ∈ s.L, ∀ mp ∈ A.pts, DenseEnough A.ph mp) {A : LoopPar K} {us : List (St P)}
    (h : Chain P interp A s us s') :
    ∀ u ∈ s' :: us, AtRest P β u ∧ List.Forall₂ StillPhase s.L u.L := by
  obtain ⟨i1, i2⟩ := c123_invariant (I := fun u => AtRest P β u ∧ Packed P u ∧
      (∀ A ∈ u.L, ∀ mp ∈ A.pts, DenseEnough A.ph mp) ∧ List.Forall₂ StillPhase s.L u.L)
    (by
      rintro u v ⟨a, b, c, d⟩ h1
      obtain ⟨k1, k2, -⟩ := c124_step hP hB hβ a c h1
      obtain ⟨k3, k4⟩ := rest_density hP hB hβ a b c h1
      refine ⟨k1, k3, k4, (forall₂_comp d k2).imp ?_⟩
      rintro A C ⟨B, h, h'⟩
      exact still_trans h h')
    (by
      rintro u v ⟨a, b, c, d⟩ e1 e2
      refine ⟨⟨?_, ?_, ?_, ?_, ?_, ?_, ?_⟩, ?_, ?_, ?_⟩
      · rw [e1]; exact a.counted
      · rw [e2]; exact a.geometry
      · rw [e1]; exact a.inside
      · rw [e1]; exact a.slow
      · rw [e1]; exact a.weight
      · rw [e1]; exact a.calm
      · rw [e1, e2]; exact a.balance
      · unfold Packed; rw [e1, e2]; exact b
      · rw [e1]; exact c
      · rw [e1]; exact d)
    h ⟨hs, hk, hd, forall₂_refl (fun A => ⟨rfl, rfl, forall₂_refl
      (fun a => ⟨rfl, rfl, rfl, rfl, rfl, rfl, rfl⟩) _⟩) _⟩
  intro u hu
  rcases List.mem_cons.1 hu with rfl | hu
  · exact ⟨i1.1, i1.2.2.2⟩
  · exact ⟨(i2 u hu).1, (i2 u hu).2.2.2⟩

end
end Mpm

import Verif.Props.Layout
import Verif.Props.Light
import Verif.Props.Ending
import Verif.Props.Saved
import Mathlib.Tactic.FieldSimp
import Mathlib.Tactic.LinearCombination

/-!
# The density of the points (C122)
-/

set_option linter.unusedSectionVars false

namespace Mpm
open Spec

/-! ## Specification -/

section
variable {K : Type} [Field K] [LinearOrder K] {ns : ℕ}

/-- The density of the grid at a place: the mean over the nodes around it of mass per volume, the
light ones counting as empty. -/
def Spec.gridDensity (P : GP K) (M_tol : K) (m V : Fin P.N → K) (x : Vec K) : K :=
  ∑ k, hat P x k * (if M_tol < m k then m k / V k else 0)

/-- Of the one or two columns (rows) of cells beside line `i` of `n`, the share that lies in the `c`
columns from `i0` on. -/
def Spec.filledShare (n i0 c i : ℕ) : K := (touching i0 c i : K) / touching 0 (n - 1) i

/-- A value that goes from `a` to `b` across a cell. -/
def Spec.between (t a b : K) : K := (1 - t) * a + t * b

/-- What a step does to the density of one point. -/
def Spec.NewDensity (P : Par K) (G : Grid K P.G.N P.G.ns) (ph : Phase K P.G.ns)
    (a b : Particle K P.G.ns) : Prop :=
  b.V = a.V ∧ (ph.law ≠ .elastic_time → b.m = a.m) ∧ (ph.law = .rigid → b.rho = a.rho) ∧
  (ph.law ≠ .rigid → b.rho = gridDensity P.G P.M_tol G.m G.V a.x)

end

section
variable {K : Type} [Field K] [LinearOrder K] [IsStrictOrderedRing K] [FloorRing K] {ns : ℕ}

/-! ## C122 -/

theorem evolved_density {P : Par K} (hP : GoodGrid P.G) {d : Dyn K} {m0 : Option (Mat0 K)}
    {Gw Gb Gm : Grid K P.G.N P.G.ns} (hG : Geometry P.G Gw) {p : ℕ} {ph : Phase K P.G.ns}
    {a b : Particle K P.G.ns} (hx : InDomain P.G a.x) (h : Evolved P d m0 Gw Gb Gm p ph a b) :
    NewDensity P Gm ph a b := by
  obtain ⟨a5, a6, hm, hb, -, -, hV, hr, hma, -, hcell⟩ := h.parts
  have e : b.V = a6.V ∧ b.m = a6.m ∧ b.rho = a6.rho := by
    rw [hb]; unfold wrapped; split <;> exact ⟨rfl, rfl, rfl⟩
  obtain ⟨i, j, hc, hn, hN⟩ := hcell hP hG hx
  rcases hm with ⟨hl, rfl⟩ | ⟨hl, iv, iv', hm⟩
  · exact ⟨e.1.trans hV, fun h => e.2.1.trans (hma h), fun _ => e.2.2.trans hr, fun h => absurd hl h⟩
  · obtain ⟨nd, hnd, -, e1⟩ := move_ok hm
    have eV : a6.V = a5.V := congrArg (fun z => z.1.V) e1
    have em : a6.m = a5.m := congrArg (fun z => z.1.m) e1
    have er : a6.rho = ∑ r, rhoInc P.M_tol (a5.N r) Gm (nd r) := congrArg (fun z => z.1.rho) e1
    refine ⟨by rw [e.1, eV, hV], fun h => by rw [e.2.1, em, hma h], fun h => absurd h hl, fun _ => ?_⟩
    rw [e.2.2, er]
    have e2 : ∀ r, rhoInc P.M_tol (a5.N r) Gm (nd r) =
        a5.N r • (fun k => if P.M_tol < Gm.m k then Gm.m k / Gm.V k else 0) (nd r) := by
      intro r
      unfold rhoInc
      dsimp only
      split <;> simp [mul_div_assoc]
    rw [Finset.sum_congr rfl fun r _ => e2 r, sum_nodes_smul hnd
      (fun k => if P.M_tol < Gm.m k then Gm.m k / Gm.V k else 0)]
    unfold gridDensity
    refine Finset.sum_congr rfl fun k _ => ?_
    rw [weight_of_cell hP hc hn hN, smul_eq_mul]

/-- C122.  A step gives every point that is not rigid the density of the grid at the place where the
point was before it was moved, and leaves its volume and its mass alone. -/
theorem c122_step {P : Par K} (hP : GoodGrid P.G) {interp : Interp K P.G.N} {s s' : St P}
    (hL : Counted s.L) (hG : Geometry P.G s.G) (hx : ∀ mp ∈ points s.L, InDomain P.G mp.x)
    (hi : P.B.inlet_right = false ∧ P.B.inlet_top = false) (h : timeMarch P interp s = .ok s') :
    List.Forall₂ (fun A B => SamePhase A.ph B.ph ∧ ∃ evo, List.Forall₂ (NewDensity P s'.G A.ph) A.pts evo ∧
      B.pts.Sublist evo ∧ (P.B.outlet_left = false → P.B.outlet_bottom = false → B.pts = evo))
      s.L s'.L := by
  obtain ⟨T, s1, s2, s3, h1, e1, h2, h3, h4, h5, hR⟩ := timeMarch_idx hL h
  have hR' := hR.and_left (p := fun A => ∀ mp ∈ A.pts, InDomain P.G mp.x)
    (fun A hA mp hmp => hx mp (List.mem_flatMap.2 ⟨A, hA, hmp⟩))
  refine hR'.forall₂ ?_
  rintro p A B ⟨hA, e, -, evo, kept, new, hev, -, hk, hke, hin, -, hB⟩
  rw [hin hi.1 hi.2, List.append_nil] at hB
  rw [hB]
  refine ⟨e, evo, ?_, hk, hke⟩
  rw [h5]
  refine (forall₂_and_left (R := Evolved P T.d (mat0 s.L) s.G.wipe T.Gb s3.G p A.ph)
    hev hA).imp ?_
  rintro a b ⟨ha, hab⟩
  exact evolved_density hP (Mpm.Geometry.wipe hG) ha hab

/-- The grid at the end of a step has the mass of the points before it. -/
theorem step_grid {P : Par K} (hP : GoodGrid P.G) {interp : Interp K P.G.N} {s s' : St P}
    (hL : Counted s.L) (hG : Geometry P.G s.G) (hx : ∀ mp ∈ points s.L, InDomain P.G mp.x)
    (hcy : P.B.cyclic_lr = false) (h : timeMarch P interp s = .ok s') :
    s'.G.m = nodalMass P.G s.L ∧ s'.G.V = s.G.V := by
  have eV := (timeMarch_table h).1.V
  obtain ⟨s1, s2, s3, h1, h2, h3, h4⟩ := timeMarch_ok h
  refine ⟨?_, eV⟩
  rw [(step_pressure h2 h3 h4).2]
  obtain ⟨T, rfl⟩ := gridPhase_ok h1
  funext k
  exact gridPhase_mass hP hG hL hx hcy T k

theorem gridDensity_bounds {P : GP K} (hP : GoodGrid P) {M_tol D : K} {m V : Fin P.N → K}
    (hV : ∀ k, 0 < V k) (hD : 0 ≤ D) (hm : ∀ k, 0 ≤ m k ∧ m k ≤ D * V k) {mp : Particle K ns}
    (hx : InDomain P mp.x) :
    0 ≤ gridDensity P M_tol m V mp.x ∧ gridDensity P M_tol m V mp.x ≤ D := by
  have key : ∀ k, 0 ≤ (if M_tol < m k then m k / V k else 0) ∧
      (if M_tol < m k then m k / V k else 0) ≤ D := by
    intro k
    split
    · exact ⟨div_nonneg (hm k).1 (hV k).le, (div_le_iff₀ (hV k)).2 (hm k).2⟩
    · exact ⟨le_rfl, hD⟩
  refine ⟨Finset.sum_nonneg fun k _ => mul_nonneg (hat_nonneg _ k) (key k).1, ?_⟩
  calc gridDensity P M_tol m V mp.x ≤ ∑ k, hat P mp.x k * D :=
        Finset.sum_le_sum fun k _ => mul_le_mul_of_nonneg_left (key k).2 (hat_nonneg _ k)
    _ = D := by rw [← Finset.sum_mul, hat_sum hP hx, one_mul]

/-- C122.  The density of no point (not rigid) is negative after a step, nor above the largest
density of a node in that step. -/
theorem c122_bounds {P : Par K} (hP : GoodGrid P.G) {interp : Interp K P.G.N} {s s' : St P}
    (hL : Counted s.L) (hG : Geometry P.G s.G) (hx : ∀ mp ∈ points s.L, InDomain P.G mp.x)
    (hi : P.B.inlet_right = false ∧ P.B.inlet_top = false) (hcy : P.B.cyclic_lr = false)
    (hV : ∀ k, 0 < s.G.V k) {D : K} (hD : 0 ≤ D) (hm : ∀ mp ∈ points s.L, 0 ≤ mp.m)
    (hk : ∀ k, nodalMass P.G s.L k ≤ D * s.G.V k) (hr : ∀ A ∈ s.L, A.ph.law ≠ .rigid)
    (h : timeMarch P interp s = .ok s') : ∀ mp ∈ points s'.L, 0 ≤ mp.rho ∧ mp.rho ≤ D := by
  obtain ⟨em, eV⟩ := step_grid hP hL hG hx hcy h
  intro b hb
  obtain ⟨B, hB, hb⟩ := List.mem_flatMap.1 hb
  obtain ⟨A, hA, -, evo, hev, hsub, -⟩ := forall₂_right (c122_step hP hL hG hx hi h) hB
  obtain ⟨a, ha, -, -, -, hρ⟩ := forall₂_right hev (hsub.subset hb)
  rw [hρ (hr A hA), em, eV]
  refine gridDensity_bounds hP hV hD (fun k => ⟨?_, hk k⟩) (hx a (List.mem_flatMap.2 ⟨A, hA, ha⟩))
  refine List.sum_nonneg fun z hz => ?_
  obtain ⟨mp, hmp, rfl⟩ := List.mem_map.1 hz
  exact mul_nonneg (hat_nonneg _ k) (hm mp hmp)

theorem forall₂_points {R : Particle K ns → Particle K ns → Prop} {L L' : List (PhaseSt K ns)}
    (h : List.Forall₂ (fun A B => List.Forall₂ R A.pts B.pts) L L') :
    List.Forall₂ R (points L) (points L') := by
  induction h with
  | nil => exact .nil
  | cons h _ ih =>
    unfold points at *
    rw [List.flatMap_cons, List.flatMap_cons]
    exact List.rel_append h ih

theorem total_density {P : GP K} {M_tol : K} {m V : Fin P.N → K} {L L' : List (PhaseSt K ns)}
    (h : List.Forall₂ (fun a b => b.V = a.V ∧ b.rho = gridDensity P M_tol m V a.x)
      (points L) (points L')) :
    ((points L').map fun mp => mp.rho * mp.V).sum =
      ∑ k, (if M_tol < m k then m k / V k else 0) * nodalSpace P L k := by
  have e : (points L').map (fun mp => mp.rho * mp.V) =
      (points L).map fun mp => ∑ k, (if M_tol < m k then m k / V k else 0) * (hat P mp.x k * mp.V) := by
    refine (forall₂_map_eq ?_ h).symm
    rintro a b ⟨e1, e2⟩
    rw [e1, e2, gridDensity, Finset.sum_mul]
    exact Finset.sum_congr rfl fun k _ => by ring
  rw [e, ← list_sum_finset]
  refine Finset.sum_congr rfl fun k _ => ?_
  unfold nodalSpace
  rw [List.sum_map_mul_left]

/-- C122.  Density times volume, summed over the points, is the mass of the heavy nodes, each
weighted with the share of its volume that is filled. It is not the mass of the points: it is at
most that, if no node is overfilled, and less if a heavy node is not full. -/
theorem c122_total {P : Par K} (hP : GoodGrid P.G) {interp : Interp K P.G.N} {s s' : St P}
    (hL : Counted s.L) (hG : Geometry P.G s.G) (hx : ∀ mp ∈ points s.L, InDomain P.G mp.x)
    (hi : P.B.inlet_right = false ∧ P.B.inlet_top = false)
    (ho : P.B.outlet_left = false ∧ P.B.outlet_bottom = false) (hcy : P.B.cyclic_lr = false)
    (hV : ∀ k, 0 < s.G.V k) (hr : ∀ A ∈ s.L, A.ph.law ≠ .rigid)
    (h : timeMarch P interp s = .ok s') :
    ((points s'.L).map fun mp => mp.rho * mp.V).sum =
      ∑ k, (if P.M_tol < nodalMass P.G s.L k then nodalMass P.G s.L k else 0) *
        (nodalSpace P.G s.L k / s.G.V k) ∧
    ((∀ mp ∈ points s.L, 0 ≤ mp.m) → (∀ k, nodalSpace P.G s.L k ≤ s.G.V k) →
      ((points s'.L).map fun mp => mp.rho * mp.V).sum ≤ ((points s.L).map fun mp => mp.m).sum ∧
      ((∃ k, P.M_tol < nodalMass P.G s.L k ∧ 0 < nodalMass P.G s.L k ∧
          nodalSpace P.G s.L k < s.G.V k) →
        ((points s'.L).map fun mp => mp.rho * mp.V).sum < ((points s.L).map fun mp => mp.m).sum)) := by
  obtain ⟨em, eV⟩ := step_grid hP hL hG hx hcy h
  have hf : List.Forall₂ (fun a b => b.V = a.V ∧
      b.rho = gridDensity P.G P.M_tol (nodalMass P.G s.L) s.G.V a.x) (points s.L) (points s'.L) := by
    refine forall₂_points ((forall₂_and_left (c122_step hP hL hG hx hi h) hr).imp ?_)
    rintro A B ⟨hA, -, evo, hev, -, hB⟩
    rw [hB ho.1 ho.2]
    refine hev.imp ?_
    rintro a b ⟨v, -, -, d⟩
    exact ⟨v, by rw [d hA, em, eV]⟩
  have e : ((points s'.L).map fun mp => mp.rho * mp.V).sum =
      ∑ k, (if P.M_tol < nodalMass P.G s.L k then nodalMass P.G s.L k else 0) *
        (nodalSpace P.G s.L k / s.G.V k) := by
    rw [total_density hf]
    refine Finset.sum_congr rfl fun k _ => ?_
    split
    · ring
    · simp
  refine ⟨e, fun hm hs => ?_⟩
  have hn : ∀ k, 0 ≤ nodalMass P.G s.L k := by
    intro k
    refine List.sum_nonneg fun z hz => ?_
    obtain ⟨mp, hmp, rfl⟩ := List.mem_map.1 hz
    exact mul_nonneg (hat_nonneg _ k) (hm mp hmp)
  have et : ((points s.L).map fun mp => mp.m).sum = ∑ k, nodalMass P.G s.L k := by
    unfold nodalMass
    rw [list_sum_finset]
    refine congrArg List.sum (List.map_congr_left fun mp hmp => ?_)
    rw [← Finset.sum_mul, hat_sum hP (hx mp hmp), one_mul]
  have hle : ∀ k, (if P.M_tol < nodalMass P.G s.L k then nodalMass P.G s.L k else 0) *
        (nodalSpace P.G s.L k / s.G.V k) ≤ nodalMass P.G s.L k := by
    intro k
    split
    · exact mul_le_of_le_one_right (hn k) ((div_le_one (hV k)).2 (hs k))
    · rw [zero_mul]; exact hn k
  rw [e, et]
  refine ⟨Finset.sum_le_sum fun k _ => hle k, ?_⟩
  rintro ⟨k, h1, h2, h3⟩
  refine Finset.sum_lt_sum (fun k _ => hle k) ⟨k, Finset.mem_univ _, ?_⟩
  rw [if_pos h1]
  exact mul_lt_of_lt_one_right h2 ((div_lt_one (hV k)).2 h3)

theorem mkList_law {P : Par K} {g : K} {a : Phase K P.G.ns × PhaseInit K P.G.ns}
    {L : List (PhaseSt K P.G.ns)} (h : mkList P g [a] = .ok L) : ∀ A ∈ L, A.ph = { a.1 with n := A.ph.n } := by
  intro A hA
  have r := c64_points h
  cases r with
  | cons hab r =>
    cases r
    rw [List.mem_singleton] at hA
    rw [hA, hab.1]

/-- C122.  One phase everywhere: the first step leaves the density of the phase to all its points,
with joined sides or not. -/
theorem c122_full {P : Par K} {g : K} (hP : GoodGrid P.G) {p : ℕ} (hp : 0 < p)
    {a : Phase K P.G.ns × PhaseInit K P.G.ns} (ha : At (fullLayout P.G p (fun _ _ => true)) a)
    (hA : a.1.A = cellArea P.G p) {L : List (PhaseSt K P.G.ns)} (h : mkList P g [a] = .ok L)
    {Gr : Grid K P.G.N P.G.ns} (hGr : mkGrid P.G P.B = .ok Gr) (hV : ∀ k, 0 < Gr.V k)
    (hM : ∀ k, P.M_tol < a.1.par.rho * Gr.V k) (hr : a.1.law ≠ .rigid)
    (hi : P.B.inlet_right = false ∧ P.B.inlet_top = false)
    {d : Dyn K} {interp : Interp K P.G.N} {s' : St P} (h1 : timeMarch P interp ⟨d, L, Gr⟩ = .ok s') :
    ∀ mp ∈ points s'.L, mp.rho = a.1.par.rho := by
  have hgeo := mkGrid_geometry hGr
  have hx : ∀ mp ∈ points L, InDomain P.G mp.x := by
    intro mp hmp
    have hq := mkList_at ha h mp hmp
    rw [c97_full hP hp] at hq
    have := c97_inside hP hp (by have := hP.nx; omega) (by have := hP.ny; omega) hq
    exact ⟨⟨this.1.1.le, this.1.2⟩, this.2.1.le, this.2.2⟩
  have eV := (timeMarch_table h1).1.V
  have em : ∀ k, s'.G.m k = a.1.par.rho * Gr.V k := by
    intro k
    obtain ⟨s1, s2, s3, k1, k2, k3, k4⟩ := timeMarch_ok h1
    rw [(step_pressure k2 k3 k4).2]
    exact c98_density hP hp ha (Or.inl hA) h hGr k1 k
  have hlaw : ∀ A ∈ L, A.ph.law = a.1.law := fun A hA => by rw [mkList_law h A hA]
  intro b hb
  obtain ⟨B, hB, hb⟩ := List.mem_flatMap.1 hb
  obtain ⟨A, hA, -, evo, hev, hsub, -⟩ :=
    forall₂_right (c122_step hP (mkList_counted h) hgeo hx hi h1) hB
  obtain ⟨c, hc, -, -, -, hρ⟩ := forall₂_right hev (hsub.subset hb)
  rw [hρ (by rw [hlaw A hA]; exact hr), gridDensity]
  have : ∀ k, (if P.M_tol < s'.G.m k then s'.G.m k / s'.G.V k else 0) = a.1.par.rho := by
    intro k
    rw [em, eV, if_pos (hM k)]
    exact mul_div_cancel_right₀ _ (hV k).ne'
  simp only [this]
  rw [← Finset.sum_mul, hat_sum hP (hx c (List.mem_flatMap.2 ⟨A, hA, hc⟩)), one_mul]

/-- The mean of a product of column and row values at a place in cell `(i, j)`. -/
theorem hat_product {P : GP K} (hP : GoodGrid P) {mp : Particle K ns} {i j : ℕ}
    (hc : InCell P mp.x i j) (f g : ℕ → K) :
    ∑ k, hat P mp.x k * (f ((k : ℕ) % P.nx) * g ((k : ℕ) / P.nx)) =
      between ((mp.x 0 - nodeX P i) / cellX P) (f i) (f (i + 1)) *
      between ((mp.x 1 - nodeY P j) / cellY P) (g j) (g (j + 1)) := by
  choose nd hnd using fun r => corner_index hc.2.2.1 hc.2.2.2 r
  have hnode : ∀ r, (atCell P mp i j).node P.nx P.N r = .ok (nd r) := fun r => (hnd r).1
  have e := sum_nodes_smul hnode (fun k => f ((k : ℕ) % P.nx) * g ((k : ℕ) / P.nx))
  simp only [smul_eq_mul, weight_atCell hP hc, fun r => (hnd r).2.1, fun r => (hnd r).2.2] at e
  rw [← e]
  have n1 := (cellX_pos hP).ne'
  have n2 := (cellY_pos hP).ne'
  simp only [Fin.sum_univ_four, atCell, shapeN, cornerX, cornerY, between]
  simp
  field_simp
  ring

/-- C122.  A block of cells filled with one phase: after the first step the density of a point goes
linearly, in either direction, from that of one side of its cell to that of the other. On a line of
nodes it is the density of the phase times the share of the cells beside the line that are filled. -/
theorem c122_block {P : Par K} {g : K} (hP : GoodGrid P.G) (hth : P.G.thickness ≠ 0) {p i0 c j0 r : ℕ}
    (hp : 0 < p) (hc : i0 + c < P.G.nx) (hr : j0 + r < P.G.ny)
    {a : Phase K P.G.ns × PhaseInit K P.G.ns} (ha : At (block P.G i0 c j0 r p) a)
    (hA : a.1.A = cellArea P.G p) {L : List (PhaseSt K P.G.ns)} (h : mkList P g [a] = .ok L)
    {Gr : Grid K P.G.N P.G.ns} (hGr : mkGrid P.G P.B = .ok Gr) (hcy : P.B.cyclic_lr = false)
    (hM : ∀ k, nodalMass P.G L k = 0 ∨ P.M_tol < nodalMass P.G L k) (hl : a.1.law ≠ .rigid)
    (hi : P.B.inlet_right = false ∧ P.B.inlet_top = false)
    (ho : P.B.outlet_left = false ∧ P.B.outlet_bottom = false)
    {d : Dyn K} {interp : Interp K P.G.N} {s' : St P} (h1 : timeMarch P interp ⟨d, L, Gr⟩ = .ok s') :
    List.Forall₂ (fun e b => ∀ i j, InCell P.G e.x i j → b.rho = a.1.par.rho *
        (between ((e.x 0 - nodeX P.G i) / cellX P.G) (filledShare P.G.nx i0 c i)
            (filledShare P.G.nx i0 c (i + 1)) *
          between ((e.x 1 - nodeY P.G j) / cellY P.G) (filledShare P.G.ny j0 r j)
            (filledShare P.G.ny j0 r (j + 1)))) (points L) (points s'.L) := by
  have hgeo := mkGrid_geometry hGr
  have hcount := mkList_counted h
  have hx : ∀ mp ∈ points L, InDomain P.G mp.x := by
    intro mp hmp
    have := c97_inside hP hp hc hr (mkList_at ha h mp hmp)
    exact ⟨⟨this.1.1.le, this.1.2⟩, this.2.1.le, this.2.2⟩
  obtain ⟨em, eV⟩ := step_grid hP (s := ⟨d, L, Gr⟩) hcount hgeo hx hcy h1
  dsimp only at em eV
  have hp' : (p : K) ≠ 0 := by exact_mod_cast hp.ne'
  have n1 := (cellX_pos hP).ne'
  have n2 := (cellY_pos hP).ne'
  have hnode : ∀ k : Fin P.G.N, (if P.M_tol < s'.G.m k then s'.G.m k / s'.G.V k else 0) =
      a.1.par.rho * (filledShare P.G.nx i0 c ((k : ℕ) % P.G.nx) *
        filledShare P.G.ny j0 r ((k : ℕ) / P.G.nx)) := by
    intro k
    have hk1 : (k : ℕ) % P.G.nx < P.G.nx := Nat.mod_lt _ (by have := hP.nx; omega)
    have hk2 : (k : ℕ) / P.G.nx < P.G.ny := Nat.div_lt_of_lt_mul (by rw [Nat.mul_comm]; exact k.isLt)
    have e1 : (if P.M_tol < s'.G.m k then s'.G.m k / s'.G.V k else 0) =
        nodalMass P.G L k / Gr.V k := by
      rw [em, eV]
      rcases hM k with h | h
      · rw [h]; simp
      · rw [if_pos h]
    have h1 : (halfEnd P.G.nx ((k : ℕ) % P.G.nx) : K) ≠ 0 := by
      unfold halfEnd; split <;> norm_num
    have h2 : (halfEnd P.G.ny ((k : ℕ) / P.G.nx) : K) ≠ 0 := by
      unfold halfEnd; split <;> norm_num
    rw [e1, mkList_one h, c98_block hP hp ha h, hA, mkGrid_V hP hGr, hcy, cellArea, gridDx_eq, gridDy_eq]
    unfold filledShare
    rw [touching_all hP.nx hk1, touching_all hP.ny hk2]
    simp only [Bool.false_eq_true, if_false]
    field_simp
    ring
  refine forall₂_points ((forall₂_and_left (c122_step hP (s := ⟨d, L, Gr⟩) hcount hgeo hx hi h1)
    (p := fun A => A.ph.law = a.1.law) (fun A hA => by rw [mkList_law h A hA])).imp ?_)
  rintro A B ⟨hA, -, evo, hev, -, hB⟩
  rw [hB ho.1 ho.2]
  refine hev.imp ?_
  rintro e b ⟨-, -, -, hd⟩ i j hc
  rw [hd (by rw [hA]; exact hl), gridDensity, ← hat_product hP hc, Finset.mul_sum]
  refine Finset.sum_congr rfl fun k _ => ?_
  rw [hnode]
  ring

/-- C122.  A bed of `r` rows of cells on the floor, across the whole domain and not up to its top.
After the first step the points below the surface cells have the density of the phase, and those in
the surface cells less: a share `t` of the cell's height up, half of `t` is missing. It is below
eight tenths, where `pouliquen` sets the pressure to zero, in the upper three fifths of the cell. -/
theorem c122_bed {P : Par K} {g : K} (hP : GoodGrid P.G) (hth : P.G.thickness ≠ 0) {p r : ℕ}
    (hp : 0 < p) (hr0 : 0 < r) (hr : r < P.G.ny - 1)
    {a : Phase K P.G.ns × PhaseInit K P.G.ns} (ha : At (block P.G 0 (P.G.nx - 1) 0 r p) a)
    (hA : a.1.A = cellArea P.G p) {L : List (PhaseSt K P.G.ns)} (h : mkList P g [a] = .ok L)
    {Gr : Grid K P.G.N P.G.ns} (hGr : mkGrid P.G P.B = .ok Gr) (hcy : P.B.cyclic_lr = false)
    (hM : ∀ k, nodalMass P.G L k = 0 ∨ P.M_tol < nodalMass P.G L k) (hl : a.1.law ≠ .rigid)
    (hi : P.B.inlet_right = false ∧ P.B.inlet_top = false)
    (ho : P.B.outlet_left = false ∧ P.B.outlet_bottom = false) (hρ : 0 < a.1.par.rho)
    {d : Dyn K} {interp : Interp K P.G.N} {s' : St P} (h1 : timeMarch P interp ⟨d, L, Gr⟩ = .ok s') :
    List.Forall₂ (fun e b => ∀ i j, InCell P.G e.x i j →
      (j + 1 < r → b.rho = a.1.par.rho) ∧
      (j + 1 = r → b.rho = a.1.par.rho * (1 - (e.x 1 - nodeY P.G j) / cellY P.G / 2) ∧
        (b.rho < 8 / 10 * a.1.par.rho ↔ nodeY P.G j + 2 / 5 * cellY P.G < e.x 1)))
      (points L) (points s'.L) := by
  have hnx := hP.nx
  have hb := c122_block hP hth hp (i0 := 0) (c := P.G.nx - 1) (j0 := 0) (r := r) (by omega) (by omega)
    ha hA h hGr hcy hM hl hi ho h1
  have fx : ∀ i, i < P.G.nx → (filledShare P.G.nx 0 (P.G.nx - 1) i : K) = 1 := by
    intro i hi
    unfold filledShare
    rw [touching_all hP.nx hi, div_self]
    unfold halfEnd; split <;> norm_num
  have fy : ∀ j, j < r → (filledShare P.G.ny 0 r j : K) = 1 := by
    intro j hj
    unfold filledShare
    rw [touching_inner hj, touching_inner (show j < P.G.ny - 1 by omega), div_self]
    split <;> norm_num
  have fr : (filledShare P.G.ny 0 r r : K) = 1 / 2 := by
    unfold filledShare
    have := touching_all (K := K) (n := r + 1) (i := r) (by omega) (by omega)
    rw [Nat.add_sub_cancel] at this
    rw [this, touching_inner hr, if_neg (by omega)]
    unfold halfEnd
    rw [if_pos (by omega)]
    norm_num
  refine hb.imp fun e b hb i j hc => ?_
  have hij := hc.2.2
  have hcy := cellY_pos hP
  have e1 := hb i j hc
  rw [fx i (by omega), fx (i + 1) (by omega)] at e1
  constructor
  · intro hj
    rw [e1, fy j (by omega), fy (j + 1) (by omega)]
    unfold between; ring
  · intro hj
    have e2 : b.rho = a.1.par.rho * (1 - (e.x 1 - nodeY P.G j) / cellY P.G / 2) := by
      rw [e1, fy j (by omega), hj, fr]
      unfold between; ring
    refine ⟨e2, ?_⟩
    rw [e2, mul_comm, mul_lt_mul_iff_left₀ hρ]
    constructor
    · intro h
      have : 2 / 5 < (e.x 1 - nodeY P.G j) / cellY P.G := by linarith
      rw [lt_div_iff₀ hcy] at this
      linarith
    · intro h
      have : 2 / 5 < (e.x 1 - nodeY P.G j) / cellY P.G := by rw [lt_div_iff₀ hcy]; linarith
      linarith

theorem pouliquen_low {c : LawCtx K ns} {mp mp' : Particle K ns} {l : List (Vis × XF K)}
    (h : runLaw .pouliquen c mp = .ok (mp', l)) (hr : mp.rho < 8 / 10 * c.mat.rho) :
    mp'.pressure = 0 := by
  simp only [runLaw, lawPouliquen] at h
  obtain ⟨⟨m0, dm, i0⟩, hm, h⟩ := res_bind_ok.1 h
  split at h
  · cases h
  split at h
  · have e := congrArg (fun z => z.1.pressure) (Except.ok.inj h)
    rw [← e]
    exact if_pos (.inr (by rw [mul_comm]; exact hr))
  · cases h

/-- C122.  In every step the points of a `pouliquen` phase with a density below eight tenths of that
of the phase lose their pressure, whatever it was and whatever the deformation. -/
theorem c122_low {P : Par K} {interp : Interp K P.G.N} {s s' : St P} (hL : Counted s.L)
    (hi : P.B.inlet_right = false ∧ P.B.inlet_top = false) (h : timeMarch P interp s = .ok s') :
    List.Forall₂ (fun A B => A.ph.law = .pouliquen → ∃ evo, List.Forall₂ (fun a b =>
        a.rho < 8 / 10 * A.ph.par.rho → b.pressure = 0) A.pts evo ∧ B.pts.Sublist evo ∧
      (P.B.outlet_left = false → P.B.outlet_bottom = false → B.pts = evo)) s.L s'.L := by
  obtain ⟨T, s1, s2, s3, h1, e1, h2, h3, h4, h5, hR⟩ := timeMarch_idx hL h
  refine hR.forall₂ ?_
  rintro p A B ⟨e, -, evo, kept, new, hev, -, hk, hke, hin, -, hB⟩ hl
  rw [hin hi.1 hi.2, List.append_nil] at hB
  rw [hB]
  refine ⟨evo, hev.imp ?_, hk, hke⟩
  rintro a b ⟨a2, a3, a4, a5, a6, g2, g3, ⟨_, _, g4⟩, g5, g6, g7⟩ hρ
  rw [hl] at g4
  obtain ⟨c1, c2, l, u1, u2, -, u4⟩ := stressStrain_ok g4
  have r3 : a3.rho = a.rho := by
    rw [(locate_one g2 g3).eq]
    unfold Particle.incrementGravity; split <;> rfl
  have hp2 : c2.pressure = 0 := by
    refine pouliquen_low u2 ?_
    rw [(updateStrain_frame u1).1.rho, r3]
    exact hρ
  have hp4 : a4.pressure = 0 := by rw [u4]; exact hp2
  have hp5 : a5.pressure = 0 := by rw [g5.frame]; exact hp4
  have hp6 : a6.pressure = 0 := by
    rcases g6 with ⟨-, rfl⟩ | ⟨-, iv, iv', g6⟩
    · exact hp5
    · obtain ⟨nd, -, -, e1⟩ := move_ok g6
      have : a6.pressure = a5.pressure := congrArg (fun z => z.1.pressure) e1
      rw [this, hp5]
  rw [g7]
  unfold wrapped
  split <;> exact hp6

end

/-! ## The hypotheses can be met -/

/-- A bed of one row of two cells, with one point in each, below an empty row. -/
example : ∃ L Gr s', mkList Ex.par (-10) [Ex.placed Ex.ph (block Ex.gp 0 2 0 1 1) 1] = .ok L ∧
    cellArea Ex.gp 1 = 1 ∧ mkGrid Ex.par.G Ex.par.B = .ok Gr ∧
    (∀ k, nodalMass Ex.par.G L k = 0 ∨ Ex.par.M_tol < nodalMass Ex.par.G L k) ∧
    (∀ k, 0 < Gr.V k) ∧ (∀ k, nodalSpace Ex.par.G L k ≤ Gr.V k) ∧
    (∃ k, Ex.par.M_tol < nodalMass Ex.par.G L k ∧ 0 < nodalMass Ex.par.G L k ∧
      nodalSpace Ex.par.G L k < Gr.V k) ∧
    timeMarch Ex.par (Ex.noInterp _) ⟨Ex.dyn, L, Gr⟩ = .ok s' ∧
    (points s'.L).map (·.rho) = [3 / 4, 3 / 4] := by
  obtain ⟨⟨L, Gr, s'⟩, e, h⟩ := Ex.okAnd_ok (r := (do
      let L ← mkList Ex.par (-10) [Ex.placed Ex.ph (block Ex.gp 0 2 0 1 1) 1]
      let Gr ← mkGrid Ex.par.G Ex.par.B
      let s' ← timeMarch Ex.par (Ex.noInterp _) ⟨Ex.dyn, L, Gr⟩
      return (L, Gr, s') : Res (_ × _ × St Ex.par)))
    (check := fun x => decide ((∀ k, nodalMass Ex.par.G x.1 k = 0 ∨ Ex.par.M_tol < nodalMass Ex.par.G x.1 k) ∧
      (∀ k, 0 < x.2.1.V k) ∧ (∀ k, nodalSpace Ex.par.G x.1 k ≤ x.2.1.V k) ∧
      (Ex.par.M_tol < nodalMass Ex.par.G x.1 ⟨3, by decide⟩ ∧ 0 < nodalMass Ex.par.G x.1 ⟨3, by decide⟩ ∧
        nodalSpace Ex.par.G x.1 ⟨3, by decide⟩ < x.2.1.V ⟨3, by decide⟩) ∧
      (points x.2.2.L).map (·.rho) = [3 / 4, 3 / 4])) (by decide +kernel)
  obtain ⟨L', h1, e⟩ := res_bind_ok.1 e
  obtain ⟨Gr', h2, e⟩ := res_bind_ok.1 e
  obtain ⟨s1', h3, e⟩ := res_bind_ok.1 e
  cases e
  exact ⟨L, Gr, s', h1, by norm_num [cellArea, gridDx, gridDy, linspace, Ex.gp], h2,
    (of_decide_eq_true h).1, (of_decide_eq_true h).2.1, (of_decide_eq_true h).2.2.1,
    ⟨_, (of_decide_eq_true h).2.2.2.1⟩, h3, (of_decide_eq_true h).2.2.2.2⟩

/-- All four cells filled. -/
example : ∃ L Gr s',
    mkList Ex.par (-10) [Ex.placed Ex.ph (fullLayout Ex.gp 1 (fun _ _ => true)) 1] = .ok L ∧
    mkGrid Ex.par.G Ex.par.B = .ok Gr ∧ (∀ k, Ex.par.M_tol < Ex.ph.par.rho * Gr.V k) ∧
    timeMarch Ex.par (Ex.noInterp _) ⟨Ex.dyn, L, Gr⟩ = .ok s' ∧ (points s'.L).length = 4 := by
  obtain ⟨⟨L, Gr, s'⟩, e, h⟩ := Ex.okAnd_ok (r := (do
      let L ← mkList Ex.par (-10) [Ex.placed Ex.ph (fullLayout Ex.gp 1 (fun _ _ => true)) 1]
      let Gr ← mkGrid Ex.par.G Ex.par.B
      let s' ← timeMarch Ex.par (Ex.noInterp _) ⟨Ex.dyn, L, Gr⟩
      return (L, Gr, s') : Res (_ × _ × St Ex.par)))
    (check := fun x => decide ((∀ k, Ex.par.M_tol < Ex.ph.par.rho * x.2.1.V k) ∧
      (points x.2.2.L).length = 4)) (by decide +kernel)
  obtain ⟨L', h1, e⟩ := res_bind_ok.1 e
  obtain ⟨Gr', h2, e⟩ := res_bind_ok.1 e
  obtain ⟨s1', h3, e⟩ := res_bind_ok.1 e
  cases e
  exact ⟨L, Gr, s', h1, h2, (of_decide_eq_true h).1, h3, (of_decide_eq_true h).2⟩

/-- Loose grains under pressure. -/
def Ex.looseL : List (PhaseSt ℚ 2) :=
  [{ ph := { Ex.ph with
        law := .pouliquen
        par := { Ex.mat with mu_0 := .arr [1, 1], delta_mu := .arr [1, 1], I_0 := .arr [1, 1] } }
     pts := [{ Ex.mp with rho := 1 / 2, pressure := -3 }, { Ex.mp2 with pressure := -3 }] }]

/-- The loose one of two points loses its pressure, the other keeps some. -/
example : ∃ Gr s', mkGrid Ex.par.G Ex.par.B = .ok Gr ∧
    timeMarch Ex.par (Ex.noInterp _) ⟨Ex.dyn, Ex.looseL, Gr⟩ = .ok s' ∧
    (points s'.L).map (fun mp => decide (mp.pressure = 0)) = [true, false] := by
  obtain ⟨⟨Gr, s'⟩, e, h⟩ := Ex.okAnd_ok (r := (do
      let Gr ← mkGrid Ex.par.G Ex.par.B
      let s' ← timeMarch Ex.par (Ex.noInterp _) ⟨Ex.dyn, Ex.looseL, Gr⟩
      return (Gr, s') : Res (_ × St Ex.par)))
    (check := fun x => decide
      ((points x.2.L).map (fun mp => decide (mp.pressure = 0)) = [true, false])) (by decide +kernel)
  obtain ⟨Gr', h2, e⟩ := res_bind_ok.1 e
  obtain ⟨s1', h3, e⟩ := res_bind_ok.1 e
  cases e
  exact ⟨Gr, s', h2, h3, of_decide_eq_true h⟩

end Mpm

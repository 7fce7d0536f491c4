import Verif.Lemmas.Transpose
import Verif.Lemmas.SymMarch
import Verif.Props.Volume
import Verif.Props.Boundary
import Verif.ExRun

/-!
# C114: the two axes are treated alike
-/

set_option linter.unusedSectionVars false

namespace Mpm
open Spec

namespace Spec
variable {K : Type} [Field K] [LinearOrder K] {ns : ℕ}

/-- Options that make sense along both axes: walls along the edges, frictionless, no belt, no
periodic sides, no inlets or outlets. -/
structure BothAxes (B : BP K) : Prop where
  edges : OnlyEdges B
  no_slip : B.no_slip_bottom = false
  friction : B.roughness = true → B.wall_mu = 0
  conveyor : B.conveyor = false
  cyclic : B.cyclic_lr = false
  outlet_left : B.outlet_left = false
  outlet_bottom : B.outlet_bottom = false
  inlet_right : B.inlet_right = false
  inlet_top : B.inlet_top = false

/-- The same options with the axes exchanged: bottom and left, top and right. -/
def swapB (B : BP K) : BP K :=
  { B with
    has_bottom := B.has_left, has_left := B.has_bottom
    has_top := B.has_right, has_right := B.has_top
    vertical_force := B.horizontal_force, horizontal_force := B.vertical_force }

/-- The parameters with the axes exchanged. -/
abbrev swapPar (P : Par K) : Par K := (transpose K P.G.nx P.G.ny).par P (swapB P.B)

/-- A point with the axes exchanged, on a grid with `nx` by `ny` nodes. -/
abbrev swapPt (nx ny : ℕ) (mp : Particle K ns) : Particle K ns := (transpose K nx ny).pt mp

/-- A state with the axes exchanged. -/
abbrev swapSt {P : Par K} (s : St P) : St (swapPar P) :=
  (transpose K P.G.nx P.G.ny).st (swapB P.B) 1 s

/-- The interpolation of nodal fields with the axes exchanged. -/
abbrev swapInterp {P : Par K} (interp : Interp K P.G.N) : Interp K (swapPar P).G.N :=
  (transpose K P.G.nx P.G.ny).interp interp

end Spec

section
variable {K : Type} [Field K] [LinearOrder K] [IsStrictOrderedRing K] [FloorRing K] {ns nx ny : ℕ}

/-! ## What exchanging the axes means -/

/-- C114: the parameters with the axes exchanged: the other extents, the other numbers of nodes,
gravity along the other axis, and the loads exchanged. -/
theorem c114_par (P : Par K) :
    (swapPar P).G.nx = P.G.ny ∧ (swapPar P).G.ny = P.G.nx ∧
    (swapPar P).G.x_m = P.G.y_m ∧ (swapPar P).G.x_M = P.G.y_M ∧
    (swapPar P).G.y_m = P.G.x_m ∧ (swapPar P).G.y_M = P.G.x_M ∧
    (swapPar P).G.dx = P.G.dy ∧ (swapPar P).G.dy = P.G.dx ∧
    (swapPar P).sinθ = P.cosθ ∧ (swapPar P).cosθ = P.sinθ ∧
    (swapPar P).B = swapB P.B ∧
    (∀ t, (swapPar P).forces t = ((P.forces t).1, (P.forces t).2.2, (P.forces t).2.1)) ∧
    (swapPar P).intruder_v = ![P.intruder_v 1, P.intruder_v 0, P.intruder_v 2] ∧
    (swapPar P).max_g = P.max_g ∧ (swapPar P).damping = P.damping ∧
    (swapPar P).segregate_grid = P.segregate_grid := by
  refine ⟨rfl, rfl, rfl, rfl, rfl, rfl, rfl, rfl, one_mul _, one_mul _, rfl, fun _ => rfl, ?_, rfl, rfl,
    rfl⟩
  exact transpose_v (nx := P.G.nx) (ny := P.G.ny) P.intruder_v

theorem transpose_m (M : Mat K) :
    (transpose K nx ny).A.m M = !![M 1 1, M 1 0, M 1 2; M 0 1, M 0 0, M 0 2; M 2 1, M 2 0, M 2 2] := by
  funext i j
  have h2 : (Equiv.swap (0 : Fin 3) 1) 2 = 2 := by decide
  fin_cases i <;> fin_cases j <;> simp [Axes.m, Axes.f, Axes.p, transpose, h2]

/-- C114: the point with the axes exchanged: the components of position, velocity, stress and
strain are exchanged; everything else is the same. -/
theorem c114_pt (mp : Particle K ns) :
    (swapPt nx ny mp).x = ![mp.x 1, mp.x 0, mp.x 2] ∧
    (∀ v, mp.v = .own v → (swapPt nx ny mp).v = .own ![v 1, v 0, v 2]) ∧
    (mp.v = .shared → (swapPt nx ny mp).v = .shared) ∧
    (swapPt nx ny mp).stress = !![mp.stress 1 1, mp.stress 1 0, mp.stress 1 2;
      mp.stress 0 1, mp.stress 0 0, mp.stress 0 2; mp.stress 2 1, mp.stress 2 0, mp.stress 2 2] ∧
    (swapPt nx ny mp).strain = !![mp.strain 1 1, mp.strain 1 0, mp.strain 1 2;
      mp.strain 0 1, mp.strain 0 0, mp.strain 0 2; mp.strain 2 1, mp.strain 2 0, mp.strain 2 2] ∧
    (swapPt nx ny mp).sigmav = mp.sigmah ∧ (swapPt nx ny mp).sigmah = mp.sigmav ∧
    (swapPt nx ny mp).m = mp.m ∧ (swapPt nx ny mp).V = mp.V ∧ (swapPt nx ny mp).rho = mp.rho ∧
    (swapPt nx ny mp).phi = mp.phi ∧ (swapPt nx ny mp).pressure = mp.pressure ∧
    (swapPt nx ny mp).gammadot = mp.gammadot := by
  refine ⟨?_, ?_, ?_, transpose_m _, transpose_m _, rfl, rfl, rfl, rfl, rfl, rfl, rfl, rfl⟩
  · change (transpose K nx ny).A.v mp.x + 0 = _
    rw [add_zero, transpose_v]
  · intro v h
    change (transpose K nx ny).A.ref mp.v = _
    rw [h]
    exact congrArg VRef.own (transpose_v v)
  · intro h
    change (transpose K nx ny).A.ref mp.v = _
    rw [h]
    rfl

/-- C114: the node in column `j`, row `i` has what the node in column `i`, row `j` had, with the
components of vectors exchanged. -/
theorem c114_nodes {P : Par K} (s : St P) (i : Fin P.G.nx) (j : Fin P.G.ny) :
    (swapSt s).G.m (mkNode (nx := P.G.ny) (ny := P.G.nx) j i) = s.G.m (mkNode i j) ∧
    (swapSt s).G.q (mkNode (nx := P.G.ny) (ny := P.G.nx) j i) =
      ![s.G.q (mkNode i j) 1, s.G.q (mkNode i j) 0, s.G.q (mkNode i j) 2] ∧
    (swapSt s).G.V (mkNode (nx := P.G.ny) (ny := P.G.nx) j i) = s.G.V (mkNode i j) ∧
    (swapSt s).G.boundary_h (mkNode (nx := P.G.ny) (ny := P.G.nx) j i) =
      s.G.boundary_v (mkNode i j) ∧
    (swapSt s).G.boundary_v (mkNode (nx := P.G.ny) (ny := P.G.nx) j i) =
      s.G.boundary_h (mkNode i j) ∧
    (swapSt s).G.vis .sigmav (mkNode (nx := P.G.ny) (ny := P.G.nx) j i) =
      s.G.vis .sigmah (mkNode i j) ∧
    (swapSt s).G.vis .pressure (mkNode (nx := P.G.ny) (ny := P.G.nx) j i) =
      s.G.vis .pressure (mkNode i j) ∧
    (swapSt s).G.phi (mkNode (nx := P.G.ny) (ny := P.G.nx) j i) = s.G.phi (mkNode i j) ∧
    (swapSt s).G.pk (mkNode (nx := P.G.ny) (ny := P.G.nx) j i) = s.G.pk (mkNode i j) := by
  have e : (transpose K P.G.nx P.G.ny).e.symm (mkNode (nx := P.G.ny) (ny := P.G.nx) j i) =
      mkNode i j := by
    change mkNode (rowF (mkNode j i)) (colF (mkNode j i)) = _
    rw [rowF_mkNode, colF_mkNode]
  refine ⟨congrArg s.G.m e, ?_, congrArg s.G.V e, congrArg s.G.boundary_v e,
    congrArg s.G.boundary_h e, congrArg (s.G.vis .sigmah) e, congrArg (s.G.vis .pressure) e,
    congrArg s.G.phi e, congrArg s.G.pk e⟩
  exact (congrArg (fun k => (transpose K P.G.nx P.G.ny).A.v (s.G.q k)) e).trans (transpose_v _)

/-! ## The grid -/

theorem boundaryV_edges {B : BP K} (hB : OnlyEdges B) (hn : B.no_slip_bottom = false)
    (k : Fin (ny * nx)) : boundaryV B nx ny k = true ↔
      (B.has_left = true ∧ (k : ℕ) % nx = 0) ∨ (B.has_right = true ∧ (k : ℕ) % nx = nx - 1) := by
  simp only [boundaryV, markIf_iff, hB.wall, hB.two_walls, hB.silo_left, hB.box, hn,
    Bool.false_eq_true, false_and, false_or, or_false]
  rw [← inLeft_iff, ← inRight_iff]
  unfold inLeft inRight
  tauto

theorem boundaryH_edges {B : BP K} (hB : OnlyEdges B)
    (k : Fin (ny * nx)) : boundaryH B nx ny k = true ↔
      (B.has_bottom = true ∧ (k : ℕ) / nx = 0) ∨ (B.has_top = true ∧ (k : ℕ) / nx = ny - 1) := by
  simp only [boundaryH, markIf_iff, hB.silo_bottom, hB.box, Bool.false_eq_true, false_and,
    false_or, or_false]
  rw [← inBottom_iff, ← inTop_iff]
  exact or_comm

theorem Spec.BothAxes.swapB {B : BP K} (h : BothAxes B) : BothAxes (Spec.swapB B) :=
  ⟨⟨h.edges.wall, h.edges.two_walls, h.edges.silo_left, h.edges.silo_bottom, h.edges.box⟩,
    h.no_slip, h.friction, h.conveyor, h.cyclic, h.outlet_left, h.outlet_bottom, h.inlet_right,
    h.inlet_top⟩

theorem boundaryV_T {B : BP K} (h : BothAxes B) (k : Fin (nx * ny)) :
    boundaryV (Spec.swapB B) ny nx k = boundaryH B nx ny (mkNode (rowF k) (colF k)) := by
  rw [Bool.eq_iff_iff, boundaryV_edges h.swapB.edges h.swapB.no_slip, boundaryH_edges h.edges,
    mkNode_row]
  rfl

theorem boundaryH_T {B : BP K} (h : BothAxes B) (k : Fin (nx * ny)) :
    boundaryH (Spec.swapB B) ny nx k = boundaryV B nx ny (mkNode (rowF k) (colF k)) := by
  rw [Bool.eq_iff_iff, boundaryH_edges h.swapB.edges, boundaryV_edges h.edges h.no_slip,
    mkNode_col]
  rfl

theorem volume_T {P : Par K} (hP : GoodGrid P.G) (h : BothAxes P.B) (k : Fin (P.G.nx * P.G.ny)) :
    nodeVolume (swapPar P).G (Spec.swapB P.B) k = nodeVolume P.G P.B (mkNode (rowF k) (colF k)) := by
  unfold nodeVolume
  have e1 := weighting_eq hP.ny hP.nx (Spec.swapB P.B) k
  have e2 := weighting_eq hP.nx hP.ny P.B (mkNode (rowF k) (colF k))
  have hc : (Spec.swapB P.B).cyclic_lr = false := h.cyclic
  rw [hc, if_neg Bool.false_ne_true] at e1
  rw [h.cyclic, if_neg Bool.false_ne_true, mkNode_row, mkNode_col] at e2
  have e3 : weighting (Spec.swapB P.B) (swapPar P).G.nx (swapPar P).G.ny k =
      weighting P.B P.G.nx P.G.ny (mkNode (rowF k) (colF k)) := by
    refine e1.trans (Eq.trans ?_ e2.symm)
    rw [mul_comm]
    rfl
  have hx : gridDx (swapPar P).G = gridDy P.G := rfl
  have hy : gridDy (swapPar P).G = gridDx P.G := rfl
  have ht : (swapPar P).G.thickness = P.G.thickness := rfl
  rw [e3, hx, hy, ht]
  ring

theorem gridX_T (P : Par K) (k : Fin (P.G.nx * P.G.ny)) :
    gridX (swapPar P).G k = gridY P.G (mkNode (rowF k) (colF k)) := by
  change nodeX (swapPar P).G ((k : ℕ) % P.G.ny) = nodeY P.G (((mkNode (rowF k) (colF k) : Fin _) : ℕ) / P.G.nx)
  rw [mkNode_row]
  rfl

theorem gridY_T (P : Par K) (k : Fin (P.G.nx * P.G.ny)) :
    gridY (swapPar P).G k = gridX P.G (mkNode (rowF k) (colF k)) := by
  change nodeY (swapPar P).G ((k : ℕ) / P.G.ny) = nodeX P.G (((mkNode (rowF k) (colF k) : Fin _) : ℕ) % P.G.nx)
  rw [mkNode_col]
  rfl

/-- C114: the grid of the exchanged set-up is the exchanged grid. -/
theorem c114_grid {P : Par K} (hP : GoodGrid P.G) (h : BothAxes P.B) {G : Grid K P.G.N P.G.ns}
    (hG : mkGrid P.G P.B = .ok G) (d : Dyn K) (L : List (PhaseSt K P.G.ns)) :
    mkGrid (swapPar P).G (swapPar P).B =
      .ok (swapSt { dyn := d, L := L, G := G } : St (swapPar P)).G := by
  have h1 : ¬ (P.G.nx < 2 ∨ P.G.ny < 2) := by
    have := hP.nx
    have := hP.ny
    omega
  have h2 : ¬ ((swapPar P).G.nx < 2 ∨ (swapPar P).G.ny < 2) := fun h => h1 h.symm
  unfold mkGrid at hG ⊢
  rw [if_neg h1] at hG
  rw [if_neg h2]
  cases hG
  refine congrArg Except.ok ?_
  have hc : P.B.conveyor = false := h.conveyor
  have hc' : (swapPar P).B.conveyor = false := h.conveyor
  rw [hc, hc']
  simp only [Grid.wipe, Sym.st, Sym.grid]
  congr 1
  · funext k
    exact (gridX_T P k).trans (by rw [v_zero_comp]; exact (one_mul _).symm.trans (add_zero _).symm)
  · funext k
    exact (gridY_T P k).trans (by rw [v_one_comp]; exact (one_mul _).symm.trans (add_zero _).symm)
  · funext k
    exact boundaryV_T h k
  · funext k
    exact boundaryH_T h k
  · funext k
    exact (congrArg₂ or (boundaryV_T h k) (boundaryH_T h k)).trans (Bool.or_comm _ _)
  · funext k
    exact volume_T hP h k
  · funext k; exact (Axes.v_zero).symm
  · funext k; exact (Axes.v_zero).symm
  · funext k; exact (Axes.v_zero).symm
  · funext k; exact (Axes.v_zero).symm
  · funext k; exact (Axes.v_zero).symm
  · funext v k
    change _ = if v = .gammadot then signX 1 (XF.fin 0) else XF.fin 0
    split_ifs
    · simp [signX]
    · rfl
  · funext k; exact (Axes.v_zero).symm

/-! ## The simulation -/

theorem Spec.BothAxes.flags {B : BP K} (h : BothAxes B) :
    (transpose K nx ny).Flags B (Spec.swapB B) :=
  ⟨rfl, rfl, rfl, rfl, rfl, rfl, ⟨h.outlet_left, h.outlet_bottom, h.inlet_right, h.inlet_top⟩,
    ⟨h.outlet_left, h.outlet_bottom, h.inlet_right, h.inlet_top⟩, h.friction,
    fun hc => absurd (h.conveyor.symm.trans hc) Bool.false_ne_true,
    fun hc => absurd (h.cyclic.symm.trans hc) Bool.false_ne_true⟩

/-- Two states that agree in everything except the nodal viscosity. -/
def Spec.SameButEta {P : Par K} (s t : St P) : Prop :=
  s.dyn = t.dyn ∧ s.L = t.L ∧ (∀ v, v ≠ .eta → s.G.vis v = t.G.vis v) ∧
    ({ s.G with vis := t.G.vis } : Grid K P.G.N P.G.ns) = t.G

theorem sameButEta_of_tidy {P : Par K} {s t : St P} (h : tidy true s = tidy true t) :
    SameButEta s t := by
  obtain ⟨d, L, G⟩ := s
  obtain ⟨d', L', G'⟩ := t
  simp only [tidy, if_true, dropEta, St.mk.injEq] at h
  obtain ⟨hd, hL, hG⟩ := h
  refine ⟨hd, hL, fun v hv => ?_, ?_⟩
  · have := congrArg (fun G : Grid K P.G.N P.G.ns => G.vis v) hG
    simpa [hv] using this
  · have := congrArg (fun G : Grid K P.G.N P.G.ns => { G with vis := G'.vis }) hG
    exact this

/-- C114: exchanging the two axes (extents, numbers of nodes, walls, loads, gravity, and all
components of the points) exchanges the axes of every later state, and of every failure.
The nodal viscosity is the one value left out, and the law `ken_kamrin`, which uses the height of
the domain, must see the same height. -/
theorem c114_steps {P : Par K} {interp : Interp K P.G.N} (hP : GoodGrid P.G) (hB : BothAxes P.B)
    {n : ℕ} {s : St P} (g : Geometry P.G s.G) (hc : Counted s.L)
    (hin : ∀ m < n, ∀ s', steps P interp m s = .ok s' → ∀ mp ∈ points s'.L, InDomain P.G mp.x)
    (hH : P.G.x_M - P.G.x_m = P.G.y_M - P.G.y_m ∨ ∀ a ∈ s.L, a.ph.law ≠ .ken_kamrin) :
    (∀ s', steps P interp n s = .ok s' →
      ∃ t, steps (swapPar P) (swapInterp interp) n (swapSt s) = .ok t ∧ SameButEta t (swapSt s')) ∧
    (∀ e, steps P interp n s = .error e →
      steps (swapPar P) (swapInterp interp) n (swapSt s) = .error e) := by
  have h := steps_sym (S := transpose K P.G.nx P.G.ny) transpose_ok hB.flags (transpose_geo hP)
    (interp := interp) (.inl ⟨rfl, rfl⟩) n g hc (fun m hm s' hs a ha mp hmp => ?_) (fun _ => hH)
  · have e1 : (transpose K P.G.nx P.G.ny).A.fx * (transpose K P.G.nx P.G.ny).A.fy = (1 : K) :=
      mul_one _
    rw [e1] at h
    change (tidy true <$> steps (swapPar P) (swapInterp interp) n (swapSt s)) =
      (fun s => tidy true (swapSt s)) <$> steps P interp n s at h
    constructor
    · intro s' hs
      rw [hs] at h
      cases ht : steps (swapPar P) (swapInterp interp) n (swapSt s) with
      | error e => rw [ht] at h; cases h
      | ok t =>
        rw [ht] at h
        exact ⟨t, rfl, sameButEta_of_tidy (Except.ok.inj h)⟩
    · intro e hs
      rw [hs] at h
      cases ht : steps (swapPar P) (swapInterp interp) n (swapSt s) with
      | ok t => rw [ht] at h; cases h
      | error e' =>
        rw [ht] at h
        exact congrArg Except.error (Except.error.inj h)
  · exact hin m hm s' hs mp (List.mem_flatMap.2 ⟨a, ha, hmp⟩)

/-! ## Where the axes are not treated alike -/

/-- C114: with segregation the nodal viscosity is added up between the left and the right column
even where the sides are not periodic (MPM.py:38), and never between the bottom and the top row. -/
theorem c114_eta {P : Par K} {interp : Interp K P.G.N} {s s' : St P} (hs : P.segregate_grid = true)
    (h : segregationPhase P interp s = .ok s') (hnx : 2 ≤ P.G.nx) (i : Fin P.G.nx) (j : Fin P.G.ny) :
    s'.G.vis .eta (mkNode i j) =
      if (i : ℕ) = 0 ∨ (i : ℕ) = P.G.nx - 1 then
        s.G.vis .eta (mkNode i j) + s.G.vis .eta (mkNode i.rev j) else s.G.vis .eta (mkNode i j) := by
  unfold segregationPhase at h
  rw [if_pos hs] at h
  split_ifs at h with h0
  obtain ⟨L, -, h⟩ := res_bind_ok.1 h
  cases h
  have hl : ∀ a : Fin (P.G.ny * P.G.nx) → XF K, makeCyclic a (mkNode i j) =
      if (i : ℕ) = 0 ∨ (i : ℕ) = P.G.nx - 1 then a (mkNode i j) + a (mkNode i.rev j)
      else a (mkNode i j) := by
    intro a
    unfold makeCyclic
    simp only [mkNode_col]
    by_cases h1 : (i : ℕ) = 0
    · have h2 : ¬ (i : ℕ) = P.G.nx - 1 := by omega
      rw [if_neg h2, if_pos h1, if_pos (.inl h1)]
      congr 2
      refine node_ext ?_ ?_
      · rw [rightOf_row, mkNode_row, mkNode_row]
      · rw [rightOf_col, mkNode_col, Fin.val_rev]
        omega
    · by_cases h2 : (i : ℕ) = P.G.nx - 1
      · rw [if_pos h2, if_neg h1, if_pos (.inr h2)]
        congr 2
        refine node_ext ?_ ?_
        · rw [leftOf_row, mkNode_row, mkNode_row]
        · rw [leftOf_col, mkNode_col, Fin.val_rev]
          omega
      · rw [if_neg h2, if_neg h1, if_neg (fun h => h.elim h1 h2)]
  exact hl _

/-- C114: the most viscous state of `ken_kamrin` goes with the third power of the height of the
domain, so with the axes exchanged it goes with the third power of the width instead. -/
theorem c114_height (c : LawCtx K ns) (I_0 p γ rho : K) (H H' : K)
    (h : 250 * rho * c.max_g * H ^ 3 < kenKamrinEta { c with height := H' } I_0 p γ rho) :
    kenKamrinEta { c with height := H } I_0 p γ rho ≠
      kenKamrinEta { c with height := H' } I_0 p γ rho := by
  have h1 : kenKamrinEta { c with height := H } I_0 p γ rho ≤ 250 * rho * c.max_g * H ^ 3 :=
    min_le_right _ _
  exact (h1.trans_lt h).ne

end
/-! ## The hypotheses can be met -/

namespace Ex

/-- Three columns and four rows of nodes, walls at the bottom and on the left, load from above. -/
def parWide : Par ℚ :=
  { par with
    G := { gp with y_M := 3, ny := 4 }
    B := { bp with has_bottom := true, has_left := true, roughness := true, vertical_force := true }
    forces := fun _ => (-10, 2, 0) }

theorem goodWide : GoodGrid parWide.G := by constructor <;> simp [parWide, gp]

theorem bothWide : BothAxes parWide.B := by
  constructor <;> first | (constructor <;> rfl) | simp [parWide, bp]

/-- A grid with a force at the node next to the lower left corner. -/
def corner (ny nx n : ℕ) (f : Vec ℚ) : Res (Grid ℚ (ny * nx) 2) := do
  let G ← mkGrid { gp with nx := nx, ny := ny } { bp with has_bottom := true, has_left := true }
  return { (G : Grid ℚ (ny * nx) 2) with fe := fun i => if (i : ℕ) = n then f else 0 }

end Ex

/-- A run with the axes exchanged. -/
example : ∃ G s' t, mkGrid Ex.parWide.G Ex.parWide.B = .ok G ∧
    mkGrid (swapPar Ex.parWide).G (swapPar Ex.parWide).B =
      .ok (swapSt (P := Ex.parWide) { dyn := Ex.dyn, L := Ex.L, G := G }).G ∧
    steps Ex.parWide (Ex.noInterp Ex.parWide) 2 { dyn := Ex.dyn, L := Ex.L, G := G } = .ok s' ∧
    steps (swapPar Ex.parWide) (swapInterp (P := Ex.parWide) (Ex.noInterp Ex.parWide)) 2
      (swapSt (P := Ex.parWide) { dyn := Ex.dyn, L := Ex.L, G := G }) = .ok t ∧
    SameButEta t (swapSt s') := by
  obtain ⟨G, s', hG, hs, -⟩ := Ex.run_ok (P := Ex.parWide) (d := Ex.dyn) (L := Ex.L) (n := 2)
    (check := fun _ => true) (by decide +kernel)
  obtain ⟨G', s1, hG', hs1, hc⟩ := Ex.run_ok (P := Ex.parWide) (d := Ex.dyn) (L := Ex.L) (n := 1)
    (check := fun s => (points s.L).all fun mp => decide (0 ≤ mp.x 0 ∧ mp.x 0 < 2) &&
      decide (0 ≤ mp.x 1 ∧ mp.x 1 < 3)) (by decide +kernel)
  rw [hG] at hG'
  cases hG'
  obtain ⟨t, ht, hst⟩ := (c114_steps (P := Ex.parWide) Ex.goodWide Ex.bothWide (n := 2)
    (mkGrid_geometry hG) Ex.countedL (fun m hm s2 h2 => by
      interval_cases m
      · cases h2
        intro mp hmp
        have := Ex.inDomainL mp hmp
        refine ⟨this.1, this.2.1, this.2.2.trans ?_⟩
        norm_num [Ex.parWide, Ex.gp]
      · rw [hs1] at h2
        cases h2
        intro mp hmp
        have := List.all_eq_true.1 hc mp hmp
        simp only [Bool.and_eq_true, decide_eq_true_eq] at this
        exact this) (.inr (by
      intro a ha
      have e : a = { ph := Ex.ph, pts := [Ex.mp, Ex.mp2] } := List.mem_singleton.1 ha
      rw [e]
      exact fun h => by cases h))).1 s' hs
  exact ⟨G, s', t, hG, c114_grid Ex.goodWide Ex.bothWide hG Ex.dyn Ex.L, hs, ht, hst⟩

/-- C114: wall friction is switched off at node 1, next to the lower left corner on the bottom (C21).
The node next to the corner on the left side, which takes its place when the axes are exchanged, is
treated like every other node, so the two set-ups give 5 and 3. -/
theorem c114_friction :
    Ex.okAnd (Ex.corner 3 3 1 ![5, 4, 0]) (fun G =>
      (G.updateMomentum (nx := 3) (ny := 3) Ex.friction false 1 0).q_dot ⟨1, by decide⟩ 0 = 5) ∧
    Ex.okAnd (Ex.corner 3 3 3 ![4, 5, 0]) (fun G =>
      (G.updateMomentum (nx := 3) (ny := 3) Ex.friction false 1 0).q_dot ⟨3, by decide⟩ 1 = 3) := by
  decide +kernel

/-- The height does change the viscosity. -/
example : ∃ c : LawCtx ℚ 2, 250 * 1 * c.max_g * (1 / 10) ^ 3 <
    kenKamrinEta { c with height := 1 } 1 1 1 1 :=
  ⟨{ ops := Ex.ops, mat := Ex.mat, mat0 := Ex.mat, p := 0, t := 0, dt := 1, s := ![1, 2]
     max_g := 1, height := 1 }, by decide +kernel⟩

/-- Viscosities at the two ends of a row are added up. -/
example : ∃ a : Fin (2 * 2) → XF ℚ, makeCyclic (nx := 2) (ny := 2) a 0 ≠ a 0 :=
  ⟨fun _ => .fin 1, by decide +kernel⟩

end Mpm

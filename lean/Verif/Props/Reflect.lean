import Verif.Lemmas.Mirror
import Verif.Lemmas.SymMarch
import Verif.Props.Swap
import Verif.Props.Order
import Verif.Lemmas.ScaleRun

/-!
# C115: left and right are treated alike
-/

set_option linter.unusedSectionVars false

namespace Mpm
open Spec

namespace Spec
variable {K : Type} [Field K] [LinearOrder K] {ns : ℕ}

/-- Options that make sense with left and right exchanged: walls along the edges, frictionless, no
inlets or outlets.  A belt and periodic sides are allowed. -/
structure BothSides (B : BP K) : Prop where
  edges : OnlyEdges B
  friction : B.roughness = true → B.wall_mu = 0
  outlet_left : B.outlet_left = false
  outlet_bottom : B.outlet_bottom = false
  inlet_right : B.inlet_right = false
  inlet_top : B.inlet_top = false

/-- The options with left and right exchanged. -/
def flipB (B : BP K) : BP K := { B with has_left := B.has_right, has_right := B.has_left }

/-- The parameters with left and right exchanged. -/
abbrev flipPar (P : Par K) : Par K := (mirror P.G).par P (flipB P.B)

/-- A point with left and right exchanged. -/
abbrev flipPt (P : GP K) (mp : Particle K ns) : Particle K ns := (mirror P).pt mp

/-- A state with left and right exchanged. -/
abbrev flipSt {P : Par K} (s : St P) : St (flipPar P) := (mirror P.G).st (flipB P.B) (-1) s

/-- The interpolation of nodal fields with left and right exchanged. -/
abbrev flipInterp {P : Par K} (interp : Interp K P.G.N) : Interp K (flipPar P).G.N :=
  (mirror P.G).interp interp

end Spec

section
variable {K : Type} [Field K] [LinearOrder K] [IsStrictOrderedRing K] [FloorRing K] {ns nx ny : ℕ}

theorem mirror_m (P : GP K) (M : Mat K) :
    (mirror P).A.m M = !![M 0 0, -M 0 1, -M 0 2; -M 1 0, M 1 1, M 1 2; -M 2 0, M 2 1, M 2 2] := by
  funext i j
  fin_cases i <;> fin_cases j <;> simp [Axes.m, Axes.f, Axes.p, mirror]

/-- C115: the parameters with left and right exchanged: the same domain, the walls exchanged, and
the opposite slope, belt speed and intruder speed along `x`. -/
theorem c115_par (P : Par K) :
    (flipPar P).G = P.G ∧ (flipPar P).B = flipB P.B ∧ (flipPar P).sinθ = -P.sinθ ∧
    (flipPar P).cosθ = P.cosθ ∧ (flipPar P).v_0 = -P.v_0 ∧
    (flipPar P).intruder_v = ![-P.intruder_v 0, P.intruder_v 1, P.intruder_v 2] ∧
    (flipPar P).forces = P.forces ∧ (flipPar P).max_g = P.max_g ∧
    (flipPar P).damping = P.damping ∧ (flipPar P).segregate_grid = P.segregate_grid :=
  ⟨rfl, rfl, neg_one_mul _, one_mul _, neg_one_mul _, mirror_v P.G P.intruder_v, rfl, rfl, rfl, rfl⟩

/-- C115: the point with left and right exchanged: `x_m + x_M - x` for `x`, the opposite horizontal
velocity and shear stress; everything else is the same. -/
theorem c115_pt (P : GP K) (mp : Particle K ns) :
    (flipPt P mp).x = ![P.x_m + P.x_M - mp.x 0, mp.x 1, mp.x 2] ∧
    (∀ v, mp.v = .own v → (flipPt P mp).v = .own ![-v 0, v 1, v 2]) ∧
    (mp.v = .shared → (flipPt P mp).v = .shared) ∧
    (flipPt P mp).stress = !![mp.stress 0 0, -mp.stress 0 1, -mp.stress 0 2;
      -mp.stress 1 0, mp.stress 1 1, mp.stress 1 2; -mp.stress 2 0, mp.stress 2 1, mp.stress 2 2] ∧
    (flipPt P mp).strain = !![mp.strain 0 0, -mp.strain 0 1, -mp.strain 0 2;
      -mp.strain 1 0, mp.strain 1 1, mp.strain 1 2; -mp.strain 2 0, mp.strain 2 1, mp.strain 2 2] ∧
    (flipPt P mp).sigmav = mp.sigmav ∧ (flipPt P mp).sigmah = mp.sigmah ∧
    (flipPt P mp).m = mp.m ∧ (flipPt P mp).V = mp.V ∧ (flipPt P mp).rho = mp.rho ∧
    (flipPt P mp).phi = mp.phi ∧ (flipPt P mp).pressure = mp.pressure ∧
    (flipPt P mp).gammadot = mp.gammadot := by
  refine ⟨?_, ?_, ?_, mirror_m _ _, mirror_m _ _, rfl, rfl, rfl, rfl, rfl, rfl, rfl, rfl⟩
  · change (mirror P).A.v mp.x + ![P.x_m + P.x_M, 0, 0] = _
    rw [mirror_v]
    funext i
    fin_cases i <;> simp [sub_eq_neg_add, add_comm]
  · intro v h
    change (mirror P).A.ref mp.v = _
    rw [h]
    exact congrArg VRef.own (mirror_v P v)
  · intro h
    change (mirror P).A.ref mp.v = _
    rw [h]
    rfl

/-- C115: the node in column `i` has what the node in column `nx - 1 - i` of its row had, with the
opposite horizontal component and the opposite shear rate. -/
theorem c115_nodes {P : Par K} (s : St P) (i : Fin P.G.nx) (j : Fin P.G.ny) :
    (flipSt s).G.m (mkNode i j) = s.G.m (mkNode i.rev j) ∧
    (flipSt s).G.q (mkNode i j) =
      ![-s.G.q (mkNode i.rev j) 0, s.G.q (mkNode i.rev j) 1, s.G.q (mkNode i.rev j) 2] ∧
    (flipSt s).G.V (mkNode i j) = s.G.V (mkNode i.rev j) ∧
    (flipSt s).G.boundary_h (mkNode i j) = s.G.boundary_h (mkNode i.rev j) ∧
    (flipSt s).G.boundary_v (mkNode i j) = s.G.boundary_v (mkNode i.rev j) ∧
    (flipSt s).G.vis .gammadot (mkNode i j) = signX (-1) (s.G.vis .gammadot (mkNode i.rev j)) ∧
    (∀ v, v ≠ .gammadot → (flipSt s).G.vis v (mkNode i j) = s.G.vis v (mkNode i.rev j)) ∧
    (flipSt s).G.phi (mkNode i j) = s.G.phi (mkNode i.rev j) ∧
    (flipSt s).G.pk (mkNode i j) = s.G.pk (mkNode i.rev j) := by
  have e : (mirror P.G).e.symm (mkNode i j) = mkNode i.rev j := by
    change mkNode (colF (mkNode i j)).rev (rowF (mkNode i j)) = _
    rw [rowF_mkNode, colF_mkNode]
  refine ⟨congrArg s.G.m e, ?_, congrArg s.G.V e, congrArg s.G.boundary_h e,
    congrArg s.G.boundary_v e, congrArg (fun k => signX (-1) (s.G.vis .gammadot k)) e, ?_,
    congrArg s.G.phi e, congrArg s.G.pk e⟩
  · exact (congrArg (fun k => (mirror P.G).A.v (s.G.q k)) e).trans (mirror_v P.G _)
  · intro v hv
    have h1 : (flipSt s).G.vis v (mkNode i j) =
        s.G.vis ((mirror P.G).A.vis v) ((mirror P.G).e.symm (mkNode i j)) := if_neg hv
    have h2 : (mirror P.G).A.vis v = v := by cases v <;> rfl
    rw [h1, h2]
    exact congrArg (s.G.vis v) e

/-! ## The grid -/

theorem rev_col (k : Fin (ny * nx)) :
    ((mkNode (colF k).rev (rowF k) : Fin (ny * nx)) : ℕ) % nx = nx - 1 - (k : ℕ) % nx := by
  rw [mkNode_col, Fin.val_rev]
  change nx - ((k : ℕ) % nx + 1) = _
  omega

theorem rev_row (k : Fin (ny * nx)) :
    ((mkNode (colF k).rev (rowF k) : Fin (ny * nx)) : ℕ) / nx = (k : ℕ) / nx := by
  rw [mkNode_row]
  rfl

theorem boundaryV_edges' {B : BP K} (hB : OnlyEdges B) (k : Fin (ny * nx)) :
    boundaryV B nx ny k = true ↔ (B.no_slip_bottom = true ∧ (k : ℕ) / nx = 0) ∨
      (B.has_left = true ∧ (k : ℕ) % nx = 0) ∨ (B.has_right = true ∧ (k : ℕ) % nx = nx - 1) := by
  simp only [boundaryV, markIf_iff, hB.wall, hB.two_walls, hB.silo_left, hB.box,
    Bool.false_eq_true, false_and, false_or, or_false]
  rw [← inLeft_iff, ← inRight_iff, ← inBottom_iff]
  unfold inLeft inRight inBottom
  tauto

theorem boundaryV_M {B : BP K} (h : BothSides B) (k : Fin (ny * nx)) :
    boundaryV (flipB B) nx ny k = boundaryV B nx ny (mkNode (colF k).rev (rowF k)) := by
  have hf : OnlyEdges (flipB B) := ⟨h.edges.wall, h.edges.two_walls, h.edges.silo_left,
    h.edges.silo_bottom, h.edges.box⟩
  have hk := node_col_lt k
  rw [Bool.eq_iff_iff, boundaryV_edges' hf, boundaryV_edges' h.edges, rev_col, rev_row]
  have e1 : nx - 1 - (k : ℕ) % nx = 0 ↔ (k : ℕ) % nx = nx - 1 := by omega
  have e2 : nx - 1 - (k : ℕ) % nx = nx - 1 ↔ (k : ℕ) % nx = 0 := by omega
  rw [e1, e2]
  change _ ∨ (B.has_right = true ∧ _) ∨ (B.has_left = true ∧ _) ↔ _
  tauto

theorem boundaryH_M {B : BP K} (h : BothSides B) (k : Fin (ny * nx)) :
    boundaryH (flipB B) nx ny k = boundaryH B nx ny (mkNode (colF k).rev (rowF k)) := by
  have hf : OnlyEdges (flipB B) := ⟨h.edges.wall, h.edges.two_walls, h.edges.silo_left,
    h.edges.silo_bottom, h.edges.box⟩
  rw [Bool.eq_iff_iff, boundaryH_edges hf, boundaryH_edges h.edges, rev_row]
  exact Iff.rfl

theorem boundaryConveyor_iff (hnx : 2 ≤ nx) (k : Fin (ny * nx)) :
    boundaryConveyor nx ny k = true ↔
      (k : ℕ) / nx = 0 ∧ 2 ≤ (k : ℕ) % nx ∧ (k : ℕ) % nx < nx - 2 := by
  have e : ((nx : ℤ) - 2) = ((nx - 2 : ℕ) : ℤ) := by omega
  have hle := nx_le k
  have hk := k.isLt
  unfold boundaryConveyor setSlice
  have h2 : inSlice (ny * nx) (some 2) (some ((nx : ℤ) - 2)) 1 k = true ↔
      2 ≤ (k : ℕ) ∧ (k : ℕ) < nx - 2 := by
    rw [e]
    have := sliceBound_nat (ny * nx) (nx - 2)
    have h3 := sliceBound_nat (ny * nx) 2
    simp only [inSlice, this, Bool.and_eq_true, decide_eq_true_eq]
    rw [show ((2 : ℤ)) = ((2 : ℕ) : ℤ) from rfl, h3, Nat.mod_one]
    omega
  have h4 : ((k : ℕ) / nx = 0 ∧ 2 ≤ (k : ℕ) % nx ∧ (k : ℕ) % nx < nx - 2) ↔
      2 ≤ (k : ℕ) ∧ (k : ℕ) < nx - 2 := by
    rw [Nat.div_eq_zero_iff]
    constructor
    · rintro ⟨h1, h5⟩
      rw [Nat.mod_eq_of_lt (by omega)] at h5
      exact h5
    · intro h5
      rw [Nat.mod_eq_of_lt (by omega)]
      exact ⟨.inr (by omega), h5⟩
  rw [h4, ← h2]
  by_cases h : inSlice (ny * nx) (some 2) (some ((nx : ℤ) - 2)) 1 k = true <;> simp [h]

theorem boundaryConveyor_M (hnx : 2 ≤ nx) (k : Fin (ny * nx)) :
    boundaryConveyor nx ny k = boundaryConveyor nx ny (mkNode (colF k).rev (rowF k)) := by
  have hk := node_col_lt k
  rw [Bool.eq_iff_iff, boundaryConveyor_iff hnx, boundaryConveyor_iff hnx, rev_col, rev_row]
  omega

theorem volume_M {P : Par K} (hP : GoodGrid P.G) (k : Fin (P.G.ny * P.G.nx)) :
    nodeVolume (flipPar P).G (flipB P.B) k =
      nodeVolume P.G P.B (mkNode (colF k).rev (rowF k)) := by
  have hk := node_col_lt k
  have hn := hP.nx
  have e1 := weighting_eq hP.nx hP.ny (flipB P.B) k
  have e2 := weighting_eq hP.nx hP.ny P.B (mkNode (colF k).rev (rowF k))
  have e3 : weighting (flipB P.B) P.G.nx P.G.ny k =
      weighting P.B P.G.nx P.G.ny (mkNode (colF k).rev (rowF k)) := by
    rw [e1, e2, rev_col, rev_row]
    have hh : (halfEnd P.G.nx (P.G.nx - 1 - (k : ℕ) % P.G.nx) : K) =
        halfEnd P.G.nx ((k : ℕ) % P.G.nx) := by
      unfold halfEnd
      refine if_congr ?_ rfl rfl
      omega
    rw [hh]
    rfl
  exact congrArg (fun w => w * gridDx P.G * gridDy P.G * P.G.thickness) e3

theorem gridX_M {P : Par K} (hP : GoodGrid P.G) (k : Fin (P.G.ny * P.G.nx)) :
    gridX P.G k = -gridX P.G (mkNode (colF k).rev (rowF k)) + (P.G.x_m + P.G.x_M) := by
  have hk := node_col_lt k
  have hn := hP.nx
  change nodeX P.G ((k : ℕ) % P.G.nx) = -nodeX P.G (((mkNode (colF k).rev (rowF k) : Fin _) : ℕ) % P.G.nx) + _
  rw [rev_col]
  have hm := cellX_mul hP
  have e : ∀ i, nodeX P.G i = P.G.x_m + i * cellX P.G := fun _ => rfl
  rw [e, e, Nat.cast_sub (by omega), Nat.cast_sub (by omega)]
  push_cast
  linear_combination hm

theorem grid_ext {N : ℕ} {G H : Grid K N ns}
    (h0 : G.dx = H.dx) (h1 : G.dy = H.dy) (h2 : G.X = H.X) (h3 : G.Y = H.Y)
    (h4 : G.boundary_v = H.boundary_v) (h5 : G.boundary_h = H.boundary_h) (h6 : G.boundary_tot = H.boundary_tot) (h7 : G.boundary_conveyor = H.boundary_conveyor)
    (h8 : G.V = H.V) (h9 : G.fi = H.fi) (h10 : G.fe = H.fe) (h11 : G.m = H.m)
    (h12 : G.q = H.q) (h13 : G.q_dot = H.q_dot) (h14 : G.ext_f = H.ext_f) (h15 : G.vis = H.vis)
    (h16 : G.s_bar = H.s_bar) (h17 : G.dphi = H.dphi) (h18 : G.pk = H.pk) (h19 : G.dpk = H.dpk)
    (h20 : G.pkm = H.pkm) (h21 : G.grad_pk = H.grad_pk) (h22 : G.phim = H.phim) (h23 : G.phi = H.phi) : G = H := by
  obtain ⟨a0, a1, a2, a3, a4, a5, a6, a7, a8, a9, a10, a11, a12, a13, a14, a15, a16, a17, a18, a19, a20, a21, a22, a23⟩ := G
  obtain ⟨b0, b1, b2, b3, b4, b5, b6, b7, b8, b9, b10, b11, b12, b13, b14, b15, b16, b17, b18, b19, b20, b21, b22, b23⟩ := H
  dsimp only at h0 h1 h2 h3 h4 h5 h6 h7 h8 h9 h10 h11 h12 h13 h14 h15 h16 h17 h18 h19 h20 h21 h22 h23
  subst h0 h1 h2 h3 h4 h5 h6 h7 h8 h9 h10 h11 h12 h13 h14 h15 h16 h17 h18 h19 h20 h21 h22 h23
  rfl

/-- C115: the grid of the set-up with left and right exchanged is the grid with left and right
exchanged. -/
theorem c115_grid {P : Par K} (hP : GoodGrid P.G) (h : BothSides P.B) {G : Grid K P.G.N P.G.ns}
    (hG : mkGrid P.G P.B = .ok G) (d : Dyn K) (L : List (PhaseSt K P.G.ns)) :
    mkGrid (flipPar P).G (flipPar P).B =
      .ok (flipSt { dyn := d, L := L, G := G } : St (flipPar P)).G := by
  have h1 : ¬ (P.G.nx < 2 ∨ P.G.ny < 2) := by
    have := hP.nx
    have := hP.ny
    omega
  have h2 : ¬ ((flipPar P).G.nx < 2 ∨ (flipPar P).G.ny < 2) := h1
  unfold mkGrid at hG ⊢
  rw [if_neg h1] at hG
  rw [if_neg h2]
  cases hG
  refine congrArg Except.ok ?_
  have hz : (mirror P.G).A.v 0 = 0 := Axes.v_zero
  refine grid_ext (N := P.G.N) (ns := P.G.ns) rfl rfl ?_ ?_ ?_ ?_ ?_ ?_ ?_ ?_ ?_ rfl ?_ ?_ ?_ ?_
    rfl rfl rfl rfl rfl ?_ rfl rfl
  · funext k
    refine (gridX_M hP k).trans ?_
    exact congrArg (fun x => x + (P.G.x_m + P.G.x_M))
      ((congrFun (mirror_v P.G ![gridX P.G (nodeM.symm k), gridY P.G (nodeM.symm k), 0]) 0).symm)
  · funext k
    have e : gridY P.G k = gridY P.G (mkNode (colF k).rev (rowF k)) := by
      change nodeY P.G ((k : ℕ) / P.G.nx) = nodeY P.G (((mkNode (colF k).rev (rowF k) : Fin _) : ℕ) / P.G.nx)
      rw [rev_row]
    refine e.trans ?_
    refine (congrFun (mirror_v P.G ![gridX P.G (nodeM.symm k), gridY P.G (nodeM.symm k), 0])
      1).symm.trans ?_
    exact (add_zero _).symm
  · funext k
    exact boundaryV_M h k
  · funext k
    exact boundaryH_M h k
  · funext k
    exact congrArg₂ or (boundaryV_M h k) (boundaryH_M h k)
  · funext k
    have e := boundaryConveyor_M (ny := P.G.ny) hP.nx k
    change (if P.B.conveyor = true then boundaryConveyor P.G.nx P.G.ny else fun _ => false) k =
      (if P.B.conveyor = true then boundaryConveyor P.G.nx P.G.ny else fun _ => false) _
    split_ifs
    · exact e
    · rfl
  · funext k
    exact volume_M hP k
  · funext k; exact hz.symm
  · funext k; exact hz.symm
  · funext k; exact hz.symm
  · funext k; exact hz.symm
  · funext k; exact hz.symm
  · funext v k
    change XF.fin 0 = if v = .gammadot then signX (-1) (XF.fin 0) else XF.fin 0
    split_ifs
    · simp [signX]
    · rfl
  · funext k; exact hz.symm

/-! ## The simulation -/

theorem Spec.BothSides.flags {P : Par K} (h : BothSides P.B) :
    (mirror P.G).Flags P.B (flipB P.B) :=
  ⟨rfl, rfl, rfl, rfl, rfl, rfl, ⟨h.outlet_left, h.outlet_bottom, h.inlet_right, h.inlet_top⟩,
    ⟨h.outlet_left, h.outlet_bottom, h.inlet_right, h.inlet_top⟩, h.friction,
    fun _ => rfl, fun _ => rfl⟩

/-- C115: exchanging left and right (walls, slope, belt, and all horizontal components of the
points) exchanges left and right in every later state, and leaves every failure as it is.  The
points may not sit on a vertical grid line at the start of a step. -/
theorem c115_steps {P : Par K} {interp : Interp K P.G.N} (hI : OddInterp interp)
    (hC : ClearsMask interp)
    (hP : GoodGrid P.G) (hB : BothSides P.B) {n : ℕ} {s : St P} (g : Geometry P.G s.G)
    (hc : Counted s.L)
    (hin : ∀ m < n, ∀ s', steps P interp m s = .ok s' → ∀ mp ∈ points s'.L,
      InDomain P.G mp.x ∧ ∀ i : ℕ, mp.x 0 ≠ nodeX P.G i) :
    steps (flipPar P) (flipInterp interp) n (flipSt s) = flipSt <$> steps P interp n s := by
  have h := steps_sym (S := mirror P.G) (mirror_ok P.G) hB.flags (mirror_geo hP)
    (interp := interp) (.inr ⟨hI, hC⟩) n g hc (fun m hm s' hs a ha mp hmp => ?_)
    (fun h => absurd h Bool.false_ne_true)
  · have e1 : (mirror P.G).A.fx * (mirror P.G).A.fy = (-1 : K) := mul_one _
    rw [e1] at h
    have ht : ∀ (r : Res (St (flipPar P))), tidy false <$> r = r := fun r => by cases r <;> rfl
    exact (ht _).symm.trans h
  · exact hin m hm s' hs mp (List.mem_flatMap.2 ⟨a, ha, hmp⟩)

/-! ## Symmetric set-ups -/

/-- A point before it is located: cell and shape functions are computed anew in every step. -/
def Spec.fresh (mp : Particle K ns) : Particle K ns :=
  { mp with n_star := 0, N := fun _ => 0, Gs := fun _ => 0 }

theorem mapN_to {α β : Type} {f : α → Res α} {f' : β → Res β} {φ ψ : α → β}
    (h : ∀ a, f' (φ a) = ψ <$> f a) (l : List α) :
    mapN f' l.length (l.map φ) = List.map ψ <$> mapN f l.length l := by
  induction l with
  | nil => rfl
  | cons a l ih => exact res_bind_map (h a) fun a' _ => res_bind_map ih fun _ _ => rfl

theorem mapPoints_to {f : ℕ → Phase K ns → Particle K ns → Res (Particle K ns)}
    {φ ψ : Particle K ns → Particle K ns} (h : ∀ p ph mp, f p ph (φ mp) = ψ <$> f p ph mp)
    {L : List (PhaseSt K ns)} (hL : Counted L) :
    mapPoints f (L.map (mapPts φ id)) = List.map (mapPts ψ id) <$> mapPoints f L := by
  unfold mapPoints
  generalize 0 = p
  induction L generalizing p with
  | nil => rfl
  | cons a L ih =>
    refine res_bind_map (f := mapPts ψ id) ?_ fun a' _ =>
      res_bind_map (ih (fun x hx => hL x (List.mem_cons_of_mem _ hx)) (p + 1)) fun _ _ => rfl
    refine res_bind_map (f := List.map ψ) ?_ fun _ _ => rfl
    change mapN (f p a.ph) a.ph.n (a.pts.map φ) = _
    rw [hL a List.mem_cons_self]
    exact mapN_to (h p a.ph) a.pts

theorem incrementGravity_fresh (P : Par K) (g : K) (p : ℕ) (mp : Particle K P.G.ns) :
    (fresh mp).incrementGravity P g p = fresh (mp.incrementGravity P g p) := by
  unfold Particle.incrementGravity
  split_ifs <;> rfl

theorem timeMarch_fresh {P : Par K} {interp : Interp K P.G.N} {s : St P} (hL : Counted s.L) :
    timeMarch P interp { s with L := s.L.map (mapPts fresh id) } = timeMarch P interp s := by
  have hid : ∀ L : List (PhaseSt K P.G.ns), L.map (mapPts id id) = L := fun L => by
    have : (mapPts id id : PhaseSt K P.G.ns → PhaseSt K P.G.ns) = id := by
      funext a
      simp [mapPts]
    rw [this, List.map_id]
  have h : gridPhase P { s with L := s.L.map (mapPts fresh id) } = id <$> gridPhase P s := by
    unfold gridPhase
    dsimp only
    refine res_bind_map (f := List.map (mapPts fresh id)) (mapPoints_to (fun _ _ mp => ?_) hL)
      fun L1 h1 => ?_
    · exact congrArg Except.ok (incrementGravity_fresh P _ _ mp)
    have c1 := counted_mapPoints hL h1
    refine res_bind_map (f := List.map (mapPts (fun mp : Particle K P.G.ns =>
        { mp with N := fun _ => 0, Gs := fun _ => 0 }) id))
      (mapPoints_to (fun _ _ mp => ?_) c1) fun L2 h2 => ?_
    · exact ite_equiv rfl rfl
    have c2 := counted_mapPoints c1 h2
    refine res_bind_map (f := List.map (mapPts id id))
      (mapPoints_to (fun _ _ mp => ?_) c2) fun L3 h3 => ?_
    · exact res_bind_id fun _ => ite_equiv rfl rfl
    rw [hid]
    exact (id_map _).symm
  unfold timeMarch
  rw [h, id_map]

theorem steps_fresh {P : Par K} {interp : Interp K P.G.N} {s : St P} (hL : Counted s.L) (n : ℕ) :
    steps P interp (n + 1) { s with L := s.L.map (mapPts fresh id) } = steps P interp (n + 1) s := by
  unfold steps
  rw [timeMarch_fresh hL]

/-- Equal parameters give equal runs. -/
theorem steps_par {P P' : Par K} (h : P' = P) (hG : P'.G = P.G) (interp : Interp K P'.G.N) (n : ℕ)
    (d : Dyn K) (L : List (PhaseSt K P'.G.ns)) (G : Grid K P'.G.N P'.G.ns) :
    steps P (hG ▸ interp) n ⟨d, hG ▸ L, hG ▸ G⟩ =
      (fun s : St P' => (⟨s.dyn, hG ▸ s.L, hG ▸ s.G⟩ : St P)) <$> steps P' interp n ⟨d, L, G⟩ := by
  subst h
  exact (id_map _).symm

/-- A set-up that looks the same from behind. -/
structure Spec.Symmetric (P : Par K) : Prop where
  walls : P.B.has_left = P.B.has_right
  slope : P.sinθ = 0
  belt : P.v_0 = 0
  intruder : P.intruder_v 0 = 0

theorem Spec.Symmetric.eq {P : Par K} (h : Symmetric P) : flipPar P = P := by
  have hB : flipB P.B = P.B := by
    have e : ∀ a b, a = P.B.has_left → b = P.B.has_right →
        ({ P.B with has_left := a, has_right := b } : BP K) = P.B := by
      rintro _ _ rfl rfl
      rfl
    exact e _ _ h.walls.symm h.walls
  have e : ∀ (B : BP K) (s c v : K) (i : Vec K), B = P.B → s = P.sinθ → c = P.cosθ → v = P.v_0 →
      i = P.intruder_v → ({ P with B := B, sinθ := s, cosθ := c, v_0 := v, intruder_v := i } : Par K) = P := by
    rintro _ _ _ _ _ rfl rfl rfl rfl rfl
    rfl
  refine Eq.trans (b := { P with B := flipB P.B, sinθ := -1 * P.sinθ, cosθ := 1 * P.cosθ, v_0 := -1 * P.v_0, intruder_v := (mirror P.G).A.v P.intruder_v }) rfl ?_
  refine e (flipB P.B) (-1 * P.sinθ) (1 * P.cosθ) (-1 * P.v_0) ((mirror P.G).A.v P.intruder_v) hB
    ?_ (one_mul _) ?_ ?_
  · rw [h.slope, mul_zero]
  · rw [h.belt, mul_zero]
  · rw [mirror_v]
    funext i
    fin_cases i
    · simp [h.intruder]
    · rfl
    · rfl

/-- A state that is its own mirror image: the grid, and the points in some order. -/
def Spec.Mirrored {P : Par K} (s : St P) : Prop :=
  (flipSt s).G = s.G ∧
    Reordered (s.L.map (mapPts fresh id)) ((flipSt s).L.map (mapPts fresh id))

theorem fresh_reordered {L L' : List (PhaseSt K ns)} (h : Reordered L L') :
    Reordered (L.map (mapPts fresh id)) (L'.map (mapPts fresh id)) := by
  unfold Reordered at *
  rw [List.forall₂_map_left_iff, List.forall₂_map_right_iff]
  exact h.imp fun a a' h => ⟨h.1, h.2.map _⟩

theorem counted_fresh {L : List (PhaseSt K ns)} (h : Counted L) :
    Counted (L.map (mapPts fresh id)) := by
  intro a ha
  obtain ⟨b, hb, rfl⟩ := List.mem_map.1 ha
  exact (h b hb).trans (List.length_map _).symm

/-- C115: a state that is its own mirror image stays its own mirror image. -/
theorem c115_symmetric {P : Par K} {interp : Interp K P.G.N} (hI : OddInterp interp)
    (hC : ClearsMask interp)
    (hF : flipInterp interp = interp) (hP : GoodGrid P.G) (hB : BothSides P.B) (hS : Symmetric P)
    {n : ℕ} {s s' : St P} (g : Geometry P.G s.G) (hc : Counted s.L)
    (hin : ∀ m < n, ∀ s', steps P interp m s = .ok s' → ∀ mp ∈ points s'.L,
      InDomain P.G mp.x ∧ ∀ i : ℕ, mp.x 0 ≠ nodeX P.G i)
    (hs : steps P interp n s = .ok s') (hM : Mirrored s) : Mirrored s' := by
  cases n with
  | zero => cases hs; exact hM
  | succ n =>
    have h := c115_steps hI hC hP hB g hc hin
    rw [hs] at h
    have h1 := steps_par hS.eq rfl (flipInterp interp) (n + 1) (flipSt s).dyn (flipSt s).L (flipSt s).G
    have h2 : steps P interp (n + 1) (⟨(flipSt s).dyn, (flipSt s).L, (flipSt s).G⟩ : St P) =
        .ok (⟨(flipSt s').dyn, (flipSt s').L, (flipSt s').G⟩ : St P) := by
      refine Eq.trans (congrArg (fun i => steps P i (n + 1) (⟨(flipSt s).dyn, (flipSt s).L, (flipSt s).G⟩ : St P)) hF.symm) ?_
      refine h1.trans ?_
      exact congrArg (fun r => (fun s : St (flipPar P) => (⟨s.dyn, s.L, s.G⟩ : St P)) <$> r) h
    have c1 := counted_fresh hc
    have c2 : Counted (flipSt s).L := by
      intro a ha
      obtain ⟨b, hb, rfl⟩ := List.mem_map.1 ha
      exact (hc b hb).trans (List.length_map _).symm
    rw [← steps_fresh hc] at hs
    have h3 := steps_fresh (interp := interp) (s := (⟨(flipSt s).dyn, (flipSt s).L, (flipSt s).G⟩ : St P)) c2 n
    rw [h2] at h3
    obtain ⟨t, ht, -, hG, hL⟩ := (c95_run (P := P) (interp := interp) (n + 1) (s := { s with L := s.L.map (mapPts fresh id) })
      (s' := ⟨(flipSt s).dyn, (flipSt s).L.map (mapPts fresh id), (flipSt s).G⟩) c1 rfl hM.1 hM.2).1 s' hs
    have h4 := h3.symm.trans ht
    have h5 := Except.ok.inj h4
    subst h5
    exact ⟨hG, fresh_reordered hL⟩

theorem sum_neg_list {α : Type} (f : α → K) (l : List α) :
    (l.map fun x => -f x).sum = -(l.map f).sum := by
  induction l with
  | nil => simp
  | cons a l ih => rw [List.map_cons, List.sum_cons, ih, List.map_cons, List.sum_cons, neg_add]

/-- C115: the grid of such a set-up is its own mirror image. -/
theorem c115_start {P : Par K} (hP : GoodGrid P.G) (hB : BothSides P.B) (hS : Symmetric P)
    {G : Grid K P.G.N P.G.ns} (hG : mkGrid P.G P.B = .ok G) (d : Dyn K)
    (L : List (PhaseSt K P.G.ns)) :
    (flipSt ({ dyn := d, L := L, G := G } : St P)).G = G := by
  have h := c115_grid hP hB hG d L
  have e : (flipPar P).B = P.B := congrArg Par.B hS.eq
  rw [e] at h
  exact (Except.ok.inj (hG.symm.trans h)).symm

/-- C115: a phase in such a state has no horizontal momentum. -/
theorem c115_momentum {P : Par K} {s : St P} (hM : Mirrored s) {a : PhaseSt K P.G.ns}
    (ha : a ∈ s.L) : (a.pts.map fun mp => mp.m * mp.v.get a.ph.iv 0).sum = 0 := by
  have h := hM.2
  change Reordered (s.L.map (mapPts fresh id))
    ((s.L.map (mapPts (flipPt P.G) (mirror P.G).ph)).map (mapPts fresh id)) at h
  unfold Reordered at h
  rw [List.map_map, List.forall₂_map_left_iff, List.forall₂_map_right_iff,
    List.forall₂_same] at h
  obtain ⟨hph, hp⟩ := h a ha
  have hiv : ((mirror P.G).ph a.ph).iv = a.ph.iv := congrArg Phase.iv hph
  have hp' : (a.pts.map fresh).Perm ((a.pts.map (flipPt P.G)).map fresh) := hp
  have e := (hp'.map fun mp => mp.m * mp.v.get a.ph.iv 0).sum_eq
  rw [List.map_map, List.map_map, List.map_map] at e
  have e1 : (((fun mp : Particle K P.G.ns => mp.m * mp.v.get a.ph.iv 0) ∘ fresh) ∘ flipPt P.G) =
      fun mp => -(mp.m * mp.v.get a.ph.iv 0) := by
    funext mp
    change mp.m * ((mirror P.G).A.ref mp.v).get a.ph.iv 0 = _
    cases hv : mp.v with
    | own v =>
      change mp.m * (mirror P.G).A.v v 0 = -(mp.m * v 0)
      rw [mirror_v]
      exact mul_neg _ _
    | shared =>
      change mp.m * a.ph.iv 0 = -(mp.m * a.ph.iv 0)
      have : a.ph.iv 0 = -a.ph.iv 0 := by
        conv_lhs => rw [← hiv]
        exact congrFun (mirror_v P.G a.ph.iv) 0
      rw [← mul_neg, ← this]
  rw [e1, sum_neg_list] at e
  change (a.pts.map fun mp => mp.m * mp.v.get a.ph.iv 0).sum = _ at e
  linarith

/-- C115: on an odd number of columns the middle one has no horizontal momentum and no shear rate
other than zero. -/
theorem c115_middle {P : Par K} {s : St P} (hM : Mirrored s) {i : Fin P.G.nx} (hi : i.rev = i)
    (j : Fin P.G.ny) : s.G.q (mkNode i j) 0 = 0 ∧
      ∀ x, s.G.vis .gammadot (mkNode i j) = .fin x → x = 0 := by
  obtain ⟨-, hq, -, -, -, hg, -⟩ := c115_nodes s i j
  rw [hi] at hq hg
  rw [hM.1] at hq hg
  have hq' : s.G.q (mkNode (nx := P.G.nx) (ny := P.G.ny) i j) 0 =
      -s.G.q (mkNode (nx := P.G.nx) (ny := P.G.ny) i j) 0 := congrFun hq 0
  have hg' : s.G.vis .gammadot (mkNode (nx := P.G.nx) (ny := P.G.ny) i j) =
      signX (-1) (s.G.vis .gammadot (mkNode (nx := P.G.nx) (ny := P.G.ny) i j)) := hg
  refine ⟨self_eq_neg.1 hq', fun x hx => ?_⟩
  rw [hx] at hg'
  have : x = -1 * x := XF.fin.inj hg'
  linarith

end

/-! ## Where it fails, and the hypotheses can be met -/

namespace Ex

/-- Two points at equal distance from the middle, moving apart, between two walls. -/
def pairPar : Par ℚ :=
  { par with B := { bp with has_left := true, has_right := true, has_bottom := true } }

def pairMp : Particle ℚ 2 := { mp with x := ![1/2, 5/4, 0], v := .own ![-1, 2, 0], stress := 1 }

def pairL : List (PhaseSt ℚ 2) :=
  [{ ph := ph, pts := [pairMp, { pairMp with x := ![3/2, 5/4, 0], v := .own ![1, 2, 0] }] }]

/-- A single compressed point at rest on the middle grid line. -/
def lineL : List (PhaseSt ℚ 2) :=
  [{ ph := { ph with n := 1 }, pts := [{ pairMp with x := ![1, 5/4, 0], v := .own 0 }] }]

end Ex

theorem Ex.pairGood : GoodGrid Ex.pairPar.G := Ex.good

theorem Ex.pairSides : BothSides Ex.pairPar.B := by
  constructor <;> first | (constructor <;> rfl) | simp [Ex.pairPar, Ex.bp]

theorem Ex.pairSym : Symmetric Ex.pairPar := ⟨rfl, rfl, rfl, rfl⟩

/-- The mirror image of a point of the example. -/
theorem Ex.pairFlip (a u w : ℚ) :
    fresh (flipPt Ex.gp { Ex.pairMp with x := ![a, 5/4, 0], v := .own ![u, w, 0] }) =
      fresh { Ex.pairMp with x := ![2 - a, 5/4, 0], v := .own ![-u, w, 0] } := by
  have hm : ∀ M : Mat ℚ, M = 0 ∨ M = 1 → (mirror Ex.gp).A.m M = M := by
    rintro M (rfl | rfl) <;> rw [mirror_m] <;> funext i j <;> fin_cases i <;> fin_cases j <;> simp
  have hx : (mirror Ex.gp).A.v ![a, 5/4, 0] + (mirror Ex.gp).c = ![2 - a, 5/4, 0] := by
    rw [mirror_v]
    funext i
    fin_cases i <;> simp [mirror, Ex.gp, sub_eq_neg_add]
  have hv : (mirror Ex.gp).A.v ![u, w, 0] = ![-u, w, 0] := by rw [mirror_v]; rfl
  have hb : (mirror Ex.gp).A.v ![0, -10, 0] = ![0, -10, 0] := by
    rw [mirror_v]
    funext i
    fin_cases i <;> simp
  simp only [fresh, Sym.pt, Axes.pt, Sym.kin, Ex.pairMp, Ex.mp, Axes.ref, hm 0 (.inl rfl), hm 1 (.inr rfl),
    hx, hv, hb]
  rfl

theorem Ex.phFlip (n : ℕ) : (mirror Ex.gp).ph { Ex.ph with n := n } = { Ex.ph with n := n } := by
  have : (mirror Ex.gp).A.v Ex.ph.iv = Ex.ph.iv := Axes.v_zero
  simp only [Sym.ph, this]

theorem Ex.pairMirrored {G : Grid ℚ Ex.pairPar.G.N Ex.pairPar.G.ns}
    (hG : mkGrid Ex.pairPar.G Ex.pairPar.B = .ok G) :
    Mirrored (P := Ex.pairPar) { dyn := Ex.dyn, L := Ex.pairL, G := G } := by
  refine ⟨c115_start Ex.pairGood Ex.pairSides Ex.pairSym hG _ _, .cons ⟨Ex.phFlip 2, ?_⟩ .nil⟩
  have h1 := Ex.pairFlip (1/2) (-1) 2
  have h2 := Ex.pairFlip (3/2) 1 2
  norm_num at h1 h2
  change List.Perm [fresh _, fresh _] [fresh (flipPt Ex.gp { Ex.pairMp with x := ![1/2, 5/4, 0], v := .own ![-1, 2, 0] }), fresh (flipPt Ex.gp { Ex.pairMp with x := ![3/2, 5/4, 0], v := .own ![1, 2, 0] })]
  norm_num
  rw [h1, h2]
  exact List.Perm.swap _ _ _

/-- The points must be off the grid lines: a single point at rest on the middle line, in a set-up
that is its own mirror image, starts to move sideways. -/
theorem c115_line : ∃ G s', mkGrid Ex.pairPar.G Ex.pairPar.B = .ok G ∧
    Mirrored (P := Ex.pairPar) { dyn := Ex.dyn, L := Ex.lineL, G := G } ∧
    steps Ex.pairPar (Ex.noInterp Ex.pairPar) 1 { dyn := Ex.dyn, L := Ex.lineL, G := G } = .ok s' ∧
    ¬ Mirrored s' := by
  obtain ⟨G, s', hG, hs, hc⟩ := Ex.run_ok (P := Ex.pairPar) (d := Ex.dyn) (L := Ex.lineL) (n := 1)
    (check := fun s => s.L.any fun a =>
      decide ((a.pts.map fun mp => mp.m * mp.v.get a.ph.iv 0).sum ≠ 0)) (by decide +kernel)
  refine ⟨G, s', hG, ⟨c115_start Ex.pairGood Ex.pairSides Ex.pairSym hG _ _,
    .cons ⟨Ex.phFlip 1, ?_⟩ .nil⟩, hs, fun hM => ?_⟩
  · have h := Ex.pairFlip 1 0 0
    norm_num at h
    have e : (![0, 0, 0] : Vec ℚ) = 0 := by funext i; fin_cases i <;> rfl
    rw [e] at h
    change List.Perm [fresh _] [fresh (flipPt Ex.gp { Ex.pairMp with x := ![1, 5/4, 0], v := .own 0 })]
    rw [h]
  · obtain ⟨a, ha, h⟩ := List.any_eq_true.1 hc
    exact (of_decide_eq_true h) (c115_momentum hM ha)

/-- A run of a symmetric set-up, and the run with left and right exchanged. -/
example : ∃ G s', mkGrid Ex.pairPar.G Ex.pairPar.B = .ok G ∧
    steps Ex.pairPar (Ex.noInterp Ex.pairPar) 2 { dyn := Ex.dyn, L := Ex.pairL, G := G } = .ok s' ∧
    Mirrored (P := Ex.pairPar) { dyn := Ex.dyn, L := Ex.pairL, G := G } ∧ Mirrored s' ∧
    steps (flipPar Ex.pairPar) (flipInterp (P := Ex.pairPar) (Ex.noInterp Ex.pairPar)) 2
      (flipSt (P := Ex.pairPar) { dyn := Ex.dyn, L := Ex.pairL, G := G }) = .ok (flipSt s') := by
  obtain ⟨G, s', hG, hs, -⟩ := Ex.run_ok (P := Ex.pairPar) (d := Ex.dyn) (L := Ex.pairL) (n := 2)
    (check := fun _ => true) (by decide +kernel)
  obtain ⟨G', s1, hG', hs1, hc⟩ := Ex.run_ok (P := Ex.pairPar) (d := Ex.dyn) (L := Ex.pairL) (n := 1)
    (check := fun s => (points s.L).all fun mp => decide (0 < mp.x 0 ∧ mp.x 0 < 2 ∧ mp.x 0 ≠ 1 ∧
      0 ≤ mp.x 1 ∧ mp.x 1 < 2)) (by decide +kernel)
  rw [hG] at hG'
  cases hG'
  have hline : ∀ x : Vec ℚ, (0 < x 0 ∧ x 0 < 2 ∧ x 0 ≠ 1 ∧ 0 ≤ x 1 ∧ x 1 < 2) →
      InDomain Ex.gp x ∧ ∀ i : ℕ, x 0 ≠ nodeX Ex.gp i := by
    rintro x ⟨h1, h2, h3, h4, h5⟩
    refine ⟨⟨⟨h1.le, h2⟩, h4, h5⟩, fun i hi => ?_⟩
    have e : nodeX Ex.gp i = i := by norm_num [nodeX, Ex.gp]
    rw [e] at hi
    rw [hi] at h1 h2 h3
    have a1 : 0 < i := by exact_mod_cast h1
    have a2 : i < 2 := by exact_mod_cast h2
    have a3 : i = 1 := by omega
    exact h3 (by rw [a3]; rfl)
  have hin : ∀ m < 2, ∀ s2, steps Ex.pairPar (Ex.noInterp Ex.pairPar) m
      { dyn := Ex.dyn, L := Ex.pairL, G := G } = .ok s2 → ∀ mp ∈ points s2.L,
      InDomain Ex.gp mp.x ∧ ∀ i : ℕ, mp.x 0 ≠ nodeX Ex.gp i := by
    intro m hm s2 h2
    interval_cases m
    · cases h2
      intro mp hmp
      refine hline _ ?_
      have h : ((points Ex.pairL).all fun mp => decide (0 < mp.x 0 ∧ mp.x 0 < 2 ∧ mp.x 0 ≠ 1 ∧
        0 ≤ mp.x 1 ∧ mp.x 1 < 2)) = true := by decide +kernel
      exact of_decide_eq_true (List.all_eq_true.1 h mp hmp)
    · rw [hs1] at h2
      cases h2
      intro mp hmp
      exact hline _ (of_decide_eq_true (List.all_eq_true.1 hc mp hmp))
  have hI : OddInterp (Ex.noInterp Ex.pairPar) :=
    fun _ _ => by unfold Ex.noInterp; decide +kernel
  have hC : ClearsMask (Ex.noInterp Ex.pairPar) := fun _ _ => rfl
  have hcn : Counted Ex.pairL := by
    intro a ha
    have e := List.mem_singleton.1 ha
    rw [e]
    rfl
  have hM := Ex.pairMirrored hG
  refine ⟨G, s', hG, hs, hM, c115_symmetric hI hC rfl Ex.pairGood Ex.pairSides Ex.pairSym
    (mkGrid_geometry hG) hcn hin hs hM, ?_⟩
  rw [c115_steps hI hC Ex.pairGood Ex.pairSides (mkGrid_geometry hG) hcn hin, hs]
  rfl

end Mpm

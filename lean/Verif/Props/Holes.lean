import Verif.Props.Diffusion
import Verif.Props.Fields
import Verif.Props.Cyclic
import Verif.Props.Reflect
import Verif.Props.Units

/-!
# C130: nodal gradients next to empty nodes

`calculate_gradient` masks the empty nodes, asks astropy to interpolate, and takes differences of
what comes back.  astropy looks for NaNs among the entries that are not masked, finds none and
returns the array with its mask.  The differences are then those of a masked array.
-/

set_option linter.unusedSectionVars false

namespace Mpm
open Spec

namespace Spec
section
variable {K : Type} [Field K] [LinearOrder K] {N ns : ℕ}

/-- What `interpolate_replace_nans` of astropy 5.3.3 does when no entry that is not masked is NaN:
it returns a copy, mask included. -/
def Copies (interp : Interp K N) : Prop :=
  ∀ Z, (∀ k, (Z k).1 = false → (Z k).2 ≠ .nan) → interp Z = Z

/-- The nodes between which the difference at `n` is taken along a row: the neighbours, or `n`
itself at the ends. -/
structure Across (nx : ℕ) (w n e : Fin N) : Prop where
  row_w : (w : ℕ) / nx = (n : ℕ) / nx
  row_e : (e : ℕ) / nx = (n : ℕ) / nx
  west : (w : ℕ) % nx = (n : ℕ) % nx - 1
  east : (e : ℕ) % nx = min ((n : ℕ) % nx + 1) (nx - 1)

/-- The same along a column. -/
structure Upright (nx ny : ℕ) (s n t : Fin N) : Prop where
  col_s : (s : ℕ) % nx = (n : ℕ) % nx
  col_t : (t : ℕ) % nx = (n : ℕ) % nx
  south : (s : ℕ) / nx = (n : ℕ) / nx - 1
  north : (t : ℕ) / nx = min ((n : ℕ) / nx + 1) (ny - 1)

end
end Spec

section
variable {K : Type} [Field K] [LinearOrder K] [IsStrictOrderedRing K] [FloorRing K]

section
variable {nx ny ns : ℕ} {interp : Interp K (ny * nx)} {big M_tol : K} {G : Grid K (ny * nx) ns}
  {Z : Fin (ny * nx) → XF K} {w n e s t : Fin (ny * nx)}

theorem Spec.Across.hi (h : Across nx w n e) :
    mkNode ⟨min ((colF n : ℕ) + 1) (nx - 1), by have := (colF n).isLt; omega⟩ (rowF n) = e :=
  node_ext ((mkNode_row _ _).trans h.row_e.symm) ((mkNode_col _ _).trans h.east.symm)

theorem Spec.Across.lo (h : Across nx w n e) :
    mkNode ⟨(colF n : ℕ) - 1, by have := (colF n).isLt; omega⟩ (rowF n) = w :=
  node_ext ((mkNode_row _ _).trans h.row_w.symm) ((mkNode_col _ _).trans h.west.symm)

theorem Spec.Upright.hi (h : Upright nx ny s n t) :
    mkNode (colF n) ⟨min ((rowF n : ℕ) + 1) (ny - 1), by have := (rowF n).isLt; omega⟩ = t :=
  node_ext ((mkNode_row _ _).trans h.north.symm) ((mkNode_col _ _).trans h.col_t.symm)

theorem Spec.Upright.lo (h : Upright nx ny s n t) :
    mkNode (colF n) ⟨(rowF n : ℕ) - 1, by have := (rowF n).isLt; omega⟩ = s :=
  node_ext ((mkNode_row _ _).trans h.south.symm) ((mkNode_col _ _).trans h.col_s.symm)

/-- The gradient of a field on a grid with empty nodes, along rows. -/
theorem calcGradient_x (hI : Copies interp)
    (hZ : ∀ k, M_tol ≤ G.m k → Z k ≠ .nan) (h : Across nx w n e) :
    calcGradient interp big M_tol G Z n 0 =
      if G.m e < M_tol ∨ G.m w < M_tol then .fin ((Z e).nanToNum big)
      else (.fin ((Z e).nanToNum big) - .fin ((Z w).nanToNum big)) /
        .fin ((((e : ℕ) - w : ℕ) : K) * G.dx) := by
  have hc : interp (fun k => (decide (G.m k < M_tol), Z k)) = fun k => (decide (G.m k < M_tol), Z k) :=
    hI _ fun k hk => hZ k (not_lt.1 (of_decide_eq_false hk))
  have ew : min ((colF n : ℕ) + 1) (nx - 1) - ((colF n : ℕ) - 1) = (e : ℕ) - w := by
    rw [node_eq e, node_eq w, h.row_e, h.row_w, h.east, h.west]
    change min ((n : ℕ) % nx + 1) (nx - 1) - ((n : ℕ) % nx - 1) = _
    omega
  rw [calcGradient_0]
  unfold maX stillMasked filled maGradient npGradient
  simp only [hc, h.hi, h.lo, ew, Bool.or_eq_true, decide_eq_true_eq]

/-- The same along columns. -/
theorem calcGradient_y (hI : Copies interp)
    (hZ : ∀ k, M_tol ≤ G.m k → Z k ≠ .nan) (h : Upright nx ny s n t) :
    calcGradient interp big M_tol G Z n 1 =
      if G.m t < M_tol ∨ G.m s < M_tol then .fin ((Z t).nanToNum big)
      else (.fin ((Z t).nanToNum big) - .fin ((Z s).nanToNum big)) /
        .fin ((((t : ℕ) / nx - s / nx : ℕ) : K) * G.dy) := by
  have hc : interp (fun k => (decide (G.m k < M_tol), Z k)) = fun k => (decide (G.m k < M_tol), Z k) :=
    hI _ fun k hk => hZ k (not_lt.1 (of_decide_eq_false hk))
  have ew : min ((rowF n : ℕ) + 1) (ny - 1) - ((rowF n : ℕ) - 1) = (t : ℕ) / nx - s / nx := by
    rw [h.north, h.south]
    rfl
  rw [calcGradient_1]
  unfold maY stillMasked filled maGradient npGradient
  simp only [hc, h.hi, h.lo, ew, Bool.or_eq_true, decide_eq_true_eq]

/-- Every node has neighbours in this sense. -/
theorem across_exists (n : Fin (ny * nx)) : ∃ w e, Across nx w n e :=
  have hc : (n : ℕ) % nx < nx := node_col_lt n
  ⟨mkNode ⟨(n : ℕ) % nx - 1, by omega⟩ (rowF n),
    mkNode ⟨min ((n : ℕ) % nx + 1) (nx - 1), by omega⟩ (rowF n),
    mkNode_row _ _, mkNode_row _ _, mkNode_col _ _, mkNode_col _ _⟩

theorem upright_exists (n : Fin (ny * nx)) : ∃ s t, Upright nx ny s n t :=
  have hr : (n : ℕ) / nx < ny := node_row_lt n
  ⟨mkNode (colF n) ⟨(n : ℕ) / nx - 1, (Nat.sub_le _ _).trans_lt hr⟩,
    mkNode (colF n) ⟨min ((n : ℕ) / nx + 1) (ny - 1),
      (min_le_right _ _).trans_lt (Nat.sub_lt (ny_pos_of_node n) one_pos)⟩,
    mkNode_col _ _, mkNode_col _ _, mkNode_row _ _, mkNode_row _ _⟩

end

/-! ## The interpolation never does anything -/

/-- C130: the shear rate at the nodes is the same as if astropy had not been called. -/
theorem c130_rate {P : GP K} {ns : ℕ} {interp : Interp K P.N} (hI : Copies interp) {big M_tol : K}
    (hM : 0 < M_tol) (G : Grid K P.N ns) :
    G.calcGammadot (nx := P.nx) (ny := P.ny) interp big M_tol =
      G.calcGammadot (nx := P.nx) (ny := P.ny) (fun Z => Z) big M_tol := by
  have e : ∀ (q : Fin P.N → K), calcGradient (nx := P.nx) (ny := P.ny) interp big M_tol G
      (fun n => .fin (q n) / .fin (G.m n)) = calcGradient (nx := P.nx) (ny := P.ny) (fun Z => Z) big M_tol G
      (fun n => .fin (q n) / .fin (G.m n)) := by
    intro q
    unfold calcGradient
    rw [hI _ fun k hk => ?_]
    have : G.m k ≠ 0 := (hM.trans_le (not_lt.1 (of_decide_eq_false hk))).ne'
    change (.fin (q k) / .fin (G.m k) : XF K) ≠ .nan
    rw [XF.fin_div _ this]
    exact fun h => by cases h
  unfold Grid.calcGammadot
  dsimp only
  rw [e, e]

/-- The finite gradient of any field on a grid with spacing. -/
theorem calcGradient_finite {P : GP K} (hP : GoodGrid P) {ns : ℕ} {interp : Interp K P.N}
    {big M_tol : K} {G : Grid K P.N ns} (hG : Geometry P G) (Z : Fin P.N → XF K) (n : Fin P.N)
    (i : Fin 3) : ∃ x, calcGradient (nx := P.nx) (ny := P.ny) interp big M_tol G Z n i = .fin x := by
  have hx := (cellX_pos hP).ne'
  have hy := (cellY_pos hP).ne'
  rw [← hG.dx] at hx
  rw [← hG.dy] at hy
  have key : ∀ {m : ℕ} (hm : 2 ≤ m) {h : K} (hh : h ≠ 0) (mk : Fin m → Bool) (f : Fin m → K)
      (j : Fin m), ∃ x, maGradient h mk (fun j => .fin (f j)) j = .fin x := by
    intro m hm h hh mk f j
    unfold maGradient
    split
    · exact ⟨_, rfl⟩
    · exact ⟨_, npGradient_fin hm hh (fun _ => rfl) j⟩
  fin_cases i
  · exact key hP.nx hx (fun ix => stillMasked (nx := P.nx) (ny := P.ny) interp M_tol G Z
      (mkNode ix (rowF n))) (fun ix => (interp (fun k => (decide (G.m k < M_tol), Z k))
        (mkNode (nx := P.nx) (ny := P.ny) ix (rowF n))).2.nanToNum big) (colF n)
  · exact key hP.ny hy (fun iy => stillMasked (nx := P.nx) (ny := P.ny) interp M_tol G Z
      (mkNode (colF n) iy)) (fun iy => (interp (fun k => (decide (G.m k < M_tol), Z k))
        (mkNode (nx := P.nx) (ny := P.ny) (colF n) iy)).2.nanToNum big) (rowF n)
  · exact ⟨0, rfl⟩

/-- The kinetic stress at nodes that are not empty is a number. -/
theorem pk_number {ops : Ops K} {g p : XF K} {s m rho : K} (hg : ∃ x, g = .fin x)
    (hp : ∃ x, p = .fin x) (hm : m ≠ 0) (hr : 0 ≤ rho) :
    ∃ x, g.abs * .fin s * XF.sqrt ops.sqrt (.fin rho * (p / .fin m).abs) = .fin x := by
  obtain ⟨x, rfl⟩ := hg
  obtain ⟨y, rfl⟩ := hp
  rw [XF.fin_div _ hm]
  refine ⟨|x| * s * ops.sqrt (rho * |y / m|), ?_⟩
  simp only [XF.abs, XF.fin_mul, XF.sqrt]
  rw [if_neg (not_lt.2 (mul_nonneg hr (abs_nonneg _))), XF.fin_mul]

/-- C130: neither does the driving gradient of segregation depend on astropy. -/
theorem c130_pk {P : GP K} {ns : ℕ} {interp : Interp K P.N} (hI : Copies interp)
    {ops : Ops K} {M_tol rho_s : K} (hM : 0 < M_tol) (hr : 0 ≤ rho_s) {G : Grid K P.N ns}
    (hg : ∀ k, ∃ x, G.vis .gammadot k = .fin x) (hp : ∀ k, ∃ x, G.vis .pressure k = .fin x) :
    G.updatePk (nx := P.nx) (ny := P.ny) interp ops M_tol rho_s =
      G.updatePk (nx := P.nx) (ny := P.ny) (fun Z => Z) ops M_tol rho_s := by
  have e : calcGradient (nx := P.nx) (ny := P.ny) interp ops.big M_tol G (fun n =>
      (G.vis .gammadot n).abs * .fin (G.s_bar n) *
        XF.sqrt ops.sqrt (.fin rho_s * (G.vis .pressure n / .fin (G.m n)).abs)) =
      calcGradient (nx := P.nx) (ny := P.ny) (fun Z => Z) ops.big M_tol G (fun n =>
      (G.vis .gammadot n).abs * .fin (G.s_bar n) *
        XF.sqrt ops.sqrt (.fin rho_s * (G.vis .pressure n / .fin (G.m n)).abs)) := by
    unfold calcGradient
    rw [hI _ fun k hk => ?_]
    have : G.m k ≠ 0 := (hM.trans_le (not_lt.1 (of_decide_eq_false hk))).ne'
    obtain ⟨x, hx⟩ := pk_number (ops := ops) (s := G.s_bar k) (hg k) (hp k) this hr
    change (G.vis .gammadot k).abs * .fin (G.s_bar k) *
        XF.sqrt ops.sqrt (.fin rho_s * (G.vis .pressure k / .fin (G.m k)).abs) ≠ .nan
    rw [hx]
    exact fun h => by cases h
  unfold Grid.updatePk
  dsimp only
  rw [e]

theorem gridPhase_pressure {P : Par K} {s s1 : St P} (hP : GoodGrid P.G) (hL : Counted s.L)
    (hd : ∀ a ∈ s.L, a.ph.law ≠ .dp_rate) (h : gridPhase P s = .ok s1) (k : Fin P.G.N) :
    ∃ x, s1.G.vis .pressure k = .fin x := by
  by_cases hc : P.B.cyclic_lr = true
  · exact ⟨_, c94_pressure hL hP.nx hc hd h k⟩
  · exact ⟨_, c77_pressure hL (Bool.eq_false_iff.2 hc) hd h k⟩

theorem res_congr {α β : Type} {x : Res α} {f g : α → Res β} (h : ∀ a, x = .ok a → f a = g a) :
    (x >>= f) = x >>= g := by
  cases x with
  | error e => rfl
  | ok a => exact h a rfl

theorem momentumPhase_astropy {P : Par K} {interp : Interp K P.G.N} (hI : Copies interp)
    (hM : 0 < P.M_tol) (s : St P) :
    momentumPhase P interp s = momentumPhase P (fun Z => Z) s := by
  unfold momentumPhase
  refine congrArg (fun f => _ >>= f) (funext fun G => ?_)
  exact congrArg (fun G => (Except.ok { s with G := G } : Res (St P))) (c130_rate hI hM _)

theorem momentumPhase_vis {P : Par K} {interp : Interp K P.G.N} (hP : GoodGrid P.G) {s s' : St P}
    (g : Geometry P.G s.G) (h : momentumPhase P interp s = .ok s') (k : Fin P.G.N) :
    (∃ x, s'.G.vis .gammadot k = .fin x) ∧ s'.G.vis .pressure k = s.G.vis .pressure k := by
  unfold momentumPhase at h
  obtain ⟨G1, h1, h⟩ := res_bind_ok.1 h
  have e1 := BCs_frame h1
  have t1 : SameStatic s.G G1 := by
    rw [e1]; refine ⟨?_, rfl, rfl⟩; constructor <;> rfl
  obtain ⟨t2, -⟩ := updateMomentum_table (B := P.B) (damping := P.damping)
    (dt := s.dyn.dt) (v0 := P.v_0) G1
  have g2 : Geometry P.G (G1.updateMomentum P.B P.damping s.dyn.dt P.v_0) :=
    (t1.toSameTable.trans t2).geometry g
  cases h
  constructor
  · change ∃ x, ((G1.updateMomentum P.B P.damping s.dyn.dt P.v_0).calcGammadot (nx := P.G.nx)
      (ny := P.G.ny) interp P.ops.big P.M_tol).vis .gammadot k = .fin x
    generalize G1.updateMomentum P.B P.damping s.dyn.dt P.v_0 = G2 at g2
    unfold Grid.calcGammadot
    simp only [Function.update_self]
    obtain ⟨x, hx⟩ := calcGradient_finite (interp := interp) (big := P.ops.big) (M_tol := P.M_tol) hP g2
      (fun n => .fin (G2.q n 0) / .fin (G2.m n)) k 1
    obtain ⟨y, hy⟩ := calcGradient_finite (interp := interp) (big := P.ops.big) (M_tol := P.M_tol) hP g2
      (fun n => .fin (G2.q n 1) / .fin (G2.m n)) k 0
    exact ⟨x + y, by rw [hx, hy]; rfl⟩
  · have ev : (G1.updateMomentum P.B P.damping s.dyn.dt P.v_0).vis = s.G.vis := by
      have : G1.vis = s.G.vis := by rw [e1]
      rw [← this]
      rfl
    refine Eq.trans (b := (G1.updateMomentum P.B P.damping s.dyn.dt P.v_0).vis .pressure k) ?_
      (by rw [ev])
    generalize G1.updateMomentum P.B P.damping s.dyn.dt P.v_0 = G2
    have hne : Vis.pressure ≠ Vis.gammadot := by decide
    change (G2.calcGammadot (nx := P.G.nx) (ny := P.G.ny) interp P.ops.big P.M_tol).vis .pressure k = _
    unfold Grid.calcGammadot
    dsimp only
    rw [Function.update_of_ne hne]

/-- C130: a time step is the same as if astropy had not been called. -/
theorem c130_step {P : Par K} (hP : GoodGrid P.G) {interp : Interp K P.G.N} (hI : Copies interp)
    (hM : 0 < P.M_tol) {s : St P} (g : Geometry P.G s.G) (hL : Counted s.L)
    (hd : ∀ a ∈ s.L, a.ph.law ≠ .dp_rate) (hr : ∀ a ∈ s.L, 0 ≤ a.ph.par.rho_s) :
    timeMarch P interp s = timeMarch P (fun Z => Z) s := by
  unfold timeMarch
  refine res_congr fun s1 h1 => ?_
  have hp := gridPhase_pressure hP hL hd h1
  rw [momentumPhase_astropy hI hM]
  refine res_congr fun s2 h2 => ?_
  have e3 : segregationPhase P interp s2 = segregationPhase P (fun Z => Z) s2 := by
    obtain ⟨T, e1⟩ := gridPhase_ok h1
    have g1 : Geometry P.G s1.G := by
      rw [e1]; exact T.static.2.2.2.1.toSameTable.geometry g
    have hv := momentumPhase_vis hP g1 h2
    have hr2 : 0 ≤ ((mat0 s2.L).map (·.rho_s)).getD 0 := by
      rw [(momentumPhase_table h2).2.1, e1]
      change 0 ≤ ((mat0 T.Ld).map (·.rho_s)).getD 0
      rw [(T.rel hL).1.mat0]
      cases hs : s.L with
      | nil => exact le_rfl
      | cons a l => exact hr a (by rw [hs]; exact List.mem_cons_self)
    have e := c130_pk hI (ops := P.ops) hM hr2 (fun k => (hv k).1)
      (fun k => by rw [(hv k).2]; exact hp k)
    unfold segregationPhase
    dsimp only
    rw [e]
  rw [e3]

/-- C130: so is any number of time steps. -/
theorem c130_steps {P : Par K} (hP : GoodGrid P.G) {interp : Interp K P.G.N} (hI : Copies interp)
    (hM : 0 < P.M_tol) (n : ℕ) {s : St P} (g : Geometry P.G s.G) (hL : Counted s.L)
    (hd : ∀ a ∈ s.L, a.ph.law ≠ .dp_rate) (hr : ∀ a ∈ s.L, 0 ≤ a.ph.par.rho_s) :
    steps P interp n s = steps P (fun Z => Z) n s := by
  induction n generalizing s with
  | zero => rfl
  | succ n ih =>
    change (timeMarch P interp s >>= fun s => steps P interp n (stepTime P s)) =
      (timeMarch P (fun Z => Z) s >>= fun s => steps P (fun Z => Z) n (stepTime P s))
    rw [c130_step hP hI hM g hL hd hr]
    refine res_congr fun s1 h1 => ?_
    have hl : ∀ a ∈ s1.L, ∃ b ∈ s.L, b.ph.law = a.ph.law ∧ b.ph.par = a.ph.par := by
      obtain ⟨_, _, _, _, _, _, _, _, _, _, h⟩ := timeMarch_points hL h1
      intro B hB
      obtain ⟨i, hi⟩ := List.getElem?_of_mem hB
      obtain ⟨A, hA, hr⟩ := h.left hi
      exact ⟨A, List.mem_of_getElem? hA, (congrArg Phase.law hr.1).symm, (congrArg Phase.par hr.1).symm⟩
    refine ih (s := stepTime P s1) ((timeMarch_table h1).1.geometry g)
      (timeMarch_counted hL h1 : Counted s1.L) (fun a ha => ?_) fun a ha => ?_
    · obtain ⟨b, hb, e, -⟩ := hl a ha
      rw [← e]; exact hd b hb
    · obtain ⟨b, hb, -, e⟩ := hl a ha
      rw [← e]; exact hr b hb

/-! ## What the gradients are -/

theorem Spec.Across.span {P : GP K} (hP : GoodGrid P) {w n e : Fin P.N} (h : Across P.nx w n e) :
    0 < (e : ℕ) - w := by
  have hc := node_col_lt (nx := P.nx) (ny := P.ny) n
  have h1 := hP.nx
  rw [node_eq (nx := P.nx) (ny := P.ny) e, node_eq (nx := P.nx) (ny := P.ny) w, h.row_e, h.row_w,
    h.east, h.west]
  omega

theorem Spec.Upright.span {P : GP K} (hP : GoodGrid P) {s n t : Fin P.N}
    (h : Upright P.nx P.ny s n t) : 0 < (t : ℕ) / P.nx - (s : ℕ) / P.nx := by
  have hc := node_row_lt (nx := P.nx) (ny := P.ny) n
  have h1 := hP.ny
  rw [h.north, h.south]
  generalize (n : ℕ) / P.nx = r at hc
  omega

section
variable {P : GP K} {ns : ℕ} {interp : Interp K P.N} {big M_tol : K} {G : Grid K P.N ns}
  {Z : Fin P.N → XF K} {z : Fin P.N → K} {w n e s t : Fin P.N}

/-- C130: the derivative along `x`.  Between two nodes that are not empty it is the difference
quotient.  If the right one is not empty and the left one is, it is the value of the field at the
right one, whatever the spacing.  If the right one is empty it is what is stored there. -/
theorem c130_across (hP : GoodGrid P) (hG : Geometry P G) (hI : Copies interp)
    (hZ : ∀ k, M_tol ≤ G.m k → Z k = .fin (z k)) (h : Across P.nx w n e) :
    (M_tol ≤ G.m e → M_tol ≤ G.m w →
      calcGradient (nx := P.nx) (ny := P.ny) interp big M_tol G Z n 0 =
        .fin ((z e - z w) / ((((e : ℕ) - w : ℕ) : K) * cellX P))) ∧
    (M_tol ≤ G.m e → G.m w < M_tol →
      calcGradient (nx := P.nx) (ny := P.ny) interp big M_tol G Z n 0 = .fin (z e)) ∧
    (G.m e < M_tol →
      calcGradient (nx := P.nx) (ny := P.ny) interp big M_tol G Z n 0 =
        .fin ((Z e).nanToNum big)) := by
  have h1 := calcGradient_x (nx := P.nx) (ny := P.ny) (Z := Z) (big := big) hI (fun k hk => by rw [hZ k hk]; exact fun h => by cases h) h
  have hs : (((e : ℕ) - w : ℕ) : K) ≠ 0 := Nat.cast_ne_zero.2 (h.span hP).ne'
  rw [hG.dx] at h1
  refine ⟨fun a b => ?_, fun a b => ?_, fun a => ?_⟩
  · rw [h1, if_neg (not_or.2 ⟨not_lt.2 a, not_lt.2 b⟩), hZ e a, hZ w b]
    change (XF.fin (z e) - XF.fin (z w)) / XF.fin _ = _
    rw [XF.fin_sub, XF.fin_div _ (mul_ne_zero hs (cellX_pos hP).ne')]
  · rw [h1, if_pos (.inr b), hZ e a]
    rfl
  · rw [h1, if_pos (.inl a)]

/-- C130: the derivative along `y`. -/
theorem c130_upright (hP : GoodGrid P) (hG : Geometry P G) (hI : Copies interp)
    (hZ : ∀ k, M_tol ≤ G.m k → Z k = .fin (z k)) (h : Upright P.nx P.ny s n t) :
    (M_tol ≤ G.m t → M_tol ≤ G.m s →
      calcGradient (nx := P.nx) (ny := P.ny) interp big M_tol G Z n 1 =
        .fin ((z t - z s) / ((((t : ℕ) / P.nx - s / P.nx : ℕ) : K) * cellY P))) ∧
    (M_tol ≤ G.m t → G.m s < M_tol →
      calcGradient (nx := P.nx) (ny := P.ny) interp big M_tol G Z n 1 = .fin (z t)) ∧
    (G.m t < M_tol →
      calcGradient (nx := P.nx) (ny := P.ny) interp big M_tol G Z n 1 =
        .fin ((Z t).nanToNum big)) := by
  have h1 := calcGradient_y (nx := P.nx) (ny := P.ny) (Z := Z) (big := big) hI (fun k hk => by rw [hZ k hk]; exact fun h => by cases h) h
  have hs : (((t : ℕ) / P.nx - s / P.nx : ℕ) : K) ≠ 0 := Nat.cast_ne_zero.2 (h.span hP).ne'
  rw [hG.dy] at h1
  refine ⟨fun a b => ?_, fun a b => ?_, fun a => ?_⟩
  · rw [h1, if_neg (not_or.2 ⟨not_lt.2 a, not_lt.2 b⟩), hZ t a, hZ s b]
    change (XF.fin (z t) - XF.fin (z s)) / XF.fin _ = _
    rw [XF.fin_sub, XF.fin_div _ (mul_ne_zero hs (cellY_pos hP).ne')]
  · rw [h1, if_pos (.inr b), hZ t a]
    rfl
  · rw [h1, if_pos (.inl a)]

/-- C130: a body that moves as a whole with velocity `(U, V)`, surrounded by empty nodes.  The stored
shear rate is not zero: it is `U` wherever the node below is empty and the one above is not, plus
`V` wherever the node to the left is empty and the one to the right is not (at the ends of a row or
column the node itself counts as its own neighbour). -/
theorem c130_rigid (hP : GoodGrid P) (hG : Geometry P G) (hI : Copies interp) (hM : 0 < M_tol)
    {U V : K} (he : ∀ k, G.m k < M_tol → G.m k = 0)
    (hu : ∀ k, G.q k 0 = G.m k * U) (hv : ∀ k, G.q k 1 = G.m k * V)
    (hx : Across P.nx w n e) (hy : Upright P.nx P.ny s n t) :
    (G.calcGammadot (nx := P.nx) (ny := P.ny) interp big M_tol).vis .gammadot n =
      .fin ((if G.m s < M_tol ∧ M_tol ≤ G.m t then U else 0) +
        if G.m w < M_tol ∧ M_tol ≤ G.m e then V else 0) := by
  have full : ∀ (q : Fin P.N → K) (U : K), (∀ k, q k = G.m k * U) → ∀ k, M_tol ≤ G.m k →
      (.fin (q k) / .fin (G.m k) : XF K) = .fin U := by
    intro q U hq k h
    have h0 : G.m k ≠ 0 := (hM.trans_le h).ne'
    rw [hq, XF.fin_div _ h0, mul_div_cancel_left₀ _ h0]
  have hole : ∀ (q : Fin P.N → K) (U : K), (∀ k, q k = G.m k * U) → ∀ k, G.m k < M_tol →
      (.fin (q k) / .fin (G.m k) : XF K).nanToNum big = 0 := by
    intro q U hq k h
    rw [hq, he k h, zero_mul]
    change XF.nanToNum big (if (0 : K) = 0 then (if (0 : K) = 0 then .nan else _) else _) = 0
    rw [if_pos rfl, if_pos rfl]
    rfl
  have h1 : calcGradient (nx := P.nx) (ny := P.ny) interp big M_tol G
      (fun n => .fin (G.q n 0) / .fin (G.m n)) n 1 =
      .fin (if G.m s < M_tol ∧ M_tol ≤ G.m t then U else 0) := by
    obtain ⟨a1, a2, a3⟩ := c130_upright (big := big) (z := fun _ => U) hP hG hI (full _ U hu) hy
    by_cases ht : M_tol ≤ G.m t
    · by_cases hs : M_tol ≤ G.m s
      · rw [a1 ht hs, if_neg fun h => absurd h.1 (not_lt.2 hs), sub_self, zero_div]
      · rw [a2 ht (not_le.1 hs), if_pos ⟨not_le.1 hs, ht⟩]
    · rw [a3 (not_le.1 ht), if_neg fun h => ht h.2, hole _ U hu t (not_le.1 ht)]
  have h2 : calcGradient (nx := P.nx) (ny := P.ny) interp big M_tol G
      (fun n => .fin (G.q n 1) / .fin (G.m n)) n 0 =
      .fin (if G.m w < M_tol ∧ M_tol ≤ G.m e then V else 0) := by
    obtain ⟨a1, a2, a3⟩ := c130_across (big := big) (z := fun _ => V) hP hG hI (full _ V hv) hx
    by_cases ht : M_tol ≤ G.m e
    · by_cases hs : M_tol ≤ G.m w
      · rw [a1 ht hs, if_neg fun h => absurd h.1 (not_lt.2 hs), sub_self, zero_div]
      · rw [a2 ht (not_le.1 hs), if_pos ⟨not_le.1 hs, ht⟩]
    · rw [a3 (not_le.1 ht), if_neg fun h => ht h.2, hole _ V hv e (not_le.1 ht)]
  unfold Grid.calcGammadot
  simp only [Function.update_self]
  rw [h1, h2, XF.fin_add]

end

/-! ## Without segregation none of this matters -/

theorem momentumPhase_any {P : Par K} (i j : Interp K P.G.N) (s : St P) :
    hideRate <$> momentumPhase P i s = hideRate <$> momentumPhase P j s := by
  unfold momentumPhase
  cases s.G.BCs P.B s.dyn.q_v s.dyn.q_h (((mat0 s.L).map (·.rho)).getD 0)
    (P.aniso && decide (s.dyn.t = 0)) with
  | error e => rfl
  | ok G =>
    refine congrArg Except.ok ?_
    unfold hideRate Grid.calcGammadot
    simp only [Function.update_idem]

theorem segregation_off {P : Par K} (hs : P.segregate_grid = false) (i : Interp K P.G.N) (s : St P) :
    segregationPhase P i s = .ok s := by
  unfold segregationPhase
  rw [hs]
  rfl

theorem map_bind_hide {P : Par K} {f g : St P → Res (St P)}
    (h : ∀ t, hideRate <$> f t = g (hideRate t)) (x : Res (St P)) :
    hideRate <$> (x >>= f) = (hideRate <$> x) >>= g := by
  cases x with
  | error e => rfl
  | ok t => exact h t

theorem timeMarch_any {P : Par K} (hs : P.segregate_grid = false) (i j : Interp K P.G.N) (s : St P) :
    hideRate <$> timeMarch P i s = hideRate <$> timeMarch P j s := by
  have e : ∀ i : Interp K P.G.N, timeMarch P i s =
      gridPhase P s >>= fun s1 => momentumPhase P i s1 >>= pointsPhase P := by
    intro i
    unfold timeMarch
    refine res_congr fun s1 _ => res_congr fun s2 _ => ?_
    rw [segregation_off hs]
    rfl
  rw [e, e]
  cases gridPhase P s with
  | error e => rfl
  | ok s1 =>
    refine (map_bind_hide (g := pointsPhase P) (fun t => (pointsPhase_hide P t).symm)
      (momentumPhase P i s1)).trans ?_
    rw [momentumPhase_any i j]
    exact (map_bind_hide (g := pointsPhase P) (fun t => (pointsPhase_hide P t).symm)
      (momentumPhase P j s1)).symm

theorem steps_unfold {P : Par K} (k : Interp K P.G.N) (n : ℕ) (s : St P) :
    steps P k (n + 1) s = timeMarch P k s >>= fun s => steps P k n (stepTime P s) := rfl

/-- C130: without segregation the points, and everything at the nodes but the shear rate, do not
depend on the gradients at all. -/
theorem c130_unsegregated {P : Par K} (hs : P.segregate_grid = false) (i j : Interp K P.G.N)
    (n : ℕ) (s : St P) : hideRate <$> steps P i n s = hideRate <$> steps P j n s := by
  induction n generalizing s with
  | zero => rfl
  | succ n ih =>
    have e : ∀ (k : Interp K P.G.N) (t : St P), hideRate <$> steps P k n (stepTime P t) =
        hideRate <$> steps P k n (stepTime P (hideRate t)) := by
      intro k t
      exact (steps_hide P k n (stepTime P t)).symm
    rw [steps_unfold, steps_unfold,
      map_bind_hide (g := fun s => hideRate <$> steps P i n (stepTime P s)) (e i),
      map_bind_hide (g := fun s => hideRate <$> steps P j n (stepTime P s)) (e j),
      timeMarch_any hs i j]
    exact res_congr fun t _ => ih (stepTime P t)

/-! ## Left and right -/

theorem hide_flip {P : Par K} (t : St P) :
    hideRate (flipSt t) = hideRate (flipSt (hideRate t)) := by
  unfold hideRate
  have e : ∀ f g : Vis → Fin P.G.N → XF K, (∀ v, v ≠ .gammadot → f v = g v) →
      Function.update ((mirror P.G).vis (-1) f) .gammadot (fun _ => .fin 0) =
      Function.update ((mirror P.G).vis (-1) g) .gammadot (fun _ => .fin 0) := by
    intro f g h
    funext v
    by_cases hv : v = .gammadot
    · subst hv
      rw [Function.update_self, Function.update_self]
    · have hv' : (mirror P.G).A.vis v ≠ .gammadot := fun h => hv (((mirror P.G).A.vis_gamma v).1 h)
      rw [Function.update_of_ne hv, Function.update_of_ne hv]
      funext k
      unfold Sym.vis
      rw [if_neg hv, if_neg hv, h _ hv']
  have e1 := e t.G.vis (Function.update t.G.vis .gammadot fun _ => .fin 0)
    fun v hv => (Function.update_of_ne hv _ _).symm
  exact congrArg (fun vis => ({ flipSt t with G := { (flipSt t).G with vis := vis } } : St (flipPar P))) e1

/-- An interpolation that fills everything with zeros. -/
def zeros (K : Type) [Field K] [LinearOrder K] (N : ℕ) : Interp K N := fun _ _ => (false, .fin 0)

theorem zeros_odd (N : ℕ) : OddInterp (zeros K N) := by
  intro Z n
  change ((false, .fin 0) : Bool × XF K) = (false, -.fin 0)
  have : (-.fin 0 : XF K) = .fin 0 := congrArg XF.fin neg_zero
  rw [this]

theorem hidden_of {P : Par K} {i j : Interp K P.G.N} (hs : P.segregate_grid = false) {n : ℕ}
    {s s' : St P} (h : steps P i n s = .ok s') :
    ∃ t, steps P j n s = .ok t ∧ hideRate t = hideRate s' := by
  have e := c130_unsegregated hs i j n s
  rw [h] at e
  cases h2 : steps P j n s with
  | error e' => rw [h2] at e; cases e
  | ok t => rw [h2] at e; exact ⟨t, rfl, (Except.ok.inj e).symm⟩

/-- C115: without segregation left and right are treated alike whatever is done to empty nodes, the
stored nodal shear rate apart. -/
theorem c115_unsegregated {P : Par K} (hs : P.segregate_grid = false) (i : Interp K P.G.N)
    (j : Interp K (flipPar P).G.N) (hP : GoodGrid P.G) (hB : BothSides P.B) {n : ℕ} {s : St P}
    (g : Geometry P.G s.G) (hc : Counted s.L)
    (hin : ∀ m < n, ∀ s', steps P i m s = .ok s' → ∀ mp ∈ points s'.L,
      InDomain P.G mp.x ∧ ∀ i : ℕ, mp.x 0 ≠ nodeX P.G i) :
    hideRate <$> steps (flipPar P) j n (flipSt s) =
      (fun t => hideRate (flipSt t)) <$> steps P i n s := by
  have h := c115_steps (zeros_odd P.G.N) (fun _ _ => rfl) hP hB g hc (n := n) (s := s)
    fun m hm s' h' => by
      obtain ⟨t, ht, e⟩ := hidden_of (j := i) hs h'
      have eL : s'.L = t.L := (congrArg St.L e).symm
      rw [eL]
      exact hin m hm t ht
  have hs' : (flipPar P).segregate_grid = false := hs
  rw [c130_unsegregated hs' j (flipInterp (zeros K P.G.N)) n (flipSt s), h]
  have e := c130_unsegregated hs i (zeros K P.G.N) n s
  have e2 : ∀ x : Res (St P), (fun t => hideRate (flipSt t)) <$> x =
      (fun t => hideRate (flipSt t)) <$> (hideRate <$> x) := by
    intro x
    cases x with
    | error e => rfl
    | ok t => exact congrArg Except.ok (hide_flip t)
  rw [e2, e, ← e2]
  cases steps P (zeros K P.G.N) n s <;> rfl

/-- C115: a state that is its own mirror image stays so, the stored nodal shear rate apart. -/
theorem c115_symmetric_unsegregated {P : Par K} (hs : P.segregate_grid = false)
    (i : Interp K P.G.N) (hP : GoodGrid P.G) (hB : BothSides P.B) (hS : Symmetric P)
    {n : ℕ} {s s' : St P} (g : Geometry P.G s.G) (hc : Counted s.L)
    (hin : ∀ m < n, ∀ s', steps P i m s = .ok s' → ∀ mp ∈ points s'.L,
      InDomain P.G mp.x ∧ ∀ i : ℕ, mp.x 0 ≠ nodeX P.G i)
    (h : steps P i n s = .ok s') (hM : Mirrored s) : Mirrored (hideRate s') := by
  obtain ⟨t, ht, e⟩ := hidden_of (j := zeros K P.G.N) hs h
  have hm := c115_symmetric (zeros_odd P.G.N) (fun _ _ => rfl) rfl hP hB hS g hc (fun m hm s' h' => by
      obtain ⟨t, ht, e⟩ := hidden_of (j := i) hs h'
      have eL : s'.L = t.L := (congrArg St.L e).symm
      rw [eL]
      exact hin m hm t ht) ht hM
  rw [← e]
  refine ⟨?_, hm.2⟩
  have e1 : (mirror P.G).vis (-1) (Function.update t.G.vis .gammadot fun _ => .fin 0) =
      Function.update ((mirror P.G).vis (-1) t.G.vis) .gammadot fun _ => .fin 0 := by
    funext v k
    by_cases hv : v = .gammadot
    · subst hv
      unfold Sym.vis
      rw [Function.update_self, if_pos rfl, Function.update_self]
      exact signX_zero _
    · have hv' : (mirror P.G).A.vis v ≠ .gammadot := fun h => hv (((mirror P.G).A.vis_gamma v).1 h)
      rw [Function.update_of_ne hv]
      unfold Sym.vis
      rw [if_neg hv, if_neg hv, Function.update_of_ne hv']
  refine (congrArg (fun vis => ({ (flipSt t).G with vis := vis } : Grid K P.G.N P.G.ns)) e1).trans ?_
  exact congrArg (fun G : Grid K P.G.N P.G.ns =>
    ({ G with vis := Function.update G.vis .gammadot fun _ => .fin 0 } : Grid K P.G.N P.G.ns)) hm.1

/-! ## Grids without empty nodes -/

/-- In none of the next `n` steps there is an empty node. -/
def Spec.Covered (P : Par K) (i : Interp K P.G.N) (n : ℕ) (s : St P) : Prop :=
  ∀ m < n, ∀ s1, steps P i m s = .ok s1 → ∀ s2, gridPhase P s1 = .ok s2 → ∀ k, P.M_tol ≤ s2.G.m k

theorem calcGradient_agree {nx ny ns : ℕ} {i j : Interp K (ny * nx)}
    (hA : ∀ Z, (∀ k, (Z k).1 = false) → i Z = j Z) {big M_tol : K} {G : Grid K (ny * nx) ns}
    (hm : ∀ k, M_tol ≤ G.m k) (Z : Fin (ny * nx) → XF K) :
    calcGradient i big M_tol G Z = calcGradient j big M_tol G Z := by
  unfold calcGradient
  rw [hA _ fun k => decide_eq_false (not_lt.2 (hm k))]

theorem timeMarch_agree {P : Par K} {i j : Interp K P.G.N}
    (hA : ∀ Z, (∀ k, (Z k).1 = false) → i Z = j Z) {s : St P}
    (hm : ∀ s2, gridPhase P s = .ok s2 → ∀ k, P.M_tol ≤ s2.G.m k) :
    timeMarch P i s = timeMarch P j s := by
  unfold timeMarch
  refine res_congr fun s1 h1 => ?_
  have e2 : momentumPhase P i s1 = momentumPhase P j s1 := by
    unfold momentumPhase
    refine res_congr fun G hG => ?_
    have hm' : ∀ k, P.M_tol ≤ (G.updateMomentum P.B P.damping s1.dyn.dt P.v_0).m k := by
      have e1 := BCs_frame hG
      have m1 : G.m = s1.G.m := by rw [e1]
      have m2 := (updateMomentum_table (B := P.B) (damping := P.damping)
        (dt := s1.dyn.dt) (v0 := P.v_0) G).2.1
      rw [m2, m1]
      exact hm s1 h1
    refine congrArg (fun G => (Except.ok { s1 with G := G } : Res (St P))) ?_
    generalize G.updateMomentum P.B P.damping s1.dyn.dt P.v_0 = G2 at hm'
    unfold Grid.calcGammadot
    dsimp only
    rw [calcGradient_agree hA hm', calcGradient_agree hA hm']
  rw [e2]
  refine res_congr fun s2 h2 => ?_
  have hm2 : ∀ k, P.M_tol ≤ s2.G.m k := by
    rw [(momentumPhase_table h2).2.2.2.1]
    exact hm s1 h1
  have e3 : segregationPhase P i s2 = segregationPhase P j s2 := by
    have e : ∀ ops : Ops K, ∀ rho, s2.G.updatePk (nx := P.G.nx) (ny := P.G.ny) i ops P.M_tol rho =
        s2.G.updatePk (nx := P.G.nx) (ny := P.G.ny) j ops P.M_tol rho := by
      intro ops rho
      unfold Grid.updatePk
      dsimp only
      rw [calcGradient_agree hA hm2]
    unfold segregationPhase
    dsimp only
    rw [e]
  rw [e3]

theorem steps_agree {P : Par K} {i j : Interp K P.G.N}
    (hA : ∀ Z, (∀ k, (Z k).1 = false) → i Z = j Z) (n : ℕ) {s : St P} (hc : Covered P i n s) :
    steps P i n s = steps P j n s := by
  induction n generalizing s with
  | zero => rfl
  | succ n ih =>
    rw [steps_unfold, steps_unfold, ← timeMarch_agree hA (hc 0 (Nat.succ_pos n) s rfl)]
    refine res_congr fun s1 h1 => ih fun m hm s' hs' => ?_
    exact hc (m + 1) (Nat.succ_lt_succ hm) s' (steps_succ.2 ⟨s1, h1, hs'⟩)

theorem steps_keep {P : Par K} {i : Interp K P.G.N} (n : ℕ) {s s' : St P} (g : Geometry P.G s.G)
    (hc : Counted s.L) (h : steps P i n s = .ok s') : Geometry P.G s'.G ∧ Counted s'.L := by
  induction n generalizing s with
  | zero => cases h; exact ⟨g, hc⟩
  | succ n ih =>
    obtain ⟨s1, h1, h⟩ := steps_succ.1 h
    exact ih (s := stepTime P s1) ((timeMarch_table h1).1.geometry g)
      (timeMarch_counted hc h1 : Counted s1.L) h

/-- An interpolation followed by removing the mask. -/
def cleared {N : ℕ} (i : Interp K N) : Interp K N := fun Z k => (false, (i Z k).2)

/-- C115: left and right are treated alike, segregation included, as long as no node is empty in any
of the steps. -/
theorem c115_covered {P : Par K} {interp : Interp K P.G.N} (hI : OddInterp interp)
    (hU : ∀ Z, (∀ k, (Z k).1 = false) → ∀ k, (interp Z k).1 = false)
    (hP : GoodGrid P.G) (hB : BothSides P.B) {n : ℕ} {s : St P} (g : Geometry P.G s.G)
    (hc : Counted s.L) (hC : Covered P interp n s)
    (hin : ∀ m < n, ∀ s', steps P interp m s = .ok s' → ∀ mp ∈ points s'.L,
      InDomain P.G mp.x ∧ ∀ i : ℕ, mp.x 0 ≠ nodeX P.G i) :
    steps (flipPar P) (flipInterp interp) n (flipSt s) = flipSt <$> steps P interp n s := by
  have hA : ∀ Z, (∀ k, (Z k).1 = false) → interp Z = cleared interp Z := fun Z hZ =>
    funext fun k => Prod.ext (hU Z hZ k) rfl
  have hO : OddInterp (cleared interp) := fun Z k =>
    Prod.ext rfl (by have h := congrArg Prod.snd (hI Z k); exact h)
  have sub : ∀ m ≤ n, Covered P interp m s := fun m hm k hk => hC k (hk.trans_le hm)
  have same : ∀ m ≤ n, steps P interp m s = steps P (cleared interp) m s := fun m hm =>
    steps_agree hA m (sub m hm)
  have hin' : ∀ m < n, ∀ s', steps P (cleared interp) m s = .ok s' → ∀ mp ∈ points s'.L,
      InDomain P.G mp.x ∧ ∀ i : ℕ, mp.x 0 ≠ nodeX P.G i := fun m hm s' h =>
    hin m hm s' ((same m hm.le).trans h)
  have key : ∀ m ≤ n, steps (flipPar P) (flipInterp (cleared interp)) m (flipSt s) =
      flipSt <$> steps P interp m s := fun m hm => by
    rw [same m hm]
    exact c115_steps hO (fun _ _ => rfl) hP hB g hc fun k hk => hin' k (hk.trans_le hm)
  have hA' : ∀ Z, (∀ k, (Z k).1 = false) →
      flipInterp (cleared interp) Z = flipInterp interp Z := fun Z hZ =>
    funext fun k => (congrFun (hA (fun n => Z ((mirror P.G).e n)) fun k => hZ _) _).symm
  have hC' : Covered (flipPar P) (flipInterp (cleared interp)) n (flipSt s) := by
    intro m hm s1 h1 s2 h2 k
    rw [key m hm.le] at h1
    cases h3 : steps P interp m s with
    | error e => rw [h3] at h1; cases h1
    | ok t =>
      rw [h3] at h1
      have e1 : s1 = flipSt t := (Except.ok.inj h1).symm
      obtain ⟨gt, ct⟩ := steps_keep m g hc h3
      have h4 := gridPhase_sym (r := -1) (mirror_ok P.G) hB.flags (mirror_geo hP) gt ct
        (fun a ha mp hmp => hin m hm t h3 mp (List.mem_flatMap.2 ⟨a, ha, hmp⟩))
        (fun h => absurd h Bool.false_ne_true)
      rw [e1] at h2
      have h5 := h2.symm.trans h4
      cases h6 : gridPhase P t with
      | error e => rw [h6] at h5; cases h5
      | ok t2 =>
        rw [h6] at h5
        rw [Except.ok.inj h5]
        exact hC m hm t h3 t2 h6 _
  rw [← key n le_rfl]
  exact (steps_agree hA' n hC').symm

/-- A body that rises or falls without turning, its own mirror image: the stored shear rate has one
value at a node with nothing on its left and the body on its right, and another, not minus the
first, at the mirror image of that node. -/
theorem c130_mirror {P : GP K} {ns : ℕ} {interp : Interp K P.N} {big M_tol : K}
    {G : Grid K P.N ns} {s w n e t s' w' n' e' t' : Fin P.N}
    (hP : GoodGrid P) (hG : Geometry P G) (hI : Copies interp) (hM : 0 < M_tol)
    {V : K} (he : ∀ k, G.m k < M_tol → G.m k = 0) (hu : ∀ k, G.q k 0 = 0)
    (hv : ∀ k, G.q k 1 = G.m k * V)
    (hx : Across P.nx w n e) (hy : Upright P.nx P.ny s n t)
    (hx' : Across P.nx w' n' e') (hy' : Upright P.nx P.ny s' n' t')
    (h1 : G.m w < M_tol) (h2 : M_tol ≤ G.m e) (h3 : G.m w' = G.m e) (h4 : G.m e' = G.m w) :
    (G.calcGammadot (nx := P.nx) (ny := P.ny) interp big M_tol).vis .gammadot n = .fin V ∧
    (G.calcGammadot (nx := P.nx) (ny := P.ny) interp big M_tol).vis .gammadot n' = .fin 0 := by
  have hu' : ∀ k, G.q k 0 = G.m k * 0 := fun k => by rw [hu, mul_zero]
  constructor
  · rw [c130_rigid hP hG hI hM he hu' hv hx hy, ite_self, if_pos ⟨h1, h2⟩, zero_add]
  · rw [c130_rigid hP hG hI hM he hu' hv hx' hy', ite_self, zero_add,
      if_neg fun h => absurd h.1 (not_lt.2 (h3 ▸ h2))]

end

/-- A column of mass in the middle of the grid, falling: the stored shear rate is its speed on the
left and zero on the right. -/
example (V : ℚ) : ∃ G : Grid ℚ Ex.gp.N 2, Geometry Ex.gp G ∧ (∀ k, G.q k 1 = G.m k * V) ∧
    (G.calcGammadot (nx := Ex.gp.nx) (ny := Ex.gp.ny) Ex.asIs 1 (1/2)).vis .gammadot
      ⟨3, by decide +kernel⟩ = .fin V ∧
    (G.calcGammadot (nx := Ex.gp.nx) (ny := Ex.gp.ny) Ex.asIs 1 (1/2)).vis .gammadot
      ⟨5, by decide +kernel⟩ = .fin 0 := by
  obtain ⟨G0, h0⟩ := mkGrid_exists Ex.bp Ex.good
  have hG0 := mkGrid_geometry h0
  let m : Fin Ex.gp.N → ℚ := fun k => if (k : ℕ) % 3 = 1 then 1 else 0
  let G : Grid ℚ Ex.gp.N 2 := { G0 with m := m, q := fun k => ![0, m k * V, 0] }
  have hG : Geometry Ex.gp G := ⟨hG0.dx, hG0.dy, hG0.X, hG0.Y⟩
  refine ⟨G, hG, fun k => rfl, ?_⟩
  have hI : Copies (Ex.asIs (N := Ex.gp.N)) := fun _ _ => rfl
  refine c130_mirror (w := ⟨3, by decide +kernel⟩) (e := ⟨4, by decide +kernel⟩)
    (w' := ⟨4, by decide +kernel⟩) (e' := ⟨5, by decide +kernel⟩)
    (s := ⟨0, by decide +kernel⟩) (t := ⟨6, by decide +kernel⟩)
    (s' := ⟨2, by decide +kernel⟩) (t' := ⟨8, by decide +kernel⟩)
    Ex.good hG hI (by norm_num) (fun k => ?_) (fun _ => rfl) (fun _ => rfl)
    ?_ ?_ ?_ ?_ ?_ ?_ ?_ ?_
  · change (if (k : ℕ) % 3 = 1 then (1 : ℚ) else 0) < 1/2 →
      (if (k : ℕ) % 3 = 1 then (1 : ℚ) else 0) = 0
    split_ifs
    · intro h; norm_num at h
    · intro _; rfl
  all_goals first
    | (constructor <;> decide +kernel)
    | (change (if _ then (1 : ℚ) else 0) < 1/2; decide +kernel)
    | (change (1 : ℚ)/2 ≤ (if _ then (1 : ℚ) else 0); decide +kernel)
    | rfl

/-- Segregation with empty nodes. -/
def Ex.holesPar : Par ℚ :=
  { Ex.parSeg with M_tol := 1/1000, M_tol_nonneg := by norm_num }

/-- Whatever the interpolation returns for arrays with unmasked NaNs, the step is the one without
interpolation. -/
example (interp : Interp ℚ Ex.holesPar.G.N) (hI : Copies interp) : ∃ G s',
    mkGrid Ex.holesPar.G Ex.holesPar.B = .ok G ∧
    timeMarch Ex.holesPar interp { dyn := Ex.dyn, L := Ex.L, G := G } = .ok s' := by
  have h : Ex.okAnd (do
      let G ← mkGrid Ex.holesPar.G Ex.holesPar.B
      timeMarch Ex.holesPar (fun Z => Z) { dyn := Ex.dyn, L := Ex.L, G := G })
      (fun _ => true) = true := by decide +kernel
  obtain ⟨s', h, -⟩ := Ex.okAnd_ok h
  obtain ⟨G, hG, hs⟩ := res_bind_ok.1 h
  refine ⟨G, s', hG, ?_⟩
  rw [c130_step Ex.good hI (by change (0 : ℚ) < 1/1000; norm_num) (mkGrid_geometry hG)
    (fun a ha => by rw [List.mem_singleton.1 ha]; rfl)
    (fun a ha => by rw [List.mem_singleton.1 ha]; decide)
    (fun a ha => by rw [List.mem_singleton.1 ha]; decide +kernel)]
  exact hs

/-- Four points that reach every node, with segregation. -/
def Ex.fullPar : Par ℚ :=
  { Ex.pairPar with segregate_grid := true, M_tol := 1/1000, M_tol_nonneg := by norm_num }

def Ex.fullL : List (PhaseSt ℚ 2) :=
  [{ ph := { Ex.ph with n := 4 },
     pts := [Ex.pairMp, { Ex.pairMp with x := ![3/2, 5/4, 0] }, { Ex.pairMp with x := ![1/2, 1/4, 0] },
       { Ex.pairMp with x := ![5/4, 1/4, 0] }] }]

/-- A step on a grid without empty nodes, and the step with left and right exchanged. -/
example : ∃ G, mkGrid Ex.fullPar.G Ex.fullPar.B = .ok G ∧
    steps (flipPar Ex.fullPar) (flipInterp (P := Ex.fullPar) Ex.asIs) 1
      (flipSt (P := Ex.fullPar) { dyn := Ex.dyn, L := Ex.fullL, G := G }) =
    flipSt <$> steps Ex.fullPar Ex.asIs 1 { dyn := Ex.dyn, L := Ex.fullL, G := G } := by
  have h : Ex.okAnd (do
      let G ← mkGrid Ex.fullPar.G Ex.fullPar.B
      let s ← gridPhase Ex.fullPar { dyn := Ex.dyn, L := Ex.fullL, G := G }
      .ok (G, s))
      (fun s => decide (∀ k, (1 : ℚ)/1000 ≤ s.2.G.m k)) = true := by decide +kernel
  obtain ⟨s', h, hm⟩ := Ex.okAnd_ok h
  obtain ⟨G, hG, h⟩ := res_bind_ok.1 h
  obtain ⟨s, hs, h⟩ := res_bind_ok.1 h
  cases h
  refine ⟨G, hG, c115_covered (P := Ex.fullPar) (interp := Ex.asIs)
    (s := { dyn := Ex.dyn, L := Ex.fullL, G := G }) (fun _ _ => rfl) (fun Z h k => h k) Ex.pairGood
    Ex.pairSides (mkGrid_geometry hG) (fun a ha => by rw [List.mem_singleton.1 ha]; rfl) ?_ ?_⟩
  · intro m hm1 s1 h1 s2 h2
    interval_cases m
    cases h1
    rw [hs] at h2
    cases h2
    exact of_decide_eq_true hm
  · intro m hm1 s1 h1 mp hmp
    interval_cases m
    cases h1
    have h : ((points Ex.fullL).all fun mp => decide (0 < mp.x 0 ∧ mp.x 0 < 2 ∧ mp.x 0 ≠ 1 ∧
      0 ≤ mp.x 1 ∧ mp.x 1 < 2)) = true := by decide +kernel
    obtain ⟨h1, h2, h3, h4, h5⟩ := of_decide_eq_true (List.all_eq_true.1 h mp hmp)
    refine ⟨⟨⟨h1.le, h2⟩, h4, h5⟩, fun i hi => ?_⟩
    have e : nodeX Ex.gp i = i := by norm_num [nodeX, Ex.gp]
    change _ = nodeX Ex.gp i at hi
    rw [e] at hi
    rw [hi] at h1 h2 h3
    have a1 : 0 < i := by exact_mod_cast h1
    have a2 : i < 2 := by exact_mod_cast h2
    have a3 : i = 1 := by omega
    exact h3 (by rw [a3]; rfl)

end Mpm

import Verif.Lemmas.SymGrid

/-! Symmetries of the grid: gradients and segregation. -/

set_option linter.unusedSectionVars false

namespace Mpm
open Spec

namespace Spec
section
variable {K : Type} [Field K] [LinearOrder K] {ns nx ny : ℕ}

/-- The interpolation of masked nodes, relabelled. -/
def Sym.interp (S : Sym K nx ny) (interp : Interp K (ny * nx)) : Interp K (S.ny' * S.nx') :=
  fun Z k => interp (fun n => Z (S.e n)) (S.e.symm k)

/-- The interpolation of the negated field is the negated interpolation. -/
def OddInterp {N : ℕ} (interp : Interp K N) : Prop :=
  ∀ Z n, interp (fun k => ((Z k).1, -(Z k).2)) n = ((interp Z n).1, -(interp Z n).2)

/-- The interpolation leaves no entry masked. -/
def ClearsMask {N : ℕ} (interp : Interp K N) : Prop := ∀ Z n, (interp Z n).1 = false

/-- Parameters of the grid. -/
def Sym.gp (P : GP K) (S : Sym K P.nx P.ny) : GP K :=
  { P with
    nx := S.nx', ny := S.ny'
    x_m := if S.A.swap then P.y_m else P.x_m
    x_M := if S.A.swap then P.y_M else P.x_M
    y_m := if S.A.swap then P.x_m else P.y_m
    y_M := if S.A.swap then P.x_M else P.y_M
    dx := if S.A.swap then P.dy else P.dx
    dy := if S.A.swap then P.dx else P.dy }

/-- All parameters; `B'` are the boundary options along the new axes. -/
def Sym.par (P : Par K) (S : Sym K P.G.nx P.G.ny) (B' : BP K) : Par K :=
  { P with
    G := S.gp P.G
    B := B'
    sinθ := S.A.fx * if S.A.swap then P.cosθ else P.sinθ
    cosθ := S.A.fy * if S.A.swap then P.sinθ else P.cosθ
    v_0 := S.A.fx * P.v_0
    intruder_v := S.A.v P.intruder_v
    forces := fun t => ((P.forces t).1,
      if S.A.swap then (P.forces t).2.2 else (P.forces t).2.1,
      if S.A.swap then (P.forces t).2.1 else (P.forces t).2.2) }

/-- The boundary options `B'` are those of `B` along the new axes, and there is nothing in them
that the code treats differently along the two axes. -/
structure Sym.Flags (S : Sym K nx ny) (B B' : BP K) : Prop where
  rough : B'.roughness = B.roughness
  mu : B'.wall_mu = B.wall_mu
  conv : B'.conveyor = B.conveyor
  cyc : B'.cyclic_lr = B.cyclic_lr
  vf : B'.vertical_force = if S.A.swap then B.horizontal_force else B.vertical_force
  hf : B'.horizontal_force = if S.A.swap then B.vertical_force else B.horizontal_force
  closed : B.outlet_left = false ∧ B.outlet_bottom = false ∧ B.inlet_right = false ∧
    B.inlet_top = false
  closed' : B'.outlet_left = false ∧ B'.outlet_bottom = false ∧ B'.inlet_right = false ∧
    B'.inlet_top = false
  friction : B.roughness = true → B.wall_mu = 0
  conv_ok : B.conveyor = true → S.A.swap = false
  cyc_ok : B.cyclic_lr = true → S.A.swap = false

end
end Spec

section
variable {K : Type} [Field K] [LinearOrder K] [IsStrictOrderedRing K] [FloorRing K] {ns nx ny : ℕ}
  {S : Sym K nx ny} {s : K}

theorem nanToNum_sign {c : K} (hc : c = 1 ∨ c = -1) (x : XF K) (big : K) :
    (signX c x).nanToNum big = c * x.nanToNum big := by
  rcases hc with rfl | rfl
  · rw [signX_one, one_mul]
  · rw [signX_neg_one]
    change (XF.neg x).nanToNum big = _
    cases x <;> simp [XF.neg, XF.nanToNum]

theorem abs_sign {c : K} (hc : c = 1 ∨ c = -1) (x : XF K) : (signX c x).abs = x.abs := by
  rcases hc with rfl | rfl
  · rw [signX_one]
  · rw [signX_neg_one, neg_abs']

theorem signX_signX {a b : K} (ha : a = 1 ∨ a = -1) (hb : b = 1 ∨ b = -1) (x : XF K) :
    signX a (signX b x) = signX (a * b) x := by
  rcases ha with rfl | rfl <;> rcases hb with rfl | rfl <;>
    simp only [signX_one, signX_neg_one, mul_one, one_mul, neg_neg', mul_neg, neg_neg]

theorem gradX_sign {c : K} (hc : c = 1 ∨ c = -1) (h : K) (Z : Fin (ny * nx) → XF K) (n) :
    gradX h (fun k => signX c (Z k)) n = signX c (gradX h Z n) := by
  unfold gradX npGradient
  dsimp only
  rw [← signX_sub hc, ← signX_div hc]

theorem gradY_sign {c : K} (hc : c = 1 ∨ c = -1) (h : K) (Z : Fin (ny * nx) → XF K) (n) :
    gradY h (fun k => signX c (Z k)) n = signX c (gradY h Z n) := by
  unfold gradY npGradient
  dsimp only
  rw [← signX_sub hc, ← signX_div hc]

/-! ### Gradients of nodal fields -/

/-- The interpolated field, and its mask. -/
def filled (interp : Interp K (ny * nx)) (big M_tol : K) (G : Grid K (ny * nx) ns)
    (Z : Fin (ny * nx) → XF K) : Fin (ny * nx) → XF K := fun k => .fin
  ((interp (fun k => (decide (G.m k < M_tol), Z k)) k).2.nanToNum big)
def stillMasked (interp : Interp K (ny * nx)) (M_tol : K) (G : Grid K (ny * nx) ns)
    (Z : Fin (ny * nx) → XF K) : Fin (ny * nx) → Bool := fun k =>
  (interp (fun k => (decide (G.m k < M_tol), Z k)) k).1

theorem calcGradient_0 (interp : Interp K (ny * nx)) (big M_tol : K) (G : Grid K (ny * nx) ns)
    (Z : Fin (ny * nx) → XF K) (n) : calcGradient interp big M_tol G Z n 0 =
      maX G.dx (stillMasked interp M_tol G Z) (filled interp big M_tol G Z) n := rfl
theorem calcGradient_1 (interp : Interp K (ny * nx)) (big M_tol : K) (G : Grid K (ny * nx) ns)
    (Z : Fin (ny * nx) → XF K) (n) : calcGradient interp big M_tol G Z n 1 =
      maY G.dy (stillMasked interp M_tol G Z) (filled interp big M_tol G Z) n := rfl

theorem maX_sign {c : K} (hc : c = 1 ∨ c = -1) (h : K) (mk : Fin (ny * nx) → Bool)
    (Z : Fin (ny * nx) → XF K) (n) :
    maX h mk (fun k => signX c (Z k)) n = signX c (maX h mk Z n) := by
  unfold maX maGradient
  split
  · rfl
  · exact gradX_sign hc h Z n

theorem maY_sign {c : K} (hc : c = 1 ∨ c = -1) (h : K) (mk : Fin (ny * nx) → Bool)
    (Z : Fin (ny * nx) → XF K) (n) :
    maY h mk (fun k => signX c (Z k)) n = signX c (maY h mk Z n) := by
  unfold maY maGradient
  split
  · rfl
  · exact gradY_sign hc h Z n

theorem interp_sym {interp : Interp K (ny * nx)} {c : K} (hc : c = 1 ∨ (c = -1 ∧ OddInterp interp))
    (M_tol : K) (G : Grid K (ny * nx) ns) (Z : Fin (ny * nx) → XF K) (k) :
    S.interp interp (fun k => (decide ((S.grid s G).m k < M_tol), signX c (Z (S.e.symm k)))) k =
      ((interp (fun k => (decide (G.m k < M_tol), Z k)) (S.e.symm k)).1,
        signX c (interp (fun k => (decide (G.m k < M_tol), Z k)) (S.e.symm k)).2) := by
  change interp (fun n => (decide (G.m (S.e.symm (S.e n)) < M_tol),
    signX c (Z (S.e.symm (S.e n))))) (S.e.symm k) = _
  simp only [Equiv.symm_apply_apply]
  rcases hc with rfl | ⟨rfl, ho⟩
  · simp only [signX_one]
  · simp only [signX_neg_one]
    exact ho (fun k => (decide (G.m k < M_tol), Z k)) _

theorem filled_sym {interp : Interp K (ny * nx)} {c : K} (hc : c = 1 ∨ (c = -1 ∧ OddInterp interp))
    (big M_tol : K) (G : Grid K (ny * nx) ns) (Z : Fin (ny * nx) → XF K) :
    filled (nx := S.nx') (ny := S.ny') (S.interp interp) big M_tol (S.grid s G)
        (fun k => signX c (Z (S.e.symm k))) =
      fun k => signX c (filled interp big M_tol G Z (S.e.symm k)) := by
  funext k
  have h := interp_sym (S := S) (s := s) hc M_tol G Z k
  unfold filled
  refine (congrArg (fun x : Bool × XF K => XF.fin (x.2.nanToNum big)) h).trans ?_
  change XF.fin ((signX c _).nanToNum big) = _
  rw [nanToNum_sign (hc.imp id And.left)]
  rfl

theorem masked_sym {interp : Interp K (ny * nx)} {c : K} (hc : c = 1 ∨ (c = -1 ∧ OddInterp interp))
    (M_tol : K) (G : Grid K (ny * nx) ns) (Z : Fin (ny * nx) → XF K) :
    stillMasked (nx := S.nx') (ny := S.ny') (S.interp interp) M_tol (S.grid s G)
        (fun k => signX c (Z (S.e.symm k))) =
      fun k => stillMasked interp M_tol G Z (S.e.symm k) := by
  funext k
  have h := interp_sym (S := S) (s := s) hc M_tol G Z k
  exact (congrArg Prod.fst h).trans rfl

theorem sign_of {c : K} {p : Prop} (hc : c = 1 ∨ (c = -1 ∧ p)) : c = 1 ∨ c = -1 :=
  hc.imp id And.left

theorem calcGradient_sym0 (hS : S.Ok) {interp : Interp K (ny * nx)} {c : K}
    (hc : c = 1 ∨ (c = -1 ∧ OddInterp interp)) (hC : S.A.fx = 1 ∨ ClearsMask interp)
    (big M_tol : K) (G : Grid K (ny * nx) ns) (Z : Fin (ny * nx) → XF K) (k) :
    calcGradient (nx := S.nx') (ny := S.ny') (S.interp interp) big M_tol (S.grid s G)
        (fun k => signX c (Z (S.e.symm k))) k 0 =
      signX (S.A.fx * c) (calcGradient interp big M_tol G Z (S.e.symm k) (if S.A.swap then 1 else 0)) := by
  rw [calcGradient_0, filled_sym hc, masked_sym hc, maX_sign (sign_of hc),
    hS.mx _ (stillMasked interp M_tol G Z) (filled interp big M_tol G Z) k
      (hC.imp id fun h n => h _ _), signX_signX (sign_of hc) S.A.hx, mul_comm c, dx_sym]
  cases S.A.swap <;> rfl

theorem calcGradient_sym1 (hS : S.Ok) {interp : Interp K (ny * nx)} {c : K}
    (hc : c = 1 ∨ (c = -1 ∧ OddInterp interp)) (hC : S.A.fy = 1 ∨ ClearsMask interp)
    (big M_tol : K) (G : Grid K (ny * nx) ns) (Z : Fin (ny * nx) → XF K) (k) :
    calcGradient (nx := S.nx') (ny := S.ny') (S.interp interp) big M_tol (S.grid s G)
        (fun k => signX c (Z (S.e.symm k))) k 1 =
      signX (S.A.fy * c) (calcGradient interp big M_tol G Z (S.e.symm k) (if S.A.swap then 0 else 1)) := by
  rw [calcGradient_1, filled_sym hc, masked_sym hc, maY_sign (sign_of hc),
    hS.my _ (stillMasked interp M_tol G Z) (filled interp big M_tol G Z) k
      (hC.imp id fun h n => h _ _), signX_signX (sign_of hc) S.A.hy, mul_comm c, dy_sym]
  cases S.A.swap <;> rfl

theorem v_zero_comp (A : Axes K) (a : Vec K) : A.v a 0 = A.fx * (if A.swap then a 1 else a 0) := by
  rw [A.v_apply]
  unfold Axes.p
  cases A.swap <;> rfl
theorem v_one_comp (A : Axes K) (a : Vec K) : A.v a 1 = A.fy * (if A.swap then a 0 else a 1) := by
  rw [A.v_apply]
  unfold Axes.p
  cases A.swap <;> rfl
theorem v_two_comp (A : Axes K) (a : Vec K) : A.v a 2 = a 2 := by
  rw [A.v_apply]
  unfold Axes.p Axes.f
  cases A.swap
  · exact one_mul _
  · exact one_mul _

theorem shear_sym (hS : S.Ok) {interp : Interp K (ny * nx)}
    (hI : (S.A.fx = 1 ∧ S.A.fy = 1) ∨ (OddInterp interp ∧ ClearsMask interp)) (big M_tol : K) (G : Grid K (ny * nx) ns)
    (u v : Fin (ny * nx) → XF K) (k) :
    calcGradient (nx := S.nx') (ny := S.ny') (S.interp interp) big M_tol (S.grid s G)
        (fun k => signX S.A.fx (if S.A.swap then v (S.e.symm k) else u (S.e.symm k))) k 1 +
      calcGradient (nx := S.nx') (ny := S.ny') (S.interp interp) big M_tol (S.grid s G)
        (fun k => signX S.A.fy (if S.A.swap then u (S.e.symm k) else v (S.e.symm k))) k 0 =
    signX (S.A.fx * S.A.fy) (calcGradient interp big M_tol G u (S.e.symm k) 1 +
      calcGradient interp big M_tol G v (S.e.symm k) 0) := by
  have hx : S.A.fx = 1 ∨ (S.A.fx = -1 ∧ OddInterp interp) := by
    rcases hI with h | h
    · exact Or.inl h.1
    · exact S.A.hx.imp id fun e => ⟨e, h.1⟩
  have hy : S.A.fy = 1 ∨ (S.A.fy = -1 ∧ OddInterp interp) := by
    rcases hI with h | h
    · exact Or.inl h.2
    · exact S.A.hy.imp id fun e => ⟨e, h.1⟩
  have hs : S.A.fx * S.A.fy = 1 ∨ S.A.fx * S.A.fy = -1 := S.A.ff_cases 0 1
  have h1 := fun Z => calcGradient_sym1 (s := s) hS hx (hI.imp And.right And.right) big M_tol G Z k
  have h0 := fun Z => calcGradient_sym0 (s := s) hS hy (hI.imp And.left And.right) big M_tol G Z k
  rw [signX_add hs]
  cases hw : S.A.swap
  · rw [hw] at h0 h1
    refine congrArg₂ _ ((h1 u).trans ?_) (h0 v)
    rw [mul_comm]
    rfl
  · rw [hw] at h0 h1
    refine (congrArg₂ (· + ·) (h1 v) (h0 u)).trans ?_
    rw [mul_comm S.A.fy]
    exact add_comm (G := XF K) _ _

theorem calcGammadot_sym (hS : S.Ok) {interp : Interp K (ny * nx)}
    (hI : (S.A.fx = 1 ∧ S.A.fy = 1) ∨ (OddInterp interp ∧ ClearsMask interp)) (big M_tol : K) (G : Grid K (ny * nx) ns) :
    (S.grid s G).calcGammadot (nx := S.nx') (ny := S.ny') (S.interp interp) big M_tol =
      S.grid (S.A.fx * S.A.fy) (G.calcGammadot interp big M_tol) := by
  have hu : (fun n => (.fin ((S.grid s G).q n 0) / .fin ((S.grid s G).m n) : XF K)) =
      fun n => signX S.A.fx (if S.A.swap then .fin (G.q (S.e.symm n) 1) / .fin (G.m (S.e.symm n))
        else .fin (G.q (S.e.symm n) 0) / .fin (G.m (S.e.symm n))) := by
    funext n
    have : (S.grid s G).q n 0 = S.A.fx * (if S.A.swap then G.q (S.e.symm n) 1 else G.q (S.e.symm n) 0) :=
      v_zero_comp S.A _
    rw [this]
    cases S.A.swap <;> exact (signX_div S.A.hx (.fin _) (.fin _)).symm
  have hv : (fun n => (.fin ((S.grid s G).q n 1) / .fin ((S.grid s G).m n) : XF K)) =
      fun n => signX S.A.fy (if S.A.swap then .fin (G.q (S.e.symm n) 0) / .fin (G.m (S.e.symm n))
        else .fin (G.q (S.e.symm n) 1) / .fin (G.m (S.e.symm n))) := by
    funext n
    have : (S.grid s G).q n 1 = S.A.fy * (if S.A.swap then G.q (S.e.symm n) 0 else G.q (S.e.symm n) 1) :=
      v_one_comp S.A _
    rw [this]
    cases S.A.swap <;> exact (signX_div S.A.hy (.fin _) (.fin _)).symm
  have key := shear_sym (s := s) hS hI big M_tol G (fun n => .fin (G.q n 0) / .fin (G.m n))
    (fun n => .fin (G.q n 1) / .fin (G.m n))
  unfold Grid.calcGammadot
  dsimp only
  rw [hu, hv]
  refine congrArg (fun vis : Vis → Fin (S.ny' * S.nx') → XF K => { S.grid s G with vis := vis }) ?_
  funext v k
  change _ = S.vis (S.A.fx * S.A.fy) (Function.update G.vis .gammadot _) v k
  unfold Sym.vis
  by_cases hg : v = .gammadot
  · subst hg
    rw [if_pos rfl, Function.update_self, Function.update_self]
    exact key k
  · have hg' : S.A.vis v ≠ .gammadot := fun h => hg ((S.A.vis_gamma v).1 h)
    rw [if_neg hg, Function.update_of_ne hg, Function.update_of_ne hg']
    change S.vis s G.vis v k = _
    unfold Sym.vis
    rw [if_neg hg]

/-! ### Kinetic pressure -/

theorem pressure_sym (G : Grid K (ny * nx) ns) (k) :
    (S.grid s G).vis .pressure k = G.vis .pressure (S.e.symm k) := rfl
theorem gammadot_sym (G : Grid K (ny * nx) ns) (k) :
    (S.grid s G).vis .gammadot k = signX s (G.vis .gammadot (S.e.symm k)) := rfl

theorem gradPk_sym (hS : S.Ok) {interp : Interp K (ny * nx)}
    (hI : (S.A.fx = 1 ∧ S.A.fy = 1) ∨ ClearsMask interp) (big M_tol : K)
    (G : Grid K (ny * nx) ns) (pk : Fin (ny * nx) → XF K) (k : Fin (S.ny' * S.nx')) :
    (fun i => (calcGradient (nx := S.nx') (ny := S.ny') (S.interp interp) big M_tol (S.grid s G)
      (fun k => pk (S.e.symm k)) k i).nanToNum big) =
    S.A.v fun i => (calcGradient interp big M_tol G pk (S.e.symm k) i).nanToNum big := by
  have h0 := calcGradient_sym0 (s := s) hS (interp := interp) (c := 1) (Or.inl rfl)
    (hI.imp And.left id) big M_tol G pk k
  have h1 := calcGradient_sym1 (s := s) hS (interp := interp) (c := 1) (Or.inl rfl)
    (hI.imp And.right id) big M_tol G pk k
  simp only [signX_one, mul_one] at h0 h1
  funext i
  fin_cases i
  · change (calcGradient (nx := S.nx') (ny := S.ny') (S.interp interp) big M_tol (S.grid s G)
      (fun k => pk (S.e.symm k)) k 0).nanToNum big = S.A.v _ 0
    rw [h0, nanToNum_sign S.A.hx, v_zero_comp]
    cases S.A.swap <;> rfl
  · change (calcGradient (nx := S.nx') (ny := S.ny') (S.interp interp) big M_tol (S.grid s G)
      (fun k => pk (S.e.symm k)) k 1).nanToNum big = S.A.v _ 1
    rw [h1, nanToNum_sign S.A.hy, v_one_comp]
    cases S.A.swap <;> rfl
  · change _ = S.A.v _ 2
    rw [v_two_comp]
    rfl

theorem updatePk_sym (hS : S.Ok) (hs : s = 1 ∨ s = -1) {interp : Interp K (ny * nx)}
    (hI : (S.A.fx = 1 ∧ S.A.fy = 1) ∨ ClearsMask interp) (ops : Ops K) (M_tol rho_s : K) (G : Grid K (ny * nx) ns) :
    (S.grid s G).updatePk (nx := S.nx') (ny := S.ny') (S.interp interp) ops M_tol rho_s =
      S.grid s (G.updatePk interp ops M_tol rho_s) := by
  unfold Grid.updatePk
  have hp : (fun n => ((S.grid s G).vis .gammadot n).abs * .fin ((S.grid s G).s_bar n) *
      XF.sqrt ops.sqrt (.fin rho_s * ((S.grid s G).vis .pressure n / .fin ((S.grid s G).m n)).abs)) =
      fun n => (G.vis .gammadot (S.e.symm n)).abs * .fin (G.s_bar (S.e.symm n)) *
      XF.sqrt ops.sqrt (.fin rho_s * (G.vis .pressure (S.e.symm n) / .fin (G.m (S.e.symm n))).abs) := by
    funext n
    rw [gammadot_sym, abs_sign hs]
    rfl
  have key := gradPk_sym (s := s) hS hI ops.big M_tol G (fun n => (G.vis .gammadot n).abs * XF.fin (G.s_bar n) *
      XF.sqrt ops.sqrt (XF.fin rho_s * (G.vis .pressure n / XF.fin (G.m n)).abs))
  dsimp only
  rw [hp]
  refine congrArg (fun g : Fin (S.ny' * S.nx') → Vec K => { S.grid s G with
    pk := fun n => (G.vis .gammadot (S.e.symm n)).abs * XF.fin (G.s_bar (S.e.symm n)) *
      XF.sqrt ops.sqrt (XF.fin rho_s * (G.vis .pressure (S.e.symm n) / XF.fin (G.m (S.e.symm n))).abs)
    grad_pk := g }) (funext fun k => ?_)
  exact key k

end

/-! ### Segregation -/

section
variable {K : Type} [Field K] [LinearOrder K] [IsStrictOrderedRing K] [FloorRing K] {ns : ℕ}

variable {P : Par K} {S : Sym K P.G.nx P.G.ny} {B' : BP K} {s : K}

/-- What diffuses. -/
def diffused (P : Par K) (rho_s : K) {N : ℕ} (G : Grid K N ns) (j : Fin ns) (k : Fin N) : XF K :=
  diffusivity P.ops P.l rho_s (G.s_bar k) (G.vis .gammadot k) (G.vis .pressure k) (G.m k) *
    .fin (G.phi k j)

/-- Closed at boundary nodes. -/
def openX {N : ℕ} (G : Grid K N ns) (k : Fin N) : XF K :=
  if G.boundary_tot k then .fin 0 else .fin 1

theorem diffusionInc_eq {nx ny : ℕ} (P : Par K) (dt rho_s : K) (G : Grid K (ny * nx) ns)
    (n : Fin (ny * nx)) (j : Fin ns) : diffusionInc P dt rho_s G n j =
    .fin dt * (gradX P.G.dx (fun k => gradX P.G.dx (diffused P rho_s G j) k * openX G k) n +
      gradY P.G.dy (fun k => gradY P.G.dy (diffused P rho_s G j) k * openX G k) n) := rfl

theorem laplace_sym {nx ny : ℕ} {S : Sym K nx ny} (hS : S.Ok) (dx dy : K)
    (D o : Fin (ny * nx) → XF K) (k : Fin (S.ny' * S.nx')) :
    gradX (if S.A.swap then dy else dx) (fun k => gradX (if S.A.swap then dy else dx)
        (fun k => D (S.e.symm k)) k * o (S.e.symm k)) k +
      gradY (if S.A.swap then dx else dy) (fun k => gradY (if S.A.swap then dx else dy)
        (fun k => D (S.e.symm k)) k * o (S.e.symm k)) k =
    gradX dx (fun k => gradX dx D k * o k) (S.e.symm k) +
      gradY dy (fun k => gradY dy D k * o k) (S.e.symm k) := by
  have hxx : S.A.fx * S.A.fx = 1 := S.A.f_sq 0
  have hyy : S.A.fy * S.A.fy = 1 := S.A.f_sq 1
  have ex : ∀ h k, gradX h (fun k => gradX h (fun k => D (S.e.symm k)) k * o (S.e.symm k)) k =
      if S.A.swap then gradY h (fun k => gradY h D k * o k) (S.e.symm k)
      else gradX h (fun k => gradX h D k * o k) (S.e.symm k) := by
    intro h k
    simp only [hS.gx h D, ← signX_mul_left S.A.hx]
    rw [gradX_sign S.A.hx]
    have := hS.gx h (fun n => (if S.A.swap then gradY h D n else gradX h D n) * o n) k
    rw [this, signX_signX S.A.hx S.A.hx, hxx, signX_one]
    cases S.A.swap <;> rfl
  have ey : ∀ h k, gradY h (fun k => gradY h (fun k => D (S.e.symm k)) k * o (S.e.symm k)) k =
      if S.A.swap then gradX h (fun k => gradX h D k * o k) (S.e.symm k)
      else gradY h (fun k => gradY h D k * o k) (S.e.symm k) := by
    intro h k
    simp only [hS.gy h D, ← signX_mul_left S.A.hy]
    rw [gradY_sign S.A.hy]
    have := hS.gy h (fun n => (if S.A.swap then gradX h D n else gradY h D n) * o n) k
    rw [this, signX_signX S.A.hy S.A.hy, hyy, signX_one]
    cases S.A.swap <;> rfl
  rw [ex, ey]
  cases S.A.swap
  · rfl
  · exact add_comm (G := XF K) _ _

theorem diffusion_sym (hS : S.Ok) (hs : s = 1 ∨ s = -1) (dt rho_s : K)
    (G : Grid K (P.G.ny * P.G.nx) ns) (k : Fin (S.ny' * S.nx')) (j : Fin ns) :
    diffusionInc (nx := S.nx') (ny := S.ny') (S.par P B') dt rho_s (S.grid s G) k j =
      diffusionInc P dt rho_s G (S.e.symm k) j := by
  rw [diffusionInc_eq, diffusionInc_eq]
  have hD : diffused (S.par P B') rho_s (S.grid s G) j = fun k => diffused P rho_s G j (S.e.symm k) := by
    funext k
    unfold diffused diffusivity
    rw [gammadot_sym, abs_sign hs]
    rfl
  rw [hD]
  exact congrArg _ (laplace_sym hS P.G.dx P.G.dy (diffused P rho_s G j) (openX G) k)

theorem ktX_eq {nx ny : ℕ} (P : Par K) (dt : K) (r : Fin ns → K) (G : Grid K (ny * nx) ns)
    (n : Fin (ny * nx)) (j : Fin ns) : ktX P dt r G n j =
      ktRow P.B.cyclic_lr P.c dt P.G.dx r G.phi (fun n => G.grad_pk n 0) (ktBoundary P.M_tol G) n j := rfl
theorem ktY_eq {nx ny : ℕ} (P : Par K) (dt : K) (r : Fin ns → K) (G : Grid K (ny * nx) ns)
    (n : Fin (ny * nx)) (j : Fin ns) : ktY P dt r G n j =
      ktCol P.c dt P.G.dy r G.phi (fun n => G.grad_pk n 1) (ktBoundary P.M_tol G) n j := rfl

theorem cyc_of_swap (hB : S.Flags P.B B') : S.A.swap = true → P.B.cyclic_lr = false := by
  intro h
  cases hb : P.B.cyclic_lr
  · rfl
  · rw [hB.cyc_ok hb] at h; cases h

theorem ktX_sym (hS : S.Ok) (hB : S.Flags P.B B') (dt : K)
    (r : Fin ns → K) (G : Grid K (P.G.ny * P.G.nx) ns) (k : Fin (S.ny' * S.nx')) (j : Fin ns) :
    ktX (nx := S.nx') (ny := S.ny') (S.par P B') dt r (S.grid s G) k j =
      if S.A.swap then ktY P dt r G (S.e.symm k) j else ktX P dt r G (S.e.symm k) j := by
  have hc := cyc_of_swap hB
  have hg : (fun k => (S.grid s G).grad_pk k 0) = fun k => S.A.fx *
      (if S.A.swap then G.grad_pk (S.e.symm k) 1 else G.grad_pk (S.e.symm k) 0) :=
    funext fun k => v_zero_comp S.A _
  have hb : ktBoundary (S.par P B').M_tol (S.grid s G) = fun k => ktBoundary P.M_tol G (S.e.symm k) := rfl
  have hphi : (S.grid s G).phi = fun k => G.phi (S.e.symm k) := rfl
  have hcc : (S.par P B').c = P.c := rfl
  have hdx : (S.par P B').G.dx = if S.A.swap then P.G.dy else P.G.dx := rfl
  have hcy : (S.par P B').B.cyclic_lr = P.B.cyclic_lr := hB.cyc
  rw [ktX_eq, ktX_eq, ktY_eq, hg, hb, hphi, hcc, hdx, hcy]
  have h := hS.kx P.B.cyclic_lr P.c dt (if S.A.swap then P.G.dy else P.G.dx) r G.phi
    (fun n => if S.A.swap then G.grad_pk n 1 else G.grad_pk n 0) (ktBoundary P.M_tol G) k j hc
  rw [h]
  by_cases hw : S.A.swap = true
  · simp only [if_pos hw]
  · simp only [if_neg hw]

theorem ktY_sym (hS : S.Ok) (hB : S.Flags P.B B') (dt : K)
    (r : Fin ns → K) (G : Grid K (P.G.ny * P.G.nx) ns) (k : Fin (S.ny' * S.nx')) (j : Fin ns) :
    ktY (nx := S.nx') (ny := S.ny') (S.par P B') dt r (S.grid s G) k j =
      if S.A.swap then ktX P dt r G (S.e.symm k) j else ktY P dt r G (S.e.symm k) j := by
  have hc := cyc_of_swap hB
  have hg : (fun k => (S.grid s G).grad_pk k 1) = fun k => S.A.fy *
      (if S.A.swap then G.grad_pk (S.e.symm k) 0 else G.grad_pk (S.e.symm k) 1) :=
    funext fun k => v_one_comp S.A _
  have hb : ktBoundary (S.par P B').M_tol (S.grid s G) = fun k => ktBoundary P.M_tol G (S.e.symm k) := rfl
  have hphi : (S.grid s G).phi = fun k => G.phi (S.e.symm k) := rfl
  have hcc : (S.par P B').c = P.c := rfl
  have hdy : (S.par P B').G.dy = if S.A.swap then P.G.dx else P.G.dy := rfl
  rw [ktY_eq, ktX_eq, ktY_eq, hg, hb, hphi, hcc, hdy]
  have h := hS.ky P.B.cyclic_lr P.c dt (if S.A.swap then P.G.dx else P.G.dy) r G.phi
    (fun n => if S.A.swap then G.grad_pk n 0 else G.grad_pk n 1) (ktBoundary P.M_tol G) k j hc
  rw [h]
  by_cases hw : S.A.swap = true
  · simp only [if_pos hw]
  · simp only [if_neg hw]

theorem phiIncrement_sym (hS : S.Ok) (hB : S.Flags P.B B') (hs : s = 1 ∨ s = -1) (dt rho_s : K)
    (r : Fin ns → K) (G : Grid K (P.G.ny * P.G.nx) ns) :
    phiIncrement (nx := S.nx') (ny := S.ny') (S.par P B') dt rho_s r (S.grid s G) =
      fun k => phiIncrement P dt rho_s r G (S.e.symm k) := by
  funext k j
  unfold phiIncrement
  rw [diffusion_sym hS hs, ktX_sym hS hB, ktY_sym hS hB]
  have ho : (S.par P B').ops = P.ops := rfl
  rw [ho]
  by_cases hw : S.A.swap = true
  · simp only [if_pos hw]
    rw [add_comm (G := XF K) (ktY P dt r G (S.e.symm k) j)]
  · simp only [if_neg hw]

end
end Mpm

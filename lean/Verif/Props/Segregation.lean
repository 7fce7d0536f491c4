import Verif.Lemmas.KT
import Verif.Lemmas.Hat
import Verif.Lemmas.History
import Verif.Props.Balance
import Verif.ExRun
import Mathlib.Algebra.BigOperators.Field

/-!
# C44 to C49: limiters, grain size advection, and size distributions
-/

set_option linter.unusedSectionVars false

namespace Mpm
open Spec

namespace Spec
variable {K : Type} [Field K] [LinearOrder K] {ns : ℕ}

/-- Fractions that are not negative and sum to one. -/
def Distribution (phi : Fin ns → K) : Prop := (∀ j, 0 ≤ phi j) ∧ ∑ j, phi j = 1

/-- Harmonic mean size is a finite number: no size is zero, and the fractions do not cancel. -/
def HarmonicOk (s phi : Fin ns → K) : Prop := (∀ j, s j ≠ 0) ∧ ∑ j, phi j / s j ≠ 0

/-- Harmonic mean of the sizes, weighted by the fractions. -/
def harmonicMean (s phi : Fin ns → K) : K := 1 / ∑ j, phi j / s j

/-- All nodes that are neither marked as boundary nor empty have a harmonic mean size. -/
def OpenNodesOk {N : ℕ} (M_tol : K) (s : Fin ns → K) (G : Grid K N ns) : Prop :=
  ∀ n, G.boundary_tot n = false → M_tol ≤ G.m n → HarmonicOk s (G.phi n)

end Spec

section
variable {K : Type} [Field K] [LinearOrder K] [IsStrictOrderedRing K] {ns : ℕ}

/-! ## C44 -/

/-- minmod: zero unless the signs agree, else the argument of smaller magnitude. -/
theorem c44_minmod (a b : K) :
    (a * b ≤ 0 → minmod a b = 0) ∧
    (0 < a * b → |a| ≤ |b| → minmod a b = a) ∧ (0 < a * b → |b| ≤ |a| → minmod a b = b) := by
  have key : ∀ a b : K, 0 < a * b → |a| ≤ |b| → minmod a b = a := by
    intro a b h hab
    rcases pos_and_pos_or_neg_and_neg_of_mul_pos h with ⟨ha, hb⟩ | ⟨ha, hb⟩
    · rw [abs_of_pos ha, abs_of_pos hb] at hab
      rw [minmod_pos ha hb, min_eq_left hab]
    · rw [abs_of_neg ha, abs_of_neg hb] at hab
      have := minmod_pos (neg_pos.2 ha) (neg_pos.2 hb)
      rw [minmod_neg, min_eq_left hab] at this
      linarith
  refine ⟨minmod_opp, key a b, fun h hab => ?_⟩
  rw [minmod_comm]
  exact key b a (by rwa [mul_comm]) hab

/-- superbee: zero unless the signs agree; else of the common sign, and of magnitude twice the
smaller one or the larger one, whichever is less. -/
theorem c44_superbee (a b : K) :
    (a * b ≤ 0 → superbee a b = 0) ∧
    (0 < a * b → 0 < a * superbee a b ∧
      |superbee a b| = min (2 * min |a| |b|) (max |a| |b|)) := by
  refine ⟨superbee_opp, fun h => ?_⟩
  have key : ∀ a b : K, 0 < a → 0 < b → 0 < superbee a b ∧
      |superbee a b| = min (2 * min |a| |b|) (max |a| |b|) := by
    intro a b ha hb
    have h0 : 0 < min (2 * min a b) (max a b) :=
      lt_min (mul_pos two_pos (lt_min ha hb)) (lt_max_of_lt_left ha)
    rw [superbee_pos ha hb, abs_of_pos h0, abs_of_pos ha, abs_of_pos hb]
    exact ⟨h0, rfl⟩
  rcases pos_and_pos_or_neg_and_neg_of_mul_pos h with ⟨ha, hb⟩ | ⟨ha, hb⟩
  · obtain ⟨h1, h2⟩ := key a b ha hb
    exact ⟨mul_pos ha h1, h2⟩
  · obtain ⟨h1, h2⟩ := key (-a) (-b) (neg_pos.2 ha) (neg_pos.2 hb)
    rw [superbee_neg] at h1 h2
    rw [abs_neg, abs_neg, abs_neg] at h2
    exact ⟨mul_pos_of_neg_of_neg ha (by linarith), h2⟩

theorem c44_superbee_symmetric (a b : K) : superbee a b = superbee b a := superbee_comm a b

theorem c44_superbee_homogeneous (c a b : K) : superbee (c * a) (c * b) = c * superbee a b :=
  superbee_smul c a b

/-- At least minmod, at most twice minmod, in magnitude. -/
theorem c44_superbee_between (a b : K) :
    |minmod a b| ≤ |superbee a b| ∧ |superbee a b| ≤ 2 * |minmod a b| ∧
      |superbee a b| ≤ max |a| |b| := by
  by_cases h : a * b ≤ 0
  · rw [superbee_opp h, minmod_opp h, abs_zero, mul_zero]
    exact ⟨le_rfl, le_rfl, le_max_of_le_left (abs_nonneg a)⟩
  · have h := not_le.1 h
    have hm : |minmod a b| = min |a| |b| := by
      rcases le_total |a| |b| with hab | hab
      · rw [(c44_minmod a b).2.1 h hab, min_eq_left hab]
      · rw [(c44_minmod a b).2.2 h hab, min_eq_right hab]
    rw [((c44_superbee a b).2 h).2, hm]
    refine ⟨le_min ?_ min_le_max, min_le_left _ _, min_le_right _ _⟩
    have : 0 ≤ min |a| |b| := le_min (abs_nonneg a) (abs_nonneg b)
    linarith

/-- maxmod on its own is not what its name says: with one argument zero it returns half of the
other one.  superbee never meets this case. -/
theorem c44_maxmod_half (a : K) : maxmod a 0 = a / 2 := by
  unfold maxmod
  rw [sgn_zero, abs_zero, max_eq_left (abs_nonneg a), add_zero]
  have : sgn a * |a| = a := by
    rcases lt_trichotomy a 0 with h | h | h
    · rw [sgn_neg h, abs_of_neg h]; ring
    · subst h; simp [sgn_zero]
    · rw [sgn_pos h, abs_of_pos h]; ring
  rw [mul_assoc, this]
  ring

example : superbee (1 : ℚ) 3 = 2 ∧ minmod (1 : ℚ) 3 = 1 ∧ superbee (-1 : ℚ) (-3 / 2) = -3 / 2 ∧
    superbee (1 : ℚ) (-3) = 0 ∧ (0 : ℚ) < 1 * 3 := by decide +kernel

/-! ## C45 -/

/-- Along any line, for any fractions and any velocities that are finite at the nodes, the scheme
moves material through the faces between neighbouring nodes only: nothing enters or leaves through
the ends. -/
theorem c45_closed_ends {n : ℕ} [NeZero n] {dt dx : K} (hdx : dx ≠ 0) {C v : Fin n → K}
    {V0 : Fin (n + 4) → XF K} (hV : ∀ k : Fin n, V0 ⟨k.val + 2, by omega⟩ = .fin (v k)) :
    ∃ F : ℕ → K, F 0 = 0 ∧ F n = 0 ∧ ∀ k : Fin n,
      ktCore dt dx (padKT C) (ktBC (padKT C) V0) ⟨k.val + 2, by omega⟩ = .fin (F k - F (k + 1)) := by
  refine ⟨fun k => dt / (2 * dx) * lineFace dx C v k, ?_, ?_, fun k => ?_⟩
  · simp only []; rw [(lineFace_ends dx C v).1, mul_zero]
  · simp only []; rw [(lineFace_ends dx C v).2, mul_zero]
  · rw [ktCore_line hdx hV, mul_sub]

theorem sum_of_faces {n : ℕ} {F : ℕ → K} (h0 : F 0 = 0) (hn : F n = 0) :
    ∑ k : Fin n, (F k - F (k + 1)) = 0 := by
  rw [Fin.sum_univ_eq_sum_range (fun k => F k - F (k + 1)) n, Finset.sum_range_sub', h0, hn, sub_zero]

/-- Any line, any velocities: the increments sum to zero. -/
theorem c45_line {n : ℕ} [NeZero n] {dt dx : K} (hdx : dx ≠ 0) {C v : Fin n → K}
    {V0 : Fin (n + 4) → XF K} (hV : ∀ k : Fin n, V0 ⟨k.val + 2, by omega⟩ = .fin (v k)) :
    ∃ u : Fin n → K, (∀ k : Fin n,
      ktCore dt dx (padKT C) (ktBC (padKT C) V0) ⟨k.val + 2, by omega⟩ = .fin (u k)) ∧
      ∑ k, u k = 0 := by
  obtain ⟨F, h0, hn, h⟩ := c45_closed_ends (dt := dt) hdx (C := C) hV
  exact ⟨_, h, sum_of_faces h0 hn⟩

theorem ktBoundary_iff {N : ℕ} {M_tol : K} {G : Grid K N ns} {n : Fin N} :
    ktBoundary M_tol G n = true ↔ G.boundary_tot n = true ∨ G.m n < M_tol := by
  simp [ktBoundary]

theorem openNodes_flux {N : ℕ} {M_tol c g : K} {s : Fin ns → K} {G : Grid K N ns}
    (h : OpenNodesOk M_tol s G) (n : Fin N) (j : Fin ns) :
    ∃ v, ktFlux c s (G.phi n) j g (ktBoundary M_tol G n) = .fin v := by
  by_cases hb : ktBoundary M_tol G n = true
  · rw [hb]; exact ⟨0, if_pos rfl⟩
  · have hb' := hb
    rw [ktBoundary_iff, not_or] at hb'
    have ho := h n (by simpa using hb'.1) (not_lt.1 hb'.2)
    rw [Bool.not_eq_true] at hb
    rw [hb, ktFlux_open ho.1 ho.2]
    exact ⟨_, rfl⟩

theorem colF_mkNode {nx ny : ℕ} (i : Fin nx) (j : Fin ny) : colF (mkNode i j) = i :=
  Fin.ext (mkNode_col i j)

theorem rowF_mkNode {nx ny : ℕ} (i : Fin nx) (j : Fin ny) : rowF (mkNode i j) = j :=
  Fin.ext (mkNode_row i j)

/-- Rows of the grid. -/
theorem c45_rows {nx ny : ℕ} {P : Par K} {dt : K} {s : Fin ns → K} {G : Grid K (ny * nx) ns}
    (hdx : P.G.dx ≠ 0) (h : OpenNodesOk P.M_tol s G) (iy : Fin ny) (j : Fin ns) :
    ∃ u : Fin nx → K, (∀ ix, ktX P dt s G (mkNode ix iy) j = .fin (u ix)) ∧ ∑ ix, u ix = 0 := by
  rcases Nat.eq_zero_or_pos nx with h0 | h0
  · subst h0
    exact ⟨fun _ => 0, fun ix => ix.elim0, by simp⟩
  · haveI : NeZero nx := ⟨h0.ne'⟩
    choose v hv using fun ix => openNodes_flux (c := P.c) (g := G.grad_pk (mkNode ix iy) 0) h
      (mkNode ix iy) j
    obtain ⟨F, hF0, hFn, hF⟩ := c45_closed_ends (dt := dt) hdx (C := fun ix => G.phi (mkNode ix iy) j)
      (V0 := fun i : Fin (nx + 4) => ktFlux P.c s (padKT (fun ix => G.phi (mkNode ix iy)) i) j
        ((if P.B.cyclic_lr then padCyc fun ix => G.grad_pk (mkNode ix iy) 0
          else padKT fun ix => G.grad_pk (mkNode ix iy) 0) i)
        (padKT (fun ix => ktBoundary P.M_tol G (mkNode ix iy)) i)) (v := v)
      (fun k => (ktLine_mid P.B.cyclic_lr P.c s (fun ix => G.phi (mkNode ix iy))
        (fun ix => G.grad_pk (mkNode ix iy) 0) (fun ix => ktBoundary P.M_tol G (mkNode ix iy)) j
        k).trans (hv k))
    refine ⟨_, fun ix => ?_, sum_of_faces hF0 hFn⟩
    unfold ktX
    rw [rowF_mkNode, colF_mkNode]
    exact hF ix

/-- Columns of the grid. -/
theorem c45_columns {nx ny : ℕ} {P : Par K} {dt : K} {s : Fin ns → K} {G : Grid K (ny * nx) ns}
    (hdy : P.G.dy ≠ 0) (h : OpenNodesOk P.M_tol s G) (ix : Fin nx) (j : Fin ns) :
    ∃ u : Fin ny → K, (∀ iy, ktY P dt s G (mkNode ix iy) j = .fin (u iy)) ∧ ∑ iy, u iy = 0 := by
  rcases Nat.eq_zero_or_pos ny with h0 | h0
  · subst h0
    exact ⟨fun _ => 0, fun iy => iy.elim0, by simp⟩
  · haveI : NeZero ny := ⟨h0.ne'⟩
    choose v hv using fun iy => openNodes_flux (c := P.c) (g := G.grad_pk (mkNode ix iy) 1) h
      (mkNode ix iy) j
    obtain ⟨F, hF0, hFn, hF⟩ := c45_closed_ends (dt := dt) hdy (C := fun iy => G.phi (mkNode ix iy) j)
      (V0 := fun i : Fin (ny + 4) => ktFlux P.c s (padKT (fun iy => G.phi (mkNode ix iy)) i) j
        ((if false then padCyc fun iy => G.grad_pk (mkNode ix iy) 1
          else padKT fun iy => G.grad_pk (mkNode ix iy) 1) i)
        (padKT (fun iy => ktBoundary P.M_tol G (mkNode ix iy)) i)) (v := v)
      (fun k => (ktLine_mid false P.c s (fun iy => G.phi (mkNode ix iy))
        (fun iy => G.grad_pk (mkNode ix iy) 1) (fun iy => ktBoundary P.M_tol G (mkNode ix iy)) j
        k).trans (hv k))
    refine ⟨_, fun iy => ?_, sum_of_faces hF0 hFn⟩
    unfold ktY
    rw [rowF_mkNode, colF_mkNode]
    exact hF iy

/-- The whole grid: advection in both directions keeps the sum over all nodes, for every size. -/
theorem c45_grid {nx ny : ℕ} {P : Par K} {dt : K} {s : Fin ns → K} {G : Grid K (ny * nx) ns}
    (hdx : P.G.dx ≠ 0) (hdy : P.G.dy ≠ 0) (h : OpenNodesOk P.M_tol s G) (j : Fin ns) :
    ∃ u : Fin (ny * nx) → K, (∀ n, ktX P dt s G n j + ktY P dt s G n j = .fin (u n)) ∧
      ∑ n, u n = 0 := by
  choose ux hx hx0 using fun iy => c45_rows (dt := dt) (s := s) hdx h iy j
  choose uy hy hy0 using fun ix => c45_columns (dt := dt) (s := s) hdy h ix j
  refine ⟨fun n => ux (rowF n) (colF n) + uy (colF n) (rowF n), fun n => ?_, ?_⟩
  · have e : mkNode (colF n) (rowF n) = n :=
      node_ext ((mkNode_row _ _).trans rfl) ((mkNode_col _ _).trans rfl)
    have h1 := hx (rowF n) (colF n)
    have h2 := hy (colF n) (rowF n)
    rw [e] at h1 h2
    rw [h1, h2, XF.fin_add]
  · rw [sum_nodes]
    simp only [rowF_mkNode, colF_mkNode, Finset.sum_add_distrib]
    rw [Finset.sum_eq_zero fun iy _ => hx0 iy, zero_add, Finset.sum_comm]
    exact Finset.sum_eq_zero fun ix _ => hy0 ix

/-- The wrap-around padding of the driving gradient has no effect: with cyclic boundaries grains
still do not segregate across the seam. -/
theorem c45_cyclic_padding_ignored {n : ℕ} [NeZero n] (c dt dx : K) (s : Fin ns → K)
    (phi : Fin n → Fin ns → K) (g : Fin n → K) (bnd : Fin n → Bool) (j : Fin ns) (k : Fin n) :
    ktLine true c dt dx s phi g bnd j k = ktLine false c dt dx s phi g bnd j k := by
  unfold ktLine
  have := ktBC_congr (c := padKT fun i => phi i j)
    (V := fun i : Fin (n + 4) => ktFlux c s (padKT phi i) j
      ((if true then padCyc g else padKT g) i) (padKT bnd i))
    (V' := fun i : Fin (n + 4) => ktFlux c s (padKT phi i) j
      ((if false then padCyc g else padKT g) i) (padKT bnd i)) (NeZero.pos n) fun k : Fin n =>
    (ktLine_mid true c s phi g bnd j k).trans (ktLine_mid false c s phi g bnd j k).symm
  exact congrArg (fun V => ktCore dt dx (padKT fun i => phi i j) V ⟨k.val + 2, by omega⟩) this

/-- A line of three nodes with two sizes on which material does move. -/
def Ex.ktPhi : Fin 3 → Fin 2 → ℚ := ![![1/2, 1/2], ![1/4, 3/4], ![1, 0]]

example : (List.ofFn fun k => ktLine false (1 : ℚ) (1/8) 1 ![1, 2] Ex.ktPhi ![1, 1, 1]
      (fun _ => false) 0 k) = [.fin (-1/32), .fin (23/640), .fin (-3/640)] ∧
    (-1/32 + 23/640 + -3/640 : ℚ) = 0 := by decide +kernel

/-! ## C46 -/

/-- No segregation velocity on walls and at empty nodes. -/
theorem c46_masked {N : ℕ} {M_tol c g : K} {s : Fin ns → K} {G : Grid K N ns} {n : Fin N}
    (h : G.boundary_tot n = true ∨ G.m n < M_tol) (j : Fin ns) :
    ktFlux c s (G.phi n) j g (ktBoundary M_tol G n) = .fin 0 := by
  rw [ktBoundary_iff.2 h]
  exact if_pos rfl

/-- None without a driving gradient. -/
theorem c46_no_gradient {c : K} {s phi : Fin ns → K} (h : HarmonicOk s phi) (j : Fin ns)
    (bnd : Bool) : ktFlux c s phi j 0 bnd = .fin 0 := by
  cases bnd
  · rw [ktFlux_open h.1 h.2, mul_zero]
  · exact if_pos rfl

/-- None where only one size is present. -/
theorem c46_single_size {c g : K} {s phi : Fin ns → K} (hs : ∀ j, s j ≠ 0) {j : Fin ns}
    (h1 : phi j = 1) (h0 : ∀ i, i ≠ j → phi i = 0) (bnd : Bool) :
    ktFlux c s phi j g bnd = .fin 0 := by
  have e : ∑ i, phi i / s i = 1 / s j := by
    rw [Finset.sum_eq_single j (fun i _ hi => by rw [h0 i hi, zero_div]) (by simp), h1]
  cases bnd
  · rw [ktFlux_open hs (by rw [e]; exact one_div_ne_zero (hs j)), e, one_div_mul_cancel (hs j),
      div_one, sub_self, mul_zero, zero_mul]
  · exact if_pos rfl

/-- If the velocities vanish along a line, nothing moves on it. -/
theorem c46_line {n : ℕ} [NeZero n] {cyc : Bool} {c dt dx : K} (hdx : dx ≠ 0) {s : Fin ns → K}
    {phi : Fin n → Fin ns → K} {g : Fin n → K} {bnd : Fin n → Bool} {j : Fin ns}
    (hv : ∀ k, ktFlux c s (phi k) j (g k) (bnd k) = .fin 0) (k : Fin n) :
    ktLine cyc c dt dx s phi g bnd j k = .fin 0 := by
  rw [ktLine_face hdx (v := fun _ => 0) hv]
  have hg : ∀ i, ghost (fun i => phi i j) (fun _ => (0 : K)) i = 0 := by
    intro i; unfold ghost; simp
  have : ∀ m, lineFace dx (fun i => phi i j) (fun _ => (0 : K)) m = 0 := by
    intro m
    unfold lineFace face
    rw [hg, hg]
    simp
  rw [this, this, sub_self, mul_zero]

/-- On the grid: without a kinetic pressure gradient, or with a single grain size filling every
open node, advection does nothing. -/
theorem c46_grid {nx ny : ℕ} {P : Par K} {dt : K} {s : Fin ns → K} {G : Grid K (ny * nx) ns}
    (hdx : P.G.dx ≠ 0) (hdy : P.G.dy ≠ 0) (j : Fin ns)
    (h : (OpenNodesOk P.M_tol s G ∧ ∀ n, G.grad_pk n = 0) ∨
      ((∀ j, s j ≠ 0) ∧ ∀ n, G.boundary_tot n = false → P.M_tol ≤ G.m n →
        G.phi n j = 1 ∧ ∀ i, i ≠ j → G.phi n i = 0)) (n : Fin (ny * nx)) :
    ktX P dt s G n j = .fin 0 ∧ ktY P dt s G n j = .fin 0 := by
  have hv : ∀ n i, ktFlux P.c s (G.phi n) j (G.grad_pk n i) (ktBoundary P.M_tol G n) = .fin 0 := by
    intro n i
    by_cases hb : ktBoundary P.M_tol G n = true
    · rw [hb]; exact if_pos rfl
    · have hb' := hb
      rw [ktBoundary_iff, not_or] at hb'
      rcases h with ⟨ho, hg⟩ | ⟨hs, hp⟩
      · rw [hg]
        exact c46_no_gradient (ho n (by simpa using hb'.1) (not_lt.1 hb'.2)) j _
      · obtain ⟨h1, h0⟩ := hp n (by simpa using hb'.1) (not_lt.1 hb'.2)
        exact c46_single_size hs h1 h0 _
  constructor
  · exact @c46_line K _ _ _ ns nx ⟨(nx_pos_of_node n).ne'⟩ _ _ _ _ hdx _ _ _ _ _
      (fun k => hv _ 0) _
  · exact @c46_line K _ _ _ ns ny ⟨(ny_pos_of_node n).ne'⟩ _ _ _ _ hdy _ _ _ _ _
      (fun k => hv _ 1) _

/-- The mask is needed: at an unmarked node without any grains the velocity is NaN even without
a gradient. -/
theorem c46_unmasked_empty {c : K} (hc : 0 < c) {s : Fin ns → K} (hs : ∀ j, s j ≠ 0) (j : Fin ns) :
    ktFlux c s (fun _ => 0) j 0 false = .nan := by
  unfold ktFlux
  rw [if_neg (by simp), invHarmonic_fin hs, XF.fin_mul]
  simp only [zero_div, Finset.sum_const_zero, zero_mul]
  rw [XF.fin_div_zero one_pos]
  have : XF.Special (XF.fin c * (XF.pinf - XF.fin 1)) :=
    XF.Special.fin_mul (show (XF.pinf - XF.fin 1 : XF K).isFinite = false from rfl) c
  exact this.mul_zero

example : HarmonicOk (![1, 2] : Fin 2 → ℚ) ![1/4, 3/4] ∧
    (ktFlux 1 (![1, 2] : Fin 2 → ℚ) ![1/4, 3/4] 0 1 false : XF ℚ) = .fin (3/5) := by
  refine ⟨⟨by decide +kernel, by decide +kernel⟩, by decide +kernel⟩

/-! ## C47 -/

theorem harmonicOk_of_distribution {s phi : Fin ns → K} (hs : ∀ j, 0 < s j)
    (h : Distribution phi) : HarmonicOk s phi := by
  refine ⟨fun j => (hs j).ne', ?_⟩
  have : ∃ j, 0 < phi j := by
    by_contra hc
    have h0 : ∀ j, phi j = 0 := fun j =>
      le_antisymm (not_lt.1 fun hj => hc ⟨j, hj⟩) (h.1 j)
    have := h.2
    simp [h0] at this
  obtain ⟨j, hj⟩ := this
  refine (Finset.sum_pos' (fun i _ => div_nonneg (h.1 i) (hs i).le) ⟨j, Finset.mem_univ j, ?_⟩).ne'
  exact div_pos hj (hs j)

/-- The velocity of each size, relative to the harmonic mean size. -/
theorem c47_velocity {c g : K} {s phi : Fin ns → K} (h : HarmonicOk s phi) (j : Fin ns) :
    ktFlux c s phi j g false = .fin (c * g * (harmonicMean s phi / s j - 1)) := by
  rw [ktFlux_open h.1 h.2]
  unfold harmonicMean
  rw [div_div]
  congr 1
  ring

/-- The fluxes of all sizes cancel. -/
theorem c47_cancel {c g : K} {s phi : Fin ns → K} (h : HarmonicOk s phi) (h1 : ∑ j, phi j = 1)
    (bnd : Bool) :
    ∃ v : Fin ns → K, (∀ j, ktFlux c s phi j g bnd = .fin (v j)) ∧ ∑ j, phi j * v j = 0 := by
  cases bnd
  · refine ⟨_, fun j => c47_velocity h j, ?_⟩
    have e : ∀ j, phi j * (c * g * (harmonicMean s phi / s j - 1)) =
        c * g * (harmonicMean s phi * (phi j / s j) - phi j) := by
      intro j; ring
    simp only [e]
    rw [← Finset.mul_sum, Finset.sum_sub_distrib, ← Finset.mul_sum, h1]
    unfold harmonicMean
    rw [one_div_mul_cancel h.2, sub_self, mul_zero]
  · exact ⟨fun _ => 0, fun j => if_pos rfl, by simp⟩

/-- For positive sizes and a distribution of fractions this is always so. -/
theorem c47_cancel_positive {c g : K} {s phi : Fin ns → K} (hs : ∀ j, 0 < s j)
    (h : Distribution phi) (bnd : Bool) :
    ∃ v : Fin ns → K, (∀ j, ktFlux c s phi j g bnd = .fin (v j)) ∧ ∑ j, phi j * v j = 0 :=
  c47_cancel (harmonicOk_of_distribution hs h) h.2 bnd

/-- Small grains go up the driving gradient faster than large ones. -/
theorem c47_order {c g : K} (hc : 0 < c * g) {s phi : Fin ns → K} (hs : ∀ j, 0 < s j)
    (h : Distribution phi) {i j : Fin ns} (hij : s i < s j) :
    ∃ vi vj, ktFlux c s phi i g false = .fin vi ∧ ktFlux c s phi j g false = .fin vj ∧ vj < vi := by
  have hh := harmonicOk_of_distribution hs h
  refine ⟨_, _, c47_velocity hh i, c47_velocity hh j, ?_⟩
  have hp : 0 < harmonicMean s phi := by
    unfold harmonicMean
    refine one_div_pos.2 (lt_of_le_of_ne ?_ (Ne.symm hh.2))
    exact Finset.sum_nonneg fun i _ => div_nonneg (h.1 i) (hs i).le
  exact mul_lt_mul_of_pos_left (sub_lt_sub_right (div_lt_div_of_pos_left hp (hs i) hij) 1) hc

example : (∀ j, (0 : ℚ) < (![1, 2] : Fin 2 → ℚ) j) ∧ Distribution (![1/4, 3/4] : Fin 2 → ℚ) :=
  ⟨by decide +kernel, by decide +kernel, by decide +kernel⟩

/-! ## C48 -/

theorem clip_eq (x : K) : (if 1 < (if x < 0 then 0 else x) then 1 else (if x < 0 then 0 else x)) =
    max 0 (min 1 x) := by
  by_cases h0 : x < 0
  · rw [if_pos h0, if_neg (by simp), min_eq_right (by linarith), max_eq_left h0.le]
  · rw [if_neg h0]
    by_cases h1 : 1 < x
    · rw [if_pos h1, min_eq_left h1.le, max_eq_right zero_le_one]
    · rw [if_neg h1, min_eq_right (not_lt.1 h1), max_eq_right (not_lt.1 h0)]

theorem normalisePhi_eq (phi : Fin ns → K) : normalisePhi phi =
    if (∑ j, max 0 (min 1 (phi j))) = 0 then .error .nonFinite
    else .ok fun j => max 0 (min 1 (phi j)) / ∑ j, max 0 (min 1 (phi j)) := by
  unfold normalisePhi
  simp only [clip_eq]

theorem clip_sum_pos {phi : Fin ns → K} (h : ∃ j, 0 < phi j) :
    0 < ∑ j, max 0 (min 1 (phi j)) := by
  obtain ⟨j, hj⟩ := h
  exact Finset.sum_pos' (fun _ _ => le_max_left _ _)
    ⟨j, Finset.mem_univ j, lt_max_of_lt_right (lt_min one_pos hj)⟩

/-- Normalising gives a distribution as soon as one fraction is positive; each fraction is then in
[0,1], and the ratios of fractions that were in [0,1] are kept. -/
theorem c48_normalise {phi : Fin ns → K} (h : ∃ j, 0 < phi j) :
    ∃ psi, normalisePhi phi = .ok psi ∧ Distribution psi ∧ (∀ j, psi j ≤ 1) ∧
      ∀ i j, 0 ≤ phi i → phi i ≤ 1 → 0 ≤ phi j → phi j ≤ 1 → psi i * phi j = psi j * phi i := by
  have hp := clip_sum_pos h
  refine ⟨_, by rw [normalisePhi_eq, if_neg hp.ne'], ⟨fun j => ?_, ?_⟩, fun j => ?_, ?_⟩
  · exact div_nonneg (le_max_left _ _) hp.le
  · rw [← Finset.sum_div, div_self hp.ne']
  · rw [div_le_one hp]
    exact Finset.single_le_sum (f := fun j => max 0 (min 1 (phi j)))
      (fun i _ => le_max_left _ _) (Finset.mem_univ j)
  · intro i j h1 h2 h3 h4
    rw [min_eq_right h2, min_eq_right h4, max_eq_right h1, max_eq_right h3]
    ring

/-- Otherwise the division is 0/0. -/
theorem c48_none_positive {phi : Fin ns → K} (h : ∀ j, phi j ≤ 0) :
    normalisePhi phi = .error .nonFinite := by
  rw [normalisePhi_eq, if_pos]
  exact Finset.sum_eq_zero fun j _ => max_eq_left (le_trans (min_le_right _ _) (h j))

/-- A distribution is left alone. -/
theorem c48_fixed {phi : Fin ns → K} (h : Distribution phi) : normalisePhi phi = .ok phi := by
  have e : ∀ j, max 0 (min 1 (phi j)) = phi j := by
    intro j
    have : phi j ≤ 1 := by
      rw [← h.2]
      exact Finset.single_le_sum (fun i _ => h.1 i) (Finset.mem_univ j)
    rw [min_eq_right this, max_eq_right (h.1 j)]
  rw [normalisePhi_eq]
  simp only [e, h.2, div_one]
  exact if_neg one_ne_zero

theorem normalisePhi_distribution {phi psi : Fin ns → K} (h : normalisePhi phi = .ok psi) :
    Distribution psi := by
  by_cases hp : ∃ j, 0 < phi j
  · obtain ⟨psi', h1, h2, -⟩ := c48_normalise hp
    rw [h1, Except.ok.injEq] at h
    rw [← h]; exact h2
  · rw [c48_none_positive fun j => not_lt.1 fun hj => hp ⟨j, hj⟩] at h
    cases h

/-- After `move_grainsize_on_grid` with `normalise_phi` every point has a distribution. -/
theorem c48_move {N : ℕ} {P : Par K} (hn : P.normalise_phi = true) {G : Grid K N ns}
    {L L' : List (PhaseSt K ns)} (hL : Counted L) (h : moveGrainsize P G L = .ok L') :
    ∀ mp ∈ points L', Distribution mp.phi := by
  unfold moveGrainsize at h
  obtain ⟨L1, h1, h⟩ := res_bind_ok.1 h
  have r1 := mapPoints_rel (f := fun _ _ mp => mp.mapPhi P.G.nx P.M_tol G)
    (R := fun _ _ _ => True) (fun _ _ _ _ _ => trivial) hL h1
  rw [if_pos hn] at h
  have r2 := mapPoints_rel (f := fun _ _ mp => do
      let phi ← normalisePhi mp.phi
      return { mp with phi := phi }) (R := fun _ _ b => Distribution b.phi) (by
    intro p ph a b h
    obtain ⟨psi, h2, h3⟩ := res_bind_ok.1 h
    cases h3
    exact normalisePhi_distribution h2) (r1.counted hL) h
  intro mp hmp
  obtain ⟨_, _, _, h⟩ := forall₂_right r2.points hmp
  exact h

end

section
variable {K : Type} [Field K] [LinearOrder K] [IsStrictOrderedRing K] [FloorRing K]

theorem wrapped_phi {P : Par K} {ns : ℕ} (a : Particle K ns) : (wrapped P a).phi = a.phi := by
  unfold wrapped; split <;> rfl

theorem MoveStep.phi {N ns : ℕ} {P : Par K} {dt : K} {G : Grid K N ns} {ph : Phase K ns}
    {a b : Particle K ns} (h : MoveStep P dt G ph a b) : b.phi = a.phi := by
  rcases h with ⟨-, rfl⟩ | ⟨-, iv, iv', h⟩
  · rfl
  · obtain ⟨nd, -, -, e⟩ := move_ok h
    rw [show b = (moveClosed P.M_tol dt G nd a iv).1 from congrArg Prod.fst e]
    rfl

/-- After a time step with segregation and `normalise_phi` every point that was there before has a
distribution, and so has every new one if the inlet's own fractions are one. -/
theorem c48_step {P : Par K} (hs : P.segregate_grid = true) (hn : P.normalise_phi = true)
    {interp : Interp K P.G.N} {s s' : St P} (hL : Counted s.L)
    (hin : (P.B.inlet_right = true ∨ P.B.inlet_top = true) → ∀ A ∈ s.L, Distribution A.ph.phi)
    (h : timeMarch P interp s = .ok s') : ∀ mp ∈ points s'.L, Distribution mp.phi := by
  obtain ⟨T, _, _, s3, _, _, _, _, _, _, hR⟩ := timeMarch_points hL h
  intro b hb
  obtain ⟨B, hB, hb⟩ := List.mem_flatMap.1 hb
  obtain ⟨i, hi⟩ := List.getElem?_of_mem hB
  obtain ⟨A, hA, -, -, hpts⟩ := hR.left hi
  rcases hpts b hb with ⟨a, ha, a2, a3, a4, a5, a6, -, -, -, hseg, hmv, rfl⟩ | ⟨hinl, hf⟩
  · rw [wrapped_phi, hmv.phi]
    rcases hseg with ⟨h0, -⟩ | ⟨-, c, -, ⟨h0, -⟩ | ⟨-, phi, hphi, rfl⟩⟩
    · rw [hs] at h0; cases h0
    · rw [hn] at h0; cases h0
    · exact normalisePhi_distribution hphi
  · obtain ⟨S0, ph', x, y, mp, hsame, hmk, rfl⟩ := hf
    rw [wrapped_phi]
    unfold mkParticle at hmk
    obtain ⟨_, _, hmk⟩ := res_bind_ok.1 hmk
    obtain ⟨_, _, hmk⟩ := res_bind_ok.1 hmk
    cases hmk
    simp only []
    rw [hsame.fields.2.2.2.2]
    exact hin hinl A (List.mem_of_getElem? hA)

/-- In a run of any length. -/
theorem c48_run {P : Par K} (hs : P.segregate_grid = true) (hn : P.normalise_phi = true)
    {interp : Interp K P.G.N} {n : ℕ} {s s' : St P} (hL : Counted s.L)
    (h0 : ∀ mp ∈ points s.L, Distribution mp.phi)
    (hin : ∀ A ∈ s.L, Distribution A.ph.phi)
    (h : steps P interp n s = .ok s') : ∀ mp ∈ points s'.L, Distribution mp.phi := by
  refine (steps_inv (fun s => Counted s.L ∧ (∀ A ∈ s.L, Distribution A.ph.phi) ∧
    ∀ mp ∈ points s.L, Distribution mp.phi) ?_ h ⟨hL, hin, h0⟩).2.2
  rintro s s' ⟨c, hA, -⟩ h
  refine ⟨timeMarch_counted (s' := s') c h, fun B hB => ?_, c48_step (s' := s') hs hn c (fun _ => hA) h⟩
  obtain ⟨T, _, _, s3, _, _, _, _, _, _, hR⟩ := timeMarch_points c h
  obtain ⟨i, hi⟩ := List.getElem?_of_mem hB
  obtain ⟨A, hA', hsame, -⟩ := hR.left hi
  rw [hsame.fields.2.2.2.2]
  exact hA A (List.mem_of_getElem? hA')

example : (∃ j, (0 : ℚ) < (![-1, 3, 1/2] : Fin 3 → ℚ) j) ∧
    (normalisePhi (![-1, 3, 1/2] : Fin 3 → ℚ)).toOption.map List.ofFn = some [0, 2/3, 1/3] :=
  ⟨⟨1, by decide +kernel⟩, by decide +kernel⟩

/-! ## C49 -/

/-- Locating points in the domain: the weights are the tent functions. -/
theorem locate_hat_x {P : GP K} (hP : GoodGrid P) {ns : ℕ} {G : Grid K P.N ns} (hG : Geometry P G)
    {L L1 L2 : List (PhaseSt K ns)} (hL : Counted L) (hx : ∀ mp ∈ points L, InDomain P mp.x)
    (h1 : getReferenceNodes P G L = .ok L1) (h2 : getBasisFunctions G L1 = .ok L2) :
    PtsRel (fun _ a b => b.x = a.x ∧ b.m = a.m ∧ b.phi = a.phi ∧
      ∀ k, weight P.nx b k = hat P a.x k) L L2 := by
  have r1 : PtsRel (fun _ a b => a.getReferenceNode P G.dx G.dy = .ok b) L L1 :=
    mapPoints_rel (f := fun _ _ mp => mp.getReferenceNode P G.dx G.dy) (fun _ _ _ _ h => h) hL h1
  have r2 : PtsRel (fun _ a b => a.getBasisFunctions G = .ok b) L1 L2 :=
    mapPoints_rel (f := fun _ _ mp => mp.getBasisFunctions G) (fun _ _ _ _ h => h)
      (r1.counted hL) h2
  refine (r1.comp r2).mem.mono ?_
  rintro ph a b ⟨ha, -, c, hc, hb⟩
  obtain ⟨i, j, nd, hcell, g1, g2, -⟩ := located_basis hP hG (hx a (mem_points_items ha))
  rw [g1, Except.ok.injEq] at hc
  rw [← hc, g2, Except.ok.injEq] at hb
  rw [← hb]
  exact ⟨rfl, rfl, rfl, weight_atCell hP hcell⟩

theorem locate_hat {P : GP K} (hP : GoodGrid P) {ns : ℕ} {G : Grid K P.N ns} (hG : Geometry P G)
    {L L1 L2 : List (PhaseSt K ns)} (hL : Counted L) (hx : ∀ mp ∈ points L, InDomain P mp.x)
    (h1 : getReferenceNodes P G L = .ok L1) (h2 : getBasisFunctions G L1 = .ok L2) :
    PtsRel (fun _ a b => b.m = a.m ∧ b.phi = a.phi ∧ ∀ k, weight P.nx b k = hat P a.x k) L L2 :=
  (locate_hat_x hP hG hL hx h1 h2).mono fun _ _ _ h => h.2

theorem hat_nonneg {P : GP K} (x : Vec K) (k : Fin P.N) : 0 ≤ hat P x k :=
  mul_nonneg (le_max_left _ _) (le_max_left _ _)

theorem list_sum_nonneg {α : Type} {f : α → K} {l : List α} (h : ∀ a ∈ l, 0 ≤ f a) :
    0 ≤ (l.map f).sum :=
  List.sum_nonneg fun x hx => by
    obtain ⟨a, ha, rfl⟩ := List.mem_map.1 hx
    exact h a ha

theorem list_sum_eq_zero {α : Type} {f : α → K} {l : List α} (h : ∀ a ∈ l, 0 ≤ f a)
    (h0 : (l.map f).sum = 0) : ∀ a ∈ l, f a = 0 := by
  induction l with
  | nil => simp
  | cons a l ih =>
    rw [List.map_cons, List.sum_cons] at h0
    have h1 := h a (by simp)
    have h2 := list_sum_nonneg (l := l) fun b hb => h b (by simp [hb])
    have e1 : f a = 0 := by linarith
    have e2 : (l.map f).sum = 0 := by linarith
    intro b hb
    rcases List.mem_cons.1 hb with rfl | hb
    · exact e1
    · exact ih (fun b hb => h b (by simp [hb])) e2 b hb

/-- What mapping does to fractions, for nodal sums with non-negative weights. -/
theorem fractions_of_sums {ns : ℕ} {l : List (Particle K ns)} {w : Particle K ns → K}
    (hw : ∀ a ∈ l, 0 ≤ w a) (hphi : ∀ a ∈ l, Distribution a.phi) {s : Fin ns → K} {lo hi : K}
    (hs : ∀ j, lo ≤ s j ∧ s j ≤ hi) (big : K) :
    let m := (l.map w).sum
    let phim : Fin ns → K := (l.map fun a => w a • a.phi).sum
    let f : Fin ns → K := fun j => ((XF.fin (phim j) / XF.fin m : XF K)).nanToNum big
    (0 < m → Distribution f ∧ lo ≤ ∑ j, s j * f j ∧ ∑ j, s j * f j ≤ hi) ∧
    (m = 0 → f = 0) ∧ 0 ≤ m := by
  intro m phim f
  have hpj : ∀ j, phim j = (l.map fun a => w a * a.phi j).sum := by
    intro j
    change (List.map (fun a : Particle K ns => w a • a.phi) l).sum j = _
    clear hw hphi
    induction l with
    | nil => rfl
    | cons a l ih =>
      rw [List.map_cons, List.sum_cons, List.map_cons, List.sum_cons, Pi.add_apply, ih]
      rfl
  have hpos : ∀ j, 0 ≤ phim j := by
    intro j
    rw [hpj]
    exact list_sum_nonneg fun a ha => mul_nonneg (hw a ha) ((hphi a ha).1 j)
  refine ⟨fun hm => ?_, fun hm => ?_, list_sum_nonneg hw⟩
  · have hf : ∀ j, f j = phim j / m := by
      intro j
      change (XF.fin (phim j) / XF.fin m : XF K).nanToNum big = _
      rw [XF.fin_div _ hm.ne']
      rfl
    have hsum : ∑ j, phim j = m := by
      simp only [hpj]
      rw [list_sum_finset]
      change (l.map _).sum = (l.map w).sum
      congr 1
      refine List.map_congr_left fun a ha => ?_
      rw [← Finset.mul_sum, (hphi a ha).2, mul_one]
    have hd : Distribution f := by
      refine ⟨fun j => ?_, ?_⟩
      · rw [hf]; exact div_nonneg (hpos j) hm.le
      · simp only [hf]
        rw [← Finset.sum_div, hsum, div_self hm.ne']
    refine ⟨hd, ?_, ?_⟩
    · calc lo = ∑ j, lo * f j := by rw [← Finset.mul_sum, hd.2, mul_one]
        _ ≤ _ := Finset.sum_le_sum fun j _ => mul_le_mul_of_nonneg_right (hs j).1 (hd.1 j)
    · calc ∑ j, s j * f j ≤ ∑ j, hi * f j :=
            Finset.sum_le_sum fun j _ => mul_le_mul_of_nonneg_right (hs j).2 (hd.1 j)
        _ = hi := by rw [← Finset.mul_sum, hd.2, mul_one]
  · have h0 := list_sum_eq_zero hw hm
    funext j
    change (XF.fin (phim j) / XF.fin m : XF K).nanToNum big = 0
    have : phim j = 0 := by
      rw [hpj]
      exact list_sum_zero fun a ha => by rw [h0 a ha, zero_mul]
    rw [this, hm, XF.zero_div_zero]
    rfl

/-- The nodal fractions and the mean size after the mapping of points that are inside the domain,
have positive mass and carry a size distribution. -/
theorem c49_nodal {P : Par K} (hP : GoodGrid P.G) (hseg : P.segregate_grid = true) {ns : ℕ}
    {s : Fin ns → K} {lo hi : K} (hs : ∀ j, lo ≤ s j ∧ s j ≤ hi) {L L1 L2 : List (PhaseSt K ns)}
    {G G' : Grid K P.G.N ns} (hG : Geometry P.G G) (hL : Counted L)
    (hx : ∀ mp ∈ points L, InDomain P.G mp.x) (hm : ∀ mp ∈ points L, 0 < mp.m)
    (hphi : ∀ mp ∈ points L, Distribution mp.phi)
    (h1 : getReferenceNodes P.G G.wipe L = .ok L1) (h2 : getBasisFunctions G.wipe L1 = .ok L2)
    (h3 : getNodalMassMomentum P s L2 G.wipe = .ok G') (k : Fin P.G.N) :
    G'.m k = nodalMass P.G L k ∧
    (0 < G'.m k → Distribution (G'.phi k) ∧ lo ≤ G'.s_bar k ∧ G'.s_bar k ≤ hi) ∧
    (G'.m k = 0 → G'.phi k = 0 ∧ G'.s_bar k = 0) ∧ 0 ≤ G'.m k := by
  have hr := locate_hat hP (Mpm.Geometry.wipe hG) hL hx h1 h2
  have c2 := hr.counted hL
  obtain ⟨G1, h4, rfl⟩ := getNodalMassMomentum_ok h3
  rw [hseg, if_pos rfl]
  rw [hseg] at h4
  have em : G1.m k = ((points L2).map fun mp => weight P.G.nx mp k * mp.m).sum := by
    rw [p2gAll_m c2 h4]; exact zero_add _
  have ep : G1.phim k = ((points L2).map fun mp => (weight P.G.nx mp k * mp.m) • mp.phi).sum := by
    rw [p2gAll_phim c2 h4]; exact zero_add _
  have hw : ∀ b ∈ points L2, 0 ≤ weight P.G.nx b k * b.m := by
    intro b hb
    obtain ⟨a, ha, ph, e1, -, e3⟩ := forall₂_right hr.points hb
    rw [e3, e1]
    exact mul_nonneg (hat_nonneg _ _) (hm a ha).le
  have hd : ∀ b ∈ points L2, Distribution b.phi := by
    intro b hb
    obtain ⟨a, ha, ph, -, e2, -⟩ := forall₂_right hr.points hb
    rw [e2]; exact hphi a ha
  have key := fractions_of_sums hw hd hs P.ops.big
  simp only [← em, ← ep] at key
  refine ⟨?_, key.1, fun h0 => ?_, key.2.2⟩
  · change G1.m k = _
    rw [em]
    unfold nodalMass
    refine congrArg List.sum (forall₂_map_eq ?_ hr.points).symm
    rintro a b ⟨ph, e1, -, e3⟩
    rw [e3, e1]
  · have h0 := key.2.1 h0
    refine ⟨h0, ?_⟩
    change ∑ j, s j * _ = 0
    have : ∀ j, ((XF.fin (G1.phim k j) / XF.fin (G1.m k) : XF K)).nanToNum P.ops.big = 0 :=
      fun j => congrFun h0 j
    simp only [this, mul_zero, Finset.sum_const_zero]

theorem momentumPhase_phi {P : Par K} {interp : Interp K P.G.N} {s s' : St P}
    (h : momentumPhase P interp s = .ok s') : s'.G.phi = s.G.phi ∧ s'.G.s_bar = s.G.s_bar := by
  obtain ⟨G1, h1, e⟩ := momentumPhase_frame h
  rw [e]
  have e1 := BCs_frame h1
  have p1 : G1.phi = s.G.phi := by rw [e1]
  have p2 : G1.s_bar = s.G.s_bar := by rw [e1]
  rw [← p1, ← p2]
  exact ⟨rfl, rfl⟩

theorem segregationPhase_phi {P : Par K} {interp : Interp K P.G.N} {s s' : St P}
    (h : segregationPhase P interp s = .ok s') : s'.G.phi = s.G.phi ∧ s'.G.s_bar = s.G.s_bar := by
  unfold segregationPhase at h
  split at h
  · dsimp only at h
    split at h
    · cases h
    · obtain ⟨L1, h1, h⟩ := res_bind_ok.1 h
      rw [← Except.ok.inj h]
      exact ⟨rfl, rfl⟩
  · cases h; exact ⟨rfl, rfl⟩

/-- The nodal fractions that a whole time step works with and leaves on the grid. -/
theorem timeMarch_fractions {P : Par K} {interp : Interp K P.G.N} {s s' : St P} (hL : Counted s.L)
    (h : timeMarch P interp s = .ok s') :
    ∃ T : GridPhase P s, s'.G.phi = T.Ga.phi ∧ s'.G.s_bar = T.Ga.s_bar := by
  obtain ⟨s1, s2, s3, h1, h2, h3, h4⟩ := timeMarch_ok h
  obtain ⟨T, e1⟩ := gridPhase_ok h1
  obtain ⟨-, -, -, -, cd⟩ := T.rel hL
  refine ⟨T, ?_⟩
  have eb : T.Gb.phi = T.Ga.phi ∧ T.Gb.s_bar = T.Ga.s_bar := by
    rw [T.hGb]; split <;> exact ⟨rfl, rfl⟩
  have ec : T.Gc.phi = T.Gb.phi ∧ T.Gc.s_bar = T.Gb.s_bar := by
    rw [updateStressStrain_grid T.hLd]; exact ⟨rfl, rfl⟩
  have ed : T.Gd.phi = T.Gc.phi ∧ T.Gd.s_bar = T.Gc.s_bar := by
    rw [getNodalForces_grid cd T.hGd]; exact ⟨rfl, rfl⟩
  have e4 := (pointsPhase_frame h4).2
  have e3 := segregationPhase_phi h3
  have e2 := momentumPhase_phi h2
  have e0 : s1.G = T.Gd := by rw [e1]
  rw [e4, e3.1, e3.2, e2.1, e2.2, e0, ed.1, ed.2, ec.1, ec.2, eb.1, eb.2]
  exact ⟨rfl, rfl⟩

/-- In a whole time step. -/
theorem c49_step {P : Par K} (hP : GoodGrid P.G) (hseg : P.segregate_grid = true) {lo hi : K}
    (hs : ∀ j, lo ≤ P.G.s j ∧ P.G.s j ≤ hi) {interp : Interp K P.G.N} {s s' : St P}
    (hG : Geometry P.G s.G) (hL : Counted s.L)
    (hx : ∀ mp ∈ points s.L, InDomain P.G mp.x) (hm : ∀ mp ∈ points s.L, 0 < mp.m)
    (hphi : ∀ mp ∈ points s.L, Distribution mp.phi)
    (h : timeMarch P interp s = .ok s') (k : Fin P.G.N) :
    (0 < nodalMass P.G s.L k → Distribution (s'.G.phi k) ∧ lo ≤ s'.G.s_bar k ∧ s'.G.s_bar k ≤ hi) ∧
    (nodalMass P.G s.L k = 0 → s'.G.phi k = 0 ∧ s'.G.s_bar k = 0) := by
  obtain ⟨T, e1, e2⟩ := timeMarch_fractions hL h
  have r := updateForces_rel hL T.ha
  have ex : ∀ b ∈ points T.La, ∃ a ∈ points s.L, b.x = a.x ∧ b.m = a.m ∧ b.phi = a.phi := by
    intro b hb
    obtain ⟨a, ha, ph, e, -⟩ := forall₂_right r.points hb
    exact ⟨a, ha, by rw [e], by rw [e], by rw [e]⟩
  have key := c49_nodal hP hseg hs hG (r.counted hL)
    (fun b hb => by obtain ⟨a, ha, e, -, -⟩ := ex b hb; rw [e]; exact hx a ha)
    (fun b hb => by obtain ⟨a, ha, -, e, -⟩ := ex b hb; rw [e]; exact hm a ha)
    (fun b hb => by obtain ⟨a, ha, -, -, e⟩ := ex b hb; rw [e]; exact hphi a ha)
    T.hb T.hc T.hGa k
  have en : nodalMass P.G T.La k = nodalMass P.G s.L k := by
    unfold nodalMass
    refine congrArg List.sum (forall₂_map_eq ?_ r.points).symm
    rintro a b ⟨ph, e, -⟩
    rw [e]
  rw [e1, e2, ← en, ← key.1]
  exact ⟨key.2.1, key.2.2.1⟩

/-- A node has a harmonic mean size as soon as it has mass and the points carry distributions of
positive sizes: the condition of C45 and C46 holds in every such step. -/
theorem c45_condition {P : Par K} (hP : GoodGrid P.G) (hseg : P.segregate_grid = true)
    (hs : ∀ j, 0 < P.G.s j) {interp : Interp K P.G.N} {s s' : St P}
    (hG : Geometry P.G s.G) (hL : Counted s.L)
    (hx : ∀ mp ∈ points s.L, InDomain P.G mp.x) (hm : ∀ mp ∈ points s.L, 0 < mp.m)
    (hphi : ∀ mp ∈ points s.L, Distribution mp.phi)
    (h : timeMarch P interp s = .ok s') (k : Fin P.G.N) (hk : 0 < nodalMass P.G s.L k) :
    HarmonicOk P.G.s (s'.G.phi k) := by
  have hb : ∃ lo hi, ∀ j, lo ≤ P.G.s j ∧ P.G.s j ≤ hi := by
    refine ⟨0, ∑ j, P.G.s j, fun j => ⟨(hs j).le, ?_⟩⟩
    exact Finset.single_le_sum (fun i _ => (hs i).le) (Finset.mem_univ j)
  obtain ⟨lo, hi, hb⟩ := hb
  exact harmonicOk_of_distribution hs
    ((c49_step hP hseg hb hG hL hx hm hphi h k).1 hk).1

end

/-! ## The hypotheses can be met: a step of two points with segregation -/

def Ex.parSeg : Par ℚ := { Ex.par with segregate_grid := true, normalise_phi := true }

example : ∃ G s', mkGrid Ex.parSeg.G Ex.parSeg.B = .ok G ∧ Counted Ex.L ∧
    (∀ mp ∈ points Ex.L, InDomain Ex.parSeg.G mp.x) ∧ (∀ mp ∈ points Ex.L, 0 < mp.m) ∧
    (∀ mp ∈ points Ex.L, Distribution mp.phi) ∧ (∀ A ∈ Ex.L, Distribution A.ph.phi) ∧
    (∀ j, (0 : ℚ) < Ex.parSeg.G.s j) ∧
    timeMarch Ex.parSeg (Ex.noInterp _) { dyn := Ex.dyn, L := Ex.L, G := G } = .ok s' ∧
    s'.G.m ⟨4, by decide⟩ = 11 / 8 ∧ s'.G.m ⟨2, by decide⟩ = 3 / 4 := by
  obtain ⟨G, s', h1, h2, h3⟩ := Ex.run_one (P := Ex.parSeg) (d := Ex.dyn) (L := Ex.L)
    (check := fun s => decide (s.G.m ⟨4, by decide⟩ = 11 / 8 ∧ s.G.m ⟨2, by decide⟩ = 3 / 4)) (by decide +kernel)
  refine ⟨G, s', h1, Ex.countedL, Ex.inDomainL, ?_, ?_, ?_, by decide +kernel, h2,
    of_decide_eq_true h3⟩
  · intro mp hmp
    have : mp = Ex.mp ∨ mp = Ex.mp2 := by simpa [points, Ex.L] using hmp
    rcases this with rfl | rfl <;> decide +kernel
  · intro mp hmp
    have : mp = Ex.mp ∨ mp = Ex.mp2 := by simpa [points, Ex.L] using hmp
    rcases this with rfl | rfl <;> exact ⟨by decide +kernel, by decide +kernel⟩
  · intro A hA
    have : A = { ph := Ex.ph, pts := [Ex.mp, Ex.mp2] } := List.mem_singleton.1 hA
    rw [this]
    exact ⟨by decide +kernel, by decide +kernel⟩

end Mpm

import Verif.Props.NT
import Verif.Props.Diffusion

/-!
# C147: the `NT` scheme on the grid, and its limiter at infinite slopes
-/

set_option linter.unusedSectionVars false

namespace Mpm
open Spec

namespace Spec
variable {K : Type} [Field K] [LinearOrder K] {N ns : ℕ}

/-- Flux of size `j` in direction `a` at node `n` of a grid: none at nodes that are marked as boundary
or hold less than the mass cutoff. -/
noncomputable def nodeFlux (P : Par K) (s : Fin ns → K) (G : Grid K N ns) (a : Fin 3) (j : Fin ns)
    (n : Fin N) : K :=
  open Classical in
  if G.boundary_tot n = true ∨ G.m n < P.M_tol then 0
  else P.c * G.grad_pk n a * G.phi n j * (1 - harmonicMean s (G.phi n) / s j)

end Spec

section
variable {K : Type} [Field K] [LinearOrder K] [IsStrictOrderedRing K] {ns : ℕ}

theorem nodeFlux_eq {N : ℕ} (P : Par K) (s : Fin ns → K) (G : Grid K N ns) (a : Fin 3) (j : Fin ns)
    (n : Fin N) :
    sizeFlux P.c s (G.phi n) (G.grad_pk n a) (ktBoundary P.M_tol G n) j = nodeFlux P s G a j n := by
  unfold sizeFlux nodeFlux ktBoundary
  by_cases h : G.boundary_tot n = true ∨ G.m n < P.M_tol
  · rw [if_pos h, if_pos (by simpa using h)]
  · rw [if_neg h, if_neg (by simpa using h)]

theorem openNodes_harmonic {N : ℕ} {P : Par K} {s : Fin ns → K} {G : Grid K N ns}
    (h : OpenNodesOk P.M_tol s G) (n : Fin N) (hb : ktBoundary P.M_tol G n = false) :
    HarmonicOk s (G.phi n) := by
  simp only [ktBoundary, Bool.or_eq_false_iff, decide_eq_false_iff_not, not_lt] at hb
  exact h n hb.1 hb.2

variable {nx ny : ℕ}

/-- Along a row, finite increments of a size add up to what its last node carries over the end less
what its first node brings. -/
theorem c147_rows {P : Par K} {dt : K} {s : Fin ns → K} {G : Grid K (ny * nx) ns}
    (h : OpenNodesOk P.M_tol s G) (iy : Fin ny) (j : Fin ns) {u : Fin nx → K}
    (hu : ∀ ix, ntX P dt s G (mkNode ix iy) j = .fin (u ix)) (a b : Fin nx) (ha : a.val = 0)
    (hb : b.val + 1 = nx) :
    ∑ ix, u ix = dt / P.G.dx * (nodeFlux P s G 0 j (mkNode b iy) - nodeFlux P s G 0 j (mkNode a iy)) := by
  have : NeZero nx := ⟨by omega⟩
  rw [← nodeFlux_eq, ← nodeFlux_eq]
  refine c86_balance (n := nx) (phi := fun ix => G.phi (mkNode ix iy))
    (g := fun ix => G.grad_pk (mkNode ix iy) 0) (bnd := fun ix => ktBoundary P.M_tol G (mkNode ix iy))
    (fun k => ?_) (fun k hk => openNodes_harmonic h _ hk) a b ha hb
  have := hu k
  unfold ntX at this
  rw [rowF_mkNode, colF_mkNode] at this
  exact this

/-- The same along a column, with the other spacing and the other component of the gradient. -/
theorem c147_columns {P : Par K} {dt : K} {s : Fin ns → K} {G : Grid K (ny * nx) ns}
    (h : OpenNodesOk P.M_tol s G) (ix : Fin nx) (j : Fin ns) {u : Fin ny → K}
    (hu : ∀ iy, ntY P dt s G (mkNode ix iy) j = .fin (u iy)) (a b : Fin ny) (ha : a.val = 0)
    (hb : b.val + 1 = ny) :
    ∑ iy, u iy = dt / P.G.dy * (nodeFlux P s G 1 j (mkNode ix b) - nodeFlux P s G 1 j (mkNode ix a)) := by
  have : NeZero ny := ⟨by omega⟩
  rw [← nodeFlux_eq, ← nodeFlux_eq]
  refine c86_balance (n := ny) (phi := fun iy => G.phi (mkNode ix iy))
    (g := fun iy => G.grad_pk (mkNode ix iy) 1) (bnd := fun iy => ktBoundary P.M_tol G (mkNode ix iy))
    (fun k => ?_) (fun k hk => openNodes_harmonic h _ hk) a b ha hb
  have := hu k
  unfold ntY at this
  rw [rowF_mkNode, colF_mkNode] at this
  exact this

theorem two_pinf : (.fin 2 * .pinf : XF K) = .pinf := by
  change (if (2 : K) = 0 then XF.nan else XF.infSign 2) = _
  rw [if_neg two_ne_zero, XF.infSign, if_pos two_pos]

theorem two_ninf : (.fin 2 * .ninf : XF K) = .ninf := by
  change (if (2 : K) = 0 then XF.nan else XF.infSign (-2)) = _
  rw [if_neg two_ne_zero, XF.infSign, if_neg (by simp)]

theorem half_slope (b : K) : 1 / 2 * (1 + sgn b) * |b| = max b 0 ∧
    1 / 2 * (sgn b + 1) * |b| = max b 0 ∧ 1 / 2 * (-1 + sgn b) * |b| = min b 0 ∧
    1 / 2 * (sgn b + -1) * |b| = min b 0 := by
  unfold sgn
  rcases lt_trichotomy b 0 with h | h | h
  · rw [if_neg h.not_gt, if_pos h, abs_of_neg h, max_eq_right h.le, min_eq_left h.le]
    refine ⟨?_, ?_, ?_, ?_⟩ <;> ring
  · subst h; simp
  · rw [if_pos h, abs_of_pos h, max_eq_left h.le, min_eq_right h.le]
    refine ⟨?_, ?_, ?_, ?_⟩ <;> ring

theorem maxmod_max (b : K) : maxmod (max (2 * b) 0) (max b 0) = 2 * max b 0 ∧
    maxmod (max b 0) (max (2 * b) 0) = 2 * max b 0 ∧
    maxmod (min (2 * b) 0) (min b 0) = 2 * min b 0 ∧
    maxmod (min b 0) (min (2 * b) 0) = 2 * min b 0 := by
  unfold maxmod sgn
  rcases lt_trichotomy b 0 with h | h | h
  · have h2 : 2 * b < 0 := by linarith
    rw [max_eq_right h.le, max_eq_right h2.le, min_eq_left h.le, min_eq_left h2.le,
      if_neg h.not_gt, if_pos h, if_neg h2.not_gt, if_pos h2, abs_of_neg h, abs_of_neg h2,
      max_eq_left (by linarith : -b ≤ -(2 * b)), max_eq_right (by linarith : -b ≤ -(2 * b))]
    norm_num
  · subst h; simp
  · have h2 : 0 < 2 * b := by linarith
    rw [max_eq_left h.le, max_eq_left h2.le, min_eq_right h.le, min_eq_right h2.le,
      if_pos h, if_pos h2, abs_of_pos h, abs_of_pos h2,
      max_eq_left (by linarith : b ≤ 2 * b), max_eq_right (by linarith : b ≤ 2 * b)]
    norm_num

/-- An infinite slope beside a finite one does no harm to the limiter: it gives twice the finite slope
if that has the same sign, and zero otherwise. -/
theorem c147_slope (b : K) :
    limiterX .pinf (.fin b) = .fin (2 * max b 0) ∧ limiterX (.fin b) .pinf = .fin (2 * max b 0) ∧
      limiterX .ninf (.fin b) = .fin (2 * min b 0) ∧ limiterX (.fin b) .ninf = .fin (2 * min b 0) := by
  unfold limiterX
  rw [two_pinf, two_ninf, XF.fin_mul]
  have p1 : ∀ b : K, minmodX .pinf (.fin b) = .fin (max b 0) :=
    fun b => congrArg XF.fin (half_slope b).1
  have p2 : ∀ b : K, minmodX (.fin b) .pinf = .fin (max b 0) :=
    fun b => congrArg XF.fin (half_slope b).2.1
  have p3 : ∀ b : K, minmodX .ninf (.fin b) = .fin (min b 0) :=
    fun b => congrArg XF.fin (half_slope b).2.2.1
  have p4 : ∀ b : K, minmodX (.fin b) .ninf = .fin (min b 0) :=
    fun b => congrArg XF.fin (half_slope b).2.2.2
  rw [p1, p1, p2, p2, p3, p3, p4, p4, maxmodX_fin, maxmodX_fin, maxmodX_fin, maxmodX_fin]
  obtain ⟨h1, h2, h3, h4⟩ := maxmod_max b
  exact ⟨congrArg _ h1, congrArg _ h2, congrArg _ h3, congrArg _ h4⟩

/-- Two infinite slopes: an infinite one if they agree, NaN if they do not. -/
theorem c147_infinite : limiterX (.pinf : XF K) .pinf = .pinf ∧ limiterX (.ninf : XF K) .ninf = .ninf ∧
    limiterX (.pinf : XF K) .ninf = .nan ∧ limiterX (.ninf : XF K) .pinf = .nan := by
  unfold limiterX
  rw [two_pinf, two_ninf]
  have hp : (1 / 2 * (1 + 1) : K) = 1 := by norm_num
  have hm : (1 / 2 * (-1 + -1) : K) = -1 := by norm_num
  have p1 : minmodX (.pinf : XF K) .pinf = .pinf ∧ maxmodX (.pinf : XF K) .pinf = .pinf := by
    constructor <;>
    · change (if (1 / 2 * (1 + 1) : K) = 0 then XF.nan else XF.infSign (1 / 2 * (1 + 1))) = _
      rw [hp, if_neg one_ne_zero, XF.infSign, if_pos one_pos]
  have p2 : minmodX (.ninf : XF K) .ninf = .ninf ∧ maxmodX (.ninf : XF K) .ninf = .ninf := by
    constructor <;>
    · change (if (1 / 2 * (-1 + -1) : K) = 0 then XF.nan else XF.infSign (1 / 2 * (-1 + -1))) = _
      rw [hm, if_neg (by simp), XF.infSign, if_neg (by simp)]
  have p3 : minmodX (.pinf : XF K) .ninf = .nan := by
    change (if (1 / 2 * (1 + -1) : K) = 0 then XF.nan else XF.infSign (1 / 2 * (1 + -1))) = _
    rw [if_pos (by norm_num)]
  have p4 : minmodX (.ninf : XF K) .pinf = .nan := by
    change (if (1 / 2 * (-1 + 1) : K) = 0 then XF.nan else XF.infSign (1 / 2 * (-1 + 1))) = _
    rw [if_pos (by norm_num)]
  have n : maxmodX (.nan : XF K) .nan = .nan := rfl
  rw [p1.1, p1.2, p2.1, p2.2, p3, p4, n]
  exact ⟨rfl, rfl, rfl, rfl⟩

/-- The grid of five by three nodes of C73, with a gradient that grows along rows and columns. -/
def Ex.ntG : Grid ℚ (3 * 5) 2 :=
  { Ex.frozenG with grad_pk := fun k => ![((k : ℕ) % 5 : ℕ) + 1, ((k : ℕ) / 5 : ℕ), 0] }

theorem Ex.ntG_ok : OpenNodesOk Ex.noDiff.M_tol ![1, 2] Ex.ntG := by
  unfold OpenNodesOk HarmonicOk
  decide +kernel

/-- A row between two open ends gains or loses, a row with an empty end node gets what the open end
brings, and a column likewise; all increments are finite. -/
example :
    ((∀ ix, ntX (nx := 5) (ny := 3) Ex.noDiff (1/4) ![1, 2] Ex.ntG (mkNode ix 1) 0 =
        .fin (![-43/1632, -19/96, 5909/60384, -1/96, -53/1776] ix)) ∧
      ∑ ix : Fin 5, (![-43/1632, -19/96, 5909/60384, -1/96, -53/1776] ix : ℚ) =
        1/4 * (5 * (1/2) * (1 - 4/3) - 1 * (1/2) * (1 - 4/3))) ∧
    ((∀ ix, ntX (nx := 5) (ny := 3) Ex.noDiff (1/4) ![1, 2] Ex.ntG (mkNode ix 0) 0 =
        .fin (![-43/1632, -19/96, 929/8160, 3/32, 7/120] ix)) ∧
      ∑ ix : Fin 5, (![-43/1632, -19/96, 929/8160, 3/32, 7/120] ix : ℚ) =
        1/4 * (0 - 1 * (1/2) * (1 - 4/3))) ∧
    ((∀ iy, ntY (nx := 5) (ny := 3) Ex.noDiff (1/4) ![1, 2] Ex.ntG (mkNode 1 iy) 0 =
        .fin (![-575/27264, -1/24, -187/9088] iy)) ∧
      ∑ iy : Fin 3, (![-575/27264, -1/24, -187/9088] iy : ℚ) =
        1/4 * (2 * (1/2) * (1 - 4/3) - 0)) := by
  decide +kernel

example : ∑ ix : Fin 5, (![-43/1632, -19/96, 5909/60384, -1/96, -53/1776] ix : ℚ) =
    1/4 / 1 * (nodeFlux Ex.noDiff ![1, 2] Ex.ntG 0 0 (mkNode (nx := 5) (ny := 3) 4 1) -
      nodeFlux Ex.noDiff ![1, 2] Ex.ntG 0 0 (mkNode (nx := 5) (ny := 3) 0 1)) :=
  c147_rows (nx := 5) (ny := 3) (P := Ex.noDiff) Ex.ntG_ok 1 0 (by decide +kernel) 0 4 rfl rfl

example : ∑ iy : Fin 3, (![-575/27264, -1/24, -187/9088] iy : ℚ) =
    1/4 / 1 * (nodeFlux Ex.noDiff ![1, 2] Ex.ntG 1 0 (mkNode (nx := 5) (ny := 3) 1 2) -
      nodeFlux Ex.noDiff ![1, 2] Ex.ntG 1 0 (mkNode (nx := 5) (ny := 3) 1 0)) :=
  c147_columns (nx := 5) (ny := 3) (P := Ex.noDiff) Ex.ntG_ok 1 0 (by decide +kernel) 0 2 rfl rfl

end

end Mpm

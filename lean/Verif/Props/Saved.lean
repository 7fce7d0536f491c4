import Verif.Props.SizeTransfer
import Verif.Props.Figures
import Verif.Props.Energy
import Mathlib.Algebra.BigOperators.Fin
import Mathlib.Tactic.FieldSimp

/-!
# Markers, wedges, size figures and data files (C120)
-/

set_option linter.unusedSectionVars false

namespace Mpm
open Spec

section
variable {K : Type} [Field K] [LinearOrder K] [IsStrictOrderedRing K] {N ns nx ny : ℕ}

theorem mem_markers {b : Fin N → Bool} {X Y : Fin N → K} {z : K × K} :
    z ∈ (List.finRange N).map (fun n => marker (b n) (X n) (Y n)) ↔
      (∃ n, b n = true ∧ z = (X n, Y n)) ∨ ((∃ n, b n = false) ∧ z = (0, 0)) := by
  rw [List.mem_map]
  constructor
  · rintro ⟨n, -, rfl⟩
    cases h : b n with
    | true => exact .inl ⟨n, h, by simp [marker]⟩
    | false => exact .inr ⟨⟨n, h⟩, by simp [marker]⟩
  · rintro (⟨n, h, rfl⟩ | ⟨⟨n, h⟩, rfl⟩)
    · exact ⟨n, List.mem_finRange _, by simp [marker, h]⟩
    · exact ⟨n, List.mem_finRange _, by simp [marker, h]⟩

/-- C120.  Where `draw_grid` puts its markers: green ones at the free nodes, red crosses at the nodes
held vertically, red pluses at those held horizontally, and one of each kind at the origin as soon as
there is a node that should not have it. -/
theorem c120_markers (G : Grid K N ns) (z : K × K) :
    (z ∈ G.greenMarkers ↔ (∃ n, G.boundary_tot n = false ∧ z = (G.X n, G.Y n)) ∨
      ((∃ n, G.boundary_tot n = true) ∧ z = (0, 0))) ∧
    (z ∈ G.redCrosses ↔ (∃ n, G.boundary_h n = true ∧ z = (G.X n, G.Y n)) ∨
      ((∃ n, G.boundary_h n = false) ∧ z = (0, 0))) ∧
    (z ∈ G.redPluses ↔ (∃ n, G.boundary_v n = true ∧ z = (G.X n, G.Y n)) ∨
      ((∃ n, G.boundary_v n = false) ∧ z = (0, 0))) := by
  refine ⟨?_, mem_markers, mem_markers⟩
  unfold Grid.greenMarkers
  rw [mem_markers]
  simp only [Bool.not_eq_true', Bool.not_eq_false']

/-- C120.  Finding: a grid without any walls is drawn with a wall at the origin, wherever the origin
is. -/
theorem c120_origin (hN : 0 < N) (G : Grid K N ns) (hh : ∀ n, G.boundary_h n = false) :
    (0, 0) ∈ G.redCrosses ∧ ∀ z ∈ G.redCrosses, z = (0, 0) := by
  constructor
  · exact (c120_markers G _).2.1.2 (.inr ⟨⟨⟨0, hN⟩, hh _⟩, rfl⟩)
  · intro z hz
    rcases (c120_markers G z).2.1.1 hz with ⟨n, h, -⟩ | ⟨-, h⟩
    · rw [hh] at h; cases h
    · exact h

/-! ### Wedges -/

theorem wedges_fold (phi : List K) (acc : List (K × K)) (p : K) :
    phi.foldl (fun (a : List (K × K) × K) f =>
      (a.1 ++ [(a.2 * 360, (a.2 + f) * 360)], a.2 + f)) (acc, p) =
    (acc ++ (List.range phi.length).map (fun i =>
      ((p + (phi.take i).sum) * 360, (p + (phi.take (i + 1)).sum) * 360)), p + phi.sum) := by
  induction phi generalizing acc p with
  | nil => simp
  | cons f t ih =>
    rw [List.foldl_cons, ih, List.length_cons, List.range_succ_eq_map]
    simp [add_assoc, List.map_map, Function.comp_def]

/-- C120.  The wedges of a point: the `i`-th begins where the sizes before it end and is as wide as
the fraction of its size, 360 degrees being the whole. -/
theorem c120_wedges (phi : List K) :
    wedges phi = (List.range phi.length).map fun i =>
      (360 * (phi.take i).sum, 360 * (phi.take (i + 1)).sum) := by
  unfold wedges
  rw [wedges_fold]
  simp [mul_comm]

theorem take_sum_mono {phi : List K} (h0 : ∀ f ∈ phi, 0 ≤ f) {i j : ℕ} (hij : i ≤ j) :
    (phi.take i).sum ≤ (phi.take j).sum := by
  obtain ⟨d, rfl⟩ := Nat.exists_eq_add_of_le hij
  rw [List.take_add, List.sum_append]
  have : 0 ≤ ((phi.drop i).take d).sum :=
    List.sum_nonneg fun f hf => h0 f (List.mem_of_mem_drop (List.mem_of_mem_take hf))
  linarith

/-- C120.  If the fractions of a point are not negative and add up to one, its wedges divide the
circle: every direction lies in exactly one of them. -/
theorem c120_circle {phi : List K} (h0 : ∀ f ∈ phi, 0 ≤ f) (h1 : phi.sum = 1) {t : K} (ht : 0 ≤ t)
    (ht' : t < 360) :
    ∃ i, ∃ hi : i < (wedges phi).length, ((wedges phi)[i].1 ≤ t ∧ t < (wedges phi)[i].2) ∧
      ∀ j, ∀ hj : j < (wedges phi).length, (wedges phi)[j].1 ≤ t → t < (wedges phi)[j].2 → j = i := by
  have hl : (wedges phi).length = phi.length := by rw [c120_wedges]; simp
  have hg : ∀ i (hi : i < (wedges phi).length),
      (wedges phi)[i] = (360 * (phi.take i).sum, 360 * (phi.take (i + 1)).sum) := by
    intro i hi
    simp only [c120_wedges, List.getElem_map, List.getElem_range]
  -- the first index whose partial sum exceeds `t`
  have hex : ∃ i, t < 360 * (phi.take (i + 1)).sum := by
    refine ⟨phi.length, ?_⟩
    rw [List.take_of_length_le (by omega), h1]; linarith
  classical
  set i := Nat.find hex with hidef
  have hi1 : t < 360 * (phi.take (i + 1)).sum := Nat.find_spec hex
  have hlow : 360 * (phi.take i).sum ≤ t := by
    rcases Nat.eq_zero_or_pos i with h | h
    · rw [h]; simpa using ht
    · have := Nat.find_min hex (m := i - 1) (by omega)
      rw [Nat.sub_add_cancel h] at this
      exact not_lt.1 this
  have hilt : i < phi.length := by
    by_contra h
    rw [List.take_of_length_le (not_lt.1 h), h1] at hlow
    linarith
  refine ⟨i, by rw [hl]; exact hilt, ?_, ?_⟩
  · rw [hg]; exact ⟨hlow, hi1⟩
  · intro j hj a b
    rw [hg] at a b
    rcases lt_trichotomy j i with h | h | h
    · have := take_sum_mono h0 (show j + 1 ≤ i by omega)
      dsimp only at b
      linarith
    · exact h
    · have := take_sum_mono h0 (show i + 1 ≤ j by omega)
      dsimp only at a
      linarith

/-! ### Sizes on the grid -/

/-- C120.  The mean in the title of the size figures counts the empty nodes, with size zero: if every
node that carries mass has the same mean size `d`, the title is `d` times the share of such nodes. -/
theorem c120_title {G : Grid K N ns} {big : K} {s : Fin ns → K} (hN : 0 < N)
    (h0 : ∀ k, G.m k = 0 → ∀ j, G.phim k j = 0) {d : K}
    (hd : ∀ k, G.m k ≠ 0 → (G.nodalFractions big s).s_bar k = d) :
    titleMean (G.nodalFractions big s).s_bar =
      .fin (d * ((Finset.univ.filter fun k => G.m k ≠ 0).card / N)) := by
  have e0 : ∀ k, G.m k = 0 → (G.nodalFractions big s).s_bar k = 0 := by
    intro k hk
    simp only [Grid.nodalFractions, hk, h0 k hk, XF.zero_div_zero, XF.nanToNum, mul_zero,
      Finset.sum_const_zero]
  have hN' : (N : K) ≠ 0 := Nat.cast_ne_zero.2 hN.ne'
  unfold titleMean
  rw [XF.fin_div _ hN']
  congr 1
  have : ∑ n, (G.nodalFractions big s).s_bar n =
      ∑ n ∈ Finset.univ.filter (fun k => G.m k ≠ 0), d := by
    rw [Finset.sum_filter]
    refine Finset.sum_congr rfl fun k _ => ?_
    by_cases hk : G.m k = 0
    · rw [e0 k hk, if_neg (not_not.2 hk)]
    · rw [hd k hk, if_pos hk]
  rw [this, Finset.sum_const, nsmul_eq_mul]
  field_simp

/-- C120.  The size figures show a value at exactly the nodes whose mass reaches the tolerance. The
value is the mean over the mass at the node, between the smallest and the largest size; the
figures of the fractions show shares, which add up to one. -/
theorem c120_sizes {G : Grid K N ns} {big M_tol lo hi : K} {s : Fin ns → K} (hM : 0 < M_tol) {k : Fin N}
    (h0 : ∀ j, 0 ≤ G.phim k j) (h1 : ∑ j, G.phim k j = G.m k) (hs : ∀ j, lo ≤ s j ∧ s j ≤ hi) :
    (M_tol ≤ G.m k →
      (∃ d, (G.nodalFractions big s).sizeShown M_tol (G.nodalFractions big s).s_bar k = some d ∧
        d * G.m k = ∑ j, s j * G.phim k j ∧ lo ≤ d ∧ d ≤ hi) ∧
      ∃ f : Fin ns → K, (∀ j, (G.nodalFractions big s).sizeShown M_tol
        (fun n => (G.nodalFractions big s).phi n j) k = some (f j) ∧ 0 ≤ f j) ∧ ∑ j, f j = 1) ∧
    (G.m k < M_tol → (G.nodalFractions big s).sizeShown M_tol (G.nodalFractions big s).s_bar k = none ∧
      ∀ j, (G.nodalFractions big s).sizeShown M_tol
        (fun n => (G.nodalFractions big s).phi n j) k = none) := by
  have em : (G.nodalFractions big s).m = G.m := rfl
  constructor
  · intro h
    have hm : 0 < G.m k := lt_of_lt_of_le hM h
    have ep : ∀ j, (G.nodalFractions big s).phi k j = G.phim k j / G.m k := by
      intro j
      simp only [Grid.nodalFractions, XF.fin_div _ hm.ne', XF.nanToNum]
    have es : (G.nodalFractions big s).s_bar k = ∑ j, s j * (G.phim k j / G.m k) := by
      change ∑ j, s j * (G.nodalFractions big s).phi k j = _
      simp only [ep]
    have e1 : (G.nodalFractions big s).s_bar k * G.m k = ∑ j, s j * G.phim k j := by
      rw [es, Finset.sum_mul]
      refine Finset.sum_congr rfl fun j _ => ?_
      field_simp
    have shown : ∀ f : Fin N → K, (G.nodalFractions big s).sizeShown M_tol f k = some (f k) := by
      intro f
      unfold Grid.sizeShown
      rw [em, if_neg (not_lt.2 h)]
    refine ⟨⟨_, shown _, e1, ?_, ?_⟩, fun j => G.phim k j / G.m k,
      fun j => ⟨by rw [shown, ep], div_nonneg (h0 j) hm.le⟩, ?_⟩
    · refine le_of_mul_le_mul_right ?_ hm
      rw [e1, ← h1, Finset.mul_sum]
      exact Finset.sum_le_sum fun j _ => mul_le_mul_of_nonneg_right (hs j).1 (h0 j)
    · refine le_of_mul_le_mul_right ?_ hm
      rw [e1, ← h1, Finset.mul_sum]
      exact Finset.sum_le_sum fun j _ => mul_le_mul_of_nonneg_right (hs j).2 (h0 j)
    · rw [← Finset.sum_div, h1, div_self hm.ne']
  · intro h
    unfold Grid.sizeShown
    rw [em, if_pos h]
    exact ⟨rfl, fun _ => by rw [if_pos h]⟩

/-! ### Data files -/

/-- C120.  Entry `[r][c]` of the saved velocities and densities belongs to the node at the `c`-th
abscissa and the `r`-th ordinate. -/
theorem c120_layout {P : GP K} (G : Grid K P.N ns) (r : Fin P.ny) (c : Fin P.nx) :
    ∃ k : Fin P.N, gridX P k = linspace P.x_m P.x_M P.nx c ∧ gridY P k = linspace P.y_m P.y_M P.ny r ∧
      G.savedU r c = .fin (G.q k 0) / .fin (G.m k) ∧ G.savedV r c = .fin (G.q k 1) / .fin (G.m k) ∧
      G.savedDensity r c = .fin (G.m k) / .fin (G.V k) ∧ G.savedSize r c = G.s_bar k :=
  ⟨mkNode c r, by rw [gridX, mkNode_col], by rw [gridY, mkNode_row], rfl, rfl, rfl, rfl⟩

/-- C120.  A saved velocity is a number exactly at the nodes that carry mass. -/
theorem c120_nan (G : Grid K (ny * nx) ns) (r : Fin ny) (c : Fin nx) :
    ((G.savedU r c).isFinite = true ↔ G.m (mkNode c r) ≠ 0) ∧
    ((G.savedV r c).isFinite = true ↔ G.m (mkNode c r) ≠ 0) := by
  have key : ∀ a m : K, ((.fin a / .fin m : XF K).isFinite = true ↔ m ≠ 0) := by
    intro a m
    by_cases h : m = 0
    · subst h
      have := XF.special_div_zero a
      unfold XF.Special at this
      rw [this]; simp
    · rw [XF.fin_div _ h]; simp [XF.isFinite, h]
  exact ⟨key _ _, key _ _⟩

theorem sum_reshape {A : Type} [AddCommMonoid A] (f : Fin (ny * nx) → A) :
    ∑ r : Fin ny, ∑ c : Fin nx, f (mkNode c r) = ∑ k, f k := by
  rw [← Finset.sum_product']
  refine Finset.sum_bij' (fun x _ => mkNode x.2 x.1) (fun k _ => (rowF k, colF k))
    (fun _ _ => Finset.mem_univ _) (fun _ _ => Finset.mem_product.2 ⟨Finset.mem_univ _, Finset.mem_univ _⟩)
    ?_ (fun k _ => mkNode_eta k) (fun _ _ => rfl)
  rintro ⟨r, c⟩ -
  exact Prod.ext (Fin.ext (mkNode_row c r)) (Fin.ext (mkNode_col c r))

/-- C120.  The saved densities times the nodal volumes add up to the mass on the grid. -/
theorem c120_density {G : Grid K (ny * nx) ns} (hV : ∀ k, G.V k ≠ 0) :
    ∑ r, ∑ c, G.savedDensity r c * .fin (G.V (mkNode c r)) = .fin (∑ k, G.m k) := by
  have : ∀ (r : Fin ny) (c : Fin nx), G.savedDensity r c * .fin (G.V (mkNode c r)) =
      (XF.fin (G.m (mkNode c r)) : XF K) := by
    intro r c
    unfold Grid.savedDensity reshape
    dsimp only
    rw [XF.fin_div _ (hV _), XF.fin_mul, div_mul_cancel₀ _ (hV _)]
  simp only [this]
  rw [sum_reshape (fun k => (XF.fin (G.m k) : XF K)), fin_sum]

theorem foldN_rows {f : Particle K ns → List K} {n : ℕ} {pts : List (Particle K ns)}
    (hn : n = pts.length) (rows : List (List K)) :
    foldN (fun mp rows => .ok (rows ++ [f mp])) n pts rows = .ok (rows ++ pts.map f) := by
  subst hn
  induction pts generalizing rows with
  | nil => simp [foldN]
  | cons a t ih =>
    simp only [List.length_cons, foldN]
    exact (ih (rows ++ [f a])).trans (by simp)

/-- C120.  The saved table has one row for each point, phase after phase: its position in the plane
followed by its fractions. -/
theorem c120_points {L : List (PhaseSt K ns)} (hL : Counted L) :
    savedPhi L = .ok ((points L).map fun mp => mp.x 0 :: mp.x 1 :: List.ofFn mp.phi) := by
  have key : ∀ rows, foldPhases (fun (a : PhaseSt K ns) rows =>
      foldN (fun mp rows => .ok (rows ++ [[mp.x 0, mp.x 1] ++ List.ofFn mp.phi])) a.ph.n a.pts rows)
      L rows = .ok (rows ++ (points L).map fun mp => mp.x 0 :: mp.x 1 :: List.ofFn mp.phi) := by
    induction L with
    | nil => intro rows; simp [foldPhases, points]
    | cons a t ih =>
      intro rows
      have h := foldN_rows (f := fun mp : Particle K ns => [mp.x 0, mp.x 1] ++ List.ofFn mp.phi)
        (hL a List.mem_cons_self) rows
      simp only [foldPhases]
      rw [h]
      refine (ih (fun b hb => hL b (List.mem_cons_of_mem _ hb)) _).trans ?_
      simp [points]
  exact (key []).trans (by simp)

end

section
variable {K : Type} [Field K] [LinearOrder K] [IsStrictOrderedRing K] [FloorRing K]
variable {P : Par K} {interp : Interp K P.G.N} {s s' : St P}

/-- C120.  After a time step without periodic boundary, the saved densities times the nodal volumes
add up to the mass of all the points before the step. -/
theorem c120_density_step (hP : GoodGrid P.G) (hG : Geometry P.G s.G) (hL : Counted s.L)
    (hx : ∀ mp ∈ points s.L, InDomain P.G mp.x) (hcy : P.B.cyclic_lr = false)
    (hV : ∀ k, s.G.V k ≠ 0) (h : timeMarch P interp s = .ok s') :
    ∑ r, ∑ c, s'.G.savedDensity r c * .fin (s'.G.V (mkNode c r)) =
      .fin (((points s.L).map fun mp => mp.m).sum) := by
  have eV := (timeMarch_table h).1.V
  obtain ⟨s1, s2, s3, h1, h2, h3, h4⟩ := timeMarch_ok h
  have e2 := (step_pressure h2 h3 h4).2
  rw [c120_density (by rw [eV]; exact hV), e2]
  congr 1
  obtain ⟨T, rfl⟩ := gridPhase_ok h1
  change ∑ k, T.Gd.m k = _
  simp only [gridPhase_mass hP hG hL hx hcy T]
  unfold nodalMass
  rw [list_sum_finset]
  refine congrArg List.sum (List.map_congr_left fun mp hmp => ?_)
  rw [← Finset.sum_mul, hat_sum hP (hx mp hmp), one_mul]

end

/-! ## The hypotheses can be met -/

example : wedges [(1 / 4 : ℚ), 1 / 4, 1 / 2] = [(0, 90), (90, 180), (180, 360)] := by decide +kernel

example : (∀ f ∈ [(1 / 4 : ℚ), 1 / 4, 1 / 2], 0 ≤ f) ∧ [(1 / 4 : ℚ), 1 / 4, 1 / 2].sum = 1 := by
  decide +kernel

/-- The example grid has a floor only; its red pluses, for walls, are all at the origin. -/
example : Ex.okAnd (mkGrid Ex.par.G Ex.par.B) (fun G => decide (0 < Ex.par.G.N) &&
    decide ((0, 0) ∈ G.redPluses) && decide (G.boundary_v ⟨0, by decide⟩ = false)) = true := by
  decide +kernel

/-- A grid of which five nodes out of nine carry grains of size 3: the title says 5/3. -/
def Ex.fiveOfNine {N ns : ℕ} (G : Grid ℚ N ns) : Grid ℚ N ns :=
  { G with m := fun k => if k.val < 5 then 1 else 0,
           phim := fun k j => if k.val < 5 ∧ j.val = 0 then 1 else 0 }

example : ∃ G : Grid ℚ Ex.par.G.N Ex.par.G.ns, 0 < Ex.par.G.N ∧
    (∀ k, G.m k = 0 → ∀ j, G.phim k j = 0) ∧
    (∀ k, G.m k ≠ 0 → (G.nodalFractions 1 fun _ => 3).s_bar k = 3) ∧
    titleMean (G.nodalFractions 1 fun _ => 3).s_bar = .fin (5 / 3) := by
  obtain ⟨G, -, h⟩ := Ex.okAnd_ok (r := mkGrid Ex.par.G Ex.par.B)
    (check := fun G => decide (0 < Ex.par.G.N ∧
    (∀ k, (Ex.fiveOfNine G).m k = 0 → ∀ j, (Ex.fiveOfNine G).phim k j = 0) ∧
    (∀ k, (Ex.fiveOfNine G).m k ≠ 0 →
      ((Ex.fiveOfNine G).nodalFractions 1 fun _ => 3).s_bar k = 3) ∧
    titleMean ((Ex.fiveOfNine G).nodalFractions 1 fun _ => 3).s_bar = .fin (5 / 3)))
    (by decide +kernel)
  exact ⟨_, of_decide_eq_true h⟩

/-- A node of mass 2 with a quarter of it of the first size, and nothing elsewhere. -/
def Ex.quarter {N ns : ℕ} (G : Grid ℚ N ns) : Grid ℚ N ns :=
  { G with
    m := fun k => if (k : ℕ) = 0 then 2 else 0
    phim := fun k j => if (k : ℕ) = 0 then (if (j : ℕ) = 0 then 1 / 2 else 3 / 2) else 0 }

/-- With sizes 1 and 3 the figure shows 5/2. -/
example : ∃ G : Grid ℚ Ex.parTwo.G.N Ex.parTwo.G.ns,
    (∀ k j, 0 ≤ (Ex.quarter G).phim k j) ∧ (∀ k, ∑ j, (Ex.quarter G).phim k j = (Ex.quarter G).m k) ∧
    1 ≤ (Ex.quarter G).m ⟨0, by decide⟩ ∧ (Ex.quarter G).m ⟨1, by decide⟩ < 1 ∧
    ((Ex.quarter G).nodalFractions 1 fun j => if (j : ℕ) = 0 then 1 else 3).sizeShown 1
      ((Ex.quarter G).nodalFractions 1 fun j => if (j : ℕ) = 0 then 1 else 3).s_bar ⟨0, by decide⟩ =
      some (5 / 2) := by
  obtain ⟨G, -, h⟩ := Ex.okAnd_ok (r := mkGrid Ex.parTwo.G Ex.parTwo.B) (check := fun G => decide
    ((∀ k j, 0 ≤ (Ex.quarter G).phim k j) ∧ (∀ k, ∑ j, (Ex.quarter G).phim k j = (Ex.quarter G).m k) ∧
    1 ≤ (Ex.quarter G).m ⟨0, by decide⟩ ∧ (Ex.quarter G).m ⟨1, by decide⟩ < 1 ∧
    ((Ex.quarter G).nodalFractions 1 fun j => if (j : ℕ) = 0 then 1 else 3).sizeShown 1
      ((Ex.quarter G).nodalFractions 1 fun j => if (j : ℕ) = 0 then 1 else 3).s_bar ⟨0, by decide⟩ =
      some (5 / 2)))
    (by decide +kernel)
  exact ⟨G, of_decide_eq_true h⟩

example : ∃ G s', mkGrid Ex.par.G Ex.par.B = .ok G ∧ Counted Ex.L ∧
    Ex.par.B.cyclic_lr = false ∧ (∀ mp ∈ points Ex.L, InDomain Ex.par.G mp.x) ∧
    (∀ k, G.V k ≠ 0) ∧
    timeMarch Ex.par (Ex.noInterp _) { dyn := Ex.dyn, L := Ex.L, G := G } = .ok s' := by
  obtain ⟨G, h1, h2⟩ := Ex.okAnd_ok (r := mkGrid Ex.par.G Ex.par.B)
    (check := fun G => decide (∀ k, G.V k ≠ 0) && Ex.okAnd
      (timeMarch Ex.par (Ex.noInterp _) { dyn := Ex.dyn, L := Ex.L, G := G }) fun _ => true)
    (by decide +kernel)
  obtain ⟨h2, h3⟩ := Bool.and_eq_true_iff.1 h2
  obtain ⟨s', h4, -⟩ := Ex.okAnd_ok h3
  exact ⟨G, s', h1, Ex.countedL, rfl, Ex.inDomainL, of_decide_eq_true h2, h4⟩

end Mpm

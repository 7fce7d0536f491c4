import Verif.Props.Rest
import Verif.Props.Solids
import Verif.Props.Reflect

/-!
# C124: the beds that the lithostatic preset puts in balance
-/

set_option linter.unusedSectionVars false

namespace Mpm
open Spec

namespace Spec
section
variable {K : Type} [Field K] [LinearOrder K]

/-- A floor, and sides that are joined or walls.  On a slope the floor has to hold the material
along it, and side walls have to be rough. -/
structure Basin (P : Par K) : Prop where
  bottom : P.B.has_bottom = true
  sides : P.B.cyclic_lr = true ∨
    (P.B.has_left = true ∧ P.B.has_right = true ∧ (P.sinθ = 0 ∨ P.B.roughness = true))
  drag : P.sinθ = 0 ∨ P.B.roughness = true ∨ P.B.no_slip_bottom = true

/-- A law under which the lithostatic stress is kept: the fluids only on level ground, those without
cohesion only if it is a pressure. -/
def Bears (P : Par K) {ns : ℕ} (ph : Phase K ns) : Prop :=
  match ph.law with
  | .elastic | .von_mises => True
  | .viscous | .bingham | .ken_kamrin => P.sinθ = 0
  | .linear_mu | .pouliquen | .ken_simple => P.sinθ = 0 ∧ P.cosθ * (ph.par.rho * P.max_g) ≤ 0
  | _ => False

/-- The directions of the lithostatic stress. -/
def slopeMat (P : Par K) : Mat K := !![P.cosθ, P.sinθ, 0; P.sinθ, P.cosθ, 0; 0, 0, P.cosθ]

end
end Spec

section
variable {K : Type} [Field K] [LinearOrder K] [IsStrictOrderedRing K] [FloorRing K]
variable {P : Par K} {g : K}

theorem mark_bottom {B : BP K} {nx ny : ℕ} (h : B.has_bottom = true) {k : Fin (ny * nx)}
    (hk : (k : ℕ) / nx = 0) : boundaryH B nx ny k = true := by
  have := (inBottom_iff k).2 hk
  unfold inBottom at this
  simp only [boundaryH, markIf_iff, h, this, and_self, true_or, or_true]

theorem mark_noSlip {B : BP K} {nx ny : ℕ} (h : B.no_slip_bottom = true) {k : Fin (ny * nx)}
    (hk : (k : ℕ) / nx = 0) : boundaryV B nx ny k = true := by
  have := (inBottom_iff k).2 hk
  unfold inBottom at this
  simp only [boundaryV, markIf_iff, h, this, and_self, true_or, or_true]

theorem mark_sides {B : BP K} {nx ny : ℕ} (h1 : B.has_left = true) (h2 : B.has_right = true)
    {k : Fin (ny * nx)} (hk : OnEdge k) : boundaryV B nx ny k = true := by
  simp only [boundaryV, markIf_iff, h1, h2]
  rcases hk with h | h
  · have := (inLeft_iff k).2 h
    unfold inLeft at this
    simp only [this, and_self, true_or, or_true]
  · have := (inRight_iff k).2 h
    unfold inRight at this
    simp only [this, and_self, true_or, or_true]

/-- The points of one phase with the lithostatic preset. -/
theorem litho_points {a : Phase K P.G.ns × PhaseInit K P.G.ns} (hp : P.pressure = .lithostatic)
    {L : List (PhaseSt K P.G.ns)} (h : mkList P g [a] = .ok L) :
    ∃ b : PhaseSt K P.G.ns, L = [b] ∧ b.ph = a.1 ∧ b.pts.length = a.1.n ∧
      (∀ i mp, b.pts[i]? = some mp → Placed P g a.1 a.2 i mp) ∧ ∀ mp ∈ b.pts,
        mp.stress = (a.1.par.rho * P.max_g * (surface P - mp.x 1)) • slopeMat P ∧
        mp.dev_stress = mp.stress - (mp.stress.trace / 3) • (1 : Mat K) ∧
        mp.sigma_kk = mp.stress.trace ∧ mp.pressure = mp.stress.trace / 3 ∧ mp.dstress = 0 := by
  have r := c64_points h
  have hm := mkList_mem h
  cases r with
  | cons hab r =>
    cases r
    rename_i b
    refine ⟨b, rfl, hab.1, hab.2.1, hab.2.2, fun mp hmp => ?_⟩
    obtain ⟨S0, x, y, phi, hq⟩ := hm b (by simp) mp hmp
    have e := litho_entries hp hq
    rw [hab.1] at e hq
    have ex := (mkParticle_made hq).1
    refine ⟨?_, ?_⟩
    · rw [e, ex]; rfl
    · obtain ⟨st, h1, h⟩ := res_bind_ok.1 hq
      obtain ⟨fl, h2, h⟩ := res_bind_ok.1 h
      cases h
      exact ⟨rfl, rfl, rfl, rfl⟩

/-- Weight minus internal force of a bed. -/
theorem bed_netForce (hG : GoodGrid P.G) {p c r : ℕ} (hp : 0 < p)
    {a : Phase K P.G.ns × PhaseInit K P.G.ns} (ha : At (block P.G 0 c 0 r p) a)
    (hpr : P.pressure = .lithostatic) {L : List (PhaseSt K P.G.ns)} (h : mkList P g [a] = .ok L)
    (k : Fin P.G.N) (i : Fin 3) :
    netForce P.G L k i = a.1.par.rho * (a.1.A * P.G.thickness) *
      (slopeMat P i 1 * ((p : K) / 2 * touching 0 c ((k : ℕ) % P.G.nx)) *
        (g * ((p : K) / 2 * touching 0 r ((k : ℕ) / P.G.nx)) - P.max_g *
          ∑ b ∈ Finset.range (r * p), (surface P - 1 * piece P.G.y_m (cellY P.G / p) b) *
            tilt (cellY P.G) (piece P.G.y_m (cellY P.G / p) b - nodeY P.G ((k : ℕ) / P.G.nx))) -
      P.max_g * slopeMat P i 0 *
        (∑ b ∈ Finset.range (c * p), tilt (cellX P.G)
          (piece P.G.x_m (cellX P.G / p) b - nodeX P.G ((k : ℕ) % P.G.nx))) *
        ∑ b ∈ Finset.range (r * p), (surface P - piece P.G.y_m (cellY P.G / p) b) *
            tent (cellY P.G) (piece P.G.y_m (cellY P.G / p) b - nodeY P.G ((k : ℕ) / P.G.nx))) := by
  obtain ⟨b, rfl, hb, hn, hpl, hst⟩ := litho_points hpr h
  let V0 := a.1.A * P.G.thickness
  let ρ := a.1.par.rho
  let tx := fun x => tent (cellX P.G) (x - nodeX P.G ((k : ℕ) % P.G.nx))
  let ty := fun y => tent (cellY P.G) (y - nodeY P.G ((k : ℕ) / P.G.nx))
  let dx := fun x => tilt (cellX P.G) (x - nodeX P.G ((k : ℕ) % P.G.nx))
  let dy := fun y => tilt (cellY P.G) (y - nodeY P.G ((k : ℕ) / P.G.nx))
  obtain ⟨m1, em1⟩ : ∃ m : K, m = slopeMat P i 1 := ⟨_, rfl⟩
  obtain ⟨m0, em0⟩ : ∃ m : K, m = slopeMat P i 0 := ⟨_, rfl⟩
  rw [← em0, ← em1]
  obtain ⟨F, hF⟩ : ∃ F : K → K → K, F = fun x y => ρ * V0 * (g * m1) * (tx x * ty y) -
    V0 * (ρ * P.max_g * (surface P - y) * (m0 * (dx x * ty y) + m1 * (tx x * dy y))) := ⟨_, rfl⟩
  have e := placed_sum (M := K) ha hn hpl F
  have e1 : netForce P.G [b] k i = (b.pts.map fun mp => F (mp.x 0) (mp.x 1)).sum := by
    unfold netForce points
    rw [List.flatMap_cons, List.flatMap_nil, List.append_nil]
    refine congrArg List.sum (List.map_congr_left fun mp hmp => ?_)
    obtain ⟨q, hq⟩ := List.getElem?_of_mem hmp
    have pl := hpl q mp hq
    have eb : mp.b i = g * slopeMat P i 1 := by
      rw [pl.b]
      fin_cases i <;> simp [slopeMat]
    rw [eb, pl.m, pl.V, (hst mp hmp).1, hF]
    change _ = ρ * V0 * (g * m1) * hat P.G mp.x k -
      V0 * (ρ * P.max_g * (surface P - mp.x 1) * (m0 * hatGrad P.G mp.x k 0 +
        m1 * hatGrad P.G mp.x k 1))
    simp only [Matrix.smul_apply, smul_eq_mul, ← em0, ← em1]
    ring
  rw [e1, e, sum_block P.G 0 c 0 r p F, hF]
  have s1 := sum_tent_line (a := P.G.x_m) (cellX_pos hG) hp 0 c ((k : ℕ) % P.G.nx)
  have s2 := sum_tent_line (a := P.G.y_m) (cellY_pos hG) hp 0 r ((k : ℕ) / P.G.nx)
  simp only [Nat.cast_zero, zero_mul, add_zero] at s1 s2
  rw [← s1, ← s2]
  have n0 : nodeX P.G 0 = P.G.x_m ∧ nodeY P.G 0 = P.G.y_m := by simp [nodeX, nodeY]
  rw [n0.1, n0.2]
  change ∑ y ∈ Finset.range (r * p), ∑ x ∈ Finset.range (c * p), _ = ρ * V0 *
    (m1 * (∑ x ∈ Finset.range (c * p), tx (piece P.G.x_m (cellX P.G / p) x)) *
      (g * (∑ y ∈ Finset.range (r * p), ty (piece P.G.y_m (cellY P.G / p) y)) - P.max_g *
        ∑ y ∈ Finset.range (r * p), (surface P - 1 * piece P.G.y_m (cellY P.G / p) y) *
          dy (piece P.G.y_m (cellY P.G / p) y)) -
    P.max_g * m0 * (∑ x ∈ Finset.range (c * p), dx (piece P.G.x_m (cellX P.G / p) x)) *
      ∑ y ∈ Finset.range (r * p), (surface P - piece P.G.y_m (cellY P.G / p) y) *
          ty (piece P.G.y_m (cellY P.G / p) y))
  generalize surface P = H
  generalize piece P.G.x_m (cellX P.G / p) = X
  generalize piece P.G.y_m (cellY P.G / p) = Y
  have sep : ∀ f h : ℕ → K, (∑ x ∈ Finset.range (c * p), f x) * ∑ y ∈ Finset.range (r * p), h y =
      ∑ y ∈ Finset.range (r * p), ∑ x ∈ Finset.range (c * p), f x * h y := by
    intro f h
    rw [Finset.sum_mul_sum, Finset.sum_comm]
  have t1 := sep (fun x => tx (X x)) (fun y => ty (Y y))
  have t2 := sep (fun x => tx (X x)) (fun y => (H - 1 * Y y) * dy (Y y))
  have t3 := sep (fun x => dx (X x)) (fun y => (H - Y y) * ty (Y y))
  have : ∀ A B C D E F : K, ρ * V0 * (m1 * A * (g * B - P.max_g * C) -
      P.max_g * m0 * D * E) = ρ * V0 * (m1 * g) * (A * B) -
      ρ * V0 * (m1 * P.max_g) * (A * C) - ρ * V0 * (P.max_g * m0) * (D * E) := by
    intros; ring
  rw [this _ _ _ _ _ 0, t1, t2, t3]
  simp only [Finset.mul_sum, ← Finset.sum_sub_distrib]
  refine Finset.sum_congr rfl fun y _ => Finset.sum_congr rfl fun x _ => ?_
  ring

theorem touching_bed (r j : ℕ) (hj : 1 ≤ j) :
    touching 0 r j = if j < r then 2 else if j = r then 1 else 0 := by
  unfold touching
  rw [Nat.zero_add]
  split
  · rename_i h
    rw [show (Finset.Ico 0 r).filter (fun q => q = j ∨ q + 1 = j) = {j, j - 1} by
      ext q; simp only [Finset.mem_filter, Finset.mem_Ico, Finset.mem_insert, Finset.mem_singleton]
      omega]
    rw [Finset.card_pair (by omega)]
  · split
    · rename_i h
      rw [show (Finset.Ico 0 r).filter (fun q => q = j ∨ q + 1 = j) = {j - 1} by
        ext q; simp only [Finset.mem_filter, Finset.mem_Ico, Finset.mem_singleton]
        omega]
      rw [Finset.card_singleton]
    · rw [Finset.card_eq_zero]
      ext q
      simp only [Finset.mem_filter, Finset.mem_Ico, Finset.notMem_empty, iff_false]
      omega

/-- Above the floor the stress carries the weight. -/
theorem bed_row (hG : GoodGrid P.G) {p r : ℕ} (hp : 0 < p) (hH : surface P = nodeY P.G r) {j : ℕ}
    (hj : 1 ≤ j) :
    ∑ b ∈ Finset.range (r * p), (surface P - 1 * piece P.G.y_m (cellY P.G / p) b) *
        tilt (cellY P.G) (piece P.G.y_m (cellY P.G / p) b - nodeY P.G j) =
      (p : K) / 2 * touching 0 r j := by
  have hd := cellY_pos hG
  have e := sum_tilt_line (a := P.G.y_m) hd hp (surface P) 1 r j
  change ∑ b ∈ Finset.range (r * p), (surface P - 1 * piece P.G.y_m (cellY P.G / p) b) *
        tilt (cellY P.G) (piece P.G.y_m (cellY P.G / p) b - nodeY P.G j) = _ at e
  rw [e, touching_bed r j hj, hH]
  have hn : nodeY P.G r = P.G.y_m + r * cellY P.G := rfl
  rw [hn]
  rcases lt_trichotomy j r with h | h | h
  · rw [if_pos ⟨hj, h.le⟩, if_pos h, if_pos h]
    push_cast
    field_simp
    ring
  · subst h
    rw [if_pos ⟨hj, le_rfl⟩, if_neg (lt_irrefl _), if_neg (lt_irrefl _), if_pos rfl]
    push_cast
    field_simp
    ring
  · rw [if_neg (by omega), if_neg (by omega), if_neg (by omega), if_neg (by omega)]
    simp

/-- A full row of cells pushes only at its ends. -/
theorem bed_column (hG : GoodGrid P.G) {p : ℕ} (hp : 0 < p) {i : ℕ} (hi : i < P.G.nx) :
    ∑ b ∈ Finset.range ((P.G.nx - 1) * p), tilt (cellX P.G)
        (piece P.G.x_m (cellX P.G / p) b - nodeX P.G i) =
      (if i = P.G.nx - 1 then p / cellX P.G else 0) - if i = 0 then p / cellX P.G else 0 := by
  have hnx := hG.nx
  have e := sum_tilt_line (a := P.G.x_m) (cellX_pos hG) hp 1 0 (P.G.nx - 1) i
  simp only [zero_mul, sub_zero, one_mul, mul_one] at e
  change ∑ b ∈ Finset.range ((P.G.nx - 1) * p), tilt (cellX P.G)
        (piece P.G.x_m (cellX P.G / p) b - nodeX P.G i) = _ at e
  rw [e]
  by_cases h0 : i = 0
  · subst h0
    rw [if_neg (by omega), if_pos (by omega), if_neg (by omega), if_pos rfl]
  · by_cases h1 : i = P.G.nx - 1
    · rw [if_pos (by omega), if_neg (by omega), if_pos h1, if_neg h0]
    · rw [if_pos (by omega), if_pos (by omega), if_neg h1, if_neg h0]
      ring

/-- C124.  A bed of whole rows of cells on the floor, as wide as the domain and with its surface
where the lithostatic preset assumes it, is in balance. -/
theorem c124_balance (hG : GoodGrid P.G) {p r : ℕ} (hp : 0 < p)
    {a : Phase K P.G.ns × PhaseInit K P.G.ns} (ha : At (block P.G 0 (P.G.nx - 1) 0 r p) a)
    (hpr : P.pressure = .lithostatic) (hH : surface P = nodeY P.G r) (hg : g = P.max_g)
    (hW : Basin P) {L : List (PhaseSt K P.G.ns)} (h : mkList P g [a] = .ok L)
    {Gr : Grid K P.G.N P.G.ns} (hGr : mkGrid P.G P.B = .ok Gr) : InBalance P Gr L := by
  have hnx := hG.nx
  obtain ⟨bh, bv, -⟩ := mkGrid_masks hGr
  have net := bed_netForce hG hp ha hpr h
  -- above the floor only the ends of a row feel a force
  have up : ∀ (k : Fin P.G.N) i, 1 ≤ (k : ℕ) / P.G.nx → netForce P.G L k i =
      a.1.par.rho * (a.1.A * P.G.thickness) * (-(P.max_g * slopeMat P i 0) *
        ((if (k : ℕ) % P.G.nx = P.G.nx - 1 then p / cellX P.G else 0) -
          if (k : ℕ) % P.G.nx = 0 then p / cellX P.G else 0) *
        ∑ b ∈ Finset.range (r * p), (surface P - piece P.G.y_m (cellY P.G / p) b) *
            tent (cellY P.G) (piece P.G.y_m (cellY P.G / p) b - nodeY P.G ((k : ℕ) / P.G.nx))) := by
    intro k i hk
    rw [net, bed_row hG hp hH hk, bed_column hG hp (Nat.mod_lt _ (by omega)), hg, sub_self]
    ring
  -- on the floor nothing but what the floor holds, if the ground is level
  have low : ∀ (k : Fin P.G.N), P.sinθ = 0 → netForce P.G L k 0 =
      a.1.par.rho * (a.1.A * P.G.thickness) * (-(P.max_g * slopeMat P 0 0) *
        ((if (k : ℕ) % P.G.nx = P.G.nx - 1 then p / cellX P.G else 0) -
          if (k : ℕ) % P.G.nx = 0 then p / cellX P.G else 0) *
        ∑ b ∈ Finset.range (r * p), (surface P - piece P.G.y_m (cellY P.G / p) b) *
            tent (cellY P.G) (piece P.G.y_m (cellY P.G / p) b - nodeY P.G ((k : ℕ) / P.G.nx))) := by
    intro k hs
    rw [net, bed_column hG hp (Nat.mod_lt _ (by omega)), show slopeMat P 0 1 = P.sinθ from rfl, hs]
    ring
  have inner : ∀ (k : Fin P.G.N) (c S : K), ¬ OnEdge (nx := P.G.nx) (ny := P.G.ny) k →
      (a.1.par.rho * (a.1.A * P.G.thickness) * (c * ((if (k : ℕ) % P.G.nx = P.G.nx - 1
        then p / cellX P.G else 0) - if (k : ℕ) % P.G.nx = 0 then p / cellX P.G else 0) * S) : K) = 0 := by
    intro k c S hk
    unfold OnEdge at hk
    rw [if_neg (fun h => hk (Or.inr h)), if_neg (fun h => hk (Or.inl h))]
    ring
  have sum : ∀ (k : Fin P.G.N) i, P.B.cyclic_lr = true →
      (1 ≤ (k : ℕ) / P.G.nx ∨ (P.sinθ = 0 ∧ i = 0)) → ∑ j ∈ places P k, netForce P.G L j i = 0 := by
    intro k i hcy hk
    unfold places
    rw [if_pos hcy]
    by_cases he : OnEdge (nx := P.G.nx) (ny := P.G.ny) k
    · rw [copies_edge he, Finset.sum_pair]
      · rcases hk with hk | ⟨hs, rfl⟩
        · rw [up _ i (by rw [leftOf_row]; exact hk), up _ i (by rw [rightOf_row]; exact hk),
            leftOf_row, rightOf_row, leftOf_col, rightOf_col, if_neg (by omega), if_pos rfl, if_pos rfl,
            if_neg (by omega)]
          ring
        · rw [low _ hs, low _ hs,
            leftOf_row, rightOf_row, leftOf_col, rightOf_col, if_neg (by omega), if_pos rfl, if_pos rfl,
            if_neg (by omega)]
          ring
      · intro e
        have := congrArg (fun i : Fin (P.G.ny * P.G.nx) => (i : ℕ) % P.G.nx) e
        rw [leftOf_col, rightOf_col] at this
        omega
    · rw [copies_inner he, Finset.sum_singleton]
      rcases hk with hk | ⟨hs, rfl⟩
      · rw [up _ i hk]; exact inner k _ _ he
      · rw [low _ hs]; exact inner k _ _ he
  have single : ∀ (k : Fin P.G.N) i, P.B.cyclic_lr = false →
      (1 ≤ (k : ℕ) / P.G.nx ∨ (P.sinθ = 0 ∧ i = 0)) → ¬ OnEdge (nx := P.G.nx) (ny := P.G.ny) k →
      ∑ j ∈ places P k, netForce P.G L j i = 0 := by
    intro k i hcy hk he
    unfold places
    rw [if_neg (by simp [hcy]), Finset.sum_singleton]
    rcases hk with hk | ⟨hs, rfl⟩
    · rw [up _ i hk]; exact inner k _ _ he
    · rw [low _ hs]; exact inner k _ _ he
  intro k i
  have sidesV : P.B.has_left = true → P.B.has_right = true →
      OnEdge (nx := P.G.nx) (ny := P.G.ny) k → Gr.boundary_v k = true := fun h1 h2 he => by
    rw [bv]; exact mark_sides h1 h2 he
  have botH : (k : ℕ) / P.G.nx = 0 → Gr.boundary_h k = true := fun h0 => by
    rw [bh]; exact mark_bottom hW.bottom h0
  by_cases h2 : i = 2
  · refine Or.inr (Finset.sum_eq_zero fun j _ => ?_)
    subst h2
    rw [net, show slopeMat P 2 1 = 0 from rfl, show slopeMat P 2 0 = 0 from rfl]
    ring
  by_cases h0 : (k : ℕ) / P.G.nx = 0
  · by_cases h1 : i = 1
    · exact Or.inl (Or.inr ⟨h1, Or.inl (botH h0)⟩)
    · have hi : i = 0 := by omega
      rcases hW.drag with hs | hr | hn
      · by_cases he : OnEdge (nx := P.G.nx) (ny := P.G.ny) k
        · cases hcy : P.B.cyclic_lr
          · rcases hW.sides with h | ⟨hl, hr, -⟩
            · rw [hcy] at h; cases h
            · exact Or.inl (Or.inl ⟨hi, Or.inl (sidesV hl hr he)⟩)
          · exact Or.inr (sum k i hcy (Or.inr ⟨hs, hi⟩))
        · cases hcy : P.B.cyclic_lr
          · exact Or.inr (single k i hcy (Or.inr ⟨hs, hi⟩) he)
          · exact Or.inr (sum k i hcy (Or.inr ⟨hs, hi⟩))
      · exact Or.inl (Or.inl ⟨hi, Or.inr ⟨hr, botH h0⟩⟩)
      · exact Or.inl (Or.inl ⟨hi, Or.inl (by rw [bv]; exact mark_noSlip hn h0)⟩)
  · cases hcy : P.B.cyclic_lr
    · by_cases he : OnEdge (nx := P.G.nx) (ny := P.G.ny) k
      · rcases hW.sides with h | ⟨hl, hr, hd⟩
        · rw [hcy] at h; cases h
        · by_cases h1 : i = 1
          · rcases hd with hs | hro
            · refine Or.inr ?_
              unfold places
              rw [if_neg (by simp [hcy]), Finset.sum_singleton, up _ _ (Nat.one_le_iff_ne_zero.2 h0), h1,
                show slopeMat P 1 0 = P.sinθ from rfl, hs]
              ring
            · exact Or.inl (Or.inr ⟨h1, Or.inr ⟨hro, sidesV hl hr he⟩⟩)
          · exact Or.inl (Or.inl ⟨by omega, Or.inl (sidesV hl hr he)⟩)
      · exact Or.inr (single k i hcy (Or.inl (Nat.one_le_iff_ne_zero.2 h0)) he)
    · exact Or.inr (sum k i hcy (Or.inl (Nat.one_le_iff_ne_zero.2 h0)))

theorem litho_calm {a : Phase K P.G.ns × PhaseInit K P.G.ns} (hB : Bears P a.1) {mp : Particle K P.G.ns}
    (h1 : mp.stress = (a.1.par.rho * P.max_g * (surface P - mp.x 1)) • slopeMat P)
    (h2 : mp.dev_stress = mp.stress - (mp.stress.trace / 3) • (1 : Mat K))
    (h3 : mp.sigma_kk = mp.stress.trace) (h4 : mp.pressure = mp.stress.trace / 3)
    (h5 : mp.dstress = 0) (hy : mp.x 1 ≤ surface P) : Calm a.1 mp := by
  have tr : mp.stress.trace = 3 * (a.1.par.rho * P.max_g * (surface P - mp.x 1) * P.cosθ) := by
    rw [h1, Matrix.trace_smul]
    simp [slopeMat, Matrix.trace, Fin.sum_univ_three]
    ring
  have pr : mp.pressure = a.1.par.rho * P.max_g * (surface P - mp.x 1) * P.cosθ := by
    rw [h4, tr]; ring
  have iso : P.sinθ = 0 → mp.stress = mp.pressure • (1 : Mat K) := by
    intro hs
    rw [pr, h1]
    ext i j
    fin_cases i <;> fin_cases j <;> simp [slopeMat, hs]
  have neg : P.cosθ * (a.1.par.rho * P.max_g) ≤ 0 → mp.pressure ≤ 0 := by
    intro hc
    rw [pr]
    have := mul_nonpos_of_nonpos_of_nonneg hc (sub_nonneg.2 hy)
    linarith
  unfold Bears at hB
  unfold Calm
  cases hl : a.1.law <;> rw [hl] at hB <;> simp only at hB ⊢
  · rw [h2, h3]; simp
  · exact iso hB
  · exact ⟨iso hB, h5⟩
  · exact iso hB
  · exact ⟨iso hB.1, neg hB.2⟩
  · exact ⟨iso hB.1, neg hB.2⟩
  · exact ⟨iso hB.1, neg hB.2⟩

/-- C124.  The initial state of such a bed is one of rest. -/
theorem c124_bed (hG : GoodGrid P.G) {p r : ℕ} (hp : 0 < p) (hr : r < P.G.ny)
    {a : Phase K P.G.ns × PhaseInit K P.G.ns} (ha : At (block P.G 0 (P.G.nx - 1) 0 r p) a)
    (hpr : P.pressure = .lithostatic) (hH : surface P = nodeY P.G r) (hg : g = P.max_g)
    (hW : Basin P) (hl : Bears P a.1) (hf : P.initial_flow = .none)
    (hv : a.1.hasIv = true → a.1.iv = 0) {L : List (PhaseSt K P.G.ns)}
    (h : mkList P g [a] = .ok L) {Gr : Grid K P.G.N P.G.ns} (hGr : mkGrid P.G P.B = .ok Gr) (d : Dyn K) :
    AtRest P (bodyForce P g) (⟨d, L, Gr⟩ : St P) ∧
      ∀ A ∈ L, A.ph = a.1 ∧ ∀ mp ∈ A.pts, mp.rho = a.1.par.rho := by
  have hnx := hG.nx
  have hin : ∀ mp ∈ points L, InDomain P.G mp.x := by
    intro mp hmp
    have := c97_inside hG hp (by omega) (by omega) (mkList_at ha h mp hmp)
    exact ⟨⟨this.1.1.le, this.1.2⟩, this.2.1.le, this.2.2⟩
  have hbal := c124_balance hG hp ha hpr hH hg hW h hGr
  have hat := mkList_at ha h
  have hcount := mkList_counted h
  obtain ⟨b, rfl, hb, hn, hpl, hst⟩ := litho_points hpr h
  have pl : ∀ mp ∈ b.pts, ∃ i, Placed P g a.1 a.2 i mp := by
    intro mp hmp
    obtain ⟨i, hi⟩ := List.getElem?_of_mem hmp
    exact ⟨i, hpl i mp hi⟩
  have pts : ∀ mp, mp ∈ points [b] ↔ mp ∈ b.pts := by
    intro mp; simp [points]
  refine ⟨⟨hcount, mkGrid_geometry hGr, hin, ?_, ?_, ?_, hbal⟩, ?_⟩
  · intro A hA mp hmp
    rw [List.mem_singleton] at hA
    subst hA
    obtain ⟨i, q⟩ := pl mp hmp
    rw [q.rest hf, hb]
    cases hi : a.1.hasIv
    · rfl
    · exact hv hi
  · intro mp hmp
    obtain ⟨i, q⟩ := pl mp ((pts mp).1 hmp)
    rw [q.b]; rfl
  · intro A hA mp hmp
    rw [List.mem_singleton] at hA
    subst hA
    obtain ⟨s1, s2, s3, s4, s5⟩ := hst mp hmp
    rw [hb]
    refine litho_calm hl s1 s2 s3 s4 s5 ?_
    obtain ⟨y, hy, hq⟩ := List.mem_flatMap.1 (hat mp ((pts mp).2 hmp))
    obtain ⟨x, hx, e⟩ := List.mem_map.1 hq
    have e2 := congrArg Prod.snd e
    simp only at e2
    rw [← e2, hH]
    have := (piece_inside (a := P.G.y_m) (cellY_pos hG) hp (i0 := 0) (c := r) (n := r)
      (List.mem_range.1 hy) (by omega)).2
    exact this.le
  · intro A hA
    rw [List.mem_singleton] at hA
    subst hA
    refine ⟨hb, fun mp hmp => ?_⟩
    obtain ⟨i, q⟩ := pl mp hmp
    exact q.rho

/-- C124.  A bed of a solid or a fluid stands: in all states of a run, with static or dynamic time
steps and however long, all points are where they were, at rest and with the stress they had. -/
theorem c124_stands (hG : GoodGrid P.G) {p r : ℕ} (hp : 0 < p) (hr : r < P.G.ny)
    {a : Phase K P.G.ns × PhaseInit K P.G.ns} (ha : At (block P.G 0 (P.G.nx - 1) 0 r p) a)
    (hpr : P.pressure = .lithostatic) (hH : surface P = nodeY P.G r) (hg : ∀ t, (P.forces t).1 = P.max_g)
    (hW : Basin P) (hq : QuietOptions P.B) (hl : Bears P a.1) (hc : a.1.law ≠ .pouliquen ∧ a.1.law ≠ .ken_simple)
    (hf : P.initial_flow = .none) (hv : a.1.hasIv = true → a.1.iv = 0) {L : List (PhaseSt K P.G.ns)}
    (h : mkList P P.max_g [a] = .ok L) {Gr : Grid K P.G.N P.G.ns} (hGr : mkGrid P.G P.B = .ok Gr)
    {d : Dyn K} {interp : Interp K P.G.N} {A : LoopPar K} {us : List (St P)} {s' : St P}
    (hc1 : Chain P interp A ⟨d, L, Gr⟩ us s') :
    ∀ u ∈ s' :: us, List.Forall₂ StillPhase L u.L := by
  obtain ⟨k1, k2⟩ := c124_bed hG hp hr ha hpr hH rfl hW hl hf hv h hGr d
  intro u hu
  refine (c124_run hG hq (fun t => by rw [hg t]) k1 ?_ ?_ hc1 u hu).2
  · intro A hA mp hmp
    rw [(k2 A hA).1]
    exact ⟨fun e => absurd e hc.1, fun e => absurd e hc.2⟩
  · intro A hA mp hmp
    rw [(k2 A hA).1]
    exact ⟨fun e => absurd e hc.1, fun e => absurd e hc.2⟩

theorem full_mass (hG : GoodGrid P.G) {p : ℕ} (hp : 0 < p)
    {a : Phase K P.G.ns × PhaseInit K P.G.ns} (ha : At (fullLayout P.G p (fun _ _ => true)) a)
    (hA : a.1.A = cellArea P.G p) {L : List (PhaseSt K P.G.ns)} (h : mkList P g [a] = .ok L)
    {Gr : Grid K P.G.N P.G.ns} (hGr : mkGrid P.G P.B = .ok Gr) (k : Fin P.G.N) :
    massAt P L k = a.1.par.rho * Gr.V k := by
  have hm : ∀ k, nodalMass P.G L k = a.1.par.rho * ownVolume P.G k := by
    intro k
    rw [mkList_one h, c98_shared hG hp (.cons ⟨ha, hA⟩ .nil) (fun _ _ => rfl) h]
  unfold massAt places
  cases hcy : P.B.cyclic_lr with
  | false =>
    rw [mkGrid_V hG hGr, hcy]
    simp only [Bool.false_eq_true, if_false, Finset.sum_singleton, hm]
    rfl
  | true =>
    rw [mkGrid_V hG hGr, hcy]
    simp only [hm, if_true, mul_one]
    by_cases he : OnEdge (nx := P.G.nx) (ny := P.G.ny) k
    · have hnx := hG.nx
      rw [copies_edge he, Finset.sum_pair]
      · unfold ownVolume halfEnd
        rw [leftOf_row, leftOf_col, rightOf_row, rightOf_col]
        rw [if_pos (Or.inl rfl : 0 = 0 ∨ 0 = P.G.nx - 1), if_pos (Or.inr rfl : P.G.nx - 1 = 0 ∨ _)]
        ring
      · intro e
        have h1 := leftOf_col (nx := P.G.nx) (ny := P.G.ny) k
        rw [e, rightOf_col] at h1
        omega
    · rw [copies_inner he, Finset.sum_singleton]
      unfold ownVolume
      rw [show (halfEnd P.G.nx ((k : ℕ) % P.G.nx) : K) = 1 from if_neg he]
      ring

/-- C124.  The same for all these laws, if the material fills the domain up to its top. -/
theorem c124_filled (hG : GoodGrid P.G) {p : ℕ} (hp : 0 < p)
    {a : Phase K P.G.ns × PhaseInit K P.G.ns} (ha : At (fullLayout P.G p (fun _ _ => true)) a)
    (hA : a.1.A = cellArea P.G p)
    (hpr : P.pressure = .lithostatic) (hH : P.top_gap.getD 0 = 0) (hg : ∀ t, (P.forces t).1 = P.max_g)
    (hW : Basin P) (hq : QuietOptions P.B) (hl : Bears P a.1) (hρ : 0 ≤ a.1.par.rho)
    (hk : a.1.law = .ken_simple → 2500 < a.1.par.rho)
    (hf : P.initial_flow = .none) (hv : a.1.hasIv = true → a.1.iv = 0) {L : List (PhaseSt K P.G.ns)}
    (h : mkList P P.max_g [a] = .ok L) {Gr : Grid K P.G.N P.G.ns} (hGr : mkGrid P.G P.B = .ok Gr)
    (hV : ∀ k, 0 < Gr.V k) (hM : ∀ k, P.M_tol < a.1.par.rho * Gr.V k)
    {d : Dyn K} {interp : Interp K P.G.N} {A : LoopPar K} {us : List (St P)} {s' : St P}
    (hc1 : Chain P interp A ⟨d, L, Gr⟩ us s') :
    ∀ u ∈ s' :: us, List.Forall₂ StillPhase L u.L := by
  have hny := hG.ny
  have hm := full_mass hG hp ha hA h hGr
  have ha' := ha
  rw [c97_full hG hp] at ha'
  have hy : surface P = nodeY P.G (P.G.ny - 1) := by
    unfold surface
    rw [hH, sub_zero]
    have := cells_y hG
    unfold cellY at this
    unfold nodeY
    linarith
  obtain ⟨k1, k2⟩ := c124_bed hG hp (by omega) ha' hpr hy rfl hW hl hf hv h hGr d
  have hd : ∀ mp ∈ points L, gridDensity P.G P.M_tol (massAt P L) Gr.V mp.x = a.1.par.rho := by
    intro mp hmp
    unfold gridDensity
    have : ∀ k, (if P.M_tol < massAt P L k then massAt P L k / Gr.V k else 0) = a.1.par.rho := by
      intro k
      rw [hm, if_pos (hM k)]
      exact mul_div_cancel_right₀ _ (hV k).ne'
    simp only [this]
    rw [← Finset.sum_mul, hat_sum hG (k1.inside mp hmp), one_mul]
  intro u hu
  refine (c124_run hG hq (fun t => by rw [hg t]) k1 ?_ ?_ hc1 u hu).2
  · intro A hA mp hmp
    rw [(k2 A hA).1]
    dsimp only
    rw [hd mp (mem_points_of hA hmp)]
    exact ⟨fun _ => by linarith, hk⟩
  · intro A hA mp hmp
    obtain ⟨e1, e2⟩ := k2 A hA
    rw [e1]
    refine ⟨fun _ => ?_, fun e => ?_⟩ <;> rw [e2 mp hmp]
    · linarith
    · exact hk e

/-- There is a point at every position of the layout. -/
theorem mkList_everywhere {a : Phase K P.G.ns × PhaseInit K P.G.ns} {l : List (K × K)} (ha : At l a)
    {L : List (PhaseSt K P.G.ns)} (h : mkList P g [a] = .ok L) {q : K × K} (hq : q ∈ l) :
    ∃ mp ∈ points L, mp.x 0 = q.1 ∧ mp.x 1 = q.2 := by
  have r := c64_points h
  cases r with
  | cons hab r =>
    cases r
    rename_i b
    obtain ⟨i, hi⟩ := List.getElem?_of_mem hq
    have hlt : i < b.pts.length := by
      rw [hab.2.1, ha.n]
      exact (List.getElem?_eq_some_iff.1 hi).1
    have e := hab.2.2 i _ (List.getElem?_eq_getElem hlt)
    refine ⟨b.pts[i], by simp [points], ?_⟩
    have hx := e.x
    have hy := e.y
    rw [ha.X, List.getElem?_map, hi] at hx
    rw [ha.Y, List.getElem?_map, hi] at hy
    simp only [Option.map_some, Option.some.injEq] at hx hy
    exact ⟨hx.symm, hy.symm⟩

/-- C124.  A `pouliquen` bed with empty cells above it does not: its upper points lose their pressure
within two steps, since the density of a half empty node is half that of the bed. -/
theorem c124_thin (hG : GoodGrid P.G) (hth : P.G.thickness ≠ 0) {p r : ℕ} (hp : 0 < p) (hr0 : 0 < r)
    (hr : r < P.G.ny - 1) {a : Phase K P.G.ns × PhaseInit K P.G.ns}
    (ha : At (block P.G 0 (P.G.nx - 1) 0 r p) a) (hA : a.1.A = cellArea P.G p)
    (hpr : P.pressure = .lithostatic) (hH : surface P = nodeY P.G r) (hρ : 0 < a.1.par.rho)
    (hmg : P.max_g ≠ 0) (hcs : P.cosθ ≠ 0) (hl : a.1.law = .pouliquen)
    {L : List (PhaseSt K P.G.ns)} (h : mkList P g [a] = .ok L)
    {Gr : Grid K P.G.N P.G.ns} (hGr : mkGrid P.G P.B = .ok Gr) (hcy : P.B.cyclic_lr = false)
    (hM : ∀ k, nodalMass P.G L k = 0 ∨ P.M_tol < nodalMass P.G L k)
    (hi : P.B.inlet_right = false ∧ P.B.inlet_top = false)
    (ho : P.B.outlet_left = false ∧ P.B.outlet_bottom = false)
    {d : Dyn K} {interp : Interp K P.G.N} {s1 s2 : St P} (h1 : timeMarch P interp ⟨d, L, Gr⟩ = .ok s1)
    (h2 : timeMarch P interp s1 = .ok s2) :
    List.Forall₂ (fun e b => ∀ i, InCell P.G e.x i (r - 1) →
      nodeY P.G (r - 1) + 2 / 5 * cellY P.G < e.x 1 → e.pressure ≠ 0 ∧ b.pressure = 0)
      (points L) (points s2.L) ∧
    ∃ e ∈ points L, ∃ i, InCell P.G e.x i (r - 1) ∧ nodeY P.G (r - 1) + 2 / 5 * cellY P.G < e.x 1 := by
  have hnx := hG.nx
  have hp' : (0 : K) < p := by exact_mod_cast hp
  have hcell := cellY_pos hG
  have r1 : ((r - 1 : ℕ) : K) = r - 1 := by rw [Nat.cast_sub (by omega)]; norm_num
  have hcount := mkList_counted h
  have hx : ∀ mp ∈ points L, InDomain P.G mp.x := by
    intro mp hmp
    have := c97_inside hG hp (by omega) (by omega) (mkList_at ha h mp hmp)
    exact ⟨⟨this.1.1.le, this.1.2⟩, this.2.1.le, this.2.2⟩
  have hlaw : ∀ A ∈ s1.L, A.ph.law = .pouliquen ∧ A.ph.par.rho = a.1.par.rho := by
    intro B hB
    obtain ⟨A, hA, e, -⟩ := forall₂_right
      (c122_step hG (s := ⟨d, L, Gr⟩) hcount (mkGrid_geometry hGr) hx hi h1) hB
    rw [e, mkList_law h A hA]
    exact ⟨hl, rfl⟩
  have b1 := c122_bed hG hth hp hr0 hr ha hA h hGr hcy hM (by rw [hl]; decide) hi ho hρ h1
  have b2 : List.Forall₂ (fun e b : Particle K P.G.ns => e.rho < 8 / 10 * a.1.par.rho → b.pressure = 0)
      (points s1.L) (points s2.L) := by
    refine forall₂_points ((forall₂_and_left (c122_low (timeMarch_counted hcount h1) hi h2) hlaw).imp ?_)
    rintro A B ⟨⟨e1, e2⟩, k⟩
    obtain ⟨evo, k1, -, k3⟩ := k e1
    rw [k3 ho.1 ho.2]
    rw [e2] at k1
    exact k1
  constructor
  · refine (forall₂_and_left (p := fun e => e ∈ points L) (forall₂_comp b1 b2) (fun _ h => h)).imp ?_
    rintro e c ⟨he, b, k1, k2⟩ i hc hy
    obtain ⟨-, k3⟩ := k1 i (r - 1) hc
    refine ⟨?_, k2 (((k3 (by omega)).2).2 hy)⟩
    obtain ⟨b, rfl, -, -, -, hst⟩ := litho_points hpr h
    obtain ⟨s1, -, -, s4, -⟩ := hst e (by simpa [points] using he)
    have tr : e.pressure = a.1.par.rho * P.max_g * (surface P - e.x 1) * P.cosθ := by
      rw [s4, s1, Matrix.trace_smul]
      simp [slopeMat, Matrix.trace, Fin.sum_univ_three]
      ring
    rw [tr]
    have : surface P - e.x 1 ≠ 0 := by
      rw [hH]
      have := hc.2.1.2
      rw [show r - 1 + 1 = r by omega] at this
      exact (sub_pos.2 this).ne'
    exact mul_ne_zero (mul_ne_zero (mul_ne_zero hρ.ne' hmg) this) hcs
  · have hq : (piece (nodeX P.G 0) (cellX P.G / p) 0, piece (nodeY P.G 0) (cellY P.G / p) (r * p - 1)) ∈
        block P.G 0 (P.G.nx - 1) 0 r p :=
      List.mem_flatMap.2 ⟨r * p - 1, List.mem_range.2 (by have := Nat.mul_pos hr0 hp; omega),
        List.mem_map.2 ⟨0, List.mem_range.2 (Nat.mul_pos (by omega) hp), rfl⟩⟩
    obtain ⟨e, he, e0, e1⟩ := mkList_everywhere ha h hq
    have q1 : ((r * p - 1 : ℕ) : K) = r * p - 1 := by
      rw [Nat.cast_sub (Nat.mul_pos hr0 hp)]; push_cast; ring
    have y : e.x 1 = P.G.y_m + r * cellY P.G - cellY P.G / p / 2 := by
      rw [e1]
      unfold piece nodeY
      rw [q1]
      push_cast
      field_simp
      ring
    have x : e.x 0 = P.G.x_m + cellX P.G / p / 2 := by
      rw [e0]
      unfold piece nodeX
      push_cast
      ring
    have hone : (1 : K) ≤ p := by exact_mod_cast hp
    have small : cellY P.G / p ≤ cellY P.G := div_le_self hcell.le hone
    have smallx : cellX P.G / p ≤ cellX P.G := div_le_self (cellX_pos hG).le hone
    have posy : 0 < cellY P.G / p := div_pos hcell hp'
    have posx : 0 < cellX P.G / p := div_pos (cellX_pos hG) hp'
    have n1 : nodeY P.G (r - 1) = P.G.y_m + r * cellY P.G - cellY P.G := by
      change P.G.y_m + ((r - 1 : ℕ) : K) * cellY P.G = _
      rw [r1]; ring
    have n2 : nodeY P.G (r - 1 + 1) = P.G.y_m + r * cellY P.G := by
      rw [show r - 1 + 1 = r by omega]; rfl
    have n3 : nodeX P.G 0 = P.G.x_m := by simp [nodeX]
    have n4 : nodeX P.G (0 + 1) = P.G.x_m + cellX P.G := by simp [nodeX, cellX]
    have := cellX_pos hG
    refine ⟨e, he, 0, ⟨⟨?_, ?_⟩, ⟨?_, ?_⟩, by omega, by omega⟩, ?_⟩
    · rw [n3, x]; linarith
    · rw [n4, x]; linarith
    · rw [n1, y]; linarith
    · rw [n2, y]; linarith
    · rw [n1, y]; linarith

end

/-! ## Examples -/

/-- Rough walls on three sides, on a slope, with a gap of one row of cells at the top. -/
def Ex.basinPar : Par ℚ :=
  { Ex.par with
    B := { Ex.bp with has_bottom := true, has_left := true, has_right := true, roughness := true }
    sinθ := 3 / 5, cosθ := 4 / 5, tanθ := 3 / 4, pressure := .lithostatic, top_gap := some 1 }

/-- Smooth walls on level ground, filled to the top. -/
def Ex.tankPar : Par ℚ :=
  { Ex.par with
    B := { Ex.bp with has_bottom := true, has_left := true, has_right := true }
    pressure := .lithostatic }

/-- The same with a gap. -/
def Ex.gapPar : Par ℚ := { Ex.tankPar with top_gap := some 1 }

def Ex.grainPh : Phase ℚ 2 :=
  { Ex.ph with
    law := .pouliquen
    par := { Ex.mat with mu_0 := .arr [1, 1], delta_mu := .arr [1, 1], I_0 := .arr [1, 1] } }

def Ex.basinBed : Phase ℚ 2 × PhaseInit ℚ 2 := Ex.placed Ex.ph (block Ex.gp 0 2 0 1 1) 1
def Ex.grainBed : Phase ℚ 2 × PhaseInit ℚ 2 := Ex.placed Ex.grainPh (block Ex.gp 0 2 0 1 1) 1
def Ex.grainTank : Phase ℚ 2 × PhaseInit ℚ 2 :=
  Ex.placed Ex.grainPh (fullLayout Ex.gp 1 (fun _ _ => true)) 1

/-- Hypotheses of `c124_balance`, `c124_bed`, `c124_stands` and `c124_run`. -/
example : ∃ L Gr s' us, GoodGrid Ex.basinPar.G ∧ At (block Ex.basinPar.G 0 (Ex.basinPar.G.nx - 1) 0 1 1) Ex.basinBed ∧
    surface Ex.basinPar = nodeY Ex.basinPar.G 1 ∧ (∀ t, (Ex.basinPar.forces t).1 = Ex.basinPar.max_g) ∧
    Basin Ex.basinPar ∧ QuietOptions Ex.basinPar.B ∧ Bears Ex.basinPar Ex.basinBed.1 ∧
    (Ex.basinBed.1.law ≠ .pouliquen ∧ Ex.basinBed.1.law ≠ .ken_simple) ∧
    mkList Ex.basinPar Ex.basinPar.max_g [Ex.basinBed] = .ok L ∧ mkGrid Ex.basinPar.G Ex.basinPar.B = .ok Gr ∧
    Chain Ex.basinPar (Ex.noInterp _) Ex.shortDyn ⟨Ex.dyn, L, Gr⟩ us s' ∧ (points s'.L).length = 2 ∧
    us ≠ [] := by
  obtain ⟨L, hL, hr⟩ := Ex.okAnd_ok (r := mkList Ex.basinPar Ex.basinPar.max_g [Ex.basinBed])
    (check := fun L => Ex.noteCheck Ex.basinPar Ex.shortDyn Ex.dyn L 4 fun l =>
      decide ((points l.s.L).length = 2)) (by decide +kernel)
  obtain ⟨G, l, hG, h, hc⟩ := Ex.noteCheck_ok hr
  obtain ⟨us, hu⟩ := c123_chain looks_notes h
  refine ⟨L, G, _, us, Ex.good, Ex.placed_at _ _ _, by decide +kernel, fun t => rfl,
    ⟨rfl, Or.inr ⟨rfl, rfl, Or.inr rfl⟩, Or.inr (Or.inl rfl)⟩, ⟨Or.inr rfl, rfl, rfl, rfl, rfl, rfl, rfl, rfl⟩,
    trivial, ⟨by decide, by decide⟩, hL, hG, hu, of_decide_eq_true hc, ?_⟩
  rintro rfl
  have over : ∀ {s s' : St Ex.basinPar}, Chain Ex.basinPar (Ex.noInterp _) Ex.shortDyn s [] s' →
      Ex.shortDyn.t_f < s.dyn.t := fun h => by cases h; assumption
  exact absurd (over hu) (by show ¬ Ex.shortDyn.t_f < Ex.dyn.t; decide +kernel)

/-- Hypotheses of `c124_filled`. -/
example : ∃ L Gr s' us, GoodGrid Ex.tankPar.G ∧ At (fullLayout Ex.tankPar.G 1 (fun _ _ => true)) Ex.grainTank ∧
    Ex.grainTank.1.A = cellArea Ex.tankPar.G 1 ∧ Ex.tankPar.top_gap.getD 0 = 0 ∧
    (∀ t, (Ex.tankPar.forces t).1 = Ex.tankPar.max_g) ∧ Basin Ex.tankPar ∧ QuietOptions Ex.tankPar.B ∧
    Bears Ex.tankPar Ex.grainTank.1 ∧
    mkList Ex.tankPar Ex.tankPar.max_g [Ex.grainTank] = .ok L ∧ mkGrid Ex.tankPar.G Ex.tankPar.B = .ok Gr ∧
    (∀ k, 0 < Gr.V k) ∧ (∀ k, Ex.tankPar.M_tol < Ex.grainTank.1.par.rho * Gr.V k) ∧
    Chain Ex.tankPar (Ex.noInterp _) Ex.oneStep ⟨Ex.dyn, L, Gr⟩ us s' ∧
    (points s'.L).map (·.pressure) = [-15, -15, -5, -5] := by
  obtain ⟨⟨L, Gr⟩, e, hr⟩ := Ex.okAnd_ok (r := (do
      let L ← mkList Ex.tankPar Ex.tankPar.max_g [Ex.grainTank]
      let Gr ← mkGrid Ex.tankPar.G Ex.tankPar.B
      return (L, Gr) : Res (_ × _)))
    (check := fun x => decide ((∀ k, 0 < x.2.V k) ∧
        (∀ k, Ex.tankPar.M_tol < Ex.grainTank.1.par.rho * x.2.V k)) &&
      Ex.noteCheck Ex.tankPar Ex.oneStep Ex.dyn x.1 4 fun l =>
        decide ((points l.s.L).map (·.pressure) = [-15, -15, -5, -5])) (by decide +kernel)
  obtain ⟨L', h1, e⟩ := res_bind_ok.1 e
  obtain ⟨Gr', h2, e⟩ := res_bind_ok.1 e
  cases e
  rw [Bool.and_eq_true] at hr
  obtain ⟨G, l, hG, h, hc⟩ := Ex.noteCheck_ok hr.2
  rw [h2] at hG
  cases hG
  obtain ⟨us, hu⟩ := c123_chain looks_notes h
  exact ⟨L, Gr, _, us, Ex.good, Ex.placed_at _ _ _, by decide +kernel, rfl, fun t => rfl,
    ⟨rfl, Or.inr ⟨rfl, rfl, Or.inl rfl⟩, Or.inl rfl⟩, ⟨Or.inl rfl, rfl, rfl, rfl, rfl, rfl, rfl, rfl⟩,
    ⟨rfl, by decide +kernel⟩, h1, h2, (of_decide_eq_true hr.1).1, (of_decide_eq_true hr.1).2, hu,
    of_decide_eq_true hc⟩

/-- Hypotheses of `c124_thin`: all of the bed is at its surface. -/
example : ∃ L Gr s1 s2, At (block Ex.gapPar.G 0 (Ex.gapPar.G.nx - 1) 0 1 1) Ex.grainBed ∧
    Ex.grainBed.1.A = cellArea Ex.gapPar.G 1 ∧ surface Ex.gapPar = nodeY Ex.gapPar.G 1 ∧
    mkList Ex.gapPar Ex.gapPar.max_g [Ex.grainBed] = .ok L ∧ mkGrid Ex.gapPar.G Ex.gapPar.B = .ok Gr ∧
    (∀ k, nodalMass Ex.gapPar.G L k = 0 ∨ Ex.gapPar.M_tol < nodalMass Ex.gapPar.G L k) ∧
    timeMarch Ex.gapPar (Ex.noInterp _) ⟨Ex.dyn, L, Gr⟩ = .ok s1 ∧
    timeMarch Ex.gapPar (Ex.noInterp _) s1 = .ok s2 ∧
    (points L).map (·.pressure) = [-5, -5] ∧ (points s1.L).map (·.pressure) = [-5, -5] ∧
    (points s2.L).map (·.pressure) = [0, 0] := by
  obtain ⟨⟨L, Gr, s1, s2⟩, e, hr⟩ := Ex.okAnd_ok (r := (do
      let L ← mkList Ex.gapPar Ex.gapPar.max_g [Ex.grainBed]
      let Gr ← mkGrid Ex.gapPar.G Ex.gapPar.B
      let s1 ← timeMarch Ex.gapPar (Ex.noInterp _) ⟨Ex.dyn, L, Gr⟩
      let s2 ← timeMarch Ex.gapPar (Ex.noInterp _) s1
      return (L, Gr, s1, s2) : Res (_ × _ × St Ex.gapPar × St Ex.gapPar)))
    (check := fun x => decide
      ((∀ k, nodalMass Ex.gapPar.G x.1 k = 0 ∨ Ex.gapPar.M_tol < nodalMass Ex.gapPar.G x.1 k) ∧
        (points x.1).map (·.pressure) = [-5, -5] ∧ (points x.2.2.1.L).map (·.pressure) = [-5, -5] ∧
        (points x.2.2.2.L).map (·.pressure) = [0, 0])) (by decide +kernel)
  obtain ⟨L', h1, e⟩ := res_bind_ok.1 e
  obtain ⟨Gr', h2, e⟩ := res_bind_ok.1 e
  obtain ⟨s1', h3, e⟩ := res_bind_ok.1 e
  obtain ⟨s2', h4, e⟩ := res_bind_ok.1 e
  cases e
  obtain ⟨c1, c2, c3, c4⟩ := of_decide_eq_true hr
  exact ⟨L, Gr, s1, s2, Ex.placed_at _ _ _, by decide +kernel, by decide +kernel, h1, h2, c1, h3, h4,
    c2, c3, c4⟩

end Mpm

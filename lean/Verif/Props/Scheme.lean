import Verif.Props.Segregation

/-!
# C68, C69: sign and diffusivity of the grain size advection scheme
-/

set_option linter.unusedSectionVars false

namespace Mpm
open Spec

section
variable {K : Type} [Field K] [LinearOrder K] [IsStrictOrderedRing K] {n ns : ℕ}

/-! ## C68 -/

theorem slope_mul {dx : K} (hdx : dx ≠ 0) (C : Fin (n + 4) → K) (i : Fin (n + 4)) :
    slope dx C i * dx = superbee (C i - C (i - 1)) (C (i + 1) - C i) := by
  unfold slope limiter
  rw [mul_comm, ← superbee_smul, mul_div_cancel₀ _ hdx, mul_div_cancel₀ _ hdx]

/-- Half the superbee slope never reaches beyond either neighbour. -/
theorem superbee_half_le {a b : K} : (0 ≤ a → superbee a b / 2 ≤ a) ∧ (a ≤ 0 → superbee a b ≤ 0) := by
  by_cases h : a * b ≤ 0
  · rw [superbee_opp h]
    exact ⟨fun h => by rwa [zero_div], fun _ => le_rfl⟩
  · rcases pos_and_pos_or_neg_and_neg_of_mul_pos (not_le.1 h) with ⟨ha, hb⟩ | ⟨ha, hb⟩
    · refine ⟨fun _ => ?_, fun h => absurd ha (not_lt.2 h)⟩
      rw [superbee_pos ha hb]
      have h1 := min_le_left (2 * min a b) (max a b)
      have h2 := min_le_left a b
      linarith
    · refine ⟨fun h => absurd ha (not_lt.2 h), fun _ => ?_⟩
      have := superbee_pos (neg_pos.2 ha) (neg_pos.2 hb)
      rw [superbee_neg] at this
      have h0 : 0 ≤ min (2 * min (-a) (-b)) (max (-a) (-b)) :=
        le_min (by have := lt_min (neg_pos.2 ha) (neg_pos.2 hb); linarith)
          (le_max_of_le_left (neg_pos.2 ha).le)
      linarith

theorem recon_nonneg {dx : K} (hdx : dx ≠ 0) {C : Fin (n + 4) → K} (hC : ∀ i, 0 ≤ C i)
    (i : Fin (n + 4)) :
    0 ≤ C i - slope dx C i * dx / 2 ∧ 0 ≤ C i + slope dx C i * dx / 2 := by
  rw [slope_mul hdx]
  have h0 := hC i
  have hm := hC (i - 1)
  have hp := hC (i + 1)
  constructor
  · rcases le_total 0 (C i - C (i - 1)) with h | h
    · have := (superbee_half_le (b := C (i + 1) - C i)).1 h
      linarith
    · have := (superbee_half_le (b := C (i + 1) - C i)).2 h
      linarith
  · have e : superbee (C i - C (i - 1)) (C (i + 1) - C i) =
        -superbee (-(C (i + 1) - C i)) (-(C i - C (i - 1))) := by
      rw [superbee_neg, neg_neg, superbee_comm]
    rw [e]
    rcases le_total 0 (-(C (i + 1) - C i)) with h | h
    · have := (superbee_half_le (b := -(C i - C (i - 1)))).1 h
      linarith
    · have := (superbee_half_le (b := -(C i - C (i - 1)))).2 h
      linarith

theorem padKT_all {n : ℕ} [NeZero n] {α : Type} {p : α → Prop} {u : Fin n → α} (h : ∀ k, p (u k))
    (i : Fin (n + 4)) : p (padKT u i) := h _

theorem ghost_le [NeZero n] {C v : Fin n → K} {a : K} (h : ∀ k, |v k| ≤ a) (i : Fin (n + 4)) :
    |ghost C v i| ≤ a := by
  unfold ghost
  simp only
  split
  · split
    · rw [neg_zero, abs_zero]; exact (abs_nonneg _).trans (h ⟨0, NeZero.pos n⟩)
    · rw [abs_neg]; exact h _
  · exact h _

theorem face_bounds {dx a : K} (hdx : dx ≠ 0) {C w : Fin (n + 4) → K} (hC : ∀ i, 0 ≤ C i)
    (hw : ∀ i, |w i| ≤ a) (i : Fin (n + 4)) :
    -(2 * a * (C i + slope dx C i * dx / 2)) ≤ face dx C w i ∧
      face dx C w i ≤ 2 * a * (C (i - 1) - slope dx C (i - 1) * dx / 2) := by
  obtain ⟨-, hR⟩ := recon_nonneg hdx hC i
  obtain ⟨hL, -⟩ := recon_nonneg hdx hC (i - 1)
  unfold face
  generalize C i + slope dx C i * dx / 2 = R at *
  generalize C (i - 1) - slope dx C (i - 1) * dx / 2 = L at *
  have h1 := hw i
  have h2 := hw (i - 1)
  have hm : max |w i| |w (i - 1)| ≤ a := max_le h1 h2
  have a1 : |w i| ≤ max |w i| |w (i - 1)| := le_max_left _ _
  have a2 : |w (i - 1)| ≤ max |w i| |w (i - 1)| := le_max_right _ _
  generalize max |w i| |w (i - 1)| = m at *
  have b1 := abs_le.1 a1
  have b2 := abs_le.1 a2
  have e1 : 0 ≤ (w i + w (i - 1)) / 2 + m := by linarith [b1.1, b2.1]
  have e2 : 0 ≤ m - (w i + w (i - 1)) / 2 := by linarith [b1.2, b2.2]
  generalize (w i + w (i - 1)) / 2 = q at *
  have hq1 : q ≤ m := by linarith
  have hq2 : -m ≤ q := by linarith
  constructor
  · have : 0 ≤ L * (q + m) := mul_nonneg hL e1
    have : R * (m - q) ≤ R * (2 * a) := mul_le_mul_of_nonneg_left (by linarith) hR
    nlinarith
  · have : 0 ≤ R * (m - q) := mul_nonneg hR e2
    have : L * (q + m) ≤ L * (2 * a) := mul_le_mul_of_nonneg_left (by linarith) hL
    nlinarith

/-- Along a line with non-negative fractions and velocities of at most `a`, a step takes at most the
part `2 a dt/dx` of what is there. -/
theorem line_loss [NeZero n] {cyc : Bool} {c dt dx a : K} (hdx : 0 < dx) (hdt : 0 ≤ dt)
    {s : Fin ns → K} {phi : Fin n → Fin ns → K} {g : Fin n → K} {bnd : Fin n → Bool} {j : Fin ns}
    {v : Fin n → K} (hv : ∀ k, ktFlux c s (phi k) j (g k) (bnd k) = .fin (v k))
    (ha : ∀ k, |v k| ≤ a) (hphi : ∀ k, 0 ≤ phi k j) (k : Fin n) :
    ∃ u, ktLine cyc c dt dx s phi g bnd j k = .fin u ∧ -(2 * a * dt / dx * phi k j) ≤ u := by
  refine ⟨_, ktLine_face hdx.ne' hv k, ?_⟩
  unfold lineFace
  have hk := k.isLt
  have e0 : Fin.ofNat (n + 4) (k.val + 2) = ⟨k.val + 2, by omega⟩ :=
    Fin.ext (Nat.mod_eq_of_lt (by omega))
  have e1 : Fin.ofNat (n + 4) (k.val + 1 + 2) - 1 = Fin.ofNat (n + 4) (k.val + 2) := by
    rw [ofNat_sub_one (by omega)]
    congr 1
  have hC : padKT (fun i => phi i j) (Fin.ofNat (n + 4) (k.val + 2)) = phi k j := by
    rw [e0, padKT_mid]
  have b1 := (face_bounds hdx.ne' (padKT_all (p := fun x => 0 ≤ x) hphi) (ghost_le ha)
    (Fin.ofNat (n + 4) (k.val + 2)) (C := padKT fun i => phi i j)
    (w := ghost (fun i => phi i j) v)).1
  have b2 := (face_bounds hdx.ne' (padKT_all (p := fun x => 0 ≤ x) hphi) (ghost_le ha)
    (Fin.ofNat (n + 4) (k.val + 1 + 2)) (C := padKT fun i => phi i j)
    (w := ghost (fun i => phi i j) v)).2
  rw [e1] at b2
  rw [hC] at b1 b2
  generalize face dx _ _ (Fin.ofNat (n + 4) (k.val + 2)) = F0 at *
  generalize face dx _ _ (Fin.ofNat (n + 4) (k.val + 1 + 2)) = F1 at *
  have hd : 0 ≤ dt / (2 * dx) := div_nonneg hdt (by linarith)
  have key : -(4 * a * phi k j) ≤ F0 - F1 := by linarith
  have e2 : -(2 * a * dt / dx * phi k j) = dt / (2 * dx) * -(4 * a * phi k j) := by
    field_simp; ring
  rw [e2]
  exact mul_le_mul_of_nonneg_left key hd

/-- One direction: fractions stay non-negative if nothing moves more than half a cell per step. -/
theorem c68_line [NeZero n] {cyc : Bool} {c dt dx a : K} (hdx : 0 < dx) (hdt : 0 ≤ dt)
    {s : Fin ns → K} {phi : Fin n → Fin ns → K} {g : Fin n → K} {bnd : Fin n → Bool} {j : Fin ns}
    {v : Fin n → K} (hv : ∀ k, ktFlux c s (phi k) j (g k) (bnd k) = .fin (v k))
    (ha : ∀ k, |v k| ≤ a) (hphi : ∀ k, 0 ≤ phi k j) (hcfl : a * dt ≤ dx / 2) (k : Fin n) :
    ∃ u, ktLine cyc c dt dx s phi g bnd j k = .fin u ∧ 0 ≤ phi k j + u := by
  obtain ⟨u, hu, h⟩ := line_loss (cyc := cyc) hdx hdt hv ha hphi k
  refine ⟨u, hu, ?_⟩
  have : 2 * a * dt / dx ≤ 1 := by rw [div_le_one hdx]; linarith
  have := mul_le_mul_of_nonneg_right this (hphi k)
  linarith

/-- Both directions on the grid.  `ax` and `ay` bound the segregation speeds at the open nodes. -/
theorem c68_grid {nx ny : ℕ} {P : Par K} {dt ax ay : K} {s : Fin ns → K} {G : Grid K (ny * nx) ns}
    (hdx : 0 < P.G.dx) (hdy : 0 < P.G.dy) (hdt : 0 ≤ dt) (hax : 0 ≤ ax) (hay : 0 ≤ ay)
    (h : OpenNodesOk P.M_tol s G) {j : Fin ns} (hphi : ∀ n, 0 ≤ G.phi n j)
    (hvx : ∀ n, G.boundary_tot n = false → P.M_tol ≤ G.m n →
      |P.c * G.grad_pk n 0 * (harmonicMean s (G.phi n) / s j - 1)| ≤ ax)
    (hvy : ∀ n, G.boundary_tot n = false → P.M_tol ≤ G.m n →
      |P.c * G.grad_pk n 1 * (harmonicMean s (G.phi n) / s j - 1)| ≤ ay)
    (hcfl : 2 * dt * (ax / P.G.dx + ay / P.G.dy) ≤ 1) (n : Fin (ny * nx)) :
    ∃ u, ktX P dt s G n j + ktY P dt s G n j = .fin u ∧ 0 ≤ G.phi n j + u := by
  have key : ∀ (i : Fin 3) (a : K), 0 ≤ a → (∀ n, G.boundary_tot n = false → P.M_tol ≤ G.m n →
      |P.c * G.grad_pk n i * (harmonicMean s (G.phi n) / s j - 1)| ≤ a) → ∀ n, ∃ v,
      ktFlux P.c s (G.phi n) j (G.grad_pk n i) (ktBoundary P.M_tol G n) = .fin v ∧ |v| ≤ a := by
    intro i a ha0 ha n
    by_cases hb : ktBoundary P.M_tol G n = true
    · exact ⟨0, by rw [hb]; exact if_pos rfl, by rwa [abs_zero]⟩
    · have hb' := hb
      rw [ktBoundary_iff] at hb
      push Not at hb
      have h1 : G.boundary_tot n = false := by simpa using hb.1
      refine ⟨_, ?_, ha n h1 hb.2⟩
      rw [Bool.not_eq_true] at hb'
      rw [hb', c47_velocity (h n h1 hb.2)]
  choose vx hx hxa using key 0 ax hax hvx
  choose vy hy hya using key 1 ay hay hvy
  haveI : NeZero nx := ⟨(nx_pos_of_node n).ne'⟩
  haveI : NeZero ny := ⟨(ny_pos_of_node n).ne'⟩
  have e : mkNode (colF n) (rowF n) = n :=
    node_ext ((mkNode_row _ _).trans rfl) ((mkNode_col _ _).trans rfl)
  obtain ⟨u1, hu1, b1⟩ := line_loss (cyc := P.B.cyclic_lr) (phi := fun ix => G.phi (mkNode ix (rowF n)))
    hdx hdt (fun ix => hx (mkNode ix (rowF n))) (fun ix => hxa _) (fun ix => hphi _) (colF n)
  obtain ⟨u2, hu2, b2⟩ := line_loss (cyc := false) (phi := fun iy => G.phi (mkNode (colF n) iy))
    hdy hdt (fun iy => hy (mkNode (colF n) iy)) (fun iy => hya _) (fun iy => hphi _) (rowF n)
  refine ⟨u1 + u2, ?_, ?_⟩
  · unfold ktX ktY
    rw [hu1, hu2, XF.fin_add]
  · simp only [e] at b1 b2
    have h0 := hphi n
    have : 2 * dt * (ax / P.G.dx + ay / P.G.dy) * G.phi n j ≤ 1 * G.phi n j :=
      mul_le_mul_of_nonneg_right hcfl h0
    have e3 : 2 * dt * (ax / P.G.dx + ay / P.G.dy) * G.phi n j =
        2 * ax * dt / P.G.dx * G.phi n j + 2 * ay * dt / P.G.dy * G.phi n j := by ring
    linarith

/-- Three nodes with two sizes; segregation velocities 1/3, 3/5 and 0. -/
example : ∀ k, ∃ u, ktLine false (1 : ℚ) (1/2) 1 ![1, 2] Ex.ktPhi (fun _ => 1) (fun _ => false) 0 k =
    .fin u ∧ 0 ≤ Ex.ktPhi k 0 + u := by
  have hv : ∀ k, ktFlux (1 : ℚ) ![1, 2] (Ex.ktPhi k) 0 1 false = .fin (![1/3, 3/5, 0] k) := by
    decide +kernel
  refine c68_line (a := 3/5) (by norm_num) (by norm_num) hv (by decide +kernel) (by decide +kernel) ?_
  norm_num

/-- With a longer time step a fraction can become negative: the same line with a step forty times as
long. -/
theorem c68_too_long : (∀ k j, 0 ≤ Ex.ktPhi k j) ∧ ∃ u, ktLine false (1 : ℚ) 20 1 ![1, 2] Ex.ktPhi (fun _ => 1) (fun _ => false) 0 0 =
    .fin u ∧ Ex.ktPhi 0 0 + u < 0 := 
  ⟨by decide +kernel, -5, by decide +kernel, by decide +kernel⟩

/-! ## C69 -/

theorem superbee_ratio {a b : K} (ha : a ≠ 0) : 0 ≤ superbee a b / a ∧ superbee a b / a ≤ 2 := by
  by_cases h : a * b ≤ 0
  · rw [superbee_opp h, zero_div]; exact ⟨le_rfl, two_pos.le⟩
  · have h := not_le.1 h
    obtain ⟨h1, h2⟩ := (c44_superbee a b).2 h
    have e : |superbee a b / a| = superbee a b / a := by
      refine abs_of_nonneg ?_
      rw [show superbee a b / a = a * superbee a b / (a * a) by field_simp]
      exact div_nonneg h1.le (mul_self_nonneg a)
    rw [← e]
    refine ⟨abs_nonneg _, ?_⟩
    rw [abs_div, div_le_iff₀ (abs_pos.2 ha), h2]
    refine (min_le_left _ _).trans ?_
    have := min_le_left |a| |b|
    linarith

theorem superbee_self (d : K) : superbee d d = d := by
  rcases lt_trichotomy d 0 with h | h | h
  · have := superbee_pos (neg_pos.2 h) (neg_pos.2 h)
    rw [superbee_neg, min_self, max_self, min_eq_right (by linarith)] at this
    linarith
  · rw [h]; exact superbee_opp (by simp)
  · rw [superbee_pos h h, min_self, max_self, min_eq_right (by linarith)]

/-- Half a superbee slope as a part of one of its arguments. -/
theorem superbee_part (a b : K) : ∃ p, 0 ≤ p ∧ p ≤ 1 ∧ superbee a b / 2 = p * a ∧ (b = a → p = 1 / 2) := by
  by_cases h : a = 0
  · refine ⟨1 / 2, by norm_num, by norm_num, ?_, fun _ => rfl⟩
    rw [h, superbee_opp (by simp)]
    ring
  · obtain ⟨p1, p2⟩ := superbee_ratio (b := b) h
    refine ⟨superbee a b / a / 2, by linarith, by linarith, by field_simp, ?_⟩
    rintro rfl
    rw [superbee_self, div_self h]

/-- The face values lie outside the interval between the two fractions: on either side of a face the
limited slope is used to move away from the face rather than towards it.  So the flux between nodes
`k` and `k + 1` is that of the first-order scheme with the jump enlarged by `1 + p + q` with
`0 ≤ p, q ≤ 1`, where a second-order reconstruction has `p, q ≤ 0`; where the fraction is linear the
jump is doubled instead of removed. -/
theorem c69_diffusive [NeZero n] {dt dx : K} (hdx : 0 < dx) {C v : Fin n → K}
    {V0 : Fin (n + 4) → XF K} (hV : ∀ k : Fin n, V0 ⟨k.val + 2, by omega⟩ = .fin (v k)) :
    ∃ F : ℕ → K, F 0 = 0 ∧ F n = 0 ∧
      (∀ k : Fin n, ktCore dt dx (padKT C) (ktBC (padKT C) V0) ⟨k.val + 2, by omega⟩ =
        .fin (dt / dx * (F k - F (k + 1)))) ∧
      ∀ k k' : Fin n, k'.val = k.val + 1 → ∃ p q, 0 ≤ p ∧ p ≤ 1 ∧ 0 ≤ q ∧ q ≤ 1 ∧
        F k' = (v k + v k') / 2 * (((C k - p * (C k' - C k)) + (C k' + q * (C k' - C k))) / 2) -
          max |v k| |v k'| / 2 * ((1 + p + q) * (C k' - C k)) ∧
        (∀ l : Fin n, l.val + 1 = k.val → C k - C l = C k' - C k → p = 1 / 2) ∧
        (∀ r : Fin n, r.val = k'.val + 1 → C r - C k' = C k' - C k → q = 1 / 2) := by
  refine ⟨fun k => lineFace dx C v k / 2, ?_, ?_, fun k => ?_, fun k k' hk => ?_⟩
  · simp only; rw [(lineFace_ends dx C v).1, zero_div]
  · simp only; rw [(lineFace_ends dx C v).2, zero_div]
  · rw [ktCore_line hdx.ne' hV]
    congr 1
    field_simp
  · have hk1 := k.isLt
    have hk2 := k'.isLt
    have e0 : Fin.ofNat (n + 4) (k'.val + 2) = ⟨k'.val + 2, by omega⟩ :=
      Fin.ext (Nat.mod_eq_of_lt (by omega))
    have e1 : (⟨k'.val + 2, by omega⟩ : Fin (n + 4)) - 1 = ⟨k.val + 2, by omega⟩ := by
      rw [← e0, ofNat_sub_one (by omega)]
      refine Fin.ext ((Nat.mod_eq_of_lt (by omega)).trans ?_)
      simp only; omega
    have g : ∀ k : Fin n, ghost C v ⟨k.val + 2, by omega⟩ = v k := by
      intro k
      have := k.isLt
      unfold ghost
      simp only
      rw [if_neg (by omega)]
      congr 1
      exact Fin.ext (by simp only; omega)
    obtain ⟨q, q0, q1, hq, hq'⟩ := superbee_part (C k' - C k)
      (padKT C ((⟨k'.val + 2, by omega⟩ : Fin (n + 4)) + 1) - C k')
    obtain ⟨p, p0, p1, hp, hp'⟩ := superbee_part (C k' - C k)
      (C k - padKT C ((⟨k.val + 2, by omega⟩ : Fin (n + 4)) - 1))
    have s1 : slope dx (padKT C) ⟨k'.val + 2, by omega⟩ * dx / 2 = q * (C k' - C k) := by
      rw [slope_mul hdx.ne', e1, padKT_mid, padKT_mid, hq]
    have s2 : slope dx (padKT C) ⟨k.val + 2, by omega⟩ * dx / 2 = p * (C k' - C k) := by
      rw [slope_mul hdx.ne', ← hp, superbee_comm]
      have e3 : (⟨k.val + 2, by omega⟩ : Fin (n + 4)) + 1 = ⟨k'.val + 2, by omega⟩ := by
        rw [← e1, sub_add_cancel]
      rw [e3, padKT_mid, padKT_mid]
    refine ⟨p, q, p0, p1, q0, q1, ?_, fun l hl h => hp' ?_, fun r hr h => hq' ?_⟩
    · simp only
      unfold lineFace face
      rw [e0, e1, s1, s2]
      simp only [g, padKT_mid]
      rw [max_comm]
      ring
    · have el : (⟨k.val + 2, by omega⟩ : Fin (n + 4)) - 1 = ⟨l.val + 2, by omega⟩ := by
        have e0 : Fin.ofNat (n + 4) (k.val + 2) = ⟨k.val + 2, by omega⟩ :=
          Fin.ext (Nat.mod_eq_of_lt (by omega))
        rw [← e0, ofNat_sub_one (by omega)]
        refine Fin.ext ((Nat.mod_eq_of_lt (by omega)).trans ?_)
        simp only; omega
      rw [el, padKT_mid, h]
    · have hr' := r.isLt
      have er : (⟨k'.val + 2, by omega⟩ : Fin (n + 4)) + 1 = ⟨r.val + 2, by omega⟩ := by
        rw [← e0, ofNat_add_one]
        refine Fin.ext ((Nat.mod_eq_of_lt (by omega)).trans ?_)
        simp only; omega
      rw [er, padKT_mid, h]

/-- Five nodes with fractions rising linearly and a uniform velocity. -/
example : ∃ F : ℕ → ℚ, F 0 = 0 ∧ F 5 = 0 ∧
    (∀ k : Fin 5, ktCore 1 1 (padKT ![0, 1/4, 1/2, 3/4, 1]) (ktBC (padKT ![0, 1/4, 1/2, 3/4, 1])
      fun _ => .fin 1) ⟨k.val + 2, by omega⟩ = .fin (1 / 1 * (F k - F (k + 1)))) ∧ F 2 = 1/8 := by
  obtain ⟨F, h0, h5, h1, h2⟩ := c69_diffusive (n := 5) (K := ℚ) (dt := 1) (dx := 1) zero_lt_one
    (C := ![0, 1/4, 1/2, 3/4, 1]) (v := fun _ => 1) (V0 := fun _ => .fin 1) fun _ => rfl
  refine ⟨F, h0, h5, h1, ?_⟩
  obtain ⟨p, q, -, -, -, -, h, hp, hq⟩ := h2 1 2 rfl
  have hp := hp 0 rfl (by decide +kernel)
  have hq := hq 3 rfl (by decide +kernel)
  change F 2 = _ at h
  rw [h, hp, hq]
  simp
  norm_num

/-- Nor do the fractions of a node keep their sum: after one step of the scheme on a line of three
nodes, the two fractions of the middle node do not add up to one. -/
theorem c69_sum_lost : ∃ u0 u1,
    ktLine false (1 : ℚ) (1/2) 1 ![1, 2] Ex.ktPhi (fun _ => 1) (fun _ => false) 0 1 = .fin u0 ∧
    ktLine false (1 : ℚ) (1/2) 1 ![1, 2] Ex.ktPhi (fun _ => 1) (fun _ => false) 1 1 = .fin u1 ∧
    Ex.ktPhi 1 0 + Ex.ktPhi 1 1 = 1 ∧ (Ex.ktPhi 1 0 + u0) + (Ex.ktPhi 1 1 + u1) ≠ 1 :=
  ⟨23/160, -127/960, by decide +kernel, by decide +kernel, by decide +kernel, by decide +kernel⟩

end
end Mpm

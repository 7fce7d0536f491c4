import Verif.Model.NT
import Verif.Props.Segregation

/-!
# C86 to C88: the first advection scheme, `NT`, and the sum of fractions
-/

set_option linter.unusedSectionVars false

namespace Mpm
open Spec

namespace Spec
variable {K : Type} [Field K] [LinearOrder K] {ns : ℕ}

/-- Segregation flux of size `j` at a node, as `NT` takes it. -/
def sizeFlux (c : K) (s phi : Fin ns → K) (g : K) (bnd : Bool) (j : Fin ns) : K :=
  if bnd then 0 else c * g * phi j * (1 - harmonicMean s phi / s j)

end Spec

section
variable {K : Type} [Field K] [LinearOrder K] [IsStrictOrderedRing K] {n ns : ℕ}

/-! ## Floats -/

theorem XF.add_fin {a b : XF K} {x : K} (h : a + b = .fin x) :
    ∃ u v, a = .fin u ∧ b = .fin v ∧ x = u + v := by
  cases a <;> cases b <;> first
    | exact ⟨_, _, rfl, rfl, (XF.fin.inj h).symm⟩
    | exact absurd h (by intro h; cases h)

theorem XF.sub_fin {a b : XF K} {x : K} (h : a - b = .fin x) :
    ∃ u v, a = .fin u ∧ b = .fin v ∧ x = u - v := by
  cases a <;> cases b <;> first
    | exact ⟨_, _, rfl, rfl, by rw [XF.fin_sub] at h; exact (XF.fin.inj h).symm⟩
    | exact absurd h (by intro h; cases h)

theorem XF.mul_fin {c x : K} {a : XF K} (h : .fin c * a = .fin x) : ∃ u, a = .fin u ∧ x = c * u := by
  cases a with
  | fin u => exact ⟨u, rfl, (XF.fin.inj h).symm⟩
  | nan => rw [XF.mul_nan] at h; cases h
  | pinf =>
    have := XF.Special.fin_mul (K := K) (b := .pinf) rfl c
    rw [h] at this; cases this
  | ninf =>
    have := XF.Special.fin_mul (K := K) (b := .ninf) rfl c
    rw [h] at this; cases this

theorem XF.div_fin {d x : K} {a : XF K} (h : a / .fin d = .fin x) :
    d ≠ 0 ∧ ∃ u, a = .fin u ∧ x = u / d := by
  cases a with
  | fin u =>
    have hd : d ≠ 0 := by
      rintro rfl
      have := XF.special_div_zero u
      rw [h] at this; cases this
    rw [XF.fin_div u hd] at h
    exact ⟨hd, u, rfl, (XF.fin.inj h).symm⟩
  | nan => rw [XF.nan_div] at h; cases h
  | pinf => change (if d < 0 then XF.ninf else XF.pinf) = _ at h; split at h <;> cases h
  | ninf => change (if d < 0 then XF.pinf else XF.ninf) = _ at h; split at h <;> cases h

theorem minmodX_fin (a b : K) : minmodX (.fin a) (.fin b) = .fin (minmod a b) := rfl
theorem maxmodX_fin (a b : K) : maxmodX (.fin a) (.fin b) = .fin (maxmod a b) := rfl
theorem limiterX_fin (a b : K) : limiterX (.fin a) (.fin b) = .fin (limiter a b) := rfl

theorem invHarmonicX_fin (s phi : Fin ns → K) :
    invHarmonicX s (fun k => .fin (phi k)) = invHarmonic s phi := rfl

theorem ntFlux_fin {c g : K} {s phi : Fin ns → K} {bnd : Bool} (h : bnd = false → HarmonicOk s phi)
    (j : Fin ns) :
    ntFlux c s (fun k => .fin (phi k)) j g bnd = .fin (sizeFlux c s phi g bnd j) := by
  cases bnd
  · replace h := h rfl
    unfold ntFlux sizeFlux
    rw [invHarmonicX_fin, invHarmonic_fin h.1, XF.fin_mul,
      XF.fin_div _ (mul_ne_zero h.2 (h.1 j)), XF.fin_sub, XF.fin_mul, XF.fin_mul, XF.fin_mul]
    simp only [Bool.false_eq_true, if_false]
    congr 1
    unfold harmonicMean
    rw [div_div]
    ring
  · rfl

/-! ## C86 -/

/-- Fractions along the line, continued by the end values. -/
def lineU [NeZero n] (phi : Fin n → Fin ns → K) (j : Fin ns) (i : ℕ) : K :=
  phi ⟨min (i - 2) (n - 1), by have := NeZero.pos n; omega⟩ j

/-- Limited differences of these. -/
def lineU' [NeZero n] (phi : Fin n → Fin ns → K) (j : Fin ns) (i : ℕ) : K :=
  limiter (lineU phi j (i + 2) - lineU phi j (i + 1)) (lineU phi j (i + 1) - lineU phi j i)

theorem lineU_left [NeZero n] (phi : Fin n → Fin ns → K) (j : Fin ns) {i : ℕ} (h : i ≤ 2) :
    lineU phi j i = phi ⟨0, NeZero.pos n⟩ j := by
  unfold lineU
  congr 2
  omega

theorem lineU_right [NeZero n] (phi : Fin n → Fin ns → K) (j : Fin ns) {i : ℕ} (h : n + 1 ≤ i) :
    lineU phi j i = phi ⟨n - 1, by have := NeZero.pos n; omega⟩ j := by
  unfold lineU
  congr 2
  omega

theorem lineU_node [NeZero n] (phi : Fin n → Fin ns → K) (j : Fin ns) (k : Fin n) :
    lineU phi j (k + 2) = phi k j := by
  unfold lineU
  congr 1
  apply Fin.ext
  simp only
  omega

theorem lineU'_left [NeZero n] (phi : Fin n → Fin ns → K) (j : Fin ns) :
    lineU' phi j 0 = 0 ∧ lineU' phi j 1 = 0 := by
  constructor
  · unfold lineU'
    rw [lineU_left phi j (i := 0 + 1) (by omega), lineU_left phi j (i := 0) (by omega), sub_self]
    exact limiter_zero_right _
  · unfold lineU'
    rw [lineU_left phi j (i := 1 + 1) (by omega), lineU_left phi j (i := 1) (by omega), sub_self]
    exact limiter_zero_right _

theorem lineU'_right [NeZero n] (phi : Fin n → Fin ns → K) (j : Fin ns) :
    lineU' phi j n = 0 ∧ lineU' phi j (n + 1) = 0 := by
  constructor
  · unfold lineU'
    rw [lineU_right phi j (i := n + 2) (by omega), lineU_right phi j (i := n + 1) (by omega), sub_self]
    exact limiter_zero_left _
  · unfold lineU'
    rw [lineU_right phi j (i := n + 1 + 2) (by omega), lineU_right phi j (i := n + 1 + 1) (by omega),
      sub_self]
    exact limiter_zero_left _

section line
variable [NeZero n] {c dt dx : K} {s : Fin ns → K} {phi : Fin n → Fin ns → K} {g : Fin n → K}
  {bnd : Fin n → Bool} {j : Fin ns}

theorem ntNext_fin {i : Fin (n + 1)} {x : K} (h : ntNext c dt dx s phi g bnd i j = .fin x) :
    dx ≠ 0 ∧ ∃ a b, ntFStaggered c dt dx s phi g bnd ⟨i.val + 1, by omega⟩ j = .fin a ∧
      ntFStaggered c dt dx s phi g bnd ⟨i.val, by omega⟩ j = .fin b ∧
      x = 1 / 2 * (lineU phi j (i + 1) + lineU phi j (i + 2)) +
        1 / 8 * (lineU' phi j i - lineU' phi j (i + 1)) + dt * (a - b) / dx := by
  unfold ntNext at h
  obtain ⟨u, v, hu, hv, rfl⟩ := XF.add_fin h
  obtain ⟨hd, w, hw, rfl⟩ := XF.div_fin hv
  obtain ⟨y, hy, rfl⟩ := XF.mul_fin hw
  obtain ⟨a, b, ha, hb, rfl⟩ := XF.sub_fin hy
  rw [XF.fin_add] at hu
  exact ⟨hd, a, b, ha, hb, by rw [← XF.fin.inj hu]; rfl⟩

theorem ntLine_fin {k : Fin n} {x : K} (h : ntLine c dt dx s phi g bnd j k = .fin x) :
    ∃ a b, ntNext c dt dx s phi g bnd ⟨k.val + 1, by omega⟩ j = .fin a ∧
      ntNext c dt dx s phi g bnd ⟨k.val, by omega⟩ j = .fin b ∧ x = (a + b) / 2 - phi k j := by
  unfold ntLine at h
  obtain ⟨u, v, hu, hv, rfl⟩ := XF.sub_fin h
  obtain ⟨_, w, hw, rfl⟩ := XF.div_fin hu
  obtain ⟨a, b, ha, hb, rfl⟩ := XF.add_fin hw
  exact ⟨a, b, ha, hb, by rw [XF.fin.inj hv]⟩

/-- Finite increments come from finite staggered fluxes, and are differences of face values. -/
theorem ntLine_faces {u : Fin n → K} (h : ∀ k, ntLine c dt dx s phi g bnd j k = .fin (u k)) :
    dx ≠ 0 ∧ ∃ f : ℕ → K, (∀ i (hi : i < n + 2),
        ntFStaggered c dt dx s phi g bnd ⟨i, hi⟩ j = .fin (f i)) ∧
      ∑ k, u k = dt / (2 * dx) * (f n + f (n + 1) - f 0 - f 1) := by
  have hn := NeZero.pos n
  have hd : dx ≠ 0 := by
    obtain ⟨a, b, ha, _, _⟩ := ntLine_fin (h ⟨0, hn⟩)
    exact (ntNext_fin ha).1
  have hF : ∀ i (hi : i < n + 2), ∃ x, ntFStaggered c dt dx s phi g bnd ⟨i, hi⟩ j = .fin x := by
    intro i hi
    rcases Nat.lt_or_ge i n with hin | hin
    · obtain ⟨a, b, ha, hb, _⟩ := ntLine_fin (h ⟨i, hin⟩)
      obtain ⟨_, p, q, hp, hq, _⟩ := ntNext_fin hb
      exact ⟨q, hq⟩
    · obtain ⟨a, b, ha, hb, _⟩ := ntLine_fin (h ⟨n - 1, by omega⟩)
      obtain ⟨_, p, q, hp, hq, _⟩ := ntNext_fin ha
      rcases Nat.eq_or_lt_of_le hin with e | e
      · exact ⟨q, by rw [← hq]; congr 1; apply Fin.ext; simp only; omega⟩
      · exact ⟨p, by rw [← hp]; congr 1; apply Fin.ext; simp only; omega⟩
  choose f0 hf0 using hF
  let f : ℕ → K := fun i => if hi : i < n + 2 then f0 i hi else 0
  have hf : ∀ i (hi : i < n + 2), ntFStaggered c dt dx s phi g bnd ⟨i, hi⟩ j = .fin (f i) := by
    intro i hi
    simp only [f, dif_pos hi]
    exact hf0 i hi
  clear_value f
  refine ⟨hd, f, hf, ?_⟩
  let H : ℕ → K := fun k => 1 / 4 * (lineU phi j (k + 2) - lineU phi j (k + 1)) -
    1 / 16 * (lineU' phi j k + lineU' phi j (k + 1)) + dt / (2 * dx) * (f k + f (k + 1))
  have hu : ∀ k : Fin n, u k = H (k + 1) - H k := by
    intro k
    obtain ⟨a, b, ha, hb, e⟩ := ntLine_fin (h k)
    obtain ⟨_, p, q, hp, hq, ea⟩ := ntNext_fin ha
    obtain ⟨_, p', q', hp', hq', eb⟩ := ntNext_fin hb
    rw [hf _ (by omega)] at hp hq hp' hq'
    rw [e, ea, eb, ← XF.fin.inj hp, ← XF.fin.inj hq, ← XF.fin.inj hp', ← XF.fin.inj hq',
      ← lineU_node phi j k]
    simp only [H]
    have e1 : k.val + 1 + 1 = k.val + 2 := rfl
    have e2 : k.val + 1 + 2 = k.val + 3 := rfl
    rw [e1, e2]
    field_simp
    ring
  have hs : ∑ k, u k = H n - H 0 := by
    simp only [hu]
    rw [Fin.sum_univ_eq_sum_range (fun k => H (k + 1) - H k) n, Finset.sum_range_sub]
  rw [hs]
  simp only [H]
  rw [lineU_right phi j (i := n + 2) (by omega), lineU_right phi j (i := n + 1) (by omega),
    lineU_left phi j (i := 0 + 2) (by omega), lineU_left phi j (i := 0 + 1) (by omega),
    (lineU'_right phi j).1, (lineU'_right phi j).2, (lineU'_left phi j).1]
  have := (lineU'_left phi j).2
  rw [show (0 : ℕ) + 1 = 1 from rfl, this]
  ring

/-- Between two walls (or empty nodes), finite increments add up to zero. -/
theorem c86_walls {u : Fin n → K} (h : ∀ k, ntLine c dt dx s phi g bnd j k = .fin (u k))
    (h0 : bnd ⟨0, NeZero.pos n⟩ = true)
    (h1 : bnd ⟨n - 1, by have := NeZero.pos n; omega⟩ = true) : ∑ k, u k = 0 := by
  have hn := NeZero.pos n
  obtain ⟨_, f, hf, hs⟩ := ntLine_faces h
  have z : ∀ i (hi : i < n + 2), padOne bnd ⟨i, hi⟩ = true → f i = 0 := by
    intro i hi hb
    have := hf i hi
    unfold ntFStaggered ntFlux at this
    rw [if_pos hb] at this
    exact (XF.fin.inj this).symm
  rw [hs, z n (by omega) (by rw [← h1]; unfold padOne; congr 1; apply Fin.ext; simp only; omega),
    z (n + 1) (by omega) (by rw [← h1]; unfold padOne; congr 1; apply Fin.ext; simp only; omega),
    z 0 (by omega) (by rw [← h0]; unfold padOne; congr 1),
    z 1 (by omega) (by rw [← h0]; unfold padOne; congr 1)]
  ring

/-- The node that entry `i` of a line padded by `m` on each side stands for. -/
def clampNode (m i : ℕ) : Fin n :=
  ⟨min (i - m) (n - 1), by have := NeZero.pos n; omega⟩

theorem ntF_fin (hok : ∀ k, bnd k = false → HarmonicOk s (phi k)) {i : ℕ} (hi : i < n + 4) :
    ntF c s phi g bnd ⟨i, hi⟩ j = .fin (sizeFlux c s (phi (clampNode 2 i)) (g (clampNode 2 i))
      (bnd (clampNode 2 i)) j) :=
  ntFlux_fin (hok _) j

theorem ntStaggered_end (hdx : dx ≠ 0) (hok : ∀ k, bnd k = false → HarmonicOk s (phi k)) {i : ℕ}
    (hi : i < n + 2)
    (h : clampNode (n := n) 2 (i + 1) = clampNode 2 i ∨
      clampNode (n := n) 2 (i + 2) = clampNode 2 (i + 1)) :
    ntStaggered c dt dx s phi g bnd ⟨i, hi⟩ j = .fin (phi (clampNode 2 (i + 1)) j) := by
  have h2 : (2 * dx : K) ≠ 0 := mul_ne_zero two_ne_zero hdx
  unfold ntStaggered
  simp only [ntF_fin hok, XF.fin_sub, limiterX_fin]
  have hl : ∀ a b : K, a = 0 ∨ b = 0 → limiter a b = 0 := by
    rintro a b (rfl | rfl)
    · exact limiter_zero_left _
    · exact limiter_zero_right _
  rw [hl, XF.fin_mul, XF.fin_div _ h2, XF.fin_add]
  · rw [mul_zero, zero_div, add_zero]; rfl
  · rcases h with h | h
    · right; rw [h, sub_self]
    · left; rw [h, sub_self]

/-- In general: the total changes by what the two end nodes carry across the ends. -/
theorem c86_balance {u : Fin n → K} (h : ∀ k, ntLine c dt dx s phi g bnd j k = .fin (u k))
    (hok : ∀ k, bnd k = false → HarmonicOk s (phi k)) (a b : Fin n) (ha : a.val = 0)
    (hb : b.val + 1 = n) :
    ∑ k, u k = dt / dx * (sizeFlux c s (phi b) (g b) (bnd b) j -
      sizeFlux c s (phi a) (g a) (bnd a) j) := by
  have hn := NeZero.pos n
  obtain ⟨hd, f, hf, hs⟩ := ntLine_faces h
  have e : ∀ i (hi : i < n + 2) (k : Fin n), (clampNode (n := n) 2 (i + 1) = clampNode 2 i ∨
      clampNode (n := n) 2 (i + 2) = clampNode 2 (i + 1)) → clampNode 2 (i + 1) = k →
      f i = sizeFlux c s (phi k) (g k) (bnd k) j := by
    intro i hi k hc hk
    have := hf i hi
    unfold ntFStaggered at this
    have e1 : ntStaggered c dt dx s phi g bnd ⟨i, hi⟩ = fun j => .fin (phi k j) := by
      funext j
      rw [ntStaggered_end hd hok hi hc, hk]
    have e2 : ∀ {α : Type} (v : Fin n → α), padOne v ⟨i, hi⟩ = v k := by
      intro α v
      rw [← hk]
      unfold padOne clampNode
      congr 1
    rw [e1, e2, e2, ntFlux_fin (hok k)] at this
    exact (XF.fin.inj this).symm
  have x : ∀ i k : ℕ, ∀ hk : k < n, min (i - 2) (n - 1) = k → clampNode 2 i = (⟨k, hk⟩ : Fin n) := by
    intro i k hk h
    apply Fin.ext
    exact h
  obtain ⟨a, ha'⟩ := a
  obtain ⟨b, hb'⟩ := b
  simp only at ha hb
  rw [hs, e n (by omega) ⟨b, hb'⟩ (Or.inr ?_) (x _ _ _ (by omega)),
    e (n + 1) (by omega) ⟨b, hb'⟩ (Or.inl ?_) (x _ _ _ (by omega)),
    e 0 (by omega) ⟨a, ha'⟩ (Or.inl ?_) (x _ _ _ (by omega)),
    e 1 (by omega) ⟨a, ha'⟩ (Or.inl ?_) (x _ _ _ (by omega))]
  · field_simp
    ring
  all_goals (apply Fin.ext; simp only [clampNode]; try omega)

/-! ## C87 -/

theorem XF.Special.mul_fin {a : XF K} (h : XF.Special a) (c : K) : XF.Special (a * .fin c) := by
  cases a with
  | fin x => cases h
  | nan => rw [XF.nan_mul]; rfl
  | pinf => exact XF.Special.fin_mul (b := .pinf) rfl c
  | ninf => exact XF.Special.fin_mul (b := .ninf) rfl c

/-- A finite flux at an open node needs a harmonic mean size. -/
theorem harmonicOk_of_flux {phi : Fin ns → K} {g x : K} (hs : ∀ j, s j ≠ 0)
    (h : ntFlux c s (fun k => .fin (phi k)) j g false = .fin x) : HarmonicOk s phi := by
  refine ⟨hs, fun h0 => ?_⟩
  unfold ntFlux at h
  rw [if_neg (by simp), invHarmonicX_fin, invHarmonic_fin hs, h0, XF.fin_mul, zero_mul] at h
  have h1 : XF.Special (.fin 1 - .fin 1 / .fin 0 : XF K) := by
    rw [XF.fin_div_zero one_pos]; rfl
  have := ((h1.fin_mul c).mul_fin g).mul_fin (phi j)
  rw [h] at this
  cases this

theorem sizeFlux_sum {phi : Fin ns → K} {g : K} {bnd : Bool} (h : bnd = false → HarmonicOk s phi) :
    ∑ j, sizeFlux c s phi g bnd j = if bnd then 0 else c * g * (∑ j, phi j - 1) := by
  cases bnd
  · simp only [sizeFlux, Bool.false_eq_true, if_false]
    have e : ∀ j, c * g * phi j * (1 - harmonicMean s phi / s j) =
        c * g * (phi j - harmonicMean s phi * (phi j / s j)) := by
      intro j; ring
    simp only [e]
    rw [← Finset.mul_sum, Finset.sum_sub_distrib, ← Finset.mul_sum]
    unfold harmonicMean
    rw [one_div_mul_cancel (h rfl).2]
  · simp [sizeFlux]

end line

section two
variable [NeZero n] {c dt dx : K} {s : Fin 2 → K} {phi : Fin n → Fin 2 → K} {g : Fin n → K}
  {bnd : Fin n → Bool}

theorem limiter_opp (a b : K) : limiter (-a) (-b) = -limiter a b := superbee_neg a b

theorem sizeFlux_two {phi : Fin 2 → K} {g : K} {bnd : Bool} (h : bnd = false → HarmonicOk s phi)
    (h1 : phi 0 + phi 1 = 1) : sizeFlux c s phi g bnd 1 = -sizeFlux c s phi g bnd 0 := by
  have := sizeFlux_sum (c := c) (g := g) h
  rw [Fin.sum_univ_two, Fin.sum_univ_two, h1, sub_self, mul_zero, ite_self] at this
  linarith

theorem lineU_two (h1 : ∀ k, phi k 0 + phi k 1 = 1) (i : ℕ) : lineU phi 1 i = 1 - lineU phi 0 i := by
  unfold lineU
  linarith [h1 ⟨min (i - 2) (n - 1), by have := NeZero.pos n; omega⟩]

theorem lineU'_two (h1 : ∀ k, phi k 0 + phi k 1 = 1) (i : ℕ) : lineU' phi 1 i = -lineU' phi 0 i := by
  unfold lineU'
  rw [← limiter_opp]
  simp only [lineU_two h1]
  congr 1 <;> ring

theorem ntStaggered_two (hdx : dx ≠ 0) (hok : ∀ k, bnd k = false → HarmonicOk s (phi k))
    (h1 : ∀ k, phi k 0 + phi k 1 = 1) (i : Fin (n + 2)) :
    ∃ p : Fin 2 → K, ntStaggered c dt dx s phi g bnd i = (fun k => .fin (p k)) ∧ p 0 + p 1 = 1 := by
  have h2 : (2 * dx : K) ≠ 0 := mul_ne_zero two_ne_zero hdx
  let F : Fin 2 → ℕ → K := fun j i => sizeFlux c s (phi (clampNode 2 i)) (g (clampNode 2 i))
      (bnd (clampNode 2 i)) j
  have hF : ∀ i, F 1 i = -F 0 i := fun i => sizeFlux_two (hok _) (h1 _)
  refine ⟨fun j => lineU phi j (i + 1) +
    dt * limiter (F j (i + 2) - F j (i + 1)) (F j (i + 1) - F j i) / (2 * dx), ?_, ?_⟩
  · funext j
    unfold ntStaggered
    simp only [ntF_fin hok, XF.fin_sub, limiterX_fin]
    rw [XF.fin_mul, XF.fin_div _ h2, XF.fin_add]
    rfl
  · have e : limiter (F 1 (i + 2) - F 1 (i + 1)) (F 1 (i + 1) - F 1 i) =
        -limiter (F 0 (i + 2) - F 0 (i + 1)) (F 0 (i + 1) - F 0 i) := by
      rw [← limiter_opp, hF, hF, hF]
      congr 1 <;> ring
    simp only
    rw [e, lineU_two h1]
    ring

/-- With two sizes the increments of a node cancel, so the fractions keep summing to one. -/
theorem c87_two_sizes (hs : ∀ j, s j ≠ 0) (hok : ∀ k, bnd k = false → HarmonicOk s (phi k))
    (h1 : ∀ k, phi k 0 + phi k 1 = 1) {u : Fin 2 → Fin n → K}
    (h : ∀ j k, ntLine c dt dx s phi g bnd j k = .fin (u j k)) (k : Fin n) :
    u 0 k + u 1 k = 0 := by
  obtain ⟨hd, f, hf, -⟩ := ntLine_faces (h 0)
  obtain ⟨-, f', hf', -⟩ := ntLine_faces (h 1)
  have key : ∀ i, i < n + 2 → f' i = -f i := by
    intro i hi
    obtain ⟨p, hp, hp1⟩ := ntStaggered_two (c := c) (dt := dt) (g := g) hd hok h1 ⟨i, hi⟩
    have a := hf i hi
    have b := hf' i hi
    unfold ntFStaggered at a b
    rw [hp] at a b
    have hh : padOne bnd ⟨i, hi⟩ = false → HarmonicOk s p := by
      intro hb
      rw [hb] at a
      exact harmonicOk_of_flux hs a
    rw [ntFlux_fin hh] at a b
    rw [← XF.fin.inj a, ← XF.fin.inj b]
    exact sizeFlux_two hh hp1
  have next : ∀ (i : Fin (n + 1)) (x y : K), ntNext c dt dx s phi g bnd i 0 = .fin x →
      ntNext c dt dx s phi g bnd i 1 = .fin y → x + y = 1 := by
    intro i x y hx hy
    obtain ⟨-, a, b, ha, hb, rfl⟩ := ntNext_fin hx
    obtain ⟨-, a', b', ha', hb', rfl⟩ := ntNext_fin hy
    rw [hf _ (by omega)] at ha hb
    rw [hf' _ (by omega)] at ha' hb'
    rw [← XF.fin.inj ha, ← XF.fin.inj hb, ← XF.fin.inj ha', ← XF.fin.inj hb',
      key _ (by omega), key _ (by omega), lineU_two h1, lineU_two h1, lineU'_two h1, lineU'_two h1]
    ring
  obtain ⟨a, b, ha, hb, e⟩ := ntLine_fin (h 0 k)
  obtain ⟨a', b', ha', hb', e'⟩ := ntLine_fin (h 1 k)
  rw [e, e']
  have := next _ _ _ ha ha'
  have := next _ _ _ hb hb'
  have := h1 k
  linarith

end two

/-! ## C88 -/

section still
variable [NeZero n] {c dt dx : K} {s : Fin ns → K} {phi : Fin n → Fin ns → K}
  {bnd : Fin n → Bool} {j : Fin ns}

theorem sizeFlux_still (s phi : Fin ns → K) (bnd : Bool) (j : Fin ns) :
    sizeFlux c s phi 0 bnd j = 0 := by
  unfold sizeFlux; split <;> ring

theorem ntFStaggered_still (hdx : dx ≠ 0) (hok : ∀ k, bnd k = false → HarmonicOk s (phi k))
    (i : Fin (n + 2)) : ntFStaggered c dt dx s phi (fun _ => 0) bnd i j = .fin 0 := by
  have h2 : (2 * dx : K) ≠ 0 := mul_ne_zero two_ne_zero hdx
  have e1 : ntStaggered c dt dx s phi (fun _ => 0) bnd i =
      fun j => .fin (phi (clampNode 2 (i + 1)) j) := by
    funext j
    unfold ntStaggered
    simp only [ntF_fin hok, sizeFlux_still, XF.fin_sub, limiterX_fin, sub_self]
    rw [limiter_zero_left, XF.fin_mul, XF.fin_div _ h2, XF.fin_add, mul_zero, zero_div, add_zero]
    rfl
  have e2 : ∀ {α : Type} (v : Fin n → α), padOne v i = v (clampNode 2 (i + 1)) := by
    intro α v
    unfold padOne clampNode
    congr 1
  unfold ntFStaggered
  rw [e1, e2, e2, ntFlux_fin (hok _), sizeFlux_still]

theorem ntLine_still (hdx : dx ≠ 0) (hok : ∀ k, bnd k = false → HarmonicOk s (phi k)) (k : Fin n) :
    ntLine c dt dx s phi (fun _ => 0) bnd j k =
      .fin (1 / 4 * (lineU phi j (k + 1) - 2 * lineU phi j (k + 2) + lineU phi j (k + 3)) +
        1 / 16 * (lineU' phi j k - lineU' phi j (k + 2))) := by
  have e : ∀ i : Fin (n + 1), ntNext c dt dx s phi (fun _ => 0) bnd i j =
      .fin (1 / 2 * (lineU phi j (i + 1) + lineU phi j (i + 2)) +
        1 / 8 * (lineU' phi j i - lineU' phi j (i + 1))) := by
    intro i
    unfold ntNext
    rw [ntFStaggered_still hdx hok, ntFStaggered_still hdx hok, XF.fin_sub, XF.fin_mul,
      XF.fin_div _ hdx, XF.fin_add, XF.fin_add, sub_zero, mul_zero, zero_div, add_zero]
    rfl
  unfold ntLine
  rw [e, e, XF.fin_add, XF.fin_div _ two_ne_zero, XF.fin_sub, ← lineU_node phi j k]
  congr 1
  have e1 : k.val + 1 + 1 = k.val + 2 := rfl
  have e2 : k.val + 1 + 2 = k.val + 3 := rfl
  simp only [e1, e2]
  ring

/-- Without a driving gradient the increments do not depend on the time step. -/
theorem c88_per_step (hdx : dx ≠ 0) (hok : ∀ k, bnd k = false → HarmonicOk s (phi k)) (dt' : K)
    (k : Fin n) : ntLine c dt dx s phi (fun _ => 0) bnd j k =
      ntLine c dt' dx s phi (fun _ => 0) bnd j k := by
  rw [ntLine_still hdx hok, ntLine_still hdx hok]

/-- And they are not zero: a size that is only present at one inner node loses half of its amount
there in every step, in equal parts to the two neighbours. -/
theorem c88_spike (hdx : dx ≠ 0) (hok : ∀ k, bnd k = false → HarmonicOk s (phi k)) {k : Fin n}
    (h0 : 0 < k.val) (h1 : k.val + 1 < n) (hz : ∀ i, i ≠ k → phi i j = 0) :
    ntLine c dt dx s phi (fun _ => 0) bnd j k = .fin (-(phi k j / 2)) ∧
    ntLine c dt dx s phi (fun _ => 0) bnd j ⟨k - 1, by omega⟩ = .fin (phi k j / 4) ∧
    ntLine c dt dx s phi (fun _ => 0) bnd j ⟨k + 1, h1⟩ = .fin (phi k j / 4) := by
  have z : ∀ i, i ≠ k.val + 2 → lineU phi j i = 0 := by
    intro i hi
    refine hz _ fun e => hi ?_
    have := congrArg Fin.val e
    simp only at this
    omega
  have z' : ∀ i, lineU' phi j i = 0 := by
    intro i
    unfold lineU'
    by_cases hi : i = k.val + 1
    · subst hi
      rw [z (k.val + 1 + 2) (by omega), z (k.val + 1) (by omega)]
      have : ∀ x : K, limiter (0 - x) (x - 0) = 0 := fun x =>
        superbee_opp (by nlinarith [mul_self_nonneg x])
      exact this _
    · by_cases h2 : i = k.val
      · rw [z (i + 1) (by omega), z i (by omega), sub_self]
        exact limiter_zero_right _
      · rw [z (i + 1) (by omega)]
        by_cases h3 : i = k.val + 2
        · rw [z (i + 2) (by omega), sub_self]
          exact limiter_zero_left _
        · rw [z i h3, sub_self]
          exact limiter_zero_right _
  refine ⟨?_, ?_, ?_⟩
  · rw [ntLine_still hdx hok, z', z', lineU_node, z (k.val + 1) (by omega), z (k.val + 3) (by omega)]
    congr 1; ring
  · rw [ntLine_still hdx hok, z', z']
    simp only
    rw [z (k.val - 1 + 1) (by omega), z (k.val - 1 + 2) (by omega),
      show k.val - 1 + 3 = k.val + 2 by omega, lineU_node]
    congr 1; ring
  · rw [ntLine_still hdx hok, z', z']
    simp only
    rw [z (k.val + 1 + 3) (by omega), z (k.val + 1 + 2) (by omega),
      show k.val + 1 + 1 = k.val + 2 by omega, lineU_node]
    congr 1; ring

end still

/-! ## C89 -/

section sums
variable [NeZero n] {c dt dx : K} {s : Fin ns → K} {phi : Fin n → Fin ns → K} {g : Fin n → K}
  {bnd : Fin n → Bool}

theorem lineFace_uniform {C v : Fin n → K} {x : K} (hC : ∀ i, C i = x) {k : ℕ} (h1 : 1 ≤ k)
    (h2 : k < n) :
    lineFace dx C v k = (v ⟨k, h2⟩ + v ⟨k - 1, by omega⟩) * x := by
  have hp : ∀ i, padKT C i = x := fun i => hC _
  have hg : ∀ m (hm : m < n), ghost C v (Fin.ofNat (n + 4) (m + 2)) = v ⟨m, hm⟩ := by
    intro m hm
    have hv : (Fin.ofNat (n + 4) (m + 2)).val = m + 2 := Nat.mod_eq_of_lt (by omega)
    unfold ghost
    simp only []
    rw [if_neg (by rw [hv]; omega)]
    congr 1
    apply Fin.ext
    simp only [hv]
    omega
  unfold lineFace
  rw [face_equal (by rw [hp, hp]), hp, hg k h2, ofNat_sub_one (by omega),
    show k + 2 - 1 = (k - 1) + 2 by omega, hg (k - 1) (by omega)]

/-- The scheme in use keeps the sum of the fractions of a node if all nodes of the line have the
same fractions. -/
theorem c89_uniform (hdx : dx ≠ 0) {p : Fin ns → K} (hp : HarmonicOk s p) (h1 : ∑ j, p j = 1)
    (cyc : Bool) :
    ∃ u : Fin ns → Fin n → K, (∀ j k, ktLine cyc c dt dx s (fun _ => p) g bnd j k = .fin (u j k)) ∧
      ∀ k, ∑ j, u j k = 0 := by
  have hn := NeZero.pos n
  choose v hv hv0 using fun k => c47_cancel (c := c) (g := g k) hp h1 (bnd k)
  refine ⟨_, fun j k => ktLine_face hdx (fun k => hv k j) k, fun k => ?_⟩
  have key : ∀ k, k ≤ n → ∑ j, lineFace dx (fun _ : Fin n => p j) (fun k => v k j) k = 0 := by
    intro k hk
    rcases Nat.eq_zero_or_pos k with rfl | h0
    · exact Finset.sum_eq_zero fun j _ => (lineFace_ends dx _ _).1
    · rcases Nat.eq_or_lt_of_le hk with rfl | hlt
      · exact Finset.sum_eq_zero fun j _ => (lineFace_ends dx _ _).2
      · have : ∀ j, lineFace dx (fun _ : Fin n => p j) (fun k => v k j) k =
            p j * v ⟨k, hlt⟩ j + p j * v ⟨k - 1, by omega⟩ j := by
          intro j
          rw [lineFace_uniform (fun _ => rfl) h0 hlt]
          ring
        simp only [this]
        rw [Finset.sum_add_distrib, hv0, hv0, add_zero]
  rw [← Finset.mul_sum, Finset.sum_sub_distrib, key _ (by omega), key _ (by omega), sub_zero, mul_zero]

end sums

end

section
open Spec

/-- Three sizes: `NT` does not keep the sum of the fractions, even without a driving gradient. -/
theorem c87_three_sizes : ∃ (phi : Fin 4 → Fin 3 → ℚ) (s : Fin 3 → ℚ) (u : Fin 3 → ℚ),
    (∀ j, 0 < s j) ∧ (∀ k, Distribution (phi k)) ∧
    (∀ j, ntLine 1 1 1 s phi (fun _ => 0) (fun _ => false) j 0 = .fin (u j)) ∧ ∑ j, u j ≠ 0 := by
  refine ⟨![![1, 0, 0], ![1/2, 1/2, 0], ![1/4, 0, 3/4], ![0, 0, 1]], ![1, 2, 3],
    ![-3/32, 1/8, 0], by decide +kernel, by unfold Distribution; decide +kernel, ?_, ?_⟩
  all_goals decide +kernel

/-- Two sizes, fractions that sum to one everywhere: the scheme in use does not keep the sum. -/
theorem c89_lost : ∃ (phi : Fin 3 → Fin 2 → ℚ) (s : Fin 2 → ℚ) (u : Fin 2 → ℚ),
    (∀ j, 0 < s j) ∧ (∀ k, Distribution (phi k)) ∧
    (∀ j, ktLine false 1 1 1 s phi (fun _ => 1) (fun _ => false) j 0 = .fin (u j)) ∧ ∑ j, u j ≠ 0 := by
  refine ⟨![![1/2, 1/2], ![1/4, 3/4], ![1/2, 1/2]], ![1, 2], ![-1/4, 5/24],
    by decide +kernel, by unfold Distribution; decide +kernel, ?_, ?_⟩
  all_goals decide +kernel

/-- Non-vacuity of C86 and C87: open ends, for which the total does change. -/
example : ∃ (phi : Fin 3 → Fin 2 → ℚ) (s : Fin 2 → ℚ) (u : Fin 2 → Fin 3 → ℚ),
    (∀ j, s j ≠ 0) ∧ (∀ k, HarmonicOk s (phi k)) ∧ (∀ k, phi k 0 + phi k 1 = 1) ∧
    (∀ j k, ntLine 1 1 1 s phi (fun _ => 1) (fun _ => false) j k = .fin (u j k)) ∧
    ∑ k, u 0 k ≠ 0 := by
  refine ⟨![![1/2, 1/2], ![1/4, 3/4], ![1, 0]], ![1, 2],
    ![![-257/4560, 1/3, -503/4560], ![257/4560, -1/3, 503/4560]], by decide +kernel,
    by unfold HarmonicOk; decide +kernel, by decide +kernel, by decide +kernel, ?_⟩
  decide +kernel

/-- The same between two walls. -/
example : ∃ (phi : Fin 3 → Fin 2 → ℚ) (u : Fin 3 → ℚ),
    (∀ k, ntLine 1 1 1 ![1, 2] phi (fun _ => 1) ![true, false, true] 0 k = .fin (u k)) ∧
    u 0 ≠ 0 := by
  refine ⟨![![1/2, 1/2], ![1/4, 3/4], ![1/2, 1/2]], ![-11/80, 1/8, 1/80], by decide +kernel, ?_⟩
  decide +kernel

/-- Non-vacuity of C88 and C89. -/
example : HarmonicOk (![1, 2] : Fin 2 → ℚ) ![1/2, 1/2] ∧ HarmonicOk (![1, 2] : Fin 2 → ℚ) ![0, 1] ∧
    ∑ j, (![1/2, 1/2] : Fin 2 → ℚ) j = 1 := by
  unfold HarmonicOk; decide +kernel

end
end Mpm

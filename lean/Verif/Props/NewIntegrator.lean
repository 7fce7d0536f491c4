import Verif.Model.NewIntegrator
import Verif.Lemmas.Gradient
import Verif.Lemmas.Limiter
import Verif.Lemmas.KT
import Verif.Examples

/-!
# C74-C76: the stand-alone scheme of `new_integrator.py`
-/

set_option linter.unusedSectionVars false

namespace Mpm

section
variable {K : Type} [Field K] [LinearOrder K] [IsStrictOrderedRing K] {n : ℕ}

namespace NI

/-- Twice the flux through the face between entries `i - 1` and `i` if its velocity is `u`. -/
def faceFlux (dx : K) (c : Fin (n + 2) → K) (i : Fin (n + 2)) (u : K) : K :=
  flux (cplusleft dx c i) u + flux (cminusright dx c (i - 1)) u -
    max |velocity (cminusright dx c (i - 1)) u| |velocity (cplusleft dx c i) u| *
      (cplusleft dx c i - cminusright dx c (i - 1))

theorem rhs_faces (dx : K) (c v : Fin (n + 2) → K) (i : Fin (n + 2)) :
    rhs dx c v i = -(faceFlux dx c (i + 1) (v (i + 1)) - faceFlux dx c i (v (i - 1))) / (2 * dx) := by
  unfold rhs faceFlux
  rw [add_sub_cancel_right]
  simp only
  congr 2
  ring

theorem faceFlux_zero (dx : K) (c : Fin (n + 2) → K) (i : Fin (n + 2)) :
    faceFlux dx c i 0 = 0 := by
  simp [faceFlux, flux, velocity]

theorem KT_ok {dx : K} {c v k : Fin (n + 2) → K} (h : KT dx c v = .ok k) : k = rhs dx c v := by
  unfold KT at h
  split at h
  · cases h; rfl
  · cases h

/-- With the same velocity at all nodes, whatever the padded concentrations, the right hand sides
of the inner entries add up to zero. -/
theorem sum_rhs (dx : K) (c : Fin (n + 2) → K) (w : K) :
    ∑ i : Fin n, inner (rhs dx c (padZero fun _ : Fin n => w)) i = 0 := by
  let H : ℕ → K := fun i => if i = 0 ∨ i = n then 0 else faceFlux dx c (Fin.ofNat (n + 2) (i + 1)) w
  have key : ∀ i : Fin n, inner (rhs dx c (padZero fun _ : Fin n => w)) i =
      (H i - H (i + 1)) / (2 * dx) := by
    intro i
    have hi := i.isLt
    have e1 : (⟨i.val + 1, by omega⟩ : Fin (n + 2)) + 1 = ⟨i.val + 2, by omega⟩ := by
      apply Fin.ext
      simp [Fin.val_add, Nat.mod_eq_of_lt (show i.val + 1 + 1 < n + 2 by omega)]
    have e0 : (⟨i.val + 1, by omega⟩ : Fin (n + 2)) - 1 = ⟨i.val, by omega⟩ := by
      rw [sub_eq_iff_eq_add]
      apply Fin.ext
      simp [Fin.val_add, Nat.mod_eq_of_lt (show i.val + 1 < n + 2 by omega)]
    have o0 : Fin.ofNat (n + 2) (i.val + 1) = ⟨i.val + 1, by omega⟩ :=
      Fin.ext (Nat.mod_eq_of_lt (by omega))
    have o1 : Fin.ofNat (n + 2) (i.val + 1 + 1) = ⟨i.val + 2, by omega⟩ :=
      Fin.ext (Nat.mod_eq_of_lt (by omega))
    unfold inner
    rw [rhs_faces, e1, e0]
    have h1 : faceFlux dx c ⟨i.val + 2, by omega⟩ (padZero (fun _ : Fin n => w) ⟨i.val + 2, by omega⟩) =
        H (i + 1) := by
      simp only [H, padZero, o1]
      by_cases h : i.val + 1 = n
      · rw [dif_neg (by omega), if_pos (by omega), faceFlux_zero]
      · rw [dif_pos (by omega), if_neg (by omega)]
    have h0 : faceFlux dx c ⟨i.val + 1, by omega⟩ (padZero (fun _ : Fin n => w) ⟨i.val, by omega⟩) =
        H i := by
      simp only [H, padZero, o0]
      by_cases h : i.val = 0
      · rw [dif_neg (by omega), if_pos (by omega), faceFlux_zero]
      · rw [dif_pos (by omega), if_neg (by omega)]
    rw [h1, h0]
    congr 1; ring
  rw [Finset.sum_congr rfl fun i _ => key i, ← Finset.sum_div]
  rw [Fin.sum_univ_eq_sum_range (fun i => H i - H (i + 1)) n, Finset.sum_range_sub']
  simp [H]

theorem inner_padEdge [NeZero n] (c : Fin n → K) (i : Fin n) : inner (padEdge c) i = c i := by
  have := i.isLt
  unfold inner padEdge
  congr 1
  apply Fin.ext
  simp only
  omega

theorem euler_of_finite [NeZero n] {c v : Fin n → K} {dx dt : K} (h : finite dx (padEdge c) = true) :
    euler c v dx dt = .ok (inner fun i => dt * rhs dx (padEdge c) (padZero v) i) := by
  unfold euler KT
  rw [if_pos h]
  rfl

end NI
open NI

/-- C74.  With one velocity for all nodes the Euler increments add up to zero. -/
theorem c74_euler [NeZero n] {c d : Fin n → K} {w dx dt : K}
    (h : NI.euler c (fun _ => w) dx dt = .ok d) : ∑ i, d i = 0 := by
  unfold NI.euler at h
  obtain ⟨k, hk, h⟩ := res_bind_ok.1 h
  cases h
  rw [KT_ok hk]
  have := sum_rhs dx (padEdge c) w
  simp only [inner] at this ⊢
  rw [← Finset.mul_sum, this, mul_zero]

/-- C74.  So do those of the fourth-order scheme. -/
theorem c74_rk4 [NeZero n] {c d : Fin n → K} {w dx dt : K}
    (h : NI.rk4 c (fun _ => w) dx dt = .ok d) : ∑ i, d i = 0 := by
  unfold NI.rk4 at h
  obtain ⟨k1, h1, h⟩ := res_bind_ok.1 h
  obtain ⟨k2, h2, h⟩ := res_bind_ok.1 h
  obtain ⟨k3, h3, h⟩ := res_bind_ok.1 h
  obtain ⟨k4, h4, h⟩ := res_bind_ok.1 h
  cases h
  have z : ∀ {C k : Fin (n + 2) → K}, NI.KT dx C (padZero fun _ : Fin n => w) = .ok k →
      ∑ i, inner k i = 0 := by
    intro C k h
    rw [KT_ok h]
    exact sum_rhs dx C w
  have z1 := z h1
  have z2 := z h2
  have z3 := z h3
  have z4 := z h4
  simp only [inner] at z1 z2 z3 z4 ⊢
  rw [← Finset.mul_sum, Finset.sum_add_distrib, Finset.sum_add_distrib, Finset.sum_add_distrib,
    ← Finset.mul_sum, ← Finset.mul_sum, z1, z2, z3, z4]
  ring

/-- C74.  The third-order scheme keeps the total of the concentrations: its rounded coefficients
still add up to one. -/
theorem c74_rk3 [NeZero n] {c c' : Fin n → K} {w dx dt : K}
    (h : NI.rk3 c (fun _ => w) dx dt = .ok c') : ∑ i, c' i = ∑ i, c i := by
  unfold NI.rk3 at h
  obtain ⟨k1, h1, h⟩ := res_bind_ok.1 h
  obtain ⟨k2, h2, h⟩ := res_bind_ok.1 h
  obtain ⟨k3, h3, h⟩ := res_bind_ok.1 h
  cases h
  have z : ∀ {C k : Fin (n + 2) → K}, NI.KT dx C (padZero fun _ : Fin n => w) = .ok k →
      ∑ i, inner k i = 0 := by
    intro C k h
    rw [KT_ok h]
    exact sum_rhs dx C w
  have z1 := z h1
  have z2 := z h2
  have z3 := z h3
  have z0 : ∑ i, inner (padEdge c) i = ∑ i, c i := Finset.sum_congr rfl fun i _ => inner_padEdge c i
  simp only [inner] at z0 z1 z2 z3 ⊢
  simp only [Finset.sum_add_distrib, ← Finset.mul_sum, z0, z1, z2, z3]
  ring

/-- The step is made for concentrations between zero and one. -/
example : ∃ d, NI.euler (K := ℚ) (n := 2) ![1, 3/4] (fun _ => -1) 1 (1/10) = .ok d ∧ d 0 = 3/440 ∧
    d 1 = -3/440 :=
  ⟨_, euler_of_finite (by decide +kernel), by decide +kernel, by decide +kernel⟩

/-- C74.  With velocities that differ from node to node the total is not kept: each of the two
nodes at a face takes the velocity of the other for that of the face. -/
theorem c74_total_lost : ∃ d, NI.euler (K := ℚ) (n := 2) ![0, 1/4] ![-1, -2] 1 (1/10) = .ok d ∧
    ∑ i, d i = 6/425 :=
  ⟨_, euler_of_finite (by decide +kernel), by decide +kernel⟩

/-! ### Sign -/

namespace NI

theorem minmod_part (a b : K) : ∃ p, 0 ≤ p ∧ p ≤ 1 ∧ minmod a b = p * a := by
  rcases lt_trichotomy (a * b) 0 with h | h | h
  · exact ⟨0, le_refl _, zero_le_one, by rw [minmod_opp h.le, zero_mul]⟩
  · exact ⟨0, le_refl _, zero_le_one, by rw [minmod_opp h.le, zero_mul]⟩
  · have key : ∀ a b : K, 0 < a → 0 < b → ∃ p, 0 ≤ p ∧ p ≤ 1 ∧ minmod a b = p * a := by
      intro a b ha hb
      refine ⟨min a b / a, div_nonneg (le_min ha.le hb.le) ha.le,
        (div_le_one ha).2 (min_le_left _ _), ?_⟩
      rw [minmod_pos ha hb, div_mul_cancel₀ _ ha.ne']
    rcases pos_and_pos_or_neg_and_neg_of_mul_pos h with ⟨ha, hb⟩ | ⟨ha, hb⟩
    · exact key a b ha hb
    · obtain ⟨p, h0, h1, h2⟩ := key (-a) (-b) (neg_pos.2 ha) (neg_pos.2 hb)
      refine ⟨p, h0, h1, ?_⟩
      rw [minmod_neg] at h2
      linarith

theorem mix_mem {x y q : K} (hx : 0 ≤ x ∧ x ≤ 1) (hy : 0 ≤ y ∧ y ≤ 1) (h0 : 0 ≤ q) (h1 : q ≤ 1) :
    0 ≤ x + q * (y - x) ∧ x + q * (y - x) ≤ 1 := by
  have e : x + q * (y - x) = (1 - q) * x + q * y := by ring
  rw [e]
  constructor
  · exact add_nonneg (mul_nonneg (sub_nonneg.2 h1) hx.1) (mul_nonneg h0 hy.1)
  · have := mul_le_mul_of_nonneg_left hx.2 (sub_nonneg.2 h1)
    have := mul_le_mul_of_nonneg_left hy.2 h0
    linarith

theorem cplusleft_mem {dx : K} (hdx : dx ≠ 0) {c : Fin (n + 2) → K} (hc : ∀ i, 0 ≤ c i ∧ c i ≤ 1)
    (i : Fin (n + 2)) : 0 ≤ cplusleft dx c i ∧ cplusleft dx c i ≤ 1 := by
  obtain ⟨p, h0, h1, hp⟩ := minmod_part ((c i - c (i - 1)) / dx) ((c (i + 1) - c i) / dx)
  have e : cplusleft dx c i = c i + p / 2 * (c (i - 1) - c i) := by
    unfold cplusleft slope
    rw [hp]
    field_simp
    ring
  rw [e]
  exact mix_mem (hc _) (hc _) (by linarith) (by linarith)

theorem cminusright_mem {dx : K} (hdx : dx ≠ 0) {c : Fin (n + 2) → K} (hc : ∀ i, 0 ≤ c i ∧ c i ≤ 1)
    (i : Fin (n + 2)) : 0 ≤ cminusright dx c i ∧ cminusright dx c i ≤ 1 := by
  obtain ⟨p, h0, h1, hp⟩ := minmod_part ((c (i + 1) - c i) / dx) ((c i - c (i - 1)) / dx)
  have e : cminusright dx c i = c i + p / 2 * (c (i + 1) - c i) := by
    unfold cminusright slope
    rw [minmod_comm, hp]
    field_simp
  rw [e]
  exact mix_mem (hc _) (hc _) (by linarith) (by linarith)

theorem velDen_pos {c : K} (h : c ≤ 1) : 0 < velDen c := by
  unfold velDen
  linarith

theorem velocity_abs {c v A : K} (h0 : 0 ≤ c) (h1 : c ≤ 1) (hv : |v| ≤ A) :
    |velocity c v| ≤ 3 / 5 * A := by
  have hd := velDen_pos h1
  have hA : 0 ≤ A := (abs_nonneg _).trans hv
  have e : (1 : K) - 1 / velDen c = (velDen c - 1) / velDen c := by
    rw [sub_div, div_self hd.ne']
  have b0 : 0 ≤ (1 : K) - 1 / velDen c := by
    rw [e]
    refine div_nonneg ?_ hd.le
    unfold velDen; linarith
  have b1 : (1 : K) - 1 / velDen c ≤ 3 / 5 := by
    rw [e, div_le_iff₀ hd]
    unfold velDen; linarith
  unfold velocity
  rw [abs_mul, abs_of_nonneg b0, mul_comm]
  exact mul_le_mul b1 hv (abs_nonneg _) (by norm_num)

/-- Outflow through a face is bounded by what its inner side holds. -/
theorem faceFlux_le {dx : K} (hdx : dx ≠ 0) {c : Fin (n + 2) → K} (hc : ∀ i, 0 ≤ c i ∧ c i ≤ 1)
    {u A : K} (hu : |u| ≤ A) (i : Fin (n + 2)) :
    faceFlux dx c i u ≤ 6 / 5 * A * cminusright dx c (i - 1) ∧
      -(6 / 5 * A * cplusleft dx c i) ≤ faceFlux dx c i u := by
  have hp := cplusleft_mem hdx hc i
  have hm := cminusright_mem hdx hc (i - 1)
  have vp := velocity_abs hp.1 hp.2 hu
  have vm := velocity_abs hm.1 hm.2 hu
  unfold faceFlux flux
  generalize cplusleft dx c i = x at *
  generalize cminusright dx c (i - 1) = y at *
  generalize velocity x u = p at *
  generalize velocity y u = m at *
  have a0 : max |m| |p| ≤ 3 / 5 * A := max_le vm vp
  have a1 : |m| ≤ max |m| |p| := le_max_left _ _
  have a2 : |p| ≤ max |m| |p| := le_max_right _ _
  generalize max |m| |p| = a at *
  have m1 := (abs_le.1 a1)
  have p1 := (abs_le.1 a2)
  constructor
  · have h1 : x * (p - a) ≤ 0 := mul_nonpos_of_nonneg_of_nonpos hp.1 (by linarith)
    have h2 : y * (m + a) ≤ y * (6 / 5 * A) := mul_le_mul_of_nonneg_left (by linarith) hm.1
    linarith [mul_comm y (6 / 5 * A)]
  · have h1 : 0 ≤ y * (m + a) := mul_nonneg hm.1 (by linarith)
    have h2 : x * -(6 / 5 * A) ≤ x * (p - a) := mul_le_mul_of_nonneg_left (by linarith) hp.1
    linarith [mul_comm x (6 / 5 * A)]

theorem padEdge_mem [NeZero n] {c : Fin n → K} (hc : ∀ i, 0 ≤ c i ∧ c i ≤ 1) (i : Fin (n + 2)) :
    0 ≤ padEdge c i ∧ padEdge c i ≤ 1 := hc _

theorem padZero_abs {v : Fin n → K} {A : K} (hA : 0 ≤ A) (hv : ∀ i, |v i| ≤ A) (i : Fin (n + 2)) :
    |padZero v i| ≤ A := by
  unfold padZero
  split
  · exact hv _
  · rwa [abs_zero]

end NI

/-- C75.  For concentrations between zero and one nothing is divided by zero, and a time step within
the bound leaves no concentration negative; the velocities may differ from node to node. -/
theorem c75_nonneg [NeZero n] {c v : Fin n → K} {A dx dt : K} (hc : ∀ i, 0 ≤ c i ∧ c i ≤ 1)
    (hv : ∀ i, |v i| ≤ A) (hdx : 0 < dx) (hdt : 0 ≤ dt) (hcfl : 6 / 5 * dt * A ≤ dx) :
    ∃ d, NI.euler c v dx dt = .ok d ∧ ∀ i, 0 ≤ c i + d i := by
  have hA : 0 ≤ A := (abs_nonneg _).trans (hv ⟨0, NeZero.pos n⟩)
  have hC := padEdge_mem hc
  have hV := padZero_abs hA hv
  refine ⟨_, euler_of_finite ?_, ?_⟩
  · refine decide_eq_true ⟨hdx.ne', fun i => ⟨?_, ?_⟩⟩
    · exact (velDen_pos (cplusleft_mem hdx.ne' hC i).2).ne'
    · exact (velDen_pos (cminusright_mem hdx.ne' hC i).2).ne'
  · intro i
    rw [← inner_padEdge c i]
    unfold inner
    generalize (⟨i.val + 1, by omega⟩ : Fin (n + 2)) = k
    change 0 ≤ padEdge c k + dt * rhs dx (padEdge c) (padZero v) k
    rw [rhs_faces]
    have h1 := (faceFlux_le hdx.ne' hC (hV (k + 1)) (k + 1)).1
    have h2 := (faceFlux_le hdx.ne' hC (hV (k - 1)) k).2
    rw [add_sub_cancel_right] at h1
    have e : cminusright dx (padEdge c) k + cplusleft dx (padEdge c) k = 2 * padEdge c k := by
      unfold cminusright cplusleft; ring
    generalize faceFlux dx (padEdge c) (k + 1) _ = f1 at *
    generalize faceFlux dx (padEdge c) k _ = f2 at *
    have h3 : f1 - f2 ≤ 6 / 5 * A * (2 * padEdge c k) := by
      rw [← e]; linarith
    have h4 : dt * (f1 - f2) ≤ 2 * dx * padEdge c k := by
      have a := mul_le_mul_of_nonneg_left h3 hdt
      have b := mul_le_mul_of_nonneg_right hcfl (hC k).1
      linarith
    have h5 : dt * (-(f1 - f2) / (2 * dx)) = -(dt * (f1 - f2) / (2 * dx)) := by ring
    rw [h5, ← sub_eq_add_neg, sub_nonneg, div_le_iff₀ (by linarith)]
    linarith

example : ∃ d, NI.euler (K := ℚ) (n := 3) ![0, 1, 1/2] ![1, -1, 1] 1 (1/2) = .ok d ∧
    ∀ i, 0 ≤ (![0, 1, 1/2] : Fin 3 → ℚ) i + d i :=
  c75_nonneg (A := 1) (by decide +kernel) (by decide +kernel) (by norm_num) (by norm_num)
    (by norm_num)

/-- C75.  The upper bound is not kept, however: a concentration can rise above one next to a wall,
even with a time step far below the bound. -/
theorem c75_overshoot : ∃ d, NI.euler (K := ℚ) (n := 2) ![1, 3/4] (fun _ => -1) 1 (1/10) = .ok d ∧
    1 < (![1, 3/4] : Fin 2 → ℚ) 0 + d 0 :=
  ⟨_, euler_of_finite (by decide +kernel), by decide +kernel⟩

/-! ### Diffusion -/

theorem diffusion_fin (hn : 2 ≤ n) {dx : K} (hdx : dx ≠ 0) (c : Fin n → K) (D dt : K) (i : Fin n) :
    NI.diffusion c D dx dt i = .fin (c i + dt * dq dx (dq dx fun i => D * c i) i) := by
  unfold NI.diffusion
  rw [npGradient_fin hn hdx (fun i => npGradient_fin hn hdx (fun _ => rfl) i), XF.fin_mul,
    XF.fin_add]

/-- C76.  The ends are not closed: with half weights at the ends, diffusion changes the total by the
difference of the end gradients. -/
theorem c76_open_ends {m : ℕ} {dx : K} (hdx : dx ≠ 0) (c : Fin (m + 2) → K) (D dt : K) :
    ∃ c' : Fin (m + 2) → K, (∀ i, NI.diffusion c D dx dt i = .fin (c' i)) ∧
      ∑ i, (if i = 0 ∨ i = Fin.last _ then 1 / 2 else 1) * c' i =
        ∑ i, (if i = 0 ∨ i = Fin.last _ then 1 / 2 else 1) * c i +
        dt * D * ((c (Fin.last _) - c (Fin.castSucc (Fin.last m))) - (c 1 - c 0)) / dx ^ 2 := by
  refine ⟨_, fun i => diffusion_fin (by omega) hdx c D dt i, ?_⟩
  have hw : ∀ i : Fin (m + 2), (if i = 0 ∨ i = Fin.last _ then 1 / 2 else 1 : K) =
      endHalf (m + 2) i := by
    intro i
    unfold endHalf
    refine if_congr (or_congr ?_ ?_) rfl rfl
    · exact Fin.ext_iff
    · exact Fin.ext_iff
  simp only [hw, mul_add, Finset.sum_add_distrib]
  congr 1
  have h := sum_dq hdx (dq dx fun i => D * c i)
  have e : ∀ i : Fin (m + 2), endHalf (m + 2) (i : ℕ) * (dt * dq dx (dq dx fun i => D * c i) i) =
      dt * (endHalf (m + 2) (i : ℕ) * dq dx (dq dx fun i => D * c i) i) := fun i => by ring
  rw [Finset.sum_congr rfl fun i _ => e i, ← Finset.mul_sum, h]
  have d1 : dq dx (fun i => D * c i) (Fin.last (m + 1)) =
      D * (c (Fin.last _) - c (Fin.castSucc (Fin.last m))) / dx := by
    have e1 : hiOf (Fin.last (m + 1)) = Fin.last (m + 1) := by
      apply Fin.ext; simp [hiOf]
    have e2 : loOf (Fin.last (m + 1)) = Fin.castSucc (Fin.last m) := by
      apply Fin.ext; simp [loOf]
    unfold dq
    rw [e1, e2]
    simp [mul_sub]
  have d0 : dq dx (fun i => D * c i) 0 = D * (c 1 - c 0) / dx := by
    have e1 : hiOf (0 : Fin (m + 2)) = 1 := by
      apply Fin.ext; simp [hiOf]
    have e2 : loOf (0 : Fin (m + 2)) = 0 := by
      apply Fin.ext; simp [loOf]
    unfold dq
    rw [e1, e2]
    simp [mul_sub]
  rw [d1, d0]
  field_simp
  try ring

/-- Material enters at the end of a line of three nodes. -/
example : ∃ c' : Fin 3 → ℚ, (∀ i, NI.diffusion ![0, 0, 1] 1 1 (1/4) i = .fin (c' i)) ∧
    1/2 * c' 0 + c' 1 + 1/2 * c' 2 = (1/2 * 0 + 0 + 1/2 * 1) + 1/4 := by
  obtain ⟨c', h, hs⟩ := c76_open_ends (K := ℚ) (m := 1) one_ne_zero ![0, 0, 1] 1 (1/4)
  refine ⟨c', h, ?_⟩
  simpa [Fin.sum_univ_three, Fin.last] using hs

/-- C76.  Linear profiles are stationary: a flux runs through both ends for ever. -/
theorem c76_linear (hn : 2 ≤ n) {dx : K} (hdx : dx ≠ 0) {c : Fin n → K} {a b D dt : K}
    (hc : ∀ i : Fin n, c i = a + b * ((i : ℕ) * dx)) (i : Fin n) :
    NI.diffusion c D dx dt i = .fin (c i) := by
  rw [diffusion_fin hn hdx, dq_const (a := D * b), mul_zero, add_zero]
  intro i
  exact dq_linear hn hdx (a := D * a) (fun i => by rw [hc]; ring) i

example (i : Fin 3) : NI.diffusion (K := ℚ) ![0, 1, 2] 1 1 (1/4) i = .fin ((![0, 1, 2] : Fin 3 → ℚ) i) :=
  c76_linear (a := 0) (b := 1) (by norm_num) one_ne_zero (by decide +kernel) i

end
end Mpm

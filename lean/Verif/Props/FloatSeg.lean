import Verif.Model.FloatSeg
import Verif.Lemmas.KT
import Verif.Props.FloatRange
import Verif.Props.FloatUnits

/-!
# C145: segregation by size with rounding

`KT` of integrators.py, every operation rounded.  The limiters round nothing away, both neighbours of a face
use the very same numbers for it, and what a line of nodes gains or loses as a whole is a few roundings of
what passes through its faces.
-/

set_option linter.unusedSectionVars false

namespace Mpm
open Spec

namespace Spec
section
variable {K : Type} [Field K] [LinearOrder K] (rnd : K → K) {n : ℕ}

/-- Half a cell times the limited slope. -/
def halfRise (dx : K) (C : Fin (n + 4) → K) (i : Fin (n + 4)) : K :=
  rnd (rnd (limiterR rnd (rnd (rnd (C i - C (i - 1)) / dx)) (rnd (rnd (C (i + 1) - C i) / dx)) * dx) / 2)

/-- What passes with the mean velocity from entry `i-1` to entry `i`. -/
def advected (dx : K) (C v : Fin (n + 4) → K) (i : Fin (n + 4)) : K :=
  rnd (rnd (rnd (v i + v (i - 1)) / 2) * rnd (rnd (C (i - 1) - halfRise rnd dx C (i - 1)) +
    rnd (C i + halfRise rnd dx C i)))

/-- What passes by numerical diffusion from entry `i-1` to entry `i`. -/
def smeared (dx : K) (C v : Fin (n + 4) → K) (i : Fin (n + 4)) : K :=
  rnd (max |v i| |v (i - 1)| * rnd (rnd (C (i - 1) - halfRise rnd dx C (i - 1)) -
    rnd (C i + halfRise rnd dx C i)))

/-- The velocities along a line with a mirror image beyond each end. -/
def mirrored [NeZero n] (C v : Fin n → K) (i : Fin (n + 4)) : K :=
  let f : Fin n := ⟨min (i.val - 2) (n - 1), by have := NeZero.pos n; omega⟩
  if i.val = 1 ∨ i.val = n + 2 then -(if C f = 0 then 0 else rnd (rnd (C f * v f) / C f)) else v f

/-- The change of a node by what passes through its two faces. -/
def change (dt dx F F' H H' : K) : K :=
  rnd (rnd (dt * rnd (rnd (rnd (F - F') + H) - H')) / rnd (2 * dx))

/-- `advected` through the face to the left of node `k` of a line, or its right end for `k = n`. -/
def lineAdv [NeZero n] (dx : K) (C v : Fin n → K) (k : ℕ) : K :=
  advected rnd dx (padKT C) (mirrored rnd C v) (Fin.ofNat (n + 4) (k + 2))

/-- `smeared` through the face to the left of node `k` of a line, or its right end for `k = n`. -/
def lineSmear [NeZero n] (dx : K) (C v : Fin n → K) (k : ℕ) : K :=
  smeared rnd dx (padKT C) (mirrored rnd C v) (Fin.ofNat (n + 4) (k + 2))

end
end Spec

section
variable {K : Type} [Field K] [LinearOrder K] [IsStrictOrderedRing K] [FloorRing K] {n ns nx ny : ℕ}
  {rnd : K → K} {u : K}

theorem ktLineR_id [NeZero n] (cyc : Bool) (c dt dx : K) (s : Fin ns → K)
    (phi : Fin n → Fin ns → K) (g : Fin n → K) (bnd : Fin n → Bool) (j : Fin ns) (k : Fin n) :
    ktLineR id cyc c dt dx s phi g bnd j k = ktLine cyc c dt dx s phi g bnd j k := by
  have h1 : ktFluxR (ns := ns) (id : K → K) = ktFlux := by
    funext c s phi j g bnd
    simp only [ktFluxR, ktFlux, invHarmonicR, invHarmonic, XF.rd_id]
  have h0 : div0R (id : K → K) = div0 := by
    funext a b
    unfold div0R div0
    rw [XF.rd_id]
  have h2 : ktBCR (n := n) (id : K → K) = ktBC := by
    funext c v
    simp only [ktBCR, ktBC, h0, XF.rd_id]
  unfold ktLineR ktLine
  rw [h1, h2]
  simp only [ktCoreR, ktCore, XF.rd_id, id]
  rfl

/-- **C145**: without rounding the model is the exact one. -/
theorem c145_exact (P : Par K) (dt : K) (s : Fin ns → K) (G : Grid K (ny * nx) ns) (n : Fin (ny * nx))
    (j : Fin ns) : ktXR id P dt s G n j = ktX P dt s G n j ∧ ktYR id P dt s G n j = ktY P dt s G n j := by
  unfold ktXR ktX ktYR ktY
  have : NeZero nx := ⟨(nx_pos_of_node n).ne'⟩
  have : NeZero ny := ⟨(ny_pos_of_node n).ne'⟩
  exact ⟨ktLineR_id .., ktLineR_id ..⟩

theorem fl_two_mul (p : ℕ) (x : K) : fl p (2 * x) = 2 * fl p x := by
  have := c139_power (K := K) p 1 x
  rwa [zpow_one] at this

theorem fl_half (p : ℕ) (x : K) : fl p (1 / 2 * x) = 1 / 2 * fl p x := by
  have := c139_power (K := K) p (-1) x
  rwa [zpow_neg_one, ← one_div] at this

theorem fl_one' {p : ℕ} (hp : 1 ≤ p) : fl p (1 : K) = 1 := by
  have := fl_two_zpow (K := K) hp 0
  rwa [zpow_zero] at this

theorem fl_sgn {p : ℕ} (hp : 1 ≤ p) (a b : K) : fl p (sgn a + sgn b) = sgn a + sgn b := by
  have h1 := fl_one' (K := K) hp
  have h2 : fl p (1 + 1 : K) = 1 + 1 := by
    have := fl_two_mul p (1 : K)
    rw [h1, mul_one] at this
    rw [one_add_one_eq_two, this]
  have h3 : fl p (-1 : K) = -1 := by rw [fl_neg, h1]
  have h4 : fl p (-1 + -1 : K) = -1 + -1 := by rw [← neg_add, fl_neg, h2]
  unfold sgn
  split_ifs <;> simp [h1, h2, h3, h4, fl_zero]

theorem fl_abs' {p : ℕ} {x : K} (hx : fl p x = x) : fl p |x| = |x| := by
  rcases abs_choice x with h | h <;> rw [h]
  · exact hx
  · rw [fl_neg, hx]

/-- Halves of the sign sum times a number that is representable. -/
theorem fl_signed {p : ℕ} (hp : 1 ≤ p) (a b : K) {m : K} (hm : fl p m = m) :
    fl p (fl p (1 / 2 * fl p (sgn a + sgn b)) * m) = 1 / 2 * (sgn a + sgn b) * m := by
  rw [fl_sgn hp, fl_half, fl_sgn hp]
  have hh : fl p (1 / 2 * m) = 1 / 2 * m := by rw [fl_half, hm]
  have hn : fl p (-(1 / 2 * m)) = -(1 / 2 * m) := by rw [fl_neg, hh]
  have hn' : fl p (-m) = -m := by rw [fl_neg, hm]
  unfold sgn
  split_ifs <;> norm_num <;>
    first
    | exact hm
    | exact hn'
    | exact fl_zero p
    | exact hh
    | exact hn

/-- **C145**: `minmod` and `maxmod` of representable numbers are computed exactly. -/
theorem c145_limiter {p : ℕ} (hp : 1 ≤ p) {a b : K} (ha : fl p a = a) (hb : fl p b = b) :
    minmodR (fl p) a b = minmod a b ∧ maxmodR (fl p) a b = maxmod a b ∧
      limiterR (fl p) a b = limiter a b := by
  have hmin : ∀ {a b : K}, fl p a = a → fl p b = b → minmodR (fl p) a b = minmod a b := by
    intro a b ha hb
    unfold minmodR minmod
    refine fl_signed hp a b ?_
    rcases min_choice |a| |b| with h | h <;> rw [h]
    · exact fl_abs' ha
    · exact fl_abs' hb
  have hmax : ∀ {a b : K}, fl p a = a → fl p b = b → maxmodR (fl p) a b = maxmod a b := by
    intro a b ha hb
    unfold maxmodR maxmod
    refine fl_signed hp a b ?_
    rcases max_choice |a| |b| with h | h <;> rw [h]
    · exact fl_abs' ha
    · exact fl_abs' hb
  refine ⟨hmin ha hb, hmax ha hb, ?_⟩
  have h2a : fl p (2 * a) = 2 * a := by rw [fl_two_mul, ha]
  have h2b : fl p (2 * b) = 2 * b := by rw [fl_two_mul, hb]
  have hf := fun x => (c136_bits (K := K) hp).fix x
  unfold limiterR limiter superbeeR superbee
  rw [h2a, h2b, hmax (by unfold minmodR; exact hf _) (by unfold minmodR; exact hf _), hmin ha h2b,
    hmin h2a hb]

theorem ktCoreR_face {dt dx : K} (hdx : rnd (2 * dx) ≠ 0) {C w : Fin (n + 4) → K} {V : Fin (n + 4) → XF K}
    {i : Fin (n + 4)} (h0 : V i = .fin (w i)) (hm : V (i - 1) = .fin (w (i - 1)))
    (hp : V (i + 1) = .fin (w (i + 1))) :
    ktCoreR rnd dt dx C V i = .fin (change rnd dt dx (advected rnd dx C w i) (advected rnd dx C w (i + 1))
      (smeared rnd dx C w i) (smeared rnd dx C w (i + 1))) := by
  have e : i + 1 - 1 = i := add_sub_cancel_right i 1
  have es : ∀ i : Fin (n + 4), rnd (rnd (limiterR rnd (rnd (rnd (C i - C (i - 1)) / dx))
      (rnd (rnd (C (i + 1) - C i) / dx)) * dx) / 2) = halfRise rnd dx C i := fun _ => rfl
  have r : ∀ x : K, (XF.fin x).rd rnd = .fin (rnd x) := fun _ => rfl
  unfold ktCoreR
  simp only [es]
  simp only [h0, hm, hp, XF.fin_add, r, XF.fin_div _ (two_ne_zero (α := K)), XF.fin_mul, XF.fin_sub]
  change XF.rd rnd (XF.rd rnd (XF.fin _ * XF.rd rnd (XF.rd rnd (XF.fin _ + XF.rd rnd (XF.fin (max _ _) *
    XF.fin _)) - XF.rd rnd (XF.fin (max _ _) * XF.fin _))) / XF.fin _) = _
  simp only [XF.fin_add, XF.fin_mul, XF.fin_sub, r]
  rw [XF.fin_div _ hdx, r]
  unfold change advected smeared
  rw [e, max_comm |w (i + 1)|, add_comm (w (i + 1))]

theorem div0R_self (h0 : rnd 0 = 0) {c v : K} : div0R rnd (XF.rd rnd (.fin c * .fin v)) (.fin c : XF K) =
    .fin (if c = 0 then 0 else rnd (rnd (c * v) / c)) := by
  unfold div0R
  rw [XF.fin_mul]
  change (if ((XF.fin (rnd (c * v)) / .fin c).rd rnd).isFinite then (XF.fin (rnd (c * v)) / .fin c).rd rnd
    else .fin 0) = _
  by_cases h : c = 0
  · subst h
    rw [zero_mul, h0, XF.zero_div_zero]
    simp [XF.isFinite, XF.rd]
  · rw [XF.fin_div _ h, if_neg h]
    simp [XF.isFinite, XF.rd]

theorem ktBCR_mirrored [NeZero n] (hr : rnd 0 = 0) {C v : Fin n → K} {V0 : Fin (n + 4) → XF K}
    (h : ∀ k : Fin n, V0 ⟨k.val + 2, by omega⟩ = .fin (v k)) {i : Fin (n + 4)}
    (h1 : 1 ≤ i.val) (h2 : i.val ≤ n + 2) :
    ktBCR rnd (padKT C) V0 i = .fin (mirrored rnd C v i) := by
  have hn := NeZero.pos n
  obtain ⟨i, hi⟩ := i
  simp only at h1 h2
  unfold ktBCR mirrored
  simp only []
  by_cases e1 : i = 1
  · subst e1
    rw [Function.update_of_ne (fin_ne (by omega)), Function.update_of_ne (fin_ne (by omega)),
      Function.update_of_ne (fin_ne (by omega)), Function.update_self,
      if_pos (Or.inl rfl)]
    have hv := h ⟨0, hn⟩
    have e2 : padKT C (⟨2, by omega⟩ : Fin (n + 4)) = C ⟨0, hn⟩ := by
      simp [padKT]
    have e3 : padKT C (⟨1, by omega⟩ : Fin (n + 4)) = C ⟨0, hn⟩ := by simp [padKT]
    have e4 : V0 ⟨2, by omega⟩ = .fin (v ⟨0, hn⟩) := hv
    rw [e2, e3, e4, div0R_self hr]
    simp only [Nat.reduceSub, Nat.zero_min]
    rfl
  · by_cases e2 : i = n + 2
    · subst e2
      rw [Function.update_of_ne (fin_ne (by omega)), Function.update_self,
        if_pos (Or.inr rfl), Function.update_of_ne (fin_ne (by omega)),
        Function.update_of_ne (fin_ne (by omega))]
      have hv : V0 ⟨n + 1, by omega⟩ = .fin (v ⟨n - 1, by omega⟩) := by
        rw [← h ⟨n - 1, by omega⟩]
        congr 1
        apply Fin.ext
        simp only
        omega
      have e2 : padKT C (⟨n + 1, by omega⟩ : Fin (n + 4)) = C ⟨n - 1, by omega⟩ := by
        unfold padKT; congr 1; apply Fin.ext; simp only; omega
      have e3 : padKT C (⟨n + 2, by omega⟩ : Fin (n + 4)) = C ⟨n - 1, by omega⟩ := by
        unfold padKT; congr 1; apply Fin.ext; simp only; omega
      rw [hv, e2, e3, div0R_self hr]
      have e4 : (⟨min (n + 2 - 2) (n - 1), by omega⟩ : Fin n) = ⟨n - 1, by omega⟩ := by
        apply Fin.ext; simp only; omega
      simp only [e4]
      rfl
    · rw [Function.update_of_ne (fin_ne (by omega)), Function.update_of_ne (fin_ne (by omega)),
        Function.update_of_ne (fin_ne (by omega)), Function.update_of_ne (fin_ne (by omega)),
        if_neg (by omega)]
      have hv := h ⟨min (i - 2) (n - 1), by omega⟩
      rw [← hv]
      congr 1
      apply Fin.ext
      simp only
      omega

/-- **C145**: the change of every node is what passes through its left face less what passes through its
right face, and both neighbours of a face work with the very same numbers. -/
theorem c145_faces [NeZero n] (hr : Rounding rnd u) {cyc : Bool} {c dt dx : K} (hdx : dx ≠ 0) {s : Fin ns → K}
    {phi : Fin n → Fin ns → K} {g : Fin n → K} {bnd : Fin n → Bool} {j : Fin ns} {v : Fin n → K}
    (hv : ∀ k, ktFluxR rnd c s (phi k) j (g k) (bnd k) = .fin (v k)) (k : Fin n) :
    ktLineR rnd cyc c dt dx s phi g bnd j k = .fin (change rnd dt dx
      (lineAdv rnd dx (fun i => phi i j) v k) (lineAdv rnd dx (fun i => phi i j) v (k + 1))
      (lineSmear rnd dx (fun i => phi i j) v k) (lineSmear rnd dx (fun i => phi i j) v (k + 1))) := by
  have hk := k.isLt
  have hV : ∀ k : Fin n, (fun i : Fin (n + 4) => ktFluxR rnd c s (padKT phi i) j
      ((if cyc then padCyc g else padKT g) i) (padKT bnd i)) ⟨k.val + 2, by omega⟩ = .fin (v k) := by
    intro k
    beta_reduce
    rw [padKT_mid phi k, padKT_mid bnd k, ← hv k]
    congr 1
    cases cyc
    · exact padKT_mid g k
    · exact padCyc_mid g k
  have e : (⟨k.val + 2, by omega⟩ : Fin (n + 4)) = Fin.ofNat (n + 4) (k.val + 2) :=
    Fin.ext (Nat.mod_eq_of_lt (by omega)).symm
  have hD : rnd (2 * dx) ≠ 0 := hr.ne_zero.2 (mul_ne_zero two_ne_zero hdx)
  unfold ktLineR
  simp only []
  rw [e]
  have key : ∀ m, 1 ≤ m → m ≤ n + 2 → ktBCR rnd (padKT fun i => phi i j) (fun i : Fin (n + 4) =>
      ktFluxR rnd c s (padKT phi i) j ((if cyc then padCyc g else padKT g) i) (padKT bnd i))
        (Fin.ofNat (n + 4) m) =
      .fin (mirrored rnd (fun i => phi i j) v (Fin.ofNat (n + 4) m)) := by
    intro m h1 h2
    have hm : (Fin.ofNat (n + 4) m).val = m := Nat.mod_eq_of_lt (by omega)
    exact ktBCR_mirrored hr.zero hV (by rw [hm]; exact h1) (by rw [hm]; exact h2)
  rw [ktCoreR_face (w := mirrored rnd (fun i => phi i j) v) hD (key _ (by omega) (by omega))
    (by rw [ofNat_sub_one (by omega)]; exact key _ (by omega) (by omega))
    (by rw [ofNat_add_one]; exact key _ (by omega) (by omega)), ofNat_add_one]
  rfl

theorem Spec.Rounding.abs_le (hr : Rounding rnd u) (x : K) : |rnd x| ≤ (1 + u) * |x| := by
  have h := hr.err x
  have := abs_add_le (rnd x - x) x
  rw [sub_add_cancel] at this
  linarith

theorem limiterR_zero_left (h0 : rnd 0 = 0) (b : K) : limiterR rnd 0 b = 0 := by
  unfold limiterR superbeeR maxmodR minmodR
  simp [h0]

theorem limiterR_zero_right (h0 : rnd 0 = 0) (a : K) : limiterR rnd a 0 = 0 := by
  unfold limiterR superbeeR maxmodR minmodR
  simp [h0]

/-- Through a face between equal entries nothing is smeared. -/
theorem smeared_equal (h0 : rnd 0 = 0) {dx : K} {C w : Fin (n + 4) → K} {i : Fin (n + 4)}
    (hC : C (i - 1) = C i) : smeared rnd dx C w i = 0 ∧
      advected rnd dx C w i = rnd (rnd (rnd (w i + w (i - 1)) / 2) * rnd (rnd (C i) + rnd (C i))) := by
  have h1 : halfRise rnd dx C i = 0 := by
    unfold halfRise
    rw [hC, sub_self, h0, zero_div, h0, limiterR_zero_left h0, zero_mul, h0, zero_div, h0]
  have h2 : halfRise rnd dx C (i - 1) = 0 := by
    unfold halfRise
    rw [sub_add_cancel, hC, sub_self, h0, zero_div, h0, limiterR_zero_right h0, zero_mul, h0, zero_div, h0]
  unfold smeared advected
  rw [h1, h2, hC, sub_zero, add_zero, sub_self, h0, mul_zero, h0]
  exact ⟨rfl, rfl⟩

/-- What leaks through an end: the mirror velocity is that of the node up to two roundings. -/
theorem leak (hr : Rounding rnd u) {c v w : K} (hw : w = -(if c = 0 then 0 else rnd (rnd (c * v) / c))) :
    |rnd (rnd (rnd (v + w) / 2) * rnd (rnd c + rnd c))| ≤ (1 + u) ^ 5 * gam u 2 * |c * v| := by
  have hu := hr.nonneg
  by_cases hc : c = 0
  · rw [hc, hr.zero, add_zero, hr.zero, mul_zero, hr.zero, zero_mul, abs_zero, mul_zero]
  · rw [if_neg hc] at hw
    have h1 : App u 2 |v| v (rnd (rnd (c * v) / c)) := by
      have := ((((App.exact (u := u) (c * v) le_rfl).round hr).over hr c)).round hr
      rw [mul_div_cancel_left₀ v hc, abs_mul, mul_div_cancel_left₀ _ (abs_ne_zero.2 hc)] at this
      exact this
    have h2 : |v + w| ≤ gam u 2 * |v| := by
      rw [hw, ← sub_eq_add_neg, abs_sub_comm]
      exact h1.err
    have h3 : |rnd (rnd (v + w) / 2)| ≤ (1 + u) ^ 2 * (gam u 2 * |v|) / 2 := by
      refine (hr.abs_le _).trans ?_
      rw [abs_div, abs_of_pos (zero_lt_two' K)]
      have := mul_le_mul_of_nonneg_left ((hr.abs_le (v + w)).trans
        (mul_le_mul_of_nonneg_left h2 (by linarith))) (by linarith : (0 : K) ≤ 1 + u)
      calc _ = (1 + u) * |rnd (v + w)| / 2 := by ring
        _ ≤ (1 + u) * ((1 + u) * (gam u 2 * |v|)) / 2 := by linarith
        _ = _ := by ring
    have h4 : |rnd (rnd c + rnd c)| ≤ (1 + u) ^ 2 * (2 * |c|) := by
      refine (hr.abs_le _).trans ?_
      have := abs_add_le (rnd c) (rnd c)
      have h5 := hr.abs_le c
      have := mul_le_mul_of_nonneg_left (show |rnd c + rnd c| ≤ (1 + u) * (2 * |c|) by linarith)
        (by linarith : (0 : K) ≤ 1 + u)
      calc _ ≤ _ := this
        _ = _ := by ring
    refine (hr.abs_le _).trans ?_
    rw [abs_mul]
    have := mul_le_mul_of_nonneg_left (mul_le_mul h3 h4 (abs_nonneg _) ((abs_nonneg _).trans h3))
      (by linarith : (0 : K) ≤ 1 + u)
    refine this.trans (le_of_eq ?_)
    rw [abs_mul]
    ring

/-- **C145**: through the ends of a line nothing is smeared, and what leaks is a rounding error of what the
end node moves. -/
theorem c145_ends [NeZero n] (hr : Rounding rnd u) (dx : K) (C v : Fin n → K) :
    lineSmear rnd dx C v 0 = 0 ∧ lineSmear rnd dx C v n = 0 ∧
    |lineAdv rnd dx C v 0| ≤ (1 + u) ^ 5 * gam u 2 * |C 0 * v 0| ∧
    |lineAdv rnd dx C v n| ≤ (1 + u) ^ 5 * gam u 2 * |C (Fin.ofNat n (n - 1)) * v (Fin.ofNat n (n - 1))| := by
  have hn := NeZero.pos n
  have v1 : (Fin.ofNat (n + 4) 1).val = 1 := by simp
  have v2 : (Fin.ofNat (n + 4) 2).val = 2 := by simp
  have v3 : (Fin.ofNat (n + 4) (n + 1)).val = n + 1 := Nat.mod_eq_of_lt (by omega)
  have v4 : (Fin.ofNat (n + 4) (n + 2)).val = n + 2 := Nat.mod_eq_of_lt (by omega)
  have l1 : (Fin.ofNat n (n - 1)) = ⟨n - 1, by omega⟩ := Fin.ext (Nat.mod_eq_of_lt (by omega))
  have l0 : (0 : Fin n) = ⟨0, hn⟩ := rfl
  have p1 : padKT C (Fin.ofNat (n + 4) 1) = C 0 := by
    unfold padKT; rfl
  have p2 : padKT C (Fin.ofNat (n + 4) 2) = C 0 := by
    unfold padKT; rfl
  have p3 : padKT C (Fin.ofNat (n + 4) (n + 1)) = C (Fin.ofNat n (n - 1)) := by
    rw [l1]; unfold padKT; congr 1; apply Fin.ext; simp only [v3]; omega
  have p4 : padKT C (Fin.ofNat (n + 4) (n + 2)) = C (Fin.ofNat n (n - 1)) := by
    rw [l1]; unfold padKT; congr 1; apply Fin.ext; simp only [v4]; omega
  have g1 : mirrored rnd C v (Fin.ofNat (n + 4) 1) =
      -(if C 0 = 0 then 0 else rnd (rnd (C 0 * v 0) / C 0)) := by
    unfold mirrored
    simp only []
    rw [if_pos (Or.inl v1)]
    have : (⟨min ((Fin.ofNat (n + 4) 1).val - 2) (n - 1), by omega⟩ : Fin n) = 0 := by
      rw [l0]; apply Fin.ext; simp
    rw [this]
  have g2 : mirrored rnd C v (Fin.ofNat (n + 4) 2) = v 0 := by
    unfold mirrored
    simp only []
    rw [if_neg (by rw [v2]; omega)]
    rfl
  have g3 : mirrored rnd C v (Fin.ofNat (n + 4) (n + 1)) = v (Fin.ofNat n (n - 1)) := by
    unfold mirrored
    simp only []
    rw [if_neg (by rw [v3]; omega), l1]
    congr 1; apply Fin.ext; simp only [v3]; omega
  have g4 : mirrored rnd C v (Fin.ofNat (n + 4) (n + 2)) =
      -(if C (Fin.ofNat n (n - 1)) = 0 then 0 else
        rnd (rnd (C (Fin.ofNat n (n - 1)) * v (Fin.ofNat n (n - 1))) / C (Fin.ofNat n (n - 1)))) := by
    unfold mirrored
    simp only []
    rw [if_pos (Or.inr v4)]
    have : (⟨min ((Fin.ofNat (n + 4) (n + 2)).val - 2) (n - 1), by omega⟩ : Fin n) = Fin.ofNat n (n - 1) := by
      rw [l1]; apply Fin.ext; simp only [v4]; omega
    rw [this]
  have s1 : Fin.ofNat (n + 4) 2 - 1 = Fin.ofNat (n + 4) 1 := ofNat_sub_one (by omega)
  have s2 : Fin.ofNat (n + 4) (n + 2) - 1 = Fin.ofNat (n + 4) (n + 1) := ofNat_sub_one (by omega)
  have a := smeared_equal (w := mirrored rnd C v) hr.zero (dx := dx) (C := padKT C)
    (i := Fin.ofNat (n + 4) 2) (by rw [s1, p1, p2])
  have b := smeared_equal (w := mirrored rnd C v) hr.zero (dx := dx) (C := padKT C)
    (i := Fin.ofNat (n + 4) (n + 2)) (by rw [s2, p3, p4])
  refine ⟨a.1, b.1, ?_, ?_⟩
  · refine le_of_eq_of_le (congrArg abs a.2) ?_
    rw [s1, g2, p2]
    exact leak hr g1
  · refine le_of_eq_of_le (congrArg abs b.2) ?_
    rw [s2, g3, p4, add_comm (mirrored rnd C v _)]
    exact leak hr g4

theorem change_app (hr : Rounding rnd u) {dt dx : K} (hdx : dx ≠ 0) (F F' H H' : K) :
    App u 6 (|dt / (2 * dx)| * (|F| + |F'| + |H| + |H'|)) (dt / (2 * dx) * (F - F' + H - H'))
      (change rnd dt dx F F' H H') := by
  have e := fun x : K => App.exact (u := u) x le_rfl
  have w : ∀ {k : ℕ} (x : K), App u k |x| x x := fun x => (e x).weaken hr (Nat.zero_le _) le_rfl
  have h1 := ((e F).sub (e F')).round hr
  have h2 := (h1.add (w H)).round hr
  have h3 := (h2.sub (w H')).round hr
  have h4 := ((h3.mul hr (e dt))).round hr
  have h5 := ((h4.mul hr (App.inv hr (D := 2 * dx) (mul_ne_zero two_ne_zero hdx)))).round hr
  unfold change
  rw [mul_comm dt, div_eq_mul_inv _ (rnd (2 * dx))]
  convert h5 using 1
  · rw [abs_div, abs_inv]; ring
  · ring

/-- **C145**: what a whole line gains or loses is bounded by the leaks at its ends and six roundings of all
that passes through its faces. -/
theorem c145_total [NeZero n] (hr : Rounding rnd u) {cyc : Bool} {c dt dx : K} (hdx : dx ≠ 0) {s : Fin ns → K}
    {phi : Fin n → Fin ns → K} {g : Fin n → K} {bnd : Fin n → Bool} {j : Fin ns} {v inc : Fin n → K}
    (hv : ∀ k, ktFluxR rnd c s (phi k) j (g k) (bnd k) = .fin (v k))
    (hi : ∀ k, ktLineR rnd cyc c dt dx s phi g bnd j k = .fin (inc k)) :
    |∑ k, inc k| ≤ |dt / (2 * dx)| * ((1 + u) ^ 5 * gam u 2 * (|phi 0 j * v 0| +
        |phi (Fin.ofNat n (n - 1)) j * v (Fin.ofNat n (n - 1))|) +
      gam u 6 * ∑ k : Fin n, (|lineAdv rnd dx (fun i => phi i j) v k| +
        |lineAdv rnd dx (fun i => phi i j) v (k + 1)| + |lineSmear rnd dx (fun i => phi i j) v k| +
        |lineSmear rnd dx (fun i => phi i j) v (k + 1)|)) := by
  set A := lineAdv rnd dx (fun i => phi i j) v with hA
  set S := lineSmear rnd dx (fun i => phi i j) v with hS
  obtain ⟨s0, sn, a0, an⟩ := c145_ends hr dx (fun i => phi i j) v
  rw [← hS] at s0 sn
  rw [← hA] at a0 an
  have h1 : ∀ k : Fin n, |inc k - dt / (2 * dx) * (A k - A (k + 1) + S k - S (k + 1))| ≤
      gam u 6 * (|dt / (2 * dx)| * (|A k| + |A (k + 1)| + |S k| + |S (k + 1)|)) := by
    intro k
    have := XF.fin.inj ((hi k).symm.trans (c145_faces hr hdx hv k))
    rw [this]
    exact (change_app hr hdx _ _ _ _).err
  have h2 : ∑ k : Fin n, dt / (2 * dx) * (A k - A (k + 1) + S k - S (k + 1)) =
      dt / (2 * dx) * (A 0 - A n) := by
    rw [← Finset.mul_sum]
    congr 1
    have := Fin.sum_univ_eq_sum_range (fun k => A k - A (k + 1) + S k - S (k + 1)) n
    rw [this]
    have t : ∀ k, A k - A (k + 1) + S k - S (k + 1) = (A k + S k) - (A (k + 1) + S (k + 1)) := fun k => by ring
    simp only [t]
    rw [Finset.sum_range_sub' (fun k => A k + S k), s0, sn]
    ring
  have h3 : |∑ k, inc k - dt / (2 * dx) * (A 0 - A n)| ≤ ∑ k : Fin n,
      gam u 6 * (|dt / (2 * dx)| * (|A k| + |A (k + 1)| + |S k| + |S (k + 1)|)) := by
    rw [← h2, ← Finset.sum_sub_distrib]
    exact (Finset.abs_sum_le_sum_abs _ _).trans (Finset.sum_le_sum fun k _ => h1 k)
  rw [← Finset.mul_sum, ← Finset.mul_sum] at h3
  have h4 : |A 0 - A n| ≤ (1 + u) ^ 5 * gam u 2 * (|phi 0 j * v 0| +
      |phi (Fin.ofNat n (n - 1)) j * v (Fin.ofNat n (n - 1))|) := by
    refine (abs_sub _ _).trans ?_
    rw [mul_add]
    exact add_le_add a0 an
  have h5 := abs_add_le (∑ k, inc k - dt / (2 * dx) * (A 0 - A n)) (dt / (2 * dx) * (A 0 - A n))
  rw [sub_add_cancel, abs_mul (dt / (2 * dx)) (A 0 - A n)] at h5
  have h6 := mul_le_mul_of_nonneg_left h4 (abs_nonneg (dt / (2 * dx)))
  rw [mul_add]
  calc _ ≤ _ := h5
    _ ≤ _ := add_le_add h3 h6
    _ = _ := by ring

/-- **C145**: a line between two boundary or empty nodes leaks nothing, and what it gains or loses is six
roundings of what passes inside. -/
theorem c145_walled [NeZero n] (hr : Rounding rnd u) {cyc : Bool} {c dt dx : K} (hdx : dx ≠ 0) {s : Fin ns → K}
    {phi : Fin n → Fin ns → K} {g : Fin n → K} {bnd : Fin n → Bool} {j : Fin ns} {v inc : Fin n → K}
    (h0 : bnd 0 = true) (h1 : bnd (Fin.ofNat n (n - 1)) = true)
    (hv : ∀ k, ktFluxR rnd c s (phi k) j (g k) (bnd k) = .fin (v k))
    (hi : ∀ k, ktLineR rnd cyc c dt dx s phi g bnd j k = .fin (inc k)) :
    lineAdv rnd dx (fun i => phi i j) v 0 = 0 ∧ lineAdv rnd dx (fun i => phi i j) v n = 0 ∧
    |∑ k, inc k| ≤ gam u 6 * (|dt / (2 * dx)| * ∑ k : Fin n, (|lineAdv rnd dx (fun i => phi i j) v k| +
        |lineAdv rnd dx (fun i => phi i j) v (k + 1)| + |lineSmear rnd dx (fun i => phi i j) v k| +
        |lineSmear rnd dx (fun i => phi i j) v (k + 1)|)) := by
  have z0 : v 0 = 0 := by
    have := hv 0
    rw [h0] at this
    exact (XF.fin.inj this).symm
  have z1 : v (Fin.ofNat n (n - 1)) = 0 := by
    have := hv (Fin.ofNat n (n - 1))
    rw [h1] at this
    exact (XF.fin.inj this).symm
  obtain ⟨-, -, a, b⟩ := c145_ends hr dx (fun i => phi i j) v
  have t := c145_total hr hdx hv hi
  rw [z0, mul_zero, abs_zero, mul_zero] at a
  rw [z1, mul_zero, abs_zero, mul_zero] at b
  rw [z0, z1, mul_zero, mul_zero, abs_zero, add_zero, mul_zero, zero_add] at t
  refine ⟨abs_eq_zero.1 (le_antisymm a (abs_nonneg _)), abs_eq_zero.1 (le_antisymm b (abs_nonneg _)), ?_⟩
  rw [mul_left_comm]
  exact t

/-- A face whose two velocities vanish passes nothing. -/
theorem still_face (h0 : rnd 0 = 0) {dx : K} {C w : Fin (n + 4) → K} {i : Fin (n + 4)} (h1 : w i = 0)
    (h2 : w (i - 1) = 0) : advected rnd dx C w i = 0 ∧ smeared rnd dx C w i = 0 := by
  unfold advected smeared
  rw [h1, h2, add_zero, h0, zero_div, h0, zero_mul, h0, abs_zero, max_self, zero_mul, h0]
  exact ⟨rfl, rfl⟩

/-- **C145**: a node that does not segregate and whose neighbours along the line do not either keeps its
sizes exactly. -/
theorem c145_quiet [NeZero n] (hr : Rounding rnd u) {cyc : Bool} {c dt dx : K} (hdx : dx ≠ 0) {s : Fin ns → K}
    {phi : Fin n → Fin ns → K} {g : Fin n → K} {bnd : Fin n → Bool} {j : Fin ns} {v : Fin n → K}
    (hv : ∀ k, ktFluxR rnd c s (phi k) j (g k) (bnd k) = .fin (v k)) {k : Fin n}
    (hk : ∀ i : Fin n, i.val ≤ k.val + 1 → k.val ≤ i.val + 1 → v i = 0) :
    ktLineR rnd cyc c dt dx s phi g bnd j k = .fin 0 := by
  have hn := k.isLt
  have h0 := hr.zero
  rw [c145_faces hr hdx hv k]
  have key : ∀ m, k.val + 1 ≤ m → m ≤ k.val + 3 →
      mirrored rnd (fun i => phi i j) v (Fin.ofNat (n + 4) m) = 0 := by
    intro m h1 h2
    have hm : (Fin.ofNat (n + 4) m).val = m := Nat.mod_eq_of_lt (by omega)
    have hz : v ⟨min ((Fin.ofNat (n + 4) m).val - 2) (n - 1), by omega⟩ = 0 := by
      apply hk
      · simp only [hm]; omega
      · simp only [hm]; omega
    unfold mirrored
    simp only []
    rw [hz, mul_zero, h0, zero_div, h0, ite_self, neg_zero, ite_self]
  have f := fun (m : ℕ) (h1 : k.val + 1 ≤ m + 2) (h2 : m + 2 ≤ k.val + 3) (h3 : k.val + 1 ≤ m + 1) => still_face (dx := dx) (C := padKT fun i => phi i j) h0
    (w := mirrored rnd (fun i => phi i j) v) (i := Fin.ofNat (n + 4) (m + 2)) (key (m + 2) h1 h2)
    (by rw [ofNat_sub_one (by omega)]; exact key (m + 1) h3 (by omega))
  obtain ⟨a1, a2⟩ := f k.val (by omega) (by omega) (by omega)
  obtain ⟨b1, b2⟩ := f (k.val + 1) (by omega) (by omega) (by omega)
  unfold lineAdv lineSmear
  rw [a1, a2, b1, b2]
  unfold change
  rw [sub_self, h0, add_zero, h0, sub_zero, h0, mul_zero, h0, zero_div, h0]

/-- **C145**: boundary nodes and empty nodes do not segregate, whatever their sizes and gradient. -/
theorem c145_masked (c : K) (s phi : Fin ns → K) (j : Fin ns) (g : K) :
    ktFluxR rnd c s phi j g true = .fin 0 := rfl

theorem invHarmonicR_fin {m : ℕ} {s phi : Fin m → K} (hs : ∀ j, s j ≠ 0) : invHarmonicR rnd s phi =
    .fin (Fin.foldl m (fun acc i => rnd (acc + rnd (phi i * rnd (1 / s i)))) 0) := by
  unfold invHarmonicR
  induction m with
  | zero => simp [Fin.foldl_zero]
  | succ m ih =>
    rw [Fin.foldl_succ_last, Fin.foldl_succ_last,
      ih (s := fun i => s i.castSucc) (phi := fun i => phi i.castSucc) (fun i => hs _),
      XF.fin_div _ (hs _)]
    rfl

theorem foldR_zero (h0 : rnd 0 = 0) {m : ℕ} {s phi : Fin m → K} (hp : ∀ i, phi i = 0) :
    Fin.foldl m (fun acc i => rnd (acc + rnd (phi i * rnd (1 / s i)))) 0 = 0 := by
  induction m with
  | zero => simp [Fin.foldl_zero]
  | succ m ih =>
    rw [Fin.foldl_succ_last, ih (s := fun i => s i.castSucc) (phi := fun i => phi i.castSucc) (fun i => hp _),
      hp, zero_mul, h0, add_zero, h0]

theorem foldR_single (hr : Rounding rnd u) {m : ℕ} {s phi : Fin m → K} {j : Fin m} (hj : phi j = 1)
    (hp : ∀ i, i ≠ j → phi i = 0) :
    Fin.foldl m (fun acc i => rnd (acc + rnd (phi i * rnd (1 / s i)))) 0 = rnd (1 / s j) := by
  induction m with
  | zero => exact j.elim0
  | succ m ih =>
    rw [Fin.foldl_succ_last]
    rcases Fin.eq_castSucc_or_eq_last j with ⟨i, rfl⟩ | rfl
    · rw [ih (s := fun i => s i.castSucc) (phi := fun i => phi i.castSucc) hj
        (fun k hk => hp _ fun e => hk (Fin.castSucc_injective _ e)),
        hp _ (Fin.castSucc_lt_last i).ne', zero_mul, hr.zero, add_zero, hr.fix]
    · rw [foldR_zero hr.zero (s := fun i => s i.castSucc) (phi := fun i => phi i.castSucc)
        (fun k => hp _ (Fin.castSucc_lt_last k).ne), hj, one_mul, hr.fix, zero_add, hr.fix]

/-- **C145**: where only one size is present, its segregation velocity, which should vanish, is at most some
roundings of the coefficient times the gradient. -/
theorem c145_single (hr : Rounding rnd u) {s phi : Fin ns → K} (hs : ∀ i, s i ≠ 0) {j : Fin ns} (hj : phi j = 1)
    (hp : ∀ i, i ≠ j → phi i = 0) (c g : K) : ∃ v, ktFluxR rnd c s phi j g false = .fin v ∧
      |v| ≤ (1 + u) ^ 3 * gam u 3 * |c * g| := by
  have hu := hr.nonneg
  have hu1 := hr.lt_one
  have r : ∀ x : K, (XF.fin x).rd rnd = .fin (rnd x) := fun _ => rfl
  obtain ⟨x, hx⟩ : ∃ x, x = rnd (rnd (1 / s j) * s j) := ⟨_, rfl⟩
  have h1 : App u 2 1 1 x := by
    have := (((App.exact (u := u) (1 / s j) le_rfl).round hr).times hr (s j)).round hr
    rw [← abs_mul, one_div_mul_cancel (hs j), abs_one] at this
    rw [hx]
    exact this
  have hlow : (1 - u) ^ 2 ≤ x := by
    have a : |rnd (1 / s j) * s j - 1| ≤ u := by
      have := mul_le_mul_of_nonneg_right (hr.err (1 / s j)) (abs_nonneg (s j))
      rw [← abs_mul, mul_assoc, ← abs_mul, one_div_mul_cancel (hs j), abs_one, mul_one, sub_mul,
        one_div_mul_cancel (hs j)] at this
      exact this
    have a' := abs_le.1 a
    have b := hr.err (rnd (1 / s j) * s j)
    rw [← hx] at b
    have b' := (abs_le.1 b).1
    have c : |rnd (1 / s j) * s j| = rnd (1 / s j) * s j := abs_of_nonneg (by linarith)
    rw [c] at b'
    have d := mul_le_mul_of_nonneg_left (show 1 - u ≤ rnd (1 / s j) * s j by linarith) hu1.le
    calc _ = (1 - u) * (1 - u) := by ring
      _ ≤ _ := d
      _ ≤ _ := by linarith
  have hpos : 0 < x := (pow_pos hu1 2).trans_le hlow
  have h2 : App u 2 1 1 (1 / x) := by
    refine ⟨(abs_one).le, ?_⟩
    rw [mul_one, abs_le]
    have up : 1 / x ≤ 1 / (1 - u) ^ 2 := one_div_le_one_div_of_le (pow_pos hu1 2) hlow
    refine ⟨?_, by unfold gam; linarith⟩
    have e := (abs_le.1 h1.err).2
    rw [mul_one] at e
    have q : 1 / (1 + gam u 2) ≤ 1 / x := one_div_le_one_div_of_le hpos (by linarith)
    have g0 := gam_nonneg hu hu1 2
    have q2 : 1 - gam u 2 ≤ 1 / (1 + gam u 2) := by
      rw [le_div_iff₀ (by linarith)]
      have := mul_nonneg g0 g0
      linarith
    linarith
  have h3 := (h2.round hr).err
  rw [mul_one] at h3
  refine ⟨rnd (rnd (c * rnd (rnd (1 / x) - 1)) * g), ?_, ?_⟩
  · unfold ktFluxR
    rw [if_neg Bool.false_ne_true, invHarmonicR_fin hs, foldR_single hr hj hp, XF.fin_mul, r, ← hx,
      XF.fin_div _ hpos.ne', r, XF.fin_sub, r, XF.fin_mul, r, XF.fin_mul, r]
  · have hu' : (0 : K) ≤ 1 + u := by linarith
    have f1 := (hr.abs_le (rnd (1 / x) - 1)).trans (mul_le_mul_of_nonneg_left h3 hu')
    have f2 := hr.abs_le (c * rnd (rnd (1 / x) - 1))
    rw [abs_mul] at f2
    have f2' := f2.trans (mul_le_mul_of_nonneg_left (mul_le_mul_of_nonneg_left f1 (abs_nonneg c)) hu')
    have f3 := hr.abs_le (rnd (c * rnd (rnd (1 / x) - 1)) * g)
    rw [abs_mul] at f3
    refine (f3.trans (mul_le_mul_of_nonneg_left (mul_le_mul_of_nonneg_right f2' (abs_nonneg g)) hu')).trans
      (le_of_eq ?_)
    rw [abs_mul]
    ring

/-- **C145**: in binary64 that velocity is not always zero: a single size of 49 segregates. -/
theorem c145_alone : ∃ v : ℚ, ktFluxR (fl 53) 1 ![49] ![1] (0 : Fin 1) 1 false = .fin v ∧ v ≠ 0 ∧
    ktFlux (1 : ℚ) ![49] ![1] (0 : Fin 1) 1 false = .fin 0 := by
  refine ⟨1 / 2 ^ 52, ?_, by positivity, ?_⟩ <;> decide +kernel

end

namespace Ex

/-- Two nodes with the same mixture of two sizes; the second is empty. -/
def segOpen (rnd : ℚ → ℚ) : Fin 2 → XF ℚ :=
  ktLineR rnd false 1 1 1 ![1, 2] (fun _ : Fin 2 => ![3 / 32, 29 / 32]) (fun _ => 1) ![false, true] 0

/-- Four nodes with different mixtures between two walls. -/
def segBox (rnd : ℚ → ℚ) : Fin 4 → XF ℚ :=
  ktLineR rnd false 1 1 1 ![1, 2] ![![1 / 4, 3 / 4], ![1 / 2, 1 / 2], ![3 / 8, 5 / 8], ![1 / 2, 1 / 2]]
    (fun _ => 1) ![true, false, false, true] 0

end Ex

/-- **C145**: at an end without a wall the mirror velocity is not exactly that of the node, and size is lost
through the end: two nodes that keep their total exactly lose some of it in binary64. -/
theorem c145_leaks : ∃ a b : ℚ, Ex.segOpen (fl 53) 0 = .fin a ∧ Ex.segOpen (fl 53) 1 = .fin b ∧ a + b ≠ 0 ∧
    Ex.segOpen id 0 + Ex.segOpen id 1 = .fin 0 := by
  have h : ∀ x : XF ℚ, x.isFinite = true → x = .fin (x.nanToNum 0) := by
    intro x
    cases x <;> simp [XF.isFinite, XF.nanToNum]
  refine ⟨(Ex.segOpen (fl 53) 0).nanToNum 0, (Ex.segOpen (fl 53) 1).nanToNum 0, h _ ?_, h _ ?_, ?_, ?_⟩ <;>
    decide +kernel

/-- The hypotheses of the bounds hold for lines that do move: both inner nodes of the box change. -/
example : (∃ v : Fin 4 → ℚ, ∀ k, ktFluxR (fl 53) 1 ![1, 2]
      ((![![1 / 4, 3 / 4], ![1 / 2, 1 / 2], ![3 / 8, 5 / 8], ![1 / 2, 1 / 2]] : Fin 4 → Fin 2 → ℚ) k) 0 1
      ((![true, false, false, true] : Fin 4 → Bool) k) = .fin (v k)) ∧
    (∃ inc : Fin 4 → ℚ, (∀ k, Ex.segBox (fl 53) k = .fin (inc k)) ∧ inc 1 ≠ 0 ∧ inc 2 ≠ 0) := by
  have h : ∀ x : XF ℚ, x.isFinite = true → x = .fin (x.nanToNum 0) := by
    intro x
    cases x <;> simp [XF.isFinite, XF.nanToNum]
  refine ⟨⟨fun k => (ktFluxR (fl 53) 1 ![1, 2]
      ((![![1 / 4, 3 / 4], ![1 / 2, 1 / 2], ![3 / 8, 5 / 8], ![1 / 2, 1 / 2]] : Fin 4 → Fin 2 → ℚ) k) 0 1
      ((![true, false, false, true] : Fin 4 → Bool) k)).nanToNum 0, fun k => h _ ?_⟩,
    ⟨fun k => (Ex.segBox (fl 53) k).nanToNum 0, fun k => h _ ?_, ?_, ?_⟩⟩
  · revert k; decide +kernel
  · revert k; decide +kernel
  · decide +kernel
  · decide +kernel

/-- The limiters meet numbers that are not powers of two. -/
example : fl 53 (3 / 8 : ℚ) = 3 / 8 ∧ limiterR (fl 53) (3 / 8 : ℚ) (1 / 4) = 3 / 8 ∧
    minmodR (fl 53) (3 / 8 : ℚ) (1 / 4) = 1 / 4 := by
  refine ⟨?_, ?_, ?_⟩ <;> decide +kernel

/-- The hypotheses of `c145_single`: two sizes of which one is present. -/
example : (∀ i, (![1, 2] : Fin 2 → ℚ) i ≠ 0) ∧ (![0, 1] : Fin 2 → ℚ) 1 = 1 ∧
    ∀ i, i ≠ 1 → (![0, 1] : Fin 2 → ℚ) i = 0 := by decide +kernel

end Mpm

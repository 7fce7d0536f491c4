import Verif.Lemmas.Limiter
import Verif.Lemmas.Slices
import Mathlib.Algebra.BigOperators.Fin

/-! The Kurganov-Tadmor scheme of `integrators.py`, written with fluxes through cell faces. -/

set_option linter.unusedSectionVars false

namespace Mpm

section
variable {K : Type} [Field K] [LinearOrder K] [IsStrictOrderedRing K] {n ns : ℕ}

/-- Limited slope at entry `i`. -/
def slope (dx : K) (C : Fin (n + 4) → K) (i : Fin (n + 4)) : K :=
  limiter ((C i - C (i - 1)) / dx) ((C (i + 1) - C i) / dx)

/-- Twice the flux through the face between entries `i-1` and `i`. -/
def face (dx : K) (C w : Fin (n + 4) → K) (i : Fin (n + 4)) : K :=
  (w i + w (i - 1)) / 2 *
      ((C (i - 1) - slope dx C (i - 1) * dx / 2) + (C i + slope dx C i * dx / 2))
    + max |w i| |w (i - 1)| *
      ((C (i - 1) - slope dx C (i - 1) * dx / 2) - (C i + slope dx C i * dx / 2))

theorem ktCore_face {dt dx : K} (hdx : dx ≠ 0) {C w : Fin (n + 4) → K} {V : Fin (n + 4) → XF K}
    {i : Fin (n + 4)} (h0 : V i = .fin (w i)) (hm : V (i - 1) = .fin (w (i - 1)))
    (hp : V (i + 1) = .fin (w (i + 1))) :
    ktCore dt dx C V i = .fin (dt / (2 * dx) * (face dx C w i - face dx C w (i + 1))) := by
  have h2 : (2 * dx : K) ≠ 0 := mul_ne_zero two_ne_zero hdx
  have e : i + 1 - 1 = i := add_sub_cancel_right i 1
  have es : ∀ i : Fin (n + 4), limiter ((C i - C (i - 1)) / dx) ((C (i + 1) - C i) / dx) =
    slope dx C i := fun _ => rfl
  unfold ktCore
  simp only [es]
  simp only [h0, hm, hp, XF.fin_add, XF.fin_div _ (two_ne_zero (α := K)), XF.fin_mul, XF.fin_sub]
  change XF.fin _ * (XF.fin _ + XF.fin (max _ _) * XF.fin _ - XF.fin (max _ _) * XF.fin _) /
    XF.fin _ = _
  simp only [XF.fin_add, XF.fin_mul, XF.fin_sub]
  rw [XF.fin_div _ h2]
  congr 1
  unfold face
  rw [e]
  rw [max_comm |w (i + 1)|, div_mul_eq_mul_div, mul_comm]
  congr 1
  ring

/-- A face between equal entries carries the mean velocity only. -/
theorem face_equal {dx : K} {C w : Fin (n + 4) → K} {i : Fin (n + 4)} (hC : C (i - 1) = C i) :
    face dx C w i = (w i + w (i - 1)) * C i := by
  have h1 : slope dx C i = 0 := by
    unfold slope
    rw [hC, sub_self, zero_div]
    exact limiter_zero_left _
  have h2 : slope dx C (i - 1) = 0 := by
    unfold slope
    rw [sub_add_cancel, hC, sub_self, zero_div]
    exact limiter_zero_right _
  unfold face
  rw [h1, h2, hC]
  ring

theorem div0_self {c v : K} : div0 (.fin c * .fin v) (.fin c : XF K) = .fin (if c = 0 then 0 else v) := by
  unfold div0
  rw [XF.fin_mul]
  by_cases h : c = 0
  · subst h
    rw [zero_mul, XF.zero_div_zero]
    simp [XF.isFinite]
  · rw [XF.fin_div _ h, mul_div_cancel_left₀ v h, if_neg h]
    simp [XF.isFinite]

theorem fin_ne {m a b : ℕ} {ha : a < m} {hb : b < m} (h : a ≠ b) : (⟨a, ha⟩ : Fin m) ≠ ⟨b, hb⟩ :=
  fun e => h (congrArg Fin.val e)

/-- Velocities along the padded line, the outermost entries left arbitrary. -/
def ghost [NeZero n] (C v : Fin n → K) (i : Fin (n + 4)) : K :=
  let f : Fin n := ⟨min (i.val - 2) (n - 1), by have := NeZero.pos n; omega⟩
  if i.val = 1 ∨ i.val = n + 2 then -(if C f = 0 then 0 else v f) else v f

theorem ktBC_ghost [NeZero n] {C v : Fin n → K} {V0 : Fin (n + 4) → XF K}
    (h : ∀ k : Fin n, V0 ⟨k.val + 2, by omega⟩ = .fin (v k)) {i : Fin (n + 4)}
    (h1 : 1 ≤ i.val) (h2 : i.val ≤ n + 2) :
    ktBC (padKT C) V0 i = .fin (ghost C v i) := by
  have hn := NeZero.pos n
  obtain ⟨i, hi⟩ := i
  simp only at h1 h2
  unfold ktBC ghost
  simp only []
  by_cases e1 : i = 1
  · subst e1
    rw [Function.update_of_ne (fin_ne (by omega)), Function.update_of_ne (fin_ne (by omega)),
      Function.update_of_ne (fin_ne (by omega)), Function.update_self,
      if_pos (Or.inl rfl)]
    have hv := h ⟨0, hn⟩
    have e2 : padKT C (⟨2, by omega⟩ : Fin (n + 4)) = C ⟨0, hn⟩ := by
      simp [padKT]
    have e3 : padKT C (⟨1, by omega⟩ : Fin (n + 4)) = C ⟨0, hn⟩ := by simp [padKT]
    have e4 : V0 ⟨2, by omega⟩ = .fin (v ⟨0, hn⟩) := hv
    rw [e2, e3, e4, div0_self]
    simp only [Nat.reduceSub, Nat.zero_min]
    rfl
  · by_cases e2 : i = n + 2
    · subst e2
      rw [Function.update_of_ne (fin_ne (by omega)), Function.update_self,
        if_pos (Or.inr rfl), Function.update_of_ne (fin_ne (by omega)),
        Function.update_of_ne (fin_ne (by omega))]
      have hv : V0 ⟨n + 1, by omega⟩ = .fin (v ⟨n - 1, by omega⟩) := by
        rw [← h ⟨n - 1, by omega⟩]
        congr 1
        apply Fin.ext
        simp only
        omega
      have e2 : padKT C (⟨n + 1, by omega⟩ : Fin (n + 4)) = C ⟨n - 1, by omega⟩ := by
        unfold padKT; congr 1; apply Fin.ext; simp only; omega
      have e3 : padKT C (⟨n + 2, by omega⟩ : Fin (n + 4)) = C ⟨n - 1, by omega⟩ := by
        unfold padKT; congr 1; apply Fin.ext; simp only; omega
      rw [hv, e2, e3, div0_self]
      have e4 : (⟨min (n + 2 - 2) (n - 1), by omega⟩ : Fin n) = ⟨n - 1, by omega⟩ := by
        apply Fin.ext; simp only; omega
      simp only [e4]
      rfl
    · rw [Function.update_of_ne (fin_ne (by omega)), Function.update_of_ne (fin_ne (by omega)),
        Function.update_of_ne (fin_ne (by omega)), Function.update_of_ne (fin_ne (by omega)),
        if_neg (by omega)]
      have hv := h ⟨min (i - 2) (n - 1), by omega⟩
      rw [← hv]
      congr 1
      apply Fin.ext
      simp only
      omega

/-- Twice the flux through the face to the left of node `k` (the right end for `k = n`). -/
def lineFace [NeZero n] (dx : K) (C v : Fin n → K) (k : ℕ) : K :=
  face dx (padKT C) (ghost C v) (Fin.ofNat (n + 4) (k + 2))

theorem ofNat_sub_one {m : ℕ} (h : 1 ≤ m) :
    Fin.ofNat (n + 4) m - 1 = Fin.ofNat (n + 4) (m - 1) := by
  obtain ⟨m, rfl⟩ : ∃ k, m = k + 1 := ⟨m - 1, by omega⟩
  rw [sub_eq_iff_eq_add]
  apply Fin.ext
  simp [Fin.val_add]

theorem ofNat_add_one {m : ℕ} :
    Fin.ofNat (n + 4) m + 1 = Fin.ofNat (n + 4) (m + 1) := by
  apply Fin.ext
  simp [Fin.val_add]

theorem lineFace_ends [NeZero n] (dx : K) (C v : Fin n → K) :
    lineFace dx C v 0 = 0 ∧ lineFace dx C v n = 0 := by
  have hn := NeZero.pos n
  have v1 : (Fin.ofNat (n + 4) 1).val = 1 := by simp
  have v2 : (Fin.ofNat (n + 4) 2).val = 2 := by simp
  have v3 : (Fin.ofNat (n + 4) (n + 1)).val = n + 1 := Nat.mod_eq_of_lt (by omega)
  have v4 : (Fin.ofNat (n + 4) (n + 2)).val = n + 2 := Nat.mod_eq_of_lt (by omega)
  have p1 : padKT C (Fin.ofNat (n + 4) 1) = C ⟨0, hn⟩ := by
    unfold padKT; rfl
  have p2 : padKT C (Fin.ofNat (n + 4) 2) = C ⟨0, hn⟩ := by
    unfold padKT; rfl
  have p3 : padKT C (Fin.ofNat (n + 4) (n + 1)) = C ⟨n - 1, by omega⟩ := by
    unfold padKT; congr 1; apply Fin.ext; simp only [v3]; omega
  have p4 : padKT C (Fin.ofNat (n + 4) (n + 2)) = C ⟨n - 1, by omega⟩ := by
    unfold padKT; congr 1; apply Fin.ext; simp only [v4]; omega
  have g1 : ghost C v (Fin.ofNat (n + 4) 1) = -(if C ⟨0, hn⟩ = 0 then 0 else v ⟨0, hn⟩) := by
    unfold ghost
    simp only []
    rw [if_pos (Or.inl v1)]
    have : (⟨min ((Fin.ofNat (n + 4) 1).val - 2) (n - 1), by omega⟩ : Fin n) = ⟨0, hn⟩ := by
      apply Fin.ext; simp [v1]
    rw [this]
  have g2 : ghost C v (Fin.ofNat (n + 4) 2) = v ⟨0, hn⟩ := by
    unfold ghost
    simp only []
    rw [if_neg (by rw [v2]; omega)]
    rfl
  have g3 : ghost C v (Fin.ofNat (n + 4) (n + 1)) = v ⟨n - 1, by omega⟩ := by
    unfold ghost
    simp only []
    rw [if_neg (by rw [v3]; omega)]
    congr 1; apply Fin.ext; simp only [v3]; omega
  have g4 : ghost C v (Fin.ofNat (n + 4) (n + 2)) =
      -(if C ⟨n - 1, by omega⟩ = 0 then 0 else v ⟨n - 1, by omega⟩) := by
    unfold ghost
    simp only []
    rw [if_pos (Or.inr v4)]
    have : (⟨min ((Fin.ofNat (n + 4) (n + 2)).val - 2) (n - 1), by omega⟩ : Fin n) =
        ⟨n - 1, by omega⟩ := by
      apply Fin.ext; simp only [v4]; omega
    rw [this]
  constructor
  · unfold lineFace
    rw [face_equal (by rw [ofNat_sub_one (by omega)]; exact p1.trans p2.symm),
      ofNat_sub_one (by omega)]
    simp only [Nat.zero_add, Nat.reduceSub]
    rw [g1, g2, p2]
    split
    · next h => rw [h, mul_zero]
    · rw [add_neg_cancel, zero_mul]
  · unfold lineFace
    rw [face_equal (by rw [ofNat_sub_one (by omega)]; exact p3.trans p4.symm),
      ofNat_sub_one (by omega), show n + 2 - 1 = n + 1 by omega, g3, g4, p4]
    split
    · next h => rw [h, mul_zero]
    · rw [neg_add_cancel, zero_mul]

theorem padKT_mid [NeZero n] {α : Type} (u : Fin n → α) (k : Fin n) :
    padKT u ⟨k.val + 2, by omega⟩ = u k := by
  unfold padKT; congr 1; apply Fin.ext; simp only; have := k.isLt; omega

theorem padCyc_mid [NeZero n] {α : Type} (u : Fin n → α) (k : Fin n) :
    padCyc u ⟨k.val + 2, by omega⟩ = u k := by
  have := k.isLt
  unfold padCyc
  rw [if_neg (by simp only; omega), if_neg (by simp only; omega)]
  congr 1; apply Fin.ext; simp only; omega

/-- The scheme on a padded line, for any velocities that are finite at the nodes proper. -/
theorem ktCore_line [NeZero n] {dt dx : K} (hdx : dx ≠ 0) {C v : Fin n → K}
    {V0 : Fin (n + 4) → XF K} (hV : ∀ k : Fin n, V0 ⟨k.val + 2, by omega⟩ = .fin (v k))
    (k : Fin n) :
    ktCore dt dx (padKT C) (ktBC (padKT C) V0) ⟨k.val + 2, by omega⟩ = .fin (dt / (2 * dx) *
      (lineFace dx C v k - lineFace dx C v (k + 1))) := by
  have hk := k.isLt
  have e : (⟨k.val + 2, by omega⟩ : Fin (n + 4)) = Fin.ofNat (n + 4) (k.val + 2) :=
    Fin.ext (Nat.mod_eq_of_lt (by omega)).symm
  rw [e]
  have key : ∀ m, 1 ≤ m → m ≤ n + 2 → ktBC (padKT C) V0 (Fin.ofNat (n + 4) m) =
      .fin (ghost C v (Fin.ofNat (n + 4) m)) := by
    intro m h1 h2
    have hm : (Fin.ofNat (n + 4) m).val = m := Nat.mod_eq_of_lt (by omega)
    exact ktBC_ghost hV (by rw [hm]; exact h1) (by rw [hm]; exact h2)
  rw [ktCore_face (w := ghost C v) hdx (key _ (by omega) (by omega))
    (by rw [ofNat_sub_one (by omega)]; exact key _ (by omega) (by omega))
    (by rw [ofNat_add_one]; exact key _ (by omega) (by omega)), ofNat_add_one]
  rfl

/-- Velocities at the nodes proper of a padded line. -/
theorem ktLine_mid [NeZero n] (cyc : Bool) (c : K) (s : Fin ns → K) (phi : Fin n → Fin ns → K)
    (g : Fin n → K) (bnd : Fin n → Bool) (j : Fin ns) (k : Fin n) :
    (fun i : Fin (n + 4) => ktFlux c s (padKT phi i) j
      ((if cyc then padCyc g else padKT g) i) (padKT bnd i)) ⟨k.val + 2, by omega⟩ =
      ktFlux c s (phi k) j (g k) (bnd k) := by
  beta_reduce
  rw [padKT_mid phi k, padKT_mid bnd k]
  congr 1
  cases cyc
  · exact padKT_mid g k
  · exact padCyc_mid g k

/-- The scheme along a line with finite velocities is a difference of face fluxes. -/
theorem ktLine_face [NeZero n] {cyc : Bool} {c dt dx : K} (hdx : dx ≠ 0) {s : Fin ns → K}
    {phi : Fin n → Fin ns → K} {g : Fin n → K} {bnd : Fin n → Bool} {j : Fin ns} {v : Fin n → K}
    (hv : ∀ k, ktFlux c s (phi k) j (g k) (bnd k) = .fin (v k)) (k : Fin n) :
    ktLine cyc c dt dx s phi g bnd j k = .fin (dt / (2 * dx) *
      (lineFace dx (fun i => phi i j) v k - lineFace dx (fun i => phi i j) v (k + 1))) :=
  ktCore_line hdx (fun k => (ktLine_mid cyc c s phi g bnd j k).trans (hv k)) k

/-- The velocities in the padding are overwritten. -/
theorem ktBC_congr {c : Fin (n + 4) → K} {V V' : Fin (n + 4) → XF K} (hn : 0 < n)
    (h : ∀ k : Fin n, V ⟨k.val + 2, by omega⟩ = V' ⟨k.val + 2, by omega⟩) :
    ktBC c V = ktBC c V' := by
  have h2 : V ⟨2, by omega⟩ = V' ⟨2, by omega⟩ := h ⟨0, hn⟩
  have h3 : V ⟨n + 1, by omega⟩ = V' ⟨n + 1, by omega⟩ := by
    have := h ⟨n - 1, by omega⟩
    have e : (⟨(⟨n - 1, by omega⟩ : Fin n).val + 2, by simp only; omega⟩ : Fin (n + 4)) =
      ⟨n + 1, by omega⟩ := Fin.ext (by simp only; omega)
    rw [e] at this
    exact this
  have na : (⟨n + 1, by omega⟩ : Fin (n + 4)) ≠ ⟨0, by omega⟩ := fin_ne (by omega)
  have nb : (⟨n + 1, by omega⟩ : Fin (n + 4)) ≠ ⟨1, by omega⟩ := fin_ne (by omega)
  funext ⟨i, hi⟩
  unfold ktBC
  by_cases e3 : i = n + 3
  · subst e3
    simp only [Function.update_self, Function.update_of_ne na, Function.update_of_ne nb, h3]
  rw [Function.update_of_ne (fin_ne e3), Function.update_of_ne (fin_ne e3)]
  by_cases e2 : i = n + 2
  · subst e2
    simp only [Function.update_self, Function.update_of_ne na, Function.update_of_ne nb, h3]
  rw [Function.update_of_ne (fin_ne e2), Function.update_of_ne (fin_ne e2)]
  by_cases e0 : i = 0
  · subst e0
    rw [Function.update_self, Function.update_self, Function.update_self, Function.update_self, h2]
  rw [Function.update_of_ne (fin_ne e0), Function.update_of_ne (fin_ne e0)]
  by_cases e1 : i = 1
  · subst e1
    rw [Function.update_self, Function.update_self, h2]
  rw [Function.update_of_ne (fin_ne e1), Function.update_of_ne (fin_ne e1)]
  have := h ⟨i - 2, by omega⟩
  have e : (⟨(⟨i - 2, by omega⟩ : Fin n).val + 2, by simp only; omega⟩ : Fin (n + 4)) =
    ⟨i, hi⟩ := Fin.ext (by simp only; omega)
  rw [e] at this
  exact this

theorem invHarmonic_fin {s phi : Fin ns → K} (hs : ∀ j, s j ≠ 0) :
    invHarmonic s phi = .fin (∑ j, phi j / s j) := by
  unfold invHarmonic
  induction ns with
  | zero => simp [Fin.foldl_zero]
  | succ m ih =>
    rw [Fin.foldl_succ_last, ih (s := fun i => s i.castSucc) (phi := fun i => phi i.castSucc)
      (fun j => hs _), Fin.sum_univ_castSucc, XF.fin_div _ (hs _), XF.fin_mul, XF.fin_add]
    congr 2
    ring

/-- Segregation velocity at a node that is neither a wall nor empty. -/
theorem ktFlux_open {c g : K} {s phi : Fin ns → K} {j : Fin ns} (hs : ∀ j, s j ≠ 0)
    (hh : ∑ i, phi i / s i ≠ 0) :
    ktFlux c s phi j g false = .fin (c * (1 / ((∑ i, phi i / s i) * s j) - 1) * g) := by
  unfold ktFlux
  rw [if_neg (by simp), invHarmonic_fin hs, XF.fin_mul, XF.fin_div _ (mul_ne_zero hh (hs j)),
    XF.fin_sub, XF.fin_mul, XF.fin_mul]

end
end Mpm

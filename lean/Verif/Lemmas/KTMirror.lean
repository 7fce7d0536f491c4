import Verif.Lemmas.Axes
import Verif.Lemmas.Limiter
import Verif.Model.Integrators

/-! The segregation scheme along a line read from the other end. -/

set_option linter.unusedSectionVars false

namespace Mpm
open Spec

section
variable {K : Type} [Field K] [LinearOrder K] [IsStrictOrderedRing K] {n ns : ℕ}

theorem padKT_rev [NeZero n] {α : Type} (u : Fin n → α) (i : Fin (n + 4)) :
    padKT (fun k => u k.rev) i = padKT u i.rev := by
  unfold padKT
  refine congrArg u (Fin.ext ?_)
  have h := i.isLt
  have h' := NeZero.pos n
  simp only [Fin.val_rev]
  omega

theorem padCyc_rev [NeZero n] {α : Type} (u : Fin n → α) (i : Fin (n + 4)) :
    padCyc (fun k => u k.rev) i = padCyc u i.rev := by
  have h := i.isLt
  have h' := NeZero.pos n
  unfold padCyc
  simp only [Fin.val_rev]
  split_ifs <;> first | (exfalso; omega) | (refine congrArg u (Fin.ext ?_); simp only [Fin.val_rev]; try omega)

theorem padKT_comp [NeZero n] {α β : Type} (f : α → β) (u : Fin n → α) (i : Fin (n + 4)) :
    padKT (fun k => f (u k)) i = f (padKT u i) := rfl

theorem padCyc_comp [NeZero n] {α β : Type} (f : α → β) (u : Fin n → α) (i : Fin (n + 4)) :
    padCyc (fun k => f (u k)) i = f (padCyc u i) := by
  unfold padCyc
  split_ifs <;> rfl

theorem div0_neg (a b : XF K) : div0 (-a) b = -div0 a b := by
  unfold div0
  rw [neg_div']
  have h : (-(a / b)).isFinite = (a / b).isFinite := by cases a / b <;> rfl
  rw [h]
  split
  · rfl
  · exact congrArg XF.fin neg_zero.symm

theorem ktFlux_neg (c : K) (s phi : Fin ns → K) (j : Fin ns) (g : K) (bnd : Bool) :
    ktFlux c s phi j (-g) bnd = -ktFlux c s phi j g bnd := by
  unfold ktFlux
  split
  · exact congrArg XF.fin neg_zero.symm
  · rw [fin_neg, mul_neg']

theorem ktBC_eq (hn : 0 < n) (c : Fin (n + 4) → K) (v : Fin (n + 4) → XF K) (i : Fin (n + 4)) :
    ktBC c v i =
      let b1 := -div0 (.fin (c ⟨2, by omega⟩) * v ⟨2, by omega⟩) (.fin (c ⟨1, by omega⟩))
      let b2 := -div0 (.fin (c ⟨n + 1, by omega⟩) * v ⟨n + 1, by omega⟩) (.fin (c ⟨n + 2, by omega⟩))
      if i.val = 0 then -div0 (.fin (c ⟨1, by omega⟩) * b1) (.fin (c ⟨0, by omega⟩))
      else if i.val = 1 then b1
      else if i.val = n + 2 then b2
      else if i.val = n + 3 then -div0 (.fin (c ⟨n + 2, by omega⟩) * b2) (.fin (c ⟨n + 3, by omega⟩))
      else v i := by
  unfold ktBC
  simp only [Function.update_apply, Fin.ext_iff]
  have h := i.isLt
  split_ifs <;> first | rfl | (exfalso; omega)

theorem ktBC_rev (hn : 0 < n) (c : Fin (n + 4) → K) (v : Fin (n + 4) → XF K) (i : Fin (n + 4)) :
    ktBC (fun k => c k.rev) (fun k => -v k.rev) i = -ktBC c v i.rev := by
  rw [ktBC_eq hn, ktBC_eq hn]
  have e : ∀ (a : ℕ) (h : a < n + 4), (Fin.rev ⟨a, h⟩ : Fin (n + 4)) = ⟨n + 3 - a, by omega⟩ := by
    intro a h
    apply Fin.ext
    simp only [Fin.val_rev]
    omega
  have e0 : (Fin.rev ⟨0, by omega⟩ : Fin (n + 4)) = ⟨n + 3, by omega⟩ := e 0 _
  have e1 : (Fin.rev ⟨1, by omega⟩ : Fin (n + 4)) = ⟨n + 2, by omega⟩ := e 1 _
  have e2 : (Fin.rev ⟨2, by omega⟩ : Fin (n + 4)) = ⟨n + 1, by omega⟩ := e 2 _
  have e3 : (Fin.rev ⟨n + 3, by omega⟩ : Fin (n + 4)) = ⟨0, by omega⟩ := by
    rw [e]; apply Fin.ext; simp only; omega
  have e4 : (Fin.rev ⟨n + 2, by omega⟩ : Fin (n + 4)) = ⟨1, by omega⟩ := by
    rw [e]; apply Fin.ext; simp only; omega
  have e5 : (Fin.rev ⟨n + 1, by omega⟩ : Fin (n + 4)) = ⟨2, by omega⟩ := by
    rw [e]; apply Fin.ext; simp only; omega
  have h := i.isLt
  have hr : (i.rev : ℕ) = n + 3 - i := by simp only [Fin.val_rev]; omega
  simp only [e0, e1, e2, e3, e4, e5, mul_neg', div0_neg, neg_neg', hr]
  clear e e0 e1 e2 e3 e4 e5
  split_ifs <;> first | rfl | (exfalso; omega) | exact (neg_neg' _).symm

theorem rev_sub_one {m : ℕ} [NeZero m] (i : Fin m) : (i - 1).rev = i.rev + 1 := by
  rw [Fin.rev_sub]

theorem rev_add_one {m : ℕ} [NeZero m] (i : Fin m) : (i + 1).rev = i.rev - 1 := by
  rw [Fin.rev_add]

theorem sub_eq' (x y : XF K) : x - y = x + -y := rfl

theorem ktCore_rev (dt dx : K) (C : Fin (n + 4) → K) (V : Fin (n + 4) → XF K) (i : Fin (n + 4)) :
    ktCore dt dx (fun k => C k.rev) (fun k => -V k.rev) i = ktCore dt dx C V i.rev := by
  have hx : ∀ i : Fin (n + 4), limiter ((C i.rev - C (i - 1).rev) / dx) ((C (i + 1).rev - C i.rev) / dx) =
      -limiter ((C i.rev - C (i.rev - 1)) / dx) ((C (i.rev + 1) - C i.rev) / dx) := by
    intro i
    rw [rev_sub_one, rev_add_one]
    unfold limiter
    rw [← superbee_neg, superbee_comm]
    congr 1 <;> ring
  unfold ktCore
  dsimp only
  rw [hx i, hx (i - 1), hx (i + 1), rev_sub_one, rev_add_one]
  generalize i.rev = i
  generalize limiter ((C i - C (i - 1)) / dx) ((C (i + 1) - C i) / dx) = l1
  generalize limiter ((C (i - 1) - C (i - 1 - 1)) / dx) ((C (i - 1 + 1) - C (i - 1)) / dx) = l0
  generalize limiter ((C (i + 1) - C (i + 1 - 1)) / dx) ((C (i + 1 + 1) - C (i + 1)) / dx) = l2
  rw [neg_abs', neg_abs', neg_abs', ← neg_add', ← neg_add', neg_div', neg_div', neg_mul', neg_mul']
  generalize ((V i).abs.max (V (i - 1)).abs) = ap
  generalize ((V i).abs.max (V (i + 1)).abs) = am
  generalize ((V i + V (i - 1)) / XF.fin 2) = vp
  generalize ((V i + V (i + 1)) / XF.fin 2) = vm
  have a1 : C (i + 1) - -l2 * dx / 2 + (C i + -l1 * dx / 2) = C i - l1 * dx / 2 + (C (i + 1) + l2 * dx / 2) := by ring
  have a2 : C i - -l1 * dx / 2 + (C (i - 1) + -l0 * dx / 2) = C (i - 1) - l0 * dx / 2 + (C i + l1 * dx / 2) := by ring
  have a3 : C (i + 1) - -l2 * dx / 2 - (C i + -l1 * dx / 2) = -(C i - l1 * dx / 2 - (C (i + 1) + l2 * dx / 2)) := by ring
  have a4 : C i - -l1 * dx / 2 - (C (i - 1) + -l0 * dx / 2) = -(C (i - 1) - l0 * dx / 2 - (C i + l1 * dx / 2)) := by ring
  rw [a1, a2, a3, a4, fin_neg, fin_neg, mul_neg', mul_neg']
  generalize vm * XF.fin (C i - l1 * dx / 2 + (C (i + 1) + l2 * dx / 2)) = B
  generalize vp * XF.fin (C (i - 1) - l0 * dx / 2 + (C i + l1 * dx / 2)) = A
  generalize am * XF.fin (C i - l1 * dx / 2 - (C (i + 1) + l2 * dx / 2)) = D
  generalize ap * XF.fin (C (i - 1) - l0 * dx / 2 - (C i + l1 * dx / 2)) = E
  simp only [sub_eq', neg_neg']
  have : -B + A + -D + E = A + -B + E + -D := by
    rw [add_comm (G := XF K) (-B) A, add_assoc (G := XF K) (A + -B), add_comm (G := XF K) (-D) E,
      ← add_assoc (G := XF K)]
  rw [this]

/-- The scheme along the reversed line, with the reversed gradient. -/
theorem ktLine_rev [NeZero n] (cyc : Bool) (c dt dx : K) (s : Fin ns → K)
    (phi : Fin n → Fin ns → K) (g : Fin n → K) (bnd : Fin n → Bool) (j : Fin ns) (k : Fin n) :
    ktLine cyc c dt dx s (fun i => phi i.rev) (fun i => -g i.rev) (fun i => bnd i.rev) j k =
      ktLine cyc c dt dx s phi g bnd j k.rev := by
  have hn := NeZero.pos n
  have hC : (padKT fun i : Fin n => phi i.rev j) = fun i => padKT (fun i => phi i j) i.rev :=
    funext fun i => padKT_rev (fun i => phi i j) i
  have hV : (fun i => ktFlux c s (padKT (fun i : Fin n => phi i.rev) i) j
      ((if cyc then padCyc fun i : Fin n => -g i.rev else padKT fun i : Fin n => -g i.rev) i)
      (padKT (fun i : Fin n => bnd i.rev) i)) =
      fun i => -ktFlux c s (padKT phi i.rev) j ((if cyc then padCyc g else padKT g) i.rev)
        (padKT bnd i.rev) := by
    funext i
    rw [← ktFlux_neg, padKT_rev, padKT_rev]
    congr 1
    cases cyc
    · exact padKT_rev (fun k => -g k) i
    · exact (padCyc_rev (fun k => -g k) i).trans (padCyc_comp (fun x => -x) g i.rev)
  unfold ktLine
  dsimp only
  rw [hC, hV]
  have hB := funext fun i => ktBC_rev hn (padKT fun i => phi i j)
    (fun i => ktFlux c s (padKT phi i) j ((if cyc then padCyc g else padKT g) i) (padKT bnd i)) i
  rw [hB, ktCore_rev]
  congr 1
  apply Fin.ext
  simp only [Fin.val_rev]
  omega

end
end Mpm

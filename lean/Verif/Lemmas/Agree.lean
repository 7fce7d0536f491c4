import Verif.Lemmas.Index
import Verif.Lemmas.Equiv

/-! Two runs of the same loops side by side. -/

set_option linter.unusedSectionVars false

namespace Mpm

/-- The same exception, or two results that are related. -/
def Agree {α β : Type} (R : α → β → Prop) : Res α → Res β → Prop
  | .ok a, .ok b => R a b
  | .error e, .error e' => e' = e
  | _, _ => False

section
variable {α β γ δ σ τ : Type}

theorem Agree.bind {R : α → β → Prop} {S : γ → δ → Prop} {x : Res α} {y : Res β} {k : α → Res γ}
    {l : β → Res δ} (h : Agree R x y) (hk : ∀ a b, R a b → Agree S (k a) (l b)) :
    Agree S (x >>= k) (y >>= l) := by
  cases x with
  | error e =>
    cases y with
    | error e' => exact h
    | ok b => exact h.elim
  | ok a =>
    cases y with
    | error e' => exact h.elim
    | ok b => exact hk a b h

theorem Agree.refl {R : α → α → Prop} (h : ∀ a, R a a) (x : Res α) : Agree R x x := by
  cases x with
  | error e => rfl
  | ok a => exact h a

theorem Agree.of_eq {R : α → α → Prop} (h : ∀ a, R a a) {x y : Res α} (e : y = x) : Agree R x y :=
  e ▸ Agree.refl h x

theorem Agree.eq {x y : Res α} (h : Agree (fun a b => b = a) x y) : y = x := by
  cases x with
  | error e =>
    cases y with
    | error e' => exact congrArg _ h
    | ok b => exact h.elim
  | ok a =>
    cases y with
    | error e' => exact h.elim
    | ok b => exact congrArg _ h

theorem Agree.imp {R S : α → β → Prop} {x : Res α} {y : Res β} (h : Agree R x y)
    (hRS : ∀ a b, R a b → S a b) : Agree S x y := by
  cases x with
  | error e =>
    cases y with
    | error e' => exact h
    | ok b => exact h.elim
  | ok a =>
    cases y with
    | error e' => exact h.elim
    | ok b => exact hRS a b h

theorem Agree.ite {R : α → β → Prop} {c : Prop} [Decidable c] {x x' : Res α} {y y' : Res β}
    (h : c → Agree R x y) (h' : ¬ c → Agree R x' y') :
    Agree R (if c then x else x') (if c then y else y') := by
  split
  · exact h ‹_›
  · exact h' ‹_›

theorem for4_agree {R : σ → τ → Prop} {f : Fin 4 → σ → Res σ} {g : Fin 4 → τ → Res τ}
    (h : ∀ r s t, R s t → Agree R (f r s) (g r t)) {s : σ} {t : τ} (hs : R s t) :
    Agree R (for4 f s) (for4 g t) := by
  unfold for4
  exact (h _ _ _ hs).bind fun _ _ h1 => (h _ _ _ h1).bind fun _ _ h2 =>
    (h _ _ _ h2).bind fun _ _ h3 => h _ _ _ h3

theorem mapN_agree {R : α → β → Prop} {S : α → β → Prop} {f : α → Res α} {g : β → Res β}
    (h : ∀ a b, R a b → Agree S (f a) (g b)) {n : ℕ} {l : List α} {l' : List β} (hn : n = l.length)
    (hl : List.Forall₂ R l l') : Agree (List.Forall₂ S) (mapN f n l) (mapN g n l') := by
  subst hn
  induction hl with
  | nil => exact .nil
  | cons ha hl ih => exact (h _ _ ha).bind fun _ _ h1 => ih.bind fun _ _ h2 => .cons h1 h2

theorem foldN_agree {R : α → β → Prop} {f : α → σ → Res σ} {g : β → σ → Res σ}
    (h : ∀ a b s, R a b → g b s = f a s) (n : ℕ) {l : List α} {l' : List β}
    (hl : List.Forall₂ R l l') (s : σ) : foldN g n l' s = foldN f n l s := by
  induction hl generalizing n s with
  | nil => cases n <;> rfl
  | cons ha hl ih =>
    cases n with
    | zero => rfl
    | succ n =>
      unfold foldN
      rw [h _ _ _ ha]
      exact bind_congr fun s' => ih n s'

theorem forN_agree {R S : α → β → Prop} {f : α → σ → Res (α × σ)} {g : β → σ → Res (β × σ)}
    (h : ∀ a b s, R a b → Agree (fun x y => S x.1 y.1 ∧ y.2 = x.2) (f a s) (g b s)) {n : ℕ}
    {l : List α} {l' : List β} (hn : n = l.length) (hl : List.Forall₂ R l l') (s : σ) :
    Agree (fun x y => List.Forall₂ S x.1 y.1 ∧ y.2 = x.2) (forN f n l s) (forN g n l' s) := by
  subst hn
  induction hl generalizing s with
  | nil => exact ⟨.nil, rfl⟩
  | cons ha hl ih =>
    unfold forN
    refine (h _ _ s ha).bind fun x y h1 => ?_
    obtain ⟨x, u⟩ := x
    obtain ⟨y, v⟩ := y
    obtain ⟨h1, rfl : v = u⟩ := h1
    refine (ih v).bind fun x' y' h2 => ?_
    obtain ⟨x', u'⟩ := x'
    obtain ⟨y', v'⟩ := y'
    obtain ⟨h2, rfl : v' = u'⟩ := h2
    exact ⟨.cons h1 h2, rfl⟩

end

section
variable {K : Type} {ns : ℕ} {σ : Type}

theorem IdxRel.tail {α β : Type} {R : ℕ → α → β → Prop} {a : α} {b : β} {l : List α} {l' : List β}
    (h : IdxRel R (a :: l) (b :: l')) : R 0 a b ∧ IdxRel (fun i => R (i + 1)) l l' :=
  ⟨h.2 0 a b rfl rfl, by simpa using h.1, fun i c d hc hd =>
    h.2 (i + 1) c d (by simpa using hc) (by simpa using hd)⟩

theorem mapPhases_agree {R : ℕ → PhaseSt K ns → PhaseSt K ns → Prop}
    {S : PhaseSt K ns → PhaseSt K ns → Prop} {f g : ℕ → PhaseSt K ns → Res (PhaseSt K ns)}
    (h : ∀ p A B, R p A B → Agree S (f p A) (g p B)) (p : ℕ) {L L' : List (PhaseSt K ns)}
    (hL : IdxRel (fun i => R (p + i)) L L') :
    Agree (List.Forall₂ S) (mapPhases f p L) (mapPhases g p L') := by
  induction L generalizing p L' with
  | nil =>
    cases L' with
    | nil => exact .nil
    | cons _ _ => have := hL.1; simp at this
  | cons A L ih =>
    cases L' with
    | nil => have := hL.1; simp at this
    | cons B L' =>
      obtain ⟨h1, h2⟩ := hL.tail
      exact (h p A B h1).bind fun _ _ k1 => (ih (p + 1) (h2.imp fun i a b k => by
        rwa [show p + 1 + i = p + (i + 1) by omega])).bind fun _ _ k2 => .cons k1 k2

theorem foldPhases_agree {R : PhaseSt K ns → PhaseSt K ns → Prop} {f g : PhaseSt K ns → σ → Res σ}
    (h : ∀ A B s, R A B → g B s = f A s) {L L' : List (PhaseSt K ns)}
    (hL : List.Forall₂ R L L') (s : σ) : foldPhases g L' s = foldPhases f L s := by
  induction hL generalizing s with
  | nil => rfl
  | cons ha hl ih =>
    unfold foldPhases
    rw [h _ _ _ ha]
    exact bind_congr fun s' => ih s'

theorem forPhases_agree {R S : PhaseSt K ns → PhaseSt K ns → Prop}
    {f g : ℕ → PhaseSt K ns → σ → Res (PhaseSt K ns × σ)}
    (h : ∀ p A B s, R A B → Agree (fun x y => S x.1 y.1 ∧ y.2 = x.2) (f p A s) (g p B s)) (p : ℕ)
    {L L' : List (PhaseSt K ns)} (hL : List.Forall₂ R L L') (s : σ) :
    Agree (fun x y => List.Forall₂ S x.1 y.1 ∧ y.2 = x.2) (forPhases f p L s)
      (forPhases g p L' s) := by
  induction hL generalizing p s with
  | nil => exact ⟨.nil, rfl⟩
  | cons ha hl ih =>
    unfold forPhases
    refine (h p _ _ s ha).bind fun x y h1 => ?_
    obtain ⟨x, u⟩ := x
    obtain ⟨y, v⟩ := y
    obtain ⟨h1, rfl : v = u⟩ := h1
    refine (ih (p + 1) v).bind fun x' y' h2 => ?_
    obtain ⟨x', u'⟩ := x'
    obtain ⟨y', v'⟩ := y'
    obtain ⟨h2, rfl : v' = u'⟩ := h2
    exact ⟨.cons h1 h2, rfl⟩

theorem whenSet_agree {α : Type} {R : α → α → Prop} {c : Bool} {f : α → Res α}
    (h : ∀ a b, R a b → Agree R (f a) (f b)) {a b : α} (hab : R a b) :
    Agree R (whenSet c f a) (whenSet c f b) := by
  unfold whenSet
  exact Agree.ite (fun _ => h a b hab) fun _ => hab

theorem eraseIdx_forall₂ {α β : Type} {R : α → β → Prop} {l : List α} {l' : List β}
    (h : List.Forall₂ R l l') (i : ℕ) : List.Forall₂ R (l.eraseIdx i) (l'.eraseIdx i) := by
  induction h generalizing i with
  | nil => exact .nil
  | cons ha hl ih =>
    cases i with
    | zero => exact hl
    | succ i => exact .cons ha (ih i)

theorem outletLoop_agree {α β : Type} {R : α → β → Prop} {t : α → Bool} {u : β → Bool}
    (h : ∀ a b, R a b → u b = t a) (i n : ℕ) {l : List α} {l' : List β}
    (hl : List.Forall₂ R l l') :
    Agree (fun x y => y.1 = x.1 ∧ List.Forall₂ R x.2 y.2) (outletLoop t i (n, l))
      (outletLoop u i (n, l')) := by
  induction i generalizing n l l' with
  | zero => exact ⟨rfl, hl⟩
  | succ i ih =>
    unfold outletLoop
    rcases Nat.lt_or_ge i l.length with hi | hi
    · have hi' : i < l'.length := hl.length_eq ▸ hi
      rw [List.getElem?_eq_getElem hi, List.getElem?_eq_getElem hi']
      have := h _ _ (List.forall₂_iff_get.1 hl |>.2 i hi hi')
      simp only [List.get_eq_getElem] at this
      simp only [this]
      exact Agree.ite (fun _ => ih _ (eraseIdx_forall₂ hl i)) fun _ => ih _ hl
    · rw [List.getElem?_eq_none hi, List.getElem?_eq_none (hl.length_eq ▸ hi)]
      rfl

end
end Mpm

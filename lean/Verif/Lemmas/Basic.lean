import Verif.Model.Main
import Mathlib.Tactic.Ring
import Mathlib.Tactic.FieldSimp
import Mathlib.Tactic.Linarith
import Mathlib.Algebra.BigOperators.Ring.Finset
import Mathlib.Algebra.BigOperators.Group.Finset.Piecewise

/-! Helper lemmas on `Res` computations and on the loops of the model. -/

namespace Mpm

section res
variable {α β σ : Type}

theorem res_bind_ok {x : Res α} {f : α → Res β} {b : β} :
    (x >>= f) = .ok b ↔ ∃ a, x = .ok a ∧ f a = .ok b := by
  cases x with
  | error e =>
    constructor
    · intro h; exact absurd h (by intro h; cases h)
    · rintro ⟨a, h, _⟩; cases h
  | ok a =>
    constructor
    · intro h; exact ⟨a, rfl, h⟩
    · rintro ⟨a', h, h'⟩; cases h; exact h'

@[simp] theorem res_ok_bind {f : α → Res β} {a : α} : ((Except.ok a : Res α) >>= f) = f a := rfl
@[simp] theorem res_error_bind {f : α → Res β} {e : Err} :
    ((Except.error e : Res α) >>= f) = Except.error e := rfl
@[simp] theorem res_pure {a : α} : (pure a : Res α) = Except.ok a := rfl

theorem res_bind_pure_ok {x : Res α} {g : α → β} {b : β} :
    (x >>= fun a => Except.ok (g a)) = .ok b ↔ ∃ a, x = .ok a ∧ g a = b := by
  rw [res_bind_ok]; simp

theorem for4_ok {f : Fin 4 → σ → Res σ} {s s' : σ} :
    for4 f s = .ok s' ↔ ∃ s1 s2 s3, f 0 s = .ok s1 ∧ f 1 s1 = .ok s2 ∧ f 2 s2 = .ok s3 ∧
      f 3 s3 = .ok s' := by
  unfold for4
  constructor
  · intro h
    obtain ⟨s1, h1, h⟩ := res_bind_ok.1 h
    obtain ⟨s2, h2, h⟩ := res_bind_ok.1 h
    obtain ⟨s3, h3, h⟩ := res_bind_ok.1 h
    exact ⟨s1, s2, s3, h1, h2, h3, h⟩
  · rintro ⟨s1, s2, s3, h1, h2, h3, h4⟩
    simp [h1, h2, h3, h4]

/-- A property preserved by every pass holds at the end of a four-node loop. -/
theorem for4_inv {f : Fin 4 → σ → Res σ} (p : σ → Prop)
    (hf : ∀ r s s', p s → f r s = .ok s' → p s') {s s' : σ} (h0 : p s)
    (h : for4 f s = .ok s') : p s' := by
  obtain ⟨s1, s2, s3, h1, h2, h3, h4⟩ := for4_ok.1 h
  exact hf _ _ _ (hf _ _ _ (hf _ _ _ (hf _ _ _ h0 h1) h2) h3) h4

end res

section loops
variable {α σ : Type}

theorem mapN_zero (f : α → Res α) (l : List α) : mapN f 0 l = .ok l := by
  cases l <;> rfl

theorem mapN_cons_ok {f : α → Res α} {n : ℕ} {a : α} {l l' : List α} :
    mapN f (n + 1) (a :: l) = .ok l' ↔
      ∃ a' t, f a = .ok a' ∧ mapN f n l = .ok t ∧ l' = a' :: t := by
  constructor
  · intro h
    obtain ⟨a', h1, h⟩ := res_bind_ok.1 h
    obtain ⟨t, h2, h⟩ := res_bind_ok.1 h
    simp at h
    exact ⟨a', t, h1, h2, h.symm⟩
  · rintro ⟨a', t, h1, h2, rfl⟩
    simp [mapN, h1, h2]

theorem foldN_zero (f : α → σ → Res σ) (l : List α) (s : σ) : foldN f 0 l s = .ok s := by
  cases l <;> rfl

theorem foldN_cons_ok {f : α → σ → Res σ} {n : ℕ} {a : α} {l : List α} {s s' : σ} :
    foldN f (n + 1) (a :: l) s = .ok s' ↔ ∃ s1, f a s = .ok s1 ∧ foldN f n l s1 = .ok s' := by
  constructor
  · intro h; exact res_bind_ok.1 h
  · rintro ⟨s1, h1, h2⟩; simp [foldN, h1, h2]

theorem forN_zero (f : α → σ → Res (α × σ)) (l : List α) (s : σ) : forN f 0 l s = .ok (l, s) := by
  cases l <;> rfl

theorem forN_cons_ok {f : α → σ → Res (α × σ)} {n : ℕ} {a : α} {l l' : List α} {s s' : σ} :
    forN f (n + 1) (a :: l) s = .ok (l', s') ↔
      ∃ a' s1 t, f a s = .ok (a', s1) ∧ forN f n l s1 = .ok (t, s') ∧ l' = a' :: t := by
  constructor
  · intro h
    obtain ⟨⟨a', s1⟩, h1, h⟩ := res_bind_ok.1 h
    obtain ⟨⟨t, s2⟩, h2, h⟩ := res_bind_ok.1 h
    simp at h
    obtain ⟨rfl, rfl⟩ := h
    exact ⟨a', s1, t, h1, h2, rfl⟩
  · rintro ⟨a', s1, t, h1, h2, rfl⟩
    simp [forN, h1, h2]

/-- A `mapN` over the whole list relates old and new entries one by one. -/
theorem mapN_forall₂ {f : α → Res α} {n : ℕ} {l l' : List α} (hn : n = l.length)
    (h : mapN f n l = .ok l') : List.Forall₂ (fun a a' => f a = .ok a') l l' := by
  induction l generalizing n l' with
  | nil =>
    subst hn; simp [mapN] at h; subst h; exact .nil
  | cons a l ih =>
    subst hn
    obtain ⟨a', t, h1, h2, rfl⟩ := mapN_cons_ok.1 h
    exact .cons h1 (ih rfl h2)

/-- And conversely. -/
theorem mapN_of_forall₂ {f : α → Res α} {n : ℕ} {l l' : List α} (hn : n = l.length)
    (h : List.Forall₂ (fun a a' => f a = .ok a') l l') : mapN f n l = .ok l' := by
  induction h generalizing n with
  | nil => subst hn; rfl
  | cons h1 _ ih => subst hn; exact mapN_cons_ok.2 ⟨_, _, h1, ih rfl, rfl⟩

/-- Without a hypothesis on the count, the points that are looped over are `l.take n`. -/
theorem mapN_take {f : α → Res α} {n : ℕ} {l l' : List α} (h : mapN f n l = .ok l') :
    n ≤ l.length ∧ List.Forall₂ (fun a a' => f a = .ok a') (l.take n) (l'.take n) ∧
      l'.drop n = l.drop n := by
  induction n generalizing l l' with
  | zero => rw [mapN_zero] at h; cases h; simp
  | succ n ih =>
    cases l with
    | nil => simp [mapN] at h
    | cons a l =>
      obtain ⟨a', t, h1, h2, rfl⟩ := mapN_cons_ok.1 h
      obtain ⟨h3, h4, h5⟩ := ih h2
      exact ⟨by simpa using h3, by simpa using And.intro h1 h4, by simpa using h5⟩

theorem mapN_length {f : α → Res α} {n : ℕ} {l l' : List α} (h : mapN f n l = .ok l') :
    l'.length = l.length := by
  obtain ⟨h1, h2, h3⟩ := mapN_take h
  have e1 := h2.length_eq
  have e2 := congrArg List.length h3
  simp at e1 e2
  omega

theorem forN_length {f : α → σ → Res (α × σ)} {n : ℕ} {l l' : List α} {s s' : σ}
    (h : forN f n l s = .ok (l', s')) : l'.length = l.length := by
  induction n generalizing l l' s with
  | zero => rw [forN_zero] at h; cases h; rfl
  | succ n ih =>
    cases l with
    | nil => simp [forN] at h
    | cons a l =>
      obtain ⟨a', s1, t, h1, h2, rfl⟩ := forN_cons_ok.1 h
      simp [ih h2]

end loops

end Mpm

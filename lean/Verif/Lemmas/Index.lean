import Verif.Lemmas.Points

/-! Loops over the phases, remembering the phase number. -/

set_option linter.unusedSectionVars false

namespace Mpm
open Spec

/-- Two lists of the same length whose entries are related, number by number. -/
def IdxRel {α β : Type} (R : ℕ → α → β → Prop) (l : List α) (l' : List β) : Prop :=
  l.length = l'.length ∧ ∀ i a b, l[i]? = some a → l'[i]? = some b → R i a b

section
variable {α β γ : Type}

theorem IdxRel.nil {R : ℕ → α → β → Prop} : IdxRel R [] [] := ⟨rfl, by simp⟩

theorem IdxRel.cons {R : ℕ → α → β → Prop} {a : α} {b : β} {l : List α} {l' : List β}
    (h : R 0 a b) (t : IdxRel (fun i => R (i + 1)) l l') : IdxRel R (a :: l) (b :: l') := by
  refine ⟨by simp [t.1], ?_⟩
  intro i c d hc hd
  cases i with
  | zero =>
    simp only [List.getElem?_cons_zero, Option.some.injEq] at hc hd
    subst hc; subst hd; exact h
  | succ i =>
    simp only [List.getElem?_cons_succ] at hc hd
    exact t.2 i c d hc hd

theorem IdxRel.imp {R S : ℕ → α → β → Prop} {l : List α} {l' : List β}
    (hRS : ∀ i a b, R i a b → S i a b) (h : IdxRel R l l') : IdxRel S l l' :=
  ⟨h.1, fun i a b ha hb => hRS i a b (h.2 i a b ha hb)⟩

theorem IdxRel.of_forall₂ {R : α → β → Prop} {l : List α} {l' : List β}
    (h : List.Forall₂ R l l') : IdxRel (fun _ => R) l l' := by
  induction h with
  | nil => exact .nil
  | cons h _ ih => exact .cons h ih

theorem IdxRel.forall₂ {R : ℕ → α → β → Prop} {S : α → β → Prop} {l : List α} {l' : List β}
    (h : IdxRel R l l') (hRS : ∀ i a b, R i a b → S a b) : List.Forall₂ S l l' := by
  induction l generalizing l' R with
  | nil =>
    have := h.1
    cases l' with
    | nil => exact .nil
    | cons _ _ => simp at this
  | cons a l ih =>
    cases l' with
    | nil => have := h.1; simp at this
    | cons b l' =>
      refine .cons (hRS 0 a b (h.2 0 a b rfl rfl)) (ih (R := fun i => R (i + 1)) ?_ ?_)
      · exact ⟨by simpa using h.1, fun i c d hc hd => h.2 (i + 1) c d (by simpa using hc)
          (by simpa using hd)⟩
      · intro i; exact hRS (i + 1)

theorem IdxRel.comp {R : ℕ → α → β → Prop} {S : ℕ → β → γ → Prop} {l : List α} {l' : List β}
    {l'' : List γ} (h : IdxRel R l l') (h' : IdxRel S l' l'') :
    IdxRel (fun i a c => ∃ b, R i a b ∧ S i b c) l l'' := by
  refine ⟨h.1.trans h'.1, ?_⟩
  intro i a c ha hc
  have hi : i < l'.length := by
    rw [← h.1]
    exact (List.getElem?_eq_some_iff.1 ha).1
  exact ⟨l'[i], h.2 i a _ ha (List.getElem?_eq_getElem hi),
    h'.2 i _ c (List.getElem?_eq_getElem hi) hc⟩

theorem IdxRel.and_left {R : ℕ → α → β → Prop} {p : α → Prop} {l : List α} {l' : List β}
    (h : IdxRel R l l') (hp : ∀ a ∈ l, p a) : IdxRel (fun i a b => p a ∧ R i a b) l l' :=
  ⟨h.1, fun i a b ha hb => ⟨hp a (List.mem_of_getElem? ha), h.2 i a b ha hb⟩⟩

theorem IdxRel.and_right {R : ℕ → α → β → Prop} {p : β → Prop} {l : List α} {l' : List β}
    (h : IdxRel R l l') (hp : ∀ a ∈ l', p a) : IdxRel (fun i a b => p b ∧ R i a b) l l' :=
  ⟨h.1, fun i a b ha hb => ⟨hp b (List.mem_of_getElem? hb), h.2 i a b ha hb⟩⟩

/-- The partner of an entry. -/
theorem IdxRel.left {R : ℕ → α → β → Prop} {l : List α} {l' : List β} (h : IdxRel R l l') {i : ℕ}
    {b : β} (hb : l'[i]? = some b) : ∃ a, l[i]? = some a ∧ R i a b := by
  have hi : i < l.length := by
    rw [h.1]
    exact (List.getElem?_eq_some_iff.1 hb).1
  exact ⟨l[i], List.getElem?_eq_getElem hi, h.2 i _ b (List.getElem?_eq_getElem hi) hb⟩

theorem IdxRel.right {R : ℕ → α → β → Prop} {l : List α} {l' : List β} (h : IdxRel R l l') {i : ℕ}
    {a : α} (ha : l[i]? = some a) : ∃ b, l'[i]? = some b ∧ R i a b := by
  have hi : i < l'.length := by
    rw [← h.1]
    exact (List.getElem?_eq_some_iff.1 ha).1
  exact ⟨l'[i], List.getElem?_eq_getElem hi, h.2 i a _ ha (List.getElem?_eq_getElem hi)⟩

end

section
variable {K : Type} [Field K] [LinearOrder K] {ns N : ℕ}

theorem mapPhases_idx {f : ℕ → PhaseSt K ns → Res (PhaseSt K ns)} {L L' : List (PhaseSt K ns)}
    {p0 : ℕ} (h : mapPhases f p0 L = .ok L') :
    IdxRel (fun i a a' => f (p0 + i) a = .ok a') L L' := by
  induction L generalizing L' p0 with
  | nil => cases h; exact .nil
  | cons a L ih =>
    obtain ⟨a', T, h1, h2, rfl⟩ := mapPhases_cons_ok.1 h
    refine .cons h1 ((ih h2).imp ?_)
    intro i a b h
    rw [show p0 + (i + 1) = p0 + 1 + i by omega]
    exact h

theorem forPhases_idx {σ : Type} {f : ℕ → PhaseSt K ns → σ → Res (PhaseSt K ns × σ)}
    {L L' : List (PhaseSt K ns)} {p0 : ℕ} {s s' : σ} (h : forPhases f p0 L s = .ok (L', s')) :
    IdxRel (fun i a a' => ∃ s s', f (p0 + i) a s = .ok (a', s')) L L' := by
  induction L generalizing L' p0 s with
  | nil => cases h; exact .nil
  | cons a L ih =>
    obtain ⟨a', s1, T, h1, h2, rfl⟩ := forPhases_cons_ok.1 h
    refine .cons ⟨_, _, h1⟩ ((ih h2).imp ?_)
    intro i a b h
    rw [show p0 + (i + 1) = p0 + 1 + i by omega]
    exact h

/-- Phases unchanged, points related one by one, given the phase number. -/
def PtsIdx (R : ℕ → Phase K ns → Particle K ns → Particle K ns → Prop)
    (L L' : List (PhaseSt K ns)) : Prop :=
  IdxRel (fun p a a' => a'.ph = a.ph ∧ List.Forall₂ (R p a.ph) a.pts a'.pts) L L'

theorem PtsIdx.comp {R S : ℕ → Phase K ns → Particle K ns → Particle K ns → Prop}
    {L L' L'' : List (PhaseSt K ns)} (h1 : PtsIdx R L L') (h2 : PtsIdx S L' L'') :
    PtsIdx (fun p ph a c => ∃ b, R p ph a b ∧ S p ph b c) L L'' := by
  refine (IdxRel.comp h1 h2).imp ?_
  rintro p a c ⟨b, ⟨e1, r1⟩, ⟨e2, r2⟩⟩
  refine ⟨e2.trans e1, ?_⟩
  rw [e1] at r2
  exact forall₂_comp r1 r2

theorem PtsIdx.rel {R : ℕ → Phase K ns → Particle K ns → Particle K ns → Prop}
    {L L' : List (PhaseSt K ns)} (h : PtsIdx R L L') : PtsRel (fun ph a b => ∃ p, R p ph a b) L L' :=
  IdxRel.forall₂ h fun p _ _ h => ⟨h.1, h.2.imp fun _ _ h => ⟨p, h⟩⟩

theorem PtsRel.idx {R : Phase K ns → Particle K ns → Particle K ns → Prop}
    {L L' : List (PhaseSt K ns)} (h : PtsRel R L L') : PtsIdx (fun _ => R) L L' :=
  IdxRel.of_forall₂ h

theorem PtsIdx.counted {R : ℕ → Phase K ns → Particle K ns → Particle K ns → Prop}
    {L L' : List (PhaseSt K ns)} (h : PtsIdx R L L') (hL : Counted L) : Counted L' :=
  h.rel.counted hL

theorem mapPoints_idx {f : ℕ → Phase K ns → Particle K ns → Res (Particle K ns)}
    {L L' : List (PhaseSt K ns)} (hL : Counted L) (h : mapPoints f L = .ok L') :
    PtsIdx (fun p ph a b => f p ph a = .ok b) L L' := by
  refine ((mapPhases_idx h).and_left hL).imp ?_
  rintro p a a' ⟨hn, h⟩
  obtain ⟨pts, h1, h2⟩ := res_bind_ok.1 h
  cases h2
  rw [Nat.zero_add] at h1
  exact ⟨rfl, mapN_forall₂ hn h1⟩

theorem updateStressStrain_idx {nx ny : ℕ} {P : Par K} {d : Dyn K} {s : Fin ns → K}
    {L L' : List (PhaseSt K ns)} {G G' : Grid K (ny * nx) ns} (hL : Counted L)
    (h : updateStressStrain P d s L G = .ok (L', G')) :
    PtsIdx (fun p ph a b => ∃ vis vis', a.stressStrain nx P.M_tol G ph.law
      (lawCtx P d s ((mat0 L).getD ph.par) p ph) vis = .ok (b, vis')) L L' := by
  unfold updateStressStrain at h
  obtain ⟨⟨L1, vis⟩, h1, h⟩ := res_bind_ok.1 h
  cases h
  refine ((forPhases_idx h1).and_left hL).imp ?_
  rintro p a a' ⟨hn, vis, vis', h2⟩
  obtain ⟨⟨pts, v⟩, h3, h2⟩ := res_bind_ok.1 h2
  cases h2
  refine ⟨rfl, ?_⟩
  rw [hn, Nat.zero_add] at h3
  exact forN_forall₂ (fun _ _ _ _ h => ⟨_, _, h⟩) h3

end
end Mpm

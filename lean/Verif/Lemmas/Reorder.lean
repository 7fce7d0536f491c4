import Verif.Lemmas.Equiv
import Verif.Lemmas.Fields
import Verif.Lemmas.Track
import Verif.Props.Transfer

/-! Loops over points stored in another order. -/

set_option linter.unusedSectionVars false

namespace Mpm
open Spec

/-- `mapN` over a rearranged list gives the rearranged results. -/
theorem mapN_perm {α : Type} {f : α → Res α} {l l' r : List α} (hp : l.Perm l')
    (h : mapN f l.length l = .ok r) : ∃ r', mapN f l'.length l' = .ok r' ∧ r.Perm r' := by
  have h1 := mapN_forall₂ rfl h
  obtain ⟨r', h2, h3⟩ := List.perm_comp_forall₂ hp.symm h1
  exact ⟨r', mapN_of_forall₂ rfl h2, h3.symm⟩

/-- A loop whose body adds to an accumulator whatever the accumulator is. -/
theorem forN_perm {α σ : Type} [AddCommMonoid σ] {f : α → σ → Res (α × σ)}
    (hf : ∀ a s t, f a (s + t) = Prod.map id (· + t) <$> f a s) {l l' r : List α} (hp : l.Perm l')
    {s s' : σ} (h : forN f l.length l s = .ok (r, s')) :
    ∃ r', forN f l'.length l' s = .ok (r', s') ∧ r.Perm r' := by
  induction hp generalizing r s s' with
  | nil => exact ⟨r, h, .refl _⟩
  | cons a _ ih =>
    obtain ⟨a', s1, t, h1, h2, rfl⟩ := forN_cons_ok.1 h
    obtain ⟨r', h3, h4⟩ := ih h2
    exact ⟨a' :: r', forN_cons_ok.2 ⟨a', s1, r', h1, h3, rfl⟩, h4.cons _⟩
  | swap b a l =>
    obtain ⟨a', s1, t, h1, h2, rfl⟩ := forN_cons_ok.1 h
    obtain ⟨b', s2, t', h3, h4, rfl⟩ := forN_cons_ok.1 h2
    have e1 : ∀ t, f a t = Prod.map id (· + t) <$> f a 0 := fun t => by
      rw [← hf, zero_add]
    have e2 : ∀ t, f b t = Prod.map id (· + t) <$> f b 0 := fun t => by
      rw [← hf, zero_add]
    rw [e1] at h1
    cases ea : f a 0 with
    | error e => rw [ea] at h1; cases h1
    | ok x =>
      cases eb : f b 0 with
      | error e => rw [e2, eb] at h3; cases h3
      | ok y =>
        rw [ea] at h1
        rw [e2, eb] at h3
        obtain ⟨rfl, rfl⟩ := Prod.mk.inj (Except.ok.inj h1)
        obtain ⟨rfl, rfl⟩ := Prod.mk.inj (Except.ok.inj h3)
        refine ⟨y.1 :: x.1 :: t', ?_, .swap _ _ _⟩
        refine forN_cons_ok.2 ⟨y.1, y.2 + s, x.1 :: t', by rw [e2, eb]; rfl, ?_, rfl⟩
        refine forN_cons_ok.2 ⟨x.1, x.2 + (y.2 + s), t', by rw [e1, ea]; rfl, ?_, rfl⟩
        rw [show x.2 + (y.2 + s) = y.2 + (x.2 + s) by abel]
        exact h4
  | trans _ _ ih1 ih2 =>
    obtain ⟨r1, h1, p1⟩ := ih1 h
    obtain ⟨r2, h2, p2⟩ := ih2 h1
    exact ⟨r2, h2, p1.trans p2⟩

section
variable {K : Type} [Field K] [LinearOrder K] {ns N : ℕ}

/-- One phase with its points in another order. -/
def SamePts (a a' : PhaseSt K ns) : Prop :=
  a'.ph = a.ph ∧ a.pts.Perm a'.pts ∧ a.ph.n = a.pts.length

theorem SamePts.count {a a' : PhaseSt K ns} (h : SamePts a a') : a'.ph.n = a'.pts.length := by
  rw [h.1, h.2.2, h.2.1.length_eq]

def SameList (L L' : List (PhaseSt K ns)) : Prop := List.Forall₂ SamePts L L'

theorem SameList.reordered {L L' : List (PhaseSt K ns)} (h : SameList L L') : Reordered L L' :=
  h.imp fun _ _ h => ⟨h.1, h.2.1⟩

theorem SameList.counted {L L' : List (PhaseSt K ns)} (h : SameList L L') : Counted L := by
  induction h with
  | nil => intro a ha; cases ha
  | cons h _ ih =>
    intro a ha
    rcases List.mem_cons.1 ha with rfl | ha
    · exact h.2.2
    · exact ih a ha

theorem sameList_of {L L' : List (PhaseSt K ns)} (h : Reordered L L') (hL : Counted L) :
    SameList L L' := by
  induction h with
  | nil => exact .nil
  | cons h _ ih =>
    exact .cons ⟨h.1, h.2, hL _ List.mem_cons_self⟩ (ih fun a ha => hL a (List.mem_cons_of_mem _ ha))

theorem SameList.mat0 {L L' : List (PhaseSt K ns)} (h : SameList L L') : mat0 L' = mat0 L := by
  cases h with
  | nil => rfl
  | cons h _ => simp only [Mpm.mat0, h.1]

theorem SameList.first {L L' : List (PhaseSt K ns)} (h : SameList L L') : first L' = first L := by
  cases h with
  | nil => rfl
  | cons h _ => simp only [Mpm.first, h.1]

theorem mapPhases_same {f : ℕ → PhaseSt K ns → Res (PhaseSt K ns)}
    (hf : ∀ p a a' b, SamePts a a' → f p a = .ok b → ∃ b', f p a' = .ok b' ∧ SamePts b b')
    {L L' M : List (PhaseSt K ns)} (hL : SameList L L') {p : ℕ} (h : mapPhases f p L = .ok M) :
    ∃ M', mapPhases f p L' = .ok M' ∧ SameList M M' := by
  induction hL generalizing p M with
  | nil => exact ⟨M, h, by cases h; exact .nil⟩
  | cons ha _ ih =>
    obtain ⟨b, T, h1, h2, rfl⟩ := mapPhases_cons_ok.1 h
    obtain ⟨b', h3, h4⟩ := hf _ _ _ _ ha h1
    obtain ⟨T', h5, h6⟩ := ih h2
    exact ⟨b' :: T', mapPhases_cons_ok.2 ⟨b', T', h3, h5, rfl⟩, .cons h4 h6⟩

theorem forPhases_same {σ : Type} {f : ℕ → PhaseSt K ns → σ → Res (PhaseSt K ns × σ)}
    (hf : ∀ p a a' s b s', SamePts a a' → f p a s = .ok (b, s') →
      ∃ b', f p a' s = .ok (b', s') ∧ SamePts b b')
    {L L' M : List (PhaseSt K ns)} (hL : SameList L L') {p : ℕ} {s s' : σ}
    (h : forPhases f p L s = .ok (M, s')) :
    ∃ M', forPhases f p L' s = .ok (M', s') ∧ SameList M M' := by
  induction hL generalizing p M s s' with
  | nil =>
    obtain ⟨rfl, rfl⟩ := Prod.mk.inj (Except.ok.inj h)
    exact ⟨_, rfl, .nil⟩
  | cons ha _ ih =>
    obtain ⟨⟨b, s1⟩, h1, h⟩ := res_bind_ok.1 h
    obtain ⟨⟨T, s2⟩, h2, h⟩ := res_bind_ok.1 h
    obtain ⟨rfl, rfl⟩ := Prod.mk.inj (Except.ok.inj h)
    obtain ⟨b', h3, h4⟩ := hf _ _ _ _ _ _ ha h1
    obtain ⟨T', h5, h6⟩ := ih h2
    refine ⟨b' :: T', ?_, .cons h4 h6⟩
    unfold forPhases
    rw [h3]
    change (forPhases f (p + 1) _ s1 >>= _) = _
    rw [h5]
    rfl

theorem mapPoints_same {f : ℕ → Phase K ns → Particle K ns → Res (Particle K ns)}
    {L L' M : List (PhaseSt K ns)} (hL : SameList L L') (h : mapPoints f L = .ok M) :
    ∃ M', mapPoints f L' = .ok M' ∧ SameList M M' := by
  refine mapPhases_same ?_ hL h
  intro p a a' b ha h
  obtain ⟨r, h1, h2⟩ := res_bind_ok.1 h
  cases h2
  rw [ha.2.2] at h1
  obtain ⟨r', h3, h4⟩ := mapN_perm ha.2.1 h1
  refine ⟨{ a' with pts := r' }, ?_, ha.1, h4, ?_⟩
  · rw [ha.count, ha.1, h3]; rfl
  · change a.ph.n = r.length
    rw [ha.2.2, mapN_length h1]

/-! ### The accumulating loops -/

theorem scatterVis_shift (nx : ℕ) (mp : Particle K ns) (l : List (Vis × XF K))
    (vis t : Vis → Fin N → XF K) :
    scatterVis nx mp l (vis + t) = (· + t) <$> scatterVis nx mp l vis := by
  refine for4_equiv (ψ := (· + t)) (fun r vis => ?_) vis
  refine res_bind_id fun n => ?_
  refine congrArg Except.ok ?_
  change _ = List.foldl _ vis l + t
  induction l generalizing vis with
  | nil => rfl
  | cons e l ih =>
    rw [List.foldl_cons, List.foldl_cons, ← ih]
    congr 1
    funext v k
    by_cases hv : v = e.1
    · subst hv
      simp only [Function.update_self, Pi.add_apply, addAt]
      by_cases hk : k = n
      · subst hk
        simp only [Function.update_self]
        exact add_right_comm _ _ _
      · simp only [Function.update_of_ne hk]
        rfl
    · simp [Function.update_of_ne hv]

theorem stressStrain_shift (nx : ℕ) (M_tol : K) (G : Grid K N ns) (law : Law) (c : LawCtx K ns)
    (mp : Particle K ns) (vis t : Vis → Fin N → XF K) :
    mp.stressStrain nx M_tol G law c (vis + t)
      = Prod.map id (· + t) <$> mp.stressStrain nx M_tol G law c vis := by
  refine res_bind_id fun mp => ?_
  refine res_bind_id fun x => ?_
  exact res_bind_map (scatterVis_shift nx x.1 x.2 vis t) fun _ _ => rfl

theorem addVel_shift (d : Vec K) (v : VRef K) (iv t : Vec K) :
    addVel d (v, iv + t) = Prod.map id (· + t) (addVel d (v, iv)) := by
  cases v with
  | own v => rfl
  | shared => exact congrArg (Prod.mk VRef.shared) (add_right_comm _ _ _)

theorem move_shift (nx : ℕ) (M_tol dt : K) (G : Grid K N ns) (mp : Particle K ns) (iv t : Vec K) :
    mp.move nx M_tol dt G (iv + t) = Prod.map id (· + t) <$> mp.move nx M_tol dt G iv := by
  unfold Particle.move
  refine res_bind_map (f := Prod.map id (· + t)) ?_ fun x _ => ?_
  · refine for4_equiv (ψ := Prod.map (id : Particle K ns → Particle K ns) (· + t)) (fun r s => ?_)
      (mp, iv)
    refine res_bind_id fun n => ?_
    refine ite_equiv ?_ rfl
    exact congrArg (fun x : VRef K × Vec K => (Except.ok (({ s.1 with
      x := s.1.x + fun k => dt * s.1.N r * G.q n k / G.m n
      v := x.1 } : Particle K ns), x.2) : Res (Particle K ns × Vec K)))
      (addVel_shift (fun k => dt * s.1.N r * G.q_dot n k / G.m n) s.1.v s.2 t)
  · exact res_bind_id fun _ => rfl

end
end Mpm

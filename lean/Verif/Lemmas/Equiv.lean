import Verif.Model.Main

/-! Loops over transformed points and phases. -/

set_option linter.unusedSectionVars false

namespace Mpm

theorem res_map_ok {α β : Type} (f : α → β) (a : α) : f <$> (.ok a : Res α) = .ok (f a) := rfl
theorem res_map_error {α β : Type} (f : α → β) (e : Err) : f <$> (.error e : Res α) = .error e := rfl

/-- Binding after a transformation. -/
theorem res_bind_map {α β γ δ : Type} {f : α → β} {g : γ → δ} {x : Res α} {x' : Res β}
    {k : α → Res γ} {k' : β → Res δ} (hx : x' = f <$> x)
    (hk : ∀ a, x = .ok a → k' (f a) = g <$> k a) : (x' >>= k') = g <$> (x >>= k) := by
  subst hx
  cases x with
  | error e => rfl
  | ok a => exact hk a rfl

/-- Binding an unchanged value. -/
theorem res_bind_id {α γ δ : Type} {g : γ → δ} {x : Res α} {k : α → Res γ} {k' : α → Res δ}
    (hk : ∀ a, k' a = g <$> k a) : (x >>= k') = g <$> (x >>= k) := by
  cases x with
  | error e => rfl
  | ok a => exact hk a

theorem ite_equiv {γ δ : Type} {g : γ → δ} {c : Prop} [Decidable c] {x y : Res γ} {x' y' : Res δ}
    (hx : x' = g <$> x) (hy : y' = g <$> y) :
    (if c then x' else y') = g <$> (if c then x else y) := by
  split
  · exact hx
  · exact hy

theorem for4_equiv {σ τ : Type} {f : Fin 4 → σ → Res σ} {f' : Fin 4 → τ → Res τ} {ψ : σ → τ}
    (h : ∀ r s, f' r (ψ s) = ψ <$> f r s) (s : σ) : for4 f' (ψ s) = ψ <$> for4 f s := by
  unfold for4
  exact res_bind_map (h _ _) fun _ _ => res_bind_map (h _ _) fun _ _ =>
    res_bind_map (h _ _) fun _ _ => h _ _

theorem mapN_equiv {α β : Type} {f : α → Res α} {f' : β → Res β} {φ : α → β}
    (h : ∀ a, f' (φ a) = φ <$> f a) (n : ℕ) (l : List α) :
    mapN f' n (l.map φ) = List.map φ <$> mapN f n l := by
  induction l generalizing n with
  | nil => cases n <;> rfl
  | cons a l ih =>
    cases n with
    | zero => rfl
    | succ n => exact res_bind_map (h a) fun a' _ => res_bind_map (ih n) fun _ _ => rfl

theorem foldN_equiv {α β σ τ : Type} {f : α → σ → Res σ} {f' : β → τ → Res τ} {φ : α → β}
    {ψ : σ → τ} (h : ∀ a s, f' (φ a) (ψ s) = ψ <$> f a s) (n : ℕ) (l : List α) (s : σ) :
    foldN f' n (l.map φ) (ψ s) = ψ <$> foldN f n l s := by
  induction l generalizing n s with
  | nil => cases n <;> rfl
  | cons a l ih =>
    cases n with
    | zero => rfl
    | succ n => exact res_bind_map (h a s) fun s' _ => ih n s'

theorem forN_equiv {α β σ τ : Type} {f : α → σ → Res (α × σ)} {f' : β → τ → Res (β × τ)}
    {φ : α → β} {ψ : σ → τ} (h : ∀ a s, f' (φ a) (ψ s) = Prod.map φ ψ <$> f a s) (n : ℕ)
    (l : List α) (s : σ) :
    forN f' n (l.map φ) (ψ s) = Prod.map (List.map φ) ψ <$> forN f n l s := by
  induction l generalizing n s with
  | nil => cases n <;> rfl
  | cons a l ih =>
    cases n with
    | zero => rfl
    | succ n => exact res_bind_map (h a s) fun s' _ => res_bind_map (ih n s'.2) fun _ _ => rfl

section
variable {K : Type} {ns : ℕ}

theorem mapPhases_equiv {f f' : ℕ → PhaseSt K ns → Res (PhaseSt K ns)}
    {φ : PhaseSt K ns → PhaseSt K ns} (h : ∀ p a, f' p (φ a) = φ <$> f p a) (p : ℕ)
    (L : List (PhaseSt K ns)) : mapPhases f' p (L.map φ) = List.map φ <$> mapPhases f p L := by
  induction L generalizing p with
  | nil => rfl
  | cons a L ih => exact res_bind_map (h p a) fun a' _ => res_bind_map (ih (p + 1)) fun _ _ => rfl

theorem foldPhases_equiv {σ τ : Type} {f : PhaseSt K ns → σ → Res σ}
    {f' : PhaseSt K ns → τ → Res τ} {φ : PhaseSt K ns → PhaseSt K ns} {ψ : σ → τ}
    (h : ∀ a s, f' (φ a) (ψ s) = ψ <$> f a s) (L : List (PhaseSt K ns)) (s : σ) :
    foldPhases f' (L.map φ) (ψ s) = ψ <$> foldPhases f L s := by
  induction L generalizing s with
  | nil => rfl
  | cons a L ih => exact res_bind_map (h a s) fun s' _ => ih s'

theorem forPhases_equiv {σ τ : Type} {f : ℕ → PhaseSt K ns → σ → Res (PhaseSt K ns × σ)}
    {f' : ℕ → PhaseSt K ns → τ → Res (PhaseSt K ns × τ)} {φ : PhaseSt K ns → PhaseSt K ns}
    {ψ : σ → τ} (h : ∀ p a s, f' p (φ a) (ψ s) = Prod.map φ ψ <$> f p a s) (p : ℕ)
    (L : List (PhaseSt K ns)) (s : σ) :
    forPhases f' p (L.map φ) (ψ s) = Prod.map (List.map φ) ψ <$> forPhases f p L s := by
  induction L generalizing p s with
  | nil => rfl
  | cons a L ih =>
    exact res_bind_map (h p a s) fun s' _ => res_bind_map (ih (p + 1) s'.2) fun _ _ => rfl

/-- A transformation of phases that acts on the points one by one. -/
def mapPts (φ : Particle K ns → Particle K ns) (θ : Phase K ns → Phase K ns) (a : PhaseSt K ns) :
    PhaseSt K ns :=
  { ph := θ a.ph, pts := a.pts.map φ }

theorem mapPoints_equiv {f f' : ℕ → Phase K ns → Particle K ns → Res (Particle K ns)}
    {φ : Particle K ns → Particle K ns} {θ : Phase K ns → Phase K ns} (hn : ∀ ph, (θ ph).n = ph.n)
    (h : ∀ p ph mp, f' p (θ ph) (φ mp) = φ <$> f p ph mp) (L : List (PhaseSt K ns)) :
    mapPoints f' (L.map (mapPts φ θ)) = List.map (mapPts φ θ) <$> mapPoints f L := by
  refine mapPhases_equiv (fun p a => ?_) 0 L
  refine res_bind_map (f := List.map φ) ?_ fun _ _ => rfl
  change mapN (f' p (θ a.ph)) (θ a.ph).n (a.pts.map φ) = _
  rw [hn]
  exact mapN_equiv (h p a.ph) _ _

/-- The same for points about which something is known. -/
theorem mapN_equiv_of {α β : Type} {f : α → Res α} {f' : β → Res β} {φ : α → β} {Q : α → Prop}
    (h : ∀ a, Q a → f' (φ a) = φ <$> f a) (n : ℕ) (l : List α) (hl : ∀ a ∈ l.take n, Q a) :
    mapN f' n (l.map φ) = List.map φ <$> mapN f n l := by
  induction l generalizing n with
  | nil => cases n <;> rfl
  | cons a l ih =>
    cases n with
    | zero => rfl
    | succ n =>
      exact res_bind_map (h a (hl a (by simp))) fun a' _ =>
        res_bind_map (ih n fun x hx => hl x (by simp [hx])) fun _ _ => rfl

theorem mapN_all {α : Type} {f : α → Res α} {Q : α → Prop} (h : ∀ a a', f a = .ok a' → Q a')
    {n : ℕ} {l l' : List α} (hl : mapN f n l = .ok l') : ∀ a ∈ l'.take n, Q a := by
  induction l generalizing n l' with
  | nil =>
    cases n with
    | zero => simp
    | succ n => cases hl
  | cons a l ih =>
    cases n with
    | zero => simp
    | succ n =>
      unfold mapN at hl
      cases ha : f a with
      | error e => rw [ha] at hl; cases hl
      | ok a' =>
        cases hr : mapN f n l with
        | error e => rw [ha, hr] at hl; cases hl
        | ok r =>
          rw [ha, hr] at hl
          obtain rfl := Except.ok.inj hl
          intro x hx
          rw [List.take_succ_cons, List.mem_cons] at hx
          rcases hx with rfl | hx
          · exact h _ _ ha
          · exact ih hr x hx

theorem mapPoints_equiv_of {f f' : ℕ → Phase K ns → Particle K ns → Res (Particle K ns)}
    {φ : Particle K ns → Particle K ns} {θ : Phase K ns → Phase K ns} {Q : Particle K ns → Prop}
    (hn : ∀ ph, (θ ph).n = ph.n)
    (h : ∀ p ph mp, Q mp → f' p (θ ph) (φ mp) = φ <$> f p ph mp) (L : List (PhaseSt K ns))
    (hL : ∀ a ∈ L, ∀ mp ∈ a.pts.take a.ph.n, Q mp) :
    mapPoints f' (L.map (mapPts φ θ)) = List.map (mapPts φ θ) <$> mapPoints f L := by
  unfold mapPoints
  generalize 0 = p
  induction L generalizing p with
  | nil => rfl
  | cons a L ih =>
    refine res_bind_map (f := mapPts φ θ) (res_bind_map (f := List.map φ) ?_ fun _ _ => rfl)
      fun a' _ => res_bind_map (ih (fun b hb => hL b (by simp [hb])) (p + 1)) fun _ _ => rfl
    change mapN (f' p (θ a.ph)) (θ a.ph).n (a.pts.map φ) = _
    rw [hn]
    exact mapN_equiv_of (h p a.ph) _ _ (hL a (by simp))

theorem mapPoints_all {f : ℕ → Phase K ns → Particle K ns → Res (Particle K ns)}
    {Q : Particle K ns → Prop} (h : ∀ p ph mp mp', f p ph mp = .ok mp' → Q mp')
    {L L' : List (PhaseSt K ns)} (hL : mapPoints f L = .ok L') :
    ∀ a ∈ L', ∀ mp ∈ a.pts.take a.ph.n, Q mp := by
  unfold mapPoints at hL
  generalize 0 = p at hL
  induction L generalizing p L' with
  | nil => obtain rfl := Except.ok.inj hL; simp
  | cons a L ih =>
    unfold mapPhases at hL
    cases ha : mapN (f p a.ph) a.ph.n a.pts with
    | error e => rw [ha] at hL; cases hL
    | ok l =>
      rw [ha] at hL
      generalize hr : mapPhases _ (p + 1) L = r at hL
      cases r with
      | error e => cases hL
      | ok r =>
        obtain rfl := Except.ok.inj hL
        intro x hx
        rcases List.mem_cons.1 hx with rfl | hx
        · exact mapN_all (h p a.ph) ha
        · exact ih _ hr x hx

theorem outletLoop_equiv {α β : Type} {t : α → Bool} {t' : β → Bool} {φ : α → β}
    (h : ∀ a, t' (φ a) = t a) (i n : ℕ) (l : List α) :
    outletLoop t' i (n, l.map φ) = Prod.map id (List.map φ) <$> outletLoop t i (n, l) := by
  induction i generalizing n l with
  | zero => rfl
  | succ i ih =>
    unfold outletLoop
    rw [List.getElem?_map]
    cases l[i]? with
    | none => rfl
    | some a =>
      simp only [Option.map_some, h]
      split
      · rw [List.eraseIdx_map]; exact ih _ _
      · exact ih _ _

end
end Mpm

import Verif.Lemmas.Scatter
import Mathlib.Algebra.BigOperators.Group.List.Basic

/-! Closed forms of the loops over all material points that write to the grid. -/

set_option linter.unusedSectionVars false

namespace Mpm
open Spec

section
variable {α σ : Type}

theorem foldN_eq_foldlM (f : α → σ → Res σ) (l : List α) (s : σ) :
    foldN f l.length l s = l.foldlM (fun s a => f a s) s := by
  induction l generalizing s with
  | nil => rfl
  | cons a l ih =>
    simp only [List.length_cons, foldN, List.foldlM_cons]
    congr 1
    funext s'
    exact ih s'

/-- A monadic fold whose step either applies a function or fails. -/
theorem foldlM_ok {f : α → σ → Res σ} {c : α → Prop} {g : α → σ → σ}
    (hf : ∀ a s s', f a s = .ok s' ↔ c a ∧ s' = g a s) {l : List α} {s s' : σ} :
    l.foldlM (fun s a => f a s) s = .ok s' ↔
      (∀ a ∈ l, c a) ∧ s' = l.foldl (fun s a => g a s) s := by
  induction l generalizing s with
  | nil => simp [eq_comm]
  | cons a l ih =>
    simp only [List.foldlM_cons, res_bind_ok, ih, List.forall_mem_cons, List.foldl_cons]
    constructor
    · rintro ⟨b, hb, hl, he⟩
      obtain ⟨h1, h2⟩ := (hf _ _ _).1 hb
      subst h2
      exact ⟨⟨h1, hl⟩, he⟩
    · rintro ⟨⟨h1, h2⟩, he⟩
      exact ⟨g a s, (hf _ _ _).2 ⟨h1, rfl⟩, h2, he⟩

theorem foldlM_cases {f : α → σ → Res σ} {c : α → Prop} {g : α → σ → σ}
    (hf : ∀ a s s', f a s = .ok s' ↔ c a ∧ s' = g a s)
    (he : ∀ a s, ¬ c a → f a s = .error .index) (l : List α) (s : σ) :
    ((∀ a ∈ l, c a) ∧ l.foldlM (fun s a => f a s) s = .ok (l.foldl (fun s a => g a s) s)) ∨
    ((¬ ∀ a ∈ l, c a) ∧ l.foldlM (fun s a => f a s) s = .error .index) := by
  induction l generalizing s with
  | nil => left; simp
  | cons a l ih =>
    by_cases hc : c a
    · have h1 : f a s = .ok (g a s) := (hf _ _ _).2 ⟨hc, rfl⟩
      simp only [List.foldlM_cons, h1, res_ok_bind, List.forall_mem_cons, List.foldl_cons]
      rcases ih (g a s) with ⟨h2, h3⟩ | ⟨h2, h3⟩
      · left; exact ⟨⟨hc, h2⟩, h3⟩
      · right; exact ⟨fun h => h2 h.2, h3⟩
    · right
      refine ⟨fun h => hc (h a (List.mem_cons_self)), ?_⟩
      simp [List.foldlM_cons, he a s hc]

/-- Order does not matter when the steps commute and all failures are alike. -/
theorem foldlM_perm {f : α → σ → Res σ} {c : α → Prop} {g : α → σ → σ}
    (hf : ∀ a s s', f a s = .ok s' ↔ c a ∧ s' = g a s)
    (he : ∀ a s, ¬ c a → f a s = .error .index)
    (hcomm : ∀ a b s, g a (g b s) = g b (g a s)) {l l' : List α} (h : l.Perm l') (s : σ) :
    l.foldlM (fun s a => f a s) s = l'.foldlM (fun s a => f a s) s := by
  have hall : (∀ a ∈ l, c a) ↔ (∀ a ∈ l', c a) :=
    ⟨fun H a ha => H a (h.mem_iff.2 ha), fun H a ha => H a (h.mem_iff.1 ha)⟩
  have hfold : l.foldl (fun s a => g a s) s = l'.foldl (fun s a => g a s) s :=
    h.foldl_eq' (fun a _ b _ s => hcomm b a s) s
  rcases foldlM_cases hf he l s with ⟨h1, h2⟩ | ⟨h1, h2⟩ <;>
    rcases foldlM_cases hf he l' s with ⟨h3, h4⟩ | ⟨h3, h4⟩
  · rw [h2, h4, hfold]
  · exact absurd (hall.1 h1) h3
  · exact absurd (hall.2 h3) h1
  · rw [h2, h4]

end

section
variable {K : Type} [Field K] [LinearOrder K] {ns N : ℕ} {nx : ℕ}

/-- All points together with the phase they belong to. -/
def items (L : List (PhaseSt K ns)) : List (Phase K ns × Particle K ns) :=
  L.flatMap fun a => a.pts.map fun mp => (a.ph, mp)

theorem items_cons (a : PhaseSt K ns) (L : List (PhaseSt K ns)) :
    items (a :: L) = (a.pts.map fun mp => (a.ph, mp)) ++ items L := rfl

theorem mem_items {L : List (PhaseSt K ns)} {x : Phase K ns × Particle K ns} :
    x ∈ items L ↔ ∃ a ∈ L, a.ph = x.1 ∧ x.2 ∈ a.pts := by
  unfold items
  simp only [List.mem_flatMap, List.mem_map]
  constructor
  · rintro ⟨a, ha, mp, hmp, rfl⟩; exact ⟨a, ha, rfl, hmp⟩
  · rintro ⟨a, ha, h1, h2⟩; exact ⟨a, ha, x.2, h2, by rw [h1]⟩

theorem items_map_snd (L : List (PhaseSt K ns)) : (items L).map (·.2) = points L := by
  unfold items points
  rw [List.map_flatMap]
  simp [Function.comp_def]

theorem foldPhases_foldN {σ : Type} (f : Phase K ns → Particle K ns → σ → Res σ)
    {L : List (PhaseSt K ns)} (hL : Counted L) (s : σ) :
    foldPhases (fun a s => foldN (fun mp s => f a.ph mp s) a.ph.n a.pts s) L s =
      (items L).foldlM (fun s x => f x.1 x.2 s) s := by
  induction L generalizing s with
  | nil => rfl
  | cons a L ih =>
    have h1 : a.ph.n = a.pts.length := hL a List.mem_cons_self
    have h2 : Counted L := fun b hb => hL b (List.mem_cons_of_mem _ hb)
    simp only [foldPhases, items_cons, List.foldlM_append, h1, foldN_eq_foldlM]
    rw [List.foldlM_map]
    congr 1
    funext s'
    exact ih h2 s'

theorem p2gAll_eq {seg : Bool} {L : List (PhaseSt K ns)} (hL : Counted L) (G : Grid K N ns) :
    p2gAll nx seg L G =
      (items L).foldlM (fun G x => x.2.p2g nx seg (x.2.v.get x.1.iv) G) G :=
  foldPhases_foldN (fun ph mp G => mp.p2g nx seg (mp.v.get ph.iv) G) hL G

theorem nodalForcesAll_eq {L : List (PhaseSt K ns)} (hL : Counted L) (G : Grid K N ns) :
    nodalForcesAll nx L G = (items L).foldlM (fun G x => x.2.nodalForces nx G) G :=
  foldPhases_foldN (fun _ mp G => mp.nodalForces nx G) hL G

theorem p2gAll_ok {seg : Bool} {L : List (PhaseSt K ns)} (hL : Counted L) {G G' : Grid K N ns} :
    p2gAll nx seg L G = .ok G' ↔ (∀ x ∈ items L, NodesOk nx N x.2) ∧
      G' = (items L).foldl (fun G x => p2gClosed nx seg (x.2.v.get x.1.iv) x.2 G) G := by
  rw [p2gAll_eq hL]
  exact foldlM_ok (f := fun (x : Phase K ns × Particle K ns) G =>
    x.2.p2g nx seg (x.2.v.get x.1.iv) G) (fun a s s' => p2g_ok)

theorem nodalForcesAll_ok {L : List (PhaseSt K ns)} (hL : Counted L) {G G' : Grid K N ns} :
    nodalForcesAll nx L G = .ok G' ↔ (∀ x ∈ items L, NodesOk nx N x.2) ∧
      G' = (items L).foldl (fun G x => forcesClosed nx x.2 G) G := by
  rw [nodalForcesAll_eq hL]
  exact foldlM_ok (f := fun (x : Phase K ns × Particle K ns) (G : Grid K N ns) =>
    x.2.nodalForces nx G) (fun a s s' => nodalForces_ok)

/-- A component of the state to which every step adds something. -/
theorem foldl_add {α σ M : Type} [AddCommMonoid M] (g : α → σ → σ) (π : σ → M) (w : α → M)
    (h : ∀ a s, π (g a s) = π s + w a) (l : List α) (s : σ) :
    π (l.foldl (fun s a => g a s) s) = π s + (l.map w).sum := by
  induction l generalizing s with
  | nil => simp
  | cons a l ih => simp [ih, h, add_assoc]

/-- A component of the state that no step touches. -/
theorem foldl_const {α σ M : Type} (g : α → σ → σ) (π : σ → M)
    (h : ∀ a s, π (g a s) = π s) (l : List α) (s : σ) :
    π (l.foldl (fun s a => g a s) s) = π s := by
  induction l generalizing s with
  | nil => rfl
  | cons a l ih => simp [ih, h]

theorem list_sum_map_add {α M : Type} [AddCommMonoid M] (l : List α) (f g : α → M) :
    (l.map fun a => f a + g a).sum = (l.map f).sum + (l.map g).sum := by
  induction l with
  | nil => simp
  | cons a l ih => simp [ih]; abel

theorem list_sum_finset {α ι M : Type} [AddCommMonoid M] (s : Finset ι) (l : List α)
    (f : ι → α → M) : ∑ k ∈ s, (l.map (f k)).sum = (l.map fun a => ∑ k ∈ s, f k a).sum := by
  induction l with
  | nil => simp
  | cons a l ih => simp [Finset.sum_add_distrib, ih]

end

section
variable {K : Type} [Field K] [LinearOrder K] {ns N : ℕ} {nx : ℕ}

theorem p2gAll_m {seg : Bool} {L : List (PhaseSt K ns)} (hL : Counted L) {G G' : Grid K N ns}
    (h : p2gAll nx seg L G = .ok G') (k : Fin N) :
    G'.m k = G.m k + ((points L).map fun mp => weight nx mp k * mp.m).sum := by
  rw [((p2gAll_ok hL).1 h).2, ← items_map_snd, List.map_map]
  exact foldl_add (fun (x : Phase K ns × Particle K ns) (G : Grid K N ns) => p2gClosed nx seg (x.2.v.get x.1.iv) x.2 G) (fun G => G.m k) (fun (x : Phase K ns × Particle K ns) => weight nx x.2 k * x.2.m) (fun _ _ => rfl) _ _

theorem p2gAll_q {seg : Bool} {L : List (PhaseSt K ns)} (hL : Counted L) {G G' : Grid K N ns}
    (h : p2gAll nx seg L G = .ok G') (k : Fin N) :
    G'.q k = G.q k +
      ((items L).map fun x => (weight nx x.2 k * x.2.m) • (x.2.v.get x.1.iv)).sum := by
  rw [((p2gAll_ok hL).1 h).2]
  exact foldl_add (fun (x : Phase K ns × Particle K ns) (G : Grid K N ns) => p2gClosed nx seg (x.2.v.get x.1.iv) x.2 G) (fun G => G.q k) (fun (x : Phase K ns × Particle K ns) => (weight nx x.2 k * x.2.m) • (x.2.v.get x.1.iv))
    (fun _ _ => rfl) _ _

theorem p2gAll_phim {L : List (PhaseSt K ns)} (hL : Counted L) {G G' : Grid K N ns}
    (h : p2gAll nx true L G = .ok G') (k : Fin N) :
    G'.phim k = G.phim k + ((points L).map fun mp => (weight nx mp k * mp.m) • mp.phi).sum := by
  rw [((p2gAll_ok hL).1 h).2, ← items_map_snd, List.map_map]
  exact foldl_add (fun (x : Phase K ns × Particle K ns) (G : Grid K N ns) => p2gClosed nx true (x.2.v.get x.1.iv) x.2 G) (fun G => G.phim k) (fun (x : Phase K ns × Particle K ns) => (weight nx x.2 k * x.2.m) • x.2.phi)
    (fun _ _ => rfl) _ _

theorem nodalForcesAll_fi {L : List (PhaseSt K ns)} (hL : Counted L) {G G' : Grid K N ns}
    (h : nodalForcesAll nx L G = .ok G') (k : Fin N) :
    G'.fi k = G.fi k +
      ((points L).map fun mp => mp.V • Matrix.mulVec mp.stress (gradWeight nx mp k)).sum := by
  rw [((nodalForcesAll_ok hL).1 h).2, ← items_map_snd, List.map_map]
  exact foldl_add (fun (x : Phase K ns × Particle K ns) (G : Grid K N ns) => forcesClosed nx x.2 G) (fun G => G.fi k)
    (fun (x : Phase K ns × Particle K ns) => x.2.V • Matrix.mulVec x.2.stress (gradWeight nx x.2 k)) (fun _ _ => rfl) _ _

theorem nodalForcesAll_fe {L : List (PhaseSt K ns)} (hL : Counted L) {G G' : Grid K N ns}
    (h : nodalForcesAll nx L G = .ok G') (k : Fin N) :
    G'.fe k = G.fe k + ((points L).map fun mp => (weight nx mp k * mp.m) • mp.b).sum := by
  rw [((nodalForcesAll_ok hL).1 h).2, ← items_map_snd, List.map_map]
  exact foldl_add (fun (x : Phase K ns × Particle K ns) (G : Grid K N ns) => forcesClosed nx x.2 G) (fun G => G.fe k) (fun (x : Phase K ns × Particle K ns) => (weight nx x.2 k * x.2.m) • x.2.b)
    (fun _ _ => rfl) _ _

theorem items_momentum (L : List (PhaseSt K ns)) :
    ((items L).map fun x => x.2.m • x.2.v.get x.1.iv).sum = totalMomentum L := by
  induction L with
  | nil => simp [items, totalMomentum]
  | cons a L ih =>
    rw [items_cons, List.map_append, List.sum_append, ih, List.map_map]
    unfold totalMomentum
    rw [List.map_cons, List.sum_cons]
    rfl

end
end Mpm

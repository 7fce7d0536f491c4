import Verif.Lemmas.Stress
import Verif.Lemmas.XF
import Verif.Lemmas.Step

/-! Closed form of the loops at the end of the laws that add values to nodal fields. -/

set_option linter.unusedSectionVars false

namespace Mpm
open Spec

section
variable {K : Type} [Field K] [LinearOrder K] {ns N : ℕ} {nx : ℕ}

/-- Floating point addition, specials included, is commutative and associative (over exact
numbers). -/
instance : AddCommMonoid (XF K) where
  add_assoc a b c := by
    change XF.add (XF.add a b) c = XF.add a (XF.add b c)
    cases a <;> cases b <;> cases c <;> simp [XF.add, add_assoc]
  zero_add a := by
    change XF.add (.fin 0) a = a
    cases a <;> simp [XF.add]
  add_zero a := by
    change XF.add a (.fin 0) = a
    cases a <;> simp [XF.add]
  add_comm a b := by
    change XF.add a b = XF.add b a
    cases a <;> cases b <;> simp [XF.add, add_comm]
  nsmul := nsmulRec

/-- Finite numbers as a submonoid. -/
def finHom : K →+ XF K where
  toFun := .fin
  map_zero' := rfl
  map_add' _ _ := rfl

theorem fin_sum {ι : Type} (s : Finset ι) (f : ι → K) :
    ∑ i ∈ s, (XF.fin (f i) : XF K) = .fin (∑ i ∈ s, f i) := (map_sum finHom f s).symm

theorem fin_list_sum {α : Type} (l : List α) (f : α → K) :
    (l.map fun a => (XF.fin (f a) : XF K)).sum = .fin (l.map f).sum := by
  have := (map_list_sum (finHom (K := K)) (l.map f)).symm
  rw [List.map_map] at this
  exact this

/-- The values listed for the field `v`. -/
def listed (v : Vis) (l : List (Vis × XF K)) : List (XF K) :=
  (l.filter fun e => e.1 = v).map (·.2)

theorem foldl_update {n : Fin N} {g : XF K → XF K} (l : List (Vis × XF K))
    (vis : Vis → Fin N → XF K) (v : Vis) (k : Fin N) :
    (l.foldl (fun vis e => Function.update vis e.1 (addAt (vis e.1) n (g e.2))) vis) v k =
      vis v k + if n = k then ((listed v l).map g).sum else 0 := by
  induction l generalizing vis with
  | nil => simp [listed]
  | cons e l ih =>
    rw [List.foldl_cons, ih]
    by_cases h : e.1 = v
    · subst h
      simp only [listed, Function.update_self, List.filter_cons, decide_true, if_true,
        List.map_cons, List.sum_cons]
      unfold addAt
      by_cases hk : n = k
      · subst hk
        simp only [Function.update_self, if_true]
        rw [add_assoc]
      · rw [Function.update_of_ne (Ne.symm hk), if_neg hk, if_neg hk]
    · rw [Function.update_of_ne (Ne.symm h)]
      simp [listed, h]

theorem scatterVis_of_nodes {mp : Particle K ns} {nd : Fin 4 → Fin N}
    (h : ∀ r, mp.node nx N r = .ok (nd r)) {l : List (Vis × XF K)} {vis vis' : Vis → Fin N → XF K}
    (hs : scatterVis nx mp l vis = .ok vis') (v : Vis) (k : Fin N) :
    vis' v k = vis v k + ∑ r, if nd r = k then
      ((listed v l).map fun x => .fin (mp.N r) * x * .fin mp.m).sum else 0 := by
  unfold scatterVis for4 at hs
  simp only [h, res_ok_bind, res_pure, Except.ok.injEq] at hs
  subst hs
  rw [foldl_update (g := fun x : XF K => XF.fin (mp.N 3) * x * XF.fin mp.m),
    foldl_update (g := fun x : XF K => XF.fin (mp.N 2) * x * XF.fin mp.m),
    foldl_update (g := fun x : XF K => XF.fin (mp.N 1) * x * XF.fin mp.m),
    foldl_update (g := fun x : XF K => XF.fin (mp.N 0) * x * XF.fin mp.m), Fin.sum_univ_four]
  abel

theorem scatterVis_nodes {mp : Particle K ns} {l : List (Vis × XF K)} {vis vis' : Vis → Fin N → XF K}
    (hs : scatterVis nx mp l vis = .ok vis') : NodesOk nx N mp := by
  by_contra hc
  have := for4_nodes_error (nx := nx) (N := N) (σ := Vis → Fin N → XF K) hc (fun r n vis =>
    l.foldl (fun vis e =>
      Function.update vis e.1 (addAt (vis e.1) n (.fin (mp.N r) * e.2 * .fin mp.m))) vis) vis
  unfold scatterVis at hs
  rw [this] at hs
  cases hs

/-- A field for which a law lists finite values only. -/
theorem scatterVis_fin {mp : Particle K ns} {l : List (Vis × XF K)}
    {vis vis' : Vis → Fin N → XF K} (hs : scatterVis nx mp l vis = .ok vis') {v : Vis} {xs : List K}
    (hx : listed v l = xs.map .fin) (k : Fin N) :
    vis' v k = vis v k + .fin (weight nx mp k * xs.sum * mp.m) := by
  obtain ⟨nd, hnd⟩ := nodesOk_iff.1 (scatterVis_nodes hs)
  rw [scatterVis_of_nodes hnd hs, hx]
  congr 1
  have : ∀ r, ((xs.map XF.fin).map fun x => (XF.fin (mp.N r) * x * .fin mp.m : XF K)).sum =
      .fin (mp.N r * (xs.sum * mp.m)) := by
    intro r
    rw [List.map_map]
    change (xs.map fun x => (XF.fin (mp.N r * x * mp.m) : XF K)).sum = _
    rw [fin_list_sum]
    congr 1
    rw [← mul_assoc, List.sum_map_mul_right, List.sum_map_mul_left, List.map_id']
  simp only [this]
  rw [weight_eq hnd, mul_assoc, ← sum_ite_mul', ← fin_sum]
  refine Finset.sum_congr rfl fun r _ => ?_
  split_ifs <;> rfl

end

section
variable {α σ M : Type} [AddCommMonoid M]

theorem forN_sum {f : α → σ → Res (α × σ)} {π : σ → M} {w : α → M} {C : α → Prop}
    (hf : ∀ a s a' s', C a → f a s = .ok (a', s') → π s' = π s + w a') {n : ℕ} {l l' : List α}
    {s s' : σ} (hn : n = l.length) (hC : ∀ a ∈ l, C a) (h : forN f n l s = .ok (l', s')) :
    π s' = π s + (l'.map w).sum := by
  subst hn
  induction l generalizing l' s with
  | nil => cases h; simp
  | cons a l ih =>
    obtain ⟨⟨a', s1⟩, h1, h⟩ := res_bind_ok.1 h
    obtain ⟨⟨t, s2⟩, h2, h⟩ := res_bind_ok.1 h
    cases h
    rw [ih (fun b hb => hC b (List.mem_cons_of_mem _ hb)) h2, hf a s a' s1 (hC a (by simp)) h1]
    simp [add_assoc]

variable {K : Type} [Field K] [LinearOrder K] {ns : ℕ}

theorem forPhases_sum {f : ℕ → PhaseSt K ns → σ → Res (PhaseSt K ns × σ)} {π : σ → M}
    {w : PhaseSt K ns → M} {C : PhaseSt K ns → Prop}
    (hf : ∀ p a s a' s', C a → f p a s = .ok (a', s') → π s' = π s + w a')
    {p : ℕ} {L L' : List (PhaseSt K ns)} {s s' : σ} (hC : ∀ a ∈ L, C a)
    (h : forPhases f p L s = .ok (L', s')) : π s' = π s + (L'.map w).sum := by
  induction L generalizing L' s p with
  | nil => cases h; simp
  | cons a L ih =>
    obtain ⟨a', s1, T, h1, h2, rfl⟩ := forPhases_cons_ok.1 h
    rw [ih (fun b hb => hC b (List.mem_cons_of_mem _ hb)) h2, hf p a s a' s1 (hC a (by simp)) h1]
    simp [add_assoc]

end
end Mpm

import Verif.Lemmas.Geometry
import Mathlib.Tactic.Abel
import Mathlib.Algebra.Module.BigOperators

/-! Closed forms of the four-node loops that write to the grid. -/

set_option linter.unusedSectionVars false

namespace Mpm
open Spec

theorem addAt4 {N : ℕ} {α : Type} [AddCommMonoid α] (a : Fin N → α) (nd : Fin 4 → Fin N)
    (w : Fin 4 → α) :
    addAt (addAt (addAt (addAt a (nd 0) (w 0)) (nd 1) (w 1)) (nd 2) (w 2)) (nd 3) (w 3) =
      fun k => a k + ∑ r, if nd r = k then w r else 0 := by
  funext k
  have key : ∀ (b : Fin N → α) (i : Fin N) (x : α),
      addAt b i x k = b k + if i = k then x else 0 := by
    intro b i x
    unfold addAt
    rw [Function.update_apply]
    by_cases h : k = i
    · subst h; simp
    · rw [if_neg h, if_neg (Ne.symm h), add_zero]
  rw [key, key, key, key, Fin.sum_univ_four]
  abel

section
variable {K : Type} [Field K] [LinearOrder K] {ns N : ℕ} {nx : ℕ}

theorem nodesOk_iff {mp : Particle K ns} :
    NodesOk nx N mp ↔ ∃ nd : Fin 4 → Fin N, ∀ r, mp.node nx N r = .ok (nd r) := by
  unfold NodesOk Particle.node
  exact Classical.skolem

theorem weight_eq {mp : Particle K ns} {nd : Fin 4 → Fin N} (h : ∀ r, mp.node nx N r = .ok (nd r))
    (k : Fin N) : weight nx mp k = ∑ r, if nd r = k then mp.N r else 0 := by
  unfold weight
  refine Finset.sum_congr rfl fun r _ => ?_
  have := h r
  unfold Particle.node at this
  simp [this]

theorem gradWeight_eq {mp : Particle K ns} {nd : Fin 4 → Fin N}
    (h : ∀ r, mp.node nx N r = .ok (nd r)) (k : Fin N) :
    gradWeight nx mp k = ∑ r, if nd r = k then mp.Gs r else 0 := by
  unfold gradWeight
  refine Finset.sum_congr rfl fun r _ => ?_
  have := h r
  unfold Particle.node at this
  simp [this]

theorem weight_sum {mp : Particle K ns} (h : NodesOk nx N mp) :
    ∑ k : Fin N, weight nx mp k = ∑ r, mp.N r := by
  obtain ⟨nd, hnd⟩ := nodesOk_iff.1 h
  simp only [weight_eq hnd]
  rw [Finset.sum_comm]
  simp

theorem gradWeight_sum {mp : Particle K ns} (h : NodesOk nx N mp) :
    ∑ k : Fin N, gradWeight nx mp k = ∑ r, mp.Gs r := by
  obtain ⟨nd, hnd⟩ := nodesOk_iff.1 h
  simp only [gradWeight_eq hnd]
  rw [Finset.sum_comm]
  simp

/-- Sums over the four nodes of quantities living on nodes are sums over all nodes. -/
theorem sum_nodes_smul {M : Type} [AddCommGroup M] [Module K M] {mp : Particle K ns}
    {nd : Fin 4 → Fin N}
    (h : ∀ r, mp.node nx N r = .ok (nd r)) (f : Fin N → M) :
    ∑ r, mp.N r • f (nd r) = ∑ k, weight nx mp k • f k := by
  simp only [weight_eq h, Finset.sum_smul]
  rw [Finset.sum_comm]
  simp [ite_smul]

/-- The grid after one point has been mapped to it. -/
def p2gClosed (nx : ℕ) (seg : Bool) (vel : Vec K) (mp : Particle K ns) (G : Grid K N ns) :
    Grid K N ns :=
  { G with
    m := fun k => G.m k + weight nx mp k * mp.m
    q := fun k => G.q k + (weight nx mp k * mp.m) • vel
    phim := if seg then fun k => G.phim k + (weight nx mp k * mp.m) • mp.phi else G.phim
    pkm := if seg then fun k => G.pkm k + weight nx mp k * mp.m * mp.pk else G.pkm }

theorem sum_ite_mul' {nd : Fin 4 → Fin N} {k : Fin N} {w : Fin 4 → K} {c : K} :
    (∑ r, if nd r = k then w r * c else 0) = (∑ r, if nd r = k then w r else 0) * c := by
  rw [Finset.sum_mul]
  exact Finset.sum_congr rfl fun r _ => by split_ifs <;> simp

theorem sum_ite_smul' {M : Type} [AddCommGroup M] [Module K M] {nd : Fin 4 → Fin N} {k : Fin N}
    {w : Fin 4 → K} {c : M} :
    (∑ r, if nd r = k then w r • c else 0) = (∑ r, if nd r = k then w r else 0) • c := by
  rw [Finset.sum_smul]
  exact Finset.sum_congr rfl fun r _ => by split_ifs <;> simp

theorem p2g_of_nodes {seg : Bool} {vel : Vec K} {mp : Particle K ns} {G : Grid K N ns}
    {nd : Fin 4 → Fin N} (h : ∀ r, mp.node nx N r = .ok (nd r)) :
    mp.p2g nx seg vel G = .ok (p2gClosed nx seg vel mp G) := by
  unfold Particle.p2g for4 p2gClosed
  have hw := weight_eq h
  cases seg
  · simp only [h, res_ok_bind, res_pure, Bool.false_eq_true, if_false]
    simp only [addAt4 _ nd (fun r => mp.N r * mp.m), addAt4 _ nd (fun r => (mp.N r * mp.m) • vel),
      hw, sum_ite_mul', sum_ite_smul']
  · simp only [h, res_ok_bind, res_pure, if_true]
    simp only [addAt4 _ nd (fun r => mp.N r * mp.m), addAt4 _ nd (fun r => (mp.N r * mp.m) • vel),
      addAt4 _ nd (fun r => (mp.N r * mp.m) • mp.phi),
      addAt4 _ nd (fun r => (mp.N r * mp.m) * mp.pk),
      hw, sum_ite_mul', sum_ite_smul']

theorem node_cases (nx N : ℕ) (mp : Particle K ns) (r : Fin 4) :
    (∃ k, mp.node nx N r = .ok k) ∨ mp.node nx N r = .error .index :=
  pyIdx_cases _

/-- A loop over the nodes fails with IndexError if some node number is invalid. -/
theorem for4_nodes_error {σ : Type} {mp : Particle K ns} (h : ¬ NodesOk nx N mp)
    (f : Fin 4 → Fin N → σ → σ) (s : σ) :
    for4 (fun r s => do
      let n ← mp.node nx N r
      return f r n s) s = .error .index := by
  have h' : ∃ r, mp.node nx N r = .error .index := by
    by_contra hc
    refine h fun r => ?_
    rcases node_cases nx N mp r with h1 | h1
    · exact h1
    · exact absurd ⟨r, h1⟩ hc
  unfold for4
  rcases node_cases nx N mp 0 with ⟨k0, e0⟩ | e0 <;> simp only [e0, res_ok_bind, res_pure, res_error_bind]
  rcases node_cases nx N mp 1 with ⟨k1, e1⟩ | e1 <;> simp only [e1, res_ok_bind, res_error_bind]
  rcases node_cases nx N mp 2 with ⟨k2, e2⟩ | e2 <;> simp only [e2, res_ok_bind, res_error_bind]
  rcases node_cases nx N mp 3 with ⟨k3, e3⟩ | e3 <;> simp only [e3, res_ok_bind, res_error_bind]
  obtain ⟨r, hr⟩ := h'
  fin_cases r <;> simp_all

theorem p2g_error {seg : Bool} {vel : Vec K} {mp : Particle K ns} {G : Grid K N ns}
    (h : ¬ NodesOk nx N mp) : mp.p2g nx seg vel G = .error .index := by
  exact for4_nodes_error (σ := Grid K N ns) h (fun r n G =>
    let G := { G with
      m := addAt G.m n (mp.N r * mp.m)
      q := addAt G.q n ((mp.N r * mp.m) • vel) }
    if seg then
      { G with
        phim := addAt G.phim n ((mp.N r * mp.m) • mp.phi)
        pkm := addAt G.pkm n (mp.N r * mp.m * mp.pk) }
    else G) G

theorem p2g_ok {seg : Bool} {vel : Vec K} {mp : Particle K ns} {G G' : Grid K N ns} :
    mp.p2g nx seg vel G = .ok G' ↔ NodesOk nx N mp ∧ G' = p2gClosed nx seg vel mp G := by
  by_cases h : NodesOk nx N mp
  · obtain ⟨nd, hnd⟩ := nodesOk_iff.1 h
    rw [p2g_of_nodes hnd, Except.ok.injEq]
    exact ⟨fun e => ⟨h, e.symm⟩, fun e => e.2.symm⟩
  · rw [p2g_error h]
    simp [h]

/-- The grid after the forces of one point have been added. -/
def forcesClosed (nx : ℕ) (mp : Particle K ns) (G : Grid K N ns) : Grid K N ns :=
  { G with
    fi := fun k => G.fi k + mp.V • Matrix.mulVec mp.stress (gradWeight nx mp k)
    fe := fun k => G.fe k + (weight nx mp k * mp.m) • mp.b }

theorem nodalForces_of_nodes {mp : Particle K ns} {G : Grid K N ns}
    {nd : Fin 4 → Fin N} (h : ∀ r, mp.node nx N r = .ok (nd r)) :
    mp.nodalForces nx G = .ok (forcesClosed nx mp G) := by
  unfold Particle.nodalForces for4 forcesClosed
  have hg : ∀ k, mp.V • Matrix.mulVec mp.stress (gradWeight nx mp k) =
      ∑ r, if nd r = k then mp.V • Matrix.mulVec mp.stress (mp.Gs r) else 0 := by
    intro k
    rw [gradWeight_eq h, Matrix.mulVec_sum, Finset.smul_sum]
    refine Finset.sum_congr rfl fun r _ => ?_
    split_ifs <;> simp
  simp only [h, res_ok_bind, res_pure]
  simp only [addAt4 _ nd (fun r => mp.V • Matrix.mulVec mp.stress (mp.Gs r)),
    addAt4 _ nd (fun r => (mp.N r * mp.m) • mp.b), weight_eq h, sum_ite_mul', sum_ite_smul', hg]

theorem nodalForces_error {mp : Particle K ns} {G : Grid K N ns}
    (h : ¬ NodesOk nx N mp) : mp.nodalForces nx G = .error .index :=
  for4_nodes_error (σ := Grid K N ns) h (fun r n G =>
    { G with
      fi := addAt G.fi n (mp.V • Matrix.mulVec mp.stress (mp.Gs r))
      fe := addAt G.fe n ((mp.N r * mp.m) • mp.b) }) G

theorem nodalForces_ok {mp : Particle K ns} {G G' : Grid K N ns} :
    mp.nodalForces nx G = .ok G' ↔ NodesOk nx N mp ∧ G' = forcesClosed nx mp G := by
  by_cases h : NodesOk nx N mp
  · obtain ⟨nd, hnd⟩ := nodesOk_iff.1 h
    rw [nodalForces_of_nodes hnd, Except.ok.injEq]
    exact ⟨fun e => ⟨h, e.symm⟩, fun e => e.2.symm⟩
  · rw [nodalForces_error h]
    simp [h]

end
end Mpm

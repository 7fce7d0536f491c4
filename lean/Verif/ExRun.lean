import Verif.Model.Main
import Verif.Examples

/-! Whole runs of the model on the example data, checked by evaluation. -/

namespace Mpm.Ex

def dyn : Dyn ℚ := { t := 0, dt := 1/100, tstep := 0, g := -10, q_v := 0, q_h := 0 }

def noInterp (P : Par ℚ) : Interp ℚ P.G.N := fun _ _ => (false, 0)

/-- Does a computation succeed with a value passing `check`? -/
def okAnd {α : Type} (r : Res α) (check : α → Bool) : Bool :=
  match r with
  | .error _ => false
  | .ok a => check a

theorem okAnd_ok {α : Type} {r : Res α} {check : α → Bool} (h : okAnd r check = true) :
    ∃ a, r = .ok a ∧ check a = true := by
  unfold okAnd at h
  split at h
  · simp at h
  · exact ⟨_, rfl, h⟩

theorem inDomainL : ∀ mp ∈ Spec.points L, Spec.InDomain gp mp.x := by
  intro mp' hmp
  simp only [Spec.points, L, List.flatMap_cons, List.flatMap_nil, List.append_nil,
    List.mem_cons, List.not_mem_nil, or_false] at hmp
  rcases hmp with rfl | rfl
  · simp only [Spec.InDomain, gp, mp, Matrix.cons_val_zero, Matrix.cons_val_one]; norm_num
  · simp only [Spec.InDomain, gp, mp2, Matrix.cons_val_zero, Matrix.cons_val_one]; norm_num

/-- Does a run of `n` steps from a fresh grid succeed and end in a state passing `check`? -/
def run (P : Par ℚ) (d : Dyn ℚ) (L : List (PhaseSt ℚ P.G.ns)) (n : ℕ) (check : St P → Bool) :
    Bool :=
  match mkGrid P.G P.B with
  | .error _ => false
  | .ok G => match steps P (noInterp P) n { dyn := d, L := L, G := G } with
    | .error _ => false
    | .ok s => check s

theorem run_ok {P : Par ℚ} {d : Dyn ℚ} {L : List (PhaseSt ℚ P.G.ns)} {n : ℕ} {check : St P → Bool}
    (h : run P d L n check = true) :
    ∃ G s', mkGrid P.G P.B = .ok G ∧
      steps P (noInterp P) n { dyn := d, L := L, G := G } = .ok s' ∧ check s' = true := by
  unfold run at h
  split at h
  · simp at h
  · rename_i G hG
    split at h
    · simp at h
    · rename_i s' hs
      exact ⟨G, s', hG, hs, h⟩

theorem run_one {P : Par ℚ} {d : Dyn ℚ} {L : List (PhaseSt ℚ P.G.ns)} {check : St P → Bool}
    (h : run P d L 1 check = true) :
    ∃ G s', mkGrid P.G P.B = .ok G ∧
      timeMarch P (noInterp P) { dyn := d, L := L, G := G } = .ok s' ∧
      check (stepTime P s') = true := by
  obtain ⟨G, s', h1, h2, h3⟩ := run_ok h
  unfold steps at h2
  cases h : timeMarch P (noInterp P) { dyn := d, L := L, G := G } with
  | error e => rw [h] at h2; cases h2
  | ok s1 =>
    rw [h] at h2
    exact ⟨G, s1, h1, h, by cases h2; exact h3⟩

end Mpm.Ex

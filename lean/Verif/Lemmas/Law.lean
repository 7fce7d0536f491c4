import Verif.Lemmas.Ops
import Verif.Lemmas.History

/-! Constitutive laws inside a time step. -/

set_option linter.unusedSectionVars false

namespace Mpm
open Spec

section
variable {K : Type} [Field K] [LinearOrder K] [IsStrictOrderedRing K]

theorem trace3 (A : Mat K) : A.trace = A 0 0 + A 1 1 + A 2 2 := by
  simp [Matrix.trace, Fin.sum_univ_three]

theorem trace_one3 : (1 : Mat K).trace = 3 := by
  rw [trace3]; simp; norm_num

/-- Deviator, as in the textbooks. -/
theorem trace_sub_third (A : Mat K) : (A - (A.trace / 3) • (1 : Mat K)).trace = 0 := by
  rw [Matrix.trace_sub, Matrix.trace_smul, trace_one3, smul_eq_mul]
  field_simp; ring

theorem frob_smul {n : ℕ} (c : K) (A B : Matrix (Fin n) (Fin n) K) :
    frob (c • A) B = c * frob A B := by
  unfold frob
  simp only [Matrix.smul_apply, smul_eq_mul, Finset.mul_sum, mul_assoc]

theorem frob_comm {n : ℕ} (A B : Matrix (Fin n) (Fin n) K) : frob A B = frob B A := by
  unfold frob; simp only [mul_comm]

theorem frob_smul_right {n : ℕ} (c : K) (A B : Matrix (Fin n) (Fin n) K) :
    frob A (c • B) = c * frob A B := by
  rw [frob_comm, frob_smul, frob_comm]

theorem frob_add {n : ℕ} (A B C : Matrix (Fin n) (Fin n) K) :
    frob (A + B) C = frob A C + frob B C := by
  unfold frob
  simp only [Matrix.add_apply, add_mul, Finset.sum_add_distrib]

theorem frob_sub {n : ℕ} (A B C : Matrix (Fin n) (Fin n) K) :
    frob (A - B) C = frob A C - frob B C := by
  unfold frob
  simp only [Matrix.sub_apply, sub_mul, Finset.sum_sub_distrib]

theorem frob_self_nonneg {n : ℕ} (A : Matrix (Fin n) (Fin n) K) : 0 ≤ frob A A :=
  Finset.sum_nonneg fun _ _ => Finset.sum_nonneg fun _ _ => mul_self_nonneg _

theorem frob_one (A : Mat K) : frob (1 : Mat K) A = A.trace := by
  unfold frob
  simp [Fin.sum_univ_three, trace3, Matrix.one_apply]

theorem frob_self_pos {n : ℕ} {A : Matrix (Fin n) (Fin n) K} (h : A ≠ 0) : 0 < frob A A := by
  refine lt_of_le_of_ne (frob_self_nonneg A) fun e => h ?_
  have h1 := (Finset.sum_eq_zero_iff_of_nonneg (fun i _ =>
    Finset.sum_nonneg fun _ _ => mul_self_nonneg _)).1 e.symm
  ext i j
  have h2 := (Finset.sum_eq_zero_iff_of_nonneg (fun j _ => mul_self_nonneg _)).1
    (h1 i (Finset.mem_univ i)) j (Finset.mem_univ j)
  exact mul_self_eq_zero.1 h2

/-- The context in which a law runs has the phase's parameters and the step's time and length. -/
theorem lawCtx_fields {P : Par K} {d : Dyn K} {ns : ℕ} {s : Fin ns → K} {m0 : Mat0 K} {p : ℕ}
    {ph : Phase K ns} :
    (lawCtx P d s m0 p ph).mat = ph.par ∧ (lawCtx P d s m0 p ph).dt = d.dt ∧
    (lawCtx P d s m0 p ph).ops = P.ops ∧ (lawCtx P d s m0 p ph).mat0 = m0 ∧
    (lawCtx P d s m0 p ph).p = p ∧ (lawCtx P d s m0 p ph).t = d.t := ⟨rfl, rfl, rfl, rfl, rfl, rfl⟩

variable [FloorRing K]

/-- A step of a point: strain update, law, stress update, and then nothing but position,
velocity, density, fractions and kinetic pressure changes. -/
theorem Evolved.law {P : Par K} {d : Dyn K} {m0 : Option (Mat0 K)}
    {Gw Gb Gm : Grid K P.G.N P.G.ns} {p : ℕ} {ph : Phase K P.G.ns} {a b : Particle K P.G.ns}
    (h : Evolved P d m0 Gw Gb Gm p ph a b) :
    ∃ (a3 a4 a5 : Particle K P.G.ns) (l : List (Vis × XF K)),
      a3 = { a with b := a3.b, n_star := a3.n_star, N := a3.N, Gs := a3.Gs } ∧
      a3.updateStrain P.G.nx P.M_tol d.dt Gb = .ok a4 ∧
      runLaw ph.law (lawCtx P d P.G.s (m0.getD ph.par) p ph) a4 = .ok (a5, l) ∧
      b = { a5.applyStress d.dt with x := b.x, v := b.v, rho := b.rho, phi := b.phi, pk := b.pk } := by
  obtain ⟨a2, a3, a4, a5, a6, h2, h3, ⟨vis, vis', h4⟩, h5, h6, h7⟩ := h
  have e1 : a.incrementGravity P d.g p = { a with b := if p = 0 then bodyForce P d.g else a.b } := by
    unfold Particle.incrementGravity; split <;> rfl
  rw [e1] at h2
  unfold Particle.getReferenceNode at h2
  split at h2
  · cases h2
  rw [Except.ok.injEq] at h2
  obtain ⟨k, _, _, e3⟩ := getBasis_ok h3
  obtain ⟨mp1, mp2, l, g1, g2, -, g4⟩ := stressStrain_ok h4
  refine ⟨a3, mp1, mp2, l, ?_, g1, g2, ?_⟩
  · rw [e3, ← h2]
  · have e5 := h5.frame
    have e6 : a6 = { a5 with x := a6.x, v := a6.v, rho := a6.rho } := by
      rcases h6 with ⟨_, rfl⟩ | ⟨_, iv, iv', h6⟩
      · rfl
      · obtain ⟨nd, _, _, e⟩ := move_ok h6
        have e1 : a6 = (moveClosed P.M_tol d.dt Gm nd a5 iv).1 := congrArg Prod.fst e
        rw [e1]; rfl
    have e7 := wrapped_frame P a6
    rw [h7, e7]
    rw [e6]
    rw [e5, g4]
    rfl

end
end Mpm

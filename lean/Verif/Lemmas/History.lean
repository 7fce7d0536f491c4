import Verif.Lemmas.MatClosed

/-! Following points through runs of any length. -/

set_option linter.unusedSectionVars false

namespace Mpm
open Spec

section
variable {K : Type} [Field K] [LinearOrder K] [IsStrictOrderedRing K] [FloorRing K]

/-- `d` is what `P` holds during one of the first `n` steps from `d0`: the times are
`t, t+dt, t+2dt, ...`, and the forces are those of the user's function at that time. -/
def StepDyn (P : Par K) (n : ℕ) (d0 d : Dyn K) : Prop :=
  ∃ k < n, d.t = d0.t + k * d0.dt ∧ d.dt = d0.dt ∧ d.g = (P.forces d.t).1

theorem updateForces_dyn (P : Par K) (d : Dyn K) :
    (d.updateForces P).t = d.t ∧ (d.updateForces P).dt = d.dt ∧
      (d.updateForces P).g = (P.forces d.t).1 := ⟨rfl, rfl, rfl⟩

theorem stepDyn_first {P : Par K} {n : ℕ} {d : Dyn K} :
    StepDyn P (n + 1) d (d.updateForces P) :=
  ⟨0, by omega, by simp [updateForces_dyn], rfl, rfl⟩

theorem stepDyn_succ {P : Par K} {n : ℕ} {s s1 : St P} {d : Dyn K}
    (hd : s1.dyn = s.dyn.updateForces P) (h : StepDyn P n (stepTime P s1).dyn d) :
    StepDyn P (n + 1) s.dyn d := by
  obtain ⟨k, hk, h1, h2, h3⟩ := h
  refine ⟨k + 1, by omega, ?_, ?_, h3⟩
  · rw [h1]
    simp only [stepTime, hd, updateForces_dyn]
    push_cast; ring
  · rw [h2]; simp only [stepTime, hd, updateForces_dyn]

theorem SamePhase.fields {ns : ℕ} {a b : Phase K ns} (h : SamePhase a b) :
    b.law = a.law ∧ b.par = a.par ∧ b.A = a.A ∧ b.hasIv = a.hasIv ∧ b.phi = a.phi := by
  rw [h]; exact ⟨rfl, rfl, rfl, rfl, rfl⟩

/-- What holds between a point and its evolution in every step, and is a preorder, holds between
the points at the end of a run and their ancestors: points stored at the start, or points made by
an inlet during the run. -/
theorem steps_descend {P : Par K} {interp : Interp K P.G.N}
    (R : ℕ → Phase K P.G.ns → Particle K P.G.ns → Particle K P.G.ns → Prop)
    (hrefl : ∀ p ph a, R p ph a a)
    (htrans : ∀ p ph a b c, R p ph a b → R p ph b c → R p ph a c)
    (hph : ∀ p ph ph' a b, SamePhase ph ph' → R p ph' a b → R p ph a b)
    {n : ℕ} {s s' : St P}
    (hev : ∀ d, StepDyn P n s.dyn d → ∀ m0 Gw Gb Gm p ph a b,
      Evolved P d m0 Gw Gb Gm p ph a b → R p ph a b)
    (hL : Counted s.L) (h : steps P interp n s = .ok s') :
    Counted s'.L ∧ IdxRel (fun p A B => SamePhase A.ph B.ph ∧ ∀ b ∈ B.pts,
      (∃ a ∈ A.pts, R p A.ph a b) ∨
      ((P.B.inlet_right = true ∨ P.B.inlet_top = true) ∧
        ∃ d f, StepDyn P n s.dyn d ∧ Fresh P d A.ph f ∧ R p A.ph f b)) s.L s'.L := by
  induction n generalizing s with
  | zero =>
    cases h
    refine ⟨hL, rfl, fun i a b ha hb => ?_⟩
    rw [ha] at hb
    cases hb
    exact ⟨.refl _, fun b hb => .inl ⟨b, hb, hrefl _ _ _⟩⟩
  | succ n ih =>
    obtain ⟨s1, h1, h2⟩ := steps_succ.1 h
    have hdyn := (timeMarch_table h1).2.2.2
    obtain ⟨T, -, -, s3, -, -, -, -, -, -, hR⟩ := timeMarch_points hL h1
    have hT : StepDyn P (n + 1) s.dyn T.d := by rw [T.hd]; exact stepDyn_first
    obtain ⟨c, hR2⟩ := ih (s := stepTime P s1)
      (fun d hd => hev d (stepDyn_succ hdyn hd))
      (show Counted s1.L from timeMarch_counted hL h1) h2
    refine ⟨c, (hR.comp hR2).imp ?_⟩
    rintro p A C ⟨B, ⟨e1, -, k1⟩, e2, k2⟩
    refine ⟨e1.trans e2, fun c hc => ?_⟩
    rcases k2 c hc with ⟨b, hb, hbc⟩ | ⟨hi, d, f, hd, hf, hfc⟩
    · have hbc' := hph _ _ _ _ _ e1 hbc
      rcases k1 b hb with ⟨a, ha, hab⟩ | ⟨hi, hf⟩
      · exact .inl ⟨a, ha, htrans _ _ _ _ _ (hev _ hT _ _ _ _ _ _ _ _ hab) hbc'⟩
      · exact .inr ⟨hi, T.d, b, hT, hf, hbc'⟩
    · refine .inr ⟨hi, d, f, stepDyn_succ hdyn hd, ?_, hph _ _ _ _ _ e1 hfc⟩
      obtain ⟨S0, ph', x, y, mp, hs, hm, e⟩ := hf
      exact ⟨S0, ph', x, y, mp, e1.trans hs, hm, e⟩

/-- Without inlets and outlets every point has one descendant, at the same place of the list. -/
theorem steps_closed {P : Par K} {interp : Interp K P.G.N}
    (ho1 : P.B.outlet_left = false) (ho2 : P.B.outlet_bottom = false)
    (hi1 : P.B.inlet_right = false) (hi2 : P.B.inlet_top = false)
    (R : ℕ → Phase K P.G.ns → Particle K P.G.ns → Particle K P.G.ns → Prop)
    (hrefl : ∀ p ph a, R p ph a a)
    (htrans : ∀ p ph a b c, R p ph a b → R p ph b c → R p ph a c)
    (hph : ∀ p ph ph' a b, SamePhase ph ph' → R p ph' a b → R p ph a b)
    {n : ℕ} {s s' : St P}
    (hev : ∀ d, StepDyn P n s.dyn d → ∀ m0 Gw Gb Gm p ph a b,
      Evolved P d m0 Gw Gb Gm p ph a b → R p ph a b)
    (hL : Counted s.L) (h : steps P interp n s = .ok s') :
    Counted s'.L ∧ IdxRel (fun p A B => SamePhase A.ph B.ph ∧
      List.Forall₂ (R p A.ph) A.pts B.pts) s.L s'.L := by
  induction n generalizing s with
  | zero =>
    cases h
    refine ⟨hL, rfl, fun i a b ha hb => ?_⟩
    rw [ha] at hb
    cases hb
    exact ⟨.refl _, forall₂_refl (fun _ => hrefl _ _ _) _⟩
  | succ n ih =>
    obtain ⟨s1, h1, h2⟩ := steps_succ.1 h
    have hdyn := (timeMarch_table h1).2.2.2
    obtain ⟨T, -, -, s3, -, -, -, -, -, -, hR⟩ := timeMarch_idx hL h1
    have hT : StepDyn P (n + 1) s.dyn T.d := by rw [T.hd]; exact stepDyn_first
    obtain ⟨c, hR2⟩ := ih (s := stepTime P s1)
      (fun d hd => hev d (stepDyn_succ hdyn hd))
      (show Counted s1.L from timeMarch_counted hL h1) h2
    refine ⟨c, (hR.comp hR2).imp ?_⟩
    rintro p A C ⟨B, ⟨e1, -, evo, kept, new, k1, -, -, ko, kn, -, kB⟩, e2, k2⟩
    rw [ko ho1 ho2, kn hi1 hi2, List.append_nil] at kB
    rw [kB] at k2
    refine ⟨e1.trans e2, (forall₂_comp k1 k2).imp ?_⟩
    rintro a c ⟨b, hab, hbc⟩
    exact htrans _ _ _ _ _ (hev _ hT _ _ _ _ _ _ _ _ hab) (hph _ _ _ _ _ e1 hbc)

/-- Everything a point keeps, or how it changes, apart from motion: for the stress-like arrays,
the body force and the mass. -/
theorem Evolved.mats {P : Par K} {d : Dyn K} {m0 : Option (Mat0 K)}
    {Gw Gb Gm : Grid K P.G.N P.G.ns} {p : ℕ} {ph : Phase K P.G.ns} {a b : Particle K P.G.ns}
    (h : Evolved P d m0 Gw Gb Gm p ph a b) :
    ∃ (a3 a4 : Particle K P.G.ns) (vis vis' : Vis → Fin P.G.N → XF K), a3.stressStrain P.G.nx P.M_tol Gb ph.law
        (lawCtx P d P.G.s (m0.getD ph.par) p ph) vis = .ok (a4, vis') ∧
      a3.stress = a.stress ∧ a3.strain = a.strain ∧ a3.dev_stress = a.dev_stress ∧
      a3.dstress = a.dstress ∧ a3.m = a.m ∧ a3.V = a.V ∧
      (∃ k : Fin P.G.N, a3.Gs = shapeG Gw.dx Gw.dy ![a.x 0 - Gw.X k, a.x 1 - Gw.Y k, a.x 2 - 0]) ∧
      a3.b = (if p = 0 then bodyForce P d.g else a.b) ∧
      b.stress = a4.stress ∧ b.strain = a4.strain ∧ b.dev_stress = a4.dev_stress ∧
      b.dstress = a4.dstress ∧ b.m = a4.m ∧ b.V = a4.V ∧ b.b = a3.b := by
  obtain ⟨a2, a3, a4, a5, a6, h2, h3, ⟨vis, vis', h4⟩, h5, h6, h7⟩ := h
  have e1 : a.incrementGravity P d.g p = { a with b := if p = 0 then bodyForce P d.g else a.b } := by
    unfold Particle.incrementGravity; split <;> rfl
  rw [e1] at h2
  unfold Particle.getReferenceNode at h2
  split at h2
  · cases h2
  rw [Except.ok.injEq] at h2
  obtain ⟨k, _, _, e3⟩ := getBasis_ok h3
  have e5 := h5.frame
  obtain ⟨s6, t6, v6, w6, b6, m6, V6, -⟩ := h6.mats
  have e7 := wrapped_frame P a6
  have k4 := (stressStrain_frame h4).1
  refine ⟨a3, a4, vis, vis', h4, ?_, ?_, ?_, ?_, ?_, ?_, ⟨k, ?_⟩, ?_, ?_, ?_, ?_, ?_, ?_, ?_, ?_⟩
  · rw [e3, ← h2]
  · rw [e3, ← h2]
  · rw [e3, ← h2]
  · rw [e3, ← h2]
  · rw [e3, ← h2]
  · rw [e3, ← h2]
  · rw [e3, ← h2]
  · rw [e3, ← h2]
  · rw [h7, e7]; exact s6.trans (by rw [e5])
  · rw [h7, e7]; exact t6.trans (by rw [e5])
  · rw [h7, e7]; exact v6.trans (by rw [e5])
  · rw [h7, e7]; exact w6.trans (by rw [e5])
  · rw [h7, e7]; exact m6.trans (by rw [e5])
  · rw [h7, e7]; exact V6.trans (by rw [e5])
  · rw [h7, e7]; exact b6.trans ((by rw [e5] : a5.b = a4.b).trans k4.b)

end
end Mpm

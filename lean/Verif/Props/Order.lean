import Verif.Lemmas.Reorder
import Verif.Lemmas.Step
import Verif.ExRun

/-!
# C95: the storage order of the points of a phase
-/

set_option linter.unusedSectionVars false

namespace Mpm
open Spec

section
variable {K : Type} [Field K] [LinearOrder K] [FloorRing K] {ns N : ℕ}

theorem whenSet_same {b : Bool} {f : List (PhaseSt K ns) → Res (List (PhaseSt K ns))}
    (hf : ∀ L L' M, SameList L L' → f L = .ok M → ∃ M', f L' = .ok M' ∧ SameList M M')
    {L L' M : List (PhaseSt K ns)} (hL : SameList L L') (h : whenSet b f L = .ok M) :
    ∃ M', whenSet b f L' = .ok M' ∧ SameList M M' := by
  unfold whenSet at *
  split at h
  · rename_i hb
    rw [if_pos hb]
    exact hf _ _ _ hL h
  · rename_i hb
    rw [if_neg hb]
    cases h
    exact ⟨L', rfl, hL⟩

theorem outlet_same {test : Particle K ns → Bool} {L L' M : List (PhaseSt K ns)}
    (hL : SameList L L')
    (h : mapPhases (fun _ a => do
      let (n, l) ← outletLoop test a.ph.n (a.ph.n, a.pts)
      return { ph := { a.ph with n := n }, pts := l }) 0 L = .ok M) :
    ∃ M', mapPhases (fun _ a => do
      let (n, l) ← outletLoop test a.ph.n (a.ph.n, a.pts)
      return { ph := { a.ph with n := n }, pts := l }) 0 L' = .ok M' ∧ SameList M M' := by
  refine mapPhases_same ?_ hL h
  intro p a a' b ha h
  have hp := ha.2.1.filter (fun x => !test x)
  rw [ha.2.2, outletLoop_eq] at h
  obtain rfl := Except.ok.inj h
  refine ⟨⟨{ a'.ph with n := (a'.pts.filter fun x => !test x).length },
    a'.pts.filter fun x => !test x⟩, ?_, ?_, hp, rfl⟩
  · rw [ha.count, outletLoop_eq]; rfl
  · obtain ⟨ph', pts'⟩ := a'
    obtain ⟨rfl, -, -⟩ : ph' = a.ph ∧ _ := ha
    simp only [hp.length_eq]

theorem appendPoint_same {P : Par K} {S0 : First K} {g x y : K} {a a' b : PhaseSt K ns}
    (ha : SamePts a a') (h : appendPoint P S0 g x y a = .ok b) :
    ∃ b', appendPoint P S0 g x y a' = .ok b' ∧ SamePts b b' := by
  obtain ⟨mp, h1, h2⟩ := res_bind_ok.1 h
  cases h2
  refine ⟨⟨{ a'.ph with n := a'.ph.n + 1 }, a'.pts ++ [mp]⟩, ?_, ?_, ha.2.1.append_right _, ?_⟩
  · unfold appendPoint
    rw [ha.1, h1]; rfl
  · obtain ⟨ph', pts'⟩ := a'
    obtain ⟨rfl, -, -⟩ : ph' = a.ph ∧ _ := ha
    rfl
  · change a.ph.n + 1 = (a.pts ++ [mp]).length
    rw [ha.2.2, List.length_append]
    rfl

theorem foldlM_same {α : Type} {f : PhaseSt K ns → α → Res (PhaseSt K ns)}
    (hf : ∀ x a a' b, SamePts a a' → f a x = .ok b → ∃ b', f a' x = .ok b' ∧ SamePts b b')
    (l : List α) {a a' b : PhaseSt K ns} (ha : SamePts a a') (h : l.foldlM f a = .ok b) :
    ∃ b', l.foldlM f a' = .ok b' ∧ SamePts b b' := by
  induction l generalizing a a' with
  | nil => cases h; exact ⟨a', rfl, ha⟩
  | cons x l ih =>
    obtain ⟨c, h1, h2⟩ := res_bind_ok.1 h
    obtain ⟨c', h3, h4⟩ := hf x _ _ _ ha h1
    obtain ⟨b', h5, h6⟩ := ih h4 h2
    refine ⟨b', ?_, h6⟩
    rw [List.foldlM_cons, h3]
    exact h5

theorem inletRight_same {P : Par K} {d : Dyn K} {L L' M : List (PhaseSt K ns)}
    (hL : SameList L L') (h : inletRight P d L = .ok M) :
    ∃ M', inletRight P d L' = .ok M' ∧ SameList M M' := by
  unfold inletRight at *
  rw [hL.first]
  refine mapPhases_same ?_ hL h
  intro p a a' b ha h
  obtain ⟨due, h1, h2⟩ := res_bind_ok.1 h
  rw [ha.1, h1]
  change ∃ b', (if due = true then _ else _) = _ ∧ _
  split at h2
  · rename_i hd
    rw [if_pos hd]
    refine foldlM_same ?_ _ ha h2
    intro y a a' b ha h
    rw [ha.1]
    exact appendPoint_same ha h
  · rename_i hd
    rw [if_neg hd]
    cases h2
    exact ⟨a', rfl, ha⟩

theorem inletTop_same {P : Par K} {d : Dyn K} {L L' M : List (PhaseSt K ns)}
    (hL : SameList L L') (h : inletTop P d L = .ok M) :
    ∃ M', inletTop P d L' = .ok M' ∧ SameList M M' := by
  unfold inletTop at *
  rw [hL.first]
  refine mapPhases_same ?_ hL h
  intro p a a' b ha h
  obtain ⟨due, h1, h2⟩ := res_bind_ok.1 h
  rw [ha.1, h1]
  change ∃ b', (if due = true then _ else _) = _ ∧ _
  split at h2
  · rename_i hd
    rw [if_pos hd]
    exact appendPoint_same ha h2
  · rename_i hd
    rw [if_neg hd]
    cases h2
    exact ⟨a', rfl, ha⟩

theorem movePoints_same {nx : ℕ} {M_tol dt : K} {iv : Vec K} {G : Grid K N ns}
    {L L' M : List (PhaseSt K ns)} (hL : SameList L L')
    (h : movePoints nx M_tol dt iv G L = .ok M) :
    ∃ M', movePoints nx M_tol dt iv G L' = .ok M' ∧ SameList M M' := by
  refine mapPhases_same ?_ hL h
  intro p a a' b ha h
  rw [ha.1]
  split at h
  · rename_i hr
    rw [if_pos hr]
    obtain ⟨r, h1, h2⟩ := res_bind_ok.1 h
    cases h2
    rw [ha.2.2] at h1
    obtain ⟨r', h3, h4⟩ := mapN_perm ha.2.1 h1
    refine ⟨{ a' with pts := r' }, ?_, ha.1, h4, ?_⟩
    · rw [ha.2.2, ha.2.1.length_eq, h3, ← ha.1]; rfl
    · change a.ph.n = r.length
      rw [ha.2.2, mapN_length h1]
  · rename_i hr
    rw [if_neg hr]
    obtain ⟨⟨r, iv'⟩, h1, h2⟩ := res_bind_ok.1 h
    cases h2
    rw [ha.2.2] at h1
    obtain ⟨r', h3, h4⟩ := forN_perm (move_shift nx M_tol dt G) ha.2.1 h1
    refine ⟨⟨{ a'.ph with iv := iv' }, r'⟩, ?_, ?_, h4, ?_⟩
    · rw [ha.2.2, ha.2.1.length_eq, h3, ha.1]; rfl
    · obtain ⟨ph', pts'⟩ := a'
      obtain ⟨rfl, -, -⟩ : ph' = a.ph ∧ _ := ha
      rfl
    · change a.ph.n = r.length
      rw [ha.2.2, forN_length h1]

theorem updateStressStrain_same {nx ny : ℕ} {P : Par K} {d : Dyn K} {s : Fin ns → K}
    {L L' M : List (PhaseSt K ns)} {G H : Grid K (ny * nx) ns} (hL : SameList L L')
    (h : updateStressStrain P d s L G = .ok (M, H)) :
    ∃ M', updateStressStrain P d s L' G = .ok (M', H) ∧ SameList M M' := by
  unfold updateStressStrain at *
  obtain ⟨⟨M1, vis⟩, h1, h2⟩ := res_bind_ok.1 h
  obtain ⟨rfl, rfl⟩ := Prod.mk.inj (Except.ok.inj h2)
  rw [hL.mat0]
  obtain ⟨M', h3, h4⟩ := forPhases_same (by
    intro p a a' v b v' ha h
    obtain ⟨⟨r, v1⟩, h1, h2⟩ := res_bind_ok.1 h
    obtain ⟨rfl, rfl⟩ := Prod.mk.inj (Except.ok.inj h2)
    rw [ha.2.2] at h1
    obtain ⟨r', h3, h4⟩ := forN_perm (fun mp s t => stressStrain_shift nx P.M_tol G a.ph.law
      (lawCtx P d _ ((mat0 L).getD a.ph.par) p a.ph) mp s t) ha.2.1 h1
    refine ⟨{ a' with pts := r' }, ?_, ha.1, h4, ?_⟩
    · rw [ha.1, ha.2.2, ha.2.1.length_eq, h3]; rfl
    · change a.ph.n = r.length
      rw [ha.2.2, forN_length h1]) hL h1
  exact ⟨M', by rw [h3]; rfl, h4⟩

theorem moveGrainsize_same {P : Par K} {G : Grid K N ns} {L L' M : List (PhaseSt K ns)}
    (hL : SameList L L') (h : moveGrainsize P G L = .ok M) :
    ∃ M', moveGrainsize P G L' = .ok M' ∧ SameList M M' := by
  obtain ⟨L1, h1, h2⟩ := res_bind_ok.1 h
  obtain ⟨L1', h3, h4⟩ := mapPoints_same hL h1
  unfold moveGrainsize
  rw [h3]
  change ∃ M', (if P.normalise_phi = true then _ else _) = _ ∧ _
  split at h2
  · rename_i hn
    rw [if_pos hn]
    exact mapPoints_same h4 h2
  · rename_i hn
    rw [if_neg hn]
    cases h2
    exact ⟨L1', rfl, h4⟩

end

section
variable {K : Type} [Field K] [LinearOrder K] [IsStrictOrderedRing K] [FloorRing K]
variable {P : Par K} {interp : Interp K P.G.N} {s s' s1 : St P}

/-- The same time, settings and grid, and the same points in another order. -/
structure SameSt (s s' : St P) : Prop where
  dyn : s'.dyn = s.dyn
  grid : s'.G = s.G
  pts : SameList s.L s'.L

theorem gridPhase_same (hs : SameSt s s') (h : gridPhase P s = .ok s1) :
    ∃ s1', gridPhase P s' = .ok s1' ∧ SameSt s1 s1' := by
  obtain ⟨d, L, G⟩ := s
  obtain ⟨d', L', G'⟩ := s'
  obtain ⟨(rfl : d' = d), (rfl : G' = G), hL⟩ := hs
  unfold gridPhase at h ⊢
  obtain ⟨L1, h1, h⟩ := res_bind_ok.1 h
  obtain ⟨L1', h1', k1⟩ := mapPoints_same hL h1
  obtain ⟨L2, h2, h⟩ := res_bind_ok.1 h
  obtain ⟨L2', h2', k2⟩ := mapPoints_same k1 h2
  obtain ⟨L3, h3, h⟩ := res_bind_ok.1 h
  obtain ⟨L3', h3', k3⟩ := mapPoints_same k2 h3
  obtain ⟨L4, h4, h⟩ := res_bind_ok.1 h
  obtain ⟨L4', h4', k4⟩ := whenSet_same (fun _ _ _ => mapPoints_same) k3 h4
  obtain ⟨G1, h5, h⟩ := res_bind_ok.1 h
  obtain ⟨⟨L6, G2⟩, h6, h⟩ := res_bind_ok.1 h
  obtain ⟨L6', h6', k6⟩ := updateStressStrain_same k4 h6
  obtain ⟨G3, h7, h⟩ := res_bind_ok.1 h
  cases h
  rw [c07_order_independent_mapping k4.counted k4.reordered] at h5
  rw [c07_order_independent_forces k6.counted k6.reordered] at h7
  refine ⟨⟨d'.updateForces P, L6', G3⟩, ?_, rfl, rfl, k6⟩
  refine res_bind_ok.2 ⟨L1', h1', ?_⟩
  refine res_bind_ok.2 ⟨L2', h2', ?_⟩
  refine res_bind_ok.2 ⟨L3', h3', ?_⟩
  refine res_bind_ok.2 ⟨L4', h4', ?_⟩
  refine res_bind_ok.2 ⟨G1, h5, ?_⟩
  refine res_bind_ok.2 ⟨(L6', G2), h6', ?_⟩
  exact res_bind_ok.2 ⟨G3, h7, rfl⟩

theorem momentumPhase_same (hs : SameSt s s') (h : momentumPhase P interp s = .ok s1) :
    ∃ s1', momentumPhase P interp s' = .ok s1' ∧ SameSt s1 s1' := by
  obtain ⟨d, L, G⟩ := s
  obtain ⟨d', L', G'⟩ := s'
  obtain ⟨(rfl : d' = d), (rfl : G' = G), hL⟩ := hs
  unfold momentumPhase at h ⊢
  obtain ⟨G1, h1, h⟩ := res_bind_ok.1 h
  cases h
  rw [hL.mat0]
  exact ⟨_, res_bind_ok.2 ⟨G1, h1, rfl⟩, rfl, rfl, hL⟩

theorem segregationPhase_same (hs : SameSt s s') (h : segregationPhase P interp s = .ok s1) :
    ∃ s1', segregationPhase P interp s' = .ok s1' ∧ SameSt s1 s1' := by
  obtain ⟨d, L, G⟩ := s
  obtain ⟨d', L', G'⟩ := s'
  obtain ⟨(rfl : d' = d), (rfl : G' = G), hL⟩ := hs
  unfold segregationPhase at h ⊢
  split at h
  · rename_i hseg
    rw [if_pos hseg]
    split at h
    · cases h
    · rename_i hd
      rw [if_neg hd]
      obtain ⟨L1, h1, h⟩ := res_bind_ok.1 h
      cases h
      rw [hL.mat0]
      obtain ⟨L1', h1', k1⟩ := moveGrainsize_same hL h1
      exact ⟨_, res_bind_ok.2 ⟨L1', h1', rfl⟩, rfl, rfl, k1⟩
  · rename_i hseg
    rw [if_neg hseg]
    cases h
    exact ⟨_, rfl, rfl, rfl, hL⟩

theorem pointsPhase_same (hs : SameSt s s') (h : pointsPhase P s = .ok s1) :
    ∃ s1', pointsPhase P s' = .ok s1' ∧ SameSt s1 s1' := by
  obtain ⟨d, L, G⟩ := s
  obtain ⟨d', L', G'⟩ := s'
  obtain ⟨(rfl : d' = d), (rfl : G' = G), hL⟩ := hs
  unfold pointsPhase at h ⊢
  obtain ⟨L1, h1, h⟩ := res_bind_ok.1 h
  obtain ⟨L1', h1', k1⟩ := movePoints_same hL h1
  obtain ⟨L2, h2, h⟩ := res_bind_ok.1 h
  obtain ⟨L2', h2', k2⟩ := whenSet_same (fun _ _ _ => outlet_same) k1 h2
  obtain ⟨L3, h3, h⟩ := res_bind_ok.1 h
  obtain ⟨L3', h3', k3⟩ := whenSet_same (fun _ _ _ => outlet_same) k2 h3
  obtain ⟨L4, h4, h⟩ := res_bind_ok.1 h
  obtain ⟨L4', h4', k4⟩ := whenSet_same (fun _ _ _ => inletRight_same) k3 h4
  obtain ⟨L5, h5, h⟩ := res_bind_ok.1 h
  obtain ⟨L5', h5', k5⟩ := whenSet_same (fun _ _ _ => inletTop_same) k4 h5
  obtain ⟨L6, h6, h⟩ := res_bind_ok.1 h
  obtain ⟨L6', h6', k6⟩ := whenSet_same (fun _ _ _ => mapPoints_same) k5 h6
  cases h
  refine ⟨⟨d', L6', G'⟩, ?_, rfl, rfl, k6⟩
  refine res_bind_ok.2 ⟨L1', h1', ?_⟩
  refine res_bind_ok.2 ⟨L2', h2', ?_⟩
  refine res_bind_ok.2 ⟨L3', h3', ?_⟩
  refine res_bind_ok.2 ⟨L4', h4', ?_⟩
  refine res_bind_ok.2 ⟨L5', h5', ?_⟩
  exact res_bind_ok.2 ⟨L6', h6', rfl⟩

theorem timeMarch_same (hs : SameSt s s') (h : timeMarch P interp s = .ok s1) :
    ∃ s1', timeMarch P interp s' = .ok s1' ∧ SameSt s1 s1' := by
  obtain ⟨a, h1, h⟩ := res_bind_ok.1 h
  obtain ⟨a', h1', k1⟩ := gridPhase_same hs h1
  obtain ⟨b, h2, h⟩ := res_bind_ok.1 h
  obtain ⟨b', h2', k2⟩ := momentumPhase_same k1 h2
  obtain ⟨c, h3, h⟩ := res_bind_ok.1 h
  obtain ⟨c', h3', k3⟩ := segregationPhase_same k2 h3
  obtain ⟨e', h4', k4⟩ := pointsPhase_same k3 h
  refine ⟨e', ?_, k4⟩
  refine res_bind_ok.2 ⟨a', h1', ?_⟩
  refine res_bind_ok.2 ⟨b', h2', ?_⟩
  exact res_bind_ok.2 ⟨c', h3', h4'⟩

theorem steps_same (n : ℕ) (hs : SameSt s s') (h : steps P interp n s = .ok s1) :
    ∃ s1', steps P interp n s' = .ok s1' ∧ SameSt s1 s1' := by
  induction n generalizing s s' with
  | zero => cases h; exact ⟨s', rfl, hs⟩
  | succ n ih =>
    obtain ⟨a, h1, h⟩ := res_bind_ok.1 h
    obtain ⟨a', h1', k⟩ := timeMarch_same hs h1
    obtain ⟨b', h2', k2⟩ := ih (s := stepTime P a) (s' := stepTime P a')
      ⟨by simp only [stepTime, k.dyn], k.grid, k.pts⟩ h
    exact ⟨b', res_bind_ok.2 ⟨a', h1', h2'⟩, k2⟩

theorem Reordered.symm {ns : ℕ} {L L' : List (PhaseSt K ns)} (h : Reordered L L') :
    Reordered L' L :=
  (h.flip).imp fun _ _ h => ⟨h.1.symm, h.2.symm⟩

/-- C95.  A time step from the same points stored in another order (within their phases) succeeds
exactly when the original does, and leaves the same grid and the same points in some order. -/
theorem c95_step (hL : Counted s.L) (hd : s'.dyn = s.dyn) (hG : s'.G = s.G)
    (ho : Reordered s.L s'.L) :
    (∀ s1, timeMarch P interp s = .ok s1 → ∃ s1', timeMarch P interp s' = .ok s1' ∧
      s1'.dyn = s1.dyn ∧ s1'.G = s1.G ∧ Reordered s1.L s1'.L) ∧
    ((∃ s1, timeMarch P interp s = .ok s1) ↔ ∃ s1, timeMarch P interp s' = .ok s1) := by
  have h1 : SameSt s s' := ⟨hd, hG, sameList_of ho hL⟩
  have h2 : SameSt s' s := ⟨hd.symm, hG.symm, sameList_of ho.symm (ho.counted hL)⟩
  refine ⟨fun s1 h => ?_, fun ⟨s1, h⟩ => ?_, fun ⟨s1, h⟩ => ?_⟩
  · obtain ⟨s1', h', k⟩ := timeMarch_same h1 h
    exact ⟨s1', h', k.dyn, k.grid, k.pts.reordered⟩
  · obtain ⟨s1', h', -⟩ := timeMarch_same h1 h
    exact ⟨s1', h'⟩
  · obtain ⟨s1', h', -⟩ := timeMarch_same h2 h
    exact ⟨s1', h'⟩

/-- C95.  The same for any number of steps. -/
theorem c95_run (n : ℕ) (hL : Counted s.L) (hd : s'.dyn = s.dyn) (hG : s'.G = s.G)
    (ho : Reordered s.L s'.L) :
    (∀ s1, steps P interp n s = .ok s1 → ∃ s1', steps P interp n s' = .ok s1' ∧
      s1'.dyn = s1.dyn ∧ s1'.G = s1.G ∧ Reordered s1.L s1'.L) ∧
    ((∃ s1, steps P interp n s = .ok s1) ↔ ∃ s1, steps P interp n s' = .ok s1) := by
  have h1 : SameSt s s' := ⟨hd, hG, sameList_of ho hL⟩
  have h2 : SameSt s' s := ⟨hd.symm, hG.symm, sameList_of ho.symm (ho.counted hL)⟩
  refine ⟨fun s1 h => ?_, fun ⟨s1, h⟩ => ?_, fun ⟨s1, h⟩ => ?_⟩
  · obtain ⟨s1', h', k⟩ := steps_same n h1 h
    exact ⟨s1', h', k.dyn, k.grid, k.pts.reordered⟩
  · obtain ⟨s1', h', -⟩ := steps_same n h1 h
    exact ⟨s1', h'⟩
  · obtain ⟨s1', h', -⟩ := steps_same n h2 h
    exact ⟨s1', h'⟩

end

/-! ## The hypotheses can be met -/

/-- Three steps with the two points stored either way. -/
example : ∃ (G : Grid ℚ Ex.par.G.N 2) (s1 s1' : St Ex.par), Counted Ex.L ∧
    Reordered Ex.L [{ ph := Ex.ph, pts := [Ex.mp2, Ex.mp] }] ∧
    steps Ex.par (Ex.noInterp Ex.par) 3 { dyn := Ex.dyn, L := Ex.L, G := G } = .ok s1 ∧
    steps Ex.par (Ex.noInterp Ex.par) 3
      { dyn := Ex.dyn, L := [{ ph := Ex.ph, pts := [Ex.mp2, Ex.mp] }], G := G } = .ok s1' ∧
    s1'.G = s1.G := by
  have ho : Reordered Ex.L [{ ph := Ex.ph, pts := [Ex.mp2, Ex.mp] }] :=
    .cons ⟨rfl, .swap _ _ _⟩ .nil
  obtain ⟨G, s1, -, h1, -⟩ := Ex.run_ok (P := Ex.par) (d := Ex.dyn) (L := Ex.L) (n := 3)
    (check := fun _ => true) (by decide +kernel)
  obtain ⟨s1', h2, -, h3, -⟩ := (c95_run (interp := Ex.noInterp Ex.par)
    (s := { dyn := Ex.dyn, L := Ex.L, G := G })
    (s' := { dyn := Ex.dyn, L := [{ ph := Ex.ph, pts := [Ex.mp2, Ex.mp] }], G := G }) 3
    Ex.countedL rfl rfl ho).1 s1 h1
  exact ⟨G, s1, s1', Ex.countedL, ho, h1, h2, h3⟩

end Mpm

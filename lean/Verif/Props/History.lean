import Verif.Lemmas.Hat
import Verif.Lemmas.History
import Verif.Props.Lists
import Verif.ExRun

/-!
# C29, C31, C42, C57, C58: what holds over whole runs
-/

set_option linter.unusedSectionVars false

namespace Mpm
open Spec

section
variable {K : Type} [Field K] [LinearOrder K] [IsStrictOrderedRing K] [FloorRing K]

/-! ## C29 -/

theorem wipe_eq {N ns : ℕ} {G G' : Grid K N ns} (h : SameStatic G G') : G'.wipe = G.wipe := by
  unfold Grid.wipe
  simp only [Grid.mk.injEq, and_true]
  exact ⟨h.dx, h.dy, h.X, h.Y, h.bv, h.bh, h.tot, h.conv, h.V⟩

/-- Two states with the same points, parameters and times, and grids with the same node table,
nodal volumes and masks, have the same outcome of `time_march` (the same next state or the same
exception), whatever the other nodal fields hold. -/
theorem c29_previous_grid {P : Par K} {interp : Interp K P.G.N} {s s' : St P}
    (hd : s'.dyn = s.dyn) (hL : s'.L = s.L) (h : SameStatic s.G s'.G) :
    timeMarch P interp s' = timeMarch P interp s := by
  have e : gridPhase P s' = gridPhase P s := by
    unfold gridPhase
    rw [wipe_eq h, hd, hL]
  unfold timeMarch
  rw [e]

/-- Hence the same for runs. -/
theorem c29_previous_grid_run {P : Par K} {interp : Interp K P.G.N} {s s' : St P}
    (hd : s'.dyn = s.dyn) (hL : s'.L = s.L) (h : SameStatic s.G s'.G) (n : ℕ) :
    steps P interp (n + 1) s' = steps P interp (n + 1) s := by
  unfold steps
  rw [c29_previous_grid hd hL h]

/-- A run, and the same from a grid holding other numbers. -/
example : ∃ s s' s1 : St Ex.par, s'.dyn = s.dyn ∧ s'.L = s.L ∧ SameStatic s.G s'.G ∧ s'.G ≠ s.G ∧
    steps Ex.par (Ex.noInterp _) 3 s = .ok s1 := by
  obtain ⟨G, s', hG, hs, hc⟩ := Ex.run_ok (P := Ex.par) (d := Ex.dyn) (L := Ex.L) (n := 3)
    (check := fun _ => true) (by decide +kernel)
  refine ⟨{ dyn := Ex.dyn, L := Ex.L, G := G },
    { dyn := Ex.dyn, L := Ex.L, G := { G with m := fun k => G.m k + 7 } }, s', rfl, rfl,
    ⟨⟨rfl, rfl, rfl, rfl, rfl, rfl, rfl⟩, rfl, rfl⟩, fun h => ?_, hs⟩
  have h0 : ∀ k, G.m k + 7 = G.m k := fun k =>
    congrFun (congrArg Grid.m (h : ({ G with m := fun k => G.m k + 7 } : Grid ℚ _ _) = G)) k
  have := h0 ⟨0, by decide⟩
  linarith

/-! ## C31 (and C11 over runs) -/

theorem mkParticle_fields {ns : ℕ} {P : Par K} {S0 : First K} {ph : Phase K ns} {g x y : K}
    {phi : Option (Fin ns → K)} {mp : Particle K ns}
    (h : mkParticle P S0 ph g x y phi = .ok mp) :
    ∃ st, initStress P ph.par y = .ok st ∧ mp.stress = st.1 ∧ mp.strain = st.2 ∧
      mp.dev_stress = st.1 - (st.1.trace / 3) • (1 : Mat K) ∧ mp.dstress = 0 ∧
      mp.x = ![x, y, 0] ∧ mp.b = bodyForce P g ∧ mp.V = ph.A * P.G.thickness ∧
      mp.m = ph.par.rho * mp.V ∧
      ((∃ u, mp.v = .own ![u, 0, 0]) ∨ mp.v = .own 0 ∨ (ph.hasIv = true ∧ mp.v = .shared)) := by
  unfold mkParticle at h
  obtain ⟨st, h1, h⟩ := res_bind_ok.1 h
  obtain ⟨fl, h2, h⟩ := res_bind_ok.1 h
  cases h
  refine ⟨st, h1, rfl, rfl, rfl, rfl, rfl, rfl, rfl, rfl, ?_⟩
  have hv : ∀ v : VRef K, v = (if ph.hasIv then .shared else .own 0) →
      v = .own 0 ∨ (ph.hasIv = true ∧ v = .shared) := by
    intro v hv
    cases hi : ph.hasIv
    · rw [hi] at hv; exact .inl hv
    · rw [hi] at hv; exact .inr ⟨rfl, hv⟩
  unfold initFlow at h2
  split at h2
  · cases h2; exact .inr (hv _ rfl)
  · split at h2
    · split at h2
      · cases h2
      · cases h2; exact .inl ⟨_, rfl⟩
    · split at h2
      · obtain ⟨_, _, h2⟩ := res_bind_ok.1 h2
        obtain ⟨_, _, h2⟩ := res_bind_ok.1 h2
        split at h2
        · cases h2
        · cases h2; exact .inl ⟨_, rfl⟩
      · cases h2; exact .inr (hv _ rfl)
  · obtain ⟨_, _, h2⟩ := res_bind_ok.1 h2
    obtain ⟨_, _, h2⟩ := res_bind_ok.1 h2
    obtain ⟨_, _, h2⟩ := res_bind_ok.1 h2
    cases h2; exact .inl ⟨_, rfl⟩

/-- The presets other than `'non-zero'` keep to any of the sets; `'non-zero'` needs the matrix of
ones. -/
theorem mkParticle_matOk {ns : ℕ} {S : Mat K → Prop} (hS : MatSet S ns) {P : Par K}
    (hl : ∀ a b : K, S !![a, b, 0; b, a, 0; 0, 0, a])
    (hnz : P.pressure = .nonZero → S (fun _ _ => -(1 / 10 ^ 15)))
    {S0 : First K} {ph : Phase K ns} {g x y : K} {phi : Option (Fin ns → K)} {mp : Particle K ns}
    (h : mkParticle P S0 ph g x y phi = .ok mp) : MatOk S mp := by
  obtain ⟨st, h1, e1, e2, e3, e4, -⟩ := mkParticle_fields h
  have key : S st.1 ∧ S st.2 := by
    unfold initStress at h1
    split at h1
    · split at h1
      · cases h1
      · cases h1; exact ⟨hl _ _, hS.hookeInv _ _ (hl _ _)⟩
    · rename_i hp
      cases h1; exact ⟨hS.hooke _ _ (hnz hp), hnz hp⟩
    · cases h1; exact ⟨hS.hooke _ _ (hS.unit _), hS.unit _⟩
    · split at h1
      · cases h1
      · cases h1; exact ⟨hS.unit _, hS.hookeInv _ _ (hS.unit _)⟩
    · cases h1; exact ⟨hS.zero, hS.zero⟩
  exact ⟨by rw [e1]; exact key.1, by rw [e2]; exact key.2, by rw [e3]; exact hS.dev _ key.1,
    by rw [e4]; exact hS.zero⟩

theorem mkParticle_symm {ns : ℕ} {P : Par K} {S0 : First K} {ph : Phase K ns} {g x y : K}
    {phi : Option (Fin ns → K)} {mp : Particle K ns}
    (h : mkParticle P S0 ph g x y phi = .ok mp) : MatOk (fun A => A.IsSymm) mp := by
  refine mkParticle_matOk symmSet ?_ ?_ h
  · intro a b
    ext i j
    fin_cases i <;> fin_cases j <;> rfl
  · intro _; rfl

theorem MatOk.wrapped {ns : ℕ} {S : Mat K → Prop} {P : Par K} {a : Particle K ns}
    (h : MatOk S a) : MatOk S (wrapped P a) := by
  rw [wrapped_frame]; exact ⟨h.stress, h.strain, h.dev, h.dstress⟩

theorem fresh_symm {P : Par K} {d : Dyn K} {ph : Phase K P.G.ns} {b : Particle K P.G.ns}
    (h : Fresh P d ph b) : MatOk (fun A => A.IsSymm) b := by
  obtain ⟨S0, ph', x, y, mp, -, hm, rfl⟩ := h
  exact (mkParticle_symm hm).wrapped

theorem evolved_symm {P : Par K} {d : Dyn K} {m0 : Option (Mat0 K)}
    {Gw Gb Gm : Grid K P.G.N P.G.ns} {p : ℕ} {ph : Phase K P.G.ns} {a b : Particle K P.G.ns}
    (h : Evolved P d m0 Gw Gb Gm p ph a b) (ha : MatOk (fun A => A.IsSymm) a) :
    MatOk (fun A => A.IsSymm) b := by
  obtain ⟨a3, a4, vis, vis', h4, s3, t3, v3, w3, -, -, -, -, s4, t4, v4, w4, -⟩ := h.mats
  have k := stressStrain_matOk symmSet (fun nd => Matrix.isSymm_add_transpose_self _) h4
    ⟨by rw [s3]; exact ha.stress, by rw [t3]; exact ha.strain, by rw [v3]; exact ha.dev,
      by rw [w3]; exact ha.dstress⟩
  exact ⟨by rw [s4]; exact k.stress, by rw [t4]; exact k.strain, by rw [v4]; exact k.dev,
    by rw [w4]; exact k.dstress⟩

theorem symm_run {P : Par K} {interp : Interp K P.G.N} {n : ℕ} {s s' : St P} (hL : Counted s.L)
    (h0 : ∀ mp ∈ points s.L, MatOk (fun A => A.IsSymm) mp) (h : steps P interp n s = .ok s') :
    ∀ mp ∈ points s'.L, MatOk (fun A => A.IsSymm) mp := by
  obtain ⟨-, hR⟩ := steps_descend (fun _ _ a b => MatOk (fun A => A.IsSymm) a →
    MatOk (fun A => A.IsSymm) b) (fun _ _ _ h => h) (fun _ _ _ _ _ h h' x => h' (h x))
    (fun _ _ _ _ _ _ h => h) (fun d _ _ _ _ _ _ _ _ _ h => evolved_symm h) hL h
  intro b hb
  obtain ⟨B, hB, hb⟩ := List.mem_flatMap.1 hb
  obtain ⟨i, hi⟩ := List.getElem?_of_mem hB
  obtain ⟨A, hA, -, k⟩ := hR.left hi
  rcases k b hb with ⟨a, ha, hab⟩ | ⟨-, d, f, -, hf, hfb⟩
  · exact hab (h0 a (List.mem_flatMap.2 ⟨A, List.mem_of_getElem? hA, ha⟩))
  · exact hfb (fresh_symm hf)

/-- Points made by the constructor. -/
theorem mkList_mem {ns : ℕ} {P : Par K} {g : K} {S : List (Phase K ns × PhaseInit K ns)}
    {L : List (PhaseSt K ns)} (h : mkList P g S = .ok L) :
    ∀ A ∈ L, ∀ mp ∈ A.pts, ∃ S0 x y phi, mkParticle P S0 A.ph g x y phi = .ok mp := by
  have key : ∀ (S0 : First K) (ph : Phase K ns) (X Y : List K) (PHI : Option (List (Fin ns → K)))
      (n : ℕ) (l : List (Particle K ns)), mkPoints P S0 ph g X Y PHI n = .ok l →
      ∀ mp ∈ l, ∃ x y phi, mkParticle P S0 ph g x y phi = .ok mp := by
    intro S0 ph X Y PHI n
    induction n with
    | zero => intro l h; cases h; simp
    | succ n ih =>
      intro l h mp hmp
      unfold mkPoints at h
      obtain ⟨l1, h1, h⟩ := res_bind_ok.1 h
      have fin : ∀ q (mp' : Particle K ns), l = l1 ++ [q] → (∃ x y phi,
          mkParticle P S0 ph g x y phi = .ok q) → ∃ x y phi, mkParticle P S0 ph g x y phi = .ok mp := by
        intro q _ e hq
        rw [e] at hmp
        rcases List.mem_append.1 hmp with hm | hm
        · exact ih l1 h1 mp hm
        · rw [List.mem_singleton.1 hm]; exact hq
      split at h
      · split at h
        · obtain ⟨q, hq, h⟩ := res_bind_ok.1 h
          cases h
          exact fin q q rfl ⟨_, _, _, hq⟩
        · split at h
          · cases h
          · obtain ⟨q, hq, h⟩ := res_bind_ok.1 h
            cases h
            exact fin q q rfl ⟨_, _, _, hq⟩
      · cases h
  have gen : ∀ (S0 : First K) (S : List (Phase K ns × PhaseInit K ns)) (L : List (PhaseSt K ns)),
      S.mapM (fun a => do
        let l ← mkPoints P S0 a.1 g a.2.X a.2.Y (if a.2.heterogeneous then some a.2.PHI else none)
          a.1.n
        pure ({ ph := a.1, pts := l } : PhaseSt K ns)) = (.ok L : Res _) →
      ∀ A ∈ L, ∀ mp ∈ A.pts, ∃ S0 x y phi, mkParticle P S0 A.ph g x y phi = .ok mp := by
    intro S0 S
    induction S with
    | nil => intro L h; rw [List.mapM_nil] at h; cases h; simp
    | cons a S ih =>
      intro L h
      rw [List.mapM_cons] at h
      obtain ⟨A, h1, h⟩ := res_bind_ok.1 h
      obtain ⟨T, h2, h⟩ := res_bind_ok.1 h
      obtain ⟨l, h3, h1⟩ := res_bind_ok.1 h1
      cases h
      cases h1
      intro B hB mp hmp
      rcases List.mem_cons.1 hB with rfl | hB
      · obtain ⟨x, y, phi, hk⟩ := key _ _ _ _ _ _ _ h3 mp hmp
        exact ⟨S0, x, y, phi, hk⟩
      · exact ih T h2 B hB mp hmp
  exact gen _ _ _ h

/-- Symmetric stresses (and the arrays stresses are computed from) stay symmetric for every law the
code can run, over any number of steps, with or without inlets, outlets and wrap-around. -/
theorem c31_symmetric {P : Par K} {interp : Interp K P.G.N} {n : ℕ} {s s' : St P}
    (hL : Counted s.L)
    (h0 : ∀ mp ∈ points s.L, mp.stress.IsSymm ∧ mp.strain.IsSymm ∧ mp.dev_stress.IsSymm ∧
      mp.dstress.IsSymm)
    (h : steps P interp n s = .ok s') : ∀ mp ∈ points s'.L, mp.stress.IsSymm :=
  fun mp hmp => (symm_run hL (fun mp hmp => ⟨(h0 mp hmp).1, (h0 mp hmp).2.1, (h0 mp hmp).2.2.1,
    (h0 mp hmp).2.2.2⟩) h mp hmp).stress

/-- In particular when starting from freshly constructed points. -/
theorem c31_constructed {P : Par K} {interp : Interp K P.G.N} {n : ℕ} {s s' : St P} {g : K}
    {S : List (Phase K P.G.ns × PhaseInit K P.G.ns)} (hS : mkList P g S = .ok s.L)
    (hL : Counted s.L) (h : steps P interp n s = .ok s') :
    ∀ mp ∈ points s'.L, mp.stress.IsSymm := by
  intro mp hmp
  refine (symm_run hL ?_ h mp hmp).stress
  intro a ha
  obtain ⟨A, hA, ha⟩ := List.mem_flatMap.1 ha
  obtain ⟨S0, x, y, phi, hk⟩ := mkList_mem hS A hA a ha
  exact mkParticle_symm hk

/-- C11 over runs: the accumulated strain is symmetric. -/
theorem c11_history {P : Par K} {interp : Interp K P.G.N} {n : ℕ} {s s' : St P} {g : K}
    {S : List (Phase K P.G.ns × PhaseInit K P.G.ns)} (hS : mkList P g S = .ok s.L)
    (hL : Counted s.L) (h : steps P interp n s = .ok s') :
    ∀ mp ∈ points s'.L, mp.strain.IsSymm := by
  intro mp hmp
  refine (symm_run hL ?_ h mp hmp).strain
  intro a ha
  obtain ⟨A, hA, ha⟩ := List.mem_flatMap.1 ha
  obtain ⟨S0, x, y, phi, hk⟩ := mkList_mem hS A hA a ha
  exact mkParticle_symm hk

/-- A list being fed from the top for three steps. -/
example : ∃ s s' : St Ex.feedPar, mkList Ex.feedPar (-10) [(Ex.feedPh, Ex.feedInit)] = .ok s.L ∧
    Counted s.L ∧ steps Ex.feedPar (Ex.noInterp _) 3 s = .ok s' ∧ (points s'.L).length = 3 ∧
    ∃ mp ∈ points s'.L, mp.stress ≠ 0 := by
  obtain ⟨L, hL, hr⟩ := Ex.okAnd_ok (r := mkList Ex.feedPar (-10) [(Ex.feedPh, Ex.feedInit)])
    (check := fun L => Ex.run Ex.feedPar Ex.dyn L 3 (fun s => decide ((points s.L).length = 3 ∧
      ∃ mp ∈ points s.L, mp.stress ≠ 0)) && decide (∀ a ∈ L, a.ph.n = a.pts.length))
    (by decide +kernel)
  rw [Bool.and_eq_true] at hr
  obtain ⟨G, s', -, hs, hc⟩ := Ex.run_ok hr.1
  have hc' : ∀ a ∈ L, a.ph.n = a.pts.length := of_decide_eq_true hr.2
  exact ⟨{ dyn := Ex.dyn, L := L, G := G }, s', hL, hc', hs,
    (of_decide_eq_true hc).1, (of_decide_eq_true hc).2⟩

/-! ## C42 -/

/-- The mass reduction of one step. -/
theorem elasticTimeMass_bounds {ns : ℕ} {c : LawCtx K ns} {m V : K} (hV : 0 ≤ c.mat.rho_f * V) :
    elasticTimeMass c m V ≤ m ∧ min m (95 / 100 * (c.mat.rho_f * V)) ≤ elasticTimeMass c m V ∧
      (elasticTimeMass c m V ≠ m → c.p = 0 ∧ c.mat.t_0 < c.t ∧ c.mat.rho_f * V < m) := by
  unfold elasticTimeMass
  split
  · rename_i hc
    split
    · rename_i hm
      refine ⟨by linarith, min_le_of_right_le (by linarith), fun _ => ⟨hc.1, hc.2, hm⟩⟩
    · exact ⟨le_rfl, min_le_left _ _, fun h => absurd rfl h⟩
  · exact ⟨le_rfl, min_le_left _ _, fun h => absurd rfl h⟩

/-- Mass of a point over one step. -/
theorem evolved_mass {P : Par K} {d : Dyn K} {m0 : Option (Mat0 K)}
    {Gw Gb Gm : Grid K P.G.N P.G.ns} {p : ℕ} {ph : Phase K P.G.ns} {a b : Particle K P.G.ns}
    (h : Evolved P d m0 Gw Gb Gm p ph a b) :
    b.V = a.V ∧ (ph.law ≠ .elastic_time → b.m = a.m) ∧
    (ph.law = .elastic_time →
      b.m = elasticTimeMass (lawCtx P d P.G.s (m0.getD ph.par) p ph) a.m a.V) := by
  obtain ⟨a3, a4, vis, vis', h4, -, -, -, -, m3, V3, -, -, -, -, -, -, m4, V4, -⟩ := h.mats
  obtain ⟨k, km⟩ := stressStrain_frame h4
  refine ⟨by rw [V4, k.V, V3], fun hl => by rw [m4, km hl, m3], fun hl => ?_⟩
  obtain ⟨mp1, mp2, l, e1, e2, -, rfl⟩ := stressStrain_ok h4
  obtain ⟨nd, -, rfl⟩ := updateStrain_ok e1
  rw [hl] at e2
  simp only [runLaw, lawElasticTime] at e2
  split at e2
  · cases e2
  · cases e2
    rw [m4]
    simp only [Particle.applyStress]
    rw [m3, V3]

/-- Over any run: every point present at the end has the volume of one present at the start or of
one newly made by an inlet (mass `rho*V`, `V` the phase's point area times the thickness), at most
its mass `m`, and at least the smaller of `m` and `0.95*rho_f*V`.  For phases other than the first,
for the first until the time exceeds `t_0`, and for other laws, the mass is `m`. -/
theorem c42_mass {P : Par K} {interp : Interp K P.G.N} {n : ℕ} {s s' : St P} (hL : Counted s.L)
    (hV : ∀ A ∈ s.L, (∀ mp ∈ A.pts, 0 ≤ A.ph.par.rho_f * mp.V) ∧
      0 ≤ A.ph.par.rho_f * (A.ph.A * P.G.thickness))
    (h : steps P interp n s = .ok s') :
    IdxRel (fun p A B => ∀ b ∈ B.pts, ∃ m V, ((∃ a ∈ A.pts, a.m = m ∧ a.V = V) ∨
        ((P.B.inlet_right = true ∨ P.B.inlet_top = true) ∧ V = A.ph.A * P.G.thickness ∧
          m = A.ph.par.rho * V)) ∧
      b.V = V ∧ b.m ≤ m ∧ min m (95 / 100 * (A.ph.par.rho_f * V)) ≤ b.m ∧
      (A.ph.law ≠ .elastic_time ∨ p ≠ 0 ∨
        (∀ k < n, s.dyn.t + k * s.dyn.dt ≤ A.ph.par.t_0) → b.m = m)) s.L s'.L := by
  refine (fun hR => ?_) (steps_descend (s := s) (n := n) (fun p ph a b => b.V = a.V ∧
    (0 ≤ ph.par.rho_f * a.V → b.m ≤ a.m ∧ min a.m (95 / 100 * (ph.par.rho_f * a.V)) ≤ b.m ∧
      (ph.law ≠ .elastic_time ∨ p ≠ 0 ∨
        (∀ k < n, s.dyn.t + k * s.dyn.dt ≤ ph.par.t_0) → b.m = a.m)))
    (fun _ _ _ => ⟨rfl, fun _ => ⟨le_rfl, min_le_left _ _, fun _ => rfl⟩⟩) ?_ ?_ ?_ hL h).2
  · refine (hR.and_left (p := fun A => (∀ mp ∈ A.pts, 0 ≤ A.ph.par.rho_f * mp.V) ∧
      0 ≤ A.ph.par.rho_f * (A.ph.A * P.G.thickness)) hV).imp ?_
    rintro p A B ⟨hA, -, k⟩ b hb
    rcases k b hb with ⟨a, ha, hab⟩ | ⟨hin, d, f, hd, hf, hfb⟩
    · exact ⟨a.m, a.V, .inl ⟨a, ha, rfl, rfl⟩, hab.1, hab.2 (hA.1 a ha)⟩
    · obtain ⟨S0, ph', x, y, mp, hs, hm, rfl⟩ := hf
      obtain ⟨_, -, -, -, -, -, -, -, hVf, hmf, -⟩ := mkParticle_fields hm
      obtain ⟨-, e2, e3, -⟩ := hs.fields
      rw [wrapped_frame] at hfb
      rw [e3] at hVf
      rw [e2] at hmf
      exact ⟨mp.m, mp.V, .inr ⟨hin, hVf, hmf⟩, hfb.1, hfb.2 (by change 0 ≤ _ * mp.V; rw [hVf]; exact hA.2)⟩
  · rintro p ph a b c ⟨h1, h2⟩ ⟨h3, h4⟩
    refine ⟨h3.trans h1, fun hv => ?_⟩
    obtain ⟨u1, u2, u3⟩ := h2 hv
    obtain ⟨w1, w2, w3⟩ := h4 (by rw [h1]; exact hv)
    rw [h1] at w2
    refine ⟨w1.trans u1, le_trans (le_min u2 (min_le_right _ _)) w2, fun hc => ?_⟩
    rw [w3 hc, u3 hc]
  · intro p ph ph' a b hs hr
    rw [hs.fields.1, hs.fields.2.1] at hr
    exact hr
  · intro d hd m0 Gw Gb Gm p ph a b hev
    obtain ⟨e1, e2, e3⟩ := evolved_mass hev
    refine ⟨e1, fun hv => ?_⟩
    by_cases hl : ph.law = .elastic_time
    · obtain ⟨b1, b2, b3⟩ := elasticTimeMass_bounds
        (c := lawCtx P d P.G.s (m0.getD ph.par) p ph) (m := a.m) hv
      rw [e3 hl]
      refine ⟨b1, b2, fun hc => ?_⟩
      by_contra hne
      obtain ⟨c1, c2, -⟩ := b3 hne
      rcases hc with hc | hc | hc
      · exact hc hl
      · exact hc c1
      · obtain ⟨k, hk, ht, -⟩ := hd
        have := hc k hk
        rw [← ht] at this
        exact absurd c2 (not_lt.2 this)
    · rw [e2 hl]
      exact ⟨le_rfl, min_le_left _ _, fun _ => rfl⟩

/-- Two phases under `elastic_time`: after three steps the masses of phase 0 have dropped. -/
def Ex.slowL : List (PhaseSt ℚ 2) :=
  [{ ph := { Ex.ph with law := .elastic_time, n := 1 }, pts := [Ex.mp] },
   { ph := { Ex.ph with law := .elastic_time, n := 1 }, pts := [Ex.mp2] }]

theorem Ex.countedSlow : Counted Ex.slowL := by
  intro a ha
  simp only [Ex.slowL, List.mem_cons, List.not_mem_nil, or_false] at ha
  rcases ha with rfl | rfl <;> rfl

example : ∃ s s' : St Ex.par, Counted s.L ∧
    (∀ A ∈ s.L, (∀ mp ∈ A.pts, 0 ≤ A.ph.par.rho_f * mp.V) ∧
      0 ≤ A.ph.par.rho_f * (A.ph.A * Ex.par.G.thickness)) ∧
    steps Ex.par (Ex.noInterp _) 3 s = .ok s' ∧
    (points s.L).map (·.m) = [3, 2] ∧ (points s'.L).map (·.m) = [10830 / 4000, 2] := by
  obtain ⟨G, s', hG, hs, hc⟩ := Ex.run_ok (P := Ex.par) (d := Ex.dyn) (L := Ex.slowL) (n := 3)
    (check := fun s => decide ((points s.L).map (·.m) = [10830 / 4000, 2])) (by decide +kernel)
  refine ⟨{ dyn := Ex.dyn, L := Ex.slowL, G := G }, s', Ex.countedSlow, ?_, hs, ?_,
    of_decide_eq_true hc⟩
  swap
  · change (points Ex.slowL).map (·.m) = [3, 2]; decide +kernel
  change ∀ A ∈ Ex.slowL, (∀ mp ∈ A.pts, 0 ≤ A.ph.par.rho_f * mp.V) ∧
      0 ≤ A.ph.par.rho_f * (A.ph.A * Ex.par.G.thickness)
  decide +kernel

/-! ## C57 -/

/-- After a step every point of phase 0 has body force `g(t)(sin,cos,0)` with the gravity of the
time at the start of the step. -/
theorem c57_phase_zero {P : Par K} {interp : Interp K P.G.N} {s s' : St P} (hL : Counted s.L)
    (h : timeMarch P interp s = .ok s') {B : PhaseSt K P.G.ns} (hB : s'.L[0]? = some B) :
    ∀ mp ∈ B.pts, mp.b = ![(P.forces s.dyn.t).1 * P.sinθ, (P.forces s.dyn.t).1 * P.cosθ, 0] := by
  obtain ⟨T, -, -, s3, -, -, -, -, -, -, hR⟩ := timeMarch_points hL h
  obtain ⟨A, -, -, -, k⟩ := hR.left hB
  have hg : T.d.g = (P.forces s.dyn.t).1 := by rw [T.hd]; rfl
  intro b hb
  rcases k b hb with ⟨a, -, hev⟩ | ⟨-, S0, ph', x, y, mp, -, hm, rfl⟩
  · obtain ⟨a3, a4, _, _, -, -, -, -, -, -, -, -, b3, -, -, -, -, -, -, hb4⟩ := hev.mats
    rw [hb4, b3, if_pos rfl, hg]; rfl
  · obtain ⟨_, -, -, -, -, -, -, hb, -⟩ := mkParticle_fields hm
    rw [wrapped_frame]
    rw [hg] at hb
    exact hb

/-- The same over a run of at least one step: the gravity is that of the last step's time. -/
theorem c57_phase_zero_run {P : Par K} {interp : Interp K P.G.N} {n : ℕ} {s s' : St P}
    (hL : Counted s.L) (h : steps P interp (n + 1) s = .ok s') {B : PhaseSt K P.G.ns}
    (hB : s'.L[0]? = some B) :
    ∀ mp ∈ B.pts, mp.b = ![(P.forces (s.dyn.t + n * s.dyn.dt)).1 * P.sinθ,
      (P.forces (s.dyn.t + n * s.dyn.dt)).1 * P.cosθ, 0] := by
  induction n generalizing s with
  | zero =>
    obtain ⟨s1, h1, h2⟩ := steps_succ.1 h
    cases h2
    have := c57_phase_zero hL h1 (B := B) hB
    simpa using this
  | succ n ih =>
    obtain ⟨s1, h1, h2⟩ := steps_succ.1 h
    have hd := (timeMarch_table h1).2.2.2
    have := ih (s := stepTime P s1) (show Counted s1.L from timeMarch_counted hL h1) h2
    have et : (stepTime P s1).dyn.t + n * (stepTime P s1).dyn.dt =
        s.dyn.t + (n + 1 : ℕ) * s.dyn.dt := by
      simp only [stepTime, hd, updateForces_dyn]; push_cast; ring
    rw [et] at this
    exact this

/-- Points of the other phases keep the body force they had, over any run; those made by inlets
keep the one of the time they were made at. -/
theorem c57_other_phases {P : Par K} {interp : Interp K P.G.N} {n : ℕ} {s s' : St P}
    (hL : Counted s.L) (h : steps P interp n s = .ok s') :
    IdxRel (fun p A B => p ≠ 0 → ∀ b ∈ B.pts, (∃ a ∈ A.pts, b.b = a.b) ∨
      ((P.B.inlet_right = true ∨ P.B.inlet_top = true) ∧ ∃ k < n,
        b.b = ![(P.forces (s.dyn.t + k * s.dyn.dt)).1 * P.sinθ,
          (P.forces (s.dyn.t + k * s.dyn.dt)).1 * P.cosθ, 0])) s.L s'.L := by
  refine (fun hR => ?_) (steps_descend (fun p _ a b => p ≠ 0 → b.b = a.b) (fun _ _ _ _ => rfl)
    (fun _ _ _ _ _ h h' hp => (h' hp).trans (h hp)) (fun _ _ _ _ _ _ h => h) ?_ hL h).2
  · refine hR.imp ?_
    rintro p A B ⟨-, k⟩ hp b hb
    rcases k b hb with ⟨a, ha, hab⟩ | ⟨hin, d, f, hd, hf, hfb⟩
    · exact .inl ⟨a, ha, hab hp⟩
    · obtain ⟨S0, ph', x, y, mp, -, hm, rfl⟩ := hf
      obtain ⟨k, hk, ht, -, hg⟩ := hd
      refine .inr ⟨hin, k, hk, ?_⟩
      obtain ⟨_, -, -, -, -, -, -, hb, -⟩ := mkParticle_fields hm
      rw [hfb hp, wrapped_frame]
      rw [hg, ht] at hb
      exact hb
  · intro d _ m0 Gw Gb Gm p ph a b hev hp
    obtain ⟨a3, a4, _, _, -, -, -, -, -, -, -, -, b3, -, -, -, -, -, -, hb4⟩ := hev.mats
    rw [hb4, b3, if_neg hp]

/-- Without inlets and outlets, point by point. -/
theorem c57_other_phases_closed {P : Par K} {interp : Interp K P.G.N} {n : ℕ} {s s' : St P}
    (ho1 : P.B.outlet_left = false) (ho2 : P.B.outlet_bottom = false)
    (hi1 : P.B.inlet_right = false) (hi2 : P.B.inlet_top = false)
    (hL : Counted s.L) (h : steps P interp n s = .ok s') :
    IdxRel (fun p A B => p ≠ 0 → List.Forall₂ (fun a b => b.b = a.b) A.pts B.pts) s.L s'.L := by
  refine (fun hR => ?_) (steps_closed ho1 ho2 hi1 hi2 (fun p _ a b => p ≠ 0 → b.b = a.b)
    (fun _ _ _ _ => rfl)
    (fun _ _ _ _ _ h h' hp => (h' hp).trans (h hp)) (fun _ _ _ _ _ _ h => h) ?_ hL h).2
  · refine hR.imp ?_
    rintro p A B ⟨-, k⟩ hp
    exact k.imp fun a b hab => hab hp
  · intro d _ m0 Gw Gb Gm p ph a b hev hp
    obtain ⟨a3, a4, _, _, -, -, -, -, -, -, -, -, b3, -, -, -, -, -, -, hb4⟩ := hev.mats
    rw [hb4, b3, if_neg hp]

/-- Gravity growing with time: the first phase follows it, the second does not. -/
def Ex.timePar : Par ℚ := { Ex.par with forces := fun t => (-10 - t, 0, 0) }

example : ∃ s s' : St Ex.timePar, Counted s.L ∧ steps Ex.timePar (Ex.noInterp _) 3 s = .ok s' ∧
    (points s'.L).map (·.b 1) = [-10 - 2 / 100, -10] := by
  obtain ⟨G, s', hG, hs, hc⟩ := Ex.run_ok (P := Ex.timePar) (d := Ex.dyn) (L := Ex.slowL) (n := 3)
    (check := fun s => decide ((points s.L).map (·.b 1) = [-10 - 2 / 100, -10]))
    (by decide +kernel)
  exact ⟨{ dyn := Ex.dyn, L := Ex.slowL, G := G }, s', Ex.countedSlow, hs, of_decide_eq_true hc⟩

/-! ## C58 -/

/-- The velocity increment a point at position `x` gets from the updated grid: the tent-weighted sum
over the nodes, as far as they are massive, of `dt` times momentum rate over mass. -/
def Spec.velocityIncrement (P : GP K) {ns : ℕ} (M_tol dt : K) (G : Grid K P.N ns) (x : Vec K) :
    Vec K :=
  ∑ k, hat P x k • (if M_tol < G.m k then (dt / G.m k) • G.q_dot k else 0)

/-- A phase all of whose points share one velocity array: after a step without inlets they still
do, and the array has received the increments of all points of the phase, including those that left
through an outlet. -/
theorem c58_shared {P : Par K} (hP : GoodGrid P.G) {interp : Interp K P.G.N} {s s' : St P}
    (hL : Counted s.L) (hG : Geometry P.G s.G) (hx : ∀ mp ∈ points s.L, InDomain P.G mp.x)
    (hi1 : P.B.inlet_right = false) (hi2 : P.B.inlet_top = false)
    (h : timeMarch P interp s = .ok s') :
    IdxRel (fun _ A B => A.ph.law ≠ .rigid → (∀ mp ∈ A.pts, mp.v = .shared) →
      (∀ mp ∈ B.pts, mp.v = .shared ∧ velocity B mp = B.ph.iv) ∧
      B.ph.iv = A.ph.iv +
        (A.pts.map fun mp => velocityIncrement P.G P.M_tol s.dyn.dt s'.G mp.x).sum) s.L s'.L := by
  obtain ⟨T, -, -, s3, -, -, -, -, -, eG, hR⟩ := timeMarch_idx hL h
  have hdt : T.d.dt = s.dyn.dt := by rw [T.hd]; rfl
  have hxs : ∀ A ∈ s.L, ∀ mp ∈ A.pts, InDomain P.G mp.x := fun A hA mp hmp =>
    hx mp (List.mem_flatMap.2 ⟨A, hA, hmp⟩)
  refine (hR.and_left (p := fun A => ∀ mp ∈ A.pts, InDomain P.G mp.x) hxs).imp ?_
  rintro p A B ⟨hA, -, -, evo, kept, new, hev, hiv, hk, -, hn, -, hB⟩ hl hsh
  rw [hn hi1 hi2, List.append_nil] at hB
  have hev' := forall₂_mem hev
  have hshared : ∀ b ∈ evo, b.v = .shared := by
    intro b hb
    obtain ⟨a, -, ha, -, hab⟩ := forall₂_right hev' hb
    obtain ⟨a5, a6, hm, rfl, -, v5, -⟩ := hab.parts
    rcases hm with ⟨hr, -⟩ | ⟨-, iv, iv', hm⟩
    · exact absurd hr hl
    · obtain ⟨nd, -, -, e⟩ := move_ok hm
      have e1 : a6 = (moveClosed P.M_tol T.d.dt s3.G nd a5 iv).1 := congrArg Prod.fst e
      rw [wrapped_frame, e1]
      simp only [moveClosed, v5, hsh a ha, addVel]
  refine ⟨fun mp hmp => ?_, ?_⟩
  · have := hshared mp (hk.subset (by rw [← hB]; exact hmp))
    exact ⟨this, by unfold velocity; rw [this]⟩
  · have hinc : List.Forall₂ (fun (a b : Particle K P.G.ns) =>
        velocityIncrement P.G P.M_tol s.dyn.dt s'.G a.x = dvel P.G.nx P.M_tol T.d.dt s3.G b)
        A.pts evo := by
      refine hev'.imp ?_
      rintro a b ⟨ha, -, hab⟩
      obtain ⟨a5, a6, hm, rfl, x5, -, -, -, -, -, hloc⟩ := hab.parts
      obtain ⟨i, j, hc, n5, N5⟩ := hloc hP (Mpm.Geometry.wipe hG) (hA a ha)
      have e : a6.N = a5.N ∧ a6.n_star = a5.n_star := by
        rcases hm with ⟨hr, -⟩ | ⟨-, iv, iv', hm⟩
        · exact absurd hr hl
        · obtain ⟨nd, -, -, e⟩ := move_ok hm
          have e1 : a6 = (moveClosed P.M_tol T.d.dt s3.G nd a5 iv).1 := congrArg Prod.fst e
          rw [e1]; exact ⟨rfl, rfl⟩
      unfold dvel velocityIncrement
      rw [hdt, eG]
      refine Finset.sum_congr rfl fun k _ => ?_
      rw [← weight_atCell hP hc]
      unfold weight
      rw [wrapped_frame]
      simp only [e.1, e.2, n5, N5]
      rfl
    have hsum : (A.pts.map fun mp => velocityIncrement P.G P.M_tol s.dyn.dt s'.G mp.x) =
        evo.map (dvel P.G.nx P.M_tol T.d.dt s3.G) := by
      clear hev hev' hiv hk hshared hA hsh
      generalize A.pts = l at hinc ⊢
      induction hinc with
      | nil => rfl
      | cons h _ ih => rw [List.map_cons, List.map_cons, h, ih]
    rw [hiv, hsum]
    unfold sharedChange
    rw [if_neg hl, List.filter_eq_self.2]
    intro b hb
    unfold Particle.isShared
    rw [hshared b hb]

/-- Two points sharing one velocity. -/
def Ex.sharedL : List (PhaseSt ℚ 2) :=
  [{ ph := { Ex.ph with hasIv := true, iv := ![1, 0, 0] },
     pts := [{ Ex.mp with v := .shared }, { Ex.mp2 with v := .shared }] }]

/-- Both receive the increments of both. -/
example : ∃ s s' : St Ex.par, Counted s.L ∧ Geometry Ex.par.G s.G ∧
    (∀ mp ∈ points s.L, InDomain Ex.par.G mp.x) ∧
    (∀ A ∈ s.L, A.ph.law ≠ .rigid ∧ ∀ mp ∈ A.pts, mp.v = .shared) ∧
    timeMarch Ex.par (Ex.noInterp _) s = .ok s' ∧
    s'.L.map (fun A => A.ph.iv 1) ≠ s.L.map (fun A => A.ph.iv 1) := by
  obtain ⟨G, s', hG, hs, hc⟩ := Ex.run_one (P := Ex.par) (d := Ex.dyn) (L := Ex.sharedL)
    (check := fun s => decide (s.L.map (fun A => A.ph.iv 1) ≠ [0])) (by decide +kernel)
  refine ⟨{ dyn := Ex.dyn, L := Ex.sharedL, G := G }, s', ?_, mkGrid_geometry hG, ?_, ?_, hs,
    of_decide_eq_true hc⟩
  · intro a ha; rw [List.mem_singleton.1 ha]; rfl
  · change ∀ mp ∈ points Ex.sharedL, (Ex.gp.x_m ≤ mp.x 0 ∧ mp.x 0 < Ex.gp.x_M) ∧
      (Ex.gp.y_m ≤ mp.x 1 ∧ mp.x 1 < Ex.gp.y_M)
    decide +kernel
  · intro A hA
    rw [List.mem_singleton.1 (hA : A ∈ Ex.sharedL)]
    refine ⟨by decide, fun mp hmp => ?_⟩
    rcases List.mem_cons.1 hmp with rfl | hmp
    · rfl
    · rw [List.mem_singleton.1 hmp]

end
end Mpm

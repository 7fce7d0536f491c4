import Verif.Model.Forces
import Verif.Props.History
import Verif.Props.Segregation
import Verif.Props.Lists
import Verif.ExRun

/-!
# C104, C105: changing slope angle and intruder velocity

`bi_drum`, `bi_square_drum`, `vicky_latest` and `fluid` change `P.theta` in `update_forces`,
`francois` changes `P.intruder_v`.
-/

set_option linter.unusedSectionVars false

namespace Mpm
open Spec

section
variable {K : Type} [Field K] [LinearOrder K] [IsStrictOrderedRing K] [FloorRing K]
variable {P : Par K} {interp : Interp K P.G.N} {σ : K → Steer K}

theorem timeMarchV_ok {s s' : St P} (h : timeMarchV P interp σ s = .ok s') :
    ∃ s1 : St (P.steered (σ s.dyn.t)),
      timeMarch (P.steered (σ s.dyn.t)) interp (s.steer (σ s.dyn.t)) = .ok s1 ∧ s' = s1.unsteer := by
  unfold timeMarchV at h
  obtain ⟨s1, h1, h2⟩ := res_bind_ok.1 h
  cases h2
  exact ⟨s1, h1, rfl⟩

theorem stepsV_snoc (n : ℕ) (s : St P) :
    stepsV P interp σ (n + 1) s = (do
      let s1 ← stepsV P interp σ n s
      let s2 ← timeMarchV P interp σ s1
      return stepTime P s2) := by
  induction n generalizing s with
  | zero =>
    change (do
      let s ← timeMarchV P interp σ s
      return stepTime P s) = (do
      let s2 ← timeMarchV P interp σ s
      return stepTime P s2)
    rfl
  | succ n ih =>
    rw [stepsV]
    conv_rhs => rw [stepsV]
    cases h : timeMarchV P interp σ s with
    | error e => rfl
    | ok s1 => exact ih _

theorem stepsV_succ {n : ℕ} {s s' : St P} (h : stepsV P interp σ (n + 1) s = .ok s') :
    ∃ s1 s2, stepsV P interp σ n s = .ok s1 ∧ timeMarchV P interp σ s1 = .ok s2 ∧ s' = stepTime P s2 := by
  rw [stepsV_snoc] at h
  obtain ⟨s1, h1, h⟩ := res_bind_ok.1 h
  obtain ⟨s2, h2, h⟩ := res_bind_ok.1 h
  cases h
  exact ⟨s1, s2, h1, h2, rfl⟩

theorem timeMarchV_dyn {s s' : St P} (h : timeMarchV P interp σ s = .ok s') :
    s'.dyn = s.dyn.updateForces P := by
  obtain ⟨s1, h1, rfl⟩ := timeMarchV_ok h
  exact (timeMarch_table h1).2.2.2

/-- Times during a run. -/
theorem stepsV_dyn {n : ℕ} {s s' : St P} (h : stepsV P interp σ n s = .ok s') :
    s'.dyn.t = s.dyn.t + n * s.dyn.dt ∧ s'.dyn.dt = s.dyn.dt := by
  induction n generalizing s' with
  | zero => cases h; simp
  | succ n ih =>
    obtain ⟨s1, s2, h1, h2, rfl⟩ := stepsV_succ h
    obtain ⟨e1, e2⟩ := ih h1
    have hd := timeMarchV_dyn h2
    simp only [stepTime, hd, updateForces_dyn, e1, e2, and_true]
    push_cast
    ring

theorem timeMarchV_counted {s s' : St P} (hL : Counted s.L) (h : timeMarchV P interp σ s = .ok s') :
    Counted s'.L := by
  obtain ⟨s1, h1, rfl⟩ := timeMarchV_ok h
  exact timeMarch_counted (s := s.steer (σ s.dyn.t)) hL h1

theorem stepsV_counted {n : ℕ} {s s' : St P} (hL : Counted s.L) (h : stepsV P interp σ n s = .ok s') :
    Counted s'.L := by
  induction n generalizing s' with
  | zero => cases h; exact hL
  | succ n ih =>
    obtain ⟨s1, s2, h1, h2, rfl⟩ := stepsV_succ h
    exact show Counted s2.L from timeMarchV_counted (ih h1) h2

/-- Without inlets and outlets: what holds after one more step holds after any number. -/
theorem stepsV_closed
    (ho1 : P.B.outlet_left = false) (ho2 : P.B.outlet_bottom = false)
    (hi1 : P.B.inlet_right = false) (hi2 : P.B.inlet_top = false) {s : St P}
    (R : ℕ → ℕ → Phase K P.G.ns → Particle K P.G.ns → Particle K P.G.ns → Prop)
    (h0 : ∀ p ph a, R 0 p ph a a)
    (hs : ∀ (k : ℕ) p ph ph' a b c d w m0 (Gw Gb Gm : Grid K P.G.N P.G.ns), w = σ d.t → SamePhase ph ph' → d.t = s.dyn.t + k * s.dyn.dt →
      d.dt = s.dyn.dt → d.g = (P.forces d.t).1 → R k p ph a b →
      Evolved (P.steered w) d m0 Gw Gb Gm p ph' b c → R (k + 1) p ph a c)
    (hL : Counted s.L) {n : ℕ} {s' : St P} (h : stepsV P interp σ n s = .ok s') :
    IdxRel (fun p A B => SamePhase A.ph B.ph ∧ List.Forall₂ (R n p A.ph) A.pts B.pts) s.L s'.L := by
  induction n generalizing s' with
  | zero =>
    cases h
    refine ⟨rfl, fun i a b ha hb => ?_⟩
    rw [ha] at hb
    cases hb
    exact ⟨.refl _, forall₂_refl (fun _ => h0 _ _ _) _⟩
  | succ n ih =>
    obtain ⟨s1, s2, h1, h2, rfl⟩ := stepsV_succ h
    obtain ⟨e1, e2⟩ := stepsV_dyn h1
    obtain ⟨s3, h3, rfl⟩ := timeMarchV_ok h2
    obtain ⟨T, -, -, s4, -, -, -, -, -, -, hR⟩ :=
      timeMarch_idx (s := s1.steer (σ s1.dyn.t)) (show Counted s1.L from stepsV_counted hL h1) h3
    have hd := T.hd
    refine ((ih h1).comp hR).imp ?_
    rintro p A C ⟨B, ⟨g1, k1⟩, g2, -, evo, kept, new, k2, -, -, ko, kn, -, kB⟩
    rw [ko ho1 ho2, kn hi1 hi2, List.append_nil] at kB
    refine ⟨g1.trans g2, ?_⟩
    rw [kB]
    refine (forall₂_comp k1 k2).imp ?_
    rintro a c ⟨b, hab, hbc⟩
    have et : T.d.t = s1.dyn.t := by rw [hd]; rfl
    exact hs n p A.ph B.ph a b c T.d (σ s1.dyn.t) _ _ _ _ (by rw [et]) g1 (by rw [et, e1])
      (by rw [hd]; exact e2) (by rw [hd]; rfl) hab hbc

/-- A property of points that every step keeps and that inlets supply holds throughout. -/
theorem stepsV_points (Q : Particle K P.G.ns → Prop) {s : St P}
    (hev : ∀ d w m0 (Gw Gb Gm : Grid K P.G.N P.G.ns) p ph a b, Evolved (P.steered w) d m0 Gw Gb Gm p ph a b → Q a → Q b)
    (hf : ∀ d w ph b, Fresh (P.steered w) d ph b → Q b)
    (hL : Counted s.L) (h0 : ∀ mp ∈ points s.L, Q mp) {n : ℕ} {s' : St P}
    (h : stepsV P interp σ n s = .ok s') : ∀ mp ∈ points s'.L, Q mp := by
  induction n generalizing s' with
  | zero => cases h; exact h0
  | succ n ih =>
    obtain ⟨s1, s2, h1, h2, rfl⟩ := stepsV_succ h
    obtain ⟨s3, h3, rfl⟩ := timeMarchV_ok h2
    obtain ⟨T, -, -, s4, -, -, -, -, -, -, hR⟩ :=
      timeMarch_points (s := s1.steer (σ s1.dyn.t)) (show Counted s1.L from stepsV_counted hL h1) h3
    intro b hb
    obtain ⟨B, hB, hb⟩ := List.mem_flatMap.1 hb
    obtain ⟨i, hi⟩ := List.getElem?_of_mem hB
    obtain ⟨A, hA, -, -, k⟩ := hR.left hi
    rcases k b hb with ⟨a, ha, hab⟩ | ⟨-, hfr⟩
    · exact hev _ _ _ _ _ _ _ _ _ _ hab (ih h1 a (List.mem_flatMap.2 ⟨A, List.mem_of_getElem? hA, ha⟩))
    · exact hf _ _ _ _ hfr

/-! ## C104 -/

/-- C104.  With constant angle and intruder velocity this is the step of the other claims. -/
theorem c104_constant (n : ℕ) (s : St P) :
    stepsV P interp (fun _ => Steer.mk P.sinθ P.cosθ P.tanθ P.intruder_v) n s = steps P interp n s := by
  induction n generalizing s with
  | zero => rfl
  | succ n ih =>
    have : timeMarchV P interp (fun _ => Steer.mk P.sinθ P.cosθ P.tanθ P.intruder_v) s =
        timeMarch P interp s := by
      unfold timeMarchV
      change (timeMarch P interp s >>= fun s' => pure s') = _
      cases timeMarch P interp s <;> rfl
    unfold stepsV steps
    rw [this]
    cases timeMarch P interp s with
    | error e => rfl
    | ok s1 => exact ih _

/-- C104.  After any number of steps but none, every point of the first phase has the body force of
the angle and gravity at the start of the last step. -/
theorem c104_gravity {n : ℕ} {s s' : St P} (hL : Counted s.L) (h : stepsV P interp σ (n + 1) s = .ok s')
    {B : PhaseSt K P.G.ns} (hB : s'.L[0]? = some B) :
    ∀ mp ∈ B.pts, mp.b = ![(P.forces (s.dyn.t + n * s.dyn.dt)).1 * (σ (s.dyn.t + n * s.dyn.dt)).sinθ,
      (P.forces (s.dyn.t + n * s.dyn.dt)).1 * (σ (s.dyn.t + n * s.dyn.dt)).cosθ, 0] := by
  obtain ⟨s1, s2, h1, h2, rfl⟩ := stepsV_succ h
  obtain ⟨s3, h3, rfl⟩ := timeMarchV_ok h2
  have := c57_phase_zero (s := s1.steer (σ s1.dyn.t)) (show Counted s1.L from stepsV_counted hL h1) h3 hB
  rw [← (stepsV_dyn h1).1]
  exact this

/-- C104.  The points of all other phases keep the body force of the start, whatever the angle does
(without inlets and outlets). -/
theorem c104_others (ho1 : P.B.outlet_left = false) (ho2 : P.B.outlet_bottom = false)
    (hi1 : P.B.inlet_right = false) (hi2 : P.B.inlet_top = false) {n : ℕ} {s s' : St P}
    (hL : Counted s.L) (h : stepsV P interp σ n s = .ok s') :
    IdxRel (fun p A B => p ≠ 0 → List.Forall₂ (fun a b => b.b = a.b) A.pts B.pts) s.L s'.L := by
  refine (stepsV_closed ho1 ho2 hi1 hi2 (fun _ p _ a b => p ≠ 0 → b.b = a.b) (fun _ _ _ _ => rfl)
    ?_ hL h).imp ?_
  · intro k p ph ph' a b c d w m0 Gw Gb Gm _ _ _ _ _ hab hev hp
    obtain ⟨a3, a4, _, _, -, -, -, -, -, -, -, -, b3, -, -, -, -, -, -, hb4⟩ := hev.mats
    rw [hb4, b3, if_neg hp]
    exact hab hp
  · rintro p A B ⟨-, k⟩ hp
    exact k.imp fun a b hab => hab hp

/-- C104.  What the other claims say about single points over runs also holds while the angle
changes: points keep their volume and (for laws other than `elastic_time`) mass, and the stress and
strain stay symmetric. -/
theorem c104_kept (ho1 : P.B.outlet_left = false) (ho2 : P.B.outlet_bottom = false)
    (hi1 : P.B.inlet_right = false) (hi2 : P.B.inlet_top = false) {n : ℕ} {s s' : St P}
    (hL : Counted s.L) (h : stepsV P interp σ n s = .ok s') :
    IdxRel (fun _ A B => SamePhase A.ph B.ph ∧ List.Forall₂ (fun a b => b.V = a.V ∧
      (A.ph.law ≠ .elastic_time → b.m = a.m)) A.pts B.pts) s.L s'.L := by
  refine stepsV_closed ho1 ho2 hi1 hi2 (fun _ _ ph a b => b.V = a.V ∧ (ph.law ≠ .elastic_time → b.m = a.m))
    (fun _ _ _ => ⟨rfl, fun _ => rfl⟩) ?_ hL h
  intro k p ph ph' a b c d w m0 Gw Gb Gm _ hph _ _ _ hab hev
  obtain ⟨e1, e2, -⟩ := evolved_mass hev
  refine ⟨e1.trans hab.1, fun hl => (e2 ?_).trans (hab.2 hl)⟩
  rw [hph.fields.1]
  exact hl

theorem c104_symmetric {n : ℕ} {s s' : St P} (hL : Counted s.L)
    (h0 : ∀ mp ∈ points s.L, mp.stress.IsSymm ∧ mp.strain.IsSymm ∧ mp.dev_stress.IsSymm ∧
      mp.dstress.IsSymm)
    (h : stepsV P interp σ n s = .ok s') :
    ∀ mp ∈ points s'.L, mp.stress.IsSymm ∧ mp.strain.IsSymm := by
  intro mp hmp
  have := stepsV_points (MatOk (fun A => A.IsSymm)) (fun _ _ _ _ _ _ _ _ _ _ h k => evolved_symm h k)
    ?_ hL (fun mp hmp => ⟨(h0 mp hmp).1, (h0 mp hmp).2.1, (h0 mp hmp).2.2.1, (h0 mp hmp).2.2.2⟩) h mp hmp
  · exact ⟨this.stress, this.strain⟩
  · rintro d w ph b ⟨S0, ph', x, y, mp, -, hm, rfl⟩
    have := mkParticle_symm hm
    rw [wrapped_frame]
    exact ⟨this.stress, this.strain, this.dev, this.dstress⟩

/-- C104.  So while gravity turns, the total weight is that of the first phase in the present
direction plus that of the other phases in the direction they were made with. -/
theorem c104_weight (ho1 : P.B.outlet_left = false) (ho2 : P.B.outlet_bottom = false)
    (hi1 : P.B.inlet_right = false) (hi2 : P.B.inlet_top = false) {n : ℕ} {s s' : St P}
    (hL : Counted s.L) (h : stepsV P interp σ (n + 1) s = .ok s')
    (hlaw : ∀ A ∈ s.L, A.ph.law ≠ .elastic_time) {A : PhaseSt K P.G.ns} {rest : List (PhaseSt K P.G.ns)}
    (hA : s.L = A :: rest) :
    totalWeight s'.L = (A.pts.map (·.m)).sum •
      ![(P.forces (s.dyn.t + n * s.dyn.dt)).1 * (σ (s.dyn.t + n * s.dyn.dt)).sinθ,
        (P.forces (s.dyn.t + n * s.dyn.dt)).1 * (σ (s.dyn.t + n * s.dyn.dt)).cosθ, 0] +
      totalWeight rest := by
  have k1 : ∀ B, s'.L[0]? = some B → _ := fun B hB => c104_gravity hL h (B := B) hB
  have k2 := c104_others ho1 ho2 hi1 hi2 hL h
  have k3 := c104_kept ho1 ho2 hi1 hi2 hL h
  rw [hA] at k2 k3 hlaw
  cases hL' : s'.L with
  | nil => have := k2.1; rw [hL'] at this; simp at this
  | cons B rest' =>
    rw [hL'] at k1 k2 k3
    have j1 := k1 B rfl
    have j3 := (k3.2 0 A B rfl rfl).2
    have e1 : (B.pts.map fun mp => mp.m • mp.b).sum = (A.pts.map (·.m)).sum •
        ![(P.forces (s.dyn.t + n * s.dyn.dt)).1 * (σ (s.dyn.t + n * s.dyn.dt)).sinθ,
          (P.forces (s.dyn.t + n * s.dyn.dt)).1 * (σ (s.dyn.t + n * s.dyn.dt)).cosθ, 0] := by
      have hl := hlaw A List.mem_cons_self
      generalize (![(P.forces (s.dyn.t + n * s.dyn.dt)).1 * (σ (s.dyn.t + n * s.dyn.dt)).sinθ,
          (P.forces (s.dyn.t + n * s.dyn.dt)).1 * (σ (s.dyn.t + n * s.dyn.dt)).cosθ, 0] : Vec K) = v at j1
      clear k1 k2 k3
      generalize A.pts = l at j3
      generalize B.pts = l' at j1 j3
      induction j3 with
      | nil => simp
      | cons hab _ ih =>
        rw [List.map_cons, List.sum_cons, List.map_cons, List.sum_cons, add_smul,
          ih fun mp hmp => j1 mp (List.mem_cons_of_mem _ hmp), j1 _ List.mem_cons_self, hab.2 hl]
    have e2 : totalWeight rest' = totalWeight rest := by
      unfold totalWeight points
      have j2 : List.Forall₂ (fun A B : PhaseSt K P.G.ns =>
          (B.pts.map fun mp => mp.m • mp.b) = A.pts.map fun mp => mp.m • mp.b) rest rest' := by
        refine IdxRel.forall₂ (R := fun _ A B => (B.pts.map fun mp => mp.m • mp.b) =
          A.pts.map fun mp => mp.m • mp.b) ⟨by simpa using k2.1, fun i C D hC hD => ?_⟩ fun _ _ _ h => h
        have g2 := k2.2 (i + 1) C D (by simpa using hC) (by simpa using hD) (by omega)
        have g3 := (k3.2 (i + 1) C D (by simpa using hC) (by simpa using hD)).2
        have hl := hlaw C (List.mem_cons_of_mem _ (List.mem_of_getElem? hC))
        beta_reduce
        generalize C.pts = l at g2 g3
        generalize D.pts = l' at g2 g3
        induction g2 with
        | nil => rfl
        | cons hab _ ih =>
          cases g3 with
          | cons hab' g3 => rw [List.map_cons, List.map_cons, hab, hab'.2 hl, ih g3]
      rw [List.map_flatMap, List.map_flatMap]
      congr 1
      clear k2 k3 k1 hlaw hA hL'
      induction j2 with
      | nil => rfl
      | cons hab _ ih => rw [List.flatMap_cons, List.flatMap_cons, hab, ih]
    unfold totalWeight points at e2 ⊢
    rw [List.flatMap_cons, List.map_append, List.sum_append, e1, e2]

/-! ## C105 -/

theorem axis_add (a b : K) : (![a + b, 0, 0] : Vec K) = ![a, 0, 0] + ![b, 0, 0] := by
  funext c
  fin_cases c <;> simp

theorem update_axis (v : Vec K) (c : K) : Function.update v 0 (v 0 + c) = v + ![c, 0, 0] := by
  funext i
  fin_cases i <;> simp

theorem wrapX_turns (G : GP K) (x : K) : ∃ z : ℤ, wrapX G x = x + z * (G.x_M - G.x_m) := by
  unfold wrapX
  simp only
  split <;> split
  · exact ⟨0, by push_cast; ring⟩
  · exact ⟨1, by push_cast; ring⟩
  · exact ⟨-1, by push_cast; ring⟩
  · exact ⟨0, by push_cast; ring⟩

/-- C105.  Points of a rigid phase: each is displaced by the sum of `dt * intruder_v` over the
steps, up to whole domain widths if the edges are cyclic (without inlets and outlets), and has the
last intruder velocity. -/
theorem c105_path (ho1 : P.B.outlet_left = false) (ho2 : P.B.outlet_bottom = false)
    (hi1 : P.B.inlet_right = false) (hi2 : P.B.inlet_top = false) {n : ℕ} {s s' : St P}
    (hL : Counted s.L) (h : stepsV P interp σ n s = .ok s') :
    IdxRel (fun _ A B => A.ph.law = .rigid → List.Forall₂ (fun a b =>
      (∃ z : ℤ, (P.B.cyclic_lr = false → z = 0) ∧
        b.x = a.x + ∑ k ∈ Finset.range n, s.dyn.dt • (σ (s.dyn.t + k * s.dyn.dt)).intruder_v +
          ![z * (P.G.x_M - P.G.x_m), 0, 0]) ∧
      (∀ m, n = m + 1 → b.v = .own (σ (s.dyn.t + m * s.dyn.dt)).intruder_v)) A.pts B.pts) s.L s'.L := by
  refine (stepsV_closed ho1 ho2 hi1 hi2 (fun n _ ph a b => ph.law = .rigid →
      (∃ z : ℤ, (P.B.cyclic_lr = false → z = 0) ∧
        b.x = a.x + ∑ k ∈ Finset.range n, s.dyn.dt • (σ (s.dyn.t + k * s.dyn.dt)).intruder_v +
          ![z * (P.G.x_M - P.G.x_m), 0, 0]) ∧
      (∀ m, n = m + 1 → b.v = .own (σ (s.dyn.t + m * s.dyn.dt)).intruder_v)) ?_ ?_ hL h).imp ?_
  · intro p ph a _
    refine ⟨⟨0, fun _ => rfl, ?_⟩, fun m hm => by omega⟩
    funext c
    fin_cases c <;> simp
  · intro k p ph ph' a b c d w m0 Gw Gb Gm ew hph ht hdt _ hab hev hl
    subst ew
    obtain ⟨a5, a6, hmv, hw, e, -⟩ := hev.parts
    have hl' : ph'.law = .rigid := by rw [hph.fields.1]; exact hl
    obtain ⟨⟨z, hz, ex⟩, -⟩ := hab hl
    rcases hmv with ⟨-, h6⟩ | ⟨hn, -⟩
    · have e6 : a6.x = a.x + ∑ k ∈ Finset.range (k + 1), s.dyn.dt • (σ (s.dyn.t + k * s.dyn.dt)).intruder_v +
          ![z * (P.G.x_M - P.G.x_m), 0, 0] := by
        rw [h6]
        change a5.x + d.dt • (σ d.t).intruder_v = _
        rw [e, ex, Finset.sum_range_succ, ht, hdt]
        abel
      constructor
      · rw [hw]
        unfold wrapped
        split
        · obtain ⟨z', hz'⟩ := wrapX_turns P.G (a6.x 0)
          refine ⟨z + z', fun hcf => ?_, ?_⟩
          · rename_i hcy
            have : P.B.cyclic_lr = true := hcy
            rw [hcf] at this
            cases this
          · change Function.update a6.x 0 (wrapX P.G (a6.x 0)) = _
            rw [hz', update_axis, e6, Int.cast_add, add_mul, axis_add, add_assoc]
        · exact ⟨z, hz, e6⟩
      · intro m hm
        obtain rfl : k = m := by omega
        rw [hw, wrapped_frame, ← ht, h6]
        rfl
    · exact absurd hl' hn
  · rintro p A B ⟨-, k⟩ hl
    exact k.imp fun a b hab => hab hl

/-- C105.  So the body keeps its shape: the vector between any two of its points never changes, up
to whole domain widths if the edges are cyclic. -/
theorem c105_shape (ho1 : P.B.outlet_left = false) (ho2 : P.B.outlet_bottom = false)
    (hi1 : P.B.inlet_right = false) (hi2 : P.B.inlet_top = false) {n : ℕ} {s s' : St P}
    (hL : Counted s.L) (h : stepsV P interp σ n s = .ok s') :
    IdxRel (fun _ A B => A.ph.law = .rigid → ∀ (i j : ℕ) (a a' b b' : Particle K P.G.ns),
      A.pts[i]? = some a → A.pts[j]? = some a' → B.pts[i]? = some b → B.pts[j]? = some b' →
      ∃ z : ℤ, (P.B.cyclic_lr = false → z = 0) ∧
        b'.x - b.x = a'.x - a.x + ![z * (P.G.x_M - P.G.x_m), 0, 0]) s.L s'.L := by
  refine (c105_path ho1 ho2 hi1 hi2 hL h).imp ?_
  intro p A B k hl i j a a' b b' ha ha' hb hb'
  have k := k hl
  have g := IdxRel.of_forall₂ k
  obtain ⟨⟨z, hz, e⟩, -⟩ := g.2 i a b ha hb
  obtain ⟨⟨z', hz', e'⟩, -⟩ := g.2 j a' b' ha' hb'
  refine ⟨z' - z, fun hc => by rw [hz hc, hz' hc]; rfl, ?_⟩
  rw [e, e']
  have : (![(z' : K) * (P.G.x_M - P.G.x_m), 0, 0] : Vec K) =
      ![((z' - z : ℤ) : K) * (P.G.x_M - P.G.x_m), 0, 0] + ![(z : K) * (P.G.x_M - P.G.x_m), 0, 0] := by
    rw [← axis_add, ← add_mul, ← Int.cast_add, sub_add_cancel]
  rw [this]
  abel

end

/-! ## The angles and velocities of the input files -/

section
open Real

/-- C104.  bi_drum, bi_square_drum: the drum turns uniformly, once per period, with
`omega^2 r = Fr |g|`, in opposite directions in the two files. -/
theorem c104_froude {r g Fr : ℝ} (hr : 0 < r) (hg : g ≠ 0) (hF : 0 < Fr) :
    0 < drumPeriod r g Fr ∧ (2 * π / drumPeriod r g Fr) ^ 2 * r = Fr * |g| ∧
    (∀ t, drumAngle r g Fr t = 2 * π / drumPeriod r g Fr * t) ∧
    (∀ t, drumAngle r g Fr (t + drumPeriod r g Fr) = drumAngle r g Fr t + 2 * π) ∧
    ∀ t, squareDrumAngle r g Fr t = -drumAngle r g Fr t := by
  have hg' := abs_pos.2 hg
  have hT : 0 < drumPeriod r g Fr := Real.sqrt_pos.2 (by positivity)
  refine ⟨hT, ?_, fun t => ?_, fun t => ?_, fun t => ?_⟩
  · rw [div_pow]
    unfold drumPeriod
    rw [Real.sq_sqrt (by positivity)]
    field_simp
    ring
  · unfold drumAngle
    ring
  · unfold drumAngle
    field_simp
  · unfold squareDrumAngle drumAngle
    ring

variable {P : Par ℝ} {interp : Interp ℝ P.G.N}

/-- C104.  In the drum files the body force of the grains keeps the magnitude of gravity and turns
with the drum; at whole turns it points down again. -/
theorem c104_drum {r g Fr : ℝ} (hr : 0 < r) (hg : g ≠ 0) (hF : 0 < Fr) (hf : ∀ t, (P.forces t).1 = g)
    {v : Vec ℝ} {n : ℕ} {s s' : St P} (hL : Counted s.L)
    (h : stepsV P interp (fun t => steerBy (drumAngle r g Fr t) v) (n + 1) s = .ok s')
    {B : PhaseSt ℝ P.G.ns} (hB : s'.L[0]? = some B) :
    ∀ mp ∈ B.pts, mp.b 0 ^ 2 + mp.b 1 ^ 2 = g ^ 2 ∧ mp.b 2 = 0 ∧
      mp.b = ![g * sin (2 * π / drumPeriod r g Fr * (s.dyn.t + n * s.dyn.dt)),
        g * cos (2 * π / drumPeriod r g Fr * (s.dyn.t + n * s.dyn.dt)), 0] ∧
      (∀ m : ℕ, s.dyn.t + n * s.dyn.dt = m * drumPeriod r g Fr → mp.b = ![0, g, 0]) := by
  intro mp hmp
  obtain ⟨hT, -, hang, -⟩ := c104_froude hr hg hF
  have := c104_gravity hL h hB mp hmp
  rw [hf] at this
  simp only [steerBy, hang] at this
  rw [this]
  refine ⟨?_, rfl, rfl, fun m hm => ?_⟩
  · simp only [Matrix.cons_val_zero, Matrix.cons_val_one]
    rw [mul_pow, mul_pow, ← mul_add, sin_sq_add_cos_sq, mul_one]
  · rw [hm, div_mul_eq_mul_div, mul_div_assoc, mul_div_cancel_right₀ _ hT.ne', mul_comm (2 * π),
      show sin ((m : ℝ) * (2 * π)) = 0 by
        have := sin_nat_mul_pi (m * 2)
        push_cast at this
        rwa [mul_assoc] at this,
      cos_nat_mul_two_pi, mul_zero, mul_one]

/-- C104.  The tangent that the steady flow of new points uses does not depend on the direction in which the
domain is tilted, and is not negative below a right angle. -/
theorem c104_tangent (θ : ℝ) (v : Vec ℝ) : (steerBy (-θ) v).tanθ = (steerBy θ v).tanθ ∧
    (cos θ ≠ 0 → (steerBy θ v).sinθ ^ 2 = (steerBy θ v).tanθ ^ 2 * (steerBy θ v).cosθ ^ 2) ∧
    (|θ| < π / 2 → 0 ≤ (steerBy θ v).tanθ) := by
  refine ⟨by simp [steerBy], fun h => ?_, fun h => Real.tan_nonneg_of_nonneg_of_le_pi_div_two (abs_nonneg _) h.le⟩
  have e : tan |θ| ^ 2 = tan θ ^ 2 := by
    rcases abs_choice θ with h | h <;> rw [h]
    rw [Real.tan_neg, neg_sq]
  show sin θ ^ 2 = tan |θ| ^ 2 * cos θ ^ 2
  rw [e, Real.tan_eq_sin_div_cos, div_pow, div_mul_cancel₀ _ (pow_ne_zero 2 h)]

/-- Tilted by 45 degrees either way. -/
example (v : Vec ℝ) : (steerBy (-(π / 4)) v).tanθ = 1 ∧ (steerBy (-(π / 4)) v).sinθ < 0 := by
  rw [(c104_tangent (π / 4) v).1]
  constructor
  · show tan |π / 4| = 1
    rw [abs_of_pos (by positivity), Real.tan_pi_div_four]
  · show sin (-(π / 4)) < 0
    rw [sin_neg, neg_lt_zero, sin_pi_div_four]
    positivity

/-- C104.  vicky_latest (slope of 30 degrees until 0.5 s, then level) and fluid (level until 2 s,
then 45 degrees). -/
theorem c104_tilts (t : ℝ) (v : Vec ℝ) :
    (t < 1 / 2 → (steerBy (tiltAngle t) v).sinθ = 1 / 2 ∧ (steerBy (tiltAngle t) v).cosθ = √3 / 2) ∧
    (1 / 2 ≤ t → (steerBy (tiltAngle t) v).sinθ = 0 ∧ (steerBy (tiltAngle t) v).cosθ = 1) ∧
    (t < 2 → (steerBy (fluidAngle t) v).sinθ = 0 ∧ (steerBy (fluidAngle t) v).cosθ = 1) ∧
    (2 ≤ t → (steerBy (fluidAngle t) v).sinθ = √2 / 2 ∧ (steerBy (fluidAngle t) v).cosθ = √2 / 2) := by
  have e30 : 30 * π / 180 = π / 6 := by ring
  have e45 : 45 * π / 180 = π / 4 := by ring
  unfold steerBy tiltAngle fluidAngle
  refine ⟨fun h => ?_, fun h => ?_, fun h => ?_, fun h => ?_⟩
  · simp only [if_pos h, e30]
    exact ⟨sin_pi_div_six, cos_pi_div_six⟩
  · simp only [if_neg (not_lt.2 h)]
    exact ⟨sin_zero, cos_zero⟩
  · simp only [if_pos (show t < 4 * (1 / 2) by linarith)]
    norm_num
  · simp only [if_neg (show ¬ t < 4 * (1 / 2) by linarith), e45]
    exact ⟨sin_pi_div_four, cos_pi_div_four⟩

end
/-! ## The hypotheses can be met -/

/-- A soft body and a rigid one that speeds up while the slope turns. -/
def Ex.steerL : List (PhaseSt ℚ 2) :=
  [{ ph := { Ex.ph with n := 1 }, pts := [Ex.mp] },
   { ph := { Ex.ph with law := .rigid, n := 1 }, pts := [Ex.mp2] }]

def Ex.steering (t : ℚ) : Steer ℚ :=
  if t = Ex.dyn.t then Steer.mk 0 1 0 0 else Steer.mk (3 / 5) (4 / 5) (3 / 4) ![1 / 10, 0, 0]

def Ex.runV (P : Par ℚ) (σ : ℚ → Steer ℚ) (d : Dyn ℚ) (L : List (PhaseSt ℚ P.G.ns)) (n : ℕ)
    (check : St P → Bool) : Bool :=
  Ex.okAnd (mkGrid P.G P.B) fun G => Ex.okAnd (stepsV P (Ex.noInterp P) σ n (St.mk d L G)) check

theorem Ex.runV_ok {P : Par ℚ} {σ : ℚ → Steer ℚ} {d : Dyn ℚ} {L : List (PhaseSt ℚ P.G.ns)} {n : ℕ}
    {check : St P → Bool} (h : Ex.runV P σ d L n check = true) :
    ∃ G s', mkGrid P.G P.B = .ok G ∧ stepsV P (Ex.noInterp P) σ n (St.mk d L G) = .ok s' ∧
      check s' = true := by
  obtain ⟨G, h1, h2⟩ := Ex.okAnd_ok h
  obtain ⟨s', h3, h4⟩ := Ex.okAnd_ok h2
  exact ⟨G, s', h1, h3, h4⟩

example : ∃ s s' : St Ex.par, Counted s.L ∧ (∀ A ∈ s.L, A.ph.law ≠ .elastic_time) ∧
    (∃ A ∈ s.L, A.ph.law = .rigid ∧ A.pts ≠ []) ∧
    stepsV Ex.par (Ex.noInterp _) Ex.steering (1 + 1) s = .ok s' ∧
    (points s'.L).map (·.b) = [![-6, -8, 0], Ex.mp2.b] ∧ Ex.mp2.b ≠ ![-6, -8, 0] := by
  obtain ⟨G, s', -, h, hc⟩ := Ex.runV_ok (P := Ex.par) (σ := Ex.steering) (d := Ex.dyn) (L := Ex.steerL)
    (n := 1 + 1) (check := fun s => decide ((points s.L).map (·.b) = [![-6, -8, 0], Ex.mp2.b]))
    (by decide +kernel)
  refine ⟨St.mk Ex.dyn Ex.steerL G, s', ?_, ?_, ?_, h, of_decide_eq_true hc, by decide +kernel⟩
  · change ∀ A ∈ Ex.steerL, A.ph.n = A.pts.length
    decide +kernel
  · change ∀ A ∈ Ex.steerL, A.ph.law ≠ .elastic_time
    decide +kernel
  · refine ⟨{ ph := { Ex.ph with law := .rigid, n := 1 }, pts := [Ex.mp2] }, ?_, rfl, by simp⟩
    exact List.mem_cons_of_mem _ List.mem_cons_self

example : 0 < drumPeriod (1 / 10) (-981 / 100) 2 := (c104_froude (by norm_num) (by norm_num) (by norm_num)).1

end Mpm

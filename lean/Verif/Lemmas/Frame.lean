import Verif.Lemmas.Slices
import Verif.Props.Transfer

/-! What a time step leaves unchanged on the grid. -/

set_option linter.unusedSectionVars false

namespace Mpm
open Spec

/-- Same node table, spacings, volumes and fixed masks. -/
structure SameTable {K : Type} {N ns : ℕ} (G G' : Grid K N ns) : Prop where
  dx : G'.dx = G.dx
  dy : G'.dy = G.dy
  X : G'.X = G.X
  Y : G'.Y = G.Y
  V : G'.V = G.V
  tot : G'.boundary_tot = G.boundary_tot
  conv : G'.boundary_conveyor = G.boundary_conveyor

/-- And the same wall masks. -/
structure SameStatic {K : Type} {N ns : ℕ} (G G' : Grid K N ns) : Prop extends SameTable G G' where
  bv : G'.boundary_v = G.boundary_v
  bh : G'.boundary_h = G.boundary_h

section
variable {K : Type} {N ns : ℕ} {G G' G'' : Grid K N ns}

theorem SameTable.refl (G : Grid K N ns) : SameTable G G := by constructor <;> rfl
theorem SameStatic.refl (G : Grid K N ns) : SameStatic G G := ⟨.refl G, rfl, rfl⟩

theorem SameTable.trans (h : SameTable G G') (h' : SameTable G' G'') : SameTable G G'' := by
  constructor
  · exact h'.dx.trans h.dx
  · exact h'.dy.trans h.dy
  · exact h'.X.trans h.X
  · exact h'.Y.trans h.Y
  · exact h'.V.trans h.V
  · exact h'.tot.trans h.tot
  · exact h'.conv.trans h.conv

theorem SameStatic.trans (h : SameStatic G G') (h' : SameStatic G' G'') : SameStatic G G'' :=
  ⟨h.toSameTable.trans h'.toSameTable, h'.bv.trans h.bv, h'.bh.trans h.bh⟩

end

theorem foldN_inv {α σ : Type} {f : α → σ → Res σ} (p : σ → Prop)
    (hf : ∀ a s s', p s → f a s = .ok s' → p s') {n : ℕ} {l : List α} {s s' : σ}
    (h : foldN f n l s = .ok s') (hs : p s) : p s' := by
  induction l generalizing n s with
  | nil =>
    cases n with
    | zero => rw [foldN_zero] at h; cases h; exact hs
    | succ n => cases h
  | cons a l ih =>
    cases n with
    | zero => rw [foldN_zero] at h; cases h; exact hs
    | succ n =>
      obtain ⟨s1, h1, h2⟩ := foldN_cons_ok.1 h
      exact ih h2 (hf _ _ _ hs h1)

theorem foldPhases_inv {K : Type} {ns : ℕ} {σ : Type} {f : PhaseSt K ns → σ → Res σ} (p : σ → Prop)
    (hf : ∀ a s s', p s → f a s = .ok s' → p s') {l : List (PhaseSt K ns)} {s s' : σ}
    (h : foldPhases f l s = .ok s') (hs : p s) : p s' := by
  induction l generalizing s with
  | nil => cases h; exact hs
  | cons a l ih =>
    obtain ⟨s1, h1, h2⟩ := res_bind_ok.1 h
    exact ih h2 (hf _ _ _ hs h1)

section
variable {K : Type} [Field K] [LinearOrder K] [IsStrictOrderedRing K] [FloorRing K]

theorem wipe_static {N ns : ℕ} (G : Grid K N ns) : SameStatic G G.wipe := by
  refine ⟨?_, rfl, rfl⟩
  constructor <;> rfl

theorem p2gAll_static {nx N ns : ℕ} {seg : Bool} {L : List (PhaseSt K ns)} {G G' : Grid K N ns}
    (h : p2gAll nx seg L G = .ok G') : SameStatic G G' := by
  refine foldPhases_inv (SameStatic G) ?_ h (.refl G)
  intro a s s' hs h
  refine foldN_inv (SameStatic G) ?_ h hs
  intro mp s s' hs h
  rw [(p2g_ok.1 h).2]
  refine hs.trans ⟨?_, ?_, ?_⟩
  · constructor <;> (unfold p2gClosed; split <;> rfl)
  all_goals (unfold p2gClosed; split <;> rfl)

theorem nodalForcesAll_static {nx N ns : ℕ} {L : List (PhaseSt K ns)} {G G' : Grid K N ns}
    (h : nodalForcesAll nx L G = .ok G') : SameStatic G G' ∧ G'.q = G.q ∧ G'.m = G.m := by
  refine foldPhases_inv (fun G' => SameStatic G G' ∧ G'.q = G.q ∧ G'.m = G.m) ?_ h ⟨.refl G, rfl, rfl⟩
  intro a s s' hs h
  refine foldN_inv (fun G' => SameStatic G G' ∧ G'.q = G.q ∧ G'.m = G.m) ?_ h hs
  intro mp s s' hs h
  rw [(nodalForces_ok.1 h).2]
  refine ⟨hs.1.trans ⟨?_, rfl, rfl⟩, hs.2⟩
  constructor <;> rfl

theorem getNodalMassMomentum_static {N ns : ℕ} {P : Par K} {s : Fin ns → K}
    {L : List (PhaseSt K ns)} {G G' : Grid K N ns}
    (h : getNodalMassMomentum P s L G = .ok G') : SameStatic G G' := by
  obtain ⟨G1, h1, rfl⟩ := getNodalMassMomentum_ok h
  refine (p2gAll_static h1).trans ⟨?_, ?_, ?_⟩
  · constructor <;> (split <;> rfl)
  all_goals (split <;> rfl)

theorem getNodalForces_static {nx ny ns : ℕ} {P : Par K} {L : List (PhaseSt K ns)}
    {G G' : Grid K (ny * nx) ns} (h : getNodalForces P L G = .ok G') :
    SameStatic G G' ∧ G'.q = G.q ∧ G'.m = G.m := by
  unfold getNodalForces at h
  obtain ⟨G1, h1, h⟩ := res_bind_ok.1 h
  obtain ⟨h2, h3, h4⟩ := nodalForcesAll_static h1
  rw [← Except.ok.inj h]
  split
  · refine ⟨h2.trans ⟨?_, rfl, rfl⟩, h3, h4⟩
    constructor <;> rfl
  · exact ⟨h2, h3, h4⟩

/-- The first half of a step, on the grid. -/
theorem GridPhase.static {P : Par K} {s : St P} (T : GridPhase P s) :
    SameStatic s.G T.Ga ∧ SameStatic s.G T.Gb ∧ SameStatic s.G T.Gc ∧ SameStatic s.G T.Gd ∧
      T.Gd.q = T.Gb.q ∧ T.Gd.m = T.Gb.m := by
  have h1 := (wipe_static s.G).trans (getNodalMassMomentum_static T.hGa)
  have h2 : SameStatic s.G T.Gb := by
    rw [T.hGb]
    split
    · refine h1.trans ⟨?_, rfl, rfl⟩
      constructor <;> rfl
    · exact h1
  have e := updateStressStrain_grid T.hLd
  have h3 : SameStatic s.G T.Gc := by
    rw [e]
    refine h2.trans ⟨?_, rfl, rfl⟩
    constructor <;> rfl
  obtain ⟨h4, h5, h6⟩ := getNodalForces_static T.hGd
  refine ⟨h1, h2, h3, h3.trans h4, ?_, ?_⟩
  · rw [h5, e]
  · rw [h6, e]

theorem BCs_frame {nx ny ns : ℕ} {B : BP K} {qv qh rho : K} {a0 : Bool} {G G' : Grid K (ny * nx) ns}
    (h : G.BCs B qv qh rho a0 = .ok G') :
    G' = { G with ext_f := G'.ext_f, fe := G'.fe } := by
  unfold Grid.BCs at h
  split at h
  · cases h
  · cases a0
    · rw [← Except.ok.inj h]
      simp only [Bool.false_eq_true, if_false]
      split <;> split <;> rfl
    · cases h

/-- Without applied boundary stresses `BCs` does nothing. -/
theorem BCs_none {nx ny ns : ℕ} {B : BP K} (hv : B.vertical_force = false)
    (hh : B.horizontal_force = false) {qv qh rho : K} {a0 : Bool} {G G' : Grid K (ny * nx) ns}
    (h : G.BCs B qv qh rho a0 = .ok G') : G' = G := by
  unfold Grid.BCs at h
  split at h
  · cases h
  · cases a0
    · rw [← Except.ok.inj h]
      simp only [Bool.false_eq_true, if_false, hv, hh]
    · cases h

/-- The masks after `update_momentum`. -/
def wallMarks (B : BP K) {N : ℕ} (mark : Fin N → Bool) (b : Fin N → Bool) : Fin N → Bool :=
  fun i => b i || (B.roughness && decide (B.wall_mu ≠ 0) && mark i)

theorem updateMomentum_table {nx ny ns : ℕ} {B : BP K} {damping : Bool} {dt v0 : K}
    (G : Grid K (ny * nx) ns) :
    SameTable G (G.updateMomentum B damping dt v0) ∧
    (G.updateMomentum B damping dt v0).m = G.m ∧
    (G.updateMomentum B damping dt v0).boundary_h =
      wallMarks B (fun i => inBottom nx ny i || inTop nx ny i) G.boundary_h ∧
    (G.updateMomentum B damping dt v0).boundary_v =
      wallMarks B (fun i => inLeft nx ny i || inRight nx ny i) G.boundary_v := by
  refine ⟨by constructor <;> rfl, rfl, ?_, ?_⟩ <;>
  · unfold Grid.updateMomentum wallMarks
    funext i
    cases B.roughness
    · simp
    · by_cases h : B.wall_mu = 0 <;> simp [h, Bool.or_assoc]

theorem momentumPhase_frame {P : Par K} {interp : Interp K P.G.N} {s s' : St P}
    (h : momentumPhase P interp s = .ok s') :
    ∃ G1, s.G.BCs P.B s.dyn.q_v s.dyn.q_h (((mat0 s.L).map (·.rho)).getD 0)
        (P.aniso && decide (s.dyn.t = 0)) = .ok G1 ∧
      s' = { s with G := { G1.updateMomentum P.B P.damping s.dyn.dt P.v_0 with vis := s'.G.vis } } := by
  unfold momentumPhase at h
  obtain ⟨G1, h1, h⟩ := res_bind_ok.1 h
  cases h
  exact ⟨G1, h1, rfl⟩

theorem momentumPhase_table {P : Par K} {interp : Interp K P.G.N} {s s' : St P}
    (h : momentumPhase P interp s = .ok s') :
    s'.dyn = s.dyn ∧ s'.L = s.L ∧ SameTable s.G s'.G ∧ s'.G.m = s.G.m ∧
    s'.G.boundary_h = wallMarks P.B (fun i => inBottom P.G.nx P.G.ny i || inTop P.G.nx P.G.ny i)
      s.G.boundary_h ∧
    s'.G.boundary_v = wallMarks P.B (fun i => inLeft P.G.nx P.G.ny i || inRight P.G.nx P.G.ny i)
      s.G.boundary_v := by
  obtain ⟨G1, h1, e⟩ := momentumPhase_frame h
  have e1 := BCs_frame h1
  have t1 : SameStatic s.G G1 := by
    rw [e1]; refine ⟨?_, rfl, rfl⟩; constructor <;> rfl
  have m1 : G1.m = s.G.m := by rw [e1]
  obtain ⟨t2, m2, bh, bv⟩ := updateMomentum_table (B := P.B) (damping := P.damping)
    (dt := s.dyn.dt) (v0 := P.v_0) G1
  rw [e]
  refine ⟨rfl, rfl, t1.toSameTable.trans ?_, m1, ?_, ?_⟩
  · constructor <;> rfl
  · rw [← t1.bh]; exact bh
  · rw [← t1.bv]; exact bv

theorem segregationPhase_frame {P : Par K} {interp : Interp K P.G.N} {s s' : St P}
    (h : segregationPhase P interp s = .ok s') :
    s'.dyn = s.dyn ∧ SameStatic s.G s'.G ∧ s'.G.m = s.G.m ∧ s'.G.q = s.G.q ∧
      s'.G.q_dot = s.G.q_dot ∧ (P.segregate_grid = false → s' = s) := by
  unfold segregationPhase at h
  split at h
  · rename_i hs
    dsimp only at h
    split at h
    · cases h
    · obtain ⟨L1, h1, h⟩ := res_bind_ok.1 h
      rw [← Except.ok.inj h]
      refine ⟨rfl, ⟨?_, rfl, rfl⟩, rfl, rfl, rfl, ?_⟩
      · constructor <;> rfl
      · intro h'; rw [h'] at hs; cases hs
  · cases h
    exact ⟨rfl, .refl _, rfl, rfl, rfl, fun _ => rfl⟩

theorem pointsPhase_frame {P : Par K} {s s' : St P} (h : pointsPhase P s = .ok s') :
    s'.dyn = s.dyn ∧ s'.G = s.G := by
  unfold pointsPhase at h
  obtain ⟨_, _, h⟩ := res_bind_ok.1 h
  obtain ⟨_, _, h⟩ := res_bind_ok.1 h
  obtain ⟨_, _, h⟩ := res_bind_ok.1 h
  obtain ⟨_, _, h⟩ := res_bind_ok.1 h
  obtain ⟨_, _, h⟩ := res_bind_ok.1 h
  obtain ⟨_, _, h⟩ := res_bind_ok.1 h
  cases h
  exact ⟨rfl, rfl⟩

/-- The four parts of a time step. -/
theorem timeMarch_ok {P : Par K} {interp : Interp K P.G.N} {s s' : St P}
    (h : timeMarch P interp s = .ok s') :
    ∃ s1 s2 s3, gridPhase P s = .ok s1 ∧ momentumPhase P interp s1 = .ok s2 ∧
      segregationPhase P interp s2 = .ok s3 ∧ pointsPhase P s3 = .ok s' := by
  unfold timeMarch at h
  obtain ⟨s1, h1, h⟩ := res_bind_ok.1 h
  obtain ⟨s2, h2, h⟩ := res_bind_ok.1 h
  obtain ⟨s3, h3, h⟩ := res_bind_ok.1 h
  exact ⟨s1, s2, s3, h1, h2, h3, h⟩

/-- A time step keeps the node table; the wall masks change as `update_momentum` changes them. -/
theorem timeMarch_table {P : Par K} {interp : Interp K P.G.N} {s s' : St P}
    (h : timeMarch P interp s = .ok s') :
    SameTable s.G s'.G ∧
    s'.G.boundary_h = wallMarks P.B (fun i => inBottom P.G.nx P.G.ny i || inTop P.G.nx P.G.ny i)
      s.G.boundary_h ∧
    s'.G.boundary_v = wallMarks P.B (fun i => inLeft P.G.nx P.G.ny i || inRight P.G.nx P.G.ny i)
      s.G.boundary_v ∧ s'.dyn = s.dyn.updateForces P := by
  obtain ⟨s1, s2, s3, h1, h2, h3, h4⟩ := timeMarch_ok h
  obtain ⟨T, rfl⟩ := gridPhase_ok h1
  obtain ⟨-, -, -, a, -, -⟩ := T.static
  obtain ⟨d2, -, b, -, bh, bv⟩ := momentumPhase_table h2
  obtain ⟨d3, c, -, -, -, -⟩ := segregationPhase_frame h3
  obtain ⟨d4, e⟩ := pointsPhase_frame h4
  refine ⟨?_, ?_, ?_, ?_⟩
  · rw [e]; exact (a.toSameTable.trans b).trans c.toSameTable
  · rw [e, c.bh, bh, a.bh]
  · rw [e, c.bv, bv, a.bv]
  · rw [d4, d3, d2, T.hd]

theorem steps_succ {P : Par K} {interp : Interp K P.G.N} {n : ℕ} {s s' : St P} :
    steps P interp (n + 1) s = .ok s' ↔
      ∃ s1, timeMarch P interp s = .ok s1 ∧ steps P interp n (stepTime P s1) = .ok s' := by
  constructor
  · intro h
    exact res_bind_ok.1 h
  · rintro ⟨s1, h1, h2⟩
    exact res_bind_ok.2 ⟨s1, h1, h2⟩

/-- What one time step preserves, a run preserves. -/
theorem steps_inv {P : Par K} {interp : Interp K P.G.N} (p : St P → Prop)
    (hp : ∀ s s', p s → timeMarch P interp s = .ok s' → p (stepTime P s')) {n : ℕ} {s s' : St P}
    (h : steps P interp n s = .ok s') (hs : p s) : p s' := by
  induction n generalizing s with
  | zero => cases h; exact hs
  | succ n ih =>
    obtain ⟨s1, h1, h2⟩ := steps_succ.1 h
    exact ih h2 (hp _ _ hs h1)

theorem SameTable.geometry {P : GP K} {ns : ℕ} {G G' : Grid K P.N ns} (h : SameTable G G')
    (hG : Geometry P G) : Geometry P G' :=
  ⟨h.dx.trans hG.dx, h.dy.trans hG.dy, fun k => by rw [h.X]; exact hG.X k,
    fun k => by rw [h.Y]; exact hG.Y k⟩

end
end Mpm

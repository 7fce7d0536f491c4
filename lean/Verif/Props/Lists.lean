import Verif.Lemmas.Run
import Verif.Props.Mapping
import Verif.ExRun
import Mathlib.Tactic.Linarith
import Mathlib.Tactic.Ring
import Mathlib.Tactic.LinearCombination

/-!
# C24-C28: wrap-around, outlets, counters, inlets
-/

set_option linter.unusedSectionVars false

namespace Mpm
open Spec

section
variable {K : Type} [Field K] [LinearOrder K] [IsStrictOrderedRing K] [FloorRing K] {ns N : ℕ}

/-! ## C24 -/

theorem wrapX_spec {P : GP K} (hW : P.x_m < P.x_M) {x : K}
    (h1 : P.x_m - (P.x_M - P.x_m) ≤ x) (h2 : x ≤ P.x_M + (P.x_M - P.x_m)) :
    (P.x_m ≤ wrapX P x ∧ wrapX P x ≤ P.x_M) ∧
      ∃ k : ℤ, wrapX P x = x + k * (P.x_M - P.x_m) := by
  unfold wrapX
  by_cases ha : x < P.x_m
  · simp only [ha, if_true]
    rw [if_neg (by linarith)]
    exact ⟨⟨by linarith, by linarith⟩, 1, by push_cast; ring⟩
  · simp only [ha, if_false]
    split
    · rename_i hb
      exact ⟨⟨by linarith, by linarith⟩, -1, by push_cast; ring⟩
    · exact ⟨⟨by linarith, by linarith⟩, 0, by push_cast; ring⟩

/-- Points within one domain width of the domain come back into it, displaced by a whole number
of domain widths; nothing else about any point changes, and no point is added or lost. -/
theorem c24_cyclic {P : GP K} (hW : P.x_m < P.x_M) {L L' : List (PhaseSt K ns)} (hL : Counted L)
    (h : cyclicLR P L = .ok L') :
    List.Forall₂ (fun A B => B.ph = A.ph ∧ List.Forall₂ (fun a b =>
      b = { a with x := b.x } ∧ b.x 1 = a.x 1 ∧ b.x 2 = a.x 2 ∧
      (P.x_m - (P.x_M - P.x_m) ≤ a.x 0 → a.x 0 ≤ P.x_M + (P.x_M - P.x_m) →
        (P.x_m ≤ b.x 0 ∧ b.x 0 ≤ P.x_M) ∧ ∃ k : ℤ, b.x 0 = a.x 0 + k * (P.x_M - P.x_m)))
      A.pts B.pts) L L' := by
  have r := mapPoints_raw hL h
  refine r.imp ?_
  rintro A B ⟨hp, hr⟩
  refine ⟨hp, hr.imp ?_⟩
  rintro a b ⟨_, h⟩
  cases h
  refine ⟨rfl, by simp, by simp, fun h1 h2 => ?_⟩
  have := wrapX_spec hW h1 h2
  simpa using this

/-- It never fails, and is the identity on points of the closed domain: a point exactly on the
right edge stays there (outside the half-open domain of the mapping, see C04). -/
theorem c24_inside {P : GP K} {L : List (PhaseSt K ns)} (hL : Counted L)
    (hx : ∀ mp ∈ points L, P.x_m ≤ mp.x 0 ∧ mp.x 0 ≤ P.x_M) : cyclicLR P L = .ok L := by
  have h := mapPoints_ok_of (g := fun (_ : Phase K ns) (mp : Particle K ns) => mp)
    (f := fun _ (_ : Phase K ns) (mp : Particle K ns) =>
      .ok { mp with x := Function.update mp.x 0 (wrapX P (mp.x 0)) }) hL (by
      intro _ x hm
      have hx := hx x.2 (by rw [← items_map_snd]; exact List.mem_map_of_mem hm)
      have e : wrapX P (x.2.x 0) = x.2.x 0 := by
        unfold wrapX
        rw [if_neg (not_lt.2 hx.1)]
        exact if_neg (not_lt.2 hx.2)
      rw [e, Function.update_eq_self])
  have e : (L.map fun a => ({ a with pts := a.pts.map (fun mp => mp) } : PhaseSt K ns)) = L := by
    have : ∀ a : PhaseSt K ns, ({ a with pts := a.pts.map (fun mp => mp) } : PhaseSt K ns) = a := by
      intro a
      rw [List.map_id']
    rw [List.map_congr_left fun a _ => this a, List.map_id']
  rw [e] at h
  exact h

theorem atCell_N_nonneg {P : GP K} (hP : GoodGrid P) {mp : Particle K ns} {i j : ℕ}
    (hc : InCell P mp.x i j) (r : Fin 4) : 0 ≤ (atCell P mp i j).N r := by
  refine (c02_unit_interval (cellX_pos hP) (cellY_pos hP) _ ?_ ?_ r).1
  · have h1 := hc.1.1; have h2 := hc.1.2
    rw [nodeX_succ] at h2
    simp only [Matrix.cons_val_zero]
    constructor <;> linarith
  · have h1 := hc.2.1.1; have h2 := hc.2.1.2
    rw [nodeY_succ] at h2
    simp only [Matrix.cons_val_one, Matrix.cons_val_zero]
    constructor <;> linarith

/-- The displacement of a point of the domain in one step is at most that of the fastest node. -/
theorem evolved_displacement {P : Par K} (hP : GoodGrid P.G) {d : Dyn K} {m0 : Option (Mat0 K)}
    {Gw Gb Gm : Grid K P.G.N P.G.ns} {p : ℕ} {ph : Phase K P.G.ns} {a b : Particle K P.G.ns}
    (hG : Geometry P.G Gw) (hx : InDomain P.G a.x) (h : Evolved P d m0 Gw Gb Gm p ph a b)
    {c : Fin 3} {u : K} (hr : ph.law = .rigid → |d.dt * P.intruder_v c| ≤ u)
    (hu : ∀ k, P.M_tol < Gm.m k → |d.dt * (Gm.q k c / Gm.m k)| ≤ u) (hu0 : 0 ≤ u) :
    ∃ a6, b = wrapped P a6 ∧ |a6.x c - a.x c| ≤ u := by
  obtain ⟨a5, a6, hmv, hw, e, -, -, -, -, -, hloc⟩ := h.parts
  refine ⟨a6, hw, ?_⟩
  rw [← e]
  rcases hmv with ⟨hl, h6⟩ | ⟨-, iv, iv', hmove⟩
  · rw [h6]
    simpa [Particle.moveRigid] using hr hl
  · obtain ⟨i, j, hcell, -, hN⟩ := hloc hP hG hx
    obtain ⟨nd, -, -, e⟩ := move_ok hmove
    have e6 : a6.x = a5.x + ∑ r, dispInc P.M_tol d.dt (a5.N r) Gm (nd r) :=
      congrArg (fun z => z.1.x) e
    have hN0 : ∀ r, 0 ≤ a5.N r := fun r => by rw [hN]; exact atCell_N_nonneg hP hcell r
    have hN1 : ∑ r, a5.N r = 1 := by
      rw [hN]; exact shapeN_sum (mul_pos (cellX_pos hP) (cellY_pos hP)).ne' _
    rw [e6, Pi.add_apply, add_sub_cancel_left, Finset.sum_apply]
    calc |∑ r, dispInc P.M_tol d.dt (a5.N r) Gm (nd r) c|
        ≤ ∑ r, |dispInc P.M_tol d.dt (a5.N r) Gm (nd r) c| := Finset.abs_sum_le_sum_abs _ _
      _ ≤ ∑ r, a5.N r * u := by
          refine Finset.sum_le_sum fun r _ => ?_
          unfold dispInc
          split
          · rename_i hm
            have : d.dt * a5.N r * Gm.q (nd r) c / Gm.m (nd r) =
              a5.N r * (d.dt * (Gm.q (nd r) c / Gm.m (nd r))) := by ring
            beta_reduce; rw [this, abs_mul, abs_of_nonneg (hN0 r)]
            exact mul_le_mul_of_nonneg_left (hu _ hm) (hN0 r)
          · simpa using mul_nonneg (hN0 r) hu0
      _ = u := by rw [← Finset.sum_mul, hN1, one_mul]

/-- In a whole step with cyclic boundaries: if no node (and no intruder) moves by more than one
domain width, every point that was in the domain is within `[x_m, x_M]` after the step. -/
theorem c24_step {P : Par K} (hP : GoodGrid P.G) (hc : P.B.cyclic_lr = true)
    {interp : Interp K P.G.N} {s s' : St P} (hL : Counted s.L) (hG : Geometry P.G s.G)
    (hx : ∀ mp ∈ points s.L, InDomain P.G mp.x)
    (hi : P.B.inlet_right = false) (ht : P.B.inlet_top = false)
    (h : timeMarch P interp s = .ok s')
    (hv : ∀ k, P.M_tol < s'.G.m k →
      |s.dyn.dt * (s'.G.q k 0 / s'.G.m k)| ≤ P.G.x_M - P.G.x_m)
    (hr : |s.dyn.dt * P.intruder_v 0| ≤ P.G.x_M - P.G.x_m) :
    ∀ mp ∈ points s'.L, P.G.x_m ≤ mp.x 0 ∧ mp.x 0 ≤ P.G.x_M := by
  obtain ⟨T, s1, s2, s3, -, -, -, -, hp, e, hR⟩ := timeMarch_points hL h
  intro b hb
  obtain ⟨B, hB, hb⟩ := List.mem_flatMap.1 hb
  obtain ⟨p, hp'⟩ := List.getElem?_of_mem hB
  obtain ⟨A, hA, -, -, hev⟩ := hR.left hp'
  have hA := List.mem_of_getElem? hA
  obtain ⟨a, ha, hev⟩ : ∃ a ∈ A.pts, Evolved P T.d (mat0 s.L) s.G.wipe T.Gb s3.G p A.ph a b := by
    rcases hev b hb with h | ⟨h, _⟩
    · exact h
    · simp [hi, ht] at h
  have hd : T.d.dt = s.dyn.dt := by rw [T.hd]; rfl
  have hax := hx a (List.mem_flatMap.2 ⟨A, hA, ha⟩)
  obtain ⟨a6, rfl, h6⟩ := evolved_displacement hP (Mpm.Geometry.wipe hG) hax hev
    (c := 0) (u := P.G.x_M - P.G.x_m) (fun _ => by rw [hd]; exact hr)
    (by rw [hd, ← e]; exact hv) (by have := hP.x; linarith)
  have h1 := (abs_le.1 h6).1
  have h2 := (abs_le.1 h6).2
  have := (wrapX_spec hP.x (x := a6.x 0) (by have := hax.1.1; linarith)
    (by have := hax.1.2; linarith)).1
  unfold wrapped
  rw [hc]
  simpa using this

/-! ## C25, C26 -/

/-- `outlet_bottom` succeeds, keeps exactly the points with `y >= y_m`, in order and unmodified,
and the counters are right afterwards. -/
theorem c25_outlet_bottom (P : GP K) {L : List (PhaseSt K ns)} (hL : Counted L) :
    ∃ L', outletBottom P L = .ok L' ∧ Counted L' ∧
      List.Forall₂ (fun A B => B.ph = { A.ph with n := B.pts.length } ∧
        B.pts = A.pts.filter fun mp => decide (P.y_m ≤ mp.x 1)) L L' := by
  obtain ⟨L', h⟩ := outlet_exists (test := fun mp : Particle K ns => decide (mp.x 1 < P.y_m)) hL
  have r := outlet_rel hL h
  refine ⟨L', h, ?_, r.imp ?_⟩
  · intro b hb
    obtain ⟨a, _, e⟩ := forall₂_right r hb
    exact congrArg (fun z : PhaseSt K ns => z.ph.n) e
  · intro A B e
    refine ⟨congrArg PhaseSt.ph e, (congrArg PhaseSt.pts e).trans ?_⟩
    refine List.filter_congr fun mp _ => ?_
    rw [← decide_not]
    exact decide_eq_decide.2 not_lt

/-- `outlet_left` likewise keeps exactly the points with `x >= x_m + dx`: the outlet lies one
(user supplied) cell width inside the domain. -/
theorem c26_outlet_left (P : GP K) {L : List (PhaseSt K ns)} (hL : Counted L) :
    ∃ L', outletLeft P L = .ok L' ∧ Counted L' ∧
      List.Forall₂ (fun A B => B.ph = { A.ph with n := B.pts.length } ∧
        B.pts = A.pts.filter fun mp => decide (P.x_m + P.dx ≤ mp.x 0)) L L' := by
  obtain ⟨L', h⟩ := outlet_exists
    (test := fun mp : Particle K ns => decide (mp.x 0 < P.x_m + P.dx)) hL
  have r := outlet_rel hL h
  refine ⟨L', h, ?_, r.imp ?_⟩
  · intro b hb
    obtain ⟨a, _, e⟩ := forall₂_right r hb
    exact congrArg (fun z : PhaseSt K ns => z.ph.n) e
  · intro A B e
    refine ⟨congrArg PhaseSt.ph e, (congrArg PhaseSt.pts e).trans ?_⟩
    refine List.filter_congr fun mp _ => ?_
    rw [← decide_not]
    exact decide_eq_decide.2 not_lt

/-! ## C27 -/

theorem mkPoints_length {P : Par K} {S0 : First K} {ph : Phase K ns} {g : K} {X Y : List K}
    {PHI : Option (List (Fin ns → K))} {n : ℕ} {l : List (Particle K ns)}
    (h : mkPoints P S0 ph g X Y PHI n = .ok l) : l.length = n := by
  induction n generalizing l with
  | zero => cases h; rfl
  | succ n ih =>
    unfold mkPoints at h
    obtain ⟨l1, h1, h⟩ := res_bind_ok.1 h
    have := ih h1
    split at h
    · split at h
      · obtain ⟨mp, _, h⟩ := res_bind_ok.1 h
        cases h; simp [this]
      · split at h
        · cases h
        · obtain ⟨mp, _, h⟩ := res_bind_ok.1 h
          cases h; simp [this]
    · cases h

theorem mapM_forall₂ {α β : Type} {f : α → Res β} {l : List α} {l' : List β}
    (h : l.mapM f = .ok l') : List.Forall₂ (fun a b => f a = .ok b) l l' := by
  induction l generalizing l' with
  | nil => cases h; exact .nil
  | cons a l ih =>
    rw [List.mapM_cons] at h
    obtain ⟨b, hb, h⟩ := res_bind_ok.1 h
    obtain ⟨t, ht, h⟩ := res_bind_ok.1 h
    cases h
    exact .cons hb (ih ht)

/-- The constructor makes as many points as each phase asks for. -/
theorem c27_constructed {P : Par K} {g : K} {S : List (Phase K ns × PhaseInit K ns)}
    {L : List (PhaseSt K ns)} (h : mkList P g S = .ok L) :
    Counted L ∧ L.map (·.ph) = S.map (·.1) := by
  have r := mapM_forall₂ h
  have r2 : List.Forall₂ (fun (a : Phase K ns × PhaseInit K ns) (b : PhaseSt K ns) =>
      b.ph = a.1 ∧ b.ph.n = b.pts.length) S L := by
    refine r.imp ?_
    intro a b h
    obtain ⟨l, h1, h⟩ := res_bind_ok.1 h
    cases h
    exact ⟨rfl, (mkPoints_length h1).symm⟩
  refine ⟨fun b hb => ?_, (forall₂_map_eq (fun a b h => h.1.symm) r2).symm⟩
  obtain ⟨a, _, h⟩ := forall₂_right r2 hb
  exact h.2

/-- From construction on, after any number of steps with any outlets and inlets, every phase's
counter is the number of its stored points. -/
theorem c27_counts {P : Par K} {interp : Interp K P.G.N} {g : K}
    {S : List (Phase K P.G.ns × PhaseInit K P.G.ns)} {s s' : St P} {n : ℕ}
    (h0 : mkList P g S = .ok s.L) (h : steps P interp n s = .ok s') : Counted s'.L :=
  steps_inv (fun s => Counted s.L) (fun _ s' hs h1 => (timeMarch_counted hs h1 : Counted s'.L)) h
    (c27_constructed h0).1

/-- Then a loop `for i in range(n)` visits every stored point exactly once, in order, and raises
nothing of its own. -/
theorem c27_loops {α σ : Type} (f : α → Res α) (g : α → σ → Res σ) (l : List α) (s : σ) :
    mapN f l.length l = l.mapM f ∧ foldN g l.length l s = l.foldlM (fun s a => g a s) s := by
  refine ⟨?_, foldN_eq_foldlM g l s⟩
  induction l with
  | nil => rfl
  | cons a l ih =>
    rw [List.length_cons, List.mapM_cons]
    unfold mapN
    rw [ih]

/-! ## C28 -/

/-- The time is at most (strictly less than) `dt` past a multiple of `rate`. -/
def Spec.onSchedule (t dt rate : K) : Prop := ∃ k : ℤ, k * rate ≤ t ∧ t < k * rate + dt

theorem inletDue_iff {d : Dyn K} {rate : K} (hr : 0 < rate) {b : Bool}
    (h : inletDue d rate = .ok b) : b = true ↔ d.t ≠ 0 ∧ onSchedule d.t d.dt rate := by
  unfold inletDue at h
  rw [if_neg hr.ne'] at h
  rw [← Except.ok.inj h]
  simp only [Bool.and_eq_true, decide_eq_true_eq]
  rw [and_comm]
  refine and_congr_right fun _ => ?_
  unfold pyMod onSchedule
  have hf : (⌊d.t / rate⌋ : K) * rate ≤ d.t := by
    have := Int.floor_le (d.t / rate)
    rwa [le_div_iff₀ hr] at this
  constructor
  · intro h
    exact ⟨⌊d.t / rate⌋, hf, by linarith⟩
  · rintro ⟨k, h1, h2⟩
    have : (k : K) ≤ (⌊d.t / rate⌋ : K) := by
      have : k ≤ ⌊d.t / rate⌋ := by
        rw [Int.le_floor, le_div_iff₀ hr]
        exact h1
      exact_mod_cast this
    have := mul_le_mul_of_nonneg_right this hr.le
    linarith

/-- What a fresh point looks like. -/
def Spec.NewPoint (P : Par K) (ph : Phase K ns) (g x y : K) (b : Particle K ns) : Prop :=
  b.x = ![x, y, 0] ∧ b.rho = ph.par.rho ∧ b.V = ph.A * P.G.thickness ∧ b.m = b.rho * b.V ∧
    b.b = ![g * P.sinθ, g * P.cosθ, 0] ∧ b.phi = ph.phi

theorem mkParticle_new {P : Par K} {S0 : First K} {ph : Phase K ns} {g x y : K} {b : Particle K ns}
    (h : mkParticle P S0 ph g x y none = .ok b) : NewPoint P ph g x y b := by
  unfold mkParticle at h
  obtain ⟨st, _, h⟩ := res_bind_ok.1 h
  obtain ⟨v, _, h⟩ := res_bind_ok.1 h
  cases h
  exact ⟨rfl, rfl, rfl, rfl, rfl, rfl⟩

theorem SamePhase.newPoint {P : Par K} {ph ph' : Phase K ns} (hs : SamePhase ph ph') {g x y : K}
    {b : Particle K ns} (h : NewPoint P ph' g x y b) : NewPoint P ph g x y b := by
  unfold SamePhase at hs
  rw [hs] at h
  exact h

/-- `inlet_right` appends one point per entry of `yp`, at `x_M - gap`, on schedule after t = 0,
and otherwise changes nothing. -/
theorem c28_right {P : Par K} {d : Dyn K} {L L' : List (PhaseSt K ns)}
    (hr : ∀ a ∈ L, 0 < a.ph.inlet_rate) (h : inletRight P d L = .ok L') :
    List.Forall₂ (fun A B =>
      (d.t ≠ 0 ∧ onSchedule d.t d.dt A.ph.inlet_rate → ∃ new : List (Particle K ns),
        B.pts = A.pts ++ new ∧ B.ph = { A.ph with n := A.ph.n + A.ph.yp.length } ∧
        List.Forall₂ (fun y b => NewPoint P A.ph d.g (P.G.x_M - A.ph.gap 0) y b) A.ph.yp new) ∧
      (¬ (d.t ≠ 0 ∧ onSchedule d.t d.dt A.ph.inlet_rate) → B = A)) L L' := by
  refine (forall₂_and_left (inletRight_rel h) hr).imp ?_
  rintro A B ⟨hr, due, h1, h⟩
  have hd := inletDue_iff hr h1
  rw [← hd]
  cases due
  · exact ⟨fun h => by simp at h, fun _ => by simpa using h⟩
  · rw [if_pos rfl] at h
    refine ⟨fun _ => ?_, fun h => absurd rfl h⟩
    obtain ⟨new, _, rfl, hn⟩ := h
    refine ⟨new, rfl, rfl, hn.imp ?_⟩
    rintro y b ⟨ph', hs, hb⟩
    exact hs.newPoint (mkParticle_new hb)

/-- `inlet_top` appends one point, at `y_M - gap` and `x = (x_M - x_m)/2`. -/
theorem c28_top {P : Par K} {d : Dyn K} {L L' : List (PhaseSt K ns)}
    (hr : ∀ a ∈ L, 0 < a.ph.inlet_rate) (h : inletTop P d L = .ok L') :
    List.Forall₂ (fun A B =>
      (d.t ≠ 0 ∧ onSchedule d.t d.dt A.ph.inlet_rate → ∃ b : Particle K ns,
        B.pts = A.pts ++ [b] ∧ B.ph = { A.ph with n := A.ph.n + 1 } ∧
        NewPoint P A.ph d.g ((P.G.x_M - P.G.x_m) / 2) (P.G.y_M - A.ph.gap 1) b) ∧
      (¬ (d.t ≠ 0 ∧ onSchedule d.t d.dt A.ph.inlet_rate) → B = A)) L L' := by
  refine (forall₂_and_left (inletTop_rel h) hr).imp ?_
  rintro A B ⟨hr, due, h1, h⟩
  have hd := inletDue_iff hr h1
  rw [← hd]
  cases due
  · exact ⟨fun h => by simp at h, fun _ => by simpa using h⟩
  · rw [if_pos rfl] at h
    refine ⟨fun _ => ?_, fun h => absurd rfl h⟩
    obtain ⟨b, hb, rfl⟩ := h
    exact ⟨b, rfl, rfl, mkParticle_new hb⟩

/-- That abscissa is the middle of the domain exactly when `x_m = 0`. -/
theorem c28_middle (P : GP K) : (P.x_M - P.x_m) / 2 = (P.x_m + P.x_M) / 2 ↔ P.x_m = 0 := by
  constructor
  · intro h
    have : P.x_M - P.x_m = P.x_m + P.x_M := by linarith
    linarith
  · intro h; rw [h]; simp

/-- A zero inlet rate raises ZeroDivisionError as soon as there is a phase. -/
theorem c28_zero_rate {P : Par K} {d : Dyn K} {A : PhaseSt K ns} {L : List (PhaseSt K ns)}
    (hA : A.ph.inlet_rate = 0) :
    inletRight P d (A :: L) = .error .zeroDiv ∧ inletTop P d (A :: L) = .error .zeroDiv := by
  unfold inletRight inletTop mapPhases
  have : inletDue d A.ph.inlet_rate = .error .zeroDiv := by unfold inletDue; rw [if_pos hA]
  simp only [this]
  exact ⟨rfl, rfl⟩

end

/-! ## The hypotheses can be met -/

/-- The example phase with a point left of the domain and one right of it. -/
def Ex.strayL : List (PhaseSt ℚ 2) :=
  [{ ph := Ex.ph, pts := [{ Ex.mp with x := ![-1/2, 1, 0] }, { Ex.mp with x := ![9/4, 1, 0] }] }]

example : Counted Ex.strayL ∧ Ex.gp.x_m < Ex.gp.x_M ∧
    ∃ L', cyclicLR Ex.gp Ex.strayL = .ok L' ∧
      (points L').map (fun mp => mp.x 0) = [3/2, 1/4] := by
  refine ⟨by intro a ha; rw [List.mem_singleton.1 ha]; rfl, by decide +kernel, ?_⟩
  cases h : cyclicLR Ex.gp Ex.strayL with
  | error e => cases h
  | ok L' =>
    refine ⟨L', rfl, ?_⟩
    cases h
    decide +kernel

/-- The domain with cyclic boundaries. -/
def Ex.cycPar : Par ℚ := { Ex.par with B := { Ex.bp with cyclic_lr := true } }

/-- All hypotheses of `c24_step` hold for a step with two moving points. -/
example : ∃ (s s' : St Ex.cycPar), Counted s.L ∧ Geometry Ex.cycPar.G s.G ∧
    (∀ mp ∈ points s.L, InDomain Ex.cycPar.G mp.x) ∧
    timeMarch Ex.cycPar (Ex.noInterp _) s = .ok s' ∧
    (∀ k, Ex.cycPar.M_tol < s'.G.m k → |s.dyn.dt * (s'.G.q k 0 / s'.G.m k)| ≤
      Ex.cycPar.G.x_M - Ex.cycPar.G.x_m) ∧
    |s.dyn.dt * Ex.cycPar.intruder_v 0| ≤ Ex.cycPar.G.x_M - Ex.cycPar.G.x_m := by
  obtain ⟨G, s', hG, hs, hc⟩ := Ex.run_one (P := Ex.cycPar) (d := Ex.dyn) (L := Ex.L)
    (check := fun s => decide (∀ k, Ex.cycPar.M_tol < s.G.m k →
      |Ex.dyn.dt * (s.G.q k 0 / s.G.m k)| ≤ Ex.cycPar.G.x_M - Ex.cycPar.G.x_m))
    (by decide +kernel)
  refine ⟨{ dyn := Ex.dyn, L := Ex.L, G := G }, s', Ex.countedL, mkGrid_geometry hG,
    Ex.inDomainL, hs, of_decide_eq_true hc, ?_⟩
  change |Ex.dyn.dt * Ex.cycPar.intruder_v 0| ≤ _
  decide +kernel

/-- One point above the bottom edge and one below, one right of the left outlet and one left. -/
def Ex.fallenL : List (PhaseSt ℚ 2) :=
  [{ ph := Ex.ph, pts := [{ Ex.mp with x := ![1/2, -1/4, 0] }, { Ex.mp with x := ![3/2, 1, 0] }] }]

example : Counted Ex.fallenL ∧
    (∃ L', outletBottom Ex.gp Ex.fallenL = .ok L' ∧ (points L').map (fun mp => mp.x 0) = [3/2]) ∧
    (∃ L', outletLeft Ex.gp Ex.fallenL = .ok L' ∧ (points L').map (fun mp => mp.x 0) = [3/2]) := by
  have hL : Counted Ex.fallenL := by intro a ha; rw [List.mem_singleton.1 ha]; rfl
  refine ⟨hL, ?_, ?_⟩
  · obtain ⟨L', h, -, hr⟩ := c25_outlet_bottom Ex.gp hL
    refine ⟨L', h, ?_⟩
    obtain ⟨B, t, ⟨-, e⟩, ht, rfl⟩ := List.forall₂_cons_left_iff.1 hr
    cases ht
    simp only [points, List.flatMap_cons, List.flatMap_nil, List.append_nil, e]
    decide +kernel
  · obtain ⟨L', h, -, hr⟩ := c26_outlet_left Ex.gp hL
    refine ⟨L', h, ?_⟩
    obtain ⟨B, t, ⟨-, e⟩, ht, rfl⟩ := List.forall₂_cons_left_iff.1 hr
    cases ht
    simp only [points, List.flatMap_cons, List.flatMap_nil, List.append_nil, e]
    decide +kernel

/-- A phase that is fed from the top and drained at the bottom. -/
def Ex.feedPar : Par ℚ :=
  { Ex.par with B := { Ex.bp with inlet_top := true, outlet_bottom := true } }

def Ex.feedPh : Phase ℚ 2 := { Ex.ph with n := 1, inlet_rate := 1/100, gap := ![1/4, 1/4] }

def Ex.feedInit : PhaseInit ℚ 2 := { X := [1/2], Y := [1], heterogeneous := false, PHI := [] }

/-- A constructed list, and three steps during which two points are added. -/
example : ∃ s s' : St Ex.feedPar, mkList Ex.feedPar (-10) [(Ex.feedPh, Ex.feedInit)] = .ok s.L ∧
    steps Ex.feedPar (Ex.noInterp _) 3 s = .ok s' ∧ (points s'.L).length = 3 := by
  obtain ⟨L, hL, hr⟩ := Ex.okAnd_ok (r := mkList Ex.feedPar (-10) [(Ex.feedPh, Ex.feedInit)])
    (check := fun L => Ex.run Ex.feedPar Ex.dyn L 3 (fun s => decide ((points s.L).length = 3)))
    (by decide +kernel)
  obtain ⟨G, s', -, hs, hc⟩ := Ex.run_ok hr
  exact ⟨_, s', hL, hs, of_decide_eq_true hc⟩

/-- On schedule at t = 1/100 with rate 1/100. -/
example : ∃ L', inletTop Ex.feedPar { Ex.dyn with t := 1/100 }
      [{ ph := Ex.feedPh, pts := [Ex.mp] }] = .ok L' ∧
    onSchedule (1/100 : ℚ) (1/100) Ex.feedPh.inlet_rate ∧ 0 < Ex.feedPh.inlet_rate ∧
    (points L').map (fun mp => (mp.x 0, mp.x 1)) = [(1/2, 5/4), (1, 7/4)] := by
  obtain ⟨L', h, hc⟩ := Ex.okAnd_ok (r := inletTop Ex.feedPar { Ex.dyn with t := 1/100 }
      [{ ph := Ex.feedPh, pts := [Ex.mp] }])
    (check := fun L => decide ((points L).map (fun mp => (mp.x 0, mp.x 1)) =
      [(1/2, 5/4), (1, 7/4)])) (by decide +kernel)
  refine ⟨L', h, ⟨1, ?_, ?_⟩, by decide +kernel, of_decide_eq_true hc⟩ <;> norm_num [Ex.feedPh]

example : ∃ L', inletRight Ex.feedPar { Ex.dyn with t := 1/100 }
      [{ ph := { Ex.feedPh with yp := [1, 3/2] }, pts := [Ex.mp] }] = .ok L' ∧
    (points L').map (fun mp => (mp.x 0, mp.x 1)) = [(1/2, 5/4), (7/4, 1), (7/4, 3/2)] := by
  obtain ⟨L', h, hc⟩ := Ex.okAnd_ok (r := inletRight Ex.feedPar { Ex.dyn with t := 1/100 }
      [{ ph := { Ex.feedPh with yp := [1, 3/2] }, pts := [Ex.mp] }])
    (check := fun L => decide ((points L).map (fun mp => (mp.x 0, mp.x 1)) =
      [(1/2, 5/4), (7/4, 1), (7/4, 3/2)])) (by decide +kernel)
  exact ⟨L', h, of_decide_eq_true hc⟩

end Mpm

import Verif.Lemmas.Frame
import Verif.Lemmas.Move
import Verif.Lemmas.Index

/-! Following the material points through a time step. -/

set_option linter.unusedSectionVars false

namespace Mpm
open Spec

/-- The deletion loop keeps exactly the entries that fail the test, in order. -/
theorem outletLoop_gen {α : Type} (test : α → Bool) (i : ℕ) (l : List α) (hi : i ≤ l.length) :
    outletLoop test i (l.length, l) =
      .ok (((l.take i).filter fun a => !test a).length + (l.length - i),
        ((l.take i).filter fun a => !test a) ++ l.drop i) := by
  induction i generalizing l with
  | zero => simp [outletLoop]
  | succ i ih =>
    have hlt : i < l.length := hi
    unfold outletLoop
    rw [List.getElem?_eq_getElem hlt]
    have ht : l.take (i + 1) = l.take i ++ [l[i]] := by simp
    have hd : l.drop i = l[i] :: l.drop (i + 1) := by simp
    dsimp only
    by_cases h : test l[i] = true
    · rw [if_pos h]
      have hlen : (l.eraseIdx i).length = l.length - 1 := by rw [List.length_eraseIdx_of_lt hlt]
      have e1 : (l.eraseIdx i).take i = l.take i := by
        rw [List.eraseIdx_eq_take_drop_succ, List.take_left' (by simp; omega)]
      have e2 : (l.eraseIdx i).drop i = l.drop (i + 1) := by
        rw [List.eraseIdx_eq_take_drop_succ, List.drop_left' (by simp; omega)]
      have := ih (l.eraseIdx i) (by omega)
      rw [hlen, e1, e2] at this
      rw [this, ht, List.filter_append]
      simp [h]
      omega
    · rw [if_neg h, ih l (by omega), ht, List.filter_append, hd]
      simp [h]
      omega

theorem outletLoop_eq {α : Type} (test : α → Bool) (l : List α) :
    outletLoop test l.length (l.length, l) =
      .ok ((l.filter fun a => !test a).length, l.filter fun a => !test a) := by
  rw [outletLoop_gen test l.length l le_rfl]
  simp

section
variable {K : Type} [Field K] [LinearOrder K] {ns N : ℕ}

/-- The phase record, up to its counter and the shared velocity array. -/
def SamePhase (a b : Phase K ns) : Prop := b = { a with n := b.n, iv := b.iv }

theorem SamePhase.refl (a : Phase K ns) : SamePhase a a := rfl

theorem SamePhase.trans {a b c : Phase K ns} (h : SamePhase a b) (h' : SamePhase b c) :
    SamePhase a c := by
  unfold SamePhase at *
  rw [h', h]

/-- map_phi_to_mp and the normalisation, or nothing. -/
def SegStep (P : Par K) (G : Grid K N ns) (a b : Particle K ns) : Prop :=
  (P.segregate_grid = false ∧ b = a) ∨
  (P.segregate_grid = true ∧ ∃ c, a.mapPhi P.G.nx P.M_tol G = .ok c ∧
    ((P.normalise_phi = false ∧ b = c) ∨
     (P.normalise_phi = true ∧ ∃ phi, normalisePhi c.phi = .ok phi ∧ b = { c with phi := phi })))

/-- The motion of one point. -/
def MoveStep (P : Par K) (dt : K) (G : Grid K N ns) (ph : Phase K ns) (a b : Particle K ns) : Prop :=
  (ph.law = .rigid ∧ b = a.moveRigid dt P.intruder_v) ∨
  (ph.law ≠ .rigid ∧ ∃ iv iv', a.move P.G.nx P.M_tol dt G iv = .ok (b, iv'))

/-- Change of a phase's shared velocity array, from its points after the motion. -/
def sharedChange (nx : ℕ) (M_tol dt : K) (G : Grid K N ns) (ph : Phase K ns)
    (l : List (Particle K ns)) : Vec K :=
  if ph.law = .rigid then 0 else ((l.filter (·.isShared)).map (dvel nx M_tol dt G)).sum

/-- The wrap-around, if any. -/
def wrapped (P : Par K) (a : Particle K ns) : Particle K ns :=
  if P.B.cyclic_lr then { a with x := Function.update a.x 0 (wrapX P.G (a.x 0)) } else a

end

section
variable {K : Type} [Field K] [LinearOrder K] [IsStrictOrderedRing K] [FloorRing K] {ns N : ℕ}

/-- What happens to one point in one time step, on the wiped grid `Gw`, the grid `Gb` after
mapping, and the grid `Gm` after the momentum update. -/
def Evolved (P : Par K) (d : Dyn K) (m0 : Option (Mat0 K)) (Gw Gb Gm : Grid K P.G.N P.G.ns)
    (p : ℕ) (ph : Phase K P.G.ns) (a b : Particle K P.G.ns) : Prop :=
  ∃ a2 a3 a4 a5 a6,
    (a.incrementGravity P d.g p).getReferenceNode P.G Gw.dx Gw.dy = .ok a2 ∧
    a2.getBasisFunctions Gw = .ok a3 ∧
    (∃ vis vis', a3.stressStrain P.G.nx P.M_tol Gb ph.law
      (lawCtx P d P.G.s (m0.getD ph.par) p ph) vis = .ok (a4, vis')) ∧
    SegStep P Gm a4 a5 ∧ MoveStep P d.dt Gm ph a5 a6 ∧ b = wrapped P a6

/-- A point made by an inlet in this step. -/
def Fresh (P : Par K) (d : Dyn K) (ph : Phase K P.G.ns) (b : Particle K P.G.ns) : Prop :=
  ∃ S0 ph' x y mp, SamePhase ph ph' ∧ mkParticle P S0 ph' d.g x y none = .ok mp ∧
    b = wrapped P mp

/-- What a step does to one phase: its points evolve one by one into `evo`, of which `kept`
remain (all of them without outlets), in order, followed by those made by inlets. -/
def PhaseStep (P : Par K) (d : Dyn K) (m0 : Option (Mat0 K)) (Gw Gb Gm : Grid K P.G.N P.G.ns)
    (p : ℕ) (A B : PhaseSt K P.G.ns) : Prop :=
  SamePhase A.ph B.ph ∧ B.ph.n = B.pts.length ∧
  ∃ evo kept new : List (Particle K P.G.ns),
    List.Forall₂ (Evolved P d m0 Gw Gb Gm p A.ph) A.pts evo ∧
    B.ph.iv = A.ph.iv + sharedChange P.G.nx P.M_tol d.dt Gm A.ph evo ∧
    kept.Sublist evo ∧ (P.B.outlet_left = false → P.B.outlet_bottom = false → kept = evo) ∧
    (P.B.inlet_right = false → P.B.inlet_top = false → new = []) ∧
    (∀ b ∈ new, Fresh P d A.ph b) ∧ B.pts = kept ++ new

theorem PtsRel.mat0 {R : Phase K ns → Particle K ns → Particle K ns → Prop}
    {L L' : List (PhaseSt K ns)} (h : PtsRel R L L') : Mpm.mat0 L' = Mpm.mat0 L := by
  cases h with
  | nil => rfl
  | cons h _ => simp [Mpm.mat0, h.1]

theorem mapPoints_raw {f : ℕ → Phase K ns → Particle K ns → Res (Particle K ns)}
    {L L' : List (PhaseSt K ns)} (hL : Counted L) (h : mapPoints f L = .ok L') :
    PtsRel (fun ph a b => ∃ p, f p ph a = .ok b) L L' :=
  mapPoints_rel (f := f) (fun p _ _ _ h => ⟨p, h⟩) hL h

/-- `move_grainsize_on_grid`, point by point. -/
theorem moveGrainsize_rel {P : Par K} (hseg : P.segregate_grid = true) {G : Grid K N ns}
    {L L' : List (PhaseSt K ns)} (hL : Counted L) (h : moveGrainsize P G L = .ok L') :
    PtsRel (fun _ => SegStep P G) L L' := by
  unfold moveGrainsize at h
  obtain ⟨L1, h1, h⟩ := res_bind_ok.1 h
  have r1 := mapPoints_raw hL h1
  split at h
  · rename_i hn
    have r2 := mapPoints_raw (r1.counted hL) h
    refine (r1.comp r2).mono ?_
    rintro ph a b ⟨c, ⟨_, hc⟩, ⟨_, hb⟩⟩
    obtain ⟨phi, h2, h3⟩ := res_bind_ok.1 hb
    cases h3
    exact Or.inr ⟨hseg, c, hc, Or.inr ⟨hn, phi, h2, rfl⟩⟩
  · rename_i hn
    cases h
    refine r1.mono ?_
    rintro ph a b ⟨_, hc⟩
    exact Or.inr ⟨hseg, b, hc, Or.inl ⟨by simpa using hn, rfl⟩⟩

/-- The segregation part of a step. -/
theorem segregationPhase_rel {P : Par K} {interp : Interp K P.G.N} {s s' : St P}
    (hL : Counted s.L) (h : segregationPhase P interp s = .ok s') :
    PtsRel (fun _ => SegStep P s'.G) s.L s'.L := by
  unfold segregationPhase at h
  split at h
  · rename_i hs
    dsimp only at h
    split at h
    · cases h
    · obtain ⟨L1, h1, h⟩ := res_bind_ok.1 h
      rw [← Except.ok.inj h]
      exact moveGrainsize_rel hs hL h1
  · rename_i hs
    cases h
    exact PtsRel.refl (fun _ _ => Or.inl ⟨by simpa using hs, rfl⟩) _

/-- `move_material_points`, point by point. -/
theorem movePoints_rel {P : Par K} {dt : K} {G : Grid K N ns} {L L' : List (PhaseSt K ns)}
    (hL : Counted L) (h : movePoints P.G.nx P.M_tol dt P.intruder_v G L = .ok L') :
    List.Forall₂ (fun A B => B.ph = { A.ph with iv := B.ph.iv } ∧
      List.Forall₂ (MoveStep P dt G A.ph) A.pts B.pts ∧
      B.ph.iv = A.ph.iv + sharedChange P.G.nx P.M_tol dt G A.ph B.pts) L L' := by
  refine (movePoints_phase hL h).imp ?_
  rintro A B (⟨hl, e⟩ | ⟨hl, e, h1⟩)
  · rw [e]
    refine ⟨rfl, ?_, by unfold sharedChange; rw [if_pos hl, add_zero]⟩
    rw [List.forall₂_map_right_iff]
    refine forall₂_refl ?_ A.pts
    intro a
    exact Or.inl ⟨hl, rfl⟩
  · refine ⟨e, forN_forall₂ (R := MoveStep P dt G A.ph) ?_ h1, ?_⟩
    · intro a iv b iv' h
      exact Or.inr ⟨hl, iv, iv', h⟩
    · unfold sharedChange; rw [if_neg hl]; exact forN_move_iv h1

theorem outlet_rel {test : Particle K ns → Bool} {L L' : List (PhaseSt K ns)} (hL : Counted L)
    (h : mapPhases (fun _ a => do
      let (n, l) ← outletLoop test a.ph.n (a.ph.n, a.pts)
      return { ph := { a.ph with n := n }, pts := l }) 0 L = .ok L') :
    List.Forall₂ (fun A B => B = { ph := { A.ph with n := B.pts.length }
                                   pts := A.pts.filter fun a => !test a }) L L' := by
  refine mapPhases_forall₂ ?_ h
  intro p a ha a' h
  rw [hL a ha, outletLoop_eq] at h
  cases h
  rfl

theorem inletDue_cases {d : Dyn K} {rate : K} {b : Bool} (h : inletDue d rate = .ok b) :
    rate ≠ 0 := by
  unfold inletDue at h
  split at h
  · cases h
  · assumption

theorem appendPoint_ok {P : Par K} {S0 : First K} {g x y : K} {a b : PhaseSt K ns}
    (h : appendPoint P S0 g x y a = .ok b) :
    ∃ mp, mkParticle P S0 a.ph g x y none = .ok mp ∧
      b = { ph := { a.ph with n := a.ph.n + 1 }, pts := a.pts ++ [mp] } := by
  unfold appendPoint at h
  obtain ⟨mp, h1, h2⟩ := res_bind_ok.1 h
  cases h2
  exact ⟨mp, h1, rfl⟩

/-- Appending several points. -/
theorem appendPoints_ok {P : Par K} {S0 : First K} {g : K} {ys : List K} {a b : PhaseSt K ns}
    (h : ys.foldlM (fun a y => appendPoint P S0 g (P.G.x_M - a.ph.gap 0) y a) a = .ok b) :
    ∃ new : List (Particle K ns), new.length = ys.length ∧
      b = { ph := { a.ph with n := a.ph.n + ys.length }, pts := a.pts ++ new } ∧
      List.Forall₂ (fun y mp => ∃ ph', SamePhase a.ph ph' ∧
        mkParticle P S0 ph' g (P.G.x_M - a.ph.gap 0) y none = .ok mp) ys new := by
  induction ys generalizing a with
  | nil =>
    cases h
    exact ⟨[], rfl, by simp, .nil⟩
  | cons y ys ih =>
    rw [List.foldlM_cons] at h
    obtain ⟨a1, h1, h⟩ := res_bind_ok.1 h
    obtain ⟨mp, h2, rfl⟩ := appendPoint_ok h1
    obtain ⟨new, hl, rfl, hn⟩ := ih h
    refine ⟨mp :: new, by simp [hl], ?_, .cons ⟨_, .refl _, h2⟩ (hn.imp ?_)⟩
    · simp only [List.length_cons, List.append_assoc, List.singleton_append]
      rw [Nat.add_assoc, Nat.add_comm 1]
    · rintro y mp' ⟨ph', h3, h4⟩
      exact ⟨ph', SamePhase.trans (b := { a.ph with n := a.ph.n + 1 }) rfl h3, h4⟩

theorem inletRight_rel {P : Par K} {d : Dyn K} {L L' : List (PhaseSt K ns)}
    (h : inletRight P d L = .ok L') :
    List.Forall₂ (fun A B => ∃ due, inletDue d A.ph.inlet_rate = .ok due ∧
      if due then ∃ new : List (Particle K ns), new.length = A.ph.yp.length ∧
        B = { ph := { A.ph with n := A.ph.n + A.ph.yp.length }, pts := A.pts ++ new } ∧
        List.Forall₂ (fun y mp => ∃ ph', SamePhase A.ph ph' ∧
          mkParticle P (first L) ph' d.g (P.G.x_M - A.ph.gap 0) y none = .ok mp) A.ph.yp new
      else B = A) L L' := by
  refine mapPhases_forall₂ ?_ h
  intro p a ha a' h
  obtain ⟨due, h1, h2⟩ := res_bind_ok.1 h
  refine ⟨due, h1, ?_⟩
  cases due
  · cases h2; simp
  · rw [if_pos rfl] at h2 ⊢
    exact appendPoints_ok h2

theorem inletTop_rel {P : Par K} {d : Dyn K} {L L' : List (PhaseSt K ns)}
    (h : inletTop P d L = .ok L') :
    List.Forall₂ (fun A B => ∃ due, inletDue d A.ph.inlet_rate = .ok due ∧
      if due then ∃ mp : Particle K ns,
        mkParticle P (first L) A.ph d.g ((P.G.x_M - P.G.x_m) / 2) (P.G.y_M - A.ph.gap 1) none =
          .ok mp ∧
        B = { ph := { A.ph with n := A.ph.n + 1 }, pts := A.pts ++ [mp] }
      else B = A) L L' := by
  refine mapPhases_forall₂ ?_ h
  intro p a ha a' h
  obtain ⟨due, h1, h2⟩ := res_bind_ok.1 h
  refine ⟨due, h1, ?_⟩
  cases due
  · cases h2; simp
  · rw [if_pos rfl] at h2 ⊢
    exact appendPoint_ok h2

theorem whenSet_ok {α : Type} {c : Bool} {f : α → Res α} {x y : α} (h : whenSet c f x = .ok y) :
    (c = true ∧ f x = .ok y) ∨ (c = false ∧ y = x) := by
  unfold whenSet at h
  cases c
  · cases h; exact Or.inr ⟨rfl, rfl⟩
  · exact Or.inl ⟨rfl, h⟩

/-- The old points that stay (all of them unless `out`), and the new ones (none unless `inn`),
phase by phase. -/
def Turnover (out inn : Prop) (q : Phase K ns → Particle K ns → Prop) (L L' : List (PhaseSt K ns)) :
    Prop :=
  List.Forall₂ (fun A B => B.ph = { A.ph with n := B.ph.n } ∧ B.ph.n = B.pts.length ∧
    ∃ kept new : List (Particle K ns), kept.Sublist A.pts ∧ (¬ out → kept = A.pts) ∧
      (¬ inn → new = []) ∧ (∀ b ∈ new, ∃ ph', SamePhase A.ph ph' ∧ q ph' b) ∧
      B.pts = kept ++ new) L L'

theorem forall₂_and_left {α β : Type} {R : α → β → Prop} {p : α → Prop} {l : List α} {l' : List β}
    (h : List.Forall₂ R l l') (hp : ∀ a ∈ l, p a) :
    List.Forall₂ (fun a b => p a ∧ R a b) l l' :=
  (forall₂_mem h).imp fun _ _ h => ⟨hp _ h.1, h.2.2⟩

theorem Turnover.refl {out inn : Prop} {q : Phase K ns → Particle K ns → Prop}
    {L : List (PhaseSt K ns)} (hL : Counted L) : Turnover out inn q L L := by
  have := forall₂_and_left (R := fun A B => A = B) (forall₂_refl (fun _ => rfl) L) hL
  refine this.imp ?_
  rintro A B ⟨h, rfl⟩
  exact ⟨rfl, h, A.pts, [], List.Sublist.refl _, fun _ => rfl, fun _ => rfl, by simp, by simp⟩

theorem Turnover.counted {out inn : Prop} {q : Phase K ns → Particle K ns → Prop}
    {L L' : List (PhaseSt K ns)} (h : Turnover out inn q L L') : Counted L' := by
  intro b hb
  obtain ⟨a, _, h⟩ := forall₂_right h hb
  exact h.2.1

theorem Turnover.trans {out inn : Prop} {q : Phase K ns → Particle K ns → Prop}
    {L L' L'' : List (PhaseSt K ns)}
    (h : Turnover out inn q L L') (h' : Turnover out inn q L' L'') : Turnover out inn q L L'' := by
  refine (forall₂_comp h h').imp ?_
  rintro A C ⟨B, ⟨s1, _, k1, n1, l1, o1, i1, q1, e1⟩, ⟨s2, c2, k2, n2, l2, o2, i2, q2, e2⟩⟩
  rw [e1] at l2
  obtain ⟨k, n, rfl, hk, hn⟩ := List.sublist_append_iff.1 l2
  refine ⟨by rw [s2, s1], c2, k, n ++ n2, hk.trans l1, ?_, ?_, ?_, by rw [e2, List.append_assoc]⟩
  · intro ho
    have e : k ++ n = k1 ++ n1 := by rw [o2 ho, e1]
    have hl := congrArg List.length e
    simp only [List.length_append] at hl
    have h1 := hk.length_le
    have h2 := hn.length_le
    rw [hk.eq_of_length (by omega)]
    exact o1 ho
  · intro hi
    rw [i2 hi, List.append_nil]
    have := i1 hi
    rw [this] at hn
    exact List.sublist_nil.1 hn
  · intro b hb
    rcases List.mem_append.1 hb with hb | hb
    · exact q1 b (hn.subset hb)
    · obtain ⟨ph', hs, hq⟩ := q2 b hb
      refine ⟨ph', SamePhase.trans (b := B.ph) ?_ hs, hq⟩
      unfold SamePhase; rw [s1]

theorem whenSet_turnover {out inn : Prop} {q : Phase K ns → Particle K ns → Prop} {c : Bool}
    {f : List (PhaseSt K ns) → Res (List (PhaseSt K ns))} {L L' : List (PhaseSt K ns)}
    (hL : Counted L) (hf : c = true → f L = .ok L' → Turnover out inn q L L')
    (h : whenSet c f L = .ok L') : Turnover out inn q L L' := by
  rcases whenSet_ok h with ⟨hc, h⟩ | ⟨_, rfl⟩
  · exact hf hc h
  · exact .refl hL

/-- A point made by an inlet. -/
def Made (P : Par K) (g : K) (ph : Phase K ns) (b : Particle K ns) : Prop :=
  ∃ S0 x y, mkParticle P S0 ph g x y none = .ok b

theorem outlet_turnover {out inn : Prop} (ho : out) {q : Phase K ns → Particle K ns → Prop}
    {test : Particle K ns → Bool} {L L' : List (PhaseSt K ns)}
    (h : List.Forall₂ (fun A B => B = { ph := { A.ph with n := B.pts.length }
                                        pts := A.pts.filter fun a => !test a }) L L') :
    Turnover out inn q L L' := by
  refine h.imp ?_
  intro A B e
  have e1 : B.pts = A.pts.filter fun a => !test a := congrArg PhaseSt.pts e
  have e2 : B.ph = { A.ph with n := B.pts.length } := congrArg PhaseSt.ph e
  refine ⟨?_, ?_, B.pts, [], ?_, fun h => absurd ho h, fun _ => rfl, by simp, by simp⟩
  · rw [e2]
  · rw [e2]
  · rw [e1]; exact List.filter_sublist

theorem inletRight_turnover {P : Par K} {d : Dyn K} {out inn : Prop} (hi : inn)
    {L L' : List (PhaseSt K ns)} (hL : Counted L)
    (h : inletRight P d L = .ok L') : Turnover out inn (Made P d.g) L L' := by
  refine (forall₂_and_left (inletRight_rel h) hL).imp ?_
  rintro A B ⟨hn, due, _, h⟩
  cases due
  · rw [if_neg (by simp)] at h
    rw [h]
    exact ⟨rfl, hn, A.pts, [], List.Sublist.refl _, fun _ => rfl, fun _ => rfl, by simp,
      by simp⟩
  · rw [if_pos rfl] at h
    obtain ⟨new, hl, rfl, hf⟩ := h
    refine ⟨rfl, by simp [hl, hn], A.pts, new, List.Sublist.refl _, fun _ => rfl,
      fun h => absurd hi h, fun b hb => ?_, rfl⟩
    obtain ⟨y, _, ph', hs, hm⟩ := forall₂_right hf hb
    exact ⟨ph', hs, _, _, _, hm⟩

theorem inletTop_turnover {P : Par K} {d : Dyn K} {out inn : Prop} (hi : inn)
    {L L' : List (PhaseSt K ns)} (hL : Counted L)
    (h : inletTop P d L = .ok L') : Turnover out inn (Made P d.g) L L' := by
  refine (forall₂_and_left (inletTop_rel h) hL).imp ?_
  rintro A B ⟨hn, due, _, h⟩
  cases due
  · rw [if_neg (by simp)] at h
    rw [h]
    exact ⟨rfl, hn, A.pts, [], List.Sublist.refl _, fun _ => rfl, fun _ => rfl, by simp,
      by simp⟩
  · rw [if_pos rfl] at h
    obtain ⟨mp, hm, rfl⟩ := h
    refine ⟨rfl, by simp [hn], A.pts, [mp], List.Sublist.refl _, fun _ => rfl,
      fun h => absurd hi h, fun b hb => ?_, rfl⟩
    rw [List.mem_singleton] at hb
    rw [hb]
    exact ⟨_, .refl _, _, _, _, hm⟩

theorem cyclicLR_rel {P : Par K} {L L' : List (PhaseSt K ns)} (hL : Counted L)
    (h : whenSet P.B.cyclic_lr (cyclicLR P.G) L = .ok L') :
    PtsRel (fun _ a b => b = wrapped P a) L L' := by
  unfold wrapped
  rcases whenSet_ok h with ⟨hc, h⟩ | ⟨hc, rfl⟩
  · refine (mapPoints_raw hL h).mono ?_
    rintro ph a b ⟨_, h⟩
    cases h
    rw [hc]; rfl
  · refine PtsRel.refl ?_ _
    intro _ a
    rw [hc]; rfl

/-- All points in one time step, phase by phase. -/
theorem timeMarch_idx {P : Par K} {interp : Interp K P.G.N} {s s' : St P} (hL : Counted s.L)
    (h : timeMarch P interp s = .ok s') :
    ∃ (T : GridPhase P s) (s1 s2 s3 : St P), gridPhase P s = .ok s1 ∧
      s1 = { dyn := T.d, L := T.Ld, G := T.Gd } ∧
      momentumPhase P interp s1 = .ok s2 ∧ segregationPhase P interp s2 = .ok s3 ∧
      pointsPhase P s3 = .ok s' ∧ s'.G = s3.G ∧
      IdxRel (PhaseStep P T.d (mat0 s.L) s.G.wipe T.Gb s3.G) s.L s'.L := by
  obtain ⟨s1, s2, s3, h1, h2, h3, h4⟩ := timeMarch_ok h
  obtain ⟨T, e1⟩ := gridPhase_ok h1
  refine ⟨T, s1, s2, s3, h1, e1, h2, h3, h4, (pointsPhase_frame h4).2, ?_⟩
  have ra := mapPoints_idx hL T.ha
  have ca := ra.counted hL
  have rb := mapPoints_idx ca T.hb
  have cb := rb.counted ca
  have rc := mapPoints_idx cb T.hc
  have cc := rc.counted cb
  have rd := updateStressStrain_idx cc T.hLd
  have cd := rd.counted cc
  have em : mat0 T.Lc = mat0 s.L := by rw [rc.rel.mat0, rb.rel.mat0, ra.rel.mat0]
  obtain ⟨d2, l2, -⟩ := momentumPhase_table h2
  have l2' : s2.L = T.Ld := by rw [l2, e1]
  have c2 : Counted s2.L := by rw [l2']; exact cd
  have re := (segregationPhase_rel c2 h3).idx
  have ce := re.counted c2
  rw [l2'] at re
  have R := (((ra.comp rb).comp rc).comp rd).comp re
  have d3 : s3.dyn = T.d := by rw [(segregationPhase_frame h3).1, d2, e1]
  unfold pointsPhase at h4
  obtain ⟨L1, k1, h4⟩ := res_bind_ok.1 h4
  obtain ⟨L2, k2, h4⟩ := res_bind_ok.1 h4
  obtain ⟨L3, k3, h4⟩ := res_bind_ok.1 h4
  obtain ⟨L4, k4, h4⟩ := res_bind_ok.1 h4
  obtain ⟨L5, k5, h4⟩ := res_bind_ok.1 h4
  obtain ⟨L6, k6, h4⟩ := res_bind_ok.1 h4
  have rm := movePoints_rel ce k1
  have c1 : Counted L1 := by
    intro B hB
    obtain ⟨A, hA, hr⟩ := forall₂_right rm hB
    rw [hr.1, ← hr.2.1.length_eq]
    exact ce A hA
  let out : Prop := P.B.outlet_left = true ∨ P.B.outlet_bottom = true
  let inn : Prop := P.B.inlet_right = true ∨ P.B.inlet_top = true
  have t2 : Turnover out inn (Made P s3.dyn.g) L1 L2 :=
    whenSet_turnover c1 (fun hc h => outlet_turnover (Or.inl hc) (outlet_rel c1 h)) k2
  have t3 : Turnover out inn (Made P s3.dyn.g) L2 L3 :=
    whenSet_turnover t2.counted
      (fun hc h => outlet_turnover (Or.inr hc) (outlet_rel t2.counted h)) k3
  have t4 : Turnover out inn (Made P s3.dyn.g) L3 L4 :=
    whenSet_turnover t3.counted
      (fun hc h => inletRight_turnover (Or.inl hc) t3.counted h) k4
  have t5 : Turnover out inn (Made P s3.dyn.g) L4 L5 :=
    whenSet_turnover t4.counted (fun hc h => inletTop_turnover (Or.inr hc) t4.counted h) k5
  have tt := ((t2.trans t3).trans t4).trans t5
  have r6 := cyclicLR_rel tt.counted k6
  have c6 := r6.counted tt.counted
  have es : s'.L = L6 := by rw [← Except.ok.inj h4]
  rw [es]
  have RR := (((IdxRel.comp R (.of_forall₂ rm)).comp (.of_forall₂ tt)).comp
    (.of_forall₂ r6)).and_right c6
  refine RR.imp ?_
  rintro p A F ⟨hF, E, ⟨D, ⟨C, ⟨eC, rC⟩, ⟨eD, rD, ivD⟩⟩, ⟨eE, _, kept, new, hk, ho, hi, hq, hE⟩⟩,
    ⟨eF, rF⟩⟩
  have sD : SamePhase A.ph D.ph := by unfold SamePhase; rw [eD, eC]
  have eFp : F.pts = E.pts.map (wrapped P) := by
    have := forall₂_map_eq (f := wrapped P) (g := fun b => b)
      (fun a b (h : b = wrapped P a) => h.symm) rF
    rw [this]; simp
  have sE : SamePhase D.ph E.ph := by unfold SamePhase; rw [eE]
  refine ⟨by rw [eF]; exact sD.trans sE, hF, D.pts.map (wrapped P), kept.map (wrapped P),
    new.map (wrapped P), ?_, ?_, hk.map _, ?_, ?_, ?_, by rw [eFp, hE, List.map_append]⟩
  · rw [List.forall₂_map_right_iff]
    refine (forall₂_comp rC rD).imp ?_
    rintro a e ⟨c, ⟨a4, ⟨a3, ⟨a2, ⟨a1, g1, g2⟩, g3⟩, g4⟩, g5⟩, mv⟩
    refine ⟨a2, a3, a4, c, e, ?_, g3, ?_, g5, ?_, rfl⟩
    · rw [Except.ok.inj g1]; exact g2
    · rw [em] at g4; exact g4
    · rw [eC, d3] at mv; exact mv
  · have w1 : ∀ a : Particle K P.G.ns, (wrapped P a).isShared = a.isShared := by
      intro a; unfold wrapped; split <;> rfl
    have w2 : ∀ a : Particle K P.G.ns, dvel P.G.nx P.M_tol T.d.dt s3.G (wrapped P a) =
        dvel P.G.nx P.M_tol T.d.dt s3.G a := by
      intro a; unfold wrapped; split <;> rfl
    rw [eF, eE]
    change D.ph.iv = _
    rw [ivD, eC, d3]
    congr 1
    unfold sharedChange
    split
    · rfl
    · rw [List.filter_map, List.map_map]
      congr 1
      have w3 : ((fun x : Particle K P.G.ns => x.isShared) ∘ wrapped P) = fun a => a.isShared :=
        funext w1
      rw [w3]
      exact List.map_congr_left fun a _ => (w2 a).symm
  · intro h1 h2
    rw [ho (by rintro (h | h); exacts [by simp [h1] at h, by simp [h2] at h])]
  · intro h1 h2
    rw [hi (by rintro (h | h); exacts [by simp [h1] at h, by simp [h2] at h])]
    rfl
  · intro b hb
    obtain ⟨e, he, rfl⟩ := List.mem_map.1 hb
    obtain ⟨ph', hs, S0, x, y, hm⟩ := hq e he
    rw [d3] at hm
    exact ⟨S0, ph', x, y, e, sD.trans hs, hm, rfl⟩

/-- Every stored point is either the evolution of an earlier one or has been made by an inlet. -/
theorem timeMarch_points {P : Par K} {interp : Interp K P.G.N} {s s' : St P} (hL : Counted s.L)
    (h : timeMarch P interp s = .ok s') :
    ∃ (T : GridPhase P s) (s1 s2 s3 : St P), gridPhase P s = .ok s1 ∧
      s1 = { dyn := T.d, L := T.Ld, G := T.Gd } ∧
      momentumPhase P interp s1 = .ok s2 ∧ segregationPhase P interp s2 = .ok s3 ∧
      pointsPhase P s3 = .ok s' ∧ s'.G = s3.G ∧
      IdxRel (fun p A B => SamePhase A.ph B.ph ∧ B.ph.n = B.pts.length ∧
        ∀ b ∈ B.pts, (∃ a ∈ A.pts, Evolved P T.d (mat0 s.L) s.G.wipe T.Gb s3.G p A.ph a b) ∨
          ((P.B.inlet_right = true ∨ P.B.inlet_top = true) ∧ Fresh P T.d A.ph b)) s.L s'.L := by
  obtain ⟨T, s1, s2, s3, h1, e1, h2, h3, h4, h5, hR⟩ := timeMarch_idx hL h
  refine ⟨T, s1, s2, s3, h1, e1, h2, h3, h4, h5, hR.imp ?_⟩
  rintro p A B ⟨e, n, evo, kept, new, hev, -, hk, -, hi, hn, hB⟩
  refine ⟨e, n, fun b hb => ?_⟩
  rw [hB] at hb
  rcases List.mem_append.1 hb with hb | hb
  · exact Or.inl (forall₂_right hev (hk.subset hb))
  · refine Or.inr ⟨?_, hn b hb⟩
    by_contra hc
    push Not at hc
    rw [hi (by simpa using hc.1) (by simpa using hc.2)] at hb
    exact absurd hb (by simp)

theorem timeMarch_counted {P : Par K} {interp : Interp K P.G.N} {s s' : St P} (hL : Counted s.L)
    (h : timeMarch P interp s = .ok s') : Counted s'.L := by
  obtain ⟨_, _, _, _, _, _, _, _, _, _, h⟩ := timeMarch_points hL h
  intro B hB
  obtain ⟨i, hi⟩ := List.getElem?_of_mem hB
  obtain ⟨A, _, hr⟩ := h.left hi
  exact hr.2.1

theorem mapPhi_frame {nx : ℕ} {M_tol : K} {G : Grid K N ns} {a b : Particle K ns}
    (h : a.mapPhi nx M_tol G = .ok b) : b = { a with phi := b.phi, pk := b.pk } := by
  unfold Particle.mapPhi at h
  refine for4_inv (fun b : Particle K ns => b = { a with phi := b.phi, pk := b.pk }) ?_ rfl h
  intro r c d hc h
  obtain ⟨n, _, h⟩ := res_bind_ok.1 h
  split at h
  · cases h; rw [hc]
  · cases h; exact hc

theorem SegStep.frame {P : Par K} {G : Grid K N ns} {a b : Particle K ns}
    (h : SegStep P G a b) : b = { a with phi := b.phi, pk := b.pk } := by
  rcases h with ⟨_, rfl⟩ | ⟨_, c, hc, ⟨_, rfl⟩ | ⟨_, phi, _, rfl⟩⟩
  · rfl
  · exact mapPhi_frame hc
  · have := mapPhi_frame hc
    rw [this]

/-- A point just before it is moved. -/
theorem Evolved.parts {P : Par K} {d : Dyn K} {m0 : Option (Mat0 K)}
    {Gw Gb Gm : Grid K P.G.N P.G.ns} {p : ℕ} {ph : Phase K P.G.ns} {a b : Particle K P.G.ns}
    (h : Evolved P d m0 Gw Gb Gm p ph a b) :
    ∃ a5 a6, MoveStep P d.dt Gm ph a5 a6 ∧ b = wrapped P a6 ∧ a5.x = a.x ∧ a5.v = a.v ∧
      a5.V = a.V ∧ a5.rho = a.rho ∧ (ph.law ≠ .elastic_time → a5.m = a.m) ∧ ∑ r, a5.N r = 1 ∧
      (GoodGrid P.G → Geometry P.G Gw → InDomain P.G a.x → ∃ i j, InCell P.G a.x i j ∧
        a5.n_star = (i : ℤ) + (j : ℤ) * P.G.nx ∧ a5.N = (atCell P.G a i j).N) := by
  obtain ⟨a2, a3, a4, a5, a6, h2, h3, ⟨_, _, h4⟩, h5, h6, h7⟩ := h
  have e1 : a.incrementGravity P d.g p = { a with b := (a.incrementGravity P d.g p).b } := by
    unfold Particle.incrementGravity; split <;> rfl
  generalize a.incrementGravity P d.g p = a1 at *
  have l3 := locate_one h2 h3
  have e3 := l3.eq
  obtain ⟨k4, m4⟩ := stressStrain_frame h4
  have e5 := h5.frame
  have x3 : a3.x = a.x := by rw [e3, e1]
  have v3 : a3.v = a.v := by rw [e3, e1]
  have V3 : a3.V = a.V := by rw [e3, e1]
  have r3 : a3.rho = a.rho := by rw [e3, e1]
  have m3 : a3.m = a.m := by rw [e3, e1]
  have N5 : a5.N = a3.N := by rw [e5]; exact k4.N
  have n5 : a5.n_star = a3.n_star := by rw [e5]; exact k4.n_star
  refine ⟨a5, a6, h6, h7, ?_, ?_, ?_, ?_, ?_, ?_, ?_⟩
  · rw [e5]; exact k4.x.trans x3
  · rw [e5]; exact k4.v.trans v3
  · rw [e5]; exact k4.V.trans V3
  · rw [e5]; exact k4.rho.trans r3
  · intro hl; rw [e5]; exact (m4 hl).trans m3
  · rw [N5]; exact l3.sumN
  · intro hP hG hx
    have x1 : a1.x = a.x := by rw [e1]
    obtain ⟨i, j, nd, hc, e1', e2', -⟩ := located_basis hP hG (mp := a1) (by rw [x1]; exact hx)
    rw [e1', Except.ok.injEq] at h2
    rw [← h2, e2', Except.ok.injEq] at h3
    refine ⟨i, j, by rw [← x1]; exact hc, ?_, ?_⟩
    · rw [n5, ← h3]; rfl
    · rw [N5, ← h3]; unfold atCell; rw [x1]

end
end Mpm

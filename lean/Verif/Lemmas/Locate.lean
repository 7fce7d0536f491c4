import Verif.Lemmas.Grid

/-! What locating all points on the grid does to them. -/

set_option linter.unusedSectionVars false

namespace Mpm
open Spec

section
variable {K : Type} [Field K] [LinearOrder K] [IsStrictOrderedRing K] [FloorRing K] {ns N : ℕ}

/-- Only the reference node and the shape functions have changed, and the shape functions form a
partition of unity. -/
structure Located (mp mp' : Particle K ns) : Prop where
  eq : mp' = { mp with n_star := mp'.n_star, N := mp'.N, Gs := mp'.Gs }
  sumN : ∑ r, mp'.N r = 1
  sumG : ∑ r, mp'.Gs r = 0

theorem locate_one {P : GP K} {G : Grid K N ns} {mp a b : Particle K ns}
    (h1 : mp.getReferenceNode P G.dx G.dy = .ok a) (h2 : a.getBasisFunctions G = .ok b) :
    Located mp b := by
  unfold Particle.getReferenceNode at h1
  split at h1
  · cases h1
  · cases h1
    obtain ⟨k, hk, hd, rfl⟩ := getBasis_ok h2
    exact ⟨rfl, shapeN_sum hd _, shapeG_sum _ _ _⟩

theorem locate_all {P : GP K} {G : Grid K N ns} {L L1 L2 : List (PhaseSt K ns)} (hL : Counted L)
    (h1 : getReferenceNodes P G L = .ok L1) (h2 : getBasisFunctions G L1 = .ok L2) :
    PtsRel (fun _ => Located) L L2 ∧ Counted L1 ∧ Counted L2 := by
  have r1 : PtsRel (fun _ a b => a.getReferenceNode P G.dx G.dy = .ok b) L L1 :=
    mapPoints_rel (f := fun _ _ mp => mp.getReferenceNode P G.dx G.dy) (fun _ _ _ _ h => h) hL h1
  have c1 := r1.counted hL
  have r2 : PtsRel (fun _ a b => a.getBasisFunctions G = .ok b) L1 L2 :=
    mapPoints_rel (f := fun _ _ mp => mp.getBasisFunctions G) (fun _ _ _ _ h => h) c1 h2
  refine ⟨(r1.comp r2).mono ?_, c1, r2.counted c1⟩
  rintro _ a c ⟨b, hb, hc⟩
  exact locate_one hb hc

theorem Located.mass {mp mp' : Particle K ns} (h : Located mp mp') : mp'.m = mp.m := by
  rw [h.eq]

theorem PtsRel.totalMass {R : Phase K ns → Particle K ns → Particle K ns → Prop}
    (hR : ∀ ph a b, R ph a b → b.m = a.m) {L L' : List (PhaseSt K ns)} (h : PtsRel R L L') :
    totalMass L' = totalMass L := by
  unfold Spec.totalMass
  rw [forall₂_map_eq (f := fun mp : Particle K ns => mp.m) (g := fun mp => mp.m) ?_ h.points]
  rintro a b ⟨ph, r⟩
  exact (hR _ _ _ r).symm

theorem PtsRel.totalWeight {R : Phase K ns → Particle K ns → Particle K ns → Prop}
    (hR : ∀ ph a b, R ph a b → b.m = a.m ∧ b.b = a.b) {L L' : List (PhaseSt K ns)}
    (h : PtsRel R L L') : totalWeight L' = totalWeight L := by
  unfold Spec.totalWeight
  rw [forall₂_map_eq (f := fun mp : Particle K ns => mp.m • mp.b) (g := fun mp => mp.m • mp.b) ?_
    h.points]
  rintro a b ⟨ph, r⟩
  rw [(hR _ _ _ r).1, (hR _ _ _ r).2]

theorem PtsRel.totalMomentum {R : Phase K ns → Particle K ns → Particle K ns → Prop}
    (hR : ∀ ph a b, R ph a b → b.m = a.m ∧ b.v = a.v) {L L' : List (PhaseSt K ns)}
    (h : PtsRel R L L') : totalMomentum L' = totalMomentum L := by
  rw [← items_momentum, ← items_momentum]
  rw [forall₂_map_eq (f := fun x : Phase K ns × Particle K ns => x.2.m • x.2.v.get x.1.iv)
    (g := fun x => x.2.m • x.2.v.get x.1.iv) ?_ h.items]
  rintro a b ⟨e, r⟩
  rw [(hR _ _ _ r).1, (hR _ _ _ r).2, e]

theorem mapPoints_exists {f : ℕ → Phase K ns → Particle K ns → Res (Particle K ns)}
    {L : List (PhaseSt K ns)} (hL : Counted L)
    (hf : ∀ p, ∀ x ∈ items L, ∃ b, f p x.1 x.2 = .ok b) : ∃ L', mapPoints f L = .ok L' := by
  have key : ∀ (p0 : ℕ) (L : List (PhaseSt K ns)), Counted L →
      (∀ p, ∀ x ∈ items L, ∃ b, f p x.1 x.2 = .ok b) →
      ∃ L', mapPhases (fun p a => do
        let pts ← mapN (f p a.ph) a.ph.n a.pts
        return { a with pts := pts }) p0 L = .ok L' := by
    intro p0 L hL hf
    induction L generalizing p0 with
    | nil => exact ⟨[], rfl⟩
    | cons a L ih =>
      obtain ⟨T, hT⟩ := ih (p0 + 1) (fun b hb => hL b (List.mem_cons_of_mem _ hb)) fun p x hx =>
        hf p x (by rw [items_cons]; exact List.mem_append_right _ hx)
      have hx : ∀ mp ∈ a.pts, ∃ b, f p0 a.ph mp = .ok b := fun mp hmp =>
        hf p0 (a.ph, mp) (by
          rw [items_cons]
          exact List.mem_append_left _ (List.mem_map.2 ⟨mp, hmp, rfl⟩))
      have h1 : ∃ l', mapN (f p0 a.ph) a.ph.n a.pts = .ok l' := by
        rw [hL a List.mem_cons_self]
        clear ih hT
        generalize a.pts = l at hx
        induction l with
        | nil => exact ⟨[], rfl⟩
        | cons b l ihl =>
          obtain ⟨b', hb'⟩ := hx b List.mem_cons_self
          obtain ⟨l', hl'⟩ := ihl fun c hc => hx c (List.mem_cons_of_mem _ hc)
          exact ⟨b' :: l', by simp [mapN, hb', hl']⟩
      obtain ⟨l', hl'⟩ := h1
      exact ⟨_, mapPhases_cons_ok.2 ⟨{ a with pts := l' }, T, by simp [hl'], hT, rfl⟩⟩
  exact key 0 L hL hf

/-- Points in the domain are located and mapped without exceptions. -/
theorem locate_exists {P : GP K} (hP : GoodGrid P) {G : Grid K P.N ns} (hG : Geometry P G)
    {L : List (PhaseSt K ns)} (hL : Counted L) (hx : ∀ mp ∈ points L, InDomain P mp.x) :
    ∃ L1 L2, getReferenceNodes P G L = .ok L1 ∧ getBasisFunctions G L1 = .ok L2 ∧
      (∀ x ∈ items L2, NodesOk P.nx P.N x.2) ∧ Counted L2 ∧ (∀ x ∈ items L2, ∃ mp i j,
        InDomain P mp.x ∧ InCell P mp.x i j ∧ x.2 = atCell P mp i j) := by
  have hx' : ∀ x ∈ items L, InDomain P x.2.x := fun x hxi => hx _ (by
    rw [← items_map_snd]; exact List.mem_map.2 ⟨x, hxi, rfl⟩)
  obtain ⟨L1, h1⟩ := mapPoints_exists (f := fun _ _ mp => mp.getReferenceNode P G.dx G.dy) hL
    (fun p x hxi => by
      obtain ⟨i, j, nd, _, h, _⟩ := located_basis hP hG (hx' x hxi)
      exact ⟨_, h⟩)
  have r1 : PtsRel (fun _ a b => InDomain P a.x ∧ a.getReferenceNode P G.dx G.dy = .ok b) L L1 := by
    have r0 : PtsRel (fun _ a b => a.getReferenceNode P G.dx G.dy = .ok b) L L1 :=
      mapPoints_rel (f := fun _ _ mp => mp.getReferenceNode P G.dx G.dy) (fun _ _ _ _ h => h) hL h1
    exact r0.mem.mono fun _ _ _ h => ⟨hx' _ h.1, h.2.2⟩
  have c1 := r1.counted hL
  have hb : ∀ x ∈ items L1, ∃ mp i j, InDomain P mp.x ∧ InCell P mp.x i j ∧
      x.2.getBasisFunctions G = .ok (atCell P mp i j) ∧
      ∃ nd : Fin 4 → Fin P.N, ∀ r, (atCell P mp i j).node P.nx P.N r = .ok (nd r) := by
    intro x hxi
    obtain ⟨a, _, _, ha, hr⟩ := forall₂_right r1.items hxi
    obtain ⟨i, j, nd, hc, h, h', h'', _⟩ := located_basis hP hG ha
    rw [h, Except.ok.injEq] at hr
    exact ⟨a.2, i, j, ha, hc, hr ▸ h', nd, h''⟩
  obtain ⟨L2, h2⟩ := mapPoints_exists (f := fun _ _ mp => mp.getBasisFunctions G) c1
    (fun p x hxi => by
      obtain ⟨mp, i, j, _, _, h, _⟩ := hb x hxi
      exact ⟨_, h⟩)
  have r2 : PtsRel (fun _ a b => a.getBasisFunctions G = .ok b) L1 L2 :=
    mapPoints_rel (f := fun _ _ mp => mp.getBasisFunctions G) (fun _ _ _ _ h => h) c1 h2
  refine ⟨L1, L2, h1, h2, ?_, r2.counted c1, ?_⟩
  · intro x hxi
    obtain ⟨a, ha, _, hr⟩ := forall₂_right r2.items hxi
    obtain ⟨mp, i, j, _, _, h, nd, hnd⟩ := hb a ha
    rw [h, Except.ok.injEq] at hr
    rw [← hr]
    exact nodesOk_iff.2 ⟨nd, hnd⟩
  · intro x hxi
    obtain ⟨a, ha, _, hr⟩ := forall₂_right r2.items hxi
    obtain ⟨mp, i, j, hd, hc, h, nd, hnd⟩ := hb a ha
    rw [h, Except.ok.injEq] at hr
    exact ⟨mp, i, j, hd, hc, hr.symm⟩

theorem p2gAll_exists {N nx : ℕ} {seg : Bool} {L : List (PhaseSt K ns)} (hL : Counted L)
    (h : ∀ x ∈ items L, NodesOk nx N x.2) (G : Grid K N ns) : ∃ G', p2gAll nx seg L G = .ok G' :=
  ⟨_, (p2gAll_ok hL).2 ⟨h, rfl⟩⟩

theorem nodalForcesAll_exists {N nx : ℕ} {L : List (PhaseSt K ns)} (hL : Counted L)
    (h : ∀ x ∈ items L, NodesOk nx N x.2) (G : Grid K N ns) :
    ∃ G', nodalForcesAll nx L G = .ok G' :=
  ⟨_, (nodalForcesAll_ok hL).2 ⟨h, rfl⟩⟩

end
end Mpm

import Verif.Props.Transfer
import Verif.Lemmas.Law
import Mathlib.Data.Nat.Count

/-! What a point and a node of the grid depend on in a time step. -/

set_option linter.unusedSectionVars false

namespace Mpm.Spec

/-- The entries of a list whose numbers are chosen by `f`, in order. -/
def pick {α : Type} : (ℕ → Bool) → List α → List α
  | _, [] => []
  | f, a :: l => if f 0 then a :: pick (fun i => f (i + 1)) l else pick (fun i => f (i + 1)) l

section
variable {K : Type} [Field K] [LinearOrder K] {ns : ℕ}

/-- The node `k` is one of the four corners of the cell in which `x` lies. -/
def Corner (P : GP K) (x : Vec K) (k : Fin P.N) : Prop :=
  ∃ i j, InCell P x i j ∧ ((k : ℕ) % P.nx = i ∨ (k : ℕ) % P.nx = i + 1) ∧
    ((k : ℕ) / P.nx = j ∨ (k : ℕ) / P.nx = j + 1)

/-- The second list of phases holds exactly the points of the first that `sel` chooses (phase
number, number in the phase); the phases are the same but for their counters, and but for the
shared velocity of those of which no point is left. -/
def Chosen (sel : ℕ → ℕ → Bool) (L L' : List (PhaseSt K ns)) : Prop :=
  L.length = L'.length ∧ ∀ (p : ℕ) (A B : PhaseSt K ns), L[p]? = some A → L'[p]? = some B →
    B.pts = pick (sel p) A.pts ∧ B.ph = { A.ph with n := B.pts.length, iv := B.ph.iv } ∧
    (B.pts ≠ [] → B.ph.iv = A.ph.iv)

end
end Mpm.Spec

namespace Mpm
open Spec

section
variable {α β γ : Type}

theorem pick_mem {f : ℕ → Bool} {l : List α} {a : α} (h : a ∈ pick f l) :
    ∃ i, l[i]? = some a ∧ f i = true := by
  induction l generalizing f with
  | nil => cases h
  | cons b l ih =>
    unfold pick at h
    split at h
    · rename_i hf
      rcases List.mem_cons.1 h with rfl | h
      · exact ⟨0, rfl, hf⟩
      · obtain ⟨i, h1, h2⟩ := ih h
        exact ⟨i + 1, h1, h2⟩
    · obtain ⟨i, h1, h2⟩ := ih h
      exact ⟨i + 1, h1, h2⟩

theorem mem_pick {f : ℕ → Bool} {l : List α} {i : ℕ} {a : α} (h : l[i]? = some a)
    (hf : f i = true) : a ∈ pick f l := by
  induction l generalizing f i with
  | nil => simp at h
  | cons b l ih =>
    unfold pick
    cases i with
    | zero =>
      simp only [List.getElem?_cons_zero, Option.some.injEq] at h
      rw [if_pos hf, h]
      exact List.mem_cons_self
    | succ i =>
      have := ih (f := fun i => f (i + 1)) (i := i) (by simpa using h) hf
      split
      · exact List.mem_cons_of_mem _ this
      · exact this

/-- Two developments, of all entries and of the chosen ones. -/
theorem pick_pair {R : α → β → Prop} {R' : α → γ → Prop} {f : ℕ → Bool} {l : List α} {l' : List β}
    {l'' : List γ} (h : List.Forall₂ R l l') (h' : List.Forall₂ R' (pick f l) l'') :
    List.Forall₂ (fun c b => ∃ i a, l[i]? = some a ∧ f i = true ∧ R a b ∧ R' a c) l'' (pick f l') := by
  induction h generalizing f l'' with
  | nil => cases h'; exact .nil
  | @cons a b l l' hab _ ih =>
    unfold pick at h' ⊢
    cases hf : f 0 with
    | true =>
      rw [hf] at h'
      cases h' with
      | cons hac h' =>
        refine .cons ⟨0, a, rfl, hf, hab, hac⟩ ((ih h').imp ?_)
        rintro c b ⟨i, a, h1, h2, h3⟩
        exact ⟨i + 1, a, h1, h2, h3⟩
    | false =>
      rw [hf] at h'
      refine (ih h').imp ?_
      rintro c b ⟨i, a, h1, h2, h3⟩
      exact ⟨i + 1, a, h1, h2, h3⟩

theorem pick_get {f : ℕ → Bool} {l : List α} {i : ℕ} (hf : f i = true) :
    (pick f l)[Nat.count (fun k => f k = true) i]? = l[i]? := by
  induction l generalizing f i with
  | nil => rfl
  | cons b l ih =>
    unfold pick
    cases i with
    | zero => rw [if_pos hf]; rfl
    | succ i =>
      have := ih (f := fun k => f (k + 1)) (i := i) hf
      rw [Nat.count_succ']
      cases h0 : f 0 with
      | true => simpa using this
      | false => simpa using this

theorem pick_length {f : ℕ → Bool} {l : List α} {l' : List β} (h : l.length = l'.length) :
    (pick f l).length = (pick f l').length := by
  induction l generalizing f l' with
  | nil => cases l' with
    | nil => rfl
    | cons _ _ => simp at h
  | cons a l ih => cases l' with
    | nil => simp at h
    | cons b l' =>
      have := ih (f := fun i => f (i + 1)) (l' := l') (by simpa using h)
      unfold pick
      split <;> simp [this]

theorem pick_all {f : ℕ → Bool} {l : List α} (h : ∀ i < l.length, f i = true) : pick f l = l := by
  induction l generalizing f with
  | nil => rfl
  | cons a l ih =>
    unfold pick
    rw [if_pos (h 0 (by simp)), ih fun i hi => h (i + 1) (by simpa using hi)]

theorem pick_none {f : ℕ → Bool} {l : List α} (h : ∀ i < l.length, f i = false) : pick f l = [] := by
  induction l generalizing f with
  | nil => rfl
  | cons a l ih =>
    unfold pick
    rw [if_neg (by simp [h 0 (by simp)]), ih fun i hi => h (i + 1) (by simpa using hi)]

theorem pick_sum {M : Type} [AddCommMonoid M] {f : ℕ → Bool} {l : List α} {g : α → M}
    (h : ∀ i a, l[i]? = some a → f i = false → g a = 0) :
    ((pick f l).map g).sum = (l.map g).sum := by
  induction l generalizing f with
  | nil => rfl
  | cons a l ih =>
    have ih := ih (f := fun i => f (i + 1)) fun i a h1 h2 => h (i + 1) a h1 h2
    unfold pick
    cases hf : f 0 with
    | true => simp [ih]
    | false => simp [ih, h 0 a rfl hf]

theorem forall₂_get {R : α → β → Prop} {l : List α} {l' : List β} (h : List.Forall₂ R l l') {i : ℕ}
    {b : β} (hb : l'[i]? = some b) : ∃ a, l[i]? = some a ∧ R a b :=
  (IdxRel.of_forall₂ h).left hb

theorem idx_sum {M : Type} [AddCommMonoid M] {F : α → M} {F' : β → M} {l : List α} {l' : List β}
    (h : IdxRel (fun _ a b => F a = F' b) l l') : (l.map F).sum = (l'.map F').sum := by
  have := h.forall₂ (S := fun a b => F a = F' b) fun _ _ _ h => h
  induction this with
  | nil => rfl
  | cons e _ ih =>
    rename_i t
    simp [e, ih (IdxRel.of_forall₂ t)]

end

section
variable {K : Type} [Field K] [LinearOrder K] [IsStrictOrderedRing K] [FloorRing K] {ns : ℕ}

theorem items_phase_sum {M : Type} [AddCommMonoid M] (g : Phase K ns × Particle K ns → M)
    (L : List (PhaseSt K ns)) :
    ((items L).map g).sum = (L.map fun A => (A.pts.map fun a => g (A.ph, a)).sum).sum := by
  unfold items
  induction L with
  | nil => rfl
  | cons A L ih =>
    rw [List.flatMap_cons, List.map_append, List.sum_append, ih, List.map_cons, List.sum_cons,
      List.map_map]
    rfl

/-- A sum over all points against the sum over the chosen ones. -/
theorem chosen_sum {M : Type} [AddCommMonoid M] {sel : ℕ → ℕ → Bool}
    {R R' : ℕ → Phase K ns → Particle K ns → Particle K ns → Prop}
    {L L' N N' : List (PhaseSt K ns)} (hL : Chosen sel L N) (h : PtsIdx R L L')
    (h' : PtsIdx R' N N') {g : Phase K ns × Particle K ns → M}
    (h0 : ∀ p (A : PhaseSt K ns) i a b, L[p]? = some A → A.pts[i]? = some a → sel p i = false → R p A.ph a b →
      g (A.ph, b) = 0)
    (h1 : ∀ p (A B : PhaseSt K ns) i a b c, L[p]? = some A → A.pts[i]? = some a → sel p i = true →
      B.ph = { A.ph with n := B.ph.n } → R p A.ph a b → R' p B.ph a c → g (B.ph, c) = g (A.ph, b)) :
    ((items N').map g).sum = ((items L').map g).sum := by
  rw [items_phase_sum, items_phase_sum]
  symm
  refine idx_sum ⟨by rw [← h.1, ← h'.1, hL.1], ?_⟩
  intro p A' B' hA' hB'
  obtain ⟨A, hA, eA, rA⟩ := IdxRel.left h hA'
  obtain ⟨B, hB, eB, rB⟩ := IdxRel.left h' hB'
  obtain ⟨e1, e2, e3⟩ := hL.2 p A B hA hB
  have z : ((pick (sel p) A'.pts).map fun a => g (A'.ph, a)).sum =
      (A'.pts.map fun a => g (A'.ph, a)).sum := by
    refine pick_sum fun i b hb hf => ?_
    obtain ⟨a, ha, hr⟩ := forall₂_get rA hb
    rw [eA]
    exact h0 p A i a b hA ha hf hr
  rw [← z]
  rw [e1] at rB
  have pr := pick_pair rA rB
  have : (B'.pts.map fun c => g (B'.ph, c)) = (pick (sel p) A'.pts).map fun a => g (A'.ph, a) := by
    refine forall₂_map_eq (R := fun c b => ∃ i a, A.pts[i]? = some a ∧ sel p i = true ∧
      R p A.ph a b ∧ R' p B.ph a c) ?_ pr
    rintro c b ⟨i, a, k1, k2, k3, k4⟩
    rw [eA, eB]
    refine h1 p A B i a b c hA k1 k2 ?_ k3 k4
    have hne : B.pts ≠ [] := by
      rw [e1]
      exact List.ne_nil_of_mem (mem_pick k1 k2)
    rw [e2, e3 hne]
  rw [this]

variable {P : Par K}

/-- Finding the cell of a point and its weights there. -/
def InPlace (P : Par K) (d : Dyn K) (Gw : Grid K P.G.N P.G.ns) (p : ℕ) (a c : Particle K P.G.ns) :
    Prop :=
  ∃ a2, (a.incrementGravity P d.g p).getReferenceNode P.G Gw.dx Gw.dy = .ok a2 ∧
    a2.getBasisFunctions Gw = .ok c

theorem InPlace.unique {d : Dyn K} {G G' : Grid K P.G.N P.G.ns} {p : ℕ} {a c c' : Particle K P.G.ns}
    (hG : SameTable G G') (h : InPlace P d G p a c) (h' : InPlace P d G' p a c') : c' = c := by
  obtain ⟨a2, h1, h2⟩ := h
  obtain ⟨a2', h1', h2'⟩ := h'
  rw [hG.dx, hG.dy, h1] at h1'
  cases h1'
  have : a2.getBasisFunctions G' = a2.getBasisFunctions G := by
    unfold Particle.getBasisFunctions
    rw [hG.dx, hG.dy, hG.X, hG.Y]
  rw [this, h2] at h2'
  exact (Except.ok.inj h2').symm

theorem incrementGravity_frame (d : Dyn K) (p : ℕ) (a : Particle K P.G.ns) :
    a.incrementGravity P d.g p = { a with b := (a.incrementGravity P d.g p).b } := by
  unfold Particle.incrementGravity; split <;> rfl

theorem InPlace.frame {d : Dyn K} {G : Grid K P.G.N P.G.ns} {p : ℕ} {a c : Particle K P.G.ns}
    (h : InPlace P d G p a c) :
    c = { a with b := c.b, n_star := c.n_star, N := c.N, Gs := c.Gs } := by
  obtain ⟨a2, h1, h2⟩ := h
  have l := (locate_one h1 h2).eq
  rw [l, incrementGravity_frame d p a]

/-- The nodes to which a point is mapped are the corners of its cell. -/
theorem InPlace.corner {d : Dyn K} {G : Grid K P.G.N P.G.ns} {p : ℕ} {a c : Particle K P.G.ns}
    (hP : GoodGrid P.G) (hG : Geometry P.G G) (hx : InDomain P.G a.x) (h : InPlace P d G p a c) :
    ∃ nd : Fin 4 → Fin P.G.N, (∀ r, c.node P.G.nx P.G.N r = .ok (nd r)) ∧
      ∀ r, Corner P.G a.x (nd r) := by
  obtain ⟨a2, h1, h2⟩ := h
  have ex : (a.incrementGravity P d.g p).x = a.x := by rw [incrementGravity_frame d p a]
  obtain ⟨i, j, nd, hc, g1, g2, g3, g4, g5⟩ := located_basis hP hG
    (mp := a.incrementGravity P d.g p) (by rw [ex]; exact hx)
  rw [g1] at h1
  cases h1
  rw [g2] at h2
  cases h2
  rw [ex] at hc
  refine ⟨nd, g3, fun r => ⟨i, j, hc, ?_, ?_⟩⟩
  · rw [g4]; fin_cases r <;> simp [cornerX]
  · rw [g5]; fin_cases r <;> simp [cornerY]

theorem InPlace.weight_zero {d : Dyn K} {G : Grid K P.G.N P.G.ns} {p : ℕ} {a c : Particle K P.G.ns}
    (hP : GoodGrid P.G) (hG : Geometry P.G G) (hx : InDomain P.G a.x) (h : InPlace P d G p a c)
    {k : Fin P.G.N} (hk : ¬ Corner P.G a.x k) :
    weight P.G.nx c k = 0 ∧ gradWeight P.G.nx c k = 0 := by
  obtain ⟨nd, h1, h2⟩ := h.corner hP hG hx
  have hne : ∀ r, nd r ≠ k := fun r e => hk (e ▸ h2 r)
  rw [weight_eq h1, gradWeight_eq h1]
  exact ⟨Finset.sum_eq_zero fun r _ => if_neg (hne r), Finset.sum_eq_zero fun r _ => if_neg (hne r)⟩

/-- The stress update of a point looks at its own nodes only. -/
theorem stressStrain_local {N nx : ℕ} {M_tol : K} {G G' : Grid K N ns} {law : Law}
    {c : LawCtx K ns} {a b b' : Particle K ns} {v v' w w' : Vis → Fin N → XF K}
    (hm : ∀ r k, a.node nx N r = .ok k → G'.m k = G.m k ∧ G'.q k = G.q k)
    (h : a.stressStrain nx M_tol G law c v = .ok (b, v'))
    (h' : a.stressStrain nx M_tol G' law c w = .ok (b', w')) : b' = b := by
  obtain ⟨m1, m2, l, h1, h2, -, h3⟩ := stressStrain_ok h
  obtain ⟨m1', m2', l', h1', h2', -, h3'⟩ := stressStrain_ok h'
  obtain ⟨nd, hn, e⟩ := updateStrain_ok h1
  obtain ⟨nd', hn', e'⟩ := updateStrain_ok h1'
  have en : nd' = nd := by
    funext r
    have := hn r
    rw [hn' r] at this
    exact Except.ok.inj this
  have ev : ∀ r, nodeVel M_tol G' (nd r) = nodeVel M_tol G (nd r) := by
    intro r
    obtain ⟨x, y⟩ := hm r (nd r) (hn r)
    unfold nodeVel
    rw [x, y]
  rw [en] at e'
  simp only [ev] at e'
  rw [← e] at e'
  rw [e', h2] at h2'
  cases h2'
  rw [h3, h3']

/-- The motion of a point looks at its own nodes only. -/
theorem moveStep_local {dt : K} {N : ℕ} {G G' : Grid K N P.G.ns} {ph ph' : Phase K P.G.ns}
    {a b b' : Particle K P.G.ns} (hp : ph'.law = ph.law)
    (hm : ∀ r k, a.node P.G.nx N r = .ok k →
      G'.m k = G.m k ∧ G'.q k = G.q k ∧ G'.q_dot k = G.q_dot k ∧ G'.V k = G.V k)
    (h : MoveStep P dt G ph a b) (h' : MoveStep P dt G' ph' a b') : b' = b := by
  rcases h with ⟨h1, h2⟩ | ⟨h1, iv, iv1, h2⟩
  · rcases h' with ⟨h1', h2'⟩ | ⟨h1', _⟩
    · rw [h2, h2']
    · exact absurd (hp.trans h1) h1'
  · rcases h' with ⟨h1', _⟩ | ⟨h1', iw, iw1, h2'⟩
    · exact absurd (hp.symm.trans h1') h1
    obtain ⟨nd, hn, -, e⟩ := move_ok h2
    obtain ⟨nd', hn', -, e'⟩ := move_ok h2'
    have en : nd' = nd := by
      funext r
      have := hn r
      rw [hn' r] at this
      exact Except.ok.inj this
    have e := congrArg Prod.fst e
    have e' := congrArg Prod.fst e'
    rw [en] at e'
    have d1 : ∀ r, dispInc P.M_tol dt (a.N r) G' (nd r) = dispInc P.M_tol dt (a.N r) G (nd r) := by
      intro r
      obtain ⟨x, y, z, w⟩ := hm r (nd r) (hn r)
      unfold dispInc
      rw [x, y]
    have d2 : ∀ r, velInc P.M_tol dt (a.N r) G' (nd r) = velInc P.M_tol dt (a.N r) G (nd r) := by
      intro r
      obtain ⟨x, y, z, w⟩ := hm r (nd r) (hn r)
      unfold velInc
      rw [x, z]
    have d3 : ∀ r, rhoInc P.M_tol (a.N r) G' (nd r) = rhoInc P.M_tol (a.N r) G (nd r) := by
      intro r
      obtain ⟨x, y, z, w⟩ := hm r (nd r) (hn r)
      unfold rhoInc
      rw [x, w]
    have d4 : ∀ (D : Vec K), (addVel D (a.v, iw)).1 = (addVel D (a.v, iv)).1 := by
      intro D; cases a.v <;> rfl
    change b' = _ at e'
    change b = _ at e
    rw [e, e']
    unfold moveClosed
    simp only [d1, d2, d3, d4]

/-- The momentum update of a node looks at this node only. -/
theorem momentum_local {nx ny : ℕ} {B : BP K} {qv qh rho : K} {a0 dmp : Bool} {dt v0 : K}
    {G G' H H' : Grid K (ny * nx) ns} (h : G.BCs B qv qh rho a0 = .ok H)
    (h' : G'.BCs B qv qh rho a0 = .ok H') (hs : SameStatic G G') {k : Fin (ny * nx)}
    (hm : G'.m k = G.m k) (hq : G'.q k = G.q k) (hfi : G'.fi k = G.fi k) (hfe : G'.fe k = G.fe k)
    (hx : G'.ext_f k = G.ext_f k) :
    (H'.updateMomentum B dmp dt v0).m k = (H.updateMomentum B dmp dt v0).m k ∧
    (H'.updateMomentum B dmp dt v0).q k = (H.updateMomentum B dmp dt v0).q k ∧
    (H'.updateMomentum B dmp dt v0).q_dot k = (H.updateMomentum B dmp dt v0).q_dot k := by
  have e := BCs_frame h
  have e' := BCs_frame h'
  have ef : H'.fe k = H.fe k := by
    unfold Grid.BCs at h h'
    split at h
    · cases h
    split at h'
    · cases h'
    cases a0
    · rw [← Except.ok.inj h, ← Except.ok.inj h']
      cases B.vertical_force <;> cases B.horizontal_force <;>
        simp [hm, hfe, hx, hs.dx, hs.dy]
    · cases h
  have em : H'.m k = H.m k := by rw [e, e']; exact hm
  have eq : H'.q k = H.q k := by rw [e, e']; exact hq
  have ei : H'.fi k = H.fi k := by rw [e, e']; exact hfi
  have ev : H'.boundary_v = H.boundary_v := by rw [e, e']; exact hs.bv
  have eh : H'.boundary_h = H.boundary_h := by rw [e, e']; exact hs.bh
  have ec : H'.boundary_conveyor = H.boundary_conveyor := by rw [e, e']; exact hs.conv
  clear e e' h h'
  refine ⟨em, ?_, ?_⟩
  · unfold Grid.updateMomentum
    rw [ev, eh, ec]
    cases B.conveyor <;> cases B.roughness <;> cases dmp <;>
      simp [em, eq, ei, ef] <;> split_ifs <;> simp [em, eq, ei, ef]
  · unfold Grid.updateMomentum
    rw [ev, eh]
    cases B.roughness <;> cases dmp <;>
      simp [em, eq, ei, ef] <;> split_ifs <;> simp [em, eq, ei, ef]

end
end Mpm

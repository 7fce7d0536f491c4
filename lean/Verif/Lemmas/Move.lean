import Verif.Lemmas.Stress

/-! Closed form of the motion of one point. -/

set_option linter.unusedSectionVars false

namespace Mpm
open Spec

section
variable {K : Type} [Field K] [LinearOrder K] {ns N : ℕ}

theorem addVel_zero (s : VRef K × Vec K) : addVel 0 s = s := by
  obtain ⟨v, iv⟩ := s
  cases v <;> simp [addVel]

theorem addVel_add (d e : Vec K) (s : VRef K × Vec K) :
    addVel e (addVel d s) = addVel (d + e) s := by
  obtain ⟨v, iv⟩ := s
  cases v <;> simp [addVel, add_assoc]

/-- Contribution of node `n` to the displacement, the velocity change and the density. -/
def dispInc (M_tol dt w : K) (G : Grid K N ns) (n : Fin N) : Vec K :=
  if M_tol < G.m n then fun k => dt * w * G.q n k / G.m n else 0
def velInc (M_tol dt w : K) (G : Grid K N ns) (n : Fin N) : Vec K :=
  if M_tol < G.m n then fun k => dt * w * G.q_dot n k / G.m n else 0
def rhoInc (M_tol w : K) (G : Grid K N ns) (n : Fin N) : K :=
  if M_tol < G.m n then w * G.m n / G.V n else 0

/-- The point and the shared velocity after `move_material_points`. -/
def moveClosed (M_tol dt : K) (G : Grid K N ns) (nd : Fin 4 → Fin N) (mp : Particle K ns)
    (iv : Vec K) : Particle K ns × Vec K :=
  let vv := addVel (∑ r, velInc M_tol dt (mp.N r) G (nd r)) (mp.v, iv)
  ({ mp with
      x := mp.x + ∑ r, dispInc M_tol dt (mp.N r) G (nd r)
      v := vv.1
      rho := ∑ r, rhoInc M_tol (mp.N r) G (nd r) }, vv.2)

/-- One pass of the first loop of `move_material_points`. -/
def movePass (M_tol dt : K) (G : Grid K N ns) (w : K) (n : Fin N) (s : Particle K ns × Vec K) :
    Particle K ns × Vec K :=
  ({ s.1 with
      x := s.1.x + dispInc M_tol dt w G n
      v := (addVel (velInc M_tol dt w G n) (s.1.v, s.2)).1 },
    (addVel (velInc M_tol dt w G n) (s.1.v, s.2)).2)

theorem movePass_eq {nx : ℕ} {M_tol dt : K} {G : Grid K N ns} {r : Fin 4} {n : Fin N}
    {s : Particle K ns × Vec K} (h : s.1.node nx N r = .ok n) :
    (do
      let n ← s.1.node nx N r
      if M_tol < G.m n then
        let (v', iv') := addVel (fun k => dt * s.1.N r * G.q_dot n k / G.m n) (s.1.v, s.2)
        return ({ s.1 with
          x := s.1.x + fun k => dt * s.1.N r * G.q n k / G.m n
          v := v' }, iv')
      else return s : Res (Particle K ns × Vec K)) = .ok (movePass M_tol dt G (s.1.N r) n s) := by
  rw [h, res_ok_bind]
  unfold movePass dispInc velInc
  split
  · rfl
  · rw [addVel_zero, add_zero]; rfl

theorem move_loop1 {nx : ℕ} {M_tol dt : K} {G : Grid K N ns} {mp : Particle K ns} {iv : Vec K}
    {nd : Fin 4 → Fin N} (h : ∀ r, mp.node nx N r = .ok (nd r)) :
    for4 (fun r (s : Particle K ns × Vec K) => do
      let n ← s.1.node nx N r
      if M_tol < G.m n then
        let (v', iv') := addVel (fun k => dt * s.1.N r * G.q_dot n k / G.m n) (s.1.v, s.2)
        return ({ s.1 with
          x := s.1.x + fun k => dt * s.1.N r * G.q n k / G.m n
          v := v' }, iv')
      else return s) (mp, iv) = .ok
        ({ mp with
            x := mp.x + ∑ r, dispInc M_tol dt (mp.N r) G (nd r)
            v := (addVel (∑ r, velInc M_tol dt (mp.N r) G (nd r)) (mp.v, iv)).1 },
          (addVel (∑ r, velInc M_tol dt (mp.N r) G (nd r)) (mp.v, iv)).2) := by
  refine for4_ok.2 ⟨movePass M_tol dt G (mp.N 0) (nd 0) (mp, iv),
    movePass M_tol dt G (mp.N 1) (nd 1) (movePass M_tol dt G (mp.N 0) (nd 0) (mp, iv)),
    movePass M_tol dt G (mp.N 2) (nd 2) (movePass M_tol dt G (mp.N 1) (nd 1)
      (movePass M_tol dt G (mp.N 0) (nd 0) (mp, iv))), movePass_eq (h 0), movePass_eq (h 1),
    movePass_eq (h 2), (movePass_eq (h 3)).trans ?_⟩
  simp only [movePass, Prod.mk.eta, addVel_add, Fin.sum_univ_four, add_assoc]

theorem move_loop2 {nx : ℕ} {M_tol : K} {G : Grid K N ns} {mp : Particle K ns}
    {nd : Fin 4 → Fin N} (h : ∀ r, mp.node nx N r = .ok (nd r))
    (hV : ∀ r, M_tol < G.m (nd r) → G.V (nd r) ≠ 0) :
    for4 (fun r (mp : Particle K ns) => do
      let n ← mp.node nx N r
      if M_tol < G.m n then
        if G.V n = 0 then .error .nonFinite
        else return { mp with rho := mp.rho + mp.N r * G.m n / G.V n }
      else return mp) { mp with rho := 0 } = .ok
        { mp with rho := ∑ r, rhoInc M_tol (mp.N r) G (nd r) } := by
  have key : ∀ (r : Fin 4) (c : K), (do
      let n ← Particle.node nx N { mp with rho := c } r
      if M_tol < G.m n then
        if G.V n = 0 then .error .nonFinite
        else return { mp with rho := c + mp.N r * G.m n / G.V n }
      else return { mp with rho := c } : Res (Particle K ns)) =
        .ok { mp with rho := c + rhoInc M_tol (mp.N r) G (nd r) } := by
    intro r c
    have : Particle.node nx N { mp with rho := c } r = .ok (nd r) := h r
    rw [this, res_ok_bind]
    unfold rhoInc
    split
    · rename_i hm
      rw [if_neg (hV r hm)]; rfl
    · rw [add_zero]; rfl
  rw [Fin.sum_univ_four]
  exact for4_ok.2 ⟨_, _, _, key 0 0, key 1 _, key 2 _, by
    rw [key 3]; simp only [zero_add]⟩

theorem move_of_nodes {nx : ℕ} {M_tol dt : K} {G : Grid K N ns} {mp : Particle K ns}
    {iv : Vec K} {nd : Fin 4 → Fin N} (h : ∀ r, mp.node nx N r = .ok (nd r))
    (hV : ∀ r, M_tol < G.m (nd r) → G.V (nd r) ≠ 0) :
    mp.move nx M_tol dt G iv = .ok (moveClosed M_tol dt G nd mp iv) := by
  unfold Particle.move
  rw [move_loop1 h, res_ok_bind]
  refine res_bind_ok.2 ⟨_, move_loop2 (nd := nd) h hV, rfl⟩

theorem move_ok {nx : ℕ} {M_tol dt : K} {G : Grid K N ns} {mp : Particle K ns}
    {iv : Vec K} {r : Particle K ns × Vec K} (h : mp.move nx M_tol dt G iv = .ok r) :
    ∃ nd : Fin 4 → Fin N, (∀ r, mp.node nx N r = .ok (nd r)) ∧
      (∀ r, M_tol < G.m (nd r) → G.V (nd r) ≠ 0) ∧ r = moveClosed M_tol dt G nd mp iv := by
  have hn : NodesOk nx N mp := by
    unfold Particle.move at h
    obtain ⟨⟨a, b⟩, h, _⟩ := res_bind_ok.1 h
    obtain ⟨s1, s2, s3, h1, h2, h3, h4⟩ := for4_ok.1 h
    have step : ∀ {r : Fin 4} {s s' : Particle K ns × Vec K}, (do
      let n ← s.1.node nx N r
      if M_tol < G.m n then
        let (v', iv') := addVel (fun k => dt * s.1.N r * G.q_dot n k / G.m n) (s.1.v, s.2)
        return ({ s.1 with
          x := s.1.x + fun k => dt * s.1.N r * G.q n k / G.m n
          v := v' }, iv')
      else return s : Res (Particle K ns × Vec K)) = .ok s' →
        (∃ n, s.1.node nx N r = .ok n) ∧ s'.1.n_star = s.1.n_star := by
      intro r s s' h
      obtain ⟨n, hn, h⟩ := res_bind_ok.1 h
      refine ⟨⟨n, hn⟩, ?_⟩
      split at h
      · cases h; rfl
      · cases h; rfl
    obtain ⟨⟨n0, e0⟩, i0⟩ := step h1
    obtain ⟨⟨n1, e1⟩, i1⟩ := step h2
    obtain ⟨⟨n2, e2⟩, i2⟩ := step h3
    obtain ⟨⟨n3, e3⟩, i3⟩ := step h4
    unfold Particle.node at e0 e1 e2 e3
    rw [i0] at e1
    rw [i1, i0] at e2
    rw [i2, i1, i0] at e3
    intro r
    fin_cases r
    · exact ⟨_, e0⟩
    · exact ⟨_, e1⟩
    · exact ⟨_, e2⟩
    · exact ⟨_, e3⟩
  obtain ⟨nd, hnd⟩ := nodesOk_iff.1 hn
  have hV : ∀ r, M_tol < G.m (nd r) → G.V (nd r) ≠ 0 := by
    unfold Particle.move at h
    rw [move_loop1 hnd, res_ok_bind] at h
    obtain ⟨a, h, _⟩ := res_bind_ok.1 h
    obtain ⟨s1, s2, s3, h1, h2, h3, h4⟩ := for4_ok.1 h
    have step : ∀ {r : Fin 4} {s s' : Particle K ns}, s.n_star = mp.n_star → (do
      let n ← s.node nx N r
      if M_tol < G.m n then
        if G.V n = 0 then .error .nonFinite
        else return { s with rho := s.rho + s.N r * G.m n / G.V n }
      else return s : Res (Particle K ns)) = .ok s' →
        (M_tol < G.m (nd r) → G.V (nd r) ≠ 0) ∧ s'.n_star = mp.n_star := by
      intro r s s' he h
      have e : s.node nx N r = .ok (nd r) := by
        rw [← hnd r]; unfold Particle.node; rw [he]
      rw [e, res_ok_bind] at h
      split at h
      · split at h
        · cases h
        · cases h; exact ⟨fun _ => by assumption, he⟩
      · cases h; exact ⟨fun h => absurd h (by assumption), he⟩
    obtain ⟨e0, i0⟩ := step (by exact rfl) h1
    obtain ⟨e1, i1⟩ := step i0 h2
    obtain ⟨e2, i2⟩ := step i1 h3
    obtain ⟨e3, i3⟩ := step i2 h4
    intro r
    fin_cases r
    · exact e0
    · exact e1
    · exact e2
    · exact e3
  refine ⟨nd, hnd, hV, ?_⟩
  rw [move_of_nodes hnd hV, Except.ok.injEq] at h
  exact h.symm

/-- The sum of increments over the four nodes, as a sum over all nodes. -/
theorem sum_velInc {nx : ℕ} {M_tol dt : K} {G : Grid K N ns} {mp : Particle K ns}
    {nd : Fin 4 → Fin N} (h : ∀ r, mp.node nx N r = .ok (nd r)) :
    ∑ r, velInc M_tol dt (mp.N r) G (nd r) =
      ∑ k, weight nx mp k • (if M_tol < G.m k then (dt / G.m k) • G.q_dot k else 0) := by
  rw [← sum_nodes_smul h]
  refine Finset.sum_congr rfl fun r _ => ?_
  unfold velInc
  split
  · funext i; simp; ring
  · simp

theorem sum_dispInc {nx : ℕ} {M_tol dt : K} {G : Grid K N ns} {mp : Particle K ns}
    {nd : Fin 4 → Fin N} (h : ∀ r, mp.node nx N r = .ok (nd r)) :
    ∑ r, dispInc M_tol dt (mp.N r) G (nd r) =
      ∑ k, weight nx mp k • (if M_tol < G.m k then (dt / G.m k) • G.q k else 0) := by
  rw [← sum_nodes_smul h]
  refine Finset.sum_congr rfl fun r _ => ?_
  unfold dispInc
  split
  · funext i; simp; ring
  · simp

/-- The motion of one phase: how `movePoints` treats it. -/
theorem movePoints_phase {nx : ℕ} {M_tol dt : K} {iv : Vec K} {G : Grid K N ns}
    {L L' : List (PhaseSt K ns)} (hL : Counted L)
    (h : movePoints nx M_tol dt iv G L = .ok L') :
    List.Forall₂ (fun a a' =>
      (a.ph.law = .rigid ∧ a' = { a with pts := a.pts.map (·.moveRigid dt iv) }) ∨
      (a.ph.law ≠ .rigid ∧ a'.ph = { a.ph with iv := a'.ph.iv } ∧
        forN (fun mp iv => mp.move nx M_tol dt G iv) a.pts.length a.pts a.ph.iv =
          .ok (a'.pts, a'.ph.iv))) L L' := by
  refine mapPhases_forall₂ ?_ h
  intro p a ha a' h
  split at h
  · rename_i hl
    obtain ⟨pts, h1, h2⟩ := res_bind_ok.1 h
    cases h2
    clear h
    left
    refine ⟨hl, ?_⟩
    rw [hL a ha] at h1
    have : pts = a.pts.map (·.moveRigid dt iv) := by
      generalize a.pts = l at h1
      induction l generalizing pts with
      | nil => cases h1; rfl
      | cons b l ih =>
        obtain ⟨b', t, h2, h3, rfl⟩ := mapN_cons_ok.1 h1
        cases h2
        rw [List.map_cons, ih _ h3]
    rw [this]
  · rename_i hl
    obtain ⟨⟨pts, iv'⟩, h1, h⟩ := res_bind_ok.1 h
    cases h
    right
    rw [hL a ha] at h1
    exact ⟨hl, rfl, h1⟩

/-- Velocity change of a point that has been located, on the updated grid. -/
def dvel (nx : ℕ) (M_tol dt : K) (G : Grid K N ns) (mp : Particle K ns) : Vec K :=
  ∑ k, weight nx mp k • (if M_tol < G.m k then (dt / G.m k) • G.q_dot k else 0)

/-- Does the point use the phase's velocity array? -/
def Particle.isShared (mp : Particle K ns) : Bool :=
  match mp.v with
  | .own _ => false
  | .shared => true

theorem move_iv {nx : ℕ} {M_tol dt : K} {G : Grid K N ns} {mp mp' : Particle K ns}
    {iv iv' : Vec K} (h : mp.move nx M_tol dt G iv = .ok (mp', iv')) :
    mp'.isShared = mp.isShared ∧
      iv' = iv + if mp'.isShared then dvel nx M_tol dt G mp' else 0 := by
  obtain ⟨nd, hnd, -, e⟩ := move_ok h
  have e1 : mp' = (moveClosed M_tol dt G nd mp iv).1 := congrArg Prod.fst e
  have e2 : iv' = (moveClosed M_tol dt G nd mp iv).2 := congrArg Prod.snd e
  have hs : mp'.isShared = mp.isShared := by
    rw [e1]; unfold Particle.isShared moveClosed addVel
    cases mp.v <;> rfl
  refine ⟨hs, ?_⟩
  have hd : dvel nx M_tol dt G mp' = ∑ r, velInc M_tol dt (mp.N r) G (nd r) := by
    rw [sum_velInc hnd, e1]; rfl
  rw [hs, hd, e2]
  unfold moveClosed addVel Particle.isShared
  cases mp.v <;> simp

theorem forN_move_iv {nx : ℕ} {M_tol dt : K} {G : Grid K N ns} {l l' : List (Particle K ns)}
    {iv iv' : Vec K}
    (h : forN (fun mp iv => Particle.move nx M_tol dt G mp iv) l.length l iv = .ok (l', iv')) :
    iv' = iv + ((l'.filter (·.isShared)).map (dvel nx M_tol dt G)).sum := by
  induction l generalizing l' iv with
  | nil => cases h; simp
  | cons a l ih =>
    obtain ⟨a', iv1, t, h1, h2, rfl⟩ := forN_cons_ok.1 h
    rw [ih h2, (move_iv h1).2]
    cases hs : a'.isShared <;> simp [hs, add_assoc]

end
end Mpm

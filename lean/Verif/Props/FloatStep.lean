import Mathlib.Data.Rat.Floor
import Verif.Model.FloatStep
import Verif.Props.FloatMap
import Verif.Props.Motion

/-! C138: forces, momentum and motion in floating point. -/

set_option linter.unusedSectionVars false

namespace Mpm
namespace Spec
section
variable {K : Type} [Field K] [LinearOrder K] {ns : ℕ}

/-- The corners of a point whose node is heavier than `M_tol`, with that node. -/
def heavy (nx : ℕ) {N : ℕ} (M_tol : K) (G : Grid K N ns) (mp : Particle K ns) :
    List (Fin 4 × Fin N) :=
  (List.finRange 4).filterMap fun r =>
    match pyIdx N (nearbyNodes nx mp.n_star r) with
    | .ok n => if M_tol < G.m n then some (r, n) else none
    | .error _ => none

end
end Spec
open Spec

section
variable {K : Type} [Field K] [LinearOrder K] [IsStrictOrderedRing K] [FloorRing K]
  {rnd : K → K} {u : K} {ns N nx ny : ℕ}

/-! ## Without rounding -/

/-- The rest of the time step as the exact model has it. -/
def Besides.exact (P : Par K) (interp : Interp K P.G.N) : Besides P where
  fractions := fun G =>
    let H := G.nodalFractions P.ops.big P.G.s
    (H.phi, H.s_bar, H.pk)
  stress := fun d L p ph mp vis =>
    mp.updateStress P.G.nx ph.law (lawCtx P d P.G.s ((mat0 L).getD ph.par) p ph) vis
  visCyclic := fun vis v => if v ∈ cyclicVis then makeCyclic (vis v) else vis v
  late := fun s => segregationPhase P interp { s with G := s.G.calcGammadot interp P.ops.big P.M_tol }
  point := fun S0 ph g x y => mkParticle P S0 ph g x y none

theorem makeCyclicR_id (a : Fin (ny * nx) → K) : makeCyclicR id a = makeCyclic a := rfl

theorem makeCyclicR_id_vec (a : Fin (ny * nx) → Vec K) :
    (fun i k => makeCyclicR id (fun i => a i k) i) = makeCyclic a := by
  funext i k
  simp only [makeCyclicR, makeCyclic, id]
  split_ifs <;> rfl

theorem updateStrainR_id (M_tol dt : K) (G : Grid K N ns) (mp : Particle K ns) :
    mp.updateStrainR id nx M_tol dt G = mp.updateStrain nx M_tol dt G := by
  have hv : nodeVelR id M_tol G = nodeVel M_tol G := rfl
  have : ∀ (mp : Particle K ns) (r : Fin 4) (n : Fin N),
      (fun i j => id (mp.dstrain i j + id (id (1 / 2 * id (id (nodeVelR id M_tol G n i * mp.Gs r j) +
        id (mp.Gs r i * nodeVelR id M_tol G n j))) * dt)) : Mat K) =
      mp.dstrain + (1 / 2 * dt) • (Matrix.vecMulVec (nodeVel M_tol G n) (mp.Gs r) +
        Matrix.vecMulVec (mp.Gs r) (nodeVel M_tol G n)) := by
    intro mp r n
    funext i j
    simp only [id, hv, Matrix.add_apply, Matrix.smul_apply, Matrix.vecMulVec_apply, smul_eq_mul]
    ring
  unfold Particle.updateStrainR Particle.updateStrain
  simp only [this]
  rfl

theorem dotR_id (s : Mat K) (g : Vec K) : dotR id s g = Matrix.mulVec s g := by
  funext i
  simp [dotR, Matrix.mulVec, dotProduct, Fin.sum_univ_three]

theorem nodalForcesAllR_id (L : List (PhaseSt K ns)) (G : Grid K N ns) :
    nodalForcesAllR id nx L G = nodalForcesAll nx L G := by
  unfold nodalForcesAllR nodalForcesAll Particle.nodalForcesR Particle.nodalForces
  simp only [dotR_id]
  rfl

theorem addVelR_id (d : Vec K) (s : VRef K × Vec K) : addVelR id d s = addVel d s := by
  obtain ⟨v, w⟩ := s
  cases v <;> rfl

theorem updateMomentumR_id (B : BP K) (damping : Bool) (dt v_0 : K) (G : Grid K (ny * nx) ns) :
    G.updateMomentumR id B damping dt v_0 = G.updateMomentum B damping dt v_0 := rfl

theorem BCsR_id (B : BP K) (q_v q_h rho0 : K) (b : Bool) (G : Grid K (ny * nx) ns) :
    G.BCsR id B q_v q_h rho0 b = G.BCs B q_v q_h rho0 b := rfl

theorem movePointsR_id (M_tol dt : K) (w : Vec K) (G : Grid K N ns) (L : List (PhaseSt K ns)) :
    movePointsR id nx M_tol dt w G L = movePoints nx M_tol dt w G L := by
  unfold movePointsR movePoints Particle.moveR Particle.move
  simp only [addVelR_id]
  rfl

theorem makeCyclicMQR_id (G : Grid K (ny * nx) ns) : G.makeCyclicMQR id = G.makeCyclicMQ := by
  unfold Grid.makeCyclicMQR Grid.makeCyclicMQ
  rw [makeCyclicR_id_vec, makeCyclicR_id]

theorem makeCyclicForcesR_id (G : Grid K (ny * nx) ns) :
    G.makeCyclicForcesR id = G.makeCyclicForces := by
  unfold Grid.makeCyclicForcesR Grid.makeCyclicForces
  rw [makeCyclicR_id_vec, makeCyclicR_id_vec]

theorem getNodalForcesR_id (P : Par K) (L : List (PhaseSt K ns)) (G : Grid K (ny * nx) ns) :
    getNodalForcesR id P L G = getNodalForces P L G := by
  unfold getNodalForcesR getNodalForces
  rw [nodalForcesAllR_id]
  simp only [makeCyclicForcesR_id]

section
variable (P : Par K) (interp : Interp K P.G.N)

theorem getNodalMassMomentumR_id (L : List (PhaseSt K P.G.ns)) (G : Grid K P.G.N P.G.ns) :
    getNodalMassMomentumR id (Besides.exact P interp) L G = getNodalMassMomentum P P.G.s L G := rfl

theorem updateStressStrainR_id (d : Dyn K) (L : List (PhaseSt K P.G.ns)) (G : Grid K P.G.N P.G.ns) :
    updateStressStrainR id (Besides.exact P interp) d L G = updateStressStrain P d P.G.s L G := by
  unfold updateStressStrainR updateStressStrain Particle.stressStrain
  simp only [updateStrainR_id]
  refine bind_congr fun x => ?_
  cases P.B.cyclic_lr <;> rfl

theorem gridPhaseR_id (s : St P) : gridPhaseR id (Besides.exact P interp) s = gridPhase P s := by
  have e1 : ∀ (g : K) (L : List (PhaseSt K P.G.ns)), updateForcesR id P g L = updateForces P g L :=
    fun _ _ => rfl
  have e2 : ∀ (G : Grid K P.G.N P.G.ns), recoverPositionsR id P.G.nx G =
    recoverPositions P.G.nx G := fun _ => rfl
  unfold gridPhaseR gridPhase
  simp only [e1, e2, (c137_exact (nx := 0) false _ _ _).1, (c137_exact (nx := 0) false P.G _ _).2.1,
    getNodalMassMomentumR_id, makeCyclicMQR_id, updateStressStrainR_id, getNodalForcesR_id]

theorem momentumPhaseR_id (s : St P) :
    (momentumPhaseR id s >>= fun s => (Besides.exact P interp).late s) =
      (momentumPhase P interp s >>= fun s => segregationPhase P interp s) := by
  unfold momentumPhaseR momentumPhase
  simp only [BCsR_id, updateMomentumR_id]
  cases s.G.BCs P.B s.dyn.q_v s.dyn.q_h (((mat0 s.L).map (·.rho)).getD 0)
    (P.aniso && decide (s.dyn.t = 0)) <;> rfl

theorem pointsPhaseR_id (s : St P) :
    pointsPhaseR id (Besides.exact P interp) s = pointsPhase P s := by
  have e1 : outletLeftR (ns := P.G.ns) id P.G = outletLeft P.G := rfl
  have e2 : inletRightR id (Besides.exact P interp) = inletRight P := rfl
  have e3 : inletTopR id (Besides.exact P interp) = inletTop P := rfl
  have e4 : cyclicLRR (ns := P.G.ns) id P.G = cyclicLR P.G := rfl
  unfold pointsPhaseR pointsPhase
  simp only [movePointsR_id, e1, e2, e3, e4]

/-- C138.  Without rounding the time step is the one of the exact model. -/
theorem c138_exact (s : St P) :
    timeMarchR id (Besides.exact P interp) s = timeMarch P interp s := by
  have h := momentumPhaseR_id P interp
  unfold timeMarchR timeMarch
  rw [gridPhaseR_id]
  refine bind_congr fun s => ?_
  have := congrArg (fun m => m >>= fun s => pointsPhase P s) (h s)
  simp only [bind_assoc] at this
  simp only [pointsPhaseR_id]
  exact this

end

/-! ## Motion -/

theorem heavy_eq {M_tol : K} {G : Grid K N ns} {mp : Particle K ns} {nd : Fin 4 → Fin N}
    (h : ∀ r, mp.node nx N r = .ok (nd r)) : heavy nx M_tol G mp =
      (if M_tol < G.m (nd 0) then [(0, nd 0)] else []) ++
      (if M_tol < G.m (nd 1) then [(1, nd 1)] else []) ++
      (if M_tol < G.m (nd 2) then [(2, nd 2)] else []) ++
      (if M_tol < G.m (nd 3) then [(3, nd 3)] else []) := by
  have h' : ∀ r, pyIdx N (nearbyNodes nx mp.n_star r) = .ok (nd r) := h
  have e : List.finRange 4 = [0, 1, 2, 3] := by decide
  unfold heavy
  rw [e]
  simp only [List.filterMap_cons, List.filterMap_nil, h']
  split_ifs <;> rfl

/-- One corner. -/
theorem moveR_corner {M_tol dt : K} {G : Grid K N ns} {r : Fin 4} {n : Fin N}
    {s s' : Particle K ns × Vec K} (hn : s.1.node nx N r = .ok n)
    (h : (do
      let n ← s.1.node nx N r
      if M_tol < G.m n then
        let (v', iv') := addVelR rnd
          (fun k => rnd (rnd (rnd (dt * s.1.N r) * G.q_dot n k) / G.m n)) (s.1.v, s.2)
        return ({ s.1 with
          x := fun k => rnd (s.1.x k + rnd (rnd (rnd (dt * s.1.N r) * G.q n k) / G.m n))
          v := v' }, iv')
      else return s : Res (Particle K ns × Vec K)) = .ok s') :
    (∃ x v, s'.1 = { s.1 with x := x, v := v }) ∧
    (∀ k, s'.1.x k = runSum rnd (s.1.x k)
      (if M_tol < G.m n then [rnd (rnd (rnd (dt * s.1.N r) * G.q n k) / G.m n)] else [])) ∧
    (∀ k, s'.1.v.get s'.2 k = runSum rnd (s.1.v.get s.2 k)
      (if M_tol < G.m n then [rnd (rnd (rnd (dt * s.1.N r) * G.q_dot n k) / G.m n)] else [])) ∧
    ((∃ w, s.1.v = .own w) → (∃ w, s'.1.v = .own w) ∧ s'.2 = s.2) := by
  rw [hn] at h
  obtain ⟨mp, iv⟩ := s
  obtain ⟨mp', iv'⟩ := s'
  change (if M_tol < G.m n then _ else _) = _ at h
  by_cases hm : M_tol < G.m n
  · simp only [if_pos hm] at h ⊢
    cases hv : mp.v with
    | own w =>
      simp only [hv] at h
      cases h
      exact ⟨⟨_, _, rfl⟩, fun k => rfl, fun k => rfl, fun _ => ⟨⟨_, rfl⟩, rfl⟩⟩
    | shared =>
      simp only [hv] at h
      cases h
      refine ⟨⟨_, _, rfl⟩, fun k => rfl, fun k => rfl, ?_⟩
      rintro ⟨w, e⟩
      cases e
  · simp only [if_neg hm] at h ⊢
    cases h
    exact ⟨⟨_, _, rfl⟩, fun k => rfl, fun k => rfl, fun e => ⟨e, rfl⟩⟩

theorem node_congr {a b : Particle K ns} (h : a.n_star = b.n_star) (r : Fin 4) :
    a.node nx N r = b.node nx N r := by
  unfold Particle.node; rw [h]

/-- C138.  A point is moved by the running sum of the rounded contributions of its heavy corners, in
their order, to its position and, with the rates, to its velocity. -/
theorem c138_sum {M_tol dt : K} {G : Grid K N ns} {mp mp' : Particle K ns} {iv iv' : Vec K}
    (h : mp.moveR rnd nx M_tol dt G iv = .ok (mp', iv')) :
    NodesOk nx N mp ∧ (∃ x v rho, mp' = { mp with x := x, v := v, rho := rho }) ∧
    (∀ k, mp'.x k = runSum rnd (mp.x k) ((heavy nx M_tol G mp).map fun c =>
      rnd (rnd (rnd (dt * mp.N c.1) * G.q c.2 k) / G.m c.2))) ∧
    (∀ k, mp'.v.get iv' k = runSum rnd (mp.v.get iv k) ((heavy nx M_tol G mp).map fun c =>
      rnd (rnd (rnd (dt * mp.N c.1) * G.q_dot c.2 k) / G.m c.2))) ∧
    ((∃ w, mp.v = .own w) → (∃ w, mp'.v = .own w) ∧ iv' = iv) := by
  unfold Particle.moveR at h
  obtain ⟨⟨mp1, iv1⟩, h1, h2⟩ := res_bind_ok.1 h
  obtain ⟨s1, s2, s3, k0, k1, k2, k3⟩ := for4_ok.1 h1
  obtain ⟨n0, e0, -⟩ := res_bind_ok.1 k0
  obtain ⟨⟨x0, v0, p0⟩, a0, b0, c0⟩ := moveR_corner e0 k0
  obtain ⟨n1, e1, -⟩ := res_bind_ok.1 k1
  obtain ⟨⟨x1, v1, p1⟩, a1, b1, c1⟩ := moveR_corner e1 k1
  obtain ⟨n2, e2, -⟩ := res_bind_ok.1 k2
  obtain ⟨⟨x2, v2, p2⟩, a2, b2, c2⟩ := moveR_corner e2 k2
  obtain ⟨n3, e3, -⟩ := res_bind_ok.1 k3
  obtain ⟨⟨x3, v3, p3⟩, a3, b3, c3⟩ := moveR_corner e3 k3
  have q1 : s1.1.N = mp.N ∧ s1.1.n_star = mp.n_star := by rw [p0]; exact ⟨rfl, rfl⟩
  have q2 : s2.1.N = mp.N ∧ s2.1.n_star = mp.n_star := by rw [p1]; exact q1
  have q3 : s3.1.N = mp.N ∧ s3.1.n_star = mp.n_star := by rw [p2]; exact q2
  rw [node_congr q1.2] at e1
  rw [node_congr q2.2] at e2
  rw [node_congr q3.2] at e3
  obtain ⟨nd, hn, rfl, rfl, rfl, rfl⟩ : ∃ nd : Fin 4 → Fin N, (∀ r, mp.node nx N r = .ok (nd r)) ∧
      nd 0 = n0 ∧ nd 1 = n1 ∧ nd 2 = n2 ∧ nd 3 = n3 := by
    refine ⟨![n0, n1, n2, n3], ?_, rfl, rfl, rfl, rfl⟩
    intro r
    fin_cases r <;> assumption
  have rest : iv1 = iv' ∧ ∃ rho, mp' = { mp1 with rho := rho } := by
    obtain ⟨m2, h3, h4⟩ := res_bind_ok.1 h2
    cases h4
    refine ⟨rfl, ?_⟩
    obtain ⟨t1, t2, t3, j0, j1, j2, j3⟩ := for4_ok.1 h3
    have step : ∀ {r : Fin 4} {s s' : Particle K ns}, (do
        let n ← s.node nx N r
        if M_tol < G.m n then
          if G.V n = 0 then .error .nonFinite
          else return { s with rho := rnd (s.rho + rnd (rnd (s.N r * G.m n) / G.V n)) }
        else return s : Res (Particle K ns)) = .ok s' → ∃ rho, s' = { s with rho := rho } := by
      intro r s s' h
      obtain ⟨n, -, h⟩ := res_bind_ok.1 h
      split_ifs at h <;> cases h
      · exact ⟨_, rfl⟩
      · exact ⟨_, rfl⟩
    obtain ⟨r0, g0⟩ := step j0
    obtain ⟨r1, g1⟩ := step j1
    obtain ⟨r2, g2⟩ := step j2
    obtain ⟨r3, g3⟩ := step j3
    exact ⟨r3, by rw [g3, g2, g1, g0]⟩
  obtain ⟨rfl, rho, rfl⟩ := rest
  refine ⟨nodesOk_iff.2 ⟨_, hn⟩, ⟨mp1.x, mp1.v, rho, ?_⟩, fun k => ?_, fun k => ?_, fun e => ?_⟩
  · have p3' : mp1 = { s3.1 with x := x3, v := v3 } := p3
    rw [p3', p2, p1, p0]
  · rw [heavy_eq hn, List.map_append, List.map_append, List.map_append, runSum_append, runSum_append,
      runSum_append]
    refine (a3 k).trans ?_
    rw [a2, a1, a0, q1.1, q2.1, q3.1]
    congr 1
    · congr 1
      · congr 1
        · split_ifs <;> rfl
        · split_ifs <;> rfl
      · split_ifs <;> rfl
    · split_ifs <;> rfl
  · rw [heavy_eq hn, List.map_append, List.map_append, List.map_append, runSum_append, runSum_append,
      runSum_append]
    refine (b3 k).trans ?_
    rw [b2, b1, b0, q1.1, q2.1, q3.1]
    congr 1
    · congr 1
      · congr 1
        · split_ifs <;> rfl
        · split_ifs <;> rfl
      · split_ifs <;> rfl
    · split_ifs <;> rfl
  · obtain ⟨d0, f0⟩ := c0 e
    obtain ⟨d1, f1⟩ := c1 d0
    obtain ⟨d2, f2⟩ := c2 d1
    obtain ⟨d3, f3⟩ := c3 d2
    exact ⟨d3, f3.trans (f2.trans (f1.trans f0))⟩

theorem heavy_length (M_tol : K) (G : Grid K N ns) (mp : Particle K ns) :
    (heavy nx M_tol G mp).length ≤ 4 := (List.length_filterMap_le ..).trans (by simp)

/-- One contribution. -/
theorem App.push (hr : Rounding rnd u) (a b c d : K) :
    App u 3 |a * b * c / d| (a * b * c / d) (rnd (rnd (rnd (a * b) * c) / d)) := by
  have h1 := (App.exact (u := u) (a * b) le_rfl).round hr
  have h2 := (h1.mul hr (App.exact c le_rfl)).round hr
  have h3 := (h2.mul hr (App.exact d⁻¹ le_rfl)).round hr
  simp only [← abs_mul, ← div_eq_mul_inv] at h3
  exact h3

/-- C138.  Position and velocity after the move differ from the exact sums by seven roundings. -/
theorem c138_move (hr : Rounding rnd u) {M_tol dt : K} {G : Grid K N ns} {mp mp' : Particle K ns}
    {iv iv' : Vec K} (h : mp.moveR rnd nx M_tol dt G iv = .ok (mp', iv')) (k : Fin 3) :
    |mp'.x k - (mp.x k + ((heavy nx M_tol G mp).map fun c =>
        dt * mp.N c.1 * G.q c.2 k / G.m c.2).sum)| ≤
      gam u 7 * (|mp.x k| + ((heavy nx M_tol G mp).map fun c =>
        |dt * mp.N c.1 * G.q c.2 k / G.m c.2|).sum) ∧
    |mp'.v.get iv' k - (mp.v.get iv k + ((heavy nx M_tol G mp).map fun c =>
        dt * mp.N c.1 * G.q_dot c.2 k / G.m c.2).sum)| ≤
      gam u 7 * (|mp.v.get iv k| + ((heavy nx M_tol G mp).map fun c =>
        |dt * mp.N c.1 * G.q_dot c.2 k / G.m c.2|).sum) := by
  obtain ⟨-, -, hx, hv, -⟩ := c138_sum h
  have key : ∀ (a : K) (f : Fin N → K), App u 7
      (|a| + ((heavy nx M_tol G mp).map fun c => |dt * mp.N c.1 * f c.2 / G.m c.2|).sum)
      (a + ((heavy nx M_tol G mp).map fun c => dt * mp.N c.1 * f c.2 / G.m c.2).sum)
      (runSum rnd a ((heavy nx M_tol G mp).map fun c =>
        rnd (rnd (rnd (dt * mp.N c.1) * f c.2) / G.m c.2))) := by
    intro a f
    have ha := (App.exact (u := u) a le_rfl).weaken hr (Nat.zero_le 3) le_rfl
    have := App.runSum hr (heavy nx M_tol G mp)
      (fun (c : Fin 4 × Fin N) _ => App.push hr dt (mp.N c.1) (f c.2) (G.m c.2)) le_rfl ha
    exact this.weaken hr (by have := heavy_length (nx := nx) M_tol G mp; omega) le_rfl
  rw [hx, hv]
  exact ⟨(key _ fun n => G.q n k).err, (key _ fun n => G.q_dot n k).err⟩

/-! ## Forces -/

/-- One point. -/
theorem nodalForcesR_ok {mp : Particle K ns} {G G' : Grid K N ns}
    (h : mp.nodalForcesR rnd nx G = .ok G') :
    NodesOk nx N mp ∧ G' = { G with
      fi := fun n k => runSum rnd (G.fi n k) ((landings nx n mp).map fun r =>
        rnd (mp.V * dotR rnd mp.stress (mp.Gs r) k))
      fe := fun n k => runSum rnd (G.fe n k) ((landings nx n mp).map fun r =>
        rnd (rnd (mp.N r * mp.m) * mp.b k)) } := by
  unfold Particle.nodalForcesR at h
  obtain ⟨G1, G2, G3, h0, h1, h2, h3⟩ := for4_ok.1 h
  obtain ⟨n0, e0, h0⟩ := res_bind_ok.1 h0
  obtain ⟨n1, e1, h1⟩ := res_bind_ok.1 h1
  obtain ⟨n2, e2, h2⟩ := res_bind_ok.1 h2
  obtain ⟨n3, e3, h3⟩ := res_bind_ok.1 h3
  obtain ⟨nd, hn, rfl, rfl, rfl, rfl⟩ : ∃ nd : Fin 4 → Fin N, (∀ r, mp.node nx N r = .ok (nd r)) ∧
      nd 0 = n0 ∧ nd 1 = n1 ∧ nd 2 = n2 ∧ nd 3 = n3 := by
    refine ⟨![n0, n1, n2, n3], ?_, rfl, rfl, rfl, rfl⟩
    intro r
    fin_cases r <;> assumption
  refine ⟨nodesOk_iff.2 ⟨_, hn⟩, ?_⟩
  simp only [landings_eq hn, runSum_append]
  cases h0; cases h1; cases h2; cases h3
  congr 1 <;> funext n k <;> simp [addRowR_apply]

/-- C138.  The nodal forces are running sums of the rounded contributions, in the order of the points
and corners. -/
theorem c138_forces_sum {L : List (PhaseSt K ns)} (hL : Counted L) {G G' : Grid K N ns}
    (h : nodalForcesAllR rnd nx L G = .ok G') :
    (∀ mp ∈ points L, NodesOk nx N mp) ∧ G' = { G with
      fi := fun n k => runSum rnd (G.fi n k) ((arrivals nx n L).map fun a =>
        rnd (a.1.2.V * dotR rnd a.1.2.stress (a.1.2.Gs a.2) k))
      fe := fun n k => runSum rnd (G.fe n k) ((arrivals nx n L).map fun a =>
        rnd (rnd (a.1.2.N a.2 * a.1.2.m) * a.1.2.b k)) } := by
  have h' : (items L).foldlM (fun G (x : Phase K ns × Particle K ns) =>
      x.2.nodalForcesR rnd nx G) G = .ok G' := by
    rw [← h]
    exact (foldPhases_foldN (fun _ mp G => mp.nodalForcesR rnd nx G) hL G).symm
  have hp : ∀ mp ∈ points L, ∃ x ∈ items L, x.2 = mp := by
    intro mp hmp
    obtain ⟨a, ha, hm⟩ := List.mem_flatMap.1 hmp
    exact ⟨(a.ph, mp), mem_items.2 ⟨a, ha, rfl, hm⟩, rfl⟩
  suffices key : ∀ (l : List (Phase K ns × Particle K ns)) (G : Grid K N ns),
      l.foldlM (fun G (x : Phase K ns × Particle K ns) => x.2.nodalForcesR rnd nx G) G = .ok G' →
      (∀ x ∈ l, NodesOk nx N x.2) ∧ G' = { G with
        fi := fun n k => runSum rnd (G.fi n k) ((l.flatMap fun x =>
          (landings nx n x.2).map fun r => (x, r)).map fun a =>
            rnd (a.1.2.V * dotR rnd a.1.2.stress (a.1.2.Gs a.2) k))
        fe := fun n k => runSum rnd (G.fe n k) ((l.flatMap fun x =>
          (landings nx n x.2).map fun r => (x, r)).map fun a =>
            rnd (rnd (a.1.2.N a.2 * a.1.2.m) * a.1.2.b k)) } by
    obtain ⟨k1, k2⟩ := key _ _ h'
    refine ⟨fun mp hmp => ?_, k2⟩
    obtain ⟨x, hx, rfl⟩ := hp mp hmp
    exact k1 x hx
  intro l
  induction l with
  | nil =>
    intro G h
    cases h
    exact ⟨by simp, by simp [runSum]⟩
  | cons x l ih =>
    intro G h
    rw [List.foldlM_cons] at h
    obtain ⟨G1, h1, h2⟩ := res_bind_ok.1 h
    obtain ⟨i1, i2⟩ := ih G1 h2
    obtain ⟨p1, p2⟩ := nodalForcesR_ok h1
    refine ⟨List.forall_mem_cons.2 ⟨p1, i1⟩, ?_⟩
    rw [i2, p2]
    simp only [List.flatMap_cons, List.map_append, List.map_map, runSum_append]
    rfl

/-- Three products added up. -/
theorem App.dot (hr : Rounding rnd u) (s : Mat K) (g : Vec K) (k : Fin 3) :
    App u 3 (∑ j, |s k j * g j|) (∑ j, s k j * g j) (dotR rnd s g k) := by
  have h := fun j => (App.exact (u := u) (s k j * g j) le_rfl).round hr
  have h1 := ((h 0).add (h 1)).round hr
  have h2 := (h1.add ((h 2).weaken hr (Nat.le_succ 1) le_rfl)).round hr
  rw [Fin.sum_univ_three, Fin.sum_univ_three]
  exact h2

/-- C138.  The errors of the nodal forces, relative to the sums of the sizes of the contributions. -/
theorem c138_forces (hr : Rounding rnd u) {L : List (PhaseSt K ns)} (hL : Counted L) {G G' : Grid K N ns}
    (h : nodalForcesAllR rnd nx L G = .ok G') (n : Fin N) (k : Fin 3) :
    |G'.fe n k - (G.fe n k + ((arrivals nx n L).map fun a => a.1.2.N a.2 * a.1.2.m * a.1.2.b k).sum)| ≤
      gam u (2 + (arrivals nx n L).length) * (|G.fe n k| +
        ((arrivals nx n L).map fun a => |a.1.2.N a.2 * a.1.2.m * a.1.2.b k|).sum) ∧
    |G'.fi n k - (G.fi n k + ((arrivals nx n L).map fun a =>
        a.1.2.V * ∑ j, a.1.2.stress k j * a.1.2.Gs a.2 j).sum)| ≤
      gam u (4 + (arrivals nx n L).length) * (|G.fi n k| +
        ((arrivals nx n L).map fun a => |a.1.2.V| * ∑ j, |a.1.2.stress k j * a.1.2.Gs a.2 j|).sum) := by
  obtain ⟨-, rfl⟩ := c138_forces_sum hL h
  constructor
  · have ha := (App.exact (u := u) (G.fe n k) le_rfl).weaken hr (Nat.zero_le 2) le_rfl
    refine (App.runSum hr (arrivals nx n L) (fun a _ => ?_) le_rfl ha).err
    have h1 := (App.exact (u := u) (a.1.2.N a.2 * a.1.2.m) le_rfl).round hr
    have h2 := (h1.mul hr (App.exact (a.1.2.b k) le_rfl)).round hr
    rwa [← abs_mul] at h2
  · have ha := (App.exact (u := u) (G.fi n k) le_rfl).weaken hr (Nat.zero_le 4) le_rfl
    refine (App.runSum hr (arrivals nx n L) (fun a _ => ?_) le_rfl ha).err
    exact ((App.exact (u := u) a.1.2.V le_rfl).mul hr (App.dot hr _ _ _)).round hr |>.weaken hr
      (by omega) le_rfl

/-! ## Momentum of the nodes -/

/-- C138.  At a node without boundary the momentum grows by `dt` times the force, up to three
roundings. -/
theorem c138_node (hr : Rounding rnd u) {B : BP K} (hB : B.roughness = false) (hC : B.conveyor = false)
    (dt v_0 : K) (G : Grid K (ny * nx) ns) {i : Fin (ny * nx)} {k : Fin 3}
    (hv : k = 0 → G.boundary_v i = false) (hh : k = 1 → G.boundary_h i = false) :
    |(G.updateMomentumR rnd B false dt v_0).q_dot i k - (G.fe i k - G.fi i k)| ≤
      u * |G.fe i k - G.fi i k| ∧
    |(G.updateMomentumR rnd B false dt v_0).q i k - (G.q i k + dt * (G.fe i k - G.fi i k))| ≤
      gam u 3 * (|G.q i k| + |dt * (G.fe i k - G.fi i k)|) := by
  have e : (G.updateMomentumR rnd B false dt v_0).q_dot i k = rnd (G.fe i k - G.fi i k) := by
    unfold Grid.updateMomentumR
    simp only [hB, Bool.false_eq_true, if_false, Bool.false_and]
    fin_cases k
    · simp [maskOff, hv rfl]
    · simp [maskOff, hh rfl]
    · rfl
  have e' : (G.updateMomentumR rnd B false dt v_0).q i k =
      rnd (G.q i k + rnd (dt * (G.updateMomentumR rnd B false dt v_0).q_dot i k)) := by
    unfold Grid.updateMomentumR
    simp only [hC, Bool.false_eq_true, if_false]
  rw [e', e]
  refine ⟨hr.err _, ?_⟩
  have h1 := (App.exact (u := u) (G.fe i k - G.fi i k) le_rfl).round hr
  have h2 := ((App.exact dt le_rfl).mul hr h1).round hr
  have h3 := ((App.exact (u := u) (G.q i k) le_rfl).weaken hr (Nat.zero_le _) le_rfl |>.add h2).round hr
  rw [← abs_mul] at h3
  exact h3.err

theorem maskOff_true (x : K) : maskOff x true = 0 := by simp [maskOff]

/-- C138.  Rounding does not soften walls: where the momentum across the boundary is zero it stays
zero, exactly. -/
theorem c138_walls (z : rnd 0 = 0) {B : BP K} (damping : Bool) (dt v_0 : K)
    (G : Grid K (ny * nx) ns) (i : Fin (ny * nx)) :
    (G.boundary_v i = true → G.q i 0 = 0 → (B.conveyor = true → G.boundary_conveyor i = false) →
      (G.updateMomentumR rnd B damping dt v_0).q_dot i 0 = 0 ∧
      (G.updateMomentumR rnd B damping dt v_0).q i 0 = 0) ∧
    (G.boundary_h i = true → G.q i 1 = 0 →
      (G.updateMomentumR rnd B damping dt v_0).q_dot i 1 = 0 ∧
      (G.updateMomentumR rnd B damping dt v_0).q i 1 = 0) := by
  constructor
  · intro hb hq hc
    have e : (G.updateMomentumR rnd B damping dt v_0).q_dot i 0 = 0 := by
      unfold Grid.updateMomentumR
      show maskOff _ _ = _
      refine (congrArg (maskOff _) ?_).trans (maskOff_true _)
      split_ifs <;> simp [hb]
    refine ⟨e, ?_⟩
    have e' : (G.updateMomentumR rnd B damping dt v_0).q i 0 =
        rnd (G.q i 0 + rnd (dt * (G.updateMomentumR rnd B damping dt v_0).q_dot i 0)) := by
      unfold Grid.updateMomentumR
      by_cases h : B.conveyor = true
      · simp only [h, if_true, hc h, Bool.false_eq_true, if_false]
      · simp only [h, Bool.false_eq_true, if_false]
    rw [e', e, hq, mul_zero, z, add_zero, z]
  · intro hb hq
    have e : (G.updateMomentumR rnd B damping dt v_0).q_dot i 1 = 0 := by
      unfold Grid.updateMomentumR
      show maskOff _ _ = _
      refine (congrArg (maskOff _) ?_).trans (maskOff_true _)
      split_ifs <;> simp [hb]
    refine ⟨e, ?_⟩
    have e' : (G.updateMomentumR rnd B damping dt v_0).q i 1 =
        rnd (G.q i 1 + rnd (dt * (G.updateMomentumR rnd B damping dt v_0).q_dot i 1)) := by
      unfold Grid.updateMomentumR
      by_cases h : B.conveyor = true
      · by_cases h2 : G.boundary_conveyor i = true
        · simp only [h, h2, if_true]
          rw [Function.update_of_ne (by decide)]
        · simp only [h, h2, if_true, Bool.false_eq_true, if_false]
      · simp only [h, Bool.false_eq_true, if_false]
    rw [e', e, hq, mul_zero, z, add_zero, z]

/-! ## Strains -/

/-- One corner. -/
theorem updateStrainR_corner {M_tol dt : K} {G : Grid K N ns} {r : Fin 4} {mp mp' : Particle K ns}
    {n : Fin N} (hn : mp.node nx N r = .ok n) (h : (do
      let n ← mp.node nx N r
      let v := nodeVelR rnd M_tol G n
      let L : Mat K := fun i j => rnd (v i * mp.Gs r j)
      let L_T : Mat K := fun i j => rnd (mp.Gs r i * v j)
      return { mp with
        LL := fun i j => rnd (rnd (mp.LL i j + L i j) + L_T i j)
        dstrain := fun i j =>
          rnd (mp.dstrain i j + rnd (rnd (1 / 2 * rnd (L i j + L_T i j)) * dt)) } :
        Res (Particle K ns)) = .ok mp') :
    (∃ l d, mp' = { mp with LL := l, dstrain := d }) ∧
    (∀ i j, mp'.dstrain i j = rnd (mp.dstrain i j + rnd (rnd (1 / 2 * rnd (
      rnd (nodeVelR rnd M_tol G n i * mp.Gs r j) + rnd (mp.Gs r i * nodeVelR rnd M_tol G n j))) * dt))) ∧
    ∀ i j, mp'.LL i j = rnd (rnd (mp.LL i j + rnd (nodeVelR rnd M_tol G n i * mp.Gs r j)) +
      rnd (mp.Gs r i * nodeVelR rnd M_tol G n j)) := by
  rw [hn] at h
  cases h
  exact ⟨⟨_, _, rfl⟩, fun i j => rfl, fun i j => rfl⟩

/-- The strain increment as a running sum over the four corners, the velocity gradient as one of eight
terms. -/
theorem updateStrainR_ok {M_tol dt : K} {G : Grid K N ns} {mp mp' : Particle K ns}
    (h : mp.updateStrainR rnd nx M_tol dt G = .ok mp') :
    ∃ nd : Fin 4 → Fin N, (∀ r, mp.node nx N r = .ok (nd r)) ∧
    (∃ l d e, mp' = { mp with LL := l, dstrain := d, strain := e }) ∧
    (∀ i j, mp'.dstrain i j = runSum rnd 0 ((List.finRange 4).map fun r =>
      rnd (rnd (1 / 2 * rnd (rnd (nodeVelR rnd M_tol G (nd r) i * mp.Gs r j) +
        rnd (mp.Gs r i * nodeVelR rnd M_tol G (nd r) j))) * dt))) ∧
    (∀ i j, mp'.strain i j = rnd (mp.strain i j + mp'.dstrain i j)) ∧
    ∀ i j, mp'.LL i j = runSum rnd 0 ((List.finRange 4).flatMap fun r =>
      [rnd (nodeVelR rnd M_tol G (nd r) i * mp.Gs r j),
        rnd (mp.Gs r i * nodeVelR rnd M_tol G (nd r) j)]) := by
  unfold Particle.updateStrainR at h
  obtain ⟨m1, h1, h2⟩ := res_bind_ok.1 h
  obtain ⟨s1, s2, s3, k0, k1, k2, k3⟩ := for4_ok.1 h1
  obtain ⟨n0, e0, -⟩ := res_bind_ok.1 k0
  obtain ⟨⟨x0, v0, p0⟩, a0, l0⟩ := updateStrainR_corner e0 k0
  obtain ⟨n1, e1, -⟩ := res_bind_ok.1 k1
  obtain ⟨⟨x1, v1, p1⟩, a1, l1⟩ := updateStrainR_corner e1 k1
  obtain ⟨n2, e2, -⟩ := res_bind_ok.1 k2
  obtain ⟨⟨x2, v2, p2⟩, a2, l2⟩ := updateStrainR_corner e2 k2
  obtain ⟨n3, e3, -⟩ := res_bind_ok.1 k3
  obtain ⟨⟨x3, v3, p3⟩, a3, l3⟩ := updateStrainR_corner e3 k3
  have q1 : s1.Gs = mp.Gs ∧ s1.n_star = mp.n_star := by rw [p0]; exact ⟨rfl, rfl⟩
  have q2 : s2.Gs = mp.Gs ∧ s2.n_star = mp.n_star := by rw [p1]; exact q1
  have q3 : s3.Gs = mp.Gs ∧ s3.n_star = mp.n_star := by rw [p2]; exact q2
  rw [node_congr q1.2] at e1
  rw [node_congr q2.2] at e2
  rw [node_congr q3.2] at e3
  have e0 : mp.node nx N 0 = .ok n0 := e0
  obtain ⟨nd, hn, rfl, rfl, rfl, rfl⟩ : ∃ nd : Fin 4 → Fin N, (∀ r, mp.node nx N r = .ok (nd r)) ∧
      nd 0 = n0 ∧ nd 1 = n1 ∧ nd 2 = n2 ∧ nd 3 = n3 := by
    refine ⟨![n0, n1, n2, n3], ?_, rfl, rfl, rfl, rfl⟩
    intro r
    fin_cases r <;> assumption
  cases h2
  have hm : ∃ l d, m1 = { mp with LL := l, dstrain := d } := ⟨x3, v3, by rw [p3, p2, p1, p0]⟩
  have e : List.finRange 4 = [0, 1, 2, 3] := by decide
  refine ⟨nd, hn, ?_, fun i j => ?_, fun i j => ?_, fun i j => ?_⟩
  · obtain ⟨l, d, rfl⟩ := hm
    exact ⟨_, _, _, rfl⟩
  · rw [e]
    show m1.dstrain i j = _
    rw [a3, a2, a1, a0, q1.1, q2.1, q3.1]
    rfl
  · have : m1.strain = mp.strain := by obtain ⟨l, d, rfl⟩ := hm; rfl
    show rnd (m1.strain i j + m1.dstrain i j) = _
    rw [this]
  · rw [e]
    show m1.LL i j = _
    rw [l3, l2, l1, l0, q1.1, q2.1, q3.1]
    rfl

/-- C138.  The strain increment is symmetric, exactly. -/
theorem c138_symmetric {M_tol dt : K} {G : Grid K N ns} {mp mp' : Particle K ns}
    (h : mp.updateStrainR rnd nx M_tol dt G = .ok mp') (i j : Fin 3) :
    mp'.dstrain i j = mp'.dstrain j i := by
  obtain ⟨nd, -, -, hd, -⟩ := updateStrainR_ok h
  rw [hd, hd]
  congr 2
  funext r
  rw [mul_comm (mp.Gs r i), mul_comm (mp.Gs r j), add_comm]

/-- Numbers and their sizes at the corners that are not heavy. -/
theorem heavySum_corner {M_tol : K} {G : Grid K N ns} {mp : Particle K ns} {nd : Fin 4 → Fin N}
    (hn : ∀ r, mp.node nx N r = .ok (nd r)) (f : Fin 4 → Fin N → K) :
    ((List.finRange 4).map fun r => if M_tol < G.m (nd r) then f r (nd r) else 0).sum =
      ((heavy nx M_tol G mp).map fun c => f c.1 c.2).sum := by
  have e : List.finRange 4 = [0, 1, 2, 3] := by decide
  rw [heavy_eq hn, e]
  simp only [List.map_append, List.sum_append, List.map_cons, List.map_nil, List.sum_cons, List.sum_nil]
  split_ifs <;> simp [add_assoc]

/-- C138.  The strain increment differs from the exact one by nine roundings. -/
theorem c138_strain (hr : Rounding rnd u) {M_tol dt : K} {G : Grid K N ns} {mp mp' : Particle K ns}
    (h : mp.updateStrainR rnd nx M_tol dt G = .ok mp') (i j : Fin 3) :
    |mp'.dstrain i j - ((heavy nx M_tol G mp).map fun c => 1 / 2 * (G.q c.2 i / G.m c.2 * mp.Gs c.1 j +
        mp.Gs c.1 i * (G.q c.2 j / G.m c.2)) * dt).sum| ≤
      gam u 9 * ((heavy nx M_tol G mp).map fun c => 1 / 2 * (|G.q c.2 i / G.m c.2 * mp.Gs c.1 j| +
        |mp.Gs c.1 i * (G.q c.2 j / G.m c.2)|) * |dt|).sum := by
  obtain ⟨nd, hn, -, hd, -⟩ := updateStrainR_ok h
  rw [hd, ← heavySum_corner hn (fun r n => 1 / 2 * (G.q n i / G.m n * mp.Gs r j +
        mp.Gs r i * (G.q n j / G.m n)) * dt),
    ← heavySum_corner hn (fun r n => 1 / 2 * (|G.q n i / G.m n * mp.Gs r j| +
        |mp.Gs r i * (G.q n j / G.m n)|) * |dt|)]
  have ha : App u 5 0 0 (0 : K) := (App.exact (u := u) 0 (by simp)).weaken hr (Nat.zero_le 5) le_rfl
  have := App.runSum hr (List.finRange 4) (v := fun r => rnd (rnd (1 / 2 * rnd (
      rnd (nodeVelR rnd M_tol G (nd r) i * mp.Gs r j) +
        rnd (mp.Gs r i * nodeVelR rnd M_tol G (nd r) j))) * dt))
    (e := fun r => if M_tol < G.m (nd r) then 1 / 2 * (G.q (nd r) i / G.m (nd r) * mp.Gs r j +
        mp.Gs r i * (G.q (nd r) j / G.m (nd r))) * dt else 0)
    (c := fun r => if M_tol < G.m (nd r) then 1 / 2 * (|G.q (nd r) i / G.m (nd r) * mp.Gs r j| +
        |mp.Gs r i * (G.q (nd r) j / G.m (nd r))|) * |dt| else 0)
    (fun r _ => ?_) le_rfl ha
  · rw [zero_add, zero_add] at this
    exact this.err
  · unfold nodeVelR
    split_ifs with hm
    · have v := fun k => (App.exact (u := u) (G.q (nd r) k / G.m (nd r)) le_rfl).round hr
      have g := fun k => App.exact (u := u) (mp.Gs r k) le_rfl
      have h1 := ((v i).mul hr (g j)).round hr
      have h2 := ((g i).mul hr (v j)).round hr
      have h3 := (h1.add h2).round hr
      have h4 := ((App.exact (1 / 2 : K) le_rfl).mul hr h3).round hr
      have h5 := (h4.mul hr (App.exact dt le_rfl)).round hr
      rw [← abs_mul, ← abs_mul, abs_of_pos (by norm_num : (0 : K) < 1 / 2)] at h5
      exact h5.weaken hr (by omega) le_rfl
    · have : ∀ a : K, rnd (rnd (1 / 2 * rnd (rnd (0 * a) + rnd (a * 0))) * dt) = 0 := by
        intro a; simp [hr.zero]
      simp only [Pi.zero_apply, zero_mul, mul_zero, hr.zero, add_zero]
      exact ha

/-! ## Rest and creep -/

theorem runSum_zeros {a : K} (ha : rnd a = a) {l : List K} (h : ∀ x ∈ l, x = 0) : runSum rnd a l = a := by
  induction l with
  | nil => rfl
  | cons x l ih =>
    show runSum rnd (rnd (a + x)) l = a
    rw [h x List.mem_cons_self, add_zero, ha]
    exact ih fun y hy => h y (List.mem_cons_of_mem _ hy)

/-- C138.  Where the heavy nodes around it are at rest, a point stays where it is, exactly; where no
force acts on them, it keeps its velocity. -/
theorem c138_rest (z : rnd 0 = 0) {M_tol dt : K} {G : Grid K N ns} {mp mp' : Particle K ns}
    {iv iv' : Vec K} (h : mp.moveR rnd nx M_tol dt G iv = .ok (mp', iv')) (k : Fin 3) :
    (rnd (mp.x k) = mp.x k → (∀ c ∈ heavy nx M_tol G mp, G.q c.2 k = 0) → mp'.x k = mp.x k) ∧
    (rnd (mp.v.get iv k) = mp.v.get iv k → (∀ c ∈ heavy nx M_tol G mp, G.q_dot c.2 k = 0) →
      mp'.v.get iv' k = mp.v.get iv k) := by
  obtain ⟨-, -, hx, hv, -⟩ := c138_sum h
  rw [hx, hv]
  constructor
  · intro hf hq
    refine runSum_zeros hf fun y hy => ?_
    obtain ⟨c, hc, rfl⟩ := List.mem_map.1 hy
    simp [hq c hc, z]
  · intro hf hq
    refine runSum_zeros hf fun y hy => ?_
    obtain ⟨c, hc, rfl⟩ := List.mem_map.1 hy
    simp [hq c hc, z]

/-- Different numbers of `p` bits differ by more than the last bit of either. -/
theorem isFloat_gap {p : ℕ} {x y : K} (hx : IsFloat p x) (hy : IsFloat p y) (h : x ≠ y) :
    |x| < |x - y| * (2 ^ p + 1) := by
  have two : ∀ {n m : ℤ} {e f : ℤ}, |n| < 2 ^ p → e ≤ f → (n * 2 ^ e : K) ≠ m * 2 ^ f →
      |(n * 2 ^ e : K)| < |(n * 2 ^ e : K) - m * 2 ^ f| * 2 ^ p := by
    intro n m e f hn hef hne
    obtain ⟨d, rfl⟩ := Int.le.dest hef
    have he := two_zpow_pos (K := K) e
    have e1 : (n * 2 ^ e : K) - m * 2 ^ (e + (d : ℤ)) = ((n - m * 2 ^ d : ℤ) : K) * 2 ^ e := by
      rw [zpow_add₀ (two_ne_zero), zpow_natCast]
      push_cast
      ring
    have h0 : n - m * 2 ^ d ≠ 0 := by
      intro h0
      rw [h0, Int.cast_zero, zero_mul, sub_eq_zero] at e1
      exact hne e1
    have h1 : (1 : K) ≤ |((n - m * 2 ^ d : ℤ) : K)| := by
      rw [← Int.cast_abs]
      exact_mod_cast Int.one_le_abs h0
    have h2 : |(n : K)| < 2 ^ p := by
      rw [← Int.cast_abs]
      exact_mod_cast hn
    rw [e1, abs_mul, abs_mul, abs_of_pos he, mul_right_comm]
    refine mul_lt_mul_of_pos_right ?_ he
    have : (2 : K) ^ p ≤ |((n - m * 2 ^ d : ℤ) : K)| * 2 ^ p :=
      le_mul_of_one_le_left (by positivity) h1
    linarith
  obtain ⟨n, e, hn, rfl⟩ := hx
  obtain ⟨m, f, hm, rfl⟩ := hy
  rcases le_total e f with hef | hef
  · have := two hn hef h
    have := abs_nonneg ((n * 2 ^ e : K) - m * 2 ^ f)
    linarith
  · have h1 := two hm hef h.symm
    rw [abs_sub_comm] at h1
    have h2 := abs_add_le ((n * 2 ^ e : K) - m * 2 ^ f) (m * 2 ^ f)
    rw [sub_add_cancel] at h2
    linarith

/-- An increment too small to matter, of either sign. -/
theorem fl_keep {p : ℕ} (hp : 1 ≤ p) {x d : K} (hx : fl p x = x) (hd : |d| * 2 ^ (p + 2) ≤ |x|) :
    fl p (x + d) = x := by
  have h4 : (4 : K) ≤ 2 ^ (p + 2) := by
    have : (1 : K) ≤ 2 ^ p := one_le_pow₀ (by norm_num)
    rw [pow_add]; linarith
  have hd0 := abs_nonneg d
  by_cases h0 : x = 0
  · subst h0
    have : |d| ≤ 0 := by
      rw [abs_zero] at hd
      by_contra hc
      have := mul_pos (not_le.1 hc) (by positivity : (0 : K) < 2 ^ (p + 2))
      linarith
    have : d = 0 := abs_eq_zero.1 (le_antisymm this hd0)
    rw [this, add_zero, hx]
  have hxp : 0 < |x| := abs_pos.2 h0
  have hlt : |d| * 4 ≤ |x| := (mul_le_mul_of_nonneg_left h4 hd0).trans hd
  have hne : x + d ≠ 0 := by
    intro he
    have : |x| = |d| := by rw [eq_neg_of_add_eq_zero_left he, abs_neg]
    linarith
  have fx : IsFloat p x := hx ▸ c136_float hp x
  by_contra hc
  have g := isFloat_gap fx (c136_float hp (x + d)) (Ne.symm hc)
  have near := (c136_nearest hp hne fx).1
  have e1 : |x - (x + d)| = |d| := by rw [sub_add_cancel_left, abs_neg]
  rw [e1] at near
  have t := abs_sub_le x (x + d) (fl p (x + d))
  rw [e1, abs_sub_comm (x + d)] at t
  have h2 : |x - fl p (x + d)| ≤ 2 * |d| := by linarith
  have hpow : (2 : K) ^ p + 1 ≤ 2 ^ (p + 1) := by
    have : (1 : K) ≤ 2 ^ p := one_le_pow₀ (by norm_num)
    rw [pow_succ]; linarith
  have h3 : |x - fl p (x + d)| * (2 ^ p + 1) ≤ 2 * |d| * 2 ^ (p + 1) :=
    mul_le_mul h2 hpow (by positivity) (by positivity)
  have e3 : 2 * |d| * 2 ^ (p + 1) = |d| * (2 : K) ^ (p + 2) := by ring
  linarith

/-- Three roundings at most double. -/
theorem push_le {p : ℕ} (hp : 3 ≤ p) (a b c d : K) :
    |fl p (fl p (fl p (a * b) * c) / d)| ≤ 2 * |a * b * c / d| := by
  have hr := c136_bits (K := K) (p := p) (by omega)
  have h := (App.push hr a b c d).bound
  refine h.trans (mul_le_mul_of_nonneg_right ?_ (abs_nonneg _))
  have h1 : (1 / 2 ^ p : K) ≤ 1 / 2 ^ 3 :=
    one_div_le_one_div_of_le (by norm_num) (pow_le_pow_right₀ (by norm_num) hp)
  have h2 : (7 / 8 : K) ≤ 1 - 1 / 2 ^ p := by
    have : (1 : K) / 2 ^ 3 = 1 / 8 := by norm_num
    linarith
  have h3 := pow_le_pow_left₀ (by norm_num : (0 : K) ≤ 7 / 8) h2 3
  have h4 := one_div_le_one_div_of_le (by norm_num) h3
  have h5 : (1 : K) / (7 / 8) ^ 3 ≤ 2 := by norm_num
  unfold gam
  linarith

/-- C138.  Slow motion is lost: with `p` bits a point whose heavy nodes move it by less than
`|x|/2^(p+3)` each does not move at all, and one they accelerate by less than `|v|/2^(p+3)` each
keeps its velocity. -/
theorem c138_creep {p : ℕ} (hp : 3 ≤ p) {M_tol dt : K} {G : Grid K N ns} {mp mp' : Particle K ns}
    {iv iv' : Vec K} (h : mp.moveR (fl p) nx M_tol dt G iv = .ok (mp', iv')) (k : Fin 3) :
    (fl p (mp.x k) = mp.x k →
      (∀ c ∈ heavy nx M_tol G mp, |dt * mp.N c.1 * G.q c.2 k / G.m c.2| * 2 ^ (p + 3) ≤ |mp.x k|) →
      mp'.x k = mp.x k) ∧
    (fl p (mp.v.get iv k) = mp.v.get iv k → (∀ c ∈ heavy nx M_tol G mp,
        |dt * mp.N c.1 * G.q_dot c.2 k / G.m c.2| * 2 ^ (p + 3) ≤ |mp.v.get iv k|) →
      mp'.v.get iv' k = mp.v.get iv k) := by
  obtain ⟨-, -, hx, hv, -⟩ := c138_sum h
  have key : ∀ (a : K) (f : Fin N → K) (l : List (Fin 4 × Fin N)), fl p a = a →
      (∀ c ∈ l, |dt * mp.N c.1 * f c.2 / G.m c.2| * 2 ^ (p + 3) ≤ |a|) →
      runSum (fl p) a (l.map fun c => fl p (fl p (fl p (dt * mp.N c.1) * f c.2) / G.m c.2)) = a := by
    intro a f l ha
    induction l with
    | nil => intro _; rfl
    | cons c l ih =>
      intro hl
      show runSum (fl p) (fl p (a + _)) _ = a
      rw [fl_keep (by omega) ha]
      · exact ih fun c hc => hl c (List.mem_cons_of_mem _ hc)
      · refine (mul_le_mul_of_nonneg_right (push_le hp _ _ _ _) (by positivity)).trans ?_
        have := hl c List.mem_cons_self
        rw [show (2 : K) ^ (p + 3) = 2 * 2 ^ (p + 2) by ring] at this
        linarith
  rw [hx, hv]
  exact ⟨fun ha hl => key _ (fun n => G.q n k) _ ha hl, fun ha hl => key _ (fun n => G.q_dot n k) _ ha hl⟩

/-! ## Total momentum -/

/-- How `movePointsR` treats a phase. -/
theorem movePointsR_own {M_tol dt : K} {w : Vec K} {G : Grid K N ns} {L L' : List (PhaseSt K ns)}
    (hL : Counted L) (hr : NoRigid L) (ho : OwnVel L)
    (h : movePointsR rnd nx M_tol dt w G L = .ok L') :
    PtsRel (fun ph mp mp' => mp.moveR rnd nx M_tol dt G ph.iv = .ok (mp', ph.iv) ∧
      ∃ v, mp'.v = .own v) L L' := by
  refine mapPhases_forall₂ ?_ h
  intro p a ha a' h
  rw [if_neg (hr a ha)] at h
  obtain ⟨⟨pts, iv'⟩, h1, h2⟩ := res_bind_ok.1 h
  cases h2
  rw [hL a ha] at h1
  have ho' : ∀ mp ∈ a.pts, ∃ v, mp.v = .own v := fun mp hmp =>
    ho mp (List.mem_flatMap.2 ⟨a, ha, hmp⟩)
  have key : ∀ (l l' : List (Particle K ns)) (iv iv' : Vec K), (∀ mp ∈ l, ∃ v, mp.v = .own v) →
      forN (fun mp iv => mp.moveR rnd nx M_tol dt G iv) l.length l iv = .ok (l', iv') →
      iv' = iv ∧ List.Forall₂ (fun mp mp' => mp.moveR rnd nx M_tol dt G iv = .ok (mp', iv) ∧
        ∃ v, mp'.v = .own v) l l' := by
    intro l
    induction l with
    | nil => intro l' iv iv' _ h; cases h; exact ⟨rfl, .nil⟩
    | cons mp l ih =>
      intro l' iv iv' ho h
      obtain ⟨mp', iv1, t, h1, h2, rfl⟩ := forN_cons_ok.1 h
      obtain ⟨-, -, -, -, e⟩ := c138_sum h1
      obtain ⟨e1, rfl⟩ := e (ho mp List.mem_cons_self)
      obtain ⟨e2, ht⟩ := ih _ _ _ (fun b hb => ho b (List.mem_cons_of_mem _ hb)) h2
      exact ⟨e2, .cons ⟨h1, e1⟩ ht⟩
  obtain ⟨rfl, h2⟩ := key _ _ _ _ ho' h1
  exact ⟨rfl, h2⟩

/-- Lower bound for sums of nonnegative numbers. -/
theorem runSum_lower (hr : Rounding rnd u) {j : ℕ} (hj : 1 ≤ j) {X a : K} (hX : 0 ≤ X)
    (ha : (1 - u) ^ j * X ≤ a) {l : List K} (hl : ∀ e ∈ l, 0 ≤ e) :
    (1 - u) ^ (j + l.length) * (X + l.sum) ≤ runSum rnd a (l.map rnd) := by
  have hp := hr.lt_one
  have h1 : 1 - u ≤ 1 := by linarith [hr.nonneg]
  induction l generalizing j X a with
  | nil => simpa [runSum] using ha
  | cons e l ih =>
    have he := hl e List.mem_cons_self
    have h2 : (1 - u) * e ≤ rnd e := by linarith [(hr.lower he).1]
    have h3 : 0 ≤ (1 - u) ^ j * X := mul_nonneg (pow_nonneg hp.le _) hX
    have h4 : (1 - u) ^ j ≤ 1 - u := by
      simpa using pow_le_pow_of_le_one hp.le h1 hj
    have h5 := mul_le_mul_of_nonneg_right h4 he
    have h6 : 0 ≤ (1 - u) * e := mul_nonneg hp.le he
    have h7 : (1 - u) * (a + rnd e) ≤ rnd (a + rnd e) := by
      linarith [(hr.lower (x := a + rnd e) (by linarith)).1]
    have := ih (j := j + 1) (X := X + e) (a := rnd (a + rnd e)) (by omega) (by linarith) (by
      refine le_trans ?_ h7
      rw [pow_succ, mul_comm _ (1 - u), mul_assoc]
      refine mul_le_mul_of_nonneg_left ?_ hp.le
      rw [mul_add]
      linarith) fun x hx => hl x (List.mem_cons_of_mem _ hx)
    rw [List.sum_cons, List.length_cons, ← add_assoc X, show j + (l.length + 1) = j + 1 + l.length by omega]
    exact this

/-- The mass of a node, from nonnegative contributions, against its exact value. -/
theorem mass_ratio (hr : Rounding rnd u) {l : List K} (hl : ∀ e ∈ l, 0 ≤ e) {h : ℕ} (hh : l.length ≤ h)
    (hm : 0 < runSum rnd 0 (l.map rnd)) : |l.sum / runSum rnd 0 (l.map rnd) - 1| ≤ gam u (1 + h) := by
  set m := runSum rnd 0 (l.map rnd) with hmd
  have hp := hr.lt_one
  have hpk := pow_pos hp (1 + l.length)
  have lo : (1 - u) ^ (1 + l.length) * l.sum ≤ m := by
    have := runSum_lower hr (j := 1) le_rfl (X := 0) (a := 0) le_rfl (by simp) hl
    rwa [zero_add] at this
  have up : m ≤ (1 + gam u (1 + l.length)) * l.sum := by
    have ha : App u 1 0 0 (0 : K) := (App.exact (u := u) 0 (by simp)).weaken hr (Nat.zero_le 1) le_rfl
    have h1 := App.runSum hr l (v := rnd) (e := id) (c := id) (k := 1)
      (fun e he => ((App.exact (u := u) e (abs_of_nonneg (hl e he)).le).round hr)) le_rfl ha
    have h2 := h1.bound
    rw [zero_add, List.map_id] at h2
    exact (le_abs_self _).trans h2
  refine le_trans ?_ (gam_mono hr.nonneg hp (by omega : 1 + l.length ≤ 1 + h))
  have g : 1 + gam u (1 + l.length) = 1 / (1 - u) ^ (1 + l.length) := by unfold gam; ring
  rw [g, one_div_mul_eq_div, le_div_iff₀ hpk] at up
  set t := (1 - u) ^ (1 + l.length) with ht
  have r1 : l.sum / m ≤ 1 / t := by
    rw [div_le_div_iff₀ hm hpk]; linarith
  have r2 : t ≤ l.sum / m := by
    rw [le_div_iff₀ hm]; linarith
  have r3 : 2 - t ≤ 1 / t := by
    rw [le_div_iff₀ hpk]; nlinarith [sq_nonneg (t - 1)]
  rw [abs_le]
  unfold gam
  rw [← ht]
  constructor <;> linarith

/-- Sums over the heavy corners of a point, by nodes. -/
theorem heavy_nodes {M_tol : K} {G : Grid K N ns} {mp : Particle K ns} (h : NodesOk nx N mp)
    (f : Fin 4 → Fin N → K) : ((heavy nx M_tol G mp).map fun c => f c.1 c.2).sum =
      ∑ n, if M_tol < G.m n then ((landings nx n mp).map fun r => f r n).sum else 0 := by
  obtain ⟨nd, hnd⟩ := nodesOk_iff.1 h
  rw [← heavySum_corner hnd]
  have e : ∀ n, (if M_tol < G.m n then ((landings nx n mp).map fun r => f r n).sum else 0) =
      ∑ r, if nd r = n then (if M_tol < G.m n then f r n else 0) else 0 := by
    intro n
    rw [landings_eq hnd, Fin.sum_univ_four]
    simp only [List.sum_append]
    split_ifs <;> simp
  simp only [e]
  rw [Finset.sum_comm]
  simp only [Finset.sum_ite_eq, Finset.mem_univ, if_true]
  rw [Fin.sum_univ_def]

theorem heavy_total {M_tol : K} {G : Grid K N ns} {L : List (PhaseSt K ns)}
    (h : ∀ mp ∈ points L, NodesOk nx N mp) (f : Particle K ns → Fin 4 → Fin N → K) :
    ((items L).map fun x => ((heavy nx M_tol G x.2).map fun c => f x.2 c.1 c.2).sum).sum =
      ∑ n, if M_tol < G.m n then ((arrivals nx n L).map fun a => f a.1.2 a.2 n).sum else 0 := by
  unfold arrivals
  have h' : ∀ x ∈ items L, NodesOk nx N x.2 := fun x hx => h _ (mem_points_items hx)
  clear h
  generalize items L = l at h' ⊢
  induction l with
  | nil => simp
  | cons x l ih =>
    simp only [List.flatMap_cons, List.map_append, List.sum_append, List.map_cons, List.sum_cons]
    rw [ih fun y hy => h' y (List.mem_cons_of_mem _ hy), heavy_nodes (h' x List.mem_cons_self),
      ← Finset.sum_add_distrib]
    refine Finset.sum_congr rfl fun n _ => ?_
    split_ifs
    · rw [List.map_map]; rfl
    · rw [add_zero]

theorem forall₂_sum_err {α β : Type} {R : α → β → Prop} {l : List α} {l' : List β}
    (h : List.Forall₂ R l l') {f : β → K} {g c : α → K} (hR : ∀ a b, R a b → |f b - g a| ≤ c a) :
    |(l'.map f).sum - (l.map g).sum| ≤ (l.map c).sum := by
  induction h with
  | nil => simp
  | cons h _ ih =>
    simp only [List.map_cons, List.sum_cons]
    have := hR _ _ h
    refine le_trans ?_ (add_le_add this ih)
    rw [add_sub_add_comm]
    exact abs_add_le _ _

/-- Momentum as a sum over the points. -/
theorem totalMomentum_items (M : List (PhaseSt K ns)) (k : Fin 3) : totalMomentum M k =
    ((items M).map fun x => x.2.m * x.2.v.get x.1.iv k).sum := by
  rw [← items_momentum]
  induction items M with
  | nil => rfl
  | cons x l ih => simp only [List.map_cons, List.sum_cons, Pi.add_apply, ih, Pi.smul_apply, smul_eq_mul]

/-- The change of momentum, from the masses of the nodes. -/
theorem total_of_masses (hr : Rounding rnd u) {M_tol dt : K} (hM : 0 ≤ M_tol) {w : Vec K}
    {L L' : List (PhaseSt K ns)} (hL : Counted L) (hnr : NoRigid L) (ho : OwnVel L)
    (hm : ∀ mp ∈ points L, 0 ≤ mp.m ∧ ∀ r, 0 ≤ mp.N r) {G : Grid K N ns}
    (nodes : ∀ mp ∈ points L, NodesOk nx N mp)
    (hG : ∀ n, G.m n = runSum rnd 0 ((arrivals nx n L).map fun a => rnd (a.1.2.N a.2 * a.1.2.m)))
    (h : movePointsR rnd nx M_tol dt w G L = .ok L')
    {c : ℕ} (hc : ∀ n : Fin N, (arrivals nx n L).length ≤ c) (k : Fin 3) :
    |totalMomentum L' k - (totalMomentum L k + dt * ∑ n, if M_tol < G.m n then G.q_dot n k else 0)| ≤
      gam u (8 + c) * (((items L).map fun x => |x.2.m * x.2.v.get x.1.iv k|).sum +
        |dt| * ∑ n, if M_tol < G.m n then |G.q_dot n k| else 0) := by
  have hrel := (movePointsR_own hL hnr ho h).items
  have mom := fun M : List (PhaseSt K ns) => totalMomentum_items M k
  have hp := hr.lt_one
  have g0 := hr.nonneg
  -- one point
  have err := forall₂_sum_err hrel (f := fun y => y.2.m * y.2.v.get y.1.iv k)
    (g := fun x => x.2.m * x.2.v.get x.1.iv k + ((heavy nx M_tol G x.2).map fun c =>
      x.2.m * (dt * x.2.N c.1 * G.q_dot c.2 k / G.m c.2)).sum)
    (c := fun x => gam u 7 * (|x.2.m * x.2.v.get x.1.iv k| + ((heavy nx M_tol G x.2).map fun c =>
      |x.2.m * (dt * x.2.N c.1 * G.q_dot c.2 k / G.m c.2)|).sum)) (by
    rintro ⟨ph, mp⟩ ⟨ph', mp'⟩ ⟨e0, hmv, -⟩
    obtain rfl : ph' = ph := e0
    have b := (c138_move hr hmv k).2
    obtain ⟨-, ⟨_, _, _, e⟩, -⟩ := c138_sum hmv
    replace e : mp' = _ := e
    have em : mp'.m = mp.m := by rw [e]
    dsimp only at b ⊢
    rw [em, List.sum_map_mul_left, ← mul_add, ← mul_sub, abs_mul]
    refine (mul_le_mul_of_nonneg_left b (abs_nonneg _)).trans (le_of_eq ?_)
    simp only [abs_mul mp.m, List.sum_map_mul_left]
    ring)
  rw [← mom] at err
  -- by nodes
  have tot : ∀ (φ : K → K), ((items L).map fun x => ((heavy nx M_tol G x.2).map fun c =>
      φ (x.2.m * (dt * x.2.N c.1 * G.q_dot c.2 k / G.m c.2))).sum).sum = ∑ n, if M_tol < G.m n then
        ((arrivals nx n L).map fun a => φ (a.1.2.m * (dt * a.1.2.N a.2 * G.q_dot n k / G.m n))).sum
        else 0 := fun φ => heavy_total nodes
          (fun mp r n => φ (mp.m * (dt * mp.N r * G.q_dot n k / G.m n)))
  -- the masses
  have mass : ∀ n, M_tol < G.m n → 0 < G.m n ∧
      |((arrivals nx n L).map fun a => a.1.2.N a.2 * a.1.2.m).sum / G.m n - 1| ≤ gam u (1 + c) ∧
      0 ≤ ((arrivals nx n L).map fun a => a.1.2.N a.2 * a.1.2.m).sum := by
    intro n hn
    have pos : 0 < G.m n := lt_of_le_of_lt hM hn
    have nn : ∀ e ∈ (arrivals nx n L).map fun a => a.1.2.N a.2 * a.1.2.m, 0 ≤ e := by
      intro e he
      obtain ⟨a, ha, rfl⟩ := List.mem_map.1 he
      have := hm _ (mem_arrivals ha)
      exact mul_nonneg (this.2 _) this.1
    have e : G.m n = runSum rnd 0 (((arrivals nx n L).map fun a => a.1.2.N a.2 * a.1.2.m).map rnd) := by
      rw [hG, List.map_map]; rfl
    refine ⟨pos, ?_, List.sum_nonneg nn⟩
    rw [e] at pos ⊢
    exact mass_ratio hr nn (by rw [List.length_map]; exact hc n) pos
  have pull : ∀ n, M_tol < G.m n → ((arrivals nx n L).map fun a =>
      a.1.2.m * (dt * a.1.2.N a.2 * G.q_dot n k / G.m n)).sum = dt * G.q_dot n k *
        (((arrivals nx n L).map fun a => a.1.2.N a.2 * a.1.2.m).sum / G.m n) := by
    intro n _
    rw [div_eq_mul_inv, ← List.sum_map_mul_right, ← List.sum_map_mul_left]
    congr 1
    refine List.map_congr_left fun a _ => ?_
    ring
  have pullAbs : ∀ n, M_tol < G.m n → ((arrivals nx n L).map fun a =>
      |a.1.2.m * (dt * a.1.2.N a.2 * G.q_dot n k / G.m n)|).sum = |dt| * |G.q_dot n k| *
        (((arrivals nx n L).map fun a => a.1.2.N a.2 * a.1.2.m).sum / G.m n) := by
    intro n hn
    rw [div_eq_mul_inv, ← List.sum_map_mul_right, ← List.sum_map_mul_left]
    congr 1
    refine List.map_congr_left fun a ha => ?_
    have := hm _ (mem_arrivals ha)
    rw [abs_mul, abs_div, abs_mul, abs_mul, abs_of_nonneg this.1, abs_of_nonneg (this.2 _),
      abs_of_pos (mass n hn).1]
    ring
  have pl : ∀ (r : K) (f : Phase K ns × Particle K ns → K),
      ((items L).map fun x => r * f x).sum = r * ((items L).map f).sum := fun r f =>
    List.sum_map_mul_left ..
  simp only [pl, List.sum_map_add] at err
  have t1 := tot id
  simp only [id] at t1
  rw [← mom, t1, tot abs] at err
  set g := gam u (1 + c) with hg
  have hg0 : 0 ≤ g := gam_nonneg g0 hp _
  set A := ((items L).map fun x => |x.2.m * x.2.v.get x.1.iv k|).sum with hA
  have hA0 : 0 ≤ A := List.sum_nonneg (by
    intro e he
    obtain ⟨x, -, rfl⟩ := List.mem_map.1 he
    exact abs_nonneg _)
  set B := |dt| * ∑ n, (if M_tol < G.m n then |G.q_dot n k| else 0) with hB
  have i1 : |(∑ n, if M_tol < G.m n then ((arrivals nx n L).map fun a =>
      a.1.2.m * (dt * a.1.2.N a.2 * G.q_dot n k / G.m n)).sum else 0) -
      dt * ∑ n, (if M_tol < G.m n then G.q_dot n k else 0)| ≤ g * B := by
    rw [hB, Finset.mul_sum, ← Finset.sum_sub_distrib, Finset.mul_sum, Finset.mul_sum]
    refine (Finset.abs_sum_le_sum_abs _ _).trans (Finset.sum_le_sum fun n _ => ?_)
    by_cases hn : M_tol < G.m n
    · simp only [hn, if_true]
      rw [pull n hn, ← mul_sub_one, abs_mul, abs_mul]
      have := mul_le_mul_of_nonneg_left (mass n hn).2.1
        (mul_nonneg (abs_nonneg dt) (abs_nonneg (G.q_dot n k)))
      linarith
    · simp [hn]
  have i2 : (∑ n, if M_tol < G.m n then ((arrivals nx n L).map fun a =>
      |a.1.2.m * (dt * a.1.2.N a.2 * G.q_dot n k / G.m n)|).sum else 0) ≤ (1 + g) * B := by
    rw [hB, Finset.mul_sum, Finset.mul_sum]
    refine Finset.sum_le_sum fun n _ => ?_
    by_cases hn : M_tol < G.m n
    · simp only [hn, if_true]
      rw [pullAbs n hn, mul_comm (1 + g)]
      refine mul_le_mul_of_nonneg_left ?_ (mul_nonneg (abs_nonneg dt) (abs_nonneg (G.q_dot n k)))
      have := (abs_le.1 (mass n hn).2.1).2
      linarith
    · simp [hn]
  have ge : gam u 7 + g + gam u 7 * g = gam u (8 + c) := by
    rw [hg, gam_add hp, show 8 + c = 7 + (1 + c) by ring]
  have h7 := gam_nonneg g0 hp 7
  rw [← ge]
  have i3 := mul_le_mul_of_nonneg_left i2 h7
  have i4 := mul_nonneg hg0 hA0
  have i5 := mul_nonneg (mul_nonneg h7 hg0) hA0
  have e1 := abs_le.1 err
  have e2 := abs_le.1 i1
  rw [abs_le]
  constructor <;> linarith [e1.1, e1.2, e2.1, e2.2]

/-- C138.  The momentum of all points changes by `dt` times the forces on the heavy nodes, up to
roundings: eight for each point and one for each contribution to a node. -/
theorem c138_total (hr : Rounding rnd u) {seg : Bool} {M_tol dt : K} (hM : 0 ≤ M_tol) {w : Vec K}
    {L L' : List (PhaseSt K ns)} (hL : Counted L) (hnr : NoRigid L) (ho : OwnVel L)
    (hm : ∀ mp ∈ points L, 0 ≤ mp.m ∧ ∀ r, 0 ≤ mp.N r) {G₀ H G : Grid K N ns} (h0 : ∀ n, G₀.m n = 0)
    (hH : p2gAllR rnd nx seg L G₀ = .ok H) (hG : G.m = H.m)
    (h : movePointsR rnd nx M_tol dt w G L = .ok L')
    {c : ℕ} (hc : ∀ n : Fin N, (arrivals nx n L).length ≤ c) (k : Fin 3) :
    |totalMomentum L' k - (totalMomentum L k + dt * ∑ n, if M_tol < G.m n then G.q_dot n k else 0)| ≤
      gam u (8 + c) * (((items L).map fun x => |x.2.m * x.2.v.get x.1.iv k|).sum +
        |dt| * ∑ n, if M_tol < G.m n then |G.q_dot n k| else 0) := by
  obtain ⟨nodes, sums⟩ := c137_sum hL hH
  refine total_of_masses hr hM hL hnr ho hm nodes (fun n => ?_) h hc k
  rw [hG, (sums n).1, h0]

end

/-! ## Examples in double precision -/

/-- The mapping of one point, the strain, the forces, the momentum and the motion. -/
structure Ex.Stages where
  G₀ : Grid ℚ Ex.unit4.N 2
  M : List (PhaseSt ℚ 2)
  H : Grid ℚ Ex.unit4.N 2
  S : List (PhaseSt ℚ 2)
  F : Grid ℚ Ex.unit4.N 2
  M' : List (PhaseSt ℚ 2)

/-- The grid after the momentum update; unit volumes at the nodes. -/
def Ex.pushed (F : Grid ℚ Ex.unit4.N 2) : Grid ℚ Ex.unit4.N 2 :=
  { F.updateMomentumR (nx := 4) (ny := 3) (fl 53) Ex.bp false (1/10) 0 with V := fun _ => 1 }

def Ex.stages (x y : ℚ) : Res Ex.Stages := do
  let G₀ ← mkGridR (fl 53) Ex.unit4 Ex.bp
  let L ← getReferenceNodesR (fl 53) Ex.unit4 G₀ (Ex.single x y)
  let M ← getBasisFunctionsR (fl 53) G₀ L
  let H ← p2gAllR (fl 53) 4 false M G₀
  let S ← mapPoints (fun _ _ mp => mp.updateStrainR (fl 53) 4 (1/1000) (1/10) H) M
  let F ← nodalForcesAllR (fl 53) 4 M H
  let M' ← movePointsR (fl 53) 4 (1/1000) (1/10) 0 (Ex.pushed F) M
  return { G₀, M, H, S, F, M' }

def Ex.stagesCheck (x y : ℚ) (check : Ex.Stages → Bool) : Bool :=
  match Ex.stages x y with
  | .ok r => check r
  | .error _ => false

theorem Ex.stagesCheck_ok {x y : ℚ} {check : Ex.Stages → Bool} (h : Ex.stagesCheck x y check = true) :
    ∃ r : Ex.Stages, Counted r.M ∧ p2gAllR (fl 53) 4 false r.M r.G₀ = .ok r.H ∧
      mapPoints (fun _ _ mp => mp.updateStrainR (fl 53) 4 (1/1000) (1/10) r.H) r.M = .ok r.S ∧
      nodalForcesAllR (fl 53) 4 r.M r.H = .ok r.F ∧
      movePointsR (fl 53) 4 (1/1000) (1/10) 0 (Ex.pushed r.F) r.M = .ok r.M' ∧ check r = true := by
  unfold Ex.stagesCheck at h
  split at h
  · rename_i r hr
    obtain ⟨G₀, -, hr⟩ := res_bind_ok.1 hr
    obtain ⟨L, h1, hr⟩ := res_bind_ok.1 hr
    obtain ⟨M, h2, hr⟩ := res_bind_ok.1 hr
    obtain ⟨H, h3, hr⟩ := res_bind_ok.1 hr
    obtain ⟨S, h4, hr⟩ := res_bind_ok.1 hr
    obtain ⟨F, h5, hr⟩ := res_bind_ok.1 hr
    obtain ⟨M', h6, hr⟩ := res_bind_ok.1 hr
    cases hr
    have c0 := Ex.single_counted x y
    have c1 := (mapPoints_raw c0 h1).counted c0
    exact ⟨⟨G₀, M, H, S, F, M'⟩, (mapPoints_raw c1 h2).counted c1, h3, h4, h5, h6, h⟩
  · cases h

/-- C138.  Not the exact momentum, but close to it. -/
example : ∃ r : Ex.Stages, movePointsR (fl 53) 4 (1/1000) (1/10) 0 (Ex.pushed r.F) r.M = .ok r.M' ∧
    totalMomentum r.M' 1 ≠ totalMomentum r.M 1 +
      1/10 * ∑ n, (if 1/1000 < (Ex.pushed r.F).m n then (Ex.pushed r.F).q_dot n 1 else 0) ∧
    |totalMomentum r.M' 1 - (totalMomentum r.M 1 +
      1/10 * ∑ n, if 1/1000 < (Ex.pushed r.F).m n then (Ex.pushed r.F).q_dot n 1 else 0)| ≤
      1 / 10 ^ 13 := by
  obtain ⟨r, hc, h1, -, h2, h3, h⟩ := Ex.stagesCheck_ok (x := 2/5) (y := 1/7) (check := fun r =>
    (decide (∀ n : Fin 12, (arrivals 4 n r.M).length ≤ 1) && decide (∀ n, r.G₀.m n = 0)) &&
    ((r.M.all fun a => decide (a.ph.law ≠ .rigid)) && ((points r.M).all fun mp =>
      (match mp.v with | .own _ => true | .shared => false) && decide (0 ≤ mp.m) &&
        decide (∀ r, 0 ≤ mp.N r))) &&
    (decide (totalMomentum r.M' 1 ≠ totalMomentum r.M 1 +
      1/10 * ∑ n, (if 1/1000 < (Ex.pushed r.F).m n then (Ex.pushed r.F).q_dot n 1 else 0)) &&
    decide (((items r.M).map fun x => |x.2.m * x.2.v.get x.1.iv 1|).sum +
        |(1/10 : ℚ)| * ∑ n, (if 1/1000 < (Ex.pushed r.F).m n then |(Ex.pushed r.F).q_dot n 1| else 0) ≤
        50))) (by decide +kernel)
  simp only [Bool.and_eq_true] at h
  obtain ⟨⟨⟨d1, d2⟩, d3, d4⟩, d5, d6⟩ := h
  have d4' := fun mp hmp => List.all_eq_true.1 d4 mp hmp
  have d6' := of_decide_eq_true d6
  refine ⟨r, h3, of_decide_eq_true d5, (c138_total (c136_bits (p := 53) (by norm_num)) (by norm_num) hc
    ?_ ?_ ?_ (of_decide_eq_true d2) h1 ?_ h3 (of_decide_eq_true d1) 1).trans
    ((mul_le_mul_of_nonneg_left d6' (by norm_num [gam])).trans (by norm_num [gam]))⟩
  · exact fun a ha => of_decide_eq_true (List.all_eq_true.1 d3 a ha)
  · intro mp hmp
    have := (Bool.and_eq_true_iff.1 (Bool.and_eq_true_iff.1 (d4' mp hmp)).1).1
    split at this
    · exact ⟨_, by assumption⟩
    · cases this
  · intro mp hmp
    have := Bool.and_eq_true_iff.1 (d4' mp hmp)
    exact ⟨of_decide_eq_true (Bool.and_eq_true_iff.1 this.1).2, of_decide_eq_true this.2⟩
  · have e := (c138_forces_sum hc h2).2
    show r.F.m = r.H.m
    rw [e]

/-- C138.  The forces that the point leaves on the grid: not exact, but close. -/
example : ∃ r : Ex.Stages, nodalForcesAllR (fl 53) 4 r.M r.H = .ok r.F ∧
    (∑ n, r.F.fe n 1 ≠ -30 ∧ |∑ n, r.F.fi n 0| ≠ 0) ∧
    ∀ n, |r.F.fe n 1 - ((arrivals 4 n r.M).map fun a => a.1.2.N a.2 * a.1.2.m * a.1.2.b 1).sum| ≤
      1 / 10 ^ 14 := by
  obtain ⟨r, hc, -, -, h2, -, h⟩ := Ex.stagesCheck_ok (x := 2/5) (y := 1/7) (check := fun r =>
    (decide (∑ n, r.F.fe n 1 ≠ -30) && decide (|∑ n, r.F.fi n 0| ≠ 0)) &&
    (decide (∀ n : Fin 12, (arrivals 4 n r.M).length ≤ 1) && decide (∀ n, r.H.fe n 1 = 0)) &&
    decide (∀ n : Fin 12, ((arrivals 4 n r.M).map fun a => |a.1.2.N a.2 * a.1.2.m * a.1.2.b 1|).sum ≤
      20)) (by decide +kernel)
  simp only [Bool.and_eq_true, decide_eq_true_eq] at h
  obtain ⟨⟨d1, d2, d3⟩, d4⟩ := h
  refine ⟨r, h2, d1, fun n => ?_⟩
  have hr := c136_bits (K := ℚ) (p := 53) (by norm_num)
  have := (c138_forces hr hc h2 n 1).1
  rw [d3 n, zero_add, abs_zero, zero_add] at this
  refine this.trans ((mul_le_mul (gam_mono hr.nonneg hr.lt_one (Nat.add_le_add_left (d2 n) 2)) (d4 n)
    (List.sum_nonneg ?_) (gam_nonneg hr.nonneg hr.lt_one _)).trans (by norm_num [gam]))
  intro e he
  obtain ⟨x, -, rfl⟩ := List.mem_map.1 he
  exact abs_nonneg _

/-- C138.  The accumulated velocity gradient `L + L_T`, unlike the strain increment, is not
symmetric. -/
theorem c138_gradient : ∃ mp mp' : Particle ℚ 2, ∃ G : Grid ℚ Ex.unit4.N 2,
    mp.updateStrainR (fl 53) 4 (1/1000) (1/10) G = .ok mp' ∧ mp'.LL 0 1 ≠ mp'.LL 1 0 ∧
      mp'.dstrain 0 1 = mp'.dstrain 1 0 ∧ mp'.dstrain 0 1 ≠ 0 := by
  obtain ⟨r, hc, -, h1, -, -, h⟩ := Ex.stagesCheck_ok (x := 2/5) (y := 1/7) (check := fun r =>
    decide ((items r.S).length ≠ 0) &&
      (items r.S).all fun y => decide (y.2.LL 0 1 ≠ y.2.LL 1 0) && decide (y.2.dstrain 0 1 ≠ 0))
    (by decide +kernel)
  obtain ⟨d1, d2⟩ := Bool.and_eq_true_iff.1 h
  have rel := (mapPoints_raw hc h1).items
  rcases e : items r.S with _ | ⟨y, l⟩
  · rw [e] at d1
    exact absurd rfl (of_decide_eq_true d1)
  · rw [e] at rel d2
    obtain ⟨x, l', hx, -, -⟩ := List.forall₂_cons_right_iff.1 rel
    have d3 := Bool.and_eq_true_iff.1 (List.all_eq_true.1 d2 y List.mem_cons_self)
    obtain ⟨-, _, hx⟩ := hx
    exact ⟨x.2, y.2, r.H, hx, of_decide_eq_true d3.1, c138_symmetric hx 0 1, of_decide_eq_true d3.2⟩

/-- A grid with the mass 1, the momentum `q` and the force `f` at every node. -/
def Ex.even (q f : Vec ℚ) (wall : Bool) : Grid ℚ (3 * 4) 2 :=
  { dx := 1/3, dy := 1/2, X := fun _ => 0, Y := fun _ => 0, boundary_v := fun _ => wall
    boundary_h := fun _ => wall, boundary_tot := fun _ => wall, boundary_conveyor := fun _ => false
    V := fun _ => 1, fi := 0, fe := fun _ => f, m := fun _ => 1, q := fun _ => q, q_dot := fun _ => f
    ext_f := 0, vis := fun _ _ => .fin 0, s_bar := 0, dphi := 0, pk := fun _ => .fin 0, dpk := 0
    pkm := 0, grad_pk := 0, phim := 0, phi := 0 }

/-- A point of unit velocity in the middle of a cell. -/
def Ex.amid : Particle ℚ 2 :=
  { Ex.mp with x := ![1/2, 1/4, 0], v := .own ![1, 1, 0], N := fun _ => 1/4, n_star := 1 }

theorem Ex.amid_moves {dt : ℚ} {q f : Vec ℚ}
    (h : (match Ex.amid.moveR (fl 53) 4 (1/1000) dt (Ex.even q f false) 0 with
      | .ok (_, iv) => decide (iv = 0)
      | .error _ => false) = true) : ∃ mp' : Particle ℚ 2,
    Ex.amid.moveR (fl 53) 4 (1/1000) dt (Ex.even q f false) 0 = .ok (mp', 0) := by
  split at h
  · rename_i mp' iv e
    rw [of_decide_eq_true h] at e
    exact ⟨mp', e⟩
  · cases h

/-- C138.  A point that should fall by `10^-17` and gain a speed of `-10^-17` stays where it is and
keeps its speed. -/
example : ∃ mp' : Particle ℚ 2, Ex.amid.moveR (fl 53) 4 (1/1000) (1 / 10 ^ 17)
      (Ex.even ![0, -1, 0] ![0, -1, 0] false) 0 = .ok (mp', 0) ∧
    mp'.x 1 = Ex.amid.x 1 ∧ mp'.v.get 0 1 = 1 := by
  obtain ⟨mp', h⟩ := Ex.amid_moves (dt := 1 / 10 ^ 17) (q := ![0, -1, 0]) (f := ![0, -1, 0])
    (by decide +kernel)
  refine ⟨mp', h, (c138_creep (by norm_num) h 1).1 (by decide +kernel) (by decide +kernel),
    (c138_creep (by norm_num) h 1).2 (by decide +kernel) (by decide +kernel)⟩

/-- C138.  With a hundred times the time step it moves. -/
example : ∃ mp' : Particle ℚ 2, Ex.amid.moveR (fl 53) 4 (1/1000) (1 / 10 ^ 15)
      (Ex.even ![0, -1, 0] ![0, -1, 0] false) 0 = .ok (mp', 0) ∧ mp'.x 1 < Ex.amid.x 1 ∧
    mp'.x 0 = Ex.amid.x 0 := by
  obtain ⟨mp', h⟩ := Ex.amid_moves (dt := 1 / 10 ^ 15) (q := ![0, -1, 0]) (f := ![0, -1, 0])
    (by decide +kernel)
  refine ⟨mp', h, ?_, (c138_rest (fl_zero _) h 0).1 (by decide +kernel)
    (by decide +kernel)⟩
  have hk : (match Ex.amid.moveR (fl 53) 4 (1/1000) (1 / 10 ^ 15)
      (Ex.even ![0, -1, 0] ![0, -1, 0] false) 0 with
    | .ok (mp', _) => decide (mp'.x 1 < Ex.amid.x 1)
    | .error _ => false) = true := by decide +kernel
  rw [h] at hk
  exact of_decide_eq_true hk

/-- C138.  A force of 1/3 during a time step of 1/10, away from walls and at a wall. -/
example : |((Ex.even ![0, 1, 0] ![0, 1/3, 0] false).updateMomentumR (fl 53) Ex.bp false (1/10) 0).q
      (⟨5, by decide⟩ : Fin 12) 1 - 31 / 30| ≤ 1 / 10 ^ 15 ∧
    ((Ex.even ![0, 1, 0] ![0, 1/3, 0] false).updateMomentumR (fl 53) Ex.bp false (1/10) 0).q
      (⟨5, by decide⟩ : Fin 12) 1 ≠ 31 / 30 ∧
    ((Ex.even ![0, 0, 0] ![0, 1/3, 0] true).updateMomentumR (fl 53) Ex.bp true (1/10) 0).q
      (⟨5, by decide⟩ : Fin 12) 1 = 0 := by
  have hr := c136_bits (K := ℚ) (p := 53) (by norm_num)
  refine ⟨?_, by decide +kernel, ((c138_walls hr.zero true (1/10) 0 _ _).2 rfl rfl).2⟩
  have h := (c138_node hr (B := Ex.bp) rfl rfl (1/10) 0 (Ex.even ![0, 1, 0] ![0, 1/3, 0] false)
    (i := (⟨5, by decide⟩ : Fin 12)) (k := 1) (fun _ => rfl) (fun _ => rfl)).2
  have e : (Ex.even ![0, 1, 0] ![0, 1/3, 0] false).q (⟨5, by decide⟩ : Fin 12) 1 +
    1 / 10 * ((Ex.even ![0, 1, 0] ![0, 1/3, 0] false).fe (⟨5, by decide⟩ : Fin 12) 1 -
      (Ex.even ![0, 1, 0] ![0, 1/3, 0] false).fi (⟨5, by decide⟩ : Fin 12) 1) = 31 / 30 := by
    decide +kernel
  rw [e] at h
  exact h.trans (by norm_num [gam, Ex.even])

end Mpm

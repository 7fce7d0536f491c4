import Verif.Props.History
import Verif.Props.Transfer
import Verif.Props.Boundary

/-!
# C30: motion stays planar
-/

set_option linter.unusedSectionVars false

namespace Mpm
open Spec

namespace Spec
variable {K : Type} [Field K] [LinearOrder K] {ns N : ℕ}

/-- A point in the plane `z = 0`, moving in it, without out-of-plane body force or out-of-plane
shear in its stress-like arrays. -/
structure InPlane (mp : Particle K ns) : Prop where
  x : mp.x 2 = 0
  v : ∀ u, mp.v = .own u → u 2 = 0
  b : mp.b 2 = 0
  mats : MatOk Planar mp

/-- All phases are in the plane. -/
def PlanarList (L : List (PhaseSt K ns)) : Prop :=
  ∀ A ∈ L, A.ph.iv 2 = 0 ∧ ∀ mp ∈ A.pts, InPlane mp

/-- No out-of-plane momentum or force on the nodes. -/
def PlanarGrid (G : Grid K N ns) : Prop :=
  ∀ k, G.q k 2 = 0 ∧ G.q_dot k 2 = 0 ∧ G.fi k 2 = 0 ∧ G.fe k 2 = 0

end Spec

section
variable {K : Type} [Field K] [LinearOrder K] [IsStrictOrderedRing K] [FloorRing K]

theorem sum_z {α : Type} {l : List α} {f : α → Vec K} (h : ∀ a ∈ l, f a 2 = 0) :
    (l.map f).sum 2 = 0 := by
  induction l with
  | nil => rfl
  | cons a l ih =>
    rw [List.map_cons, List.sum_cons, Pi.add_apply, h a List.mem_cons_self,
      ih fun b hb => h b (List.mem_cons_of_mem _ hb), add_zero]

theorem shapeG_z (dx dy : K) (x : Vec K) (r : Fin 4) : shapeG dx dy x r 2 = 0 := by
  fin_cases r <;> simp [shapeG]

theorem bodyForce_z (P : Par K) (g : K) : bodyForce P g 2 = 0 := rfl

/-- Nodal velocities and gradients in the plane give a planar strain increment. -/
theorem planar_gradient {N ns : ℕ} {M_tol : K} {G : Grid K N ns} (hq : ∀ k, G.q k 2 = 0)
    {Gs : Fin 4 → Vec K} (hG : ∀ r, Gs r 2 = 0) (nd : Fin 4 → Fin N) :
    Planar ((∑ r, Matrix.vecMulVec (nodeVel M_tol G (nd r)) (Gs r)) +
      (∑ r, Matrix.vecMulVec (nodeVel M_tol G (nd r)) (Gs r)).transpose) := by
  have hv : ∀ k, nodeVel M_tol G k 2 = 0 := by
    intro k
    unfold nodeVel
    split
    · simp [hq k]
    · rfl
  constructor <;>
    simp [Matrix.sum_apply, Matrix.vecMulVec_apply, hv, hG, Fin.sum_univ_four]

theorem evolved_planar_mats {P : Par K} {d : Dyn K} {m0 : Option (Mat0 K)}
    {Gw Gb Gm : Grid K P.G.N P.G.ns} {p : ℕ} {ph : Phase K P.G.ns} {a b : Particle K P.G.ns}
    (h : Evolved P d m0 Gw Gb Gm p ph a b) (hq : ∀ k, Gb.q k 2 = 0) (ha : MatOk Planar a) :
    MatOk Planar b := by
  obtain ⟨a3, a4, vis, vis', h4, s3, t3, v3, w3, -, -, ⟨k, g3⟩, -, s4, t4, v4, w4, -⟩ := h.mats
  have k := stressStrain_matOk planarSet
    (fun nd => planar_gradient hq (fun r => by rw [g3]; exact shapeG_z _ _ _ _) nd) h4
    ⟨by rw [s3]; exact ha.stress, by rw [t3]; exact ha.strain, by rw [v3]; exact ha.dev,
      by rw [w3]; exact ha.dstress⟩
  exact ⟨by rw [s4]; exact k.stress, by rw [t4]; exact k.strain, by rw [v4]; exact k.dev,
    by rw [w4]; exact k.dstress⟩

theorem mulVec_z {A : Mat K} (hA : Planar A) {u : Vec K} (hu : u 2 = 0) :
    Matrix.mulVec A u 2 = 0 := by
  simp [Matrix.mulVec, dotProduct, Fin.sum_univ_three, hA.zx, hA.zy, hu]

theorem gradWeight_z {N ns nx : ℕ} {mp : Particle K ns} (h : ∀ r, mp.Gs r 2 = 0) (k : Fin N) :
    gradWeight nx mp k 2 = 0 := by
  unfold gradWeight
  rw [Finset.sum_apply]
  refine Finset.sum_eq_zero fun r _ => ?_
  split
  · exact h r
  · rfl

theorem makeCyclic_z {nx ny : ℕ} {f : Fin (ny * nx) → Vec K} (h : ∀ k, f k 2 = 0)
    (k : Fin (ny * nx)) : makeCyclic f k 2 = 0 := by
  simp only [makeCyclic]
  split <;> split <;> simp [h]

theorem updateMomentum_z {nx ny ns : ℕ} {B : BP K} {damping : Bool} {dt v0 : K}
    {G : Grid K (ny * nx) ns} (hq : ∀ k, G.q k 2 = 0) (hi : ∀ k, G.fi k 2 = 0)
    (he : ∀ k, G.fe k 2 = 0) (k : Fin (ny * nx)) :
    (G.updateMomentum B damping dt v0).q k 2 = 0 ∧
    (G.updateMomentum B damping dt v0).q_dot k 2 = 0 := by
  have hqd : (G.updateMomentum B damping dt v0).q_dot k 2 = 0 := by
    unfold Grid.updateMomentum roughNode
    cases damping <;> cases B.roughness <;> simp [hi, he]
    all_goals (split <;> simp [hi, he])
  refine ⟨?_, hqd⟩
  have : (G.updateMomentum B damping dt v0).q k 2 =
      G.q k 2 + dt * (G.updateMomentum B damping dt v0).q_dot k 2 := by
    unfold Grid.updateMomentum
    cases B.conveyor
    · simp
    · simp only [if_true]
      split
      · rw [Function.update_of_ne (by decide)]; rfl
      · rfl
  rw [this, hqd, hq]; simp

theorem BCs_z {nx ny ns : ℕ} {B : BP K} {qv qh rho : K} {a0 : Bool} {G G' : Grid K (ny * nx) ns}
    (h : G.BCs B qv qh rho a0 = .ok G') (he : ∀ k, G.fe k 2 = 0) (k : Fin (ny * nx)) :
    G'.fe k 2 = 0 := by
  unfold Grid.BCs at h
  split at h
  · cases h
  · cases a0
    · rw [← Except.ok.inj h]
      simp only [Bool.false_eq_true, if_false]
      cases B.vertical_force <;> cases B.horizontal_force <;>
        simp [Function.update, he]
    · cases h

/-- One step: the grid it produces is planar and the points stay in the plane. -/
theorem planar_step {P : Par K} {interp : Interp K P.G.N} {s s' : St P} (hL : Counted s.L)
    (hz : PlanarList s.L) (hv : P.intruder_v 2 = 0)
    (hin : P.B.inlet_right = true ∨ P.B.inlet_top = true → P.pressure ≠ .nonZero)
    (h : timeMarch P interp s = .ok s') : PlanarList s'.L ∧ PlanarGrid s'.G := by
  obtain ⟨T, s1, s2, s3, h1, e1, h2, h3, h4, eG, hR⟩ := timeMarch_idx hL h
  -- the points after mapping
  have r1 := updateForces_rel hL T.ha
  have c1 := r1.counted hL
  have rb : PtsRel (fun _ a b => a.getReferenceNode P.G s.G.wipe.dx s.G.wipe.dy = .ok b) T.La T.Lb :=
    mapPoints_rel (f := fun _ _ mp => mp.getReferenceNode P.G s.G.wipe.dx s.G.wipe.dy)
      (fun _ _ _ _ h => h) c1 T.hb
  have cb := rb.counted c1
  have rc : PtsRel (fun _ a b => a.getBasisFunctions s.G.wipe = .ok b) T.Lb T.Lc :=
    mapPoints_rel (f := fun _ _ mp => mp.getBasisFunctions s.G.wipe) (fun _ _ _ _ h => h) cb T.hc
  have cc := rc.counted cb
  have rall := ((r1.comp rb).comp rc).items
  have zitems : ∀ x ∈ items s.L, x.1.iv 2 = 0 ∧ InPlane x.2 := by
    intro x hx
    obtain ⟨A, hA, hx⟩ := List.mem_flatMap.1 hx
    obtain ⟨mp, hmp, rfl⟩ := List.mem_map.1 hx
    exact ⟨(hz A hA).1, (hz A hA).2 mp hmp⟩
  have zc : ∀ x ∈ items T.Lc, x.1.iv 2 = 0 ∧ InPlane x.2 ∧ ∀ r, x.2.Gs r 2 = 0 := by
    intro x hx
    obtain ⟨y, hy, e, a2, ⟨a1, ⟨ha1, hb1⟩, ha2⟩, ha3⟩ := forall₂_right rall hx
    obtain ⟨hiv, hp⟩ := zitems y hy
    unfold Particle.getReferenceNode at ha2
    split at ha2
    · cases ha2
    rw [Except.ok.injEq] at ha2
    obtain ⟨k, -, -, e3⟩ := getBasis_ok ha3
    refine ⟨by rw [e]; exact hiv, ?_, fun r => by rw [e3]; exact shapeG_z _ _ _ _⟩
    rw [e3, ← ha2, ha1]
    refine ⟨hp.x, hp.v, ?_, ⟨hp.mats.stress, hp.mats.strain, hp.mats.dev, hp.mats.dstress⟩⟩
    change a1.b 2 = 0
    rcases hb1 with hb | hb
    · rw [hb]; exact hp.b
    · rw [hb]; exact bodyForce_z _ _
  have getz : ∀ {v : VRef K} {iv : Vec K}, iv 2 = 0 → (∀ u, v = .own u → u 2 = 0) →
      v.get iv 2 = 0 := by
    intro v iv h1 h2
    cases v with
    | own u => exact h2 u rfl
    | shared => exact h1
  -- momentum on the grid
  have qb : ∀ k, T.Gb.q k 2 = 0 := by
    obtain ⟨G1, hG1, e⟩ := getNodalMassMomentum_ok T.hGa
    have q1 : ∀ k, G1.q k 2 = 0 := by
      intro k
      rw [p2gAll_q cc hG1, Pi.add_apply]
      have : (s.G.wipe.q k) 2 = 0 := rfl
      rw [this, zero_add]
      exact sum_z fun x hx => by
        rw [Pi.smul_apply, getz (zc x hx).1 (zc x hx).2.1.v, smul_zero]
    have qa : ∀ k, T.Ga.q k 2 = 0 := by
      intro k
      rw [e]
      split
      · exact ((zeroBoundary_q _ _ k).1).trans (q1 k)
      · exact ((zeroBoundary_q _ _ k).1).trans (q1 k)
    intro k
    rw [T.hGb]
    split
    · exact makeCyclic_z qa k
    · exact qa k
  -- stresses
  have rd := updateStressStrain_idx cc T.hLd
  have cd := rd.counted cc
  have zd : ∀ x ∈ items T.Ld, InPlane x.2 ∧ ∀ r, x.2.Gs r 2 = 0 := by
    intro x hx
    obtain ⟨y, hy, e, p, vis, vis', hss⟩ := forall₂_right rd.rel.items hx
    obtain ⟨hiv, hp, hg⟩ := zc y hy
    have f := (stressStrain_frame hss).1
    refine ⟨⟨by rw [f.x]; exact hp.x, by rw [f.v]; exact hp.v, by rw [f.b]; exact hp.b, ?_⟩,
      fun r => by rw [f.Gs]; exact hg r⟩
    exact stressStrain_matOk planarSet (fun nd => planar_gradient qb hg nd) hss hp.mats
  have zdp : ∀ mp ∈ points T.Ld, InPlane mp ∧ ∀ r, mp.Gs r 2 = 0 := by
    intro mp hmp
    rw [← items_map_snd] at hmp
    obtain ⟨x, hx, rfl⟩ := List.mem_map.1 hmp
    exact zd x hx
  -- forces
  obtain ⟨zfi, zfe⟩ := gridPhase_forces_zero T hL
  have fd : ∀ k, T.Gd.fi k 2 = 0 ∧ T.Gd.fe k 2 = 0 := by
    have h := T.hGd
    unfold getNodalForces at h
    obtain ⟨G1, hG1, h⟩ := res_bind_ok.1 h
    have f1 : ∀ k, G1.fi k 2 = 0 := by
      intro k
      rw [nodalForcesAll_fi cd hG1, zfi, zero_add]
      exact sum_z fun mp hmp => by
        rw [Pi.smul_apply, mulVec_z (zdp mp hmp).1.mats.stress (gradWeight_z (zdp mp hmp).2 k),
          smul_zero]
    have f2 : ∀ k, G1.fe k 2 = 0 := by
      intro k
      rw [nodalForcesAll_fe cd hG1, zfe, zero_add]
      exact sum_z fun mp hmp => by
        rw [Pi.smul_apply, (zdp mp hmp).1.b, smul_zero]
    intro k
    rw [← Except.ok.inj h]
    split
    · exact ⟨makeCyclic_z f1 k, makeCyclic_z f2 k⟩
    · exact ⟨f1 k, f2 k⟩
  have qd : ∀ k, T.Gd.q k 2 = 0 := by
    obtain ⟨-, -, -, -, e, -⟩ := T.static
    intro k; rw [e]; exact qb k
  -- momentum update
  obtain ⟨G1, hB, e2⟩ := momentumPhase_frame h2
  rw [e1] at hB e2
  have eB := BCs_frame hB
  have m2 := updateMomentum_z (B := P.B) (damping := P.damping) (dt := T.d.dt) (v0 := P.v_0)
    (G := G1) (fun k => by rw [eB]; exact qd k) (fun k => by rw [eB]; exact (fd k).1)
    (BCs_z hB fun k => (fd k).2)
  obtain ⟨-, -, -, eq3, eqd3, -⟩ := segregationPhase_frame h3
  have hfi : s3.G.fi = s2.G.fi ∧ s3.G.fe = s2.G.fe := by
    unfold segregationPhase at h3
    split at h3
    · dsimp only at h3
      split at h3
      · cases h3
      · obtain ⟨L1, -, h3⟩ := res_bind_ok.1 h3
        rw [← Except.ok.inj h3]; exact ⟨rfl, rfl⟩
    · cases h3; exact ⟨rfl, rfl⟩
  have z3 : PlanarGrid s3.G := by
    intro k
    rw [eq3, eqd3, hfi.1, hfi.2, e2]
    refine ⟨(m2 k).1, (m2 k).2, ?_, BCs_z hB (fun k => (fd k).2) k⟩
    change G1.fi k 2 = 0
    rw [eB]; exact (fd k).1
  refine ⟨?_, by rw [eG]; exact z3⟩
  -- motion
  have dz : ∀ (mp : Particle K P.G.ns), dvel P.G.nx P.M_tol T.d.dt s3.G mp 2 = 0 := by
    intro mp
    unfold dvel
    rw [Finset.sum_apply]
    refine Finset.sum_eq_zero fun k _ => ?_
    rw [Pi.smul_apply]
    split
    · rw [Pi.smul_apply, (z3 k).2.1, smul_zero, smul_zero]
    · exact smul_zero _
  intro B hB
  obtain ⟨i, hi⟩ := List.getElem?_of_mem hB
  obtain ⟨A, hA, hs, -, evo, kept, new, hev, hiv, hk, -, hn, hf, hBp⟩ := hR.left hi
  have hAz := hz A (List.mem_of_getElem? hA)
  refine ⟨?_, fun b hb => ?_⟩
  · rw [hiv, Pi.add_apply, hAz.1, zero_add]
    unfold sharedChange
    split
    · rfl
    · exact sum_z fun mp _ => dz mp
  rw [hBp] at hb
  rcases List.mem_append.1 hb with hb | hb
  · obtain ⟨a, ha, hab⟩ := forall₂_right hev (hk.subset hb)
    have hp := hAz.2 a ha
    have hb' : b.b 2 = 0 := by
      obtain ⟨a3, a4, _, _, -, -, -, -, -, -, -, -, b3, -, -, -, -, -, -, hb4⟩ := hab.mats
      rw [hb4, b3]
      split
      · exact bodyForce_z _ _
      · exact hp.b
    have hm' := evolved_planar_mats hab qb hp.mats
    obtain ⟨a5, a6, hm, rfl, x5, v5, -⟩ := hab.parts
    have key : a6.x 2 = 0 ∧ ∀ u, a6.v = .own u → u 2 = 0 := by
      rcases hm with ⟨-, rfl⟩ | ⟨-, iv, iv', hm⟩
      · refine ⟨?_, ?_⟩
        · simp [Particle.moveRigid, x5, hp.x, hv]
        · intro u hu
          cases hu; exact hv
      · obtain ⟨nd, -, -, e⟩ := move_ok hm
        have e1 : a6 = (moveClosed P.M_tol T.d.dt s3.G nd a5 iv).1 := congrArg Prod.fst e
        have hd : ∀ r, dispInc P.M_tol T.d.dt (a5.N r) s3.G (nd r) 2 = 0 := by
          intro r; unfold dispInc; split
          · simp [(z3 (nd r)).1]
          · rfl
        have hvv : ∀ r, velInc P.M_tol T.d.dt (a5.N r) s3.G (nd r) 2 = 0 := by
          intro r; unfold velInc; split
          · simp [(z3 (nd r)).2.1]
          · rfl
        rw [e1]
        refine ⟨?_, ?_⟩
        · simp [moveClosed, Finset.sum_apply, hd, x5, hp.x]
        · intro u hu
          simp only [moveClosed] at hu
          cases hv5 : a5.v with
          | shared => rw [hv5] at hu; cases hu
          | own w =>
            rw [hv5] at hu
            simp only [addVel, VRef.own.injEq] at hu
            rw [← hu, Pi.add_apply, hp.v w (by rw [← v5]; exact hv5)]
            simp [Finset.sum_apply, hvv]
    refine ⟨?_, ?_, hb', hm'⟩
    · unfold wrapped
      split
      · simp [Function.update, key.1]
      · exact key.1
    · intro u hu
      rw [wrapped_frame] at hu
      exact key.2 u hu
  · have hinl : P.B.inlet_right = true ∨ P.B.inlet_top = true := by
      by_contra hc
      push Not at hc
      rw [hn (by simpa using hc.1) (by simpa using hc.2)] at hb
      exact absurd hb (by simp)
    obtain ⟨S0, ph', x, y, mp, hs', hm, rfl⟩ := hf b hb
    have hmm := mkParticle_matOk planarSet (fun a b => ⟨rfl, rfl, rfl, rfl⟩)
      (fun hp => absurd hp (hin hinl)) hm
    obtain ⟨_, -, -, -, -, -, hx, hb, -, -, hv⟩ := mkParticle_fields hm
    refine ⟨?_, ?_, ?_, hmm.wrapped⟩
    · unfold wrapped
      split
      · simp [Function.update, hx]
      · rw [hx]; rfl
    · intro u hu
      rw [wrapped_frame] at hu
      change mp.v = _ at hu
      rcases hv with ⟨w, hv⟩ | hv | ⟨-, hv⟩
      · rw [hv] at hu; cases hu; rfl
      · rw [hv] at hu; cases hu; rfl
      · rw [hv] at hu; cases hu
    · rw [wrapped_frame]
      change mp.b 2 = 0
      rw [hb]; rfl

/-- Over any run everything stays in the plane (with inlets, unless their points are made with
pressure mode 'non-zero', whose preset strain `-1e-15*ones((3,3))` is not planar). -/
theorem c30_planar {P : Par K} {interp : Interp K P.G.N} {n : ℕ} {s s' : St P} (hL : Counted s.L)
    (hz : PlanarList s.L) (hv : P.intruder_v 2 = 0)
    (hin : P.B.inlet_right = true ∨ P.B.inlet_top = true → P.pressure ≠ .nonZero)
    (h : steps P interp n s = .ok s') : PlanarList s'.L ∧ (n ≠ 0 → PlanarGrid s'.G) := by
  have key := steps_inv (interp := interp) (fun s' => Counted s'.L ∧ PlanarList s'.L ∧
      (PlanarGrid s'.G ∨ s' = s)) ?_ h ⟨hL, hz, .inr rfl⟩
  · refine ⟨key.2.1, fun hn => ?_⟩
    obtain ⟨m, rfl⟩ := Nat.exists_eq_succ_of_ne_zero hn
    have key2 : ∀ (m : ℕ) (s : St P), Counted s.L → PlanarList s.L →
        steps P interp (m + 1) s = .ok s' → PlanarGrid s'.G := by
      intro m
      induction m with
      | zero =>
        intro s hL hz h
        obtain ⟨s1, h1, h2⟩ := steps_succ.1 h
        cases h2
        exact (planar_step hL hz hv hin h1).2
      | succ m ih =>
        intro s hL hz h
        obtain ⟨s1, h1, h2⟩ := steps_succ.1 h
        exact ih (stepTime P s1) (timeMarch_counted hL h1 : Counted s1.L)
          (planar_step hL hz hv hin h1).1 h2
    exact key2 m s hL hz h
  · rintro s1 s2 ⟨hL, hz, -⟩ h1
    obtain ⟨a, b⟩ := planar_step hL hz hv hin h1
    exact ⟨(timeMarch_counted hL h1 : Counted s2.L), a, .inl b⟩

/-- In terms of freshly constructed points: if the initial velocities of the phases that have one
and the intruder velocity have no z component, and the pressure preset is not 'non-zero', then
after any number of steps every point has z position 0 and z velocity 0, and so have the nodes. -/
theorem c30_constructed {P : Par K} {interp : Interp K P.G.N} {n : ℕ} {s s' : St P} {g : K}
    {S : List (Phase K P.G.ns × PhaseInit K P.G.ns)} (hS : mkList P g S = .ok s.L)
    (hL : Counted s.L) (hiv : ∀ A ∈ s.L, A.ph.iv 2 = 0) (hv : P.intruder_v 2 = 0)
    (hp : P.pressure ≠ .nonZero) (h : steps P interp n s = .ok s') :
    (∀ A ∈ s'.L, ∀ mp ∈ A.pts, mp.x 2 = 0 ∧ velocity A mp 2 = 0) ∧
    (n ≠ 0 → ∀ k, s'.G.q k 2 = 0 ∧ s'.G.q_dot k 2 = 0 ∧ s'.G.fi k 2 = 0 ∧ s'.G.fe k 2 = 0) := by
  have hz : PlanarList s.L := by
    intro A hA
    refine ⟨hiv A hA, fun mp hmp => ?_⟩
    obtain ⟨S0, x, y, phi, hm⟩ := mkList_mem hS A hA mp hmp
    have hmm := mkParticle_matOk planarSet (fun a b => ⟨rfl, rfl, rfl, rfl⟩)
      (fun h => absurd h hp) hm
    obtain ⟨_, -, -, -, -, -, hx, hb, -, -, hv⟩ := mkParticle_fields hm
    refine ⟨by rw [hx]; rfl, ?_, by rw [hb]; rfl, hmm⟩
    intro u hu
    rcases hv with ⟨w, hv⟩ | hv | ⟨-, hv⟩
    · rw [hv] at hu; cases hu; rfl
    · rw [hv] at hu; cases hu; rfl
    · rw [hv] at hu; cases hu
  obtain ⟨k1, k2⟩ := c30_planar hL hz hv (fun _ => hp) h
  refine ⟨fun A hA mp hmp => ⟨((k1 A hA).2 mp hmp).x, ?_⟩, k2⟩
  have h1 := ((k1 A hA).2 mp hmp).v
  unfold velocity
  cases hv : mp.v with
  | own u => exact h1 u hv
  | shared => exact (k1 A hA).1

/-- Hypotheses of `c30_planar` on example data. -/
example : ∃ s s' : St Ex.par, Counted s.L ∧ PlanarList s.L ∧ Ex.par.intruder_v 2 = 0 ∧
    steps Ex.par (Ex.noInterp _) 3 s = .ok s' := by
  obtain ⟨G, s', hG, hs, hc⟩ := Ex.run_ok (P := Ex.par) (d := Ex.dyn) (L := Ex.L) (n := 3)
    (check := fun _ => true) (by decide +kernel)
  refine ⟨{ dyn := Ex.dyn, L := Ex.L, G := G }, s', Ex.countedL, ?_, rfl, hs⟩
  intro A hA
  rw [List.mem_singleton.1 (hA : A ∈ Ex.L)]
  refine ⟨rfl, fun mp hmp => ?_⟩
  rcases List.mem_cons.1 hmp with rfl | hmp
  · exact ⟨rfl, fun u hu => by cases hu; rfl, rfl, ⟨⟨rfl, rfl, rfl, rfl⟩, ⟨rfl, rfl, rfl, rfl⟩,
      ⟨rfl, rfl, rfl, rfl⟩, ⟨rfl, rfl, rfl, rfl⟩⟩⟩
  · rw [List.mem_singleton.1 hmp]
    exact ⟨rfl, fun u hu => by cases hu; rfl, rfl, ⟨⟨rfl, rfl, rfl, rfl⟩, ⟨rfl, rfl, rfl, rfl⟩,
      ⟨rfl, rfl, rfl, rfl⟩, ⟨rfl, rfl, rfl, rfl⟩⟩⟩

/-- Constructed points, fed from the top. -/
example : ∃ s s' : St Ex.feedPar, mkList Ex.feedPar (-10) [(Ex.feedPh, Ex.feedInit)] = .ok s.L ∧
    Counted s.L ∧ (∀ A ∈ s.L, A.ph.iv 2 = 0) ∧ Ex.feedPar.intruder_v 2 = 0 ∧
    Ex.feedPar.pressure ≠ .nonZero ∧ steps Ex.feedPar (Ex.noInterp _) 3 s = .ok s' := by
  obtain ⟨L, hL, hr⟩ := Ex.okAnd_ok (r := mkList Ex.feedPar (-10) [(Ex.feedPh, Ex.feedInit)])
    (check := fun L => Ex.run Ex.feedPar Ex.dyn L 3 (fun _ => true) &&
      decide ((∀ a ∈ L, a.ph.n = a.pts.length) ∧ ∀ A ∈ L, A.ph.iv 2 = 0))
    (by decide +kernel)
  rw [Bool.and_eq_true] at hr
  obtain ⟨G, s', -, hs, hc⟩ := Ex.run_ok hr.1
  have hc' := of_decide_eq_true hr.2
  exact ⟨{ dyn := Ex.dyn, L := L, G := G }, s', hL, hc'.1, hc'.2, rfl, by decide, hs⟩

/-- The exclusion of the 'non-zero' preset is needed: with it a point at rest gets an out-of-plane
velocity in the first step. -/
def Ex.nzPar : Par ℚ := { Ex.par with pressure := .nonZero }

theorem c30_nonzero_pressure : ∃ (s s' : St Ex.nzPar),
    mkList Ex.nzPar (-10) [(Ex.feedPh, Ex.feedInit)] = .ok s.L ∧ Counted s.L ∧
    (∀ A ∈ s.L, A.ph.iv 2 = 0) ∧ Ex.nzPar.intruder_v 2 = 0 ∧
    timeMarch Ex.nzPar (Ex.noInterp _) s = .ok s' ∧
    ∃ A ∈ s'.L, ∃ mp ∈ A.pts, velocity A mp 2 ≠ 0 := by
  obtain ⟨L, hL, hr⟩ := Ex.okAnd_ok (r := mkList Ex.nzPar (-10) [(Ex.feedPh, Ex.feedInit)])
    (check := fun L => Ex.run Ex.nzPar Ex.dyn L 1
        (fun s => decide (∃ A ∈ s.L, ∃ mp ∈ A.pts, velocity A mp 2 ≠ 0)) &&
      decide ((∀ a ∈ L, a.ph.n = a.pts.length) ∧ ∀ A ∈ L, A.ph.iv 2 = 0))
    (by decide +kernel)
  rw [Bool.and_eq_true] at hr
  obtain ⟨G, s', -, hs, hc⟩ := Ex.run_one hr.1
  have hc' := of_decide_eq_true hr.2
  exact ⟨{ dyn := Ex.dyn, L := L, G := G }, s', hL, hc'.1, hc'.2, rfl, hs, of_decide_eq_true hc⟩

end
end Mpm

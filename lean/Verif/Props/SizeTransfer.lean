import Verif.Props.Light

/-!
# C113: how much of each grain size there is

`map_phi_to_mp` gives every point the increments of the nodes, weighted with its shape functions.
The amount of a size (mass times fraction, summed over the points) therefore changes by the nodal
increments weighted with the nodal masses.  The advection scheme balances the unweighted ones.
-/

set_option linter.unusedSectionVars false

namespace Mpm
open Spec

section
variable {K : Type} [Field K] [LinearOrder K] [IsStrictOrderedRing K] [FloorRing K] {ns N : ℕ}

/-- The mass of grains of size `j`. -/
def Spec.sizeMass (L : List (PhaseSt K ns)) (j : Fin ns) : K :=
  ((points L).map fun mp => mp.m * mp.phi j).sum

theorem transfer_scalar {nx : ℕ} {l : List (Particle K ns)} {m : Fin N → K}
    (hm : ∀ k, m k = (l.map fun mp => weight nx mp k * mp.m).sum) (f : Fin N → K) :
    (l.map fun mp => mp.m * ∑ k, weight nx mp k * f k).sum = ∑ k, m k * f k := by
  simp only [hm, ← List.sum_map_mul_right]
  rw [list_sum_finset]
  refine congrArg List.sum (List.map_congr_left fun mp _ => ?_)
  rw [Finset.mul_sum]
  exact Finset.sum_congr rfl fun k _ => by ring

/-- `move_grainsize_on_grid` without normalisation, on a grid whose nodal masses are those of the
points. -/
theorem sizeMass_moved {P : Par K} (hn : P.normalise_phi = false) {G : Grid K N ns}
    {L L' : List (PhaseSt K ns)} (hL : Counted L)
    (hm : ∀ k, G.m k = ((points L).map fun mp => weight P.G.nx mp k * mp.m).sum)
    (h : moveGrainsize P G L = .ok L') (j : Fin ns) :
    sizeMass L' j = sizeMass L j +
      ∑ k ∈ Finset.univ.filter (fun k => P.M_tol < G.m k), G.m k * G.dphi k j := by
  unfold moveGrainsize at h
  obtain ⟨L1, h1, h⟩ := res_bind_ok.1 h
  rw [hn] at h
  cases h
  have r := mapPoints_raw hL h1
  have e : ((points L').map fun mp => mp.m * mp.phi j) = (points L).map fun mp =>
      mp.m * mp.phi j + mp.m * ∑ k, weight P.G.nx mp k *
        (if P.M_tol < G.m k then G.dphi k j else 0) := by
    symm
    refine forall₂_map_eq ?_ r.points
    rintro a b ⟨ph, p, hab⟩
    obtain ⟨nd, hnd, rfl⟩ := mapPhi_closed hab
    have := congrFun (sum_nodes_smul hnd (fun k => if P.M_tol < G.m k then G.dphi k else 0)) j
    dsimp only
    rw [Pi.add_apply, this, mul_add, Finset.sum_apply]
    congr 2
    refine Finset.sum_congr rfl fun k _ => ?_
    rw [Pi.smul_apply, smul_eq_mul]
    split <;> rfl
  unfold sizeMass
  rw [e, list_sum_map_add, transfer_scalar hm, Finset.sum_filter]
  congr 1
  refine Finset.sum_congr rfl fun k _ => ?_
  split
  · rfl
  · rw [mul_zero]

/-- C113, the function.  Points `L` were mapped to a wiped grid; `G` has the resulting nodal
masses and any increments. -/
theorem c113_transfer {P : Par K} (hn : P.normalise_phi = false) {s : Fin ns → K}
    {G0 G1 G : Grid K P.G.N ns} {L L' : List (PhaseSt K ns)} (hL : Counted L)
    (hmap : getNodalMassMomentum P s L G0.wipe = .ok G1) (hG : G.m = G1.m)
    (h : moveGrainsize P G L = .ok L') (j : Fin ns) :
    sizeMass L' j = sizeMass L j +
      ∑ k ∈ Finset.univ.filter (fun k => P.M_tol < G.m k), G.m k * G.dphi k j :=
  sizeMass_moved hn hL (fun k => by rw [hG]; exact mapped_mass hL (fun _ => rfl) hmap k) h j

end

section
variable {K : Type} [Field K] [LinearOrder K] [IsStrictOrderedRing K] [FloorRing K]
variable {P : Par K} {s s' : St P}

theorem segregationPhase_shape (hs : P.segregate_grid = true) {interp : Interp K P.G.N}
    (h : segregationPhase P interp s = .ok s') :
    ∃ G' L', moveGrainsize P G' s.L = .ok L' ∧
      s' = { s with L := L', G := G'.makeCyclicVis [.eta] } ∧ G'.m = s.G.m := by
  unfold segregationPhase at h
  rw [if_pos hs] at h
  dsimp only at h
  split at h
  · cases h
  · obtain ⟨L1, g1, h⟩ := res_bind_ok.1 h
    exact ⟨_, L1, g1, (Except.ok.inj h).symm, rfl⟩

/-- C113, a whole step (no inlets, outlets or periodic sides, no mass-losing law): the amount of
size `j` changes by the increments of the heavy nodes times their masses. -/
theorem c113_step (hs : P.segregate_grid = true) (hn : P.normalise_phi = false) (hB : NoPorts P.B)
    {interp : Interp K P.G.N} (hL : Counted s.L) (hlaw : ∀ A ∈ s.L, A.ph.law ≠ .elastic_time)
    (h : timeMarch P interp s = .ok s') (j : Fin P.G.ns) :
    sizeMass s'.L j = sizeMass s.L j +
      ∑ k ∈ Finset.univ.filter (fun k => P.M_tol < s'.G.m k), s'.G.m k * s'.G.dphi k j := by
  obtain ⟨s1, s2, s3, h1, h2, h3, h4⟩ := timeMarch_ok h
  obtain ⟨T, e1⟩ := gridPhase_ok h1
  obtain ⟨-, l2, -, m2, -⟩ := momentumPhase_table h2
  have l2' : s2.L = T.Ld := by rw [l2, e1]
  obtain ⟨rd, -, -, cc, cd⟩ := T.rel hL
  have eG : s'.G = s3.G := (pointsPhase_frame h4).2
  have em := T.static.2.2.2.2.2
  have hb : T.Gb.m = T.Ga.m := by rw [T.hGb, hB.cyclic]; rfl
  have hma : s2.G.m = T.Ga.m := by rw [m2, e1]; change T.Gd.m = _; rw [em, hb]
  have hlawd : ∀ {L : List (PhaseSt K P.G.ns)} {R}, PtsRel R s.L L → ∀ x ∈ items L,
      x.1.law ≠ .elastic_time := by
    intro L R r x hx
    obtain ⟨A, hA, ep, -⟩ := mem_items.1 hx
    obtain ⟨A0, hA0, e0, -⟩ := forall₂_right r hA
    rw [← ep, e0]; exact hlaw A0 hA0
  have hm : ∀ k, T.Ga.m k = ((points T.Ld).map fun mp => weight P.G.nx mp k * mp.m).sum := by
    intro k
    rw [mapped_mass cc (fun _ => rfl) T.hGa k]
    have rf := updateStressStrain_frame cc T.hLd
    have rc := (updateForces_rel hL T.ha).comp
      (locate_all ((updateForces_rel hL T.ha).counted hL) T.hb T.hc).1
    refine congrArg List.sum (forall₂_map_eq ?_ rf.mem.points)
    rintro a b ⟨ph, ha, -, kin, hcm⟩
    rw [kin.weight, hcm (hlawd rc _ ha)]
  -- the points before segregation have the sizes they had
  have hd : sizeMass T.Ld j = sizeMass s.L j := by
    unfold sizeMass
    refine congrArg List.sum (forall₂_map_eq ?_ rd.mem.points).symm
    rintro a b ⟨ph, ha, -, -, -, -, -, hp, -, hmm, -⟩
    obtain ⟨A, hA, ep, -⟩ := mem_items.1 ha
    rw [hp, hmm (by rw [← show A.ph = ph from ep]; exact hlaw A hA)]
  -- segregation
  have hseg : sizeMass s3.L j = sizeMass T.Ld j +
      ∑ k ∈ Finset.univ.filter (fun k => P.M_tol < s3.G.m k), s3.G.m k * s3.G.dphi k j := by
    obtain ⟨G', L1, g1, e3, gm⟩ := segregationPhase_shape hs h3
    have c2 : Counted s2.L := by rw [l2']; exact cd
    have key := sizeMass_moved hn c2 (h := g1) (hm := fun k => by
      rw [l2', ← hm k, ← hma, gm]) (j := j)
    rw [l2'] at key
    rw [e3]
    exact key
  -- the motion
  have hmv : sizeMass s'.L j = sizeMass s3.L j := by
    unfold pointsPhase whenSet at h4
    simp only [hB.outlet_left, hB.outlet_bottom, hB.inlet_right, hB.inlet_top, hB.cyclic,
      Bool.false_eq_true, if_false, res_ok_bind] at h4
    obtain ⟨L1, g1, h4⟩ := res_bind_ok.1 h4
    cases h4
    have c3 : Counted s3.L := (segregationPhase_rel (by rw [l2']; exact cd) h3).counted
      (by rw [l2']; exact cd)
    have r := movePoints_rel c3 g1
    unfold sizeMass
    have rp : List.Forall₂ (fun a b => b.m = a.m ∧ b.phi = a.phi) (points s3.L) (points L1) := by
      unfold points
      generalize s3.L = A at r
      clear * - r
      induction r with
      | nil => exact .nil
      | cons h _ ih =>
        refine List.rel_append (h.2.1.imp fun a b hab => ?_) ih
        obtain ⟨-, -, -, -, -, m, -, p, -⟩ := hab.mats
        exact ⟨m, p⟩
    refine congrArg List.sum (forall₂_map_eq ?_ rp).symm
    rintro a b ⟨e1, e2⟩
    rw [e1, e2]
  rw [eG, hmv, hseg, hd]

/-- With equal masses at all heavy nodes and increments that add up to zero (as those of the
advection scheme do, C45) and vanish at light nodes, the amount of every size is conserved. -/
theorem c113_conserved (hs : P.segregate_grid = true) (hn : P.normalise_phi = false)
    (hB : NoPorts P.B) {interp : Interp K P.G.N} (hL : Counted s.L)
    (hlaw : ∀ A ∈ s.L, A.ph.law ≠ .elastic_time) (h : timeMarch P interp s = .ok s')
    {j : Fin P.G.ns} {μ : K} (hμ : ∀ k, P.M_tol < s'.G.m k → s'.G.m k = μ)
    (hz : ∀ k, s'.G.m k ≤ P.M_tol → s'.G.dphi k j = 0) (h0 : ∑ k, s'.G.dphi k j = 0) :
    sizeMass s'.L j = sizeMass s.L j := by
  rw [c113_step hs hn hB hL hlaw h j, add_eq_left]
  rw [Finset.sum_congr rfl (g := fun k => μ * s'.G.dphi k j), ← Finset.mul_sum, Finset.sum_filter]
  · rw [Finset.sum_congr rfl (g := fun k => s'.G.dphi k j), h0, mul_zero]
    intro k _
    split
    · rfl
    · rename_i hk
      exact (hz k (not_lt.1 hk)).symm
  · intro k hk
    rw [hμ k (Finset.mem_filter.1 hk).2]

/-- Points keep fractions that add up to one if the increments of every heavy node add up to
zero. -/
theorem c113_fractions {ns N : ℕ} {nx : ℕ} {M_tol : K} {G : Grid K N ns} {mp mp' : Particle K ns}
    (hz : ∀ k, Touches nx mp k → M_tol < G.m k → ∑ j, G.dphi k j = 0)
    (h : mp.mapPhi nx M_tol G = .ok mp') : ∑ j, mp'.phi j = ∑ j, mp.phi j := by
  obtain ⟨nd, hnd, rfl⟩ := mapPhi_closed h
  simp only [Pi.add_apply, Finset.sum_add_distrib, Finset.sum_apply, Pi.smul_apply, smul_eq_mul]
  rw [Finset.sum_comm, add_eq_left]
  refine Finset.sum_eq_zero fun r _ => ?_
  rw [← Finset.mul_sum]
  split
  · rename_i hk
    rw [hz _ ⟨r, hnd r⟩ hk, mul_zero]
  · simp

end

/-! ## The hypotheses can be met, and the amount of a size does change -/

namespace Ex

/-- Two cells side by side, with unequal masses in them; advection only. -/
def gpTwo : GP ℚ :=
  { x_m := 0, x_M := 2, y_m := 0, y_M := 1, nx := 3, ny := 2, dx := 1, dy := 1
    thickness := 1, ns := 2, s := ![1, 2] }

def parTwo : Par ℚ := { par with G := gpTwo, segregate_grid := true, l := 0 }

def LTwo : List (PhaseSt ℚ 2) :=
  [{ ph := ph, pts := [{ mp with x := ![1/2, 1/2, 0], m := 4, phi := ![1/2, 1/2] },
    { mp with x := ![3/2, 1/2, 0], m := 12, phi := ![1/4, 3/4] }] }]

/-- The points located, the grid with their masses and a driving gradient along `x`, and the
points after segregation. -/
def seg2 : Res (Grid ℚ (2 * 3) 2 × Grid ℚ (2 * 3) 2 × List (PhaseSt ℚ 2) × List (PhaseSt ℚ 2) ×
    Grid ℚ (2 * 3) 2) := do
  let G ← mkGrid gpTwo bp
  let L1 ← getReferenceNodes gpTwo G.wipe LTwo
  let L2 ← getBasisFunctions G.wipe L1
  let G1 ← getNodalMassMomentum parTwo gpTwo.s L2 G.wipe
  let G2 : Grid ℚ (2 * 3) 2 := { (G1 : Grid ℚ (2 * 3) 2) with grad_pk := fun _ => ![1, 0, 0] }
  let G3 := { G2 with dphi := phiIncrement parTwo (1/10) 1 gpTwo.s G2 }
  let L3 ← moveGrainsize parTwo G3 L2
  return (G, G1, L2, L3, G3)

end Ex

/-- C113.  In general the amount of a size is not conserved: with unequal masses in two cells the
increments of the advection scheme add up to zero over the grid, and yet there is more of the small
grains afterwards, 5.093 instead of 5. -/
theorem c113_not_conserved : ∃ (G0 G1 G : Grid ℚ (2 * 3) 2) (L L' : List (PhaseSt ℚ 2)), Counted L ∧
    getNodalMassMomentum Ex.parTwo Ex.gpTwo.s L G0.wipe = .ok G1 ∧ G.m = G1.m ∧
    (G.dphi = phiIncrement Ex.parTwo (1/10) 1 Ex.gpTwo.s { G with dphi := G1.dphi }) ∧
    moveGrainsize Ex.parTwo G L = .ok L' ∧ ∑ k, G.dphi k 0 = 0 ∧
    sizeMass L 0 = 5 ∧ sizeMass L' 0 = 21391 / 4200 := by
  obtain ⟨⟨G0, G1, L, L', G⟩, h, hc⟩ := Ex.okAnd_ok (r := Ex.seg2)
    (check := fun r => decide ((∀ a ∈ r.2.2.1, a.ph.n = a.pts.length) ∧
      ∑ k, r.2.2.2.2.dphi k 0 = 0 ∧ sizeMass r.2.2.1 0 = 5 ∧
      sizeMass r.2.2.2.1 0 = 21391 / 4200)) (by decide +kernel)
  obtain ⟨c1, c2, c3, c4⟩ := of_decide_eq_true hc
  unfold Ex.seg2 at h
  obtain ⟨_, -, h⟩ := res_bind_ok.1 h
  obtain ⟨L1, -, h⟩ := res_bind_ok.1 h
  obtain ⟨L2, -, h⟩ := res_bind_ok.1 h
  obtain ⟨G1', g1, h⟩ := res_bind_ok.1 h
  obtain ⟨L3, g2, h⟩ := res_bind_ok.1 h
  cases h
  refine ⟨_, _, _, _, _, c1, g1, ?_, ?_, g2, c2, c3, c4⟩
  · rfl
  · rfl

/-- A step with segregation. -/
def Ex.parRaw : Par ℚ := { Ex.par with segregate_grid := true }

/-- One point in the middle of a cell, so that all heavy nodes have the same mass. -/
def Ex.LOne : List (PhaseSt ℚ 2) :=
  [{ ph := { Ex.ph with n := 1 }, pts := [{ Ex.mp with x := ![1/2, 1/2, 0] }] }]

example : ∃ s s' : St Ex.parRaw, Counted s.L ∧ (∀ A ∈ s.L, A.ph.law ≠ .elastic_time) ∧
    NoPorts Ex.parRaw.B ∧ timeMarch Ex.parRaw (Ex.noInterp _) s = .ok s' ∧
    (∀ k, Ex.parRaw.M_tol < s'.G.m k → s'.G.m k = 3 / 4) ∧
    (∀ k, s'.G.m k ≤ Ex.parRaw.M_tol → s'.G.dphi k = 0) ∧ (∑ k, s'.G.dphi k = 0) ∧
    points s'.L ≠ [] := by
  obtain ⟨G, s', hG, hs, hc⟩ := Ex.run_ok (P := Ex.parRaw) (d := Ex.dyn) (L := Ex.LOne) (n := 1)
    (check := fun s => decide ((∀ k, 0 < s.G.m k → s.G.m k = 3 / 4) ∧
      (∀ k, s.G.m k ≤ 0 → s.G.dphi k = 0) ∧ (∑ k, s.G.dphi k = 0)) && !(points s.L).isEmpty)
    (by decide +kernel)
  obtain ⟨s1, h1, h2⟩ := steps_succ.1 hs
  cases h2
  rw [Bool.and_eq_true] at hc
  obtain ⟨c1, c2, c3⟩ := of_decide_eq_true hc.1
  have hl : ∀ A ∈ Ex.LOne, A.ph.n = A.pts.length ∧ A.ph.law ≠ .elastic_time := by decide +kernel
  refine ⟨{ dyn := Ex.dyn, L := Ex.LOne, G := G }, s1, fun A hA => (hl A hA).1,
    fun A hA => (hl A hA).2, ⟨rfl, rfl, rfl, rfl, rfl⟩, h1, c1, c2, c3, fun e => ?_⟩
  have := hc.2
  rw [show points (stepTime Ex.parRaw s1).L = [] from e] at this
  simp at this

end Mpm

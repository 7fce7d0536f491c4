import Verif.Props.Boundary
import Verif.Props.Mapping

/-!
# C17: the silo outlet option
-/

set_option linter.unusedSectionVars false

namespace Mpm
open Spec

section
variable {K : Type} [Field K] [LinearOrder K] [IsStrictOrderedRing K] [FloorRing K] {ns N : ℕ}

/-- With `silo_bottom` as the only vertical restraint, on grids with at least 5 columns, every
node is marked except the five nodes of the bottom row around the middle. -/
theorem c17_marks {P : GP K} (h5 : 5 ≤ P.nx) {B : BP K} (hs : B.silo_bottom = true)
    (h1 : B.has_bottom = false) (h2 : B.has_top = false) (h3 : B.box = false)
    {G : Grid K P.N P.ns} (h : mkGrid P B = .ok G) (k : Fin P.N) :
    G.boundary_h k = true ↔
      ¬ ((k : ℕ) / P.nx = 0 ∧ P.nx / 2 - 2 ≤ (k : ℕ) % P.nx ∧ (k : ℕ) % P.nx < P.nx / 2 + 3) := by
  obtain ⟨eh, -⟩ := mkGrid_masks h
  have hk := k.isLt
  have hpos : 0 < P.nx := by omega
  have hle : P.nx ≤ P.N := nx_le k
  have e1 : (P.nx : ℤ) / 2 - 2 = ((P.nx / 2 - 2 : ℕ) : ℤ) := by omega
  have e2 : (P.nx : ℤ) / 2 + 3 = ((P.nx / 2 + 3 : ℕ) : ℤ) := by omega
  rw [eh]
  simp only [boundaryH, markIf_iff, hs, h1, h2, h3, Bool.false_eq_true, false_and,
    false_or, or_false, true_and, e1, e2, inSlice_lo, inSlice_hi, Nat.mod_one, and_true]
  rw [Nat.min_eq_left (show P.nx / 2 + 3 ≤ P.N by omega),
    Nat.min_eq_left (show P.nx / 2 - 2 ≤ P.N by omega)]
  have hk' : (k : ℕ) < P.ny * P.nx := hk
  by_cases hr : (k : ℕ) / P.nx = 0
  · have hlt : (k : ℕ) < P.nx := by
      rcases Nat.div_eq_zero_iff.1 hr with h | h
      · omega
      · exact h
    rw [Nat.mod_eq_of_lt hlt]
    simp only [hr, true_and]
    omega
  · have hge : P.nx ≤ (k : ℕ) := by
      by_contra hc
      exact hr (Nat.div_eq_of_lt (by omega))
    simp only [hr, false_and, not_false_eq_true, iff_true]
    left
    exact ⟨by omega, hk⟩

/-- Hence after the momentum update of any step the vertical momentum and its rate vanish
everywhere except at those five nodes of the bottom row. -/
theorem c17_no_momentum {P : Par K} (h5 : 5 ≤ P.G.nx) (hs : P.B.silo_bottom = true)
    (h1 : P.B.has_bottom = false) (h2 : P.B.has_top = false) (h3 : P.B.box = false)
    (hcyc : P.B.cyclic_lr = false) (hc : P.B.conveyor = false) {interp : Interp K P.G.N}
    {s s1 s2 : St P} (hG : mkGrid P.G P.B = .ok s.G) (hg : gridPhase P s = .ok s1)
    (hm : momentumPhase P interp s1 = .ok s2) (k : Fin P.G.N)
    (hk : ¬ ((k : ℕ) / P.G.nx = 0 ∧ P.G.nx / 2 - 2 ≤ (k : ℕ) % P.G.nx ∧
      (k : ℕ) % P.G.nx < P.G.nx / 2 + 3)) :
    s2.G.q k 1 = 0 ∧ s2.G.q_dot k 1 = 0 :=
  (c18_no_flow hcyc hc hg hm k).2 ((c17_marks h5 hs h1 h2 h3 hG k).2 hk)

/-- And nothing above the bottom row of cells falls: in one time step no deformable point in a
cell of row `j ≥ 1` changes its height or its vertical velocity.  (The grid may be any grid whose
marks contain those of `silo_bottom`, in particular the one at the start of any later step.) -/
theorem c17_nothing_falls {P : Par K} (hP : GoodGrid P.G) (h5 : 5 ≤ P.G.nx)
    (hs : P.B.silo_bottom = true) (h1 : P.B.has_bottom = false) (h2 : P.B.has_top = false)
    (h3 : P.B.box = false) (hcyc : P.B.cyclic_lr = false) (hc : P.B.conveyor = false)
    {interp : Interp K P.G.N} {s s' : St P} {G0 : Grid K P.G.N P.G.ns}
    (hG0 : mkGrid P.G P.B = .ok G0) (hgeo : Geometry P.G s.G)
    (hmark : ∀ k, G0.boundary_h k = true → s.G.boundary_h k = true)
    (hL : Counted s.L) (h : timeMarch P interp s = .ok s') :
    List.Forall₂ (fun A B => A.ph.law ≠ .rigid → ∀ b ∈ B.pts,
      (∃ a ∈ A.pts, ∀ i j, InCell P.G a.x i j → 1 ≤ j → b.x 1 = a.x 1 ∧
        ∀ va, a.v = .own va → ∃ vb, b.v = .own vb ∧ vb 1 = va 1) ∨
      Fresh P (s.dyn.updateForces P) A.ph b) s.L s'.L := by
  obtain ⟨T, s1, s2, s3, k1, e1, k2, k3, k4, _, hR⟩ := timeMarch_points hL h
  have qz : ∀ k : Fin P.G.N, 1 ≤ (k : ℕ) / P.G.nx → s3.G.q k 1 = 0 ∧ s3.G.q_dot k 1 = 0 := by
    intro k hk
    obtain ⟨-, -, -, e3, e4, -⟩ := segregationPhase_frame k3
    rw [e3, e4]
    refine (c18_no_flow hcyc hc k1 k2 k).2 (hmark k ?_)
    rw [c17_marks h5 hs h1 h2 h3 hG0 k]
    rintro ⟨h0, _⟩
    omega
  refine hR.forall₂ ?_
  rintro p A B ⟨-, -, hB⟩ hl b hb
  rcases hB b hb with ⟨a, ha, hev⟩ | ⟨-, hf⟩
  · left
    refine ⟨a, ha, ?_⟩
    intro i j hc' hj
    have hd : InDomain P.G a.x := by
      obtain ⟨⟨x1, x2⟩, ⟨y1, y2⟩, hi, hj'⟩ := hc'
      have hcx := cellX_pos hP
      have hcy := cellY_pos hP
      have hx := cellX_mul hP
      have hy := cellY_mul hP
      have ex : ∀ i, nodeX P.G i = P.G.x_m + i * cellX P.G := fun _ => rfl
      have ey : ∀ i, nodeY P.G i = P.G.y_m + i * cellY P.G := fun _ => rfl
      rw [ex] at x1 x2
      rw [ey] at y1 y2
      have i1 : ((i + 1 : ℕ) : K) ≤ (P.G.nx : K) - 1 := by
        have : ((i + 1 + 1 : ℕ) : K) ≤ (P.G.nx : K) := by exact_mod_cast hi
        push_cast at this ⊢; linarith
      have j1 : ((j + 1 : ℕ) : K) ≤ (P.G.ny : K) - 1 := by
        have : ((j + 1 + 1 : ℕ) : K) ≤ (P.G.ny : K) := by exact_mod_cast hj'
        push_cast at this ⊢; linarith
      have p1 : 0 ≤ (i : K) * cellX P.G := mul_nonneg (Nat.cast_nonneg _) hcx.le
      have p2 : 0 ≤ (j : K) * cellY P.G := mul_nonneg (Nat.cast_nonneg _) hcy.le
      have p3 := mul_le_mul_of_nonneg_right i1 hcx.le
      have p4 := mul_le_mul_of_nonneg_right j1 hcy.le
      refine ⟨⟨by linarith, by linarith⟩, ⟨by linarith, by linarith⟩⟩
    obtain ⟨a5, a6, hmv, hw, hx, hv, -, -, -, -, hloc⟩ := hev.parts
    obtain ⟨i', j', hcell, hn, -⟩ := hloc hP (Mpm.Geometry.wipe hgeo) hd
    obtain ⟨_, rfl⟩ := c01_cell_unique hP hc' hcell
    rcases hmv with ⟨hl', -⟩ | ⟨-, iv, iv', hmove⟩
    · exact absurd hl' hl
    · obtain ⟨nd, hnd, -, e⟩ := move_ok hmove
      have row : ∀ r, 1 ≤ (nd r : ℕ) / P.G.nx := by
        intro r
        obtain ⟨k, hk, -, hrow⟩ := corner_index hcell.2.2.1 hcell.2.2.2 r
        have := hnd r
        unfold Particle.node at this
        rw [hn] at this
        have e5 : nd r = k := by
          have := this.symm.trans hk
          exact Except.ok.inj this
        rw [e5, hrow]
        omega
      have hb6 : b = a6 := by rw [hw]; unfold wrapped; rw [hcyc]; rfl
      have e6 : a6 = (moveClosed P.M_tol T.d.dt s3.G nd a5 iv).1 := congrArg Prod.fst e
      have d0 : ∀ r, dispInc P.M_tol T.d.dt (a5.N r) s3.G (nd r) 1 = 0 := by
        intro r
        unfold dispInc
        split
        · simp [(qz _ (row r)).1]
        · rfl
      have v0 : ∀ r, velInc P.M_tol T.d.dt (a5.N r) s3.G (nd r) 1 = 0 := by
        intro r
        unfold velInc
        split
        · simp [(qz _ (row r)).2]
        · rfl
      constructor
      · rw [hb6, e6]
        simp [moveClosed, Finset.sum_apply, d0, hx]
      · intro va hva
        rw [hva] at hv
        rw [hb6, e6]
        refine ⟨va + ∑ r, velInc P.M_tol T.d.dt (a5.N r) s3.G (nd r), ?_, ?_⟩
        · simp [moveClosed, hv, addVel]
        · simp [Finset.sum_apply, v0]
  · right
    rw [← T.hd]
    exact hf

end

/-! ## The hypotheses can be met; nx = 4 is different -/

/-- A 4 by 2 domain with 5 by 3 nodes. -/
def Ex.siloGP : GP ℚ := { Ex.gp with x_M := 4, nx := 5 }
def Ex.siloBP : BP ℚ := { Ex.bp with silo_bottom := true }

example : ∃ G, 5 ≤ Ex.siloGP.nx ∧ mkGrid Ex.siloGP Ex.siloBP = .ok G ∧
    G.boundary_h ⟨7, by decide⟩ = true ∧ G.boundary_h ⟨2, by decide⟩ = false := by
  obtain ⟨G, hG⟩ := mkGrid_exists (P := Ex.siloGP) Ex.siloBP
    (by constructor <;> simp [Ex.siloGP, Ex.gp])
  refine ⟨G, by decide, hG, ?_⟩
  rw [(mkGrid_masks hG).1]
  decide +kernel

/-- With four columns the outlet window reaches into the second row: node 4 is not marked. -/
theorem c17_four_columns : ∃ G : Grid ℚ 12 2,
    mkGrid { Ex.gp with nx := 4 } Ex.siloBP = .ok G ∧ G.boundary_h ⟨4, by decide⟩ = false := by
  obtain ⟨G, hG⟩ := mkGrid_exists (P := { Ex.gp with nx := 4 }) Ex.siloBP
    (by constructor <;> simp [Ex.gp])
  refine ⟨G, hG, ?_⟩
  have := (mkGrid_masks hG).1
  exact (congrFun this _).trans (by decide +kernel)

def Ex.siloPar : Par ℚ := { Ex.par with G := Ex.siloGP, B := Ex.siloBP }

/-- One step of a silo in which the first example point (in row 1) cannot fall. -/
example (interp : Interp ℚ Ex.siloPar.G.N) : ∃ (G : Grid ℚ Ex.siloPar.G.N Ex.siloPar.G.ns)
    (s s' : St Ex.siloPar), GoodGrid Ex.siloPar.G ∧
    mkGrid Ex.siloPar.G Ex.siloPar.B = .ok G ∧ s.G = G ∧ Counted s.L ∧
    timeMarch Ex.siloPar interp s = .ok s' ∧ InCell Ex.siloPar.G Ex.mp.x 0 1 := by
  have hg : GoodGrid Ex.siloPar.G := by constructor <;> simp [Ex.siloPar, Ex.siloGP, Ex.gp]
  obtain ⟨G, hG⟩ := mkGrid_exists (P := Ex.siloPar.G) Ex.siloPar.B hg
  have hV : ∀ k, G.V k ≠ 0 := by
    rw [(mkGrid_masks hG).2.2.1]
    decide +kernel
  have hd : ∀ mp ∈ points Ex.L, InDomain Ex.siloPar.G mp.x := by
    intro mp hmp
    simp [points, Ex.L] at hmp
    rcases hmp with rfl | rfl <;>
      · simp [InDomain, Ex.siloPar, Ex.siloGP, Ex.gp, Ex.mp, Ex.mp2]; norm_num
  obtain ⟨s', hs⟩ := timeMarch_exists (P := Ex.siloPar)
    (s := { dyn := { t := 0, dt := 1/100, tstep := 0, g := -10, q_v := 0, q_h := 0 },
            L := Ex.L, G := G }) hg (mkGrid_geometry hG) hV Ex.countedL hd rfl (by
      intro a ha
      have ha' : a = { ph := Ex.ph, pts := [Ex.mp, Ex.mp2] } := List.mem_singleton.1 ha
      rw [ha']
      exact Or.inr (Or.inl rfl)) rfl rfl rfl rfl rfl rfl interp
  refine ⟨G, _, s', hg, hG, rfl, Ex.countedL, hs, ?_⟩
  simp [InCell, nodeX, nodeY, Ex.siloPar, Ex.siloGP, Ex.gp, Ex.mp]
  norm_num

end Mpm

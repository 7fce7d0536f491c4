import Verif.Lemmas.Points

/-! Facts about `mkGrid`, and about points that have just been located on the grid. -/

set_option linter.unusedSectionVars false

namespace Mpm
open Spec

section
variable {K : Type} [Field K] [LinearOrder K] [IsStrictOrderedRing K] {ns : ℕ}

theorem mkGrid_geometry {P : GP K} {B : BP K} {G : Grid K P.N P.ns} (h : mkGrid P B = .ok G) :
    Geometry P G := by
  unfold mkGrid at h
  split at h
  · cases h
  · cases h
    exact ⟨gridDx_eq P, gridDy_eq P, fun _ => rfl, fun _ => rfl⟩

theorem mkGrid_exists {P : GP K} (B : BP K) (hP : GoodGrid P) : ∃ G, mkGrid P B = .ok G := by
  unfold mkGrid
  rw [if_neg (by have := hP.nx; have := hP.ny; omega)]
  exact ⟨_, rfl⟩

theorem Geometry.wipe {P : GP K} {G : Grid K P.N ns} (h : Geometry P G) : Geometry P G.wipe :=
  ⟨h.dx, h.dy, h.X, h.Y⟩

theorem corner_index {nx ny i j : ℕ} (hi : i + 1 < nx) (hj : j + 1 < ny) (r : Fin 4) :
    ∃ k : Fin (ny * nx), pyIdx (ny * nx) (nearbyNodes nx ((i : ℤ) + (j : ℤ) * nx) r) = .ok k ∧
      (k : ℕ) % nx = i + cornerX r ∧ (k : ℕ) / nx = j + cornerY r := by
  have hnx : 0 < nx := by omega
  have key : ∀ a b : ℕ, a < nx → b < ny → nearbyNodes nx ((i : ℤ) + (j : ℤ) * nx) r =
      ((b * nx + a : ℕ) : ℤ) → a = i + cornerX r → b = j + cornerY r →
      ∃ k : Fin (ny * nx), pyIdx (ny * nx) (nearbyNodes nx ((i : ℤ) + (j : ℤ) * nx) r) = .ok k ∧
      (k : ℕ) % nx = i + cornerX r ∧ (k : ℕ) / nx = j + cornerY r := by
    intro a b ha hb he h1 h2
    have hlt : b * nx + a < ny * nx := by
      have := Nat.mul_le_mul_right nx (Nat.succ_le_of_lt hb)
      rw [Nat.succ_mul] at this
      omega
    refine ⟨⟨b * nx + a, hlt⟩, ?_, ?_, ?_⟩
    · rw [he]; exact pyIdx_nonneg hlt
    · simp only
      rw [← h1, Nat.add_comm, Nat.add_mul_mod_self_right, Nat.mod_eq_of_lt ha]
    · simp only
      rw [← h2, Nat.add_comm, Nat.add_mul_div_right _ _ hnx, Nat.div_eq_of_lt ha, Nat.zero_add]
  fin_cases r
  · exact key i j (by omega) (by omega) (by simp [nearbyNodes]; ring) rfl rfl
  · exact key (i + 1) j (by omega) (by omega) (by simp [nearbyNodes]; ring) rfl rfl
  · exact key (i + 1) (j + 1) (by omega) (by omega) (by simp [nearbyNodes]; ring) rfl rfl
  · exact key i (j + 1) (by omega) (by omega) (by simp [nearbyNodes]; ring) rfl rfl

theorem getBasis_ok {N : ℕ} {G : Grid K N ns} {mp mp' : Particle K ns}
    (h : mp.getBasisFunctions G = .ok mp') :
    ∃ k, pyIdx N mp.n_star = .ok k ∧ G.dx * G.dy ≠ 0 ∧
      mp' = { mp with
        N := shapeN G.dx G.dy ![mp.x 0 - G.X k, mp.x 1 - G.Y k, mp.x 2 - 0]
        Gs := shapeG G.dx G.dy ![mp.x 0 - G.X k, mp.x 1 - G.Y k, mp.x 2 - 0] } := by
  unfold Particle.getBasisFunctions at h
  obtain ⟨k, hk, h⟩ := res_bind_ok.1 h
  refine ⟨k, hk, ?_⟩
  simp only at h
  split at h
  · cases h
  · rename_i hd
    refine ⟨hd, ?_⟩
    cases h
    rfl

variable [FloorRing K]

/-- A point in the domain, located on the grid. -/
theorem located {P : GP K} (hP : GoodGrid P) {G : Grid K P.N ns} (hG : Geometry P G)
    {mp : Particle K ns} (hx : InDomain P mp.x) :
    ∃ (i j : ℕ) (nd : Fin 4 → Fin P.N), InCell P mp.x i j ∧
      mp.getReferenceNode P G.dx G.dy = .ok { mp with n_star := (i : ℤ) + (j : ℤ) * P.nx } ∧
      (∀ r, pyIdx P.N (nearbyNodes P.nx ((i : ℤ) + (j : ℤ) * P.nx) r) = .ok (nd r)) ∧
      (∀ r, (nd r : ℕ) % P.nx = i + cornerX r) ∧ (∀ r, (nd r : ℕ) / P.nx = j + cornerY r) := by
  obtain ⟨i, j, hc, h1, h2⟩ := inDomain_cell hP hx
  choose nd hnd using fun r => corner_index hc.2.2.1 hc.2.2.2 r
  refine ⟨i, j, nd, hc, ?_, fun r => (hnd r).1, fun r => (hnd r).2.1, fun r => (hnd r).2.2⟩
  unfold Particle.getReferenceNode
  rw [hG.dx, hG.dy, if_neg (by
    have := cellX_pos hP; have := cellY_pos hP; rintro (h | h) <;> linarith), h1, h2]

/-- The point `mp` after it has been located in cell `(i,j)` and its shape functions computed. -/
def atCell (P : GP K) (mp : Particle K ns) (i j : ℕ) : Particle K ns :=
  { mp with
    n_star := (i : ℤ) + (j : ℤ) * P.nx
    N := shapeN (cellX P) (cellY P) ![mp.x 0 - nodeX P i, mp.x 1 - nodeY P j, mp.x 2]
    Gs := shapeG (cellX P) (cellY P) ![mp.x 0 - nodeX P i, mp.x 1 - nodeY P j, mp.x 2] }

theorem located_basis {P : GP K} (hP : GoodGrid P) {G : Grid K P.N ns} (hG : Geometry P G)
    {mp : Particle K ns} (hx : InDomain P mp.x) :
    ∃ (i j : ℕ) (nd : Fin 4 → Fin P.N), InCell P mp.x i j ∧
      mp.getReferenceNode P G.dx G.dy = .ok { mp with n_star := (i : ℤ) + (j : ℤ) * P.nx } ∧
      Particle.getBasisFunctions G { mp with n_star := (i : ℤ) + (j : ℤ) * P.nx } =
        .ok (atCell P mp i j) ∧
      (∀ r, (atCell P mp i j).node P.nx P.N r = .ok (nd r)) ∧
      (∀ r, (nd r : ℕ) % P.nx = i + cornerX r) ∧ (∀ r, (nd r : ℕ) / P.nx = j + cornerY r) := by
  obtain ⟨i, j, nd, hc, href, hnd, hX, hY⟩ := located hP hG hx
  refine ⟨i, j, nd, hc, href, ?_, hnd, hX, hY⟩
  have h0 : pyIdx P.N ((i : ℤ) + (j : ℤ) * P.nx) = .ok (nd 0) := by
    simpa [nearbyNodes] using hnd 0
  unfold Particle.getBasisFunctions atCell
  simp only [h0, res_ok_bind, hG.dx, hG.dy, hG.X, hG.Y, hX, hY, sub_zero]
  rw [if_neg (mul_pos (cellX_pos hP) (cellY_pos hP)).ne']
  rfl

end
end Mpm

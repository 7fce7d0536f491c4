import Verif.Lemmas.SymMarch
import Verif.Lemmas.Slices

/-! Exchange of the two axes. -/

set_option linter.unusedSectionVars false

namespace Mpm
open Spec

section
variable {nx ny : ℕ}

theorem mkNode_eta (n : Fin (ny * nx)) : mkNode (colF n) (rowF n) = n :=
  node_ext (mkNode_row _ _) (mkNode_col _ _)

end

namespace Spec
section
variable {K : Type} [Field K] {nx ny : ℕ}

/-- The node in row `ix`, column `iy` for the one in column `ix`, row `iy`. -/
def nodeT : Fin (ny * nx) ≃ Fin (nx * ny) where
  toFun n := mkNode (rowF n) (colF n)
  invFun n := mkNode (rowF n) (colF n)
  left_inv n := by dsimp only; rw [rowF_mkNode, colF_mkNode, mkNode_eta]
  right_inv n := by dsimp only; rw [rowF_mkNode, colF_mkNode, mkNode_eta]

/-- The first axis becomes the second and the second the first. -/
def transpose (K : Type) [Field K] (nx ny : ℕ) : Sym K nx ny where
  A := ⟨true, 1, 1, .inl rfl, .inl rfl⟩
  c := 0
  nx' := ny
  ny' := nx
  e := nodeT
  cell n := n / nx + n % nx * ny
  σ := Equiv.swap 1 3

end
end Spec

section
variable {K : Type} [Field K] [LinearOrder K] [IsStrictOrderedRing K] [FloorRing K] {nx ny : ℕ}

theorem nodeT_symm (n : Fin (nx * ny)) :
    (nodeT (nx := nx) (ny := ny)).symm n = mkNode (rowF n) (colF n) := rfl

theorem cell_div {nx : ℕ} {ix iy : ℕ} (h : ix < nx) : ((ix : ℤ) + iy * nx) / nx = iy := by
  have : (nx : ℤ) ≠ 0 := by omega
  rw [Int.add_mul_ediv_right _ _ this, Int.ediv_eq_zero_of_lt (by omega) (by omega), zero_add]

theorem cell_mod {nx : ℕ} {ix iy : ℕ} (h : ix < nx) : ((ix : ℤ) + iy * nx) % nx = ix := by
  rw [Int.add_mul_emod_self_right, Int.emod_eq_of_lt (by omega) (by omega)]

theorem pyIdx_mkNode {n : ℤ} (i : Fin nx) (j : Fin ny) (h : n = (j : ℕ) * (nx : ℤ) + (i : ℕ)) :
    pyIdx (ny * nx) n = .ok (mkNode i j) := by
  have e : n = ((mkNode i j : Fin (ny * nx)) : ℕ) := by rw [h]; simp [mkNode]
  rw [e, pyIdx_nonneg (mkNode i j).isLt]

/-- The corners of a cell. -/
theorem corners_idx {ix iy : ℕ} (hx : ix + 1 < nx) (hy : iy + 1 < ny) (r : Fin 4) :
    pyIdx (ny * nx) (nearbyNodes nx ((ix : ℤ) + iy * nx) r) =
      .ok (mkNode ⟨ix + cornerX r, by fin_cases r <;> simp [cornerX] <;> omega⟩
        ⟨iy + cornerY r, by fin_cases r <;> simp [cornerY] <;> omega⟩) := by
  apply pyIdx_mkNode
  fin_cases r <;> simp [nearbyNodes, cornerX, cornerY] <;> ring

theorem transpose_corners : (transpose K nx ny).Corners := by
  rintro n ⟨ix, iy, hx, hy, rfl⟩
  refine ⟨_, corners_idx hx hy, fun r => ?_⟩
  change pyIdx (nx * ny) (nearbyNodes ny (((ix : ℤ) + iy * nx) / nx + ((ix : ℤ) + iy * nx) % nx * ny) r) = _
  rw [cell_div (by omega), cell_mod (by omega), corners_idx hy hx]
  refine congrArg Except.ok ?_
  change _ = mkNode (rowF (mkNode _ _)) (colF (mkNode _ _))
  rw [rowF_mkNode, colF_mkNode]
  fin_cases r <;> rfl

theorem swap_true : (transpose K nx ny).A.swap = true := rfl

theorem loadX_T (k : Fin (nx * ny)) :
    loadX (K := K) ny nx k = loadY nx ny (mkNode (rowF k) (colF k)) := by
  unfold loadX loadY
  simp only [inLeft_iff, inRight_iff, inBottom_iff, inTop_iff, mkNode_row]
  rfl

theorem loadY_T (k : Fin (nx * ny)) :
    loadY (K := K) ny nx k = loadX nx ny (mkNode (rowF k) (colF k)) := by
  unfold loadX loadY
  simp only [inLeft_iff, inRight_iff, inBottom_iff, inTop_iff, mkNode_col]
  rfl

theorem transpose_ok : (transpose K nx ny).Ok where
  corners := transpose_corners
  lx k := (loadX_T k).trans (one_mul _).symm
  ly k := (loadY_T k).trans (one_mul _).symm
  gx h Z k := by
    rw [if_pos swap_true]
    change _ = signX 1 _
    rw [signX_one]
    change gradX h (fun k => Z (mkNode (rowF k) (colF k))) k = gradY h Z (mkNode (rowF k) (colF k))
    unfold gradX gradY
    simp only [rowF_mkNode, colF_mkNode]
    rfl
  gy h Z k := by
    rw [if_pos swap_true]
    change _ = signX 1 _
    rw [signX_one]
    change gradY h (fun k => Z (mkNode (rowF k) (colF k))) k = gradX h Z (mkNode (rowF k) (colF k))
    unfold gradX gradY
    simp only [rowF_mkNode, colF_mkNode]
    rfl
  mx h mk Z k _ := by
    rw [if_pos swap_true]
    change _ = signX 1 _
    rw [signX_one]
    change maX h (fun k => mk (mkNode (rowF k) (colF k))) (fun k => Z (mkNode (rowF k) (colF k))) k =
      maY h mk Z (mkNode (rowF k) (colF k))
    unfold maX maY
    simp only [rowF_mkNode, colF_mkNode]
    rfl
  my h mk Z k _ := by
    rw [if_pos swap_true]
    change _ = signX 1 _
    rw [signX_one]
    change maY h (fun k => mk (mkNode (rowF k) (colF k))) (fun k => Z (mkNode (rowF k) (colF k))) k =
      maX h mk Z (mkNode (rowF k) (colF k))
    unfold maX maY
    simp only [rowF_mkNode, colF_mkNode]
    rfl
  kx cyc c dt h s phi g bnd k j hc := by
    rw [hc rfl, if_pos swap_true]
    change ktRow false c dt h s (fun k => phi (mkNode (rowF k) (colF k)))
      (fun k => (1 : K) * g (mkNode (rowF k) (colF k))) (fun k => bnd (mkNode (rowF k) (colF k))) k j =
        ktCol c dt h s phi g bnd (mkNode (rowF k) (colF k)) j
    unfold ktRow ktCol
    simp only [rowF_mkNode, colF_mkNode, one_mul]
    rfl
  ky cyc c dt h s phi g bnd k j hc := by
    rw [hc rfl, if_pos swap_true]
    change ktCol c dt h s (fun k => phi (mkNode (rowF k) (colF k)))
      (fun k => (1 : K) * g (mkNode (rowF k) (colF k))) (fun k => bnd (mkNode (rowF k) (colF k))) k j =
        ktRow false c dt h s phi g bnd (mkNode (rowF k) (colF k)) j
    unfold ktRow ktCol
    simp only [rowF_mkNode, colF_mkNode, one_mul]
    rfl
  cyc h := by cases h

theorem transpose_v (x : Vec K) : (transpose K nx ny).A.v x = ![x 1, x 0, x 2] := by
  funext i
  fin_cases i
  · exact (v_zero_comp _ x).trans (one_mul _)
  · exact (v_one_comp _ x).trans (one_mul _)
  · exact v_two_comp _ x

theorem basis_eq {N ns : ℕ} {G : Grid K N ns} {mp : Particle K ns} {n : Fin N}
    (h : pyIdx N mp.n_star = .ok n) : mp.getBasisFunctions G =
      if G.dx * G.dy = 0 then .error .nonFinite
      else .ok { mp with
        N := shapeN G.dx G.dy ![mp.x 0 - G.X n, mp.x 1 - G.Y n, mp.x 2 - 0]
        Gs := shapeG G.dx G.dy ![mp.x 0 - G.X n, mp.x 1 - G.Y n, mp.x 2 - 0] } := by
  unfold Particle.getBasisFunctions
  rw [h]
  rfl

theorem shapeN_T (dx dy x y z z' : K) (r : Fin 4) :
    shapeN dy dx ![y, x, z] r = shapeN dx dy ![x, y, z'] (Equiv.swap 1 3 r) := by
  rw [show Equiv.swap (1 : Fin 4) 3 r = ![0, 3, 2, 1] r by fin_cases r <;> rfl]
  fin_cases r <;> simp [shapeN] <;> ring

theorem shapeG_T (dx dy x y z z' : K) (r : Fin 4) :
    shapeG dy dx ![y, x, z] r = ![shapeG dx dy ![x, y, z'] (Equiv.swap 1 3 r) 1,
      shapeG dx dy ![x, y, z'] (Equiv.swap 1 3 r) 0, shapeG dx dy ![x, y, z'] (Equiv.swap 1 3 r) 2] := by
  rw [show Equiv.swap (1 : Fin 4) 3 r = ![0, 3, 2, 1] r by fin_cases r <;> rfl]
  fin_cases r <;> funext i <;> fin_cases i <;> simp [shapeG] <;> ring

theorem transpose_geo {P : GP K} (hP : GoodGrid P) :
    Sym.Geo P (transpose K P.nx P.ny) (InDomain P) where
  c2 := rfl
  wrap h := by cases h
  ref {ns} mp hQ := by
    obtain ⟨i, j, hij, hi, hj⟩ := inDomain_cell hP hQ
    unfold Particle.getReferenceNode
    have hz : ¬ (cellX P = 0 ∨ cellY P = 0) := fun h => h.elim (cellX_pos hP).ne' (cellY_pos hP).ne'
    have hz' : ¬ ((if (transpose K P.nx P.ny).A.swap then cellY P else cellX P) = 0 ∨
        (if (transpose K P.nx P.ny).A.swap then cellX P else cellY P) = 0) :=
      fun h => h.elim (cellY_pos hP).ne' (cellX_pos hP).ne'
    rw [if_neg hz, if_neg hz']
    refine congrArg (fun n => (Except.ok { (transpose K P.nx P.ny).pt mp with n_star := n } :
      Res (Particle K ns))) ?_
    have e0 : ((transpose K P.nx P.ny).pt mp).x 0 = mp.x 1 := by
      change (transpose K P.nx P.ny).A.v mp.x 0 + (0 : Vec K) 0 = _
      rw [transpose_v]; exact add_zero _
    have e1 : ((transpose K P.nx P.ny).pt mp).x 1 = mp.x 0 := by
      change (transpose K P.nx P.ny).A.v mp.x 1 + (0 : Vec K) 1 = _
      rw [transpose_v]; exact add_zero _
    rw [e0, e1]
    change pyTrunc ((mp.x 1 - P.y_m) / cellY P) + pyTrunc ((mp.x 0 - P.x_m) / cellX P) * P.ny =
      (pyTrunc ((mp.x 0 - P.x_m) / cellX P) + pyTrunc ((mp.x 1 - P.y_m) / cellY P) * P.nx) / P.nx +
      (pyTrunc ((mp.x 0 - P.x_m) / cellX P) + pyTrunc ((mp.x 1 - P.y_m) / cellY P) * P.nx) % P.nx * P.ny
    have := hij.2.2.1
    rw [hi, hj, cell_div (by omega), cell_mod (by omega)]
  cell {ns} mp mp' hQ h := by
    obtain ⟨i, j, hij, hi, hj⟩ := inDomain_cell hP hQ
    unfold Particle.getReferenceNode at h
    split at h
    · cases h
    · cases h
      exact ⟨i, j, hij.2.2.1, hij.2.2.2, by dsimp only; rw [hi, hj]⟩
  basis {ns} s G mp hG hn := by
    obtain ⟨ix, iy, hx, hy, hn⟩ := hn
    have h1 := corners_idx hx hy 0
    have h2 := corners_idx hy hx 0
    have h1' : pyIdx P.N mp.n_star = .ok (mkNode ⟨ix, by omega⟩ ⟨iy, by omega⟩) := by
      rw [hn]; simpa [nearbyNodes, cornerX, cornerY] using h1
    have h2' : pyIdx (P.nx * P.ny) ((transpose K P.nx P.ny).pt mp).n_star =
        .ok (mkNode ⟨iy, by omega⟩ ⟨ix, by omega⟩) := by
      change pyIdx _ (mp.n_star / P.nx + mp.n_star % P.nx * P.ny) = _
      rw [hn, cell_div (by omega), cell_mod (by omega)]
      simpa [nearbyNodes, cornerX, cornerY] using h2
    have e : (transpose K P.nx P.ny).e.symm (mkNode (nx := P.ny) (ny := P.nx) ⟨iy, by omega⟩
        ⟨ix, by omega⟩) = mkNode ⟨ix, by omega⟩ ⟨iy, by omega⟩ := by
      change mkNode (rowF (mkNode _ _)) (colF (mkNode _ _)) = _
      rw [rowF_mkNode, colF_mkNode]
    rw [basis_eq h1']
    refine (basis_eq (N := P.nx * P.ny) (G := (transpose K P.nx P.ny).grid s G) h2').trans ?_
    generalize (mkNode ⟨ix, by omega⟩ ⟨iy, by omega⟩ : Fin (P.ny * P.nx)) = n at e
    generalize (mkNode ⟨iy, by omega⟩ ⟨ix, by omega⟩ : Fin (P.nx * P.ny)) = n' at e
    have hX : ((transpose K P.nx P.ny).grid s G).X n' = G.Y n := by
      change (transpose K P.nx P.ny).A.v ![G.X _, G.Y _, 0] 0 + (0 : Vec K) 0 = _
      rw [e, transpose_v]; exact add_zero _
    have hY : ((transpose K P.nx P.ny).grid s G).Y n' = G.X n := by
      change (transpose K P.nx P.ny).A.v ![G.X _, G.Y _, 0] 1 + (0 : Vec K) 1 = _
      rw [e, transpose_v]; exact add_zero _
    have e0 : ((transpose K P.nx P.ny).pt mp).x 0 = mp.x 1 := by
      change (transpose K P.nx P.ny).A.v mp.x 0 + (0 : Vec K) 0 = _
      rw [transpose_v]; exact add_zero _
    have e1 : ((transpose K P.nx P.ny).pt mp).x 1 = mp.x 0 := by
      change (transpose K P.nx P.ny).A.v mp.x 1 + (0 : Vec K) 1 = _
      rw [transpose_v]; exact add_zero _
    rw [hX, hY, e0, e1]
    change (if G.dy * G.dx = 0 then _ else _) = _
    rw [mul_comm G.dy G.dx]
    refine ite_equiv rfl ?_
    refine congrArg₂ (fun N Gs => (Except.ok { (transpose K P.nx P.ny).pt mp with N := N, Gs := Gs } :
      Res (Particle K ns))) ?_ ?_
    · exact funext (shapeN_T G.dx G.dy _ _ _ _)
    · funext r
      change shapeG G.dy G.dx _ r = (transpose K P.nx P.ny).A.v (shapeG G.dx G.dy _ (Equiv.swap 1 3 r))
      rw [transpose_v]
      exact shapeG_T G.dx G.dy _ _ _ _ r

end
end Mpm

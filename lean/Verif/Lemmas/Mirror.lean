import Verif.Lemmas.Transpose
import Verif.Lemmas.KTMirror

/-! Exchange of left and right. -/

set_option linter.unusedSectionVars false

namespace Mpm
open Spec

namespace Spec
section
variable {K : Type} [Field K] {nx ny : ℕ}

/-- The node in the same row and the column counted from the other end. -/
def nodeM : Fin (ny * nx) ≃ Fin (ny * nx) where
  toFun n := mkNode (colF n).rev (rowF n)
  invFun n := mkNode (colF n).rev (rowF n)
  left_inv n := by dsimp only; rw [rowF_mkNode, colF_mkNode, Fin.rev_rev, mkNode_eta]
  right_inv n := by dsimp only; rw [rowF_mkNode, colF_mkNode, Fin.rev_rev, mkNode_eta]

/-- `x` becomes `x_m + x_M - x`. -/
def mirror (P : GP K) : Sym K P.nx P.ny where
  A := ⟨false, -1, 1, .inr rfl, .inl rfl⟩
  c := ![P.x_m + P.x_M, 0, 0]
  nx' := P.nx
  ny' := P.ny
  e := nodeM
  cell n := (P.nx - 2 - n % P.nx) + n / P.nx * P.nx
  σ := ⟨![1, 0, 3, 2], ![1, 0, 3, 2], by decide, by decide⟩

/-- A position in the domain and on no vertical grid line. -/
def OffLines [LinearOrder K] (P : GP K) (x : Vec K) : Prop :=
  InDomain P x ∧ ∀ i : ℕ, x 0 ≠ nodeX P i

end
end Spec

section
variable {K : Type} [Field K] [LinearOrder K] [IsStrictOrderedRing K] [FloorRing K] {nx ny : ℕ}

theorem mirror_corners (P : GP K) : (mirror P).Corners := by
  rintro n ⟨ix, iy, hx, hy, rfl⟩
  refine ⟨_, corners_idx hx hy, fun r => ?_⟩
  have e : ((P.nx : ℤ) - 2 - ((ix : ℤ) + iy * P.nx) % P.nx) + ((ix : ℤ) + iy * P.nx) / P.nx * P.nx =
      ((P.nx - 2 - ix : ℕ) : ℤ) + iy * P.nx := by
    rw [cell_div (by omega), cell_mod (by omega)]
    omega
  refine (congrArg (fun n => pyIdx (P.ny * P.nx) (nearbyNodes P.nx n r)) e).trans ?_
  rw [corners_idx (by omega) hy]
  refine congrArg Except.ok ?_
  change _ = mkNode (colF (mkNode _ _)).rev (rowF (mkNode _ _))
  rw [rowF_mkNode, colF_mkNode]
  refine congrArg₂ mkNode (Fin.ext ?_) (Fin.ext ?_)
  · rw [Fin.val_rev]
    fin_cases r <;> simp [cornerX, mirror] <;> omega
  · fin_cases r <;> rfl

theorem loadX_M (k : Fin (ny * nx)) :
    loadX (K := K) nx ny k = -loadX nx ny (mkNode (colF k).rev (rowF k)) := by
  unfold loadX
  simp only [inLeft_iff, inRight_iff, mkNode_col, Fin.val_rev]
  have e : ((colF k : Fin nx) : ℕ) = (k : ℕ) % nx := rfl
  have h := node_col_lt k
  have h1 : (nx - ((k : ℕ) % nx + 1) = 0) ↔ (k : ℕ) % nx = nx - 1 := by omega
  have h2 : (nx - ((k : ℕ) % nx + 1) = nx - 1) ↔ (k : ℕ) % nx = 0 := by omega
  simp only [e, h1, h2]
  ring

theorem loadY_M (k : Fin (ny * nx)) :
    loadY (K := K) nx ny k = loadY nx ny (mkNode (colF k).rev (rowF k)) := by
  unfold loadY
  simp only [inBottom_iff, inTop_iff, mkNode_row]
  rfl

theorem neg_sub_swap (x y : XF K) : -(x - y) = y - x := by
  rw [neg_sub'']
  change -x + - -y = y + -x
  rw [neg_neg', add_comm (G := XF K)]

theorem npGradient_rev {n : ℕ} (h : K) (f : Fin n → XF K) (i : Fin n) :
    npGradient h (fun k => f k.rev) i = -npGradient h f i.rev := by
  unfold npGradient
  dsimp only
  have hi := i.isLt
  rw [← neg_div', neg_sub_swap]
  have e1 : (⟨min (i.val + 1) (n - 1), by omega⟩ : Fin n).rev = ⟨i.rev.val - 1, by omega⟩ := by
    apply Fin.ext; simp only [Fin.val_rev]; omega
  have e2 : (⟨i.val - 1, by omega⟩ : Fin n).rev = ⟨min (i.rev.val + 1) (n - 1), by omega⟩ := by
    apply Fin.ext; simp only [Fin.val_rev]; omega
  have e3 : min (i.val + 1) (n - 1) - (i.val - 1) = min (i.rev.val + 1) (n - 1) - (i.rev.val - 1) := by
    simp only [Fin.val_rev]; omega
  rw [e1, e2, e3]

theorem makeCyclic_M {α : Type} [AddCommMonoid α] (a : Fin (ny * nx) → α) (k : Fin (ny * nx)) :
    makeCyclic (nx := nx) (ny := ny) (fun k => a (mkNode (colF k).rev (rowF k))) k =
      makeCyclic (nx := nx) (ny := ny) a (mkNode (colF k).rev (rowF k)) := by
  unfold makeCyclic
  dsimp only
  have hk := node_col_lt k
  have hc : ((mkNode (colF k).rev (rowF k) : Fin (ny * nx)) : ℕ) % nx = nx - 1 - (k : ℕ) % nx := by
    rw [mkNode_col, Fin.val_rev]
    change nx - ((k : ℕ) % nx + 1) = _
    omega
  have hr : rightOf (nx := nx) (mkNode (colF k).rev (rowF k)) = mkNode (colF (leftOf k)).rev (rowF (leftOf k)) := by
    refine node_ext ?_ ?_
    · rw [rightOf_row, mkNode_row, mkNode_row]
      exact (leftOf_row k).symm
    · rw [rightOf_col, mkNode_col, Fin.val_rev]
      have : ((colF (leftOf k) : Fin nx) : ℕ) = 0 := leftOf_col k
      rw [this]
  have hl : leftOf (nx := nx) (mkNode (colF k).rev (rowF k)) = mkNode (colF (rightOf k)).rev (rowF (rightOf k)) := by
    refine node_ext ?_ ?_
    · rw [leftOf_row, mkNode_row, mkNode_row]
      exact (rightOf_row k).symm
    · rw [leftOf_col, mkNode_col, Fin.val_rev]
      have : ((colF (rightOf k) : Fin nx) : ℕ) = nx - 1 := rightOf_col k
      rw [this]
      omega
  rw [hc, hr, hl]
  have h1 : (nx - 1 - (k : ℕ) % nx = 0) ↔ (k : ℕ) % nx = nx - 1 := by omega
  have h2 : (nx - 1 - (k : ℕ) % nx = nx - 1) ↔ (k : ℕ) % nx = 0 := by omega
  simp only [h1, h2]
  split_ifs
  · rw [add_right_comm]
  · rfl
  · rfl
  · rfl

theorem gradX_M (h : K) (Z : Fin (ny * nx) → XF K) (k : Fin (ny * nx)) :
    gradX h (fun k => Z (mkNode (colF k).rev (rowF k))) k =
      -gradX h Z (mkNode (colF k).rev (rowF k)) := by
  unfold gradX
  simp only [rowF_mkNode, colF_mkNode]
  exact npGradient_rev h (fun ix => Z (mkNode ix (rowF k))) (colF k)

theorem gradY_M (h : K) (Z : Fin (ny * nx) → XF K) (k : Fin (ny * nx)) :
    gradY h (fun k => Z (mkNode (colF k).rev (rowF k))) k =
      gradY h Z (mkNode (colF k).rev (rowF k)) := by
  unfold gradY
  simp only [rowF_mkNode, colF_mkNode]

theorem maX_clear (h : K) {mk : Fin (ny * nx) → Bool} (hm : ∀ n, mk n = false)
    (Z : Fin (ny * nx) → XF K) (k : Fin (ny * nx)) : maX h mk Z k = gradX h Z k := by
  unfold maX maGradient gradX
  simp only [hm, Bool.or_self, Bool.false_eq_true, if_false]

theorem maY_M (h : K) (mk : Fin (ny * nx) → Bool) (Z : Fin (ny * nx) → XF K) (k : Fin (ny * nx)) :
    maY h (fun k => mk (mkNode (colF k).rev (rowF k))) (fun k => Z (mkNode (colF k).rev (rowF k))) k =
      maY h mk Z (mkNode (colF k).rev (rowF k)) := by
  unfold maY
  simp only [rowF_mkNode, colF_mkNode]

theorem ktRow_M {ns : ℕ} (cyc : Bool) (c dt h : K) (s : Fin ns → K) (phi : Fin (ny * nx) → Fin ns → K)
    (g : Fin (ny * nx) → K) (bnd : Fin (ny * nx) → Bool) (k : Fin (ny * nx)) (j : Fin ns) :
    ktRow cyc c dt h s (fun k => phi (mkNode (colF k).rev (rowF k)))
      (fun k => (-1 : K) * g (mkNode (colF k).rev (rowF k)))
      (fun k => bnd (mkNode (colF k).rev (rowF k))) k j =
        ktRow cyc c dt h s phi g bnd (mkNode (colF k).rev (rowF k)) j := by
  unfold ktRow
  simp only [rowF_mkNode, colF_mkNode, neg_one_mul]
  have : NeZero nx := ⟨(nx_pos_of_node k).ne'⟩
  exact ktLine_rev cyc c dt h s (fun ix => phi (mkNode ix (rowF k))) (fun ix => g (mkNode ix (rowF k)))
    (fun ix => bnd (mkNode ix (rowF k))) j (colF k)

theorem ktCol_M {ns : ℕ} (c dt h : K) (s : Fin ns → K) (phi : Fin (ny * nx) → Fin ns → K)
    (g : Fin (ny * nx) → K) (bnd : Fin (ny * nx) → Bool) (k : Fin (ny * nx)) (j : Fin ns) :
    ktCol c dt h s (fun k => phi (mkNode (colF k).rev (rowF k)))
      (fun k => (1 : K) * g (mkNode (colF k).rev (rowF k)))
      (fun k => bnd (mkNode (colF k).rev (rowF k))) k j =
        ktCol c dt h s phi g bnd (mkNode (colF k).rev (rowF k)) j := by
  unfold ktCol
  simp only [rowF_mkNode, colF_mkNode, one_mul]

theorem mirror_ok (P : GP K) : (mirror P).Ok where
  corners := mirror_corners P
  lx k := by
    change loadX P.nx P.ny k = -1 * loadX P.nx P.ny (mkNode (colF k).rev (rowF k))
    rw [neg_one_mul]
    exact loadX_M k
  ly k := (loadY_M k).trans (one_mul _).symm
  gx h Z k := (gradX_M h Z k).trans (signX_neg_one _).symm
  gy h Z k := (gradY_M h Z k).trans (signX_one _).symm
  mx h mk Z k hm := by
    have hm : ∀ n, mk n = false := hm.resolve_left fun h => by
      have h : (-1 : K) = 1 := h
      linarith
    refine (maX_clear h (fun n => hm _) _ k).trans ?_
    refine ((gradX_M h Z k).trans (signX_neg_one _).symm).trans (congrArg _ ?_)
    exact (maX_clear h hm Z _).symm
  my h mk Z k _ := (maY_M h mk Z k).trans (signX_one _).symm
  kx cyc c dt h s phi g bnd k j _ := ktRow_M cyc c dt h s phi g bnd k j
  ky cyc c dt h s phi g bnd k j _ := ktCol_M c dt h s phi g bnd k j
  cyc _ α _ a := funext fun k => makeCyclic_M a k

theorem mirror_v (P : GP K) (x : Vec K) : (mirror P).A.v x = ![-x 0, x 1, x 2] := by
  funext i
  fin_cases i
  · exact (v_zero_comp _ x).trans (neg_one_mul _)
  · exact (v_one_comp _ x).trans (one_mul _)
  · exact v_two_comp _ x

theorem mirror_x0 (P : GP K) {ns : ℕ} (mp : Particle K ns) :
    ((mirror P).pt mp).x 0 = P.x_m + P.x_M - mp.x 0 := by
  change (mirror P).A.v mp.x 0 + (P.x_m + P.x_M) = _
  rw [mirror_v]
  change -mp.x 0 + (P.x_m + P.x_M) = _
  ring

theorem mirror_x1 (P : GP K) {ns : ℕ} (mp : Particle K ns) : ((mirror P).pt mp).x 1 = mp.x 1 := by
  change (mirror P).A.v mp.x 1 + 0 = _
  rw [mirror_v]
  exact add_zero _

theorem pyTrunc_eq {x : K} {n : ℕ} (h1 : (n : K) ≤ x) (h2 : x < n + 1) : pyTrunc x = n := by
  unfold pyTrunc
  rw [if_pos (le_trans (Nat.cast_nonneg n) h1), Int.floor_eq_iff]
  exact ⟨by simpa using h1, by simpa using h2⟩

/-- The column counted from the other end. -/
theorem trunc_mirror {P : GP K} (hP : GoodGrid P) {x : Vec K} (hQ : OffLines P x) {i j : ℕ}
    (h : InCell P x i j) :
    pyTrunc ((P.x_m + P.x_M - x 0 - P.x_m) / cellX P) = ((P.nx - 2 - i : ℕ) : ℤ) := by
  have hd := cellX_pos hP
  have hm := cellX_mul hP
  have hl := lt_of_le_of_ne h.1.1 (hQ.2 i).symm
  have hr := h.1.2
  rw [nodeX_succ] at hr
  have e : nodeX P i = P.x_m + i * cellX P := rfl
  rw [e] at hl hr
  have hi := h.2.2.1
  have hc : ((P.nx - 2 - i : ℕ) : K) = (P.nx : K) - 2 - i := by
    rw [Nat.cast_sub (by omega), Nat.cast_sub (by omega)]
    norm_num
  apply pyTrunc_eq
  · rw [hc, le_div_iff₀ hd]
    nlinarith
  · rw [hc, div_lt_iff₀ hd]
    nlinarith

theorem shapeN_M (dx dy x y z z' : K) (r : Fin 4) :
    shapeN dx dy ![dx - x, y, z] r = shapeN dx dy ![x, y, z'] (![1, 0, 3, 2] r) := by
  fin_cases r <;> simp [shapeN]

theorem shapeG_M (dx dy x y z z' : K) (r : Fin 4) :
    shapeG dx dy ![dx - x, y, z] r = ![-shapeG dx dy ![x, y, z'] (![1, 0, 3, 2] r) 0,
      shapeG dx dy ![x, y, z'] (![1, 0, 3, 2] r) 1, shapeG dx dy ![x, y, z'] (![1, 0, 3, 2] r) 2] := by
  fin_cases r <;> funext i <;> fin_cases i <;> simp [shapeG] <;> ring

theorem wrapX_mirror {P : GP K} (h : P.x_m ≤ P.x_M) (x : K) :
    wrapX P (P.x_m + P.x_M - x) = P.x_m + P.x_M - wrapX P x := by
  unfold wrapX
  dsimp only
  split_ifs <;> linarith

theorem mirror_geo {P : GP K} (hP : GoodGrid P) : Sym.Geo P (mirror P) (OffLines P) where
  c2 := rfl
  wrap _ x := by
    change wrapX P (-1 * x + (P.x_m + P.x_M)) = -1 * wrapX P x + (P.x_m + P.x_M)
    have h := wrapX_mirror hP.x.le x
    rw [show -1 * x + (P.x_m + P.x_M) = P.x_m + P.x_M - x by ring, h]
    ring
  ref {ns} mp hQ := by
    obtain ⟨i, j, hij, hi, hj⟩ := inDomain_cell hP hQ.1
    unfold Particle.getReferenceNode
    have hz : ¬ (cellX P = 0 ∨ cellY P = 0) := fun h => h.elim (cellX_pos hP).ne' (cellY_pos hP).ne'
    have hz' : ¬ ((if (mirror P).A.swap then cellY P else cellX P) = 0 ∨
        (if (mirror P).A.swap then cellX P else cellY P) = 0) := hz
    rw [if_neg hz, if_neg hz']
    refine congrArg (fun n => (Except.ok { (mirror P).pt mp with n_star := n } :
      Res (Particle K ns))) ?_
    rw [mirror_x0, mirror_x1]
    change pyTrunc ((P.x_m + P.x_M - mp.x 0 - P.x_m) / cellX P) + pyTrunc ((mp.x 1 - P.y_m) / cellY P) * P.nx =
      (P.nx - 2 - (pyTrunc ((mp.x 0 - P.x_m) / cellX P) + pyTrunc ((mp.x 1 - P.y_m) / cellY P) * P.nx) % P.nx) +
      (pyTrunc ((mp.x 0 - P.x_m) / cellX P) + pyTrunc ((mp.x 1 - P.y_m) / cellY P) * P.nx) / P.nx * P.nx
    have := hij.2.2.1
    rw [hi, hj, cell_div (by omega), cell_mod (by omega), trunc_mirror hP hQ hij]
    omega
  cell {ns} mp mp' hQ h := by
    obtain ⟨i, j, hij, hi, hj⟩ := inDomain_cell hP hQ.1
    unfold Particle.getReferenceNode at h
    split at h
    · cases h
    · cases h
      exact ⟨i, j, hij.2.2.1, hij.2.2.2, by dsimp only; rw [hi, hj]⟩
  basis {ns} s G mp hG hn := by
    obtain ⟨ix, iy, hx, hy, hn⟩ := hn
    have h1 := corners_idx hx hy 0
    have h2 := corners_idx (nx := P.nx) (ix := P.nx - 2 - ix) (by omega) hy 0
    have h1' : pyIdx P.N mp.n_star = .ok (mkNode ⟨ix, by omega⟩ ⟨iy, by omega⟩) := by
      rw [hn]; simpa [nearbyNodes, cornerX, cornerY] using h1
    have h2' : pyIdx (P.ny * P.nx) ((mirror P).pt mp).n_star =
        .ok (mkNode ⟨P.nx - 2 - ix, by omega⟩ ⟨iy, by omega⟩) := by
      change pyIdx _ ((P.nx - 2 - mp.n_star % P.nx) + mp.n_star / P.nx * P.nx) = _
      have e : ((P.nx : ℤ) - 2 - (ix : ℤ)) = ((P.nx - 2 - ix : ℕ) : ℤ) := by omega
      rw [hn, cell_div (by omega), cell_mod (by omega), e]
      simpa [nearbyNodes, cornerX, cornerY] using h2
    have e : (mirror P).e.symm (mkNode (nx := P.nx) (ny := P.ny) ⟨P.nx - 2 - ix, by omega⟩
        ⟨iy, by omega⟩) = mkNode ⟨ix + 1, by omega⟩ ⟨iy, by omega⟩ := by
      change mkNode (colF (mkNode _ _)).rev (rowF (mkNode _ _)) = _
      rw [rowF_mkNode, colF_mkNode]
      refine congrArg₂ mkNode (Fin.ext ?_) rfl
      rw [Fin.val_rev]
      change P.nx - (P.nx - 2 - ix + 1) = ix + 1
      omega
    have hX0 : G.X (mkNode ⟨ix + 1, by omega⟩ ⟨iy, by omega⟩) =
        G.X (mkNode ⟨ix, by omega⟩ ⟨iy, by omega⟩) + G.dx := by
      rw [hG.X, hG.X, mkNode_col, mkNode_col, hG.dx]
      exact nodeX_succ P ix
    have hY0 : G.Y (mkNode ⟨ix + 1, by omega⟩ ⟨iy, by omega⟩) =
        G.Y (mkNode ⟨ix, by omega⟩ ⟨iy, by omega⟩) := by
      rw [hG.Y, hG.Y, mkNode_row, mkNode_row]
    rw [basis_eq h1']
    refine (basis_eq (N := P.ny * P.nx) (G := (mirror P).grid s G) h2').trans ?_
    generalize (mkNode ⟨ix, by omega⟩ ⟨iy, by omega⟩ : Fin (P.ny * P.nx)) = n at hX0 hY0
    generalize (mkNode ⟨ix + 1, by omega⟩ ⟨iy, by omega⟩ : Fin (P.ny * P.nx)) = n1 at hX0 hY0 e
    generalize (mkNode ⟨P.nx - 2 - ix, by omega⟩ ⟨iy, by omega⟩ : Fin (P.ny * P.nx)) = n' at e
    have hX : ((mirror P).grid s G).X n' = P.x_m + P.x_M - (G.X n + G.dx) := by
      change (mirror P).A.v ![G.X _, G.Y _, 0] 0 + (P.x_m + P.x_M) = _
      rw [e, mirror_v]
      change -G.X n1 + (P.x_m + P.x_M) = _
      rw [hX0]; ring
    have hY : ((mirror P).grid s G).Y n' = G.Y n := by
      change (mirror P).A.v ![G.X _, G.Y _, 0] 1 + 0 = _
      rw [e, mirror_v]
      exact (add_zero _).trans hY0
    rw [hX, hY, mirror_x0, mirror_x1]
    have ex : P.x_m + P.x_M - mp.x 0 - (P.x_m + P.x_M - (G.X n + G.dx)) = G.dx - (mp.x 0 - G.X n) := by ring
    rw [ex]
    change (if G.dx * G.dy = 0 then _ else _) = _
    refine ite_equiv rfl ?_
    refine congrArg₂ (fun N Gs => (Except.ok { (mirror P).pt mp with N := N, Gs := Gs } :
      Res (Particle K ns))) ?_ ?_
    · exact funext (shapeN_M G.dx G.dy _ _ _ _)
    · funext r
      change shapeG G.dx G.dy _ r = (mirror P).A.v (shapeG G.dx G.dy _ (![1, 0, 3, 2] r))
      rw [mirror_v]
      exact shapeG_M G.dx G.dy _ _ _ _ r

end
end Mpm

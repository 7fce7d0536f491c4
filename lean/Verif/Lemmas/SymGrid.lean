import Verif.Lemmas.Sym

/-! Symmetries of the grid: the operations on nodal fields. -/

set_option linter.unusedSectionVars false

namespace Mpm
open Spec

namespace Spec
section
variable {K : Type} [Field K] [LinearOrder K] {ns nx ny : ℕ}

/-- Differences along rows and columns. -/
def gradX (h : K) (Z : Fin (ny * nx) → XF K) (n : Fin (ny * nx)) : XF K :=
  npGradient h (fun ix => Z (mkNode ix (rowF n))) (colF n)
def gradY (h : K) (Z : Fin (ny * nx) → XF K) (n : Fin (ny * nx)) : XF K :=
  npGradient h (fun iy => Z (mkNode (colF n) iy)) (rowF n)

/-- Differences along rows and columns of a masked field. -/
def maX (h : K) (mk : Fin (ny * nx) → Bool) (Z : Fin (ny * nx) → XF K) (n : Fin (ny * nx)) : XF K :=
  maGradient h (fun ix => mk (mkNode ix (rowF n))) (fun ix => Z (mkNode ix (rowF n))) (colF n)
def maY (h : K) (mk : Fin (ny * nx) → Bool) (Z : Fin (ny * nx) → XF K) (n : Fin (ny * nx)) : XF K :=
  maGradient h (fun iy => mk (mkNode (colF n) iy)) (fun iy => Z (mkNode (colF n) iy)) (rowF n)

/-- Segregation along rows and columns. -/
def ktRow (cyc : Bool) (c dt h : K) (s : Fin ns → K) (phi : Fin (ny * nx) → Fin ns → K)
    (g : Fin (ny * nx) → K) (bnd : Fin (ny * nx) → Bool) (n : Fin (ny * nx)) (j : Fin ns) : XF K :=
  haveI : NeZero nx := ⟨(nx_pos_of_node n).ne'⟩
  ktLine cyc c dt h s (fun ix => phi (mkNode ix (rowF n))) (fun ix => g (mkNode ix (rowF n)))
    (fun ix => bnd (mkNode ix (rowF n))) j (colF n)
def ktCol (c dt h : K) (s : Fin ns → K) (phi : Fin (ny * nx) → Fin ns → K)
    (g : Fin (ny * nx) → K) (bnd : Fin (ny * nx) → Bool) (n : Fin (ny * nx)) (j : Fin ns) : XF K :=
  haveI : NeZero ny := ⟨(ny_pos_of_node n).ne'⟩
  ktLine false c dt h s (fun iy => phi (mkNode (colF n) iy)) (fun iy => g (mkNode (colF n) iy))
    (fun iy => bnd (mkNode (colF n) iy)) j (rowF n)

/-- The direction of the edge loads. -/
def loadX (nx ny : ℕ) (n : Fin (ny * nx)) : K :=
  (if inLeft nx ny n then 1 else 0) - (if inRight nx ny n then 1 else 0)
def loadY (nx ny : ℕ) (n : Fin (ny * nx)) : K :=
  (if inBottom nx ny n then 1 else 0) - (if inTop nx ny n then 1 else 0)

/-- The relabelling respects the structure of the grid. -/
structure Sym.Ok (S : Sym K nx ny) : Prop where
  corners : S.Corners
  lx : ∀ k, loadX (K := K) S.nx' S.ny' k =
    S.A.fx * (if S.A.swap then loadY nx ny (S.e.symm k) else loadX nx ny (S.e.symm k))
  ly : ∀ k, loadY (K := K) S.nx' S.ny' k =
    S.A.fy * (if S.A.swap then loadX nx ny (S.e.symm k) else loadY nx ny (S.e.symm k))
  gx : ∀ (h : K) Z k, gradX h (fun k => Z (S.e.symm k)) k =
    signX S.A.fx (if S.A.swap then gradY h Z (S.e.symm k) else gradX h Z (S.e.symm k))
  gy : ∀ (h : K) Z k, gradY h (fun k => Z (S.e.symm k)) k =
    signX S.A.fy (if S.A.swap then gradX h Z (S.e.symm k) else gradY h Z (S.e.symm k))
  mx : ∀ (h : K) mk Z k, (S.A.fx = 1 ∨ ∀ n, mk n = false) →
    maX h (fun k => mk (S.e.symm k)) (fun k => Z (S.e.symm k)) k =
    signX S.A.fx (if S.A.swap then maY h mk Z (S.e.symm k) else maX h mk Z (S.e.symm k))
  my : ∀ (h : K) mk Z k, (S.A.fy = 1 ∨ ∀ n, mk n = false) →
    maY h (fun k => mk (S.e.symm k)) (fun k => Z (S.e.symm k)) k =
    signX S.A.fy (if S.A.swap then maX h mk Z (S.e.symm k) else maY h mk Z (S.e.symm k))
  kx : ∀ {ns : ℕ} (cyc : Bool) (c dt h : K) (s : Fin ns → K) phi g bnd k j,
    (S.A.swap = true → cyc = false) →
    ktRow cyc c dt h s (fun k => phi (S.e.symm k)) (fun k => S.A.fx * g (S.e.symm k))
      (fun k => bnd (S.e.symm k)) k j =
    if S.A.swap then ktCol c dt h s phi g bnd (S.e.symm k) j
      else ktRow cyc c dt h s phi g bnd (S.e.symm k) j
  ky : ∀ {ns : ℕ} (cyc : Bool) (c dt h : K) (s : Fin ns → K) phi g bnd k j,
    (S.A.swap = true → cyc = false) →
    ktCol c dt h s (fun k => phi (S.e.symm k)) (fun k => S.A.fy * g (S.e.symm k))
      (fun k => bnd (S.e.symm k)) k j =
    if S.A.swap then ktRow cyc c dt h s phi g bnd (S.e.symm k) j
      else ktCol c dt h s phi g bnd (S.e.symm k) j
  cyc : S.A.swap = false → ∀ {α : Type} [AddCommMonoid α] (a : Fin (ny * nx) → α),
    makeCyclic (nx := S.nx') (ny := S.ny') (fun k => a (S.e.symm k)) =
      fun k => makeCyclic (nx := nx) (ny := ny) a (S.e.symm k)

end
end Spec

section
variable {K : Type} [Field K] [LinearOrder K] [IsStrictOrderedRing K] [FloorRing K] {ns nx ny : ℕ}
  {S : Sym K nx ny} {s : K}

/-! ### Wiping, fractions, boundaries -/

theorem signX_zero (A : K) : signX A (.fin 0) = .fin 0 := by
  change XF.fin (A * 0) = _
  rw [mul_zero]

theorem vis_zero : S.vis s (fun _ _ => .fin 0) = fun _ _ => .fin 0 := by
  funext v k
  unfold Sym.vis
  split
  · exact signX_zero s
  · rfl

theorem wipe_sym (s' : K) (G : Grid K (ny * nx) ns) : (S.grid s G).wipe = S.grid s' G.wipe := by
  unfold Grid.wipe Sym.grid
  simp only [Grid.mk.injEq, true_and, and_true, vis_zero, S.A.v_zero]
  exact funext fun _ => S.A.v_zero.symm

theorem fractions_sym (big : K) (r : Fin ns → K) (G : Grid K (ny * nx) ns) :
    (S.grid s G).nodalFractions big r = S.grid s (G.nodalFractions big r) := rfl

theorem Spec.Axes.v_masked (A : Axes K) (a : Vec K) (bv bh : Bool) :
    (![maskOff (A.v a 0) (if A.swap then bh else bv), maskOff (A.v a 1) (if A.swap then bv else bh),
      A.v a 2] : Vec K) = A.v ![maskOff (a 0) bv, maskOff (a 1) bh, a 2] := by
  funext i
  rw [A.v_apply]
  cases hs : A.swap
  · have hp : A.p = Equiv.refl _ := by unfold Axes.p; rw [hs]; rfl
    fin_cases i <;> simp [maskOff, A.v_apply, hp, mul_assoc]
  · have hp : A.p = Equiv.swap 0 1 := by unfold Axes.p; rw [hs]; rfl
    have h2 : (Equiv.swap (0 : Fin 3) 1) 2 = 2 := by decide
    fin_cases i <;> simp [maskOff, A.v_apply, hp, mul_assoc, h2]

theorem bv_sym (G : Grid K (ny * nx) ns) (k) : (S.grid s G).boundary_v k =
    if S.A.swap then G.boundary_h (S.e.symm k) else G.boundary_v (S.e.symm k) := rfl
theorem bh_sym (G : Grid K (ny * nx) ns) (k) : (S.grid s G).boundary_h k =
    if S.A.swap then G.boundary_v (S.e.symm k) else G.boundary_h (S.e.symm k) := rfl

theorem zeroBoundary_sym (rough : Bool) (G : Grid K (ny * nx) ns) :
    (S.grid s G).zeroBoundaryMomentum rough = S.grid s (G.zeroBoundaryMomentum rough) := by
  unfold Grid.zeroBoundaryMomentum
  have h1 : ∀ k, (![maskOff ((S.grid s G).q k 0) ((S.grid s G).boundary_v k),
      maskOff ((S.grid s G).q k 1) ((S.grid s G).boundary_h k), (S.grid s G).q k 2] : Vec K) =
      S.A.v ![maskOff (G.q (S.e.symm k) 0) (G.boundary_v (S.e.symm k)),
        maskOff (G.q (S.e.symm k) 1) (G.boundary_h (S.e.symm k)), G.q (S.e.symm k) 2] :=
    fun k => S.A.v_masked _ _ _
  cases rough
  · exact congrArg (fun q : Fin (S.ny' * S.nx') → Vec K => { S.grid s G with q := q }) (funext h1)
  · refine congrArg (fun q : Fin (S.ny' * S.nx') → Vec K => { S.grid s G with q := q }) (funext fun k => ?_)
    dsimp only
    rw [if_pos rfl]
    simp only [h1]
    exact S.A.v_masked _ _ _

/-! ### Loads and momentum -/

theorem Spec.Axes.v_load (A : Axes K) (a : Vec K) (vf hf : Bool) (lx ly : K) :
    A.v (fun i => a i + if i = 0 then (if hf then lx else 0) else
        if i = 1 then (if vf then ly else 0) else 0) =
      fun i => A.v a i + if i = 0 then (if (if A.swap then vf else hf) then
          A.fx * (if A.swap then ly else lx) else 0) else
        if i = 1 then (if (if A.swap then hf else vf) then
          A.fy * (if A.swap then lx else ly) else 0) else 0 := by
  funext i
  rw [A.v_apply, A.v_apply, mul_add]
  congr 1
  cases hs : A.swap
  · have hp : A.p = Equiv.refl _ := by unfold Axes.p; rw [hs]; rfl
    fin_cases i <;> simp [hp, Axes.f]
  · have hp : A.p = Equiv.swap 0 1 := by unfold Axes.p; rw [hs]; rfl
    have h2 : (Equiv.swap (0 : Fin 3) 1) 2 = 2 := by decide
    fin_cases i <;> simp [hp, Axes.f, h2]

/-- What the loads of grid.py:242-255 add up to. -/
def loaded (B : BP K) (q_v q_h rho0 : K) (G : Grid K (ny * nx) ns) : Grid K (ny * nx) ns :=
  { G with
    ext_f := fun n i => G.ext_f n i + if i = 0 then (if B.horizontal_force then
        loadX nx ny n * q_h else 0) else
      if i = 1 then (if B.vertical_force then loadY nx ny n * q_v else 0) else 0
    fe := fun n i => G.fe n i + if i = 0 then (if B.horizontal_force then
        2 * (G.ext_f n 0 + loadX nx ny n * q_h) * G.m n / rho0 / G.dx else 0) else
      if i = 1 then (if B.vertical_force then
        2 * (G.ext_f n 1 + loadY nx ny n * q_v) * G.m n / rho0 / G.dy else 0) else 0 }

theorem BCs_eq (B : BP K) (q_v q_h rho0 : K) (an : Bool) (G : Grid K (ny * nx) ns) :
    G.BCs B q_v q_h rho0 an =
      if (B.vertical_force ∧ (rho0 = 0 ∨ G.dy = 0)) ∨ (B.horizontal_force ∧ (rho0 = 0 ∨ G.dx = 0)) then
        .error .nonFinite
      else if an then .error .index else .ok (loaded B q_v q_h rho0 G) := by
  unfold Grid.BCs
  have e1 : ∀ (a q : K) (b t : Bool), (let a := a
      let a := if b then a + q else a
      if t then a - q else a) = a + ((if b then 1 else 0) - (if t then 1 else 0)) * q := by
    intro a q b t
    cases b <;> cases t <;> simp <;> ring
  refine if_congr Iff.rfl rfl ?_
  refine if_congr Iff.rfl rfl (congrArg Except.ok ?_)
  unfold loaded
  simp only [e1]
  cases B.vertical_force <;> cases B.horizontal_force <;>
    simp only [Bool.false_eq_true, if_true, if_false, Grid.mk.injEq, true_and, and_true]
  · simp only [ite_self, add_zero]
  all_goals
    refine ⟨?_, ?_⟩ <;> funext n i <;> fin_cases i <;>
      simp [Function.update, loadX, loadY]

theorem dx_sym (G : Grid K (ny * nx) ns) : (S.grid s G).dx = if S.A.swap then G.dy else G.dx := rfl
theorem dy_sym (G : Grid K (ny * nx) ns) : (S.grid s G).dy = if S.A.swap then G.dx else G.dy := rfl

theorem loaded_sym (hS : S.Ok) {B B' : BP K} (hv : B'.vertical_force =
      if S.A.swap then B.horizontal_force else B.vertical_force)
    (hh : B'.horizontal_force = if S.A.swap then B.vertical_force else B.horizontal_force)
    (q_v q_h rho0 : K) (G : Grid K (ny * nx) ns) :
    loaded (nx := S.nx') (ny := S.ny') B' (if S.A.swap then q_h else q_v)
      (if S.A.swap then q_v else q_h) rho0 (S.grid s G) = S.grid s (loaded B q_v q_h rho0 G) := by
  unfold loaded
  have e1 : ∀ k, S.A.v ((loaded B q_v q_h rho0 G).ext_f (S.e.symm k)) = _ :=
    fun k => S.A.v_load (G.ext_f (S.e.symm k)) B.vertical_force B.horizontal_force _ _
  have e2 : ∀ k, S.A.v ((loaded B q_v q_h rho0 G).fe (S.e.symm k)) = _ :=
    fun k => S.A.v_load (G.fe (S.e.symm k)) B.vertical_force B.horizontal_force _ _
  have hg : S.grid s (loaded B q_v q_h rho0 G) = { S.grid s G with
      ext_f := fun k => S.A.v ((loaded B q_v q_h rho0 G).ext_f (S.e.symm k))
      fe := fun k => S.A.v ((loaded B q_v q_h rho0 G).fe (S.e.symm k)) } := rfl
  refine Eq.trans ?_ hg.symm
  simp only [Grid.mk.injEq, true_and, and_true]
  have x0 : ∀ a : Vec K, S.A.v a 0 = S.A.fx * (if S.A.swap then a 1 else a 0) := by
    intro a
    rw [S.A.v_apply]
    unfold Axes.p
    cases S.A.swap <;> rfl
  have x1 : ∀ a : Vec K, S.A.v a 1 = S.A.fy * (if S.A.swap then a 0 else a 1) := by
    intro a
    rw [S.A.v_apply]
    unfold Axes.p
    cases S.A.swap <;> rfl
  refine ⟨?_, ?_⟩
  · funext k
    rw [e2]
    have c1 : (S.grid s G).ext_f k = S.A.v (G.ext_f (S.e.symm k)) := rfl
    have c2 : (S.grid s G).m k = G.m (S.e.symm k) := rfl
    have c3 : (S.grid s G).fe k = S.A.v (G.fe (S.e.symm k)) := rfl
    simp only [c1, c2, c3, x0, x1, hS.lx, hS.ly, dx_sym, dy_sym, hv, hh]
    cases S.A.swap <;> simp only [Bool.false_eq_true, if_true, if_false] <;> funext i <;>
      congr 1 <;> refine if_congr Iff.rfl (if_congr Iff.rfl ?_ rfl) (if_congr Iff.rfl (if_congr Iff.rfl ?_ rfl) rfl) <;> ring
  · funext k
    rw [e1]
    have c1 : (S.grid s G).ext_f k = S.A.v (G.ext_f (S.e.symm k)) := rfl
    simp only [c1, hS.lx, hS.ly, hv, hh]
    cases S.A.swap <;> simp only [Bool.false_eq_true, if_true, if_false] <;> funext i <;>
      congr 1 <;> refine if_congr Iff.rfl (if_congr Iff.rfl ?_ rfl) (if_congr Iff.rfl (if_congr Iff.rfl ?_ rfl) rfl) <;> ring

theorem BCs_sym (hS : S.Ok) {B B' : BP K} (hv : B'.vertical_force =
      if S.A.swap then B.horizontal_force else B.vertical_force)
    (hh : B'.horizontal_force = if S.A.swap then B.vertical_force else B.horizontal_force)
    (q_v q_h rho0 : K) (an : Bool) (G : Grid K (ny * nx) ns) :
    (S.grid s G).BCs (nx := S.nx') (ny := S.ny') B' (if S.A.swap then q_h else q_v)
      (if S.A.swap then q_v else q_h) rho0 an = S.grid s <$> G.BCs B q_v q_h rho0 an := by
  rw [BCs_eq, BCs_eq, loaded_sym hS hv hh, dx_sym, dy_sym, hv, hh]
  have hc : ((((if S.A.swap then B.horizontal_force else B.vertical_force) = true ∧
      (rho0 = 0 ∨ (if S.A.swap then G.dx else G.dy) = 0)) ∨
      (if S.A.swap then B.vertical_force else B.horizontal_force) = true ∧
      (rho0 = 0 ∨ (if S.A.swap then G.dy else G.dx) = 0))) ↔
      ((B.vertical_force ∧ (rho0 = 0 ∨ G.dy = 0)) ∨ (B.horizontal_force ∧ (rho0 = 0 ∨ G.dx = 0))) := by
    cases S.A.swap
    · exact Iff.rfl
    · exact Or.comm
  rw [if_congr hc rfl rfl]
  exact ite_equiv rfl (ite_equiv rfl rfl)

theorem updateMomentum_sym {B B' : BP K} (hr : B'.roughness = B.roughness)
    (hw : B'.wall_mu = B.wall_mu) (hc : B'.conveyor = B.conveyor)
    (hf : B.roughness = true → B.wall_mu = 0) (hcs : B.conveyor = true → S.A.swap = false)
    (damping : Bool) (dt v_0 : K) (G : Grid K (ny * nx) ns) :
    (S.grid s G).updateMomentum (nx := S.nx') (ny := S.ny') B' damping dt (S.A.fx * v_0) =
      S.grid s (G.updateMomentum B damping dt v_0) := by
  have hfr : (B.roughness && decide (B.wall_mu ≠ 0)) = false := by
    cases h : B.roughness
    · rfl
    · simp [hf h]
  unfold Grid.updateMomentum
  simp only [hr, hw, hc, hfr, Bool.false_eq_true, if_false]
  have q0 : ∀ (damping : Bool) k, (if damping = true then
      (fun i => (7 / 10 : K) • ((S.grid s G).fe i - (S.grid s G).fi i)) else
      fun i => (S.grid s G).fe i - (S.grid s G).fi i) k = S.A.v ((if damping = true then
        (fun i => (7 / 10 : K) • (G.fe i - G.fi i)) else fun i => G.fe i - G.fi i) (S.e.symm k)) := by
    intro d k
    have c : (S.grid s G).fe k - (S.grid s G).fi k = S.A.v (G.fe (S.e.symm k) - G.fi (S.e.symm k)) :=
      (S.A.v_sub _ _).symm
    cases d
    · exact c
    · exact (congrArg _ c).trans (S.A.v_smul _ _).symm
  replace q0 := q0 damping
  generalize (if damping = true then
      (fun i => (7 / 10 : K) • ((S.grid s G).fe i - (S.grid s G).fi i)) else
      fun i => (S.grid s G).fe i - (S.grid s G).fi i) = f' at q0 ⊢
  generalize (if damping = true then
        (fun i => (7 / 10 : K) • (G.fe i - G.fi i)) else fun i => G.fe i - G.fi i) = f at q0 ⊢
  have q1 : ∀ k, (if B.roughness = true then if B.wall_mu ≠ 0 then
      (fun i => roughNode B.wall_mu ((S.grid s G).boundary_h i) ((S.grid s G).boundary_v i)
        (decide ((i : ℕ) = 1)) (f' i))
      else fun i => ![maskOff (f' i 0) ((S.grid s G).boundary_h i),
        maskOff (f' i 1) ((S.grid s G).boundary_v i), f' i 2] else f') k =
      S.A.v ((if B.roughness = true then if B.wall_mu ≠ 0 then
      (fun i => roughNode B.wall_mu (G.boundary_h i) (G.boundary_v i)
        (decide ((i : ℕ) = 1)) (f i))
      else fun i => ![maskOff (f i 0) (G.boundary_h i), maskOff (f i 1) (G.boundary_v i), f i 2]
        else f) (S.e.symm k)) := by
    intro k
    by_cases h : B.roughness = true
    · have hw0 : ¬ B.wall_mu ≠ 0 := not_not.2 (hf h)
      rw [if_pos h, if_pos h, if_neg hw0, if_neg hw0]
      simp only [q0]
      exact S.A.v_masked _ _ _
    · rw [if_neg h, if_neg h]
      exact q0 k
  generalize (if B.roughness = true then if B.wall_mu ≠ 0 then
      (fun i => roughNode B.wall_mu ((S.grid s G).boundary_h i) ((S.grid s G).boundary_v i)
        (decide ((i : ℕ) = 1)) (f' i))
      else fun i => ![maskOff (f' i 0) ((S.grid s G).boundary_h i),
        maskOff (f' i 1) ((S.grid s G).boundary_v i), f' i 2] else f') = g' at q1 ⊢
  generalize (if B.roughness = true then if B.wall_mu ≠ 0 then
      (fun i => roughNode B.wall_mu (G.boundary_h i) (G.boundary_v i)
        (decide ((i : ℕ) = 1)) (f i))
      else fun i => ![maskOff (f i 0) (G.boundary_h i), maskOff (f i 1) (G.boundary_v i), f i 2]
        else f) = g at q1 ⊢
  have q2 : ∀ k, (![maskOff (g' k 0) ((S.grid s G).boundary_v k),
      maskOff (g' k 1) ((S.grid s G).boundary_h k), g' k 2] : Vec K) =
      S.A.v ![maskOff (g (S.e.symm k) 0) (G.boundary_v (S.e.symm k)),
        maskOff (g (S.e.symm k) 1) (G.boundary_h (S.e.symm k)), g (S.e.symm k) 2] := by
    intro k
    rw [q1]
    exact S.A.v_masked _ _ _
  simp only [q2]
  have q3 : ∀ k, (S.grid s G).q k + dt • S.A.v ![maskOff (g (S.e.symm k) 0) (G.boundary_v (S.e.symm k)),
        maskOff (g (S.e.symm k) 1) (G.boundary_h (S.e.symm k)), g (S.e.symm k) 2] =
      S.A.v (G.q (S.e.symm k) + dt • ![maskOff (g (S.e.symm k) 0) (G.boundary_v (S.e.symm k)),
        maskOff (g (S.e.symm k) 1) (G.boundary_h (S.e.symm k)), g (S.e.symm k) 2]) := by
    intro k
    rw [S.A.v_add, S.A.v_smul]
    rfl
  simp only [q3]
  by_cases hB : B.conveyor = true
  · simp only [if_pos hB]
    refine congrArg (fun q : Fin (S.ny' * S.nx') → Vec K => { S.grid s G with
      q := q, q_dot := fun k => S.A.v ![maskOff (g (S.e.symm k) 0) (G.boundary_v (S.e.symm k)),
        maskOff (g (S.e.symm k) 1) (G.boundary_h (S.e.symm k)), g (S.e.symm k) 2] }) (funext fun k => ?_)
    have hp : S.A.p = Equiv.refl _ := by unfold Axes.p; rw [hcs hB]; rfl
    dsimp only
    by_cases hk : G.boundary_conveyor (S.e.symm k) = true
    · have hk' : (S.grid s G).boundary_conveyor k = true := hk
      rw [if_pos hk, if_pos hk']
      funext i
      rw [S.A.v_apply, hp]
      by_cases hi : i = 0
      · subst hi
        rw [Function.update_self]
        rw [Equiv.refl_apply, Function.update_self, mul_assoc]
        rfl
      · rw [Function.update_of_ne hi]
        rw [Equiv.refl_apply, Function.update_of_ne hi, S.A.v_apply, hp]
        rfl
    · have hk' : ¬ (S.grid s G).boundary_conveyor k = true := hk
      rw [if_neg hk, if_neg hk']
  · simp only [if_neg hB]
    rfl

/-! ### Periodic edges -/

theorem cyclicMQ_sym (hS : S.Ok) (h : S.A.swap = false) (G : Grid K (ny * nx) ns) :
    (S.grid s G).makeCyclicMQ (nx := S.nx') (ny := S.ny') = S.grid s G.makeCyclicMQ := by
  have h1 : makeCyclic (nx := S.nx') (ny := S.ny') (S.grid s G).m = _ := hS.cyc h G.m
  have h2 : makeCyclic (nx := S.nx') (ny := S.ny') (S.grid s G).q = _ := hS.cyc h fun k => S.A.v (G.q k)
  have h3 : ∀ k, makeCyclic (nx := nx) (ny := ny) (fun k => S.A.v (G.q k)) k = S.A.v (makeCyclic G.q k) := by
    intro k
    unfold makeCyclic
    dsimp only
    split <;> split <;> simp only [S.A.v_add]
  unfold Grid.makeCyclicMQ
  rw [h1, h2]
  simp only [h3]
  rfl

theorem cyclicForces_sym (hS : S.Ok) (h : S.A.swap = false) (G : Grid K (ny * nx) ns) :
    (S.grid s G).makeCyclicForces (nx := S.nx') (ny := S.ny') = S.grid s G.makeCyclicForces := by
  have h1 : makeCyclic (nx := S.nx') (ny := S.ny') (S.grid s G).fi = _ := hS.cyc h fun k => S.A.v (G.fi k)
  have h2 : makeCyclic (nx := S.nx') (ny := S.ny') (S.grid s G).fe = _ := hS.cyc h fun k => S.A.v (G.fe k)
  have h3 : ∀ (a : Fin (ny * nx) → Vec K) k,
      makeCyclic (nx := nx) (ny := ny) (fun k => S.A.v (a k)) k = S.A.v (makeCyclic a k) := by
    intro a k
    unfold makeCyclic
    dsimp only
    split <;> split <;> simp only [S.A.v_add]
  unfold Grid.makeCyclicForces
  rw [h1, h2]
  simp only [h3]
  rfl

theorem cyclicVis_sym (hS : S.Ok) (h : S.A.swap = false) (l : List Vis)
    (hl : .gammadot ∈ l → s = 1 ∨ s = -1) (G : Grid K (ny * nx) ns) :
    (S.grid s G).makeCyclicVis (nx := S.nx') (ny := S.ny') l = S.grid s (G.makeCyclicVis l) := by
  have hv : ∀ v, S.A.vis v = v := by intro v; cases v <;> simp [Axes.vis, h]
  unfold Grid.makeCyclicVis
  refine congrArg (fun vis : Vis → Fin (S.ny' * S.nx') → XF K => { S.grid s G with vis := vis }) ?_
  funext v k
  change (if v ∈ l then makeCyclic (nx := S.nx') (ny := S.ny') (S.vis s G.vis v)
    else S.vis s G.vis v) k = S.vis s (fun v => if v ∈ l then makeCyclic (nx := nx) (ny := ny) (G.vis v)
      else G.vis v) v k
  by_cases hg : v = .gammadot
  · subst hg
    have e : ∀ vis : Vis → Fin (ny * nx) → XF K, S.vis s vis .gammadot = fun k => signX s (vis .gammadot (S.e.symm k)) :=
      fun _ => rfl
    rw [e, e]
    dsimp only
    by_cases hm : Vis.gammadot ∈ l
    · rw [if_pos hm, if_pos hm]
      have := hS.cyc h fun k => signX s (G.vis .gammadot k)
      rw [this]
      dsimp only
      unfold makeCyclic
      dsimp only
      rcases hl hm with h1 | h1 <;> rw [h1] <;> split <;> split <;>
        simp only [signX_one, signX_neg_one, neg_add']
    · rw [if_neg hm, if_neg hm]
  · have e : ∀ vis : Vis → Fin (ny * nx) → XF K, S.vis s vis v = fun k => vis v (S.e.symm k) := by
      intro vis
      funext k
      unfold Sym.vis
      rw [if_neg hg, hv]
    rw [e, e]
    dsimp only
    by_cases hm : v ∈ l
    · rw [if_pos hm, if_pos hm]
      exact congrFun (hS.cyc h fun k => G.vis v k) k
    · rw [if_neg hm, if_neg hm]

end
end Mpm

import Verif.Model.FloatDiffusion
import Verif.Props.FloatGradient
import Verif.Props.FloatSeg
import Verif.Props.FloatWhole

/-!
# C155: the diffusion of grain sizes in floating point, and the time step with all of it rounded
-/

set_option linter.unusedSectionVars false

namespace Mpm
open Spec

namespace Spec
section
variable {K : Type} [Field K] [LinearOrder K]

/-- The sizes of two numbers over the distance between them. -/
def over {n : ℕ} (h : K) (c : Fin n → K) (i : Fin n) : K :=
  (c (hiOf i) + c (loOf i)) * |((((hiOf i).val - (loOf i).val : ℕ) : K) * h)⁻¹|

end
end Spec

section
variable {K : Type} [Field K] [LinearOrder K] [IsStrictOrderedRing K] {rnd : K → K} {u : K} {n nx ny ns : ℕ}

theorem npGradientR_id (h : K) (f : Fin n → XF K) (i : Fin n) : npGradientR id h f i = npGradient h f i := by
  unfold npGradientR npGradient
  simp only [XF.rd_id, id_eq]

/-- C155.  Without rounding diffusion, driving pressure and the increments of the fractions are those of the exact
model. -/
theorem c155_exact [FloorRing K] (P : Par K) (dt rho_s : K) (s : Fin ns → K) (G : Grid K (ny * nx) ns)
    (interp : Interp K (ny * nx)) (M_tol : K) :
    (∀ n j, diffusionIncR id P dt rho_s G n j = diffusionInc P dt rho_s G n j) ∧
    (∀ n j, phiIncrementR id P dt rho_s s G n j = phiIncrement P dt rho_s s G n j) ∧
    G.updatePkR id interp P.ops M_tol rho_s = G.updatePk interp P.ops M_tol rho_s := by
  have d : ∀ n j, diffusionIncR id P dt rho_s G n j = diffusionInc P dt rho_s G n j := by
    intro n j
    unfold diffusionIncR diffusionInc diffusivityR diffusivity
    simp only [npGradientR_id, XF.rd_id]
  refine ⟨d, fun n j => ?_, ?_⟩
  · unfold phiIncrementR phiIncrement
    rw [d, (c145_exact P dt s G n j).1, (c145_exact P dt s G n j).2, XF.rd_id, XF.rd_id]
  · unfold Grid.updatePkR Grid.updatePk
    simp only [(c154_exact interp P.ops.big M_tol G).1, XF.rd_id]

theorem schemeIncR_id [FloorRing K] (P : Par K) (interp : Interp K P.G.N) : schemeIncR id P interp = schemeInc P interp := by
  funext s
  unfold schemeIncR schemeInc
  simp only [(c154_exact (nx := P.G.nx) (ny := P.G.ny) interp P.ops.big P.M_tol s.G).2]
  split
  · rfl
  rw [(c155_exact (nx := P.G.nx) (ny := P.G.ny) P s.dyn.dt _ P.G.s _ interp P.M_tol).2.2]
  congr 2
  funext n j
  exact (c155_exact (nx := P.G.nx) (ny := P.G.ny) P s.dyn.dt _ P.G.s _ interp P.M_tol).2.1 n j

/-- C155.  The time step in which everything is rounded, the increments of the fractions included, is without
rounding that of the exact model for every parameter set and every number of steps. -/
theorem c155_run [FloorRing K] (P : Par K) (interp : Interp K P.G.N) (s : St P) (n : ℕ) :
    (steps P interp n s).map (fun s => (s.dyn, s.L)) =
      (stepsR id (Besides.whole id P (schemeIncR id P interp)) n s).map fun s => (s.dyn, s.L) := by
  rw [schemeIncR_id]
  exact c152_run interp s n

theorem dqR_over (hr : Rounding rnd u) (hn : 2 ≤ n) {h : K} (hh : h ≠ 0) {c f g : Fin n → K} {k : ℕ}
    (hf : ∀ i, App u k (c i) (f i) (g i)) (i : Fin n) :
    App u (k + 3) (over h c i) (dq h f i) (dqR rnd h g i) := by
  have hne := mul_ne_zero (Nat.cast_ne_zero.2 (span_pos hn i).ne' : (((hiOf i).val - (loOf i).val : ℕ) : K) ≠ 0) hh
  have neg : App u k (c (loOf i)) (-f (loOf i)) (-g (loOf i)) := by
    have := hf (loOf i)
    exact ⟨by rw [abs_neg]; exact this.size, by rw [neg_sub_neg, abs_sub_comm]; exact this.err⟩
  have a := (((hf (hiOf i)).add neg).round hr).mul hr (App.inv hr hne)
  have b := a.round hr
  unfold dq dqR over
  simp only [← sub_eq_add_neg, ← div_eq_mul_inv] at b
  exact b

/-- The diffusion increment for finite diffusivities. -/
def diffFinR (rnd : K → K) (hx hy dt : K) (open_ f : Fin (ny * nx) → K) (n : Fin (ny * nx)) : K :=
  rnd (dt * rnd (dqR rnd hx (fun ix => dqR rnd hx (fun i => f (mkNode i (rowF n))) ix * open_ (mkNode ix (rowF n)))
      (colF n) +
    dqR rnd hy (fun iy => dqR rnd hy (fun i => f (mkNode (colF n) i)) iy * open_ (mkNode (colF n) iy)) (rowF n)))

theorem diffusionIncR_fin (hr : Rounding rnd u) {P : Par K} {dt rho_s : K} {G : Grid K (ny * nx) ns} (hnx : 2 ≤ nx)
    (hny : 2 ≤ ny) (hdx : P.G.dx ≠ 0) (hdy : P.G.dy ≠ 0) {D : Fin (ny * nx) → K}
    (hD : ∀ k, diffusivityR rnd P.ops P.l rho_s (G.s_bar k) (G.vis .gammadot k) (G.vis .pressure k) (G.m k) =
      .fin (D k)) (n : Fin (ny * nx)) (j : Fin ns) :
    diffusionIncR rnd P dt rho_s G n j =
      .fin (diffFinR rnd P.G.dx P.G.dy dt (openOf G.boundary_tot) (fun k => rnd (D k * G.phi k j)) n) := by
  have hf : ∀ k, (diffusivityR rnd P.ops P.l rho_s (G.s_bar k) (G.vis .gammadot k) (G.vis .pressure k) (G.m k) *
      .fin (G.phi k j)).rd rnd = .fin (rnd (D k * G.phi k j)) := by
    intro k; rw [hD, XF.fin_mul]; rfl
  have ho : ∀ k, (if G.boundary_tot k then .fin 0 else .fin 1 : XF K) =
      .fin (openOf G.boundary_tot k) := by
    intro k; unfold openOf; split <;> rfl
  unfold diffusionIncR diffFinR
  simp only [ho, rowF_mkNode, colF_mkNode]
  rw [npGradientR_fin hr hnx hdx (g := fun ix => dqR rnd P.G.dx (fun i => rnd (D (mkNode i (rowF n)) *
      G.phi (mkNode i (rowF n)) j)) ix * openOf G.boundary_tot (mkNode ix (rowF n))) (fun ix => by
        rw [npGradientR_fin hr hnx hdx (fun i => hf _), XF.fin_mul]),
    npGradientR_fin hr hny hdy (g := fun iy => dqR rnd P.G.dy (fun i => rnd (D (mkNode (colF n) i) *
      G.phi (mkNode (colF n) i) j)) iy * openOf G.boundary_tot (mkNode (colF n) iy)) (fun iy => by
        rw [npGradientR_fin hr hny hdy (fun i => hf _), XF.fin_mul]), XF.fin_add]
  show XF.rd rnd (.fin dt * .fin (rnd _)) = _
  rw [XF.fin_mul]
  rfl

/-- C155.  In a uniform mixture with the same diffusivity everywhere nothing diffuses, whatever the rounding. -/
theorem c155_uniform (hr : Rounding rnd u) {P : Par K} {dt rho_s : K} {G : Grid K (ny * nx) ns} (hnx : 2 ≤ nx)
    (hny : 2 ≤ ny) (hdx : P.G.dx ≠ 0) (hdy : P.G.dy ≠ 0) {D : K} {c : Fin ns → K}
    (hD : ∀ k, diffusivityR rnd P.ops P.l rho_s (G.s_bar k) (G.vis .gammadot k) (G.vis .pressure k) (G.m k) =
      .fin D) (hphi : ∀ k j, G.phi k j = c j) (n : Fin (ny * nx)) (j : Fin ns) :
    diffusionIncR rnd P dt rho_s G n j = .fin 0 := by
  rw [diffusionIncR_fin hr hnx hny hdx hdy hD]
  simp only [hphi]
  unfold diffFinR
  have z : ∀ {N : ℕ} (h a : K) (i : Fin N), dqR rnd h (fun _ => a) i = 0 := fun h a i => dqR_zero hr rfl
  simp only [z, zero_mul, add_zero, hr.atZero, mul_zero]

/-- C155.  Between the diffusion of given stored diffusivities and the exact one lie nine roundings of the sizes of
what is added up, along the row and along the column. -/
theorem c155_error (hr : Rounding rnd u) {P : Par K} {dt rho_s : K} {G : Grid K (ny * nx) ns} (hnx : 2 ≤ nx)
    (hny : 2 ≤ ny) (hdx : P.G.dx ≠ 0) (hdy : P.G.dy ≠ 0) {D : Fin (ny * nx) → K}
    (hD : ∀ k, diffusivityR rnd P.ops P.l rho_s (G.s_bar k) (G.vis .gammadot k) (G.vis .pressure k) (G.m k) =
      .fin (D k)) (n : Fin (ny * nx)) (j : Fin ns) :
    ∃ d, diffusionIncR rnd P dt rho_s G n j = .fin d ∧
      |d - diffFin P.G.dx P.G.dy dt (openOf G.boundary_tot) (fun k => D k * G.phi k j) n| ≤ gam u 9 * (|dt| *
        (over P.G.dx (fun ix => over P.G.dx (fun i => |D (mkNode i (rowF n)) * G.phi (mkNode i (rowF n)) j|) ix)
          (colF n) +
        over P.G.dy (fun iy => over P.G.dy (fun i => |D (mkNode (colF n) i) * G.phi (mkNode (colF n) i) j|) iy)
          (rowF n))) := by
  refine ⟨_, diffusionIncR_fin hr hnx hny hdx hdy hD n j, ?_⟩
  have hf : ∀ k, App u 1 |D k * G.phi k j| (D k * G.phi k j) (rnd (D k * G.phi k j)) :=
    fun k => (App.exact _ le_rfl).round hr
  have ho : ∀ {m : ℕ} {c x y : K} (k : Fin (ny * nx)), App u m c x y →
      App u m c (x * openOf G.boundary_tot k) (y * openOf G.boundary_tot k) := by
    intro m c x y k h
    unfold openOf
    split
    · rw [mul_zero, mul_zero]
      exact ⟨by rw [abs_zero]; exact h.nonneg, by
        rw [sub_zero, abs_zero]; exact mul_nonneg (gam_nonneg hr.nonneg hr.lt_one _) h.nonneg⟩
    · rw [mul_one, mul_one]; exact h
  have hx := dqR_over hr hnx hdx (fun ix => ho (mkNode ix (rowF n))
    (dqR_over hr hnx hdx (fun i => hf (mkNode i (rowF n))) ix)) (colF n)
  have hy := dqR_over hr hny hdy (fun iy => ho (mkNode (colF n) iy)
    (dqR_over hr hny hdy (fun i => hf (mkNode (colF n) i)) iy)) (rowF n)
  have := (((App.exact (u := u) dt le_rfl).mul hr ((hx.add hy).round hr)).round hr).err
  exact this

/-- C155.  With uniform shear rate, pressure, size and mass the driving gradient of segregation vanishes exactly. -/
theorem c155_drive (hr : Rounding rnd u) {interp : Interp K (ny * nx)} {ops : Ops K} {M_tol rho_s g s p m q : K}
    {G : Grid K (ny * nx) ns} (hnx : 2 ≤ nx) (hny : 2 ≤ ny) (hdx : G.dx ≠ 0) (hdy : G.dy ≠ 0)
    (hI : KeepsData interp) (hM : M_tol ≤ m) (hm0 : m ≠ 0) (hm : ∀ k, G.m k = m)
    (hg : ∀ k, G.vis .gammadot k = .fin g) (hs : ∀ k, G.s_bar k = s) (hp : ∀ k, G.vis .pressure k = .fin p)
    (hq : XF.sqrt ops.sqrt (.fin (rnd (rho_s * |rnd (p / m)|))) = .fin q) (n : Fin (ny * nx)) :
    (G.updatePkR rnd interp ops M_tol rho_s).grad_pk n = 0 := by
  have h := calcGradientR_fin hr (big := ops.big) hnx hny hdx hdy hI (M_tol := M_tol) (fun k => (hm k).symm ▸ hM)
    (Z := (G.updatePkR rnd interp ops M_tol rho_s).pk) (z := fun _ => rnd (rnd (|g| * s) * rnd q)) (fun k => by
      simp only [Grid.updatePkR, hm, hg, hs, hp]
      rw [XF.fin_div _ hm0]
      simp only [XF.abs, XF.fin_mul, XF.rd]
      rw [hq]
      simp only [XF.fin_mul]) n
  funext i
  change (calcGradientR rnd interp ops.big M_tol G (G.updatePkR rnd interp ops M_tol rho_s).pk n i).nanToNum
    ops.big = 0
  rw [h, dqR_zero hr rfl, dqR_zero hr rfl]
  fin_cases i <;> rfl

end

/-- Nothing diffuses in a uniform mixture, and the driving gradient of a uniform flow vanishes. -/
example (n : Fin (3 * 4)) (j : Fin 2) :
    diffusionIncR (fl 53) Ex.par (fl 53 (1/10)) 1 (Ex.diffG (nx := 4) (ny := 3) (Ex.rim 4 3) (fun _ => 1)
      (fun _ i => if i = 0 then fl 53 (1/3) else fl 53 (2/3))) n j = .fin 0 ∧
    ((Ex.diffG (nx := 4) (ny := 3) (Ex.rim 4 3) (fun _ => 1) (fun _ _ => 1/2)).updatePkR (nx := 4) (ny := 3) (fl 53)
      Ex.asIs Ex.ops 0 1).grad_pk n = 0 := by
  have hr := c136_bits (K := ℚ) (p := 53) (by norm_num)
  refine ⟨c155_uniform hr (D := 1) (by norm_num) (by norm_num) ?_ ?_ ?_ (fun _ _ => rfl) n j,
    c155_drive hr (m := 1) (g := 1) (s := 1) (p := 1) (q := 1) (by norm_num) (by norm_num) one_ne_zero one_ne_zero
      Ex.asIs_keeps zero_le_one one_ne_zero (fun _ => rfl) (fun _ => rfl) (fun _ => rfl) (fun _ => rfl) ?_ n⟩ <;>
    decide +kernel

/-- Fractions that fall from node to node. -/
def Ex.fading (k : Fin (3 * 4)) (_ : Fin 2) : ℚ := fl 53 (1 / (3 + ((k : ℕ) : ℚ)))

/-- A mixture that does diffuse, with time step 1/10: the increment is not the exact one, and within the bound. -/
example : ∃ d : ℚ, diffusionIncR (fl 53) Ex.par (fl 53 (1/10)) 1 (Ex.diffG (nx := 4) (ny := 3) (Ex.rim 4 3)
      (fun _ => 1) Ex.fading) 6 0 = .fin d ∧
    |d - diffFin (nx := 4) (ny := 3) Ex.par.G.dx Ex.par.G.dy (fl 53 (1/10)) (openOf (Ex.rim 4 3))
      (fun k => 1 * Ex.fading k 0) 6| ≤ 1 / 10 ^ 14 ∧ d ≠ 0 ∧
    d ≠ diffFin (nx := 4) (ny := 3) Ex.par.G.dx Ex.par.G.dy (fl 53 (1/10)) (openOf (Ex.rim 4 3))
      (fun k => 1 * Ex.fading k 0) 6 := by
  have hr := c136_bits (K := ℚ) (p := 53) (by norm_num)
  obtain ⟨d, h1, h2⟩ := c155_error (nx := 4) (ny := 3) hr (P := Ex.par) (dt := fl 53 (1/10)) (rho_s := 1)
    (G := Ex.diffG (nx := 4) (ny := 3) (Ex.rim 4 3) (fun _ => 1) Ex.fading)
    (by norm_num) (by norm_num) (by decide +kernel) (by decide +kernel) (D := fun _ => 1) (by decide +kernel) 6 0
  have k : ∀ x : XF ℚ, x = diffusionIncR (fl 53) Ex.par (fl 53 (1/10)) 1 (Ex.diffG (nx := 4) (ny := 3) (Ex.rim 4 3)
      (fun _ => 1) Ex.fading) 6 0 → x ≠ .fin 0 ∧
      x ≠ .fin (diffFin (nx := 4) (ny := 3) Ex.par.G.dx Ex.par.G.dy (fl 53 (1/10)) (openOf (Ex.rim 4 3))
      (fun k => 1 * Ex.fading k 0) 6) := by
    rintro x rfl
    decide +kernel
  obtain ⟨a, b⟩ := k _ h1.symm
  exact ⟨d, h1, h2.trans (by decide +kernel), fun e => a (by rw [e]), fun e => b (by rw [e])⟩

/-- C155.  Two steps in binary64 with nothing left exact but the interpolation run to the end and a point is added. -/
example : ∃ (G : Grid ℚ Ex.parAll.G.N Ex.parAll.G.ns) (s : St Ex.parAll),
    mkGridR (fl 53) Ex.parAll.G Ex.parAll.B = .ok G ∧
    stepsR (fl 53) (Besides.whole (fl 53) Ex.parAll (schemeIncR (fl 53) Ex.parAll (Ex.noInterp _))) 2
      { dyn := Ex.dyn, L := Ex.feeding, G := G } = .ok s ∧ (points s.L).length = 2 := by
  have h : Ex.okAnd (mkGridR (fl 53) Ex.parAll.G Ex.parAll.B) (fun G =>
    Ex.okAnd (stepsR (fl 53) (Besides.whole (fl 53) Ex.parAll (schemeIncR (fl 53) Ex.parAll (Ex.noInterp _))) 2
      { dyn := Ex.dyn, L := Ex.feeding, G := G }) fun s => decide ((points s.L).length = 2)) = true := by
    decide +kernel
  obtain ⟨G, h1, h⟩ := Ex.okAnd_ok h
  obtain ⟨s, h2, h⟩ := Ex.okAnd_ok h
  exact ⟨G, s, h1, h2, of_decide_eq_true h⟩

end Mpm

import Verif.Model.FloatStep
import Verif.Lemmas.ScaleRun
import Verif.Props.Float

/-! Time steps with rounding in units that rounding commutes with. -/

set_option linter.unusedSectionVars false

namespace Mpm
open Spec

namespace Spec
section
variable {K : Type} [Field K] [LinearOrder K]

/-- Multiplying by `c` does not change the digits. -/
def SameDigits (rnd : K → K) (c : K) : Prop := ∀ x, rnd (c * x) = c * rnd x

/-- Units that differ by such factors. -/
structure NewUnits.Binary (U : NewUnits K) (rnd : K → K) : Prop where
  M : SameDigits rnd U.M
  L : SameDigits rnd U.L
  T : SameDigits rnd U.T
  W : SameDigits rnd U.W

end
end Spec

section
variable {K : Type} [Field K] [LinearOrder K] [IsStrictOrderedRing K] {rnd : K → K}

theorem Spec.SameDigits.mul {a b : K} (ha : SameDigits rnd a) (hb : SameDigits rnd b) :
    SameDigits rnd (a * b) := fun x => by rw [mul_assoc, ha, hb, mul_assoc]

theorem Spec.SameDigits.inv {a : K} (ha : SameDigits rnd a) (h : a ≠ 0) : SameDigits rnd a⁻¹ := by
  intro x
  have := ha (a⁻¹ * x)
  rw [mul_inv_cancel_left₀ h] at this
  rw [this, inv_mul_cancel_left₀ h]

theorem Spec.SameDigits.div {a b : K} (ha : SameDigits rnd a) (hb : SameDigits rnd b) (h : b ≠ 0) :
    SameDigits rnd (a / b) := by rw [div_eq_mul_inv]; exact ha.mul (hb.inv h)

theorem Spec.SameDigits.one : SameDigits rnd 1 := fun x => by rw [one_mul, one_mul]

theorem Spec.SameDigits.sq {a : K} (ha : SameDigits rnd a) : SameDigits rnd (a ^ 2) := by
  rw [pow_two]; exact ha.mul ha

variable {U : NewUnits K} (hb : U.Binary rnd)
include hb

theorem Spec.NewUnits.Binary.vol : SameDigits rnd U.vol := hb.L.sq.mul hb.W
theorem Spec.NewUnits.Binary.stress : SameDigits rnd U.stress :=
  hb.M.div (hb.T.sq.mul hb.W) (mul_pos (pow_pos U.T_pos 2) U.W_pos).ne'
theorem Spec.NewUnits.Binary.dens : SameDigits rnd U.dens := hb.M.div hb.vol U.vol_pos.ne'
theorem Spec.NewUnits.Binary.vel : SameDigits rnd U.vel := hb.L.div hb.T U.T_ne
theorem Spec.NewUnits.Binary.acc : SameDigits rnd U.acc := hb.L.div hb.T.sq (pow_pos U.T_pos 2).ne'
theorem Spec.NewUnits.Binary.mom : SameDigits rnd U.mom := (hb.M.mul hb.L).div hb.T U.T_ne
theorem Spec.NewUnits.Binary.force : SameDigits rnd U.force :=
  (hb.M.mul hb.L).div hb.T.sq (pow_pos U.T_pos 2).ne'
theorem Spec.NewUnits.Binary.rate : SameDigits rnd U.rate := SameDigits.one.div hb.T U.T_ne
theorem Spec.NewUnits.Binary.invL : SameDigits rnd (1 / U.L) := SameDigits.one.div hb.L U.L_ne

variable {ns N : ℕ}

/-! ## Points -/

theorem shapeNR_scale (dx dy : K) (x : Vec K) :
    shapeNR rnd (U.L * dx) (U.L * dy) (U.L • x) = shapeNR rnd dx dy x := by
  have h := pow_ne_zero 2 U.L_ne
  have h2 : ∀ a b, rnd (U.L * a * (U.L * b)) = U.L ^ 2 * rnd (a * b) := fun a b => by
    rw [show U.L * a * (U.L * b) = U.L ^ 2 * (a * b) by ring, hb.L.sq]
  funext r
  fin_cases r <;> simp only [shapeNR, Pi.smul_apply, smul_eq_mul, h2, ← mul_sub, hb.L _,
    mul_div_mul_left _ _ h]

theorem shapeGR_scale (dx dy : K) (x : Vec K) (r : Fin 4) :
    shapeGR rnd (U.L * dx) (U.L * dy) (U.L • x) r = (1 / U.L) • shapeGR rnd dx dy x r := by
  have h := U.L_ne
  have h2 : rnd (U.L * dx * (U.L * dy)) = U.L ^ 2 * rnd (dx * dy) := by
    rw [show U.L * dx * (U.L * dy) = U.L ^ 2 * (dx * dy) by ring, hb.L.sq]
  have h3 : ∀ a c, U.L * a / (U.L ^ 2 * c) = 1 / U.L * (a / c) := by
    intro a c
    rw [pow_two, mul_assoc, mul_div_mul_left _ _ h, div_mul_eq_div_div, div_mul_eq_mul_div, one_mul,
      div_right_comm]
  have h4 : ∀ c, (0 : K) / (U.L ^ 2 * c) = 1 / U.L * (0 / c) := by
    intro c; rw [zero_div, zero_div, mul_zero]
  funext k
  fin_cases r <;> fin_cases k <;>
    simp only [shapeGR, Pi.smul_apply, smul_eq_mul, h2, ← mul_sub, hb.L _, ← mul_neg, h3, h4,
      Matrix.cons_val, Fin.zero_eta, Fin.mk_one, Fin.reduceFinMk, hb.invL _]

theorem basisR_scale (law : Law) (G : Grid K N ns) (mp : Particle K ns) :
    (scalePt U law mp).getBasisFunctionsR rnd (scaleGrid U G) =
      scalePt U law <$> mp.getBasisFunctionsR rnd G := by
  refine res_bind_id fun n => ?_
  have hx : (![rnd ((scalePt U law mp).x 0 - (scaleGrid U G).X n), rnd ((scalePt U law mp).x 1
      - (scaleGrid U G).Y n), rnd ((scalePt U law mp).x 2 - 0)] : Vec K)
      = U.L • ![rnd (mp.x 0 - G.X n), rnd (mp.x 1 - G.Y n), rnd (mp.x 2 - 0)] := by
    funext k
    fin_cases k <;> simp [scalePt, scaleGrid, ← mul_sub, hb.L _]
  dsimp only
  rw [hx]
  refine ite_iff ?_ rfl (congrArg Except.ok ?_)
  · have h2 : (scaleGrid U G).dx * (scaleGrid U G).dy = U.L ^ 2 * (G.dx * G.dy) := by
      simp only [scaleGrid]; ring
    rw [h2, hb.L.sq, mul_eq_zero_iff' (pow_pos U.L_pos 2)]
  · simp only [scalePt, scaleGrid, Particle.mk.injEq, true_and, and_true]
    exact ⟨funext fun r => shapeGR_scale hb _ _ _ r, shapeNR_scale hb _ _ _⟩

theorem addAtR_scale {c : K} (hc : SameDigits rnd c) (f : Fin N → K) (n : Fin N) (x : K) :
    addAtR rnd (fun i => c * f i) n (c * x) = fun i => c * addAtR rnd f n x i := by
  funext i
  unfold addAtR
  by_cases h : i = n
  · subst h; simp only [Function.update_self, ← mul_add, hc _]
  · simp only [Function.update_of_ne h]

theorem addRowR_scale {ι : Type} {c : K} (hc : SameDigits rnd c) (f : Fin N → ι → K) (n : Fin N)
    (x : ι → K) : addRowR rnd (fun i => c • f i) n (c • x) = fun i => c • addRowR rnd f n x i := by
  funext i
  unfold addRowR
  by_cases h : i = n
  · subst h
    funext k
    simp only [Function.update_self, Pi.smul_apply, smul_eq_mul, ← mul_add, hc _]
  · simp only [Function.update_of_ne h]

theorem p2gR_scale (law : Law) (nx : ℕ) (seg : Bool) (vel : Vec K) (mp : Particle K ns)
    (G : Grid K N ns) : (scalePt U law mp).p2gR rnd nx seg (U.vel • vel) (scaleGrid U G) =
      scaleGrid U <$> mp.p2gR rnd nx seg vel G := by
  refine for4_equiv (ψ := scaleGrid U) (fun r G => res_bind_id fun n => congrArg Except.ok ?_) G
  have hm : rnd ((scalePt U law mp).N r * (scalePt U law mp).m) = U.M * rnd (mp.N r * mp.m) := by
    rw [← hb.M]; congr 1; simp only [scalePt]; ring
  have hq : (fun k => rnd (U.M * rnd (mp.N r * mp.m) * (U.vel • vel) k)) =
      U.mom • fun k => rnd (rnd (mp.N r * mp.m) * vel k) := by
    funext k
    rw [Pi.smul_apply, Pi.smul_apply, smul_eq_mul, smul_eq_mul, ← hb.mom, NewUnits.mom_eq]
    congr 1; ring
  have hp : (fun j => rnd (U.M * rnd (mp.N r * mp.m) * (scalePt U law mp).phi j)) =
      U.M • fun j => rnd (rnd (mp.N r * mp.m) * mp.phi j) := by
    funext k
    rw [Pi.smul_apply, smul_eq_mul]
    show rnd (U.M * rnd (mp.N r * mp.m) * mp.phi k) = _
    rw [mul_assoc, hb.M]
  have hk : rnd (U.M * rnd (mp.N r * mp.m) * (scalePt U law mp).pk) =
      U.M * U.stress * rnd (rnd (mp.N r * mp.m) * mp.pk) := by
    rw [← (hb.M.mul hb.stress)]
    simp only [scalePt]
    congr 1; ring
  rw [hm, hq, hp, hk]
  cases seg
  · simp only [scaleGrid, Grid.mk.injEq, true_and, and_true, Bool.false_eq_true, if_false]
    exact ⟨addAtR_scale hb hb.M _ _ _, addRowR_scale hb hb.mom _ _ _⟩
  · simp only [scaleGrid, Grid.mk.injEq, true_and, and_true, if_true]
    exact ⟨addAtR_scale hb hb.M _ _ _, addRowR_scale hb hb.mom _ _ _,
      addAtR_scale hb (hb.M.mul hb.stress) _ _ _, addRowR_scale hb hb.M _ _ _⟩

theorem gravityR_scale (law : Law) (P : Par K) (g : K) (p : ℕ) (mp : Particle K ns) :
    (scalePt U law mp).incrementGravityR rnd (scalePar U P) (U.acc * g) p =
      scalePt U law (mp.incrementGravityR rnd P g p) := by
  unfold Particle.incrementGravityR
  split
  · simp only [scalePt, Particle.mk.injEq, true_and, and_true]
    funext k
    fin_cases k <;> simp [bodyForceR, mul_assoc, hb.acc _]
  · rfl

theorem nodeVelR_scale (M_tol : K) (G : Grid K N ns) (n : Fin N) :
    nodeVelR rnd (U.M * M_tol) (scaleGrid U G) n = U.vel • nodeVelR rnd M_tol G n := by
  unfold nodeVelR
  have h : U.M * M_tol < (scaleGrid U G).m n ↔ M_tol < G.m n := mul_lt_mul_iff_right₀ U.M_pos
  simp only [h]
  split
  · funext k
    simp only [scaleGrid, Pi.smul_apply, smul_eq_mul]
    rw [over_mass (U := U) _ _ NewUnits.mom_eq, hb.vel]
  · simp

theorem updateStrainR_scale (law : Law) (nx : ℕ) (M_tol dt : K) (G : Grid K N ns)
    (mp : Particle K ns) :
    (scalePt U law mp).updateStrainR rnd nx (U.M * M_tol) (U.T * dt) (scaleGrid U G) =
      scalePt U law <$> mp.updateStrainR rnd nx M_tol dt G := by
  have h0 : ({ scalePt U law mp with dstrain := 0, LL := 0 } : Particle K ns) =
      scalePt U law { mp with dstrain := 0, LL := 0 } := by
    simp [scalePt]
  unfold Particle.updateStrainR
  rw [h0]
  refine res_bind_map (f := scalePt U law) (for4_equiv (ψ := scalePt U law) (fun r mp => ?_) _)
    fun _ _ => rfl
  refine res_bind_id fun n => congrArg Except.ok ?_
  have hv : U.vel * (1 / U.L) = U.rate := by
    have := U.L_ne; have := U.T_ne; unfold NewUnits.vel NewUnits.rate; field_simp
  have h1 : ∀ v g : K, rnd (U.vel * v * (1 / U.L * g)) = U.rate * rnd (v * g) := by
    intro v g
    rw [← hb.rate, ← hv]; congr 1; ring
  have h2 : ∀ v g : K, rnd (1 / U.L * g * (U.vel * v)) = U.rate * rnd (g * v) := by
    intro v g
    rw [← hb.rate, ← hv]; congr 1; ring
  have h3 : ∀ a : K, rnd (1 / 2 * (U.rate * a)) = U.rate * rnd (1 / 2 * a) := by
    intro a
    rw [← hb.rate]; congr 1; ring
  have h4 : ∀ a : K, U.rate * a * (U.T * dt) = a * dt := by
    intro a
    have := U.T_rate
    linear_combination (a * dt) * this
  have hn := nodeVelR_scale hb M_tol G n
  have l1 : ∀ i j, rnd (nodeVelR rnd (U.M * M_tol) (scaleGrid U G) n i * (1 / U.L * mp.Gs r j)) =
      U.rate * rnd (nodeVelR rnd M_tol G n i * mp.Gs r j) := fun i j => by
    rw [hn, Pi.smul_apply, smul_eq_mul, h1]
  have l2 : ∀ i j, rnd (1 / U.L * mp.Gs r i * nodeVelR rnd (U.M * M_tol) (scaleGrid U G) n j) =
      U.rate * rnd (mp.Gs r i * nodeVelR rnd M_tol G n j) := fun i j => by
    rw [hn, Pi.smul_apply, smul_eq_mul, h2]
  refine congrArg₂ (fun (d l : Mat K) => { scalePt U law mp with dstrain := d, LL := l }) ?_ ?_
  · funext i j
    change rnd (mp.dstrain i j + rnd (rnd (1 / 2 * rnd (rnd (_ * (1 / U.L * mp.Gs r j)) +
      rnd (1 / U.L * mp.Gs r i * _))) * (U.T * dt))) = rnd _
    rw [l1, l2, ← mul_add, hb.rate, h3, h4]
  · funext i j
    change rnd (rnd (U.rate * mp.LL i j + rnd (_ * (1 / U.L * mp.Gs r j))) +
      rnd (1 / U.L * mp.Gs r i * _)) = U.rate * rnd _
    rw [l1, l2, ← mul_add, hb.rate, ← mul_add, hb.rate]

theorem dotR_scale (s : Mat K) (g : Vec K) (i : Fin 3) :
    dotR rnd (U.stress • s) ((1 / U.L) • g) i = U.stress * (1 / U.L) * dotR rnd s g i := by
  have hc := hb.stress.mul hb.invL
  have h1 : ∀ a b : K, rnd (U.stress * a * (1 / U.L * b)) = U.stress * (1 / U.L) * rnd (a * b) := by
    intro a b
    rw [← hc]; congr 1; ring
  unfold dotR
  simp only [Matrix.smul_apply, Pi.smul_apply, smul_eq_mul, h1, ← mul_add, hc _]

theorem nodalForcesR_scale (law : Law) (nx : ℕ) (mp : Particle K ns) (G : Grid K N ns) :
    (scalePt U law mp).nodalForcesR rnd nx (scaleGrid U G) =
      scaleGrid U <$> mp.nodalForcesR rnd nx G := by
  refine for4_equiv (ψ := scaleGrid U) (fun r G => res_bind_id fun n => congrArg Except.ok ?_) G
  have hm : rnd ((scalePt U law mp).N r * (scalePt U law mp).m) = U.M * rnd (mp.N r * mp.m) := by
    rw [← hb.M]; congr 1; simp only [scalePt]; ring
  have he : (fun k => rnd (U.M * rnd (mp.N r * mp.m) * (scalePt U law mp).b k)) =
      U.force • fun k => rnd (rnd (mp.N r * mp.m) * mp.b k) := by
    funext k
    rw [Pi.smul_apply, smul_eq_mul, ← hb.force, NewUnits.force_eq]
    simp only [scalePt, Pi.smul_apply, smul_eq_mul]
    congr 1; ring
  have hi : (fun k => rnd ((scalePt U law mp).V * dotR rnd (scalePt U law mp).stress
      ((scalePt U law mp).Gs r) k)) =
      U.force • fun k => rnd (mp.V * dotR rnd mp.stress (mp.Gs r) k) := by
    funext k
    rw [Pi.smul_apply, smul_eq_mul, ← hb.force, ← NewUnits.force_vol]
    simp only [scalePt, dotR_scale hb]
    congr 1
    ring
  rw [hm, he, hi]
  simp only [scaleGrid, Grid.mk.injEq, true_and, and_true]
  exact ⟨addRowR_scale hb hb.force _ _ _, addRowR_scale hb hb.force _ _ _⟩

theorem addVelR_scale (d : Vec K) (v : VRef K) (iv : Vec K) :
    addVelR rnd (U.vel • d) (scaleV U v, U.vel • iv) =
      Prod.map (scaleV U) (U.vel • ·) (addVelR rnd d (v, iv)) := by
  cases v <;> simp only [addVelR, scaleV, Prod.map] <;> congr 1
  · congr 1; funext k; simp only [Pi.smul_apply, smul_eq_mul, ← mul_add, hb.vel _]
  · funext k; simp only [Pi.smul_apply, smul_eq_mul, ← mul_add, hb.vel _]

theorem moveR_scale (law : Law) (nx : ℕ) (M_tol dt : K) (G : Grid K N ns) (mp : Particle K ns)
    (iv : Vec K) :
    (scalePt U law mp).moveR rnd nx (U.M * M_tol) (U.T * dt) (scaleGrid U G) (U.vel • iv)
      = Prod.map (scalePt U law) (U.vel • ·) <$> mp.moveR rnd nx M_tol dt G iv := by
  have hm : ∀ n, U.M * M_tol < (scaleGrid U G).m n ↔ M_tol < G.m n :=
    fun n => mul_lt_mul_iff_right₀ U.M_pos
  have h0 : ∀ mp : Particle K ns, ({ scalePt U law mp with rho := 0 } : Particle K ns) =
      scalePt U law { mp with rho := 0 } := fun mp => by simp [scalePt]
  have hT : ∀ N : K, rnd (U.T * dt * N) = U.T * rnd (dt * N) := fun N => by rw [mul_assoc, hb.T]
  unfold Particle.moveR
  refine res_bind_map (f := Prod.map (scalePt U law) (U.vel • ·))
    (for4_equiv (ψ := Prod.map (scalePt U law) (U.vel • ·)) (fun r s => ?_) (mp, iv)) fun s _ => ?_
  · refine res_bind_id fun n => ite_iff (hm n) ?_ rfl
    have hq : (fun k => rnd (rnd (rnd (U.T * dt * s.1.N r) * (scaleGrid U G).q_dot n k) /
        (scaleGrid U G).m n)) =
        U.vel • fun k => rnd (rnd (rnd (dt * s.1.N r) * G.q_dot n k) / G.m n) := by
      funext k
      have h : rnd (rnd (U.T * dt * s.1.N r) * (scaleGrid U G).q_dot n k) =
          (U.T * U.force) * rnd (rnd (dt * s.1.N r) * G.q_dot n k) := by
        rw [hT, ← (hb.T.mul hb.force)]
        simp only [scaleGrid, Pi.smul_apply, smul_eq_mul]
        congr 1; ring
      rw [h, Pi.smul_apply, smul_eq_mul, ← hb.vel]
      exact congrArg rnd (over_mass _ _ (by rw [NewUnits.force_eq, NewUnits.vel_eq]; ring))
    have hx : ∀ k, rnd (rnd (rnd (U.T * dt * s.1.N r) * (scaleGrid U G).q n k) / (scaleGrid U G).m n) =
        U.L * rnd (rnd (rnd (dt * s.1.N r) * G.q n k) / G.m n) := by
      intro k
      have h : rnd (rnd (U.T * dt * s.1.N r) * (scaleGrid U G).q n k) =
          (U.T * U.mom) * rnd (rnd (dt * s.1.N r) * G.q n k) := by
        rw [hT, ← (hb.T.mul hb.mom)]
        simp only [scaleGrid, Pi.smul_apply, smul_eq_mul]
        congr 1; ring
      rw [h, ← hb.L]
      exact congrArg rnd (over_mass _ _ (by rw [NewUnits.mom_eq, NewUnits.L_eq]; ring))
    have ha := addVelR_scale hb (fun k => rnd (rnd (rnd (dt * s.1.N r) * G.q_dot n k) / G.m n)) s.1.v s.2
    refine congrArg Except.ok (Prod.ext ?_ ?_)
    · simp only [Prod.map, scalePt, Particle.mk.injEq, true_and, and_true]
      refine ⟨?_, ?_⟩
      · funext k
        simp only [hx, Pi.smul_apply, smul_eq_mul, ← mul_add, hb.L _]
      · exact (congrArg (fun d => (addVelR rnd d (scaleV U s.1.v, U.vel • s.2)).1) hq).trans
          (congrArg Prod.fst ha)
    · exact (congrArg (fun d => (addVelR rnd d (scaleV U s.1.v, U.vel • s.2)).2) hq).trans
        (congrArg Prod.snd ha)
  · refine res_bind_map (f := scalePt U law) ?_ fun _ _ => rfl
    refine Eq.trans (congrArg (for4 _) (h0 s.1)) ?_
    refine for4_equiv (ψ := scalePt U law) (fun r s => ?_) _
    refine res_bind_id fun n => ite_iff (hm n) ?_ rfl
    refine ite_iff (mul_eq_zero_iff' U.vol_pos _) rfl (congrArg Except.ok ?_)
    simp only [scalePt, scaleGrid, Particle.mk.injEq, and_true]
    have hv := U.vol_pos.ne'
    have e1 : rnd (s.N r * (U.M * G.m n)) = U.M * rnd (s.N r * G.m n) := by
      rw [← hb.M]; congr 1; ring
    have e2 : ∀ a : K, U.M * a / (U.vol * G.V n) = U.dens * (a / G.V n) := by
      intro a
      rw [← NewUnits.vol_dens, mul_comm U.dens, mul_assoc, mul_div_mul_left _ _ hv, mul_div_assoc]
    rw [e1, e2, hb.dens, ← mul_add, hb.dens]

theorem moveRigidR_scale (law : Law) (dt : K) (v : Vec K) (mp : Particle K ns) :
    (scalePt U law mp).moveRigidR rnd (U.T * dt) (U.vel • v) =
      scalePt U law (mp.moveRigidR rnd dt v) := by
  unfold Particle.moveRigidR
  simp only [scalePt, scaleV, Particle.mk.injEq, true_and, and_true]
  funext k
  simp only [Pi.smul_apply, smul_eq_mul]
  rw [← hb.L]
  have : rnd (U.T * dt * (U.vel * v k)) = U.L * rnd (dt * v k) := by
    rw [← hb.L, NewUnits.L_eq]; congr 1; ring
  rw [this, mul_add]

/-! ## The grid -/

theorem makeCyclicR_scale {nx ny : ℕ} {c : K} (hc : SameDigits rnd c) (a : Fin (ny * nx) → K) :
    makeCyclicR rnd (nx := nx) (ny := ny) (fun i => c * a i) = fun i => c * makeCyclicR rnd a i := by
  funext i
  unfold makeCyclicR
  dsimp only
  split_ifs <;> simp only [← mul_add, hc _]

theorem cyclicMQR_scale {nx ny : ℕ} (G : Grid K (ny * nx) ns) :
    (scaleGrid U G).makeCyclicMQR rnd = scaleGrid U (G.makeCyclicMQR rnd) := by
  unfold Grid.makeCyclicMQR
  simp only [scaleGrid, Grid.mk.injEq, true_and, and_true]
  refine ⟨makeCyclicR_scale hb hb.M _, ?_⟩
  funext i k
  exact congrFun (makeCyclicR_scale hb hb.mom fun i => G.q i k) i

theorem cyclicForcesR_scale {nx ny : ℕ} (G : Grid K (ny * nx) ns) :
    (scaleGrid U G).makeCyclicForcesR rnd = scaleGrid U (G.makeCyclicForcesR rnd) := by
  unfold Grid.makeCyclicForcesR
  simp only [scaleGrid, Grid.mk.injEq, true_and, and_true]
  constructor
  · funext i k
    exact congrFun (makeCyclicR_scale hb hb.force fun i => G.fi i k) i
  · funext i k
    exact congrFun (makeCyclicR_scale hb hb.force fun i => G.fe i k) i

theorem roughNodeR_scale {c : K} (hs : SameDigits rnd c) (hc : 0 < c) (mu : K) (bh bv n1 : Bool)
    (q : Vec K) : roughNodeR rnd mu bh bv n1 (c • q) = c • roughNodeR rnd mu bh bv n1 q := by
  have h1 : ∀ x y : K, min |c * x| (rnd (mu * |c * y|)) = c * min |x| (rnd (mu * |y|)) := by
    intro x y
    rw [mul_min_of_nonneg _ _ hc.le, abs_mul, abs_mul, abs_of_pos hc, ← hs]
    congr 2; ring
  have h2 : ∀ a x y z : K, c * a - x * (y * (c * z)) = c * (a - x * (y * z)) := fun a x y z => by ring
  have h3 : ∀ a x y z w : K, c * a - x * (y * (c * z) * w) = c * (a - x * (y * z * w)) :=
    fun a x y z w => by ring
  have h4 : ∀ a x y z w v : K, c * a - x * (y * (c * z) * w * v) = c * (a - x * (y * z * w * v)) :=
    fun a x y z w v => by ring
  funext k
  unfold roughNodeR
  simp only [Pi.smul_apply, smul_eq_mul, h1, sgn_scale hc, mul_neg_iff' hc,
    mul_pos_iff_of_pos_left hc]
  fin_cases k
  · simp only [Fin.zero_eta, Matrix.cons_val_zero]
    cases n1 <;> simp only [Bool.false_eq_true, if_true, if_false, h2, h4, hs _]
  · simp only [Fin.mk_one, Matrix.cons_val_one, Matrix.cons_val_zero]
    cases n1 <;> simp only [Bool.false_eq_true, if_true, if_false, h2, h4, hs _]
  · rfl

theorem BCsR_scale {nx ny : ℕ} (B : BP K) (q_v q_h rho0 : K) (an : Bool) (G : Grid K (ny * nx) ns) :
    (scaleGrid U G).BCsR rnd B (U.stress * q_v) (U.stress * q_h) (U.dens * rho0) an =
      scaleGrid U <$> G.BCsR rnd B q_v q_h rho0 an := by
  have hd := U.dens_pos
  have hL := U.L_pos
  have f1 : ∀ e : K, rnd (2 * (U.stress * e)) = U.stress * rnd (2 * e) := fun e => by
    rw [mul_left_comm, hb.stress]
  have f2 : ∀ e m : K, rnd (U.stress * e * (U.M * m)) = U.stress * U.M * rnd (e * m) := fun e m => by
    rw [mul_mul_mul_comm, hb.stress.mul hb.M]
  have sd := (hb.stress.mul hb.M).div hb.dens hd.ne'
  have f3 : ∀ a : K, rnd (U.stress * U.M * a / (U.dens * rho0)) =
      U.stress * U.M / U.dens * rnd (a / rho0) := fun a => by
    rw [← sd, mul_div_mul_comm]
  have f4 : ∀ a d : K, rnd (U.stress * U.M / U.dens * a / (U.L * d)) = U.force * rnd (a / d) :=
    fun a d => by
      rw [← hb.force, ← NewUnits.force_dens, mul_div_mul_comm]
  have hf : ∀ e m d : K, rnd (rnd (rnd (rnd (2 * (U.stress * e)) * (U.M * m)) / (U.dens * rho0)) /
      (U.L * d)) = U.force * rnd (rnd (rnd (rnd (2 * e) * m) / rho0) / d) := by
    intro e m d
    rw [f1, f2, f3, f4]
  unfold Grid.BCsR
  refine ite_iff ?_ rfl ?_
  · simp only [scaleGrid, mul_eq_zero_iff' hd, mul_eq_zero_iff' hL]
  · cases B.vertical_force <;> cases B.horizontal_force
    all_goals
      refine ite_equiv rfl (congrArg Except.ok ?_)
      simp only [scaleGrid, Grid.mk.injEq, true_and, and_true, if_true, if_false, Bool.false_eq_true,
        Pi.smul_apply, smul_eq_mul, Function.update_self, ← mul_add, ← mul_sub, hb.stress _, ← mul_ite,
        hf, hb.force _]
    all_goals
      refine ⟨?_, ?_⟩ <;> funext n k <;> fin_cases k <;>
        simp [← mul_add, ← mul_sub, hb.stress _, ← mul_ite, hf, hb.force _]

theorem momentumR_scale {nx ny : ℕ} (B : BP K) (damping : Bool) (dt v_0 : K)
    (G : Grid K (ny * nx) ns) :
    (scaleGrid U G).updateMomentumR rnd B damping (U.T * dt) (U.vel * v_0) =
      scaleGrid U (G.updateMomentumR rnd B damping dt v_0) := by
  have hF := U.force_pos
  have hTF : U.T * U.force = U.mom := by
    rw [NewUnits.force_eq, NewUnits.mom_eq, NewUnits.vel_eq]; ring
  have hmask : ∀ (v : Vec K) (b1 b2 : Bool),
      ![maskOff ((U.force • v) 0) b1, maskOff ((U.force • v) 1) b2, (U.force • v) 2] =
        U.force • ![maskOff (v 0) b1, maskOff (v 1) b2, v 2] := by
    intro v b1 b2
    funext k
    fin_cases k <;> simp [maskOff_scale]
  have hd : (if damping = true then fun i k => rnd (rnd (7 / 10 : K) *
        rnd ((scaleGrid U G).fe i k - (scaleGrid U G).fi i k))
      else fun i k => rnd ((scaleGrid U G).fe i k - (scaleGrid U G).fi i k)) = fun i => U.force •
        (if damping = true then fun i k => rnd (rnd (7 / 10 : K) * rnd (G.fe i k - G.fi i k))
          else fun i k => rnd (G.fe i k - G.fi i k)) i := by
    have e : ∀ i k, rnd ((scaleGrid U G).fe i k - (scaleGrid U G).fi i k) =
        U.force * rnd (G.fe i k - G.fi i k) := fun i k => by
      rw [← hb.force, mul_sub]; rfl
    cases damping
    · funext i k; simp only [Bool.false_eq_true, if_false, e, Pi.smul_apply, smul_eq_mul]
    · funext i k
      simp only [if_true, e, Pi.smul_apply, smul_eq_mul]
      rw [mul_left_comm, hb.force]
  have hr : ∀ (qd : Fin (ny * nx) → Vec K) (bh bv : Fin (ny * nx) → Bool),
      (if B.roughness = true then
        if B.wall_mu ≠ 0 then
          fun i : Fin (ny * nx) => roughNodeR rnd B.wall_mu (bh i) (bv i) (decide ((i : ℕ) = 1))
            (U.force • qd i)
        else fun i => ![maskOff ((U.force • qd i) 0) (bh i), maskOff ((U.force • qd i) 1) (bv i),
          (U.force • qd i) 2]
      else fun i => U.force • qd i) = fun i => U.force •
      (if B.roughness = true then
        if B.wall_mu ≠ 0 then
          fun i : Fin (ny * nx) => roughNodeR rnd B.wall_mu (bh i) (bv i) (decide ((i : ℕ) = 1)) (qd i)
        else fun i => ![maskOff (qd i 0) (bh i), maskOff (qd i 1) (bv i), qd i 2]
      else qd) i := by
    intro qd bh bv
    funext i
    split_ifs
    · exact roughNodeR_scale hb hb.force hF _ _ _ _ _
    · exact hmask _ _ _
    · rfl
  have hq : ∀ (v : Vec K) (i : Fin (ny * nx)),
      (fun k => rnd ((scaleGrid U G).q i k + rnd (U.T * dt * (U.force • v) k))) =
        U.mom • fun k => rnd (G.q i k + rnd (dt * v k)) := by
    intro v i
    funext k
    have e : rnd (U.T * dt * (U.force • v) k) = U.mom * rnd (dt * v k) := by
      rw [← hb.mom, Pi.smul_apply, smul_eq_mul, ← hTF]; congr 1; ring
    have e' : (scaleGrid U G).q i k = U.mom * G.q i k := rfl
    rw [e, e', Pi.smul_apply, smul_eq_mul, ← mul_add, hb.mom]
  have hq' : ∀ v : Fin (ny * nx) → Vec K,
      (fun i k => rnd ((scaleGrid U G).q i k + rnd (U.T * dt * (U.force • v i) k))) =
        fun i => U.mom • fun k => rnd (G.q i k + rnd (dt * v i k)) :=
    fun v => funext fun i => hq (v i) i
  have hc : ∀ q : Fin (ny * nx) → Vec K,
      (if B.conveyor = true then
        fun i => if G.boundary_conveyor i = true then
          Function.update (U.mom • q i) 0 (rnd (U.vel * v_0 * (U.M * G.m i))) else U.mom • q i
      else fun i => U.mom • q i) = fun i => U.mom •
      (if B.conveyor = true then
        fun i => if G.boundary_conveyor i = true then
          Function.update (q i) 0 (rnd (v_0 * G.m i)) else q i
      else q) i := by
    intro q
    funext i
    by_cases hB : B.conveyor = true
    · simp only [if_pos hB]
      by_cases hbc : G.boundary_conveyor i = true
      · simp only [if_pos hbc]
        have e : rnd (U.vel * v_0 * (U.M * G.m i)) = U.mom * rnd (v_0 * G.m i) := by
          rw [← hb.mom, NewUnits.mom_eq]; congr 1; ring
        rw [e]
        funext k
        fin_cases k <;> simp
      · simp only [if_neg hbc]
    · simp only [if_neg hB]
  unfold Grid.updateMomentumR
  dsimp only
  rw [hd]
  have hb0 : (scaleGrid U G).boundary_h = G.boundary_h := rfl
  have hb' : (scaleGrid U G).boundary_v = G.boundary_v := rfl
  have hb'' : (scaleGrid U G).boundary_conveyor = G.boundary_conveyor := rfl
  have hm : (scaleGrid U G).m = fun i => U.M * G.m i := rfl
  rw [hb0, hb', hb'', hm]
  generalize (if (B.roughness && decide (B.wall_mu ≠ 0)) = true then
    fun i => G.boundary_h i || inBottom nx ny i || inTop nx ny i else G.boundary_h) = bh
  generalize (if (B.roughness && decide (B.wall_mu ≠ 0)) = true then
    fun i => G.boundary_v i || inLeft nx ny i || inRight nx ny i else G.boundary_v) = bv
  rw [hr]
  simp only [hmask, hq]
  rw [hq', hc]
  rfl

end
end Mpm

import Verif.Model.FloatLaw
import Verif.Lemmas.FloatFluid
import Verif.Props.FloatStep
import Verif.ExRun
import Mathlib.Data.Rat.Floor

/-!
# C140: strain and stress updates in floating point

The laws `rigid`, `elastic`, `elastic_time` and `viscous` with every operation rounded: with the identity
as rounding they are those of the exact model; otherwise the stress differs from the exact one by a
bounded number of roundings, a body at rest stays at rest and small increments of stress are lost.
-/

set_option linter.unusedSectionVars false

namespace Mpm
open Spec

section
variable {K : Type} [Field K] [LinearOrder K] [IsStrictOrderedRing K] {ns N nx : ℕ}

/-! ## Without rounding -/

theorem XF.rd_id (x : XF K) : XF.rd id x = x := by cases x <;> rfl

theorem traceR_id (A : Mat K) : traceR id A = A.trace := by
  simp [traceR, Matrix.trace_fin_three]

theorem devR_id (A : Mat K) : devR id A = A - (A.trace / 3) • (1 : Mat K) := by
  ext i j
  simp [devR, traceR_id, mul_div_right_comm]

theorem hookeR_id (Kb Gs : K) (e : Mat K) :
    hookeR id Kb Gs e = (Kb * e.trace) • (1 : Mat K) + (2 * Gs) • (e - (e.trace / 3) • (1 : Mat K)) := by
  ext i j
  simp only [hookeR, traceR_id, devR_id, id]
  simp

theorem sumSqR_id (A : Mat K) : sumSqR id A = frob A A := by
  simp only [sumSqR, frob, id, Fin.sum_univ_three]
  ring

theorem mdotR_id (A B : Mat K) : mdotR id A B = A * B := by
  ext i j
  simp [mdotR, Matrix.mul_apply, Fin.sum_univ_three]

theorem applyStressR_id (dt : K) (mp : Particle K ns) : mp.applyStressR id dt = mp.applyStress dt := by
  unfold Particle.applyStressR Particle.applyStress
  simp only [mdotR_id, id]
  refine congrArg (fun v => { mp with stress := v }) ?_
  ext i j
  simp [mul_comm, mul_add]

theorem XF.mul_div_fin (a b d : K) : (.fin (a * b) / .fin d : XF K) = .fin a * (.fin b / .fin d) := by
  show XF.div (.fin (a * b)) (.fin d) = XF.mul (.fin a) (XF.div (.fin b) (.fin d))
  unfold XF.div
  by_cases hd : d = 0
  · simp only [hd, if_true]
    by_cases hb : b = 0
    · simp [hb, XF.mul]
    by_cases ha : a = 0
    · simp only [ha, hb, zero_mul, if_true, if_false, infSign]
      split_ifs <;> simp [XF.mul]
    simp only [mul_eq_zero, ha, hb, or_self, if_false, infSign]
    rcases lt_or_gt_of_ne hb with hb | hb <;> rcases lt_or_gt_of_ne ha with ha | ha
    · simp [XF.mul, infSign, mul_pos_of_neg_of_neg ha hb, hb.not_gt, ha, ha.ne]
    · simp [XF.mul, infSign, (mul_neg_of_pos_of_neg ha hb).not_gt, hb.not_gt, ha.not_gt, ha.ne']
    · simp [XF.mul, infSign, (mul_neg_of_neg_of_pos ha hb).not_gt, hb, ha.not_gt, ha.ne]
    · simp [XF.mul, infSign, mul_pos ha hb, hb, ha, ha.ne']
  · simp [hd, XF.mul, mul_div_assoc]

theorem scatterVisR_id {mp : Particle K ns} {l : Fin 4 → List (Vis × XF K)} {l' : List (Vis × XF K)}
    (h : ∀ r, l r = l'.map fun e => (e.1, .fin (mp.N r) * e.2 * .fin mp.m)) (vis : Vis → Fin N → XF K) :
    scatterVisR id nx mp l vis = scatterVis nx mp l' vis := by
  unfold scatterVisR scatterVis
  congr 1
  funext r vis
  refine bind_congr fun n => ?_
  rw [h, List.foldl_map]
  simp only [XF.rd_id]
  rfl

theorem elasticVisR_id (dt : K) (mp : Particle K ns) (r : Fin 4) : elasticVisR id dt mp r =
    [(.pressure, .fin mp.pressure), (.gammadot, .fin mp.gammadot / .fin dt),
      (.sigmav, .fin mp.sigmav), (.sigmah, .fin mp.sigmah)].map
      fun e => (e.1, .fin (mp.N r) * e.2 * .fin mp.m) := by
  simp only [elasticVisR, XF.rd_id, id, XF.mul_div_fin, List.map_cons, List.map_nil]
  rfl

theorem viscousR_id (c : LawCtx K ns) (mp : Particle K ns) :
    let de_kk := mp.dstrain.trace / 3
    let de_ij := mp.dstrain - de_kk • (1 : Mat K)
    let pressure := mp.pressure + c.mat.Kb * de_kk
    let dev_stress : Mat K := (2 * c.mat.mu_s / c.dt) • de_ij
    let viscous_volumetric : Mat K := (c.mat.mu_v * de_kk / c.dt) • (1 : Mat K)
    viscousR id c mp = { mp with
      de_ij := de_ij
      pressure := pressure
      dev_stress := dev_stress
      dstress := pressure • (1 : Mat K) + dev_stress - viscous_volumetric - mp.stress
      gammadot := c.ops.sqrt (frob de_ij de_ij) / c.dt } := by
  intro de_kk de_ij pressure dev_stress vv
  have e1 : (fun i j => mp.dstrain i j - de_kk * (1 : Mat K) i j : Mat K) = de_ij := by
    ext i j; simp [de_ij]
  have e2 : (fun i j => 2 * c.mat.mu_s * (mp.dstrain i j - de_kk * (1 : Mat K) i j) / c.dt : Mat K) =
      dev_stress := by
    ext i j; simp [dev_stress, de_ij, mul_div_right_comm]
  have e3 : (fun i j => pressure * (1 : Mat K) i j +
      2 * c.mat.mu_s * (mp.dstrain i j - de_kk * (1 : Mat K) i j) / c.dt -
      c.mat.mu_v * de_kk * (1 : Mat K) i j / c.dt - mp.stress i j : Mat K) =
      pressure • (1 : Mat K) + dev_stress - vv - mp.stress := by
    ext i j
    simp [vv, dev_stress, de_ij, mul_div_right_comm]
  unfold viscousR
  simp only [traceR_id, id]
  congr 1
  exact congrArg (fun x => c.ops.sqrt x / c.dt) ((sumSqR_id _).trans (by rw [← e1]))

/-- C140.  With the identity as rounding these are the laws of the exact model. -/
theorem c140_exact {law : Law} (hl : law = .rigid ∨ law = .elastic ∨ law = .elastic_time ∨ law = .viscous)
    (c : LawCtx K ns) (mp : Particle K ns) (vis : Vis → Fin N → XF K) :
    mp.updateStressR id nx law c vis = mp.updateStress nx law c vis := by
  unfold Particle.updateStressR Particle.updateStress
  simp only [applyStressR_id]
  rcases hl with rfl | rfl | rfl | rfl
  · refine congrArg (fun x => x >>= fun v => (pure (mp.applyStress c.dt, v) : Res _))
      (scatterVisR_id (l' := []) (fun _ => rfl) vis)
  · simp only [runLawR, runLaw, lawElastic, elasticR, hookeR_id, sumSqR_id, devR_id, traceR_id, id]
    exact congrArg (fun x => x >>= fun v => (pure (_, v) : Res _))
      (scatterVisR_id (elasticVisR_id c.dt _) vis)
  · have hm : elasticTimeMassR id c mp.m mp.V = elasticTimeMass c mp.m mp.V := rfl
    simp only [runLawR, runLaw, lawElasticTime, elasticTimeR, elasticR, hookeR_id, sumSqR_id, devR_id,
      traceR_id, id, hm]
    split_ifs
    · rfl
    · exact congrArg (fun x => x >>= fun v => (pure (_, v) : Res _))
        (scatterVisR_id (elasticVisR_id c.dt _) vis)
  · have e := viscousR_id c mp
    simp only [runLawR, runLaw, lawViscous]
    split_ifs
    · rfl
    · rw [e]
      refine congrArg (fun x => x >>= fun v => (pure (_, v) : Res _))
        (scatterVisR_id (fun r => ?_) vis)
      simp only [viscousVisR, sumSqR_id, id, List.map_cons, List.map_nil]
      rfl

/-! ## Error bounds -/

variable {rnd : K → K} {u : K}

theorem App.neg {k : ℕ} {c x y : K} (h : App u k c x y) : App u k c (-x) (-y) :=
  ⟨by rw [abs_neg]; exact h.size, by rw [← neg_sub', abs_neg]; exact h.err⟩

theorem App.sub {k : ℕ} {c d x y x' y' : K} (h : App u k c x y) (h' : App u k d x' y') :
    App u k (c + d) (x - x') (y - y') := by
  rw [sub_eq_add_neg, sub_eq_add_neg]
  exact h.add h'.neg

/-- A product with an exact factor. -/
theorem App.times (hr : Rounding rnd u) {k : ℕ} {c x y : K} (h : App u k c x y) (a : K) :
    App u k (c * |a|) (x * a) (y * a) := h.mul hr (App.exact a le_rfl)

theorem App.over (hr : Rounding rnd u) {k : ℕ} {c x y : K} (h : App u k c x y) (a : K) :
    App u k (c / |a|) (x / a) (y / a) := by
  rw [div_eq_mul_inv, div_eq_mul_inv, div_eq_mul_inv, ← abs_inv]
  exact h.times hr _

/-- The sizes of a matrix of increments. -/
def Spec.diag (a : Mat K) : K := a 0 0 + a 1 1 + a 2 2

theorem traceR_app (hr : Rounding rnd u) {k : ℕ} {a e e' : Mat K} (h : ∀ i j, App u k (a i j) (e i j) (e' i j)) :
    App u (k + 2) (diag a) (traceR id e) (traceR rnd e') := by
  have h1 := ((h 0 0).add (h 1 1)).round hr
  exact (h1.add ((h 2 2).weaken hr (by omega) le_rfl)).round hr

theorem one_abs (i j : Fin 3) : |(1 : Mat K) i j| = (1 : Mat K) i j := by
  rw [Matrix.one_apply]; split_ifs <;> simp

theorem devR_app (hr : Rounding rnd u) {k : ℕ} {a e e' : Mat K} (h : ∀ i j, App u k (a i j) (e i j) (e' i j))
    (i j : Fin 3) :
    App u (k + 5) (a i j + diag a * (1 : Mat K) i j / 3) (devR id e i j) (devR rnd e' i j) := by
  have h1 := ((((traceR_app hr h).times hr ((1 : Mat K) i j)).round hr).over hr 3).round hr
  rw [one_abs, abs_of_pos (by norm_num : (0 : K) < 3)] at h1
  exact (((h i j).weaken hr (by omega) le_rfl).sub h1).round hr

/-- Sizes for `hookeR`. -/
def Spec.hookeSize (Kb Gs : K) (a : Mat K) : Mat K := fun i j =>
  |Kb| * diag a * (1 : Mat K) i j + 2 * |Gs| * (a i j + diag a * (1 : Mat K) i j / 3)

theorem hookeR_app (hr : Rounding rnd u) {k : ℕ} (Kb Gs : K) {a e e' : Mat K}
    (h : ∀ i j, App u k (a i j) (e i j) (e' i j)) (i j : Fin 3) :
    App u (k + 8) (hookeSize Kb Gs a i j) (hookeR id Kb Gs e i j) (hookeR rnd Kb Gs e' i j) := by
  have h1 := ((App.exact Kb le_rfl).mul hr (traceR_app hr h)).round hr
  have h2 := (h1.times hr ((1 : Mat K) i j)).round hr
  rw [one_abs] at h2
  have h3 := (App.exact (2 * Gs) (u := u) le_rfl).round hr
  rw [abs_mul, abs_of_pos (by norm_num : (0 : K) < 2)] at h3
  have h4 := (h3.mul hr (devR_app hr h i j)).round hr
  exact ((h2.weaken hr (by omega) le_rfl).add (h4.weaken hr (k := k + 7) (by omega) le_rfl)).round hr

theorem mdotR_app (hr : Rounding rnd u) {j k : ℕ} {a b A A' B B' : Mat K}
    (hA : ∀ i l, App u j (a i l) (A i l) (A' i l)) (hB : ∀ i l, App u k (b i l) (B i l) (B' i l))
    (i l : Fin 3) : App u (j + k + 3) ((a * b : Mat K) i l) (mdotR id A B i l) (mdotR rnd A' B' i l) := by
  have h := fun m => ((hA i m).mul hr (hB m l)).round hr
  have h1 := ((h 0).add (h 1)).round hr
  have := (h1.add ((h 2).weaken hr (by omega) le_rfl)).round hr
  rw [Matrix.mul_apply, Fin.sum_univ_three]
  exact this

/-- Sizes for the new stress. -/
def Spec.stressSize (dt : K) (s l d : Mat K) : Mat K := fun i j =>
  |s i j| + (d i j + ((l * s.map abs) i j + (s.map abs * l) i j) * |dt|)

theorem applyStressR_app (hr : Rounding rnd u) {k l m : ℕ} (dt : K) {mp mp' : Particle K ns} {d g : Mat K}
    (hs : mp'.stress = mp.stress) (hd : ∀ i j, App u k (d i j) (mp.dstress i j) (mp'.dstress i j))
    (hl : ∀ i j, App u l (g i j) (mp.LL i j) (mp'.LL i j)) (h1 : k ≤ m) (h2 : l + 5 ≤ m) (i j : Fin 3) :
    App u (m + 2) (stressSize dt mp.stress g d i j) ((mp.applyStressR id dt).stress i j)
      ((mp'.applyStressR rnd dt).stress i j) := by
  have hS : ∀ i j, App u 0 (mp.stress.map abs i j) (mp.stress i j) (mp'.stress i j) := by
    intro i j; rw [hs]; exact App.exact _ le_rfl
  have a1 := mdotR_app hr hl hS i j
  have a2 := mdotR_app hr hS hl i j
  rw [zero_add, add_comm l 0, zero_add] at *
  have a3 := (((a1.add a2).round hr).times hr dt).round hr
  have a4 := (((hd i j).weaken hr h1 le_rfl).sub (a3.weaken hr (k := m) (by omega) le_rfl)).round hr
  exact (((hS i j).weaken hr (Nat.zero_le _) le_rfl).add a4).round hr

/-- Sizes of the velocity gradient `L + L^T`. -/
def Spec.gradSize (nx : ℕ) (M_tol : K) (G : Grid K N ns) (mp : Particle K ns) : Mat K := fun i j =>
  ((heavy nx M_tol G mp).map fun c => |G.q c.2 i / G.m c.2 * mp.Gs c.1 j| +
    |mp.Gs c.1 i * (G.q c.2 j / G.m c.2)|).sum

variable [FloorRing K]

theorem nodeVel_app (hr : Rounding rnd u) (M_tol : K) (G : Grid K N ns) (n : Fin N) (k : Fin 3) :
    App u 1 (if M_tol < G.m n then |G.q n k / G.m n| else 0) (nodeVelR id M_tol G n k)
      (nodeVelR rnd M_tol G n k) := by
  unfold nodeVelR
  split_ifs
  · exact (App.exact _ le_rfl).round hr
  · exact (App.exact 0 (by simp)).weaken hr (Nat.zero_le _) le_rfl

theorem updateStrainR_app (hr : Rounding rnd u) {M_tol dt : K} {G : Grid K N ns} {mp a a' : Particle K ns}
    (h : mp.updateStrain nx M_tol dt G = .ok a) (h' : mp.updateStrainR rnd nx M_tol dt G = .ok a') :
    (∃ l d e, a = { mp with LL := l, dstrain := d, strain := e }) ∧
    (∃ l d e, a' = { mp with LL := l, dstrain := d, strain := e }) ∧
    (∀ i j, App u 9 (|dt| / 2 * gradSize nx M_tol G mp i j) (a.dstrain i j) (a'.dstrain i j)) ∧
    ∀ i j, App u 10 (gradSize nx M_tol G mp i j) (a.LL i j) (a'.LL i j) := by
  rw [← updateStrainR_id] at h
  obtain ⟨nd, hn, p, hd, -, hl⟩ := updateStrainR_ok h
  obtain ⟨nd', hn', p', hd', -, hl'⟩ := updateStrainR_ok h'
  obtain rfl : nd' = nd := funext fun r => Except.ok.inj ((hn' r).symm.trans (hn r))
  have ha : ∀ k, App u k 0 0 (0 : K) := fun k =>
    (App.exact (u := u) 0 (by simp)).weaken hr (Nat.zero_le k) le_rfl
  have v := fun r k => nodeVel_app hr M_tol G (nd' r) k
  have h1 : ∀ r i j, App u 2 (if M_tol < G.m (nd' r) then |G.q (nd' r) i / G.m (nd' r) * mp.Gs r j| else 0)
      (nodeVelR id M_tol G (nd' r) i * mp.Gs r j) (rnd (nodeVelR rnd M_tol G (nd' r) i * mp.Gs r j)) := by
    intro r i j
    have := ((v r i).times hr (mp.Gs r j)).round hr
    rwa [ite_mul, zero_mul, ← abs_mul] at this
  have h2 : ∀ r i j, App u 2 (if M_tol < G.m (nd' r) then |mp.Gs r i * (G.q (nd' r) j / G.m (nd' r))| else 0)
      (mp.Gs r i * nodeVelR id M_tol G (nd' r) j) (rnd (mp.Gs r i * nodeVelR rnd M_tol G (nd' r) j)) := by
    intro r i j
    rw [mul_comm (mp.Gs r i), mul_comm (mp.Gs r i), mul_comm (mp.Gs r i)]
    exact h1 r j i
  have e4 : List.finRange 4 = [0, 1, 2, 3] := by decide
  refine ⟨p, p', fun i j => ?_, fun i j => ?_⟩
  · rw [hd, hd', runSum_id, gradSize, ← heavySum_corner hn (fun r n =>
      |G.q n i / G.m n * mp.Gs r j| + |mp.Gs r i * (G.q n j / G.m n)|), ← List.sum_map_mul_left,
      ← zero_add (List.sum (List.map _ (List.finRange 4)) : K)]
    refine App.runSum hr (List.finRange 4) (fun r _ => ?_) le_rfl (ha 5)
    have h3 := ((h1 r i j).add (h2 r i j)).round hr
    have h4 := ((App.exact (1 / 2 : K) le_rfl).mul hr h3).round hr
    have h5 := (h4.times hr dt).round hr
    refine h5.weaken hr (by omega) ?_
    rw [abs_of_pos (by norm_num : (0 : K) < 1 / 2)]
    split_ifs
    · exact le_of_eq (by ring)
    · simp
  · rw [hl, hl', runSum_id, gradSize, ← heavySum_corner hn (fun r n =>
      |G.q n i / G.m n * mp.Gs r j| + |mp.Gs r i * (G.q n j / G.m n)|), e4]
    have := App.runSum hr (u := u) (k := 2) ([0, 1, 2, 3] ×ˢ [false, true] : List (Fin 4 × Bool))
      (v := fun c => bif c.2 then rnd (mp.Gs c.1 i * nodeVelR rnd M_tol G (nd' c.1) j)
        else rnd (nodeVelR rnd M_tol G (nd' c.1) i * mp.Gs c.1 j))
      (e := fun c => bif c.2 then mp.Gs c.1 i * nodeVelR id M_tol G (nd' c.1) j
        else nodeVelR id M_tol G (nd' c.1) i * mp.Gs c.1 j)
      (c := fun c => bif c.2 then
          (if M_tol < G.m (nd' c.1) then |mp.Gs c.1 i * (G.q (nd' c.1) j / G.m (nd' c.1))| else 0)
        else if M_tol < G.m (nd' c.1) then |G.q (nd' c.1) i / G.m (nd' c.1) * mp.Gs c.1 j| else 0)
      (fun c _ => by
        rcases c with ⟨r, _ | _⟩
        · exact h1 r i j
        · exact h2 r i j) le_rfl (ha 2)
    refine this.weaken hr (le_of_eq rfl) (le_of_eq ?_)
    simp only [List.product, SProd.sprod, List.flatMap_cons, List.flatMap_nil, List.map_cons, List.map_nil,
      List.append_nil, List.cons_append, List.nil_append, List.sum_cons, List.sum_nil, cond_false, cond_true]
    split_ifs <;> ring

theorem updateStressR_elastic {c : LawCtx K ns} {mp b : Particle K ns} {vis w : Vis → Fin N → XF K}
    (h : mp.updateStressR rnd nx .elastic c vis = .ok (b, w)) :
    b = (elasticR rnd c.ops c.mat.Kb c.mat.Gs mp).applyStressR rnd c.dt := by
  obtain ⟨x, h1, h2⟩ := res_bind_ok.1 h
  obtain ⟨y, h3, h4⟩ := res_bind_ok.1 h2
  cases h1
  cases h4
  rfl

/-- C140.  The stress of an elastic point after `update_stress_strain`, against that of the exact program
on the same point and nodes. -/
theorem c140_elastic (hr : Rounding rnd u) {M_tol : K} {G : Grid K N ns} {c : LawCtx K ns}
    {mp a a' b b' : Particle K ns} {vis vis' w w' : Vis → Fin N → XF K}
    (h1 : mp.updateStrain nx M_tol c.dt G = .ok a) (h2 : a.updateStress nx .elastic c vis = .ok (b, w))
    (h1' : mp.updateStrainR rnd nx M_tol c.dt G = .ok a')
    (h2' : a'.updateStressR rnd nx .elastic c vis' = .ok (b', w')) (i j : Fin 3) :
    |b'.stress i j - b.stress i j| ≤ gam u 19 * stressSize c.dt mp.stress (gradSize nx M_tol G mp)
      (hookeSize c.mat.Kb c.mat.Gs ((|c.dt| / 2) • gradSize nx M_tol G mp)) i j := by
  rw [← c140_exact (Or.inr (Or.inl rfl))] at h2
  rw [updateStressR_elastic h2, updateStressR_elastic h2']
  obtain ⟨p, p', hd, hl⟩ := updateStrainR_app hr h1 h1'
  have e : a.stress = mp.stress := by obtain ⟨_, _, _, rfl⟩ := p; rfl
  have e' : a'.stress = mp.stress := by obtain ⟨_, _, _, rfl⟩ := p'; rfl
  have := applyStressR_app hr (k := 17) (l := 10) (m := 17) c.dt
    (mp := elasticR id c.ops c.mat.Kb c.mat.Gs a) (mp' := elasticR rnd c.ops c.mat.Kb c.mat.Gs a')
    (e'.trans e.symm) (hookeR_app hr c.mat.Kb c.mat.Gs hd) hl le_rfl (by omega) i j
  rw [show (elasticR id c.ops c.mat.Kb c.mat.Gs a).stress = mp.stress from e] at this
  exact this.err

/-- Sizes for the increment of the viscous law: the target stress and the old one. -/
def Spec.viscousSize (c : LawCtx K ns) (p : K) (st a : Mat K) : Mat K := fun i j =>
  (|p| + |c.mat.Kb| * (diag a / 3)) * (1 : Mat K) i j +
    2 * |c.mat.mu_s| * (a i j + diag a / 3 * (1 : Mat K) i j) / |c.dt| +
    |c.mat.mu_v| * (diag a / 3) * (1 : Mat K) i j / |c.dt| + |st i j|

theorem viscousR_app (hr : Rounding rnd u) {k : ℕ} (c : LawCtx K ns) {mp mp' : Particle K ns} {a : Mat K}
    (hp : mp'.pressure = mp.pressure) (hs : mp'.stress = mp.stress)
    (h : ∀ i j, App u k (a i j) (mp.dstrain i j) (mp'.dstrain i j)) (i j : Fin 3) :
    App u (k + 11) (viscousSize c mp.pressure mp.stress a i j) ((viscousR id c mp).dstress i j)
      ((viscousR rnd c mp').dstress i j) := by
  have t : App u (k + 3) (diag a / 3) (traceR id mp.dstrain / 3) (rnd (traceR rnd mp'.dstrain / 3)) := by
    have := ((traceR_app hr h).over hr 3).round hr
    rwa [abs_of_pos (by norm_num : (0 : K) < 3)] at this
  have o := fun {k : ℕ} {c x y : K} (h : App u k c x y) =>
    (one_abs (K := K) i j) ▸ (h.times hr ((1 : Mat K) i j)).round hr
  have e := (((h i j).weaken hr (by omega) le_rfl).sub (o t)).round hr
  have p := (((App.exact mp.pressure le_rfl).weaken hr (Nat.zero_le _) le_rfl).add
    (((App.exact c.mat.Kb le_rfl).mul hr t).round hr)).round hr
  have h3 := (App.exact (2 * c.mat.mu_s) (u := u) le_rfl).round hr
  rw [abs_mul, abs_of_pos (by norm_num : (0 : K) < 2)] at h3
  have d := (((h3.mul hr e).round hr).over hr c.dt).round hr
  have v := ((o (((App.exact c.mat.mu_v le_rfl).mul hr t).round hr)).over hr c.dt).round hr
  have x1 := (((o p).weaken hr (k := k + 8) (by omega) le_rfl).add (d.weaken hr (by omega) le_rfl)).round hr
  have x2 := (x1.sub (v.weaken hr (by omega) le_rfl)).round hr
  have x3 := (x2.sub (((App.exact (mp.stress i j) le_rfl).weaken hr (Nat.zero_le _) le_rfl))).round hr
  unfold viscousR
  simp only [hp, hs]
  exact x3

theorem updateStressR_viscous {c : LawCtx K ns} {mp b : Particle K ns} {vis w : Vis → Fin N → XF K}
    (h : mp.updateStressR rnd nx .viscous c vis = .ok (b, w)) :
    b = (viscousR rnd c mp).applyStressR rnd c.dt := by
  obtain ⟨x, h1, h2⟩ := res_bind_ok.1 h
  obtain ⟨y, h3, h4⟩ := res_bind_ok.1 h2
  unfold runLawR at h1
  dsimp only at h1
  split_ifs at h1
  cases h1
  cases h4
  rfl

/-- C140.  The same for a viscous point. -/
theorem c140_viscous (hr : Rounding rnd u) {M_tol : K} {G : Grid K N ns} {c : LawCtx K ns}
    {mp a a' b b' : Particle K ns} {vis vis' w w' : Vis → Fin N → XF K}
    (h1 : mp.updateStrain nx M_tol c.dt G = .ok a) (h2 : a.updateStress nx .viscous c vis = .ok (b, w))
    (h1' : mp.updateStrainR rnd nx M_tol c.dt G = .ok a')
    (h2' : a'.updateStressR rnd nx .viscous c vis' = .ok (b', w')) (i j : Fin 3) :
    |b'.stress i j - b.stress i j| ≤ gam u 22 * stressSize c.dt mp.stress (gradSize nx M_tol G mp)
      (viscousSize c mp.pressure mp.stress ((|c.dt| / 2) • gradSize nx M_tol G mp)) i j := by
  rw [← c140_exact (Or.inr (Or.inr (Or.inr rfl)))] at h2
  rw [updateStressR_viscous h2, updateStressR_viscous h2']
  obtain ⟨p, p', hd, hl⟩ := updateStrainR_app hr h1 h1'
  have e : a.stress = mp.stress ∧ a.pressure = mp.pressure := by obtain ⟨_, _, _, rfl⟩ := p; exact ⟨rfl, rfl⟩
  have e' : a'.stress = mp.stress ∧ a'.pressure = mp.pressure := by
    obtain ⟨_, _, _, rfl⟩ := p'; exact ⟨rfl, rfl⟩
  have h3 := viscousR_app hr c (e'.2.trans e.2.symm) (e'.1.trans e.1.symm) hd
  rw [e.1, e.2] at h3
  have := applyStressR_app hr (k := 20) (l := 10) (m := 20) c.dt (mp := viscousR id c a)
    (mp' := viscousR rnd c a') (e'.1.trans e.1.symm) h3 hl le_rfl (by omega) i j
  rw [show (viscousR id c a).stress = mp.stress from e.1] at this
  exact this.err

/-! ## Symmetry -/

theorem mat_one_symm (i j : Fin 3) : (1 : Mat K) i j = (1 : Mat K) j i := by
  rw [Matrix.one_apply, Matrix.one_apply]; simp only [eq_comm]

theorem applyStressR_symm {dt : K} {mp : Particle K ns} (hs : ∀ i j, mp.stress i j = mp.stress j i)
    (hd : ∀ i j, mp.dstress i j = mp.dstress j i) (hl : ∀ i j, mp.LL i j = mp.LL j i) (i j : Fin 3) :
    (mp.applyStressR rnd dt).stress i j = (mp.applyStressR rnd dt).stress j i := by
  have h : mdotR rnd mp.LL mp.stress i j = mdotR rnd mp.stress mp.LL j i := by
    simp only [mdotR]
    rw [hl i 0, hl i 1, hl i 2, hs 0 j, hs 1 j, hs 2 j, mul_comm (mp.LL 0 i), mul_comm (mp.LL 1 i),
      mul_comm (mp.LL 2 i)]
  have h' : mdotR rnd mp.stress mp.LL i j = mdotR rnd mp.LL mp.stress j i := by
    simp only [mdotR]
    rw [hl j 0, hl j 1, hl j 2, hs i 0, hs i 1, hs i 2, mul_comm (mp.LL 0 j), mul_comm (mp.LL 1 j),
      mul_comm (mp.LL 2 j)]
  unfold Particle.applyStressR
  dsimp only
  rw [h, h', add_comm (mdotR rnd mp.stress mp.LL j i), hs, hd]

/-- C140.  The increments of stress are symmetric, exactly; the stress is where the velocity gradient is. -/
theorem c140_symmetric {law : Law} {c : LawCtx K ns} {mp b : Particle K ns} {vis w : Vis → Fin N → XF K}
    (h : mp.updateStressR rnd nx law c vis = .ok (b, w)) (he : ∀ i j, mp.dstrain i j = mp.dstrain j i)
    (hs : ∀ i j, mp.stress i j = mp.stress j i) (hd : ∀ i j, mp.dstress i j = mp.dstress j i) :
    (∀ i j, b.dstress i j = b.dstress j i) ∧
      ((∀ i j, mp.LL i j = mp.LL j i) → ∀ i j, b.stress i j = b.stress j i) := by
  have hook : ∀ Kb Gs i j, hookeR rnd Kb Gs mp.dstrain i j = hookeR rnd Kb Gs mp.dstrain j i := by
    intro Kb Gs i j
    simp only [hookeR, devR]
    rw [he i j, mat_one_symm i j]
  obtain ⟨x, h1, h2⟩ := res_bind_ok.1 h
  obtain ⟨y, h3, h4⟩ := res_bind_ok.1 h2
  cases h4
  have hsh : ∀ i j, shearR rnd mp i j = shearR rnd mp j i := by
    intro i j
    simp only [shearR]
    rw [he i j, mat_one_symm i j]
  have key : x.1.LL = mp.LL ∧ x.1.stress = mp.stress ∧ ∀ i j, x.1.dstress i j = x.1.dstress j i := by
    rcases runLawR_ok h1 with ⟨rfl, e⟩ | ⟨rfl, e⟩ | ⟨rfl, _, _, e⟩ | ⟨rfl, -, e⟩ | ⟨rfl, -, q, -, e⟩ |
      ⟨rfl, -, q, -, e⟩ | ⟨rfl, -, q, -, e⟩
    · rw [e]; exact ⟨rfl, rfl, hd⟩
    · rw [e]; exact ⟨rfl, rfl, hook _ _⟩
    · rw [e]; exact ⟨rfl, rfl, hook _ _⟩
    · rw [e]
      refine ⟨rfl, rfl, fun i j => ?_⟩
      simp only [viscousR]
      rw [he i j, mat_one_symm i j, hs i j]
    · rw [e]
      refine ⟨rfl, rfl, fun i j => ?_⟩
      simp only [pouliquenR]
      rw [hsh i j, mat_one_symm i j, hs i j]
    · refine ⟨by rw [e.whole], by rw [e.whole], fun i j => ?_⟩
      have : x.1.dev_stress i j = x.1.dev_stress j i := by
        refine XF.fin.inj ?_
        rw [← e.dev i j, ← e.dev j i, hsh i j]
      rw [e.inc i j, e.inc j i, this, mat_one_symm i j, hs i j]
    · rw [e]
      refine ⟨rfl, rfl, fun i j => ?_⟩
      simp only [kenSimpleR]
      rw [hsh i j, mat_one_symm i j, hs i j]
  refine ⟨key.2.2, fun hl => applyStressR_symm ?_ key.2.2 ?_⟩
  · rw [key.2.1]; exact hs
  · rw [key.1]; exact hl

/-! ## Rest and loss -/

/-- C140.  Without strain the stress of an elastic point stays what it is, exactly. -/
theorem c140_still (z : rnd 0 = 0) {c : LawCtx K ns} {mp b : Particle K ns} {vis w : Vis → Fin N → XF K}
    (h : mp.updateStressR rnd nx .elastic c vis = .ok (b, w)) (he : mp.dstrain = 0) (hl : mp.LL = 0)
    (hs : ∀ i j, rnd (mp.stress i j) = mp.stress i j) : b.stress = mp.stress := by
  rw [updateStressR_elastic h]
  ext i j
  simp [Particle.applyStressR, elasticR, hookeR, devR, traceR, mdotR, he, hl, z, hs]

/-- C140.  Small increments of stress are lost: with `p` bits they have to reach a fraction `2^-(p+5)` of
the stress. -/
theorem c140_lost {p : ℕ} (hp : 4 ≤ p) {law : Law} {c : LawCtx K ns} {mp b : Particle K ns}
    {vis w : Vis → Fin N → XF K} (h : mp.updateStressR (fl p) nx law c vis = .ok (b, w)) {i j : Fin 3}
    (hs : fl p (mp.stress i j) = mp.stress i j) (hd : |b.dstress i j| * 2 ^ (p + 4) ≤ |mp.stress i j|)
    (hl : ((mp.LL.map abs * mp.stress.map abs : Mat K) i j + (mp.stress.map abs * mp.LL.map abs : Mat K) i j) *
      |c.dt| * 2 ^ (p + 5) ≤ |mp.stress i j|) : b.stress i j = mp.stress i j := by
  have hr := c136_bits (K := K) (p := p) (by omega)
  obtain ⟨x, h1, h2⟩ := res_bind_ok.1 h
  obtain ⟨y, h3, h4⟩ := res_bind_ok.1 h2
  cases h4
  have key : x.1.LL = mp.LL ∧ x.1.stress = mp.stress := by
    rcases runLawR_ok h1 with ⟨rfl, e⟩ | ⟨rfl, e⟩ | ⟨rfl, _, _, e⟩ | ⟨rfl, -, e⟩ | ⟨rfl, -, q, -, e⟩ |
      ⟨rfl, -, q, -, e⟩ | ⟨rfl, -, q, -, e⟩
    · rw [e]; exact ⟨rfl, rfl⟩
    · rw [e]; exact ⟨rfl, rfl⟩
    · rw [e]; exact ⟨rfl, rfl⟩
    · rw [e]; exact ⟨rfl, rfl⟩
    · rw [e]; exact ⟨rfl, rfl⟩
    · rw [e.whole]; exact ⟨rfl, rfl⟩
    · rw [e]; exact ⟨rfl, rfl⟩
  have hS : ∀ i j, App (1 / 2 ^ p : K) 0 (mp.stress.map abs i j) (mp.stress i j) (mp.stress i j) :=
    fun i j => App.exact _ le_rfl
  have hL : ∀ i j, App (1 / 2 ^ p : K) 0 (mp.LL.map abs i j) (mp.LL i j) (mp.LL i j) :=
    fun i j => App.exact _ le_rfl
  have a1 := mdotR_app hr hL hS i j
  have a2 := mdotR_app hr hS hL i j
  have a3 := ((((a1.add a2).round hr).times hr c.dt).round hr).bound
  have h16 : (1 / 2 ^ p : K) ≤ 1 / 2 ^ 4 :=
    one_div_le_one_div_of_le (by norm_num) (pow_le_pow_right₀ (by norm_num) hp)
  have h15 : (15 / 16 : K) ≤ 1 - 1 / 2 ^ p := by
    have : (1 : K) / 2 ^ 4 = 1 / 16 := by norm_num
    linarith
  have g2 : 1 + gam (1 / 2 ^ p : K) (0 + 0 + 3 + 1 + 1) ≤ 2 := by
    have h3 := pow_le_pow_left₀ (by norm_num : (0 : K) ≤ 15 / 16) h15 5
    have h4 := one_div_le_one_div_of_le (by norm_num) h3
    have h5 : (1 : K) / (15 / 16) ^ 5 ≤ 2 := by norm_num
    show 1 + gam _ 5 ≤ 2
    unfold gam
    linarith
  set R := ((mp.LL.map abs * mp.stress.map abs : Mat K) i j +
    (mp.stress.map abs * mp.LL.map abs : Mat K) i j) * |c.dt| with hR
  set ρ := fl p (fl p (mdotR (fl p) mp.LL mp.stress i j + mdotR (fl p) mp.stress mp.LL i j) * c.dt) with hρ
  have hR0 : 0 ≤ R := by
    have := (((a1.add a2).round hr).times hr c.dt).nonneg
    exact this
  have a4 : |ρ| ≤ 2 * R := a3.trans (mul_le_mul_of_nonneg_right g2 hR0)
  have e1 : |fl p (x.1.dstress i j - ρ)| ≤ 2 * (|x.1.dstress i j| + 2 * R) := by
    have t1 := hr.err (x.1.dstress i j - ρ)
    have t2 := abs_sub_abs_le_abs_sub (fl p (x.1.dstress i j - ρ)) (x.1.dstress i j - ρ)
    have t3 := abs_sub (x.1.dstress i j) ρ
    have t4 : (1 / 2 ^ p : K) * |x.1.dstress i j - ρ| ≤ 1 * |x.1.dstress i j - ρ| := by
      refine mul_le_mul_of_nonneg_right ?_ (abs_nonneg _)
      have := hr.lt_one
      linarith
    linarith
  show fl p (x.1.stress i j + fl p (x.1.dstress i j - fl p (fl p (mdotR (fl p) x.1.LL x.1.stress i j +
    mdotR (fl p) x.1.stress x.1.LL i j) * c.dt))) = _
  rw [key.1, key.2]
  refine fl_keep (by omega) hs ?_
  have hd' : |x.1.dstress i j| * 2 ^ (p + 4) ≤ |mp.stress i j| := hd
  have e2 : |fl p (x.1.dstress i j - ρ)| * 2 ^ (p + 2) ≤
      2 * (|x.1.dstress i j| + 2 * R) * 2 ^ (p + 2) := mul_le_mul_of_nonneg_right e1 (by positivity)
  have e3 : 2 * (|x.1.dstress i j| + 2 * R) * 2 ^ (p + 2) =
      (|x.1.dstress i j| * 2 ^ (p + 4)) / 2 + (R * 2 ^ (p + 5)) / 2 := by ring
  linarith

end

/-! ## Examples -/

theorem Ex.symm3 {A : Mat ℚ} (h : A 0 1 = A 1 0 ∧ A 0 2 = A 2 0 ∧ A 1 2 = A 2 1) (i j : Fin 3) :
    A i j = A j i := by
  obtain ⟨h1, h2, h3⟩ := h
  fin_cases i <;> fin_cases j <;> first | rfl | assumption | (symm; assumption)

theorem Ex.all33 {p : Fin 3 → Fin 3 → Prop} (h : (p 0 0 ∧ p 0 1 ∧ p 0 2) ∧ (p 1 0 ∧ p 1 1 ∧ p 1 2) ∧
    p 2 0 ∧ p 2 1 ∧ p 2 2) (i j : Fin 3) : p i j := by
  obtain ⟨⟨h1, h2, h3⟩, ⟨h4, h5, h6⟩, h7, h8, h9⟩ := h
  fin_cases i <;> fin_cases j <;> assumption

/-- The example without meaningless square roots. -/
def Ex.ctxR : LawCtx ℚ 2 :=
  lawCtx { Ex.par with ops := { Ex.ops with sqrt := fun _ => 0 } } Ex.dyn ![1, 2] Ex.mat 0 Ex.ph

/-- A point that feels gradients of any velocities around it. -/
def Ex.bent : Particle ℚ 2 :=
  { Ex.amid with Gs := fun r => ![(r : ℕ) + 1/3, 2/7, 0], stress := !![1, 1/3, 0; 1/3, 3, 0; 0, 0, 1] }

/-- Strain and stress of that point, exact and in binary64. -/
def Ex.bentBoth (law : Law) (check : Particle ℚ 2 → Particle ℚ 2 → Bool) : Bool :=
  Ex.okAnd (Ex.bent.updateStrain 4 (1/1000) Ex.ctxR.dt (Ex.even ![1/7, 2, 0] 0 false)) fun a =>
  Ex.okAnd (a.updateStress 4 law Ex.ctxR (N := 12) fun _ _ => .fin 0) fun b =>
  Ex.okAnd (Ex.bent.updateStrainR (fl 53) 4 (1/1000) Ex.ctxR.dt (Ex.even ![1/7, 2, 0] 0 false)) fun a' =>
  Ex.okAnd (a'.updateStressR (fl 53) 4 law Ex.ctxR (N := 12) fun _ _ => .fin 0) fun b' => check b.1 b'.1

/-- C140.  An elastic point: not the exact stress, but close to it. -/
example : ∃ a b a' b' : Particle ℚ 2, ∃ w w' : Vis → Fin 12 → XF ℚ,
    Ex.bent.updateStrain 4 (1/1000) Ex.ctxR.dt (Ex.even ![1/7, 2, 0] 0 false) = .ok a ∧
    a.updateStress 4 .elastic Ex.ctxR (fun _ _ => .fin 0) = .ok (b, w) ∧
    Ex.bent.updateStrainR (fl 53) 4 (1/1000) Ex.ctxR.dt (Ex.even ![1/7, 2, 0] 0 false) = .ok a' ∧
    a'.updateStressR (fl 53) 4 .elastic Ex.ctxR (fun _ _ => .fin 0) = .ok (b', w') ∧
    b'.stress 0 1 ≠ b.stress 0 1 ∧ |b'.stress 0 1 - b.stress 0 1| ≤ 1 / 10 ^ 13 := by
  have h : Ex.bentBoth .elastic (fun b b' => decide (b'.stress 0 1 ≠ b.stress 0 1)) = true := by
    decide +kernel
  obtain ⟨a, h1, h⟩ := Ex.okAnd_ok h
  obtain ⟨⟨b, w⟩, h2, h⟩ := Ex.okAnd_ok h
  obtain ⟨a', h1', h⟩ := Ex.okAnd_ok h
  obtain ⟨⟨b', w'⟩, h2', h⟩ := Ex.okAnd_ok h
  refine ⟨a, b, a', b', w, w', h1, h2, h1', h2', of_decide_eq_true h, ?_⟩
  refine (c140_elastic (c136_bits (by norm_num)) h1 h2 h1' h2' 0 1).trans ?_
  have : stressSize Ex.ctxR.dt Ex.bent.stress
      (gradSize 4 (1/1000) (Ex.even ![1/7, 2, 0] 0 false) Ex.bent) (hookeSize Ex.ctxR.mat.Kb Ex.ctxR.mat.Gs
        ((|Ex.ctxR.dt| / 2) • gradSize 4 (1/1000) (Ex.even ![1/7, 2, 0] 0 false) Ex.bent)) 0 1 ≤ 10 := by
    decide +kernel
  refine (mul_le_mul_of_nonneg_left this (gam_nonneg (by norm_num) (by norm_num) _)).trans ?_
  norm_num [gam]

/-- C140.  A viscous point. -/
example : ∃ a b a' b' : Particle ℚ 2, ∃ w w' : Vis → Fin 12 → XF ℚ,
    Ex.bent.updateStrain 4 (1/1000) Ex.ctxR.dt (Ex.even ![1/7, 2, 0] 0 false) = .ok a ∧
    a.updateStress 4 .viscous Ex.ctxR (fun _ _ => .fin 0) = .ok (b, w) ∧
    Ex.bent.updateStrainR (fl 53) 4 (1/1000) Ex.ctxR.dt (Ex.even ![1/7, 2, 0] 0 false) = .ok a' ∧
    a'.updateStressR (fl 53) 4 .viscous Ex.ctxR (fun _ _ => .fin 0) = .ok (b', w') ∧
    b'.stress 0 1 ≠ b.stress 0 1 ∧ |b'.stress 0 1 - b.stress 0 1| ≤ 1 / 10 ^ 12 := by
  have h : Ex.bentBoth .viscous (fun b b' => decide (b'.stress 0 1 ≠ b.stress 0 1)) = true := by
    decide +kernel
  obtain ⟨a, h1, h⟩ := Ex.okAnd_ok h
  obtain ⟨⟨b, w⟩, h2, h⟩ := Ex.okAnd_ok h
  obtain ⟨a', h1', h⟩ := Ex.okAnd_ok h
  obtain ⟨⟨b', w'⟩, h2', h⟩ := Ex.okAnd_ok h
  refine ⟨a, b, a', b', w, w', h1, h2, h1', h2', of_decide_eq_true h, ?_⟩
  refine (c140_viscous (c136_bits (by norm_num)) h1 h2 h1' h2' 0 1).trans ?_
  have : stressSize Ex.ctxR.dt Ex.bent.stress
      (gradSize 4 (1/1000) (Ex.even ![1/7, 2, 0] 0 false) Ex.bent) (viscousSize Ex.ctxR Ex.bent.pressure
        Ex.bent.stress
        ((|Ex.ctxR.dt| / 2) • gradSize 4 (1/1000) (Ex.even ![1/7, 2, 0] 0 false) Ex.bent)) 0 1 ≤ 100 := by
    decide +kernel
  refine (mul_le_mul_of_nonneg_left this (gam_nonneg (by norm_num) (by norm_num) _)).trans ?_
  norm_num [gam]

/-- C140.  The same point without strain, and with a strain of `10^-19`. -/
example : ∃ b b' : Particle ℚ 2, ∃ w w' : Vis → Fin 12 → XF ℚ,
    ({ Ex.bent with stress := 3 }).updateStressR (fl 53) 4 .elastic Ex.ctxR (fun _ _ => .fin 0) =
      .ok (b, w) ∧ b.stress = 3 ∧
    ({ Ex.bent with stress := 3, dstrain := fun _ _ => 1 / 10 ^ 19 }).updateStressR (fl 53) 4 .elastic
      Ex.ctxR (fun _ _ => .fin 0) = .ok (b', w') ∧ b'.stress 0 0 = 3 ∧ b'.dstress 0 0 ≠ 0 := by
  have h : Ex.okAnd (({ Ex.bent with stress := 3 } : Particle ℚ 2).updateStressR (fl 53) 4 .elastic Ex.ctxR
      (N := 12) (fun _ _ => .fin 0)) (fun _ => true) = true := by decide +kernel
  have h' : Ex.okAnd (({ Ex.bent with stress := 3, dstrain := fun _ _ => 1 / 10 ^ 19 } :
      Particle ℚ 2).updateStressR (fl 53) 4 .elastic Ex.ctxR (N := 12) (fun _ _ => .fin 0)) (fun b =>
      decide (b.1.dstress 0 0 ≠ 0) && decide (|b.1.dstress 0 0| * 2 ^ 57 ≤ 3)) = true := by decide +kernel
  obtain ⟨⟨b, w⟩, h, -⟩ := Ex.okAnd_ok h
  obtain ⟨⟨b', w'⟩, h', k⟩ := Ex.okAnd_ok h'
  obtain ⟨k1, k2⟩ := Bool.and_eq_true_iff.1 k
  refine ⟨b, b', w, w', h, ?_, h', ?_, of_decide_eq_true k1⟩
  · exact c140_still (fl_zero _) h rfl rfl (Ex.all33 (by decide +kernel))
  · exact c140_lost (by norm_num) h' (by decide +kernel) (of_decide_eq_true k2) (by decide +kernel)

/-- C140.  Two points with diagonal stress, moving towards each other. -/
def Ex.twoFL : List (PhaseSt ℚ 2) :=
  [{ ph := Ex.ph
     pts := [{ Ex.mp with x := ![2/5, 1/7, 0], v := .own ![1/3, 1/7, 0]
                          stress := !![1, 0, 0; 0, 3, 0; 0, 0, 1] },
             { Ex.mp with x := ![3/5, 6/7, 0], v := .own ![-1/3, 0, 0]
                          stress := !![1, 0, 0; 0, 3, 0; 0, 0, 1] }] }]

/-- C140.  In floating point stress does not stay symmetric: after one step of a symmetric elastic body
in binary64 it is not. -/
theorem c140_skew : (∀ mp ∈ points Ex.twoFL, ∀ i j, mp.stress i j = mp.stress j i) ∧
    ∃ (G : Grid ℚ Ex.par.G.N Ex.par.G.ns) (s : St Ex.par),
    mkGridR (fl 53) Ex.par.G Ex.par.B = .ok G ∧
    stepsR (fl 53) (Besides.rounded (fl 53) Ex.par) 1 { dyn := Ex.dyn, L := Ex.twoFL, G := G } = .ok s ∧
    ∃ mp ∈ points s.L, mp.stress 0 1 ≠ mp.stress 1 0 := by
  constructor
  · intro mp hmp
    refine Ex.symm3 ?_
    revert mp
    simp only [points, Ex.twoFL, List.flatMap_cons, List.flatMap_nil, List.append_nil, List.mem_cons,
      List.not_mem_nil, or_false]
    rintro mp (rfl | rfl) <;> exact ⟨rfl, rfl, rfl⟩
  have h : Ex.okAnd (mkGridR (fl 53) Ex.par.G Ex.par.B) (fun G =>
      Ex.okAnd (stepsR (fl 53) (Besides.rounded (fl 53) Ex.par) 1
        { dyn := Ex.dyn, L := Ex.twoFL, G := G }) fun s =>
      (points s.L).any fun p => decide (p.stress 0 1 ≠ p.stress 1 0)) = true := by decide +kernel
  obtain ⟨G, h1, h⟩ := Ex.okAnd_ok h
  obtain ⟨s, h2, h⟩ := Ex.okAnd_ok h
  obtain ⟨p, hp, h⟩ := List.any_eq_true.1 h
  exact ⟨G, s, h1, h2, p, hp, of_decide_eq_true h⟩

/-- C140.  A point with symmetric gradients: its stress stays symmetric. -/
example : ∃ b : Particle ℚ 2, ∃ w : Vis → Fin 12 → XF ℚ,
    ({ Ex.bent with LL := !![1/3, 1/7, 0; 1/7, 2, 0; 0, 0, 0], dstrain := !![1/3, 1/7, 0; 1/7, 2, 0; 0, 0, 0] }
      : Particle ℚ 2).updateStressR (fl 53) 4 .viscous Ex.ctxR (fun _ _ => .fin 0) = .ok (b, w) ∧
    b.stress 0 1 = b.stress 1 0 ∧ b.stress 0 1 ≠ 1/3 := by
  have h : Ex.okAnd (({ Ex.bent with
      LL := !![1/3, 1/7, 0; 1/7, 2, 0; 0, 0, 0], dstrain := !![1/3, 1/7, 0; 1/7, 2, 0; 0, 0, 0] }
      : Particle ℚ 2).updateStressR (fl 53) 4 .viscous Ex.ctxR (N := 12) (fun _ _ => .fin 0)) (fun b =>
      decide (b.1.stress 0 1 ≠ 1/3)) = true := by decide +kernel
  obtain ⟨⟨b, w⟩, h, k⟩ := Ex.okAnd_ok h
  exact ⟨b, w, h, (c140_symmetric h (Ex.symm3 ⟨rfl, rfl, rfl⟩) (Ex.symm3 ⟨rfl, rfl, rfl⟩)
    (Ex.symm3 ⟨rfl, rfl, rfl⟩)).2 (Ex.symm3 ⟨rfl, rfl, rfl⟩) 0 1,
    of_decide_eq_true k⟩

end Mpm

import Verif.Props.FloatRange

/-!
# C143: the momentum balance of a time step in floating point

Rounded shape functions do not add up to one and rounded forces do not cancel, so that rounding makes
momentum out of nothing.  How much, over one whole time step.
-/

set_option linter.unusedSectionVars false

namespace Mpm
open Spec

section
variable {K : Type} [Field K] [LinearOrder K] [IsStrictOrderedRing K] [FloorRing K]
  {rnd : K → K} {u : K} {ns N nx : ℕ}

/-! ## Shape functions -/

/-- C143.  With a rounding that treats both signs alike the gradients of the four shape functions still
add up to zero exactly. -/
theorem c143_gradients (hr : Rounding rnd u) (odd : ∀ x, rnd (-x) = -rnd x) {G : Grid K N ns}
    {mp b : Particle K ns} (h : mp.getBasisFunctionsR rnd G = .ok b) (j : Fin 3) :
    ∑ r, b.Gs r j = 0 := by
  obtain ⟨i, -, -, rfl⟩ := basisR_ok h
  rw [Fin.sum_univ_four]
  fin_cases j
  · simp [shapeGR, neg_div, odd]
  · simp [shapeGR, neg_div, odd]
  · simp [shapeGR, hr.zero]

/-- The relative position of a point in its cell. -/
theorem cellR (hr : Rounding rnd u) {d z : K} (hd : rnd d = d) (h1 : 0 ≤ z) (h2 : z ≤ d) :
    0 ≤ rnd z ∧ rnd z ≤ d :=
  ⟨(hr.lower h1).2.2, by simpa [hd] using hr.mono h2⟩

/-- A shape function is not negative in the cell. -/
theorem shapeNR_nonneg (hr : Rounding rnd u) {dx dy : K} {x : Vec K} (h0 : 0 ≤ x 0) (h0' : x 0 ≤ dx)
    (h1 : 0 ≤ x 1) (h1' : x 1 ≤ dy) (r : Fin 4) : 0 ≤ shapeNR rnd dx dy x r := by
  have p : ∀ {z : K}, 0 ≤ z → 0 ≤ rnd z := fun h => (hr.lower h).2.2
  have a := p (sub_nonneg.2 h0')
  have b := p (sub_nonneg.2 h1')
  have D : 0 ≤ rnd (dx * dy) := p (mul_nonneg (h0.trans h0') (h1.trans h1'))
  fin_cases r
  · exact p (div_nonneg (p (mul_nonneg a b)) D)
  · exact p (div_nonneg (p (mul_nonneg h0 b)) D)
  · exact p (div_nonneg (p (mul_nonneg h0 h1)) D)
  · exact p (div_nonneg (p (mul_nonneg a h1)) D)

theorem slope_le (hr : Rounding rnd u) {dx dy y : K} (hx : 0 < dx) (hy : 0 < dy) (h0 : 0 ≤ y)
    (h1 : y ≤ dy) : |rnd (rnd (dy - y) / rnd (dx * dy))| + |rnd (y / rnd (dx * dy))| ≤
      (1 + gam u 3) * (1 / dx) := by
  have hD : dx * dy ≠ 0 := (mul_pos hx hy).ne'
  have aD := App.inv hr hD
  have e : ∀ z : K, App u 0 |z| z z := fun z => App.exact z le_rfl
  have a := ((((e (dy - y)).round hr).mul hr aD).round hr).bound
  have b := ((((e y).mul hr aD).round hr).weaken hr (by norm_num : _ ≤ 3) le_rfl).bound
  rw [← div_eq_mul_inv] at a b
  rw [abs_of_nonneg (sub_nonneg.2 h1), abs_of_pos (inv_pos.2 (mul_pos hx hy))] at a
  rw [abs_of_nonneg h0, abs_of_pos (inv_pos.2 (mul_pos hx hy))] at b
  refine (add_le_add a b).trans (le_of_eq ?_)
  field_simp
  ring

/-- What the balance needs to know about a point that has been mapped. -/
structure Mapped (u dx dy : K) (mp : Particle K ns) : Prop where
  weights : ∃ w : Fin 4 → K, (∀ r, 0 ≤ w r) ∧ ∑ r, w r = 1 ∧ ∀ r, App u 5 (w r) (w r) (mp.N r)
  nonneg : ∀ r, 0 ≤ mp.N r
  cancel : ∀ j, ∑ r, mp.Gs r j = 0
  slope0 : ∑ r, |mp.Gs r 0| ≤ (1 + gam u 3) * (2 / dx)
  slope1 : ∑ r, |mp.Gs r 1| ≤ (1 + gam u 3) * (2 / dy)
  slope2 : ∀ r, mp.Gs r 2 = 0

theorem mapped_of_cell (hr : Rounding rnd u) (odd : ∀ x, rnd (-x) = -rnd x) {G : Grid K N ns}
    (hdx : 0 < G.dx) (hdy : 0 < G.dy) (rx : rnd G.dx = G.dx) (ry : rnd G.dy = G.dy)
    {mp b : Particle K ns} (hc : NearCell G 0 mp) (h : mp.getBasisFunctionsR rnd G = .ok b) :
    Mapped u G.dx G.dy b := by
  have can := c143_gradients hr odd h
  obtain ⟨w, w1, w2, i, hi, w3⟩ := weights_rel hr h
  obtain ⟨i', hi', ⟨x1, x2⟩, y1, y2⟩ := hc
  obtain rfl : i' = i := by rw [hi] at hi'; exact (Except.ok.inj hi').symm
  obtain ⟨i, hi2, -, rfl⟩ := basisR_ok h
  obtain rfl : i' = i := by rw [hi] at hi2; exact Except.ok.inj hi2
  simp only [zero_mul, neg_zero, add_zero, one_mul] at x1 x2 y1 y2
  obtain ⟨a1, a2⟩ := cellR hr rx x1 x2
  obtain ⟨b1, b2⟩ := cellR hr ry y1 y2
  set x := rnd (mp.x 0 - G.X i') with hx
  set y := rnd (mp.x 1 - G.Y i') with hy
  have sx := slope_le hr hdx hdy b1 b2
  have sy := slope_le hr hdy hdx a1 a2
  have one : ∑ r, |w r| = 1 := by
    rw [w3]
    have e : ∀ {d z : K}, 0 < d → 0 ≤ z → z ≤ d → |1 - z / d| + |z / d| = 1 := by
      intro d z hd h0 h1
      have : z / d ≤ 1 := (div_le_one hd).2 h1
      rw [abs_of_nonneg (by linarith), abs_of_nonneg (div_nonneg h0 hd.le)]
      ring
    rw [e hdx a1 a2, e hdy b1 b2, one_mul]
  have wp : ∀ r, 0 ≤ w r := by
    have s : ∑ r, (|w r| - w r) = 0 := by rw [Finset.sum_sub_distrib, one, w1, sub_self]
    have := (Finset.sum_eq_zero_iff_of_nonneg fun r _ => sub_nonneg.2 (le_abs_self (w r))).1 s
    intro r
    rw [← sub_eq_zero.1 (this r (Finset.mem_univ r))]
    exact abs_nonneg _
  refine ⟨⟨w, wp, w1, fun r => ?_⟩, ?_, can, ?_, ?_, ?_⟩
  · have := w2 r
    rwa [abs_of_nonneg (wp r)] at this
  · exact shapeNR_nonneg hr a1 a2 b1 b2
  · rw [Fin.sum_univ_four]
    simp only [shapeGR, Matrix.cons_val_zero, Matrix.cons_val_one, neg_div, odd, abs_neg]
    have : (1 + gam u 3) * (2 / G.dx) = 2 * ((1 + gam u 3) * (1 / G.dx)) := by ring
    rw [this]
    linarith
  · rw [Fin.sum_univ_four]
    simp only [shapeGR, Matrix.cons_val_zero, Matrix.cons_val_one, neg_div, odd, abs_neg]
    have : (1 + gam u 3) * (2 / G.dy) = 2 * ((1 + gam u 3) * (1 / G.dy)) := by ring
    rw [this]
    rw [mul_comm G.dy G.dx] at sy
    linarith
  · intro r
    fin_cases r <;> simp [shapeGR, hr.zero]

/-! ## Sums over the nodes -/

theorem scatter_err (hr : Rounding rnd u) {L : List (PhaseSt K ns)}
    (nodes : ∀ mp ∈ points L, NodesOk nx N mp) {c : ℕ} (hc : ∀ n : Fin N, (arrivals nx n L).length ≤ c)
    {k : ℕ} {z zM C : (Phase K ns × Particle K ns) × Fin 4 → K}
    (h : ∀ n : Fin N, ∀ a ∈ arrivals nx n L, App u k (C a) (z a) (zM a)) {F : Fin N → K}
    (hF : ∀ n, F n = runSum rnd 0 ((arrivals nx n L).map zM)) :
    |∑ n, F n - ((items L).map fun x => ∑ r, z (x, r)).sum| ≤
      gam u (k + c) * ((items L).map fun x => ∑ r, C (x, r)).sum ∧
    ∑ n, |F n| ≤ (1 + gam u (k + c)) * ((items L).map fun x => ∑ r, C (x, r)).sum := by
  have A : ∀ n, App u (k + c) ((arrivals nx n L).map C).sum ((arrivals nx n L).map z).sum (F n) := by
    intro n
    have := App.runSum hr _ (h n) le_rfl
      ((App.exact (u := u) (0 : K) (by simp : |(0 : K)| ≤ 0)).weaken hr (Nat.zero_le k) le_rfl)
    have := this.weaken hr (Nat.add_le_add_left (hc n) k) le_rfl
    rw [zero_add, zero_add] at this
    rw [hF]
    exact this
  rw [← arrivals_sum nodes, ← arrivals_sum nodes]
  constructor
  · rw [← Finset.sum_sub_distrib, Finset.mul_sum]
    exact (Finset.abs_sum_le_sum_abs _ _).trans (Finset.sum_le_sum fun n _ => (A n).err)
  · rw [Finset.mul_sum]
    exact Finset.sum_le_sum fun n _ => (A n).bound

/-- The weight of all points in direction `k`. -/
def Spec.weightIn (L : List (PhaseSt K ns)) (k : Fin 3) : K :=
  ((points L).map fun mp => mp.m * mp.b k).sum

/-- The same, sizes added up. -/
def Spec.weightSize (L : List (PhaseSt K ns)) (k : Fin 3) : K :=
  ((points L).map fun mp => |mp.m * mp.b k|).sum

/-- The size of the forces of the stresses: twice volume times stress over the size of a cell. -/
def Spec.stressPush (dx dy : K) (L : List (PhaseSt K ns)) (k : Fin 3) : K :=
  ((points L).map fun mp => 2 * (|mp.V| * (|mp.stress k 0| / dx + |mp.stress k 1| / dy))).sum

/-- The momentum of all points in direction `k`, sizes added up. -/
def Spec.momentumSize (L : List (PhaseSt K ns)) (k : Fin 3) : K :=
  ((items L).map fun x => |x.2.m * x.2.v.get x.1.iv k|).sum

theorem points_sum (L : List (PhaseSt K ns)) (f : Particle K ns → K) :
    ((points L).map f).sum = ((items L).map fun x => f x.2).sum := by
  rw [← items_map_snd, List.map_map]
  rfl

/-- The rounded nodal forces, added up over the grid. -/
theorem forces_total (hr : Rounding rnd u) {dx dy : K} (hdx : 0 < dx) (hdy : 0 < dy)
    {L : List (PhaseSt K ns)} (hL : Counted L) (hm : ∀ mp ∈ points L, 0 ≤ mp.m ∧ Mapped u dx dy mp)
    {G G' : Grid K N ns} (h0 : G.fi = fun _ => 0) (h0' : G.fe = fun _ => 0)
    (h : nodalForcesAllR rnd nx L G = .ok G') {c : ℕ}
    (hc : ∀ n : Fin N, (arrivals nx n L).length ≤ c) (k : Fin 3) :
    |∑ n, G'.fe n k - weightIn L k| ≤ gam u (7 + c) * weightSize L k ∧
    ∑ n, |G'.fe n k| ≤ (1 + gam u (7 + c)) * weightSize L k ∧
    |∑ n, G'.fi n k| ≤ gam u (4 + c) * ((1 + gam u 3) * stressPush dx dy L k) ∧
    ∑ n, |G'.fi n k| ≤ (1 + gam u (4 + c)) * ((1 + gam u 3) * stressPush dx dy L k) := by
  have g0 := hr.nonneg
  have hp := hr.lt_one
  obtain ⟨nodes, e⟩ := c138_forces_sum hL h
  have hw : ∀ mp : Particle K ns, ∃ w : Fin 4 → K, mp ∈ points L → (∀ r, 0 ≤ w r) ∧ ∑ r, w r = 1 ∧
      ∀ r, App u 5 (w r) (w r) (mp.N r) := by
    intro mp
    by_cases h : mp ∈ points L
    · obtain ⟨w, hw⟩ := (hm mp h).2.weights
      exact ⟨w, fun _ => hw⟩
    · exact ⟨0, fun h' => absurd h' h⟩
  choose w hw using hw
  have fe := scatter_err hr nodes hc (k := 7) (F := fun n => G'.fe n k)
    (z := fun a => w a.1.2 a.2 * a.1.2.m * a.1.2.b k) (C := fun a => w a.1.2 a.2 * |a.1.2.m * a.1.2.b k|)
    (zM := fun a => rnd (rnd (a.1.2.N a.2 * a.1.2.m) * a.1.2.b k)) (by
      intro n a ha
      have hp := mem_arrivals ha
      have := (((((hw _ hp).2.2 a.2).mul hr (App.exact a.1.2.m le_rfl)).round hr).mul hr
        (App.exact (a.1.2.b k) le_rfl)).round hr
      rw [mul_assoc (w a.1.2 a.2), ← abs_mul] at this
      exact this) (by
      intro n
      rw [e]
      simp [h0'])
  have fi := scatter_err hr nodes hc (k := 4) (F := fun n => G'.fi n k)
    (z := fun a => a.1.2.V * ∑ j, a.1.2.stress k j * a.1.2.Gs a.2 j)
    (C := fun a => |a.1.2.V| * ∑ j, |a.1.2.stress k j * a.1.2.Gs a.2 j|)
    (zM := fun a => rnd (a.1.2.V * dotR rnd a.1.2.stress (a.1.2.Gs a.2) k)) (by
      intro n a ha
      exact ((App.exact (u := u) a.1.2.V le_rfl).mul hr (App.dot hr _ _ _)).round hr |>.weaken hr
        (by omega) le_rfl) (by
      intro n
      rw [e]
      simp [h0])
  have e1 : ((items L).map fun x => ∑ r, w x.2 r * x.2.m * x.2.b k).sum = weightIn L k := by
    unfold weightIn
    rw [points_sum]
    refine congrArg List.sum (List.map_congr_left fun x hx => ?_)
    simp only [mul_assoc]
    rw [← Finset.sum_mul, (hw _ (mem_points_items hx)).2.1, one_mul]
  have e2 : ((items L).map fun x => ∑ r, w x.2 r * |x.2.m * x.2.b k|).sum = weightSize L k := by
    unfold weightSize
    rw [points_sum]
    refine congrArg List.sum (List.map_congr_left fun x hx => ?_)
    rw [← Finset.sum_mul, (hw _ (mem_points_items hx)).2.1, one_mul]
  have e3 : ((items L).map fun x => ∑ r, x.2.V * ∑ j, x.2.stress k j * x.2.Gs r j).sum = 0 := by
    refine List.sum_eq_zero fun y hy => ?_
    obtain ⟨x, hx, rfl⟩ := List.mem_map.1 hy
    rw [← Finset.mul_sum, Finset.sum_comm]
    simp only [← Finset.mul_sum, (hm _ (mem_points_items hx)).2.cancel]
    simp
  have e4 : ((items L).map fun x => ∑ r, |x.2.V| * ∑ j, |x.2.stress k j * x.2.Gs r j|).sum ≤
      (1 + gam u 3) * stressPush dx dy L k := by
    unfold stressPush
    rw [points_sum, ← List.sum_map_mul_left]
    refine List.sum_le_sum fun x hx => ?_
    obtain ⟨-, -, -, s0, s1, s2⟩ := (hm _ (mem_points_items hx)).2
    rw [← Finset.mul_sum, Finset.sum_comm]
    simp only [abs_mul, ← Finset.mul_sum]
    rw [Fin.sum_univ_three]
    simp only [s2, abs_zero, Finset.sum_const_zero, mul_zero, add_zero]
    have t0 := mul_le_mul_of_nonneg_left s0 (abs_nonneg (x.2.stress k 0))
    have t1 := mul_le_mul_of_nonneg_left s1 (abs_nonneg (x.2.stress k 1))
    have := mul_le_mul_of_nonneg_left (add_le_add t0 t1) (abs_nonneg x.2.V)
    refine this.trans (le_of_eq ?_)
    field_simp
  rw [e1, e2] at fe
  rw [e3, sub_zero] at fi
  have g4 := gam_nonneg g0 hp (4 + c)
  exact ⟨fe.1, fe.2, fi.1.trans (mul_le_mul_of_nonneg_left e4 g4),
    fi.2.trans (mul_le_mul_of_nonneg_left e4 (by linarith))⟩

theorem weightSize_nonneg (L : List (PhaseSt K ns)) (k : Fin 3) : 0 ≤ weightSize L k :=
  List.sum_nonneg (by
    intro e he
    obtain ⟨x, -, rfl⟩ := List.mem_map.1 he
    exact abs_nonneg _)

theorem stressPush_nonneg {dx dy : K} (hdx : 0 < dx) (hdy : 0 < dy) (L : List (PhaseSt K ns))
    (k : Fin 3) : 0 ≤ stressPush dx dy L k :=
  List.sum_nonneg (by
    intro e he
    obtain ⟨x, -, rfl⟩ := List.mem_map.1 he
    positivity)

/-- The rates of change of the nodal momenta, added up over the grid. -/
theorem rates_total (hr : Rounding rnd u) {dx dy : K} (hdx : 0 < dx) (hdy : 0 < dy)
    {L : List (PhaseSt K ns)} (hL : Counted L) (hm : ∀ mp ∈ points L, 0 ≤ mp.m ∧ Mapped u dx dy mp)
    {G G' : Grid K N ns} (h0 : G.fi = fun _ => 0) (h0' : G.fe = fun _ => 0)
    (h : nodalForcesAllR rnd nx L G = .ok G') {c : ℕ}
    (hc : ∀ n : Fin N, (arrivals nx n L).length ≤ c) (k : Fin 3) {Q : Fin N → K}
    (hQ : ∀ n, Q n = rnd (G'.fe n k - G'.fi n k)) :
    |∑ n, Q n - weightIn L k| ≤ gam u (8 + c) * (weightSize L k + stressPush dx dy L k) ∧
    ∑ n, |Q n| ≤ (1 + gam u (8 + c)) * (weightSize L k + stressPush dx dy L k) := by
  have g0 := hr.nonneg
  have hp := hr.lt_one
  obtain ⟨f1, f2, f3, f4⟩ := forces_total hr hdx hdy hL hm h0 h0' h hc k
  have A0 := weightSize_nonneg L k
  have S0 := stressPush_nonneg hdx hdy L k
  set A := weightSize L k
  set S := stressPush dx dy L k
  have u1 := le_gam_one g0 hp
  have g1 := gam_nonneg g0 hp 1
  have g3 := gam_nonneg g0 hp 3
  have g4 := gam_nonneg g0 hp (4 + c)
  have g7 := gam_nonneg g0 hp (7 + c)
  have eA := gam_add hp 1 (7 + c)
  have eB := gam_add hp 1 (4 + c)
  have eC := gam_add hp (1 + (4 + c)) 3
  rw [show 1 + (7 + c) = 8 + c by ring] at eA
  rw [show 1 + (4 + c) + 3 = 8 + c by ring] at eC
  have F0 : 0 ≤ ∑ n, |G'.fe n k| + ∑ n, |G'.fi n k| :=
    add_nonneg (Finset.sum_nonneg fun _ _ => abs_nonneg _) (Finset.sum_nonneg fun _ _ => abs_nonneg _)
  have one : ∀ n, |Q n - (G'.fe n k - G'.fi n k)| ≤ u * (|G'.fe n k| + |G'.fi n k|) := by
    intro n
    rw [hQ]
    exact (hr.err _).trans (mul_le_mul_of_nonneg_left (abs_sub _ _) g0)
  have i1 : |∑ n, Q n - (∑ n, G'.fe n k - ∑ n, G'.fi n k)| ≤
      gam u 1 * (∑ n, |G'.fe n k| + ∑ n, |G'.fi n k|) := by
    refine le_trans ?_ (mul_le_mul_of_nonneg_right u1 F0)
    rw [← Finset.sum_sub_distrib, ← Finset.sum_sub_distrib, ← Finset.sum_add_distrib, Finset.mul_sum]
    exact (Finset.abs_sum_le_sum_abs _ _).trans (Finset.sum_le_sum fun n _ => one n)
  have i2 : ∑ n, |Q n| ≤ (1 + gam u 1) * (∑ n, |G'.fe n k| + ∑ n, |G'.fi n k|) := by
    refine le_trans ?_ (mul_le_mul_of_nonneg_right (by linarith : 1 + u ≤ 1 + gam u 1) F0)
    rw [← Finset.sum_add_distrib, Finset.mul_sum]
    refine Finset.sum_le_sum fun n _ => ?_
    have a := abs_add_le (Q n - (G'.fe n k - G'.fi n k)) (G'.fe n k - G'.fi n k)
    rw [sub_add_cancel] at a
    have b := abs_sub (G'.fe n k) (G'.fi n k)
    linarith [one n]
  have F : gam u 1 * (∑ n, |G'.fe n k| + ∑ n, |G'.fi n k|) ≤
      gam u 1 * ((1 + gam u (7 + c)) * A + (1 + gam u (4 + c)) * ((1 + gam u 3) * S)) :=
    mul_le_mul_of_nonneg_left (add_le_add f2 f4) g1
  have tA : gam u 1 * ((1 + gam u (7 + c)) * A) + gam u (7 + c) * A = gam u (8 + c) * A := by
    rw [← eA]; ring
  have tB : gam u 1 * ((1 + gam u (4 + c)) * ((1 + gam u 3) * S)) +
      gam u (4 + c) * ((1 + gam u 3) * S) + gam u 3 * S = gam u (8 + c) * S := by
    rw [← eC, ← eB]; ring
  have t3 := mul_nonneg g3 S0
  constructor
  · have a1 := abs_le.1 i1
    have a2 := abs_le.1 f1
    have a3 := abs_le.1 f3
    rw [abs_le]
    constructor <;> linarith [a1.1, a1.2, a2.1, a2.2, a3.1, a3.2]
  · linarith

/-! ## One step -/

/-- Sums over related lists of points. -/
theorem items_map_rel {R : Phase K ns → Particle K ns → Particle K ns → Prop}
    {L L' : List (PhaseSt K ns)} (h : PtsRel R L L') {α : Type}
    {f : Phase K ns × Particle K ns → α} (hf : ∀ ph a b, R ph a b → f (ph, b) = f (ph, a)) :
    (items L').map f = (items L).map f := by
  have hi := h.items
  generalize items L = l at hi ⊢
  generalize items L' = l' at hi ⊢
  induction hi with
  | nil => rfl
  | @cons x y l l' h _ ih =>
    obtain ⟨p, a⟩ := x
    obtain ⟨q, b⟩ := y
    obtain ⟨rfl, h⟩ := h
    simp only [List.map_cons]
    rw [hf _ _ _ h, ih]

theorem arrivals_map_rel {R : Phase K ns → Particle K ns → Particle K ns → Prop}
    {L L' : List (PhaseSt K ns)} (h : PtsRel R L L') {α : Type} {n : Fin N}
    {f : (Phase K ns × Particle K ns) × Fin 4 → α}
    (hf : ∀ ph a b, R ph a b → b.n_star = a.n_star ∧ ∀ r, f ((ph, b), r) = f ((ph, a), r)) :
    (arrivals nx n L').map f = (arrivals nx n L).map f := by
  unfold arrivals
  have hi := h.items
  generalize items L = l at hi ⊢
  generalize items L' = l' at hi ⊢
  induction hi with
  | nil => rfl
  | @cons x y l l' h _ ih =>
    obtain ⟨p, a⟩ := x
    obtain ⟨q, b⟩ := y
    obtain ⟨rfl, h⟩ := h
    obtain ⟨e1, e2⟩ := hf _ _ _ h
    simp only [List.flatMap_cons, List.map_append]
    rw [ih]
    congr 1
    unfold landings
    rw [e1, List.map_map, List.map_map]
    exact List.map_congr_left fun r _ => e2 r

/-- The points from the beginning of a step to its momentum update. -/
theorem stepR_mapped {P : Par K} {E : Besides P} (hE : Plain E) {s s' : St P} (hr : Rounding rnd u) (odd : ∀ x, rnd (-x) = -rnd x)
    (T : StepR rnd E s s') (hL : Counted s.L) (hdx : 0 < s.G.dx) (hdy : 0 < s.G.dy)
    (rx : rnd s.G.dx = s.G.dx) (ry : rnd s.G.dy = s.G.dy)
    (hc : ∀ mp ∈ points s.L, ∀ n, mp.getReferenceNodeR rnd P.G s.G.dx s.G.dy = .ok n →
      NearCell s.G 0 n) :
    Counted T.T.Lc ∧ PtsRel (fun ph a b => b.n_star = a.n_star ∧ b.N = a.N ∧
      (ph.law ≠ .elastic_time → b.m = a.m)) T.T.Lc T.T.Ld ∧
    PtsRel (fun ph a b => b.v = a.v ∧ (ph.law ≠ .elastic_time → b.m = a.m) ∧
      Mapped u s.G.dx s.G.dy b) s.L T.T.Ld := by
  have ra := updateForcesR_rel hL T.T.ha
  have la := ra.counted hL
  have rb : PtsRel (fun _ a b => a.getReferenceNodeR rnd P.G s.G.dx s.G.dy = .ok b) T.T.La T.T.Lb :=
    mapPoints_rel (f := fun _ _ mp => mp.getReferenceNodeR rnd P.G s.G.dx s.G.dy)
      (fun _ _ _ _ h => h) la T.T.hb
  have lb := rb.counted la
  have rc : PtsRel (fun _ a b => a.getBasisFunctionsR rnd s.G.wipe = .ok b) T.T.Lb T.T.Lc :=
    mapPoints_rel (f := fun _ _ mp => mp.getBasisFunctionsR rnd s.G.wipe)
      (fun _ _ _ _ h => h) lb T.T.hc
  have lc := rc.counted lb
  have rd := updateStressStrainR_rel lc T.T.hLd
  refine ⟨lc, rd.mono ?_, (((ra.mem.comp rb).comp rc).comp rd).mono ?_⟩
  · rintro ph a b ⟨p, vis, vis', o, ho, he⟩
    obtain ⟨-, -, ⟨_, _, _, rfl⟩, -⟩ := updateStrainR_ok ho
    obtain ⟨k, m⟩ := hE.stress he
    exact ⟨k.n_star, k.N, m⟩
  · rintro ph a e ⟨d, ⟨c, ⟨b, ⟨ha, -, f, rfl, -⟩, hn⟩, hb⟩, p, vis, vis', o, ho, he⟩
    obtain ⟨-, -, ⟨_, _, _, rfl⟩, -⟩ := updateStrainR_ok ho
    obtain ⟨k, m⟩ := hE.stress he
    obtain ⟨A, hA, -, hm⟩ := mem_items.1 ha
    have near : NearCell s.G 0 c := by
      unfold Particle.getReferenceNodeR at hn
      split_ifs at hn with hz
      cases hn
      have := hc a (List.mem_flatMap.2 ⟨A, hA, hm⟩)
      unfold Particle.getReferenceNodeR at this
      rw [if_neg hz] at this
      have q := this _ rfl
      exact q
    have hv : c.v = a.v ∧ c.m = a.m := by
      unfold Particle.getReferenceNodeR at hn
      split_ifs at hn with hz
      cases hn
      exact ⟨rfl, rfl⟩
    have bs := basisR_star hb
    have M : Mapped u s.G.dx s.G.dy d := mapped_of_cell (G := s.G.wipe) hr odd hdx hdy rx ry near hb
    refine ⟨k.v.trans (bs.2.2.1.trans hv.1), fun h => (m h).trans (bs.2.1.trans hv.2), ?_⟩
    have eN : e.N = d.N := k.N
    have eG : e.Gs = d.Gs := k.Gs
    exact ⟨by rw [eN]; exact M.weights, by rw [eN]; exact M.nonneg, by rw [eG]; exact M.cancel,
      by rw [eG]; exact M.slope0, by rw [eG]; exact M.slope1, by rw [eG]; exact M.slope2⟩

local macro "field " f:ident e:ident : term => `(by have h := congrArg $f $e; exact h)

theorem balanceR {P : Par K} {E : Besides P} (plain : Plain E) {s s' : St P} (hr : Rounding rnd u) (odd : ∀ x, rnd (-x) = -rnd x)
    (hB : Closed P.B) (hcy : P.B.cyclic_lr = false) (hro : P.B.roughness = false)
    (hco : P.B.conveyor = false) (hda : P.damping = false) (hvf : P.B.vertical_force = false)
    (hhf : P.B.horizontal_force = false)
    (hL : Counted s.L) (hR : NoRigid s.L) (hE : ∀ a ∈ s.L, a.ph.law ≠ .elastic_time) (ho : OwnVel s.L)
    (hm : ∀ mp ∈ points s.L, 0 ≤ mp.m) (hdx : 0 < s.G.dx) (hdy : 0 < s.G.dy)
    (rx : rnd s.G.dx = s.G.dx) (ry : rnd s.G.dy = s.G.dy)
    (hcell : ∀ mp ∈ points s.L, ∀ n, mp.getReferenceNodeR rnd P.G s.G.dx s.G.dy = .ok n →
      NearCell s.G 0 n) {k : Fin 3}
    (hv : k = 0 → ∀ i, s.G.boundary_v i = false) (hh : k = 1 → ∀ i, s.G.boundary_h i = false)
    (h : timeMarchR rnd E s = .ok s') {c : ℕ}
    (hc : ∀ n : Fin P.G.N, (arrivals P.G.nx n s'.L).length ≤ c)
    (heavy : ∀ n : Fin P.G.N, arrivals P.G.nx n s'.L ≠ [] → P.M_tol < s'.G.m n) :
    |totalMomentum s'.L k - (totalMomentum s.L k + s'.dyn.dt * weightIn s'.L k)| ≤
      gam u (8 + c) * momentumSize s.L k + |s'.dyn.dt| * (gam u (16 + 2 * c) *
        (weightSize s'.L k + stressPush s.G.dx s.G.dy s'.L k)) := by
  have g0 := hr.nonneg
  have hp := hr.lt_one
  obtain ⟨T⟩ := timeMarchR_ok plain h
  obtain ⟨M, h1, h2, hd⟩ := T.points hB
  rw [hcy, if_neg (by decide)] at h2
  obtain rfl := Except.ok.inj h2
  obtain ⟨lc, rcd, rad⟩ := stepR_mapped plain hr odd T hL hdx hdy rx ry hcell
  have ld := rcd.counted lc
  have hEd := laws_of_rel (p := (· ≠ .elastic_time)) rad hE
  have hRd : NoRigid T.T.Ld := laws_of_rel (p := (· ≠ .rigid)) rad hR
  have mp' : ∀ {ph : Phase K P.G.ns} {a : Particle K P.G.ns} {L : List (PhaseSt K P.G.ns)},
      (ph, a) ∈ items L → a ∈ points L := fun h => mem_points_items h
  have law : ∀ {ph : Phase K P.G.ns} {a : Particle K P.G.ns}, (ph, a) ∈ items s.L →
      ph.law ≠ .elastic_time := by
    intro ph a ha
    obtain ⟨A, hA, rfl, -⟩ := mem_items.1 ha
    exact hE A hA
  have law' : ∀ {ph : Phase K P.G.ns} {a : Particle K P.G.ns}, (ph, a) ∈ items T.T.Ld →
      ph.law ≠ .elastic_time := by
    intro ph a ha
    obtain ⟨A, hA, rfl, -⟩ := mem_items.1 ha
    exact hEd A hA
  have good : ∀ mp ∈ points T.T.Ld, 0 ≤ mp.m ∧ Mapped u s.G.dx s.G.dy mp := by
    refine ownVel_of_rel rad.mem ?_
    rintro ph a b ⟨ha, -, -, em, mb⟩
    exact ⟨by rw [em (law ha)]; exact hm a (mp' ha), mb⟩
  have own : OwnVel T.T.Ld := by
    refine ownVel_of_rel rad.mem (p := fun mp => ∃ v, mp.v = .own v) ?_
    rintro ph a b ⟨ha, -, ev, -⟩
    rw [ev]
    exact ho a (mp' ha)
  -- what the motion keeps
  have rde : PtsRel (fun _ a b => b.n_star = a.n_star ∧ b.m = a.m ∧ b.b = a.b ∧ b.V = a.V ∧
      b.stress = a.stress) T.T.Ld s'.L := by
    refine (movePointsR_own ld hRd own h1).mono ?_
    rintro ph a b ⟨hmv, -⟩
    obtain ⟨-, ⟨_, _, _, rfl⟩, -⟩ := c138_sum hmv
    exact ⟨rfl, rfl, rfl, rfl, rfl⟩
  have len : ∀ n : Fin P.G.N, (arrivals P.G.nx n s'.L).length = (arrivals P.G.nx n T.T.Ld).length := by
    intro n
    have := arrivals_map_rel (nx := P.G.nx) (n := n) (f := fun _ => ()) rde
      fun _ _ _ h => ⟨h.1, fun _ => rfl⟩
    simpa using congrArg List.length this
  have e1 : weightIn s'.L k = weightIn T.T.Ld k := by
    unfold weightIn
    rw [points_sum, points_sum]
    refine congrArg List.sum (items_map_rel rde (f := fun x => x.2.m * x.2.b k) ?_)
    rintro ph a b ⟨-, e2, e3, -⟩
    simp only [e2, e3]
  have e2 : weightSize s'.L k = weightSize T.T.Ld k := by
    unfold weightSize
    rw [points_sum, points_sum]
    refine congrArg List.sum (items_map_rel rde (f := fun x => |x.2.m * x.2.b k|) ?_)
    rintro ph a b ⟨-, e2, e3, -⟩
    simp only [e2, e3]
  have e3 : stressPush s.G.dx s.G.dy s'.L k = stressPush s.G.dx s.G.dy T.T.Ld k := by
    unfold stressPush
    rw [points_sum, points_sum]
    refine congrArg List.sum (items_map_rel rde
      (f := fun x => 2 * (|x.2.V| * (|x.2.stress k 0| / s.G.dx + |x.2.stress k 1| / s.G.dy))) ?_)
    rintro ph a b ⟨-, -, -, e2, e3⟩
    simp only [e2, e3]
  have e4 : totalMomentum T.T.Ld k = totalMomentum s.L k := by
    rw [totalMomentum_items, totalMomentum_items]
    refine congrArg List.sum (items_map_rel rad.mem (f := fun x => x.2.m * x.2.v.get x.1.iv k) ?_)
    rintro ph a b ⟨ha, -, e2, e3, -⟩
    simp only [e2, e3 (law ha)]
  have e5 : ((items T.T.Ld).map fun x => |x.2.m * x.2.v.get x.1.iv k|).sum = momentumSize s.L k := by
    unfold momentumSize
    refine congrArg List.sum (items_map_rel rad.mem (f := fun x => |x.2.m * x.2.v.get x.1.iv k|) ?_)
    rintro ph a b ⟨ha, -, e2, e3, -⟩
    simp only [e2, e3 (law ha)]
  -- the grid
  obtain ⟨G1, p1, p2, -, -, p3, p4⟩ := nodalMassR_frame T.hseg T.T.hGa
  have hb : T.T.Gb = T.T.Ga := by rw [T.T.hGb, hcy, if_neg (by decide)]
  have f1 := updateStressStrainR_grid T.T.hLd
  have hH : T.H = T.T.Gd := BCsR_none hvf hhf T.hH
  have hF : nodalForcesAllR rnd P.G.nx T.T.Ld T.T.Gc = .ok T.T.Gd := by
    have := T.T.hGd
    unfold getNodalForcesR at this
    obtain ⟨G2, q1, q2⟩ := res_bind_ok.1 this
    rw [hcy] at q2
    rw [q1]
    exact q2
  have zi : T.T.Gc.fi = fun _ => 0 := by
    have a : T.T.Gc.fi = T.T.Gb.fi := field Grid.fi f1
    rw [a, hb, p3]
    rfl
  have ze : T.T.Gc.fe = fun _ => 0 := by
    have a : T.T.Gc.fe = T.T.Gb.fe := field Grid.fe f1
    rw [a, hb, p4]
    rfl
  obtain ⟨-, gv, gh, -⟩ := T.grid
  have hQ : ∀ n, s'.G.q_dot n k = rnd (T.T.Gd.fe n k - T.T.Gd.fi n k) := by
    intro n
    rw [T.hG, hda, hH]
    rw [hH] at gv gh
    unfold Grid.updateMomentumR
    simp only [hro, Bool.false_eq_true, if_false, Bool.false_and]
    have n1 : k = 0 → T.T.Gd.boundary_v n = false := fun e => by rw [gv]; exact hv e n
    have n2 : k = 1 → T.T.Gd.boundary_h n = false := fun e => by rw [gh]; exact hh e n
    fin_cases k
    · simp [maskOff, n1 rfl]
    · simp [maskOff, n2 rfl]
    · rfl
  have mass : ∀ n, s'.G.m n = runSum rnd 0 ((arrivals P.G.nx n T.T.Ld).map fun a =>
      rnd (a.1.2.N a.2 * a.1.2.m)) := by
    intro n
    have a : s'.G.m = G1.m := by
      rw [T.hG, hH]
      have a1 : T.T.Gd.m = T.T.Gc.m := by
        have := getNodalForcesR_frame T.T.hGd
        exact field Grid.m this
      have a2 : T.T.Gc.m = T.T.Gb.m := field Grid.m f1
      have a3 : T.T.Ga.m = G1.m := by rw [p2]; rfl
      have a4 : (T.T.Gd.updateMomentumR rnd P.B P.damping T.T.d.dt P.v_0).m = T.T.Gd.m := rfl
      rw [a4, a1, a2, hb, a3]
    rw [a, ((c137_sum lc p1).2 n).1]
    have r := arrivals_map_rel (nx := P.G.nx) (n := n) (f := fun a => rnd (a.1.2.N a.2 * a.1.2.m))
      rcd.mem (by
        rintro ph a b ⟨-, hb, e1, e2, e3⟩
        exact ⟨e1, fun r => by simp only [e2, e3 (law' hb)]⟩)
    rw [r]
    rfl
  obtain ⟨nodes, hfs⟩ := c138_forces_sum ld hF
  have tot := total_of_masses hr P.M_tol_nonneg ld hRd own (fun mp h => ⟨(good mp h).1, (good mp h).2.nonneg⟩)
    nodes mass h1 (fun n => (len n).symm.le.trans (hc n)) k
  obtain ⟨r1, r2⟩ := rates_total hr hdx hdy ld good zi ze hF (fun n => (len n).symm.le.trans (hc n)) k
    (Q := fun n => s'.G.q_dot n k) hQ
  -- light nodes get nothing
  have light : ∀ n, ¬ P.M_tol < s'.G.m n → s'.G.q_dot n k = 0 := by
    intro n hn
    have : arrivals P.G.nx n s'.L = [] := by
      by_contra h
      exact hn (heavy n h)
    have e : arrivals P.G.nx n T.T.Ld = [] := by
      rw [← List.length_eq_zero_iff, ← len, this]
      rfl
    rw [hQ, hfs]
    simp [e, runSum, zi, ze, hr.zero]
  have s1 : (∑ n, if P.M_tol < s'.G.m n then s'.G.q_dot n k else 0) = ∑ n, s'.G.q_dot n k := by
    refine Finset.sum_congr rfl fun n _ => ?_
    split_ifs with hn
    · rfl
    · exact (light n hn).symm
  have s2 : (∑ n, if P.M_tol < s'.G.m n then |s'.G.q_dot n k| else 0) = ∑ n, |s'.G.q_dot n k| := by
    refine Finset.sum_congr rfl fun n _ => ?_
    split_ifs with hn
    · rfl
    · rw [light n hn, abs_zero]
  rw [s1, s2, e4, e5] at tot
  rw [hd, e1, e2, e3]
  set dt := T.T.d.dt
  set g := gam u (8 + c) with hg
  have hg0 : 0 ≤ g := gam_nonneg g0 hp _
  set Z := weightSize T.T.Ld k + stressPush s.G.dx s.G.dy T.T.Ld k
  have ge : g + g + g * g = gam u (16 + 2 * c) := by
    rw [hg, gam_add hp, show 8 + c + (8 + c) = 16 + 2 * c by ring]
  rw [← ge]
  have i1 : |dt * ∑ n, s'.G.q_dot n k - dt * weightIn T.T.Ld k| ≤ |dt| * (g * Z) := by
    rw [← mul_sub, abs_mul]
    exact mul_le_mul_of_nonneg_left r1 (abs_nonneg _)
  have i2 : g * (|dt| * ∑ n, |s'.G.q_dot n k|) ≤ g * (|dt| * ((1 + g) * Z)) :=
    mul_le_mul_of_nonneg_left (mul_le_mul_of_nonneg_left r2 (abs_nonneg _)) hg0
  have a1 := abs_le.1 tot
  have a2 := abs_le.1 i1
  rw [abs_le]
  constructor <;> linarith [a1.1, a1.2, a2.1, a2.2]

/-- C143.  The balance of momentum of one rounded time step, in a direction without walls: the momentum
of all points grows by `dt` times their weight; the stresses push, but in sum hardly anywhere.  The error
is at most that of `8 + c` roundings of the momentum, and of twice as many of the weight and of the
stresses, where at most `c` contributions go to any one node. -/
theorem c143_balance {P : Par K} {s s' : St P} (hr : Rounding rnd u) (odd : ∀ x, rnd (-x) = -rnd x)
    (hB : Closed P.B) (hcy : P.B.cyclic_lr = false) (hro : P.B.roughness = false)
    (hco : P.B.conveyor = false) (hda : P.damping = false) (hvf : P.B.vertical_force = false)
    (hhf : P.B.horizontal_force = false)
    (hL : Counted s.L) (hR : NoRigid s.L) (hE : ∀ a ∈ s.L, a.ph.law ≠ .elastic_time) (ho : OwnVel s.L)
    (hm : ∀ mp ∈ points s.L, 0 ≤ mp.m) (hdx : 0 < s.G.dx) (hdy : 0 < s.G.dy)
    (rx : rnd s.G.dx = s.G.dx) (ry : rnd s.G.dy = s.G.dy)
    (hcell : ∀ mp ∈ points s.L, ∀ n, mp.getReferenceNodeR rnd P.G s.G.dx s.G.dy = .ok n →
      NearCell s.G 0 n) {k : Fin 3}
    (hv : k = 0 → ∀ i, s.G.boundary_v i = false) (hh : k = 1 → ∀ i, s.G.boundary_h i = false)
    (h : timeMarchR rnd (Besides.rounded rnd P) s = .ok s') {c : ℕ}
    (hc : ∀ n : Fin P.G.N, (arrivals P.G.nx n s'.L).length ≤ c)
    (heavy : ∀ n : Fin P.G.N, arrivals P.G.nx n s'.L ≠ [] → P.M_tol < s'.G.m n) :
    |totalMomentum s'.L k - (totalMomentum s.L k + s'.dyn.dt * weightIn s'.L k)| ≤
      gam u (8 + c) * momentumSize s.L k + |s'.dyn.dt| * (gam u (16 + 2 * c) *
        (weightSize s'.L k + stressPush s.G.dx s.G.dy s'.L k)) :=
  balanceR Besides.rounded_plain hr odd hB hcy hro hco hda hvf hhf hL hR hE ho hm hdx hdy rx ry hcell hv hh h
    hc heavy

end
end Mpm

namespace Mpm
open Spec

/-- A stressed point of mass 3 that falls freely, at a position and with a velocity that need all digits. -/
def Ex.faller : Particle ℚ 2 :=
  { Ex.mp with x := ![fl 53 (2/5), fl 53 (1/7), 0], v := .own ![fl 53 (-1/3), fl 53 (1/7), 0] }

/-- The phase of this point alone. -/
def Ex.fall : List (PhaseSt ℚ 2) := [{ ph := { Ex.ph with n := 1 }, pts := [Ex.faller] }]

/-- C143.  A stressed body falling freely in binary64: its momentum does not grow by its weight times the
time step, but nearly. -/
example : ∃ (G : Grid ℚ Ex.par.G.N Ex.par.G.ns) (s : St Ex.par),
    mkGridR (fl 53) Ex.par.G Ex.par.B = .ok G ∧
    timeMarchR (fl 53) (Besides.rounded (fl 53) Ex.par) { dyn := Ex.dyn, L := Ex.fall, G := G } = .ok s ∧
    totalMomentum s.L 1 ≠ totalMomentum Ex.fall 1 + s.dyn.dt * weightIn s.L 1 ∧
    weightIn s.L 1 = -30 ∧ stressPush G.dx G.dy s.L 1 ≠ 0 ∧
    |totalMomentum s.L 1 - (totalMomentum Ex.fall 1 + s.dyn.dt * weightIn s.L 1)| ≤
      gam (1 / 2 ^ 53) (8 + 1) * momentumSize Ex.fall 1 + |s.dyn.dt| * (gam (1 / 2 ^ 53) (16 + 2 * 1) *
        (weightSize s.L 1 + stressPush G.dx G.dy s.L 1)) := by
  have h : Ex.okAnd (mkGridR (fl 53) Ex.par.G Ex.par.B) (fun G =>
      (decide (0 < G.dx ∧ 0 < G.dy ∧ fl 53 G.dx = G.dx ∧ fl 53 G.dy = G.dy) &&
        decide (∀ i, G.boundary_h i = false) &&
        Ex.okAnd (Ex.faller.getReferenceNodeR (fl 53) Ex.par.G G.dx G.dy) (fun n =>
          decide (∃ i : Fin 9, pyIdx 9 n.n_star = .ok i ∧
            (-(0 * G.dx) ≤ n.x 0 - G.X i ∧ n.x 0 - G.X i ≤ (1 + 0) * G.dx) ∧
            (-(0 * G.dy) ≤ n.x 1 - G.Y i ∧ n.x 1 - G.Y i ≤ (1 + 0) * G.dy)))) &&
      Ex.okAnd (timeMarchR (fl 53) (Besides.rounded (fl 53) Ex.par)
        { dyn := Ex.dyn, L := Ex.fall, G := G }) fun s =>
      decide (∀ n : Fin 9, (arrivals 3 n s.L).length ≤ 1) &&
      (List.finRange 9).all (fun n =>
        decide ((arrivals 3 n s.L).length = 0) || decide ((0 : ℚ) < s.G.m (n : Fin 9))) &&
      decide (totalMomentum s.L 1 ≠ totalMomentum Ex.fall 1 + s.dyn.dt * weightIn s.L 1) &&
      decide (weightIn s.L 1 = -30) && decide (stressPush G.dx G.dy s.L 1 ≠ 0)) = true := by
    decide +kernel
  obtain ⟨G, h1, h⟩ := Ex.okAnd_ok h
  obtain ⟨hg, h⟩ := Bool.and_eq_true_iff.1 h
  obtain ⟨hg, hcell⟩ := Bool.and_eq_true_iff.1 hg
  obtain ⟨hg, hb⟩ := Bool.and_eq_true_iff.1 hg
  obtain ⟨dx, dy, rx, ry⟩ := of_decide_eq_true hg
  obtain ⟨s, h2, h⟩ := Ex.okAnd_ok h
  obtain ⟨h, k5⟩ := Bool.and_eq_true_iff.1 h
  obtain ⟨h, k4⟩ := Bool.and_eq_true_iff.1 h
  obtain ⟨h, k3⟩ := Bool.and_eq_true_iff.1 h
  obtain ⟨k1, k2⟩ := Bool.and_eq_true_iff.1 h
  have pts : ∀ mp ∈ points Ex.fall, mp = Ex.faller := fun mp hmp => List.mem_singleton.1 hmp
  refine ⟨G, s, h1, h2, of_decide_eq_true k3, of_decide_eq_true k4, of_decide_eq_true k5, ?_⟩
  refine c143_balance (s := { dyn := Ex.dyn, L := Ex.fall, G := G }) (c136_bits (by norm_num)) (fl_neg 53)
    ⟨rfl, rfl, rfl, rfl⟩ rfl rfl rfl rfl rfl rfl ?_ ?_ ?_ ?_ ?_ dx dy rx ry ?_ (fun h => by cases h)
    (fun _ => of_decide_eq_true hb) h2 (of_decide_eq_true k1) ?_
  · intro a ha
    rw [List.mem_singleton.1 ha]; rfl
  · intro a ha
    rw [List.mem_singleton.1 ha]
    exact fun h => by cases h
  · intro a ha
    rw [List.mem_singleton.1 ha]
    exact fun h => by cases h
  · intro mp hmp
    rw [pts mp hmp]
    exact ⟨_, rfl⟩
  · intro mp hmp
    rw [pts mp hmp]
    show (0 : ℚ) ≤ 3
    norm_num
  · intro mp hmp n hn
    rw [pts mp hmp] at hn
    obtain ⟨n', hn', q⟩ := Ex.okAnd_ok hcell
    have : n' = n := Except.ok.inj (hn'.symm.trans hn)
    subst this
    have q' := of_decide_eq_true q
    exact q'
  · intro n hn
    have := Bool.or_eq_true_iff.1 (List.all_eq_true.1 k2 n (List.mem_finRange _))
    rcases this with h | h
    · exact absurd (List.length_eq_zero_iff.1 (of_decide_eq_true h)) hn
    · exact of_decide_eq_true h

/-- C143.  The gradients of this point's shape functions, in binary64. -/
example : ∃ (G : Grid ℚ Ex.par.G.N Ex.par.G.ns) (b : Particle ℚ 2),
    mkGridR (fl 53) Ex.par.G Ex.par.B = .ok G ∧ Ex.faller.getBasisFunctionsR (fl 53) G = .ok b ∧
    (∀ j, ∑ r, b.Gs r j = 0) ∧ ∑ r, b.N r ≠ 1 := by
  have h : Ex.okAnd (mkGridR (fl 53) Ex.par.G Ex.par.B) (fun G =>
      Ex.okAnd (Ex.faller.getBasisFunctionsR (fl 53) G) fun b => decide (∑ r, b.N r ≠ 1)) = true := by
    decide +kernel
  obtain ⟨G, h1, h⟩ := Ex.okAnd_ok h
  obtain ⟨b, h2, h⟩ := Ex.okAnd_ok h
  exact ⟨G, b, h1, h2, c143_gradients (c136_bits (by norm_num)) (fl_neg 53) h2, of_decide_eq_true h⟩

end Mpm

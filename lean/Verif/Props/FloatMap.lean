import Mathlib.Tactic.Positivity
import Mathlib.Tactic.FieldSimp
import Verif.Model.FloatMap
import Verif.Props.Float
import Verif.Props.Balance
import Verif.Lemmas.Track
import Verif.ExRun
import Mathlib.Data.Rat.Floor

/-! C137: mapping the points to the grid in floating point. -/

set_option linter.unusedSectionVars false

namespace Mpm
namespace Spec
section
variable {K : Type} [Field K] [LinearOrder K] {ns : ℕ}

/-- The relative error after `k` operations with relative error `u`: `1/(1-u)^k - 1`. -/
def gam (u : K) (k : ℕ) : K := 1 / (1 - u) ^ k - 1

/-- Adding up in the order of the list, rounding every sum. -/
def runSum (rnd : K → K) (a : K) (l : List K) : K := l.foldl (fun s v => rnd (s + v)) a

/-- Which of the four corners of the point are node `n`. -/
def landings (nx : ℕ) {N : ℕ} (n : Fin N) (mp : Particle K ns) : List (Fin 4) :=
  (List.finRange 4).filter fun r => decide (pyIdx N (nearbyNodes nx mp.n_star r) = .ok n)

/-- All contributions to node `n`, in the order in which the program makes them: point by point and
corner by corner. -/
def arrivals (nx : ℕ) {N : ℕ} (n : Fin N) (L : List (PhaseSt K ns)) :
    List ((Phase K ns × Particle K ns) × Fin 4) :=
  (items L).flatMap fun x => (landings nx n x.2).map fun r => (x, r)

/-- The point lies in the cell of its reference node, up to the fraction `ε` of the cell size. -/
def NearCell {N : ℕ} (G : Grid K N ns) (ε : K) (mp : Particle K ns) : Prop :=
  ∃ i, pyIdx N mp.n_star = .ok i ∧
    (-(ε * G.dx) ≤ mp.x 0 - G.X i ∧ mp.x 0 - G.X i ≤ (1 + ε) * G.dx) ∧
    (-(ε * G.dy) ≤ mp.x 1 - G.Y i ∧ mp.x 1 - G.Y i ≤ (1 + ε) * G.dy)

end
end Spec
open Spec

section
variable {K : Type} [Field K] [LinearOrder K] [IsStrictOrderedRing K]

/-! ## Calculus of errors -/

/-- `y` is `x`, a number of size at most `c`, computed with `k` roundings. -/
structure App (u : K) (k : ℕ) (c x y : K) : Prop where
  size : |x| ≤ c
  err : |y - x| ≤ gam u k * c

section
variable {rnd : K → K} {u : K}

theorem Spec.Rounding.lt_one (hr : Rounding rnd u) : 0 < 1 - u := by
  have := hr.small
  have : (1 / 2 : K) < 1 := by norm_num
  linarith

theorem gam_mono (h0 : 0 ≤ u) (h1 : 0 < 1 - u) {j k : ℕ} (h : j ≤ k) : gam u j ≤ gam u k := by
  unfold gam
  have : (1 - u) ^ k ≤ (1 - u) ^ j := pow_le_pow_of_le_one h1.le (by linarith) h
  have := one_div_le_one_div_of_le (pow_pos h1 k) this
  linarith

theorem gam_zero : gam u 0 = 0 := by simp [gam]

theorem gam_nonneg (h0 : 0 ≤ u) (h1 : 0 < 1 - u) (k : ℕ) : 0 ≤ gam u k := by
  rw [← gam_zero (u := u)]; exact gam_mono h0 h1 (Nat.zero_le _)

theorem gam_add (h1 : 0 < 1 - u) (j k : ℕ) :
    gam u j + gam u k + gam u j * gam u k = gam u (j + k) := by
  unfold gam
  rw [pow_add]
  have := pow_pos h1 j
  have := pow_pos h1 k
  field_simp
  ring

theorem le_gam_one (h0 : 0 ≤ u) (h1 : 0 < 1 - u) : u ≤ gam u 1 := by
  unfold gam
  rw [pow_one, le_sub_iff_add_le, le_div_iff₀ h1]
  nlinarith

theorem App.nonneg {k : ℕ} {c x y : K} (h : App u k c x y) : 0 ≤ c := (abs_nonneg _).trans h.size

theorem App.exact (x : K) {c : K} (h : |x| ≤ c) : App u 0 c x x :=
  ⟨h, by simp [gam_zero]⟩

theorem App.weaken (hr : Rounding rnd u) {j k : ℕ} {c d x y : K} (h : App u j c x y) (hk : j ≤ k)
    (hc : c ≤ d) : App u k d x y :=
  ⟨h.size.trans hc, h.err.trans (mul_le_mul (gam_mono hr.nonneg hr.lt_one hk) hc h.nonneg
    (gam_nonneg hr.nonneg hr.lt_one k))⟩

theorem App.bound {k : ℕ} {c x y : K} (h : App u k c x y) : |y| ≤ (1 + gam u k) * c := by
  have := abs_add_le (y - x) x
  rw [sub_add_cancel] at this
  linarith [h.size, h.err]

theorem App.round (hr : Rounding rnd u) {k : ℕ} {c x y : K} (h : App u k c x y) :
    App u (k + 1) c x (rnd y) := by
  refine ⟨h.size, ?_⟩
  have e := abs_add_le (rnd y - y) (y - x)
  rw [sub_add_sub_cancel] at e
  have h1 := hr.err y
  have h2 := mul_le_mul_of_nonneg_left h.bound hr.nonneg
  have h3 := h.err
  rw [← gam_add hr.lt_one k 1]
  have g1 := le_gam_one hr.nonneg hr.lt_one
  have g := gam_nonneg hr.nonneg hr.lt_one k
  have h4 : u * ((1 + gam u k) * c) ≤ gam u 1 * ((1 + gam u k) * c) :=
    mul_le_mul_of_nonneg_right g1 (mul_nonneg (by linarith) h.nonneg)
  nlinarith

theorem App.mul (hr : Rounding rnd u) {j k : ℕ} {c d x y x' y' : K} (h : App u j c x y)
    (h' : App u k d x' y') : App u (j + k) (c * d) (x * x') (y * y') := by
  have hc := h.nonneg
  have hd := h'.nonneg
  refine ⟨by rw [abs_mul]; exact mul_le_mul h.size h'.size (abs_nonneg _) hc, ?_⟩
  have e : y * y' - x * x' = y * (y' - x') + (y - x) * x' := by ring
  rw [e]
  refine (abs_add_le _ _).trans ?_
  rw [abs_mul, abs_mul, ← gam_add hr.lt_one]
  have g := gam_nonneg hr.nonneg hr.lt_one j
  have g' := gam_nonneg hr.nonneg hr.lt_one k
  have h1 : |y| * |y' - x'| ≤ ((1 + gam u j) * c) * (gam u k * d) :=
    mul_le_mul h.bound h'.err (abs_nonneg _) (mul_nonneg (by linarith) hc)
  have h2 : |y - x| * |x'| ≤ (gam u j * c) * d :=
    mul_le_mul h.err h'.size (abs_nonneg _) (mul_nonneg g hc)
  nlinarith

theorem App.add {k : ℕ} {c d x y x' y' : K} (h : App u k c x y)
    (h' : App u k d x' y') : App u k (c + d) (x + x') (y + y') := by
  refine ⟨(abs_add_le _ _).trans (add_le_add h.size h'.size), ?_⟩
  have e : y + y' - (x + x') = (y - x) + (y' - x') := by ring
  rw [e, mul_add]
  exact (abs_add_le _ _).trans (add_le_add h.err h'.err)

/-- `a - y` where the size of the difference, too, is at most `c`. -/
theorem App.subFrom {k : ℕ} {c x y : K} (h : App u k c x y) (a : K) (ha : |a - x| ≤ c) :
    App u k c (a - x) (a - y) := by
  refine ⟨ha, ?_⟩
  have e : a - y - (a - x) = -(y - x) := by ring
  rw [e, abs_neg]
  exact h.err

theorem Spec.Rounding.ne_zero (hr : Rounding rnd u) {x : K} : rnd x ≠ 0 ↔ x ≠ 0 := by
  refine not_congr ⟨fun h => ?_, fun h => ?_⟩
  · have := hr.err x
    rw [h, zero_sub, abs_neg] at this
    have h1 := hr.lt_one
    have : (1 - u) * |x| ≤ 0 := by linarith
    have : |x| ≤ 0 := by
      by_contra hc
      have := mul_pos h1 (not_le.1 hc)
      linarith
    exact abs_eq_zero.1 (le_antisymm this (abs_nonneg _))
  · have := hr.err x
    rw [h, sub_zero, abs_zero, mul_zero] at this
    rw [h]
    exact abs_eq_zero.1 (le_antisymm this (abs_nonneg _))

theorem App.inv (hr : Rounding rnd u) {D : K} (hD : D ≠ 0) : App u 1 |D⁻¹| D⁻¹ (rnd D)⁻¹ := by
  refine ⟨le_rfl, ?_⟩
  have hR : rnd D ≠ 0 := hr.ne_zero.2 hD
  have h1 := hr.lt_one
  have e : (rnd D)⁻¹ - D⁻¹ = (D - rnd D) * (rnd D)⁻¹ * D⁻¹ := by
    field_simp
  rw [e, abs_mul]
  refine mul_le_mul_of_nonneg_right ?_ (abs_nonneg _)
  rw [abs_mul, abs_sub_comm, abs_inv]
  have hpos : 0 < |D| := abs_pos.2 hD
  have hlow : (1 - u) * |D| ≤ |rnd D| := by
    have a := abs_add_le (rnd D) (D - rnd D)
    rw [add_sub_cancel, abs_sub_comm D] at a
    linarith [hr.err D]
  have hlp : 0 < (1 - u) * |D| := mul_pos h1 hpos
  have h2 : |rnd D|⁻¹ ≤ ((1 - u) * |D|)⁻¹ := inv_anti₀ hlp hlow
  have h3 : |rnd D - D| * |rnd D|⁻¹ ≤ (u * |D|) * ((1 - u) * |D|)⁻¹ :=
    mul_le_mul (hr.err D) h2 (by positivity) (mul_nonneg hr.nonneg hpos.le)
  refine h3.trans (le_of_eq ?_)
  unfold gam
  field_simp
  ring

/-- Running sums of approximate numbers. -/
theorem App.runSum (hr : Rounding rnd u) {ι : Type} {v e c : ι → K} {k : ℕ} (l : List ι)
    (h : ∀ i ∈ l, App u k (c i) (e i) (v i)) {j : ℕ} (hj : k ≤ j) {a x C : K} (ha : App u j C x a) :
    App u (j + l.length) (C + (l.map c).sum) (x + (l.map e).sum) (runSum rnd a (l.map v)) := by
  induction l generalizing j a x C with
  | nil => simpa [Spec.runSum] using ha
  | cons i l ih =>
    have hi := (h i List.mem_cons_self).weaken hr hj le_rfl
    have := ih (fun i hi => h i (List.mem_cons_of_mem _ hi)) (j := j + 1) (by omega)
      ((ha.add hi).round hr)
    simpa [Spec.runSum, add_assoc, add_comm, add_left_comm] using this

end

/-! ## What the program adds up -/

variable {rnd : K → K} {u : K} {ns N nx : ℕ}

theorem runSum_append (a : K) (l l' : List K) :
    runSum rnd a (l ++ l') = runSum rnd (runSum rnd a l) l' := List.foldl_append ..

theorem addAtR_apply (a : Fin N → K) (i n : Fin N) (x : K) :
    addAtR rnd a i x n = runSum rnd (a n) (if i = n then [x] else []) := by
  unfold addAtR
  rw [Function.update_apply]
  by_cases h : i = n
  · rw [if_pos h.symm, if_pos h, h]; rfl
  · rw [if_neg (Ne.symm h), if_neg h]; rfl

theorem addRowR_apply {ι : Type} (a : Fin N → ι → K) (i n : Fin N) (x : ι → K) (j : ι) :
    addRowR rnd a i x n j = runSum rnd (a n j) (if i = n then [x j] else []) := by
  unfold addRowR
  rw [Function.update_apply]
  by_cases h : i = n
  · rw [if_pos h.symm, if_pos h, h]; rfl
  · rw [if_neg (Ne.symm h), if_neg h]; rfl

theorem landings_eq {mp : Particle K ns} {nd : Fin 4 → Fin N} (h : ∀ r, mp.node nx N r = .ok (nd r))
    (n : Fin N) (v : Fin 4 → K) :
    (landings nx n mp).map v = (if nd 0 = n then [v 0] else []) ++ (if nd 1 = n then [v 1] else []) ++
      (if nd 2 = n then [v 2] else []) ++ (if nd 3 = n then [v 3] else []) := by
  have h' : ∀ r, pyIdx N (nearbyNodes nx mp.n_star r) = .ok (nd r) := h
  have e : List.finRange 4 = [0, 1, 2, 3] := by decide
  unfold landings
  rw [e]
  simp only [List.filter_cons, List.filter_nil, h', Except.ok.injEq, decide_eq_true_eq]
  split_ifs <;> rfl

/-- One point. -/
theorem p2gR_ok {seg : Bool} {vel : Vec K} {mp : Particle K ns} {G G' : Grid K N ns}
    (h : mp.p2gR rnd nx seg vel G = .ok G') :
    NodesOk nx N mp ∧ ∀ n,
      G'.m n = runSum rnd (G.m n) ((landings nx n mp).map fun r => rnd (mp.N r * mp.m)) ∧
      (∀ k, G'.q n k = runSum rnd (G.q n k)
        ((landings nx n mp).map fun r => rnd (rnd (mp.N r * mp.m) * vel k))) ∧
      (∀ j, G'.phim n j = if seg then runSum rnd (G.phim n j)
        ((landings nx n mp).map fun r => rnd (rnd (mp.N r * mp.m) * mp.phi j)) else G.phim n j) ∧
      G'.pkm n = if seg then runSum rnd (G.pkm n)
        ((landings nx n mp).map fun r => rnd (rnd (mp.N r * mp.m) * mp.pk)) else G.pkm n := by
  unfold Particle.p2gR at h
  obtain ⟨G1, G2, G3, h0, h1, h2, h3⟩ := for4_ok.1 h
  obtain ⟨n0, e0, h0⟩ := res_bind_ok.1 h0
  obtain ⟨n1, e1, h1⟩ := res_bind_ok.1 h1
  obtain ⟨n2, e2, h2⟩ := res_bind_ok.1 h2
  obtain ⟨n3, e3, h3⟩ := res_bind_ok.1 h3
  obtain ⟨nd, hn, rfl, rfl, rfl, rfl⟩ : ∃ nd : Fin 4 → Fin N, (∀ r, mp.node nx N r = .ok (nd r)) ∧
      nd 0 = n0 ∧ nd 1 = n1 ∧ nd 2 = n2 ∧ nd 3 = n3 := by
    refine ⟨![n0, n1, n2, n3], ?_, rfl, rfl, rfl, rfl⟩
    intro r
    fin_cases r <;> assumption
  refine ⟨nodesOk_iff.2 ⟨_, hn⟩, fun n => ?_⟩
  simp only [landings_eq hn, runSum_append]
  cases seg <;> cases h0 <;> cases h1 <;> cases h2 <;> cases h3 <;>
    simp [addAtR_apply, addRowR_apply]

/-- C137.  The masses and momenta on the grid are running sums, rounded after every addition, of the
rounded contributions in the order of the points and, for each point, of its corners. -/
theorem c137_sum {seg : Bool} {L : List (PhaseSt K ns)} (hL : Counted L) {G G' : Grid K N ns}
    (h : p2gAllR rnd nx seg L G = .ok G') :
    (∀ mp ∈ points L, NodesOk nx N mp) ∧ ∀ n,
      G'.m n = runSum rnd (G.m n) ((arrivals nx n L).map fun a => rnd (a.1.2.N a.2 * a.1.2.m)) ∧
      (∀ k, G'.q n k = runSum rnd (G.q n k) ((arrivals nx n L).map fun a =>
        rnd (rnd (a.1.2.N a.2 * a.1.2.m) * a.1.2.v.get a.1.1.iv k))) ∧
      (∀ j, G'.phim n j = if seg then runSum rnd (G.phim n j) ((arrivals nx n L).map fun a =>
        rnd (rnd (a.1.2.N a.2 * a.1.2.m) * a.1.2.phi j)) else G.phim n j) ∧
      G'.pkm n = if seg then runSum rnd (G.pkm n) ((arrivals nx n L).map fun a =>
        rnd (rnd (a.1.2.N a.2 * a.1.2.m) * a.1.2.pk)) else G.pkm n := by
  have h' : (items L).foldlM (fun G (x : Phase K ns × Particle K ns) =>
      x.2.p2gR rnd nx seg (x.2.v.get x.1.iv) G) G = .ok G' := by
    rw [← h]
    exact (foldPhases_foldN (fun ph mp G => mp.p2gR rnd nx seg (mp.v.get ph.iv) G) hL G).symm
  have hp : ∀ mp ∈ points L, ∃ x ∈ items L, x.2 = mp := by
    intro mp hmp
    obtain ⟨a, ha, hm⟩ := List.mem_flatMap.1 hmp
    exact ⟨(a.ph, mp), mem_items.2 ⟨a, ha, rfl, hm⟩, rfl⟩
  suffices key : ∀ (l : List (Phase K ns × Particle K ns)) (G : Grid K N ns),
      l.foldlM (fun G (x : Phase K ns × Particle K ns) =>
        x.2.p2gR rnd nx seg (x.2.v.get x.1.iv) G) G = .ok G' →
      (∀ x ∈ l, NodesOk nx N x.2) ∧ ∀ n, ∀ A, A = (l.flatMap fun x =>
          (landings nx n x.2).map fun r => (x, r)) →
        G'.m n = runSum rnd (G.m n) (A.map fun a => rnd (a.1.2.N a.2 * a.1.2.m)) ∧
        (∀ k, G'.q n k = runSum rnd (G.q n k) (A.map fun a =>
          rnd (rnd (a.1.2.N a.2 * a.1.2.m) * a.1.2.v.get a.1.1.iv k))) ∧
        (∀ j, G'.phim n j = if seg then runSum rnd (G.phim n j) (A.map fun a =>
          rnd (rnd (a.1.2.N a.2 * a.1.2.m) * a.1.2.phi j)) else G.phim n j) ∧
        G'.pkm n = if seg then runSum rnd (G.pkm n) (A.map fun a =>
          rnd (rnd (a.1.2.N a.2 * a.1.2.m) * a.1.2.pk)) else G.pkm n by
    obtain ⟨k1, k2⟩ := key _ _ h'
    refine ⟨fun mp hmp => ?_, fun n => k2 n _ rfl⟩
    obtain ⟨x, hx, rfl⟩ := hp mp hmp
    exact k1 x hx
  intro l
  induction l with
  | nil =>
    intro G h
    cases h
    refine ⟨by simp, ?_⟩
    rintro n A rfl
    simp [runSum]
  | cons x l ih =>
    intro G h
    rw [List.foldlM_cons] at h
    obtain ⟨G1, h1, h2⟩ := res_bind_ok.1 h
    obtain ⟨i1, i2⟩ := ih G1 h2
    obtain ⟨p1, p2⟩ := p2gR_ok h1
    refine ⟨List.forall_mem_cons.2 ⟨p1, i1⟩, ?_⟩
    rintro n A rfl
    obtain ⟨a1, a2, a3, a4⟩ := i2 n _ rfl
    obtain ⟨b1, b2, b3, b4⟩ := p2 n
    rw [List.flatMap_cons]
    simp only [List.map_append, List.map_map, runSum_append]
    refine ⟨?_, fun k => ?_, fun j => ?_, ?_⟩
    · rw [a1, b1]; rfl
    · rw [a2, b2]; rfl
    · rw [a3, b3]; cases seg <;> rfl
    · rw [a4, b4]; cases seg <;> rfl

/-! ## Points before and after `get_basis_functions` -/

variable [FloorRing K]

/-- The value, or what was there before. -/
def okOr {α : Type} (r : Res α) (a : α) : α :=
  match r with
  | .ok b => b
  | .error _ => a

theorem okOr_of {α : Type} {r : Res α} {a b : α} (h : r = .ok b) : okOr r a = b := by rw [h]; rfl

theorem mapPoints_map {g : Particle K ns → Res (Particle K ns)} {L M : List (PhaseSt K ns)}
    (hL : Counted L) (h : mapPoints (fun _ _ mp => g mp) L = .ok M) :
    (M = L.map fun a => { a with pts := a.pts.map fun mp => okOr (g mp) mp }) ∧
      ∀ mp ∈ points L, g mp = .ok (okOr (g mp) mp) := by
  have hr := mapPoints_raw hL h
  clear h hL
  induction hr with
  | nil => exact ⟨rfl, by simp [points]⟩
  | @cons A B L M h _ ih =>
    obtain ⟨h1, h2⟩ := h
    have key : B.pts = A.pts.map (fun mp => okOr (g mp) mp) ∧
        ∀ mp ∈ A.pts, g mp = .ok (okOr (g mp) mp) := by
      clear ih h1
      generalize A.pts = l at h2 ⊢
      generalize B.pts = l' at h2 ⊢
      induction h2 with
      | nil => simp
      | cons h _ ih =>
        obtain ⟨_, h⟩ := h
        refine ⟨?_, List.forall_mem_cons.2 ⟨by rw [okOr_of h, h], ih.2⟩⟩
        rw [List.map_cons, ← ih.1, okOr_of h]
    refine ⟨?_, ?_⟩
    · rw [List.map_cons, ← ih.1, ← key.1, ← h1]
    · intro mp hmp
      rcases List.mem_append.1 (by simpa [points] using hmp : mp ∈ A.pts ++ points L) with h | h
      · exact key.2 mp h
      · exact ih.2 mp h

theorem items_map (f : Particle K ns → Particle K ns) (L : List (PhaseSt K ns)) :
    items (L.map fun a => { a with pts := a.pts.map f }) = (items L).map fun x => (x.1, f x.2) := by
  induction L with
  | nil => rfl
  | cons a L ih => rw [List.map_cons, items_cons, items_cons, List.map_append, ih]; simp

theorem arrivals_map {f : Particle K ns → Particle K ns} {L : List (PhaseSt K ns)}
    (hf : ∀ mp ∈ points L, (f mp).n_star = mp.n_star) (n : Fin N) :
    arrivals nx n (L.map fun a => { a with pts := a.pts.map f }) =
      (arrivals nx n L).map fun a => ((a.1.1, f a.1.2), a.2) := by
  unfold arrivals
  rw [items_map, List.map_flatMap, List.flatMap_map]
  refine List.flatMap_congr fun x hx => ?_
  have : landings nx n (f x.2) = landings nx n x.2 := by
    unfold landings
    rw [hf _ (mem_points_items hx)]
  rw [this, List.map_map]
  rfl

theorem mem_arrivals {n : Fin N} {L : List (PhaseSt K ns)}
    {a : (Phase K ns × Particle K ns) × Fin 4} (h : a ∈ arrivals nx n L) : a.1.2 ∈ points L := by
  obtain ⟨x, hx, h⟩ := List.mem_flatMap.1 h
  obtain ⟨r, _, rfl⟩ := List.mem_map.1 h
  exact mem_points_items hx

theorem basisR_ok {G : Grid K N ns} {mp b : Particle K ns} (h : mp.getBasisFunctionsR rnd G = .ok b) :
    ∃ i, pyIdx N mp.n_star = .ok i ∧ rnd (G.dx * G.dy) ≠ 0 ∧
      b = { mp with
        N := shapeNR rnd G.dx G.dy
          ![rnd (mp.x 0 - G.X i), rnd (mp.x 1 - G.Y i), rnd (mp.x 2 - 0)]
        Gs := shapeGR rnd G.dx G.dy
          ![rnd (mp.x 0 - G.X i), rnd (mp.x 1 - G.Y i), rnd (mp.x 2 - 0)] } := by
  unfold Particle.getBasisFunctionsR at h
  obtain ⟨i, hi, h⟩ := res_bind_ok.1 h
  refine ⟨i, hi, ?_⟩
  dsimp only at h
  split_ifs at h with hd
  cases h
  exact ⟨hd, rfl⟩

/-! ## Without rounding -/

/-- C137.  Without rounding these are the functions of the exact model. -/
theorem c137_exact (seg : Bool) (P : GP K) (L : List (PhaseSt K ns))
    (G : Grid K N ns) :
    getReferenceNodesR id P G L = getReferenceNodes P G L ∧
    getBasisFunctionsR id G L = getBasisFunctions G L ∧
    p2gAllR id nx seg L G = p2gAll nx seg L G := by
  refine ⟨rfl, ?_, rfl⟩
  have : ∀ dx dy (x : Vec K), shapeNR id dx dy x = shapeN dx dy x ∧
      shapeGR id dx dy x = shapeG dx dy x := by
    intro dx dy x
    constructor <;> funext r <;> fin_cases r <;> rfl
  unfold getBasisFunctionsR getBasisFunctions Particle.getBasisFunctionsR Particle.getBasisFunctions
  simp only [this, id]

/-- C137.  So are the coordinates of the nodes. -/
theorem c137_exact_grid {P : GP K} (hx : 2 ≤ P.nx) (hy : 2 ≤ P.ny) (B : BP K) :
    mkGridR id P B = mkGrid P B := by
  have key : ∀ (a b : K) (n i : ℕ), 2 ≤ n → linspaceR id a b n i = linspace a b n i := by
    intro a b n i hn
    unfold linspaceR linspace
    split_ifs with h
    · subst h
      have : (i : K) ≠ 0 := by
        have : 0 < i := by omega
        exact_mod_cast this.ne'
      have e : ((i + 1 : ℕ) : K) - 1 = i := by push_cast; ring
      rw [e]
      field_simp
      ring
    · simp only [id]; ring
  unfold mkGridR mkGrid gridDxR gridDyR
  rw [if_neg (by omega)]
  have e1 : gridXR id P = gridX P := funext fun n => key _ _ _ _ hx
  have e2 : gridYR id P = gridY P := funext fun n => key _ _ _ _ hy
  rw [e1, e2]
  simp only [key _ _ _ _ hx, key _ _ _ _ hy]
  rfl

/-! ## Weights -/

/-- C137.  In or near its cell the rounded weights of a point differ from the exact ones by seven
roundings of a number of size one. -/
theorem c137_weights (hr : Rounding rnd u) {G : Grid K N ns} (hdx : 0 < G.dx) (hdy : 0 < G.dy) {ε : K}
    {mp a b : Particle K ns} (hc : NearCell G ε mp) (ha : mp.getBasisFunctions G = .ok a)
    (hb : mp.getBasisFunctionsR rnd G = .ok b) (r : Fin 4) :
    |b.N r - a.N r| ≤ gam u 7 * (1 + ε) ^ 2 ∧ |a.N r| ≤ (1 + ε) ^ 2 := by
  suffices h : App u 7 ((1 + ε) ^ 2) (a.N r) (b.N r) from ⟨h.err, h.size⟩
  obtain ⟨i, hi, ⟨x1, x2⟩, y1, y2⟩ := hc
  obtain ⟨i', hi', -, rfl⟩ := getBasis_ok ha
  obtain ⟨i'', hi'', -, rfl⟩ := basisR_ok hb
  obtain rfl : i' = i := by rw [hi] at hi'; exact (Except.ok.inj hi').symm
  obtain rfl : i'' = i' := by rw [hi] at hi''; exact (Except.ok.inj hi'').symm
  have hε : 0 ≤ (1 + ε) := by
    have : 0 ≤ (1 + 2 * ε) * G.dx := by linarith
    have := nonneg_of_mul_nonneg_left this hdx
    linarith
  have cx : |mp.x 0 - G.X i''| ≤ (1 + ε) * G.dx := abs_le.2 ⟨by linarith, x2⟩
  have cy : |mp.x 1 - G.Y i''| ≤ (1 + ε) * G.dy := abs_le.2 ⟨by linarith, y2⟩
  have dx' : |G.dx - (mp.x 0 - G.X i'')| ≤ (1 + ε) * G.dx := abs_le.2 ⟨by linarith, by linarith⟩
  have dy' : |G.dy - (mp.x 1 - G.Y i'')| ≤ (1 + ε) * G.dy := abs_le.2 ⟨by linarith, by linarith⟩
  have ax := (App.exact (u := u) _ cx).round hr
  have ay := (App.exact (u := u) _ cy).round hr
  have bx := (ax.subFrom _ dx').round hr
  have bz := (ay.subFrom _ dy').round hr
  have hD : G.dx * G.dy ≠ 0 := (mul_pos hdx hdy).ne'
  have aD := App.inv hr hD
  have size : (1 + ε) * G.dx * ((1 + ε) * G.dy) * |(G.dx * G.dy)⁻¹| = (1 + ε) ^ 2 := by
    rw [abs_of_pos (inv_pos.2 (mul_pos hdx hdy))]
    field_simp
  have fin : ∀ {j k : ℕ} {p q p' q' : K}, App u j ((1 + ε) * G.dx) p q →
      App u k ((1 + ε) * G.dy) p' q' → j + k ≤ 4 →
      App u 7 ((1 + ε) ^ 2) (p * p' / (G.dx * G.dy)) (rnd (rnd (q * q') / rnd (G.dx * G.dy))) := by
    intro j k p q p' q' h h' hjk
    have := (((h.mul hr h').round hr).mul hr aD).round hr
    rw [size, ← div_eq_mul_inv, ← div_eq_mul_inv] at this
    exact this.weaken hr (by omega) le_rfl
  fin_cases r
  · exact fin bx bz (by norm_num)
  · exact fin ax bz (by norm_num)
  · exact fin ax ay (by norm_num)
  · exact fin bx ay (by norm_num)

/-- The weights of the rounded position relative to the reference node. -/
theorem weights_rel (hr : Rounding rnd u) {G : Grid K N ns} {mp b : Particle K ns}
    (hb : mp.getBasisFunctionsR rnd G = .ok b) :
    ∃ w : Fin 4 → K, (∑ r, w r = 1) ∧ (∀ r, App u 5 |w r| (w r) (b.N r)) ∧
      ∃ i, pyIdx N mp.n_star = .ok i ∧ ∑ r, |w r| =
        (|1 - rnd (mp.x 0 - G.X i) / G.dx| + |rnd (mp.x 0 - G.X i) / G.dx|) *
        (|1 - rnd (mp.x 1 - G.Y i) / G.dy| + |rnd (mp.x 1 - G.Y i) / G.dy|) := by
  obtain ⟨i, hi, hd, rfl⟩ := basisR_ok hb
  have hD : G.dx * G.dy ≠ 0 := hr.ne_zero.1 hd
  obtain ⟨hdx, hdy⟩ := mul_ne_zero_iff.1 hD
  set x := rnd (mp.x 0 - G.X i)
  set y := rnd (mp.x 1 - G.Y i)
  refine ⟨shapeN G.dx G.dy ![x, y, 0], ?_, ?_, i, hi, ?_⟩
  · rw [Fin.sum_univ_four]
    simp only [shapeN, Matrix.cons_val_zero, Matrix.cons_val_one]
    field_simp
    ring
  · have aD := App.inv hr hD
    have fin : ∀ {j k : ℕ} {p q p' q' : K}, App u j |p| p q → App u k |p'| p' q' → j + k ≤ 2 →
        App u 5 |p * p' / (G.dx * G.dy)| (p * p' / (G.dx * G.dy))
          (rnd (rnd (q * q') / rnd (G.dx * G.dy))) := by
      intro j k p q p' q' h h' hjk
      have := (((h.mul hr h').round hr).mul hr aD).round hr
      rw [← abs_mul, ← abs_mul, ← div_eq_mul_inv, ← div_eq_mul_inv] at this
      exact this.weaken hr (by omega) le_rfl
    have e : ∀ z : K, App u 0 |z| z z := fun z => App.exact z le_rfl
    intro r
    fin_cases r
    · exact fin ((e _).round hr) ((e _).round hr) (by norm_num)
    · exact fin (e _) ((e _).round hr) (by norm_num)
    · exact fin (e _) (e _) (by norm_num)
    · exact fin ((e _).round hr) (e _) (by norm_num)
  · rw [Fin.sum_univ_four]
    simp only [shapeN, Matrix.cons_val_zero, Matrix.cons_val_one]
    have e : ∀ p q : K, |p * q / (G.dx * G.dy)| = |p / G.dx| * |q / G.dy| := by
      intro p q
      rw [← abs_mul, div_mul_div_comm]
    rw [e, e, e, e, sub_div, sub_div, div_self hdx, div_self hdy]
    ring

/-! ## Nodes -/

theorem runSum_id (a : K) (l : List K) : runSum id a l = a + l.sum := by
  induction l generalizing a with
  | nil => simp [runSum]
  | cons x l ih => rw [List.sum_cons, ← add_assoc]; exact ih (a + x)

theorem basis_star {G : Grid K N ns} {mp b : Particle K ns} (h : mp.getBasisFunctions G = .ok b) :
    b.n_star = mp.n_star ∧ b.m = mp.m ∧ b.v = mp.v ∧ b.phi = mp.phi ∧ b.pk = mp.pk := by
  obtain ⟨_, _, _, rfl⟩ := getBasis_ok h
  exact ⟨rfl, rfl, rfl, rfl, rfl⟩

theorem basisR_star {G : Grid K N ns} {mp b : Particle K ns}
    (h : mp.getBasisFunctionsR rnd G = .ok b) :
    b.n_star = mp.n_star ∧ b.m = mp.m ∧ b.v = mp.v ∧ b.phi = mp.phi ∧ b.pk = mp.pk := by
  obtain ⟨_, _, _, rfl⟩ := basisR_ok h
  exact ⟨rfl, rfl, rfl, rfl, rfl⟩

/-- C137.  The rounded and the exact mapping of the same points from the same reference nodes: what
arrives at a node differs by eight roundings for the mass, nine for the momentum, and one more for
every contribution to that node, relative to the total of the points around the node. -/
theorem c137_nodes (hr : Rounding rnd u) {seg : Bool} {L M M' : List (PhaseSt K ns)} (hL : Counted L)
    {G₀ G H H' : Grid K N ns} (hdx : 0 < G₀.dx) (hdy : 0 < G₀.dy) {ε : K}
    (hc : ∀ mp ∈ points L, NearCell G₀ ε mp)
    (h1 : getBasisFunctions G₀ L = .ok M) (h2 : p2gAll nx seg M G = .ok H)
    (h1' : getBasisFunctionsR rnd G₀ L = .ok M') (h2' : p2gAllR rnd nx seg M' G = .ok H')
    (n : Fin N) :
    (G.m n = 0 → |H'.m n - H.m n| ≤ gam u (8 + (arrivals nx n L).length) *
      ((1 + ε) ^ 2 * ((arrivals nx n L).map fun a => |a.1.2.m|).sum)) ∧
    (∀ k, G.q n k = 0 → |H'.q n k - H.q n k| ≤ gam u (9 + (arrivals nx n L).length) *
      ((1 + ε) ^ 2 * ((arrivals nx n L).map fun a => |a.1.2.m * a.1.2.v.get a.1.1.iv k|).sum)) ∧
    (seg = true → ∀ j, G.phim n j = 0 → |H'.phim n j - H.phim n j| ≤
      gam u (9 + (arrivals nx n L).length) *
        ((1 + ε) ^ 2 * ((arrivals nx n L).map fun a => |a.1.2.m * a.1.2.phi j|).sum)) ∧
    (seg = true → G.pkm n = 0 → |H'.pkm n - H.pkm n| ≤
      gam u (9 + (arrivals nx n L).length) *
        ((1 + ε) ^ 2 * ((arrivals nx n L).map fun a => |a.1.2.m * a.1.2.pk|).sum)) := by
  obtain ⟨rfl, g1⟩ := mapPoints_map hL h1
  obtain ⟨rfl, g2⟩ := mapPoints_map hL h1'
  have cM : ∀ f : Particle K ns → Particle K ns,
      Counted (L.map fun a => { a with pts := a.pts.map f }) := by
    intro f a ha
    obtain ⟨b, hb, rfl⟩ := List.mem_map.1 ha
    simpa using hL b hb
  have h2i : p2gAllR id nx seg _ G = .ok H := h2
  obtain ⟨-, s1⟩ := c137_sum (cM _) h2i
  obtain ⟨-, s2⟩ := c137_sum (cM _) h2'
  obtain ⟨a1, a2, a3, a4⟩ := s1 n
  obtain ⟨b1, b2, b3, b4⟩ := s2 n
  rw [arrivals_map (fun mp hmp => (basis_star (g1 mp hmp)).1)] at a1 a2 a3 a4
  rw [arrivals_map (fun mp hmp => (basisR_star (g2 mp hmp)).1)] at b1 b2 b3 b4
  simp only [List.map_map, runSum_id] at a1 a2 a3 a4
  simp only [List.map_map] at b1 b2 b3 b4
  -- one contribution
  have w : ∀ a ∈ arrivals nx n L, App u 7 ((1 + ε) ^ 2)
      ((okOr (a.1.2.getBasisFunctions G₀) a.1.2).N a.2)
      ((okOr (a.1.2.getBasisFunctionsR rnd G₀) a.1.2).N a.2) := by
    intro a ha
    have hm := mem_arrivals ha
    have := c137_weights hr hdx hdy (hc _ hm) (g1 _ hm) (g2 _ hm) a.2
    exact ⟨this.2, this.1⟩
  have wm : ∀ a ∈ arrivals nx n L, App u 8 ((1 + ε) ^ 2 * |a.1.2.m|)
      ((okOr (a.1.2.getBasisFunctions G₀) a.1.2).N a.2 *
        (okOr (a.1.2.getBasisFunctions G₀) a.1.2).m)
      (rnd ((okOr (a.1.2.getBasisFunctionsR rnd G₀) a.1.2).N a.2 *
        (okOr (a.1.2.getBasisFunctionsR rnd G₀) a.1.2).m)) := by
    intro a ha
    have hm := mem_arrivals ha
    rw [(basis_star (g1 _ hm)).2.1, (basisR_star (g2 _ hm)).2.1]
    exact ((w a ha).mul hr (App.exact a.1.2.m le_rfl)).round hr
  have wz : ∀ (z z1 z2 : (Phase K ns × Particle K ns) × Fin 4 → K),
      (∀ a ∈ arrivals nx n L, z1 a = z a ∧ z2 a = z a) →
      ∀ a ∈ arrivals nx n L, App u 9 ((1 + ε) ^ 2 * |a.1.2.m * z a|)
        ((okOr (a.1.2.getBasisFunctions G₀) a.1.2).N a.2 *
          (okOr (a.1.2.getBasisFunctions G₀) a.1.2).m * z1 a)
        (rnd (rnd ((okOr (a.1.2.getBasisFunctionsR rnd G₀) a.1.2).N a.2 *
          (okOr (a.1.2.getBasisFunctionsR rnd G₀) a.1.2).m) * z2 a)) := by
    intro z z1 z2 hz a ha
    rw [(hz a ha).1, (hz a ha).2, abs_mul, ← mul_assoc]
    exact ((wm a ha).mul hr (App.exact (z a) le_rfl)).round hr
  have total : ∀ {k : ℕ} (c e v : (Phase K ns × Particle K ns) × Fin 4 → K),
      (∀ a ∈ arrivals nx n L, App u k ((1 + ε) ^ 2 * c a) (e a) (v a)) →
      |runSum rnd 0 ((arrivals nx n L).map v) - (0 + ((arrivals nx n L).map e).sum)| ≤
        gam u (k + (arrivals nx n L).length) *
          ((1 + ε) ^ 2 * ((arrivals nx n L).map c).sum) := by
    intro k c e v h
    have := (App.runSum hr _ h le_rfl
      ((App.exact (u := u) (0 : K) (by simp : |(0 : K)| ≤ 0)).weaken hr (Nat.zero_le k) le_rfl)).err
    rw [zero_add, List.sum_map_mul_left, zero_add] at this
    rw [zero_add]
    exact this
  refine ⟨fun h0 => ?_, fun k h0 => ?_, fun hs j h0 => ?_, fun hs h0 => ?_⟩
  · rw [a1, b1, h0]
    exact total _ _ _ wm
  · rw [a2, b2, h0]
    exact total _ _ _ (wz (fun a => a.1.2.v.get a.1.1.iv k) _ _ fun a ha => by
      have hm := mem_arrivals ha
      exact ⟨by rw [(basis_star (g1 _ hm)).2.2.1], by rw [(basisR_star (g2 _ hm)).2.2.1]⟩)
  · rw [a3, b3, h0, if_pos hs, if_pos hs]
    exact total _ _ _ (wz (fun a => a.1.2.phi j) _ _ fun a ha => by
      have hm := mem_arrivals ha
      exact ⟨by rw [(basis_star (g1 _ hm)).2.2.2.1], by rw [(basisR_star (g2 _ hm)).2.2.2.1]⟩)
  · rw [a4, b4, h0, if_pos hs, if_pos hs]
    exact total _ _ _ (wz (fun a => a.1.2.pk) _ _ fun a ha => by
      have hm := mem_arrivals ha
      exact ⟨by rw [(basis_star (g1 _ hm)).2.2.2.2], by rw [(basisR_star (g2 _ hm)).2.2.2.2]⟩)

/-! ## Totals -/

theorem landings_sum {mp : Particle K ns} (h : NodesOk nx N mp) (f : Fin 4 → K) :
    ∑ n : Fin N, ((landings nx n mp).map f).sum = ∑ r, f r := by
  obtain ⟨nd, hnd⟩ := nodesOk_iff.1 h
  have e : ∀ n, ((landings nx n mp).map f).sum = ∑ r, if nd r = n then f r else 0 := by
    intro n
    rw [landings_eq hnd, Fin.sum_univ_four]
    simp only [List.sum_append]
    congr 1
    · congr 1
      · congr 1 <;> split_ifs <;> simp
      · split_ifs <;> simp
    · split_ifs <;> simp
  simp only [e]
  rw [Finset.sum_comm]
  simp

theorem arrivals_sum {L : List (PhaseSt K ns)} (h : ∀ mp ∈ points L, NodesOk nx N mp)
    (f : (Phase K ns × Particle K ns) × Fin 4 → K) :
    ∑ n : Fin N, ((arrivals nx n L).map f).sum = ((items L).map fun x => ∑ r, f (x, r)).sum := by
  unfold arrivals
  have h' : ∀ x ∈ items L, NodesOk nx N x.2 := fun x hx => h _ (mem_points_items hx)
  clear h
  generalize items L = l at h' ⊢
  induction l with
  | nil => simp
  | cons x l ih =>
    simp only [List.flatMap_cons, List.map_append, List.sum_append, List.map_cons, List.sum_cons]
    rw [Finset.sum_add_distrib, ih fun y hy => h' y (List.mem_cons_of_mem _ hy)]
    congr 1
    simp only [List.map_map]
    exact landings_sum (h' x List.mem_cons_self) fun r => f (x, r)

theorem near_size (hr : Rounding rnd u) {ε d z : K} (hd : 0 < d) (hε : 0 ≤ ε) (h1 : -(ε * d) ≤ z)
    (h2 : z ≤ (1 + ε) * d) : |1 - rnd z / d| + |rnd z / d| ≤ (1 + 2 * u) * (1 + 2 * ε) := by
  have e : rnd z / d = z / d + (rnd z - z) / d := by rw [sub_div]; ring
  have hz1 : -ε ≤ z / d := by rw [le_div_iff₀ hd]; linarith
  have hz2 : z / d ≤ 1 + ε := by rw [div_le_iff₀ hd]; exact h2
  have hs : |z / d| ≤ 1 + ε := abs_le.2 ⟨by linarith, hz2⟩
  have hb : |1 - z / d| + |z / d| ≤ 1 + 2 * ε := by
    rcases abs_cases (1 - z / d) with h | h <;> rcases abs_cases (z / d) with h' | h' <;> linarith
  have hδ : |(rnd z - z) / d| ≤ u * (1 + ε) := by
    rw [abs_div, abs_of_pos hd, div_le_iff₀ hd]
    have : |z| ≤ (1 + ε) * d := by
      rw [abs_div, abs_of_pos hd, div_le_iff₀ hd] at hs
      exact hs
    have := mul_le_mul_of_nonneg_left this hr.nonneg
    linarith [hr.err z]
  rw [e]
  have t1 := abs_add_le (z / d) ((rnd z - z) / d)
  have t2 := abs_sub_le (1 - z / d - (rnd z - z) / d) (1 - z / d) 0
  rw [sub_zero, sub_zero] at t2
  have t3 : |1 - z / d - (rnd z - z) / d - (1 - z / d)| = |(rnd z - z) / d| := by
    rw [sub_sub_cancel_left, abs_neg]
  rw [t3] at t2
  have t4 : 1 - (z / d + (rnd z - z) / d) = 1 - z / d - (rnd z - z) / d := by ring
  rw [t4]
  have : 0 ≤ u * ε := mul_nonneg hr.nonneg hε
  nlinarith

/-- C137.  Rounding does not lose or create more mass and momentum than `6 + h` (`7 + h`) roundings of
the total, where at most `h` contributions go to any one node. -/
theorem c137_total (hr : Rounding rnd u) {seg : Bool} {L M : List (PhaseSt K ns)} (hL : Counted L)
    {G₀ G H : Grid K N ns} (hdx : 0 < G₀.dx) (hdy : 0 < G₀.dy) {ε : K} (hε : 0 ≤ ε)
    (hc : ∀ mp ∈ points L, NearCell G₀ ε mp)
    (h1 : getBasisFunctionsR rnd G₀ L = .ok M) (h2 : p2gAllR rnd nx seg M G = .ok H)
    {h : ℕ} (hh : ∀ n : Fin N, (arrivals nx n L).length ≤ h) :
    ((∀ n, G.m n = 0) → |∑ n, H.m n - ((items L).map fun x => x.2.m).sum| ≤ gam u (6 + h) *
      (((1 + 2 * u) * (1 + 2 * ε)) ^ 2 * ((items L).map fun x => |x.2.m|).sum)) ∧
    (∀ k, (∀ n, G.q n k = 0) →
      |∑ n, H.q n k - ((items L).map fun x => x.2.m * x.2.v.get x.1.iv k).sum| ≤ gam u (7 + h) *
        (((1 + 2 * u) * (1 + 2 * ε)) ^ 2 *
          ((items L).map fun x => |x.2.m * x.2.v.get x.1.iv k|).sum)) := by
  obtain ⟨rfl, g⟩ := mapPoints_map hL h1
  have cM : ∀ f : Particle K ns → Particle K ns,
      Counted (L.map fun a => { a with pts := a.pts.map f }) := by
    intro f a ha
    obtain ⟨b, hb, rfl⟩ := List.mem_map.1 ha
    simpa using hL b hb
  obtain ⟨s0, s⟩ := c137_sum (cM _) h2
  have nodes : ∀ mp ∈ points L, NodesOk nx N mp := by
    intro mp hmp
    obtain ⟨a, ha, hm⟩ := List.mem_flatMap.1 hmp
    have := s0 (okOr (mp.getBasisFunctionsR rnd G₀) mp) (List.mem_flatMap.2
      ⟨_, List.mem_map.2 ⟨a, ha, rfl⟩, List.mem_map.2 ⟨mp, hm, rfl⟩⟩)
    unfold NodesOk at this ⊢
    rw [(basisR_star (g mp hmp)).1] at this
    exact this
  clear s0
  have hw : ∀ mp : Particle K ns, ∃ w : Fin 4 → K, mp ∈ points L → (∑ r, w r = 1) ∧
      (∑ r, |w r| ≤ ((1 + 2 * u) * (1 + 2 * ε)) ^ 2) ∧
      ∀ r, App u 5 |w r| (w r) ((okOr (mp.getBasisFunctionsR rnd G₀) mp).N r) := by
    intro mp
    by_cases hmp : mp ∈ points L
    · obtain ⟨w, w1, w2, i, hi, w3⟩ := weights_rel hr (g mp hmp)
      refine ⟨w, fun _ => ⟨w1, ?_, w2⟩⟩
      obtain ⟨i', hi', ⟨x1, x2⟩, y1, y2⟩ := hc mp hmp
      obtain rfl : i' = i := by rw [hi] at hi'; exact (Except.ok.inj hi').symm
      rw [w3, pow_two]
      have ex := near_size hr hdx hε x1 x2
      have ey := near_size hr hdy hε y1 y2
      refine mul_le_mul ex ey (by positivity) ?_
      exact le_trans (by positivity) ex
    · exact ⟨0, fun h => absurd h hmp⟩
  choose w hw using hw
  have key : ∀ {k : ℕ} (z zM : (Phase K ns × Particle K ns) × Fin 4 → K)
      (zx : Phase K ns × Particle K ns → K) (F F₀ : Fin N → K), (∀ n, F₀ n = 0) →
      (∀ x r, z (x, r) = zx x) →
      (∀ n, F n = runSum rnd (F₀ n) ((arrivals nx n L).map zM)) →
      (∀ n : Fin N, ∀ a ∈ arrivals nx n L, App u k |w a.1.2 a.2 * z a| (w a.1.2 a.2 * z a) (zM a)) →
      |∑ n, F n - ((items L).map zx).sum| ≤ gam u (k + h) *
        (((1 + 2 * u) * (1 + 2 * ε)) ^ 2 * ((items L).map fun x => |zx x|).sum) := by
    intro k z zM zx F F₀ hF hz hs ha
    have e1 : ((items L).map zx).sum =
        ∑ n : Fin N, ((arrivals nx n L).map fun a => w a.1.2 a.2 * z a).sum := by
      rw [arrivals_sum nodes]
      refine congrArg List.sum (List.map_congr_left fun x hx => ?_)
      simp only [hz]
      rw [← Finset.sum_mul, (hw _ (mem_points_items hx)).1, one_mul]
    have e2 : ∑ n : Fin N, ((arrivals nx n L).map fun a => |w a.1.2 a.2 * z a|).sum ≤
        ((1 + 2 * u) * (1 + 2 * ε)) ^ 2 * ((items L).map fun x => |zx x|).sum := by
      rw [arrivals_sum nodes, ← List.sum_map_mul_left]
      refine List.sum_le_sum fun x hx => ?_
      simp only [hz, abs_mul]
      rw [← Finset.sum_mul]
      exact mul_le_mul_of_nonneg_right (hw _ (mem_points_items hx)).2.1 (abs_nonneg _)
    rw [e1, ← Finset.sum_sub_distrib]
    refine (Finset.abs_sum_le_sum_abs _ _).trans ?_
    have hg := gam_nonneg hr.nonneg hr.lt_one (k + h)
    refine le_trans ?_ (mul_le_mul_of_nonneg_left e2 hg)
    rw [Finset.mul_sum]
    refine Finset.sum_le_sum fun n _ => ?_
    have := (App.runSum hr _ (ha n) le_rfl
      ((App.exact (u := u) (0 : K) (by simp : |(0 : K)| ≤ 0)).weaken hr (Nat.zero_le k) le_rfl))
    have := (this.weaken hr (Nat.add_le_add_left (hh n) k) le_rfl).err
    rw [zero_add, zero_add] at this
    rw [hs, hF]
    exact this
  have wm : ∀ n : Fin N, ∀ a ∈ arrivals nx n L, App u 6 |w a.1.2 a.2 * a.1.2.m|
      (w a.1.2 a.2 * a.1.2.m)
      (rnd ((okOr (a.1.2.getBasisFunctionsR rnd G₀) a.1.2).N a.2 *
        (okOr (a.1.2.getBasisFunctionsR rnd G₀) a.1.2).m)) := by
    intro n a ha
    have hm := mem_arrivals ha
    rw [(basisR_star (g _ hm)).2.1, abs_mul]
    exact (((hw _ hm).2.2 a.2).mul hr (App.exact a.1.2.m le_rfl)).round hr
  have sm := fun n => (s n).1
  have sq := fun n => (s n).2.1
  simp only [arrivals_map (fun mp hmp => (basisR_star (g mp hmp)).1), List.map_map] at sm sq
  refine ⟨fun h0 => ?_, fun k h0 => ?_⟩
  · exact key (fun a => a.1.2.m) _ (fun x => x.2.m) H.m G.m h0 (fun _ _ => rfl) sm wm
  · refine key (fun a => a.1.2.m * a.1.2.v.get a.1.1.iv k) _ (fun x => x.2.m * x.2.v.get x.1.iv k)
      (fun n => H.q n k) (fun n => G.q n k) h0 (fun _ _ => rfl) (fun n => sq n k) ?_
    intro n a ha
    have hm := mem_arrivals ha
    have := ((wm n a ha).mul hr (App.exact (a.1.2.v.get a.1.1.iv k) le_rfl)).round hr
    rw [← abs_mul, mul_assoc] at this
    show App u 7 _ _ (rnd (rnd ((okOr (a.1.2.getBasisFunctionsR rnd G₀) a.1.2).N a.2 *
      (okOr (a.1.2.getBasisFunctionsR rnd G₀) a.1.2).m) *
        (okOr (a.1.2.getBasisFunctionsR rnd G₀) a.1.2).v.get a.1.1.iv k))
    rw [(basisR_star (g _ hm)).2.2.1]
    exact this

/-! ## Reference nodes -/

theorem Spec.Rounding.zero (hr : Rounding rnd u) : rnd 0 = 0 := by
  have := hr.err 0
  rw [sub_zero, abs_zero, mul_zero] at this
  exact abs_eq_zero.1 (le_antisymm this (abs_nonneg _))

/-- The nodes of one axis that starts at zero. -/
theorem axis (hr : Rounding rnd u) {b : K} (hb : 0 < b) (hf : rnd b = b) {n : ℕ} (hn : 2 ≤ n) :
    ∃ d, d = rnd (linspaceR rnd 0 b n 1 - linspaceR rnd 0 b n 0) ∧ 0 < d ∧
      (∀ i < n, |linspaceR rnd 0 b n i - i * d| ≤ gam u 1 * (i * d)) ∧
      b ≤ (1 + gam u 1) * (((n : K) - 1) * d) := by
  have hn1 : (0 : K) < (n : K) - 1 := by
    have : (2 : K) ≤ n := by exact_mod_cast hn
    linarith
  have hu := hr.lt_one
  have e0 : linspaceR rnd 0 b n 0 = 0 := by
    unfold linspaceR
    rw [if_neg (by omega)]
    simp [hr.zero]
  set s := rnd (b / ((n : K) - 1)) with hs
  have es : rnd (rnd (b - 0) / ((n : K) - 1)) = s := by rw [sub_zero, hf]
  have hq : 0 < b / ((n : K) - 1) := div_pos hb hn1
  have hsl := hr.lower hq.le
  have s0 : 0 < s := by
    have := mul_pos hu hq
    linarith [hsl.1]
  have ed : rnd (linspaceR rnd 0 b n 1 - linspaceR rnd 0 b n 0) = s := by
    rw [e0, sub_zero]
    unfold linspaceR
    split_ifs with h
    · have : ((n : K) - 1) = 1 := by rw [← h]; norm_num
      rw [hs, this, div_one]
    · rw [es]
      simp only [Nat.cast_one, one_mul, add_zero]
      rw [hs, hr.fix, hr.fix, hr.fix]
  have hbd : (1 - u) * b ≤ ((n : K) - 1) * s := by
    have e : b = (b / ((n : K) - 1)) * ((n : K) - 1) := by field_simp
    have := mul_le_mul_of_nonneg_right hsl.1 hn1.le
    rw [e]
    linarith
  have g1 : 1 + gam u 1 = 1 / (1 - u) := by unfold gam; rw [pow_one]; ring
  have hb2 : b ≤ (1 + gam u 1) * (((n : K) - 1) * s) := by
    rw [g1, one_div, ← div_eq_inv_mul, le_div_iff₀ hu]
    linarith
  refine ⟨s, ed.symm, s0, fun i hi => ?_, hb2⟩
  have his : 0 ≤ (i : K) * s := mul_nonneg (Nat.cast_nonneg _) s0.le
  unfold linspaceR
  split_ifs with h
  · have e : ((n : K) - 1) = i := by rw [← h]; push_cast; ring
    rw [e] at hbd hb2
    have hup := mul_le_mul_of_nonneg_right hsl.2.1 hn1.le
    have eb : (b / ((n : K) - 1)) * ((n : K) - 1) = b := by field_simp
    have hup' : (i : K) * s ≤ b + u * b := by
      rw [← e]
      have : (b / ((n : K) - 1) + u * (b / ((n : K) - 1))) * ((n : K) - 1) = b + u * b := by
        rw [add_mul, mul_assoc, eb]
      linarith
    have hub : u * b ≤ gam u 1 * (i * s) := by
      have := mul_le_mul_of_nonneg_left hb2 hr.nonneg
      have e2 : u * ((1 + gam u 1) * (i * s)) = gam u 1 * (i * s) := by
        rw [g1]; unfold gam; rw [pow_one]; field_simp; ring
      linarith
    rw [abs_le]
    constructor <;> linarith
  · rw [es, add_zero, hr.fix]
    have := hr.err ((i : K) * s)
    rw [abs_of_nonneg his] at this
    exact this.trans (mul_le_mul_of_nonneg_right (le_gam_one hr.nonneg hu) his)

/-- The reference node of one coordinate. -/
theorem axis_index (hr : Rounding rnd u) {b : K} (hb : 0 < b) (hf : rnd b = b) {n : ℕ} (hn : 2 ≤ n)
    {ε : K} (hε : gam u 4 * n ≤ ε) (h1 : ε < 1) {x d : K}
    (hd : d = rnd (linspaceR rnd 0 b n 1 - linspaceR rnd 0 b n 0)) (x0 : 0 ≤ x) (xb : x ≤ b) :
    0 < d ∧ ∃ i : ℕ, pyTrunc (rnd (rnd (x - 0) / d)) = i ∧ i < n ∧
      -(ε * d) ≤ x - linspaceR rnd 0 b n i ∧ x - linspaceR rnd 0 b n i ≤ (1 + ε) * d := by
  obtain ⟨d', hd', d0, hX, hbd⟩ := axis hr hb hf hn
  obtain rfl : d = d' := hd.trans hd'.symm
  refine ⟨d0, ?_⟩
  rw [sub_zero]
  have hu := hr.lt_one
  have hn0 : (0 : K) ≤ (n : K) - 1 := by
    have : (2 : K) ≤ n := by exact_mod_cast hn
    linarith
  set q := rnd (rnd x / d) with hq
  have xd : 0 ≤ x / d := div_nonneg x0 d0.le
  have aq : App u 2 (x / d) (x / d) q := by
    have a1 : App u 1 x x (rnd x) := (App.exact x (abs_of_nonneg x0).le).round hr
    have a2 := (a1.mul hr (App.exact d⁻¹ (abs_of_nonneg (inv_nonneg.2 d0.le)).le)).round hr
    rw [← div_eq_mul_inv, ← div_eq_mul_inv] at a2
    exact a2
  have g2 := gam_nonneg hr.nonneg hu 2
  have g1 := gam_nonneg hr.nonneg hu 1
  have q0 : 0 ≤ q := (hr.lower (div_nonneg (hr.lower x0).2.2 d0.le)).2.2
  have aqd : |q * d - x| ≤ gam u 2 * x := by
    have := mul_le_mul_of_nonneg_right aq.err d0.le
    rw [← abs_of_pos d0, ← abs_mul, abs_of_pos d0, sub_mul, div_mul_cancel₀ _ d0.ne', mul_assoc,
      div_mul_cancel₀ _ d0.ne'] at this
    exact this
  obtain ⟨l1, l2⟩ := abs_le.1 aqd
  have xle : x ≤ (1 + gam u 1) * (((n : K) - 1) * d) := xb.trans hbd
  have nd0 : 0 ≤ ((n : K) - 1) * d := mul_nonneg hn0 d0.le
  have e3 := gam_add hu 1 2
  have e4 := gam_add hu 1 3
  have g3 := gam_nonneg hr.nonneg hu 3
  -- everything is smaller than the tolerance
  have key4 : gam u 4 * (((n : K) - 1) * d) ≤ ε * d :=
    calc gam u 4 * (((n : K) - 1) * d) ≤ gam u 4 * (n * d) :=
          mul_le_mul_of_nonneg_left (mul_le_mul_of_nonneg_right (by linarith) d0.le)
            (gam_nonneg hr.nonneg hu 4)
      _ = gam u 4 * n * d := by ring
      _ ≤ ε * d := mul_le_mul_of_nonneg_right hε d0.le
  have key : gam u 3 * x ≤ ε * d :=
    calc gam u 3 * x ≤ gam u 3 * ((1 + gam u 1) * (((n : K) - 1) * d)) :=
          mul_le_mul_of_nonneg_left xle g3
      _ = (gam u 4 - gam u 1) * (((n : K) - 1) * d) := by rw [← e4]; ring
      _ ≤ gam u 4 * (((n : K) - 1) * d) := mul_le_mul_of_nonneg_right (by linarith) nd0
      _ ≤ ε * d := key4
  have i0 : 0 ≤ ⌊q⌋ := Int.floor_nonneg.2 q0
  obtain ⟨i, hi⟩ := Int.eq_ofNat_of_zero_le i0
  have f1 : (i : K) ≤ q := by
    have := Int.floor_le q
    rw [hi] at this
    exact_mod_cast this
  have f2 : q < i + 1 := by
    have := Int.lt_floor_add_one q
    rw [hi] at this
    exact_mod_cast this
  have id0 : 0 ≤ (i : K) * d := mul_nonneg (Nat.cast_nonneg _) d0.le
  have f1d := mul_le_mul_of_nonneg_right f1 d0.le
  have f2d := mul_lt_mul_of_pos_right f2 d0
  have e3x : gam u 1 * x + gam u 2 * x + gam u 1 * (gam u 2 * x) = gam u 3 * x := by
    rw [← e3]; ring
  have m2 : 0 ≤ gam u 2 * x := mul_nonneg g2 x0
  have m12 : 0 ≤ gam u 1 * (gam u 2 * x) := mul_nonneg g1 m2
  have m1 : 0 ≤ gam u 1 * x := mul_nonneg g1 x0
  have hin : i < n := by
    by_contra hc
    have hc' : (n : K) ≤ i := by exact_mod_cast not_lt.1 hc
    have h5 := mul_le_mul_of_nonneg_right hc' d0.le
    have h6 : ε * d < 1 * d := mul_lt_mul_of_pos_right h1 d0
    have h7 : x + gam u 2 * x ≤ ((n : K) - 1) * d + gam u 4 * (((n : K) - 1) * d) :=
      calc x + gam u 2 * x = (1 + gam u 2) * x := by ring
        _ ≤ (1 + gam u 2) * ((1 + gam u 1) * (((n : K) - 1) * d)) :=
          mul_le_mul_of_nonneg_left xle (by linarith)
        _ = ((n : K) - 1) * d + gam u 3 * (((n : K) - 1) * d) := by rw [← e3]; ring
        _ ≤ _ := add_le_add_right
          (mul_le_mul_of_nonneg_right (gam_mono hr.nonneg hu (by omega : 3 ≤ 4)) nd0) _
    have h8 : ((n : K) - 1) * d = n * d - d := by ring
    linarith
  refine ⟨i, ?_, hin, ?_⟩
  · unfold pyTrunc
    rw [if_pos q0, hi]
  · obtain ⟨k1, k2⟩ := abs_le.1 (hX i hin)
    have hid : gam u 1 * (i * d) ≤ gam u 1 * (x + gam u 2 * x) :=
      mul_le_mul_of_nonneg_left (by linarith) g1
    rw [mul_add] at hid
    have e5 : (1 + ε) * d = d + ε * d := by ring
    have e6 : ((i : K) + 1) * d = i * d + d := by ring
    rw [e5]
    rw [e6] at f2d
    constructor <;> linarith

/-- C137.  On a grid with the origin in its corner, the point is in the cell of its rounded reference
node up to the fraction `1/(1-u)^4 - 1` times the number of nodes, and the reference node is a
node of the grid; its column may be the last one. -/
theorem c137_cell (hr : Rounding rnd u) {P : GP K} (hx0 : P.x_m = 0) (hy0 : P.y_m = 0)
    (hnx : 2 ≤ P.nx) (hny : 2 ≤ P.ny) (hX : 0 < P.x_M) (hY : 0 < P.y_M) (fX : rnd P.x_M = P.x_M)
    (fY : rnd P.y_M = P.y_M) {ε : K} (hεx : gam u 4 * P.nx ≤ ε) (hεy : gam u 4 * P.ny ≤ ε) (h1 : ε < 1)
    {B : BP K} {G : Grid K P.N P.ns} (hG : mkGridR rnd P B = .ok G) {mp : Particle K P.ns}
    (x0 : 0 ≤ mp.x 0) (x1 : mp.x 0 ≤ P.x_M) (y0 : 0 ≤ mp.x 1) (y1 : mp.x 1 ≤ P.y_M) :
    0 < G.dx ∧ 0 < G.dy ∧ ∃ mp', mp.getReferenceNodeR rnd P G.dx G.dy = .ok mp' ∧
      mp' = { mp with n_star := mp'.n_star } ∧ NearCell G ε mp' ∧
      ∃ i j : ℕ, mp'.n_star = i + j * P.nx ∧ i < P.nx ∧ j < P.ny := by
  have hG' : G.dx = gridDxR rnd P ∧ G.dy = gridDyR rnd P ∧ G.X = gridXR rnd P ∧
      G.Y = gridYR rnd P := by
    unfold mkGridR at hG
    obtain ⟨G', _, h⟩ := res_bind_ok.1 hG
    cases h
    exact ⟨rfl, rfl, rfl, rfl⟩
  obtain ⟨edx, edy, eX, eY⟩ := hG'
  unfold gridDxR at edx
  unfold gridDyR at edy
  rw [hx0] at edx
  rw [hy0] at edy
  obtain ⟨dx0, i, ei, hi, lx⟩ := axis_index hr hX fX hnx hεx h1 edx x0 x1
  obtain ⟨dy0, j, ej, hj, ly⟩ := axis_index hr hY fY hny hεy h1 edy y0 y1
  refine ⟨dx0, dy0, { mp with n_star := (i : ℤ) + j * P.nx }, ?_, rfl, ?_, i, j, rfl, hi, hj⟩
  · unfold Particle.getReferenceNodeR
    rw [if_neg (by rintro (h | h) <;> linarith), hx0, hy0, ei, ej]
  · have hlt : i + j * P.nx < P.ny * P.nx := by
      calc i + j * P.nx < P.nx + j * P.nx := by omega
        _ = (j + 1) * P.nx := by ring
        _ ≤ P.ny * P.nx := Nat.mul_le_mul_right _ hj
    refine ⟨⟨i + j * P.nx, hlt⟩, ?_, ?_, ?_⟩
    · have := pyIdx_nonneg hlt
      push_cast at this
      exact this
    · rw [eX]
      unfold gridXR
      rw [hx0]
      simp only [Nat.add_mul_mod_self_right, Nat.mod_eq_of_lt hi]
      exact lx
    · rw [eY]
      unfold gridYR
      rw [hy0]
      have : (i + j * P.nx) / P.nx = j := by
        rw [Nat.add_mul_div_right _ _ (by omega), Nat.div_eq_of_lt hi, zero_add]
      simp only [this]
      exact ly

/-- C137.  On such a grid the periodic wrap leaves a point that is less than a period outside in the
closed box. -/
theorem c137_wrap (hr : Rounding rnd u) {P : GP K} (hx0 : P.x_m = 0) (fX : rnd P.x_M = P.x_M) {x : K}
    (hX : 0 ≤ P.x_M) (h0 : -P.x_M ≤ x) (h1 : x ≤ 2 * P.x_M) :
    0 ≤ wrapXR rnd P x ∧ wrapXR rnd P x ≤ P.x_M := by
  unfold wrapXR
  rw [hx0, sub_zero, fX]
  have low : ∀ {z : K}, 0 ≤ z → 0 ≤ rnd z := fun hz => (hr.lower hz).2.2
  have up : ∀ {z : K}, z ≤ P.x_M → rnd z ≤ P.x_M := fun hz => by
    conv_rhs => rw [← fX]
    exact hr.mono hz
  dsimp only
  by_cases hx : x < 0
  · have a : rnd (x + P.x_M) ≤ P.x_M := up (by linarith)
    rw [if_pos hx, if_neg (not_lt.2 a)]
    exact ⟨low (by linarith), a⟩
  · rw [if_neg hx]
    split_ifs with h
    · exact ⟨low (by linarith), up (by linarith)⟩
    · exact ⟨not_lt.1 hx, not_lt.1 h⟩

/-- C137.  The three steps together on such a grid, for points anywhere in the closed box: if the
mapping succeeds, its totals are those of the points up to rounding. -/
theorem c137_conserves (hr : Rounding rnd u) {P : GP K} (hx0 : P.x_m = 0) (hy0 : P.y_m = 0)
    (hnx : 2 ≤ P.nx) (hny : 2 ≤ P.ny) (hX : 0 < P.x_M) (hY : 0 < P.y_M) (fX : rnd P.x_M = P.x_M)
    (fY : rnd P.y_M = P.y_M) {ε : K} (hεx : gam u 4 * P.nx ≤ ε) (hεy : gam u 4 * P.ny ≤ ε) (h1 : ε < 1)
    {B : BP K} {G H : Grid K P.N P.ns} (hG : mkGridR rnd P B = .ok G) {seg : Bool}
    {L M : List (PhaseSt K P.ns)} (hL : Counted L) (hm : ∀ mp ∈ points L,
      (0 ≤ mp.x 0 ∧ mp.x 0 ≤ P.x_M) ∧ 0 ≤ mp.x 1 ∧ mp.x 1 ≤ P.y_M)
    (h : toGridR rnd P seg L G = .ok (M, H)) {c : ℕ}
    (hc : ∀ n : Fin P.N, (arrivals P.nx n M).length ≤ c) :
    |∑ n, H.m n - ((items L).map fun x => x.2.m).sum| ≤ gam u (6 + c) *
      (((1 + 2 * u) * (1 + 2 * ε)) ^ 2 * ((items L).map fun x => |x.2.m|).sum) ∧
    ∀ k, |∑ n, H.q n k - ((items L).map fun x => x.2.m * x.2.v.get x.1.iv k).sum| ≤ gam u (7 + c) *
        (((1 + 2 * u) * (1 + 2 * ε)) ^ 2 *
          ((items L).map fun x => |x.2.m * x.2.v.get x.1.iv k|).sum) := by
  unfold toGridR at h
  obtain ⟨L1, a1, h⟩ := res_bind_ok.1 h
  obtain ⟨L2, a2, h⟩ := res_bind_ok.1 h
  obtain ⟨G', a3, h⟩ := res_bind_ok.1 h
  cases h
  have hε : 0 ≤ ε := le_trans (mul_nonneg (gam_nonneg hr.nonneg hr.lt_one 4) (Nat.cast_nonneg _)) hεx
  have z : (∀ n, G.m n = 0) ∧ ∀ n k, G.q n k = 0 := by
    unfold mkGridR mkGrid at hG
    rw [if_neg (by omega)] at hG
    cases hG
    exact ⟨fun _ => rfl, fun _ _ => rfl⟩
  have c1 := (mapPoints_raw hL a1).counted hL
  obtain ⟨rfl, g⟩ := mapPoints_map hL a1
  obtain ⟨e2, g2⟩ := mapPoints_map (M := M) c1 a2
  have near : ∀ mp ∈ points L, 0 < G.dx ∧ 0 < G.dy ∧
      NearCell G ε (okOr (mp.getReferenceNodeR rnd P G.dx G.dy) mp) ∧
      (okOr (mp.getReferenceNodeR rnd P G.dx G.dy) mp).m = mp.m ∧
      (okOr (mp.getReferenceNodeR rnd P G.dx G.dy) mp).v = mp.v := by
    intro mp hmp
    obtain ⟨⟨x0, x1⟩, y0, y1⟩ := hm mp hmp
    obtain ⟨d1, d2, mp', e, e', n, -⟩ := c137_cell hr hx0 hy0 hnx hny hX hY fX fY hεx hεy h1 hG x0 x1
      y0 y1
    rw [okOr_of e]
    exact ⟨d1, d2, n, by rw [e'], by rw [e']⟩
  set f := fun mp => okOr (Particle.getReferenceNodeR rnd P G.dx G.dy mp) mp with hf
  have ei : items (L.map fun a => { a with pts := a.pts.map f }) =
      (items L).map fun x => (x.1, f x.2) := items_map f L
  have sums : ∀ F : Phase K P.ns → K → VRef K → K,
      ((items (L.map fun a => { a with pts := a.pts.map f })).map fun x => F x.1 x.2.m x.2.v).sum =
        ((items L).map fun x => F x.1 x.2.m x.2.v).sum := by
    intro F
    rw [ei, List.map_map]
    refine congrArg List.sum (List.map_congr_left fun x hx => ?_)
    obtain ⟨-, -, -, em, ev⟩ := near _ (mem_points_items hx)
    show F x.1 (f x.2).m (f x.2).v = _
    rw [em, ev]
  by_cases hne : ∃ mp, mp ∈ points L
  · obtain ⟨mp0, hmp0⟩ := hne
    obtain ⟨d1, d2, -⟩ := near mp0 hmp0
    have hc' : ∀ n : Fin P.N,
        (arrivals P.nx n (L.map fun a => { a with pts := a.pts.map f })).length ≤ c := by
      intro n
      have := hc n
      rw [e2, arrivals_map (fun mp hmp => (basisR_star (g2 mp hmp)).1), List.length_map] at this
      exact this
    have hnear : ∀ mp ∈ points (L.map fun a => { a with pts := a.pts.map f }), NearCell G ε mp := by
      intro mp hmp
      obtain ⟨a, ha, hm⟩ := List.mem_flatMap.1 hmp
      obtain ⟨b, hb, rfl⟩ := List.mem_map.1 ha
      obtain ⟨mp', hmp', rfl⟩ := List.mem_map.1 hm
      exact (near mp' (List.mem_flatMap.2 ⟨b, hb, hmp'⟩)).2.2.1
    obtain ⟨t1, t2⟩ := c137_total hr c1 d1 d2 hε hnear a2 a3 hc'
    have t1 := t1 z.1
    have t2 := fun k => t2 k fun n => z.2 n k
    rw [sums fun _ m _ => m, sums fun _ m _ => |m|] at t1
    refine ⟨t1, fun k => ?_⟩
    have t2 := t2 k
    rw [sums fun ph m v => m * v.get ph.iv k, sums fun ph m v => |m * v.get ph.iv k|] at t2
    exact t2
  · -- no points at all
    have hi : items L = [] := by
      rw [List.eq_nil_iff_forall_not_mem]
      exact fun x hx => hne ⟨_, mem_points_items hx⟩
    have cM : Counted M := (mapPoints_raw c1 a2).counted c1
    have hA : ∀ n : Fin P.N, arrivals P.nx n M = [] := by
      intro n
      rw [e2, arrivals_map (fun mp hmp => (basisR_star (g2 mp hmp)).1)]
      unfold arrivals
      rw [ei, hi]
      rfl
    obtain ⟨-, s⟩ := c137_sum cM a3
    have sm : ∀ n, H.m n = 0 := fun n => by rw [(s n).1, hA, z.1]; rfl
    have sq : ∀ n k, H.q n k = 0 := fun n k => by rw [(s n).2.1, hA, z.2]; rfl
    simp [hi, sm, sq]

end

/-! ## Examples in double precision -/

/-- The unit box with four by three nodes. -/
def Ex.unit4 : GP ℚ :=
  { x_m := 0, x_M := 1, y_m := 0, y_M := 1, nx := 4, ny := 3, dx := 1/3, dy := 1/2
    thickness := 1, ns := 2, s := ![1, 2] }

/-- One phase with one point. -/
def Ex.single (x y : ℚ) : List (PhaseSt ℚ 2) :=
  [{ ph := { Ex.ph with n := 1 }, pts := [{ Ex.mp with x := ![x, y, 0] }] }]

theorem Ex.single_counted (x y : ℚ) : Counted (Ex.single x y) := by
  intro a ha
  have e := List.mem_singleton.1 ha
  rw [e]
  rfl

/-- The grid, the points and the mapping of the points, all in double precision. -/
def Ex.toDouble (x y : ℚ) : Res (Grid ℚ Ex.unit4.N 2 × List (PhaseSt ℚ 2) × Grid ℚ Ex.unit4.N 2) := do
  let G ← mkGridR (fl 53) Ex.unit4 Ex.bp
  let r ← toGridR (fl 53) Ex.unit4 false (Ex.single x y) G
  return (G, r)

def Ex.toDoubleCheck (x y : ℚ)
    (check : List (PhaseSt ℚ 2) → Grid ℚ Ex.unit4.N 2 → Bool) : Bool :=
  match Ex.toDouble x y with
  | .ok r => check r.2.1 r.2.2
  | .error _ => false

theorem Ex.toDoubleCheck_ok {x y : ℚ} {check : List (PhaseSt ℚ 2) → Grid ℚ Ex.unit4.N 2 → Bool}
    (h : Ex.toDoubleCheck x y check = true) : ∃ G M H, mkGridR (fl 53) Ex.unit4 Ex.bp = .ok G ∧
      toGridR (fl 53) Ex.unit4 false (Ex.single x y) G = .ok (M, H) ∧ check M H = true := by
  unfold Ex.toDoubleCheck at h
  split at h
  · rename_i r hr
    obtain ⟨G, h1, hr⟩ := res_bind_ok.1 hr
    obtain ⟨⟨M, H⟩, h2, hr⟩ := res_bind_ok.1 hr
    cases hr
    exact ⟨G, M, H, h1, h2, h⟩
  · cases h

/-- C137.  The mass that a point in the middle of the box leaves on the grid, in double precision: not
its own, but close to it. -/
example : ∃ G M H, mkGridR (fl 53) Ex.unit4 Ex.bp = .ok G ∧
    toGridR (fl 53) Ex.unit4 false (Ex.single (2/5) (1/7)) G = .ok (M, H) ∧
    ∑ n, H.m n ≠ 3 ∧ |∑ n, H.m n - 3| ≤ 1 / 10 ^ 14 := by
  obtain ⟨G, M, H, h1, h2, hc⟩ := Ex.toDoubleCheck_ok (x := 2/5) (y := 1/7)
    (check := fun M H => decide (∑ n, H.m n ≠ 3) &&
      decide (∀ n : Fin Ex.unit4.N, (arrivals 4 n M).length ≤ 1)) (by decide +kernel)
  rw [Bool.and_eq_true, decide_eq_true_eq, decide_eq_true_eq] at hc
  refine ⟨G, M, H, h1, h2, hc.1, ?_⟩
  have hr := c136_bits (K := ℚ) (p := 53) (by norm_num)
  have hm : ∀ mp ∈ points (Ex.single (2/5) (1/7)),
      (0 ≤ mp.x 0 ∧ mp.x 0 ≤ Ex.unit4.x_M) ∧ 0 ≤ mp.x 1 ∧ mp.x 1 ≤ Ex.unit4.y_M := by
    intro mp hmp
    have e := List.mem_singleton.1 hmp
    rw [e]
    simp [Ex.unit4]
    norm_num
  have : |∑ n, H.m n - ((items (Ex.single (2/5) (1/7))).map fun x => x.2.m).sum| ≤
      gam (1 / 2 ^ 53) (6 + 1) * (((1 + 2 * (1 / 2 ^ 53)) * (1 + 2 * (1 / 10 ^ 14))) ^ 2 *
        ((items (Ex.single (2/5) (1/7))).map fun x => |x.2.m|).sum) :=
    (c137_conserves hr (P := Ex.unit4) (ε := 1 / 10 ^ 14) rfl rfl (by decide) (by decide)
    (by norm_num [Ex.unit4]) (by norm_num [Ex.unit4]) (by decide +kernel) (by decide +kernel)
    (by norm_num [gam, Ex.unit4]) (by norm_num [gam, Ex.unit4]) (by norm_num) h1
    (Ex.single_counted _ _) hm h2 hc.2).1
  have e : ((items (Ex.single (2/5) (1/7))).map fun x => x.2.m).sum = 3 := by decide +kernel
  have e' : ((items (Ex.single (2/5) (1/7))).map fun x => |x.2.m|).sum = 3 := by decide +kernel
  rw [e, e'] at this
  refine this.trans ?_
  norm_num [gam]

/-- The rounded and the exact mapping from the rounded reference nodes. -/
def Ex.bothMaps (x y : ℚ) : Res (Grid ℚ Ex.unit4.N 2 × Grid ℚ Ex.unit4.N 2) := do
  let G ← mkGridR (fl 53) Ex.unit4 Ex.bp
  let L ← getReferenceNodesR (fl 53) Ex.unit4 G (Ex.single x y)
  let M ← getBasisFunctions G L
  let H ← p2gAll 4 false M G
  let M' ← getBasisFunctionsR (fl 53) G L
  let H' ← p2gAllR (fl 53) 4 false M' G
  return (H, H')

/-- C137.  The hypotheses of `c137_nodes` hold of double precision numbers, and the two mappings of the
example differ. -/
example : ∃ (L M M' : List (PhaseSt ℚ 2)) (G H H' : Grid ℚ Ex.unit4.N 2), Counted L ∧ 0 < G.dx ∧
    0 < G.dy ∧ (∀ mp ∈ points L, NearCell G (1 / 10 ^ 14) mp) ∧ getBasisFunctions G L = .ok M ∧
    p2gAll 4 false M G = .ok H ∧ getBasisFunctionsR (fl 53) G L = .ok M' ∧
    p2gAllR (fl 53) 4 false M' G = .ok H' ∧ ∃ n, H'.m n ≠ H.m n := by
  have hk : (match Ex.bothMaps (2/5) (1/7) with
    | .ok r => decide (∃ n, r.2.m n ≠ r.1.m n)
    | .error _ => false) = true := by decide +kernel
  split at hk
  · rename_i r hr
    obtain ⟨G, h1, hr⟩ := res_bind_ok.1 hr
    obtain ⟨L, h2, hr⟩ := res_bind_ok.1 hr
    obtain ⟨M, h3, hr⟩ := res_bind_ok.1 hr
    obtain ⟨H, h4, hr⟩ := res_bind_ok.1 hr
    obtain ⟨M', h5, hr⟩ := res_bind_ok.1 hr
    obtain ⟨H', h6, hr⟩ := res_bind_ok.1 hr
    cases hr
    have hR := c136_bits (K := ℚ) (p := 53) (by norm_num)
    have c0 := Ex.single_counted (2/5) (1/7)
    obtain ⟨rfl, -⟩ := mapPoints_map c0 h2
    obtain ⟨d1, d2, mp', e, -, near, -⟩ := c137_cell hR (P := Ex.unit4) (ε := 1 / 10 ^ 14) rfl rfl
      (by decide) (by decide) (by norm_num [Ex.unit4]) (by norm_num [Ex.unit4]) (by decide +kernel)
      (by decide +kernel) (by norm_num [gam, Ex.unit4]) (by norm_num [gam, Ex.unit4]) (by norm_num) h1
      (mp := { Ex.mp with x := ![2/5, 1/7, 0] }) (by decide +kernel) (by decide +kernel)
      (by decide +kernel) (by decide +kernel)
    refine ⟨_, M, M', G, H, H', (mapPoints_raw c0 h2).counted c0, d1, d2, ?_, h3, h4, h5, h6,
      of_decide_eq_true hk⟩
    intro mp hmp
    have e1 := List.mem_singleton.1 hmp
    rw [e1]
    have e2 := okOr_of (a := { Ex.mp with x := ![2/5, 1/7, 0] }) e
    exact (congrArg (NearCell G (1 / 10 ^ 14)) e2).mpr near
  · cases hk

/-- C137.  A point inside the box whose mapping fails: at `x = 1 - 2^-53 < x_M` the quotient rounds to
the number of the last column, and in the top row of cells the corner after that does not exist.
Without rounding the same point is mapped. -/
theorem c137_lost_point : (∃ G, mkGridR (fl 53) Ex.unit4 Ex.bp = .ok G ∧
      toGridR (fl 53) Ex.unit4 false (Ex.single (1 - 1 / 2 ^ 53) (3/4)) G = .error .index) ∧
    (∃ G r, mkGridR id Ex.unit4 Ex.bp = .ok G ∧
      toGridR id Ex.unit4 false (Ex.single (1 - 1 / 2 ^ 53) (3/4)) G = .ok r) ∧
    fl 53 (1 - 1 / 2 ^ 53 : ℚ) = 1 - 1 / 2 ^ 53 := by
  refine ⟨?_, ?_, by decide +kernel⟩
  · have h : (match mkGridR (fl 53) Ex.unit4 Ex.bp with
      | .error _ => false
      | .ok G => match toGridR (fl 53) Ex.unit4 false (Ex.single (1 - 1 / 2 ^ 53) (3/4)) G with
        | .error .index => true
        | _ => false) = true := by decide +kernel
    split at h
    · cases h
    · rename_i G hG
      refine ⟨G, hG, ?_⟩
      split at h
      · assumption
      · cases h
  · have h : (match mkGridR id Ex.unit4 Ex.bp with
      | .error _ => false
      | .ok G => match toGridR id Ex.unit4 false (Ex.single (1 - 1 / 2 ^ 53) (3/4)) G with
        | .error _ => false
        | .ok _ => true) = true := by decide +kernel
    split at h
    · cases h
    · rename_i G hG
      split at h
      · cases h
      · rename_i r hr
        exact ⟨G, r, hG, hr⟩

/-- C137.  In the other rows such a point leaves a negative mass, at the far side of the box. -/
theorem c137_negative_mass : ∃ G M H, mkGridR (fl 53) Ex.unit4 Ex.bp = .ok G ∧
    toGridR (fl 53) Ex.unit4 false (Ex.single (1 - 1 / 2 ^ 53) (1/4)) G = .ok (M, H) ∧
    H.m (⟨4, by decide⟩ : Fin 12) < 0 ∧ H.X (⟨4, by decide⟩ : Fin 12) = 0 := by
  obtain ⟨G, M, H, h1, h2, hc⟩ := Ex.toDoubleCheck_ok (x := 1 - 1 / 2 ^ 53) (y := 1/4)
    (check := fun _ H => decide (H.m (⟨4, by decide⟩ : Fin 12) < 0) &&
      decide (H.X (⟨4, by decide⟩ : Fin 12) = 0)) (by decide +kernel)
  obtain ⟨c1, c2⟩ := Bool.and_eq_true_iff.1 hc
  exact ⟨G, M, H, h1, h2, of_decide_eq_true c1, of_decide_eq_true c2⟩

/-- C137.  A point that has just left through the left side is put exactly on the right side by the
periodic wrap, and from there, in the top row of cells, the mapping fails; without rounding it would
be put inside and mapped. -/
theorem c137_wrapped_out : wrapXR (fl 53) Ex.unit4 (-(1 / 2 ^ 60)) = Ex.unit4.x_M ∧
    wrapX Ex.unit4 (-(1 / 2 ^ 60)) < Ex.unit4.x_M ∧
    ∃ G, mkGridR (fl 53) Ex.unit4 Ex.bp = .ok G ∧
      toGridR (fl 53) Ex.unit4 false (Ex.single Ex.unit4.x_M (3/4)) G = .error .index := by
  refine ⟨by decide +kernel, by decide +kernel, ?_⟩
  have h : (match mkGridR (fl 53) Ex.unit4 Ex.bp with
    | .error _ => false
    | .ok G => match toGridR (fl 53) Ex.unit4 false (Ex.single Ex.unit4.x_M (3/4)) G with
      | .error .index => true
      | _ => false) = true := by decide +kernel
  split at h
  · cases h
  · rename_i G hG
    refine ⟨G, hG, ?_⟩
    split at h
    · assumption
    · cases h

end Mpm

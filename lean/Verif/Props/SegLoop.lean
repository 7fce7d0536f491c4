import Verif.Model.SegLoop
import Verif.Props.Diffusion
import Verif.ExRun

/-!
# C127: the stand-alone segregation loop of `integrators.py`
-/

set_option linter.unusedSectionVars false

namespace Mpm
open Spec

section
variable {K : Type} [Field K] [LinearOrder K] [IsStrictOrderedRing K] {nx ny ns : ℕ}

/-! ### Finite results come from finite numbers -/

namespace XF

theorem of_add {a b : XF K} {u : K} (h : a + b = .fin u) :
    ∃ x y, a = .fin x ∧ b = .fin y ∧ x + y = u := by
  change XF.add a b = _ at h
  cases a <;> cases b <;> simp_all [XF.add]

theorem of_sub {a b : XF K} {u : K} (h : a - b = .fin u) :
    ∃ x y, a = .fin x ∧ b = .fin y ∧ x - y = u := by
  change XF.add a (XF.neg b) = _ at h
  cases a <;> cases b <;> simp_all [XF.add, XF.neg, _root_.sub_eq_add_neg]

theorem infSign_ne (a u : K) : infSign a ≠ .fin u := by
  unfold infSign
  split <;> simp

theorem of_mul {a b : XF K} {u : K} (h : a * b = .fin u) :
    ∃ x y, a = .fin x ∧ b = .fin y ∧ x * y = u := by
  change XF.mul a b = _ at h
  cases a <;> cases b <;> simp only [XF.mul] at h <;>
    first
    | exact ⟨_, _, rfl, rfl, XF.fin.inj h⟩
    | (exfalso; split at h <;> first | exact infSign_ne _ _ h | cases h)
    | cases h

theorem of_div {a : XF K} {b u : K} (h : a / .fin b = .fin u) : ∃ x, a = .fin x := by
  change XF.div a (.fin b) = _ at h
  cases a <;> simp only [XF.div] at h
  · exact ⟨_, rfl⟩
  · split at h <;> cases h
  · split at h <;> cases h
  · cases h

theorem finite_iff {a : XF K} : a.isFinite = true ↔ ∃ u, a = .fin u := by
  cases a <;> simp [XF.isFinite]

end XF

theorem npGradient_inv {n : ℕ} {h : K} {f : Fin n → XF K} {i : Fin n} {u : K}
    (hg : npGradient h f i = .fin u) : (∃ x, f (hiOf i) = .fin x) ∧ ∃ x, f (loOf i) = .fin x := by
  rw [npGradient_eq] at hg
  obtain ⟨x, hx⟩ := XF.of_div hg
  obtain ⟨a, b, ha, hb, -⟩ := XF.of_sub hx
  exact ⟨⟨a, ha⟩, ⟨b, hb⟩⟩

/-- A finite diffusion increment needs a finite diffusivity at the node. -/
theorem diffusionInc_inv {P : Par K} {dt rho_s : K} {G : Grid K (ny * nx) ns} {n : Fin (ny * nx)}
    {j : Fin ns} {u : K} (h : diffusionInc P dt rho_s G n j = .fin u) :
    ∃ D, nodeD P rho_s G n = .fin D := by
  unfold diffusionInc at h
  obtain ⟨-, a, -, ha, -⟩ := XF.of_mul h
  obtain ⟨x, -, hx, -, -⟩ := XF.of_add ha
  obtain ⟨⟨p, hp⟩, ⟨q, hq⟩⟩ := npGradient_inv hx
  obtain ⟨p', -, hp, -, -⟩ := XF.of_mul hp
  obtain ⟨q', -, hq, -, -⟩ := XF.of_mul hq
  simp only [rowF_mkNode, colF_mkNode] at hp hq
  have e : mkNode (colF n) (rowF n) = n :=
    node_ext ((mkNode_row _ _).trans rfl) ((mkNode_col _ _).trans rfl)
  have key : ∃ z, nodeD P rho_s G (mkNode (colF n) (rowF n)) *
      .fin (G.phi (mkNode (colF n) (rowF n)) j) = .fin z := by
    have g1 := npGradient_inv hp
    have g2 := npGradient_inv hq
    rcases twoAway (i := colF n) (k := colF n) (.inl rfl) with (h1 | h1) | (h1 | h1)
    · simpa only [h1, nodeD] using g1.1
    · simpa only [h1, nodeD] using g1.2
    · simpa only [h1, nodeD] using g2.1
    · simpa only [h1, nodeD] using g2.2
  obtain ⟨z, hz⟩ := key
  obtain ⟨D, -, hD, -, -⟩ := XF.of_mul hz
  rw [e] at hD
  exact ⟨D, hD⟩

theorem ktBC_mid {n : ℕ} {c : Fin (n + 4) → K} {V : Fin (n + 4) → XF K} (k : Fin n) :
    ktBC c V ⟨k.val + 2, by omega⟩ = V ⟨k.val + 2, by omega⟩ := by
  have hk := k.isLt
  unfold ktBC
  rw [Function.update_of_ne (Fin.ne_of_val_ne (by simp only; omega)),
    Function.update_of_ne (Fin.ne_of_val_ne (by simp only; omega)),
    Function.update_of_ne (Fin.ne_of_val_ne (by simp only; omega)),
    Function.update_of_ne (Fin.ne_of_val_ne (by simp only; omega))]

/-- A finite increment along a line needs a finite velocity at the node. -/
theorem ktLine_inv {n : ℕ} [NeZero n] {cyc : Bool} {c dt dx : K} {s : Fin ns → K}
    {phi : Fin n → Fin ns → K} {g : Fin n → K} {bnd : Fin n → Bool} {j : Fin ns} {k : Fin n} {u : K}
    (h : ktLine cyc c dt dx s phi g bnd j k = .fin u) :
    ∃ v, ktFlux c s (phi k) j (g k) (bnd k) = .fin v := by
  unfold ktLine ktCore at h
  obtain ⟨a, h⟩ := XF.of_div h
  obtain ⟨-, a, -, h, -⟩ := XF.of_mul h
  obtain ⟨a, -, h, -, -⟩ := XF.of_sub h
  obtain ⟨a, -, h, -, -⟩ := XF.of_add h
  obtain ⟨a, -, h, -, -⟩ := XF.of_sub h
  obtain ⟨a, -, h, -, -⟩ := XF.of_mul h
  obtain ⟨a, h⟩ := XF.of_div h
  obtain ⟨a, -, h, -, -⟩ := XF.of_add h
  refine ⟨a, ?_⟩
  rw [← ktLine_mid cyc c s phi g bnd j k]
  rw [← h]
  symm
  exact ktBC_mid k

theorem rawIncrement_inv {P : Par K} {dt rho_s : K} {s : Fin ns → K} {G : Grid K (ny * nx) ns}
    {n : Fin (ny * nx)} {j : Fin ns} (h : (rawIncrement P dt rho_s s G n j).isFinite = true) :
    (∃ D, nodeD P rho_s G n = .fin D) ∧
    (∃ v, ktFlux P.c s (G.phi n) j (G.grad_pk n 0) (ktBoundary P.M_tol G n) = .fin v) ∧
    (∃ v, ktFlux P.c s (G.phi n) j (G.grad_pk n 1) (ktBoundary P.M_tol G n) = .fin v) ∧
    ∃ x y, ktX P dt s G n j + ktY P dt s G n j = .fin x ∧ diffusionInc P dt rho_s G n j = .fin y ∧
      rawIncrement P dt rho_s s G n j = .fin (x + y) := by
  obtain ⟨u, hu⟩ := XF.finite_iff.1 h
  have e : mkNode (colF n) (rowF n) = n :=
    node_ext ((mkNode_row _ _).trans rfl) ((mkNode_col _ _).trans rfl)
  obtain ⟨x, y, hx, hy, hxy⟩ := XF.of_add (a := ktX P dt s G n j + ktY P dt s G n j)
    (b := diffusionInc P dt rho_s G n j) hu
  obtain ⟨x1, x2, h1, h2, -⟩ := XF.of_add hx
  refine ⟨diffusionInc_inv hy, ?_, ?_, x, y, hx, hy, by rw [hu, hxy]⟩
  · have : NeZero nx := ⟨(nx_pos_of_node n).ne'⟩
    have := ktLine_inv h1
    rwa [e] at this
  · have : NeZero ny := ⟨(ny_pos_of_node n).ne'⟩
    have := ktLine_inv h2
    rwa [e] at this

/-- Finite velocities at the open nodes mean that they have a harmonic mean size. -/
theorem openNodes_of_flux {N : ℕ} {M_tol c : K} {s : Fin ns → K} {G : Grid K N ns} {g : Fin N → K}
    (hs : ∀ j, s j ≠ 0) (j : Fin ns)
    (h : ∀ n, ∃ v, ktFlux c s (G.phi n) j (g n) (ktBoundary M_tol G n) = .fin v) :
    OpenNodesOk M_tol s G := by
  intro n h1 h2
  refine ⟨hs, fun h0 => ?_⟩
  obtain ⟨v, hv⟩ := h n
  have hb : ktBoundary M_tol G n = false := by
    rw [← Bool.not_eq_true, ktBoundary_iff]
    simp [h1, h2]
  rw [hb] at hv
  unfold ktFlux at hv
  rw [if_neg (by simp), invHarmonic_fin hs, h0, XF.fin_mul, zero_mul, XF.fin_div_zero one_pos] at hv
  obtain ⟨a, -, ha, -, -⟩ := XF.of_mul hv
  obtain ⟨-, a, -, ha, -⟩ := XF.of_mul ha
  obtain ⟨a, -, ha, -, -⟩ := XF.of_sub ha
  cases ha

theorem meanSizes_eq {N : ℕ} (s : Fin ns → K) (phi : Fin N → Fin ns → K) (n : Fin N) :
    meanSizes s phi n = ∑ j, phi n j * s j := by
  unfold meanSizes
  induction ns with
  | zero => simp [Fin.foldl_zero]
  | succ m ih =>
    rw [Fin.foldl_succ_last, Fin.sum_univ_castSucc]
    congr 1
    exact ih (fun i => s i.castSucc) (fun n i => phi n i.castSucc)

/-! ### One pass of the loop -/

theorem segStep_ok {P : Par K} {dt rho_s : K} {s : Fin ns → K} {a b : SegSt K (ny * nx) ns}
    (h : segStep P dt rho_s s a = .ok b) :
    (∀ n j, (rawIncrement P dt rho_s s a.G n j).isFinite = true) ∧
    b.G = { a.G with phi := b.G.phi, s_bar := b.G.s_bar } ∧
    (∀ n j, b.G.phi n j = a.G.phi n j + (rawIncrement P dt rho_s s a.G n j).nanToNum 0) ∧
    (∀ n, b.G.s_bar n = ∑ j, b.G.phi n j * s j) ∧
    b.t = a.t + dt ∧ b.tstep = a.tstep + 1 ∧
    (if (a.tstep + 1) % 1000 = 0 then b.grid_save = a.grid_save + 1 ∧
        b.drawn = a.drawn ++ [(b.grid_save, b.G.phi, b.G.s_bar)]
      else b.grid_save = a.grid_save ∧ b.drawn = a.drawn) := by
  unfold segStep at h
  by_cases h1 : ∀ n j, (rawIncrement P dt rho_s s a.G n j).isFinite = true
  · rw [if_pos h1] at h
    dsimp only at h
    by_cases h2 : (a.tstep + 1) % 1000 = 0
    · rw [if_pos h2] at h
      rw [if_pos h2]
      cases h
      exact ⟨h1, rfl, fun _ _ => rfl, fun n => meanSizes_eq s
        (fun n j => a.G.phi n j + (rawIncrement P dt rho_s s a.G n j).nanToNum 0) n, rfl, rfl, rfl, rfl⟩
    · rw [if_neg h2] at h
      rw [if_neg h2]
      cases h
      exact ⟨h1, rfl, fun _ _ => rfl, fun n => meanSizes_eq s
        (fun n j => a.G.phi n j + (rawIncrement P dt rho_s s a.G n j).nanToNum 0) n, rfl, rfl, rfl, rfl⟩
  · rw [if_neg h1] at h
    cases h

/-- `k` passes of the loop. -/
inductive SegRun (P : Par K) (dt rho_s : K) (s : Fin ns → K) :
    ℕ → SegSt K (ny * nx) ns → SegSt K (ny * nx) ns → Prop
  | zero (a) : SegRun P dt rho_s s 0 a a
  | succ {k a b c} : segStep P dt rho_s s a = .ok b → SegRun P dt rho_s s k b c →
      SegRun P dt rho_s s (k + 1) a c

theorem segLoop_run {P : Par K} {dt rho_s t_f : K} {s : Fin ns → K} {fuel : ℕ}
    {a b : SegSt K (ny * nx) ns} (h : segLoop P dt rho_s t_f s fuel a = some (.ok b)) :
    ∃ k, SegRun P dt rho_s s k a b ∧ t_f < b.t ∧ b.t = a.t + k * dt ∧
      ∀ i < k, a.t + (i : K) * dt ≤ t_f := by
  induction fuel generalizing a with
  | zero => cases h
  | succ f ih =>
    unfold segLoop at h
    by_cases h1 : a.t ≤ t_f
    · rw [if_pos h1] at h
      cases h2 : segStep P dt rho_s s a with
      | error e => rw [h2] at h; cases h
      | ok c =>
        rw [h2] at h
        obtain ⟨k, r, e1, e2, e3⟩ := ih h
        obtain ⟨-, -, -, -, et, -, -⟩ := segStep_ok h2
        refine ⟨k + 1, .succ h2 r, e1, by rw [e2, et]; push_cast; ring, fun i hi => ?_⟩
        rcases i with _ | i
        · simpa using h1
        · have := e3 i (by omega)
          rw [et] at this
          push_cast
          linarith
    · rw [if_neg h1] at h
      cases h
      exact ⟨0, .zero _, not_le.1 h1, by simp, fun i hi => absurd hi (by omega)⟩

theorem SegRun.frozen {P : Par K} {dt rho_s : K} {s : Fin ns → K} {k : ℕ}
    {a b : SegSt K (ny * nx) ns} (h : SegRun P dt rho_s s k a b) :
    b.G = { a.G with phi := b.G.phi, s_bar := b.G.s_bar } ∧
    (0 < k → ∀ n, b.G.s_bar n = ∑ j, b.G.phi n j * s j) ∧ b.tstep = a.tstep + k := by
  induction h with
  | zero a => exact ⟨rfl, fun h => absurd h (lt_irrefl 0), rfl⟩
  | @succ k a b c h1 r ih =>
    obtain ⟨-, eG, -, es, -, en, -⟩ := segStep_ok h1
    obtain ⟨e1, e2, e3⟩ := ih
    refine ⟨e1.trans ?_, fun _ => ?_, by omega⟩
    · rw [eG]
    · rcases Nat.eq_zero_or_pos k with h0 | h0
      · subst h0
        cases r
        exact es
      · exact e2 h0

/-! ### The loop -/

section
variable [FloorRing K]

theorem steps_count {t0 dt t_f : K} (hdt : 0 < dt) {k : ℕ} (h1 : t_f < t0 + k * dt)
    (h2 : ∀ i < k, t0 + (i : K) * dt ≤ t_f) : k = (⌊(t_f - t0) / dt⌋ + 1).toNat := by
  have a1 : ⌊(t_f - t0) / dt⌋ < (k : ℤ) := by
    rw [Int.floor_lt, div_lt_iff₀ hdt]
    push_cast
    linarith
  rcases Nat.eq_zero_or_pos k with h0 | h0
  · subst h0
    push_cast at a1
    omega
  · have a2 : ((k - 1 : ℕ) : ℤ) ≤ ⌊(t_f - t0) / dt⌋ := by
      rw [Int.le_floor, le_div_iff₀ hdt]
      have := h2 (k - 1) (by omega)
      push_cast at this ⊢
      linarith
    omega

/-- C127.  A run that ends has made `⌊(t_f - t)/dt⌋ + 1` passes; it has left everything on the grid
but the fractions and mean sizes as it was, and the mean sizes are those of the fractions. -/
theorem c127_passes {P : Par K} {dt rho_s t_f : K} (hdt : 0 < dt) {s : Fin ns → K} {fuel : ℕ}
    {a b : SegSt K (ny * nx) ns} (h : segLoop P dt rho_s t_f s fuel a = some (.ok b)) :
    b.tstep = a.tstep + (⌊(t_f - a.t) / dt⌋ + 1).toNat ∧
    b.t = a.t + ((⌊(t_f - a.t) / dt⌋ + 1).toNat : K) * dt ∧ t_f < b.t ∧
    b.G = { a.G with phi := b.G.phi, s_bar := b.G.s_bar } ∧
    (a.t ≤ t_f → ∀ n, b.G.s_bar n = ∑ j, b.G.phi n j * s j) := by
  obtain ⟨k, r, e1, e2, e3⟩ := segLoop_run h
  have hk := steps_count hdt (by rwa [← e2]) e3
  obtain ⟨f1, f2, f3⟩ := r.frozen
  rw [← hk]
  refine ⟨f3, e2, e1, f1, fun h0 => f2 ?_⟩
  rcases Nat.eq_zero_or_pos k with h | h
  · subst h
    simp only [Nat.cast_zero, zero_mul, add_zero] at e2
    rw [e2] at e1
    exact absurd h0 (not_le.2 e1)
  · exact h

/-- C127.  With a positive time step the loop ends. -/
theorem c127_ends (P : Par K) {dt : K} (rho_s t_f : K) (hdt : 0 < dt) (s : Fin ns → K)
    (a : SegSt K (ny * nx) ns) : ∃ fuel, segLoop P dt rho_s t_f s fuel a ≠ none := by
  obtain ⟨m, hm⟩ := exists_nat_gt ((t_f - a.t) / dt)
  rw [div_lt_iff₀ hdt] at hm
  refine ⟨m + 1, ?_⟩
  induction m generalizing a with
  | zero =>
    unfold segLoop
    rw [if_neg (by push_cast at hm; linarith)]
    simp
  | succ m ih =>
    unfold segLoop
    by_cases h1 : a.t ≤ t_f
    · rw [if_pos h1]
      cases h2 : segStep P dt rho_s s a with
      | error e => simp
      | ok b =>
        refine ih b ?_
        rw [(segStep_ok h2).2.2.2.2.1]
        push_cast at hm
        linarith
    · rw [if_neg h1]
      simp

/-- C127.  With a time step that is not positive it never ends in a regular way. -/
theorem c127_endless (P : Par K) {dt rho_s t_f : K} (hdt : dt ≤ 0) (s : Fin ns → K)
    {a : SegSt K (ny * nx) ns} (h : a.t ≤ t_f) (fuel : ℕ) (b : SegSt K (ny * nx) ns) :
    segLoop P dt rho_s t_f s fuel a ≠ some (.ok b) := by
  intro hl
  obtain ⟨k, -, e1, e2, -⟩ := segLoop_run hl
  have : (k : K) * dt ≤ 0 := mul_nonpos_of_nonneg_of_nonpos (Nat.cast_nonneg k) hdt
  rw [e2] at e1
  linarith

end

/-- C127.  Figures: one for every multiple of 1000 among the step numbers reached, numbered in
order, and each shows mean sizes that belong to the fractions shown. -/
theorem c127_figures {P : Par K} {dt rho_s t_f : K} {s : Fin ns → K} {fuel : ℕ}
    {a b : SegSt K (ny * nx) ns} (h : segLoop P dt rho_s t_f s fuel a = some (.ok b)) :
    ∃ new, b.drawn = a.drawn ++ new ∧ new.length = b.tstep / 1000 - a.tstep / 1000 ∧
      b.grid_save = a.grid_save + new.length ∧
      (∀ i (hi : i < new.length), (new[i]).1 = a.grid_save + i + 1) ∧
      ∀ f ∈ new, ∀ n, f.2.2 n = ∑ j, f.2.1 n j * s j := by
  obtain ⟨k, r, -⟩ := segLoop_run h
  clear h
  induction r with
  | zero a => exact ⟨[], by simp, by simp, by simp, by simp, by simp⟩
  | @succ k a b c h1 r ih =>
    obtain ⟨new, g1, g2, g3, g4, g5⟩ := ih
    obtain ⟨-, -, -, es, -, en, ed⟩ := segStep_ok h1
    have hk := r.frozen.2.2
    by_cases h2 : (a.tstep + 1) % 1000 = 0
    · rw [if_pos h2] at ed
      refine ⟨(b.grid_save, b.G.phi, b.G.s_bar) :: new, ?_, ?_, ?_, ?_, ?_⟩
      · rw [g1, ed.2]; simp
      · rw [List.length_cons, g2]; omega
      · rw [g3, ed.1, List.length_cons]; push_cast; ring
      · intro i hi
        rcases i with _ | i
        · simp [ed.1]
        · have := g4 i (by simpa using hi)
          rw [List.getElem_cons_succ, this, ed.1]
          push_cast
          ring
      · intro f hf n
        rcases List.mem_cons.1 hf with rfl | hf
        · exact es n
        · exact g5 f hf n
    · rw [if_neg h2] at ed
      refine ⟨new, by rw [g1, ed.2], by rw [g2]; omega, by rw [g3, ed.1], ?_, g5⟩
      intro i hi
      rw [g4 i hi, ed.1]

/-! ### What is conserved -/

theorem SegRun.sum {P : Par K} {dt rho_s : K} {s : Fin ns → K} {k : ℕ}
    {a b : SegSt K (ny * nx) ns} (h : SegRun P dt rho_s s k a b) (w : Fin (ny * nx) → K) (j : Fin ns)
    (hw : ∀ G : Grid K (ny * nx) ns, G = { a.G with phi := G.phi, s_bar := G.s_bar } →
      (∀ n j, (rawIncrement P dt rho_s s G n j).isFinite = true) →
      ∑ n, w n * (rawIncrement P dt rho_s s G n j).nanToNum 0 = 0) :
    ∑ n, w n * b.G.phi n j = ∑ n, w n * a.G.phi n j := by
  induction h with
  | zero a => rfl
  | @succ k a b c h1 r ih =>
    obtain ⟨hf, eG, ep, -⟩ := segStep_ok h1
    rw [ih fun G hG => hw G (by rw [hG, eG])]
    simp only [ep, mul_add, Finset.sum_add_distrib]
    rw [hw a.G rfl hf, add_zero]

/-- The diffusivity as a quotient of two finite numbers. -/
theorem nodeD_inv {P : Par K} {rho_s : K} {G : Grid K (ny * nx) ns} {n : Fin (ny * nx)} {D : K}
    (h : nodeD P rho_s G n = .fin D) :
    ∃ y z r : K, XF.sqrt P.ops.sqrt (G.vis Vis.pressure n / XF.fin (G.m n)).abs = .fin z ∧
      r ≠ 0 ∧ D = P.l * y * z / r := by
  unfold nodeD diffusivity at h
  by_cases h0 : rho_s < 0
  · rw [show XF.sqrt P.ops.sqrt (.fin rho_s) = .nan from if_pos h0, XF.div_nan] at h
    cases h
  · rw [show XF.sqrt P.ops.sqrt (.fin rho_s) = .fin (P.ops.sqrt rho_s) from if_neg h0] at h
    obtain ⟨x, hx⟩ := XF.of_div h
    rw [hx] at h
    obtain ⟨y, z, hy, hz, e1⟩ := XF.of_mul hx
    obtain ⟨p, q, hp, hq, e2⟩ := XF.of_mul hy
    obtain ⟨u, v, hu, hv, e3⟩ := XF.of_mul hp
    have hr : P.ops.sqrt rho_s ≠ 0 := by
      intro hr
      rw [hr] at h
      have := XF.special_div_zero x
      rw [h] at this
      cases this
    rw [XF.fin_div _ hr] at h
    refine ⟨v * q, z, _, hz, hr, ?_⟩
    rw [← XF.fin.inj h, ← e1, ← e2, ← e3, ← XF.fin.inj hu]
    ring

/-- C127.  Without diffusion every run that gets to its end keeps the total of every size over the
nodes, whatever the time step and whatever the sign of the fractions. -/
theorem c127_total {P : Par K} {dt rho_s t_f : K} {s : Fin ns → K} {fuel : ℕ}
    {a b : SegSt K (ny * nx) ns} (h : segLoop P dt rho_s t_f s fuel a = some (.ok b))
    (hl : P.l = 0) (hs : ∀ j, s j ≠ 0) (hnx : 2 ≤ nx) (hny : 2 ≤ ny) (hdx : P.G.dx ≠ 0)
    (hdy : P.G.dy ≠ 0) (j : Fin ns) : ∑ n, b.G.phi n j = ∑ n, a.G.phi n j := by
  obtain ⟨k, r, -⟩ := segLoop_run h
  have := r.sum (fun _ => 1) j fun G hG hf => ?_
  · simpa only [one_mul] using this
  have ho : OpenNodesOk P.M_tol s G := openNodes_of_flux hs j fun n => (rawIncrement_inv (hf n j)).2.1
  obtain ⟨u, hu, hu0⟩ := c45_grid (dt := dt) hdx hdy ho j
  have hD : ∀ k, nodeD P rho_s G k = .fin 0 := by
    intro k
    obtain ⟨D, hD⟩ := (rawIncrement_inv (hf k j)).1
    obtain ⟨y, z, r, -, -, e⟩ := nodeD_inv hD
    rw [hD, e, hl]
    simp
  have e : ∀ n, rawIncrement P dt rho_s s G n j = .fin (u n) := by
    intro n
    unfold rawIncrement
    rw [hu, diffusionInc_fin hnx hny hdx hdy (D := fun _ => 0) hD, diffFin_const (a := 0)
      (fun k => by simp), XF.fin_add, add_zero]
  simp only [e, one_mul]
  exact hu0

/-- C127.  Without segregation, in a box with walls all around, every run that gets to its end keeps
the total of every size weighted with the share of a cell that belongs to the node. -/
theorem c127_volume {P : Par K} {dt rho_s t_f : K} {s : Fin ns → K} {fuel : ℕ}
    {a b : SegSt K (ny * nx) ns} (h : segLoop P dt rho_s t_f s fuel a = some (.ok b))
    (hc : P.c = 0) (hB : WalledIn nx ny a.G.boundary_tot) (hnx : 2 ≤ nx) (hny : 2 ≤ ny)
    (hdx : P.G.dx ≠ 0) (hdy : P.G.dy ≠ 0) (j : Fin ns) :
    ∑ n, share nx ny n * b.G.phi n j = ∑ n, share nx ny n * a.G.phi n j := by
  obtain ⟨k, r, -⟩ := segLoop_run h
  refine r.sum _ j fun G hG hf => ?_
  have hb : G.boundary_tot = a.G.boundary_tot := by rw [hG]
  choose D hD using fun n => (rawIncrement_inv (hf n j)).1
  obtain ⟨u, hu, hu0⟩ := c72_weighted (dt := dt) hnx hny hdx hdy hD (by rwa [hb]) j
  have z : ∀ {phi : Fin ns → K} {g v : K} {bnd : Bool},
      ktFlux P.c s phi j g bnd = .fin v → ktFlux P.c s phi j g bnd = .fin 0 := by
    intro phi g v bnd hv
    cases bnd
    · unfold ktFlux at hv ⊢
      rw [if_neg (by simp)] at hv ⊢
      obtain ⟨p, q, hp, hq, e1⟩ := XF.of_mul hv
      obtain ⟨p', q', hp', hq', e2⟩ := XF.of_mul hp
      have := XF.fin.inj hp'
      rw [hc] at this
      rw [hv, ← e1, ← e2, ← this]
      simp
    · exact if_pos rfl
  have e : ∀ n, rawIncrement P dt rho_s s G n j = .fin (u n) := by
    intro n
    unfold rawIncrement
    have : NeZero nx := ⟨(nx_pos_of_node n).ne'⟩
    have : NeZero ny := ⟨(ny_pos_of_node n).ne'⟩
    have ex : ktX P dt s G n j = .fin 0 := c46_line hdx (fun k => by
      obtain ⟨v, hv⟩ := (rawIncrement_inv (hf (mkNode k (rowF n)) j)).2.1
      exact z hv) _
    have ey : ktY P dt s G n j = .fin 0 := c46_line hdy (fun k => by
      obtain ⟨v, hv⟩ := (rawIncrement_inv (hf (mkNode (colF n) k) j)).2.2.1
      exact z hv) _
    rw [hu, ex, ey, XF.fin_add, XF.fin_add, add_zero, zero_add]
  simp only [e]
  exact hu0

/-- C127.  Unlike the solver, which passes the increment through `nan_to_num`, this program does not
get through its first pass with finite fractions if a node is without mass. -/
theorem c127_empty {P : Par K} {dt rho_s t_f : K} {s : Fin ns → K} {fuel : ℕ}
    {a : SegSt K (ny * nx) ns} (ht : a.t ≤ t_f) (hns : 0 < ns) {n : Fin (ny * nx)}
    (hm : a.G.m n = 0) : segLoop P dt rho_s t_f s (fuel + 1) a = some (.error .nonFinite) := by
  unfold segLoop
  rw [if_pos ht]
  have : segStep P dt rho_s s a = .error .nonFinite := by
    refine if_neg fun hf => ?_
    obtain ⟨D, hD⟩ := (rawIncrement_inv (hf n ⟨0, hns⟩)).1
    obtain ⟨y, z, r, hz, -⟩ := nodeD_inv hD
    rw [hm] at hz
    have sp : XF.Special (a.G.vis Vis.pressure n / XF.fin (0 : K)) := by
      cases a.G.vis Vis.pressure n with
      | fin x => exact XF.special_div_zero x
      | nan => rfl
      | pinf =>
        have e : (XF.pinf / XF.fin 0 : XF K) = .pinf := if_neg (lt_irrefl 0)
        rw [e]
        rfl
      | ninf =>
        have e : (XF.ninf / XF.fin 0 : XF K) = .ninf := if_neg (lt_irrefl 0)
        rw [e]
        rfl
    have sp' : XF.Special (a.G.vis Vis.pressure n / XF.fin (0 : K)).abs := by
      revert sp
      cases a.G.vis Vis.pressure n / XF.fin (0 : K) <;> intro h <;> first | rfl | cases h
    have := sp'.sqrt (sq := P.ops.sqrt)
    rw [hz] at this
    cases this
  rw [this]

/-- C127.  The program as it is shipped: the loop starts from the grid after one time step of the
solver and leaves masses, momenta, pressures, shear rates and kinetic pressure gradients as they
were then; with a positive time step it stops just after `t = 1/2`. -/
theorem c127_main [FloorRing K] {P : Par K} {interp : Interp K P.G.N} {A : LoopPar K} {fuel : ℕ}
    {s : St P} {g : ℤ} {b : SegSt K (P.G.ny * P.G.nx) P.G.ns}
    (h : segMain P interp A fuel s g = some (.ok b)) :
    ∃ s' dt, timeMarch P interp s = .ok s' ∧
      (A.dynamic = true → defaultTimestep P A s'.G = .fin dt) ∧
      (A.dynamic = false → dt = s'.dyn.dt) ∧
      b.G.m = s'.G.m ∧ b.G.q = s'.G.q ∧ b.G.vis = s'.G.vis ∧ b.G.grad_pk = s'.G.grad_pk ∧
      b.G.boundary_tot = s'.G.boundary_tot ∧ 1 / 2 < b.t ∧
      (0 < dt → b.tstep = s'.dyn.tstep + (⌊(1 / 2 - s'.dyn.t) / dt⌋ + 1).toNat) ∧
      b.drawn.length = b.tstep / 1000 - s'.dyn.tstep / 1000 := by
  unfold segMain at h
  cases h1 : timeMarch P interp s with
  | error e => rw [h1] at h; cases h
  | ok s' =>
    rw [h1] at h
    dsimp only at h
    cases h2 : (if A.dynamic = true then defaultTimestep P A s'.G else .fin s'.dyn.dt) with
    | fin dt =>
      rw [h2] at h
      dsimp only at h
      obtain ⟨k, r, e1, e2, e3⟩ := segLoop_run h
      obtain ⟨new, g1, g2, -⟩ := c127_figures h
      have eG := r.frozen.1
      refine ⟨s', dt, rfl, fun hd => ?_, fun hd => ?_, ?_, ?_, ?_, ?_, ?_, e1, fun hdt => ?_, ?_⟩
      · rwa [if_pos hd] at h2
      · rw [hd, if_neg (by simp)] at h2
        exact (XF.fin.inj h2).symm
      · rw [eG]
      · rw [eG]
      · rw [eG]
      · rw [eG]
      · rw [eG]
      · exact (c127_passes hdt h).1
      · rw [g1]
        exact g2
    | pinf => rw [h2] at h; cases h
    | ninf => rw [h2] at h; cases h
    | nan => rw [h2] at h; cases h

/-- C127.  Only the loop's own constants matter: it runs with `l = 1/500` and `c = 1/1000` whatever
the input file says. -/
theorem c127_constants [FloorRing K] {P : Par K} {interp : Interp K P.G.N} {A : LoopPar K}
    {fuel : ℕ} {s : St P} {g : ℤ} {b : SegSt K (P.G.ny * P.G.nx) P.G.ns}
    (h : segMain P interp A fuel s g = some (.ok b)) :
    ∃ s' dt, timeMarch P interp s = .ok s' ∧
      segLoop { P with l := 1 / 500, c := 1 / 1000 } dt (((mat0 s'.L).map (·.rho_s)).getD 0)
        (1 / 2) P.G.s fuel
        { G := s'.G, t := s'.dyn.t, tstep := s'.dyn.tstep, grid_save := g, drawn := [] } =
          some (.ok b) := by
  unfold segMain at h
  cases h1 : timeMarch P interp s with
  | error e => rw [h1] at h; cases h
  | ok s' =>
    rw [h1] at h
    dsimp only at h
    cases h2 : (if A.dynamic = true then defaultTimestep P A s'.G else .fin s'.dyn.dt) with
    | fin dt =>
      rw [h2] at h
      exact ⟨s', dt, rfl, h⟩
    | pinf => rw [h2] at h; cases h
    | ninf => rw [h2] at h; cases h
    | nan => rw [h2] at h; cases h

end

/-! ### Examples -/

/-- A box of four by three nodes with a driving gradient, just before step 1000. -/
def Ex.segSt : SegSt ℚ (3 * 4) 2 :=
  { G := { Ex.diffG (nx := 4) (ny := 3) (Ex.rim 4 3) (fun _ => 1) Ex.diffPhi with
      grad_pk := fun _ => ![1, 1, 0] }
    t := 0, tstep := 999, grid_save := 0, drawn := [] }

def Ex.segPar (c l : ℚ) : Par ℚ := { Ex.par with c := c, l := l }

def Ex.segOut (c l : ℚ) : Option (Res (SegSt ℚ (3 * 4) 2)) :=
  segLoop (Ex.segPar c l) (1/4) 1 0 ![1, 2] 5 Ex.segSt

def Ex.segCheck (c l : ℚ) (f : SegSt ℚ (3 * 4) 2 → Bool) : Bool :=
  match Ex.segOut c l with
  | some (.ok b) => f b
  | _ => false

def Ex.plainTotal (b : SegSt ℚ (3 * 4) 2) : ℚ := ∑ n, b.G.phi n 0

def Ex.shareTotal (b : SegSt ℚ (3 * 4) 2) : ℚ := ∑ n, share 4 3 n * b.G.phi n 0

theorem Ex.segCheck_ok {c l : ℚ} {f : SegSt ℚ (3 * 4) 2 → Bool} (h : Ex.segCheck c l f = true) :
    ∃ b, segLoop (Ex.segPar c l) (1/4) 1 0 ![1, 2] 5 Ex.segSt = some (.ok b) ∧ f b = true := by
  unfold Ex.segCheck at h
  cases e : Ex.segOut c l with
  | none => rw [e] at h; cases h
  | some r =>
    cases r with
    | error _ => rw [e] at h; cases h
    | ok b => rw [e] at h; exact ⟨b, e, h⟩

/-- Segregation alone: one pass, one figure, grains move, the plain total is kept and the
weighted one is not. -/
example : ∃ b, segLoop (Ex.segPar 1 0) (1/4) 1 0 ![1, 2] 5 Ex.segSt = some (.ok b) ∧
    b.tstep = 1000 ∧ b.t = 1/4 ∧ b.drawn.length = 1 ∧ b.G.phi 5 0 ≠ 1/2 ∧
    Ex.plainTotal b = Ex.plainTotal Ex.segSt ∧ Ex.shareTotal b ≠ Ex.shareTotal Ex.segSt := by
  obtain ⟨b, h, hb⟩ := Ex.segCheck_ok (c := 1) (l := 0) (f := fun b => decide (b.tstep = 1000 ∧
    b.t = 1/4 ∧ b.drawn.length = 1 ∧ b.G.phi 5 0 ≠ 1/2 ∧ Ex.shareTotal b ≠ Ex.shareTotal Ex.segSt))
    (by decide +kernel)
  have hb := of_decide_eq_true hb
  exact ⟨b, h, hb.1, hb.2.1, hb.2.2.1, hb.2.2.2.1, c127_total h rfl (by decide +kernel) (by norm_num)
    (by norm_num) (by decide +kernel) (by decide +kernel) 0, hb.2.2.2.2⟩

/-- Diffusion alone: the other way round. -/
example : ∃ b, segLoop (Ex.segPar 0 1) (1/4) 1 0 ![1, 2] 5 Ex.segSt = some (.ok b) ∧
    b.G.phi 6 0 ≠ Ex.segSt.G.phi 6 0 ∧ Ex.plainTotal b ≠ Ex.plainTotal Ex.segSt ∧
    Ex.shareTotal b = Ex.shareTotal Ex.segSt := by
  obtain ⟨b, h, hb⟩ := Ex.segCheck_ok (c := 0) (l := 1) (f := fun b => decide (
    b.G.phi 6 0 ≠ Ex.segSt.G.phi 6 0 ∧ Ex.plainTotal b ≠ Ex.plainTotal Ex.segSt)) (by decide +kernel)
  have hb := of_decide_eq_true hb
  exact ⟨b, h, hb.1, hb.2, c127_volume h rfl (Ex.rim_walled 4 3) (by norm_num) (by norm_num)
    (by decide +kernel) (by decide +kernel) 0⟩

/-- C127.  With both, as in the program that is shipped, neither total is kept. -/
theorem c127_neither : ∃ b, segLoop (Ex.segPar 1 1) (1/4) 1 0 ![1, 2] 5 Ex.segSt = some (.ok b) ∧
    Ex.plainTotal b ≠ Ex.plainTotal Ex.segSt ∧ Ex.shareTotal b ≠ Ex.shareTotal Ex.segSt := by
  obtain ⟨b, h, hb⟩ := Ex.segCheck_ok (c := 1) (l := 1) (f := fun b => decide (
    Ex.plainTotal b ≠ Ex.plainTotal Ex.segSt ∧ Ex.shareTotal b ≠ Ex.shareTotal Ex.segSt))
    (by decide +kernel)
  exact ⟨b, h, of_decide_eq_true hb⟩

/-- C127.  In particular with the constants of the program, which replace those of the input file. -/
theorem c127_shipped : ∃ b, segLoop (Ex.segPar (1/1000) (1/500)) (1/4) 1 0 ![1, 2] 5 Ex.segSt = some (.ok b) ∧
    (∀ c l, segLoop (segPar (Ex.segPar c l)) (1/4) 1 0 ![1, 2] 5 Ex.segSt = some (.ok b)) ∧
    Ex.plainTotal b ≠ Ex.plainTotal Ex.segSt ∧ Ex.shareTotal b ≠ Ex.shareTotal Ex.segSt := by
  obtain ⟨b, h, hb⟩ := Ex.segCheck_ok (c := 1/1000) (l := 1/500) (f := fun b => decide (
    Ex.plainTotal b ≠ Ex.plainTotal Ex.segSt ∧ Ex.shareTotal b ≠ Ex.shareTotal Ex.segSt))
    (by decide +kernel)
  exact ⟨b, h, fun _ _ => h, of_decide_eq_true hb⟩

/-- The whole program on the small grid of the other examples, set up after the final time. -/
def Ex.segMainOut : Option (Res (SegSt ℚ (3 * 3) 2)) :=
  match mkGrid Ex.gp Ex.bp with
  | .ok G => segMain Ex.par (Ex.noInterp Ex.par) ⟨1, 1, false, 1, []⟩ 5
      { dyn := { Ex.dyn with t := 1 }, L := Ex.L, G := G } 0
  | .error e => some (.error e)

example : (match Ex.segMainOut with
  | some (.ok b) => decide (b.tstep = 0 ∧ b.t = 1 ∧ b.G.m 4 ≠ 0)
  | _ => false) = true := by decide +kernel

end Mpm

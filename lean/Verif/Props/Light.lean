import Verif.Props.Fall

/-!
# C112: nodes at or below the mass tolerance

`update_strain`, `map_phi_to_mp` and `move_material_points` skip every node with `G.m <= P.M_tol`.
Such a node therefore counts as a node at rest: a point next to it moves less than its
surroundings and is strained although the surroundings move as one, and a body whose whole mass is
at most `M_tol` never moves.
-/

set_option linter.unusedSectionVars false

namespace Mpm
open Spec

section
variable {K : Type} [Field K] [LinearOrder K] [IsStrictOrderedRing K] [FloorRing K] {ns N : ℕ}

/-- The share of a point that belongs to nodes with a mass of at most `tol`. -/
def Spec.lightShare (nx : ℕ) (tol : K) (G : Grid K N ns) (mp : Particle K ns) : K :=
  ∑ k ∈ Finset.univ.filter (fun k => G.m k ≤ tol), weight nx mp k

/-- The sum of the gradients of the shape functions of these nodes. -/
def Spec.lightGrad (nx : ℕ) (tol : K) (G : Grid K N ns) (mp : Particle K ns) : Vec K :=
  ∑ k ∈ Finset.univ.filter (fun k => G.m k ≤ tol), gradWeight nx mp k

/-- The sum over the nodes of a quantity that is `c` at heavy nodes and counted as 0 at light
ones. -/
theorem heavy_sum {M : Type} [AddCommGroup M] [Module K M] {nx : ℕ} {tol : K} {G : Grid K N ns}
    {mp : Particle K ns} (hn : NodesOk nx N mp) (h1 : ∑ r, mp.N r = 1) {f : Fin N → M} {c : M}
    (hf : ∀ k, Touches nx mp k → tol < G.m k → f k = c) :
    ∑ k, weight nx mp k • (if tol < G.m k then f k else 0) = (1 - lightShare nx tol G mp) • c := by
  have hs := weight_sum hn
  rw [h1, ← Finset.sum_filter_add_sum_filter_not Finset.univ (fun k => G.m k ≤ tol)] at hs
  have : 1 - lightShare nx tol G mp =
      ∑ k ∈ Finset.univ.filter (fun k => ¬ G.m k ≤ tol), weight nx mp k := by
    unfold lightShare; rw [← hs]; ring
  rw [this, Finset.sum_smul, Finset.sum_filter]
  refine Finset.sum_congr rfl fun k _ => ?_
  by_cases hk : G.m k ≤ tol
  · rw [if_neg (not_lt.2 hk), smul_zero, if_neg (not_not.2 hk)]
  · rw [if_pos (not_le.1 hk), if_pos hk]
    by_cases ht : Touches nx mp k
    · rw [hf k ht (not_le.1 hk)]
    · rw [weight_of_not_touches ht, zero_smul, zero_smul]

/-- The closed form of `map_phi_to_mp`. -/
theorem mapPhi_closed {nx : ℕ} {M_tol : K} {G : Grid K N ns} {mp mp' : Particle K ns}
    (h : mp.mapPhi nx M_tol G = .ok mp') :
    ∃ nd : Fin 4 → Fin N, (∀ r, mp.node nx N r = .ok (nd r)) ∧
      mp' = { mp with
        phi := mp.phi + ∑ r, mp.N r • (if M_tol < G.m (nd r) then G.dphi (nd r) else 0)
        pk := mp.pk + ∑ r, mp.N r • (if M_tol < G.m (nd r) then G.dpk (nd r) else 0) } := by
  have hn : NodesOk nx N mp := by
    unfold Particle.mapPhi at h
    obtain ⟨s1, s2, s3, h1, h2, h3, h4⟩ := for4_ok.1 h
    have step : ∀ {r : Fin 4} {s s' : Particle K ns}, s.n_star = mp.n_star → (do
        let n ← s.node nx N r
        if M_tol < G.m n then
          return { s with
            phi := fun j => s.phi j + s.N r * G.dphi n j
            pk := s.pk + s.N r * G.dpk n }
        else return s : Res (Particle K ns)) = .ok s' →
        (∃ k, pyIdx N (nearbyNodes nx mp.n_star r) = .ok k) ∧ s'.n_star = mp.n_star := by
      intro r s s' e h
      obtain ⟨n, hn, h⟩ := res_bind_ok.1 h
      unfold Particle.node at hn
      rw [e] at hn
      split at h <;> cases h <;> exact ⟨⟨n, hn⟩, e⟩
    obtain ⟨e0, i0⟩ := step rfl h1
    obtain ⟨e1, i1⟩ := step i0 h2
    obtain ⟨e2, i2⟩ := step i1 h3
    obtain ⟨e3, i3⟩ := step i2 h4
    intro r
    fin_cases r
    exacts [e0, e1, e2, e3]
  obtain ⟨nd, hnd⟩ := nodesOk_iff.1 hn
  refine ⟨nd, hnd, ?_⟩
  have key : ∀ (r : Fin 4) (f : Fin ns → K) (c : K), (do
      let n ← Particle.node nx N { mp with phi := f, pk := c } r
      if M_tol < G.m n then
        return { mp with phi := fun j => f j + mp.N r * G.dphi n j, pk := c + mp.N r * G.dpk n }
      else return { mp with phi := f, pk := c } : Res (Particle K ns)) =
        .ok { mp with
          phi := f + mp.N r • (if M_tol < G.m (nd r) then G.dphi (nd r) else 0)
          pk := c + mp.N r • (if M_tol < G.m (nd r) then G.dpk (nd r) else 0) } := by
    intro r f c
    have : Particle.node nx N { mp with phi := f, pk := c } r = .ok (nd r) := hnd r
    rw [this, res_ok_bind]
    split
    · rfl
    · simp only [smul_zero, add_zero]; rfl
  rw [Fin.sum_univ_four, Fin.sum_univ_four, ← Except.ok.injEq, ← h]
  exact for4_ok.2 ⟨_, _, _, key 0 mp.phi mp.pk, key 1 _ _, key 2 _ _, (key 3 _ _).trans (by
    simp only [add_assoc])⟩

/-! ## A field that is uniform over the heavy nodes around a point -/

/-- The displacement and the velocity change: only the share of the heavy nodes counts. -/
theorem c112_move {nx : ℕ} {M_tol dt : K} (hM : 0 ≤ M_tol) {G : Grid K N ns}
    {mp mp' : Particle K ns} {iv iv' u a : Vec K} {ρ : K} (h1 : ∑ r, mp.N r = 1)
    (hu : ∀ k, Touches nx mp k → M_tol < G.m k → G.q k = G.m k • u ∧ G.q_dot k = G.m k • a ∧
      G.m k = ρ * G.V k)
    (h : mp.move nx M_tol dt G iv = .ok (mp', iv')) :
    mp'.x = mp.x + ((1 - lightShare nx M_tol G mp) * dt) • u ∧
    mp'.v.get iv' = mp.v.get iv + ((1 - lightShare nx M_tol G mp) * dt) • a ∧
    mp'.rho = (1 - lightShare nx M_tol G mp) * ρ := by
  obtain ⟨nd, hnd, hV, e⟩ := move_ok h
  have hn : NodesOk nx N mp := nodesOk_iff.2 ⟨nd, hnd⟩
  have ex : mp'.x = mp.x + ∑ r, dispInc M_tol dt (mp.N r) G (nd r) :=
    congrArg (fun z => z.1.x) e
  have ev : (mp'.v, iv') = addVel (∑ r, velInc M_tol dt (mp.N r) G (nd r)) (mp.v, iv) :=
    congrArg (fun z => (z.1.v, z.2)) e
  have er : mp'.rho = ∑ r, rhoInc M_tol (mp.N r) G (nd r) := congrArg (fun z => z.1.rho) e
  have cancel : ∀ k w, M_tol < G.m k → (dt / G.m k) • G.m k • w = dt • (w : Vec K) := by
    intro k w hk
    rw [smul_smul, div_mul_cancel₀ _ (lt_of_le_of_lt hM hk).ne']
  refine ⟨?_, ?_, ?_⟩
  · rw [ex, sum_dispInc hnd, heavy_sum (c := dt • u) hn h1, smul_smul]
    intro k ht hk
    rw [(hu k ht hk).1, cancel k u hk]
  · have : mp'.v.get iv' = mp.v.get iv + ∑ r, velInc M_tol dt (mp.N r) G (nd r) := by
      have e1 := congrArg Prod.fst ev
      have e2 := congrArg Prod.snd ev
      dsimp only at e1 e2
      rw [e1, e2]
      cases mp.v <;> rfl
    rw [this, sum_velInc hnd, heavy_sum (c := dt • a) hn h1, smul_smul]
    intro k ht hk
    rw [(hu k ht hk).2.1, cancel k a hk]
  · have e2 : ∑ r, rhoInc M_tol (mp.N r) G (nd r) =
        ∑ k, weight nx mp k • (if M_tol < G.m k then G.m k / G.V k else 0) := by
      rw [← sum_nodes_smul hnd (fun k => if M_tol < G.m k then G.m k / G.V k else 0)]
      refine Finset.sum_congr rfl fun r _ => ?_
      unfold rhoInc
      split
      · rw [smul_eq_mul, mul_div_assoc]
      · simp
    rw [er, e2, heavy_sum (c := ρ) hn h1, smul_eq_mul]
    intro k ht hk
    have hk' := (hu k ht hk).2.2
    have : G.V k ≠ 0 := by
      obtain ⟨r, hr⟩ := ht
      have hr' : nd r = k := by
        have := (hnd r).symm.trans hr
        cases this; rfl
      rw [← hr'] at hk ⊢
      exact hV r hk
    rw [div_eq_iff this, hk']

/-- The grain sizes: again only the share of the heavy nodes. -/
theorem c112_phi {nx : ℕ} {M_tol : K} {G : Grid K N ns} {mp mp' : Particle K ns}
    {d : Fin ns → K} {e : K} (h1 : ∑ r, mp.N r = 1)
    (hu : ∀ k, Touches nx mp k → M_tol < G.m k → G.dphi k = d ∧ G.dpk k = e)
    (h : mp.mapPhi nx M_tol G = .ok mp') :
    mp'.phi = mp.phi + (1 - lightShare nx M_tol G mp) • d ∧
    mp'.pk = mp.pk + (1 - lightShare nx M_tol G mp) * e := by
  obtain ⟨nd, hnd, e1⟩ := mapPhi_closed h
  have hn : NodesOk nx N mp := nodesOk_iff.2 ⟨nd, hnd⟩
  rw [e1]
  constructor
  · dsimp only
    rw [sum_nodes_smul hnd (fun k => if M_tol < G.m k then G.dphi k else 0),
      heavy_sum (c := d) hn h1 fun k ht hk => (hu k ht hk).1]
  · dsimp only
    rw [sum_nodes_smul hnd (fun k => if M_tol < G.m k then G.dpk k else 0),
      heavy_sum (c := e) hn h1 fun k ht hk => (hu k ht hk).2, smul_eq_mul]

/-- The strain: a uniform velocity of the heavy nodes strains the point unless the light ones
leave the gradients balanced. -/
theorem c112_strain {nx : ℕ} {M_tol dt : K} (hM : 0 ≤ M_tol) {G : Grid K N ns}
    {mp mp' : Particle K ns} {u : Vec K} (h0 : ∑ r, mp.Gs r = 0)
    (hu : ∀ k, Touches nx mp k → M_tol < G.m k → G.q k = G.m k • u)
    (h : mp.updateStrain nx M_tol dt G = .ok mp') (i j : Fin 3) :
    mp'.dstrain i j = -(dt / 2) *
      (u i * lightGrad nx M_tol G mp j + lightGrad nx M_tol G mp i * u j) ∧
    mp'.strain i j = mp.strain i j + mp'.dstrain i j := by
  obtain ⟨nd, hnd, rfl⟩ := updateStrain_ok h
  have hn : NodesOk nx N mp := nodesOk_iff.2 ⟨nd, hnd⟩
  refine ⟨?_, rfl⟩
  have hs := gradWeight_sum hn
  rw [h0, ← Finset.sum_filter_add_sum_filter_not Finset.univ (fun k => G.m k ≤ M_tol)] at hs
  have hA : ∀ i j, (∑ r, Matrix.vecMulVec (nodeVel M_tol G (nd r)) (mp.Gs r) : Mat K) i j =
      -(u i * lightGrad nx M_tol G mp j) := by
    intro i j
    have e1 : lightGrad nx M_tol G mp =
        -∑ k ∈ Finset.univ.filter (fun k => ¬ G.m k ≤ M_tol), gradWeight nx mp k :=
      eq_neg_of_add_eq_zero_left hs
    rw [e1, Pi.neg_apply, mul_neg, neg_neg, Finset.sum_apply, Finset.mul_sum, Finset.sum_filter,
      Matrix.sum_apply]
    simp only [gradWeight_eq hnd, Finset.sum_apply, Matrix.vecMulVec_apply]
    have e2 : ∀ k, (if ¬ G.m k ≤ M_tol then u i * ∑ r, (if nd r = k then mp.Gs r else 0) j else 0)
        = ∑ r, if nd r = k then (if ¬ G.m k ≤ M_tol then u i * mp.Gs r j else 0) else 0 := by
      intro k
      split
      · rw [Finset.mul_sum]
        refine Finset.sum_congr rfl fun r _ => ?_
        split <;> simp
      · simp
    simp only [e2]
    rw [Finset.sum_comm]
    refine Finset.sum_congr rfl fun r _ => ?_
    rw [Finset.sum_ite_eq, if_pos (Finset.mem_univ _)]
    unfold nodeVel
    by_cases hk : G.m (nd r) ≤ M_tol
    · rw [if_neg (not_lt.2 hk), if_neg (not_not.2 hk)]; simp
    · rw [if_pos (not_le.1 hk), if_pos hk, hu _ ⟨r, hnd r⟩ (not_le.1 hk)]
      have : G.m (nd r) ≠ 0 := (lt_of_le_of_lt hM (not_le.1 hk)).ne'
      simp only [Pi.smul_apply, smul_eq_mul, mul_div_cancel_left₀ _ this]
  simp only [Matrix.smul_apply, Matrix.add_apply, Matrix.transpose_apply, hA, smul_eq_mul]
  ring

/-! ## Light nodes are not looked at -/

/-- The two grids have the same heavy nodes, and agree there. -/
structure Spec.SameHeavy (tol : K) (G H : Grid K N ns) : Prop where
  heavy : ∀ k, tol < G.m k ↔ tol < H.m k
  m : ∀ k, tol < G.m k → H.m k = G.m k
  q : ∀ k, tol < G.m k → H.q k = G.q k
  q_dot : ∀ k, tol < G.m k → H.q_dot k = G.q_dot k
  V : ∀ k, tol < G.m k → H.V k = G.V k
  dphi : ∀ k, tol < G.m k → H.dphi k = G.dphi k
  dpk : ∀ k, tol < G.m k → H.dpk k = G.dpk k

/-- Whatever a light node holds, the strain, the motion and the grain sizes of the points are the
same, and so are failures. -/
theorem c112_blind {nx : ℕ} {M_tol dt : K} {G H : Grid K N ns} (h : SameHeavy M_tol G H)
    (mp : Particle K ns) (iv : Vec K) :
    mp.updateStrain nx M_tol dt H = mp.updateStrain nx M_tol dt G ∧
    mp.move nx M_tol dt H iv = mp.move nx M_tol dt G iv ∧
    mp.mapPhi nx M_tol H = mp.mapPhi nx M_tol G := by
  refine ⟨?_, ?_, ?_⟩
  · have : nodeVel M_tol H = nodeVel M_tol G := by
      funext k
      unfold nodeVel
      by_cases hk : M_tol < G.m k
      · rw [if_pos hk, if_pos ((h.heavy k).1 hk), h.m k hk, h.q k hk]
      · rw [if_neg hk, if_neg (mt (h.heavy k).2 hk)]
    unfold Particle.updateStrain
    rw [this]
  · unfold Particle.move
    congr 1
    · congr 1
      funext r s
      congr 1
      funext n
      by_cases hk : M_tol < G.m n
      · rw [if_pos hk, if_pos ((h.heavy n).1 hk), h.m n hk, h.q n hk, h.q_dot n hk]
      · rw [if_neg hk, if_neg (mt (h.heavy n).2 hk)]
    · funext ⟨s, w⟩
      dsimp only
      congr 2
      funext r s
      congr 1
      funext n
      by_cases hk : M_tol < G.m n
      · rw [if_pos hk, if_pos ((h.heavy n).1 hk), h.m n hk, h.V n hk]
      · rw [if_neg hk, if_neg (mt (h.heavy n).2 hk)]
  · unfold Particle.mapPhi
    congr 1
    funext r s
    congr 1
    funext n
    by_cases hk : M_tol < G.m n
    · rw [if_pos hk, if_pos ((h.heavy n).1 hk), h.dphi n hk, h.dpk n hk]
    · rw [if_neg hk, if_neg (mt (h.heavy n).2 hk)]

end
/-! ## A body that is light as a whole -/

section
variable {K : Type} [Field K] [LinearOrder K] [IsStrictOrderedRing K] [FloorRing K]
variable {P : Par K} {s s' : St P}

/-- Nothing enters or leaves. -/
structure Spec.NoPorts (B : BP K) : Prop where
  outlet_left : B.outlet_left = false
  outlet_bottom : B.outlet_bottom = false
  inlet_right : B.inlet_right = false
  inlet_top : B.inlet_top = false
  cyclic : B.cyclic_lr = false

/-- Every point of `L'` is where it was in `L`, as fast as it was, with the strain it had. -/
def Spec.Still {ns : ℕ} (L L' : List (PhaseSt K ns)) : Prop :=
  List.Forall₂ (fun A B => B.ph.law = A.ph.law ∧ List.Forall₂ (fun a b => b.x = a.x ∧
    velocity B b = velocity A a ∧ b.strain = a.strain ∧ b.m = a.m) A.pts B.pts) L L'

theorem hat_le_one (G : GP K) (hG : GoodGrid G) (x : Vec K) (k : Fin G.N) : hat G x k ≤ 1 := by
  have one : ∀ a d : K, 0 < d → max 0 (1 - |a| / d) ≤ 1 := fun a d hd =>
    max_le zero_le_one (by linarith [div_nonneg (abs_nonneg a) hd.le])
  exact mul_le_one₀ (one _ _ (cellX_pos hG)) (le_max_left _ _) (one _ _ (cellY_pos hG))

/-- The points of a body with a total mass of at most `M_tol`. -/
structure Spec.LightBody (P : Par K) (L : List (PhaseSt K P.G.ns)) : Prop where
  inside : ∀ mp ∈ points L, InDomain P.G mp.x
  mass : ∀ mp ∈ points L, 0 ≤ mp.m
  total : totalMass L ≤ P.M_tol
  law : ∀ A ∈ L, A.ph.law ≠ .rigid ∧ A.ph.law ≠ .elastic_time

theorem lightBody_nodes (hP : GoodGrid P.G) (hG : Geometry P.G s.G) (hL : Counted s.L)
    (hB : LightBody P s.L) (hcy : P.B.cyclic_lr = false) (T : GridPhase P s) (k : Fin P.G.N) :
    ¬ P.M_tol < T.Gd.m k := by
  rw [gridPhase_mass hP hG hL hB.inside hcy T k]
  refine not_lt.2 (le_trans ?_ hB.total)
  unfold nodalMass totalMass
  refine List.sum_le_sum fun mp hmp => ?_
  exact mul_le_of_le_one_left (hB.mass mp hmp) (hat_le_one _ hP _ _)

/-- C112.  A body whose total mass is at most `M_tol` does not move in a step, whatever the
gravity and the forces. -/
theorem c112_frozen_step (hP : GoodGrid P.G) (hB : NoPorts P.B) {interp : Interp K P.G.N}
    (hL : Counted s.L) (hG : Geometry P.G s.G) (hl : LightBody P s.L)
    (h : timeMarch P interp s = .ok s') : Still s.L s'.L := by
  obtain ⟨T, s1, s2, s3, h1, e1, h2, h3, h4, h5, hR⟩ := timeMarch_idx hL h
  have hm : ∀ k, ¬ P.M_tol < s3.G.m k ∧ ¬ P.M_tol < T.Gb.m k := by
    intro k
    have := lightBody_nodes hP hG hL hl hB.cyclic T k
    obtain ⟨-, -, -, m2, -⟩ := momentumPhase_table h2
    obtain ⟨-, -, m3, -⟩ := segregationPhase_frame h3
    have em := T.static.2.2.2.2.2
    refine ⟨?_, by rw [← em]; exact this⟩
    rw [m3, m2, e1]; exact this
  have hl' := hR.and_left hl.law
  refine hl'.forall₂ ?_
  rintro p A B ⟨⟨hr, het⟩, e, n, evo, kept, new, hev, hiv, -, ko, kn, -, kB⟩
  rw [ko hB.outlet_left hB.outlet_bottom, kn hB.inlet_right hB.inlet_top, List.append_nil] at kB
  have hiv' : B.ph.iv = A.ph.iv := by
    rw [hiv]
    unfold sharedChange
    rw [if_neg hr]
    have : ∀ b : Particle K P.G.ns, dvel P.G.nx P.M_tol T.d.dt s3.G b = 0 := by
      intro b
      unfold dvel
      refine Finset.sum_eq_zero fun k _ => ?_
      rw [if_neg (hm k).1, smul_zero]
    have z : ((evo.filter (·.isShared)).map (dvel P.G.nx P.M_tol T.d.dt s3.G)).sum = 0 := by
      refine List.sum_eq_zero fun x hx => ?_
      obtain ⟨b, -, rfl⟩ := List.mem_map.1 hx
      exact this b
    rw [z, add_zero]
  have elaw : B.ph.law = A.ph.law := by rw [e]
  refine ⟨elaw, ?_⟩
  rw [kB]
  refine hev.imp ?_
  intro a b hab
  obtain ⟨a5, a6, hmv, hw, ex, ev, -, -, em, -, -⟩ := hab.parts
  obtain ⟨a3, a4, vis, vis', hss, -, t3, -, -, m3, -, -, -, -, t4, -, -, m4, -⟩ := hab.mats
  have hw' : b = a6 := by rw [hw]; unfold wrapped; rw [hB.cyclic]; rfl
  rcases hmv with ⟨hl, -⟩ | ⟨-, iv, iv', hmove⟩
  · exact absurd hl hr
  obtain ⟨nd, -, -, e6⟩ := move_ok hmove
  have x6 : a6.x = a5.x + ∑ r, dispInc P.M_tol T.d.dt (a5.N r) s3.G (nd r) :=
    congrArg (fun z => z.1.x) e6
  have v6 : a6.v = (addVel (∑ r, velInc P.M_tol T.d.dt (a5.N r) s3.G (nd r)) (a5.v, iv)).1 :=
    congrArg (fun z => z.1.v) e6
  have zx : ∑ r, dispInc P.M_tol T.d.dt (a5.N r) s3.G (nd r) = 0 :=
    Finset.sum_eq_zero fun r _ => if_neg (hm _).1
  have zv : ∑ r, velInc P.M_tol T.d.dt (a5.N r) s3.G (nd r) = 0 :=
    Finset.sum_eq_zero fun r _ => if_neg (hm _).1
  refine ⟨?_, ?_, ?_, ?_⟩
  · rw [hw', x6, zx, add_zero, ex]
  · have : b.v = a.v := by rw [hw', v6, zv, addVel_zero, ev]
    unfold velocity
    rw [this, hiv']
  · rw [t4, ← t3]
    obtain ⟨mp1, mp2, l, g1, g2, -, rfl⟩ := stressStrain_ok hss
    obtain ⟨nd', -, rfl⟩ := updateStrain_ok g1
    have g3 := (runLaw_frame g2).2.1
    change mp2.strain = _
    rw [g3]
    dsimp only
    have : ∀ k, nodeVel P.M_tol T.Gb k = 0 := fun k => if_neg (hm k).2
    simp [this]
  · rw [m4, ← m3]
    exact (stressStrain_frame hss).2 het

theorem Spec.Still.points {ns : ℕ} {L L' : List (PhaseSt K ns)} (h : Still L L') :
    List.Forall₂ (fun a b => b.x = a.x ∧ b.strain = a.strain ∧ b.m = a.m) (points L) (points L') := by
  unfold Still at h
  induction h with
  | nil => exact .nil
  | cons h _ ih =>
    unfold Spec.points at ih ⊢
    rw [List.flatMap_cons, List.flatMap_cons]
    exact List.rel_append (h.2.imp fun _ _ h => ⟨h.1, h.2.2⟩) ih

theorem Spec.Still.light {L L' : List (PhaseSt K P.G.ns)} (h : Still L L') (hl : LightBody P L) :
    LightBody P L' := by
  have hp := h.points
  refine ⟨fun b hb => ?_, fun b hb => ?_, ?_, fun B hB => ?_⟩
  · obtain ⟨a, ha, e, -⟩ := forall₂_right hp hb
    rw [e]; exact hl.inside a ha
  · obtain ⟨a, ha, -, -, e⟩ := forall₂_right hp hb
    rw [e]; exact hl.mass a ha
  · have : (Spec.points L').map (·.m) = (Spec.points L).map (·.m) := by
      generalize Spec.points L = l at hp
      generalize Spec.points L' = l' at hp
      clear * - hp
      induction hp with
      | nil => rfl
      | cons h _ ih => rw [List.map_cons, List.map_cons, ih, h.2.2]
    have ht := hl.total
    unfold totalMass at ht ⊢
    rw [this]; exact ht
  · obtain ⟨A, hA, e, -⟩ := forall₂_right h hB
    rw [e]; exact hl.law A hA

theorem Spec.Still.refl {ns : ℕ} (L : List (PhaseSt K ns)) : Still L L :=
  List.forall₂_same.2 fun _ _ => ⟨rfl, List.forall₂_same.2 fun _ _ => ⟨rfl, rfl, rfl, rfl⟩⟩

theorem Spec.Still.trans {ns : ℕ} {L L' L'' : List (PhaseSt K ns)} (h : Still L L')
    (h' : Still L' L'') : Still L L'' := by
  refine (forall₂_comp h h').imp ?_
  rintro A C ⟨B, ⟨e1, k1⟩, e2, k2⟩
  refine ⟨e2.trans e1, (forall₂_comp k1 k2).imp ?_⟩
  rintro a c ⟨b, ⟨x1, v1, s1, m1⟩, x2, v2, s2, m2⟩
  exact ⟨x2.trans x1, v2.trans v1, s2.trans s1, m2.trans m1⟩

/-- C112.  Nor does it move in any number of steps. -/
theorem c112_frozen (hP : GoodGrid P.G) (hB : NoPorts P.B) {interp : Interp K P.G.N}
    (hL : Counted s.L) (hG : Geometry P.G s.G) (hl : LightBody P s.L) {n : ℕ}
    (h : steps P interp n s = .ok s') : Still s.L s'.L := by
  induction n generalizing s with
  | zero => cases h; exact .refl _
  | succ n ih =>
    obtain ⟨s1, h1, h2⟩ := steps_succ.1 h
    have k := c112_frozen_step hP hB hL hG hl h1
    have c1 : Counted s1.L := timeMarch_counted hL h1
    have g1 : Geometry P.G s1.G := (timeMarch_table h1).1.geometry hG
    exact k.trans (ih (s := stepTime P s1) c1 g1 (k.light hl) h2)

end

/-! ## The hypotheses can be met -/

/-- A tolerance above the mass of the two points of the example. -/
def Ex.parHeavy : Par ℚ := { Ex.par with M_tol := 10, M_tol_nonneg := by norm_num }

/-- Two moving points of mass 3 and 2 under gravity stay where they are for three steps. -/
example : ∃ s s' : St Ex.parHeavy, GoodGrid Ex.parHeavy.G ∧ NoPorts Ex.parHeavy.B ∧ Counted s.L ∧
    Geometry Ex.parHeavy.G s.G ∧ LightBody Ex.parHeavy s.L ∧
    steps Ex.parHeavy (Ex.noInterp _) 3 s = .ok s' ∧
    (points s'.L).map (fun mp => mp.x) = [![1/2, 5/4, 0], ![3/2, 1/4, 0]] ∧
    (points s'.L).map (fun mp => mp.v.get 0) = [![1, 2, 0], ![-1, 0, 0]] := by
  obtain ⟨G, s', hG, hs, hc⟩ := Ex.run_ok (P := Ex.parHeavy) (d := Ex.dyn) (L := Ex.L) (n := 3)
    (check := fun s => decide ((points s.L).map (fun mp => mp.x) =
      [![1/2, 5/4, 0], ![3/2, 1/4, 0]] ∧
      (points s.L).map (fun mp => mp.v.get 0) = [![1, 2, 0], ![-1, 0, 0]])) (by decide +kernel)
  have hp : ∀ mp ∈ points Ex.L, InDomain Ex.gp mp.x ∧ 0 ≤ mp.m := by
    intro mp hmp
    simp only [points, Ex.L, List.flatMap_cons, List.flatMap_nil, List.append_nil, List.mem_cons,
      List.not_mem_nil, or_false] at hmp
    rcases hmp with rfl | rfl
    · constructor
      · simp [InDomain, Ex.mp, Ex.gp]; norm_num
      · simp [Ex.mp]
    · constructor
      · simp [InDomain, Ex.mp2, Ex.gp]; norm_num
      · simp [Ex.mp2]
  refine ⟨{ dyn := Ex.dyn, L := Ex.L, G := G }, s', Ex.good, ⟨rfl, rfl, rfl, rfl, rfl⟩, Ex.countedL,
    mkGrid_geometry hG, ⟨fun mp h => (hp mp h).1, fun mp h => (hp mp h).2, ?_, ?_⟩, hs,
    of_decide_eq_true hc⟩
  · change totalMass Ex.L ≤ 10
    simp [totalMass, points, Ex.L, Ex.mp, Ex.mp2]; norm_num
  · have : ∀ A ∈ Ex.L, A.ph.law ≠ .rigid ∧ A.ph.law ≠ .elastic_time := by decide +kernel
    exact this

/-- The grid of the example with an empty node in the middle and everything else in uniform
motion. -/
def Ex.lightG (G : Grid ℚ Ex.gp.N 2) : Grid ℚ Ex.gp.N 2 :=
  { G with
    m := fun k => if k.val = 4 then 0 else 2
    q := fun k => if k.val = 4 then ![7, 7, 7] else ![2, 4, 0]
    q_dot := fun k => if k.val = 4 then ![7, 7, 7] else ![0, -20, 0]
    V := fun _ => 4
    dphi := fun k => if k.val = 4 then ![7, 7] else ![1/10, -1/10]
    dpk := fun k => if k.val = 4 then 7 else 1 }

/-- A point next to it: located, strained, moved. -/
def Ex.lightRun (check : Grid ℚ Ex.gp.N 2 → Particle ℚ 2 → Particle ℚ 2 → Particle ℚ 2 × Vec ℚ →
    Particle ℚ 2 → Bool) : Bool :=
  match mkGrid Ex.gp Ex.bp with
  | .error _ => false
  | .ok G0 =>
    let G := Ex.lightG G0
    match (Ex.mp.getReferenceNode Ex.gp G.dx G.dy >>= fun a => a.getBasisFunctions G) with
    | .error _ => false
    | .ok a =>
      match a.updateStrain 3 0 (1/10) G, a.move 3 0 (1/10) G 0, a.mapPhi 3 0 G with
      | .ok b, .ok c, .ok d => check G a b c d
      | _, _, _ => false

example : ∃ (G : Grid ℚ Ex.gp.N 2) (mp a c : Particle ℚ 2) (b : Particle ℚ 2 × Vec ℚ),
    ∑ r, mp.N r = 1 ∧ ∑ r, mp.Gs r = 0 ∧
    (∀ k, 0 < G.m k → G.q k = G.m k • ![1, 2, 0] ∧ G.q_dot k = G.m k • ![0, -10, 0] ∧
      G.m k = 1/2 * G.V k ∧ G.dphi k = ![1/10, -1/10] ∧ G.dpk k = 1) ∧
    mp.updateStrain 3 0 (1/10) G = .ok a ∧ mp.move 3 0 (1/10) G 0 = .ok b ∧
    mp.mapPhi 3 0 G = .ok c ∧ lightShare 3 0 G mp = 3/8 ∧ a.dstrain 0 0 ≠ 0 ∧
    b.1.x 0 = mp.x 0 + 1/10 * (5/8) := by
  have h : Ex.lightRun (fun G mp a b c => decide (∑ r, mp.N r = 1 ∧ ∑ r, mp.Gs r = 0 ∧
    (∀ k, 0 < G.m k → G.q k = G.m k • ![1, 2, 0] ∧ G.q_dot k = G.m k • ![0, -10, 0] ∧
      G.m k = 1/2 * G.V k ∧ G.dphi k = ![1/10, -1/10] ∧ G.dpk k = 1) ∧
      lightShare 3 0 G mp = 3/8 ∧ a.dstrain 0 0 ≠ 0 ∧
    b.1.x 0 = mp.x 0 + 1/10 * (5/8))) = true := by decide +kernel
  unfold Ex.lightRun at h
  split at h
  · simp at h
  dsimp only at h
  split at h
  · simp at h
  split at h
  · rename_i e1 e2 e3
    obtain ⟨h1, h2, h3, h4, h5, h6⟩ := of_decide_eq_true h
    exact ⟨_, _, _, _, _, h1, h2, h3, e1, e2, e3, h4, h5, h6⟩
  · simp at h


/-- Two grids that differ at the empty node only. -/
example (G : Grid ℚ Ex.gp.N 2) :
    SameHeavy 0 (Ex.lightG G) { Ex.lightG G with q := fun k => (Ex.lightG G).m k • ![1, 2, 0] } := by
  refine ⟨fun _ => Iff.rfl, fun _ _ => rfl, fun k hk => ?_, fun _ _ => rfl, fun _ _ => rfl,
    fun _ _ => rfl, fun _ _ => rfl⟩
  by_cases h : k.val = 4
  · simp [Ex.lightG, h] at hk
  · simp [Ex.lightG, h]; norm_num

end Mpm

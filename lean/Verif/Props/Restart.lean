import Verif.Lemmas.Agree
import Verif.Props.History
import Verif.ExRun

/-! C132: what a simulation remembers. -/

set_option linter.unusedSectionVars false

namespace Mpm.Spec
variable {K : Type} [Field K] [LinearOrder K] {ns : ℕ}

/-- What two points of phase number `p` with the given law must have in common for everything that
comes after to be the same. -/
structure SameFuture (seg : Bool) (law : Law) (p : ℕ) (a b : Particle K ns) : Prop where
  x : b.x = a.x
  v : b.v = a.v
  m : b.m = a.m
  V : b.V = a.V
  body : p ≠ 0 → b.b = a.b
  stress : law ≠ .bingham → b.stress = a.stress
  dstress : law = .rigid ∨ law = .bingham → b.dstress = a.dstress
  dstress_out : law = .dp_rate → ∀ i j, ¬ (i.val < 2 ∧ j.val < 2) → b.dstress i j = a.dstress i j
  dev_stress : law = .von_mises → b.dev_stress = a.dev_stress
  sigma_kk : law = .von_mises → b.sigma_kk = a.sigma_kk
  pressure : law = .viscous ∨ law = .bingham ∨ law = .ken_kamrin ∨ law = .pouliquen ∨
    law = .linear_mu ∨ law = .ken_simple → b.pressure = a.pressure
  gammadot : law = .ken_simple → b.gammadot = a.gammadot
  rho : law = .ken_kamrin ∨ law = .pouliquen ∨ law = .ken_simple → b.rho = a.rho
  phi : seg = true ∨ law = .pouliquen ∨ law = .linear_mu → b.phi = a.phi
  pk : seg = true → b.pk = a.pk
  mu : law = .dp → b.mu = a.mu

/-- Phase by phase, point by point. -/
def SameFutures (seg : Bool) (L L' : List (PhaseSt K ns)) : Prop :=
  IdxRel (fun p A B => B.ph = A.ph ∧ List.Forall₂ (SameFuture seg A.ph.law p) A.pts B.pts) L L'

/-- One step from these two sets of points, on a fresh grid, leads to different stresses. -/
def Tells (P : Par ℚ) (d : Dyn ℚ) (L L' : List (PhaseSt ℚ P.G.ns)) : Prop :=
  ∃ G s t, mkGrid P.G P.B = .ok G ∧
    timeMarch P (fun _ _ => (false, 0)) { dyn := d, L := L, G := G } = .ok s ∧
    timeMarch P (fun _ _ => (false, 0)) { dyn := d, L := L', G := G } = .ok t ∧
    (points s.L).map (·.stress) ≠ (points t.L).map (·.stress)

end Mpm.Spec

namespace Mpm
open Spec

section
variable {K : Type} [Field K] [LinearOrder K] {ns N : ℕ}

theorem SameFuture.refl (seg : Bool) (law : Law) (p : ℕ) (a : Particle K ns) :
    SameFuture seg law p a a := by
  constructor <;> intros <;> rfl

/-- The same future, and the same nodes and weights. -/
structure Like (seg : Bool) (law : Law) (a b : Particle K ns) : Prop
    extends SameFuture seg law 1 a b where
  N : b.N = a.N
  Gs : b.Gs = a.Gs
  n_star : b.n_star = a.n_star

theorem Like.refl (seg : Bool) (law : Law) (a : Particle K ns) : Like seg law a a :=
  ⟨SameFuture.refl _ _ _ _, rfl, rfl, rfl⟩

/-- Phases in step. -/
def LikePhase (R : Law → Particle K ns → Particle K ns → Prop) (A B : PhaseSt K ns) : Prop :=
  B.ph = A.ph ∧ A.ph.n = A.pts.length ∧ List.Forall₂ (R A.ph.law) A.pts B.pts

theorem mapPoints_agree {R : ℕ → Law → Particle K ns → Particle K ns → Prop}
    {S : Law → Particle K ns → Particle K ns → Prop}
    {f : ℕ → Phase K ns → Particle K ns → Res (Particle K ns)}
    (h : ∀ p ph a b, R p ph.law a b → Agree (S ph.law) (f p ph a) (f p ph b))
    {L L' : List (PhaseSt K ns)} (hL : IdxRel (fun p => LikePhase (R p)) L L') :
    Agree (List.Forall₂ (LikePhase S)) (mapPoints f L) (mapPoints f L') := by
  unfold mapPoints
  refine mapPhases_agree (R := fun p => LikePhase (R p)) ?_ 0 (hL.imp fun i A B k => by
    rwa [Nat.zero_add])
  rintro p ⟨ph, l⟩ ⟨ph', l'⟩ ⟨rfl : ph' = ph, hn, hl⟩
  cases h1 : mapN (f p ph') ph'.n l with
  | error e =>
    have := mapN_agree (h p ph') hn hl
    rw [h1] at this
    cases h2 : mapN (f p ph') ph'.n l' with
    | error e' => rw [h2] at this; rw [show e' = e from this]; rfl
    | ok r => rw [h2] at this; exact this.elim
  | ok r =>
    have := mapN_agree (h p ph') hn hl
    rw [h1] at this
    cases h2 : mapN (f p ph') ph'.n l' with
    | error e' => rw [h2] at this; exact this.elim
    | ok r' =>
      rw [h2] at this
      exact ⟨rfl, by change ph'.n = r.length; rw [hn, mapN_length h1], this⟩

theorem mapPoints_like {R S : Law → Particle K ns → Particle K ns → Prop}
    {f : ℕ → Phase K ns → Particle K ns → Res (Particle K ns)}
    (h : ∀ p ph a b, R ph.law a b → Agree (S ph.law) (f p ph a) (f p ph b))
    {L L' : List (PhaseSt K ns)} (hL : List.Forall₂ (LikePhase R) L L') :
    Agree (List.Forall₂ (LikePhase S)) (mapPoints f L) (mapPoints f L') :=
  mapPoints_agree (R := fun _ => R) h (.of_forall₂ hL)

theorem node_like {a b : Particle K ns} (h : b.n_star = a.n_star) (nx N : ℕ) (r : Fin 4) :
    b.node nx N r = a.node nx N r := by
  unfold Particle.node
  rw [h]

theorem p2g_like {seg : Bool} {law : Law} {a b : Particle K ns} (h : Like seg law a b) (nx : ℕ)
    (vel : Vec K) (G : Grid K N ns) : b.p2g nx seg vel G = a.p2g nx seg vel G := by
  unfold Particle.p2g
  congr 1
  funext r G
  rw [node_like h.n_star]
  refine bind_congr fun n => ?_
  cases seg with
  | false => simp only [h.N, h.m]; rfl
  | true => simp only [h.N, h.m, h.phi (.inl rfl), h.pk rfl]

theorem nodalForces_like {seg : Bool} {law : Law} {a b : Particle K ns} (h : Like seg law a b)
    (hs : b.stress = a.stress) (nx : ℕ) (G : Grid K N ns) :
    b.nodalForces nx G = a.nodalForces nx G := by
  unfold Particle.nodalForces
  congr 1
  funext r G
  rw [node_like h.n_star]
  simp only [h.N, h.m, h.V, h.Gs, h.body one_ne_zero, hs]

/-- Related after the constitutive law. -/
structure Strained (seg : Bool) (law : Law) (a b : Particle K ns) : Prop
    extends Like seg law a b where
  dstrain : b.dstrain = a.dstrain
  LL : b.LL = a.LL

theorem updateStrain_like {seg : Bool} {law : Law} {a b : Particle K ns} (h : Like seg law a b)
    (nx : ℕ) (M_tol dt : K) (G : Grid K N ns) :
    Agree (Strained seg law) (a.updateStrain nx M_tol dt G) (b.updateStrain nx M_tol dt G) := by
  unfold Particle.updateStrain
  refine (for4_agree (R := Strained seg law) ?_ ?_).bind ?_
  · intro r a b h
    rw [node_like h.n_star]
    cases a.node nx N r with
    | error e => rfl
    | ok n =>
      refine ⟨⟨⟨h.x, h.v, h.m, h.V, h.body, h.stress, h.dstress, h.dstress_out, h.dev_stress,
        h.sigma_kk, h.pressure, h.gammadot, h.rho, h.phi, h.pk, h.mu⟩, h.N, h.Gs, h.n_star⟩, ?_, ?_⟩
      · change b.dstrain + _ = a.dstrain + _
        simp only [h.dstrain, h.Gs]
      · change b.LL + _ + _ = a.LL + _ + _
        simp only [h.LL, h.Gs]
  · exact ⟨⟨⟨h.x, h.v, h.m, h.V, h.body, h.stress, h.dstress, h.dstress_out, h.dev_stress,
      h.sigma_kk, h.pressure, h.gammadot, h.rho, h.phi, h.pk, h.mu⟩, h.N, h.Gs, h.n_star⟩, rfl, rfl⟩
  · intro a b h
    exact ⟨⟨⟨h.x, h.v, h.m, h.V, h.body, h.stress, h.dstress, h.dstress_out, h.dev_stress,
      h.sigma_kk, h.pressure, h.gammadot, h.rho, h.phi, h.pk, h.mu⟩, h.N, h.Gs, h.n_star⟩,
      h.dstrain, h.LL⟩

/-- Related after the law: the whole stress increment too. -/
structure Relaxed (seg : Bool) (law : Law) (r r' : LawRes K ns) : Prop
    extends Strained seg law r.1 r'.1 where
  stress_all : r'.1.stress = r.1.stress
  dstress_all : r'.1.dstress = r.1.dstress
  vis : r'.2 = r.2

set_option hygiene false in
/-- All fields are as they were or set to the same. -/
local macro "all_kept" : tactic => `(tactic|
  refine ⟨⟨⟨⟨?_, ?_, ?_, ?_, ?_, ?_, ?_, ?_, ?_, ?_, ?_, ?_, ?_, ?_, ?_, ?_⟩, ?_, ?_, ?_⟩, ?_, ?_⟩, ?_, ?_, ?_⟩ <;>
  first | assumption | (intros; rfl) | (intros; exact hs (by decide)) | exact hds (by decide))

theorem runLaw_like {seg : Bool} {law : Law} {a b : Particle K ns} (h : Strained seg law a b)
    (c : LawCtx K ns) : Agree (Relaxed seg law) (runLaw law c a) (runLaw law c b) := by
  obtain ⟨⟨⟨hx, hv, hm, hV, hb, hs, hds, hdo, hdev, hkk, hp, hg, hr, hphi, hpk, hmu⟩, hN, hGs, hn⟩,
    hd, hL⟩ := h
  cases law with
  | rigid =>
    simp only [runLaw, lawRigid]
    change Relaxed _ _ _ _
    all_kept
  | elastic =>
    simp only [runLaw, lawElastic, hd, hs (by decide)]
    change Relaxed _ _ _ _
    all_kept
  | elastic_time =>
    simp only [runLaw, lawElasticTime, hd, hs (by decide), hm, hV]
    refine Agree.ite (fun _ => rfl) fun _ => ?_
    change Relaxed _ _ _ _
    all_kept
  | von_mises =>
    simp only [runLaw, lawVonMises, hd, hs (by decide), hdev rfl, hkk rfl]
    refine Agree.ite (fun _ => rfl) fun _ => Agree.ite (fun _ => rfl) fun _ =>
      Agree.ite (fun _ => rfl) fun _ => ?_
    change Relaxed _ _ _ _
    all_kept
  | dp =>
    simp only [runLaw, lawDp, hmu rfl]
    cases a.mu <;> rfl
  | dp_rate =>
    simp only [runLaw, lawDpRate, hd, hs (by decide)]
    have e : (fun (i j : Fin 3) => if h : i.val < 2 ∧ j.val < 2 then
        -(dpRateGuts c.ops c.mat0 (-block2 a.dstrain) (-block2 a.stress) ⟨i, h.1⟩ ⟨j, h.2⟩)
        else (.fin (b.dstress i j) : XF K)) = fun (i j : Fin 3) => if h : i.val < 2 ∧ j.val < 2 then
        -(dpRateGuts c.ops c.mat0 (-block2 a.dstrain) (-block2 a.stress) ⟨i, h.1⟩ ⟨j, h.2⟩)
        else .fin (a.dstress i j) := by
      funext i j
      split
      · rfl
      · rw [hdo rfl i j ‹_›]
    rw [e]
    refine (Agree.refl (R := fun x y => y = x) (fun _ => rfl) _).bind ?_
    rintro d d' rfl
    refine (Agree.refl (R := fun x y => y = x) (fun _ => rfl) _).bind ?_
    rintro d d' rfl
    change Relaxed _ _ _ _
    all_kept
  | viscous =>
    simp only [runLaw, lawViscous, hd, hs (by decide), hp (by decide)]
    refine Agree.ite (fun _ => rfl) fun _ => ?_
    change Relaxed _ _ _ _
    all_kept
  | bingham =>
    simp only [runLaw, lawBingham, hd, hp (by decide)]
    refine Agree.ite (fun _ => rfl) fun _ => ?_
    refine (Agree.refl (R := fun x y => y = x) (fun _ => rfl) _).bind ?_
    rintro d d' rfl
    refine (Agree.refl (R := fun x y => y = x) (fun _ => rfl) _).bind ?_
    rintro d d' rfl
    change Relaxed _ _ _ _
    all_kept
  | ken_kamrin =>
    simp only [runLaw, lawKenKamrin, hd, hs (by decide), hp (by decide), hr (by decide)]
    refine Agree.ite (fun _ => rfl) fun _ => ?_
    refine (Agree.refl (R := fun x y => y = x) (fun _ => rfl) _).bind ?_
    rintro d d' rfl
    change Relaxed _ _ _ _
    all_kept
  | pouliquen =>
    simp only [runLaw, lawPouliquen, hd, hs (by decide), hp (by decide), hr (by decide),
      hphi (by simp)]
    refine (Agree.refl (R := fun x y => y = x) (fun _ => rfl) _).bind ?_
    rintro d d' rfl
    refine Agree.ite (fun _ => rfl) fun _ => Agree.ite (fun _ => ?_) fun _ => rfl
    change Relaxed _ _ _ _
    all_kept
  | linear_mu =>
    simp only [runLaw, lawLinearMu, linearMuRaw, hd, hs (by decide), hp (by decide), hphi (by simp)]
    refine (Agree.refl (R := fun x y => y = x) (fun _ => rfl) _).bind ?_
    rintro d d' rfl
    refine Agree.ite (fun _ => rfl) fun _ => ?_
    refine (Agree.refl (R := fun x y => y = x) (fun _ => rfl) _).bind ?_
    rintro d d' rfl
    refine (Agree.refl (R := fun x y => y = x) (fun _ => rfl) _).bind ?_
    rintro d d' rfl
    change Relaxed _ _ _ _
    all_kept
  | ken_simple =>
    simp only [runLaw, lawKenSimple, hd, hs (by decide), hp (by decide), hr (by decide),
      hg (by decide)]
    refine (Agree.refl (R := fun x y => y = x) (fun _ => rfl) _).bind ?_
    rintro d d' rfl
    refine Agree.ite (fun _ => rfl) fun _ => ?_
    change Relaxed _ _ _ _
    all_kept
  | viscous_size => rfl
  | pouliquen2D => rfl
  | other => rfl

theorem scatterVis_like {a b : Particle K ns} (hN : b.N = a.N) (hn : b.n_star = a.n_star)
    (hm : b.m = a.m) (nx : ℕ) (l : List (Vis × XF K)) (vis : Vis → Fin N → XF K) :
    scatterVis nx b l vis = scatterVis nx a l vis := by
  unfold scatterVis
  congr 1
  funext r vis
  rw [node_like hn, hN, hm]

/-- Related after the stress update. -/
structure Loaded (seg : Bool) (law : Law) (a b : Particle K ns) : Prop extends Like seg law a b where
  stress_all : b.stress = a.stress

theorem stressStrain_like {seg : Bool} {law : Law} {a b : Particle K ns} (h : Like seg law a b)
    (nx : ℕ) (M_tol : K) (G : Grid K N ns) (c : LawCtx K ns) (vis : Vis → Fin N → XF K) :
    Agree (fun x y => Loaded seg law x.1 y.1 ∧ y.2 = x.2) (a.stressStrain nx M_tol G law c vis)
      (b.stressStrain nx M_tol G law c vis) := by
  unfold Particle.stressStrain
  refine (updateStrain_like h nx M_tol c.dt G).bind fun a b h => ?_
  unfold Particle.updateStress
  refine (runLaw_like h c).bind ?_
  rintro ⟨a, l⟩ ⟨b, l'⟩ h
  obtain rfl : l' = l := h.vis
  dsimp only
  rw [scatterVis_like h.N h.n_star h.m]
  refine (Agree.refl (R := fun x y => y = x) (fun _ => rfl) _).bind ?_
  rintro v v' rfl
  have e : (b.applyStress c.dt).stress = (a.applyStress c.dt).stress := by
    simp only [Particle.applyStress]
    rw [h.stress_all, h.dstress_all, h.LL]
  exact ⟨⟨⟨⟨h.x, h.v, h.m, h.V, h.body, fun _ => e, h.dstress, h.dstress_out, h.dev_stress,
    h.sigma_kk, h.pressure, h.gammadot, h.rho, h.phi, h.pk, h.mu⟩, h.N, h.Gs, h.n_star⟩, e⟩, rfl⟩

theorem LikePhase.mat0 {R : Law → Particle K ns → Particle K ns → Prop} {L L' : List (PhaseSt K ns)}
    (h : List.Forall₂ (LikePhase R) L L') : mat0 L' = mat0 L := by
  cases h with
  | nil => rfl
  | cons h _ => simp only [Mpm.mat0, h.1]

theorem LikePhase.first {R : Law → Particle K ns → Particle K ns → Prop} {L L' : List (PhaseSt K ns)}
    (h : List.Forall₂ (LikePhase R) L L') : first L' = first L := by
  cases h with
  | nil => rfl
  | cons h _ => simp only [Mpm.first, h.1]

theorem updateStressStrain_like {nx ny : ℕ} {P : Par K} {d : Dyn K} {s : Fin ns → K} {seg : Bool}
    {L L' : List (PhaseSt K ns)} {G : Grid K (ny * nx) ns}
    (hL : List.Forall₂ (LikePhase (Like seg)) L L') :
    Agree (fun x y => List.Forall₂ (LikePhase (Loaded seg)) x.1 y.1 ∧ y.2 = x.2)
      (updateStressStrain P d s L G) (updateStressStrain P d s L' G) := by
  unfold updateStressStrain
  rw [LikePhase.mat0 hL]
  refine (forPhases_agree (R := LikePhase (Like seg)) (S := LikePhase (Loaded seg)) ?_ 0 hL
    G.vis).bind ?_
  · rintro p ⟨ph, l⟩ ⟨ph', l'⟩ vis ⟨rfl : ph' = ph, hn, hl⟩
    dsimp only at hn hl ⊢
    generalize hf : (fun (mp : Particle K ns) vis => mp.stressStrain nx P.M_tol G ph'.law
      (lawCtx P d s ((mat0 L).getD ph'.par) p ph') vis) = f
    have := forN_agree (R := Like seg ph'.law) (S := Loaded seg ph'.law) (f := f) (g := f)
      (fun a b vis h => by subst hf; exact stressStrain_like h nx P.M_tol G _ vis) hn hl vis
    revert this
    cases h1 : forN f ph'.n l vis with
    | error e =>
      cases h2 : forN f ph'.n l' vis with
      | error e' => exact fun k => k
      | ok r' => exact fun k => k.elim
    | ok r =>
      cases h2 : forN f ph'.n l' vis with
      | error e' => exact fun k => k.elim
      | ok r' =>
        rintro ⟨k1, k2⟩
        exact ⟨⟨rfl, by change ph'.n = r.1.length; rw [hn, forN_length h1], k1⟩, k2⟩
  · rintro ⟨M, vis⟩ ⟨M', vis'⟩ ⟨k1, rfl : vis' = vis⟩
    exact ⟨k1, rfl⟩

theorem p2gAll_like {seg : Bool} {L L' : List (PhaseSt K ns)}
    (hL : List.Forall₂ (LikePhase (Like seg)) L L') (nx : ℕ) (G : Grid K N ns) :
    p2gAll nx seg L' G = p2gAll nx seg L G := by
  unfold p2gAll
  refine foldPhases_agree (R := LikePhase (Like seg)) ?_ hL G
  rintro ⟨ph, l⟩ ⟨ph', l'⟩ G ⟨rfl : ph' = ph, hn, hl⟩
  refine foldN_agree (R := Like seg ph'.law) ?_ _ hl G
  intro a b G h
  rw [h.v]
  exact p2g_like h nx _ G

theorem nodalForcesAll_like {seg : Bool} {L L' : List (PhaseSt K ns)}
    (hL : List.Forall₂ (LikePhase (Loaded seg)) L L') (nx : ℕ) (G : Grid K N ns) :
    nodalForcesAll nx L' G = nodalForcesAll nx L G := by
  unfold nodalForcesAll
  refine foldPhases_agree (R := LikePhase (Loaded seg)) ?_ hL G
  rintro ⟨ph, l⟩ ⟨ph', l'⟩ G ⟨rfl : ph' = ph, hn, hl⟩
  refine foldN_agree (R := Loaded seg ph'.law) ?_ _ hl G
  intro a b G h
  exact nodalForces_like h.toLike h.stress_all nx G

theorem incrementGravity_like {seg : Bool} {law : Law} {p : ℕ} {a b : Particle K ns}
    (h : SameFuture seg law p a b) (P : Par K) (g : K) :
    SameFuture seg law 1 (a.incrementGravity P g p) (b.incrementGravity P g p) := by
  unfold Particle.incrementGravity
  by_cases hp : p = 0
  · rw [if_pos hp, if_pos hp]
    exact ⟨h.x, h.v, h.m, h.V, fun _ => rfl, h.stress, h.dstress, h.dstress_out, h.dev_stress,
      h.sigma_kk, h.pressure, h.gammadot, h.rho, h.phi, h.pk, h.mu⟩
  · rw [if_neg hp, if_neg hp]
    exact ⟨h.x, h.v, h.m, h.V, fun _ => h.body hp, h.stress, h.dstress, h.dstress_out, h.dev_stress,
      h.sigma_kk, h.pressure, h.gammadot, h.rho, h.phi, h.pk, h.mu⟩

theorem checkPosition_like {seg : Bool} {law : Law} {a b : Particle K ns} (h : Like seg law a b)
    (nx : ℕ) (G : Grid K N ns) : Agree (Like seg law) (a.checkPosition nx G) (b.checkPosition nx G) := by
  have e : b.recoverPosition nx G = a.recoverPosition nx G := by
    unfold Particle.recoverPosition
    congr 1
    funext r x
    rw [node_like h.n_star, h.N]
  unfold Particle.checkPosition
  rw [e]
  refine (Agree.refl (R := fun x y => y = x) (fun _ => rfl) _).bind ?_
  rintro x x' rfl
  rw [h.x]
  exact Agree.ite (fun _ => rfl) fun _ => h

theorem mapPhi_like {law : Law} {a b : Particle K ns} (h : Like true law a b) (nx : ℕ) (M_tol : K)
    (G : Grid K N ns) : Agree (Like true law) (a.mapPhi nx M_tol G) (b.mapPhi nx M_tol G) := by
  unfold Particle.mapPhi
  refine for4_agree (R := Like true law) ?_ h
  intro r a b h
  rw [node_like h.n_star]
  refine (Agree.refl (R := fun x y => y = x) (fun _ => rfl) _).bind ?_
  rintro n n' rfl
  refine Agree.ite (fun _ => ?_) fun _ => h
  refine ⟨⟨h.x, h.v, h.m, h.V, h.body, h.stress, h.dstress, h.dstress_out, h.dev_stress,
    h.sigma_kk, h.pressure, h.gammadot, h.rho, fun _ => ?_, fun _ => ?_, h.mu⟩, h.N, h.Gs, h.n_star⟩
  · simp only [h.phi (.inl rfl), h.N]
  · simp only [h.pk rfl, h.N]

theorem moveGrainsize_like {P : Par K} {G : Grid K N ns} {L L' : List (PhaseSt K ns)}
    (hL : List.Forall₂ (LikePhase (Like true)) L L') :
    Agree (List.Forall₂ (LikePhase (Like true))) (moveGrainsize P G L) (moveGrainsize P G L') := by
  unfold moveGrainsize
  refine (mapPoints_like (fun p ph a b h => mapPhi_like h _ _ G) hL).bind fun M M' k => ?_
  refine Agree.ite (fun _ => mapPoints_like (fun p ph a b h => ?_) k) fun _ => k
  rw [h.phi (.inl rfl)]
  refine (Agree.refl (R := fun x y => y = x) (fun _ => rfl) _).bind ?_
  rintro phi phi' rfl
  exact ⟨⟨h.x, h.v, h.m, h.V, h.body, h.stress, h.dstress, h.dstress_out, h.dev_stress,
    h.sigma_kk, h.pressure, h.gammadot, h.rho, fun _ => rfl, h.pk, h.mu⟩, h.N, h.Gs, h.n_star⟩

theorem move_like {seg : Bool} {law : Law} {a b : Particle K ns} (h : Like seg law a b) (nx : ℕ)
    (M_tol dt : K) (G : Grid K N ns) (iv : Vec K) :
    Agree (fun x y => SameFuture seg law 1 x.1 y.1 ∧ y.2 = x.2) (a.move nx M_tol dt G iv)
      (b.move nx M_tol dt G iv) := by
  unfold Particle.move
  refine (for4_agree (R := fun x y : Particle K ns × Vec K => Like seg law x.1 y.1 ∧ y.2 = x.2)
    (s := (a, iv)) (t := (b, iv)) ?_ ⟨h, rfl⟩).bind ?_
  · rintro r ⟨a, iv⟩ ⟨b, iv'⟩ ⟨h, rfl : iv' = iv⟩
    dsimp only at h ⊢
    rw [node_like h.n_star]
    refine (Agree.refl (R := fun x y => y = x) (fun _ => rfl) _).bind ?_
    rintro n n' rfl
    refine Agree.ite (fun _ => ?_) fun _ => ⟨h, rfl⟩
    simp only [h.N, h.v, h.x]
    exact ⟨⟨⟨rfl, rfl, h.m, h.V, h.body, h.stress, h.dstress, h.dstress_out, h.dev_stress,
      h.sigma_kk, h.pressure, h.gammadot, h.rho, h.phi, h.pk, h.mu⟩, rfl, h.Gs, h.n_star⟩, rfl⟩
  · rintro ⟨a, iv⟩ ⟨b, iv'⟩ ⟨h, rfl : iv' = iv⟩
    dsimp only at h ⊢
    refine (for4_agree (R := fun x y : Particle K ns => Like seg law x y ∧ y.rho = x.rho)
      (s := { a with rho := 0 }) (t := { b with rho := 0 }) ?_ ⟨?_, rfl⟩).bind ?_
    · rintro r a b ⟨h, hr⟩
      rw [node_like h.n_star]
      refine (Agree.refl (R := fun x y => y = x) (fun _ => rfl) _).bind ?_
      rintro n n' rfl
      refine Agree.ite (fun _ => Agree.ite (fun _ => rfl) fun _ => ?_) fun _ => ⟨h, hr⟩
      simp only [h.N, hr]
      exact ⟨⟨⟨h.x, h.v, h.m, h.V, h.body, h.stress, h.dstress, h.dstress_out, h.dev_stress,
        h.sigma_kk, h.pressure, h.gammadot, fun _ => rfl, h.phi, h.pk, h.mu⟩, rfl, h.Gs, h.n_star⟩,
        rfl⟩
    · exact ⟨⟨h.x, h.v, h.m, h.V, h.body, h.stress, h.dstress, h.dstress_out, h.dev_stress,
        h.sigma_kk, h.pressure, h.gammadot, fun _ => rfl, h.phi, h.pk, h.mu⟩, h.N, h.Gs, h.n_star⟩
    · rintro a b ⟨h, hr⟩
      exact ⟨h.toSameFuture, rfl⟩

theorem movePoints_like {seg : Bool} {nx : ℕ} {M_tol dt : K} {iv : Vec K} {G : Grid K N ns}
    {L L' : List (PhaseSt K ns)} (hL : List.Forall₂ (LikePhase (Like seg)) L L') :
    Agree (List.Forall₂ (LikePhase fun law => SameFuture seg law 1))
      (movePoints nx M_tol dt iv G L) (movePoints nx M_tol dt iv G L') := by
  unfold movePoints
  refine mapPhases_agree (R := fun _ => LikePhase (Like seg)) ?_ 0 (.of_forall₂ hL)
  rintro p ⟨ph, l⟩ ⟨ph', l'⟩ ⟨rfl : ph' = ph, hn, hl⟩
  dsimp only at hn hl ⊢
  refine Agree.ite (fun _ => ?_) fun _ => ?_
  · generalize hf : (fun mp : Particle K ns => (.ok (mp.moveRigid dt iv) : Res (Particle K ns))) = f
    have := mapN_agree (R := Like seg ph'.law) (S := SameFuture seg ph'.law 1) (f := f) (g := f)
      (fun a b h => by
        subst hf
        exact ⟨by simp only [Particle.moveRigid, h.x], rfl, h.m, h.V, h.body, h.stress, h.dstress,
          h.dstress_out, h.dev_stress, h.sigma_kk, h.pressure, h.gammadot, h.rho, h.phi, h.pk, h.mu⟩)
      hn hl
    revert this
    cases h1 : mapN f ph'.n l with
    | error e =>
      cases h2 : mapN f ph'.n l' with
      | error e' => exact fun k => k
      | ok r' => exact fun k => k.elim
    | ok r =>
      cases h2 : mapN f ph'.n l' with
      | error e' => exact fun k => k.elim
      | ok r' => exact fun k => ⟨rfl, by change ph'.n = r.length; rw [hn, mapN_length h1], k⟩
  · generalize hf : (fun (mp : Particle K ns) iv => mp.move nx M_tol dt G iv) = f
    have := forN_agree (R := Like seg ph'.law) (S := SameFuture seg ph'.law 1) (f := f) (g := f)
      (fun a b iv h => by subst hf; exact move_like h nx M_tol dt G iv) hn hl ph'.iv
    revert this
    cases h1 : forN f ph'.n l ph'.iv with
    | error e =>
      cases h2 : forN f ph'.n l' ph'.iv with
      | error e' => exact fun k => k
      | ok r' => exact fun k => k.elim
    | ok r =>
      cases h2 : forN f ph'.n l' ph'.iv with
      | error e' => exact fun k => k.elim
      | ok r' =>
        rintro ⟨k1, k2⟩
        obtain ⟨r, w⟩ := r
        obtain ⟨r', w'⟩ := r'
        obtain rfl : w' = w := k2
        exact ⟨rfl, by change ph'.n = r.length; rw [hn, forN_length h1], k1⟩

theorem outlet_like {seg : Bool} {t : Particle K ns → Bool}
    (ht : ∀ a b : Particle K ns, b.x = a.x → t b = t a) {L L' : List (PhaseSt K ns)}
    (hL : List.Forall₂ (LikePhase fun law => SameFuture seg law 1) L L') :
    Agree (List.Forall₂ (LikePhase fun law => SameFuture seg law 1))
      (mapPhases (fun _ a => do
        let (n, l) ← outletLoop t a.ph.n (a.ph.n, a.pts)
        return { ph := { a.ph with n := n }, pts := l }) 0 L)
      (mapPhases (fun _ a => do
        let (n, l) ← outletLoop t a.ph.n (a.ph.n, a.pts)
        return { ph := { a.ph with n := n }, pts := l }) 0 L') := by
  refine mapPhases_agree (R := fun _ => LikePhase fun law => SameFuture seg law 1) ?_ 0
    (.of_forall₂ hL)
  rintro p ⟨ph, l⟩ ⟨ph', l'⟩ ⟨rfl : ph' = ph, hn, hl⟩
  dsimp only at hn hl ⊢
  have := outletLoop_agree (R := SameFuture seg ph'.law 1) (t := t) (u := t)
    (fun a b h => ht a b h.x) ph'.n ph'.n hl
  rw [hn] at this ⊢
  rw [outletLoop_eq] at this ⊢
  cases h2 : outletLoop t l.length (l.length, l') with
  | error e => rw [h2] at this; exact this.elim
  | ok r =>
    rw [h2] at this
    obtain ⟨k1, k2⟩ := this
    obtain ⟨n, r⟩ := r
    obtain rfl : n = _ := k1
    exact ⟨rfl, rfl, k2⟩

theorem appendPoint_like {seg : Bool} {P : Par K} {S0 : First K} {g x y : K} {A B : PhaseSt K ns}
    (h : LikePhase (fun law => SameFuture seg law 1) A B) :
    Agree (LikePhase fun law => SameFuture seg law 1) (appendPoint P S0 g x y A)
      (appendPoint P S0 g x y B) := by
  obtain ⟨ph, l⟩ := A
  obtain ⟨ph', l'⟩ := B
  obtain ⟨rfl : ph' = ph, hn, hl⟩ := h
  unfold appendPoint
  refine (Agree.refl (R := fun x y => y = x) (fun _ => rfl) _).bind ?_
  rintro mp mp' rfl
  refine ⟨rfl, ?_, ?_⟩
  · change ph'.n + 1 = (l ++ [mp']).length
    rw [List.length_append, show ph'.n = l.length from hn]
    rfl
  · exact List.rel_append hl (.cons (SameFuture.refl _ _ _ _) .nil)

theorem foldlM_like {α σ : Type} {R : σ → σ → Prop} {f : σ → α → Res σ}
    (h : ∀ x A B, R A B → Agree R (f A x) (f B x)) (l : List α) {A B : σ} (hA : R A B) :
    Agree R (l.foldlM f A) (l.foldlM f B) := by
  induction l generalizing A B with
  | nil => exact hA
  | cons x l ih =>
    rw [List.foldlM_cons, List.foldlM_cons]
    exact (h x A B hA).bind fun _ _ k => ih k

theorem getReferenceNode_like [FloorRing K] {seg : Bool} {law : Law} {a b : Particle K ns}
    (h : SameFuture seg law 1 a b) (P : GP K) (dx dy : K) :
    Agree (fun a b => SameFuture seg law 1 a b ∧ b.n_star = a.n_star) (a.getReferenceNode P dx dy)
      (b.getReferenceNode P dx dy) := by
  unfold Particle.getReferenceNode
  rw [h.x]
  exact Agree.ite (fun _ => rfl) fun _ => ⟨⟨rfl, h.v, h.m, h.V, h.body, h.stress, h.dstress,
    h.dstress_out, h.dev_stress, h.sigma_kk, h.pressure, h.gammadot, h.rho, h.phi, h.pk, h.mu⟩, rfl⟩

theorem getBasisFunctions_like {seg : Bool} {law : Law} {a b : Particle K ns}
    (h : SameFuture seg law 1 a b) (hn : b.n_star = a.n_star) (G : Grid K N ns) :
    Agree (Like seg law) (a.getBasisFunctions G) (b.getBasisFunctions G) := by
  unfold Particle.getBasisFunctions
  rw [h.x, hn]
  refine (Agree.refl (R := fun x y => y = x) (fun _ => rfl) _).bind ?_
  rintro n n' rfl
  exact Agree.ite (fun _ => rfl) fun _ => ⟨⟨rfl, h.v, h.m, h.V, h.body, h.stress, h.dstress,
    h.dstress_out, h.dev_stress, h.sigma_kk, h.pressure, h.gammadot, h.rho, h.phi, h.pk, h.mu⟩,
    rfl, rfl, rfl⟩

end

section
variable {K : Type} [Field K] [LinearOrder K] [IsStrictOrderedRing K] [FloorRing K]
variable {P : Par K} {interp : Interp K P.G.N}

/-- States in step: everything but what the points need not remember is the same. -/
structure LikeSt (R : Law → Particle K P.G.ns → Particle K P.G.ns → Prop) (s t : St P) : Prop where
  dyn : t.dyn = s.dyn
  G : t.G = s.G
  L : List.Forall₂ (LikePhase R) s.L t.L

theorem gridPhase_like {s t : St P} (hd : t.dyn = s.dyn) (hG : SameStatic s.G t.G)
    (hc : Counted s.L) (hL : SameFutures P.segregate_grid s.L t.L) :
    Agree (LikeSt (Like P.segregate_grid)) (gridPhase P s) (gridPhase P t) := by
  have h0 : IdxRel (fun p => LikePhase fun law => SameFuture P.segregate_grid law p) s.L t.L :=
    ⟨hL.1, fun p A B hA hB => ⟨(hL.2 p A B hA hB).1, hc A (List.mem_of_getElem? hA),
      (hL.2 p A B hA hB).2⟩⟩
  unfold gridPhase
  dsimp only
  rw [wipe_eq hG, hd]
  refine (mapPoints_agree (S := fun law => SameFuture P.segregate_grid law 1)
    (R := fun p law => SameFuture P.segregate_grid law p)
    (f := fun p _ mp => .ok (mp.incrementGravity P (s.dyn.updateForces P).g p))
    (fun p ph a b h => incrementGravity_like h P _) h0).bind fun L L' h1 => ?_
  refine (mapPoints_like (S := fun law a b => SameFuture P.segregate_grid law 1 a b ∧
    b.n_star = a.n_star) (fun p ph a b h => getReferenceNode_like h P.G _ _) h1).bind
    fun L L' h2 => ?_
  refine (mapPoints_like (S := Like P.segregate_grid)
    (fun p ph a b h => getBasisFunctions_like h.1 h.2 _) h2).bind fun L L' h3 => ?_
  refine (whenSet_agree (R := List.Forall₂ (LikePhase (Like P.segregate_grid)))
    (fun L L' h => mapPoints_like (fun p ph a b h => checkPosition_like h _ _) h) h3).bind
    fun L L' h4 => ?_
  unfold getNodalMassMomentum
  rw [p2gAll_like h4]
  refine (Agree.refl (R := fun x y => y = x) (fun _ => rfl) _).bind ?_
  rintro G G' rfl
  refine (updateStressStrain_like (P := P) h4).bind ?_
  rintro ⟨M, G⟩ ⟨M', G'⟩ ⟨h5, rfl : G' = G⟩
  dsimp only at h5 ⊢
  unfold getNodalForces
  rw [nodalForcesAll_like h5]
  refine (Agree.refl (R := fun x y => y = x) (fun _ => rfl) _).bind ?_
  rintro G G' rfl
  exact ⟨rfl, rfl, h5.imp fun A B k => ⟨k.1, k.2.1, k.2.2.imp fun _ _ k => k.toLike⟩⟩

theorem momentumPhase_like {s t : St P} (h : LikeSt (Like P.segregate_grid) s t) :
    Agree (LikeSt (Like P.segregate_grid)) (momentumPhase P interp s) (momentumPhase P interp t) := by
  unfold momentumPhase
  rw [h.G, h.dyn, LikePhase.mat0 h.L]
  refine (Agree.refl (R := fun x y => y = x) (fun _ => rfl) _).bind ?_
  rintro G G' rfl
  exact ⟨rfl, rfl, h.L⟩

theorem segregationPhase_like {s t : St P} (h : LikeSt (Like P.segregate_grid) s t) :
    Agree (LikeSt (Like P.segregate_grid)) (segregationPhase P interp s)
      (segregationPhase P interp t) := by
  unfold segregationPhase
  refine Agree.ite (fun hs => Agree.ite (fun _ => rfl) fun _ => ?_) fun _ => h
  dsimp only
  rw [h.G, h.dyn, LikePhase.mat0 h.L]
  have hL := h.L
  rw [hs] at hL
  refine (moveGrainsize_like hL).bind fun L L' k => ?_
  rw [← hs] at k
  exact ⟨rfl, rfl, k⟩

theorem pointsPhase_like {s t : St P} (h : LikeSt (Like P.segregate_grid) s t) :
    Agree (LikeSt fun law => SameFuture P.segregate_grid law 1) (pointsPhase P s)
      (pointsPhase P t) := by
  unfold pointsPhase
  rw [h.G, h.dyn]
  refine (movePoints_like h.L).bind fun L L' h1 => ?_
  refine (whenSet_agree (fun L L' h => outlet_like (fun a b e => by rw [e]) h) h1).bind
    fun L L' h2 => ?_
  refine (whenSet_agree (fun L L' h => outlet_like (fun a b e => by rw [e]) h) h2).bind
    fun L L' h3 => ?_
  refine (whenSet_agree (R := List.Forall₂ (LikePhase fun law => SameFuture P.segregate_grid law 1))
    (fun L L' h => ?_) h3).bind fun L L' h4 => ?_
  · unfold inletRight
    rw [LikePhase.first h]
    refine mapPhases_agree (R := fun _ => LikePhase fun law => SameFuture P.segregate_grid law 1)
      (fun p A B k => ?_) 0 (.of_forall₂ h)
    rw [k.1]
    refine (Agree.refl (R := fun x y => y = x) (fun _ => rfl) _).bind ?_
    rintro c c' rfl
    refine Agree.ite (fun _ => foldlM_like (fun y A B k => ?_) _ k) fun _ => k
    rw [k.1]
    exact appendPoint_like k
  refine (whenSet_agree (R := List.Forall₂ (LikePhase fun law => SameFuture P.segregate_grid law 1))
    (fun L L' h => ?_) h4).bind fun L L' h5 => ?_
  · unfold inletTop
    rw [LikePhase.first h]
    refine mapPhases_agree (R := fun _ => LikePhase fun law => SameFuture P.segregate_grid law 1)
      (fun p A B k => ?_) 0 (.of_forall₂ h)
    rw [k.1]
    refine (Agree.refl (R := fun x y => y = x) (fun _ => rfl) _).bind ?_
    rintro c c' rfl
    exact Agree.ite (fun _ => appendPoint_like k) fun _ => k
  refine (whenSet_agree (R := List.Forall₂ (LikePhase fun law => SameFuture P.segregate_grid law 1))
    (fun L L' h => ?_) h5).bind fun L L' h6 => ?_
  · refine mapPoints_like (fun p ph a b h => ?_) h
    exact ⟨by simp only [h.x], h.v, h.m, h.V, h.body, h.stress, h.dstress,
      h.dstress_out, h.dev_stress, h.sigma_kk, h.pressure, h.gammadot, h.rho, h.phi, h.pk, h.mu⟩
  exact ⟨rfl, rfl, h6⟩

theorem timeMarch_like {s t : St P} (hd : t.dyn = s.dyn) (hG : SameStatic s.G t.G)
    (hc : Counted s.L) (hL : SameFutures P.segregate_grid s.L t.L) :
    Agree (LikeSt fun law => SameFuture P.segregate_grid law 1) (timeMarch P interp s)
      (timeMarch P interp t) := by
  unfold timeMarch
  exact (gridPhase_like hd hG hc hL).bind fun _ _ h => (momentumPhase_like h).bind fun _ _ h =>
    (segregationPhase_like h).bind fun _ _ h => pointsPhase_like h

/-- From after a step on. -/
theorem LikeSt.next {s t : St P} (h : LikeSt (fun law => SameFuture P.segregate_grid law 1) s t) :
    Counted s.L ∧ SameFutures P.segregate_grid s.L t.L := by
  have h' := IdxRel.of_forall₂ h.L
  refine ⟨fun A hA => ?_, h'.1, fun p A B hA hB => ⟨(h'.2 p A B hA hB).1,
    (h'.2 p A B hA hB).2.2.imp fun a b k => ⟨k.x, k.v, k.m, k.V, fun _ => k.body one_ne_zero,
      k.stress, k.dstress, k.dstress_out, k.dev_stress, k.sigma_kk, k.pressure, k.gammadot, k.rho,
      k.phi, k.pk, k.mu⟩⟩⟩
  obtain ⟨p, hp⟩ := List.mem_iff_getElem?.1 hA
  have hlt : p < t.L.length := h'.1 ▸ (List.getElem?_eq_some_iff.1 hp).1
  exact (h'.2 p A _ hp (List.getElem?_eq_getElem hlt)).2.1

theorem steps_like (n : ℕ) {s t : St P} (hd : t.dyn = s.dyn) (hG : SameStatic s.G t.G)
    (hc : Counted s.L) (hL : SameFutures P.segregate_grid s.L t.L) :
    Agree (LikeSt fun law => SameFuture P.segregate_grid law 1) (steps P interp (n + 1) s)
      (steps P interp (n + 1) t) := by
  induction n generalizing s t with
  | zero =>
    exact (timeMarch_like hd hG hc hL).bind fun s t h =>
      ⟨congrArg (fun d : Dyn K => { d with t := d.t + d.dt, tstep := d.tstep + 1 }) h.dyn, h.G, h.L⟩
  | succ n ih =>
    refine (timeMarch_like hd hG hc hL).bind fun s t h => ?_
    exact ih (s := stepTime P s) (t := stepTime P t)
      (congrArg (fun d : Dyn K => { d with t := d.t + d.dt, tstep := d.tstep + 1 }) h.dyn)
      (by change SameStatic s.G t.G; rw [h.G]; exact .refl _) h.next.1 h.next.2

/-- C132.  What a simulation remembers: two states with the same clock, node table, walls and
phases, whose points agree in the fields that `SameFuture` lists for their law, have the same future
over any number of steps.  They stop with the same exception, or leave the same grid (with all its
fields) and points that agree again.  Nothing else in the state matters: not the strains, and for the
fluids except `ken_simple` not the shear rate. -/
theorem c132_memory (n : ℕ) {s t : St P} (hd : t.dyn = s.dyn) (hG : SameStatic s.G t.G)
    (hc : Counted s.L) (hL : SameFutures P.segregate_grid s.L t.L) :
    (∀ s', steps P interp (n + 1) s = .ok s' → ∃ t', steps P interp (n + 1) t = .ok t' ∧
      t'.dyn = s'.dyn ∧ t'.G = s'.G ∧ SameFutures P.segregate_grid s'.L t'.L) ∧
    ∀ e, steps P interp (n + 1) s = .error e → steps P interp (n + 1) t = .error e := by
  have h := steps_like (interp := interp) n hd hG hc hL
  constructor
  · intro s' hs
    rw [hs] at h
    cases ht : steps P interp (n + 1) t with
    | error e => rw [ht] at h; exact h.elim
    | ok t' => rw [ht] at h; exact ⟨t', rfl, h.dyn, h.G, h.next.2⟩
  · intro e hs
    rw [hs] at h
    cases ht : steps P interp (n + 1) t with
    | error e' => rw [ht] at h; exact congrArg _ h
    | ok t' => rw [ht] at h; exact h.elim

end

/-- The example with another law, its points changed by `f`. -/
def Ex.memL (law : Law) (f : Particle ℚ 2 → Particle ℚ 2) : List (PhaseSt ℚ 2) :=
  [{ ph := { Ex.ph with law := law }, pts := [f Ex.mp, f Ex.mp2] }]

theorem Ex.memCounted (law : Law) (f : Particle ℚ 2 → Particle ℚ 2) : Counted (Ex.memL law f) := by
  intro a ha
  simp only [Ex.memL, List.mem_singleton] at ha
  subst ha
  rfl

/-- The same with size-dependent friction. -/
def Ex.memA (law : Law) (f : Particle ℚ 2 → Particle ℚ 2) : List (PhaseSt ℚ 2) :=
  [{ ph := { Ex.ph with law := law, par := { Ex.mat with
      mu_0 := .arr [1, 2], delta_mu := .arr [1, 1], I_0 := .arr [1, 1] } }
     pts := [f Ex.mp, f Ex.mp2] }]

def Ex.memTells (L L' : List (PhaseSt ℚ 2)) : Bool :=
  match mkGrid Ex.par.G Ex.par.B with
  | .error _ => false
  | .ok G =>
    match timeMarch Ex.par (fun _ _ => (false, 0)) { dyn := Ex.dyn, L := L, G := G },
      timeMarch Ex.par (fun _ _ => (false, 0)) { dyn := Ex.dyn, L := L', G := G } with
    | .ok s, .ok t => !decide ((points s.L).map (·.stress) = (points t.L).map (·.stress))
    | _, _ => false

theorem Ex.tells {L L' : List (PhaseSt ℚ 2)} (k : Ex.memTells L L' = true) :
    Tells Ex.par Ex.dyn L L' := by
  unfold Ex.memTells at k
  split at k
  · cases k
  · rename_i G hG
    split at k
    · rename_i s t hs ht
      exact ⟨G, s, t, hG, hs, ht, by simpa using k⟩
    · cases k

/-- Points whose strains, deviators and old force have been made up. -/
example : ∃ G s', mkGrid Ex.par.G Ex.par.B = .ok G ∧
    steps Ex.par (Ex.noInterp Ex.par) 1 { dyn := Ex.dyn, L := Ex.memL .elastic id, G := G } =
      .ok s' ∧
    ∃ t', steps Ex.par (Ex.noInterp Ex.par) 1
        { dyn := Ex.dyn, G := G, L := Ex.memL .elastic fun q =>
          { q with strain := 1, b := 0, dev_stress := 1, pressure := 7, rho := 0 } } = .ok t' ∧
      t'.dyn = s'.dyn ∧ t'.G = s'.G ∧ SameFutures false s'.L t'.L := by
  obtain ⟨G, s', hG, hs, -⟩ := Ex.run_ok (P := Ex.par) (d := Ex.dyn) (L := Ex.memL .elastic id)
    (n := 1) (check := fun _ => true) (by decide +kernel)
  refine ⟨G, s', hG, hs, ?_⟩
  refine (c132_memory (P := Ex.par) 0 (s := { dyn := Ex.dyn, L := Ex.memL .elastic id, G := G })
    (t := { dyn := Ex.dyn, G := G, L := Ex.memL .elastic fun q =>
          { q with strain := 1, b := 0, dev_stress := 1, pressure := 7, rho := 0 } })
    rfl (.refl _) (Ex.memCounted _ _) ?_).1 s' hs
  have key : ∀ q : Particle ℚ 2, SameFuture false .elastic 0 q
      { q with strain := 1, b := 0, dev_stress := 1, pressure := 7, rho := 0 } := by
    intro q
    constructor <;> simp
  refine ⟨rfl, ?_⟩
  rintro (_ | i) A B hA hB
  · cases hA
    cases hB
    exact ⟨rfl, .cons (key _) (.cons (key _) .nil)⟩
  · cases hA

/-- C132.  Fields beyond position, velocity, mass and volume that a restart has to carry, each with a
law under which points that differ in that field alone have different stresses one step later: the
stress itself; the pressure of the fluids, which the stress does not determine; the deviator and the
mean stress that `von_mises` keeps beside the stress; the last stress increment, which `rigid` and
`bingham` add again in every step, `dp_rate` out of plane; the density, which `ken_kamrin`,
`pouliquen` and `ken_simple` read; the size fractions of `pouliquen`; and the shear rate of
`ken_simple`, which the law itself never updates. -/
theorem c132_needed :
    Tells Ex.par Ex.dyn (Ex.memL .elastic id) (Ex.memL .elastic fun q => { q with stress := 0 }) ∧
    Tells Ex.par Ex.dyn (Ex.memL .viscous id)
      (Ex.memL .viscous fun q => { q with pressure := -1 }) ∧
    Tells Ex.par Ex.dyn (Ex.memL .bingham id)
      (Ex.memL .bingham fun q => { q with pressure := -1 }) ∧
    Tells Ex.par Ex.dyn (Ex.memL .von_mises id)
      (Ex.memL .von_mises fun q => { q with sigma_kk := 0 }) ∧
    Tells Ex.par Ex.dyn (Ex.memL .von_mises id)
      (Ex.memL .von_mises fun q => { q with dev_stress := !![0, 1, 0; 1, 0, 0; 0, 0, 0] }) ∧
    Tells Ex.par Ex.dyn (Ex.memL .rigid id) (Ex.memL .rigid fun q => { q with dstress := 1 }) ∧
    Tells Ex.par Ex.dyn (Ex.memL .bingham id) (Ex.memL .bingham fun q => { q with dstress := 1 }) ∧
    Tells Ex.par Ex.dyn (Ex.memL .dp_rate id)
      (Ex.memL .dp_rate fun q => { q with dstress := !![0, 0, 0; 0, 0, 0; 0, 0, 1] }) ∧
    Tells Ex.par Ex.dyn (Ex.memL .ken_kamrin id)
      (Ex.memL .ken_kamrin fun q => { q with rho := 1 / 2 }) ∧
    Tells Ex.par Ex.dyn (Ex.memL .ken_simple id)
      (Ex.memL .ken_simple fun q => { q with rho := 3000 }) ∧
    Tells Ex.par Ex.dyn
      (Ex.memL .ken_simple fun q => { q with rho := 3000, pressure := -1, gammadot := 1 })
      (Ex.memL .ken_simple fun q => { q with rho := 3000, pressure := -1, gammadot := 2 }) ∧
    Tells Ex.par Ex.dyn (Ex.memA .pouliquen fun q => { q with pressure := -1 })
      (Ex.memA .pouliquen fun q => { q with pressure := -2 }) ∧
    Tells Ex.par Ex.dyn (Ex.memA .pouliquen fun q => { q with pressure := -1 })
      (Ex.memA .pouliquen fun q => { q with pressure := -1, rho := 1 / 2 }) ∧
    Tells Ex.par Ex.dyn (Ex.memA .pouliquen fun q => { q with pressure := -1 })
      (Ex.memA .pouliquen fun q => { q with pressure := -1, phi := ![0, 1] }) :=
  ⟨Ex.tells (by decide +kernel), Ex.tells (by decide +kernel), Ex.tells (by decide +kernel),
    Ex.tells (by decide +kernel), Ex.tells (by decide +kernel), Ex.tells (by decide +kernel),
    Ex.tells (by decide +kernel), Ex.tells (by decide +kernel), Ex.tells (by decide +kernel),
    Ex.tells (by decide +kernel), Ex.tells (by decide +kernel), Ex.tells (by decide +kernel),
    Ex.tells (by decide +kernel), Ex.tells (by decide +kernel)⟩

end Mpm

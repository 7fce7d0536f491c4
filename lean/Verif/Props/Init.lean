import Verif.Model.Init
import Verif.Lemmas.Basic
import Mathlib.Data.Rat.Floor
import Mathlib.Tactic.FieldSimp

set_option linter.unusedSectionVars false

/-!
# Parameters: defaults (C54)
-/

namespace Mpm

section
variable {K : Type}

theorem Obj.default_some {o : Obj K} {n : String} {v : Val K} (h : o n = some v) (m : String)
    (w : Val K) : (o.default m w) n = some v := by
  unfold Obj.default
  split
  · exact h
  · rename_i hm
    unfold Obj.set
    rw [Function.update_of_ne, h]
    rintro rfl
    rw [h] at hm
    exact hm rfl

theorem Obj.default_other {o : Obj K} {n m : String} (h : n ≠ m) (w : Val K) :
    (o.default m w) n = o n := by
  unfold Obj.default
  split
  · rfl
  · unfold Obj.set
    rw [Function.update_of_ne h]

theorem Obj.default_none {o : Obj K} {n : String} (h : o n = none) (w : Val K) :
    (o.default n w) n = some w := by
  unfold Obj.default
  rw [h]
  simp [Obj.set]

theorem Obj.default_has {o : Obj K} {n : String} (h : (o n).isSome) (w : Val K) :
    o.default n w = o := by
  unfold Obj.default
  rw [if_pos h]

theorem Obj.defaults_some {o : Obj K} {n : String} {v : Val K} (h : o n = some v)
    (l : List (String × Val K)) : (o.defaults l) n = some v := by
  unfold Obj.defaults
  induction l generalizing o with
  | nil => exact h
  | cons d l ih => exact ih (Obj.default_some h _ _)

theorem Obj.defaults_other {o : Obj K} {n : String} {l : List (String × Val K)}
    (h : n ∉ l.map (·.1)) : (o.defaults l) n = o n := by
  unfold Obj.defaults
  induction l generalizing o with
  | nil => rfl
  | cons d l ih =>
    simp only [List.map_cons, List.mem_cons, not_or] at h
    rw [List.foldl_cons, ih h.2, Obj.default_other h.1]

theorem Obj.defaults_none {o : Obj K} {n : String} {v : Val K} (h : o n = none)
    {l : List (String × Val K)} (hl : (l.map (·.1)).Nodup) (hn : (n, v) ∈ l) :
    (o.defaults l) n = some v := by
  unfold Obj.defaults
  induction l generalizing o with
  | nil => cases hn
  | cons d l ih =>
    simp only [List.map_cons, List.nodup_cons] at hl
    rw [List.foldl_cons]
    rcases List.mem_cons.1 hn with e | hn
    · subst e
      exact Obj.defaults_some (Obj.default_none h _) l
    · refine ih ?_ hl.2 hn
      rw [Obj.default_other, h]
      rintro rfl
      exact hl.1 (List.mem_map.2 ⟨_, hn, rfl⟩)

theorem Obj.defaults_has {o : Obj K} {l : List (String × Val K)}
    (h : ∀ n ∈ l.map (·.1), (o n).isSome) : o.defaults l = o := by
  unfold Obj.defaults
  induction l with
  | nil => rfl
  | cons d l ih =>
    rw [List.foldl_cons, Obj.default_has (h d.1 (by simp))]
    exact ih fun n hn => h n (by simp only [List.map_cons, List.mem_cons]; exact Or.inr hn)

theorem Obj.defaultM_ok {o o' : Obj K} {n : String} {e : Res (Val K)}
    (h : o.defaultM n e = .ok o') :
    ((o n).isSome ∧ o' = o) ∨ (o n = none ∧ ∃ v, e = .ok v ∧ o' = o.set n v) := by
  unfold Obj.defaultM at h
  split at h
  · rename_i hs
    cases h
    exact Or.inl ⟨hs, rfl⟩
  · rename_i hs
    obtain ⟨v, h1, h2⟩ := res_bind_ok.1 h
    cases h2
    exact Or.inr ⟨by simpa using hs, v, h1, rfl⟩

theorem Obj.defaultM_some {o o' : Obj K} {m : String} {e : Res (Val K)}
    (h : o.defaultM m e = .ok o') {n : String} {v : Val K} (hn : o n = some v) :
    o' n = some v := by
  rcases Obj.defaultM_ok h with ⟨-, rfl⟩ | ⟨hm, w, -, rfl⟩
  · exact hn
  · unfold Obj.set
    rw [Function.update_of_ne, hn]
    rintro rfl
    rw [hn] at hm; cases hm

theorem Obj.defaultM_other {o o' : Obj K} {m : String} {e : Res (Val K)}
    (h : o.defaultM m e = .ok o') {n : String} (hn : n ≠ m) : o' n = o n := by
  rcases Obj.defaultM_ok h with ⟨-, rfl⟩ | ⟨hm, w, -, rfl⟩
  · rfl
  · unfold Obj.set
    rw [Function.update_of_ne hn]

theorem Obj.defaultM_self {o o' : Obj K} {m : String} {e : Res (Val K)}
    (h : o.defaultM m e = .ok o') :
    (o' m).isSome ∧ (o m = none → ∃ v, e = .ok v ∧ o' m = some v) := by
  rcases Obj.defaultM_ok h with ⟨hs, rfl⟩ | ⟨hm, w, hw, rfl⟩
  · exact ⟨hs, fun h0 => by rw [h0] at hs; cases hs⟩
  · have : (o.set m w) m = some w := Function.update_self _ _ _
    exact ⟨by rw [this]; rfl, fun _ => ⟨w, hw, this⟩⟩

theorem Obj.defaultM_has {o : Obj K} {m : String} (e : Res (Val K)) (h : (o m).isSome) :
    o.defaultM m e = .ok o := by
  unfold Obj.defaultM
  rw [if_pos h]

theorem Obj.set_other {o : Obj K} {n m : String} (h : n ≠ m) (v : Val K) :
    (o.set m v) n = o n := Function.update_of_ne h _ _

theorem Obj.set_self (o : Obj K) (n : String) (v : Val K) : (o.set n v) n = some v :=
  Function.update_self _ _ _

theorem Obj.set_same {o : Obj K} {n : String} {v : Val K} (h : o n = some v) : o.set n v = o := by
  unfold Obj.set
  rw [← h]
  exact Function.update_eq_self _ _

theorem Obj.get_ok {o : Obj K} {n : String} {v : Val K} : o.get n = .ok v ↔ o n = some v := by
  unfold Obj.get
  cases o n with
  | none => simp
  | some w => simp

end

section
variable {K : Type} [Field K] [LinearOrder K] [IsStrictOrderedRing K] [FloorRing K]

/-- The stages of `initP`. -/
theorem initP_ok {P P' : Obj K} (h : initP P = .ok P') :
    ∃ P1 P2 P3 P4 : Obj K, (P.defaults defaultsP1).defaultM "nt" (defaultNt (P.defaults defaultsP1))
        = .ok P1 ∧
      (P1.defaults defaultsP2).defaultM "g" ((P1.defaults defaultsP2).get "max_g") = .ok P2 ∧
      P2.defaultM "q_v" (P2.get "max_q") = .ok P3 ∧
      P3.defaultM "q_h" (P3.get "max_q") = .ok P4 ∧ P' = P4.defaults defaultsP3 := by
  unfold initP at h
  obtain ⟨P1, h1, h⟩ := res_bind_ok.1 h
  obtain ⟨P2, h2, h⟩ := res_bind_ok.1 h
  obtain ⟨P3, h3, h⟩ := res_bind_ok.1 h
  obtain ⟨P4, h4, h⟩ := res_bind_ok.1 h
  cases h
  exact ⟨P1, P2, P3, P4, h1, h2, h3, h4, rfl⟩

theorem initP_some {P P' : Obj K} (h : initP P = .ok P') {n : String} {v : Val K}
    (hn : P n = some v) : P' n = some v := by
  obtain ⟨P1, P2, P3, P4, h1, h2, h3, h4, rfl⟩ := initP_ok h
  exact Obj.defaults_some (Obj.defaultM_some h4 (Obj.defaultM_some h3 (Obj.defaultM_some h2
    (Obj.defaults_some (Obj.defaultM_some h1 (Obj.defaults_some hn _)) _)))) _

/-- Names given a value by `initP`. -/
def namesP : List String :=
  ["t", "tstep", "grid_save", "mp_save", "M_tol", "nt", "max_g", "max_q", "g", "q_v", "q_h",
   "has_yielded", "damping", "theta", "pressure", "segregate_mp", "segregate_grid",
   "initial_flow", "smooth_gamma_dot", "smooth_grad2", "normalise_phi", "time_stepping", "CFL"]

theorem initP_other {P P' : Obj K} (h : initP P = .ok P') {n : String} (hn : n ∉ namesP) :
    P' n = P n := by
  obtain ⟨P1, P2, P3, P4, h1, h2, h3, h4, rfl⟩ := initP_ok h
  have e : namesP = defaultsP1.map (fun d : String × Val K => d.1) ++ ["nt"] ++
    defaultsP2.map (fun d : String × Val K => d.1) ++ ["g", "q_v", "q_h"] ++
    defaultsP3.map (fun d : String × Val K => d.1) := rfl
  rw [e] at hn
  simp only [List.mem_append, not_or, List.mem_cons, List.not_mem_nil, or_false] at hn
  obtain ⟨⟨⟨⟨a1, a2⟩, a3⟩, a4, a5, a6⟩, a7⟩ := hn
  rw [Obj.defaults_other a7, Obj.defaultM_other h4 a6, Obj.defaultM_other h3 a5,
    Obj.defaultM_other h2 a4, Obj.defaults_other a3, Obj.defaultM_other h1 a2,
    Obj.defaults_other a1]

abbrev namesP3 : List String := ["has_yielded", "damping", "theta", "pressure", "segregate_mp",
  "segregate_grid", "initial_flow", "smooth_gamma_dot", "smooth_grad2", "normalise_phi",
  "time_stepping", "CFL"]

theorem nodup1 : ((defaultsP1 (K := K)).map (·.1)).Nodup := by
  show ["t", "tstep", "grid_save", "mp_save", "M_tol"].Nodup
  decide

theorem nodup2 : ((defaultsP2 (K := K)).map (·.1)).Nodup := by
  show ["max_g", "max_q"].Nodup
  decide

theorem nodup3 : ((defaultsP3 (K := K)).map (·.1)).Nodup := by
  show ["has_yielded", "damping", "theta", "pressure", "segregate_mp", "segregate_grid",
    "initial_flow", "smooth_gamma_dot", "smooth_grad2", "normalise_phi", "time_stepping",
    "CFL"].Nodup
  decide

theorem initP_const {P P' : Obj K} (h : initP P = .ok P') {n : String} {v : Val K}
    (hn : P n = none) (hv : (n, v) ∈ defaultsP1 ++ defaultsP2 ++ defaultsP3) :
    P' n = some v := by
  obtain ⟨P1, P2, P3, P4, h1, h2, h3, h4, rfl⟩ := initP_ok h
  rcases List.mem_append.1 hv with hv | hv
  · rcases List.mem_append.1 hv with hv | hv
    · exact Obj.defaults_some (Obj.defaultM_some h4 (Obj.defaultM_some h3 (Obj.defaultM_some h2
        (Obj.defaults_some (Obj.defaultM_some h1 (Obj.defaults_none hn nodup1 hv)) _)))) _
    · have hmem : n ∈ ["max_g", "max_q"] := List.mem_map_of_mem (f := fun d => d.1) hv
      have a1 : n ∉ (defaultsP1 (K := K)).map (·.1) :=
        (by decide : ∀ n ∈ ["max_g", "max_q"], n ∉ ["t", "tstep", "grid_save", "mp_save", "M_tol"])
          n hmem
      have a2 : n ≠ "nt" := (by decide : ∀ n ∈ ["max_g", "max_q"], n ≠ "nt") n hmem
      exact Obj.defaults_some (Obj.defaultM_some h4 (Obj.defaultM_some h3 (Obj.defaultM_some h2
        (Obj.defaults_none (by rw [Obj.defaultM_other h1 a2, Obj.defaults_other a1, hn])
          nodup2 hv)))) _
  · have hmem : n ∈ namesP3 := List.mem_map_of_mem (f := fun d => d.1) hv
    have a1 : n ∉ (defaultsP1 (K := K)).map (·.1) :=
      (by decide : ∀ n ∈ namesP3, n ∉ ["t", "tstep", "grid_save", "mp_save", "M_tol"]) n hmem
    have a2 : n ∉ (defaultsP2 (K := K)).map (·.1) :=
      (by decide : ∀ n ∈ namesP3, n ∉ ["max_g", "max_q"]) n hmem
    have a3 : n ∉ ["nt", "g", "q_v", "q_h"] :=
      (by decide : ∀ n ∈ namesP3, n ∉ ["nt", "g", "q_v", "q_h"]) n hmem
    simp only [List.mem_cons, not_or, List.not_mem_nil, or_false] at a3
    obtain ⟨b1, b2, b3, b4⟩ := a3
    refine Obj.defaults_none ?_ nodup3 hv
    rw [Obj.defaultM_other h4 b4, Obj.defaultM_other h3 b3, Obj.defaultM_other h2 b2,
      Obj.defaults_other a2, Obj.defaultM_other h1 b1, Obj.defaults_other a1, hn]

/-- The defaults of `initP` that depend on other attributes. -/
theorem initP_derived {P P' : Obj K} (h : initP P = .ok P') :
    (P "nt" = none → ∃ a b t_f dt, P' "t_f" = some a ∧ P' "dt" = some b ∧ a.toNum = .ok t_f ∧
      b.toNum = .ok dt ∧ dt ≠ 0 ∧ P' "nt" = some (.int (pyTrunc (t_f / dt)))) ∧
    (P "g" = none → P' "g" = P' "max_g") ∧ (P "q_v" = none → P' "q_v" = P' "max_q") ∧
    (P "q_h" = none → P' "q_h" = P' "max_q") ∧ ∀ n ∈ namesP, (P' n).isSome := by
  have h' := h
  obtain ⟨P1, P2, P3, P4, h1, h2, h3, h4, rfl⟩ := initP_ok h
  have n1 : ∀ {n v}, P1 n = some v → (P4.defaults defaultsP3) n = some v := fun hn =>
    Obj.defaults_some (Obj.defaultM_some h4 (Obj.defaultM_some h3 (Obj.defaultM_some h2
        (Obj.defaults_some hn _)))) _
  have n2 : ∀ {n v}, P2 n = some v → (P4.defaults defaultsP3) n = some v := fun hn =>
    Obj.defaults_some (Obj.defaultM_some h4 (Obj.defaultM_some h3 hn)) _
  have n3 : ∀ {n v}, P3 n = some v → (P4.defaults defaultsP3) n = some v := fun hn =>
    Obj.defaults_some (Obj.defaultM_some h4 hn) _
  have d1 : ∀ n, n ∉ namesP → (P.defaults defaultsP1) n = P n := by
    intro n hn
    refine Obj.defaults_other fun hm => hn ?_
    have : ∀ n ∈ ["t", "tstep", "grid_save", "mp_save", "M_tol"], n ∈ namesP := by decide
    exact this n hm
  refine ⟨?_, ?_, ?_, ?_, ?_⟩
  · intro h0
    obtain ⟨v, hv, hs⟩ := (Obj.defaultM_self h1).2 (by
      rw [Obj.defaults_other (by show "nt" ∉ ["t", "tstep", "grid_save", "mp_save", "M_tol"]; decide),
        h0])
    unfold defaultNt at hv
    obtain ⟨a, ha, hv⟩ := res_bind_ok.1 hv
    obtain ⟨t_f, ht, hv⟩ := res_bind_ok.1 hv
    obtain ⟨b, hb, hv⟩ := res_bind_ok.1 hv
    obtain ⟨dt, hd, hv⟩ := res_bind_ok.1 hv
    split at hv
    · cases hv
    · rename_i hne
      cases hv
      exact ⟨a, b, t_f, dt, n1 (Obj.defaultM_some h1 (Obj.get_ok.1 ha)),
        n1 (Obj.defaultM_some h1 (Obj.get_ok.1 hb)), ht, hd, hne, n1 hs⟩
  · intro h0
    obtain ⟨v, hv, hs⟩ := (Obj.defaultM_self h2).2 (by
      rw [Obj.defaults_other (by show "g" ∉ ["max_g", "max_q"]; decide),
        Obj.defaultM_other h1 (by decide), Obj.defaults_other (by
          show "g" ∉ ["t", "tstep", "grid_save", "mp_save", "M_tol"]; decide), h0])
    rw [n2 hs, n2 (Obj.defaultM_some h2 (Obj.get_ok.1 hv))]
  · intro h0
    obtain ⟨v, hv, hs⟩ := (Obj.defaultM_self h3).2 (by
      rw [Obj.defaultM_other h2 (by decide),
        Obj.defaults_other (by show "q_v" ∉ ["max_g", "max_q"]; decide),
        Obj.defaultM_other h1 (by decide), Obj.defaults_other (by
          show "q_v" ∉ ["t", "tstep", "grid_save", "mp_save", "M_tol"]; decide), h0])
    rw [n3 hs, n3 (Obj.defaultM_some h3 (Obj.get_ok.1 hv))]
  · intro h0
    obtain ⟨v, hv, hs⟩ := (Obj.defaultM_self h4).2 (by
      rw [Obj.defaultM_other h3 (by decide), Obj.defaultM_other h2 (by decide),
        Obj.defaults_other (by show "q_h" ∉ ["max_g", "max_q"]; decide),
        Obj.defaultM_other h1 (by decide), Obj.defaults_other (by
          show "q_h" ∉ ["t", "tstep", "grid_save", "mp_save", "M_tol"]; decide), h0])
    rw [Obj.defaults_some hs, Obj.defaults_some (Obj.defaultM_some h4 (Obj.get_ok.1 hv))]
  · intro n hn
    have cases_ : ∀ n ∈ namesP, n ∈ ["nt", "g", "q_v", "q_h"] ∨
        n ∈ ["t", "tstep", "grid_save", "mp_save", "M_tol"] ++ ["max_g", "max_q"] ++ namesP3 := by
      decide
    rcases cases_ n hn with hn | hn
    · simp only [List.mem_cons, List.not_mem_nil, or_false] at hn
      rcases hn with rfl | rfl | rfl | rfl
      · obtain ⟨v, hv⟩ := Option.isSome_iff_exists.1 (Obj.defaultM_self h1).1
        rw [n1 hv]; rfl
      · obtain ⟨v, hv⟩ := Option.isSome_iff_exists.1 (Obj.defaultM_self h2).1
        rw [n2 hv]; rfl
      · obtain ⟨v, hv⟩ := Option.isSome_iff_exists.1 (Obj.defaultM_self h3).1
        rw [n3 hv]; rfl
      · obtain ⟨v, hv⟩ := Option.isSome_iff_exists.1 (Obj.defaultM_self h4).1
        rw [Obj.defaults_some hv]; rfl
    · cases hP : P n with
      | some v => rw [initP_some h' hP]; rfl
      | none =>
        have : n ∈ (defaultsP1 ++ defaultsP2 ++ defaultsP3 : List (String × Val K)).map (·.1) := by
          simp only [List.map_append]; exact hn
        obtain ⟨⟨n', v⟩, hv, rfl⟩ := List.mem_map.1 this
        rw [initP_const h' hP hv]; rfl

theorem initG_ok {G G' : Obj K} (h : initG G = .ok G') :
    ∃ s G1, (G.defaults defaultsG) "s" = some s ∧
      (G.defaults defaultsG).defaultM "s_m" (listFold min s) = .ok G1 ∧
      G1.defaultM "s_M" (listFold max s) = .ok G' := by
  unfold initG at h
  obtain ⟨s, h1, h⟩ := res_bind_ok.1 h
  obtain ⟨G1, h2, h⟩ := res_bind_ok.1 h
  exact ⟨s, G1, Obj.get_ok.1 h1, h2, h⟩

theorem initPhase_ok {ns : Val K} {o o' : Obj K} (h : initPhase ns o = .ok o') :
    ∃ o1, o.defaultM "phi" (uniformPhi ns) = .ok o1 ∧
      o' = o1.default "heterogeneous" (.bool false) := by
  unfold initPhase at h
  obtain ⟨o1, h1, h⟩ := res_bind_ok.1 h
  cases h
  exact ⟨o1, h1, rfl⟩

/-- The stages of `get_parameters`. -/
theorem getParameters_ok {mode : String} {p p' : Params K} (h : getParameters mode p = .ok p') :
    ∃ (P1 O1 : Obj K) (ns dir : Val K) (S : List (Obj K)),
      initP (p.P.set "mode" (.str mode)) = .ok P1 ∧ p'.B = p.B.defaults defaultsB ∧
      initG p.G = .ok p'.G ∧ p'.G "ns" = some ns ∧
      p.S.toList.mapM (initPhase ns) = .ok S ∧ p'.S = .many S ∧
      saveDir (P1.set "phases" (.int p.S.toList.length)) S mode = .ok dir ∧
      O1 = p.O.defaults defaultsO ∧
      initEnergy ((P1.set "phases" (.int p.S.toList.length)).set "save_dir" dir) O1 = .ok p'.O ∧
      p'.P = (((P1.set "phases" (.int p.S.toList.length)).set "save_dir" dir).default
        "update_timestep" (.fn "update_timestep")) := by
  unfold getParameters at h
  obtain ⟨P1, h1, h⟩ := res_bind_ok.1 h
  obtain ⟨G, h2, h⟩ := res_bind_ok.1 h
  obtain ⟨ns, h3, h⟩ := res_bind_ok.1 h
  obtain ⟨S, h4, h⟩ := res_bind_ok.1 h
  obtain ⟨dir, h5, h⟩ := res_bind_ok.1 h
  obtain ⟨O, h6, h⟩ := res_bind_ok.1 h
  cases h
  exact ⟨P1, _, ns, dir, S, h1, rfl, h2, Obj.get_ok.1 h3, h4, rfl, h5, rfl, h6, rfl⟩

theorem mapM_forall₂ {α β : Type} {f : α → Res β} {l : List α} {l' : List β}
    (h : l.mapM f = .ok l') : List.Forall₂ (fun a b => f a = .ok b) l l' := by
  induction l generalizing l' with
  | nil => cases h; exact .nil
  | cons a l ih =>
    rw [List.mapM_cons] at h
    obtain ⟨b, h1, h⟩ := res_bind_ok.1 h
    obtain ⟨l1, h2, h⟩ := res_bind_ok.1 h
    cases h
    exact .cons h1 (ih h2)

theorem initEnergy_ok {P O O' : Obj K} (h : initEnergy P O = .ok O') :
    ∃ m, O "measure_energy" = some m ∧
      ((m.truthy = false ∧ O' = O) ∨ (m.truthy = true ∧ ∃ nt, P "nt" = some (.int nt) ∧
        0 ≤ nt + 1 ∧ O' = O.set "energy" (.zeros (nt + 1) 4))) := by
  unfold initEnergy at h
  obtain ⟨m, h1, h⟩ := res_bind_ok.1 h
  refine ⟨m, Obj.get_ok.1 h1, ?_⟩
  split at h
  · rename_i hm
    obtain ⟨v, h2, h⟩ := res_bind_ok.1 h
    split at h
    · rename_i nt
      split at h
      · cases h
      · rename_i hnt
        cases h
        exact Or.inr ⟨hm, nt, Obj.get_ok.1 h2, by omega, rfl⟩
    · cases h
  · rename_i hm
    cases h
    exact Or.inl ⟨by simpa using hm, rfl⟩

/-- C54.  What the user sets is kept.  Exceptions: `P.mode`, `P.phases` and `P.save_dir` are
always computed, and `P.O.energy` is when energies are measured. -/
theorem c54_keep {mode : String} {p p' : Params K} (h : getParameters mode p = .ok p') :
    (∀ n v, n ∉ ["mode", "phases", "save_dir"] → p.P n = some v → p'.P n = some v) ∧
    (∀ n v, p.B n = some v → p'.B n = some v) ∧ (∀ n v, p.G n = some v → p'.G n = some v) ∧
    (∀ n v, n ≠ "energy" → p.O n = some v → p'.O n = some v) ∧
    List.Forall₂ (fun o o' => ∀ n v, o n = some v → o' n = some v) p.S.toList p'.S.toList := by
  obtain ⟨P1, O1, ns, dir, S, h1, h2, h3, h4, h5, h6, h7, h8, h9, h10⟩ := getParameters_ok h
  refine ⟨?_, ?_, ?_, ?_, ?_⟩
  · intro n v hn hv
    simp only [List.mem_cons, not_or, List.not_mem_nil, or_false] at hn
    obtain ⟨a1, a2, a3⟩ := hn
    rw [h10]
    refine Obj.default_some ?_ _ _
    rw [Obj.set_other a3, Obj.set_other a2]
    exact initP_some h1 (by rw [Obj.set_other a1, hv])
  · intro n v hv
    rw [h2]; exact Obj.defaults_some hv _
  · intro n v hv
    obtain ⟨s, G1, -, g1, g2⟩ := initG_ok h3
    exact Obj.defaultM_some g2 (Obj.defaultM_some g1 (Obj.defaults_some hv _))
  · intro n v hn hv
    obtain ⟨m, -, ⟨-, e⟩ | ⟨-, nt, -, -, e⟩⟩ := initEnergy_ok h9
    · rw [e, h8]; exact Obj.defaults_some hv _
    · rw [e, Obj.set_other hn, h8]; exact Obj.defaults_some hv _
  · rw [h6]
    refine (mapM_forall₂ h5).imp ?_
    intro o o' ho n v hv
    obtain ⟨o1, e1, rfl⟩ := initPhase_ok ho
    exact Obj.default_some (Obj.defaultM_some e1 hv) _ _

namespace Spec

/-- The documented constant defaults of `P`. -/
def parameterDefaults : List (String × Val K) :=
  [("t", .num 0), ("tstep", .int 0), ("grid_save", .int 0), ("mp_save", .int 0),
   ("M_tol", .num (1 / 10 ^ 10)), ("max_g", .num 0), ("max_q", .num 0),
   ("has_yielded", .bool false), ("damping", .bool false), ("theta", .num 0), ("pressure", .none),
   ("segregate_mp", .bool false), ("segregate_grid", .bool false), ("initial_flow", .bool false),
   ("smooth_gamma_dot", .bool false), ("smooth_grad2", .bool false), ("normalise_phi", .bool false),
   ("time_stepping", .str "static"), ("CFL", .num (1 / 10)),
   ("update_timestep", .fn "update_timestep")]

/-- Boundary options, all off by default. -/
def boundaryOptions : List String :=
  ["wall", "two_walls", "roughness", "wall_mu", "no_slip_bottom", "cyclic_lr", "has_top",
   "has_bottom", "has_right", "has_left", "box", "outlet_left", "outlet_bottom", "inlet_right",
   "inlet_top", "force_boundaries", "vertical_force", "horizontal_force", "conveyor", "silo_left",
   "silo_bottom"]

/-- Output options, all off by default. -/
def outputOptions : List String :=
  ["check_positions", "measure_stiffness", "measure_energy", "plot_gsd_mp", "plot_gsd_grid",
   "plot_gsd_debug", "plot_material_points", "plot_continuum", "save_s_bar", "save_density",
   "save_u", "save_phi_MP"]

/-- Output hooks, all doing nothing by default. -/
def outputHooks : List String :=
  ["initial_graphs", "before_every_timestep", "after_every_nth_timestep", "after_every_timestep",
   "final_graphs"]

end Spec
open Spec

theorem nodupB : ((defaultsB (K := K)).map (·.1)).Nodup := by
  show boundaryOptions.Nodup
  decide

theorem nodupO : ((defaultsO (K := K)).map (·.1)).Nodup := by
  show (outputOptions ++ outputHooks).Nodup
  decide

theorem nodupG : ((defaultsG (K := K)).map (·.1)).Nodup := by
  show ["thickness", "ns", "s"].Nodup
  decide

/-- C54.  Every option not set by the user gets its documented default. -/
theorem c54_constants {mode : String} {p p' : Params K} (h : getParameters mode p = .ok p') :
    (∀ n v, (n, v) ∈ parameterDefaults → p.P n = none → p'.P n = some v) ∧
    (∀ n ∈ boundaryOptions, p.B n = none → p'.B n = some (.bool false)) ∧
    (p.G "thickness" = none → p'.G "thickness" = some (.num 1)) ∧
    (p.G "ns" = none → p'.G "ns" = some (.int 1)) ∧
    (p.G "s" = none → p'.G "s" = some (.list [1 / 1000])) ∧
    (∀ n ∈ outputOptions, p.O n = none → p'.O n = some (.bool false)) ∧
    (∀ n ∈ outputHooks, p.O n = none → p'.O n = some (.fn "blank_function")) ∧
    List.Forall₂ (fun o o' => o "heterogeneous" = none →
      o' "heterogeneous" = some (.bool false)) p.S.toList p'.S.toList := by
  obtain ⟨P1, O1, ns, dir, S, h1, h2, h3, h4, h5, h6, h7, h8, h9, h10⟩ := getParameters_ok h
  have gG : ∀ n v, (n, v) ∈ defaultsG (K := K) → p.G n = none → p'.G n = some v := by
    intro n v hv hn
    obtain ⟨s, G1, -, g1, g2⟩ := initG_ok h3
    exact Obj.defaultM_some g2 (Obj.defaultM_some g1 (Obj.defaults_none hn nodupG hv))
  have gO : ∀ n v, (n, v) ∈ defaultsO (K := K) → p.O n = none → n ≠ "energy" →
      p'.O n = some v := by
    intro n v hv hn hne
    have e0 := Obj.defaults_none hn nodupO hv
    obtain ⟨m, -, ⟨-, e⟩ | ⟨-, nt, -, -, e⟩⟩ := initEnergy_ok h9
    · rw [e, h8]; exact e0
    · rw [e, Obj.set_other hne, h8]; exact e0
  refine ⟨?_, ?_, gG _ _ (by simp [defaultsG]), gG _ _ (by simp [defaultsG]),
    gG _ _ (by simp [defaultsG]), ?_, ?_, ?_⟩
  · intro n v hv hn
    have hne : ∀ n ∈ (parameterDefaults (K := K)).map (·.1), n ∉ ["mode", "phases", "save_dir"] := by
      show ∀ n ∈ ["t", "tstep", "grid_save", "mp_save", "M_tol", "max_g", "max_q", "has_yielded",
        "damping", "theta", "pressure", "segregate_mp", "segregate_grid", "initial_flow",
        "smooth_gamma_dot", "smooth_grad2", "normalise_phi", "time_stepping", "CFL",
        "update_timestep"], n ∉ ["mode", "phases", "save_dir"]
      decide
    have hn3 := hne n (List.mem_map_of_mem (f := fun d => d.1) hv)
    simp only [List.mem_cons, not_or, List.not_mem_nil, or_false] at hn3
    obtain ⟨a1, a2, a3⟩ := hn3
    have hn' : (p.P.set "mode" (.str mode)) n = none := by rw [Obj.set_other a1, hn]
    have hsplit : (n, v) ∈ (defaultsP1 ++ defaultsP2 ++ defaultsP3 : List (String × Val K)) ++
        [("update_timestep", .fn "update_timestep")] := hv
    rw [h10]
    rcases List.mem_append.1 hsplit with hv | hv
    · refine Obj.default_some ?_ _ _
      rw [Obj.set_other a3, Obj.set_other a2]
      exact initP_const h1 hn' hv
    · simp only [List.mem_cons, Prod.mk.injEq, List.not_mem_nil, or_false] at hv
      obtain ⟨rfl, rfl⟩ := hv
      refine Obj.default_none ?_ _
      rw [Obj.set_other a3, Obj.set_other a2, initP_other h1 (by decide), hn']
  · intro n hn hB
    rw [h2]
    exact Obj.defaults_none hB nodupB (List.mem_map.2 ⟨n, hn, rfl⟩)
  · intro n hn hO
    refine gO n _ (List.mem_append.2 (Or.inl (List.mem_map.2 ⟨n, hn, rfl⟩))) hO ?_
    exact (by decide : ∀ n ∈ outputOptions, n ≠ "energy") n hn
  · intro n hn hO
    refine gO n _ (List.mem_append.2 (Or.inr (List.mem_map.2 ⟨n, hn, rfl⟩))) hO ?_
    exact (by decide : ∀ n ∈ outputHooks, n ≠ "energy") n hn
  · rw [h6]
    refine (mapM_forall₂ h5).imp ?_
    intro o o' ho hn
    obtain ⟨o1, e1, rfl⟩ := initPhase_ok ho
    exact Obj.default_none (by rw [Obj.defaultM_other e1 (by decide), hn]) _

theorem foldl_min_mem (a : K) (l : List K) :
    l.foldl min a ∈ a :: l ∧ ∀ x ∈ a :: l, l.foldl min a ≤ x := by
  induction l generalizing a with
  | nil => simp
  | cons b l ih =>
    obtain ⟨h1, h2⟩ := ih (min a b)
    rw [List.foldl_cons]
    constructor
    · rcases List.mem_cons.1 h1 with e | h
      · rw [e]
        rcases min_choice a b with e | e <;> rw [e] <;> simp
      · simp [h]
    · intro x hx
      have h0 := h2 (min a b) (by simp)
      rcases List.mem_cons.1 hx with rfl | hx
      · exact h0.trans (min_le_left _ _)
      · rcases List.mem_cons.1 hx with rfl | hx
        · exact h0.trans (min_le_right _ _)
        · exact h2 x (by simp [hx])

theorem foldl_max_mem (a : K) (l : List K) :
    l.foldl max a ∈ a :: l ∧ ∀ x ∈ a :: l, x ≤ l.foldl max a := by
  induction l generalizing a with
  | nil => simp
  | cons b l ih =>
    obtain ⟨h1, h2⟩ := ih (max a b)
    rw [List.foldl_cons]
    constructor
    · rcases List.mem_cons.1 h1 with e | h
      · rw [e]
        rcases max_choice a b with e | e <;> rw [e] <;> simp
      · simp [h]
    · intro x hx
      have h0 := h2 (max a b) (by simp)
      rcases List.mem_cons.1 hx with rfl | hx
      · exact (le_max_left _ _).trans h0
      · rcases List.mem_cons.1 hx with rfl | hx
        · exact (le_max_right _ _).trans h0
        · exact h2 x (by simp [hx])

theorem getParameters_P {mode : String} {p p' : Params K} {P1 : Obj K} {c dir : Val K}
    (h10 : p'.P = (((P1.set "phases" c).set "save_dir" dir).default
        "update_timestep" (.fn "update_timestep"))) {n : String}
    (hn : n ∉ ["phases", "save_dir", "update_timestep"]) : p'.P n = P1 n := by
  simp only [List.mem_cons, not_or, List.not_mem_nil, or_false] at hn
  obtain ⟨a1, a2, a3⟩ := hn
  rw [h10, Obj.default_other a3, Obj.set_other a2, Obj.set_other a1]

/-- C54.  The computed defaults of `P`: number of steps, gravity and loads. -/
theorem c54_computed {mode : String} {p p' : Params K} (h : getParameters mode p = .ok p') :
    p'.P "mode" = some (.str mode) ∧ p'.P "phases" = some (.int p.S.toList.length) ∧
    (p.P "nt" = none → ∃ a b t_f dt, p.P "t_f" = some a ∧ p.P "dt" = some b ∧ a.toNum = .ok t_f ∧
      b.toNum = .ok dt ∧ dt ≠ 0 ∧ p'.P "nt" = some (.int (pyTrunc (t_f / dt)))) ∧
    (p.P "g" = none → p'.P "g" = p'.P "max_g") ∧ (p.P "q_v" = none → p'.P "q_v" = p'.P "max_q") ∧
    (p.P "q_h" = none → p'.P "q_h" = p'.P "max_q") ∧
    (∀ n, p.P "supername" = some (.str n) → p'.P "save_dir" = some (.str (n ++ "/"))) ∧
    (∀ o os law, p.P "supername" = none → p.S.toList = o :: os → o "law" = some (.str law) →
      p'.P "save_dir" = some (.str ("im/" ++ mode ++ "/" ++ law ++ "/"))) := by
  have keep := c54_keep h
  obtain ⟨P1, O1, ns, dir, S, h1, h2, h3, h4, h5, h6, h7, h8, h9, h10⟩ := getParameters_ok h
  have gP : ∀ n, n ∉ ["phases", "save_dir", "update_timestep"] → p'.P n = P1 n :=
    fun n hn => getParameters_P (mode := mode) (p := p) h10 hn
  have m0 : ∀ n, n ≠ "mode" → (p.P.set "mode" (.str mode)) n = p.P n := fun n hn => Obj.set_other hn _
  obtain ⟨d1, d2, d3, d4, -⟩ := initP_derived h1
  have dsup : (P1.set "phases" (.int p.S.toList.length)) "supername" = p.P "supername" := by
    rw [Obj.set_other (by decide), initP_other h1 (by decide), m0 _ (by decide)]
  have edir : p'.P "save_dir" = some dir := by
    rw [h10, Obj.default_other (by decide), Obj.set_self]
  refine ⟨?_, ?_, ?_, ?_, ?_, ?_, ?_, ?_⟩
  · rw [gP _ (by decide)]
    exact initP_some h1 (Obj.set_self _ _ _)
  · rw [h10, Obj.default_other (by decide), Obj.set_other (by decide), Obj.set_self]
  · intro h0
    obtain ⟨a, b, t_f, dt, e1, e2, e3, e4, e5, e6⟩ := d1 (by rw [m0 _ (by decide), h0])
    rw [initP_other h1 (by decide), m0 _ (by decide)] at e1 e2
    exact ⟨a, b, t_f, dt, e1, e2, e3, e4, e5, by rw [gP _ (by decide), e6]⟩
  · intro h0
    rw [gP _ (by decide), gP _ (by decide)]
    exact d2 (by rw [m0 _ (by decide), h0])
  · intro h0
    rw [gP _ (by decide), gP _ (by decide)]
    exact d3 (by rw [m0 _ (by decide), h0])
  · intro h0
    rw [gP _ (by decide), gP _ (by decide)]
    exact d4 (by rw [m0 _ (by decide), h0])
  · intro n h0
    rw [edir]
    unfold saveDir at h7
    rw [dsup, h0] at h7
    obtain ⟨x, hx, h7⟩ := res_bind_ok.1 h7
    cases hx
    cases h7
    rw [String.empty_append]
  · intro o os law h0 hS hlaw
    rw [edir]
    unfold saveDir at h7
    rw [dsup, h0] at h7
    have hk := keep.2.2.2.2
    rw [h6, hS] at hk
    cases S with
    | nil => cases hk
    | cons o' os' =>
      cases hk with
      | cons k1 _ =>
        obtain ⟨v, hv, h7⟩ := res_bind_ok.1 h7
        rw [Obj.get_ok, k1 _ _ hlaw] at hv
        cases hv
        obtain ⟨x, hx, h7⟩ := res_bind_ok.1 h7
        cases hx
        cases h7
        simp only [String.empty_append]

/-- C54.  The computed defaults of the grid and of the phases: smallest and largest size, equal
fractions of all sizes. -/
theorem c54_sizes {mode : String} {p p' : Params K} (h : getParameters mode p = .ok p') :
    (∀ l, p'.G "s" = some (.list l) →
      (p.G "s_m" = none → ∃ m, p'.G "s_m" = some (.num m) ∧ m ∈ l ∧ ∀ x ∈ l, m ≤ x) ∧
      (p.G "s_M" = none → ∃ m, p'.G "s_M" = some (.num m) ∧ m ∈ l ∧ ∀ x ∈ l, x ≤ m)) ∧
    (∀ n : ℕ, p'.G "ns" = some (.int n) →
      List.Forall₂ (fun o o' => o "phi" = none → ∃ l : List K, o' "phi" = some (.list l) ∧
        l.length = n ∧ (∀ x ∈ l, x = 1 / n) ∧ (0 < n → l.sum = 1)) p.S.toList p'.S.toList) := by
  obtain ⟨P1, O1, ns, dir, S, h1, h2, h3, h4, h5, h6, h7, h8, h9, h10⟩ := getParameters_ok h
  constructor
  · intro l hl
    obtain ⟨s, G1, g0, g1, g2⟩ := initG_ok h3
    have es : p'.G "s" = some s := Obj.defaultM_some g2 (Obj.defaultM_some g1 g0)
    rw [hl] at es
    cases es
    have nG : ∀ n, n ∉ ["thickness", "ns", "s"] → (p.G.defaults defaultsG) n = p.G n :=
      fun n hn => Obj.defaults_other hn
    constructor
    · intro h0
      obtain ⟨v, hv, hs⟩ := (Obj.defaultM_self g1).2 (by rw [nG _ (by decide), h0])
      rw [Obj.defaultM_some g2 hs]
      unfold listFold at hv
      cases l with
      | nil => cases hv
      | cons a l =>
        cases hv
        exact ⟨_, rfl, foldl_min_mem a l⟩
    · intro h0
      obtain ⟨v, hv, hs⟩ := (Obj.defaultM_self g2).2 (by
        rw [Obj.defaultM_other g1 (by decide), nG _ (by decide), h0])
      rw [hs]
      unfold listFold at hv
      cases l with
      | nil => cases hv
      | cons a l =>
        cases hv
        exact ⟨_, rfl, foldl_max_mem a l⟩
  · intro n hn
    rw [h4] at hn
    cases hn
    rw [h6]
    refine (mapM_forall₂ h5).imp ?_
    intro o o' ho h0
    obtain ⟨o1, e1, rfl⟩ := initPhase_ok ho
    obtain ⟨v, hv, hs⟩ := (Obj.defaultM_self e1).2 h0
    unfold uniformPhi at hv
    simp only [Int.toNat_natCast] at hv
    rw [if_neg (by omega)] at hv
    cases hv
    refine ⟨_, Obj.default_some hs _ _, by simp, fun x hx => List.eq_of_mem_replicate hx, ?_⟩
    intro hpos
    rw [List.sum_replicate, nsmul_eq_mul]
    have : (n : K) ≠ 0 := by exact_mod_cast hpos.ne'
    field_simp

/-- C54.  Nothing else is added: an attribute that the user did not set and that is not one of the
options is still missing. -/
theorem c54_only {mode : String} {p p' : Params K} (h : getParameters mode p = .ok p') :
    (∀ n, p.P n = none → (p'.P n).isSome → n ∈ ["mode", "phases", "save_dir", "nt", "g", "q_v",
      "q_h"] ++ (parameterDefaults (K := K)).map (·.1)) ∧
    (∀ n, p.B n = none → (p'.B n).isSome → n ∈ boundaryOptions) ∧
    (∀ n, p.G n = none → (p'.G n).isSome → n ∈ ["thickness", "ns", "s", "s_m", "s_M"]) ∧
    (∀ n, p.O n = none → (p'.O n).isSome → n ∈ "energy" :: (outputOptions ++ outputHooks)) ∧
    List.Forall₂ (fun o o' => ∀ n, o n = none → (o' n).isSome → n ∈ ["phi", "heterogeneous"])
      p.S.toList p'.S.toList := by
  obtain ⟨P1, O1, ns, dir, S, h1, h2, h3, h4, h5, h6, h7, h8, h9, h10⟩ := getParameters_ok h
  refine ⟨?_, ?_, ?_, ?_, ?_⟩
  · intro n hn hs
    by_contra hc
    have e : ["mode", "phases", "save_dir", "nt", "g", "q_v", "q_h"] ++
        (parameterDefaults (K := K)).map (·.1) = ["mode", "phases", "save_dir", "nt", "g", "q_v",
      "q_h"] ++ ["t", "tstep", "grid_save", "mp_save", "M_tol", "max_g", "max_q", "has_yielded",
        "damping", "theta", "pressure", "segregate_mp", "segregate_grid", "initial_flow",
        "smooth_gamma_dot", "smooth_grad2", "normalise_phi", "time_stepping", "CFL",
        "update_timestep"] := rfl
    rw [e] at hc
    have b1 : n ∉ ["phases", "save_dir", "update_timestep"] := fun hm => hc
      ((by decide : ∀ n ∈ ["phases", "save_dir", "update_timestep"], n ∈ ["mode", "phases",
        "save_dir", "nt", "g", "q_v", "q_h"] ++ ["t", "tstep", "grid_save", "mp_save", "M_tol",
        "max_g", "max_q", "has_yielded", "damping", "theta", "pressure", "segregate_mp",
        "segregate_grid", "initial_flow", "smooth_gamma_dot", "smooth_grad2", "normalise_phi",
        "time_stepping", "CFL", "update_timestep"]) n hm)
    have b2 : n ∉ namesP := fun hm => hc
      ((by decide : ∀ n ∈ namesP, n ∈ ["mode", "phases",
        "save_dir", "nt", "g", "q_v", "q_h"] ++ ["t", "tstep", "grid_save", "mp_save", "M_tol",
        "max_g", "max_q", "has_yielded", "damping", "theta", "pressure", "segregate_mp",
        "segregate_grid", "initial_flow", "smooth_gamma_dot", "smooth_grad2", "normalise_phi",
        "time_stepping", "CFL", "update_timestep"]) n hm)
    have b3 : n ≠ "mode" := by rintro rfl; exact hc (by simp)
    rw [getParameters_P (mode := mode) (p := p) h10 b1, initP_other h1 b2, Obj.set_other b3, hn] at hs
    cases hs
  · intro n hn hs
    by_contra hc
    rw [h2, Obj.defaults_other hc, hn] at hs
    cases hs
  · intro n hn hs
    by_contra hc
    obtain ⟨s, G1, g0, g1, g2⟩ := initG_ok h3
    simp only [List.mem_cons, not_or, List.not_mem_nil, or_false] at hc
    obtain ⟨c1, c2, c3, c4, c5⟩ := hc
    rw [Obj.defaultM_other g2 c5, Obj.defaultM_other g1 c4, Obj.defaults_other (by
      show n ∉ ["thickness", "ns", "s"]; simp [c1, c2, c3]), hn] at hs
    cases hs
  · intro n hn hs
    by_contra hc
    rw [List.mem_cons, not_or] at hc
    have : p'.O n = O1 n := by
      obtain ⟨m, -, ⟨-, e⟩ | ⟨-, nt, -, -, e⟩⟩ := initEnergy_ok h9
      · rw [e]
      · rw [e, Obj.set_other hc.1]
    rw [this, h8, Obj.defaults_other hc.2, hn] at hs
    cases hs
  · rw [h6]
    refine (mapM_forall₂ h5).imp ?_
    intro o o' ho n hn hs
    by_contra hc
    simp only [List.mem_cons, not_or, List.not_mem_nil, or_false] at hc
    obtain ⟨o1, e1, rfl⟩ := initPhase_ok ho
    rw [Obj.default_other hc.2, Obj.defaultM_other e1 hc.1, hn] at hs
    cases hs

theorem initP_has {P : Obj K} (h : ∀ n ∈ namesP, (P n).isSome) : initP P = .ok P := by
  have hd : ∀ l : List (String × Val K), (∀ n ∈ l.map (·.1), n ∈ namesP) → P.defaults l = P :=
    fun l hl => Obj.defaults_has fun n hn => h n (hl n hn)
  have e1 : P.defaults defaultsP1 = P := hd _ (by
    show ∀ n ∈ ["t", "tstep", "grid_save", "mp_save", "M_tol"], n ∈ namesP
    decide)
  have e2 : P.defaults defaultsP2 = P := hd _ (by
    show ∀ n ∈ ["max_g", "max_q"], n ∈ namesP
    decide)
  have e3 : P.defaults defaultsP3 = P := hd _ (by
    show ∀ n ∈ namesP3, n ∈ namesP
    decide)
  unfold initP
  simp only [e1]
  rw [Obj.defaultM_has _ (h "nt" (by decide))]
  show (do
    let P ← (P.defaults defaultsP2).defaultM "g" ((P.defaults defaultsP2).get "max_g")
    let P ← P.defaultM "q_v" (P.get "max_q")
    let P ← P.defaultM "q_h" (P.get "max_q")
    return P.defaults defaultsP3) = Except.ok P
  rw [e2, Obj.defaultM_has _ (h "g" (by decide))]
  show (do
    let P ← P.defaultM "q_v" (P.get "max_q")
    let P ← P.defaultM "q_h" (P.get "max_q")
    return P.defaults defaultsP3) = Except.ok P
  rw [Obj.defaultM_has _ (h "q_v" (by decide))]
  show (do
    let P ← P.defaultM "q_h" (P.get "max_q")
    return P.defaults defaultsP3) = Except.ok P
  rw [Obj.defaultM_has _ (h "q_h" (by decide))]
  show Except.ok (P.defaults defaultsP3) = Except.ok P
  rw [e3]

theorem mapM_fixed {α : Type} {f : α → Res α} {l : List α} (h : ∀ a ∈ l, f a = .ok a) :
    l.mapM f = .ok l := by
  induction l with
  | nil => rfl
  | cons a l ih =>
    rw [List.mapM_cons, h a (by simp), ih fun a ha => h a (by simp [ha])]
    rfl

theorem forall₂_right {α β : Type} {R : α → β → Prop} {l : List α} {l' : List β}
    (h : List.Forall₂ R l l') {b : β} (hb : b ∈ l') : ∃ a ∈ l, R a b := by
  induction h with
  | nil => simp at hb
  | cons h1 _ ih =>
    rcases List.mem_cons.1 hb with rfl | hb
    · exact ⟨_, by simp, h1⟩
    · obtain ⟨a, ha, e⟩ := ih hb
      exact ⟨a, by simp [ha], e⟩

/-- C54.  Applying `get_parameters` to parameters that went through it already changes nothing. -/
theorem c54_idempotent {mode : String} {p p' : Params K} (h : getParameters mode p = .ok p') :
    getParameters mode p' = .ok p' := by
  obtain ⟨hm, hph, -⟩ := c54_computed h
  obtain ⟨P1, O1, ns, dir, S, h1, h2, h3, h4, h5, h6, h7, h8, h9, h10⟩ := getParameters_ok h
  have gP : ∀ n, n ∉ ["phases", "save_dir", "update_timestep"] → p'.P n = P1 n :=
    fun n hn => getParameters_P (mode := mode) (p := p) h10 hn
  have len : S.length = p.S.toList.length := (mapM_forall₂ h5).length_eq.symm
  have eS : p'.S.toList = S := by rw [h6]; rfl
  have a1 : p'.P.set "mode" (.str mode) = p'.P := Obj.set_same hm
  have a2 : initP p'.P = .ok p'.P := by
    refine initP_has fun n hn => ?_
    rw [gP n ((by decide : ∀ n ∈ namesP, n ∉ ["phases", "save_dir", "update_timestep"]) n hn)]
    exact (initP_derived h1).2.2.2.2 n hn
  have a3 : p'.B.defaults defaultsB = p'.B := by
    refine Obj.defaults_has fun n hn => ?_
    cases hB : p.B n with
    | some v => rw [h2, Obj.defaults_some hB]; rfl
    | none =>
      rw [(c54_constants h).2.1 n hn hB]; rfl
  have a4 : initG p'.G = .ok p'.G := by
    obtain ⟨s, G1, g0, g1, g2⟩ := initG_ok h3
    have has : ∀ n ∈ ["thickness", "ns", "s"], (p'.G n).isSome := by
      intro n hn
      cases hG : p.G n with
      | some v => rw [(c54_keep h).2.2.1 n v hG]; rfl
      | none =>
        obtain ⟨-, -, c1, c2, c3, -⟩ := c54_constants h
        simp only [List.mem_cons, List.not_mem_nil, or_false] at hn
        rcases hn with rfl | rfl | rfl
        · rw [c1 hG]; rfl
        · rw [c2 hG]; rfl
        · rw [c3 hG]; rfl
    have e1 : p'.G.defaults defaultsG = p'.G := Obj.defaults_has has
    have es : p'.G "s" = some s := Obj.defaultM_some g2 (Obj.defaultM_some g1 g0)
    have em : (p'.G "s_m").isSome := by
      obtain ⟨v, hv⟩ := Option.isSome_iff_exists.1 (Obj.defaultM_self g1).1
      rw [Obj.defaultM_some g2 hv]; rfl
    have eM : (p'.G "s_M").isSome := (Obj.defaultM_self g2).1
    unfold initG
    simp only [e1]
    rw [Obj.get_ok.2 es]
    show (do
      let G ← p'.G.defaultM "s_m" (listFold min s)
      G.defaultM "s_M" (listFold max s)) = _
    rw [Obj.defaultM_has _ em]
    exact Obj.defaultM_has _ eM
  have a5 : S.mapM (initPhase ns) = .ok S := by
    refine mapM_fixed fun o ho => ?_
    obtain ⟨o0, -, e⟩ := forall₂_right (mapM_forall₂ h5) ho
    obtain ⟨o1, e1, rfl⟩ := initPhase_ok e
    have b1 : ((o1.default "heterogeneous" (.bool false)) "phi").isSome := by
      obtain ⟨v, hv⟩ := Option.isSome_iff_exists.1 (Obj.defaultM_self e1).1
      rw [Obj.default_some hv]; rfl
    have b2 : ((o1.default "heterogeneous" (.bool false)) "heterogeneous").isSome := by
      cases hh : o1 "heterogeneous" with
      | some v => rw [Obj.default_some hh]; rfl
      | none => rw [Obj.default_none hh]; rfl
    unfold initPhase
    rw [Obj.defaultM_has _ b1]
    show Except.ok _ = _
    rw [Obj.default_has b2]
  have a6 : p'.P.set "phases" (.int S.length) = p'.P := by
    rw [len]; exact Obj.set_same hph
  have a7 : saveDir p'.P S mode = .ok dir := by
    rw [← h7]
    unfold saveDir
    rw [gP _ (by decide), Obj.set_other (by decide)]
  have a8 : p'.P.set "save_dir" dir = p'.P := Obj.set_same (by
    rw [h10, Obj.default_other (by decide), Obj.set_self])
  have a9 : p'.O.defaults defaultsO = p'.O := by
    refine Obj.defaults_has fun n hn => ?_
    have hne : n ≠ "energy" :=
      (by decide : ∀ n ∈ outputOptions ++ outputHooks, n ≠ "energy") n hn
    cases hO : p.O n with
    | some v => rw [(c54_keep h).2.2.2.1 n v hne hO]; rfl
    | none =>
      obtain ⟨-, -, -, -, -, c1, c2, -⟩ := c54_constants h
      rcases List.mem_append.1 (show n ∈ outputOptions ++ outputHooks from hn) with hn | hn
      · rw [c1 n hn hO]; rfl
      · rw [c2 n hn hO]; rfl
  have a10 : initEnergy p'.P p'.O = .ok p'.O := by
    obtain ⟨m, hm, ⟨ht, e⟩ | ⟨ht, nt, hnt, hle, e⟩⟩ := initEnergy_ok h9
    · unfold initEnergy
      rw [e, Obj.get_ok.2 hm]
      show (if m.truthy = true then _ else _) = _
      rw [if_neg (by simp [ht])]; rfl
    · have hm' : p'.O "measure_energy" = some m := by
        rw [e, Obj.set_other (by decide), hm]
      have hnt' : p'.P "nt" = some (.int nt) := by
        rw [h10]; exact Obj.default_some hnt _ _
      unfold initEnergy
      rw [Obj.get_ok.2 hm']
      show (if m.truthy = true then _ else _) = _
      rw [if_pos ht, Obj.get_ok.2 hnt']
      show (if nt + 1 < 0 then _ else _) = _
      rw [if_neg (by omega)]
      show Except.ok _ = _
      rw [Obj.set_same]
      rw [e, Obj.set_self]
  have a11 : p'.P.default "update_timestep" (.fn "update_timestep") = p'.P := by
    refine Obj.default_has ?_ _
    rw [h10]
    cases hh : ((P1.set "phases" (.int p.S.toList.length)).set "save_dir" dir)
        "update_timestep" with
    | some v => rw [Obj.default_some hh]; rfl
    | none => rw [Obj.default_none hh]; rfl
  have bo : ∀ {α β : Type} (a : α) (f : α → Res β), ((Except.ok a : Res α) >>= f) = f a :=
    fun _ _ => rfl
  unfold getParameters
  simp only [a1, a2, bo, a4, eS, a3, a6, Obj.get_ok.2 h4, a5, a7, a8, a9, a10, a11]
  rw [← h6]
  rfl

end

/-! ## The hypotheses can be met: an input file much like inputs/ball.py -/

def Ex.obj (l : List (String × Val ℚ)) : Obj ℚ := fun n => (l.find? (fun d => d.1 = n)).map (·.2)

def Ex.input : Params ℚ :=
  { P := Ex.obj [("dt", .num (1/1000)), ("savetime", .num (1/10)), ("t_f", .num 5),
      ("max_g", .num (-10)), ("theta", .num (1/2))]
    B := Ex.obj [("has_bottom", .bool true)]
    G := Ex.obj [("nx", .int 6), ("ns", .int 2), ("s", .list [2, 1])]
    O := Ex.obj [("measure_energy", .bool true), ("after_every_nth_timestep", .fn "mine")]
    S := .one (Ex.obj [("law", .str "elastic"), ("n", .int 0)]) }

def Ex.inputOk (q : Params ℚ) : Bool :=
  decide (q.P "g" = some (.num (-10)) ∧ q.P "theta" = some (.num (1/2)) ∧
    q.P "nt" = some (.int 5000) ∧ q.P "CFL" = some (.num (1/10)) ∧
    q.P "save_dir" = some (.str "im/ball/elastic/") ∧ q.P "phases" = some (.int 1) ∧
    q.B "has_bottom" = some (.bool true) ∧ q.B "has_top" = some (.bool false) ∧
    q.G "s_m" = some (.num 1) ∧ q.G "s_M" = some (.num 2) ∧
    q.O "energy" = some (.zeros 5001 4) ∧ q.O "after_every_nth_timestep" = some (.fn "mine") ∧
    q.O "final_graphs" = some (.fn "blank_function") ∧
    q.S.toList.map (fun o => o "phi") = [some (.list [1/2, 1/2])])

def Ex.inputCheck : Bool :=
  match getParameters "ball" Ex.input with
  | .ok q => Ex.inputOk q
  | .error _ => false

example : ∃ q, getParameters "ball" Ex.input = .ok q ∧ Ex.inputOk q = true := by
  have h : Ex.inputCheck = true := by decide +kernel
  unfold Ex.inputCheck at h
  split at h
  · rename_i q hq
    exact ⟨q, hq, h⟩
  · simp at h

end Mpm

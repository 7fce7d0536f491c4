import Verif.Model.Output
import Verif.Lemmas.Basic
import Mathlib.Data.List.Nodup
import Mathlib.Tactic.SplitIfs

/-! C56: the files written by `plotting.py`. -/

set_option linter.unusedSectionVars false

namespace Mpm

theorem zfill_pad_val {w n : ℕ} :
    Nat.ofDigitChars 10 (List.replicate (w - (Nat.toDigits 10 n).length) '0' ++ Nat.toDigits 10 n) 0
      = n := by
  rw [Nat.ofDigitChars_append, Nat.ofDigitChars_replicate_zero, Nat.mul_zero,
    Nat.ofDigitChars_toDigits (by decide) (by decide)]

theorem zfill_pad_digit {w n : ℕ} {c : Char}
    (h : c ∈ List.replicate (w - (Nat.toDigits 10 n).length) '0' ++ Nat.toDigits 10 n) :
    c.isDigit = true := by
  rcases List.mem_append.1 h with h | h
  · rw [List.eq_of_mem_replicate h]; decide
  · exact Nat.isDigit_of_mem_toDigits (by decide) (by decide) h

/-- Different numbers are written differently. -/
theorem zfill_inj {w : ℕ} {m n : ℤ} (h : zfill w m = zfill w n) : m = n := by
  have key : ∀ (a b : ℕ) (wa wb : ℕ),
      ('-' :: (List.replicate (wa - (Nat.toDigits 10 a).length) '0' ++ Nat.toDigits 10 a)) ≠
        List.replicate (wb - (Nat.toDigits 10 b).length) '0' ++ Nat.toDigits 10 b := by
    intro a b wa wb e
    have : ('-' : Char).isDigit = true :=
      zfill_pad_digit (w := wb) (n := b) (by rw [← e]; simp)
    revert this; decide
  unfold zfill at h
  split_ifs at h with h1 h2 h2
  · have e := congrArg String.toList h
    rw [String.toList_ofList, String.toList_ofList] at e
    have e := congrArg (fun l => Nat.ofDigitChars 10 l 0) (List.cons.inj e).2
    simp only [zfill_pad_val] at e
    omega
  · have e := congrArg String.toList h
    rw [String.toList_ofList, String.toList_ofList] at e
    exact absurd e (key _ _ _ _)
  · have e := congrArg String.toList h
    rw [String.toList_ofList, String.toList_ofList] at e
    exact absurd e.symm (key _ _ _ _)
  · have e := congrArg String.toList h
    rw [String.toList_ofList, String.toList_ofList] at e
    have e := congrArg (fun l => Nat.ofDigitChars 10 l 0) e
    simp only [zfill_pad_val] at e
    omega

namespace Spec

/-- The calls that store data under a counter of their own. -/
def storesData : OutCall → Bool
  | .sBar => true
  | .density => true
  | .phiMP => true
  | _ => false

/-- The files written by the calls that satisfy `q`, in order. -/
def filesOf (q : OutCall → Bool) (r : List (OutCall × List String)) : List String :=
  (r.filter fun e => q e.1).flatMap (·.2)

/-- The `k`-th file of a series. -/
def series (dir prefix_ : String) (k : ℤ) : String :=
  dir ++ "data/" ++ prefix_ ++ zfill 5 k ++ ".npy"

end Spec

open Spec

theorem series_inj {dir p : String} {j k : ℤ} (h : series dir p j = series dir p k) : j = k := by
  have e := congrArg String.toList h
  simp only [series, String.toList_append] at e
  have e := List.append_cancel_right e
  have e := List.append_cancel_left e
  exact zfill_inj (String.toList_inj.1 e)

theorem series_first {dir p q : String} {j k : ℤ} (h : series dir p j = series dir q k) {a b : Char}
    {l l' : List Char} (hp : p.toList = a :: l) (hq : q.toList = b :: l') : a = b := by
  have e := congrArg String.toList h
  simp only [series, String.toList_append, List.append_assoc] at e
  have e := List.append_cancel_left (List.append_cancel_left e)
  rw [hp, hq] at e
  exact (List.cons.inj e).1

theorem series_png {dir p s : String} {k : ℤ} : series dir p k ≠ s ++ ".png" := by
  intro h
  have e := congrArg (fun s => s.toList.reverse) h
  simp only [series, String.toList_append, List.reverse_append] at e
  have e := (List.cons.inj e).1
  revert e; decide

/-- The three series with a counter of their own. -/
inductive Kind where
  | sBar | density | phi
  deriving DecidableEq

namespace Kind

def pre : Kind → String
  | sBar => "s_bar_"
  | density => "density_"
  | phi => "MP_phi_"

def ctr (c : Counters) : Kind → ℤ
  | sBar => c.s_bar_save.getD 0
  | density => c.density_save.getD 0
  | phi => c.mp_phi_save.getD 0

def call : Kind → OutCall
  | sBar => .sBar
  | density => .density
  | phi => .phiMP

theorem storesData (a : Kind) : Spec.storesData a.call = true := by cases a <;> rfl

theorem of_storesData {q : OutCall} (h : Spec.storesData q = true) : ∃ a : Kind, q = a.call := by
  cases q with
  | sBar => exact ⟨.sBar, rfl⟩
  | density => exact ⟨.density, rfl⟩
  | phiMP => exact ⟨.phi, rfl⟩
  | _ => cases h

theorem inj {dir : String} {a b : Kind} {j k : ℤ} (h : series dir a.pre j = series dir b.pre k) :
    a = b ∧ j = k := by
  have e : a = b := by
    cases a <;> cases b <;> first
      | rfl
      | exact absurd (series_first h rfl rfl) (by decide)
  subst e
  exact ⟨rfl, series_inj h⟩

theorem output (o : OutPar) (a : Kind) (c : Counters) :
    ∃ c', Mpm.output o a.call c = .ok ([series o.dir a.pre (a.ctr c)], c') := by
  cases a <;>
    exact ⟨_, by
      simp only [Mpm.output, call, saveSBar, saveDensity, savePhiMP, series, pre, ctr]
      refine congrArg Except.ok (congrArg₂ Prod.mk (congrArg (· :: []) ?_) rfl)
      apply String.toList_inj.1
      simp only [String.toList_append, List.append_assoc]
      rfl⟩

end Kind

theorem drawGammaDot_counters {o : OutPar} {l : List Bool} {c c' : Counters} {fs : List String}
    (h : drawGammaDot o l c = .ok (fs, c')) :
    (∀ a : Kind, a.ctr c' = a.ctr c) ∧ c'.grid_save = c.grid_save ∧
      ∀ f ∈ fs, ∃ s, f = s ++ ".png" := by
  induction l generalizing c fs with
  | nil => cases h; exact ⟨fun _ => rfl, rfl, by simp⟩
  | cons r l ih =>
    unfold drawGammaDot at h
    split_ifs at h
    · exact ih h
    · split at h
      · cases h
      · rename_i n _
        obtain ⟨⟨fs', c1⟩, h1, h⟩ := res_bind_ok.1 h
        cases h
        obtain ⟨g1, g2, g3⟩ := ih h1
        refine ⟨fun a => (g1 a).trans (by cases a <;> rfl), g2, fun f hf => ?_⟩
        rcases List.mem_cons.1 hf with rfl | hf
        · exact ⟨_, rfl⟩
        · exact g3 f hf

/-- What one call does to the counters that matter here, and which files it writes. -/
theorem output_counters {o : OutPar} {q : OutCall} {c c' : Counters} {fs : List String}
    (h : output o q c = .ok (fs, c')) :
    (∀ a : Kind, a.ctr c' = a.ctr c + if q = a.call then 1 else 0) ∧
    c'.grid_save = c.grid_save + (if q = .continuum then 1 else 0) ∧
    (storesData q = false → ∀ f ∈ fs, (∃ s, f = s ++ ".png") ∨
      ∃ k, f = series o.dir "u_" k ∨ f = series o.dir "v_" k) := by
  have hu : ∀ (p : String) (k : ℤ),
      o.dir ++ ("data/" ++ p) ++ zfill 5 k ++ ".npy" = series o.dir p k := by
    intro p k
    apply String.toList_inj.1
    simp only [series, String.toList_append, List.append_assoc]
  cases q with
  | gammaDot =>
    obtain ⟨g1, g2, g3⟩ := drawGammaDot_counters h
    exact ⟨fun a => by rw [g1 a, if_neg (by cases a <;> decide), add_zero],
      by rw [g2, if_neg (by decide), add_zero], fun _ f hf => Or.inl (g3 f hf)⟩
  | continuum =>
    simp only [output, drawContinuum] at h
    split at h
    · cases h
    · cases h
      refine ⟨fun a => ?_, by simp, fun _ f hf => Or.inl ?_⟩
      · rw [if_neg (by cases a <;> decide), add_zero]
        cases a <;> rfl
      · split_ifs at hf
        · simp at hf
        · simp only [List.mem_cons, List.not_mem_nil, or_false] at hf
          exact ⟨_, hf⟩
  | materialPoints name =>
    cases h
    refine ⟨fun a => ?_, by simp, fun _ f hf => Or.inl ?_⟩
    · rw [if_neg (by cases a <;> simp [Kind.call]), add_zero]
      cases a <;> rfl
    · obtain ⟨p, -, rfl⟩ := List.mem_map.1 hf
      exact ⟨_, rfl⟩
  | energy =>
    simp only [output, drawEnergy] at h
    split at h
    · cases h
    · cases h
      refine ⟨fun a => ?_, by simp, fun _ f hf => Or.inl ?_⟩
      · rw [if_neg (by cases a <;> decide), add_zero]
      · simp only [List.mem_cons, List.not_mem_nil, or_false] at hf
        exact ⟨_, hf⟩
  | gsdMp =>
    cases h
    refine ⟨fun a => ?_, by simp, fun _ f hf => Or.inl ?_⟩
    · rw [if_neg (by cases a <;> decide), add_zero]
      cases a <;> rfl
    · obtain ⟨p, -, rfl⟩ := List.mem_map.1 hf
      exact ⟨_, rfl⟩
  | sBar =>
    cases h
    exact ⟨fun a => by cases a <;> simp [Kind.ctr, Kind.call], by simp, by simp [storesData]⟩
  | density =>
    cases h
    exact ⟨fun a => by cases a <;> simp [Kind.ctr, Kind.call], by simp, by simp [storesData]⟩
  | phiMP =>
    cases h
    exact ⟨fun a => by cases a <;> simp [Kind.ctr, Kind.call], by simp, by simp [storesData]⟩
  | u =>
    cases h
    refine ⟨fun a => ?_, by simp, fun _ f hf => Or.inr ⟨c.grid_save, ?_⟩⟩
    · rw [if_neg (by cases a <;> decide), add_zero]
      cases a <;> rfl
    · simp only [List.mem_cons, List.not_mem_nil, or_false] at hf
      rcases hf with rfl | rfl
      · exact Or.inl (hu "u_" _)
      · exact Or.inr (hu "v_" _)
  | gsdGrid =>
    cases h
    refine ⟨fun a => ?_, by simp, fun _ f hf => Or.inl ?_⟩
    · rw [if_neg (by cases a <;> decide), add_zero]
    · rcases List.mem_cons.1 hf with rfl | hf
      · exact ⟨_, rfl⟩
      · obtain ⟨p, -, rfl⟩ := List.mem_map.1 hf
        exact ⟨_, rfl⟩

theorem outputs_cons {o : OutPar} {q : OutCall} {l : List OutCall} {c c' : Counters}
    {r : List (OutCall × List String)} (h : outputs o (q :: l) c = .ok (r, c')) :
    ∃ fs c1 r1, output o q c = .ok (fs, c1) ∧ outputs o l c1 = .ok (r1, c') ∧
      r = (q, fs) :: r1 := by
  unfold outputs at h
  obtain ⟨⟨fs, c1⟩, h1, h⟩ := res_bind_ok.1 h
  obtain ⟨⟨r1, c2⟩, h2, h⟩ := res_bind_ok.1 h
  cases h
  exact ⟨fs, c1, r1, h1, h2, rfl⟩

theorem filesOf_cons (q : OutCall → Bool) (e : OutCall × List String)
    (r : List (OutCall × List String)) :
    filesOf q (e :: r) = (if q e.1 then e.2 else []) ++ filesOf q r := by
  unfold filesOf
  by_cases h : q e.1 = true
  · rw [List.filter_cons_of_pos (by exact h), if_pos h, List.flatMap_cons]
  · rw [List.filter_cons_of_neg (by exact h), if_neg h, List.nil_append]

theorem dataFiles_mem {o : OutPar} {l : List OutCall} {c c' : Counters}
    {r : List (OutCall × List String)} (h : outputs o l c = .ok (r, c')) {f : String}
    (hf : f ∈ filesOf storesData r) : ∃ (a : Kind) (k : ℤ), a.ctr c ≤ k ∧ f = series o.dir a.pre k := by
  induction l generalizing c r with
  | nil => cases h; simp [filesOf] at hf
  | cons q l ih =>
    obtain ⟨fs, c1, r1, h1, h2, rfl⟩ := outputs_cons h
    rw [filesOf_cons] at hf
    rcases List.mem_append.1 hf with hf | hf
    · split_ifs at hf with hs
      · obtain ⟨a, rfl⟩ := Kind.of_storesData hs
        obtain ⟨c2, e⟩ := a.output o c
        rw [e] at h1
        cases h1
        simp only [List.mem_cons, List.not_mem_nil, or_false] at hf
        exact ⟨a, _, le_rfl, hf⟩
      · simp at hf
    · obtain ⟨a, k, hk, rfl⟩ := ih h2 hf
      refine ⟨a, k, ?_, rfl⟩
      have := (output_counters h1).1 a
      split_ifs at this <;> omega

/-- C56.  No sequence of output calls makes `save_s_bar`, `save_density` and `save_phi_MP` write the
same file twice. -/
theorem c56_nodup {o : OutPar} {l : List OutCall} {c c' : Counters}
    {r : List (OutCall × List String)} (h : outputs o l c = .ok (r, c')) :
    (filesOf storesData r).Nodup := by
  induction l generalizing c r with
  | nil => cases h; simp [filesOf]
  | cons q l ih =>
    obtain ⟨fs, c1, r1, h1, h2, rfl⟩ := outputs_cons h
    rw [filesOf_cons]
    split_ifs with hs
    · obtain ⟨a, rfl⟩ := Kind.of_storesData hs
      have hc := (output_counters h1).1 a
      rw [if_pos rfl] at hc
      obtain ⟨c2, e⟩ := a.output o c
      rw [e] at h1
      cases h1
      refine List.nodup_cons.2 ⟨fun hm => ?_, ih h2⟩
      obtain ⟨b, k, hk, hb⟩ := dataFiles_mem h2 hm
      obtain ⟨rfl, e⟩ := Kind.inj hb
      omega
    · exact ih h2

/-- C56.  No other call writes to one of these files either. -/
theorem c56_untouched {o : OutPar} {l : List OutCall} {c c' : Counters}
    {r : List (OutCall × List String)} (h : outputs o l c = .ok (r, c')) :
    ∀ f ∈ filesOf (fun q => !storesData q) r, f ∉ filesOf storesData r := by
  intro f hf hd
  obtain ⟨a, k, -, rfl⟩ := dataFiles_mem h hd
  clear hd
  induction l generalizing c r with
  | nil => cases h; simp [filesOf] at hf
  | cons q l ih =>
    obtain ⟨fs, c1, r1, h1, h2, rfl⟩ := outputs_cons h
    rw [filesOf_cons] at hf
    rcases List.mem_append.1 hf with hf | hf
    · split_ifs at hf with hs
      · rcases (output_counters h1).2.2 (by simpa using hs) _ hf with ⟨s, e⟩ | ⟨k', e | e⟩
        · exact series_png e
        · cases a <;> exact absurd (series_first e rfl rfl) (by decide)
        · cases a <;> exact absurd (series_first e rfl rfl) (by decide)
      · simp at hf
    · exact ih h2 hf

/-- C56.  The files of each series are numbered consecutively from the counter (0 when there is
none yet), one for each call. -/
theorem c56_numbered {o : OutPar} {l : List OutCall} {c c' : Counters}
    {r : List (OutCall × List String)} (h : outputs o l c = .ok (r, c')) :
    filesOf (· = .sBar) r = (List.range (l.count .sBar)).map (fun k : ℕ =>
        series o.dir "s_bar_" (c.s_bar_save.getD 0 + k)) ∧
    filesOf (· = .density) r = (List.range (l.count .density)).map (fun k : ℕ =>
        series o.dir "density_" (c.density_save.getD 0 + k)) ∧
    filesOf (· = .phiMP) r = (List.range (l.count .phiMP)).map (fun k : ℕ =>
        series o.dir "MP_phi_" (c.mp_phi_save.getD 0 + k)) := by
  have key : ∀ a : Kind, filesOf (· = a.call) r = (List.range (l.count a.call)).map (fun k : ℕ =>
      series o.dir a.pre (a.ctr c + k)) := by
    intro a
    induction l generalizing c r with
    | nil => cases h; rfl
    | cons q l ih =>
      obtain ⟨fs, c1, r1, h1, h2, rfl⟩ := outputs_cons h
      have hc := (output_counters h1).1 a
      rw [filesOf_cons, ih h2]
      by_cases hq : q = a.call
      · subst hq
        rw [if_pos rfl] at hc
        obtain ⟨c2, e⟩ := a.output o c
        rw [e] at h1
        cases h1
        rw [if_pos (by simp), List.count_cons_self, List.range_succ_eq_map, List.map_cons,
          List.map_map, hc]
        simp only [List.singleton_append, Nat.cast_zero, add_zero]
        congr 1
        refine List.map_congr_left fun k _ => ?_
        simp only [Function.comp_apply, Nat.cast_succ]
        congr 1
        omega
      · rw [if_neg hq] at hc
        rw [if_neg (by simpa using hq), List.nil_append, hc, add_zero,
          List.count_cons_of_ne hq]
  exact ⟨key .sBar, key .density, key .phi⟩

theorem outputs_append {o : OutPar} {l l' : List OutCall} {c c' : Counters}
    {r : List (OutCall × List String)} (h : outputs o (l ++ l') c = .ok (r, c')) :
    ∃ r1 c1 r2, outputs o l c = .ok (r1, c1) ∧ outputs o l' c1 = .ok (r2, c') ∧ r = r1 ++ r2 := by
  induction l generalizing c r with
  | nil => exact ⟨[], c, r, rfl, h, rfl⟩
  | cons q l ih =>
    obtain ⟨fs, c1, r1, h1, h2, rfl⟩ := outputs_cons h
    obtain ⟨r2, c2, r3, h3, h4, rfl⟩ := ih h2
    exact ⟨(q, fs) :: r2, c2, r3, res_bind_ok.2 ⟨_, h1, res_bind_ok.2 ⟨_, h3, rfl⟩⟩, h4, rfl⟩

theorem outputs_grid_save {o : OutPar} {l : List OutCall} {c c' : Counters}
    {r : List (OutCall × List String)} (h : outputs o l c = .ok (r, c')) :
    c'.grid_save = c.grid_save + l.count .continuum := by
  induction l generalizing c r with
  | nil => cases h; simp
  | cons q l ih =>
    obtain ⟨fs, c1, r1, h1, h2, rfl⟩ := outputs_cons h
    rw [ih h2, (output_counters h1).2.1, List.count_cons]
    by_cases hq : q = .continuum <;> (simp [hq]; try omega)

/-- C56.  `save_u` writes to names numbered with the figure counter: a later `save_u` overwrites an
earlier one exactly when there is no `draw_continuum` between them. -/
theorem c56_u {o : OutPar} {before between : List OutCall} {c c' : Counters}
    {r : List (OutCall × List String)}
    (h : outputs o (before ++ .u :: (between ++ [.u])) c = .ok (r, c')) :
    ∃ (r1 r2 : List (OutCall × List String)) (first second : List String),
      r1.length = before.length ∧ r2.length = between.length ∧
      r = r1 ++ (.u, first) :: (r2 ++ [(.u, second)]) ∧ first.length = 2 ∧
      (first = second ↔ .continuum ∉ between) ∧
      (.continuum ∈ between → ∀ f ∈ first, f ∉ second) := by
  have len : ∀ {l : List OutCall} {c c' : Counters} {r : List (OutCall × List String)},
      outputs o l c = .ok (r, c') → r.length = l.length := by
    intro l
    induction l with
    | nil => intro c c' r h; cases h; rfl
    | cons q l ih =>
      intro c c' r h
      obtain ⟨fs, c1, r1, h1, h2, rfl⟩ := outputs_cons h
      simp [ih h2]
  obtain ⟨r1, c1, r', h1, h2, rfl⟩ := outputs_append h
  obtain ⟨fs, c2, r'', h3, h4, rfl⟩ := outputs_cons h2
  obtain ⟨r2, c3, r3, h5, h6, rfl⟩ := outputs_append h4
  obtain ⟨fs', c4, r4, h7, h8, rfl⟩ := outputs_cons h6
  cases h8
  have g := outputs_grid_save h5
  have g2 := (output_counters h3).2.1
  rw [if_neg (by decide), add_zero] at g2
  rw [g2] at g
  cases h3
  cases h7
  have hu : ∀ (p : String) (k : ℤ),
      o.dir ++ ("data/" ++ p) ++ zfill 5 k ++ ".npy" = series o.dir p k := by
    intro p k
    apply String.toList_inj.1
    simp only [series, String.toList_append, List.append_assoc]
  have e1 := hu "u_"
  have e2 := hu "v_"
  change ∀ k : ℤ, o.dir ++ "data/u_" ++ zfill 5 k ++ ".npy" = _ at e1
  change ∀ k : ℤ, o.dir ++ "data/v_" ++ zfill 5 k ++ ".npy" = _ at e2
  have hcount : c1.grid_save = c3.grid_save ↔ .continuum ∉ between := by
    rw [g, ← List.count_eq_zero]; omega
  refine ⟨r1, r2, _, _, len h1, len h5, rfl, rfl, ?_, ?_⟩
  · rw [← hcount]
    constructor
    · intro e
      have e := (List.cons.inj e).1
      rw [e1, e1] at e
      exact series_inj e
    · intro e; rw [e]
  · intro hb f hf hf'
    have hne : c1.grid_save ≠ c3.grid_save := fun e => hcount.1 e hb
    simp only [e1, e2, List.mem_cons, List.not_mem_nil, or_false] at hf hf'
    rcases hf with rfl | rfl <;> rcases hf' with hf' | hf'
    · exact hne (series_inj hf')
    · exact absurd (series_first hf' rfl rfl) (by decide)
    · exact absurd (series_first hf' rfl rfl) (by decide)
    · exact hne (series_inj hf')

/-- C56.  Every figure of `draw_continuum` goes to a file of its own: with `k` earlier calls the
file is number `grid_save + k`. -/
theorem c56_continuum {o : OutPar} {before : List OutCall} {c c' : Counters}
    {r : List (OutCall × List String)} (h : outputs o (before ++ [.continuum]) c = .ok (r, c'))
    (hr : o.rigid.head? = some false) :
    ∃ r1, r = r1 ++ [(.continuum, [o.dir ++ "Continuum/" ++
      zfill 5 (c.grid_save + before.count .continuum) ++ ".png"])] := by
  obtain ⟨r1, c1, r', h1, h2, rfl⟩ := outputs_append h
  obtain ⟨fs, c2, r'', h3, h4, rfl⟩ := outputs_cons h2
  cases h4
  refine ⟨r1, ?_⟩
  rw [← outputs_grid_save h1]
  simp only [output, drawContinuum] at h3
  split at h3
  · cases h3
  · rename_i b l hl
    rw [hl] at hr
    cases hr
    cases h3
    simp [savefigName, String.append_assoc]

/-- C56.  All figures of the energy go to one file, named after the number of points of the first phase:
each replaces the one before, and so does that of any later run with as many points. -/
theorem c56_energy {o : OutPar} {l : List OutCall} {c c' : Counters}
    {r : List (OutCall × List String)} (h : outputs o l c = .ok (r, c')) :
    filesOf (· = .energy) r =
      List.replicate (l.count .energy) (o.dir ++ "ns_" ++ toString o.n0 ++ ".png") := by
  induction l generalizing c r with
  | nil => cases h; rfl
  | cons call l ih =>
    obtain ⟨fs, c1, r1, h1, h2, rfl⟩ := outputs_cons h
    have e := ih h2
    by_cases hc : call = .energy
    · subst hc
      have hf : fs = [o.dir ++ "ns_" ++ toString o.n0 ++ ".png"] := by
        simp only [output, drawEnergy] at h1
        split at h1
        · cases h1
        · cases h1
          simp [savefigName, String.append_assoc]
      rw [List.count_cons_self, List.replicate_succ, ← e, hf]
      simp [filesOf]
    · rw [List.count_cons_of_ne hc, ← e]
      simp [filesOf, hc]

/-! ## The hypotheses can be met -/

def Ex.outPar : OutPar := { dir := "im/ball/", rigid := [false, true], ns := 2, n0 := 7 }

def Ex.counters : Counters :=
  { save := none, grid_save := 0, mp_save := 0, s_bar_save := none, density_save := none,
    u_save := none, mp_phi_save := some 99999 }

def Ex.outCalls : List OutCall :=
  [.sBar, .u, .phiMP, .phiMP, .gsdGrid, .sBar, .density, .u, .continuum, .gsdMp, .u,
    .energy, .materialPoints (some "final"), .energy]

def Ex.outFiles : List (List String) :=
  [["im/ball/data/s_bar_00000.npy"],
   ["im/ball/data/u_00000.npy", "im/ball/data/v_00000.npy"],
   ["im/ball/data/MP_phi_99999.npy"],
   ["im/ball/data/MP_phi_100000.npy"],
   ["im/ball/GSD/s_bar/00000.png", "im/ball/GSD/phi_0/00000.png", "im/ball/GSD/phi_1/00000.png"],
   ["im/ball/data/s_bar_00001.npy"],
   ["im/ball/data/density_00000.npy"],
   ["im/ball/data/u_00000.npy", "im/ball/data/v_00000.npy"],
   ["im/ball/Continuum/00000.png"],
   ["im/ball/GSD/MP_0_00000.png", "im/ball/GSD/MP_1_00000.png"],
   ["im/ball/data/u_00001.npy", "im/ball/data/v_00001.npy"],
   ["im/ball/ns_7.png"],
   ["im/ball/MP_0/final.png", "im/ball/MP_1/final.png"],
   ["im/ball/ns_7.png"]]

def Ex.outCheck : Bool :=
  match outputs Ex.outPar Ex.outCalls Ex.counters with
  | .ok (r, _) => decide (r.map (·.2) = Ex.outFiles)
  | .error _ => false

example : ∃ r c', outputs Ex.outPar Ex.outCalls Ex.counters = .ok (r, c') ∧
    r.map (·.2) = Ex.outFiles := by
  have h : Ex.outCheck = true := by decide +kernel
  unfold Ex.outCheck at h
  split at h
  · rename_i r c' hr
    exact ⟨r, c', hr, of_decide_eq_true h⟩
  · simp at h

end Mpm

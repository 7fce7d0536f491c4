import Verif.Model.Shipped
import Verif.Props.Run
import Verif.Props.Output
import Verif.Props.Saved

/-!
# What the runs of the shipped input files leave on the disk (C133)
-/

set_option linter.unusedSectionVars false

namespace Mpm
open Spec

namespace Spec
section
variable {K : Type} [Field K] [LinearOrder K] {P : Par K}

/-- What is in a file in the end: what was written to it last. -/
def lastWrite {α : Type} : List (String × α) → String → Option α
  | [], _ => none
  | (m, d) :: l, n => (lastWrite l n).or (if m = n then some d else none)

/-- The states of a run that are to be saved. -/
def savedStates (A : LoopPar K) [FloorRing K] (us : List (St P)) : List (St P) :=
  us.filter fun u => saveTest u.dyn.t u.dyn.dt A.savetime

/-- The data of a state, as arrays with one row for each row of nodes: mean sizes, densities,
velocities, and the table of points. -/
def sizesOf (u : St P) : FileData K P.G.nx P.G.ny := .array fun r c => .fin (u.G.s_bar (mkNode c r))
def densitiesOf (u : St P) : FileData K P.G.nx P.G.ny :=
  .array fun r c => .fin (u.G.m (mkNode c r)) / .fin (u.G.V (mkNode c r))
def velocitiesOf (e : Fin 3) (u : St P) : FileData K P.G.nx P.G.ny :=
  .array fun r c => .fin (u.G.q (mkNode c r) e) / .fin (u.G.m (mkNode c r))
def pointsOf (u : St P) : FileData K P.G.nx P.G.ny :=
  .table ((points u.L).map fun mp => mp.x 0 :: mp.x 1 :: List.ofFn mp.phi)

/-- The file with the figure of the grid number `k`. -/
def gridPicture (dir : String) (k : ℕ) : String := dir ++ "Continuum/" ++ zfill 5 k ++ ".png"

/-- The data files of a state, `j` being the number of the velocities and `k` that of the others. -/
def dataFiles (dir : String) (j k : ℕ) (u : St P) : List (String × FileData K P.G.nx P.G.ny) :=
  [(series dir "u_" j, velocitiesOf 0 u), (series dir "v_" j, velocitiesOf 1 u),
   (series dir "s_bar_" k, sizesOf u), (series dir "density_" k, densitiesOf u),
   (series dir "MP_phi_" k, pointsOf u)]

/-- The figure of the grid, if there is one: the first phase must not be rigid. -/
def gridPictures (dir : String) (k : ℕ) (u : St P) : List (String × FileData K P.G.nx P.G.ny) :=
  match u.L with
  | [] => []
  | a :: _ => if a.ph.law = .rigid then [] else [(gridPicture dir k, .picture)]

/-- The figures of the points, one for every phase. -/
def pointPictures (dir base : String) (u : St P) : List (String × FileData K P.G.nx P.G.ny) :=
  (List.range u.L.length).map fun p => (dir ++ ("MP_" ++ toString p ++ "/" ++ base) ++ ".png", .picture)

/-- The figures of the sizes at the points, one for every phase. -/
def sizePictures (dir : String) (k : ℕ) (u : St P) : List (String × FileData K P.G.nx P.G.ny) :=
  (List.range u.L.length).map fun p =>
    (dir ++ ("GSD/MP_" ++ toString p ++ "_" ++ zfill 5 k) ++ ".png", .picture)

/-- What an input file writes for the `k`-th state that is saved, counting from zero. -/
def savingOf (dir : String) (k : ℕ) (u : St P) : InputFile → List (String × FileData K P.G.nx P.G.ny)
  | .slopeStab => gridPictures dir k u ++ dataFiles dir (k + 1) k u
  | .damBreak => gridPictures dir k u ++ pointPictures dir (zfill 5 k) u ++ dataFiles dir (k + 1) k u
  | .segTest => gridPictures dir k u ++ dataFiles dir (k + 1) k u
  | .squareDrum => gridPictures dir k u ++ sizePictures dir k u ++ dataFiles dir (k + 1) k u
  | .ball => gridPictures dir k u ++ pointPictures dir (zfill 5 k) u
  | .other => []

/-- What it writes at the end, after `k` savings.  The files other than PSM_slope_stab.py do the same
once more, but with another name for the figures of the points. -/
def endingOf (dir : String) (k : ℕ) (u : St P) : InputFile → List (String × FileData K P.G.nx P.G.ny)
  | .slopeStab => dataFiles dir k k u
  | .damBreak => gridPictures dir k u ++ pointPictures dir "final" u ++ dataFiles dir (k + 1) k u
  | .segTest => gridPictures dir k u ++ dataFiles dir (k + 1) k u
  | .squareDrum => gridPictures dir k u ++ sizePictures dir k u ++ dataFiles dir (k + 1) k u
  | .ball => gridPictures dir k u ++ pointPictures dir "final" u
  | .other => []

/-- What it writes for all states that are saved. -/
def savings (dir : String) (f : InputFile) : ℕ → List (St P) → List (String × FileData K P.G.nx P.G.ny)
  | _, [] => []
  | k, u :: us => savingOf dir k u f ++ savings dir f (k + 1) us

end
end Spec

section
variable {K : Type} [Field K] [LinearOrder K] [IsStrictOrderedRing K] [FloorRing K]
variable {P : Par K} {interp : Interp K P.G.N} {A : LoopPar K} {dir : String} {f : InputFile}

/-! ### The run -/

theorem looks_hooks : Looks (f.hooks (P := P) dir) := by
  intro c x y h
  obtain ⟨w, -, h⟩ := res_bind_ok.1 h
  cases h
  rfl

/-- The calls of a hook for several states, one after the other. -/
def writeEach (dir : String) (calls : List OutCall) : List (St P) → Out P → Res (Out P)
  | [], w => .ok w
  | u :: us, w => do
    let w ← writeAll dir u calls w
    writeEach dir calls us w

theorem callHook_file {c : Call} {l l' : LoopSt P (Out P)}
    (h : callHook P (f.hooks dir) c l = .ok l') :
    l'.s = l.s ∧ writeAll dir l.s (f.calls c) l.w = .ok l'.w := by
  obtain ⟨w, h1, h2⟩ := res_bind_ok.1 (callHook_ok h).1
  have h2 := Except.ok.inj h2
  exact ⟨(congrArg Prod.fst h2).symm, h1.trans (congrArg Except.ok (congrArg Prod.snd h2))⟩

theorem callHook_blank {c : Call} (hc : f.calls c = []) {l l' : LoopSt P (Out P)}
    (h : callHook P (f.hooks dir) c l = .ok l') : l'.s = l.s ∧ l'.w = l.w := by
  obtain ⟨h1, h2⟩ := callHook_file h
  rw [hc] at h2
  exact ⟨h1, (Except.ok.inj h2).symm⟩

theorem loop_file {fuel : ℕ} {l l' : LoopSt P (Out P)}
    (h : loop P interp A (f.hooks dir) fuel l = some (.ok l')) :
    ∃ us, Chain P interp A l.s us l'.s ∧
      writeEach dir f.nth (savedStates A us) l.w = .ok l'.w := by
  induction fuel generalizing l with
  | zero => cases h
  | succ fuel ih =>
    unfold loop at h
    split at h
    · rename_i hle
      split at h
      · cases h
      · rename_i l1 hb
        obtain ⟨-, -, s1, a1, a2, a3, h1, h2, h3, h4, h5⟩ := loopBody_parts hb
        obtain ⟨e2, w2⟩ := callHook_blank rfl h2
        obtain ⟨e4, w4⟩ := callHook_blank rfl h4
        obtain ⟨tk, w5, -⟩ := advance_ticks h5
        obtain ⟨us, hu, hw⟩ := ih h
        simp only at e2 w2
        unfold nthHook at h3
        split at h3
        · rename_i hs
          obtain ⟨e3, w3⟩ := callHook_file h3
          rw [e4, e3, e2] at tk
          rw [e2] at hs w3
          rw [w2] at w3
          refine ⟨s1 :: us, .step hle h1 tk hu, ?_⟩
          rw [savedStates, List.filter_cons, if_pos hs]
          refine res_bind_ok.2 ⟨_, w3, ?_⟩
          rw [← w4, ← w5]
          exact hw
        · rename_i hs
          cases h3
          rw [e4, e2] at tk
          rw [e2] at hs
          refine ⟨s1 :: us, .step hle h1 tk hu, ?_⟩
          rw [savedStates, List.filter_cons, if_neg hs, ← w2, ← w4, ← w5]
          exact hw
    · rename_i hle
      cases h
      exact ⟨[], .done (not_le.1 hle), rfl⟩

theorem mainRun_file {fuel : ℕ} {s : St P} {w : Out P} {l : LoopSt P (Out P)}
    (h : mainRun P interp A (f.hooks dir) fuel s w = some (.ok l)) :
    ∃ us, Chain P interp A s us l.s ∧ ∃ w', writeEach dir f.nth (savedStates A us) w = .ok w' ∧
      writeAll dir l.s f.final w' = .ok l.w := by
  obtain ⟨l1, l2, h1, h2, h3⟩ := mainRun_ok h
  obtain ⟨e1, w1⟩ := callHook_blank rfl h1
  obtain ⟨e3, w3⟩ := callHook_file h3
  obtain ⟨us, hu, hw⟩ := loop_file h2
  simp only at e1 w1
  rw [e1, ← e3] at hu
  rw [w1] at hw
  exact ⟨us, hu, l2.w, hw, by rw [e3]; exact w3⟩

/-! ### The files of one state -/

/-- The counters after `k` savings, `j` figures of the grid and `m` of the points. -/
structure CountersAt (k j m : ℕ) (c : Counters) : Prop where
  grid : c.grid_save = j
  mp : c.mp_save = m
  size : c.s_bar_save.getD 0 = k
  density : c.density_save.getD 0 = k
  phi : c.mp_phi_save.getD 0 = k

theorem series_eq (dir p : String) (k : ℤ) :
    dir ++ ("data/" ++ p) ++ zfill 5 k ++ ".npy" = series dir p k := by
  apply String.toList_inj.1
  simp only [series, String.toList_append, List.append_assoc]

theorem writeAll_save {u : St P} (hL : Counted u.L) {w : Out P} {j k m : ℕ}
    (hw : CountersAt k j m w.c) :
    ∃ w', writeAll dir u saveCalls w = .ok w' ∧ w'.written = w.written ++ dataFiles dir j k u ∧
      CountersAt (k + 1) j m w'.c := by
  have hp := c120_points hL
  refine ⟨{ c := { w.c with
      u_save := some (w.c.u_save.getD 0 + 1)
      s_bar_save := some (w.c.s_bar_save.getD 0 + 1)
      density_save := some (w.c.density_save.getD 0 + 1)
      mp_phi_save := some (w.c.mp_phi_save.getD 0 + 1) }, written := w.written ++ dataFiles dir j k u },
    ?_, rfl, ⟨hw.grid, hw.mp, ?_, ?_, ?_⟩⟩
  · have e : ∀ p n, (outPar dir u).dir ++ ("data/" ++ p) ++ zfill 5 n ++ ".npy" = series dir p n :=
      fun p n => series_eq dir p n
    have e1 := e "u_" w.c.grid_save
    have e2 := e "v_" w.c.grid_save
    have e3 := e "s_bar_" (w.c.s_bar_save.getD 0)
    have e4 := e "density_" (w.c.density_save.getD 0)
    have e5 := e "MP_phi_" (w.c.mp_phi_save.getD 0)
    rw [hw.grid] at e1 e2
    rw [hw.size] at e3
    rw [hw.density] at e4
    rw [hw.phi] at e5
    simp only [saveCalls, writeAll, writeFiles, output, saveU, saveSBar, saveDensity, savePhiMP,
      fileData, hp, bind, Except.bind, pure, Except.pure, hw.grid, hw.size, hw.density, hw.phi]
    refine congrArg Except.ok (congrArg (Out.mk _) ?_)
    simp only [List.zip_cons_cons, List.zip_nil_left, List.append_assoc, List.cons_append,
      List.nil_append, dataFiles]
    rw [← e1, ← e2, ← e3, ← e4, ← e5]
    rfl
  · simp [hw.size]
  · simp [hw.density]
  · simp [hw.phi]

theorem zip_pictures {nx ny : ℕ} (l : List String) :
    l.zip (l.map fun _ => (.picture : FileData K nx ny)) = l.map fun n => (n, .picture) := by
  induction l with
  | nil => rfl
  | cons a t ih => simp only [List.map_cons, List.zip_cons_cons, ih]

theorem writeFiles_continuum {u : St P} (hL : u.L ≠ []) {w : Out P} {j k m : ℕ}
    (hw : CountersAt k j m w.c) :
    ∃ w', writeFiles dir u .continuum w = .ok w' ∧ w'.written = w.written ++ gridPictures dir j u ∧
      CountersAt k (j + 1) m w'.c := by
  obtain ⟨d, L, G⟩ := u
  cases L with
  | nil => exact absurd rfl hL
  | cons a L =>
    refine ⟨⟨{ w.c with grid_save := w.c.grid_save + 1 },
      w.written ++ gridPictures dir j ⟨d, a :: L, G⟩⟩, ?_, rfl,
      ⟨by simp [hw.grid], hw.mp, hw.size, hw.density, hw.phi⟩⟩
    simp only [writeFiles, output, drawContinuum, outPar, List.map_cons, fileData, bind, Except.bind,
      pure, Except.pure, zip_pictures]
    refine congrArg Except.ok (congrArg (Out.mk _) (congrArg _ ?_))
    unfold gridPictures
    by_cases h : a.ph.law = .rigid
    · simp [h]
    · simp only [h, decide_false, Bool.false_eq_true, if_false, List.map_cons, List.map_nil]
      rw [hw.grid]
      refine congrArg (fun n => [(n, FileData.picture)]) ?_
      unfold savefigName gridPicture
      apply String.toList_inj.1
      simp only [String.toList_append, List.append_assoc]

theorem writeFiles_points {u : St P} {name : Option String} {base : String} {w : Out P} {j k m : ℕ}
    (hw : CountersAt k j m w.c) (hb : base = match name with
      | none => zfill 5 m
      | some s => if s = "" then zfill 5 m else zfillStr s) :
    ∃ w', writeFiles dir u (.materialPoints name) w = .ok w' ∧
      w'.written = w.written ++ pointPictures dir base u ∧ CountersAt k j (m + 1) w'.c := by
  refine ⟨⟨{ w.c with mp_save := w.c.mp_save + 1 }, w.written ++ pointPictures dir base u⟩, ?_, rfl,
    ⟨hw.grid, by simp [hw.mp], hw.size, hw.density, hw.phi⟩⟩
  simp only [writeFiles, output, drawMaterialPoints, fileData, bind, Except.bind,
    pure, Except.pure, zip_pictures, hw.mp]
  refine congrArg Except.ok (congrArg (Out.mk _) (congrArg _ ?_))
  subst hb
  unfold pointPictures
  rw [List.map_map]
  simp only [outPar, List.length_map]
  rfl

theorem writeFiles_sizes {u : St P} {w : Out P} {j k m : ℕ} (hw : CountersAt k j m w.c) :
    ∃ w', writeFiles dir u .gsdMp w = .ok w' ∧
      w'.written = w.written ++ sizePictures dir m u ∧ CountersAt k j (m + 1) w'.c := by
  refine ⟨⟨{ w.c with mp_save := w.c.mp_save + 1 }, w.written ++ sizePictures dir m u⟩, ?_, rfl,
    ⟨hw.grid, by simp [hw.mp], hw.size, hw.density, hw.phi⟩⟩
  simp only [writeFiles, output, drawGsdMp, fileData, bind, Except.bind,
    pure, Except.pure, zip_pictures, hw.mp]
  refine congrArg Except.ok (congrArg (Out.mk _) (congrArg _ ?_))
  unfold sizePictures
  rw [List.map_map]
  simp only [outPar, List.length_map]
  rfl

theorem writeAll_cons {u : St P} {call : OutCall} {l : List OutCall} {w w1 : Out P}
    (h : writeFiles dir u call w = .ok w1) :
    writeAll dir u (call :: l) w = writeAll dir u l w1 := by
  show (writeFiles dir u call w >>= fun w => writeAll dir u l w) = _
  rw [h]
  rfl

theorem base_final (m : ℕ) : "final" = (match some "final" with
    | none => zfill 5 m
    | some s => if s = "" then zfill 5 m else zfillStr s) := by
  show "final" = if "final" = "" then zfill 5 m else zfillStr "final"
  rw [if_neg (by decide)]
  decide +kernel

/-- The counters after `k` states have been saved. -/
def countersOf (f : InputFile) (k : ℕ) : Counters → Prop :=
  match f with
  | .slopeStab | .segTest => CountersAt k k 0
  | .damBreak | .squareDrum => CountersAt k k k
  | .ball => CountersAt 0 k k
  | .other => fun _ => True

theorem writeAll_nth {u : St P} (hL : Counted u.L) (h0 : u.L ≠ []) {w : Out P} {k : ℕ}
    (hw : countersOf f k w.c) :
    ∃ w', writeAll dir u f.nth w = .ok w' ∧ w'.written = w.written ++ savingOf dir k u f ∧
      countersOf f (k + 1) w'.c := by
  cases f with
  | slopeStab =>
    obtain ⟨w1, h1, e1, c1⟩ := writeFiles_continuum (dir := dir) h0 hw
    obtain ⟨w2, h2, e2, c2⟩ := writeAll_save (dir := dir) hL c1
    exact ⟨w2, (writeAll_cons h1).trans h2, by rw [e2, e1, List.append_assoc]; rfl, c2⟩
  | segTest =>
    obtain ⟨w1, h1, e1, c1⟩ := writeFiles_continuum (dir := dir) h0 hw
    obtain ⟨w2, h2, e2, c2⟩ := writeAll_save (dir := dir) hL c1
    exact ⟨w2, (writeAll_cons h1).trans h2, by rw [e2, e1, List.append_assoc]; rfl, c2⟩
  | damBreak =>
    obtain ⟨w1, h1, e1, c1⟩ := writeFiles_continuum (dir := dir) h0 hw
    obtain ⟨w3, h3, e3, c3⟩ := writeFiles_points (dir := dir) (u := u) (name := none) c1 rfl
    obtain ⟨w2, h2, e2, c2⟩ := writeAll_save (dir := dir) hL c3
    exact ⟨w2, (writeAll_cons h1).trans ((writeAll_cons h3).trans h2),
      by rw [e2, e3, e1]; simp only [List.append_assoc, savingOf], c2⟩
  | squareDrum =>
    obtain ⟨w1, h1, e1, c1⟩ := writeFiles_continuum (dir := dir) h0 hw
    obtain ⟨w3, h3, e3, c3⟩ := writeFiles_sizes (dir := dir) (u := u) c1
    obtain ⟨w2, h2, e2, c2⟩ := writeAll_save (dir := dir) hL c3
    exact ⟨w2, (writeAll_cons h1).trans ((writeAll_cons h3).trans h2),
      by rw [e2, e3, e1]; simp only [List.append_assoc, savingOf], c2⟩
  | ball =>
    obtain ⟨w1, h1, e1, c1⟩ := writeFiles_continuum (dir := dir) h0 hw
    obtain ⟨w3, h3, e3, c3⟩ := writeFiles_points (dir := dir) (u := u) (name := none) c1 rfl
    exact ⟨w3, (writeAll_cons h1).trans ((writeAll_cons h3).trans rfl),
      by rw [e3, e1]; simp only [List.append_assoc, savingOf], c3⟩
  | other => exact ⟨w, rfl, (List.append_nil _).symm, trivial⟩

theorem writeAll_final {u : St P} (hL : Counted u.L) (h0 : u.L ≠ []) {w : Out P} {k : ℕ}
    (hw : countersOf f k w.c) :
    ∃ w', writeAll dir u f.final w = .ok w' ∧ w'.written = w.written ++ endingOf dir k u f := by
  cases f with
  | slopeStab =>
    obtain ⟨w2, h2, e2, c2⟩ := writeAll_save (dir := dir) hL hw
    exact ⟨w2, h2, e2⟩
  | segTest =>
    obtain ⟨w1, h1, e1, c1⟩ := writeFiles_continuum (dir := dir) h0 hw
    obtain ⟨w2, h2, e2, c2⟩ := writeAll_save (dir := dir) hL c1
    exact ⟨w2, (writeAll_cons h1).trans h2, by rw [e2, e1, List.append_assoc]; rfl⟩
  | damBreak =>
    obtain ⟨w1, h1, e1, c1⟩ := writeFiles_continuum (dir := dir) h0 hw
    obtain ⟨w3, h3, e3, c3⟩ := writeFiles_points (dir := dir) (u := u) (name := some "final")
      (base := "final") c1 (base_final _)
    obtain ⟨w2, h2, e2, c2⟩ := writeAll_save (dir := dir) hL c3
    exact ⟨w2, (writeAll_cons h1).trans ((writeAll_cons h3).trans h2),
      by rw [e2, e3, e1]; simp only [List.append_assoc, endingOf]⟩
  | squareDrum =>
    obtain ⟨w1, h1, e1, c1⟩ := writeFiles_continuum (dir := dir) h0 hw
    obtain ⟨w3, h3, e3, c3⟩ := writeFiles_sizes (dir := dir) (u := u) c1
    obtain ⟨w2, h2, e2, c2⟩ := writeAll_save (dir := dir) hL c3
    exact ⟨w2, (writeAll_cons h1).trans ((writeAll_cons h3).trans h2),
      by rw [e2, e3, e1]; simp only [List.append_assoc, endingOf]⟩
  | ball =>
    obtain ⟨w1, h1, e1, c1⟩ := writeFiles_continuum (dir := dir) h0 hw
    obtain ⟨w3, h3, e3, c3⟩ := writeFiles_points (dir := dir) (u := u) (name := some "final")
      (base := "final") c1 (base_final _)
    exact ⟨w3, (writeAll_cons h1).trans ((writeAll_cons h3).trans rfl),
      by rw [e3, e1]; simp only [List.append_assoc, endingOf]⟩
  | other => exact ⟨w, rfl, (List.append_nil _).symm⟩

theorem writeEach_nth {vs : List (St P)} (hL : ∀ u ∈ vs, Counted u.L ∧ u.L ≠ []) {w : Out P} {k : ℕ}
    (hw : countersOf f k w.c) :
    ∃ w', writeEach dir f.nth vs w = .ok w' ∧ w'.written = w.written ++ savings dir f k vs ∧
      countersOf f (k + vs.length) w'.c := by
  induction vs generalizing w k with
  | nil => exact ⟨w, rfl, (List.append_nil _).symm, hw⟩
  | cons u t ih =>
    obtain ⟨a, b⟩ := hL u List.mem_cons_self
    obtain ⟨w1, h1, e1, c1⟩ := writeAll_nth (dir := dir) a b hw
    obtain ⟨w2, h2, e2, c2⟩ := ih (fun v hv => hL v (List.mem_cons_of_mem _ hv)) c1
    refine ⟨w2, res_bind_ok.2 ⟨w1, h1, h2⟩, ?_, ?_⟩
    · rw [e2, e1, List.append_assoc]; rfl
    · rw [List.length_cons, Nat.add_comm t.length, ← Nat.add_assoc]; exact c2

theorem chain_listed {s s' : St P} {us : List (St P)} (hL : Counted s.L) (h0 : s.L ≠ [])
    (h : Chain P interp A s us s') : ∀ u ∈ s' :: us, Counted u.L ∧ u.L ≠ [] := by
  obtain ⟨a, b⟩ := c123_invariant (fun u : St P => Counted u.L ∧ u.L ≠ [])
    (fun s u hs hu => ⟨timeMarch_counted hs.1 hu, fun e => hs.2 (by
      obtain ⟨_, _, _, _, _, _, _, _, _, _, hR⟩ := timeMarch_points hs.1 hu
      have := hR.1
      rw [e] at this
      exact List.length_eq_zero_iff.1 this)⟩) (fun u s hu e _ => by rw [e]; exact hu) h ⟨hL, h0⟩
  intro u hu
  rcases List.mem_cons.1 hu with rfl | hu
  · exact a
  · exact b u hu

/-! ### The whole run -/

theorem countersOf_init : countersOf f 0 Counters.init := by
  cases f
  all_goals first | trivial | exact ⟨rfl, rfl, rfl, rfl, rfl⟩

/-- C133.  Everything that a run of a shipped input file writes, in order: the states which are saved
(MPM.py:71), numbered from zero, and the state at the end. -/
theorem c133_written {fuel : ℕ} {s : St P} (hL : Counted s.L) (h0 : s.L ≠ []) {w : Out P}
    (hw : w.c = Counters.init) {l : LoopSt P (Out P)}
    (h : mainRun P interp A (f.hooks dir) fuel s w = some (.ok l)) :
    ∃ us, Chain P interp A s us l.s ∧ l.w.written = w.written ++ savings dir f 0 (savedStates A us) ++
      endingOf dir (savedStates A us).length l.s f := by
  obtain ⟨us, hu, w1, h1, h2⟩ := mainRun_file h
  have hl := chain_listed hL h0 hu
  have hc : countersOf f 0 w.c := by rw [hw]; exact countersOf_init
  obtain ⟨w1', h1', e1, c1⟩ := writeEach_nth (dir := dir) (vs := savedStates A us)
    (fun u hv => hl u (List.mem_cons_of_mem _ (List.mem_filter.1 hv).1)) hc
  rw [h1] at h1'
  cases h1'
  obtain ⟨a, b⟩ := hl l.s List.mem_cons_self
  obtain ⟨w2, h2', e2⟩ := writeAll_final (dir := dir) a b c1
  rw [h2] at h2'
  have e := Except.ok.inj h2'
  refine ⟨us, hu, ?_⟩
  rw [e, e2, e1, Nat.zero_add]

theorem advance_of_ticks {W : Type} {l : LoopSt P W} {s1 : St P} (h : Ticks P A l.s s1) :
    advance P A l = .ok { l with s := s1 } := by
  obtain ⟨d, L, G⟩ := s1
  obtain ⟨(rfl : L = l.s.L), (rfl : G = l.s.G), h⟩ := h
  unfold advance
  simp only
  split
  · rename_i hd
    rw [if_pos hd] at h
    rcases h with ⟨dt, e, (rfl : d = _)⟩ | ⟨e, hlt, (rfl : d = _)⟩
    · rw [show defaultTimestep P A (stepTime P l.s).G = .fin dt from e]
      rfl
    · split
      · rename_i dt e'
        exact absurd e' (e dt)
      · rw [if_neg (show ¬ (stepTime P l.s).dyn.t ≤ A.t_f from not_le.2 hlt)]
        rfl
  · rename_i hd
    rw [if_neg hd] at h
    obtain (rfl : d = _) := h
    rfl

theorem callHook_write {c : Call} {l : LoopSt P (Out P)} {w : Out P}
    (h : writeAll dir l.s (f.calls c) l.w = .ok w) :
    ∃ l', callHook P (f.hooks dir) c l = .ok l' ∧ l'.s = l.s ∧ l'.w = w := by
  refine ⟨⟨l.s, w, _⟩, res_bind_ok.2 ⟨(l.s, w), ?_, rfl⟩, rfl, rfl⟩
  exact res_bind_ok.2 ⟨w, h, rfl⟩

theorem loop_of_chain (ht : A.t_f ≠ 0) (hs : A.savetime ≠ 0) {s s' : St P} {us : List (St P)}
    (h : Chain P interp A s us s') :
    ∀ (k : ℕ) (l : LoopSt P (Out P)), l.s = s → (∀ u ∈ us, Counted u.L ∧ u.L ≠ []) →
      countersOf f k l.w.c →
      ∃ fuel l', loop P interp A (f.hooks dir) fuel l = some (.ok l') ∧ l'.s = s' ∧
        ∃ k', countersOf f k' l'.w.c := by
  induction h with
  | done hlt =>
    rintro k l rfl - hc
    exact ⟨1, l, by unfold loop; rw [if_neg (not_le.2 hlt)], rfl, k, hc⟩
  | @step s u s1 s' us hle hm hk hc ih =>
    rintro k l rfl hl hw
    obtain ⟨l1, e1, s1', w1⟩ := callHook_write (f := f) (dir := dir) (c := .before)
      (l := { l with s := u, log := l.log ++ [⟨.march, l.s.dyn.t, l.s.dyn.tstep⟩] }) (w := l.w) rfl
    simp only at s1'
    obtain ⟨l2, e2, s2, k', hk'⟩ : ∃ l2, nthHook P A (f.hooks dir) l1 = .ok l2 ∧ l2.s = u ∧
        ∃ k', countersOf f k' l2.w.c := by
      unfold nthHook
      split
      · obtain ⟨a, b⟩ := hl u List.mem_cons_self
        obtain ⟨w2, h2, -, c2⟩ := writeAll_nth (dir := dir) (f := f) a b hw
        obtain ⟨l2, e2, s2, ww⟩ := callHook_write (f := f) (dir := dir) (c := .nth) (l := l1) (w := w2)
          (by rw [s1', w1]; exact h2)
        exact ⟨l2, e2, s2.trans s1', k + 1, by rw [ww]; exact c2⟩
      · exact ⟨l1, rfl, s1', k, by rw [w1]; exact hw⟩
    obtain ⟨l3, e3, s3, w3⟩ := callHook_write (f := f) (dir := dir) (c := .after) (l := l2) (w := l2.w) rfl
    have e4 := advance_of_ticks (l := l3) (A := A) (s1 := s1) (by rw [s3, s2]; exact hk)
    obtain ⟨fuel, l', g1, g2, g3⟩ := ih k' { l3 with s := s1 } rfl
      (fun v hv => hl v (List.mem_cons_of_mem _ hv)) (by rw [w3]; exact hk')
    refine ⟨fuel + 1, l', ?_, g2, g3⟩
    have hb : loopBody P interp A (f.hooks dir) l = .ok { l3 with s := s1 } := by
      unfold loopBody
      refine res_bind_ok.2 ⟨u, hm, res_bind_ok.2 ⟨l1, e1, ?_⟩⟩
      rw [if_neg ht, if_neg hs]
      exact res_bind_ok.2 ⟨l2, e2, res_bind_ok.2 ⟨l3, e3, e4⟩⟩
    unfold loop
    rw [if_pos hle, hb]
    exact g1

/-- C133.  Conversely a run gets to its end if its time steps do: output never ends it early. -/
theorem c133_ends (ht : A.t_f ≠ 0) (hs : A.savetime ≠ 0) {s s' : St P} (hL : Counted s.L) (h0 : s.L ≠ [])
    {w : Out P} (hw : w.c = Counters.init) {us : List (St P)} (h : Chain P interp A s us s') :
    ∃ fuel l, mainRun P interp A (f.hooks dir) fuel s w = some (.ok l) ∧ l.s = s' := by
  have hl := chain_listed hL h0 h
  obtain ⟨l1, e1, s1, w1⟩ := callHook_write (f := f) (dir := dir) (c := .initial)
    (l := { s := s, w := w, log := [] }) (w := w) rfl
  obtain ⟨fuel, l2, e2, s2, k, hk⟩ := loop_of_chain (f := f) (dir := dir) ht hs h 0 l1 s1
    (fun u hu => hl u (List.mem_cons_of_mem _ hu)) (by rw [w1, hw]; exact countersOf_init)
  obtain ⟨a, b⟩ := hl s' List.mem_cons_self
  obtain ⟨w2, h2, -⟩ := writeAll_final (dir := dir) a b hk
  obtain ⟨l3, e3, s3, -⟩ := callHook_write (f := f) (dir := dir) (c := .final) (l := l2) (w := w2)
    (by rw [s2]; exact h2)
  refine ⟨fuel, l3, ?_, s3.trans s2⟩
  unfold mainRun
  rw [e1]
  simp only
  rw [e2]
  simp only
  rw [e3]

/-! ### What is in the files at the end -/

theorem lastWrite_append {α : Type} (a b : List (String × α)) (n : String) :
    lastWrite (a ++ b) n = (lastWrite b n).or (lastWrite a n) := by
  induction a with
  | nil => simp [lastWrite]
  | cons e t ih =>
    obtain ⟨m, d⟩ := e
    simp only [List.cons_append, lastWrite, ih, Option.or_assoc]

theorem lastWrite_none {α : Type} {a : List (String × α)} {n : String} (h : ∀ e ∈ a, e.1 ≠ n) :
    lastWrite a n = none := by
  induction a with
  | nil => rfl
  | cons e t ih =>
    obtain ⟨m, d⟩ := e
    rw [lastWrite, ih fun e he => h e (List.mem_cons_of_mem _ he),
      if_neg (h _ List.mem_cons_self)]
    rfl

/-- The five series of data files. -/
inductive DataKind where
  | u | v | size | density | phi
  deriving DecidableEq

def DataKind.pre : DataKind → String
  | .u => "u_"
  | .v => "v_"
  | .size => "s_bar_"
  | .density => "density_"
  | .phi => "MP_phi_"

theorem DataKind.series_iff {a b : DataKind} {j k : ℤ} :
    series dir a.pre j = series dir b.pre k ↔ a = b ∧ j = k := by
  constructor
  · intro h
    have e : a = b := by
      cases a <;> cases b <;> first
        | rfl
        | exact absurd (series_first h rfl rfl) (by decide)
    subst e
    exact ⟨rfl, series_inj h⟩
  · rintro ⟨rfl, rfl⟩
    rfl

/-- The data of a kind. -/
def DataKind.of (u : St P) : DataKind → FileData K P.G.nx P.G.ny
  | .u => velocitiesOf 0 u
  | .v => velocitiesOf 1 u
  | .size => sizesOf u
  | .density => densitiesOf u
  | .phi => pointsOf u

/-- Which of the two numbers a kind goes by. -/
def DataKind.no (j k : ℕ) : DataKind → ℕ
  | .u => j
  | .v => j
  | _ => k

theorem lastWrite_data {u : St P} {j k n : ℕ} (a : DataKind) :
    lastWrite (dataFiles dir j k u) (series dir a.pre n) =
      if a.no j k = n then some (a.of u) else none := by
  have e : ∀ (b : DataKind) (i : ℕ), (series dir b.pre i = series dir a.pre n) = (b = a ∧ i = n) :=
    fun b i => by rw [DataKind.series_iff, Nat.cast_inj]
  have h1 := e .u j
  have h2 := e .v j
  have h3 := e .size k
  have h4 := e .density k
  have h5 := e .phi k
  simp only [DataKind.pre] at h1 h2 h3 h4 h5
  cases a <;> simp only [dataFiles, lastWrite, DataKind.pre] at * <;>
    simp only [h1, h2, h3, h4, h5, reduceCtorEq, false_and, true_and, if_false, Option.or_none,
      Option.none_or, DataKind.of, DataKind.no] <;> exact if_congr Iff.rfl rfl rfl

theorem gridPictures_png {u : St P} {k : ℕ} :
    ∀ e ∈ gridPictures dir k u, ∃ s : String, e.1 = s ++ ".png" := by
  intro e he
  unfold gridPictures at he
  split at he
  · cases he
  · split at he
    · cases he
    · rw [List.mem_singleton.1 he]
      exact ⟨_, rfl⟩

theorem pointPictures_png {u : St P} {b : String} :
    ∀ e ∈ pointPictures dir b u, ∃ s : String, e.1 = s ++ ".png" := by
  intro e he
  obtain ⟨p, -, rfl⟩ := List.mem_map.1 he
  exact ⟨_, rfl⟩

theorem sizePictures_png {u : St P} {k : ℕ} :
    ∀ e ∈ sizePictures dir k u, ∃ s : String, e.1 = s ++ ".png" := by
  intro e he
  obtain ⟨p, -, rfl⟩ := List.mem_map.1 he
  exact ⟨_, rfl⟩

theorem lastWrite_png {α : Type} {a : List (String × α)} (h : ∀ e ∈ a, ∃ s : String, e.1 = s ++ ".png")
    {p : String} {k : ℤ} : lastWrite a (series dir p k) = none :=
  lastWrite_none fun e he c => by
    obtain ⟨s, hs⟩ := h e he
    rw [hs] at c
    exact series_png c.symm

/-- The input files that save data. -/
def Spec.SavesData (f : InputFile) : Prop := f ≠ .ball ∧ f ≠ .other

theorem lastWrite_saving (hf : SavesData f) {u : St P} {k n : ℕ} (a : DataKind) :
    lastWrite (savingOf dir k u f) (series dir a.pre n) =
      if a.no (k + 1) k = n then some (a.of u) else none := by
  have h1 : lastWrite (gridPictures dir k u) (series dir a.pre n) = none :=
    lastWrite_png gridPictures_png
  have h2 : lastWrite (pointPictures dir (zfill 5 k) u) (series dir a.pre n) = none :=
    lastWrite_png pointPictures_png
  have h3 : lastWrite (sizePictures dir k u) (series dir a.pre n) = none :=
    lastWrite_png sizePictures_png
  cases f
  case ball => exact absurd rfl hf.1
  case other => exact absurd rfl hf.2
  all_goals simp only [savingOf, lastWrite_append, lastWrite_data, h1, h2, h3, Option.or_none]

theorem lastWrite_ending (hf : SavesData f) {u : St P} {k n : ℕ} (a : DataKind) :
    lastWrite (endingOf dir k u f) (series dir a.pre n) =
      if a.no (if f = .slopeStab then k else k + 1) k = n then some (a.of u) else none := by
  have h1 : lastWrite (gridPictures dir k u) (series dir a.pre n) = none :=
    lastWrite_png gridPictures_png
  have h2 : lastWrite (pointPictures dir "final" u) (series dir a.pre n) = none :=
    lastWrite_png pointPictures_png
  have h3 : lastWrite (sizePictures dir k u) (series dir a.pre n) = none :=
    lastWrite_png sizePictures_png
  cases f
  case ball => exact absurd rfl hf.1
  case other => exact absurd rfl hf.2
  all_goals simp only [endingOf, lastWrite_append, lastWrite_data, h1, h2, h3, Option.or_none,
    reduceCtorEq, if_false, if_true]

theorem lastWrite_savings (hf : SavesData f) {vs : List (St P)} {i n : ℕ} (a : DataKind) (o : ℕ)
    (ho : ∀ k, a.no (k + 1) k = k + o) :
    lastWrite (savings dir f i vs) (series dir a.pre n) =
      if i + o ≤ n then (vs[n - (i + o)]?).map a.of else none := by
  induction vs generalizing i with
  | nil => simp [savings, lastWrite]
  | cons u t ih =>
    rw [savings, lastWrite_append, ih, lastWrite_saving hf, ho]
    by_cases h : i + o = n
    · subst h
      rw [if_neg (by omega), if_pos rfl, if_pos le_rfl, Nat.sub_self]
      rfl
    · rw [if_neg h, Option.or_none]
      by_cases h' : i + o ≤ n
      · rw [if_pos h', if_pos (by omega),
          show n - (i + o) = (n - (i + 1 + o)) + 1 by omega, List.getElem?_cons_succ]
      · rw [if_neg h', if_neg (by omega)]

/-- C133.  The sizes, densities and tables of points: file number `k` of each has the data of the
`k`-th state that was saved, and the last one that of the state at the end; files with higher numbers
are left as they were before the run. -/
theorem c133_data (hf : SavesData f) {fuel : ℕ} {s : St P} (hL : Counted s.L) (h0 : s.L ≠ []) {w : Out P}
    (hw : w.c = Counters.init) {l : LoopSt P (Out P)}
    (h : mainRun P interp A (f.hooks dir) fuel s w = some (.ok l)) :
    ∃ us, Chain P interp A s us l.s ∧ ∀ k : ℕ,
      (∀ u, (savedStates A us ++ [l.s])[k]? = some u →
        lastWrite l.w.written (series dir "s_bar_" k) = some (sizesOf u) ∧
        lastWrite l.w.written (series dir "density_" k) = some (densitiesOf u) ∧
        lastWrite l.w.written (series dir "MP_phi_" k) = some (pointsOf u)) ∧
      ((savedStates A us).length < k → ∀ p ∈ ["s_bar_", "density_", "MP_phi_"],
        lastWrite l.w.written (series dir p k) = lastWrite w.written (series dir p k)) := by
  obtain ⟨us, hu, e⟩ := c133_written hL h0 hw h
  refine ⟨us, hu, fun k => ?_⟩
  have key : ∀ a : DataKind, (∀ j k, a.no j k = k) →
      lastWrite l.w.written (series dir a.pre k) =
        (((savedStates A us ++ [l.s])[k]?).map a.of).or (lastWrite w.written (series dir a.pre k)) := by
    intro a ha
    rw [e, lastWrite_append, lastWrite_append, lastWrite_ending hf,
      lastWrite_savings hf a 0 (fun k => ha _ _), if_pos (Nat.zero_le _), ha, ← Option.or_assoc]
    congr 1
    rcases lt_trichotomy (savedStates A us).length k with h | h | h
    · rw [if_neg (by omega), List.getElem?_eq_none (by omega), List.getElem?_eq_none (by simp; omega)]
      rfl
    · rw [if_pos h, ← h]
      simp
    · rw [if_neg (by omega), List.getElem?_append_left h]
      rfl
  have k1 := key .size fun _ _ => rfl
  have k2 := key .density fun _ _ => rfl
  have k3 := key .phi fun _ _ => rfl
  refine ⟨fun u hu => ?_, fun hk p hp => ?_⟩
  · rw [hu] at k1 k2 k3
    exact ⟨k1, k2, k3⟩
  · rw [List.getElem?_eq_none (by simp; omega)] at k1 k2 k3
    fin_cases hp
    · exact k1
    · exact k2
    · exact k3

/-- The velocities at the end of a run. -/
theorem velocities_end (hf : SavesData f) {fuel : ℕ} {s : St P} (hL : Counted s.L) (h0 : s.L ≠ [])
    {w : Out P} (hw : w.c = Counters.init) {l : LoopSt P (Out P)}
    (h : mainRun P interp A (f.hooks dir) fuel s w = some (.ok l)) :
    ∃ us, Chain P interp A s us l.s ∧ ∀ (a : DataKind), (∀ j k, a.no j k = j) → ∀ k : ℕ,
      lastWrite l.w.written (series dir a.pre k) =
        ((if (if f = .slopeStab then (savedStates A us).length else (savedStates A us).length + 1) = k
          then some (a.of l.s) else none).or
        (if 1 ≤ k then ((savedStates A us)[k - 1]?).map a.of else none)).or
          (lastWrite w.written (series dir a.pre k)) := by
  obtain ⟨us, hu, e⟩ := c133_written hL h0 hw h
  refine ⟨us, hu, fun a ha k => ?_⟩
  rw [e, lastWrite_append, lastWrite_append, lastWrite_ending hf,
    lastWrite_savings hf a 1 (fun k => ha _ _), ha, Option.or_assoc]

/-- C133.  The velocities have other numbers than the rest of the data: those of the `k`-th state
saved are in the files with number `k + 1`. -/
theorem c133_velocities (hf : SavesData f) (hn : f ≠ .slopeStab) {fuel : ℕ} {s : St P} (hL : Counted s.L)
    (h0 : s.L ≠ []) {w : Out P} (hw : w.c = Counters.init) {l : LoopSt P (Out P)}
    (h : mainRun P interp A (f.hooks dir) fuel s w = some (.ok l)) :
    ∃ us, Chain P interp A s us l.s ∧ ∀ k u, (savedStates A us ++ [l.s])[k]? = some u →
      lastWrite l.w.written (series dir "u_" (k + 1 : ℕ)) = some (velocitiesOf 0 u) ∧
      lastWrite l.w.written (series dir "v_" (k + 1 : ℕ)) = some (velocitiesOf 1 u) := by
  obtain ⟨us, hu, e⟩ := velocities_end hf hL h0 hw h
  refine ⟨us, hu, fun k u hk => ?_⟩
  have key : ∀ a : DataKind, (∀ j k, a.no j k = j) →
      lastWrite l.w.written (series dir a.pre (k + 1 : ℕ)) = some (a.of u) := by
    intro a ha
    rw [e a ha, if_neg hn, if_pos (show 1 ≤ k + 1 by omega), Nat.add_sub_cancel]
    rcases lt_trichotomy (savedStates A us).length k with h | h | h
    · rw [List.getElem?_eq_none (by simp; omega)] at hk
      cases hk
    · subst h
      rw [if_pos rfl]
      simp only [List.getElem?_concat_length, Option.some.injEq] at hk
      rw [hk]
      rfl
    · rw [List.getElem?_append_left h] at hk
      rw [if_neg (by omega), hk]
      rfl
  exact ⟨key .u fun _ _ => rfl, key .v fun _ _ => rfl⟩

/-- C133.  PSM_slope_stab.py saves the velocities at the end under the number it used last: those of
the last state saved are lost, since nothing else is written for them. -/
theorem c133_lost {fuel : ℕ} {s : St P} (hL : Counted s.L) (h0 : s.L ≠ []) {w : Out P}
    (hw : w.c = Counters.init) {l : LoopSt P (Out P)}
    (h : mainRun P interp A (InputFile.slopeStab.hooks dir) fuel s w = some (.ok l)) :
    ∃ us, Chain P interp A s us l.s ∧
      (∀ k u, (savedStates A us)[k]? = some u → k + 1 < (savedStates A us).length →
        lastWrite l.w.written (series dir "u_" (k + 1 : ℕ)) = some (velocitiesOf 0 u) ∧
        lastWrite l.w.written (series dir "v_" (k + 1 : ℕ)) = some (velocitiesOf 1 u)) ∧
      (lastWrite l.w.written (series dir "u_" (savedStates A us).length) = some (velocitiesOf 0 l.s) ∧
        lastWrite l.w.written (series dir "v_" (savedStates A us).length) = some (velocitiesOf 1 l.s)) ∧
      ∀ k : ℕ, (savedStates A us).length < k → ∀ p ∈ ["u_", "v_"],
        lastWrite l.w.written (series dir p k) = lastWrite w.written (series dir p k) := by
  obtain ⟨us, hu, e⟩ := velocities_end (f := .slopeStab) ⟨by decide, by decide⟩ hL h0 hw h
  have eu := e .u fun _ _ => rfl
  have ev := e .v fun _ _ => rfl
  simp only [if_true, DataKind.pre, DataKind.of] at eu ev
  refine ⟨us, hu, fun k u hk hlt => ?_, ?_, fun k hk p hp => ?_⟩
  · constructor
    · rw [eu, if_neg (by omega), if_pos (by omega), Nat.add_sub_cancel, hk]; rfl
    · rw [ev, if_neg (by omega), if_pos (by omega), Nat.add_sub_cancel, hk]; rfl
  · constructor
    · rw [eu, if_pos rfl]; rfl
    · rw [ev, if_pos rfl]; rfl
  · have h1 := eu k
    have h2 := ev k
    rw [if_neg (by omega), if_pos (by omega), List.getElem?_eq_none (by omega)] at h1 h2
    fin_cases hp
    · exact h1
    · exact h2

/-- C133.  ball.py saves no data, only pictures. -/
theorem c133_ball {fuel : ℕ} {s : St P} (hL : Counted s.L) (h0 : s.L ≠ []) {w : Out P}
    (hw : w.c = Counters.init) {l : LoopSt P (Out P)}
    (h : mainRun P interp A (InputFile.ball.hooks dir) fuel s w = some (.ok l)) (p : String) (k : ℤ) :
    lastWrite l.w.written (series dir p k) = lastWrite w.written (series dir p k) := by
  obtain ⟨us, hu, e⟩ := c133_written hL h0 hw h
  have hs : ∀ (vs : List (St P)) (i : ℕ),
      lastWrite (savings dir .ball i vs) (series dir p k) = none := by
    intro vs
    induction vs with
    | nil => intro i; rfl
    | cons u t ih =>
      intro i
      simp only [savings, savingOf, lastWrite_append, ih, lastWrite_png gridPictures_png,
        lastWrite_png pointPictures_png, Option.or_none]
  rw [e]
  simp only [endingOf, lastWrite_append, hs, lastWrite_png gridPictures_png,
    lastWrite_png pointPictures_png, Option.or_none, Option.none_or]

/-- C133.  A run of any of the other input files writes nothing at all. -/
theorem c133_silent {fuel : ℕ} {s : St P} {w : Out P} {l : LoopSt P (Out P)}
    (h : mainRun P interp A (InputFile.other.hooks dir) fuel s w = some (.ok l)) : l.w = w := by
  obtain ⟨us, -, w1, h1, h2⟩ := mainRun_file h
  have : ∀ (vs : List (St P)) (w : Out P), writeEach dir InputFile.other.nth vs w = .ok w := by
    intro vs
    induction vs with
    | nil => intro w; rfl
    | cons u t ih => intro w; exact ih w
  rw [this] at h1
  cases h1
  exact (Except.ok.inj h2).symm

theorem mem_savings {vs : List (St P)} {i k : ℕ} {u : St P} (hk : vs[k]? = some u)
    {e : String × FileData K P.G.nx P.G.ny} (he : e ∈ savingOf dir (i + k) u f) :
    e ∈ savings dir f i vs := by
  induction vs generalizing i k with
  | nil => simp at hk
  | cons v t ih =>
    cases k with
    | zero =>
      cases hk
      exact List.mem_append_left _ he
    | succ k =>
      exact List.mem_append_right _ (ih (k := k) (by simpa using hk)
        (by rw [show i + 1 + k = i + (k + 1) by omega]; exact he))

/-- C133.  There is a figure of the grid for every state that is saved, and (except in
PSM_slope_stab.py) for the one at the end, numbered like the sizes, if the first phase is not rigid. -/
theorem c133_pictures (hf : f ≠ .other) {fuel : ℕ} {s : St P} (hL : Counted s.L) (h0 : s.L ≠ []) {w : Out P}
    (hw : w.c = Counters.init) {l : LoopSt P (Out P)}
    (h : mainRun P interp A (f.hooks dir) fuel s w = some (.ok l)) :
    ∃ us, Chain P interp A s us l.s ∧ ∀ k u,
      (savedStates A us ++ if f = .slopeStab then [] else [l.s])[k]? = some u →
      (∀ a ∈ u.L.head?, a.ph.law ≠ .rigid) → (gridPicture dir k, .picture) ∈ l.w.written := by
  obtain ⟨us, hu, e⟩ := c133_written hL h0 hw h
  have hl := chain_listed hL h0 hu
  refine ⟨us, hu, fun k u hk hr => ?_⟩
  have hm : u.L ≠ [] → (gridPicture dir k, FileData.picture) ∈ gridPictures dir k u := by
    intro hu
    unfold gridPictures
    cases hh : u.L with
    | nil => exact absurd hh hu
    | cons a t =>
      rw [hh] at hr
      simp only
      rw [if_neg (hr a rfl)]
      exact List.mem_singleton.2 rfl
  rw [e]
  by_cases hlt : k < (savedStates A us).length
  · rw [List.getElem?_append_left hlt] at hk
    have hne := (hl u (List.mem_cons_of_mem _ (List.mem_filter.1 (List.mem_of_getElem? hk)).1)).2
    refine List.mem_append_left _ (List.mem_append_right _ (mem_savings hk ?_))
    rw [Nat.zero_add]
    cases f
    case other => exact absurd rfl hf
    all_goals simp only [savingOf, List.mem_append, hm hne, true_or]
  · rw [List.getElem?_append_right (not_lt.1 hlt)] at hk
    split at hk
    · simp at hk
    · rename_i hn
      have hk0 : k - (savedStates A us).length = 0 := by
        by_contra c
        rw [List.getElem?_eq_none (by simp; omega)] at hk
        cases hk
      rw [hk0] at hk
      cases hk
      have ek : k = (savedStates A us).length := by omega
      have hne := (hl l.s List.mem_cons_self).2
      refine List.mem_append_right _ ?_
      rw [← ek]
      cases f
      case other => exact absurd rfl hf
      case slopeStab => exact absurd rfl hn
      all_goals simp only [endingOf, List.mem_append, hm hne, true_or]

end

/-! ### Not void -/

/-- A run of each of the input files, with states that are saved. -/
theorem Ex.shippedRun (f : InputFile) : ∃ (s : St Ex.par) (us : List (St Ex.par)) (fuel : ℕ)
    (l : LoopSt Ex.par (Out Ex.par)), Counted s.L ∧ s.L ≠ [] ∧
    (∀ a ∈ s.L.head?, a.ph.law ≠ .rigid) ∧ Ex.shortPar.t_f ≠ 0 ∧ Ex.shortPar.savetime ≠ 0 ∧
    Chain Ex.par (Ex.noInterp _) Ex.shortPar s us l.s ∧ savedStates Ex.shortPar us ≠ [] ∧
    mainRun Ex.par (Ex.noInterp _) Ex.shortPar (f.hooks "im/") fuel s ⟨Counters.init, []⟩ =
      some (.ok l) := by
  obtain ⟨s, l, -, hL, hd, h⟩ := Ex.shortMain
  obtain ⟨us, hu⟩ := c123_chain looks_notes h
  have hc : Counted s.L := by rw [hL]; exact Ex.countedL
  have h0 : s.L ≠ [] := by rw [hL]; exact List.cons_ne_nil _ _
  obtain ⟨fuel, m, hm, e⟩ := c133_ends (f := f) (dir := "im/") (by norm_num [Ex.shortPar])
    (by norm_num [Ex.shortPar]) hc h0 (w := ⟨Counters.init, []⟩) rfl hu
  refine ⟨s, us, fuel, m, hc, h0, by rw [hL]; decide +kernel, by norm_num [Ex.shortPar],
    by norm_num [Ex.shortPar], e ▸ hu, ?_, hm⟩
  cases hu with
  | done hlt => rw [hd] at hlt; exact absurd hlt (by decide +kernel)
  | step _ ht _ _ =>
    have e := timeMarch_clock ht
    rw [savedStates, List.filter_cons, if_pos (by rw [e.1, e.2.1, hd]; decide +kernel)]
    exact List.cons_ne_nil _ _

/-- Hypotheses of `c133_data` and `c133_velocities`. -/
example : ∃ f : InputFile, SavesData f ∧ f ≠ .slopeStab := ⟨.damBreak, ⟨by decide, by decide⟩, by decide⟩

end Mpm

import Verif.Model.Output
import Verif.Model.Figures
import Verif.Model.Loop

/-!
# Model of the output of the input files that are shipped

The hooks which the input files define in their `Output_Params` are lists of calls of `Plotting`.
Here they are given to the main loop, with the data that end up in the files.

* Pictures are not told apart: what they show is in `Model/Figures.lean` and `Model/Scatter.lean`.
* As in `Model/Output.lean`, drawing does not raise.
* Files that are written again are overwritten.
* avalanche.py is left out: its line 95 is indented once too often, and importing it fails.
-/

namespace Mpm

section
variable {K : Type} [Field K] [LinearOrder K]

/-- What is in a file: a picture, an array over the nodes, or a table of points. -/
inductive FileData (K : Type) (nx ny : ℕ) where
  | picture
  | array (a : Fin ny → Fin nx → XF K)
  | table (rows : List (List K))

/-- The state of the hooks: the counters in `P` and all that was written, in order. -/
structure Out (P : Par K) where
  c : Counters
  written : List (String × FileData K P.G.nx P.G.ny)

/-- The counters as `get_parameters` leaves them: initialise.py:15,16; `P.save` (`draw_gamma_dot`)
is in no input file. -/
def Counters.init : Counters :=
  { save := none, grid_save := 0, mp_save := 0, s_bar_save := none, density_save := none,
    u_save := none, mp_phi_save := none }

/-- What the names of the files depend on. -/
def outPar {P : Par K} (dir : String) (s : St P) : OutPar :=
  { dir := dir
    rigid := s.L.map fun a => decide (a.ph.law = .rigid)
    ns := P.G.ns
    n0 := match s.L with
      | [] => 0
      | a :: _ => a.ph.n }

/-- The contents of the files that a call writes, in the order in which `output` names them:
plotting.py:568 (`s_bar`), 574 (`density`), 580,581 (`u`, `v`), 587-591 (`phi`). -/
def fileData {P : Par K} (s : St P) (names : List String) : OutCall →
    Res (List (FileData K P.G.nx P.G.ny))
  | .sBar => .ok [.array fun r c => .fin (s.G.savedSize r c)]
  | .density => .ok [.array s.G.savedDensity]
  | .u => .ok [.array s.G.savedU, .array s.G.savedV]
  | .phiMP => do
      let rows ← savedPhi s.L
      return [.table rows]
  | _ => .ok (names.map fun _ => .picture)

/-- One call of a method of `Plotting`. -/
def writeFiles {P : Par K} (dir : String) (s : St P) (call : OutCall) (w : Out P) : Res (Out P) := do
  let (names, c) ← output (outPar dir s) call w.c
  let data ← fileData s names call
  return { c := c, written := w.written ++ names.zip data }

/-- Several calls. -/
def writeAll {P : Par K} (dir : String) (s : St P) : List OutCall → Out P → Res (Out P)
  | [], w => .ok w
  | call :: l, w => do
    let w ← writeFiles dir s call w
    writeAll dir s l w

/-- The input files that define hooks, and all others. -/
inductive InputFile where
  | slopeStab   -- inputs/PSM_slope_stab.py
  | damBreak    -- inputs/bi_dam_break.py
  | segTest     -- inputs/bi_seg_test.py
  | squareDrum  -- inputs/bi_square_drum.py
  | ball        -- inputs/ball.py
  | other
  deriving DecidableEq, Repr

/-- `save_u`, `save_s_bar`, `save_density`, `save_phi_MP`: the last four lines of most hooks. -/
def saveCalls : List OutCall := [.u, .sBar, .density, .phiMP]

/-- `after_every_nth_timestep`: PSM_slope_stab.py:141-149, bi_dam_break.py:141-149,
bi_seg_test.py:146-158, bi_square_drum.py:133-140, ball.py:80-92.  The default is the
`blank_function` of initialise.py:95; the attributes `plot_continuum`, `save_u`, ... that the other
files set are read nowhere. -/
def InputFile.nth : InputFile → List OutCall
  | .slopeStab => [.continuum] ++ saveCalls
  | .damBreak => [.continuum, .materialPoints none] ++ saveCalls
  | .segTest => [.continuum] ++ saveCalls
  | .squareDrum => [.continuum, .gsdMp] ++ saveCalls
  | .ball => [.continuum, .materialPoints none]
  | .other => []

/-- `final_graphs`: PSM_slope_stab.py:151-158, bi_dam_break.py:151-159, bi_seg_test.py:160-172,
bi_square_drum.py:142-149, ball.py:94-106. -/
def InputFile.final : InputFile → List OutCall
  | .slopeStab => saveCalls
  | .damBreak => [.continuum, .materialPoints (some "final")] ++ saveCalls
  | .segTest => [.continuum] ++ saveCalls
  | .squareDrum => [.continuum, .gsdMp] ++ saveCalls
  | .ball => [.continuum, .materialPoints (some "final")]
  | .other => []

/-- All hooks of an input file. -/
def InputFile.calls (f : InputFile) : Call → List OutCall
  | .nth => f.nth
  | .final => f.final
  | _ => []

/-- The hooks as the main loop calls them. -/
def InputFile.hooks {P : Par K} (dir : String) (f : InputFile) (c : Call) (x : St P × Out P) :
    Res (St P × Out P) := do
  let w ← writeAll dir x.1 (f.calls c) x.2
  return (x.1, w)

end
end Mpm

import Verif.Model.Main

/-!
# Model of `MPM.py:main` and of the default `update_timestep` (initialise.py)

The hooks of `P.O` are arbitrary functions of the program state and of a state `W` of their own
(figures, files, counters).  Every call is recorded in a log.
-/

namespace Mpm

/-- The calls made by `main` that a user can observe. -/
inductive Call where
  | initial  -- P.O.initial_graphs, MPM.py:59
  | march    -- time_march, MPM.py:63
  | before   -- P.O.before_every_timestep, MPM.py:64
  | nth      -- P.O.after_every_nth_timestep, MPM.py:72
  | after    -- P.O.after_every_timestep, MPM.py:85
  | final    -- P.O.final_graphs, MPM.py:101
  deriving DecidableEq, Repr

/-- One call, with the time and step number at which it is made. -/
structure Event (K : Type) where
  call : Call
  t : K
  tstep : ℕ
  deriving DecidableEq, Repr

/-- Parameters of `P` read by `main` and by the default `update_timestep` only.  `critical` lists
the values of `P.S[p].critical_time(P)` of the phases that define it (initialise.py:112,113); in
every input file shipped with the code they depend on material and grid constants only. -/
structure LoopPar (K : Type) where
  t_f : K
  savetime : K
  dynamic : Bool
  CFL : K
  critical : List (XF K)

section
variable {K : Type} [Field K] [LinearOrder K] {W : Type}

/-- The state of `main`: program state, state of the hooks, calls made so far. -/
structure LoopSt (P : Par K) (W : Type) where
  s : St P
  w : W
  log : List (Event K)

/-- initialise.py:108: `amax(abs([nan_to_num(G.q[:,0]/G.m),nan_to_num(G.q[:,1]/G.m)]))`.
Simplification: on a grid without nodes this is 0 instead of a ValueError. -/
def maxSpeed {N ns : ℕ} (big : K) (G : Grid K N ns) : K :=
  Fin.foldl N (fun a n =>
    max (max a |(XF.fin (G.q n 0) / XF.fin (G.m n)).nanToNum big|)
      |(XF.fin (G.q n 1) / XF.fin (G.m n)).nanToNum big|) 0

/-- initialise.py:106-114, the default `update_timestep`: the new `P.dt`. -/
def defaultTimestep {N ns : ℕ} (P : Par K) (A : LoopPar K) (G : Grid K N ns) : XF K :=
  let distance := min P.G.dx P.G.dy                                                -- 107
  let t_c : XF K := .fin (1 / 10 * distance) / .fin (maxSpeed P.ops.big G)          -- 108
  .fin A.CFL * A.critical.foldl XF.min t_c                                          -- 112-114

variable [FloorRing K] (P : Par K) (interp : Interp K P.G.N) (A : LoopPar K)
  (hooks : Call → St P × W → Res (St P × W))

/-- Call a hook.  Simplification: hooks can change the model's state, not the constants
`P.t_f`, `P.savetime`, ... -/
def callHook (c : Call) (l : LoopSt P W) : Res (LoopSt P W) := do
  let (s, w) ← hooks c (l.s, l.w)
  return { s := s, w := w, log := l.log ++ [⟨c, l.s.dyn.t, l.s.dyn.tstep⟩] }

/-- MPM.py:71: is this one of the steps after which `after_every_nth_timestep` runs? -/
def saveTest (t dt savetime : K) : Bool :=
  decide (pyMod t savetime < dt) && decide (t ≠ dt)

/-- MPM.py:71,72 -/
def nthHook (l : LoopSt P W) : Res (LoopSt P W) :=
  if saveTest l.s.dyn.t l.s.dyn.dt A.savetime then callHook P hooks .nth l else .ok l

/-- MPM.py:90,91,93: next time, next step number, next time step.  Simplification: a non-finite
new time step is an error only if another step follows; `P.dt` is not stored otherwise. -/
def advance (l : LoopSt P W) : Res (LoopSt P W) :=
  let s := stepTime P l.s
  if A.dynamic then
    match defaultTimestep P A s.G with
    | .fin dt => .ok { l with s := { s with dyn := { s.dyn with dt := dt } } }
    | _ => if s.dyn.t ≤ A.t_f then .error .nonFinite else .ok { l with s := s }
  else .ok { l with s := s }

/-- MPM.py:63-93, one pass through the loop.  The progress line divides by `P.t_f` (67) and the
save test by `P.savetime` (71). -/
def loopBody (l : LoopSt P W) : Res (LoopSt P W) := do
  let s ← timeMarch P interp l.s                                                   -- 63
  let l : LoopSt P W :=
    { l with s := s, log := l.log ++ [⟨.march, l.s.dyn.t, l.s.dyn.tstep⟩] }
  let l ← callHook P hooks .before l                                               -- 64
  if A.t_f = 0 then .error .zeroDiv                                                -- 67
  else if A.savetime = 0 then .error .zeroDiv                                      -- 71
  else
    let l ← nthHook P A hooks l                                                    -- 71,72
    let l ← callHook P hooks .after l                                              -- 85
    advance P A l                                                                  -- 90-93

/-- MPM.py:62-93: the loop, cut off after `fuel` tests of its condition (`none`). -/
def loop : ℕ → LoopSt P W → Option (Res (LoopSt P W))
  | 0, _ => none
  | fuel + 1, l =>
    if l.s.dyn.t ≤ A.t_f then
      match loopBody P interp A hooks l with
      | .error e => some (.error e)
      | .ok l' => loop fuel l'
    else some (.ok l)

/-- MPM.py:57-101, `main` after `get_parameters`, cut off after `fuel` tests of the loop
condition. -/
def mainRun (fuel : ℕ) (s : St P) (w : W) : Option (Res (LoopSt P W)) :=
  match callHook P hooks .initial { s := s, w := w, log := [] } with               -- 59
  | .error e => some (.error e)
  | .ok l => match loop P interp A hooks fuel l with                               -- 62-93
    | none => none
    | some (.error e) => some (.error e)
    | some (.ok l) => some (callHook P hooks .final l)                             -- 101

end
end Mpm

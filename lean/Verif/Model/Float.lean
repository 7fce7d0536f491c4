import Mathlib.Data.Int.Log
import Verif.Model.Loop

/-!
# Floating point: rounding, and the main loop on a clock that rounds

The rest of the model computes exactly.  Here the additions and multiplications round.
-/

namespace Mpm
section
variable {K : Type} [Field K] [LinearOrder K] [FloorRing K]

/-- The nearest integer, halves to the even one (IEEE 754 roundTiesToEven, the mode python and numpy
leave in place). -/
def roundEven (x : K) : ℤ :=
  if x - ⌊x⌋ < 1 / 2 then ⌊x⌋
  else if 1 / 2 < x - ⌊x⌋ then ⌊x⌋ + 1
  else if ⌊x⌋ % 2 = 0 then ⌊x⌋ else ⌊x⌋ + 1

/-- Rounding to `p` significant bits; python floats and numpy's float64 have 53.
Simplification: the exponent has no bounds, so there is neither overflow nor gradual underflow (`flU` and
`flX` of Model/FloatRange.lean have both). -/
def fl (p : ℕ) (x : K) : K :=
  roundEven (x / 2 ^ (Int.log 2 |x| - p + 1)) * 2 ^ (Int.log 2 |x| - p + 1)

end

section
variable {K : Type} [Field K] [LinearOrder K] [FloorRing K] {W : Type} (rnd : K → K)
  (P : Par K) (march : St P → Res (St P)) (newdt : St P → XF K) (A : LoopPar K)
  (hooks : Call → St P × W → Res (St P × W))

/-- MPM.py:90,91: `P.t += P.dt` with rounding. -/
def stepTimeR (s : St P) : St P :=
  { s with dyn := { s.dyn with t := rnd (s.dyn.t + s.dyn.dt), tstep := s.dyn.tstep + 1 } }

/-- MPM.py:90,91,93, as `advance`, with rounding; `newdt` is the time step that `update_timestep`
computes, however it rounds. -/
def advanceR (l : LoopSt P W) : Res (LoopSt P W) :=
  let s := stepTimeR rnd P l.s
  if A.dynamic then
    match newdt s with
    | .fin dt => .ok { l with s := { s with dyn := { s.dyn with dt := dt } } }
    | _ => if s.dyn.t ≤ A.t_f then .error .nonFinite else .ok { l with s := s }
  else .ok { l with s := s }

/-- MPM.py:63-93, as `loopBody`, with rounding; `march` is the time step, however it rounds.
The remainder `P.t%P.savetime` (71) of two numbers of the same sign is exact in floating point, so
`saveTest` is used as it is. -/
def loopBodyR (l : LoopSt P W) : Res (LoopSt P W) := do
  let s ← march l.s                                                                -- 63
  let l : LoopSt P W :=
    { l with s := s, log := l.log ++ [⟨.march, l.s.dyn.t, l.s.dyn.tstep⟩] }
  let l ← callHook P hooks .before l                                               -- 64
  if A.t_f = 0 then .error .zeroDiv                                                -- 67
  else if A.savetime = 0 then .error .zeroDiv                                      -- 71
  else
    let l ← nthHook P A hooks l                                                    -- 71,72
    let l ← callHook P hooks .after l                                              -- 85
    advanceR rnd P newdt A l                                                       -- 90-93

/-- MPM.py:62-93, as `loop`, with rounding. -/
def loopR : ℕ → LoopSt P W → Option (Res (LoopSt P W))
  | 0, _ => none
  | fuel + 1, l =>
    if l.s.dyn.t ≤ A.t_f then
      match loopBodyR rnd P march newdt A hooks l with
      | .error e => some (.error e)
      | .ok l' => loopR fuel l'
    else some (.ok l)

/-- MPM.py:57-101, as `mainRun`, with rounding. -/
def mainRunR (fuel : ℕ) (s : St P) (w : W) : Option (Res (LoopSt P W)) :=
  match callHook P hooks .initial { s := s, w := w, log := [] } with               -- 59
  | .error e => some (.error e)
  | .ok l => match loopR rnd P march newdt A hooks fuel l with                     -- 62-93
    | none => none
    | some (.error e) => some (.error e)
    | some (.ok l) => some (callHook P hooks .final l)                             -- 101

end
end Mpm

import Verif.Model.MPList

/-!
# Model of `MatPointList.update_timestep` and of the energy measures

`mplist.py:233-245,267-288` and `particle.py:333-345`.  Messages that are printed are not
represented, except that the attributes they read must exist.
-/

namespace Mpm

section
variable {K : Type} [Field K] [LinearOrder K] {ns : ℕ}

/-- The attributes of `P` that `MatPointList.update_timestep` uses.  `P.q` is not among the
defaults of `get_parameters`, so it may be missing. -/
structure StepCtl (K : Type) where
  t : K
  dt : K
  nt : ℤ
  tstep : ℤ
  savetime : K
  hasYielded : Bool
  q : Option K

/-- mplist.py:273-277: has any point yielded? -/
def anyYielded (L : List (PhaseSt K ns)) (y : Bool) : Res Bool :=
  foldPhases (fun a y =>
    foldN (fun mp y => .ok (if 99 / 100 < mp.yieldfunction then true else y)) a.ph.n a.pts y) L y

/-- mplist.py:273-277: the flag after the check. -/
def yieldFlag (L : List (PhaseSt K ns)) (c : StepCtl K) : Res Bool :=
  if c.hasYielded then .ok true else anyYielded L false

/-- mplist.py:267-288 -/
def listTimestep [FloorRing K] (L : List (PhaseSt K ns)) (c : StepCtl K) : Res (StepCtl K) := do
  let y ← yieldFlag L c                                                       -- 273-277
  if y then
    match c.q with                                                            -- 279-281
    | none => .error .attribute
    | some _ =>
      let nt_rem := c.nt - c.tstep                                            -- 284
      return { c with
        hasYielded := true
        nt := c.tstep + pyTrunc ((nt_rem : K) * 20)                           -- 285
        dt := c.dt / 20                                                       -- 286
        savetime := c.savetime / 20 }                                         -- 287
  else return c

/-- The trigonometric functions of numpy on finite numbers, and `pi/2`. -/
structure Trig (K : Type) where
  sin : K → K
  arctan : K → K
  halfPi : K

/-- `arctan` of a float. -/
def XF.arctan (tr : Trig K) : XF K → XF K
  | .fin a => .fin (tr.arctan a)
  | .pinf => .fin tr.halfPi
  | .ninf => .fin (-tr.halfPi)
  | .nan => .nan

/-- `sin` of a float. -/
def XF.sin (tr : Trig K) : XF K → XF K
  | .fin a => .fin (tr.sin a)
  | _ => .nan

/-- particle.py:342 -/
def height (ops : Ops K) (tr : Trig K) (θ : K) (x : Vec K) : XF K :=
  .fin (ops.pow (∑ i, x i ^ 2) (1 / 2)) *
    XF.sin tr (.fin θ + XF.arctan tr (XF.abs (.fin (x 1) / .fin (x 0))))

/-- particle.py:333-345: `[k,g,s]`; `iv` is the array behind a shared velocity. -/
def Particle.energy (ops : Ops K) (tr : Trig K) (θ g : K) (iv : Vec K) (mp : Particle K ns) :
    XF K × XF K × XF K :=
  let v := mp.v.get iv
  (.fin (1 / 2 * mp.m * ∑ i, v i ^ 2),
   .fin (-mp.m * g) * height ops tr θ mp.x,
   .fin (1 / 2 * (∑ j, ∑ i, mp.stress i j * mp.strain i j) * mp.V))

/-- mplist.py:233-245 -/
def measureEnergy (ops : Ops K) (tr : Trig K) (θ g t : K) (L : List (PhaseSt K ns)) :
    Res (K × XF K × XF K × XF K) := do
  let (k, h, s) ← foldPhases (fun a e =>
    foldN (fun mp (e : XF K × XF K × XF K) =>
      let d := mp.energy ops tr θ g a.ph.iv
      .ok (e.1 + d.1, e.2.1 + d.2.1, e.2.2 + d.2.2)) a.ph.n a.pts e) L
    ((.fin 0, .fin 0, .fin 0) : XF K × XF K × XF K)
  return (t, k, h, s)

end
end Mpm

import Verif.Py

/-!
# Model of the file naming in `plotting.py`

What the plots show is not modelled; what is modelled is which files the methods of `Plotting`
write, in which order, and how the counters in `P` move.  Simplifications: counters are integers,
drawing and `G.s_bar.reshape(...)` etc. never raise, and the commented out code is ignored.
`draw_voronoi` (plotting.py:646-657) is left out: it starts an external program.
-/

namespace Mpm

/-- `str(n).zfill(w)` (Python: a leading sign stays in front of the padding). -/
def zfill (w : ℕ) (n : ℤ) : String :=
  let pad (w : ℕ) (l : List Char) : List Char := List.replicate (w - l.length) '0' ++ l
  if n < 0 then String.ofList ('-' :: pad (w - 1) (Nat.toDigits 10 n.natAbs))
  else String.ofList (pad w (Nat.toDigits 10 n.natAbs))

/-- `str(name).zfill(5)` for a string without leading sign. -/
def zfillStr (name : String) : String :=
  String.ofList (List.replicate (5 - name.length) '0') ++ name

/-- The counters in `P`.  `none`: the attribute does not exist (yet). -/
structure Counters where
  save : Option ℤ
  grid_save : ℤ
  mp_save : ℤ
  s_bar_save : Option ℤ
  density_save : Option ℤ
  u_save : Option ℤ
  mp_phi_save : Option ℤ
  deriving DecidableEq, Repr

/-- What else the names depend on: `P.save_dir`, for each phase whether its law is `'rigid'`,
`P.G.ns`, `P.S[0].n`. -/
structure OutPar where
  dir : String
  rigid : List Bool
  ns : ℕ
  n0 : ℕ

/-- A call of one of the methods of `Plotting`. -/
inductive OutCall where
  | gammaDot
  | continuum
  | materialPoints (name : Option String)
  | energy
  | gsdMp
  | sBar
  | density
  | u
  | phiMP
  | gsdGrid
  deriving DecidableEq, Repr

/-- plotting.py:54-77: the file `savefig` writes. -/
def savefigName (o : OutPar) (name : String) : String := o.dir ++ name ++ ".png"

/-- plotting.py:94-111: one figure for each phase that is not rigid. -/
def drawGammaDot (o : OutPar) : List Bool → Counters → Res (List String × Counters)
  | [], c => .ok ([], c)
  | r :: l, c =>
    if r then drawGammaDot o l c
    else match c.save with
      | none => .error .attribute
      | some n => do
        let (fs, c) ← drawGammaDot o l { c with save := some (n + 1) }
        return (savefigName o (zfill 5 n) :: fs, c)

/-- plotting.py:113-325. -/
def drawContinuum (o : OutPar) (c : Counters) : Res (List String × Counters) :=
  match o.rigid with
  | [] => .error .index
  | r :: _ =>
    .ok (if r then [] else [savefigName o ("Continuum/" ++ zfill 5 c.grid_save)],
      { c with grid_save := c.grid_save + 1 })

/-- plotting.py:327-514; `name=False` is `none`, and an empty name counts as false too. -/
def drawMaterialPoints (o : OutPar) (name : Option String) (c : Counters) :
    List String × Counters :=
  let base := match name with
    | none => zfill 5 c.mp_save
    | some s => if s = "" then zfill 5 c.mp_save else zfillStr s
  ((List.range o.rigid.length).map fun p => savefigName o ("MP_" ++ toString p ++ "/" ++ base),
    { c with mp_save := c.mp_save + 1 })

/-- plotting.py:516-527. -/
def drawEnergy (o : OutPar) (c : Counters) : Res (List String × Counters) :=
  match o.rigid with
  | [] => .error .index
  | _ :: _ => .ok ([savefigName o ("ns_" ++ toString o.n0)], c)

/-- plotting.py:529-563. -/
def drawGsdMp (o : OutPar) (c : Counters) : List String × Counters :=
  ((List.range o.rigid.length).map fun p =>
      savefigName o ("GSD/MP_" ++ toString p ++ "_" ++ zfill 5 c.mp_save),
    { c with mp_save := c.mp_save + 1 })

/-- plotting.py:565-569. -/
def saveSBar (o : OutPar) (c : Counters) : List String × Counters :=
  let n := c.s_bar_save.getD 0
  ([o.dir ++ "data/s_bar_" ++ zfill 5 n ++ ".npy"], { c with s_bar_save := some (n + 1) })

/-- plotting.py:571-575. -/
def saveDensity (o : OutPar) (c : Counters) : List String × Counters :=
  let n := c.density_save.getD 0
  ([o.dir ++ "data/density_" ++ zfill 5 n ++ ".npy"], { c with density_save := some (n + 1) })

/-- plotting.py:577-582: the names use `P.grid_save`, the counter that moves is `P.u_save`. -/
def saveU (o : OutPar) (c : Counters) : List String × Counters :=
  let n := c.u_save.getD 0
  ([o.dir ++ "data/u_" ++ zfill 5 c.grid_save ++ ".npy",
    o.dir ++ "data/v_" ++ zfill 5 c.grid_save ++ ".npy"], { c with u_save := some (n + 1) })

/-- plotting.py:584-592. -/
def savePhiMP (o : OutPar) (c : Counters) : List String × Counters :=
  let n := c.mp_phi_save.getD 0
  ([o.dir ++ "data/MP_phi_" ++ zfill 5 n ++ ".npy"], { c with mp_phi_save := some (n + 1) })

/-- plotting.py:598-623: uses `P.grid_save` without moving it. -/
def drawGsdGrid (o : OutPar) (c : Counters) : List String × Counters :=
  (savefigName o ("GSD/s_bar/" ++ zfill 5 c.grid_save) ::
    (List.range o.ns).map fun i =>
      savefigName o ("GSD/phi_" ++ toString i ++ "/" ++ zfill 5 c.grid_save), c)

/-- One call: the files it writes and the counters after it. -/
def output (o : OutPar) (call : OutCall) (c : Counters) : Res (List String × Counters) :=
  match call with
  | .gammaDot => drawGammaDot o o.rigid c
  | .continuum => drawContinuum o c
  | .materialPoints name => .ok (drawMaterialPoints o name c)
  | .energy => drawEnergy o c
  | .gsdMp => .ok (drawGsdMp o c)
  | .sBar => .ok (saveSBar o c)
  | .density => .ok (saveDensity o c)
  | .u => .ok (saveU o c)
  | .phiMP => .ok (savePhiMP o c)
  | .gsdGrid => .ok (drawGsdGrid o c)

/-- A sequence of calls: for each call the files it wrote. -/
def outputs (o : OutPar) : List OutCall → Counters → Res (List (OutCall × List String) × Counters)
  | [], c => .ok ([], c)
  | call :: l, c => do
    let (fs, c) ← output o call c
    let (r, c) ← outputs o l c
    return ((call, fs) :: r, c)

end Mpm

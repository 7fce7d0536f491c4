import Verif.Py

/-!
# Model of `initialise.py:get_parameters`: defaults

Python objects are maps from attribute names to values.  `P`, `P.B`, `P.G`, `P.O` and the phases
`P.S` are separate objects; an input file is assumed to create all of them.
-/

namespace Mpm

/-- Values of attributes.  `fn` is a function, known by its name only. -/
inductive Val (K : Type) where
  | num (x : K)
  | int (n : ℤ)
  | bool (b : Bool)
  | str (s : String)
  | list (l : List K)
  | zeros (rows cols : ℤ)
  | fn (name : String)
  | none
  deriving DecidableEq

/-- The attributes of an object. -/
abbrev Obj (K : Type) := String → Option (Val K)

/-- `o.name = v`. -/
def Obj.set {K : Type} (o : Obj K) (name : String) (v : Val K) : Obj K :=
  Function.update o name (some v)

/-- `if not hasattr(o, name): o.name = v`. -/
def Obj.default {K : Type} (o : Obj K) (name : String) (v : Val K) : Obj K :=
  if (o name).isSome then o else o.set name v

/-- A sequence of such lines. -/
def Obj.defaults {K : Type} (o : Obj K) (l : List (String × Val K)) : Obj K :=
  l.foldl (fun o d => o.default d.1 d.2) o

/-- `if not hasattr(o, name): o.name = <expression that may raise>`. -/
def Obj.defaultM {K : Type} (o : Obj K) (name : String) (e : Res (Val K)) : Res (Obj K) :=
  if (o name).isSome then .ok o else do
    let v ← e
    return o.set name v

/-- `o.name`: AttributeError if missing. -/
def Obj.get {K : Type} (o : Obj K) (name : String) : Res (Val K) :=
  match o name with
  | some v => .ok v
  | Option.none => .error .attribute

/-- What the input file puts in `P.S`: one phase, or a list of phases. -/
inductive Phases (K : Type) where
  | one (o : Obj K)
  | many (l : List (Obj K))

/-- The parameter object. -/
structure Params (K : Type) where
  P : Obj K
  B : Obj K
  G : Obj K
  O : Obj K
  S : Phases K

section
variable {K : Type} [Field K] [LinearOrder K]

/-- Truth value of an attribute (`if P.O.measure_energy`). -/
def Val.truthy : Val K → Bool
  | .num x => decide (x ≠ 0)
  | .int n => decide (n ≠ 0)
  | .bool b => b
  | .str s => decide (s ≠ "")
  | .list l => decide (l ≠ [])
  | .zeros r c => decide (r * c ≠ 0)
  | .fn _ => true
  | .none => false

/-- A number, or TypeError. -/
def Val.toNum : Val K → Res K
  | .num x => .ok x
  | .int n => .ok n
  | .bool b => .ok (if b then 1 else 0)
  | _ => .error .type

/-- initialise.py:13-17 -/
def defaultsP1 : List (String × Val K) :=
  [("t", .num 0), ("tstep", .int 0), ("grid_save", .int 0), ("mp_save", .int 0),
   ("M_tol", .num (1 / 10 ^ 10))]

/-- initialise.py:19,20 -/
def defaultsP2 : List (String × Val K) := [("max_g", .num 0), ("max_q", .num 0)]

/-- initialise.py:24-35 -/
def defaultsP3 : List (String × Val K) :=
  [("has_yielded", .bool false), ("damping", .bool false), ("theta", .num 0),
   ("pressure", .none), ("segregate_mp", .bool false), ("segregate_grid", .bool false),
   ("initial_flow", .bool false), ("smooth_gamma_dot", .bool false),
   ("smooth_grad2", .bool false), ("normalise_phi", .bool false),
   ("time_stepping", .str "static"), ("CFL", .num (1 / 10))]

/-- initialise.py:38-58 -/
def defaultsB : List (String × Val K) :=
  ["wall", "two_walls", "roughness", "wall_mu", "no_slip_bottom", "cyclic_lr", "has_top",
   "has_bottom", "has_right", "has_left", "box", "outlet_left", "outlet_bottom", "inlet_right",
   "inlet_top", "force_boundaries", "vertical_force", "horizontal_force", "conveyor", "silo_left",
   "silo_bottom"].map fun n => (n, .bool false)

/-- initialise.py:60-62 -/
def defaultsG : List (String × Val K) :=
  [("thickness", .num 1), ("ns", .int 1), ("s", .list [1 / 1000])]

/-- initialise.py:79-97 -/
def defaultsO : List (String × Val K) :=
  ["check_positions", "measure_stiffness", "measure_energy", "plot_gsd_mp", "plot_gsd_grid",
   "plot_gsd_debug", "plot_material_points", "plot_continuum", "save_s_bar", "save_density",
   "save_u", "save_phi_MP"].map (fun n => (n, Val.bool false)) ++
  ["initial_graphs", "before_every_timestep", "after_every_nth_timestep", "after_every_timestep",
   "final_graphs"].map (fun n => (n, Val.fn "blank_function"))

/-- `min`/`max` of a list of sizes: ValueError if empty. -/
def listFold (f : K → K → K) : Val K → Res (Val K)
  | .list (a :: l) => .ok (.num (l.foldl f a))
  | .list [] => .error .value
  | _ => .error .type

variable [FloorRing K]

/-- initialise.py:18: `int(P.t_f/P.dt)`. -/
def defaultNt (P : Obj K) : Res (Val K) := do
  let t_f ← (← P.get "t_f").toNum
  let dt ← (← P.get "dt").toNum
  if dt = 0 then .error .zeroDiv else .ok (.int (pyTrunc (t_f / dt)))

/-- initialise.py:13-35 -/
def initP (P : Obj K) : Res (Obj K) := do
  let P := P.defaults defaultsP1
  let P ← P.defaultM "nt" (defaultNt P)
  let P := P.defaults defaultsP2
  let P ← P.defaultM "g" (P.get "max_g")
  let P ← P.defaultM "q_v" (P.get "max_q")
  let P ← P.defaultM "q_h" (P.get "max_q")
  return P.defaults defaultsP3

/-- initialise.py:60-64.  `min` is numpy's, `max` Python's; on lists of numbers they agree. -/
def initG (G : Obj K) : Res (Obj K) := do
  let G := G.defaults defaultsG
  let s ← G.get "s"
  let G ← G.defaultM "s_m" (listFold min s)
  G.defaultM "s_M" (listFold max s)

/-- initialise.py:69: `ones([P.G.ns])/float(P.G.ns)`. -/
def uniformPhi (ns : Val K) : Res (Val K) :=
  match ns with
  | .int n => if n < 0 then .error .value
      else .ok (.list (List.replicate n.toNat (1 / (n.toNat : K))))
  | _ => .error .type

/-- initialise.py:69,70 -/
def initPhase (ns : Val K) (o : Obj K) : Res (Obj K) := do
  let o ← o.defaultM "phi" (uniformPhi ns)
  return o.default "heterogeneous" (.bool false)

/-- initialise.py:66: one phase is turned into a list. -/
def Phases.toList : Phases K → List (Obj K)
  | .one o => [o]
  | .many l => l

/-- String concatenation: TypeError on anything that is not a string. -/
def Val.toStr : Val K → Res String
  | .str s => .ok s
  | _ => .error .type

/-- initialise.py:75,76: `P.save_dir`. -/
def saveDir (P : Obj K) (S : List (Obj K)) (mode : String) : Res (Val K) :=
  match P "supername" with
  | some v => do return .str ("" ++ (← v.toStr) ++ "/")
  | Option.none => match S with
    | [] => .error .index
    | o :: _ => do
      let law ← (← o.get "law").toStr
      return .str ("" ++ "im/" ++ mode ++ "/" ++ law ++ "/")

/-- initialise.py:99: the table of energies.  `P.nt+1` must be an integer. -/
def initEnergy (P O : Obj K) : Res (Obj K) := do
  let m ← O.get "measure_energy"
  if m.truthy then
    match ← P.get "nt" with
    | .int nt => if nt + 1 < 0 then .error .value else return O.set "energy" (.zeros (nt + 1) 4)
    | _ => .error .type
  else return O

/-- initialise.py:11-99,105-116: everything `get_parameters` does to the parameters, except
building the grid and the material points (modelled by `mkGrid`, `buildList`) and calling the
user's `update_forces`.  `mode` is the name of the input file. -/
def getParameters (mode : String) (p : Params K) : Res (Params K) := do
  let P := p.P.set "mode" (.str mode)                                          -- 11
  let P ← initP P                                                              -- 13-35
  let B := p.B.defaults defaultsB                                              -- 38-58
  let G ← initG p.G                                                            -- 60-64
  let S := p.S.toList                                                          -- 66
  let P := P.set "phases" (.int S.length)                                      -- 67
  let ns ← G.get "ns"
  let S ← S.mapM (initPhase ns)                                                -- 68-70
  let dir ← saveDir P S mode                                                   -- 75,76
  let P := P.set "save_dir" dir
  let O := p.O.defaults defaultsO                                              -- 79-97
  let O ← initEnergy P O                                                       -- 99
  let P := P.default "update_timestep" (.fn "update_timestep")                 -- 105-116
  return { P := P, B := B, G := G, O := O, S := .many S }

end
end Mpm

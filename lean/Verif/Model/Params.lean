import Verif.Model.Grid

/-!
# Parameters: the objects `P`, `P.S[p]`, `P.G`, `P.B` (initialise.py, inputs/*.py)
-/

namespace Mpm

/-- Names of the constitutive laws, the value of `P.S[p].law` (constit.py).  `viscous_size`,
`pouliquen2D` are names particle.py:74,76 tests for but constit.py does not define;
`other` is any other string. -/
inductive Law where
  | rigid | elastic | elastic_time | von_mises | dp | dp_rate | viscous | bingham
  | ken_kamrin | pouliquen | linear_mu | ken_simple
  | viscous_size | pouliquen2D | other
  deriving DecidableEq, Repr

/-- `P.pressure` (particle.py:18-51). -/
inductive PressureMode where
  | lithostatic | nonZero | temperature | compression | none
  deriving DecidableEq, Repr

/-- `P.initial_flow` (particle.py:73-101). -/
inductive FlowMode where
  | steady | steadyPoiseulle | none
  deriving DecidableEq, Repr

/-- A phase parameter that input files give either as a number or as an array with one entry
per grain size (`mu_0`, `delta_mu`, `I_0`). -/
inductive PyNum (K : Type) where
  | scalar (x : K)
  | arr (l : List K)

/-- `a[i]`: a number is not subscriptable (TypeError); arrays raise IndexError past the end. -/
def PyNum.get {K : Type} (a : PyNum K) (i : ℕ) : Res K :=
  match a with
  | .scalar _ => .error .type
  | .arr l => match l[i]? with
    | some x => .ok x
    | none => .error .index

/-- Use as a number.  An array would broadcast into an array valued stress, which the model
does not cover. -/
def PyNum.num {K : Type} (a : PyNum K) : Res K :=
  match a with
  | .scalar x => .ok x
  | .arr _ => .error .unmodelled

/-- Material parameters read by the laws in constit.py.  A particular input file defines only
those its law needs; the model gives every phase all of them, so an AttributeError caused by an
input file forgetting a parameter is not modelled. -/
structure Mat0 (K : Type) where
  rho : K
  rho_s : K
  /-- bulk modulus `P.S[p].K` -/
  Kb : K
  /-- shear modulus `P.S[p].G` -/
  Gs : K
  k : K
  s : K
  mu_s : K
  mu_v : K
  mu_1 : K
  mu_2 : K
  mu_0 : PyNum K
  delta_mu : PyNum K
  I_0 : PyNum K
  tau_0 : K
  gamma_c : K
  eta_max : K
  b : K
  E_0 : K
  nu : K
  t_0 : K
  rho_f : K
  mu : K
  beta : K
  t_star : K
  packing : K

/-- `P.S[p]`: one phase.  `n` and `iv` change during a run; the rest is constant.
`iv` is the array object `P.S[p].initial_v`; `hasIv` says whether the attribute exists
(particle.py:11-14).  Simplification: `initial_v` is a float array belonging to this phase
alone. -/
structure Phase (K : Type) (ns : ℕ) where
  n : ℕ
  law : Law
  par : Mat0 K
  A : K
  hasIv : Bool
  iv : Vec K
  phi : Fin ns → K
  inlet_rate : K
  gap : Fin 2 → K
  yp : List K

/-- The constant part of `P` (initialise.py:7-127).  `sinθ`,`cosθ`,`tanθ` are `sin(P.theta)`,
`cos(P.theta)` and `tan(abs(P.theta))`.  `forces t` is the user's `P.update_forces`, as a function of
the time: the triple `(P.g, P.q_v, P.q_h)`.  `M_tol` is assumed non-negative (default 1e-10). -/
structure Par (K : Type) [Field K] [LinearOrder K] where
  ops : Ops K
  G : GP K
  B : BP K
  M_tol : K
  M_tol_nonneg : 0 ≤ M_tol
  damping : Bool
  sinθ : K
  cosθ : K
  tanθ : K
  max_g : K
  pressure : PressureMode
  initial_pressure : K
  top_gap : Option K
  initial_flow : FlowMode
  segregate_grid : Bool
  normalise_phi : Bool
  check_positions : Bool
  aniso : Bool
  v_0 : K
  intruder_v : Vec K
  c : K
  l : K
  s_bar_0 : K
  forces : K → K × K × K

/-- The part of `P` that changes during a run. -/
structure Dyn (K : Type) where
  t : K
  dt : K
  tstep : ℕ
  g : K
  q_v : K
  q_h : K

end Mpm

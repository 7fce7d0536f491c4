import Verif.Model.Integrators

/-!
# Model of `new_integrator.py`

A stand-alone script with a second advection-diffusion scheme for the concentration of one of two
sizes.  The arrays are two-dimensional but all functions work along the axis `ax` only, so the model
has one line of `n` nodes, padded to `n + 2`.  The limiter in use is `minmod` (line 6), which is
the function of the same name in `integrators.py`; `superbee` and `maxmod` are those of
`integrators.py`, too.  The other limiters are defined but not used.  `BC` (which returns its
arguments), the plotting and `print` are not modelled.

`velocity` divides by `c + (1-c) R`, and the scheme divides by `dx`: a zero divisor would give
infinities or NaN, for which the model returns `Err.nonFinite`.
-/

namespace Mpm.NI

section
variable {K : Type} [Field K] [LinearOrder K] {n : ℕ}

/-- new_integrator.py:30-41, `div0`, for finite entries. -/
def div0 (a b : K) : K := if b = 0 then 0 else a / b

/-- new_integrator.py:14-16, `vanLeer`. -/
def vanLeer (a b : K) : K :=
  let r := div0 a b
  (r + |r|) / (1 + |r|)

/-- new_integrator.py:17-19, `vanAlbada1`. -/
def vanAlbada1 (a b : K) : K :=
  let r := div0 a b
  (r ^ 2 + r) / (r ^ 2 + 1)

/-- new_integrator.py:20-28, `minmod2`.  The third argument of `np.minimum` and `np.maximum` is the
array into which the result is written, so `theta*c` is not compared with anything. -/
def minmod2 (a b c theta : K) : K :=
  if a < 0 ∧ b < 0 ∧ c < 0 then max (theta * a) b                                  -- 27
  else if 0 < a ∧ 0 < b ∧ 0 < c then min (theta * a) b                             -- 26
  else 0

/-- new_integrator.py:67,68: the divisor in `velocity`, `R = 2.5`. -/
def velDen (c : K) : K := c + (1 - c) * (5 / 2)

/-- new_integrator.py:65-69, `velocity`. -/
def velocity (c v : K) : K := v * (1 - 1 / velDen c)

/-- new_integrator.py:61-63, `flux`. -/
def flux (c v : K) : K := c * velocity c v

/-- new_integrator.py:72.  `roll(c,1)[i]` is `c[i-1]` and `roll(c,-1)[i]` is `c[i+1]`, both modulo
the length. -/
def slope (dx : K) (c : Fin (n + 2) → K) (i : Fin (n + 2)) : K :=
  minmod ((c i - c (i - 1)) / dx) ((c (i + 1) - c i) / dx)

/-- new_integrator.py:77,78: `cplusleft` and `cminusright`. -/
def cplusleft (dx : K) (c : Fin (n + 2) → K) (i : Fin (n + 2)) : K := c i - dx / 2 * slope dx c i
def cminusright (dx : K) (c : Fin (n + 2) → K) (i : Fin (n + 2)) : K := c i + dx / 2 * slope dx c i

/-- new_integrator.py:79-95: the right hand side at one entry. -/
def rhs (dx : K) (c v : Fin (n + 2) → K) (i : Fin (n + 2)) : K :=
  let cpl := cplusleft dx c i
  let cmr := cminusright dx c i
  let cpr := cplusleft dx c (i + 1)
  let cml := cminusright dx c (i - 1)
  let vleft := v (i - 1)
  let vright := v (i + 1)
  let aright := max |velocity cmr vright| |velocity cpr vright|
  let aleft := max |velocity cml vleft| |velocity cpl vleft|
  let RHS := -(flux cpr vright + flux cmr vright - flux cpl vleft - flux cml vleft
      - (aright * (cpr - cmr) - aleft * (cpl - cml))) / (2 * dx)
  RHS

/-- All divisors are non-zero. -/
def finite (dx : K) (c : Fin (n + 2) → K) : Bool :=
  decide (dx ≠ 0 ∧ ∀ i, velDen (cplusleft dx c i) ≠ 0 ∧ velDen (cminusright dx c i) ≠ 0)

/-- new_integrator.py:71-95, `KT`. -/
def KT (dx : K) (c v : Fin (n + 2) → K) : Res (Fin (n + 2) → K) :=
  if finite dx c then .ok (rhs dx c v) else .error .nonFinite

/-- new_integrator.py:99: `np.pad(c,1,mode='edge')`. -/
def padEdge [NeZero n] (c : Fin n → K) (i : Fin (n + 2)) : K :=
  c ⟨min (i.val - 1) (n - 1), by have := NeZero.pos n; omega⟩

/-- new_integrator.py:100: `np.pad(v,1,mode='constant')`. -/
def padZero (v : Fin n → K) (i : Fin (n + 2)) : K :=
  if h : 1 ≤ i.val ∧ i.val ≤ n then v ⟨i.val - 1, by omega⟩ else 0

/-- `a[1:-1]`. -/
def inner (a : Fin (n + 2) → K) (i : Fin n) : K := a ⟨i.val + 1, by omega⟩

/-- new_integrator.py:153-156, `Euler`: the increment. -/
def euler [NeZero n] (c v : Fin n → K) (dx dt : K) : Res (Fin n → K) := do
  let k ← KT dx (padEdge c) (padZero v)
  return inner fun i => dt * k i

/-- new_integrator.py:137-144, `RK4`: the increment. -/
def rk4 [NeZero n] (c v : Fin n → K) (dx dt : K) : Res (Fin n → K) := do
  let C := padEdge c
  let V := padZero v
  let k1 ← KT dx C V
  let k2 ← KT dx (fun i => C i + dt / 2 * k1 i) V
  let k3 ← KT dx (fun i => C i + dt / 2 * k2 i) V
  let k4 ← KT dx (fun i => C i + dt * k3 i) V
  return inner fun i => dt / 6 * (k1 i + 2 * k2 i + 2 * k3 i + k4 i)

/-- new_integrator.py:146-151, `RK3`: the new concentrations. -/
def rk3 [NeZero n] (c v : Fin n → K) (dx dt : K) : Res (Fin n → K) := do
  let C := padEdge c
  let V := padZero v
  let k1 ← KT dx C V
  let c1 := fun i => C i + dt * k1 i
  let k2 ← KT dx c1 V
  let c2 := fun i => 3 / 4 * C i + 1 / 4 * (c1 i + dt * k2 i)
  let k3 ← KT dx c2 V
  return inner fun i => 33333 / 100000 * C i + 66667 / 100000 * (c2 i + dt * k3 i)

/-- new_integrator.py:158-163, `diffusion` with a constant `D`: the new concentrations. -/
def diffusion (c : Fin n → K) (D dx dt : K) (i : Fin n) : XF K :=
  .fin (c i) + .fin dt * npGradient dx (fun i => npGradient dx (fun i => .fin (D * c i)) i) i

end
end Mpm.NI

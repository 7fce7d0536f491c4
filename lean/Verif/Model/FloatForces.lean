import Verif.Model.Forces
import Verif.Model.Float

/-!
# The ramped loads with rounding
-/

namespace Mpm

section
variable {K : Type} [Field K] [LinearOrder K]

/-- `-3.*self.t**2/t_c**2` of the input files (see `rampUp`). -/
def rampArgR (rnd : K → K) (t_c t : K) : K := rnd (rnd (-3 * rnd (t ^ 2)) / rnd (t_c ^ 2))

/-- `m*(1.-exp(-3.*self.t**2/t_c**2))`, as `rampUp`.  Simplification: the exponential is correctly rounded. -/
def rampUpR (rnd exp : K → K) (m t_c t : K) : K := rnd (m * rnd (1 - rnd (exp (rampArgR rnd t_c t))))

end
end Mpm

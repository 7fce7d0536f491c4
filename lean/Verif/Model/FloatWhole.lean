import Verif.Model.FloatInit
import Verif.Model.FloatSize

/-!
# The whole time step with rounding

Every law (`Model/FloatDp.lean`), every kind of new point (`Model/FloatInit.lean`) and the bookkeeping of the grain
sizes (`Model/FloatSize.lean`) in one time step.
-/

namespace Mpm

section
variable {K : Type} [Field K] [LinearOrder K] (rnd : K → K)

/-- As `Besides.built`, with segregation (MPM.py:33-38): `inc` as in `Besides.sorting`. -/
def Besides.whole [FloorRing K] (P : Par K)
    (inc : St P → Res ((Fin P.G.N → Fin P.G.ns → K) × (Fin P.G.N → K))) : Besides P :=
  { Besides.built rnd P with
    fractions := (Besides.sorting rnd P inc).fractions
    late := (Besides.sorting rnd P inc).late }

end
end Mpm

import Verif.Model.Inputs

/-!
# Model of `inputs/PSM_slope_stab.py` (points under a slope) and of `critical_time`
-/

namespace Mpm

section
variable {K : Type} [Field K] [LinearOrder K]

/-- PSM_slope_stab.py:97-102,126 for the row of points at height `y`; `L_1 = G.L_1`, `t` the value of
`tan(P.slope_angle)`, taken to be nonzero (numpy would give infinities). -/
def slopeRow [FloorRing K] (G : GP K) (ppc : ℕ) (L_1 t y : K) : List (K × K) :=
  let gap := gridDx G / (2 * (ppc : K))
  let current_L := L_1 - y / t                                                     -- 97
  let nx := pyTrunc (current_L / gridDx G * ppc)                                   -- 98
  if 0 < nx then                                                                   -- 99
    (linspaceL (G.x_m + gap) (current_L - gap) nx.toNat).map fun x => (x, y)       -- 100-103
  else []

/-- PSM_slope_stab.py:91-103: the lists `self.X`, `self.Y` zipped. -/
def slopeLayout [FloorRing K] (G : GP K) (ppc : ℕ) (L_1 t : K) : List (K × K) :=
  (axisPoints G.y_m G.y_M (gridDy G) ppc ((G.ny - 1) * ppc)).flatMap (slopeRow G ppc L_1 t)

/-- `critical_time` of bi_square_drum.py:123-126: `distance/sqrt(K/rho)`.  `K/rho` divides Python
floats. -/
def elasticTime (o : Ops K) (G : GP K) (mat : Mat0 K) : Res (XF K) :=
  if mat.rho = 0 then .error .zeroDiv
  else .ok (.fin (min G.dx G.dy) / XF.sqrt o.sqrt (.fin (mat.Kb / mat.rho)))

/-- `critical_time` of silo.py:94-98, PSM_slope_stab.py:128-132, bi_dam_break.py:128-132,
bi_double_insets.py:102-106, bi_seg_test.py:125-129, bi_vertical_chute.py:113-117. -/
def flowTime (o : Ops K) (G : GP K) (mat : Mat0 K) : Res (XF K) := do
  let t_ela ← elasticTime o G mat
  let t_diff : XF K := .fin (min G.dx G.dy ^ 2) / .fin mat.eta_max * .fin mat.rho
  return XF.min t_diff t_ela

end
end Mpm

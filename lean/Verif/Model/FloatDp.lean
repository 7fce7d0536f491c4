import Verif.Model.FloatYield

/-!
# Laws with rounding: `dp_rate`, and the laws that only fail

As `Model/FloatYield.lean`.  `Besides.every` puts `dp_rate` next to the other laws in the whole time steps of
`Model/FloatStep.lean`, together with `dp` and the names without a function, which raise exceptions.
-/

namespace Mpm

section
variable {K : Type} [Field K] [LinearOrder K] (rnd : K → K) {ns : ℕ}

/-- numpy `trace` of a 2×2 matrix. -/
def trace2R (A : Matrix (Fin 2) (Fin 2) K) : K := rnd (A 0 0 + A 1 1)

/-- constit.py:248, 280: `A - trace(A)*eye(2)/2.`. -/
def dev2R (A : Matrix (Fin 2) (Fin 2) K) : Matrix (Fin 2) (Fin 2) K := fun i j =>
  rnd (A i j - rnd (rnd (trace2R rnd A * (1 : Matrix (Fin 2) (Fin 2) K) i j) / 2))

/-- constit.py:252, 291: `stress - eye(2)*p`. -/
def shear2R (stress : Matrix (Fin 2) (Fin 2) K) (p : K) : Matrix (Fin 2) (Fin 2) K := fun i j =>
  rnd (stress i j - rnd ((1 : Matrix (Fin 2) (Fin 2) K) i j * p))

/-- `sum(sum(A*A))` and `sum(sum(A**2))`. -/
def sumSq2R (A : Matrix (Fin 2) (Fin 2) K) : K :=
  rnd (rnd (rnd (A 0 0 ^ 2) + rnd (A 1 0 ^ 2)) + rnd (rnd (A 0 1 ^ 2) + rnd (A 1 1 ^ 2)))

/-- constit.py:253, 292: `sqrt(3.*sum(sum(s_ij*s_ij))/2.)`. -/
def shearNormR (ops : Ops K) (s_ij : Matrix (Fin 2) (Fin 2) K) : K :=
  rnd (ops.sqrt (rnd (rnd (3 * sumSq2R rnd s_ij) / 2)))

/-- constit.py:251: `trace(stress)/2.`. -/
def meanR (stress : Matrix (Fin 2) (Fin 2) K) : K := rnd (trace2R rnd stress / 2)

/-- constit.py:252,253 of a stress. -/
def equivR (ops : Ops K) (stress : Matrix (Fin 2) (Fin 2) K) : K :=
  shearNormR rnd ops (shear2R rnd stress (meanR rnd stress))

/-- constit.py:256-259, `Gamma_2`. -/
def excessR (ops : Ops K) (mat0 : Mat0 K) (stress : Matrix (Fin 2) (Fin 2) K) : K :=
  let lambda_2 := rnd (equivR rnd ops stress - rnd (mat0.mu * meanR rnd stress))
  if 0 < lambda_2 then lambda_2 else 0

/-- constit.py:261: `3.*s_ij/(2.*MP.q*MP.p*P.S[0].t_star)*Gamma_2`. -/
def relaxR (ops : Ops K) (mat0 : Mat0 K) (stress : Matrix (Fin 2) (Fin 2) K) (i j : Fin 2) : XF K :=
  let p := meanR rnd stress
  XF.rd rnd (XF.rd rnd (.fin (rnd (3 * shear2R rnd stress p i j)) /
    .fin (rnd (rnd (rnd (2 * equivR rnd ops stress) * p) * mat0.t_star))) *
      .fin (excessR rnd ops mat0 stress))

/-- constit.py:262: `P.S[0].beta*MP.q/(P.S[0].mu*MP.p*MP.p*P.S[0].t_star)*Gamma_2`. -/
def dilateR (ops : Ops K) (mat0 : Mat0 K) (stress : Matrix (Fin 2) (Fin 2) K) : XF K :=
  let p := meanR rnd stress
  XF.rd rnd (XF.rd rnd (.fin (rnd (mat0.beta * equivR rnd ops stress)) /
    .fin (rnd (rnd (rnd (mat0.mu * p) * p) * mat0.t_star))) * .fin (excessR rnd ops mat0 stress))

/-- constit.py:245-263, `dp_guts`. -/
def dpRateGutsR (ops : Ops K) (mat0 : Mat0 K) (dstrain stress : Matrix (Fin 2) (Fin 2) K)
    (i j : Fin 2) : XF K :=
  XF.rd rnd (XF.rd rnd (.fin (rnd (2 * mat0.Gs)) *
      XF.rd rnd (.fin (dev2R rnd dstrain i j) - relaxR rnd ops mat0 stress i j)) +
    XF.rd rnd (.fin (rnd (mat0.Kb * (1 : Matrix (Fin 2) (Fin 2) K) i j)) *
      XF.rd rnd (.fin (trace2R rnd dstrain) + dilateR rnd ops mat0 stress)))

/-- constit.py:265-302.  `p` and `q` are computed again for the figures (290-292). -/
def dpRateLawR (c : LawCtx K ns) (mp : Particle K ns) : Res (LawResR K ns) := do
  let dstrain := -block2 mp.dstrain
  let stress := -block2 mp.stress
  let dstress ← finMat fun i j =>
    if h : i.val < 2 ∧ j.val < 2 then -(dpRateGutsR rnd c.ops c.mat0 dstrain stress ⟨i, h.1⟩ ⟨j, h.2⟩)
    else .fin (mp.dstress i j)
  let yieldfunction ← (XF.rd rnd (XF.rd rnd (.fin (equivR rnd c.ops stress) /
    .fin (rnd (c.mat.mu * meanR rnd stress))) - .fin 1) : XF K).toRes
  let p := rnd (-rnd (mp.stress 0 0 + mp.stress 1 1) / 2)
  let q := shearNormR rnd c.ops (shear2R rnd stress p)
  let mp := { mp with
    dstress := dstress
    gammadot := rnd (c.ops.sqrt (sumSq2R rnd (dev2R rnd dstrain)))
    pressure := rnd (traceR rnd mp.stress / 2)
    sigmav := mp.stress 1 1
    sigmah := mp.stress 0 0
    yieldfunction := yieldfunction }
  return (mp, fun r => [(.pressure, .fin (rnd (rnd (mp.N r * mp.m) * p))),
    (.gammadot, shownRateR rnd c.dt mp r mp.gammadot), (.dev_stress, shownR rnd mp r q)])

/-- `dp_rate`; `dp` and the names of laws that do not exist, as in `Model/Constit.lean`. -/
def dpLawR (law : Law) (c : LawCtx K ns) (mp : Particle K ns) : Res (LawResR K ns) :=
  match law with
  | .dp_rate => dpRateLawR rnd c mp
  | .dp => match mp.mu with
    | none => .error .attribute
    | some _ => .error .unmodelled
  | .viscous_size | .pouliquen2D | .other => .error .name
  | _ => .error .unmodelled

/-- particle.py:148-158 for these laws. -/
def Particle.updateDpR {N : ℕ} (nx : ℕ) (law : Law) (c : LawCtx K ns) (mp : Particle K ns)
    (vis : Vis → Fin N → XF K) : Res (Particle K ns × (Vis → Fin N → XF K)) := do
  let (mp, l) ← dpLawR rnd law c mp
  let vis ← scatterVisR rnd nx mp l vis
  return (mp.applyStressR rnd c.dt, vis)

/-- As `Besides.all`, with every law. -/
def Besides.every [FloorRing K] (P : Par K) : Besides P :=
  { Besides.all rnd P with
    stress := fun d L p ph mp vis =>
      if ph.law = .dp_rate ∨ ph.law = .dp ∨ ph.law = .viscous_size ∨ ph.law = .pouliquen2D ∨
          ph.law = .other then
        mp.updateDpR rnd P.G.nx ph.law (lawCtxR rnd P d P.G.s ((mat0 L).getD ph.par) p ph) vis
      else (Besides.all rnd P).stress d L p ph mp vis }

end
end Mpm

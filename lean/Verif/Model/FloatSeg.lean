import Verif.Model.FloatLaw
import Verif.Model.Integrators

/-!
# Segregation with rounding: the limiters, `BC`, `KT_flux` and `KT` of integrators.py

As `Model/Integrators.lean`, every operation rounded by `rnd`.  Signs, absolute values, negation, `minimum`
and `maximum` are exact, and so are the literals 0.5, 1. and 2.  Simplification: `sum(...,axis=2)` adds from
left to right, as numpy does for fewer than eight sizes.
-/

namespace Mpm

section
variable {K : Type} [Field K] [LinearOrder K] (rnd : K → K)

/-- integrators.py:19-30, `div0`. -/
def div0R (a b : XF K) : XF K :=
  if ((a / b).rd rnd).isFinite then (a / b).rd rnd else .fin 0

/-- integrators.py:32-40, `minmod`. -/
def minmodR (a b : K) : K := rnd (rnd (1 / 2 * rnd (sgn a + sgn b)) * min |a| |b|)

/-- integrators.py:42-50, `maxmod`. -/
def maxmodR (a b : K) : K := rnd (rnd (1 / 2 * rnd (sgn a + sgn b)) * max |a| |b|)

/-- integrators.py:52-60, `superbee`. -/
def superbeeR (a b : K) : K :=
  maxmodR rnd (minmodR rnd a (rnd (2 * b))) (minmodR rnd (rnd (2 * a)) b)

/-- integrators.py:62-71, `limiter`. -/
def limiterR (a b : K) : K := superbeeR rnd a b

/-- integrators.py:205: `sum(phi*(1./S),axis=2)`. -/
def invHarmonicR {ns : ℕ} (s phi : Fin ns → K) : XF K :=
  Fin.foldl ns (fun acc i =>
    (acc + (.fin (phi i) * (.fin 1 / .fin (s i) : XF K).rd rnd).rd rnd).rd rnd) (.fin 0)

/-- integrators.py:247-249: segregation velocity at one (padded) node for one size. -/
def ktFluxR {ns : ℕ} (c : K) (s phi : Fin ns → K) (j : Fin ns) (g : K) (bnd : Bool) : XF K :=
  if bnd then .fin 0
  else ((.fin c * ((.fin 1 / (invHarmonicR rnd s phi * .fin (s j)).rd rnd).rd rnd - .fin 1).rd rnd).rd rnd
    * .fin g).rd rnd

/-- integrators.py:152-157, `BC` along one line of `n+4` entries. -/
def ktBCR {n : ℕ} (c : Fin (n + 4) → K) (v : Fin (n + 4) → XF K) : Fin (n + 4) → XF K :=
  let i0 : Fin (n + 4) := ⟨0, by omega⟩
  let i1 : Fin (n + 4) := ⟨1, by omega⟩
  let i2 : Fin (n + 4) := ⟨2, by omega⟩
  let m1 : Fin (n + 4) := ⟨n + 3, by omega⟩
  let m2 : Fin (n + 4) := ⟨n + 2, by omega⟩
  let m3 : Fin (n + 4) := ⟨n + 1, by omega⟩
  let v := Function.update v i1 (-div0R rnd ((.fin (c i2) * v i2).rd rnd) (.fin (c i1)))
  let v := Function.update v i0 (-div0R rnd ((.fin (c i1) * v i1).rd rnd) (.fin (c i0)))
  let v := Function.update v m2 (-div0R rnd ((.fin (c m3) * v m3).rd rnd) (.fin (c m2)))
  Function.update v m1 (-div0R rnd ((.fin (c m2) * v m2).rd rnd) (.fin (c m1)))

/-- integrators.py:181-191: the increment `gc` along one padded line. -/
def ktCoreR {n : ℕ} (dt dx : K) (C : Fin (n + 4) → K) (V : Fin (n + 4) → XF K)
    (i : Fin (n + 4)) : XF K :=
  let cx : Fin (n + 4) → K := fun i =>
    limiterR rnd (rnd (rnd (C i - C (i - 1)) / dx)) (rnd (rnd (C (i + 1) - C i) / dx))     -- 182
  let cpr := rnd (C (i - 1) - rnd (rnd (cx (i - 1) * dx) / 2))                             -- 183
  let cpl := rnd (C i + rnd (rnd (cx i * dx) / 2))                                         -- 184
  let cmr := rnd (C i - rnd (rnd (cx i * dx) / 2))                                         -- 185
  let cml := rnd (C (i + 1) + rnd (rnd (cx (i + 1) * dx) / 2))                             -- 186
  let vp := (((V i + V (i - 1)).rd rnd) / .fin 2).rd rnd                                   -- 187
  let vm := (((V i + V (i + 1)).rd rnd) / .fin 2).rd rnd                                   -- 188
  let ap := (V i).abs.max (V (i - 1)).abs                                                  -- 189
  let am := (V i).abs.max (V (i + 1)).abs                                                  -- 190
  let a1 := (vp * .fin (rnd (cpr + cpl))).rd rnd                                           -- 191
  let a2 := (vm * .fin (rnd (cmr + cml))).rd rnd
  let a3 := (ap * .fin (rnd (cpr - cpl))).rd rnd
  let a4 := (am * .fin (rnd (cmr - cml))).rd rnd
  ((.fin dt * (((a1 - a2).rd rnd + a3).rd rnd - a4).rd rnd).rd rnd / .fin (rnd (2 * dx))).rd rnd

/-- integrators.py:176-194, `KT` along one line of `n` nodes, for size `j`. -/
def ktLineR {n ns : ℕ} [NeZero n] (cyc : Bool) (c dt dx : K) (s : Fin ns → K)
    (phi : Fin n → Fin ns → K) (g : Fin n → K) (bnd : Fin n → Bool) (j : Fin ns)
    (k : Fin n) : XF K :=
  let C : Fin (n + 4) → K := padKT fun i => phi i j
  let gp : Fin (n + 4) → K := if cyc then padCyc g else padKT g
  let V0 : Fin (n + 4) → XF K := fun i => ktFluxR rnd c s (padKT phi i) j (gp i) (padKT bnd i)
  ktCoreR rnd dt dx C (ktBCR rnd C V0) ⟨k.val + 2, by omega⟩

variable {nx ny ns : ℕ}

/-- integrators.py:176-194 with `ax=0`. -/
def ktXR (P : Par K) (dt : K) (s : Fin ns → K) (G : Grid K (ny * nx) ns)
    (n : Fin (ny * nx)) (j : Fin ns) : XF K :=
  haveI : NeZero nx := ⟨(nx_pos_of_node n).ne'⟩
  ktLineR rnd P.B.cyclic_lr P.c dt P.G.dx s (fun ix => G.phi (mkNode ix (rowF n)))
    (fun ix => G.grad_pk (mkNode ix (rowF n)) 0)
    (fun ix => ktBoundary P.M_tol G (mkNode ix (rowF n))) j (colF n)

/-- integrators.py:176-194 with `ax=1`. -/
def ktYR (P : Par K) (dt : K) (s : Fin ns → K) (G : Grid K (ny * nx) ns)
    (n : Fin (ny * nx)) (j : Fin ns) : XF K :=
  haveI : NeZero ny := ⟨(ny_pos_of_node n).ne'⟩
  ktLineR rnd false P.c dt P.G.dy s (fun iy => G.phi (mkNode (colF n) iy))
    (fun iy => G.grad_pk (mkNode (colF n) iy) 1)
    (fun iy => ktBoundary P.M_tol G (mkNode (colF n) iy)) j (rowF n)

end

end Mpm

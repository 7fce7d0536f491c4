import Verif.Model.FloatMap
import Verif.Model.Main

/-!
# Floating point: forces, momentum, motion and the whole time step

The same functions as in `Model/Particle.lean`, `Model/Grid.lean`, `Model/MPList.lean` and
`Model/Main.lean`, with every addition, subtraction, multiplication and division of the program
followed by the rounding `rnd`.  Products with a mask or with a sign (0, 1 or -1) and changes of sign
are exact.  Simplification: numpy's `dot` of two vectors of length 3 adds the rounded products from
left to right, without fused operations.
-/

namespace Mpm
section
variable {K : Type} [Field K] [LinearOrder K] (rnd : K → K)

/-- particle.py:331 -/
def bodyForceR (P : Par K) (g : K) : Vec K := ![rnd (g * P.sinθ), rnd (g * P.cosθ), 0]

variable {ns : ℕ}

/-- particle.py:322-331. -/
def Particle.incrementGravityR (P : Par K) (g : K) (p : ℕ) (mp : Particle K ns) : Particle K ns :=
  if p = 0 then { mp with b := bodyForceR rnd P g } else mp

/-- mplist.py:193-202. -/
def updateForcesR (P : Par K) (g : K) (L : List (PhaseSt K ns)) : Res (List (PhaseSt K ns)) :=
  mapPoints (fun p _ mp => .ok (mp.incrementGravityR rnd P g p)) L

/-- particle.py:292-306. -/
def Particle.recoverPositionR {N : ℕ} (nx : ℕ) (G : Grid K N ns) (mp : Particle K ns) :
    Res (Vec K) :=
  for4 (fun r x => do
    let n ← mp.node nx N r
    return fun k => rnd (x k + rnd (mp.N r * (![G.X n, G.Y n, 0] : Vec K) k))) 0

/-- mplist.py:254-265; `1e-10` is itself rounded. -/
def Particle.checkPositionR {N : ℕ} (nx : ℕ) (G : Grid K N ns) (mp : Particle K ns) :
    Res (Particle K ns) := do
  let x ← mp.recoverPositionR rnd nx G
  if ∃ k, rnd (1 / 10 ^ 10 : K) < |rnd (x k - mp.x k)| then .error .type else return mp

/-- mplist.py:247-265. -/
def recoverPositionsR {N : ℕ} (nx : ℕ) (G : Grid K N ns) (L : List (PhaseSt K ns)) :
    Res (List (PhaseSt K ns)) :=
  mapPoints (fun _ _ mp => mp.checkPositionR rnd nx G) L

/-- grid.py:232-240 for one field of numbers. -/
def makeCyclicR {nx ny : ℕ} (a : Fin (ny * nx) → K) : Fin (ny * nx) → K :=
  let a1 : Fin (ny * nx) → K :=
    fun i => if (i : ℕ) % nx = 0 then rnd (a i + a (rightOf i)) else a i
  fun i => if (i : ℕ) % nx = nx - 1 then rnd (a1 i + a (leftOf i)) else a1 i

/-- grid.py:232-240 for `m`, `q`. -/
def Grid.makeCyclicMQR {nx ny : ℕ} (G : Grid K (ny * nx) ns) : Grid K (ny * nx) ns :=
  { G with m := makeCyclicR rnd G.m, q := fun i k => makeCyclicR rnd (fun i => G.q i k) i }

/-- grid.py:232-240 for `fi`, `fe`. -/
def Grid.makeCyclicForcesR {nx ny : ℕ} (G : Grid K (ny * nx) ns) : Grid K (ny * nx) ns :=
  { G with
    fi := fun i k => makeCyclicR rnd (fun i => G.fi i k) i
    fe := fun i k => makeCyclicR rnd (fun i => G.fe i k) i }

/-- particle.py:137-140. -/
def nodeVelR {N : ℕ} (M_tol : K) (G : Grid K N ns) (n : Fin N) : Vec K :=
  if M_tol < G.m n then fun k => rnd (G.q n k / G.m n) else 0

/-- particle.py:126-146. -/
def Particle.updateStrainR {N : ℕ} (nx : ℕ) (M_tol dt : K) (G : Grid K N ns)
    (mp : Particle K ns) : Res (Particle K ns) := do
  let mp ← for4 (fun r (mp : Particle K ns) => do
    let n ← mp.node nx N r
    let v := nodeVelR rnd M_tol G n
    let L : Mat K := fun i j => rnd (v i * mp.Gs r j)
    let L_T : Mat K := fun i j => rnd (mp.Gs r i * v j)
    return { mp with
      LL := fun i j => rnd (rnd (mp.LL i j + L i j) + L_T i j)
      dstrain := fun i j => rnd (mp.dstrain i j + rnd (rnd (1 / 2 * rnd (L i j + L_T i j)) * dt)) })
    { mp with dstrain := 0, LL := 0 }
  return { mp with strain := fun i j => rnd (mp.strain i j + mp.dstrain i j) }

/-- The `i`-th component of `dot(s,g)` (numpy). -/
def dotR (s : Mat K) (g : Vec K) (i : Fin 3) : K :=
  rnd (rnd (rnd (s i 0 * g 0) + rnd (s i 1 * g 1)) + rnd (s i 2 * g 2))

/-- particle.py:308-319. -/
def Particle.nodalForcesR {N : ℕ} (nx : ℕ) (mp : Particle K ns) (G : Grid K N ns) :
    Res (Grid K N ns) :=
  for4 (fun r G => do
    let n ← mp.node nx N r
    return { G with
      fi := addRowR rnd G.fi n fun k => rnd (mp.V * dotR rnd mp.stress (mp.Gs r) k)
      fe := addRowR rnd G.fe n fun k => rnd (rnd (mp.N r * mp.m) * mp.b k) }) G

/-- mplist.py:173-175. -/
def nodalForcesAllR {N : ℕ} (nx : ℕ) (L : List (PhaseSt K ns)) (G : Grid K N ns) :
    Res (Grid K N ns) :=
  foldPhases (fun a G => foldN (fun mp G => mp.nodalForcesR rnd nx G) a.ph.n a.pts G) L G

/-- mplist.py:166-176. -/
def getNodalForcesR {nx ny : ℕ} (P : Par K) (L : List (PhaseSt K ns))
    (G : Grid K (ny * nx) ns) : Res (Grid K (ny * nx) ns) := do
  let G ← nodalForcesAllR rnd nx L G
  return if P.B.cyclic_lr then G.makeCyclicForcesR rnd else G

/-- grid.py:242-255. -/
def Grid.BCsR {nx ny ns : ℕ} (B : BP K) (q_v q_h rho0 : K) (anisoAt0 : Bool)
    (G : Grid K (ny * nx) ns) : Res (Grid K (ny * nx) ns) :=
  if (B.vertical_force ∧ (rho0 = 0 ∨ G.dy = 0)) ∨ (B.horizontal_force ∧ (rho0 = 0 ∨ G.dx = 0)) then
    .error .nonFinite
  else
  let G :=
    if B.vertical_force then
      let e : Fin (ny * nx) → Vec K := fun i =>
        Function.update (G.ext_f i) 1
          (let a := G.ext_f i 1
           let a := if inBottom nx ny i then rnd (a + q_v) else a
           if inTop nx ny i then rnd (a - q_v) else a)
      { G with
        ext_f := e
        fe := fun i => Function.update (G.fe i) 1
                (rnd (G.fe i 1 + rnd (rnd (rnd (rnd (2 * e i 1) * G.m i) / rho0) / G.dy))) }
    else G
  let G :=
    if B.horizontal_force then
      let e : Fin (ny * nx) → Vec K := fun i =>
        Function.update (G.ext_f i) 0
          (let a := G.ext_f i 0
           let a := if inLeft nx ny i then rnd (a + q_h) else a
           if inRight nx ny i then rnd (a - q_h) else a)
      { G with
        ext_f := e
        fe := fun i => Function.update (G.fe i) 0
                (rnd (G.fe i 0 + rnd (rnd (rnd (rnd (2 * e i 0) * G.m i) / rho0) / G.dx))) }
    else G
  if anisoAt0 then .error .index else .ok G

/-- grid.py:268-288 for a single node, as `roughNode`. -/
def roughNodeR (mu : K) (bh bv : Bool) (isNode1 : Bool) (qd : Vec K) : Vec K :=
  let Ff_h := (if bh then 1 else 0) * min |qd 0| (rnd (mu * |qd 1|))                 -- 275
  let Ff_v := (if bv then 1 else 0) * min |qd 1| (rnd (mu * |qd 0|))                 -- 276
  let Ff_v := if isNode1 then Ff_v * (if qd 0 < 0 then 1 else 0) else Ff_v           -- 279
  let Ff_v := if isNode1 then Ff_v * (if 0 < qd 0 then 1 else 0) else Ff_v           -- 280
  let Ff_h := if isNode1 then Ff_h * (if 0 < qd 1 then 1 else 0) else Ff_h           -- 281
  let Ff_h := if isNode1 then Ff_h * (if qd 1 < 0 then 1 else 0) else Ff_h           -- 282
  ![rnd (qd 0 - sgn (qd 0) * Ff_h), rnd (qd 1 - sgn (qd 1) * Ff_v), qd 2]            -- 284,285

/-- grid.py:257-296, as `Grid.updateMomentum`; the constant `0.7` is itself rounded. -/
def Grid.updateMomentumR {nx ny ns : ℕ} (B : BP K) (damping : Bool) (dt v_0 : K)
    (G : Grid K (ny * nx) ns) : Grid K (ny * nx) ns :=
  let qd : Fin (ny * nx) → Vec K := fun i k => rnd (G.fe i k - G.fi i k)              -- 264
  let qd : Fin (ny * nx) → Vec K :=
    if damping then fun i k => rnd (rnd (7 / 10) * qd i k) else qd                    -- 265
  let friction : Bool := B.roughness && decide (B.wall_mu ≠ 0)
  let bh : Fin (ny * nx) → Bool :=
    if friction then fun i => G.boundary_h i || inBottom nx ny i || inTop nx ny i     -- 270,271
    else G.boundary_h
  let bv : Fin (ny * nx) → Bool :=
    if friction then fun i => G.boundary_v i || inLeft nx ny i || inRight nx ny i     -- 272,273
    else G.boundary_v
  let qd : Fin (ny * nx) → Vec K :=
    if B.roughness then
      if B.wall_mu ≠ 0 then
        fun i => roughNodeR rnd B.wall_mu (bh i) (bv i) (decide ((i : ℕ) = 1)) (qd i)
      else fun i => ![maskOff (qd i 0) (bh i), maskOff (qd i 1) (bv i), qd i 2]       -- 287,288
    else qd
  let qd : Fin (ny * nx) → Vec K :=
    fun i => ![maskOff (qd i 0) (bv i), maskOff (qd i 1) (bh i), qd i 2]              -- 291,292
  let q : Fin (ny * nx) → Vec K := fun i k => rnd (G.q i k + rnd (dt * qd i k))       -- 294
  let q : Fin (ny * nx) → Vec K :=
    if B.conveyor then
      fun i => if G.boundary_conveyor i then Function.update (q i) 0 (rnd (v_0 * G.m i)) else q i
    else q                                                                            -- 296
  { G with q_dot := qd, q := q, boundary_h := bh, boundary_v := bv }

/-- particle.py:271, `self.v += d`. -/
def addVelR (d : Vec K) (s : VRef K × Vec K) : VRef K × Vec K :=
  match s.1 with
  | .own v => (.own fun k => rnd (v k + d k), s.2)
  | .shared => (.shared, fun k => rnd (s.2 k + d k))

/-- particle.py:260-279; `P.dt*N[r]*q/m` is `((P.dt*N[r])*q)/m`. -/
def Particle.moveR {N : ℕ} (nx : ℕ) (M_tol dt : K) (G : Grid K N ns)
    (mp : Particle K ns) (iv : Vec K) : Res (Particle K ns × Vec K) := do
  let (mp, iv) ← for4 (fun r (s : Particle K ns × Vec K) => do
    let n ← s.1.node nx N r
    if M_tol < G.m n then
      let (v', iv') := addVelR rnd
        (fun k => rnd (rnd (rnd (dt * s.1.N r) * G.q_dot n k) / G.m n)) (s.1.v, s.2)
      return ({ s.1 with
        x := fun k => rnd (s.1.x k + rnd (rnd (rnd (dt * s.1.N r) * G.q n k) / G.m n))
        v := v' }, iv')
    else return s) (mp, iv)
  let mp ← for4 (fun r (mp : Particle K ns) => do
    let n ← mp.node nx N r
    if M_tol < G.m n then
      if G.V n = 0 then .error .nonFinite
      else return { mp with rho := rnd (mp.rho + rnd (rnd (mp.N r * G.m n) / G.V n)) }
    else return mp) { mp with rho := 0 }
  return (mp, iv)

/-- particle.py:281-290. -/
def Particle.moveRigidR (dt : K) (intruder_v : Vec K) (mp : Particle K ns) : Particle K ns :=
  { mp with x := fun k => rnd (mp.x k + rnd (dt * intruder_v k)), v := .own intruder_v }

/-- mplist.py:178-191. -/
def movePointsR {N : ℕ} (nx : ℕ) (M_tol dt : K) (intruder_v : Vec K) (G : Grid K N ns)
    (L : List (PhaseSt K ns)) : Res (List (PhaseSt K ns)) :=
  mapPhases (fun _ a => do
    if a.ph.law = .rigid then
      let pts ← mapN (fun mp => .ok (mp.moveRigidR rnd dt intruder_v)) a.ph.n a.pts
      return { a with pts := pts }
    else
      let (pts, iv) ← forN (fun mp iv => mp.moveR rnd nx M_tol dt G iv) a.ph.n a.pts a.ph.iv
      return { ph := { a.ph with iv := iv }, pts := pts }) 0 L

/-- mplist.py:28-39. -/
def outletLeftR (P : GP K) (L : List (PhaseSt K ns)) : Res (List (PhaseSt K ns)) :=
  mapPhases (fun _ a => do
    let (n, l) ← outletLoop (fun mp : Particle K ns => decide (mp.x 0 < rnd (P.x_m + P.dx)))
      a.ph.n (a.ph.n, a.pts)
    return { ph := { a.ph with n := n }, pts := l }) 0 L

/-- mplist.py:87-99. -/
def cyclicLRR (P : GP K) (L : List (PhaseSt K ns)) : Res (List (PhaseSt K ns)) :=
  mapPoints (fun _ _ mp => .ok { mp with x := Function.update mp.x 0 (wrapXR rnd P (mp.x 0)) }) L

/-- What the time step does besides, however it rounds: the nodal fractions `phi`, `s_bar`, `pk`
(mplist.py:133-140), the stress update of a point of phase number `p` once its strain is known
(particle.py:148-158), the nodal measures made periodic (mplist.py:164), shear rates and segregation
(MPM.py:32-38), and the constructor of the points of inlets (particle.py:8-101). -/
structure Besides (P : Par K) where
  fractions : Grid K P.G.N P.G.ns → (Fin P.G.N → Fin P.G.ns → K) × (Fin P.G.N → K) × (Fin P.G.N → XF K)
  stress : Dyn K → List (PhaseSt K P.G.ns) → ℕ → Phase K P.G.ns → Particle K P.G.ns →
    (Vis → Fin P.G.N → XF K) → Res (Particle K P.G.ns × (Vis → Fin P.G.N → XF K))
  visCyclic : (Vis → Fin P.G.N → XF K) → Vis → Fin P.G.N → XF K
  late : St P → Res (St P)
  point : First K → Phase K P.G.ns → K → K → K → Res (Particle K P.G.ns)

variable [FloorRing K] {P : Par K} (E : Besides P)

/-- mplist.py:123-151. -/
def getNodalMassMomentumR (L : List (PhaseSt K P.G.ns)) (G : Grid K P.G.N P.G.ns) :
    Res (Grid K P.G.N P.G.ns) := do
  let G ← p2gAllR rnd P.G.nx P.segregate_grid L G
  let G := if P.segregate_grid then
      { G with phi := (E.fractions G).1, s_bar := (E.fractions G).2.1, pk := (E.fractions G).2.2 }
    else G
  return G.zeroBoundaryMomentum P.B.roughness

/-- mplist.py:153-164. -/
def updateStressStrainR (d : Dyn K) (L : List (PhaseSt K P.G.ns)) (G : Grid K P.G.N P.G.ns) :
    Res (List (PhaseSt K P.G.ns) × Grid K P.G.N P.G.ns) := do
  let (L', vis) ← forPhases (fun p a vis => do
    let (pts, vis) ← forN (fun (mp : Particle K P.G.ns) vis => do
      let mp ← mp.updateStrainR rnd P.G.nx P.M_tol d.dt G
      E.stress d L p a.ph mp vis) a.ph.n a.pts vis
    return ({ a with pts := pts }, vis)) 0 L G.vis
  return (L', { G with vis := if P.B.cyclic_lr then E.visCyclic vis else vis })

/-- MPM.py:20-29.  Simplification: the loads of `update_forces` (21) are computed exactly. -/
def gridPhaseR (s : St P) : Res (St P) := do
  let G := s.G.wipe                                                             -- 20
  let d := s.dyn.updateForces P                                                 -- 21
  let L ← updateForcesR rnd P d.g s.L                                           -- 22
  let L ← getReferenceNodesR rnd P.G G L                                        -- 23
  let L ← getBasisFunctionsR rnd G L                                            -- 24
  let L ← whenSet P.check_positions (recoverPositionsR rnd P.G.nx G) L          -- 25
  let G ← getNodalMassMomentumR rnd E L G                                       -- 26
  let G := if P.B.cyclic_lr then G.makeCyclicMQR rnd else G                     -- 27
  let (L, G) ← updateStressStrainR rnd E d L G                                  -- 28
  let G ← getNodalForcesR rnd P L G                                             -- 29
  return { dyn := d, L := L, G := G }

/-- MPM.py:30,31. -/
def momentumPhaseR (s : St P) : Res (St P) := do
  let G ← s.G.BCsR rnd P.B s.dyn.q_v s.dyn.q_h (((mat0 s.L).map (·.rho)).getD 0)
    (P.aniso && decide (s.dyn.t = 0))                                           -- 30
  return { s with G := G.updateMomentumR rnd P.B P.damping s.dyn.dt P.v_0 }     -- 31

/-- mplist.py:68,69,84,85: one more point. -/
def appendPointR (S0 : First K) (g x y : K) (a : PhaseSt K P.G.ns) : Res (PhaseSt K P.G.ns) := do
  let mp ← E.point S0 a.ph g x y
  return { ph := { a.ph with n := a.ph.n + 1 }, pts := a.pts ++ [mp] }

/-- mplist.py:55-69.  The remainder `P.t%P.S[p].inlet_rate` of two numbers of the same sign is exact in
floating point, so `inletDue` is used as it is. -/
def inletRightR (d : Dyn K) (L : List (PhaseSt K P.G.ns)) : Res (List (PhaseSt K P.G.ns)) :=
  mapPhases (fun _ a => do
    if ← inletDue d a.ph.inlet_rate then
      a.ph.yp.foldlM (fun a y => appendPointR E (first L) d.g (rnd (P.G.x_M - a.ph.gap 0)) y a) a
    else return a) 0 L

/-- mplist.py:71-85. -/
def inletTopR (d : Dyn K) (L : List (PhaseSt K P.G.ns)) : Res (List (PhaseSt K P.G.ns)) :=
  mapPhases (fun _ a => do
    if ← inletDue d a.ph.inlet_rate then
      appendPointR E (first L) d.g (rnd (rnd (P.G.x_M - P.G.x_m) / 2)) (rnd (P.G.y_M - a.ph.gap 1)) a
    else return a) 0 L

/-- MPM.py:39-45. -/
def pointsPhaseR (s : St P) : Res (St P) := do
  let L ← movePointsR rnd P.G.nx P.M_tol s.dyn.dt P.intruder_v s.G s.L          -- 39
  let L ← whenSet P.B.outlet_left (outletLeftR rnd P.G) L                       -- 41
  let L ← whenSet P.B.outlet_bottom (outletBottom P.G) L                        -- 42
  let L ← whenSet P.B.inlet_right (inletRightR rnd E s.dyn) L                   -- 43
  let L ← whenSet P.B.inlet_top (inletTopR rnd E s.dyn) L                       -- 44
  let L ← whenSet P.B.cyclic_lr (cyclicLRR rnd P.G) L                           -- 45
  return { s with L := L }

/-- MPM.py:19-46, `time_march`, with rounding. -/
def timeMarchR (s : St P) : Res (St P) := do
  let s ← gridPhaseR rnd E s
  let s ← momentumPhaseR rnd s
  let s ← E.late s
  pointsPhaseR rnd E s

/-- MPM.py:62,63,90,91: `n` steps, as `steps`, with rounding. -/
def stepsR : ℕ → St P → Res (St P)
  | 0, s => .ok s
  | n + 1, s => do
      let s ← timeMarchR rnd E s
      stepsR n (stepTimeR rnd P s)

end
end Mpm

import Verif.Model.MPList

/-!
# Model of `MPM.py`: one time step, and the main loop
-/

namespace Mpm

section
variable {K : Type} [Field K] [LinearOrder K]

/-- The whole program state between steps. -/
structure St (P : Par K) where
  dyn : Dyn K
  L : List (PhaseSt K P.G.ns)
  G : Grid K P.G.N P.G.ns

variable [FloorRing K] (P : Par K) (interp : Interp K P.G.N)

/-- MPM.py:21, `P.update_forces()`. -/
def Dyn.updateForces (d : Dyn K) : Dyn K :=
  let (g, q_v, q_h) := P.forces d.t
  { d with g := g, q_v := q_v, q_h := q_h }

/-- MPM.py:20-29: from the wiped grid to nodal forces. -/
def gridPhase (s : St P) : Res (St P) := do
  let G := s.G.wipe                                                             -- 20
  let d := s.dyn.updateForces P                                                 -- 21
  let L ← updateForces P d.g s.L                                                -- 22
  let L ← getReferenceNodes P.G G L                                             -- 23
  let L ← getBasisFunctions G L                                                 -- 24
  let L ← whenSet P.check_positions (recoverPositions P.G.nx G) L               -- 25
  let G ← getNodalMassMomentum P P.G.s L G                                      -- 26
  let G := if P.B.cyclic_lr then G.makeCyclicMQ else G                          -- 27
  let (L, G) ← updateStressStrain P d P.G.s L G                                 -- 28
  let G ← getNodalForces P L G                                                  -- 29
  return { dyn := d, L := L, G := G }

/-- MPM.py:30-32 -/
def momentumPhase (s : St P) : Res (St P) := do
  let G ← s.G.BCs P.B s.dyn.q_v s.dyn.q_h (((mat0 s.L).map (·.rho)).getD 0)
    (P.aniso && decide (s.dyn.t = 0))                                           -- 30
  let G := G.updateMomentum P.B P.damping s.dyn.dt P.v_0                        -- 31
  let G := G.calcGammadot interp P.ops.big P.M_tol                              -- 32
  return { s with G := G }

/-- MPM.py:33-38.  `P.S[0].rho_s` exists as soon as there is a phase.  Zero user spacings would
make the increments non-finite. -/
def segregationPhase (s : St P) : Res (St P) :=
  if P.segregate_grid then do
    if P.G.dx = 0 ∨ P.G.dy = 0 then .error .nonFinite
    else
      let rho_s := ((mat0 s.L).map (·.rho_s)).getD 0
      let G := s.G.updatePk interp P.ops P.M_tol rho_s                          -- 34
      let G := { G with dphi := phiIncrement P s.dyn.dt rho_s P.G.s G }         -- 36
      let L ← moveGrainsize P G s.L                                             -- 37
      let G := G.makeCyclicVis [.eta]                                           -- 38
      return { s with L := L, G := G }
  else .ok s

/-- MPM.py:39-45 -/
def pointsPhase (s : St P) : Res (St P) := do
  let L ← movePoints P.G.nx P.M_tol s.dyn.dt P.intruder_v s.G s.L               -- 39
  let L ← whenSet P.B.outlet_left (outletLeft P.G) L                            -- 41
  let L ← whenSet P.B.outlet_bottom (outletBottom P.G) L                        -- 42
  let L ← whenSet P.B.inlet_right (inletRight P s.dyn) L                        -- 43
  let L ← whenSet P.B.inlet_top (inletTop P s.dyn) L                            -- 44
  let L ← whenSet P.B.cyclic_lr (cyclicLR P.G) L                                -- 45
  return { s with L := L }

/-- MPM.py:19-46, `time_march`. -/
def timeMarch (s : St P) : Res (St P) := do
  let s ← gridPhase P s
  let s ← momentumPhase P interp s
  let s ← segregationPhase P interp s
  pointsPhase P s

/-- Repeated time steps with static time stepping (MPM.py:62,63,90,91, without output). -/
def stepTime (s : St P) : St P :=
  { s with dyn := { s.dyn with t := s.dyn.t + s.dyn.dt, tstep := s.dyn.tstep + 1 } }

def steps : ℕ → St P → Res (St P)
  | 0, s => .ok s
  | n + 1, s => do
      let s ← timeMarch P interp s
      steps n (stepTime P s)

end
end Mpm

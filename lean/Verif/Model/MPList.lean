import Verif.Model.Constit
import Verif.Model.Integrators

/-!
# Model of `mplist.py`

`PhaseSt` pairs `P.S[p]` with `L.S[p]`; the whole of `L.S` is a list of these
(`P.phases = len(P.S)` never changes).
-/

namespace Mpm

/-- `for i in range(n): l[i] = f(l[i])`. -/
def mapN {α : Type} (f : α → Res α) : ℕ → List α → Res (List α)
  | 0, l => .ok l
  | _ + 1, [] => .error .index
  | n + 1, a :: l => do
      let a' ← f a
      let l' ← mapN f n l
      return a' :: l'

/-- `for i in range(n): s = f(l[i], s)`. -/
def foldN {α σ : Type} (f : α → σ → Res σ) : ℕ → List α → σ → Res σ
  | 0, _, s => .ok s
  | _ + 1, [], _ => .error .index
  | n + 1, a :: l, s => do
      let s' ← f a s
      foldN f n l s'

/-- `P.S[p]` and `L.S[p]`. -/
structure PhaseSt (K : Type) (ns : ℕ) where
  ph : Phase K ns
  pts : List (Particle K ns)

/-- `for p in range(P.phases)` over all phases, threading a state; `p` counts from `p0`. -/
def forPhases {K : Type} {ns : ℕ} {σ : Type}
    (f : ℕ → PhaseSt K ns → σ → Res (PhaseSt K ns × σ)) :
    ℕ → List (PhaseSt K ns) → σ → Res (List (PhaseSt K ns) × σ)
  | _, [], s => .ok ([], s)
  | p, a :: l, s => do
      let (a', s') ← f p a s
      let (l', s'') ← forPhases f (p + 1) l s'
      return (a' :: l', s'')

/-- The same without a state. -/
def mapPhases {K : Type} {ns : ℕ} (f : ℕ → PhaseSt K ns → Res (PhaseSt K ns)) :
    ℕ → List (PhaseSt K ns) → Res (List (PhaseSt K ns))
  | _, [] => .ok []
  | p, a :: l => do
      let a' ← f p a
      let l' ← mapPhases f (p + 1) l
      return a' :: l'

/-- The same without changing the points. -/
def foldPhases {K : Type} {ns : ℕ} {σ : Type} (f : PhaseSt K ns → σ → Res σ) :
    List (PhaseSt K ns) → σ → Res σ
  | [], s => .ok s
  | a :: l, s => do
      let s' ← f a s
      foldPhases f l s'

/-- Apply a function to every point of every phase. -/
def mapPoints {K : Type} {ns : ℕ} (f : ℕ → Phase K ns → Particle K ns → Res (Particle K ns))
    (L : List (PhaseSt K ns)) : Res (List (PhaseSt K ns)) :=
  mapPhases (fun p a => do
    let pts ← mapN (f p a.ph) a.ph.n a.pts
    return { a with pts := pts }) 0 L

section
variable {K : Type} [Field K] [LinearOrder K] {ns : ℕ}

/-- The deletion loop of both outlets: `for i in range(n-1,-1,-1): if test(l[i]): del l[i]; n -= 1`.
The first argument counts the iterations still to do. -/
def outletLoop {α : Type} (test : α → Bool) : ℕ → ℕ × List α → Res (ℕ × List α)
  | 0, s => .ok s
  | i + 1, (n, l) =>
      match l[i]? with
      | none => .error .index
      | some a => if test a then outletLoop test i (n - 1, l.eraseIdx i)
                  else outletLoop test i (n, l)

/-- mplist.py:28-39, `outlet_left`.  `linspace(n-1,0,n)` runs through `n-1,...,0`. -/
def outletLeft (P : GP K) (L : List (PhaseSt K ns)) : Res (List (PhaseSt K ns)) :=
  mapPhases (fun _ a => do
    let (n, l) ← outletLoop (fun mp : Particle K ns => decide (mp.x 0 < P.x_m + P.dx))
      a.ph.n (a.ph.n, a.pts)
    return { ph := { a.ph with n := n }, pts := l }) 0 L

/-- mplist.py:41-53, `outlet_bottom`. -/
def outletBottom (P : GP K) (L : List (PhaseSt K ns)) : Res (List (PhaseSt K ns)) :=
  mapPhases (fun _ a => do
    let (n, l) ← outletLoop (fun mp : Particle K ns => decide (mp.x 1 < P.y_m))
      a.ph.n (a.ph.n, a.pts)
    return { ph := { a.ph with n := n }, pts := l }) 0 L

/-- mplist.py:65,81: `P.t%P.S[p].inlet_rate < P.dt and P.t`. -/
def inletDue [FloorRing K] (d : Dyn K) (rate : K) : Res Bool :=
  if rate = 0 then .error .zeroDiv
  else .ok (decide (pyMod d.t rate < d.dt) && decide (d.t ≠ 0))

/-- Append one freshly constructed point and count it. -/
def appendPoint (P : Par K) (S0 : First K) (g x y : K) (a : PhaseSt K ns) :
    Res (PhaseSt K ns) := do
  let mp ← mkParticle P S0 a.ph g x y none
  return { ph := { a.ph with n := a.ph.n + 1 }, pts := a.pts ++ [mp] }

/-- `P.S[0]`; only used when there is a phase. -/
def first (L : List (PhaseSt K ns)) : First K :=
  match L with
  | [] => { law := .other, rho := 0 }
  | a :: _ => { law := a.ph.law, rho := a.ph.par.rho }

/-- mplist.py:55-69, `inlet_right`. -/
def inletRight [FloorRing K] (P : Par K) (d : Dyn K) (L : List (PhaseSt K ns)) :
    Res (List (PhaseSt K ns)) :=
  mapPhases (fun _ a => do
    if ← inletDue d a.ph.inlet_rate then
      a.ph.yp.foldlM (fun a y => appendPoint P (first L) d.g (P.G.x_M - a.ph.gap 0) y a) a
    else return a) 0 L

/-- mplist.py:71-85, `inlet_top`. -/
def inletTop [FloorRing K] (P : Par K) (d : Dyn K) (L : List (PhaseSt K ns)) :
    Res (List (PhaseSt K ns)) :=
  mapPhases (fun _ a => do
    if ← inletDue d a.ph.inlet_rate then
      appendPoint P (first L) d.g ((P.G.x_M - P.G.x_m) / 2) (P.G.y_M - a.ph.gap 1) a
    else return a) 0 L

/-- mplist.py:96-99 for one coordinate. -/
def wrapX (P : GP K) (x : K) : K :=
  let x := if x < P.x_m then x + (P.x_M - P.x_m) else x
  if P.x_M < x then x - (P.x_M - P.x_m) else x

/-- mplist.py:87-99, `cyclic_lr`. -/
def cyclicLR (P : GP K) (L : List (PhaseSt K ns)) : Res (List (PhaseSt K ns)) :=
  mapPoints (fun _ _ mp => .ok { mp with x := Function.update mp.x 0 (wrapX P (mp.x 0)) }) L

/-- mplist.py:101-110. -/
def getReferenceNodes [FloorRing K] {N : ℕ} (P : GP K) (G : Grid K N ns)
    (L : List (PhaseSt K ns)) : Res (List (PhaseSt K ns)) :=
  mapPoints (fun _ _ mp => mp.getReferenceNode P G.dx G.dy) L

/-- mplist.py:112-121. -/
def getBasisFunctions {N : ℕ} (G : Grid K N ns) (L : List (PhaseSt K ns)) :
    Res (List (PhaseSt K ns)) :=
  mapPoints (fun _ _ mp => mp.getBasisFunctions G) L

/-- mplist.py:130-132: the mapping of all points, before fractions and boundaries. -/
def p2gAll {N : ℕ} (nx : ℕ) (seg : Bool) (L : List (PhaseSt K ns)) (G : Grid K N ns) :
    Res (Grid K N ns) :=
  foldPhases (fun a G => foldN (fun mp G => mp.p2g nx seg (mp.v.get a.ph.iv) G) a.ph.n a.pts G)
    L G

/-- mplist.py:133-140.  The assignment inside the phase loop is overwritten by later phases and, with
no phases at all, `nan_to_num(0)` is what `nan_to_num(0/0)` is, so it is done once. -/
def Grid.nodalFractions {N : ℕ} (big : K) (s : Fin ns → K) (G : Grid K N ns) : Grid K N ns :=
  let phi : Fin N → Fin ns → K := fun n j =>
    (.fin (G.phim n j) / .fin (G.m n) : XF K).nanToNum big
  { G with
    phi := phi
    s_bar := fun n => ∑ j, s j * phi n j
    pk := fun n => .fin (G.pkm n) / .fin (G.m n) }

/-- mplist.py:147-151. -/
def Grid.zeroBoundaryMomentum {N : ℕ} (rough : Bool) (G : Grid K N ns) : Grid K N ns :=
  let q : Fin N → Vec K := fun n =>
    ![maskOff (G.q n 0) (G.boundary_v n), maskOff (G.q n 1) (G.boundary_h n), G.q n 2]
  let q : Fin N → Vec K := if rough then fun n =>
      ![maskOff (q n 0) (G.boundary_h n), maskOff (q n 1) (G.boundary_v n), q n 2]
    else q
  { G with q := q }

/-- mplist.py:123-151, `get_nodal_mass_momentum`. -/
def getNodalMassMomentum {N : ℕ} (P : Par K) (s : Fin ns → K) (L : List (PhaseSt K ns))
    (G : Grid K N ns) : Res (Grid K N ns) := do
  let G ← p2gAll P.G.nx P.segregate_grid L G
  let G := if P.segregate_grid then G.nodalFractions P.ops.big s else G
  return G.zeroBoundaryMomentum P.B.roughness

/-- What the law of a point of phase `p` reads. -/
def lawCtx (P : Par K) (d : Dyn K) (s : Fin ns → K) (mat0 : Mat0 K) (p : ℕ)
    (ph : Phase K ns) : LawCtx K ns :=
  { ops := P.ops, mat := ph.par, mat0 := mat0, p := p, t := d.t, dt := d.dt, s := s
    max_g := P.max_g, height := P.G.y_M - P.G.y_m }

/-- `P.S[0]`'s material parameters; only used when there is a point, hence a phase. -/
def mat0 (L : List (PhaseSt K ns)) : Option (Mat0 K) :=
  match L with
  | [] => none
  | a :: _ => some a.ph.par

/-- mplist.py:160-163 for one point: strain, then stress. -/
def Particle.stressStrain {N : ℕ} (nx : ℕ) (M_tol : K) (G : Grid K N ns) (law : Law)
    (c : LawCtx K ns) (mp : Particle K ns) (vis : Vis → Fin N → XF K) :
    Res (Particle K ns × (Vis → Fin N → XF K)) := do
  let mp ← mp.updateStrain nx M_tol c.dt G
  mp.updateStress nx law c vis

/-- mplist.py:164: the fields made cyclic after the stress update. -/
def cyclicVis : List Vis :=
  [.pressure, .gammadot, .dev_stress, .yieldfunction, .mu_s, .mu, .I]

/-- mplist.py:153-164, `update_stress_strain`. -/
def updateStressStrain {nx ny : ℕ} (P : Par K) (d : Dyn K) (s : Fin ns → K)
    (L : List (PhaseSt K ns)) (G : Grid K (ny * nx) ns) :
    Res (List (PhaseSt K ns) × Grid K (ny * nx) ns) := do
  let (L', vis) ← forPhases (fun p a vis => do
    let (pts, vis) ← forN (fun (mp : Particle K ns) vis =>
      mp.stressStrain nx P.M_tol G a.ph.law
        (lawCtx P d s ((mat0 L).getD a.ph.par) p a.ph) vis) a.ph.n a.pts vis
    return ({ a with pts := pts }, vis)) 0 L G.vis
  let G := { G with vis := vis }
  return (L', if P.B.cyclic_lr then G.makeCyclicVis cyclicVis else G)

/-- mplist.py:173-175. -/
def nodalForcesAll {N : ℕ} (nx : ℕ) (L : List (PhaseSt K ns)) (G : Grid K N ns) :
    Res (Grid K N ns) :=
  foldPhases (fun a G => foldN (fun mp G => mp.nodalForces nx G) a.ph.n a.pts G) L G

/-- mplist.py:166-176, `get_nodal_forces`. -/
def getNodalForces {nx ny : ℕ} (P : Par K) (L : List (PhaseSt K ns))
    (G : Grid K (ny * nx) ns) : Res (Grid K (ny * nx) ns) := do
  let G ← nodalForcesAll nx L G
  return if P.B.cyclic_lr then G.makeCyclicForces else G

/-- mplist.py:178-191, `move_material_points`. -/
def movePoints {N : ℕ} (nx : ℕ) (M_tol dt : K) (intruder_v : Vec K) (G : Grid K N ns)
    (L : List (PhaseSt K ns)) : Res (List (PhaseSt K ns)) :=
  mapPhases (fun _ a => do
    if a.ph.law = .rigid then
      let pts ← mapN (fun mp => .ok (mp.moveRigid dt intruder_v)) a.ph.n a.pts
      return { a with pts := pts }
    else
      let (pts, iv) ← forN (fun mp iv => mp.move nx M_tol dt G iv) a.ph.n a.pts a.ph.iv
      return { ph := { a.ph with iv := iv }, pts := pts }) 0 L

/-- mplist.py:193-202, `update_forces`. -/
def updateForces (P : Par K) (g : K) (L : List (PhaseSt K ns)) : Res (List (PhaseSt K ns)) :=
  mapPoints (fun p _ mp => .ok (mp.incrementGravity P g p)) L

/-- mplist.py:254-265, `recover_position` for one point: if the recovered position is off by more
than 1e-10 the message construction adds a string and an array, a TypeError. -/
def Particle.checkPosition {N : ℕ} (nx : ℕ) (G : Grid K N ns) (mp : Particle K ns) :
    Res (Particle K ns) := do
  let x ← mp.recoverPosition nx G
  if ∃ k, (1 / 10 ^ 10 : K) < |x k - mp.x k| then .error .type else return mp

/-- mplist.py:247-265, `recover_position`. -/
def recoverPositions {N : ℕ} (nx : ℕ) (G : Grid K N ns) (L : List (PhaseSt K ns)) :
    Res (List (PhaseSt K ns)) :=
  mapPoints (fun _ _ mp => mp.checkPosition nx G) L

/-- mplist.py:305-307: clip the fractions to [0,1] and divide by their sum. -/
def normalisePhi (phi : Fin ns → K) : Res (Fin ns → K) :=
  let phi : Fin ns → K := fun j => if phi j < 0 then 0 else phi j
  let phi : Fin ns → K := fun j => if 1 < phi j then 1 else phi j
  if (∑ j, phi j) = 0 then .error .nonFinite
  else .ok fun j => phi j / ∑ j, phi j

/-- mplist.py:291-307, `move_grainsize_on_grid`. -/
def moveGrainsize {N : ℕ} (P : Par K) (G : Grid K N ns) (L : List (PhaseSt K ns)) :
    Res (List (PhaseSt K ns)) := do
  let L ← mapPoints (fun _ _ mp => mp.mapPhi P.G.nx P.M_tol G) L
  if P.normalise_phi then
    mapPoints (fun _ _ mp => do
      let phi ← normalisePhi mp.phi
      return { mp with phi := phi }) L
  else return L

/-- mplist.py:19-26, the constructor, for one phase: positions, and fractions if
`heterogeneous`.  Indexing past the end of `X`, `Y`, `PHI` raises IndexError. -/
def mkPoints (P : Par K) (S0 : First K) (ph : Phase K ns) (g : K) (X Y : List K)
    (PHI : Option (List (Fin ns → K))) : ℕ → Res (List (Particle K ns))
  | 0 => .ok []
  | i + 1 => do
      let l ← mkPoints P S0 ph g X Y PHI i
      match X[i]?, Y[i]? with
      | some x, some y =>
          match PHI with
          | none => do
              let mp ← mkParticle P S0 ph g x y none
              return l ++ [mp]
          | some F => match F[i]? with
              | none => .error .index
              | some f => do
                  let mp ← mkParticle P S0 ph g x y (some f)
                  return l ++ [mp]
      | _, _ => .error .index

/-- `P.S[p].X`, `.Y`, `.heterogeneous`, `.PHI`: what the constructor reads besides the phase. -/
structure PhaseInit (K : Type) (ns : ℕ) where
  X : List K
  Y : List K
  heterogeneous : Bool
  PHI : List (Fin ns → K)

/-- mplist.py:19-26 over all phases; `g` is `P.g` at that time. -/
def mkList (P : Par K) (g : K) (S : List (Phase K ns × PhaseInit K ns)) :
    Res (List (PhaseSt K ns)) :=
  let S0 : First K := match S with
    | [] => { law := .other, rho := 0 }
    | a :: _ => { law := a.1.law, rho := a.1.par.rho }
  S.mapM fun a => do
    let l ← mkPoints P S0 a.1 g a.2.X a.2.Y
      (if a.2.heterogeneous then some a.2.PHI else none) a.1.n
    return { ph := a.1, pts := l }

end
end Mpm

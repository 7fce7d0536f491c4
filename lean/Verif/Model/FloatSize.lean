import Verif.Model.FloatYield

/-!
# The bookkeeping of grain sizes with rounding

Nodal fractions, mapping of the increments back to the points, clipping and normalisation, every operation
rounded by `rnd`, sums from left to right (numpy adds fewer than eight numbers in this order).
Simplification: the increments on the grid are those of the scheme of `Model/FloatSeg.lean` plus diffusion,
whose gradients go through astropy; here they are a parameter, so that what is proved holds for any.
-/

namespace Mpm
section
variable {K : Type} [Field K] [LinearOrder K] {ns : ℕ} (rnd : K → K)

/-- numpy `sum` of `n` numbers. -/
def sumR {n : ℕ} (f : Fin n → K) : K := Fin.foldl n (fun a i => rnd (a + f i)) 0

/-- mplist.py:133-140; see `Grid.nodalFractions`. -/
def Grid.nodalFractionsR {N : ℕ} (big : K) (s : Fin ns → K) (G : Grid K N ns) : Grid K N ns :=
  let phi : Fin N → Fin ns → K := fun n j =>
    ((.fin (G.phim n j) / .fin (G.m n) : XF K).rd rnd).nanToNum big
  { G with
    phi := phi
    s_bar := fun n => sumR rnd fun j => rnd (s j * phi n j)
    pk := fun n => (.fin (G.pkm n) / .fin (G.m n) : XF K).rd rnd }

/-- particle.py:247-258, `map_phi_to_mp`. -/
def Particle.mapPhiR {N : ℕ} (nx : ℕ) (M_tol : K) (G : Grid K N ns) (mp : Particle K ns) :
    Res (Particle K ns) :=
  for4 (fun r (mp : Particle K ns) => do
    let n ← mp.node nx N r
    if M_tol < G.m n then
      return { mp with
        phi := fun j => rnd (mp.phi j + rnd (mp.N r * G.dphi n j))
        pk := rnd (mp.pk + rnd (mp.N r * G.dpk n)) }
    else return mp) mp

/-- mplist.py:305-307. -/
def normalisePhiR (phi : Fin ns → K) : Res (Fin ns → K) :=
  let phi : Fin ns → K := fun j => if phi j < 0 then 0 else phi j
  let phi : Fin ns → K := fun j => if 1 < phi j then 1 else phi j
  if sumR rnd phi = 0 then .error .nonFinite
  else .ok fun j => rnd (phi j / sumR rnd phi)

/-- mplist.py:291-307, `move_grainsize_on_grid`. -/
def moveGrainsizeR {N : ℕ} (P : Par K) (G : Grid K N ns) (L : List (PhaseSt K ns)) :
    Res (List (PhaseSt K ns)) := do
  let L ← mapPoints (fun _ _ mp => mp.mapPhiR rnd P.G.nx P.M_tol G) L
  if P.normalise_phi then
    mapPoints (fun _ _ mp => do
      let phi ← normalisePhiR rnd mp.phi
      return { mp with phi := phi }) L
  else return L

/-- As `Besides.all`, with segregation (MPM.py:33-38): `inc` are the increments of the fractions and of the
kinetic pressure on the grid, or a failure on the way to them. -/
def Besides.sorting [FloorRing K] (P : Par K)
    (inc : St P → Res ((Fin P.G.N → Fin P.G.ns → K) × (Fin P.G.N → K))) : Besides P :=
  { Besides.all rnd P with
    fractions := fun G =>
      let H := G.nodalFractionsR rnd P.ops.big P.G.s
      (H.phi, H.s_bar, H.pk)
    late := fun s =>
      if P.segregate_grid then do
        let (dphi, dpk) ← inc s
        let G := { s.G with dphi := dphi, dpk := dpk }
        let L ← moveGrainsizeR rnd P G s.L
        .ok { s with L := L, G := G }
      else .ok s }

end
end Mpm

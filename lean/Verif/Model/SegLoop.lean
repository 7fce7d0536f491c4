import Verif.Model.Loop

/-!
# Model of `integrators.py` run as a program

`python integrators.py` sets up a simulation, does one time step of it and then only lets the grain
sizes segregate on the grid, with all other fields frozen.
-/

namespace Mpm

section
variable {K : Type} [Field K] [LinearOrder K]

/-- What the loop of integrators.py:312-322 changes.  `drawn` records the calls of
`draw_gsd_grid`: the number in the file name, and the fractions and mean sizes shown. -/
structure SegSt (K : Type) (N ns : ℕ) where
  G : Grid K N ns
  t : K
  tstep : ℕ
  grid_save : ℤ
  drawn : List (ℤ × (Fin N → Fin ns → K) × (Fin N → K))

variable {nx ny ns : ℕ}

/-- integrators.py:280-283, `increment_grainsize`. -/
def rawIncrement (P : Par K) (dt rho_s : K) (s : Fin ns → K) (G : Grid K (ny * nx) ns)
    (n : Fin (ny * nx)) (j : Fin ns) : XF K :=
  (ktX P dt s G n j + ktY P dt s G n j) + diffusionInc P dt rho_s G n j

/-- integrators.py:314,315: mean sizes. -/
def meanSizes {N : ℕ} (s : Fin ns → K) (phi : Fin N → Fin ns → K) (n : Fin N) : K :=
  Fin.foldl ns (fun acc i => acc + phi n i * s i) 0

/-- integrators.py:313-322, one pass.  Here the increment is not passed through `nan_to_num`; a
fraction that is not a finite number is an error of the model, Python goes on with it. -/
def segStep (P : Par K) (dt rho_s : K) (s : Fin ns → K) (a : SegSt K (ny * nx) ns) :
    Res (SegSt K (ny * nx) ns) :=
  if ∀ n j, (rawIncrement P dt rho_s s a.G n j).isFinite = true then
    let phi := fun n j => a.G.phi n j + (rawIncrement P dt rho_s s a.G n j).nanToNum 0   -- 313
    let s_bar := meanSizes s phi                                                         -- 314,315
    let G := { a.G with phi := phi, s_bar := s_bar }
    let tstep := a.tstep + 1                                                             -- 318
    if tstep % 1000 = 0 then                                                             -- 319
      .ok { G := G, t := a.t + dt, tstep := tstep, grid_save := a.grid_save + 1
            drawn := a.drawn ++ [(a.grid_save + 1, phi, s_bar)] }
    else .ok { a with G := G, t := a.t + dt, tstep := tstep }
  else .error .nonFinite

/-- integrators.py:312-322, cut off after `fuel` tests of the loop condition (`none`). -/
def segLoop (P : Par K) (dt rho_s t_f : K) (s : Fin ns → K) :
    ℕ → SegSt K (ny * nx) ns → Option (Res (SegSt K (ny * nx) ns))
  | 0, _ => none
  | fuel + 1, a =>
    if a.t ≤ t_f then
      match segStep P dt rho_s s a with
      | .error e => some (.error e)
      | .ok b => segLoop P dt rho_s t_f s fuel b
    else some (.ok a)

/-- integrators.py:308-310: the constants that are set before the loop. -/
def segPar (P : Par K) : Par K := { P with l := 1 / 500, c := 1 / 1000 }

variable [FloorRing K]

/-- integrators.py:304-322 after `get_parameters`: one time step, a new time step size, the loop. -/
def segMain (P : Par K) (interp : Interp K P.G.N) (A : LoopPar K) (fuel : ℕ) (s : St P)
    (grid_save : ℤ) : Option (Res (SegSt K (P.G.ny * P.G.nx) P.G.ns)) :=
  match timeMarch P interp s with                                                        -- 306
  | .error e => some (.error e)
  | .ok s =>
    match (if A.dynamic then defaultTimestep P A s.G else .fin s.dyn.dt) with            -- 307
    | .fin dt =>
      segLoop (segPar P) dt (((mat0 s.L).map (·.rho_s)).getD 0) (1 / 2) P.G.s fuel
        { G := s.G, t := s.dyn.t, tstep := s.dyn.tstep, grid_save := grid_save, drawn := [] }
    | _ => some (.error .nonFinite)

end
end Mpm

# poly-mpm: formal model in Lean 4 — design

## What is being verified

`/repo` is a two-dimensional material point method (MPM) code: material points
carry mass, velocity, stress and grain-size fractions; every time step maps them
to a regular grid, solves momentum on the grid, and maps back.  The model follows
the Python function by function; the properties are listed in `properties.jsonl`
and each has at least one theorem (`MANIFEST.json`).

## Trusted base

* **Lean 4.33.0's kernel and Mathlib's definitions** (`Field`, `Finset.sum`,
  `Matrix`, `Real.sqrt`, ...).  No axioms of our own, no `sorry`, no `native_decide`,
  no `bv_decide`.  Axioms per theorem: see "Axioms" below.
* **The reading of the Python source.**  Nothing is extracted or executed; every
  definition cites the lines it models, and the table at the end lists them.
* **Numbers.**  Floating point is modelled by exact arithmetic in an arbitrary
  linearly ordered field `K` (so `ℚ` and `ℝ` at once).  Rounding is
  modelled for the clock of the main loop (`Model/Float.lean`, C136), for the mapping of the points to
  the grid (`Model/FloatMap.lean`, C137), for the rest of the time step apart from the laws, the
  segregation and the constructor (`Model/FloatStep.lean`, C138), and for the laws rigid, elastic,
  elastic_time, viscous, pouliquen, linear_mu and ken_simple and the unstressed constructor (`Model/FloatLaw.lean`, C139, C144),
  for the segregation scheme `KT` on given fields (`Model/FloatSeg.lean`, C145) and for the laws von_mises,
  bingham and ken_kamrin (`Model/FloatYield.lean`, C146, C148), for dp_rate, so that whole time steps have
  every law (`Model/FloatDp.lean`, C150), for the whole constructor of points (`Model/FloatInit.lean`, C151), and for the fractions on nodes and points
  (`Model/FloatSize.lean`, C149; the increments on the grid are a parameter there), all of them in one step in `Model/FloatWhole.lean` (C152).  The loads of `update_forces` are a function of time that theorems leave free, so it may be the rounded ramp of
  `Model/FloatForces.lean` (C153).  Nodal gradients and the nodal shear rate with rounding are `Model/FloatGradient.lean`
  (C154), and with the diffusion of sizes (`Model/FloatDiffusion.lean`, C155) they give the rounded increments `schemeIncR` for that step.  These have exponents
  without bounds; underflow and overflow of a single operation, and underflow in whole runs, are C142
  (`Model/FloatRange.lean`).  Overflow within time steps and signed zeros are *not* modelled.  Where the code's behaviour depends on
  IEEE specials (`nan_to_num`, `isfinite`, division by zero under
  `seterr(all='ignore')`) values live in the extended type `XF K`
  (`fin x | pinf | ninf | nan`) with IEEE rules for specials.  Where the model
  only carries finite numbers and the code would go on with `nan`/`inf`, the
  model stops with `Err.nonFinite`; theorems about successful steps are then
  about runs whose numbers stay finite in those places.
* **Transcendental functions** (`sqrt`, powers, `log`, `sin`, `arctan`) enter the
  generic model as parameters (`Ops`, `Trig`).  Theorems that need anything about them
  assume `Spec.GoodOps` (a non-negative square root, `1**y = 1`, a positive
  largest number), which the real functions satisfy (`realOps_good`), or are
  stated over `ℝ` with Mathlib's functions.
* **Python indexing** is modelled exactly: negative indices wrap, indices out of
  range raise `IndexError` (`pyIdx`), slices follow Python's clamping rules
  (`inSlice`, `setSlice`).
* **Exceptions** are values (`Res = Except Err`).  A theorem with hypothesis
  `timeMarch … = .ok s'` is about steps that raise nothing; existence of such
  steps is proved separately (`timeMarch_exists`, C04) and shown by examples.
* **Aliasing.**  Two aliasing effects in the code are observable and modelled:
  `self.L = self.L_T = zeros((3,3))` (C32) and the shared `initial_v` array (C58).
* **User code.**  Hooks (`P.O.*`), `P.update_forces`, the interpolation of
  `astropy` and user-defined `update_timestep` functions are parameters of the model:
  theorems hold for all of them, or state what they assume.  In most theorems `theta` and `intruder_v`
  are constant; `timeMarchV`/`stepsV` (C104, C105) are steps and runs in which `update_forces` changes them.
* **Masked arrays.**  `calculate_gradient` differentiates a `numpy.ma` array.  Read from the sources of
  numpy 1.22 (the version in requirements.txt): `nan_to_num` changes the data below the mask and keeps the mask; in a
  masked difference `f[hi] - f[lo]` the data is `f[hi]` where either operand is masked, and a masked quotient keeps the
  data of its numerator; `array([...])` of the result drops the mask.  That is `maGradient`.
  astropy 5.3.3 returns a copy of the array, mask included, if no entry that is not masked is NaN: `Spec.Copies`,
  a hypothesis of C130.  Other theorems hold for any interpolation or name what they need of it.

## What is modelled and what is not

| file | modelled | not modelled |
|------|----------|--------------|
| `MPM.py` | `time_march` (19-46), `main` (57-101): order of calls, hooks, save test, time counters | progress printing, command line, reading the input file |
| `initialise.py` | `get_parameters` (7-127): all defaults, computed values, default `update_timestep` | creating the directories on disk |
| `grid.py` | grid tables, boundary masks, `wipe`, `nearby_nodes`, `N`/`G`, `make_cyclic`, `BCs`, `update_momentum`, `calculate_gammadot`/`grad_gammadot`/`update_pk` | see the model comments for the branches marked `unmodelled` |
| `particle.py` | constructor (all pressure/flow modes), strain, stress, mapping, moves, `recover_position`, forces, gravity, `map_phi_to_mp`, energy | commented-out code; the unused `update_nodal_gsd`, `map_gsd_to_mp` |
| `mplist.py` | list construction, inlets, outlets, cyclic wrap, all loops over the points, `move_grainsize_on_grid`, `update_timestep`, `measure_elastic_energy` | commented-out code |
| `constit.py` | `rigid`, `elastic`, `elastic_time`, `von_mises`, `dp`, `dp_rate`, `viscous`, `bingham`, `ken_kamrin`, `pouliquen`, `linear_mu`, `ken_simple` | `viscous_size` and `pouliquen2D` only as the `NameError` they raise |
| `integrators.py` | limiters, `div0`, `KT` in both directions, boundary conditions, fluxes, diffusion, `increment_grainsize`; in `Model/NT.lean` the unused `NT` scheme and `normalise_phi_increment`; in `Model/SegLoop.lean` the stand-alone program | the debugging figure in `flux` |
| `new_integrator.py` | `KT`, `Euler`, `RK3`, `RK4`, `diffusion`, padding, on one line of nodes; the unused limiters | plotting, `main` |
| `plotting.py` | file names and counters; the numbers shown in the continuum and size figures, grid markers, wedges, and saved arrays (`Model/Figures.lean`); the numbers in the figures of points and energies (`Model/Scatter.lean`) | colours, axes, sizes |
| `inputs/*.py` | the loops that place points, the areas per point, size classes and gradings (`Model/Inputs.lean`), `update_forces` (`Model/Forces.lean`), slope layout and critical times (`Model/Slope.lean`), rings, cut corners, piles and drums (`Model/Round.lean`), the hooks and what they write (`Model/Shipped.lean`); other parameters are quantified over | `avalanche.py`'s hook (a syntax error) |

The exact lines behind each definition are in the last table.

## Layout

```
lean/Verif/Py.lean            Python/numpy semantics (indexing, slices, XF numbers)
lean/Verif/Model/*.lean       the model, one file per Python module or part
lean/Verif/Spec.lean          small independent specification vocabulary (more in Props/*, namespace Mpm.Spec)
lean/Verif/Lemmas/*.lean      helper lemmas
lean/Verif/Props/*.lean       the property theorems (named c01_..., c02_..., ...)
lean/Verif/Examples.lean, ExRun.lean   concrete objects and runs for the non-vacuity examples
seeded/LOG.jsonl              mutation log: wrong models and the theorems that catch them
```

## How the properties are proved

* **Mapping (C01–C08).**  Floor arithmetic for the reference node; the loops over the
  points are brought to closed form (`p2gAll_ok`: a fold of `p2gClosed`), and sums over
  nodes are exchanged with sums over points.
* **Strain and motion (C09–C15, C32).**  Closed form of the 4-node loops, partition of
  unity, convexity.
* **Boundaries (C16–C22).**  Membership in Python slices, pointwise case analysis.
* **Lists and histories (C23–C31, C42, C57, C58, C60).**  A time step is decomposed by
  `timeMarch_ok`; a relation between the points before and after (`PtsRel`, `Turnover`,
  `Evolved`/`Fresh`) is propagated over any number of steps by induction
  (`steps_inv`, `steps_descend`, `steps_closed`).
* **Constitutive laws (C33–C43).**  Algebra in the generic field, `XF` case analysis
  where the code divides by zero.
* **Segregation (C44–C49).**  Sign cases for limiters, telescoping sums for fluxes.
* **Main loop (C50–C53).**  The loop is a function with fuel; every theorem is about
  all fuels or about all runs that end; floor arithmetic for the save schedule.
* **Parameters, refinement, files, energy (C54–C56, C59).**  Attribute records with
  set-if-absent, histories of calls, injectivity of `zfill`, real trigonometry.
* **Whole-step symmetries (C93–C96), free fall and energy (C109, C110).**  Each function of the step is shown to commute with the transformation
  (translation, permutation of points, common velocity), and the statements are composed along `timeMarch`.
* **Input files (C97–C108).**  Layouts are rewritten as the midpoints of equal parts of cells, and sums of tent weights over
  them are evaluated; loads and angles are elementary real analysis plus induction over runs.

## Findings

Where the code does not do what its documentation or a reader would expect, the property states
what is true and the theorem proves that.  The main ones:

* **Rate of deformation is doubled in the stored velocity gradient (C32).**
  `self.L = self.L_T = zeros((3,3))` makes both names one array, so `L` ends up as twice the
  symmetric part.  The stress stored by `viscous` is affected (C36).
* **Shared initial velocity (C58).**  `self.v = P.S[p].initial_v` stores a reference, and `+=`
  updates it in place: all points of the phase share one velocity, which grows with the number of points.
* **Out-of-plane motion (C30).**  `pressure = 'non-zero'` starts with a strain of `-1e-15*ones`,
  whose out-of-plane components produce out-of-plane motion for the laws that use it.
* **Reference node (C04).**  `int(trunc(...))` rounds towards zero, so points up to one cell outside on
  the left or bottom are accepted with a negative weight; a point at the right edge is mapped into the next row,
  at the top `IndexError`.  `cyclic_lr` leaves a point exactly at `x_M`.
* **Weight zero, gradient not zero.**  A point on a cell edge gives zero mass but non-zero internal force
  to the far nodes; if nothing else gives them mass that force is dropped and momentum is lost (C60's hypothesis
  that touched nodes stay above `M_tol` is necessary).
* **silo_bottom (C17)** marks every node above the bottom row as well for `nx ≥ 5`; `box` uses `ny` as row stride.
* **wall_mu (C20)**: a chained assignment overwrites all four edges' friction for good; node 1 never feels friction.
* **make_cyclic (C22)** is not idempotent, and `nx = 1` triples; with `segregate_grid` it is applied to `eta`
  even without `cyclic_lr`.
* **Inlets and outlets (C24–C26).**  `inlet_top` places points at `(x_M - x_m)/2`, not at the centre;
  `outlet_left` uses `x_m + dx`; `inlet_rate = 0` raises `ZeroDivisionError`.
* **Gravity (C57)** follows `P.g` for phase 0 only.
* **Save schedule (C52).**  The first step is saved (`t = 0`); `P.t != P.dt` skips the second step and
  matters only when `dt ≥ savetime`.  With dynamic time stepping the test uses the next `dt`, so a whole save window can pass
  unsaved (`c52_dynamic_gap`).
* **Time step (C53).**  At rest and without `critical_time` the default time step becomes infinite.
* **Yield refinement (C55)** repeats at each later call, and raises `AttributeError` unless the input defines `P.q`.
* **save_u (C56)** numbers its files with the figure counter and overwrites unless `draw_continuum` is called in between.
* **Energy (C59).**  The height is `|x| sin θ + |y| cos θ`: points with negative coordinates count as above; a point at
  the origin makes the total NaN.
* **Constitutive laws.**  `dp` always raises `AttributeError` (C43); `von_mises` unloading in the opposite direction has
  twice the elastic stiffness (C35); `elastic_time` multiplies mass by 0.95 in each step after `t_0` (C42); `linear_mu` gives NaN at zero pressure
  while `pouliquen` is protected by `nan_to_num` (C38, C40); `ken_kamrin` (C41) has negative viscosity when `max_g < 0`; `ken_simple` never
  updates its shear rate and gives zero stress for `rho ≤ 2500`.
* **Segregation (C45–C47).**  The scheme conserves the sum of fractions over the grid, not mass times fraction;
  there is no flux through the ends even with `cyclic_lr`; the increments of all sizes at one node do not sum to zero (witness in
  Props/Segregation), so fractions stop summing to one unless `normalise_phi` is set.
* **recover_position** raises `TypeError` when its diagnostic fires (it adds an array to a string).
- **Obstacles and boundary options.** The `box` option computes node numbers with `ny` where the row length `nx` is needed, so on a
  grid that is not square the box is misplaced (C61, `c61_box_not_square`). The `conveyor` option overwrites the nodal momentum after
  the momentum rate has been computed; material points take their acceleration from the rate, so the belt displaces the points above
  it without changing their velocity (C63, `c63_no_drag`).
- **Initial profiles.** The steady viscous, Bagnold and Poiseuille profiles use `y` where the height above the bottom `y - y_m` is
  meant, so they are profiles with the wall at height 0; with `y_m != 0` the material starts sliding along the bottom (C65,
  `c65_slip`). The slope profiles take `y_M` for the free surface and ignore `top_gap`, which the lithostatic stress respects; C66
  (friction coefficient equals the slope) is proved without a gap. The Bagnold profile uses `mu_0` and `I_0` as numbers while the
  `pouliquen` law indexes them as arrays, so the combination `initial_flow = 'steady'` with that law needs a mixture that is not
  modelled.
- **Advection scheme.** In `KT` the limited slopes have the wrong sign (`cpr = C[j-1] - cx dx/2`, `cpl = C[j] + cx dx/2`), so the
  values at a face lie outside the interval between its two neighbours; the dissipation is at least that of the first-order scheme and
  up to three times as large (C69, `c69_diffusive`). The scheme remains conservative (C45) and sign-preserving under a Courant
  condition (C68).
- **Diffusion of grain sizes.** The increment is the second derivative of `D phi` (not the divergence of `D grad phi`), taken as a
  central difference of a central difference. It keeps the volume-weighted total of a size in a walled box, whereas advection keeps
  the unweighted one, so the sum of both keeps neither (C72). Fractions stop adding up to one where the diffusivity varies; alternating
  fields do not diffuse; and `0/0` at an empty node turns the whole increment (advection included) of the nodes two away into
  NaN, which `nan_to_num` makes zero, so grains of a size are lost next to a free surface (C73).
- **Nodal shear rate.** `G.gammadot` is `du/dy + dv/dx`, so pure stretching has no shear rate and drives no segregation (C71).
- **new_integrator.py.** The face between two nodes is given two different velocities, so the scheme is only conservative if all
  velocities are equal (C74); concentrations can exceed one next to a wall (C75); the ends are open for diffusion although the
  lines that would close them are there, commented out (C76).
* **Nodal pressure (C77, C78)** is the mass-weighted mean of the point pressures, but the laws do not agree on its sign: `elastic`,
  `von_mises` and the fluids count compression negative, `elastic_time` counts it positive, and `dp_rate` stores one sign on the
  point and adds the other to the grid. Two laws sharing a cell cancel in `G.pressure`, and with it in the segregation drive.
  Rigid points add mass but no pressure.
* **Empty nodes (C79)** freeze the grain sizes of the nodes two away in every step, not only for hand-made grids.
* **Energy (C80-C82).** Internal forces and strain increments use the same weights, nodes and nodal velocities, so the work of the
  internal forces is exactly the stress work; the mapping to the nodes keeps linear and angular momentum and never creates kinetic
  energy, but loses some whenever neighbouring points move differently. These are positive results about the core of the scheme; they
  stop holding for `cyclic_lr`, where forces are copied between the two edges.
* **dp_rate (C83)** contains no step size: its plastic increment is applied once per step whatever `P.dt` is, so `t_star` counts steps
  rather than time, halving the step doubles the relaxation per unit of time, and for a stiff material (3G(q - mu p) > 2 q p t_star)
  the shear stress of a resting point grows in every step.
* **ken_simple (C84)** never sets `MP.gammadot`, which starts as 0, so its viscosity is `eta_max` under pressure and 0 without, and
  `mu_0` has no effect.
* **NaN at nodes (C85).** A point of `pouliquen` with zero pressure that does not shear (every point at the first step of a run without
  initial stress) has a NaN friction coefficient, which spreads to the fields `mu`, `I`, `eta` of all four nodes, even those where it has
  no weight. The fields are for output only; stresses stay finite.
* **Dead code.** The laws add to `G.gammadot` (ken_kamrin even divides its rate by the step size a second time) but `calculate_gammadot`
  overwrites the field before anything reads it. The laws disagree by a factor of the square root of 2 in `G.dev_stress`
  (`pouliquen`, `linear_mu` and `ken_simple` divide by it), an output field.
* **The unused NT scheme (C86-C88)** has open ends, smears the fractions by the same amount in every step whatever the step size,
  and keeps the sum of the fractions of a node for two sizes only.
* **Sum of fractions (C89).** The KT scheme in use does not keep the sum of the fractions of a node at one once the mixture is not
  uniform; `normalise_phi` repairs it at the points, at the price of conservation.
* **normalise_phi_increment (C90)**, unused, can return fractions above one.
* **Plotting (C91).** `dx_plot` is not the spacing of `x_plot` at the two ends.
* **Absolute positions (C93).**  The simulation does not depend on where the domain lies, with two
  exceptions: `inlet_top` (x) and the steady initial profiles (y) measure from the origin.
* **Periodic edges (C94).** Mass, momentum, forces and pressure are summed over the two copies of an edge node, the size fractions are
  not (`MPM.py:35` is commented out, and they are divided by the one-sided mass before `make_cyclic`). The copies then hold different
  fractions and mean sizes, each computed from the points of its own side. With `horizontal_force` the copies are pushed in opposite
  directions.  `eta`, on the other hand, is made periodic by `MPM.py:38` whenever the grain sizes are segregated on the grid, also without
  `cyclic_lr`: the edge nodes then show the sum of the viscosities of both edges of the domain (an output field).
* **Storage order (C95).** A positive result: nothing in a step depends on the order of the points within a phase, not even for points
  sharing one velocity array or while outlets delete points. The order of the phases does matter: phase 0 alone follows changing gravity
  (C57) and supplies the densities of the applied stresses and of the segregation.
* **Galilean invariance (C96).** A step is invariant under adding a common velocity only while all nodes around the points are above
  `M_tol`. A lighter node is given velocity zero rather than being left out (particle.py:137-140), so a uniformly translating body is
  strained at its surface as soon as a corner of an occupied cell has less than the tolerated mass (`c96_light`).
* **Layouts of the input files (C97-C99).** The common loop is right for every grid: all cells hold the same number of points and the
  first step finds `rho` times the nodal volume at every node, also on periodic edges. Files whose area per point does not match their
  layout: `chuteflow` (half the stated density), `incline` (too dense by (ny-1)/(ny-2)), `stokes` and every layout with a hole that divides
  the whole area by the kept points, `bi_conveyor` (15 rows: 1/15 of the mass of the lower half is missing, and the rows do not line up
  with the cells). By reading only (not proved): `bi_drum` gives the half-filled drum the area of the whole disc, `brazillian` uses
  pi*0.2^2 for a disc of radius 0.45, `avalanche`/`poly_avalanche` squeeze the points of the whole width into a quarter of it.
* **Input files that cannot run (by reading).** `macro` (`Params.__init__` takes no argument), `seg_unit_test` (`self.nt` before it exists),
  `tri_seg_test` (`mu[2]` of a two-element list), `avalanche` (indentation), `bingham_unit_test`, `chuteflow`, `flow`, `anisotropy` (Python 2
  `print`/`xrange`), `brazillian`, `flow`, `stokes` (`linspace` with a float count), and every file with law `viscous_size`.
* **Grain sizes and gradings (C100, C101).** The files that compute `ds = s[1]-s[0]` cannot be used with a single size. A grading word other
  than `top`, `bot`, `mix` (or `layered`) is silently accepted by the file and fails only when the points are constructed; `layered` raises
  IndexError for points exactly at a crest of the cosine.
* **Loads of the input files (C102, C103).** `triaxial`, `brazillian`, `vm_unit_test` and `macro` ramp `self.q`, which nothing reads: the step uses
  `q_v`, `q_h`, which `initialise.py` sets to `max_q`, so the full load acts from the first step. `slope_stab` sets `self.q = 0` and still has the
  full surcharge of 1000. `dp_unit_test` lets the vertical load change sign at `2 t_c` and ends pulling with eight times `max_q`.
* **Turning gravity (C104).** Only the first phase follows a changing `theta`. In `bi_drum` the points of the drum keep their initial weight
  direction; after half a turn the nodes shared by drum and grains feel the two weights in opposite directions.
* **Reported fields (C106).** The nodal `gammadot` of `ken_kamrin` is a rate divided by `dt` again (constit.py:389-397). `viscous`, `bingham`,
  `pouliquen`, `linear_mu` and `ken_simple` report no shear rate. The `dev_stress` of the flow laws is the norm over √2, that of
  `viscous`, `bingham`, `ken_kamrin`, `von_mises` the norm itself and that of `dp_rate` √(3/2) times the norm of the old stress, so the plotted
  field means different things in different phases.
* **Slope and critical times (C107, C108).** `current_L - gap` (PSM_slope_stab.py:100) is a position only because `x_m = 0`. The dynamic time step
  is computed after a step, so the first step of every dynamic run uses the `dt` of the file, not limited by anything.
* **Energy (C110).** The explicit momentum update never loses kinetic energy to the time discretisation: the second-order term
  `dt^2/2 * sum |q_dot|^2/m` is a gain. Together with C79 (mapping to the grid never gains) this separates where a run can gain energy.
* **Units (C111).** `Diffusion` (integrators.py:265) quotes `D = l*gammadot*d^2/sqrt(I)`, which is `l*gammadot^(1/2)*d^(3/2)*(p/rho)^(1/4)`, but takes
  `sqrt(p)/sqrt(rho_s)`: the result has the unit L^2.5 T^-1.5. `ken_kamrin` bounds the shear rate by the number 1e-5, has a grain size of 1
  and a largest viscosity `250*rho*g*H^3` with the unit of a force. `ken_simple` compares the density with 2500. The position check uses
  the length 1e-10. `t_star` of `dp_rate` is a number of steps. The point attribute `gammadot` is a rate for some laws and an increment for others,
  `mu_s` and `mu_0` are viscosities for `viscous` and `bingham` and friction coefficients elsewhere.
* **Light nodes (C112).** `M_tol` is an absolute mass, 1e-10 by default. Nodes below it count as at rest, so points at the edge of a body lag
  behind and are strained by a rigid motion, and a model in small units (total mass below `M_tol`) is frozen without any message.
* **Grain sizes (C113).** The advection scheme conserves the plain sum of the nodal fractions. The amount of a grain size is weighted by
  nodal masses, so it drifts wherever nodal masses differ, in particular along free surfaces and walls.
* **Exchange of axes (C114).** What the code treats differently along the two axes: `eta` is added up between the left and right columns whether or
  not the sides are periodic (MPM.py:38); wall friction is off at node 1, next to the lower left corner on the bottom, while its image on the left
  side is treated like other nodes (grid.py:279-282); `ken_kamrin` bounds the viscosity by the cube of the height of the domain.
* **Left and right (C115).** A point exactly on a vertical grid line belongs to the cell on its right only, and the gradients of the shape functions
  jump there. A single compressed point at rest on the middle line of a symmetric set-up therefore starts to move sideways.
* **End of a step (C116).** Outlets are applied before inlets, so a point put in past an outlet stays for a step; and the wrap-around comes last,
  so with `outlet_left` and `cyclic_lr` together points that leave on the right come back left of the outlet and are deleted one step later.
* **Kinetic pressure and diffusivity (C117).** `update_pk` is what its comment says, `p*I`. `Diffusion` is not: it is `l*gammadot*d^2/sqrt(I)`
  times the fourth root of `p/rho_s`.
* **Unused limiters (C118).** In new_integrator.py `vanLeer` and `vanAlbada1` are functions of a ratio and would have to be multiplied by a slope
  before use in `KT`; `minmod2` calls `np.minimum(theta*a,b,theta*c)`, where the third argument is the output array, so `theta*c` is ignored.
* **Figures (C119).** `calculate_gammadot` overwrites `G.gammadot` with the shear rate of the nodal velocities, which is not weighted with mass, but
  `draw_continuum` still divides it by `G.m` for `dp`, `dp_rate` (plotting.py:261) and for the solid laws (plotting.py:303). The panels of
  `grad_gammadot` (viscous laws) show zero, because `calculate_grad_gammadot` is never called.
* **Markers and titles (C120).** `draw_grid` multiplies coordinates with masks, so every node without a wall puts a wall marker at the origin.
  The mean size in the title of `draw_gsd_grid` includes empty nodes.
* **Volumetric viscosity (C121).** `viscous`, `bingham` and `ken_kamrin` subtract `mu_v*de_kk/dt` from a stress that is negative in compression,
  so `mu_v` acts as a negative bulk viscosity `-mu_v/3`. In the plane the viscous law dissipates in all motions only if `mu_v <= mu_s`;
  `pierre.py` sets `mu_v = 1e6 mu_s`. Most inputs set `mu_v = 0`.
* **Density of the points (C122).** `move_material_points` sets `rho` to the nodal density interpolated to the old position, marked "HACK!!!!! THIS
  SHOULDN'T BE HERE!". Surface nodes are half full, so points in the surface cells lose up to half of their density in the first step, while `m` and `V`
  stay: `rho*V` is not `m`. Since `pouliquen` sets the pressure of points below `0.8*rho` to zero, the upper three fifths of the surface cells of a bed
  that fills whole cells cannot carry pressure, however heavy the load. A block surrounded by empty cells is affected on all sides.
* **Dynamic time steps (C123).** The next time step is a tenth of a cell over the fastest nodal speed of the step just made. A body that starts to fall
  from rest gets a first step that is far too long (in the example the second step is 1 s, 100 times the first) and leaves the box through the wall.
* **Lithostatic preset (C124).** It is exact for the discrete scheme, not just in the limit: a bed of whole cells whose surface is at `y_M - top_gap`
  does not move at all, for any grid. This needs `g = max_g` from the first step (a ramp of gravity starts out of balance), whole cells up to the assumed
  surface, and a law that keeps the stress: the fluids drop the shear stress of the preset on a slope in the first step. The cutoff of `pouliquen` takes
  the pressure of the surface points away within two steps if there are empty cells above (it is at rest only if filled to the top of the grid).
* **Uniform deformation (C125).** The patch test holds exactly in cells whose neighbours are full, for any number of points per cell. The outermost cells
  of a body feel only a half to two thirds of a stretch, since the nodes at the surface are given the velocity of points up to half a cell further in. Layers
  one cell thick feel at most a third of it, and with one point per cell nothing: such a layer can be stretched without limit and without stress.
* **Figures of the points (C126).** The stresses drawn for `elastic` and `von_mises` are those of the beginning of the step, at places of its end.
  `draw_gamma_dot` divides by the step size once more for the fluids, whose laws store a rate already, and so does the nodal field of `ken_kamrin` (C106);
  `ken_simple` never stores a rate, so that its figure does not change. The figure of a `von_mises` phase before the first step raises AttributeError.
  The table that `draw_energy` plots is filled by no code that runs (MPM.py:66 is commented out).
* **Yield trigger (C55).** The refinement tests `yieldfunction > 0.99`; `von_mises` stores the ratio to the yield stress minus one, so the step is refined
  only when a point was at 1.99 times the yield stress at the beginning of the step (`c55_threshold`), not near yield as the commented-out value suggests.
* **Stand-alone segregation (C127).** `python integrators.py` switches on both segregation and diffusion, which conserve different totals (C45, C72), so it keeps
  neither; and unlike the solver it has no `nan_to_num`, so one node without mass spoils the fractions around it in the first pass.
* **Round bodies (C128).** `ball.py` puts 500 points in its ball, none at the centre; the centre of mass is exact, the polar moment 5 % too large. A circle with
  a single point would have it above the centre. The loops of `brazillian.py`, `flow.py` and `stokes.py` lack the `int(...)`, which is a TypeError in
  `linspace` since numpy 1.18 (requirements.txt has 1.22). `brazillian.py` divides the area of radius 0.2 among the points of a disc of radius 0.45: 16/81 of the mass.
* **Cut corners, piles, drums (C129).** `slope_stab.py` and `pierre.py` compute the area as if the slope were vertical; any slope that cuts points makes the
  others too heavy. The piles of `vicky.py` and `vicky_latest.py` are not a whole number of cells wide: points 9/8 and 19/18 of their share of a cell. The grains of
  `bi_drum.py` fill half of the drum but share the area of all of it: twice the mass. `bi_square_drum.py` has two more rows of points than the area stands for.
* **Gradients next to empty nodes (C130).** The interpolation meant to fill empty nodes never changes anything: the empty nodes are masked and astropy only replaces NaNs
  that are not. The differences next to an empty node are then bare values, not divided by the spacing: a body in free fall has a stored shear rate equal to
  its speed along its left side and zero along its right side. It enters `grad_gammadot`, so segregation near a free surface depends on the frame and on which
  side the surface is. Without segregation nothing reads the stored rate (`c130_unsegregated`).
* **Bodies that do not touch (C131).** A step reaches two cells, and bodies without a common node do not interact, except through `initial_v`: `particle.py:11-12` gives every
  point of such a phase the same numpy array, so that `self.v += ...` adds the accelerations of all of them, near or far, up (`c131_tied`). With dynamic time
  steps all bodies interact through the step size as well.
* **Restarting (C132).** Position, velocity, mass, volume and stress are enough to continue a run with the solids `elastic` and `elastic_time` only. The fluids also need the
  pressure, which the stress does not determine; `von_mises` needs its own deviator and mean stress, from which the stress departs by the rotation terms of every
  step; `rigid` and `bingham` add the stored stress increment again in every step (zero if the constructor made the point); `ken_simple` computes its viscosity from
  the initial shear rate for ever. The strain is output only.
* **What is written (C133).** Only five input files produce any output; the flags that the others set (`plot_continuum`, `save_u`, ...) are read nowhere. The velocity files are numbered by
  `grid_save` and are one ahead of the sizes, densities and points of the same state; with `PSM_slope_stab.py` the velocities of the last saved state are lost, since the
  last saving overwrites them. Files with higher numbers from an earlier, longer run stay. `avalanche.py` cannot be imported (line 95 is indented once too often).
* **Grid lines and adaptive steps (C134).** A point exactly on a grid line has weight 0 and gradient `±1/dx` at the nodes of the next line. If nothing else is near, those nodes have
  no mass and a momentum, `G.q/G.m` is infinite, `nan_to_num` makes it 1.8e308, and the next `P.dt` is about 1e-310: in floating point neither the time nor the points change any more and
  the loop never ends. A compressed body with its side on a grid line is enough. Input files with `time_stepping = 'dynamic'` are exposed to this; with fixed steps the node is harmless.
* **Units and adaptive steps (C135).** Runs with adaptive time steps have all the symmetries of single steps. The exception are units: once a node has momentum without mass (C134) the next time step
  is `CFL*min(dx,dy)/10` divided by the largest float, which does not depend on the unit of time.
* **Floating point clock (C136).** `P.t += P.dt` accumulates rounding errors, and `P.t%P.savetime < P.dt` then saves some windows twice and others not at all: `dt=0.1, savetime=0.5` saves at 0.5 and at 0.6,
  `dt=0.007, savetime=0.021` saves nothing between 0.063 and 0.084. The inlets use the same test, so they feed twice or skip. Both happen only if a multiple of `savetime` is hit up to rounding, which is the usual case.
* **Reference nodes in floating point (C137).** `int(trunc((x-x_m)/dx))` can round up to the last column for `x < x_M`: in the unit box with four nodes, `x = 1-2^-53`. In the top row of cells this is an IndexError, elsewhere a
  weight of about `-3e-16` goes to the first node of the next row, at the other side of the box. `cyclic_lr` produces such points: `x += x_M - x_m` puts a point that is less than half a unit in the last place left of `x_m` exactly on `x_M`.
* **Lost motion (C138).** `self.x += P.dt*N*q/m` corner by corner: increments below half a unit in the last place of the coordinate are dropped, so a creeping point far from the origin does not creep, however long
  the run. The same holds for velocities. The stored gradient `L` (particle.py:142) is not symmetric in floating point although it is `L + L^T`, because both parts are added one after the other (`c138_gradient`).
* **Units in floating point (C139).** Units that differ by powers of two give the same digits, all others do not (`c139_only`, `c139_decimal`). `check_positions` has the absolute tolerance 1e-10, so it depends on the unit of length.
* **Stress loses its symmetry (C140).** `L` of particle.py:142 is symmetric in exact arithmetic and off by a unit in the last place in floating point (C138); `dot(L,stress)+dot(stress,L)` then is not symmetric and neither is the
  stress (`c140_skew`), so points exert a torque of the size of the rounding errors, which nothing removes. Increments of stress below half a unit in the last place are dropped (`c140_lost`).
* **Rest and uniform motion (C141).** A body at rest without loads stays at rest exactly; the same body in uniform motion gets shear stresses of the size of the rounding errors in the first step (`c141_motion`), because the nodal velocities
  `q/m` of one body differ in their last digits from node to node.
* **Underflow (C142).** Sums and differences are exact down to the smallest number, so the clock, `x < tol` tests on differences and wall conditions are not affected; products of numbers below 1e-154 are (`c142_products`).
  Units in which no quantity is below 2e-308 lose nothing (`c142_power`).
* **Momentum out of nothing (C143).** Stresses push a body by rounding errors only: the gradients of the shape functions cancel exactly, the forces `V σ·G` of the four corners do not, because sums at the nodes are rounded in the order
  of the points.  The error of the momentum is proportional to stress times volume over cell size, so stiff materials on fine grids lose most.
* **Fluids in floating point (C144).** `dstress = pressure*eye(3) + dev_stress - stress` followed by `stress += dstress` leaves the rounding error of the *old* stress in the new one: a point that was under a large stress and is released
  keeps an error of that size (`c144_absorbed`: old stress `-2^60`, pressure -1, new stress 0). Assigning the stress would not. The pressure is a running sum and does not notice strains below half a unit in its last place, so a slow compression of a
  deeply buried point does nothing (`c144_frozen`). `linear_mu` divides by the pressure and cannot start from an unstressed body (`c144_start`).
* **Segregation in floating point (C145).** `BC` computes the mirror velocity as `-(c*v)/c` although `c` is the same number on both sides; in floating point this is not `-v`, so ends without boundary nodes leak (`c145_leaks`), which `v[1] = -v[2]` would
  not. `1./(S_1_bar*S) - 1.` does not vanish for a single size (`c145_alone`), so a body of one size still has a flux of rounding errors proportional to `c*grad_pk`. Without boundary nodes at its ends, a line therefore does not keep its sizes to the last digit.
* **Plasticity in floating point (C146).** Nothing in `von_mises` removes the trace that roundings put into `MP.dev_stress` (`c146_traced`: one step, 5e-15), so pressure leaks into the deviator, at most linearly in the number of steps (`c146_drift`).
  Because the law keeps `dev_stress` and `sigma_kk` and only derives `dstress` from them, errors of the stress itself do not accumulate (`c146_target`, `c146_settles`). `bingham` jumps at `gamma_c` unless `mu_0*gamma_c = mu_s*gamma_c + tau_0`, and then
  the last digit of the shear rate decides by how much (`c146_jump`).
* **Stress held back (C148).** A body without stress and at rest need not stay so: `von_mises` rebuilds the stress from `dev_stress` and `sigma_kk`, and `bingham` sets `stress` itself but never `dstress`, which `particle.py:158` still adds; what is left in these fields by another law or by a restart becomes stress in the next step (`c148_loaded`), for `bingham` in every step again.
* **Normalisation never settles (C149).** `phi /= sum(phi)` keeps fractions in [0, 1] and their sum within `ns+1` roundings of one for ever, but it is not idempotent in floating point: with three sizes there are fractions that alternate between two neighbouring values on every step although nothing flows (`c149_restless`). It divides by zero exactly when no fraction is positive (`c149_fails`).
* **One file for the energy.** `draw_energy` names its figure after `P.S[0].n` alone, so each call overwrites the last one (`c56_energy`).
* **No start from zero stress (C150).** `dp_rate` divides by `q*p*t_star`, so a point without in-plane stress gets `nan` whatever its strain and whatever the rounding (the model stops there, `c150_unstressed`); the law can only continue from a stress that another law or the initial state has set. The time step enters only through the velocity gradient: relaxation is per call, not per second (`c150_no_time`).
* **Ramps in floating point (C153).** `1.-exp(-3.*t**2/t_c**2)` cancels: the load is exactly zero up to about `t_c/10^9` and its relative error is large just after; `-expm1(-3.*t**2/t_c**2)` would not lose these digits. From `4*t_c` on the load is its final value exactly, so runs do settle.
* **Spurious shear rates (C154).** Nodal velocities are momentum over mass, both rounded, so a body that moves as one can show nodal shear rates of a few units of rounding of the velocity over the cell size (an example in binary64 is in `Props/FloatGradient.lean`). They enter `pk` and the diffusivity through their absolute value and its square root, so they do not cancel: the square root turns a relative 1e-16 into 1e-8.

## Axioms

From `#print axioms` on every theorem named in `MANIFEST.json`:

* 713 theorems: `Classical.choice`, `Quot.sound`, `propext`
* 41 theorems: `Quot.sound`, `propext`

## Properties and theorems

| id | property | status | theorems | note |
|----|----------|--------|----------|------|
| C01 | Reference node is the lower-left corner of the containing cell | proved | `c01_cell_unique`, `c01_reference_node` | All grids with nx,ny>=2 and all positions in the half-open domain; exact arithmetic. |
| C02 | Shape functions form a partition of unity | proved | `c02_partition_of_unity`, `c02_unit_interval`, `c02_corners`, `c02_gradients` | All local positions and non-zero cell sizes. |
| C03 | Position is recovered exactly from nodes | proved | `c03_position_recovered` | Also shows the check_positions diagnostic passes. |
| C04 | Out-of-domain material points: exact failure condition | proved | `c04_exact`, `c04_left_of_domain`, `c04_below_domain`, `c04_above_top`, `c04_right_edge_top_row`, `c04_wraps_around` | c04_exact gives the exact condition for IndexError; the others are the named consequences. |
| C05 | Mapping to the grid conserves mass | proved | `c05_mass_conserved` | No assumption on positions, only that no exception is raised. |
| C06 | Mapping to the grid conserves momentum | proved | `c06_momentum_conserved`, `c06_momentum_conserved_free` | With marked nodes: exactly the masked components are removed. |
| C07 | Grid state does not depend on material point order | proved | `c07_order_independent_mapping`, `c07_order_independent_forces` | Equality of results in Except, so also of exceptions; reordering within each phase. |
| C08 | Internal forces are self-equilibrated; body forces sum to total weight | proved | `c08_forces_balance`, `c08_forces_balance_step` | Stand-alone and inside time_march; without cyclic boundaries (with them edge forces are duplicated, see C22). |
| C09 | Rigid translation produces no strain | proved | `c09_rigid_translation` | Any position, any dt. |
| C10 | Strain increments are exact for linear velocity fields | proved | `c10_affine_exact` | Any affine nodal velocity field; gradient columns x and y, as the code has no z gradients. |
| C11 | Strain increments are symmetric | proved | `c11_history`, `c11_symmetric` | Single update; the total strain stays symmetric if it was. |
| C12 | Material point motion interpolates nodal velocities | proved | `c12_convex`, `c12_bounds`, `c12_uniform` | Convexity needs the point inside its cell; the mean-value form needs only massive nodes. |
| C13 | Grid-to-particle transfer of momentum is conservative | proved | `c13_momentum_transfer`, `c13_momentum_transfer_full` | Second part gives the exact loss at light nodes. |
| C14 | Centre of mass moves with total nodal momentum | proved | `c14_centre_of_mass`, `c14_centre_of_mass_full` | All non-rigid phases. |
| C15 | Rigid phases move exactly at the prescribed velocity | proved | `c15_rigid`, `c15_rigid_law` | Whole phase, any grid state. |
| C16 | Edge options restrain exactly the nodes of that edge | proved | `c16_edges` | Via node coordinates, not index arithmetic. |
| C17 | silo_bottom restrains the whole grid above the bottom row | proved | `c17_marks`, `c17_no_momentum`, `c17_nothing_falls`, `c17_four_columns` | nx>=5; c17_four_columns shows nx=4 differs. Includes that points in cell rows >= 1 do not fall in a whole time step. |
| C18 | No flow through walls | proved | `c18_no_flow`, `c18_rough` | Through gridPhase and momentumPhase of time_march, also with the rough branch. |
| C19 | Nodal momentum update is Newton's law off the walls | proved | `c19_newton`, `c19_total`, `c19_total_step` | Nodal law, total over a free grid, and inside a whole step. |
| C20 | wall_mu permanently turns all four edges into walls | proved | `c20_marks`, `c20_unchanged`, `c20_monotone`, `c20_history` | Marks, their permanence and their monotonicity over any run. |
| C21 | Wall friction never reverses or amplifies the tangential force | proved | `c21_friction`, `c21_node_one` | c21_node_one: node number 1 never feels friction (finding). |
| C22 | Cyclic summation identifies left and right columns | proved | `c22_values`, `c22_total`, `c22_twice`, `c22_single_column` | Values, node sums, repeated application and the single-column case (which triples). |
| C23 | Nodal volumes tile the domain | proved | `c23_positive`, `c23_total`, `c23_total_cyclic` | Also the cyclic total. |
| C24 | Cyclic boundaries keep material points in the domain | proved | `c24_cyclic`, `c24_inside`, `c24_step` | The routine itself and a whole step bounded by the fastest node. |
| C25 | outlet_bottom deletes exactly the material points below the domain | proved | `c25_outlet_bottom` | Includes success. |
| C26 | outlet_left deletes exactly the material points left of x_m+dx | proved | `c26_outlet_left` | Includes success. |
| C27 | Phase counts always match the stored material points | proved | `c27_constructed`, `c27_counts`, `c27_loops` | Construction, any run, and what the counted loops then do. |
| C28 | Inlets add points only on schedule and never before t>0 | proved | `c28_right`, `c28_top`, `c28_middle`, `c28_zero_rate` | Schedule stated without the modulo operator; zero rate raises. |
| C29 | A step does not depend on the previous grid state | proved | `c29_previous_grid`, `c29_previous_grid_run` | One step and whole runs; grids agreeing on node positions, cell sizes and wall masks. |
| C30 | Motion stays planar | proved | `c30_planar`, `c30_constructed`, `c30_nonzero_pressure` | Whole runs from planar states and from constructed lists; for initial pressure mode 'non-zero' the claim is false of the code and c30_nonzero_pressure proves a counterexample. |
| C31 | Stress stays symmetric | proved | `c31_symmetric`, `c31_constructed` | Every law of the model, whole runs, including points made by inlets. |
| C32 | The convected stress correction uses twice the symmetric velocity gradient | proved | `c32_correction`, `c32_rotation`, `c32_stretch` | The aliased L = L_T array is modelled as in the source. |
| C33 | Elastic law is isotropic linear elasticity | proved | `c33_isotropic`, `c33_linear`, `c33_work`, `c33_young`, `c33_young_fails` | Any materials with the moduli relation of the inputs; c33_young_fails gives the division by zero at nu=1/2 and nu=-1. |
| C34 | Initial stress and strain are consistent with the elastic moduli | proved | `c34_consistent`, `c34_elastic`, `c34_lithostatic`, `c34_equilibrium`, `c34_compression` | All preset pressures; lithostatic field compared with an independent surface/slope description. |
| C35 | von Mises: deviator stays traceless and saturates at yield | proved | `c35_step`, `c35_yield`, `c35_elastic_start`, `c35_runs`, `c35_traceless` | Runs of any length for the trace; yield bound stated per step with the exact amplification against the flow direction. |
| C36 | Viscous law is Newtonian | proved | `c36_newtonian`, `c36_runs`, `c36_dissipation`, `c36_pressure`, `c36_stored` | Law level for every state; pressure over runs of any length including inlet points. c36_stored shows the stored stress also carries the stress-rate term. |
| C37 | Bingham law is continuous and monotone at the yield rate | proved | `c37_curve`, `c37_runs`, `c37_monotone`, `c37_jump` | Continuity as a Lipschitz bound; c37_jump shows the relation is necessary. |
| C38 | mu(I) law never goes into tension and never produces a non-finite stress | proved | `c38_total`, `c38_no_exit`, `c38_friction` | Every finite state; also a friction bound for non-negative parameters. |
| C39 | mu(I) friction coefficient is bounded and increasing | proved | `c39_curve`, `c39_law` | Strictly increasing, both limits; c39_law ties it to the stored values. |
| C40 | linear_mu produces NaN stress for a stress-free point at rest | proved | `c40_capped`, `c40_nan`, `c40_step`, `c40_reach` | Stronger than stated: NaN for every state of zero pressure, not only at rest; and no step can succeed in it. |
| C41 | ken_kamrin viscosity is never positive under downward gravity | proved | `c41_negative`, `c41_constant`, `c41_upward` | Every state with positive density; negative dissipation. |
| C42 | elastic_time mass reduction is bounded | proved | `c42_mass` | Whole runs including inlets; needs rho_f*V >= 0. |
| C43 | Laws that cannot run | proved | `c43_dp`, `c43_dp_step`, `c43_pouliquen`, `c43_dp_rate`, `c43_dp_rate_step` | At law level and inside time_march. |
| C44 | Limiters | proved | `c44_minmod`, `c44_superbee`, `c44_superbee_symmetric`, `c44_superbee_homogeneous`, `c44_superbee_between`, `c44_maxmod_half` | minmod, maxmod and superbee for every pair of numbers of an ordered field. maxmod(a,0) is a/2, not a (c44_maxmod_half). |
| C45 | Segregation advection conserves every grain size along each grid line | proved | `c45_closed_ends`, `c45_line`, `c45_rows`, `c45_columns`, `c45_grid`, `c45_cyclic_padding_ignored`, `c45_condition` | Telescoping over a grid line of any length, for any velocities with open (finite) values, along rows, columns and whole grids. The cyclic padding of the gradient is overwritten by the end condition (c45_cyclic_padding_ignored): nothing crosses the ends of a row even with cyclic boundaries. c45_condition shows the finiteness condition is met in every step of points carrying size distributions. |
| C46 | No segregation without a driving gradient, for a single size, or at empty/boundary nodes | proved | `c46_masked`, `c46_no_gradient`, `c46_single_size`, `c46_line`, `c46_grid`, `c46_unmasked_empty` | Velocity zero at masked nodes, without gradient and for a single size; line increments zero when every velocity is zero. c46_unmasked_empty: with M_tol = 0 an empty node is not masked and its velocity is NaN. |
| C47 | Segregation fluxes of all sizes cancel at a node | proved | `c47_velocity`, `c47_cancel`, `c47_cancel_positive`, `c47_order` | Fluxes at a node cancel exactly; order of the velocities by size. |
| C48 | Normalised grain size fractions form a distribution | proved | `c48_normalise`, `c48_none_positive`, `c48_fixed`, `c48_move`, `c48_step`, `c48_run` | Normalisation of one vector, of the whole list in one step, and along every run. If no fraction is positive the result is 0/0 (c48_none_positive). |
| C49 | Mean grain size stays within the size range | proved | `c49_nodal`, `c49_step` | For the nodal fields after the mapping and for a whole time step. |
| C50 | Main loop takes exactly floor((t_f-t_0)/dt)+1 steps | proved | `c50_steps`, `c50_count`, `c50_deterministic`, `c50_ends`, `c50_never`, `c50_zero_division`, `c50_times` | Exact step count, times and step numbers with static steps and hooks that leave the clock alone (c50_steps, c50_count); termination (c50_ends); independence of the cut-off used to define the loop (c50_deterministic); no normal end with dt <= 0 (c50_never) or with t_f = 0 or savetime = 0 (c50_zero_division); c50_times for dynamic steps. Exact arithmetic: accumulated rounding of P.t is not modelled. |
| C51 | Hook order | proved | `c51_order`, `c51_counts`, `c51_schedule` | For arbitrary hooks and either kind of time stepping; complete schedule with static steps (c51_schedule). |
| C52 | Periodic output is written once per savetime window | proved | `c52_saved`, `c52_window`, `c52_second`, `c52_coarse`, `c52_run`, `c52_first`, `c52_dynamic_gap` | c52_run is the property; c52_coarse the case dt >= savetime, where all steps but the second are saved; c52_second shows the exclusion of t = dt only matters then. c52_dynamic_gap: with dynamic steps a whole save window can go unsaved. |
| C53 | Dynamic time step respects every critical time | proved | `c53_speed`, `c53_moving`, `c53_courant`, `c53_rest`, `c53_rest_critical` | Formula, Courant bound, at rest infinite without critical times. The model's loop stops with the marker nonFinite when an infinite step would be taken. |
| C54 | User settings are never overridden by defaults | proved | `c54_keep`, `c54_constants`, `c54_computed`, `c54_sizes`, `c54_only`, `c54_idempotent` | getParameters over attribute records (absent/present); the exceptions the code makes (mode, phases, save_dir, energy when measure_energy) are stated explicitly; idempotence proved for every input that succeeds |
| C55 | Yield-triggered refinement keeps the end time but repeats | proved | `c55_trigger`, `c55_end_time`, `c55_repeats`, `c55_steps`, `c55_threshold` | histories are arbitrary sequences of time steps and calls with arbitrary points; also proved: AttributeError when P.q does not exist |
| C56 | Saved data files are not overwritten | proved | `c56_nodup`, `c56_untouched`, `c56_numbered`, `c56_u`, `c56_continuum`, `c56_energy` | file names and counters only; drawing itself and draw_voronoi are not modelled |
| C57 | Only phase 0 follows time-dependent gravity | proved | `c57_phase_zero`, `c57_phase_zero_run`, `c57_other_phases`, `c57_other_phases_closed` | Phase 0 of every step and run (with inlets); other phases keep b unless made by an inlet, which uses the gravity of that step. |
| C58 | Shared initial velocity | proved | `c58_shared` | Any list and one step; the shared array changes by the sum of all increments. |
| C59 | Energy measures | proved | `c59_kinetic`, `c59_elastic`, `c59_height`, `c59_level`, `c59_nan`, `c59_potential`, `c59_total` | over the real numbers with real sin/arctan; heights for every inclination, showing that points with negative y count as above; x[2]=0 is assumed, as the height includes the third coordinate |
| C60 | Mass and momentum balance over a whole run | proved | `c60_masses`, `c60_momentum` | Any number of steps with static time step; damping scales the increment. c60_momentum assumes the points stay in the domain and all corners of occupied cells stay above M_tol, stated on the points alone. |
| C61 | Internal obstacles | proved | `c61_wall`, `c61_two_walls`, `c61_silo_left`, `c61_box`, `c61_box_not_square` | All grid sizes; the box statement needs nx = ny >= 9, and c61_box_not_square shows it fails otherwise. |
| C62 | Applied boundary stresses | proved | `c62_nodes`, `c62_edge_force` | rho is the first phase's density parameter; the edge force statement is for edges whose nodes carry the mass of their volume. |
| C63 | Conveyor belt | proved | `c63_belt`, `c63_speed`, `c63_no_drag` | c63_no_drag is a finding: belt momentum never reaches point velocities in the same step. |
| C64 | Constructed material points | proved | `c64_points`, `c64_too_few` | Full. |
| C65 | Initial equilibrium | proved | `c65_lithostatic`, `c65_viscous`, `c65_slip` | The steady viscous statement is exact for second differences, so it needs no derivatives. |
| C66 | Steady granular slope flow | proved | `c66_profile`, `c66_friction` | Real square root and powers (P.ops = realOps). mu_0 and I_0 as numbers. |
| C67 | Steady Poiseuille flow | proved | `c67_profile` | Real square root, powers and logarithm. mu_0 and I_0 as numbers. |
| C68 | Advected fractions stay non-negative | proved | `c68_line`, `c68_grid`, `c68_too_long` | One line (c68_line) and both directions together (c68_grid); example shows the bound is needed. |
| C69 | Reconstruction enlarges jumps | proved | `c69_diffusive`, `c69_sum_lost` | A finding: c69_diffusive gives the fluxes with explicit enlargement factors, c69_sum_lost is a concrete witness. |
| C70 | A closed box never fails and never leaks | proved | `c70_step`, `c70_run`, `c70_fast_escapes` | Laws that cannot fail on finite states are stated as LawOk: everything except dp, dp_rate (C43), linear_mu (C40) and laws that need special data; the Courant condition is on the nodal displacement in the step made. |
| C71 | Nodal gradients are exact for linear fields | proved | `c71_linear`, `c71_central`, `c71_gammadot`, `c71_uniform` | The astropy filling of masked entries is a parameter; it is assumed to leave unmasked values alone, and there are no masked nodes. |
| C72 | Diffusion keeps the volume of every size in a walled box | proved | `c72_weighted`, `c72_volume`, `c72_plain_total_lost` | Finite diffusivities are a hypothesis (no empty nodes); c72_plain_total_lost is the witness. |
| C73 | What diffusion does to the fractions of a node | proved | `c73_sum_kept`, `c73_uniform`, `c73_sum_lost`, `c73_checkerboard`, `c73_frozen`, `c73_frozen_total` | c73_sum_lost, c73_checkerboard, c73_frozen and c73_frozen_total record what goes wrong. |
| C74 | The stand-alone scheme keeps the total for one velocity | proved | `c74_euler`, `c74_rk4`, `c74_rk3`, `c74_total_lost` | Model of one line; np.roll wraps. c74_total_lost is the witness. |
| C75 | The stand-alone scheme keeps concentrations non-negative | proved | `c75_nonneg`, `c75_overshoot` | c75_overshoot is the witness. |
| C76 | The stand-alone diffusion has open ends | proved | `c76_open_ends`, `c76_linear` | A finding: exact change of the total. |
| C77 | Nodal pressure is the mass-weighted sum of point pressures | proved | `c77_pressure`, `c77_total`, `c77_mean` | c77_pressure (value at every node), c77_total (sum over nodes), c77_mean (between the smallest and largest pressure around the node). |
| C78 | The sign of the nodal pressure depends on the law | proved | `c78_opposite`, `c78_dp_rate`, `c78_cancel` | Finding. c78_opposite and c78_cancel (elastic against elastic_time), c78_dp_rate (grid against point). |
| C79 | Empty nodes freeze the grain sizes around them in every step | proved | `c79_frozen` | Whole step, via c73_frozen: the pressure at a node without mass is proved to be zero for every law (a non-cyclic grid). |
| C80 | Nodal forces and strain increments are dual | proved | `c80_virtual_work` | dt times the power of the internal forces equals the sum of V sigma:d eps; nodal velocities and contraction are defined in the specification. |
| C81 | Mapping to the grid never creates kinetic energy | proved | `c81_no_gain`, `c81_uniform` | Inequality for any arrangement; equality for uniform velocity without walls; an example loses energy. |
| C82 | Moments and angular momentum of the nodal fields | proved | `c82_stress_moment`, `c82_internal_torque`, `c82_external_torque`, `c82_angular_momentum` | First moments of the internal forces, zero torque for symmetric stress, torque of body forces, angular momentum of the mapping. |
| C83 | dp_rate: elastic below yield, relaxation per step beyond it | proved | `c83_elastic`, `c83_relax`, `c83_overshoot`, `c83_no_time` | Exact increment from every successful call; relaxation factor, overshoot and independence of dt. |
| C84 | ken_simple never uses its friction coefficient | proved | `c84_no_friction`, `c84_run` | Closed form of the stress for zero shear rate and invariance of that zero over any run. |
| C85 | One idle point makes four nodes NaN | proved | `c85_poison`, `c85_when` | Iff for NaN of mu and I at the point; poisoning of the four nodes for mu, I and eta in the grid part of a step. |
| C86 | NT scheme: line totals change only through the end nodes | proved | `c86_walls`, `c86_balance` | NT is never called by the program; rows and columns are lines of the same function |
| C87 | NT scheme: fractions keep summing to one for two sizes only | proved | `c87_two_sizes`, `c87_three_sizes` | the three-size case is a refutation |
| C88 | NT scheme smears per step, not per time | proved | `c88_per_step`, `c88_spike` |  |
| C89 | KT scheme and the sum of fractions | proved | `c89_uniform`, `c89_lost` | c89_lost is a refutation |
| C90 | normalise_phi_increment keeps totals but not bounds | proved | `c90_total`, `c90_nonneg`, `c90_above_one`, `c90_fixed` | never called (commented NEVER USE THIS) |
| C91 | Plotting cells | proved | `c91_centred`, `c91_widths`, `c91_half`, `c91_extent`, `c91_sum` |  |
| C92 | RK4 in constit.py | proved | `c92_linear`, `c92_constant` | only used by the law dp, which cannot run (C43) |
| C93 | Moving the whole set-up moves the simulation | proved | `c93_step`, `c93_steps`, `c93_grid`, `c93_points`, `c93_inlet_top`, `c93_steady` | Exact equality of results including failures; over exact arithmetic. |
| C94 | A time step on a periodic grid | proved | `c94_edges`, `c94_mass`, `c94_momentum`, `c94_uniform`, `c94_forces`, `c94_pressure`, `c94_totals`, `c94_motion`, `c94_fractions`, `c94_fractions_differ` | c94_edges, c94_mass, c94_momentum, c94_forces, c94_pressure, c94_totals, c94_uniform: sums over the nodes at one place (Spec.copies). c94_motion: both copies move alike (nx at least 3). c94_fractions and c94_fractions_differ: the fractions are one-sided, with a concrete step in which the copies differ. |
| C95 | The storage order of the points of a phase does not matter | proved | `c95_step`, `c95_run` | c95_step and c95_run: success is equivalent, grid and time equal, points a permutation within each phase (Reordered, the relation of C07). |
| C96 | A common velocity is not noticed away from walls and light nodes | proved | `c96_step`, `c96_light` | c96_step: the nodal gammadot of calc_gammadot (a finite difference of q/m over all nodes, empty ones included) is left out of the claim. c96_light: the witness for the light node. |
| C97 | The regular layouts fill every cell of a block equally | proved | `c97_full`, `c97_topless`, `c97_dam`, `c97_dam_origin`, `c97_box`, `c97_conveyor`, `c97_count`, `c97_cells`, `c97_inside`, `c97_weights` | Spec.block is stated without the code's linspace/tile/repeat; loop with index modelled as zip and filter |
| C98 | The initial nodal density is the stated density | proved | `c98_block`, `c98_area`, `c98_shared`, `c98_part`, `c98_density` | Nodal mass is that of the first grid phase of the time step (MPM.py:20-29) |
| C99 | Point areas of single input files | proved | `c99_chuteflow`, `c99_incline`, `c99_dam_break`, `c99_conveyor`, `c99_francois`, `c99_tunnel`, `c99_hole` | Numbers quantified where the file fixes them, except for the tunnel |
| C100 | Grain-size classes of the input files | proved | `c100_bins`, `c100_order`, `c100_mean`, `c100_step` | Midpoints of equal parts; IndexError for ns <= 1. |
| C101 | Initial size fractions of graded layouts | proved | `c101_top`, `c101_bot`, `c101_sorted`, `c101_list`, `c101_other`, `c101_layered`, `c101_shares` | For domains whose bottom is at height 0, as in the files. |
| C102 | Ramped gravity and the ignored ramp of the surface load | proved | `c102_ramp`, `c102_reached`, `c102_smooth`, `c102_ignored` | exp is the real exponential; c102_ignored is about the attribute objects of initialise.py. |
| C103 | Load paths of the element tests | proved | `c103_same`, `c103_path`, `c103_smooth`, `c103_sign` | Ordered fields. |
| C104 | Changing slope angle | proved | `c104_constant`, `c104_gravity`, `c104_others`, `c104_kept`, `c104_symmetric`, `c104_weight`, `c104_froude`, `c104_drum`, `c104_tangent`, `c104_tilts` | update_forces is called before anything reads theta or intruder_v, so a step is the ordinary step with the parameters of that time. |
| C105 | An intruder of changing velocity moves as a rigid body | proved | `c105_path`, `c105_shape` | Without inlets and outlets. |
| C106 | What the laws report as shear rate, shear stress and friction | proved | `c106_solid_rate`, `c106_plane_rate`, `c106_ken_kamrin_rate`, `c106_no_rate`, `c106_shear_stress`, `c106_flow_stress`, `c106_dp_rate`, `c106_von_mises`, `c106_friction`, `c106_nodal` | the von_mises part assumes the stored deviator is traceless, which C35 proves of every run |
| C107 | The points of PSM_slope_stab lie under its slope and fill it | proved | `c107_count`, `c107_inside`, `c107_domain`, `c107_spacing`, `c107_area` | real arithmetic; tan(slope) an arbitrary positive number |
| C108 | Critical times of the input files keep waves and diffusion within a cell | proved | `c108_elastic`, `c108_flow`, `c108_loop` | the square root is assumed right at K/rho only |
| C109 | A stress-free body falls freely | proved | `c109_run`, `c109_parabola` | A run of a stress-free body with one velocity, of any number of steps; the parabola follows for constant gravity. The hypotheses that the points stay in the domain and their nodes above the threshold are about the states of the run. dp_rate and linear_mu raise on unstressed resting points, so runs with them succeed only in motion. |
| C110 | Energy balance of a step | proved | `c110_balance`, `c110_weights` | Exact identity for the nodal kinetic energy over momentumPhase, from C80 (virtual work), the wall conditions and the explicit update; the second theorem writes the external power with the weights of the points. |
| C111 | A simulation does not depend on the units of its inputs | proved | `c111_step`, `c111_steps`, `c111_grid`, `c111_points`, `c111_ken_simple`, `c111_ken_kamrin`, `c111_diffusion` | Steps and constructors under any change of units; the two laws and the diffusivity that break it have counterexample theorems. Excluded by hypothesis: segregation, the position check, inlets with a prescribed initial flow. The nodal shear rate stored last is hidden on both sides because its value mixes two quantities. |
| C112 | What happens to matter near almost empty nodes | proved | `c112_move`, `c112_phi`, `c112_strain`, `c112_blind`, `c112_frozen_step`, `c112_frozen` | Uniform fields near light nodes in closed form (motion, velocity, density, sizes, strain), grids equal at heavy nodes are not told apart, bodies lighter than the tolerance stay for any number of steps; examples with share 3/8 and a spurious strain. |
| C113 | What segregation does to the amount of each grain size | proved | `c113_transfer`, `c113_step`, `c113_conserved`, `c113_fractions`, `c113_not_conserved` | Exact balance of a grain size over transfer and over a whole step, conservation for equal nodal masses, sum of fractions; the example with two cells shows that the amount changes although the increments add up to zero. |
| C114 | The two axes are treated alike | proved | `c114_par`, `c114_pt`, `c114_nodes`, `c114_grid`, `c114_steps`, `c114_eta`, `c114_height`, `c114_friction` | The nodal viscosity is left out of the state equality, and c114_eta says what happens to it; frictionless walls, no inlets, outlets, belt or periodic sides. |
| C115 | Left and right are treated alike, off the grid lines | proved | `c115_unsegregated`, `c115_symmetric_unsegregated`, `c115_covered`, `c115_par`, `c115_pt`, `c115_nodes`, `c115_grid`, `c115_steps`, `c115_symmetric`, `c115_start`, `c115_momentum`, `c115_middle`, `c115_line` | Whole runs for fillings that clear the mask, for grids without empty nodes, and without segregation for any filling; counterexample on a grid line. |
| C116 | How a time step ends: motion, outlets, inlets, wrap-around | proved | `c116_step`, `c116_bottom`, `c116_left` | for every time step; rates of open inlets positive |
| C117 | Kinetic pressure is pressure times inertial number; the diffusivity is not the quoted one | proved | `c117_pk`, `c117_pk_inertial`, `c117_pk_frame`, `c117_diffusivity`, `c117_quoted`, `c117_factor`, `c117_equal_iff`, `c117_size` | over the reals |
| C118 | The unused limiters of new_integrator.py | proved | `c118_minmod`, `c118_scale`, `c118_linear`, `c118_not_slope`, `c118_vanLeer`, `c118_vanAlbada1`, `c118_zero`, `c118_third`, `c118_minmod2` | vanLeer, vanAlbada1 and minmod2 are not limiters of slopes: proved false with witnesses |
| C119 | What the continuum figures show | proved | `c119_layout`, `c119_viscous`, `c119_granular`, `c119_dp`, `c119_empty`, `c119_contours_empty`, `c119_contours`, `c119_heavier`, `c119_profile`, `c119_step` | All panels of the four layouts, with infinities and NaN as values; layouts are chosen by the name of the law of phase 0. |
| C120 | Markers, size wedges and saved data | proved | `c120_markers`, `c120_origin`, `c120_wedges`, `c120_circle`, `c120_title`, `c120_sizes`, `c120_layout`, `c120_nan`, `c120_density`, `c120_points`, `c120_density_step` | Numbers handed to matplotlib and numpy.save; colours and axes are not modelled. |
| C121 | Which fluid laws dissipate | proved | `c121_viscous`, `c121_bingham`, `c121_ken_kamrin`, `c121_planar`, `c121_pierre`, `c121_pouliquen`, `c121_linear_mu`, `c121_ken_simple`, `c121_step`, `c121_growth` | work of the stress the law aims at (for bingham: sets) on the strain increment of the step; the step statement is for a stress-free start |
| C122 | The density of the points | proved | `c122_step`, `c122_bounds`, `c122_total`, `c122_full`, `c122_block`, `c122_bed`, `c122_low` | Whole-step theorems for acyclic or (c122_step, c122_full, c122_low) any grids; inlets are excluded, since new points have the stated density (C28). |
| C123 | A run of the program is its time steps | proved | `c123_chain`, `c123_unique`, `c123_observers`, `c123_seen`, `c123_invariant`, `c123_run`, `c123_ends`, `c123_mass`, `c123_symmetric`, `c123_planar`, `c123_box`, `c123_order`, `c123_dynamic_escapes` | Hooks may have any state of their own; 'only look' means that they return the simulation state unchanged. Chain is the specification of a run without output; c123_unique says that it is determined. |
| C124 | A bed at rest | proved | `c124_balance`, `c124_bed`, `c124_stands`, `c124_filled`, `c124_thin`, `c124_step`, `c124_steps`, `c124_run` | Rest states: Lemmas/Tilt (sums of gradient weights over a block), Props/Rest (a balanced state is kept by every step and run), Props/Bed (the lithostatic preset gives such a state; the pouliquen bed below a gap does not keep it). |
| C125 | A body in uniform deformation | proved | `c125_deep`, `c125_nodes`, `c125_strain`, `c125_share`, `c125_inside`, `c125_thread` | Spec: Spread (block of whole cells), Flows (affine velocities), offCentre and feltShare (centre of the mass a node gets). One step from such a state; non-periodic, no inlets or outlets; walls excluded cell by cell. |
| C126 | What the figures of the material points show | proved | `c126_places`, `c126_rate`, `c126_behind`, `c126_yield`, `c126_initial`, `c126_energy` | Figures modelled as lists of numbers and places; dev_dstress and q are arguments of the figure as only figures read them. |
| C127 | Stand-alone segregation loop of integrators.py | proved | `c127_passes`, `c127_ends`, `c127_endless`, `c127_figures`, `c127_total`, `c127_volume`, `c127_empty`, `c127_main`, `c127_constants`, `c127_neither`, `c127_shipped` | The loop proper for any constants; c127_main for the program as shipped (one time step of the solver first). Non-finite fractions are an error of the model, Python goes on with them. |
| C128 | Round bodies | proved | `c128_circles`, `c128_inside`, `c128_count`, `c128_centre`, `c128_above`, `c128_isotropic`, `c128_ball`, `c128_shipped`, `c128_shipped_inside`, `c128_float`, `c128_brazillian` | over the reals with exact sine, cosine and pi; that the points of the float loops would be refused is modelled as the documented behaviour of numpy |
| C129 | Cut corners, piles and drums | proved | `c129_kept`, `c129_corner`, `c129_area`, `c129_share`, `c129_steep`, `c129_pile`, `c129_pile_place`, `c129_pile_centre`, `c129_pile_shipped`, `c129_square_drum`, `c129_square_share`, `c129_drum_wall`, `c129_drum` | exact numbers; int(...) is modelled as floor of a non-negative number |
| C130 | Nodal gradients next to empty nodes | proved | `c130_rate`, `c130_pk`, `c130_step`, `c130_steps`, `c130_across`, `c130_upright`, `c130_rigid`, `c130_unsegregated`, `c130_mirror` | Interpolation idle in every step; three cases of the masked difference; rigid bodies; mirror witness; irrelevance without segregation. |
| C131 | Bodies that share no node do not interact | proved | `c131_bodies`, `c131_reach`, `c131_reach_sharp`, `c131_tied` | c131_bodies compares a run with the run of the chosen points only, both given to complete; phases whose points use the shared velocity array are chosen whole or not at all (Whole), which c131_tied shows to be necessary. Closed box, no segregation, fixed time step. |
| C132 | What a simulation remembers | proved | `c132_memory`, `c132_needed` | c132_memory for every law and any number of steps (fixed time step); c132_needed gives a witness for eight of the listed fields |
| C133 | What the runs of the shipped input files leave on the disk | proved | `c133_written`, `c133_ends`, `c133_data`, `c133_velocities`, `c133_lost`, `c133_ball`, `c133_silent`, `c133_pictures` | The hooks of the shipped files are given to the main loop as lists of calls of Plotting; contents of data files are exact, pictures are not told apart. avalanche.py is left out: it does not compile. Drawing is assumed not to raise. |
| C134 | A stressed point on a grid line at the edge of a body stops a run with adaptive time steps | proved | `c134_empty`, `c134_stops`, `c134_side`, `c134_clean` | c134_empty: mass and momentum of a node at which no point has weight. c134_stops: what such a node does to the next time step. c134_side: a body with its side on a vertical grid line. c134_clean: points off the lines do no harm. The size of the time step is exact arithmetic; that 1e-310 added to t changes nothing is a property of floating point outside the model. |
| C135 | Symmetries and memory hold for whole runs with adaptive time steps | proved | `c135_moved`, `c135_memory`, `c135_swapped`, `c135_mirrored`, `c135_mirrored_unsegregated`, `c135_units`, `c135_main` | Chains of steps as in C123 (Ticks includes the choice of the next time step). Runs that end in an exception are not covered. |
| C136 | The main loop in floating point | proved | `c136_bits`, `c136_float`, `c136_nearest`, `c136_lost`, `c136_drift`, `c136_exact`, `c136_schedule`, `c136_static`, `c136_count`, `c136_stuck`, `c136_endless`, `c136_ends`, `c136_twice`, `c136_missed`, `c136_saves`, `c136_two_saves`, `c136_no_save` | Rounding to p bits is defined (roundTiesToEven, unbounded exponents) and satisfies the abstract hypotheses; windows with two and no saves are runs of the model in double precision. |
| C137 | Mapping points to the grid in floating point | proved | `c137_sum`, `c137_exact`, `c137_exact_grid`, `c137_weights`, `c137_nodes`, `c137_total`, `c137_cell`, `c137_wrap`, `c137_conserves`, `c137_lost_point`, `c137_negative_mass`, `c137_wrapped_out` | Rounding after every operation of the mapping; error bounds are proved against the exact mapping from the same reference nodes (c137_nodes) and against the totals of the points (c137_total, c137_conserves); failures in double precision are c137_lost_point, c137_negative_mass, c137_wrapped_out. |
| C138 | Forces, momentum, strain and motion in floating point | proved | `c138_exact`, `c138_sum`, `c138_move`, `c138_forces_sum`, `c138_forces`, `c138_node`, `c138_walls`, `c138_symmetric`, `c138_strain`, `c138_rest`, `c138_creep`, `c138_total`, `c138_gradient` | The laws, segregation and the constructor are arbitrary functions here (structure Besides), so the bounds hold however they round. |
| C139 | Changing units in floating point | proved | `c139_step`, `c139_steps`, `c139_grid`, `c139_power`, `c139_only`, `c139_run`, `c139_decimal` | c139_only: the factors that rounding commutes with. c139_grid, c139_step, c139_steps: the grid and n steps for whatever laws commute with the units; c139_run: instance for the rounded laws of Model/FloatLaw.lean with powers of two. c139_decimal: decimal units change the digits. Hypothesis on the square root: RootScales, true of the real one (realOps_root). |
| C140 | Stress updates in floating point | proved | `c140_exact`, `c140_elastic`, `c140_viscous`, `c140_symmetric`, `c140_still`, `c140_lost`, `c140_skew` | c140_exact: rnd = id gives the laws of Model/Constit.lean. c140_elastic, c140_viscous: whole strain and stress update of a point against the exact program on the same input. c140_symmetric with the counterexample c140_skew for whole steps; c140_still, c140_lost. elastic_time has exactness and symmetry only, no error bound. |
| C141 | Whole time steps in floating point | proved | `c141_bodies`, `c141_walls`, `c141_rest`, `c141_motion` | stepsR with the rounded laws of C140: bodies, walls and rest exact over any number of steps; uniform motion is not (concrete run). |
| C142 | Underflow and overflow | proved | `c142_normal`, `c142_nearest`, `c142_sums`, `c142_products`, `c142_overflow`, `c142_power`, `c142_units`, `c142_run`, `c142_walls`, `c142_rest` | Single operations with both ends of the range; underflow for whole runs and steps; overflow for single operations only. |
| C143 | Momentum balance of a time step in floating point | proved | `c143_gradients`, `c143_balance` | c143_balance is stated for timeMarchR with Besides.rounded (rounded laws); weight, stresses and contributions are read off the state after the step. Cell sizes are machine numbers and points lie exactly in the cell of the reference node they are given. |
| C144 | Fluids in floating point | proved | `c144_exact`, `c144_pressure`, `c144_sign`, `c144_friction`, `c144_cap`, `c144_stress`, `c144_light`, `c144_stuck`, `c144_frozen`, `c144_run`, `c144_start`, `c144_absorbed` | Lean: Props/FloatFluid. Exact without rounding; sign of the pressure, friction limits, viscosity cap, error bound of the stress, light and frozen material, linear_mu at zero pressure; whole runs for the sign and the start. |
| C145 | Segregation in floating point | proved | `c145_exact`, `c145_limiter`, `c145_faces`, `c145_ends`, `c145_total`, `c145_walled`, `c145_quiet`, `c145_masked`, `c145_single`, `c145_alone`, `c145_leaks` | With every operation of the KT scheme rounded: exact limiters, shared faces, leak at the ends and total of a line bounded by roundings; witnesses in binary64 for the leak and for a single size. |
| C146 | Plasticity and yield in floating point | proved | `c146_exact`, `c146_trace`, `c146_drift`, `c146_still`, `c146_rest`, `c146_symmetric`, `c146_target`, `c146_settles`, `c146_bingham`, `c146_cap`, `c146_traced`, `c146_jump` | All roundings with relative error u for bounds, drift, rest, symmetry and the cap; binary64 witnesses for the trace and for the wrong branch. The three laws are modelled for single points (law and stress update), not inside whole rounded time steps. |
| C147 | NT scheme on the grid, and its limiter at infinite slopes | proved | `c147_rows`, `c147_columns`, `c147_slope`, `c147_infinite` | nodeFlux is stated from the fields of the grid; the increments are assumed finite, as in C86 |
| C148 | Whole runs in floating point with plastic and Bingham laws | proved | `c148_exact`, `c148_run`, `c148_bodies`, `c148_walls`, `c148_rest`, `c148_balance`, `c148_loaded` | Besides.all joins the laws of C139, C144 and C146; C150 adds dp_rate, and C151 inlets. The comparison with the exact model excludes segregation. |
| C149 | Grain-size fractions in floating point | proved | `c149_fails`, `c149_normal`, `c149_pure`, `c149_nodes`, `c149_still`, `c149_parts`, `c149_exact`, `c149_run`, `c149_restless` | Increments on the grid (KT scheme plus diffusion) are arbitrary in c149_run, so it holds for whatever they are; stored fractions are assumed to be floating-point numbers. c149_restless is a counterexample by computation in binary64. |
| C150 | dp_rate in floating point, and whole runs with every law | proved | `c150_law`, `c150_unstressed`, `c150_measures`, `c150_increment`, `c150_yield`, `c150_direction`, `c150_symmetric`, `c150_no_time`, `c150_exact`, `c150_run`, `c150_bodies`, `c150_walls`, `c150_rest`, `c150_balance` | Errors are relative to the terms that are added, not to their sum: near yield the overstress is a difference and may have no correct digit. The root is any function; no claim about its accuracy is made. The grid scatter of the law is modelled with rounding and compared without (c150_law), as in C146. |
| C151 | The constructor of points in floating point, and runs with inlets | proved | `c151_constructor`, `c151_litho`, `c151_strain`, `c151_symmetric`, `c151_bulk`, `c151_viscous`, `c151_exact`, `c151_run`, `c151_walls` | No bounds are proved for the steady mu(I) and Poiseuille profiles, which are modelled with rounding and compared without. The sine, cosine and tangent of the slope are given numbers. Segregation is excluded from the comparison of runs, as in C150. |
| C152 | Whole runs in floating point with every law, boundary and grain size | proved | `c152_exact`, `c152_run`, `c152_walls`, `c152_fractions` | Besides.whole combines every law (C150), every new point (C151) and the bookkeeping of sizes (C149); the increments on the grid are a parameter, as in C149, and the equality with the exact model takes those of the exact scheme. |
| C153 | Ramped loads in floating point | proved | `c153_exact`, `c153_ramp`, `c153_error`, `c153_dead`, `c153_full` | The order statements assume that 1 and the final value are representable and hold for any monotone exponential with exp(0)=1; the error bound assumes a correctly rounded exponential and u at most 1/100, and the double precision results a correctly rounded exponential. |
| C154 | Nodal gradients and shear rates in floating point | proved | `c154_exact`, `c154_gradient`, `c154_gammadot`, `c154_rigid` | The interpolation of masked values is a parameter, and the error bounds are for grids without empty nodes; used within whole steps in C155. |
| C155 | Diffusion of sizes in floating point, and time steps with everything rounded | proved | `c155_exact`, `c155_run`, `c155_uniform`, `c155_error`, `c155_drive` | The error bound starts from the stored diffusivities; roots and powers are rounded correctly. The interpolation of masked values is a parameter. |

## Definitions and the code they model

| definition | code |
|------------|------|
| **Model/Constit.lean** | |
| `phiMeans` | constit.py:425-430 |
| `lawRigid` | constit.py:28-40 |
| `lawElastic` | constit.py:42-68 |
| `elasticTimeMass` | constit.py:83-85 |
| `lawElasticTime` | constit.py:70-112 |
| `lawVonMises` | constit.py:115-153 |
| `lawDp` | constit.py:155-231 |
| `dpRateGuts` | constit.py:245-263 |
| `lawDpRate` | constit.py:233-302 |
| `lawViscous` | constit.py:304-332 |
| `lawBingham` | constit.py:334-360 |
| `kenKamrinEta` | constit.py:381-387 |
| `lawKenKamrin` | constit.py:362-399 |
| `inertial` | constit.py:436,510 |
| `muI` | constit.py:443 |
| `etaOf` | constit.py:446,515 |
| `flowStressInc` | constit.py:448,464 |
| `pouliquenPressure` | constit.py:453-457 |
| `lawPouliquen` | constit.py:401-488 |
| `linearMuRaw` | constit.py:502-524 |
| `lawLinearMu` | constit.py:490-532 |
| `lawKenSimple` | constit.py:534-586 |
| `runLaw` | particle.py:156 |
| `Particle.updateStress` | particle.py:148-158 |
| **Model/Figures.lean** | |
| `Grid.panel` | plotting.py:148-152, 224-229, 263-267 |
| `Grid.viscousPanels` | plotting.py:138-146 |
| `Grid.granularPanels` | plotting.py:189-223 |
| `Grid.dpPanels` | plotting.py:260,261 |
| `Grid.contours` | plotting.py:270-318 |
| `Layout` | plotting.py:117,125,158,255,268 |
| `Grid.profile` | plotting.py:130,163 |
| `Grid.sizeShown` | plotting.py:600-606, 615-620 |
| `titleMean` | plotting.py:610,621 |
| `marker` | plotting.py:82-85 |
| `wedges` | plotting.py:538-558 |
| `reshape` | plotting.py:568, 574, 580, 581 |
| `Grid.savedSize` | plotting.py:565-582 |
| `savedPhi` | plotting.py:587-590 |
| **Model/Float.lean** | |
| `stepTimeR` | MPM.py:90,91 |
| `advanceR` | MPM.py:90,91,93 |
| `loopBodyR` | MPM.py:63-93 |
| `loopR` | MPM.py:62-93 |
| `mainRunR` | MPM.py:57-101 |
| **Model/FloatDiffusion.lean** | |
| `diffusivityR` | integrators.py:265 |
| `diffusionIncR` | integrators.py:263-278 |
| `phiIncrementR` | integrators.py:280-283; grid.py:373,374 |
| `Grid.updatePkR` | grid.py:376,414,416 |
| `schemeIncR` | MPM.py:32-36 |
| **Model/FloatDp.lean** | |
| `dev2R` | constit.py:248, 280 |
| `shear2R` | constit.py:252, 291 |
| `shearNormR` | constit.py:253, 292 |
| `meanR` | constit.py:251 |
| `equivR` | constit.py:252,253 |
| `excessR` | constit.py:256-259 |
| `relaxR` | constit.py:261 |
| `dilateR` | constit.py:262 |
| `dpRateGutsR` | constit.py:245-263 |
| `dpRateLawR` | constit.py:265-302 |
| `Particle.updateDpR` | particle.py:148-158 |
| **Model/FloatForces.lean** | |
| **Model/FloatGradient.lean** | |
| `calcGradientR` | grid.py:321-362 |
| `Grid.calcGammadotR` | grid.py:298-310 |
| **Model/FloatInit.lean** | |
| `depthR` | particle.py:23,29 |
| `lithoStressR` | particle.py:19-32 |
| `hookeInvR` | particle.py:34,48 |
| `initStressR` | particle.py:18-51 |
| `steadyViscousUR` | particle.py:75 |
| `bagnoldAR` | particle.py:77 |
| `bagnoldUR` | particle.py:78 |
| `bagnoldRateR` | particle.py:79 |
| `kineticR` | particle.py:80 |
| `poiseuilleYR` | particle.py:83-85 |
| `poiseuilleUR` | particle.py:82-97 |
| `initFlowR` | particle.py:73-97 |
| `mkPointR` | particle.py:8-101 |
| **Model/FloatLaw.lean** | |
| `devR` | constit.py:55 |
| `hookeR` | constit.py:56 |
| `Particle.applyStressR` | particle.py:158 |
| `elasticR` | constit.py:54-62 |
| `elasticTimeMassR` | constit.py:83-85 |
| `elasticTimeR` | constit.py:98-106 |
| `viscousR` | constit.py:316-326 |
| `elasticVisR` | constit.py:66-69, 109-112 |
| `viscousVisR` | constit.py:330,332 |
| `volR` | constit.py:432, 505, 550 |
| `shearR` | constit.py:433, 506, 551 |
| `shearRateR` | constit.py:435, 508 |
| `meanSizeR` | constit.py:425-426, 503 |
| `phiMeansR` | constit.py:425-430 |
| `inertialR` | constit.py:436, 510 |
| `muIR` | constit.py:443 |
| `etaOfR` | constit.py:446, 515, 553 |
| `pressureR` | constit.py:450-451, 519-520, 559-560 |
| `pouliquenR` | constit.py:401-488 |
| `linearMuR` | constit.py:502-524 |
| `kenSimpleR` | constit.py:550-568 |
| `flowVisR` | constit.py:482-488, 526-532, 582-586 |
| `Particle.updateStressR` | particle.py:148-158 |
| `mkParticleR` | particle.py:8-101 |
| `Besides.rounded` | grid.py:298-310; MPM.py:32 |
| **Model/FloatMap.lean** | |
| `gridDxR` | grid.py:89,90 |
| `gridXR` | grid.py:91,92 |
| `mkGridR` | grid.py:77-112 |
| `shapeNR` | grid.py:222-225 |
| `shapeGR` | grid.py:226-229 |
| `Particle.getReferenceNodeR` | particle.py:160-173 |
| `Particle.getBasisFunctionsR` | particle.py:176-184 |
| `Particle.p2gR` | particle.py:186-200 |
| `wrapXR` | mplist.py:96-99 |
| `getReferenceNodesR` | mplist.py:101-110 |
| `getBasisFunctionsR` | mplist.py:112-121 |
| `p2gAllR` | mplist.py:130-132 |
| `toGridR` | MPM.py:29-32; mplist.py:130-132 |
| **Model/FloatRange.lean** | |
| **Model/FloatSeg.lean** | |
| `div0R` | integrators.py:19-30 |
| `minmodR` | integrators.py:32-40 |
| `maxmodR` | integrators.py:42-50 |
| `superbeeR` | integrators.py:52-60 |
| `limiterR` | integrators.py:62-71 |
| `invHarmonicR` | integrators.py:205 |
| `ktFluxR` | integrators.py:247-249 |
| `ktBCR` | integrators.py:152-157 |
| `ktCoreR` | integrators.py:181-191 |
| `ktLineR` | integrators.py:176-194 |
| `ktXR` | integrators.py:176-194 |
| `ktYR` | integrators.py:176-194 |
| **Model/FloatSize.lean** | |
| `Grid.nodalFractionsR` | mplist.py:133-140 |
| `Particle.mapPhiR` | particle.py:247-258 |
| `normalisePhiR` | mplist.py:305-307 |
| `moveGrainsizeR` | mplist.py:291-307 |
| `Besides.sorting` | MPM.py:33-38 |
| **Model/FloatStep.lean** | |
| `bodyForceR` | particle.py:331 |
| `Particle.incrementGravityR` | particle.py:322-331 |
| `updateForcesR` | mplist.py:193-202 |
| `Particle.recoverPositionR` | particle.py:292-306 |
| `Particle.checkPositionR` | mplist.py:254-265 |
| `recoverPositionsR` | mplist.py:247-265 |
| `makeCyclicR` | grid.py:232-240 |
| `Grid.makeCyclicMQR` | grid.py:232-240 |
| `Grid.makeCyclicForcesR` | grid.py:232-240 |
| `nodeVelR` | particle.py:137-140 |
| `Particle.updateStrainR` | particle.py:126-146 |
| `Particle.nodalForcesR` | particle.py:308-319 |
| `nodalForcesAllR` | mplist.py:173-175 |
| `getNodalForcesR` | mplist.py:166-176 |
| `Grid.BCsR` | grid.py:242-255 |
| `roughNodeR` | grid.py:268-288 |
| `Grid.updateMomentumR` | grid.py:257-296 |
| `addVelR` | particle.py:271 |
| `Particle.moveR` | particle.py:260-279 |
| `Particle.moveRigidR` | particle.py:281-290 |
| `movePointsR` | mplist.py:178-191 |
| `outletLeftR` | mplist.py:28-39 |
| `cyclicLRR` | mplist.py:87-99 |
| `Besides` | mplist.py:133-140; particle.py:148-158; mplist.py:164; MPM.py:32-38; particle.py:8-101 |
| `getNodalMassMomentumR` | mplist.py:123-151 |
| `updateStressStrainR` | mplist.py:153-164 |
| `gridPhaseR` | MPM.py:20-29 |
| `momentumPhaseR` | MPM.py:30,31 |
| `appendPointR` | mplist.py:68,69,84,85 |
| `inletRightR` | mplist.py:55-69 |
| `inletTopR` | mplist.py:71-85 |
| `pointsPhaseR` | MPM.py:39-45 |
| `timeMarchR` | MPM.py:19-46 |
| `stepsR` | MPM.py:62,63,90,91 |
| **Model/FloatWhole.lean** | |
| `Besides.whole` | MPM.py:33-38 |
| **Model/FloatYield.lean** | |
| `yieldRatioR` | constit.py:133,139 |
| `plasticR` | constit.py:132,133 |
| `plasticIncR` | constit.py:132,133 |
| `plasticDevR` | constit.py:135 |
| `vonMisesR` | constit.py:127-143 |
| `vonMisesVisR` | constit.py:145-153 |
| `volumetricR` | constit.py:353, 391 |
| `binghamRateR` | constit.py:349 |
| `binghamFactorR` | constit.py:351,352 |
| `binghamR` | constit.py:346-354 |
| `kenRatesR` | constit.py:378 |
| `kenRateR` | constit.py:379,380 |
| `kenCapR` | constit.py:386 |
| `kenEtaR` | constit.py:382-387 |
| `kenKamrinR` | constit.py:372-393 |
| `Particle.updateYieldR` | particle.py:148-158 |
| **Model/Forces.lean** | |
| `rampUp` | triaxial.py:23,24; fluid.py:38,39; stokes.py:35,37; slope_stab.py:23; francois.py:26 |
| `assignForces` | triaxial.py:21-24; fluid.py:38,39; stokes.py:34-37; slope_stab.py:23,27 |
| `readForces` | particle.py:331; grid.py:247,248; grid.py:251,252 |
| `dpForces` | dp_unit_test.py:24-30; dp_rate_unit_test.py:24-30 |
| `pouliquenForces` | pouliquen_unit_test.py:23-30 |
| `timeMarchV` | MPM.py:19-46; MPM.py:20 |
| `stepsV` | MPM.py:62,63,90,91 |
| `drumPeriod` | bi_drum.py:31; bi_square_drum.py:34 |
| `drumAngle` | bi_drum.py:32 |
| `squareDrumAngle` | bi_square_drum.py:35 |
| `tiltAngle` | vicky_latest.py:23-27 |
| `fluidAngle` | fluid.py:33-37 |
| **Model/Grid.lean** | |
| `GP` | initialise.py:60-64 |
| `BP` | initialise.py:38-58 |
| `Vis` | grid.py:180-191 |
| `Grid` | grid.py:77-170; grid.py:172-207 |
| `gridDx` | grid.py:89,90 |
| `gridX` | grid.py:91 |
| `gridY` | grid.py:92 |
| `boundaryV` | grid.py:129-159 |
| `boundaryH` | grid.py:130-154 |
| `boundaryConveyor` | grid.py:156-158 |
| `weighting` | grid.py:163-170 |
| `Grid.wipe` | grid.py:172-207 |
| `mkGrid` | grid.py:77-112 |
| `nearbyNodes` | grid.py:209-213 |
| `shapeN` | grid.py:215-230 |
| `shapeG` | grid.py:226-229 |
| `mkNode` | grid.py:64-74 |
| `makeCyclic` | grid.py:232-240 |
| `Grid.makeCyclicMQ` | grid.py:232-240; MPM.py:27,38; mplist.py:164,176 |
| `Grid.BCs` | grid.py:242-255 |
| `roughNode` | grid.py:268-288 |
| `Grid.updateMomentum` | grid.py:257-296 |
| **Model/Init.lean** | |
| `defaultsP1` | initialise.py:13-17 |
| `defaultsP2` | initialise.py:19,20 |
| `defaultsP3` | initialise.py:24-35 |
| `defaultsB` | initialise.py:38-58 |
| `defaultsG` | initialise.py:60-62 |
| `defaultsO` | initialise.py:79-97 |
| `defaultNt` | initialise.py:18 |
| `initP` | initialise.py:13-35 |
| `initG` | initialise.py:60-64 |
| `uniformPhi` | initialise.py:69 |
| `initPhase` | initialise.py:69,70 |
| `Phases.toList` | initialise.py:66 |
| `saveDir` | initialise.py:75,76 |
| `initEnergy` | initialise.py:99 |
| `getParameters` | initialise.py:11-99,105-116 |
| **Model/Inputs.lean** | |
| `placePoints` | silo.py:86-91 |
| `fullLayout` | silo.py:80-91; bi_double_insets.py:87-100; bi_seg_test.py:92-106; bi_vertical_chute.py:97-111; bingham_unit_test.py:84-96; chuteflow.py:85-96; dp_rate_unit_test.py:75-88; dp_unit_test.py:82-95; gsd.py:79-113; poly_seg_test.py:80-93; pouliquen_unit_test.py:81-93; seg_unit_test.py:66-78; tri_seg_test.py:88-101; viscous_unit_test.py:79-91; tunnel.py:61-81; bi_drum.py:93-109 |
| `toplessLayout` | incline.py:81-92; francois.py:73-87 |
| `damLayout` | dam_break.py:67-79 |
| `boxLayout` | bi_dam_break.py:94-103 |
| `conveyorLayout` | bi_conveyor.py:78-89 |
| `outsideDisc` | francois.py:84,117 |
| `tunnelOut` | tunnel.py:71-77 |
| `cellArea` | silo.py:92; bi_seg_test.py:107 |
| `domainArea` | incline.py:94; dp_unit_test.py:96 |
| `chuteArea` | chuteflow.py:97 |
| `damArea` | dam_break.py:81 |
| `sizeBins` | bi_dam_break.py:54,55; PSM_slope_stab.py:55,56; bi_double_insets.py:53,54; bi_seg_test.py:53,54; bi_vertical_chute.py:54,55 |
| `sizeStep` | bi_dam_break.py:57 |
| `Grading` | bi_dam_break.py:107,115,123 |
| `gradedPhi` | bi_dam_break.py:107-124; PSM_slope_stab.py:104-117 |
| `layeredPhi` | PSM_slope_stab.py:119-124 |
| **Model/Integrators.lean** | |
| `div0` | integrators.py:19-30 |
| `minmod` | integrators.py:32-40 |
| `maxmod` | integrators.py:42-50 |
| `superbee` | integrators.py:52-60 |
| `limiter` | integrators.py:62-71 |
| `padKT` | integrators.py:166-168,171-173 |
| `padCyc` | integrators.py:216-220 |
| `invHarmonic` | integrators.py:205 |
| `ktFlux` | integrators.py:247-249 |
| `ktBC` | integrators.py:152-157 |
| `ktCore` | integrators.py:181-191 |
| `ktLine` | integrators.py:176-194 |
| `ktBoundary` | integrators.py:201,202 |
| `ktX` | integrators.py:176-194 |
| `ktY` | integrators.py:176-194 |
| `diffusivity` | integrators.py:265 |
| `diffusionInc` | integrators.py:263-278 |
| `phiIncrement` | integrators.py:280-283; grid.py:373,374 |
| `maGradient` | grid.py:359 |
| `calcGradient` | grid.py:321-362 |
| `Grid.calcGammadot` | grid.py:298-310 |
| `Grid.updatePk` | grid.py:376,414,416 |
| **Model/Loop.lean** | |
| `LoopPar` | initialise.py:112,113 |
| `maxSpeed` | initialise.py:108 |
| `defaultTimestep` | initialise.py:106-114 |
| `saveTest` | MPM.py:71 |
| `nthHook` | MPM.py:71,72 |
| `advance` | MPM.py:90,91,93 |
| `loopBody` | MPM.py:63-93 |
| `loop` | MPM.py:62-93 |
| `mainRun` | MPM.py:57-101 |
| **Model/MPList.lean** | |
| `outletLeft` | mplist.py:28-39 |
| `outletBottom` | mplist.py:41-53 |
| `inletDue` | mplist.py:65,81 |
| `inletRight` | mplist.py:55-69 |
| `inletTop` | mplist.py:71-85 |
| `wrapX` | mplist.py:96-99 |
| `cyclicLR` | mplist.py:87-99 |
| `getReferenceNodes` | mplist.py:101-110 |
| `getBasisFunctions` | mplist.py:112-121 |
| `p2gAll` | mplist.py:130-132 |
| `Grid.nodalFractions` | mplist.py:133-140 |
| `Grid.zeroBoundaryMomentum` | mplist.py:147-151 |
| `getNodalMassMomentum` | mplist.py:123-151 |
| `Particle.stressStrain` | mplist.py:160-163 |
| `cyclicVis` | mplist.py:164 |
| `updateStressStrain` | mplist.py:153-164 |
| `nodalForcesAll` | mplist.py:173-175 |
| `getNodalForces` | mplist.py:166-176 |
| `movePoints` | mplist.py:178-191 |
| `updateForces` | mplist.py:193-202 |
| `Particle.checkPosition` | mplist.py:254-265 |
| `recoverPositions` | mplist.py:247-265 |
| `normalisePhi` | mplist.py:305-307 |
| `moveGrainsize` | mplist.py:291-307 |
| `mkPoints` | mplist.py:19-26 |
| `mkList` | mplist.py:19-26 |
| **Model/Main.lean** | |
| `Dyn.updateForces` | MPM.py:21 |
| `gridPhase` | MPM.py:20-29 |
| `momentumPhase` | MPM.py:30-32 |
| `segregationPhase` | MPM.py:33-38 |
| `pointsPhase` | MPM.py:39-45 |
| `timeMarch` | MPM.py:19-46 |
| `stepTime` | MPM.py:62,63,90,91 |
| **Model/Measure.lean** | |
| `anyYielded` | mplist.py:273-277 |
| `yieldFlag` | mplist.py:273-277 |
| `listTimestep` | mplist.py:267-288 |
| `height` | particle.py:342 |
| `Particle.energy` | particle.py:333-345 |
| `measureEnergy` | mplist.py:233-245 |
| **Model/NT.lean** | |
| `minmodX` | integrators.py:32-40 |
| `maxmodX` | integrators.py:42-50 |
| `limiterX` | integrators.py:52-71 |
| `padOne` | integrators.py:106,107,118,119 |
| `invHarmonicX` | integrators.py:103 |
| `ntFlux` | integrators.py:91-130 |
| `ntU` | integrators.py:133,75-88 |
| `ntUPrime` | integrators.py:135 |
| `ntF` | integrators.py:136 |
| `ntStaggered` | integrators.py:139,137 |
| `ntFStaggered` | integrators.py:140 |
| `ntNext` | integrators.py:142-145 |
| `ntLine` | integrators.py:132-150 |
| `ntX` | integrators.py:132-150 |
| `ntY` | integrators.py:132-150 |
| `clip01` | integrators.py:290,291 |
| `normaliseInc` | integrators.py:285-295 |
| `plotEdges` | grid.py:97 |
| `plotWidths` | grid.py:102 |
| `rk4` | constit.py:20-26 |
| **Model/NewIntegrator.lean** | |
| `div0` | new_integrator.py:30-41 |
| `vanLeer` | new_integrator.py:14-16 |
| `vanAlbada1` | new_integrator.py:17-19 |
| `minmod2` | new_integrator.py:20-28 |
| `velDen` | new_integrator.py:67,68 |
| `velocity` | new_integrator.py:65-69 |
| `flux` | new_integrator.py:61-63 |
| `slope` | new_integrator.py:72 |
| `cplusleft` | new_integrator.py:77,78 |
| `rhs` | new_integrator.py:79-95 |
| `KT` | new_integrator.py:71-95 |
| `padEdge` | new_integrator.py:99 |
| `padZero` | new_integrator.py:100 |
| `euler` | new_integrator.py:153-156 |
| `rk4` | new_integrator.py:137-144 |
| `rk3` | new_integrator.py:146-151 |
| `diffusion` | new_integrator.py:158-163 |
| **Model/Output.lean** | |
| `savefigName` | plotting.py:54-77 |
| `drawGammaDot` | plotting.py:94-111 |
| `drawContinuum` | plotting.py:113-325 |
| `drawMaterialPoints` | plotting.py:327-514 |
| `drawEnergy` | plotting.py:516-527 |
| `drawGsdMp` | plotting.py:529-563 |
| `saveSBar` | plotting.py:565-569 |
| `saveDensity` | plotting.py:571-575 |
| `saveU` | plotting.py:577-582 |
| `savePhiMP` | plotting.py:584-592 |
| `drawGsdGrid` | plotting.py:598-623 |
| **Model/Params.lean** | |
| `Law` | particle.py:74,76 |
| `PressureMode` | particle.py:18-51 |
| `FlowMode` | particle.py:73-101 |
| `Phase` | particle.py:11-14 |
| `Par` | initialise.py:7-127 |
| **Model/Particle.lean** | |
| `VRef` | particle.py:11-14 |
| `Particle` | particle.py:134 |
| `bodyForce` | particle.py:17,331 |
| `hooke` | particle.py:37-38,41-42 |
| `hookeInv` | particle.py:34,48 |
| `lithoStress` | particle.py:19-32 |
| `initStress` | particle.py:18-51 |
| `steadyViscousU` | particle.py:75 |
| `bagnoldA` | particle.py:77 |
| `bagnoldU` | particle.py:78 |
| `bagnoldRate` | particle.py:79 |
| `poiseuilleY` | particle.py:83-85 |
| `poiseuilleU` | particle.py:82-97 |
| `initFlow` | particle.py:73-97 |
| `mkParticle` | particle.py:8-101 |
| `Particle.getReferenceNode` | particle.py:160-173 |
| `Particle.getBasisFunctions` | particle.py:176-184 |
| `Particle.node` | particle.py:195 |
| `Particle.p2g` | particle.py:186-200 |
| `nodeVel` | particle.py:137-140 |
| `Particle.updateStrain` | particle.py:126-146 |
| `Particle.applyStress` | particle.py:158 |
| `addVel` | particle.py:260-279 |
| `Particle.moveRigid` | particle.py:281-290 |
| `Particle.recoverPosition` | particle.py:292-306 |
| `Particle.nodalForces` | particle.py:308-319 |
| `Particle.incrementGravity` | particle.py:322-331 |
| `Particle.mapPhi` | particle.py:247-258 |
| `Particle.addToBoundary` | particle.py:202-214 |
| **Model/Round.lean** | |
| `ringPoints` | ball.py:68-71 |
| `ballLayout` | ball.py:65-71 |
| `discArea` | ball.py:72; flow.py:129; stokes.py:131 |
| `brazilArea` | brazillian.py:92 |
| `floatRings` | brazillian.py:86-91; flow.py:122-127; stokes.py:124-129 |
| `drumGrain` | bi_drum.py:98-107 |
| `drumWall` | bi_drum.py:137 |
| `drumLayout` | bi_drum.py:127-140 |
| `slopeKeep` | slope_stab.py:92-95; pierre.py:103-106 |
| `slopeArea` | slope_stab.py:99-101; pierre.py:110-112 |
| `cellsAcross` | vicky.py:70,71 |
| `pileLayout` | vicky.py:69-80; vicky_latest.py:78-89 |
| `pileArea` | vicky.py:81; vicky_latest.py:90 |
| `squareDrumLayout` | bi_square_drum.py:103-114 |
| `squareDrumArea` | bi_square_drum.py:51,115 |
| **Model/Scatter.lean** | |
| `shownRate` | plotting.py:103, 349, 392 |
| `elasticPoints` | plotting.py:336-377 |
| `vonMisesPoints` | plotting.py:378-444 |
| `dpPoints` | plotting.py:445-475 |
| `pointsFigure` | plotting.py:335-510 |
| `gammaDotFigures` | plotting.py:94-109 |
| `energyCurves` | plotting.py:518-522 |
| **Model/SegLoop.lean** | |
| `SegSt` | integrators.py:312-322 |
| `rawIncrement` | integrators.py:280-283 |
| `meanSizes` | integrators.py:314,315 |
| `segStep` | integrators.py:313-322 |
| `segLoop` | integrators.py:312-322 |
| `segPar` | integrators.py:308-310 |
| `segMain` | integrators.py:304-322 |
| **Model/Shipped.lean** | |
| `Counters.init` | initialise.py:15,16 |
| `fileData` | plotting.py:568 |
| `InputFile.nth` | PSM_slope_stab.py:141-149; bi_dam_break.py:141-149; bi_seg_test.py:146-158; bi_square_drum.py:133-140; ball.py:80-92; initialise.py:95 |
| `InputFile.final` | PSM_slope_stab.py:151-158; bi_dam_break.py:151-159; bi_seg_test.py:160-172; bi_square_drum.py:142-149; ball.py:94-106 |
| **Model/Slope.lean** | |
| `slopeRow` | PSM_slope_stab.py:97-102,126 |
| `slopeLayout` | PSM_slope_stab.py:91-103 |
| `elasticTime` | bi_square_drum.py:123-126 |
| `flowTime` | silo.py:94-98; PSM_slope_stab.py:128-132; bi_dam_break.py:128-132; bi_double_insets.py:102-106; bi_seg_test.py:125-129; bi_vertical_chute.py:113-117 |

{"id": "C01", "title": "Reference node is the lower-left corner of the containing cell", "statement": "For a material point anywhere in the half-open domain [x_m,x_M) x [y_m,y_M), get_reference_node succeeds and returns the index of the lower-left corner of the unique grid cell containing it; the four nodes reported by nearby_nodes are then exactly the four corners of that cell (counter-clockwise) and are all valid array indices.", "quantifier": "every grid extent and resolution nx,ny>=2 and every real position in the half-open domain", "why_tests_cant": "positions and resolutions are a continuum; off-by-one errors occur at cell edges only", "anchors": ["particle.py:Particle.get_reference_node", "grid.py:Grid.nearby_nodes", "grid.py:Grid.__init__"]}
{"id": "C02", "title": "Shape functions form a partition of unity", "statement": "For any local position whatsoever the four shape function values returned by Grid.N sum to one and the four gradients sum to the zero vector; for a point inside its cell every shape function value lies in [0,1]; at a corner of the cell the corresponding shape function is 1 and the others 0.", "quantifier": "every local position and every non-zero cell size", "why_tests_cant": "algebraic identity over a continuum", "anchors": ["grid.py:Grid.N"]}
{"id": "C03", "title": "Position is recovered exactly from nodes", "statement": "For every material point in the half-open domain, recover_position (the check run when check_positions is set) returns exactly the point's own in-plane position, so the 'lost particle' diagnostic never fires for such a point.", "quantifier": "every grid and every position in the domain", "why_tests_cant": "continuum of positions", "anchors": ["particle.py:Particle.recover_position", "mplist.py:MatPointList.recover_position"]}
{"id": "C04", "title": "Out-of-domain material points: exact failure condition", "statement": "A material point outside the domain is not rejected when it is less than one cell to the left of / below the domain: it is mapped to the adjacent edge cell with a negative weight. A point at or beyond the right edge in the top cell row, or at or above the top edge, makes the mapping raise IndexError; and the mapping of a point with negative cell index wraps round to the other end of the node numbering without any exception.", "quantifier": "every grid and every out-of-domain position", "why_tests_cant": "continuum of positions; the failure depends on Python negative indexing", "anchors": ["particle.py:Particle.get_reference_node", "particle.py:Particle.get_basis_functions", "particle.py:Particle.get_nodal_mass_momentum"]}
{"id": "C05", "title": "Mapping to the grid conserves mass", "statement": "Whenever mapping all material points to a freshly wiped grid raises no exception, the sum of nodal masses equals the sum of material point masses, whatever the positions.", "quantifier": "every list of phases and material points, every grid", "why_tests_cant": "unbounded number of points and arbitrary placement", "anchors": ["particle.py:Particle.get_nodal_mass_momentum", "mplist.py:MatPointList.get_nodal_mass_momentum", "grid.py:Grid.wipe"]}
{"id": "C06", "title": "Mapping to the grid conserves momentum", "statement": "With no boundary nodes active, whenever mapping all material points to a freshly wiped grid raises no exception, the sum of nodal momenta equals the sum over material points of mass times velocity, componentwise; with boundary nodes active the only momentum removed is the wall-normal (and, if rough, tangential) component at boundary nodes.", "quantifier": "every list of phases and material points, every grid and boundary mask", "why_tests_cant": "unbounded number of points and arbitrary placement", "anchors": ["particle.py:Particle.get_nodal_mass_momentum", "mplist.py:MatPointList.get_nodal_mass_momentum"]}
{"id": "C07", "title": "Grid state does not depend on material point order", "statement": "The nodal mass, momentum, grain size mass and forces after mapping do not depend on the order in which the material points are stored.", "quantifier": "every permutation of every list of material points", "why_tests_cant": "factorially many orders", "anchors": ["mplist.py:MatPointList.get_nodal_mass_momentum", "mplist.py:MatPointList.get_nodal_forces"]}
{"id": "C08", "title": "Internal forces are self-equilibrated; body forces sum to total weight", "statement": "After get_nodal_forces on a wiped grid the internal forces sum to the zero vector over all nodes whatever the stresses, and the external forces sum to the sum of mass times body force.", "quantifier": "every list of material points, all stresses", "why_tests_cant": "unbounded number of points", "anchors": ["particle.py:Particle.get_nodal_forces", "mplist.py:MatPointList.get_nodal_forces"]}
{"id": "C09", "title": "Rigid translation produces no strain", "statement": "If all four nodes around a material point carry mass above M_tol and share one velocity, update_strain produces a zero strain increment and leaves the total strain unchanged.", "quantifier": "every velocity, position and grid", "why_tests_cant": "continuum", "anchors": ["particle.py:Particle.update_strain"]}
{"id": "C10", "title": "Strain increments are exact for linear velocity fields", "statement": "If the velocity of the four massive nodes around a material point is an affine function of nodal position with gradient A, update_strain produces exactly the symmetric part of A (in-plane columns) times dt, wherever the point sits in the cell.", "quantifier": "every affine velocity field, position and grid", "why_tests_cant": "continuum", "anchors": ["particle.py:Particle.update_strain", "grid.py:Grid.N"]}
{"id": "C11", "title": "Strain increments are symmetric", "statement": "update_strain always yields a symmetric strain increment, and keeps a symmetric total strain symmetric over any number of steps.", "quantifier": "every nodal state and every history", "why_tests_cant": "all histories", "anchors": ["particle.py:Particle.update_strain"]}
{"id": "C12", "title": "Material point motion interpolates nodal velocities", "statement": "If the four nodes around an in-cell material point are massive, move_material_points changes its position by dt times a convex combination of the nodal velocities, so each displacement component lies between dt*min and dt*max of the nodal velocity components; if all four velocities are equal it moves with exactly that velocity.", "quantifier": "every nodal state and in-cell position", "why_tests_cant": "continuum", "anchors": ["particle.py:Particle.move_material_points"]}
{"id": "C13", "title": "Grid-to-particle transfer of momentum is conservative", "statement": "If every node touched by a material point has mass above M_tol and every material point owns its velocity, then moving all material points changes the sum of mass times velocity by exactly dt times the sum of nodal momentum rates; if some touched nodes are at or below M_tol the momentum rate of exactly those nodes is lost.", "quantifier": "every particle list and nodal state produced by mapping those particles", "why_tests_cant": "unbounded lists", "anchors": ["particle.py:Particle.move_material_points", "particle.py:Particle.get_nodal_mass_momentum"]}
{"id": "C14", "title": "Centre of mass moves with total nodal momentum", "statement": "If every touched node is massive, moving all (non-rigid) material points changes the sum of mass times position by exactly dt times the total nodal momentum.", "quantifier": "every particle list", "why_tests_cant": "unbounded lists", "anchors": ["particle.py:Particle.move_material_points"]}
{"id": "C15", "title": "Rigid phases move exactly at the prescribed velocity", "statement": "Material points of a phase with law 'rigid' move by dt*intruder_v per step, take exactly that velocity, and keep their mass, whatever the grid does.", "quantifier": "every grid state", "why_tests_cant": "continuum of states", "anchors": ["particle.py:Particle.move_rigid_points", "mplist.py:MatPointList.move_material_points"]}
{"id": "C16", "title": "Edge options restrain exactly the nodes of that edge", "statement": "With only has_bottom/has_top/has_left/has_right/no_slip_bottom set, a node is marked as restraining vertical motion iff it lies in the bottom row (has_bottom) or top row (has_top), and as restraining horizontal motion iff it lies in the left/right column (has_left/has_right) or in the bottom row (no_slip_bottom).", "quantifier": "every grid size and option combination", "why_tests_cant": "all grid sizes", "anchors": ["grid.py:Grid.boundary"]}
{"id": "C17", "title": "silo_bottom restrains the whole grid above the bottom row", "statement": "The silo_bottom option marks as vertically restrained the bottom row outside the outlet window and also every node above the bottom row, on every grid with nx>=5; hence nodal vertical momentum is zero everywhere except in the outlet window of the bottom row and no material above can fall. (With nx=4 the outlet window reaches node 4, in the second row.)", "quantifier": "every grid size", "why_tests_cant": "all grid sizes", "anchors": ["grid.py:Grid.boundary", "inputs/silo.py"]}
{"id": "C18", "title": "No flow through walls", "statement": "Without a conveyor and without cyclic boundaries, after momentum update every node marked in boundary_v has zero horizontal momentum and momentum rate and every node marked in boundary_h zero vertical momentum and rate, provided the nodal momentum came out of get_nodal_mass_momentum; with roughness (and no wall_mu) both components vanish on all marked nodes.", "quantifier": "every nodal force and momentum state, every mask", "why_tests_cant": "continuum of states", "anchors": ["grid.py:Grid.update_momentum", "mplist.py:MatPointList.get_nodal_mass_momentum"]}
{"id": "C19", "title": "Nodal momentum update is Newton's law off the walls", "statement": "At nodes not marked as boundary (no conveyor), update_momentum changes momentum by exactly dt*(external-internal force), or 0.7 times that with damping; total momentum over an unrestrained grid changes by dt times the sum of external forces.", "quantifier": "every nodal state", "why_tests_cant": "continuum of states", "anchors": ["grid.py:Grid.update_momentum"]}
{"id": "C20", "title": "wall_mu permanently turns all four edges into walls", "statement": "With roughness and wall_mu set, one momentum update marks all four outer edges as boundaries for all later steps, whichever edges the user enabled; marks are only ever added.", "quantifier": "every mask and grid", "why_tests_cant": "all masks and histories", "anchors": ["grid.py:Grid.update_momentum"]}
{"id": "C21", "title": "Wall friction never reverses or amplifies the tangential force", "statement": "With wall_mu>=0 the tangential momentum rate after friction has the sign of (or is zero compared with) the one before, its magnitude never increases, and it is reduced by at most wall_mu times the normal momentum rate.", "quantifier": "every nodal state", "why_tests_cant": "continuum", "anchors": ["grid.py:Grid.update_momentum"]}
{"id": "C22", "title": "Cyclic summation identifies left and right columns", "statement": "make_cyclic sets the left and right node of every row to the sum of their previous values, leaves all other nodes unchanged, and preserves the total over physically distinct nodes (one of each left/right pair) for every nx>=2; applying it twice doubles the edge values.", "quantifier": "every field and grid with nx>=2", "why_tests_cant": "all grid sizes", "anchors": ["grid.py:Grid.make_cyclic"]}
{"id": "C23", "title": "Nodal volumes tile the domain", "statement": "Nodal volumes are positive and sum to the domain volume (width*height*thickness) without cyclic boundaries; with cyclic boundaries those of the physically distinct nodes do.", "quantifier": "every grid with nx,ny>=2", "why_tests_cant": "all grid sizes", "anchors": ["grid.py:Grid.volume"]}
{"id": "C24", "title": "Cyclic boundaries keep material points in the domain", "statement": "After cyclic_lr every material point that was within one domain width of the domain has x in [x_m,x_M], has moved by a whole number of domain widths, and nothing else about it changed.", "quantifier": "every particle list and position within one width", "why_tests_cant": "continuum", "anchors": ["mplist.py:MatPointList.cyclic_lr"]}
{"id": "C25", "title": "outlet_bottom deletes exactly the material points below the domain", "statement": "After outlet_bottom the remaining material points of each phase are exactly those with y >= y_m, in their original order and unmodified, and the phase count equals the number of remaining points.", "quantifier": "every particle list", "why_tests_cant": "unbounded lists; deletion while iterating", "anchors": ["mplist.py:MatPointList.outlet_bottom"]}
{"id": "C26", "title": "outlet_left deletes exactly the material points left of x_m+dx", "statement": "After outlet_left the remaining material points of each phase are exactly those with x >= x_m+dx, in their original order and unmodified, and the phase count equals the number of remaining points (so the outlet is one cell inside the domain).", "quantifier": "every particle list", "why_tests_cant": "unbounded lists", "anchors": ["mplist.py:MatPointList.outlet_left"]}
{"id": "C27", "title": "Phase counts always match the stored material points", "statement": "Starting from construction, after any sequence of time steps with any outlets and inlets, P.S[p].n equals the number of stored material points of phase p, so no loop skips a point or indexes out of range.", "quantifier": "every history of operations", "why_tests_cant": "all histories", "anchors": ["mplist.py", "MPM.py:time_march"]}
{"id": "C28", "title": "Inlets add points only on schedule and never before t>0", "statement": "inlet_right adds exactly one point per entry of yp and inlet_top exactly one, at x_M-gap and y_M-gap respectively, when t is non-zero and within dt after a multiple of inlet_rate, and otherwise change nothing; existing points keep their order. inlet_top places its point at x=(x_M-x_m)/2, which is the middle of the domain iff x_m=0.", "quantifier": "every time, step and particle list", "why_tests_cant": "continuum", "anchors": ["mplist.py:MatPointList.inlet_right", "mplist.py:MatPointList.inlet_top"]}
{"id": "C29", "title": "A step does not depend on the previous grid state", "statement": "The outcome of time_march depends on the parameters, the material points and the fixed geometry/boundary masks only: any two grids that agree on those give the same result, whatever their nodal fields held before.", "quantifier": "all pairs of previous grid states", "why_tests_cant": "all histories", "anchors": ["grid.py:Grid.wipe", "MPM.py:time_march"]}
{"id": "C30", "title": "Motion stays planar", "statement": "If all initial velocities and the intruder velocity have zero z component and the stresses have zero xz,yz components, then after any number of time steps every material point has z position 0 and z velocity 0, and every nodal momentum and force has zero z component.", "quantifier": "every history", "why_tests_cant": "all histories", "anchors": ["MPM.py:time_march", "particle.py", "grid.py"]}
{"id": "C31", "title": "Stress stays symmetric", "statement": "For laws whose stress increment is symmetric for symmetric inputs (rigid, elastic, elastic_time, viscous, ...), the stress of every material point is symmetric after any number of steps.", "quantifier": "every history", "why_tests_cant": "all histories", "anchors": ["particle.py:Particle.update_stress", "constit.py"]}
{"id": "C32", "title": "The convected stress correction uses twice the symmetric velocity gradient", "statement": "Because L and L_T are bound to one array in update_strain, update_stress applies the correction -(D s + s D) dt with D = sum of both L and its transpose, so for a rigid rotation the stress does not rotate (the correction vanishes), and for a symmetric velocity gradient it is twice the intended one.", "quantifier": "every velocity gradient and stress", "why_tests_cant": "continuum", "anchors": ["particle.py:Particle.update_strain", "particle.py:Particle.update_stress"]}
{"id": "C33", "title": "Elastic law is isotropic linear elasticity", "statement": "The elastic law's increment is linear in the strain increment, symmetric, with trace 3K times the volumetric strain and deviator 2G times the deviatoric strain; it does non-negative second-order work when K,G>=0, and opposite increments cancel.", "quantifier": "every strain increment and moduli", "why_tests_cant": "continuum", "anchors": ["constit.py:elastic"]}
{"id": "C34", "title": "Initial stress and strain are consistent with the elastic moduli", "statement": "For the lithostatic and compression presets the initial strain is the one for which the elastic law with moduli K,G returns the initial stress; the initial stress is symmetric; the lithostatic stress vanishes on the free surface and is compressive (negative) below it when gravity points down.", "quantifier": "every position, slope angle, moduli", "why_tests_cant": "continuum", "anchors": ["particle.py:Particle.__init__"]}
{"id": "C35", "title": "von Mises: deviator stays traceless and saturates at yield", "statement": "Under the von_mises law the stored deviatoric stress stays traceless for ever, pressure is updated elastically with 3K, and at the yield surface (norm = sqrt(2) k) a strain increment in the direction of the current deviator produces no further deviatoric stress while one in the opposite direction unloads with twice the elastic stiffness.", "quantifier": "every stress state, strain increment and exponent", "why_tests_cant": "continuum and all histories", "anchors": ["constit.py:von_mises"]}
{"id": "C36", "title": "Viscous law is Newtonian", "statement": "The viscous law sets the deviatoric stress to 2 mu_s times the deviatoric strain rate regardless of history, and the pressure equals the initial pressure plus K times the accumulated mean strain.", "quantifier": "every history of strain increments", "why_tests_cant": "all histories", "anchors": ["constit.py:viscous"]}
{"id": "C37", "title": "Bingham law is continuous and monotone at the yield rate", "statement": "With gamma_c = tau_0/(mu_0-mu_s) the norm of the Bingham deviatoric stress is a continuous non-decreasing function of shear rate, and when flowing (rate above gamma_c) it is at least 2 tau_0.", "quantifier": "every shear rate and parameters", "why_tests_cant": "continuum", "anchors": ["constit.py:bingham"]}
{"id": "C38", "title": "mu(I) law never goes into tension and never produces a non-finite stress", "statement": "For finite inputs with dt>0 and eta_max>=0 finite, the pouliquen law always terminates without sys.exit: the stress increment is finite even at zero shear rate or zero pressure, the viscosity used lies in the interval up to eta_max, the pressure afterwards is <=0, and is 0 when the density is below 0.8 of the reference.", "quantifier": "every finite state including the singular ones", "why_tests_cant": "singular points of measure zero; all states", "anchors": ["constit.py:pouliquen"]}
{"id": "C39", "title": "mu(I) friction coefficient is bounded and increasing", "statement": "For mu_0,delta_mu,I_0>0 the friction coefficient of the pouliquen law lies between mu_0 and mu_0+delta_mu and is monotone in the inertial number, including the limits I=0 and I=inf.", "quantifier": "every inertial number", "why_tests_cant": "continuum", "anchors": ["constit.py:pouliquen"]}
{"id": "C40", "title": "linear_mu produces NaN stress for a stress-free point at rest", "statement": "The linear_mu law caps the pressure at 0 and the viscosity at eta_max for non-singular states, but (unlike pouliquen) gives a NaN stress increment when pressure and shear rate are both zero, which is the default initial state.", "quantifier": "every parameter set", "why_tests_cant": "singular state", "anchors": ["constit.py:linear_mu"]}
{"id": "C41", "title": "ken_kamrin viscosity is never positive under downward gravity", "statement": "With max_g<0 and y_M>y_m the viscosity used by ken_kamrin is strictly negative for every state of positive density (the cap is negative); it is exactly the cap 250*rho*max_g*(y_M-y_m)^3, so shear rate, pressure and friction parameters have no effect on it. With max_g >= 0 it is between zero and the cap.", "quantifier": "every state", "why_tests_cant": "continuum", "anchors": ["constit.py:ken_kamrin"]}
{"id": "C42", "title": "elastic_time mass reduction is bounded", "statement": "Under elastic_time a point's mass never increases, only changes for phase 0 after t_0, and never falls below 0.95*rho_f*V (or its initial value if that was smaller), over any number of steps.", "quantifier": "every history", "why_tests_cant": "all histories", "anchors": ["constit.py:elastic_time"]}
{"id": "C43", "title": "Laws that cannot run", "statement": "The dp law raises AttributeError on the first call for every freshly constructed material point, whatever the parameters; pouliquen raises when mu_0, delta_mu or I_0 is a scalar rather than an array (if ns>=1); dp_rate yields a non-finite stress increment for every state with zero shear stress.", "quantifier": "every state and parameter set", "why_tests_cant": "all states", "anchors": ["constit.py:dp", "constit.py:dp_rate", "constit.py:pouliquen"]}
{"id": "C44", "title": "Limiters", "statement": "minmod(a,b) is zero when a,b have different signs and otherwise the one of smaller magnitude; superbee(a,b) is zero for different signs, is symmetric, homogeneous, has the common sign, and lies between minmod(a,b) and min(2 min, max) in magnitude.", "quantifier": "all real a,b", "why_tests_cant": "continuum", "anchors": ["integrators.py:minmod", "integrators.py:maxmod", "integrators.py:superbee"]}
{"id": "C45", "title": "Segregation advection conserves every grain size along each grid line", "statement": "For every grid line in either direction, every grain size, and any segregation velocities, the increments returned by KT sum to zero along the line: nothing enters or leaves through the ends.", "quantifier": "every field, velocity, line length>=1", "why_tests_cant": "unbounded grids and continuum of states", "anchors": ["integrators.py:KT", "integrators.py:BC", "integrators.py:pad_KT"]}
{"id": "C46", "title": "No segregation without a driving gradient, for a single size, or at empty/boundary nodes", "statement": "KT_flux is zero at every node that is a boundary or has mass below M_tol, zero wherever the kinetic pressure gradient is zero, and zero for a single grain size with phi=1; if it is zero along a line, KT returns a zero increment there.", "quantifier": "every state", "why_tests_cant": "continuum", "anchors": ["integrators.py:KT_flux", "integrators.py:KT"]}
{"id": "C47", "title": "Segregation fluxes of all sizes cancel at a node", "statement": "At every node with sum phi = 1 and positive sizes, the phi-weighted segregation velocities of all grain sizes sum to zero.", "quantifier": "every size distribution", "why_tests_cant": "continuum", "anchors": ["integrators.py:KT_flux"]}
{"id": "C48", "title": "Normalised grain size fractions form a distribution", "statement": "After the normalise_phi step every material point's fractions lie in [0,1] and sum to 1 whenever at least one fraction was positive before.", "quantifier": "every fraction vector", "why_tests_cant": "continuum", "anchors": ["mplist.py:MatPointList.move_grainsize_on_grid"]}
{"id": "C49", "title": "Mean grain size stays within the size range", "statement": "At each node with mass, if every material point's fractions are non-negative and sum to 1 and points are in the domain, nodal fractions are non-negative and sum to 1 and the nodal mean size lies between the smallest and largest size; at nodes without mass fractions and mean size are 0.", "quantifier": "every particle list", "why_tests_cant": "unbounded lists", "anchors": ["mplist.py:MatPointList.get_nodal_mass_momentum"]}
{"id": "C50", "title": "Main loop takes exactly floor((t_f-t_0)/dt)+1 steps", "statement": "With static time stepping and dt>0 the main loop terminates after exactly floor((t_f-t_0)/dt)+1 steps when t_0<=t_f (none otherwise), step k is executed at time t_0+k*dt, and tstep counts them.", "quantifier": "every dt,t_f", "why_tests_cant": "unbounded", "anchors": ["MPM.py:main"]}
{"id": "C51", "title": "Hook order", "statement": "initial_graphs is called once first and final_graphs once last; each step calls, in order, time_march, before_every_timestep, optionally after_every_nth_timestep, after_every_timestep.", "quantifier": "every run length", "why_tests_cant": "all histories", "anchors": ["MPM.py:main"]}
{"id": "C52", "title": "Periodic output is written once per savetime window", "statement": "With static dt<=savetime and t_0=0, for each k there is exactly one step in the window [k*savetime,(k+1)*savetime) satisfying the save condition's time test; output is skipped only at t=dt, so step 0 is saved and the 'first timestep' exclusion actually hits the second step.", "quantifier": "every dt, savetime, run length", "why_tests_cant": "unbounded", "anchors": ["MPM.py:main"]}
{"id": "C53", "title": "Dynamic time step respects every critical time", "statement": "The default update_timestep sets dt to CFL times the minimum of 0.1*cell/max nodal speed and all phases' critical times; hence the fastest node crosses at most 0.1*CFL of a cell per step, and with all nodes at rest and no critical times dt becomes infinite.", "quantifier": "every nodal state", "why_tests_cant": "continuum", "anchors": ["initialise.py:get_parameters.update_timestep"]}
{"id": "C54", "title": "User settings are never overridden by defaults", "statement": "get_parameters leaves every attribute present in the input unchanged (except mode, phases, save_dir and S wrapped in a list), provides every default listed when absent, and applying the defaulting twice equals applying it once.", "quantifier": "every attribute set", "why_tests_cant": "all combinations of attributes", "anchors": ["initialise.py:get_parameters"]}
{"id": "C55", "title": "Yield-triggered refinement keeps the end time but repeats", "statement": "MatPointList.update_timestep keeps the remaining simulated time (nt-tstep)*dt unchanged when it refines, and once a point has yielded it refines again on every later call.", "quantifier": "every history of calls", "why_tests_cant": "all histories", "anchors": ["mplist.py:MatPointList.update_timestep"]}
{"id": "C56", "title": "Saved data files are not overwritten", "statement": "Across any sequence of output calls, save_s_bar, save_density and save_phi_MP never write the same file name twice; save_u writes to names keyed by the figure counter, so two save_u calls without a draw_continuum between them overwrite.", "quantifier": "every sequence of output calls", "why_tests_cant": "all histories", "anchors": ["plotting.py:Plotting"]}
{"id": "C57", "title": "Only phase 0 follows time-dependent gravity", "statement": "After update_forces every phase-0 point has body force g(t)*(sin,cos,0) and points of other phases keep the body force they were created with, over any number of steps.", "quantifier": "every history", "why_tests_cant": "all histories", "anchors": ["particle.py:Particle.increment_gravity", "mplist.py:MatPointList.update_forces"]}
{"id": "C58", "title": "Shared initial velocity", "statement": "If a phase sets initial_v, all its points share a single velocity array: after any step all of them have the same velocity, equal to the previous one plus the sum of all their individual increments.", "quantifier": "every particle list and step", "why_tests_cant": "unbounded lists", "anchors": ["particle.py:Particle.__init__", "particle.py:Particle.move_material_points"]}
{"id": "C59", "title": "Energy measures", "statement": "Kinetic energy is non-negative; for a horizontal domain (theta=0) the reported height is |y| for every point with x != 0, and NaN exactly at the origin.", "quantifier": "every position", "why_tests_cant": "continuum", "anchors": ["particle.py:Particle.energy"]}
{"id": "C60", "title": "Mass and momentum balance over a whole run", "statement": "Over any number of time steps without inlets, outlets, walls or mass-changing laws, the mass of every material point is unchanged, and if all touched nodes stay above M_tol the total momentum changes each step by exactly dt times total weight.", "quantifier": "every history", "why_tests_cant": "all histories", "anchors": ["MPM.py:time_march"]}
{"id": "C61", "title": "Internal obstacles", "statement": "With only the option wall, horizontal motion is restrained exactly on the lower half of the middle column of nodes; with two_walls, exactly on the lower half of the column at one quarter and the upper half of the column at three quarters; with silo_left, exactly on the second column outside a six-row opening around the middle; with box, on a square grid, exactly on the four sides of the square with corners (4,4) and (8,8). On a grid that is not square the box option marks other nodes.", "quantifier": "every grid size", "why_tests_cant": "unbounded grid sizes, slice arithmetic", "anchors": ["grid.py:Grid.boundary"]}
{"id": "C62", "title": "Applied boundary stresses", "statement": "With vertical_force (horizontal_force), after the boundary conditions the external force on a node differs from its weight by exactly its mass times 2 q/(rho h), inwards, on the two opposite edges, and by nothing elsewhere, with no leftovers from earlier steps; on a full edge these forces add up to stress times area.", "quantifier": "every state, step and grid", "why_tests_cant": "continuum of states", "anchors": ["grid.py:Grid.BCs", "grid.py:Grid.wipe"]}
{"id": "C63", "title": "Conveyor belt", "statement": "With the conveyor option the belt is the bottom row without the two outermost nodes at either side; after every momentum update the belt nodes have horizontal velocity v_0, while vertical momentum and all other nodes get the ordinary update. The belt speed changes positions only: no velocity, stress or any other field of a material point depends on it within a step.", "quantifier": "every state and step", "why_tests_cant": "continuum of states", "anchors": ["grid.py:Grid.update_momentum", "particle.py:Particle.move_material_points"]}
{"id": "C64", "title": "Constructed material points", "statement": "The constructor makes, for every phase, exactly the requested number of points in the order of the coordinate lists: the i-th point is at (X[i], Y[i], 0), has the phase's density, volume A times thickness and the corresponding mass, the fractions PHI[i] if the phase is heterogeneous and the phase's fractions otherwise, the body force g(sin theta, cos theta, 0), and is at rest (or at the phase's initial_v) without an initial flow. It fails if a coordinate list is too short.", "quantifier": "every parameter set", "why_tests_cant": "unbounded lists", "anchors": ["mplist.py:MatPointList.__init__", "particle.py:Particle.__init__"]}
{"id": "C65", "title": "Initial equilibrium", "statement": "Lithostatic initial stresses balance gravity: between any two heights shear and vertical stress change by minus the weight in between. The steady viscous profile is at rest at height 0, free of shear at y_M, and viscosity times its second difference balances the downslope weight for every layer. It ignores y_m: the bottom of the domain is at rest only if y_m = 0 or y_m = 2 y_M.", "quantifier": "every parameter set and height", "why_tests_cant": "continuum", "anchors": ["particle.py:Particle.__init__"]}
{"id": "C66", "title": "Steady granular slope flow", "statement": "The initial Bagnold profile vanishes at height 0, is continuous, its derivative is the shear rate stored on the points, which vanishes at the top; with lithostatic pressure, density = packing times rho_s and no top gap, the friction coefficient of every constructed point below the surface equals tan(theta).", "quantifier": "every real parameter set and height", "why_tests_cant": "continuum, real analysis", "anchors": ["particle.py:Particle.__init__"]}
{"id": "C67", "title": "Steady Poiseuille flow", "statement": "With driving force between static and dynamic friction, the initial Poiseuille velocity vanishes at both walls, is symmetric and continuous, constant in the core where the shear stress is below the static friction, and elsewhere its shear rate is positive and has a friction coefficient equal to shear stress over pressure.", "quantifier": "every real parameter set and height", "why_tests_cant": "continuum, real analysis", "anchors": ["particle.py:Particle.__init__"]}
{"id": "C68", "title": "Advected fractions stay non-negative", "statement": "If all fractions of a size are non-negative and the segregation speeds in the two directions satisfy 2 dt (ax/dx + ay/dy) <= 1, the fractions after the advection increment are non-negative at every node; with a longer time step they can become negative.", "quantifier": "all grids, fields of fractions, pressure gradients, masks, sizes and time steps within the bound", "why_tests_cant": "limiter branches at every node, all fields", "anchors": ["integrators.py:KT", "integrators.py:KT_flux", "integrators.py:superbee"]}
{"id": "C69", "title": "Reconstruction enlarges jumps", "statement": "Finding: the limited slopes are applied away from the faces instead of towards them, so the flux of the Kurganov-Tadmor scheme is that of the first-order scheme with the jump between neighbouring fractions multiplied by 1 + p + q with 0 <= p, q <= 1 (2 for linear data) instead of being reduced; and one step does not keep the sum of fractions of a node at one.", "quantifier": "all lines of nodes, fractions and velocities; concrete witness for the sum", "why_tests_cant": "plots look plausible because the scheme is still conservative and stable", "anchors": ["integrators.py:KT", "integrators.py:BC", "integrators.py:superbee"]}
{"id": "C70", "title": "A closed box never fails and never leaks", "statement": "With walls on all four edges, no cyclic boundary, conveyor, inlet or rigid phase, and laws that cannot fail on finite states, a run of any length raises no exception and keeps every material point inside the half-open domain, provided that in each step made no node with mass above M_tol moves as far as one cell. Without that Courant condition a point can jump over a wall in a single step.", "quantifier": "all grids, phases, points and states satisfying the stated conditions; runs of every length; concrete witness for the escape", "why_tests_cant": "leaks and failures show only in particular long runs", "anchors": ["MPM.py:time_march", "grid.py:update_momentum", "particle.py:move_material_points", "particle.py:get_reference_node"]}
{"id": "C71", "title": "Nodal gradients are exact for linear fields", "statement": "On a grid without empty nodes calculate_gradient returns the exact gradient of a linear field at every node, edges included, and the central difference over two cells at every inner node of any field; hence for a linear velocity field the stored shear rate is du/dy + dv/dx everywhere (signed; stretching does not count), and with uniform shear rate, size, density and pressure the driving gradient of segregation vanishes.", "quantifier": "all grids of at least 2 by 2 nodes without empty nodes, linear fields, masses, and interpolations that keep the entries that are not masked", "why_tests_cant": "all grids and fields", "anchors": ["grid.py:calculate_gradient", "grid.py:calculate_gammadot", "grid.py:update_pk"]}
{"id": "C72", "title": "Diffusion keeps the volume of every size in a walled box", "statement": "With walls on all four edges and finite diffusivities, the diffusion increment keeps the total of every size weighted with the nodal volumes. Finding: it does not keep the unweighted total, which is the one that advection keeps (C45), so their sum keeps neither.", "quantifier": "all grids, fractions, finite diffusivities, time steps; concrete witness for the unweighted total", "why_tests_cant": "sum over all nodes of arbitrary fields; the drift is small in plots", "anchors": ["integrators.py:Diffusion", "grid.py:Grid.__init__"]}
{"id": "C73", "title": "What diffusion does to the fractions of a node", "statement": "With uniform diffusivity fractions that add up to one keep doing so, and a uniform mixture stays as it is. Findings: with a varying diffusivity a uniform mixture changes and its fractions stop adding up to one; fields that alternate from node to node do not diffuse at all in a walled box; and a node without mass and pressure freezes the grain sizes of the nodes two away in its row and column, whatever advection says and even with a zero diffusion constant, so that the conservation of advection is lost next to empty nodes.", "quantifier": "all grids, fractions, diffusivities; concrete witnesses for the sum and the lost total", "why_tests_cant": "nan_to_num hides the NaN; checkerboards are smoothed in plots", "anchors": ["integrators.py:Diffusion", "integrators.py:increment_grainsize", "grid.py:calculate_phi_increment"]}
{"id": "C74", "title": "The stand-alone scheme keeps the total for one velocity", "statement": "In new_integrator.py, with the same velocity at all nodes, the increments of Euler and RK4 add up to zero and RK3 keeps the total concentration, whatever the intermediate stages, because the padded velocity closes the ends. Finding: with velocities that differ from node to node the total is not kept, since the two nodes at a face use different velocities for it.", "quantifier": "all line lengths, concentrations, velocities, spacings and time steps for which the scheme returns finite numbers; concrete witness for varying velocities", "why_tests_cant": "the script only ever runs with velocity -1", "anchors": ["new_integrator.py:KT", "new_integrator.py:Euler", "new_integrator.py:RK3", "new_integrator.py:RK4", "new_integrator.py:pad"]}
{"id": "C75", "title": "The stand-alone scheme keeps concentrations non-negative", "statement": "For concentrations between zero and one the Euler step divides by nothing that vanishes, and with 6/5 dt max|v| <= dx leaves no concentration negative, also for velocities that differ from node to node. Finding: it can raise a concentration above one next to a wall.", "quantifier": "all line lengths, concentrations in [0,1], velocities, spacings, time steps within the bound; concrete witness for the overshoot", "why_tests_cant": "limiter branches at every node", "anchors": ["new_integrator.py:KT", "new_integrator.py:velocity", "new_integrator.py:Euler"]}
{"id": "C76", "title": "The stand-alone diffusion has open ends", "statement": "Finding: diffusion in new_integrator.py changes the total (with half weights at the ends) by dt D times the difference between the last and the first gradient, divided by dx squared; so linear profiles are stationary and material enters and leaves through the ends.", "quantifier": "all line lengths of at least 2, concentrations, diffusivities, spacings and time steps", "why_tests_cant": "the total is never computed by the script", "anchors": ["new_integrator.py:diffusion"]}
{"id": "C77", "title": "Nodal pressure is the mass-weighted sum of point pressures", "statement": "After the stress update of a time step on a non-cyclic grid, the pressure stored at each node is the sum over all material points of shape function times mass times the pressure the point's law has just given it (rigid points contribute nothing). The nodal values add up to the sum of mass times pressure over the points, and, when all points are in the domain, have positive mass and follow laws other than rigid, elastic_time and dp_rate, pressure over mass at a node lies between the smallest and largest pressure of the points around it.", "quantifier": "for all states, lists of points, laws (other than dp_rate) and nodes", "why_tests_cant": "a forgotten factor, a wrong node or a law that reports a stale value changes the nodal average only in states where the neighbouring points differ", "anchors": ["constit.py:42-586", "particle.py:148-158", "mplist.py:153-164"]}
{"id": "C78", "title": "The sign of the nodal pressure depends on the law", "statement": "Under the same stress elastic and von_mises report the mean stress (compression negative) while elastic_time reports its opposite, so two equal points of the two laws at the same place leave the nodal pressure unchanged; dp_rate adds to the grid the opposite of the pressure it stores on the point (up to the out-of-plane stress).", "quantifier": "for all stresses, parameters, points and nodes", "why_tests_cant": "a single-law run looks consistent; the cancellation only shows when two laws meet in one cell", "anchors": ["constit.py:59-68", "constit.py:97-112", "constit.py:281-302"]}
{"id": "C79", "title": "Empty nodes freeze the grain sizes around them in every step", "statement": "In a time step with segregation on a non-cyclic grid, if a node carries no mass then the grain-size increment is exactly zero at that node and at the nodes two to its left, right, above and below, whatever the shear rate, pressure and grain sizes there.", "quantifier": "for all states with points in the domain and positive masses, all laws, all step sizes, all nodes", "why_tests_cant": "the NaN of 0/0 is silently replaced by zero, so a run looks quiet rather than wrong next to free surfaces", "anchors": ["integrators.py:252-283", "grid.py:376-416", "MPM.py:33-38"]}
{"id": "C80", "title": "Nodal forces and strain increments are dual", "statement": "After the grid part of a time step on a non-cyclic grid, the step size times the power of the internal nodal forces on the nodal velocities equals the sum over material points of volume times stress contracted with the strain increment of that step, provided the stresses handed to the step are symmetric.", "quantifier": "for all states, lists of points, laws, step sizes and boundary options with cyclic_lr off", "why_tests_cant": "using different weights, nodes or node velocities for forces and for strains leaves every single test plausible while the discrete scheme stops conserving energy", "anchors": ["particle.py:126-158", "particle.py:308-320", "mplist.py:153-176"]}
{"id": "C81", "title": "Mapping to the grid never creates kinetic energy", "statement": "The kinetic energy of the nodes after the grid part of a time step is at most that of the material points at its start, if points are in the domain with masses that are not negative. If all points move with one velocity and there are no walls the two are equal.", "quantifier": "for all states, point lists, velocities and boundary options with cyclic_lr off", "why_tests_cant": "a mapping that gains energy makes runs blow up only after very many steps and only for some arrangements of points", "anchors": ["particle.py:176-200", "mplist.py:112-151", "grid.py:242-256"]}
{"id": "C82", "title": "Moments and angular momentum of the nodal fields", "statement": "After the grid part of a time step on a non-cyclic grid with all points in the domain: the first moments of the internal nodal forces are the volume-weighted sums of the stress components of the points, so with symmetric stresses the internal forces exert no torque; the torque of the external nodal forces is the torque of the body forces at the points; without walls the angular momentum of the nodes equals that of the points.", "quantifier": "for all states, lists of points, laws and step sizes", "why_tests_cant": "a shape function with the wrong slope or an asymmetric force still balances in sum; the error only shows as a slow spurious rotation", "anchors": ["particle.py:160-200", "particle.py:308-320", "mplist.py:101-176"]}
{"id": "C83", "title": "dp_rate: elastic below yield, relaxation per step beyond it", "statement": "Whenever dp_rate returns finite stresses: below yield (q <= mu p) the in-plane stress increment is that of plane isotropic elasticity with the moduli of the first phase; beyond yield a point that does not strain has its in-plane deviator multiplied by 1 - 3G(q - mu p)/(q p t_star) and its pressure raised by K beta q (q - mu p)/(mu p^2 t_star), neither of which involves the step size; if 3G(q - mu p) > 2 q p t_star the shear stress grows instead of relaxing. What the law does to the point is the same for every step size.", "quantifier": "for all stresses, strain increments, parameters and step sizes", "why_tests_cant": "the relaxation looks plausible at one step size; only comparing all step sizes shows that t_star counts steps and not time", "anchors": ["constit.py:233-302"]}
{"id": "C84", "title": "ken_simple never uses its friction coefficient", "statement": "The law divides by a shear rate it never sets. A point whose shear rate is zero keeps it zero over any run, and the stress the law aims at is the (non-tensile) pressure plus a viscous deviator of viscosity eta_max where the old pressure is not zero and zero where it is, for every positive friction coefficient; for densities of at most 2500 the increment removes the whole stress.", "quantifier": "for all points, parameters with a positive scalar mu_0, and runs of any length (inlets and outlets included) that do not start from the steady profile", "why_tests_cant": "a run with a viscosity of eta_max looks like a stiff granular material; the missing dependence on mu_0 shows only in a comparison over all values", "anchors": ["constit.py:534-586", "particle.py:57"]}
{"id": "C85", "title": "One idle point makes four nodes NaN", "statement": "In the mu(I) law the friction coefficient and the inertial number of a point become NaN exactly when its pressure is zero and it does not shear. Such a NaN (also in the viscosity) makes the corresponding nodal field NaN at all four nodes of the point's cell, even at nodes where its shape function is zero, whatever the other points contribute.", "quantifier": "for all states on a non-cyclic grid, all lists of points and phases", "why_tests_cant": "numpy warnings are switched off and plots simply leave the nodes blank", "anchors": ["constit.py:401-488", "mplist.py:153-164"]}
{"id": "C86", "title": "NT scheme: line totals change only through the end nodes", "statement": "Along any grid line, if all increments of a size returned by the (unused) Nessyahu-Tadmor scheme are finite, they add up to dt/dx times the difference of the segregation fluxes of the last and the first node. They add up to zero if both end nodes are walls or empty. Unlike KT the scheme has no closed ends of its own.", "quantifier": "for all lines of any length, any fractions, sizes, gradients, masks and steps", "why_tests_cant": "conservation for all profiles and lengths; a test with walls at both ends does not show the leak", "anchors": ["integrators.py:75-150"]}
{"id": "C87", "title": "NT scheme: fractions keep summing to one for two sizes only", "statement": "With two sizes whose fractions sum to one at every node, the increments of the two sizes cancel at every node. With three sizes they do not, even without a driving gradient.", "quantifier": "for all two-size lines with finite increments; a concrete three-size line", "why_tests_cant": "the limiter is applied to every size on its own, which is only additive for two sizes; a bidisperse test passes", "anchors": ["integrators.py:132-150", "integrators.py:32-71"]}
{"id": "C88", "title": "NT scheme smears per step, not per time", "statement": "Without a driving gradient the increments of NT do not depend on the time step and are not zero: a size that is present at one inner node only loses half of its amount there in every step, a quarter to each neighbour.", "quantifier": "for all lines, time steps and open nodes with a harmonic mean size", "why_tests_cant": "needs a comparison over all time steps", "anchors": ["integrators.py:132-150"]}
{"id": "C89", "title": "KT scheme and the sum of fractions", "statement": "The scheme in use keeps the sum of the fractions of every node if all nodes of the line have the same fractions (summing to one). It does not in general, not even for two sizes whose fractions sum to one at all nodes, which is why the fractions have to be normalised afterwards.", "quantifier": "for all gradients, masks and any number of sizes; a concrete two-size line", "why_tests_cant": "uniform mixtures, the usual initial state, show no defect", "anchors": ["integrators.py:176-194", "integrators.py:196-263", "mplist.py:301-307"]}
{"id": "C90", "title": "normalise_phi_increment keeps totals but not bounds", "statement": "Where the increments are numbers, and at least one resulting fraction is positive, the rescaled increments have the same sum as before; the other nodes become NaN. Fractions do not become negative unless the total is negative, and increments that leave all fractions within [0,1] are returned unchanged. Fractions above one can still come out.", "quantifier": "for all fractions and increments, any of which may be infinite or NaN", "why_tests_cant": "the mixture of masked, clipped and rescaled nodes has too many cases", "anchors": ["integrators.py:285-295"]}
{"id": "C91", "title": "Plotting cells", "statement": "Every node is the centre of its plotting cell, all cells are one grid spacing wide, and together they reach half a cell beyond the domain on both sides. The separately recorded widths dx_plot agree with the cells inside but are half at both ends, so that they sum to the width of the domain instead.", "quantifier": "for all domains and grids of at least two nodes", "why_tests_cant": "for all numbers of nodes", "anchors": ["grid.py:97-103"]}
{"id": "C92", "title": "RK4 in constit.py", "statement": "For a stress rate that is affine in the stress, RK4 returns the increment of the exact solution up to its fourth order term, and for a rate independent of the stress it returns that rate.", "quantifier": "for all linear maps, offsets and stresses in any vector space", "why_tests_cant": "for all linear maps", "anchors": ["constit.py:20-26"]}
{"id": "C93", "title": "Moving the whole set-up moves the simulation", "statement": "If the domain, the initial positions and the inlet positions are all moved by the same amount, then the grid, the constructed points and every later state are the moved originals, with everything else (velocities, stresses, fractions, nodal fields, failures) exactly equal. This needs no inlet_top for sideways moves, because that inlet enters points at half the domain width measured from x = 0 (then a due point breaks the equality for every non-zero move), and no steady initial profile for vertical moves where points are constructed, because those profiles are measured from y = 0 (the viscous one changes by a constant velocity).", "quantifier": "for all parameters, laws, states, displacements and numbers of steps", "why_tests_cant": "for all displacements and runs; and in floating point the equality only holds approximately", "anchors": ["particle.py:160-184", "particle.py:292-306", "mplist.py:28-99", "MPM.py:19-46", "grid.py:89-92"]}
{"id": "C94", "title": "A time step on a periodic grid", "statement": "With cyclic_lr, after the mapping and force computation of a step, every node holds the mass, momentum, internal force, external force and pressure that the points give to all nodes at its place, where the first and last node of a row are the same place. Hence both copies agree (also in the other fields made periodic), totals over the distinct places are the mass, weight and (without walls) momentum of the points, internal forces cancel, a uniformly moving body gives every node mass times its velocity, and both copies then move alike if the walls mark them alike and no horizontal stress is applied. The size fractions are the exception: they are means over the points of one side only, so the two copies of an edge node can hold different fractions.", "quantifier": "for all parameters with cyclic_lr, laws, states, nodes", "why_tests_cant": "for all states; the repository's periodic inputs only look at plots", "anchors": ["MPM.py:22-41", "mplist.py:123-176", "grid.py:232-240"]}
{"id": "C95", "title": "The storage order of the points of a phase does not matter", "statement": "If the points of each phase are stored in another order, every time step and every run succeeds exactly when the original does, and ends with exactly the same grid and the same points in some order. This includes accumulation of all nodal fields (with NaN and infinity), the deletion loops of the outlets, the inlets and phases whose points share one velocity array.", "quantifier": "for all parameters, laws, states whose phase counters equal the number of stored points, rearrangements and numbers of steps", "why_tests_cant": "for all rearrangements and runs; and floating point sums only agree approximately", "anchors": ["MPM.py:19-46", "mplist.py:28-202", "mplist.py:291-307", "particle.py:148-290"]}
{"id": "C96", "title": "A common velocity is not noticed away from walls and light nodes", "statement": "Add one velocity u to all points (and to the phases' shared velocities, the conveyor and the intruder). If no node is a wall, nothing enters, leaves or wraps, segregation on the grid is off, all points are inside the domain and every corner of every occupied cell has more than the tolerated mass, then the step succeeds when the original does and gives the same strains, stresses, densities, forces, momentum rates and nodal masses; nodal momenta differ by m*u, velocities by u and displacements by dt*u. Where a node is below the tolerance this is false: it counts as being at rest, and a uniformly moving point next to it is strained.", "quantifier": "for all velocities, laws, parameters and states of the stated kind", "why_tests_cant": "for all states and velocities", "anchors": ["particle.py:126-146", "particle.py:186-200", "particle.py:260-290", "grid.py:257-296"]}
{"id": "C97", "title": "The regular layouts fill every cell of a block equally", "statement": "The loops that place the points over the whole domain, over all but the top row of cells (incline, francois), over the right quarter without the top row (dam_break, if the domain starts at x = 0, and only then), over the rightmost of L boxes (bi_dam_break) and over the lower half (bi_conveyor) place exactly one point in the middle of every one of ppc by ppc equal parts of every cell of that block, row by row: every cell of the block holds ppc*ppc points, every other cell none, and all points are strictly inside the domain.  For the last three this needs the number of columns or rows to be divisible by 4, L or 2.", "quantifier": "for all domains, grid sizes with at least two nodes each way, and points per cell", "why_tests_cant": "for all grids and all densities of points; the input files are run for one grid each", "anchors": ["inputs/silo.py:80-92", "inputs/incline.py:81-93", "inputs/dam_break.py:67-81", "inputs/bi_dam_break.py:94-103", "inputs/bi_conveyor.py:78-90"]}
{"id": "C98", "title": "The initial nodal density is the stated density", "statement": "When one phase is laid out over the whole domain and a point has the area dx*dy/ppc^2 or (domain area)/n - the same number - the first time step finds nodal mass = rho * nodal volume at every node including edges and corners, with and without periodic edges.  Several phases that share out the places of the layout fill every node's own volume exactly; phases that use some of the places never fill it more.", "quantifier": "for all grids, points per cell, densities, materials and ways of sharing out the points", "why_tests_cant": "for all grids and all tests that select points", "anchors": ["inputs/silo.py:80-92", "inputs/dp_unit_test.py:82-95", "grid.py:86-125", "particle.py:148-158", "mplist.py:123-135"]}
{"id": "C99", "title": "Point areas of single input files", "statement": "dam_break: right.  francois: grains and intruder together fill all cells but the top row, for every disc.  tunnel: no point of the layout is on the circle that both tests exclude, so the two materials together fill everything.  chuteflow: half of the stated density at every node.  incline: density too large by (ny-1)/(ny-2) at every node below the surface, because the empty top row's area is shared out.  bi_conveyor: with an odd number of rows (as shipped, 15) the points' area is short of the half domain over which they are spread by one part in the number of rows.  stokes and any layout with a hole whose area is divided by the kept points: every point too large by all points / kept points.", "quantifier": "for all grids of the stated kind, discs and points per cell (tunnel: the grid of the file)", "why_tests_cant": "for all grids; the error is a constant factor that no run reveals by itself", "anchors": ["inputs/dam_break.py:67-81", "inputs/francois.py:73-123", "inputs/tunnel.py:61-82", "inputs/chuteflow.py:85-97", "inputs/incline.py:81-93", "inputs/bi_conveyor.py:36-90", "inputs/stokes.py:88-102"]}
{"id": "C100", "title": "Grain-size classes of the input files", "statement": "The sizes built from s_edges = linspace(s_m, s_M, ns+1) are the midpoints of ns equal parts of [s_m, s_M]: strictly increasing, strictly inside the range, with mean (s_m+s_M)/2 (which bi_seg_test uses as s_bar_0).  ds is the width of a part; with one size or none the constructor raises IndexError.", "quantifier": "for all ranges and all numbers of classes", "why_tests_cant": "for all real ranges and all ns", "anchors": ["inputs/bi_dam_break.py:54-57", "inputs/PSM_slope_stab.py:55-58", "inputs/bi_seg_test.py:53-56", "inputs/bi_vertical_chute.py:54-57"]}
{"id": "C101", "title": "Initial size fractions of graded layouts", "statement": "'top' puts class i in the i-th of ns slabs counted from the top, 'bot' counted from the bottom, 'mix' the same share of every class at every point; every entry is a distribution and there is one per point.  With 'top' grain size never increases with height, with 'bot' never decreases.  On a layout over the full height with equally many rows per class all three use the same total amount of every class.  Any other word leaves the list empty and the points cannot be constructed.  'layered' has a valid index except where the cosine equals one, where it raises IndexError.", "quantifier": "for all grids starting at height 0, all numbers of classes and all points inside", "why_tests_cant": "for all heights and class counts", "anchors": ["inputs/bi_dam_break.py:107-124", "inputs/PSM_slope_stab.py:104-124", "particle.py:14-60"]}
{"id": "C102", "title": "Ramped gravity and the ignored ramp of the surface load", "statement": "The ramp m*(1-exp(-3t^2/t_c^2)) of the input files is zero at t=0, has the sign of m, grows in magnitude, stays strictly below |m|, exceeds 95% of it from t_c on, tends to m, and changes by at most sqrt(3)|m|dt/t_c per step.  A file that sets max_q but neither q_v nor q_h and ramps (or zeroes) self.q in update_forces has no effect on the load: every step, including the first, reads the full max_q for both surface loads.", "quantifier": "for all final values, times, time steps and numbers of calls", "why_tests_cant": "for all times and final values; the ignored ramp only shows as a wrong load history", "anchors": ["inputs/triaxial.py:21-24", "inputs/slope_stab.py:21-27", "inputs/stokes.py:33-37", "initialise.py:19-23", "grid.py:245-252"]}
{"id": "C103", "title": "Load paths of the element tests", "statement": "dp_unit_test, dp_rate_unit_test and pouliquen_unit_test write the same path: until t_c both loads equal max_q*t/t_c; afterwards their sum stays 2*max_q and their difference grows by 2*max_q per t_c.  There is no jump at t_c (both change by at most |max_q|/t_c per unit of time).  The vertical load presses only for 0<t<2t_c and pulls later: dp_unit_test, with t_c=t_f/10, ends at q_v=-8 max_q, q_h=10 max_q; the others end at q_v=0, q_h=2 max_q.", "quantifier": "for all loads and times", "why_tests_cant": "for all parameters", "anchors": ["inputs/dp_unit_test.py:23-30", "inputs/dp_rate_unit_test.py:23-30", "inputs/pouliquen_unit_test.py:22-30"]}
{"id": "C104", "title": "Changing slope angle", "statement": "When update_forces changes theta during a run, after every step each point of the first phase has the body force g(t)(sin theta(t), cos theta(t), 0) of the time at the start of the step; the points of every other phase keep the direction they were made with, so the total weight is the first phase's in the present direction plus the others' in the old one.  Volumes, masses and the symmetry of stress and strain behave as with a constant angle, and with a constant angle the run is the ordinary one.  The drum files turn uniformly with omega^2 r = Fr |g| (in opposite directions), keeping |b| = |g| and pointing down again after whole turns.  The tangent that the steady flow of new points uses is that of the angle without its sign, so it is the same for either direction.", "quantifier": "for all runs, angle histories, materials, grids (the points of the other phases and the total weight: without inlets and outlets)", "why_tests_cant": "for all runs and angle histories", "anchors": ["inputs/bi_drum.py:30-33", "inputs/bi_square_drum.py:33-36", "inputs/vicky_latest.py:22-28", "inputs/fluid.py:32-39", "MPM.py:19-22", "particle.py:321-331", "particle.py:77"]}
{"id": "C105", "title": "An intruder of changing velocity moves as a rigid body", "statement": "Over any run in which update_forces changes intruder_v (and theta), every point of a rigid phase is displaced by exactly the sum of dt*intruder_v(t_k) over the steps - up to whole domain widths with cyclic edges - and has the last intruder velocity; the vector between any two points of the body never changes (same proviso).", "quantifier": "for all runs, velocity histories and grids without inlets and outlets", "why_tests_cant": "for all runs and velocity histories", "anchors": ["inputs/francois.py:23-26", "particle.py:281-290", "mplist.py:87-99,178-191"]}
{"id": "C106", "title": "What the laws report as shear rate, shear stress and friction", "statement": "Under elastic, elastic_time, von_mises (and, in the plane, dp_rate) a point reports to the nodal shear rate the norm of the deviatoric strain increment of the step over dt; ken_kamrin reports a rate divided by dt once more; rigid, viscous, bingham, pouliquen, linear_mu and ken_simple report none, so the nodal field is the mass-weighted sum over the points of the solid laws only. As shear stress viscous, ken_kamrin and von_mises report the norm of the deviator of the stress they aim at (bingham of the one it sets; von_mises while its stored deviator is traceless, as C35 shows it stays), the granular flow laws that norm over sqrt 2 (ken_simple where the density exceeds 2500), dp_rate sqrt(3/2) times the in-plane norm of the stress before the step. The yield function of von_mises is negative exactly inside |s|^2 = 2k^2, its stress rate is the change of the deviator over dt, and the friction coefficient of pouliquen is the mu(I) curve at the inertial number it reports.", "quantifier": "for all points, stresses, strain increments, parameters and lists of points", "why_tests_cant": "holds for all states; the code has no check of the plotted fields", "anchors": ["constit.py:42-68", "constit.py:70-153", "constit.py:233-302", "constit.py:304-399", "constit.py:401-586"]}
{"id": "C107", "title": "The points of PSM_slope_stab lie under its slope and fill it", "statement": "With x_m = 0 and L_1 = y_M/tan(slope) every point placed lies at least half a point spacing inside the left, bottom and top edges and under the slope line; each row holds the largest number of point spacings that fit between the left edge and the slope, neighbours in a row are at least one and less than two spacings apart; number of points times A is at most the area of the triangle under the slope and short of it by at most one point per row; in a domain twice as long as the slope all points are in the domain.", "quantifier": "for all grids, numbers of points per cell and positive slopes", "why_tests_cant": "for all grids, slopes and densities of points", "anchors": ["inputs/PSM_slope_stab.py:34-46", "inputs/PSM_slope_stab.py:88-103", "inputs/PSM_slope_stab.py:126"]}
{"id": "C108", "title": "Critical times of the input files keep waves and diffusion within a cell", "statement": "critical_time of silo.py and five other files is positive and the largest time in which neither a wave of speed sqrt(K/rho) nor momentum diffusing with eta_max crosses the shorter side of a cell (bi_square_drum: only the wave). With dynamic time stepping every pass of the main loop therefore leaves 0 < dt with dt^2 K <= (CFL d)^2 rho and dt eta_max <= CFL d^2 rho for every such phase, whatever the hooks do. The first step uses the dt of the input file unchecked.", "quantifier": "for all materials with K, rho, eta_max > 0, grids, states, hooks and runs", "why_tests_cant": "for all states and runs", "anchors": ["inputs/silo.py:94-98", "inputs/PSM_slope_stab.py:128-132", "inputs/bi_square_drum.py:123-126", "initialise.py:105-115", "MPM.py:90-93"]}
{"id": "C109", "title": "A stress-free body falls freely", "statement": "A body of any materials (no rigid intruders, no elastic_time) that is free of stress and has one common velocity, away from walls and with no node of its cells below the mass threshold, stays so: in every step all velocities grow by dt times the body force of the step (times 0.7 with damping), every point is displaced by the sum of the velocities times dt, and no strain and no stress arise. With constant gravity the points follow x0 + n dt w + n(n+1)/2 dt^2 g.", "quantifier": "for all grids, materials, numbers of points, body-force histories and numbers of steps", "why_tests_cant": "for all bodies, positions relative to the grid and numbers of steps", "anchors": ["MPM.py:19-46", "particle.py:126-146", "particle.py:260-279", "grid.py:257-296", "constit.py:1-470"]}
{"id": "C110", "title": "Energy balance of a step", "statement": "Over the momentum update the kinetic energy of the nodes above the mass threshold changes by the work of the external forces on the nodal velocities, minus the work of the point stresses on the strain increments of the same step (both times 0.7 with damping), plus dt^2/2 sum |dq/dt|^2/m, which is never negative: the explicit step never loses energy to the time discretisation, it only gains. Walls without friction, rough or smooth, do no work. Without loads on the boundaries the external power is that of the weights of the points moving with the grid velocity at their positions.", "quantifier": "for all non-periodic states with symmetric stresses, without conveyor or wall friction", "why_tests_cant": "for all states; exact identity", "anchors": ["MPM.py:19-31", "grid.py:257-296", "particle.py:126-146", "particle.py:308-320"]}
{"id": "C111", "title": "A simulation does not depend on the units of its inputs", "statement": "Rewrite every input (grid, walls, material parameters, loads, gravity, time step, state) in other units of mass, length, time and slab thickness: any number of steps then gives exactly the old result rewritten in the new units, failures included, and so do the constructors of grid and points. This holds for all laws but ken_kamrin and ken_simple, which contain dimensional numbers (a least shear rate 1e-5, a density 2500) and for which it is false. It is also false of the diffusivity of the segregation step: with another unit of time that number changes by the power 3/2 of the unit, not by the unit, because integrators.py:265 takes a square root where the quoted formula has a fourth root. Excluded besides: segregation and the position check, whose tolerance is a fixed number; of the nodal fields the shear rate stored last.", "quantifier": "for all units, states, boundary conditions, loads and numbers of steps", "why_tests_cant": "for all units and states; the failure of a formula shows only for particular units", "anchors": ["MPM.py:19-46", "constit.py:1-470", "integrators.py:263-266", "grid.py:1-300", "particle.py:1-320"]}
{"id": "C112", "title": "What happens to matter near almost empty nodes", "statement": "A node whose mass is at most the tolerance counts as at rest. A point in a uniform motion u therefore moves, accelerates and takes up grain-size changes by 1 minus the share of its shape functions that belongs to such nodes, and gets a strain increment -(dt/2)(u g + g u), g being the sum of the gradients at these nodes, although the motion is rigid. What is stored at such a node (momentum, force, size changes) never reaches a point. A body whose whole mass is at most the tolerance never moves: its positions, velocities and grain sizes are the same after any number of steps, whatever the gravity (no inlets, outlets and periodic edges, law other than elastic_time).", "quantifier": "for all grids, points, tolerances, states and numbers of steps", "why_tests_cant": "the tolerance is an absolute mass, so the effect appears only for particular units or resolutions, and must hold for all states", "anchors": ["particle.py:126-145", "particle.py:247-290", "initialise.py:17-17"]}
{"id": "C113", "title": "What segregation does to the amount of each grain size", "statement": "Write the mass of the grains of one size as the sum of point mass times fraction. Without rescaling of the fractions, a step with segregation changes it by exactly the sum over the nodes heavier than the tolerance of nodal mass times nodal increment of that size; everything else in the step (mapping, momentum, stress, motion) leaves it alone. So it is conserved when these nodes have equal masses and the increments add up to zero, and it is not conserved in general: for two cells of unequal mass the advection increments add up to zero over the grid and yet there is more of the small grains afterwards. If the increments at each node add up to zero over the sizes, the fractions of a point keep their sum.", "quantifier": "for all states, grids, grain sizes and segregation parameters", "why_tests_cant": "for all states; the tests of the scheme use a uniform filling, where the error vanishes", "anchors": ["integrators.py:78-130", "particle.py:247-258", "mplist.py:291-306"]}
{"id": "C114", "title": "The two axes are treated alike", "statement": "Exchange the axes of a whole set-up: extents, numbers of nodes, walls (bottom with left, top with right), loads, the components of gravity, and all components of the points. Then the constructed grid, every later state (positions, velocities, stresses, strains, grain sizes, all nodal fields but the viscosity, segregation included) and every failure are the exchanged originals. This holds for every law, all options that exist along both axes and any number of steps while points are inside the domain. What is not treated alike: with segregation the nodal viscosity is added up between left and right column whether or not the sides are periodic, wall friction is off at one node of the bottom but not at its image on the left, and ken_kamrin uses the height of the domain.", "quantifier": "for all grids, states, laws, loads and numbers of steps", "why_tests_cant": "for all states and set-ups; errors such as one exchanged index show only in asymmetric states", "anchors": ["MPM.py:19-46", "grid.py:77-330", "integrators.py:78-130", "particle.py:126-330"]}
{"id": "C115", "title": "Left and right are treated alike, off the grid lines", "statement": "Mirror a whole set-up: x becomes x_m + x_M - x, left and right walls are exchanged, slope, belt speed, horizontal velocities and shear components change sign. Then the constructed grid, every later state and every failure are the mirrored originals, periodic sides and conveyor included, as long as no point is exactly on a vertical grid line at the start of a step: with segregation if no node is empty in any step or the filling of empty nodes removes the mask, and without segregation whatever the filling does, except for the stored nodal shear rate, which nothing else uses. Hence a set-up that is its own mirror image stays so (points in some order), has no horizontal momentum in any phase and none in a middle column. On a grid line it is false: a single compressed point at rest on the middle line of a symmetric set-up starts to move sideways, because the point belongs to the right cell only. With segregation and empty nodes it is false too (C130).", "quantifier": "for all grids, states, laws, loads and numbers of steps", "why_tests_cant": "for all states and set-ups; the exception is a set of measure zero that regular initial layouts hit", "anchors": ["MPM.py:19-46", "grid.py:77-330", "integrators.py:78-130", "particle.py:170-184", "new_integrator.py:1-80", "grid.py:321-376"]}
{"id": "C116", "title": "How a time step ends: motion, outlets, inlets, wrap-around", "statement": "In every successful time step each stored point is first moved (a rigid one by dt times the intruder velocity, any other in the domain by dt times the mean of the velocities of the four corners of its cell, with weights that reproduce its position, light nodes counting as at rest). Then exactly the points left of x_m+dx (if outlet_left) or below y_m (if outlet_bottom) are deleted, the points of inlet_right and then of inlet_top are appended if they are open and on schedule, and last all points are taken around if cyclic_lr, nothing but the abscissa being changed; counters are right afterwards. So with an open bottom outlet and inlets above the bottom no point is below the bottom after a step, and likewise at the left. New points are not tested against the outlets in their own step.", "quantifier": "for all states, options, inlets, outlets and steps", "why_tests_cant": "for all states and combinations of options; the order of the four operations shows only when several are open at once", "anchors": ["MPM.py:39-45", "mplist.py:28-99", "particle.py:260-290"]}
{"id": "C117", "title": "Kinetic pressure is pressure times inertial number; the diffusivity is not the quoted one", "statement": "At a node with mass the kinetic pressure of update_pk is |gammadot| s sqrt(rho_s p), p being the mean pressure, i.e. p times the inertial number, and it is finite for p = 0. The diffusivity is l s^(3/2) sqrt|gammadot| sqrt(p/rho_s): proportional to the power 3/2 of the grain size, but it is the formula quoted in the comment, l gammadot s^2/sqrt(I), times the fourth root of p/rho_s, so the two agree only if p equals rho_s numerically.", "quantifier": "for all real nodal states, sizes and parameters", "why_tests_cant": "for all real arguments; no test compares the diffusivity with its formula", "anchors": ["integrators.py:263-265", "grid.py:414"]}
{"id": "C118", "title": "The unused limiters of new_integrator.py", "statement": "minmod, which is in use, recovers the slope of linear data and scales with the data. vanLeer and vanAlbada1 do neither: multiplying both differences by a number does not change them, they give 1 for linear data of any slope, and they jump to 0 where the second difference vanishes; vanLeer lies in [0,2) and vanishes at extrema, vanAlbada1 is negative there for small first differences. minmod2 passes its third argument to numpy as the output array, so its size has no influence: for positive differences the result is min(theta a, b), which is the limiter of three differences exactly when this is at most theta c.", "quantifier": "for all differences, ratios and theta", "why_tests_cant": "for all real arguments; the functions run without error and the script never calls them", "anchors": ["new_integrator.py:5-41"]}
{"id": "C119", "title": "What the continuum figures show", "statement": "At a node that carries mass, the panels of draw_continuum show the nodal velocity, density, mean size, and the mass-weighted sums of pressure, shear stress, friction, viscosity and inertial number over the mass; after a non-periodic time step the pressure shown is (minus) a mean of the pressures of the points around the node. Nodes without mass are masked in the viscous, granular and Drucker-Prager figures, and not in the others, where they are NaN. Finding: the panels titled shear rate of the Drucker-Prager and of the solid laws show the shear rate divided by the nodal mass, so a c times heavier material with the same velocities appears to shear c times slower. Finding: the panels of the gradient of the shear rate always show zero. The profile line runs through one column of nodes from bottom to top, each value at its own height.", "quantifier": "for all grids, nodes, fields (including infinities and NaN), parameters and time steps", "why_tests_cant": "for all nodal states; no test looks at figures", "anchors": ["plotting.py:113-325", "grid.py:298-318"]}
{"id": "C120", "title": "Markers, size wedges and saved data", "statement": "draw_grid puts its markers at the nodes of the right kind, and moreover one of every kind at the origin as soon as one node is not of that kind (finding). The wedges of a point begin where the sizes before end and are as wide as the fractions; if the fractions are non-negative and sum to one, every direction lies in exactly one wedge. The mean size in the title of the size figures counts empty nodes with size zero (finding). Entry [r][c] of the saved arrays is the value at the node with the c-th abscissa and r-th ordinate; a saved velocity is a number exactly at nodes that carry mass; after a non-periodic time step saved densities times nodal volumes sum to the mass of all points. The table of points has one row per point in order, its plane position followed by its fractions.", "quantifier": "for all grids, walls, fractions, states and steps", "why_tests_cant": "for all states and lists of fractions; no test reads the files or figures", "anchors": ["plotting.py:80-92", "plotting.py:529-623"]}
{"id": "C121", "title": "Which fluid laws dissipate", "statement": "The work of the stress aimed at by viscous, bingham and ken_kamrin on the strain increment is pressure work plus the work of a shear viscosity plus that of a bulk viscosity of -mu_v/3: the volumetric viscous stress is subtracted although pressures are negative in compression, so it feeds energy into every change of volume (finding). In the plane the viscous law dissipates in all motions exactly if mu_v <= mu_s; with the parameters of pierre.py (mu_v = mu_0) a point stretched alike in both directions beyond yield gains energy from its viscosity; ken_kamrin under downward gravity gains energy in every motion. pouliquen, linear_mu (away from zero pressure) and ken_simple only dissipate, with a viscosity between 0 and eta_max, for non-negative parameters. In the first step of a stress-free viscous body the kinetic energy of the grid changes accordingly, and without shear viscosity it grows by more than the external work if K dt < mu_v and some point changes its volume.", "quantifier": "all strain increments, parameters and states", "why_tests_cant": "for all motions; needs the sign of a quadratic form", "anchors": ["constit.py:304-332", "constit.py:334-399", "constit.py:401-586", "inputs/pierre.py:79-85"]}
{"id": "C122", "title": "The density of the points", "statement": "A step gives every point that is not rigid the density of the grid (mass per volume of the heavy nodes) at the place where it was before it was moved; its volume and mass stay. The density is never negative nor above the largest nodal density. Density times volume summed over the points is the nodal mass weighted with the filled share of each node, hence less than the mass of the points as soon as a heavy node is not full (finding). A domain filled with one phase keeps its density in the first step, with joined sides or not; in a filled block the density goes bilinearly between the filled shares of the lines of nodes. On a bed with a free surface the points in the surface cells get rho*(1 - t/2) at the share t of the cell's height, so that those in the upper three fifths are below the cutoff of pouliquen, and in every step a pouliquen point below the cutoff has its pressure set to zero (finding).", "quantifier": "all states, grids, blocks of cells and numbers of points per cell", "why_tests_cant": "for all layouts and states", "anchors": ["particle.py:274-279", "constit.py:453-457", "mplist.py:24-54"]}
{"id": "C123", "title": "A run of the program is its time steps", "statement": "With hooks that only look, a run of main is a chain of time steps: with static steps it ends in the state after the stated number of steps, and it runs to its end exactly if these steps succeed (the hooks never failing, t_f and savetime not zero). What is drawn or saved has no influence on the result, with static or dynamic steps. The hooks see the initial state, then after every step, two or (if it is to be saved) three times, the state that step left, and last the state at the end. In every one of these states: the mass of all points is that of the start if there are no outlets, inlets or elastic_time phases; counts match lists and stresses and strains are symmetric if the points are freshly made; motion is planar if it was; in a box with four walls all points are in the domain if every step satisfied the Courant condition. Storage order of the points does not change any grid that is drawn. The dynamic time step is chosen from the velocities of the step before and does not keep a box closed (finding): a point at rest falls through the bottom wall in the second step.", "quantifier": "all hooks that only look, all inputs, any number of steps, static and dynamic time steps", "why_tests_cant": "about all runs and all hooks", "anchors": ["MPM.py:48-101", "initialise.py:105-116"]}
{"id": "C124", "title": "A bed at rest", "statement": "If all points of the domain are at rest, carry their weight, have a stress that their law leaves alone without deformation, and at every place where no wall holds the node the weight is balanced by the internal forces, then a step succeeds only into the same state: place, velocity, volume, mass, stress and strain of every point are unchanged, no node gains momentum, and so it stays in all states of any run with static or dynamic steps (for pouliquen and ken_simple as long as the density mapped from the grid is above their cutoffs). The lithostatic preset makes such a state: a bed of whole rows of cells with p*p points per cell across the domain, its surface at the height the preset assumes, floor and side walls or periodic sides, flat, rough or with no slip at the bottom if sloped, gravity at max_g: solids stand on any slope, viscous, bingham, ken_kamrin and linear_mu on level ground; pouliquen and ken_simple (rho > 2500) if the domain is filled to its top. A pouliquen bed with empty cells above it does not stand: the points in the upper three fifths of its surface cells (there always are some) have a pressure at the start and none after two steps (finding).", "quantifier": "all grids, numbers of points per cell, bed heights, slopes, parameters, loop parameters, numbers of steps", "why_tests_cant": "exact equilibrium for all runs and grids; a test sees only small motions of one bed", "anchors": ["particle.py:15-45", "particle.py:308-331", "grid.py:242-296", "constit.py:12-586", "MPM.py:48-101"]}
{"id": "C125", "title": "A body in uniform deformation", "statement": "For a block of whole cells with p*p equal points each, whose velocities follow an affine field v + A x: every free node gets the velocity of the field at the centre of the mass around it, which is the node itself inside the block and 1/3+1/(6p^2) of a cell further in at its sides. So in the next step the strain increment of a point away from walls is dt times the symmetric part of A with each column reduced by a share that depends on the cell only: 1 inside (exactly the deformation of the body), 2/3-1/(6p^2) in the outermost cells (between a half and two thirds), and 1/3-1/(3p^2) if the block is a single cell wide; a column of cells with one point each is not strained across at all, however fast it is stretched (finding). Two or more cells inside a block of alike elastic points, the first step is that of free fall in the body's own motion: u' = u + dt*b and x' = x + dt*u' for the velocity u = v + A x of the point, and the stress of all points one or more cells inside is one and the same, given by Hooke's law and the rotation term the code subtracts.", "quantifier": "all grids, blocks, numbers of points per cell, affine fields, laws, states; sides not periodic", "why_tests_cant": "exact for all fields and grids; a test compares a few points", "anchors": ["particle.py:126-147", "particle.py:186-200", "particle.py:165-182", "grid.py:209-230", "particle.py:148-158", "particle.py:260-279", "constit.py:42-68"]}
{"id": "C126", "title": "What the figures of the material points show", "statement": "Every panel of draw_material_points draws every point of the phase once, in order, where the point is, with its velocity as arrow. After a step (no inlets or outlets) the panels sigma_v, sigma_h and P of an elastic or von_mises phase show, at the places of the end of the step, the stresses that the points had at its beginning; the shear rate shown there is the norm of the rate of the deviatoric strain. draw_gamma_dot draws the phases that are not rigid in order; its value is the norm of the deviatoric strain rate for elastic, elastic_time, von_mises (in the plane for dp_rate), that rate divided once more by the step size for viscous and bingham, twice that for pouliquen and linear_mu, at least 1e-5 over the step size for ken_kamrin even at rest, and what was stored before for ken_simple (finding). Before the first step the figures of von_mises and dp end the run with an AttributeError, those of other laws do not. The fourth curve of draw_energy is the sum of the other three at every time listed.", "quantifier": "all states, laws, grids, step sizes, numbers of phases and points", "why_tests_cant": "figures are not compared with the state by any test; a figure that lags behind by a step looks right", "anchors": ["plotting.py:94-111", "plotting.py:327-514", "plotting.py:516-527", "constit.py:59-62", "constit.py:138-142"]}
{"id": "C127", "title": "Stand-alone segregation loop of integrators.py", "statement": "Running integrators.py as a program: with a positive time step its loop ends, after floor((t_f - t)/dt) + 1 passes, just beyond t_f; with a step that is not positive it never ends in a regular way. Everything on the grid but the fractions and mean sizes is left as the time step before the loop made it, and the mean sizes are those of the fractions. One figure is drawn for each multiple of 1000 among the step numbers, numbered in order, with mean sizes that belong to the fractions shown. Every run that reaches its end keeps the total of every size over the nodes if there is no diffusion (whatever the step size and the signs of the fractions), and, in a box with walls all around, the total weighted with the nodes' shares of a cell if there is no segregation; with both, as shipped, neither is kept (witness). The length and the diffusion constant of the loop are 1/500 and 1/1000, whatever the input file says. Without nan_to_num a single node without mass makes fractions non-finite in the first pass.", "quantifier": "all grids, sizes, fractions, time steps, final times and lengths of run; both directions of termination", "why_tests_cant": "A run shows the totals for one initial mixture; the statement is about every run that completes, and about loops that never end.", "anchors": ["integrators.py:280-283", "integrators.py:297-322"]}
{"id": "C128", "title": "Round bodies", "statement": "The points of ball.py lie on nr circles around the centre with radii growing evenly from zero to r; circle k has the nearest integer to nphi k/(nr-1) points at equal angles, beginning above the centre. No point is farther from the centre than r, and there are nphi nr/2 points up to half a point per circle. If 3(nr-1) <= 2 nphi the points balance exactly in the centre, so that the constructed ball has the mass of the disc and its centre of mass in the centre; a circle with a single point would put the balance above the centre. With 5(nr-1) < 2 nphi the second moments are equal in both directions and the mixed one vanishes. As shipped (20 circles, nphi = 50) there are 500 points, the polar moment is 4993/4750 of that of a disc, and all points are inside the grid. The loops of brazillian.py, flow.py and stokes.py, which do not convert the number of points to an integer, end in a TypeError; the area of brazillian.py would give 16/81 of the mass of its disc.", "quantifier": "all radii, centres, numbers of circles and points, over the reals with exact sine and cosine", "why_tests_cant": "A test shows one body; balance and isotropy for every number of circles rest on sums of roots of unity.", "anchors": ["inputs/ball.py:60-72", "inputs/brazillian.py:81-92", "inputs/flow.py:117-129", "inputs/stokes.py:119-131"]}
{"id": "C129", "title": "Cut corners, piles and drums", "statement": "slope_stab.py and pierre.py keep exactly the points of the full layout that are neither in the missing corner (left of a node and above it) nor above the slope that rises from this node to the right; the corner takes p*p points out of each of its cells. The area per point counts the points cut by the slope as if they were there, so that it is a point's share of a cell exactly if the slope cuts nothing; a slope that rises to the top within half the width of a point (the 90 degrees shipped) cuts nothing. The pile of vicky.py and vicky_latest.py stands on y = 0 with all points inside its width and height and (with two or more columns and rows of points) its centre at (0, H/2); it has the area L*H in total, and a point has at least its share of a cell, exactly this only if L and H are whole numbers of cells (as shipped 9/8 and 19/18 of it). The grains of bi_square_drum.py (at least two points per cell and direction) lie between the bottom and the middle of the box and have the area of this half; with 2r rows of cells a point has rp/(rp+2) of its share of a cell. The grains of bi_drum.py are in the lower half of the drum and have twice the mass of that half disc; the points of its wall are outside the circle, and the layout they are taken from has one row of cells too few for the area of the box.", "quantifier": "all grids, corners, slopes, lengths, heights, radii and numbers of points per cell", "why_tests_cant": "Whether masses come out right depends on how lengths divide into cells; a test has one grid.", "anchors": ["inputs/slope_stab.py:83-101", "inputs/pierre.py:93-112", "inputs/vicky.py:66-81", "inputs/vicky_latest.py:75-90", "inputs/bi_square_drum.py:103-115", "inputs/bi_drum.py:92-142"]}
{"id": "C130", "title": "Nodal gradients next to empty nodes", "statement": "calculate_gradient masks empty nodes and asks astropy to interpolate NaNs that are not masked, of which there are none: in every step of every run the interpolation does nothing. The differences are then those of a masked array. Where both nodes of a difference have mass it is the difference quotient; where only the left or lower one is empty it is the bare value on the right or above, not divided by any length; where the right or upper one is empty it is the value stored there with NaN read as zero. Hence a body that moves without deforming, with velocity (U,V), has stored shear rate U at nodes with nothing below and mass above plus V at nodes with nothing on the left and mass on the right, and zero elsewhere: the rate depends on the frame, and is not that of the mirrored body. Without segregation none of this reaches a point.", "quantifier": "all grids, masses, fields, states with positive mass tolerance, laws other than dp_rate, and numbers of steps; numpy.ma and astropy as described in DESIGN.md", "why_tests_cant": "a test compares numbers for one layout of empty nodes; that the interpolation is idle is a statement about all states", "anchors": ["grid.py:321-376", "grid.py:377-420"]}
{"id": "C131", "title": "Bodies that share no node do not interact", "statement": "As long as no point of one body shares a node of the grid with a point of another, each body moves, strains and is stressed exactly as if the other were not there, over any number of steps. In a single step a point feels nothing that is more than two cells away: any points whose cells are further off can be taken away and it ends the step the same. Two cells is sharp: with a point between them, two points without a common node feel each other in the same step. The exception is a phase with initial_v, all of whose points use the phase's own velocity array (particle.py:11-12 binds it without a copy): points that do so are tied over any distance, and two of them far apart in free fall gain twice the speed of one.", "quantifier": "all closed, non-periodic boxes without segregation, fixed time step; all grids, phases, laws, choices of points and numbers of steps", "why_tests_cant": "independence of everything outside a neighbourhood is a statement about all the things that could be there", "anchors": ["particle.py:11-14", "particle.py:126-146", "particle.py:186-200", "particle.py:250-275", "particle.py:308-319", "grid.py:242-296", "MPM.py:19-46"]}
{"id": "C132", "title": "What a simulation remembers", "statement": "Two states with the same clock, grid geometry and phases have the same future over any number of steps - the same exception at the same step, or the same grid with all its fields and points that agree again - as soon as their points agree in position, velocity, mass, volume and the few fields that their law reads back: the stress (all laws but bingham), the pressure (fluids), dev_stress and sigma_kk (von_mises), the last stress increment (rigid, bingham; out of plane dp_rate), the density (ken_kamrin, pouliquen, ken_simple), the shear rate (ken_simple, which never updates it), the size fractions (pouliquen, linear_mu and all laws with segregation), pk (segregation), and the body force (phases after the first). Strains, weights, nodes, deviators and everything on the grid can be anything. The stress, the pressure, dev_stress, sigma_kk, the last increment, the density, the size fractions and the shear rate are needed: points that differ in one of them alone have different stresses one step later.", "quantifier": "all parameters, interpolants, phases, laws, pairs of states and numbers of steps, fixed time step", "why_tests_cant": "that a field is never read back is a statement about all values it could have and all later steps", "anchors": ["particle.py:126-200", "particle.py:247-331", "constit.py:28-586", "mplist.py:101-202", "mplist.py:291-307", "grid.py:123-157", "MPM.py:19-46"]}
{"id": "C133", "title": "What the runs of the shipped input files leave on the disk", "statement": "A run of PSM_slope_stab, bi_dam_break, bi_seg_test, bi_square_drum or ball writes, for the states that the main loop saves and for the last state, exactly the files its hooks name, in that order, and nothing else. For the four that save data, s_bar_k, density_k and MP_phi_k hold the mean sizes, densities and points of the k-th saved state, counting from zero, the last number being the last state; higher numbers keep what an earlier run left. The velocities of the same state are in u_ and v_ with a number one higher, because they are numbered by the counter of the figures, which the figure has already advanced. PSM_slope_stab draws no last figure, so the velocities of the last state overwrite those of the last saved state. ball leaves figures only. All other input files write nothing: the flags plot_continuum, save_u, ... that they set are read nowhere. Every run of the loop without output is also a run with it: no hook raises, whatever the points and phases are.", "quantifier": "all parameters, interpolants, states with at least one phase and the right counts, numbers of steps, static and dynamic time steps, earlier contents of the disk", "why_tests_cant": "which number a state gets depends on the number of savings before it, which is unbounded", "anchors": ["inputs/PSM_slope_stab.py:141-158", "inputs/bi_dam_break.py:141-159", "inputs/bi_seg_test.py:146-172", "inputs/bi_square_drum.py:133-149", "inputs/ball.py:80-106", "initialise.py:15-16", "initialise.py:95", "plotting.py:560-592", "MPM.py:57-110"]}
{"id": "C134", "title": "A stressed point on a grid line at the edge of a body stops a run with adaptive time steps", "statement": "A node at which no point has weight gets no mass but can get momentum: a point exactly on a grid line has zero weight and non-zero gradient at the nodes of the next line, so the nodal force there is that of its stress alone. The momentum after the step is the time step times the damping factor times minus that force, and zero where a wall holds the node. The velocity of such a node is a momentum divided by zero, which update_timestep replaces by the largest number of the machine, so the next time step is at most CFL min(dx,dy)/10 divided by that number. For a body with its side on a vertical grid line and nothing in the two columns of cells beyond it, this happens as soon as the points on the line are in compression. If no point is on a grid line and all have mass, nodes without mass have no momentum and the time step is set by a node with mass.", "quantifier": "all parameters without ports, belts and Coulomb friction at walls, all laws, interpolants, states with points in the domain, steps that succeed, loads included", "why_tests_cant": "depends on coincidences of positions and grid lines, for every law and body", "anchors": ["particle.py:176-200", "particle.py:308-320", "mplist.py:112-202", "grid.py:242-300", "initialise.py:106-114", "MPM.py:19-46"]}
{"id": "C135", "title": "Symmetries and memory hold for whole runs with adaptive time steps", "statement": "A whole run of main, with fixed or adaptive time steps, commutes with the changes that single steps commute with: moving the set-up, exchanging the axes, exchanging left and right, changing the units. Every state of the changed run, the time steps chosen by update_timestep and the number of steps are the changed ones. For the units this needs that no node has momentum without mass, since then the time step is a number of the machine and not a time. Two starting states that agree in the fields which the future depends on (C132) go through the same time steps and grids. The exchanges need points in the domain, and off the vertical grid lines for left and right. Such a chain of steps is what main runs through, whatever the output hooks, as long as they only look and do not raise.", "quantifier": "all parameters, initial states, run lengths and runs that succeed; hooks that look only", "why_tests_cant": "relates pairs of whole runs of unbounded length for all set-ups", "anchors": ["MPM.py:19-46", "MPM.py:57-110", "initialise.py:106-114", "grid.py:242-300"]}
{"id": "C136", "title": "The main loop in floating point", "statement": "With a clock that rounds after each addition (monotone, relative error u; IEEE double precision has u = 2^-53), whatever the rounding inside the steps: the steps are taken at the rounded times not beyond t_f, in the same order of calls. The time after k steps differs from t0 + k dt by at most k u (t_f + dt), so the number of steps differs by at most one from that of exact arithmetic while this drift stays below dt. A time step that is lost in rounding is lost for ever: with p bits, a run with dt 2^(p+2) <= t_f never finishes. In each window of length savetime at most two steps are saved, and exactly one unless some time of the run is within the rounding error of the beginning of the window; then there can be two (dt=0.1, savetime=0.5) or none (dt=0.007, savetime=0.021). Rounding to p bits means: the result is a number of p bits, none is nearer, and of two equally near ones it is the even one.", "quantifier": "all monotone roundings with bounded relative error, in particular to p bits with ties to even; all steps and update_timestep functions that leave the clock alone; hooks that leave the clock alone; all run lengths", "why_tests_cant": "rounding errors depend on all digits of all times of arbitrarily long runs", "anchors": ["MPM.py:62-93", "MPM.py:71", "MPM.py:90"]}
{"id": "C137", "title": "Mapping points to the grid in floating point", "statement": "Every addition, subtraction, multiplication and division of linspace, get_reference_node, get_basis_functions, the shape functions and get_nodal_mass_momentum rounds (monotone, relative error u). What a node receives is the running sum, in program order, of the rounded contributions. Against the exact mapping of the same points from the same reference nodes, each nodal mass is off by at most 1/(1-u)^(8+h) - 1 times the mass of the points around the node, where h contributions go to the node; momentum, phim and pkm have 9 in place of 8. The totals of mass and momentum on the grid are those of the points up to 1/(1-u)^(6+h) - 1 and 1/(1-u)^(7+h) - 1. On a grid with the origin in its corner every point of the closed box gets a reference node of the grid in whose cell it is up to a fraction (1/(1-u)^4 - 1) n of the cell, and the periodic wrap stays in the closed box. The column of the reference node may be the last one: in double precision there are points strictly inside the box, and points just wrapped, whose mapping raises an IndexError in the top row of cells or leaves a negative mass on the other side of the box; none of these happens in exact arithmetic.", "quantifier": "all monotone roundings with bounded relative error, in particular to p bits with ties to even; all numbers of phases and points, all positions, masses, velocities; all grids with at least two nodes in each direction", "why_tests_cant": "rounding errors depend on all digits of all coordinates, and the exceptional points are a few units in the last place wide", "anchors": ["particle.py:160-200", "grid.py:87-92", "grid.py:209-230", "mplist.py:87-133"]}
{"id": "C138", "title": "Forces, momentum, strain and motion in floating point", "statement": "Every addition, subtraction, multiplication and division of the time step rounds (monotone, relative error u), whatever the constitutive laws, segregation and the constructor of new points do; with the identity as rounding the step is that of the exact model. Nodal forces are running sums of rounded contributions: with h contributions to a node the external force is off by at most 1/(1-u)^(2+h) - 1 and the internal force by 1/(1-u)^(4+h) - 1 times the sum of the sizes of the contributions. The momentum of a node away from walls is off by three roundings, the strain increment of a point by nine, its position and velocity by seven. The momentum of all points changes by dt times the force on the nodes heavier than M_tol, up to 1/(1-u)^(8+h) - 1. Rounding does not soften walls: momentum across a boundary that is zero stays exactly zero. The strain increment is exactly symmetric; the accumulated velocity gradient is not. Points whose heavy nodes are at rest stay exactly where they are. Slow motion is lost: with p bits, a point that each of its nodes moves by at most |x|/2^(p+3) does not move at all, and likewise for its velocity.", "quantifier": "all monotone roundings with bounded relative error, in particular to p bits with ties to even; all numbers of phases and points, all positions, masses, velocities, stresses, nodal fields, time steps; all that the rest of the step may do", "why_tests_cant": "rounding errors depend on all digits of all numbers, and a bound must hold for every order and number of contributions", "anchors": ["particle.py:126-146", "particle.py:260-290", "particle.py:308-331", "grid.py:242-296", "mplist.py:123-202", "MPM.py:19-46"]}
{"id": "C139", "title": "Changing units in floating point", "statement": "Rounding to p bits commutes with multiplication by a number c > 0 exactly if c is a power of two. If the units of mass, length, time and size are changed by powers of two, then the grid and every number of every time step of rigid, elastic, elastic_time and viscous bodies (masses, positions, velocities, stresses, strains, nodal fields, clock) come out as the old number times its unit, bit for bit: rounding all operations adds no dependence on the units. Runs that fail do so with the same error. The same holds for any laws, segregation and constructor that have this property themselves. With decimal units (grams, millimetres, milliseconds) the digits change, already in the first step. The check of positions (check_positions) is excluded: its tolerance 1e-10 is a length without unit.", "quantifier": "all precisions p, all powers of two for each unit, all numbers of steps, phases and points, all states and parameters; only square roots that scale (as the exact one does, rounded)", "why_tests_cant": "equality of all digits over all runs, states and units; a test sees single runs", "anchors": ["MPM.py:19-46", "grid.py:77-112", "particle.py:126-200", "particle.py:260-331", "constit.py:28-100", "constit.py:304-330"]}
{"id": "C140", "title": "Stress updates in floating point", "statement": "With every operation of update_strain, of the laws rigid, elastic, elastic_time and viscous, and of update_stress rounded: with the identity as rounding the laws and their nodal sums are those of the exact model. The stress of an elastic point after update_stress_strain differs from that of the exact program on the same point and nodes by at most 1/(1-u)^19 - 1, that of a viscous point by 1/(1-u)^22 - 1, times the sum of the sizes of all terms; for the viscous law this includes the old stress, which the law subtracts and update_stress adds again. Stress increments are exactly symmetric (for the fluids of C144 too), and the stress stays so if the velocity gradient is symmetric; as the gradient is not in floating point (C138), it does not: a symmetric elastic body has a stress with sigma_xy != sigma_yx after one step in binary64. Without strain the stress of an elastic point stays exactly what it is. With p bits an increment of stress below a fraction 2^-(p+5) of the stress is lost, so slow loading of a stressed body does nothing.", "quantifier": "all monotone roundings with bounded relative error, in particular to p bits with ties to even; all points, nodal fields, material parameters and time steps", "why_tests_cant": "rounding errors depend on all digits of all numbers; an asymmetry of one unit in the last place is below every tolerance", "anchors": ["particle.py:126-158", "constit.py:28-112", "constit.py:304-332"]}
{"id": "C141", "title": "Whole time steps in floating point", "statement": "With every operation of time_march rounded (laws elastic, elastic_time, viscous, pouliquen, linear_mu and ken_simple, no segregation, no rigid bodies): over any number of steps without inlets and outlets the points stay the same in number, order and phase, and volumes and grain sizes keep all their digits, as do masses unless the law elastic_time changes them. Without periodic sides, momentum and its rate normal to a wall are exactly zero at all nodes of the wall after every step, the conveyor excepted. Without gravity or external forces, a body whose points have no velocity, stress, pressure or body force and representable positions stays at exactly these positions and without velocity and stress, for any number of steps. The same is false of uniform motion: a body without stress that moves with constant velocity has shear stress after one step in binary64, where exact arithmetic gives none.", "quantifier": "every rounding for volumes and masses, every rounding that keeps zero for walls and rest; all parameters, bodies, grids and numbers of steps; the last sentence by a concrete run of one step", "why_tests_cant": "whether something is exact or only small cannot be told from runs, and rounding errors add up over runs of any length", "anchors": ["MPM.py:19-46", "mplist.py:123-191", "grid.py:257-296", "particle.py:126-158", "particle.py:260-290"]}
{"id": "C142", "title": "Underflow and overflow", "statement": "Rounding to p bits with a smallest positive number 2^e (float64: 53 bits, 2^-1074) gives a nearest machine number, is monotone and leaves machine numbers alone; from 2^(e+p-1) on it is the rounding of C136-C141, below the error is at most 2^e/2. Sums and differences of machine numbers never underflow and a difference is zero only for equal numbers; products are rounded to zero exactly if they are at most 2^e/2 in size. So a whole run whose times and time steps are machine numbers makes the calls, raises the exceptions and ends as in C136. Walls stay without momentum and bodies at rest stay at rest exactly, as in C141. Powers of two as changes of units keep the digits only of numbers that are large enough in both units, and no change of units keeps the digits of all numbers. A result overflows exactly if the exact value is at least 2^m - 2^(m-p)/2 in size (float64: m = 1024).", "quantifier": "all values, all numbers of bits p >= 1, all smallest and largest exponents; all parameters, hooks, bodies and numbers of steps", "why_tests_cant": "tests do not reach the ends of the range, and where they do they show single values only", "anchors": ["MPM.py:62-93", "MPM.py:19-46", "grid.py:257-296", "particle.py:126-158"]}
{"id": "C143", "title": "Momentum balance of a time step in floating point", "statement": "In one rounded time step of a closed system, in a direction without walls, the momentum of all points grows by dt times their weight up to an error of 8+c roundings of the sizes of the momenta and 16+2c roundings of dt times the sizes of the weights and of the forces of the stresses (twice volume times stress over cell size), where at most c contributions go to any node. The rounded gradients of the four shape functions of a point add up to zero exactly, although its rounded shape functions do not add up to one.", "quantifier": "all roundings with relative error u that treat both signs alike, all closed, smooth-walled, non-periodic set-ups without damping and prescribed loads, all bodies of points of nonnegative mass with any rounded law that keeps masses (elastic, viscous and the fluids of C144) lying in the cells of their reference nodes, whose nodes are heavier than the cut-off; all states before the step", "why_tests_cant": "tests compare sums of single runs with tolerances chosen by hand; the error depends on number of points, stresses and cell sizes", "anchors": ["MPM.py:19-46", "particle.py:176-200", "particle.py:260-279", "particle.py:308-319", "grid.py:222-229", "grid.py:257-296"]}
{"id": "C144", "title": "Fluids in floating point", "statement": "With every operation of pouliquen, linear_mu and ken_simple rounded: with the identity as rounding the laws and their nodal sums are those of the exact model. The pressure is the running rounded sum of K times the volumetric strain cut at zero, and zero for pouliquen below 0.8 of the density, so over any positive number of steps of a closed system no fluid point is in tension. The friction coefficient of pouliquen is NaN or between the means of mu_0 and of mu_0+delta_mu, and no component of the shear stress exceeds eta_max*|de_ij|/dt, where limits and cap are rounded once more but not enlarged by any error. The stress is pressure plus shear stress less the spin term up to 1/(1-u)^7 - 1 times the sizes of these terms and twice the old stress; the old stress does enter, since a large one wipes out the pressure altogether. Light material that neither turns nor is sheared loses its stress without a trace. With p bits the pressure stays the same to the last digit if K times the strain of the step is below a fraction 2^-(p+2) of it. linear_mu cannot start from zero pressure: whatever the rounding, a step with such a point fails (NaN stress).", "quantifier": "all monotone roundings that keep 0 and 1 and treat both signs alike, in particular to p bits; all points, material parameters (nonnegative for friction and cap), time steps and numbers of steps; the statement on wiped-out pressures by a concrete point in binary64", "why_tests_cant": "the limits hold exactly only because rounding is monotone, which no number of runs shows; lost increments look like a converged state", "anchors": ["constit.py:401-490", "constit.py:492-534", "constit.py:536-590", "particle.py:148-158"]}
{"id": "C145", "title": "Segregation in floating point", "statement": "With every operation of KT, KT_flux, BC and the limiters rounded: with the identity as rounding the increments along rows and columns are those of the exact model. minmod, maxmod and superbee of representable numbers are computed exactly. The change of every node is what passes through its left face less what passes through its right face, and both neighbours of a face work with the very same two numbers. Through the ends of a line nothing is smeared, and what leaks with the mean velocity is at most (1+u)^5*(1/(1-u)^2 - 1) of fraction times velocity of the end node; between two boundary or empty nodes it is exactly nothing. So what a whole line gains or loses is at most these leaks plus 1/(1-u)^6 - 1 times the sizes of what passes through its faces, times dt/(2*dx). At an end without a wall the leak is real: two nodes that keep their total in exact arithmetic lose some of it in binary64. A node keeps its sizes exactly if neither it nor its neighbours on the line segregate; boundary nodes and empty nodes do not segregate. Where a single size is present, its velocity, which should vanish, is at most (1+u)^3*(1/(1-u)^3 - 1) times |c*g|, and in binary64 it is not always zero: a single size of 49 segregates.", "quantifier": "all roundings with relative error u that are monotone and keep representable numbers, in particular to p bits; all lines of nodes of any length with finite velocities, all sizes, fractions, gradients, masks, time steps and non-zero spacings; leak and single size in binary64 by concrete lines", "why_tests_cant": "a test shows the loss of one line in one run; that the loss is made of roundings only, and which ends leak, needs all lines and all roundings", "anchors": ["integrators.py:19-71", "integrators.py:152-157", "integrators.py:162-194", "integrators.py:196-250"]}
{"id": "C146", "title": "Plasticity and yield in floating point", "statement": "With every operation of von_mises, bingham and ken_kamrin rounded: with the identity as rounding they are the laws of the exact model. A von_mises step multiplies the trace of the stored deviatoric stress by 1 - 2*G*f (f the plastic factor it has computed) up to 1/(1-u)^9 - 1 times the sizes of old deviator and increments, so along any history with 0 <= G*f <= 1 the trace grows at most linearly with the number of steps; in binary64 it does not stay zero, which it does in exact arithmetic. Without strain the stored deviator and volumetric stress are kept exactly. After a step without rotation the stress is their sum up to five roundings of it and of the old stress, whatever happened before, and with p bits it is their rounded sum exactly once it is within a factor of two of it. A Bingham fluid at rest has no shear stress and carries exactly its pressure; otherwise its shear stress is that of the branch its own computed shear rate selects, up to ten roundings, and in binary64 that may be the wrong branch: at a relative error of the shear rate of 2^-53 the shear stress is 400000 times that of the exact model. Under downward gravity the viscosity of ken_kamrin is the rounded cap 250*rho*max_g*(y_M-y_m)^3 whatever the pressure and the friction, its shear stress is that of the exact cap up to twelve roundings and never points along the shear. Symmetric strains and stresses give exactly symmetric deviators and increments.", "quantifier": "all roundings with relative error u that are monotone and keep representable numbers, in particular to p bits; all points, strain increments, parameters, powers and square roots, histories of any length; tracelessness and the wrong branch in binary64 by concrete points", "why_tests_cant": "a drift by roundings shows after millions of steps only, and a shear rate that is critical up to its last digit is never met by a test", "anchors": ["constit.py:115-153", "constit.py:334-360", "constit.py:362-399", "particle.py:148-158"]}
{"id": "C147", "title": "NT scheme on the grid, and its limiter at infinite slopes", "statement": "Along every row of the grid the finite increments of a size that NT returns add up to dt/dx times the difference of the horizontal segregation fluxes of the last and the first node; along every column to dt/dy times the difference of the vertical ones. Nodes that are marked as boundary or hold less than the mass cutoff carry no flux. An infinite slope beside a finite one does no harm to the limiter, which gives twice the finite slope if the signs agree and zero if not; of two infinite slopes it makes an infinite one if they agree and NaN if not.", "quantifier": "for all grids, parameters, sizes, time steps, rows and columns; all slopes", "why_tests_cant": "NT is never called; mixing up the spacings or the components of the gradient shows only on grids with different spacings, and infinite slopes need a node without a harmonic mean size", "anchors": ["integrators.py:32-71", "integrators.py:75-150"]}
{"id": "C148", "title": "Whole runs in floating point with plastic and Bingham laws", "statement": "With rounding replaced by the identity, runs of the rounded time step with every law but dp and dp_rate are the runs of the exact model: they raise the same error, or end with the same points and time. With any rounding, over any number of steps of a closed system points keep number, order, phase, volume, grain sizes and, unless the law is elastic_time, mass, exactly; walls let nothing through; bodies at rest without loads stay exactly at rest if the plastic law has stored no deviatoric or volumetric stress and the Bingham law no increment, and need not otherwise; momentum is balanced up to a bounded number of roundings.", "quantifier": "for all roundings, parameters without segregation, states, numbers of steps", "why_tests_cant": "the runs are compared over all states and any number of steps, with exact arithmetic that no program run provides", "anchors": ["MPM.py:19-46", "constit.py:120-153", "constit.py:335-400", "particle.py:148-158"]}
{"id": "C149", "title": "Grain-size fractions in floating point", "statement": "With any rounding, clipping and dividing by the sum leaves fractions that are in [0,1] exactly and add up to one but for ns+1 roundings, keeps absent sizes absent, present ones present and their order, leaves a point of one size as it is, and fails exactly when no fraction is positive. Hence after any number of rounded steps of a closed system with segregation and normalisation, whatever the increments on the grid were, every point has such fractions: the error does not grow. Fractions at the nodes are in [0,1] exactly, zero without mass, and else add up to one but for 2c+2 roundings more for c contributions, and the mean size lies between the smallest and the largest but for ns+1 more. Without increments at its nodes a point keeps its fractions to the last digit before they are normalised, but normalisation does not settle: in binary64 there are fractions that change with every normalisation for ever. With rounding replaced by the identity a step is that of the exact model.", "quantifier": "for all roundings, numbers of sizes, states, increments on the grid, numbers of steps", "why_tests_cant": "all stored values, all histories of increments, all roundings", "anchors": ["mplist.py:133-140", "mplist.py:291-307", "particle.py:247-258", "MPM.py:33-38"]}
{"id": "C150", "title": "dp_rate in floating point, and whole runs with every law", "statement": "With any rounding, the stress increment of dp_rate, above and below yield, is within 14 roundings of its terms of the elastic increment less relaxation and dilation, at the computed shear stress, pressure and overstress; the pressure is within 2 roundings and the square of the shear stress within 13 roundings of their terms; out of the plane the previous increment is kept. When the phase has the friction of the first and is under pressure, a point recorded below yield gets an elastic increment and one recorded above yield has a positive overstress. Exactly: a symmetric state gives a symmetric increment, at rest the increment of the shear stress never has the sign of the shear stress, without velocity gradient the new state does not depend on the time step, and a point without in-plane stress makes the law fail. With rounding replaced by the identity, the law is that of the exact model, and runs of a closed system with any laws are those of the exact model, errors included. With rounding, points, walls, rest and the balance of momentum are as in C148 for every law.", "quantifier": "for all roundings, parameters, states, numbers of steps", "why_tests_cant": "the bounds hold for all roundings, stresses and strains; the runs are compared over all states and any number of steps", "anchors": ["constit.py:233-302", "particle.py:148-158", "MPM.py:20-44"]}
{"id": "C151", "title": "The constructor of points in floating point, and runs with inlets", "statement": "With any rounding, a point that starts with lithostatic stress has equal normal stresses, equal shear stresses and no shear out of the plane to the last digit, and they are the weight of what is above it within 5 roundings of their terms; where the stress is given the strain belongs to it within 8 roundings of its terms, and under compression the stress is the given pressure exactly; whatever the start, stress and strain are symmetric to the last digit; mass is within 2 and pressure within 3 roundings; steady viscous flow is along the slope, within 7 roundings of the terms of the parabola and exactly at rest on the base. With rounding replaced by the identity, the constructor is that of the exact model for every kind of initial stress and flow, errors included, and so are whole runs without segregation for all laws and all boundaries, inlets and outlets included. With rounding nothing crosses a wall in such runs.", "quantifier": "for all roundings, parameters, positions, states, numbers of steps", "why_tests_cant": "the bounds hold for all roundings and parameters; the runs are compared over all states and any number of steps", "anchors": ["particle.py:8-101", "mplist.py:55-85", "MPM.py:20-44"]}
{"id": "C152", "title": "Whole runs in floating point with every law, boundary and grain size", "statement": "With rounding replaced by the identity and with the increments of the exact segregation scheme, one step and whole runs of the rounded model are those of the exact model for every parameter set: any laws, boundaries and kinds of new points, with or without segregation; they fail in the same way or end with the same points at the same time. With any rounding, whatever the increments of segregation on the grid and whatever flows in and out, momentum and its rate normal to a wall are exactly zero at its nodes when the sides are not periodic; and with segregation and normalisation every point, old or new, has after any number of steps fractions in [0, 1] that add up to one within ns+1 roundings, provided the phases give new points such fractions.", "quantifier": "for all roundings, parameter sets, states, increments and numbers of steps", "why_tests_cant": "the equality holds for all parameter sets and states together, and the error bound does not grow over any number of steps", "anchors": ["MPM.py:19-46", "mplist.py:28-99", "mplist.py:123-151", "particle.py:8-101"]}
{"id": "C153", "title": "Ramped loads in floating point", "statement": "The ramp m*(1-exp(-3t^2/t_c^2)) of the input files, computed with any rounding and any exponential that grows from zero to one on the negative numbers, is exactly zero at t=0, has the sign of m, never decreases in magnitude and never exceeds m. With a correctly rounded exponential its error is at any time at most five units of rounding times |m|. In double precision it is exactly zero up to t_c/10^9, and exactly m from 4*t_c on, although in exact arithmetic it never reaches m.", "quantifier": "for all roundings, final values, ramp times and times", "why_tests_cant": "the bounds hold for all times and ramp times, and the order of the loads at any two times is preserved for every rounding", "anchors": ["inputs/triaxial.py:21-24", "inputs/dam_break.py:22-24", "inputs/incline.py:18-22", "inputs/francois.py:26", "MPM.py:21"]}
{"id": "C154", "title": "Nodal gradients and shear rates in floating point", "statement": "With every operation of calculate_gradient and calculate_gammadot rounded (rounding error at most u): with the identity as rounding both are those of the exact model, for any interpolation of masked values. On a grid of at least two by two nodes without empty nodes, with non-zero spacings and an interpolation that leaves the numbers that are there alone: the rounded gradient of stored numbers is zero where the exact one is, and each component is off by at most 1/(1-u)^3 - 1 times the sizes of the two numbers it is made from over their distance. The nodal shear rate is off by at most 1/(1-u)^5 - 1 times the sizes of the four nodal velocities it is made from over their distances. If all stored nodal velocities agree there is no shear rate at all; but a body that moves as one, with momenta rounded from velocity times mass, can show one in binary64.", "quantifier": "all grid sizes from two by two, spacings, masses, momenta, fields, interpolations that keep unmasked numbers, nodes, and roundings (monotone, idempotent, relative error at most u)", "why_tests_cant": "Tests would compare a few fields with a tolerance; the error bound holds for every field and every mass distribution, and the exact zero for every rigid translation.", "anchors": ["grid.py:298-310", "grid.py:321-362"]}
{"id": "C155", "title": "Diffusion of sizes in floating point, and time steps with everything rounded", "statement": "With every operation of Diffusion, increment_grainsize and update_pk rounded: with the identity as rounding they are those of the exact model, and so are whole runs in which the increments of the fractions are rounded too, for every parameter set, state and number of steps. For finite stored diffusivities on a grid of at least two by two nodes with non-zero spacings, and rounding error at most u: in a uniform mixture with the same diffusivity everywhere nothing diffuses at all; in general the increment of a node differs from the exact diffusion of these diffusivities by at most 1/(1-u)^9 - 1 times |dt| times the sizes of the products of diffusivity and fraction it is made from, over the distances. With uniform shear rate, pressure, size and mass, and no empty nodes, the driving gradient of segregation is exactly zero.", "quantifier": "all parameter sets, states, numbers of steps and interpolations (runs without rounding); all grids from two by two nodes, walls, fractions, finite diffusivities, time steps, nodes, sizes and roundings (monotone, idempotent, relative error at most u) for the rest", "why_tests_cant": "the bound holds for all fields and roundings, and the exact zeros for all uniform states; nested differences cancel most of their digits, so a tolerance chosen for one field says nothing about others", "anchors": ["integrators.py:263-283", "grid.py:364-374", "grid.py:376-416", "MPM.py:32-36"]}

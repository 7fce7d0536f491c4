{
 "claims": [
  {
   "property": "C01",
   "status": "proved",
   "theorems": [
    "Mpm.c01_cell_unique",
    "Mpm.c01_reference_node"
   ],
   "note": "All grids with nx,ny>=2 and all positions in the half-open domain; exact arithmetic."
  },
  {
   "property": "C02",
   "status": "proved",
   "theorems": [
    "Mpm.c02_partition_of_unity",
    "Mpm.c02_unit_interval",
    "Mpm.c02_corners",
    "Mpm.c02_gradients"
   ],
   "note": "All local positions and non-zero cell sizes."
  },
  {
   "property": "C03",
   "status": "proved",
   "theorems": [
    "Mpm.c03_position_recovered"
   ],
   "note": "Also shows the check_positions diagnostic passes."
  },
  {
   "property": "C04",
   "status": "proved",
   "theorems": [
    "Mpm.c04_exact",
    "Mpm.c04_left_of_domain",
    "Mpm.c04_below_domain",
    "Mpm.c04_above_top",
    "Mpm.c04_right_edge_top_row",
    "Mpm.c04_wraps_around"
   ],
   "note": "c04_exact gives the exact condition for IndexError; the others are the named consequences."
  },
  {
   "property": "C05",
   "status": "proved",
   "theorems": [
    "Mpm.c05_mass_conserved"
   ],
   "note": "No assumption on positions, only that no exception is raised."
  },
  {
   "property": "C06",
   "status": "proved",
   "theorems": [
    "Mpm.c06_momentum_conserved",
    "Mpm.c06_momentum_conserved_free"
   ],
   "note": "With marked nodes: exactly the masked components are removed."
  },
  {
   "property": "C07",
   "status": "proved",
   "theorems": [
    "Mpm.c07_order_independent_mapping",
    "Mpm.c07_order_independent_forces"
   ],
   "note": "Equality of results in Except, so also of exceptions; reordering within each phase."
  },
  {
   "property": "C08",
   "status": "proved",
   "theorems": [
    "Mpm.c08_forces_balance",
    "Mpm.c08_forces_balance_step"
   ],
   "note": "Stand-alone and inside time_march; without cyclic boundaries (with them edge forces are duplicated, see C22)."
  },
  {
   "property": "C09",
   "status": "proved",
   "theorems": [
    "Mpm.c09_rigid_translation"
   ],
   "note": "Any position, any dt."
  },
  {
   "property": "C10",
   "status": "proved",
   "theorems": [
    "Mpm.c10_affine_exact"
   ],
   "note": "Any affine nodal velocity field; gradient columns x and y, as the code has no z gradients."
  },
  {
   "property": "C11",
   "status": "proved",
   "theorems": [
    "Mpm.c11_history",
    "Mpm.c11_symmetric"
   ],
   "note": "Single update; the total strain stays symmetric if it was."
  },
  {
   "property": "C12",
   "status": "proved",
   "theorems": [
    "Mpm.c12_convex",
    "Mpm.c12_bounds",
    "Mpm.c12_uniform"
   ],
   "note": "Convexity needs the point inside its cell; the mean-value form needs only massive nodes."
  },
  {
   "property": "C13",
   "status": "proved",
   "theorems": [
    "Mpm.c13_momentum_transfer",
    "Mpm.c13_momentum_transfer_full"
   ],
   "note": "Second part gives the exact loss at light nodes."
  },
  {
   "property": "C14",
   "status": "proved",
   "theorems": [
    "Mpm.c14_centre_of_mass",
    "Mpm.c14_centre_of_mass_full"
   ],
   "note": "All non-rigid phases."
  },
  {
   "property": "C15",
   "status": "proved",
   "theorems": [
    "Mpm.c15_rigid",
    "Mpm.c15_rigid_law"
   ],
   "note": "Whole phase, any grid state."
  },
  {
   "property": "C16",
   "status": "proved",
   "theorems": [
    "Mpm.c16_edges"
   ],
   "note": "Via node coordinates, not index arithmetic."
  },
  {
   "property": "C17",
   "status": "proved",
   "theorems": [
    "Mpm.c17_marks",
    "Mpm.c17_no_momentum",
    "Mpm.c17_nothing_falls",
    "Mpm.c17_four_columns"
   ],
   "note": "nx>=5; c17_four_columns shows nx=4 differs. Includes that points in cell rows >= 1 do not fall in a whole time step."
  },
  {
   "property": "C18",
   "status": "proved",
   "theorems": [
    "Mpm.c18_no_flow",
    "Mpm.c18_rough"
   ],
   "note": "Through gridPhase and momentumPhase of time_march, also with the rough branch."
  },
  {
   "property": "C19",
   "status": "proved",
   "theorems": [
    "Mpm.c19_newton",
    "Mpm.c19_total",
    "Mpm.c19_total_step"
   ],
   "note": "Nodal law, total over a free grid, and inside a whole step."
  },
  {
   "property": "C20",
   "status": "proved",
   "theorems": [
    "Mpm.c20_marks",
    "Mpm.c20_unchanged",
    "Mpm.c20_monotone",
    "Mpm.c20_history"
   ],
   "note": "Marks, their permanence and their monotonicity over any run."
  },
  {
   "property": "C21",
   "status": "proved",
   "theorems": [
    "Mpm.c21_friction",
    "Mpm.c21_node_one"
   ],
   "note": "c21_node_one: node number 1 never feels friction (finding)."
  },
  {
   "property": "C22",
   "status": "proved",
   "theorems": [
    "Mpm.c22_values",
    "Mpm.c22_total",
    "Mpm.c22_twice",
    "Mpm.c22_single_column"
   ],
   "note": "Values, node sums, repeated application and the single-column case (which triples)."
  },
  {
   "property": "C23",
   "status": "proved",
   "theorems": [
    "Mpm.c23_positive",
    "Mpm.c23_total",
    "Mpm.c23_total_cyclic"
   ],
   "note": "Also the cyclic total."
  },
  {
   "property": "C24",
   "status": "proved",
   "theorems": [
    "Mpm.c24_cyclic",
    "Mpm.c24_inside",
    "Mpm.c24_step"
   ],
   "note": "The routine itself and a whole step bounded by the fastest node."
  },
  {
   "property": "C25",
   "status": "proved",
   "theorems": [
    "Mpm.c25_outlet_bottom"
   ],
   "note": "Includes success."
  },
  {
   "property": "C26",
   "status": "proved",
   "theorems": [
    "Mpm.c26_outlet_left"
   ],
   "note": "Includes success."
  },
  {
   "property": "C27",
   "status": "proved",
   "theorems": [
    "Mpm.c27_constructed",
    "Mpm.c27_counts",
    "Mpm.c27_loops"
   ],
   "note": "Construction, any run, and what the counted loops then do."
  },
  {
   "property": "C28",
   "status": "proved",
   "theorems": [
    "Mpm.c28_right",
    "Mpm.c28_top",
    "Mpm.c28_middle",
    "Mpm.c28_zero_rate"
   ],
   "note": "Schedule stated without the modulo operator; zero rate raises."
  },
  {
   "property": "C29",
   "status": "proved",
   "theorems": [
    "Mpm.c29_previous_grid",
    "Mpm.c29_previous_grid_run"
   ],
   "note": "One step and whole runs; grids agreeing on node positions, cell sizes and wall masks."
  },
  {
   "property": "C30",
   "status": "proved",
   "theorems": [
    "Mpm.c30_planar",
    "Mpm.c30_constructed",
    "Mpm.c30_nonzero_pressure"
   ],
   "note": "Whole runs from planar states and from constructed lists; for initial pressure mode 'non-zero' the claim is false of the code and c30_nonzero_pressure proves a counterexample."
  },
  {
   "property": "C31",
   "status": "proved",
   "theorems": [
    "Mpm.c31_symmetric",
    "Mpm.c31_constructed"
   ],
   "note": "Every law of the model, whole runs, including points made by inlets."
  },
  {
   "property": "C32",
   "status": "proved",
   "theorems": [
    "Mpm.c32_correction",
    "Mpm.c32_rotation",
    "Mpm.c32_stretch"
   ],
   "note": "The aliased L = L_T array is modelled as in the source."
  },
  {
   "property": "C33",
   "status": "proved",
   "theorems": [
    "Mpm.c33_isotropic",
    "Mpm.c33_linear",
    "Mpm.c33_work",
    "Mpm.c33_young",
    "Mpm.c33_young_fails"
   ],
   "note": "Any materials with the moduli relation of the inputs; c33_young_fails gives the division by zero at nu=1/2 and nu=-1."
  },
  {
   "property": "C34",
   "status": "proved",
   "theorems": [
    "Mpm.c34_consistent",
    "Mpm.c34_elastic",
    "Mpm.c34_lithostatic",
    "Mpm.c34_equilibrium",
    "Mpm.c34_compression"
   ],
   "note": "All preset pressures; lithostatic field compared with an independent surface/slope description."
  },
  {
   "property": "C35",
   "status": "proved",
   "theorems": [
    "Mpm.c35_step",
    "Mpm.c35_yield",
    "Mpm.c35_elastic_start",
    "Mpm.c35_runs",
    "Mpm.c35_traceless"
   ],
   "note": "Runs of any length for the trace; yield bound stated per step with the exact amplification against the flow direction."
  },
  {
   "property": "C36",
   "status": "proved",
   "theorems": [
    "Mpm.c36_newtonian",
    "Mpm.c36_runs",
    "Mpm.c36_dissipation",
    "Mpm.c36_pressure",
    "Mpm.c36_stored"
   ],
   "note": "Law level for every state; pressure over runs of any length including inlet points. c36_stored shows the stored stress also carries the stress-rate term."
  },
  {
   "property": "C37",
   "status": "proved",
   "theorems": [
    "Mpm.c37_curve",
    "Mpm.c37_runs",
    "Mpm.c37_monotone",
    "Mpm.c37_jump"
   ],
   "note": "Continuity as a Lipschitz bound; c37_jump shows the relation is necessary."
  },
  {
   "property": "C38",
   "status": "proved",
   "theorems": [
    "Mpm.c38_total",
    "Mpm.c38_no_exit",
    "Mpm.c38_friction"
   ],
   "note": "Every finite state; also a friction bound for non-negative parameters."
  },
  {
   "property": "C39",
   "status": "proved",
   "theorems": [
    "Mpm.c39_curve",
    "Mpm.c39_law"
   ],
   "note": "Strictly increasing, both limits; c39_law ties it to the stored values."
  },
  {
   "property": "C40",
   "status": "proved",
   "theorems": [
    "Mpm.c40_capped",
    "Mpm.c40_nan",
    "Mpm.c40_step",
    "Mpm.c40_reach"
   ],
   "note": "Stronger than stated: NaN for every state of zero pressure, not only at rest; and no step can succeed in it."
  },
  {
   "property": "C41",
   "status": "proved",
   "theorems": [
    "Mpm.c41_negative",
    "Mpm.c41_constant",
    "Mpm.c41_upward"
   ],
   "note": "Every state with positive density; negative dissipation."
  },
  {
   "property": "C42",
   "status": "proved",
   "theorems": [
    "Mpm.c42_mass"
   ],
   "note": "Whole runs including inlets; needs rho_f*V >= 0."
  },
  {
   "property": "C43",
   "status": "proved",
   "theorems": [
    "Mpm.c43_dp",
    "Mpm.c43_dp_step",
    "Mpm.c43_pouliquen",
    "Mpm.c43_dp_rate",
    "Mpm.c43_dp_rate_step"
   ],
   "note": "At law level and inside time_march."
  },
  {
   "property": "C44",
   "status": "proved",
   "theorems": [
    "Mpm.c44_minmod",
    "Mpm.c44_superbee",
    "Mpm.c44_superbee_symmetric",
    "Mpm.c44_superbee_homogeneous",
    "Mpm.c44_superbee_between",
    "Mpm.c44_maxmod_half"
   ],
   "note": "minmod, maxmod and superbee for every pair of numbers of an ordered field. maxmod(a,0) is a/2, not a (c44_maxmod_half)."
  },
  {
   "property": "C45",
   "status": "proved",
   "theorems": [
    "Mpm.c45_closed_ends",
    "Mpm.c45_line",
    "Mpm.c45_rows",
    "Mpm.c45_columns",
    "Mpm.c45_grid",
    "Mpm.c45_cyclic_padding_ignored",
    "Mpm.c45_condition"
   ],
   "note": "Telescoping over a grid line of any length, for any velocities with open (finite) values, along rows, columns and whole grids. The cyclic padding of the gradient is overwritten by the end condition (c45_cyclic_padding_ignored): nothing crosses the ends of a row even with cyclic boundaries. c45_condition shows the finiteness condition is met in every step of points carrying size distributions."
  },
  {
   "property": "C46",
   "status": "proved",
   "theorems": [
    "Mpm.c46_masked",
    "Mpm.c46_no_gradient",
    "Mpm.c46_single_size",
    "Mpm.c46_line",
    "Mpm.c46_grid",
    "Mpm.c46_unmasked_empty"
   ],
   "note": "Velocity zero at masked nodes, without gradient and for a single size; line increments zero when every velocity is zero. c46_unmasked_empty: with M_tol = 0 an empty node is not masked and its velocity is NaN."
  },
  {
   "property": "C47",
   "status": "proved",
   "theorems": [
    "Mpm.c47_velocity",
    "Mpm.c47_cancel",
    "Mpm.c47_cancel_positive",
    "Mpm.c47_order"
   ],
   "note": "Fluxes at a node cancel exactly; order of the velocities by size."
  },
  {
   "property": "C48",
   "status": "proved",
   "theorems": [
    "Mpm.c48_normalise",
    "Mpm.c48_none_positive",
    "Mpm.c48_fixed",
    "Mpm.c48_move",
    "Mpm.c48_step",
    "Mpm.c48_run"
   ],
   "note": "Normalisation of one vector, of the whole list in one step, and along every run. If no fraction is positive the result is 0/0 (c48_none_positive)."
  },
  {
   "property": "C49",
   "status": "proved",
   "theorems": [
    "Mpm.c49_nodal",
    "Mpm.c49_step"
   ],
   "note": "For the nodal fields after the mapping and for a whole time step."
  },
  {
   "property": "C50",
   "status": "proved",
   "theorems": [
    "Mpm.c50_steps",
    "Mpm.c50_count",
    "Mpm.c50_deterministic",
    "Mpm.c50_ends",
    "Mpm.c50_never",
    "Mpm.c50_zero_division",
    "Mpm.c50_times"
   ],
   "note": "Exact step count, times and step numbers with static steps and hooks that leave the clock alone (c50_steps, c50_count); termination (c50_ends); independence of the cut-off used to define the loop (c50_deterministic); no normal end with dt <= 0 (c50_never) or with t_f = 0 or savetime = 0 (c50_zero_division); c50_times for dynamic steps. Exact arithmetic: accumulated rounding of P.t is not modelled."
  },
  {
   "property": "C51",
   "status": "proved",
   "theorems": [
    "Mpm.c51_order",
    "Mpm.c51_counts",
    "Mpm.c51_schedule"
   ],
   "note": "For arbitrary hooks and either kind of time stepping; complete schedule with static steps (c51_schedule)."
  },
  {
   "property": "C52",
   "status": "proved",
   "theorems": [
    "Mpm.c52_saved",
    "Mpm.c52_window",
    "Mpm.c52_second",
    "Mpm.c52_coarse",
    "Mpm.c52_run",
    "Mpm.c52_first",
    "Mpm.c52_dynamic_gap"
   ],
   "note": "c52_run is the property; c52_coarse the case dt >= savetime, where all steps but the second are saved; c52_second shows the exclusion of t = dt only matters then. c52_dynamic_gap: with dynamic steps a whole save window can go unsaved."
  },
  {
   "property": "C53",
   "status": "proved",
   "theorems": [
    "Mpm.c53_speed",
    "Mpm.c53_moving",
    "Mpm.c53_courant",
    "Mpm.c53_rest",
    "Mpm.c53_rest_critical"
   ],
   "note": "Formula, Courant bound, at rest infinite without critical times. The model's loop stops with the marker nonFinite when an infinite step would be taken."
  },
  {
   "property": "C54",
   "status": "proved",
   "theorems": [
    "Mpm.c54_keep",
    "Mpm.c54_constants",
    "Mpm.c54_computed",
    "Mpm.c54_sizes",
    "Mpm.c54_only",
    "Mpm.c54_idempotent"
   ],
   "note": "getParameters over attribute records (absent/present); the exceptions the code makes (mode, phases, save_dir, energy when measure_energy) are stated explicitly; idempotence proved for every input that succeeds"
  },
  {
   "property": "C55",
   "status": "proved",
   "theorems": [
    "Mpm.c55_trigger",
    "Mpm.c55_end_time",
    "Mpm.c55_repeats",
    "Mpm.c55_steps",
    "Mpm.c55_threshold"
   ],
   "note": "histories are arbitrary sequences of time steps and calls with arbitrary points; also proved: AttributeError when P.q does not exist"
  },
  {
   "property": "C56",
   "status": "proved",
   "theorems": [
    "Mpm.c56_nodup",
    "Mpm.c56_untouched",
    "Mpm.c56_numbered",
    "Mpm.c56_u",
    "Mpm.c56_continuum",
    "Mpm.c56_energy"
   ],
   "note": "file names and counters only; drawing itself and draw_voronoi are not modelled"
  },
  {
   "property": "C57",
   "status": "proved",
   "theorems": [
    "Mpm.c57_phase_zero",
    "Mpm.c57_phase_zero_run",
    "Mpm.c57_other_phases",
    "Mpm.c57_other_phases_closed"
   ],
   "note": "Phase 0 of every step and run (with inlets); other phases keep b unless made by an inlet, which uses the gravity of that step."
  },
  {
   "property": "C58",
   "status": "proved",
   "theorems": [
    "Mpm.c58_shared"
   ],
   "note": "Any list and one step; the shared array changes by the sum of all increments."
  },
  {
   "property": "C59",
   "status": "proved",
   "theorems": [
    "Mpm.c59_kinetic",
    "Mpm.c59_elastic",
    "Mpm.c59_height",
    "Mpm.c59_level",
    "Mpm.c59_nan",
    "Mpm.c59_potential",
    "Mpm.c59_total"
   ],
   "note": "over the real numbers with real sin/arctan; heights for every inclination, showing that points with negative y count as above; x[2]=0 is assumed, as the height includes the third coordinate"
  },
  {
   "property": "C60",
   "status": "proved",
   "theorems": [
    "Mpm.c60_masses",
    "Mpm.c60_momentum"
   ],
   "note": "Any number of steps with static time step; damping scales the increment. c60_momentum assumes the points stay in the domain and all corners of occupied cells stay above M_tol, stated on the points alone."
  },
  {
   "property": "C61",
   "status": "proved",
   "theorems": [
    "Mpm.c61_wall",
    "Mpm.c61_two_walls",
    "Mpm.c61_silo_left",
    "Mpm.c61_box",
    "Mpm.c61_box_not_square"
   ],
   "note": "All grid sizes; the box statement needs nx = ny >= 9, and c61_box_not_square shows it fails otherwise."
  },
  {
   "property": "C62",
   "status": "proved",
   "theorems": [
    "Mpm.c62_nodes",
    "Mpm.c62_edge_force"
   ],
   "note": "rho is the first phase's density parameter; the edge force statement is for edges whose nodes carry the mass of their volume."
  },
  {
   "property": "C63",
   "status": "proved",
   "theorems": [
    "Mpm.c63_belt",
    "Mpm.c63_speed",
    "Mpm.c63_no_drag"
   ],
   "note": "c63_no_drag is a finding: belt momentum never reaches point velocities in the same step."
  },
  {
   "property": "C64",
   "status": "proved",
   "theorems": [
    "Mpm.c64_points",
    "Mpm.c64_too_few"
   ],
   "note": "Full."
  },
  {
   "property": "C65",
   "status": "proved",
   "theorems": [
    "Mpm.c65_lithostatic",
    "Mpm.c65_viscous",
    "Mpm.c65_slip"
   ],
   "note": "The steady viscous statement is exact for second differences, so it needs no derivatives."
  },
  {
   "property": "C66",
   "status": "proved",
   "theorems": [
    "Mpm.c66_profile",
    "Mpm.c66_friction"
   ],
   "note": "Real square root and powers (P.ops = realOps). mu_0 and I_0 as numbers."
  },
  {
   "property": "C67",
   "status": "proved",
   "theorems": [
    "Mpm.c67_profile"
   ],
   "note": "Real square root, powers and logarithm. mu_0 and I_0 as numbers."
  },
  {
   "property": "C68",
   "status": "proved",
   "theorems": [
    "Mpm.c68_line",
    "Mpm.c68_grid",
    "Mpm.c68_too_long"
   ],
   "note": "One line (c68_line) and both directions together (c68_grid); example shows the bound is needed."
  },
  {
   "property": "C69",
   "status": "proved",
   "theorems": [
    "Mpm.c69_diffusive",
    "Mpm.c69_sum_lost"
   ],
   "note": "A finding: c69_diffusive gives the fluxes with explicit enlargement factors, c69_sum_lost is a concrete witness."
  },
  {
   "property": "C70",
   "status": "proved",
   "theorems": [
    "Mpm.c70_step",
    "Mpm.c70_run",
    "Mpm.c70_fast_escapes"
   ],
   "note": "Laws that cannot fail on finite states are stated as LawOk: everything except dp, dp_rate (C43), linear_mu (C40) and laws that need special data; the Courant condition is on the nodal displacement in the step made."
  },
  {
   "property": "C71",
   "status": "proved",
   "theorems": [
    "Mpm.c71_linear",
    "Mpm.c71_central",
    "Mpm.c71_gammadot",
    "Mpm.c71_uniform"
   ],
   "note": "The astropy filling of masked entries is a parameter; it is assumed to leave unmasked values alone, and there are no masked nodes."
  },
  {
   "property": "C72",
   "status": "proved",
   "theorems": [
    "Mpm.c72_weighted",
    "Mpm.c72_volume",
    "Mpm.c72_plain_total_lost"
   ],
   "note": "Finite diffusivities are a hypothesis (no empty nodes); c72_plain_total_lost is the witness."
  },
  {
   "property": "C73",
   "status": "proved",
   "theorems": [
    "Mpm.c73_sum_kept",
    "Mpm.c73_uniform",
    "Mpm.c73_sum_lost",
    "Mpm.c73_checkerboard",
    "Mpm.c73_frozen",
    "Mpm.c73_frozen_total"
   ],
   "note": "c73_sum_lost, c73_checkerboard, c73_frozen and c73_frozen_total record what goes wrong."
  },
  {
   "property": "C74",
   "status": "proved",
   "theorems": [
    "Mpm.c74_euler",
    "Mpm.c74_rk4",
    "Mpm.c74_rk3",
    "Mpm.c74_total_lost"
   ],
   "note": "Model of one line; np.roll wraps. c74_total_lost is the witness."
  },
  {
   "property": "C75",
   "status": "proved",
   "theorems": [
    "Mpm.c75_nonneg",
    "Mpm.c75_overshoot"
   ],
   "note": "c75_overshoot is the witness."
  },
  {
   "property": "C76",
   "status": "proved",
   "theorems": [
    "Mpm.c76_open_ends",
    "Mpm.c76_linear"
   ],
   "note": "A finding: exact change of the total."
  },
  {
   "property": "C77",
   "status": "proved",
   "theorems": [
    "Mpm.c77_pressure",
    "Mpm.c77_total",
    "Mpm.c77_mean"
   ],
   "note": "c77_pressure (value at every node), c77_total (sum over nodes), c77_mean (between the smallest and largest pressure around the node)."
  },
  {
   "property": "C78",
   "status": "proved",
   "theorems": [
    "Mpm.c78_opposite",
    "Mpm.c78_dp_rate",
    "Mpm.c78_cancel"
   ],
   "note": "Finding. c78_opposite and c78_cancel (elastic against elastic_time), c78_dp_rate (grid against point)."
  },
  {
   "property": "C79",
   "status": "proved",
   "theorems": [
    "Mpm.c79_frozen"
   ],
   "note": "Whole step, via c73_frozen: the pressure at a node without mass is proved to be zero for every law (a non-cyclic grid)."
  },
  {
   "property": "C80",
   "status": "proved",
   "theorems": [
    "Mpm.c80_virtual_work"
   ],
   "note": "dt times the power of the internal forces equals the sum of V sigma:d eps; nodal velocities and contraction are defined in the specification."
  },
  {
   "property": "C81",
   "status": "proved",
   "theorems": [
    "Mpm.c81_no_gain",
    "Mpm.c81_uniform"
   ],
   "note": "Inequality for any arrangement; equality for uniform velocity without walls; an example loses energy."
  },
  {
   "property": "C82",
   "status": "proved",
   "theorems": [
    "Mpm.c82_stress_moment",
    "Mpm.c82_internal_torque",
    "Mpm.c82_external_torque",
    "Mpm.c82_angular_momentum"
   ],
   "note": "First moments of the internal forces, zero torque for symmetric stress, torque of body forces, angular momentum of the mapping."
  },
  {
   "property": "C83",
   "status": "proved",
   "theorems": [
    "Mpm.c83_elastic",
    "Mpm.c83_relax",
    "Mpm.c83_overshoot",
    "Mpm.c83_no_time"
   ],
   "note": "Exact increment from every successful call; relaxation factor, overshoot and independence of dt."
  },
  {
   "property": "C84",
   "status": "proved",
   "theorems": [
    "Mpm.c84_no_friction",
    "Mpm.c84_run"
   ],
   "note": "Closed form of the stress for zero shear rate and invariance of that zero over any run."
  },
  {
   "property": "C85",
   "status": "proved",
   "theorems": [
    "Mpm.c85_poison",
    "Mpm.c85_when"
   ],
   "note": "Iff for NaN of mu and I at the point; poisoning of the four nodes for mu, I and eta in the grid part of a step."
  },
  {
   "property": "C86",
   "status": "proved",
   "theorems": [
    "Mpm.c86_walls",
    "Mpm.c86_balance"
   ],
   "note": "NT is never called by the program; rows and columns are lines of the same function"
  },
  {
   "property": "C87",
   "status": "proved",
   "theorems": [
    "Mpm.c87_two_sizes",
    "Mpm.c87_three_sizes"
   ],
   "note": "the three-size case is a refutation"
  },
  {
   "property": "C88",
   "status": "proved",
   "theorems": [
    "Mpm.c88_per_step",
    "Mpm.c88_spike"
   ],
   "note": ""
  },
  {
   "property": "C89",
   "status": "proved",
   "theorems": [
    "Mpm.c89_uniform",
    "Mpm.c89_lost"
   ],
   "note": "c89_lost is a refutation"
  },
  {
   "property": "C90",
   "status": "proved",
   "theorems": [
    "Mpm.c90_total",
    "Mpm.c90_nonneg",
    "Mpm.c90_above_one",
    "Mpm.c90_fixed"
   ],
   "note": "never called (commented NEVER USE THIS)"
  },
  {
   "property": "C91",
   "status": "proved",
   "theorems": [
    "Mpm.c91_centred",
    "Mpm.c91_widths",
    "Mpm.c91_half",
    "Mpm.c91_extent",
    "Mpm.c91_sum"
   ],
   "note": ""
  },
  {
   "property": "C92",
   "status": "proved",
   "theorems": [
    "Mpm.c92_linear",
    "Mpm.c92_constant"
   ],
   "note": "only used by the law dp, which cannot run (C43)"
  },
  {
   "property": "C93",
   "status": "proved",
   "theorems": [
    "Mpm.c93_step",
    "Mpm.c93_steps",
    "Mpm.c93_grid",
    "Mpm.c93_points",
    "Mpm.c93_inlet_top",
    "Mpm.c93_steady"
   ],
   "note": "Exact equality of results including failures; over exact arithmetic."
  },
  {
   "property": "C94",
   "status": "proved",
   "theorems": [
    "Mpm.c94_edges",
    "Mpm.c94_mass",
    "Mpm.c94_momentum",
    "Mpm.c94_uniform",
    "Mpm.c94_forces",
    "Mpm.c94_pressure",
    "Mpm.c94_totals",
    "Mpm.c94_motion",
    "Mpm.c94_fractions",
    "Mpm.c94_fractions_differ"
   ],
   "note": "c94_edges, c94_mass, c94_momentum, c94_forces, c94_pressure, c94_totals, c94_uniform: sums over the nodes at one place (Spec.copies). c94_motion: both copies move alike (nx at least 3). c94_fractions and c94_fractions_differ: the fractions are one-sided, with a concrete step in which the copies differ."
  },
  {
   "property": "C95",
   "status": "proved",
   "theorems": [
    "Mpm.c95_step",
    "Mpm.c95_run"
   ],
   "note": "c95_step and c95_run: success is equivalent, grid and time equal, points a permutation within each phase (Reordered, the relation of C07)."
  },
  {
   "property": "C96",
   "status": "proved",
   "theorems": [
    "Mpm.c96_step",
    "Mpm.c96_light"
   ],
   "note": "c96_step: the nodal gammadot of calc_gammadot (a finite difference of q/m over all nodes, empty ones included) is left out of the claim. c96_light: the witness for the light node."
  },
  {
   "property": "C97",
   "status": "proved",
   "theorems": [
    "Mpm.c97_full",
    "Mpm.c97_topless",
    "Mpm.c97_dam",
    "Mpm.c97_dam_origin",
    "Mpm.c97_box",
    "Mpm.c97_conveyor",
    "Mpm.c97_count",
    "Mpm.c97_cells",
    "Mpm.c97_inside",
    "Mpm.c97_weights"
   ],
   "note": "Spec.block is stated without the code's linspace/tile/repeat; loop with index modelled as zip and filter"
  },
  {
   "property": "C98",
   "status": "proved",
   "theorems": [
    "Mpm.c98_block",
    "Mpm.c98_area",
    "Mpm.c98_shared",
    "Mpm.c98_part",
    "Mpm.c98_density"
   ],
   "note": "Nodal mass is that of the first grid phase of the time step (MPM.py:20-29)"
  },
  {
   "property": "C99",
   "status": "proved",
   "theorems": [
    "Mpm.c99_chuteflow",
    "Mpm.c99_incline",
    "Mpm.c99_dam_break",
    "Mpm.c99_conveyor",
    "Mpm.c99_francois",
    "Mpm.c99_tunnel",
    "Mpm.c99_hole"
   ],
   "note": "Numbers quantified where the file fixes them, except for the tunnel"
  },
  {
   "property": "C100",
   "status": "proved",
   "theorems": [
    "Mpm.c100_bins",
    "Mpm.c100_order",
    "Mpm.c100_mean",
    "Mpm.c100_step"
   ],
   "note": "Midpoints of equal parts; IndexError for ns <= 1."
  },
  {
   "property": "C101",
   "status": "proved",
   "theorems": [
    "Mpm.c101_top",
    "Mpm.c101_bot",
    "Mpm.c101_sorted",
    "Mpm.c101_list",
    "Mpm.c101_other",
    "Mpm.c101_layered",
    "Mpm.c101_shares"
   ],
   "note": "For domains whose bottom is at height 0, as in the files."
  },
  {
   "property": "C102",
   "status": "proved",
   "theorems": [
    "Mpm.c102_ramp",
    "Mpm.c102_reached",
    "Mpm.c102_smooth",
    "Mpm.c102_ignored"
   ],
   "note": "exp is the real exponential; c102_ignored is about the attribute objects of initialise.py."
  },
  {
   "property": "C103",
   "status": "proved",
   "theorems": [
    "Mpm.c103_same",
    "Mpm.c103_path",
    "Mpm.c103_smooth",
    "Mpm.c103_sign"
   ],
   "note": "Ordered fields."
  },
  {
   "property": "C104",
   "status": "proved",
   "theorems": [
    "Mpm.c104_constant",
    "Mpm.c104_gravity",
    "Mpm.c104_others",
    "Mpm.c104_kept",
    "Mpm.c104_symmetric",
    "Mpm.c104_weight",
    "Mpm.c104_froude",
    "Mpm.c104_drum",
    "Mpm.c104_tangent",
    "Mpm.c104_tilts"
   ],
   "note": "update_forces is called before anything reads theta or intruder_v, so a step is the ordinary step with the parameters of that time."
  },
  {
   "property": "C105",
   "status": "proved",
   "theorems": [
    "Mpm.c105_path",
    "Mpm.c105_shape"
   ],
   "note": "Without inlets and outlets."
  },
  {
   "property": "C106",
   "status": "proved",
   "theorems": [
    "Mpm.c106_solid_rate",
    "Mpm.c106_plane_rate",
    "Mpm.c106_ken_kamrin_rate",
    "Mpm.c106_no_rate",
    "Mpm.c106_shear_stress",
    "Mpm.c106_flow_stress",
    "Mpm.c106_dp_rate",
    "Mpm.c106_von_mises",
    "Mpm.c106_friction",
    "Mpm.c106_nodal"
   ],
   "note": "the von_mises part assumes the stored deviator is traceless, which C35 proves of every run"
  },
  {
   "property": "C107",
   "status": "proved",
   "theorems": [
    "Mpm.c107_count",
    "Mpm.c107_inside",
    "Mpm.c107_domain",
    "Mpm.c107_spacing",
    "Mpm.c107_area"
   ],
   "note": "real arithmetic; tan(slope) an arbitrary positive number"
  },
  {
   "property": "C108",
   "status": "proved",
   "theorems": [
    "Mpm.c108_elastic",
    "Mpm.c108_flow",
    "Mpm.c108_loop"
   ],
   "note": "the square root is assumed right at K/rho only"
  },
  {
   "property": "C109",
   "status": "proved",
   "theorems": [
    "Mpm.c109_run",
    "Mpm.c109_parabola"
   ],
   "note": "A run of a stress-free body with one velocity, of any number of steps; the parabola follows for constant gravity. The hypotheses that the points stay in the domain and their nodes above the threshold are about the states of the run. dp_rate and linear_mu raise on unstressed resting points, so runs with them succeed only in motion."
  },
  {
   "property": "C110",
   "status": "proved",
   "theorems": [
    "Mpm.c110_balance",
    "Mpm.c110_weights"
   ],
   "note": "Exact identity for the nodal kinetic energy over momentumPhase, from C80 (virtual work), the wall conditions and the explicit update; the second theorem writes the external power with the weights of the points."
  },
  {
   "property": "C111",
   "status": "proved",
   "theorems": [
    "Mpm.c111_step",
    "Mpm.c111_steps",
    "Mpm.c111_grid",
    "Mpm.c111_points",
    "Mpm.c111_ken_simple",
    "Mpm.c111_ken_kamrin",
    "Mpm.c111_diffusion"
   ],
   "note": "Steps and constructors under any change of units; the two laws and the diffusivity that break it have counterexample theorems. Excluded by hypothesis: segregation, the position check, inlets with a prescribed initial flow. The nodal shear rate stored last is hidden on both sides because its value mixes two quantities."
  },
  {
   "property": "C112",
   "status": "proved",
   "theorems": [
    "Mpm.c112_move",
    "Mpm.c112_phi",
    "Mpm.c112_strain",
    "Mpm.c112_blind",
    "Mpm.c112_frozen_step",
    "Mpm.c112_frozen"
   ],
   "note": "Uniform fields near light nodes in closed form (motion, velocity, density, sizes, strain), grids equal at heavy nodes are not told apart, bodies lighter than the tolerance stay for any number of steps; examples with share 3/8 and a spurious strain."
  },
  {
   "property": "C113",
   "status": "proved",
   "theorems": [
    "Mpm.c113_transfer",
    "Mpm.c113_step",
    "Mpm.c113_conserved",
    "Mpm.c113_fractions",
    "Mpm.c113_not_conserved"
   ],
   "note": "Exact balance of a grain size over transfer and over a whole step, conservation for equal nodal masses, sum of fractions; the example with two cells shows that the amount changes although the increments add up to zero."
  },
  {
   "property": "C114",
   "status": "proved",
   "theorems": [
    "Mpm.c114_par",
    "Mpm.c114_pt",
    "Mpm.c114_nodes",
    "Mpm.c114_grid",
    "Mpm.c114_steps",
    "Mpm.c114_eta",
    "Mpm.c114_height",
    "Mpm.c114_friction"
   ],
   "note": "The nodal viscosity is left out of the state equality, and c114_eta says what happens to it; frictionless walls, no inlets, outlets, belt or periodic sides."
  },
  {
   "property": "C115",
   "status": "proved",
   "theorems": [
    "Mpm.c115_unsegregated",
    "Mpm.c115_symmetric_unsegregated",
    "Mpm.c115_covered",
    "Mpm.c115_par",
    "Mpm.c115_pt",
    "Mpm.c115_nodes",
    "Mpm.c115_grid",
    "Mpm.c115_steps",
    "Mpm.c115_symmetric",
    "Mpm.c115_start",
    "Mpm.c115_momentum",
    "Mpm.c115_middle",
    "Mpm.c115_line"
   ],
   "note": "Whole runs for fillings that clear the mask, for grids without empty nodes, and without segregation for any filling; counterexample on a grid line."
  },
  {
   "property": "C116",
   "status": "proved",
   "theorems": [
    "Mpm.c116_step",
    "Mpm.c116_bottom",
    "Mpm.c116_left"
   ],
   "note": "for every time step; rates of open inlets positive"
  },
  {
   "property": "C117",
   "status": "proved",
   "theorems": [
    "Mpm.c117_pk",
    "Mpm.c117_pk_inertial",
    "Mpm.c117_pk_frame",
    "Mpm.c117_diffusivity",
    "Mpm.c117_quoted",
    "Mpm.c117_factor",
    "Mpm.c117_equal_iff",
    "Mpm.c117_size"
   ],
   "note": "over the reals"
  },
  {
   "property": "C118",
   "status": "proved",
   "theorems": [
    "Mpm.c118_minmod",
    "Mpm.c118_scale",
    "Mpm.c118_linear",
    "Mpm.c118_not_slope",
    "Mpm.c118_vanLeer",
    "Mpm.c118_vanAlbada1",
    "Mpm.c118_zero",
    "Mpm.c118_third",
    "Mpm.c118_minmod2"
   ],
   "note": "vanLeer, vanAlbada1 and minmod2 are not limiters of slopes: proved false with witnesses"
  },
  {
   "property": "C119",
   "status": "proved",
   "theorems": [
    "Mpm.c119_layout",
    "Mpm.c119_viscous",
    "Mpm.c119_granular",
    "Mpm.c119_dp",
    "Mpm.c119_empty",
    "Mpm.c119_contours_empty",
    "Mpm.c119_contours",
    "Mpm.c119_heavier",
    "Mpm.c119_profile",
    "Mpm.c119_step"
   ],
   "note": "All panels of the four layouts, with infinities and NaN as values; layouts are chosen by the name of the law of phase 0."
  },
  {
   "property": "C120",
   "status": "proved",
   "theorems": [
    "Mpm.c120_markers",
    "Mpm.c120_origin",
    "Mpm.c120_wedges",
    "Mpm.c120_circle",
    "Mpm.c120_title",
    "Mpm.c120_sizes",
    "Mpm.c120_layout",
    "Mpm.c120_nan",
    "Mpm.c120_density",
    "Mpm.c120_points",
    "Mpm.c120_density_step"
   ],
   "note": "Numbers handed to matplotlib and numpy.save; colours and axes are not modelled."
  },
  {
   "property": "C121",
   "status": "proved",
   "theorems": [
    "Mpm.c121_viscous",
    "Mpm.c121_bingham",
    "Mpm.c121_ken_kamrin",
    "Mpm.c121_planar",
    "Mpm.c121_pierre",
    "Mpm.c121_pouliquen",
    "Mpm.c121_linear_mu",
    "Mpm.c121_ken_simple",
    "Mpm.c121_step",
    "Mpm.c121_growth"
   ],
   "note": "work of the stress the law aims at (for bingham: sets) on the strain increment of the step; the step statement is for a stress-free start"
  },
  {
   "property": "C122",
   "status": "proved",
   "theorems": [
    "Mpm.c122_step",
    "Mpm.c122_bounds",
    "Mpm.c122_total",
    "Mpm.c122_full",
    "Mpm.c122_block",
    "Mpm.c122_bed",
    "Mpm.c122_low"
   ],
   "note": "Whole-step theorems for acyclic or (c122_step, c122_full, c122_low) any grids; inlets are excluded, since new points have the stated density (C28)."
  },
  {
   "property": "C123",
   "status": "proved",
   "theorems": [
    "Mpm.c123_chain",
    "Mpm.c123_unique",
    "Mpm.c123_observers",
    "Mpm.c123_seen",
    "Mpm.c123_invariant",
    "Mpm.c123_run",
    "Mpm.c123_ends",
    "Mpm.c123_mass",
    "Mpm.c123_symmetric",
    "Mpm.c123_planar",
    "Mpm.c123_box",
    "Mpm.c123_order",
    "Mpm.c123_dynamic_escapes"
   ],
   "note": "Hooks may have any state of their own; 'only look' means that they return the simulation state unchanged. Chain is the specification of a run without output; c123_unique says that it is determined."
  },
  {
   "property": "C124",
   "status": "proved",
   "theorems": [
    "Mpm.c124_balance",
    "Mpm.c124_bed",
    "Mpm.c124_stands",
    "Mpm.c124_filled",
    "Mpm.c124_thin",
    "Mpm.c124_step",
    "Mpm.c124_steps",
    "Mpm.c124_run"
   ],
   "note": "Rest states: Lemmas/Tilt (sums of gradient weights over a block), Props/Rest (a balanced state is kept by every step and run), Props/Bed (the lithostatic preset gives such a state; the pouliquen bed below a gap does not keep it)."
  },
  {
   "property": "C125",
   "status": "proved",
   "theorems": [
    "Mpm.c125_deep",
    "Mpm.c125_nodes",
    "Mpm.c125_strain",
    "Mpm.c125_share",
    "Mpm.c125_inside",
    "Mpm.c125_thread"
   ],
   "note": "Spec: Spread (block of whole cells), Flows (affine velocities), offCentre and feltShare (centre of the mass a node gets). One step from such a state; non-periodic, no inlets or outlets; walls excluded cell by cell."
  },
  {
   "property": "C126",
   "status": "proved",
   "theorems": [
    "Mpm.c126_places",
    "Mpm.c126_rate",
    "Mpm.c126_behind",
    "Mpm.c126_yield",
    "Mpm.c126_initial",
    "Mpm.c126_energy"
   ],
   "note": "Figures modelled as lists of numbers and places; dev_dstress and q are arguments of the figure as only figures read them."
  },
  {
   "property": "C127",
   "status": "proved",
   "theorems": [
    "Mpm.c127_passes",
    "Mpm.c127_ends",
    "Mpm.c127_endless",
    "Mpm.c127_figures",
    "Mpm.c127_total",
    "Mpm.c127_volume",
    "Mpm.c127_empty",
    "Mpm.c127_main",
    "Mpm.c127_constants",
    "Mpm.c127_neither",
    "Mpm.c127_shipped"
   ],
   "note": "The loop proper for any constants; c127_main for the program as shipped (one time step of the solver first). Non-finite fractions are an error of the model, Python goes on with them."
  },
  {
   "property": "C128",
   "status": "proved",
   "theorems": [
    "Mpm.c128_circles",
    "Mpm.c128_inside",
    "Mpm.c128_count",
    "Mpm.c128_centre",
    "Mpm.c128_above",
    "Mpm.c128_isotropic",
    "Mpm.c128_ball",
    "Mpm.c128_shipped",
    "Mpm.c128_shipped_inside",
    "Mpm.c128_float",
    "Mpm.c128_brazillian"
   ],
   "note": "over the reals with exact sine, cosine and pi; that the points of the float loops would be refused is modelled as the documented behaviour of numpy"
  },
  {
   "property": "C129",
   "status": "proved",
   "theorems": [
    "Mpm.c129_kept",
    "Mpm.c129_corner",
    "Mpm.c129_area",
    "Mpm.c129_share",
    "Mpm.c129_steep",
    "Mpm.c129_pile",
    "Mpm.c129_pile_place",
    "Mpm.c129_pile_centre",
    "Mpm.c129_pile_shipped",
    "Mpm.c129_square_drum",
    "Mpm.c129_square_share",
    "Mpm.c129_drum_wall",
    "Mpm.c129_drum"
   ],
   "note": "exact numbers; int(...) is modelled as floor of a non-negative number"
  },
  {
   "property": "C130",
   "status": "proved",
   "theorems": [
    "Mpm.c130_rate",
    "Mpm.c130_pk",
    "Mpm.c130_step",
    "Mpm.c130_steps",
    "Mpm.c130_across",
    "Mpm.c130_upright",
    "Mpm.c130_rigid",
    "Mpm.c130_unsegregated",
    "Mpm.c130_mirror"
   ],
   "note": "Interpolation idle in every step; three cases of the masked difference; rigid bodies; mirror witness; irrelevance without segregation."
  },
  {
   "property": "C131",
   "status": "proved",
   "theorems": [
    "Mpm.c131_bodies",
    "Mpm.c131_reach",
    "Mpm.c131_reach_sharp",
    "Mpm.c131_tied"
   ],
   "note": "c131_bodies compares a run with the run of the chosen points only, both given to complete; phases whose points use the shared velocity array are chosen whole or not at all (Whole), which c131_tied shows to be necessary. Closed box, no segregation, fixed time step."
  },
  {
   "property": "C132",
   "status": "proved",
   "theorems": [
    "Mpm.c132_memory",
    "Mpm.c132_needed"
   ],
   "note": "c132_memory for every law and any number of steps (fixed time step); c132_needed gives a witness for eight of the listed fields"
  },
  {
   "property": "C133",
   "status": "proved",
   "theorems": [
    "Mpm.c133_written",
    "Mpm.c133_ends",
    "Mpm.c133_data",
    "Mpm.c133_velocities",
    "Mpm.c133_lost",
    "Mpm.c133_ball",
    "Mpm.c133_silent",
    "Mpm.c133_pictures"
   ],
   "note": "The hooks of the shipped files are given to the main loop as lists of calls of Plotting; contents of data files are exact, pictures are not told apart. avalanche.py is left out: it does not compile. Drawing is assumed not to raise."
  },
  {
   "property": "C134",
   "status": "proved",
   "theorems": [
    "Mpm.c134_empty",
    "Mpm.c134_stops",
    "Mpm.c134_side",
    "Mpm.c134_clean"
   ],
   "note": "c134_empty: mass and momentum of a node at which no point has weight. c134_stops: what such a node does to the next time step. c134_side: a body with its side on a vertical grid line. c134_clean: points off the lines do no harm. The size of the time step is exact arithmetic; that 1e-310 added to t changes nothing is a property of floating point outside the model."
  },
  {
   "property": "C135",
   "status": "proved",
   "theorems": [
    "Mpm.c135_moved",
    "Mpm.c135_memory",
    "Mpm.c135_swapped",
    "Mpm.c135_mirrored",
    "Mpm.c135_mirrored_unsegregated",
    "Mpm.c135_units",
    "Mpm.c135_main"
   ],
   "note": "Chains of steps as in C123 (Ticks includes the choice of the next time step). Runs that end in an exception are not covered."
  },
  {
   "property": "C136",
   "status": "proved",
   "theorems": [
    "Mpm.c136_bits",
    "Mpm.c136_float",
    "Mpm.c136_nearest",
    "Mpm.c136_lost",
    "Mpm.c136_drift",
    "Mpm.c136_exact",
    "Mpm.c136_schedule",
    "Mpm.c136_static",
    "Mpm.c136_count",
    "Mpm.c136_stuck",
    "Mpm.c136_endless",
    "Mpm.c136_ends",
    "Mpm.c136_twice",
    "Mpm.c136_missed",
    "Mpm.c136_saves",
    "Mpm.c136_two_saves",
    "Mpm.c136_no_save"
   ],
   "note": "Rounding to p bits is defined (roundTiesToEven, unbounded exponents) and satisfies the abstract hypotheses; windows with two and no saves are runs of the model in double precision."
  },
  {
   "property": "C137",
   "status": "proved",
   "theorems": [
    "Mpm.c137_sum",
    "Mpm.c137_exact",
    "Mpm.c137_exact_grid",
    "Mpm.c137_weights",
    "Mpm.c137_nodes",
    "Mpm.c137_total",
    "Mpm.c137_cell",
    "Mpm.c137_wrap",
    "Mpm.c137_conserves",
    "Mpm.c137_lost_point",
    "Mpm.c137_negative_mass",
    "Mpm.c137_wrapped_out"
   ],
   "note": "Rounding after every operation of the mapping; error bounds are proved against the exact mapping from the same reference nodes (c137_nodes) and against the totals of the points (c137_total, c137_conserves); failures in double precision are c137_lost_point, c137_negative_mass, c137_wrapped_out."
  },
  {
   "property": "C138",
   "status": "proved",
   "theorems": [
    "Mpm.c138_exact",
    "Mpm.c138_sum",
    "Mpm.c138_move",
    "Mpm.c138_forces_sum",
    "Mpm.c138_forces",
    "Mpm.c138_node",
    "Mpm.c138_walls",
    "Mpm.c138_symmetric",
    "Mpm.c138_strain",
    "Mpm.c138_rest",
    "Mpm.c138_creep",
    "Mpm.c138_total",
    "Mpm.c138_gradient"
   ],
   "note": "The laws, segregation and the constructor are arbitrary functions here (structure Besides), so the bounds hold however they round."
  },
  {
   "property": "C139",
   "status": "proved",
   "theorems": [
    "Mpm.c139_step",
    "Mpm.c139_steps",
    "Mpm.c139_grid",
    "Mpm.c139_power",
    "Mpm.c139_only",
    "Mpm.c139_run",
    "Mpm.c139_decimal"
   ],
   "note": "c139_only: the factors that rounding commutes with. c139_grid, c139_step, c139_steps: the grid and n steps for whatever laws commute with the units; c139_run: instance for the rounded laws of Model/FloatLaw.lean with powers of two. c139_decimal: decimal units change the digits. Hypothesis on the square root: RootScales, true of the real one (realOps_root)."
  },
  {
   "property": "C140",
   "status": "proved",
   "theorems": [
    "Mpm.c140_exact",
    "Mpm.c140_elastic",
    "Mpm.c140_viscous",
    "Mpm.c140_symmetric",
    "Mpm.c140_still",
    "Mpm.c140_lost",
    "Mpm.c140_skew"
   ],
   "note": "c140_exact: rnd = id gives the laws of Model/Constit.lean. c140_elastic, c140_viscous: whole strain and stress update of a point against the exact program on the same input. c140_symmetric with the counterexample c140_skew for whole steps; c140_still, c140_lost. elastic_time has exactness and symmetry only, no error bound."
  },
  {
   "property": "C141",
   "status": "proved",
   "theorems": [
    "Mpm.c141_bodies",
    "Mpm.c141_walls",
    "Mpm.c141_rest",
    "Mpm.c141_motion"
   ],
   "note": "stepsR with the rounded laws of C140: bodies, walls and rest exact over any number of steps; uniform motion is not (concrete run)."
  },
  {
   "property": "C142",
   "status": "proved",
   "theorems": [
    "Mpm.c142_normal",
    "Mpm.c142_nearest",
    "Mpm.c142_sums",
    "Mpm.c142_products",
    "Mpm.c142_overflow",
    "Mpm.c142_power",
    "Mpm.c142_units",
    "Mpm.c142_run",
    "Mpm.c142_walls",
    "Mpm.c142_rest"
   ],
   "note": "Single operations with both ends of the range; underflow for whole runs and steps; overflow for single operations only."
  },
  {
   "property": "C143",
   "status": "proved",
   "theorems": [
    "Mpm.c143_gradients",
    "Mpm.c143_balance"
   ],
   "note": "c143_balance is stated for timeMarchR with Besides.rounded (rounded laws); weight, stresses and contributions are read off the state after the step. Cell sizes are machine numbers and points lie exactly in the cell of the reference node they are given."
  },
  {
   "property": "C144",
   "status": "proved",
   "theorems": [
    "Mpm.c144_exact",
    "Mpm.c144_pressure",
    "Mpm.c144_sign",
    "Mpm.c144_friction",
    "Mpm.c144_cap",
    "Mpm.c144_stress",
    "Mpm.c144_light",
    "Mpm.c144_stuck",
    "Mpm.c144_frozen",
    "Mpm.c144_run",
    "Mpm.c144_start",
    "Mpm.c144_absorbed"
   ],
   "note": "Lean: Props/FloatFluid. Exact without rounding; sign of the pressure, friction limits, viscosity cap, error bound of the stress, light and frozen material, linear_mu at zero pressure; whole runs for the sign and the start."
  },
  {
   "property": "C145",
   "status": "proved",
   "theorems": [
    "Mpm.c145_exact",
    "Mpm.c145_limiter",
    "Mpm.c145_faces",
    "Mpm.c145_ends",
    "Mpm.c145_total",
    "Mpm.c145_walled",
    "Mpm.c145_quiet",
    "Mpm.c145_masked",
    "Mpm.c145_single",
    "Mpm.c145_alone",
    "Mpm.c145_leaks"
   ],
   "note": "With every operation of the KT scheme rounded: exact limiters, shared faces, leak at the ends and total of a line bounded by roundings; witnesses in binary64 for the leak and for a single size."
  },
  {
   "property": "C146",
   "status": "proved",
   "theorems": [
    "Mpm.c146_exact",
    "Mpm.c146_trace",
    "Mpm.c146_drift",
    "Mpm.c146_still",
    "Mpm.c146_rest",
    "Mpm.c146_symmetric",
    "Mpm.c146_target",
    "Mpm.c146_settles",
    "Mpm.c146_bingham",
    "Mpm.c146_cap",
    "Mpm.c146_traced",
    "Mpm.c146_jump"
   ],
   "note": "All roundings with relative error u for bounds, drift, rest, symmetry and the cap; binary64 witnesses for the trace and for the wrong branch. The three laws are modelled for single points (law and stress update), not inside whole rounded time steps."
  },
  {
   "property": "C147",
   "status": "proved",
   "theorems": [
    "Mpm.c147_rows",
    "Mpm.c147_columns",
    "Mpm.c147_slope",
    "Mpm.c147_infinite"
   ],
   "note": "nodeFlux is stated from the fields of the grid; the increments are assumed finite, as in C86"
  },
  {
   "property": "C148",
   "status": "proved",
   "theorems": [
    "Mpm.c148_exact",
    "Mpm.c148_run",
    "Mpm.c148_bodies",
    "Mpm.c148_walls",
    "Mpm.c148_rest",
    "Mpm.c148_balance",
    "Mpm.c148_loaded"
   ],
   "note": "Besides.all joins the laws of C139, C144 and C146; C150 adds dp_rate, and C151 inlets. The comparison with the exact model excludes segregation."
  },
  {
   "property": "C149",
   "status": "proved",
   "theorems": [
    "Mpm.c149_fails",
    "Mpm.c149_normal",
    "Mpm.c149_pure",
    "Mpm.c149_nodes",
    "Mpm.c149_still",
    "Mpm.c149_parts",
    "Mpm.c149_exact",
    "Mpm.c149_run",
    "Mpm.c149_restless"
   ],
   "note": "Increments on the grid (KT scheme plus diffusion) are arbitrary in c149_run, so it holds for whatever they are; stored fractions are assumed to be floating-point numbers. c149_restless is a counterexample by computation in binary64."
  },
  {
   "property": "C150",
   "status": "proved",
   "theorems": [
    "Mpm.c150_law",
    "Mpm.c150_unstressed",
    "Mpm.c150_measures",
    "Mpm.c150_increment",
    "Mpm.c150_yield",
    "Mpm.c150_direction",
    "Mpm.c150_symmetric",
    "Mpm.c150_no_time",
    "Mpm.c150_exact",
    "Mpm.c150_run",
    "Mpm.c150_bodies",
    "Mpm.c150_walls",
    "Mpm.c150_rest",
    "Mpm.c150_balance"
   ],
   "note": "Errors are relative to the terms that are added, not to their sum: near yield the overstress is a difference and may have no correct digit. The root is any function; no claim about its accuracy is made. The grid scatter of the law is modelled with rounding and compared without (c150_law), as in C146."
  },
  {
   "property": "C151",
   "status": "proved",
   "theorems": [
    "Mpm.c151_constructor",
    "Mpm.c151_litho",
    "Mpm.c151_strain",
    "Mpm.c151_symmetric",
    "Mpm.c151_bulk",
    "Mpm.c151_viscous",
    "Mpm.c151_exact",
    "Mpm.c151_run",
    "Mpm.c151_walls"
   ],
   "note": "No bounds are proved for the steady mu(I) and Poiseuille profiles, which are modelled with rounding and compared without. The sine, cosine and tangent of the slope are given numbers. Segregation is excluded from the comparison of runs, as in C150."
  },
  {
   "property": "C152",
   "status": "proved",
   "theorems": [
    "Mpm.c152_exact",
    "Mpm.c152_run",
    "Mpm.c152_walls",
    "Mpm.c152_fractions"
   ],
   "note": "Besides.whole combines every law (C150), every new point (C151) and the bookkeeping of sizes (C149); the increments on the grid are a parameter, as in C149, and the equality with the exact model takes those of the exact scheme."
  },
  {
   "property": "C153",
   "status": "proved",
   "theorems": [
    "Mpm.c153_exact",
    "Mpm.c153_ramp",
    "Mpm.c153_error",
    "Mpm.c153_dead",
    "Mpm.c153_full"
   ],
   "note": "The order statements assume that 1 and the final value are representable and hold for any monotone exponential with exp(0)=1; the error bound assumes a correctly rounded exponential and u at most 1/100, and the double precision results a correctly rounded exponential."
  },
  {
   "property": "C154",
   "status": "proved",
   "theorems": [
    "Mpm.c154_exact",
    "Mpm.c154_gradient",
    "Mpm.c154_gammadot",
    "Mpm.c154_rigid"
   ],
   "note": "The interpolation of masked values is a parameter, and the error bounds are for grids without empty nodes; used within whole steps in C155."
  },
  {
   "property": "C155",
   "status": "proved",
   "theorems": [
    "Mpm.c155_exact",
    "Mpm.c155_run",
    "Mpm.c155_uniform",
    "Mpm.c155_error",
    "Mpm.c155_drive"
   ],
   "note": "The error bound starts from the stored diffusivities; roots and powers are rounded correctly. The interpolation of masked values is a parameter."
  }
 ]
}
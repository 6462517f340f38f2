{
 "claims": [
  {
   "property": "C01",
   "status": "proved",
   "theorems": [
    "Gandalf.C01_quickSelect_median",
    "Gandalf.C01_quickSelect_halves",
    "Gandalf.C01_quickSelect_reads_in_range"
   ],
   "note": ""
  },
  {
   "property": "C02",
   "status": "proved",
   "theorems": [
    "Gandalf.C02_depth_minimal",
    "Gandalf.C02_zero_capacity_diverges",
    "Gandalf.C03_build_partitions_particles"
   ],
   "note": "leaf and internal cell counts are clauses of BuildOK, established by C03_build_partitions_particles"
  },
  {
   "property": "C03",
   "status": "proved",
   "theorems": [
    "Gandalf.C03_build_partitions_particles"
   ],
   "note": "sequential build; requires that no dead particle is in the range (DeleteDeadParticles is called before every build)"
  },
  {
   "property": "C04",
   "status": "proved",
   "theorems": [
    "Gandalf.C04_walk_is_recursive_traversal",
    "Gandalf.C04_walk_visits"
   ],
   "note": ""
  },
  {
   "property": "C05",
   "status": "proved",
   "theorems": [
    "Gandalf.C05_structure_is_preorder",
    "Gandalf.C05_cell_count",
    "Gandalf.C05_structure_linked",
    "Gandalf.C05_levels_and_leaf_table"
   ],
   "note": ""
  },
  {
   "property": "C06",
   "status": "proved",
   "theorems": [
    "Gandalf.C06_stock_summarises",
    "Gandalf.C06_built_tree_stocks",
    "Gandalf.C06_root_mass"
   ],
   "note": "KD-tree stocking; cell work counters and the eigenvalue MAC value are not part of the summary"
  },
  {
   "property": "C07",
   "status": "proved",
   "theorems": [
    "Gandalf.C07_point_gather",
    "Gandalf.C07_point_gather_built",
    "Gandalf.C07_cell_gather"
   ],
   "note": ""
  },
  {
   "property": "C08",
   "status": "proved",
   "theorems": [
    "Gandalf.C08_neighbourList",
    "Gandalf.C08_ghostNeighbours",
    "Gandalf.C08_neighbours",
    "Gandalf.C08_hydro_pipeline",
    "Gandalf.C08_mixed_boundaries_defect"
   ],
   "note": "boxes periodic in all or in no dimension; for partly periodic boxes the code reads uninitialised memory (defect theorem), the search theorem then assumes that memory to be zero"
  },
  {
   "property": "C09",
   "status": "proved",
   "theorems": [
    "Gandalf.C09_gravity_partition",
    "Gandalf.C09_gravity_mass",
    "Gandalf.C09_hydro_neighbours_kept",
    "Gandalf.C09_star_partition",
    "Gandalf.C09_star_room",
    "Gandalf.C09_star_retry_fails"
   ],
   "note": "Partition of the particles for every walk. C09_star_retry_fails: for a star the buffers of the code can be one leaf too short for ever; C09_star_room says what suffices."
  },
  {
   "property": "C10",
   "status": "proved",
   "theorems": [
    "Gandalf.C10_pair_once",
    "Gandalf.C10_pairs_exactly_once"
   ],
   "note": ""
  },
  {
   "property": "C100",
   "status": "partial",
   "theorems": [
    "Gandalf.C100_sph",
    "Gandalf.C100_sph_hydro",
    "Gandalf.C100_hydro_fails",
    "Gandalf.C100_mfv",
    "Gandalf.C100_mfv_stars",
    "Gandalf.C100_mfv_big_fails",
    "Gandalf.C100_criterion"
   ],
   "note": "Proved for every force law and criterion: acceleration, gravity, potential and heating of SPH and all gravity of the meshless schemes after set-up. Fails: potential of the gas alone in SPH with two passes; potential of the meshless schemes without gravity. Not covered: processes, ghosts, dust, dead particles."
  },
  {
   "property": "C101",
   "status": "partial",
   "theorems": [
    "Gandalf.C101_copy",
    "Gandalf.C101_rest",
    "Gandalf.C101_update",
    "Gandalf.C101_owner",
    "Gandalf.C101_owner_periodic_fails",
    "Gandalf.C101_return",
    "Gandalf.C101_synced",
    "Gandalf.C101_dust",
    "Gandalf.C101_sink",
    "Gandalf.C101_sink_mfv",
    "Gandalf.C101_sink_own_fails",
    "Gandalf.C101_sink_twice_fails",
    "Gandalf.C101_noted",
    "Gandalf.C101_first_fails"
   ],
   "note": "Proved for all lists and states: copies, updates, owners, and that every particle gets exactly the changes of its copies. Fails: the first copy accreted by a sink is not noted; periodic ghosts of the process itself go to process 0; one particle accreted by sinks of two processes. Not covered: which particles are sent (C94)."
  },
  {
   "property": "C102",
   "status": "partial",
   "theorems": [
    "Gandalf.C102_particles",
    "Gandalf.C102_gain",
    "Gandalf.C102_owner_kept",
    "Gandalf.C102_swallowed_fails",
    "Gandalf.C102_again_fails"
   ],
   "note": "Fails as stated: proved are the balance when lists hold no ghosts, the exact gain otherwise, that the particle of an accreted ghost keeps its mass and lives, and that each turn adds it again. Mirror ghosts are not covered."
  },
  {
   "property": "C103",
   "status": "partial",
   "theorems": [
    "Gandalf.C103_clock",
    "Gandalf.C103_active",
    "Gandalf.C103_finer",
    "Gandalf.C103_change",
    "Gandalf.C103_min_sync",
    "Gandalf.C103_min_sync_fails",
    "Gandalf.C103_nlast",
    "Gandalf.C103_nlast_fails",
    "Gandalf.C103_default_fails",
    "Gandalf.C103_level",
    "Gandalf.C103_level_zero",
    "Gandalf.C103_level_long_fails"
   ],
   "note": "Proved: clock over all sequences of calls, activity, synchronisation, change of levels, coarsest level away from meetings of all levels, level of a step up to the longest. Fails: coarsest level where all meet, last step, default number of levels, steps just above the longest. Not covered: wrap of 32-bit counters, assertion of reset."
  },
  {
   "property": "C104",
   "status": "partial",
   "theorems": [
    "Gandalf.C104_grid",
    "Gandalf.C104_positive",
    "Gandalf.C104_positive_run",
    "Gandalf.C104_outside",
    "Gandalf.C104_similar",
    "Gandalf.C104_uniform",
    "Gandalf.C104_vacuum_fails"
   ],
   "note": "Positivity is also proved for the pressure the code finds in finitely many rounds, unless it stops in the first round from a guess above the balanced pressure; the states outside the waves for the balanced pressure, to which the iteration converges (C55). In a vacuum densities are negative (C104_vacuum_fails)."
  },
  {
   "property": "C105",
   "status": "partial",
   "theorems": [
    "Gandalf.C105_found",
    "Gandalf.C105_particle",
    "Gandalf.C105_own",
    "Gandalf.C105_gap_fails",
    "Gandalf.C105_star_fails",
    "Gandalf.C105_other_leaf_fails"
   ],
   "note": "Proved except that points within the tree have a leaf, which is false in gaps between leaves (C105_gap_fails, C105_star_fails)."
  },
  {
   "property": "C106",
   "status": "partial",
   "theorems": [
    "Gandalf.C106_list",
    "Gandalf.C106_retry",
    "Gandalf.C106_no_room",
    "Gandalf.C106_sphere"
   ],
   "note": "That the cells form a linked tree whose boxes hold their particles is a hypothesis; that their spheres then do so is C106_sphere."
  },
  {
   "property": "C11",
   "status": "proved",
   "theorems": [
    "Gandalf.C11_endSearch",
    "Gandalf.C11_trim_partition",
    "Gandalf.C11_counts",
    "Gandalf.C11_demotion_reads_past_end"
   ],
   "note": "hypothesis of C11_endSearch on the memory read past the end at NeighbourManager.h:463 (defect theorem shows a loss without it; unused by the present callers)"
  },
  {
   "property": "C12",
   "status": "proved",
   "theorems": [
    "Gandalf.C12_nearest_is_minimum_image",
    "Gandalf.C12_ghostFinder_agrees"
   ],
   "note": ""
  },
  {
   "property": "C13",
   "status": "proved",
   "theorems": [
    "Gandalf.C13_outcome",
    "Gandalf.C13_inside",
    "Gandalf.C13_consistent",
    "Gandalf.C13_speed",
    "Gandalf.C13_all_particles",
    "Gandalf.C13_far_particle_stays_outside"
   ],
   "note": "One call moves a particle by at most one box length per dimension; C13_inside gives the box for particles at most one box away, C13_far_particle_stays_outside shows the bound is needed."
  },
  {
   "property": "C14",
   "status": "partial",
   "theorems": [
    "Gandalf.C14_images",
    "Gandalf.C14_refresh_reproduces_partial",
    "Gandalf.C14_reflect_involution",
    "Gandalf.C14_acceleration_not_reproduced",
    "Gandalf.C14_flags_own",
    "Gandalf.C14_dead_not_copied_fails"
   ],
   "note": "Creation and every later refresh give faithful images (refresh including accelerations, fluid variables and gradients). Refresh reproduces the created ghost except for the acceleration of mirror images, which creation does not reflect (proved), and derived-class members that creation does not set."
  },
  {
   "property": "C15",
   "status": "partial",
   "theorems": [
    "Gandalf.C15_zero_lifetime",
    "Gandalf.C15_ghosts_partial",
    "Gandalf.C15_moving_margin",
    "Gandalf.C15_fast_particle_missed",
    "Gandalf.C15_neighbours_partial",
    "Gandalf.C15_gather_fails"
   ],
   "note": "Exact (iff, once) for tghost = 0. For tghost > 0 sound, and complete for particles that move no more than the margin; C15_fast_particle_missed proves that the claim is false in general because the walk uses the mean velocity of the cell. Every neighbour behind a boundary is there if the smoothing lengths differ by a factor of 2.5 at most (C15_neighbours_partial); beyond that it fails (C15_gather_fails)."
  },
  {
   "property": "C16",
   "status": "proved",
   "theorems": [
    "Gandalf.C16_all_ghosts",
    "Gandalf.C16_at_most_max",
    "Gandalf.C16_gather_complete",
    "Gandalf.C16_scatter_gather_complete",
    "Gandalf.C16_dangling_reference_defect"
   ],
   "note": "scatter-gather constructor proved for executions where the reference into the growing vector stays valid; the defect theorem shows what happens otherwise"
  },
  {
   "property": "C17",
   "status": "partial",
   "theorems": [
    "Gandalf.C17_hierarchy",
    "Gandalf.C17_finish_together",
    "Gandalf.C17_no_failure",
    "Gandalf.C17_ticks_to_resync",
    "Gandalf.C17_dkd_limiter_breaks"
   ],
   "note": "Proved for every reachable state of the kick-drift-kick and meshless schemes, and of drift-kick-drift without the limiter; with the limiter the claim is false for drift-kick-drift (C17_dkd_limiter_breaks)."
  },
  {
   "property": "C18",
   "status": "partial",
   "theorems": [
    "Gandalf.C18_resync",
    "Gandalf.C18_every_step",
    "Gandalf.C18_at_least_half_partial",
    "Gandalf.C18_exactly_half",
    "Gandalf.C18_less_than_half",
    "Gandalf.C18_global",
    "Gandalf.C18_global_dkd_fails"
   ],
   "note": "Upper bound proved at every resynchronisation and every later step. 'More than half' is false in the code (two negations); at least half is proved for requests up to dt_max."
  },
  {
   "property": "C19",
   "status": "partial",
   "theorems": [
    "Gandalf.C19_limiter",
    "Gandalf.C19_limiter_acts",
    "Gandalf.C19_next_step",
    "Gandalf.C19_no_longer",
    "Gandalf.C19_dkd_unaligned"
   ],
   "note": "Proved for kick-drift-kick and meshless in every reachable state; the alignment part is false for drift-kick-drift (C19_dkd_unaligned)."
  },
  {
   "property": "C20",
   "status": "proved",
   "theorems": [
    "Gandalf.C20_conserved",
    "Gandalf.C20_any_marking",
    "Gandalf.C20_order",
    "Gandalf.C20_particles",
    "Gandalf.C20_check_passes",
    "Gandalf.C20_how_much",
    "Gandalf.C20_swallows",
    "Gandalf.C20_zero_fraction_fails"
   ],
   "note": "Whole routine, both modes, 1-3 dimensions, any marking of particles. C20_zero_fraction_fails: with smooth_accrete_frac = 0 the routine's own final check raises."
  },
  {
   "property": "C21",
   "status": "proved",
   "theorems": [
    "Gandalf.C21_choice",
    "Gandalf.C21_search",
    "Gandalf.C21_thermal_energy_lost",
    "Gandalf.C21_no_overlap",
    "Gandalf.C21_nsinkfixed_exceeded",
    "Gandalf.C21_fixed_radius_overlap"
   ],
   "note": "Statement proved for the whole search loop (choice, exactness, capacity error, termination, conservation). Three theorems state defects outside the statement: thermal energy not handed on, Nsinkfixed exceeded, overlapping sinks with a fixed radius."
  },
  {
   "property": "C22",
   "status": "proved",
   "theorems": [
    "Gandalf.C22_delete_dead"
   ],
   "note": ""
  },
  {
   "property": "C23",
   "status": "proved",
   "theorems": [
    "Gandalf.C23_kdk_sph",
    "Gandalf.C23_kdk_nbody",
    "Gandalf.C23_dkd",
    "Gandalf.C23_reversible_sph",
    "Gandalf.C23_reversible_nbody",
    "Gandalf.C23_reversible_dkd",
    "Gandalf.C23_conserves",
    "Gandalf.C23_free_fall",
    "Gandalf.C23_free_fall_dkd",
    "Gandalf.C23_stale_length_fails",
    "Gandalf.C23_npec_two_fails"
   ],
   "note": "All particles on a common step, cut into any number of turns of the main loop; gas and stars. Two theorems state when it fails: a wrong recorded step length (C52) and Npec = 2."
  },
  {
   "property": "C24",
   "status": "proved",
   "theorems": [
    "Gandalf.C24_no_net_force",
    "Gandalf.C24_no_net_torque",
    "Gandalf.C24_energy",
    "Gandalf.C24_gravity_no_net_force",
    "Gandalf.C24_gravity_no_net_torque",
    "Gandalf.C24_total_energy",
    "Gandalf.C24_total_energy_m4",
    "Gandalf.C24_diagnosed_energy_rate",
    "Gandalf.C24_diagnosed_energy_fails"
   ],
   "note": "Any number of particles and dimension, periodic images included for hydro forces; gravity with all pairs in the three lists and no accepted cells. C24_diagnosed_energy_fails: the energy printed by the diagnostics drifts because the potential of the particle itself is counted twice."
  },
  {
   "property": "C25",
   "status": "proved",
   "theorems": [
    "Gandalf.C25_viscosity_heats",
    "Gandalf.C25_viscosity_heats_gravity",
    "Gandalf.C25_only_approaching",
    "Gandalf.C25_repels",
    "Gandalf.C25_dissipates",
    "Gandalf.C25_conduction",
    "Gandalf.C25_heats_strictly"
   ],
   "note": "Stated by comparison with the same routine with the viscosity (or conductivity) switched off."
  },
  {
   "property": "C26",
   "status": "proved",
   "theorems": [
    "Gandalf.C26_transfers",
    "Gandalf.C26_order",
    "Gandalf.C26_conserves",
    "Gandalf.C26_conserves_open",
    "Gandalf.C26_run",
    "Gandalf.C26_cut_fails",
    "Gandalf.C26_mass_moment",
    "Gandalf.C26_mass_moment_fails",
    "Gandalf.C26_rates"
   ],
   "note": "One flux loop, and any run without limiter cuts. C26_cut_fails: a particle whose step is cut by CheckTimesteps keeps a flux its partner does not see. C26_mass_moment_fails: the mass moments of the two sides cancel, so the gravitational work of transferred mass is lost."
  },
  {
   "property": "C27",
   "status": "proved",
   "theorems": [
    "Gandalf.C27_factor",
    "Gandalf.C27_tvd",
    "Gandalf.C27_scalar_ball",
    "Gandalf.C27_scalar",
    "Gandalf.C27_springel",
    "Gandalf.C27_gizmo",
    "Gandalf.C27_linear",
    "Gandalf.C27_scalar_unlimited"
   ],
   "note": "All four limiters; the last two theorems bound how much they limit."
  },
  {
   "property": "C28",
   "status": "proved",
   "theorems": [
    "Gandalf.C28_consistent",
    "Gandalf.C28_consistent_zmf",
    "Gandalf.C28_upwind_left",
    "Gandalf.C28_upwind_right",
    "Gandalf.C28_fan",
    "Gandalf.C28_zmf_mass",
    "Gandalf.C28_zmf_mass_iso",
    "Gandalf.C28_antisymmetric",
    "Gandalf.C28_zmf_frame"
   ],
   "note": "Contact ordering and positivity for an adiabatic index of at least 5/4 (5/3, 7/5, 4/3), isothermal for any sound speed."
  },
  {
   "property": "C29",
   "status": "proved",
   "theorems": [
    "Gandalf.C29_inverse",
    "Gandalf.C29_rotation",
    "Gandalf.C29_flux",
    "Gandalf.C29_zmf",
    "Gandalf.C29_identical",
    "Gandalf.C29_vacuum_fails",
    "Gandalf.C29_zmf_contact_fails"
   ],
   "note": "The statement is proved in full. Two further claims a reader might expect are refuted: the flux at a vacuum is zero even if gas streams through the face, and in zero-mass-flux mode the face follows the sampled velocity, not the contact, when the flow is supersonic."
  },
  {
   "property": "C30",
   "status": "proved",
   "theorems": [
    "Gandalf.C30_m4_valid"
   ],
   "note": ""
  },
  {
   "property": "C31",
   "status": "proved",
   "theorems": [
    "Gandalf.C31_m4_gravity",
    "Gandalf.C31_m4_omega",
    "Gandalf.C31_m4_zeta"
   ],
   "note": ""
  },
  {
   "property": "C32",
   "status": "partial",
   "theorems": [
    "Gandalf.C32_quintic_valid",
    "Gandalf.C32_quintic_omega",
    "Gandalf.C32_quintic_gravity_partial",
    "Gandalf.C32_quintic_gravity_defect",
    "Gandalf.C32_quintic_zeta_defect",
    "Gandalf.C32_gaussian_partial",
    "Gandalf.C32_gaussian_defects"
   ],
   "note": "validity and omega of the quintic kernel fully proved; its gravity and zeta functions and the Gaussian kernel do not satisfy the claim in the code (negations proved), what does hold is in the partial theorems"
  },
  {
   "property": "C33",
   "status": "proved",
   "theorems": [
    "Gandalf.C33_lookup",
    "Gandalf.C33_lookup_squared",
    "Gandalf.C33_accuracy"
   ],
   "note": ""
  },
  {
   "property": "C34",
   "status": "proved",
   "theorems": [
    "Gandalf.C34_flag_history",
    "Gandalf.C34_check_iff",
    "Gandalf.C34_flags_disjoint",
    "Gandalf.C34_group_checks"
   ],
   "note": ""
  },
  {
   "property": "C35",
   "status": "proved",
   "theorems": [
    "Gandalf.C35_insertionSortIds",
    "Gandalf.C35_insertionSort",
    "Gandalf.C35_heapsort"
   ],
   "note": ""
  },
  {
   "property": "C36",
   "status": "partial",
   "theorems": [
    "Gandalf.C36_boxOverlap_iff",
    "Gandalf.C36_boxesOverlap_iff",
    "Gandalf.C36_particleInBox_iff",
    "Gandalf.C36_fractionalBoxOverlap_partial",
    "Gandalf.C36_fractionalBoxOverlap_defect",
    "Gandalf.C36_fractionalBoxOverlap_above_one"
   ],
   "note": "overlap and membership tests fully proved; FractionalBoxOverlap is correct only when no faces coincide: the general claim is false in the code (negation proved)"
  },
  {
   "property": "C37",
   "status": "partial",
   "theorems": [
    "Gandalf.C37_state_bijective",
    "Gandalf.C37_full_period",
    "Gandalf.C37_draws_distinct",
    "Gandalf.C37_floatrand_partial",
    "Gandalf.C37_floatrand_exceeds_one",
    "Gandalf.C37_gaussrand_ends",
    "Gandalf.C37_gaussrand_ignores_parameters",
    "Gandalf.C37_gaussrand_not_a_number",
    "Gandalf.C37_zero_seed_stuck"
   ],
   "note": "bijection, full period 2^64-1 and distinctness proved for every seed; the bound <= 1 on the real variate is false in the code (negation proved), the true bound is in C37_floatrand_partial"
  },
  {
   "property": "C38",
   "status": "partial",
   "theorems": [
    "Gandalf.C38_what_it_decides",
    "Gandalf.C38_unique_ids_accepted_partial",
    "Gandalf.C38_duplicates_accepted"
   ],
   "note": "the claim is false in the code: repeated ids are accepted (negation proved); C38_what_it_decides is the exact condition"
  },
  {
   "property": "C39",
   "status": "partial",
   "theorems": [
    "Gandalf.C39_comment",
    "Gandalf.C39_assignment",
    "Gandalf.C39_plain_assignment",
    "Gandalf.C39_unknown",
    "Gandalf.C39_no_assignment_partial",
    "Gandalf.C39_bare_key",
    "Gandalf.C39_bare_key_fails",
    "Gandalf.C39_code_names",
    "Gandalf.C39_roundtrip",
    "Gandalf.C39_float_error",
    "Gandalf.C39_float_stable",
    "Gandalf.C39_float_roundtrip_fails",
    "Gandalf.C39_colon_value_fails",
    "Gandalf.C39_tab_fails",
    "Gandalf.C39_reads_partial",
    "Gandalf.C39_reads_fails",
    "Gandalf.C39_unset_fails"
   ],
   "note": "Fails as stated: a line with just the name of a parameter is taken as an assignment (C39_bare_key_fails), floating-point parameters are recorded with six digits (C39_float_roundtrip_fails, error bounded by C39_float_error), a value with a colon is lost on re-reading (C39_colon_value_fails). All parameters read in the code have a default (C39_reads_partial) except a few that no file can set (C39_reads_fails): isothermal spheres, the SILCC table, the Saitoh & Makino scheme and heating by dust drag do not work as documented (C39_unset_fails). Everything else is proved for all lines, with the names of the code checked."
  },
  {
   "property": "C40",
   "status": "proved",
   "theorems": [
    "Gandalf.C40_round_robin",
    "Gandalf.C40_odd_accepted",
    "Gandalf.C40_odd_fails"
   ],
   "note": "For every even number of processes. The constructor also accepts odd numbers, for which the calendar is wrong (C40_odd_fails)."
  },
  {
   "property": "C41",
   "status": "proved",
   "theorems": [
    "Gandalf.C41_no_deadlock",
    "Gandalf.C41_terminates",
    "Gandalf.C41_result",
    "Gandalf.C41_conserved",
    "Gandalf.C41_odd_never_finishes"
   ],
   "note": "For every even number of processes, every transfer pattern and every interleaving, with or without buffering by the MPI library. With an odd number, which the constructor accepts, no execution finishes (C41_odd_never_finishes)."
  },
  {
   "property": "C42",
   "status": "partial",
   "theorems": [
    "Gandalf.C42_update",
    "Gandalf.C42_find_cell",
    "Gandalf.C42_load_balancing",
    "Gandalf.C42_bisection_ends",
    "Gandalf.C42_particles",
    "Gandalf.C42_initial_share",
    "Gandalf.C42_bisection_diverges",
    "Gandalf.C42_upper_edge_fails",
    "Gandalf.C42_nonpower_fails",
    "Gandalf.C42_initial_loss"
   ],
   "note": "Proved for a power of two of processes, every depth, every division and work function: the domains cut up the box, and after load balancing each live particle below the upper faces is on the process of its domain, none lost. Fails as stated: a particle on the upper face of the divided box, always the outermost one beyond the simulation box, is in no domain; with a number of processes that is not a power of two part of space has no owner and particles are lost at the start; the search for a division need not end if the work jumps."
  },
  {
   "property": "C43",
   "status": "proved",
   "theorems": [
    "Gandalf.C43_records",
    "Gandalf.C43_displs",
    "Gandalf.C43_ghost_process",
    "Gandalf.C43_fill",
    "Gandalf.C43_transfer",
    "Gandalf.C43_return",
    "Gandalf.C43_round_trip",
    "Gandalf.C43_sinks",
    "Gandalf.C43_unclaimed_sink_overflows",
    "Gandalf.C43_timing"
   ],
   "note": "Any number of records of any trivially copyable type. Messages of exported cells and particles, of returned accelerations, of sinks and of timing blocks are modelled byte by byte; the field-by-field conversions to stream records are parameters. C43_unclaimed_sink_overflows shows that a sink in no domain makes process 0 write past its buffer."
  },
  {
   "property": "C44",
   "status": "proved",
   "theorems": [
    "Gandalf.C44_pruned_tree",
    "Gandalf.C44_rule",
    "Gandalf.C44_kd_size",
    "Gandalf.C44_retry",
    "Gandalf.C44_oct_bound",
    "Gandalf.C44_oct_truncated",
    "Gandalf.C44_distant_gravity",
    "Gandalf.C44_no_overlap",
    "Gandalf.C44_leaf_update",
    "Gandalf.C44_restock"
   ],
   "note": "Every tree shape, every pruning rule, every buffer size. Also what receivers conclude from pruned trees, the leaf updates and restocking. For octrees the receive buffer posted by BuildPrunedTree is too small (C44_oct_truncated)."
  },
  {
   "property": "C45",
   "status": "partial",
   "theorems": [
    "Gandalf.C45_direct_no_net_force",
    "Gandalf.C45_smoothed_no_net_force",
    "Gandalf.C45_direct_no_net_torque",
    "Gandalf.C45_smoothed_no_net_torque",
    "Gandalf.C45_direct_jerk",
    "Gandalf.C45_smoothed_jerk",
    "Gandalf.C45_direct_energy",
    "Gandalf.C45_smoothed_energy",
    "Gandalf.C45_star_gas_partial",
    "Gandalf.C45_smoothed_jerk_1d_fails",
    "Gandalf.C45_star_gas_periodic_fails"
   ],
   "note": "Everything proved for direct forces in any dimension and smoothed forces in three dimensions. The smoothed jerk is wrong in one dimension (C45_smoothed_jerk_1d_fails) and star-gas forces are not opposite in a periodic box (C45_star_gas_periodic_fails)."
  },
  {
   "property": "C46",
   "status": "proved",
   "theorems": [
    "Gandalf.C46_hermite4_exact",
    "Gandalf.C46_hermite4_order",
    "Gandalf.C46_hermite4ts_exact",
    "Gandalf.C46_hermite6ts_exact",
    "Gandalf.C46_hermite4ts_symmetric",
    "Gandalf.C46_startup",
    "Gandalf.C46_npec_two_fails",
    "Gandalf.C46_hermite4ts_cubic_fails",
    "Gandalf.C46_hermite6_smoothed_fails",
    "Gandalf.C46_hermite6_a2dot_last",
    "Gandalf.C46_hermite6_a2dot_fails",
    "Gandalf.C46_hermite6_predict"
   ],
   "note": "Exactness for cubic acceleration, and local error of order five in velocity for a general Lipschitz force. The _fails theorems state defects of the variants: Npec = 2, the time-symmetric position, and the second derivative of the sixth-order scheme."
  },
  {
   "property": "C47",
   "status": "proved",
   "theorems": [
    "Gandalf.C47_schedule",
    "Gandalf.C47_prompt",
    "Gandalf.C47_names",
    "Gandalf.C47_returned",
    "Gandalf.C47_restarts",
    "Gandalf.C47_long_step_late",
    "Gandalf.C47_restart_first_fails",
    "Gandalf.C47_column_overwrites"
   ],
   "note": "Over every run: numbers 1,2,... each once, snapshot k stands for output time first+(k-1)dt and is never ahead of the simulation; if no step exceeds the interval, exactly the output times reached have a snapshot; file names are distinct; and with a Seren format and first=interval the schedule survives any crashes and restarts. Proved negations: a step longer than the interval leaves output behind; a restart before the first snapshot uses dt_snap instead of tsnapfirst; column restarts renumber and overwrite."
  },
  {
   "property": "C48",
   "status": "partial",
   "theorems": [
    "Gandalf.C48_restart_partial",
    "Gandalf.C48_between_calls",
    "Gandalf.C48_restore_exact",
    "Gandalf.C48_restart_window",
    "Gandalf.C48_tmp_window",
    "Gandalf.C48_column_window"
   ],
   "note": "The full claim is false for the code. Proved for the Seren formats: at every instant the restart file is absent, or names a complete snapshot, or the crash fell inside one of two windows (restart file open; temporary snapshot being rewritten while named). Witnesses show each window and the column format really fail."
  },
  {
   "property": "C49",
   "status": "proved",
   "theorems": [
    "Gandalf.C49_round_trip",
    "Gandalf.C49_compose",
    "Gandalf.C49_system",
    "Gandalf.C49_cgs",
    "Gandalf.C49_named",
    "Gandalf.C49_snapshot",
    "Gandalf.C49_GJ_wrong",
    "Gandalf.C49_cgs_pressure_wrong",
    "Gandalf.C49_luminosity_wrong",
    "Gandalf.C49_force_unit_ignored",
    "Gandalf.C49_labels_wrong",
    "Gandalf.C49_snapshot_units_ignored"
   ],
   "note": "For every choice of recognised units (and dimensionless): all conversions invert each other, conversions via another unit compose, code units have the right dimensions with G = 1, cgs factors and unit names are right, and snapshots round-trip. The exceptions are proved: GJ = 10^12 J, cgs pressure off by 100, luminosity unit is mass/time, foutunit is only a label, B/Q/J carry the opacity label, and the units named in a snapshot file are ignored on reading. Over the reals."
  },
  {
   "property": "C50",
   "status": "partial",
   "theorems": [
    "Gandalf.C50_gradh",
    "Gandalf.C50_gradh_exact",
    "Gandalf.C50_bisection_tests",
    "Gandalf.C50_density_complete",
    "Gandalf.C50_self_contribution",
    "Gandalf.C50_invomega",
    "Gandalf.C50_no_exception",
    "Gandalf.C50_cell",
    "Gandalf.C50_error_accepted",
    "Gandalf.C50_bound_density_stale",
    "Gandalf.C50_sm2012",
    "Gandalf.C50_mfv_partial",
    "Gandalf.C50_mfv_below_bound",
    "Gandalf.C50_mfv_false_convergence",
    "Gandalf.C50_mfv_invomega_stale",
    "Gandalf.C50_potmin_wrong"
   ],
   "note": "Full for both SPH schemes: on success h is positive, between sink bound and hmax, and converged (or at a bound). False for the meshless scheme, with witnesses: h can be below the sink bound, and the exit test compares with the old h, so it can stop unconverged; the rest is proved (C50_mfv_partial). Also proved: density complete for the gathered neighbours, correction terms are the derivatives, no exception under a Lipschitz condition; negations: the caller accepts -1, density at the sink bound is stale, potmin uses the previous neighbour's distance."
  },
  {
   "property": "C51",
   "status": "proved",
   "theorems": [
    "Gandalf.C51_inverse",
    "Gandalf.C51_linear_exact",
    "Gandalf.C51_invertible_iff",
    "Gandalf.C51_condition",
    "Gandalf.C51_symmetric",
    "Gandalf.C51_sph_direction",
    "Gandalf.C51_vsig",
    "Gandalf.C51_potmin",
    "Gandalf.C51_sph_not_exact"
   ],
   "note": "InvertMatrix returns the inverse for every matrix with non-zero determinant in 1, 2 and 3 dimensions over any field (and divides by zero exactly otherwise); whenever integral gradients are used they are exact for linear fields, before the slope limiter; the moment matrix is invertible exactly if the weighted neighbours span space. For badly conditioned matrices the code switches to SPH gradients, which are proved not exact (C51_sph_not_exact) but of the right direction."
  },
  {
   "property": "C52",
   "status": "partial",
   "theorems": [
    "Gandalf.C52_resync",
    "Gandalf.C52_recorded_partial",
    "Gandalf.C52_zero",
    "Gandalf.C52_limiter",
    "Gandalf.C52_limiter_mfv"
   ],
   "note": "The two characterisations say exactly what is recorded; C52_zero and C52_limiter prove that this is not always the length of the step taken."
  },
  {
   "property": "C53",
   "status": "partial",
   "theorems": [
    "Gandalf.C53_mm97_rate_partial",
    "Gandalf.C53_mm97_range_partial",
    "Gandalf.C53_mm97_range_fails",
    "Gandalf.C53_gravity_frozen",
    "Gandalf.C53_gravity_sign",
    "Gandalf.C53_cd2010_range",
    "Gandalf.C53_cd2010_reacts"
   ],
   "note": "Proved for cd2010. For mm97 only one force evaluation from a zero rate is right; the rates of successive evaluations add up (C53_mm97_range_fails), and with self-gravity alpha never changes (C53_gravity_frozen)."
  },
  {
   "property": "C54",
   "status": "partial",
   "theorems": [
    "Gandalf.C54_levels_recorded",
    "Gandalf.C54_levels_least",
    "Gandalf.C54_thread_independent",
    "Gandalf.C54_hydro_levelneib",
    "Gandalf.C54_grav_levelneib_partial",
    "Gandalf.C54_smoothed_levelneib_fails"
   ],
   "note": "Proved for the hydro loop. With self-gravity only the hydro neighbours are recorded; for smoothed-gravity neighbours the level of an unrelated particle is taken (C54_smoothed_levelneib_fails)."
  },
  {
   "property": "C55",
   "status": "proved",
   "theorems": [
    "Gandalf.C55_derivative",
    "Gandalf.C55_vacuum_test",
    "Gandalf.C55_newton",
    "Gandalf.C55_result",
    "Gandalf.C55_monotone",
    "Gandalf.C55_converges",
    "Gandalf.C55_limit",
    "Gandalf.C55_stop",
    "Gandalf.C55_identical",
    "Gandalf.C55_mirror"
   ],
   "note": "Over the reals; the iteration is that of the code, including floor, tolerance test and round limit."
  },
  {
   "property": "C56",
   "status": "proved",
   "theorems": [
    "Gandalf.C56_solution",
    "Gandalf.C56_mirror"
   ],
   "note": "For the exact star state; the error of the star state itself is bounded in C55."
  },
  {
   "property": "C57",
   "status": "partial",
   "theorems": [
    "Gandalf.C57_test_particle_exact",
    "Gandalf.C57_test_particle_error",
    "Gandalf.C57_test_particle_bounded",
    "Gandalf.C57_interpolation_mean",
    "Gandalf.C57_momentum_sph",
    "Gandalf.C57_angular_momentum_sph",
    "Gandalf.C57_energy_sph",
    "Gandalf.C57_kick_kdk",
    "Gandalf.C57_kick_dkd",
    "Gandalf.C57_kick_difference",
    "Gandalf.C57_kick_difference_mfv",
    "Gandalf.C57_momentum_mfv",
    "Gandalf.C57_angular_momentum_mfv",
    "Gandalf.C57_energy_mfv",
    "Gandalf.C57_copy_neighbours_partial",
    "Gandalf.C57_lp12_test_particle_fails",
    "Gandalf.C57_heating_undefined",
    "Gandalf.C57_mpi_cooling_lost",
    "Gandalf.C57_mfv_position",
    "Gandalf.C57_copy_neighbours_stale",
    "Gandalf.C57_no_gas_hangs"
   ],
   "note": "Proved for all configurations: exact relaxation of test particles, boundedness, conservation of momentum, angular momentum and energy in the two-fluid mode (global timestep). Not true of the code, with proved negations: the position of meshless particles (right iff mass is one or no momentum change), test particles with the LP12 law, heating with zero normalisation, negative heating across processes, neighbour copy when an unrelated particle is dead, termination without gas."
  },
  {
   "property": "C58",
   "status": "partial",
   "theorems": [
    "Gandalf.C58_monopole_gradient",
    "Gandalf.C58_quadrupole_gradient",
    "Gandalf.C58_monopole_error",
    "Gandalf.C58_quadrupole_error",
    "Gandalf.C58_fast_monopole",
    "Gandalf.C58_fast_quadrupole",
    "Gandalf.C58_fast_monopole_error",
    "Gandalf.C58_summary",
    "Gandalf.C58_star_error",
    "Gandalf.C58_cell_error_partial",
    "Gandalf.C58_cell_error_fails"
   ],
   "note": "Gradients, error bounds and Taylor polynomials for all cells; for stars the bound follows from the opening angle. For gas particles it does so only where they are near the centre of their cell compared with the distance of the cells (C58_cell_error_partial); C58_cell_error_fails shows that the walk does not ensure this. Open boundaries; Ewald corrections not included."
  },
  {
   "property": "C59",
   "status": "partial",
   "theorems": [
    "Gandalf.C59_build",
    "Gandalf.C59_build_ends_partial",
    "Gandalf.C59_coincident",
    "Gandalf.C59_too_large",
    "Gandalf.C59_first_build_fails",
    "Gandalf.C59_too_few_cells"
   ],
   "note": "The shape of every finished tree is proved for all inputs, and that the build never loops. That it ends with a tree needs a root box that fits the particles, which the first build does not have (C59_first_build_fails), and enough cells, which are not always allocated (C59_too_few_cells)."
  },
  {
   "property": "C60",
   "status": "partial",
   "theorems": [
    "Gandalf.C60_stock_partial",
    "Gandalf.C60_gather_partial",
    "Gandalf.C60_massless_leaf_skipped",
    "Gandalf.C60_vbox_stays",
    "Gandalf.C60_restock_wipes"
   ],
   "note": "Proved for every finished tree whose leaves with live particles have gravitating mass, with the searches on it. False otherwise (C60_massless_leaf_skipped), for the velocity box (C60_vbox_stays) and for restocking without leaves (C60_restock_wipes)."
  },
  {
   "property": "C61",
   "status": "partial",
   "theorems": [
    "Gandalf.C61_ideal_gas",
    "Gandalf.C61_temperature_partial",
    "Gandalf.C61_adiabatic_temperature_fails",
    "Gandalf.C61_ionised_temperature_fails",
    "Gandalf.C61_sound_adiabatic",
    "Gandalf.C61_sound_isothermal",
    "Gandalf.C61_sound_local",
    "Gandalf.C61_sound_barotropic_fails",
    "Gandalf.C61_sound_barotropic2_fails",
    "Gandalf.C61_barotropic",
    "Gandalf.C61_polytropic_partial",
    "Gandalf.C61_polytropic_fails",
    "Gandalf.C61_locally_isothermal",
    "Gandalf.C61_disc",
    "Gandalf.C61_ionised"
   ],
   "note": "Energy, pressure, entropy and repetition for all but the polytrope; temperature and sound speed as far as the code has them right, with proved negations for the adiabatic and ionised temperature, the polytropic exponents and the barotropic sound speeds."
  },
  {
   "property": "C62",
   "status": "partial",
   "theorems": [
    "Gandalf.C62_totals",
    "Gandalf.C62_pair_energy",
    "Gandalf.C62_com_frame",
    "Gandalf.C62_mpi",
    "Gandalf.C62_mpi_fails",
    "Gandalf.C62_external_energy_fails"
   ],
   "note": "Proved in full without MPI except that the energy in an external potential can be left out (C62_external_energy_fails); with MPI if every star lies in one domain, except for the number of dead particles (C62_mpi_fails)."
  },
  {
   "property": "C63",
   "status": "partial",
   "theorems": [
    "Gandalf.C63_added",
    "Gandalf.C63_jerk",
    "Gandalf.C63_plummer",
    "Gandalf.C63_plummer_energy",
    "Gandalf.C63_vertical_fails",
    "Gandalf.C63_kgrav_fails",
    "Gandalf.C63_extpot_parameters_ignored"
   ],
   "note": "Proved for the Plummer sphere; sums and jerks for all. False for the vertical field (half the energy; direction outside of the arrays in one dimension) and for the parameters of the Plummer sphere, with proofs."
  },
  {
   "property": "C64",
   "status": "partial",
   "theorems": [
    "Gandalf.C64_gradient",
    "Gandalf.C64_mirror",
    "Gandalf.C64_images",
    "Gandalf.C64_waves_periodic",
    "Gandalf.C64_waves_partial",
    "Gandalf.C64_waves_fails",
    "Gandalf.C64_table",
    "Gandalf.C64_nodes",
    "Gandalf.C64_interpolation",
    "Gandalf.C64_wrap_partial",
    "Gandalf.C64_wrap_open_fails",
    "Gandalf.C64_in_range_partial",
    "Gandalf.C64_in_range_fails",
    "Gandalf.C64_opposite",
    "Gandalf.C64_far",
    "Gandalf.C64_far_strength",
    "Gandalf.C64_far_joins",
    "Gandalf.C64_potential_fails"
   ],
   "note": "Proved for the sums, the table and its use, except: the limits of the wave numbers with x and z or y and z periodic (C64_waves_fails), the potential between the points of the table (C64_potential_fails), distances of more than half of the box in open directions (C64_wrap_open_fails), and tables smaller than half of the box (C64_in_range_fails). The truncation error of the sums is not estimated, and that the sums converge to the periodic field is not proved."
  },
  {
   "property": "C65",
   "status": "partial",
   "theorems": [
    "Gandalf.C65_spec_rate",
    "Gandalf.C65_rotation",
    "Gandalf.C65_centre",
    "Gandalf.C65_elements",
    "Gandalf.C65_terminates_partial",
    "Gandalf.C65_kepler_partial",
    "Gandalf.C65_recedes",
    "Gandalf.C65_incoming",
    "Gandalf.C65_incoming_fails",
    "Gandalf.C65_psirot_fails",
    "Gandalf.C65_triple",
    "Gandalf.C65_quadruple"
   ],
   "note": "Masses, centre of mass, size and shape of all orbits, rotation and positions are proved; the velocities are right on the way out only (C65_incoming_fails), the third angle is ignored (C65_psirot_fails), and termination of the iteration is proved for eccentricities up to one half."
  },
  {
   "property": "C66",
   "status": "partial",
   "theorems": [
    "Gandalf.C66_sites",
    "Gandalf.C66_cubic1",
    "Gandalf.C66_cubic2",
    "Gandalf.C66_cubic3",
    "Gandalf.C66_normalised_partial",
    "Gandalf.C66_normalised_fails",
    "Gandalf.C66_hex2",
    "Gandalf.C66_hex3",
    "Gandalf.C66_hex_odd_fails",
    "Gandalf.C66_hex_outside_fails",
    "Gandalf.C66_cut",
    "Gandalf.C66_cut_terminates",
    "Gandalf.C66_cut_centre_fails",
    "Gandalf.C66_sphere2",
    "Gandalf.C66_sphere3",
    "Gandalf.C66_random_box",
    "Gandalf.C66_random_sphere",
    "Gandalf.C66_r2_partial",
    "Gandalf.C66_r2_fails"
   ],
   "note": "Proved for the cubic lattice, the packing, the cut and the lattice and random spheres; false for normalised lattices in boxes of another shape, for the edge of the hexagonal lattice and for the centre of the 1/r^2 sphere, with proofs."
  },
  {
   "property": "C67",
   "status": "partial",
   "theorems": [
    "Gandalf.C67_spec_ring",
    "Gandalf.C67_azimuthal_partial",
    "Gandalf.C67_axis_fails",
    "Gandalf.C67_spec_sine",
    "Gandalf.C67_sine",
    "Gandalf.C67_rotation",
    "Gandalf.C67_interpolate_partial",
    "Gandalf.C67_grid_fails",
    "Gandalf.C67_row_fails",
    "Gandalf.C67_mass_partial",
    "Gandalf.C67_mass_fails"
   ],
   "note": "Proved off the negative half axes, inside of the grid and for boxes with grid points in every direction; false outside of these, with proofs. The mass of a box is exact for affine densities only."
  },
  {
   "property": "C68",
   "status": "partial",
   "theorems": [
    "Gandalf.C68_ok_iff",
    "Gandalf.C68_accept",
    "Gandalf.C68_outside_iff",
    "Gandalf.C68_cut_partial",
    "Gandalf.C68_mirror_fails",
    "Gandalf.C68_box_fails"
   ],
   "note": "Acceptance is proved in full; marks and prints are proved for mirrors that come in pairs. False for single mirrors and for refusing particles outside of the box, with proofs."
  },
  {
   "property": "C69",
   "status": "partial",
   "theorems": [
    "Gandalf.C69_turb_mass",
    "Gandalf.C69_boss_mass_fails",
    "Gandalf.C69_boss_density_fails",
    "Gandalf.C69_turb_grid_partial",
    "Gandalf.C69_turb_grid_fails",
    "Gandalf.C69_spec_gpe",
    "Gandalf.C69_turb_energy",
    "Gandalf.C69_evrard_partial",
    "Gandalf.C69_evrard_fails",
    "Gandalf.C69_spec_plummer",
    "Gandalf.C69_plummer_radius",
    "Gandalf.C69_plummer_speed",
    "Gandalf.C69_stars_from",
    "Gandalf.C69_plummer",
    "Gandalf.C69_plummer_ends",
    "Gandalf.C69_plummer_gas",
    "Gandalf.C69_plummer_mass",
    "Gandalf.C69_plummer_truncated_fails"
   ],
   "note": "Proved for turbulent cores with balanced kernels, for Evrard spheres of radius 1 and for Plummer spheres; false for the mass of Boss-Bodenheimer clouds, for one-sided clouds, for other radii and for truncated spheres, with proofs. Distributions are stated as the exact sets of random numbers, not as measures."
  },
  {
   "property": "C70",
   "status": "partial",
   "theorems": [
    "Gandalf.C70_hmax_kd",
    "Gandalf.C70_search_kd",
    "Gandalf.C70_hmax_oct",
    "Gandalf.C70_active",
    "Gandalf.C70_active_kd",
    "Gandalf.C70_extrapolate_partial",
    "Gandalf.C70_extrapolate_fails",
    "Gandalf.C70_upkeep"
   ],
   "note": "Update of smoothing lengths and active lists proved in full; the opening distance is not refreshed with them. Extrapolation is right for one common velocity only and false otherwise, with a proof."
  },
  {
   "property": "C71",
   "status": "partial",
   "theorems": [
    "Gandalf.C71_inject",
    "Gandalf.C71_mass",
    "Gandalf.C71_mass_bounds",
    "Gandalf.C71_energy_partial",
    "Gandalf.C71_energy_rest",
    "Gandalf.C71_energy_le",
    "Gandalf.C71_energy_fails",
    "Gandalf.C71_velocity_fails",
    "Gandalf.C71_momentum_partial",
    "Gandalf.C71_empty_fails",
    "Gandalf.C71_create",
    "Gandalf.C71_create_fails",
    "Gandalf.C71_ids_partial",
    "Gandalf.C71_ids_fails",
    "Gandalf.C71_kept",
    "Gandalf.C71_kept_fails",
    "Gandalf.C71_new_partial",
    "Gandalf.C71_new_fails",
    "Gandalf.C71_mfv_fails",
    "Gandalf.C71_sedov",
    "Gandalf.C71_random",
    "Gandalf.C71_silcc_partial",
    "Gandalf.C71_silcc_fails"
   ],
   "note": "Mass, heat and the schedules are proved; the energy is right for gas at rest with the mean mass. False for moving gas, for particles in the middle of a step, for the finite-volume schemes, for places used before, for identifiers after deletions, for tiny arrays and at the end of a table, with proofs."
  },
  {
   "property": "C72",
   "status": "partial",
   "theorems": [
    "Gandalf.C72_face_opposite",
    "Gandalf.C72_face_direction",
    "Gandalf.C72_face_linear",
    "Gandalf.C72_predictor",
    "Gandalf.C72_half_step",
    "Gandalf.C72_linear_face",
    "Gandalf.C72_floor",
    "Gandalf.C72_pair_symmetric",
    "Gandalf.C72_uniform",
    "Gandalf.C72_gain",
    "Gandalf.C72_downstream",
    "Gandalf.C72_galilean",
    "Gandalf.C72_stress",
    "Gandalf.C72_viscous_energy_fails",
    "Gandalf.C72_fall_fails",
    "Gandalf.C72_rk_uniform",
    "Gandalf.C72_rk_face",
    "Gandalf.C72_rk_upwind",
    "Gandalf.C72_rk_upstream_fails",
    "Gandalf.C72_rk_zero_mass_fails",
    "Gandalf.C72_rk_gradient_fails"
   ],
   "note": "Proved for the MUSCL scheme without viscosity; the symmetry of a pair for the HLLC solver only. The prediction uses the sound speed of the particle, which is that of the gas at the face only where the two agree. False for the energy of viscosity, for particles that fall and for the Runge-Kutta scheme, with proofs."
  },
  {
   "property": "C73",
   "status": "partial",
   "theorems": [
    "Gandalf.C73_found",
    "Gandalf.C73_update",
    "Gandalf.C73_hang_fails",
    "Gandalf.C73_force_partial",
    "Gandalf.C73_reaction_partial",
    "Gandalf.C73_jerk_partial",
    "Gandalf.C73_periodic_fails",
    "Gandalf.C73_types_fails",
    "Gandalf.C73_jerk_fails"
   ],
   "note": "The search ends where the buffers have room for one leaf more than there are particles; forces are proved in open boxes with gravitating particles, the jerk for near particles in three dimensions. False elsewhere, with proofs. One star at a time; the buffer for cells kept between stars is a parameter."
  },
  {
   "property": "C74",
   "status": "partial",
   "theorems": [
    "Gandalf.C74_conserves",
    "Gandalf.C74_pairs",
    "Gandalf.C74_run",
    "Gandalf.C74_kdk",
    "Gandalf.C74_recorded",
    "Gandalf.C74_rates",
    "Gandalf.C74_pair_rates",
    "Gandalf.C74_work",
    "Gandalf.C74_lift",
    "Gandalf.C74_lift_fails",
    "Gandalf.C74_heat_partial",
    "Gandalf.C74_heat_fails",
    "Gandalf.C74_predict_fails",
    "Gandalf.C74_galilean",
    "Gandalf.C74_cut"
   ],
   "note": "Common steps for all particles; fluxes and force as parameters (C26, C72, C09). The internal energy is kept only where the acceleration is the same at both ends of the step, and the energy of the mass that fluxes move against gravity is not accounted for; false elsewhere and within steps, with proofs."
  },
  {
   "property": "C75",
   "status": "partial",
   "theorems": [
    "Gandalf.C75_closest",
    "Gandalf.C75_density_fails",
    "Gandalf.C75_temperature",
    "Gandalf.C75_inverse_partial",
    "Gandalf.C75_pressure_entry",
    "Gandalf.C75_pressure_nearest",
    "Gandalf.C75_bracket",
    "Gandalf.C75_equilibrium_partial",
    "Gandalf.C75_floor",
    "Gandalf.C75_cool_fails",
    "Gandalf.C75_first_fails",
    "Gandalf.C75_relax",
    "Gandalf.C75_thermal",
    "Gandalf.C75_frozen_fails",
    "Gandalf.C75_implicit_partial",
    "Gandalf.C75_hot_fails",
    "Gandalf.C75_mirror_fails",
    "Gandalf.C75_meshless",
    "Gandalf.C75_race_partial",
    "Gandalf.C75_race_fails"
   ],
   "note": "That the searches find the equilibrium is proved for opacities (and in the implicit update gas constants) that are the same at all temperatures; for all opacities the ends of the search enclose a change of sign (C75_bracket). False for gas that cools, at the ends of the table, for the density looked up by the equation of state, for the interpolation and for several threads, with proofs."
  },
  {
   "property": "C76",
   "status": "partial",
   "theorems": [
    "Gandalf.C76_ambient_partial",
    "Gandalf.C76_binary_fails",
    "Gandalf.C76_alone_fails",
    "Gandalf.C76_negative",
    "Gandalf.C76_dark_fails",
    "Gandalf.C76_profile",
    "Gandalf.C76_smoothed",
    "Gandalf.C76_length_fails",
    "Gandalf.C76_radius",
    "Gandalf.C76_sink_partial",
    "Gandalf.C76_burning_fails",
    "Gandalf.C76_rate_partial",
    "Gandalf.C76_rate_fails",
    "Gandalf.C76_stale_fails",
    "Gandalf.C76_photons",
    "Gandalf.C76_heavy",
    "Gandalf.C76_light_fails",
    "Gandalf.C76_table_fails"
   ],
   "note": "The sum of sources is proved for at most one central star and luminosities at least 0; independence of the units for the light of accretion; the rate for smooth accretion while there is gas. False elsewhere, with proofs."
  },
  {
   "property": "C77",
   "status": "partial",
   "theorems": [
    "Gandalf.C77_tree",
    "Gandalf.C77_sisters",
    "Gandalf.C77_far_fails",
    "Gandalf.C77_partition",
    "Gandalf.C77_momentum",
    "Gandalf.C77_hard",
    "Gandalf.C77_orbit",
    "Gandalf.C77_elements",
    "Gandalf.C77_roundtrip",
    "Gandalf.C77_crossing_fails",
    "Gandalf.C77_kind_partial",
    "Gandalf.C77_kind_fails",
    "Gandalf.C77_perturbers",
    "Gandalf.C77_perturbers_fails"
   ],
   "note": "Tree, partition, momentum and orbits are proved for all stars; the rule for systems for two stars in any outer potential. False for stars far apart, for the time step of systems, for types of systems with more than two stars in a component, and perturbers are missed, with proofs."
  },
  {
   "property": "C78",
   "status": "partial",
   "theorems": [
    "Gandalf.C78_children",
    "Gandalf.C78_stars",
    "Gandalf.C78_external",
    "Gandalf.C78_reaction",
    "Gandalf.C78_com",
    "Gandalf.C78_path",
    "Gandalf.C78_perturber_partial",
    "Gandalf.C78_perturber_fails",
    "Gandalf.C78_loop",
    "Gandalf.C78_ends",
    "Gandalf.C78_centre",
    "Gandalf.C78_step_partial",
    "Gandalf.C78_clock",
    "Gandalf.C78_flag",
    "Gandalf.C78_clock_fails",
    "Gandalf.C78_ahead_fails",
    "Gandalf.C78_energy_partial",
    "Gandalf.C78_energy_fails"
   ],
   "note": "Members follow their system and the forces add up for all hierarchies and perturbers. A sub-step is right only when the clocks of the members show its beginning, which holds for the first one only; places between sub-steps, the jerk of perturbers and the internal energy are false, with proofs. The integration is modelled for members that are stars, leapfrog scheme."
  },
  {
   "property": "C79",
   "status": "partial",
   "theorems": [
    "Gandalf.C79_gresho",
    "Gandalf.C79_gresho_offset",
    "Gandalf.C79_sedov_thermal",
    "Gandalf.C79_sedov_kinetic",
    "Gandalf.C79_sedov_partial",
    "Gandalf.C79_sedov_region",
    "Gandalf.C79_sedov_dust",
    "Gandalf.C79_sedov_cold_fails",
    "Gandalf.C79_sedov_centre_fails",
    "Gandalf.C79_sedov_empty_fails",
    "Gandalf.C79_noh",
    "Gandalf.C79_noh_state",
    "Gandalf.C79_tube",
    "Gandalf.C79_tube_sides",
    "Gandalf.C79_tube_fails",
    "Gandalf.C79_wave_partial",
    "Gandalf.C79_wave_fails",
    "Gandalf.C79_rt_partial",
    "Gandalf.C79_rt_fails",
    "Gandalf.C79_khi_layers",
    "Gandalf.C79_khi_partial",
    "Gandalf.C79_khi_fails"
   ],
   "note": "Vortex, Noh problem, shock tube (origin inside the box) and shear layers are as stated. Fails: the cold gas of the blast wave has energy of its own and a particle at the centre loses its share; a shock tube whose box does not contain the origin has negative masses; an adiabatic sound wave is partly one to the left; the Rayleigh-Taylor layers are not in balance; the Kelvin-Helmholtz disturbance does not follow the box."
  },
  {
   "property": "C80",
   "status": "partial",
   "theorems": [
    "Gandalf.C80_seren_partial",
    "Gandalf.C80_text",
    "Gandalf.C80_icm_fails",
    "Gandalf.C80_boundary",
    "Gandalf.C80_time_fails",
    "Gandalf.C80_header",
    "Gandalf.C80_wrong_file",
    "Gandalf.C80_column_partial",
    "Gandalf.C80_column_fails",
    "Gandalf.C80_mpi",
    "Gandalf.C80_mpi_column_fails"
   ],
   "note": "Restarts from text and binary Seren files are proved for runs without icm and boundary particles. Fails: icm particles come back as gas, boundary particles end the run, the time of a text file is not read without restart, the column format loses time, types, dead state and radii, and with several processes the stars. The header of files written by several processes is that of the sums of counts (not modelled separately); the lite format has no reader and is not modelled."
  },
  {
   "property": "C81",
   "status": "partial",
   "theorems": [
    "Gandalf.C81_mass",
    "Gandalf.C81_ratio_fails",
    "Gandalf.C81_surface_partial",
    "Gandalf.C81_nodust_fails",
    "Gandalf.C81_dust_density_fails",
    "Gandalf.C81_square_fails",
    "Gandalf.C81_radius",
    "Gandalf.C81_height",
    "Gandalf.C81_all",
    "Gandalf.C81_aspect",
    "Gandalf.C81_vertical",
    "Gandalf.C81_orbits",
    "Gandalf.C81_support_partial",
    "Gandalf.C81_gas_fails",
    "Gandalf.C81_flat_fails",
    "Gandalf.C81_planet",
    "Gandalf.C81_hill_fails",
    "Gandalf.C81_eos_fails",
    "Gandalf.C81_energy"
   ],
   "note": "Masses, drawing of places, vertical structure and the orbit of the planet are proved; the surface density for dusty discs with a power other than 2. The balanced speed is proved for the formula of three dimensions, which the gas does not get. False for the gas speed, two dimensions, the power 2, discs without dust, stars of other than unit mass, with proofs."
  },
  {
   "property": "C82",
   "status": "partial",
   "theorems": [
    "Gandalf.C82_index",
    "Gandalf.C82_slice",
    "Gandalf.C82_plane",
    "Gandalf.C82_order",
    "Gandalf.C82_average_partial",
    "Gandalf.C82_faint_fails",
    "Gandalf.C82_shift_fails",
    "Gandalf.C82_lost_fails",
    "Gandalf.C82_column_partial",
    "Gandalf.C82_column_fails",
    "Gandalf.C82_sight"
   ],
   "note": "Pixels are proved to be kernel averages over all particles at the lower left corners of the pixels; columns in three dimensions for equal smoothing lengths; averages above the threshold of the norm. False for the centres of pixels, unequal smoothing lengths in columns and faint pixels, with proofs."
  },
  {
   "property": "C83",
   "status": "partial",
   "theorems": [
    "Gandalf.C83_links",
    "Gandalf.C83_towards",
    "Gandalf.C83_single_partial",
    "Gandalf.C83_stroemgren",
    "Gandalf.C83_region",
    "Gandalf.C83_shares",
    "Gandalf.C83_temperature",
    "Gandalf.C83_kernel",
    "Gandalf.C83_state",
    "Gandalf.C83_mu",
    "Gandalf.C83_energy_fails",
    "Gandalf.C83_first_fails",
    "Gandalf.C83_premature_fails"
   ],
   "note": "Links, shares and temperatures are proved for any number of stars; end and result of the iteration for one star and particles other than the first. For several stars ionised regions are connected to their star, but the iteration may stop early; the first particle and the internal energy are wrong, with proofs."
  },
  {
   "property": "C84",
   "status": "partial",
   "theorems": [
    "Gandalf.C84_stocked",
    "Gandalf.C84_never_over",
    "Gandalf.C84_inside",
    "Gandalf.C84_signal_partial",
    "Gandalf.C84_export_partial",
    "Gandalf.C84_step",
    "Gandalf.C84_overlap_fails",
    "Gandalf.C84_direction_fails",
    "Gandalf.C84_periodic_fails"
   ],
   "note": "The full statement is proved in one dimension with open boundaries; in any dimension that no value is too large and that particles inside the box of the active cell are seen. False in two dimensions (boxes beside each other, oblique motion) and in periodic boxes, with proofs."
  },
  {
   "property": "C85",
   "status": "partial",
   "theorems": [
    "Gandalf.C85_build",
    "Gandalf.C85_same",
    "Gandalf.C85_direct",
    "Gandalf.C85_hmax",
    "Gandalf.C85_active",
    "Gandalf.C85_empty",
    "Gandalf.C85_quadrupole_fails"
   ],
   "note": "All proved except that in one dimension the code stores no quadrupole moments: there C85_build and C85_same need the moments switched off and C85_quadrupole_fails shows they are wrong. Memory, work counters and the eigenvalue criterion are outside the model."
  },
  {
   "property": "C86",
   "status": "partial",
   "theorems": [
    "Gandalf.C86_lambda",
    "Gandalf.C86_eigenmac_partial",
    "Gandalf.C86_gadget2_partial",
    "Gandalf.C86_eigenmac_fails",
    "Gandalf.C86_gadget2_fails"
   ],
   "note": "The stored eigenvalue bounds the quadrupole in every direction and is at most twice the moment of inertia; for accepted cells the neglected potential and the error of the acceleration are bounded by macerror times potential or acceleration, up to powers of the ratio of true to tested distance. The walk tests the distance of box centres, so the claim without that ratio is false (two _fails theorems)."
  },
  {
   "property": "C87",
   "status": "partial",
   "theorems": [
    "Gandalf.C87_cells_tile",
    "Gandalf.C87_exit_cells",
    "Gandalf.C87_exit_face",
    "Gandalf.C87_photon_partial",
    "Gandalf.C87_division",
    "Gandalf.C87_sum_field",
    "Gandalf.C87_dead_particles_fails",
    "Gandalf.C87_zero_component_fails",
    "Gandalf.C87_level_check_fails",
    "Gandalf.C87_reads_before_array_fails"
   ],
   "note": "Tiling, exit pointers, exit face, packets and sums are proved when no particle is dead, no component of the direction is zero and the inverse direction is exact (the code adds small_number). With dead particles or a zero component the claim is false, with proofs; the level check and the first read in OptimiseTree are wrong too."
  },
  {
   "property": "C88",
   "status": "partial",
   "theorems": [
    "Gandalf.C88_cells",
    "Gandalf.C88_balance_unique",
    "Gandalf.C88_balance_partial",
    "Gandalf.C88_dark",
    "Gandalf.C88_converged",
    "Gandalf.C88_start",
    "Gandalf.C88_levels",
    "Gandalf.C88_particles",
    "Gandalf.C88_mixture",
    "Gandalf.C88_balance_fails",
    "Gandalf.C88_no_levels_fails"
   ],
   "note": "Everything but the balance itself is proved as stated. The error of the fraction shrinks by (1+a)^-10 in each pass, a being the ratio of the rates; for faintly lit cells that is not enough, with a proof that a neutral one reaches at most half of the right value. Cells of dead particles only are left alone."
  },
  {
   "property": "C89",
   "status": "partial",
   "theorems": [
    "Gandalf.C89_types",
    "Gandalf.C89_sum",
    "Gandalf.C89_error_partial"
   ],
   "note": "Sums exact for all trees and multipoles in open domains; the error bound needs particles near the centre of their cell (the walk does not bound this) and covers monopoles, quadrupoles and fast monopoles. Missing: periodic boxes with Ewald corrections, stars, the error of the fast quadrupoles."
  },
  {
   "property": "C90",
   "status": "partial",
   "theorems": [
    "Gandalf.C90_uniform",
    "Gandalf.C90_binary_places",
    "Gandalf.C90_binary_partial",
    "Gandalf.C90_binary_fails",
    "Gandalf.C90_contact_partial",
    "Gandalf.C90_contact_fails",
    "Gandalf.C90_shock2d_partial",
    "Gandalf.C90_shock2d_fails",
    "Gandalf.C90_dustybox_partial",
    "Gandalf.C90_dustybox_fails",
    "Gandalf.C90_shear_partial",
    "Gandalf.C90_shear_fails",
    "Gandalf.C90_ring_orbits",
    "Gandalf.C90_ring_density_fails",
    "Gandalf.C90_silcc_partial",
    "Gandalf.C90_silcc_fails",
    "Gandalf.C90_filament",
    "Gandalf.C90_blob"
   ],
   "note": "Uniform gas, filament, blob and the orbits of the ring are as stated. Fails: the second fluid of the binary test has N2/N1 times its mass and smoothing lengths 0; boxes not beginning at 0 in the contact and two-dimensional shock; smoothing lengths of the thin gas; dust outside of the box; a single shear layer; the ring's surface density; asymmetric stratified boxes."
  },
  {
   "property": "C91",
   "status": "partial",
   "theorems": [
    "Gandalf.C91_shared_out",
    "Gandalf.C91_own_domain",
    "Gandalf.C91_division",
    "Gandalf.C91_nothing_lost",
    "Gandalf.C91_few_particles_fails",
    "Gandalf.C91_ties_fail"
   ],
   "note": "Proved for at least one particle per process, all inside the simulation box. The domain of a process holds exactly its particles if no two particles share a coordinate; with ties it fails (particles are then on a face of the domain). Missing: between half a particle and one particle per process; fewer than half is undefined behaviour, proved."
  },
  {
   "property": "C92",
   "status": "partial",
   "theorems": [
    "Gandalf.C92_sph",
    "Gandalf.C92_sph_longest",
    "Gandalf.C92_sph_runs",
    "Gandalf.C92_cold_fails",
    "Gandalf.C92_rest_fails",
    "Gandalf.C92_block",
    "Gandalf.C92_global",
    "Gandalf.C92_signal_speed",
    "Gandalf.C92_mfv",
    "Gandalf.C92_muscl_stale_fails",
    "Gandalf.C92_leapfrog",
    "Gandalf.C92_aarseth_positive",
    "Gandalf.C92_aarseth_orbit",
    "Gandalf.C92_aarseth_units",
    "Gandalf.C92_aarseth_fallback_fails",
    "Gandalf.C92_aarseth_turn_fails",
    "Gandalf.C92_sink",
    "Gandalf.C92_energy_partial",
    "Gandalf.C92_energy_fails",
    "Gandalf.C92_energy_dkd_fails"
   ],
   "note": "The steps of SPH particles, meshless cells, stars and sinks keep their conditions. Fails: cold gas and particles at rest stop the run; the MUSCL scheme uses an old acceleration; the Hermite fallback ignores the multiplier; where the first derivative of the acceleration vanishes the Hermite step has the wrong dimension; the internal energy may become negative in both leapfrogs (partial theorem: it stays positive if the step begins with more than mult times the energy it was chosen with)."
  },
  {
   "property": "C93",
   "status": "partial",
   "theorems": [
    "Gandalf.C93_cost",
    "Gandalf.C93_counters",
    "Gandalf.C93_overlap",
    "Gandalf.C93_overlap_fails",
    "Gandalf.C93_work",
    "Gandalf.C93_two_sides",
    "Gandalf.C93_balance",
    "Gandalf.C93_balance_fails",
    "Gandalf.C93_idle"
   ],
   "note": "Cost of cells, counters, work in a box and the division by bisection are proved for boxes without edges in common and shares that are 0 or not below the smallest number of the code. Fails: with an edge in common the fraction is wrong and an uneven division is taken for even. Missing: empty cells with inverted boxes; rounding."
  },
  {
   "property": "C94",
   "status": "partial",
   "theorems": [
    "Gandalf.C94_reach",
    "Gandalf.C94_pairs_partial",
    "Gandalf.C94_mutual",
    "Gandalf.C94_gather_fails",
    "Gandalf.C94_common_motion",
    "Gandalf.C94_motion_partial",
    "Gandalf.C94_motion_fails"
   ],
   "note": "Ghosts sent to other processes: no particle twice, all interacting pairs with smoothing lengths that differ by a factor of five at most, also during a common or slow motion. Fails: larger ratios of smoothing lengths; fast particles in cells at rest."
  },
  {
   "property": "C95",
   "status": "partial",
   "theorems": [
    "Gandalf.C95_slope",
    "Gandalf.C95_steady",
    "Gandalf.C95_sonic_energy",
    "Gandalf.C95_transonic",
    "Gandalf.C95_scheme",
    "Gandalf.C95_table",
    "Gandalf.C95_profile",
    "Gandalf.C95_order",
    "Gandalf.C95_particle",
    "Gandalf.C95_sink_mass",
    "Gandalf.C95_centre_fails",
    "Gandalf.C95_cloud_mass_fails"
   ],
   "note": "The equations, the scheme, the filling of the table and the moving of particles are proved. Missing: a bound for the error of the integration and that the masses of the table increase; fails for particles at the centre and for the mass of the cloud asked for."
  },
  {
   "property": "C96",
   "status": "partial",
   "theorems": [
    "Gandalf.C96_in_box",
    "Gandalf.C96_half_h",
    "Gandalf.C96_box_length",
    "Gandalf.C96_weight",
    "Gandalf.C96_repels",
    "Gandalf.C96_lattice",
    "Gandalf.C96_centre",
    "Gandalf.C96_smooth",
    "Gandalf.C96_smooth_fails",
    "Gandalf.C96_walls_fail"
   ],
   "note": "Proved for any neighbours found. Fails at walls (the box is always periodic) and for the smoothed density (a factor near one). Missing: that the rounds converge."
  },
  {
   "property": "C97",
   "status": "partial",
   "theorems": [
    "Gandalf.C97_sum",
    "Gandalf.C97_stars_only",
    "Gandalf.C97_inactive",
    "Gandalf.C97_one_law",
    "Gandalf.C97_mutual",
    "Gandalf.C97_momentum",
    "Gandalf.C97_star_far",
    "Gandalf.C97_rk_accumulates",
    "Gandalf.C97_rk_fails",
    "Gandalf.C97_rk_stars_fails"
   ],
   "note": "Proved for the MUSCL scheme. Fails for the Runge-Kutta scheme: accelerations add up over the steps, and stars do not act on gas without self-gravity. The field of distant cells and the periodic correction are handed in."
  },
  {
   "property": "C98",
   "status": "partial",
   "theorems": [
    "Gandalf.C98_slots",
    "Gandalf.C98_route",
    "Gandalf.C98_sph",
    "Gandalf.C98_self_fails",
    "Gandalf.C98_bound_fails",
    "Gandalf.C98_mfv",
    "Gandalf.C98_zeta_fails"
   ],
   "note": "Routing proved for all records and orders of arrival; SPH accelerations, heating and divergence are the sums over processes for particles whose smoothing length follows from the density. Fails: the potential (self term once per process), smoothing lengths at the lower limit, zeta in the meshless schemes. Fluxes of the meshless schemes and cell data are not modelled here."
  },
  {
   "property": "C99",
   "status": "partial",
   "theorems": [
    "Gandalf.C99_all",
    "Gandalf.C99_box",
    "Gandalf.C99_count",
    "Gandalf.C99_count_2d",
    "Gandalf.C99_count_2d_fails",
    "Gandalf.C99_bracket",
    "Gandalf.C99_2d_fails",
    "Gandalf.C99_range",
    "Gandalf.C99_quintic_fails",
    "Gandalf.C99_scale",
    "Gandalf.C99_flat_fails",
    "Gandalf.C99_positive",
    "Gandalf.C99_ngather",
    "Gandalf.C99_ngather_fails"
   ],
   "note": "Proved: one common length, smallest box, intended number of neighbours and closeness to the even value in one and three dimensions with range 2, scaling, positivity. Fails: two dimensions, quintic kernel, flat sets, Ngather of the meshless schemes. Not covered: single precision of sqrtf and powf."
  }
 ]
}
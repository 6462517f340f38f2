import Lean.Elab.Command
import Lean.Util.CollectAxioms
import Verif.Prop.C01
import Verif.Prop.C02
import Verif.Prop.C03
import Verif.Prop.C04
import Verif.Prop.C05
import Verif.Prop.C06
import Verif.Prop.C07
import Verif.Prop.C08
import Verif.Prop.C08Pipeline
import Verif.Prop.C09
import Verif.Prop.C09Star
import Verif.Prop.C10
import Verif.Prop.C100
import Verif.Prop.C101
import Verif.Prop.C102
import Verif.Prop.C103
import Verif.Prop.C104
import Verif.Prop.C105
import Verif.Prop.C106
import Verif.Prop.C11
import Verif.Prop.C12
import Verif.Prop.C13
import Verif.Prop.C14
import Verif.Prop.C15
import Verif.Prop.C15Near
import Verif.Prop.C16
import Verif.Prop.C17
import Verif.Prop.C18
import Verif.Prop.C19
import Verif.Prop.C20
import Verif.Prop.C21
import Verif.Prop.C22
import Verif.Prop.C23
import Verif.Prop.C24
import Verif.Prop.C25
import Verif.Prop.C26
import Verif.Prop.C27
import Verif.Prop.C28
import Verif.Prop.C29
import Verif.Prop.C30
import Verif.Prop.C31
import Verif.Prop.C32
import Verif.Prop.C33
import Verif.Prop.C34
import Verif.Prop.C35
import Verif.Prop.C36
import Verif.Prop.C37
import Verif.Prop.C38
import Verif.Prop.C39
import Verif.Prop.C39Reads
import Verif.Prop.C40
import Verif.Prop.C41
import Verif.Prop.C42
import Verif.Prop.C43
import Verif.Prop.C44
import Verif.Prop.C45
import Verif.Prop.C46
import Verif.Prop.C47
import Verif.Prop.C48
import Verif.Prop.C49
import Verif.Prop.C50
import Verif.Prop.C51
import Verif.Prop.C52
import Verif.Prop.C53
import Verif.Prop.C54
import Verif.Prop.C55
import Verif.Prop.C56
import Verif.Prop.C57
import Verif.Prop.C58
import Verif.Prop.C58Tree
import Verif.Prop.C59
import Verif.Prop.C60
import Verif.Prop.C61
import Verif.Prop.C62
import Verif.Prop.C63
import Verif.Prop.C64
import Verif.Prop.C65
import Verif.Prop.C66
import Verif.Prop.C67
import Verif.Prop.C68
import Verif.Prop.C69
import Verif.Prop.C70
import Verif.Prop.C71
import Verif.Prop.C72
import Verif.Prop.C72More
import Verif.Prop.C73
import Verif.Prop.C74
import Verif.Prop.C74Flux
import Verif.Prop.C75
import Verif.Prop.C75More
import Verif.Prop.C76
import Verif.Prop.C76More
import Verif.Prop.C77
import Verif.Prop.C78
import Verif.Prop.C78More
import Verif.Prop.C79
import Verif.Prop.C79More
import Verif.Prop.C80
import Verif.Prop.C81
import Verif.Prop.C82
import Verif.Prop.C83
import Verif.Prop.C84
import Verif.Prop.C85
import Verif.Prop.C86
import Verif.Prop.C87
import Verif.Prop.C88
import Verif.Prop.C89
import Verif.Prop.C90
import Verif.Prop.C91
import Verif.Prop.C92
import Verif.Prop.C93
import Verif.Prop.C94
import Verif.Prop.C95
import Verif.Prop.C96
import Verif.Prop.C97
import Verif.Prop.C98
import Verif.Prop.C99

/-!
# Axioms used

The build fails here if a theorem named in MANIFEST.json uses anything but `propext`, `Classical.choice` and `Quot.sound`.
-/

open Lean Elab Command in
run_cmd do
  let names : List Name := [
    ``Gandalf.C01_quickSelect_median, ``Gandalf.C01_quickSelect_halves, ``Gandalf.C01_quickSelect_reads_in_range, ``Gandalf.C02_depth_minimal,
    ``Gandalf.C02_zero_capacity_diverges, ``Gandalf.C03_build_partitions_particles, ``Gandalf.C03_build_partitions_particles, ``Gandalf.C04_walk_is_recursive_traversal,
    ``Gandalf.C04_walk_visits, ``Gandalf.C05_structure_is_preorder, ``Gandalf.C05_cell_count, ``Gandalf.C05_structure_linked,
    ``Gandalf.C05_levels_and_leaf_table, ``Gandalf.C06_stock_summarises, ``Gandalf.C06_built_tree_stocks, ``Gandalf.C06_root_mass,
    ``Gandalf.C07_point_gather, ``Gandalf.C07_point_gather_built, ``Gandalf.C07_cell_gather, ``Gandalf.C08_neighbourList,
    ``Gandalf.C08_ghostNeighbours, ``Gandalf.C08_neighbours, ``Gandalf.C08_hydro_pipeline, ``Gandalf.C08_mixed_boundaries_defect,
    ``Gandalf.C09_gravity_partition, ``Gandalf.C09_gravity_mass, ``Gandalf.C09_hydro_neighbours_kept, ``Gandalf.C09_star_partition,
    ``Gandalf.C09_star_room, ``Gandalf.C09_star_retry_fails, ``Gandalf.C10_pair_once, ``Gandalf.C10_pairs_exactly_once,
    ``Gandalf.C100_sph, ``Gandalf.C100_sph_hydro, ``Gandalf.C100_hydro_fails, ``Gandalf.C100_mfv,
    ``Gandalf.C100_mfv_stars, ``Gandalf.C100_mfv_big_fails, ``Gandalf.C100_criterion, ``Gandalf.C101_copy,
    ``Gandalf.C101_rest, ``Gandalf.C101_update, ``Gandalf.C101_owner, ``Gandalf.C101_owner_periodic_fails,
    ``Gandalf.C101_return, ``Gandalf.C101_synced, ``Gandalf.C101_dust, ``Gandalf.C101_sink,
    ``Gandalf.C101_sink_mfv, ``Gandalf.C101_sink_own_fails, ``Gandalf.C101_sink_twice_fails, ``Gandalf.C101_noted,
    ``Gandalf.C101_first_fails, ``Gandalf.C102_particles, ``Gandalf.C102_gain, ``Gandalf.C102_owner_kept,
    ``Gandalf.C102_swallowed_fails, ``Gandalf.C102_again_fails, ``Gandalf.C103_clock, ``Gandalf.C103_active,
    ``Gandalf.C103_finer, ``Gandalf.C103_change, ``Gandalf.C103_min_sync, ``Gandalf.C103_min_sync_fails,
    ``Gandalf.C103_nlast, ``Gandalf.C103_nlast_fails, ``Gandalf.C103_default_fails, ``Gandalf.C103_level,
    ``Gandalf.C103_level_zero, ``Gandalf.C103_level_long_fails, ``Gandalf.C104_grid, ``Gandalf.C104_positive,
    ``Gandalf.C104_positive_run, ``Gandalf.C104_outside, ``Gandalf.C104_similar, ``Gandalf.C104_uniform,
    ``Gandalf.C104_vacuum_fails, ``Gandalf.C105_found, ``Gandalf.C105_particle, ``Gandalf.C105_own,
    ``Gandalf.C105_gap_fails, ``Gandalf.C105_star_fails, ``Gandalf.C105_other_leaf_fails, ``Gandalf.C106_list,
    ``Gandalf.C106_retry, ``Gandalf.C106_no_room, ``Gandalf.C106_sphere, ``Gandalf.C11_endSearch,
    ``Gandalf.C11_trim_partition, ``Gandalf.C11_counts, ``Gandalf.C11_demotion_reads_past_end, ``Gandalf.C12_nearest_is_minimum_image,
    ``Gandalf.C12_ghostFinder_agrees, ``Gandalf.C13_outcome, ``Gandalf.C13_inside, ``Gandalf.C13_consistent,
    ``Gandalf.C13_speed, ``Gandalf.C13_all_particles, ``Gandalf.C13_far_particle_stays_outside, ``Gandalf.C14_images,
    ``Gandalf.C14_refresh_reproduces_partial, ``Gandalf.C14_reflect_involution, ``Gandalf.C14_acceleration_not_reproduced, ``Gandalf.C14_flags_own,
    ``Gandalf.C14_dead_not_copied_fails, ``Gandalf.C15_zero_lifetime, ``Gandalf.C15_ghosts_partial, ``Gandalf.C15_moving_margin,
    ``Gandalf.C15_fast_particle_missed, ``Gandalf.C15_neighbours_partial, ``Gandalf.C15_gather_fails, ``Gandalf.C16_all_ghosts,
    ``Gandalf.C16_at_most_max, ``Gandalf.C16_gather_complete, ``Gandalf.C16_scatter_gather_complete, ``Gandalf.C16_dangling_reference_defect,
    ``Gandalf.C17_hierarchy, ``Gandalf.C17_finish_together, ``Gandalf.C17_no_failure, ``Gandalf.C17_ticks_to_resync,
    ``Gandalf.C17_dkd_limiter_breaks, ``Gandalf.C18_resync, ``Gandalf.C18_every_step, ``Gandalf.C18_at_least_half_partial,
    ``Gandalf.C18_exactly_half, ``Gandalf.C18_less_than_half, ``Gandalf.C18_global, ``Gandalf.C18_global_dkd_fails,
    ``Gandalf.C19_limiter, ``Gandalf.C19_limiter_acts, ``Gandalf.C19_next_step, ``Gandalf.C19_no_longer,
    ``Gandalf.C19_dkd_unaligned, ``Gandalf.C20_conserved, ``Gandalf.C20_any_marking, ``Gandalf.C20_order,
    ``Gandalf.C20_particles, ``Gandalf.C20_check_passes, ``Gandalf.C20_how_much, ``Gandalf.C20_swallows,
    ``Gandalf.C20_zero_fraction_fails, ``Gandalf.C21_choice, ``Gandalf.C21_search, ``Gandalf.C21_thermal_energy_lost,
    ``Gandalf.C21_no_overlap, ``Gandalf.C21_nsinkfixed_exceeded, ``Gandalf.C21_fixed_radius_overlap, ``Gandalf.C22_delete_dead,
    ``Gandalf.C23_kdk_sph, ``Gandalf.C23_kdk_nbody, ``Gandalf.C23_dkd, ``Gandalf.C23_reversible_sph,
    ``Gandalf.C23_reversible_nbody, ``Gandalf.C23_reversible_dkd, ``Gandalf.C23_conserves, ``Gandalf.C23_free_fall,
    ``Gandalf.C23_free_fall_dkd, ``Gandalf.C23_stale_length_fails, ``Gandalf.C23_npec_two_fails, ``Gandalf.C24_no_net_force,
    ``Gandalf.C24_no_net_torque, ``Gandalf.C24_energy, ``Gandalf.C24_gravity_no_net_force, ``Gandalf.C24_gravity_no_net_torque,
    ``Gandalf.C24_total_energy, ``Gandalf.C24_total_energy_m4, ``Gandalf.C24_diagnosed_energy_rate, ``Gandalf.C24_diagnosed_energy_fails,
    ``Gandalf.C25_viscosity_heats, ``Gandalf.C25_viscosity_heats_gravity, ``Gandalf.C25_only_approaching, ``Gandalf.C25_repels,
    ``Gandalf.C25_dissipates, ``Gandalf.C25_conduction, ``Gandalf.C25_heats_strictly, ``Gandalf.C26_transfers,
    ``Gandalf.C26_order, ``Gandalf.C26_conserves, ``Gandalf.C26_conserves_open, ``Gandalf.C26_run,
    ``Gandalf.C26_cut_fails, ``Gandalf.C26_mass_moment, ``Gandalf.C26_mass_moment_fails, ``Gandalf.C26_rates,
    ``Gandalf.C27_factor, ``Gandalf.C27_tvd, ``Gandalf.C27_scalar_ball, ``Gandalf.C27_scalar,
    ``Gandalf.C27_springel, ``Gandalf.C27_gizmo, ``Gandalf.C27_linear, ``Gandalf.C27_scalar_unlimited,
    ``Gandalf.C28_consistent, ``Gandalf.C28_consistent_zmf, ``Gandalf.C28_upwind_left, ``Gandalf.C28_upwind_right,
    ``Gandalf.C28_fan, ``Gandalf.C28_zmf_mass, ``Gandalf.C28_zmf_mass_iso, ``Gandalf.C28_antisymmetric,
    ``Gandalf.C28_zmf_frame, ``Gandalf.C29_inverse, ``Gandalf.C29_rotation, ``Gandalf.C29_flux,
    ``Gandalf.C29_zmf, ``Gandalf.C29_identical, ``Gandalf.C29_vacuum_fails, ``Gandalf.C29_zmf_contact_fails,
    ``Gandalf.C30_m4_valid, ``Gandalf.C31_m4_gravity, ``Gandalf.C31_m4_omega, ``Gandalf.C31_m4_zeta,
    ``Gandalf.C32_quintic_valid, ``Gandalf.C32_quintic_omega, ``Gandalf.C32_quintic_gravity_partial, ``Gandalf.C32_quintic_gravity_defect,
    ``Gandalf.C32_quintic_zeta_defect, ``Gandalf.C32_gaussian_partial, ``Gandalf.C32_gaussian_defects, ``Gandalf.C33_lookup,
    ``Gandalf.C33_lookup_squared, ``Gandalf.C33_accuracy, ``Gandalf.C34_flag_history, ``Gandalf.C34_check_iff,
    ``Gandalf.C34_flags_disjoint, ``Gandalf.C34_group_checks, ``Gandalf.C35_insertionSortIds, ``Gandalf.C35_insertionSort,
    ``Gandalf.C35_heapsort, ``Gandalf.C36_boxOverlap_iff, ``Gandalf.C36_boxesOverlap_iff, ``Gandalf.C36_particleInBox_iff,
    ``Gandalf.C36_fractionalBoxOverlap_partial, ``Gandalf.C36_fractionalBoxOverlap_defect, ``Gandalf.C36_fractionalBoxOverlap_above_one, ``Gandalf.C37_state_bijective,
    ``Gandalf.C37_full_period, ``Gandalf.C37_draws_distinct, ``Gandalf.C37_floatrand_partial, ``Gandalf.C37_floatrand_exceeds_one,
    ``Gandalf.C37_gaussrand_ends, ``Gandalf.C37_gaussrand_ignores_parameters, ``Gandalf.C37_gaussrand_not_a_number, ``Gandalf.C37_zero_seed_stuck,
    ``Gandalf.C38_what_it_decides, ``Gandalf.C38_unique_ids_accepted_partial, ``Gandalf.C38_duplicates_accepted, ``Gandalf.C39_comment,
    ``Gandalf.C39_assignment, ``Gandalf.C39_plain_assignment, ``Gandalf.C39_unknown, ``Gandalf.C39_no_assignment_partial,
    ``Gandalf.C39_bare_key, ``Gandalf.C39_bare_key_fails, ``Gandalf.C39_code_names, ``Gandalf.C39_roundtrip,
    ``Gandalf.C39_float_error, ``Gandalf.C39_float_stable, ``Gandalf.C39_float_roundtrip_fails, ``Gandalf.C39_colon_value_fails,
    ``Gandalf.C39_tab_fails, ``Gandalf.C39_reads_partial, ``Gandalf.C39_reads_fails, ``Gandalf.C39_unset_fails,
    ``Gandalf.C40_round_robin, ``Gandalf.C40_odd_accepted, ``Gandalf.C40_odd_fails, ``Gandalf.C41_no_deadlock,
    ``Gandalf.C41_terminates, ``Gandalf.C41_result, ``Gandalf.C41_conserved, ``Gandalf.C41_odd_never_finishes,
    ``Gandalf.C42_update, ``Gandalf.C42_find_cell, ``Gandalf.C42_load_balancing, ``Gandalf.C42_bisection_ends,
    ``Gandalf.C42_particles, ``Gandalf.C42_initial_share, ``Gandalf.C42_bisection_diverges, ``Gandalf.C42_upper_edge_fails,
    ``Gandalf.C42_nonpower_fails, ``Gandalf.C42_initial_loss, ``Gandalf.C43_records, ``Gandalf.C43_displs,
    ``Gandalf.C43_ghost_process, ``Gandalf.C43_fill, ``Gandalf.C43_transfer, ``Gandalf.C43_return,
    ``Gandalf.C43_round_trip, ``Gandalf.C43_sinks, ``Gandalf.C43_unclaimed_sink_overflows, ``Gandalf.C43_timing,
    ``Gandalf.C44_pruned_tree, ``Gandalf.C44_rule, ``Gandalf.C44_kd_size, ``Gandalf.C44_retry,
    ``Gandalf.C44_oct_bound, ``Gandalf.C44_oct_truncated, ``Gandalf.C44_distant_gravity, ``Gandalf.C44_no_overlap,
    ``Gandalf.C44_leaf_update, ``Gandalf.C44_restock, ``Gandalf.C45_direct_no_net_force, ``Gandalf.C45_smoothed_no_net_force,
    ``Gandalf.C45_direct_no_net_torque, ``Gandalf.C45_smoothed_no_net_torque, ``Gandalf.C45_direct_jerk, ``Gandalf.C45_smoothed_jerk,
    ``Gandalf.C45_direct_energy, ``Gandalf.C45_smoothed_energy, ``Gandalf.C45_star_gas_partial, ``Gandalf.C45_smoothed_jerk_1d_fails,
    ``Gandalf.C45_star_gas_periodic_fails, ``Gandalf.C46_hermite4_exact, ``Gandalf.C46_hermite4_order, ``Gandalf.C46_hermite4ts_exact,
    ``Gandalf.C46_hermite6ts_exact, ``Gandalf.C46_hermite4ts_symmetric, ``Gandalf.C46_startup, ``Gandalf.C46_npec_two_fails,
    ``Gandalf.C46_hermite4ts_cubic_fails, ``Gandalf.C46_hermite6_smoothed_fails, ``Gandalf.C46_hermite6_a2dot_last, ``Gandalf.C46_hermite6_a2dot_fails,
    ``Gandalf.C46_hermite6_predict, ``Gandalf.C47_schedule, ``Gandalf.C47_prompt, ``Gandalf.C47_names,
    ``Gandalf.C47_returned, ``Gandalf.C47_restarts, ``Gandalf.C47_long_step_late, ``Gandalf.C47_restart_first_fails,
    ``Gandalf.C47_column_overwrites, ``Gandalf.C48_restart_partial, ``Gandalf.C48_between_calls, ``Gandalf.C48_restore_exact,
    ``Gandalf.C48_restart_window, ``Gandalf.C48_tmp_window, ``Gandalf.C48_column_window, ``Gandalf.C49_round_trip,
    ``Gandalf.C49_compose, ``Gandalf.C49_system, ``Gandalf.C49_cgs, ``Gandalf.C49_named,
    ``Gandalf.C49_snapshot, ``Gandalf.C49_GJ_wrong, ``Gandalf.C49_cgs_pressure_wrong, ``Gandalf.C49_luminosity_wrong,
    ``Gandalf.C49_force_unit_ignored, ``Gandalf.C49_labels_wrong, ``Gandalf.C49_snapshot_units_ignored, ``Gandalf.C50_gradh,
    ``Gandalf.C50_gradh_exact, ``Gandalf.C50_bisection_tests, ``Gandalf.C50_density_complete, ``Gandalf.C50_self_contribution,
    ``Gandalf.C50_invomega, ``Gandalf.C50_no_exception, ``Gandalf.C50_cell, ``Gandalf.C50_error_accepted,
    ``Gandalf.C50_bound_density_stale, ``Gandalf.C50_sm2012, ``Gandalf.C50_mfv_partial, ``Gandalf.C50_mfv_below_bound,
    ``Gandalf.C50_mfv_false_convergence, ``Gandalf.C50_mfv_invomega_stale, ``Gandalf.C50_potmin_wrong, ``Gandalf.C51_inverse,
    ``Gandalf.C51_linear_exact, ``Gandalf.C51_invertible_iff, ``Gandalf.C51_condition, ``Gandalf.C51_symmetric,
    ``Gandalf.C51_sph_direction, ``Gandalf.C51_vsig, ``Gandalf.C51_potmin, ``Gandalf.C51_sph_not_exact,
    ``Gandalf.C52_resync, ``Gandalf.C52_recorded_partial, ``Gandalf.C52_zero, ``Gandalf.C52_limiter,
    ``Gandalf.C52_limiter_mfv, ``Gandalf.C53_mm97_rate_partial, ``Gandalf.C53_mm97_range_partial, ``Gandalf.C53_mm97_range_fails,
    ``Gandalf.C53_gravity_frozen, ``Gandalf.C53_gravity_sign, ``Gandalf.C53_cd2010_range, ``Gandalf.C53_cd2010_reacts,
    ``Gandalf.C54_levels_recorded, ``Gandalf.C54_levels_least, ``Gandalf.C54_thread_independent, ``Gandalf.C54_hydro_levelneib,
    ``Gandalf.C54_grav_levelneib_partial, ``Gandalf.C54_smoothed_levelneib_fails, ``Gandalf.C55_derivative, ``Gandalf.C55_vacuum_test,
    ``Gandalf.C55_newton, ``Gandalf.C55_result, ``Gandalf.C55_monotone, ``Gandalf.C55_converges,
    ``Gandalf.C55_limit, ``Gandalf.C55_stop, ``Gandalf.C55_identical, ``Gandalf.C55_mirror,
    ``Gandalf.C56_solution, ``Gandalf.C56_mirror, ``Gandalf.C57_test_particle_exact, ``Gandalf.C57_test_particle_error,
    ``Gandalf.C57_test_particle_bounded, ``Gandalf.C57_interpolation_mean, ``Gandalf.C57_momentum_sph, ``Gandalf.C57_angular_momentum_sph,
    ``Gandalf.C57_energy_sph, ``Gandalf.C57_kick_kdk, ``Gandalf.C57_kick_dkd, ``Gandalf.C57_kick_difference,
    ``Gandalf.C57_kick_difference_mfv, ``Gandalf.C57_momentum_mfv, ``Gandalf.C57_angular_momentum_mfv, ``Gandalf.C57_energy_mfv,
    ``Gandalf.C57_copy_neighbours_partial, ``Gandalf.C57_lp12_test_particle_fails, ``Gandalf.C57_heating_undefined, ``Gandalf.C57_mpi_cooling_lost,
    ``Gandalf.C57_mfv_position, ``Gandalf.C57_copy_neighbours_stale, ``Gandalf.C57_no_gas_hangs, ``Gandalf.C58_monopole_gradient,
    ``Gandalf.C58_quadrupole_gradient, ``Gandalf.C58_monopole_error, ``Gandalf.C58_quadrupole_error, ``Gandalf.C58_fast_monopole,
    ``Gandalf.C58_fast_quadrupole, ``Gandalf.C58_fast_monopole_error, ``Gandalf.C58_summary, ``Gandalf.C58_star_error,
    ``Gandalf.C58_cell_error_partial, ``Gandalf.C58_cell_error_fails, ``Gandalf.C59_build, ``Gandalf.C59_build_ends_partial,
    ``Gandalf.C59_coincident, ``Gandalf.C59_too_large, ``Gandalf.C59_first_build_fails, ``Gandalf.C59_too_few_cells,
    ``Gandalf.C60_stock_partial, ``Gandalf.C60_gather_partial, ``Gandalf.C60_massless_leaf_skipped, ``Gandalf.C60_vbox_stays,
    ``Gandalf.C60_restock_wipes, ``Gandalf.C61_ideal_gas, ``Gandalf.C61_temperature_partial, ``Gandalf.C61_adiabatic_temperature_fails,
    ``Gandalf.C61_ionised_temperature_fails, ``Gandalf.C61_sound_adiabatic, ``Gandalf.C61_sound_isothermal, ``Gandalf.C61_sound_local,
    ``Gandalf.C61_sound_barotropic_fails, ``Gandalf.C61_sound_barotropic2_fails, ``Gandalf.C61_barotropic, ``Gandalf.C61_polytropic_partial,
    ``Gandalf.C61_polytropic_fails, ``Gandalf.C61_locally_isothermal, ``Gandalf.C61_disc, ``Gandalf.C61_ionised,
    ``Gandalf.C62_totals, ``Gandalf.C62_pair_energy, ``Gandalf.C62_com_frame, ``Gandalf.C62_mpi,
    ``Gandalf.C62_mpi_fails, ``Gandalf.C62_external_energy_fails, ``Gandalf.C63_added, ``Gandalf.C63_jerk,
    ``Gandalf.C63_plummer, ``Gandalf.C63_plummer_energy, ``Gandalf.C63_vertical_fails, ``Gandalf.C63_kgrav_fails,
    ``Gandalf.C63_extpot_parameters_ignored, ``Gandalf.C64_gradient, ``Gandalf.C64_mirror, ``Gandalf.C64_images,
    ``Gandalf.C64_waves_periodic, ``Gandalf.C64_waves_partial, ``Gandalf.C64_waves_fails, ``Gandalf.C64_table,
    ``Gandalf.C64_nodes, ``Gandalf.C64_interpolation, ``Gandalf.C64_wrap_partial, ``Gandalf.C64_wrap_open_fails,
    ``Gandalf.C64_in_range_partial, ``Gandalf.C64_in_range_fails, ``Gandalf.C64_opposite, ``Gandalf.C64_far,
    ``Gandalf.C64_far_strength, ``Gandalf.C64_far_joins, ``Gandalf.C64_potential_fails, ``Gandalf.C65_spec_rate,
    ``Gandalf.C65_rotation, ``Gandalf.C65_centre, ``Gandalf.C65_elements, ``Gandalf.C65_terminates_partial,
    ``Gandalf.C65_kepler_partial, ``Gandalf.C65_recedes, ``Gandalf.C65_incoming, ``Gandalf.C65_incoming_fails,
    ``Gandalf.C65_psirot_fails, ``Gandalf.C65_triple, ``Gandalf.C65_quadruple, ``Gandalf.C66_sites,
    ``Gandalf.C66_cubic1, ``Gandalf.C66_cubic2, ``Gandalf.C66_cubic3, ``Gandalf.C66_normalised_partial,
    ``Gandalf.C66_normalised_fails, ``Gandalf.C66_hex2, ``Gandalf.C66_hex3, ``Gandalf.C66_hex_odd_fails,
    ``Gandalf.C66_hex_outside_fails, ``Gandalf.C66_cut, ``Gandalf.C66_cut_terminates, ``Gandalf.C66_cut_centre_fails,
    ``Gandalf.C66_sphere2, ``Gandalf.C66_sphere3, ``Gandalf.C66_random_box, ``Gandalf.C66_random_sphere,
    ``Gandalf.C66_r2_partial, ``Gandalf.C66_r2_fails, ``Gandalf.C67_spec_ring, ``Gandalf.C67_azimuthal_partial,
    ``Gandalf.C67_axis_fails, ``Gandalf.C67_spec_sine, ``Gandalf.C67_sine, ``Gandalf.C67_rotation,
    ``Gandalf.C67_interpolate_partial, ``Gandalf.C67_grid_fails, ``Gandalf.C67_row_fails, ``Gandalf.C67_mass_partial,
    ``Gandalf.C67_mass_fails, ``Gandalf.C68_ok_iff, ``Gandalf.C68_accept, ``Gandalf.C68_outside_iff,
    ``Gandalf.C68_cut_partial, ``Gandalf.C68_mirror_fails, ``Gandalf.C68_box_fails, ``Gandalf.C69_turb_mass,
    ``Gandalf.C69_boss_mass_fails, ``Gandalf.C69_boss_density_fails, ``Gandalf.C69_turb_grid_partial, ``Gandalf.C69_turb_grid_fails,
    ``Gandalf.C69_spec_gpe, ``Gandalf.C69_turb_energy, ``Gandalf.C69_evrard_partial, ``Gandalf.C69_evrard_fails,
    ``Gandalf.C69_spec_plummer, ``Gandalf.C69_plummer_radius, ``Gandalf.C69_plummer_speed, ``Gandalf.C69_stars_from,
    ``Gandalf.C69_plummer, ``Gandalf.C69_plummer_ends, ``Gandalf.C69_plummer_gas, ``Gandalf.C69_plummer_mass,
    ``Gandalf.C69_plummer_truncated_fails, ``Gandalf.C70_hmax_kd, ``Gandalf.C70_search_kd, ``Gandalf.C70_hmax_oct,
    ``Gandalf.C70_active, ``Gandalf.C70_active_kd, ``Gandalf.C70_extrapolate_partial, ``Gandalf.C70_extrapolate_fails,
    ``Gandalf.C70_upkeep, ``Gandalf.C71_inject, ``Gandalf.C71_mass, ``Gandalf.C71_mass_bounds,
    ``Gandalf.C71_energy_partial, ``Gandalf.C71_energy_rest, ``Gandalf.C71_energy_le, ``Gandalf.C71_energy_fails,
    ``Gandalf.C71_velocity_fails, ``Gandalf.C71_momentum_partial, ``Gandalf.C71_empty_fails, ``Gandalf.C71_create,
    ``Gandalf.C71_create_fails, ``Gandalf.C71_ids_partial, ``Gandalf.C71_ids_fails, ``Gandalf.C71_kept,
    ``Gandalf.C71_kept_fails, ``Gandalf.C71_new_partial, ``Gandalf.C71_new_fails, ``Gandalf.C71_mfv_fails,
    ``Gandalf.C71_sedov, ``Gandalf.C71_random, ``Gandalf.C71_silcc_partial, ``Gandalf.C71_silcc_fails,
    ``Gandalf.C72_face_opposite, ``Gandalf.C72_face_direction, ``Gandalf.C72_face_linear, ``Gandalf.C72_predictor,
    ``Gandalf.C72_half_step, ``Gandalf.C72_linear_face, ``Gandalf.C72_floor, ``Gandalf.C72_pair_symmetric,
    ``Gandalf.C72_uniform, ``Gandalf.C72_gain, ``Gandalf.C72_downstream, ``Gandalf.C72_galilean,
    ``Gandalf.C72_stress, ``Gandalf.C72_viscous_energy_fails, ``Gandalf.C72_fall_fails, ``Gandalf.C72_rk_uniform,
    ``Gandalf.C72_rk_face, ``Gandalf.C72_rk_upwind, ``Gandalf.C72_rk_upstream_fails, ``Gandalf.C72_rk_zero_mass_fails,
    ``Gandalf.C72_rk_gradient_fails, ``Gandalf.C73_found, ``Gandalf.C73_update, ``Gandalf.C73_hang_fails,
    ``Gandalf.C73_force_partial, ``Gandalf.C73_reaction_partial, ``Gandalf.C73_jerk_partial, ``Gandalf.C73_periodic_fails,
    ``Gandalf.C73_types_fails, ``Gandalf.C73_jerk_fails, ``Gandalf.C74_conserves, ``Gandalf.C74_pairs,
    ``Gandalf.C74_run, ``Gandalf.C74_kdk, ``Gandalf.C74_recorded, ``Gandalf.C74_rates,
    ``Gandalf.C74_pair_rates, ``Gandalf.C74_work, ``Gandalf.C74_lift, ``Gandalf.C74_lift_fails,
    ``Gandalf.C74_heat_partial, ``Gandalf.C74_heat_fails, ``Gandalf.C74_predict_fails, ``Gandalf.C74_galilean,
    ``Gandalf.C74_cut, ``Gandalf.C75_closest, ``Gandalf.C75_density_fails, ``Gandalf.C75_temperature,
    ``Gandalf.C75_inverse_partial, ``Gandalf.C75_pressure_entry, ``Gandalf.C75_pressure_nearest, ``Gandalf.C75_bracket,
    ``Gandalf.C75_equilibrium_partial, ``Gandalf.C75_floor, ``Gandalf.C75_cool_fails, ``Gandalf.C75_first_fails,
    ``Gandalf.C75_relax, ``Gandalf.C75_thermal, ``Gandalf.C75_frozen_fails, ``Gandalf.C75_implicit_partial,
    ``Gandalf.C75_hot_fails, ``Gandalf.C75_mirror_fails, ``Gandalf.C75_meshless, ``Gandalf.C75_race_partial,
    ``Gandalf.C75_race_fails, ``Gandalf.C76_ambient_partial, ``Gandalf.C76_binary_fails, ``Gandalf.C76_alone_fails,
    ``Gandalf.C76_negative, ``Gandalf.C76_dark_fails, ``Gandalf.C76_profile, ``Gandalf.C76_smoothed,
    ``Gandalf.C76_length_fails, ``Gandalf.C76_radius, ``Gandalf.C76_sink_partial, ``Gandalf.C76_burning_fails,
    ``Gandalf.C76_rate_partial, ``Gandalf.C76_rate_fails, ``Gandalf.C76_stale_fails, ``Gandalf.C76_photons,
    ``Gandalf.C76_heavy, ``Gandalf.C76_light_fails, ``Gandalf.C76_table_fails, ``Gandalf.C77_tree,
    ``Gandalf.C77_sisters, ``Gandalf.C77_far_fails, ``Gandalf.C77_partition, ``Gandalf.C77_momentum,
    ``Gandalf.C77_hard, ``Gandalf.C77_orbit, ``Gandalf.C77_elements, ``Gandalf.C77_roundtrip,
    ``Gandalf.C77_crossing_fails, ``Gandalf.C77_kind_partial, ``Gandalf.C77_kind_fails, ``Gandalf.C77_perturbers,
    ``Gandalf.C77_perturbers_fails, ``Gandalf.C78_children, ``Gandalf.C78_stars, ``Gandalf.C78_external,
    ``Gandalf.C78_reaction, ``Gandalf.C78_com, ``Gandalf.C78_path, ``Gandalf.C78_perturber_partial,
    ``Gandalf.C78_perturber_fails, ``Gandalf.C78_loop, ``Gandalf.C78_ends, ``Gandalf.C78_centre,
    ``Gandalf.C78_step_partial, ``Gandalf.C78_clock, ``Gandalf.C78_flag, ``Gandalf.C78_clock_fails,
    ``Gandalf.C78_ahead_fails, ``Gandalf.C78_energy_partial, ``Gandalf.C78_energy_fails, ``Gandalf.C79_gresho,
    ``Gandalf.C79_gresho_offset, ``Gandalf.C79_sedov_thermal, ``Gandalf.C79_sedov_kinetic, ``Gandalf.C79_sedov_partial,
    ``Gandalf.C79_sedov_region, ``Gandalf.C79_sedov_dust, ``Gandalf.C79_sedov_cold_fails, ``Gandalf.C79_sedov_centre_fails,
    ``Gandalf.C79_sedov_empty_fails, ``Gandalf.C79_noh, ``Gandalf.C79_noh_state, ``Gandalf.C79_tube,
    ``Gandalf.C79_tube_sides, ``Gandalf.C79_tube_fails, ``Gandalf.C79_wave_partial, ``Gandalf.C79_wave_fails,
    ``Gandalf.C79_rt_partial, ``Gandalf.C79_rt_fails, ``Gandalf.C79_khi_layers, ``Gandalf.C79_khi_partial,
    ``Gandalf.C79_khi_fails, ``Gandalf.C80_seren_partial, ``Gandalf.C80_text, ``Gandalf.C80_icm_fails,
    ``Gandalf.C80_boundary, ``Gandalf.C80_time_fails, ``Gandalf.C80_header, ``Gandalf.C80_wrong_file,
    ``Gandalf.C80_column_partial, ``Gandalf.C80_column_fails, ``Gandalf.C80_mpi, ``Gandalf.C80_mpi_column_fails,
    ``Gandalf.C81_mass, ``Gandalf.C81_ratio_fails, ``Gandalf.C81_surface_partial, ``Gandalf.C81_nodust_fails,
    ``Gandalf.C81_dust_density_fails, ``Gandalf.C81_square_fails, ``Gandalf.C81_radius, ``Gandalf.C81_height,
    ``Gandalf.C81_all, ``Gandalf.C81_aspect, ``Gandalf.C81_vertical, ``Gandalf.C81_orbits,
    ``Gandalf.C81_support_partial, ``Gandalf.C81_gas_fails, ``Gandalf.C81_flat_fails, ``Gandalf.C81_planet,
    ``Gandalf.C81_hill_fails, ``Gandalf.C81_eos_fails, ``Gandalf.C81_energy, ``Gandalf.C82_index,
    ``Gandalf.C82_slice, ``Gandalf.C82_plane, ``Gandalf.C82_order, ``Gandalf.C82_average_partial,
    ``Gandalf.C82_faint_fails, ``Gandalf.C82_shift_fails, ``Gandalf.C82_lost_fails, ``Gandalf.C82_column_partial,
    ``Gandalf.C82_column_fails, ``Gandalf.C82_sight, ``Gandalf.C83_links, ``Gandalf.C83_towards,
    ``Gandalf.C83_single_partial, ``Gandalf.C83_stroemgren, ``Gandalf.C83_region, ``Gandalf.C83_shares,
    ``Gandalf.C83_temperature, ``Gandalf.C83_kernel, ``Gandalf.C83_state, ``Gandalf.C83_mu,
    ``Gandalf.C83_energy_fails, ``Gandalf.C83_first_fails, ``Gandalf.C83_premature_fails, ``Gandalf.C84_stocked,
    ``Gandalf.C84_never_over, ``Gandalf.C84_inside, ``Gandalf.C84_signal_partial, ``Gandalf.C84_export_partial,
    ``Gandalf.C84_step, ``Gandalf.C84_overlap_fails, ``Gandalf.C84_direction_fails, ``Gandalf.C84_periodic_fails,
    ``Gandalf.C85_build, ``Gandalf.C85_same, ``Gandalf.C85_direct, ``Gandalf.C85_hmax,
    ``Gandalf.C85_active, ``Gandalf.C85_empty, ``Gandalf.C85_quadrupole_fails, ``Gandalf.C86_lambda,
    ``Gandalf.C86_eigenmac_partial, ``Gandalf.C86_gadget2_partial, ``Gandalf.C86_eigenmac_fails, ``Gandalf.C86_gadget2_fails,
    ``Gandalf.C87_cells_tile, ``Gandalf.C87_exit_cells, ``Gandalf.C87_exit_face, ``Gandalf.C87_photon_partial,
    ``Gandalf.C87_division, ``Gandalf.C87_sum_field, ``Gandalf.C87_dead_particles_fails, ``Gandalf.C87_zero_component_fails,
    ``Gandalf.C87_level_check_fails, ``Gandalf.C87_reads_before_array_fails, ``Gandalf.C88_cells, ``Gandalf.C88_balance_unique,
    ``Gandalf.C88_balance_partial, ``Gandalf.C88_dark, ``Gandalf.C88_converged, ``Gandalf.C88_start,
    ``Gandalf.C88_levels, ``Gandalf.C88_particles, ``Gandalf.C88_mixture, ``Gandalf.C88_balance_fails,
    ``Gandalf.C88_no_levels_fails, ``Gandalf.C89_types, ``Gandalf.C89_sum, ``Gandalf.C89_error_partial,
    ``Gandalf.C90_uniform, ``Gandalf.C90_binary_places, ``Gandalf.C90_binary_partial, ``Gandalf.C90_binary_fails,
    ``Gandalf.C90_contact_partial, ``Gandalf.C90_contact_fails, ``Gandalf.C90_shock2d_partial, ``Gandalf.C90_shock2d_fails,
    ``Gandalf.C90_dustybox_partial, ``Gandalf.C90_dustybox_fails, ``Gandalf.C90_shear_partial, ``Gandalf.C90_shear_fails,
    ``Gandalf.C90_ring_orbits, ``Gandalf.C90_ring_density_fails, ``Gandalf.C90_silcc_partial, ``Gandalf.C90_silcc_fails,
    ``Gandalf.C90_filament, ``Gandalf.C90_blob, ``Gandalf.C91_shared_out, ``Gandalf.C91_own_domain,
    ``Gandalf.C91_division, ``Gandalf.C91_nothing_lost, ``Gandalf.C91_few_particles_fails, ``Gandalf.C91_ties_fail,
    ``Gandalf.C92_sph, ``Gandalf.C92_sph_longest, ``Gandalf.C92_sph_runs, ``Gandalf.C92_cold_fails,
    ``Gandalf.C92_rest_fails, ``Gandalf.C92_block, ``Gandalf.C92_global, ``Gandalf.C92_signal_speed,
    ``Gandalf.C92_mfv, ``Gandalf.C92_muscl_stale_fails, ``Gandalf.C92_leapfrog, ``Gandalf.C92_aarseth_positive,
    ``Gandalf.C92_aarseth_orbit, ``Gandalf.C92_aarseth_units, ``Gandalf.C92_aarseth_fallback_fails, ``Gandalf.C92_aarseth_turn_fails,
    ``Gandalf.C92_sink, ``Gandalf.C92_energy_partial, ``Gandalf.C92_energy_fails, ``Gandalf.C92_energy_dkd_fails,
    ``Gandalf.C93_cost, ``Gandalf.C93_counters, ``Gandalf.C93_overlap, ``Gandalf.C93_overlap_fails,
    ``Gandalf.C93_work, ``Gandalf.C93_two_sides, ``Gandalf.C93_balance, ``Gandalf.C93_balance_fails,
    ``Gandalf.C93_idle, ``Gandalf.C94_reach, ``Gandalf.C94_pairs_partial, ``Gandalf.C94_mutual,
    ``Gandalf.C94_gather_fails, ``Gandalf.C94_common_motion, ``Gandalf.C94_motion_partial, ``Gandalf.C94_motion_fails,
    ``Gandalf.C95_slope, ``Gandalf.C95_steady, ``Gandalf.C95_sonic_energy, ``Gandalf.C95_transonic,
    ``Gandalf.C95_scheme, ``Gandalf.C95_table, ``Gandalf.C95_profile, ``Gandalf.C95_order,
    ``Gandalf.C95_particle, ``Gandalf.C95_sink_mass, ``Gandalf.C95_centre_fails, ``Gandalf.C95_cloud_mass_fails,
    ``Gandalf.C96_in_box, ``Gandalf.C96_half_h, ``Gandalf.C96_box_length, ``Gandalf.C96_weight,
    ``Gandalf.C96_repels, ``Gandalf.C96_lattice, ``Gandalf.C96_centre, ``Gandalf.C96_smooth,
    ``Gandalf.C96_smooth_fails, ``Gandalf.C96_walls_fail, ``Gandalf.C97_sum, ``Gandalf.C97_stars_only,
    ``Gandalf.C97_inactive, ``Gandalf.C97_one_law, ``Gandalf.C97_mutual, ``Gandalf.C97_momentum,
    ``Gandalf.C97_star_far, ``Gandalf.C97_rk_accumulates, ``Gandalf.C97_rk_fails, ``Gandalf.C97_rk_stars_fails,
    ``Gandalf.C98_slots, ``Gandalf.C98_route, ``Gandalf.C98_sph, ``Gandalf.C98_self_fails,
    ``Gandalf.C98_bound_fails, ``Gandalf.C98_mfv, ``Gandalf.C98_zeta_fails, ``Gandalf.C99_all,
    ``Gandalf.C99_box, ``Gandalf.C99_count, ``Gandalf.C99_count_2d, ``Gandalf.C99_count_2d_fails,
    ``Gandalf.C99_bracket, ``Gandalf.C99_2d_fails, ``Gandalf.C99_range, ``Gandalf.C99_quintic_fails,
    ``Gandalf.C99_scale, ``Gandalf.C99_flat_fails, ``Gandalf.C99_positive, ``Gandalf.C99_ngather,
    ``Gandalf.C99_ngather_fails]
  for n in names do
    for a in ← collectAxioms n do
      unless a ∈ [``propext, ``Classical.choice, ``Quot.sound] do throwError "{n} uses {a}"

# Axioms of the theorems in MANIFEST.json

Output of `#print axioms`, grouped. Names are in the namespace `Verif.Props`.

## no axioms (3)

* C38_same_number
* C44_partial, C44_violated

## `propext` (10)

* C103_virial_violated
* C107_template_undefined
* C119_cut_violated
* C14_exact, C14_violated
* C22_violated
* C37_tail_violated, C37_lone_violated
* C88_callback_fails
* C92_structures

## `Quot.sound`, `propext` (109)

* C01_symmetric
* C02_accepts, C02_atoms_belong
* C05_direct
* C102_refused, C102_first, C102_exit, C102_reading_violated, C102_single_violated
* C107_none, C107_inside_partial, C107_exchanged_violated, C107_anywhere_violated, C107_missing_violated, C107_effect_violated, C107_indent_violated, C107_second_violated
* C119_tersoff_forces, C119_mixing_partial, C119_other, C119_one_violated, C119_mixed_violated
* C12_components
* C121_free, C121_fixed, C121_run_partial, C121_charges
* C122_off
* C123_densities, C123_inside, C123_absent_violated
* C125_file, C125_erase, C125_snaps
* C126_erase
* C13_increasing
* C14_file_partial
* C15_effective_unique
* C22_inside, C22_tbeam_violated, C22_kim_violated
* C26_brent
* C29_best, C29_apot
* C30_apot, C30_tab_partial, C30_out_of_bounds
* C33_monotone
* C34_multi
* C37_partial, C37_line, C37_unix, C37_fgets
* C38_range
* C44_nonEqDist, C44_violated_always
* C45_shift
* C46_single
* C47_ensemble, C47_last_weight
* C50_partial
* C51_first
* C58_rescale, C58_rescale_meam, C58_partial
* C60_punish
* C64_tabulated_violated
* C67_last_charge
* C70_table, C70_idxlen, C70_elstat_partial, C70_globals_violated, C70_elstat_violated
* C72_suited, C72_header
* C75_counts, C75_room
* C77_all
* C80_table, C80_lookup, C80_assigned
* C82_sse2
* C88_callback_outside, C88_callback_partial, C88_supported
* C91_fixed
* C92_no_angles, C92_resync, C92_resync_partial
* C94_user, C94_flat_violated
* C95_eigen_ends, C95_last_violated, C95_name_partial, C95_name_violated
* C96_kim, C96_max, C96_stiweb_accepted, C96_tersoff_accepted, C96_tersoffmod_accepted, C96_tersoff_partial, C96_min
* C97_layout, C97_numbers, C97_int, C97_decimal, C97_numbers_region, C97_count
* C98_rows

## `Classical.choice`, `Quot.sound`, `propext` (799)

* C01_file_order, C01_in_range, C01_injective, C01_surjective, C01_count, C01_no_truncation, C01_imd_agrees
* C02_configurations, C02_balanced, C02_atoms, C02_scatter
* C03_pair, C03_eam, C03_stiweb, C03_tersoff, C03_tersoffmod, C03_ang, C03_meam, C03_adp, C03_tbeam, C03_coulomb, C03_eam_coulomb, C03_adp_limit_partial, C03_adp_limit_violated
* C04_spline_ed
* C05_equidistant, C05_equidistant_knot, C05_equidistant_agree, C05_general, C05_general_knot, C05_general_agree
* C06_no_kinks_ed, C06_no_kinks_ne
* C07_same_second_derivatives, C07_same_values
* C08_spline_ne
* C09_adjacent, C09_brackets, C09_halves
* C10_lookup_partial, C10_violated_at_end, C10_slope_closed, C10_below_rejected
* C100_pair, C100_eam, C100_pair_objective, C100_eam_objective, C100_table_pair, C100_table_eam, C100_left_handed_violated
* C101_unique, C101_value, C101_exists, C101_fit, C101_eam_value, C101_eam_fit, C101_exact
* C102_end, C102_partial
* C103_accept, C103_codes, C103_evaluates, C103_partial, C103_forces_violated, C103_required_violated
* C104_pair, C104_eam, C104_written, C104_restart, C104_functions, C104_fit, C104_eam_fit, C104_accepted
* C105_index, C105_functions, C105_value, C105_none, C105_defined, C105_zero_partial, C105_bounds, C105_eopp_violated, C105_exp_violated, C105_jump_violated
* C106_value, C106_defined, C106_memory, C106_inplace, C106_exists, C106_fit, C106_phase, C106_phase_value, C106_phase_violated, C106_invariant_violated
* C107_globals, C107_letter_violated, C107_digit_violated, C107_short_violated, C107_cutoff, C107_result_partial
* C108_value, C108_defined, C108_memory, C108_inplace, C108_exists, C108_fit, C108_quadratic, C108_end, C108_gradient_partial, C108_gradient_violated, C108_jump_violated, C108_cutoff_violated, C108_invariant_violated
* C109_first, C109_start_partial, C109_large_violated, C109_lost_violated, C109_table_fit, C109_inplace, C109_apot_fit_partial
* C11_inside, C11_outside, C11_continuous
* C110_forces, C110_strain, C110_stress_partial, C110_objective_partial, C110_table_partial, C110_stress_violated
* C111_evaluation, C111_evaluation_eam, C111_fit, C111_fit_eam
* C112_energy, C112_forces, C112_stresses, C112_derivatives_partial, C112_objective_partial, C112_table_partial, C112_stress_violated
* C113_stiweb, C113_stiweb_objective, C113_stiweb_partial, C113_own_violated, C113_ang, C113_ang_objective, C113_ang_partial, C113_meam, C113_meam_objective
* C114_tersoff, C114_tersoff_objective, C114_tersoff_partial, C114_modified, C114_modified_objective, C114_modified_partial, C114_own_violated
* C115_crystal, C115_objective, C115_eam, C115_eam_objective, C115_tails, C115_program, C115_program_eam
* C116_crystal, C116_objective, C116_objective_partial, C116_program
* C117_crystal_partial, C117_objective_partial, C117_dipoles_partial, C117_tails, C117_program_partial, C117_dipoles_program, C117_tails
* C118_crystal_partial, C118_dipoles_partial, C118_objective_partial, C118_program_partial
* C119_stiweb, C119_stiweb_forces, C119_tersoff, C119_mixing_violated, C119_modified, C119_elstat, C119_functions_partial, C119_cut_partial
* C12_equidistant, C12_general, C12_update
* C120_control, C120_trial, C120_jumps, C120_selection, C120_end
* C121_changed_violated
* C122_file, C122_directions_partial, C122_change_partial, C122_end, C122_change_violated, C122_restart_violated
* C123_file_partial, C123_adp_partial, C123_tbeam_partial, C123_elstat_partial, C123_crystal, C123_rescale_violated, C123_elstat_violated
* C124_matrix, C124_stop, C124_symmetric, C124_begin
* C126_file_partial, C126_first_violated
* C13_layout, C13_exactly_free, C13_fits
* C15_fresh
* C16_pair, C16_eam
* C17_pair, C17_eam, C17_embed_inside, C17_embed_outside, C17_lists, C17_rescale_violated
* C18_pair, C18_pair_apot, C18_eam, C18_pair_nonneg, C18_pair_zero_iff, C18_eam_nonneg, C18_eam_zero_iff
* C19_pair, C19_eam, C19_needs_half_list
* C20_pair, C20_eam, C20_stiweb, C20_tersoff, C20_tersoffmod, C20_ang, C20_meam, C20_adp, C20_tbeam, C20_coulomb, C20_eam_coulomb, C20_punish_violated, C20_kim_force_violated, C20_kim_param_violated, C20_kim_partial
* C21_pair, C21_eam, C21_full, C21_super_pair, C21_super_eam, C21_super_full, C21_selfHalf_partial, C21_selfHalf_single, C21_selfHalf_violated
* C22_disjoint_partial, C22_pot_iff, C22_tabulated
* C23_complete, C23_entry, C23_overlap_iff, C23_half, C23_needs_cell
* C24_partial, C24_right_handed_partial, C24_violated
* C25_meam, C25_ang, C25_stiweb, C25_tersoff, C25_count_half, C25_count_full, C25_count_ang
* C26_linmin, C26_bracket, C26_vertex
* C27_linmin, C27_bracket, C27_brent
* C28_monotone, C28_free, C28_terminates, C28_terminates_real, C28_flag, C28_flag_ends
* C29_trials_violated, C29_tab_violated
* C30_violated
* C31_partial, C31_violated, C31_phase_violated
* C32_paired, C32_survivors, C32_partition_partial, C32_violated, C32_survival_violated
* C33_partial, C33_value_partial, C33_start_violated, C33_jump_violated
* C34_sorted, C34_outer_partial, C34_total, C34_interior_violated, C34_continuity_violated, C34_reads_violated
* C35_meaning, C35_equiv, C35_blank, C35_case, C35_order, C35_last, C35_bounds_partial, C35_decimal, C35_nan_violated, C35_wrap_violated, C35_long_violated, C35_kim_violated
* C36_released
* C38_mass, C38_unknown
* C39_total, C39_range, C39_vanishes, C39_smooth, C39_potential
* C40_cutoff, C40_force, C40_slope, C40_second, C40_dsf_second
* C41_value, C41_slope_partial, C41_slope_iff, C41_ms_violated, C41_buck_violated
* C42_consistent
* C43_partial, C43_rounding_violated
* C44_content_partial, C44_meam_violated
* C45_energy, C45_tables, C45_slopes, C45_partial, C45_range, C45_slopes_violated, C45_violated, C45_range_violated, C45_factor, C45_centre, C45_pair_slopes
* C46_symmetric, C46_quadratic, C46_derivatives, C46_params, C46_minimum
* C47_move, C47_downhill, C47_metropolis, C47_proposal, C47_sample
* C48_pair, C48_three_partial, C48_cutoff_violated, C48_repulsive_violated
* C49_base, C49_partial, C49_violated
* C50_violated, C50_global_violated, C50_global_omega_violated
* C51_system, C51_derivs_partial, C51_derivs_violated, C51_replace, C51_stationary
* C52_read3, C52_read4_partial, C52_roundtrip, C52_ang_violated, C52_meam_violated, C52_tbeam_violated, C52_invar_violated
* C53_forces, C53_balance, C53_stress, C53_functions, C53_lists
* C54_ang_forces, C54_ang_balance, C54_ang_stress, C54_meam_forces, C54_meam_balance, C54_meam_stress, C54_embed_inside, C54_embed_outside
* C55_partial, C55_code, C55_violated, C55_all_violated, C55_not_binomial
* C56_move_partial, C56_move_violated, C56_anneal_partial, C56_anneal_violated, C56_powell_partial, C56_powell_violated
* C57_metropolis, C57_outcomes, C57_accept_iff, C57_downhill
* C58_above, C58_violated
* C59_partial, C59_energy_violated, C59_energy_violated_general
* C60_pair_partial, C60_eam_partial, C60_violated, C60_punish_violated
* C61_forces, C61_balance, C61_stress, C61_mod_forces, C61_mod_balance, C61_mod_stress
* C62_lines, C62_partial, C62_mod_partial, C62_chi_violated, C62_omega_violated, C62_cutoff_violated, C62_mod_cutoff_violated
* C63_stiweb, C63_tersoff, C63_tersoffmod, C63_ang_partial, C63_ang_stress, C63_ang_unused, C63_meam_partial, C63_meam_limit, C63_ang_stress_violated, C63_meam_limit_violated, C63_unused_forces_violated
* C64_missing_pair, C64_rmin, C64_begin, C64_begin_attained, C64_neighbour, C64_columns, C64_meam_angle, C64_ang_angle_partial, C64_ang_angle_violated
* C65_pair, C65_eam
* C66_energy, C66_distortion_nonneg, C66_force, C66_balance, C66_strain, C66_stress_partial, C66_stress_violated, C66_objective
* C67_energy, C67_force, C67_stress, C67_balance, C67_objective, C67_no_memory, C67_neutral, C67_neutral_conf, C67_force_program, C67_stress_program, C67_self_dsf, C67_self_shift
* C68_terminates, C68_outcome, C68_self_consistent_partial, C68_others, C68_mixing_violated, C68_memory, C68_mixing_violated, C68_mixing_violated
* C69_energy, C69_error, C69_force_partial, C69_stress_partial, C69_program_smooth, C69_balance, C69_variation, C69_self_consistent_derivative, C69_opposite_sign_stationary, C69_kept, C69_gradient_violated, C69_neutral_violated, C69_gradient_violated, C69_neutral_violated, C69_gradient_violated
* C70_index_partial, C70_index_order_partial, C70_one_place_partial, C70_cp_start, C70_globals_partial, C70_mixed_up_violated, C70_unused_globals_violated, C70_fixed_chem_violated
* C71_lines, C71_analytic, C71_tabulated, C71_last, C71_analytic_force, C71_tabulated_force_violated, C71_sign_violated, C71_undefined_violated
* C72_analytic, C72_tabulated, C72_grid, C72_distortion_partial, C72_order_violated, C72_distortion_violated, C72_grid_violated
* C73_columns, C73_pair, C73_last, C73_type, C73_embed_partial, C73_embed_table, C73_angle_table, C73_end_violated, C73_end_example_violated, C73_embed_violated, C73_embed_example_violated, C73_angle_violated
* C74_pair, C74_eam, C74_shares, C74_stiweb_partial, C74_tersoff_partial, C74_tersoffmod_partial, C74_ang, C74_meam_partial, C74_adp, C74_tbeam, C74_elstat, C74_eamel, C74_angel, C74_kim_sums, C74_kim_partial, C74_kim_violated, C74_force_rows_partial, C74_force_rows_unused, C74_energy_rows, C74_stress_rows_partial, C74_rms_force_partial, C74_rms_energy, C74_rms_stress_partial, C74_unit_violated, C74_unused_violated, C74_force_rows_violated, C74_rms_violated, C74_rms_none
* C75_read, C75_reject, C75_unique, C75_accepted, C75_reference, C75_memory_partial, C75_confs, C75_lower_case_violated, C75_ignored_line_violated, C75_memory_violated
* C76_names_partial, C76_accept_partial, C76_default_partial, C76_first_line, C76_long_violated, C76_overwritten_violated
* C77_spheres, C77_exact, C77_inside_partial, C77_outside_partial, C77_real_sqrt, C77_outside_violated, C77_skew_violated, C77_zero_violated
* C78_powell, C78_anneal, C78_partial, C78_temp_partial, C78_evolve_partial, C78_read, C78_reread, C78_violated, C78_evolve_violated, C78_perfect_violated
* C79_energy, C79_objective, C79_no_memory, C79_force, C79_stress, C79_balance, C79_dipole_energy_partial, C79_dipole_error_partial, C79_dipole_force_partial, C79_dipole_stress_partial, C79_dipole_balance_partial, C79_dipole_energy_violated, C79_range_violated, C79_dipole_energy_violated
* C80_pseudo, C80_declared, C80_numbers_partial, C80_described_partial, C80_non_es, C80_coulomb, C80_born, C80_born_violated, C80_bjs_violated, C80_strmm_violated, C80_vpair, C80_vpair_violated, C80_gljm_violated, C80_stiweb, C80_lj, C80_morse, C80_genLj, C80_universal, C80_bjs, C80_poly5, C80_reduces, C80_gljm, C80_decay, C80_csw, C80_lj_genLj, C80_smooth, C80_rho_violated, C80_sheng, C80_lambda
* C81_meaning, C81_ready_partial, C81_weight_violated, C81_name_violated, C81_steps_violated, C81_dipole_violated, C81_dipole_static
* C82_range, C82_periodic, C82_certified, C82_unseeded, C82_index
* C83_pair, C83_bounded, C83_law
* C84_start_partial, C84_violated, C84_given
* C85_energy, C85_uncharged, C85_objective, C85_objective_partial, C85_unused, C85_parallel, C85_no_memory, C85_forces, C85_balance, C85_stress, C85_forces_program, C85_stress_program, C85_stress_violated, C85_stress_violated
* C86_energy, C86_difference, C86_forces, C86_tables, C86_slopes, C86_scaled, C86_partial, C86_range, C86_unchanged, C86_slopes_violated, C86_violated
* C87_energy, C87_densities, C87_objective, C87_objective_partial, C87_no_memory, C87_balance, C87_force_partial, C87_stress_partial, C87_force_violated, C87_gauge_entries
* C88_particles, C88_safe, C88_neighbours, C88_entries, C88_species_fail, C88_species_partial
* C89_table, C89_fitted, C89_global_violated, C89_handed_fails, C89_handed_partial, C89_written, C89_written_fails, C89_reread_fails, C89_reread_partial, C89_cutoff_safe, C89_cutoff_fails, C89_file_cutoff_violated, C89_ghost_violated, C89_first_partial
* C90_lines_partial, C90_total, C90_rim_outside, C90_rim_fails, C90_empty_violated
* C91_read, C91_read_globals, C91_chem, C91_elstat, C91_written, C91_same, C91_elstat_refused, C91_comments_violated, C91_reference_violated, C91_width_violated, C91_incomplete_violated, C91_elstat_bounds_violated, C91_accepted, C91_keywords
* C92_tables_partial, C92_unused_global, C92_share_partial, C92_nodes_missing, C92_resync_knots
* C93_restore, C93_meam, C93_still_partial, C93_eam_violated, C93_better_violated
* C94_bracket, C94_aim_partial, C94_step_partial, C94_ends, C94_zero_violated, C94_perfect_violated, C94_jump_violated, C94_exact_violated, C94_five_violated
* C95_start_partial, C95_overlooked_violated, C95_eigen_partial, C95_svd, C95_eigen_violated, C95_lines, C95_files
* C96_rcut, C96_symmetric, C96_rmin, C96_reach, C96_reach_partial, C96_found, C96_missing_violated, C96_stiweb_partial, C96_stiweb_violated, C96_fixed_violated, C96_tersoff_violated
* C97_read_partial, C97_columns_violated, C97_real_types_violated, C97_end_violated, C97_exponent
* C98_eam_file, C98_eam_partial, C98_eam_mean_partial, C98_adp_file, C98_adp_partial, C98_meam, C98_eamel_file, C98_eamel_partial, C98_tbeam_partial, C98_terminal, C98_weight_violated, C98_mean_violated, C98_second_band_violated, C98_terminal_violated
* C99_fresh, C99_no_history, C99_analytic, C99_elstat_general, C99_first_samples_zero, C99_general_violated, C99_right_slope_violated, C99_flat_end_violated

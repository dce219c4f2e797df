Marley.Props.C01_dump_load_partial: propext Classical.choice Quot.sound
Marley.Props.C01_dump_load_fails: propext Classical.choice Quot.sound
Marley.Props.C01_loaded_is_holdable: propext Classical.choice Quot.sound
Marley.Props.C02_escape_roundtrip: propext Classical.choice Quot.sound
Marley.Props.C02_escape_injective: propext
Marley.Props.C03_load_total: propext Classical.choice Quot.sound
Marley.Props.C03_load_accepts_only_objects: propext Classical.choice Quot.sound
Marley.Props.C03_load_rejects_non_objects: propext Classical.choice Quot.sound
Marley.Props.C03_load_exceptions_partial: propext Classical.choice Quot.sound
Marley.Props.C03_only_marley_error_fails: propext Classical.choice Quot.sound
Marley.Props.C04_number_reread_partial: propext Classical.choice Quot.sound
Marley.Props.C04_positive_exponent_fails: propext Classical.choice Quot.sound
Marley.Props.C04_nonfinite_rejected: propext Classical.choice Quot.sound
Marley.Props.C05_assign_then_lookup: propext Classical.choice Quot.sound
Marley.Props.C05_getters_non_object: propext Quot.sound
Marley.Props.C05_getters_missing_key: propext Classical.choice Quot.sound
Marley.Props.C05_getters_wrong_type: propext Classical.choice Quot.sound
Marley.Props.C05_get_bool_get_double: propext Classical.choice Quot.sound
Marley.Props.C05_get_long_partial: propext Classical.choice Quot.sound
Marley.Props.C05_get_long_fails: propext Classical.choice Quot.sound
Marley.Props.C05_get_string_partial: propext Classical.choice Quot.sound
Marley.Props.C05_get_string_fails: propext Classical.choice Quot.sound
Marley.Props.C05_get_object_partial: propext Classical.choice Quot.sound
Marley.Props.C05_get_object_fails: propext
Marley.Props.C06_event_ascii_roundtrip: propext Quot.sound
Marley.Props.C06_event_sequence_roundtrip: propext Classical.choice Quot.sound
Marley.Props.C07_too_few_particles: propext Quot.sound
Marley.Props.C07_particle_list_cut_short: propext Quot.sound
Marley.Props.C07_never_half_filled: propext Quot.sound
Marley.Props.C07_end_of_stream: propext
Marley.Props.C08_read_written: propext Classical.choice Quot.sound
Marley.Props.C08_hepevt_roundtrip_partial: propext Classical.choice Quot.sound
Marley.Props.C08_proton_roundtrip_fails: propext Classical.choice Quot.sound
Marley.Props.C08_electron_target_rejected: propext Classical.choice Quot.sound
Marley.Props.C09_permutation: propext Classical.choice Quot.sound
Marley.Props.C09_placement_partial: propext Classical.choice Quot.sound
Marley.Props.C09_heaviest_first_fails: propext Classical.choice Quot.sound
Marley.Props.C10_charge_sums: propext Classical.choice Quot.sound
Marley.Props.C10_total_charge_partial: propext Classical.choice Quot.sound
Marley.Props.C10_protons_fails: propext Classical.choice Quot.sound
Marley.Props.C100_elapsed: propext Classical.choice Quot.sound
Marley.Props.C100_estimated_partial: propext Classical.choice Quot.sound
Marley.Props.C100_unambiguous: propext Quot.sound
Marley.Props.C100_negative_violated: propext Classical.choice Quot.sound
Marley.Props.C101_small: propext Classical.choice Quot.sound
Marley.Props.C101_amount_partial: propext Classical.choice Quot.sound
Marley.Props.C101_running: propext
Marley.Props.C101_final_partial: propext Classical.choice Quot.sound
Marley.Props.C101_thousand_violated: propext Classical.choice Quot.sound
Marley.Props.C101_final_violated: propext Classical.choice Quot.sound
Marley.Props.C101_failed_violated: propext Classical.choice Quot.sound
Marley.Props.C102_shown: propext Classical.choice Quot.sound
Marley.Props.C102_numbers_partial: propext Classical.choice Quot.sound
Marley.Props.C102_log_partial: propext Classical.choice Quot.sound
Marley.Props.C102_update_partial: propext Classical.choice Quot.sound
Marley.Props.C102_inserted_partial: propext Classical.choice Quot.sound
Marley.Props.C102_when: propext Classical.choice Quot.sound
Marley.Props.C103_job: propext Classical.choice Quot.sound
Marley.Props.C103_info: propext Classical.choice Quot.sound
Marley.Props.C103_option_violated: propext Classical.choice Quot.sound
Marley.Props.C104_values_partial: propext Classical.choice Quot.sound
Marley.Props.C104_defined: propext Quot.sound
Marley.Props.C104_no_leak_partial: propext Classical.choice Quot.sound
Marley.Props.C104_leak_violated: propext Quot.sound
Marley.Props.C104_self_move_violated: propext
Marley.Props.C104_alias_violated: propext
Marley.Props.C104_index_violated: propext
Marley.Props.C105_th1: propext Classical.choice Quot.sound
Marley.Props.C105_th1_bins_partial: propext Classical.choice Quot.sound
Marley.Props.C105_tgraph_partial: propext Classical.choice Quot.sound
Marley.Props.C105_configured: propext Classical.choice Quot.sound
Marley.Props.C105_name_violated: propext Classical.choice Quot.sound
Marley.Props.C106_open: propext Classical.choice Quot.sound
Marley.Props.C106_run_partial: propext Classical.choice Quot.sound
Marley.Props.C106_text: propext Classical.choice Quot.sound
Marley.Props.C106_exception_partial: propext Classical.choice Quot.sound
Marley.Props.C106_read_partial: propext Classical.choice Quot.sound
Marley.Props.C106_read_text: propext Classical.choice Quot.sound
Marley.Props.C106_lost_violated: propext Classical.choice Quot.sound
Marley.Props.C107_continuation_partial: propext Classical.choice Quot.sound
Marley.Props.C107_same_partial: propext Classical.choice Quot.sound
Marley.Props.C107_restorable_partial: propext Classical.choice Quot.sound
Marley.Props.C107_generator_partial: propext Classical.choice Quot.sound
Marley.Props.C107_config_violated: propext Classical.choice Quot.sound
Marley.Props.C107_crash_violated: propext Classical.choice Quot.sound
Marley.Props.C108_summary_partial: propext Classical.choice Quot.sound
Marley.Props.C108_refused: propext Classical.choice Quot.sound
Marley.Props.C108_text_file_partial: propext Classical.choice Quot.sound
Marley.Props.C108_root_file_partial: propext Classical.choice Quot.sound
Marley.Props.C108_unreadable: propext Classical.choice Quot.sound
Marley.Props.C108_missing: propext Classical.choice Quot.sound
Marley.Props.C108_print_partial: propext Classical.choice Quot.sound
Marley.Props.C108_self_violated: propext Classical.choice Quot.sound
Marley.Props.C108_spin_violated: propext Classical.choice Quot.sound
Marley.Props.C109_table_partial: propext Classical.choice Quot.sound
Marley.Props.C109_energies: propext Classical.choice Quot.sound
Marley.Props.C109_settings: propext Classical.choice Quot.sound
Marley.Props.C109_refused: propext Classical.choice Quot.sound
Marley.Props.C109_rounded_partial: propext Classical.choice Quot.sound
Marley.Props.C109_last_violated: propext Classical.choice Quot.sound
Marley.Props.C109_steps_violated: propext Classical.choice Quot.sound
Marley.Props.C11_event_json_roundtrip: propext Classical.choice Quot.sound
Marley.Props.C11_malformed_rejected: propext Classical.choice Quot.sound
Marley.Props.C11_error_kind_partial: propext Classical.choice Quot.sound
Marley.Props.C11_missing_parity_fails: propext Classical.choice Quot.sound
Marley.Props.C110_gamma: propext Classical.choice Quot.sound
Marley.Props.C110_pole: propext Classical.choice Quot.sound
Marley.Props.C110_reflection: propext Classical.choice Quot.sound
Marley.Props.C110_conj: propext Classical.choice Quot.sound
Marley.Props.C110_value_partial: propext Classical.choice Quot.sound
Marley.Props.C110_charge: propext Classical.choice Quot.sound
Marley.Props.C110_neutral: propext Classical.choice Quot.sound
Marley.Props.C110_heavy_violated: propext Classical.choice Quot.sound
Marley.Props.C110_nonneg: propext Classical.choice Quot.sound
Marley.Props.C110_total: propext Classical.choice Quot.sound
Marley.Props.C110_factor: propext Classical.choice Quot.sound
Marley.Props.C110_combined: propext Classical.choice Quot.sound
Marley.Props.C110_cross_section_partial: propext Classical.choice Quot.sound
Marley.Props.C110_total_defined: propext Classical.choice Quot.sound
Marley.Props.C110_total_positive: propext Classical.choice Quot.sound
Marley.Props.C110_choose: propext Classical.choice Quot.sound
Marley.Props.C111_report: propext Classical.choice Quot.sound
Marley.Props.C111_report_spins_partial: propext Classical.choice Quot.sound
Marley.Props.C111_spins_violated: propext Classical.choice Quot.sound
Marley.Props.C111_table: propext Classical.choice Quot.sound
Marley.Props.C111_table_errors: propext Quot.sound
Marley.Props.C111_units_violated: propext Classical.choice Quot.sound
Marley.Props.C111_target: propext Quot.sound
Marley.Props.C111_target_distinct: propext Classical.choice Quot.sound
Marley.Props.C111_target_violated: propext Classical.choice Quot.sound
Marley.Props.C111_decay: propext Classical.choice Quot.sound
Marley.Props.C111_decay_built: propext Classical.choice Quot.sound
Marley.Props.C111_decay_unknown: propext Classical.choice Quot.sound
Marley.Props.C112_symbol: propext Quot.sound
Marley.Props.C112_symbol_distinct: propext Quot.sound
Marley.Props.C112_describe: propext Classical.choice Quot.sound
Marley.Props.C112_describe_distinct: propext Classical.choice Quot.sound
Marley.Props.C112_describe_excited: propext Quot.sound
Marley.Props.C112_describe_electron: propext Quot.sound
Marley.Props.C112_describe_built: propext Classical.choice Quot.sound
Marley.Props.C113_neutrinos: propext Classical.choice Quot.sound
Marley.Props.C113_no_events: propext Classical.choice Quot.sound
Marley.Props.C113_incomplete: propext Classical.choice Quot.sound
Marley.Props.C113_hepevt_violated: propext Classical.choice Quot.sound
Marley.Props.C113_angles: propext Classical.choice Quot.sound
Marley.Props.C113_forward_violated: propext Classical.choice Quot.sound
Marley.Props.C113_particles_partial: propext Classical.choice Quot.sound
Marley.Props.C113_ascending_violated: propext Classical.choice Quot.sound
Marley.Props.C113_excitation: propext Classical.choice Quot.sound
Marley.Props.C113_reconstruction: propext Classical.choice Quot.sound
Marley.Props.C113_resolution: propext Classical.choice Quot.sound
Marley.Props.C113_channels: propext Classical.choice Quot.sound
Marley.Props.C113_print_partial: propext Classical.choice Quot.sound
Marley.Props.C113_text_file: propext Classical.choice Quot.sound
Marley.Props.C113_root_file: propext Classical.choice Quot.sound
Marley.Props.C114_primaries: propext Quot.sound
Marley.Props.C114_run: propext Classical.choice Quot.sound
Marley.Props.C114_number: propext Classical.choice Quot.sound
Marley.Props.C114_program: propext Classical.choice Quot.sound
Marley.Props.C114_conserved: propext Classical.choice Quot.sound
Marley.Props.C114_evgen: propext Quot.sound
Marley.Props.C114_read_again: propext Classical.choice Quot.sound
Marley.Props.C114_efr: propext Classical.choice Quot.sound
Marley.Props.C114_efr_ascii: propext Classical.choice Quot.sound
Marley.Props.C115_handler: propext Classical.choice Quot.sound
Marley.Props.C115_value: propext Classical.choice Quot.sound
Marley.Props.C115_messages: propext Classical.choice Quot.sound
Marley.Props.C115_function: propext Classical.choice Quot.sound
Marley.Props.C115_not_finite: propext Classical.choice Quot.sound
Marley.Props.C116_members: propext Classical.choice Quot.sound
Marley.Props.C116_pointers: propext Classical.choice Quot.sound
Marley.Props.C116_compare: propext Quot.sound
Marley.Props.C116_range: propext Classical.choice Quot.sound
Marley.Props.C116_pointer_range: propext Classical.choice Quot.sound
Marley.Props.C116_null: propext Classical.choice Quot.sound
Marley.Props.C117_lines_partial: propext Quot.sound
Marley.Props.C117_distinct_partial: propext Classical.choice Quot.sound
Marley.Props.C117_spin_violated: propext Quot.sound
Marley.Props.C118_next: propext Classical.choice Quot.sound
Marley.Props.C118_all: propext Classical.choice Quot.sound
Marley.Props.C118_lines: propext
Marley.Props.C118_reaction_files: propext
Marley.Props.C118_empty_lines: propext
Marley.Props.C119_continued: propext Classical.choice Quot.sound
Marley.Props.C119_truncated: propext Classical.choice Quot.sound
Marley.Props.C119_dump: propext Classical.choice Quot.sound
Marley.Props.C119_resume: propext Classical.choice Quot.sound
Marley.Props.C12_ownership: propext Classical.choice Quot.sound
Marley.Props.C12_copy_is_independent: propext Classical.choice Quot.sound
Marley.Props.C12_self_assignment_fails: propext Classical.choice Quot.sound
Marley.Props.C12_failed_read_leaks: propext Classical.choice Quot.sound
Marley.Props.C120_load_partial: propext Classical.choice Quot.sound
Marley.Props.C120_unique: propext Classical.choice Quot.sound
Marley.Props.C120_members: propext Classical.choice Quot.sound
Marley.Props.C120_comment_violated: propext Classical.choice Quot.sound
Marley.Props.C120_number_violated: propext Classical.choice Quot.sound
Marley.Props.C121_ascii_partial: propext Classical.choice Quot.sound
Marley.Props.C121_one_digit_partial: propext Classical.choice Quot.sound
Marley.Props.C121_newline: propext Classical.choice Quot.sound
Marley.Props.C121_charge_violated: propext Classical.choice Quot.sound
Marley.Props.C121_hepevt_partial: propext Classical.choice Quot.sound
Marley.Props.C121_json: propext Classical.choice Quot.sound
Marley.Props.C122_density: propext Classical.choice Quot.sound
Marley.Props.C122_searched: propext Classical.choice Quot.sound
Marley.Props.C122_ends: propext Classical.choice Quot.sound
Marley.Props.C122_endless: propext Classical.choice Quot.sound
Marley.Props.C122_underestimated: propext Classical.choice Quot.sound
Marley.Props.C122_estimate_violated: propext Classical.choice Quot.sound
Marley.Props.C123_weighted: propext Classical.choice Quot.sound
Marley.Props.C123_unweighted: propext Classical.choice Quot.sound
Marley.Props.C124_uniform: propext Classical.choice Quot.sound
Marley.Props.C124_isotropic: propext Classical.choice Quot.sound
Marley.Props.C124_axis: propext Classical.choice Quot.sound
Marley.Props.C124_projectile: propext Classical.choice Quot.sound
Marley.Props.C124_decay: propext Classical.choice Quot.sound
Marley.Props.C124_in_flight: propext Classical.choice Quot.sound
Marley.Props.C125_distribution: propext Classical.choice Quot.sound
Marley.Props.C125_accuracy: propext Classical.choice Quot.sound
Marley.Props.C126_nuclear: propext Classical.choice Quot.sound
Marley.Props.C126_electron: propext Classical.choice Quot.sound
Marley.Props.C126_ejectile: propext Classical.choice Quot.sound
Marley.Props.C127_route: propext Classical.choice Quot.sound
Marley.Props.C127_follows: propext Classical.choice Quot.sound
Marley.Props.C127_law: propext Classical.choice Quot.sound
Marley.Props.C128_transition: propext Classical.choice Quot.sound
Marley.Props.C128_event: propext Classical.choice Quot.sound
Marley.Props.C128_spin: propext Classical.choice Quot.sound
Marley.Props.C129_channel: propext Classical.choice Quot.sound
Marley.Props.C129_decay: propext Classical.choice Quot.sound
Marley.Props.C129_spin_fragment: propext Classical.choice Quot.sound
Marley.Props.C129_spin_gamma: propext Classical.choice Quot.sound
Marley.Props.C13_grid_points_partial: propext Classical.choice Quot.sound
Marley.Props.C13_rule_between_points: propext Classical.choice Quot.sound
Marley.Props.C13_linear_between_neighbours: propext Classical.choice Quot.sound
Marley.Props.C13_constant_rule: propext Classical.choice Quot.sound
Marley.Props.C13_constant_rule_fails: propext Classical.choice Quot.sound
Marley.Props.C13_rounded_partial: propext Classical.choice Quot.sound
Marley.Props.C13_rounded_points_partial: propext Classical.choice Quot.sound
Marley.Props.C13_negative_violated: propext Classical.choice Quot.sound
Marley.Props.C130_bound: propext Classical.choice Quot.sound
Marley.Props.C130_compound: propext Classical.choice Quot.sound
Marley.Props.C131_reaction: propext Classical.choice Quot.sound
Marley.Props.C131_event: propext Classical.choice Quot.sound
Marley.Props.C131_single: propext Classical.choice Quot.sound
Marley.Props.C132_reaction: propext Classical.choice Quot.sound
Marley.Props.C132_event: propext Classical.choice Quot.sound
Marley.Props.C132_independent: propext Classical.choice Quot.sound
Marley.Props.C132_sequence: propext Classical.choice Quot.sound
Marley.Props.C132_renews: propext Classical.choice Quot.sound
Marley.Props.C132_run: propext Classical.choice Quot.sound
Marley.Props.C133_decays: propext Classical.choice Quot.sound
Marley.Props.C133_nuclear: propext Classical.choice Quot.sound
Marley.Props.C133_electron: propext Classical.choice Quot.sound
Marley.Props.C133_source: propext Classical.choice Quot.sound
Marley.Props.C133_run: propext Classical.choice Quot.sound
Marley.Props.C133_marley: propext Classical.choice Quot.sound
Marley.Props.C133_replay: propext Classical.choice Quot.sound
Marley.Props.C134_sampling: propext Classical.choice Quot.sound
Marley.Props.C134_sources: propext Classical.choice Quot.sound
Marley.Props.C134_mono: propext Classical.choice Quot.sound
Marley.Props.C134_fermiDirac: propext Classical.choice Quot.sound
Marley.Props.C134_betaFit: propext Classical.choice Quot.sound
Marley.Props.C134_decayAtRest: propext Classical.choice Quot.sound
Marley.Props.C134_grid: propext Classical.choice Quot.sound
Marley.Props.C134_table: propext Classical.choice Quot.sound
Marley.Props.C134_nuclear: propext Classical.choice Quot.sound
Marley.Props.C134_electron: propext Classical.choice Quot.sound
Marley.Props.C134_gammas: propext Classical.choice Quot.sound
Marley.Props.C134_ends_partial: propext Classical.choice Quot.sound
Marley.Props.C134_marley_partial: propext Classical.choice Quot.sound
Marley.Props.C134_decays: propext Classical.choice Quot.sound
Marley.Props.C134_compound_partial: propext Classical.choice Quot.sound
Marley.Props.C134_not_surely: propext Classical.choice Quot.sound
Marley.Props.C135_stages: propext Classical.choice Quot.sound
Marley.Props.C135_mean: propext Classical.choice Quot.sound
Marley.Props.C135_chain: propext Classical.choice Quot.sound
Marley.Props.C135_event: propext Classical.choice Quot.sound
Marley.Props.C135_path: propext Classical.choice Quot.sound
Marley.Props.C135_motion: propext Classical.choice Quot.sound
Marley.Props.C135_step: propext Classical.choice Quot.sound
Marley.Props.C135_memoryless: propext Classical.choice Quot.sound
Marley.Props.C135_course: propext Classical.choice Quot.sound
Marley.Props.C135_complete: propext Classical.choice Quot.sound
Marley.Props.C135_law: propext Classical.choice Quot.sound
Marley.Props.C135_emitted: propext Classical.choice Quot.sound
Marley.Props.C136_binomial: propext Classical.choice Quot.sound
Marley.Props.C136_counts: propext Classical.choice Quot.sound
Marley.Props.C136_completed: propext Classical.choice Quot.sound
Marley.Props.C136_frequency: propext Classical.choice Quot.sound
Marley.Props.C136_rates: propext Classical.choice Quot.sound
Marley.Props.C136_multinomial: propext Classical.choice Quot.sound
Marley.Props.C136_histogram: propext Classical.choice Quot.sound
Marley.Props.C136_mean: propext Classical.choice Quot.sound
Marley.Props.C136_variance: propext Classical.choice Quot.sound
Marley.Props.C136_waiting: propext Classical.choice Quot.sound
Marley.Props.C136_unlimited: propext Classical.choice Quot.sound
Marley.Props.C136_unlimited_sum: propext Classical.choice Quot.sound
Marley.Props.C136_share: propext Classical.choice Quot.sound
Marley.Props.C136_strong: propext Classical.choice Quot.sound
Marley.Props.C136_strong_rates: propext Classical.choice Quot.sound
Marley.Props.C136_average: propext Classical.choice Quot.sound
Marley.Props.C136_average_bounded: propext Classical.choice Quot.sound
Marley.Props.C136_normal: propext Classical.choice Quot.sound
Marley.Props.C136_errors: propext Classical.choice Quot.sound
Marley.Props.C14_left_of_range: propext Classical.choice Quot.sound
Marley.Props.C14_right_of_range: propext Classical.choice Quot.sound
Marley.Props.C14_inside_range: propext Classical.choice Quot.sound
Marley.Props.C14_too_few_points: propext Classical.choice Quot.sound
Marley.Props.C14_continue_constant_right_fails: propext Classical.choice Quot.sound
Marley.Props.C15_constructor_partial: propext Classical.choice Quot.sound
Marley.Props.C15_constructor_unordered_fails: propext Classical.choice Quot.sound
Marley.Props.C15_insert: propext Classical.choice Quot.sound
Marley.Props.C15_insert_all: propext Classical.choice Quot.sound
Marley.Props.C16_state_text: propext Quot.sound
Marley.Props.C16_same_seed: propext Classical.choice Quot.sound
Marley.Props.C16_restored_partial: propext Classical.choice Quot.sound
Marley.Props.C16_restored_violated: propext Classical.choice Quot.sound
Marley.Props.C17_seeds_partial: propext
Marley.Props.C17_violated: propext Classical.choice Quot.sound
Marley.Props.C18_rejection_partial: propext Classical.choice Quot.sound
Marley.Props.C18_range_exact: propext Classical.choice Quot.sound
Marley.Props.C18_range_violated: propext Classical.choice Quot.sound
Marley.Props.C18_positive_violated: propext Classical.choice Quot.sound
Marley.Props.C19_weights: propext Classical.choice Quot.sound
Marley.Props.C19_choice_partial: propext Classical.choice Quot.sound
Marley.Props.C19_probability: propext Classical.choice Quot.sound
Marley.Props.C19_zero_violated: propext Classical.choice Quot.sound
Marley.Props.C19_rounded_partial: propext Classical.choice Quot.sound
Marley.Props.C19_doubles_partial: propext Classical.choice Quot.sound
Marley.Props.C19_last_violated: propext Classical.choice Quot.sound
Marley.Props.C20_density: propext Classical.choice Quot.sound
Marley.Props.C20_total: propext Classical.choice Quot.sound
Marley.Props.C20_sign: propext Classical.choice Quot.sound
Marley.Props.C20_normalised_partial: propext Classical.choice Quot.sound
Marley.Props.C20_weight_flux_violated: propext Classical.choice Quot.sound
Marley.Props.C21_rejected: propext Classical.choice Quot.sound
Marley.Props.C21_chosen: propext Classical.choice Quot.sound
Marley.Props.C21_throws_iff: propext Classical.choice Quot.sound
Marley.Props.C22_range: propext Classical.choice Quot.sound
Marley.Props.C22_terminates: propext Classical.choice Quot.sound
Marley.Props.C22_bound_exists: propext Classical.choice Quot.sound
Marley.Props.C22_crossing: propext Classical.choice Quot.sound
Marley.Props.C22_rounded_range: propext Classical.choice Quot.sound
Marley.Props.C22_rounded_terminates_partial: propext Classical.choice Quot.sound
Marley.Props.C22_rounded_crossing_partial: propext Classical.choice Quot.sound
Marley.Props.C22_doubles_partial: propext Classical.choice Quot.sound
Marley.Props.C22_endless_violated: propext Classical.choice Quot.sound
Marley.Props.C23_closest: propext Classical.choice Quot.sound
Marley.Props.C23_closest_built: propext Classical.choice Quot.sound
Marley.Props.C23_no_levels: propext Quot.sound
Marley.Props.C23_rounded: propext Classical.choice Quot.sound
Marley.Props.C23_rounded_distance_partial: propext Classical.choice Quot.sound
Marley.Props.C23_doubles_partial: propext Classical.choice Quot.sound
Marley.Props.C23_rounding_violated: propext Classical.choice Quot.sound
Marley.Props.C24_sorted_and_complete: propext Quot.sound
Marley.Props.C24_references: propext Classical.choice Quot.sound
Marley.Props.C24_add_gamma: propext Quot.sound
Marley.Props.C24_equal_energies: propext Quot.sound
Marley.Props.C25_cascade: propext Classical.choice Quot.sound
Marley.Props.C25_null_end_level: propext Classical.choice Quot.sound
Marley.Props.C26_round_trip_partial: propext Classical.choice Quot.sound
Marley.Props.C26_equal_energies_fails: propext Classical.choice Quot.sound
Marley.Props.C26_upward_gamma_fails: propext Classical.choice Quot.sound
Marley.Props.C27_spin_parity_string_fails: propext Quot.sound
Marley.Props.C27_every_half_integer_spin_wrong: propext Classical.choice Quot.sound
Marley.Props.C27_integer_spin_partial: propext Classical.choice Quot.sound
Marley.Props.C27_strings_distinct: propext Classical.choice Quot.sound
Marley.Props.C28_nucleus_code: propext Classical.choice Quot.sound
Marley.Props.C28_nucleus_code_injective: propext Classical.choice Quot.sound
Marley.Props.C29_neutrino_names: propext Classical.choice Quot.sound
Marley.Props.C29_coulomb_mode_names: propext
Marley.Props.C29_element_symbols: propext Quot.sound
Marley.Props.C29_nucid_roundtrip: propext Classical.choice Quot.sound
Marley.Props.C29_nucid_symbol: propext Quot.sound
Marley.Props.C30_split_string: propext Classical.choice Quot.sound
Marley.Props.C30_trim: propext Quot.sound
Marley.Props.C30_pad: propext Quot.sound
Marley.Props.C31_conserved: propext Classical.choice Quot.sound
Marley.Props.C31_projectiles: propext Classical.choice Quot.sound
Marley.Props.C31_refused: propext Classical.choice Quot.sound
Marley.Props.C31_members_violated: propext Classical.choice Quot.sound
Marley.Props.C32_lines_partial: propext Classical.choice Quot.sound
Marley.Props.C32_order_enforced: propext Classical.choice Quot.sound
Marley.Props.C32_increasing: propext Classical.choice Quot.sound
Marley.Props.C32_last_line_violated: propext Classical.choice Quot.sound
Marley.Props.C33_matched: propext Classical.choice Quot.sound
Marley.Props.C33_throws_iff_shared: propext Classical.choice Quot.sound
Marley.Props.C33_no_scheme: propext Classical.choice Quot.sound
Marley.Props.C33_wrong_scheme: propext Classical.choice Quot.sound
Marley.Props.C33_empty_scheme_violated: propext Classical.choice Quot.sound
Marley.Props.C34_conserves: propext Classical.choice Quot.sound
Marley.Props.C35_threshold: propext Classical.choice Quot.sound
Marley.Props.C35_level: propext Classical.choice Quot.sound
Marley.Props.C35_below_threshold: propext Classical.choice Quot.sound
Marley.Props.C36_accessible: propext Classical.choice Quot.sound
Marley.Props.C36_weights_partial: propext Classical.choice Quot.sound
Marley.Props.C36_event: propext Classical.choice Quot.sound
Marley.Props.C36_violated: propext Classical.choice Quot.sound
Marley.Props.C37_sum_partial: propext Classical.choice Quot.sound
Marley.Props.C37_inaccessible: propext Classical.choice Quot.sound
Marley.Props.C37_nonneg: propext Classical.choice Quot.sound
Marley.Props.C37_zero: propext Classical.choice Quot.sound
Marley.Props.C37_unsorted_violated: propext Classical.choice Quot.sound
Marley.Props.C38_spin_parity: propext Classical.choice Quot.sound
Marley.Props.C38_weights: propext Classical.choice Quot.sound
Marley.Props.C39_one: propext Classical.choice Quot.sound
Marley.Props.C39_fermi: propext Classical.choice Quot.sound
Marley.Props.C39_ema_value: propext Classical.choice Quot.sound
Marley.Props.C39_ema: propext Classical.choice Quot.sound
Marley.Props.C39_combined: propext Classical.choice Quot.sound
Marley.Props.C40_integral: propext Classical.choice Quot.sound
Marley.Props.C40_nonneg: propext Classical.choice Quot.sound
Marley.Props.C40_positive: propext Classical.choice Quot.sound
Marley.Props.C41_bound: propext Classical.choice Quot.sound
Marley.Props.C41_attained: propext Classical.choice Quot.sound
Marley.Props.C42_density: propext Classical.choice Quot.sound
Marley.Props.C43_mass: propext Classical.choice Quot.sound
Marley.Props.C43_species: propext Classical.choice Quot.sound
Marley.Props.C43_spectra: propext Classical.choice Quot.sound
Marley.Props.C43_density: propext Classical.choice Quot.sound
Marley.Props.C44_not_neutrino: propext Classical.choice Quot.sound
Marley.Props.C44_species: propext Classical.choice Quot.sound
Marley.Props.C44_table_accepted: propext Classical.choice Quot.sound
Marley.Props.C44_table_stored: propext Classical.choice Quot.sound
Marley.Props.C44_vectors: propext Classical.choice Quot.sound
Marley.Props.C44_range_partial: propext Classical.choice Quot.sound
Marley.Props.C44_ordered_vectors: propext Classical.choice Quot.sound
Marley.Props.C44_extrapolation_violated: propext Classical.choice Quot.sound
Marley.Props.C44_unordered_violated: propext Classical.choice Quot.sound
Marley.Props.C44_zero_density_violated: propext Classical.choice Quot.sound
Marley.Props.C45_dominated_partial: propext Classical.choice Quot.sound
Marley.Props.C45_violated: propext Classical.choice Quot.sound
Marley.Props.C45_distribution_violated: propext Classical.choice Quot.sound
Marley.Props.C46_boost_keeps_mass_shell: propext Classical.choice Quot.sound
Marley.Props.C46_boost_keeps_products: propext Classical.choice Quot.sound
Marley.Props.C46_boost_velocity: propext Classical.choice Quot.sound
Marley.Props.C46_zero_velocity: propext Classical.choice Quot.sound
Marley.Props.C46_superluminal_rejected: propext Classical.choice Quot.sound
Marley.Props.C46_rotate: propext Classical.choice Quot.sound
Marley.Props.C47_forbidden: propext Classical.choice Quot.sound
Marley.Props.C47_conserves: propext Classical.choice Quot.sound
Marley.Props.C48_rotation: propext Classical.choice Quot.sound
Marley.Props.C48_direction_exists: propext Classical.choice Quot.sound
Marley.Props.C48_null_rejected: propext Classical.choice Quot.sound
Marley.Props.C49_rotated: propext Classical.choice Quot.sound
Marley.Props.C49_projectile_direction: propext Classical.choice Quot.sound
Marley.Props.C49_products: propext Classical.choice Quot.sound
Marley.Props.C49_configured: propext Classical.choice Quot.sound
Marley.Props.C49_at_rest: propext Classical.choice Quot.sound
Marley.Props.C49_constructor_violated: propext Classical.choice Quot.sound
Marley.Props.C50_kept: propext Classical.choice Quot.sound
Marley.Props.C50_charge: propext Classical.choice Quot.sound
Marley.Props.C50_nucleons_partial: propext Classical.choice Quot.sound
Marley.Props.C50_products: propext Classical.choice Quot.sound
Marley.Props.C51_zero: propext Classical.choice Quot.sound
Marley.Props.C51_negative: propext Classical.choice Quot.sound
Marley.Props.C51_not_ion: propext Classical.choice Quot.sound
Marley.Props.C51_ground_partial: propext Classical.choice Quot.sound
Marley.Props.C51_inconsistent: propext Classical.choice Quot.sound
Marley.Props.C51_no_level: propext Classical.choice Quot.sound
Marley.Props.C51_final: propext Classical.choice Quot.sound
Marley.Props.C51_twice_partial: propext Classical.choice Quot.sound
Marley.Props.C51_twice_violated: propext Classical.choice Quot.sound
Marley.Props.C52_offered_partial: propext Classical.choice Quot.sound
Marley.Props.C52_once: propext Classical.choice Quot.sound
Marley.Props.C52_energies_partial: propext Classical.choice Quot.sound
Marley.Props.C52_positive_partial: propext Classical.choice Quot.sound
Marley.Props.C52_positive_violated: propext Classical.choice Quot.sound
Marley.Props.C52_error: propext Classical.choice Quot.sound
Marley.Props.C52_decay_partial: propext Classical.choice Quot.sound
Marley.Props.C52_products_partial: propext Classical.choice Quot.sound
Marley.Props.C53_discrete_partial: propext Classical.choice Quot.sound
Marley.Props.C53_discrete_closed: propext Classical.choice Quot.sound
Marley.Props.C53_continuum: propext Classical.choice Quot.sound
Marley.Props.C53_outside: propext Classical.choice Quot.sound
Marley.Props.C53_sampled: propext Classical.choice Quot.sound
Marley.Props.C53_discrete_violated: propext Classical.choice Quot.sound
Marley.Props.C54_discrete_partial: propext Classical.choice Quot.sound
Marley.Props.C54_range: propext Classical.choice Quot.sound
Marley.Props.C54_closed: propext Classical.choice Quot.sound
Marley.Props.C54_continuum: propext Classical.choice Quot.sound
Marley.Props.C54_outside: propext Classical.choice Quot.sound
Marley.Props.C54_sampled: propext Classical.choice Quot.sound
Marley.Props.C54_discrete_violated: propext Classical.choice Quot.sound
Marley.Props.C55_stable: propext Classical.choice Quot.sound
Marley.Props.C55_others_kept: propext Classical.choice Quot.sound
Marley.Props.C55_terminates: propext Classical.choice Quot.sound
Marley.Props.C55_models_once: propext Classical.choice Quot.sound
Marley.Props.C55_models_distinct: propext Classical.choice Quot.sound
Marley.Props.C55_schemes_distinct: propext Classical.choice Quot.sound
Marley.Props.C55_hydrogen_violated: propext Classical.choice Quot.sound
Marley.Props.C56_add_partial: propext Classical.choice Quot.sound
Marley.Props.C56_emplace: propext Classical.choice Quot.sound
Marley.Props.C56_existing_violated: propext Classical.choice Quot.sound
Marley.Props.C57_complete_partial: propext Classical.choice Quot.sound
Marley.Props.C57_succeeds: propext Classical.choice Quot.sound
Marley.Props.C57_bad_parity: propext Classical.choice Quot.sound
Marley.Props.C57_failed_load_violated: propext Quot.sound
Marley.Props.C57_malformed_violated: propext Classical.choice Quot.sound
Marley.Props.C58_separation_energy: propext Classical.choice Quot.sound
Marley.Props.C58_separation_energy_codes: propext Classical.choice Quot.sound
Marley.Props.C58_estimates_not_allowed: propext Classical.choice Quot.sound
Marley.Props.C59_unbound_threshold: propext Classical.choice Quot.sound
Marley.Props.C59_unknown_fragment: propext Classical.choice Quot.sound
Marley.Props.C60_accepted: propext Classical.choice Quot.sound
Marley.Props.C60_particles_partial: propext Classical.choice Quot.sound
Marley.Props.C60_unknown_particle_violated: propext Classical.choice Quot.sound
Marley.Props.C60_atoms: propext Classical.choice Quot.sound
Marley.Props.C60_same_by_numbers_partial: propext Classical.choice Quot.sound
Marley.Props.C60_hydrogen_violated: propext Classical.choice Quot.sound
Marley.Props.C61_fresh_partial: propext Classical.choice Quot.sound
Marley.Props.C61_resumed_partial: propext Classical.choice Quot.sound
Marley.Props.C61_state_partial: propext Classical.choice Quot.sound
Marley.Props.C61_unwritable_violated: propext Classical.choice Quot.sound
Marley.Props.C62_error_keeps: propext Classical.choice Quot.sound
Marley.Props.C62_resume_partial: propext Classical.choice Quot.sound
Marley.Props.C62_keys_violated: propext Classical.choice Quot.sound
Marley.Props.C62_two_files_violated: propext Classical.choice Quot.sound
Marley.Props.C63_names: propext Classical.choice Quot.sound
Marley.Props.C63_modes: propext Classical.choice Quot.sound
Marley.Props.C63_kept: propext Classical.choice Quot.sound
Marley.Props.C64_run_partial: propext Classical.choice Quot.sound
Marley.Props.C64_count_partial: propext Classical.choice Quot.sound
Marley.Props.C64_sessions_partial: propext Classical.choice Quot.sound
Marley.Props.C64_job_partial: propext Classical.choice Quot.sound
Marley.Props.C64_exception_partial: propext Classical.choice Quot.sound
Marley.Props.C64_beside_violated: propext Classical.choice Quot.sound
Marley.Props.C65_ascii_partial: propext Classical.choice Quot.sound
Marley.Props.C65_hepevt_partial: propext Classical.choice Quot.sound
Marley.Props.C65_json_partial: propext Classical.choice Quot.sound
Marley.Props.C65_run_partial: propext Classical.choice Quot.sound
Marley.Props.C65_hepevt_xsec_violated: propext Classical.choice Quot.sound
Marley.Props.C65_json_again_violated: propext Classical.choice Quot.sound
Marley.Props.C65_empty_violated: propext Classical.choice Quot.sound
Marley.Props.C66_off_partial: propext Classical.choice Quot.sound
Marley.Props.C66_exact_partial: propext Classical.choice Quot.sound
Marley.Props.C66_open_partial: propext Classical.choice Quot.sound
Marley.Props.C66_success_violated: propext Classical.choice Quot.sound
Marley.Props.C66_parse_violated: propext Classical.choice Quot.sound
Marley.Props.C67_nuclear: propext Classical.choice Quot.sound
Marley.Props.C67_all_partial: propext Classical.choice Quot.sound
Marley.Props.C67_key: propext Classical.choice Quot.sound
Marley.Props.C67_duplicates_violated: propext Classical.choice Quot.sound
Marley.Props.C67_lost_violated: propext Classical.choice Quot.sound
Marley.Props.C68_rules_partial: propext Classical.choice Quot.sound
Marley.Props.C68_codes_violated: propext Classical.choice Quot.sound
Marley.Props.C68_meaning_violated: propext Classical.choice Quot.sound
Marley.Props.C69_density: propext Classical.choice Quot.sound
Marley.Props.C69_bins_partial: propext Classical.choice Quot.sound
Marley.Props.C69_zero_edge: propext Classical.choice Quot.sound
Marley.Props.C69_rejected: propext Classical.choice Quot.sound
Marley.Props.C70_accepted: propext Classical.choice Quot.sound
Marley.Props.C70_accepted_unnamed: propext Classical.choice Quot.sound
Marley.Props.C70_fractions: propext Classical.choice Quot.sound
Marley.Props.C70_single: propext Classical.choice Quot.sound
Marley.Props.C70_not_a_nuclide: propext Quot.sound
Marley.Props.C70_unnamed_fails: propext Classical.choice Quot.sound
Marley.Props.C70_rounded_accepted: propext Classical.choice Quot.sound
Marley.Props.C70_rounded_fractions_partial: propext Classical.choice Quot.sound
Marley.Props.C70_sum_violated: propext Classical.choice Quot.sound
Marley.Props.C71_other_streams: propext Classical.choice Quot.sound
Marley.Props.C71_info_and_debug: propext Classical.choice Quot.sound
Marley.Props.C71_warnings_partial: propext Classical.choice Quot.sound
Marley.Props.C71_last_level: propext Classical.choice Quot.sound
Marley.Props.C71_standard_output_violated: propext
Marley.Props.C72_existing_name: propext
Marley.Props.C72_first_directory_partial: propext Quot.sound
Marley.Props.C72_not_found_partial: propext Quot.sound
Marley.Props.C72_search_path: propext Classical.choice Quot.sound
Marley.Props.C72_empty_path: propext
Marley.Props.C72_list_partial: propext Classical.choice Quot.sound
Marley.Props.C72_socket_violated: propext
Marley.Props.C73_parity_algebra: propext Quot.sound
Marley.Props.C73_parity_group: none
Marley.Props.C73_parity_ofInt: propext Quot.sound
Marley.Props.C73_parity_ofChar: propext
Marley.Props.C73_parity_stream: propext
Marley.Props.C74_partial: propext Classical.choice Quot.sound
Marley.Props.C74_error: propext Classical.choice Quot.sound
Marley.Props.C74_integral: propext Classical.choice Quot.sound
Marley.Props.C74_exact: propext Classical.choice Quot.sound
Marley.Props.C74_interpolates: propext Classical.choice Quot.sound
Marley.Props.C74_constructed: propext Classical.choice Quot.sound
Marley.Props.C74_violated: propext Classical.choice Quot.sound
Marley.Props.C75_minimum: propext Classical.choice Quot.sound
Marley.Props.C75_maximum: propext Classical.choice Quot.sound
Marley.Props.C75_ends: propext Classical.choice Quot.sound
Marley.Props.C75_maximum_ends: propext Classical.choice Quot.sound
Marley.Props.C76_ipow_partial: propext Quot.sound
Marley.Props.C76_ipow_fails: propext Classical.choice Quot.sound
Marley.Props.C76_real_sqrt: propext Classical.choice Quot.sound
Marley.Props.C76_quadratic_partial: propext Classical.choice Quot.sound
Marley.Props.C76_quadratic_fails: propext Classical.choice Quot.sound
Marley.Props.C76_quadratic_no_roots_fails: propext Classical.choice Quot.sound
Marley.Props.C77_mandelstam: propext Classical.choice Quot.sound
Marley.Props.C77_cm_frame: propext Classical.choice Quot.sound
Marley.Props.C77_collinear_massless: propext Classical.choice Quot.sound
Marley.Props.C78_binding_energy: propext Classical.choice Quot.sound
Marley.Props.C78_mass_excess: propext Classical.choice Quot.sound
Marley.Props.C79_flux_average: propext Classical.choice Quot.sound
Marley.Props.C80_exact: propext Classical.choice Quot.sound
Marley.Props.C80_order: propext Classical.choice Quot.sound
Marley.Props.C80_order_preserving: propext Classical.choice Quot.sound
Marley.Props.C80_inside: propext Classical.choice Quot.sound
Marley.Props.C80_error: propext Classical.choice Quot.sound
Marley.Props.C81_integral: propext Classical.choice Quot.sound
Marley.Props.C81_single_violated: propext Classical.choice Quot.sound
Marley.Props.C82_whole: propext Classical.choice Quot.sound
Marley.Props.C82_event_partial: propext Classical.choice Quot.sound
Marley.Props.C82_forget: propext Classical.choice Quot.sound
Marley.Props.C82_nuclear: propext Classical.choice Quot.sound
Marley.Props.C82_electron: propext Classical.choice Quot.sound
Marley.Props.C82_decay: propext Classical.choice Quot.sound
Marley.Props.C82_deexcitation: propext Classical.choice Quot.sound
Marley.Props.C83_value: propext Classical.choice Quot.sound
Marley.Props.C83_energies: propext Classical.choice Quot.sound
Marley.Props.C84_nuclear: propext Classical.choice Quot.sound
Marley.Props.C84_electron: propext Classical.choice Quot.sound
Marley.Props.C84_charge: propext Classical.choice Quot.sound
Marley.Props.C85_fermiDirac: propext Classical.choice Quot.sound
Marley.Props.C85_betaFit: propext Classical.choice Quot.sound
Marley.Props.C85_function: propext Classical.choice Quot.sound
Marley.Props.C85_configured: propext Classical.choice Quot.sound
Marley.Props.C86_default_target: propext Classical.choice Quot.sound
Marley.Props.C86_explicit_target: propext Classical.choice Quot.sound
Marley.Props.C86_target_rejected: propext Classical.choice Quot.sound
Marley.Props.C86_no_reactions: propext Classical.choice Quot.sound
Marley.Props.C86_wrap_violated: propext Classical.choice Quot.sound
Marley.Props.C86_direction: propext Classical.choice Quot.sound
Marley.Props.C86_cutoffs: propext Classical.choice Quot.sound
Marley.Props.C86_cutoff_wrap_violated: propext Classical.choice Quot.sound
Marley.Props.C87_conserves: propext Classical.choice Quot.sound
Marley.Props.C88_event: propext Classical.choice Quot.sound
Marley.Props.C88_events: propext Classical.choice Quot.sound
Marley.Props.C88_fixed: propext Classical.choice Quot.sound
Marley.Props.C88_electron_setup: propext Classical.choice Quot.sound
Marley.Props.C88_charge: propext Classical.choice Quot.sound
Marley.Props.C89_made: propext Classical.choice Quot.sound
Marley.Props.C89_lorentzian: propext Classical.choice Quot.sound
Marley.Props.C89_m1: propext Classical.choice Quot.sound
Marley.Props.C89_transmission: propext Classical.choice Quot.sound
Marley.Props.C89_multipolarity: propext Classical.choice Quot.sound
Marley.Props.C89_unphysical: propext Classical.choice Quot.sound
Marley.Props.C89_nonneg_partial: propext Classical.choice Quot.sound
Marley.Props.C89_heavy_violated: propext Classical.choice Quot.sound
Marley.Props.C89_spacing: propext Classical.choice Quot.sound
Marley.Props.C89_weisskopf_partial: propext Classical.choice Quot.sound
Marley.Props.C89_weisskopf_transmission: propext Classical.choice Quot.sound
Marley.Props.C89_overflow_violated: propext Classical.choice Quot.sound
Marley.Props.C89_weisskopf_multipolarity: propext Classical.choice Quot.sound
Marley.Props.C90_history: propext Classical.choice Quot.sound
Marley.Props.C90_positive_partial: propext Classical.choice Quot.sound
Marley.Props.C90_parity: propext Classical.choice Quot.sound
Marley.Props.C90_spin: propext Classical.choice Quot.sound
Marley.Props.C90_formula: propext Classical.choice Quot.sound
Marley.Props.C90_continuous_partial: propext Classical.choice Quot.sound
Marley.Props.C90_jump_violated: propext Classical.choice Quot.sound
Marley.Props.C90_helium_violated: propext Classical.choice Quot.sound
Marley.Props.C91_range: propext Classical.choice Quot.sound
Marley.Props.C91_history: propext Classical.choice Quot.sound
Marley.Props.C91_scattering: propext Classical.choice Quot.sound
Marley.Props.C91_unitary: propext Classical.choice Quot.sound
Marley.Props.C91_total: propext Classical.choice Quot.sound
Marley.Props.C92_potential: propext Classical.choice Quot.sound
Marley.Props.C92_everywhere: propext Classical.choice Quot.sound
Marley.Props.C92_absorbs: propext Classical.choice Quot.sound
Marley.Props.C92_gauss: propext Classical.choice Quot.sound
Marley.Props.C93_density: propext Classical.choice Quot.sound
Marley.Props.C93_strength: propext Classical.choice Quot.sound
Marley.Props.C93_optical: propext Classical.choice Quot.sound
Marley.Props.C93_widths: propext Classical.choice Quot.sound
Marley.Props.C93_builds: propext Classical.choice Quot.sound
Marley.Props.C93_choice: propext Classical.choice Quot.sound
Marley.Props.C93_decays: propext Classical.choice Quot.sound
Marley.Props.C93_spins: propext Classical.choice Quot.sound
Marley.Props.C94_settings: propext Classical.choice Quot.sound
Marley.Props.C94_ready: propext Classical.choice Quot.sound
Marley.Props.C94_clock: propext Classical.choice Quot.sound
Marley.Props.C94_events: propext Classical.choice Quot.sound
Marley.Props.C94_null_violated: propext Classical.choice Quot.sound
Marley.Props.C94_deexcite_violated: propext Classical.choice Quot.sound
Marley.Props.C95_listed: propext Classical.choice Quot.sound
Marley.Props.C95_stdout_partial: propext Classical.choice Quot.sound
Marley.Props.C95_default: propext Classical.choice Quot.sound
Marley.Props.C95_empty: propext Classical.choice Quot.sound
Marley.Props.C95_rejected: propext Classical.choice Quot.sound
Marley.Props.C95_history: propext Classical.choice Quot.sound
Marley.Props.C95_from_file: propext Classical.choice Quot.sound
Marley.Props.C95_stdout_violated: propext Classical.choice Quot.sound
Marley.Props.C95_rejected_violated: propext Classical.choice Quot.sound
Marley.Props.C95_name_violated: propext Classical.choice Quot.sound
Marley.Props.C96_reads_partial: propext Classical.choice Quot.sound
Marley.Props.C96_upward: propext Classical.choice Quot.sound
Marley.Props.C96_downward: propext Classical.choice Quot.sound
Marley.Props.C96_absent: propext Quot.sound
Marley.Props.C96_not_a_nuclide: propext Quot.sound
Marley.Props.C96_order_violated: propext Classical.choice Quot.sound
Marley.Props.C96_truncated_violated: propext Classical.choice Quot.sound
Marley.Props.C96_missing_violated: propext Classical.choice Quot.sound
Marley.Props.C96_self_violated: propext Classical.choice Quot.sound
Marley.Props.C97_found: propext Classical.choice Quot.sound
Marley.Props.C97_unreadable: propext Quot.sound
Marley.Props.C97_file: propext Classical.choice Quot.sound
Marley.Props.C98_factors: propext Classical.choice Quot.sound
Marley.Props.C98_partial: propext Classical.choice Quot.sound
Marley.Props.C98_violated: propext Classical.choice Quot.sound
Marley.Props.C98_fixed: propext Classical.choice Quot.sound
Marley.Props.C98_cdf: propext Classical.choice Quot.sound
Marley.Props.C98_default: propext Classical.choice Quot.sound
Marley.Props.C98_adaptive_violated: propext Classical.choice Quot.sound
Marley.Props.C98_unequal_violated: propext Classical.choice Quot.sound
Marley.Props.C99_transform: propext Classical.choice Quot.sound
Marley.Props.C99_partial: propext Classical.choice Quot.sound
Marley.Props.C99_twice: propext Classical.choice Quot.sound

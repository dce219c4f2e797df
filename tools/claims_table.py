claim("C01", "partial",
      "C01_dump_load_partial C01_dump_load_fails C01_loaded_is_holdable",
      "Round trip proved for all documents whose keys need no escaping (string values arbitrary, any indent step, any trailing text); doubles must satisfy the stated text round-trip condition. The full claim is false: keys are stored escaped (JSON.hh:822 with 359-362), witness in C01_dump_load_fails.")
claim("C02", "proved", "C02_escape_roundtrip C02_escape_injective",
      "All strings, all following stream contents.")
claim("C03", "partial",
      "C03_load_total C03_load_accepts_only_objects C03_load_rejects_non_objects C03_load_exceptions_partial C03_only_marley_error_fails",
      "Termination, rejection of non-objects and result type proved for all texts. False part: std::invalid_argument and std::out_of_range escape from std::stol/std::stod.")
claim("C04", "partial",
      "C04_number_reread_partial C04_positive_exponent_fails C04_nonfinite_rejected",
      "Every number text with e+ is rejected, so doubles >= 1e17 (printed with e+) cannot be read back; the other forms are accepted.")
claim("C05", "partial",
      "C05_assign_then_lookup C05_getters_non_object C05_getters_missing_key C05_getters_wrong_type C05_get_bool_get_double C05_get_long_partial C05_get_long_fails C05_get_string_partial C05_get_string_fails C05_get_object_partial C05_get_object_fails",
      "False parts: get_long loses precision above 2^53 (goes through double), get_string returns the escaped text, get_object never throws on a missing key.")
claim("C73", "proved",
      "C73_parity_algebra C73_parity_group C73_parity_ofInt C73_parity_ofChar C73_parity_stream",
      "Whole Parity class.")
claim("C06", "proved", "C06_event_ascii_roundtrip C06_event_sequence_roundtrip",
      "All events with at least two initial and two final particles and integers in int range; the text form of doubles is abstract (DblFmt.Lawful).")
claim("C07", "proved",
      "C07_too_few_particles C07_particle_list_cut_short C07_never_half_filled C07_end_of_stream",
      "A failed header read is reported only through the stream state, with an empty event.")
claim("C08", "partial",
      "C08_read_written C08_hepevt_roundtrip_partial C08_proton_roundtrip_fails C08_electron_target_rejected",
      "Exact result of read-back proved for all generator-shaped events; equality fails when protons are emitted (residue charge).")
claim("C09", "partial",
      "C09_permutation C09_placement_partial C09_heaviest_first_fails",
      "Permutation proved for all records; placement proved when the heaviest ion is not first; otherwise proved false (stale index, Event.cc:535-543).")
claim("C10", "partial",
      "C10_charge_sums C10_total_charge_partial C10_protons_fails",
      "Exact charge balance proved; the claim is false by the number of emitted protons (Event.cc:555-568).")
claim("C11", "partial",
      "C11_event_json_roundtrip C11_malformed_rejected C11_error_kind_partial C11_missing_parity_fails",
      "Round trip and rejection proved in full; a missing parity key gives std::out_of_range instead of marley::Error.")
claim("C12", "partial",
      "C12_ownership C12_copy_is_independent C12_self_assignment_fails C12_failed_read_leaks",
      "Memory safety, exclusive ownership, absence of leaks and value semantics proved for all operation sequences; self copy assignment empties the event (Event.cc:116-137), and a failed read leaks one particle (Event.cc:271-286).")
claim("C27", "partial",
      "C27_spin_parity_string_fails C27_every_half_integer_spin_wrong C27_integer_spin_partial "
      "C27_strings_distinct",
      "The property is false: every half-integer spin is printed with the wrong numerator (3/2 as 1/2). "
      "Proved: the negation, correctness for integer spins, and that different spin-parities give "
      "different strings.")
claim("C28", "proved", "C28_nucleus_code C28_nucleus_code_injective",
      "All 0 <= Z <= A < 1000, over unbounded integers; the codes are proved to fit 32 bits.")
claim("C29", "proved",
      "C29_neutrino_names C29_coulomb_mode_names C29_element_symbols C29_nucid_roundtrip C29_nucid_symbol",
      "Tables transcribed entry by entry. An unknown neutrino code yields '?', which is no name; unknown "
      "Coulomb names throw the library's exception, unknown elements std::out_of_range.")
claim("C30", "proved", "C30_split_string C30_trim C30_pad", "All strings, delimiters and widths.")
claim("C76", "partial",
      "C76_ipow_partial C76_ipow_fails C76_real_sqrt C76_quadratic_partial C76_quadratic_fails "
      "C76_quadratic_no_roots_fails",
      "Over the reals. ipow returns 0 for exponents >= 32; the quadratic solver divides 0 by 0 for a "
      "double root at zero and returns non-roots when there is no real root. Proved in the other cases.")
claim("C13", "partial",
      "C13_grid_points_partial C13_rule_between_points C13_linear_between_neighbours C13_constant_rule "
      "C13_constant_rule_fails C13_rounded_partial C13_rounded_points_partial C13_negative_violated",
      "With rounding (linear-linear rule, doubles, range of exponents apart) grid points and lines are reproduced "
      "up to a few rounding errors; at a grid point with ordinate zero the value can be negative "
      "(C13_negative_violated). The rest: over the reals, for strictly increasing grids. The constant rule returns the previous ordinate at "
      "every grid abscissa but the first (proved); the other four rules reproduce the grid points. Log "
      "rules need positive data.")
claim("C14", "partial",
      "C14_left_of_range C14_right_of_range C14_inside_range C14_too_few_points "
      "C14_continue_constant_right_fails",
      "Proved for all sorted grids, rules and abscissae; the one departure (constant rule with Continue, "
      "right of the range, uses the last ordinate instead of the last bin's) is proved as such.")
claim("C15", "partial",
      "C15_constructor_partial C15_constructor_unordered_fails C15_insert C15_insert_all",
      "Insertion proved in full. The constructor never detects unordered abscissae because old_x is not "
      "updated (InterpolationGrid.hh:130-137): proved false.")
claim("C34", "partial", "C34_conserves",
      "Proved in exact real arithmetic for all masses, energies and angles: shells, four-momentum, angle in the "
      "center-of-momentum frame. Floating-point rounding is not modelled.")
claim("C35", "partial", "C35_threshold C35_level C35_below_threshold",
      "Proved in exact real arithmetic for all masses and energies. Rounding is not modelled.")
claim("C46", "partial",
      "C46_boost_keeps_mass_shell C46_boost_keeps_products C46_boost_velocity C46_zero_velocity "
      "C46_superluminal_rejected C46_rotate",
      "Proved in exact real arithmetic for all particles, velocities and directions. Rounding is not modelled.")
claim("C47", "partial", "C47_forbidden C47_conserves",
      "Proved in exact real arithmetic for all parents of positive mass, daughters and angles. Rounding is not "
      "modelled.")
claim("C48", "partial", "C48_rotation C48_direction_exists C48_null_rejected",
      "Proved in exact real arithmetic for all pairs of vectors, both branches. Rounding is not modelled.")
claim("C49", "partial",
      "C49_rotated C49_projectile_direction C49_products C49_configured C49_at_rest C49_constructor_violated",
      "Proved for every history of a default-constructed rotator (the way the library uses it), in exact real "
      "arithmetic. A rotator constructed with another direction does not turn its first events along z: proved.")
claim("C77", "partial", "C77_mandelstam C77_cm_frame C77_collinear_massless",
      "Proved in exact real arithmetic when one particle is massive; two collinear massless particles throw.")
claim("C23", "partial", "C23_closest C23_closest_built C23_no_levels C23_rounded C23_rounded_distance_partial C23_doubles_partial C23_rounding_violated",
      "Proved for all schemes and energies in exact arithmetic (any ordered field), including which level is "
      "taken at equal distance. With rounded differences the level is the closest as computed (C23_rounded); "
      "its true distance may be larger than that of another level in the last place (C23_doubles_partial, "
      "C23_rounding_violated). NaN energies and the range of exponents are not modelled.")
claim("C24", "proved", "C24_sorted_and_complete C24_references C24_add_gamma C24_equal_energies",
      "Proved for all sequences of add_level and add_gamma calls; energies are any linear order (no NaN).")
claim("C25", "partial", "C25_cascade C25_null_end_level",
      "Proved in exact real arithmetic for all schemes with downward gammas, starting levels and draws: "
      "termination, one photon per transition, order, end level, masses and four-momentum. Random draws are "
      "inputs; rounding is not modelled.")
claim("C26", "partial", "C26_round_trip_partial C26_equal_energies_fails C26_upward_gamma_fails",
      "Round trip proved for schemes with distinct energies and gammas that do not lead upwards, for every "
      "lawful number format. Proved false for equal energies (order reversed) and upward gammas (out_of_range). "
      "The default stream precision loses digits (not lawful).")
claim("C70", "partial", "C70_accepted C70_accepted_unnamed C70_fractions C70_single C70_not_a_nuclide C70_unnamed_fails C70_rounded_accepted C70_rounded_fractions_partial C70_sum_violated",
      "Acceptance and composition proved for all lists over an ordered field. With rounding (doubles, range of exponents apart) the same "
      "lists are accepted, and the composition is right up to a relative error of twice the number of atoms times "
      "2^-53; the sum need not be one to the last digit (C70_sum_violated). Proved: "
      "some rejected or warned inputs escape with out_of_range because an element has no symbol.")
claim("C71", "partial", "C71_other_streams C71_info_and_debug C71_warnings_partial C71_last_level "
      "C71_standard_output_violated",
      "Proved for every history of operations, except the claim that standard output never gets warnings, which "
      "is proved false for some histories.")
claim("C72", "partial", "C72_existing_name C72_first_directory_partial C72_not_found_partial C72_search_path "
      "C72_empty_path C72_list_partial C72_socket_violated",
      "Proved for every file system without sockets; a socket is proved to be taken for a regular file.")
claim("C58", "partial", "C58_separation_energy C58_separation_energy_codes C58_estimates_not_allowed",
      "Proved for all tables, nuclides and fragments over the reals; rounding is not modelled.")
claim("C59", "partial", "C59_unbound_threshold C59_unknown_fragment",
      "Proved for tables of nuclear codes with at most 500 nucleons and fragments of known mass, over the reals "
      "with not-a-number as a separate outcome; rounding is not modelled.")
claim("C60", "partial", "C60_accepted C60_particles_partial C60_unknown_particle_violated C60_atoms "
      "C60_same_by_numbers_partial C60_hydrogen_violated",
      "Loading and lookups proved for every file. Proved false: unknown particles give std::out_of_range instead of "
      "marley::Error, and the measured mass of hydrogen is not used when it is looked up by Z and A.")
claim("C78", "partial", "C78_binding_energy C78_mass_excess",
      "Proved for all tables and nuclides over the reals; rounding is not modelled.")
claim("C55", "partial", "C55_stable C55_others_kept C55_terminates C55_models_once C55_models_distinct "
      "C55_schemes_distinct C55_hydrogen_violated",
      "Proved for every history of operations and all file contents, including failing lookups. Proved false only "
      "for hydrogen, whose two codes get two model objects. Debug messages are not modelled.")
claim("C56", "partial", "C56_add_partial C56_emplace C56_existing_violated",
      "Proved when the nuclide has no entry; with an entry (even a null one) the old one is proved to stay in use.")
claim("C57", "partial", "C57_complete_partial C57_succeeds C57_bad_parity C57_failed_load_violated "
      "C57_malformed_violated",
      "Proved for all well-formed files and all call histories. Proved false: after a load that failed for a "
      "missing light particle later calls use a partial table; lines after a malformed one are silently ignored.")
claim("C31", "partial", "C31_conserved C31_projectiles C31_refused C31_members_violated",
      "Proved for every accepted file in terms of the PDG codes and charges of the particles. Proved false for the "
      "mass numbers the reaction object keeps itself: for an antineutrino on hydrogen the residue is the neutron "
      "code 2112 and its mass number is taken to be 211.")
claim("C32", "partial", "C32_lines_partial C32_order_enforced C32_increasing C32_last_line_violated",
      "Proved for files whose lines all end with a newline (comments, blanks and trailing text allowed); order holds "
      "for every accepted file. Proved false without a final newline: the last line is ignored. Blank or malformed "
      "lines use uninitialised variables in the code and are a distinct outcome of the model.")
claim("C33", "partial", "C33_matched C33_throws_iff_shared C33_no_scheme C33_wrong_scheme "
      "C33_empty_scheme_violated",
      "Proved for all ordered schemes with a level, all lists of matrix elements and all thresholds. Proved false for "
      "a scheme without levels, where a null pointer is dereferenced.")
claim("C18", "partial", "C18_rejection_partial C18_range_exact C18_range_violated C18_positive_violated",
      "Proved for every returning call, any engine with numbers in [0,1) and any monotone rounding, provided the "
      "width of the interval is representable. Proved false in doubles: the abscissa can be the double after xmax "
      "(also for xmin = xmax), and an ordinate of 0 accepts a point of zero density. The loop need not end for "
      "unlucky draws; it ends with probability one (C134_sampling).")
claim("C22", "partial", "C22_range C22_terminates C22_bound_exists C22_crossing C22_rounded_range C22_rounded_terminates_partial C22_rounded_crossing_partial C22_doubles_partial C22_endless_violated",
      "Proved for all monotone cumulative functions and tolerances over the reals. With rounding the range holds too, and the rest if the tolerance is larger than the rounding errors of the ends of the range (for the default tolerance up to 4000 MeV, C22_doubles_partial); otherwise the loop need not end (C22_endless_violated, at 8192 MeV). The range of exponents is not modelled.")
claim("C75", "partial", "C75_minimum C75_maximum C75_ends C75_maximum_ends",
      "Proved for every function, interval and positive tolerance, over the reals, for every call that returns; "
      "that the search ends is proved for exact arithmetic. The acceptance test of the parabolic step in the code has a reversed "
      "comparison and is modelled as it is.")
claim("C16", "partial", "C16_state_text C16_same_seed C16_restored_partial C16_restored_violated",
      "The state text of the engine (std::mt19937_64 written as words and position) round-trips for every state. "
      "Two generators with the same configuration and seed, whatever they did before, give the same events. A "
      "restored generator continues the run if the stored bound of the energy density is the one a new generator "
      "finds; the bound is raised by rejection_sample when a trial exceeds it and is not part of the state text, "
      "and C16_restored_violated is a run that then differs. Reactions, sources and de-excitation are arbitrary "
      "functions of their arguments and the engine.")
claim("C17", "partial", "C17_seeds_partial C17_violated",
      "Only the low 32 bits of the seed reach the engine: seeds below 2^32 give different seed sequences, and any "
      "two seeds that agree modulo 2^32 leave the generator in the same state.")
claim("C19", "partial", "C19_weights C19_choice_partial C19_probability C19_zero_violated C19_rounded_partial C19_doubles_partial C19_last_violated",
      "The weights used are those at the returned energy for every history of trials. A reaction with weight zero "
      "is chosen only if it is the first and the random number is exactly 0, which is possible. Over the reals. "
      "With rounding errors (doubles, range of exponents apart) the random number lies in the share of the chosen "
      "reaction up to a relative error of twice the number of reactions times 2^-53, and a last reaction with weight "
      "zero can be chosen with a random number that close to 1 (C19_last_violated).")
claim("C20", "partial", "C20_density C20_total C20_sign C20_normalised_partial C20_weight_flux_violated",
      "Integral means the quadrature of the code. set_weight_flux does not renormalise, so the last clause fails "
      "after it; it is proved after any sequence of calls ending with a successful call of one of the others. "
      "Over the reals.")
claim("C21", "partial", "C21_rejected C21_chosen C21_throws_iff",
      "Over the reals, for every list of reactions with arbitrary cross-section and event functions. The 'exactly "
      "when' direction assumes that the chosen reaction and the de-excitation themselves succeed and that the "
      "direction is not the null vector.")
claim("C79", "partial", "C79_flux_average",
      "Over the reals, with the integration rule of the code for both integrals, after any successful "
      "normalisation with flux weighting.")

claim("C36", "partial", "C36_accessible C36_weights_partial C36_event C36_violated",
      "Inaccessible transitions are never chosen, for all lists. The weights are the partial cross sections if no "
      "tabulated strength is zero; with a zero strength the stored weights are shifted against the transitions "
      "(C36_violated: the transition without strength is always chosen). A weight of zero can be drawn only with a "
      "random number exactly 0. Over the reals, Fermi function arbitrary. With rounding errors see C19_rounded_partial: "
      "a last weight of zero can also be drawn with a random number next to 1.")
claim("C37", "partial", "C37_sum_partial C37_inaccessible C37_nonneg C37_zero C37_unsorted_violated",
      "The sum needs level energies in order; level matching can break the order and then accessible transitions "
      "are left out (C37_unsorted_violated). NaN partial cross sections count as zero as in the code. Over the "
      "reals with infinities and NaN followed; the Fermi function is an arbitrary function of reaction and speed.")
claim("C38", "partial", "C38_spin_parity C38_weights",
      "For every target spin and parity, transition type and random number, with arbitrary level densities. The "
      "ground-state spin is assumed nonnegative. Spins are unbounded integers.")
claim("C39", "partial", "C39_one C39_fermi C39_ema_value C39_ema C39_combined",
      "The Fermi function is an arbitrary function of reaction and speed here; its value is the subject of C110. The effective "
      "momentum approximation is proved against an independent description for speeds strictly between 0 and 1, "
      "positive lepton mass and mass number. Over the reals.")
claim("C40", "partial", "C40_integral C40_nonneg C40_positive",
      "For all couplings, masses, projectiles and energies, over the reals.")
claim("C41", "partial", "C41_bound C41_attained",
      "For all couplings, masses, energies and cosines in [-1, 1], over the reals.")
claim("C42", "partial", "C42_density", "For all speeds from 0 to 1, over the reals.")
claim("C81", "partial", "C81_integral C81_single_violated",
      "For the whole reaction, over the reals. For one transition without strength or out of reach the code reads an "
      "uninitialised variable (C81_single_violated).")
claim("C83", "partial", "C83_value C83_energies",
      "Over the reals; the Fermi function is arbitrary.")
claim("C84", "partial", "C84_nuclear C84_electron C84_charge",
      "Over the reals, for every engine with draws in [0, 1); the masses are nonnegative and the target is massive. "
      "Charge conservation is proved for nuclear reactions loaded from files.")
claim("C80", "partial", "C80_exact C80_order C80_order_preserving C80_inside C80_error",
      "For all orders N > 0, intervals and polynomials, over the reals; the rounding of doubles is not modelled.")
claim("C82", "partial", "C82_whole C82_event_partial C82_forget C82_nuclear C82_electron C82_decay C82_deexcitation",
      "For all tapes of random numbers, reactions on nuclei and electrons, and de-excitations of any length. Transmission "
      "coefficients, level densities and strength functions are pure functions of the model; C82_event_partial covers any "
      "other reactions and de-excitations that have the property.")

claim("C43", "partial", "C43_mass C43_species C43_spectra C43_density",
  "Full statement over the real numbers, for both flavours and all energies, with the Michel spectra as specification. Rounding of doubles is not modelled.")
claim("C44", "partial", "C44_not_neutrino C44_species C44_table_accepted C44_table_stored C44_vectors C44_range_partial C44_ordered_vectors C44_extrapolation_violated C44_unordered_violated C44_zero_density_violated",
  "Species, table acceptance (iff) and positive energies hold. The density vanishes outside the range for all sources except tables that extrapolate or have unordered energies; both exceptions are proved with witnesses. A positive total does not exclude a histogram that is zero at every energy (C44_zero_density_violated). Real arithmetic.")
claim("C45", "partial", "C45_dominated_partial C45_violated C45_distribution_violated",
  "The property is false: a static variable is shared by all sources. Proved with a witness for single samples and for the distribution; the partial theorem says when the history does not matter.")
claim("C68", "partial", "C68_rules_partial C68_codes_violated C68_meaning_violated",
  "All names, codes 1 to 5 and rejection of other non-numeric strings, for every string. False for numeric codes outside 1..5 (accepted as constant) and for the documented meaning of linlog and loglin (exchanged).")
claim("C69", "partial", "C69_density C69_bins_partial C69_zero_edge C69_rejected",
  "Integral over each bin, total, and probability, for all histograms with uneven bins. With a first edge of zero the first bin lacks the part below the smallest double (C69_zero_edge). Real arithmetic.")
claim("C85", "partial", "C85_fermiDirac C85_betaFit C85_function C85_configured",
  "For all JSON values and parameters, over the real numbers; normalisation is that of the library's numerical integral, and functions must be positive in the middle of the range. ROOT sources are not modelled.")
claim("C67", "partial", "C67_nuclear C67_all_partial C67_key C67_duplicates_violated C67_lost_violated",
      "Proved in full for reactions on nuclei. For reactions on electrons the code only compares the first atom of each file: duplicates within a file or in later atoms are kept and a file whose first atom was seen loses its other atoms; proved under the condition that files do not overlap in part.")
claim("C86", "partial", "C86_default_target C86_explicit_target C86_target_rejected C86_no_reactions C86_wrap_violated C86_direction C86_cutoffs C86_cutoff_wrap_violated",
      "Integers outside the range of int are taken modulo 2^32 (C86_wrap_violated), so the explicit target and the cut-offs are proved for integers in range.")
claim("C74", "partial", "C74_partial C74_error C74_integral C74_exact C74_interpolates C74_constructed C74_violated",
      "In exact arithmetic, for every object that can be constructed and every repeated cdf(). Holds whenever the last coefficient is zero, in particular for every polynomial of degree below the grid size; in general both errors are proportional to the last coefficient (C74_error), which cdf() treats in full although it counts half (C74_violated). The cosine transform of FFTPACK is modelled by its documented meaning; rounding is not modelled.")
claim("C52", "partial", "C52_offered_partial C52_once C52_energies_partial C52_positive_partial C52_positive_violated C52_error C52_decay_partial C52_products_partial",
      "For all nuclei, data and draws, over the real numbers, if known levels are sorted and not below the ground state. A draw of exactly zero selects the first channel even if its width is zero (C52_positive_violated). Transmission coefficients, level densities and strength functions are arbitrary.")
claim("C53", "partial", "C53_discrete_partial C53_discrete_closed C53_continuum C53_outside C53_sampled C53_discrete_violated",
      "For all spins, parities and data. If the three spins cannot couple at all the discrete width counts waves that are not allowed (C53_discrete_violated). Transmission coefficients are arbitrary; int arithmetic is unbounded.")
claim("C54", "partial", "C54_discrete_partial C54_range C54_closed C54_continuum C54_outside C54_sampled C54_discrete_violated",
      "For all spins, parities and data. Between a whole and a half-integer spin the discrete width counts multipolarities that are not allowed (C54_discrete_violated). Strength functions are arbitrary; int arithmetic is unbounded.")
claim("C50", "partial", "C50_kept C50_charge C50_nucleons_partial C50_products",
      "For all events, data and draws, over decays of any length, also if an exception is thrown. Charge is conserved if the fragments are nuclei; protons and nucleons if each scheme is filed under its nucleus and mass-table codes are those of nuclei. A fragment with more protons than the nucleus has no mass and ends the model run (.ub).")
claim("C51", "partial", "C51_zero C51_negative C51_not_ion C51_ground_partial C51_inconsistent C51_no_level C51_final C51_twice_partial C51_twice_violated",
      "For all events, sane data and lawful draws, over the real numbers. A level within the tolerance of 1e-5 MeV of the ground state decays again on a second application (C51_twice_violated); otherwise the second application leaves the event alone, though it throws marley::Error if the first one stopped at an isomer.")
claim("C61", "partial", "C61_fresh_partial C61_resumed_partial C61_state_partial C61_unwritable_violated",
      "For all event sequences, indentations, reasons for a file to be new, and resumed files. Doubles must survive JSON text (C04). A file that cannot be written stays as it was without any exception (C61_unwritable_violated).")
claim("C62", "partial", "C62_error_keeps C62_resume_partial C62_keys_violated C62_two_files_violated",
      "For all file contents. Elements of events need keys without escapes and doubles that survive JSON text (C62_keys_violated). A job that asks to resume two files throws after the first was rewritten without its end (C62_two_files_violated).")
claim("C63", "proved", "C63_names C63_modes C63_kept",
      "For all names, file contents and user input; the program is modelled as built without ROOT, which is why resuming a ROOT file is an error.")
claim("C64", "partial", "C64_run_partial C64_count_partial C64_sessions_partial C64_job_partial C64_exception_partial C64_beside_violated",
      "For all generators, files, numbers of events and interruptions, over any number of resumed runs. A new JSON file beside a resumed one records both runs but contains only the second (C64_beside_violated); after an exception in the generator JSON files cannot be loaded (C64_exception_partial).")
claim("C65", "partial", "C65_ascii_partial C65_hepevt_partial C65_json_partial C65_run_partial C65_hepevt_xsec_violated C65_json_again_violated C65_empty_violated",
      "For all event sequences, cross sections, and sequences of questions to the reader, and for the files a run leaves behind (C65_run_partial). Doubles must survive text; HEPEVT needs generated events. After the end a HEPEVT reader reports the cross section zero (C65_hepevt_xsec_violated), a JSON reader must not be asked again (C65_json_again_violated), and ASCII or HEPEVT files without events are rejected (C65_empty_violated).")
claim("C66", "partial", "C66_off_partial C66_exact_partial C66_open_partial C66_success_violated C66_parse_violated",
      "For all files, readers and sequences of questions. The flag is never turned on and is restored exactly if the opening ends with marley::Error; every successful opening (C66_success_violated) and every JSON parse error (C66_parse_violated) leaves it off.")
claim("C87", "partial", "C87_conserves",
      "For all events, data, engines and chains of decays, with exact real arithmetic; partial because floating-point rounding is not modelled. The fragments' masses must be nonnegative and the final residue must keep a positive mass.")
claim("C88", "partial", "C88_event C88_events C88_fixed C88_electron_setup C88_charge",
      "For all generators, sources, reactions and random numbers, with exact real arithmetic. Nuclear reactions must have sane masses (Nuc.Good); for electron reactions that follows from the mass table (C88_electron_setup). Charge conservation (C88_charge) holds for reactions as loaded from a file, with no assumption on masses or arithmetic. Partial because floating-point rounding is not modelled.")
claim("C89", "partial", "C89_made C89_lorentzian C89_m1 C89_transmission C89_multipolarity C89_unphysical C89_nonneg_partial C89_heavy_violated C89_spacing C89_weisskopf_partial C89_weisskopf_transmission C89_overflow_violated C89_weisskopf_multipolarity",
      "For all nuclides, energies and multipolarities over the real numbers. Strengths of E2 and higher electric transitions are negative for mass numbers of 510 and more (C89_heavy_violated, of no practical consequence), so non-negativity is proved below that. The double factorial of the Weisskopf model overflows from multipolarity 10 on (C89_overflow_violated); the formula is proved below that.")
claim("C90", "partial", "C90_history C90_positive_partial C90_parity C90_spin C90_formula C90_continuous_partial C90_jump_violated C90_helium_violated",
      "For all nuclides, energies, spins and series of earlier calls over the real numbers. Two parts of the property fail: with the listed mass of helium-4 densities are negative up to 6 MeV (C90_helium_violated), so positivity needs a shell correction that leaves the level density parameter positive; and the spin cut-off parameter, hence the density, jumps at the energy shift (C90_jump_violated), so continuity is proved above and below it.")
claim("C91", "partial", "C91_range C91_history C91_scattering C91_unitary C91_total",
      "For all nuclides up to mass number 3000, fragments, energies, angular momenta, positive steps, masses and series of calls over the real numbers and complex numbers. Partial because the Coulomb functions are an arbitrary function and rounding is not modelled.")
claim("C92", "partial", "C92_potential C92_everywhere C92_absorbs C92_gauss",
      "For all nuclides up to mass number 3000, fragments, energies and distances over the real numbers. More than 100 times the diffuseness from the surface, the code drops the surface terms; C92_everywhere bounds the difference by e^-100 times the depths. Partial because rounding is not modelled.")
claim("C93", "partial", "C93_density C93_strength C93_optical C93_widths C93_builds C93_choice C93_decays C93_spins",
      "For all nuclides, fragments, level schemes, energies, spins, Coulomb functions and engines over the real numbers. The shell correction must leave the level density parameter positive, as it does not for helium-4 (C90_helium_violated), and a neutron separation energy must be defined. Partial because rounding is not modelled and the Coulomb functions are an arbitrary function.")
claim("C94", "partial", "C94_settings C94_ready C94_clock C94_events C94_null_violated C94_deexcite_violated",
      "For all configurations and environments. Which reactions and which target are configured is the subject of C67 and C86. Two parts fail: a value of do_deexcitations that is not a boolean is ignored (C94_deexcite_violated), and a configuration with null reactions leaves a generator that never normalises (C94_null_violated). Partial for these, because numbers are real, and because sources whose density is not a number at some energy are set aside.")
claim("C95", "partial", "C95_listed C95_stdout_partial C95_default C95_empty C95_rejected C95_history C95_from_file C95_stdout_violated C95_rejected_violated C95_name_violated",
      "For all configurations, file systems, earlier operations on the logger and later messages. Three parts fail: rejected settings have replaced the earlier ones (C95_rejected_violated); warnings appear on standard output if the last message before was a warning (C95_stdout_violated), so C95_stdout_partial needs a message of another level in between; names with characters that JSON escapes name other files (C95_name_violated), so the others ask for plain names.")
claim("C96", "partial", "C96_reads_partial C96_upward C96_downward C96_absent C96_not_a_nuclide C96_order_violated C96_truncated_violated C96_missing_violated C96_self_violated",
      "For all nuclides, lists of levels, layouts with blanks between the fields, other lines of the file, and formats of numbers. Four parts fail: levels that are not listed in the order of their energies make gammas lead to wrong levels (C96_order_violated), so C96_reads_partial asks for that order; a file that ends too early gives repeated levels (C96_truncated_violated) or undefined behaviour (C96_missing_violated); a gamma from a level to itself is accepted (C96_self_violated). Numbers of an unknown element give std::out_of_range. Fields without blanks between them are not treated.")
claim("C97", "partial", "C97_found C97_unreadable C97_file",
      "For all files made of lines that begin the data of a nuclide and lines that cannot be taken for such, and, with C96, all files of data for different nuclides. Partial because of the conditions of C96 on the data.")
claim("C98", "partial", "C98_factors C98_partial C98_violated C98_fixed C98_cdf C98_default C98_adaptive_violated C98_unequal_violated",
      "The property fails: the vector for the factors is one entry too short for grid sizes 3, 4 and 6, and only for these (C98_partial, C98_violated). The adaptive constructor meets size 4 for every function that three points do not represent (C98_adaptive_violated); the size the generator uses is safe (C98_default). Reads are not checked, and the sizes are unbounded natural numbers.")
claim("C99", "partial", "C99_transform C99_partial C99_twice",
      "For all sizes if the vector for the factors is long enough (C99_transform), and for all sizes but 3, 4 and 6 as the interpolation calls it. Partial because doubles are real numbers and the constants of the library are exact.")
claim("C100", "partial", "C100_elapsed C100_estimated_partial C100_unambiguous C100_negative_violated",
      "For all durations the clock can represent (C100_elapsed), and for estimated times with exact arithmetic below 2^31 days. Negative durations, which occur if the clock is set back, are shown with minus signs between the digits and without the days (C100_negative_violated).")
claim("C101", "partial", "C101_small C101_amount_partial C101_running C101_final_partial C101_thousand_violated C101_final_violated C101_failed_violated",
      "For all sizes and numbers of decimals with exact arithmetic. A file that cannot be written any more is shown with -1 B (C101_failed_violated). Two other parts fail: the number shown may be 1000.00 of a unit (C101_thousand_violated), and the amount shown at the end of a run is too small for every JSON file (C101_final_violated).")
claim("C102", "partial", "C102_shown C102_numbers_partial C102_log_partial C102_update_partial C102_inserted_partial C102_when",
      "For all sequences of printable lines and displays, with respect to a small model of a terminal with rows of any length. Partial because lines that wrap, control characters in the text, and the end of the screen are not treated; inserted displays are exact on a screen that was empty below the cursor and while no display of the event loop precedes (then none is inserted).")
claim("C103", "partial", "C103_job C103_info C103_option_violated",
      "For all command lines, configurations and outcomes. An option that is not understood gives status 0 (C103_option_violated).")
claim("C104", "partial", "C104_values_partial C104_defined C104_no_leak_partial C104_leak_violated C104_self_move_violated C104_alias_violated C104_index_violated",
      "For all programs that have a meaning in terms of values (C104_values_partial); C104_defined says which operations do. Storage is released for programs without the assignments that do not release (C104_no_leak_partial). Four parts fail: copy and move assignment leak, a self-move gives null, an assignment that uses one place as object and as array uses released storage, and the largest index is outside the array. Parsing, printing and the constructor from an initializer list are not part of the programs, and allocation never fails.")
claim("C105", "partial", "C105_th1 C105_th1_bins_partial C105_tgraph_partial C105_configured C105_name_violated",
      "Over real numbers and for a first edge that is not zero (C69 says what happens at zero). ROOT itself is a function from names of files and objects to histograms and graphs; histograms of more than one dimension are not treated. Names that contain characters with a JSON escape sequence are not found (C105_name_violated).")
claim("C106", "partial", "C106_open C106_run_partial C106_text C106_exception_partial C106_read_partial C106_read_text C106_lost_violated",
      "ROOT is assumed to store and find what it is given and to begin its files with the letters root (RootIO.Lawful); it may save the tree by itself at any event. As in C64 the doubles survive the text and the disk does not become full. After an exception only what ROOT has saved by itself is in the file (C106_exception_partial); that all events are there is false (C106_lost_violated). operator bool is not asked of a new reader before anything else.")
claim("C107", "partial", "C107_continuation_partial C107_same_partial C107_restorable_partial C107_generator_partial C107_config_violated C107_crash_violated",
      "For runs that end without an exception and use the same configuration, and for generators whose restored state continues the sequence (Restorable). C107_restorable_partial proves that for MARLEY's generator under the condition of C16 on the energy density and with an engine whose states are valid; C107_generator_partial states the result for it, with a function that turns the real numbers of the model into stored doubles. A run that resumes with another configuration saves that configuration, and the next one no longer continues the sequence (C107_config_violated); after an exception events are repeated if ROOT had saved the tree (C107_crash_violated).")
claim("C108", "partial", "C108_summary_partial C108_refused C108_text_file_partial C108_root_file_partial C108_unreadable C108_missing C108_print_partial C108_self_violated C108_spin_violated",
      "What the reader gives for the files is taken from C65 and C106 (C108_text_file_partial, C108_root_file_partial) with their assumptions about numbers and ROOT; a ROOT output file that can be created is assumed. If the output file is also an input file, it is emptied before it is read (C108_self_violated). marprint prints a negative half-integer spin wrongly (C108_spin_violated).")
claim("C109", "partial", "C109_table_partial C109_energies C109_settings C109_refused C109_rounded_partial C109_last_violated C109_steps_violated",
      "Numbers are those of a field. With rounding errors of the energies (doubles, range of exponents apart) line number i has the right energy up to i + 2 roundings (C109_rounded_partial); the last energy need not be the upper end to the last digit (C109_last_violated). The number of steps is truncated to 32 bits (C109_steps_violated).")
claim("C110", "partial", "C110_gamma C110_pole C110_reflection C110_conj C110_value_partial C110_charge C110_neutral C110_heavy_violated C110_nonneg C110_total C110_factor C110_combined C110_cross_section_partial C110_total_defined C110_total_positive C110_choose",
      "Over real and complex numbers. The complex gamma function is that of the program, the approximation of Lanczos: that it has no zeros is proved with the criterion of Routh for its numerator; how much it differs from the true gamma function is not proved (except at 1). The real gamma function of the C++ library is Mathlib's. With 138 or more protons the result is not a number (C110_heavy_violated). C110_factor and C110_cross_section_partial: the factor and the cross sections are positive without correction, with the Fermi function, and in every mode for attracted leptons. For repelled leptons the combined modes give a number that is not negative, and zero only if the effective energy is exactly the mass (C110_combined); the modes that only use the effective momentum can throw (C39). With this total cross sections are always numbers, and above the threshold of a transition with strength they are positive and an event finds a transition (C110_total_defined, C110_total_positive, C110_choose; for ordered level energies).")
claim("C111", "partial", "C111_report C111_report_spins_partial C111_spins_violated C111_table C111_table_errors C111_units_violated C111_target C111_target_distinct C111_target_violated C111_decay C111_decay_built C111_decay_unknown",
      "How numbers are printed is arbitrary, apart from not containing separators (the program prints six digits, so that a reader gets rounded numbers; C111_target_distinct assumes that different numbers are printed differently). Half-integer spins are shown wrongly (C111_spins_violated; for integer spins C111_report_spins_partial), the table announces keV but contains MeV (C111_units_violated), and targets of elements without symbol are shown as ?? (C111_target_violated). A gamma without final level is undefined behaviour (C111_report, C111_table_errors).")
claim("C112", "partial", "C112_symbol C112_symbol_distinct C112_describe C112_describe_distinct C112_describe_excited C112_describe_electron C112_describe_built",
      "Texts are lists of characters: encoding as UTF-8 is not modelled. C112_describe_built for the constructor of reactions with leptons.")
claim("C113", "partial", "C113_neutrinos C113_no_events C113_incomplete C113_hepevt_violated C113_angles C113_forward_violated C113_particles_partial C113_ascending_violated C113_excitation C113_reconstruction C113_resolution C113_channels C113_print_partial C113_text_file C113_root_file",
      "Histograms of ROOT are modelled by their limits, values and factor; doubles are an ordered field. Violated for HEPEVT files (cross section zero), ejectiles exactly forward, and particles whose energies occur in ascending order.")
claim("C114", "partial", "C114_primaries C114_run C114_number C114_program C114_conserved C114_evgen C114_read_again C114_efr C114_efr_ascii",
      "Geant4 is modelled by its loop that calls the generator action and the event action for each event; its tracking, geometry and physics lists are not modelled. C114_conserved is for exact arithmetic, as C88.")
claim("C115", "partial", "C115_handler C115_value C115_messages C115_function C115_not_finite",
      "GSL itself is a function that gives values, exponents, a code and the errors it reports; that its values are the Coulomb functions is an assumption (Right), also that it reports errors only through the handler. Over real numbers, with non-finite values apart. Messages on standard output are left to C71.")
claim("C116", "proved", "C116_members C116_pointers C116_compare C116_range C116_pointer_range C116_null",
      "Containers are lists and iterators positions in them; a member is a pair of functions that read and overwrite it (Member.Lawful). C116_pointers reduces pointers to members, C116_members members to a plain iterator. The subscript operator of IteratorToPointerMember cannot be compiled and is left out.")
claim("C117", "partial", "C117_lines_partial C117_distinct_partial C117_spin_violated",
      "How doubles are printed is arbitrary; C117_distinct_partial assumes that they are printed without blanks and different ones differently (the program prints six digits). For spins that are not negative: -1/2 is shown like 0 (C117_spin_violated).")
claim("C118", "proved", "C118_next C118_all C118_lines C118_reaction_files C118_empty_lines",
      "A regular expression is any predicate on lines. C118_reaction_files relates it to the reading of reaction files. C118_empty_lines shows that an empty result may also be an empty line.")
claim("C119", "proved", "C119_continued C119_truncated C119_dump C119_resume",
      "The conversion of texts to doubles is arbitrary. C119_dump assumes that the doubles of the object survive being written and read.")
claim("C120", "partial", "C120_load_partial C120_unique C120_members C120_comment_violated C120_number_violated",
      "Keys must not contain characters that need escaping (C01_dump_load_fails), and escapes with a character number are left out (they are kept as they are). A comment directly behind a number is an error, and behind a key without quotes it becomes part of the key (C120_comment_violated). What follows a minus sign within a number is dropped (C120_number_violated). The conversion of texts to doubles is arbitrary.")
claim("C121", "partial", "C121_ascii_partial C121_one_digit_partial C121_newline C121_charge_violated C121_hepevt_partial C121_json",
      "The file is cut off behind its first event at the earliest (ASCII, HEPEVT). False for ASCII files whose last charge has more than one digit: the digits that are left are taken for the charge (C121_charge_violated, C121_ascii_partial says what can happen at most). The beginning of a printed double is assumed to be read to the end or not at all (LawfulCut).")
claim("C122", "partial", "C122_density C122_searched C122_ends C122_endless C122_underestimated C122_estimate_violated",
      "For exact arithmetic and draws that are independent and uniform real numbers (iid); n trials for each n, with their exact probability. If the maximum is estimated too low, adopting a new one does not repair the distribution: a function that is nowhere below the estimate is sampled uniformly (C122_underestimated, C122_estimate_violated).")
claim("C123", "partial", "C123_weighted C123_unweighted",
      "For exact arithmetic and draws that are independent and uniform real numbers, and for a bound of the density (given or searched for) that is not exceeded. The cross sections are assumed to be measurable functions of the energy, not negative, and defined on the range of the source. Sources with a single energy are not covered.")
claim("C124", "partial", "C124_uniform C124_isotropic C124_axis C124_projectile C124_decay C124_in_flight",
      "For exact arithmetic and two draws that are independent and uniform real numbers. C124_decay and C124_in_flight are about single decays from the two draws.")
claim("C125", "partial", "C125_distribution C125_accuracy",
      "For exact arithmetic and a draw that is a uniform real number. That the Chebyshev approximation of a cumulative function is nondecreasing is not proved.")
claim("C126", "partial", "C126_nuclear C126_electron C126_ejectile",
      "For exact arithmetic and draws that are independent and uniform real numbers. C126_electron is for sets of events whose angles form a measurable set, which C126_ejectile shows for all measurable sets of four-momenta of the ejectile.")
claim("C127", "partial", "C127_route C127_follows C127_law",
      "For exact arithmetic and draws that are independent and uniform real numbers. C127_law, which identifies the route from the particles in the event, assumes that no two gammas of a level lead to levels of equal energy; C127_route and C127_follows do not.")
claim("C128", "partial", "C128_transition C128_event C128_spin",
      "For exact arithmetic and draws that are independent and uniform real numbers, and without transitions of strength zero (see C36_violated). C128_event assumes that the levels have different energies, that two transitions at least are accessible (with one, no number is drawn for the choice; C128_transition covers it), and that spin and parity are found whatever the number in [0, 1) drawn for them (levels of a decay scheme, Fermi transitions, targets without spin, and by C128_spin also Gamow-Teller transitions to the continuum). The joint law of spin and ejectile is not stated.")
claim("C129", "partial", "C129_channel C129_decay C129_spin_fragment C129_spin_gamma",
      "For exact arithmetic and a draw that is a uniform real number, and for widths that are not negative. C129_decay assumes that the channels in question can decay (their products have masses in the table and energy enough, see C52_products_partial). The law of the final energy in the continuum is that of C125.")
claim("C130", "partial", "C130_bound C130_compound",
      "For exact arithmetic and draws that are independent and uniform real numbers. C130_compound is for nuclei with two channels at least and a channel that leads to a level in one step; it says which channel was sampled in terms of the first draw, since chains through the continuum can leave the same kinds of particles. Chains through the continuum are those of C135_path.")
claim("C131", "partial", "C131_reaction C131_event C131_single",
      "For draws that are independent and uniform real numbers. C131_event assumes two open reactions at least: with one, no number is drawn (C131_single).")
claim("C132", "partial", "C132_reaction C132_event C132_independent C132_sequence C132_renews C132_run",
      "For exact arithmetic and an engine whose draws are independent and uniform real numbers (Ideal; reader_ideal shows one). The loop of rejection sampling is bounded in the model: the probability that it comes to an end is a factor of each event and tends to one. The bound must be one for the density (otherwise C16_restored_violated). C132_independent and C132_sequence have as a hypothesis that what reactions make says nothing about later numbers (Renews); C132_renews proves it, for reactions and de-excitation that are determined by finitely many numbers (C133: those of MARLEY are). That the sets of energies and numbers that lead to events of a given kind are measurable stays a hypothesis.")
claim("C133", "partial", "C133_decays C133_nuclear C133_electron C133_source C133_run C133_marley C133_replay",
      "The engine is a source of real numbers in the model: how std::uniform_real_distribution makes a number of the words of std::mt19937_64 is not modelled. Loops are bounded by a number of trials, and coming to no end within it is one of the outcomes.")
claim("C134", "partial", "C134_sampling C134_sources C134_mono C134_fermiDirac C134_betaFit C134_decayAtRest C134_grid C134_table C134_nuclear C134_electron C134_gammas C134_ends_partial C134_marley_partial C134_decays C134_compound_partial C134_not_surely",
      "For exact arithmetic and an ideal engine. C134_sources is for sources of a single energy and for continuous spectra (C134_mono, C134_fermiDirac, C134_betaFit, C134_decayAtRest) and grids with any rule (C134_grid, and C134_table for those that the constructor accepts). The model bounds the passes of each loop by a number; Ends says that from some number on the outcome is there and stays the same. C134_ends_partial has as hypotheses that the reactions and the de-excitation of the events they make end (Parts); C134_marley_partial proves them for the reactions and the decayer of MARLEY if no residue is above the threshold for the emission of fragments, or without de-excitation. C134_decays and C134_compound_partial have nuclei above the threshold too, for orderly data: gamma rays lead down, fragments have one to nine nucleons, no nucleus without nucleons has a mass, and within 1e-12 MeV above the highest level the channels other than gamma rays to the continuum keep a share of the width. Missing: rounding.")
claim("C135", "partial", "C135_stages C135_mean C135_chain C135_event C135_path C135_motion C135_step C135_memoryless C135_course C135_complete C135_law C135_emitted",
      "For exact arithmetic and an ideal engine. C135_stages, C135_mean, C135_chain and C135_event have as a hypothesis that the numbers that lead to the results in question form measurable sets; C135_path and C135_step have not, since a decay without its directions has countably many results. The passes of the loops are bounded in the model by a number, whose probability of being exceeded is part of the steps (see C134). C135_step is for steps to levels; the probabilities of steps to the continuum are those of C125 and C129.")
claim("C136", "partial", "C136_binomial C136_counts C136_completed C136_frequency C136_rates C136_multinomial C136_histogram C136_mean C136_variance C136_waiting C136_unlimited C136_unlimited_sum C136_share C136_strong C136_strong_rates C136_average C136_average_bounded C136_normal C136_errors",
      "For exact arithmetic and an ideal engine. The hypotheses are those of C132: a bound of the rejection sampling that is not exceeded, and reactions that renew the engine (Renews), which C132_renews proves for reactions and de-excitation that use finitely many numbers. With loops limited to a number of passes a run is completed with a probability below one, and the counts are those of completed runs; C136_unlimited, C136_share and C136_strong have no limit: they speak of what the generator gives from some number of passes on (that there is one follows from C134_ends_partial). C136_strong, C136_average (for quantities with a mean value, as bounded ones have), C136_normal and C136_errors (with a variance) suppose that an event is made with probability one, that is without exceptions. Missing: rounding.")

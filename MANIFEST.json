{
 "claims": [
  {
   "property": "C01",
   "status": "partial",
   "theorems": [
    "Marley.Props.C01_dump_load_partial",
    "Marley.Props.C01_dump_load_fails",
    "Marley.Props.C01_loaded_is_holdable"
   ],
   "note": "Round trip proved for all documents whose keys need no escaping (string values arbitrary, any indent step, any trailing text); doubles must satisfy the stated text round-trip condition. The full claim is false: keys are stored escaped (JSON.hh:822 with 359-362), witness in C01_dump_load_fails."
  },
  {
   "property": "C02",
   "status": "proved",
   "theorems": [
    "Marley.Props.C02_escape_roundtrip",
    "Marley.Props.C02_escape_injective"
   ],
   "note": "All strings, all following stream contents."
  },
  {
   "property": "C03",
   "status": "partial",
   "theorems": [
    "Marley.Props.C03_load_total",
    "Marley.Props.C03_load_accepts_only_objects",
    "Marley.Props.C03_load_rejects_non_objects",
    "Marley.Props.C03_load_exceptions_partial",
    "Marley.Props.C03_only_marley_error_fails"
   ],
   "note": "Termination, rejection of non-objects and result type proved for all texts. False part: std::invalid_argument and std::out_of_range escape from std::stol/std::stod."
  },
  {
   "property": "C04",
   "status": "partial",
   "theorems": [
    "Marley.Props.C04_number_reread_partial",
    "Marley.Props.C04_positive_exponent_fails",
    "Marley.Props.C04_nonfinite_rejected"
   ],
   "note": "Every number text with e+ is rejected, so doubles >= 1e17 (printed with e+) cannot be read back; the other forms are accepted."
  },
  {
   "property": "C05",
   "status": "partial",
   "theorems": [
    "Marley.Props.C05_assign_then_lookup",
    "Marley.Props.C05_getters_non_object",
    "Marley.Props.C05_getters_missing_key",
    "Marley.Props.C05_getters_wrong_type",
    "Marley.Props.C05_get_bool_get_double",
    "Marley.Props.C05_get_long_partial",
    "Marley.Props.C05_get_long_fails",
    "Marley.Props.C05_get_string_partial",
    "Marley.Props.C05_get_string_fails",
    "Marley.Props.C05_get_object_partial",
    "Marley.Props.C05_get_object_fails"
   ],
   "note": "False parts: get_long loses precision above 2^53 (goes through double), get_string returns the escaped text, get_object never throws on a missing key."
  },
  {
   "property": "C06",
   "status": "proved",
   "theorems": [
    "Marley.Props.C06_event_ascii_roundtrip",
    "Marley.Props.C06_event_sequence_roundtrip"
   ],
   "note": "All events with at least two initial and two final particles and integers in int range; the text form of doubles is abstract (DblFmt.Lawful)."
  },
  {
   "property": "C07",
   "status": "proved",
   "theorems": [
    "Marley.Props.C07_too_few_particles",
    "Marley.Props.C07_particle_list_cut_short",
    "Marley.Props.C07_never_half_filled",
    "Marley.Props.C07_end_of_stream"
   ],
   "note": "A failed header read is reported only through the stream state, with an empty event."
  },
  {
   "property": "C08",
   "status": "partial",
   "theorems": [
    "Marley.Props.C08_read_written",
    "Marley.Props.C08_hepevt_roundtrip_partial",
    "Marley.Props.C08_proton_roundtrip_fails",
    "Marley.Props.C08_electron_target_rejected"
   ],
   "note": "Exact result of read-back proved for all generator-shaped events; equality fails when protons are emitted (residue charge)."
  },
  {
   "property": "C09",
   "status": "partial",
   "theorems": [
    "Marley.Props.C09_permutation",
    "Marley.Props.C09_placement_partial",
    "Marley.Props.C09_heaviest_first_fails"
   ],
   "note": "Permutation proved for all records; placement proved when the heaviest ion is not first; otherwise proved false (stale index, Event.cc:535-543)."
  },
  {
   "property": "C10",
   "status": "partial",
   "theorems": [
    "Marley.Props.C10_charge_sums",
    "Marley.Props.C10_total_charge_partial",
    "Marley.Props.C10_protons_fails"
   ],
   "note": "Exact charge balance proved; the claim is false by the number of emitted protons (Event.cc:555-568)."
  },
  {
   "property": "C100",
   "status": "partial",
   "theorems": [
    "Marley.Props.C100_elapsed",
    "Marley.Props.C100_estimated_partial",
    "Marley.Props.C100_unambiguous",
    "Marley.Props.C100_negative_violated"
   ],
   "note": "For all durations the clock can represent (C100_elapsed), and for estimated times with exact arithmetic below 2^31 days. Negative durations, which occur if the clock is set back, are shown with minus signs between the digits and without the days (C100_negative_violated)."
  },
  {
   "property": "C101",
   "status": "partial",
   "theorems": [
    "Marley.Props.C101_small",
    "Marley.Props.C101_amount_partial",
    "Marley.Props.C101_running",
    "Marley.Props.C101_final_partial",
    "Marley.Props.C101_thousand_violated",
    "Marley.Props.C101_final_violated",
    "Marley.Props.C101_failed_violated"
   ],
   "note": "For all sizes and numbers of decimals with exact arithmetic. A file that cannot be written any more is shown with -1 B (C101_failed_violated). Two other parts fail: the number shown may be 1000.00 of a unit (C101_thousand_violated), and the amount shown at the end of a run is too small for every JSON file (C101_final_violated)."
  },
  {
   "property": "C102",
   "status": "partial",
   "theorems": [
    "Marley.Props.C102_shown",
    "Marley.Props.C102_numbers_partial",
    "Marley.Props.C102_log_partial",
    "Marley.Props.C102_update_partial",
    "Marley.Props.C102_inserted_partial",
    "Marley.Props.C102_when"
   ],
   "note": "For all sequences of printable lines and displays, with respect to a small model of a terminal with rows of any length. Partial because lines that wrap, control characters in the text, and the end of the screen are not treated; inserted displays are exact on a screen that was empty below the cursor and while no display of the event loop precedes (then none is inserted)."
  },
  {
   "property": "C103",
   "status": "partial",
   "theorems": [
    "Marley.Props.C103_job",
    "Marley.Props.C103_info",
    "Marley.Props.C103_option_violated"
   ],
   "note": "For all command lines, configurations and outcomes. An option that is not understood gives status 0 (C103_option_violated)."
  },
  {
   "property": "C104",
   "status": "partial",
   "theorems": [
    "Marley.Props.C104_values_partial",
    "Marley.Props.C104_defined",
    "Marley.Props.C104_no_leak_partial",
    "Marley.Props.C104_leak_violated",
    "Marley.Props.C104_self_move_violated",
    "Marley.Props.C104_alias_violated",
    "Marley.Props.C104_index_violated"
   ],
   "note": "For all programs that have a meaning in terms of values (C104_values_partial); C104_defined says which operations do. Storage is released for programs without the assignments that do not release (C104_no_leak_partial). Four parts fail: copy and move assignment leak, a self-move gives null, an assignment that uses one place as object and as array uses released storage, and the largest index is outside the array. Parsing, printing and the constructor from an initializer list are not part of the programs, and allocation never fails."
  },
  {
   "property": "C105",
   "status": "partial",
   "theorems": [
    "Marley.Props.C105_th1",
    "Marley.Props.C105_th1_bins_partial",
    "Marley.Props.C105_tgraph_partial",
    "Marley.Props.C105_configured",
    "Marley.Props.C105_name_violated"
   ],
   "note": "Over real numbers and for a first edge that is not zero (C69 says what happens at zero). ROOT itself is a function from names of files and objects to histograms and graphs; histograms of more than one dimension are not treated. Names that contain characters with a JSON escape sequence are not found (C105_name_violated)."
  },
  {
   "property": "C106",
   "status": "partial",
   "theorems": [
    "Marley.Props.C106_open",
    "Marley.Props.C106_run_partial",
    "Marley.Props.C106_text",
    "Marley.Props.C106_exception_partial",
    "Marley.Props.C106_read_partial",
    "Marley.Props.C106_read_text",
    "Marley.Props.C106_lost_violated"
   ],
   "note": "ROOT is assumed to store and find what it is given and to begin its files with the letters root (RootIO.Lawful); it may save the tree by itself at any event. As in C64 the doubles survive the text and the disk does not become full. After an exception only what ROOT has saved by itself is in the file (C106_exception_partial); that all events are there is false (C106_lost_violated). operator bool is not asked of a new reader before anything else."
  },
  {
   "property": "C107",
   "status": "partial",
   "theorems": [
    "Marley.Props.C107_continuation_partial",
    "Marley.Props.C107_same_partial",
    "Marley.Props.C107_restorable_partial",
    "Marley.Props.C107_generator_partial",
    "Marley.Props.C107_config_violated",
    "Marley.Props.C107_crash_violated"
   ],
   "note": "For runs that end without an exception and use the same configuration, and for generators whose restored state continues the sequence (Restorable). C107_restorable_partial proves that for MARLEY's generator under the condition of C16 on the energy density and with an engine whose states are valid; C107_generator_partial states the result for it, with a function that turns the real numbers of the model into stored doubles. A run that resumes with another configuration saves that configuration, and the next one no longer continues the sequence (C107_config_violated); after an exception events are repeated if ROOT had saved the tree (C107_crash_violated)."
  },
  {
   "property": "C108",
   "status": "partial",
   "theorems": [
    "Marley.Props.C108_summary_partial",
    "Marley.Props.C108_refused",
    "Marley.Props.C108_text_file_partial",
    "Marley.Props.C108_root_file_partial",
    "Marley.Props.C108_unreadable",
    "Marley.Props.C108_missing",
    "Marley.Props.C108_print_partial",
    "Marley.Props.C108_self_violated",
    "Marley.Props.C108_spin_violated"
   ],
   "note": "What the reader gives for the files is taken from C65 and C106 (C108_text_file_partial, C108_root_file_partial) with their assumptions about numbers and ROOT; a ROOT output file that can be created is assumed. If the output file is also an input file, it is emptied before it is read (C108_self_violated). marprint prints a negative half-integer spin wrongly (C108_spin_violated)."
  },
  {
   "property": "C109",
   "status": "partial",
   "theorems": [
    "Marley.Props.C109_table_partial",
    "Marley.Props.C109_energies",
    "Marley.Props.C109_settings",
    "Marley.Props.C109_refused",
    "Marley.Props.C109_rounded_partial",
    "Marley.Props.C109_last_violated",
    "Marley.Props.C109_steps_violated"
   ],
   "note": "Numbers are those of a field. With rounding errors of the energies (doubles, range of exponents apart) line number i has the right energy up to i + 2 roundings (C109_rounded_partial); the last energy need not be the upper end to the last digit (C109_last_violated). The number of steps is truncated to 32 bits (C109_steps_violated)."
  },
  {
   "property": "C11",
   "status": "partial",
   "theorems": [
    "Marley.Props.C11_event_json_roundtrip",
    "Marley.Props.C11_malformed_rejected",
    "Marley.Props.C11_error_kind_partial",
    "Marley.Props.C11_missing_parity_fails"
   ],
   "note": "Round trip and rejection proved in full; a missing parity key gives std::out_of_range instead of marley::Error."
  },
  {
   "property": "C110",
   "status": "partial",
   "theorems": [
    "Marley.Props.C110_gamma",
    "Marley.Props.C110_pole",
    "Marley.Props.C110_reflection",
    "Marley.Props.C110_conj",
    "Marley.Props.C110_value_partial",
    "Marley.Props.C110_charge",
    "Marley.Props.C110_neutral",
    "Marley.Props.C110_heavy_violated",
    "Marley.Props.C110_nonneg",
    "Marley.Props.C110_total",
    "Marley.Props.C110_factor",
    "Marley.Props.C110_combined",
    "Marley.Props.C110_cross_section_partial",
    "Marley.Props.C110_total_defined",
    "Marley.Props.C110_total_positive",
    "Marley.Props.C110_choose"
   ],
   "note": "Over real and complex numbers. The complex gamma function is that of the program, the approximation of Lanczos: that it has no zeros is proved with the criterion of Routh for its numerator; how much it differs from the true gamma function is not proved (except at 1). The real gamma function of the C++ library is Mathlib's. With 138 or more protons the result is not a number (C110_heavy_violated). C110_factor and C110_cross_section_partial: the factor and the cross sections are positive without correction, with the Fermi function, and in every mode for attracted leptons. For repelled leptons the combined modes give a number that is not negative, and zero only if the effective energy is exactly the mass (C110_combined); the modes that only use the effective momentum can throw (C39). With this total cross sections are always numbers, and above the threshold of a transition with strength they are positive and an event finds a transition (C110_total_defined, C110_total_positive, C110_choose; for ordered level energies)."
  },
  {
   "property": "C111",
   "status": "partial",
   "theorems": [
    "Marley.Props.C111_report",
    "Marley.Props.C111_report_spins_partial",
    "Marley.Props.C111_spins_violated",
    "Marley.Props.C111_table",
    "Marley.Props.C111_table_errors",
    "Marley.Props.C111_units_violated",
    "Marley.Props.C111_target",
    "Marley.Props.C111_target_distinct",
    "Marley.Props.C111_target_violated",
    "Marley.Props.C111_decay",
    "Marley.Props.C111_decay_built",
    "Marley.Props.C111_decay_unknown"
   ],
   "note": "How numbers are printed is arbitrary, apart from not containing separators (the program prints six digits, so that a reader gets rounded numbers; C111_target_distinct assumes that different numbers are printed differently). Half-integer spins are shown wrongly (C111_spins_violated; for integer spins C111_report_spins_partial), the table announces keV but contains MeV (C111_units_violated), and targets of elements without symbol are shown as ?? (C111_target_violated). A gamma without final level is undefined behaviour (C111_report, C111_table_errors)."
  },
  {
   "property": "C112",
   "status": "partial",
   "theorems": [
    "Marley.Props.C112_symbol",
    "Marley.Props.C112_symbol_distinct",
    "Marley.Props.C112_describe",
    "Marley.Props.C112_describe_distinct",
    "Marley.Props.C112_describe_excited",
    "Marley.Props.C112_describe_electron",
    "Marley.Props.C112_describe_built"
   ],
   "note": "Texts are lists of characters: encoding as UTF-8 is not modelled. C112_describe_built for the constructor of reactions with leptons."
  },
  {
   "property": "C113",
   "status": "partial",
   "theorems": [
    "Marley.Props.C113_neutrinos",
    "Marley.Props.C113_no_events",
    "Marley.Props.C113_incomplete",
    "Marley.Props.C113_hepevt_violated",
    "Marley.Props.C113_angles",
    "Marley.Props.C113_forward_violated",
    "Marley.Props.C113_particles_partial",
    "Marley.Props.C113_ascending_violated",
    "Marley.Props.C113_excitation",
    "Marley.Props.C113_reconstruction",
    "Marley.Props.C113_resolution",
    "Marley.Props.C113_channels",
    "Marley.Props.C113_print_partial",
    "Marley.Props.C113_text_file",
    "Marley.Props.C113_root_file"
   ],
   "note": "Histograms of ROOT are modelled by their limits, values and factor; doubles are an ordered field. Violated for HEPEVT files (cross section zero), ejectiles exactly forward, and particles whose energies occur in ascending order."
  },
  {
   "property": "C114",
   "status": "partial",
   "theorems": [
    "Marley.Props.C114_primaries",
    "Marley.Props.C114_run",
    "Marley.Props.C114_number",
    "Marley.Props.C114_program",
    "Marley.Props.C114_conserved",
    "Marley.Props.C114_evgen",
    "Marley.Props.C114_read_again",
    "Marley.Props.C114_efr",
    "Marley.Props.C114_efr_ascii"
   ],
   "note": "Geant4 is modelled by its loop that calls the generator action and the event action for each event; its tracking, geometry and physics lists are not modelled. C114_conserved is for exact arithmetic, as C88."
  },
  {
   "property": "C115",
   "status": "partial",
   "theorems": [
    "Marley.Props.C115_handler",
    "Marley.Props.C115_value",
    "Marley.Props.C115_messages",
    "Marley.Props.C115_function",
    "Marley.Props.C115_not_finite"
   ],
   "note": "GSL itself is a function that gives values, exponents, a code and the errors it reports; that its values are the Coulomb functions is an assumption (Right), also that it reports errors only through the handler. Over real numbers, with non-finite values apart. Messages on standard output are left to C71."
  },
  {
   "property": "C116",
   "status": "proved",
   "theorems": [
    "Marley.Props.C116_members",
    "Marley.Props.C116_pointers",
    "Marley.Props.C116_compare",
    "Marley.Props.C116_range",
    "Marley.Props.C116_pointer_range",
    "Marley.Props.C116_null"
   ],
   "note": "Containers are lists and iterators positions in them; a member is a pair of functions that read and overwrite it (Member.Lawful). C116_pointers reduces pointers to members, C116_members members to a plain iterator. The subscript operator of IteratorToPointerMember cannot be compiled and is left out."
  },
  {
   "property": "C117",
   "status": "partial",
   "theorems": [
    "Marley.Props.C117_lines_partial",
    "Marley.Props.C117_distinct_partial",
    "Marley.Props.C117_spin_violated"
   ],
   "note": "How doubles are printed is arbitrary; C117_distinct_partial assumes that they are printed without blanks and different ones differently (the program prints six digits). For spins that are not negative: -1/2 is shown like 0 (C117_spin_violated)."
  },
  {
   "property": "C118",
   "status": "proved",
   "theorems": [
    "Marley.Props.C118_next",
    "Marley.Props.C118_all",
    "Marley.Props.C118_lines",
    "Marley.Props.C118_reaction_files",
    "Marley.Props.C118_empty_lines"
   ],
   "note": "A regular expression is any predicate on lines. C118_reaction_files relates it to the reading of reaction files. C118_empty_lines shows that an empty result may also be an empty line."
  },
  {
   "property": "C119",
   "status": "proved",
   "theorems": [
    "Marley.Props.C119_continued",
    "Marley.Props.C119_truncated",
    "Marley.Props.C119_dump",
    "Marley.Props.C119_resume"
   ],
   "note": "The conversion of texts to doubles is arbitrary. C119_dump assumes that the doubles of the object survive being written and read."
  },
  {
   "property": "C12",
   "status": "partial",
   "theorems": [
    "Marley.Props.C12_ownership",
    "Marley.Props.C12_copy_is_independent",
    "Marley.Props.C12_self_assignment_fails",
    "Marley.Props.C12_failed_read_leaks"
   ],
   "note": "Memory safety, exclusive ownership, absence of leaks and value semantics proved for all operation sequences; self copy assignment empties the event (Event.cc:116-137), and a failed read leaks one particle (Event.cc:271-286)."
  },
  {
   "property": "C120",
   "status": "partial",
   "theorems": [
    "Marley.Props.C120_load_partial",
    "Marley.Props.C120_unique",
    "Marley.Props.C120_members",
    "Marley.Props.C120_comment_violated",
    "Marley.Props.C120_number_violated"
   ],
   "note": "Keys must not contain characters that need escaping (C01_dump_load_fails), and escapes with a character number are left out (they are kept as they are). A comment directly behind a number is an error, and behind a key without quotes it becomes part of the key (C120_comment_violated). What follows a minus sign within a number is dropped (C120_number_violated). The conversion of texts to doubles is arbitrary."
  },
  {
   "property": "C121",
   "status": "partial",
   "theorems": [
    "Marley.Props.C121_ascii_partial",
    "Marley.Props.C121_one_digit_partial",
    "Marley.Props.C121_newline",
    "Marley.Props.C121_charge_violated",
    "Marley.Props.C121_hepevt_partial",
    "Marley.Props.C121_json"
   ],
   "note": "The file is cut off behind its first event at the earliest (ASCII, HEPEVT). False for ASCII files whose last charge has more than one digit: the digits that are left are taken for the charge (C121_charge_violated, C121_ascii_partial says what can happen at most). The beginning of a printed double is assumed to be read to the end or not at all (LawfulCut)."
  },
  {
   "property": "C122",
   "status": "partial",
   "theorems": [
    "Marley.Props.C122_density",
    "Marley.Props.C122_searched",
    "Marley.Props.C122_ends",
    "Marley.Props.C122_endless",
    "Marley.Props.C122_underestimated",
    "Marley.Props.C122_estimate_violated"
   ],
   "note": "For exact arithmetic and draws that are independent and uniform real numbers (iid); n trials for each n, with their exact probability. If the maximum is estimated too low, adopting a new one does not repair the distribution: a function that is nowhere below the estimate is sampled uniformly (C122_underestimated, C122_estimate_violated)."
  },
  {
   "property": "C123",
   "status": "partial",
   "theorems": [
    "Marley.Props.C123_weighted",
    "Marley.Props.C123_unweighted"
   ],
   "note": "For exact arithmetic and draws that are independent and uniform real numbers, and for a bound of the density (given or searched for) that is not exceeded. The cross sections are assumed to be measurable functions of the energy, not negative, and defined on the range of the source. Sources with a single energy are not covered."
  },
  {
   "property": "C124",
   "status": "partial",
   "theorems": [
    "Marley.Props.C124_uniform",
    "Marley.Props.C124_isotropic",
    "Marley.Props.C124_axis",
    "Marley.Props.C124_projectile",
    "Marley.Props.C124_decay",
    "Marley.Props.C124_in_flight"
   ],
   "note": "For exact arithmetic and two draws that are independent and uniform real numbers. C124_decay and C124_in_flight are about single decays from the two draws."
  },
  {
   "property": "C125",
   "status": "partial",
   "theorems": [
    "Marley.Props.C125_distribution",
    "Marley.Props.C125_accuracy"
   ],
   "note": "For exact arithmetic and a draw that is a uniform real number. That the Chebyshev approximation of a cumulative function is nondecreasing is not proved."
  },
  {
   "property": "C126",
   "status": "partial",
   "theorems": [
    "Marley.Props.C126_nuclear",
    "Marley.Props.C126_electron",
    "Marley.Props.C126_ejectile"
   ],
   "note": "For exact arithmetic and draws that are independent and uniform real numbers. C126_electron is for sets of events whose angles form a measurable set, which C126_ejectile shows for all measurable sets of four-momenta of the ejectile."
  },
  {
   "property": "C127",
   "status": "partial",
   "theorems": [
    "Marley.Props.C127_route",
    "Marley.Props.C127_follows",
    "Marley.Props.C127_law"
   ],
   "note": "For exact arithmetic and draws that are independent and uniform real numbers. C127_law, which identifies the route from the particles in the event, assumes that no two gammas of a level lead to levels of equal energy; C127_route and C127_follows do not."
  },
  {
   "property": "C128",
   "status": "partial",
   "theorems": [
    "Marley.Props.C128_transition",
    "Marley.Props.C128_event",
    "Marley.Props.C128_spin"
   ],
   "note": "For exact arithmetic and draws that are independent and uniform real numbers, and without transitions of strength zero (see C36_violated). C128_event assumes that the levels have different energies, that two transitions at least are accessible (with one, no number is drawn for the choice; C128_transition covers it), and that spin and parity are found whatever the number in [0, 1) drawn for them (levels of a decay scheme, Fermi transitions, targets without spin, and by C128_spin also Gamow-Teller transitions to the continuum). The joint law of spin and ejectile is not stated."
  },
  {
   "property": "C129",
   "status": "partial",
   "theorems": [
    "Marley.Props.C129_channel",
    "Marley.Props.C129_decay",
    "Marley.Props.C129_spin_fragment",
    "Marley.Props.C129_spin_gamma"
   ],
   "note": "For exact arithmetic and a draw that is a uniform real number, and for widths that are not negative. C129_decay assumes that the channels in question can decay (their products have masses in the table and energy enough, see C52_products_partial). The law of the final energy in the continuum is that of C125."
  },
  {
   "property": "C13",
   "status": "partial",
   "theorems": [
    "Marley.Props.C13_grid_points_partial",
    "Marley.Props.C13_rule_between_points",
    "Marley.Props.C13_linear_between_neighbours",
    "Marley.Props.C13_constant_rule",
    "Marley.Props.C13_constant_rule_fails",
    "Marley.Props.C13_rounded_partial",
    "Marley.Props.C13_rounded_points_partial",
    "Marley.Props.C13_negative_violated"
   ],
   "note": "With rounding (linear-linear rule, doubles, range of exponents apart) grid points and lines are reproduced up to a few rounding errors; at a grid point with ordinate zero the value can be negative (C13_negative_violated). The rest: over the reals, for strictly increasing grids. The constant rule returns the previous ordinate at every grid abscissa but the first (proved); the other four rules reproduce the grid points. Log rules need positive data."
  },
  {
   "property": "C130",
   "status": "partial",
   "theorems": [
    "Marley.Props.C130_bound",
    "Marley.Props.C130_compound"
   ],
   "note": "For exact arithmetic and draws that are independent and uniform real numbers. C130_compound is for nuclei with two channels at least and a channel that leads to a level in one step; it says which channel was sampled in terms of the first draw, since chains through the continuum can leave the same kinds of particles. Chains through the continuum are those of C135_path."
  },
  {
   "property": "C131",
   "status": "partial",
   "theorems": [
    "Marley.Props.C131_reaction",
    "Marley.Props.C131_event",
    "Marley.Props.C131_single"
   ],
   "note": "For draws that are independent and uniform real numbers. C131_event assumes two open reactions at least: with one, no number is drawn (C131_single)."
  },
  {
   "property": "C132",
   "status": "partial",
   "theorems": [
    "Marley.Props.C132_reaction",
    "Marley.Props.C132_event",
    "Marley.Props.C132_independent",
    "Marley.Props.C132_sequence",
    "Marley.Props.C132_renews",
    "Marley.Props.C132_run"
   ],
   "note": "For exact arithmetic and an engine whose draws are independent and uniform real numbers (Ideal; reader_ideal shows one). The loop of rejection sampling is bounded in the model: the probability that it comes to an end is a factor of each event and tends to one. The bound must be one for the density (otherwise C16_restored_violated). C132_independent and C132_sequence have as a hypothesis that what reactions make says nothing about later numbers (Renews); C132_renews proves it, for reactions and de-excitation that are determined by finitely many numbers (C133: those of MARLEY are). That the sets of energies and numbers that lead to events of a given kind are measurable stays a hypothesis."
  },
  {
   "property": "C133",
   "status": "partial",
   "theorems": [
    "Marley.Props.C133_decays",
    "Marley.Props.C133_nuclear",
    "Marley.Props.C133_electron",
    "Marley.Props.C133_source",
    "Marley.Props.C133_run",
    "Marley.Props.C133_marley",
    "Marley.Props.C133_replay"
   ],
   "note": "The engine is a source of real numbers in the model: how std::uniform_real_distribution makes a number of the words of std::mt19937_64 is not modelled. Loops are bounded by a number of trials, and coming to no end within it is one of the outcomes."
  },
  {
   "property": "C134",
   "status": "partial",
   "theorems": [
    "Marley.Props.C134_sampling",
    "Marley.Props.C134_sources",
    "Marley.Props.C134_mono",
    "Marley.Props.C134_fermiDirac",
    "Marley.Props.C134_betaFit",
    "Marley.Props.C134_decayAtRest",
    "Marley.Props.C134_grid",
    "Marley.Props.C134_table",
    "Marley.Props.C134_nuclear",
    "Marley.Props.C134_electron",
    "Marley.Props.C134_gammas",
    "Marley.Props.C134_ends_partial",
    "Marley.Props.C134_marley_partial",
    "Marley.Props.C134_decays",
    "Marley.Props.C134_compound_partial",
    "Marley.Props.C134_not_surely"
   ],
   "note": "For exact arithmetic and an ideal engine. C134_sources is for sources of a single energy and for continuous spectra (C134_mono, C134_fermiDirac, C134_betaFit, C134_decayAtRest) and grids with any rule (C134_grid, and C134_table for those that the constructor accepts). The model bounds the passes of each loop by a number; Ends says that from some number on the outcome is there and stays the same. C134_ends_partial has as hypotheses that the reactions and the de-excitation of the events they make end (Parts); C134_marley_partial proves them for the reactions and the decayer of MARLEY if no residue is above the threshold for the emission of fragments, or without de-excitation. C134_decays and C134_compound_partial have nuclei above the threshold too, for orderly data: gamma rays lead down, fragments have one to nine nucleons, no nucleus without nucleons has a mass, and within 1e-12 MeV above the highest level the channels other than gamma rays to the continuum keep a share of the width. Missing: rounding."
  },
  {
   "property": "C135",
   "status": "partial",
   "theorems": [
    "Marley.Props.C135_stages",
    "Marley.Props.C135_mean",
    "Marley.Props.C135_chain",
    "Marley.Props.C135_event",
    "Marley.Props.C135_path",
    "Marley.Props.C135_motion",
    "Marley.Props.C135_step",
    "Marley.Props.C135_memoryless",
    "Marley.Props.C135_course",
    "Marley.Props.C135_complete",
    "Marley.Props.C135_law",
    "Marley.Props.C135_emitted"
   ],
   "note": "For exact arithmetic and an ideal engine. C135_stages, C135_mean, C135_chain and C135_event have as a hypothesis that the numbers that lead to the results in question form measurable sets; C135_path and C135_step have not, since a decay without its directions has countably many results. The passes of the loops are bounded in the model by a number, whose probability of being exceeded is part of the steps (see C134). C135_step is for steps to levels; the probabilities of steps to the continuum are those of C125 and C129."
  },
  {
   "property": "C136",
   "status": "partial",
   "theorems": [
    "Marley.Props.C136_binomial",
    "Marley.Props.C136_counts",
    "Marley.Props.C136_completed",
    "Marley.Props.C136_frequency",
    "Marley.Props.C136_rates",
    "Marley.Props.C136_multinomial",
    "Marley.Props.C136_histogram",
    "Marley.Props.C136_mean",
    "Marley.Props.C136_variance",
    "Marley.Props.C136_waiting",
    "Marley.Props.C136_unlimited",
    "Marley.Props.C136_unlimited_sum",
    "Marley.Props.C136_share",
    "Marley.Props.C136_strong",
    "Marley.Props.C136_strong_rates",
    "Marley.Props.C136_average",
    "Marley.Props.C136_average_bounded",
    "Marley.Props.C136_normal",
    "Marley.Props.C136_errors"
   ],
   "note": "For exact arithmetic and an ideal engine. The hypotheses are those of C132: a bound of the rejection sampling that is not exceeded, and reactions that renew the engine (Renews), which C132_renews proves for reactions and de-excitation that use finitely many numbers. With loops limited to a number of passes a run is completed with a probability below one, and the counts are those of completed runs; C136_unlimited, C136_share and C136_strong have no limit: they speak of what the generator gives from some number of passes on (that there is one follows from C134_ends_partial). C136_strong, C136_average (for quantities with a mean value, as bounded ones have), C136_normal and C136_errors (with a variance) suppose that an event is made with probability one, that is without exceptions. Missing: rounding."
  },
  {
   "property": "C14",
   "status": "partial",
   "theorems": [
    "Marley.Props.C14_left_of_range",
    "Marley.Props.C14_right_of_range",
    "Marley.Props.C14_inside_range",
    "Marley.Props.C14_too_few_points",
    "Marley.Props.C14_continue_constant_right_fails"
   ],
   "note": "Proved for all sorted grids, rules and abscissae; the one departure (constant rule with Continue, right of the range, uses the last ordinate instead of the last bin's) is proved as such."
  },
  {
   "property": "C15",
   "status": "partial",
   "theorems": [
    "Marley.Props.C15_constructor_partial",
    "Marley.Props.C15_constructor_unordered_fails",
    "Marley.Props.C15_insert",
    "Marley.Props.C15_insert_all"
   ],
   "note": "Insertion proved in full. The constructor never detects unordered abscissae because old_x is not updated (InterpolationGrid.hh:130-137): proved false."
  },
  {
   "property": "C16",
   "status": "partial",
   "theorems": [
    "Marley.Props.C16_state_text",
    "Marley.Props.C16_same_seed",
    "Marley.Props.C16_restored_partial",
    "Marley.Props.C16_restored_violated"
   ],
   "note": "The state text of the engine (std::mt19937_64 written as words and position) round-trips for every state. Two generators with the same configuration and seed, whatever they did before, give the same events. A restored generator continues the run if the stored bound of the energy density is the one a new generator finds; the bound is raised by rejection_sample when a trial exceeds it and is not part of the state text, and C16_restored_violated is a run that then differs. Reactions, sources and de-excitation are arbitrary functions of their arguments and the engine."
  },
  {
   "property": "C17",
   "status": "partial",
   "theorems": [
    "Marley.Props.C17_seeds_partial",
    "Marley.Props.C17_violated"
   ],
   "note": "Only the low 32 bits of the seed reach the engine: seeds below 2^32 give different seed sequences, and any two seeds that agree modulo 2^32 leave the generator in the same state."
  },
  {
   "property": "C18",
   "status": "partial",
   "theorems": [
    "Marley.Props.C18_rejection_partial",
    "Marley.Props.C18_range_exact",
    "Marley.Props.C18_range_violated",
    "Marley.Props.C18_positive_violated"
   ],
   "note": "Proved for every returning call, any engine with numbers in [0,1) and any monotone rounding, provided the width of the interval is representable. Proved false in doubles: the abscissa can be the double after xmax (also for xmin = xmax), and an ordinate of 0 accepts a point of zero density. The loop need not end for unlucky draws; it ends with probability one (C134_sampling)."
  },
  {
   "property": "C19",
   "status": "partial",
   "theorems": [
    "Marley.Props.C19_weights",
    "Marley.Props.C19_choice_partial",
    "Marley.Props.C19_probability",
    "Marley.Props.C19_zero_violated",
    "Marley.Props.C19_rounded_partial",
    "Marley.Props.C19_doubles_partial",
    "Marley.Props.C19_last_violated"
   ],
   "note": "The weights used are those at the returned energy for every history of trials. A reaction with weight zero is chosen only if it is the first and the random number is exactly 0, which is possible. Over the reals. With rounding errors (doubles, range of exponents apart) the random number lies in the share of the chosen reaction up to a relative error of twice the number of reactions times 2^-53, and a last reaction with weight zero can be chosen with a random number that close to 1 (C19_last_violated)."
  },
  {
   "property": "C20",
   "status": "partial",
   "theorems": [
    "Marley.Props.C20_density",
    "Marley.Props.C20_total",
    "Marley.Props.C20_sign",
    "Marley.Props.C20_normalised_partial",
    "Marley.Props.C20_weight_flux_violated"
   ],
   "note": "Integral means the quadrature of the code. set_weight_flux does not renormalise, so the last clause fails after it; it is proved after any sequence of calls ending with a successful call of one of the others. Over the reals."
  },
  {
   "property": "C21",
   "status": "partial",
   "theorems": [
    "Marley.Props.C21_rejected",
    "Marley.Props.C21_chosen",
    "Marley.Props.C21_throws_iff"
   ],
   "note": "Over the reals, for every list of reactions with arbitrary cross-section and event functions. The 'exactly when' direction assumes that the chosen reaction and the de-excitation themselves succeed and that the direction is not the null vector."
  },
  {
   "property": "C22",
   "status": "partial",
   "theorems": [
    "Marley.Props.C22_range",
    "Marley.Props.C22_terminates",
    "Marley.Props.C22_bound_exists",
    "Marley.Props.C22_crossing",
    "Marley.Props.C22_rounded_range",
    "Marley.Props.C22_rounded_terminates_partial",
    "Marley.Props.C22_rounded_crossing_partial",
    "Marley.Props.C22_doubles_partial",
    "Marley.Props.C22_endless_violated"
   ],
   "note": "Proved for all monotone cumulative functions and tolerances over the reals. With rounding the range holds too, and the rest if the tolerance is larger than the rounding errors of the ends of the range (for the default tolerance up to 4000 MeV, C22_doubles_partial); otherwise the loop need not end (C22_endless_violated, at 8192 MeV). The range of exponents is not modelled."
  },
  {
   "property": "C23",
   "status": "partial",
   "theorems": [
    "Marley.Props.C23_closest",
    "Marley.Props.C23_closest_built",
    "Marley.Props.C23_no_levels",
    "Marley.Props.C23_rounded",
    "Marley.Props.C23_rounded_distance_partial",
    "Marley.Props.C23_doubles_partial",
    "Marley.Props.C23_rounding_violated"
   ],
   "note": "Proved for all schemes and energies in exact arithmetic (any ordered field), including which level is taken at equal distance. With rounded differences the level is the closest as computed (C23_rounded); its true distance may be larger than that of another level in the last place (C23_doubles_partial, C23_rounding_violated). NaN energies and the range of exponents are not modelled."
  },
  {
   "property": "C24",
   "status": "proved",
   "theorems": [
    "Marley.Props.C24_sorted_and_complete",
    "Marley.Props.C24_references",
    "Marley.Props.C24_add_gamma",
    "Marley.Props.C24_equal_energies"
   ],
   "note": "Proved for all sequences of add_level and add_gamma calls; energies are any linear order (no NaN)."
  },
  {
   "property": "C25",
   "status": "partial",
   "theorems": [
    "Marley.Props.C25_cascade",
    "Marley.Props.C25_null_end_level"
   ],
   "note": "Proved in exact real arithmetic for all schemes with downward gammas, starting levels and draws: termination, one photon per transition, order, end level, masses and four-momentum. Random draws are inputs; rounding is not modelled."
  },
  {
   "property": "C26",
   "status": "partial",
   "theorems": [
    "Marley.Props.C26_round_trip_partial",
    "Marley.Props.C26_equal_energies_fails",
    "Marley.Props.C26_upward_gamma_fails"
   ],
   "note": "Round trip proved for schemes with distinct energies and gammas that do not lead upwards, for every lawful number format. Proved false for equal energies (order reversed) and upward gammas (out_of_range). The default stream precision loses digits (not lawful)."
  },
  {
   "property": "C27",
   "status": "partial",
   "theorems": [
    "Marley.Props.C27_spin_parity_string_fails",
    "Marley.Props.C27_every_half_integer_spin_wrong",
    "Marley.Props.C27_integer_spin_partial",
    "Marley.Props.C27_strings_distinct"
   ],
   "note": "The property is false: every half-integer spin is printed with the wrong numerator (3/2 as 1/2). Proved: the negation, correctness for integer spins, and that different spin-parities give different strings."
  },
  {
   "property": "C28",
   "status": "proved",
   "theorems": [
    "Marley.Props.C28_nucleus_code",
    "Marley.Props.C28_nucleus_code_injective"
   ],
   "note": "All 0 <= Z <= A < 1000, over unbounded integers; the codes are proved to fit 32 bits."
  },
  {
   "property": "C29",
   "status": "proved",
   "theorems": [
    "Marley.Props.C29_neutrino_names",
    "Marley.Props.C29_coulomb_mode_names",
    "Marley.Props.C29_element_symbols",
    "Marley.Props.C29_nucid_roundtrip",
    "Marley.Props.C29_nucid_symbol"
   ],
   "note": "Tables transcribed entry by entry. An unknown neutrino code yields '?', which is no name; unknown Coulomb names throw the library's exception, unknown elements std::out_of_range."
  },
  {
   "property": "C30",
   "status": "proved",
   "theorems": [
    "Marley.Props.C30_split_string",
    "Marley.Props.C30_trim",
    "Marley.Props.C30_pad"
   ],
   "note": "All strings, delimiters and widths."
  },
  {
   "property": "C31",
   "status": "partial",
   "theorems": [
    "Marley.Props.C31_conserved",
    "Marley.Props.C31_projectiles",
    "Marley.Props.C31_refused",
    "Marley.Props.C31_members_violated"
   ],
   "note": "Proved for every accepted file in terms of the PDG codes and charges of the particles. Proved false for the mass numbers the reaction object keeps itself: for an antineutrino on hydrogen the residue is the neutron code 2112 and its mass number is taken to be 211."
  },
  {
   "property": "C32",
   "status": "partial",
   "theorems": [
    "Marley.Props.C32_lines_partial",
    "Marley.Props.C32_order_enforced",
    "Marley.Props.C32_increasing",
    "Marley.Props.C32_last_line_violated"
   ],
   "note": "Proved for files whose lines all end with a newline (comments, blanks and trailing text allowed); order holds for every accepted file. Proved false without a final newline: the last line is ignored. Blank or malformed lines use uninitialised variables in the code and are a distinct outcome of the model."
  },
  {
   "property": "C33",
   "status": "partial",
   "theorems": [
    "Marley.Props.C33_matched",
    "Marley.Props.C33_throws_iff_shared",
    "Marley.Props.C33_no_scheme",
    "Marley.Props.C33_wrong_scheme",
    "Marley.Props.C33_empty_scheme_violated"
   ],
   "note": "Proved for all ordered schemes with a level, all lists of matrix elements and all thresholds. Proved false for a scheme without levels, where a null pointer is dereferenced."
  },
  {
   "property": "C34",
   "status": "partial",
   "theorems": [
    "Marley.Props.C34_conserves"
   ],
   "note": "Proved in exact real arithmetic for all masses, energies and angles: shells, four-momentum, angle in the center-of-momentum frame. Floating-point rounding is not modelled."
  },
  {
   "property": "C35",
   "status": "partial",
   "theorems": [
    "Marley.Props.C35_threshold",
    "Marley.Props.C35_level",
    "Marley.Props.C35_below_threshold"
   ],
   "note": "Proved in exact real arithmetic for all masses and energies. Rounding is not modelled."
  },
  {
   "property": "C36",
   "status": "partial",
   "theorems": [
    "Marley.Props.C36_accessible",
    "Marley.Props.C36_weights_partial",
    "Marley.Props.C36_event",
    "Marley.Props.C36_violated"
   ],
   "note": "Inaccessible transitions are never chosen, for all lists. The weights are the partial cross sections if no tabulated strength is zero; with a zero strength the stored weights are shifted against the transitions (C36_violated: the transition without strength is always chosen). A weight of zero can be drawn only with a random number exactly 0. Over the reals, Fermi function arbitrary. With rounding errors see C19_rounded_partial: a last weight of zero can also be drawn with a random number next to 1."
  },
  {
   "property": "C37",
   "status": "partial",
   "theorems": [
    "Marley.Props.C37_sum_partial",
    "Marley.Props.C37_inaccessible",
    "Marley.Props.C37_nonneg",
    "Marley.Props.C37_zero",
    "Marley.Props.C37_unsorted_violated"
   ],
   "note": "The sum needs level energies in order; level matching can break the order and then accessible transitions are left out (C37_unsorted_violated). NaN partial cross sections count as zero as in the code. Over the reals with infinities and NaN followed; the Fermi function is an arbitrary function of reaction and speed."
  },
  {
   "property": "C38",
   "status": "partial",
   "theorems": [
    "Marley.Props.C38_spin_parity",
    "Marley.Props.C38_weights"
   ],
   "note": "For every target spin and parity, transition type and random number, with arbitrary level densities. The ground-state spin is assumed nonnegative. Spins are unbounded integers."
  },
  {
   "property": "C39",
   "status": "partial",
   "theorems": [
    "Marley.Props.C39_one",
    "Marley.Props.C39_fermi",
    "Marley.Props.C39_ema_value",
    "Marley.Props.C39_ema",
    "Marley.Props.C39_combined"
   ],
   "note": "The Fermi function is an arbitrary function of reaction and speed here; its value is the subject of C110. The effective momentum approximation is proved against an independent description for speeds strictly between 0 and 1, positive lepton mass and mass number. Over the reals."
  },
  {
   "property": "C40",
   "status": "partial",
   "theorems": [
    "Marley.Props.C40_integral",
    "Marley.Props.C40_nonneg",
    "Marley.Props.C40_positive"
   ],
   "note": "For all couplings, masses, projectiles and energies, over the reals."
  },
  {
   "property": "C41",
   "status": "partial",
   "theorems": [
    "Marley.Props.C41_bound",
    "Marley.Props.C41_attained"
   ],
   "note": "For all couplings, masses, energies and cosines in [-1, 1], over the reals."
  },
  {
   "property": "C42",
   "status": "partial",
   "theorems": [
    "Marley.Props.C42_density"
   ],
   "note": "For all speeds from 0 to 1, over the reals."
  },
  {
   "property": "C43",
   "status": "partial",
   "theorems": [
    "Marley.Props.C43_mass",
    "Marley.Props.C43_species",
    "Marley.Props.C43_spectra",
    "Marley.Props.C43_density"
   ],
   "note": "Full statement over the real numbers, for both flavours and all energies, with the Michel spectra as specification. Rounding of doubles is not modelled."
  },
  {
   "property": "C44",
   "status": "partial",
   "theorems": [
    "Marley.Props.C44_not_neutrino",
    "Marley.Props.C44_species",
    "Marley.Props.C44_table_accepted",
    "Marley.Props.C44_table_stored",
    "Marley.Props.C44_vectors",
    "Marley.Props.C44_range_partial",
    "Marley.Props.C44_ordered_vectors",
    "Marley.Props.C44_extrapolation_violated",
    "Marley.Props.C44_unordered_violated",
    "Marley.Props.C44_zero_density_violated"
   ],
   "note": "Species, table acceptance (iff) and positive energies hold. The density vanishes outside the range for all sources except tables that extrapolate or have unordered energies; both exceptions are proved with witnesses. A positive total does not exclude a histogram that is zero at every energy (C44_zero_density_violated). Real arithmetic."
  },
  {
   "property": "C45",
   "status": "partial",
   "theorems": [
    "Marley.Props.C45_dominated_partial",
    "Marley.Props.C45_violated",
    "Marley.Props.C45_distribution_violated"
   ],
   "note": "The property is false: a static variable is shared by all sources. Proved with a witness for single samples and for the distribution; the partial theorem says when the history does not matter."
  },
  {
   "property": "C46",
   "status": "partial",
   "theorems": [
    "Marley.Props.C46_boost_keeps_mass_shell",
    "Marley.Props.C46_boost_keeps_products",
    "Marley.Props.C46_boost_velocity",
    "Marley.Props.C46_zero_velocity",
    "Marley.Props.C46_superluminal_rejected",
    "Marley.Props.C46_rotate"
   ],
   "note": "Proved in exact real arithmetic for all particles, velocities and directions. Rounding is not modelled."
  },
  {
   "property": "C47",
   "status": "partial",
   "theorems": [
    "Marley.Props.C47_forbidden",
    "Marley.Props.C47_conserves"
   ],
   "note": "Proved in exact real arithmetic for all parents of positive mass, daughters and angles. Rounding is not modelled."
  },
  {
   "property": "C48",
   "status": "partial",
   "theorems": [
    "Marley.Props.C48_rotation",
    "Marley.Props.C48_direction_exists",
    "Marley.Props.C48_null_rejected"
   ],
   "note": "Proved in exact real arithmetic for all pairs of vectors, both branches. Rounding is not modelled."
  },
  {
   "property": "C49",
   "status": "partial",
   "theorems": [
    "Marley.Props.C49_rotated",
    "Marley.Props.C49_projectile_direction",
    "Marley.Props.C49_products",
    "Marley.Props.C49_configured",
    "Marley.Props.C49_at_rest",
    "Marley.Props.C49_constructor_violated"
   ],
   "note": "Proved for every history of a default-constructed rotator (the way the library uses it), in exact real arithmetic. A rotator constructed with another direction does not turn its first events along z: proved."
  },
  {
   "property": "C50",
   "status": "partial",
   "theorems": [
    "Marley.Props.C50_kept",
    "Marley.Props.C50_charge",
    "Marley.Props.C50_nucleons_partial",
    "Marley.Props.C50_products"
   ],
   "note": "For all events, data and draws, over decays of any length, also if an exception is thrown. Charge is conserved if the fragments are nuclei; protons and nucleons if each scheme is filed under its nucleus and mass-table codes are those of nuclei. A fragment with more protons than the nucleus has no mass and ends the model run (.ub)."
  },
  {
   "property": "C51",
   "status": "partial",
   "theorems": [
    "Marley.Props.C51_zero",
    "Marley.Props.C51_negative",
    "Marley.Props.C51_not_ion",
    "Marley.Props.C51_ground_partial",
    "Marley.Props.C51_inconsistent",
    "Marley.Props.C51_no_level",
    "Marley.Props.C51_final",
    "Marley.Props.C51_twice_partial",
    "Marley.Props.C51_twice_violated"
   ],
   "note": "For all events, sane data and lawful draws, over the real numbers. A level within the tolerance of 1e-5 MeV of the ground state decays again on a second application (C51_twice_violated); otherwise the second application leaves the event alone, though it throws marley::Error if the first one stopped at an isomer."
  },
  {
   "property": "C52",
   "status": "partial",
   "theorems": [
    "Marley.Props.C52_offered_partial",
    "Marley.Props.C52_once",
    "Marley.Props.C52_energies_partial",
    "Marley.Props.C52_positive_partial",
    "Marley.Props.C52_positive_violated",
    "Marley.Props.C52_error",
    "Marley.Props.C52_decay_partial",
    "Marley.Props.C52_products_partial"
   ],
   "note": "For all nuclei, data and draws, over the real numbers, if known levels are sorted and not below the ground state. A draw of exactly zero selects the first channel even if its width is zero (C52_positive_violated). Transmission coefficients, level densities and strength functions are arbitrary."
  },
  {
   "property": "C53",
   "status": "partial",
   "theorems": [
    "Marley.Props.C53_discrete_partial",
    "Marley.Props.C53_discrete_closed",
    "Marley.Props.C53_continuum",
    "Marley.Props.C53_outside",
    "Marley.Props.C53_sampled",
    "Marley.Props.C53_discrete_violated"
   ],
   "note": "For all spins, parities and data. If the three spins cannot couple at all the discrete width counts waves that are not allowed (C53_discrete_violated). Transmission coefficients are arbitrary; int arithmetic is unbounded."
  },
  {
   "property": "C54",
   "status": "partial",
   "theorems": [
    "Marley.Props.C54_discrete_partial",
    "Marley.Props.C54_range",
    "Marley.Props.C54_closed",
    "Marley.Props.C54_continuum",
    "Marley.Props.C54_outside",
    "Marley.Props.C54_sampled",
    "Marley.Props.C54_discrete_violated"
   ],
   "note": "For all spins, parities and data. Between a whole and a half-integer spin the discrete width counts multipolarities that are not allowed (C54_discrete_violated). Strength functions are arbitrary; int arithmetic is unbounded."
  },
  {
   "property": "C55",
   "status": "partial",
   "theorems": [
    "Marley.Props.C55_stable",
    "Marley.Props.C55_others_kept",
    "Marley.Props.C55_terminates",
    "Marley.Props.C55_models_once",
    "Marley.Props.C55_models_distinct",
    "Marley.Props.C55_schemes_distinct",
    "Marley.Props.C55_hydrogen_violated"
   ],
   "note": "Proved for every history of operations and all file contents, including failing lookups. Proved false only for hydrogen, whose two codes get two model objects. Debug messages are not modelled."
  },
  {
   "property": "C56",
   "status": "partial",
   "theorems": [
    "Marley.Props.C56_add_partial",
    "Marley.Props.C56_emplace",
    "Marley.Props.C56_existing_violated"
   ],
   "note": "Proved when the nuclide has no entry; with an entry (even a null one) the old one is proved to stay in use."
  },
  {
   "property": "C57",
   "status": "partial",
   "theorems": [
    "Marley.Props.C57_complete_partial",
    "Marley.Props.C57_succeeds",
    "Marley.Props.C57_bad_parity",
    "Marley.Props.C57_failed_load_violated",
    "Marley.Props.C57_malformed_violated"
   ],
   "note": "Proved for all well-formed files and all call histories. Proved false: after a load that failed for a missing light particle later calls use a partial table; lines after a malformed one are silently ignored."
  },
  {
   "property": "C58",
   "status": "partial",
   "theorems": [
    "Marley.Props.C58_separation_energy",
    "Marley.Props.C58_separation_energy_codes",
    "Marley.Props.C58_estimates_not_allowed"
   ],
   "note": "Proved for all tables, nuclides and fragments over the reals; rounding is not modelled."
  },
  {
   "property": "C59",
   "status": "partial",
   "theorems": [
    "Marley.Props.C59_unbound_threshold",
    "Marley.Props.C59_unknown_fragment"
   ],
   "note": "Proved for tables of nuclear codes with at most 500 nucleons and fragments of known mass, over the reals with not-a-number as a separate outcome; rounding is not modelled."
  },
  {
   "property": "C60",
   "status": "partial",
   "theorems": [
    "Marley.Props.C60_accepted",
    "Marley.Props.C60_particles_partial",
    "Marley.Props.C60_unknown_particle_violated",
    "Marley.Props.C60_atoms",
    "Marley.Props.C60_same_by_numbers_partial",
    "Marley.Props.C60_hydrogen_violated"
   ],
   "note": "Loading and lookups proved for every file. Proved false: unknown particles give std::out_of_range instead of marley::Error, and the measured mass of hydrogen is not used when it is looked up by Z and A."
  },
  {
   "property": "C61",
   "status": "partial",
   "theorems": [
    "Marley.Props.C61_fresh_partial",
    "Marley.Props.C61_resumed_partial",
    "Marley.Props.C61_state_partial",
    "Marley.Props.C61_unwritable_violated"
   ],
   "note": "For all event sequences, indentations, reasons for a file to be new, and resumed files. Doubles must survive JSON text (C04). A file that cannot be written stays as it was without any exception (C61_unwritable_violated)."
  },
  {
   "property": "C62",
   "status": "partial",
   "theorems": [
    "Marley.Props.C62_error_keeps",
    "Marley.Props.C62_resume_partial",
    "Marley.Props.C62_keys_violated",
    "Marley.Props.C62_two_files_violated"
   ],
   "note": "For all file contents. Elements of events need keys without escapes and doubles that survive JSON text (C62_keys_violated). A job that asks to resume two files throws after the first was rewritten without its end (C62_two_files_violated)."
  },
  {
   "property": "C63",
   "status": "proved",
   "theorems": [
    "Marley.Props.C63_names",
    "Marley.Props.C63_modes",
    "Marley.Props.C63_kept"
   ],
   "note": "For all names, file contents and user input; the program is modelled as built without ROOT, which is why resuming a ROOT file is an error."
  },
  {
   "property": "C64",
   "status": "partial",
   "theorems": [
    "Marley.Props.C64_run_partial",
    "Marley.Props.C64_count_partial",
    "Marley.Props.C64_sessions_partial",
    "Marley.Props.C64_job_partial",
    "Marley.Props.C64_exception_partial",
    "Marley.Props.C64_beside_violated"
   ],
   "note": "For all generators, files, numbers of events and interruptions, over any number of resumed runs. A new JSON file beside a resumed one records both runs but contains only the second (C64_beside_violated); after an exception in the generator JSON files cannot be loaded (C64_exception_partial)."
  },
  {
   "property": "C65",
   "status": "partial",
   "theorems": [
    "Marley.Props.C65_ascii_partial",
    "Marley.Props.C65_hepevt_partial",
    "Marley.Props.C65_json_partial",
    "Marley.Props.C65_run_partial",
    "Marley.Props.C65_hepevt_xsec_violated",
    "Marley.Props.C65_json_again_violated",
    "Marley.Props.C65_empty_violated"
   ],
   "note": "For all event sequences, cross sections, and sequences of questions to the reader, and for the files a run leaves behind (C65_run_partial). Doubles must survive text; HEPEVT needs generated events. After the end a HEPEVT reader reports the cross section zero (C65_hepevt_xsec_violated), a JSON reader must not be asked again (C65_json_again_violated), and ASCII or HEPEVT files without events are rejected (C65_empty_violated)."
  },
  {
   "property": "C66",
   "status": "partial",
   "theorems": [
    "Marley.Props.C66_off_partial",
    "Marley.Props.C66_exact_partial",
    "Marley.Props.C66_open_partial",
    "Marley.Props.C66_success_violated",
    "Marley.Props.C66_parse_violated"
   ],
   "note": "For all files, readers and sequences of questions. The flag is never turned on and is restored exactly if the opening ends with marley::Error; every successful opening (C66_success_violated) and every JSON parse error (C66_parse_violated) leaves it off."
  },
  {
   "property": "C67",
   "status": "partial",
   "theorems": [
    "Marley.Props.C67_nuclear",
    "Marley.Props.C67_all_partial",
    "Marley.Props.C67_key",
    "Marley.Props.C67_duplicates_violated",
    "Marley.Props.C67_lost_violated"
   ],
   "note": "Proved in full for reactions on nuclei. For reactions on electrons the code only compares the first atom of each file: duplicates within a file or in later atoms are kept and a file whose first atom was seen loses its other atoms; proved under the condition that files do not overlap in part."
  },
  {
   "property": "C68",
   "status": "partial",
   "theorems": [
    "Marley.Props.C68_rules_partial",
    "Marley.Props.C68_codes_violated",
    "Marley.Props.C68_meaning_violated"
   ],
   "note": "All names, codes 1 to 5 and rejection of other non-numeric strings, for every string. False for numeric codes outside 1..5 (accepted as constant) and for the documented meaning of linlog and loglin (exchanged)."
  },
  {
   "property": "C69",
   "status": "partial",
   "theorems": [
    "Marley.Props.C69_density",
    "Marley.Props.C69_bins_partial",
    "Marley.Props.C69_zero_edge",
    "Marley.Props.C69_rejected"
   ],
   "note": "Integral over each bin, total, and probability, for all histograms with uneven bins. With a first edge of zero the first bin lacks the part below the smallest double (C69_zero_edge). Real arithmetic."
  },
  {
   "property": "C70",
   "status": "partial",
   "theorems": [
    "Marley.Props.C70_accepted",
    "Marley.Props.C70_accepted_unnamed",
    "Marley.Props.C70_fractions",
    "Marley.Props.C70_single",
    "Marley.Props.C70_not_a_nuclide",
    "Marley.Props.C70_unnamed_fails",
    "Marley.Props.C70_rounded_accepted",
    "Marley.Props.C70_rounded_fractions_partial",
    "Marley.Props.C70_sum_violated"
   ],
   "note": "Acceptance and composition proved for all lists over an ordered field. With rounding (doubles, range of exponents apart) the same lists are accepted, and the composition is right up to a relative error of twice the number of atoms times 2^-53; the sum need not be one to the last digit (C70_sum_violated). Proved: some rejected or warned inputs escape with out_of_range because an element has no symbol."
  },
  {
   "property": "C71",
   "status": "partial",
   "theorems": [
    "Marley.Props.C71_other_streams",
    "Marley.Props.C71_info_and_debug",
    "Marley.Props.C71_warnings_partial",
    "Marley.Props.C71_last_level",
    "Marley.Props.C71_standard_output_violated"
   ],
   "note": "Proved for every history of operations, except the claim that standard output never gets warnings, which is proved false for some histories."
  },
  {
   "property": "C72",
   "status": "partial",
   "theorems": [
    "Marley.Props.C72_existing_name",
    "Marley.Props.C72_first_directory_partial",
    "Marley.Props.C72_not_found_partial",
    "Marley.Props.C72_search_path",
    "Marley.Props.C72_empty_path",
    "Marley.Props.C72_list_partial",
    "Marley.Props.C72_socket_violated"
   ],
   "note": "Proved for every file system without sockets; a socket is proved to be taken for a regular file."
  },
  {
   "property": "C73",
   "status": "proved",
   "theorems": [
    "Marley.Props.C73_parity_algebra",
    "Marley.Props.C73_parity_group",
    "Marley.Props.C73_parity_ofInt",
    "Marley.Props.C73_parity_ofChar",
    "Marley.Props.C73_parity_stream"
   ],
   "note": "Whole Parity class."
  },
  {
   "property": "C74",
   "status": "partial",
   "theorems": [
    "Marley.Props.C74_partial",
    "Marley.Props.C74_error",
    "Marley.Props.C74_integral",
    "Marley.Props.C74_exact",
    "Marley.Props.C74_interpolates",
    "Marley.Props.C74_constructed",
    "Marley.Props.C74_violated"
   ],
   "note": "In exact arithmetic, for every object that can be constructed and every repeated cdf(). Holds whenever the last coefficient is zero, in particular for every polynomial of degree below the grid size; in general both errors are proportional to the last coefficient (C74_error), which cdf() treats in full although it counts half (C74_violated). The cosine transform of FFTPACK is modelled by its documented meaning; rounding is not modelled."
  },
  {
   "property": "C75",
   "status": "partial",
   "theorems": [
    "Marley.Props.C75_minimum",
    "Marley.Props.C75_maximum",
    "Marley.Props.C75_ends",
    "Marley.Props.C75_maximum_ends"
   ],
   "note": "Proved for every function, interval and positive tolerance, over the reals, for every call that returns; that the search ends is proved for exact arithmetic. The acceptance test of the parabolic step in the code has a reversed comparison and is modelled as it is."
  },
  {
   "property": "C76",
   "status": "partial",
   "theorems": [
    "Marley.Props.C76_ipow_partial",
    "Marley.Props.C76_ipow_fails",
    "Marley.Props.C76_real_sqrt",
    "Marley.Props.C76_quadratic_partial",
    "Marley.Props.C76_quadratic_fails",
    "Marley.Props.C76_quadratic_no_roots_fails"
   ],
   "note": "Over the reals. ipow returns 0 for exponents >= 32; the quadratic solver divides 0 by 0 for a double root at zero and returns non-roots when there is no real root. Proved in the other cases."
  },
  {
   "property": "C77",
   "status": "partial",
   "theorems": [
    "Marley.Props.C77_mandelstam",
    "Marley.Props.C77_cm_frame",
    "Marley.Props.C77_collinear_massless"
   ],
   "note": "Proved in exact real arithmetic when one particle is massive; two collinear massless particles throw."
  },
  {
   "property": "C78",
   "status": "partial",
   "theorems": [
    "Marley.Props.C78_binding_energy",
    "Marley.Props.C78_mass_excess"
   ],
   "note": "Proved for all tables and nuclides over the reals; rounding is not modelled."
  },
  {
   "property": "C79",
   "status": "partial",
   "theorems": [
    "Marley.Props.C79_flux_average"
   ],
   "note": "Over the reals, with the integration rule of the code for both integrals, after any successful normalisation with flux weighting."
  },
  {
   "property": "C80",
   "status": "partial",
   "theorems": [
    "Marley.Props.C80_exact",
    "Marley.Props.C80_order",
    "Marley.Props.C80_order_preserving",
    "Marley.Props.C80_inside",
    "Marley.Props.C80_error"
   ],
   "note": "For all orders N > 0, intervals and polynomials, over the reals; the rounding of doubles is not modelled."
  },
  {
   "property": "C81",
   "status": "partial",
   "theorems": [
    "Marley.Props.C81_integral",
    "Marley.Props.C81_single_violated"
   ],
   "note": "For the whole reaction, over the reals. For one transition without strength or out of reach the code reads an uninitialised variable (C81_single_violated)."
  },
  {
   "property": "C82",
   "status": "partial",
   "theorems": [
    "Marley.Props.C82_whole",
    "Marley.Props.C82_event_partial",
    "Marley.Props.C82_forget",
    "Marley.Props.C82_nuclear",
    "Marley.Props.C82_electron",
    "Marley.Props.C82_decay",
    "Marley.Props.C82_deexcitation"
   ],
   "note": "For all tapes of random numbers, reactions on nuclei and electrons, and de-excitations of any length. Transmission coefficients, level densities and strength functions are pure functions of the model; C82_event_partial covers any other reactions and de-excitations that have the property."
  },
  {
   "property": "C83",
   "status": "partial",
   "theorems": [
    "Marley.Props.C83_value",
    "Marley.Props.C83_energies"
   ],
   "note": "Over the reals; the Fermi function is arbitrary."
  },
  {
   "property": "C84",
   "status": "partial",
   "theorems": [
    "Marley.Props.C84_nuclear",
    "Marley.Props.C84_electron",
    "Marley.Props.C84_charge"
   ],
   "note": "Over the reals, for every engine with draws in [0, 1); the masses are nonnegative and the target is massive. Charge conservation is proved for nuclear reactions loaded from files."
  },
  {
   "property": "C85",
   "status": "partial",
   "theorems": [
    "Marley.Props.C85_fermiDirac",
    "Marley.Props.C85_betaFit",
    "Marley.Props.C85_function",
    "Marley.Props.C85_configured"
   ],
   "note": "For all JSON values and parameters, over the real numbers; normalisation is that of the library's numerical integral, and functions must be positive in the middle of the range. ROOT sources are not modelled."
  },
  {
   "property": "C86",
   "status": "partial",
   "theorems": [
    "Marley.Props.C86_default_target",
    "Marley.Props.C86_explicit_target",
    "Marley.Props.C86_target_rejected",
    "Marley.Props.C86_no_reactions",
    "Marley.Props.C86_wrap_violated",
    "Marley.Props.C86_direction",
    "Marley.Props.C86_cutoffs",
    "Marley.Props.C86_cutoff_wrap_violated"
   ],
   "note": "Integers outside the range of int are taken modulo 2^32 (C86_wrap_violated), so the explicit target and the cut-offs are proved for integers in range."
  },
  {
   "property": "C87",
   "status": "partial",
   "theorems": [
    "Marley.Props.C87_conserves"
   ],
   "note": "For all events, data, engines and chains of decays, with exact real arithmetic; partial because floating-point rounding is not modelled. The fragments' masses must be nonnegative and the final residue must keep a positive mass."
  },
  {
   "property": "C88",
   "status": "partial",
   "theorems": [
    "Marley.Props.C88_event",
    "Marley.Props.C88_events",
    "Marley.Props.C88_fixed",
    "Marley.Props.C88_electron_setup",
    "Marley.Props.C88_charge"
   ],
   "note": "For all generators, sources, reactions and random numbers, with exact real arithmetic. Nuclear reactions must have sane masses (Nuc.Good); for electron reactions that follows from the mass table (C88_electron_setup). Charge conservation (C88_charge) holds for reactions as loaded from a file, with no assumption on masses or arithmetic. Partial because floating-point rounding is not modelled."
  },
  {
   "property": "C89",
   "status": "partial",
   "theorems": [
    "Marley.Props.C89_made",
    "Marley.Props.C89_lorentzian",
    "Marley.Props.C89_m1",
    "Marley.Props.C89_transmission",
    "Marley.Props.C89_multipolarity",
    "Marley.Props.C89_unphysical",
    "Marley.Props.C89_nonneg_partial",
    "Marley.Props.C89_heavy_violated",
    "Marley.Props.C89_spacing",
    "Marley.Props.C89_weisskopf_partial",
    "Marley.Props.C89_weisskopf_transmission",
    "Marley.Props.C89_overflow_violated",
    "Marley.Props.C89_weisskopf_multipolarity"
   ],
   "note": "For all nuclides, energies and multipolarities over the real numbers. Strengths of E2 and higher electric transitions are negative for mass numbers of 510 and more (C89_heavy_violated, of no practical consequence), so non-negativity is proved below that. The double factorial of the Weisskopf model overflows from multipolarity 10 on (C89_overflow_violated); the formula is proved below that."
  },
  {
   "property": "C90",
   "status": "partial",
   "theorems": [
    "Marley.Props.C90_history",
    "Marley.Props.C90_positive_partial",
    "Marley.Props.C90_parity",
    "Marley.Props.C90_spin",
    "Marley.Props.C90_formula",
    "Marley.Props.C90_continuous_partial",
    "Marley.Props.C90_jump_violated",
    "Marley.Props.C90_helium_violated"
   ],
   "note": "For all nuclides, energies, spins and series of earlier calls over the real numbers. Two parts of the property fail: with the listed mass of helium-4 densities are negative up to 6 MeV (C90_helium_violated), so positivity needs a shell correction that leaves the level density parameter positive; and the spin cut-off parameter, hence the density, jumps at the energy shift (C90_jump_violated), so continuity is proved above and below it."
  },
  {
   "property": "C91",
   "status": "partial",
   "theorems": [
    "Marley.Props.C91_range",
    "Marley.Props.C91_history",
    "Marley.Props.C91_scattering",
    "Marley.Props.C91_unitary",
    "Marley.Props.C91_total"
   ],
   "note": "For all nuclides up to mass number 3000, fragments, energies, angular momenta, positive steps, masses and series of calls over the real numbers and complex numbers. Partial because the Coulomb functions are an arbitrary function and rounding is not modelled."
  },
  {
   "property": "C92",
   "status": "partial",
   "theorems": [
    "Marley.Props.C92_potential",
    "Marley.Props.C92_everywhere",
    "Marley.Props.C92_absorbs",
    "Marley.Props.C92_gauss"
   ],
   "note": "For all nuclides up to mass number 3000, fragments, energies and distances over the real numbers. More than 100 times the diffuseness from the surface, the code drops the surface terms; C92_everywhere bounds the difference by e^-100 times the depths. Partial because rounding is not modelled."
  },
  {
   "property": "C93",
   "status": "partial",
   "theorems": [
    "Marley.Props.C93_density",
    "Marley.Props.C93_strength",
    "Marley.Props.C93_optical",
    "Marley.Props.C93_widths",
    "Marley.Props.C93_builds",
    "Marley.Props.C93_choice",
    "Marley.Props.C93_decays",
    "Marley.Props.C93_spins"
   ],
   "note": "For all nuclides, fragments, level schemes, energies, spins, Coulomb functions and engines over the real numbers. The shell correction must leave the level density parameter positive, as it does not for helium-4 (C90_helium_violated), and a neutron separation energy must be defined. Partial because rounding is not modelled and the Coulomb functions are an arbitrary function."
  },
  {
   "property": "C94",
   "status": "partial",
   "theorems": [
    "Marley.Props.C94_settings",
    "Marley.Props.C94_ready",
    "Marley.Props.C94_clock",
    "Marley.Props.C94_events",
    "Marley.Props.C94_null_violated",
    "Marley.Props.C94_deexcite_violated"
   ],
   "note": "For all configurations and environments. Which reactions and which target are configured is the subject of C67 and C86. Two parts fail: a value of do_deexcitations that is not a boolean is ignored (C94_deexcite_violated), and a configuration with null reactions leaves a generator that never normalises (C94_null_violated). Partial for these, because numbers are real, and because sources whose density is not a number at some energy are set aside."
  },
  {
   "property": "C95",
   "status": "partial",
   "theorems": [
    "Marley.Props.C95_listed",
    "Marley.Props.C95_stdout_partial",
    "Marley.Props.C95_default",
    "Marley.Props.C95_empty",
    "Marley.Props.C95_rejected",
    "Marley.Props.C95_history",
    "Marley.Props.C95_from_file",
    "Marley.Props.C95_stdout_violated",
    "Marley.Props.C95_rejected_violated",
    "Marley.Props.C95_name_violated"
   ],
   "note": "For all configurations, file systems, earlier operations on the logger and later messages. Three parts fail: rejected settings have replaced the earlier ones (C95_rejected_violated); warnings appear on standard output if the last message before was a warning (C95_stdout_violated), so C95_stdout_partial needs a message of another level in between; names with characters that JSON escapes name other files (C95_name_violated), so the others ask for plain names."
  },
  {
   "property": "C96",
   "status": "partial",
   "theorems": [
    "Marley.Props.C96_reads_partial",
    "Marley.Props.C96_upward",
    "Marley.Props.C96_downward",
    "Marley.Props.C96_absent",
    "Marley.Props.C96_not_a_nuclide",
    "Marley.Props.C96_order_violated",
    "Marley.Props.C96_truncated_violated",
    "Marley.Props.C96_missing_violated",
    "Marley.Props.C96_self_violated"
   ],
   "note": "For all nuclides, lists of levels, layouts with blanks between the fields, other lines of the file, and formats of numbers. Four parts fail: levels that are not listed in the order of their energies make gammas lead to wrong levels (C96_order_violated), so C96_reads_partial asks for that order; a file that ends too early gives repeated levels (C96_truncated_violated) or undefined behaviour (C96_missing_violated); a gamma from a level to itself is accepted (C96_self_violated). Numbers of an unknown element give std::out_of_range. Fields without blanks between them are not treated."
  },
  {
   "property": "C97",
   "status": "partial",
   "theorems": [
    "Marley.Props.C97_found",
    "Marley.Props.C97_unreadable",
    "Marley.Props.C97_file"
   ],
   "note": "For all files made of lines that begin the data of a nuclide and lines that cannot be taken for such, and, with C96, all files of data for different nuclides. Partial because of the conditions of C96 on the data."
  },
  {
   "property": "C98",
   "status": "partial",
   "theorems": [
    "Marley.Props.C98_factors",
    "Marley.Props.C98_partial",
    "Marley.Props.C98_violated",
    "Marley.Props.C98_fixed",
    "Marley.Props.C98_cdf",
    "Marley.Props.C98_default",
    "Marley.Props.C98_adaptive_violated",
    "Marley.Props.C98_unequal_violated"
   ],
   "note": "The property fails: the vector for the factors is one entry too short for grid sizes 3, 4 and 6, and only for these (C98_partial, C98_violated). The adaptive constructor meets size 4 for every function that three points do not represent (C98_adaptive_violated); the size the generator uses is safe (C98_default). Reads are not checked, and the sizes are unbounded natural numbers."
  },
  {
   "property": "C99",
   "status": "partial",
   "theorems": [
    "Marley.Props.C99_transform",
    "Marley.Props.C99_partial",
    "Marley.Props.C99_twice"
   ],
   "note": "For all sizes if the vector for the factors is long enough (C99_transform), and for all sizes but 3, 4 and 6 as the interpolation calls it. Partial because doubles are real numbers and the constants of the library are exact."
  }
 ]
}

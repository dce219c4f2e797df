{"id": "C01", "title": "JSON dump / load round trip", "statement": "For every JSON document whose top level is an object, writing it with dump_string (compact or with any indent step) and loading the resulting text with JSON::load gives back the same document: same structure, same keys, same strings, same booleans, same integers.", "quantifier": "all JSON values of any depth and width, all strings (including quotes, backslashes, control characters) as keys and as values, all integers, compact output and every indent step", "why_tests_cant": "The space of documents is infinite and recursive; tests only sample a few shapes, while configuration files, event files and saved generator states go through this path with arbitrary content.", "anchors": ["include/marley/JSON.hh: json_escape, JSON::print, JSON::dump_string, parse_next, parse_object, parse_array, parse_string, parse_number, JSON::load"]}
{"id": "C02", "title": "JSON string escaping is invertible", "statement": "The text produced by json_escape for a string, put between double quotes and read back by the JSON string parser, yields exactly the original string and consumes exactly the quoted text, leaving everything after it in the stream.", "quantifier": "all character strings and all stream contents following the closing quote", "why_tests_cant": "A test covers finitely many strings; a user relies on file names, nuclide symbols and state strings with any content surviving.", "anchors": ["include/marley/JSON.hh: json_escape, parse_string, JSON::to_string"]}
{"id": "C03", "title": "JSON parser is total and rejects non-objects", "statement": "JSON::load terminates on every input text and either returns a value or throws marley::Error. It never accepts a text whose first non-blank character is not an opening brace, and the result of a successful load is always an object.", "quantifier": "all finite input texts, including truncated and malformed ones and texts that end inside a comment, string or number", "why_tests_cant": "Termination and absence of silent acceptance concern all inputs, most of which are malformed in ways nobody wrote a test for.", "anchors": ["include/marley/JSON.hh: skip_ws, skip_comment, get_next_char, parse_next, parse_object, parse_array, parse_string, parse_number, parse_bool, parse_null, JSON::load"]}
{"id": "C04", "title": "Numbers written by the library can be read back by the library", "statement": "Every finite floating-point number that JSON::dump_string writes is accepted by JSON::load as a number.", "quantifier": "all textual number forms produced by a default-format C++ stream with 17 significant digits, i.e. all finite doubles", "why_tests_cant": "Round-tripping one or two sample numbers does not exercise the exponent forms that appear only for very large or very small magnitudes.", "anchors": ["include/marley/JSON.hh: JSON::print (Floating case), parse_number"]}
{"id": "C05", "title": "Typed JSON getters return the stored value or throw", "statement": "For a JSON object, get_bool, get_long, get_double, get_string and get_object with a key and no default return exactly the stored value when it has the requested type, and throw marley::Error when the key is missing or the value has the wrong type; the variants with a default return the default exactly when the key is missing.", "quantifier": "all JSON objects, all keys, all stored values including every 64-bit integer", "why_tests_cant": "The value range (all integers) and the combination of key present/absent and type right/wrong is infinite; precision loss appears only for large integers.", "anchors": ["include/marley/JSON.hh: get_bool, get_long, get_double, get_string, get_object, to_long_or_throw, to_double_or_throw, to_bool_or_throw, to_string_or_throw, check_if_object"]}
{"id": "C06", "title": "Event ASCII round trip", "statement": "An event with two or more initial and two or more final particles that is written with operator<< and read back with operator>> is identical: same particles in the same order with the same momenta, masses, charges and PDG codes, same excitation energy, twice-spin and parity. Reading a sequence of written events returns the same sequence.", "quantifier": "all events with any number of particles and any field values, all sequences of events", "why_tests_cant": "Particle lists have unbounded length and files hold unboundedly many events; a misaligned read shows only for particular list lengths.", "anchors": ["src/Event.cc: Event::print, Event::read", "src/Particle.cc: Particle::print, Particle::read", "src/Parity.cc: operator>>"]}
{"id": "C07", "title": "Malformed ASCII event records are rejected", "statement": "Reading an ASCII event record whose header announces fewer than two initial or final particles, or whose particle list is cut short or contains a non-numeric field, throws marley::Error; a stream already at its end leaves the stream failed and the event empty, and never yields a partially filled event that looks valid.", "quantifier": "all token streams", "why_tests_cant": "There are infinitely many ways to truncate or corrupt a file.", "anchors": ["src/Event.cc: Event::read", "src/Particle.cc: Particle::read"]}
{"id": "C08", "title": "HEPEVT round trip", "statement": "An event produced by the generator and written with write_hepevt can be read back with read_hepevt giving the same particles in the same order with the same four-momenta, masses, charges, excitation energy, spin, parity and flux-averaged cross section.", "quantifier": "all events whose initial state is a neutrino plus an ion and whose final state is one lepton, one residue and any list of de-excitation products", "why_tests_cant": "The reader guesses the ejectile and residue from PDG codes and masses; whether the guess is right depends on the particular set of products, which is unbounded.", "anchors": ["src/Event.cc: Event::write_hepevt, Event::dump_hepevt_particle, Event::read_hepevt"]}
{"id": "C09", "title": "HEPEVT reader picks the ejectile and residue correctly", "statement": "Whatever the order of the final-state particles in a HEPEVT record, after a successful read_hepevt the first final particle is the only final lepton, the second is an ion with the largest mass number, and the list of final particles is a permutation of those in the record.", "quantifier": "all HEPEVT records, all orders of the final-state particles", "why_tests_cant": "The property concerns all permutations of arbitrarily long particle lists; swap bugs appear only for specific positions.", "anchors": ["src/Event.cc: Event::read_hepevt"]}
{"id": "C10", "title": "HEPEVT reader restores total charge", "statement": "After a successful read_hepevt the sum of the charges of the final particles equals the sum of the charges of the initial particles.", "quantifier": "all HEPEVT records, with any number of emitted protons, neutrons, gammas and light ions", "why_tests_cant": "Charges are not stored in the format and are reconstructed from the particle content; the number and kind of emitted fragments is unbounded.", "anchors": ["src/Event.cc: Event::read_hepevt", "include/marley/marley_utils.hh: get_particle_charge, is_ion"]}
{"id": "C11", "title": "Event JSON round trip", "statement": "Event::from_json(Event::to_json(e)) gives back e for every event, and from_json throws marley::Error for every JSON object that lacks a required key or has a value of the wrong type.", "quantifier": "all events, all JSON objects", "why_tests_cant": "Particle lists are unbounded and malformed inputs are unbounded.", "anchors": ["src/Event.cc: Event::to_json, Event::from_json", "src/Particle.cc: Particle::to_json, Particle::from_json"]}
{"id": "C12", "title": "Event copies are deep and ownership is exclusive", "statement": "After any sequence of constructions, copies, moves, assignments, particle additions and destructions of events, no particle object is owned by two live events, no particle is freed twice or used after being freed, no particle is leaked, and a copy has the same contents as its source at the moment of copying and is unaffected by later changes to the source.", "quantifier": "all finite sequences of event operations, including assigning an event to itself", "why_tests_cant": "Memory safety is a statement about all histories; particular orders of copies and moves trigger double frees.", "anchors": ["src/Event.cc: Event::Event(const Event&), Event::Event(Event&&), Event::operator=(const Event&), Event::operator=(Event&&), Event::delete_particles, Event::~Event, Event::clear, Event::add_final_particle"]}
{"id": "C13", "title": "Interpolation grid reproduces its points and stays between neighbours", "statement": "For a grid with strictly increasing abscissae, interpolating exactly at a grid abscissa returns the tabulated ordinate and, for the linear-linear rule, the value at any abscissa in range lies between the ordinates of the two neighbouring grid points and depends linearly on it there.", "quantifier": "all grids of two or more points, all abscissae in range, all interpolation rules", "why_tests_cant": "The property is about a continuum of abscissae and all grids.", "anchors": ["include/marley/InterpolationGrid.hh: interpolate, find_bin_limits"]}
{"id": "C14", "title": "Out-of-range interpolation follows the configured rule", "statement": "Outside the tabulated range, interpolate returns zero with the Zero rule, the nearest endpoint ordinate with the Endpoint rule, throws marley::Error with the Throw rule, and extends the first or last bin with the Continue rule; inside the range the extrapolation rule has no influence.", "quantifier": "all grids, all abscissae, all extrapolation rules", "why_tests_cant": "Boundary handling (exactly at the first or last point, one-point grids) has many corner cases over a continuum of inputs.", "anchors": ["include/marley/InterpolationGrid.hh: interpolate, find_bin_limits"]}
{"id": "C15", "title": "Grid constructor rejects unordered abscissae; insertion keeps order", "statement": "Constructing a grid from vectors of x and y values throws marley::Error unless the vectors have equal length and the x values are strictly increasing, and inserting points one at a time in any order gives a grid sorted by x that contains exactly the inserted points.", "quantifier": "all input vectors, all insertion histories", "why_tests_cant": "The check must work for every position at which the order may be violated.", "anchors": ["include/marley/InterpolationGrid.hh: InterpolationGrid(vector, vector), insert"]}
{"id": "C16", "title": "Reproducibility from seed and from a saved state", "statement": "Two generators with the same configuration and the same seed produce the same sequence of events, and a generator restored from the state string saved after n events continues with exactly the events the original run would have produced next.", "quantifier": "all configurations, all seeds, all n, all lengths of continuation", "why_tests_cant": "Hidden state outside the random engine shows only for particular histories; any n and any continuation length must work.", "anchors": ["src/Generator.cc: reseed, get_state_string, seed_using_state_string, rejection_sample, sample_reaction, normalize_E_pdf"]}
{"id": "C17", "title": "Different seeds give different engine seedings", "statement": "Seeding the generator with two different 64-bit seeds initialises the random engine from two different seed sequences.", "quantifier": "all pairs of distinct 64-bit seeds", "why_tests_cant": "There are 2^128 pairs of seeds; only those that differ above bit 31 collide.", "anchors": ["src/Generator.cc: reseed"]}
{"id": "C18", "title": "Rejection sampling stays in range and only accepts points under the curve", "statement": "Whenever rejection_sample returns, the returned abscissa lies in [xmin, xmax], the function there is at least as large as the trial ordinate, hence strictly positive, and the running maximum never decreases and bounds the function at every abscissa tried.", "quantifier": "all functions, all ranges, all initial maxima, all random sequences", "why_tests_cant": "It is a statement about every random sequence, including the measure-zero ones a test never draws.", "anchors": ["src/Generator.cc: rejection_sample, uniform_random_double"]}
{"id": "C19", "title": "Reaction sampling uses cross sections at the sampled energy", "statement": "The reaction chosen by sample_reaction is drawn with weights equal to atom fraction times total cross section at the returned energy, and a reaction whose weighted cross section vanishes there is never chosen.", "quantifier": "all generators, all histories of earlier energy trials, all random sequences", "why_tests_cant": "Weights are cached as a side effect of evaluating the energy density; a stale cache shows only for particular trial sequences.", "anchors": ["src/Generator.cc: E_pdf, sample_reaction, rejection_sample"]}
{"id": "C20", "title": "Energy density, total cross section and normalisation agree", "statement": "The unnormalised energy density equals the source spectrum times the abundance-weighted total cross section reported by total_xs, is nonnegative, vanishes where no reaction is open, and after every successful configuration change its integral over the source range equals one.", "quantifier": "all generators, all energies, all sequences of set_source, set_target, add_reaction, clear_reactions and set_weight_flux calls", "why_tests_cant": "A stale normalisation constant depends on the order of configuration calls, of which there are infinitely many.", "anchors": ["src/Generator.cc: E_pdf, normalize_E_pdf, total_xs, set_source, set_target, add_reaction, clear_reactions, set_weight_flux"]}
{"id": "C21", "title": "Fixed-projectile event creation chooses a matching open reaction", "statement": "create_event with a projectile, kinetic energy and target atom throws marley::Error exactly when no configured reaction for that projectile and atom has a positive cross section, and otherwise uses a reaction with that projectile, that atom and a positive cross section at that energy.", "quantifier": "all lists of reactions, all projectiles, energies and atoms, all random draws", "why_tests_cant": "Index bookkeeping between the filtered list and the full list must be right for all subsets.", "anchors": ["src/Generator.cc: create_event(int, double, int, array), total_xs(int, double, int, vector*, vector*)"]}
{"id": "C22", "title": "Inverse-transform sampling stays in range and brackets the target", "statement": "inverse_transform_sample returns a point of [xmin, xmax], terminates after a bounded number of bisections for positive tolerance, and, for a nondecreasing cumulative function, the returned point is within half the tolerance of a point where the cumulative function crosses the drawn probability.", "quantifier": "all cumulative functions, ranges, tolerances and drawn probabilities", "why_tests_cant": "Continuum of inputs; bracketing errors of a swapped branch show only for particular draws.", "anchors": ["src/Generator.cc: inverse_transform_sample"]}
{"id": "C23", "title": "Closest-level search is correct", "statement": "For any nonempty decay scheme, get_pointer_to_closest_level returns a level of the scheme whose energy is at least as close to the requested energy as that of every other level.", "quantifier": "all decay schemes, all energies", "why_tests_cant": "Continuum of energies; corner cases below the first level, above the last level, ties.", "anchors": ["src/DecayScheme.cc: get_pointer_to_closest_level, level_lower_bound_index"]}
{"id": "C24", "title": "Levels stay sorted by energy", "statement": "After adding levels in any order a decay scheme contains exactly the added levels, in nondecreasing order of energy.", "quantifier": "all sequences of add_level calls", "why_tests_cant": "All insertion orders of unboundedly many levels.", "anchors": ["src/DecayScheme.cc: add_level, level_lower_bound_index"]}
{"id": "C25", "title": "Gamma cascades terminate at a level without gammas and account for the energy", "statement": "Starting from any level of a decay scheme whose gammas all lead to lower levels, do_cascade terminates, emits one photon per transition, appends them in order to the event after the existing particles, leaves the residue in a level that has no gammas, and the level energies telescope: the excitation energy removed equals the difference between the first and the last level.", "quantifier": "all decay schemes, all starting levels, all random choices of gammas", "why_tests_cant": "Termination over all graphs and all random paths.", "anchors": ["src/DecayScheme.cc: do_cascade", "src/Level.cc: sample_gamma"]}
{"id": "C26", "title": "Decay scheme text round trip", "statement": "A decay scheme written with operator<< and read back with operator>> has the same nuclide, the same levels with the same spins and parities, and the same gammas with the same end levels.", "quantifier": "all decay schemes", "why_tests_cant": "Unbounded number of levels and gammas; index-based references between levels must be right for all of them.", "anchors": ["src/DecayScheme.cc: print, read_from_stream"]}
{"id": "C27", "title": "Spin-parity strings are unambiguous", "statement": "spin_parity_string denotes the level's spin and parity: integer spins as an integer, half-integer spins as an odd numerator over two, followed by the sign; different spin-parities give different strings.", "quantifier": "all nonnegative values of twice the spin and both parities", "why_tests_cant": "All spins; integer and half-integer branches differ.", "anchors": ["src/Level.cc: spin_parity_string", "src/DecayScheme.cc: print_report"]}
{"id": "C28", "title": "Nuclear PDG code encoding is invertible", "statement": "get_particle_Z and get_particle_A recover Z and A from the code built by get_nucleus_pid for every nuclide, different nuclides get different codes, free neutrons and protons are encoded by their own codes, and is_ion holds for exactly the composite codes.", "quantifier": "all 0 <= Z <= A < 1000", "why_tests_cant": "Half a million nuclides and arithmetic on digits; unit tests cover a few.", "anchors": ["include/marley/marley_utils.hh: get_nucleus_pid, get_particle_Z, get_particle_A, is_ion"]}
{"id": "C29", "title": "Name tables are mutually inverse", "statement": "Neutrino names and PDG codes convert back and forth without loss, element symbols and atomic numbers are mutually inverse over the whole table, Coulomb-mode names and values are mutually inverse, and unknown names or codes are rejected. The five-character identifier of a nuclide gives back its atomic number, and it is shown as the mass number followed by the element symbol.", "quantifier": "all entries of the tables and all strings and integers outside them", "why_tests_cant": "Rejection concerns infinitely many strings; inverse laws concern every entry.", "anchors": ["src/marley_utils.cc: string_to_neutrino_pdg, neutrino_pdg_to_string, element_symbols, atomic_numbers, nuc_id, nucid_to_Z, nucid_to_symbol", "src/NuclearReaction.cc: coulomb_mode_string_map, string_from_coulomb_mode, coulomb_mode_from_string"]}
{"id": "C30", "title": "String utilities obey their laws", "statement": "Splitting a string at a delimiter yields pieces without the delimiter whose rejoining gives the original text (up to a trailing delimiter), trimming removes exactly the leading and trailing blanks and is idempotent, and padding reaches at least the requested width without altering the text.", "quantifier": "all strings, delimiters and widths", "why_tests_cant": "Infinitely many strings; empty and all-blank strings are corner cases.", "anchors": ["include/marley/marley_utils.hh: split_string, trim_left_inplace, trim_right_inplace, trim_inplace, pad_left_inplace, pad_right_inplace"]}
{"id": "C31", "title": "Reaction files give charge- and baryon-conserving reactions", "statement": "Every reaction created by load_from_file for a nuclear process conserves baryon number and electric charge: the target and residue have the same mass number, the proton numbers differ by +1, -1 or 0 as the process requires, the ejectile is the lepton that the process requires and carries the compensating charge, and any file that would violate this is rejected.", "quantifier": "all reaction files accepted by the loader", "why_tests_cant": "All files, processes, targets and projectile species.", "anchors": ["src/Reaction.cc: load_from_file, get_ejectile_pdg, proc_type_to_nu_pdg", "src/NuclearReaction.cc: NuclearReaction constructor"]}
{"id": "C32", "title": "Every data line of a reaction file is used", "statement": "The matrix elements of a loaded nuclear reaction are exactly those listed in the file, in file order, with strictly increasing energies.", "quantifier": "all reaction files, including files without a final newline", "why_tests_cant": "The end-of-file condition of the read loop depends on whether the last line is terminated.", "anchors": ["src/Reaction.cc: load_from_file", "src/marley_utils.cc: get_next_line"]}
{"id": "C33", "title": "Matrix elements are matched to the closest discrete levels", "statement": "set_level_ptrs assigns to every bound matrix element a level of the residue's decay scheme closest to its tabulated energy, leaves unbound ones unassigned, and throws marley::Error rather than assigning one level to two matrix elements.", "quantifier": "all decay schemes, all lists of matrix elements, all thresholds", "why_tests_cant": "All level spacings and all lists.", "anchors": ["src/Reaction.cc: set_level_ptrs"]}
{"id": "C34", "title": "Two-two scattering kinematics conserve four-momentum", "statement": "For an energy above threshold the particles produced by a two-two reaction are on their mass shells, their total energy and momentum in the laboratory frame equal those of projectile plus target at rest, and the scattering angle of the ejectile in the center-of-momentum frame is the sampled one.", "quantifier": "all masses, all projectile energies above threshold, all scattering angles", "why_tests_cant": "Continuum of energies and angles; a sign error in the boost can cancel for special angles.", "anchors": ["src/Reaction.cc: two_two_scatter, make_event_object", "src/marley_kinematics.cc: lorentz_boost"]}
{"id": "C35", "title": "Threshold test and level test agree", "statement": "A projectile kinetic energy is at or above the reaction threshold exactly when the ground state of the residue is energetically accessible, and a level is accessible exactly when the available invariant mass covers the ejectile and the excited residue.", "quantifier": "all masses, all energies, all level energies", "why_tests_cant": "Two different formulas must agree over a continuum, with the equality case included.", "anchors": ["src/NuclearReaction.cc: NuclearReaction constructor, max_level_energy, create_event"]}
{"id": "C36", "title": "Sampled level matches the weight used to sample it", "statement": "When an event is created the final nuclear level is drawn among the tabulated transitions with weight equal to that transition's partial cross section at that energy; a transition with zero strength or above the accessible energy is never chosen.", "quantifier": "all lists of matrix elements (including zero strengths), all energies, all random draws", "why_tests_cant": "The index of the weight list must agree with the index of the transition list for every pattern of omitted entries.", "anchors": ["src/NuclearReaction.cc: create_event, summed_xs_helper"]}
{"id": "C37", "title": "Total cross section is the sum of the partial ones and vanishes where it must", "statement": "The total cross section of a nuclear reaction equals the sum over all accessible transitions of the partial cross sections, is nonnegative, and is zero for another projectile, for nonpositive kinetic energy and below threshold.", "quantifier": "all reactions, all projectiles, all energies", "why_tests_cant": "The early exit from the loop is right only if the list is ordered; all lists must be considered.", "anchors": ["src/NuclearReaction.cc: summed_xs_helper, total_xs"]}
{"id": "C38", "title": "Spin-parity of the residue obeys the selection rules", "statement": "The spin and parity assigned to the residue is that of the discrete level if there is one, equals that of the target ground state for a Fermi transition, and for a Gamow-Teller transition has the same parity and a spin allowed by adding one unit of angular momentum, excluding zero to zero.", "quantifier": "all target spins and parities, all transition types, all random choices", "why_tests_cant": "All spins, with corner cases at spin zero and one half.", "anchors": ["src/NuclearReaction.cc: create_event"]}
{"id": "C39", "title": "Coulomb correction follows the configured mode", "statement": "The Coulomb correction factor is one for neutral-current reactions, is computed with the method the mode names, throws when the effective momentum approximation is invalid and was explicitly requested, and in the combined modes equals whichever valid factor is closer to one.", "quantifier": "all modes, all charges, all factor values", "why_tests_cant": "All combinations of mode, validity and factor ordering over a continuum.", "anchors": ["src/NuclearReaction.cc: coulomb_correction_factor, ema_factor, fermi_function"]}
{"id": "C40", "title": "Neutrino-electron total cross section is the integral of the differential one", "statement": "For elastic scattering on electrons, integrating the differential cross section over the scattering cosine from -1 to 1 gives the total cross section, for every projectile species and every energy above threshold.", "quantifier": "all energies, all projectile species, all couplings", "why_tests_cant": "An identity over a continuum between two separately coded formulas.", "anchors": ["src/ElectronReaction.cc: total_xs, diff_xs"]}
{"id": "C41", "title": "Neutrino-electron rejection bound is a true maximum", "statement": "The bound used to sample the scattering cosine in elastic scattering is at least the differential cross section at every cosine in [-1, 1].", "quantifier": "all cosines, energies and couplings", "why_tests_cant": "Continuum of cosines and energies.", "anchors": ["src/ElectronReaction.cc: create_event, diff_xs"]}
{"id": "C42", "title": "Angular densities are normalised and nonnegative", "statement": "The scattering-cosine density of a Fermi or Gamow-Teller transition is nonnegative on [-1, 1], integrates to one, and is bounded by the maximum used for rejection sampling.", "quantifier": "all ejectile speeds from 0 to 1, all cosines", "why_tests_cant": "Continuum of speeds and cosines.", "anchors": ["include/marley/MatrixElement.hh: cos_theta_pdf", "src/NuclearReaction.cc: sample_cos_theta_c_cm"]}
{"id": "C43", "title": "Muon decay-at-rest spectra are normalised densities", "statement": "The decay-at-rest source density is nonnegative everywhere, vanishes outside [0, m_mu/2], and integrates to one, for each allowed species; other species are rejected at construction.", "quantifier": "all energies, all species", "why_tests_cant": "Continuum of energies.", "anchors": ["src/NeutrinoSource.cc: DecayAtRestNeutrinoSource::pdf, DecayAtRestNeutrinoSource constructor"]}
{"id": "C44", "title": "Neutrino sources vanish outside their range and reject bad species and grids", "statement": "Every source object has one of the six neutrino species, its density is zero outside [Emin, Emax], and a tabulated source is accepted only with at least two points, nonnegative energies and densities and a positive total density; after construction all tabulated energies are strictly positive.", "quantifier": "all sources and all energies", "why_tests_cant": "All grids and all energies.", "anchors": ["include/marley/NeutrinoSource.hh: pdg_is_allowed, pdf", "src/NeutrinoSource.cc: NeutrinoSource constructor, GridNeutrinoSource::check_for_errors"]}
{"id": "C45", "title": "Incident-neutrino sampling of one source is unaffected by others", "statement": "sample_incident_neutrino on a source depends only on that source and the random numbers, so using another source earlier in the same program does not change the distribution it samples.", "quantifier": "all histories of sampling from any number of sources", "why_tests_cant": "Needs two different sources used in one process, in every order.", "anchors": ["src/NeutrinoSource.cc: NeutrinoSource::sample_incident_neutrino"]}
{"id": "C46", "title": "Lorentz boosts preserve invariant mass and rotations preserve length", "statement": "lorentz_boost preserves the mass-shell relation of every particle and is a no-op for zero velocity, superluminal velocities are rejected, and rotate_momentum_vector gives the vector the requested direction with unchanged magnitude.", "quantifier": "all particles, all subluminal velocities, all directions", "why_tests_cant": "Continuum of inputs.", "anchors": ["src/marley_kinematics.cc: lorentz_boost, get_beta2, rotate_momentum_vector"]}
{"id": "C47", "title": "Two-body decay conserves energy and momentum", "statement": "two_body_decay throws when the parent is lighter than its daughters and otherwise produces daughters on their mass shells whose four-momenta add up to that of the parent in the laboratory frame.", "quantifier": "all parents with any momentum, all daughter masses, all decay angles", "why_tests_cant": "Continuum of inputs; sequential decays amplify any error.", "anchors": ["src/marley_kinematics.cc: two_body_decay"]}
{"id": "C48", "title": "Rotation matrices are rotations that map the first direction to the second", "statement": "The rotation matrix built from two nonzero vectors is orthogonal and maps the direction of the first to the direction of the second, in the generic case and in the nearly parallel or antiparallel case; null vectors are rejected.", "quantifier": "all pairs of three-vectors", "why_tests_cant": "Continuum with two code paths split at a tiny tolerance.", "anchors": ["src/RotationMatrix.cc: RotationMatrix constructor, normalize, rotate_copy"]}
{"id": "C49", "title": "Events are rotated so that the projectile points along the requested direction", "statement": "After process_event of a projectile-direction rotator the projectile momentum points along the configured direction, all momenta have been turned by one common rotation (so invariant products are unchanged), and this holds for every event of a run whatever directions were set or processed before.", "quantifier": "all sequences of direction changes and events, all momenta", "why_tests_cant": "The rotation matrix is cached between events; a stale cache shows only for particular histories.", "anchors": ["src/ProjectileDirectionRotator.cc: process_event, constructor", "include/marley/ProjectileDirectionRotator.hh: set_projectile_direction"]}
{"id": "C50", "title": "De-excitation conserves baryon number and charge", "statement": "Processing an event with the nucleus decayer keeps the initial particles and the ejectile unchanged, keeps the residue at its place in the list, only appends products, and preserves total mass number and total charge of the nuclear final state.", "quantifier": "all events, all nuclear data, all random decay paths of any length", "why_tests_cant": "All decay chains of unbounded length.", "anchors": ["src/NucleusDecayer.cc: process_event", "src/HauserFeshbachDecay.cc: do_decay", "src/ExitChannel.cc: prepare_products", "src/DecayScheme.cc: do_cascade"]}
{"id": "C51", "title": "De-excitation decision logic", "statement": "The nucleus decayer leaves an event unchanged when the excitation energy is zero, when the residue is not an ion or when it is already in its ground state, throws marley::Error for negative or inconsistent excitation energies, and otherwise the residue's final excitation energy is that of a discrete level without gammas or is below the continuum cutoff; applying it a second time changes nothing.", "quantifier": "all events and all nuclear data", "why_tests_cant": "All combinations of energies and data, and idempotence after arbitrary decay chains.", "anchors": ["src/NucleusDecayer.cc: process_event"]}
{"id": "C52", "title": "Compound-nucleus exit channels are energetically allowed", "statement": "Every exit channel offered for a compound state leads to a final excitation energy that is nonnegative and leaves a nonnegative kinetic energy after paying the separation energy, every discrete level below that bound is offered, and the sampled channel always has a positive width; if no channel is open an error is thrown.", "quantifier": "all compound states, fragments, level lists and random draws", "why_tests_cant": "All excitation energies and level lists, including boundary equality.", "anchors": ["src/HauserFeshbachDecay.cc: build_exit_channels, sample_exit_channel, do_decay"]}
{"id": "C53", "title": "Angular momentum and parity selection in fragment emission", "statement": "The partial waves summed for fragment emission to a discrete level are exactly the pairs of orbital and total angular momentum allowed by the triangle rules and parity conservation, each counted once, and emission to the continuum sums over exactly the final spins and parities reachable by such pairs up to the configured maximum orbital angular momentum.", "quantifier": "all spins, parities and cutoffs", "why_tests_cant": "All spins; off-by-one errors in doubled half-integer loops.", "anchors": ["src/ExitChannel.cc: FragmentDiscreteExitChannel::compute_total_width, FragmentContinuumExitChannel::differential_width"]}
{"id": "C54", "title": "Multipole selection in gamma emission", "statement": "Gamma transitions to a discrete level sum exactly the multipolarities from max(1, |Ji - Jf|) to Ji + Jf, each with the electric or magnetic type required by parity, and none for zero to zero; continuum gamma emission sums exactly the allowed final spins and parities.", "quantifier": "all spins, parities and cutoffs", "why_tests_cant": "All spins; parity alternation over all multipolarities.", "anchors": ["src/ExitChannel.cc: GammaDiscreteExitChannel::compute_total_width, get_transition_type, GammaContinuumExitChannel::differential_width"]}
{"id": "C55", "title": "Structure database lookups are stable", "statement": "Once a decay scheme has been returned for a nuclide, later lookups of any nuclides return the same object for it until it is removed or the database is cleared, lookups terminate, and level-density, strength-function and optical-model objects are created once per nuclide.", "quantifier": "all sequences of lookups, additions, replacements and removals, all index and data file contents", "why_tests_cant": "Caching bugs depend on the history of lookups.", "anchors": ["src/StructureDatabase.cc: get_decay_scheme, add_decay_scheme, emplace_decay_scheme, remove_decay_scheme, clear, get_optical_model, get_level_density_model, get_gamma_strength_function_model"]}
{"id": "C56", "title": "Adding a decay scheme makes it the one that is used", "statement": "After add_decay_scheme(pdg, ds) the database returns ds for that nuclide.", "quantifier": "all database histories before the call", "why_tests_cant": "Only a history in which the nuclide was looked up before reveals that the addition is ignored.", "anchors": ["src/StructureDatabase.cc: add_decay_scheme"]}
{"id": "C57", "title": "Ground-state spin table and fragment table are loaded completely or not at all", "statement": "Whenever get_gs_spin_parity, fragments or get_fragment returns normally, the spin-parity table and the fragment table are complete with respect to the data file; a failing load never leaves a partial table in use.", "quantifier": "all data file contents and all call histories, including calls after a failed load", "why_tests_cant": "Requires a failing first call followed by further calls.", "anchors": ["src/StructureDatabase.cc: initialize_jpi_table, get_gs_spin_parity, get_fragment", "include/marley/StructureDatabase.hh: fragments"]}
{"id": "C58", "title": "Separation energies are mass differences in consistent units", "statement": "get_fragment_separation_energy equals the mass of the daughter atom plus fragment (plus the electrons that balance the charge) minus the mass of the parent atom, in MeV, in all combinations of measured and estimated masses.", "quantifier": "all mass tables, nuclides and fragments", "why_tests_cant": "Four unit-conversion branches over a continuum of masses.", "anchors": ["src/MassTable.cc: get_fragment_separation_energy, lookup_atomic_mass, get_atomic_mass"]}
{"id": "C59", "title": "Unbound threshold is the minimum separation energy", "statement": "unbound_threshold is the smallest separation energy over all fragments lighter than the nucleus and is attained by one of them.", "quantifier": "all mass tables, nuclides, and fragment lists", "why_tests_cant": "All mass tables.", "anchors": ["src/MassTable.cc: unbound_threshold"]}
{"id": "C60", "title": "Mass table loading and lookup", "statement": "After loading, each listed particle or atom has the mass listed for it, a particle and its antiparticle have the same mass, unknown particles are reported by marley::Error, and measured masses take precedence over estimates.", "quantifier": "all mass table files and all lookups", "why_tests_cant": "All tables, including duplicates and wrong types.", "anchors": ["src/MassTable.cc: assign_masses, get_particle_mass, lookup_atomic_mass"]}
{"id": "C61", "title": "JSON output files are complete documents listing exactly the written events", "statement": "For every sequence of events (including none) an output file in JSON format that was opened, given those events and closed contains one JSON object whose events entry is exactly that sequence in order and whose generator state records their number.", "quantifier": "all event sequences, all indent settings, fresh and resumed files", "why_tests_cant": "Comma and bracket placement must be right for every number of events.", "anchors": ["src/OutputFile.cc: start_json_output, write_event, write_generator_state, close, resume"]}
{"id": "C62", "title": "Resuming a run preserves all earlier events", "statement": "When an existing JSON output file is resumed, either the resume fails with an error and the file is unchanged, or all events in the file are kept, in order, before the new ones.", "quantifier": "all file contents", "why_tests_cant": "All malformed or unusual files, where the failure happens after the file has been truncated.", "anchors": ["src/OutputFile.cc: TextOutputFile::resume"]}
{"id": "C63", "title": "Output mode and format combinations", "statement": "Constructing an output file accepts exactly the documented format and mode names, append only for HEPEVT and ASCII, resume only for ROOT and JSON; an existing file is truncated only if the user agreed or forced it, and declining leads to append or resume, never to truncation.", "quantifier": "all format strings, mode strings, force flags, user answers and pre-existing files", "why_tests_cant": "All strings and all combinations.", "anchors": ["src/OutputFile.cc: OutputFile constructor, TextOutputFile::open"]}
{"id": "C64", "title": "Event loop bookkeeping under interruption", "statement": "Whenever and wherever the user interrupts the run, the number of events recorded in the saved state equals the number of events in each output file, events are written to all files in the order generated, no more than the requested number are generated, and a resumed run continues the count.", "quantifier": "all requested numbers, all numbers of earlier events, all interruption points", "why_tests_cant": "The interruption can come at any moment.", "anchors": ["src/marley.cc: main event loop, close"]}
{"id": "C65", "title": "Text output files can be read back", "statement": "Reading an ASCII, HEPEVT or JSON file written by the program with an event file reader returns exactly the written events in order and then reports the end, and gives the flux-averaged cross section that was written.", "quantifier": "all event sequences of any length, all formats, fresh and appended files", "why_tests_cant": "All sequences, including the empty one; format detection must not misfire on any content.", "anchors": ["src/EventFileReader.cc: deduce_file_format, initialize, next_event, operator bool", "src/OutputFile.cc: write_event, write_flux_avg_tot_xsec"]}
{"id": "C66", "title": "Opening an event file leaves error logging as it was", "statement": "Whatever the outcome of opening and reading an event file (success, failure, exception), the global setting that controls logging of error messages is the same afterwards as before.", "quantifier": "all files and all outcomes", "why_tests_cant": "Every return path must restore the setting.", "anchors": ["src/EventFileReader.cc: deduce_file_format, initialize", "include/marley/Error.hh: logging_status, set_logging_status"]}
{"id": "C67", "title": "No reaction is configured twice", "statement": "However reaction files are listed in the job configuration, the resulting generator contains no two reactions with the same process, projectile and target atom, and every listed reaction that is not a duplicate is present.", "quantifier": "all lists of reaction files and all their contents", "why_tests_cant": "All combinations of files, including electron-scattering files that list several atoms.", "anchors": ["src/JSONConfig.cc: prepare_reactions", "src/Reaction.cc: load_from_file"]}
{"id": "C68", "title": "Interpolation rule names are honoured or rejected", "statement": "Every documented interpolation name or ENDF code selects the corresponding rule, and every other string is rejected with an error.", "quantifier": "all strings", "why_tests_cant": "Infinitely many strings, including numeric codes out of range.", "anchors": ["src/JSONConfig.cc: get_interpolation_method"]}
{"id": "C69", "title": "Histogram sources give each bin its weight", "statement": "For a histogram source the probability of each energy bin is its weight divided by the sum of weights, for uneven bins as well.", "quantifier": "all histograms", "why_tests_cant": "All bin edges and weights.", "anchors": ["src/JSONConfig.cc: prepare_neutrino_source (histogram branch)", "include/marley/InterpolationGrid.hh: interpolate"]}
{"id": "C70", "title": "Target composition is normalised", "statement": "A target is accepted exactly when the two lists have equal nonzero length, no atom occurs twice, no fraction is negative and some fraction is positive; then its atom fractions are nonnegative, sum to one, keep the given ratios, and atoms not listed have fraction zero.", "quantifier": "all lists of atoms and fractions", "why_tests_cant": "All compositions.", "anchors": ["src/Target.cc: initialize, atom_fraction, contains"]}
{"id": "C71", "title": "Log messages reach exactly the configured streams", "statement": "A message of a given level is written to a registered stream exactly when logging is enabled and the level configured for that stream is at least as verbose, except that standard output never receives warnings or errors; this holds after any sequence of adding streams, changing levels, enabling, disabling and logging.", "quantifier": "all histories of logger operations", "why_tests_cant": "The enabled flag of each stream is cached and updated only when the level changes, so correctness depends on history.", "anchors": ["src/Logger.cc: log, add_stream, find_stream, enable, clear_streams"]}
{"id": "C72", "title": "File search order", "statement": "find_file returns the given name if it exists, otherwise the path in the first search directory that contains a regular file of that name, otherwise the empty string.", "quantifier": "all directory contents, search paths and names", "why_tests_cant": "All file systems.", "anchors": ["src/FileManager.cc: find_file, dir_iterate, search_path_to_dir_vector"]}
{"id": "C73", "title": "Parity algebra and conversions", "statement": "Parities form the two-element group under multiplication, conversion to and from integers and characters is invertible on valid values and throws for all others, and reading from a stream inverts printing.", "quantifier": "all parities, integers and characters", "why_tests_cant": "All integers and characters must be rejected except the valid ones.", "anchors": ["include/marley/Parity.hh", "src/Parity.cc"]}
{"id": "C74", "title": "Chebyshev cumulative function is the integral of its function", "statement": "The cdf of a Chebyshev interpolating function vanishes at the lower end of the range and its derivative is the represented function.", "quantifier": "all coefficient vectors and grid sizes", "why_tests_cant": "All functions and grid sizes; the treatment of the last coefficient matters only when it is not negligible.", "anchors": ["src/ChebyshevInterpolatingFunction.cc: cdf, compute_integral"]}
{"id": "C75", "title": "Numerical minimum search stays in its bracket", "statement": "The one-dimensional minimiser and maximiser return an abscissa inside the given interval together with the function value there, and the value is no worse than that at any point the search evaluated. The search ends for every function if the tolerance is positive: the number of its steps is bounded by the length of the interval divided by the tolerance.", "quantifier": "all functions, intervals and tolerances", "why_tests_cant": "All functions; the bracket update has many branches.", "anchors": ["src/marley_utils.cc: minimize, maximize"]}
{"id": "C76", "title": "Integer powers, quadratic roots and guarded square roots", "statement": "ipow computes the mathematical power, solve_quadratic_equation returns both real roots, and real_sqrt is never NaN: it is the square root of nonnegative arguments and zero otherwise.", "quantifier": "all arguments", "why_tests_cant": "Continuum of arguments, all exponents.", "anchors": ["include/marley/marley_utils.hh: ipow", "src/marley_utils.cc: solve_quadratic_equation, real_sqrt"]}
{"id": "C77", "title": "Invariant mass and center-of-momentum frame of a pair", "statement": "get_mandelstam_s returns the square of the total four-momentum of two particles, by whichever shortcut it takes, and boost_to_cm_frame leaves both particles on their mass shells with opposite momenta and that total energy.", "quantifier": "all pairs of particles on their mass shells, in any frame", "why_tests_cant": "Continuum of momenta and masses; three code paths selected by exact floating-point comparisons.", "anchors": ["src/marley_kinematics.cc: get_mandelstam_s, boost_to_cm_frame"]}
{"id": "C78", "title": "Binding energies and mass excesses are mass differences in consistent units", "statement": "get_binding_energy(Z, A) equals Z hydrogen-atom masses plus A - Z neutron masses minus the mass of the atom, and get_mass_excess(Z, A) equals the mass of the atom minus A atomic mass units, in MeV, for measured and for estimated atomic masses.", "quantifier": "all mass tables and all Z, A", "why_tests_cant": "The two branches use different units; a test fixes the table and so only a few nuclides and mostly one branch, while the claim covers every table and nuclide.", "anchors": ["src/MassTable.cc: get_binding_energy, get_mass_excess, lookup_atomic_mass, liquid_drop_model_mass_excess"]}
{"id": "C79", "title": "Flux-averaged total cross section is the spectrum-weighted mean of the total cross section", "statement": "After a successful configuration change with flux weighting enabled, flux_averaged_total_xs returns the integral over the source range of the source spectrum times the abundance-weighted total cross section divided by the integral of the source spectrum, and for a source of a single energy the total cross section at that energy.", "quantifier": "all generators, all sources, all lists of reactions and targets", "why_tests_cant": "The value is assembled from a cached norm and a second integral, so a wrong or stale norm shows only for particular histories of configuration calls and for spectra that are not normalised; a test fixes one history and one spectrum.", "anchors": ["src/Generator.cc: flux_averaged_total_xs, normalize_E_pdf, E_pdf", "include/marley/Integrator.hh"]}
{"id": "C81", "title": "Nuclear differential cross section integrates to the total", "statement": "For a nuclear reaction the differential cross section vanishes for cosines outside [-1, 1] and its integral over the scattering cosine from -1 to 1 equals the total cross section, also when it is asked for a single transition.", "quantifier": "all reactions, projectiles, energies and Coulomb modes", "why_tests_cant": "It is an identity of integrals for a continuum of energies and arbitrary lists of transitions.", "anchors": ["src/NuclearReaction.cc: diff_xs, total_xs, summed_xs_helper"]}
{"id": "C83", "title": "Partial cross sections have the documented value", "statement": "The cross section of an accessible transition is GF^2/pi times E_b E_d/s times E_c p_c times the strength, with the energies and momentum in the centre-of-momentum frame fixed by energy and momentum conservation, times Vud^2 and the Coulomb factor at the relative speed of ejectile and residue for charged currents, and times a quarter of the squared weak charge for neutral-current Fermi transitions.", "quantifier": "all reactions, transitions and energies", "why_tests_cant": "Tests compare a few tabulated values; a formula wrong for some masses, energies or modes passes them.", "anchors": ["src/NuclearReaction.cc: total_xs, weak_nuclear_charge, coulomb_correction_factor"]}
{"id": "C84", "title": "Created events conserve energy, momentum and charge", "statement": "Every event returned by create_event of a nuclear or electron reaction has the requested projectile moving along z with the requested kinetic energy and the target at rest, an ejectile and a residue on their mass shells, the residue mass including the excitation energy of an accessible tabulated level, and energy, momentum and (for reactions loaded from files) charge conserved.", "quantifier": "all reactions, energies above threshold and random numbers", "why_tests_cant": "The event depends on a continuum of random numbers and energies.", "anchors": ["src/NuclearReaction.cc: create_event, make_event_object", "src/ElectronReaction.cc: create_event", "src/Reaction.cc: make_event_object, two_two_scatter"]}
{"id": "C80", "title": "Numerical integration is exact for polynomials and order-preserving", "statement": "num_integrate(f, a, b) equals the integral of f from a to b whenever f is a polynomial of degree at most 101 (an Integrator of order N: degree at most 2N+1), evaluates f only inside the interval, never gives a smaller result for a larger integrand, and so differs from the integral by at most 2(b-a) times the distance of f from such polynomials.", "quantifier": "all integrands, intervals and orders N > 0", "why_tests_cant": "Tests integrate a few functions and accept small errors; a wrong weight or node can hide below the tolerance, and no finite set of integrands shows exactness for a whole space.", "anchors": ["src/Integrator.cc: Integrator, num_integrate", "src/marley_utils.cc: num_integrate"]}
{"id": "C82", "title": "Random numbers are used once", "statement": "The event returned by create_event depends only on the configuration and on the random numbers consumed between the states of the engine before and after the call: no later number influences it, and numbers consumed for one event play no part in the following ones.", "quantifier": "all configurations, engines and sequences of random numbers", "why_tests_cant": "Reusing or skipping numbers leaves every single event plausible; only the correlations between events show it, and the sequences of numbers cannot be enumerated.", "anchors": ["src/Generator.cc: create_event, sample_reaction, rejection_sample", "src/NuclearReaction.cc: create_event", "src/ElectronReaction.cc: create_event"]}
{"id": "C85", "title": "Configured sources have finite, nonnegative, normalised densities", "statement": "Whatever neutrino source specification a configuration contains, either it is rejected or the source produces one of the six neutrino species, has a range of nonnegative energies, and (for the non-tabulated types) a density that is a nonnegative number at every energy; the Fermi-Dirac, beta-fit and function sources have the documented shape, scaled so that the library's numerical integral over the range is one.", "quantifier": "all JSON values describing a source, all parameters", "why_tests_cant": "The parameters are real numbers and the specification an arbitrary JSON value; a test tries a few of each.", "anchors": ["src/JSONConfig.cc: prepare_neutrino_source", "src/NeutrinoSource.cc: FermiDiracNeutrinoSource, BetaFitNeutrinoSource, FunctionNeutrinoSource constructors and pdf"]}
{"id": "C86", "title": "Target, direction and cut-offs of a job configuration", "statement": "Without a target in the job configuration, the target consists of exactly the atoms of the configured reactions with equal shares; an explicit list of nuclides and fractions gives exactly those nuclides with the fractions divided by their sum, and is refused with marley::Error if it is malformed. The projectile direction is that of the vector given (components not mentioned are kept), a zero vector is refused. Angular momentum cut-offs are the integers given and are refused below their minimum.", "quantifier": "all JSON configurations and all lists of reactions", "why_tests_cant": "Tests use a handful of configurations; the combinations of missing, malformed and out-of-range values and the possible sets of reactions are unbounded.", "anchors": ["src/JSONConfig.cc: prepare_target, prepare_direction, prepare_structure", "src/Target.cc: initialize"]}
{"id": "C87", "title": "De-excitation conserves energy and momentum", "statement": "De-exciting the residual nucleus of an event (any number of compound-nucleus decays followed by a gamma cascade) leaves the sums of the energies and of the three momentum components of the final particles unchanged, and leaves every final particle on its mass shell.", "quantifier": "all events, nuclear data with nonnegative fragment masses, random number sequences and lengths of the decay chain", "why_tests_cant": "The chain of decays has no fixed length and its energies and angles are real numbers; tests check a few sampled chains up to a tolerance.", "anchors": ["src/NucleusDecayer.cc: process_event", "src/HauserFeshbachDecay.cc: do_decay", "src/DecayScheme.cc: do_cascade", "src/marley_kinematics.cc: two_body_decay"]}
{"id": "C88", "title": "Every generated event is physically sensible", "statement": "Every event returned by the generator, with or without de-excitation and for each kind of reaction, conserves energy, momentum and electric charge, contains only particles on their mass shell, has the source's projectile hitting a target at rest, and has the projectile moving along the configured direction (or along the direction drawn for that event if the direction is randomised).", "quantifier": "all configured generators, all random number sequences, any number of events", "why_tests_cant": "Conservation must hold through sampling, scattering, de-excitation and rotation for a continuum of energies, angles and random numbers.", "anchors": ["src/Generator.cc: create_event", "src/NuclearReaction.cc: create_event", "src/ElectronReaction.cc: create_event", "src/NucleusDecayer.cc: process_event", "src/ProjectileDirectionRotator.cc: process_event"]}
{"id": "C89", "title": "Gamma-ray strength functions are the documented ones", "statement": "The standard Lorentzian and the Weisskopf models give the strength functions documented for them, for every multipolarity; transmission coefficients are 2 pi E^(2l+1) times the strength function; strengths are never negative; multipolarities below one are rejected and unphysical transitions have strength zero; nonpositive level spacings are rejected.", "quantifier": "all nuclides, photon energies above zero, multipolarities, transition types and level spacings", "why_tests_cant": "There are infinitely many multipolarities and a continuum of energies; tests use a few of them with tolerances.", "anchors": ["src/StandardLorentzianModel.cc", "src/WeisskopfSingleParticleModel.cc", "src/GammaStrengthFunctionModel.cc: check_multipolarity"]}
{"id": "C90", "title": "Level densities are the published back-shifted Fermi gas densities", "statement": "Total level densities are those of the published model, are positive and vary continuously with the excitation energy. Densities for a given spin are the total density times the published spin distribution, and both parities have half of them. Results do not depend on earlier calls, although the object keeps a spin cut-off parameter between them.", "quantifier": "all nuclides with known masses, excitation energies of at least zero, spins, parities and series of earlier calls", "why_tests_cant": "Positivity and continuity are claims about a continuum of energies; hidden state can only be excluded by considering all series of calls.", "anchors": ["src/BackshiftedFermiGasModel.cc", "include/marley/BackshiftedFermiGasModel.hh: compute_sigma_F2"]}
{"id": "C91", "title": "Transmission coefficients come from solving the Schr\u00f6dinger equation", "statement": "The transmission coefficient for a fragment, orbital and total angular momentum is a number between zero and one; it is zero without kinetic energy and where the potential does not absorb. It is one minus the squared modulus of the scattering matrix element, obtained by integrating the radial Schr\u00f6dinger equation for the very potential that the model reports, with the relativistic wave number, outwards to where the nuclear potential has died out, and comparing with Coulomb functions at two points. The calculation always ends. The total cross section is the sum of the partial waves. Results do not depend on earlier calls or on members left uninitialised by the constructor.", "quantifier": "all nuclides up to mass number 3000, fragments, kinetic energies, angular momenta, step sizes, Coulomb functions and series of earlier calls", "why_tests_cant": "Whether the loops end and whether stale members leak into a result depends on all energies, nuclides and call orders; tests see a few values.", "anchors": ["src/KoningDelarocheOpticalModel.cc: transmission_coefficient, s_matrix_element, total_cross_section, calculate_kinematic_variables"]}
{"id": "C92", "title": "The optical potential is the published global potential", "statement": "The optical potential reported for a fragment is the published global potential of Koning and Delaroche, folded over the nucleons of composite fragments, with the spin-orbit term for the given angular momenta and the Coulomb potential of a uniformly charged sphere, at every distance. Without spin-orbit term its imaginary part is never positive.", "quantifier": "all nuclides up to mass number 3000, fragments of any number of neutrons and protons, energies of at least zero, distances above zero and angular momenta", "why_tests_cant": "A mistaken coefficient or sign shows up in some nuclides, fragments or energies only; tests compare with a few tabulated values.", "anchors": ["src/KoningDelarocheOpticalModel.cc: optical_model_potential, calculate_om_parameters, omp_minus_Vc, Vc", "include/marley/KoningDelarocheOpticalModel.hh"]}
{"id": "C93", "title": "Decay widths of excited nuclei are never negative and an excited nucleus can always decay", "statement": "With the nuclear models that the library provides, all quantities that enter the widths for the emission of nucleons, light fragments and gamma rays are finite numbers, and no partial width and no weight of a final spin and parity is negative, so that the random choice of a channel, and of a spin and parity, is always well defined: one of the offered ones is chosen, or, if all weights are zero, marley::Error is thrown. The calculation throws no exception if the level data can be read. A nucleus with an energy above its known levels always has a positive total width, so that a channel is always chosen.", "quantifier": "all nuclides with 2 to 509 nucleons, energies, spins, parities, fragments, level schemes, mass tables, Coulomb functions and random numbers, if shell corrections leave the level density parameters positive", "why_tests_cant": "A negative or undefined weight is undefined behaviour of the random choice and would show up for particular nuclides, energies and spins only; tests run a few decays.", "anchors": ["src/HauserFeshbachDecay.cc: build_exit_channels, sample_exit_channel", "src/ExitChannel.cc", "src/StructureDatabase.cc: get_optical_model, get_level_density_model, get_gamma_strength_function_model"]}
{"id": "C94", "title": "A generator made from a job configuration is the configured one and ready for use", "statement": "If a generator can be made from a job configuration, its seed, its neutrino direction, the angular momentum cut-offs, the neutrino source, whether the flux is weighted with cross sections, the bound on the density of energies and whether nuclei de-excite are as given in the configuration, and the documented defaults where the configuration says nothing; if the seed is given, the time does not matter. It has exactly the configured reactions with the configured Coulomb corrections, a target, at least one reaction for the particles of the source, and a normalised density of energies. Every event it then makes conserves energy, momentum and charge, has the configured projectile, and, unless directions are random, has it move along the configured direction. A value of the wrong type is rejected, and a configuration without reactions leaves a generator that can be completed later.", "quantifier": "all job configurations, file systems, reaction files, mass tables, times, engines and numbers of events", "why_tests_cant": "Settings combine freely; a default that replaces a given value, an order of steps that loses a setting or a missing normalisation shows up for particular combinations only.", "anchors": ["src/JSONConfig.cc: create_generator, prepare_neutrino_source, prepare_direction, prepare_reactions, prepare_structure, prepare_target", "src/Generator.cc: normalize_E_pdf, create_event"]}
{"id": "C95", "title": "Log settings of a job configuration are applied as written", "statement": "Reading a job configuration sends every later message to exactly the listed files whose level admits it, once for each listing, to standard error if the level of its last listing (warning if it is not listed) admits it, and, if it is not a warning or an error, to standard output if the level of its last listing admits it. Entries without level mean info. Without log settings, information goes to standard output and warnings and errors to standard error; with an empty list nothing is written at all. Files that are to be overwritten are emptied, others keep their contents, and no file that is not listed is touched. Earlier settings and messages do not matter. Settings are rejected with marley::Error exactly if they are not a list, an entry has no file name, an invalid level or (for a file) an invalid overwrite setting, or a file cannot be opened; rejected settings have no effect. A configuration read from a file acts like one given directly.", "quantifier": "all configurations, file systems, earlier settings and messages, and later messages", "why_tests_cant": "The logger keeps state between messages and configurations, and settings combine freely; a stream enabled at a wrong level shows up only after particular histories.", "anchors": ["src/JSONConfig.cc: JSONConfig, update_logger_settings", "src/Logger.cc: add_stream, clear_streams, enable, log"]}
{"id": "C96", "title": "A decay scheme read from a TALYS-format file has exactly the levels and gammas listed for the nuclide", "statement": "Reading the data of a nuclide from a TALYS-format file gives a decay scheme with exactly the listed levels (energy, spin, parity), sorted by energy, each with exactly those of its listed gammas that have a positive branching ratio, leading to the level whose number is given, with the difference of the two level energies. Data of other nuclides in the file do not matter. If every gamma leads to a level listed before its own, every gamma of the scheme leads down. A file that cannot be read, a nuclide whose data are not in the file, numbers that do not denote a nuclide, a gamma to a level listed later, and incomplete data are reported by an exception.", "quantifier": "all nuclides, lists of levels, layouts of the lines, and other contents of the file", "why_tests_cant": "The reader relies on the order of the lines, on stream state that survives from line to line, and on numbers of levels agreeing with positions in a sorted container; only some files expose a mismatch.", "anchors": ["src/DecayScheme.cc: parse_talys, add_level", "src/marley_utils.cc: nuc_id"]}
{"id": "C97", "title": "The nuclides found in a TALYS-format file are those whose decay schemes can be read from it", "statement": "Searching a TALYS-format file for nuclides gives exactly the codes of the nuclides with data in the file, and for each of them the decay scheme can be read from the same file and has the levels listed for that nuclide. A file that cannot be read is a marley::Error.", "quantifier": "all files with data for any number of different nuclides", "why_tests_cant": "The two readers use different patterns for the first line of the data; that they agree concerns every nuclide and layout.", "anchors": ["src/StructureDatabase.cc: find_all_nuclides", "src/DecayScheme.cc: parse_talys"]}
{"id": "C98", "title": "The fast cosine transform writes only inside the arrays it is given", "statement": "Constructing a Chebyshev interpolant, with a given grid size or one found adaptively, and taking its cumulative function never write outside the vectors that hold the values, the coefficients, the sines and cosines and the factors of the grid size.", "quantifier": "all functions, ranges and grid sizes", "why_tests_cant": "Writing one integer after the end of a vector usually does not change any result.", "anchors": ["src/ChebyshevInterpolatingFunction.cc: constructor, cdf", "src/fftpack4.cc: costi, cost, rffti1, rfftf1, radf2, radf3, radf4, radf5, radfg"]}
{"id": "C99", "title": "The fast cosine transform computes the cosine transform", "statement": "For a vector x_0 ... x_N with N at least 1 the fast transform replaces entry i by x_0 + (-1)^i x_N + sum over 0<k<N of 2 x_k cos(k i pi / N), for every N whatever its factors are; doing it twice multiplies the vector by 2 N.", "quantifier": "all vectors of real numbers of any length of at least 2, all contents of the work arrays", "why_tests_cant": "The code takes different paths for the factors 2, 3, 4, 5 and others, for the first pass and later ones, and for odd and even sizes; only large sizes with several factors exercise all combinations.", "anchors": ["src/fftpack4.cc: costi, cost, rffti1, rfftf1, radf2, radf3, radf4, radf5, radfg"]}
{"id": "C100", "title": "Durations are shown faithfully", "statement": "The text shown for an elapsed or an estimated time gives its whole seconds as days (left out if zero), hours below 24, minutes below 60 and seconds below 60 with two digits each; different numbers of seconds are never shown alike.", "quantifier": "all durations the clock can give", "why_tests_cant": "A test waits for seconds, not for days; carries at midnight and the change from one day to several are only met in long runs.", "anchors": ["include/marley/marley_utils.hh: duration_to_string, elapsed_time_string"]}
{"id": "C101", "title": "Amounts of data are shown faithfully", "statement": "The amount of data shown for an output file is the size of the file at that moment, in the largest decimal unit that is not larger, rounded to the number of decimals asked for.", "quantifier": "all file sizes, numbers of decimals, formats and moments of a run including its end", "why_tests_cant": "The display is not examined by tests, and the largest units need files of terabytes.", "anchors": ["src/marley_utils.cc: num_bytes_to_string", "src/OutputFile.cc: TextOutputFile::bytes_written, TextOutputFile::close", "src/marley.cc: makeStatusLines, main"]}
{"id": "C102", "title": "The status display does not disturb the log", "statement": "On a terminal, every line of text the program writes stays on the screen exactly as written, one below the other, whatever status displays are shown in between; the display itself is below the last line, complete and without remainders of earlier ones, and is shown after the first event, after each interval of events and after the last one.", "quantifier": "all sequences of lines of text and status displays, all contents of the displays, all contents of the screen before", "why_tests_cant": "The text reaches the terminal as one stream with control sequences; whether lines are overwritten depends on the order of lines and displays and on the lengths of earlier lines.", "anchors": ["src/marley.cc: makeStatusLines, StatusInserter, main"]}
{"id": "C103", "title": "The exit status tells whether the command succeeded", "statement": "The program ends with status 0 if and only if what the command line asked for was done: information was asked for and given, or the job ran to its end or until it was interrupted; every exception gives status 1, and so does a command line that is not understood.", "quantifier": "all command lines, configurations, and outcomes of the run", "why_tests_cant": "Each way to fail needs its own configuration; scripts that check the status see only the ways that were tried.", "anchors": ["src/marley.cc: main"]}
{"id": "C104", "title": "JSON objects are values and their storage is accounted for", "statement": "JSON objects behave as independent values: after any sequence of constructions, copies, moves, assignments (also between parts of the same object), appends and destructions, every variable holds the value it would hold if variables were plain values, an operation on one variable changes no other except a source that is moved from, elements that are named but missing come into being as null, and no operation uses or releases storage twice; when all variables have been destroyed, no storage is left.", "quantifier": "all programs made of these operations, all values of any depth, all paths of keys and indices, both orders of evaluation of an assignment", "why_tests_cant": "Leaks and use of released storage have no visible effect in most runs; aliasing between the two sides of an assignment occurs only for particular pairs of paths.", "anchors": ["include/marley/JSON.hh: JSON(JSON&&), JSON(const JSON&), operator=, ~JSON, operator[], append, set_type"]}
{"id": "C105", "title": "Neutrino sources made from ROOT histograms and graphs", "statement": "A source of type th1 emits the configured species with the spectrum of the named histogram: each bin has a probability equal to its content divided by the sum of the contents of the ordinary bins, uniformly within the bin, and no neutrino has an energy below the first or above the last edge; underflow and overflow play no role. A source of type tgraph has the piecewise linear density through the points of the graph and is zero outside. A missing key, a file that cannot be opened, and an object that is missing or of another type lead to marley::Error. The named file is the one that is opened, and all other types of sources are unaffected by the presence of ROOT support.", "quantifier": "all histograms with increasing positive edges and contents that are not negative, all graphs with increasing positive energies, all configurations, all sets of files", "why_tests_cant": "The probability of every bin depends on the whole histogram; the branches for underflow and overflow bins and for wrong objects are rarely exercised because the tests do not use ROOT.", "anchors": ["src/marley_root.cc: make_root_neutrino_source", "include/marley/marley_root.hh: get_root_object", "src/RootJSONConfig.cc: process_extra_source_types"]}
{"id": "C106", "title": "ROOT output files and their reader", "statement": "A ROOT output file opened in the mode overwrite is created empty, with the consent of the user if something would be lost; otherwise an existing ROOT file with an event tree is continued, and everything else leads to marley::Error and leaves the file as it is. After a run that ends without an exception, interrupted or not, the file contains the events it had before followed by exactly the events that were generated, in order, together with the job configuration, the state and the seed of the generator, and the flux-averaged cross section; a run with files of several formats records the same events in all of them, and the number of events counted includes those of the resumed file. After an exception the events already written are still in the file. A new reader of such a file returns the events in their order, then reports the end however often it is asked, and returns the cross section at any time; files of the other formats are written and read as without ROOT.", "quantifier": "all generators, configurations, numbers of events, moments of interruption, lists of output files, sequences of calls of the reader", "why_tests_cant": "The tests are built without ROOT, and the outcome depends on the sequence of events, the moment of the interruption, the combination of files and the order of the calls of the reader.", "anchors": ["src/RootOutputFile.cc", "src/RootEventFileReader.cc", "src/MacroEventFileReader.cc", "src/marley.cc: main"]}
{"id": "C107", "title": "A production divided into several runs", "statement": "If a JSON or ROOT output file is written by a first run and continued by any number of further runs in the mode resume, then whatever the numbers of events and the moments at which the runs were interrupted, the file contains exactly the first events of the sequence that the generator made from the configuration of the first run produces in a single run: none is missing, none is repeated, none is out of order. Two such productions with the same configuration agree as far as both go.", "quantifier": "all numbers of runs, numbers of events, moments of interruption, generators whose saved state determines the events that follow, other output files of each run", "why_tests_cant": "Equality with the uninterrupted sequence is a statement about all ways to divide a production into runs; it needs the saved configuration, the saved state and the writing of the file to fit together in every run.", "anchors": ["src/marley.cc: main", "src/OutputFile.cc: resume, close", "src/RootOutputFile.cc: resume, close", "src/Generator.cc: seed_using_state_string, get_state_string"]}
{"id": "C108", "title": "Programs that read event files", "statement": "marsum writes a tree with exactly one row for every event of all input files, in the order of the files on the command line and of the events in each file; the branches of a row have the values of its event (projectile, target, ejectile and residue, state of the residue before its decay, one entry for each further final particle and their number) and the cross section of the file it comes from in 10^-42 cm^2. An input file that cannot be read to its end or an event without the four particles of the reaction ends the program with an exception instead. An existing output file is overwritten only if the user agrees, and with fewer than two arguments nothing is read or written. The example program marprint prints the events of all its files in order, numbered from zero, each with all its particles and the spin, parity and excitation energy of the residue.", "quantifier": "all lists of files of any of the four formats, all events in them, all answers of the user", "why_tests_cant": "The tests do not run these programs; the claim is about every combination of files and events, including events without products, files without events and files that end early.", "anchors": ["src/marsum.cc: main", "examples/executables/marprint.cc", "include/marley/EventFileReader.hh: operator>>", "src/RootEventFileReader.cc"]}
{"id": "C109", "title": "Tables of cross sections", "statement": "The example program mardumpxs writes one line with energy and total cross section for each of the requested number of energies, which are equidistant, begin one step above the lower end of the requested range and end at its upper end; the cross section is that of the generator for the requested projectile in 10^-42 cm^2. Settings that are missing have the default values (0 to 100 MeV, 10000 steps, electron neutrinos), and settings of a wrong type lead to marley::Error. An existing output file is overwritten only if the user agrees.", "quantifier": "all configurations, ranges, numbers of steps, generators, answers of the user", "why_tests_cant": "The tests do not run this program; position and number of the energies for all ranges and numbers of steps cannot be sampled.", "anchors": ["examples/executables/mardumpxs.cc", "src/Generator.cc: total_xs"]}
{"id": "C110", "title": "The Fermi function is a positive factor that favours attracted leptons", "statement": "The approximate Coulomb correction called Fermi function is a positive finite number for every nucleus with atomic number at most 137 and every lepton with mass and with a relative speed between 0 and 1; it is the published expression 2(1+S) \u0393(1+2S)^-2 (2pR)^(2S-2) exp(\u03c0\u03b7) |\u0393(S+i\u03b7)|^2 with the complex gamma function of the program. For negatively charged leptons it exceeds the one for positively charged leptons by the factor exp(2\u03c0\u03b1Z/\u03b2), and for an uncharged nucleus it is 1 up to rounding. The complex gamma function has a non-zero value everywhere except at 0, -1, -2, ..., commutes with complex conjugation and fulfils the reflection formula. Charged-current cross sections above threshold are positive numbers without Coulomb correction, with this correction, and for attracted leptons with every Coulomb correction that can be chosen; with the combined corrections they are numbers and not negative for all leptons.", "quantifier": "all complex arguments, nuclei, leptons, relative speeds, reactions and neutrino energies", "why_tests_cant": "Zeros, poles and signs of a function of a complex variable cannot be excluded by sampling; the tests evaluate a few reactions on argon.", "anchors": ["src/marley_utils.cc: gamma", "src/NuclearReaction.cc: fermi_function, coulomb_correction_factor"]}
{"id": "C111", "title": "Reports and tables say what they describe", "statement": "The report on a decay scheme can be printed whenever every gamma ray leads to a level of the scheme; a reader who knows the layout gets back from it the energies, spins and parities of all levels in order and for each level the energies, intensities and final level energies of its gamma rays. The LaTeX table of a nuclide with a known element and a mass number from 1 to 999 contains the same information, names the nuclide in its caption, has the same number of cells in every row and balanced braces; other nuclides lead to an exception. The text of a target shows mass number, element and atom fraction of every nuclide and determines the target. The text on the decay of a compound nucleus shows code, energy, spin, parity, total width, mean lifetime, and for each decay channel the emitted particle, the final level if there is one, and the partial width.", "quantifier": "all decay schemes, targets and compound nuclei; all ways to print numbers without separators", "why_tests_cant": "The tests do not print any of these texts; that a text can be read back is a statement about all schemes, targets and decays.", "anchors": ["src/DecayScheme.cc: print_report, print_latex_table", "include/marley/marley_utils.hh: latex_table_1 ...", "src/Target.cc: print", "src/HauserFeshbachDecay.cc: print, src/ExitChannel.cc"]}
{"id": "C112", "title": "Names of particles and descriptions of reactions identify them", "statement": "Leptons, photons, nucleons and light nuclei have pairwise different names, antiparticles included; asking for another name throws std::out_of_range. A reaction on a nucleus can be described exactly if projectile and ejectile have names and both elements have symbols, so in particular every reaction that the loader builds for leptons; the description determines projectile, initial nuclide, ejectile and final nuclide and whether an excited state can be reached. A reaction on electrons is determined by its description and never described like a reaction on a nucleus.", "quantifier": "all particle codes, reactions, lists of matrix elements", "why_tests_cant": "That no two of arbitrarily many codes or reactions share a text cannot be shown by examples.", "anchors": ["src/marley_utils.cc: get_particle_symbol", "src/NuclearReaction.cc: set_description", "src/ElectronReaction.cc"]}
{"id": "C113", "title": "The example macros show what is in the event file", "statement": "Given an event file, the example macros show the flux-averaged cross section differential in the neutrino energy, in the scattering angle and in the reconstructed neutrino energy: in each bin, content times width is the part of the cross section that belongs to the events in the bin, and the integral is the part that belongs to the range. The histogram of the energies of a kind of particle contains all final particles of that kind, that of the excitation energies all events, and both comprise all their values. The nuclei heavier than helium-4 are counted by kind; for an argon-40 nucleus that absorbs an electron neutrino the counters named after channels count just the events of these channels. The reconstructed energy differs from the true one by the masses and by the energies of the neutrons. The macro for printing prints all events. Events without projectile end a macro with std::out_of_range.", "quantifier": "all event files of every format and all events in them, all particle codes", "why_tests_cant": "Every file has a different distribution over the bins; that nothing is lost or counted twice has to hold for all of them, and the exceptions (the order of energies, the exact forward direction) are rare in samples.", "anchors": ["examples/macros/nu_spect.C", "examples/macros/cos_plot.C", "examples/macros/fp_spect.C", "examples/macros/Ex.C", "examples/macros/reco_spectrum.C", "examples/macros/print_events.C"]}
{"id": "C114", "title": "The Geant4 example and the minimal examples hand on the events of the generator unchanged", "statement": "marg4 simulates as many events as its first argument says: exactly the numbers from 0 to 2^31-1 are accepted, with leading blanks and a sign as for std::stoi and with nothing after the digits; otherwise it ends with code 2, with fewer than two arguments with code 1. In each event Geant4 gets one vertex at the origin at time zero with just the final particles of the next event of the generator, in order, with their codes, momenta, energies and charges; together they have the energy and momentum of projectile and target. Every hundredth event is announced, beginning with the first. If the generator throws, the events made before have been simulated and the exception is passed on. evgen prints the first ten events of the generator; what it prints can be read again. efr prints the flux-averaged cross section in units of 10^-42 cm^2 and then all events of a file, in order and once; for a file that cannot be read it prints nothing and passes the exception on.", "quantifier": "all arguments, all generators and states of them, all events, all event files of every text format", "why_tests_cant": "Losing or changing particles may depend on the content of an event, numbers that are accepted on their text; no sample covers all of them, and the program needs Geant4 to run at all.", "anchors": ["examples/marg4/src/marg4.cc", "examples/marg4/src/MarleyPrimaryGeneratorAction.cc: GeneratePrimaries", "examples/marg4/src/EventAction.cc: BeginOfEventAction", "examples/executables/minimal/evgen.cc", "examples/executables/minimal/efr.cc"]}
{"id": "C115", "title": "Coulomb wave functions come from GSL, with its error handler set aside only meanwhile", "statement": "coulomb_H_plus gives G + iF for the Coulomb functions F and G that GSL computes, whether GSL gives them directly or, because of an overflow, as scaled values with exponents. Whatever GSL reports and whichever error handler was set before, the program is not ended, no other handler is called meanwhile, and afterwards the same handler is set as before. Overflows leave no trace; each other error gives one error message with the reason, file, line and code that GSL reports, and nothing else is written. The value depends only on the arguments. Where GSL finds no finite value the transmission coefficient is zero.", "quantifier": "all values and errors that GSL can give, all handlers, all configurations of the logger, all arguments", "why_tests_cant": "Which arguments make GSL report an error is not documented, and the handler of another package only matters in programs that combine it with MARLEY; a test would have to provoke each error in each situation.", "anchors": ["src/coulomb_wavefunctions.cc: coulomb_H_plus", "src/coulomb_wavefunctions.cc: marley_gsl_error_handler", "include/marley/coulomb_wavefunctions.hh"]}
{"id": "C116", "title": "Iterators to members are iterators over the values of the member", "statement": "An IteratorToMember over a container, or an IteratorToPointerMember over a container of pointers to different objects, gives the same results in any sequence of increments, decrements, jumps, reads and writes as a plain iterator with random access over the list of the values of that member; writing changes the values in the same way and nothing else in the objects, nor any object that is not pointed to. Operations that leave the range are undefined for both, and so is reading through a null pointer. Iterators are compared and subtracted by their positions, and reading a whole range gives the member of each element once and in order. (IteratorToPointerMember has no usable subscript operator.)", "quantifier": "all classes and members, all containers, all sequences of operations", "why_tests_cant": "The claim is about every sequence of operations on containers of any size; a wrong result of a postfix operator or a jump shows only in some of them.", "anchors": ["include/marley/IteratorToMember.hh", "include/marley/IteratorToPointerMember.hh"]}
{"id": "C117", "title": "The human-readable listing shows the whole event", "statement": "print_human_readable lists an event in lines that give its number (unless it is negative), how many initial and final particles it has, the excitation energy, spin and parity of the residual nucleus, and for every particle, initial ones first and in order, the code, total energy, momentum, mass and charge. Listings of different sequences of events are different: the events, their order and their numbers can be read off the listing.", "quantifier": "all events with any particles, all numbers, all sequences of events", "why_tests_cant": "That nothing is lost or ambiguous concerns all pairs of different events.", "anchors": ["src/Event.cc: print_human_readable", "src/Event.cc: print_particle_info"]}
{"id": "C118", "title": "Reading selected lines of a text file", "statement": "get_next_line gives the first line not yet read that matches (or, if so requested, does not match) the pattern, and leaves the lines after it unread; num_lines is the number of lines read for it. If there is no such line the result is empty and the file has been read to its end. Called again and again it gives exactly the selected lines, in order and each once, and then nothing but empty texts. The lines of a file are the parts between line breaks; a file that ends with a line break has a last line that is empty.", "quantifier": "all texts, all patterns, all numbers of calls", "why_tests_cant": "Files may have any number of skipped lines, empty lines and missing line breaks at the end in any combination.", "anchors": ["src/marley_utils.cc: get_next_line"]}
{"id": "C119", "title": "Incomplete JSON documents are never accepted", "statement": "If JSON::load accepts a text, then it gives the same value for every text that begins with it, and it throws marley::Error for every text that ends before the end of that document, wherever it is cut off: inside a key, string, number or comment, between values, or before the last closing brace. In particular no proper beginning of what dump_string writes for an object that can be read back is accepted, and a job cannot be resumed from a JSON event file that was cut off: marley::Error is thrown and the file is left as it is.", "quantifier": "all texts that are accepted, all places at which they can be cut off, all continuations, all objects and indentations", "why_tests_cant": "Files can be cut off at any position of any document; an unterminated string or number at the end of the input is handled by other branches than elsewhere, and a test tries a few positions of a few documents.", "anchors": ["include/marley/JSON.hh: parse_next, parse_object, parse_array, parse_string, parse_number, skip_comment, JSON::load", "src/OutputFile.cc: JSONOutputFile::resume"]}
{"id": "C120", "title": "Hand-written JSON configurations mean what they say", "statement": "JSON::load reads every text of the language of configuration files as the object it stands for: blanks, line comments and block comments may stand before and after every value, key, colon, comma and bracket; keys may be written with or without quotes; every character of a string may be escaped in any of the usual ways; a comma may follow the last element of an array or object; numbers are whole numbers that fit in a long or have a decimal point or an exponent. If a key is given several times the last value counts, and the other members are unaffected. A text stands for one object at most, and what follows it is left in the stream.", "quantifier": "all documents of any depth and width in any layout", "why_tests_cant": "Layouts, comments, escapes and repeated keys can be combined without limit; each combination takes another path through the parser.", "anchors": ["include/marley/JSON.hh: skip_ws, skip_comment, parse_next, parse_object, parse_array, parse_string, parse_number, parse_bool, parse_null, JSON::load"]}
{"id": "C121", "title": "Event files that are cut off never yield wrong events", "statement": "If a file of events was cut off (the job was stopped, the disk was full), EventFileReader delivers all events that are complete in it, in their order, each as it was written. Then it reports the end of the file or throws an exception; it never delivers an event that was not written. A missing newline at the end of an ASCII file does not lose the last event. Of a JSON file that is cut off nothing is delivered: the first question ends with an exception.", "quantifier": "all files of events and all places where they may be cut off", "why_tests_cant": "A file may be cut off within any of its numbers, and what the reader makes of the beginning of a number depends on the number.", "anchors": ["src/EventFileReader.cc: deduce_file_format, initialize, next_event, operator bool", "src/Event.cc: Event::read, Event::read_hepevt", "src/Particle.cc: Particle::read", "include/marley/JSON.hh: JSON::load"]}
{"id": "C122", "title": "Rejection sampling follows the density and ends", "statement": "If the maximum that rejection_sample starts from is nowhere exceeded by the function, and the numbers drawn are independent and uniform in [0, 1), then the abscissa returned lies in a set A with probability (integral of the function over A) / (integral over the range), whatever number of trials it took. More than n trials are needed with probability (1 - p)^n, where p is the share of the box [xmin, xmax] x [0, fmax] below the function; so the loop ends with probability one if the integral is positive, and with probability zero if it vanishes.", "quantifier": "all bounded measurable functions that are not negative, all ranges, all maxima not exceeded (passed over or searched for), all measurable sets of abscissas, all numbers of trials", "why_tests_cant": "A histogram of finitely many samples cannot tell a distribution from one that is near it, and says nothing about other functions.", "anchors": ["src/Generator.cc: rejection_sample, uniform_random_double"]}
{"id": "C123", "title": "Energies and reactions follow flux times cross section", "statement": "With independent uniform draws and a bound that is not exceeded, sample_reaction returns reaction i together with an energy in a set A with probability (integral over A of source spectrum times cross section of i, weighted by the fraction of its atom) / (integral over the source range of source spectrum times total cross section). If the flux is not weighted by the cross section, the energies follow the source spectrum where some reaction is open, and at each energy the reactions share it in proportion to their cross sections.", "quantifier": "all sources, all sets of reactions, all targets, all measurable sets of energies, all reactions of the generator, all numbers of trials", "why_tests_cant": "It is a statement about a joint distribution for every configuration; a wrong use of the random sequence (a number used twice, cross sections of another energy) changes the distribution of finitely many events only slightly.", "anchors": ["src/Generator.cc: sample_reaction, E_pdf, rejection_sample", "include/marley/Generator.hh: sample_from_distribution"]}
{"id": "C124", "title": "Random directions are isotropic", "statement": "With independent uniform draws, the direction chosen when random projectile directions are requested lies in any set of directions with the probability of its share of the full solid angle. Hence its distribution is not changed by any rotation or reflection, and the cosine of the angle with any fixed axis is uniform in [-1, 1]. The projectile of every processed event then moves in such a direction, whatever was done with the rotator before. Photons and fragments are emitted in such directions in the rest frame of the nucleus, with a momentum that does not depend on the draws, and the residue recoils in the opposite direction.", "quantifier": "all measurable sets of directions, all rotations and reflections, all axes and angles, all histories of the rotator, all events with a moving projectile, all allowed two-body decays", "why_tests_cant": "A distribution over a continuum cannot be established by finitely many draws; a slightly wrong map of draws to directions (an angle instead of its cosine, half a turn) passes checks along single axes.", "anchors": ["src/ProjectileDirectionRotator.cc: sample_isotropic_direction, process_event", "src/marley_kinematics.cc: two_body_decay", "src/DecayScheme.cc: do_cascade", "src/ExitChannel.cc: do_decay"]}
{"id": "C125", "title": "Inverse transform sampling follows the cumulative function", "statement": "With a uniform draw, the point returned by inverse_transform_sample for a nondecreasing cumulative function is at most t with a probability that lies between the values of the normalised cumulative function half a tolerance below and half a tolerance above t. If the function has a slope of at most L, the distribution of the points differs from the normalised cumulative function by at most L times half the tolerance, divided by the value at the upper end.", "quantifier": "all nondecreasing cumulative functions that are not negative at the lower end and positive at the upper end, all intervals, all tolerances, all t", "why_tests_cant": "A statement about a distribution at every point for every function; tests compare histograms of a few functions within statistical errors.", "anchors": ["src/Generator.cc: inverse_transform_sample", "src/ExitChannel.cc: sample_Exf"]}
{"id": "C126", "title": "Scattering angles follow the differential cross sections", "statement": "With independent uniform draws, the cosine of the scattering angle sampled for a nuclear transition has the density (1 + beta cos)/2 for Fermi and (3 - beta cos)/6 for Gamow-Teller transitions. An event of scattering on an electron has a cosine distributed as the differential cross section divided by the total one, and an azimuth that is uniform and independent of it; this determines the distribution of energy and momentum of the ejectile. The probability that no angle is found within n trials vanishes exponentially with n.", "quantifier": "all transitions, all speeds from 0 to 1, all couplings, all energies with a positive cross section, all measurable sets of angles and of four-momenta, all numbers of trials", "why_tests_cant": "Statements about continuous distributions for all parameters; tests can compare a few histograms within statistical errors.", "anchors": ["src/NuclearReaction.cc: sample_cos_theta_c_cm", "src/ElectronReaction.cc: create_event, diff_xs", "src/Generator.cc: rejection_sample"]}
{"id": "C127", "title": "Gamma cascades follow the branching ratios", "statement": "With independent uniform draws, the probability that a gamma cascade from a level takes a given route, a sequence of gammas ending at a level that has none, is the product over its gammas of the relative intensity divided by the sum of the relative intensities of the level the gamma leaves. The photons and the nucleus found in the event belong to the route: one photon for each gamma, energy and momentum conserved at each emission, the mass of the nucleus lowered each time by the difference between the two level energies.", "quantifier": "all decay schemes whose gammas lead to lower levels and have intensities that are not negative, not all zero, all starting levels, all routes, all events the cascade starts from, all numbers of draws that suffice", "why_tests_cant": "A probability law over all schemes and routes; tests can compare frequencies for a few nuclides.", "anchors": ["src/DecayScheme.cc: do_cascade", "src/Level.cc: sample_gamma", "include/marley/Generator.hh: sample_from_distribution"]}
{"id": "C128", "title": "Transitions are populated in proportion to their cross sections", "statement": "With independent uniform draws, the probability that an event of a nuclear reaction leads to a given transition is the partial cross section of the transition at the energy of the projectile divided by the total cross section, and zero for transitions that cannot be reached. Given the transition, the ejectile has a cosine distributed as (1 + beta cos)/2 (Fermi) or (3 - beta cos)/6 (Gamow-Teller) and a uniform azimuth, independently; this determines the joint distribution of excitation energy and of energy and momentum of the ejectile. After a Gamow-Teller transition to the continuum of a target with spin the residue has one of the spins allowed (differing by at most one unit, triangle rule), each with a probability proportional to the level density, and the parity of the target.", "quantifier": "all nuclear reactions with levels in order and no strength equal to zero, all projectile energies with a positive cross section, all transitions, all measurable sets of four-momenta of the ejectile, all numbers of trials", "why_tests_cant": "A joint distribution over continuous outcomes for all reactions and energies; tests can compare a few histograms within statistical errors.", "anchors": ["src/NuclearReaction.cc: create_event, summed_xs_helper, sample_cos_theta_c_cm", "src/Reaction.cc: make_event_object", "src/NuclearReaction.cc: spin and parity of the residue in create_event"]}
{"id": "C129", "title": "Compound nuclei decay in proportion to the widths", "statement": "With uniform draws, the probability that a compound nucleus decays through channels with a given property (the particle emitted, the level reached or the continuum) is the sum of the widths of the offered channels with that property divided by the sum of all widths. In a decay to the continuum at a given energy, the probability of a final spin and parity is the sum of the terms of the allowed waves (or types and multipolarities of radiation) that lead to them divided by the sum over all.", "quantifier": "all compound nuclei, excitation energies, spins and parities, all decay schemes, optical models, level densities and strength functions with nonnegative values, all properties of channels, all final spins and parities, whatever numbers are drawn later", "why_tests_cant": "A probability law over all nuclei and models; tests can compare frequencies for a few nuclides within statistical errors.", "anchors": ["src/HauserFeshbachDecay.cc: sample_exit_channel, do_decay", "src/ExitChannel.cc: sample_spin_parity, differential_width"]}
{"id": "C130", "title": "Whole de-excitations have the product law", "statement": "With independent uniform draws, a nucleus left in a known level below the threshold for emission of fragments de-excites by a gamma cascade, and the photons found in the event belong to a given route with the product of the branching ratios along it. A nucleus above the threshold decays through a given channel to a known level of the final nucleus, and the photons that follow belong to a given route, with the width of the channel divided by the sum of the widths, times the product of the branching ratios along the route; the event then holds the emitted particle followed by the photons of the route, and the emission conserves energy and momentum.", "quantifier": "all events, nuclei, decay schemes whose gammas lead to lower levels, levels with different energies, all channels to levels, all routes, all numbers of draws that suffice", "why_tests_cant": "A joint probability law over all nuclei, channels and routes; tests can compare a few frequencies within statistical errors.", "anchors": ["src/NucleusDecayer.cc: process_event", "src/HauserFeshbachDecay.cc: do_decay, sample_exit_channel", "src/DecayScheme.cc: do_cascade"]}
{"id": "C131", "title": "Reactions of a projectile with fixed energy are chosen in proportion to their cross sections", "statement": "With independent uniform draws, asking the generator for an event of a projectile of given type and kinetic energy on a given atom chooses among the configured reactions of the two with probability proportional to their total cross sections at that energy; reactions with other projectiles or atoms never contribute. With at least two open reactions, the distribution of the whole event returned (after de-excitation and rotation) is the mixture, with these probabilities, of the distributions obtained from generators that are configured with only one of the reactions.", "quantifier": "all generators, projectiles, energies, atoms and directions, all reactions with nonnegative cross sections of which the sum is positive, all sets of events, all distributions of the numbers after the first", "why_tests_cant": "A statement about probabilities over all reactions and all sets of events; tests can compare a few frequencies within statistical errors.", "anchors": ["src/Generator.cc: create_event(pdg_a, KEa, pdg_atom, dir_vec), total_xs(pdg_a, KEa, pdg_atom, index_vec, xsec_vec)", "include/marley/Generator.hh: sample_from_distribution"]}
{"id": "C132", "title": "Events follow the spectrum, the cross sections and the reactions, and successive events are independent", "statement": "With an ideal random engine, an event made for the configured source comes from a given reaction, at an energy in a given set, and has given properties, with probability proportional to the integral over these energies of the rate of the reaction (source spectrum times cross section, or the share of the spectrum if energies are not weighted) times the probability that the reaction at that energy makes an event with these properties after de-excitation and rotation. Summed over the reactions this is the distribution of events. If reactions use the engine in such a way that what they make says nothing about later numbers, then neither does an event of the generator, and successive events of a run are independent and all have this one distribution, although bounds, cached cross sections and rotations are kept from one event to the next.", "quantifier": "all ideal engines (any state space and probability measure), all generators with a density that is bounded by the bound in use, all reactions and de-excitations that can be measured, all sets of energies and events, all numbers of events", "why_tests_cant": "Probabilities of sets of whole events and independence of any number of successive events; tests compare a few histograms and cannot exclude correlations.", "anchors": ["src/Generator.cc: create_event(), sample_reaction, rejection_sample, E_pdf", "include/marley/Generator.hh: sample_from_distribution, uniform_random_double"]}
{"id": "C133", "title": "Events are determined by finitely many random numbers, and use up just these", "statement": "Whatever random engine is used, what a de-excitation, a reaction, a source or a run of any number of events of a generator makes (events, an exception, or no end within the allowed number of trials) is determined by finitely many of the next numbers of the engine, and the engine is left just after them: any other engine of any kind that gives the same numbers next leads to the same outcome and is left just after the same numbers. Nothing else of the engine is looked at, and no number is looked at without being used up, so that no number has a part in two successive events. So every run can be replayed from the list of its numbers, whatever numbers come after them.", "quantifier": "all engines of any state space, all states, all reactions, decay schemes, events and generator configurations, all numbers of events", "why_tests_cant": "A statement about all engines and about the state in which they are left; tests use one engine and compare the events of a few seeds.", "anchors": ["src/NucleusDecayer.cc: process_event", "src/NuclearReaction.cc: create_event", "src/ElectronReaction.cc: create_event", "src/Generator.cc: create_event, sample_reaction, rejection_sample, inverse_transform_sample, uniform_random_double", "include/marley/Generator.hh: sample_from_distribution"]}
{"id": "C134", "title": "Creating events ends with probability one", "statement": "If the random numbers are independent and uniform in [0, 1), then with probability one every run ends, however many events are asked for: each of its rejection loops is left after finitely many trials, and the run gives the events or an exception. Rejection sampling ends with probability one for every density that is bounded above and not small on some interval, or for a single energy, as for all sources with a single energy or a thermal, fitted or muon spectrum, for histograms and for tables with any rule of interpolation, with any bound that the user gives or that was found before. Nuclear reactions and scattering on electrons end at every energy, and the gamma cascade of a nucleus below the threshold for the emission of fragments ends surely. The chain of fragments and gamma rays of a compound nucleus ends with probability one, whatever its energy: each fragment makes the nucleus lighter, each gamma ray to the continuum takes away at least a quarter of the tolerance of the sampling of energies until the highest level is that close, and from there another channel is chosen sooner or later. None of this holds for every sequence of numbers: there are sequences with which a rejection loop goes on for ever.", "quantifier": "almost all states of the random engine, all numbers of events, all reactions, all sources and targets with bounded rates that are not small on some interval or, for a single energy, not zero, all cached bounds", "why_tests_cant": "A test that ends shows that one sequence of numbers leads to an end, and a test that does not end shows nothing; that the sequences with which a loop goes on for ever have probability zero is a statement about all infinite sequences.", "anchors": ["src/Generator.cc: create_event, sample_reaction, rejection_sample", "src/NuclearReaction.cc: create_event, sample_cos_theta_c_cm", "src/ElectronReaction.cc: create_event", "src/NucleusDecayer.cc: process_event", "src/HauserFeshbachDecay.cc: do_decay, build_exit_channels, sample_exit_channel", "src/ExitChannel.cc: do_decay, sample_Exf", "src/Generator.cc: inverse_transform_sample", "src/DecayScheme.cc: do_cascade", "src/marley_utils.cc: maximize", "src/NeutrinoSource.cc: sample_incident_neutrino"]}
{"id": "C135", "title": "Chains of decays are Markov chains", "statement": "If the random numbers are independent and uniform in [0, 1), the stages of an event depend on earlier stages only through what these have left. The probability of a course of two stages, say a reaction and the de-excitation, or a decay and those after it, is the mean over the results of the first stage of the probability that the second stage would have with an engine of its own. The decays of a compound nucleus form a Markov chain: the probability that it passes through given states (energy, spin, parity, kind of nucleus, particle emitted) is the product of the probabilities of the single steps. A step depends on the nucleus only through its state, not on its motion nor on earlier steps, and the probability of a step to a level is the share of the widths of the channels that lead to it. The particles that are added to the event are those emitted on the path, in this order, and the nucleus that is left is that of the last state.", "quantifier": "all ideal random engines, all data of nuclei, all states and motions of the nucleus, all paths of any length", "why_tests_cant": "Probabilities of whole paths multiply only if the numbers that are left after a step are independent of its result; a test sees frequencies of some paths, with statistical errors, and of one engine.", "anchors": ["src/NucleusDecayer.cc: process_event", "src/HauserFeshbachDecay.cc: do_decay, build_exit_channels, sample_exit_channel", "src/ExitChannel.cc: do_decay, sample_Exf, sample_spin_parity, prepare_products", "src/marley_kinematics.cc: two_body_decay, lorentz_boost", "src/Generator.cc: create_event"]}
{"id": "C136", "title": "Counts of events are binomial and their shares come close to the probabilities", "statement": "With independent uniform random numbers, the number of events with any given property among the n events of a run has a binomial law: of the runs that are completed, a share of C(n, k) p^k (1 - p)^(n - k) has exactly k such events, where p is the share of the rate of such events: the integral over the energies of spectrum times cross section times the probability that the reaction makes such an event, divided by the same for all events. So the runs in which the observed share differs from p by epsilon or more are at most p (1 - p) / (n epsilon^2) of all completed runs, and in long runs the observed shares estimate flux-averaged cross sections, branching ratios and spectra. A run of n events is completed with the n-th power of the probability for one event. The counts in the bins of a histogram have the multinomial law, and the number of events until the first one with the property has the geometric law. The mean of the count is n p and its variance n p (1 - p). If events are made without exceptions, then in almost every run that goes on and on the share of such events tends to p (the strong law of large numbers), and the average of a quantity that has a mean value (all bounded ones have) over the events tends to its mean value for one event; if the quantity has a variance, the errors of these averages are normal in the limit of long runs (the central limit theorem), so that error bars of z standard errors hold with the probability known for the normal law.", "quantifier": "all generators with bounded rates, all properties of events that can be measured, all numbers of events, all tolerances", "why_tests_cant": "A test compares frequencies with expectations within errors that it computes from just this law; a correlation between events, a drift of the bound of the sampling or numbers used twice would make the errors wrong, and in each single run any count is possible.", "anchors": ["src/Generator.cc: create_event, sample_reaction, rejection_sample, E_pdf", "src/marley.cc: main"]}

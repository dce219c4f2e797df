# Formal model of MARLEY in Lean 4: design

## Trusted base

* Lean 4.33.0 kernel.
* Axioms allowed: `propext`, `Classical.choice`, `Quot.sound` (the ones Mathlib
  uses). No axiom is added, there is no `sorry`/`admit`, no `native_decide`,
  no `bv_decide`. `tools/audit.py` checks the axioms of every claimed theorem and
  writes the exact list for each of them to `AXIOMS.txt`.
* Mathlib (for ordered fields, real numbers, integrals, lists, finite sums).
* The hand translation from C++ to Lean. Every definition in
  `lean/Verif/Model/` cites the file and lines it models and says where it
  simplifies. `tools/citations.py` checks mechanically that the cited lines exist
  and mention what the comment names.
* The statements themselves: theorem statements in `lean/Verif/Props/`, read
  together with the specifications in `lean/Verif/Spec/`. They were tested against
  wrong programs with `tools/seed.py`; `seeded/LOG.jsonl` has one line per attempt.

## Conventions of the model

* **Outcomes.** A C++ call that may throw is modelled as `Res α = Except Exc α`.
  `Exc` distinguishes `marley::Error`, `std::out_of_range`,
  `std::invalid_argument`, `std::range_error` and, as a separate outcome,
  *undefined behaviour* (`Exc.ub`). Undefined behaviour is never assumed away.
* **Integers** are `Int`/`Nat`. Where the width of a C++ integer matters for a
  property (seeds, JSON integers) the width is modelled; elsewhere overflow is
  not modelled and this is said in the comment.
* **Doubles** are modelled as elements of an arbitrary linearly ordered field
  (written `K`), or as `ℝ` where a square root, exponential or integral is
  needed. So rounding, infinities and NaN are not modelled. Where a
  branch of the code tests for NaN the comment says what became of the test; in the
  mass table, the cross sections and the sources values are `Val` (a number, an
  infinity or NaN) so that the tests can be followed.
  Results proved about exact arithmetic are labelled as such; they describe
  the formulas and the decision logic, not the rounding.
* **Text** is `List Char`; a C++ input stream is the list of characters still to be
  read, or `none` once it has failed.
* **The text of doubles** is abstract: `DblFmt` (stream operators) and `FloatOps`
  (JSON). `DblFmt.Lawful` says that what was printed is read back, as 17 significant
  digits guarantee. It cannot hold for all of ℝ (there are too few texts), so
  theorems that assume it are stated for arbitrary fields, and `ratFmt` shows that it
  holds for some format of the rationals; no theorem assumes it of ℝ.
* **Randomness.** A random draw is an argument, or comes from an abstract engine
  (`Engine` in `Model/Sampling.lean`: a state and a function to the next number), so
  "for all random sequences" is an ordinary universal quantifier. A
  `std::discrete_distribution` returns the inverse-CDF index of a draw in [0, 1), as
  the usual standard libraries do. A tape of numbers is an instance (C82).
* **Object identity** (ownership, caching) is modelled with explicit addresses.
* Properties are stated in `lean/Verif/Props/*.lean`, one file per area, in
  terms of the model's API functions and of small specifications, most of them in
  `lean/Verif/Spec/*.lean`, which share the model's data types but not its algorithms. Helper lemmas live in
  `lean/Verif/Lemmas/*.lean`. Beside each theorem an `example` exhibits a
  concrete case that meets its hypotheses.
* If the code does not have a property, the *negation* is proved with a concrete
  witness (theorem name ends in `_fails` or `_violated`), and the part that does
  hold is proved in a theorem whose name ends in `_partial`. The status in
  `MANIFEST.json` is then `partial`.

## What is modelled and how each property is proved

`MANIFEST.json` lists for each property its theorems, its status and what is missing.
Here: which code is modelled (file under `lean/Verif/Model/`), where the theorems are
(file under `lean/Verif/Props/`) and the idea of the proof.

| Id | Model | Theorems in | Code and proof |
|----|-------|-------------|----------------|
| C01–C05 | Json | Json | `JSON::print`, `dump_string`, the recursive-descent parser over characters with fuel that provably suffices, and the getters. Mutual induction over documents; printer and parser are inverse for documents whose keys need no escaping; the negations are literal witnesses or families of texts (every number with `e+`). |
| C06, C07 | Event, Stream | EventAscii | `Event::print/read`, `Particle::print/read` over characters, integers digit by digit. Induction on particle lists and event lists; the error branches by case analysis of each read. |
| C08–C10 | Event | EventHepevt | `write_hepevt`, `read_hepevt` over characters. Loop invariant for the record loop, list lemmas for the swaps; negations for the stale index and for emitted protons. |
| C11 | Event, Json | EventJson | `to_json`, `from_json`. Case analysis on the members, list induction. |
| C12 | EventHeap | EventHeap | heap of particle addresses and the special member functions. Invariant (each address owned once, none dangling) by induction over operation sequences, and a refinement to events as values. |
| C13–C15 | Grid, GridRounded | Grid, GridRounded | `InterpolationGrid` over an ordered field, logarithmic rules over ℝ. Sorted-list search lemmas, convexity. Linear rule also with rounding: product of relative errors. |
| C16, C17, C19–C21, C79 | Generator, Sampling, PickRounded | Generator, PickRounded | generator as a state machine (engine, cached weights, bound of the energy density) over an abstract engine; `seed_seq` keeps 32 bits per entry; text of the engine state. Induction on calls; the energy density is a quotient whose denominator is the quadrature of the numerator. C19 with rounding: relative errors of the partial sums by induction, Bernoulli's inequality. |
| C18, C22, C75 | Sampling, BisectRounded | Sampling, BisectRounded | `rejection_sample`, `uniform_random_double`, `inverse_transform_sample`, Brent's minimisation, over abstract rounding where it matters (C18). Loop invariants by induction on the number of steps. `C75_ends` (Props/SearchEnds): each step of the search makes the interval shorter by the tolerance at least. C22 with rounding: the width of the interval is halved up to a rounding error; between neighbouring doubles nothing changes any more |
| C23, C24, C26 | DecayScheme, ClosestRounded | DecayScheme, ClosestRounded | level search, insertion, text reader and writer. Sorted-list lemmas; induction on levels and gammas. The search also with rounded differences. |
| C25 | DecayScheme, Decayer, Kinematics | DecayScheme | `do_cascade` with the two-body decays in it. Well-founded induction on the level energy. |
| C27, C28, C29, C30, C76 | Utils, Pdg | Utils, NucIds | string builders, PDG codes, name tables transcribed entry by entry, string functions, `ipow`, quadratic solver. Induction, `omega`, `decide` over whole tables lifted to all keys. |
| C31–C33 | Reaction | Reaction | `Reaction::load_from_file` over characters, process tables, `set_level_ptrs`. Induction over the lines of the file, case analysis on the process type. |
| C34, C35, C46, C47, C77 | Kinematics | Kinematics, Scatter | boosts, rotations, two-body decay, `two_two_scatter`, thresholds. Algebra over ℝ. |
| C36–C39, C81, C83, C84 | CrossSection | CrossSection | `NuclearReaction`: partial and total cross sections, choice of transition and of spin-parity, Coulomb correction, event creation. List induction over the matrix elements with `Val` for the NaN tests; the interval integral of a linear function of the cosine. |
| C40–C42 | CrossSection | Electron | `ElectronReaction`: polynomial integrals, sign of a quadratic on an interval. |
| C43–C45, C69, C85 | Source | Source, SourceDensity, SourceConfig | all neutrino sources, the static maximum shared by all of them as explicit global state, and their construction from JSON. Interval integrals; histogram bins are step functions. |
| C48, C49 | Rotation | Rotation | rotation matrices and the projectile direction rotator as a state machine with a cached matrix. Algebra over ℝ; invariant over calls. |
| C50, C51 | Decayer | Decayer | `NucleusDecayer::process_event`: the loop of compound decays followed by the cascade. The decays of a run are collected in a `History`; conservation laws hold step by step and are added up by induction; the decision logic by case analysis. |
| C52–C54 | Decayer | ExitChannel, HauserFeshbach | `HauserFeshbachDecay::build_exit_channels`, discrete and continuum exit channels, widths and sampling. Loops over spins and partial waves are turned into membership conditions and those are compared with the selection rules. |
| C55–C57 | StructureDatabase | StructureDatabase | the lazily filled database as a state machine over file contents. Invariants over call histories. |
| C58–C60, C78 | MassTable | MassTable | table loading and mass arithmetic. |
| C61–C64 | OutputFile | OutputFile, OutputRun, EventLoop | output files as state machines producing characters, opening, resuming, closing, and the main event loop with an arbitrary generator and an arbitrary schedule of interruptions. Induction on the events; the text written is shown to be that of the JSON printer so that C01 applies. |
| C65, C66 | EventReader | EventReader | format detection, initialisation and `next_event`, with the global logging flag. A simulation between the reader and a list of remaining events, for every sequence of questions; the files of a whole run follow from C64. |
| C67, C68, C86 | JobConfig, Source | JobConfig, JobTarget, SourceConfig | reactions, target, direction, cut-offs and interpolation rules of a job. List induction; case analysis over JSON values. |
| C70 | Target, TargetRounded | Target, TargetRounded | list sums over an ordered field; with rounding, relative errors by induction. |
| C71 | Logger | Logger | logger as a state machine; invariant over operations. |
| C72 | FileManager | FileManager | search over abstract directories. |
| C73 | Parity | Parity | two-element type. |
| C74 | Chebyshev | Chebyshev | coefficients, evaluation by Clenshaw's recurrence and `cdf()`, in terms of Mathlib's Chebyshev polynomials; the cosine transform by its documented meaning, which C99 justifies. |
| C80 | Generator | Quadrature | Clenshaw–Curtis rule: exactness for polynomials by discrete orthogonality of cosines, positivity of the weights. |
| C82 | Generator, CrossSection, Decayer | Randomness, DecayerRandom | all sampling code over a tape of numbers; each function uses a prefix of the tape and its result depends on nothing else. |
| C87 | Decayer, Kinematics | DecayerMotion | the `History` of a de-excitation carries the two-body decay of every step; totals and mass shells by induction over it. |
| C88 | Generator, CrossSection, Decayer, Rotation | WholeEvent | composition of scattering (C34, C84), de-excitation (C87) and rotation (C49) inside `create_event`. |
| C89 | GammaStrength | GammaStrength | both gamma-ray strength models over ℝ, compared with the documented formulas in `Spec/GammaStrength.lean`. |
| C90 | LevelDensity | LevelDensity | the back-shifted Fermi gas model as an object with a changing spin cut-off parameter, compared with the published formulas in `Spec/LevelDensity.lean`; continuity by Mathlib's `dslope`. |
| C91 | OpticalModel | OpticalModel | the optical model as an object with working members and uninitialised ones; the two `do … while` loops of `s_matrix_element` are shown to end and to compute the Numerov solution on a grid (`Grid`, by induction over the passes); the Coulomb functions are an arbitrary function. |
| C92 | OpticalModel | OpticalModel | the potential for every fragment compared with the published global potential and folding rule in `Spec/OpticalModel.lean`, where the surface shapes are derivatives of the Woods–Saxon shape. |
| C93 | NuclearModels, Decayer, OpticalModel, LevelDensity, GammaStrength | NuclearModels | the decays of C52–C54 with the models of C89–C92 put in: every answer of a model is shown to be a number of the right sign, widths are sums and integrals with positive weights of such numbers. |
| C94 | CreateGenerator, JobConfig, Source, Generator | CreateGenerator | `create_generator` step by step; each step is inverted to what the configuration says, then C20 gives the normalisation and C88 the events. |
| C95 | JobLog, Logger | JobLog | `update_logger_settings` on the logger of C71, with the files it opens; the configuration of the logger is related to the list of logs by an invariant of the loop (`Shape`), and what messages write then follows from the invariant of C71. What later messages add to the contents of a file is not modelled, only which file they are sent to. |
| C96, C97 | Talys | Talys (with Spec/Talys) | `parse_talys` on the text of the file cut into lines, with the variables that keep their values when `getline` fails, and `find_all_nuclides`. The layout of the file is specified by `Header`, `LevelRecord`, `GammaRecord`; the loops are proved by induction over the levels and the gammas. That the name looked for is that of the nuclide is checked over the whole table of elements and all mass numbers up to 999. The regular expressions are replaced by the checks they stand for. |
| C98, C99 | Fftpack, ChebyshevFft | Fftpack | the cosine transform of FFTPACK with its tables, the factorisation, the passes for 2, 3, 4, 5 and other factors as lists of assignments to arrays of real numbers; an assignment outside an array is undefined behaviour. Invariant of the passes (`Stage`): the array holds the Fourier transforms of every `L`-th number one after the other, in the order of the library; each assignment of a pass is shown to be an entry of the next stage (`Fits`) and every entry to be assigned (`Covers`). Positions that are only read are not checked. |
| C100, C101 | Status | Status | `duration_to_string` for ticks (integers, with the wrapping of `int`) and for doubles (exact), `num_bytes_to_string` with rounding to decimals, `bytes_written` with the saved count. The text is compared with `clockFace`, or shown to denote a number close to the true one. |
| C102 | Status | Status (with Spec/Terminal) | the text of `makeStatusLines` and the stream buffer that inserts it, character by character. The terminal is specified separately as rows, a cursor and the two control sequences; the state of the screen after any sequence of lines and displays follows by induction (`run_spec`). |
| C103 | Status, OutputFile | Status | the decisions of `main` on top of the run of C64. |
| C104 | JsonHeap | JsonHeap (with Spec/JsonValue) | JSON objects as a tag with a pointer into a heap; construction, destruction, copy, move, `operator[]`, `append`, `set_type` on references (variable, member of a map, element of a list). The specification has variables with values only. Simulation `Sim`: each variable owns a tree of addresses, the trees are disjoint, stored in the heap, and, as long as nothing leaked, cover it; every operation keeps it (`Rep.step`), by induction every program. Elements of a list are named by their positions, which is what references to elements of a `std::deque` amount to while elements are only added at the end; the order in which the two sides of an assignment are evaluated is a parameter. |
| C105 | RootSource | RootSource | `make_root_neutrino_source` for histograms and graphs, `get_root_object`, `process_extra_source_types`. ROOT is a function from names of files to functions from names to objects. The loops are shown to give the densities of the histogram source of C69, whose theorem gives the probabilities; graphs use C13, C14, C44. |
| C106 | RootOutput | RootOutput (with Spec/RootOutput) | `RootOutputFile` and `RootEventFileReader`, and `main` over the virtual functions of any kind of output file (`FileOps`); restricted to text files it is the program of C64 (`C106_text`), and the reader is that of C65 (`C106_read_text`). ROOT is a pair of functions `encode`, `decode` with two laws, and a choice of when the tree is saved without being asked. |
| C107 | RootOutput, OutputFile | Continuation, ContinuationGen (with Spec/Continuation) | productions are an inductive predicate: a first run, then runs that open the file left by the last one. Induction over the runs with the invariant that the file holds the first events and a state like that of the uninterrupted generator; C61 and C01 give the restored generator. `Restorable` is proved for the generator of C16 in Props/ContinuationGen. |
| C108 | EventPrograms | EventPrograms (with Spec/EventPrograms) | `main` of `marsum` and `marprint` over the reader of C106. `Gives` says what a reader answers for a file, including files that end with an exception; the loop over the events is shown to make one step per event (`readLoop_through`), for any number of files (`fileLoop_through`). The rows are specified by pattern matching on the event. |
| C109 | DumpXs, DumpXsRounded | DumpXs, DumpXsRounded (with Spec/DumpXs) | the loop with its accumulated energy is shown to give the multiples of the step, with rounding up to relative errors; settings are looked up in the JSON object. |
| C110 | Fermi | Fermi (with Spec/Fermi) | the nine-term series is brought to a common denominator; its numerator, with exact rational coefficients, passes Routh's criterion (`decide +kernel` for the coefficients, a general lemma for the criterion), so that the gamma function has no zero where it is evaluated; the formulas for conjugates and reflection are Mathlib's for powers, exponentials and sines. |
| C111 | Reports | Reports (with Spec/Reports: readers of reports, tables, target texts and decay texts) | printing is a concatenation of lines; the readers cut at newlines and separators (`cut_append`), induction over levels, gammas, nuclides, channels; braces are counted with `depth` |
| C112 | Reports | Reports | table of 22 names compared with the function (`decide +kernel` on the table, the rest by its lookup), words of a description by cutting at spaces, number and symbol separated by the first letter |
| C113 | Macros | Macros (with Spec/Macros) | the loops of the macros over the reader of C106 make one step per event (`loop_book`); a histogram is a list of values with limits and a factor; the values in the bins and those in the range are counted by induction over the bins (`count_bins`), Cauchy–Schwarz for the cosines, sums of nucleons and protons for the channels |
| C114 | Examples | Examples (with Spec/Examples) | induction over the events that the generator makes (`beamOn_run`, `evgenLoop_run`); the number of events by splitting the argument into blanks, sign and digits (`C114_number`); conservation from C88; `efr` by induction over the events that the reader of C65 has still to give (`efrLoop_run`) |
| C115 | CoulombWave | CoulombWave (with Spec/CoulombWave) | GSL is a function that gives values and reports errors to the handler that is set; induction over the reports (`reports_marley`), messages from C71, the zero transmission coefficient through the optical model of C91 |
| C116 | Iterators | Iterators (with Spec/Iterators) | simulation of each operation by a plain iterator over a list of values (`stepM_plain`), lifted to sequences by induction; pointers by a memory of objects with addresses (`PointsTo`) |
| C117 | Listing | Listing (with Spec/Listing) | the text line by line; different events by taking off one field after the other, each ends at the first blank (`word_end`, `printHuman_inj`) |
| C118 | TextFiles | TextFiles (with Spec/TextFiles) | induction over the passes of the loop (`countLoop_run`) with the lines still ahead as state |
| C119 | Json, OutputFile | JsonTruncated | whatever the parser has read completely, and every exception of a number, stays the same if the text is continued (`parse_extend`, `parse_extend_exc`: induction over the recursion of the three parsing functions) |
| C120 | Json | JsonText (with Spec/JsonText) | a grammar of texts with their meaning, defined without reference to the parser; induction over derivations (`value_text`, `items_text`, `members_text`); maps are determined by their members (`isMapOf_unique`) |
| C121 | Event, EventReader, Json | EventsCut (with Spec/EventsCut) | what is read from the beginning of a number, a particle, an event (`Event.read_cutOff`) and a HEPEVT record (`Event.readHepevt_cutOff`); a file that is cut off consists of complete events and the beginning of one (`cut_rest`); induction over the events |
| C122 | Sampling | RejectionLaw (with Spec/RejectionLaw, Lemmas/RejectionLaw) | draws are a point of a product space (`iid`: n pairs of uniform numbers and one more), `stream` lists them; the loop returns for exactly the draws of a recursively defined set (`loop_event`), the first pair is independent of the rest (`uncons_preserving`), Fubini and a linear substitution for one trial (`trial_lintegral`), induction over the trials |
| C123 | Generator, Sampling | ReactionLaw | the law of C122 for abscissa and next draw together (`loop_law`); the draws that select a reaction form an interval whose length is its share (`chance_selects`), exceptional draws have measure zero (`unlikely`) |
| C124 | Rotation, Kinematics, Sampling | Isotropy | volume of a cone in spherical coordinates (Lemmas/Sphere `ball_lintegral`: polar coordinates in the plane, then radius and polar angle), draws mapped by `spread_lintegral`, a full turn may begin anywhere; invariance from the invariance of volume under isometries, axes by reflection; link to the rotator by C49, to decays by computation |
| C125 | Sampling | InverseLaw | the set of draws that lead to points up to t lies between two intervals (C22_crossing), whose lengths are values of the cumulative function |
| C126 | CrossSection, Sampling | AngleLaw | C122 and `loop_law` with the bounds of C41 and C42 and the integral of C40; energy and momentum of the ejectile are measurable functions of the angles (`ejectile_measurable`) |
| C127 | Decayer, DecayScheme, Sampling | CascadeLaw | induction over the route, the first draw split off the product measure (`draws_succ`), C19 for each choice; the events by induction over the levels below with C47; numbers and particles each determine the route (`followed_unique`, `chain_unique`) |
| C128 | CrossSection, Kinematics, Sampling | NuclearLaw, SpinLaw | weights are the partial cross sections (C36, C37), one choice by `unit_picks`; then the product measure splits into the choice and the angles (`cos_phi_law` from `loop_law`); spin, parity and charges do not change the ejectile; spins of Gamow-Teller transitions to the continuum by `pickFrom_where` over the spins allowed |
| C129 | Decayer, Sampling | PickLaw, WidthLaw | `pickFrom_where`: the numbers that choose a member with a property form disjoint intervals whose lengths add up to the share of the weights; the widths are those of the offered channels (C52), the tables of spins those of C53 and C54; what is drawn later does not change the particle or the level |
| C130 | Decayer, DecayScheme, Sampling | DeexciteLaw | below the threshold `process` is the cascade from the level (`finish_cascade`), then C127; above it the first number chooses the channel (C129), the next two the direction, and the others the route: up to null sets the event is a product set |
| C131 | Generator, Sampling | FixedLaw | the open reactions are a filtered list (`openReactions_list`), the choice among them by `pickFrom_where`; the event by `choice_mixture` (Lemmas/MixtureLaw): the product measure is cut along the numbers that choose each reaction, without measurability of the set of events |
| C132 | Generator, Sampling | EventLaw, Renewal | an engine is ideal if one draw maps its measure to uniform times the same measure (Spec/IdealEngine; `reader_ideal` for the infinite product); law of the loop with the state it leaves (`accepts_measure`, `accepts_iff`), reaction and event by sections of the product measure (`goal_section`), sum over reactions; `loop_bound` and `run_same` show that what is kept between events does not matter, then induction over the events; `C132_renews` (Props/Renewal): by C133 the outcome is decided by the first n numbers for just one n (`settles_iff`, `settles_once`), and the state after n numbers is independent of them (`numbers_independent`), so the sum over n factors |
| C133 | Generator, Sampling, NucleusDecayer, NuclearReaction, ElectronReaction | FinitelyMany | `Determined` (Spec/Determined) quantifies over engines of every type; it is closed under chaining (`Determined.bind`, `Determined.then`) and proved function by function, by induction over trials, chains of decays and events (Lemmas/Determined); a generator without its engine is a `Plan`; `C133_replay` takes the engine that reads a list |
| C134 | Generator, Sampling, NuclearReaction, ElectronReaction, NucleusDecayer, HauserFeshbachDecay, ExitChannel | SearchEnds, EventEnds, SourceEnds, ContinuumEnds | `Ends`: from some number of passes on there is an outcome, always the same; `Often`: groups of successive numbers come into every box (Spec/Ends). Almost every state is so (`often_ae`: n misses have the probability (1-p)^n, countably many rational boxes). With such numbers a rejection loop ends because a pair lands under the density (`rejectLoop_hit`, induction on the number of the pair); the bound only grows up to a constant. C75_ends gives the end of the search for the maximum. A range that is a single point is allowed (`Plenty.point`), so sources with one energy are covered; continuous spectra are bounded on their closed range, and near a positive value not small (`Spread.samplable`); grids are bounded by their ordinates and on the middle half of a bin, on the scale of the rule, not small (`formula_middle`, `C134_grid`). Events: chaining, the states left are `after` states by C133; then induction over the events. Cascade: induction on the number of lower levels. Compound nuclei (`loop_ends`): outer induction on the number of nucleons (`remnant_lighter`: a mass that is not a number opens no channel); a gamma ray to the continuum lowers the energy by 1e-12/4 as bisection ends with a midpoint (`bisect_below`); within 1e-12 of the highest level a run of five small numbers comes, a decay takes at most five, so one of them chooses a channel before the last (`not_gamCont`). That last part needs the share of `Orderly.shares`: in exact arithmetic the energy could halve its distance for ever, with doubles it could not. Examples: `looseData` (no levels, neutrons and protons), `topData` (two levels below a continuum). `C134_not_surely`: numbers with which a loop never ends |
| C135 | NucleusDecayer, HauserFeshbachDecay, ExitChannel, Sampling | Stages, Paths | Two stages (`stages`): by C133 the first is settled by finitely many numbers; sum over their number n, and the first n numbers are independent of the state after them (`numbers_twice`). Paths: `moves` is a decay without directions, and agrees with the real one for a nucleus that moves as particles do (`decay_moves`: whether a two-body decay succeeds and what it leaves depends on masses only); its results are countable as bisection visits countably many energies, and sets of numbers that lead to one are measurable (`Renewing`, closed under succession: `Renewing.bind`). `decay_shell`: the nucleus that is left moves as particles do again. Then induction on the path. C135_step counts the channels with C129_channel. C135_course and C135_complete tie paths to the loop of process_event by induction. C135_law and C135_emitted sum over all complete paths, of which countably many have a probability other than zero (`steps_countable`) and no two come together (`steps_unique`). Spec/Paths has `Stage`, `Passes`, `Reaches`. Example: potassium-40 that emits one gamma ray (`gammaOnly`) |
| C136 | Generator, Sampling | Counts, Histogram, Unlimited, Strong, Share, Average | `tally` counts the events in a set, `runs` are the engines for which a run of n events has a property. A run with k such events follows one of C(n, k) patterns of in and out (`patterns`, by Pascal's rule), the patterns exclude each other (`asked_iff`), and each has the probability a^k b^(n-k) by C132_sequence. The share p is a ratio of the integrals of C132_event. Frequencies: Chebyshev's inequality with the variance of the binomial law (Mathlib's Bernstein polynomials). Histograms: the same with words over the bins (`words`, counted by their first letter); the number of events until one with the property comes is geometric. Without limits for loops: almost surely the outcome stays the same from some number of passes on (C134), so the probabilities tend to those of what comes out in the end (`inTheEnd`, dominated convergence), and the binomial law goes over to the limit. The strong law: almost surely all runs are beginnings of one sequence of events (`Yields`), and the sets of engines whose i-th event is in the set are independent (`allIn_measure`), so that Mathlib's strong law applies; the probability of one event is the ratio of integrals of rates in the limit too (`C136_share`, by dominated convergence, since what reactions lead to stays the same from some number of passes on). Averages: the values of a quantity for different events are independent and have the same law (`values_law`), so that Mathlib's strong law and central limit theorem apply; error bars follow from the convergence in distribution (the ends of the interval have probability zero under the normal law). Example: a generator with two reactions (`coinGen`), one thousand events |

## Not modelled

* The ROOT library itself (C105 and C106 assume that objects are found as they were
  stored), the headers that `RootOutputFile` loads for it, drawing of histograms (C113),
  geometry, physics lists and tracking of the Geant4 program in `examples/` (C114).
* The routines of FFTPACK that the program does not call.
* The GNU Scientific Library, which computes the Coulomb wave functions. They enter C91–C93 as
  an arbitrary function, so that the properties hold for every choice of it; the wrapper is
  modelled in C115. The Fermi
  function is arbitrary in C37–C39 and C83, too, and is modelled in C110; how accurate
  its approximation of the gamma function is, is not proved. (Level densities, gamma strengths
  and transmission coefficients are arbitrary functions in C52–C54, too, and are
  modelled in C89–C92, and put together with the decays in C93.)
* Wall-clock time, how numbers are printed in reports (arbitrary text without separators in
  C111).
* Operating-system error conditions other than the ones named above,
  floating-point rounding (except C05, C13, C18, C19, C22, C23, C70 and C109, where it matters).

## Disagreements between code and property

Each of these is proved (the theorem is named) unless it says "noted".

JSON (`include/marley/JSON.hh`)
* Keys are stored escaped, so a document with such keys does not survive
  (`C01_dump_load_fails`, `C62_keys_violated`).
* `std::invalid_argument` and `std::out_of_range` escape the parser
  (`C03_only_marley_error_fails`).
* Numbers with `e+` are rejected, though the library prints them
  (`C04_positive_exponent_fails`).
* A comment directly behind a number is an error, behind a key without quotes it becomes part of
  the key (`C120_comment_violated`); `1-2` is read as 1 (`C120_number_violated`).
* Copy and move assignment do not release what the object held before
  (`C104_leak_violated`); `x = std::move(x)` makes `x` null
  (`C104_self_move_violated`); `x[0] = x["a"]` uses released storage
  (`C104_alias_violated`); `x[4294967295]` refers outside the list
  (`C104_index_violated`). Noted: an initializer list of odd length is read past its end,
  the constant `at` with a key on anything but an object is undefined, and `operator[]` on
  a value of another type discards the value without notice (part of the meaning in
  Spec/JsonValue).
* `get_long` goes through `double`; `get_string` returns the escaped text;
  `get_object` never throws (`C05_get_long_fails`, `C05_get_string_fails`,
  `C05_get_object_fails`).

Events (`src/Event.cc`)
* The HEPEVT reader uses a stale index if the heaviest ion comes first
  (`C09_heaviest_first_fails`), loses the charge of emitted protons
  (`C10_protons_fails`, `C08_proton_roundtrip_fails`) and rejects events on
  electrons (`C08_electron_target_rejected`).
* A missing parity in JSON gives `std::out_of_range` (`C11_missing_parity_fails`).
* Copy assignment of an event to itself empties it
  (`C12_self_assignment_fails`); a failed read leaks (`C12_failed_read_leaks`).

Utilities, grids, strings
* Noted: `IteratorToPointerMember::operator[]` and `make_IteratorToPointerMember` cannot be
  compiled if they are used (nothing in the repository does); they are left out of C116.
* Half-integer spins are printed wrongly (`C27_every_half_integer_spin_wrong`).
* `ipow` is 0 for exponents of 32 and more (`C76_ipow_fails`); the quadratic solver
  divides 0 by 0 and returns numbers that are not roots (`C76_quadratic_fails`,
  `C76_quadratic_no_roots_fails`).
* In doubles linear interpolation need not reproduce the grid points: between 7 at 0 and 0 at 25 the
  value at 25 is negative (`C13_negative_violated`).
* The grid constructor never detects disorder (`C15_constructor_unordered_fails`);
  the constant rule returns the previous ordinate at grid points
  (`C13_constant_rule_fails`) and the last ordinate right of the range
  (`C14_continue_constant_right_fails`). Noted: the table in the documentation of the
  rules is exchanged.
* A Chebyshev interpolant's `cdf()` takes the last coefficient in full although it
  counts half (`C74_violated`). The vector for the factors of the grid size is too
  short for sizes 3, 4 and 6 (`C98_violated`), of which the adaptive constructor meets
  the second for most functions (`C98_adaptive_violated`).

Kinematics
* A rotator constructed with a direction does not turn its first events along z
  (`C49_constructor_violated`). Two collinear massless particles throw
  (`C77_collinear_massless`).

Decay schemes and nuclear data
* Levels with equal energies change their order when written and read
  (`C26_equal_energies_fails`); upward transitions cannot be read
  (`C26_upward_gamma_fails`). Noted: the default stream precision loses digits.
* `add_decay_scheme` does not replace an entry (`C56_existing_violated`); a failed
  load leaves part of the fragment table (`C57_failed_load_violated`); a malformed line
  ends a table silently (`C57_malformed_violated`); the two codes of hydrogen get two
  optical models (`C55_hydrogen_violated`).
* Unknown particles give `std::out_of_range` (`C60_unknown_particle_violated`); the mass
  of hydrogen by Z and A is an estimate (`C60_hydrogen_violated`).
* Elements without a symbol give `std::out_of_range` (`C70_unnamed_fails`); fractions that are
  doubles need not add up to exactly one (`C70_sum_violated`).

Reactions
* The residue 2112 gets mass number 211 (`C31_members_violated`); the last line without
  newline is dropped (`C32_last_line_violated`); a scheme without levels dereferences null
  (`C33_empty_scheme_violated`). Noted: blank or malformed data lines use uninitialised
  variables, comments in files with CRLF are not recognised.
* Matrix elements of zero strength shift the choice of the level (`C36_violated`); level
  matching may break the order of energies and transitions are then lost
  (`C37_unsorted_violated`); the differential cross section of one transition reads an
  uninitialised speed (`C81_single_violated`).

Sampling and generator
* `inverse_transform_sample` never ends if neighbouring doubles are further apart than the
  tolerance (for the default, from 8192 MeV on; `C22_endless_violated`).
* libstdc++ sets the last partial sum to 1. If the partial sums were rounded down, a last entry of
  weight zero is chosen by the largest double below 1 (`C19_last_violated`).
* Uniform sampling on a closed interval can return the double after its end
  (`C18_range_violated`); an ordinate of exactly 0 accepts zero density
  (`C18_positive_violated`); a draw of exactly 0 chooses a first entry of weight zero
  (`C19_zero_violated`, `C52_positive_violated`). Noted: the acceptance test of the
  parabolic step in Brent's method has a reversed comparison.
* Seeds are taken modulo 2^32 (`C17_violated`); a raised bound of the energy density is
  not saved (`C16_restored_violated`); `set_weight_flux` does not renormalise
  (`C20_weight_flux_violated`).

Productions in several runs
* A run that resumes a file goes on with the configuration saved in it, but saves the one
  it was started with, so that the next run uses another generator
  (`C107_config_violated`). Events written to a ROOT file before an exception are lost
  unless ROOT has saved the tree by itself (`C106_lost_violated`); if it has, they are
  generated again by the next run (`C107_crash_violated`).

Programs that use event files and generators
* `marsum` empties its output file before it reads its input files, also if it is one of them
  (`C108_self_violated`); `marprint` prints the spin −1/2 as 0 (`C108_spin_violated`);
  `mardumpxs` truncates the number of steps to 32 bits (`C109_steps_violated`), and its last energy
  is the upper end only up to rounding (`C109_last_violated`).

Fermi function
* For residues with 138 or more protons it is not a number (`C110_heavy_violated`), and no
  exception is thrown.

Macros (`examples/macros`)
* For HEPEVT files the histograms of cross sections are zero (`C113_hepevt_violated`), for
  files without events they are not numbers (`C113_no_events`).
* Ejectiles exactly forward are missing in the plot of angles (`C113_forward_violated`).
* `fp_spect` does not note a minimum when the maximum changes (`else if`), and passes the
  maximum as lower limit. If energies occur in ascending order, e.g. a single particle, the
  histogram reaches to 10³⁰ MeV (`C113_ascending_violated`).

Reports
* Half-integer spins are shown wrongly in reports and tables (`C111_spins_violated`), the
  columns of the LaTeX table are headed keV although the energies are in MeV
  (`C111_units_violated`), and targets of different elements without symbol have the same text
  (`C111_target_violated`). A gamma that leads to no level is dereferenced (`C111_report`).

Sources and job configuration
* ROOT file names and object names are used with JSON escape sequences
  (`C105_name_violated`). Noted: the object read from the file is never deleted, and a
  two-dimensional histogram, which is a `TH1` too, is read along its underflow row.
* The bound of the rejection sampling is shared by all sources (`C45_violated`,
  `C45_distribution_violated`); tables that extrapolate or are unordered have density
  outside their range (`C44_extrapolation_violated`, `C44_unordered_violated`).
* C44: the check for a positive sum of the densities is meant to exclude sources that are zero everywhere, but a
  table with the constant rule and only its last density positive is accepted and zero at every energy
  (`C44_zero_density_violated`).
* `linlog` and `loglin` are exchanged (`C68_meaning_violated`); codes outside 1..5 mean
  constant (`C68_codes_violated`). Noted: histogram bins are (left, right] though
  documented as [left, right).
* Duplicate electron reactions are kept (`C67_duplicates_violated`) and others lost
  (`C67_lost_violated`); integers are taken modulo 2^32 (`C86_wrap_violated`,
  `C86_cutoff_wrap_violated`).
* A value of `do_deexcitations` that is not a boolean is ignored
  (`C94_deexcite_violated`); a generator made with null reactions never normalises its
  density, even when reactions are added later (`C94_null_violated`).
* Log settings that are rejected have replaced the earlier ones by then
  (`C95_rejected_violated`); warnings appear on standard output if the last message before
  the settings were applied was a warning (`C95_stdout_violated`); names of log files are
  escaped (`C95_name_violated`).
* C96: in a TALYS-format file, final levels of gammas are positions among the levels read so far,
  sorted by energy, so that levels that are not listed in order make gammas lead to wrong
  levels (`C96_order_violated`). A file that ends too early is not noticed: the last line is
  read again (`C96_truncated_violated`) or variables without values are used
  (`C96_missing_violated`). A gamma from a level to itself is accepted (`C96_self_violated`).

De-excitation
* Widths count waves and multipoles that are forbidden if the spins do not couple
  (`C53_discrete_violated`, `C54_discrete_violated`).
* A level within the tolerance of the ground state decays again on a second application
  (`C51_twice_violated`). Noted: the second application throws for isomers; a
  fragment with more protons than the nucleus gives a NaN mass.
* Nuclear models: E2 strengths are negative from mass number 510 on (`C89_heavy_violated`);
  the double factorial of the Weisskopf model overflows from multipolarity 10 on
  (`C89_overflow_violated`); level densities of helium-4 are negative
  (`C90_helium_violated`) and level densities jump at the energy shift
  (`C90_jump_violated`). Noted: below the neutron separation energy the Fermi gas spin
  cut-off uses the level density parameter of the current energy; for high partial
  waves the published imaginary spin-orbit term makes the optical potential a source, so
  absorption (`C92_absorbs`) is proved without that term only.

Files
* Standard output gets warnings after some operations
  (`C71_standard_output_violated`); sockets pass for regular files
  (`C72_socket_violated`).
* Files that cannot be written are ignored silently (`C61_unwritable_violated`); resuming
  two files destroys the first (`C62_two_files_violated`); a new JSON file beside a resumed
  one records the wrong number (`C64_beside_violated`); an exception in the generator
  leaves JSON files unreadable (`C64_exception_partial`).
* If an ASCII file is cut off within the last charge of an event, the digits that are left are
  taken for the charge and the event is delivered (`C121_charge_violated`): +18 becomes +1.
* If the maximum is estimated too low, `rejection_sample` adopts a larger one but keeps
  what it accepted before: a function nowhere below the first estimate is sampled uniformly,
  whatever its shape (`C122_underestimated`, `C122_estimate_violated`). The warning is all the
  user sees; a distorted sample is returned.
* Event file reader: the HEPEVT cross section is 0 after the end
  (`C65_hepevt_xsec_violated`), files without events are rejected (`C65_empty_violated`), a
  second request after the end of a JSON file is undefined
  (`C65_json_again_violated`), the logging flag stays off after success and after parse
  errors (`C66_success_violated`, `C66_parse_violated`). Noted: `throw err` slices the exception;
  decrementing `begin()` is formally undefined; `operator bool` before the first use reads an
  uninitialised format.

Display and exit status
* The amount of data reported at the end of a run is too small for every JSON file,
  because closing the file writes the generator state but the count is not taken again
  (`C101_final_violated`). The unit is chosen before rounding, so that 999999 bytes are
  "1000.00 kB" (`C101_thousand_violated`). A file whose stream has failed is shown with
  "-1 B" (`C101_failed_violated`). Negative durations are shown without the days
  and with the minus signs between the digits (`C100_negative_violated`).
* A command-line option that is not understood gives exit status 0
  (`C103_option_violated`).

{
 "claims": [
  {
   "property": "C01",
   "status": "proved",
   "theorems": [
    "OpenMPCD.Stats.C01_size",
    "OpenMPCD.Stats.C01_mean",
    "OpenMPCD.Stats.C01_variance",
    "OpenMPCD.Stats.C01_standardError",
    "OpenMPCD.Stats.C01_construct"
   ],
   "note": "Exact arithmetic over an ordered field (reals for the standard error)."
  },
  {
   "property": "C02",
   "status": "proved",
   "theorems": [
    "OpenMPCD.Stats.C02_built_eq_feed",
    "OpenMPCD.Stats.C02_merge_total",
    "OpenMPCD.Stats.C02_order_irrelevant",
    "OpenMPCD.Stats.C02_mergeSamples",
    "OpenMPCD.Stats.C02_merge_statistics"
   ],
   "note": ""
  },
  {
   "property": "C03",
   "status": "proved",
   "theorems": [
    "OpenMPCD.Stats.C03_roundtrip",
    "OpenMPCD.Stats.C03_any_string"
   ],
   "note": "Number printing and parsing is the parameter NumIO with the assumptions listed in DESIGN.md."
  },
  {
   "property": "C04",
   "status": "proved",
   "theorems": [
    "OpenMPCD.Stats.C04_cpp_statistics",
    "OpenMPCD.Stats.C04_agreement",
    "OpenMPCD.Stats.C04_cpp_to_python",
    "OpenMPCD.Stats.C04_python_to_cpp",
    "OpenMPCD.Stats.C04_cpp_any_string"
   ],
   "note": ""
  },
  {
   "property": "C05",
   "status": "proved",
   "theorems": [
    "OpenMPCD.DDDA.C05_size_mean",
    "OpenMPCD.DDDA.C05_blocks",
    "OpenMPCD.DDDA.C05_hasBlockVariance",
    "OpenMPCD.DDDA.C05_blockVariance",
    "OpenMPCD.DDDA.C05_blockStandardError",
    "OpenMPCD.DDDA.C05_cpp_agrees"
   ],
   "note": ""
  },
  {
   "property": "C06",
   "status": "proved",
   "theorems": [
    "OpenMPCD.DDDA.C06_tooFew",
    "OpenMPCD.DDDA.C06_optimal"
   ],
   "note": ""
  },
  {
   "property": "C07",
   "status": "partial",
   "theorems": [
    "OpenMPCD.DDDA.C07_total",
    "OpenMPCD.DDDA.C07_hierarchy",
    "OpenMPCD.DDDA.C07_empty",
    "OpenMPCD.DDDA.C07_pooled",
    "OpenMPCD.DDDA.C07_sizes",
    "OpenMPCD.DDDA.C07_hasBlockVariance",
    "OpenMPCD.DDDA.C07_accounting",
    "OpenMPCD.DDDA.C07_selfMerge_violated"
   ],
   "note": "Everything but the last sentence is proved; the last sentence (self-merge) is false for the code, C07_selfMerge_violated is a witness."
  },
  {
   "property": "C08",
   "status": "proved",
   "theorems": [
    "OpenMPCD.DDDA.C08_roundtrip",
    "OpenMPCD.DDDA.C08_any_string",
    "OpenMPCD.DDDA.C08_cpp_to_python",
    "OpenMPCD.DDDA.C08_documentedError_violated"
   ],
   "note": "The documented exception type is not always the one raised: the string '1' raises IndexError instead of ValueError."
  },
  {
   "property": "C09",
   "status": "proved",
   "theorems": [
    "OpenMPCD.Autocorrelation.C09_autocorrelation",
    "OpenMPCD.Autocorrelation.C09_mean",
    "OpenMPCD.Autocorrelation.C09_negative"
   ],
   "note": ""
  },
  {
   "property": "C10",
   "status": "partial",
   "theorems": [
    "OpenMPCD.Collection.C10_values",
    "OpenMPCD.Collection.C10_order_irrelevant",
    "OpenMPCD.Collection.C10_ordered",
    "OpenMPCD.Collection.C10_keepEveryNth",
    "OpenMPCD.Collection.C10_keep_rejects",
    "OpenMPCD.Collection.C10_rejected_partial",
    "OpenMPCD.Collection.C10_rejected_violated"
   ],
   "note": "All parts proved except that a rejected call leaves the collection unchanged; that is false, witness C10_rejected_violated; C10_rejected_partial says what a rejected call does."
  },
  {
   "property": "C11",
   "status": "proved",
   "theorems": [
    "OpenMPCD.Vec3.C11_cpp_agrees",
    "OpenMPCD.Vec3.C11_zero_axis",
    "OpenMPCD.Vec3.C11_dot",
    "OpenMPCD.Vec3.C11_length",
    "OpenMPCD.Vec3.C11_axis",
    "OpenMPCD.Vec3.C11_compose",
    "OpenMPCD.Vec3.C11_inverse",
    "OpenMPCD.Vec3.C11_counterclockwise"
   ],
   "note": "Over the reals."
  },
  {
   "property": "C12",
   "status": "proved",
   "theorems": [
    "OpenMPCD.Vec3.C12_normalized_raises",
    "OpenMPCD.Vec3.C12_normalized",
    "OpenMPCD.Vec3.C12_projection",
    "OpenMPCD.Vec3.C12_projection_zero",
    "OpenMPCD.Vec3.C12_cpp_agrees",
    "OpenMPCD.Vec3.C12_cross"
   ],
   "note": "Over the reals."
  },
  {
   "property": "C13",
   "status": "proved",
   "theorems": [
    "OpenMPCD.Collide.C13_cell_momentum",
    "OpenMPCD.Collide.C13_cell_momentum_lab",
    "OpenMPCD.Collide.C13_momentum",
    "OpenMPCD.Collide.C13_cell_energy",
    "OpenMPCD.Collide.C13_energy",
    "OpenMPCD.Collide.C13_energy_images",
    "OpenMPCD.Collide.C13_same_particles",
    "OpenMPCD.Collide.C13_initial",
    "OpenMPCD.Collide.C13_run_momentum",
    "OpenMPCD.Collide.C13_run_energy"
   ],
   "note": "Exact real arithmetic. With shear, energies are those of the images (image velocities); all orders of atomic additions; also for whole runs."
  },
  {
   "property": "C14",
   "status": "proved",
   "theorems": [
    "OpenMPCD.Collide.C14_energy",
    "OpenMPCD.Collide.C14_unscaled",
    "OpenMPCD.Collide.C14_momentum"
   ],
   "note": "The drawn value is a parameter (any non-negative number); for its distribution, see C96."
  },
  {
   "property": "C15",
   "status": "proved",
   "theorems": [
    "OpenMPCD.Atomic.C15_linearizable",
    "OpenMPCD.Atomic.C15_sum",
    "OpenMPCD.Atomic.C15_bounded"
   ],
   "note": "Any number of threads, any schedule; addition arbitrary for linearizability, commutative for the sum. Memory model: sequentially consistent single location."
  },
  {
   "property": "C16",
   "status": "proved",
   "theorems": [
    "OpenMPCD.Collide.C16_sums",
    "OpenMPCD.Collide.C16_deterministic",
    "OpenMPCD.Collide.C16_exists"
   ],
   "note": "Exact real arithmetic; atomicity of one addition is C15."
  },
  {
   "property": "C17",
   "status": "proved",
   "theorems": [
    "OpenMPCD.Collide.C17_lt",
    "OpenMPCD.Collide.C17_inj",
    "OpenMPCD.Collide.C17_onto",
    "OpenMPCD.Collide.C17_sorted",
    "OpenMPCD.Collide.C17_overflow"
   ],
   "note": "For boxes with fewer than 2^32 cells; C17_overflow shows that the bound is needed."
  },
  {
   "property": "C18",
   "status": "proved",
   "theorems": [
    "OpenMPCD.Collide.C18_host_device",
    "OpenMPCD.Collide.C18_inBox",
    "OpenMPCD.Collide.C18_translate",
    "OpenMPCD.Collide.C18_unique",
    "OpenMPCD.Collide.C18_identity",
    "OpenMPCD.Collide.C18_periodic"
   ],
   "note": "Exact arithmetic over any ordered field with floor."
  },
  {
   "property": "C19",
   "status": "proved",
   "theorems": [
    "OpenMPCD.Collide.C19_restored",
    "OpenMPCD.Collide.C19_difference",
    "OpenMPCD.Collide.C19_alone"
   ],
   "note": "Exact real arithmetic."
  },
  {
   "property": "C20",
   "status": "proved",
   "theorems": [
    "OpenMPCD.Launch.C20_exactly_once",
    "OpenMPCD.Launch.C20_swapped",
    "OpenMPCD.Launch.C20_terminates_iff",
    "OpenMPCD.Launch.C20_effect"
   ],
   "note": "For all work unit counts up to 2^32 minus the capacity of one launch; C20_terminates_iff shows that beyond that (with the default sizes) the loop never ends."
  },
  {
   "property": "C21",
   "status": "proved",
   "theorems": [
    "OpenMPCD.Memory.C21_no_bad_free",
    "OpenMPCD.Memory.C21_autofree",
    "OpenMPCD.Memory.C21_report",
    "OpenMPCD.Memory.C21_free",
    "OpenMPCD.Memory.C21_double_free",
    "OpenMPCD.Memory.C21_allocate",
    "OpenMPCD.Memory.C21_balanced"
   ],
   "note": "Contract of cudaMalloc assumed (fresh non-null address); users of the static functions free only what they allocated with them."
  },
  {
   "property": "C22",
   "status": "proved",
   "theorems": [
    "OpenMPCD.Verlet.verlet_reverse",
    "OpenMPCD.Verlet.verlet_momentum",
    "OpenMPCD.Verlet.C22_dumbbell",
    "OpenMPCD.Verlet.C22_dumbbells",
    "OpenMPCD.Verlet.C22_trimers",
    "OpenMPCD.Verlet.C22_rod",
    "OpenMPCD.Verlet.C22_chains"
   ],
   "note": "Exact arithmetic. Every number of steps and, for several molecules, every order of the threads."
  },
  {
   "property": "C23",
   "status": "proved",
   "theorems": [
    "OpenMPCD.Verlet.C23_constants",
    "OpenMPCD.Verlet.C23_equations_of_motion",
    "OpenMPCD.Verlet.C23_conservation",
    "OpenMPCD.Verlet.C23_composition"
   ],
   "note": "Exact arithmetic; without shear (zero shear rate), as in the code path."
  },
  {
   "property": "C24",
   "status": "partial",
   "theorems": [
    "OpenMPCD.Profile.C24",
    "OpenMPCD.Profile.C24_conserved",
    "OpenMPCD.Profile.C24_one_bin",
    "OpenMPCD.Profile.C24_normalized",
    "OpenMPCD.Profile.C24_double_violated",
    "OpenMPCD.Profile.Rounded.C24_rounded_partial",
    "OpenMPCD.Profile.Rounded.C24_rounded_index_partial",
    "OpenMPCD.Profile.Rounded.C24_rounded_monotone",
    "OpenMPCD.Profile.Rounded.C24_rounded_power"
   ],
   "note": "Proved in exact arithmetic for at least one bin; conservation of counts for any rounding as long as no memory outside of the bins is accessed. Violated in double precision: a value just below the upper end can be assigned a bin past the last one. In floating-point arithmetic: values are counted, and in the right bin, unless they are closer to a boundary between bins than 7 n 2^-p of the size of a bin (n bins, p bits of precision); the bin chosen never is more than one past the last; if the range begins with zero and the size of the bins is a power of two, all are counted in the right bin. Writing the file: C78."
  },
  {
   "property": "C25",
   "status": "proved",
   "theorems": [
    "OpenMPCD.Profile.C25",
    "OpenMPCD.Profile.C25_block_exists"
   ],
   "note": "The sweep counter is a natural number (no wrap-around of unsigned int)."
  },
  {
   "property": "C26",
   "status": "partial",
   "theorems": [
    "OpenMPCD.Snapshot.C26_declarations",
    "OpenMPCD.Snapshot.C26_declareAtoms",
    "OpenMPCD.Snapshot.C26_debug_violated"
   ],
   "note": "Proved for builds without OPENMPCD_DEBUG. In debug builds, redeclaring exactly an existing range that is followed by another one fails an assertion."
  },
  {
   "property": "C27",
   "status": "proved",
   "theorems": [
    "OpenMPCD.Snapshot.C27_declareBond",
    "OpenMPCD.Snapshot.C27_hasBond",
    "OpenMPCD.Snapshot.C27_history"
   ],
   "note": "std::size_t as natural numbers."
  },
  {
   "property": "C28",
   "status": "partial",
   "theorems": [
    "OpenMPCD.Snapshot.C28_round_trip_partial",
    "OpenMPCD.Snapshot.C28_comma_violated",
    "OpenMPCD.Snapshot.open_written",
    "OpenMPCD.Snapshot.Python.C86_reads_simulation",
    "OpenMPCD.Snapshot.Python.C86_python_partial"
   ],
   "note": "Proved for every history of calls whose names and types contain neither white space nor commas, assuming that numbers are read as they were written (17 digits). Violated for names with commas, which are accepted but make the file unreadable. For the Python class, see C86."
  },
  {
   "property": "C29",
   "status": "proved",
   "theorems": [
    "OpenMPCD.Star.C29_bijection",
    "OpenMPCD.Star.C29_cpp",
    "OpenMPCD.Star.C29_py",
    "OpenMPCD.Star.C29_py_range",
    "OpenMPCD.Star.exists_place"
   ],
   "note": "std::size_t as natural numbers (no overflow); Python caches not represented."
  },
  {
   "property": "C30",
   "status": "proved",
   "theorems": [
    "OpenMPCD.Star.C30_cpp",
    "OpenMPCD.Star.C30_py",
    "OpenMPCD.Star.C30_symmetric",
    "OpenMPCD.Star.C30_tree",
    "OpenMPCD.Star.C30_connected"
   ],
   "note": "Also: the C++ predicate reads no uninitialised variable for distinct particles."
  },
  {
   "property": "C31",
   "status": "proved",
   "theorems": [
    "OpenMPCD.Star.C31_compatible_iff",
    "OpenMPCD.Star.C31_write"
   ],
   "note": "The file round trip is C28."
  },
  {
   "property": "C32",
   "status": "proved",
   "theorems": [
    "OpenMPCD.Star.C32",
    "OpenMPCD.Star.C32_each_pair_once",
    "OpenMPCD.Star.C32_total_force",
    "OpenMPCD.Star.C32_schedule_independent",
    "OpenMPCD.Star.C32_momentum",
    "OpenMPCD.Star.C32_momentum_run",
    "OpenMPCD.Star.C32_deterministic",
    "OpenMPCD.Star.C32_reversible",
    "OpenMPCD.Star.C32_progress"
   ],
   "note": "Exact arithmetic; particle numbers for which the launch loop terminates (C20)."
  },
  {
   "property": "C33",
   "status": "proved",
   "theorems": [
    "OpenMPCD.Potentials.C33_fene",
    "OpenMPCD.Potentials.C33_gemn",
    "OpenMPCD.Potentials.C33_morse",
    "OpenMPCD.Potentials.C33_lennardJones",
    "OpenMPCD.Potentials.C33_wca",
    "OpenMPCD.Potentials.C33_wcaOffset",
    "OpenMPCD.Potentials.C33_dipole",
    "OpenMPCD.Potentials.C33_dipoleZ",
    "OpenMPCD.Potentials.C33_additive",
    "OpenMPCD.Potentials.C33_null",
    "OpenMPCD.Potentials.C33_third_law"
   ],
   "note": "Exact arithmetic, at all distances at which the potential is differentiable."
  },
  {
   "property": "C34",
   "status": "proved",
   "theorems": [
    "OpenMPCD.Instr.C34",
    "OpenMPCD.Instr.C34_pairs",
    "OpenMPCD.Instr.C34_everyNth"
   ],
   "note": "For every history of calls and arbitrary initial contents of the snapshots. Counters are natural numbers, arithmetic is exact, and the centers of mass at each call are given."
  },
  {
   "property": "C35",
   "status": "proved",
   "theorems": [
    "OpenMPCD.Instr.C35",
    "OpenMPCD.Instr.C34_everyNth"
   ],
   "note": "For every history of calls and arbitrary initial contents of the buffers. Counters are natural numbers; what is computed from the buffers is the subject of C66."
  },
  {
   "property": "C36",
   "status": "proved",
   "theorems": [
    "OpenMPCD.Instr.C36",
    "OpenMPCD.Instr.C36_slots",
    "OpenMPCD.Instr.C36_complete"
   ],
   "note": "For every history of measurements at non-negative times that do not decrease. Exact arithmetic."
  },
  {
   "property": "C37",
   "status": "partial",
   "theorems": [
    "OpenMPCD.Ranges.C37_bunch_partial",
    "OpenMPCD.Ranges.C37_bunch_violated",
    "OpenMPCD.Ranges.C37_strided",
    "OpenMPCD.Ranges.C37_pointer",
    "OpenMPCD.Ranges.C37_pointer_unique",
    "OpenMPCD.Ranges.C37_pointer_add"
   ],
   "note": "Strided ranges and pointers: proved. Bunched ranges: proved for at most 2^32 elements; violated beyond that, since positions are computed in 32-bit arithmetic."
  },
  {
   "property": "C38",
   "status": "partial",
   "theorems": [
    "OpenMPCD.Bits.C38_partial",
    "OpenMPCD.Bits.C38_setAll",
    "OpenMPCD.Bits.C38_make",
    "OpenMPCD.Bits.C38_violated"
   ],
   "note": "Proved for every schedule if the memory allocated is sufficient for the bits. Violated by the constructor: it uses a member before it is initialised, so that the amount of memory allocated is indeterminate."
  },
  {
   "property": "C39",
   "status": "proved",
   "theorems": [
    "OpenMPCD.Random.C39_minstd_rand",
    "OpenMPCD.Random.C39_minstd_rand0",
    "OpenMPCD.Random.C39_no_overflow",
    "OpenMPCD.Random.C39_width32_violated",
    "OpenMPCD.Random.C39_seed_zero"
   ],
   "note": "For types of at least 64 bits, as on 64-bit systems with glibc; includes the full period. On platforms where uint_fast32_t has 32 bits, the generators get stuck at zero (shown)."
  },
  {
   "property": "C40",
   "status": "proved",
   "theorems": [
    "OpenMPCD.Vec3.C40_unit",
    "OpenMPCD.Vec3.C40_onto"
   ],
   "note": ""
  },
  {
   "property": "C41",
   "status": "partial",
   "theorems": [
    "OpenMPCD.Cache.C41_completed_partial",
    "OpenMPCD.Cache.C41_no_data",
    "OpenMPCD.Cache.C41_interrupted_violated",
    "OpenMPCD.Cache.C41_stale_violated",
    "OpenMPCD.Cache.C41_writePath_violated"
   ],
   "note": "The crash-safety statement is false for the code: the metadata is written before the data, so an interruption while the data is written leaves any prefix of it under valid metadata (C41_interrupted_violated), an interruption between the two files, or storing an unsupported type, leaves old data under new metadata (C41_stale_violated), and data stored under a separate write path is never found (C41_writePath_violated). Proved: completed stores are read back exactly and touch no other file."
  },
  {
   "property": "C42",
   "status": "partial",
   "theorems": [
    "OpenMPCD.Runs.C42_no_config",
    "OpenMPCD.Runs.C42_completed",
    "OpenMPCD.Runs.C42_running",
    "OpenMPCD.Runs.C42_parent",
    "OpenMPCD.Runs.C42_submitted",
    "OpenMPCD.Runs.C42_ready",
    "OpenMPCD.Runs.C42_no_job",
    "OpenMPCD.Runs.C42_deterministic",
    "OpenMPCD.Runs.C42_terminates_iff",
    "OpenMPCD.Runs.C42_terminates_violated",
    "OpenMPCD.Runs.C42_grandparent_violated"
   ],
   "note": "The state table is proved for every file system, every working directory and every translator list. Termination holds exactly if there is no infinite chain of parents (C42_terminates_iff); it fails for a run recorded as its own parent. Path translators are not handed on to parents (C42_grandparent_violated)."
  },
  {
   "property": "C43",
   "status": "partial",
   "theorems": [
    "OpenMPCD.Runs.C43_existing",
    "OpenMPCD.Runs.C43_created",
    "OpenMPCD.Runs.C43_full",
    "OpenMPCD.Runs.C43_names",
    "OpenMPCD.Runs.C43_no_base",
    "OpenMPCD.Runs.C43_no_prefix_violated"
   ],
   "note": "Proved for all file systems; projects without rundirNamePrefix always raise TypeError, so the claim fails for them (C43_no_prefix_violated)."
  },
  {
   "property": "C44",
   "status": "partial",
   "theorems": [
    "OpenMPCD.Runs.C44_parse_partial",
    "OpenMPCD.Runs.C44_roundtrip",
    "OpenMPCD.Runs.C44_zero_padding_violated",
    "OpenMPCD.Runs.C44_two_brackets_violated",
    "OpenMPCD.Runs.C44_bracket_list_violated",
    "OpenMPCD.Runs.C44_roundtrip_empty_violated",
    "OpenMPCD.Runs.parsePart_eq"
   ],
   "note": "Proved for lists of hosts with at most one bracketed plain range without leading zeros and for generated lists; false for zero-padded ranges, several brackets, lists between brackets, and the empty list."
  },
  {
   "property": "C45",
   "status": "partial",
   "theorems": [
    "OpenMPCD.Runs.C45_actual",
    "OpenMPCD.Runs.C45_partial",
    "OpenMPCD.Runs.C45_violated",
    "OpenMPCD.Runs.C45_project",
    "OpenMPCD.Runs.C45_back"
   ],
   "note": "False for two or more different translators (late-binding closures); what is applied instead is characterised by C45_actual. Proved for at most one translator and for the project's own translator."
  },
  {
   "property": "C46",
   "status": "partial",
   "theorems": [
    "OpenMPCD.Particles.C46_centerOfMass",
    "OpenMPCD.Particles.C46_shift",
    "OpenMPCD.Particles.C46_shift_violated",
    "OpenMPCD.Particles.C46_gyration_definition",
    "OpenMPCD.Particles.C46_gyration_symmetric",
    "OpenMPCD.Particles.C46_gyration_posSemidef",
    "OpenMPCD.Particles.C46_gyration_translation",
    "OpenMPCD.Particles.C46_gyration_secondMoment",
    "OpenMPCD.Particles.C46_gyration_trace",
    "OpenMPCD.Particles.C46_gyration_current",
    "OpenMPCD.Particles.C46_rotate_partial",
    "OpenMPCD.Particles.C46_rotate_violated",
    "OpenMPCD.Particles.C46_gyration_linear",
    "OpenMPCD.Particles.C46_eq_partial",
    "OpenMPCD.Particles.C46_eq_violated"
   ],
   "note": "Proved: centre of mass, shift, gyration tensor definition and invariances, freshness of the cached tensor over all histories. Rotation is proved for collections whose vector objects are not shared; with shared objects, without velocities (shift) and for comparison without velocities the code violates the claim (theorems *_violated)."
  },
  {
   "property": "C47",
   "status": "proved",
   "theorems": [
    "OpenMPCD.Particles.C47_vectors",
    "OpenMPCD.Particles.C47_translation",
    "OpenMPCD.Particles.C47_gram",
    "OpenMPCD.Particles.C47_orthonormal",
    "OpenMPCD.Particles.C47_frame_defined",
    "OpenMPCD.Particles.C47_condition",
    "OpenMPCD.Particles.C47_rigid"
   ],
   "note": "scipy.linalg.sqrtm is a parameter assumed to return the positive semidefinite square root (its existence is proved: exists_principalRoot). Uniform masses, as ParticleCollection supports only those."
  },
  {
   "property": "C48",
   "status": "proved",
   "theorems": [
    "OpenMPCD.Plot.C48_ranges",
    "OpenMPCD.Plot.C48_unique"
   ],
   "note": "For every list (the comparison with zero is a parameter, so NaN is covered); the specification also determines the result uniquely."
  },
  {
   "property": "C49",
   "status": "partial",
   "theorems": [
    "OpenMPCD.Star.C49_components_partial",
    "OpenMPCD.Star.C49_positions",
    "OpenMPCD.Star.C49_errors",
    "OpenMPCD.Star.C49_violated"
   ],
   "note": "Proved for magnetic particles at pairwise different positions. Violated when two magnetic particles have the same position: clusters are compared by value, so particles are lost. Python recursion limit not represented."
  },
  {
   "property": "C50",
   "status": "partial",
   "theorems": [
    "OpenMPCD.Config.C50_lookup",
    "OpenMPCD.Config.C50_membership",
    "OpenMPCD.Config.C50_membership_group_partial",
    "OpenMPCD.Config.C50_membership_violated",
    "OpenMPCD.Config.C50_set",
    "OpenMPCD.Config.C50_set_ok_partial",
    "OpenMPCD.Config.C50_set_violated",
    "OpenMPCD.Config.C50_delete",
    "OpenMPCD.Config.C50_delete_violated",
    "OpenMPCD.Config.C50_equivalent_refl",
    "OpenMPCD.Config.C50_equivalent_symm",
    "OpenMPCD.Config.C50_equivalent_trans",
    "OpenMPCD.Config.C50_equivalent_same",
    "OpenMPCD.Config.C50_equivalent_complete",
    "OpenMPCD.Config.C50_equivalent_types_violated",
    "OpenMPCD.Config.C50_flat",
    "OpenMPCD.Config.C50_flat_read",
    "OpenMPCD.Config.C50_differences"
   ],
   "note": "Proved for whole configurations; setting and deleting for settings of groups and (setting) elements of arrays. Violated: elements of lists cannot be set or deleted; membership in parts of configurations raises or is wrong for paths through lists; numbers of different types are equivalent in groups but not in lists. The lookup function of pylibconfig2 is assumed to walk the tree."
  },
  {
   "property": "C51",
   "status": "partial",
   "theorems": [
    "OpenMPCD.DDDA.C51_exact",
    "OpenMPCD.DDDA.C51_same_partial",
    "OpenMPCD.DDDA.C51_sharp",
    "OpenMPCD.DDDA.C51_optimalBlock_violated",
    "OpenMPCD.DDDA.C51_optimalBlock_partial"
   ],
   "note": "Proved for all histories in which block 23 has no variance, in particular for less than 2^24 data; false for 2^24 data (C51_sharp). C51_exact says for every history what the C++ class chooses: from block 22 on, cubes of block sizes are zero modulo 2^64, so that if the first block to meet the criterion is 22 or later, the last block is chosen."
  },
  {
   "property": "C52",
   "status": "proved",
   "theorems": [
    "OpenMPCD.Collection.C52_plot",
    "OpenMPCD.Collection.C52_raise",
    "OpenMPCD.Collection.C52_reachable"
   ],
   "note": "Data handed to the plotting library; drawing itself is not modelled."
  },
  {
   "property": "C53",
   "status": "partial",
   "theorems": [
    "OpenMPCD.Vec3.C53_dot",
    "OpenMPCD.Vec3.C53_projection",
    "OpenMPCD.Vec3.C53_rotation_partial",
    "OpenMPCD.Vec3.C53_rotation_violated"
   ],
   "note": "Rotation of vectors with non-real components does not preserve lengths (witness C53_rotation_violated); proved for real components."
  },
  {
   "property": "C54",
   "status": "proved",
   "theorems": [
    "OpenMPCD.Vec3.C54_lex",
    "OpenMPCD.Vec3.C54_strictTotal"
   ],
   "note": "NaN components are outside the model."
  },
  {
   "property": "C55",
   "status": "partial",
   "theorems": [
    "OpenMPCD.Runs.C55_effects",
    "OpenMPCD.Runs.C55_ready",
    "OpenMPCD.Runs.C55_self_parent_violated"
   ],
   "note": "Proved for run directories given by absolute normalised names; false for relative names (the first run of a chunk becomes its own parent)."
  },
  {
   "property": "C56",
   "status": "proved",
   "theorems": [
    "OpenMPCD.Particles.C56_angularVelocity",
    "OpenMPCD.Particles.C56_rigid"
   ],
   "note": "Exact real arithmetic; sqrtm as for C47."
  },
  {
   "property": "C57",
   "status": "proved",
   "theorems": [
    "OpenMPCD.Particles.C57_rotationFrequency"
   ],
   "note": "Exact real arithmetic; numpy.linalg.inv is the exact inverse."
  },
  {
   "property": "C58",
   "status": "proved",
   "theorems": [
    "OpenMPCD.Particles.C58_shape"
   ],
   "note": "numpy.linalg.eig is represented by its contract: the sorted roots of the characteristic polynomial."
  },
  {
   "property": "C59",
   "status": "partial",
   "theorems": [
    "OpenMPCD.Particles.C47_construct_violated",
    "OpenMPCD.Particles.construct_eq"
   ],
   "note": "Violated: without velocities the constructor raises ValueError, for every such reference configuration (C47_construct_violated). With velocities it succeeds (construct_eq)."
  },
  {
   "property": "C60",
   "status": "partial",
   "theorems": [
    "OpenMPCD.Star.C60_restore_partial",
    "OpenMPCD.Star.C60_rejects",
    "OpenMPCD.Star.C60_end_violated"
   ],
   "note": "Restoring and rejection of other geometries are proved (numbers read as written assumed). Violated: reading after the last state is not reported."
  },
  {
   "property": "C61",
   "status": "partial",
   "theorems": [
    "OpenMPCD.Star.C61_partial",
    "OpenMPCD.Star.C61_violated"
   ],
   "note": "Proved wherever the analysis reports an energy, for non-negative energy parameters and arms with particles other than the magnetic one. Violated: no energy is reported without magnetic particles, without configured dipole orientation, or if it is not normalised."
  },
  {
   "property": "C62",
   "status": "partial",
   "theorems": [
    "OpenMPCD.Star.C62_partial",
    "OpenMPCD.Star.C62_violated"
   ],
   "note": "Proved for arms with particles other than the magnetic one. Violated for arms that consist of the magnetic particle only."
  },
  {
   "property": "C63",
   "status": "partial",
   "theorems": [
    "OpenMPCD.Config.C63_partial",
    "OpenMPCD.Config.C63_exists_partial",
    "OpenMPCD.Config.C63_violated"
   ],
   "note": "Proved for groups that do not exist and for groups right in the configuration. Violated for nested groups that exist: the whole path is taken as the name of one setting, and the call raises."
  },
  {
   "property": "C64",
   "status": "proved",
   "theorems": [
    "OpenMPCD.Config.C64",
    "OpenMPCD.Config.C64_idempotent"
   ],
   "note": ""
  },
  {
   "property": "C65",
   "status": "proved",
   "theorems": [
    "OpenMPCD.Profile.C65_point",
    "OpenMPCD.Profile.C65_velocity",
    "OpenMPCD.Profile.C65_density",
    "OpenMPCD.Profile.C65_total_mass",
    "OpenMPCD.Profile.C65_flow"
   ],
   "note": "In exact arithmetic."
  },
  {
   "property": "C66",
   "status": "partial",
   "theorems": [
    "OpenMPCD.Instr.C66_coordinate",
    "OpenMPCD.Instr.C66_host",
    "OpenMPCD.Instr.C66_kernel",
    "OpenMPCD.Instr.C66_kernel_bounds",
    "OpenMPCD.Instr.C66_average_partial",
    "OpenMPCD.Instr.C66_saved_partial",
    "OpenMPCD.Instr.C66_memory_partial",
    "OpenMPCD.Instr.C66_memory_violated"
   ],
   "note": "Coordinates: proved. Averages: proved if there are at most 2^32 components in total. Memory: the size asked for lacks a factor of three, which is made up for by the size of an element being applied twice; sufficient below 2^29 normal coordinates, violated beyond."
  },
  {
   "property": "C67",
   "status": "partial",
   "theorems": [
    "OpenMPCD.Instr.C67_partial",
    "OpenMPCD.Instr.C67_violated"
   ],
   "note": "Proved if all snapshots have been taken or none of those taken so far is overdue. Violated in general: snapshots are overridden though less than the configured number have been taken."
  },
  {
   "property": "C68",
   "status": "proved",
   "theorems": [
    "OpenMPCD.Sim.C68_any_time",
    "OpenMPCD.Sim.C68_measurement",
    "OpenMPCD.Sim.C68_sweep",
    "OpenMPCD.Sim.C68_save",
    "OpenMPCD.Sim.C68_saves_once",
    "OpenMPCD.Sim.C68_end",
    "OpenMPCD.Sim.C68_stops"
   ],
   "note": "The outside world is an arbitrary function of the history so far. Exact arithmetic; a failing early save saves nothing; the destructor of the instrumentation does not throw."
  },
  {
   "property": "C69",
   "status": "partial",
   "theorems": [
    "OpenMPCD.Sim.C69_partial",
    "OpenMPCD.Sim.C69_rejected",
    "OpenMPCD.Sim.C69_foreign",
    "OpenMPCD.Sim.C69_violated"
   ],
   "note": "A single run changes no existing file, and a directory with results is rejected. Violated for two runs started in the same second (default name) or before the first one saves: both use the same directory and the second replaces the metadata of the first."
  },
  {
   "property": "C70",
   "status": "partial",
   "theorems": [
    "OpenMPCD.Sim.C70_sweeps",
    "OpenMPCD.Sim.C70_completed",
    "OpenMPCD.Sim.C70_not_completed",
    "OpenMPCD.Sim.C70_partial",
    "OpenMPCD.Sim.C70_violated"
   ],
   "note": "The number reported is the number performed; a killed or still running run is not reported as completed. Violated: a run ended by a signal, the runtime limit or an exception is reported as completed too."
  },
  {
   "property": "C71",
   "status": "partial",
   "theorems": [
    "OpenMPCD.Sim.C71_partial",
    "OpenMPCD.Sim.C71_violated"
   ],
   "note": "The files of the early saves and the final one together contain one snapshot per measurement, in order; without early saves the final one contains all. Violated: an early save moves the star polymer snapshots taken so far out of the final file. Only the star polymer snapshots are modelled; the other instruments save without changing their state."
  },
  {
   "property": "C72",
   "status": "partial",
   "theorems": [
    "OpenMPCD.Snapshot.C72_lines_partial",
    "OpenMPCD.Snapshot.C72_header",
    "OpenMPCD.Snapshot.C72_mixed",
    "OpenMPCD.Snapshot.C72_violated",
    "OpenMPCD.Snapshot.C72_cut",
    "OpenMPCD.Snapshot.C72_last_partial",
    "OpenMPCD.Snapshot.C72_anywhere_partial"
   ],
   "note": "Proved for files breaking off at any point before the last number of a timestep, within a line or at its end (C72_anywhere_partial), except for a single atom with velocities; and for timesteps with mixed lines. Violated for files breaking off within the last number, where a shortened number is accepted, and behind the position of a single atom, which is taken for one without velocities."
  },
  {
   "property": "C73",
   "status": "partial",
   "theorems": [
    "OpenMPCD.Analysis.C73",
    "OpenMPCD.Analysis.C73_mean",
    "OpenMPCD.Analysis.C73_displacements",
    "OpenMPCD.Analysis.C73_rejects",
    "OpenMPCD.Analysis.C73_rejects_violated",
    "OpenMPCD.Analysis.C73_plain"
   ],
   "note": "Proved for everything the simulation saves. Violated for invalid files: a time difference which is not configured causes a KeyError instead of the documented ValueError. Numbers exact apart from the rounding when printing."
  },
  {
   "property": "C74",
   "status": "partial",
   "theorems": [
    "OpenMPCD.Analysis.C74_times_partial",
    "OpenMPCD.Analysis.C74_nodup",
    "OpenMPCD.Analysis.C74_points",
    "OpenMPCD.Analysis.C74_violated"
   ],
   "note": "Violated: the maximum given is never used, although it is documented to be the maximum value used. The fit itself (scipy) is not modelled."
  },
  {
   "property": "C75",
   "status": "partial",
   "theorems": [
    "OpenMPCD.Analysis.C75_partial",
    "OpenMPCD.Analysis.C75_rejected",
    "OpenMPCD.Analysis.C75_order"
   ],
   "note": "As for C66, only if there are at most 2^32 components of normal coordinates (the buffer size is computed with 32 bits). The type check against `file`, which exists only in Python 2, is not modelled."
  },
  {
   "property": "C76",
   "status": "partial",
   "theorems": [
    "OpenMPCD.Analysis.C76_partial",
    "OpenMPCD.Analysis.C76_deltaT",
    "OpenMPCD.Analysis.C76_violated"
   ],
   "note": "Proved, but a record is discarded only if its later time is smaller than the minimum. Violated: a record whose earlier time is smaller than the minimum is used. Arithmetic is exact except for the rounding of printed numbers; times are printed exactly."
  },
  {
   "property": "C77",
   "status": "partial",
   "theorems": [
    "OpenMPCD.Analysis.C77_partial",
    "OpenMPCD.Analysis.C77_no_minimum",
    "OpenMPCD.Analysis.C77_violated"
   ],
   "note": "Violated if a minimum is given: the documentation says that pairs with a key smaller than the minimum are added and others ignored; exactly the opposite is done. Which of compressed and plain file is opened is not modelled; no NaN."
  },
  {
   "property": "C78",
   "status": "proved",
   "theorems": [
    "OpenMPCD.Analysis.C78"
   ],
   "note": "Exact arithmetic in the histogram (for doubles see C24); numbers printed are rounded by at most less than half a bin, counts exactly. \"#overflows\" is not a number."
  },
  {
   "property": "C79",
   "status": "proved",
   "theorems": [
    "OpenMPCD.Collide.C79",
    "OpenMPCD.Collide.C79_memory"
   ],
   "note": "Exact arithmetic. The scalings of the thermostat, for which there is no host version, are those of the device."
  },
  {
   "property": "C80",
   "status": "partial",
   "theorems": [
    "OpenMPCD.Fluid.C80_velocities",
    "OpenMPCD.Fluid.C80_velocities_defined",
    "OpenMPCD.Fluid.C80_simple",
    "OpenMPCD.Fluid.C80_chains",
    "OpenMPCD.Fluid.C80_pairs",
    "OpenMPCD.Fluid.C80_one_particle_violated",
    "OpenMPCD.Fluid.C80_consecutive_violated",
    "OpenMPCD.Fluid.C80_small_box_violated",
    "OpenMPCD.Fluid.C80_long_bond_violated"
   ],
   "note": "Proved for all random numbers if construction ends and the velocities are numbers (which they are exactly if not all velocities drawn are equal). Violated: with a single particle and a configured temperature the velocities become NaN; particles in a chain are all placed relative to the first one, so that consecutive particles need not have distance 1; placement never ends for chains in a box of side length 1 (first particle at the centre) and for bonds longer than the diagonal of the box. Exact arithmetic; the positioning \"perfect\" of dumbbells is covered by C99."
  },
  {
   "property": "C81",
   "status": "partial",
   "theorems": [
    "OpenMPCD.Analysis.C81_partial",
    "OpenMPCD.Analysis.C81_errors",
    "OpenMPCD.Analysis.C81_violated"
   ],
   "note": "Proved for points, order and values, and for errors if either all values are given with an error or none is. Violated: if a point is given a new value without error, the error of its previous value is reported for the new one."
  },
  {
   "property": "C82",
   "status": "partial",
   "theorems": [
    "OpenMPCD.Analysis.C82_nearest",
    "OpenMPCD.Analysis.C82_maxima",
    "OpenMPCD.Analysis.C82_extrema_partial",
    "OpenMPCD.Analysis.C82_extrema_violated"
   ],
   "note": "Nearest point, maxima and minima proved in full; the local extrema for Python 2. Violated: with Python 3, getLocalExtrema always raises TypeError."
  },
  {
   "property": "C83",
   "status": "partial",
   "theorems": [
    "OpenMPCD.Analysis.C83_partial",
    "OpenMPCD.Analysis.evenlyWindowed_of_equidistant",
    "OpenMPCD.Analysis.C83_too_many_violated",
    "OpenMPCD.Analysis.C83_missing_violated"
   ],
   "note": "Proved if moving a run by one point does not change whether it is as wide as the window, in particular for equidistant points. Violated for other points: at most one point is dropped from the window for each point added, so that means are over too many points; and a point is dropped even if the next points are then not wide enough, so that averages are missing."
  },
  {
   "property": "C84",
   "status": "partial",
   "theorems": [
    "OpenMPCD.Analysis.C84_partial",
    "OpenMPCD.Analysis.C84_violated"
   ],
   "note": "Proved for points without error (if printing does not make two of them coincide). Violated: points with an error are written with three columns, which are skipped when reading."
  },
  {
   "property": "C85",
   "status": "partial",
   "theorems": [
    "OpenMPCD.Analysis.Fitting.C85_request",
    "OpenMPCD.Analysis.Fitting.C85_invalid",
    "OpenMPCD.Analysis.Fitting.C85_history",
    "OpenMPCD.Analysis.Fitting.C85_getters",
    "OpenMPCD.Analysis.Fitting.C85_unfitted",
    "OpenMPCD.Analysis.Fitting.C85_multiple",
    "OpenMPCD.Analysis.Fitting.C85_best",
    "OpenMPCD.Analysis.Fitting.C85_eq_partial",
    "OpenMPCD.Analysis.Fitting.C85_bounds_violated",
    "OpenMPCD.Analysis.Fitting.C85_eq_unfitted_violated",
    "OpenMPCD.Analysis.Fitting.C85_eq_violated"
   ],
   "note": "Proved except for: bounds of the wrong length raise TypeError instead of the documented ValueError; comparing a fitted instance to an unfitted one raises TypeError (but not the other way round); a fit with one parameter may equal one with several, since arrays of length 1 are repeated in comparisons. The optimiser is a parameter."
  },
  {
   "property": "C86",
   "status": "partial",
   "theorems": [
    "OpenMPCD.Snapshot.Python.C86_reads_simulation",
    "OpenMPCD.Snapshot.Python.C86_python_partial",
    "OpenMPCD.Snapshot.Python.C86_write_calls",
    "OpenMPCD.Snapshot.Python.C86_read_calls",
    "OpenMPCD.Snapshot.Python.C86_missing",
    "OpenMPCD.Snapshot.Python.C86_accepts",
    "OpenMPCD.Snapshot.Python.C86_compressed",
    "OpenMPCD.Snapshot.Python.C86_cut_violated",
    "OpenMPCD.Snapshot.Python.C86_end_violated",
    "OpenMPCD.Snapshot.Python.C86_python3_violated",
    "OpenMPCD.Snapshot.Python.C86_compressed_violated"
   ],
   "note": "Reading what the simulation has written is proved for every history of calls (names without white space and commas). Writing and reading in the analysis is proved for Python 2. Violated: a file that breaks off at the end of a line yields a timestep with fewer particles; the end of the file looks like a timestep without particles; in Python 3, writing a timestep raises AttributeError after its first line, and opening a compressed file raises TypeError."
  },
  {
   "property": "C87",
   "status": "partial",
   "theorems": [
    "OpenMPCD.Analysis.StarTimes.C87_all",
    "OpenMPCD.Analysis.StarTimes.C87_none",
    "OpenMPCD.Analysis.StarTimes.C87_thinned",
    "OpenMPCD.Analysis.StarTimes.C87_thin",
    "OpenMPCD.Analysis.StarTimes.C87_partial",
    "OpenMPCD.Analysis.StarTimes.C87_sweepSize_violated",
    "OpenMPCD.Analysis.StarTimes.C87_early_violated"
   ],
   "note": "Proved for runs with sweeps of one timestep and without early saves. Violated for every other sweep size, since the analysis takes the snapshots to be one timestep apart, and for runs with early saves, whose final file lacks the snapshots taken before. Exact arithmetic; the values are computed by a parameter, which may raise."
  },
  {
   "property": "C88",
   "status": "partial",
   "theorems": [
    "OpenMPCD.Profile.FlowFile.C88_partial",
    "OpenMPCD.Profile.FlowFile.C88_sizes",
    "OpenMPCD.Profile.FlowFile.C88_exact",
    "OpenMPCD.Profile.FlowFile.C88_theory",
    "OpenMPCD.Profile.FlowFile.C88_subdivision_violated",
    "OpenMPCD.Profile.FlowFile.C88_blocks_violated",
    "OpenMPCD.Profile.FlowFile.C88_python3_violated",
    "OpenMPCD.Profile.FlowFile.C88_failed_violated",
    "OpenMPCD.Profile.FlowFile.C88_refused"
   ],
   "note": "Proved for any number of runs with one output block each and without subdivision, with the numbers in the files rounded by any rounding. Violated: with subdivided cells, reading raises ValueError; with several output blocks, the profile is empty and the statistics contain no data; with Python 3, compressed files cannot be read; a run whose file breaks off is added in part."
  },
  {
   "property": "C89",
   "status": "partial",
   "theorems": [
    "OpenMPCD.Runs.Target.C89_partial",
    "OpenMPCD.Runs.Target.C89_no_project",
    "OpenMPCD.Runs.Target.C89_repeat_partial",
    "OpenMPCD.Runs.Target.C89_succeeds",
    "OpenMPCD.Runs.Target.C89_repeat_violated",
    "OpenMPCD.Runs.Target.C89_shared_violated",
    "OpenMPCD.Runs.Target.C89_group_violated"
   ],
   "note": "Proved for the first call with any generators used once, and for every call if the generators are lists. Violated: generator objects, which the documentation asks for, are exhausted at the second call, and if one is used in two lists the second list gets no elements; a part that creates a group which the base configuration already has makes the call raise."
  },
  {
   "property": "C90",
   "status": "partial",
   "theorems": [
    "OpenMPCD.Runs.Status.C90_partial",
    "OpenMPCD.Runs.Status.C90_no_target",
    "OpenMPCD.Runs.Status.C90_grouped",
    "OpenMPCD.Runs.Status.C90_rundirs",
    "OpenMPCD.Runs.Status.C90_overlap_violated",
    "OpenMPCD.Runs.Status.C90_ignored_violated",
    "OpenMPCD.Runs.Status.C90_state_violated",
    "OpenMPCD.Runs.Status.C90_config_violated"
   ],
   "note": "Proved for data paths that match run directories with readable files only. Violated: overlapping data paths make runs count twice; a directory that is no run directory makes every call raise; a run that has been started by hand makes the call raise if the target is not reached; the configuration file is required even if the data paths are given."
  },
  {
   "property": "C91",
   "status": "proved",
   "theorems": [
    "OpenMPCD.Runs.Status.C91_filtered",
    "OpenMPCD.Runs.Status.C91_batches",
    "OpenMPCD.Runs.Status.C91_nodes",
    "OpenMPCD.Runs.Status.C91_no_cluster"
   ],
   "note": ""
  },
  {
   "property": "C92",
   "status": "partial",
   "theorems": [
    "OpenMPCD.Instr.Fourier.C92_bounds_partial",
    "OpenMPCD.Instr.Fourier.C92_formula_partial",
    "OpenMPCD.Instr.Fourier.C92_total",
    "OpenMPCD.Instr.Fourier.C92_history_partial",
    "OpenMPCD.Instr.Fourier.C92_opposite_partial",
    "OpenMPCD.Instr.Fourier.C92_zero_partial",
    "OpenMPCD.Instr.Fourier.C92_periodic_partial",
    "OpenMPCD.Instr.Fourier.C92_bounds_violated"
   ],
   "note": "Proved unless particle numbers come close to 2^32. Violated: with chains of very many particles (e.g. 2^24), numbers wrap around, and threads write outside of the buffers. For a fluid without constituents the average has no meaning."
  },
  {
   "property": "C93",
   "status": "partial",
   "theorems": [
    "OpenMPCD.Analysis.Transverse.C93_table_partial",
    "OpenMPCD.Analysis.Transverse.C93_time_partial",
    "OpenMPCD.Analysis.Transverse.C93_distance",
    "OpenMPCD.Analysis.Transverse.C93_short_violated",
    "OpenMPCD.Analysis.Transverse.C93_zero_violated",
    "OpenMPCD.Analysis.Transverse.C93_backup_violated",
    "OpenMPCD.Analysis.Transverse.C93_sweep_violated",
    "OpenMPCD.Analysis.Transverse.C93_maximum_violated",
    "OpenMPCD.Analysis.Transverse.C93_names"
   ],
   "note": "Proved for correlation times less than the maximum, if each wave vector is non-zero and has at least two pairs of measurements for each correlation time, and measurements are one time step apart. Violated: with mpc.sweepSize other than one the times are wrong; the maximum correlation time itself has no row; the program breaks off if measurements are too short, or if a wave vector is zero; backup copies of data files are counted as further data. The columns with the block analysis are not modelled here (see C51)."
  },
  {
   "property": "C94",
   "status": "partial",
   "theorems": [
    "OpenMPCD.Config.Cpp.C94_set_read",
    "OpenMPCD.Config.Cpp.C94_frame",
    "OpenMPCD.Config.Cpp.C94_has",
    "OpenMPCD.Config.Cpp.C94_existing",
    "OpenMPCD.Config.Cpp.C94_new",
    "OpenMPCD.Config.Cpp.C94_create",
    "OpenMPCD.Config.Cpp.C94_create_frame",
    "OpenMPCD.Config.Cpp.C94_history",
    "OpenMPCD.Config.Cpp.C94_failure_partial",
    "OpenMPCD.Config.Cpp.C94_unsigned_partial",
    "OpenMPCD.Config.Cpp.C94_unsigned_large",
    "OpenMPCD.Config.Cpp.C94_unsigned_violated",
    "OpenMPCD.Config.Cpp.C94_negative_violated",
    "OpenMPCD.Config.Cpp.C94_failure_violated"
   ],
   "note": "Proved for all histories, except: an unsigned number of 2^31 or more is stored as a negative number, without an exception, and read as zero (the comparison that is to detect this is always true); a negative number is read as the unsigned number zero; a failing call may leave behind the groups it created. What is assumed of libconfig is in the file of the model. Reading and writing of files and copies are not modelled."
  },
  {
   "property": "C95",
   "status": "partial",
   "theorems": [
    "OpenMPCD.Config.Cpp.C95_part",
    "OpenMPCD.Config.Cpp.C95_has",
    "OpenMPCD.Config.Cpp.C95_assert",
    "OpenMPCD.Config.Cpp.C95_names",
    "OpenMPCD.Config.Cpp.C95_child",
    "OpenMPCD.Config.Cpp.C95_list",
    "OpenMPCD.Config.Cpp.C95_getList",
    "OpenMPCD.Config.Cpp.C95_getList_violated",
    "OpenMPCD.Config.Cpp.C95_getListAt_violated",
    "OpenMPCD.Config.Cpp.C95_illegal_violated"
   ],
   "note": "Proved for names without empty parts. Violated: asking for a list where there is something else throws Exception instead of the documented InvalidConfigurationException; whether a name with two dots in a row is rejected depends on the contents of the configuration."
  },
  {
   "property": "C96",
   "status": "proved",
   "theorems": [
    "OpenMPCD.Random.Gamma.C96_shape_ge_1",
    "OpenMPCD.Random.Gamma.C96_gamma",
    "OpenMPCD.Random.Gamma.C96_positive",
    "OpenMPCD.Random.Gamma.C96_uniform",
    "OpenMPCD.Random.Gamma.C96_squeeze",
    "OpenMPCD.Random.Thermostat.C96_thermostat"
   ],
   "note": "Real numbers; cuRAND is assumed to return independent numbers that are uniform in (0, 1], and standard normal ones. The squeeze that avoids logarithms is proved exact for all shapes of at least one."
  },
  {
   "property": "C97",
   "status": "proved",
   "theorems": [
    "OpenMPCD.Random.UnitVector.C97_uniform",
    "OpenMPCD.Random.UnitVector.C97_sphere",
    "OpenMPCD.Random.UnitVector.C97_rotation",
    "OpenMPCD.Random.UnitVector.C97_component",
    "OpenMPCD.Random.UnitVector.C97_moments",
    "OpenMPCD.Random.UnitVector.C97_collision"
   ],
   "note": "Real numbers; the generators are assumed to return independent numbers that are uniform in [0, 1) on the host and in (0, 1] on the device."
  },
  {
   "property": "C98",
   "status": "proved",
   "theorems": [
    "OpenMPCD.Random.GridShift.C98_translation",
    "OpenMPCD.Random.GridShift.C98_scale"
   ],
   "note": "Real numbers; the numbers drawn are assumed to be independent and uniform in (0, 1]. C98_scale shows that the scale has to be one."
  },
  {
   "property": "C99",
   "status": "partial",
   "theorems": [
    "OpenMPCD.Fluid.Dumbbell.C99_ratio",
    "OpenMPCD.Fluid.Dumbbell.C99_monotone",
    "OpenMPCD.Fluid.Dumbbell.C99_continuous",
    "OpenMPCD.Fluid.Dumbbell.C99_constants",
    "OpenMPCD.Fluid.Dumbbell.C99_equilibrium",
    "OpenMPCD.Fluid.Dumbbell.C99_perfect",
    "OpenMPCD.Fluid.Dumbbell.C99_placement",
    "OpenMPCD.Fluid.Dumbbell.C99_second_violated",
    "OpenMPCD.Fluid.Dumbbell.C99_positioning_violated"
   ],
   "note": "Real numbers; gsl_poly_solve_cubic is assumed to find the real roots. The mean square lengths in the flow are those of the theory on which the code relies; they are not derived from the dynamics. Violated: a further fluid constructed in the same process is placed with the bond length of the first one, since the displacement is kept in a static variable. A second fluid in the same process also ignores its configured way of placing molecules."
  },
  {
   "property": "C100",
   "status": "partial",
   "theorems": [
    "OpenMPCD.Analysis.Analytic.C100_denominators",
    "OpenMPCD.Analysis.Analytic.C100_viscosity",
    "OpenMPCD.Analysis.Analytic.C100_dynamic",
    "OpenMPCD.Analysis.Analytic.C100_diffusion",
    "OpenMPCD.Analysis.Analytic.C100_one_dimension_violated",
    "OpenMPCD.Analysis.Analytic.C100_relaxation",
    "OpenMPCD.Analysis.Analytic.C100_python",
    "OpenMPCD.Analysis.Analytic.C100_script",
    "OpenMPCD.Analysis.Analytic.C100_integers_violated"
   ],
   "note": "Real numbers. Violated: in Python 2, integers for temperature, mass and time step make the kinetic contribution zero (integer division); proved for Python 3 or a time step of type float. C100_one_dimension_violated shows that two dimensions are needed."
  },
  {
   "property": "C101",
   "status": "proved",
   "theorems": [
    "OpenMPCD.Random.Phase.C101_collision",
    "OpenMPCD.Random.Phase.C101_streaming",
    "OpenMPCD.Random.Phase.run_iff",
    "OpenMPCD.Random.Phase.C101_run"
   ],
   "note": "Real numbers; streaming of the fluid without bonds. The thermostat changes volumes; for it see C102."
  },
  {
   "property": "C102",
   "status": "proved",
   "theorems": [
    "OpenMPCD.Random.Phase.C102_collision",
    "OpenMPCD.Random.Phase.C102_run",
    "OpenMPCD.Random.Phase.C102_energy",
    "OpenMPCD.Random.Phase.exists_gammaDraws"
   ],
   "note": "Real numbers; streaming of the fluid without bonds. The numbers drawn in a collision are assumed to be independent of each other, of those of other steps and of the state, with the distribution of Gamma_shape_ge_1 proved in C96; exists_gammaDraws shows there are such. Masses may differ between particles."
  },
  {
   "property": "C103",
   "status": "proved",
   "theorems": [
    "OpenMPCD.Collide.C103_collision",
    "OpenMPCD.Collide.C103_galilei",
    "OpenMPCD.Collide.C103_order_collision",
    "OpenMPCD.Collide.C103_order",
    "OpenMPCD.Collide.C103_undo_collision",
    "OpenMPCD.Collide.C103_reversal",
    "OpenMPCD.Collide.run_iff_steps"
   ],
   "note": "Real numbers; streaming of the fluid without bonds. Rotation axes need unit length for the reversal."
  },
  {
   "property": "C104",
   "status": "partial",
   "theorems": [
    "OpenMPCD.Fluid.Bonds.C104_dumbbells",
    "OpenMPCD.Fluid.Bonds.C104_rods",
    "OpenMPCD.Fluid.Bonds.C104_trimers_partial",
    "OpenMPCD.Fluid.Bonds.C104_trimers_xy",
    "OpenMPCD.Fluid.Bonds.C104_trimers_violated",
    "OpenMPCD.Fluid.Bonds.C104_diffusion",
    "OpenMPCD.Fluid.Bonds.C104_diffusion_violated",
    "OpenMPCD.Fluid.Bonds.Windows.unique",
    "OpenMPCD.Fluid.Bonds.C104_chains",
    "OpenMPCD.Fluid.Bonds.C104_chains_saved",
    "OpenMPCD.Fluid.Bonds.C104_chains_saved_violated"
   ],
   "note": "Violated for trimers: the histogram of the product of the x and y components of the second bond uses the x component of the first bond. Violated for a self-diffusion measurement time that is not positive (division by zero), and saving the chains throws if there are less than two data per bond. Real numbers; no bond is parallel to the z axis where its angle in the xy plane is taken (undefined behaviour otherwise, shown as an example)."
  },
  {
   "property": "C105",
   "status": "partial",
   "theorems": [
    "OpenMPCD.Sim.Startup.C105_boundary",
    "OpenMPCD.Sim.Startup.C105_starts",
    "OpenMPCD.Sim.Startup.C105_count_partial",
    "OpenMPCD.Sim.Startup.C105_fluid_partial",
    "OpenMPCD.Sim.Startup.C105_streams_partial",
    "OpenMPCD.Sim.Startup.C105_solute_exact",
    "OpenMPCD.Sim.Startup.C105_solute_partial",
    "OpenMPCD.Sim.Startup.C105_deprecated_violated",
    "OpenMPCD.Sim.Startup.C105_volume_violated",
    "OpenMPCD.Sim.Startup.C105_unknown_violated",
    "OpenMPCD.Sim.Startup.C105_analytical_violated",
    "OpenMPCD.Sim.Startup.C105_no_steps_violated",
    "OpenMPCD.Sim.Startup.C105_solute_violated"
   ],
   "note": "C105_starts says exactly which configurations start and as what. It shows violations: dumbbells never start with the deprecated style of boundary conditions; the volume is computed modulo 2^32; unknown settings beside a known fluid, and two fluids, are accepted; trimers with analytical streaming start but cannot be run; negative numbers count as zero, so that molecules may never move; and a time step of 0.3 is refused with one of 0.1 for the solute, because of rounding. The measurements and star polymers may refuse a configuration for reasons of their own (parameters)."
  },
  {
   "property": "C106",
   "status": "partial",
   "theorems": [
    "OpenMPCD.Sim.Several.C106_partial",
    "OpenMPCD.Sim.Several.C106_violated",
    "OpenMPCD.Sim.Several.C106_count_violated",
    "OpenMPCD.Sim.Several.C106_refused_violated",
    "OpenMPCD.Sim.Several.C106_guard_violated"
   ],
   "note": "Holds if, whenever a simulation is run, only simulations with the same settings have been constructed (or refused) since it has been. Violated otherwise, since settings are kept in constants shared by all simulations: a simulation then streams with the time step and the number of particles of another one, even of one that could not be constructed. The guard against a second simulation of dumbbells never fires. Streaming is modelled for all fluids; the collision step and the solute are arbitrary functions of what they read. Measurements are not included."
  },
  {
   "property": "C107",
   "status": "partial",
   "theorems": [
    "OpenMPCD.Cache.C107_exact",
    "OpenMPCD.Cache.C107_partial",
    "OpenMPCD.Cache.C107_elsewhere",
    "OpenMPCD.Cache.C107_filenames",
    "OpenMPCD.Cache.C107_stale_violated",
    "OpenMPCD.Cache.C107_unreadable_violated",
    "OpenMPCD.Cache.C107_elsewhere_violated"
   ],
   "note": "C107_exact says for every history which data a result comes from. The statement holds if every change of the data has been followed by a forced update, for values whose text can be read back, and without restriction if data are written elsewhere and none are where they are looked for. Violated otherwise: the metadata do not identify the data of the run, so old values are returned once the run has gone on; values that cannot be read back raise an exception from the second call on; with a separate write path, not even forced updates change what is returned. Computing the quantities and turning values into text are arbitrary functions."
  },
  {
   "property": "C108",
   "status": "partial",
   "theorems": [
    "OpenMPCD.Profile.C108_exact",
    "OpenMPCD.Profile.C108_partial",
    "OpenMPCD.Profile.C108_violated"
   ],
   "note": "C108_exact says for all grids and measurements what is shown: the density times the volume of a part of a cell. That is the density if cells are not subdivided (C108_partial), and is not for any other subdivision, wherever there is mass (C108_violated): masses are not divided by the volume of the parts. Exact real numbers, rounded in the file; at least one measurement; sizes within the range of unsigned int. Plotting itself is not modelled."
  },
  {
   "property": "C109",
   "status": "partial",
   "theorems": [
    "OpenMPCD.Interactive.C109_canvas",
    "OpenMPCD.Interactive.C109_toggle",
    "OpenMPCD.Interactive.C109_file",
    "OpenMPCD.Interactive.C109_directory",
    "OpenMPCD.Interactive.C109_partial",
    "OpenMPCD.Interactive.C109_list",
    "OpenMPCD.Interactive.C109_line",
    "OpenMPCD.Interactive.C109_comment",
    "OpenMPCD.Interactive.C109_default_violated",
    "OpenMPCD.Interactive.C109_failed_violated",
    "OpenMPCD.Interactive.C109_order_violated"
   ],
   "note": "The canvas is proved right for all histories. Characteristics are right for directories, and for files with a dictionary that is not used for a further file. Violated for files provided without characteristics, which all share one dictionary: each has the characteristics of all others, where the first file wins, also files which were refused. Setting the order of characteristics does not take effect until something else changes. Not modelled: windows, sorting, widths of columns; drawing a plot is an arbitrary function of the style and the data."
  },
  {
   "property": "C110",
   "status": "partial",
   "theorems": [
    "OpenMPCD.Mpi.C110_outcome",
    "OpenMPCD.Mpi.C110_lifetime",
    "OpenMPCD.Mpi.C110_foreign",
    "OpenMPCD.Mpi.C110_failure",
    "OpenMPCD.Mpi.C110_partial",
    "OpenMPCD.Mpi.C110_broadcast_violated",
    "OpenMPCD.Mpi.C110_copy_violated",
    "OpenMPCD.Mpi.C110_late_violated"
   ],
   "note": "Lifetimes are proved for all histories that keep to the documented rule, and for all histories if MPI was running before. Broadcasting is proved for less than 2^31 bytes, and violated from there on: the number of bytes is converted to int, so that more either fail, or are silently not sent. Instances can be copied, which ends the program at the end of the second copy; instances constructed too late are not refused. The MPI library itself is modelled by what the standard demands."
  },
  {
   "property": "C111",
   "status": "partial",
   "theorems": [
    "OpenMPCD.Version.C111_partial",
    "OpenMPCD.Version.C111_description",
    "OpenMPCD.Version.C111_bugs",
    "OpenMPCD.Version.C111_tag_violated",
    "OpenMPCD.Version.C111_slash_violated",
    "OpenMPCD.Version.C111_stale_violated",
    "OpenMPCD.Version.C111_description_violated",
    "OpenMPCD.Version.C111_bugs_violated"
   ],
   "note": "The version of the program is right for histories without annotated tags, and wrong for all others: it starts with the name of the tag, or is the placeholder if that name has a slash. Without a repository, the version of an earlier build stays. The description by the analysis package is right unless the current commit has an annotated tag, in which case it has the id of the tag object. Freedom of known bugs is never claimed wrongly, and is kept by descendants, but is denied to commits from before the bug was brought in. Git, libgit2 and sed are modelled by what they are documented to output."
  },
  {
   "property": "C112",
   "status": "partial",
   "theorems": [
    "OpenMPCD.Random.Speed.C112_maxwell",
    "OpenMPCD.Random.Speed.C112_positive",
    "OpenMPCD.Random.Speed.C112_finite",
    "OpenMPCD.Random.Speed.C112_infinite_violated"
   ],
   "note": "The distribution is proved exactly, for random numbers that are uniform in [0, 1), and real numbers. With floating-point numbers, a random number may be zero, and then the speed is infinite."
  },
  {
   "property": "C113",
   "status": "partial",
   "theorems": [
    "OpenMPCD.Mirror.C113_seen",
    "OpenMPCD.Mirror.C113_initial",
    "OpenMPCD.Mirror.C113_set",
    "OpenMPCD.Mirror.C113_stale_violated",
    "OpenMPCD.Mirror.C113_snapshot",
    "OpenMPCD.Mirror.C113_find_partial",
    "OpenMPCD.Mirror.C113_find_violated",
    "OpenMPCD.Mirror.C113_entities",
    "OpenMPCD.Mirror.C113_centres"
   ],
   "note": "The search appends to the vector passed: what it held before stays, although the count starts at zero. After setting, the former positions are returned until the next fetch (documented)."
  },
  {
   "property": "C114",
   "status": "partial",
   "theorems": [
    "OpenMPCD.Star.Initial.C114_positions_partial",
    "OpenMPCD.Star.Initial.C114_bonds",
    "OpenMPCD.Star.Initial.C114_apart",
    "OpenMPCD.Star.Initial.C114_velocities",
    "OpenMPCD.Star.Initial.C114_centre",
    "OpenMPCD.Star.Initial.C114_stars_violated",
    "OpenMPCD.Star.Initial.C114_core_violated",
    "OpenMPCD.Star.Initial.C114_close_violated",
    "OpenMPCD.Star.Initial.C114_range_violated"
   ],
   "note": "Holds for one star with at least one arm (two, for the centre of mass). With more stars, the others' positions are not set (an exception only in debug mode); without arms, the core's is not. With more than six arms, particles of different arms start closer than bonded ones. The bonds start beyond their extensibility if sigma is small."
  },
  {
   "property": "C115",
   "status": "partial",
   "theorems": [
    "OpenMPCD.Profile.FlowPlot.C115_line",
    "OpenMPCD.Profile.FlowPlot.C115_band_partial",
    "OpenMPCD.Profile.FlowPlot.C115_size_violated",
    "OpenMPCD.Profile.FlowPlot.C115_python3_violated",
    "OpenMPCD.Profile.FlowPlot.C115_negative",
    "OpenMPCD.Profile.FlowPlot.C115_empty_violated",
    "OpenMPCD.Profile.FlowPlot.C115_field_partial",
    "OpenMPCD.Profile.FlowPlot.C115_blocks_violated",
    "OpenMPCD.Profile.FlowPlot.C115_long_violated",
    "OpenMPCD.Profile.FlowPlot.C115_short_violated"
   ],
   "note": "The standard errors are computed with the number of data of the layer iterated over last (a variable that leaks from a list comprehension in Python 2); in Python 3, NameError is raised instead, for every non-zero factor. The display takes the coordinates along y from those along x of the second output block: fewer than two blocks raise IndexError, boxes longer along x than along y raise KeyError, and for shorter ones rows are missing. A layer without data prevents the whole plot."
  },
  {
   "property": "C116",
   "status": "partial",
   "theorems": [
    "OpenMPCD.Remote.C116_array",
    "OpenMPCD.Remote.C116_frame",
    "OpenMPCD.Remote.C116_values",
    "OpenMPCD.Remote.C116_dot",
    "OpenMPCD.Remote.C116_magnitude",
    "OpenMPCD.Remote.C116_finite",
    "OpenMPCD.Remote.C116_get",
    "OpenMPCD.Remote.C116_atomic",
    "OpenMPCD.Remote.C116_precision_violated",
    "OpenMPCD.Remote.C116_overlap_violated",
    "OpenMPCD.Remote.C116_overlap"
   ],
   "note": "The third component is read, and the second and third ones are set, by way of FP, so that precision is lost if the components are of a wider type (not the case for the types used at present). If vectors overlap because arrays with different beginnings are used, assignment overwrites components before they are read if the target begins later."
  },
  {
   "property": "C117",
   "status": "partial",
   "theorems": [
    "OpenMPCD.Sim.Status.C117_same",
    "OpenMPCD.Sim.Status.C117_soon",
    "OpenMPCD.Sim.Status.C117_later_violated",
    "OpenMPCD.Sim.Status.C117_computers",
    "OpenMPCD.Sim.Status.C117_many_violated"
   ],
   "note": "Holds for programs started within 4.29 seconds on one computer. The seed is the sum of a time in seconds and one in nanoseconds, both reduced to 32 bits, so that 4.294967292 seconds later the same seed occurs again; seeds on two computers coincide exactly if the computers were started a multiple of 2^32 nanoseconds apart."
  },
  {
   "property": "C118",
   "status": "partial",
   "theorems": [
    "OpenMPCD.Sim.Status.C118_abort",
    "OpenMPCD.Sim.Status.C118_flags",
    "OpenMPCD.Sim.Status.C118_saves",
    "OpenMPCD.Sim.Status.C118_twice_violated",
    "OpenMPCD.Sim.Status.C118_prefix",
    "OpenMPCD.Sim.Status.C118_status",
    "OpenMPCD.Sim.Status.C118_exception",
    "OpenMPCD.Sim.Status.C118_refused_violated",
    "OpenMPCD.Sim.Status.C118_help_violated",
    "OpenMPCD.Sim.Status.C118_incomplete_violated"
   ],
   "note": "A command line that is refused leads to exit status 0 (the handler does not return), printing the help to 1; runs ended early by a signal or the time limit report success; a second request to end aborts the program at once, and nothing measured is saved."
  },
  {
   "property": "C119",
   "status": "partial",
   "theorems": [
    "OpenMPCD.Decimal.C119_error",
    "OpenMPCD.Decimal.C119_written",
    "OpenMPCD.Decimal.C119_digits",
    "OpenMPCD.Decimal.C119_double",
    "OpenMPCD.Decimal.C119_distinct",
    "OpenMPCD.Decimal.C119_float_violated",
    "OpenMPCD.Decimal.C119_python2_violated",
    "OpenMPCD.Decimal.C119_default_violated"
   ],
   "note": "Holds for double with the precision set in the C++ code (17 digits). One digit is missing for float (statistics of such numbers can be saved). Bond lengths of Gaussian chains are written with the default precision of streams, six digits. Under Python 2, the analysis writes 12 digits, also to the configurations of simulations."
  },
  {
   "property": "C120",
   "status": "partial",
   "theorems": [
    "OpenMPCD.Collide.Rounded.C120_layer",
    "OpenMPCD.Collide.Rounded.C120_exact",
    "OpenMPCD.Collide.Rounded.C120_range",
    "OpenMPCD.Collide.Rounded.C120_edge_violated",
    "OpenMPCD.Collide.Rounded.C120_cell",
    "OpenMPCD.Collide.Rounded.C120_memory_violated",
    "OpenMPCD.Collide.Rounded.exists_isRounding"
   ],
   "note": "Holds for all coordinates except those just below zero (by less than half the distance of the box length to the next smaller floating-point number): there, the image is the box length itself, outside of the volume, and for the third coordinate the cell index is beyond the last cell. The violation is proved for all such positions. The number of box lengths subtracted is always exact."
  },
  {
   "property": "C121",
   "status": "partial",
   "theorems": [
    "OpenMPCD.DDDA.Cpp.C121_python",
    "OpenMPCD.DDDA.Cpp.C121_continue",
    "OpenMPCD.DDDA.Cpp.C121_any",
    "OpenMPCD.DDDA.Cpp.C121_undefined_violated",
    "OpenMPCD.DDDA.Cpp.C121_valid_violated"
   ],
   "note": "Restoring is proved for all data (less than 2^64) and all Python histories. Refused texts leave the object as it was. Violated: for texts without separator which are the number 1, an element past the end of a vector is accessed; and texts are accepted whose blocks do not fit each other. Which numbers keep their value when written is C119."
  },
  {
   "property": "C122",
   "status": "partial",
   "theorems": [
    "OpenMPCD.Unbiased.C122_mean",
    "OpenMPCD.Unbiased.C122_variance",
    "OpenMPCD.Unbiased.C122_error",
    "OpenMPCD.Unbiased.C122_block",
    "OpenMPCD.Unbiased.C122_correlated",
    "OpenMPCD.Unbiased.C122_autocorrelation",
    "OpenMPCD.Unbiased.C122_deviation_partial",
    "OpenMPCD.Unbiased.C122_deviation_violated"
   ],
   "note": "Proved in exact arithmetic, for data that are pairwise independent with the same distribution, or (means, blocks, autocorrelation) for correlated data. Violated for the sample standard deviation, which is documented as unbiased: its expected value is too small unless it is the same for all data."
  },
  {
   "property": "C123",
   "status": "proved",
   "theorems": [
    "OpenMPCD.Time.C123_error",
    "OpenMPCD.Time.C123_relative",
    "OpenMPCD.Time.C123_exact",
    "OpenMPCD.Time.C123_monotone",
    "OpenMPCD.Time.C123_advances",
    "OpenMPCD.Time.C123_stops",
    "OpenMPCD.Time.C123_difference",
    "OpenMPCD.Time.C123_begins",
    "OpenMPCD.Time.C123_ends",
    "OpenMPCD.Time.C123_snapshots"
   ],
   "note": "Floating-point numbers are those of any precision and range of exponents (as for double and float); operations round to a nearest number. Overflow is excluded by hypotheses."
  },
  {
   "property": "C124",
   "status": "partial",
   "theorems": [
    "OpenMPCD.Memory.Contents.C124_copy",
    "OpenMPCD.Memory.Contents.C124_roundtrip",
    "OpenMPCD.Memory.Contents.C124_zero",
    "OpenMPCD.Memory.Contents.C124_equal",
    "OpenMPCD.Memory.Contents.C124_debug",
    "OpenMPCD.Memory.Contents.C124_null",
    "OpenMPCD.Memory.Contents.C124_others",
    "OpenMPCD.Memory.Contents.C124_allocate",
    "OpenMPCD.Memory.Contents.C124_buffer_partial",
    "OpenMPCD.Memory.Contents.C124_buffer_violated",
    "OpenMPCD.Memory.Contents.C124_momenta_partial",
    "OpenMPCD.Memory.Contents.C124_momenta_violated",
    "OpenMPCD.Memory.Contents.C124_pending_violated",
    "OpenMPCD.Memory.Contents.C124_fill"
   ],
   "note": "The CUDA runtime is modelled by its contract. Violated: a DeviceBuffer asks for sizeof(T) times as many elements as it should, as unsigned int, so that from 2^29 doubles on it is too small; the momenta of more than 2^32/3 collision cells do not fit the memory requested for them; after an earlier error, a pointer to Device memory is said to point to Host memory."
  },
  {
   "property": "C125",
   "status": "partial",
   "theorems": [
    "OpenMPCD.Analysis.Relax.C125_curves_partial",
    "OpenMPCD.Analysis.Relax.C125_zero_partial",
    "OpenMPCD.Analysis.Relax.C125_written_violated",
    "OpenMPCD.Analysis.Relax.C125_single_violated",
    "OpenMPCD.Analysis.Relax.C125_first_violated",
    "OpenMPCD.Analysis.Relax.C125_order_violated",
    "OpenMPCD.Analysis.Relax.C125_division",
    "OpenMPCD.Analysis.Relax.C125_missing",
    "OpenMPCD.Analysis.Relax.C125_saved"
   ],
   "note": "Proved for files with the four columns the script expects, with the average at the first difference iterated over in place of that at zero; these are the same if the first line for each mode has difference zero and dictionaries keep the order of insertion. Violated: the simulation writes files of another format, at which the script breaks off at the first line unless chains have one particle (then it takes correlations for mode numbers); if the first difference iterated over is not zero, the value at zero is not one. Plotting and the header line of saved files are not modelled."
  },
  {
   "property": "C126",
   "status": "partial",
   "theorems": [
    "OpenMPCD.Analysis.DumbbellPlots.C126_ratio",
    "OpenMPCD.Analysis.DumbbellPlots.C126_stationary",
    "OpenMPCD.Analysis.DumbbellPlots.C126_curves",
    "OpenMPCD.Analysis.DumbbellPlots.C126_initial",
    "OpenMPCD.Analysis.DumbbellPlots.C126_angle",
    "OpenMPCD.Analysis.DumbbellPlots.C126_point",
    "OpenMPCD.Analysis.DumbbellPlots.C126_plotted",
    "OpenMPCD.Analysis.DumbbellPlots.C126_blocks",
    "OpenMPCD.Analysis.DumbbellPlots.C126_old_violated",
    "OpenMPCD.Analysis.DumbbellPlots.C126_prototype_violated"
   ],
   "note": "Roots and moments without rounding errors; roots in any order (if the real one does not come first, an exception is raised). Violated: for runs of the old kind, which the script provides for, it breaks off as variables are not assigned; runs of the graphics processor prototype are read, but then make it break off. How the means are computed from the files is the subject of other properties (C77, C78, C81)."
  },
  {
   "property": "C127",
   "status": "partial",
   "theorems": [
    "OpenMPCD.Analysis.TransversePy.C127_rows_partial",
    "OpenMPCD.Analysis.TransversePy.C127_steps",
    "OpenMPCD.Analysis.TransversePy.C127_mismatch",
    "OpenMPCD.Analysis.TransversePy.C127_division",
    "OpenMPCD.Analysis.TransversePy.C127_zero",
    "OpenMPCD.Analysis.TransversePy.C127_box",
    "OpenMPCD.Analysis.TransversePy.C127_box_violated",
    "OpenMPCD.Analysis.TransversePy.C127_python3_violated",
    "OpenMPCD.Analysis.TransversePy.C127_header"
   ],
   "note": "Proved with Python 2 and for components perpendicular to the vector of integers instead of the wave vector; C127_box shows that this is the same exactly if the box has the same length in all directions in which the wave vector has components. Violated: otherwise, velocities along the wave vector count as transverse; with Python 3, the script always breaks off. Exact arithmetic; the fit, the viscosity computed from it, and the header of the file are not modelled."
  },
  {
   "property": "C128",
   "status": "partial",
   "theorems": [
    "OpenMPCD.Analysis.Tables.C128_modes_partial",
    "OpenMPCD.Analysis.Tables.C128_displacements_partial",
    "OpenMPCD.Analysis.Tables.C128_velocities_partial",
    "OpenMPCD.Analysis.Tables.C128_short_violated",
    "OpenMPCD.Analysis.Tables.C128_metadata_partial",
    "OpenMPCD.Analysis.Tables.C128_metadata",
    "OpenMPCD.Analysis.Tables.C128_metadata_violated",
    "OpenMPCD.Analysis.Tables.C128_ignored_violated",
    "OpenMPCD.Analysis.Tables.C128_headers"
   ],
   "note": "Proved if there are at least two data for each row, and for paths without quotation marks, backslashes, and control characters. Violated: with fewer data the script breaks off, leaving an incomplete line and no other file; paths with quotation marks make the list ambiguous; the list is saved even if the documentation says that the option is ignored. Exact arithmetic, numbers written with the precision of the text. The parameter file of the displacement script and its fits are not modelled here."
  },
  {
   "property": "C129",
   "status": "partial",
   "theorems": [
    "OpenMPCD.Analysis.Overview.C129_points",
    "OpenMPCD.Analysis.Overview.C129_shown_partial",
    "OpenMPCD.Analysis.Overview.C129_overwritten_violated",
    "OpenMPCD.Analysis.Overview.C129_bonds_partial",
    "OpenMPCD.Analysis.Overview.C129_differ",
    "OpenMPCD.Analysis.Overview.C129_theory_partial",
    "OpenMPCD.Analysis.Overview.C129_theory_violated",
    "OpenMPCD.Analysis.Overview.C129_newline_violated",
    "OpenMPCD.Analysis.Overview.C129_diffusion_partial",
    "OpenMPCD.Analysis.Overview.C129_groups_partial",
    "OpenMPCD.Analysis.Overview.C129_python3_violated",
    "OpenMPCD.Analysis.Overview.C129_name"
   ],
   "note": "Proved if no two runs have the same settings, for theory files that end with a line break and at least one run, and for groups with Python 2. Violated: of runs with the same settings, only the last is shown; a theoretical curve alone is not plotted; the data of a theory file without final line break do not end; groups cannot be named with Python 3. The numbers of a run are taken as given; the text sent by the script for groups is not modelled."
  },
  {
   "property": "C130",
   "status": "proved",
   "theorems": [
    "OpenMPCD.Collide.Drift.C130_momentum",
    "OpenMPCD.Collide.Drift.C130_energy",
    "OpenMPCD.Collide.Drift.C130_rounding",
    "OpenMPCD.Collide.Drift.C130_axis",
    "OpenMPCD.Collide.Drift.C130_run",
    "OpenMPCD.Collide.Drift.C130_single"
   ],
   "note": "The constants are 600 for the momentum and 40000 for the energy. Supposed: no overflow (velocities times 100 and cell momenta times 2 below the largest number), fewer particles in a cell than 1/64 of the inverse relative accuracy, and a largest velocity that is not tiny. What sine, cosine and sincospi yield, and the factor of the thermostat, are arbitrary numbers. Velocities are those after the Lees-Edwards correction, whose rounding is not part of this."
  },
  {
   "property": "C131",
   "status": "partial",
   "theorems": [
    "OpenMPCD.Stats.Rounded.C131_range_partial",
    "OpenMPCD.Stats.Rounded.C131_nonneg",
    "OpenMPCD.Stats.Rounded.C131_constant",
    "OpenMPCD.Stats.Rounded.C131_blocks",
    "OpenMPCD.Stats.Rounded.C131_mean",
    "OpenMPCD.Stats.Rounded.C131_variance",
    "OpenMPCD.Stats.Rounded.C131_merge_nonneg",
    "OpenMPCD.Stats.Rounded.C131_merge_violated",
    "OpenMPCD.Stats.Rounded.C131_relative_violated"
   ],
   "note": "Violated: merging two samples of five data each, all being 2^53 - 1, yields the mean 2^53 - 2 with double precision, whatever the rule for ties. Also, the error of the variance is not small relative to the variance itself: for the data 1 and 1 + 2^-52 it is as large as the variance. Supposed: at least 6 bits of precision, and differences of data below the largest power of two; for the bounds of the errors, that squares of the data are neither too large nor subnormal."
  },
  {
   "property": "C132",
   "status": "partial",
   "theorems": [
    "OpenMPCD.Particles.Orientation.C132_lines",
    "OpenMPCD.Particles.Orientation.C132_lines_scaled",
    "OpenMPCD.Particles.Orientation.C132_angle",
    "OpenMPCD.Particles.Orientation.C132_unique",
    "OpenMPCD.Particles.Orientation.C132_wrong",
    "OpenMPCD.Particles.Orientation.C132_angles",
    "OpenMPCD.Particles.Orientation.C132_defined",
    "OpenMPCD.Particles.Orientation.C132_degenerate",
    "OpenMPCD.Particles.Orientation.C132_curves",
    "OpenMPCD.Particles.OrientRounded.C132_flow",
    "OpenMPCD.Particles.OrientRounded.C132_axis_violated"
   ],
   "note": "numpy.linalg.eig is represented by its contract: three linearly independent unit eigenvectors with their eigenvalues, in any order. Violated: if there is no single direction of the most extent, the angle is whatever numpy returns (C132_degenerate); for the axis [2, 1, 0] and a molecule along it, double precision yields a cosine above 1, and thus no number (C132_axis_violated)."
  },
  {
   "property": "C133",
   "status": "proved",
   "theorems": [
    "OpenMPCD.Star.Rounded.C133_step",
    "OpenMPCD.Star.Rounded.C133_run",
    "OpenMPCD.Star.Rounded.C133_rounding",
    "OpenMPCD.Star.Rounded.C133_exact_violated"
   ],
   "note": "Forces between pairs are any numbers; that the same number is added to one particle and subtracted from the other is modelled. C133_rounding: rounding each operation to nearest satisfies what is supposed of arithmetic. C133_exact_violated: the momentum is not conserved exactly in double precision."
  },
  {
   "property": "C134",
   "status": "proved",
   "theorems": [
    "OpenMPCD.Verlet.C134_dumbbells",
    "OpenMPCD.Verlet.C134_trimers",
    "OpenMPCD.Verlet.C134_chains",
    "OpenMPCD.Verlet.C134_bonds",
    "OpenMPCD.Verlet.C134_sharp",
    "OpenMPCD.Verlet.C134_chains_sharp"
   ],
   "note": "Exact arithmetic. Collisions are any change of velocities that conserves the total kinetic energy (which C13 shows of the collisions without thermostat). C134_sharp and C134_chains_sharp: the condition on the time step cannot be weakened for dumbbells, nor for chains of any length; longer time steps are not refused by the code."
  },
  {
   "property": "C135",
   "status": "proved",
   "theorems": [
    "OpenMPCD.Verlet.C135_dumbbells",
    "OpenMPCD.Verlet.C135_trimers",
    "OpenMPCD.Verlet.C135_chains",
    "OpenMPCD.Verlet.C135_rod",
    "OpenMPCD.Verlet.C135_analytic",
    "OpenMPCD.Star.C135_stars",
    "OpenMPCD.Star.C135_stars_axis",
    "OpenMPCD.Star.C135_magnetic_violated",
    "OpenMPCD.Collide.C135_simple",
    "OpenMPCD.Collide.C135_collision"
   ],
   "note": "Exact arithmetic. C135_magnetic_violated and C135_collision show that the two exceptions named in the statement are needed: for every mass and time step with a magnetic interaction of dipoles along z, and for every angle of rotation that is not a multiple of a full turn."
  },
  {
   "property": "C136",
   "status": "partial",
   "theorems": [
    "OpenMPCD.Star.Settings.C136_configured",
    "OpenMPCD.Star.Settings.C136_simulation",
    "OpenMPCD.Star.Settings.C136_analysis",
    "OpenMPCD.Star.Settings.C136_agree_partial",
    "OpenMPCD.Star.Settings.C136_default_mass_violated",
    "OpenMPCD.Star.Settings.C136_mass_violated",
    "OpenMPCD.Star.Settings.C136_no_stars_violated",
    "OpenMPCD.Star.Settings.C136_negative_violated"
   ],
   "note": "Proved in full: exactly which configurations are accepted, as what, and how this enters the start of a simulation (C105). Not true of the code, with witnesses: masses of zero and negative masses are accepted; no stars, or a negative number of them, are accepted; with a negative number of arms, simulation and analysis differ on the number of particles; without a configured mass, the simulation uses 1, and getParticleMass of the analysis raises KeyError. C136_agree_partial assumes numbers that are not negative, and a mass that is configured."
  },
  {
   "property": "C137",
   "status": "partial",
   "theorems": [
    "OpenMPCD.Vec3.Objects.C137_unchanged",
    "OpenMPCD.Vec3.Objects.C137_construct",
    "OpenMPCD.Vec3.Objects.C137_eq",
    "OpenMPCD.Vec3.Objects.C137_close",
    "OpenMPCD.Vec3.Objects.C137_close_partial",
    "OpenMPCD.Vec3.Objects.C137_close_violated",
    "OpenMPCD.Vec3.Objects.C137_inplace",
    "OpenMPCD.Vec3.Objects.C137_algebra",
    "OpenMPCD.Vec3.Objects.C137_iteration_violated",
    "OpenMPCD.Vec3.Objects.C137_products"
   ],
   "note": "Not true of the code: closeness depends on which vector is asked, as with numpy.allclose (C137_close_violated; symmetric without relative tolerance, C137_close_partial); iterating over any vector raises KeyError, since __getitem__ does so for index 3 (C137_iteration_violated). The rest is proved in full, for exact numbers."
  },
  {
   "property": "C138",
   "status": "partial",
   "theorems": [
    "OpenMPCD.Instr.Reduction.C138_accurate",
    "OpenMPCD.Instr.Reduction.C138_host",
    "OpenMPCD.Instr.Reduction.C138_agree",
    "OpenMPCD.Instr.Reduction.C138_check_partial",
    "OpenMPCD.Instr.Reduction.C138_ordinary",
    "OpenMPCD.Instr.Reduction.C138_check_violated",
    "OpenMPCD.Instr.Reduction.C138_release_violated"
   ],
   "note": "Accuracy and agreement are proved; the check does not throw if twice the error is below its tolerance, which is so for up to a million constituents and components of velocities up to 1 in double precision. Violated: the tolerance is absolute, so for large velocities the check stops correct computations; and it gives back arrays with the operator for single objects, which is undefined behaviour."
  },
  {
   "property": "C139",
   "status": "partial",
   "theorems": [
    "OpenMPCD.Sim.Measurements.C139_plain_partial",
    "OpenMPCD.Sim.Measurements.C139_molecules_partial",
    "OpenMPCD.Sim.Measurements.C139_started",
    "OpenMPCD.Sim.Measurements.C139_profiles_partial",
    "OpenMPCD.Sim.Measurements.C139_required_violated",
    "OpenMPCD.Sim.Measurements.C139_ignored_violated"
   ],
   "note": "Proved as an equivalence for simple fluids, chains, and the profiles; and for all fluids, that what is measured is what is configured. Violated: simulations of dumbbells, rods and trimers do not start unless every one of the measurements of their kind is configured; settings for measurements of other kinds of fluid, misspelt settings within a measurement, and histograms without bins are accepted, the former without effect."
  },
  {
   "property": "C140",
   "status": "proved",
   "theorems": [
    "OpenMPCD.DDDA.Estimates.C140_standardDeviation",
    "OpenMPCD.DDDA.Estimates.C140_uncertainty",
    "OpenMPCD.DDDA.Estimates.C140_uncertainty_bounds",
    "OpenMPCD.DDDA.Estimates.C140_reliable",
    "OpenMPCD.DDDA.Estimates.C140_plot",
    "OpenMPCD.DDDA.Estimates.C140_text",
    "OpenMPCD.DDDA.Estimates.C140_equal",
    "OpenMPCD.DDDA.Estimates.C140_order"
   ],
   "note": "Exact arithmetic. Block IDs are non-negative integers. The uncertainty uses the number of groups where propagation of errors for independent groups has the number of groups minus one; C140_uncertainty_bounds relates the two. Reliability is proved for histories of additions and merges of distinct objects."
  },
  {
   "property": "C141",
   "status": "partial",
   "theorems": [
    "OpenMPCD.Config.ParameterFile.C141_table_partial",
    "OpenMPCD.Config.ParameterFile.C141_decode",
    "OpenMPCD.Config.ParameterFile.C141_settings",
    "OpenMPCD.Config.ParameterFile.C141_conflict",
    "OpenMPCD.Config.ParameterFile.C141_conflict_violated",
    "OpenMPCD.Config.ParameterFile.C141_emptyName_violated",
    "OpenMPCD.Config.ParameterFile.C141_separators_violated",
    "OpenMPCD.Config.ParameterFile.C141_names",
    "OpenMPCD.Config.ParameterFile.C141_values"
   ],
   "note": "Proved for non-empty names, and names and values without tabs and ends of lines. Violated: a value with a tab, which configurations allow, is saved as two columns; an additional parameter with the empty name merges two columns of values; with assertions disabled, an additional parameter replaces a setting of the same name. The texts of numbers are those of `str`; that they are different from the other notations is a hypothesis of C141_decode."
  },
  {
   "property": "C142",
   "status": "partial",
   "theorems": [
    "OpenMPCD.Memory.Simulation.C142_released",
    "OpenMPCD.Memory.Simulation.C142_fluid_rejected",
    "OpenMPCD.Memory.Simulation.C142_step_violated",
    "OpenMPCD.Memory.Simulation.C142_initialState_violated"
   ],
   "note": "Proved for every construction that succeeds, and for every rejection of the configuration of the fluid or its measurements. Violated: if the step size of the star polymers does not divide the one of the simulation, all buffers of the simulation and the fluid are lost (and reported); if the initial state of the star polymers is rejected, the potentials created for them are lost silently. Host memory, the DeviceBuffer instances and failing `new` on the device are not modelled; after a failing cudaMalloc nothing is claimed."
  },
  {
   "property": "C143",
   "status": "partial",
   "theorems": [
    "OpenMPCD.Analysis.DataFile.C143_open_partial",
    "OpenMPCD.Analysis.DataFile.C143_script",
    "OpenMPCD.Analysis.DataFile.C143_agree_partial",
    "OpenMPCD.Analysis.DataFile.C143_lines",
    "OpenMPCD.Analysis.DataFile.C143_readLine",
    "OpenMPCD.Analysis.DataFile.C143_header_partial",
    "OpenMPCD.Analysis.DataFile.C143_property",
    "OpenMPCD.Analysis.DataFile.C143_asked_partial",
    "OpenMPCD.Analysis.DataFile.C143_format",
    "OpenMPCD.Analysis.DataFile.C143_short_violated",
    "OpenMPCD.Analysis.DataFile.C143_both_violated",
    "OpenMPCD.Analysis.DataFile.C143_documented_violated"
   ],
   "note": "Violated: header lines in the documented format are rejected always (the code splits at \"#\" instead of \"=\"); an existing file whose name is shorter than four characters makes the C++ constructor throw std::out_of_range; if both the plain and the compressed file exist, C++ reads the plain one and Python the compressed one. Proved: everything else, for the format \"# name # value\" that the code accepts. Decompression itself, unreadable files and lexical_cast are not modelled."
  },
  {
   "property": "C144",
   "status": "partial",
   "theorems": [
    "OpenMPCD.Config.Consistent.C144_common",
    "OpenMPCD.Config.Consistent.C144_rejected",
    "OpenMPCD.Config.Consistent.C144_agreed_partial",
    "OpenMPCD.Config.Consistent.C144_order",
    "OpenMPCD.Config.Consistent.C144_unreadable",
    "OpenMPCD.Config.Consistent.C144_no_runs",
    "OpenMPCD.Config.Consistent.C144_group_violated"
   ],
   "note": "Proved for texts, truth values and numbers (1, 1.0 and true are equal in Python). Violated: for groups, lists and arrays, ValueError is raised for two runs or more even if they agree, since instances of Configuration are compared by identity. Without runs, None is returned. Reading of the files is a parameter; the checks of the types of the arguments are not represented."
  },
  {
   "property": "C145",
   "status": "partial",
   "theorems": [
    "OpenMPCD.Sim.Metadata.C145_address_partial",
    "OpenMPCD.Sim.Metadata.C145_identifies",
    "OpenMPCD.Sim.Metadata.C145_domain_violated",
    "OpenMPCD.Sim.Metadata.C145_times",
    "OpenMPCD.Sim.Metadata.C145_time_text",
    "OpenMPCD.Sim.Metadata.C145_file",
    "OpenMPCD.Sim.Metadata.C145_metadata"
   ],
   "note": "Violated: the address of a device in a domain from 0x10000 on has more than four digits for the domain. Identification holds for all devices nevertheless. Years are assumed to have four digits; gmtime, strftime and the device properties are libraries. Host names are assumed to contain no end of line."
  },
  {
   "property": "C146",
   "status": "partial",
   "theorems": [
    "OpenMPCD.Plotfiles.C146_script_partial",
    "OpenMPCD.Plotfiles.C146_program_violated",
    "OpenMPCD.Plotfiles.C146_table",
    "OpenMPCD.Plotfiles.C146_rundirs_partial",
    "OpenMPCD.Plotfiles.C146_rundirs_violated",
    "OpenMPCD.Plotfiles.C146_newline_violated",
    "OpenMPCD.Plotfiles.C146_names",
    "OpenMPCD.Plotfiles.C146_metadata"
   ],
   "note": "Holds for the script, unless a run directory has a line end in its name. Violated by the program: the plotter raises FileFormatException for every file it writes (the line `#` and eight columns), and the parameters of that file turn up with the next one. Run directories with quotation marks cannot be told apart. Numbers are assumed to be written without white space, commas, `=`, and `#`."
  },
  {
   "property": "C147",
   "status": "partial",
   "theorems": [
    "OpenMPCD.Merge.C147_plot",
    "OpenMPCD.Merge.C147_scalar",
    "OpenMPCD.Merge.C147_vector",
    "OpenMPCD.Merge.C147_merge_partial",
    "OpenMPCD.Merge.C147_no_legend_violated",
    "OpenMPCD.Merge.C147_unlabelled_violated",
    "OpenMPCD.Merge.C147_texts",
    "OpenMPCD.Merge.C147_common",
    "OpenMPCD.Merge.C147_order_violated"
   ],
   "note": "Holds for plots whose legends have a label for each line, as those of star polymer quantities do. Violated for plots without a legend (AttributeError), for plots with a line without label (its place is taken by the label of the next plot), and in that different titles are joined in the order of a set, which Python may choose anew each time."
  },
  {
   "property": "C148",
   "status": "partial",
   "theorems": [
    "OpenMPCD.Dashed.C148_points",
    "OpenMPCD.Dashed.C148_style",
    "OpenMPCD.Dashed.C148_segments",
    "OpenMPCD.Dashed.C148_isolated_violated",
    "OpenMPCD.Dashed.C148_empty",
    "OpenMPCD.Dashed.C148_band",
    "OpenMPCD.Dashed.C148_few",
    "OpenMPCD.Dashed.C148_log_partial",
    "OpenMPCD.Dashed.C148_log_zero_violated",
    "OpenMPCD.Dashed.C148_log_small_violated"
   ],
   "note": "Points, styles, and errors: proved, for exact arithmetic. Violated: nothing is to be seen of a value whose neighbours are on the other side of zero, since it makes up a line of one point; on a logarithmic axis, the lower bound may be zero, and lies above values smaller than the replacement of negative bounds."
  },
  {
   "property": "C149",
   "status": "partial",
   "theorems": [
    "OpenMPCD.Analysis.Stats.C149_mean",
    "OpenMPCD.Analysis.Stats.C149_mean_bounds",
    "OpenMPCD.Analysis.Stats.C149_python2_violated",
    "OpenMPCD.Analysis.Stats.C149_python2_partial",
    "OpenMPCD.Analysis.Stats.C149_deviation",
    "OpenMPCD.Analysis.Stats.C149_average_bounds",
    "OpenMPCD.Analysis.Stats.C149_average_zero",
    "OpenMPCD.Analysis.Stats.C149_average_none",
    "OpenMPCD.Analysis.Stats.C149_average_violated",
    "OpenMPCD.Analysis.Stats.C149_plot"
   ],
   "note": "Proved in exact arithmetic. Violated for values of type int in Python 2, where the mean is rounded down; the average of moving averages is not the mean of the data, since data at the ends count less."
  },
  {
   "property": "C150",
   "status": "partial",
   "theorems": [
    "OpenMPCD.StarMirror.C150_host",
    "OpenMPCD.StarMirror.C150_write",
    "OpenMPCD.StarMirror.C150_read_partial",
    "OpenMPCD.StarMirror.C150_velocities_violated",
    "OpenMPCD.StarMirror.C150_end_partial",
    "OpenMPCD.StarMirror.C150_end_violated",
    "OpenMPCD.StarMirror.C150_failure",
    "OpenMPCD.StarMirror.C150_scrap_violated"
   ],
   "note": "Violated: since the host buffers are copied to the device without having been fetched before, reading a state without velocities sets the velocities back to those of the last time of copying, and reading at the end of a snapshot sets the whole state back, without an exception. Holds for states with velocities, and if host and device agree. The host buffers after an exception are arbitrary."
  },
  {
   "property": "C151",
   "status": "partial",
   "theorems": [
    "OpenMPCD.Controls.C151_boxes",
    "OpenMPCD.Controls.C151_click",
    "OpenMPCD.Controls.C151_scale",
    "OpenMPCD.Controls.C151_sort",
    "OpenMPCD.Controls.C151_sorted_partial",
    "OpenMPCD.Controls.C151_hide_violated",
    "OpenMPCD.Controls.C151_row",
    "OpenMPCD.Controls.C151_tick_partial",
    "OpenMPCD.Controls.C151_tick_violated"
   ],
   "note": "Violated: the sorting column is remembered by its number, so that hiding a characteristic before it sorts the list by another one or raises; tick marks follow the first column, which need not be \"Plotted\". The widget and plotting libraries are represented by what the code uses of them; column -1 (unsorted) of the widget library is not represented."
  },
  {
   "property": "C152",
   "status": "partial",
   "theorems": [
    "OpenMPCD.CenterVelocity.C152_partial",
    "OpenMPCD.CenterVelocity.C152_triplets_partial",
    "OpenMPCD.CenterVelocity.C152_triplets_violated",
    "OpenMPCD.CenterVelocity.C152_ignored_violated",
    "OpenMPCD.CenterVelocity.C152_rest_violated"
   ],
   "note": "Proved for dumbbells and chains, in exact arithmetic. Violated for trimers: the kernel for triplets calls the function for doublets, so that the result for triplet j is the mean of the velocities of the particles 2j and 2j+1, and the last third of the particles is ignored."
  },
  {
   "property": "C153",
   "status": "partial",
   "theorems": [
    "OpenMPCD.Instr.Access.C153_displacement",
    "OpenMPCD.Instr.Access.C153_modes",
    "OpenMPCD.Instr.Access.C153_coordinates_partial"
   ],
   "note": "Proved in exact arithmetic. That the values for normal modes are the averages over the chains of the products of normal coordinates is proved for less than 2^32 normal coordinate components (as in C66); everything else is proved without this limit. Wrong arguments without debugging are not covered: nothing is checked then, as documented."
  },
  {
   "property": "C154",
   "status": "partial",
   "theorems": [
    "OpenMPCD.Vec3.ComplexObjects.C154_unchanged",
    "OpenMPCD.Vec3.ComplexObjects.C154_normalize",
    "OpenMPCD.Vec3.ComplexObjects.C154_rotate",
    "OpenMPCD.Vec3.ComplexObjects.C154_eq",
    "OpenMPCD.Vec3.ComplexObjects.C154_ne_partial",
    "OpenMPCD.Vec3.ComplexObjects.C154_ne_violated",
    "OpenMPCD.Vec3.ComplexObjects.C154_arithmetic",
    "OpenMPCD.Vec3.ComplexObjects.C154_div_partial",
    "OpenMPCD.Vec3.ComplexObjects.C154_div_violated",
    "OpenMPCD.Vec3.ComplexObjects.C154_getitem",
    "OpenMPCD.Vec3.ComplexObjects.C154_iterate_violated"
   ],
   "note": "Proved in exact arithmetic but for three violations: in Python 2, != compares identities, so that two vectors with the same components are both equal and different; in Python 3, / always raises TypeError, as there is no __truediv__; iterating over any vector raises ValueError after the three components, as __getitem__ does not raise IndexError. For what rotation computes, see C53."
  },
  {
   "property": "C155",
   "status": "partial",
   "theorems": [
    "OpenMPCD.StridedIterators.C155_position",
    "OpenMPCD.StridedIterators.C155_element",
    "OpenMPCD.StridedIterators.C155_increment",
    "OpenMPCD.StridedIterators.C155_add_partial",
    "OpenMPCD.StridedIterators.C155_add_violated",
    "OpenMPCD.StridedIterators.C155_device_violated",
    "OpenMPCD.StridedIterators.C155_valid_partial",
    "OpenMPCD.StridedIterators.C155_valid_violated"
   ],
   "note": "Proved for the host but for two violations: += throws if the iterator is past the end already, and isValid throws for singular iterators instead of being false. On the device, where calls are not checked, an iterator past the end leaves the array and is then taken for one that can be dereferenced, and isValid is true for default-constructed iterators."
  },
  {
   "property": "C156",
   "status": "proved",
   "theorems": [
    "OpenMPCD.Plane.C156_angle",
    "OpenMPCD.Plane.C156_polar",
    "OpenMPCD.Plane.C156_zero",
    "OpenMPCD.Plane.C156_magnitude",
    "OpenMPCD.Plane.C156_complex",
    "OpenMPCD.Plane.C156_sesquilinear",
    "OpenMPCD.Plane.C156_eq"
   ],
   "note": "Proved in exact arithmetic: rounding, through which a cosine slightly above 1 fails the assertion, is not modelled."
  },
  {
   "property": "C157",
   "status": "partial",
   "theorems": [
    "OpenMPCD.Analysis.AlignmentPlot.C157_points",
    "OpenMPCD.Analysis.AlignmentPlot.C157_order",
    "OpenMPCD.Analysis.AlignmentPlot.C157_theory_partial",
    "OpenMPCD.Analysis.AlignmentPlot.C157_theory_violated"
   ],
   "note": "Proved in exact arithmetic, but for the values of the theory, for positive Weissenberg numbers only: if the smallest one is zero (no shear), the first theoretical value is a quotient by zero. The ratio mu is a parameter here; for its value, see C126."
  },
  {
   "property": "C158",
   "status": "proved",
   "theorems": [
    "OpenMPCD.Particles.TensorRow.C158_row",
    "OpenMPCD.Particles.TensorRow.C158_tensor",
    "OpenMPCD.Particles.TensorRow.C158_translation"
   ],
   "note": "Proved in exact arithmetic, for any normalized and linearly independent eigenvectors that numpy may return."
  },
  {
   "property": "C159",
   "status": "proved",
   "theorems": [
    "OpenMPCD.Sim.Generators.C159_construct",
    "OpenMPCD.Sim.Generators.C159_defined",
    "OpenMPCD.Sim.Generators.C159_fresh",
    "OpenMPCD.Sim.Generators.C159_schedule",
    "OpenMPCD.Sim.Generators.C159_own",
    "OpenMPCD.Sim.Generators.C159_first"
   ],
   "note": "The cuRAND library is any function from seed, subsequence and position to words; distributions are any functions of the words that follow which consume finitely many of them. Numbers of particles and energies in the cells are inputs."
  },
  {
   "property": "C160",
   "status": "proved",
   "theorems": [
    "OpenMPCD.Analysis.Viscosity.C160_box",
    "OpenMPCD.Analysis.Viscosity.C160_periodic",
    "OpenMPCD.Analysis.Viscosity.C160_viscosity",
    "OpenMPCD.Analysis.Viscosity.C160_order",
    "OpenMPCD.Analysis.Viscosity.C160_single"
   ],
   "note": "Exact arithmetic; the fit is any parameter with the least sum of squares. C160_single shows that a time other than zero is needed: otherwise any number is a best fit."
  },
  {
   "property": "C161",
   "status": "partial",
   "theorems": [
    "OpenMPCD.Runs.Selection.C161_select",
    "OpenMPCD.Runs.Selection.C161_unknown",
    "OpenMPCD.Runs.Selection.C161_configured",
    "OpenMPCD.Runs.Selection.C161_others",
    "OpenMPCD.Runs.Selection.C161_history_partial",
    "OpenMPCD.Runs.Selection.C161_failed_violated"
   ],
   "note": "Violated: if the specification file cannot be executed, the call raises the exception, but the project has become the selected one, without a base configuration, and the one selected before no longer is. Proved: everything else, for configured projects that have all keys. Specification files are arbitrary, but do not change the manager."
  },
  {
   "property": "C162",
   "status": "proved",
   "theorems": [
    "OpenMPCD.Analysis.StaticData.C162_value",
    "OpenMPCD.Analysis.StaticData.C162_error",
    "OpenMPCD.Analysis.StaticData.C162_missing"
   ],
   "note": "What `float` accepts and which characters count as space are arbitrary. Files that cannot be opened are left out."
  },
  {
   "property": "C163",
   "status": "proved",
   "theorems": [
    "OpenMPCD.Analysis.Registry.C163_classes",
    "OpenMPCD.Analysis.Registry.C163_order",
    "OpenMPCD.Analysis.Registry.C163_register",
    "OpenMPCD.Analysis.Registry.C163_single"
   ],
   "note": "Callers are assumed not to change the dictionary that is returned to them."
  },
  {
   "property": "C164",
   "status": "partial",
   "theorems": [
    "OpenMPCD.Stats.DeviceMean.C164_kernel_partial",
    "OpenMPCD.Stats.DeviceMean.C164_done",
    "OpenMPCD.Stats.DeviceMean.C164_overlap_violated",
    "OpenMPCD.Stats.DeviceMean.C164_host",
    "OpenMPCD.Stats.DeviceMean.C164_checks_partial",
    "OpenMPCD.Stats.DeviceMean.C164_unchecked_violated"
   ],
   "note": "Violated: if the output is one of the values, a thread of the kernel may add the result of another; and without debugging, no exception is thrown. Proved: everything else, for numbers of a field, that is, neither rounding nor integers."
  },
  {
   "property": "C165",
   "status": "partial",
   "theorems": [
    "OpenMPCD.Analysis.XYPlot.C165_points",
    "OpenMPCD.Analysis.XYPlot.C165_twice",
    "OpenMPCD.Analysis.XYPlot.C165_order_partial",
    "OpenMPCD.Analysis.XYPlot.C165_order_violated"
   ],
   "note": "Violated: the script fails if the run given last has no equilibrium length, which is not used for what is plotted, while it does not matter for the other runs. Proved: exactly when something is plotted, and what; that the order does not matter if all runs have lengths. Real numbers, without rounding."
  }
 ]
}
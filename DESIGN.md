# Formal model of OpenMPCD: design

## Layout

* `lean/Verif/<Topic>/*.lean` - one directory per topic. In each topic, definitions that
  model the code come first (file `Model.lean`, or the section "Model" of a file), each with
  a comment that cites the file and lines in `/repo` and says where it simplifies; then the
  specification (file `Spec.lean` or the section "Specification"): small definitions that say
  what the English property means without using the model's helpers; then auxiliary facts and
  the property theorems (`Props.lean` or the section "Proofs"). Beside the theorems there are
  `example`s showing that the hypotheses are met by concrete, non-trivial cases.
* `lean/Verif.lean` imports every module.
* `properties.jsonl` - the properties in English. `MANIFEST.json` - property, status, theorems.
* `seeded/LOG.jsonl` - edits made to the model in a scratch copy to see that theorems fail.

Naming: theorems for property `Cnn` begin with `Cnn`. A theorem with suffix `_partial` proves
part of a property; a theorem with suffix `_violated` proves that the code does not have the
property, by a concrete execution (usually for arbitrary values of the parameters involved). The
full statement of the property stays in `properties.jsonl`; the note in `MANIFEST.json` says what
is missing.

## Trusted base

* Lean 4.33.0's kernel.
* The axioms listed below; no other axioms, no `sorry`, no `native_decide`, no `bv_decide`.
* The transcription from Python, C++ and CUDA to Lean, checked by reading only (the code cannot
  be run here).
* The specifications, i.e. that they mean what the English properties say.

### Axioms per theorem

* `propext`, `Classical.choice`, `Quot.sound`: all theorems in `MANIFEST.json` not listed below (847 of 1014).
* `propext`, `Quot.sound` only: `DDDA.C05_cpp_agrees`, `DDDA.C08_documentedError_violated`, `Autocorrelation.C09_negative`, `Collection.C10_keep_rejects`, `Collection.C10_rejected_partial`, `Atomic.C15_linearizable`, `Collide.C18_host_device`, `Collide.C18_translate`, `Snapshot.C27_hasBond`, `Star.C29_cpp`, `Star.C29_py`, `Instr.C34_everyNth`, `Ranges.C37_pointer_add`, `Bits.C38_make`, `Bits.C38_violated`, `Random.C39_no_overflow`, `Runs.C45_project`, `Config.C50_lookup`, `Config.C50_membership`, `Config.C50_membership_group_partial`, `Config.C50_membership_violated`, `Config.C50_delete`, `Vec3.C54_lex`, `Config.C63_partial`, `Config.C63_exists_partial`, `Instr.C66_memory_partial`, `Analysis.C73_rejects`, `Analysis.C73_plain`, `Analysis.C74_points`, `Analysis.C75_rejected`, `Analysis.C77_partial`, `Analysis.C77_no_minimum`, `Analysis.C77_violated`, `Analysis.C81_errors`, `Analysis.C81_violated`, `Analysis.C82_extrema_violated`, `Analysis.Fitting.C85_request`, `Analysis.Fitting.C85_invalid`, `Analysis.Fitting.C85_history`, `Analysis.Fitting.C85_getters`, `Analysis.Fitting.C85_multiple`, `Analysis.Fitting.C85_best`, `Analysis.Fitting.C85_eq_violated`, `Analysis.StarTimes.C87_thin`, `Runs.Status.C90_rundirs`, `Config.Cpp.C94_frame`, `Config.Cpp.C94_has`, `Config.Cpp.C94_existing`, `Config.Cpp.C94_new`, `Config.Cpp.C94_create_frame`, `Config.Cpp.C94_unsigned_partial`, `Config.Cpp.C94_unsigned_large`, `Config.Cpp.C94_unsigned_violated`, `Config.Cpp.C94_negative_violated`, `Config.Cpp.C94_failure_violated`, `Config.Cpp.C95_names`, `Sim.Several.C106_guard_violated`, `Mpi.C110_outcome`, `Mpi.C110_lifetime`, `Mpi.C110_foreign`, `Mpi.C110_copy_violated`, `Mpi.C110_late_violated`, `Version.C111_partial`, `Version.C111_description`, `Version.C111_bugs`, `Version.C111_slash_violated`, `Version.C111_description_violated`, `Version.C111_bugs_violated`, `Mirror.C113_snapshot`, `Remote.C116_frame`, `Remote.C116_dot`, `Remote.C116_finite`, `Remote.C116_get`, `Remote.C116_overlap_violated`, `Sim.Status.C117_later_violated`, `Sim.Status.C118_prefix`, `Sim.Status.C118_status`, `Sim.Status.C118_exception`, `Sim.Status.C118_refused_violated`, `Sim.Status.C118_help_violated`, `Memory.Contents.C124_equal`, `Memory.Contents.C124_allocate`, `Memory.Contents.C124_buffer_violated`, `Memory.Contents.C124_momenta_partial`, `Analysis.Relax.C125_missing`, `Analysis.Relax.C125_saved`, `Analysis.DumbbellPlots.C126_blocks`, `Analysis.DumbbellPlots.C126_old_violated`, `Analysis.DumbbellPlots.C126_prototype_violated`, `Analysis.Overview.C129_points`, `Analysis.Overview.C129_shown_partial`, `Analysis.Overview.C129_overwritten_violated`, `Analysis.Overview.C129_groups_partial`, `Analysis.DataFile.C143_lines`, `Analysis.DataFile.C143_readLine`, `Analysis.DataFile.C143_header_partial`, `Analysis.DataFile.C143_property`, `Analysis.DataFile.C143_asked_partial`, `Analysis.DataFile.C143_format`, `Analysis.DataFile.C143_both_violated`, `Analysis.DataFile.C143_documented_violated`, `Config.Consistent.C144_common`, `Config.Consistent.C144_rejected`, `Config.Consistent.C144_agreed_partial`, `Config.Consistent.C144_order`, `Config.Consistent.C144_unreadable`, `Config.Consistent.C144_no_runs`, `Config.Consistent.C144_group_violated`, `Sim.Metadata.C145_time_text`, `Plotfiles.C146_rundirs_partial`, `Merge.C147_no_legend_violated`, `Merge.C147_texts`, `Merge.C147_common`, `Dashed.C148_empty`, `Dashed.C148_few`, `StridedIterators.C155_position`, `StridedIterators.C155_element`, `StridedIterators.C155_increment`, `StridedIterators.C155_add_partial`, `Runs.Selection.C161_unknown`, `Analysis.Registry.C163_order`, `Stats.DeviceMean.C164_done`, `Stats.DeviceMean.C164_checks_partial`, `Stats.DeviceMean.C164_unchecked_violated`.
* `propext` only: `Star.C29_py_range`, `Random.C39_seed_zero`, `Runs.C45_partial`, `Config.C50_delete_violated`, `Config.C63_violated`, `Analysis.Fitting.C85_unfitted`, `Analysis.Fitting.C85_eq_partial`, `Analysis.Fitting.C85_bounds_violated`, `Analysis.Fitting.C85_eq_unfitted_violated`, `Config.Cpp.C94_set_read`, `Config.Cpp.C94_create`, `Config.Cpp.C95_part`, `Config.Cpp.C95_has`, `Config.Cpp.C95_assert`, `Config.Cpp.C95_child`, `Config.Cpp.C95_list`, `Config.Cpp.C95_getList`, `Config.Cpp.C95_getList_violated`, `Config.Cpp.C95_getListAt_violated`, `Config.Cpp.C95_illegal_violated`, `Sim.Startup.C105_streams_partial`, `Mpi.C110_failure`, `Version.C111_stale_violated`, `Mirror.C113_stale_violated`, `Sim.Status.C117_same`, `Memory.Contents.C124_debug`, `Memory.Contents.C124_null`, `Memory.Contents.C124_pending_violated`, `Analysis.Overview.C129_python3_violated`, `Analysis.Overview.C129_name`, `Instr.Reduction.C138_release_violated`, `Analysis.DataFile.C143_short_violated`, `Plotfiles.C146_rundirs_violated`, `Merge.C147_unlabelled_violated`, `Analysis.Stats.C149_python2_violated`, `StridedIterators.C155_add_violated`, `StridedIterators.C155_valid_partial`, `StridedIterators.C155_valid_violated`, `Runs.Selection.C161_configured`, `Runs.Selection.C161_others`.
* no axioms: `Snapshot.C26_debug_violated`, `Runs.C45_actual`, `Runs.Status.C90_config_violated`.

### Assumptions about the environment

* **Numbers.** Floating-point numbers are elements of an ordered field (the reals where roots or
  trigonometric functions occur): no rounding, NaN, infinities or overflow, unless the property is
  about them (C24 models doubles and rounding to nearest; C48, C28 and C72 leave the type of numbers
  arbitrary). Python integers are exact. C++ integers are natural numbers, except where the width
  matters: C17, C20, C37, C38, C39, C51, C66, C75 have 32- or 64-bit arithmetic.
* **Printing and parsing numbers** is a parameter: `NumIO` (C03, C04, C08) and `Snapshot.Lawful`
  (C28, C31, C60, C72) assume that what is printed is read as the same number and contains no separator;
  these can be met for countable types only, such as the rationals, of which doubles are a subset.
  `Analysis.Rounds` (C73 to C78, C84) assumes that a printed number is read as a rounded number,
  and can be met for the reals.
* **Libraries.** `scipy.linalg.sqrtm` returns the principal square root; `numpy.linalg.eig`
  the sorted roots of the characteristic polynomial; `numpy.linalg.inv` the inverse;
  `scipy.optimize.curve_fit` is arbitrary; pylibconfig2's lookup walks the tree; `cudaMalloc`
  returns fresh addresses; random generators and distributions are arbitrary functions of an
  arbitrary state (their ranges are assumed where needed, their distributions are not modelled).
* **Concurrency.** Atomic operations on one location of global memory are sequentially consistent;
  a schedule is any interleaving of atomic steps (C15, C38) or any order of the threads' additions
  (C13, C16, C22, C32), the latter being justified by C15.
* **File system.** A finite map from names to contents; single writes are atomic or cut off at any
  point (C41), other processes only where the property mentions them (C69).
* **Signals and time** are arbitrary functions of the history (C68 to C71).

### What is not modelled

* Building, the GUI (`InteractivePlotter`, `starPolymersAnalysisGUI.py`), drawing of plots, gnuplot.
* Parsing of configuration files by libconfig and pylibconfig2.
* The Fourier-transformed velocity instruments, MPI, profiling, host and device information,
  program version database, the stand-alone scripts in `Analysis/` and `tools/`.
* Statistical properties of random numbers; physical accuracy of any kind.
* Python's recursion limit, memory exhaustion (except where C20 and C66 bound sizes), signals in Python.
* The exact text of messages.

## Properties

| ID | Status | What is modelled | How it is proved | Modules |
|----|--------|------------------|------------------|---------|
| C01 | proved | Python class, all methods; state (n, M, S) | induction on the data from the right: n M is the sum, S the sum of squared deviations | `Stats/Props.lean` |
| C02 | proved | mergeSample with its four branches, mergeSamples | identity for pooled sums of squares; induction over merge trees | `Stats/Props.lean` |
| C03 | proved | serialisation as characters; printing of numbers is the parameter NumIO | split/join lemma; case analysis of every branch for arbitrary strings | `Stats/Props.lean` |
| C04 | proved | C++ class, with its serialisation | simulation relation between the two state machines | `Stats/Props.lean` |
| C05 | proved | Python and C++ DDDA as lists of (block, waiting datum) | refinement to "averages of consecutive groups"; induction on data and level | `DDDA/Props.lean` |
| C06 | proved | search for the optimal block; assertion as an error value | invariant over all add/merge histories | `DDDA/Props.lean` |
| C07 | partial | merge with another object, and with itself | induction over block lists; witness for the aliased call | `DDDA/Props.lean` |
| C08 | proved | serialisation with bars and semicolons | split/join lemma on top of C03; arbitrary strings | `DDDA/Props2.lean` |
| C09 | proved | buffers and statistics of the class | invariant: buffers hold the last data, statistics consumed all products | `Autocorrelation/Props.lean` |
| C10 | partial | collection as ordered finite map | fold lemmas; counting lemma for thinning; witness for the rejected call | `Collection/Props.lean` |
| C11 | proved | both vector classes | ring identities with cos^2 + sin^2 = 1 | `Vec/Props.lean` |
| C12 | proved | both vector classes | ring identities, square roots | `Vec/Props.lean` |
| C13 | proved | collision kernels per cell, order of additions arbitrary, whole runs | finite sums, rotations preserve norms, induction on steps | `Collide/Props.lean` |
| C14 | proved | thermostat factors; gamma draw as parameter | finite sums | `Collide/Props.lean` |
| C15 | proved | small-step machine of threads in the CAS loop | inductive invariant over arbitrary interleavings | `Atomic/Props.lean` |
| C16 | proved | additions in any order | sums do not depend on permutations | `Collide/Props.lean` |
| C17 | proved | cell index arithmetic with 32 bits | div/mod reasoning | `Collide/CellProps.lean` |
| C18 | proved | image function, host and device | floor uniqueness | `Collide/CellProps.lean` |
| C19 | proved | corrections applied and undone | algebra, per particle | `Collide/Props.lean` |
| C20 | proved | launch loop with 32-bit wrap-around | partition into intervals; exact condition for termination | `Launch/Props.lean` |
| C21 | proved | memory manager against an abstract allocator | invariant over traces | `Memory/Props.lean` |
| C22 | proved | Verlet steps for chains, dumbbells, trimers, stars | ring identities, induction on steps, permutations of threads | `Verlet/Props.lean` |
| C23 | proved | analytic streaming of dumbbells and rods | derivatives | `Verlet/Analytic.lean` |
| C24 | partial | histogram with a rounding parameter | induction on fills; witness in double precision; bound of the error of the rounded quotient that chooses the bin, exact for powers of two | `Profile/Histogram.lean`, `Profile/HistRounded.lean` |
| C25 | proved | sweeps and output blocks | induction on the history | `Profile/Flow.lean` |
| C26 | partial | range list and its splitting | refinement to a map | `Snapshot/Structure.lean` |
| C27 | proved | bond set | refinement to a set of unordered pairs | `Snapshot/Structure.lean` |
| C28 | partial | writer and reader on characters | round trip by induction over lines | `Snapshot/RoundTrip.lean`, `Snapshot/Python.lean` |
| C29 | proved | particle numbering, C++ and Python | div/mod reasoning | `Star/Numbering.lean` |
| C30 | proved | bond predicate, C++ and Python | connectedness and edge count | `Star/Numbering.lean` |
| C31 | proved | structure writer and compatibility check | induction on the loops | `Star/Snapshot.lean` |
| C32 | proved | force buffers; threads in any order | sums over permutations, antisymmetry | `Star/Forces.lean` |
| C33 | proved | all pair potentials, forces and energies | derivatives of compositions | `Potentials/Props.lean` |
| C34 | proved | ring of snapshots for displacements | invariant on the ring buffer | `Instr/Msd.lean` |
| C35 | proved | ring of snapshots for normal modes | invariant on the ring buffer | `Instr/NormalMode.lean`, `Instr/Msd.lean` |
| C36 | proved | snapshots for velocity autocorrelation | invariant over all histories | `Instr/VelAuto.lean` |
| C37 | partial | iterator arithmetic, with 32 bits | closed form and enumeration | `Util/Ranges.lean` |
| C38 | partial | words as bit vectors, atomic or/and | induction on the schedule | `Util/Bitset.lean` |
| C39 | proved | generator step, all bit widths | coprimality, order of the multiplier | `Random/Lcg.lean` |
| C40 | proved | formula for unit vectors | trigonometry | `Vec/Props.lean` |
| C41 | partial | file-system trace of the store; a crash is any prefix | witnesses; completed stores by induction on the trace | `Cache/Props.lean` |
| C42 | partial | marker files and parents | recursion along parents; exact condition for termination | `Runs/Props.lean`, `Runs/JobProps.lean` |
| C43 | partial | search for the first free number | induction; pigeonhole | `Runs/Props.lean` |
| C44 | partial | parser and generator on characters | induction on the grammar; witnesses | `Runs/NodeProps.lean` |
| C45 | partial | closures with late binding | exact characterisation; witness | `Runs/Props.lean` |
| C46 | partial | particle collection with shared objects (heap) | finite sums; invariant for the cache over histories | `Particles/Props.lean` |
| C47 | proved | Eckart frame, sqrtm by its contract | matrix algebra, spectral theorem | `Particles/Eckart.lean`, `Particles/EckartProps.lean` |
| C48 | proved | loop over the list | induction; uniqueness of the specification | `Plot/Ranges.lean` |
| C49 | partial | incremental clustering | invariant: partition by reachability | `Star/Clusters.lean` |
| C50 | partial | tree of settings and paths | structural induction; witnesses | `Config/Props.lean`, `Config/Create.lean`, `Config/Equiv.lean` |
| C51 | partial | C++ with 64-bit powers against Python | loop invariants of both; exact description of the block chosen by C++, sharp bound 2^24, witness | `DDDA/Optimal.lean`, `DDDA/Overflow.lean`, `DDDA/Props2.lean` |
| C52 | proved | data handed to the plot | induction on the ordered map | `Collection/Plot.lean` |
| C53 | partial | complex vectors | inner product identities; witness | `Vec/Props.lean` |
| C54 | proved | comparison of vectors | case analysis | `Vec/Props.lean` |
| C55 | partial | job scripts, chunks of runs | induction on chunks, simulation of the script | `Runs/JobProps.lean` |
| C56 | proved | Eckart angular velocity | derivative of the frame | `Particles/EckartProps.lean`, `Particles/Rigid.lean` |
| C57 | proved | rotation frequency | linear algebra | `Particles/Rigid.lean` |
| C58 | proved | gyration tensor eigenvalues by contract | symmetric polynomials of the roots | `Particles/Rigid.lean` |
| C59 | partial | constructor of the Eckart system | witness: always raises without velocities | `Particles/Eckart.lean` |
| C60 | partial | snapshots of star polymers | round trip of C28 and C31 | `Star/State.lean` |
| C61 | partial | energy in the analysis and forces in the simulation | gradient of the total energy | `Star/Energy.lean` |
| C62 | partial | interaction table | case analysis | `Star/Energy.lean` |
| C63 | partial | creation of groups along a path | structural induction; witness | `Config/Create.lean` |
| C64 | proved | translation of deprecated settings | case analysis of the tree | `Config/Canonical.lean` |
| C65 | proved | density and flow profiles for whole measurements | induction over particles | `Profile/Measure.lean` |
| C66 | partial | normal coordinates and averages, buffer sizes with 32 bits | finite sums; exact bound; witness | `Instr/NormalMode.lean` |
| C67 | partial | choice of the snapshot to override | invariant; witness | `Instr/VelAuto.lean` |
| C68 | proved | main loop with signals as arbitrary environment | invariant on the event trace | `Sim/Main.lean` |
| C69 | partial | run directories and saved files | invariant on the file system; witnesses | `Sim/Rundir.lean` |
| C70 | partial | run states reported by the analysis | composition of C42 and C68; witnesses | `Sim/Rundir.lean` |
| C71 | partial | early saves of star polymer snapshots | invariant on the trace; witness | `Sim/StarSave.lean` |
| C72 | partial | reader on truncated files | induction on lines; the number of lines and of numbers read is bounded by that in the text, whatever it contains; witnesses | `Snapshot/Truncated.lean`, `Snapshot/Cut.lean` |
| C73 | partial | saved displacements, read and pooled | round trip of text files; permutations | `Analysis/Msd.lean` |
| C74 | partial | selection of data for a fit | filter lemmas; witness | `Analysis/Msd.lean` |
| C75 | partial | saved normal modes, read with cache | round trip; invariant of the cache | `Analysis/NormalMode.lean` |
| C76 | partial | saved velocity autocorrelations, read and pooled | round trip; witness | `Analysis/VelAuto.lean` |
| C77 | partial | value pairs from text | induction on lines; witness | `Analysis/Pairs.lean` |
| C78 | proved | histogram saved, read, averaged | error bound by induction on fills | `Analysis/Pairs.lean` |
| C79 | proved | host version of the collision | equality with the device model, order of additions | `Collide/Host.lean` |
| C80 | partial | initial states of the fluids, random generator arbitrary | big-step relation for the placement loops; witnesses | `Fluid/Init.lean` |
| C81 | partial | ordered dictionaries of points and errors | invariant over histories; witness | `Analysis/Data2D.lean` |
| C82 | partial | nearest point and extrema | loop invariant; neighbours in sorted lists | `Analysis/Data2D.lean` |
| C83 | partial | moving window | loop invariant; witnesses | `Analysis/Data2D.lean` |
| C84 | partial | points saved and read | round trip; witness | `Analysis/Data2D.lean` |
| C85 | partial | fits with the optimiser as a parameter | last success over histories; fold for the best; witnesses | `Analysis/Fit.lean` |
| C86 | partial | the snapshot files of the analysis | text lemmas, composed with the invariant of the writer; witnesses | `Snapshot/Python.lean` |
| C87 | partial | loops over snapshots, composed with the main program | big-step semantics, determinism; invariant of the run; witnesses | `Analysis/StarTimes.lean` |
| C88 | partial | flow profiles: writing the file, reading it, merging over runs, layers and the volume | composed with the invariant of C25; merging by C02; permutations; witnesses | `Profile/FlowFile.lean` |
| C89 | partial | target data specifications: stateful generators, products, settings, sweep counts | induction on generators with a heap of iterators; odometer specification; witnesses | `Runs/Target.lean` |
| C90 | partial | status of target data: run directories, configurations, caches, job states | big-step semantics, invariant of the cache; witnesses | `Runs/Status.lean` |
| C91 | proved | filters, batches of submitted runs, cluster nodes and Slurm lists | induction on lists; inversion of the node list syntax | `Runs/Status.lean` |
| C92 | partial | Fourier-transformed velocities: kernels, launches, reduction, history of measurements | thread orders as permutations; induction on launches and history; complex exponentials; witness for wrap-around | `Instr/Fourier.lean` |
| C93 | partial | files of Fourier-transformed velocities; program for the transverse velocity correlation function | inversion of text; invariant of the map from wave vectors to files; statistics of C04; general negative theorems and witnesses | `Analysis/Transverse.lean` |
| C94 | partial | tree of settings; set, read, has, createGroup, createList; libconfig by assumption | induction on the path and on the history of calls; frame lemmas; witnesses for unsigned numbers and failing calls | `Config/Cpp.lean` |
| C95 | partial | parts of the configuration, lists, assertions, comparison of names | lookup along appended paths; induction on children; witnesses for wrong exceptions | `Config/Cpp.lean` |
| C96 | proved | laws of the random numbers as measures; rejection loops as sums over the number of rejections | law of a rejection loop; analysis of the squeeze for every shape; change of variables; Tonelli for shapes below one | `Random/Gamma.lean`, `Random/Thermostat.lean` |
| C97 | proved | law of the random unit vectors on host and device | polar coordinates used twice and Archimedes' hat-box substitution; volumes are invariant under maps that preserve lengths; reflections | `Random/UnitVector.lean` |
| C98 | proved | law of the grid shift; collision cells of C17 to C19 | cells are periodic in the shift; integrals of periodic functions over a period; Tonelli | `Random/GridShift.lean` |
| C99 | partial | the spring of Gaussian dumbbells, the cubic equation, the placement "perfect" with its static variables | the cubic is strictly increasing where it can vanish; intermediate values; Gaussian integrals by integration by parts; an invariant of the placement loop | `Fluid/Dumbbell.lean` |
| C100 | partial | formulas for viscosity, diffusion, radius and relaxation time in C++ and Python; the prediction program | bounds on M - 1 + exp(-M) and on the angular factor; division of Python numbers by cases | `Analysis/Analytic.lean` |
| C101 | proved | the collision and streaming of C12 to C16 as maps of the coordinates of all particles | the map of the velocities is linear and keeps a positive definite quadratic form, so its determinant is 1 or -1; skew products; induction on the steps | `Random/Liouville.lean` |
| C102 | proved | the same with the thermostat, with laws as measures | change of variables along and across the rescaled directions with the gamma density; one cell after the other; translations of the torus; skew products; induction on the steps | `Random/Equilibrium.lean` |
| C103 | proved | the runs of C12 to C16, with the random numbers of each step made explicit | cells, layer velocities and relative velocities as seen by the observer; sums over permuted lists; rotation by the opposite axis is the inverse; induction on the steps | `Collide/Symmetry.lean`, `Random/Reversal.lean` |
| C104 | partial | the measurements of dumbbells, rods, trimers and chains, with the histograms of C24 and the statistics of C05 | filling several histograms acts on each one separately; induction on molecules and measurements; windows as a relation, shown to be unique | `Fluid/Bonds.lean` |
| C105 | partial | the constructor of simulations with the factories of boundary conditions, fluids and solutes, on the configurations of C94 | each step of the constructor is characterised by the settings it reads; the whole by composition; violations by evaluation | `Sim/Startup.lean` |
| C106 | partial | the constants of the device, what each constructor writes to them, the streaming of all fluids, histories of constructions, refusals and runs | invariant: the constants agree with the settings of the simulation; writing them again changes nothing; streaming depends on nothing else. Violations by evaluation | `Sim/Several.lean` |
| C107 | partial | the base class of the star polymer quantities on top of the cache of C41, histories of queries, updates and changes of the data of the run | refinement: the files hold what an abstract memory of the last computed values says; corollaries for refreshed histories; violations for all quantities and histories of a kind | `Cache/Quantity.lean` |
| C108 | partial | `saveToFile` of density profiles and the reading, nested dictionaries and averaging of DensityProfile.py, on top of C65 | reading the lines is a fold over the points; the dictionary for given x and y is a fold over the points with these coordinates; with C65, in terms of the particles. The violation is proved for all subdivisions other than 1 | `Profile/DensityFile.lean` |
| C109 | partial | the interactive plotter: parsing of files, dictionaries as shared objects, plots, lines on the canvas, list of characteristics | invariant over all histories: the canvas is a permutation of the lines of the shown plots; folds over the lines of files; frame lemmas for dictionaries; violations for all pairs of files | `Plot/Interactive.lean` |
| C110 | partial | constructor, destructor, copying and communication of the MPI wrapper, as operations on the state of the MPI library; broadcast with the conversion of the size to int | induction over the histories that keep to the documented rule (invariant: exactly the first instance has the flag set); arithmetic of the conversion; violations for all instances | `Util/Mpi.lean` |
| C111 | partial | the script that writes the version file, including the replacement by sed, the description and the search for bug fixes by the analysis package; git describe as a relation | case analysis over all outputs of git describe; string lemmas; reachability in the history is transitive; violations for all repositories with annotated tags | `Util/Version.lean` |
| C112 | partial | the drawing of random speeds, with the rejection loop, as the law of what is returned | change of variables for the logarithm, polar coordinates in a quadrant for the loop and for the product, exchange of integrals | `Random/Speed.lean` |
| C113 | partial | the fluid's arrays on host and device, copying, snapshots, searching, the kernel for centres of mass with its launches | induction over histories; the loop as a filter; induction over the order of threads | `Fluid/Mirror.lean` |
| C114 | partial | the initialisation of positions and velocities as assignments in order | assignments are to places (C29); squared distances by the addition theorem; roots of unity sum up to zero | `Star/Initial.lean` |
| C115 | partial | the plot of the profile up to the arguments passed to matplotlib, with the visibility of names in both Python versions; the sliders and the update of the vector field | the comprehensions as maps; induction over the history of moves | `Profile/FlowPlot.lean` |
| C116 | partial | the class as functions on a memory of components, the conversions through FP as a parameter; atomic additions as steps in any order | refinement to an array of vectors by induction over the history; sums over permutations | `Vec/Remote.lean` |
| C117 | partial | the seed as a function of the two clocks, reduced to 32 bits | congruences, pigeonhole principle | `Sim/Status.lean` |
| C118 | partial | the signal handler folded over all signals, arriving at any point of the histories of C68; the exception handlers of main; the parser of the command line is a parameter | induction over the signals; the first prefix at which the program is aborted; case distinction | `Sim/Status.lean` |
| C119 | partial | the values of binary floating-point types and of decimal texts as sets of reals, writing and reading as choosing a nearest element; the precisions used in the code | distance of neighbouring values against the rounding error (2^p < 10^(N-1)), witnesses | `Util/Decimal.lean` |
| C120 | partial | the functions of C17 and C18 with every operation rounded to a nearest floating-point number, ties in any way; products fused with subtractions give the same since the products are exact | spacing of floating-point numbers: quotients never round up to an integer, differences are exact except just below zero | `Collide/Rounded.lean` |
| C121 | partial | unserializeFromString of the C++ blocking analysis, with its split text, checks and loops | induction over the blocks; correspondence of the C++ and the Python state; case analysis for all texts | `DDDA/Cpp.lean` |
| C122 | partial | the sample statistics, blocking analysis and autocorrelation of C01, C04, C05 and C09, applied to random data on any probability space | expected values of sums of squares; variances of sums of independent data; the variance of the sample standard deviation is its bias | `Stats/Unbiased.lean` |
| C123 | proved | the accumulation of the simulation time and the decisions of the velocity autocorrelation instrumentation, with rounding of every operation | relative error of one addition (exact for tiny sums), compounded; rounding is monotone; simulation of a machine that counts sweeps | `Sim/Time.lean` |
| C124 | partial | copying, zeroing, comparing and allocating Device memory, byte by byte, with the conversions of counts to unsigned int and std::size_t, in debug mode or not | frame conditions for each request, lifted to histories; arithmetic modulo 2^32 and 2^64 | `Memory/Contents.lean` |
| C125 | partial | the script for relaxation times, reading the file as text, with dictionaries as lists of entries in an arbitrary order of iteration; the file as saved by the simulation (C66) | grouping lemmas for insertion into dictionaries, by induction over the lines; composition with the theorem on the file saved | `Analysis/Relax.lean` |
| C126 | partial | the scripts plotting dumbbells: the cubic equation solved by numpy (all complex roots in any order), the predictions, reading the runs, grouping and sorting the points, titles and data blocks | roots of the cubic over the complex numbers; Lyapunov equations of the stationary moments; permutation and sortedness of the grouped points | `Analysis/DumbbellPlots.lean` |
| C127 | partial | transverseVelocityCorrelationFunction.py: reading wave vectors and velocities, sorting by time, products by stride summed over runs, normalisation | induction over runs with the invariant that the strides hold the sums over all runs so far; scaling invariance of the perpendicular part | `Analysis/TransversePy.lean` |
| C128 | partial | NormalModeAutocorrelation.py, LogicalEntityMeanSquareDisplacement.py, velocityAutocorrelation.py: tables and lists as text, breaking off at exceptions | composition with C75, C73, C76, C05, C06; induction over rows with the invariant that the cache is the result of calls; induction over JSON strings | `Analysis/Tables.lean` |
| C129 | partial | plotMeanSquareBondLengths.py, compareSelfDiffusionCoefficientMeasurementTimes.py, plotFlowProfileParabolaDistortion.py: nested dicts, text sent to gnuplot, groups | induction over the runs (last run with the same settings); reading back commands and data blocks from the text; induction over groups | `Analysis/Overview.lean` |
| C130 | proved | collisionCellContributions, getCollisionCellCenterOfMassVelocity, collisionCellStochasticRotationStep1/2, rotateAroundNormalizedAxis, getUnitVectorFromRandom01, each operation with an error | error bounds for each operation, as a relation that holds for rounding to nearest and for fused operations; induction over the atomic additions; linearity of the rotation for any axis; induction over cells and collisions | `Collide/Drift.lean` |
| C131 | partial | OnTheFlyStatistics (C++ and Python) and the blocks of OnTheFlyStatisticsDDDA, with each operation rounded to nearest, fused or not | the new mean lies between the previous one and the datum, as the rounded change does not go beyond it (by cases whether the difference is representable); induction over data and blocks; recurrence of the errors | `Stats/Rounded.lean` |
| C132 | partial | eigensystem of the gyration tensor, angle between lines, orientation angles and their curves; cosines with each operation rounded | spectral theorem for existence; quadratic form bounded by the extreme eigenvalues; Cauchy-Schwarz; a representable number is at most the rounded root of its rounded square | `Particles/Orientation.lean`, `Particles/OrientRounded.lean` |
| C133 | proved | additions of forces in any order, division by the mass and second velocity-Verlet step, each with a relative and an absolute error; the same with each operation rounded | exact contributions cancel by antisymmetry; errors of sums and of the velocity update bounded per particle; induction on the number of steps | `Star/Rounded.lean` |
| C134 | proved | the velocity Verlet kernels as in C22, with collisions in between | a quantity quadratic in positions and velocities is conserved exactly (weak form of the spring forces); the sum of squared accelerations is bounded by the spring energy; eigenvectors of the step for long time steps (for chains, standing waves) | `Verlet/Energy.lean`, `Verlet/Waves.lean` |
| C135 | proved | the streaming kernels as in C22 and C23, time steps of star polymers as in C32, collisions as in C13 | the torque of spring forces telescopes; the torque of pair forces is half the sum over ordered pairs of the moment of the force about the other particle; witnesses for dipoles and for collisions | `Verlet/Angular.lean`, `Star/Angular.lean`, `Collide/Angular.lean` |
| C136 | partial | the constructor of the star polymers on trees of settings, as in C105; the class of the analysis on the same tree, as in C50 | the readers are characterised by a specification with paths of names; the analysis by translating the tree | `Star/Settings.lean` |
| C137 | partial | Vector3DReal objects in a store, calls as operations on it; the values computed as in C11 and C12 | case analysis of each call; induction on programs | `Vec/Objects.lean` |
| C138 | partial | the inner product of thrust as an arbitrary tree of additions (with or without fused multiply-add) with rounding of each operation, the loop on the host, the check in debug mode, and the kinds of `new` and `delete` (`Instr/Reduction.lean`) | induction over the tree of additions with the number of roundings on the way to the root; witness of two constituents for the absolute tolerance | `Instr/Reduction.lean` |
| C139 | partial | the constructors of all measurements, for each kind of fluid, on the configuration tree, and of the overall instrumentation (`Sim/Measurements.lean`), as the `measure` parameter of the model of starting a simulation (C105) | equivalence of each constructor's success with a specification in terms of paths in the tree; lists of histograms by induction | `Sim/Measurements.lean` |
| C140 | proved | standard deviations, the uncertainty of standard errors, the check for reliability, the lists plotted, comparison and text of the Python class (`DDDA/Estimates.lean`) | from the block contents (C05, C07) and the choice of the block (C06); equality by induction over the blocks: data are constructed that make any given value arrive at the next block, and the variances after them determine size, mean, deviations and pending datum | `DDDA/Estimates.lean` |
| C141 | partial | `saveToParameterFile`: additional parameters, order, the loop that writes both lines (`Config/ParameterFile.lean`), on the flat dictionary of C50 | induction over the loop; splitting at separators gives back the columns; sorting as a permutation in strict order | `Config/ParameterFile.lean` |
| C142 | partial | every request for and return of device memory in the constructors and destructors of `Simulation`, the fluids, their instrumentation and star polymers, with stack unwinding (`Memory/Simulation.lean`), on the memory manager of C21 | invariant relating pointers, the registered sets of both managers and the allocated memory, through every request and return; membership of each pointer in what is constructed and what is destroyed | `Memory/Simulation.lean` |
| C143 | partial | `MPCDAnalysis::File`: which file is opened, reading lines, the header, properties; `openPossiblyCompressedFile` (`Analysis/DataFile.lean`) | cases on which files exist; induction over lines and over the header; the formats are written down independently of the splitting | `Analysis/DataFile.lean` |
| C144 | partial | `getConfigValueAndCheckConstistency`, `getConsistentConfigValue`, comparison of values in Python (`Config/Consistent.lean`), on the configurations of C50 | induction over the runs; equality of values as an inductive relation that is symmetric and transitive | `Config/Consistent.lean` |
| C145 | partial | output streams with base, fill character and width, `getPCIAddressString`, the format of `getCurrentUTCTimeAsString`, the text of `metadata.txt` (`Sim/Metadata.lean`) | digits in base sixteen are read back; lexicographic comparison field by field; splitting at line ends gives back the entries | `Sim/Metadata.lean` |
| C146 | partial | the text of the plot files of script and program, their names, the table of metadata; reading by `provideDataFile` (`Plot/Plotfiles.lean`) | splitting into lines and at `=` gives back the entries; the plotter (C109) is run on the text; quoted lists are cut at the quotation marks | `Plot/Plotfiles.lean` |
| C147 | partial | lines, legends, and texts of plots; `mergeAxes`, `list(set(…))` as any list with the same elements, each once; plots of scalar and vector quantities (`Plot/Merge.lean`) | induction over the plots: the labels so far are as many as the lines so far; joining by induction | `Plot/Merge.lean` |
| C148 | partial | `plotDashedIfNegative`: lines with coordinates, style, colour, label; bounds of the shaded region (`Plot/Dashed.lean`) | the ranges of C48 turned into lines; the segments drawn are the successive pairs of equal sign, by induction over the ranges | `Plot/Dashed.lean` |
| C149 | partial | `getArithmeticMean`, `getRootMeanSquaredDeviationFromArithmeticMean`, `getAverageFromSimpleMovingAverage`, `plot` (`Analysis/Data2DStats.lean`) | sums over lists; bounds as an invariant of the loop over windows; positions of every nth point by induction | `Analysis/Data2DStats.lean` |
| C150 | partial | host and device buffers of star polymers, fetching, pushing, `getPosition`, `getVelocity`, saving and restoring states (`Star/Mirror.lean`) | histories as lists of operations folded over the state; the reading of blocks from C28 (`Snapshot.Reads`) | `Star/Mirror.lean` |
| C151 | partial | check boxes, scales, list of plots with sorting and tick marks (`Plot/Controls.lean`) | invariant over lists of actions; sorting by `List.mergeSort` for any total and transitive comparison; first column by prefixes of the list of characteristics | `Plot/Controls.lean` |
| C152 | partial | kernels for the velocities of centers of mass of doublets, triplets, chains, with launches and `unsigned int` arithmetic (`Instr/CenterVelocity.lean`) | launch theorem C20 for any order of threads; bound on thread numbers by induction on the launch loop; counterexample for triplets for every fluid | `Instr/CenterVelocity.lean` |
| C153 | partial | `getMeanSquareDisplacement`, `getAutocorrelation` and the functions for their ranges, with the checks of the debugging mode (`Instr/Access.lean`) | from the invariant of the ring of snapshots over all histories (C34, C35) and the averages of C66 | `Instr/Access.lean` |
| C154 | partial | `Vector3D.py` as Python objects on a heap, with the operators of Python 2 and 3 (`Vec/ComplexObjects.lean`) | induction over histories of calls; violations for every vector | `Vec/ComplexObjects.lean` |
| C155 | partial | `StridedPointerIterator` and `StridedPointerIteratorRange` as objects, with the checks on the host and without them on the device (`Util/StridedIterators.lean`) | closed form of the position by induction over histories of calls; violations for every length and stride | `Util/StridedIterators.lean` |
| C156 | proved | `Vector2D` over real and complex numbers (`Vec/Plane.lean`) | Cauchy–Schwarz; angles through arccos and polar coordinates | `Vec/Plane.lean` |
| C157 | partial | `plotDumbbellAlignment.py`: reading, collecting, and sorting of the points, and the rows of the theory (`Analysis/AlignmentPlot.lean`) | equivalence with a specification by `Forall₂` and permutations; induction over the run directories | `Analysis/AlignmentPlot.lean` |
| C158 | proved | the body of the loop in `GyrationTensor.py` (`Particles/TensorRow.lean`), with the tensor and eigensystem of `Particles` | second moments, quadratic forms, and the trace through a triple product | `Particles/TensorRow.lean` |
| C159 | proved | `constructGPURNGs`, the kernels using generators, and the parts of `collide` launching them (`Sim/Generators.lean`), with the launches of `Launch` | invariant on the words used; each thread changes only what belongs to its cell | `Sim/Generators.lean` |
| C160 | proved | `getSimboxByRundirs`, `getWaveVectorFromIntegerComponents` and the fit in `transverseVelocityCorrelationFunction.py` (`Analysis/Viscosity.lean`) | induction over runs; a sum of squares that is zero, and injectivity of the exponential | `Analysis/Viscosity.lean` |
| C161 | partial | `DataManager.selectProject`, `getProject`, `getProjects` (`Runs/Selection.lean`) | induction over histories of calls; the configured part of projects is invariant | `Runs/Selection.lean` |
| C162 | proved | `StaticData` with `readline`, `extractFloat`, `__getitem__` (`Analysis/StaticData.lean`) | induction over lines; finding a text gives its first occurrence | `Analysis/StaticData.lean` |
| C163 | proved | `Registry` and its only instance (`Analysis/Registry.lean`) | induction over histories of calls | `Analysis/Registry.lean` |
| C164 | partial | `arithmeticMean_kernel`, `arithmeticMean` (`Stats/DeviceMean.lean`) | invariant of the interleaved steps of threads; sums as trees whose leaves are a permutation of the values | `Stats/DeviceMean.lean` |
| C165 | partial | `plotDumbbellXYCorrelation.py` (`Analysis/XYPlot.lean`) | induction over runs; sorted lists with the same elements are equal | `Analysis/XYPlot.lean` |

## Where the code violates a property

For each of these the negation is proved with a witness, and what does hold is proved as well.

* **C07** Everything but the last sentence is proved; the last sentence (self-merge) is false for the code, C07_selfMerge_violated is a witness.
* **C08** The documented exception type is not always the one raised: the string '1' raises IndexError instead of ValueError.
* **C10** All parts proved except that a rejected call leaves the collection unchanged; that is false, witness C10_rejected_violated; C10_rejected_partial says what a rejected call does.
* **C24** Proved in exact arithmetic for at least one bin; conservation of counts for any rounding as long as no memory outside of the bins is accessed. Violated in double precision: a value just below the upper end can be assigned a bin past the last one. In floating-point arithmetic: values are counted, and in the right bin, unless they are closer to a boundary between bins than 7 n 2^-p of the size of a bin (n bins, p bits of precision); the bin chosen never is more than one past the last; if the range begins with zero and the size of the bins is a power of two, all are counted in the right bin. Writing the file: C78.
* **C26** Proved for builds without OPENMPCD_DEBUG. In debug builds, redeclaring exactly an existing range that is followed by another one fails an assertion.
* **C28** Proved for every history of calls whose names and types contain neither white space nor commas, assuming that numbers are read as they were written (17 digits). Violated for names with commas, which are accepted but make the file unreadable. For the Python class, see C86.
* **C37** Strided ranges and pointers: proved. Bunched ranges: proved for at most 2^32 elements; violated beyond that, since positions are computed in 32-bit arithmetic.
* **C38** Proved for every schedule if the memory allocated is sufficient for the bits. Violated by the constructor: it uses a member before it is initialised, so that the amount of memory allocated is indeterminate.
* **C39** For types of at least 64 bits, as on 64-bit systems with glibc; includes the full period. On platforms where uint_fast32_t has 32 bits, the generators get stuck at zero (shown).
* **C41** The crash-safety statement is false for the code: the metadata is written before the data, so an interruption while the data is written leaves any prefix of it under valid metadata (C41_interrupted_violated), an interruption between the two files, or storing an unsupported type, leaves old data under new metadata (C41_stale_violated), and data stored under a separate write path is never found (C41_writePath_violated). Proved: completed stores are read back exactly and touch no other file.
* **C42** The state table is proved for every file system, every working directory and every translator list. Termination holds exactly if there is no infinite chain of parents (C42_terminates_iff); it fails for a run recorded as its own parent. Path translators are not handed on to parents (C42_grandparent_violated).
* **C43** Proved for all file systems; projects without rundirNamePrefix always raise TypeError, so the claim fails for them (C43_no_prefix_violated).
* **C44** Proved for lists of hosts with at most one bracketed plain range without leading zeros and for generated lists; false for zero-padded ranges, several brackets, lists between brackets, and the empty list.
* **C45** False for two or more different translators (late-binding closures); what is applied instead is characterised by C45_actual. Proved for at most one translator and for the project's own translator.
* **C46** Proved: centre of mass, shift, gyration tensor definition and invariances, freshness of the cached tensor over all histories. Rotation is proved for collections whose vector objects are not shared; with shared objects, without velocities (shift) and for comparison without velocities the code violates the claim (theorems *_violated).
* **C49** Proved for magnetic particles at pairwise different positions. Violated when two magnetic particles have the same position: clusters are compared by value, so particles are lost. Python recursion limit not represented.
* **C50** Proved for whole configurations; setting and deleting for settings of groups and (setting) elements of arrays. Violated: elements of lists cannot be set or deleted; membership in parts of configurations raises or is wrong for paths through lists; numbers of different types are equivalent in groups but not in lists. The lookup function of pylibconfig2 is assumed to walk the tree.
* **C51** Proved for all histories in which block 23 has no variance, in particular for less than 2^24 data; false for 2^24 data (C51_sharp). C51_exact says for every history what the C++ class chooses: from block 22 on, cubes of block sizes are zero modulo 2^64, so that if the first block to meet the criterion is 22 or later, the last block is chosen.
* **C53** Rotation of vectors with non-real components does not preserve lengths (witness C53_rotation_violated); proved for real components.
* **C55** Proved for run directories given by absolute normalised names; false for relative names (the first run of a chunk becomes its own parent).
* **C59** Violated: without velocities the constructor raises ValueError, for every such reference configuration (C47_construct_violated). With velocities it succeeds (construct_eq).
* **C60** Restoring and rejection of other geometries are proved (numbers read as written assumed). Violated: reading after the last state is not reported.
* **C61** Proved wherever the analysis reports an energy, for non-negative energy parameters and arms with particles other than the magnetic one. Violated: no energy is reported without magnetic particles, without configured dipole orientation, or if it is not normalised.
* **C62** Proved for arms with particles other than the magnetic one. Violated for arms that consist of the magnetic particle only.
* **C63** Proved for groups that do not exist and for groups right in the configuration. Violated for nested groups that exist: the whole path is taken as the name of one setting, and the call raises.
* **C66** Coordinates: proved. Averages: proved if there are at most 2^32 components in total. Memory: the size asked for lacks a factor of three, which is made up for by the size of an element being applied twice; sufficient below 2^29 normal coordinates, violated beyond.
* **C67** Proved if all snapshots have been taken or none of those taken so far is overdue. Violated in general: snapshots are overridden though less than the configured number have been taken.
* **C69** A single run changes no existing file, and a directory with results is rejected. Violated for two runs started in the same second (default name) or before the first one saves: both use the same directory and the second replaces the metadata of the first.
* **C70** The number reported is the number performed; a killed or still running run is not reported as completed. Violated: a run ended by a signal, the runtime limit or an exception is reported as completed too.
* **C71** The files of the early saves and the final one together contain one snapshot per measurement, in order; without early saves the final one contains all. Violated: an early save moves the star polymer snapshots taken so far out of the final file. Only the star polymer snapshots are modelled; the other instruments save without changing their state.
* **C72** Proved for files breaking off at any point before the last number of a timestep, within a line or at its end (C72_anywhere_partial), except for a single atom with velocities; and for timesteps with mixed lines. Violated for files breaking off within the last number, where a shortened number is accepted, and behind the position of a single atom, which is taken for one without velocities.
* **C73** Proved for everything the simulation saves. Violated for invalid files: a time difference which is not configured causes a KeyError instead of the documented ValueError. Numbers exact apart from the rounding when printing.
* **C74** Violated: the maximum given is never used, although it is documented to be the maximum value used. The fit itself (scipy) is not modelled.
* **C76** Proved, but a record is discarded only if its later time is smaller than the minimum. Violated: a record whose earlier time is smaller than the minimum is used. Arithmetic is exact except for the rounding of printed numbers; times are printed exactly.
* **C77** Violated if a minimum is given: the documentation says that pairs with a key smaller than the minimum are added and others ignored; exactly the opposite is done. Which of compressed and plain file is opened is not modelled; no NaN.
* **C80** Proved for all random numbers if construction ends and the velocities are numbers (which they are exactly if not all velocities drawn are equal). Violated: with a single particle and a configured temperature the velocities become NaN; particles in a chain are all placed relative to the first one, so that consecutive particles need not have distance 1; placement never ends for chains in a box of side length 1 (first particle at the centre) and for bonds longer than the diagonal of the box. Exact arithmetic; the positioning "perfect" of dumbbells is covered by C99.
* **C81** Proved for points, order and values, and for errors if either all values are given with an error or none is. Violated: if a point is given a new value without error, the error of its previous value is reported for the new one.
* **C82** Nearest point, maxima and minima proved in full; the local extrema for Python 2. Violated: with Python 3, getLocalExtrema always raises TypeError.
* **C83** Proved if moving a run by one point does not change whether it is as wide as the window, in particular for equidistant points. Violated for other points: at most one point is dropped from the window for each point added, so that means are over too many points; and a point is dropped even if the next points are then not wide enough, so that averages are missing.
* **C84** Proved for points without error (if printing does not make two of them coincide). Violated: points with an error are written with three columns, which are skipped when reading.
* **C85** Proved except for: bounds of the wrong length raise TypeError instead of the documented ValueError; comparing a fitted instance to an unfitted one raises TypeError (but not the other way round); a fit with one parameter may equal one with several, since arrays of length 1 are repeated in comparisons. The optimiser is a parameter.
* **C86** Reading what the simulation has written is proved for every history of calls (names without white space and commas). Writing and reading in the analysis is proved for Python 2. Violated: a file that breaks off at the end of a line yields a timestep with fewer particles; the end of the file looks like a timestep without particles; in Python 3, writing a timestep raises AttributeError after its first line, and opening a compressed file raises TypeError.
* **C87** Proved for runs with sweeps of one timestep and without early saves. Violated for every other sweep size, since the analysis takes the snapshots to be one timestep apart, and for runs with early saves, whose final file lacks the snapshots taken before. Exact arithmetic; the values are computed by a parameter, which may raise.
* **C88** Proved for any number of runs with one output block each and without subdivision, with the numbers in the files rounded by any rounding. Violated: with subdivided cells, reading raises ValueError; with several output blocks, the profile is empty and the statistics contain no data; with Python 3, compressed files cannot be read; a run whose file breaks off is added in part.
* **C89** Proved for the first call with any generators used once, and for every call if the generators are lists. Violated: generator objects, which the documentation asks for, are exhausted at the second call, and if one is used in two lists the second list gets no elements; a part that creates a group which the base configuration already has makes the call raise.
* **C90** Proved for data paths that match run directories with readable files only. Violated: overlapping data paths make runs count twice; a directory that is no run directory makes every call raise; a run that has been started by hand makes the call raise if the target is not reached; the configuration file is required even if the data paths are given.
* **C92** Proved unless particle numbers come close to 2^32. Violated: with chains of very many particles (e.g. 2^24), numbers wrap around, and threads write outside of the buffers. For a fluid without constituents the average has no meaning.
* **C93** Proved for correlation times less than the maximum, if each wave vector is non-zero and has at least two pairs of measurements for each correlation time, and measurements are one time step apart. Violated: with mpc.sweepSize other than one the times are wrong; the maximum correlation time itself has no row; the program breaks off if measurements are too short, or if a wave vector is zero; backup copies of data files are counted as further data. The columns with the block analysis are not modelled here (see C51).
* **C94** Proved for all histories, except: an unsigned number of 2^31 or more is stored as a negative number, without an exception, and read as zero (the comparison that is to detect this is always true); a negative number is read as the unsigned number zero; a failing call may leave behind the groups it created. What is assumed of libconfig is in the file of the model. Reading and writing of files and copies are not modelled.
* **C95** Proved for names without empty parts. Violated: asking for a list where there is something else throws Exception instead of the documented InvalidConfigurationException; whether a name with two dots in a row is rejected depends on the contents of the configuration.
* **C99** Real numbers; gsl_poly_solve_cubic is assumed to find the real roots. The mean square lengths in the flow are those of the theory on which the code relies; they are not derived from the dynamics. Violated: a further fluid constructed in the same process is placed with the bond length of the first one, since the displacement is kept in a static variable. A second fluid in the same process also ignores its configured way of placing molecules.
* **C100** Real numbers. Violated: in Python 2, integers for temperature, mass and time step make the kinetic contribution zero (integer division); proved for Python 3 or a time step of type float. C100_one_dimension_violated shows that two dimensions are needed.
* **C104** Violated for trimers: the histogram of the product of the x and y components of the second bond uses the x component of the first bond. Violated for a self-diffusion measurement time that is not positive (division by zero), and saving the chains throws if there are less than two data per bond. Real numbers; no bond is parallel to the z axis where its angle in the xy plane is taken (undefined behaviour otherwise, shown as an example).
* **C105** C105_starts says exactly which configurations start and as what. It shows violations: dumbbells never start with the deprecated style of boundary conditions; the volume is computed modulo 2^32; unknown settings beside a known fluid, and two fluids, are accepted; trimers with analytical streaming start but cannot be run; negative numbers count as zero, so that molecules may never move; and a time step of 0.3 is refused with one of 0.1 for the solute, because of rounding. The measurements and star polymers may refuse a configuration for reasons of their own (parameters).
* **C106** Holds if, whenever a simulation is run, only simulations with the same settings have been constructed (or refused) since it has been. Violated otherwise, since settings are kept in constants shared by all simulations: a simulation then streams with the time step and the number of particles of another one, even of one that could not be constructed. The guard against a second simulation of dumbbells never fires. Streaming is modelled for all fluids; the collision step and the solute are arbitrary functions of what they read. Measurements are not included.
* **C107** C107_exact says for every history which data a result comes from. The statement holds if every change of the data has been followed by a forced update, for values whose text can be read back, and without restriction if data are written elsewhere and none are where they are looked for. Violated otherwise: the metadata do not identify the data of the run, so old values are returned once the run has gone on; values that cannot be read back raise an exception from the second call on; with a separate write path, not even forced updates change what is returned. Computing the quantities and turning values into text are arbitrary functions.
* **C108** C108_exact says for all grids and measurements what is shown: the density times the volume of a part of a cell. That is the density if cells are not subdivided (C108_partial), and is not for any other subdivision, wherever there is mass (C108_violated): masses are not divided by the volume of the parts. Exact real numbers, rounded in the file; at least one measurement; sizes within the range of unsigned int. Plotting itself is not modelled.
* **C109** The canvas is proved right for all histories. Characteristics are right for directories, and for files with a dictionary that is not used for a further file. Violated for files provided without characteristics, which all share one dictionary: each has the characteristics of all others, where the first file wins, also files which were refused. Setting the order of characteristics does not take effect until something else changes. Not modelled: windows, sorting, widths of columns; drawing a plot is an arbitrary function of the style and the data.
* **C110** Lifetimes are proved for all histories that keep to the documented rule, and for all histories if MPI was running before. Broadcasting is proved for less than 2^31 bytes, and violated from there on: the number of bytes is converted to int, so that more either fail, or are silently not sent. Instances can be copied, which ends the program at the end of the second copy; instances constructed too late are not refused. The MPI library itself is modelled by what the standard demands.
* **C111** The version of the program is right for histories without annotated tags, and wrong for all others: it starts with the name of the tag, or is the placeholder if that name has a slash. Without a repository, the version of an earlier build stays. The description by the analysis package is right unless the current commit has an annotated tag, in which case it has the id of the tag object. Freedom of known bugs is never claimed wrongly, and is kept by descendants, but is denied to commits from before the bug was brought in. Git, libgit2 and sed are modelled by what they are documented to output.
* **C112** The distribution is proved exactly, for random numbers that are uniform in [0, 1), and real numbers. With floating-point numbers, a random number may be zero, and then the speed is infinite.
* **C113** The search appends to the vector passed: what it held before stays, although the count starts at zero. After setting, the former positions are returned until the next fetch (documented).
* **C114** Holds for one star with at least one arm (two, for the centre of mass). With more stars, the others' positions are not set (an exception only in debug mode); without arms, the core's is not. With more than six arms, particles of different arms start closer than bonded ones. The bonds start beyond their extensibility if sigma is small.
* **C115** The standard errors are computed with the number of data of the layer iterated over last (a variable that leaks from a list comprehension in Python 2); in Python 3, NameError is raised instead, for every non-zero factor. The display takes the coordinates along y from those along x of the second output block: fewer than two blocks raise IndexError, boxes longer along x than along y raise KeyError, and for shorter ones rows are missing. A layer without data prevents the whole plot.
* **C116** The third component is read, and the second and third ones are set, by way of FP, so that precision is lost if the components are of a wider type (not the case for the types used at present). If vectors overlap because arrays with different beginnings are used, assignment overwrites components before they are read if the target begins later.
* **C117** Holds for programs started within 4.29 seconds on one computer. The seed is the sum of a time in seconds and one in nanoseconds, both reduced to 32 bits, so that 4.294967292 seconds later the same seed occurs again; seeds on two computers coincide exactly if the computers were started a multiple of 2^32 nanoseconds apart.
* **C118** A command line that is refused leads to exit status 0 (the handler does not return), printing the help to 1; runs ended early by a signal or the time limit report success; a second request to end aborts the program at once, and nothing measured is saved.
* **C119** Holds for double with the precision set in the C++ code (17 digits). One digit is missing for float (statistics of such numbers can be saved). Bond lengths of Gaussian chains are written with the default precision of streams, six digits. Under Python 2, the analysis writes 12 digits, also to the configurations of simulations.
* **C120** Holds for all coordinates except those just below zero (by less than half the distance of the box length to the next smaller floating-point number): there, the image is the box length itself, outside of the volume, and for the third coordinate the cell index is beyond the last cell. The violation is proved for all such positions. The number of box lengths subtracted is always exact.
* **C121** Restoring is proved for all data (less than 2^64) and all Python histories. Refused texts leave the object as it was. Violated: for texts without separator which are the number 1, an element past the end of a vector is accessed; and texts are accepted whose blocks do not fit each other. Which numbers keep their value when written is C119.
* **C122** Proved in exact arithmetic, for data that are pairwise independent with the same distribution, or (means, blocks, autocorrelation) for correlated data. Violated for the sample standard deviation, which is documented as unbiased: its expected value is too small unless it is the same for all data.
* **C124** The CUDA runtime is modelled by its contract. Violated: a DeviceBuffer asks for sizeof(T) times as many elements as it should, as unsigned int, so that from 2^29 doubles on it is too small; the momenta of more than 2^32/3 collision cells do not fit the memory requested for them; after an earlier error, a pointer to Device memory is said to point to Host memory.
* **C125** Proved for files with the four columns the script expects, with the average at the first difference iterated over in place of that at zero; these are the same if the first line for each mode has difference zero and dictionaries keep the order of insertion. Violated: the simulation writes files of another format, at which the script breaks off at the first line unless chains have one particle (then it takes correlations for mode numbers); if the first difference iterated over is not zero, the value at zero is not one. Plotting and the header line of saved files are not modelled.
* **C126** Roots and moments without rounding errors; roots in any order (if the real one does not come first, an exception is raised). Violated: for runs of the old kind, which the script provides for, it breaks off as variables are not assigned; runs of the graphics processor prototype are read, but then make it break off. How the means are computed from the files is the subject of other properties (C77, C78, C81).
* **C127** Proved with Python 2 and for components perpendicular to the vector of integers instead of the wave vector; C127_box shows that this is the same exactly if the box has the same length in all directions in which the wave vector has components. Violated: otherwise, velocities along the wave vector count as transverse; with Python 3, the script always breaks off. Exact arithmetic; the fit, the viscosity computed from it, and the header of the file are not modelled.
* **C128** Proved if there are at least two data for each row, and for paths without quotation marks, backslashes, and control characters. Violated: with fewer data the script breaks off, leaving an incomplete line and no other file; paths with quotation marks make the list ambiguous; the list is saved even if the documentation says that the option is ignored. Exact arithmetic, numbers written with the precision of the text. The parameter file of the displacement script and its fits are not modelled here.
* **C129** Proved if no two runs have the same settings, for theory files that end with a line break and at least one run, and for groups with Python 2. Violated: of runs with the same settings, only the last is shown; a theoretical curve alone is not plotted; the data of a theory file without final line break do not end; groups cannot be named with Python 3. The numbers of a run are taken as given; the text sent by the script for groups is not modelled.
* **C131** Violated: merging two samples of five data each, all being 2^53 - 1, yields the mean 2^53 - 2 with double precision, whatever the rule for ties. Also, the error of the variance is not small relative to the variance itself: for the data 1 and 1 + 2^-52 it is as large as the variance. Supposed: at least 6 bits of precision, and differences of data below the largest power of two; for the bounds of the errors, that squares of the data are neither too large nor subnormal.
* **C132** numpy.linalg.eig is represented by its contract: three linearly independent unit eigenvectors with their eigenvalues, in any order. Violated: if there is no single direction of the most extent, the angle is whatever numpy returns (C132_degenerate); for the axis [2, 1, 0] and a molecule along it, double precision yields a cosine above 1, and thus no number (C132_axis_violated).
* **C133** Forces between pairs are any numbers; that the same number is added to one particle and subtracted from the other is modelled. C133_rounding: rounding each operation to nearest satisfies what is supposed of arithmetic. C133_exact_violated: the momentum is not conserved exactly in double precision.
* **C135** Exact arithmetic. C135_magnetic_violated and C135_collision show that the two exceptions named in the statement are needed: for every mass and time step with a magnetic interaction of dipoles along z, and for every angle of rotation that is not a multiple of a full turn.
* **C136** Proved in full: exactly which configurations are accepted, as what, and how this enters the start of a simulation (C105). Not true of the code, with witnesses: masses of zero and negative masses are accepted; no stars, or a negative number of them, are accepted; with a negative number of arms, simulation and analysis differ on the number of particles; without a configured mass, the simulation uses 1, and getParticleMass of the analysis raises KeyError. C136_agree_partial assumes numbers that are not negative, and a mass that is configured.
* **C137** Not true of the code: closeness depends on which vector is asked, as with numpy.allclose (C137_close_violated; symmetric without relative tolerance, C137_close_partial); iterating over any vector raises KeyError, since __getitem__ does so for index 3 (C137_iteration_violated). The rest is proved in full, for exact numbers.
* **C138** Accuracy and agreement are proved; the check does not throw if twice the error is below its tolerance, which is so for up to a million constituents and components of velocities up to 1 in double precision. Violated: the tolerance is absolute, so for large velocities the check stops correct computations; and it gives back arrays with the operator for single objects, which is undefined behaviour.
* **C139** Proved as an equivalence for simple fluids, chains, and the profiles; and for all fluids, that what is measured is what is configured. Violated: simulations of dumbbells, rods and trimers do not start unless every one of the measurements of their kind is configured; settings for measurements of other kinds of fluid, misspelt settings within a measurement, and histograms without bins are accepted, the former without effect.
* **C141** Proved for non-empty names, and names and values without tabs and ends of lines. Violated: a value with a tab, which configurations allow, is saved as two columns; an additional parameter with the empty name merges two columns of values; with assertions disabled, an additional parameter replaces a setting of the same name. The texts of numbers are those of `str`; that they are different from the other notations is a hypothesis of C141_decode.
* **C142** Proved for every construction that succeeds, and for every rejection of the configuration of the fluid or its measurements. Violated: if the step size of the star polymers does not divide the one of the simulation, all buffers of the simulation and the fluid are lost (and reported); if the initial state of the star polymers is rejected, the potentials created for them are lost silently. Host memory, the DeviceBuffer instances and failing `new` on the device are not modelled; after a failing cudaMalloc nothing is claimed.
* **C143** Violated: header lines in the documented format are rejected always (the code splits at "#" instead of "="); an existing file whose name is shorter than four characters makes the C++ constructor throw std::out_of_range; if both the plain and the compressed file exist, C++ reads the plain one and Python the compressed one. Proved: everything else, for the format "# name # value" that the code accepts. Decompression itself, unreadable files and lexical_cast are not modelled.
* **C144** Proved for texts, truth values and numbers (1, 1.0 and true are equal in Python). Violated: for groups, lists and arrays, ValueError is raised for two runs or more even if they agree, since instances of Configuration are compared by identity. Without runs, None is returned. Reading of the files is a parameter; the checks of the types of the arguments are not represented.
* **C145** Violated: the address of a device in a domain from 0x10000 on has more than four digits for the domain. Identification holds for all devices nevertheless. Years are assumed to have four digits; gmtime, strftime and the device properties are libraries. Host names are assumed to contain no end of line.
* **C146** Holds for the script, unless a run directory has a line end in its name. Violated by the program: the plotter raises FileFormatException for every file it writes (the line `#` and eight columns), and the parameters of that file turn up with the next one. Run directories with quotation marks cannot be told apart. Numbers are assumed to be written without white space, commas, `=`, and `#`.
* **C147** Holds for plots whose legends have a label for each line, as those of star polymer quantities do. Violated for plots without a legend (AttributeError), for plots with a line without label (its place is taken by the label of the next plot), and in that different titles are joined in the order of a set, which Python may choose anew each time.
* **C148** Points, styles, and errors: proved, for exact arithmetic. Violated: nothing is to be seen of a value whose neighbours are on the other side of zero, since it makes up a line of one point; on a logarithmic axis, the lower bound may be zero, and lies above values smaller than the replacement of negative bounds.
* **C149** Proved in exact arithmetic. Violated for values of type int in Python 2, where the mean is rounded down; the average of moving averages is not the mean of the data, since data at the ends count less.
* **C150** Violated: since the host buffers are copied to the device without having been fetched before, reading a state without velocities sets the velocities back to those of the last time of copying, and reading at the end of a snapshot sets the whole state back, without an exception. Holds for states with velocities, and if host and device agree. The host buffers after an exception are arbitrary.
* **C151** Violated: the sorting column is remembered by its number, so that hiding a characteristic before it sorts the list by another one or raises; tick marks follow the first column, which need not be "Plotted". The widget and plotting libraries are represented by what the code uses of them; column -1 (unsorted) of the widget library is not represented.
* **C152** Proved for dumbbells and chains, in exact arithmetic. Violated for trimers: the kernel for triplets calls the function for doublets, so that the result for triplet j is the mean of the velocities of the particles 2j and 2j+1, and the last third of the particles is ignored.
* **C154** Proved in exact arithmetic but for three violations: in Python 2, != compares identities, so that two vectors with the same components are both equal and different; in Python 3, / always raises TypeError, as there is no __truediv__; iterating over any vector raises ValueError after the three components, as __getitem__ does not raise IndexError. For what rotation computes, see C53.
* **C155** Proved for the host but for two violations: += throws if the iterator is past the end already, and isValid throws for singular iterators instead of being false. On the device, where calls are not checked, an iterator past the end leaves the array and is then taken for one that can be dereferenced, and isValid is true for default-constructed iterators.
* **C157** Proved in exact arithmetic, but for the values of the theory, for positive Weissenberg numbers only: if the smallest one is zero (no shear), the first theoretical value is a quotient by zero. The ratio mu is a parameter here; for its value, see C126.
* **C161** Violated: if the specification file cannot be executed, the call raises the exception, but the project has become the selected one, without a base configuration, and the one selected before no longer is. Proved: everything else, for configured projects that have all keys. Specification files are arbitrary, but do not change the manager.
* **C164** Violated: if the output is one of the values, a thread of the kernel may add the result of another; and without debugging, no exception is thrown. Proved: everything else, for numbers of a field, that is, neither rounding nor integers.
* **C165** Violated: the script fails if the run given last has no equilibrium length, which is not used for what is plotted, while it does not matter for the other runs. Proved: exactly when something is plotted, and what; that the order does not matter if all runs have lengths. Real numbers, without rounding.

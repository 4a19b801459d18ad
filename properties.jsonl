{"id": "C01", "title": "On-the-fly statistics equal batch statistics", "statement": "After any sequence of addDatum calls on a fresh OnTheFlyStatistics, getSampleSize is the number of data, getSampleMean is their arithmetic mean, and getSampleVariance is the Bessel-corrected sample variance; getSampleMean raises ValueError exactly when no datum was added, getSampleVariance raises exactly when fewer than two were added, and getStandardErrorOfTheMean is sqrt(variance/size).", "quantifier": "every finite sequence of data (exact arithmetic)", "why_tests_cant": "the recurrence must agree with the closed formula for every sequence length and every value; tests sample finitely many sequences", "anchors": ["Analysis/MPCDAnalysis/OnTheFlyStatistics.py: OnTheFlyStatistics.__init__, addDatum, getSampleSize, getSampleMean, getSampleVariance, getSampleStandardDeviation, getStandardErrorOfTheMean"]}
{"id": "C02", "title": "Merging statistics equals pooling the data", "statement": "If two OnTheFlyStatistics were built from data sequences xs and ys (by any mixture of addDatum and merges), then mergeSample leaves the receiver in exactly the state it would have had if the data of both had been added one by one; consequently merging any collection of partial statistics in any order or grouping gives the same size, mean and variance.", "quantifier": "every pair of data sequences, including empty and one-element ones, and every merge tree", "why_tests_cant": "there are infinitely many merge trees and size combinations; the special-cased branches for sizes 0 and 1 interact", "anchors": ["Analysis/MPCDAnalysis/OnTheFlyStatistics.py: mergeSample, mergeSamples"]}
{"id": "C03", "title": "Statistics state strings round-trip and bad strings are rejected without damage", "statement": "For every state reachable by adding data, unserializeFromString(serializeToString()) restores an equal state; and for every string whatsoever, unserializeFromString either installs a state with size >= 0, non-negative sum of squares (and zero mean/sum when the size is zero) or raises and leaves the receiver unchanged.", "quantifier": "every reachable state and every input string", "why_tests_cant": "strings and states are infinite; rejection must be complete", "anchors": ["Analysis/MPCDAnalysis/OnTheFlyStatistics.py: serializeToString, unserializeFromString"]}
{"id": "C04", "title": "C++ and Python on-the-fly statistics agree", "statement": "For the same data sequence the C++ OnTheFlyStatistics reports the same size, mean and variance as the Python class (reporting 0 where Python raises), and a state serialized by one side is accepted by the other and yields the same statistics.", "quantifier": "every data sequence", "why_tests_cant": "two implementations in two languages must agree on all inputs; unit tests exercise each one separately", "anchors": ["include/OpenMPCD/OnTheFlyStatistics.hpp: addDatum, getSampleMean, getSampleVariance", "include/OpenMPCD/ImplementationDetails/OnTheFlyStatistics.hpp: serializeToString, unserializeFromString", "Analysis/MPCDAnalysis/OnTheFlyStatistics.py"]}
{"id": "C05", "title": "Every DDDA block holds the averages of consecutive groups", "statement": "After adding n data to a fresh OnTheFlyStatisticsDDDA, block k exists exactly for k = 0 and for those k with 2^k <= n; block k has been fed exactly the averages of the consecutive groups of 2^k data (the incomplete last group is pending), so its sample size is floor(n / 2^k) and its variance is the sample variance of those averages; hasBlockVariance(k) is true exactly when at least two complete groups exist; the maximum block size is the largest power of two not exceeding n. The C++ class behaves the same.", "quantifier": "every data sequence and every block index", "why_tests_cant": "the cascade is recursive and data dependent on n's binary expansion; tests cover a few n", "anchors": ["Analysis/MPCDAnalysis/OnTheFlyStatisticsDDDA.py: addDatum, _addDatum, getSampleSize, getSampleMean, getMaximumBlockID, getMaximumBlockSize, hasBlockVariance, getBlockVariance", "include/OpenMPCD/ImplementationDetails/OnTheFlyStatisticsDDDA.hpp: addDatum"]}
{"id": "C06", "title": "The optimal DDDA block is always found without tripping the internal assertion", "statement": "For every object obtained by any history of addDatum and merge calls on fresh objects (including merging an object with itself), getOptimalBlockIDForStandardErrorOfTheMean raises RuntimeError exactly when fewer than two data are present; otherwise its internal assertion never fails and it returns an existing block that has a variance: block 0 if the raw standard error is 0, else the smallest block satisfying B^3 > 2 n (SE_B/SE_0)^4 with B its block size, or the largest block that has a variance if none satisfies it.", "quantifier": "every history of addDatum and merge, including self-merges", "why_tests_cant": "the internal assertion depends on an invariant over all histories including merges of unequal sizes", "anchors": ["Analysis/MPCDAnalysis/OnTheFlyStatisticsDDDA.py: getOptimalBlockIDForStandardErrorOfTheMean, merge, addDatum"]}
{"id": "C07", "title": "Merging DDDA objects pools every block and keeps the block structure", "statement": "After any history of addDatum and merges of distinct objects, size, mean and variance are those of the pooled data, and the blocks form a correct blocking hierarchy of the pooled data: block k+1 holds the averages of disjoint pairs of the data of block k, every datum of block k being used exactly once, with the single unpaired one pending; hence block k holds floor(n / 2^k) values and at every level nothing is lost or counted twice. Merging never raises. Merging an object with itself is equivalent to merging it with an equal copy.", "quantifier": "every pair of reachable objects, including the object itself", "why_tests_cant": "pairs of histories are infinite; aliasing of receiver and argument is a corner case", "anchors": ["Analysis/MPCDAnalysis/OnTheFlyStatisticsDDDA.py: merge"]}
{"id": "C08", "title": "DDDA state strings round-trip", "statement": "For every object reachable by addDatum and merge, unserializeFromString(serializeToString()) on any object restores an equal state, and every malformed string raises an error leaving the receiver unchanged.", "quantifier": "every reachable state, every input string", "why_tests_cant": "the string's structure depends on the number of blocks and pattern of pending data", "anchors": ["Analysis/MPCDAnalysis/OnTheFlyStatisticsDDDA.py: serializeToString, unserializeFromString"]}
{"id": "C09", "title": "Autocorrelation at lag N is the mean of products N apart", "statement": "After feeding x_1..x_n, for every lag N up to the configured maximum, the value at lag N is available exactly when n > N, and it is the statistics of the n-N products x_i * x_{i+N}.", "quantifier": "every data sequence, every maximum lag, every lag", "why_tests_cant": "sliding buffers of all lengths interact with all sequence lengths", "anchors": ["Analysis/MPCDAnalysis/Autocorrelation.py: addDatum, correlationTimeIsAvailable, getAutocorrelation"]}
{"id": "C10", "title": "Statistics collections treat keys independently and thin out regularly", "statement": "After any sequence of addData calls with valid dictionaries, the statistics stored at each key are those of all values (and merged samples) supplied for that key, in particular independent of dictionary order; getOrderedData lists every key once in increasing order; keepOnlyEveryNthDataPoint(n) keeps exactly the n-th, 2n-th, ... key in increasing order, with unchanged statistics. A rejected addData call leaves the collection unchanged.", "quantifier": "every history of calls and every n", "why_tests_cant": "histories and key sets are unbounded; dictionary iteration order is unspecified", "anchors": ["Analysis/MPCDAnalysis/OnTheFlyStatisticsCollection.py: addData, getOrderedData, keepOnlyEveryNthDataPoint"]}
{"id": "C11", "title": "Rotation about a unit axis is a rigid rotation", "statement": "For every unit axis and angle, rotating vectors preserves all dot products and lengths, fixes the axis, rotating by a then b equals rotating by a+b, and rotating by -a undoes rotating by a; the Python and C++ implementations give the same vector.", "quantifier": "all vectors, unit axes and angles", "why_tests_cant": "a continuum of inputs; algebraic identity", "anchors": ["Analysis/MPCDAnalysis/Vector3DReal.py: rotateAroundNormalizedAxis", "include/OpenMPCD/Vector3D.hpp: rotateAroundNormalizedAxis"]}
{"id": "C12", "title": "Projection decomposition and normalization", "statement": "For every vector and every non-zero direction, projection plus perpendicular part equals the vector, the perpendicular part is orthogonal to the direction, the projection is parallel to it; getNormalized has length 1 and the same direction, and raises exactly for the zero vector; the cross product is orthogonal to both factors and satisfies Lagrange's identity.", "quantifier": "all vectors", "why_tests_cant": "a continuum of inputs", "anchors": ["Analysis/MPCDAnalysis/Vector3DReal.py: getProjectionOnto, getPerpendicularTo, getNormalized, cross", "include/OpenMPCD/Vector3D.hpp"]}
{"id": "C13", "title": "The SRD collision step conserves momentum and kinetic energy", "statement": "One collision step (grouping into cells, centre-of-mass velocity, rotation of relative velocities about the cell's unit axis, recombination), leaves each cell's total momentum and hence the total momentum unchanged, with or without thermostat; without thermostat it leaves each cell's kinetic energy (of the particles' images in the primary volume) unchanged, and without shear hence the total kinetic energy. This holds for fluid and solute particles of arbitrary positive masses together, for every order of the atomic additions, and over any number of stream/collide steps whose streaming keeps these quantities.", "quantifier": "every particle configuration, mass assignment, assignment of particles to cells, rotation angle and choice of axes", "why_tests_cant": "conservation must hold for all configurations; floating-point tests use tolerances on a few samples", "anchors": ["cudaDeviceCode/OpenMPCD/CUDA/DeviceCode/Simulation.cu: collisionCellContributions, collisionCellStochasticRotationStep1, collisionCellStochasticRotationStep2", "src/OpenMPCD/CUDA/Simulation.cu: collide"]}
{"id": "C14", "title": "The cell-level Maxwell-Boltzmann scaling thermostat sets the energy and keeps the momentum", "statement": "With the thermostat scaling factor sqrt(g / E) applied to a cell with at least two particles and positive relative kinetic energy E, the cell's momentum is unchanged and its relative kinetic energy becomes exactly the drawn value g; cells with fewer than two particles or zero relative energy are left unscaled.", "quantifier": "every cell content and every drawn target energy", "why_tests_cant": "all configurations; includes the degenerate branches", "anchors": ["cudaDeviceCode/OpenMPCD/CUDA/DeviceCode/Simulation.cu: generateCollisionCellMBSFactors, collisionCellStochasticRotationStep2"]}
{"id": "C15", "title": "Lock-free atomic addition loses no update", "statement": "When any number of threads call the compare-and-swap based atomicAdd on the same location, then in every interleaving of their individual memory operations the outcome is that of executing the completed calls one after the other in some order (each exactly once), so the final value is the initial value plus the sum of all increments; and the total number of memory accesses in any interleaving is bounded by a quadratic function of the number of threads, so no schedule can keep the calls retrying forever.", "quantifier": "every number of threads and every interleaving", "why_tests_cant": "schedules are unbounded and nondeterministic", "anchors": ["cudaDeviceCode/OpenMPCD/CUDA/DeviceCode/Utilities.cu: atomicAdd"]}
{"id": "C16", "title": "Cell contributions do not depend on the thread schedule", "statement": "For every order in which the per-particle additions of the accumulation kernel take effect, every collision cell ends with particle count, momentum and mass equal to the sums over exactly the particles assigned to it.", "quantifier": "every particle set, cell assignment and order of atomic additions", "why_tests_cant": "number of schedules is factorial in the number of particles", "anchors": ["cudaDeviceCode/OpenMPCD/CUDA/DeviceCode/Simulation.cu: collisionCellContributions", "src/OpenMPCD/CUDA/DeviceCode/Simulation.cu: resetCollisionCellData"]}
{"id": "C17", "title": "Collision cell numbering is a bijection and sorting stays in range", "statement": "For positions inside the primary simulation volume, and boxes of fewer than 2^32 cells, the collision cell index is smaller than the number of cells, two positions share an index exactly when all three integer coordinates agree, and every index is attained; after the random grid shift and Lees-Edwards image every particle's index is in range.", "quantifier": "all box sizes and positions", "why_tests_cant": "all box sizes and continuous positions; boundary values", "anchors": ["cudaDeviceCode/OpenMPCD/CUDA/DeviceCode/Simulation.cu: isInPrimarySimulationVolume, getCollisionCellIndex, sortParticlesIntoCollisionCells"]}
{"id": "C18", "title": "The Lees-Edwards image is the unique image in the primary volume", "statement": "For positive box sizes, every position, time and shear rate, getImageUnderLeesEdwardsBoundaryConditions returns a position in [0,Lx) x [0,Ly) x [0,Lz) that differs from the original by integer multiples of the box (with the shear offset ny*rate*Ly*t in x), applying it to an in-box position is the identity, positions that are sheared-lattice translates of each other have the same image, and the velocity correction is -ny*rate*Ly along x.", "quantifier": "all positions, times, shear rates, box sizes", "why_tests_cant": "continuum of inputs, floor boundary cases; host and device versions must agree", "anchors": ["src/OpenMPCD/LeesEdwardsBoundaryConditions.cpp: getImageUnderLeesEdwardsBoundaryConditions", "cudaDeviceCode/OpenMPCD/CUDA/DeviceCode/LeesEdwardsBoundaryConditions.cu"]}
{"id": "C19", "title": "Lees-Edwards velocity corrections are undone exactly", "statement": "Sorting particles with Lees-Edwards boundary conditions and later undoing the corrections changes each particle's velocity only by what the collision did in between: with no collision in between, all velocities are restored exactly.", "quantifier": "all particle states and box/shear parameters", "why_tests_cant": "all states and schedules", "anchors": ["cudaDeviceCode/OpenMPCD/CUDA/DeviceCode/Simulation.cu: sortParticlesIntoCollisionCellsLeesEdwards, undoLeesEdwardsVelocityCorrections", "src/OpenMPCD/CUDA/Simulation.cu: collide"]}
{"id": "C20", "title": "Kernel launches process every work unit exactly once", "statement": "For every number of work units up to 2^32 minus the capacity of one launch, the launch loop terminates and each work unit is processed by exactly one thread over all launches, no thread acts on an out-of-range unit, and each launch respects the maximum grid size, also for the launches that exchange grid and block size; a kernel whose threads only touch their own unit's data has the same effect in every thread order. For larger numbers of work units the loop with the default sizes never ends.", "quantifier": "every number of work units", "why_tests_cant": "all counts; boundary effects at multiples of block and grid size", "anchors": ["include/OpenMPCD/CUDA/Macros.hpp: OPENMPCD_CUDA_LAUNCH_WORKUNITS_BEGIN/END"]}
{"id": "C21", "title": "Device memory bookkeeping: no double free, no leak", "statement": "In every sequence of allocate / free calls ending in destruction, the manager passes a pointer to the device free routine at most once per allocation, only frees what it allocated and has not yet freed, throws on any other non-null pointer, treats null and zero-size requests as no-ops, and with autofree enabled frees everything still allocated at destruction.", "quantifier": "every call sequence", "why_tests_cant": "call histories are unbounded and addresses may be reused by the allocator", "anchors": ["src/OpenMPCD/CUDA/DeviceMemoryManager.cpp: allocateMemoryInternal, freeMemory, ~DeviceMemoryManager"]}
{"id": "C22", "title": "Velocity Verlet steps are time reversible and conserve momentum", "statement": "For every position-dependent acceleration, one velocity-Verlet step followed by velocity reversal, another step and velocity reversal restores the initial state exactly; if the forces sum to zero the total momentum is unchanged, for any number of steps; for a Gaussian chain, dumbbell or trimer the internal forces always sum to zero.", "quantifier": "every state, acceleration field, time step and number of steps", "why_tests_cant": "continuum of states; induction over steps", "anchors": ["cudaDeviceCode/OpenMPCD/CUDA/DeviceCode/VelocityVerlet.cu: velocityVerletStep1, velocityVerletStep2", "cudaDeviceCode/OpenMPCD/CUDA/MPCFluid/DeviceCode/GaussianChains.cu", "cudaDeviceCode/OpenMPCD/CUDA/MPCFluid/DeviceCode/GaussianDumbbells.cu: streamDumbbellVelocityVerlet", "cudaDeviceCode/OpenMPCD/CUDA/MPCFluid/DeviceCode/HarmonicTrimers.cu"]}
{"id": "C23", "title": "Analytic dumbbell streaming is the exact harmonic motion", "statement": "Analytic dumbbell streaming over time t moves the centre of mass uniformly, conserves the pair's total momentum and its kinetic-plus-spring energy, streaming for s and then t equals streaming for s+t, and the result solves the equations of motion.", "quantifier": "all states, frequencies omega != 0 and times", "why_tests_cant": "continuum of inputs", "anchors": ["cudaDeviceCode/OpenMPCD/CUDA/MPCFluid/DeviceCode/GaussianDumbbells.cu: streamDumbbellAnalytically"]}
{"id": "C24", "title": "Histogram fills are conserved and land in the right bin", "statement": "After any sequence of fills, underflow + overflow + the sum of all bins equals the number of fills; each in-range value is counted in the one bin whose half-open interval contains it; values below the low edge count as underflow and values at or above the high edge as overflow; the normalized graph integrates to one whenever at least one value is in range.", "quantifier": "every sequence of fills and every histogram geometry", "why_tests_cant": "all sequences and boundary values", "anchors": ["src/OpenMPCD/Histogram.cpp: fill, getIntegral, getNormalizedGraph"]}
{"id": "C25", "title": "Flow-profile samples are attributed to the right output block", "statement": "With sweepCountPerOutput = s > 0, data added during the i-th sweep (counting from 0) is stored in output block i div s and no other; with s = 0 there is a single block containing all data; blocks are never reordered or dropped.", "quantifier": "every history of newSweep and add calls", "why_tests_cant": "histories are unbounded", "anchors": ["src/OpenMPCD/FlowProfile.cpp: newSweep, createOutputBlock", "include/OpenMPCD/FlowProfile.hpp: add"]}
{"id": "C26", "title": "Atom declarations in snapshot files behave as a total map from atom IDs to properties", "statement": "After any sequence of atom-range declarations, the snapshot's atoms are exactly 0..max declared ID, each atom has the properties of the last declaration covering it (default properties if never covered), and the internal range list stays sorted and gap-free.", "quantifier": "every sequence of (overlapping, nested, gap-leaving) range declarations", "why_tests_cant": "case analysis over interval overlaps at every list position", "anchors": ["src/OpenMPCD/VTFSnapshotFile.cpp: setAtomRange, declareAtoms, getAtomProperties, assertAtomRangesContiguous"]}
{"id": "C27", "title": "Snapshot bonds form a set of unordered pairs of declared atoms", "statement": "After any sequence of declareBond calls, hasBond(a,b) is true exactly if a bond between a and b was declared in either order; hasBond is symmetric; self-bonds, unknown atoms and duplicates are rejected and change nothing.", "quantifier": "every sequence of bond declarations", "why_tests_cant": "all call sequences", "anchors": ["src/OpenMPCD/VTFSnapshotFile.cpp: declareBond, hasBond"]}
{"id": "C28", "title": "Snapshot files written can be read back", "statement": "A snapshot file written with any structure (atoms, bonds, primary volume) and any sequence of timesteps is read back as the same structure and the same sequence of timesteps, after which reading reports end of file.", "quantifier": "every structure and timestep sequence", "why_tests_cant": "file contents are unbounded; parser corner cases", "anchors": ["src/OpenMPCD/VTFSnapshotFile.cpp: writeStructureBlock, readStructureBlock, writeTimestepBlock, readTimestepBlock", "Analysis/MPCDAnalysis/VTFSnapshotFile.py: readStructureBlock, readTimestep, writeTimestep"]}
{"id": "C29", "title": "Star polymer particle numbering is a bijection", "statement": "For every star geometry, mapping a particle ID to its structural indices (star, core/arm/magnetic, arm, position) and back is the identity in both directions; the particle count equals the number of structural positions; the C++ and Python implementations assign the same type and indices.", "quantifier": "every star count, arm count, arm length, with and without magnetic end particles; every particle ID", "why_tests_cant": "all geometries; nested div/mod case analysis", "anchors": ["include/OpenMPCD/CUDA/MPCSolute/ImplementationDetails/StarPolymers_Implementation.hpp: getParticleStructureIndices, getParticleType, getParticleCount", "src/OpenMPCD/CUDA/MPCSolute/StarPolymers.cu: getParticleID", "Analysis/MPCDAnalysis/StarPolymers.py: getParticleType, getParticleStructureIndices"]}
{"id": "C30", "title": "Star polymer bonds form a tree per star", "statement": "The bond relation is symmetric and irreflexive, never links different stars, and each star's bonds form a tree: every non-core particle has exactly one bonded neighbour closer to the core. The C++ and Python bond predicates agree.", "quantifier": "every geometry and pair of particles", "why_tests_cant": "all geometries", "anchors": ["include/OpenMPCD/CUDA/MPCSolute/ImplementationDetails/StarPolymers_Implementation.hpp: particlesAreBonded", "Analysis/MPCDAnalysis/StarPolymers.py: particlesAreBonded"]}
{"id": "C31", "title": "A star polymer's written snapshot structure is accepted by its own reader", "statement": "For every geometry, the atoms and bonds written by writeStructureToSnapshot satisfy snapshotStructureIsCompatible for the same geometry, and the declared bonds are exactly the bonded pairs.", "quantifier": "every star geometry", "why_tests_cant": "all geometries", "anchors": ["src/OpenMPCD/CUDA/MPCSolute/StarPolymers.cu: writeStructureToSnapshot, snapshotStructureIsCompatible"]}
{"id": "C32", "title": "Star polymer forces obey Newton's third law in every schedule", "statement": "For every order of the atomic force additions the total force on all particles is zero, each unordered pair contributes exactly once, and the MD step leaves the total momentum unchanged when masses are equal.", "quantifier": "every configuration, pair potential and schedule", "why_tests_cant": "schedules and configurations", "anchors": ["src/OpenMPCD/CUDA/MPCSolute/StarPolymers.cu: updateForceBuffer, performMDTimestep"]}
{"id": "C33", "title": "Pair forces are minus the gradient of the pair potentials", "statement": "For each C++ pair potential (FENE, WCA, WCA with distance offset, Lennard-Jones, Morse, GEMn, dipole-dipole, additive pair), at every separation in the open domain where the potential is smooth, the directional derivative of potential along any direction equals minus the force's component.", "quantifier": "all separations, parameters and directions", "why_tests_cant": "calculus over a continuum; finite differences in tests are approximate", "anchors": ["include/OpenMPCD/PairPotentials/FENE.hpp", "include/OpenMPCD/PairPotentials/WeeksChandlerAndersen.hpp", "include/OpenMPCD/PairPotentials/WeeksChandlerAndersen_DistanceOffset.hpp", "include/OpenMPCD/PairPotentials/LennardJones.hpp", "include/OpenMPCD/PairPotentials/Morse.hpp", "include/OpenMPCD/PairPotentials/GEMn.hpp", "include/OpenMPCD/PairPotentials/MagneticDipoleDipoleInteraction_ConstantIdenticalDipoles.hpp", "include/OpenMPCD/PairPotentials/AdditivePair.hpp"]}
{"id": "C34", "title": "Mean-square-displacement instrumentation averages the right pairs", "statement": "After any number of measure calls, for every lag the recorded statistics are those of the displacement between measurement i and measurement i+lag for exactly the pairs with both indices taken and the lag within the configured range; no snapshot is overwritten before its last use.", "quantifier": "every run length, measurement spacing and lag range", "why_tests_cant": "ring-buffer wrap-around at all lengths", "anchors": ["src/OpenMPCD/CUDA/MPCFluid/Instrumentation/LogicalEntityMeanSquareDisplacement.cu: measure"]}
{"id": "C35", "title": "Normal-mode autocorrelation ring buffer pairs the right snapshots", "statement": "For every run length, each recorded autocorrelation with arguments (mt0, mtT) was computed from the snapshots taken at measurement times mt0 and mtT, each start appears once with consecutive lags, and the snapshots involved had not been overwritten.", "quantifier": "every run length, every maximum lag", "why_tests_cant": "ring-buffer wrap-around", "anchors": ["src/OpenMPCD/CUDA/MPCFluid/Instrumentation/NormalModeAutocorrelation.cpp: measure"]}
{"id": "C36", "title": "Velocity autocorrelation records only valid time pairs", "statement": "Each recorded triple (t1,t2,c) has t1 <= t2 <= t1 + measurement time + tolerance, c is the mean of v(t1).v(t2) with v(t1) the velocities stored at t1, and snapshot slots are first used in order.", "quantifier": "every measurement history", "why_tests_cant": "histories of unbounded length with several snapshot slots", "anchors": ["src/OpenMPCD/CUDA/MPCFluid/Instrumentation/VelocityAutocorrelation/Base.cu: measure, updateSnapshot, measureWithSnapshot"]}
{"id": "C37", "title": "Bunched and strided ranges enumerate exactly the intended elements", "statement": "Iterating a bunch range visits, in increasing order and once each, exactly the positions p below the range length with p mod (bunch+gap) < bunch; iterating a strided range visits exactly the multiples of the stride below the length.", "quantifier": "all range lengths, bunch sizes, gap sizes, strides", "why_tests_cant": "all parameter combinations and partial final bunches", "anchors": ["include/OpenMPCD/CUDA/BunchIteratorRange.hpp", "include/OpenMPCD/CUDA/StridedIteratorRange.hpp", "include/OpenMPCD/StridedPointerIterator.hpp"]}
{"id": "C38", "title": "Concurrent bit-set updates do not interfere", "statement": "For a bit set, in every schedule of atomic set operations each bit finally has the value of the last operation on that bit, operations on different bits never affect each other, all accesses stay inside the storage allocated for the requested number of bits.", "quantifier": "every size, every schedule of set operations", "why_tests_cant": "schedules; bits sharing a word", "anchors": ["include/OpenMPCD/CUDA/ImplementationDetails/Bitset.hpp: Bitset, set, get, setAll"]}
{"id": "C39", "title": "The linear congruential generator never leaves its range or gets stuck at zero", "statement": "Seeded with any value in 1..m-1 the minstd generators produce only values in 1..m-1, never overflow their 64-bit intermediate, and never map two different states to the same next state.", "quantifier": "every seed and every number of steps", "why_tests_cant": "2^31 states, unbounded steps", "anchors": ["include/OpenMPCD/CUDA/Random/Generators/LinearCongruent.hpp", "include/OpenMPCD/CUDA/Random/Generators/minstd.hpp"]}
{"id": "C40", "title": "Random unit vectors have unit length", "statement": "For all inputs in [0,1] the unit vector built from two uniform variates has length exactly one, and every unit vector is attained.", "quantifier": "all pairs in the unit square", "why_tests_cant": "continuum", "anchors": ["include/OpenMPCD/Vector3D.hpp: getUnitVectorFromRandom01"]}
{"id": "C41", "title": "Cached analysis data is never taken from an interrupted store", "statement": "If a store operation of the analysis cache is interrupted at any point, a later hasData either reports no data for that key or the data then read is the complete stored data.", "quantifier": "every crash point of every store", "why_tests_cant": "crash points cannot be enumerated by unit tests", "anchors": ["Analysis/MPCDAnalysis/StarPolymersAnalysis/Cache.py: storeData, hasData, getData"]}
{"id": "C42", "title": "Run state detection is total and consistent", "statement": "For every combination of marker files, getState returns Completed if metadata exists, otherwise Running if a scheduler output exists, otherwise its parent's state if it has a parent, otherwise Submitted / Ready according to the job files, and raises otherwise; it terminates for every parent chain.", "quantifier": "every file-system content and parent chain", "why_tests_cant": "parent chains are unbounded, possibly cyclic", "anchors": ["Analysis/MPCDAnalysis/Run.py: getState, _getParentRun"]}
{"id": "C43", "title": "Creating a run directory never reuses an existing one", "statement": "createRundirByTargetDataSpecification either creates a directory name that did not exist before, choosing the smallest free four-digit number, or reports failure when all ten thousand are taken; it never changes existing directories.", "quantifier": "every file-system content", "why_tests_cant": "all subsets of existing directories", "anchors": ["Analysis/MPCDAnalysis/DataManager.py: createRundirByTargetDataSpecification"]}
{"id": "C44", "title": "Compressed SLURM node lists round-trip", "statement": "Parsing a SLURM node list denotes exactly the host names SLURM means by it (ranges, comma lists, zero padding), and parsing the list generated from node names returns these names.", "quantifier": "every node list", "why_tests_cant": "the grammar is infinite", "anchors": ["Analysis/MPCDAnalysis/DataManager.py: _makeSlurmNodeList, _parseSlrumNodeList"]}
{"id": "C45", "title": "Every path translator is applied as configured", "statement": "When several path translators are configured, a path read from a server-side file is translated by every configured translator, in the configured order; the selected project's own translator maps exactly the paths below its local root to the server's root.", "quantifier": "every list of translators", "why_tests_cant": "closures over loop variables depend on list length", "anchors": ["Analysis/MPCDAnalysis/DataManager.py: __init__, selectProject", "Analysis/MPCDAnalysis/Run.py: _applyPathTranslatorsServerToLocal"]}
{"id": "C46", "title": "Centre-of-mass shift and gyration tensor", "statement": "After shiftToCenterOfMassFrame the centre of mass is the origin (and its velocity zero where velocities are given); the gyration tensor is symmetric, positive semidefinite, unchanged by translation, equals the second moment about the geometric centre, and getters never return a value computed from superseded particle data.", "quantifier": "every particle collection and every call history", "why_tests_cant": "continuum of configurations and histories (cache invalidation)", "anchors": ["Analysis/MPCDAnalysis/ParticleCollection.py"]}
{"id": "C47", "title": "Eckart frame is orthonormal and translation invariant", "statement": "For every reference configuration the constructor accepts: Eckart vectors are the documented sums and do not change when the instantaneous configuration is translated; the Gram matrix is symmetric and positive semidefinite; the Eckart frame is defined exactly if the Gram matrix is invertible, and then consists of orthonormal vectors that satisfy the Eckart condition (the mass-weighted cross products of equilibrium positions in the frame and instantaneous positions add up to zero); for a reference configuration that is not coplanar and has been rotated by any orthogonal matrix and translated, the frame consists of the columns of that matrix.", "quantifier": "every configuration", "why_tests_cant": "continuum", "anchors": ["Analysis/MPCDAnalysis/EckartSystem.py"]}
{"id": "C48", "title": "Ranges of equal sign partition the data", "statement": "findRangesOfEqualSign splits every non-empty list into consecutive half-open ranges that cover all indices exactly once, all elements in one range are on the same side of zero, and adjacent ranges differ in sign.", "quantifier": "every list of numbers", "why_tests_cant": "all lists", "anchors": ["Analysis/MPCDAnalysis/PlotTools.py: findRangesOfEqualSign"]}
{"id": "C49", "title": "Magnetic clusters are the connected components", "statement": "getMagneticClusters returns a partition of the magnetic particles into the connected components of the graph joining particles not farther apart than the cutoff.", "quantifier": "every set of particle positions and cutoff", "why_tests_cant": "all configurations; incremental merging", "anchors": ["Analysis/MPCDAnalysis/StarPolymers.py: getMagneticClusters, _mergeClusters"]}
{"id": "C50", "title": "Configuration lookups behave like a tree of named settings", "statement": "Setting an existing path and reading it returns the value and leaves every setting elsewhere unchanged, and deleting one removes it and leaves the others unchanged; membership is true exactly when reading succeeds; equivalence of configurations is reflexive, symmetric and transitive and holds exactly if both have the same settings with the same values; the flat dictionary contains exactly the leaf settings by path; the differences are exactly the keys whose values differ or which only one has.", "quantifier": "every configuration tree and path", "why_tests_cant": "all trees and paths", "anchors": ["Analysis/MPCDAnalysis/Configuration.py"]}
{"id": "C51", "title": "C++ and Python choose the same DDDA block", "statement": "For every history of data, the C++ class and the Python class, fed with the same data, choose the same optimal block for the standard error of the mean.", "quantifier": "every data sequence of any length", "why_tests_cant": "A difference shows up only for millions of data points, when the cube of the block size exceeds the machine word; tests use short samples.", "anchors": ["include/OpenMPCD/ImplementationDetails/OnTheFlyStatisticsDDDA.hpp: getOptimalBlockIDForStandardErrorOfTheMean", "Analysis/MPCDAnalysis/OnTheFlyStatisticsDDDA.py: getOptimalBlockIDForStandardErrorOfTheMean"]}
{"id": "C52", "title": "A plot of a collection pairs each key with its own mean and error", "statement": "The keys, mean values, error bars and shaded-area bounds handed to the plotting library by getMPLAxes all refer, position by position, to the same keys in increasing order; samples of size one are kept with zero error, dropped, or rejected with RuntimeError, as requested.", "quantifier": "every collection filled through addData, every admissible combination of arguments", "why_tests_cant": "Misalignment depends on which keys hold single-datum samples, for arbitrary collections", "anchors": ["Analysis/MPCDAnalysis/OnTheFlyStatisticsCollection.py: getMPLAxes"]}
{"id": "C53", "title": "Complex vectors behave like an inner product space", "statement": "For complex vectors the dot product is conjugate-symmetric and positive, projection plus perpendicular part is the vector and the latter is orthogonal to the direction, and rotation about a real unit axis preserves lengths and agrees with the real class on real vectors.", "quantifier": "all complex vectors, real unit axes and angles", "why_tests_cant": "a continuum of inputs; tests use real-valued examples", "anchors": ["Analysis/MPCDAnalysis/Vector3D.py", "include/OpenMPCD/Vector3D.hpp: rotateAroundNormalizedAxis"]}
{"id": "C54", "title": "Vector comparison is a strict total order", "statement": "The less-than operator on vectors is the lexicographic order of the components: irreflexive, transitive, and exactly one of u<v, u=v, v<u holds.", "quantifier": "all vectors over a totally ordered component type", "why_tests_cant": "all triples of vectors", "anchors": ["include/OpenMPCD/Vector3D.hpp: operator<"]}
{"id": "C55", "title": "Generated job scripts make every run ready, in jobs of the requested size", "statement": "createSlurmJobScripts, called for fresh run directories and a chunk size dividing their number, succeeds, changes nothing but the input directories, parent files and job scripts of these runs, and afterwards every one of them reports the state Ready and a job batch size equal to the chunk size.", "quantifier": "every file system, list of run directories, chunk size and options", "why_tests_cant": "the number of runs, chunks and the contents of the file system are unbounded", "anchors": ["Analysis/MPCDAnalysis/DataManager.py: createSlurmJobScripts", "Analysis/MPCDAnalysis/Run.py: getState, getJobBatchSize"]}
{"id": "C56", "title": "Eckart angular velocity is the angular velocity of the Eckart frame", "statement": "Along every differentiable trajectory of the instantaneous configuration, whenever the Eckart frame is differentiable, its time derivative is the cross product of the vector returned by getEckartAngularVelocityVector and the frame vectors; for a rigidly moving, not coplanar configuration the vector returned is the angular velocity of the motion.", "quantifier": "every reference configuration, trajectory and time", "why_tests_cant": "continuum of trajectories; needs a derivative", "anchors": ["Analysis/MPCDAnalysis/EckartSystem.py"]}
{"id": "C57", "title": "Rotation frequency of a rigid body", "statement": "For particles of equal mass that rotate rigidly about, and translate with, a centre of mass located at the origin, and that are not all on one line, getRotationFrequencyVector returns the angular velocity.", "quantifier": "every rigid motion and every number of particles", "why_tests_cant": "continuum", "anchors": ["Analysis/MPCDAnalysis/ParticleCollection.py"]}
{"id": "C58", "title": "Shape descriptors are consistent with the positions and within bounds", "statement": "For every non-empty collection, the squared radius of gyration is the mean squared distance from the centre of the positions, asphericity and acylindricity are not negative, and the relative shape anisotropy lies between zero and one, being one exactly if the two smaller eigenvalues of the gyration tensor vanish and zero exactly if all eigenvalues agree.", "quantifier": "every list of positions", "why_tests_cant": "continuum of positions and every particle number", "anchors": ["Analysis/MPCDAnalysis/ParticleCollection.py"]}
{"id": "C59", "title": "An Eckart system can be built from positions and masses", "statement": "An EckartSystem can be constructed from every non-empty reference configuration whose particles have masses, whether or not velocities have been set.", "quantifier": "every reference configuration", "why_tests_cant": "Test configurations usually come with velocities.", "anchors": ["Analysis/MPCDAnalysis/EckartSystem.py"]}
{"id": "C60", "title": "Saved star polymer states are restored", "statement": "The states a simulation of star polymers saves to its snapshot file are restored, one after the other, by reading that file with star polymers of the same geometry; a file describing another geometry is rejected; reading when no saved state is left is reported rather than leaving the state as it was.", "quantifier": "every geometry, every sequence of states", "why_tests_cant": "unbounded number of states and particles; the error case depends on the whole file", "anchors": ["src/OpenMPCD/CUDA/MPCSolute/StarPolymers.cu: writeStructureToSnapshot, writeStateToSnapshot, readStateFromSnapshot", "src/OpenMPCD/VTFSnapshotFile.cpp: readTimestepBlock"]}
{"id": "C61", "title": "The energy reported by the analysis is the one the simulation moves in", "statement": "For every configuration the simulation accepts and all positions at which the potentials are finite, the analysis reports a potential energy, and the forces the simulation computes from these positions are minus its gradient.", "quantifier": "every star geometry, interaction parameters, positions, schedule of the force computation, direction of displacement", "why_tests_cant": "gradient over a continuum of positions; two code bases in two languages", "anchors": ["Analysis/MPCDAnalysis/StarPolymers.py: getPotentialEnergy", "src/OpenMPCD/CUDA/MPCSolute/StarPolymers.cu: performMDTimestep", "include/OpenMPCD/CUDA/MPCSolute/ImplementationDetails/StarPolymers_Implementation.hpp: createInteractionsOnDevice_kernel, computeForceOnParticle1DueToParticle2"]}
{"id": "C62", "title": "The force between any two star polymer particles is defined", "statement": "For every star polymer geometry the simulation accepts and any two particles at different positions, the computation of the force between them uses only interactions that have been set up.", "quantifier": "every geometry, parameters, pair of particles, positions", "why_tests_cant": "depends on the geometry; the failing geometry is accepted silently", "anchors": ["include/OpenMPCD/CUDA/MPCSolute/ImplementationDetails/StarPolymers_Implementation.hpp: createInteractionsOnDevice_kernel, computeForceOnParticle1DueToParticle2"]}
{"id": "C63", "title": "Creating a group always yields that group", "statement": "Requesting the creation of a group at a path yields the group at that path, whether it existed before or not, and changes no setting elsewhere.", "quantifier": "every configuration tree and path", "why_tests_cant": "all trees and paths, and repeated calls", "anchors": ["Analysis/MPCDAnalysis/Configuration.py:43-71"]}
{"id": "C64", "title": "Deprecated settings are translated without loss", "statement": "Loading a configuration removes deprecated settings, makes their values available at the settings that replace them, and leaves all other settings unchanged; doing so again changes nothing.", "quantifier": "every configuration tree", "why_tests_cant": "all trees, all settings elsewhere", "anchors": ["Analysis/MPCDAnalysis/Configuration.py:549-574"]}
{"id": "C65", "title": "Fluid measurements account for every particle once, in the right place", "statement": "At each measurement, every fluid particle contributes exactly once to the density and flow profiles, at the part of the collision cell its image under the sheared periodic boundary conditions lies in, with its velocity relative to the layer it is in; no grid point outside of the profile is accessed; the densities written are averages over the measurements and add up to the mass of the fluid.", "quantifier": "every box size, subdivision, shear rate, time, particle state and number of measurements", "why_tests_cant": "all particle positions, including those many boxes away and exactly on boundaries, and all histories", "anchors": ["src/OpenMPCD/CUDA/Instrumentation.cpp:177-275", "include/OpenMPCD/DensityProfile.hpp:95-124", "src/OpenMPCD/DensityProfile.cpp:47-69"]}
{"id": "C66", "title": "Normal modes are computed per chain and their autocorrelation is averaged over the chains", "statement": "The normal coordinates of each chain are those of the documented formula, on the Host and on the Device, in any order of execution of the threads. The n-th average autocorrelation is the average over the chains of the product of the n-th normal coordinates at the two times. The memory allocated suffices for all normal coordinates.", "quantifier": "all numbers and lengths of chains, all positions, all schedules", "why_tests_cant": "memory layout for all chain lengths and all schedules", "anchors": ["src/OpenMPCD/CUDA/NormalMode.cu: computeNormalCoordinates, getAverageNormalCoordinateAutocorrelation", "include/OpenMPCD/CUDA/DeviceCode/ImplementationDetails/NormalMode.hpp: computeNormalCoordinates", "src/OpenMPCD/CUDA/MPCFluid/Instrumentation/NormalModeAutocorrelation.cpp: constructor"]}
{"id": "C67", "title": "Velocity autocorrelation snapshots are taken as documented", "statement": "Each call to measure takes or overrides snapshots as documented: a first one at once; further ones, up to the configured number, when the latest one is old enough; and once all have been taken, those older than the measurement time are overridden.", "quantifier": "every measurement history", "why_tests_cant": "histories of unbounded length with several snapshot slots", "anchors": ["include/OpenMPCD/CUDA/MPCFluid/Instrumentation/VelocityAutocorrelation/Base.hpp: class documentation", "src/OpenMPCD/CUDA/MPCFluid/Instrumentation/VelocityAutocorrelation/Base.cu: updateSnapshots, initializeSnapshotIfAppropriate"]}
{"id": "C68", "title": "Every completed sweep is measured once, and what is saved says how many there were", "statement": "Whatever signals arrive, however time passes and whichever step fails: the n-th measurement takes place after the warmup and exactly n sweeps of the configured number of steps, at the simulation time these steps amount to; no more sweeps than configured are performed; at any moment, also if the program is killed, at most the last sweep has not been measured; each save reports the number of sweeps completed, with a measurement for each unless an exception ends the program; the program saves to the run directory exactly once, at its end; fewer sweeps than configured are performed only after the runtime limit, a termination signal or an exception, and after the former two at most the current sweep is finished.", "quantifier": "every configuration, every sequence of signals, clock readings and exceptions, every moment of being killed", "why_tests_cant": "schedules of signals and crash points", "anchors": ["src/OpenMPCD/main.cpp: run, signalHandler", "src/OpenMPCD/CUDA/Simulation.cu: warmup, sweep, run, stream", "src/OpenMPCD/CUDA/Instrumentation.cpp: destructor, measure, save"]}
{"id": "C69", "title": "A run does not overwrite the results of other runs", "statement": "A run accepts a run directory only if it contains nothing but a configuration and input, and changes no file existing before. Different runs do not save to the same directory.", "quantifier": "every file system, run directory name and history of a run, two runs", "why_tests_cant": "file system states, crash points, concurrent runs", "anchors": ["src/OpenMPCD/main.cpp: createRundir, getCurrentDateTimeString", "src/OpenMPCD/CUDA/Instrumentation.cpp: save, saveStaticData"]}
{"id": "C70", "title": "A run reported as completed has performed the configured number of sweeps", "statement": "The analysis reports a run as completed if and only if the simulation has performed all its sweeps, and reports the number of sweeps performed.", "quantifier": "every configuration and history of signals, limits, exceptions and kills", "why_tests_cant": "histories and crash points, two programs in two languages", "anchors": ["Analysis/MPCDAnalysis/Run.py: getState, getNumberOfCompletedSweeps", "src/OpenMPCD/main.cpp: run", "src/OpenMPCD/CUDA/Instrumentation.cpp: destructor, save"]}
{"id": "C71", "title": "Saving early does not change the final results", "statement": "The results a run saves at its end do not depend on whether results were saved early.", "quantifier": "every configuration, sequence of signals and exceptions", "why_tests_cant": "histories of signals of unbounded length", "anchors": ["src/OpenMPCD/CUDA/MPCSolute/Instrumentation/StarPolymers.cpp: saveSpecific, resetSnapshotFile, measureSpecific", "src/OpenMPCD/main.cpp: run"]}
{"id": "C72", "title": "A snapshot file that breaks off is recognised", "statement": "Reading a snapshot file that has been cut off at any point yields the complete timesteps, and then either the end of the file or an exception; a timestep in which only some atoms have velocities raises.", "quantifier": "every structure, sequence of timesteps and point at which the file breaks off", "why_tests_cant": "crash points of the writing program; unbounded files", "anchors": ["src/OpenMPCD/VTFSnapshotFile.cpp: readTimestepBlock, getLine"]}
{"id": "C73", "title": "Mean-square displacements read back are those measured, pooled per time difference over the runs", "statement": "From the run directories of any number of runs with equivalent configurations one obtains, for each time difference configured, statistics of exactly the mean-square displacements of measurement pairs of the same run with this difference, each once. Compressed data files are used only if there is no uncompressed one. Invalid data files and time differences are reported as ValueError.", "quantifier": "every number of runs, measurements, entities and configuration", "why_tests_cant": "measurement histories of arbitrary length, two programs in two languages", "anchors": ["Analysis/MPCDAnalysis/LogicalEntityMeanSquareDisplacement.py: __init__, getMeanSquareDisplacement, _parse", "src/OpenMPCD/CUDA/MPCFluid/Instrumentation/LogicalEntityMeanSquareDisplacement.cu: measure, save"]}
{"id": "C74", "title": "A diffusion fit uses the time differences from the minimum to the maximum given", "statement": "Fitting the mean-square displacements uses each time difference from the given minimum (default 1) to the given maximum (default: all configured) once, with its own mean.", "quantifier": "every statistics and every minimum and maximum", "why_tests_cant": "unbounded ranges", "anchors": ["Analysis/MPCDAnalysis/LogicalEntityMeanSquareDisplacement.py: fitToData"]}
{"id": "C75", "title": "Normal mode autocorrelations read back are those measured, whatever was asked before", "statement": "From the files of any number of runs one obtains, for each normal mode and each correlation time configured, statistics of exactly the products of the normal coordinates of measurements of the same run with this time difference, averaged over the molecules, each once, no matter which queries were made before. Other modes and correlation times are rejected, and so are files in which lines are missing or out of order.", "quantifier": "every number of runs, measurements, molecules, modes and sequence of queries", "why_tests_cant": "measurement and query histories of arbitrary length, two programs in two languages", "anchors": ["Analysis/MPCDAnalysis/NormalModeAutocorrelation.py: __init__, getAutocorrelation, _parse", "src/OpenMPCD/CUDA/MPCFluid/Instrumentation/NormalModeAutocorrelation.cu: measure, save"]}
{"id": "C76", "title": "Velocity autocorrelations read back are those recorded, pooled per number of time steps", "statement": "From the directories of any number of runs with equivalent configurations one obtains, for each correlation time, the statistics of exactly those correlations recorded by the simulation whose two times differ by that many time steps, even if the times are inaccurate by up to a quarter of a time step; the correlation times are those which occur, sorted. Measurements involving times smaller than the minimum time given are discarded.", "quantifier": "every number of runs, measurement times, velocities, minimum time", "why_tests_cant": "measurement histories of arbitrary length, rounding, two programs in two languages", "anchors": ["Analysis/MPCDAnalysis/VelocityAutocorrelation.py: __init__, _parse, _getDeltaT, getAutocorrelation, getCorrelationTimes", "src/OpenMPCD/CUDA/MPCFluid/Instrumentation/VelocityAutocorrelation/Base.cu: measure, saveAutocorrelations"]}
{"id": "C77", "title": "Value pairs read from a file are those of its two-column lines, sorted, above or below the minimum as documented", "statement": "Reading value pairs from a file returns the pairs of those lines that have exactly two columns, both numbers, sorted by key, each once, restricted by the minimum key as documented; if a key is given twice, ValueError is raised.", "quantifier": "every text and minimum", "why_tests_cant": "texts of arbitrary length", "anchors": ["Analysis/MPCDAnalysis/Utilities.py: readValuePairsFromFile"]}
{"id": "C78", "title": "The sample mean obtained from a saved histogram is that of the values within its range, up to the bin size", "statement": "The sample mean computed from the file a histogram has been saved to differs from the mean of those values filled in which lie within the range by at most the distance from the bin point to the farther end of a bin (half a bin by default), plus the precision of the file.", "quantifier": "every sequence of values, range, number of bins and bin point", "why_tests_cant": "sequences of arbitrary length, two programs in two languages", "anchors": ["src/OpenMPCD/Histogram.cpp: fill, save", "Analysis/MPCDAnalysis/EmpiricalDistribution.py: getSampleMean", "Analysis/MPCDAnalysis/Utilities.py: readValuePairsFromFile"]}
{"id": "C79", "title": "The host reference implementation of the collision computes what the device computes", "statement": "For every fluid and solute (any number of particles, any positions and velocities), grid shift, rotation axes, collision angle, shear rate and time: carrying out a collision with the sequential host functions on the particle and cell arrays gives exactly the velocities, cell indices, velocity corrections, cell momenta, masses, energies and counts that the device gives, whatever the order of its atomic additions; no array element that does not belong to a particle is touched, and positions are not changed.", "quantifier": "every state of the arrays, every thread schedule of the device", "why_tests_cant": "all states and all schedules; the repository compares the two implementations only for sampled states", "anchors": ["src/OpenMPCD/ImplementationDetails/Simulation.cpp: getCollisionCellIndex, sortIntoCollisionCellsLeesEdwards, collisionCellContributions, collisionCellStochasticRotationStep1, collisionCellStochasticRotationStep2, undoLeesEdwardsVelocityCorrections", "cudaDeviceCode/OpenMPCD/CUDA/DeviceCode/Simulation.cu", "src/OpenMPCD/CUDA/Simulation.cu: collide"]}
{"id": "C80", "title": "A fluid starts inside of the box, at rest as a whole, with the configured temperature and bond lengths", "statement": "Constructing a fluid ends with every particle inside of the simulation box and the total momentum zero, whatever random numbers are drawn; if an initial temperature is configured, the fluid has exactly this temperature; the particles of a rod or relaxed dumbbell have the configured distance, and particles bonded in a chain have distance 1.", "quantifier": "every sequence of random numbers, particle count, box, configuration", "why_tests_cant": "all random number sequences, including those that make the placement loop repeat", "anchors": ["src/OpenMPCD/CUDA/MPCFluid/Base.cu: initializeVelocitiesOnHost, globalUnbiasedThermostat, getMeanMomentum, getKineticEnergy", "src/OpenMPCD/CUDA/MPCFluid/Simple.cu: initializeOnHost", "src/OpenMPCD/CUDA/MPCFluid/HarmonicTrimers.cu: initializeOnHost", "src/OpenMPCD/CUDA/MPCFluid/GaussianChains.cu: initializeOnHost", "src/OpenMPCD/CUDA/MPCFluid/GaussianRods.cu: initializeOnHost", "src/OpenMPCD/CUDA/MPCFluid/GaussianDumbbells.cu: initializeOnHost"]}
{"id": "C81", "title": "A set of data points holds what was last given for each point", "statement": "After any sequence of adding points (with or without error) and sorting, listing a Data2D gives each point that was ever added exactly once, in ascending order, with the value last given for it and the error given along with that value (None if it was given without error).", "quantifier": "every sequence of calls", "why_tests_cant": "histories of any length, including values given again", "anchors": ["Analysis/MPCDAnalysis/Data2D.py: addPoint, sort, getKeysAndValuesAndErrors"]}
{"id": "C82", "title": "Nearest points and local extrema are found", "statement": "After any sequence of adding points and sorting, the nearest point to x is a point at minimal distance, the lower one of two equally near ones; local maxima (minima) are exactly the points whose value is strictly larger (smaller) than that of each neighbouring point, where points with fewer than two neighbours count only if boundaries are included; the local extrema are the maxima and minima together.", "quantifier": "every sequence of calls, every x", "why_tests_cant": "all sets of points", "anchors": ["Analysis/MPCDAnalysis/Data2D.py: getNearestPoint, getLocalExtremaByComparisonFunction, getLocalMaxima, getLocalMinima, getLocalExtrema"]}
{"id": "C83", "title": "Moving averages are averages over the window asked for", "statement": "The simple moving average for a window size contains exactly the points at which some run of consecutive points that is at least as wide as the window ends, each with the arithmetic mean over the shortest such run.", "quantifier": "every sequence of calls, every window size", "why_tests_cant": "all sets of points and all window sizes", "anchors": ["Analysis/MPCDAnalysis/Data2D.py: getSimpleMovingAverageDict"]}
{"id": "C84", "title": "Saving data points and reading them back gives the same data", "statement": "For any data points, writing them to a file and constructing a new object from the file gives the same points, values and errors, up to the precision of the numbers in the file.", "quantifier": "every sequence of calls, every precision of printing", "why_tests_cant": "all sets of points, with and without errors", "anchors": ["Analysis/MPCDAnalysis/Data2D.py: save, writeTo, readFromFile", "Analysis/MPCDAnalysis/Utilities.py: readValuePairsFromFile"]}
{"id": "C85", "title": "A fit reports the results of the last successful fit, the best of many fits is the best, and comparisons compare results", "statement": "For any sequence of calls of fit on an instance, the getters report estimates, variances and covariances of the last call that succeeded (RuntimeError if there is none; TypeError and ValueError for indices of the wrong type or out of range); the optimiser is given the data, errors and bounds as specified (no bound where None is given), and wrong arguments raise the documented exceptions and leave previous results. Of many data sets, the first one that no other is better than is returned, None only if there are no data sets. Two instances compare equal exactly if they have the same results; comparing any two instances raises nothing.", "quantifier": "every sequence of calls, every behaviour of the optimiser, every comparator that is a strict weak order", "why_tests_cant": "all histories with failing calls, all comparators, all shapes of results", "anchors": ["Analysis/MPCDAnalysis/Fit.py: fit, getFitParameterCount, getFitParameter, getFitParameterVariance, getFitParameterCovariance, multipleIndependentDataFits, getBestOutOfMultipleIndependentDataFits, __eq__"]}
{"id": "C86", "title": "The analysis reads snapshot files as they have been written", "statement": "Opening a snapshot file written by the simulation, or by the analysis itself, gives its structure block and one timestep after the other in order, each with all particles and with velocities exactly if they were written; after the last one the end of the file is reported. Text that is not a sequence of lines of three or of six numbers raises ValueError, a file that breaks off is recognised, and calls that do not fit the mode of the file raise and change nothing. This holds in Python 2 and 3, and for compressed files.", "quantifier": "every structure, every sequence of timesteps, every sequence of calls, every file content", "why_tests_cant": "unbounded file contents and call histories; the test suite contains one file", "anchors": ["Analysis/MPCDAnalysis/VTFSnapshotFile.py: __init__, readStructureBlock, writeStructureBlock, readTimestep, writeTimestep", "Analysis/MPCDAnalysis/ParticleCollection.py: setPositionsAndVelocities"]}
{"id": "C87", "title": "The values of star polymer quantities are assigned to the times at which the snapshots were taken", "statement": "For every run, the analysis computes the value for each snapshot of the run, in order, and assigns it to the simulation time at which the snapshot was taken; if a value cannot be computed, that exception is raised. The analyses that leave out snapshots end, and take the first snapshot and after that each which is at least 100 time units later than the last one taken.", "quantifier": "every run, with any sweep size, timestep, number of warmup steps, saves, and any number of snapshots", "why_tests_cant": "relates the whole history of the simulation to the result of the analysis; loops over unbounded files", "anchors": ["Analysis/MPCDAnalysis/StarPolymersAnalysis/Asphericity.py: _computeValueAsFunctionOfTime (and the same function of the other classes)", "Analysis/MPCDAnalysis/StarPolymersAnalysis/MagneticClusterCount.py: _computeValueAsFunctionOfTime", "src/OpenMPCD/CUDA/MPCSolute/Instrumentation/StarPolymers.cpp: measureSpecific, saveSpecific", "src/OpenMPCD/CUDA/Simulation.cu: sweep"]}
{"id": "C88", "title": "Flow profiles obtained by the analysis are those of the velocities measured", "statement": "For any number of runs with the same settings, the flow profile and the statistics for the whole volume which the analysis obtains from the files written by the simulation have, for the whole volume and for each layer along y, the sample size, mean and variance of all velocities that were measured there in all runs, up to the rounding of the numbers in the files. There is one entry for each layer, at its beginning or its centre as asked for, and the theoretical profile is given at the same places. This holds whatever the subdivision of the cells and the number of output blocks. If a run cannot be read, or has another subdivision, shear rate, or box size along y, an exception is raised and nothing is added.", "quantifier": "every number of runs, every history of sweeps and measurements, every box size and subdivision, every order of iteration over dictionaries, Python 2 and 3", "why_tests_cant": "relates the whole history of the simulation to the result of the analysis; there is no test of the Python class", "anchors": ["src/OpenMPCD/FlowProfile.cpp: newSweep, saveToFile, printOutputBlockToStream", "Analysis/MPCDAnalysis/FlowProfile.py: __init__, addRun, getFlowProfileAsFunctionOfY, getGlobalFlowStatistics, getAnalyticShearFlowProfileAsFunctionOfY"]}
{"id": "C89", "title": "Target data specifications are all combinations of the generators' elements", "statement": "For each list of generators in the project, the specifications obtained are one per combination of one element of each generator, with the last generator varying fastest. Each has the base configuration with the settings of the parts chosen applied in order, so that the last setting of a name wins and all other settings are kept; the path components of the parts in order; and the largest of the target sweep counts that the parts give, if any. Every call yields the same specifications.", "quantifier": "every project, every number of generators and elements, every history of calls, generators shared or not", "why_tests_cant": "quantifies over all projects and over repeated calls of stateful iterators", "anchors": ["Analysis/MPCDAnalysis/DataManager.py: getTargetDataSpecifications, ConfigPartSpecialAction"]}
{"id": "C90", "title": "The status of target data reflects the runs there are", "statement": "The status of a target data specification is `completed` if the runs whose configuration is equivalent to the one asked for have together completed at least the target number of sweeps; otherwise it is `pending` if one of these runs has been submitted to the job scheduler or is executing, and `incomplete` if none is. Directories matched by the data paths which are not run directories are ignored, each run is counted once, and the grouping by status contains each specification once, under its status.", "quantifier": "every set of run directories with any files in them, every configuration, every specification, every state of the caches", "why_tests_cant": "quantifies over all contents of the file system and over the state of caches between calls", "anchors": ["Analysis/MPCDAnalysis/DataManager.py: __init__, getRuns, getRunsWithMatchingConfiguration, getTargetDataSpecificationStatus, getTargetDataSpecificationsGroupedByStatus", "Analysis/MPCDAnalysis/Run.py: getConfiguration, getNumberOfCompletedSweeps, getState"]}
{"id": "C91", "title": "Runs and nodes are listed in the groups they belong to", "statement": "Filtering runs by configuration yields exactly the runs that all filters accept, in order. Grouping the submitted job batches by size lists each run that has been submitted by a job of its own, and no other run, under the number of runs that its job script starts. Grouping the cluster nodes by number of GPUs puts each node in the group of its number, and the Slurm node list for a group denotes exactly its nodes.", "quantifier": "every list of runs, filters, job scripts and nodes", "why_tests_cant": "quantifies over all collections of runs and nodes", "anchors": ["Analysis/MPCDAnalysis/DataManager.py: getRunsFilteredByConfig, getSubmittedJobBatchesGroupedByJobBatchSize, getClusterNodesGroupedByGPUCount"]}
{"id": "C92", "title": "The Fourier-transformed velocity is the average over the constituents", "statement": "For each configured wave vector, each measurement records the simulation time and the average over all constituents of their velocity times exp(i k\u00b7r), where the position and velocity of a constituent are the averages over its particles, whatever the number of particles and the order in which GPU threads run; nothing outside of the buffers is written. The opposite wave vector gives the complex conjugate, the wave vector zero the average velocity, and displacing constituents by multiples of the box sizes changes nothing.", "quantifier": "every fluid, number of particles, wave vector, thread order, and history of measurements", "why_tests_cant": "quantifies over all thread schedules, kernel launch sequences and particle numbers up to the limits of integers", "anchors": ["src/OpenMPCD/CUDA/MPCFluid/Instrumentation/FourierTransformedVelocity/Base.cpp", "src/OpenMPCD/CUDA/MPCFluid/Instrumentation/FourierTransformedVelocity/Simple.cu, Doublets.cu, Triplets.cu, Chains.cu"]}
{"id": "C93", "title": "The transverse velocity correlation function is computed from all pairs of measurements", "statement": "Given run directories, the analysis program writes one table per wave vector. For each correlation time up to the maximum, it has a row with this time, and the number, average and sample standard deviation of the real parts of the products of transverse velocities recorded this time apart, over all pairs in all data files for the wave vector, disregarding what was recorded before the minimum time; and the average divided by that for time zero.", "quantifier": "every set of runs and data files, in every directory order, every number of measurements, minimum time and maximum correlation time", "why_tests_cant": "quantifies over all contents of data files and their combination across runs", "anchors": ["Analysis/src/computeTransverseVelocityCorrelationFunction/getWaveVectorsAndFiles.cpp", "Analysis/src/computeTransverseVelocityCorrelationFunction/writePlotfiles.cpp", "Analysis/src/computeTransverseVelocityCorrelationFunction/main.cpp", "src/OpenMPCD/CUDA/MPCFluid/Instrumentation/FourierTransformedVelocity/Base.cpp: save"]}
{"id": "C94", "title": "A configuration returns what it was last set to", "statement": "After any history of calls that set settings and create groups and lists, with exceptions caught, reading a setting gives the value it was last set to with success, or the one it had in the beginning; this holds for unsigned numbers, too. Setting a setting creates the groups it is in, changes no other setting, and makes none vanish. A setting that exists can be set to values of its type only. Calls that fail change nothing. Numbers are not changed silently if they do not fit the type they are read as.", "quantifier": "every configuration, name, value, and history of calls", "why_tests_cant": "quantifies over all trees of settings and all histories, including those with failing calls", "anchors": ["include/OpenMPCD/Configuration.hpp: set, read, has, createGroup, createList"]}
{"id": "C95", "title": "Parts of a configuration agree with the configuration", "statement": "Asking a part of the configuration whether it has a setting, or for its value, or for a part of it, gives the same answer as asking the configuration for the setting with the name of the part in front. A setting is said to exist if and only if it can be obtained, and reading with any other type than its own fails. Comparing the names of children to permitted ones succeeds exactly if all are permitted, and reports the first that is not. Elements of lists are found by their index. Names that are not legal, and settings that are not lists where a list is asked for, give the documented exceptions.", "quantifier": "every configuration, part, name, type, index", "why_tests_cant": "quantifies over all trees of settings and all names", "anchors": ["include/OpenMPCD/Configuration.hpp: Setting, List, getSetting, getList, assertValue", "src/OpenMPCD/Configuration.cpp"]}
{"id": "C96", "title": "Random numbers have the distribution that has been asked for", "statement": "The numbers returned by the gamma distribution with any positive shape and scale have exactly the gamma distribution with this shape and this scale; its loops end with probability one. The numbers of the uniform distribution that excludes both ends are uniform, and never one of the ends. In the thermostat, the kinetic energy of relative motion in each cell has the Maxwell-Boltzmann distribution for the target temperature after each collision, whatever it was before, and its mean is 3/2 (n - 1) kT.", "quantifier": "every shape, scale, number of particles, and configuration of particles", "why_tests_cant": "a statement about probability distributions: samples can only make it plausible", "anchors": ["include/OpenMPCD/CUDA/Random/Distributions/Gamma.hpp", "include/OpenMPCD/CUDA/Random/Distributions/Gamma_shape_ge_1.hpp", "include/OpenMPCD/CUDA/Random/Distributions/Uniform0e1e.hpp", "cudaDeviceCode/OpenMPCD/CUDA/DeviceCode/Simulation.cu: generateCollisionCellMBSFactors"]}
{"id": "C97", "title": "All directions are equally likely", "statement": "The random unit vectors, both those drawn on the host and those drawn on the device, have the uniform distribution on the unit sphere: the probability of any set of directions is the fraction of the volume of a ball that lies in these directions, and no rotation or reflection changes it. Hence each component along any direction is uniform between -1 and 1, has the mean zero and the mean square 1/3, and rotating a relative velocity by an angle alpha around a random axis, as is done in collisions, multiplies it by (1 + 2 cos alpha) / 3 on average.", "quantifier": "every set of directions, every rotation, every velocity and angle", "why_tests_cant": "a statement about probability distributions: samples can only make it plausible", "anchors": ["include/OpenMPCD/Vector3D.hpp: getRandomUnitVector, getUnitVectorFromRandom01", "cudaDeviceCode/OpenMPCD/CUDA/DeviceCode/Simulation.cu: generateCollisionCellRotationAxes"]}
{"id": "C98", "title": "Random grid shifts make the position of the cells immaterial", "statement": "With random grid shifts of scale one, the probability that exactly a given set of pairs of particles share collision cells does not change if all particles are moved by the same vector, whatever the positions of the particles. With sheared boundaries, this holds for vectors perpendicular to the gradient of the flow.", "quantifier": "every finite or countable set of particles, all positions, all vectors, all box sizes, shear rates and times", "why_tests_cant": "a statement about probabilities for all configurations of particles", "anchors": ["cudaDeviceCode/OpenMPCD/CUDA/DeviceCode/Simulation.cu: generateGridShiftVector, sortIntoCollisionCellsLeesEdwards", "include/OpenMPCD/CUDA/DeviceCode/Simulation.hpp: generateGridShiftVector"]}
{"id": "C99", "title": "A dumbbell's spring keeps the configured bond length", "statement": "For every root mean square bond length, relaxation time and shear rate, constructing a fluid of Gaussian dumbbells finds the strength of the spring without an exception being thrown. The ratio to the strength without flow is the only positive number for which the mean square bond length in the flow is the configured one; it is at least one, does not depend on the direction of the flow, increases with its speed, and is continuous, also where the flow comes to rest. Without flow, the mean square bond length in thermal equilibrium is the configured one. The spring constant of the velocity-Verlet streaming and the frequency of the analytic streaming belong to the same spring. Dumbbells placed \"perfect\" have exactly the configured length, whatever the shear rate, in each fluid constructed.", "quantifier": "every bond length, relaxation time, shear rate, temperature, sequence of random numbers; every fluid constructed in a process", "why_tests_cant": "uniqueness of a root, continuity and a thermal average are statements about a continuum of values", "anchors": ["src/OpenMPCD/AnalyticQuantitiesGaussianDumbbell.cpp: lagrangianMultiplier, lagrangianMultiplierRatio", "include/OpenMPCD/AnalyticQuantitiesGaussianDumbbell.hpp: zeroShearLagrangianMultiplier, weissenbergNumber", "src/OpenMPCD/CUDA/MPCFluid/GaussianDumbbells.cu: GaussianDumbbells, getInitialDumbbellPartnerPosition"]}
{"id": "C100", "title": "Predicted transport coefficients are defined, positive and consistent", "statement": "For all positive temperatures, masses, time steps, cell sizes and mean particle counts, and every angle that is not a multiple of a full turn, the predicted kinetic and collisional viscosities are defined and positive, the dynamic viscosity is the mass density times the kinematic one, and in two and more dimensions the predicted self-diffusion coefficient and the hydrodynamic radius are positive. The functions of the C++ code and of the Python code agree, and the prediction program prints the sum of both contributions for unit cells or refuses arguments that are not positive.", "quantifier": "all positive arguments and all angles", "why_tests_cant": "division by zero and the sign have to be excluded for a continuum of arguments", "anchors": ["src/OpenMPCD/AnalyticQuantities.cpp", "src/OpenMPCD/AnalyticQuantitiesGaussianDumbbell.cpp: zeroShearRelaxationTime", "Analysis/MPCDAnalysis/AnalyticQuantities_SimpleFluid.py", "Analysis/getSRDKinematicShearViscosityPrediction.py"]}
{"id": "C101", "title": "Collisions and streaming keep volumes in phase space", "statement": "Without thermostat, for any number of particles with positive masses, any box, shear rate, time, grid shift and unit rotation axes, a collision step, a streaming step of a fluid without bonds, and any sequence of such steps map the set of all positions and velocities to itself without changing volumes.", "quantifier": "any number of particles, all masses, boxes, shear rates, times, random numbers, and numbers of steps", "why_tests_cant": "a volume in a space of arbitrarily many dimensions, for every region in it, is not accessible to tests", "anchors": ["cudaDeviceCode/OpenMPCD/CUDA/DeviceCode/Simulation.cu: collisionCellStochasticRotationStep1, collisionCellStochasticRotationStep2", "src/OpenMPCD/CUDA/Simulation.cu: sweep, collide", "cudaDeviceCode/OpenMPCD/CUDA/MPCFluid/DeviceCode/Simple.cu: streamSimpleMPCParticle"]}
{"id": "C102", "title": "The simulated fluid stays in thermal equilibrium", "statement": "If the velocities of the particles have the Maxwell-Boltzmann distribution, then after a collision they have it again, whatever the positions, the grid shift and the rotation axes: without thermostat for every temperature, with the thermostat for its target temperature. If moreover the positions are independent and uniformly distributed in the box, then after any number of steps of a run without shear the positions (taken to the box) and the velocities have the same joint distribution as at the start. The mean kinetic energy then is kT/2 for each component of each velocity.", "quantifier": "any number of particles, all masses, boxes, collision angles, time steps, temperatures, grid shifts and unit rotation axes, every number of steps", "why_tests_cant": "equality of probability distributions in a space of arbitrarily many dimensions, after every number of steps; a sample can only fail to refute it", "anchors": ["cudaDeviceCode/OpenMPCD/CUDA/DeviceCode/Simulation.cu: collisionCellStochasticRotationStep1, generateCollisionCellMBSFactors, collisionCellStochasticRotationStep2", "src/OpenMPCD/CUDA/Simulation.cu: sweep, collide", "include/OpenMPCD/CUDA/Random/Distributions/Gamma_shape_ge_1.hpp: operator()"]}
{"id": "C103", "title": "The dynamics has the symmetries of mechanics", "statement": "A run as seen by an observer moving with constant velocity is a run with the same random numbers, except that the collision grid moves with the observer: positions differ by the observer's displacement and velocities by its velocity at every step, with and without shear and thermostat. What happens to a particle does not depend on the order in which the particles are stored. Without thermostat, a run is undone by performing its steps in reverse order, starting with reversed velocities, with reversed rotation axes, shear rate and time.", "quantifier": "any particles with positive masses, boxes, shear rates, times, random numbers and numbers of steps; all displacements and velocities of the observer; all orders of the particles", "why_tests_cant": "equality of whole trajectories for every velocity of the observer and every number of steps", "anchors": ["cudaDeviceCode/OpenMPCD/CUDA/DeviceCode/Simulation.cu", "src/OpenMPCD/CUDA/Simulation.cu: run, stream, collide", "cudaDeviceCode/OpenMPCD/CUDA/MPCFluid/DeviceCode/Simple.cu: streamSimpleMPCParticle"]}
{"id": "C104", "title": "Bond and self-diffusion measurements of molecular fluids are what their names say", "statement": "After any history of measurements, each saved histogram of a dumbbell, rod or trimer fluid counts its quantity (length, square of the length, components, products of components, angle with the flow) for its bond of every molecule in every measurement, and nothing else; the averages of the squares of the bond components belong to the time of the measurement; the squared bond lengths of chains are averaged per bond over all chains and measurements; and each self-diffusion coefficient is the mean square displacement of the centers of mass over a window of at least the configured duration, divided by six times its duration, with windows following each other without gaps.", "quantifier": "all numbers of molecules, histogram ranges, histories of measurements, positions and times", "why_tests_cant": "positions and histories are unbounded, and a swapped component shows only for particular orientations", "anchors": ["src/OpenMPCD/CUDA/MPCFluid/Instrumentation/GaussianDumbbells.cpp: measureSpecific", "src/OpenMPCD/CUDA/MPCFluid/Instrumentation/GaussianRods.cpp: measureSpecific", "src/OpenMPCD/CUDA/MPCFluid/Instrumentation/HarmonicTrimers.cpp: measureSpecific, getTrimerCenterOfMass", "src/OpenMPCD/CUDA/MPCFluid/Instrumentation/GaussianChains.cpp: measureSpecific, saveSpecific"]}
{"id": "C105", "title": "A simulation that starts is the configured one, and one that cannot be run as configured does not start", "statement": "Constructing a simulation succeeds exactly if every setting needed is there with its type, the boundary conditions are Lees-Edwards ones in one of two styles, the number of particles is the density times the volume and a multiple of the molecule size, at most one kind of fluid and nothing unknown is configured, and the time steps of the solute fit into those of the fluid; the simulation then has the configured box, time step, angle, shear rate, fluid and solute, and can be run.", "quantifier": "all configurations", "why_tests_cant": "configurations are arbitrary trees, and faults show only for particular combinations of settings", "anchors": ["src/OpenMPCD/CUDA/Simulation.cu:100-239", "src/OpenMPCD/CUDA/BoundaryCondition/Factory.cpp: getInstance", "src/OpenMPCD/CUDA/MPCFluid/Factory.cpp: getInstance", "src/OpenMPCD/CUDA/MPCSolute/Factory.cpp: getInstance", "the constructors of the classes in src/OpenMPCD/CUDA/MPCFluid", "doc/mainpage.dox:68-125"]}
{"id": "C106", "title": "Simulations in one process do not influence each other", "statement": "After any history of constructing simulations, attempts refused with an exception, and runs in any order, the positions, velocities and time of each simulation are what they would be had nothing been done with the others.", "quantifier": "all histories, all settings of the simulations, all initial states", "why_tests_cant": "interference depends on the order of constructions and runs of differently configured simulations, of which there are unboundedly many", "anchors": ["src/OpenMPCD/CUDA/Simulation.cu: initialize, run, stream", "src/OpenMPCD/CUDA/DeviceCode/Symbols.cu", "src/OpenMPCD/CUDA/MPCFluid/DeviceCode/Symbols.cu", "src/OpenMPCD/CUDA/BoundaryCondition/LeesEdwards.cu", "src/OpenMPCD/CUDA/MPCFluid/Base.cu:29", "src/OpenMPCD/CUDA/MPCFluid/GaussianDumbbells.cu:33-37,64-68", "cudaDeviceCode/OpenMPCD/CUDA/MPCFluid/DeviceCode/Simple.cu"]}
{"id": "C107", "title": "Cached star polymer quantities are what computing them gives", "statement": "Whenever a star polymer quantity is asked for as a function of time, after any history of asking for quantities, updating caches with or without force, and the simulation run going on, the result is what computing the quantity from the present data of the run gives.", "quantifier": "all histories, all quantities with files of their own, all data", "why_tests_cant": "whether a result comes from the cache, and how old it is, depends on the whole history of queries, updates and changes of the run", "anchors": ["Analysis/MPCDAnalysis/StarPolymersAnalysis/Base.py: getValueAsFunctionOfTime, updateCache, setWritePath, _hasDataInCache, _storeDataInCache, _getDataInCache", "Analysis/MPCDAnalysis/StarPolymersAnalysis/Cache.py", "Analysis/MPCDAnalysis/StarPolymersAnalysis/Acylindricity.py: _getCacheFilename"]}
{"id": "C108", "title": "The density profile shown is the mass density of the fluid", "statement": "After any measurements of a simulation, the saved density profile can be read by the analysis, and what it shows at the coordinates of each part of a collision cell, and nowhere else, is the mass density there, averaged over the measurements and along z.", "quantifier": "every box size, subdivision, shear rate, sequence of particle states, rounding that tells coordinates apart", "why_tests_cant": "all grids, particle positions and histories of measurements; tests use a handful of small ones", "anchors": ["src/OpenMPCD/DensityProfile.cpp:47-69", "include/OpenMPCD/DensityProfile.hpp:126-134", "Analysis/MPCDAnalysis/DensityProfile.py:5-12", "Analysis/MPCDAnalysis/DensityProfile.py:39-67", "src/OpenMPCD/CUDA/Instrumentation.cpp:177-275"]}
{"id": "C109", "title": "The interactive plotter shows the data provided, with their own characteristics", "statement": "After any history of providing data, files and directories, showing and hiding plots, and changing the style, the canvas shows exactly the plots marked as plotted, each once and in the present style; each plot has the points of its file and, as characteristics, those given for it and those of its file (given ones first); the columns are the characteristics in use that are not hidden, each once, in the order set.", "quantifier": "all histories of operations, all files, all dictionaries of characteristics, shared or not", "why_tests_cant": "depends on the history of calls, in particular on which objects are shared between calls", "anchors": ["Analysis/MPCDAnalysis/InteractivePlotter/Plotter.py:22-117", "Analysis/MPCDAnalysis/InteractivePlotter/Plotter.py:119-140", "Analysis/MPCDAnalysis/InteractivePlotter/Plotter.py:159-178", "Analysis/MPCDAnalysis/InteractivePlotter/Plotter.py:202-234", "Analysis/MPCDAnalysis/InteractivePlotter/Plotter.py:236-328"]}
{"id": "C110", "title": "MPI is running while wrapper instances exist, and broadcast data arrive", "statement": "If the documented rule is kept to (the first wrapper instance ends last, and none is constructed after it), then MPI is initialised once by the first instance and finalised once by it, is running exactly while there are instances, and no constructor, destructor or communication fails; if MPI was running before, the wrapper never finalises it. After a broadcast, the first `count` elements of the buffers of all processes are those of the root.", "quantifier": "all histories of constructing, destroying and using any number of instances; all buffers, element sizes, counts and roots", "why_tests_cant": "depends on histories of lifetimes of objects; a test program can initialise MPI only once; large buffers are not tested", "anchors": ["include/OpenMPCD/MPI.hpp:16-25", "src/OpenMPCD/MPI.cpp:12-77", "src/OpenMPCD/MPI.cpp:79-125", "include/OpenMPCD/ImplementationDetails/MPI.hpp:18-37"]}
{"id": "C111", "title": "The version recorded is the commit the program was made from, and known bugs in it are recognised", "statement": "The version a program identifies itself by, and the description the analysis package gives, are the hash of the current commit, followed by +MODIFICATIONS if tracked files are modified and by +UNTRACKED if there are files neither tracked nor ignored; without a repository, the version is the empty string. A commit is said to be free of known bugs if and only if it has none of them.", "quantifier": "all repositories: histories, tags, branches, working directories; all contents of the file generated before; all lists of bugs", "why_tests_cant": "depends on the state of the repository when building; the test can only see the present one", "anchors": ["tools/writeVersionFile.sh:3-34", "include/OpenMPCD/getGitCommitIdentifier.hpp:14-28", "Analysis/MPCDAnalysis/ProgramVersionDatabase.py:38-74", "Analysis/MPCDAnalysis/ProgramVersionDatabase.py:77-89", "Analysis/MPCDAnalysis/ProgramVersionDatabase.py:117-130"]}
{"id": "C112", "title": "Random speeds have the Maxwell-Boltzmann distribution", "statement": "The speeds drawn for a mass m and a temperature kT have the density (m/(2 pi kT))^(3/2) 4 pi v^2 exp(-m v^2/(2 kT)), as documented; the drawing ends with probability one, with a positive, finite number.", "quantifier": "all positive masses and temperatures; all sets of speeds", "why_tests_cant": "a statement on probabilities, for which tests can at most compare histograms, and which involves a loop without a bound", "anchors": ["include/OpenMPCD/MaxwellBoltzmannDistribution.hpp:22-32", "src/OpenMPCD/MaxwellBoltzmannDistribution.cpp:6-38"]}
{"id": "C113", "title": "What the fluid shows of its particles, searches and writes to snapshots", "statement": "The positions and velocities returned are those the device had the last time they were fetched; what is set arrives at the device; writing a snapshot fetches first and writes what the device has, or throws the documented exception and changes nothing; a search yields exactly the particles that meet the criterion, in order; the centres of mass of molecules are the means of their particles' current positions, whatever the order of the threads.", "quantifier": "all numbers and states of particles; all histories of fetching, setting, searching, writing snapshots and changes by kernels; all criteria; all orders of threads; all kinds of fluids", "why_tests_cant": "needs all histories and all schedules", "anchors": ["src/OpenMPCD/CUDA/MPCFluid/Base.cu:53-191", "include/OpenMPCD/CUDA/MPCFluid/Base.hpp:109-276", "cudaDeviceCode/OpenMPCD/CUDA/MPCFluid/DeviceCode/Base.cu:23-56"]}
{"id": "C114", "title": "The initial state of star polymers", "statement": "Without a file to start from, the particles of a star polymer start at rest, with the core at the origin and the arms in equal angles, bonded particles at distance one, no two particles at the same place and non-bonded ones not closer than bonded ones, the bonds within their extensibility, and the centre of mass at the core; nothing is left to chance.", "quantifier": "all numbers of stars, arms and particles; all contents of the memory allocated; all interaction parameters", "why_tests_cant": "needs all structures; indeterminate memory contents are not reproducible", "anchors": ["src/OpenMPCD/CUDA/MPCSolute/StarPolymers.cu:285-300", "src/OpenMPCD/CUDA/MPCSolute/StarPolymers.cu:740-829", "include/OpenMPCD/CUDA/MPCSolute/ImplementationDetails/StarPolymers_Implementation.hpp:295-337"]}
{"id": "C115", "title": "What plots of flow profiles show", "statement": "The plot of the flow profile has at each layer the mean of the velocities along x, the theoretical profile if asked for, and a shaded region which reaches the given number of standard errors of that layer below and above the mean; a negative number is refused. The display of the vector field shows in each cell the mean velocity in the output block and at the height chosen last with the sliders.", "quantifier": "all profiles, numbers of data, factors, box sizes and numbers of output blocks; all histories of moves of the sliders; all orders of iteration over dictionaries; Python 2 and 3", "why_tests_cant": "graphical output is not tested; needs all histories and all orders of iteration", "anchors": ["Analysis/MPCDAnalysis/FlowProfile.py:69-138", "Analysis/MPCDAnalysis/FlowProfile.py:261-346", "Analysis/MPCDAnalysis/PlotTools.py:83-154"]}
{"id": "C116", "title": "Vectors stored in arrays of components", "statement": "Vectors accessed in an array of components behave as independent vectors, whatever is done to them in whatever order: each operation has its effect on its vector and touches no other memory, also if a vector is assigned to itself; what is computed from them is what is computed from their components, without loss of precision; concurrent atomic additions are all effective; out-of-range components are refused in debug mode.", "quantifier": "all memory contents, arrays, histories of operations, interleavings of atomic additions; all dimensions where the class allows them", "why_tests_cant": "needs all histories, aliasing patterns and interleavings", "anchors": ["include/OpenMPCD/RemotelyStoredVector.hpp:26-460", "cudaDeviceCode/OpenMPCD/RemotelyStoredVector.cu:8-33"]}
{"id": "C117", "title": "Programs started at different times use different random numbers", "statement": "Two programs which are started at different times, or at the same time on different computers, use different seeds for their random numbers.", "quantifier": "all start times, all computers, all numbers of programs", "why_tests_cant": "depends on clocks and on pairs and large numbers of runs", "anchors": ["src/OpenMPCD/main.cpp:139-148", "src/OpenMPCD/main.cpp:159-162"]}
{"id": "C118", "title": "The exit status and the saved results tell what has become of a run", "statement": "The program reports success through its exit status exactly if it has done what it was asked to do, i.e. all sweeps have been performed (or the help has been printed). A program asked to end does so after the current sweep and saves its results, however many signals it receives; signals for saving early or for the end of the terminal do not end it.", "quantifier": "all command lines, configurations, histories of signals arriving at any moment, exceptions", "why_tests_cant": "signals arrive at any moment, in any number and order", "anchors": ["src/OpenMPCD/main.cpp:75-136", "src/OpenMPCD/main.cpp:221-308"]}
{"id": "C119", "title": "Numbers saved as text are read back unchanged", "statement": "Every number that the simulation or the analysis saves to a file as text is read back as exactly the same number of its type; different numbers have different texts.", "quantifier": "all numbers of the floating-point types, including subnormal ones; all ways of resolving ties", "why_tests_cant": "there are 2^64 numbers of the default type", "anchors": ["include/OpenMPCD/Types.hpp:13", "src/OpenMPCD/VTFSnapshotFile.cpp:51", "include/OpenMPCD/ImplementationDetails/OnTheFlyStatistics.hpp:29", "src/OpenMPCD/CUDA/MPCFluid/Instrumentation/GaussianChains.cpp:83-108", "Analysis/MPCDAnalysis/OnTheFlyStatistics.py:199-204", "Analysis/MPCDAnalysis/Configuration.py:326"]}
{"id": "C120", "title": "Every particle is assigned to an existing collision cell, with floating-point rounding", "statement": "Although all operations round, the image of every position lies in the primary simulation volume, and the collision cell computed for a particle is one of those there are.", "quantifier": "all floating-point positions of moderate size, all box sizes, times and shear rates, any rounding to nearest", "why_tests_cant": "rounding matters only for positions in regions of the size of the spacing of floating-point numbers", "anchors": ["cudaDeviceCode/OpenMPCD/CUDA/DeviceCode/LeesEdwardsBoundaryConditions.cu:17-87", "src/OpenMPCD/LeesEdwardsBoundaryConditions.cpp:6-48", "cudaDeviceCode/OpenMPCD/CUDA/DeviceCode/Simulation.cu:34-115"]}
{"id": "C121", "title": "Statistics saved and restored in C++ go on as if uninterrupted", "statement": "OnTheFlyStatisticsDDDA::unserializeFromString restores what serializeToString of the C++ or the Python class wrote, after any data and merges, so that adding further data gives the same as without interruption; texts that are not a valid state throw InvalidArgumentException and leave the object as it was.", "quantifier": "all data before and after saving, all objects restored into, all texts", "why_tests_cant": "the text has a part for each block and each waiting datum, whose number and pattern depend on all data added", "anchors": ["include/OpenMPCD/ImplementationDetails/OnTheFlyStatisticsDDDA.hpp:234-316", "include/OpenMPCD/OnTheFlyStatisticsDDDA.hpp:214-244"]}
{"id": "C122", "title": "Estimates from random data are unbiased", "statement": "If the data are random, the expected sample mean, sample variance, squared standard error of the mean (of every block of the blocking analysis) and autocorrelation are the true expected value, variance, variance of the mean and correlation; also the sample standard deviation is documented as unbiased. For correlated data, the error a block reports is too small on average exactly if the variance of the mean exceeds that of uncorrelated block averages.", "quantifier": "all distributions with finite variance, all numbers of data and block sizes, all correlations", "why_tests_cant": "expected values over all possible data sets cannot be observed from any number of samples", "anchors": ["include/OpenMPCD/OnTheFlyStatistics.hpp:54-129", "Analysis/MPCDAnalysis/OnTheFlyStatistics.py", "Analysis/MPCDAnalysis/OnTheFlyStatisticsDDDA.py: getBlockStandardErrorOfTheMean", "Analysis/MPCDAnalysis/Autocorrelation.py"]}
{"id": "C123", "title": "Simulation time is accurate under floating-point rounding", "statement": "The simulation time after n sweeps is n times the time step up to a relative error of at most 2n units of rounding, and exactly that if the time step is a small multiple of a power of two. It never decreases; it advances with each sweep until it is about 2^53 time steps (and then it stops). As long as rounding errors are below the tolerance of 1e-6, velocity autocorrelation snapshots are taken and overridden, and correlations recorded, at exactly those sweeps at which they would be without rounding.", "quantifier": "all time steps, numbers of sweeps, roundings to nearest (any rule for ties), measurement times, numbers of snapshots, and histories of measurements", "why_tests_cant": "rounding errors accumulate over arbitrarily many sweeps, and depend on every bit of the time step", "anchors": ["src/OpenMPCD/CUDA/Simulation.cu:253-271", "src/OpenMPCD/CUDA/MPCFluid/Instrumentation/VelocityAutocorrelation/Base.cu:113-173", "include/OpenMPCD/CUDA/Simulation.hpp:200-203"]}
{"id": "C124", "title": "Device memory holds what is copied to it, in buffers as large as asked for", "statement": "Elements copied between Host and Device, in either direction, arrive unchanged, zeroed memory is zero, comparisons tell whether all bytes are equal, and memory no request is about keeps its contents. In debug mode, NULL and pointers to the wrong kind of memory are refused before anything is changed. Memory allocated for a number of elements has room for that number.", "quantifier": "all element sizes and counts, addresses, contents, earlier errors, and histories of requests", "why_tests_cant": "sizes at which counts overflow need more memory than test machines have; contents and histories are unbounded", "anchors": ["include/OpenMPCD/CUDA/DeviceMemoryManager.hpp", "include/OpenMPCD/CUDA/ImplementationDetails/DeviceMemoryManager.hpp", "src/OpenMPCD/CUDA/DeviceMemoryManager.cpp:81-165", "include/OpenMPCD/CUDA/ImplementationDetails/DeviceBuffer.hpp", "src/OpenMPCD/CUDA/Simulation.cu:186-201"]}
{"id": "C125", "title": "The script for polymer relaxation times shows the decay of the measured normal mode correlations", "statement": "From the correlation files of any number of runs, the script for polymer relaxation times yields, for each normal mode asked for and each time difference measured, exactly once, the average of all correlations of that mode at that difference, divided by the average at difference zero; saved rows are ordered by increasing difference.", "quantifier": "all files, runs, selections of modes, and orders in which a dictionary may be iterated over", "why_tests_cant": "files and the number of runs are unbounded, and the iteration order of dictionaries depends on the interpreter", "anchors": ["Analysis/getRelaxationTime.py", "src/OpenMPCD/CUDA/MPCFluid/Instrumentation/NormalModeAutocorrelation.cpp:201-235"]}
{"id": "C126", "title": "Plots of dumbbells in shear flow show the measured moments and the theory the simulation is based on", "statement": "The theoretical curves plotted for dumbbells in shear flow are the second moments of the bond vector that are stationary in the flow, with the same multiplier ratio as the simulation uses, so that the mean square bond length is kept; the angle curve is that of these moments, measured as in the data. Each run contributes exactly one point, its measured mean squares in units of the theory, to the curve of its parameters; curves are ordered by Weissenberg number, and each title is followed by its own data.", "quantifier": "all Weissenberg numbers, orders of the roots found numerically, sets of run directories, and parameters", "why_tests_cant": "real parameters and sets of runs cannot be enumerated; the order of roots depends on the library", "anchors": ["Analysis/MPCDAnalysis/DumbbellUtilities.py", "Analysis/MPCDAnalysis/DumbbellAlignment.py:18-20", "Analysis/plotMeanSquareBondComponents.py", "Analysis/plotDumbbellXYCorrelation.py", "Analysis/plotDumbbellAlignment.py", "src/OpenMPCD/AnalyticQuantitiesGaussianDumbbell.cpp:34-49"]}
{"id": "C127", "title": "The transverse velocity correlation script correlates the velocities perpendicular to the wave vector, over all runs", "statement": "From the velocities recorded by a number of runs for a wave vector, the script computes for each number of measurements (below 5000) between which velocities have been recorded the time between them, and the mean product of the velocity components perpendicular to the wave vector, over all runs, relative to the mean square. It does so with any Python version, and refuses runs whose wave vectors or time steps differ.", "quantifier": "all files written by the simulation, numbers of runs, lengths of runs, box sizes, and wave vectors", "why_tests_cant": "the numbers of runs and measurements and the box are unbounded; the tests of the repository do not run the script", "anchors": ["Analysis/transverseVelocityCorrelationFunction.py:58-185", "Analysis/MPCDAnalysis/Vector3D.py", "Analysis/MPCDAnalysis/Data2D.py"]}
{"id": "C128", "title": "The tables saved by the correlation scripts contain every average, and the list of runs names them", "statement": "Asked to save a table of normal mode autocorrelations, mean square displacements, or velocity autocorrelations of a number of runs, the scripts save a row for each mode and time there is to measure, in order, with the mean, the standard error (from blocks of data as described by Lee et al.) or standard deviation, and the number of all data of these runs; the second table of modes has the same numbers for time 0 and the modes neither first nor last. The list saved along with it is a JSON object naming the run directories, and is ignored if no file is given to save the table to.", "quantifier": "all runs, numbers of measurements, modes, times, settings of the scripts, and paths", "why_tests_cant": "the numbers of runs, measurements, and data in a table are unbounded; the tests of the repository do not run the scripts", "anchors": ["Analysis/NormalModeAutocorrelation.py:46-104", "Analysis/LogicalEntityMeanSquareDisplacement.py:50-79", "Analysis/velocityAutocorrelation.py:48-79", "Analysis/MPCDAnalysis/OnTheFlyStatisticsDDDA.py:378-399"]}
{"id": "C129", "title": "Plots with one number per run show every run on the right curve", "statement": "Given a number of runs, the scripts plotting mean bond lengths, self-diffusion coefficients, and flow profile heights draw one curve for each spring constant, measurement time, or group of runs, and on it a point for each of the runs, with the number measured in this run at its shear rate or gravity; the titles are in the order of the curves, and a theoretical curve is drawn if one is given. Runs with differing spring constants and a missing group name are refused.", "quantifier": "all sequences of runs and groups, and all settings and numbers", "why_tests_cant": "the number of runs and the equality of their settings are unbounded; the tests of the repository do not run the scripts", "anchors": ["Analysis/plotMeanSquareBondLengths.py", "Analysis/compareSelfDiffusionCoefficientMeasurementTimes.py", "Analysis/plotFlowProfileParabolaDistortion.py"]}
{"id": "C130", "title": "Floating-point rounding changes momentum and energy by little in each collision", "statement": "In floating-point arithmetic, a collision changes the momentum of the particles in a cell by no more than a constant times the number of these particles, the relative accuracy of the numbers, the mass of the cell, and the largest velocity component (times the factor of the thermostat if that is above one); this holds in whatever order threads add to the momentum of the cell, for any axis, and if multiplications and additions are combined to one operation. Without thermostat, the same holds for the kinetic energy, up to the error of sine, cosine and the length of the axis, which itself is accurate. The total momentum drifts by no more than this per collision step, over any number of steps. A particle alone in its cell, of mass one, keeps its velocity exactly.", "quantifier": "all numbers of particles, masses, velocities, axes, angles, thermostat factors, orders of atomic additions, roundings to nearest with any rule for ties, and numbers of collisions", "why_tests_cant": "floating-point numbers, orders of atomic additions and random axes are too many to be tried; tests compare with a tolerance chosen by hand for a few samples", "anchors": ["cudaDeviceCode/OpenMPCD/CUDA/DeviceCode/Simulation.cu", "include/OpenMPCD/Vector3D.hpp", "include/OpenMPCD/RemotelyStoredVector.hpp", "cudaDeviceCode/OpenMPCD/CUDA/DeviceCode/Utilities.cu"]}
{"id": "C131", "title": "On-the-fly means and variances remain sensible and accurate in floating-point arithmetic", "statement": "In floating-point arithmetic, the mean of data that have been added to on-the-fly statistics, or of samples merged, lies between the smallest and the largest datum; the variance is never negative, so that standard deviations and standard errors always are numbers; if all data are the same, the mean is that datum and variance and standard error are zero. The same holds for every block of the dynamic distributable decorrelation algorithm. The error of the mean of n data is at most about n times, and that of the variance at most about 22 n times the rounding error of a number as large as the largest datum or its square.", "quantifier": "all sequences of floating-point data of any length below the number of integers that can be counted, all roundings to nearest with any rule for ties, and with or without fused operations", "why_tests_cant": "floating-point data and their sequences cannot be enumerated; tests compare a few samples with tolerances chosen by hand", "anchors": ["include/OpenMPCD/OnTheFlyStatistics.hpp", "Analysis/MPCDAnalysis/OnTheFlyStatistics.py", "include/OpenMPCD/ImplementationDetails/OnTheFlyStatisticsDDDA.hpp", "Analysis/MPCDAnalysis/OnTheFlyStatisticsDDDA.py"]}
{"id": "C132", "title": "Orientation angles are the angles with the directions in which a molecule extends the most and the least", "statement": "After any history of setting positions, the orientation angle is the angle, between 0 and a right angle, of the given axis and the direction in which the positions extend the most; the orientation angles are those for three directions, from the one of the least extent to the one of the most extent, along with the mean squared extents in ascending order. Neither the length nor the sign of the axis matters. With rounding, the angle with the flow direction is always a number. The curves plotted show each angle, or each component of the rotation frequency, at its time and with its label. A wrong axis is rejected or yields no angle, not a wrong one.", "quantifier": "all histories of a collection, all positions and axes, all eigensystems a correct solver may return, and all roundings to nearest with or without fused operations", "why_tests_cant": "positions and floating-point directions cannot be enumerated, and eigenvectors are only determined up to sign, and not at all if eigenvalues coincide", "anchors": ["Analysis/MPCDAnalysis/ParticleCollection.py", "Analysis/MPCDAnalysis/StarPolymersAnalysis/OrientationAngles.py", "Analysis/MPCDAnalysis/StarPolymersAnalysis/RotationFrequencyVector.py"]}
{"id": "C133", "title": "Floating-point rounding changes the momentum of star polymers by little in each time step", "statement": "In floating-point arithmetic, a molecular dynamics time step changes each component of the total momentum of star polymers by no more than the number of particles, times the relative accuracy of the numbers, times the mass of a particle, times four times the largest velocity component plus sixteen times the number of particles times the change of velocity the largest force would cause in one step. This holds for any forces, in whatever order threads add them, and if multiplications and additions are combined to one operation. Over any number of steps, the momentum drifts by no more than that many times the bound for one step.", "quantifier": "all numbers of particles, all forces, velocities, masses and step sizes without overflow, all orders of additions, all floating-point formats, all numbers of steps", "why_tests_cant": "neither forces nor orders of atomic additions can be enumerated; a test sees a drift for one trajectory only", "anchors": ["src/OpenMPCD/CUDA/MPCSolute/StarPolymers.cu: updateForceBuffer, velocityVerletKernel2, performMDTimestep", "cudaDeviceCode/OpenMPCD/CUDA/DeviceCode/VelocityVerlet.cu: velocityVerletStep2"]}
{"id": "C134", "title": "Molecules keep their energy, within bounds, however long they are simulated", "statement": "In a fluid of dumbbells, trimers or chains with springs, without thermostat and shear flow, the total energy remains within a fixed factor of its initial value over any number of time steps and collisions, in every order of the threads, and no bond becomes longer than this energy allows. The factor is 1 / (1 - k t^2), where k is the spring constant divided by the mass and t the time step (for dumbbells, 1 / (1 - k t^2 / 2)). For dumbbells, time steps for which this factor is not positive are exactly those with which the energy grows beyond all bounds; for chains, with any time step for which it is negative, this is so for chains that are long enough.", "quantifier": "all numbers of molecules and chain lengths, all states, spring constants and time steps, all sequences of streaming and energy-conserving collisions of any length, all thread orders", "why_tests_cant": "a test runs for a finite time; the exact energy is not conserved, so that a slow drift cannot be told from a bounded oscillation", "anchors": ["cudaDeviceCode/OpenMPCD/CUDA/MPCFluid/DeviceCode/GaussianChains.cu: streamGaussianChainsVelocityVerlet", "cudaDeviceCode/OpenMPCD/CUDA/MPCFluid/DeviceCode/GaussianDumbbells.cu: streamDumbbellsVelocityVerlet", "cudaDeviceCode/OpenMPCD/CUDA/MPCFluid/DeviceCode/HarmonicTrimers.cu: streamHarmonicTrimerVelocityVerlet"]}
{"id": "C135", "title": "Streaming conserves the angular momentum; collisions, as documented, do not", "statement": "Without walls and shear flow, streaming leaves the total angular momentum about the origin as it was: for fluids of points, dumbbells (also streamed analytically), trimers, chains and rods, and for star polymers, for any number of time steps and every schedule. Star polymers with magnetic particles are an exception, because dipoles of fixed direction exert a torque: of their angular momentum, the component along the dipoles is conserved. Collisions do not conserve the angular momentum, which README.md states.", "quantifier": "all numbers of molecules and particles, all states, interaction parameters and time steps, all thread orders and schedules, any number of steps; collisions: all angles of rotation", "why_tests_cant": "whether a change is due to rounding or to a force that does not point along the line between particles cannot be seen from a few states", "anchors": ["README.md", "cudaDeviceCode/OpenMPCD/CUDA/MPCFluid/DeviceCode/GaussianChains.cu: streamGaussianChainsVelocityVerlet", "cudaDeviceCode/OpenMPCD/CUDA/MPCFluid/DeviceCode/GaussianDumbbells.cu: streamDumbbellsVelocityVerlet, streamDumbbellAnalytically", "cudaDeviceCode/OpenMPCD/CUDA/MPCFluid/DeviceCode/GaussianRods.cu: streamGaussianRodVelocityVerlet", "cudaDeviceCode/OpenMPCD/CUDA/MPCFluid/DeviceCode/HarmonicTrimers.cu: streamHarmonicTrimerVelocityVerlet", "src/OpenMPCD/CUDA/MPCSolute/StarPolymers.cu: performMDTimestep", "include/OpenMPCD/PairPotentials/MagneticDipoleDipoleInteraction_ConstantIdenticalDipoles.hpp: force"]}
{"id": "C136", "title": "Star polymers are the ones configured, in the simulation and in the analysis", "statement": "Star polymers are set up exactly if the settings documented are there with the types expected and the time step is positive; then they have what is configured: numbers of stars, arms and particles, mass (1 if none is configured), interactions, orientation of the dipoles (along z if none is configured; not zero), and the initial state of the snapshot named, if any. A mass is positive and numbers of stars and arms are not negative. The analysis, given the same configuration, has the same numbers of particles and the same mass, and refuses configurations with other than one star.", "quantifier": "all configurations (trees of groups, lists and scalars) whatever else they contain; for the analysis, the star polymer settings as a configuration of their own or as a part of one", "why_tests_cant": "which settings are needed, which have defaults and which are checked differs between the C++ constructor and the Python class; no test covers the same configuration in both", "anchors": ["src/OpenMPCD/CUDA/MPCSolute/StarPolymers.cu: StarPolymers", "include/OpenMPCD/CUDA/MPCSolute/StarPolymers.hpp", "include/OpenMPCD/Configuration.hpp: Setting::has, Setting::read, Setting::getList", "Analysis/MPCDAnalysis/StarPolymers.py: __init__, getStarCount, getTotalParticleCount, getParticleMass"]}
{"id": "C137", "title": "Vectors of the analysis behave like values", "statement": "Whatever is done with vectors (Vector3DReal), an existing vector changes only if normalize or rotateAroundNormalizedAxis is called on that vector; these give it the components of the new vector that getNormalized or getRotatedAroundNormalizedAxis would return, also when a vector is rotated about itself, and leave it unchanged if they raise. A vector constructed from another vector, a list or tuple of three numbers, or three numbers is a new one with these components; other arguments raise TypeError. Vectors are equal exactly if their components are; != is the negation of ==; equal vectors are close; closeness is symmetric and is not lost by increasing tolerances. The components can be obtained by their indices, and by iterating.", "quantifier": "all programs (sequences of calls, with any aliasing of arguments), all vectors and arguments of any type, all tolerances", "why_tests_cant": "that no call changes a vector it should not change, for every history and every aliasing of arguments, is not testable; symmetry of closeness fails only in a narrow band of values", "anchors": ["Analysis/MPCDAnalysis/Vector3DReal.py: __init__, normalize, rotateAroundNormalizedAxis, isClose, __eq__, __ne__, __getitem__"]}
{"id": "C138", "title": "Velocity autocorrelations do not depend on the order of the additions by more than rounding", "statement": "The velocity autocorrelation recorded differs from the average over the constituents of the scalar products by no more than floating-point rounding: for each of the operations that a product may undergo, the relative accuracy of the numbers times the average of the magnitudes; in whatever order the GPU adds, and if multiplications and additions are combined to one operation. Computations on GPU and host therefore agree up to twice this error, and the cross-check in debug mode, which gives back the memory it has obtained, stops the program only if the computations differ by more than rounding.", "quantifier": "all numbers of constituents, velocities without overflow, orders of additions, and roundings to nearest with any rule for ties", "why_tests_cant": "the order of additions of a parallel reduction is not specified and varies between devices; tests compare with a tolerance chosen by hand", "anchors": ["src/OpenMPCD/CUDA/MPCFluid/Instrumentation/VelocityAutocorrelation/Base.cu: measureWithSnapshot, getCorrelationForSnapshot_CPU_naive, getCorrelationForSnapshot_CPU_thrust"]}
{"id": "C139", "title": "The measurements made are those configured", "statement": "For each kind of fluid, a simulation makes exactly those measurements for which there are settings, with the parameters given there or the documented defaults; a configuration is refused if and only if a setting of a measurement is missing, of the wrong type or out of range, or there is a setting for a measurement that is not known; measurements that are not configured are not needed to start a simulation.", "quantifier": "all configurations, for each kind of fluid, and with no fluid", "why_tests_cant": "there are some thirty measurements, each of which may be configured, misconfigured or left out, for five kinds of fluid: tests cover a few combinations only", "anchors": ["src/OpenMPCD/CUDA/Instrumentation.cpp: Instrumentation", "include/OpenMPCD/CUDA/MPCFluid/Instrumentation/Base.hpp: Base", "src/OpenMPCD/CUDA/MPCFluid/Instrumentation: constructors of Simple, GaussianDumbbells, GaussianChains, GaussianRods, HarmonicTrimers, LogicalEntityMeanSquareDisplacement, NormalModeAutocorrelation, and readConfig of FourierTransformedVelocity::Base, VelocityAutocorrelation::Base", "src/OpenMPCD/Histogram.cpp, DensityProfile.cpp, FlowProfile.cpp: constructors"]}
{"id": "C140", "title": "Error estimates say how far they can be trusted, and equal statistics behave equally", "statement": "For every sequence of data, the standard deviation of each block, and the uncertainty of its standard error, namely the standard error divided by the square root of twice the number of groups, can be obtained exactly if there are at least two groups of data. If the optimal error estimate is said to be reliable, it is based on at least 50 groups, whose size is the smallest for which groups are large compared to correlations (unless the data do not vary). The plot of the error over the block size can be made after any history, with one point for each block that has a variance. Two statistics objects compare as equal if and only if there are no further data after which they give different answers. The text describing an object can be obtained for every sequence of data.", "quantifier": "all sequences of data, all histories of additions and merges, all further data", "why_tests_cant": "equality of behaviour refers to all possible continuations; the criterion for reliability depends on real data of any number", "anchors": ["Analysis/MPCDAnalysis/OnTheFlyStatisticsDDDA.py:210-240,269-302,354-375,476-576", "Analysis/MPCDAnalysis/OnTheFlyStatistics.py:251-285"]}
{"id": "C141", "title": "Parameter files contain every setting under its name", "statement": "A parameter file saved from a configuration consists of two lines with the same number of columns, separated by tabs: the names of all settings and additional parameters, each once and in lexicographic order, and below each name its value in the documented notation, from which the value can be read. If an additional parameter has the name of a setting, nothing is saved.", "quantifier": "all configurations and dictionaries of additional parameters", "why_tests_cant": "names and values are arbitrary texts", "anchors": ["Analysis/MPCDAnalysis/Configuration.py:265-329"]}
{"id": "C142", "title": "A simulation gives back the device memory it took", "statement": "Whatever fluid, measurements and star polymers are configured, and whatever other device memory is requested and given back in the meantime: constructing and destroying a simulation gives back exactly the device memory it took, each piece once, without exception and without a report of unfreed memory. If the constructor throws because of the configuration, it gives back what it took until then.", "quantifier": "all configurations, all addresses handed out by the runtime, all interleaved use of device memory by others, every place at which a configuration is rejected", "why_tests_cant": "leaks depend on which buffers are requested for which configuration, and on where an exception is thrown", "anchors": ["src/OpenMPCD/CUDA/Simulation.cu:22-75", "src/OpenMPCD/CUDA/Simulation.cu:116-239", "src/OpenMPCD/CUDA/MPCFluid/Base.cu:15-46", "src/OpenMPCD/CUDA/MPCSolute/StarPolymers.cu:194-313"]}
{"id": "C143", "title": "Data files are found whether compressed or not, and their headers are read as documented", "statement": "Given the name of a data file, the analysis programs in C++ and the scripts in Python open the file of that name or its compressed version, whichever exists, decompress it exactly if it is compressed, and otherwise report that there is none with the documented exception; both read the same data. All lines are then returned, in order. The header, the lines before the first that does not start with a number sign, is accepted if its lines have the form \"# name = value\", and each name has the value given last.", "quantifier": "all file names, all sets of existing files, all file contents, all names and values", "why_tests_cant": "which file is read depends on which files happen to exist; formats accepted are infinitely many", "anchors": ["Analysis/src/MPCDAnalysis/File.cpp:14-97", "Analysis/include/MPCDAnalysis/File.hpp:23-85", "Analysis/MPCDAnalysis/Utilities.py:1-51"]}
{"id": "C144", "title": "A configuration value used for several runs is the one of each of them", "statement": "For every list of run directories with readable configurations and every setting: if a common value is returned, then every run has the setting, with this value; if a run does not have the setting, or two runs disagree, ValueError is raised; if all runs agree, their value is returned. The outcome does not depend on the order of the runs.", "quantifier": "all lists of runs, all configurations, all settings, all orders of the runs", "why_tests_cant": "consistency is a statement about every pair of runs in lists of any length", "anchors": ["Analysis/MPCDAnalysis/Utilities.py:108-200"]}
{"id": "C145", "title": "The metadata saved with a run identify the device and the times", "statement": "The address recorded for the device has the documented form DDDD:BB:SS and identifies the device among all devices. The start and end times recorded have the documented form, and comparing them as texts is comparing the times. The file consists of one line per entry and determines the number of sweeps, host, device and times.", "quantifier": "all device addresses, all points in time, all host names", "why_tests_cant": "formats have to be right for every number, in particular where digits have to be filled up", "anchors": ["src/OpenMPCD/CUDA/Device.cpp:35-65", "include/OpenMPCD/CUDA/Device.hpp:57-66", "src/OpenMPCD/Utility/HostInformation.cpp:21-36", "src/OpenMPCD/CUDA/Instrumentation.cpp:150-171"]}
{"id": "C146", "title": "Files with transverse velocity correlation functions can be loaded into the interactive plotter", "statement": "A file with a transverse velocity correlation function, written by the analysis script or by the analysis program, can be loaded into the interactive plotter. This gives one plot with the points of the correlation function, and its characteristics are the run directories, wave vector, box, and temperature that were written, and no others. Different wave vectors get different files, and the table can be read by its columns.", "quantifier": "all run directory names, wave vectors, parameters, and tables, all states of the plotter", "why_tests_cant": "writer and reader are different programs; a test has one file, and names of directories and numbers are arbitrary", "anchors": ["Analysis/src/computeTransverseVelocityCorrelationFunction/writePlotfiles.cpp:148-225", "Analysis/src/computeTransverseVelocityCorrelationFunction/writePlotfiles.cpp:256-323", "Analysis/transverseVelocityCorrelationFunction.py:194-219", "Analysis/MPCDAnalysis/InteractivePlotter/Plotter.py:62-117", "Analysis/MPCDAnalysis/Data2D.py:228-243"]}
{"id": "C147", "title": "Merging plots keeps every line with its label", "statement": "The plot of a quantity of a star polymer has one line per component, through the values at their times, with its label. Merging plots gives a plot with all of their lines, in order, each with the label it had; title and axis labels are those of the given plots, each once. The result depends on the given plots only.", "quantifier": "all data, all lists of plots, all orders of iteration over sets", "why_tests_cant": "graphical output is not tested; needs all lists of plots and all orders of iteration", "anchors": ["Analysis/MPCDAnalysis/MatplotlibTools/mergeAxes.py:1-64", "Analysis/MPCDAnalysis/StarPolymersAnalysis/Asphericity.py:19-45", "Analysis/MPCDAnalysis/StarPolymersAnalysis/EckartAngularVelocityVector.py:20-59"]}
{"id": "C148", "title": "Plots with dashed lines show the absolute values, and where they are negative", "statement": "A plot of values with dashed lines for negative ones shows every value once, in order, at its absolute value, as part of a dashed line exactly if it is negative. All parts have one colour, and together one label. The shaded region for the errors reaches from the absolute value less the error to the absolute value plus the error; on a logarithmic axis, it contains the value and can be drawn.", "quantifier": "all values, abscissas, errors, colours, labels", "why_tests_cant": "graphical output is not tested; needs all patterns of signs and all values", "anchors": ["Analysis/MPCDAnalysis/PlotTools.py:31-80"]}
{"id": "C149", "title": "Means, deviations, and averages of sets of data points are what they are called", "statement": "The arithmetic mean of a set of points is the number from which the deviations of the values add up to zero; the order in which the points were added does not matter. The root mean squared deviation is the non-negative number whose square is the mean of the squared deviations from the mean, and is zero exactly if all values are equal. The average of moving averages is an estimate of the mean: it lies between bounds for the data, and is the mean for windows of no extent. A plot of every nth point has these points of the sorted data and no others. Without data, or if the data extend over less than a window, the functions raise.", "quantifier": "all sets of points, orders, window sizes, and numbers n; Python 2 and 3", "why_tests_cant": "all sets of points; the functions have no tests", "anchors": ["Analysis/MPCDAnalysis/Data2D.py:54-90", "Analysis/MPCDAnalysis/Data2D.py:115-124"]}
{"id": "C150", "title": "Reading a state gives it to the star polymers, and what the host sees is what was last fetched", "statement": "Reading a state from a snapshot makes it that of the star polymers: positions and velocities become those of the snapshot; if the snapshot has no velocities, or there is no further state in it, what is not given stays as it is. If reading fails with an exception, the state is unchanged. Writing a state writes the current one, without changing it. The positions and velocities available on the host are those at the time of the last fetching, writing, or reading, whatever has happened on the device since; numbers of particles that do not exist are refused.", "quantifier": "all numbers of stars, arms, and particles, states, snapshots, and histories of fetching, writing, reading, and computations on the device", "why_tests_cant": "all histories of host and device; the source tree contains no test that reads a state back", "anchors": ["src/OpenMPCD/CUDA/MPCSolute/Base.cu:29-75", "src/OpenMPCD/CUDA/MPCSolute/StarPolymers.cu:558-590"]}
{"id": "C151", "title": "The windows of the interactive plotter say what is the case", "statement": "Whatever the user and the program do, the check boxes say whether the axes are logarithmic and whether negative values are drawn with dashed lines; clicking on a box has the effect it says and no other; a scale there is not is refused without effect. The list of plots has each plot once; activating a row toggles the plot whose characteristics the row shows; the rows of the plots that are shown have tick marks; once sorted by a characteristic, the list stays sorted by it.", "quantifier": "all histories of clicks and calls, plots, characteristics, orders, and hidden characteristics", "why_tests_cant": "all histories and sets of characteristics; the windows have no tests", "anchors": ["Analysis/MPCDAnalysis/InteractivePlotter/CanvasFrame.py:96-142", "Analysis/MPCDAnalysis/InteractivePlotter/PlotSelectionList.py:44-79", "Analysis/MPCDAnalysis/InteractivePlotter/Plotter.py:142-200", "Analysis/MPCDAnalysis/InteractivePlotter/Plotter.py:236-292"]}
{"id": "C152", "title": "Velocity autocorrelations of dumbbells, trimers, and chains are of the velocities of their centers of mass", "statement": "The velocities from which the velocity autocorrelations of dumbbells, trimers, and chains are computed are, for each constituent of the fluid, the mean of the velocities of its particles, in whatever order the threads of the computation act; every constituent has its result, and nothing is written beyond the buffer for the results.", "quantifier": "all numbers of particles up to nearly 2^32, chain lengths, velocities, and orders of threads", "why_tests_cant": "all numbers of particles, velocities, and schedules of threads; the tests there are call the function for chains only, with a few lengths", "anchors": ["cudaDeviceCode/OpenMPCD/CUDA/MPCFluid/DeviceCode/Doublets.cu:5-45", "cudaDeviceCode/OpenMPCD/CUDA/MPCFluid/DeviceCode/Triplets.cu:5-46", "cudaDeviceCode/OpenMPCD/CUDA/MPCFluid/DeviceCode/Chains.cu:5-60", "src/OpenMPCD/CUDA/MPCFluid/Instrumentation/VelocityAutocorrelation/Triplets.cu:16-22"]}
{"id": "C153", "title": "Programs asking for single mean square displacements or autocorrelations get those of the measurements asked for", "statement": "After any history of measurements, asking for the mean square displacement between two measurements, or for the autocorrelation of a normal mode between two measurements, gives the value for exactly these two snapshots, if both have been made and their lag and the mode are in the range documented; with debugging enabled, all other arguments are refused as invalid. No memory outside of what is stored is read, and no internal check fails.", "quantifier": "all histories, measurement intervals, ranges of lags, chain lengths, and arguments", "why_tests_cant": "the tests ask after one history with one configuration each; the claim is for all histories and arguments", "anchors": ["src/OpenMPCD/CUDA/MPCFluid/Instrumentation/LogicalEntityMeanSquareDisplacement.cu:164-193", "src/OpenMPCD/CUDA/MPCFluid/Instrumentation/NormalModeAutocorrelation.cpp:166-199"]}
{"id": "C154", "title": "Complex vectors of the analysis behave like values", "statement": "Whatever is done with complex vectors (Vector3D), an existing vector changes only if normalize or rotateAroundNormalizedAxis is called on it, and then has the value that getNormalized or getRotatedAroundNormalizedAxis returns; normalizing gives a positive multiple of length one, or ZeroDivisionError for zero. Vectors are equal (==) exactly if their components are, and different (!=) exactly if they are not equal. Sums, differences, multiples, and quotients by non-zero numbers are those of the components. The three components are available by number, and by iterating over the vector. All of this holds in Python 2 and in Python 3.", "quantifier": "all complex vectors, numbers, and histories of calls, both major versions of Python", "why_tests_cant": "all histories and all vectors; the source tree has no test of this class", "anchors": ["Analysis/MPCDAnalysis/Vector3D.py:3-125"]}
{"id": "C155", "title": "Iterators with a stride never leave their array", "statement": "Whatever is done with an iterator of a StridedPointerIteratorRange (++ before or after, +=), it refers to the element to which as many strides lead as have been asked for, or is past the end if this is beyond the array; past the end, it compares equal to the end of the range, and dereferencing it throws InvalidCallException. The prefix ++ returns the iterator after the call, the postfix ++ the one before. += stops at the end without an exception, also if the iterator is there already. isValid tells whether an iterator has been given an array. This holds on the host and on the device.", "quantifier": "all array lengths and strides, all histories of calls, host and device", "why_tests_cant": "all histories and lengths; the source tree has no test of this class", "anchors": ["include/OpenMPCD/StridedPointerIterator.hpp:23-285", "include/OpenMPCD/StridedPointerIteratorRange.hpp:21-56"]}
{"id": "C156", "title": "Vectors in the plane have the products, magnitudes, and angles of geometry", "statement": "For vectors in the plane (Vector2D), the angle between any two vectors that are not zero is a number between 0 and pi, the same for both orders, and no debug assertion about its cosine fails; its cosine times both magnitudes is the scalar product, and for points given by polar coordinates it is the difference of the angles. With a zero vector, there is no number. Magnitudes are not negative, and zero only for the zero vector. For complex vectors, the scalar product is linear in the second and conjugate-linear in the first vector, is conjugated if they are exchanged, and is real for a vector with itself. Vectors are equal exactly if both coordinates are.", "quantifier": "all real and all complex vectors in the plane", "why_tests_cant": "the tests use lists of vectors; all vectors and all angles are claimed", "anchors": ["include/OpenMPCD/Vector2D.hpp:34-188", "include/OpenMPCD/Vector2D_Implementation2.hpp:26-93"]}
{"id": "C157", "title": "The plot of the alignment of dumbbells shows every run once, and the theory over their range", "statement": "The script plotting the alignment of dumbbells in shear flow succeeds exactly if run directories are given, all of them can be read, and no two have the same Weissenberg number. It then plots one point for each run, at its Weissenberg number (the product of shear rate and relaxation time, if configured, and else the one recorded with the run), with the absolute value of the tangent measured, ordered by Weissenberg number. The order in which the directories are given does not matter. The theoretical curve is shown at a hundred Weissenberg numbers with equal distances, from the smallest to the largest one of the runs, each with the value of the theory.", "quantifier": "all sets and orders of run directories, and all measured values", "why_tests_cant": "sets of runs and real values cannot be enumerated; the source tree has no test of the script", "anchors": ["Analysis/plotDumbbellAlignment.py:12-73"]}
{"id": "C158", "title": "The rows of gyration tensors contain the tensor and its principal axes", "statement": "For each snapshot of a star polymer, the analysis of gyration tensors yields eighteen numbers: the six different components of the tensor, which are the mean products of the coordinates relative to the centre, and the three eigenvalues from the smallest to the largest one, each followed by its eigenvector. The eigenvectors have length one; each eigenvalue is the mean square extent of the polymer along its eigenvector, the first one along a direction in which the polymer extends the least, the last one along a direction in which it extends the most. The eigenvalues add up to the square of the radius of gyration. The row does not depend on where the polymer is.", "quantifier": "all snapshots with at least one particle, all eigensystems the numerical library may return", "why_tests_cant": "the tests compare single collections of particles; all positions, and all choices of eigenvectors for equal eigenvalues, are claimed", "anchors": ["Analysis/MPCDAnalysis/StarPolymersAnalysis/GyrationTensor.py:18-63", "Analysis/MPCDAnalysis/ParticleCollection.py:353-401", "Analysis/MPCDAnalysis/ParticleCollection.py:477-504"]}
{"id": "C159", "title": "No random number is used twice, and threads do not influence random numbers", "statement": "Each collision cell has a generator of its own, with a subsequence of random numbers of its own. Over any history of collisions, no random number is used twice, none is left out, and no generator is used that does not exist. The grid shifts, rotation axes and scalings of velocities, and the states of the generators, do not depend on the order in which the threads on the device act; what happens in a cell depends on the numbers of its own subsequence only.", "quantifier": "all numbers of collision cells, seeds, distributions, histories of collisions, launch sizes and orders of threads", "why_tests_cant": "the tests run single kernels with one order of threads chosen by the device; all orders and histories are claimed", "anchors": ["src/OpenMPCD/CUDA/Simulation.cu:175-180", "src/OpenMPCD/CUDA/Simulation.cu:273-286", "src/OpenMPCD/CUDA/Simulation.cu:456-496", "cudaDeviceCode/OpenMPCD/CUDA/DeviceCode/Simulation.cu:193-229", "cudaDeviceCode/OpenMPCD/CUDA/DeviceCode/Simulation.cu:277-311", "cudaDeviceCode/OpenMPCD/CUDA/DeviceCode/Simulation.cu:410-422"]}
{"id": "C160", "title": "The viscosity found by the transverse velocity correlation script", "statement": "The script combines runs only if they have the same simulation box; otherwise it ends with a ValueError, for any number and order of runs. The wave vectors it computes are those of the periodic box. If the correlation function decays exponentially, as hydrodynamics says, with some kinematic viscosity, and has been measured for a time other than zero, the script finds this viscosity, whatever the box, the wave vector, and the times are.", "quantifier": "all numbers and orders of runs, boxes, wave vectors, viscosities, and sets of times, all best fits the numerical library may return", "why_tests_cant": "the script has no tests; boxes, wave vectors, times and viscosities are unbounded, and the fit is not unique in general", "anchors": ["Analysis/transverseVelocityCorrelationFunction.py:34-55", "Analysis/transverseVelocityCorrelationFunction.py:89-94", "Analysis/transverseVelocityCorrelationFunction.py:187-192", "Analysis/transverseVelocityCorrelationFunction.py:250-259", "Analysis/MPCDAnalysis/Vector3D.py:109-119"]}
{"id": "C161", "title": "The selected project is the one that was last selected", "statement": "Selecting a project by its name makes it the current one, as configured, together with the base configuration and generators that its specification file gives at that time, whatever has been selected before; of several projects with a name, it is the first. If the call raises an exception, because the name is not configured or the file cannot be executed, the selection stays as it was. Selecting a project does not change other projects, nor the names, paths and order of the configured ones.", "quantifier": "all lists of configured projects, all contents of specification files at any time, all histories of calls", "why_tests_cant": "there are no tests of project selection; histories of calls and failures of files are unbounded", "anchors": ["Analysis/MPCDAnalysis/DataManager.py:95-96", "Analysis/MPCDAnalysis/DataManager.py:113-118", "Analysis/MPCDAnalysis/DataManager.py:176-221"]}
{"id": "C162", "title": "Files of static data give the last number stated for each quantity", "statement": "After a file of static data has been read, asking for the equilibrium length of dumbbells, the Weissenberg number, or the ratio of Lagrangian multipliers gives the number that follows the first occurrence of the description of the quantity in the last line that is about it, without the space around the number. A line that contains several descriptions is about the first of them in this order. Other lines have no effect. Reading raises a ValueError exactly if a line is about a quantity but has no number for it, and asking raises a KeyError exactly if no line is about what is asked for.", "quantifier": "all files, all lines, all ways to read numbers, all keys", "why_tests_cant": "there are no tests of static data; files, repeated lines and positions of descriptions are unbounded", "anchors": ["Analysis/MPCDAnalysis/StaticData.py:1-30"]}
{"id": "C163", "title": "Analysis tools for star polymers are registered once, in order", "statement": "After any history of calls, the registry of analysis tools contains each name once, with the class that was first registered under it, in the order of registration. Registering succeeds exactly if the object is a class and no class of its name has been registered before; otherwise, a ValueError is raised and nothing changes. Another registry cannot be made once the module has been imported, and trying to does not change the existing one.", "quantifier": "all histories of calls, all objects", "why_tests_cant": "there are no tests of the registry; histories of calls are unbounded", "anchors": ["Analysis/MPCDAnalysis/StarPolymersAnalysis/Registry.py:1-49"]}
{"id": "C164", "title": "Arithmetic means computed on the device are those of the given values", "statement": "Once any thread of the kernel for arithmetic means has finished, the output is the sum of the given values divided by their number, whatever the number of threads, their schedule, and the order of additions; nothing but the output is changed. The same holds for the function called on the host. That function throws the documented exceptions for null pointers and for zero values in every build, and for pointers to memory of the host if debugging is enabled.", "quantifier": "all values and numbers of values, all addresses, all schedules of threads, all orders of summation, all arguments", "why_tests_cant": "the tests have one list of values, with the output elsewhere, and check exceptions only with debugging enabled; schedules and orders of additions are up to the device", "anchors": ["include/OpenMPCD/CUDA/DeviceCode/Average.hpp:16-71", "include/OpenMPCD/CUDA/DeviceCode/ImplementationDetails/Average.hpp:21-60"]}
{"id": "C165", "title": "The plot of correlations of dumbbell components has one point for each run", "statement": "The script plots, with increasing Weissenberg numbers, one point for each given run: its Weissenberg number and the mean in its histogram. It fails if a run cannot be read, or two runs have the same Weissenberg number. The order in which the runs are given does not matter.", "quantifier": "all lists of runs, with any data and failures", "why_tests_cant": "there are no tests of the script; lists of runs are unbounded", "anchors": ["Analysis/plotDumbbellXYCorrelation.py:11-61"]}

# Design

Target: `/repo` (rfsslam, C++), read as text, not built or run. Models and proofs: Lean 4 under `lean/Verif`.

* `lean/Verif/Model/*.lean`: the model, definition by definition, each citing file and lines.
* `lean/Verif/Lemmas/*.lean`: helper lemmas.
* `lean/Verif/Props/*.lean`: specifications, property theorems (`Cnn_...`), and examples that meet their hypotheses.
* `seeded/LOG.jsonl`: experiments with wrong programs (edited models) and which theorems failed on them.

A theorem whose name ends in `_partial` proves part of its property; what is missing is said in its comment. A theorem whose name contains `violated` proves the negation
of the property (or of an instance) for the model of the unchanged code.

## Trusted base
* The Lean 4.33.0 kernel with Mathlib. Axioms used: `propext`, `Classical.choice`, `Quot.sound`, nothing else; see the last section. No `sorry`, no `native_decide`, no own axioms.
* The translation from C++ to Lean, done by hand. Nothing in this repository checks it against the C++ text; the citations are there for a reader to do so.
* Arithmetic: `double` is exact arithmetic in an ordered field `K` (or the reals, where exponentials, trigonometry or matrices occur). The tolerances in the code (1e-14, 1e-12, 1e-6) are kept.
  Rounding is modelled in `Dbl`, `HungDbl` and `MurtyDbl` only (C228–C237): every double operation is the exact one followed by a rounding to nearest with 53 bits and unbounded exponent. Elsewhere arithmetic is exact. NaN and infinities are explicit outcomes only where a property is about them (division by zero, `log(0)`).
* Machine integers: `int32_t` in `TimeStamp`, the 32-bit counters of `PermutationLexicographic` and `MatPerm` are modelled with their overflow. Other counters are unbounded.
* Undefined behaviour in C++ (null dereference, access out of bounds, iterator past the end, use after free, reading what was never written) is a distinct outcome of the model wherever a modelled function can reach it.
* Memory: value semantics, except for `GaussianMixture` (`Model/GMHeap.lean`, explicit heap with reference counts), the ownership of blocks in `Model/Heap.lean` and the copies between particles, where sharing matters.
* Parallel loops (OpenMP): interleavings of the atomic steps of the iterations (`ParticleFilter::propagate`, `RFSPSOSLAM::evaluateLikelihoods`, `FastSLAM::updateMap`, `RBPHDFilter::update`, `RBCBMeMBerFilter::update`, `RBLMBFilter::update`), otherwise iterations on separate particles.
* Library calls are modelled by their contract, and the theorems hold for every implementation that meets it: `std::sort`, `std::priority_queue`, `boost::connected_components`, random number generators.
  `std::next_permutation` and `std::lower_bound` are modelled by a direct implementation. Eigen algebra is Mathlib's matrix algebra; `atan2` is the argument of a complex number.

## What is modelled and what is not
Modelled (file: model):
TimeStamp: `TimeStamp`; HungarianMethod: `Hungarian`, `HungDbl` (rounded), `CostMatrixReduce`; CostMatrix: `CostMatrixReduce`, `Partition`; MurtyAlgorithm: `Murty`, `MurtyLik`, `MurtyDbl` (rounded); BruteForceAssignment: `BruteForce`;
PermutationLexicographic: `PermLex`; MatrixPermanent: `MatPerm`; OSPA, COLA: `OSPA`; GaussianMixture: `GaussianMixture`, `GMHeap`; GMBernoulliComponent: `GMBernoulli`; Particle, ParticleFilter: `ParticleFilter`;
Rounded arithmetic in ParticleFilter, TimeStamp and the normalisation of angles: `Dbl`; SpatialIndexTree, SpatialIndexBox: `SpatialIndex`; JCBB: `JCBB`; RandomVec: `RandomVec`; ORB: `ORB`; Measurement_amplitude: `Amplitude`; Landmark: `BoundingBox`; MeasurementModel_*: `MeasModels`;
KalmanFilter: `Kalman`; ProcessModel_*: `Motion`; Frame: `Frame`; RBPHDFilter: `PHD`, `RFSLikelihood`, `PHDWeight`, `PHDRuns`, `PHDThreads`; RBCBMeMBerFilter: `CBMeMBer`; RBLMBFilter: `LMB`, `LMBMurty`; FastSLAM: `FastSLAM`, `FastRuns`, `FastThreads`; RFSPSOSLAM, RFSPSOParticle: `PSO`, `PSORuns`, `Batch`, `BatchLik`;
RFSCeresSLAM: `Batch`, `BatchLik`; RBPHDSLAM_2D, RBLMBSLAM_2D (generation, reading, dispatch and export of data), GaussianGenerators, false alarms and dispatch of the Victoria Park programs: `Sim`; analysis2dSim and the logs it reads: `Analysis`; MeasurementModel_VictoriaPark (detection, clutter): `VPark`;
the message loop of the Victoria Park programs: `VParkLoop`; MeasurementModel_RngBrg_amplitude, KalmanFilter_VictoriaPark: `AmpClutter`; Tree: `Tree`; RandomVec (likelihood, sampling): `Gaussian`; LandmarkWithDescriptor, MeasurementWithDescriptor, MeasurementModelWithDescriptor: `Descriptor`; convertLogFiles: `Convert`; rfspsoslam1dSim, rfspsoorbslam1dSim, rfsceresslam1dSim, rfspsoslam2dSim, rfsceresslam2dSim (generation of data, parameter arrays, residuals): `BatchSim`; rbphdslam6dSim (generation and dispatch of data, process noise): `Sim6D`; predict and update of RBCBMeMBerFilter and RBLMBFilter as a whole: `MBFilter`, `MBThreads`; seeding and order of steps of all main programs: `Programs`; the optimisation loops and files of the three particle swarm programs: `PSORuns`; reading of the configuration files and settings made from them in all main programs, and the files in cfg: `Config`, `ConfigFiles`; allocation and freeing of memory by the assignment classes, FastSLAM updates and the optimisers: `Heap`; Timer, the timers of the filters and the printed total times: `Timing`.

Not modelled: rounding outside `Dbl`, `HungDbl` and `MurtyDbl`, overflow and subnormal numbers; input and output (the XML parser, logs, `Visualizer6D`); the rest of the main programs; Eigen's numerical algorithms; the Ceres solver itself.


## Properties

For each property: what is modelled and how it is proved, the outcome, and where the theorems are. The statements are in `properties.jsonl`; the exact theorem names in `MANIFEST.json`.

* **C01 Time stamps are always normalised and keep their value** - integers with the `int32_t` range; operations give an explicit overflow outcome. Invariant over all histories of operations, by linear arithmetic.  
  *proved*: all histories of operations; seconds overflow is an explicit outcome and the only failure.  
  Props/TimeStamp.lean: `C01_always_normalised`, `C01_history_exact`, `C01_overflow_only_in_seconds`, `C01_overflow_is_gross`
* **C02 Time stamp comparisons order instants** - same model; each comparison against the order of the instants `s*10^9+ns`.  
  *proved*: as stated.  
  Props/TimeStamp.lean: `C02_comparisons`, `C02_total_order`
* **C03 Time stamp arithmetic laws** - same model; laws carried over from integers through the map to instants.  
  *proved*: as stated.  
  Props/TimeStamp.lean: `C03_add_sub_cancel`, `C03_add_comm`, `C03_add_assoc`, `C03_assign_ops`
* **C04 Lexicographic association enumeration is complete and repetition free** - `std::next_permutation` on lists of numbers; the object state is a list. Specification: all assignments in lexicographic order. Proved by showing that one step is the lexicographic successor and counting steps.  
  *proved*: return value as unsigned int; the empty object is UB (C04_empty_is_ub).  
  Props/PermLex.lean: `C04_enumeration`, `C04_default_clutter`, `C04_empty_is_ub`
* **C05 Lexicographic permutation enumeration (square, no clutter)** - the enumeration theorem for the square case; the 32-bit counter is modelled.  
  *proved*: the 32-bit counter returns the end marker 0 at call 2^32 (C05_counter_wraps).  
  Props/PermLex.lean: `C05_square`, `C05_counter_wraps`
* **C06 Hungarian method returns a valid assignment** - the passes of the method as a state machine over an ordered field. Invariants: feasible labels, partial matching, tight edges up to tolerance; a bound on passes by a decreasing measure.  
  *proved*: exact arithmetic; termination bound n(n+1)+1 passes.  
  Props/Hungarian.lean: `C06_terminates_valid`
* **C07 Hungarian method is optimal** - weak duality on top of the invariants of C06.  
  *proved*: optimal up to n*1e-12 (tolerance of the code, shown necessary); exact on grids.  
  Props/Hungarian.lean: `C07_maximise_optimal`, `C07_minimise_optimal`, `C07_grid_exact`, `C07_tolerance_needed`
* **C08 Assignment on a reduced cost matrix reports success** - `run(CostMatrix)` on the reduced matrix. Evaluation of the model on a witness; general theorem for the other cases.  
  *partial*: the code violates the full statement (witness C08_reports_failure_on_success); proved when nothing is left over or no reduction was made.  
  Props/CostMatrixReduce.lean: `C08_flag_partial`, `C08_reports_failure_on_success`
* **C09 Cost matrix reduction keeps the optimum** - `reduce` as list operations; exchange argument: an optimum of the reduced matrix extends to an optimum of the whole.  
  *proved*: as stated.  
  Props/CostMatrixReduce.lean: `C09_reduce_partitions`, `C09_reduce_keeps_optimum`, `C09_run_reduced`
* **C10 Cost matrix reduction is repeatable** - state of the `CostMatrix` object after calls of `reduce`; witness for the second call.  
  *partial*: the code violates the full statement (witness C10_second_reduce_duplicates); proved for the first call.  
  Props/CostMatrixReduce.lean: `C10_first_reduce_partial`, `C10_second_reduce_duplicates`
* **C11 Matrix partition is an exact block decomposition** - bookkeeping of `partition()` on top of the contract of `boost::connected_components`; every row and column in one block, nothing outside the blocks.  
  *proved*: for every component numbering allowed by the contract of boost::connected_components.  
  Props/Partition.lean: `C11_block_decomposition`, `C11_repeat`
* **C12 At most one zero partition, correctly flagged** - same model.  
  *proved*: as stated.  
  Props/Partition.lean: `C12_zero_partition`
* **C13 Murty enumerates k-best assignments in order** - the tree of nodes with their fixed and forbidden pairs, the solver being the model of C06/C07; any priority queue. Invariant: the nodes partition the permutations not yet returned, each holding its optimum.  
  *proved*: for every tie-breaking of the priority queue; entries bounded relative to the big number; order up to n*1e-12.  
  Props/Murty.lean: `C13_C14_enumeration`, `C13_ordered_distinct`, `C13_best_of_rest`
* **C14 Murty is exhaustive** - same invariant, when the queue runs empty.  
  *proved*: same hypotheses as C13.  
  Props/Murty.lean: `C14_exhaustive`
* **C15 Murty with a real-assignment block never repeats a real assignment** - same model with a block. Witness of a repetition; for the extended matrices of the filters, results above a floor are shown distinct (see C113).  
  *partial*: the code violates the full statement (witness C15_violated); proved when the block is the whole matrix, and for the extended matrices of the filters for all results above the floor (C15_extended_partial).  
  Props/Murty.lean, Props/MurtyBlock.lean: `C15_violated`, `C15_whole_block_partial`, `C15_extended_partial`
* **C16 Brute-force assignment lists everything best first** - enumeration and sorting of all permutations; contract of `std::sort`.  
  *partial*: the code violates the full statement for maxToMin=false (order reversed, caller matrix changed); full claim proved for maxToMin=true, and the set of rows with scores for both.  
  Props/BruteForce.lean: `C16_max_partial`, `C16_min_rows_partial`, `C16_min_order_violated`, `C16_min_matrix_violated`
* **C17 Matrix permanent** - the Gray-code loop with its counter; Ryser's formula in the form of Nijenhuis and Wilf proved by induction.  
  *proved*: loop counter overflow from n = 32 on is an explicit outcome.  
  Props/MatPerm.lean: `C17_permanent`, `C17_calc`, `C17_empty`
* **C18 OSPA distance of order 1 is the optimal sub-pattern assignment** - cost matrix of `OSPA` given to the model of the Hungarian method; C06 and C07.  
  *proved*: optimal up to n*1e-12; both sets empty gives 0/0 (C18_both_empty_nan).  
  Props/OSPA.lean: `C18_order1`, `C18_both_empty_nan`
* **C19 OSPA distance of order p** - same model with real powers.  
  *partial*: the code violates the full statement (witness C19_violated: it minimises the plain sum); proved: value is the order-p mean of a pairing optimal for order 1.  
  Props/OSPA.lean: `C19_orderp_partial`, `C19_violated`
* **C20 OSPA assignment is one-to-one** - same model.  
  *proved*: as stated.  
  Props/OSPA.lean: `C20_one_to_one`
* **C21 COLA equals the rescaled OSPA** - same model.  
  *proved*: as stated.  
  Props/OSPA.lean: `C21_cola`, `C21_order1`
* **C22 Gaussian count equals the number of stored Gaussians** - list of optional components with a counter; induction over operations; also on the heap model.  
  *proved*: all histories at value level; also for every program at memory level (several mixtures on one heap).  
  Props/GMHeap.lean, Props/GaussianMixture.lean: `C22_count_in_memory`, `C22_count`, `C22_setWeight`
* **C23 Merging conserves weight and moments** - moments over a vector space; induction over the merging loops, for any distance.  
  *proved*: for every distance function; also merges nothing iff no pair is mergeable.  
  Props/GMBernoulli.lean, Props/GaussianMixture.lean: `C23_tracks`, `C23_merge_moments`
* **C24 Pruning keeps exactly the components at or above the threshold** - sorting by contract and the search for the first component below the threshold.  
  *proved*: removed entries must be below the threshold (they have weight 0); for every sort meeting the contract.  
  Props/GMBernoulli.lean, Props/GaussianMixture.lean: `C24_tracks`, `C24_prune`
* **C25 Weight sum and normalisation cover all components** - the loops over `n_` entries.  
  *partial*: the code violates the full statement (witness C25_violated); proved when there are no removed entries.  
  Props/GaussianMixture.lean: `C25_violated`, `C25_no_holes_partial`
* **C26 Copies of a mixture are independent** - heap with reference counts; frame argument: an operation on one mixture does not change the cells of another.  
  *partial*: the code violates the full statement (copy constructor with removed entries, self copy); independence of all other histories and equality of the copy proved.  
  Props/GMHeap.lean: `C26_independent_partial`, `C26_copy_equal_partial`, `C26_copy_ctor_violated`, `C26_self_copy_violated`
* **C27 Track pruning keeps exactly the tracks at or above the threshold** - the loop over an array of tracks; self-assignment leaves an arbitrary mixture.  
  *partial*: the code violates the full statement (self copy reads freed memory when the last track is pruned, witness C27_violated); the kept multiset is proved whatever that leaves behind.  
  Props/GMBernoulli.lean: `C27_kept_tracks_partial`, `C27_violated`
* **C28 Most likely Gaussian of a track** - the loop as a fold.  
  *partial*: the code violates the full statement (witness C28_violated); proved without removed entries and with a positive weight.  
  Props/GMBernoulli.lean: `C28_violated`, `C28_no_holes_partial`
* **C29 Resampling draws each particle floor or ceil of n*w times** - systematic resampling over an ordered field; counting of grid points in an interval.  
  *partial*: the code violates the full statement at offset exactly 0 (witness C29_violated); floor/ceil proved for every offset in (0,1), range safety for [0,1).  
  Props/ParticleFilter.lean: `C29_in_range`, `C29_systematic_sampling_partial`, `C29_violated`
* **C30 Resampling copies what was drawn** - the copying loop over slots; invariant: slots still to be copied are untouched.  
  *proved*: as stated.  
  Props/ParticleFilter.lean: `C30_resample`
* **C31 Particle weights are normalised** - algebra over a field.  
  *proved*: as stated.  
  Props/ParticleFilter.lean: `C31_normalize`, `C31_no_resample`
* **C32 Particle propagation is independent of the thread schedule** - interleavings of iterations that share the temporaries declared outside the loop.  
  *partial*: the code violates the full statement (shared temporaries in the parallel loop, witness C32_violated); proved when iterations do not overlap.  
  Props/ParticleFilter.lean: `C32_propagate_serial_partial`, `C32_violated`
* **C33 Parent ids identify the array slot a particle was copied from** - ids as set by the copying loop.  
  *partial*: the code violates the full statement from the second resampling on (witness C33_violated); proved for the first one.  
  Props/ParticleFilter.lean: `C33_parent_is_source_index_partial`, `C33_violated`
* **C34 Particle ids are unique after addParticles** - ids as set by constructor and `addParticles`.  
  *partial*: the code violates the full statement (witness C34_violated); proved without a second addParticles.  
  Props/ParticleFilter.lean: `C34_ids_distinct_partial`, `C34_violated`
* **C35 Spatial index keeps every inserted point** - tree of boxes over `K^d`; invariant over histories; the growth of the root ends by the Archimedean property.  
  *proved*: for all histories of addData and removeData; also that the growth loop ends.  
  Props/SpatialIndex.lean: `C35_stored`, `C35_add_total`
* **C36 Box query returns exactly the points in the box** - same model; soundness and completeness by induction over the tree.  
  *partial*: the code violates the full statement for points on the faces of the query box (witness C36_violated); soundness and completeness for interior points proved.  
  Props/SpatialIndex.lean: `C36_box_query_partial`, `C36_violated`
* **C37 Nearest neighbour query is exact** - same model; branch and bound correctness with the distance of a point to a box.  
  *proved*: for every query point, also outside the root box; an empty index is undefined (C37_empty_undefined).  
  Props/SpatialIndex.lean: `C37_nearest`, `C37_empty_undefined`
* **C38 Stored points can be removed** - same model.  
  *partial*: the code violates the full statement (witness C38_violated, and a NULL dereference outside the root box); proved for points off the box grid, and exactness in all cases.  
  Props/SpatialIndex.lean: `C38_remove_partial`, `C38_remove_exact`, `C38_violated`, `C38_outside_undefined`
* **C39 Joint compatibility association is one-to-one** - the recursion over measurements with an abstract gating test.  
  *partial*: the code violates the full statement (witness C39_violated: the landmark of the first measurement is used twice; C39_null: null dereference when nothing gates); proved for all measurements but the first, plus termination.  
  Props/JCBB.lean: `C39_one_to_one_partial`, `C39_terminates`, `C39_violated`, `C39_null`
* **C40 Cached covariance quantities are never stale** - mean, covariance and flags of the cache; invariant over histories.  
  *partial*: the code violates the full statement for likelihoods after an assignment or getCovDet (witnesses); everything else proved for all call histories.  
  Props/RandomVec.lean: `C40_current_partial`, `C40_likelihood_partial`, `C40_after_setCov_partial`, `C40_violated_assign`, `C40_violated_det`
* **C41 ORB descriptor distance is a metric** - bit strings of length 256 as in the code, 8 words of 32 bits; the bit-counting trick proved for all words.  
  *proved*: as stated.  
  Props/ORB.lean: `C41_zero`, `C41_symm`, `C41_triangle`, `C41_bound`, `C41_attained`, `C41_sample`
* **C42 RFS measurement likelihood sums all association hypotheses** - sum over partial one-to-one associations. Small partitions: C04; large partitions: C113/C114; the product over partitions by factorisation of the sum over blocks.  
  *partial*: exact (up to the e^-1000 floor) for partitions of at most 8 members with every landmark in reach of a measurement; partitions of any size with the code of the Murty branch: factor by factor, the sum of the 200 best associations (C42_blocks_partial); the code violates the statement for landmarks out of reach of all measurements (C42_violated) and drops associations beyond the 200 best.  
  Props/RFSLikelihood.lean: `C42_value_partial`, `C42_likelihood_partial`, `C42_exact_partial`, `C42_blocks_partial`, `C42_violated`
* **C43 PHD update weights** - algebra over an ordered field on lists of components.  
  *proved*: as stated.  
  Props/PHD.lean: `C43_new_components`, `C43_nonneg`, `C43_missed_detection`
* **C44 An empty scan is processed as missed detections** - `update` as a function of the scan.  
  *partial*: the code violates the full statement for empty scans (C44_violated); proved for non-empty scans.  
  Props/PHD.lean: `C44_nonempty_scan_partial`, `C44_violated`
* **C45 Unused measurement indices stay valid** - state machine of `predict` and `update`.  
  *partial*: the code violates the full statement for a scan followed by an empty scan (C45_violated); proved for all histories that process births in between.  
  Props/PHD.lean: `C45_indices_valid_partial`, `C45_violated`
* **C46 Birth candidates are promoted or dropped exactly when due** - iterator loop over the candidates with the end iterator explicit.  
  *partial*: the sweep has undefined behaviour exactly when the last candidate leaves (C46_violated); proved in full otherwise.  
  Props/PHD.lean: `C46_sweep_partial`, `C46_violated`
* **C47 Birth bookkeeping follows resampled particles** - in-place copying between particles.  
  *partial*: violated when a particle was copied from a smaller index (C47_violated) and for a second call (C47_violated_repeat); proved otherwise.  
  Props/PHD.lean: `C47_inheritance_partial`, `C47_violated`, `C47_violated_repeat`
* **C48 LMB existence probabilities are probabilities** - per partition: sums over the assignments; identification with the posterior by factorisation over partitions. Larger partitions: the list of assignments is computed by the Murty model (LMBMurty), its order and values by the C13/C113 theorems. Witness with Murty: all 720 complete associations are listed before any other, by the order theorem and counting.  
  *partial*: Posterior existence probability proved for the whole map update when no partition needs Murty (more than 8 rows and columns), for the table with entries between linked tracks and measurements floored at e^-1000, and exactly when no entry is below that. Larger partitions: proved to be the weighted mean over the 200 best associations that Murty's algorithm lists, up to bounded error terms (C48_murty_partial); the associations beyond the 200th are missing in the code itself. Range [0,1] proved for all tables, with any list of assignments in the Murty branch. With certain detection and existence and nothing in reach the code divides 0 by 0 (C48_certain_nan). Violation proved (C48_violated): six tracks and measurements, all equally likely, come out more likely to exist than they are..  
  Props/LMB.lean, Props/LMBMurty.lean, Props/LMBTrunc.lean: `C48_existence_partial`, `C48_exact_partial`, `C48_range`, `C48_certain_nan`, `C48_map_partial`, `C48_murty_partial`, `C48_violated`
* **C49 LMB birth probability is the complement of the association probability** - same model.  
  *partial*: The code subtracts the association weight without dividing by the partition likelihood: exact value proved, full claim proved for partitions of likelihood one and for measurements out of reach, negation proved with a witness. Without Murty..  
  Props/LMB.lean: `C49_value_partial`, `C49_births_partial`, `C49_violated`
* **C50 CB-MeMBer existence probabilities are probabilities** - algebra over an ordered field; closed form of the update.  
  *proved*: as stated.  
  Props/CBMeMBer.lean: `C50_formula`, `C50_probabilities`
* **C51 CB-MeMBer keeps every updated track** - the compaction loop over tracks.  
  *partial*: violated: an empty track can be moved into the place of another empty one and a good track dropped (C51_violated, C51_violated_update), and freed memory can be read (C51_freed_memory); proved with the exact condition under which the kept tracks are right; number kept and unused measurements are always right.  
  Props/CBMeMBer.lean: `C51_compaction_partial`, `C51_no_tracks_partial`, `C51_violated`, `C51_violated_update`, `C51_freed_memory`
* **C52 FastSLAM processes unambiguous scans** - `updateMap` with the reduction of the association table (C09) and the ranked assignments.  
  *partial*: violated: when the reduction decides the association (in particular one measurement and at most one landmark in range, or an unambiguous one-to-one scan) no hypothesis is counted and the code writes to an array of length zero; closed form of the update proved otherwise for the default candidate threshold.  
  Props/FastSLAM.lean: `C52_violated`, `C52_violated_single`, `C52_violated_unambiguous`, `C52_update_partial`
* **C53 FastSLAM existence evidence** - the weight update as a function of the previous weight; Bayes' rule.  
  *partial*: proved as Bayes posterior with bounds for false alarm rates in [0,1]; violated above the lock weight with prior below 1/2, and for false alarm rates above one.  
  Props/FastSLAM.lean: `C53_existence_partial`, `C53_violated`, `C53_violated_clutter`
* **C54 PSO best particle is the best of the batch for every schedule** - interleavings of the iterations that update the shared best index.  
  *partial*: proved for schedules without the race, for one thread, and if the first particle has not become worse; violated otherwise.  
  Props/PSO.lean: `C54_best_partial`, `C54_one_thread_partial`, `C54_first_partial`, `C54_violated`, `C54_violated_race`
* **C55 PSO landmark removal** - the loop that swaps with the last.  
  *proved*: removal for all flags, and the whole of updateLandmarkVelocity.  
  Props/PSO.lean: `C55_removal`, `C55_update`
* **C56 Measurement models invert** - real arithmetic and trigonometry; measurement of the inverse and inverse of the measurement.  
  *proved*: as stated.  
  Props/MeasModels.lean: `C56_rngbrg`, `C56_rngbrg_total`, `C56_rngbrg_back`, `C56_xy`, `C56_rng1d`, `C56_6d`, `C56_victoria`, `C56_victoria_place`
* **C57 Bearings are wrapped** - the wrapping loops; termination by the Archimedean property.  
  *proved*: as stated.  
  Props/AmpClutter.lean, Props/MeasModels.lean: `C57_innovation_vp`, `C57_measure`, `C57_innovation`
* **C58 Detection probability agrees with measurability** - case analysis of the decision logic.  
  *proved*: as stated.  
  Props/MeasModels.lean: `C58_rngbrg`, `C58_xy`, `C58_rng1d`, `C58_6d`, `C58_6d_nonunit_witness`
* **C59 Kalman correction yields a valid covariance** - Mathlib matrices, positive semidefinite order.  
  *proved*: as stated.  
  Props/Kalman.lean: `C59_covariance`, `C59_symmetric`, `C59_rejected`, `C59_rngbrg`
* **C60 Likelihood uses the wrapped innovation** - the correction as a function; evaluation on a witness.  
  *partial*: violated: the likelihood is evaluated at the raw measurement, not at the wrapped innovation (C60_violated); the state update and gating do use the wrapped innovation.  
  Props/Kalman.lean: `C60_violated`, `C60_likelihood_partial`
* **C61 Odometry motion composes rigid motions** - real arithmetic, rotation matrices.  
  *proved*: as stated.  
  Props/Motion.lean: `C61_odometry2d`, `C61_compose`
* **C62 Ackerman heading stays in [-pi, pi]** - the wrapping of the heading; `atan2` as complex argument.  
  *partial*: violated for a turn of more than one revolution per step (C62_violated); proved up to one revolution, and the heading is right modulo 2*pi always.  
  Props/Motion.lean: `C62_heading_partial`, `C62_turn`, `C62_violated`
* **C63 Motion models advance the time stamp** - time stamps of the returned poses.  
  *partial*: violated by the 1-D odometry model and the static model without noise (C63_odometry1d_violated, C63_static_violated); proved for the others.  
  Props/Motion.lean: `C63_time_partial`, `C63_odometry1d_violated`, `C63_static_violated`, `C63_violated`
* **C64 Frame composition** - rigid motions of the plane.  
  *proved*: as stated.  
  Props/Frame.lean: `C64_map`, `C64_compose`, `C64_assoc`
* **C65 Time stamps and floating point seconds** - conversion between seconds and (s, ns) with exact fractions.  
  *proved*: as stated.  
  Props/TimeStamp.lean: `C65_setTime_double`, `C65_double_roundtrip`
* **C66 Extended partition blocks have the room asked for** - the allocation table of partitions in the object state.  
  *partial*: the code violates the full statement (witness C66_extended_room_not_honoured); proved for the first call per partition.  
  Props/Partition.lean: `C66_first_room_partial`, `C66_extended_room_not_honoured`
* **C67 Sorting a mixture by weight** - sorting contract on optional components.  
  *partial*: the code violates the full statement for negative factors (witness C67_violated); proved for non-negative weights and factors.  
  Props/GaussianMixture.lean: `C67_violated`, `C67_sorted_partial`
* **C68 The value returned by prune** - same model as C24.  
  *partial*: the code violates the full statement (witness C68_violated); proved when there are no removed entries.  
  Props/GaussianMixture.lean: `C68_violated`, `C68_returned_count_partial`
* **C69 Memory of mixtures** - heap model; which histories reach undefined behaviour.  
  *proved*: UB exactly excluded outside the listed misuses.  
  Props/GMHeap.lean: `C69_memory`
* **C70 Resampling threshold decides** - decision of `resample` with the threshold member uninitialised until set.  
  *partial*: the code violates the full statement (uninitialised member, witness C70_violated); proved after setEffectiveParticleCountThreshold.  
  Props/ParticleFilter.lean: `C70_threshold_partial`, `C70_violated`
* **C71 JCBB returns the most and closest pairings** - same model as C39; maximum over the hypotheses considered.  
  *partial*: the code violates the full statement (witnesses C71_violated_distance, C71_violated_count); the maximal count over all considered hypotheses is proved.  
  Props/JCBB.lean: `C71_count_partial`, `C71_violated_distance`, `C71_violated_count`, `C71_violated_largest`
* **C72 ORB likelihood ranks descriptors by distance** - likelihood as a function of the distance of C41; monotonicity.  
  *proved*: as stated.  
  Props/ORB.lean: `C72_rank`, `C72_symm`, `C72_pos`, `C72_self`, `C72_false_alarm`
* **C73 Copies of amplitude measurements evaluate like the original** - data members and which operations set them.  
  *partial*: the code violates the full statement for copy construction (C73_violated).  
  Props/Amplitude.lean: `C73_proper_partial`, `C73_assign_partial`, `C73_value_partial`, `C73_violated`, `C73_copy_argument`
* **C74 Landmark bounding box contains the covariance ellipsoid** - the box of the code against the ellipsoid; Cauchy-Schwarz.  
  *partial*: the code violates the full statement for negatively correlated covariances (C74_violated); proved for covariances without negative entries.  
  Props/BoundingBox.lean: `C74_contains_partial`, `C74_violated`
* **C75 Recorded previous weights reproduce the prior intensity** - weights before and after the update.  
  *proved*: as stated.  
  Props/PHD.lean: `C75_prior_intensity`
* **C76 Measurements kept for births are the unexplained ones** - the threshold rule over the table of weights.  
  *proved*: as stated.  
  Props/PHD.lean: `C76_unused`
* **C77 Jacobians returned by measure are the derivatives** - Fréchet derivatives in Mathlib against the matrices of the code.  
  *partial*: violated by the orientation block of the 6-D pose Jacobian (C77_6d_violated); proved for the other models and the rest of the 6-D Jacobians.  
  Props/Jacobians.lean, Props/MeasCov.lean: `C77_rngbrg`, `C77_rngbrg_inverse`, `C77_xy`, `C77_rng1d`, `C77_6d_partial`, `C77_6d_violated`, `C77_6d_orientation_partial`
* **C78 Clutter intensity integral matches the clutter intensity** - area integrals of the field of view against the closed form.  
  *partial*: violated by the XY and 1-D models (C78_xy_violated, C78_rng1d_violated); proved for range-bearing and 6-D.  
  Props/ClutterIntegral.lean: `C78_rngbrg`, `C78_6d`, `C78_xy_partial`, `C78_xy_violated`, `C78_rng1d_violated`
* **C79 Vector correction equals single corrections** - the loop over measurements against single calls.  
  *partial*: the equality with single corrections is proved; the zero-likelihood claim is violated when the output vector is shorter than the list (C79_violated), proved when it is long enough.  
  Props/Kalman.lean: `C79_vector_correct`, `C79_invalid_partial`, `C79_violated`
* **C80 Kalman correction is the Bayes posterior** - information form and Bayes' rule for Gaussians.  
  *proved*: as stated.  
  Props/Kalman.lean: `C80_posterior`
* **C81 Gaussian log-likelihood** - logarithm of the Gaussian density.  
  *proved*: as stated.  
  Props/Kalman.lean: `C81_log_likelihood`, `C81_mode`
* **C82 6-D odometry composes rigid motions** - unit quaternions and rotation matrices.  
  *proved*: as stated.  
  Props/Motion.lean: `C82_odometry6d`, `C82_scale`
* **C83 Motion Jacobian** - derivative of the motion against `H`.  
  *partial*: violated by the planar odometry model, whose H is the identity (C83_violated); proved for the 1-D model and for directions that keep the heading.  
  Props/Motion.lean: `C83_position_partial`, `C83_odometry1d_partial`, `C83_violated`
* **C84 Motion likelihood gradient** - derivative of the log-likelihood.  
  *partial*: proved for logLikelihood; violated by likelihood, where the factor likelihood is missing (C84_violated).  
  Props/Motion.lean: `C84_gradient_partial`, `C84_violated`
* **C85 Motion likelihood and angles** - residual of the heading.  
  *partial*: violated: the heading error is not wrapped (C85_violated); proved when the raw error is within (-pi, pi).  
  Props/Motion.lean: `C85_unwrapped_partial`, `C85_violated`, `C85_seam`
* **C86 Sampling a motion model** - members read by `sample` and which operations set them.  
  *partial*: violated: an uninitialised covariance is read if the noise was never set (C86_violated); proved otherwise.  
  Props/Motion.lean: `C86_sample_partial`, `C86_violated`
* **C87 Mapping covariances between frames** - null pointers as `none`.  
  *partial*: violated: null pointer dereference if only the source covariance is missing (C87_violated); proved otherwise.  
  Props/Frame.lean: `C87_defined_partial`, `C87_covariance`, `C87_violated`
* **C88 CB-MeMBer particle weights are comparable** - `updateMap` through the likelihood of C42.  
  *partial*: violated: a particle without tracks gets 1 instead of the clutter likelihood (C88_violated); proved among particles with tracks.  
  Props/CBMeMBer.lean: `C88_weight_partial`, `C88_no_tracks_partial`, `C88_violated`
* **C89 CB-MeMBer births** - loop over the unused measurements.  
  *proved*: as stated.  
  Props/CBMeMBer.lean: `C89_births`
* **C90 LMB track densities are posterior densities** - mixtures as lists of weighted Gaussians, per partition as in C48.  
  *partial*: The code adds corrected mixtures without normalising them, so their likelihood counts twice: exact value proved, full claim proved when the corrected mixtures have weight one, negation proved with a witness. Without Murty..  
  Props/LMB.lean: `C90_value_partial`, `C90_mixture_partial`, `C90_violated`
* **C91 LMB births pair measurement and probability** - both lists emptied from the back.  
  *proved*: as stated.  
  Props/LMB.lean: `C91_births`
* **C92 LMB births do not depend on tracks out of view** - both branches of `updateMap`.  
  *partial*: Exact births proved for both cases; they differ (expected/nZ against 1): negation proved with a witness..  
  Props/LMB.lean: `C92_value_partial`, `C92_violated`
* **C93 LMB weight update is the multi-object likelihood** - product over partitions as in C42; Murty partitions by the list theorem of LMBMurty.  
  *partial*: Proved when no partition needs Murty, with table entries between linked tracks and measurements floored at e^-1000; equality of the two out-of-view cases proved in full. With Murty: the factor is a product over the partitions in which each larger partition contributes the weights of its 200 best associations, up to a bounded error (C93_murty_partial); the code leaves the other associations out. Violation proved (C93_violated): a factor of at most 201 where all hypotheses weigh more than 720..  
  Props/LMB.lean, Props/LMBMurty.lean, Props/LMBTrunc.lean: `C93_weight_partial`, `C93_out_of_view`, `C93_murty_partial`, `C93_violated`
* **C94 FastSLAM landmark weights are log-odds** - log-odds against Bayes' rule.  
  *partial*: proved for prior 1/2 (the default); violated for every other prior.  
  Props/FastSLAM.lean: `C94_log_odds_partial`, `C94_violated`
* **C95 FastSLAM hypothesis weights** - closed form of the update.  
  *partial*: proved whenever the update completes; it need not (C52, C96; witness C95_violated).  
  Props/FastSLAM.lean: `C95_weights_partial`, `C95_violated`
* **C96 FastSLAM candidate check** - iterator loop with the end explicit, as C46.  
  *partial*: proved if the last candidate stays; undefined behaviour proved whenever the last candidate leaves.  
  Props/FastSLAM.lean: `C96_candidates_partial`, `C96_violated`
* **C97 FastSLAM copied particles inherit candidates** - copying between particles.  
  *partial*: proved after a resampling; violated otherwise.  
  Props/FastSLAM.lean: `C97_copy_candidates_partial`, `C97_violated`
* **C98 FastSLAM candidates follow resampling** - composition with the resampling of C30, C33.  
  *partial*: proved for the first resampling; violated for the second (stale ids, C33).  
  Props/FastSLAM.lean: `C98_candidates_follow_partial`, `C98_violated`
* **C99 FastSLAM association hypotheses** - ranked assignments by the contract of Murty's algorithm (C13).  
  *proved*: for every ranking that satisfies the contract of Murty's algorithm.  
  Props/FastSLAM.lean: `C99_hypotheses`
* **C100 Unexplained measurements are kept as evidence** - closed forms of the two updates.  
  *proved*: for the PHD filter and for FastSLAM.  
  Props/FastSLAM.lean, Props/PHD.lean: `C100_place`, `C100_birth_step`, `C100_birth_loop`, `C100_in_view`
* **C101 PSO personal and global bests** - interleavings as in C54; invariants per particle; a stale likelihood that misleads the selection belongs to an earlier round, so it is at most the recorded best.  
  *proved*: proved for all runs and all interleavings of the parallel loops, including those in which a round selects a wrong particle (C54); the data race itself is reported under C54.  
  Props/PSO.lean: `C101_personal_best`, `C101_best_monotone`, `C101_best_of_run`
* **C102 PSO landmarks and velocities stay paired** - the loops over two parallel lists.  
  *proved*: as stated.  
  Props/PSO.lean: `C102_init`, `C102_evaluate`, `C102_move`
* **C103 PSO adds a landmark once** - loops over the maps of the two bests.  
  *partial*: once from each of the two best maps; violated when a particle is its own best neighbour.  
  Props/PSO.lean: `C103_violated`, `C103_once_partial`
* **C104 PSO particles follow the best neighbour** - the search for the best neighbour.  
  *partial*: proved if the neighbours are at their bests; violated otherwise since current likelihoods are compared.  
  Props/PSO.lean: `C104_violated`, `C104_attractor_partial`
* **C105 PSO topology** - the three topologies.  
  *partial*: random topology proved; global topology proved when set up first, violated after a random one.  
  Props/PSO.lean: `C105_random`, `C105_global_partial`, `C105_violated`
* **C106 Covariance of a predicted measurement** - covariance propagation with the Jacobians of C77.  
  *partial*: proved for range-bearing, plane, line and space; Victoria Park only for a diameter uncorrelated with the position, violated otherwise.  
  Props/MeasCov.lean: `C106_rngbrg`, `C106_xy`, `C106_rng1d`, `C106_6d`, `C106_psd`, `C106_vp_partial`, `C106_vp_violated`
* **C107 The batch optimisers file each measurement under the pose of its time** - the filing loops over inputs and measurements.  
  *partial*: proved for inputs in the order of time and measurements not later than the last; violated for unordered inputs, later measurements (reads the end) and inputs given one by one.  
  Props/Batch.lean: `C107_filed_partial`, `C107_violated`, `C107_refuse_partial`, `C107_late_violated`, `C107_addInput_violated`
* **C108 The parameter vector of the batch optimiser stands for exactly one trajectory and map** - index arithmetic of the parameter vector.  
  *proved*: as stated.  
  Props/Batch.lean: `C108_round_trip`, `C108_bijective`
* **C109 The initial map of the batch optimiser has one landmark per named association** - the loop over the named associations with its map.  
  *proved*: as stated.  
  Props/Batch.lean: `C109_map`
* **C110 The gradient that Evaluate returns is the derivative of its cost** - sum of the terms and of their gradients; derivative of the cost.  
  *partial*: assembly proved; derivative proved when the motion likelihood has opposite gradients (1-D odometry), scan gradients assumed right; violated for planar odometry; reads outside with one pose or addInput.  
  Props/Batch.lean: `C110_assembly`, `C110_gradient_partial`, `C110_odometry1d`, `C110_violated`, `C110_ub`
* **C111 Static landmarks keep their mean and gain the process noise** - the step of the static model.  
  *proved*: as stated.  
  Props/Motion.lean: `C111_static`, `C111_psd`
* **C112 An Ackerman step follows the kinematics of a vehicle that rolls without slipping** - the step in the plane against the kinematics of the rear axle and the sensor.  
  *proved*: as stated.  
  Props/Motion.lean: `C112_ackerman`
* **C113 Murty on the filters' matrices returns each association once, best first** - the invariant of C13 generalised to matrices with a block: only permutations that use no forbidden pair above the floor matter, and nodes below the floor never come back.  
  *proved*: exact arithmetic; finite entries; hypothesis on bigNumber_ spelled out in Ranges.  
  Props/MurtyBlock.lean: `C113_each_association_once`
* **C114 The likelihood of a large partition is the sum of its 200 best associations** - the loop over the calls of C113; comparison of the first 200 of a sorted list with any 200.  
  *proved*: exact arithmetic; finite entries; hypothesis on bigNumber_ spelled out in Ranges.  
  Props/MurtyBlock.lean: `C114_partition_sum`, `C114_all`
* **C115 The likelihood of a scan in the particle swarm optimiser sums over all associations** - the decomposition of C42 into partitions, and C114 for each partition, here with Murty's algorithm for partitions of any size.  
  *partial*: factor by factor: exact for the partition without entries, otherwise the sum of the 200 best associations up to the e^-1000 floor; the code violates the statement with no landmark in view (the integral is not divided out, C115_violated_empty) and for landmarks out of reach of all measurements (C115_violated_missed).  
  Props/BatchLik.lean: `C115_entry`, `C115_blocks_partial`, `C115_violated_empty`, `C115_violated_missed`
* **C116 The log likelihood of a scan in the batch optimiser is that of the sum over all associations** - the loop over Murty's results with one more result than C114; the sum over associations divided by the all-missed term is a sum of products of ratios (total_ratio).  
  *partial*: offset plus logarithm of the sum of the 201 best associations, partition by partition; the code violates the statement: the offset uses log(Pd) in place of log(1 - Pd) (C116_violated).  
  Props/BatchLik.lean: `C116_value_partial`, `C116_violated`
* **C117 The gradients of the batch optimiser are derivatives of its log likelihood** - the scores returned are the totals of the extended matrix; derivative of the logarithm of a sum of exponentials against the code's update of the gradient. One coordinate at a time.  
  *partial*: landmark gradients are the derivatives; the pose gradient lacks a division and is not (C117_pose_violated), C117_pose_partial says by how much.  
  Props/BatchLik.lean: `C117_landmark_partial`, `C117_pose_partial`, `C117_pose_violated`
* **C118 Known associations are honoured by the batch optimiser** - the entry of the table against a predicate on association and landmark number; exceptions of map::at are an outcome of the model.  
  *partial*: proved for entries when all the landmarks can be detected; the code violates the statement otherwise (C118_violated), and the gradient can throw (C118_throws).  
  Props/BatchLik.lean: `C118_all_in_view_partial`, `C118_stored`, `C118_violated`, `C118_throws`
* **C119 CB-MeMBer weighs particles with the multi-Bernoulli likelihood** - the table of the update rewritten over the tracks in view, then C42; the violation on one track and one measurement for every existence probability.  
  *partial*: proved as if all tracks existed for certain, under the conditions of C42; the code violates the statement because existence probabilities do not enter (C119_violated).  
  Props/CBMeMBer.lean: `C119_certain_partial`, `C119_violated`
* **C120 Every step gets the measurements of its time** - the loop that hands out measurements as a recursion over the steps with an explicit read past the end; compared with filtering the measurements by time; induction over the steps.  
  *partial*: proved if every measurement has the time of a step and the last step has one (and for the Victoria Park program without the latter); otherwise the code reads past the end or stops delivering (C120_violated_end, C120_violated_stuck).  
  Props/Sim.lean: `C120_dispatch_partial`, `C120_violated_end`, `C120_violated_stuck`, `C120_violated`, `C120_victoriaPark_partial`
* **C121 The number of simulated false alarms is Poisson** - the cumulative table as the code builds it; Lebesgue measure of the set of uniform numbers that give k.  
  *partial*: proved for fewer than 100 false alarms, with the exact probability of leaving the table (C121_beyond); the code violates the statement (C121_violated).  
  Props/Sim.lean: `C121_poisson_partial`, `C121_beyond`, `C121_violated_200`, `C121_violated`
* **C122 Simulated measurements are within the range limits** - both passes of the generator as folds over a stream of uniform numbers, the samples of the model being arbitrary; invariants of the folds.  
  *partial*: proved for range-bearing measurements and, for both, what a step consists of; the code violates it for relative positions (C122_violated).  
  Props/Sim.lean: `C122_limits_partial`, `C122_step_partial`, `C122_violated`
* **C123 The simulator creates the configured number of landmarks** - the loop as a recursion; closed form of the count by induction.  
  *partial*: proved if the number of landmarks divides the number of steps, exact number otherwise (C123_exact); the code violates the statement (C123_violated, C123_zero_violated).  
  Props/Sim.lean: `C123_count_partial`, `C123_exact`, `C123_violated_many`, `C123_violated`, `C123_zero_violated`
* **C124 Landmarks are created within reach of the sensor** - the two inverse measurement models; distance to the pose computed.  
  *partial*: proved for range-bearing measurements; the code violates it for relative positions (C124_violated).  
  Props/Sim.lean: `C124_reach_partial`, `C124_xy`, `C124_violated`
* **C125 The recorded first observation is the first measurement of a landmark** - specification: first successful sample in the list of steps; induction over the steps.  
  *partial*: proved: the first step in which the sensor model could measure the landmark; the code violates the statement because missed detections set it too (C125_violated).  
  Props/Sim.lean: `C125_first_partial`, `C125_violated`
* **C126 Generated trajectories start at rest and keep to the configured speeds** - displacement, clock and pose loops with fuel for the rejection loop; invariant of the loop over the steps; non-termination for every fuel.  
  *partial*: proved whenever the function returns; it never returns if the least speed exceeds the greatest (C126_violated).  
  Props/SimData.lean, Props/SimTotal.lean: `C126_trajectory_partial`, `C126_violated_speeds`, `C126_violated`, `C126_total_partial`, `C126_segments_partial`
* **C127 Simulated odometry and dead reckoning** - the loop as a recursion; induction over the displacements; the noise-free case by comparing the two recursions.  
  *proved*: as stated.  
  Props/SimData.lean: `C127_odometry`, `C127_noise_free`
* **C128 A seed determines the random numbers** - the two global vectors as a list of engines and a count; the engine is an arbitrary type.  
  *partial*: proved for the first initialisation; later ones have no effect (C128_reseed, C128_violated).  
  Props/SimData.lean: `C128_first_partial`, `C128_safe`, `C128_reseed`, `C128_violated`
* **C129 Reading an iSAM data set** - a line is what sscanf delivers; specification: filterMap over the lines; induction with an invariant for dead reckoning. Text parsing is not modelled.  
  *partial*: proved for files that are read and have only constraints between consecutive poses; blank lines are undefined behaviour and other constraints are applied although they are to be ignored (C129_blank_violated, C129_ignored_violated).  
  Props/SimData.lean: `C129_reading_partial`, `C129_blank_violated`, `C129_ignored_violated`, `C129_violated`, `C129_covariance3`, `C129_covariance2`
* **C130 Exported measurements hold range and bearing** - the columns against polar coordinates of the position the measurement stands for.  
  *partial*: proved for relative positions; the code violates it for range-bearing measurements (C130_rngBrg_iff, C130_violated).  
  Props/SimData.lean: `C130_xy_partial`, `C130_rngBrg_iff`, `C130_violated`
* **C131 False alarms added to Victoria Park data are within the field of view** - direct computation, for all limits and random numbers.  
  *partial*: proved for the range and the upper limit of the bearing; the lower limit has no effect (C131_bearing, C131_violated).  
  Props/SimData.lean: `C131_limits_partial`, `C131_bearing`, `C131_violated_shipped`, `C131_violated`
* **C132 Simulated measurements carry the configured noise** - sampling with any function that factorises diagonal covariances.  
  *partial*: proved for the simulator of the PHD filter; that of the LMB filter draws without noise (C132_violated_lmb).  
  Props/SimData.lean: `C132_phd_partial`, `C132_violated_lmb`, `C132_violated`
* **C133 The analysis of a simulation run sees every particle of every step, their total weight and the map of the best one** - `Analysis.readStep`, `readAll`: the do/while loops over the two files with the record read ahead carried from step to step. The end of file leaves the last record in place (infinite loop if it belongs to the current step: outcome `none`). Loop invariant `readLoop_spec`, then induction over the steps.  
  *proved*: for every log in which the steps are separated by the tolerance, any number of steps.  
  Props/Analysis.lean: `C133_reading`
* **C134 The map whose error is reported is the map that the filter regarded as its best** - The writers' logs `logP`, `logP0`, `logL` with a rounding that meets the contract `Rounds6` of `%f`/`%lf`; the reader's choice is characterised by `StepOK` (C133). Witnesses: weights 0.4999999 and 0.5000001; the initial records.  
  *partial*: Proved when the greatest weight stays the only greatest after rounding. Violated for two weights equal to six digits (the analysed map is then empty whatever was logged), and in the first step, whose log starts with the initial records of weight 1: particle 0 is always taken..  
  Props/Analysis.lean: `C134_best`, `C134_best_unique`, `C134_logged_partial`, `C134_violated_tie`, `C134_violated`, `C134_start_violated`
* **C135 A landmark counts in the analysis from its first observation on** - `counted`, `observable` go through the model of `TimeStamp(double)` and `getTimeAsDouble`; times of the file are -1 or multiples of a microsecond. Induction over the landmarks.  
  *partial*: Proved for landmarks that are observed. Violated for those that never are: their time -1 counts as observed at all times, so the reported number is too great by their number in every step..  
  Props/Analysis.lean: `C135_observed_partial`, `C135_never_violated`, `C135_violated`, `C135_excess`
* **C136 The reported pose errors are the weighted mean error and the error of the best particle** - `errOf`, `sumErr`, `avgErr`, `bestErr`, `angleErr`; Cauchy-Schwarz along the direction of the mean.  
  *proved*: as stated.  
  Props/Analysis.lean: `C136_angle`, `C136_average`, `C136_distance`, `C136_best`, `C136_best_missing`, `C136_no_weight`
* **C137 The analysis reads back the records that the simulators wrote** - The file as a list of numbers, `nextRec` is one `fscanf` of eight; `colsPHD`, `colsLMB` are the `fprintf`s. Induction over the records; witness with two records; `C137_stuck` is an induction over the remaining steps.  
  *partial*: Proved for the eight-column format of the PHD and FastSLAM simulators. Violated for the LMB and CB-MeMBer simulators, which write a ninth column: the second record is read with the weight of the first as its time, and a record whose time is that of no step leaves all later steps with an empty map..  
  Props/Analysis.lean: `C137_phd_partial`, `C137_misread`, `C137_violated`, `C137_stuck`
* **C138 The reported map error is the COLA error with cutoff 0.2** - `landmarkError` instantiates the model of `OSPA`/`COLA` with cutoff 0.2, order 1; from C21 and C18.  
  *partial*: Proved when at least one of the maps is not empty (up to the tolerance 1e-12 of the assignment per element). Violated for two empty maps: the error is 0/0..  
  Props/Analysis.lean: `C138_cola_partial`, `C138_empty`, `C138_violated`
* **C139 The Victoria Park detection probability exists** - `pd`, `pd2`, `beams`: the index wraps around modulo 720 and is looked up in the scan (`none` outside); the probes loop takes fuel. Floor and ceiling bounds on the beam numbers, arctan bounds for the witness.  
  *partial*: Proved for scans over the full turn (720 readings or more) and positive diameters. Violated for the scans of 361 readings of the programs: with the shipped configuration a landmark of two metres at five metres and seven degrees makes the program read outside of the scan; C139_beams says exactly when. Violated for diameters that are not positive: the loop over the probes never ends..  
  Props/VPark.lean: `C139_full_turn_partial`, `C139_violated_diameter`, `C139_beams`, `C139_violated_beams`, `C139_violated_probes`, `C139_violated`
* **C140 The Victoria Park detection probability counts the unblocked beams on the landmark** - `numPts_spec`: the loop counts the free beams among the beams `firstBeam .. firstBeam + maxPts - 1`; `Hits`: the ray of a beam meets the circle; a set of beams within the angle has at most one more element.  
  *proved*: For scans in which all beams looked at have a reading (C139)..  
  Props/VPark.lean: `C140_beams`, `C140_occlusion`, `C140_flag`, `C140_limits`
* **C141 The Victoria Park detection probability looks beside the landmark** - `offsets` characterised by `mem_offsets`; `maxEl`, `minEl` over the list of values. The direction: sine of a difference of angles.  
  *partial*: Proved except for the direction. Violated: the direction is computed as atan2(bearing, range) + heading, as if range and bearing were coordinates; C141_direction says exactly when it is at right angles to the line of sight..  
  Props/VPark.lean: `C141_probes_partial`, `C141_direction`, `C141_violated`
* **C142 Victoria Park clutter intensity covers the scanned area** - `polygonArea` is the shoelace formula over the points of the scan; the sum of the program is compared term by term (`zip_sum`), the last triangle by the sine of the closing angle.  
  *partial*: Proved for full-turn scans of 720 readings. Violated for scans of 361 readings: the last triangle between the first and the last beam is counted although they point in opposite directions. With all readings zero the intensity is a division by zero (C142_no_return)..  
  Props/VPark.lean: `C142_area`, `C142_full_turn_partial`, `C142_half_turn`, `C142_violated`, `C142_no_return`
* **C143 Victoria Park clutter intensity is a density of measurements** - `fov_disc`: a scan of 720 equal readings; algebra.  
  *partial*: Holds for an obstacle all around at one distance only (about two metres). Violated: the number of false alarms is divided by an area in metres squared, but the intensity is used as a density over range and bearing..  
  Props/VPark.lean: `C143_distance_partial`, `C143_violated`
* **C144 The Victoria Park programs turn a log into predictions and updates** - `VParkLoop.step`, `loop`: the calls of the filter as a list. `state_spec`: the local variables are functions of the messages so far, induction over the log from the right; `Sim.runVP` distributes the measurements.  
  *proved*: as stated.  
  Props/VParkLoop.lean: `C144_defined`, `C144_calls`, `C144_measurements`, `C144_time`, `C144_forward`, `C144_dead`
* **C145 Landmark noise grows with time, not with messages** - The factors `q` of the calls are the squares of the time steps (`qs_sq`); sums.  
  *partial*: Proved for messages one second apart. Violated: the noise of a message is the variance times the square of the time step, so n messages over T seconds add var*T*T/n..  
  Props/VParkLoop.lean: `C145_second_partial`, `C145_rate`, `C145_violated`
* **C146 Amplitude clutter is a density, and what the simulator draws** - Mathlib's integral of the exponential function and distribution function of the exponential distribution; C78 for the ranges and bearings.  
  *proved*: as stated.  
  Props/AmpClutter.lean: `C146_integral`, `C146_simulated`
* **C147 Tree operations keep trees** - `Tree.Heap`: parent pointers and child lists of numbered nodes. Invariant `Forest` (edges are the inverse of the parent pointers, no repetition, no cycle in the transitive closure), induction over the calls.  
  *partial*: Proved for nodes that exist, have no parent yet and are not above the node they are added to. Violated otherwise: a node can get two parents or become its own ancestor; null pointers are dereferenced..  
  Props/Tree.lean: `C147_forest_partial`, `C147_effect`, `C147_violated`, `C147_null_violated`
* **C148 getParent leads to the root** - `Alive` inductively: held by the user or child of a live node; weak parent pointers. Termination by counting distinct nodes.  
  *proved*: as stated.  
  Props/Tree.lean: `C148_parent`, `C148_alive`, `C148_root`
* **C149 The Gaussian likelihood is a probability density** - `Gauss.lik` on Mathlib matrices; change of variables with a square root of the covariance reduces the integral to a product of one-dimensional Gaussian integrals.  
  *proved*: Exact arithmetic. A covariance with negative determinant gives likelihood zero (C149_indefinite)..  
  Props/Gaussian.lean: `C149_density`, `C149_agree`, `C149_normal`, `C149_indefinite`
* **C150 Samples follow the stored Gaussian** - Law of `x + L w` under the product of standard normal measures equals Mathlib's `multivariateGaussian`; density by the same change of variables.  
  *proved*: The normal numbers are independent and standard normal by assumption..  
  Props/Gaussian.lean: `C150_law`, `C150_moments`, `C150_density`
* **C151 n_error is the gradient** - `HasDerivAt` along every line.  
  *proved*: A covariance is symmetric; for other matrices n_error is not the gradient (C151_asymmetric_violated)..  
  Props/Gaussian.lean: `C151_mean`, `C151_point`, `C151_distance`, `C151_asymmetric_violated`
* **C152 Static sampling does not change its input** - Induction over the samples; the variance by independence.  
  *partial*: Violated: the sample overwrites the mean that is passed by reference, so the second sample has twice the variance. Proved: what the samples are instead, and the distance..  
  Props/Gaussian.lean: `C152_drift_partial`, `C152_violated`, `C152_euclid`
* **C153 ORB likelihood matches its false alarm model and its samples** - Sums of products over all 2^256 descriptors are products of sums (`Finset.prod_univ_sum`); counting of the triples of random descriptors bit by bit.  
  *partial*: Proved: the ratio belongs to bit flips with probability 1/2.1. Violated: sample flips bits with probability 1/8, and the likelihood does not add up to one..  
  Props/Descriptor.lean: `C153_ratio_partial`, `C153_sum`, `C153_sum_gt`, `C153_sample`, `C153_violated`
* **C154 Random ORB descriptors use all bits** - `Nat.testBit` through the shifts and ors.  
  *partial*: Proved for the other bits. Violated: lrand48 gives 31 bits, so the bits 31, 63, ..., 255 are always zero and never flipped..  
  Props/Descriptor.lean: `C154_random_partial`, `C154_violated`
* **C155 Descriptors factor out of likelihood, clutter and measurement** - Unfolding; the ratio by C153 and C149.  
  *partial*: Violated for descriptors whose likelihood can be zero: distance and gradient are not written then. Proved otherwise; with ORB descriptors always..  
  Props/Descriptor.lean: `C155_product`, `C155_outputs_partial`, `C155_outputs_violated`, `C155_model`, `C155_sample`, `C155_ratio`
* **C156 Converted logs hold the same records** - A file is the list of what `fscanf` matches; induction over steps and records, for every rounding function of the output.  
  *proved*: For numbers that printing with six decimals does not change, as those of the old logs..  
  Props/Convert.lean: `C156_poses`, `C156_maps`, `C156_lossless`, `C156_poses_reported`, `C156_maps_reported`
* **C157 Running convertLogFiles never loses data** - `Convert.run` on the four files.  
  *partial*: Proved for one run. Violated: a second run replaces the backup, a third one leaves four empty files..  
  Props/Convert.lean: `C157_backup_partial`, `C157_violated`
* **C158 Trajectory, odometry and dead reckoning of the optimisers' simulators agree** - Programs as folds over the steps with streams of uniform and normal draws; reads of `odometry_` and `deadReckoning_pose_` are lookups that may fail. Induction over the steps for any motion model and noise.  
  *partial*: Trajectory proved for all programs with this generator; odometry and dead reckoning for the 1-D programs (C158_odometry1d_partial). The 2-D programs read odometry_[k] one past the end in every step, C158_violated and C158_violated_2d..  
  Props/BatchSim.lean: `C158_trajectory`, `C158_total`, `C158_odometry1d_partial`, `C158_violated_2d`, `C158_violated`
* **C159 The optimiser files every simulated measurement under its pose** - Composition of the generator model with the model of `addInput` and `setMeasurements` (C107); the times are multiples of `dT`.  
  *proved*: as stated.  
  Props/BatchSim.lean: `C159_filed`
* **C160 Simulated data associations are true** - Induction over steps and landmarks; `firstTime` is the specification of the first observation.  
  *proved*: as stated.  
  Props/BatchSim.lean: `C160_detection`, `C160_associations`
* **C161 The 1-D programs create the configured number of landmarks** - Invariant `kMax (created - 1) ≤ (k - 1) n < kMax created` of the loop; both variants of the test.  
  *proved*: Both the test with doubles and the one with integers of the program with descriptors (which divides by zero for zero landmarks)..  
  Props/BatchSim.lean: `C161_count`, `C161_count_orb`
* **C162 Programs read parameter vectors within their length** - Composition of `initializeParameters` and reading (C108) with the sizes that each program has at that point; exact conditions.  
  *partial*: Proved for initial maps of the size of the true one and, for the 2-D program, with known data associations; exact conditions in C162_iff_1d and C162_iff_2d. The 1-D program reads outside when the initial map is smaller, the 2-D one when it is larger: C162_violated..  
  Props/BatchSim.lean: `C162_iff_1d`, `C162_iff_2d`, `C162_same_partial`, `C162_violated`, `C162_known_partial`
* **C163 With known data associations Ceres minimises the weighted squared errors** - Residual blocks as pairs of indices into the array with a leading fixed zero; cost is half the sum of squared residuals as documented by Ceres; `StandsFor` uses the reading of the optimiser itself (C108).  
  *proved*: as stated.  
  Props/BatchSim.lean: `C163_cost`
* **C164 The weights of the least squares problem are those of the simulated noise** - C163 and Mathlib's Gaussian density `gaussianPDFReal`; witness with `dT = 2`.  
  *partial*: Proved for steps of one second; the weight of the odometry lacks the factor 1/dT^2 of the simulated noise, C164_violated..  
  Props/BatchSim.lean: `C164_unit_partial`, `C164_violated`
* **C165 The errors of the 2-D graph vanish exactly where poses and landmarks fit the data** - Real arithmetic with `cos`, `sin` and `atan2`; the pose is compared with C61 and the landmark with `inverseMeasure`.  
  *proved*: as stated.  
  Props/BatchSim.lean: `C165_angle`, `C165_pose`, `C165_pose_step`, `C165_observation`, `C165_weights`
* **C166 False alarms can fall wherever landmarks can be measured** - The draw loop with a suitable stream; the violation follows from the bounds of all draws (C160).  
  *partial*: Proved ahead of the robot; no false alarm is ever behind it, C166_violated..  
  Props/BatchSim.lean: `C166_ahead_partial`, `C166_violated`
* **C167 The simulated trajectory in space is a trajectory** - The loop as recursion over the steps with the random stream; `IsTrajectory` states the trajectory by index; unit quaternions by C82; existence by a bound on the clock; the violation runs 52 steps with a zero quaternion drawn.  
  *partial*: Proved if qw changes by less than 1 per step, with existence; otherwise the drawn quaternion can be zero, C167_violated..  
  Props/Sim6D.lean: `C167_trajectory_partial`, `C167_total`, `C167_violated`
* **C168 Odometry and dead reckoning in space follow the displacements** - As C127, with the 6-D odometry step; the noise matrix is the Cholesky factor given by contract.  
  *proved*: as stated.  
  Props/Sim6D.lean: `C168_odometry`, `C168_noise_free`
* **C169 The simulated odometry noise is the one the filter assumes** - Both covariance matrices written out; full statement via `L Lᵀ`; the violation bounds a diagonal entry of `L Lᵀ` from below.  
  *partial*: Proved exactly for equal quaternion variances; otherwise the variances are shifted by one component, C169_shifted, C169_violated..  
  Props/Sim6D.lean: `C169_filter`, `C169_iff`, `C169_same_partial`, `C169_shifted`, `C169_violated`
* **C170 Landmarks in space can be seen from where they were created** - Rejection loop with fuel, `inverseMeasure` of the 6-D model; rotations preserve lengths (lemma of C56/C57).  
  *partial*: Proved up to the least range, which is not checked, C170_violated..  
  Props/Sim6D.lean: `C170_reach_partial`, `C170_draws`, `C170_violated`
* **C171 In space exactly the drawn landmarks in range are detected** - Fold over the landmarks; exact list of detections by position in the random stream.  
  *proved*: as stated.  
  Props/Sim6D.lean: `C171_sample`, `C171_detections`
* **C172 Simulated measurements in space are within the range limits** - Rejection loop with fuel; every exit of the loop fulfils the negated loop condition. Witness: the corner of the cube.  
  *partial*: Proved without false alarms; every false alarm is outside the limits or on their border, C172_alarms, C172_violated..  
  Props/Sim6D.lean: `C172_detected_partial`, `C172_alarms`, `C172_violated`
* **C173 The recorded first observation in space is an observation** - As C125, for the detection loop of this program.  
  *partial*: Proved: the time of the first step in which it could be measured; a missed detection counts too, C173_violated..  
  Props/Sim6D.lean: `C173_first_partial`, `C173_violated`
* **C174 Simulated measurements reach the filter in their step** - Composition of the generators of `Sim` and `Sim6D` with the dispatch of C120; exact outcome, defined or undefined.  
  *partial*: Proved if the last step has a measurement; otherwise the program reads past the end, C174_violated..  
  Props/Sim6D.lean: `C174_delivered_partial`, `C174_delivered2d_partial`, `C174_violated`
* **C175 Unused measurements stay valid between calls of a multi-Bernoulli filter** - `predict`/`update` as functions on the filter state, undefined reads as errors; invariant over all call sequences. The map update is a parameter; that it only reports valid indices is proved for both filters.  
  *partial*: Proved for all runs in which no empty scan follows a scan before predict; otherwise predict reads past the end, C175_violated_cbm, C175_violated_lmb..  
  Props/MBFilter.lean: `C175_indices_valid_partial`, `C175_reports_cbm`, `C175_reports_lmb`, `C175_violated_cbm`, `C175_violated_lmb`
* **C176 Births follow the particle after resampling** - State before update, after update and after predict related slot by slot. Witness: two particles over the rationals, the resampled filter evaluated by the kernel.  
  *partial*: Proved if the update does not resample; in general births of the old particle in the same place are added, C176_slots, C176_violated..  
  Props/MBFilter.lean: `C176_births_partial`, `C176_slots`, `C176_violated`
* **C177 Particle weights after an update of a multi-Bernoulli filter** - From the resampling and normalisation theorems C30, C31; weights before resampling as a separate specification `post`, effective number of particles `effective`.  
  *proved*: as stated.  
  Props/MBFilter.lean: `C177_factor_lmb`, `C177_weights`, `C177_defined`, `C177_unchanged`
* **C178 CB-MeMBer runs stay in order** - Invariant `SolidMap` through update, merging, pruning, births and landmark motion, lifted to all call sequences by the generic theorem `exec_good`. Witness for the freed memory evaluated by the kernel over the rationals.  
  *partial*: Proved for all runs in which no empty scan follows a scan before predict (definedness, positive weights, maps in order); other runs are undefined, C178_violated, and freed memory is read in some proper runs, C178_freed_memory..  
  Props/MBRuns.lean: `C178_runs_partial`, `C178_violated`, `C178_freed_memory`
* **C179 Every track has a Gaussian** - Total weight is kept by merging, so a mixture with enough mean weight keeps a Gaussian after pruning. Witness: seven-Gaussian mixture produced by a run of calls with the default configuration, evaluated by the kernel; persistence by induction over further calls.  
  *partial*: Proved for tracks whose mean Gaussian weight before merging is at least the pruning threshold; violated with the default configuration, C179_violated; such tracks never disappear, C179_permanent, and cannot be read, C179_unreadable..  
  Props/MBRuns.lean: `C179_kept_partial`, `C179_violated`, `C179_permanent`, `C179_unreadable`
* **C180 LMB runs stay in order** - Invariant through partitions, hypotheses (both the enumeration and any outcome of Murty's algorithm), normalisation, merging and pruning; lifted to all call sequences by the generic theorem `exec_kept` that does not assume definedness.  
  *proved*: expectedBirths_, which the constructor leaves uninitialised, is assumed not negative, C180_expected..  
  Props/LMBRuns.lean: `C180_runs`, `C180_threshold`, `C180_expected`
* **C181 Importance weight of a PHD particle** - `Model/PHDWeight.lean` models `importanceWeighting`, `rfsMeasurementLikelihood` (table) and the choice in `update`. Specification: `C181_full`, with `EvalPts`, `intensity`, `expected`, `likOf` and `Assoc.total`. `C181_value_partial`, `C181_exact_partial`, `C181_positive`; `C181_violated` (Pd = 1/4, measurement out of reach).  
  *partial*: exact value when partitions of the table have at most 8 members (missed detection term and e^-1000 floor as in C42); full claim when every point has a measurement in reach; violated: a landmark without a measurement in reach counts Pd instead of 1 - Pd.  
  Props/PHDWeight.lean: `C181_value_partial`, `C181_exact_partial`, `C181_violated`, `C181_positive`
* **C182 Evaluation points are the heaviest in view** - `EvalPts` states it as a splitting of the map. `C182_points` by induction over the loop on the sorted map, for every sorting function.  
  *proved*: as stated.  
  Props/PHDWeight.lean: `C182_points`
* **C183 Empty-set weighting strategy** - `C183_full`. `C183_no_points_partial` through C42 with no rows; `C183_constant`, `C183_violated`, `C183_uniform` (normalised weights 1/n).  
  *partial*: holds for maps without a point in view when the count is not 0; violated: count 0 or an empty map sets the weight to a constant, so that all particles end up with the same weight.  
  Props/PHDWeight.lean: `C183_no_points_partial`, `C183_constant`, `C183_violated`, `C183_uniform`
* **C184 Cluster process weight** - `C184_full`, with `explains` of C43. `C184_value_partial`, `C184_ratio_partial`; `C184_violated` (any landmark out of view), `C184_empty_violated`.  
  *partial*: exact value computed; ratio between particles right when sum (1+Pd) w is equal; violated: the exponent is + sum w, so a landmark out of view multiplies the weight by e^w; the weight of a particle with an empty map is not changed.  
  Props/PHDWeight.lean: `C184_value_partial`, `C184_ratio_partial`, `C184_violated`, `C184_empty_violated`
* **C185 Default configuration is complete** - Members not set are `none` in `defaultCfg`; reading one is undefined (`none`). `C185_undefined`, `C185_weight_undefined`, `C185_violated`, `C185_defined_partial`.  
  *partial*: defined once both members are set; violated: useClusterProcess_ and importanceWeightingEvalPointGuassianWeight_ are not set by the constructor.  
  Props/PHDWeight.lean: `C185_undefined`, `C185_weight_undefined`, `C185_violated`, `C185_defined_partial`
* **C186 Random generators exist when they are used** - `Model/Programs`: each main program is the list of its steps; data generation and run are arbitrary computations that draw numbers. `Ready` (a generator per thread) holds after an initialisation and is kept by every draw. The FastSLAM programs are undefined at the first normal number.  
  *partial*: Proved for all programs but those of FastSLAM; violated by fastslam2dSim and fastslam_VictoriaPark, which never call initializeGaussianGenerators..  
  Props/Programs.lean: `C186_defined_partial`, `C186_violated`, `C186_not_full`
* **C187 The seed option seeds the filter run** - Comparison with the same run in a new process seeded with the option. Victoria Park and CityTrees meet it. In the simulators the second `initializeGaussianGenerators` appends engines behind the old ones, so runs that draw normal numbers have the same result for all seeds (`C187_violated`, for every library); what is drawn from `drand48` follows the seed.  
  *partial*: Proved for the programs that read their data (Victoria Park, CityTrees); violated by all simulators: their normal numbers are those of the trajectory number, only the numbers of drand48 depend on the seed..  
  Props/Programs.lean: `C187_seed_partial`, `C187_violated`, `C187_uniform_partial`, `C187_not_full`
* **C188 Same options, same result** - No step between a use of the time and the next seeding draws; the results for two times are equal by induction over the program.  
  *proved*: All programs with a seed option. The amplitude program has none: its data are reproducible, its result is not (C188_violated_amplitude)..  
  Props/Programs.lean: `C188_reproducible`, `C188_data`, `C188_violated_amplitude`
* **C189 Gaussian weights of the RB-PHD filter stay positive over whole runs** - PHDRuns: calls as commands on the filter of the PHD module with merging and pruning of the GaussianMixture module; invariant over exec (exec_inv): positive weights; tidy_ok shows that pruning with a positive threshold removes every null pointer left by merging and never raises the total weight  
  *proved*: All runs from the constructor; merging and pruning are the modelled functions, the weighting of particles is any positive function..  
  Props/PHDRuns.lean: `C189_positive`, `C189_after_update`
* **C190 Expected number of landmarks of the RB-PHD filter is bounded by the measurements** - PHDRuns: invariants Inv (lists of unused measurements and candidates never longer than the number of measurements; each check adds at most that many births) and Own (potential: expected number plus birth weight times the length of both lists), induction over the run  
  *proved*: Both bounds over all runs; the sharper one needs that nobody was resampled, since the lists of births go to wrong particles after resampling (C33, C47)..  
  Props/PHDRuns.lean: `C190_expected`, `C190_before_resampling`
* **C191 update() of the RB-PHD filter is defined in every run and leaves usable particle weights** - PHDRuns: from the invariant the normalisation divides by a positive sum and C30 gives a defined resampling; weights after the update from C30/C31  
  *proved*: Update in every run; predict can still fail as reported under C45 and C46..  
  Props/PHDRuns.lean: `C191_defined`, `C191_weights`
* **C192 FastSLAM keeps between the initial and the maximal number of particles** - FastRuns: the filter as a whole on top of the modules FastSLAM (updateMap of one particle) and ParticleFilter (copyParticle, resample). Invariant `MidO` of the loop over the particles, taken in any order, `Inv` between calls, induction over the run.  
  *proved*: All runs of a filter with at least one particle; one thread..  
  Props/FastRuns.lean: `C192_number`, `C192_update`
* **C193 FastSLAM stays inside its arrays** - FastRuns: out of range accesses and undefined resampling are outcomes of their own. Invariants: particle ids and parents are below the number of candidate lists, which never shrinks; the number of particles in the loop is bounded by particles times hypotheses. Both violations are proved from the constructor.  
  *partial*: Proved for everything around updateMap. Violated: updateMap itself writes outside an array (first scan with one measurement, C193_violated; also C52, C96), and a filter without particles cannot be updated (C193_violated_empty)..  
  Props/FastRuns.lean: `C193_defined_partial`, `C193_violated`, `C193_violated_empty`
* **C194 FastSLAM particle weights stay usable** - FastRuns: weights are multiplied by exponentials and divided by positive numbers; then C30 and C31.  
  *proved*: All runs; one thread..  
  Props/FastRuns.lean: `C194_weights`
* **C195 FastSLAM maps keep no landmark below the pruning threshold** - FastRuns: landmarks of a result are those prune kept and new ones, whose log-odds are multiples of those of the prior; induction over the run. Witness: a run of one scan for every prior below one half.  
  *partial*: Proved for a prior of at least one half; violated by smaller ones, because new landmarks are added after pruning (C195_violated)..  
  Props/FastRuns.lean: `C195_threshold_partial`, `C195_violated`
* **C196 FastSLAM loses and mixes no hypotheses** - FastRuns: specification `Scanned` lists the results of updateMap particle by particle; the loop invariant says that processed places and copies together are a permutation of the results so far.  
  *proved*: All runs; one thread. Hypotheses after the first begin with the candidate list left at their index (C97)..  
  Props/FastRuns.lean: `C196_bookkeeping`, `C196_predict`, `C196_empty`, `C196_counters`, `C196_decision`
* **C197 Written options reach the program with the value written** - Config: every `pt.get` of every program is a row (option, type converted to, default, type of the variable); the readers of numbers follow the stream translator and are proved to accept exactly the texts of an independent grammar (`Padded PlainInt`, `Padded PlainDec`). The rows are checked by the kernel: each option once, defaults read before. Witnesses: the shipped files, evaluated in the kernel.  
  *partial*: Proved for every option of every program whose variable has the type that the option is read as, for whole numbers in the two other options, and for defaults. Violated by effNParticle (all filter programs) and addedClutter, real variables read as whole numbers: every shipped file writes a decimal point, so the threshold silently becomes the number of particles (C197_threshold_violated) and the filters resample at every opportunity (C197_always_resamples)..  
  Props/Config.lean: `C197_written_partial`, `C197_whole_partial`, `C197_default_partial`, `C197_narrow_default`, `C197_threshold_violated`, `C197_always_resamples`
* **C198 A program starts exactly on complete configurations, and on its own default file** - Config: induction over the rows; the grammar gives what a well-formed text is. Default files are transcribed element by element (ConfigFiles).  
  *partial*: The exact condition of acceptance is proved for all programs. Violated for default files: the amplitude program rejects its default file, the CityTrees programs have none in the repository (C198_shipped_violated)..  
  Props/Config.lean: `C198_accepted_iff`, `C198_shipped_partial`, `C198_shipped_violated`
* **C199 Malformed options are reported** - Config: as C198, with the option that the error names. Witness: 1e3 particles and a decimal comma in the shipped file of rbphdslam2dSim.  
  *partial*: Proved for mandatory options. Violated by every option with a default: its text is silently replaced (C199_replaced, C199_replaced_violated)..  
  Props/Config.lean: `C199_mandatory_partial`, `C199_replaced`, `C199_replaced_violated`
* **C200 Every option has an effect** - Config: `wiring` lists, for each program, the slots of the components and of the program and the variables whose product they receive; the kernel checks that every option has a slot of its own or is one factor of a product.  
  *partial*: Proved for all options but those listed; violated by those (C200_ignored_violated): innovation thresholds of the XY and 6-D programs, process noise inflation of the Victoria Park programs, three weighting options of the CB-MeMBer program, iterations and ospaC of the Ceres programs. The CityTrees LMB program is left out..  
  Props/Config.lean: `C200_effective_partial`, `C200_ignored_violated`
* **C201 Log files lie in the configured directory** - Config: `addSlash` is the statement on the last character, undefined for an empty text. Specification `InDir`.  
  *partial*: Proved for the seven programs that add a slash and for directories written with one; violated by the seven others (C201_prefix_violated) and by an empty directory (C201_empty_violated)..  
  Props/Config.lean: `C201_logs_partial`, `C201_prefix_violated`, `C201_empty_violated`
* **C202 Detection probabilities of the Victoria Park programs are those written** - Config: children of Pd are values or comments, since `read_xml` is called without the flag that drops comments.  
  *partial*: Proved for lists without comments; violated by comments: a commented-out number is used, another comment stops the program (C202_comment_violated)..  
  Props/Config.lean: `C202_pd_partial`, `C202_comment_violated`
* **C203 The noise of the models is the configured noise** - Config: `poseVars`, `lmVars`, `measVars` list the names of the variances by coordinate; the kernel checks that each slot of the noise matrices is set once, to the product of the three factors.  
  *partial*: Proved for all simulators and for the measurement noise of the Victoria Park programs; violated by their process noise, which ignores the inflation factor (C203_park_violated). The CityTrees LMB program is left out..  
  Props/Config.lean: `C203_noise_partial`, `C203_park_violated`
* **C204 FastSLAM threads do not interfere** - FastThreads: updateMap(i) is cut into its critical section and the work on each hypothesis; a schedule is any list of iterations. Invariant `Safe`: places of different iterations are different; hence steps of different iterations commute (`swap`), all steps of the iteration that comes first can be pulled to the front (`pull`) and a block of steps is updateMap (`block`); induction on the length of the schedule gives one iteration after the other. The converse (`unserial`) and absence of index errors (`Room`) likewise.  
  *proved*: Model at the granularity of critical sections and of the work on one hypothesis; within a step, privacy of the places is what makes it atomic (C204_private). C204_defined_partial excludes errors of updateMap on one particle, as C193..  
  Props/FastThreads.lean: `C204_private`, `C204_serial`, `C204_runs`, `C204_number`, `C204_defined_partial`, `C204_every_order`
* **C205 FastSLAM results do not depend on the threads** - FastThreads, FastRuns: with the loop invariant, what updateMap makes of each particle is determined by the state before the loop if the copies start with the same candidates wherever they are; the rest is permutation invariant. Witness: two particles with two hypotheses each and an old candidate beyond the particles; both orders are carried out.  
  *partial*: Proved after a resampling, and while the candidate lists beyond the particles are empty, which holds in every run until the first resampling (C205_condition_partial). Violated otherwise: the copies start with candidates left at their index (C205_violated)..  
  Props/FastThreads.lean: `C205_orders_partial`, `C205_schedules_partial`, `C205_condition_partial`, `C205_violated`
* **C206 Weighting tables of the RB-PHD filter never leak** - `Model/PHDThreads`: tables as memory with shape, reads and writes checked; `updateMap` as a list of steps on table, local variables and particle. Proof: invariants of each stage; the final particle is the closed form of `Model/PHD`.  
  *proved*: For every table, map, scan and model: updateMap on the tables of a thread gives the closed form of C43-C47, and never leaves the tables (C206_tables)..  
  Props/PHDThreads.lean: `C206_tables`, `C206_stale`
* **C207 RB-PHD update is independent of threads** - Threads with queues of particles; a schedule is any list of threads, one step each. Invariant: every particle is untouched and waits in one queue, or is in work by one thread whose remaining steps lead to the result, or has the result.  
  *proved*: For every number of threads, division and interleaving of the steps: no step fails, the result is that of the sequential update (C207_threads, C207_loops, C207_update), and the loop ends (C207_ends). The number of threads that run the loop is at most the number at construction (omp_get_max_threads)..  
  Props/PHDThreads.lean: `C207_threads`, `C207_ends`, `C207_loops`, `C207_same`, `C207_update`
* **C208 RB-PHD update has no data race** - Each step has a list of places it reads and writes; that these lists are right is proved (`C208_frame`, `C208_local`). A race is a reachable state in which two threads are about to touch the same place, one writing.  
  *partial*: The code violates the claim: every thread writes threshold_mahalanobisDistance2_mapUpdate_ (line 592), and with the cluster process stops timer_particleWeighting_ (lines 580, 669), without protection (C208_violated, C208_violated_always). Proved: nothing else is ever contended, and the threshold always has the configured value inside an iteration (C208_private_partial); one thread alone has no race (C208_single_partial); the timer is never left running, whatever the interleaving (C208_timer_partial)..  
  Props/PHDThreads.lean: `C208_frame`, `C208_local`, `C208_private_partial`, `C208_single_partial`, `C208_timer_partial`, `C208_violated_always`, `C208_violated`
* **C209 Particle swarm runs are safe** - `Model/PSORuns`: initialisation, evaluation, optimisation, move, loop and files of the three programs as Option computations; `none` for every access outside. Proof: an invariant of the state (lengths, topology, first poses) kept by each call.  
  *proved*: For every run with at least one particle and, if particles are optimised, one odometry input: the run ends in a state whose containers fit (C209_run). Without odometry inputs optimizeParticles reads a pose that does not exist (C209_single_pose)..  
  Props/PSORuns.lean: `C209_run`, `C209_new`, `C209_single_pose`
* **C210 Swarm trajectories start at the origin** - The same invariant: with pose, velocity and the attracting best poses zero, the new velocity and pose are zero; the optimiser does not touch the first pose.  
  *proved*: For every run: first pose zero in every line written, in every particle and in the best particle (C210_origin)..  
  Props/PSORuns.lean: `C210_origin`
* **C211 Logged likelihood belongs to the logged state** - Invariant on files and state: the last n lines are those of the state, and every line n further on holds the likelihood of this line.  
  *partial*: The code violates the claim: the particles are moved between evaluation and writing (C211_violated_orb), and rfspsoslam1dSim/2dSim write the first lines before any evaluation (C211_violated_sim). Proved: without optimisation the likelihood is that of the same particle in the iteration before (C211_shift_partial)..  
  Props/PSORuns.lean: `C211_violated_sim`, `C211_violated_orb`, `C211_shift_partial`
* **C212 Swarm runs the configured iterations** - The iterations as `takeWhile` over the loop counter; closed form by induction; the file is the concatenation of the lines of the iterations.  
  *partial*: The code of rfspsoslam1dSim and rfspsoslam2dSim violates the claim: one iteration less (C212_violated). Proved: the exact lines for all programs (C212_rounds), which is the claim for rfspsoorbslam1dSim (C212_orb_partial)..  
  Props/PSORuns.lean: `C212_rounds`, `C212_orb_partial`, `C212_violated`
* **C213 Best particle of a swarm run is reported** - Invariant: the best particle is at least as likely as all lines evaluated so far and as the first particle (needed for schedules with a race, `evaluate_ge` of C101), and is in the files. Witnesses evaluated in the kernel.  
  *partial*: The code violates the claim: nothing is ever written to bestParticlePose.dat (C213_violated_empty, C213_violated); with optimisation the best trajectory may be in no file (C213_violated_unlogged); at the end rfspsoslam1dSim/2dSim put the true trajectory in the search, so the best particle is never less likely than the truth (C213_violated_truth). Proved: without optimisation the best particle is in the files and at least as likely as all evaluated ones, for all schedules (C213_logged_partial); its likelihood is its own (C213_consistent_partial); rfspsoorbslam1dSim leaves it alone at the end (C213_truth_partial)..  
  Props/PSORuns.lean: `C213_violated_empty`, `C213_violated`, `C213_logged_partial`, `C213_violated_unlogged`, `C213_consistent_partial`, `C213_truth_partial`, `C213_violated_truth`
* **C214 Optimised particles are no less likely** - `optPart` compared with `Batch.readParams`, the reading of the parameter vector by the objective. Witness: the scan likelihoods of `BatchLik.psoLik` and `BatchLik.ceresLogLik` for an empty scan.  
  *partial*: The code violates the claim: the likelihood of the swarm and the objective order states differently (C214_scan, C214_violated). Proved: what the optimiser returned is written back, the objective gets no worse, and neither does a likelihood that orders states like the objective (C214_optimised_partial)..  
  Props/PSORuns.lean: `C214_optimised_partial`, `C214_inputs`, `C214_scan`, `C214_violated`
* **C215 A partitioned cost matrix is destroyed cleanly** - `Model/Heap.lean`: heap as a multiset of live blocks; `delete` of a block that is not live, deletion of rows beyond the allocation, reading `components_extendedMat` before it is written and null pointers are errors. Invariant over the calls relating the cells of the partitions to the flags they were fetched with.  
  *partial*: The code violates the claim: fetched without and then with room for the extension, the destructor deletes rows that do not exist (C215_violated_grow); the other order loses blocks (C215_violated_shrink); a partition that is never fetched leads to an uninitialised read (C215_violated_unfetched). Proved: exactly when destruction is defined and how many blocks are lost, for all sequences of calls (C215_exact); clean if every partition is fetched with one flag (C215_partial), as in the filters (C215_filters_partial)..  
  Props/Heap.lean: `C215_exact`, `C215_plain`, `C215_partial`, `C215_filters_partial`, `C215_violated_grow`, `C215_violated_shrink`, `C215_violated_unfetched`, `C215_violated_early`
* **C216 A reduced cost matrix is destroyed cleanly** - The same invariant with the reduced matrix and the index maps; number of lost blocks by induction over the calls. The number of rows left by `reduce` is taken from `CostMat.reduce` in the witnesses.  
  *partial*: The code violates the claim: a reduced matrix with one row is lost (C216_violated_one), as is the first of two (C216_violated_twice). Proved: the exact number of lost blocks for all sequences of calls (C216_exact); none if reduced once, not to one row (C216_partial)..  
  Props/Heap.lean: `C216_exact`, `C216_partial`, `C216_violated_one`, `C216_violated_twice`
* **C217 The brute force search frees its results** - Invariant: the blocks of the object are those of its last results; `freeMany_add`.  
  *proved*: as stated.  
  Props/Heap.lean: `C217_brute`
* **C218 Copies of the assignment objects can be destroyed** - Copies have the same pointers. In a heap in which no block is listed twice, a non-empty list of blocks cannot be freed twice (`freeMany_twice`).  
  *partial*: The code violates the claim: the classes have no copy constructors, so that the second destruction frees blocks that are freed already, for all objects (C218_violated_general, C218_violated_square, C218_violated_brute, C218_violated_others). Only a brute force search that was never run can be copied (C218_fresh_partial)..  
  Props/Heap.lean: `C218_violated_general`, `C218_violated_square`, `C218_violated_brute`, `C218_violated_others`, `C218_fresh_partial`
* **C219 FastSLAM updates do not lose memory** - `fastUpdate`: the memory operations of an update in order; from the lemmas for C216 and for matrices.  
  *partial*: The code violates the claim: two blocks are lost in every update whose table is reduced to one row (C219_violated). Proved: nothing is freed wrongly and the exact number of lost blocks (C219_exact); none without such updates (C219_partial)..  
  Props/Heap.lean: `C219_exact`, `C219_partial`, `C219_violated`
* **C220 Optimisation of a particle swarm does not lose memory** - `optimiseOne`: the memory operations of the loop body; induction over particles and calls.  
  *partial*: The code violates the claim: three blocks per particle and call are lost (C220_violated). Proved: nothing is freed wrongly and the exact number (C220_exact_partial)..  
  Props/Heap.lean: `C220_exact_partial`, `C220_violated`
* **C221 The batch optimisation simulators free what they allocate** - `Sim.life`: the memory operations of construction, `run` and destruction.  
  *partial*: The code violates the claim: one run loses six blocks with data association and two without (C221_violated); a second run uses a null pointer (C221_violated_twice). Proved: clean if not run (C221_partial)..  
  Props/Heap.lean: `C221_violated`, `C221_violated_twice`, `C221_partial`
* **C222 CB-MeMBer and LMB updates do not depend on the number of threads** - `Model/MBThreads`: iterations cut into steps, schedules as lists of iterations with an owning thread for each; barriers between the loops. Proof: invariant that each particle is the result of the steps done so far of its own iteration; the loops compose to the sequential update.  
  *proved*: update with threads equals the sequential update of Model/MBFilter (C222_update), for both filters (C222_cbm, C222_lmb)..  
  Props/MBThreads.lean: `C222_update`, `C222_same`, `C222_cbm`, `C222_lmb`, `C222_predict`
* **C223 CB-MeMBer and LMB updates have no data race** - As C208: each step has a list of places it reads and writes, proved right (`C223_frame`, `C223_local`).  
  *partial*: The code violates the claim: every thread writes threshold_mahalanobisDistance2_mapUpdate_ for every particle with tracks, without protection (C223_violated, C223_violated_full). Proved: nothing else is ever contended (C223_partial), nothing reads the member (C223_local), one thread alone has no race (C223_single)..  
  Props/MBThreads.lean: `C223_frame`, `C223_local`, `C223_partial`, `C223_single`, `C223_violated`, `C223_violated_full`
* **C224 CB-MeMBer and LMB filters can be run by more threads than existed at construction** - `kfs_[threadnum]` is an access that may fail; witness with two threads and one Kalman filter.  
  *partial*: The code violates the claim: kfs_ has as many elements as there were threads at construction and is indexed by the thread number (C224_violated, C224_violated_full). Proved for at most that many threads (C224_partial)..  
  Props/MBThreads.lean: `C224_partial`, `C224_violated`, `C224_violated_full`
* **C225 A timer reports the time during which it ran** - A timer is a flag and a number as in boost; a program is a list of calls and durations. The specification sums the durations at whose time the timer runs.  
  *proved*: For every sequence of calls; the boost timer is modelled after its documentation..  
  Props/Timing.lean: `C225_elapsed`, `C225_new`
* **C226 The printed total time of a random finite set filter is at most the time that passed** - The calls of the timers in `predict` and `update` as a list of events with arbitrary durations in between; parallel regions are arbitrary durations with calls of `stop`.  
  *partial*: The code violates the claim: with the cluster process and one thread the particle weighting is inside the map update and counted twice (C226_violated, C226_violated_full). Proved: the exact value in all cases (C226_exact); the claim in all other cases (C226_partial)..  
  Props/Timing.lean: `C226_exact`, `C226_partial`, `C226_violated`, `C226_violated_full`
* **C227 The printed total time of FastSLAM covers the map update** - As C226, with the calls compiled without OpenMP depending on a flag.  
  *partial*: The code violates the claim: in a build with OpenMP, the default, the timers inside the map update are not compiled and the line Total misses the whole map update (C227_violated, C227_violated_full). Proved: the exact value in all cases (C227_exact), never more than the time spent, and exact without OpenMP if the untimed parts take no time (C227_partial)..  
  Props/Timing.lean: `C227_exact`, `C227_partial`, `C227_violated`, `C227_violated_full`
* **C228 Systematic resampling in doubles never reads past the last particle** - `Model/Dbl`: every operation on doubles is the exact one followed by a rounding `rd`; `rnd` is round to nearest even with 53 bits, proved to be a rounding to nearest (`nearest_rnd`), from which monotonicity and the relative error follow. Loop invariants on the index and cumulative weight; error bound by induction and Bernoulli's inequality. Witnesses evaluated in the kernel.  
  *partial*: The code violates the claim: with 20 particles of which one has all the weight, and with 200, the last sample point rounds to more than the total weight for the largest random numbers and the loop reads past the vector (C228_violated). Proved for every rounding to nearest: the exact condition and which particles are drawn (C228_exact, C228_resample); no overrun for weights all equal to one (C228_uniform_partial) and for random numbers up to 1 - n(2N+n+1)/2^53 (C228_bound_partial, C228_thousand_partial)..  
  Props/Dbl.lean: `C228_exact`, `C228_resample`, `C228_uniform_partial`, `C228_bound_partial`, `C228_thousand_partial`, `C228_violated`
* **C229 Resampling does not drop particles because all weights are zero** - NaN is `none`; comparisons with NaN are false. Induction over the copying loop.  
  *partial*: The code violates the claim for all inputs: with all weights zero the set always becomes copies of the first particle (C229_violated). Proved: with at least one positive weight no NaN arises and particles of weight zero are not selected (C229_partial)..  
  Props/Dbl.lean: `C229_violated`, `C229_partial`
* **C230 A time stamp made from seconds has the time given** - The double is within 0.47 ns of the time; rounding the product adds less than 0.001 ns; truncation.  
  *partial*: The code violates the claim: 1.2 s becomes 1.199999999 s (C230_violated). Proved: the result is exact or one nanosecond low up to 2^22 s (C230_partial), and exact for multiples of 1/512 s (C230_dyadic_partial)..  
  Props/Dbl.lean: `C230_partial`, `C230_violated`, `C230_dyadic_partial`
* **C231 Converting a time stamp to a double and back keeps it** - As C230 with the errors of the literal 1e-9, the product and the sum.  
  *partial*: The code violates the claim: 5.1 s comes back one nanosecond low, a time of the size of a Unix time 120 ns low (C231_violated). Proved: same or one nanosecond low for seconds below 2^22 (C231_partial)..  
  Props/Dbl.lean: `C231_partial`, `C231_violated`
* **C232 The loops that bring an angle into [-PI, PI] end** - Each pass lowers the angle by at least 5 since the rounding error is below 1; the upward loop is the downward loop under negation. Witness: 2^60 - 2*PI rounds to 2^60.  
  *partial*: The code violates the claim: for an angle of 2^60 the loop does not end (C232_violated). Proved: ends within |b|/5 + 2 tests with a result in [-PI, PI] for all angles up to 2^50 (C232_partial)..  
  Props/Dbl.lean: `C232_partial`, `C232_violated`
* **C233 The Hungarian method finds a best assignment in doubles** - Model/HungDbl.lean repeats the arithmetic of the Hungarian method with a rounding after every operation; the parts without arithmetic are shared with Model/Hungarian.lean. Safety: the search of the rounded program equals the search of the exact one on a matrix with slacks 0 and 1 (`mask`), so the invariants of the exact search apply; every pass matches a row, enlarges the tree or gives up. Exactness: labels stay multiples of the power of two between 0 and the largest working entry, because free columns keep label 0 and matched edges are exactly tight; so no operation rounds and the run equals the exact run (C06, C07). Violated by a kernel-evaluated witness.  
  *partial*: violated: for the 3 by 3 matrix 2837.1 845.1 8189.3 / 5653.5 6532.8 2920.2 / 7752.2 9610.1 9996.0 the function returns false in doubles (the search of step 4 allows 1e-12, the labels have drifted apart by more). Proved for all matrices and roundings: it ends, stays inside its arrays, and a solution is a permutation with the sum in doubles of its entries; proved for multiples of one power of two (not below 2^-39, 53 bits): it returns true with a best assignment..  
  Props/HungDbl.lean: `C233_safe_partial`, `C233_grid_partial`, `C233_violated`, `C233_minimise_violated`
* **C234 The Hungarian method leaves the caller's matrix as it was, in doubles** - Relative error of subtracting and adding the offset; with offset 0 both steps are the identity on doubles. Violated by a kernel-evaluated witness.  
  *partial*: violated: after a call with 0.1 -1000 / -1000 0.3 the entry 0.1 has become 0.10000000000002274. Proved: no entry changes by more than M * 2^-51 (M bounds the entries), nothing changes if no offset is needed (maximisation of non-negative, minimisation of non-positive entries) or if all entries are multiples of one power of two (C233_grid_partial)..  
  Props/HungDbl.lean: `C234_bound_partial`, `C234_same_sign_partial`, `C234_violated`
* **C235 The first assignment that Murty's algorithm returns is a best one, in doubles** - Model/MurtyDbl.lean: the first call on top of Model/HungDbl.lean, with the outcome `unset` when the returned `false` is ignored, and the extended matrix of the filters. The parts follow from C233 and C234; the violation is a kernel-evaluated 14 by 14 witness found by a hill climbing search outside Lean.  
  *partial*: violated: for a matrix of seven landmarks and seven measurements of the form that the filters build the Hungarian method returns false in doubles; findNextBest does not look at that and hands out an array and a score that were never written (the likelihood sum adds exp of it, and the next call uses the array as indices). Proved for all matrices: either that happens or the result is a permutation with its sum in doubles over entries that differ by at most M * 2^-51; best and exact if the entries are multiples of one power of two in bounds..  
  Props/MurtyDbl.lean: `C235_safe_partial`, `C235_grid_partial`, `C235_violated`
* **C236 Later calls of findNextBest never fail in doubles** - Each later call solves a matrix whose first row holds the forbidden entries -10000 and whose other entries lie in [-1001, 2000]. Subtracting the offset -10000 puts every other entry into [8192, 16384), so all working numbers are multiples of 2^-39 and no later operation rounds (Lemmas/HungDblRow.lean, with the exactness proof of C233 made general in the bound on the labels): the solver succeeds. A sum of rounded additions is bounded by induction.  
  *proved*: Hypothesis: the first call returned (C235 shows that it need not). The default bigNum 10000; bounds on the entries as in the statement. C236_filters says the same for the matrices the filters build, for the log-likelihood of the association that is returned..  
  Props/MurtyDblRuns.lean: `C236_defined`, `C236_filters`
* **C237 findNextBest enumerates all assignments in doubles** - As C13 and C14, with the solver of C236: a solution avoids the forbidden entries because the spread is small against bigNum; each node is optimal for its set up to n * 5e-12; every permutation is in exactly one node or already returned; scores deviate by rounding only.  
  *proved*: Hypothesis: the first call returned. Nothing is said about the quality of the first result, see C235_grid_partial; the ordering starts with the second..  
  Props/MurtyDblRuns.lean: `C237_enumeration`
* **C238 An RB-PHD map update hands over every landmark it allocates** - On the model of updateMap with its tables (Model/PHDThreads.lean): the invariants of C206 also say what each place of the landmark table holds after the new Gaussians were added; places outside the part in use are never written. An allocated landmark has positive weight in the table exactly if its old Gaussian has.  
  *partial*: Holds if all weights are positive (C238_partial); C238_exact says which landmarks are lost otherwise. Violated by a Gaussian of weight zero, which an update leaves where the probability of detection is 1 if nothing is pruned (C238_violated)..  
  Props/PHDLeak.lean: `C238_exact`, `C238_partial`, `C238_violated`
* **C239 The RB-PHD filter can be run by more threads than existed at construction** - On the model of C206 to C208. The invariant of C207 does not need that the threads in the division of the particles have tables; a thread without one fails at its first particle with a map, which no other thread has touched.  
  *partial*: Holds for at most as many threads as at construction (C239_partial). A further thread that gets a particle with a map accesses wTables_ outside its bounds, in every interleaving (C239_violated)..  
  Props/PHDThreads.lean: `C239_partial`, `C239_violated`, `C239_violated_full`
* **C240 The display is drawn only while nothing changes it** - Model/Visual.lean has the two threads, the mutex and the calls completed so far as a transition system; the owner of the mutex is determined by where the threads are (invariant).  
  *proved*: In every reachable state of the two threads; VTK calls pause from the display thread only..  
  Props/Visual.lean: `C240_exclusive`
* **C241 Closing the visualizer window does not stop the simulation** - On the same transition system: after run has returned the mutex stays owned by a thread that no longer exists, so no step of the simulation is enabled.  
  *partial*: As long as the interaction has not been ended all calls can be completed (C241_partial). run returns without unlocking display_mutex_: afterwards no call of update ever returns (C241_frozen), and this can happen after any number of calls (C241_violated)..  
  Props/Visual.lean: `C241_partial`, `C241_frozen`, `C241_violated`
* **C242 The visualizer shows the heaviest particle's map of an RB-PHD filter** - vtkPoints is memory with a size (old memory is kept while it is large enough), vtkCellArray a list of cells. Each loop writes a contiguous range, by induction; the loop for the heaviest particle keeps the first maximum. Induction over the calls.  
  *proved*: C242_phd; any sequence of calls after setup..  
  Props/Visual.lean: `C242_phd`
* **C243 The visualizer shows the tracks of an RB-LMB filter** - As C242; of a track the result of getMaxGaussian (C28) is read.  
  *partial*: Holds if every track that is shown has only present Gaussians and one of positive weight (C243_partial). A track without Gaussians makes update read an element that does not exist (C243_violated; such tracks arise, see C179)..  
  Props/Visual.lean: `C243_partial`, `C243_violated`
* **C244 The visualizer draws the trajectories of all calls** - Invariant over the calls: cells and points of the three trajectories after k calls; a call that finds no place for its point is undefined.  
  *proved*: C244_lines and C244_range together give the exact number of calls; C244_sim applies it to the simulator..  
  Props/Visual.lean: `C244_lines`, `C244_range`, `C244_sim`
* **C245 A filter without errors is drawn on the true trajectory** - From C244 with the poses of a filter without errors.  
  *partial*: The estimate is drawn from the second pose of the truth on, the truth up to its last but one pose (C245_partial), so the lines differ (C245_violated)..  
  Props/Visual.lean: `C245_partial`, `C245_violated`
* **C246 FastSLAM can be run by more threads than existed at construction** - `Verif.Model.FastMore`: the loop of `Verif.Model.FastThreads` with the thread that runs each iteration and the number of Kalman filters; reading `kfs_[threadnum]` past the end is an error outcome. Proved equal to the loop without threads' filters when every thread number is below the number of filters; for any filter and scan a thread with a greater number fails at its first assigned measurement.  
  *partial*: false of the code: a thread that did not exist at construction reads past the end of kfs_ (C246_violated, C246_violated_full); with no more threads than at construction the loop does what C204 and C205 describe (C246_partial).  
  Props/FastMore.lean: `C246_partial`, `C246_violated`, `C246_violated_full`
* **C247 ospaErrorFromFile prints the error of the points in the files** - `Verif.Model.OspaFile`: a file is its words and whether white space follows the last; `in >> x` sets the end-of-file bit after a last word without white space, and `good()` is then false. The sets read are computed by induction and passed to `Verif.Model.OSPA`, of which C18 gives the error.  
  *partial*: false of the code: the last point of a file that ends with a number is left out (C247_last_lost, C247_violated); proved for files with white space after the last number (C247_partial).  
  Props/OspaFile.lean: `C247_partial`, `C247_last_lost`, `C247_violated`
* **C248 FastSLAM updates have no data race** - `Verif.Model.FastFine`: the iterations of the loop in steps that separate the two critical sections from the work outside them, with the list of accesses of each step. A simulation (`Verif.Lemmas.FastFine`) relates every state to one of `Verif.Model.FastThreads`, whose iterations own disjoint places; the accesses are shown to stay in them or to be in the critical section. `C248_frame` and `C248_local` show that a step writes and reads nothing but what is listed, `C248_critical` that both iterations can indeed want the critical section at once.  
  *proved*: for threads that existed at construction (for others see C246); the accesses of a step are listed in the model and shown to be all it reads and writes (C248_frame, C248_local).  
  Props/FastFine.lean: `C248_no_race`, `C248_frame`, `C248_local`, `C248_serial`, `C248_failures`, `C248_critical`
* **C249 The initial trajectory of the batch optimiser is a dead reckoning with the inputs** - `Verif.Model.InitTraj`: `resize`, then one round per input over the motion models and `sample` of `Verif.Model.Motion`, with overflow of a time and an unset noise as outcomes. The poses are shown to keep proper non-negative times by induction over the inputs, so that no subtraction or addition overflows and each pose takes the time of its input.  
  *partial*: false of odometry on a line, whose step does not set the time (C249_odometry1d_violated; the rest in C249_odometry1d_partial); proved for every motion model that keeps the time, so for planar odometry and Ackerman.  
  Props/InitTraj.lean: `C249_keeps`, `C249_odometry2d`, `C249_ackerman`, `C249_odometry1d_partial`, `C249_odometry1d_violated`, `C249_unset`
* **C250 Copying a particle keeps its state and gives the copies their places as ids** - `PF.copyParticle` of `Verif.Model.ParticleFilter` against a specification by places (`Copied`).  
  *proved*: as stated.  
  Props/ParticleFilter.lean: `C250_copy`, `C250_ids`
* **C251 The exported spatial index lists every stored datum once, under the boxes that contain it** - exportASCII as a stack machine over the tree model (SITExport), which gives up when its steps run out; the file is a list of lines. The theorem states the file by an independent grammar `Listing` (box with points, or box with the listings of its halves) for every reachable tree; by induction the stack machine writes the recursive listing of the tree, and the invariant of C35 gives counters and containment.  
  *proved*: as stated.  
  Props/SITExport.lean: `C251_export`
* **C252 The joint Mahalanobis distance of a JCBB hypothesis is that of its pairings** - `Verif.Model.JCBBDist` follows the incremental inversion of calculateJointMahalanobisDist over stacked index types `Ix d k`; sizes that do not fit are the outcome `none`. The joint covariance and the stacked innovation are specified separately from the list of pairings (`IsJoint`); the block inversion lemma (Schur complement) is proved for the stacked index and used by induction on the hypothesis.  
  *partial*: The code violates the full claim. With an uncertain pose the measurement noise is added to the cross-covariances of pairings as well, so the distance is wrong (C252_violated: 2 instead of 1); with a dense covariance the pose-landmark correlation is left out (C252_dense_violated); when the first measurement is paired with at least two others already paired the blocks have different sizes, which is undefined (C252_undefined), and the gate has d degrees of freedom too few (C252_dof_violated). Proved: the distance is right for a certain pose with block covariance (C252_certain_partial), the recursion is right whenever the blocks given to it are (C252_recursion_partial), and it is right for single pairings (C252_single)..  
  Props/JCBBDist.lean: `C252_certain_partial`, `C252_recursion_partial`, `C252_blocks_partial`, `C252_noiseless_partial`, `C252_single`, `C252_undefined`, `C252_dof_partial`, `C252_dof_violated`, `C252_violated`, `C252_dense_violated`
* **C253 The likelihood of one scan in the batch optimiser is that of the measurement model, and its gradient the derivative** - `Verif.Model.CeresLin`: table, clutter and stored gradients by known association, the loop over lexicographic permutations with gradients (exceptions of map::at are the outcome `none`, results of exp below half the smallest double are 0); the value through the model and the theorem of C42. The loop is turned into a sum over associations with the enumeration of C04, and that sum is compared with the derivative of the block sum (product rule).  
  *partial*: The code violates the full claim: the detection probability of the measurement model is overwritten by 0.9 (C253_ignored_violated, C253_violated: 1.9 instead of 1.5), measurements with a known landmark are weighed without it (C253_known_violated), and the stored gradients contain the likelihood once too often, so that the gradient of a partition with entries c is c times the derivative (C253_gradient_scaled, C253_stored_violated, C253_gradient_violated: 5/12 instead of 5/6). Proved: the value for detection probability 0.9 without known landmarks, for at most eight landmarks and measurements; the gradient where entries are 1; no exception while likelihoods are at most e^30..  
  Props/CeresLin.lean: `C253_gradient_scaled`, `C253_gradient_partial`, `C253_value_partial`, `C253_ignored_violated`, `C253_violated`, `C253_known_violated`, `C253_stored_violated`, `C253_gradient_violated`, `C253_no_exception`
* **C254 A prediction moves every landmark of every particle exactly once** - The loops over tracks and Gaussians (`MBF.stillTracks`, with an index out of range or a null pointer as the outcome `none`) are compared with a relation on tracks that says which Gaussians have moved (`Stepped`, induction over the index of the loop); `birthLoop` is compared with a list of new tracks. `C254_cbm_runs` and `C254_lmb_runs` use C178 and C180 to exclude Gaussians beyond the counter. The RB-PHD filter and FastSLAM have the mapped lists of `PHDR.moved` and `FastRuns.step`.  
  *proved*: as stated.  
  Props/Predict.lean: `C254_tracks`, `C254_cbm`, `C254_lmb`, `C254_cbm_runs`, `C254_lmb_runs`, `C254_phd`, `C254_phd_births`, `C254_fastslam`
* **C255 Every random decision of the PSO map update has a number of its own** - the loop over the landmarks of the model of C55 is followed with its position in the stream; velocities, removals, additions and the final position are given exactly in terms of the stream. Found with an automatic mutant of `PSO.ownPart` that C55 had accepted.  
  *proved*: positions in the stream given in closed recursive form; C255_fresh: the ranges of positions of different decisions are disjoint.  
  Props/PSODraws.lean: `C255_draws`, `C255_fresh`
* **C256 Data that share a box of the spatial index are closer than the smallest box** - invariant `Fine` of all boxes under insertion, growth of the root, removal and merging; boxes of a tree given by the inductive relation `Box`, cells by integer bounds. Found with an automatic mutant of `SIT.smallestLo` that C35-C38 had accepted.  
  *partial*: The code violates the full claim for data on a face of the grid (C256_violated: 1.2 and 2.5 share a box of edge 4 with minBoxSize 1 after a removal). Proved when no datum lies on a face..  
  Props/SITCells.lean: `C256_resolution_partial`, `C256_shared_partial`, `C256_violated`
* **C257 The swarm moves and starts as the random numbers say** - the loops of the model of C209-C214 over poses, measurements and particles, with the position in the stream as part of the invariant; C257_move shows that the particles moved later see the best solutions of the state before the call.  
  *proved*: as stated.  
  Props/PSOMoves.lean: `C257_trajectory`, `C257_scale`, `C257_particle`, `C257_move`, `C257_landmarks`, `C257_init`, `C257_topology`, `C257_topology_fresh`
* **C258 Every random number of a simulator has one use** - the models of C120-C127 (plane) and of the simulator in space are followed with their position in the stream. Rejection sampling is specified by `Accepted`, the list of places at which the stream is acceptable, which C258_places shows to be unique; the segments begun by a step are given in closed form (`begun`).  
  *proved*: as stated.  
  Props/SimNumbers.lean: `C258_trajectory`, `C258_trajectory6`, `C258_measurements`, `C258_landmarks6`, `C258_measurements6`, `C258_trajectory1`, `C258_measurements1`, `C258_run`, `C258_run6`, `C258_run1`, `C258_places`
* **C259 When, from where and with which numbers landmarks are created** - `generateLandmarks` as a whole (Model/SimLandmarks.lean) over the loops of C123 and C161, which are shown to be instances of one loop whose i-th step has a closed form.  
  *proved*: as stated.  
  Props/SimLandmarks.lean: `C259_steps`, `C259_steps1`, `C259_stepsOrb`, `C259_landmarks`, `C259_landmarks1`, `C259_landmarksOrb`, `C259_safe`

## Disagreements between code and property

Each entry is a theorem that shows, with a concrete witness, that the unchanged code does not meet the property (or reaches undefined behaviour). The text is the comment of the theorem.

* `C04_empty_is_ub`: The empty object (`nM = nZ = 0`) is outside C04: its first call indexes outside the empty array.
* `C05_counter_wraps`: The counter is 32 bits wide: with 13 landmarks the call number `2^32` returns 0, the value documented for "no permutations remaining", although it wrote a permutation and more follow.
* `C08_reports_failure_on_success`: is violated: on this matrix the function fills in the optimal assignment and its score and returns `false`.
* `C10_second_reduce_duplicates`: is violated: after the second call every remaining row is listed twice and fetching the reduced matrix writes past the end of the index arrays.
* `C15_violated`: is false of the code: 3 x 3, two real rows, one real column. The first two results both pair real row 0 with real column 0 and leave real row 1 unpaired: the reduced column index is compared with the column count of the full matrix.
* `C16_min_order_violated`: is false for `maxToMin = false`: whenever two assignments have different totals, the rows come out worst first.
* `C16_min_matrix_violated`: is false for `maxToMin = false` also in that the caller's matrix is left negated and shifted.
* `C18_both_empty_nan`: Both sets empty: the value is not a number (0/0).
* `C19_violated`: is false of the code: order 2, two points each, cutoff 10.
* `C25_violated`: (`getWeightSum` is the sum over all Gaussians and `normalizeWeights` makes it 1) does not hold once a Gaussian has been removed or merged away: the loops stop at the count although the entries are spread over a longer container.
* `C26_copy_ctor_violated`: does not hold in full: copy construction of a mixture from which a Gaussian was removed (or merged away) dereferences a null pointer.
* `C26_self_copy_violated`: does not hold in full: copying a mixture onto itself (also through `GMBernoulliComponent::operator=`) reads freed memory.
* `C27_violated`: does not hold in full: pruning a last track that has a Gaussian copies the track onto itself, which reads freed memory.
* `C28_violated`: (the Gaussian with the largest weight) does not hold after a merge or removal: the loop stops at the count although entries are spread over a longer container, and may even return a null pointer.
* `C29_violated`: Offset 0 (which `drand48()` may return): a particle of weight 0 is drawn.
* `C32_violated`: Two threads that overlap: both particles end at the same pose, that of particle 1. Every iteration has run its three statements in order.
* `C33_violated`: The code violates C33 in the second resampling: the particle reports parent 1, whose state differs from its own, having been copied from particle 0.
* `C34_violated`: (see the statement)
* `C36_violated`: A point at 0 is not found by the query `[0, 1]`.
* `C37_empty_undefined`: On an empty index the query dereferences the missing parent of the root.
* `C38_violated`: Datum 0 at −1, datum 1 at 2. After the root was enlarged for datum 1, datum 0 is stored but not found.
* `C38_outside_undefined`: Asking for the removal of a point outside the root box is undefined.
* `C39_violated`: Two measurements are assigned to the only landmark.
* `C39_null`: When no pairing passes the gate, the constructor follows a null pointer.
* `C40_violated_assign`: Objects 0 and 1 with variances 1 and 4; both likelihoods are evaluated; then object 0 becomes a copy of object 1 by assignment. Its likelihood is computed with the factor of variance 1.
* `C40_violated_det`: `getCovDet` before the first evaluation leaves the factor as found in memory (here 7).
* `C42_violated`: One landmark with detection probability 1/4, one measurement out of reach, unit clutter: the likelihood is 1/4, where the only association (missed detection and clutter) has weight 3/4.
* `C44_violated`: An empty scan leaves every particle as it is, whatever the models.
* `C45_violated`: One measurement, then an empty scan, then `predict`: measurement 0 of the empty set is read.
* `C46_violated`: The sweep increments the end iterator whenever the last candidate is promoted or dropped.
* `C47_violated`: Particle 1, a copy of particle 0, gets no birth from the measurement left over by particle 0, since particle 0 consumed it.
* `C47_violated_repeat`: `resampleOccured_` stays set until the next non-empty scan: a second call again replaces the candidates of particle 1 by those of particle 0, and what particle 1 gathered meanwhile is lost.
* `C48_certain_nan`: With detection and existence both certain, a track without any measurement in reach makes the code divide zero by zero.
* `C48_violated`: The full claim of C48 is false: six tracks, six measurements. Every track comes out more likely to exist than it is.
* `C49_violated`: does not hold: one track (probabilities of detection and existence 1/2), one measurement of likelihood 1/12. The posterior association probability is 1/10, so the birth probability should be 9/10; the code gives 11/12.
* `C51_violated`: is violated: with three measurements of which only the second one belongs to a track, that track is thrown away and an empty one kept.
* `C51_violated_update`: The same in a whole update: one track of existence probability 1/2, three measurements, the second one from the landmark; the update leaves the legacy track and one track of existence probability zero.
* `C51_freed_memory`: Reading freed memory: a track made from measurements of likelihood zero is copied onto itself.
* `C52_violated`: fails. If at most one row of the table of log-likelihoods is ambiguous, the reduction decides the association and no hypothesis is counted: `updateMap` writes to an array of length zero, and no landmark is updated.
* `C52_violated_single`: fails for every scan with one measurement when at most one landmark is in range.
* `C52_violated_unambiguous`: fails whenever there are as many measurements as landmarks in range, and each landmark explains one measurement and no other does.
* `C53_violated`: fails for a missed landmark above the lock weight if the prior is below one half: the probability used is one half.
* `C53_violated_clutter`: A false alarm rate above one (more clutter expected than measurements received) turns the evidence around: an update lowers the probability.
* `C54_violated`: is false of the code: the second particle is compared with the first particle's likelihood of the previous round.
* `C54_violated_race`: The same schedule: the race is there, and the particle selected has likelihood 1 although the other has 5.
* `C60_violated`: fails: expected bearing 3 and measured bearing -3 (both in range, 0.28 rad apart) give the likelihood of a 6 rad error, while the same measurement written as `-3 + 2π` gives the likelihood of the 0.28 rad error.
* `C62_violated`: is violated: driving 10 m in one second at 45° with a wheel base of 1 m turns the vehicle by 10 rad; one correction by `2π` is not enough.
* `C63_odometry1d_violated`: is violated by the 1-D odometry model: the new state keeps whatever time stamp it had.
* `C63_static_violated`: is violated by the static model without noise, which keeps the old time.
* `C63_violated`: (see the statement)
* `C66_extended_room_not_honoured`: is violated: after a plain `getPartition` the request for an extended matrix gets the small block.
* `C67_violated`: (`sortByWeight` always leaves the Gaussians in non-increasing order of weight) does not hold: `multiplyWeights` keeps the flag that suppresses sorting, and a negative factor reverses the order.
* `C68_violated`: (the value returned by `prune` is the number of Gaussians removed) does not hold: entries already removed by `merge` are counted again. Two coinciding Gaussians are merged into one of weight 4, then nothing is below the threshold and yet one removal is reported.
* `C70_violated`: After the constructor, which sets the threshold to `N/4` and leaves `effNParticles_t_percent_` uninitialised, the decision depends on the value left there: with equal weights (effective number `N`, above the threshold) one leftover value makes the filter resample.
* `C71_violated_distance`: One measurement, two landmarks at distances 1 and 2: the landmark at distance 2 is chosen.
* `C71_violated_count`: One measurement exactly at the predicted measurement of the only landmark: it is declared an outlier.
* `C71_violated_largest`: what the code does instead: when the search ends, the distance of the hypothesis that is reported is the largest, not the smallest, among the hypotheses of the best count.
* `C73_violated`: Evaluating a copy reads members that were never initialised, whatever measurement was copied.
* `C74_violated`: With a negative correlation the row sums are smaller than the variances: the box (half size 3) misses a point of the ellipsoid at 3 standard deviations whose first component is 6.
* `C77_6d_violated`: fails for the space model: for a robot at the origin with the identity orientation, turning about the vertical axis, a landmark straight ahead moves to the right at rate 2 per unit of the quaternion's `z`; the Jacobian says to the left.
* `C78_xy_violated`: fails for the plane: with range limits 0 and 10 the expected number of false alarms is `100π c`; the function returns `20π c`.
* `C78_rng1d_violated`: fails for the line: measurements are signed, so that the measurement space has length `2 (rMax - rMin)`; the function returns half the expected number of false alarms, for every sensor with clutter.
* `C79_violated`: fails: with an output vector shorter than the number of measurements (an empty one, say), an invalid expected measurement ends in an `std::out_of_range` exception, although the vectors are resized when the expected measurement is valid.
* `C83_violated`: is violated: turning the previous pose moves the new position sideways, which the identity matrix does not show.
* `C84_violated`: is violated by `likelihood`: for unit noise in one dimension at distance one the value is not one.
* `C85_violated`: is violated: the same pose described by a heading `2π` further on is less likely.
* `C86_violated`: is violated: a default-constructed model whose noise was never set compares an uninitialised matrix with zero.
* `C87_violated`: is violated: asking for the covariance in the base frame of a point given without covariance dereferences a null pointer.
* `C88_violated`: is violated: with one measurement and clutter intensity 2, a particle without tracks gets 1 and a particle with a track out of view gets 2.
* `C90_violated`: does not hold: one track of one Gaussian (detection 1/2, existence 1/2) and one measurement whose corrected Gaussian has weight 2 (likelihood table entry 1). Given that the track exists, it was missed with probability 1/5; the code gives its old Gaussian weight 1/9.
* `C92_violated`: does not hold: two measurements, one birth expected. A particle without tracks records births of probability 1/2; a particle with one track far out of view records births of probability 1.
* `C93_violated`: The full claim of C93 is false: six tracks, six measurements. All hypotheses together have a weight of more than 720, the factor is at most 201.
* `C94_violated`: fails for every other prior: the log-odds of the prior are added in every scan, so that the weight drifts without evidence.
* `C95_violated`: fails: for a scan with one measurement and at most one landmark in range there is no particle at all, `updateMap` leaves its array.
* `C96_violated`: fails whenever the last candidate leaves: the iterator is incremented past the end of the list.
* `C97_violated`: fails without a resampling: of the two particles made of a particle with a candidate, the second has none (it has those left at its index by an earlier particle, here none).
* `C98_violated`: fails in the second resampling: both particles are copies of particle 0, whose candidate list is `A`, but both get that of particle 1.
* `C103_violated`: is false of the code: when no other particle is better, the particle is compared with its own best map twice, and a landmark it lacks can be added twice.
* `C104_violated`: is false of the code: the neighbours are compared by their current likelihoods.
* `C105_violated`: is false of the code when `use_global` is switched on after a topology was drawn: the drawn one stays.
* `C106_vp_violated`: fails for the Victoria Park model when the noise of the diameter is correlated with that of the range.
* `C107_violated`: is false of the code when the inputs are not in the order of time: the sort it contains sorts nothing, and a measurement is refused though there is a pose of its time.
* `C107_late_violated`: refusing, is false of the code for a measurement later than every pose: the end of the container is read.
* `C107_addInput_violated`: when the inputs are given one by one, with measurements at the times of the inputs: pose 1 is at the time of the first input, but its measurement is filed under pose 0.
* `C110_violated`: is false of the code with planar odometry: turning pose 1 moves the prediction of pose 2, which the gradient leaves out.
* `C110_ub`: Without inputs (one pose), or with the inputs given one by one (`time_` has one element less than there are poses), evaluating the cost reads outside.
* `C115_violated_empty`: Without a landmark in view the likelihood of two false alarms of unit intensity, with an integral of 2, is 1 where it should be 1/2.
* `C115_violated_missed`: A landmark with detection probability 9/10 and an empty scan: the likelihood is 9/10 where it should be 1/10.
* `C116_violated`: A landmark with detection probability 9/10 and an empty scan: the value is `log(9/10)`, where the logarithm of the likelihood is `log(1/10)`.
* `C117_pose_violated`: the pose, fails: with one landmark, one measurement and a likelihood ratio `e^θ`, the value is that of `log(1 + e^θ)` up to a constant and the tolerance, and the derivative of the latter at 0 is 1/2. The gradient returned is within 1/4 of 0 or of 1.
* `C118_violated`: fails when a landmark before the one associated cannot be detected: the known association is compared with the place in the list of the landmarks in view. With landmark 0 not detectable, landmark 1 is refused the measurement known to be of landmark 1, and accepts the one known to be of landmark 0.
* `C119_violated`: is violated: with one track in view of existence probability `p`, and one measurement, the factor is 3/2 for all `p`, the multi-Bernoulli likelihood is `1 + p/2`.
* `C120_violated_end`: If the last step has no measurement, the program reads `measurements_` beyond its end.
* `C120_violated_stuck`: A first measurement whose time is not that of a step (for a file: a landmark seen from pose 0, since `odometry_` starts with the time 1) keeps every measurement from the filter, whatever the others are.
* `C120_violated`: (see the statement)
* `C121_violated_200`: With 200 false alarms expected, a random number of one half is enough.
* `C121_violated`: (see the statement)
* `C122_violated`: With relative positions, the range and the bearing that are drawn for a false alarm are stored as coordinates: `sqrt(r² + b²)` exceeds the limit.
* `C123_violated_many`: 100 landmarks configured for 199 steps: 198 are created.
* `C123_violated`: (see the statement)
* `C123_zero_violated`: No landmark at all: a division by zero.
* `C124_violated`: (see the statement)
* `C125_violated`: (see the statement)
* `C126_violated_speeds`: If the least speed is greater than the greatest, the loop that draws the speed never ends.
* `C126_violated`: (see the statement)
* `C128_violated`: (see the statement)
* `C129_blank_violated`: (violated): a blank line makes the reader use variables that `sscanf` has not written.
* `C129_ignored_violated`: (violated): a constraint between poses that are not consecutive is applied although the user agreed to ignore it.
* `C129_violated`: (see the statement)
* `C130_violated`: (see the statement)
* `C131_violated_shipped`: With the limits of the configuration that is shipped (6.3025 and 177 degrees), false alarms for random numbers below 0.0356 lie outside the field of view.
* `C131_violated`: (see the statement)
* `C132_violated_lmb`: (violated): the simulator of the LMB filter draws exact measurements, whatever noise is configured.
* `C132_violated`: (see the statement)
* `C134_violated_tie`: The simulator logs the map of the second, which is the best; the analysis looks for that of the first. Whatever the map is, the analysed map is empty.
* `C134_violated`: (see the statement)
* `C134_start_violated`: In the first step of a simulation the log has two records for each particle, the initial ones with weight one before those of the filter: the analysis uses the initial pose of particle 0, and if particle 0 is not the best, it sees no landmark at all.
* `C135_never_violated`: (violated): a landmark that is never observed counts at all times.
* `C135_violated`: (see the statement)
* `C137_violated`: (see the statement)
* `C138_violated`: (see the statement)
* `C139_violated_diameter`: (violated): a landmark whose diameter is not positive keeps the program in the loop for ever.
* `C139_violated_beams`: (violated): with the shipped configuration and any scan of 361 readings, a landmark of diameter two metres at five metres and seven degrees makes the program read outside of the scan.
* `C139_violated_probes`: (violated): the same for the whole function, whatever the scan of 361 readings and the covariance of the landmark are.
* `C139_violated`: (see the statement)
* `C141_violated`: (see the statement)
* `C142_violated`: (see the statement)
* `C143_violated`: (see the statement)
* `C145_violated`: (see the statement)
* `C147_violated`: A node that already has a parent can be added to another one. It is then a child of both; `removeChildren` of the first leaves it a child of the second, without a parent. And a node can be added to itself.
* `C147_null_violated`: Null pointers are not refused.
* `C151_asymmetric_violated`: For a covariance that is not symmetric `n_error` is not the gradient.
* `C152_violated`: So the second of two samples of a standard normal number has variance 2.
* `C153_violated`: So the ratio is not the one of the samples that the simulator draws.
* `C154_violated`: The bits 31, 63, …, 255 of random descriptors are zero, and `sample` never flips them.
* `C155_outputs_violated`: With descriptors whose likelihood can be zero they are not: the caller keeps what the variable held before.
* `C157_violated`: A second run on a log that has been converted ends with an error, having replaced the backup of the old log by the converted one and emptied the log; a third run replaces that too: nothing is left.
* `C158_violated_2d`: is false of the 2-D programs: with at least two steps, dead reckoning reads past the end of `odometry_`.
* `C158_violated`: (see the statement)
* `C162_violated`: is false of both programs: the 1-D one reads outside when no landmark was drawn into the initial map, the 2-D one when more are drawn than there are.
* `C164_violated`: is false of the code for other time steps: with steps of two seconds the odometry is given four times the weight it should have.
* `C166_violated`: is false of the code: no false alarm is ever negative.
* `C167_violated`: If `qw` may change by 1 in a step, the drawn rotation can be the zero quaternion, and the orientation of the robot is lost: every component is 0.
* `C169_violated`: (see the statement)
* `C170_violated`: A landmark may be created at the very position of the robot, where a sensor with a least range cannot see it.
* `C172_violated`: (see the statement)
* `C173_violated`: (see the statement)
* `C174_violated`: A step without a measurement at the end of the simulation: the program reads beyond the measurements.
* `C175_violated_cbm`: does not hold as stated, whatever the models and settings of the CB-MeMBer filter (`updateMap` returns 1 for a particle without tracks).
* `C175_violated_lmb`: The same for the LMB filter.
* `C176_violated`: does not hold as stated. Particle 0 explains the measurement of the second scan, particle 1 does not; both slots become copies of particle 1; the copy in slot 0 gets no birth track, because the particle that was there before left nothing unused: one copy of particle 1 has two tracks, the other only one.
* `C178_violated`: is violated in every such filter: after a scan with an empty scan behind it `predict` is undefined.
* `C178_freed_memory`: Freed memory is read in a run that is allowed by `C178_runs_partial`: a landmark that is detected with certainty is not seen again, so that the last track is removed.
* `C179_violated`: is violated with the default configuration.
* `C181_violated`: is violated: one landmark in view with `Pd = 1/4` and one measurement out of its reach, to be explained as clutter. The factor has `1/4` for the missed detection, not `3/4`.
* `C183_violated`: is violated for all models, maps and scans: for two different weights at least one of the results is wrong.
* `C184_violated`: is violated, for every model and scan: landmarks out of view do not matter to the scan, yet a landmark of weight `a` that cannot be seen multiplies the weight by `e^a`.
* `C184_empty_violated`: is violated for an empty map as well: the scan has to be clutter, but the weight is not changed.
* `C185_undefined`: is violated on every input: `useClusterProcess_` is read but never set.
* `C185_weight_undefined`: is violated, also if `useClusterProcess_` is set to false: the least weight of an evaluation point was not set, and is read for every particle that has a map.
* `C185_violated`: is violated.
* `C186_violated`: is violated by both FastSLAM programs, which never initialise the generators: the first normal number of a thread is drawn from a generator that does not exist, whatever the library and the number of threads.
* `C187_violated`: is violated by every simulator: the normal numbers of the run do not depend on the seed at all. Two runs on one trajectory that differ in the seed only, and draw normal numbers only, have the same result, for every library and every number of threads.
* `C188_violated_amplitude`: Its result does depend on the time: the numbers of `drand48`, which decide resampling, do.
* `C193_violated`: fails when the first scan has one measurement: the reduction of the table fixes everything, no hypothesis is left and `pi[0]` is written outside its array.
* `C193_violated_empty`: fails for a filter without particles, which the constructor allows: the first scan makes `resample` read the weight of a particle that does not exist.
* `C195_violated`: fails for a prior below one half: the new landmarks of the first scan, which prunes with threshold zero, are below the threshold.
* `C197_threshold_violated`: The text of the shipped file for the threshold of the effective number of particles, its meaning, and the value the program works with: every filter program with the file it is shipped with.
* `C198_shipped_violated`: The amplitude program stops on its default file: the file has no `varzr`. The program on the CityTrees data has no default file in the repository.
* `C199_replaced_violated`: A thousand particles, written `1e3`: the program runs with 200 particles and says nothing. A birth weight `0,05` (decimal comma) becomes 0.01.
* `C200_ignored_violated`: The options in `ignored` are read and change nothing: whatever their value, all settings are the same.
* `C201_prefix_violated`: The other seven programs: with the directory `data/run1` the log files are `data/run1landmarkEst.dat` and the like, in `data`.
* `C201_empty_violated`: An empty directory: the programs that complete it read the last character of an empty string.
* `C202_comment_violated`: A commented-out probability is used as a probability, and a comment in words stops the program. A space beside a probability stops it too.
* `C203_park_violated`: The Victoria Park programs read an inflation factor for the process noise, but nothing that they set depends on it.
* `C205_violated`: fails: the copy of a particle starts with the candidates an earlier scan has left at its place, and the place depends on which thread comes first. Here one order leaves the pose `false` with the old candidate, the other the pose `true`; both are results of complete schedules.
* `C208_violated_always`: is violated whenever two threads have a particle with a map: both write `threshold_mahalanobisDistance2_mapUpdate_` without any protection, and with the cluster process both stop `timer_particleWeighting_`.
* `C208_violated`: is violated: two threads, three particles.
* `C211_violated_sim`: is false of `rfspsoslam1dSim` and `rfspsoslam2dSim`: the first lines are written before the first evaluation.
* `C211_violated_orb`: is false of `rfspsoorbslam1dSim` too: the particles are moved after the evaluation.
* `C212_violated`: is false of the other programs: with 2 iterations configured, iteration 2 is not run.
* `C213_violated_empty`: the file is empty after every run of every program.
* `C213_violated`: (see the statement)
* `C213_violated_unlogged`: with optimisation: the best trajectory need not be in any file. The particle is evaluated after the optimisation and then moved by its velocity before it is written.
* `C213_violated_truth`: in the other two programs the truth takes part in the search at the end: after every run the best particle is at least as likely as the truth, even if no particle came near it.
* `C214_violated`: is false of the code: the optimiser moves the landmark out of view, which the objective prefers and the likelihood of the swarm does not.
* `C215_violated_grow`: violated: a partition with one row and two columns that is fetched without room for the extension and then with room: the destructor deletes rows that were never allocated.
* `C215_violated_shrink`: violated: the other order loses two blocks.
* `C215_violated_unfetched`: violated: a partition that is never fetched makes the destructor read an entry of `components_extendedMat` that was never written.
* `C215_violated_early`: violated: `getPartitionSize` before `partition` reads through a pointer that is not set.
* `C216_violated_one`: violated: whenever `reduce` leaves one row, two blocks are lost; it leaves one row for the matrix with the single entry 0 and the limit 1.
* `C216_violated_twice`: violated: reducing twice loses the first reduced matrix; the second call appends to the index lists of the first.
* `C218_violated_general`: violated: the compiler's copy of a `CostMatrixGeneral` has the same pointers; whenever one of the two can be destroyed, the destruction of the other deletes a block a second time.
* `C218_violated_square`: violated: the same for `CostMatrix`.
* `C218_violated_brute`: violated: the same for the brute force search after at least one run.
* `C218_violated_others`: violated: the same for the list of permutations and for Murty's algorithm.
* `C219_violated`: violated: every update of a map with one landmark that no measurement fits (a table with one entry, at the limit) loses two blocks, for ever.
* `C220_violated`: violated: with at least one particle the lost memory exceeds every bound.
* `C221_violated`: violated: one run of a simulator of the batch optimiser loses six blocks with data association (the optimiser with its two models, and three parameter vectors) and two without.
* `C221_violated_twice`: violated: `run` cannot be called twice, the second call uses a null pointer.
* `C223_violated`: violated: whenever two particles with tracks belong to different threads, the threads race for the threshold as soon as the loop begins.
* `C223_violated_full`: violated: the full claim is false for every filter of which some map has tracks.
* `C224_violated`: violated: a filter constructed for one thread, two particles with tracks, a later `update` by two threads: `kfs_[1]` is read outside the vector.
* `C224_violated_full`: (see the statement)
* `C226_violated`: violated: with the cluster process and one thread the weighting of particles with landmarks counts twice: an update in which nothing else takes time adds twice its duration.
* `C226_violated_full`: (see the statement)
* `C227_violated`: violated: in a build with OpenMP, the default, "Total" contains prediction and resampling only: the map update, however long, is missing.
* `C227_violated_full`: (see the statement)
* `C228_violated`: In binary64 the claim fails: one of 20 particles carries the whole weight and `drand48()` returns its largest value `1 - 2^-48`; the sampling loop reads a particle behind the last one. The same with 200 particles (the number in the supplied configuration files) and `1 - 34 / 2^48`.
* `C229_violated`: When every weight is zero, `resample` — forced or not, whatever the threshold and the random number — returns `true` and every particle is a copy of the first particle: the other hypotheses are lost.
* `C230_violated`: The claim that the time is kept exactly fails: 1.2 s becomes 1.199999999 s, and 5.1 s becomes 5.099999999 s.
* `C231_violated`: The round trip is not the identity: (5 s, 100000000 ns) comes back one nanosecond early; a time stamp of the size of a Unix time comes back 120 ns wrong.
* `C232_violated`: For an angle of 2^60 the first loop never ends: subtracting `2 * PI` does not change the double.
* `C233_violated`: fails: for the 3 by 3 matrix of doubles `2837.1 845.1 8189.3 / 5653.5 6532.8 2920.2 / 7752.2 9610.1 9996.0` the function returns `false`. In step 3 a slack becomes zero, so the column counts as reached, but the sum of the updated labels minus the entry is not zero in doubles, and exceeds the `1e-12` allowed by the search in step 4.
* `C233_minimise_violated`: (see the statement)
* `C234_violated`: fails: after a call with the matrix `0.1 -1000 / -1000 0.3` the first entry of the caller's matrix is the double `0.1 + 2^-45 - 2^-55` (`0.10000000000002274`), and the reported cost is not the sum of the entries `0.1` and `0.3` in doubles.
* `C235_violated`: fails: for the matrix that the likelihood functions of the filters build from seven landmarks and seven measurements with the logarithms above, the first call hands out an assignment and a score that were never written: the Hungarian method returns `false`, which `findNextBest` does not look at. All entries are doubles in [-1000, 40].
* `C238_violated`: violated: where a landmark is seen with certainty, its old Gaussian gets weight zero. If it is not pruned (threshold 0) the next update allocates a landmark for it, keeps it in the table and does not add it to the map; the update after that (here: nothing fits) overwrites the only pointer to it.
* `C239_violated`: violated: as soon as a thread that did not exist at construction gets a particle with a map, its table is accessed outside `wTables_`, whatever the other threads did before.
* `C239_violated_full`: violated: the full claim is false.
* `C241_violated`: (the simulation can always complete its calls) does not hold: the user can end the interaction at any time at which events are handled, and then the simulation waits for ever, whatever happens.
* `C243_violated`: (every track with existence probability above 0.1 is shown) does not hold: for a track without Gaussians the location is read of an element that does not exist.
* `C245_violated`: (a filter without errors is drawn on the true trajectory) does not hold: the true trajectory is drawn one step late.
* `C246_violated`: fails: a thread that did not exist at construction reads past the end of `kfs_` as soon as it comes to a particle with a landmark to which a measurement is assigned.
* `C246_violated_full`: The hypotheses are met by the filter with two particles, each with two landmarks that explain both measurements; one Kalman filter, two threads.
* `C247_violated`: fails: the same point in both files, one of which does not end with a new line: the error printed is 1 instead of 0.
* `C249_odometry1d_violated`: is violated by odometry on a line: after one input at second 1, the second pose carries time zero.
* `C252_undefined`: (negation): with an uncertain pose, a hypothesis that pairs the first measurement and two others has no defined distance: the stored inverse covariance lacks the first pairing and its size does not fit the stored innovation.
* `C252_dof_violated`: (negation): when the first measurement is paired, the gate has the degrees of freedom of one measurement less.
* `C252_violated`: (negation): with an uncertain pose even a hypothesis that leaves out the first measurement has the wrong distance, 2 instead of 1: the covariance between different measurements is taken to contain their noise, which is independent.
* `C252_dense_violated`: (negation): with a dense covariance even a single pairing has the wrong distance, 1/3 instead of 1/4: the correlation between pose and landmark is left out.
* `C253_ignored_violated`: The detection probabilities of the measurement model have no influence.
* `C253_violated`: (negation): with one landmark of detection probability 1/2, one measurement with Gaussian likelihood 2 and clutter intensity 1, the value is 1.9; the likelihood is 1.5.
* `C253_known_violated`: (negation): a measurement known to come from the landmark is weighed without the detection probability, 2 instead of 1.8.
* `C253_stored_violated`: (negation), gradient: what is stored for a pair is the derivative of the logarithm of the likelihood times the likelihood itself; it is stored for just the pairs that can belong together and whose likelihood is not below the threshold.
* `C253_gradient_violated`: (negation), gradient: with one landmark and one measurement, an entry of 1/2 whose logarithm has derivative 1, detection probability 0.9 and clutter intensity 1, the gradient is 5/12; the derivative of the logarithm of the likelihood is 5/6.
* `C256_violated`: violated: 1.2 and 2.5 share a box of edge 4 although the smallest boxes have edge 1. The datum at 2 lies on a face; once the datum before it is removed it stands for the cell on its other side.

## Axioms

Printed by `#print axioms` for every theorem named in `MANIFEST.json`:

* no axioms: 4 theorems: `C73_copy_argument`, `C73_violated`, `C32_violated`, `C123_zero_violated`
* `propext`: 17 theorems: `C73_assign_partial`, `C73_proper_partial`, `C102_evaluate`, `C54_violated_race`, `C66_first_room_partial`, `C04_default_clutter`, `C186_violated`, `C187_not_full`, `C188_violated_amplitude`, `C120_violated`, `C128_first_partial`, `C128_reseed`, `C03_add_comm`, `C225_new`, `C147_null_violated`, `C240_exclusive`, `C241_frozen`
* `Quot.sound`, `propext`: 63 theorems: `C73_value_partial`, `C134_best`, `C134_best_unique`, `C137_misread`, `C137_stuck`, `C51_no_tracks_partial`, `C89_births`, `C27_kept_tracks_partial`, `C28_no_holes_partial`, `C22_setWeight`, `C39_terminates`, `C71_count_partial`, `C71_violated_largest`, `C175_reports_cbm`, `C179_unreadable`, `C222_cbm`, `C223_frame`, `C223_local`, `C223_partial`, `C223_single`, `C223_violated`, `C223_violated_full`, `C31_no_resample`, `C100_birth_loop`, `C100_birth_step`, `C44_violated`, `C75_prior_intensity`, `C208_frame`, `C208_single_partial`, `C208_timer_partial`, `C208_violated_always`, `C101_best_monotone`, `C101_personal_best`, `C102_init`, `C104_attractor_partial`, `C105_global_partial`, `C105_violated`, `C209_new`, `C209_single_pose`, `C212_rounds`, `C213_truth_partial`, `C213_violated_empty`, `C257_init`, `C257_landmarks`, `C257_topology_fresh`, `C11_repeat`, `C66_extended_room_not_honoured`, `C04_empty_is_ub`, `C254_phd`, `C254_phd_births`, `C254_tracks`, `C187_seed_partial`, `C187_uniform_partial`, `C188_data`, `C188_reproducible`, `C120_violated_stuck`, `C123_exact`, `C128_safe`, `C225_elapsed`, `C147_effect`, `C144_dead`, `C241_partial`, `C241_violated`
* `Classical.choice`, `Quot.sound`, `propext`: 750 theorems (all others)

{"id": "C01", "title": "Time stamps are always normalised and keep their value", "statement": "Every time stamp produced by construction from (s, ns), setTime(s, ns), +, -, += or -= has 0 <= nsec < 1e9 and denotes exactly the instant s*1e9+ns (resp. the exact sum/difference of the operands' instants), as long as the seconds field does not overflow; a seconds overflow is the only way the operation can leave int32.", "quantifier": "for all pairs of int32 inputs and all operation histories on stamps", "why_tests_cant": "2^64 operand pairs; sign/carry corner cases and overflow boundaries cannot be enumerated", "anchors": ["src/TimeStamp.cpp: TimeStamp::TimeStamp(int32_t,int32_t), setTime, normalize", "include/TimeStamp.hpp: operator+, operator-, operator+=, operator-=, normalize"]}
{"id": "C02", "title": "Time stamp comparisons order instants", "statement": "For stamps produced by the API, <, >, <=, >=, ==, != agree with comparing the instants they denote; hence they form a total order.", "quantifier": "for all pairs of normalised stamps", "why_tests_cant": "infinite/2^128 pairs; only a proof shows trichotomy and agreement for all", "anchors": ["include/TimeStamp.hpp: operator<, operator>, operator<=, operator>=, operator==, operator!="]}
{"id": "C03", "title": "Time stamp arithmetic laws", "statement": "(a + d) - d = a, a + d = d + a, (a + b) + c = a + (b + c), and a += d leaves a equal to a + d (likewise -=), for every stamp reachable through the API, when no seconds overflow occurs.", "quantifier": "for all stamps and durations", "why_tests_cant": "associativity/round trip over all carries is an infinite family", "anchors": ["include/TimeStamp.hpp: operator+, operator-, operator+=, operator-="]}
{"id": "C04", "title": "Lexicographic association enumeration is complete and repetition free", "statement": "PermutationLexicographic(nM, nZ, true) yields, through successive next() calls, every assignment of the nM landmarks to distinct measurements or to 'unassigned' exactly once, in strictly increasing lexicographic order, with the unused measurements listed in increasing order after them; the return value counts 1,2,3,...; after the last one it returns 0 with a zeroed output, forever.", "quantifier": "for all nM, nZ (not both zero) and every number of calls", "why_tests_cant": "factorially many outputs per size and unboundedly many sizes", "anchors": ["src/PermutationLexicographic.cpp: PermutationLexicographic, next"]}
{"id": "C05", "title": "Lexicographic permutation enumeration (square, no clutter)", "statement": "With nM = nZ = n >= 1 and no clutter, the n! permutations of 0..n-1 are produced exactly once each in lexicographic order, then 0 forever.", "quantifier": "for all n >= 1", "why_tests_cant": "n! grows beyond any test budget", "anchors": ["src/PermutationLexicographic.cpp: PermutationLexicographic, next"]}
{"id": "C06", "title": "Hungarian method returns a valid assignment", "statement": "HungarianMethod::run on an n x n matrix terminates, returns true, writes a permutation of the columns into soln, reports cost = sum of C[i][soln[i]] of the caller's matrix and leaves the caller's matrix unchanged, for maximisation and minimisation.", "quantifier": "for all n and all matrices (exact arithmetic)", "why_tests_cant": "the augmenting-path search has unboundedly many shapes; termination cannot be tested", "anchors": ["include/HungarianMethod.hpp: HungarianMethod::run(double**, int, int*, double*, bool, bool)"]}
{"id": "C07", "title": "Hungarian method is optimal", "statement": "The assignment returned is optimal up to the code's own tolerance: no assignment has total exceeding the returned total by n*1e-12 or more (maximisation); none is below it by n*1e-12 or more (minimisation). On matrices whose entries are integer multiples of some g > n*1e-12 it is exactly optimal.", "quantifier": "for all n, all matrices, all competing assignments (exact arithmetic)", "why_tests_cant": "n! competitors for each of infinitely many matrices", "anchors": ["include/HungarianMethod.hpp: HungarianMethod::run"]}
{"id": "C08", "title": "Assignment on a reduced cost matrix reports success", "statement": "HungarianMethod::run(CostMatrix) returns true whenever it has filled in a complete assignment and its score.", "quantifier": "for all reduced cost matrices", "why_tests_cant": "depends on how much of the matrix the reduction fixes", "anchors": ["src/HungarianMethod.cpp: HungarianMethod::run(CostMatrix&,...)"]}
{"id": "C09", "title": "Cost matrix reduction keeps the optimum", "statement": "After CostMatrix::reduce(lim, minVal) the rows/columns fixed plus any optimal assignment of the reduced matrix form an optimal assignment of the clamped matrix; every original row and column is either fixed exactly once or appears exactly once in the reduced index lists, and the reduced matrix holds the clamped entries at those indices.", "quantifier": "for all square matrices, limits and both directions", "why_tests_cant": "optimality ranges over all completions", "anchors": ["src/CostMatrix.cpp: CostMatrix::reduce, CostMatrix::getCostMatrixReduced"]}
{"id": "C10", "title": "Cost matrix reduction is repeatable", "statement": "Calling reduce() again on the same object describes the same matrix (each remaining row and column still listed once).", "quantifier": "for all call sequences", "why_tests_cant": "history dependent", "anchors": ["src/CostMatrix.cpp: CostMatrix::reduce"]}
{"id": "C11", "title": "Matrix partition is an exact block decomposition", "statement": "After CostMatrixGeneral::partition() every row and every column belongs to exactly one partition, and every matrix entry whose row and column lie in different partitions is <= the likelihood threshold, so the association problem factors.", "quantifier": "for all nR x nC matrices with nR + nC >= 1 and all thresholds", "why_tests_cant": "connectivity structure of arbitrary bipartite graphs", "anchors": ["src/CostMatrix.cpp: CostMatrixGeneral::partition, getPartition, getPartitionSize"]}
{"id": "C12", "title": "At most one zero partition, correctly flagged", "statement": "getPartition returns false exactly for the one partition collecting all rows and columns without any entry above the threshold; every other partition has at least one row, one column and is connected; getPartition(p) copies exactly the entries C[rowIdx[i]][colIdx[j]].", "quantifier": "for all matrices and all partition numbers", "why_tests_cant": "depends on which components are singletons and on the swap bookkeeping", "anchors": ["src/CostMatrix.cpp: CostMatrixGeneral::partition, getPartition, getPartitionSize"]}
{"id": "C13", "title": "Murty enumerates k-best assignments in order", "statement": "Successive findNextBest calls (no real-assignment block) return pairwise distinct permutations, with scores non-increasing (up to the solver tolerance), ranks 1,2,3,..., each score equal to the sum of the selected entries of the caller's matrix.", "quantifier": "for all n, all matrices whose spread is below the big-number constant, every number of calls", "why_tests_cant": "n! assignments and an adaptive search tree", "anchors": ["src/MurtyAlgorithm.cpp: Murty::findNextBest", "include/MurtyAlgorithm.hpp: Murty, MurtyNode"]}
{"id": "C14", "title": "Murty is exhaustive", "statement": "findNextBest produces every one of the n! permutations before returning -1, and returns -1 forever afterwards.", "quantifier": "for all n and all matrices whose spread is below the big-number constant", "why_tests_cant": "n! outputs per matrix", "anchors": ["src/MurtyAlgorithm.cpp: Murty::findNextBest"]}
{"id": "C15", "title": "Murty with a real-assignment block never repeats a real assignment", "statement": "After setRealAssignmentBlock(nR, nC), two different results never agree on the association of all real rows with real columns.", "quantifier": "for all block sizes and matrices", "why_tests_cant": "depends on interaction of column elimination and the block test", "anchors": ["src/MurtyAlgorithm.cpp: Murty::findNextBest, setRealAssignmentBlock"]}
{"id": "C16", "title": "Brute-force assignment lists everything best first", "statement": "BruteForceLinearAssignment::run returns n! rows containing each permutation once, sorted from best to worst for the requested direction with the score of each row, and does not modify the caller's matrix.", "quantifier": "for all n >= 1 and matrices, both directions", "why_tests_cant": "n! outputs; ordering over all", "anchors": ["src/BruteForceAssignment.cpp: BruteForceLinearAssignment::run"]}
{"id": "C17", "title": "Matrix permanent", "statement": "MatrixPermanent calc on an n x n matrix, n >= 1, returns the permanent (sum over all permutations of the products of selected entries).", "quantifier": "for all n >= 1 and all square matrices (exact arithmetic)", "why_tests_cant": "n! terms; Gray-code bookkeeping for all n", "anchors": ["src/MatrixPermanent.cpp: MatPerm::calc"]}
{"id": "C18", "title": "OSPA distance of order 1 is the optimal sub-pattern assignment", "statement": "For order 1, calcError returns 1/max(m,n) times the minimum over all assignments of the cut-off distances plus cutoff per cardinality difference; the returned value splits exactly into the localisation and cardinality parts and lies in [0, cutoff].", "quantifier": "for all pairs of finite sets (not both empty), cutoffs and distance functions", "why_tests_cant": "minimum over all assignments", "anchors": ["include/OSPA.hpp: OSPA::OSPA, calcError"]}
{"id": "C19", "title": "OSPA distance of order p", "statement": "For order p > 1 the value returned is the minimum over assignments of (mean of p-th powers)^(1/p).", "quantifier": "for all sets and p", "why_tests_cant": "minimum over all assignments", "anchors": ["include/OSPA.hpp: OSPA::calcError"]}
{"id": "C20", "title": "OSPA assignment is one-to-one", "statement": "getOptAssignment maps the elements of the first set one-to-one into the second set or to -1, gives -1 for an index outside the first set, reports the cut-off distance of the pair as its cost, and leaves nothing of the smaller set unassigned.", "quantifier": "for all pairs of sets", "why_tests_cant": "unbounded set sizes", "anchors": ["include/OSPA.hpp: OSPA::getOptAssignment"]}
{"id": "C21", "title": "COLA equals the rescaled OSPA", "statement": "COLA = OSPA * n^(1/p) / cutoff: for order 1 it equals (sum of matched distances)/cutoff plus the number of unmatched elements.", "quantifier": "for all pairs of sets", "why_tests_cant": "unbounded", "anchors": ["include/COLA.hpp: COLA"]}
{"id": "C22", "title": "Gaussian count equals the number of stored Gaussians", "statement": "After any history of addGaussian, removeGaussian, merge, prune, sort, copyTo on a mixture, getGaussianCount() equals the number of non-null components.", "quantifier": "for all operation histories", "why_tests_cant": "unbounded histories with holes", "anchors": ["include/GaussianMixture.hpp: addGaussian, addGM, removeGaussian, merge, prune, sortByWeight, getGaussianCount"]}
{"id": "C23", "title": "Merging conserves weight and moments", "statement": "merge(t, f) conserves the total weight and the weighted mean sum; with inflation factor 1 it also conserves the mixture's second moment; it returns the number of components removed.", "quantifier": "for all mixtures, thresholds and inflation factors", "why_tests_cant": "all sequences of pairwise merges", "anchors": ["include/GaussianMixture.hpp: merge(double,double), merge(idx1,idx2,...)"]}
{"id": "C24", "title": "Pruning keeps exactly the components at or above the threshold", "statement": "prune(t) keeps precisely (as a multiset) the components with weight >= t, in non-increasing weight order with no holes.", "quantifier": "for all mixtures and thresholds t > 0", "why_tests_cant": "binary search boundary and holes for all sizes", "anchors": ["include/GaussianMixture.hpp: prune, sortByWeight"]}
{"id": "C25", "title": "Weight sum and normalisation cover all components", "statement": "getWeightSum() equals the sum of all component weights and normalizeWeights() makes it 1, in every reachable state (also after merge/removeGaussian).", "quantifier": "for all histories with nonzero total weight", "why_tests_cant": "needs states with holes", "anchors": ["include/GaussianMixture.hpp: getWeightSum, normalizeWeights"]}
{"id": "C26", "title": "Copies of a mixture are independent", "statement": "Changing weights, adding, pruning or merging in a copy never changes what the original reports, and vice versa.", "quantifier": "for all histories interleaving operations on original and copy", "why_tests_cant": "aliasing over all histories", "anchors": ["include/GaussianMixture.hpp: copy constructor, copyTo, operator=", "include/GMBernoulliComponent.hpp: copyTo"]}
{"id": "C27", "title": "Track pruning keeps exactly the tracks at or above the threshold", "statement": "pruneTracks(t) leaves (as a multiset) exactly the tracks whose existence probability is >= t, with their distributions, and never touches freed memory.", "quantifier": "for all track lists and thresholds", "why_tests_cant": "swap-with-last loop over all positions", "anchors": ["include/GMBernoulliComponent.hpp: GMMultiBernoulli::pruneTracks"]}
{"id": "C28", "title": "Most likely Gaussian of a track", "statement": "getMaxGaussian returns the component with the largest weight.", "quantifier": "for all tracks with at least one component", "why_tests_cant": "all weight vectors and holes", "anchors": ["include/GMBernoulliComponent.hpp: getMaxGaussian"]}
{"id": "C29", "title": "Resampling draws each particle floor or ceil of n*w times", "statement": "resample(n) draws n particles by systematic sampling: particle j is drawn either floor(n*w_j) or ceil(n*w_j) times for normalised weights w; the sampling index never leaves the particle array.", "quantifier": "for all weight vectors with positive sum, all random offsets in [0,1), all 1 <= n <= N (exact arithmetic)", "why_tests_cant": "continuum of offsets and weights", "anchors": ["include/ParticleFilter.hpp: resample"]}
{"id": "C30", "title": "Resampling copies what was drawn", "statement": "After resample(n) the n stored particles are, as a multiset of states, exactly the n drawn ones; no drawn particle is overwritten before being copied, free slots suffice, all weights are 1.", "quantifier": "for all draw patterns", "why_tests_cant": "slot bookkeeping over all draw patterns", "anchors": ["include/ParticleFilter.hpp: resample"]}
{"id": "C31", "title": "Particle weights are normalised", "statement": "normalizeWeights() makes the weights sum to one and preserves ratios; when resample() decides not to resample it returns false and only normalises.", "quantifier": "for all weight vectors with nonzero sum", "why_tests_cant": "infinite domain", "anchors": ["include/ParticleFilter.hpp: normalizeWeights, resample"]}
{"id": "C32", "title": "Particle propagation is independent of the thread schedule", "statement": "propagate() moves every particle from its own previous pose, whatever the interleaving of the parallel loop.", "quantifier": "for all interleavings of the OpenMP loop", "why_tests_cant": "schedules are not controllable in tests", "anchors": ["include/ParticleFilter.hpp: propagate"]}
{"id": "C33", "title": "Parent ids identify the array slot a particle was copied from", "statement": "After every resample, getParentId() of particle i is the index (before resampling) of the particle it was copied from.", "quantifier": "for all histories of resampling", "why_tests_cant": "needs several resamplings in a row", "anchors": ["include/ParticleFilter.hpp: resample", "include/Particle.hpp: copy, setParentId"]}
{"id": "C34", "title": "Particle ids are unique after addParticles", "statement": "Ids of the particles in a filter created through the constructor and addParticles are pairwise distinct.", "quantifier": "for all call sequences", "why_tests_cant": "history", "anchors": ["include/ParticleFilter.hpp: addParticles"]}
{"id": "C35", "title": "Spatial index keeps every inserted point", "statement": "After any history of addData calls every inserted datum is stored exactly once, in a leaf whose closed box contains it, and getDataSize() reports the number stored.", "quantifier": "for all histories, dimensions and positions (exact arithmetic)", "why_tests_cant": "tree shapes unbounded; root growth and splitting cascade", "anchors": ["include/SpatialIndexTree.hpp: addData, search, branch", "include/SpatialIndexBox.hpp: addData, removeData, isInside"]}
{"id": "C36", "title": "Box query returns exactly the points in the box", "statement": "queryDataInBox(min, max) returns each stored point inside the closed query box once and nothing else.", "quantifier": "for all histories and query boxes", "why_tests_cant": "continuum of boxes incl. boundary alignment", "anchors": ["include/SpatialIndexTree.hpp: queryDataInBox"]}
{"id": "C37", "title": "Nearest neighbour query is exact", "statement": "queryClosestPt(q) on a non-empty index returns a stored point of minimum Euclidean distance to q.", "quantifier": "for all non-empty trees and query points inside the root box", "why_tests_cant": "continuum of query points, all tree shapes", "anchors": ["include/SpatialIndexTree.hpp: queryClosestPt"]}
{"id": "C38", "title": "Stored points can be removed", "statement": "removeData(x) of a stored point returns true and removes exactly that point.", "quantifier": "for all histories", "why_tests_cant": "depends on root growth after insertion", "anchors": ["include/SpatialIndexTree.hpp: removeData, search"]}
{"id": "C39", "title": "Joint compatibility association is one-to-one", "statement": "The JCBB association never assigns one landmark to two measurements.", "quantifier": "for all measurement/landmark sets", "why_tests_cant": "search tree over all hypotheses", "anchors": ["include/JCBB.hpp: branch, getAssociation"]}
{"id": "C40", "title": "Cached covariance quantities are never stale", "statement": "evalGaussianLikelihood, mahalanobisDist2, getCovInv, getCovDet always use the vector's current covariance, whatever sequence of set/setCov/assign/evaluate calls came before.", "quantifier": "for all operation histories", "why_tests_cant": "caching bugs show only on particular histories", "anchors": ["include/RandomVec.hpp: operator=, setCov, getCovInv, getCovDet, evalGaussianLikelihood, mahalanobisDist2"]}
{"id": "C41", "title": "ORB descriptor distance is a metric", "statement": "ORB distance is 0 exactly on equal descriptors, symmetric, satisfies the triangle inequality, and is at most 256.", "quantifier": "for all 256-bit descriptors", "why_tests_cant": "2^512 pairs", "anchors": ["include/ORB.hpp: ORB distance"]}
{"id": "C42", "title": "RFS measurement likelihood sums all association hypotheses", "statement": "The likelihood computed by the RB-PHD filter for a set of evaluation points and measurements equals the sum over all one-to-one partial associations of products of detection, missed detection and clutter terms, divided by the clutter integral.", "quantifier": "for all likelihood tables", "why_tests_cant": "exponentially many hypotheses, all partitions", "anchors": ["include/RBPHDFilter.hpp: rfsMeasurementLikelihood", "src/CostMatrix.cpp: partition", "src/PermutationLexicographic.cpp"]}
{"id": "C43", "title": "PHD update weights", "statement": "In the PHD map update the new components created for one measurement carry total weight at most 1 (exactly S/(c+S)), all weights stay non-negative, and a component outside the field of view keeps its weight.", "quantifier": "for all maps, measurement sets and non-negative models", "why_tests_cant": "infinite domain", "anchors": ["include/RBPHDFilter.hpp: updateMap"]}
{"id": "C44", "title": "An empty scan is processed as missed detections", "statement": "update(Z) with an empty measurement set still reduces the weight of in-view landmarks (missed detection).", "quantifier": "for all maps", "why_tests_cant": "boundary input", "anchors": ["include/RBPHDFilter.hpp: update"]}
{"id": "C45", "title": "Unused measurement indices stay valid", "statement": "addBirthGaussians only reads measurements of the current scan, for every order of predict/update calls.", "quantifier": "for all call histories", "why_tests_cant": "history dependent index validity", "anchors": ["include/RBPHDFilter.hpp: update, addBirthGaussians, updateMap", "include/RBLMBFilter.hpp: update, addBirthTracks"]}
{"id": "C46", "title": "Birth candidates are promoted or dropped exactly when due", "statement": "The birth-candidate sweep promotes a candidate once it has enough support, discards it once it was checked too often, keeps all others, and touches no other memory.", "quantifier": "for all candidate lists and thresholds", "why_tests_cant": "iterator handling over all list shapes", "anchors": ["include/RBPHDFilter.hpp: addBirthGaussians", "include/FastSLAM.hpp: updateMap"]}
{"id": "C47", "title": "Birth bookkeeping follows resampled particles", "statement": "After resampling, each particle starts from the unused measurements and birth candidates of the particle it was copied from.", "quantifier": "for all resampling patterns", "why_tests_cant": "copy order over all patterns", "anchors": ["include/RBPHDFilter.hpp: addBirthGaussians"]}
{"id": "C48", "title": "LMB existence probabilities are probabilities", "statement": "After an LMB update every track's existence probability is in [0,1] and equals the total likelihood of the hypotheses in which the track exists divided by the total likelihood.", "quantifier": "for all tables with Pd, Pe in [0,1], Pd*Pe < 1", "why_tests_cant": "infinite domain, exponentially many hypotheses", "anchors": ["include/RBLMBFilter.hpp: updateMap"]}
{"id": "C49", "title": "LMB birth probability is the complement of the association probability", "statement": "A measurement's birth existence probability is min(max, 1 - P(associated)), with P(associated) its posterior association probability.", "quantifier": "for all tables", "why_tests_cant": "needs posterior over all hypotheses", "anchors": ["include/RBLMBFilter.hpp: updateMap step 5"]}
{"id": "C50", "title": "CB-MeMBer existence probabilities are probabilities", "statement": "Legacy and measurement-updated track existence probabilities computed in updateMap lie in [0,1].", "quantifier": "for all inputs with p, Pd in [0,1), p*Pd<1, non-negative likelihoods, positive clutter", "why_tests_cant": "infinite domain", "anchors": ["include/RBCBMeMBerFilter.hpp: updateMap"]}
{"id": "C51", "title": "CB-MeMBer keeps every updated track", "statement": "Removing the empty updated tracks keeps all updated tracks with non-zero existence probability.", "quantifier": "for all patterns of empty tracks", "why_tests_cant": "2^nZ patterns", "anchors": ["include/RBCBMeMBerFilter.hpp: updateMap step 5"]}
{"id": "C52", "title": "FastSLAM processes unambiguous scans", "statement": "When data association is completely determined by the reduction, FastSLAM still updates the associated landmarks and processes the unassociated measurements.", "quantifier": "for all scans", "why_tests_cant": "depends on reduction outcome", "anchors": ["include/FastSLAM.hpp: updateMap"]}
{"id": "C53", "title": "FastSLAM existence evidence", "statement": "The landmark existence probability used for the log-odds update is in [0,1]; it is at least the prior after an update and at most the prior after a miss.", "quantifier": "for all pd, prior in (0,1), false alarm rate in [0,1]", "why_tests_cant": "continuum", "anchors": ["include/FastSLAM.hpp: updateMap"]}
{"id": "C54", "title": "PSO best particle is the best of the batch for every schedule", "statement": "evaluateLikelihoods selects a particle of maximal current likelihood regardless of the interleaving of the parallel loop.", "quantifier": "for all interleavings", "why_tests_cant": "schedules", "anchors": ["include/RFSPSOSLAM.hpp: evaluateLikelihoods"]}
{"id": "C55", "title": "PSO landmark removal", "statement": "updateLandmarkVelocity removes exactly the flagged landmarks together with their velocities.", "quantifier": "for all flag patterns", "why_tests_cant": "2^n patterns", "anchors": ["include/RFSPSOSLAM.hpp: updateLandmarkVelocity"]}
{"id": "C56", "title": "Measurement models invert", "statement": "inverseMeasure(pose, measure(pose, lmk)) returns the landmark position, for the XY, 1-D, range-bearing and 6-D models.", "quantifier": "for all poses and landmarks (range > 0 for range-bearing; unit quaternion for 6-D)", "why_tests_cant": "continuum", "anchors": ["src/MeasurementModel_XY.cpp, src/MeasurementModel_RngBrg.cpp, src/MeasurementModel_Rng1D.cpp, src/MeasurementModel_6D.cpp: measure, inverseMeasure"]}
{"id": "C57", "title": "Bearings are wrapped", "statement": "The predicted bearing and the bearing innovation lie in [-pi, pi] and differ from the raw difference by a multiple of 2*pi; the wrap loops terminate.", "quantifier": "for all poses and landmarks", "why_tests_cant": "continuum; termination", "anchors": ["src/MeasurementModel_RngBrg.cpp: measure", "src/KalmanFilter.cpp: calculateInnovation"]}
{"id": "C58", "title": "Detection probability agrees with measurability", "statement": "probabilityOfDetection is non-zero only when measure() reports a valid measurement, and the near-limit flag is set exactly within the buffer of a range limit.", "quantifier": "for all poses (unit quaternion for 6-D), landmarks and configurations with rangeLimMin <= rangeLimMax", "why_tests_cant": "continuum and boundary equality", "anchors": ["src/MeasurementModel_RngBrg.cpp, src/MeasurementModel_XY.cpp, src/MeasurementModel_Rng1D.cpp, src/MeasurementModel_6D.cpp: probabilityOfDetection"]}
{"id": "C59", "title": "Kalman correction yields a valid covariance", "statement": "The corrected covariance is symmetric, positive semidefinite and no larger than the prior; correction leaves the landmark untouched when the measurement is rejected.", "quantifier": "for all landmarks, Jacobians and noise covariances with invertible innovation covariance", "why_tests_cant": "continuum", "anchors": ["include/KalmanFilter.hpp: correct"]}
{"id": "C60", "title": "Likelihood uses the wrapped innovation", "statement": "The measurement likelihood reported by the range-bearing correction depends on bearings only modulo 2*pi.", "quantifier": "for all bearings", "why_tests_cant": "continuum", "anchors": ["include/KalmanFilter.hpp: correct", "src/KalmanFilter.cpp: calculateInnovation"]}
{"id": "C61", "title": "Odometry motion composes rigid motions", "statement": "MotionModel_Odometry2d::step advances position by the rotated odometry and heading by the odometry angle (mod 2*pi, into (-pi, pi]), adds dT to the time stamp.", "quantifier": "for all poses and inputs", "why_tests_cant": "continuum", "anchors": ["src/ProcessModel_Odometry2D.cpp: step"]}
{"id": "C62", "title": "Ackerman heading stays in [-pi, pi]", "statement": "The heading after an Ackerman step is within [-pi, pi].", "quantifier": "for all inputs and time steps with prior heading in range", "why_tests_cant": "continuum", "anchors": ["src/ProcessModel_Ackerman2D.cpp: step"]}
{"id": "C63", "title": "Motion models advance the time stamp", "statement": "Every motion model's step sets the new state's time to the previous time plus dT.", "quantifier": "for all models, states and steps", "why_tests_cant": "history", "anchors": ["src/ProcessModel_Odometry1D.cpp, src/ProcessModel_Odometry2D.cpp, src/ProcessModel_Odometry6D.cpp, src/ProcessModel_Ackerman2D.cpp: step", "include/ProcessModel.hpp: StaticProcessModel::step"]}
{"id": "C64", "title": "Frame composition", "statement": "Composing frames and then mapping a point equals mapping it through both frames; composition is associative on points and the later time stamp is kept.", "quantifier": "for all frames and points", "why_tests_cant": "continuum", "anchors": ["src/Frame.cpp: operator*, getRelToBaseFrame"]}
{"id": "C65", "title": "Time stamps and floating point seconds", "statement": "setTime(double) truncates the given time toward zero to whole nanoseconds (exact arithmetic) and getTimeAsDouble followed by setTime gives back the same stamp.", "quantifier": "for all times whose whole seconds fit in 32 bits", "why_tests_cant": "numeric range", "anchors": ["src/TimeStamp.cpp: TimeStamp::setTime(double), TimeStamp::getTimeAsDouble"]}
{"id": "C66", "title": "Extended partition blocks have the room asked for", "statement": "Every getPartition(..., allocateExtendedMatrix=true) hands out a block with (nRows+nCols) x (nRows+nCols) entries, whatever was asked for earlier.", "quantifier": "for all sequences of getPartition calls", "why_tests_cant": "depends on the history of calls on the same object", "anchors": ["src/CostMatrix.cpp: CostMatrixGeneral::getPartition"]}
{"id": "C67", "title": "Sorting a mixture by weight", "statement": "After sortByWeight() the Gaussians are in non-increasing order of weight, whatever calls were made before (the sort may be skipped only when the order is already right).", "quantifier": "for all histories of calls", "why_tests_cant": "needs every interleaving of calls that set or keep the sorted flag", "anchors": ["include/GaussianMixture.hpp: sortByWeight, multiplyWeights, normalizeWeights, isSorted_"]}
{"id": "C68", "title": "The value returned by prune", "statement": "prune(t) returns the number of Gaussians it removed from the mixture.", "quantifier": "for all reachable mixtures and thresholds", "why_tests_cant": "differs only in states with entries removed earlier", "anchors": ["include/GaussianMixture.hpp: prune"]}
{"id": "C69", "title": "Memory of mixtures", "statement": "In every program over several mixtures each live landmark is owned by exactly one entry of one mixture (no leak, no sharing, no double delete), and undefined behaviour arises only from out-of-range indices, copying onto itself or copy-constructing from a mixture with removed entries.", "quantifier": "for all programs over any number of mixtures", "why_tests_cant": "memory errors over all interleavings", "anchors": ["include/GaussianMixture.hpp: constructors, destructor, copyTo, addGM, removeGaussian, merge, prune"]}
{"id": "C70", "title": "Resampling threshold decides", "statement": "Sampling does not occur when the number of effective particles is above the effective particle count threshold, and does occur otherwise (unforced resample), also with the default threshold set by the constructor.", "quantifier": "for all weight vectors with positive sum, all offsets", "why_tests_cant": "The decision reads a second, never initialised member after the constructor: a test sees whatever the memory happened to contain.", "anchors": ["include/ParticleFilter.hpp:413-423", "include/ParticleFilter.hpp:236-237", "include/ParticleFilter.hpp:393-399"]}
{"id": "C71", "title": "JCBB returns the most and closest pairings", "statement": "When the JCBB search ends, the hypothesis it reports has the largest number of jointly compatible pairings, and among those with that number the smallest joint Mahalanobis distance.", "quantifier": "all numbers of measurements and landmarks, all distances and gates, every order in which the queue delivers nodes", "why_tests_cant": "The reported hypothesis depends on pointer addresses and on ties between hypotheses; no test computes the best hypothesis independently.", "anchors": ["include/JCBB.hpp:345-522", "include/JCBB.hpp:284-310"]}
{"id": "C72", "title": "ORB likelihood ranks descriptors by distance", "statement": "Of two descriptors the one nearer to a given descriptor has the larger likelihood, equal distances give equal likelihoods, the likelihood is symmetric and positive, and it exceeds the false alarm likelihood exactly below one fixed distance.", "quantifier": "for all 256-bit descriptors", "why_tests_cant": "there are 2^512 pairs of descriptors", "anchors": ["include/ORB.hpp:70-82"]}
{"id": "C73", "title": "Copies of amplitude measurements evaluate like the original", "statement": "A copied or assigned amplitude measurement gives the same likelihoods as the measurement it was made from, and reads only initialised members.", "quantifier": "for all programs of constructions, copies, assignments and amplitude changes", "why_tests_cant": "The members a copy leaves uninitialised hold whatever was in memory, often the right values in a small test.", "anchors": ["include/Measurement_amplitude.hpp:14-56", "include/Measurement_amplitude.hpp:79-83"]}
{"id": "C74", "title": "Landmark bounding box contains the covariance ellipsoid", "statement": "Every point within the given number of standard deviations of a landmark lies inside the box reported by getBoundingBox, in the position components.", "quantifier": "for all dimensions, covariances, multipliers and component types", "why_tests_cant": "The claim ranges over all covariances and all points of the ellipsoid; it fails only for negatively correlated covariances.", "anchors": ["include/Landmark.hpp:148-189"]}
{"id": "C75", "title": "Recorded previous weights reproduce the prior intensity", "statement": "After the PHD map update, the previous weights recorded in the components (used by importance weighting for the intensity before the update) give, at every point, exactly the intensity of the map before the update.", "quantifier": "for all maps, scans, models and points", "why_tests_cant": "the particle weights depend on it multiplicatively and a wrong value is invisible in any single output", "anchors": ["include/RBPHDFilter.hpp: updateMap, importanceWeighting", "include/GaussianMixture.hpp: setWeight, addGaussian"]}
{"id": "C76", "title": "Measurements kept for births are the unexplained ones", "statement": "After the PHD map update the measurements kept for births are, each once, exactly those that no landmark of the particle's map explains (zero detection probability, zero likelihood or outside the gate).", "quantifier": "for all maps, scans and non-negative models", "why_tests_cant": "the pattern of explained measurements is exponential in the scan size", "anchors": ["include/RBPHDFilter.hpp: updateMap"]}
{"id": "C77", "title": "Jacobians returned by measure are the derivatives", "statement": "The landmark and pose Jacobians returned by measure() are the derivatives of the predicted measurement: along every direction of pose and landmark the measurement changes at the rate the Jacobians predict (the bearing as a direction), and the matrix used by inverseMeasure is the inverse of the landmark Jacobian.", "quantifier": "for all poses, landmarks (range > 0 for range-bearing) and directions, for the range-bearing, XY, 1-D and 6-D models", "why_tests_cant": "Finite differences at sample points cannot establish a derivative everywhere, and a sign error in a rotation block hides when the pose covariance is diagonal.", "anchors": ["src/MeasurementModel_RngBrg.cpp, src/MeasurementModel_XY.cpp, src/MeasurementModel_Rng1D.cpp, src/MeasurementModel_6D.cpp: measure, inverseMeasure"]}
{"id": "C78", "title": "Clutter intensity integral matches the clutter intensity", "statement": "clutterIntensityIntegral() equals the uniform clutter intensity integrated over the set of measurements that measure() can produce and report as valid.", "quantifier": "for all configurations with 0 <= rangeLimMin <= rangeLimMax, for the range-bearing, XY, 1-D and 6-D models", "why_tests_cant": "The measurement space is a continuum; its volume is not something a test computes.", "anchors": ["src/MeasurementModel_RngBrg.cpp, src/MeasurementModel_XY.cpp, src/MeasurementModel_Rng1D.cpp, src/MeasurementModel_6D.cpp: clutterIntensityIntegral"]}
{"id": "C79", "title": "Vector correction equals single corrections", "statement": "Correcting a landmark with a list of measurements gives, for each measurement, exactly the corrected landmark, likelihood and distance of the single-measurement correction; when the landmark has no valid expected measurement the call returns false and every likelihood is zero.", "quantifier": "for all measurement lists, landmarks and sizes of the output vectors", "why_tests_cant": "a test sees a handful of scans and vectors that happen to be big enough", "anchors": ["include/KalmanFilter.hpp: correct (vector overload)"]}
{"id": "C80", "title": "Kalman correction is the Bayes posterior", "statement": "For a linear measurement model the corrected Gaussian times the returned likelihood equals prior times measurement density at every landmark position, so the correction is the exact posterior and the likelihood its normalising constant.", "quantifier": "for all landmarks, measurements, Jacobians, invertible prior and innovation covariances, and all evaluation points", "why_tests_cant": "an identity between functions over all real points cannot be sampled", "anchors": ["include/KalmanFilter.hpp: correct", "include/RandomVec.hpp: evalGaussianLikelihood"]}
{"id": "C81", "title": "Gaussian log-likelihood", "statement": "evalGaussianLogLikelihood is the logarithm of evalGaussianLikelihood, the reported squared Mahalanobis distance is non-negative, and no point is more likely than the mean.", "quantifier": "for all means, evaluation points and positive definite covariances", "why_tests_cant": "holds over a continuum of points and matrices", "anchors": ["include/RandomVec.hpp: evalGaussianLikelihood, evalGaussianLogLikelihood, mahalanobisDist2"]}
{"id": "C82", "title": "6-D odometry composes rigid motions", "statement": "MotionModel_Odometry6d::step composes the previous pose with the odometry as rigid motions: the rotation is the product of the two rotations, the quaternion stays of unit length, the displacement is rotated into the world frame, and scaling the odometry quaternion by a positive factor changes nothing.", "quantifier": "for all poses with unit quaternion and all odometry with non-zero quaternion", "why_tests_cant": "quaternion product order and sign errors agree with the right formula on axis-aligned tests", "anchors": ["src/ProcessModel_Odometry6D.cpp: step"]}
{"id": "C83", "title": "Motion Jacobian", "statement": "The matrix H filled by step is the derivative of the new state with respect to the previous state.", "quantifier": "for all previous states, inputs and directions", "why_tests_cant": "derivatives at every point in every direction", "anchors": ["src/ProcessModel_Odometry1D.cpp: step", "src/ProcessModel_Odometry2D.cpp: step"]}
{"id": "C84", "title": "Motion likelihood gradient", "statement": "pose_grad is the gradient, with respect to the new pose, of the value that likelihood / logLikelihood returns.", "quantifier": "for all poses, predictions and positive definite noise covariances", "why_tests_cant": "derivatives at every point", "anchors": ["include/ProcessModel.hpp: likelihood, logLikelihood"]}
{"id": "C85", "title": "Motion likelihood and angles", "statement": "The motion likelihood of a planar pose depends on the heading only modulo 2*pi.", "quantifier": "for all poses, predictions and positive definite noise covariances", "why_tests_cant": "fails only across the seam of the angle", "anchors": ["include/ProcessModel.hpp: likelihood, logLikelihood"]}
{"id": "C86", "title": "Sampling a motion model", "statement": "sample is defined for every motion model; it adds noise exactly when asked for and a non-zero noise covariance was defined, and otherwise returns the state after the step.", "quantifier": "for all models, with and without setNoise, all states", "why_tests_cant": "the uninitialised matrix happens to be zero in most test runs", "anchors": ["include/ProcessModel.hpp: sample"]}
{"id": "C87", "title": "Mapping covariances between frames", "statement": "Mapping a point with an optional covariance to the base frame is defined whichever pointers are null, and gives the rotated covariance: positive semidefinite, same determinant and trace, same variance along the rotated direction; the time stamp is kept.", "quantifier": "for all frames, points, covariances and null pointers", "why_tests_cant": "all pointer combinations with all matrices", "anchors": ["src/Frame.cpp: getRelToBaseFrame"]}
{"id": "C88", "title": "CB-MeMBer particle weights are comparable", "statement": "Particles that have no track in view get the same importance factor from a scan, whether or not they have tracks elsewhere.", "quantifier": "for all scans, models and track lists out of view", "why_tests_cant": "a test with one particle cannot see it", "anchors": ["include/RBCBMeMBerFilter.hpp: updateMap, rfsMeasurementLikelihood"]}
{"id": "C89", "title": "CB-MeMBer births", "statement": "The birth step appends, for each unused measurement, one track with the configured existence probability and a single Gaussian of weight one at the inverse measurement, and leaves the other tracks as they are.", "quantifier": "for all lists of unused measurements and tracks", "why_tests_cant": "all lists", "anchors": ["include/RBCBMeMBerFilter.hpp: addBirthTracks"]}
{"id": "C90", "title": "LMB track densities are posterior densities", "statement": "After an LMB update the Gaussian mixture of a track in view is its old mixture, weighted with the probability that it exists unseen, plus its mixtures corrected with the measurements, normalised and weighted with the probability that it caused the measurement, both relative to its probability of existing; a track with no measurement in reach keeps its mixture.", "quantifier": "for all tables, mixtures and partitions", "why_tests_cant": "the weights of the parts come from sums over all association hypotheses; a test that looks at positions only passes with wrong weights", "anchors": ["include/RBLMBFilter.hpp: updateMap (generate updated tracks)", "include/GaussianMixture.hpp: addGM, multiplyWeights, normalizeWeights"]}
{"id": "C91", "title": "LMB births pair measurement and probability", "statement": "The birth step appends exactly one track per recorded measurement, with the existence probability recorded for that measurement and a single Gaussian of weight one at its inverse measurement, and leaves the existing tracks as they are.", "quantifier": "for all recorded lists and all track lists", "why_tests_cant": "two lists are consumed from the back in step; a mismatch shows only when the probabilities differ", "anchors": ["include/RBLMBFilter.hpp: addBirthTracks"]}
{"id": "C92", "title": "LMB births do not depend on tracks out of view", "statement": "Which births are recorded, and with which probabilities, is the same for a particle without tracks as for one whose tracks are all out of view.", "quantifier": "for all maps with no track in view, all measurements and configurations", "why_tests_cant": "needs two maps that differ only where the sensor cannot see", "anchors": ["include/RBLMBFilter.hpp: updateMap"]}
{"id": "C93", "title": "LMB weight update is the multi-object likelihood", "statement": "The factor by which the LMB update multiplies a particle's weight is the sum, over all hypotheses about which tracks in view exist, are detected and cause which measurement, of the hypothesis weights relative to clutter; it is 1 for a particle with no track in view, whether or not it has tracks elsewhere.", "quantifier": "for all tables and maps", "why_tests_cant": "the number of hypotheses grows factorially; samples compare a handful", "anchors": ["include/RBLMBFilter.hpp: updateMap"]}
{"id": "C94", "title": "FastSLAM landmark weights are log-odds", "statement": "The weight of a landmark in range is the log-odds of its existence: a scan adds the logarithm of the ratio of the probabilities of what was observed with and without the landmark, for a hit and for a miss; above the lock weight a miss changes nothing.", "quantifier": "for all priors, detection probabilities, clutter rates and weights", "why_tests_cant": "real-valued recursion; a test compares a few numbers at the default prior", "anchors": ["include/FastSLAM.hpp: updateMap 598-631"]}
{"id": "C95", "title": "FastSLAM hypothesis weights", "statement": "updateMap makes one particle per data association hypothesis; the weight of the particle is split evenly among them and each share is multiplied by the likelihood of the matched pairs of its hypothesis; landmarks out of range are untouched.", "quantifier": "for all maps, scans and models", "why_tests_cant": "depends on every table of likelihoods", "anchors": ["include/FastSLAM.hpp: updateMap 551-728"]}
{"id": "C96", "title": "FastSLAM candidate check", "statement": "Checking the candidates counts one more check for each, turns those with enough support into landmarks, drops those checked too often, and keeps the others in order.", "quantifier": "for all candidate lists and thresholds", "why_tests_cant": "iterator arithmetic at the end of the list; sanitizers see only lists that occur", "anchors": ["include/FastSLAM.hpp: updateMap 689-710"]}
{"id": "C97", "title": "FastSLAM copied particles inherit candidates", "statement": "A particle created for a further hypothesis starts with the landmark candidates of the particle it copies.", "quantifier": "for all scans, whether or not a resampling took place before", "why_tests_cant": "state left at an index by an earlier particle", "anchors": ["include/FastSLAM.hpp: updateMap 551-575"]}
{"id": "C98", "title": "FastSLAM candidates follow resampling", "statement": "After resampling every particle has the candidate list of the particle it is a copy of.", "quantifier": "for all sequences of resamplings", "why_tests_cant": "needs two resamplings with particular parents", "anchors": ["include/FastSLAM.hpp: resampleWithMapCopy 738-767", "include/ParticleFilter.hpp: resample"]}
{"id": "C99", "title": "FastSLAM association hypotheses", "statement": "The hypotheses of a scan are one-to-one associations, at most the configured number; the first maximises the total log-likelihood over all associations, the others are within the configured difference.", "quantifier": "for all tables of likelihoods", "why_tests_cant": "optimality over factorially many associations", "anchors": ["include/FastSLAM.hpp: updateMap 473-548"]}
{"id": "C100", "title": "Unexplained measurements are kept as evidence", "statement": "Each measurement that no landmark explains is processed once: the first birth candidate near it is corrected with it and gains one supporting measurement, nothing else changing; if none is near it becomes a landmark (one supporting measurement suffices, or few landmarks are in view) or a new candidate. The number of landmarks in view is that of the landmarks with non-zero probability of detection or near the sensing limit.", "quantifier": "for all candidate lists, maps, thresholds and scans", "why_tests_cant": "depends on the position of the candidate in the list and on all thresholds", "anchors": ["include/RBPHDFilter.hpp: addBirthGaussians 1003-1087, updateMap", "include/FastSLAM.hpp: updateMap 649-686"]}
{"id": "C101", "title": "PSO personal and global bests", "statement": "After any number of rounds of moves and evaluations, a particle's best likelihood is the greatest of the likelihoods it was evaluated with, its best trajectory, map and velocities are those of that round, and the best particle of the swarm is at least as good as every particle of every round, was itself evaluated, and never gets worse.", "quantifier": "for all runs, likelihoods, moves and schedules", "why_tests_cant": "the history of a swarm is unbounded and the order of the threads differs between runs", "anchors": ["include/RFSPSOSLAM.hpp: evaluateLikelihoods", "include/RFSPSOSLAM.hpp: getBestParticle"]}
{"id": "C102", "title": "PSO landmarks and velocities stay paired", "statement": "From initialisation on, every landmark of a particle, and every landmark of its best map, has a velocity, and neither evaluation nor moving reads or writes outside the containers.", "quantifier": "for all particles, maps, random numbers, assignments between maps and topologies", "why_tests_cant": "landmarks are added and removed at random, so the container sizes vary from run to run", "anchors": ["include/RFSPSOSLAM.hpp: updateLandmarkVelocity", "include/RFSPSOSLAM.hpp: moveParticles", "include/RFSPSOSLAM.hpp: initMaps"]}
{"id": "C103", "title": "PSO adds a landmark once", "statement": "A landmark of a best map that a particle lacks is added to its map at most once per move.", "quantifier": "for all particles, neighbours and random numbers", "why_tests_cant": "a duplicate appears only when both random numbers are small and the particle is its own best neighbour", "anchors": ["include/RFSPSOSLAM.hpp: updateLandmarkVelocity"]}
{"id": "C104", "title": "PSO particles follow the best neighbour", "statement": "A particle is attracted by the best solution known in its neighbourhood: no neighbour has a personal best above that of the particle selected.", "quantifier": "for all swarms and topologies", "why_tests_cant": "the wrong choice shows only as slower convergence", "anchors": ["include/RFSPSOSLAM.hpp: moveParticles"]}
{"id": "C105", "title": "PSO topology", "statement": "updateTopology makes each particle its own first informant and an informant of the particles drawn for it, and of no other; with use_global every particle informs every particle.", "quantifier": "for all numbers of particles, draws and earlier topologies", "why_tests_cant": "the draws are random and duplicates are skipped by an ad hoc test", "anchors": ["include/RFSPSOSLAM.hpp: updateTopology"]}
{"id": "C106", "title": "Covariance of a predicted measurement", "statement": "The covariance that measure returns is that of the first-order error: landmark covariance and pose covariance propagated through the two Jacobians, plus the measurement noise; it is positive semidefinite if these are, and not smaller than the noise.", "quantifier": "for all poses, landmarks, covariances and noises", "why_tests_cant": "a wrong term only makes the filter over- or under-confident", "anchors": ["src/MeasurementModel_RngBrg.cpp: measure", "src/MeasurementModel_XY.cpp: measure", "src/MeasurementModel_Rng1D.cpp: measure", "src/MeasurementModel_6D.cpp: measure", "src/MeasurementModel_VictoriaPark.cpp: measure"]}
{"id": "C107", "title": "The batch optimisers file each measurement under the pose of its time", "statement": "After setInputs, each measurement added to RFSCeresSLAM or RFSPSOSLAM whose time stamp is that of a pose is stored under this pose (the first of that time), in the order of arrival, and nothing else is stored there; a measurement whose time belongs to no pose is refused.", "quantifier": "all sequences of input times and all sequences of measurements", "why_tests_cant": "Tests use one log with sorted times; the binary search, the sort and the offset between poses and inputs interact for arbitrary logs", "anchors": ["include/RFSCeresSLAM.hpp", "include/RFSPSOSLAM.hpp"]}
{"id": "C108", "title": "The parameter vector of the batch optimiser stands for exactly one trajectory and map", "statement": "init_problem writes every element of the parameter vector, its length is what NumParameters reports, and Evaluate reads back from it the same poses (but the first, fixed at the origin) and landmarks; conversely every vector of this length is that of some trajectory and map.", "quantifier": "all numbers of poses and landmarks, all dimensions and all values", "why_tests_cant": "An error in the offsets depends on the sizes and shows as a slow or wrong convergence, not as a crash", "anchors": ["include/RFSCeresSLAM.hpp"]}
{"id": "C109", "title": "The initial map of the batch optimiser has one landmark per named association", "statement": "The initial map has a landmark for each number up to the greatest data association, made from the first measurement with this association, followed by one for each unassociated measurement that is drawn; nothing outside the containers is accessed.", "quantifier": "all sequences of measurements with any associations and all random draws", "why_tests_cant": "Depends on the order in which associations appear, on gaps in the numbering and on random numbers", "anchors": ["include/RFSCeresSLAM.hpp"]}
{"id": "C110", "title": "The gradient that Evaluate returns is the derivative of its cost", "statement": "The cost is minus the sum of the log likelihoods of all motions and scans, and the gradient given to the optimiser is its derivative along any change of the poses but the first and of the landmarks.", "quantifier": "all trajectories, maps, inputs and directions of change", "why_tests_cant": "A finite-difference test looks at one point and one motion model; a wrong gradient only slows the line search", "anchors": ["include/RFSCeresSLAM.hpp", "include/ProcessModel.hpp"]}
{"id": "C111", "title": "Static landmarks keep their mean and gain the process noise", "statement": "StaticProcessModel::step leaves the mean of a landmark as it is; with process noise defined the covariance grows by it, otherwise the state is copied unchanged; a positive semidefinite covariance stays so.", "quantifier": "all landmarks, noise covariances and time steps", "why_tests_cant": "Numerical tests check one covariance", "anchors": ["include/ProcessModel.hpp"]}
{"id": "C112", "title": "An Ackerman step follows the kinematics of a vehicle that rolls without slipping", "statement": "The point of interest moves by the time step times its velocity on a rigid vehicle whose rear axle moves along the heading, whose front axle moves along the steering angle and whose encoder wheel turns at the given speed; the heading advances by the time step times the yaw rate.", "quantifier": "all vehicle dimensions, poses, speeds and steering angles where the encoder does not stand still", "why_tests_cant": "Agreement with kinematics for all geometries is not sampled by a test of one vehicle", "anchors": ["src/ProcessModel_Ackerman2D.cpp"]}
{"id": "C113", "title": "Murty on the filters' matrices returns each association once, best first", "statement": "For the extended matrix the filters build (likelihoods of landmark/measurement pairs, a missed-detection column per landmark, a clutter row per measurement), successive calls of findNextBest return every one-to-one partial association of value above a floor exactly once, in order of decreasing value (up to the solver tolerance), with rank k for the k-th call and the value of the association as score; afterwards only results at or below the floor, or -1.", "quantifier": "for all numbers of landmarks and measurements, all finite tables within the range allowed by bigNumber_, all priority queue implementations", "why_tests_cant": "an enumeration over exponentially many associations, in any order of ties", "anchors": ["src/MurtyAlgorithm.cpp: Murty::findNextBest, setRealAssignmentBlock", "include/RBPHDFilter.hpp: rfsMeasurementLikelihood (lines 921-961)"]}
{"id": "C114", "title": "The likelihood of a large partition is the sum of its 200 best associations", "statement": "The value computed for a partition through Murty's algorithm never exceeds the sum over all associations (beyond 200 times the floor weight) and is not exceeded by the sum of any 200 associations (up to the solver tolerance and the floor); with at most 200 associations it is the full sum.", "quantifier": "for all partitions, tables and priority queue implementations", "why_tests_cant": "needs all associations of a partition to be compared", "anchors": ["include/RBPHDFilter.hpp: rfsMeasurementLikelihood (lines 921-961)", "src/MurtyAlgorithm.cpp: Murty::findNextBest"]}
{"id": "C115", "title": "The likelihood of a scan in the particle swarm optimiser sums over all associations", "statement": "RFSPSOSLAM::rfsMeasurementLikelihood returns the sum over all one-to-one partial associations of landmarks in view with measurements of the product of detection likelihoods, missed-detection probabilities and clutter intensities, divided by the integral of the clutter intensity.", "quantifier": "all numbers of landmarks and measurements, all tables, all connected-component numberings and priority queue implementations", "why_tests_cant": "The number of associations grows factorially and each test fixes one table; the terms dropped depend on the size of the partitions, on Murty's ranking and on which landmarks are out of reach.", "anchors": ["include/RFSPSOSLAM.hpp: rfsMeasurementLikelihood (lines 736-941)"]}
{"id": "C116", "title": "The log likelihood of a scan in the batch optimiser is that of the sum over all associations", "statement": "Without known associations, RFSCeresSLAM::rfsMeasurementLogLikelihood returns the logarithm of the sum over all one-to-one partial associations of landmarks in view with measurements, minus the integral of the clutter intensity, and never throws.", "quantifier": "all numbers of landmarks and measurements, all tables, all connected-component numberings and priority queue implementations", "why_tests_cant": "Factorially many associations; the value is assembled from ratios, partitions and Murty's results, and a constant offset is invisible in a test on one configuration.", "anchors": ["include/RFSCeresSLAM.hpp: rfsMeasurementLogLikelihood (lines 868-1185)"]}
{"id": "C117", "title": "The gradients of the batch optimiser are derivatives of its log likelihood", "statement": "The gradients that RFSCeresSLAM::rfsMeasurementLogLikelihood returns for the landmarks and for the pose are the derivatives of the value it returns, given the gradients of the entries of the likelihood table.", "quantifier": "all numbers of landmarks and measurements, all tables with derivatives, all priority queue implementations", "why_tests_cant": "A finite-difference test sees one point; where one association dominates, a wrong weighting of the others is invisible.", "anchors": ["include/RFSCeresSLAM.hpp: rfsMeasurementLogLikelihood (lines 1080-1175)"]}
{"id": "C118", "title": "Known associations are honoured by the batch optimiser", "statement": "A measurement whose association is known is only ever associated with the landmark of that number, one known to be a false alarm with none, and unknown ones are unaffected; the evaluation of value and gradient completes.", "quantifier": "all numbers of landmarks, detection probabilities, known associations and likelihoods", "why_tests_cant": "Depends on which landmarks are out of view and on which assignments Murty's algorithm visits; a test with all landmarks in view and separated measurements passes.", "anchors": ["include/RFSCeresSLAM.hpp: rfsMeasurementLogLikelihood (lines 886-990, 1105-1149)"]}
{"id": "C119", "title": "CB-MeMBer weighs particles with the multi-Bernoulli likelihood", "statement": "The factor by which the CB-MeMBer update multiplies a particle's weight is the likelihood of the scan given its tracks: the sum over all one-to-one partial associations of tracks in view with measurements, a track being detected with its existence probability times its detection probability.", "quantifier": "all sets of tracks with their mixtures and existence probabilities, all scans, models and connected-component numberings", "why_tests_cant": "The sum is over all associations of all maps; tests with tracks of existence probability near one cannot tell whether the existence probability enters.", "anchors": ["include/RBCBMeMBerFilter.hpp: updateMap (lines 588-656), rfsMeasurementLikelihood"]}
{"id": "C120", "title": "Every step gets the measurements of its time", "statement": "In the 2-d simulators and data-set programs, the update of step k is given exactly the measurements that carry the time stamp of odometry k, in their order.", "quantifier": "all odometry sequences with increasing times, all measurement lists in time order", "why_tests_cant": "Which measurements reach the filter depends on the whole data set; simulated data sets that happen to end with a measurement and to have none at time zero do not show what happens otherwise.", "anchors": ["include/RBPHDSLAM_2D.hpp: run (lines 696-815)", "include/RBLMBSLAM_2D.hpp: run", "src/rbphdslam_VictoriaPark.cpp: run"]}
{"id": "C121", "title": "The number of simulated false alarms is Poisson", "statement": "The simulators add k false alarms to a scan with the Poisson probability of k for the configured mean, for every k, and always find a number.", "quantifier": "all means, all k, all uniform random numbers", "why_tests_cant": "A claim about a distribution, including its tail: runs show finitely many samples, and the tail beyond the table of 100 entries is practically never sampled.", "anchors": ["include/RBPHDSLAM_2D.hpp: generateMeasurements (lines 470-562)"]}
{"id": "C122", "title": "Simulated measurements are within the range limits", "statement": "Every measurement that the simulators generate, detection or false alarm, has a range between the configured limits and the time of a step, and a scan consists of its detections followed by the false alarms.", "quantifier": "all configurations, trajectories, landmarks, random number streams and both measurement models", "why_tests_cant": "Quantifies over all random streams and both template instances; a test sees single streams of one instance.", "anchors": ["include/RBPHDSLAM_2D.hpp: generateMeasurements (lines 470-562)"]}
{"id": "C123", "title": "The simulator creates the configured number of landmarks", "statement": "generateLandmarks creates as many landmarks as configured, one per step at most.", "quantifier": "all numbers of steps and landmarks", "why_tests_cant": "The number created depends on how one number divides the other; the shipped configuration divides evenly.", "anchors": ["include/RBPHDSLAM_2D.hpp: generateLandmarks (lines 429-466)"]}
{"id": "C124", "title": "Landmarks are created within reach of the sensor", "statement": "A landmark that the simulator creates at a pose is within the maximum range of that pose.", "quantifier": "all poses, ranges, random numbers and both measurement models", "why_tests_cant": "Holds or fails depending on the measurement model and on the random number; a single simulated map does not show it.", "anchors": ["include/RBPHDSLAM_2D.hpp: generateLandmarks (lines 441-465)"]}
{"id": "C125", "title": "The recorded first observation is the first measurement of a landmark", "statement": "lmkFirstObsTime, which the error analysis uses to decide which landmarks count, is the time of the first generated measurement of the landmark and -1 if there is none.", "quantifier": "all configurations, random streams and runs", "why_tests_cant": "Depends on the outcome of every detection draw over the whole run.", "anchors": ["include/RBPHDSLAM_2D.hpp: generateMeasurements (lines 499-536)"]}
{"id": "C126", "title": "Generated trajectories start at rest and keep to the configured speeds", "statement": "generateTrajectory produces one displacement and one pose per step: each pose is the one before moved by the displacement, the clock advances by the time step, the first 50 steps rest and all later ones have speeds within the configured limits.", "quantifier": "all configurations, all random number streams", "why_tests_cant": "The random draws are rejected in an unbounded loop; whether that ends and what it leaves cannot be seen from one configuration.", "anchors": ["include/RBPHDSLAM_2D.hpp: generateTrajectory (lines 331-386)"]}
{"id": "C127", "title": "Simulated odometry and dead reckoning", "statement": "Each odometry entry is the true displacement plus the noise, with its time; dead reckoning starts at the true pose and moves by the odometry; without noise the odometry is the true displacement and dead reckoning the true trajectory.", "quantifier": "all trajectories, noise sequences and noise covariances", "why_tests_cant": "The identity is over whole trajectories of any length and the noise-free case is never run.", "anchors": ["include/RBPHDSLAM_2D.hpp: generateOdometry (lines 390-425)"]}
{"id": "C128", "title": "A seed determines the random numbers", "statement": "After the random generators are initialised, the numbers that each thread draws are determined by the seed, whatever was run before in the process.", "quantifier": "all seeds, numbers of threads and earlier uses", "why_tests_cant": "Only a second initialisation in one process shows the difference, for every number of threads.", "anchors": ["src/GaussianGenerators.cpp: initializeGaussianGenerators (lines 41-55)", "include/RandomVec.hpp: sample (lines 598-650)"]}
{"id": "C129", "title": "Reading an iSAM data set", "statement": "Reading a file gives the odometry and the measurements in the order of the file, with the inverse of the information matrix as covariance and the pose index as time; dead reckoning composes the odometry; lines that hold neither are skipped and constraints between poses that are not consecutive can be ignored.", "quantifier": "all files (sequences of lines)", "why_tests_cant": "The set of files is unbounded; the rare lines (blank lines, loop closures) are not in the files that come with the code.", "anchors": ["include/RBPHDSLAM_2D.hpp: readISAMFile (lines 163-183)", "include/RBPHDSLAM_2D.hpp: parseISAMLine (lines 224-327)"]}
{"id": "C130", "title": "Exported measurements hold range and bearing", "statement": "The two columns written for a measurement are the range and bearing of the measured point relative to the robot.", "quantifier": "all measurements of both measurement models", "why_tests_cant": "The same template code writes the file for both models; a plausible number in a file does not show that it is the right one.", "anchors": ["include/RBPHDSLAM_2D.hpp: exportSimData (lines 612-625)"]}
{"id": "C131", "title": "False alarms added to Victoria Park data are within the field of view", "statement": "A false alarm that the Victoria Park programs add has a range and a bearing between the configured limits.", "quantifier": "all limits, all random numbers in [0,1)", "why_tests_cant": "Only a small fraction of the random numbers shows a violation and nothing in the output does.", "anchors": ["src/rbphdslam_VictoriaPark.cpp: lines 560-570", "src/fastslam_VictoriaPark.cpp: lines 550-560"]}
{"id": "C132", "title": "Simulated measurements carry the configured noise", "statement": "A simulated measurement deviates from the exact one by a factor of the configured covariance times standard normal numbers.", "quantifier": "all configured variances, exact measurements and normal numbers, every factorisation of the covariance", "why_tests_cant": "A simulation with too little noise runs and looks better than it should; the distribution of the noise is a claim over all draws.", "anchors": ["include/RBPHDSLAM_2D.hpp: generateMeasurements (lines 471-478)", "include/RBLMBSLAM_2D.hpp: generateMeasurements (lines 468-477)", "include/MeasurementModel.hpp: sample (lines 129-158)"]}
{"id": "C133", "title": "The analysis of a simulation run sees every particle of every step, their total weight and the map of the best one", "statement": "For logs in which the records of a step follow each other, have times within the tolerance of the time of the step and differ by more from the next ones, in which each step has a record with positive weight and the files end after the last step, reading the steps one after the other gives for each of them: all its particle records in order, the sum of their weights, the index of the first record of greatest weight, the landmark records of that particle with weight 0.75 or more, and the sum of the weights of all its landmark records.", "quantifier": "all numbers of steps, all records of each step, all times", "why_tests_cant": "The program prints averages only; a record lost at the border of two steps changes a mean slightly.", "anchors": ["src/analysis2dSim.cpp:150-214"]}
{"id": "C134", "title": "The map whose error is reported is the map that the filter regarded as its best", "statement": "For each step the landmarks used by the analysis are those logged by the simulator (the map of the particle with the greatest weight), restricted to weights of 0.75 or more.", "quantifier": "all weights, all maps, all roundings of printf to six digits, all steps", "why_tests_cant": "Needs two particles whose weights agree to six digits, or a look at the first step only: the figures just look like a missed map.", "anchors": ["src/analysis2dSim.cpp:150-214", "include/RBPHDSLAM_2D.hpp:725-745", "include/RBPHDSLAM_2D.hpp:805-850"]}
{"id": "C135", "title": "A landmark counts in the analysis from its first observation on", "statement": "A ground-truth landmark is part of the map compared with the estimate at time t if and only if it has been observed by then; the number of landmarks reported for t is the number of those observed.", "quantifier": "all times, all landmarks, observed or not", "why_tests_cant": "The excess is constant over the whole run and depends on how many random landmarks are never seen.", "anchors": ["src/analysis2dSim.cpp:130-146", "src/analysis2dSim.cpp:216-250", "include/RBPHDSLAM_2D.hpp:405-450"]}
{"id": "C136", "title": "The reported pose errors are the weighted mean error and the error of the best particle", "statement": "The average error in each column is the weighted mean of the errors of the particles; the distance column is at least the distance of the mean position and at most the greatest distance; the other set of columns is the error of a particle of the greatest weight; the angle error is the smallest difference up to whole turns for angles that differ by at most one and a half turns.", "quantifier": "all particle sets with non-zero total weight, all ground truths, all angles within one and a half turns", "why_tests_cant": "A formula for reals; examples cannot show the inequality between the mean of distances and the distance of means.", "anchors": ["src/analysis2dSim.cpp:252-330"]}
{"id": "C137", "title": "The analysis reads back the records that the simulators wrote", "statement": "Reading the landmark log gives the records written by the simulator, for every simulator.", "quantifier": "all record lists, all simulators that write this log", "why_tests_cant": "The reader never fails: with an additional column it reads numbers, but the wrong ones.", "anchors": ["src/analysis2dSim.cpp:185-205", "include/RBPHDSLAM_2D.hpp:829-843", "include/RBLMBSLAM_2D.hpp:838-850", "src/rbcbmemberslam2dSim.cpp:622-633"]}
{"id": "C138", "title": "The reported map error is the COLA error with cutoff 0.2", "statement": "In every step the map error is the least sum of cut-off distances over 0.2 of a one-to-one assignment plus the number of landmarks without partner, and is a number.", "quantifier": "all estimated and true maps", "why_tests_cant": "Optimality over all assignments; the exception only occurs before the first detection.", "anchors": ["src/analysis2dSim.cpp:229-250", "include/COLA.hpp", "include/OSPA.hpp"]}
{"id": "C139", "title": "The Victoria Park detection probability exists", "statement": "MeasurementModel_VictoriaPark::probabilityOfDetection ends for every pose and landmark and, after setLaserScan with the 361 readings of a scan, returns zero or an entry of the configured table; it reads only readings of the scan.", "quantifier": "for all configurations with a non-empty table and a positive minimum range, scans, poses, landmarks and covariances", "why_tests_cant": "which beams are read depends on range, bearing and diameter, a continuum; an out-of-range read often goes unnoticed; endless loops show only for special landmarks", "anchors": ["src/MeasurementModel_VictoriaPark.cpp: probabilityOfDetection, probabilityOfDetection2", "src/rbphdslam_VictoriaPark.cpp: readData (361 readings)"]}
{"id": "C140", "title": "The Victoria Park detection probability counts the unblocked beams on the landmark", "statement": "For a landmark within the limits of the sensor the detection probability is the table entry for the number of beams that meet the circle of the landmark and are not blocked by something in front of it (at most one beam of the extent is left out); outside of the limits it is zero; obstacles can only lower it if the table is non-decreasing.", "quantifier": "for all configurations, scans, ranges, bearings and diameters", "why_tests_cant": "the count depends on real-valued angles and on 361 or 720 readings", "anchors": ["src/MeasurementModel_VictoriaPark.cpp: probabilityOfDetection2"]}
{"id": "C141", "title": "The Victoria Park detection probability looks beside the landmark", "statement": "probabilityOfDetection evaluates the landmark and copies displaced at right angles to the line of sight by the multiples of twice the diameter up to three standard deviations, returns the greatest value, and flags the landmark as close to the sensing limit if both zero and positive values occurred or the landmark itself is.", "quantifier": "for all configurations, scans, poses, landmarks and covariances", "why_tests_cant": "a wrong direction changes the value only near obstacles and limits", "anchors": ["src/MeasurementModel_VictoriaPark.cpp: probabilityOfDetection"]}
{"id": "C142", "title": "Victoria Park clutter intensity covers the scanned area", "statement": "The clutter intensity set by setLaserScan times the area enclosed by the points of the scan is the expected number of false alarms.", "quantifier": "for all scans of 720 or 361 positive readings and all configurations", "why_tests_cant": "an identity over all scans", "anchors": ["src/MeasurementModel_VictoriaPark.cpp: setLaserScan, clutterIntensity, clutterIntensityIntegral"]}
{"id": "C143", "title": "Victoria Park clutter intensity is a density of measurements", "statement": "The clutter intensity, which the filters compare with densities of measurements (range, bearing), integrates over the possible measurements to clutterIntensityIntegral.", "quantifier": "for all configurations and distances of an obstacle all around", "why_tests_cant": "an integral over a continuum", "anchors": ["src/MeasurementModel_VictoriaPark.cpp: setLaserScan, clutterIntensity, clutterIntensityIntegral"]}
{"id": "C144", "title": "The Victoria Park programs turn a log into predictions and updates", "statement": "Each input or lidar message leads to one prediction from the time of the message before, with the input in effect (steering scaled once), with input noise only after the vehicle has started, and with the check for new landmarks only after an update; each lidar message then leads to one update with its scan and measurements; the predictions cover the time without gap or overlap. Dead reckoning uses the same inputs, from input to input. Only messages with an index outside of the data lead to reads outside of the data.", "quantifier": "for all logs of messages, inputs, scans and measurements", "why_tests_cant": "all interleavings of message types and times", "anchors": ["src/rbphdslam_VictoriaPark.cpp: run, deadReckoning", "src/fastslam_VictoriaPark.cpp: run"]}
{"id": "C145", "title": "Landmark noise grows with time, not with messages", "statement": "The variance that the predictions of the Victoria Park programs add to a landmark is the configured increase per second times the time that has passed, however many messages there are.", "quantifier": "for all logs of messages", "why_tests_cant": "the sum over all logs; a test uses one log", "anchors": ["src/rbphdslam_VictoriaPark.cpp: run (Q_m_k)", "src/fastslam_VictoriaPark.cpp: run", "cfg/rbphdslam_VictoriaPark.xml: varlmx"]}
{"id": "C146", "title": "Amplitude clutter is a density, and what the simulator draws", "statement": "For the range-bearing model with amplitude, clutterIntensityIntegral is the integral of clutterIntensity over all valid ranges, bearings and all amplitudes, and the amplitudes that the simulator gives to false alarms have the distribution that clutterIntensity assumes.", "quantifier": "for all configurations with 0 <= rangeLimMin <= rangeLimMax", "why_tests_cant": "an integral and a distribution over a continuum", "anchors": ["src/MeasurementModel_RngBrg_amplitude.cpp: clutterIntensity, clutterIntensityIntegral", "src/rbphdslam2dSim_amplitude.cpp: generateMeasurements"]}
{"id": "C147", "title": "Tree operations keep trees", "statement": "Whatever sequence of addChild, replaceChild and removeChildren is called on nodes of a Tree, the nodes form trees: a node is listed as a child exactly by its parent, once, and no node is below itself. No call fails.", "quantifier": "for all sequences of calls on any number of nodes", "why_tests_cant": "all sequences of operations, of any length", "anchors": ["include/Tree.hpp: addChild, replaceChild, removeChildren", "include/JCBB.hpp: JCBB_TreeNode"]}
{"id": "C148", "title": "getParent leads to the root", "statement": "In a tree, getParent gives the node that lists this one as a child, as long as it lives; a node kept alive by its tree only always has a parent; following getParent ends at a root after finitely many steps without meeting a node twice.", "quantifier": "for all trees and all sets of nodes that the user holds", "why_tests_cant": "all shapes of trees and all ways of holding nodes", "anchors": ["include/Tree.hpp: getParent, getChild"]}
{"id": "C149", "title": "The Gaussian likelihood is a probability density", "statement": "For a positive definite covariance, evalGaussianLikelihood integrates to one over all points, is positive and is greatest exactly at the mean; all its overloads agree and evalGaussianLogLikelihood is its logarithm.", "quantifier": "for all dimensions, means, positive definite covariances and points", "why_tests_cant": "an integral over a continuum, for all covariances", "anchors": ["include/RandomVec.hpp: evalGaussianLikelihood, evalGaussianLogLikelihood"]}
{"id": "C150", "title": "Samples follow the stored Gaussian", "statement": "A sample of a random vector is distributed as the Gaussian with its mean and covariance, that is with the density that evalGaussianLikelihood evaluates.", "quantifier": "for all dimensions, means and covariances", "why_tests_cant": "a probability distribution; a test sees finitely many samples", "anchors": ["include/RandomVec.hpp: sample"]}
{"id": "C151", "title": "n_error is the gradient", "statement": "The vector n_error that the likelihood functions return is the gradient of the log-likelihood with respect to the mean (its negative is that with respect to the point of evaluation), and the product of the error with it is the squared Mahalanobis distance.", "quantifier": "for all dimensions, means, points and symmetric covariances", "why_tests_cant": "derivatives in all directions at all points", "anchors": ["include/RandomVec.hpp: evalGaussianLikelihood, evalGaussianLogLikelihood (n_error)"]}
{"id": "C152", "title": "Static sampling does not change its input", "statement": "Drawing samples with RandomVecMathTools leaves the random vector as it is, so repeated samples have the same mean and the stored covariance; its distance function is the Euclidean distance of the means.", "quantifier": "for all dimensions, vectors and numbers of samples", "why_tests_cant": "all numbers of repeated samples", "anchors": ["include/RandomVec.hpp: RandomVecMathTools::sample, euclidianDist"]}
{"id": "C153", "title": "ORB likelihood matches its false alarm model and its samples", "statement": "The ratio of likelihood and falseAlarmLikelihood of ORB descriptors is the ratio of two probabilities, of bit flips and of uniformly random descriptors, and sample draws from the model that likelihood evaluates.", "quantifier": "for all pairs of descriptors", "why_tests_cant": "2^512 pairs of descriptors and sums over all descriptors", "anchors": ["include/ORB.hpp: likelihood, falseAlarmLikelihood, sample"]}
{"id": "C154", "title": "Random ORB descriptors use all bits", "statement": "ORBDescriptor::random can give every descriptor, and sample can flip every bit.", "quantifier": "for all values of the random numbers", "why_tests_cant": "no finite number of draws shows that a bit can never be set", "anchors": ["include/ORB.hpp: random, sample"]}
{"id": "C155", "title": "Descriptors factor out of likelihood, clutter and measurement", "statement": "With descriptors, the likelihood is that of the position times that of the descriptor, distance and gradient are those of the position, measurements and new landmarks carry the descriptor they come from, and the likelihood relative to clutter is the product of the two ratios.", "quantifier": "for all landmarks, measurements, descriptors and extended models", "why_tests_cant": "all descriptor classes and models", "anchors": ["include/LandmarkWithDescriptor.hpp", "include/MeasurementWithDescriptor.hpp", "include/MeasurementModelWithDescriptor.hpp"]}
{"id": "C156", "title": "Converted logs hold the same records", "statement": "convertLogFiles turns a complete log in the old format into one record per particle and one per landmark, in order, with the right time and particle number and unchanged numbers; a log that is not complete is reported by the value returned.", "quantifier": "for all logs, of any number of steps, particles and landmarks", "why_tests_cant": "all logs", "anchors": ["src/convertLogFiles.cpp: main"]}
{"id": "C157", "title": "Running convertLogFiles never loses data", "statement": "After any number of runs of convertLogFiles the records of the original log are still in the log directory.", "quantifier": "for all logs and numbers of runs", "why_tests_cant": "all logs and repetitions", "anchors": ["src/convertLogFiles.cpp: main"]}
{"id": "C158", "title": "Trajectory, odometry and dead reckoning of the optimisers' simulators agree", "statement": "In the simulators of the batch optimisers the trajectory starts at the origin and moves by the displacements, each within the configured limits; the odometry is each displacement with its time plus normal noise of the configured variance; dead reckoning starts at the origin and moves by the odometry, one pose per step.", "quantifier": "for all settings, numbers of steps and random draws, 1-D and 2-D programs", "why_tests_cant": "all lengths and all draws; a read past the end goes unnoticed in a test", "anchors": ["src/rfsceresslam1dSim.cpp: generateTrajectory, generateOdometry", "src/rfspsoslam1dSim.cpp", "src/rfspsoorbslam1dSim.cpp", "src/rfspsoslam2dSim.cpp", "src/rfsceresslam2dSim.cpp"]}
{"id": "C159", "title": "The optimiser files every simulated measurement under its pose", "statement": "In the 1-D programs every generated measurement is accepted by setMeasurements and stored under the pose of the step in which it was generated, in order of generation, and the optimiser has exactly one pose per step of the true trajectory.", "quantifier": "for all settings, trajectories, noise and measurements", "why_tests_cant": "all lengths, all numbers of measurements per step", "anchors": ["src/rfsceresslam1dSim.cpp: setupRFSBatchPSOSLAM, generateMeasurements", "include/RFSCeresSLAM.hpp: addInput, setMeasurements"]}
{"id": "C160", "title": "Simulated data associations are true", "statement": "In the 1-D programs a measurement with a non-negative data association is the sample of the landmark of that number taken in the step of its time; every other one is a false alarm and carries the code for that; all are within the range limits; the recorded time of first observation of a landmark is the time of its first measurement, -1 if there is none.", "quantifier": "for all settings, samples and random draws", "why_tests_cant": "all combinations of detections and alarms over all steps", "anchors": ["src/rfsceresslam1dSim.cpp: generateMeasurements", "src/rfspsoslam1dSim.cpp: generateMeasurements"]}
{"id": "C161", "title": "The 1-D programs create the configured number of landmarks", "statement": "The 1-D simulators create exactly the configured number of landmarks when there are at least that many steps, otherwise one in every step; never two in one step.", "quantifier": "for all numbers of steps and landmarks", "why_tests_cant": "all pairs of numbers", "anchors": ["src/rfsceresslam1dSim.cpp: generateLandmarks", "src/rfspsoorbslam1dSim.cpp: generateLandmarks"]}
{"id": "C162", "title": "Programs read parameter vectors within their length", "statement": "Whatever initial map is drawn, the programs that run the Ceres optimiser evaluate the true and the initial parameters without reading outside of the parameter arrays.", "quantifier": "for all trajectories, true maps and initial maps", "why_tests_cant": "the size of the initial map is random; reads outside of an array go unnoticed", "anchors": ["src/rfsceresslam1dSim.cpp: run", "src/rfsceresslam2dSim.cpp: run", "include/RFSCeresSLAM.hpp: Evaluate"]}
{"id": "C163", "title": "With known data associations Ceres minimises the weighted squared errors", "statement": "In the 1-D program with known data associations the residual blocks only use entries of the parameter array, and the cost is half the sum of the squared odometry errors over vardx plus the squared errors of the measurements that name a landmark over varzr, for the poses (the first fixed at zero) and landmarks that the parameters stand for; false alarms do not count.", "quantifier": "for all odometry, measurements, associations and parameter vectors", "why_tests_cant": "all parameter vectors and all sizes of problems", "anchors": ["src/rfsceresslam1dSim.cpp: run (residual blocks), OdometryResidual, MeasurementResidual"]}
{"id": "C164", "title": "The weights of the least squares problem are those of the simulated noise", "statement": "The cost of the 1-D problem with known data associations is, up to a constant, minus the logarithm of the probability density of the simulated odometry and measurements, so that Ceres computes the maximum likelihood estimate.", "quantifier": "for all settings, data and parameter vectors", "why_tests_cant": "a density at all points, for all step lengths", "anchors": ["src/rfsceresslam1dSim.cpp: run, generateOdometry"]}
{"id": "C165", "title": "The errors of the 2-D graph vanish exactly where poses and landmarks fit the data", "statement": "The three errors of the pose graph term vanish exactly if the second pose is the first moved by the odometry as the motion model does, the angle up to full turns; the two errors of the observation term vanish exactly if the landmark is where the range-bearing model puts the measurement; angles are reduced to [-pi, pi); each squared error is divided by its variance.", "quantifier": "for all poses, odometry, measurements of positive range, landmarks and positive variances", "why_tests_cant": "all real values, including the jump of the angle", "anchors": ["src/rfsceresslam2dSim.cpp: NormalizeAngle, RotationMatrix2D, PoseGraph2dErrorTerm, Observation2dErrorTerm"]}
{"id": "C166", "title": "False alarms can fall wherever landmarks can be measured", "statement": "In the 1-D simulators, whose measurements are signed and limited in absolute value, a false alarm can take every value within the limits, as the clutter intensity of the likelihoods assumes.", "quantifier": "for all limits and all values within them", "why_tests_cant": "all values that random draws can lead to", "anchors": ["src/rfsceresslam1dSim.cpp: generateMeasurements", "src/rfspsoslam1dSim.cpp: generateMeasurements"]}
{"id": "C167", "title": "The simulated trajectory in space is a trajectory", "statement": "generateTrajectory of the simulator in space starts at the origin with the identity orientation, stands still for 50 steps, then moves each pose by the drawn displacement, which is within the configured limits; the clock advances by the time step and every orientation is a unit quaternion; with at least one segment a trajectory is always generated.", "quantifier": "for all settings with nonnegative limits, numbers of steps and random draws", "why_tests_cant": "all lengths and draws; a lost orientation needs a draw that a test run will not produce", "anchors": ["src/rbphdslam6dSim.cpp: generateTrajectory", "src/ProcessModel_Odometry6D.cpp"]}
{"id": "C168", "title": "Odometry and dead reckoning in space follow the displacements", "statement": "In the simulator in space the odometry is each true displacement plus noise, with its time stamp; dead reckoning starts at the first true pose and moves by the odometry with the clock of the simulation; with zero variances both are the true data.", "quantifier": "for all displacements, variances and noise draws", "why_tests_cant": "all lengths and all noise values", "anchors": ["src/rbphdslam6dSim.cpp: generateOdometry"]}
{"id": "C169", "title": "The simulated odometry noise is the one the filter assumes", "statement": "Without inflation, the noise of every component of the odometry of the simulator in space has the configured variance of that component times dt squared, which is the process noise the filter is set up with.", "quantifier": "for all variances, time steps and displacements", "why_tests_cant": "a wrong variance of one component only shows in statistics of many runs", "anchors": ["src/rbphdslam6dSim.cpp: generateOdometry, setupRBPHDFilter"]}
{"id": "C170", "title": "Landmarks in space can be seen from where they were created", "statement": "generateLandmarks of the simulator in space creates one landmark in each of its steps, and the sensor model can measure it from the true pose of that step.", "quantifier": "for all trajectories, range limits and random draws", "why_tests_cant": "the range is decided by random draws", "anchors": ["src/rbphdslam6dSim.cpp: generateLandmarks", "src/MeasurementModel_6D.cpp: inverseMeasure, measure"]}
{"id": "C171", "title": "In space exactly the drawn landmarks in range are detected", "statement": "In each step of the simulator in space a landmark can be measured exactly if its distance from the robot is within the range limits, as its position in the robot frame plus noise; it is measured exactly if its random number is at most the probability of detection; false alarms follow, as many as the next random number gives.", "quantifier": "for all poses, landmarks, noise and random draws", "why_tests_cant": "all poses, numbers of landmarks and draws", "anchors": ["src/rbphdslam6dSim.cpp: generateMeasurements", "include/MeasurementModel.hpp: sample"]}
{"id": "C172", "title": "Simulated measurements in space are within the range limits", "statement": "Every measurement that the simulator in space generates carries the time of its step and is within the range limits if the samples of the landmarks are; in particular every false alarm is.", "quantifier": "for all settings, landmarks and random draws", "why_tests_cant": "the rejection loop runs over random draws", "anchors": ["src/rbphdslam6dSim.cpp: generateMeasurements"]}
{"id": "C173", "title": "The recorded first observation in space is an observation", "statement": "In the simulator in space, the first observation time stored for a landmark is the time of its first measurement, and -1 if there is none.", "quantifier": "for all settings, landmarks and random draws", "why_tests_cant": "missed detections are random", "anchors": ["src/rbphdslam6dSim.cpp: generateMeasurements, exportSimData"]}
{"id": "C174", "title": "Simulated measurements reach the filter in their step", "statement": "In the simulators, update gets in each step exactly the measurements that generateMeasurements made for that step, in their order.", "quantifier": "for all settings, numbers of steps, landmarks and random draws, in the plane and in space", "why_tests_cant": "a step without measurements at the end is random, and reading past the end of a vector often goes unnoticed", "anchors": ["src/rbphdslam6dSim.cpp: run, generateMeasurements", "include/RBPHDSLAM_2D.hpp: run, generateMeasurements", "include/RBLMBSLAM_2D.hpp: run"]}
{"id": "C175", "title": "Unused measurements stay valid between calls of a multi-Bernoulli filter", "statement": "In RBCBMeMBerFilter and RBLMBFilter every index stored in the list of unused measurements of a particle refers to a measurement of the scan the filter holds, so that predict never reads a measurement that does not exist, whatever sequence of update and predict calls the user makes.", "quantifier": "All filters of either kind, particle numbers, initial states and sequences of predict and update calls (of any length, with empty scans and resampling)", "why_tests_cant": "The failing sequences involve an empty scan right after a scan with unexplained measurements; a test would need that order of calls, and reading past the end of a vector often goes unnoticed.", "anchors": ["include/RBCBMeMBerFilter.hpp:279-366,427-510", "include/RBLMBFilter.hpp:276-367,428-513"]}
{"id": "C176", "title": "Births follow the particle after resampling", "statement": "After update and predict of a multi-Bernoulli filter every particle consists of the map of some particle after its update together with one birth track for each measurement that this same particle left unexplained, placed with the pose of that particle.", "quantifier": "All sequences of calls, scans, motions and random numbers", "why_tests_cant": "Whether a particle gets births that belong to another particle depends on weights and random numbers; tests compare no maps of single particles.", "anchors": ["include/RBCBMeMBerFilter.hpp:304-332,427-510", "include/RBLMBFilter.hpp:302-330,428-513"]}
{"id": "C177", "title": "Particle weights after an update of a multi-Bernoulli filter", "statement": "A non-empty scan multiplies the weight of each particle with the likelihood of its update; if at least minUpdatesBeforeResample updates have passed and the effective number of particles is not above both thresholds, all particles are replaced by copies of updated particles with weight 1 and the counter of updates is 0, otherwise weights are scaled to total 1 and particles keep their places. An empty scan and predict leave all weights as they are; an update is defined whenever the map updates are.", "quantifier": "All particle numbers, weights with positive total, likelihoods, thresholds and random numbers in [0,1)", "why_tests_cant": "The claim covers all weight vectors and both sides of the resampling condition; a test run takes one path.", "anchors": ["include/RBCBMeMBerFilter.hpp:427-510", "include/RBLMBFilter.hpp:428-513", "include/ParticleFilter.hpp:380-500"]}
{"id": "C178", "title": "CB-MeMBer runs stay in order", "statement": "Starting from the constructor, every sequence of predict and update calls of the CB-MeMBer filter is defined, reads no freed memory, keeps all particle weights positive, all existence probabilities in [0,1) and all mixtures consistent (as many Gaussians as counted, no null landmark, non-negative weights of total at most one).", "quantifier": "for all call sequences, scans, motions, random draws, particle counts and models with Pd in [0,1], non-negative likelihoods, positive clutter", "why_tests_cant": "tests run a few simulated trajectories; the claim is about every sequence of calls, and its failures (stale birth list after an empty scan, self-copies of tracks) need particular sequences", "anchors": ["include/RBCBMeMBerFilter.hpp:280-332", "include/RBCBMeMBerFilter.hpp:428-650", "include/GMBernoulliComponent.hpp", "include/GaussianMixture.hpp: merge, prune"]}
{"id": "C179", "title": "Every track has a Gaussian", "statement": "After any sequence of calls every track of every particle's map has at least one Gaussian, so that its landmark estimate can be read.", "quantifier": "for all call sequences, scans and models", "why_tests_cant": "whether pruning empties a mixture depends on the weights reached after several scans; a test sees only the tracks it happens to create", "anchors": ["include/GMBernoulliComponent.hpp:155-168", "include/RBCBMeMBerFilter.hpp:456-490", "include/Visualizer6D.hpp", "src/Visualizer6D.cpp:433"]}
{"id": "C180", "title": "LMB runs stay in order", "statement": "In every sequence of predict and update calls of the LMB filter, as long as it is defined, all existence probabilities and all recorded birth probabilities are in [0,1] and all mixtures are consistent (as many Gaussians as counted, no null landmark, non-negative weights of total at most one); right after an update no track is below the pruning threshold.", "quantifier": "for all call sequences, scans, motions, random draws and outcomes of Murty's algorithm, models with Pd in [0,1], non-negative likelihoods, positive clutter, birth limits in [0,1] and a non-negative number of expected births", "why_tests_cant": "an invariant over unbounded runs, including partitions handled by Murty's algorithm; tests sample a few runs", "anchors": ["include/RBLMBFilter.hpp:276-330", "include/RBLMBFilter.hpp:428-884"]}
{"id": "C181", "title": "Importance weight of a PHD particle", "statement": "An update of the RB-PHD filter multiplies the weight of a particle by the likelihood of the scan given evaluation points of its updated map (summed over all one-to-one associations, with 1 - Pd for a missed detection), times the ratio of the intensities of the map at these points before and after the update, times exp of the difference of the expected numbers of landmarks; the weight stays positive.", "quantifier": "for all maps, scans, sensor models, numbers of evaluation points and previous weights", "why_tests_cant": "a test compares a handful of maps and scans with a hand calculation; the factor is a sum over exponentially many associations and depends on the whole map", "anchors": ["include/RBPHDFilter.hpp:730-821", "include/RBPHDFilter.hpp:824-940"]}
{"id": "C182", "title": "Evaluation points are the heaviest in view", "statement": "The evaluation points of importance weighting are the heaviest Gaussians of the updated map that are in view and not lighter than the configured weight, as many as configured; a negative number means all of them.", "quantifier": "for all maps, detection probabilities, thresholds and numbers of points", "why_tests_cant": "a test looks at few maps; ties, invisible Gaussians in between and every count matter", "anchors": ["include/RBPHDFilter.hpp:115-125", "include/RBPHDFilter.hpp:739-764"]}
{"id": "C183", "title": "Empty-set weighting strategy", "statement": "With importanceWeightingEvalPointCount 0 (the documented empty-set strategy), or whenever no evaluation point is available, the weight of a particle is multiplied by the likelihood that the whole scan is clutter times exp of the difference of the expected numbers of landmarks.", "quantifier": "for all maps (also empty ones), scans, sensor models and previous weights", "why_tests_cant": "weights are only visible through resampling; a run with constant weights looks like a run with a poor sensor", "anchors": ["include/RBPHDFilter.hpp:115-119", "include/RBPHDFilter.hpp:739-747"]}
{"id": "C184", "title": "Cluster process weight", "statement": "With useClusterProcess the weight of a particle is multiplied, up to a constant common to all particles, by exp(-sum of Pd w) times the product over the measurements of clutter plus what the map explains of the measurement, also when the map is empty; landmarks out of view do not influence it.", "quantifier": "for all maps, scans, sensor models and previous weights", "why_tests_cant": "the sign and content of an exponent do not show in a run that works; a test would need the reference value for every map", "anchors": ["include/RBPHDFilter.hpp:126-128", "include/RBPHDFilter.hpp:568-581", "include/RBPHDFilter.hpp:655-668"]}
{"id": "C185", "title": "Default configuration is complete", "statement": "A filter used with the configuration left by its constructor reads only configuration members that were set.", "quantifier": "for all maps, scans and sensor models", "why_tests_cant": "memory that was never written often happens to hold zero, so tests pass by luck", "anchors": ["include/RBPHDFilter.hpp:370-383", "include/RBPHDFilter.hpp:484-497", "include/RBPHDFilter.hpp:753"]}
{"id": "C186", "title": "Random generators exist when they are used", "statement": "In every main program each normal number drawn, while generating data or running the filter, comes from a generator that initializeGaussianGenerators has created for the drawing thread.", "quantifier": "for all numbers of threads, libraries, data generations and filter runs", "why_tests_cant": "reading past the end of a vector is undefined and may go unnoticed in a run", "anchors": ["src/GaussianGenerators.cpp:37-55", "include/RandomVec.hpp:598-645", "src/fastslam2dSim.cpp:142-170", "src/fastslam2dSim.cpp:830-846", "src/fastslam_VictoriaPark.cpp:856-868", "src/rbphdslam2dSim.cpp:74-91"]}
{"id": "C187", "title": "The seed option seeds the filter run", "statement": "The option 'random seed for running the simulation' determines the random numbers of the run: the result is that of the same run on the same data in a new process whose generators are seeded with it.", "quantifier": "for all seeds, data, libraries, numbers of threads and filter runs", "why_tests_cant": "every single run looks random; only comparing runs with different seeds in all their numbers would show that they share them", "anchors": ["src/rbphdslam2dSim.cpp:42-91", "src/rblmbslam2dSim.cpp:789-808", "src/rbcbmemberslam2dSim.cpp:792-809", "src/rbphdslam6dSim.cpp:1012-1029", "src/rfspsoslam1dSim.cpp:722-740", "src/rfsceresslam2dSim.cpp:936-955", "src/rbphdslam_VictoriaPark.cpp:868-881", "src/rbphdslamCityTrees10000.cpp:85-96"]}
{"id": "C188", "title": "Same options, same result", "statement": "With trajectory number and seed given, data and result of a main program do not depend on the time at which it is started, although the constructor of the particle filter seeds drand48 with the time.", "quantifier": "for all options, times, libraries, numbers of threads, data generations and filter runs", "why_tests_cant": "two runs can be compared, not all pairs of starting times and options", "anchors": ["include/ParticleFilter.hpp:241-242", "src/rbphdslam2dSim.cpp:74-91", "src/rbphdslam2dSim_amplitude.cpp:748-761", "src/rblmbslam2dSim.cpp:789-808", "src/fastslam_VictoriaPark.cpp:856-868"]}
{"id": "C189", "title": "Gaussian weights of the RB-PHD filter stay positive over whole runs", "statement": "After any sequence of predict() and update() calls on a new RB-PHD filter, with merging and pruning as configured (positive pruning threshold and birth weight), every Gaussian in the map of every particle has a positive weight; right after an update() with measurements no weight is below the pruning threshold, and that update has added at most one expected landmark per measurement to the largest expected number in any particle.", "quantifier": "for all numbers of particles, configurations with positive pruning threshold and birth weight, sensor models with detection probabilities in [0,1] and non-negative likelihoods and clutter, merging distances, sorts, and all finite sequences of calls", "why_tests_cant": "weights after long alternations of predict and update, with births, merging, pruning and resampling, depend on the whole history; a test sees a few histories", "anchors": ["include/RBPHDFilter.hpp", "include/GaussianMixture.hpp", "include/ParticleFilter.hpp"]}
{"id": "C190", "title": "Expected number of landmarks of the RB-PHD filter is bounded by the measurements", "statement": "In any run of the RB-PHD filter with M measurements in total and P calls of predict() that check for births, the sum of the weights of the map of any particle is at most M(1 + birthGaussianWeight P); as long as fewer updates were made than the minimum between resamplings, it is at most M(1 + birthGaussianWeight).", "quantifier": "for all numbers of particles, configurations with positive pruning threshold and birth weight, sensor models, motions, and all finite sequences of calls", "why_tests_cant": "a bound over all histories of births, merges, prunings and resamplings; a test observes single runs", "anchors": ["include/RBPHDFilter.hpp", "include/GaussianMixture.hpp", "include/ParticleFilter.hpp"]}
{"id": "C191", "title": "update() of the RB-PHD filter is defined in every run and leaves usable particle weights", "statement": "After any sequence of calls on a new RB-PHD filter with n > 0 particles there are n particles with positive weights, and update() is defined for every scan (no null pointer left by merging and pruning, no access outside the particle set when resampling); after an update() with measurements the particle weights sum to one, or all are one.", "quantifier": "for all n > 0, configurations with positive pruning threshold and birth weight, sensor models, positive weighting functions, random numbers in [0,1), and all finite sequences of calls", "why_tests_cant": "undefined accesses and degenerate weights may only appear in rare histories of resampling", "anchors": ["include/RBPHDFilter.hpp", "include/GaussianMixture.hpp", "include/ParticleFilter.hpp"]}
{"id": "C192", "title": "FastSLAM keeps between the initial and the maximal number of particles", "statement": "Although update() makes a particle of every data association hypothesis, a filter constructed with n > 0 particles has, after every call, at least n of them and at most the larger of n and nParticlesMax_. A scan that resamples leaves exactly n; one that does not leaves at least as many as before, at most nParticlesMax_ and at most maxNDataAssocHypotheses_ times as many.", "quantifier": "for all sequences of predict and update, measurement models, assignment rankings, random numbers in [0,1) and orders in which the threads get through the particles", "why_tests_cant": "Growth of the particle set depends on how many hypotheses each particle gets in each scan of a run.", "anchors": ["include/FastSLAM.hpp: update, updateMap, resampleWithMapCopy", "include/ParticleFilter.hpp: copyParticle, resample"]}
{"id": "C193", "title": "FastSLAM stays inside its arrays", "statement": "In every sequence of calls FastSLAM accesses only particles and candidate lists that exist (landmarkCandidates_ grows with the number of possible hypotheses, particle ids used as indices are smaller than its size), and resampling is defined.", "quantifier": "for all sequences of calls of a filter with at least one particle, and all orders in which the threads get through the particles", "why_tests_cant": "An index out of range depends on the history of copies and resamplings; a test sees one history.", "anchors": ["include/FastSLAM.hpp: update, updateMap, resampleWithMapCopy"]}
{"id": "C194", "title": "FastSLAM particle weights stay usable", "statement": "Particle weights are positive in every run. After a scan with measurements they are all one if the particles were resampled and add up to one otherwise.", "quantifier": "for all sequences of calls, all scans, all orders in which the threads get through the particles", "why_tests_cant": "Holds for every run and every number of hypotheses.", "anchors": ["include/FastSLAM.hpp: update, updateMap, resampleWithMapCopy", "include/ParticleFilter.hpp: normalizeWeights, resample"]}
{"id": "C195", "title": "FastSLAM maps keep no landmark below the pruning threshold", "statement": "If every scan is long enough to prune, no landmark in the map of any particle has log-odds of existence below the pruning threshold after update().", "quantifier": "for all runs, priors in (0,1), thresholds at most zero", "why_tests_cant": "Concerns the landmarks created after pruning in the same call, for all priors.", "anchors": ["include/FastSLAM.hpp: updateMap"]}
{"id": "C196", "title": "FastSLAM loses and mixes no hypotheses", "statement": "After a scan without resampling the particles are exactly, in some order, one for each data association hypothesis of each particle, with the pose of its particle, the map updated under the hypothesis, its candidates, and its weight divided by the sum of all. After resampling each particle has pose and map of one of them. It is resampled exactly if there are more than nParticlesMax_ particles, or if enough updates and measurements have passed and the effective number of particles is not above the thresholds. predict() and empty scans change nothing else than the poses, landmarks and the count of updates.", "quantifier": "for all runs and scans, and all orders in which the threads get through the particles", "why_tests_cant": "The copies are written through an index table while the particle set grows; a wrong index shows only for particular numbers of hypotheses.", "anchors": ["include/FastSLAM.hpp: update, updateMap, resampleWithMapCopy", "include/ParticleFilter.hpp: copyParticle"]}
{"id": "C197", "title": "Written options reach the program with the value written", "statement": "For every program and every configuration file that it accepts, an option written in the file has, in the running program, the value that the text denotes for the type of the variable: whole numbers, decimal numbers with or without fraction and exponent, texts and switches; an option that is not written has its default.", "quantifier": "all 14 readers, all configuration trees, all options and all texts", "why_tests_cant": "Tests run one or two files; here every option of every program and every text is covered.", "anchors": ["include/RBPHDSLAM_2D.hpp:85-154", "include/RBLMBSLAM_2D.hpp:85-151", "src/fastslam2dSim.cpp:83-138", "src/fastslam_VictoriaPark.cpp:90-179", "src/rbphdslam_VictoriaPark.cpp:90-183", "src/rbcbmemberslam2dSim.cpp:83-141", "src/rblmbslam2dSim.cpp:83-140", "src/rbphdslam2dSim_amplitude.cpp:86-145", "src/rbphdslam6dSim.cpp:86-179", "src/rfsceresslam1dSim.cpp:111-151", "src/rfsceresslam2dSim.cpp:200-245", "src/rfspsoslam1dSim.cpp:83-133", "src/rfspsoorbslam1dSim.cpp:86-136", "src/rfspsoslam2dSim.cpp:83-138"]}
{"id": "C198", "title": "A program starts exactly on complete configurations, and on its own default file", "statement": "A program accepts a configuration exactly when the options without a default are present and well formed, the directories that it completes are not empty and (Victoria Park) the detection probabilities are a list of numbers; in particular each program accepts the file that it opens when no file is named.", "quantifier": "all programs and all configuration trees; all default files", "why_tests_cant": "Acceptance of all files cannot be tested; a default file that does not fit is noticed only by running that program without options.", "anchors": ["src/rbphdslam2dSim_amplitude.cpp:736", "src/rblmbslamCityTrees10000.cpp:49", "src/rbphdslamCityTrees10000.cpp:49", "cfg/rbphdslam2dSim.xml"]}
{"id": "C199", "title": "Malformed options are reported", "statement": "If the text of an option is not a value of the type of the option, the program does not go on as if nothing had happened: it stops with an error that names an option at fault.", "quantifier": "all programs, all options, all texts", "why_tests_cant": "A replaced value gives a run that looks normal.", "anchors": ["include/RBPHDSLAM_2D.hpp:128-150", "src/fastslam2dSim.cpp:110-135"]}
{"id": "C200", "title": "Every option has an effect", "statement": "Two different values of an option that a program reads lead to different settings of the filter, its models or the program itself.", "quantifier": "all programs but those on the CityTrees data, all options, all values of the other options", "why_tests_cant": "An option without effect is not noticed by running the program; the proof goes through every option of every program.", "anchors": ["include/RBPHDSLAM_2D.hpp:640-693", "src/fastslam_VictoriaPark.cpp:356-394", "src/rbphdslam_VictoriaPark.cpp:360-400", "src/rbcbmemberslam2dSim.cpp:437-485", "src/rbphdslam6dSim.cpp:518-591", "src/rfsceresslam1dSim.cpp:446-482", "src/rfsceresslam2dSim.cpp:549-586"]}
{"id": "C201", "title": "Log files lie in the configured directory", "statement": "Every log file is the file of its name in the directory given by logDirPrefix, whether or not the directory is written with a slash at its end.", "quantifier": "all programs, all directories, all names of log files", "why_tests_cant": "The shipped files all end with a slash.", "anchors": ["include/RBPHDSLAM_2D.hpp:93-95", "src/rbcbmemberslam2dSim.cpp:83-95", "src/rblmbslam2dSim.cpp:83-95", "src/rfsceresslam1dSim.cpp:111-125", "src/rfsceresslam2dSim.cpp:200-215", "src/rfspsoslam1dSim.cpp:83-95", "src/rfspsoorbslam1dSim.cpp:86-98", "src/rfspsoslam2dSim.cpp:83-95"]}
{"id": "C202", "title": "Detection probabilities of the Victoria Park programs are those written", "statement": "The list of detection probabilities that the Victoria Park programs work with consists of the values written between the Pd tags, in their order; comments between them do not matter.", "quantifier": "all lists of values and comments", "why_tests_cant": "The shipped files have no comments there.", "anchors": ["src/fastslam_VictoriaPark.cpp:135-138", "src/rbphdslam_VictoriaPark.cpp:135-138"]}
{"id": "C203", "title": "The noise of the models is the configured noise", "statement": "The process noise that a program sets for the robot is, coordinate by coordinate, the variance of the file times the configured inflation factor times the square of the time step; for landmarks the variance times the square of the time step; the measurement noise is the variance of the file times its inflation factor.", "quantifier": "all programs, all values of all options", "why_tests_cant": "A wrong factor changes the noise by an amount that simulated errors hide.", "anchors": ["include/RBPHDSLAM_2D.hpp:640-660", "src/fastslam2dSim.cpp:438-460", "src/rbphdslam6dSim.cpp:525-555", "src/rbcbmemberslam2dSim.cpp:437-460", "src/rblmbslam2dSim.cpp:436-460", "src/rbphdslam2dSim_amplitude.cpp:450-475", "src/rfsceresslam1dSim.cpp:528-532", "src/rfsceresslam2dSim.cpp:549-566", "src/rfspsoslam1dSim.cpp:430-446", "src/rfspsoorbslam1dSim.cpp:440-456", "src/rfspsoslam2dSim.cpp:445-461", "src/fastslam_VictoriaPark.cpp:144", "src/rbphdslam_VictoriaPark.cpp:144"]}
{"id": "C204", "title": "FastSLAM threads do not interfere", "statement": "update() runs updateMap() for the particles in parallel; each iteration appends copies of its particle to the common particle set in a critical section and then works on them. Whatever the division of the iterations among threads and the interleaving of their steps: an iteration changes no particle and no candidate list that belongs to another one, no access is out of range, and the completed update equals processing the particles one after the other in some order. Every order can occur.", "quantifier": "for all schedules, filter states, scans and measurement models; whole runs by induction", "why_tests_cant": "Races and interleavings are not reproducible by tests; there are exponentially many schedules.", "anchors": ["include/FastSLAM.hpp: update, updateMap (critical sections)", "include/ParticleFilter.hpp: copyParticle"]}
{"id": "C205", "title": "FastSLAM results do not depend on the threads", "statement": "The particles after update(), with poses, weights, maps and candidates, are the same up to their order whatever the schedule of the threads; so is whether they are resampled.", "quantifier": "for all pairs of schedules, filter states and scans", "why_tests_cant": "A dependence on the schedule shows only under particular interleavings and contents of the candidate lists.", "anchors": ["include/FastSLAM.hpp: update, updateMap, landmarkCandidates_"]}
{"id": "C206", "title": "Weighting tables of the RB-PHD filter never leak", "statement": "RBPHDFilter::updateMap gives a particle a map, unused measurements, a count of landmarks in view and (with the cluster process) a weight that depend only on the particle and the measurements, never on what the weighting tables of the thread held from an earlier particle or scan; it never accesses a table out of range, whatever its size was.", "quantifier": "all tables (contents and shapes), all maps, measurements, models and settings", "why_tests_cant": "Stale entries show only after particular sequences of map sizes and numbers of measurements that cross the table size; a test fixes a few sizes.", "anchors": ["include/RBPHDFilter.hpp:545-727", "include/RBPHDFilter.hpp:1201-1221", "include/RBPHDFilter.hpp:388-394"]}
{"id": "C207", "title": "RB-PHD update is independent of threads", "statement": "RBPHDFilter::update gives the same particles for every number of threads, every division of the particles among them and every interleaving: exactly those of the sequential update, with the settings of the Kalman filter returned by getKalmanFilter in all threads.", "quantifier": "all numbers of threads, divisions of the loop, interleavings of the steps, particles, scans and models", "why_tests_cant": "Interleavings cannot be enumerated by running the program; a test runs a few schedules on one machine.", "anchors": ["include/RBPHDFilter.hpp:446-543", "include/RBPHDFilter.hpp:545-727", "include/RBPHDFilter.hpp:1195"]}
{"id": "C208", "title": "RB-PHD update has no data race", "statement": "During RBPHDFilter::update no two threads access the same object at the same time with one of them writing it.", "quantifier": "all numbers of threads, divisions, interleavings and settings", "why_tests_cant": "A data race is undefined behaviour that usually leaves no trace in a run.", "anchors": ["include/RBPHDFilter.hpp:592", "include/RBPHDFilter.hpp:580", "include/RBPHDFilter.hpp:669", "include/RBPHDFilter.hpp:470-527"]}
{"id": "C209", "title": "Particle swarm runs are safe", "statement": "A run of rfspsoslam1dSim, rfspsoslam2dSim or rfspsoorbslam1dSim with at least one particle and one odometry input ends without access outside a container; every particle then has a pose and a velocity for every time, an input between times, and a velocity for each landmark of its map and best map.", "quantifier": "all numbers of particles, inputs, measurements, iterations, random numbers, thread schedules, models and results of the optimiser", "why_tests_cant": "Landmarks are added and deleted at random in every iteration, with three containers to keep in step; a test sees a few random sequences.", "anchors": ["include/RFSPSOSLAM.hpp:362-501", "include/RFSPSOSLAM.hpp:629-686", "src/rfspsoslam1dSim.cpp:513-608", "src/rfspsoorbslam1dSim.cpp:518-622"]}
{"id": "C210", "title": "Swarm trajectories start at the origin", "statement": "In every line of particlePose.dat, in every particle and in the best particle (getBestParticle) the first pose is the origin, whatever the swarm and the optimiser do.", "quantifier": "all runs of the three programs", "why_tests_cant": "Positions and velocities of the first pose are updated with random numbers like all others; that they stay zero is an invariant of the whole run.", "anchors": ["include/RFSPSOSLAM.hpp:402-418", "include/RFSPSOSLAM.hpp:484-488", "include/RFSPSOSLAM.hpp:642-659"]}
{"id": "C211", "title": "Logged likelihood belongs to the logged state", "statement": "The likelihood in a line of particlePose.dat is the likelihood of the trajectory in that line and the map in the same line of landmarkEst.dat.", "quantifier": "all runs of the three programs", "why_tests_cant": "Whether number and state belong together cannot be seen from either file; a test that only checks the format passes.", "anchors": ["src/rfspsoslam1dSim.cpp:517-545", "src/rfspsoslam1dSim.cpp:549-608", "src/rfspsoorbslam1dSim.cpp:559-622"]}
{"id": "C212", "title": "Swarm runs the configured iterations", "statement": "The programs run as many iterations as configured and write the lines of the iterations 0 to that number, for every particle in order.", "quantifier": "all configured numbers (also zero and negative ones) and all runs", "why_tests_cant": "An iteration too few among thousands is not noticed in results.", "anchors": ["src/rfspsoslam1dSim.cpp:548", "src/rfspsoslam2dSim.cpp:563", "src/rfspsoorbslam1dSim.cpp:559"]}
{"id": "C213", "title": "Best particle of a swarm run is reported", "statement": "After a run, bestParticlePose.dat has the best trajectory found; the best particle is one the search found, at least as likely as every particle evaluated.", "quantifier": "all runs of the three programs, all thread schedules", "why_tests_cant": "What the best is depends on random numbers and schedules of the threads; the true trajectory entering the search at the end only shows if the search did worse.", "anchors": ["src/rfspsoslam1dSim.cpp:492-498", "src/rfspsoslam1dSim.cpp:611-620", "src/rfspsoorbslam1dSim.cpp:502-508", "include/RFSPSOSLAM.hpp:688-719"]}
{"id": "C214", "title": "Optimised particles are no less likely", "statement": "optimizeParticles writes back exactly the trajectory and map the optimiser returned; if the optimiser does not make its objective worse, the particle does not become less likely.", "quantifier": "all particles and all optimisers", "why_tests_cant": "Objective and likelihood are computed by different classes; they differ by terms that depend on how many landmarks are in view.", "anchors": ["include/RFSPSOSLAM.hpp:432-499", "include/RFSPSOSLAM.hpp:736-941", "include/RFSCeresSLAM.hpp:868-1185"]}
{"id": "C215", "title": "A partitioned cost matrix is destroyed cleanly", "statement": "Whatever sequence of calls of partition(), getPartitionSize() and getPartition() that respects the interface (sizes only after partition(), partition numbers in range) is made on a CostMatrixGeneral, its destructor frees exactly the blocks the object allocated: it frees nothing twice, reads nothing uninitialised, and loses nothing.", "quantifier": "all matrix sizes, partitions and sequences of calls", "why_tests_cant": "Leaks and invalid frees are silent in ordinary runs; the calls that trigger them (fetching a partition twice with different flags, or not at all) do not occur in the tests.", "anchors": ["src/CostMatrix.cpp:30-82 CostMatrixGeneral::~CostMatrixGeneral", "src/CostMatrix.cpp:91-235 CostMatrixGeneral::partition, getPartitionSize, getPartition"]}
{"id": "C216", "title": "A reduced cost matrix is destroyed cleanly", "statement": "However often a CostMatrix is reduced and whatever is left, its destructor frees all reduced matrices and index maps that were allocated.", "quantifier": "all matrices and sequences of calls", "why_tests_cant": "The leak occurs only if exactly one row is left or if reduce() is called twice, and it is silent.", "anchors": ["src/CostMatrix.cpp:252-265 CostMatrix::~CostMatrix", "src/CostMatrix.cpp:323-354 CostMatrix::reduce, getCostMatrixReduced"]}
{"id": "C217", "title": "The brute force search frees its results", "statement": "However often and for whatever matrices BruteForceLinearAssignment::run is called, the object frees all results with the next call or its destruction, and frees nothing else.", "quantifier": "all sequences of calls", "why_tests_cant": "Leaks and double frees are silent, and there are unboundedly many sequences of calls.", "anchors": ["src/BruteForceAssignment.cpp:42-125 BruteForceLinearAssignment"]}
{"id": "C218", "title": "Copies of the assignment objects can be destroyed", "statement": "If a CostMatrixGeneral, CostMatrix, BruteForceLinearAssignment, PermutationLexicographic or Murty object is copied, both the copy and the original can be destroyed.", "quantifier": "all objects reachable by calls", "why_tests_cant": "No test copies these objects; a double free is undefined behaviour and may go unnoticed.", "anchors": ["include/CostMatrix.hpp:53-176", "include/BruteForceAssignment.hpp", "include/PermutationLexicographic.hpp", "include/MurtyAlgorithm.hpp"]}
{"id": "C219", "title": "FastSLAM updates do not lose memory", "statement": "A FastSLAM map update frees every table, assignment array and Murty matrix it allocates, so that memory does not grow with the number of updates.", "quantifier": "all sizes of tables, numbers of open rows and of hypotheses, all sequences of updates", "why_tests_cant": "The leak needs a particular table (one open row) and shows only as slow growth in long runs.", "anchors": ["include/FastSLAM.hpp:477-550 updateMap", "include/FastSLAM.hpp:731-734"]}
{"id": "C220", "title": "Optimisation of a particle swarm does not lose memory", "statement": "RFSPSOSLAM::optimizeParticles frees all optimisers, models and parameter vectors it allocates.", "quantifier": "all numbers of particles and of calls", "why_tests_cant": "A leak only shows as growth of the process in long runs.", "anchors": ["include/RFSPSOSLAM.hpp:430-500 optimizeParticles", "include/RFSCeresSLAM.hpp:239-264"]}
{"id": "C221", "title": "The batch optimisation simulators free what they allocate", "statement": "The simulators rfsceresslam1dSim and rfsceresslam2dSim free the optimiser, its models and all parameter vectors, and run() can be called repeatedly.", "quantifier": "with and without data association, all numbers of runs", "why_tests_cant": "The programs call run() once and exit, so that neither the leak nor the null pointer is seen.", "anchors": ["src/rfsceresslam1dSim.cpp:92-102, 531-722", "src/rfsceresslam2dSim.cpp:181-191, 631-841"]}
{"id": "C222", "title": "CB-MeMBer and LMB updates do not depend on the number of threads", "statement": "RBCBMeMBerFilter::update and RBLMBFilter::update give the same particles, weights, maps, unused measurements and resampling decision with any number of threads, any division of the particles among them and any interleaving, using the Kalman filter settings made through getKalmanFilter on every thread; they equal the sequential update, failures included. The parallel loop over landmarks in predict moves every particle's own landmarks.", "quantifier": "all filters, scans, particle sets, numbers of threads, schedules of the three loops of update and of the loop of predict", "why_tests_cant": "Tests see the schedules that happen to occur.", "anchors": ["include/RBLMBFilter.hpp:443-510 update", "include/RBCBMeMBerFilter.hpp:442-508 update", "include/RBLMBFilter.hpp:288-297 predict"]}
{"id": "C223", "title": "CB-MeMBer and LMB updates have no data race", "statement": "While RBCBMeMBerFilter::update or RBLMBFilter::update runs its parallel loops, no two threads touch the same member with one of them writing it.", "quantifier": "all filters, states reached under any schedule", "why_tests_cant": "A race that writes the same value twice never shows in results on common machines, but is undefined behaviour.", "anchors": ["include/RBLMBFilter.hpp:548 updateMap", "include/RBCBMeMBerFilter.hpp:544 updateMap"]}
{"id": "C224", "title": "CB-MeMBer and LMB filters can be run by more threads than existed at construction", "statement": "update works for any number of OpenMP threads, also when omp_set_num_threads has raised the number after the filter was constructed.", "quantifier": "all numbers of threads at construction and at the call", "why_tests_cant": "Tests use one setting of the number of threads per process.", "anchors": ["include/RBLMBFilter.hpp:335-367 RBLMBFilter", "include/RBLMBFilter.hpp:443-447 update", "include/RBCBMeMBerFilter.hpp:336-366 RBCBMeMBerFilter"]}
{"id": "C225", "title": "A timer reports the time during which it ran", "statement": "Whatever sequence of start, stop and resume calls is made on the timers and whatever time passes in between, elapsed reports exactly the time that passed while the timer was running since it was last started afresh; a resume of a running timer and a stop of a stopped one change nothing; a new timer is stopped and reports the time its constructor took.", "quantifier": "all sequences of calls and durations", "why_tests_cant": "A test can only sleep and compare with a tolerance, for a few sequences.", "anchors": ["src/Timer.cpp:39-66", "include/Timer.hpp:45-79"]}
{"id": "C226", "title": "The printed total time of a random finite set filter is at most the time that passed", "statement": "For the RB-PHD, LMB and CB-MeMBer programs: in every run, the line Total grows by no more than the time that passes, and all timers are stopped between calls of the filter so that it does not matter when the line is printed.", "quantifier": "all runs, durations, filters and numbers of threads", "why_tests_cant": "Timings are not reproducible and no test compares the sum of the printed lines with the clock.", "anchors": ["include/RBPHDFilter.hpp:446-735", "include/RBPHDSLAM_2D.hpp:879-893", "include/RBLMBFilter.hpp:428-885", "include/RBCBMeMBerFilter.hpp:428-650"]}
{"id": "C227", "title": "The printed total time of FastSLAM covers the map update", "statement": "For the FastSLAM programs: in every run the line Total grows by the time spent in prediction, map update and resampling.", "quantifier": "all runs, durations and builds with or without OpenMP", "why_tests_cant": "Timings are not reproducible, and a build without OpenMP behaves differently from the default one.", "anchors": ["include/FastSLAM.hpp:366-730", "src/fastslam2dSim.cpp:665-679", "src/fastslam_VictoriaPark.cpp:681-695"]}
{"id": "C228", "title": "Systematic resampling in doubles never reads past the last particle", "statement": "Called with non-negative weights of which at least one is positive, resampling selects only existing particles, for every value that the random number generator can return, in the double arithmetic that the program uses.", "quantifier": "all numbers of particles, all non-negative weights not all zero, all random numbers in [0,1), IEEE double rounding", "why_tests_cant": "The sum of the rounded weights falls below the last rounded sample point only for about one in 10^13 random numbers; an out of bounds read may go unnoticed.", "anchors": ["include/ParticleFilter.hpp:360-371", "include/ParticleFilter.hpp:407-455"]}
{"id": "C229", "title": "Resampling does not drop particles because all weights are zero", "statement": "When all weights have become zero (for example because every likelihood underflowed), resampling favours no particle: it does not replace the whole set by copies of one particle.", "quantifier": "all particle sets, thresholds, requested numbers and random numbers", "why_tests_cant": "Tests use weights that can be normalised; the division of zero by zero raises no error.", "anchors": ["include/ParticleFilter.hpp:360-371", "include/ParticleFilter.hpp:407-500"]}
{"id": "C230", "title": "A time stamp made from seconds has the time given", "statement": "TimeStamp(t) and setTime(t), called with the double nearest to a non-negative time with a whole number of nanoseconds, give that number of nanoseconds.", "quantifier": "all non-negative times in whole nanoseconds, IEEE double rounding", "why_tests_cant": "Tests try a few convenient values; which decimal values are truncated one nanosecond too low is not apparent.", "anchors": ["src/TimeStamp.cpp:46-48", "src/TimeStamp.cpp:57-65"]}
{"id": "C231", "title": "Converting a time stamp to a double and back keeps it", "statement": "A normalised time stamp converted by getTimeAsDouble and back by setTime is the same time stamp.", "quantifier": "all normalised time stamps with non-negative seconds, IEEE double rounding", "why_tests_cant": "There are 2^31 times 10^9 time stamps.", "anchors": ["src/TimeStamp.cpp:52-65"]}
{"id": "C232", "title": "The loops that bring an angle into [-PI, PI] end", "statement": "For every finite double, the two loops that subtract and add 2*PI end and leave an angle in [-PI, PI].", "quantifier": "all finite doubles, IEEE double rounding", "why_tests_cant": "Tests use small angles; a loop that does not end looks like a slow test.", "anchors": ["src/MeasurementModel_RngBrg.cpp:91-92", "src/MeasurementModel_RngBrg_amplitude.cpp:91-92", "src/KalmanFilter.cpp:34-37", "src/KalmanFilter_RngBrg_amplitude.cpp:58-61", "include/KalmanFilter_VictoriaPark.hpp:60-65"]}
{"id": "C233", "title": "The Hungarian method finds a best assignment in doubles", "statement": "For every matrix of finite doubles and both directions HungarianMethod::run returns true with a permutation whose total no other permutation beats by more than n times 1e-12, computed in doubles.", "quantifier": "all sizes, all matrices of doubles, both directions, IEEE double rounding", "why_tests_cant": "Tests use matrices of small numbers; whether the labels drift apart by more than the tolerance depends on the digits of the entries.", "anchors": ["include/HungarianMethod.hpp:90-589"]}
{"id": "C234", "title": "The Hungarian method leaves the caller's matrix as it was, in doubles", "statement": "When HungarianMethod::run returns true, every entry of the caller's matrix has the value it had before the call, and the reported cost is the sum in doubles of the selected entries.", "quantifier": "all sizes, all matrices of doubles, both directions, IEEE double rounding", "why_tests_cant": "The change is in the last digits and depends on the smallest entry of the matrix.", "anchors": ["include/HungarianMethod.hpp:122-150", "include/HungarianMethod.hpp:241-268"]}
{"id": "C235", "title": "The first assignment that Murty's algorithm returns is a best one, in doubles", "statement": "The first call of Murty::findNextBest, computed in doubles, hands out a permutation of greatest total score (up to the tolerance) and its score; in particular it hands out values that were computed, for the matrices that the likelihood functions of the filters build.", "quantifier": "all sizes, all matrices of doubles, every rounding to nearest", "why_tests_cant": "A call fails only for matrices of at least nine rows in the range of values of the filters, in which rounding errors of a few units in the last place add up in a particular order; a test does not hit one by chance, and the unwritten score is often a plausible number left on the stack.", "anchors": ["src/MurtyAlgorithm.cpp: Murty::findNextBest (lines 143-160, 292)", "include/HungarianMethod.hpp: run (lines 516-523)", "include/RBPHDFilter.hpp: rfsMeasurementLikelihood (lines 905-965)"]}
{"id": "C236", "title": "Later calls of findNextBest never fail in doubles", "statement": "With the default bigNum 10000 and a cost matrix of doubles between -1000 and 1999, once the first call of Murty::findNextBest has returned an assignment, every later call returns -1, or the next count with a permutation whose score differs from its total in the caller's matrix by at most (n+1)^2 * 2e-12. This holds in double arithmetic, with any real-assignment block and any order of equal scores in the priority queue: the return value of the Hungarian method, which the function ignores, is never false after the first call.", "quantifier": "every matrix size below 2^52, every matrix of doubles in the range, every block, every implementation of the priority queue, every rounding to nearest, every number of calls", "why_tests_cant": "Rounding errors of the solver depend on all entries at once; the first call does fail for some matrices (C235), and the reduced matrices of later calls can only be sampled.", "anchors": ["src/MurtyAlgorithm.cpp: Murty::findNextBest (lines 160-336)", "include/HungarianMethod.hpp: run"]}
{"id": "C237", "title": "findNextBest enumerates all assignments in doubles", "statement": "Without a real-assignment block, for a matrix of doubles between lo and hi (within -1000 and 1999) with n * (hi - lo + 1e-10) < 10000 + hi, once the first call of Murty::findNextBest has returned: successive calls return every permutation exactly once and then -1 for ever. The first is what the first call returned; from the second on nothing that comes later is better by more than n * 7e-12 + (n+1)^2 * 1e-12. Each score is the total of its permutation up to (n+1)^2 * 2e-12.", "quantifier": "every size below 2^52, every matrix of doubles in the range, every implementation of the priority queue, every rounding to nearest", "why_tests_cant": "There are n! results; that rounding neither loses, repeats nor reorders one of them beyond the tolerance cannot be observed for all matrices.", "anchors": ["src/MurtyAlgorithm.cpp: Murty::findNextBest", "include/HungarianMethod.hpp: run"]}
{"id": "C238", "title": "An RB-PHD map update hands over every landmark it allocates", "statement": "Every landmark that RBPHDFilter::updateMap allocates for its table is given to the map of the particle, so that no landmark is lost when the table is used for the next particle or the next scan.", "quantifier": "all models without negative values, all configurations, measurements, maps, tables left by earlier updates, all sequences of updates", "why_tests_cant": "memory that is never freed changes no output; the case needs Gaussians of weight zero that are not pruned", "anchors": ["include/RBPHDFilter.hpp:598-642 updateMap", "include/RBPHDFilter.hpp:677-685"]}
{"id": "C239", "title": "The RB-PHD filter can be run by more threads than existed at construction", "statement": "RBPHDFilter::update works for any number of OpenMP threads, also when omp_set_num_threads has raised the number after the filter was constructed.", "quantifier": "all numbers of threads at construction and at the call, all divisions of the particles among the threads, all interleavings", "why_tests_cant": "the access is outside a std::vector and need not be noticed; tests run with the number of threads they start with", "anchors": ["include/RBPHDFilter.hpp:350-395 RBPHDFilter", "include/RBPHDFilter.hpp:470-479 update", "include/RBPHDFilter.hpp:550-586 updateMap"]}
{"id": "C240", "title": "The display is drawn only while nothing changes it", "statement": "The display thread of Visualizer6D handles events and draws only while the simulation is not inside Visualizer6D::update, and display_mutex_ is unlocked only by the thread that owns it.", "quantifier": "all interleavings of the two threads, any number of calls of update, timer events and closing at any time", "why_tests_cant": "a wrong interleaving shows up rarely and only as a damaged picture or a crash inside VTK", "anchors": ["src/Visualizer6D.cpp:258-282 run, pause", "src/Visualizer6D.cpp:284-392 update", "include/Visualizer6D.hpp:108 display_mutex_"]}
{"id": "C241", "title": "Closing the visualizer window does not stop the simulation", "statement": "Whenever the user ends the interaction with the window of Visualizer6D, the simulation can still complete all its calls of update.", "quantifier": "all interleavings of the two threads, all times at which the interaction is ended", "why_tests_cant": "tests have no window and no user", "anchors": ["src/Visualizer6D.cpp:258-276 run", "src/Visualizer6D.cpp:277-282 pause", "src/Visualizer6D.cpp:287 lock in update", "src/rbphdslam6dSim.cpp:642-759 run"]}
{"id": "C242", "title": "The visualizer shows the heaviest particle's map of an RB-PHD filter", "statement": "After every call of Visualizer6D::update for an RB-PHD filter the display has one red point per particle at its position, one grey point for every Gaussian with weight above 0.5 in the map of the (first) heaviest particle and for no other, and a line from the pose of that particle to the location of every measurement.", "quantifier": "all sequences of calls after setup (no more than the true trajectory has poses), all filters with at least one particle and no negative weights, maps and measurements of any size", "why_tests_cant": "the arrays are reused and resized between calls of different sizes; a picture is not compared by a test", "anchors": ["src/Visualizer6D.cpp:284-330 update", "src/Visualizer6D.cpp:365-392 update"]}
{"id": "C243", "title": "The visualizer shows the tracks of an RB-LMB filter", "statement": "After every call of Visualizer6D::update for an RB-LMB filter the display has a point at the heaviest Gaussian of every track with existence probability above 0.1 of the heaviest particle.", "quantifier": "all sequences of calls after setup, all filters with at least one particle and no negative weights", "why_tests_cant": "needs maps with removed Gaussians or tracks without Gaussians", "anchors": ["src/Visualizer6D.cpp:393-446 update", "include/GMBernoulliComponent.hpp:155-168 getMaxGaussian"]}
{"id": "C244", "title": "The visualizer draws the trajectories of all calls", "statement": "Visualizer6D::update can be called as often as the true trajectory given to setup has poses, and no more often; after k calls the line drawn for the estimate passes through the positions of the heaviest particles of the k calls in order, and the lines drawn for truth and dead reckoning pass through their first k poses. A run of rbphdslam6dSim stays within the range.", "quantifier": "all true and dead-reckoning trajectories, all numbers of calls, all filters with at least one particle and no negative weights", "why_tests_cant": "writing past the points of a vtkPoints object is not checked and depends on the length of the run", "anchors": ["src/Visualizer6D.cpp:104-170 setup", "src/Visualizer6D.cpp:332-363 update", "src/rbphdslam6dSim.cpp:585-590", "src/rbphdslam6dSim.cpp:642-759 run"]}
{"id": "C245", "title": "A filter without errors is drawn on the true trajectory", "statement": "In a run of rbphdslam6dSim whose heaviest particle is at the true pose in every step, the line drawn for the estimate is the line drawn for the truth.", "quantifier": "all true trajectories, all runs", "why_tests_cant": "needs the exact pieces of the lines that are drawn; a difference of one step is hardly visible", "anchors": ["src/Visualizer6D.cpp:332-363 update", "src/rbphdslam6dSim.cpp:642-759 run"]}
{"id": "C246", "title": "FastSLAM can be run by more threads than existed at construction", "statement": "FastSLAM::update works for any number of OpenMP threads, also when omp_set_num_threads has raised the number after the filter was constructed.", "quantifier": "all numbers of threads at construction and at the call, all divisions of the particles among the threads, all interleavings, all filters and scans", "why_tests_cant": "the access is outside a std::vector and need not be noticed; tests run with the number of threads they start with", "anchors": ["include/FastSLAM.hpp:312-322 FastSLAM", "include/FastSLAM.hpp:407-424 update", "include/FastSLAM.hpp:437-440 updateMap", "include/FastSLAM.hpp:604-607 updateMap"]}
{"id": "C247", "title": "ospaErrorFromFile prints the error of the points in the files", "statement": "For any two files that list points in the plane, not both none, ospaErrorFromFile prints the OSPA error (order 1, cutoff 1) of the two sets of points, up to the tolerance of the solver.", "quantifier": "all lists of points, files with and without white space after the last number", "why_tests_cant": "whether the last point counts depends on the last character of the file, which test files made by one tool share", "anchors": ["src/examples/ospaErrorFromFile.cpp:57-88 main", "src/examples/ospaErrorFromFile.cpp:180-182 main", "include/OSPA.hpp:125-204"]}
{"id": "C248", "title": "FastSLAM updates have no data race", "statement": "During FastSLAM::update no two threads access the same particle, list of landmark candidates, counter, Kalman filter, measurement or particle array at the same time with one of them writing it, unless both are in the critical section; the result is the one of taking the particles one after the other.", "quantifier": "all filters, scans, numbers of hypotheses, divisions of the particles among threads and interleavings of the steps of updateMap", "why_tests_cant": "Races depend on the schedule; a test sees few interleavings, and a race can stay without visible effect.", "anchors": ["include/FastSLAM.hpp:415-424 update", "include/FastSLAM.hpp:435-736 updateMap", "include/FastSLAM.hpp:445-448, 558-571 critical(increaseParticles)"]}
{"id": "C249", "title": "The initial trajectory of the batch optimiser is a dead reckoning with the inputs", "statement": "After `RFSCeresSLAM::init` the trajectory has one pose more than there are inputs. The first pose is the origin at time zero. Every further pose k+1 is what the motion model gives from pose k and input k over the time from pose k to the input (with additive noise, the sample drawn around that), has covariance zero, and carries the time of input k. This also holds for a repeated initialisation, whatever the poses after the first were. It holds for planar odometry, the Ackerman model and every other motion model that keeps the time; for odometry on a line the times of all poses stay zero. Without noise covariance set, the first sample reads memory that was never written.", "quantifier": "for all motion models that keep the time, process noises, random draws, lists of inputs of any length with proper non-negative times, and earlier trajectories that begin at the origin", "why_tests_cant": "the number of inputs, their times and the random draws are unbounded; the wrong times of the 1-D model change no pose and no likelihood, so a run looks right", "anchors": ["include/RFSCeresSLAM.hpp:342-377", "include/ProcessModel.hpp:125-153", "src/ProcessModel_Odometry1D.cpp:37-60"]}
{"id": "C250", "title": "Copying a particle keeps its state and gives the copies their places as ids", "statement": "`copyParticle(idx, n, w)` appends n particles with the state and parent of particle idx; they and particle idx have the weight w afterwards, or the weight that particle idx had if w is negative; the id of a copy is its place in the set; no other particle changes. If every id was the place of its particle before, this still holds, so that ids stay distinct. An index outside of the set reads memory outside of it.", "quantifier": "for all particle sets, indices, numbers of copies and weights", "why_tests_cant": "set size, number of copies and weights are unbounded; FastSLAM with several hypotheses relies on it in every update", "anchors": ["include/ParticleFilter.hpp:278-301", "include/FastSLAM.hpp:562"]}
{"id": "C251", "title": "The exported spatial index lists every stored datum once, under the boxes that contain it", "statement": "After any sequence of additions and removals, exportASCII of the spatial index ends and writes a file in which (a) the first line is the root box, a cube around the origin, (b) every BOX line is followed either by the PT lines of its data, all inside the closed box, or by the listings of its 2^d halves in the order of their numbers, (c) the number on a BOX line is the number of PT lines below it, and (d) the positions on the PT lines are those of the data added and not removed, each as often as stored (before rounding to three digits).", "quantifier": "all dimensions, positive minimal box sizes, data positions and histories of addData/removeData", "why_tests_cant": "A test can compare one exported file; that the counters printed agree with the points for every history, including after the root has grown and boxes have been merged, cannot be tested.", "anchors": ["include/SpatialIndexTree.hpp:531-583", "include/SpatialIndexBox.hpp:190-252"]}
{"id": "C252", "title": "The joint Mahalanobis distance of a JCBB hypothesis is that of its pairings", "statement": "In the joint-compatibility search, the distance by which every hypothesis is gated and ranked is d\u00b2\u1d40 = \u03bd\u1d40 C\u207b\u00b9 \u03bd, where \u03bd stacks the innovations of the hypothesis' pairings and C is their joint covariance (predicted-measurement covariances on the diagonal plus measurement noise, cross-covariances caused by the common pose off the diagonal), and the gate's degrees of freedom are the number of stacked components.", "quantifier": "all numbers and dimensions of measurements and landmarks, Jacobians, pose and landmark covariances (block or dense), and hypotheses reached by the search", "why_tests_cant": "The search computes the distance incrementally by block inversion; a test compares a few hypotheses with single pairings or a certain pose, for which the recursion agrees with the direct formula, while the error with several pairings and an uncertain pose only shifts the ranking.", "anchors": ["include/JCBB.hpp:381-483", "include/JCBB.hpp:355-368"]}
{"id": "C253", "title": "The likelihood of one scan in the batch optimiser is that of the measurement model, and its gradient the derivative", "statement": "RFSCeresSLAM::rfsMeasurementLikelihood(k, pose_gradient, landmark_gradient) returns the sum over all one-to-one associations of the product of detection likelihoods, missed-detection probabilities and clutter intensities, with the detection probabilities of the measurement model and respecting known associations, divided by the integral of the clutter intensity; the gradients it returns are the derivatives of the logarithm of that likelihood, and computing them never reads a gradient that was not stored.", "quantifier": "all numbers of landmarks and measurements, likelihoods, detection probabilities, known associations, and values of thresholds", "why_tests_cant": "The method is an overload that none of the programs calls; a test with likelihoods near 1 and detection probability 0.9 agrees, and other values change value and gradient by smooth factors that no single test separates from rounding and thresholding.", "anchors": ["include/RFSCeresSLAM.hpp:560-866"]}
{"id": "C254", "title": "A prediction moves every landmark of every particle exactly once", "statement": "predict(u, dT) of the RB-PHD filter, the CB-MeMBer filter, the LMB filter and FastSLAM applies the landmark process model (staticStep) exactly once to every Gaussian of every particle's map, including those born at the start of the same call, and changes nothing else in the map: number and order of tracks and Gaussians, existence probabilities and weights stay. Births come first, one track per unused measurement, seen from the pose before the motion; particles keep identity and weight.", "quantifier": "all particle sets, maps, lists of unused measurements, poses, motions and landmark process models; for the multi-Bernoulli filters also all runs from the constructor", "why_tests_cant": "The loops run over counters stored in the mixtures, which could differ from the vectors behind them in some run; with the usual static model without noise (identity) a skipped or doubled step does not show.", "anchors": ["include/RBCBMeMBerFilter.hpp:280-332", "include/RBLMBFilter.hpp:276-330", "include/RBPHDFilter.hpp:416-443", "include/FastSLAM.hpp:367-391"]}
{"id": "C255", "title": "Every random decision of the PSO map update has a number of its own", "statement": "In RFSPSOSLAM::updateLandmarkVelocity every random decision uses its own drand48() value, taken in a fixed order: for each landmark first its removal (0.05 if its match in the particle's best map is nearer than the cutoff, card_phi_p if there is no match), then one value for each component of the pull towards that match, then one for each component of the pull towards the match in the neighbourhood's best map or, without such a match, one for the removal with card_phi_g. After the last landmark follow one value for each unmatched landmark of the two best maps. No value decides two things.", "quantifier": "for all maps, best maps, matchings, distances, dimensions, coefficients and streams of random numbers", "why_tests_cant": "The stream of drand48 is not observable in a test and a value used twice only correlates decisions", "anchors": ["include/RFSPSOSLAM.hpp: updateLandmarkVelocity, lines 504-608"]}
{"id": "C256", "title": "Data that share a box of the spatial index are closer than the smallest box", "statement": "After any sequence of addData and removeData, all data stored in one box without children of SpatialIndexTree lie in the same cell of the grid of cubes of edge minBoxSize, however large the box is; and a datum added to the cell of a stored one joins it in its box without a split.", "quantifier": "for all dimensions, box sizes, data and sequences of operations (exact arithmetic)", "why_tests_cant": "The shape of the tree depends on the whole history and is not visible through the queries", "anchors": ["include/SpatialIndexTree.hpp: addData, lines 200-244", "include/SpatialIndexTree.hpp: removeData, lines 252-310"]}
{"id": "C257", "title": "The swarm moves and starts as the random numbers say", "statement": "RFSPSOSLAM::init and moveParticles: (a) every component of every pose of a particle gets the velocity w*v + phi_p*s*(best - x) + phi_g*s'*(best of the attracting particle - x), the last term only if another particle attracts it, with s, s' the means (10*r + r')/11 of a number common to the pose and one of the component, and the pose is moved by it; (b) all particles are moved from the state before the call; (c) the first map of a particle has a landmark for every measurement whose number is below mapFromMeasurementProb, in the order of the measurements; (d) a drawn topology has particle i inform the particles floor(r*n) of its K numbers. Every drand48() value is used once, in this order.", "quantifier": "for all swarms, dimensions, trajectory lengths, configurations, models and streams of random numbers", "why_tests_cant": "The numbers are not observable; a swarm converges more or less well with a wrong pull", "anchors": ["include/RFSPSOSLAM.hpp: moveParticles, lines 362-430", "include/RFSPSOSLAM.hpp: initTrajectories, initMaps, updateTopology"]}
{"id": "C258", "title": "Every random number of a simulator has one use", "statement": "The simulators read one stream of uniform numbers and each number decides exactly one thing. Trajectory in the plane: the vehicle stands still up to step 50; afterwards each segment has one displacement, of which the first number that is fast enough gives the speed ahead and the next two the other components, spread over the configured intervals; the next segment goes on from there. In space each segment uses seven numbers. The segment of a step is the one that has begun by then: at most one begins in a step and segment j not before j times the segment length. Measurements: one number for each landmark that can be seen, in the order of the landmarks, which detects it if it is at most the probability of detection; the next number gives how many false alarms there are; then each false alarm takes numbers until one is acceptable. Landmarks in space take numbers in threes until a point is near enough. The places are determined by the stream, and no number is used twice.", "quantifier": "all settings, streams, numbers of steps, landmarks, samples and positions in the stream", "why_tests_cant": "A test with one seed records one outcome of the stream and cannot tell whether a number is used twice, skipped or spread over the wrong interval; with rejection the places depend on every number before.", "anchors": ["include/RBPHDSLAM_2D.hpp:353-375", "include/RBPHDSLAM_2D.hpp:512-558", "src/rbphdslam6dSim.cpp:216-250", "src/rbphdslam6dSim.cpp:325-341", "src/rbphdslam6dSim.cpp:389-428"]}
{"id": "C259", "title": "When, from where and with which numbers landmarks are created", "statement": "In the plane and in space landmark i is created in step max(i + 1, i * (kMax / nLandmarks)) with integer division, for as long as that step is in the run. In the 1-D programs it is created in the first step that is not before the fraction i / nLandmarks of the run and not before step i; with descriptors the fraction is rounded down. In the plane the landmark is seen from the pose of that step at the range and bearing given by the numbers 2 i and 2 i + 1 of the stream; in one dimension it lies ahead of that pose by the part of the greatest range that number i gives. A trajectory with a pose for every step is never read outside.", "quantifier": "all numbers of steps and landmarks, poses, ranges, streams and positions in the stream", "why_tests_cant": "The steps are the outcome of a loop with an integer or rational test that is met or missed by one step for particular quotients only; tests with one configuration see one of them.", "anchors": ["include/RBPHDSLAM_2D.hpp:429-467", "src/rfsceresslam1dSim.cpp:251-284", "src/rfspsoorbslam1dSim.cpp:233-264"]}

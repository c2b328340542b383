{
 "claims": [
  {
   "property": "C01",
   "status": "proved",
   "theorems": [
    "RFS.TimeStampProps.C01_always_normalised",
    "RFS.TimeStampProps.C01_history_exact",
    "RFS.TimeStampProps.C01_overflow_only_in_seconds",
    "RFS.TimeStampProps.C01_overflow_is_gross"
   ],
   "note": "all histories of operations; seconds overflow is an explicit outcome and the only failure"
  },
  {
   "property": "C02",
   "status": "proved",
   "theorems": [
    "RFS.TimeStampProps.C02_comparisons",
    "RFS.TimeStampProps.C02_total_order"
   ],
   "note": ""
  },
  {
   "property": "C03",
   "status": "proved",
   "theorems": [
    "RFS.TimeStampProps.C03_add_sub_cancel",
    "RFS.TimeStampProps.C03_add_comm",
    "RFS.TimeStampProps.C03_add_assoc",
    "RFS.TimeStampProps.C03_assign_ops"
   ],
   "note": ""
  },
  {
   "property": "C04",
   "status": "proved",
   "theorems": [
    "RFS.PermLexProps.C04_enumeration",
    "RFS.PermLexProps.C04_default_clutter",
    "RFS.PermLexProps.C04_empty_is_ub"
   ],
   "note": "return value as unsigned int; the empty object is UB (C04_empty_is_ub)"
  },
  {
   "property": "C05",
   "status": "proved",
   "theorems": [
    "RFS.PermLexProps.C05_square",
    "RFS.PermLexProps.C05_counter_wraps"
   ],
   "note": "the 32-bit counter returns the end marker 0 at call 2^32 (C05_counter_wraps)"
  },
  {
   "property": "C06",
   "status": "proved",
   "theorems": [
    "RFS.HungarianProps.C06_terminates_valid"
   ],
   "note": "exact arithmetic; termination bound n(n+1)+1 passes"
  },
  {
   "property": "C07",
   "status": "proved",
   "theorems": [
    "RFS.HungarianProps.C07_maximise_optimal",
    "RFS.HungarianProps.C07_minimise_optimal",
    "RFS.HungarianProps.C07_grid_exact",
    "RFS.HungarianProps.C07_tolerance_needed"
   ],
   "note": "optimal up to n*1e-12 (tolerance of the code, shown necessary); exact on grids"
  },
  {
   "property": "C08",
   "status": "partial",
   "theorems": [
    "RFS.CostMatrixReduceProps.C08_flag_partial",
    "RFS.CostMatrixReduceProps.C08_reports_failure_on_success"
   ],
   "note": "the code violates the full statement (witness C08_reports_failure_on_success); proved when nothing is left over or no reduction was made"
  },
  {
   "property": "C09",
   "status": "proved",
   "theorems": [
    "RFS.CostMatrixReduceProps.C09_reduce_partitions",
    "RFS.CostMatrixReduceProps.C09_reduce_keeps_optimum",
    "RFS.CostMatrixReduceProps.C09_run_reduced"
   ],
   "note": ""
  },
  {
   "property": "C10",
   "status": "partial",
   "theorems": [
    "RFS.CostMatrixReduceProps.C10_first_reduce_partial",
    "RFS.CostMatrixReduceProps.C10_second_reduce_duplicates"
   ],
   "note": "the code violates the full statement (witness C10_second_reduce_duplicates); proved for the first call"
  },
  {
   "property": "C11",
   "status": "proved",
   "theorems": [
    "RFS.PartitionProps.C11_block_decomposition",
    "RFS.PartitionProps.C11_repeat"
   ],
   "note": "for every component numbering allowed by the contract of boost::connected_components"
  },
  {
   "property": "C12",
   "status": "proved",
   "theorems": [
    "RFS.PartitionProps.C12_zero_partition"
   ],
   "note": ""
  },
  {
   "property": "C13",
   "status": "proved",
   "theorems": [
    "RFS.MurtyProps.C13_C14_enumeration",
    "RFS.MurtyProps.C13_ordered_distinct",
    "RFS.MurtyProps.C13_best_of_rest"
   ],
   "note": "for every tie-breaking of the priority queue; entries bounded relative to the big number; order up to n*1e-12"
  },
  {
   "property": "C14",
   "status": "proved",
   "theorems": [
    "RFS.MurtyProps.C14_exhaustive"
   ],
   "note": "same hypotheses as C13"
  },
  {
   "property": "C15",
   "status": "partial",
   "theorems": [
    "RFS.MurtyProps.C15_violated",
    "RFS.MurtyProps.C15_whole_block_partial",
    "RFS.MurtyBlockProps.C15_extended_partial"
   ],
   "note": "the code violates the full statement (witness C15_violated); proved when the block is the whole matrix, and for the extended matrices of the filters for all results above the floor (C15_extended_partial)"
  },
  {
   "property": "C16",
   "status": "partial",
   "theorems": [
    "RFS.BruteForceProps.C16_max_partial",
    "RFS.BruteForceProps.C16_min_rows_partial",
    "RFS.BruteForceProps.C16_min_order_violated",
    "RFS.BruteForceProps.C16_min_matrix_violated"
   ],
   "note": "the code violates the full statement for maxToMin=false (order reversed, caller matrix changed); full claim proved for maxToMin=true, and the set of rows with scores for both"
  },
  {
   "property": "C17",
   "status": "proved",
   "theorems": [
    "RFS.MatPermProps.C17_permanent",
    "RFS.MatPermProps.C17_calc",
    "RFS.MatPermProps.C17_empty"
   ],
   "note": "loop counter overflow from n = 32 on is an explicit outcome"
  },
  {
   "property": "C18",
   "status": "proved",
   "theorems": [
    "RFS.OSPAProps.C18_order1",
    "RFS.OSPAProps.C18_both_empty_nan"
   ],
   "note": "optimal up to n*1e-12; both sets empty gives 0/0 (C18_both_empty_nan)"
  },
  {
   "property": "C19",
   "status": "partial",
   "theorems": [
    "RFS.OSPAProps.C19_orderp_partial",
    "RFS.OSPAProps.C19_violated"
   ],
   "note": "the code violates the full statement (witness C19_violated: it minimises the plain sum); proved: value is the order-p mean of a pairing optimal for order 1"
  },
  {
   "property": "C20",
   "status": "proved",
   "theorems": [
    "RFS.OSPAProps.C20_one_to_one"
   ],
   "note": ""
  },
  {
   "property": "C21",
   "status": "proved",
   "theorems": [
    "RFS.OSPAProps.C21_cola",
    "RFS.OSPAProps.C21_order1"
   ],
   "note": ""
  },
  {
   "property": "C22",
   "status": "proved",
   "theorems": [
    "RFS.GMHeapProps.C22_count_in_memory",
    "RFS.GMProps.C22_count",
    "RFS.GMProps.C22_setWeight"
   ],
   "note": "all histories at value level; also for every program at memory level (several mixtures on one heap)"
  },
  {
   "property": "C23",
   "status": "proved",
   "theorems": [
    "RFS.GMBProps.C23_tracks",
    "RFS.GMProps.C23_merge_moments"
   ],
   "note": "for every distance function; also merges nothing iff no pair is mergeable"
  },
  {
   "property": "C24",
   "status": "proved",
   "theorems": [
    "RFS.GMBProps.C24_tracks",
    "RFS.GMProps.C24_prune"
   ],
   "note": "removed entries must be below the threshold (they have weight 0); for every sort meeting the contract"
  },
  {
   "property": "C25",
   "status": "partial",
   "theorems": [
    "RFS.GMProps.C25_violated",
    "RFS.GMProps.C25_no_holes_partial"
   ],
   "note": "the code violates the full statement (witness C25_violated); proved when there are no removed entries"
  },
  {
   "property": "C26",
   "status": "partial",
   "theorems": [
    "RFS.GMHeapProps.C26_independent_partial",
    "RFS.GMHeapProps.C26_copy_equal_partial",
    "RFS.GMHeapProps.C26_copy_ctor_violated",
    "RFS.GMHeapProps.C26_self_copy_violated"
   ],
   "note": "the code violates the full statement (copy constructor with removed entries, self copy); independence of all other histories and equality of the copy proved"
  },
  {
   "property": "C27",
   "status": "partial",
   "theorems": [
    "RFS.GMBProps.C27_kept_tracks_partial",
    "RFS.GMBProps.C27_violated"
   ],
   "note": "the code violates the full statement (self copy reads freed memory when the last track is pruned, witness C27_violated); the kept multiset is proved whatever that leaves behind"
  },
  {
   "property": "C28",
   "status": "partial",
   "theorems": [
    "RFS.GMBProps.C28_violated",
    "RFS.GMBProps.C28_no_holes_partial"
   ],
   "note": "the code violates the full statement (witness C28_violated); proved without removed entries and with a positive weight"
  },
  {
   "property": "C29",
   "status": "partial",
   "theorems": [
    "RFS.PFProps.C29_in_range",
    "RFS.PFProps.C29_systematic_sampling_partial",
    "RFS.PFProps.C29_violated"
   ],
   "note": "the code violates the full statement at offset exactly 0 (witness C29_violated); floor/ceil proved for every offset in (0,1), range safety for [0,1)"
  },
  {
   "property": "C30",
   "status": "proved",
   "theorems": [
    "RFS.PFProps.C30_resample"
   ],
   "note": ""
  },
  {
   "property": "C31",
   "status": "proved",
   "theorems": [
    "RFS.PFProps.C31_normalize",
    "RFS.PFProps.C31_no_resample"
   ],
   "note": ""
  },
  {
   "property": "C32",
   "status": "partial",
   "theorems": [
    "RFS.PFProps.C32_propagate_serial_partial",
    "RFS.PFProps.C32_violated"
   ],
   "note": "the code violates the full statement (shared temporaries in the parallel loop, witness C32_violated); proved when iterations do not overlap"
  },
  {
   "property": "C33",
   "status": "partial",
   "theorems": [
    "RFS.PFProps.C33_parent_is_source_index_partial",
    "RFS.PFProps.C33_violated"
   ],
   "note": "the code violates the full statement from the second resampling on (witness C33_violated); proved for the first one"
  },
  {
   "property": "C34",
   "status": "partial",
   "theorems": [
    "RFS.PFProps.C34_ids_distinct_partial",
    "RFS.PFProps.C34_violated"
   ],
   "note": "the code violates the full statement (witness C34_violated); proved without a second addParticles"
  },
  {
   "property": "C35",
   "status": "proved",
   "theorems": [
    "RFS.SITProps.C35_stored",
    "RFS.SITProps.C35_add_total"
   ],
   "note": "for all histories of addData and removeData; also that the growth loop ends"
  },
  {
   "property": "C36",
   "status": "partial",
   "theorems": [
    "RFS.SITProps.C36_box_query_partial",
    "RFS.SITProps.C36_violated"
   ],
   "note": "the code violates the full statement for points on the faces of the query box (witness C36_violated); soundness and completeness for interior points proved"
  },
  {
   "property": "C37",
   "status": "proved",
   "theorems": [
    "RFS.SITProps.C37_nearest",
    "RFS.SITProps.C37_empty_undefined"
   ],
   "note": "for every query point, also outside the root box; an empty index is undefined (C37_empty_undefined)"
  },
  {
   "property": "C38",
   "status": "partial",
   "theorems": [
    "RFS.SITProps.C38_remove_partial",
    "RFS.SITProps.C38_remove_exact",
    "RFS.SITProps.C38_violated",
    "RFS.SITProps.C38_outside_undefined"
   ],
   "note": "the code violates the full statement (witness C38_violated, and a NULL dereference outside the root box); proved for points off the box grid, and exactness in all cases"
  },
  {
   "property": "C39",
   "status": "partial",
   "theorems": [
    "RFS.JCBBProps.C39_one_to_one_partial",
    "RFS.JCBBProps.C39_terminates",
    "RFS.JCBBProps.C39_violated",
    "RFS.JCBBProps.C39_null"
   ],
   "note": "the code violates the full statement (witness C39_violated: the landmark of the first measurement is used twice; C39_null: null dereference when nothing gates); proved for all measurements but the first, plus termination"
  },
  {
   "property": "C40",
   "status": "partial",
   "theorems": [
    "RFS.RandomVecProps.C40_current_partial",
    "RFS.RandomVecProps.C40_likelihood_partial",
    "RFS.RandomVecProps.C40_after_setCov_partial",
    "RFS.RandomVecProps.C40_violated_assign",
    "RFS.RandomVecProps.C40_violated_det"
   ],
   "note": "the code violates the full statement for likelihoods after an assignment or getCovDet (witnesses); everything else proved for all call histories"
  },
  {
   "property": "C41",
   "status": "proved",
   "theorems": [
    "RFS.ORBProps.C41_zero",
    "RFS.ORBProps.C41_symm",
    "RFS.ORBProps.C41_triangle",
    "RFS.ORBProps.C41_bound",
    "RFS.ORBProps.C41_attained",
    "RFS.ORBProps.C41_sample"
   ],
   "note": ""
  },
  {
   "property": "C42",
   "status": "partial",
   "theorems": [
    "RFS.RFSLikProps.C42_value_partial",
    "RFS.RFSLikProps.C42_likelihood_partial",
    "RFS.RFSLikProps.C42_exact_partial",
    "RFS.RFSLikProps.C42_blocks_partial",
    "RFS.RFSLikProps.C42_violated"
   ],
   "note": "exact (up to the e^-1000 floor) for partitions of at most 8 members with every landmark in reach of a measurement; partitions of any size with the code of the Murty branch: factor by factor, the sum of the 200 best associations (C42_blocks_partial); the code violates the statement for landmarks out of reach of all measurements (C42_violated) and drops associations beyond the 200 best"
  },
  {
   "property": "C43",
   "status": "proved",
   "theorems": [
    "RFS.PHDProps.C43_new_components",
    "RFS.PHDProps.C43_nonneg",
    "RFS.PHDProps.C43_missed_detection"
   ],
   "note": ""
  },
  {
   "property": "C44",
   "status": "partial",
   "theorems": [
    "RFS.PHDProps.C44_nonempty_scan_partial",
    "RFS.PHDProps.C44_violated"
   ],
   "note": "the code violates the full statement for empty scans (C44_violated); proved for non-empty scans"
  },
  {
   "property": "C45",
   "status": "partial",
   "theorems": [
    "RFS.PHDProps.C45_indices_valid_partial",
    "RFS.PHDProps.C45_violated"
   ],
   "note": "the code violates the full statement for a scan followed by an empty scan (C45_violated); proved for all histories that process births in between"
  },
  {
   "property": "C46",
   "status": "partial",
   "theorems": [
    "RFS.PHDProps.C46_sweep_partial",
    "RFS.PHDProps.C46_violated"
   ],
   "note": "the sweep has undefined behaviour exactly when the last candidate leaves (C46_violated); proved in full otherwise"
  },
  {
   "property": "C47",
   "status": "partial",
   "theorems": [
    "RFS.PHDProps.C47_inheritance_partial",
    "RFS.PHDProps.C47_violated",
    "RFS.PHDProps.C47_violated_repeat"
   ],
   "note": "violated when a particle was copied from a smaller index (C47_violated) and for a second call (C47_violated_repeat); proved otherwise"
  },
  {
   "property": "C48",
   "status": "partial",
   "theorems": [
    "RFS.LMBProps.C48_existence_partial",
    "RFS.LMBProps.C48_exact_partial",
    "RFS.LMBProps.C48_range",
    "RFS.LMBProps.C48_certain_nan",
    "RFS.LMBProps.C48_map_partial",
    "RFS.LMBProps.C48_murty_partial",
    "RFS.LMBProps.C48_violated"
   ],
   "note": "Posterior existence probability proved for the whole map update when no partition needs Murty (more than 8 rows and columns), for the table with entries between linked tracks and measurements floored at e^-1000, and exactly when no entry is below that. Larger partitions: proved to be the weighted mean over the 200 best associations that Murty's algorithm lists, up to bounded error terms (C48_murty_partial); the associations beyond the 200th are missing in the code itself. Range [0,1] proved for all tables, with any list of assignments in the Murty branch. With certain detection and existence and nothing in reach the code divides 0 by 0 (C48_certain_nan). Violation proved (C48_violated): six tracks and measurements, all equally likely, come out more likely to exist than they are."
  },
  {
   "property": "C49",
   "status": "partial",
   "theorems": [
    "RFS.LMBProps.C49_value_partial",
    "RFS.LMBProps.C49_births_partial",
    "RFS.LMBProps.C49_violated"
   ],
   "note": "The code subtracts the association weight without dividing by the partition likelihood: exact value proved, full claim proved for partitions of likelihood one and for measurements out of reach, negation proved with a witness. Without Murty."
  },
  {
   "property": "C50",
   "status": "proved",
   "theorems": [
    "RFS.CBMProps.C50_formula",
    "RFS.CBMProps.C50_probabilities"
   ],
   "note": ""
  },
  {
   "property": "C51",
   "status": "partial",
   "theorems": [
    "RFS.CBMProps.C51_compaction_partial",
    "RFS.CBMProps.C51_no_tracks_partial",
    "RFS.CBMProps.C51_violated",
    "RFS.CBMProps.C51_violated_update",
    "RFS.CBMProps.C51_freed_memory"
   ],
   "note": "violated: an empty track can be moved into the place of another empty one and a good track dropped (C51_violated, C51_violated_update), and freed memory can be read (C51_freed_memory); proved with the exact condition under which the kept tracks are right; number kept and unused measurements are always right"
  },
  {
   "property": "C52",
   "status": "partial",
   "theorems": [
    "RFS.FastSLAMProps.C52_violated",
    "RFS.FastSLAMProps.C52_violated_single",
    "RFS.FastSLAMProps.C52_violated_unambiguous",
    "RFS.FastSLAMProps.C52_update_partial"
   ],
   "note": "violated: when the reduction decides the association (in particular one measurement and at most one landmark in range, or an unambiguous one-to-one scan) no hypothesis is counted and the code writes to an array of length zero; closed form of the update proved otherwise for the default candidate threshold"
  },
  {
   "property": "C53",
   "status": "partial",
   "theorems": [
    "RFS.FastSLAMProps.C53_existence_partial",
    "RFS.FastSLAMProps.C53_violated",
    "RFS.FastSLAMProps.C53_violated_clutter"
   ],
   "note": "proved as Bayes posterior with bounds for false alarm rates in [0,1]; violated above the lock weight with prior below 1/2, and for false alarm rates above one"
  },
  {
   "property": "C54",
   "status": "partial",
   "theorems": [
    "RFS.PSOProps.C54_best_partial",
    "RFS.PSOProps.C54_one_thread_partial",
    "RFS.PSOProps.C54_first_partial",
    "RFS.PSOProps.C54_violated",
    "RFS.PSOProps.C54_violated_race"
   ],
   "note": "proved for schedules without the race, for one thread, and if the first particle has not become worse; violated otherwise"
  },
  {
   "property": "C55",
   "status": "proved",
   "theorems": [
    "RFS.PSOProps.C55_removal",
    "RFS.PSOProps.C55_update"
   ],
   "note": "removal for all flags, and the whole of updateLandmarkVelocity"
  },
  {
   "property": "C56",
   "status": "proved",
   "theorems": [
    "RFS.MeasProps.C56_rngbrg",
    "RFS.MeasProps.C56_rngbrg_total",
    "RFS.MeasProps.C56_rngbrg_back",
    "RFS.MeasProps.C56_xy",
    "RFS.MeasProps.C56_rng1d",
    "RFS.MeasProps.C56_6d",
    "RFS.MeasProps.C56_victoria",
    "RFS.MeasProps.C56_victoria_place"
   ],
   "note": ""
  },
  {
   "property": "C57",
   "status": "proved",
   "theorems": [
    "RFS.AmpProps.C57_innovation_vp",
    "RFS.MeasProps.C57_measure",
    "RFS.MeasProps.C57_innovation"
   ],
   "note": ""
  },
  {
   "property": "C58",
   "status": "proved",
   "theorems": [
    "RFS.MeasProps.C58_rngbrg",
    "RFS.MeasProps.C58_xy",
    "RFS.MeasProps.C58_rng1d",
    "RFS.MeasProps.C58_6d",
    "RFS.MeasProps.C58_6d_nonunit_witness"
   ],
   "note": ""
  },
  {
   "property": "C59",
   "status": "proved",
   "theorems": [
    "RFS.KalmanProps.C59_covariance",
    "RFS.KalmanProps.C59_symmetric",
    "RFS.KalmanProps.C59_rejected",
    "RFS.KalmanProps.C59_rngbrg"
   ],
   "note": ""
  },
  {
   "property": "C60",
   "status": "partial",
   "theorems": [
    "RFS.KalmanProps.C60_violated",
    "RFS.KalmanProps.C60_likelihood_partial"
   ],
   "note": "violated: the likelihood is evaluated at the raw measurement, not at the wrapped innovation (C60_violated); the state update and gating do use the wrapped innovation"
  },
  {
   "property": "C61",
   "status": "proved",
   "theorems": [
    "RFS.MotionProps.C61_odometry2d",
    "RFS.MotionProps.C61_compose"
   ],
   "note": ""
  },
  {
   "property": "C62",
   "status": "partial",
   "theorems": [
    "RFS.MotionProps.C62_heading_partial",
    "RFS.MotionProps.C62_turn",
    "RFS.MotionProps.C62_violated"
   ],
   "note": "violated for a turn of more than one revolution per step (C62_violated); proved up to one revolution, and the heading is right modulo 2*pi always"
  },
  {
   "property": "C63",
   "status": "partial",
   "theorems": [
    "RFS.MotionProps.C63_time_partial",
    "RFS.MotionProps.C63_odometry1d_violated",
    "RFS.MotionProps.C63_static_violated",
    "RFS.MotionProps.C63_violated"
   ],
   "note": "violated by the 1-D odometry model and the static model without noise (C63_odometry1d_violated, C63_static_violated); proved for the others"
  },
  {
   "property": "C64",
   "status": "proved",
   "theorems": [
    "RFS.FrameProps.C64_map",
    "RFS.FrameProps.C64_compose",
    "RFS.FrameProps.C64_assoc"
   ],
   "note": ""
  },
  {
   "property": "C65",
   "status": "proved",
   "theorems": [
    "RFS.TimeStampProps.C65_setTime_double",
    "RFS.TimeStampProps.C65_double_roundtrip"
   ],
   "note": ""
  },
  {
   "property": "C66",
   "status": "partial",
   "theorems": [
    "RFS.PartitionProps.C66_first_room_partial",
    "RFS.PartitionProps.C66_extended_room_not_honoured"
   ],
   "note": "the code violates the full statement (witness C66_extended_room_not_honoured); proved for the first call per partition"
  },
  {
   "property": "C67",
   "status": "partial",
   "theorems": [
    "RFS.GMProps.C67_violated",
    "RFS.GMProps.C67_sorted_partial"
   ],
   "note": "the code violates the full statement for negative factors (witness C67_violated); proved for non-negative weights and factors"
  },
  {
   "property": "C68",
   "status": "partial",
   "theorems": [
    "RFS.GMProps.C68_violated",
    "RFS.GMProps.C68_returned_count_partial"
   ],
   "note": "the code violates the full statement (witness C68_violated); proved when there are no removed entries"
  },
  {
   "property": "C69",
   "status": "proved",
   "theorems": [
    "RFS.GMHeapProps.C69_memory"
   ],
   "note": "UB exactly excluded outside the listed misuses"
  },
  {
   "property": "C70",
   "status": "partial",
   "theorems": [
    "RFS.PFProps.C70_threshold_partial",
    "RFS.PFProps.C70_violated"
   ],
   "note": "the code violates the full statement (uninitialised member, witness C70_violated); proved after setEffectiveParticleCountThreshold"
  },
  {
   "property": "C71",
   "status": "partial",
   "theorems": [
    "RFS.JCBBProps.C71_count_partial",
    "RFS.JCBBProps.C71_violated_distance",
    "RFS.JCBBProps.C71_violated_count",
    "RFS.JCBBProps.C71_violated_largest"
   ],
   "note": "the code violates the full statement (witnesses C71_violated_distance, C71_violated_count); the maximal count over all considered hypotheses is proved"
  },
  {
   "property": "C72",
   "status": "proved",
   "theorems": [
    "RFS.ORBProps.C72_rank",
    "RFS.ORBProps.C72_symm",
    "RFS.ORBProps.C72_pos",
    "RFS.ORBProps.C72_self",
    "RFS.ORBProps.C72_false_alarm"
   ],
   "note": ""
  },
  {
   "property": "C73",
   "status": "partial",
   "theorems": [
    "RFS.AmplitudeProps.C73_proper_partial",
    "RFS.AmplitudeProps.C73_assign_partial",
    "RFS.AmplitudeProps.C73_value_partial",
    "RFS.AmplitudeProps.C73_violated",
    "RFS.AmplitudeProps.C73_copy_argument"
   ],
   "note": "the code violates the full statement for copy construction (C73_violated)"
  },
  {
   "property": "C74",
   "status": "partial",
   "theorems": [
    "RFS.BoundingBoxProps.C74_contains_partial",
    "RFS.BoundingBoxProps.C74_violated"
   ],
   "note": "the code violates the full statement for negatively correlated covariances (C74_violated); proved for covariances without negative entries"
  },
  {
   "property": "C75",
   "status": "proved",
   "theorems": [
    "RFS.PHDProps.C75_prior_intensity"
   ],
   "note": ""
  },
  {
   "property": "C76",
   "status": "proved",
   "theorems": [
    "RFS.PHDProps.C76_unused"
   ],
   "note": ""
  },
  {
   "property": "C77",
   "status": "partial",
   "theorems": [
    "RFS.JacProps.C77_rngbrg",
    "RFS.JacProps.C77_rngbrg_inverse",
    "RFS.JacProps.C77_xy",
    "RFS.JacProps.C77_rng1d",
    "RFS.JacProps.C77_6d_partial",
    "RFS.JacProps.C77_6d_violated",
    "RFS.MeasCovProps.C77_6d_orientation_partial"
   ],
   "note": "violated by the orientation block of the 6-D pose Jacobian (C77_6d_violated); proved for the other models and the rest of the 6-D Jacobians"
  },
  {
   "property": "C78",
   "status": "partial",
   "theorems": [
    "RFS.ClutterProps.C78_rngbrg",
    "RFS.ClutterProps.C78_6d",
    "RFS.ClutterProps.C78_xy_partial",
    "RFS.ClutterProps.C78_xy_violated",
    "RFS.ClutterProps.C78_rng1d_violated"
   ],
   "note": "violated by the XY and 1-D models (C78_xy_violated, C78_rng1d_violated); proved for range-bearing and 6-D"
  },
  {
   "property": "C79",
   "status": "partial",
   "theorems": [
    "RFS.KalmanProps.C79_vector_correct",
    "RFS.KalmanProps.C79_invalid_partial",
    "RFS.KalmanProps.C79_violated"
   ],
   "note": "the equality with single corrections is proved; the zero-likelihood claim is violated when the output vector is shorter than the list (C79_violated), proved when it is long enough"
  },
  {
   "property": "C80",
   "status": "proved",
   "theorems": [
    "RFS.KalmanProps.C80_posterior"
   ],
   "note": ""
  },
  {
   "property": "C81",
   "status": "proved",
   "theorems": [
    "RFS.KalmanProps.C81_log_likelihood",
    "RFS.KalmanProps.C81_mode"
   ],
   "note": ""
  },
  {
   "property": "C82",
   "status": "proved",
   "theorems": [
    "RFS.MotionProps.C82_odometry6d",
    "RFS.MotionProps.C82_scale"
   ],
   "note": ""
  },
  {
   "property": "C83",
   "status": "partial",
   "theorems": [
    "RFS.MotionProps.C83_position_partial",
    "RFS.MotionProps.C83_odometry1d_partial",
    "RFS.MotionProps.C83_violated"
   ],
   "note": "violated by the planar odometry model, whose H is the identity (C83_violated); proved for the 1-D model and for directions that keep the heading"
  },
  {
   "property": "C84",
   "status": "partial",
   "theorems": [
    "RFS.MotionProps.C84_gradient_partial",
    "RFS.MotionProps.C84_violated"
   ],
   "note": "proved for logLikelihood; violated by likelihood, where the factor likelihood is missing (C84_violated)"
  },
  {
   "property": "C85",
   "status": "partial",
   "theorems": [
    "RFS.MotionProps.C85_unwrapped_partial",
    "RFS.MotionProps.C85_violated",
    "RFS.MotionProps.C85_seam"
   ],
   "note": "violated: the heading error is not wrapped (C85_violated); proved when the raw error is within (-pi, pi)"
  },
  {
   "property": "C86",
   "status": "partial",
   "theorems": [
    "RFS.MotionProps.C86_sample_partial",
    "RFS.MotionProps.C86_violated"
   ],
   "note": "violated: an uninitialised covariance is read if the noise was never set (C86_violated); proved otherwise"
  },
  {
   "property": "C87",
   "status": "partial",
   "theorems": [
    "RFS.FrameProps.C87_defined_partial",
    "RFS.FrameProps.C87_covariance",
    "RFS.FrameProps.C87_violated"
   ],
   "note": "violated: null pointer dereference if only the source covariance is missing (C87_violated); proved otherwise"
  },
  {
   "property": "C88",
   "status": "partial",
   "theorems": [
    "RFS.CBMProps.C88_weight_partial",
    "RFS.CBMProps.C88_no_tracks_partial",
    "RFS.CBMProps.C88_violated"
   ],
   "note": "violated: a particle without tracks gets 1 instead of the clutter likelihood (C88_violated); proved among particles with tracks"
  },
  {
   "property": "C89",
   "status": "proved",
   "theorems": [
    "RFS.CBMProps.C89_births"
   ],
   "note": ""
  },
  {
   "property": "C90",
   "status": "partial",
   "theorems": [
    "RFS.LMBProps.C90_value_partial",
    "RFS.LMBProps.C90_mixture_partial",
    "RFS.LMBProps.C90_violated"
   ],
   "note": "The code adds corrected mixtures without normalising them, so their likelihood counts twice: exact value proved, full claim proved when the corrected mixtures have weight one, negation proved with a witness. Without Murty."
  },
  {
   "property": "C91",
   "status": "proved",
   "theorems": [
    "RFS.LMBProps.C91_births"
   ],
   "note": ""
  },
  {
   "property": "C92",
   "status": "partial",
   "theorems": [
    "RFS.LMBProps.C92_value_partial",
    "RFS.LMBProps.C92_violated"
   ],
   "note": "Exact births proved for both cases; they differ (expected/nZ against 1): negation proved with a witness."
  },
  {
   "property": "C93",
   "status": "partial",
   "theorems": [
    "RFS.LMBProps.C93_weight_partial",
    "RFS.LMBProps.C93_out_of_view",
    "RFS.LMBProps.C93_murty_partial",
    "RFS.LMBProps.C93_violated"
   ],
   "note": "Proved when no partition needs Murty, with table entries between linked tracks and measurements floored at e^-1000; equality of the two out-of-view cases proved in full. With Murty: the factor is a product over the partitions in which each larger partition contributes the weights of its 200 best associations, up to a bounded error (C93_murty_partial); the code leaves the other associations out. Violation proved (C93_violated): a factor of at most 201 where all hypotheses weigh more than 720."
  },
  {
   "property": "C94",
   "status": "partial",
   "theorems": [
    "RFS.FastSLAMProps.C94_log_odds_partial",
    "RFS.FastSLAMProps.C94_violated"
   ],
   "note": "proved for prior 1/2 (the default); violated for every other prior"
  },
  {
   "property": "C95",
   "status": "partial",
   "theorems": [
    "RFS.FastSLAMProps.C95_weights_partial",
    "RFS.FastSLAMProps.C95_violated"
   ],
   "note": "proved whenever the update completes; it need not (C52, C96; witness C95_violated)"
  },
  {
   "property": "C96",
   "status": "partial",
   "theorems": [
    "RFS.FastSLAMProps.C96_candidates_partial",
    "RFS.FastSLAMProps.C96_violated"
   ],
   "note": "proved if the last candidate stays; undefined behaviour proved whenever the last candidate leaves"
  },
  {
   "property": "C97",
   "status": "partial",
   "theorems": [
    "RFS.FastSLAMProps.C97_copy_candidates_partial",
    "RFS.FastSLAMProps.C97_violated"
   ],
   "note": "proved after a resampling; violated otherwise"
  },
  {
   "property": "C98",
   "status": "partial",
   "theorems": [
    "RFS.FastSLAMProps.C98_candidates_follow_partial",
    "RFS.FastSLAMProps.C98_violated"
   ],
   "note": "proved for the first resampling; violated for the second (stale ids, C33)"
  },
  {
   "property": "C99",
   "status": "proved",
   "theorems": [
    "RFS.FastSLAMProps.C99_hypotheses"
   ],
   "note": "for every ranking that satisfies the contract of Murty's algorithm"
  },
  {
   "property": "C100",
   "status": "proved",
   "theorems": [
    "RFS.FastSLAMProps.C100_place",
    "RFS.PHDProps.C100_birth_step",
    "RFS.PHDProps.C100_birth_loop",
    "RFS.PHDProps.C100_in_view"
   ],
   "note": "for the PHD filter and for FastSLAM"
  },
  {
   "property": "C101",
   "status": "proved",
   "theorems": [
    "RFS.PSOProps.C101_personal_best",
    "RFS.PSOProps.C101_best_monotone",
    "RFS.PSOProps.C101_best_of_run"
   ],
   "note": "proved for all runs and all interleavings of the parallel loops, including those in which a round selects a wrong particle (C54); the data race itself is reported under C54"
  },
  {
   "property": "C102",
   "status": "proved",
   "theorems": [
    "RFS.PSOProps.C102_init",
    "RFS.PSOProps.C102_evaluate",
    "RFS.PSOProps.C102_move"
   ],
   "note": ""
  },
  {
   "property": "C103",
   "status": "partial",
   "theorems": [
    "RFS.PSOProps.C103_violated",
    "RFS.PSOProps.C103_once_partial"
   ],
   "note": "once from each of the two best maps; violated when a particle is its own best neighbour"
  },
  {
   "property": "C104",
   "status": "partial",
   "theorems": [
    "RFS.PSOProps.C104_violated",
    "RFS.PSOProps.C104_attractor_partial"
   ],
   "note": "proved if the neighbours are at their bests; violated otherwise since current likelihoods are compared"
  },
  {
   "property": "C105",
   "status": "partial",
   "theorems": [
    "RFS.PSOProps.C105_random",
    "RFS.PSOProps.C105_global_partial",
    "RFS.PSOProps.C105_violated"
   ],
   "note": "random topology proved; global topology proved when set up first, violated after a random one"
  },
  {
   "property": "C106",
   "status": "partial",
   "theorems": [
    "RFS.MeasCovProps.C106_rngbrg",
    "RFS.MeasCovProps.C106_xy",
    "RFS.MeasCovProps.C106_rng1d",
    "RFS.MeasCovProps.C106_6d",
    "RFS.MeasCovProps.C106_psd",
    "RFS.MeasCovProps.C106_vp_partial",
    "RFS.MeasCovProps.C106_vp_violated"
   ],
   "note": "proved for range-bearing, plane, line and space; Victoria Park only for a diameter uncorrelated with the position, violated otherwise"
  },
  {
   "property": "C107",
   "status": "partial",
   "theorems": [
    "RFS.BatchProps.C107_filed_partial",
    "RFS.BatchProps.C107_violated",
    "RFS.BatchProps.C107_refuse_partial",
    "RFS.BatchProps.C107_late_violated",
    "RFS.BatchProps.C107_addInput_violated"
   ],
   "note": "proved for inputs in the order of time and measurements not later than the last; violated for unordered inputs, later measurements (reads the end) and inputs given one by one"
  },
  {
   "property": "C108",
   "status": "proved",
   "theorems": [
    "RFS.BatchProps.C108_round_trip",
    "RFS.BatchProps.C108_bijective"
   ],
   "note": ""
  },
  {
   "property": "C109",
   "status": "proved",
   "theorems": [
    "RFS.BatchProps.C109_map"
   ],
   "note": ""
  },
  {
   "property": "C110",
   "status": "partial",
   "theorems": [
    "RFS.BatchProps.C110_assembly",
    "RFS.BatchProps.C110_gradient_partial",
    "RFS.BatchProps.C110_odometry1d",
    "RFS.BatchProps.C110_violated",
    "RFS.BatchProps.C110_ub"
   ],
   "note": "assembly proved; derivative proved when the motion likelihood has opposite gradients (1-D odometry), scan gradients assumed right; violated for planar odometry; reads outside with one pose or addInput"
  },
  {
   "property": "C111",
   "status": "proved",
   "theorems": [
    "RFS.MotionProps.C111_static",
    "RFS.MotionProps.C111_psd"
   ],
   "note": ""
  },
  {
   "property": "C112",
   "status": "proved",
   "theorems": [
    "RFS.MotionProps.C112_ackerman"
   ],
   "note": ""
  },
  {
   "property": "C113",
   "status": "proved",
   "theorems": [
    "RFS.MurtyBlockProps.C113_each_association_once"
   ],
   "note": "exact arithmetic; finite entries; hypothesis on bigNumber_ spelled out in Ranges"
  },
  {
   "property": "C114",
   "status": "proved",
   "theorems": [
    "RFS.MurtyBlockProps.C114_partition_sum",
    "RFS.MurtyBlockProps.C114_all"
   ],
   "note": "exact arithmetic; finite entries; hypothesis on bigNumber_ spelled out in Ranges"
  },
  {
   "property": "C115",
   "status": "partial",
   "theorems": [
    "RFS.BatchLikProps.C115_entry",
    "RFS.BatchLikProps.C115_blocks_partial",
    "RFS.BatchLikProps.C115_violated_empty",
    "RFS.BatchLikProps.C115_violated_missed"
   ],
   "note": "factor by factor: exact for the partition without entries, otherwise the sum of the 200 best associations up to the e^-1000 floor; the code violates the statement with no landmark in view (the integral is not divided out, C115_violated_empty) and for landmarks out of reach of all measurements (C115_violated_missed)"
  },
  {
   "property": "C116",
   "status": "partial",
   "theorems": [
    "RFS.BatchLikProps.C116_value_partial",
    "RFS.BatchLikProps.C116_violated"
   ],
   "note": "offset plus logarithm of the sum of the 201 best associations, partition by partition; the code violates the statement: the offset uses log(Pd) in place of log(1 - Pd) (C116_violated)"
  },
  {
   "property": "C117",
   "status": "partial",
   "theorems": [
    "RFS.BatchLikProps.C117_landmark_partial",
    "RFS.BatchLikProps.C117_pose_partial",
    "RFS.BatchLikProps.C117_pose_violated"
   ],
   "note": "landmark gradients are the derivatives; the pose gradient lacks a division and is not (C117_pose_violated), C117_pose_partial says by how much"
  },
  {
   "property": "C118",
   "status": "partial",
   "theorems": [
    "RFS.BatchLikProps.C118_all_in_view_partial",
    "RFS.BatchLikProps.C118_stored",
    "RFS.BatchLikProps.C118_violated",
    "RFS.BatchLikProps.C118_throws"
   ],
   "note": "proved for entries when all the landmarks can be detected; the code violates the statement otherwise (C118_violated), and the gradient can throw (C118_throws)"
  },
  {
   "property": "C119",
   "status": "partial",
   "theorems": [
    "RFS.CBMProps.C119_certain_partial",
    "RFS.CBMProps.C119_violated"
   ],
   "note": "proved as if all tracks existed for certain, under the conditions of C42; the code violates the statement because existence probabilities do not enter (C119_violated)"
  },
  {
   "property": "C120",
   "status": "partial",
   "theorems": [
    "RFS.SimProps.C120_dispatch_partial",
    "RFS.SimProps.C120_violated_end",
    "RFS.SimProps.C120_violated_stuck",
    "RFS.SimProps.C120_violated",
    "RFS.SimProps.C120_victoriaPark_partial"
   ],
   "note": "proved if every measurement has the time of a step and the last step has one (and for the Victoria Park program without the latter); otherwise the code reads past the end or stops delivering (C120_violated_end, C120_violated_stuck)"
  },
  {
   "property": "C121",
   "status": "partial",
   "theorems": [
    "RFS.SimProps.C121_poisson_partial",
    "RFS.SimProps.C121_beyond",
    "RFS.SimProps.C121_violated_200",
    "RFS.SimProps.C121_violated"
   ],
   "note": "proved for fewer than 100 false alarms, with the exact probability of leaving the table (C121_beyond); the code violates the statement (C121_violated)"
  },
  {
   "property": "C122",
   "status": "partial",
   "theorems": [
    "RFS.SimProps.C122_limits_partial",
    "RFS.SimProps.C122_step_partial",
    "RFS.SimProps.C122_violated"
   ],
   "note": "proved for range-bearing measurements and, for both, what a step consists of; the code violates it for relative positions (C122_violated)"
  },
  {
   "property": "C123",
   "status": "partial",
   "theorems": [
    "RFS.SimProps.C123_count_partial",
    "RFS.SimProps.C123_exact",
    "RFS.SimProps.C123_violated_many",
    "RFS.SimProps.C123_violated",
    "RFS.SimProps.C123_zero_violated"
   ],
   "note": "proved if the number of landmarks divides the number of steps, exact number otherwise (C123_exact); the code violates the statement (C123_violated, C123_zero_violated)"
  },
  {
   "property": "C124",
   "status": "partial",
   "theorems": [
    "RFS.SimProps.C124_reach_partial",
    "RFS.SimProps.C124_xy",
    "RFS.SimProps.C124_violated"
   ],
   "note": "proved for range-bearing measurements; the code violates it for relative positions (C124_violated)"
  },
  {
   "property": "C125",
   "status": "partial",
   "theorems": [
    "RFS.SimProps.C125_first_partial",
    "RFS.SimProps.C125_violated"
   ],
   "note": "proved: the first step in which the sensor model could measure the landmark; the code violates the statement because missed detections set it too (C125_violated)"
  },
  {
   "property": "C126",
   "status": "partial",
   "theorems": [
    "RFS.SimProps.C126_trajectory_partial",
    "RFS.SimProps.C126_violated_speeds",
    "RFS.SimProps.C126_violated",
    "RFS.SimProps.C126_total_partial",
    "RFS.SimProps.C126_segments_partial"
   ],
   "note": "proved whenever the function returns; it never returns if the least speed exceeds the greatest (C126_violated)"
  },
  {
   "property": "C127",
   "status": "proved",
   "theorems": [
    "RFS.SimProps.C127_odometry",
    "RFS.SimProps.C127_noise_free"
   ],
   "note": ""
  },
  {
   "property": "C128",
   "status": "partial",
   "theorems": [
    "RFS.SimProps.C128_first_partial",
    "RFS.SimProps.C128_safe",
    "RFS.SimProps.C128_reseed",
    "RFS.SimProps.C128_violated"
   ],
   "note": "proved for the first initialisation; later ones have no effect (C128_reseed, C128_violated)"
  },
  {
   "property": "C129",
   "status": "partial",
   "theorems": [
    "RFS.SimProps.C129_reading_partial",
    "RFS.SimProps.C129_blank_violated",
    "RFS.SimProps.C129_ignored_violated",
    "RFS.SimProps.C129_violated",
    "RFS.SimProps.C129_covariance3",
    "RFS.SimProps.C129_covariance2"
   ],
   "note": "proved for files that are read and have only constraints between consecutive poses; blank lines are undefined behaviour and other constraints are applied although they are to be ignored (C129_blank_violated, C129_ignored_violated)"
  },
  {
   "property": "C130",
   "status": "partial",
   "theorems": [
    "RFS.SimProps.C130_xy_partial",
    "RFS.SimProps.C130_rngBrg_iff",
    "RFS.SimProps.C130_violated"
   ],
   "note": "proved for relative positions; the code violates it for range-bearing measurements (C130_rngBrg_iff, C130_violated)"
  },
  {
   "property": "C131",
   "status": "partial",
   "theorems": [
    "RFS.SimProps.C131_limits_partial",
    "RFS.SimProps.C131_bearing",
    "RFS.SimProps.C131_violated_shipped",
    "RFS.SimProps.C131_violated"
   ],
   "note": "proved for the range and the upper limit of the bearing; the lower limit has no effect (C131_bearing, C131_violated)"
  },
  {
   "property": "C132",
   "status": "partial",
   "theorems": [
    "RFS.SimProps.C132_phd_partial",
    "RFS.SimProps.C132_violated_lmb",
    "RFS.SimProps.C132_violated"
   ],
   "note": "proved for the simulator of the PHD filter; that of the LMB filter draws without noise (C132_violated_lmb)"
  },
  {
   "property": "C133",
   "status": "proved",
   "theorems": [
    "RFS.AnalysisProps.C133_reading"
   ],
   "note": "for every log in which the steps are separated by the tolerance, any number of steps"
  },
  {
   "property": "C134",
   "status": "partial",
   "theorems": [
    "RFS.AnalysisProps.C134_best",
    "RFS.AnalysisProps.C134_best_unique",
    "RFS.AnalysisProps.C134_logged_partial",
    "RFS.AnalysisProps.C134_violated_tie",
    "RFS.AnalysisProps.C134_violated",
    "RFS.AnalysisProps.C134_start_violated"
   ],
   "note": "Proved when the greatest weight stays the only greatest after rounding. Violated for two weights equal to six digits (the analysed map is then empty whatever was logged), and in the first step, whose log starts with the initial records of weight 1: particle 0 is always taken."
  },
  {
   "property": "C135",
   "status": "partial",
   "theorems": [
    "RFS.AnalysisProps.C135_observed_partial",
    "RFS.AnalysisProps.C135_never_violated",
    "RFS.AnalysisProps.C135_violated",
    "RFS.AnalysisProps.C135_excess"
   ],
   "note": "Proved for landmarks that are observed. Violated for those that never are: their time -1 counts as observed at all times, so the reported number is too great by their number in every step."
  },
  {
   "property": "C136",
   "status": "proved",
   "theorems": [
    "RFS.AnalysisProps.C136_angle",
    "RFS.AnalysisProps.C136_average",
    "RFS.AnalysisProps.C136_distance",
    "RFS.AnalysisProps.C136_best",
    "RFS.AnalysisProps.C136_best_missing",
    "RFS.AnalysisProps.C136_no_weight"
   ],
   "note": ""
  },
  {
   "property": "C137",
   "status": "partial",
   "theorems": [
    "RFS.AnalysisProps.C137_phd_partial",
    "RFS.AnalysisProps.C137_misread",
    "RFS.AnalysisProps.C137_violated",
    "RFS.AnalysisProps.C137_stuck"
   ],
   "note": "Proved for the eight-column format of the PHD and FastSLAM simulators. Violated for the LMB and CB-MeMBer simulators, which write a ninth column: the second record is read with the weight of the first as its time, and a record whose time is that of no step leaves all later steps with an empty map."
  },
  {
   "property": "C138",
   "status": "partial",
   "theorems": [
    "RFS.AnalysisProps.C138_cola_partial",
    "RFS.AnalysisProps.C138_empty",
    "RFS.AnalysisProps.C138_violated"
   ],
   "note": "Proved when at least one of the maps is not empty (up to the tolerance 1e-12 of the assignment per element). Violated for two empty maps: the error is 0/0."
  },
  {
   "property": "C139",
   "status": "partial",
   "theorems": [
    "RFS.VParkProps.C139_full_turn_partial",
    "RFS.VParkProps.C139_violated_diameter",
    "RFS.VParkProps.C139_beams",
    "RFS.VParkProps.C139_violated_beams",
    "RFS.VParkProps.C139_violated_probes",
    "RFS.VParkProps.C139_violated"
   ],
   "note": "Proved for scans over the full turn (720 readings or more) and positive diameters. Violated for the scans of 361 readings of the programs: with the shipped configuration a landmark of two metres at five metres and seven degrees makes the program read outside of the scan; C139_beams says exactly when. Violated for diameters that are not positive: the loop over the probes never ends."
  },
  {
   "property": "C140",
   "status": "proved",
   "theorems": [
    "RFS.VParkProps.C140_beams",
    "RFS.VParkProps.C140_occlusion",
    "RFS.VParkProps.C140_flag",
    "RFS.VParkProps.C140_limits"
   ],
   "note": "For scans in which all beams looked at have a reading (C139)."
  },
  {
   "property": "C141",
   "status": "partial",
   "theorems": [
    "RFS.VParkProps.C141_probes_partial",
    "RFS.VParkProps.C141_direction",
    "RFS.VParkProps.C141_violated"
   ],
   "note": "Proved except for the direction. Violated: the direction is computed as atan2(bearing, range) + heading, as if range and bearing were coordinates; C141_direction says exactly when it is at right angles to the line of sight."
  },
  {
   "property": "C142",
   "status": "partial",
   "theorems": [
    "RFS.VParkProps.C142_area",
    "RFS.VParkProps.C142_full_turn_partial",
    "RFS.VParkProps.C142_half_turn",
    "RFS.VParkProps.C142_violated",
    "RFS.VParkProps.C142_no_return"
   ],
   "note": "Proved for full-turn scans of 720 readings. Violated for scans of 361 readings: the last triangle between the first and the last beam is counted although they point in opposite directions. With all readings zero the intensity is a division by zero (C142_no_return)."
  },
  {
   "property": "C143",
   "status": "partial",
   "theorems": [
    "RFS.VParkProps.C143_distance_partial",
    "RFS.VParkProps.C143_violated"
   ],
   "note": "Holds for an obstacle all around at one distance only (about two metres). Violated: the number of false alarms is divided by an area in metres squared, but the intensity is used as a density over range and bearing."
  },
  {
   "property": "C144",
   "status": "proved",
   "theorems": [
    "RFS.VParkLoopProps.C144_defined",
    "RFS.VParkLoopProps.C144_calls",
    "RFS.VParkLoopProps.C144_measurements",
    "RFS.VParkLoopProps.C144_time",
    "RFS.VParkLoopProps.C144_forward",
    "RFS.VParkLoopProps.C144_dead"
   ],
   "note": ""
  },
  {
   "property": "C145",
   "status": "partial",
   "theorems": [
    "RFS.VParkLoopProps.C145_second_partial",
    "RFS.VParkLoopProps.C145_rate",
    "RFS.VParkLoopProps.C145_violated"
   ],
   "note": "Proved for messages one second apart. Violated: the noise of a message is the variance times the square of the time step, so n messages over T seconds add var*T*T/n."
  },
  {
   "property": "C146",
   "status": "proved",
   "theorems": [
    "RFS.AmpProps.C146_integral",
    "RFS.AmpProps.C146_simulated"
   ],
   "note": ""
  },
  {
   "property": "C147",
   "status": "partial",
   "theorems": [
    "RFS.TreeProps.C147_forest_partial",
    "RFS.TreeProps.C147_effect",
    "RFS.TreeProps.C147_violated",
    "RFS.TreeProps.C147_null_violated"
   ],
   "note": "Proved for nodes that exist, have no parent yet and are not above the node they are added to. Violated otherwise: a node can get two parents or become its own ancestor; null pointers are dereferenced."
  },
  {
   "property": "C148",
   "status": "proved",
   "theorems": [
    "RFS.TreeProps.C148_parent",
    "RFS.TreeProps.C148_alive",
    "RFS.TreeProps.C148_root"
   ],
   "note": ""
  },
  {
   "property": "C149",
   "status": "proved",
   "theorems": [
    "RFS.GaussProps.C149_density",
    "RFS.GaussProps.C149_agree",
    "RFS.GaussProps.C149_normal",
    "RFS.GaussProps.C149_indefinite"
   ],
   "note": "Exact arithmetic. A covariance with negative determinant gives likelihood zero (C149_indefinite)."
  },
  {
   "property": "C150",
   "status": "proved",
   "theorems": [
    "RFS.GaussProps.C150_law",
    "RFS.GaussProps.C150_moments",
    "RFS.GaussProps.C150_density"
   ],
   "note": "The normal numbers are independent and standard normal by assumption."
  },
  {
   "property": "C151",
   "status": "proved",
   "theorems": [
    "RFS.GaussProps.C151_mean",
    "RFS.GaussProps.C151_point",
    "RFS.GaussProps.C151_distance",
    "RFS.GaussProps.C151_asymmetric_violated"
   ],
   "note": "A covariance is symmetric; for other matrices n_error is not the gradient (C151_asymmetric_violated)."
  },
  {
   "property": "C152",
   "status": "partial",
   "theorems": [
    "RFS.GaussProps.C152_drift_partial",
    "RFS.GaussProps.C152_violated",
    "RFS.GaussProps.C152_euclid"
   ],
   "note": "Violated: the sample overwrites the mean that is passed by reference, so the second sample has twice the variance. Proved: what the samples are instead, and the distance."
  },
  {
   "property": "C153",
   "status": "partial",
   "theorems": [
    "RFS.DescrProps.C153_ratio_partial",
    "RFS.DescrProps.C153_sum",
    "RFS.DescrProps.C153_sum_gt",
    "RFS.DescrProps.C153_sample",
    "RFS.DescrProps.C153_violated"
   ],
   "note": "Proved: the ratio belongs to bit flips with probability 1/2.1. Violated: sample flips bits with probability 1/8, and the likelihood does not add up to one."
  },
  {
   "property": "C154",
   "status": "partial",
   "theorems": [
    "RFS.DescrProps.C154_random_partial",
    "RFS.DescrProps.C154_violated"
   ],
   "note": "Proved for the other bits. Violated: lrand48 gives 31 bits, so the bits 31, 63, ..., 255 are always zero and never flipped."
  },
  {
   "property": "C155",
   "status": "partial",
   "theorems": [
    "RFS.DescrProps.C155_product",
    "RFS.DescrProps.C155_outputs_partial",
    "RFS.DescrProps.C155_outputs_violated",
    "RFS.DescrProps.C155_model",
    "RFS.DescrProps.C155_sample",
    "RFS.DescrProps.C155_ratio"
   ],
   "note": "Violated for descriptors whose likelihood can be zero: distance and gradient are not written then. Proved otherwise; with ORB descriptors always."
  },
  {
   "property": "C156",
   "status": "proved",
   "theorems": [
    "RFS.ConvertProps.C156_poses",
    "RFS.ConvertProps.C156_maps",
    "RFS.ConvertProps.C156_lossless",
    "RFS.ConvertProps.C156_poses_reported",
    "RFS.ConvertProps.C156_maps_reported"
   ],
   "note": "For numbers that printing with six decimals does not change, as those of the old logs."
  },
  {
   "property": "C157",
   "status": "partial",
   "theorems": [
    "RFS.ConvertProps.C157_backup_partial",
    "RFS.ConvertProps.C157_violated"
   ],
   "note": "Proved for one run. Violated: a second run replaces the backup, a third one leaves four empty files."
  },
  {
   "property": "C158",
   "status": "partial",
   "theorems": [
    "RFS.BatchSimProps.C158_trajectory",
    "RFS.BatchSimProps.C158_total",
    "RFS.BatchSimProps.C158_odometry1d_partial",
    "RFS.BatchSimProps.C158_violated_2d",
    "RFS.BatchSimProps.C158_violated"
   ],
   "note": "Trajectory proved for all programs with this generator; odometry and dead reckoning for the 1-D programs (C158_odometry1d_partial). The 2-D programs read odometry_[k] one past the end in every step, C158_violated and C158_violated_2d."
  },
  {
   "property": "C159",
   "status": "proved",
   "theorems": [
    "RFS.BatchSimProps.C159_filed"
   ],
   "note": ""
  },
  {
   "property": "C160",
   "status": "proved",
   "theorems": [
    "RFS.BatchSimProps.C160_detection",
    "RFS.BatchSimProps.C160_associations"
   ],
   "note": ""
  },
  {
   "property": "C161",
   "status": "proved",
   "theorems": [
    "RFS.BatchSimProps.C161_count",
    "RFS.BatchSimProps.C161_count_orb"
   ],
   "note": "Both the test with doubles and the one with integers of the program with descriptors (which divides by zero for zero landmarks)."
  },
  {
   "property": "C162",
   "status": "partial",
   "theorems": [
    "RFS.BatchSimProps.C162_iff_1d",
    "RFS.BatchSimProps.C162_iff_2d",
    "RFS.BatchSimProps.C162_same_partial",
    "RFS.BatchSimProps.C162_violated",
    "RFS.BatchSimProps.C162_known_partial"
   ],
   "note": "Proved for initial maps of the size of the true one and, for the 2-D program, with known data associations; exact conditions in C162_iff_1d and C162_iff_2d. The 1-D program reads outside when the initial map is smaller, the 2-D one when it is larger: C162_violated."
  },
  {
   "property": "C163",
   "status": "proved",
   "theorems": [
    "RFS.BatchSimProps.C163_cost"
   ],
   "note": ""
  },
  {
   "property": "C164",
   "status": "partial",
   "theorems": [
    "RFS.BatchSimProps.C164_unit_partial",
    "RFS.BatchSimProps.C164_violated"
   ],
   "note": "Proved for steps of one second; the weight of the odometry lacks the factor 1/dT^2 of the simulated noise, C164_violated."
  },
  {
   "property": "C165",
   "status": "proved",
   "theorems": [
    "RFS.BatchSimProps.C165_angle",
    "RFS.BatchSimProps.C165_pose",
    "RFS.BatchSimProps.C165_pose_step",
    "RFS.BatchSimProps.C165_observation",
    "RFS.BatchSimProps.C165_weights"
   ],
   "note": ""
  },
  {
   "property": "C166",
   "status": "partial",
   "theorems": [
    "RFS.BatchSimProps.C166_ahead_partial",
    "RFS.BatchSimProps.C166_violated"
   ],
   "note": "Proved ahead of the robot; no false alarm is ever behind it, C166_violated."
  },
  {
   "property": "C167",
   "status": "partial",
   "theorems": [
    "RFS.Sim6DProps.C167_trajectory_partial",
    "RFS.Sim6DProps.C167_total",
    "RFS.Sim6DProps.C167_violated"
   ],
   "note": "Proved if qw changes by less than 1 per step, with existence; otherwise the drawn quaternion can be zero, C167_violated."
  },
  {
   "property": "C168",
   "status": "proved",
   "theorems": [
    "RFS.Sim6DProps.C168_odometry",
    "RFS.Sim6DProps.C168_noise_free"
   ],
   "note": ""
  },
  {
   "property": "C169",
   "status": "partial",
   "theorems": [
    "RFS.Sim6DProps.C169_filter",
    "RFS.Sim6DProps.C169_iff",
    "RFS.Sim6DProps.C169_same_partial",
    "RFS.Sim6DProps.C169_shifted",
    "RFS.Sim6DProps.C169_violated"
   ],
   "note": "Proved exactly for equal quaternion variances; otherwise the variances are shifted by one component, C169_shifted, C169_violated."
  },
  {
   "property": "C170",
   "status": "partial",
   "theorems": [
    "RFS.Sim6DProps.C170_reach_partial",
    "RFS.Sim6DProps.C170_draws",
    "RFS.Sim6DProps.C170_violated"
   ],
   "note": "Proved up to the least range, which is not checked, C170_violated."
  },
  {
   "property": "C171",
   "status": "proved",
   "theorems": [
    "RFS.Sim6DProps.C171_sample",
    "RFS.Sim6DProps.C171_detections"
   ],
   "note": ""
  },
  {
   "property": "C172",
   "status": "partial",
   "theorems": [
    "RFS.Sim6DProps.C172_detected_partial",
    "RFS.Sim6DProps.C172_alarms",
    "RFS.Sim6DProps.C172_violated"
   ],
   "note": "Proved without false alarms; every false alarm is outside the limits or on their border, C172_alarms, C172_violated."
  },
  {
   "property": "C173",
   "status": "partial",
   "theorems": [
    "RFS.Sim6DProps.C173_first_partial",
    "RFS.Sim6DProps.C173_violated"
   ],
   "note": "Proved: the time of the first step in which it could be measured; a missed detection counts too, C173_violated."
  },
  {
   "property": "C174",
   "status": "partial",
   "theorems": [
    "RFS.Sim6DProps.C174_delivered_partial",
    "RFS.Sim6DProps.C174_delivered2d_partial",
    "RFS.Sim6DProps.C174_violated"
   ],
   "note": "Proved if the last step has a measurement; otherwise the program reads past the end, C174_violated."
  },
  {
   "property": "C175",
   "status": "partial",
   "theorems": [
    "RFS.MBFProps.C175_indices_valid_partial",
    "RFS.MBFProps.C175_reports_cbm",
    "RFS.MBFProps.C175_reports_lmb",
    "RFS.MBFProps.C175_violated_cbm",
    "RFS.MBFProps.C175_violated_lmb"
   ],
   "note": "Proved for all runs in which no empty scan follows a scan before predict; otherwise predict reads past the end, C175_violated_cbm, C175_violated_lmb."
  },
  {
   "property": "C176",
   "status": "partial",
   "theorems": [
    "RFS.MBFProps.C176_births_partial",
    "RFS.MBFProps.C176_slots",
    "RFS.MBFProps.C176_violated"
   ],
   "note": "Proved if the update does not resample; in general births of the old particle in the same place are added, C176_slots, C176_violated."
  },
  {
   "property": "C177",
   "status": "proved",
   "theorems": [
    "RFS.MBFProps.C177_factor_lmb",
    "RFS.MBFProps.C177_weights",
    "RFS.MBFProps.C177_defined",
    "RFS.MBFProps.C177_unchanged"
   ],
   "note": ""
  },
  {
   "property": "C178",
   "status": "partial",
   "theorems": [
    "RFS.MBFProps.C178_runs_partial",
    "RFS.MBFProps.C178_violated",
    "RFS.MBFProps.C178_freed_memory"
   ],
   "note": "Proved for all runs in which no empty scan follows a scan before predict (definedness, positive weights, maps in order); other runs are undefined, C178_violated, and freed memory is read in some proper runs, C178_freed_memory."
  },
  {
   "property": "C179",
   "status": "partial",
   "theorems": [
    "RFS.MBFProps.C179_kept_partial",
    "RFS.MBFProps.C179_violated",
    "RFS.MBFProps.C179_permanent",
    "RFS.MBFProps.C179_unreadable"
   ],
   "note": "Proved for tracks whose mean Gaussian weight before merging is at least the pruning threshold; violated with the default configuration, C179_violated; such tracks never disappear, C179_permanent, and cannot be read, C179_unreadable."
  },
  {
   "property": "C180",
   "status": "proved",
   "theorems": [
    "RFS.MBFProps.C180_runs",
    "RFS.MBFProps.C180_threshold",
    "RFS.MBFProps.C180_expected"
   ],
   "note": "expectedBirths_, which the constructor leaves uninitialised, is assumed not negative, C180_expected."
  },
  {
   "property": "C181",
   "status": "partial",
   "theorems": [
    "RFS.PHDWProps.C181_value_partial",
    "RFS.PHDWProps.C181_exact_partial",
    "RFS.PHDWProps.C181_violated",
    "RFS.PHDWProps.C181_positive"
   ],
   "note": "exact value when partitions of the table have at most 8 members (missed detection term and e^-1000 floor as in C42); full claim when every point has a measurement in reach; violated: a landmark without a measurement in reach counts Pd instead of 1 - Pd"
  },
  {
   "property": "C182",
   "status": "proved",
   "theorems": [
    "RFS.PHDWProps.C182_points"
   ],
   "note": ""
  },
  {
   "property": "C183",
   "status": "partial",
   "theorems": [
    "RFS.PHDWProps.C183_no_points_partial",
    "RFS.PHDWProps.C183_constant",
    "RFS.PHDWProps.C183_violated",
    "RFS.PHDWProps.C183_uniform"
   ],
   "note": "holds for maps without a point in view when the count is not 0; violated: count 0 or an empty map sets the weight to a constant, so that all particles end up with the same weight"
  },
  {
   "property": "C184",
   "status": "partial",
   "theorems": [
    "RFS.PHDWProps.C184_value_partial",
    "RFS.PHDWProps.C184_ratio_partial",
    "RFS.PHDWProps.C184_violated",
    "RFS.PHDWProps.C184_empty_violated"
   ],
   "note": "exact value computed; ratio between particles right when sum (1+Pd) w is equal; violated: the exponent is + sum w, so a landmark out of view multiplies the weight by e^w; the weight of a particle with an empty map is not changed"
  },
  {
   "property": "C185",
   "status": "partial",
   "theorems": [
    "RFS.PHDWProps.C185_undefined",
    "RFS.PHDWProps.C185_weight_undefined",
    "RFS.PHDWProps.C185_violated",
    "RFS.PHDWProps.C185_defined_partial"
   ],
   "note": "defined once both members are set; violated: useClusterProcess_ and importanceWeightingEvalPointGuassianWeight_ are not set by the constructor"
  },
  {
   "property": "C186",
   "status": "partial",
   "theorems": [
    "RFS.ProgramsProps.C186_defined_partial",
    "RFS.ProgramsProps.C186_violated",
    "RFS.ProgramsProps.C186_not_full"
   ],
   "note": "Proved for all programs but those of FastSLAM; violated by fastslam2dSim and fastslam_VictoriaPark, which never call initializeGaussianGenerators."
  },
  {
   "property": "C187",
   "status": "partial",
   "theorems": [
    "RFS.ProgramsProps.C187_seed_partial",
    "RFS.ProgramsProps.C187_violated",
    "RFS.ProgramsProps.C187_uniform_partial",
    "RFS.ProgramsProps.C187_not_full"
   ],
   "note": "Proved for the programs that read their data (Victoria Park, CityTrees); violated by all simulators: their normal numbers are those of the trajectory number, only the numbers of drand48 depend on the seed."
  },
  {
   "property": "C188",
   "status": "proved",
   "theorems": [
    "RFS.ProgramsProps.C188_reproducible",
    "RFS.ProgramsProps.C188_data",
    "RFS.ProgramsProps.C188_violated_amplitude"
   ],
   "note": "All programs with a seed option. The amplitude program has none: its data are reproducible, its result is not (C188_violated_amplitude)."
  },
  {
   "property": "C189",
   "status": "proved",
   "theorems": [
    "RFS.PHDRProps.C189_positive",
    "RFS.PHDRProps.C189_after_update"
   ],
   "note": "All runs from the constructor; merging and pruning are the modelled functions, the weighting of particles is any positive function."
  },
  {
   "property": "C190",
   "status": "proved",
   "theorems": [
    "RFS.PHDRProps.C190_expected",
    "RFS.PHDRProps.C190_before_resampling"
   ],
   "note": "Both bounds over all runs; the sharper one needs that nobody was resampled, since the lists of births go to wrong particles after resampling (C33, C47)."
  },
  {
   "property": "C191",
   "status": "proved",
   "theorems": [
    "RFS.PHDRProps.C191_defined",
    "RFS.PHDRProps.C191_weights"
   ],
   "note": "Update in every run; predict can still fail as reported under C45 and C46."
  },
  {
   "property": "C192",
   "status": "proved",
   "theorems": [
    "RFS.FastRunsProps.C192_number",
    "RFS.FastRunsProps.C192_update"
   ],
   "note": "All runs of a filter with at least one particle; one thread."
  },
  {
   "property": "C193",
   "status": "partial",
   "theorems": [
    "RFS.FastRunsProps.C193_defined_partial",
    "RFS.FastRunsProps.C193_violated",
    "RFS.FastRunsProps.C193_violated_empty"
   ],
   "note": "Proved for everything around updateMap. Violated: updateMap itself writes outside an array (first scan with one measurement, C193_violated; also C52, C96), and a filter without particles cannot be updated (C193_violated_empty)."
  },
  {
   "property": "C194",
   "status": "proved",
   "theorems": [
    "RFS.FastRunsProps.C194_weights"
   ],
   "note": "All runs; one thread."
  },
  {
   "property": "C195",
   "status": "partial",
   "theorems": [
    "RFS.FastRunsProps.C195_threshold_partial",
    "RFS.FastRunsProps.C195_violated"
   ],
   "note": "Proved for a prior of at least one half; violated by smaller ones, because new landmarks are added after pruning (C195_violated)."
  },
  {
   "property": "C196",
   "status": "proved",
   "theorems": [
    "RFS.FastRunsProps.C196_bookkeeping",
    "RFS.FastRunsProps.C196_predict",
    "RFS.FastRunsProps.C196_empty",
    "RFS.FastRunsProps.C196_counters",
    "RFS.FastRunsProps.C196_decision"
   ],
   "note": "All runs; one thread. Hypotheses after the first begin with the candidate list left at their index (C97)."
  },
  {
   "property": "C197",
   "status": "partial",
   "theorems": [
    "RFS.ConfigProps.C197_written_partial",
    "RFS.ConfigProps.C197_whole_partial",
    "RFS.ConfigProps.C197_default_partial",
    "RFS.ConfigProps.C197_narrow_default",
    "RFS.ConfigProps.C197_threshold_violated",
    "RFS.ConfigProps.C197_always_resamples"
   ],
   "note": "Proved for every option of every program whose variable has the type that the option is read as, for whole numbers in the two other options, and for defaults. Violated by effNParticle (all filter programs) and addedClutter, real variables read as whole numbers: every shipped file writes a decimal point, so the threshold silently becomes the number of particles (C197_threshold_violated) and the filters resample at every opportunity (C197_always_resamples)."
  },
  {
   "property": "C198",
   "status": "partial",
   "theorems": [
    "RFS.ConfigProps.C198_accepted_iff",
    "RFS.ConfigProps.C198_shipped_partial",
    "RFS.ConfigProps.C198_shipped_violated"
   ],
   "note": "The exact condition of acceptance is proved for all programs. Violated for default files: the amplitude program rejects its default file, the CityTrees programs have none in the repository (C198_shipped_violated)."
  },
  {
   "property": "C199",
   "status": "partial",
   "theorems": [
    "RFS.ConfigProps.C199_mandatory_partial",
    "RFS.ConfigProps.C199_replaced",
    "RFS.ConfigProps.C199_replaced_violated"
   ],
   "note": "Proved for mandatory options. Violated by every option with a default: its text is silently replaced (C199_replaced, C199_replaced_violated)."
  },
  {
   "property": "C200",
   "status": "partial",
   "theorems": [
    "RFS.ConfigProps.C200_effective_partial",
    "RFS.ConfigProps.C200_ignored_violated"
   ],
   "note": "Proved for all options but those listed; violated by those (C200_ignored_violated): innovation thresholds of the XY and 6-D programs, process noise inflation of the Victoria Park programs, three weighting options of the CB-MeMBer program, iterations and ospaC of the Ceres programs. The CityTrees LMB program is left out."
  },
  {
   "property": "C201",
   "status": "partial",
   "theorems": [
    "RFS.ConfigProps.C201_logs_partial",
    "RFS.ConfigProps.C201_prefix_violated",
    "RFS.ConfigProps.C201_empty_violated"
   ],
   "note": "Proved for the seven programs that add a slash and for directories written with one; violated by the seven others (C201_prefix_violated) and by an empty directory (C201_empty_violated)."
  },
  {
   "property": "C202",
   "status": "partial",
   "theorems": [
    "RFS.ConfigProps.C202_pd_partial",
    "RFS.ConfigProps.C202_comment_violated"
   ],
   "note": "Proved for lists without comments; violated by comments: a commented-out number is used, another comment stops the program (C202_comment_violated)."
  },
  {
   "property": "C203",
   "status": "partial",
   "theorems": [
    "RFS.ConfigProps.C203_noise_partial",
    "RFS.ConfigProps.C203_park_violated"
   ],
   "note": "Proved for all simulators and for the measurement noise of the Victoria Park programs; violated by their process noise, which ignores the inflation factor (C203_park_violated). The CityTrees LMB program is left out."
  },
  {
   "property": "C204",
   "status": "proved",
   "theorems": [
    "RFS.FastThreadsProps.C204_private",
    "RFS.FastThreadsProps.C204_serial",
    "RFS.FastThreadsProps.C204_runs",
    "RFS.FastThreadsProps.C204_number",
    "RFS.FastThreadsProps.C204_defined_partial",
    "RFS.FastThreadsProps.C204_every_order"
   ],
   "note": "Model at the granularity of critical sections and of the work on one hypothesis; within a step, privacy of the places is what makes it atomic (C204_private). C204_defined_partial excludes errors of updateMap on one particle, as C193."
  },
  {
   "property": "C205",
   "status": "partial",
   "theorems": [
    "RFS.FastThreadsProps.C205_orders_partial",
    "RFS.FastThreadsProps.C205_schedules_partial",
    "RFS.FastThreadsProps.C205_condition_partial",
    "RFS.FastThreadsProps.C205_violated"
   ],
   "note": "Proved after a resampling, and while the candidate lists beyond the particles are empty, which holds in every run until the first resampling (C205_condition_partial). Violated otherwise: the copies start with candidates left at their index (C205_violated)."
  },
  {
   "property": "C206",
   "status": "proved",
   "theorems": [
    "RFS.PHDTProps.C206_tables",
    "RFS.PHDTProps.C206_stale"
   ],
   "note": "For every table, map, scan and model: updateMap on the tables of a thread gives the closed form of C43-C47, and never leaves the tables (C206_tables)."
  },
  {
   "property": "C207",
   "status": "proved",
   "theorems": [
    "RFS.PHDTProps.C207_threads",
    "RFS.PHDTProps.C207_ends",
    "RFS.PHDTProps.C207_loops",
    "RFS.PHDTProps.C207_same",
    "RFS.PHDTProps.C207_update"
   ],
   "note": "For every number of threads, division and interleaving of the steps: no step fails, the result is that of the sequential update (C207_threads, C207_loops, C207_update), and the loop ends (C207_ends). The number of threads that run the loop is at most the number at construction (omp_get_max_threads)."
  },
  {
   "property": "C208",
   "status": "partial",
   "theorems": [
    "RFS.PHDTProps.C208_frame",
    "RFS.PHDTProps.C208_local",
    "RFS.PHDTProps.C208_private_partial",
    "RFS.PHDTProps.C208_single_partial",
    "RFS.PHDTProps.C208_timer_partial",
    "RFS.PHDTProps.C208_violated_always",
    "RFS.PHDTProps.C208_violated"
   ],
   "note": "The code violates the claim: every thread writes threshold_mahalanobisDistance2_mapUpdate_ (line 592), and with the cluster process stops timer_particleWeighting_ (lines 580, 669), without protection (C208_violated, C208_violated_always). Proved: nothing else is ever contended, and the threshold always has the configured value inside an iteration (C208_private_partial); one thread alone has no race (C208_single_partial); the timer is never left running, whatever the interleaving (C208_timer_partial)."
  },
  {
   "property": "C209",
   "status": "proved",
   "theorems": [
    "RFS.PSORunsProps.C209_run",
    "RFS.PSORunsProps.C209_new",
    "RFS.PSORunsProps.C209_single_pose"
   ],
   "note": "For every run with at least one particle and, if particles are optimised, one odometry input: the run ends in a state whose containers fit (C209_run). Without odometry inputs optimizeParticles reads a pose that does not exist (C209_single_pose)."
  },
  {
   "property": "C210",
   "status": "proved",
   "theorems": [
    "RFS.PSORunsProps.C210_origin"
   ],
   "note": "For every run: first pose zero in every line written, in every particle and in the best particle (C210_origin)."
  },
  {
   "property": "C211",
   "status": "partial",
   "theorems": [
    "RFS.PSORunsProps.C211_violated_sim",
    "RFS.PSORunsProps.C211_violated_orb",
    "RFS.PSORunsProps.C211_shift_partial"
   ],
   "note": "The code violates the claim: the particles are moved between evaluation and writing (C211_violated_orb), and rfspsoslam1dSim/2dSim write the first lines before any evaluation (C211_violated_sim). Proved: without optimisation the likelihood is that of the same particle in the iteration before (C211_shift_partial)."
  },
  {
   "property": "C212",
   "status": "partial",
   "theorems": [
    "RFS.PSORunsProps.C212_rounds",
    "RFS.PSORunsProps.C212_orb_partial",
    "RFS.PSORunsProps.C212_violated"
   ],
   "note": "The code of rfspsoslam1dSim and rfspsoslam2dSim violates the claim: one iteration less (C212_violated). Proved: the exact lines for all programs (C212_rounds), which is the claim for rfspsoorbslam1dSim (C212_orb_partial)."
  },
  {
   "property": "C213",
   "status": "partial",
   "theorems": [
    "RFS.PSORunsProps.C213_violated_empty",
    "RFS.PSORunsProps.C213_violated",
    "RFS.PSORunsProps.C213_logged_partial",
    "RFS.PSORunsProps.C213_violated_unlogged",
    "RFS.PSORunsProps.C213_consistent_partial",
    "RFS.PSORunsProps.C213_truth_partial",
    "RFS.PSORunsProps.C213_violated_truth"
   ],
   "note": "The code violates the claim: nothing is ever written to bestParticlePose.dat (C213_violated_empty, C213_violated); with optimisation the best trajectory may be in no file (C213_violated_unlogged); at the end rfspsoslam1dSim/2dSim put the true trajectory in the search, so the best particle is never less likely than the truth (C213_violated_truth). Proved: without optimisation the best particle is in the files and at least as likely as all evaluated ones, for all schedules (C213_logged_partial); its likelihood is its own (C213_consistent_partial); rfspsoorbslam1dSim leaves it alone at the end (C213_truth_partial)."
  },
  {
   "property": "C214",
   "status": "partial",
   "theorems": [
    "RFS.PSORunsProps.C214_optimised_partial",
    "RFS.PSORunsProps.C214_inputs",
    "RFS.PSORunsProps.C214_scan",
    "RFS.PSORunsProps.C214_violated"
   ],
   "note": "The code violates the claim: the likelihood of the swarm and the objective order states differently (C214_scan, C214_violated). Proved: what the optimiser returned is written back, the objective gets no worse, and neither does a likelihood that orders states like the objective (C214_optimised_partial)."
  },
  {
   "property": "C215",
   "status": "partial",
   "theorems": [
    "RFS.HeapProps.C215_exact",
    "RFS.HeapProps.C215_plain",
    "RFS.HeapProps.C215_partial",
    "RFS.HeapProps.C215_filters_partial",
    "RFS.HeapProps.C215_violated_grow",
    "RFS.HeapProps.C215_violated_shrink",
    "RFS.HeapProps.C215_violated_unfetched",
    "RFS.HeapProps.C215_violated_early"
   ],
   "note": "The code violates the claim: fetched without and then with room for the extension, the destructor deletes rows that do not exist (C215_violated_grow); the other order loses blocks (C215_violated_shrink); a partition that is never fetched leads to an uninitialised read (C215_violated_unfetched). Proved: exactly when destruction is defined and how many blocks are lost, for all sequences of calls (C215_exact); clean if every partition is fetched with one flag (C215_partial), as in the filters (C215_filters_partial)."
  },
  {
   "property": "C216",
   "status": "partial",
   "theorems": [
    "RFS.HeapProps.C216_exact",
    "RFS.HeapProps.C216_partial",
    "RFS.HeapProps.C216_violated_one",
    "RFS.HeapProps.C216_violated_twice"
   ],
   "note": "The code violates the claim: a reduced matrix with one row is lost (C216_violated_one), as is the first of two (C216_violated_twice). Proved: the exact number of lost blocks for all sequences of calls (C216_exact); none if reduced once, not to one row (C216_partial)."
  },
  {
   "property": "C217",
   "status": "proved",
   "theorems": [
    "RFS.HeapProps.C217_brute"
   ],
   "note": ""
  },
  {
   "property": "C218",
   "status": "partial",
   "theorems": [
    "RFS.HeapProps.C218_violated_general",
    "RFS.HeapProps.C218_violated_square",
    "RFS.HeapProps.C218_violated_brute",
    "RFS.HeapProps.C218_violated_others",
    "RFS.HeapProps.C218_fresh_partial"
   ],
   "note": "The code violates the claim: the classes have no copy constructors, so that the second destruction frees blocks that are freed already, for all objects (C218_violated_general, C218_violated_square, C218_violated_brute, C218_violated_others). Only a brute force search that was never run can be copied (C218_fresh_partial)."
  },
  {
   "property": "C219",
   "status": "partial",
   "theorems": [
    "RFS.HeapProps.C219_exact",
    "RFS.HeapProps.C219_partial",
    "RFS.HeapProps.C219_violated"
   ],
   "note": "The code violates the claim: two blocks are lost in every update whose table is reduced to one row (C219_violated). Proved: nothing is freed wrongly and the exact number of lost blocks (C219_exact); none without such updates (C219_partial)."
  },
  {
   "property": "C220",
   "status": "partial",
   "theorems": [
    "RFS.HeapProps.C220_exact_partial",
    "RFS.HeapProps.C220_violated"
   ],
   "note": "The code violates the claim: three blocks per particle and call are lost (C220_violated). Proved: nothing is freed wrongly and the exact number (C220_exact_partial)."
  },
  {
   "property": "C221",
   "status": "partial",
   "theorems": [
    "RFS.HeapProps.C221_violated",
    "RFS.HeapProps.C221_violated_twice",
    "RFS.HeapProps.C221_partial"
   ],
   "note": "The code violates the claim: one run loses six blocks with data association and two without (C221_violated); a second run uses a null pointer (C221_violated_twice). Proved: clean if not run (C221_partial)."
  },
  {
   "property": "C222",
   "status": "proved",
   "theorems": [
    "RFS.MBTProps.C222_update",
    "RFS.MBTProps.C222_same",
    "RFS.MBTProps.C222_cbm",
    "RFS.MBTProps.C222_lmb",
    "RFS.MBTProps.C222_predict"
   ],
   "note": "update with threads equals the sequential update of Model/MBFilter (C222_update), for both filters (C222_cbm, C222_lmb)."
  },
  {
   "property": "C223",
   "status": "partial",
   "theorems": [
    "RFS.MBTProps.C223_frame",
    "RFS.MBTProps.C223_local",
    "RFS.MBTProps.C223_partial",
    "RFS.MBTProps.C223_single",
    "RFS.MBTProps.C223_violated",
    "RFS.MBTProps.C223_violated_full"
   ],
   "note": "The code violates the claim: every thread writes threshold_mahalanobisDistance2_mapUpdate_ for every particle with tracks, without protection (C223_violated, C223_violated_full). Proved: nothing else is ever contended (C223_partial), nothing reads the member (C223_local), one thread alone has no race (C223_single)."
  },
  {
   "property": "C224",
   "status": "partial",
   "theorems": [
    "RFS.MBTProps.C224_partial",
    "RFS.MBTProps.C224_violated",
    "RFS.MBTProps.C224_violated_full"
   ],
   "note": "The code violates the claim: kfs_ has as many elements as there were threads at construction and is indexed by the thread number (C224_violated, C224_violated_full). Proved for at most that many threads (C224_partial)."
  },
  {
   "property": "C225",
   "status": "proved",
   "theorems": [
    "RFS.TimingProps.C225_elapsed",
    "RFS.TimingProps.C225_new"
   ],
   "note": "For every sequence of calls; the boost timer is modelled after its documentation."
  },
  {
   "property": "C226",
   "status": "partial",
   "theorems": [
    "RFS.TimingProps.C226_exact",
    "RFS.TimingProps.C226_partial",
    "RFS.TimingProps.C226_violated",
    "RFS.TimingProps.C226_violated_full"
   ],
   "note": "The code violates the claim: with the cluster process and one thread the particle weighting is inside the map update and counted twice (C226_violated, C226_violated_full). Proved: the exact value in all cases (C226_exact); the claim in all other cases (C226_partial)."
  },
  {
   "property": "C227",
   "status": "partial",
   "theorems": [
    "RFS.TimingProps.C227_exact",
    "RFS.TimingProps.C227_partial",
    "RFS.TimingProps.C227_violated",
    "RFS.TimingProps.C227_violated_full"
   ],
   "note": "The code violates the claim: in a build with OpenMP, the default, the timers inside the map update are not compiled and the line Total misses the whole map update (C227_violated, C227_violated_full). Proved: the exact value in all cases (C227_exact), never more than the time spent, and exact without OpenMP if the untimed parts take no time (C227_partial)."
  },
  {
   "property": "C228",
   "status": "partial",
   "theorems": [
    "RFS.DblProps.C228_exact",
    "RFS.DblProps.C228_resample",
    "RFS.DblProps.C228_uniform_partial",
    "RFS.DblProps.C228_bound_partial",
    "RFS.DblProps.C228_thousand_partial",
    "RFS.DblProps.C228_violated"
   ],
   "note": "The code violates the claim: with 20 particles of which one has all the weight, and with 200, the last sample point rounds to more than the total weight for the largest random numbers and the loop reads past the vector (C228_violated). Proved for every rounding to nearest: the exact condition and which particles are drawn (C228_exact, C228_resample); no overrun for weights all equal to one (C228_uniform_partial) and for random numbers up to 1 - n(2N+n+1)/2^53 (C228_bound_partial, C228_thousand_partial)."
  },
  {
   "property": "C229",
   "status": "partial",
   "theorems": [
    "RFS.DblProps.C229_violated",
    "RFS.DblProps.C229_partial"
   ],
   "note": "The code violates the claim for all inputs: with all weights zero the set always becomes copies of the first particle (C229_violated). Proved: with at least one positive weight no NaN arises and particles of weight zero are not selected (C229_partial)."
  },
  {
   "property": "C230",
   "status": "partial",
   "theorems": [
    "RFS.DblProps.C230_partial",
    "RFS.DblProps.C230_violated",
    "RFS.DblProps.C230_dyadic_partial"
   ],
   "note": "The code violates the claim: 1.2 s becomes 1.199999999 s (C230_violated). Proved: the result is exact or one nanosecond low up to 2^22 s (C230_partial), and exact for multiples of 1/512 s (C230_dyadic_partial)."
  },
  {
   "property": "C231",
   "status": "partial",
   "theorems": [
    "RFS.DblProps.C231_partial",
    "RFS.DblProps.C231_violated"
   ],
   "note": "The code violates the claim: 5.1 s comes back one nanosecond low, a time of the size of a Unix time 120 ns low (C231_violated). Proved: same or one nanosecond low for seconds below 2^22 (C231_partial)."
  },
  {
   "property": "C232",
   "status": "partial",
   "theorems": [
    "RFS.DblProps.C232_partial",
    "RFS.DblProps.C232_violated"
   ],
   "note": "The code violates the claim: for an angle of 2^60 the loop does not end (C232_violated). Proved: ends within |b|/5 + 2 tests with a result in [-PI, PI] for all angles up to 2^50 (C232_partial)."
  },
  {
   "property": "C233",
   "status": "partial",
   "theorems": [
    "RFS.HungDblProps.C233_safe_partial",
    "RFS.HungDblProps.C233_grid_partial",
    "RFS.HungDblProps.C233_violated",
    "RFS.HungDblProps.C233_minimise_violated"
   ],
   "note": "violated: for the 3 by 3 matrix 2837.1 845.1 8189.3 / 5653.5 6532.8 2920.2 / 7752.2 9610.1 9996.0 the function returns false in doubles (the search of step 4 allows 1e-12, the labels have drifted apart by more). Proved for all matrices and roundings: it ends, stays inside its arrays, and a solution is a permutation with the sum in doubles of its entries; proved for multiples of one power of two (not below 2^-39, 53 bits): it returns true with a best assignment."
  },
  {
   "property": "C234",
   "status": "partial",
   "theorems": [
    "RFS.HungDblProps.C234_bound_partial",
    "RFS.HungDblProps.C234_same_sign_partial",
    "RFS.HungDblProps.C234_violated"
   ],
   "note": "violated: after a call with 0.1 -1000 / -1000 0.3 the entry 0.1 has become 0.10000000000002274. Proved: no entry changes by more than M * 2^-51 (M bounds the entries), nothing changes if no offset is needed (maximisation of non-negative, minimisation of non-positive entries) or if all entries are multiples of one power of two (C233_grid_partial)."
  },
  {
   "property": "C235",
   "status": "partial",
   "theorems": [
    "RFS.MurtyDblProps.C235_safe_partial",
    "RFS.MurtyDblProps.C235_grid_partial",
    "RFS.MurtyDblProps.C235_violated"
   ],
   "note": "violated: for a matrix of seven landmarks and seven measurements of the form that the filters build the Hungarian method returns false in doubles; findNextBest does not look at that and hands out an array and a score that were never written (the likelihood sum adds exp of it, and the next call uses the array as indices). Proved for all matrices: either that happens or the result is a permutation with its sum in doubles over entries that differ by at most M * 2^-51; best and exact if the entries are multiples of one power of two in bounds."
  },
  {
   "property": "C236",
   "status": "proved",
   "theorems": [
    "RFS.MurtyDblRunsProps.C236_defined",
    "RFS.MurtyDblRunsProps.C236_filters"
   ],
   "note": "Hypothesis: the first call returned (C235 shows that it need not). The default bigNum 10000; bounds on the entries as in the statement. C236_filters says the same for the matrices the filters build, for the log-likelihood of the association that is returned."
  },
  {
   "property": "C237",
   "status": "proved",
   "theorems": [
    "RFS.MurtyDblRunsProps.C237_enumeration"
   ],
   "note": "Hypothesis: the first call returned. Nothing is said about the quality of the first result, see C235_grid_partial; the ordering starts with the second."
  },
  {
   "property": "C238",
   "status": "partial",
   "theorems": [
    "RFS.PHDLeakProps.C238_exact",
    "RFS.PHDLeakProps.C238_partial",
    "RFS.PHDLeakProps.C238_violated"
   ],
   "note": "Holds if all weights are positive (C238_partial); C238_exact says which landmarks are lost otherwise. Violated by a Gaussian of weight zero, which an update leaves where the probability of detection is 1 if nothing is pruned (C238_violated)."
  },
  {
   "property": "C239",
   "status": "partial",
   "theorems": [
    "RFS.PHDTProps.C239_partial",
    "RFS.PHDTProps.C239_violated",
    "RFS.PHDTProps.C239_violated_full"
   ],
   "note": "Holds for at most as many threads as at construction (C239_partial). A further thread that gets a particle with a map accesses wTables_ outside its bounds, in every interleaving (C239_violated)."
  },
  {
   "property": "C240",
   "status": "proved",
   "theorems": [
    "RFS.VisualProps.C240_exclusive"
   ],
   "note": "In every reachable state of the two threads; VTK calls pause from the display thread only."
  },
  {
   "property": "C241",
   "status": "partial",
   "theorems": [
    "RFS.VisualProps.C241_partial",
    "RFS.VisualProps.C241_frozen",
    "RFS.VisualProps.C241_violated"
   ],
   "note": "As long as the interaction has not been ended all calls can be completed (C241_partial). run returns without unlocking display_mutex_: afterwards no call of update ever returns (C241_frozen), and this can happen after any number of calls (C241_violated)."
  },
  {
   "property": "C242",
   "status": "proved",
   "theorems": [
    "RFS.VisualProps.C242_phd"
   ],
   "note": "C242_phd; any sequence of calls after setup."
  },
  {
   "property": "C243",
   "status": "partial",
   "theorems": [
    "RFS.VisualProps.C243_partial",
    "RFS.VisualProps.C243_violated"
   ],
   "note": "Holds if every track that is shown has only present Gaussians and one of positive weight (C243_partial). A track without Gaussians makes update read an element that does not exist (C243_violated; such tracks arise, see C179)."
  },
  {
   "property": "C244",
   "status": "proved",
   "theorems": [
    "RFS.VisualProps.C244_lines",
    "RFS.VisualProps.C244_range",
    "RFS.VisualProps.C244_sim"
   ],
   "note": "C244_lines and C244_range together give the exact number of calls; C244_sim applies it to the simulator."
  },
  {
   "property": "C245",
   "status": "partial",
   "theorems": [
    "RFS.VisualProps.C245_partial",
    "RFS.VisualProps.C245_violated"
   ],
   "note": "The estimate is drawn from the second pose of the truth on, the truth up to its last but one pose (C245_partial), so the lines differ (C245_violated)."
  },
  {
   "property": "C246",
   "status": "partial",
   "theorems": [
    "RFS.FastMoreProps.C246_partial",
    "RFS.FastMoreProps.C246_violated",
    "RFS.FastMoreProps.C246_violated_full"
   ],
   "note": "false of the code: a thread that did not exist at construction reads past the end of kfs_ (C246_violated, C246_violated_full); with no more threads than at construction the loop does what C204 and C205 describe (C246_partial)"
  },
  {
   "property": "C247",
   "status": "partial",
   "theorems": [
    "RFS.OspaFileProps.C247_partial",
    "RFS.OspaFileProps.C247_last_lost",
    "RFS.OspaFileProps.C247_violated"
   ],
   "note": "false of the code: the last point of a file that ends with a number is left out (C247_last_lost, C247_violated); proved for files with white space after the last number (C247_partial)"
  },
  {
   "property": "C248",
   "status": "proved",
   "theorems": [
    "RFS.FastFineProps.C248_no_race",
    "RFS.FastFineProps.C248_frame",
    "RFS.FastFineProps.C248_local",
    "RFS.FastFineProps.C248_serial",
    "RFS.FastFineProps.C248_failures",
    "RFS.FastFineProps.C248_critical"
   ],
   "note": "for threads that existed at construction (for others see C246); the accesses of a step are listed in the model and shown to be all it reads and writes (C248_frame, C248_local)"
  },
  {
   "property": "C249",
   "status": "partial",
   "theorems": [
    "RFS.InitTrajProps.C249_keeps",
    "RFS.InitTrajProps.C249_odometry2d",
    "RFS.InitTrajProps.C249_ackerman",
    "RFS.InitTrajProps.C249_odometry1d_partial",
    "RFS.InitTrajProps.C249_odometry1d_violated",
    "RFS.InitTrajProps.C249_unset"
   ],
   "note": "false of odometry on a line, whose step does not set the time (C249_odometry1d_violated; the rest in C249_odometry1d_partial); proved for every motion model that keeps the time, so for planar odometry and Ackerman"
  },
  {
   "property": "C250",
   "status": "proved",
   "theorems": [
    "RFS.PFProps.C250_copy",
    "RFS.PFProps.C250_ids"
   ],
   "note": ""
  },
  {
   "property": "C251",
   "status": "proved",
   "theorems": [
    "RFS.SITExportProps.C251_export"
   ],
   "note": ""
  },
  {
   "property": "C252",
   "status": "partial",
   "theorems": [
    "RFS.JCBBDistProps.C252_certain_partial",
    "RFS.JCBBDistProps.C252_recursion_partial",
    "RFS.JCBBDistProps.C252_blocks_partial",
    "RFS.JCBBDistProps.C252_noiseless_partial",
    "RFS.JCBBDistProps.C252_single",
    "RFS.JCBBDistProps.C252_undefined",
    "RFS.JCBBDistProps.C252_dof_partial",
    "RFS.JCBBDistProps.C252_dof_violated",
    "RFS.JCBBDistProps.C252_violated",
    "RFS.JCBBDistProps.C252_dense_violated"
   ],
   "note": "The code violates the full claim. With an uncertain pose the measurement noise is added to the cross-covariances of pairings as well, so the distance is wrong (C252_violated: 2 instead of 1); with a dense covariance the pose-landmark correlation is left out (C252_dense_violated); when the first measurement is paired with at least two others already paired the blocks have different sizes, which is undefined (C252_undefined), and the gate has d degrees of freedom too few (C252_dof_violated). Proved: the distance is right for a certain pose with block covariance (C252_certain_partial), the recursion is right whenever the blocks given to it are (C252_recursion_partial), and it is right for single pairings (C252_single)."
  },
  {
   "property": "C253",
   "status": "partial",
   "theorems": [
    "RFS.CeresLinProps.C253_gradient_scaled",
    "RFS.CeresLinProps.C253_gradient_partial",
    "RFS.CeresLinProps.C253_value_partial",
    "RFS.CeresLinProps.C253_ignored_violated",
    "RFS.CeresLinProps.C253_violated",
    "RFS.CeresLinProps.C253_known_violated",
    "RFS.CeresLinProps.C253_stored_violated",
    "RFS.CeresLinProps.C253_gradient_violated",
    "RFS.CeresLinProps.C253_no_exception"
   ],
   "note": "The code violates the full claim: the detection probability of the measurement model is overwritten by 0.9 (C253_ignored_violated, C253_violated: 1.9 instead of 1.5), measurements with a known landmark are weighed without it (C253_known_violated), and the stored gradients contain the likelihood once too often, so that the gradient of a partition with entries c is c times the derivative (C253_gradient_scaled, C253_stored_violated, C253_gradient_violated: 5/12 instead of 5/6). Proved: the value for detection probability 0.9 without known landmarks, for at most eight landmarks and measurements; the gradient where entries are 1; no exception while likelihoods are at most e^30."
  },
  {
   "property": "C254",
   "status": "proved",
   "theorems": [
    "RFS.PredictProps.C254_tracks",
    "RFS.PredictProps.C254_cbm",
    "RFS.PredictProps.C254_lmb",
    "RFS.PredictProps.C254_cbm_runs",
    "RFS.PredictProps.C254_lmb_runs",
    "RFS.PredictProps.C254_phd",
    "RFS.PredictProps.C254_phd_births",
    "RFS.PredictProps.C254_fastslam"
   ],
   "note": ""
  },
  {
   "property": "C255",
   "status": "proved",
   "theorems": [
    "RFS.PSOProps.C255_draws",
    "RFS.PSOProps.C255_fresh"
   ],
   "note": "positions in the stream given in closed recursive form; C255_fresh: the ranges of positions of different decisions are disjoint"
  },
  {
   "property": "C256",
   "status": "partial",
   "theorems": [
    "RFS.SITProps.C256_resolution_partial",
    "RFS.SITProps.C256_shared_partial",
    "RFS.SITProps.C256_violated"
   ],
   "note": "The code violates the full claim for data on a face of the grid (C256_violated: 1.2 and 2.5 share a box of edge 4 with minBoxSize 1 after a removal). Proved when no datum lies on a face."
  },
  {
   "property": "C257",
   "status": "proved",
   "theorems": [
    "RFS.PSORunsProps.C257_trajectory",
    "RFS.PSORunsProps.C257_scale",
    "RFS.PSORunsProps.C257_particle",
    "RFS.PSORunsProps.C257_move",
    "RFS.PSORunsProps.C257_landmarks",
    "RFS.PSORunsProps.C257_init",
    "RFS.PSORunsProps.C257_topology",
    "RFS.PSORunsProps.C257_topology_fresh"
   ],
   "note": ""
  },
  {
   "property": "C258",
   "status": "proved",
   "theorems": [
    "RFS.SimNumbers.C258_trajectory",
    "RFS.SimNumbers.C258_trajectory6",
    "RFS.SimNumbers.C258_measurements",
    "RFS.SimNumbers.C258_landmarks6",
    "RFS.SimNumbers.C258_measurements6",
    "RFS.SimNumbers.C258_trajectory1",
    "RFS.SimNumbers.C258_measurements1",
    "RFS.SimNumbers.C258_run",
    "RFS.SimNumbers.C258_run6",
    "RFS.SimNumbers.C258_run1",
    "RFS.SimNumbers.C258_places"
   ],
   "note": ""
  },
  {
   "property": "C259",
   "status": "proved",
   "theorems": [
    "RFS.SimLmk.C259_steps",
    "RFS.SimLmk.C259_steps1",
    "RFS.SimLmk.C259_stepsOrb",
    "RFS.SimLmk.C259_landmarks",
    "RFS.SimLmk.C259_landmarks1",
    "RFS.SimLmk.C259_landmarksOrb",
    "RFS.SimLmk.C259_safe"
   ],
   "note": ""
  }
 ]
}
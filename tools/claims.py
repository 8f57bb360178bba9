c("C01","proved",["Parameters.C01_owner_exists_unique","Parameters.C01_owner_monotone","Parameters.C01_owner_contiguous","Parameters.C01_owner_block","Parameters.C01_owner_surjective","Parameters.C01_first_segment"],"for all rates >= cluster size >= 1")
c("C02","proved",["Parameters.C02_crash_iff","Parameters.C02_counterexample"],"the unconditional claim is false; the exact crash condition is proved")
c("C03","proved",["ClusterNodes.C03_own_idx","ClusterNodes.C03_next","ClusterNodes.C03_previous","ClusterNodes.C03_next_previous_inverse","ClusterNodes.C03_alone","ClusterNodes.C03_broadcast","ClusterNodes.C03_last_position"],"all cluster sizes")
c("C17","proved",["DirectNet.C17_done_complete","DirectNet.C17_no_loss","DirectNet.C17_quiescent_done","DirectNet.C17_terminates","DirectNet.C17_no_deadlock"],"safety, no loss, termination and deadlock freedom over all schedules")
c("C19","proved",["HelperProto.C19_helper_pool","HelperProto.C19_underflow"],"all causal interleavings")
c("C04","proved",["Listener.C04_sub_starts_once","Listener.C04_sub_not_early","Listener.C04_main_starts_once","Listener.C04_index_consistent","Listener.C04_rejoin_starts_twice"],"all interleavings of distinct join events and the roster; a repeated join event would start training twice (witness)")
c("C05","proved",["DataReader.C05_windows_iff","DataReader.C05_windows","DataReader.C05_no_data","DataReader.C05_crash","DataReader.C05_counterexample","DataReader.C05_short_partition_counterexample"],"exact condition on N, k and L, for every file; for L <= N/k the other sizes crash (C05_crash)")
c("C06","proved",["DataReader.C06_single_node"],"")
c("C07","proved",["Columns.C07_selects_range","Columns.C07_invalid_crashes","Columns.C07_crash_iff"],"for rows of equal length (enforced by the csv crate)")
c("C08","proved",["Stats.C08_global_minmax","Stats.C08_not_early"],"all arrival orders at the main node")
c("C09","proved",["Stats.C09_count","Stats.C09_mean","Stats.C09_message","Stats.C09_rows_of_windows","Stats.C09_variance_exact","Stats.C09_variance_iff","Stats.C09_variance_same_means","Stats.C09_variance_counterexample","Stats.C09_arrival_order_counterexample"],"count and mean are right; the exact (wrong) variance of the code is proved, over any field, and when it is right, over ordered fields")
c("C10","proved",["Stats.C10_exactly_once"],"")
c("C11","proved",["Preproc.C11_safety","Preproc.C11_progress","Preproc.C11_terminates","Preproc.C11_hang"],"all answer orders")
c("C12","proved",["PreprocessorHelper.C12_helper_identity","Preproc.C12_data_unchanged"],"")
c("C13","proved",["DataMgr.C13_conservation","DataMgr.C13_all_processed","DataMgr.C13_terminates"],"all interleavings")
c("C14","proved",["PhaseSpace.C14_windowed_sums","PhaseSpace.C14_crash"],"")
c("C15","proved",["PhaseSpace.C15_partition_points","PhaseSpace.C15_point_ids","PhaseSpace.C15_concatenation"],"for the partitionings for which C05 holds")
c("C16","proved",["PhaseSpace.C16_reference_rows"],"")
c("C58","proved",["PhaseSpace.C58_last_row_ignored"],"")
c("C18","proved",["RingNet.C18_correct_iff","RingNet.C18_exact_order","RingNet.C18_race_misses","RingNet.C18_wrong_everywhere","RingNet.C18_right_possible","RingNet.C18_processing_order","RingNet.C18_rotation_complete","RingNet.C18_done_once","RingNet.C18_quiescent_done","RingNet.C18_terminates","RingNet.C18_two_nodes","RingNet.C18_counterexample"],"completion exactly once, progress and termination in every schedule; the contents are right if and only if no node enters with both buffered and waiting messages (always for two nodes); for every larger cluster there is a schedule in which they are wrong")
c("C25","proved",["SegmentId.C25_segment_iff_sector","SegmentId.C25_exists_unique","SegmentId.C25_polar","SegmentId.C25_rate_zero"],"over the reals; f32 rounding is outside the model")
c("C26","proved",["Trans.C26_valid_iff","Trans.C26_step_or_reverse","Trans.C26_both_iff"],"all rates")
c("C30","proved",["Trans.C30_segments","Trans.C30_mem_iff","Trans.C30_tasks"],"all rates and valid transitions; per node with multiplicities")
c("C27","proved",["SegNet.C27_stored_at_owner","SegNet.C27_all_stored"],"all schedules, self correction off (with self correction the same code runs on the mirrored points)")
c("C28","proved",["SegNet.C28_never_done","SegNet.C28_progress_of_transitions","SegNet.C28_crash_cause","SegNet.C28_terminates","SegNet.C28_race_counterexample","SegNet.C28_hang_counterexample"],"the unconditional claim is false; exact conditions for hang and crash are proved")
c("C29","proved",["SelfCorrection.C29_local_decision","SelfCorrection.C29_distributed_decision","SelfCorrection.C29_totals","SelfCorrection.C29_totals_exact","SelfCorrection.C29_contribution","SelfCorrection.C29_distributed_counterexample","SelfCorrection.C29_mirror_reverses","SelfCorrection.C29_mirror_improves","SegmentId.C29_mirror_segment","SegmentId.C29_odd_rate_counterexample","SegmentId.C29_border_counterexample"],"exact decision for one node and for several nodes; the totals are right exactly in the schedules without the race of C18. Points over the reals")
c("C31","proved",["Geometry.C31_sound","Geometry.C31_none_iff","Geometry.C31_border_none_iff","Geometry.C31_crossing_below_half_turn","Geometry.C31_distance","Geometry.C31_opposite_counterexample","Geometry.C31_wrong_side_counterexample"],"any dimension, over the reals. Soundness, uniqueness and exact failure condition are proved for all inputs; that the point is on the step itself and on the ray of the border is proved for steps of at most rate/2 - 1 borders, with counterexamples for half turns")
c("C32","proved",["InterNet.C32_stored_at_owner","InterNet.C32_local_total","InterNet.C32_quiescent_done","InterNet.C32_end_to_end"],"all schedules; end to end with segmentation")
c("C33","proved",["NodeEst.C33_nodes","NodeEst.C33_labels","NodeEst.C33_crash_iff","NodeEst.C33_kde_crash_iff"],"all inputs; the clustering enters through the assumption of one label per intersection, which is proved for the code's clustering")
c("C34","proved",["Kde.C34_labels","Kde.C34_empty_crash"],"all label vectors")
c("C35","proved",["Kde.C35_peaks","Kde.C35_border","Kde.C35_empty_crash"],"all orders and density vectors")
c("C36","proved",["Kde.C36_closest","Kde.C36_total"],"")
c("C37","proved",["Kde.C37_ranges","Kde.C37_any_order","Kde.C37_zero_threads"],"all thread counts and arrival orders")
c("C38","proved",["Kde.C38_crash_iff","Kde.C38_counterexample"],"the unconditional claim is false; the exact crash condition is proved over the reals")
c("C39","proved",["Edges.C39_path"],"all rates, valid steps and labels")
c("C40","proved",["Edges.C40_step_crash_iff","Edges.C40_run_crash_iff","Edges.C40_counterexample"],"the unconditional claim is false; the exact crash condition is proved for one step and for the whole stage")
c("C41","proved",["Edges.C41_local_edges"],"all series without the crash of C40; nodes as provided by node estimation (Edges.localNodes_of_keys)")
c("C42","proved",["C42_asks","C42_asks_first","C42_recorded","C42_built"],"all rates, cluster sizes and point sequences; additionally a question about a node that does not exist can be recorded for the first step (exactly characterised)")
c("C43","proved",["Edges.C43_no_crash","Edges.C43_edges_of_borders","Edges.C43_union_of_borders","Edges.C43_lost","Edges.C43_counterexample"],"the unconditional claim is false; the exact border condition is proved: with it the union is the one-node result, without it an edge is missing in every schedule. Self correction off, at least two nodes (one node: C41)")
c("C59","proved",["QNet.C59_answers_complete","QNet.C59_crash_cause","QNet.C59_stuck_done","QNet.C59_terminates","QNet.C59_single_node"],"all schedules")
c("C44","proved",["TransNet.C44_edges_of_range","TransNet.C44_range","TransNet.C44_timeline","TransNet.C44_quiescent_done","TransNet.C44_crash_iff","TransNet.C44_order_counterexample"],"all schedules; additionally: the order of edges with the same end depends on the schedule")
c("C45","proved",["Weights.C45_local","Weights.C45_global","Weights.C45_exact","Weights.C45_two_nodes","Weights.C45_end_to_end","Weights.C45_race_counterexample"],"local counts for all inputs; the exchange is right for all edges exactly in the schedules without the race of C18; two nodes in every schedule")
c("C46","proved",["Weights.C46_local","Weights.C46_global","Weights.C46_exact","Weights.C46_edges_held_once","Weights.C46_end_to_end","Weights.C46_held_twice_counterexample"],"local degrees for all inputs; the exchange is right exactly in the schedules without the race of C18; that equal edges are held by one node is proved for edge estimation")
c("C54","proved",["ScoreInit.C54_at_most_once","ScoreInit.C54_quiescent_done","ScoreInit.C54_terminates"],"all interleavings of both rotations")
c("C47","proved",["EdgesInTime.C47_count","EdgesInTime.C47_shape","EdgesInTime.C47_zero","EdgesInTime.C47_crash_iff","EdgesInTime.C47_entries","EdgesInTime.C47_counterexample"],"all sorted lists; the exception is characterised")
c("C48","proved",["Scoring.C48_window","Scoring.C48_scores","Scoring.C48_known_local","Scoring.C48_known","Scoring.C48_unknown_crash"],"over the rationals. That every edge has a weight and a degree: one node always, several nodes in the schedules without the race of C18")
c("C49","proved",["ParScore.C49_parallel","ParScore.C49_scores","ParScore.C49_hang","ParScore.C49_zero_threads"],"all arrival orders; at least as many positions as threads, otherwise a hanging order exists for every such input")
c("C52","proved",["Scoring.C52_normalised","Scoring.C52_degenerate"],"over the rationals")
c("C55","proved",["Scoring.C55_fill_up","Scoring.C55_missing_only","Scoring.C55_zero_counterexample"],"")
c("C50","proved",["OvNet.C50_length","OvNet.C50_length_single"],"all lengths; several nodes: the last node has at least query_length+1 points, otherwise the code crashes or hangs")
c("C51","proved",["OvNet.C51_no_crash","OvNet.C51_scored","OvNet.C51_quiescent_scored","OvNet.C51_window_iff","OvNet.C51_window_last","OvNet.C51_complete","OvNet.C51_layout","OvNet.C51_counterexample"],"the unconditional claim is false; the exact condition is proved, and the exchange of overlaps in all schedules. The last node has at least query_length+1 points, and the edges of node 0 do not all end at point 0 (C47)")
c("C53","proved",["SubScores.C53_crash_iff","SubScores.C53_concatenation","SubScores.C53_missing_iff","SubScores.C53_all_present","SubScores.C53_exact","SubScores.C53_race_counterexample"],"exact crash condition and result for all arrival orders; every sub score arrives exactly in the schedules without the race of C18")
c("C56","proved",["C56_default","C56_counterexample","ParScore.C49_zero_threads","Kde.C37_zero_threads"],"the claim is false for one CPU; exact condition")
c("C57","proved",["Contribution.C57_uniqueness","Contribution.C57_range","Contribution.C57_record","Contribution.C57_query"],"all labellings, coordinates compared for equality; over the rationals")
c("C60","proved",["Contribution.C60_rows","Contribution.C60_written","Contribution.C60_crash_one_centre","Contribution.C60_crash_counterexample","Contribution.C60_ordinary_counterexample"],"the crash condition is exact, given registered nodes")
c("C61","proved",["Contribution.C61_median","Contribution.C61_counterexample"],"the exact claim is false; over the rationals")
c("C62","proved",["Pipeline.C62_complete","Pipeline.C62_distributed","Pipeline.C62_equal","Pipeline.C62_first","Pipeline.C62_first_fails","Pipeline.C62_same_scores","Pipeline.C62_order_counterexample","SubScores.C53_equals_local_of_overlaps","OvNet.C51_window_iff","OvNet.C51_counterexample","Edges.C43_counterexample","SubScores.C53_race_counterexample","TransNet.C44_order_counterexample"],"the unconditional claim is false, with counterexamples; equality of the delivered vectors is proved from the points on for all cluster sizes and schedules under sufficient conditions on the points (condition on the first edge: exact for the order, not for the scores). Points are given, with self correction the corrected ones (from the series on: C75), clustering independent of the order of its input (proved for the density clustering), rotations without the race of C18, the one-node run does not crash as in C40")
c("C20","proved",["TreeNet.C20_terminates","TreeNet.C20_combined_once","TreeNet.C20_quiescent_finalised","TreeNet.C20_each_once"],"all participant counts and schedules, provided that no message is lost (C23); the logarithm in next_2_power is exact")
c("C21","proved",["C21_chunks","C21_counterexample","TreeNet.C21_hang"],"the claim of one chunk per helper is false; the exact condition is proved, and that the reduction never finalises otherwise")
c("C22","proved",["Pca.C22_merge","Pca.C22_variance","Pca.C22_tree"],"over the reals; the QR decomposition is any function which keeps the Gram matrix; all means have arrived (C23)")
c("C24","proved",["Rotation.C24_rotation","Rotation.C24_reference","Rotation.C24_distances","Rotation.C24_nan_iff"],"over the reals; exactly for a reference vector parallel to z the code computes NaN")
c("C63","proved",["Pca.C63_sign","Pca.C63_unique_iff","Pca.C63_counterexample"],"over the reals; exact condition")
c("C23","proved",["HNet.C23_threads","HNet.C23_threads_terminates","HNet.C23_threads_finalised","HNet.C23_threads_summary","NNet.C23_exact","NNet.C23_entered_exact","NNet.C23_calm_exact","NNet.C23_calm_complete_iff","NNet.C23_lost","NNet.C23_calm_missing","NNet.C23_calm","NNet.C23_calm_three","NNet.C23_calm_progress","NNet.C23_calm_terminates","NNet.C23_counterexample_means","NNet.C23_counterexample_lost","NNet.C23_counterexample_four"],"threads of one node: all schedules. Nodes: exact cluster sizes for three classes of schedules; if nobody is early, every schedule ends, the factor is complete in every schedule")
c("C64","proved",["Pipeline.C64_graph","Pipeline.C64_scores","Pipeline.C64_run"],"one node; clustering and coordinates are parameters (C36, C31); points numbered from 0; the walk is the one of C41; at least one position per thread")
c("C65","proved",["Kde.C65_density","Kde.C65_grid"],"over the reals, one column")
c("C66","proved",["Pca.C66_projection","Pca.C66_shift"],"over the reals")
c("C67","proved",["Points.C67_points","Points.C67_segment_one","Points.C67_segment_many","Points.C67_segment_exact","Points.C67_distances","Points.C67_delivers_iff"],"over the reals; the claim about the segment is false for two or more dimensions, exact condition proved; memory layout of ndarray read as documented (row-major flattening)")
c("C68","proved",["RotNet.C68_in_time","RotNet.C68_three","RotNet.C68_terminates","RotNet.C68_means_exact","RotNet.C68_exact","RotNet.C68_second_lost","RotNet.C68_mixed_means"],"the unconditional claim is false, with counterexamples; exact cluster sizes. For four or more nodes the safety part is for schedules in which factors and means are neither early nor late")
c("C69","proved",["Whole.C69_shift"],"one node, over the reals; QR and SVD are arbitrary functions; example of a run: Whole.exDelivers")
c("C70","proved",["Whole.C70_scale","Kde.C70_cluster"],"one node, over the reals; QR keeps the Gram matrix; Settled: all factors with the Gram matrix of the centred windows (up to a positive factor) have the same first three components after normalize; example: Whole.exDelivers, exLib_settled")
c("C71","proved",["Whole.C71_last_row","Whole.C71_no_minimum"],"the expectation is false; one node, over the reals; QR and SVD are arbitrary functions")
c("C72","proved",["Whole.C72_scores","Whole.C72_result","Whole.C72_threads","Whole.C72_length","Whole.C72_mirror"],"one node, over the reals up to the edges; QR keeps the Gram matrix, Settled as in C70 (only C72_threads); at least one position per thread")
c("C73","proved",["CorrNet.C73_decision","CorrNet.C73_stored","CorrNet.C73_no_crash","CorrNet.C73_progress","CorrNet.C73_terminates","CorrNet.two_in_time","CorrNet.C73_race","CorrNet.C73_race_crash","CorrNet.barrier","CorrNet.C73_complete","CorrNet.C73_inside"],"the unconditional claim is false, with counterexamples for three nodes; positive part under the stated conditions on the schedule (rotation of the counts without the race of C18; first points not before the own decision if the points are mirrored), for two nodes in all schedules; no crash and progress if every part has a valid step after the correction")
c("C74","proved",["Cluster.C74_exact","Cluster.C74_points","Cluster.C74_complete","Cluster.C74_in_time"],"over the reals; up to three nodes, nobody early (for other schedules false, C68); QR keeps the Gram matrix, Settled as in C70; minima below the largest float; example with one, two and three nodes: Props/ClusterExample.lean")
c("C75","proved",["Cluster.C75_exact","Cluster.C75_crossings"],"over the reals up to the edges; two or three nodes; conditions on points and schedules are hypotheses (Good, SameDecision, NotEarly, rotations without the race of C18); example of two nodes which deliver a vector: Cluster.hCluster, Props/ClusterRunExample.lean")
c("C76","proved",["Whole.C76_crash_iff","Whole.C76_periodic","Whole.C76_nothing","Whole.C76_crossing"],"the claim is false; exact crash condition, one node, over the reals; QR and SVD are arbitrary functions; that the wave of fifteen values delivers nothing: Whole.wave_crashes")
c("C77","proved",["Whole.C77_constant_run","Whole.C77_nan","Whole.C77_constant","Whole.C77_latent_zero","Whole.C77_matrix","Whole.C77_reaches","Whole.C77_agrees"],"the claim is false; one node, exact arithmetic with NaN as a separate value (in floats the mean of a constant column can be off by rounding; then the matrix is not NaN but made of rounding errors); NaN in columns from the third on reaches the intersections, whose behaviour is left open")
c("C78","proved",["Joint.C78_overlap","Joint.C78_one_node","Joint.C78_behind","Stage.comp_ends"],"stages from the segmentation to the delivery in one transition system; the points come from the stages of C74; every stage has a mailbox of its own (messages of different stages commute because they touch different fields); schedules without the races of C18 and C73")
c("C79","proved",["Estimator.C79_returns","Estimator.C79_defaults","Estimator.C79_threads","Estimator.C79_zero","Estimator.C79_one_cpu","Estimator.C79_window","Estimator.C79_short","Estimator.C79_long","Estimator.C79_stale_iff","Estimator.C79_stale","Estimator.C79_set","Estimator.C79_mean_shift"],"float division exact (below 2^51); the SVD library has at most as many components as entries of a window (`Limited`)")
c("C80","proved",["Joint.C80_terminates","Joint.C80_deliver","Joint.C80_over","Joint.C80_entering"],"from the points on (with the rotation: C86); with self correction two nodes (C73: three nodes race); messages are not lost and each is handled once")
c("C81","proved",["FloatRun.C81_reproducible","FloatRun.C81_iff","FloatRun.C81_only_rounding","FloatRun.C81_density","FloatRun.C81_means","FloatRun.C81_threads_matter","HNet.C81_factor","HNet.C81_means_two","HNet.C81_means_three"],"one node, at least as many positions as threads (otherwise C49_hang); the computations between the places where threads are combined are arbitrary functions; the witnesses for three threads choose the answers of the helpers (f32 without overflow, subnormal numbers and -0), they are not computed from a series")
c("C82","proved",["DataReader.C82_iff","DataReader.C82_windows","DataReader.C82_missing","DataReader.C82_single","DataReader.C82_misnumbered"],"that the CSV reader skips empty lines is the documented behaviour of the csv crate (trusted); lines of blanks only are a crash there and not modelled")
c("C83","proved",["FloatRun.Score.C83_alpha","FloatRun.Score.C83_score","FloatRun.Score.C83_scores","FloatRun.Score.C83_order","FloatRun.Score.C83_normalised","FloatRun.Score.C83_nan","FloatRun.Score.C83_not_strict","FloatRun.Score.C83_limit","FloatRun.Score.C83_error"],"f32 as in C81: 24 digits, ties to even, no overflow, no subnormal numbers, one zero; weights and degrees are the counts of C47")
c("C84","proved",["Whole.C84_segments","Whole.C84_walks"],"as C69-C72: real numbers, one node; the library has to determine the components of the first two columns (Settled), otherwise two runs on one and the same series may differ")
c("C85","proved",["Whole.C85_reorder","Whole.C85_first_columns","Whole.C85_later_column"],"as C69-C72: real numbers, one node; no assumption on the library")
c("C86","proved",["Joint.C86_overlap","Joint.C86_terminates","Joint.C86_over","Joint.C86_one_node","Joint.C86_race"],"the data manager (reading, statistics, embedding) is finished on all nodes before the first rotation message is handled (Loaded: what it leaves does not depend on the schedule, C05-C15); messages are not lost and each is handled once")
c("C87","proved",["LoadNet.C87_no_panic","LoadNet.C87_exact","LoadNet.C87_ends","Joint.C87_handed","Joint.C87_overlap","Joint.C87_terminates","Joint.C87_over","Joint.C87_one_node"],"messages between nodes arrive in any order and are not lost; the connection of the nodes is complete before LoadDataMessage is sent; helpers of the preprocessing return in any order; no partition is empty, which C05 gives for rows which fit")
c("C88","proved",["EndNet.C88_right","EndNet.C88_terminates","EndNet.C88_last_stage","EndNet.C88_subs","EndNet.C88_main_waits","EndNet.C88_all_iff","EndNet.C88_main_iff"],"a node notices at any time after another process has ended (MemberLeft) or never; what is delivered is right in schedules without the race of C18; node 0 is the main node; before the last stage no process ends (C88_last_stage), except by a crash")
c("C89","proved",["Nd.C89_minima","Nd.C89_library","Nd.C89_rows","Nd.C89_columns","Nd.C89_reversed","Nd.C89_python","Nd.C89_one_column","Nd.C89_frame","Nd.C89_array","Nd.C89_same_entries"],"trusted: the strides of copies made by ndarray 0.15 (`to_owned`) and NumPy (`astype` with order K), and that `DataFrame.values` is stored column after column; strides are multiples of the size of an element")
c("C90","proved",["Whole.C90_same_scores","Joint.C90_cluster","Whole.C90_before","Whole.C90_after"],"rows over the reals; condition (2) asks for one row more than the points need, because the last row of the series belongs to no point")
c("C91","proved",["Missing.C91_missing","Missing.C91_last_row","Missing.C91_later_columns"],"the rotation matrices are arbitrary; no infinities; if the library panics on NaN the run delivers nothing")
c("C92","proved",["FloatRun.Score.C92_least","FloatRun.Score.C92_raw","FloatRun.Score.C92_once","FloatRun.Score.C92_run","FloatRun.Score.C92_start","FloatRun.Score.C92_busy"],"f32 as in C83; the clustering of the counterexample is given, not computed from a series; a loop counts as one way in and one way out of its node")
c("C93","proved",["Whole.C93_works","Whole.C93_needed","Whole.C93_points","Whole.C93_scores","Whole.C93_enough","Whole.C93_defaults","Whole.C93_no_window"],"singular vectors are a parameter which exists exactly if windows have three entries or more; rate a positive multiple of the number of nodes; a step whose intersection does not exist counts as a crash of the data")
c("C94","proved",["FloatRun.Score.C94_same_bits","FloatRun.Score.C94_short","FloatRun.Score.C94_distributed"],"from the points on; single precision without overflow and subnormal numbers, as in C83; beyond 2^24 the order of the summands matters (C83_limit)")
c("C95","proved",["DistEstimator.C95_exact","DistEstimator.C95_positional","DistEstimator.C95_order","DistEstimator.C95_same","DistEstimator.C95_local","DistEstimator.C95_mainhost","DistEstimator.C95_output","DistEstimator.C95_clustering","DistEstimator.C95_alone","DistEstimator.C95_cluster"],"calls as the rules of Python and pyo3 have them; no floats as arguments, integers are not bounded; the cluster part is from C87 (two or three nodes)")
c("C96","proved",["Joint.C96_exact","Joint.C96_needs","Joint.C96_possible","Joint.C96_hang","Joint.C96_defaults"],"the conditions on the points are those of C75 (harmless borders, a step at every overlap, self correction decides as on one node); self correction with two nodes only, as in C80; rotations without the race of C18")
c("C97","proved",["Store.C97_values","Store.C97_index","Store.C97_panics","Store.C97_return","Store.C97_mirror","Store.C97_one_node"],"a point is a cell of a heap, a PointRef its address; locks are not modelled (an actor is single-threaded and helpers get copies); the operations of one node are an arbitrary sequence; C97_one_node links them to the pipeline on one node, C99 to the segmentation with self correction on several nodes")
c("C98","proved",["Joint.C98_shift","Joint.C98_scale","Joint.C98_last_row","Joint.C98_reorder","Joint.C98_threads","Joint.C98_nodes"],"the conditions on the series are those of C75 and C87 (Suited); exact arithmetic; two or three nodes as in C87")
c("C99","proved",["Store.HeapNet.C99_stored","Store.HeapNet.C99_segmented","Store.HeapNet.C99_no_crash","Store.HeapNet.C99_progress","Store.HeapNet.C99_terminates","Store.HeapNet.C99_complete","Store.HeapNet.C99_race"],"at least two nodes with self correction; on more than two nodes schedules without the races (benign, in time, as in C73); without self correction no point changes and the model by value is used directly")
c("C100","proved",["Whole.C100_copies","Whole.C100_affine","Whole.C100_second_column","Joint.C100_cluster"],"over the reals; the vectors of the SVD of every column are determined up to sign (Settled), as in C70; the cluster version under the conditions of C87 (Suited)")
c("C101","proved",["Kde.C101_cluster","Kde.C101_centres","Kde.C101_small","Whole.C101_score","Whole.C101_delivers","Whole.C101_sound","Whole.C101_no_difference","Whole.C101_unit","Whole.C101_smaller","Whole.C101_larger","Whole.C101_limit_counterexample"],"over the reals (f32 in the code, where 80x is rounded); isize has 64 bits; C101_limit_counterexample is a run which delivers in its unit and in no large one")
c("C102","proved",["Contribution.C102_local","Whole.C102_points","Whole.C102_explains","Whole.C102_single","Whole.C102_shift","Whole.C102_last_row","Whole.C102_unit","Whole.C102_threads","Whole.C102_panic_counterexample","Whole.hExplains"],"over the reals and rationals; the limit of C101 on the size of numbers is not part of this model; C102_panic_counterexample is a run with three scores and no explanation, hExplains one which is explained")
c("C103","proved",["Whole.C103_order","Whole.C103_affine","Whole.C103_table","Whole.C103_copies","Contribution.C103_written_counterexample"],"over the reals and rationals; with copies the file itself may differ in rows whose sum is zero only before or only after copying (C103_written_counterexample, about answers rather than a whole run), therefore C103_table is about the table before these rows are overwritten; in the examples the run has scores for four columns")
c("C104","proved",["Whole.C104_points","Whole.C104_explains","Whole.C104_sound","Whole.C104_no_difference","Whole.C104_unit","Whole.C104_limit_counterexample"],"the size of the keys over the reals; the library of the witness answers with three fixed directions which are not orthonormal")
c("C105","proved",["Geometry.C105_between","Geometry.C105_farther","Whole.C105_points","Whole.C105_coordinates","Whole.C105_distances","Whole.C105_no_difference"],"over the reals; unit vectors from an SVD satisfy the assumption on the directions; the constants are not the best possible")
c("C106","proved",["Geometry.C106_fails_iff","Geometry.C106_half_turn","Whole.C106_place","Whole.C106_scores","Whole.C106_odd"],"over the reals: with floats the determinant of nearly parallel lines may be rounded to zero or away from it")
c("C107","proved",["Geometry.C107_formula","Geometry.C107_univariate","Whole.C107_place","Whole.C107_delivers"],"over the reals and without the keys of C101; the existence of the points (C70, C77) stays a condition")
c("C108","proved",["Cluster.C108_sound","Cluster.C108_exact","Cluster.C108_no_difference","Cluster.C108_one_node","Cluster.C108_larger","Cluster.C108_limit_counterexample"],"over the reals; stages with mailboxes of their own as in C75; the constant is not the best possible")
c("C109","proved",["Cluster.C109_delivers"],"over the reals; stages with mailboxes of their own as in C75, whose conditions (harmless borders, valid steps in every part, same decision on self correction) are kept")
c("C110","proved",["Whole.C110_same_explanations","Contribution.C110_counterexample"],"over the reals and rationals; rows whose sum is zero are filled from the rows before, and the second theorem is a table for which equal answers then become different rows; by C104_sound it holds with the keys of the centres, too; the example meets the conditions with the whole series as the stretch")

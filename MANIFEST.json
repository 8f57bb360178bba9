{
 "claims": [
  {
   "property": "C01",
   "status": "proved",
   "theorems": [
    "S2G.Parameters.C01_owner_exists_unique",
    "S2G.Parameters.C01_owner_monotone",
    "S2G.Parameters.C01_owner_contiguous",
    "S2G.Parameters.C01_owner_block",
    "S2G.Parameters.C01_owner_surjective",
    "S2G.Parameters.C01_first_segment"
   ],
   "note": "for all rates >= cluster size >= 1"
  },
  {
   "property": "C02",
   "status": "proved",
   "theorems": [
    "S2G.Parameters.C02_crash_iff",
    "S2G.Parameters.C02_counterexample"
   ],
   "note": "the unconditional claim is false; the exact crash condition is proved"
  },
  {
   "property": "C03",
   "status": "proved",
   "theorems": [
    "S2G.ClusterNodes.C03_own_idx",
    "S2G.ClusterNodes.C03_next",
    "S2G.ClusterNodes.C03_previous",
    "S2G.ClusterNodes.C03_next_previous_inverse",
    "S2G.ClusterNodes.C03_alone",
    "S2G.ClusterNodes.C03_broadcast",
    "S2G.ClusterNodes.C03_last_position"
   ],
   "note": "all cluster sizes"
  },
  {
   "property": "C04",
   "status": "proved",
   "theorems": [
    "S2G.Listener.C04_sub_starts_once",
    "S2G.Listener.C04_sub_not_early",
    "S2G.Listener.C04_main_starts_once",
    "S2G.Listener.C04_index_consistent",
    "S2G.Listener.C04_rejoin_starts_twice"
   ],
   "note": "all interleavings of distinct join events and the roster; a repeated join event would start training twice (witness)"
  },
  {
   "property": "C05",
   "status": "proved",
   "theorems": [
    "S2G.DataReader.C05_windows_iff",
    "S2G.DataReader.C05_windows",
    "S2G.DataReader.C05_no_data",
    "S2G.DataReader.C05_crash",
    "S2G.DataReader.C05_counterexample",
    "S2G.DataReader.C05_short_partition_counterexample"
   ],
   "note": "exact condition on N, k and L, for every file; for L <= N/k the other sizes crash (C05_crash)"
  },
  {
   "property": "C06",
   "status": "proved",
   "theorems": [
    "S2G.DataReader.C06_single_node"
   ],
   "note": ""
  },
  {
   "property": "C07",
   "status": "proved",
   "theorems": [
    "S2G.Columns.C07_selects_range",
    "S2G.Columns.C07_invalid_crashes",
    "S2G.Columns.C07_crash_iff"
   ],
   "note": "for rows of equal length (enforced by the csv crate)"
  },
  {
   "property": "C08",
   "status": "proved",
   "theorems": [
    "S2G.Stats.C08_global_minmax",
    "S2G.Stats.C08_not_early"
   ],
   "note": "all arrival orders at the main node"
  },
  {
   "property": "C09",
   "status": "proved",
   "theorems": [
    "S2G.Stats.C09_count",
    "S2G.Stats.C09_mean",
    "S2G.Stats.C09_message",
    "S2G.Stats.C09_rows_of_windows",
    "S2G.Stats.C09_variance_exact",
    "S2G.Stats.C09_variance_iff",
    "S2G.Stats.C09_variance_same_means",
    "S2G.Stats.C09_variance_counterexample",
    "S2G.Stats.C09_arrival_order_counterexample"
   ],
   "note": "count and mean are right; the exact (wrong) variance of the code is proved, over any field, and when it is right, over ordered fields"
  },
  {
   "property": "C10",
   "status": "proved",
   "theorems": [
    "S2G.Stats.C10_exactly_once"
   ],
   "note": ""
  },
  {
   "property": "C11",
   "status": "proved",
   "theorems": [
    "S2G.Preproc.C11_safety",
    "S2G.Preproc.C11_progress",
    "S2G.Preproc.C11_terminates",
    "S2G.Preproc.C11_hang"
   ],
   "note": "all answer orders"
  },
  {
   "property": "C12",
   "status": "proved",
   "theorems": [
    "S2G.PreprocessorHelper.C12_helper_identity",
    "S2G.Preproc.C12_data_unchanged"
   ],
   "note": ""
  },
  {
   "property": "C13",
   "status": "proved",
   "theorems": [
    "S2G.DataMgr.C13_conservation",
    "S2G.DataMgr.C13_all_processed",
    "S2G.DataMgr.C13_terminates"
   ],
   "note": "all interleavings"
  },
  {
   "property": "C14",
   "status": "proved",
   "theorems": [
    "S2G.PhaseSpace.C14_windowed_sums",
    "S2G.PhaseSpace.C14_crash"
   ],
   "note": ""
  },
  {
   "property": "C15",
   "status": "proved",
   "theorems": [
    "S2G.PhaseSpace.C15_partition_points",
    "S2G.PhaseSpace.C15_point_ids",
    "S2G.PhaseSpace.C15_concatenation"
   ],
   "note": "for the partitionings for which C05 holds"
  },
  {
   "property": "C16",
   "status": "proved",
   "theorems": [
    "S2G.PhaseSpace.C16_reference_rows"
   ],
   "note": ""
  },
  {
   "property": "C17",
   "status": "proved",
   "theorems": [
    "S2G.DirectNet.C17_done_complete",
    "S2G.DirectNet.C17_no_loss",
    "S2G.DirectNet.C17_quiescent_done",
    "S2G.DirectNet.C17_terminates",
    "S2G.DirectNet.C17_no_deadlock"
   ],
   "note": "safety, no loss, termination and deadlock freedom over all schedules"
  },
  {
   "property": "C18",
   "status": "proved",
   "theorems": [
    "S2G.RingNet.C18_correct_iff",
    "S2G.RingNet.C18_exact_order",
    "S2G.RingNet.C18_race_misses",
    "S2G.RingNet.C18_wrong_everywhere",
    "S2G.RingNet.C18_right_possible",
    "S2G.RingNet.C18_processing_order",
    "S2G.RingNet.C18_rotation_complete",
    "S2G.RingNet.C18_done_once",
    "S2G.RingNet.C18_quiescent_done",
    "S2G.RingNet.C18_terminates",
    "S2G.RingNet.C18_two_nodes",
    "S2G.RingNet.C18_counterexample"
   ],
   "note": "completion exactly once, progress and termination in every schedule; the contents are right if and only if no node enters with both buffered and waiting messages (always for two nodes); for every larger cluster there is a schedule in which they are wrong"
  },
  {
   "property": "C19",
   "status": "proved",
   "theorems": [
    "S2G.HelperProto.C19_helper_pool",
    "S2G.HelperProto.C19_underflow"
   ],
   "note": "all causal interleavings"
  },
  {
   "property": "C20",
   "status": "proved",
   "theorems": [
    "S2G.TreeNet.C20_terminates",
    "S2G.TreeNet.C20_combined_once",
    "S2G.TreeNet.C20_quiescent_finalised",
    "S2G.TreeNet.C20_each_once"
   ],
   "note": "all participant counts and schedules, provided that no message is lost (C23); the logarithm in next_2_power is exact"
  },
  {
   "property": "C21",
   "status": "proved",
   "theorems": [
    "S2G.C21_chunks",
    "S2G.C21_counterexample",
    "S2G.TreeNet.C21_hang"
   ],
   "note": "the claim of one chunk per helper is false; the exact condition is proved, and that the reduction never finalises otherwise"
  },
  {
   "property": "C22",
   "status": "proved",
   "theorems": [
    "S2G.Pca.C22_merge",
    "S2G.Pca.C22_variance",
    "S2G.Pca.C22_tree"
   ],
   "note": "over the reals; the QR decomposition is any function which keeps the Gram matrix; all means have arrived (C23)"
  },
  {
   "property": "C23",
   "status": "proved",
   "theorems": [
    "S2G.HNet.C23_threads",
    "S2G.HNet.C23_threads_terminates",
    "S2G.HNet.C23_threads_finalised",
    "S2G.HNet.C23_threads_summary",
    "S2G.NNet.C23_exact",
    "S2G.NNet.C23_entered_exact",
    "S2G.NNet.C23_calm_exact",
    "S2G.NNet.C23_calm_complete_iff",
    "S2G.NNet.C23_lost",
    "S2G.NNet.C23_calm_missing",
    "S2G.NNet.C23_calm",
    "S2G.NNet.C23_calm_three",
    "S2G.NNet.C23_calm_progress",
    "S2G.NNet.C23_calm_terminates",
    "S2G.NNet.C23_counterexample_means",
    "S2G.NNet.C23_counterexample_lost",
    "S2G.NNet.C23_counterexample_four"
   ],
   "note": "threads of one node: all schedules. Nodes: exact cluster sizes for three classes of schedules; if nobody is early, every schedule ends, the factor is complete in every schedule"
  },
  {
   "property": "C24",
   "status": "proved",
   "theorems": [
    "S2G.Rotation.C24_rotation",
    "S2G.Rotation.C24_reference",
    "S2G.Rotation.C24_distances",
    "S2G.Rotation.C24_nan_iff"
   ],
   "note": "over the reals; exactly for a reference vector parallel to z the code computes NaN"
  },
  {
   "property": "C25",
   "status": "proved",
   "theorems": [
    "S2G.SegmentId.C25_segment_iff_sector",
    "S2G.SegmentId.C25_exists_unique",
    "S2G.SegmentId.C25_polar",
    "S2G.SegmentId.C25_rate_zero"
   ],
   "note": "over the reals; f32 rounding is outside the model"
  },
  {
   "property": "C26",
   "status": "proved",
   "theorems": [
    "S2G.Trans.C26_valid_iff",
    "S2G.Trans.C26_step_or_reverse",
    "S2G.Trans.C26_both_iff"
   ],
   "note": "all rates"
  },
  {
   "property": "C27",
   "status": "proved",
   "theorems": [
    "S2G.SegNet.C27_stored_at_owner",
    "S2G.SegNet.C27_all_stored"
   ],
   "note": "all schedules, self correction off (with self correction the same code runs on the mirrored points)"
  },
  {
   "property": "C28",
   "status": "proved",
   "theorems": [
    "S2G.SegNet.C28_never_done",
    "S2G.SegNet.C28_progress_of_transitions",
    "S2G.SegNet.C28_crash_cause",
    "S2G.SegNet.C28_terminates",
    "S2G.SegNet.C28_race_counterexample",
    "S2G.SegNet.C28_hang_counterexample"
   ],
   "note": "the unconditional claim is false; exact conditions for hang and crash are proved"
  },
  {
   "property": "C29",
   "status": "proved",
   "theorems": [
    "S2G.SelfCorrection.C29_local_decision",
    "S2G.SelfCorrection.C29_distributed_decision",
    "S2G.SelfCorrection.C29_totals",
    "S2G.SelfCorrection.C29_totals_exact",
    "S2G.SelfCorrection.C29_contribution",
    "S2G.SelfCorrection.C29_distributed_counterexample",
    "S2G.SelfCorrection.C29_mirror_reverses",
    "S2G.SelfCorrection.C29_mirror_improves",
    "S2G.SegmentId.C29_mirror_segment",
    "S2G.SegmentId.C29_odd_rate_counterexample",
    "S2G.SegmentId.C29_border_counterexample"
   ],
   "note": "exact decision for one node and for several nodes; the totals are right exactly in the schedules without the race of C18. Points over the reals"
  },
  {
   "property": "C30",
   "status": "proved",
   "theorems": [
    "S2G.Trans.C30_segments",
    "S2G.Trans.C30_mem_iff",
    "S2G.Trans.C30_tasks"
   ],
   "note": "all rates and valid transitions; per node with multiplicities"
  },
  {
   "property": "C31",
   "status": "proved",
   "theorems": [
    "S2G.Geometry.C31_sound",
    "S2G.Geometry.C31_none_iff",
    "S2G.Geometry.C31_border_none_iff",
    "S2G.Geometry.C31_crossing_below_half_turn",
    "S2G.Geometry.C31_distance",
    "S2G.Geometry.C31_opposite_counterexample",
    "S2G.Geometry.C31_wrong_side_counterexample"
   ],
   "note": "any dimension, over the reals. Soundness, uniqueness and exact failure condition are proved for all inputs; that the point is on the step itself and on the ray of the border is proved for steps of at most rate/2 - 1 borders, with counterexamples for half turns"
  },
  {
   "property": "C32",
   "status": "proved",
   "theorems": [
    "S2G.InterNet.C32_stored_at_owner",
    "S2G.InterNet.C32_local_total",
    "S2G.InterNet.C32_quiescent_done",
    "S2G.InterNet.C32_end_to_end"
   ],
   "note": "all schedules; end to end with segmentation"
  },
  {
   "property": "C33",
   "status": "proved",
   "theorems": [
    "S2G.NodeEst.C33_nodes",
    "S2G.NodeEst.C33_labels",
    "S2G.NodeEst.C33_crash_iff",
    "S2G.NodeEst.C33_kde_crash_iff"
   ],
   "note": "all inputs; the clustering enters through the assumption of one label per intersection, which is proved for the code's clustering"
  },
  {
   "property": "C34",
   "status": "proved",
   "theorems": [
    "S2G.Kde.C34_labels",
    "S2G.Kde.C34_empty_crash"
   ],
   "note": "all label vectors"
  },
  {
   "property": "C35",
   "status": "proved",
   "theorems": [
    "S2G.Kde.C35_peaks",
    "S2G.Kde.C35_border",
    "S2G.Kde.C35_empty_crash"
   ],
   "note": "all orders and density vectors"
  },
  {
   "property": "C36",
   "status": "proved",
   "theorems": [
    "S2G.Kde.C36_closest",
    "S2G.Kde.C36_total"
   ],
   "note": ""
  },
  {
   "property": "C37",
   "status": "proved",
   "theorems": [
    "S2G.Kde.C37_ranges",
    "S2G.Kde.C37_any_order",
    "S2G.Kde.C37_zero_threads"
   ],
   "note": "all thread counts and arrival orders"
  },
  {
   "property": "C38",
   "status": "proved",
   "theorems": [
    "S2G.Kde.C38_crash_iff",
    "S2G.Kde.C38_counterexample"
   ],
   "note": "the unconditional claim is false; the exact crash condition is proved over the reals"
  },
  {
   "property": "C39",
   "status": "proved",
   "theorems": [
    "S2G.Edges.C39_path"
   ],
   "note": "all rates, valid steps and labels"
  },
  {
   "property": "C40",
   "status": "proved",
   "theorems": [
    "S2G.Edges.C40_step_crash_iff",
    "S2G.Edges.C40_run_crash_iff",
    "S2G.Edges.C40_counterexample"
   ],
   "note": "the unconditional claim is false; the exact crash condition is proved for one step and for the whole stage"
  },
  {
   "property": "C41",
   "status": "proved",
   "theorems": [
    "S2G.Edges.C41_local_edges"
   ],
   "note": "all series without the crash of C40; nodes as provided by node estimation (Edges.localNodes_of_keys)"
  },
  {
   "property": "C42",
   "status": "proved",
   "theorems": [
    "S2G.C42_asks",
    "S2G.C42_asks_first",
    "S2G.C42_recorded",
    "S2G.C42_built"
   ],
   "note": "all rates, cluster sizes and point sequences; additionally a question about a node that does not exist can be recorded for the first step (exactly characterised)"
  },
  {
   "property": "C43",
   "status": "proved",
   "theorems": [
    "S2G.Edges.C43_no_crash",
    "S2G.Edges.C43_edges_of_borders",
    "S2G.Edges.C43_union_of_borders",
    "S2G.Edges.C43_lost",
    "S2G.Edges.C43_counterexample"
   ],
   "note": "the unconditional claim is false; the exact border condition is proved: with it the union is the one-node result, without it an edge is missing in every schedule. Self correction off, at least two nodes (one node: C41)"
  },
  {
   "property": "C44",
   "status": "proved",
   "theorems": [
    "S2G.TransNet.C44_edges_of_range",
    "S2G.TransNet.C44_range",
    "S2G.TransNet.C44_timeline",
    "S2G.TransNet.C44_quiescent_done",
    "S2G.TransNet.C44_crash_iff",
    "S2G.TransNet.C44_order_counterexample"
   ],
   "note": "all schedules; additionally: the order of edges with the same end depends on the schedule"
  },
  {
   "property": "C45",
   "status": "proved",
   "theorems": [
    "S2G.Weights.C45_local",
    "S2G.Weights.C45_global",
    "S2G.Weights.C45_exact",
    "S2G.Weights.C45_two_nodes",
    "S2G.Weights.C45_end_to_end",
    "S2G.Weights.C45_race_counterexample"
   ],
   "note": "local counts for all inputs; the exchange is right for all edges exactly in the schedules without the race of C18; two nodes in every schedule"
  },
  {
   "property": "C46",
   "status": "proved",
   "theorems": [
    "S2G.Weights.C46_local",
    "S2G.Weights.C46_global",
    "S2G.Weights.C46_exact",
    "S2G.Weights.C46_edges_held_once",
    "S2G.Weights.C46_end_to_end",
    "S2G.Weights.C46_held_twice_counterexample"
   ],
   "note": "local degrees for all inputs; the exchange is right exactly in the schedules without the race of C18; that equal edges are held by one node is proved for edge estimation"
  },
  {
   "property": "C47",
   "status": "proved",
   "theorems": [
    "S2G.EdgesInTime.C47_count",
    "S2G.EdgesInTime.C47_shape",
    "S2G.EdgesInTime.C47_zero",
    "S2G.EdgesInTime.C47_crash_iff",
    "S2G.EdgesInTime.C47_entries",
    "S2G.EdgesInTime.C47_counterexample"
   ],
   "note": "all sorted lists; the exception is characterised"
  },
  {
   "property": "C48",
   "status": "proved",
   "theorems": [
    "S2G.Scoring.C48_window",
    "S2G.Scoring.C48_scores",
    "S2G.Scoring.C48_known_local",
    "S2G.Scoring.C48_known",
    "S2G.Scoring.C48_unknown_crash"
   ],
   "note": "over the rationals. That every edge has a weight and a degree: one node always, several nodes in the schedules without the race of C18"
  },
  {
   "property": "C49",
   "status": "proved",
   "theorems": [
    "S2G.ParScore.C49_parallel",
    "S2G.ParScore.C49_scores",
    "S2G.ParScore.C49_hang",
    "S2G.ParScore.C49_zero_threads"
   ],
   "note": "all arrival orders; at least as many positions as threads, otherwise a hanging order exists for every such input"
  },
  {
   "property": "C50",
   "status": "proved",
   "theorems": [
    "S2G.OvNet.C50_length",
    "S2G.OvNet.C50_length_single"
   ],
   "note": "all lengths; several nodes: the last node has at least query_length+1 points, otherwise the code crashes or hangs"
  },
  {
   "property": "C51",
   "status": "proved",
   "theorems": [
    "S2G.OvNet.C51_no_crash",
    "S2G.OvNet.C51_scored",
    "S2G.OvNet.C51_quiescent_scored",
    "S2G.OvNet.C51_window_iff",
    "S2G.OvNet.C51_window_last",
    "S2G.OvNet.C51_complete",
    "S2G.OvNet.C51_layout",
    "S2G.OvNet.C51_counterexample"
   ],
   "note": "the unconditional claim is false; the exact condition is proved, and the exchange of overlaps in all schedules. The last node has at least query_length+1 points, and the edges of node 0 do not all end at point 0 (C47)"
  },
  {
   "property": "C52",
   "status": "proved",
   "theorems": [
    "S2G.Scoring.C52_normalised",
    "S2G.Scoring.C52_degenerate"
   ],
   "note": "over the rationals"
  },
  {
   "property": "C53",
   "status": "proved",
   "theorems": [
    "S2G.SubScores.C53_crash_iff",
    "S2G.SubScores.C53_concatenation",
    "S2G.SubScores.C53_missing_iff",
    "S2G.SubScores.C53_all_present",
    "S2G.SubScores.C53_exact",
    "S2G.SubScores.C53_race_counterexample"
   ],
   "note": "exact crash condition and result for all arrival orders; every sub score arrives exactly in the schedules without the race of C18"
  },
  {
   "property": "C54",
   "status": "proved",
   "theorems": [
    "S2G.ScoreInit.C54_at_most_once",
    "S2G.ScoreInit.C54_quiescent_done",
    "S2G.ScoreInit.C54_terminates"
   ],
   "note": "all interleavings of both rotations"
  },
  {
   "property": "C55",
   "status": "proved",
   "theorems": [
    "S2G.Scoring.C55_fill_up",
    "S2G.Scoring.C55_missing_only",
    "S2G.Scoring.C55_zero_counterexample"
   ],
   "note": ""
  },
  {
   "property": "C56",
   "status": "proved",
   "theorems": [
    "S2G.C56_default",
    "S2G.C56_counterexample",
    "S2G.ParScore.C49_zero_threads",
    "S2G.Kde.C37_zero_threads"
   ],
   "note": "the claim is false for one CPU; exact condition"
  },
  {
   "property": "C57",
   "status": "proved",
   "theorems": [
    "S2G.Contribution.C57_uniqueness",
    "S2G.Contribution.C57_range",
    "S2G.Contribution.C57_record",
    "S2G.Contribution.C57_query"
   ],
   "note": "all labellings, coordinates compared for equality; over the rationals"
  },
  {
   "property": "C58",
   "status": "proved",
   "theorems": [
    "S2G.PhaseSpace.C58_last_row_ignored"
   ],
   "note": ""
  },
  {
   "property": "C59",
   "status": "proved",
   "theorems": [
    "S2G.QNet.C59_answers_complete",
    "S2G.QNet.C59_crash_cause",
    "S2G.QNet.C59_stuck_done",
    "S2G.QNet.C59_terminates",
    "S2G.QNet.C59_single_node"
   ],
   "note": "all schedules"
  },
  {
   "property": "C60",
   "status": "proved",
   "theorems": [
    "S2G.Contribution.C60_rows",
    "S2G.Contribution.C60_written",
    "S2G.Contribution.C60_crash_one_centre",
    "S2G.Contribution.C60_crash_counterexample",
    "S2G.Contribution.C60_ordinary_counterexample"
   ],
   "note": "the crash condition is exact, given registered nodes"
  },
  {
   "property": "C61",
   "status": "proved",
   "theorems": [
    "S2G.Contribution.C61_median",
    "S2G.Contribution.C61_counterexample"
   ],
   "note": "the exact claim is false; over the rationals"
  },
  {
   "property": "C62",
   "status": "proved",
   "theorems": [
    "S2G.Pipeline.C62_complete",
    "S2G.Pipeline.C62_distributed",
    "S2G.Pipeline.C62_equal",
    "S2G.Pipeline.C62_first",
    "S2G.Pipeline.C62_first_fails",
    "S2G.Pipeline.C62_same_scores",
    "S2G.Pipeline.C62_order_counterexample",
    "S2G.SubScores.C53_equals_local_of_overlaps",
    "S2G.OvNet.C51_window_iff",
    "S2G.OvNet.C51_counterexample",
    "S2G.Edges.C43_counterexample",
    "S2G.SubScores.C53_race_counterexample",
    "S2G.TransNet.C44_order_counterexample"
   ],
   "note": "the unconditional claim is false, with counterexamples; equality of the delivered vectors is proved from the points on for all cluster sizes and schedules under sufficient conditions on the points (condition on the first edge: exact for the order, not for the scores). Points are given, with self correction the corrected ones (from the series on: C75), clustering independent of the order of its input (proved for the density clustering), rotations without the race of C18, the one-node run does not crash as in C40"
  },
  {
   "property": "C63",
   "status": "proved",
   "theorems": [
    "S2G.Pca.C63_sign",
    "S2G.Pca.C63_unique_iff",
    "S2G.Pca.C63_counterexample"
   ],
   "note": "over the reals; exact condition"
  },
  {
   "property": "C64",
   "status": "proved",
   "theorems": [
    "S2G.Pipeline.C64_graph",
    "S2G.Pipeline.C64_scores",
    "S2G.Pipeline.C64_run"
   ],
   "note": "one node; clustering and coordinates are parameters (C36, C31); points numbered from 0; the walk is the one of C41; at least one position per thread"
  },
  {
   "property": "C65",
   "status": "proved",
   "theorems": [
    "S2G.Kde.C65_density",
    "S2G.Kde.C65_grid"
   ],
   "note": "over the reals, one column"
  },
  {
   "property": "C66",
   "status": "proved",
   "theorems": [
    "S2G.Pca.C66_projection",
    "S2G.Pca.C66_shift"
   ],
   "note": "over the reals"
  },
  {
   "property": "C67",
   "status": "proved",
   "theorems": [
    "S2G.Points.C67_points",
    "S2G.Points.C67_segment_one",
    "S2G.Points.C67_segment_many",
    "S2G.Points.C67_segment_exact",
    "S2G.Points.C67_distances",
    "S2G.Points.C67_delivers_iff"
   ],
   "note": "over the reals; the claim about the segment is false for two or more dimensions, exact condition proved; memory layout of ndarray read as documented (row-major flattening)"
  },
  {
   "property": "C68",
   "status": "proved",
   "theorems": [
    "S2G.RotNet.C68_in_time",
    "S2G.RotNet.C68_three",
    "S2G.RotNet.C68_terminates",
    "S2G.RotNet.C68_means_exact",
    "S2G.RotNet.C68_exact",
    "S2G.RotNet.C68_second_lost",
    "S2G.RotNet.C68_mixed_means"
   ],
   "note": "the unconditional claim is false, with counterexamples; exact cluster sizes. For four or more nodes the safety part is for schedules in which factors and means are neither early nor late"
  },
  {
   "property": "C69",
   "status": "proved",
   "theorems": [
    "S2G.Whole.C69_shift"
   ],
   "note": "one node, over the reals; QR and SVD are arbitrary functions; example of a run: Whole.exDelivers"
  },
  {
   "property": "C70",
   "status": "proved",
   "theorems": [
    "S2G.Whole.C70_scale",
    "S2G.Kde.C70_cluster"
   ],
   "note": "one node, over the reals; QR keeps the Gram matrix; Settled: all factors with the Gram matrix of the centred windows (up to a positive factor) have the same first three components after normalize; example: Whole.exDelivers, exLib_settled"
  },
  {
   "property": "C71",
   "status": "proved",
   "theorems": [
    "S2G.Whole.C71_last_row",
    "S2G.Whole.C71_no_minimum"
   ],
   "note": "the expectation is false; one node, over the reals; QR and SVD are arbitrary functions"
  },
  {
   "property": "C72",
   "status": "proved",
   "theorems": [
    "S2G.Whole.C72_scores",
    "S2G.Whole.C72_result",
    "S2G.Whole.C72_threads",
    "S2G.Whole.C72_length",
    "S2G.Whole.C72_mirror"
   ],
   "note": "one node, over the reals up to the edges; QR keeps the Gram matrix, Settled as in C70 (only C72_threads); at least one position per thread"
  },
  {
   "property": "C73",
   "status": "proved",
   "theorems": [
    "S2G.CorrNet.C73_decision",
    "S2G.CorrNet.C73_stored",
    "S2G.CorrNet.C73_no_crash",
    "S2G.CorrNet.C73_progress",
    "S2G.CorrNet.C73_terminates",
    "S2G.CorrNet.two_in_time",
    "S2G.CorrNet.C73_race",
    "S2G.CorrNet.C73_race_crash",
    "S2G.CorrNet.barrier",
    "S2G.CorrNet.C73_complete",
    "S2G.CorrNet.C73_inside"
   ],
   "note": "the unconditional claim is false, with counterexamples for three nodes; positive part under the stated conditions on the schedule (rotation of the counts without the race of C18; first points not before the own decision if the points are mirrored), for two nodes in all schedules; no crash and progress if every part has a valid step after the correction"
  },
  {
   "property": "C74",
   "status": "proved",
   "theorems": [
    "S2G.Cluster.C74_exact",
    "S2G.Cluster.C74_points",
    "S2G.Cluster.C74_complete",
    "S2G.Cluster.C74_in_time"
   ],
   "note": "over the reals; up to three nodes, nobody early (for other schedules false, C68); QR keeps the Gram matrix, Settled as in C70; minima below the largest float; example with one, two and three nodes: Props/ClusterExample.lean"
  },
  {
   "property": "C75",
   "status": "proved",
   "theorems": [
    "S2G.Cluster.C75_exact",
    "S2G.Cluster.C75_crossings"
   ],
   "note": "over the reals up to the edges; two or three nodes; conditions on points and schedules are hypotheses (Good, SameDecision, NotEarly, rotations without the race of C18); example of two nodes which deliver a vector: Cluster.hCluster, Props/ClusterRunExample.lean"
  },
  {
   "property": "C76",
   "status": "proved",
   "theorems": [
    "S2G.Whole.C76_crash_iff",
    "S2G.Whole.C76_periodic",
    "S2G.Whole.C76_nothing",
    "S2G.Whole.C76_crossing"
   ],
   "note": "the claim is false; exact crash condition, one node, over the reals; QR and SVD are arbitrary functions; that the wave of fifteen values delivers nothing: Whole.wave_crashes"
  },
  {
   "property": "C77",
   "status": "proved",
   "theorems": [
    "S2G.Whole.C77_constant_run",
    "S2G.Whole.C77_nan",
    "S2G.Whole.C77_constant",
    "S2G.Whole.C77_latent_zero",
    "S2G.Whole.C77_matrix",
    "S2G.Whole.C77_reaches",
    "S2G.Whole.C77_agrees"
   ],
   "note": "the claim is false; one node, exact arithmetic with NaN as a separate value (in floats the mean of a constant column can be off by rounding; then the matrix is not NaN but made of rounding errors); NaN in columns from the third on reaches the intersections, whose behaviour is left open"
  },
  {
   "property": "C78",
   "status": "proved",
   "theorems": [
    "S2G.Joint.C78_overlap",
    "S2G.Joint.C78_one_node",
    "S2G.Joint.C78_behind",
    "S2G.Stage.comp_ends"
   ],
   "note": "stages from the segmentation to the delivery in one transition system; the points come from the stages of C74; every stage has a mailbox of its own (messages of different stages commute because they touch different fields); schedules without the races of C18 and C73"
  },
  {
   "property": "C79",
   "status": "proved",
   "theorems": [
    "S2G.Estimator.C79_returns",
    "S2G.Estimator.C79_defaults",
    "S2G.Estimator.C79_threads",
    "S2G.Estimator.C79_zero",
    "S2G.Estimator.C79_one_cpu",
    "S2G.Estimator.C79_window",
    "S2G.Estimator.C79_short",
    "S2G.Estimator.C79_long",
    "S2G.Estimator.C79_stale_iff",
    "S2G.Estimator.C79_stale",
    "S2G.Estimator.C79_set",
    "S2G.Estimator.C79_mean_shift"
   ],
   "note": "float division exact (below 2^51); the SVD library has at most as many components as entries of a window (`Limited`)"
  },
  {
   "property": "C80",
   "status": "proved",
   "theorems": [
    "S2G.Joint.C80_terminates",
    "S2G.Joint.C80_deliver",
    "S2G.Joint.C80_over",
    "S2G.Joint.C80_entering"
   ],
   "note": "from the points on (with the rotation: C86); with self correction two nodes (C73: three nodes race); messages are not lost and each is handled once"
  },
  {
   "property": "C81",
   "status": "proved",
   "theorems": [
    "S2G.FloatRun.C81_reproducible",
    "S2G.FloatRun.C81_iff",
    "S2G.FloatRun.C81_only_rounding",
    "S2G.FloatRun.C81_density",
    "S2G.FloatRun.C81_means",
    "S2G.FloatRun.C81_threads_matter",
    "S2G.HNet.C81_factor",
    "S2G.HNet.C81_means_two",
    "S2G.HNet.C81_means_three"
   ],
   "note": "one node, at least as many positions as threads (otherwise C49_hang); the computations between the places where threads are combined are arbitrary functions; the witnesses for three threads choose the answers of the helpers (f32 without overflow, subnormal numbers and -0), they are not computed from a series"
  },
  {
   "property": "C82",
   "status": "proved",
   "theorems": [
    "S2G.DataReader.C82_iff",
    "S2G.DataReader.C82_windows",
    "S2G.DataReader.C82_missing",
    "S2G.DataReader.C82_single",
    "S2G.DataReader.C82_misnumbered"
   ],
   "note": "that the CSV reader skips empty lines is the documented behaviour of the csv crate (trusted); lines of blanks only are a crash there and not modelled"
  },
  {
   "property": "C83",
   "status": "proved",
   "theorems": [
    "S2G.FloatRun.Score.C83_alpha",
    "S2G.FloatRun.Score.C83_score",
    "S2G.FloatRun.Score.C83_scores",
    "S2G.FloatRun.Score.C83_order",
    "S2G.FloatRun.Score.C83_normalised",
    "S2G.FloatRun.Score.C83_nan",
    "S2G.FloatRun.Score.C83_not_strict",
    "S2G.FloatRun.Score.C83_limit",
    "S2G.FloatRun.Score.C83_error"
   ],
   "note": "f32 as in C81: 24 digits, ties to even, no overflow, no subnormal numbers, one zero; weights and degrees are the counts of C47"
  },
  {
   "property": "C84",
   "status": "proved",
   "theorems": [
    "S2G.Whole.C84_segments",
    "S2G.Whole.C84_walks"
   ],
   "note": "as C69-C72: real numbers, one node; the library has to determine the components of the first two columns (Settled), otherwise two runs on one and the same series may differ"
  },
  {
   "property": "C85",
   "status": "proved",
   "theorems": [
    "S2G.Whole.C85_reorder",
    "S2G.Whole.C85_first_columns",
    "S2G.Whole.C85_later_column"
   ],
   "note": "as C69-C72: real numbers, one node; no assumption on the library"
  },
  {
   "property": "C86",
   "status": "proved",
   "theorems": [
    "S2G.Joint.C86_overlap",
    "S2G.Joint.C86_terminates",
    "S2G.Joint.C86_over",
    "S2G.Joint.C86_one_node",
    "S2G.Joint.C86_race"
   ],
   "note": "the data manager (reading, statistics, embedding) is finished on all nodes before the first rotation message is handled (Loaded: what it leaves does not depend on the schedule, C05-C15); messages are not lost and each is handled once"
  },
  {
   "property": "C87",
   "status": "proved",
   "theorems": [
    "S2G.LoadNet.C87_no_panic",
    "S2G.LoadNet.C87_exact",
    "S2G.LoadNet.C87_ends",
    "S2G.Joint.C87_handed",
    "S2G.Joint.C87_overlap",
    "S2G.Joint.C87_terminates",
    "S2G.Joint.C87_over",
    "S2G.Joint.C87_one_node"
   ],
   "note": "messages between nodes arrive in any order and are not lost; the connection of the nodes is complete before LoadDataMessage is sent; helpers of the preprocessing return in any order; no partition is empty, which C05 gives for rows which fit"
  },
  {
   "property": "C88",
   "status": "proved",
   "theorems": [
    "S2G.EndNet.C88_right",
    "S2G.EndNet.C88_terminates",
    "S2G.EndNet.C88_last_stage",
    "S2G.EndNet.C88_subs",
    "S2G.EndNet.C88_main_waits",
    "S2G.EndNet.C88_all_iff",
    "S2G.EndNet.C88_main_iff"
   ],
   "note": "a node notices at any time after another process has ended (MemberLeft) or never; what is delivered is right in schedules without the race of C18; node 0 is the main node; before the last stage no process ends (C88_last_stage), except by a crash"
  },
  {
   "property": "C89",
   "status": "proved",
   "theorems": [
    "S2G.Nd.C89_minima",
    "S2G.Nd.C89_library",
    "S2G.Nd.C89_rows",
    "S2G.Nd.C89_columns",
    "S2G.Nd.C89_reversed",
    "S2G.Nd.C89_python",
    "S2G.Nd.C89_one_column",
    "S2G.Nd.C89_frame",
    "S2G.Nd.C89_array",
    "S2G.Nd.C89_same_entries"
   ],
   "note": "trusted: the strides of copies made by ndarray 0.15 (`to_owned`) and NumPy (`astype` with order K), and that `DataFrame.values` is stored column after column; strides are multiples of the size of an element"
  },
  {
   "property": "C90",
   "status": "proved",
   "theorems": [
    "S2G.Whole.C90_same_scores",
    "S2G.Joint.C90_cluster",
    "S2G.Whole.C90_before",
    "S2G.Whole.C90_after"
   ],
   "note": "rows over the reals; condition (2) asks for one row more than the points need, because the last row of the series belongs to no point"
  },
  {
   "property": "C91",
   "status": "proved",
   "theorems": [
    "S2G.Missing.C91_missing",
    "S2G.Missing.C91_last_row",
    "S2G.Missing.C91_later_columns"
   ],
   "note": "the rotation matrices are arbitrary; no infinities; if the library panics on NaN the run delivers nothing"
  },
  {
   "property": "C92",
   "status": "proved",
   "theorems": [
    "S2G.FloatRun.Score.C92_least",
    "S2G.FloatRun.Score.C92_raw",
    "S2G.FloatRun.Score.C92_once",
    "S2G.FloatRun.Score.C92_run",
    "S2G.FloatRun.Score.C92_start",
    "S2G.FloatRun.Score.C92_busy"
   ],
   "note": "f32 as in C83; the clustering of the counterexample is given, not computed from a series; a loop counts as one way in and one way out of its node"
  },
  {
   "property": "C93",
   "status": "proved",
   "theorems": [
    "S2G.Whole.C93_works",
    "S2G.Whole.C93_needed",
    "S2G.Whole.C93_points",
    "S2G.Whole.C93_scores",
    "S2G.Whole.C93_enough",
    "S2G.Whole.C93_defaults",
    "S2G.Whole.C93_no_window"
   ],
   "note": "singular vectors are a parameter which exists exactly if windows have three entries or more; rate a positive multiple of the number of nodes; a step whose intersection does not exist counts as a crash of the data"
  },
  {
   "property": "C94",
   "status": "proved",
   "theorems": [
    "S2G.FloatRun.Score.C94_same_bits",
    "S2G.FloatRun.Score.C94_short",
    "S2G.FloatRun.Score.C94_distributed"
   ],
   "note": "from the points on; single precision without overflow and subnormal numbers, as in C83; beyond 2^24 the order of the summands matters (C83_limit)"
  },
  {
   "property": "C95",
   "status": "proved",
   "theorems": [
    "S2G.DistEstimator.C95_exact",
    "S2G.DistEstimator.C95_positional",
    "S2G.DistEstimator.C95_order",
    "S2G.DistEstimator.C95_same",
    "S2G.DistEstimator.C95_local",
    "S2G.DistEstimator.C95_mainhost",
    "S2G.DistEstimator.C95_output",
    "S2G.DistEstimator.C95_clustering",
    "S2G.DistEstimator.C95_alone",
    "S2G.DistEstimator.C95_cluster"
   ],
   "note": "calls as the rules of Python and pyo3 have them; no floats as arguments, integers are not bounded; the cluster part is from C87 (two or three nodes)"
  },
  {
   "property": "C96",
   "status": "proved",
   "theorems": [
    "S2G.Joint.C96_exact",
    "S2G.Joint.C96_needs",
    "S2G.Joint.C96_possible",
    "S2G.Joint.C96_hang",
    "S2G.Joint.C96_defaults"
   ],
   "note": "the conditions on the points are those of C75 (harmless borders, a step at every overlap, self correction decides as on one node); self correction with two nodes only, as in C80; rotations without the race of C18"
  },
  {
   "property": "C97",
   "status": "proved",
   "theorems": [
    "S2G.Store.C97_values",
    "S2G.Store.C97_index",
    "S2G.Store.C97_panics",
    "S2G.Store.C97_return",
    "S2G.Store.C97_mirror",
    "S2G.Store.C97_one_node"
   ],
   "note": "a point is a cell of a heap, a PointRef its address; locks are not modelled (an actor is single-threaded and helpers get copies); the operations of one node are an arbitrary sequence; C97_one_node links them to the pipeline on one node, C99 to the segmentation with self correction on several nodes"
  },
  {
   "property": "C98",
   "status": "proved",
   "theorems": [
    "S2G.Joint.C98_shift",
    "S2G.Joint.C98_scale",
    "S2G.Joint.C98_last_row",
    "S2G.Joint.C98_reorder",
    "S2G.Joint.C98_threads",
    "S2G.Joint.C98_nodes"
   ],
   "note": "the conditions on the series are those of C75 and C87 (Suited); exact arithmetic; two or three nodes as in C87"
  },
  {
   "property": "C99",
   "status": "proved",
   "theorems": [
    "S2G.Store.HeapNet.C99_stored",
    "S2G.Store.HeapNet.C99_segmented",
    "S2G.Store.HeapNet.C99_no_crash",
    "S2G.Store.HeapNet.C99_progress",
    "S2G.Store.HeapNet.C99_terminates",
    "S2G.Store.HeapNet.C99_complete",
    "S2G.Store.HeapNet.C99_race"
   ],
   "note": "at least two nodes with self correction; on more than two nodes schedules without the races (benign, in time, as in C73); without self correction no point changes and the model by value is used directly"
  },
  {
   "property": "C100",
   "status": "proved",
   "theorems": [
    "S2G.Whole.C100_copies",
    "S2G.Whole.C100_affine",
    "S2G.Whole.C100_second_column",
    "S2G.Joint.C100_cluster"
   ],
   "note": "over the reals; the vectors of the SVD of every column are determined up to sign (Settled), as in C70; the cluster version under the conditions of C87 (Suited)"
  },
  {
   "property": "C101",
   "status": "proved",
   "theorems": [
    "S2G.Kde.C101_cluster",
    "S2G.Kde.C101_centres",
    "S2G.Kde.C101_small",
    "S2G.Whole.C101_score",
    "S2G.Whole.C101_delivers",
    "S2G.Whole.C101_sound",
    "S2G.Whole.C101_no_difference",
    "S2G.Whole.C101_unit",
    "S2G.Whole.C101_smaller",
    "S2G.Whole.C101_larger",
    "S2G.Whole.C101_limit_counterexample"
   ],
   "note": "over the reals (f32 in the code, where 80x is rounded); isize has 64 bits; C101_limit_counterexample is a run which delivers in its unit and in no large one"
  },
  {
   "property": "C102",
   "status": "proved",
   "theorems": [
    "S2G.Contribution.C102_local",
    "S2G.Whole.C102_points",
    "S2G.Whole.C102_explains",
    "S2G.Whole.C102_single",
    "S2G.Whole.C102_shift",
    "S2G.Whole.C102_last_row",
    "S2G.Whole.C102_unit",
    "S2G.Whole.C102_threads",
    "S2G.Whole.C102_panic_counterexample",
    "S2G.Whole.hExplains"
   ],
   "note": "over the reals and rationals; the limit of C101 on the size of numbers is not part of this model; C102_panic_counterexample is a run with three scores and no explanation, hExplains one which is explained"
  },
  {
   "property": "C103",
   "status": "proved",
   "theorems": [
    "S2G.Whole.C103_order",
    "S2G.Whole.C103_affine",
    "S2G.Whole.C103_table",
    "S2G.Whole.C103_copies",
    "S2G.Contribution.C103_written_counterexample"
   ],
   "note": "over the reals and rationals; with copies the file itself may differ in rows whose sum is zero only before or only after copying (C103_written_counterexample, about answers rather than a whole run), therefore C103_table is about the table before these rows are overwritten; in the examples the run has scores for four columns"
  },
  {
   "property": "C104",
   "status": "proved",
   "theorems": [
    "S2G.Whole.C104_points",
    "S2G.Whole.C104_explains",
    "S2G.Whole.C104_sound",
    "S2G.Whole.C104_no_difference",
    "S2G.Whole.C104_unit",
    "S2G.Whole.C104_limit_counterexample"
   ],
   "note": "the size of the keys over the reals; the library of the witness answers with three fixed directions which are not orthonormal"
  },
  {
   "property": "C105",
   "status": "proved",
   "theorems": [
    "S2G.Geometry.C105_between",
    "S2G.Geometry.C105_farther",
    "S2G.Whole.C105_points",
    "S2G.Whole.C105_coordinates",
    "S2G.Whole.C105_distances",
    "S2G.Whole.C105_no_difference"
   ],
   "note": "over the reals; unit vectors from an SVD satisfy the assumption on the directions; the constants are not the best possible"
  },
  {
   "property": "C106",
   "status": "proved",
   "theorems": [
    "S2G.Geometry.C106_fails_iff",
    "S2G.Geometry.C106_half_turn",
    "S2G.Whole.C106_place",
    "S2G.Whole.C106_scores",
    "S2G.Whole.C106_odd"
   ],
   "note": "over the reals: with floats the determinant of nearly parallel lines may be rounded to zero or away from it"
  },
  {
   "property": "C107",
   "status": "proved",
   "theorems": [
    "S2G.Geometry.C107_formula",
    "S2G.Geometry.C107_univariate",
    "S2G.Whole.C107_place",
    "S2G.Whole.C107_delivers"
   ],
   "note": "over the reals and without the keys of C101; the existence of the points (C70, C77) stays a condition"
  },
  {
   "property": "C108",
   "status": "proved",
   "theorems": [
    "S2G.Cluster.C108_sound",
    "S2G.Cluster.C108_exact",
    "S2G.Cluster.C108_no_difference",
    "S2G.Cluster.C108_one_node",
    "S2G.Cluster.C108_larger",
    "S2G.Cluster.C108_limit_counterexample"
   ],
   "note": "over the reals; stages with mailboxes of their own as in C75; the constant is not the best possible"
  },
  {
   "property": "C109",
   "status": "proved",
   "theorems": [
    "S2G.Cluster.C109_delivers"
   ],
   "note": "over the reals; stages with mailboxes of their own as in C75, whose conditions (harmless borders, valid steps in every part, same decision on self correction) are kept"
  },
  {
   "property": "C110",
   "status": "proved",
   "theorems": [
    "S2G.Whole.C110_same_explanations",
    "S2G.Contribution.C110_counterexample"
   ],
   "note": "over the reals and rationals; rows whose sum is zero are filled from the rows before, and the second theorem is a table for which equal answers then become different rows; by C104_sound it holds with the keys of the centres, too; the example meets the conditions with the whole series as the stretch"
  }
 ]
}
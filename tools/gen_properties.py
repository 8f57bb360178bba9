#!/usr/bin/env python3
"""Writes /verif/properties.jsonl (one JSON object per line)."""
import json, os
P = []
def p(title, statement, quantifier, why, anchors):
    P.append(dict(id="C%02d" % (len(P)+1), title=title, statement=statement,
                  quantifier=quantifier, why_tests_cant=why, anchors=anchors))

# ---------------------------------------------------------------- cluster
p("Segment ownership is a partition of the circle",
  "With rate >= cluster size >= 1, every segment id below rate is owned by exactly one existing cluster node, ownership is monotone in the segment id (so every node owns one contiguous block), every node owns at least one segment, all nodes but the last own exactly rate/n segments, and the advertised 'first segment of the i-th next node' is the smallest segment that node owns.",
  "all rates, all cluster sizes, all segment ids, all offsets i",
  "the parameter space is infinite; a wrong rounding only shows when rate is not a multiple of the node count",
  ["src/parameters.rs: segments_per_node, segment_id_to_assignment, first_segment_of_i_next_cluster_node"])
p("Segment ownership never crashes",
  "Computing the owner of a segment terminates without a crash for every accepted configuration (rate, n_cluster_nodes). FALSE in the code: it divides by zero exactly when rate < n_cluster_nodes; it is crash free in all other configurations.",
  "all (rate, cluster size) pairs",
  "tests only use rate 100 with few nodes",
  ["src/parameters.rs: segments_per_node, segment_id_to_assignment"])
p("Cluster member indices are consistent",
  "When a node knows the addresses of all other members under indices from 0..n-1, its own index is the unique missing one, iterating over 'all nodes' visits each index exactly once and marks exactly the own index local, and next/previous neighbour are mutually inverse ring shifts.",
  "all cluster sizes, all own indices, all shifts",
  "index arithmetic must hold for every cluster size",
  ["src/utils/mod.rs: ClusterNodes::get_own_idx, get_shifted_idx, get_next_idx, get_previous_idx, AnyClusterNodesIterator"])
p("Cluster formation starts training exactly once with agreeing indices",
  "Whatever the interleaving of member-join events and the roster message of the main node, every node starts training exactly once, not before it knows all other members, and the index it gives to every peer is the position of that peer in the roster of the main node.",
  "all cluster sizes, all interleavings of join events and the roster message",
  "join order is decided by the network",
  ["src/cluster_listener.rs: sort_members, start_training, Handler<ClusterLog>, Handler<SortedMembersMessage>"])
# ---------------------------------------------------------------- data
p("CSV partitioning hands every node its window of rows",
  "Reading a file of N rows for k nodes sends node i exactly the rows [i*p, (i+1)*p + L - 1) (the last node everything up to the end), p = N/k, L the pattern length, in file order, exactly if L <= p and N mod k <= L - 1 (or k = 2 and N = 2L - 1 > 1). It crashes if L <= p and N mod k > L - 1; for L > p, except in the case in brackets, some node does not get its window, and if N < p + (k - 1)L some node gets no data at all.",
  "all row counts, all cluster sizes, all pattern lengths",
  "off-by-one errors of the overlap only appear for particular (N,k,L) triples",
  ["src/data_manager/data_reader/mod.rs: read_csv"])
p("Single node reads the complete file",
  "With one cluster node every row of the file arrives exactly once and in order in one data partition.",
  "all files",
  "files of every length",
  ["src/data_manager/data_reader/mod.rs: read_csv"])
p("Column selection follows slice semantics",
  "column_start/column_end select the columns column_start .. end, where a non-positive end counts from the last column (0 = all); if the cells are numbers, the call crashes exactly when the range ends before it starts (or before the first column) or, not being empty, ends beyond the last column.",
  "all column counts, all start/end values (including negative ends)",
  "signed/unsigned boundary arithmetic",
  ["src/data_manager/mod.rs: Handler<DataPartitionMessage>", "src/utils/itertools.rs: FromTo"])
p("Distributed minimum/maximum equals the global minimum/maximum",
  "The per-column minimum and maximum computed by merging the node results in any arrival order equals the minimum/maximum over all rows of all nodes, and every node receives the same result.",
  "all data, all partitions into nodes, all arrival orders",
  "arrival orders and data are unbounded",
  ["src/data_manager/stats_collector/minmax.rs", "src/utils/ndarray_extensions/mod.rs: min_axis, max_axis"])
p("Distributed count and mean equal the global ones; variance",
  "Merging (n, mean, M2) node statistics yields the global count and mean in any arrival order. The merged variance is the global one plus an explicit error term, because the squared mean difference is weighted with (n+m)/N instead of n*m/(n+m). With at least three rows per node it is never too large, and right exactly if all node means agree.",
  "all data, all partitions, all arrival orders",
  "real valued identity over arbitrary data",
  ["src/data_manager/stats_collector/std.rs"])
p("Statistics trigger preprocessing exactly once",
  "For both completion orders of the min/max and std statistics, preprocessing starts exactly once, namely when the last of both is complete.",
  "all completion orders",
  "depends on the schedule of two independent protocols",
  ["src/data_manager/mod.rs: datastats_finished", "src/data_manager/stats_collector/mod.rs: is_done"])
p("Preprocessing dispatches every column exactly once",
  "For every order in which the helpers respond, every column is sent to a helper exactly once, at most n_threads columns are in flight, and completion is announced exactly once, when the last column has been answered (n_threads >= 1 and at least one column; otherwise it never completes).",
  "all column counts, all thread counts, all response orders",
  "response order is scheduler dependent",
  ["src/data_manager/preprocessor/mod.rs: distribute_work, Handler<PreprocessingHelperResponse>"])
p("Preprocessing does not alter the series",
  "The preprocessing stage hands over exactly the data it received: the injected oscillation never reaches the data used for training.",
  "all columns, all thread counts, all schedules",
  "all data",
  ["src/data_manager/preprocessor/helper.rs", "src/data_manager/preprocessor/mod.rs"])
p("Early data partitions are not lost",
  "A data partition that arrives before the node knows the cluster is processed exactly once after cluster formation; none is lost and none processed twice.",
  "all interleavings of partition arrival and cluster formation",
  "network timing",
  ["src/data_manager/mod.rs: resolve_buffer, Handler<DataPartitionMessage>"])
p("Phase space embedding is the windowed sum",
  "Row i of the embedding holds, for every column j < pattern_length - latent, the sum of the latent consecutive values starting at i + j.",
  "all series, all pattern lengths and latents",
  "the running-sum implementation must agree with the definition for every input",
  ["src/data_manager/phase_spacer/mod.rs: build"])
p("Phase space of the partitions is the phase space of the series",
  "If every node gets its window (C05) and latent < pattern length, concatenating the embeddings of the overlapping row windows of all nodes yields exactly the embedding of the whole series: no window is lost, duplicated or crosses a boundary wrongly, and point ids assigned by the nodes equal the global row number.",
  "all series, all cluster sizes, all pattern lengths",
  "all partition sizes",
  ["src/data_manager/phase_spacer/mod.rs", "src/data_manager/data_reader/mod.rs", "src/training/rotation/mod.rs: apply_rotation_matrix"])
p("Reference data set is the constant-signal embedding",
  "Row i of the reference data set equals the embedding of a constant signal of value min + i*(max-min)/(rows-1).",
  "all minima/maxima, all row indices",
  "real valued statement",
  ["src/data_manager/reference_dataset_builder/mod.rs: build"])
# ---------------------------------------------------------------- protocols
p("Direct exchange completes exactly once with one message per peer",
  "In the all-to-all exchange every node proceeds exactly once, namely after processing exactly one message of every other node; messages arriving before the node has started are kept and processed; this holds under every delivery order and every relative start time.",
  "all cluster sizes, all schedules",
  "schedules are unbounded",
  ["src/utils/direct_protocol.rs", "src/training/segmentation/mod.rs", "src/training/intersection_calculation/mod.rs"])
p("Ring rotation delivers every contribution to every node exactly once",
  "After a ring rotation every node has processed exactly one message of every other node's origin, if and only if no node entered the rotation with both early (buffered) and waiting messages: the code re-enqueues early messages behind waiting ones. Otherwise some node misses the contribution of another one. For every cluster of three or more nodes there are schedules of both kinds, for two nodes the rotation is always right. Every node announces completion exactly once in every schedule.",
  "all cluster sizes, all schedules",
  "needs a particular race between start of the protocol and two messages",
  ["src/utils/rotation_protocol.rs", "src/training/scoring/weights.rs", "src/training/segmentation/mod.rs", "src/training/transposition/mod.rs"])
p("Helper pool protocol finishes exactly when all tasks are answered",
  "A helper pool with n_total tasks reports running until exactly n_total answers arrived, for every answer order, never underflows its in-flight counter, and never has more than the dispatched tasks in flight.",
  "all task counts, all interleavings of sends and answers",
  "schedules",
  ["src/utils/helper_protocol.rs"])
# ---------------------------------------------------------------- pca / rotation
p("PCA tree reduction reaches the main node completely",
  "For every number k of participants the R-factor reduction terminates at participant 0, which finalises exactly once, having combined the factor of every participant exactly once.",
  "all participant counts, all message orders",
  "k not a power of two creates irregular trees",
  ["src/training/rotation/pca/mod.rs: send_to_neighbor_or_finalize, next_2_power", "src/training/rotation/pca/helper.rs"])
p("PCA row chunks cover the data for every thread count",
  "The rows are split into consecutive chunks which cover every row exactly once and there are at most as many as helpers. That there is one chunk per helper is FALSE: with n rows and t threads it holds exactly if (t - 1)*ceil(n/t) < n (not e.g. for 9 rows and 8 threads), and otherwise the reduction never delivers a result.",
  "all row counts, all thread counts",
  "needs awkward (rows, threads) pairs",
  ["src/training/rotation/pca/mod.rs: helper_center"])
p("Merged PCA equals PCA of the whole data",
  "The merged mean equals the global mean and the merged triangular factor has the same Gram matrix as the globally centred data matrix, so singular values and right singular vectors are those of the whole data set.",
  "all data, all splits, all reduction trees",
  "real valued identity",
  ["src/training/rotation/pca/mod.rs: combine_remote_r, finalize", "src/training/rotation/pca/helper.rs"])
p("PCA result is independent of message timing",
  "Between the threads of one node the means and the factor with which the PCA is finalised are complete in every schedule. Between nodes this is FALSE in general: it holds in all schedules exactly for one node. Messages which arrive before the receiver enters the stage are discarded and node 0 waits for ever (from two nodes on). If no message arrives before its receiver has entered, the means are complete in all schedules exactly for one node with several threads, and exactly up to three nodes with one thread; if no message arrives before the receiver has its own factor, exactly up to three nodes, and in a given schedule exactly if no means are under way when node 0 finalises.",
  "all delivery orders",
  "timing dependent",
  ["src/training/rotation/pca/mod.rs: resolve_buffer, resolve_means_buffer, clear", "src/training/rotation/mod.rs: rotate, run_pca"])
p("Rotation matrix is a rotation aligning the reference vector",
  "The matrix built from the reference direction a (unit, not parallel to z) is orthogonal with determinant one and maps a to (0,0,1); applying it preserves distances.",
  "all real unit vectors not parallel to the z axis",
  "real valued identity",
  ["src/training/rotation/mod.rs: get_rotation_matrix"])
# ---------------------------------------------------------------- segments, transitions
p("Every point falls in exactly one angular segment",
  "The segment id of a point is smaller than rate, and it is s exactly when the angle lies in [2*pi*s/rate, 2*pi*(s+1)/rate) modulo a full turn.",
  "all angles in (-pi, pi], all rates >= 1",
  "real valued; boundary angles",
  ["src/data_store/utils.rs: get_segment_id", "src/utils/ndarray_extensions/mod.rs: to_polar"])
p("Valid transitions are exactly the forward half-turn crossings",
  "A step between two points counts as a valid transition iff going forward from its start segment to its end segment crosses between 1 and rate/2 segment borders; of a crossing step and its reverse at least one is valid, and both only if they are exactly half a turn apart.",
  "all rates, all pairs of segments",
  "boundary arithmetic with wrap-around",
  ["src/data_store/transition/mod.rs: crosses_segments, has_valid_direction"])
p("Every valid transition is stored exactly once, at its owner",
  "After segmentation the multiset of transitions of all nodes equals the multiset of valid steps between consecutive points of the whole series, each stored at the owner of its start segment, including steps that span two nodes' data.",
  "all point sequences, all cluster sizes, all splits into nodes, all schedules",
  "boundary between nodes and message order",
  ["src/training/segmentation/mod.rs: build_segments, distribute_segments, Handler<SendFirstPointMessage>, Handler<SegmentMessage>"])
p("Segmentation terminates",
  "Segmentation completes for every data set. FALSE: if a node's part contains no valid transition, it never sends its first point and the previous node waits forever, or the receiver crashes.",
  "all point sequences and splits",
  "rare data",
  ["src/training/segmentation/mod.rs: try_send_inter_node_points, Handler<SendFirstPointMessage>"])
p("Self correction mirrors iff more invalid than valid directions",
  "With self correction the points are mirrored iff fewer valid than invalid crossing steps exist, on one node. With several nodes the valid steps of a part which start in the own segments are counted twice and the steps between parts not at all, so the decision differs (counterexample). Mirroring reverses the direction of every crossing between points strictly inside their segments if the number of segments is even, and not otherwise.",
  "all point sequences, all cluster sizes",
  "global count over arbitrary data",
  ["src/training/segmentation/mod.rs: self_correction, try_self_correction", "src/data_store/mod.rs: mirror_points"])
# ---------------------------------------------------------------- intersections
p("Every crossed segment border yields exactly one intersection",
  "For every valid transition from segment f to segment t the computed intersections are with segments f+1, f+2, ..., t (modulo rate), each exactly once and nothing else.",
  "all rates, all valid transitions",
  "wrap-around and odd/even rates",
  ["src/training/intersection_calculation/mod.rs: calculate_intersections"])
p("Intersection point lies on the step and on the segment border",
  "The computed intersection point lies on the line through both end points and on the border (hyper)plane of the segment, it is the only such point, and the step is rejected exactly when it is parallel to the border.",
  "all real end points and border directions",
  "real valued",
  ["src/utils/geometry.rs: line_plane_intersection", "src/training/intersection_calculation/helper.rs"])
p("Every intersection reaches the owner of its segment exactly once",
  "Intersections are stored at the owner of the intersected segment; those computed elsewhere are sent there exactly once.",
  "all intersections, all cluster sizes, all schedules",
  "schedules",
  ["src/training/intersection_calculation/mod.rs: assign_received_intersection, rotate_foreign_assignments"])
# ---------------------------------------------------------------- nodes
p("Every intersection becomes exactly one graph node",
  "Node estimation visits every own segment in ascending order; every intersection of a segment becomes exactly one node with that segment; the nodes of one step are stored in ascending segment order.",
  "all intersection sets, all cluster sizes",
  "unbounded data",
  ["src/training/node_estimation/mod.rs: estimate_nodes, Handler<ClusteringResponse>"])
p("Cluster labels are dense and faithful",
  "Labels are 0..m-1 numbered by first occurrence; two intersections get the same label iff their centre vectors are equal; the centre table at label k is that centre.",
  "all centre assignments",
  "unbounded data",
  ["src/training/node_estimation/multi_kde/mod.rs: extract_labels_from_centers"])
p("Density peaks are exactly the clamped strict local maxima",
  "An index is reported as a peak iff its density is strictly greater than the densities at distance 1..order on both sides with clamped indices; border indices are never peaks.",
  "all densities, all orders >= 1",
  "unbounded data; early exit of the loop",
  ["src/training/node_estimation/multi_kde/mod.rs: find_peak_index"])
p("Every intersection is assigned to its closest peak",
  "With at least one peak, the assigned centre is a peak with minimal distance (the first one in case of ties).",
  "all intersections and peaks",
  "unbounded data",
  ["src/training/node_estimation/multi_kde/mod.rs: assign_closest_peak_values"])
p("Parallel density estimation equals the sequential one",
  "For every thread count >= 1 and every completion order the density is the sum over all data points; the task ranges partition the data.",
  "all data sizes, thread counts and completion orders",
  "schedules",
  ["src/training/node_estimation/multi_kde/actors/gaussian_kde.rs: send_tasks, Handler<EstimatorResponse>"])
p("Density estimation never crashes",
  "Clustering terminates without crash for all intersection sets. FALSE: if all (>= 2) values of a dimension are equal, the covariance is singular and the stage crashes; it succeeds exactly when the variance is non-zero.",
  "all intersection sets",
  "degenerate data",
  ["src/training/node_estimation/multi_kde/actors/gaussian_kde.rs: compute_covariance"])
# ---------------------------------------------------------------- edges
p("Edges of one step follow the direction of travel",
  "For a step crossing f+1..t with wrap-around, given the node of the previous step, the produced edges form the path previous node -> f+1 -> ... -> t in this order and the last node is the one at segment t.",
  "all rates, all valid steps, all cluster labels",
  "wrap-around case",
  ["src/training/edge_estimation/edges_orderer.rs"])
p("Edge ordering never crashes",
  "Building edges terminates without a crash for every node set. FALSE: if the very first step wraps around the circle with exactly one node before the wrap, the code crashes; otherwise it does not.",
  "all steps",
  "only specific first step",
  ["src/training/edge_estimation/edges_orderer.rs: into_vec"])
p("Local edges are the walk through the graph",
  "In a one-node run the edge list is exactly the list of consecutive pairs of the walk of visited graph nodes (in time and crossing order) over the whole series.",
  "all point sequences",
  "induction over the series",
  ["src/training/edge_estimation/mod.rs: connect_nodes"])
p("Node questions go to the right node",
  "For every step whose crossed segments are owned by several nodes, and for consecutive steps owned by different nodes, the question about the successor node is recorded exactly at the node owning the predecessor, addressed to the owner of the successor, and never to the node itself.",
  "all rates, cluster sizes and transitions",
  "wrap-around arithmetic over owners",
  ["src/data_store/node_questions/mod.rs: ask, add_niq, get_wanted_segment", "src/training/segmentation/mod.rs: find_splits"])
p("Distributed edges equal local edges",
  "The union of the edges of all nodes (before redistribution) equals the edges of a one-node run. FALSE in the code for steps spanning the data border of two nodes (an edge is missing), counterexample included; proved for the modelled remainder.",
  "all point sequences, all cluster sizes",
  "combines several distributed stages",
  ["src/training/segmentation/mod.rs", "src/training/node_estimation/mod.rs", "src/training/edge_estimation/mod.rs"])
p("Redistribution by time keeps every edge exactly once",
  "After transposition every edge is at exactly the node whose time range contains its end point id (last node takes the rest), no edge is lost or duplicated, and the edges are sorted by time.",
  "all edge lists, all cluster sizes with at least one point per node",
  "unbounded data",
  ["src/training/transposition/mod.rs"])
# ---------------------------------------------------------------- scoring
p("Edge weights are global multiplicities",
  "After the weight rotation the weight of every edge at every node equals the number of its occurrences in all nodes, whatever the edges are, if and only if the rotation had no race (C18).",
  "all edge lists and splits",
  "unbounded data",
  ["src/training/scoring/weights.rs: calculate_edge_weight, Handler<EdgeWeights>"])
p("Node degrees are global degrees of distinct edges",
  "The degree of a node is the number of distinct incident edges (a self loop counts twice); merged over nodes it is the global degree if equal edges are held by one node, if and only if the rotation had no race (C18).",
  "all edge lists and splits",
  "unbounded data",
  ["src/training/scoring/weights.rs: calculate_node_degrees, Handler<NodeDegrees>"])
p("edges_in_time is the cumulative edge count per point",
  "Entry k of edges_in_time is the number of edges whose end point id is at most start+k; the sequence is monotone and has one entry per point. FALSE if all edges end at point 0 (then every entry is 0); the function crashes exactly if an edge ends before start and some edge does not end at point 0.",
  "all sorted edge lists",
  "unbounded data, gaps in ids",
  ["src/training/scoring/weights.rs: count_edges_in_time"])
p("Score is the negated normality of the query window",
  "The raw score of position i is minus the sum over edges in the window of weight*(degree-1), divided by (number of edges + 1e-8); positions without edges repeat the previous score; no index is out of range. Every edge has a weight and a degree, on one node and on several nodes if the rotations had no race (C18); an edge without a weight is a crash.",
  "all graphs, all query lengths",
  "unbounded data",
  ["src/training/scoring/helper.rs", "src/training/scoring/mod.rs: score"])
p("Parallel scoring equals sequential scoring",
  "For every thread count and every completion order of the helpers the score vector equals the one computed by one thread. FALSE if there are fewer positions than threads (can hang); proved otherwise.",
  "all lengths, thread counts, completion orders",
  "schedules",
  ["src/training/scoring/mod.rs: parallel_score, Handler<ScoringHelperResponse>"])
p("Output length",
  "The score vector has exactly (number of embedded points) - query_length entries, locally and distributed.",
  "all series lengths, parameters and cluster sizes",
  "off-by-one over all parameters",
  ["src/training/scoring/mod.rs: score, finalize_scoring", "src/training/scoring/overlap.rs"])
p("Windows across node borders are complete",
  "Query windows spanning the border of two nodes contain the same edges as in a one-node run. FALSE when no edge ends exactly at the last point of the overlap; counterexample and the exact condition included.",
  "all edge lists and splits",
  "boundary condition on data",
  ["src/training/scoring/overlap.rs", "src/training/scoring/helper.rs"])
p("Normalised scores are in [0,1] and order preserving",
  "The emitted scores lie in [0,1], attain 0 and 1, and are ordered as the raw scores, whenever two raw scores differ; for constant raw scores the result is undefined (0/0) and for an empty vector the code crashes.",
  "all raw score vectors",
  "unbounded data",
  ["src/training/scoring/mod.rs: normalize_score"])
p("Sub scores are concatenated in node order",
  "The final vector is the concatenation of all nodes' scores in index order, whenever every node's sub score arrives, which is the case if and only if the rotation had no race (C18); with a race some node crashes. Every node computes the same vector, finalises once, and crashes exactly if a sub score is missing or the first one starts with an empty window.",
  "all cluster sizes and arrival orders",
  "schedules",
  ["src/training/scoring/mod.rs: finalize_scoring, Handler<SubScores>"])
p("Score initialisation completes exactly once",
  "Scoring starts exactly once after both the degree and the weight rotation completed, in every interleaving.",
  "all interleavings",
  "schedules",
  ["src/training/scoring/weights.rs: init_done, Handler<NodeDegrees>, Handler<EdgeWeights>, Handler<ScoreInitDone>"])
p("Missing leading scores are filled with a later score consistently",
  "Gap filling replaces exactly the empty leading positions and leaves the order and length of scores unchanged, provided no score of a non-empty window is exactly zero; a zero score is overwritten as well (counterexample).",
  "all score vectors",
  "unbounded data",
  ["src/training/scoring/mod.rs: fill_up_first_missing_points"])
p("Thread default is at least one",
  "A non-positive n_threads selects a usable number of threads. FALSE: on a machine with one CPU it selects 0, and the run never completes.",
  "all CPU counts and n_threads values",
  "needs a one-CPU machine",
  ["s2gpp/__init__.py: Series2GraphPP.__init__"])
p("Dimension uniqueness is a fraction",
  "The contribution of every dimension lies in [0,1) and is larger the rarer the node's cluster in the dimension.",
  "all contribution records",
  "unbounded data",
  ["src/training/anomaly_contribution/mod.rs"])
p("The last row of the series never influences the result of the embedding",
  "The embedding of a series does not depend on its last row: replacing it by any other values yields the same points, so an anomaly that shows only in the last row cannot be detected.",
  "all series, all replacement values, all pattern lengths and latents",
  "a statement about all pairs of inputs",
  ["src/data_manager/phase_spacer/mod.rs: build"])
p("Every question about a successor node is answered, and answered rightly",
  "When a node announces that node estimation is done, it knows for each of its questions (in whichever node's record it was written) the node with the asked point id and segment, and it knows nothing else. The exchange crashes only if an asked node does not exist; it terminates and does not deadlock.",
  "all numbers of nodes, all questions, all schedules",
  "all interleavings of two message exchanges between all nodes",
  ["src/training/node_estimation/mod.rs: ask_for_foreign_nodes, search_for_asked_nodes, answer_next, take_in_answers"])
p("The explanation has one row per score",
  "With explainability enabled, the file of contributions has exactly as many rows as there are scores; row k is the one of the last position up to k with a contribution. The run crashes exactly if there is no position, a node is not registered, or the first window has contribution zero (FALSE without this condition: a segment with a single centre has contribution zero); a row which equals the medians is written as the row before it.",
  "all contribution maps, edge lists, numbers of dimensions and query lengths",
  "data-dependent crash; unbounded data",
  ["src/training/scoring/mod.rs: build_anomaly_contribution_score, Handler<QueryClusterContributionResponse>", "src/training/anomaly_contribution/mod.rs: query_node_score"])
p("The explanation is centred at the median of each dimension",
  "What is subtracted from a dimension is an entry of it, and its median up to 1/80: at least half of the entries are larger than it minus 1/80, and at least half of them smaller than it plus 1/80. FALSE without the tolerance (floats are only sorted by their first digits); counterexample included.",
  "all non-empty columns with non-negative entries",
  "unbounded data",
  ["src/training/scoring/mod.rs: Handler<QueryClusterContributionResponse>", "src/utils/float_approx.rs: Ord"])
p("The distributed run computes the scores of the one-node run",
  "For the same points, the score vector does not depend on the number of nodes or on message timing. FALSE in general: borders at which the code loses an edge (C43), the overlaps of C51, the race of C18, and steps whose crossings belong to several nodes, so that another edge which ends at the same point comes first after the transposition, all change it. If the borders are harmless, a valid step starts at the last point of every overlap, every part has a valid step, there is a position per thread, and the first edge into every point is created by the node which scores the point or all of them by one node, then a distributed run can be completed for every number of nodes, and every complete run in which the rotations do not race delivers on every node exactly the vector of the one-node run; if the condition on the first edge fails, there is a schedule in which another edge comes first.",
  "all cluster sizes, edge lists and schedules",
  "compares two executions for all inputs",
  ["src/training/scoring/overlap.rs", "src/training/scoring/mod.rs: finalize_scoring"])
p("Signs of the principal components are fixed",
  "Every principal component handed out has a non-negative first entry, spans the same line as the component of the SVD, and does not depend on the sign the SVD chose, except when its first entry is zero (counterexample).",
  "all real component vectors",
  "real valued; depends on the linear algebra backend",
  ["src/training/rotation/pca/mod.rs: normalize"])
p("On one node the scores are those of the walk through the clustered crossings",
  "Without peers the edges are exactly the pairs of successive crossings of the rotated points (mirrored ones if self correction decides so), grouped by the clustering of each segment, in the order of time; the run crashes before scoring exactly if a clustering crashes or for the first step of C40; and in every schedule of the helpers exactly one vector is delivered, the normalised one computed directly from the walk by the definition of the score, with as many entries as points minus query length.",
  "all points, clusterings, numbers of threads and schedules",
  "composition of all stages for unbounded data and all schedules",
  ["src/training/mod.rs: Handler<SegmentedMessage>..Handler<ScoringDone>", "src/training/segmentation/mod.rs: segment", "src/training/edge_estimation/mod.rs: estimate_edges", "src/training/scoring/mod.rs: init_scoring, score, finalize_parallel_score"])
p("The density is the Gaussian kernel density estimate with Scott's bandwidth",
  "A density reported for the intersections of a segment is, at each of the equidistant positions from a tenth of the range below the minimum to a tenth above the maximum, the average of the normal densities around the data points, with bandwidth sample deviation times n^(-1/5).",
  "all columns with at least two different values, resolutions and numbers of threads",
  "real valued; unbounded data",
  ["src/training/node_estimation/multi_kde/actors/gaussian_kde.rs", "src/training/node_estimation/multi_kde/actors/helper.rs", "src/training/node_estimation/multi_kde/mod.rs"])
p("Reduced points are the coordinates of the centred data along the components",
  "With the global mean and factor of C22 every point gets one coordinate per component; the coordinates of all points along a component sum to zero, their squares to the quadratic form of the factor, and adding a constant row to all data changes nothing.",
  "all non-empty data and component vectors over the reals",
  "real valued; unbounded data",
  ["src/training/rotation/mod.rs: reduce"])
p("Every embedded row becomes one point, located in the plane of its rotated curve",
  "Row r of node i becomes the point with id i * (n / k) + r, with two coordinates per dimension of the series, all first coordinates before all second ones, and its segment is the angular sector of the rotated curve. FALSE for the segment unless the series has exactly one dimension: with two or more dimensions the segment is the angle of the FIRST coordinates of the first two dimensions, so neither second coordinates nor further dimensions can ever change it; the distances used for clustering are those of the rotated curve of each dimension.",
  "all numbers of dimensions, rotation matrices, rows, cluster sizes and rates",
  "the layout agrees with the reading for one dimension, which the tests use; real valued",
  ["src/training/rotation/mod.rs: apply_rotation_matrix", "src/data_store/mod.rs: add_points_with_offset", "src/data_store/point.rs: new_calculate_segment", "src/utils/ndarray_extensions/mod.rs: to_polar"])
p("The nodes rotate with one matrix, computed from one PCA per dimension",
  "For a series with several dimensions the PCAs run one after the other on the same actors. Every node reduces dimension e with the same components and means, those of a factor with every node's rows of dimension e exactly once, and then rotates exactly once, with the matrix computed from all dimensions. FALSE in general: what arrives for the next dimension before the receiver has finished the last one is cleared, and the stage hangs; with four or more nodes late means of one dimension are used for the next. Exactly with one node no schedule hangs; if nobody is early, the nodes never use different results, and exactly up to three nodes all results have the means of all nodes and every schedule ends with all nodes rotated.",
  "all cluster sizes, numbers of dimensions and schedules",
  "all interleavings of several successive reductions",
  ["src/training/rotation/mod.rs: rotate, run_pca, reduce, broadcast_rotation_matrix, Handler<PCADoneMessage>, Handler<RotationMatrixMessage>", "src/training/rotation/pca/mod.rs"])
p("Adding a constant to a column does not change the scores",
  "Adding any constant to all values of a column (another one for each column) changes neither whether a run on one node can deliver nor which vectors it can deliver: means, embedding, reference row, PCA and rotation cancel the shift.",
  "all series, numbers of columns, parameters, constants, numbers of threads, schedules and linear algebra routines",
  "metamorphic property of the composition of all stages, real valued, unbounded data",
  ["src/training/mod.rs", "src/data_manager/phase_spacer/mod.rs", "src/data_manager/reference_dataset_builder/mod.rs", "src/training/rotation/mod.rs: reduce, get_rotation_matrix", "src/training/rotation/pca/mod.rs"])
p("Multiplying the series by a positive number does not change the scores",
  "Multiplying all values by a positive number (the unit of measurement) changes neither whether a run on one node can deliver nor which vectors it can deliver: PCA components, rotation matrix and segments stay the same, coordinates of intersections are scaled, and the clustering of scaled coordinates gives the same labels.",
  "all series, numbers of columns, parameters, positive factors, numbers of threads and schedules; QR keeps the Gram matrix, the first three singular vectors are determined up to sign",
  "metamorphic property of the composition of all stages, real valued, unbounded data",
  ["src/training/mod.rs", "src/training/rotation/mod.rs", "src/training/rotation/pca/mod.rs", "src/training/intersection_calculation/mod.rs", "src/training/node_estimation/multi_kde/mod.rs"])
p("An anomaly in the last row of the series is invisible",
  "A user expects every row to count. FALSE: the last row of the series influences the scores only through the minima of the columns; as long as it contains no new minimum it can be replaced by anything (with arbitrarily large values) without any effect on what is delivered. The maxima of the columns have no influence at all.",
  "all series, numbers of columns, parameters, numbers of threads, schedules and linear algebra routines",
  "quantifies over all replacements of a row and all stages",
  ["src/data_manager/phase_spacer/mod.rs: build", "src/data_manager/reference_dataset_builder/mod.rs: build", "src/training/rotation/mod.rs: get_rotation_matrix"])
p("The scores of a run on one node depend on the data only",
  "From the series to the delivered vector: with another number of threads or another schedule of the helpers exactly the same vector is delivered (if there are rows for each PCA helper, C21, and a position for each scoring helper). A run crashes after the rotation exactly if an intersection has no coordinates (C31), a clustering crashes (C38) or in the case of C40; otherwise every schedule ends with exactly one vector, which has one entry per window of pattern length plus query length rows, all in [0, 1] or all NaN.",
  "all series, numbers of columns, parameters, numbers of threads and schedules; QR keeps the Gram matrix, the first three singular vectors are determined up to sign",
  "composition of all stages for unbounded data, all schedules, two of the stages with message races",
  ["src/training/mod.rs", "src/training/rotation/pca/mod.rs", "src/training/segmentation/mod.rs", "src/training/intersection_calculation/mod.rs", "src/training/node_estimation/mod.rs", "src/training/edge_estimation/mod.rs", "src/training/scoring/mod.rs"])
p("With self correction the cluster stores the steps of the corrected series",
  "With self correction on several nodes all nodes decide alike, and after the stage every node holds exactly the valid steps of the corrected series (mirrored iff the cluster counts fewer valid than invalid steps) which start in its segments; no run ends early or hangs. FALSE for three or more nodes: a first point that arrives before the receiver has decided is combined with the points before the correction, so that steps of the mirrored series are lost, steps of the uncorrected series are stored, or the node panics, although nothing is left to do. With two nodes, or if nothing is to be mirrored, or if first points are handled after the own decision, the claim holds in every schedule in which the counts travel without the race of C18. Every run ends.",
  "all cluster sizes, series and schedules",
  "all interleavings of two message exchanges which share a mailbox",
  ["src/training/segmentation/mod.rs: segment, self_correction, finish_self_correction, Handler<TransitionCountMessage>, Handler<SendFirstPointMessage>, Handler<SegmentMessage>"])
p("A cluster computes the points of the run on one node",
  "From the series to the rotated points (handing out rows with overlap, statistics, embedding, one PCA per dimension over all nodes, rotation): the points of the nodes, one node after the other, are the points which a run on one node has, with the same ids, coordinates and segments; and every cluster run in which nobody is early comes to an end with such points. FALSE in general: proved for up to three nodes and schedules in which no factor or means arrive before the receiver has its own factor of the dimension (C68 has the counterexamples for other schedules and for four and more nodes), rows that can be handed out (C05), and enough rows per node for the PCA helpers (C21). For more nodes: if the schedule is in time and the means of all nodes have arrived.",
  "all series, numbers of columns, parameters, numbers of threads, cluster sizes and schedules; QR keeps the Gram matrix, the first three singular vectors are determined up to sign",
  "equality of two programs over unbounded real valued data and all message schedules",
  ["src/data_manager/mod.rs", "src/data_manager/data_reader/", "src/data_manager/stats_collector/", "src/data_manager/phase_spacer/mod.rs", "src/data_manager/reference_dataset_builder/mod.rs", "src/training/rotation/mod.rs", "src/training/rotation/pca/mod.rs", "src/data_store/mod.rs: add_points_with_offset"])
p("A cluster delivers the scores of the run on one node",
  "From the series to the delivered vector: a run on two or three nodes delivers at every node exactly the vector which a run on one node delivers; and if the run on one node delivers a vector, there is a cluster run which does. FALSE in general (C18, C29, C43, C51, C62, C68, C73 have the counterexamples): proved for schedules without the races named there, if self correction decides as on one node, and if the points meet the conditions of C62 (valid steps in every part, harmless borders, steps at the ends of the overlaps, fixed first edges).",
  "all series, numbers of columns, parameters, numbers of threads and remaining schedules; QR keeps the Gram matrix, the first three singular vectors are determined up to sign",
  "equality of two programs over unbounded real valued data and all message schedules of twelve stages",
  ["src/training/mod.rs", "src/data_manager/mod.rs", "src/training/rotation/", "src/training/segmentation/mod.rs", "src/training/intersection_calculation/mod.rs", "src/training/node_estimation/mod.rs", "src/training/edge_estimation/mod.rs", "src/training/transposition/mod.rs", "src/training/scoring/"])
p("A run does not crash after the rotation",
  "A run on one node whose series has been embedded and rotated delivers scores. FALSE: exactly three things make it panic. A step that is parallel to a border it has to cross in the first two coordinates; a border with two or more crossings which all have the same distance in some dimension; and the first step as in C40. Hence a series which repeats itself exactly (at least two periods of points), and for which some border is crossed by exactly one step per period, delivers nothing at all: the cleanest possible input crashes the program. The crossings kept are the common points of the line of the step and the border, as one distance per dimension.",
  "all series, numbers of columns, parameters, constants of the clustering (order at most resolution) and numbers of threads; at least one position per thread",
  "the condition is about real valued coordinates which coincide after an unbounded computation; tests use noisy series",
  ["src/training/node_estimation/mod.rs", "src/training/node_estimation/multi_kde/mod.rs", "src/training/intersection_calculation/mod.rs", "src/training/intersection_calculation/helper.rs", "src/training/edge_estimation/mod.rs"])
p("Scores are numbers",
  "Every score delivered for a valid series is a number. FALSE: if the column 0 (or, with several columns, column 1) is constant, or if latent is 0, which the command line accepts, then a run which reaches the rotation delivers exactly one vector, and it is NaN at every position, whatever the other columns contain. More generally this happens whenever the rotation matrix of one of these two columns is NaN, that is exactly if the window made of the minimum of the column, minus the mean window, is orthogonal to the first two principal components. All points then get segment 0, no transition is found, all raw scores are 0 and the normalisation divides 0 by 0. If no matrix is NaN the points are those of the run without NaN.",
  "all series, numbers of columns, parameters, threads, clusterings; at least one position per thread; every QR with the right Gram matrix and every SVD",
  "the outcome depends on a division by zero deep in the pipeline and on how NaN travels through later stages for arbitrary other columns; a test looks at single data sets",
  ["src/training/rotation/mod.rs", "src/data_store/utils.rs", "src/data_store/point.rs", "src/training/segmentation/mod.rs", "src/training/scoring/mod.rs", "src/parameters.rs"])
p("Overlapping stages do not change the result",
  "The nodes of a cluster need not be in the same stage: a node enters the next stage (intersections, node estimation, edges, transposition, degrees, weights, overlap, helpers, rotation of scores) as soon as it has finished the one before, while its peers are still in an earlier stage or already in a later one, and messages of a later stage can arrive early. In every such run a node which delivers its scores delivers a vector of a run in which all nodes finish every stage before the next one begins, and every such vector can be delivered. When one node delivers its scores, every other node has finished all stages before the rotation of the scores. On two or three nodes the vector is that of one node (conditions of C75).",
  "all series, parameters, clusterings, numbers of nodes from two on (from two to three for the comparison with one node), interleavings of stages and messages (without the races of C18 and C73)",
  "needs all interleavings of all stages of all nodes; a test sees few schedules and cannot steer them",
  ["src/training/mod.rs", "src/utils/direct_protocol.rs", "src/utils/rotation_protocol.rs", "src/training/segmentation/mod.rs", "src/training/scoring/mod.rs"])
p("The Python estimator runs with the parameters the user has given",
  "`Series2GraphPP(...).fit_predict(data)` returns exactly the vector of the run with the parameters of the estimator, if there is at least one thread (and the array lies in memory as C89 demands). With a pattern length alone these are latent = pattern_length / 3 rounded down, query_length = pattern_length, rate 100 and one thread, however many processors the machine has. Not true are: it works on every machine (with the default n_threads on one processor it never returns); it works for every pattern length (up to 3 it never returns with the default latent); zero is zero (latent=0 and query_length=0 mean the defaults); set_params(pattern_length=...) makes an estimator for the new length (latent and query_length stay those of the old length, and if the new length is below old latent + 3 it never returns); what the constructor accepts can be set later (None, negative n_threads); the clusterings which the package offers can be used (with MeanShift it never returns).",
  "all pattern lengths, latents, rates, query lengths, thread numbers, numbers of processors, series and library results",
  "the defects show on machines or for attribute sequences a test does not have (one processor, set_params after construction)",
  ["s2gpp/__init__.py", "src/python_binding.rs", "src/parameters.rs", "src/data_manager/preprocessor/mod.rs", "src/training/rotation/pca/mod.rs"])
p("A run on several nodes always ends, and every end is the delivery of the one right vector",
  "From the points on, with all stages overlapping as the nodes please: no run is infinite. When every node has entered the segmentation, there is in every reachable state a message to handle or all nodes have their scores; so every run can be continued to the end, every run in which nothing can be handled any more has ended with all nodes having their scores, and the scores are those of the one-node run. With self correction (two nodes) this holds from the start. Without self correction the one way to be stuck is a crash by a first point which arrives at a node that has not entered the segmentation.",
  "all schedules, series, parameters and library results within the conditions of C75 (two or three nodes)",
  "deadlocks between overlapping stages of different nodes appear in single schedules out of very many",
  ["src/training/mod.rs", "src/training/segmentation/mod.rs", "src/training/node_estimation/mod.rs", "src/training/edge_estimation/mod.rs", "src/training/transposition/mod.rs", "src/training/scoring/mod.rs"])
p("Two runs on the same series deliver the same bits with at most two threads, and need not with three",
  "On one node: if there are one or two threads, all runs on the same series and parameters deliver the same bits in every schedule of the threads, whatever the machine arithmetic does (only x + y and y + x must agree). With three or more threads this is false in single precision: the density of a segment is the sum of the helpers' answers in the order of their arrival, so the number of nodes of a segment, and the scores, can change from run to run; so can the column means of the PCA, whose order among the helpers is open exactly from three helpers on. The R factor of the PCA and the concatenation of the scores never depend on the schedule. The number of threads changes the density even between one and two. If addition were exact no schedule would matter.",
  "all data, all numbers of threads, all schedules, all implementations of the numerical computations",
  "a test compares two runs under the schedules it happens to get; the bits which differ change peaks only for rare data",
  ["src/training/rotation/pca/helper.rs", "src/training/node_estimation/multi_kde/actors/gaussian_kde.rs", "src/training/node_estimation/multi_kde/actors/helper.rs", "src/training/scoring/mod.rs", "src/parameters.rs:44"])
p("Blank lines in the file do not change which rows a node gets",
  "With one node, blank lines (and fields over several lines) do no harm: the node gets all records. With several nodes this is false: the partitions are sized by counting lines, but records are distributed. With at least as many lines per node as the pattern is long, every node gets its window of the records if and only if the remainder of the number of records plus the number of blank lines stays below the number of nodes (and the remainder is smaller than the pattern, C05). Otherwise the nodes get the windows of longer partitions, but number their points as if the partitions were not longer, so that points of two nodes have the same number; or, with many blank lines, a node gets no data at all.",
  "all files, positions of blank lines, numbers of nodes and lengths of the pattern",
  "it takes a file whose length has one particular remainder, and a cluster",
  ["src/data_manager/data_reader/mod.rs:33", "src/data_manager/data_reader/mod.rs:50", "src/data_manager/data_reader/mod.rs:56", "src/training/rotation/mod.rs:232"])
p("Scores in single precision are the correctly rounded means",
  "In f32, while weight times (degree minus one) summed over a window is at most 2^24 and the window has at most 2^24 edges, the score of the window is minus the correctly rounded mean of weight times (degree minus one): the sum is exact and the 0.00000001 added to the number of edges is rounded away. So windows with equal means get the same bits, and a window with a greater mean never gets the greater score. Normalised scores are in [0, 1], keep the order of the scores, the least is exactly 0 and the greatest exactly 1, unless all are equal; then, and only then, all are NaN. Normalisation is not strictly monotone in f32: different scores can become equal. Beyond 2^24 the sum is not exact, and the same edges in another order can get another score; with n edges, the score is still the mean up to a factor between (1 - 2^-24)^(n+2) and (1 + 2^-24)^(n+2).",
  "all edge lists, weights, degrees, windows and positions in the range; all lists of scores",
  "the constant and the rounding errors are invisible with the small data of tests; monotonicity of rounding is a statement about all floats",
  ["src/training/scoring/helper.rs:23", "src/training/scoring/helper.rs:33", "src/training/scoring/helper.rs:34", "src/training/scoring/mod.rs:190"])
p("Columns from the third on have no influence on the path through the segments",
  "With at least two columns, the segments of the points (mirrored or not), and with them the valid steps, the decision of the self correction, the crossings and the times of all edges, are determined by the first two columns: two series which agree in these, possibly with different numbers of columns, deliver normalised vectors of walks which visit the same segments at the same times. The other columns only decide which crossings of a segment are grouped to the same node; if they are grouped in the same way the delivered vectors are equal. So an anomaly in a later column is invisible unless it changes the groups.",
  "all series of all lengths and numbers of columns (at least two), all values of the further columns, all parameters and numbers of threads on one node",
  "tests use one or two columns, or compare with stored results; independence of columns is a statement about pairs of runs",
  ["src/data_store/point.rs:27", "src/utils/ndarray_extensions/mod.rs:148", "src/training/rotation/mod.rs:57", "src/training/rotation/mod.rs:205", "src/training/segmentation/mod.rs:323"])
p("The order of the columns has no influence on the scores",
  "FALSE in general. Any order of the columns from the third on delivers exactly the same vectors. The first two columns must stay: there is a series of two columns (with exact singular vectors) which delivers [1, 0, 0] in every run, and NaN only when the two columns are exchanged; and one of three columns for which the same happens when the first column is moved to the end.",
  "all series with at least two columns, all permutations of the columns which keep the first two, all parameters, all schedules; the witnesses for all constants of the clustering",
  "a test compares single orders; that later columns commute needs the equivariance of PCA, rotation, intersection and clustering",
  ["src/training/rotation/mod.rs:205", "src/data_store/point.rs:27", "src/training/intersection_calculation/mod.rs:92", "src/training/intersection_calculation/helper.rs:16", "src/training/node_estimation/multi_kde/mod.rs:122"])
p("A whole cluster run, from the loaded data on, with all stages overlapping",
  "On two or three nodes, each of which begins every stage from the rotation on as soon as it has finished the one before, while the others may be in any other stage: what can be delivered is exactly what can be delivered if all nodes have rotated before the first one segments, and under the conditions of C75 exactly the vector of one node. No run is infinite. In every reachable state, what a node delivers is the vector of one node; when nothing more can happen all nodes have delivered it, unless (without self correction) a node has crashed in the segmentation before it had entered it. That crash is possible in every such cluster: the first point of node i + 1 may reach node i when it has rotated but not begun to segment.",
  "all series, parameters, libraries and clusters of two or three nodes (self correction: two) under the conditions of C75, all interleavings in which nobody is early in the PCA (C68) and without the races of C18 and C73",
  "stages of different nodes overlap in every real run, in a different way each time; a test sees one interleaving and never the rare crash",
  ["src/training/mod.rs:173", "src/training/mod.rs:183", "src/training/rotation/mod.rs:42", "src/training/rotation/mod.rs:205", "src/training/segmentation/mod.rs:385"])
p("A whole cluster run from reading the file on: the data managers never panic and always agree",
  "On any number of nodes whose partitions are feasible, in every reachable state of the data managers: no handler panics (in particular the statistics of a peer never reach the main node before its own calculation has begun, although the code unwraps it); a node hands over its data at most once, and these are the phase space of its own partition, the reference data set of the minima and maxima over all partitions and the sum of the row counts; every run ends with all nodes having handed over. For two or more nodes and rows which fit, that is the part of the points of the whole series, the extremes of the whole series and its length. On two or three nodes, which begin the rotation as soon as their own data manager is done, what can be delivered is exactly what can be delivered when all have loaded before, under the conditions of C75 the vector of one node; no run is infinite, and it ends with all nodes having delivered that vector or with the crash of C86.",
  "all series, parameters, numbers of nodes and threads, partitions and interleavings of the messages and helpers of the data managers (messages between nodes may overtake each other, a mailbox is a queue)",
  "which messages overtake which depends on the network and on the load of the machines; a test sees a handful of orders on one machine",
  ["src/data_manager/mod.rs:106", "src/data_manager/mod.rs:164", "src/data_manager/mod.rs:187", "src/data_manager/mod.rs:259", "src/data_manager/data_reader/mod.rs:64", "src/data_manager/stats_collector/minmax.rs:52", "src/data_manager/stats_collector/std.rs:69", "src/data_manager/preprocessor/mod.rs:71", "src/training/mod.rs:173"])
p("At the end of a cluster run the main node delivers",
  "A node which has the scores of all others writes its output and ends its process; a node with the role Sub ends its process, whatever it is doing, when it sees that any other node has left. Whatever a node delivers contains the scores of all nodes, no run is infinite, and no process ends before all nodes are in the last stage. FALSE that all nodes deliver: on any number of nodes there is a run which ends with the main node as the only one which has delivered; all have delivered exactly if no process was ended before it had delivered. FALSE from three nodes on that the main node delivers: node 1 can finish first and take node 2 down before that has passed on what the main node needs, which then waits for ever. The main node delivers in every run exactly with two nodes and if messages which an ended process had sent are not lost.",
  "all cluster sizes, scores, and schedules of messages, ends of processes and their notices",
  "tests do not end processes (they run the actors inside one process without the listener), and the outcome depends on which of two actors of a node is scheduled first",
  ["src/cluster_listener.rs:123", "src/cluster_listener.rs:78", "src/training/mod.rs:262", "src/training/scoring/mod.rs:199", "src/training/scoring/mod.rs:316"])
p("The result does not depend on how the data lie in memory",
  "FALSE. If the minima and maxima are computed at all, they are those of the columns, but they are computed only for some layouts, although the entries are the same. `s2gpp(params, Some(data))` returns exactly what the run on the rows delivers if the matrix has stride 1 along its rows or is not contiguous, and nothing otherwise: never for a matrix stored column after column (from two rows on, even with one column) or with reversed columns. `fit_predict(X)` with at least two rows and columns returns exactly what the run on the rows delivers if neighbours in a row are not further apart in memory than neighbours in a column, and otherwise never: not for an array stored column after column such as `DataFrame.values`, the example of the README. Data read from a file is always stored row after row.",
  "all matrices, strides, parameters, library results",
  "tests read files or write literals, which are always stored row after row; equality of arrays in tests does not see strides",
  ["src/utils/ndarray_extensions/mod.rs:95", "src/utils/ndarray_extensions/mod.rs:114", "src/data_manager/stats_collector/minmax.rs:29", "src/python_binding.rs:31", "s2gpp/__init__.py:37", "README.md:138"])
p("Equal stretches of the series get equal scores",
  "Whenever a run on one node delivers scores, two stretches of n equal rows at a and b get the same score at offset o, provided (1) a step of the points which crosses a border in the valid direction starts in the stretch at or before the offset, and (2) one starts after the query window, at or after a + o + query length, with pattern length plus one rows of the stretch left. The same holds for what any node of two or three delivers under the conditions of C75. Without (1) it is FALSE: the first edge of the window comes from what was before the stretch. Without (2) it is FALSE: the first edge after the window counts.",
  "all series, stretches, offsets, parameters, library results, schedules",
  "every test looks at one series with fixed scores; that the score of a pattern is the same wherever it occurs depends on labels, weights and degrees of the whole graph",
  ["src/training/scoring/mod.rs:58", "src/training/scoring/helper.rs:20", "src/training/node_estimation/mod.rs:60", "src/training/edge_estimation/mod.rs:30", "src/data_manager/phase_spacer/mod.rs:17"])
p("Missing values do not spoil the whole result",
  "FALSE. `NaN` is accepted, in files as text and in arrays. If one value of the first two columns is NaN, in a row which is not the last one, then a run delivers exactly one vector, and it is NaN at every position, or the linear algebra library fails and nothing is delivered, whatever the library does with NaN, however many threads there are and whatever the other values are: the mean window is NaN, so every point is, and all points get segment 0. A NaN in the last row is not noticed by the embedding. With one thread NaN in later columns does not change the segments of the points.",
  "all series, positions of the missing value, parameters, library results, schedules of the PCA helpers and scoring threads; one node",
  "no test contains a missing value, and the spread of NaN through sums, products and casts is not visible in results of single functions",
  ["src/data_manager/data_reader/mod.rs:125", "src/training/rotation/pca/mod.rs:92", "src/training/rotation/pca/mod.rs:205", "src/training/rotation/mod.rs:68", "src/data_store/utils.rs:3"])
p("Behaviour seen once stands out",
  "In single precision, in every schedule of the threads: if the path comes back to where it started (the start has two or more ways), then a position whose window only has transitions which were made once, out of states with one way in and one way out, has the normalised score 1, the greatest there is, and before normalisation every window with another transition has a smaller score; if all transitions are such, all scores are NaN. FALSE without conditions. If the path never comes back to its start, every position whose window is the first transition alone has the score 1, however ordinary it is. And a transition made once out of a state with many ways counts more than one made often: there is a run in which a position whose next transition was made once has the score 0, the least anomalous of all, and a position whose next transition was made twice has a greater one.",
  "all walks, points and clusterings, query lengths, numbers of threads and schedules; sums over windows at most 2^24; one node",
  "a claim about the rank of scores over all graphs; single graphs in tests have no busy nodes",
  ["src/training/scoring/helper.rs:21", "src/training/scoring/weights.rs:73", "src/training/scoring/weights.rs:89", "src/training/scoring/mod.rs:190"])
p("How long a series has to be",
  "On one node, unless the data themselves make it crash (C40, C76), a run gets to its end and delivers one vector in every schedule of the threads exactly if: pattern_length is at least latent + 3; the series has at least pattern_length rows; query_length and the number of threads are at least 1; the number of points n + 1 - pattern_length is at least query_length plus the number of threads; and with more than one thread, (threads - 1) * ceil(points / threads) is less than the number of points. With the defaults of the command line that is exactly 132 rows or more, with one thread 125. Otherwise the run crashes, or hangs in some schedule. Because of the last condition a longer series can fail where a shorter one works (8 threads, query length 1, pattern length 4: 18 rows work, 20 do not); it holds if the square of (threads - 1) is less than the number of points.",
  "all series, column counts, pattern lengths, latent and query lengths, numbers of threads and schedules; one node",
  "an exact condition on five numbers at once; the failing cases are hangs which depend on the schedule, and tests use lengths that work",
  ["src/training/scoring/mod.rs:81", "src/training/scoring/mod.rs:134", "src/training/rotation/pca/mod.rs:116", "src/training/rotation/pca/mod.rs:225", "src/data_manager/phase_spacer/mod.rs:17"])
p("In single precision, too, a cluster delivers what one node delivers",
  "The scores are computed in single precision, where sums depend on the order of the summands, and in a cluster the edges of a window can arrive in another order than on one node. Under the conditions of C62, if the sum of weight times (degree - 1) over every query window of the run on one node is at most 2^24 (for example if the walk crosses at most 204 segments), every node of the cluster delivers in every schedule exactly the same vector of single-precision numbers as the run on one node with the same points, not only the same values up to rounding; and complete runs exist.",
  "all clusters of two or more nodes, all points and parameters as in C62, all schedules of all stages (rotations without the race of C18)",
  "the order of the summands depends on the schedule of the transposition; a test sees one schedule and would compare with a tolerance",
  ["src/training/scoring/helper.rs:20", "src/training/scoring/mod.rs:199", "src/training/transposition/mod.rs:96"])
p("The distributed Python estimator: which calls start which run",
  "DistributedSeries2GraphPP.main and .sub work with keywords only: with any positional argument they raise a TypeError. Which keywords start a run, and which one, is exactly: known names only, pattern_length and n_cluster_nodes given, the other values as given or the defaults of the signature (latent, query_length and n_threads as in C79), clustering the enum member KDE and not the text; a sub node needs mainhost. The order of the keywords does not matter. Processes which are given the same values have the same columns, and the same parameters exactly if n_threads is positive or all machines have several processors or all have one (otherwise one of them has no thread and hangs). The output file cannot be switched off (None writes a file None), and the main node without a path reads the file None. With n_cluster_nodes=1 the main process works alone, a sub process waits for ever; with 0 both do. Two or three processes started with the same values deliver on every node exactly what the local estimator Series2GraphPP with these values returns (under the conditions of C87).",
  "all positional and keyword arguments (integers, truth values, texts, None, paths, enum members), all numbers of processors, all series",
  "a test calls the estimator with one set of keywords on one machine; the behaviour for None, zero, other machines and other spellings is spread over Python, pyo3 and the actors",
  ["s2gpp/__init__.py:57", "s2gpp/__init__.py:100", "src/python_binding.rs:84", "src/lib.rs:52", "src/utils/mod.rs:132"])
p("Which lengths of the series and which parameters work on two or three nodes",
  "Let the points be as in C75 and let the run on one node deliver a vector. A cluster of two or three nodes works (every node can deliver a vector, and every run which has come to an end has delivered one on every node or has crashed in the race of C28) exactly if the length of the query is not 0, there is a thread, every helper of every node gets rows, and every helper of every node gets positions: with s = rows / nodes and l = s + rows % nodes - (pattern_length - 1) rows on the last node, s >= n_threads and l >= n_threads + query_length. Without the condition on the rows no run delivers anything. Without the condition on the positions some runs deliver, but there is a schedule in which one node waits for ever for answers which it has already received and put aside, and then no node of the cluster delivers anything. With the defaults of the command line (pattern_length 50, query_length 75) and 8 threads, two nodes need 263 rows.",
  "all series, parameters with two or three nodes, and schedules of all stages from reading the file on",
  "whether the cluster hangs depends on the order in which the answers of the helpers arrive; a test with few threads or a long series never sees it",
  ["src/training/scoring/mod.rs:134", "src/training/scoring/mod.rs: Handler<ScoringHelperResponse>", "src/data_manager/data_reader/mod.rs: read_csv", "src/data_manager/phase_spacer/mod.rs"])
p("Shared points: mirroring, indexes and segmentation on the data store",
  "The points of a node live in the data store and are shared (Arc<Mutex>) with its index, with the steps between them and with what is kept for other nodes. Whatever a node does in the segmentation in whatever order (segment, self-correct, take in the first point of the next node, take in steps from other nodes, send), the store afterwards holds exactly the points and steps which a segmentation on values computes, in the same order, and it panics in the same cases; the two ends of every step are points of the store as they are now, so that after a correction no step joins a mirrored and an unmirrored point, except that a step may end in the first point of the next node, which stays as it was sent. Mirroring reaches every point of the store exactly once and nothing else, also if ids occur twice. After any sequence of calls of the store the lookup by segment and the lookup by point return exactly the intersections and nodes which were added (nodes: since the graph was wiped last) in order of addition, and None iff there are none. add_point_return returns the new point, not an older one with its id.",
  "all points, ids, segments, parameters, and sequences of operations of the data store and of the segmentation",
  "aliasing bugs (a step which keeps a copy of an unmirrored point, a point mirrored twice because it is listed twice) show only in runs with self correction and several nodes, and unit tests compare values of fresh stores",
  ["src/data_store/mod.rs", "src/data_store/index.rs", "src/data_store/point.rs: PointRef", "src/data_store/transition/mod.rs", "src/training/segmentation/mod.rs"])
p("In a cluster, too, offsets, units, the last row, the order of columns and the number of nodes do not change the scores",
  "Let the series and the parameters be as in C75 (two or three nodes). Every node of the cluster, in every schedule of all stages from reading the file on, delivers the same vector of scores if a constant is added to each column, if the whole series is multiplied by a positive number, if the last row is replaced by another one with which the minima of the columns are the same, and if the columns from the third on are reordered; the transformed series meets the conditions of C75 again. What a cluster delivers is what a cluster with another number of nodes or threads delivers, and what one node delivers with any number of threads.",
  "all series as in C75, constants, positive factors, last rows, permutations, numbers of nodes and threads, schedules",
  "the parts of the nodes, the statistics exchanged, the shares of the PCA and all intermediate numbers change; equality needs all stages on all nodes together",
  ["src/training/mod.rs", "src/data_manager/mod.rs", "src/training/rotation/mod.rs", "src/data_manager/phase_spacer/mod.rs"])
p("Self correction on several nodes leaves no step with a point from before the correction",
  "Data stores hold shared, mutable points, mirroring changes them in place, and nodes exchange copies of points. On two nodes in every schedule, and on more nodes in every schedule without the races of C18 and C73: when a node has finished the segmentation, the steps in its data store are exactly the valid steps of the series after the common decision which start in its segments, and both endpoints of each of these steps are points after that decision: if the cluster mirrors, each endpoint is a point mirrored exactly once, otherwise each is an original point; so the coordinates read later are those of the point with that id. No node crashes if every part has a valid step after the correction, only a finished cluster stops, there are no infinite schedules, and some schedule finishes. With the race of C73 on three nodes a finished data store can hold a step between points which were not mirrored although all nodes decided to mirror.",
  "all points, numbers of nodes, schedules (without the races for more than two nodes)",
  "which copy of a point a node holds depends on when messages arrive relative to the mirroring in place",
  ["src/training/segmentation/mod.rs", "src/data_store/mod.rs", "src/data_store/point.rs", "src/data_store/transition/materialized.rs"])
p("Copies of columns, and the units of all columns but the first two, have no influence on the scores",
  "Take a series of two or more columns and build another one whose columns are columns of the first series in any unit and with any offset (a positive factor and a constant for each column), such that the first two columns stay the first two and get one common factor, and no column is lost; columns can be repeated any number of times. Then exactly the same vectors of scores can be delivered, on one node and on every node of a cluster, with and without self correction (which mirrors the first coordinate but not its copies). The copy must not be placed second: if the second column is the first one in another unit, all points of the series lie in one of two opposite segments or at the origin.",
  "all series of two or more columns, all choices of copies, factors and offsets, all parameters, all QR and SVD libraries as in C70",
  "a test compares two runs; that no number of copies and no unit matters is a statement about all series",
  ["src/training/rotation/mod.rs", "src/data_store/point.rs", "src/training/intersection_calculation/mod.rs", "src/training/node_estimation/mod.rs", "src/training/node_estimation/multi_kde/mod.rs"])
p("The keys of the cluster centres limit the size of the numbers, and change nothing else",
  "The centres of the clusters of a segment are keys of a hash map whose hash is 80 times each number, converted to 64 bits. The clustering of a segment therefore ends with a panic exactly if it would without the hash or if some number x of some centre has 80x outside of (-2^63 - 1, 2^63); otherwise labels and centres are those without the hash. A run on one node delivers a vector exactly if it does without the hash and all centres of segments with two or more crossings fit. If all distances of crossings are below 2^63 / 88 (about 10^17) the hash makes no difference. The independence of the unit of measurement (C70) holds only up to this limit: a smaller unit is never worse, all units in which something is delivered deliver the same, and as soon as one centre is not zero nothing is delivered in all large enough units.",
  "all series, all units, all parameters on one node, all constants of the clustering, all deterministic libraries for QR and SVD which keep the Gram matrix",
  "tests use small numbers; where exactly the limit is, and that nothing else than a panic happens beyond it, is a statement about all sizes",
  ["src/utils/float_approx.rs", "src/training/node_estimation/multi_kde/mod.rs", "src/training/node_estimation/multi_kde/actors/mod.rs"])
p("The explanation of a run is made of the rarity of the cluster centres, and panics exactly if the first window has no rare node",
  "A run on one node with explainability which gets as far as the scores asks only about nodes which are recorded. The row of a position is the mean, over the nodes at which the edges of its query window start, of the share of crossings of the segment whose centre has another coordinate (dimension by dimension); rows of sum zero are replaced by the last other row, the columns are shifted by their medians, and the file has one row per score. The run panics exactly if every node at which an edge of the first window starts is the only cluster of its segment (in particular if there is no such edge, or if no segment is crossed twice), although the scores are complete. Offsets of the columns, the unit of measurement, the number of threads, and the last row (except through the minima) change neither the rows nor whether there is a panic.",
  "all series, all parameters on one node, all constants of the clustering, all deterministic libraries for QR and SVD",
  "a test looks at the explanation of one file; which runs crash after their scores are known, and that a node is never unknown, is a statement about all runs",
  ["src/training/anomaly_contribution/mod.rs", "src/training/node_estimation/mod.rs", "src/training/scoring/mod.rs"])
p("The columns of an explanation follow the columns of the series",
  "On one node with explainability: if the columns after the first two are put in another order and measured in other units (with offsets, and with one unit for the first two columns together), the explanation is the same with its columns in that order, and there is a panic in both runs or in none. If copies of columns, in whatever units, are appended or inserted after the first two columns, there is an explanation exactly if there was one without them; the table of the explanation is the old one with its columns copied (before rows of sum zero are overwritten for the file), and each copy gets exactly the values of the column it was copied from.",
  "all series with at least two columns, all orders, copies and positive units, all parameters on one node, all constants of the clustering, all libraries for QR and SVD which are settled on the windows",
  "a test compares two orders of the columns of one file; that blame moves with its column for every series is a relation between all pairs of runs",
  ["src/training/anomaly_contribution/mod.rs", "src/training/node_estimation/mod.rs", "src/training/intersection_calculation/mod.rs"])
p("When the keys of the coordinates stop an explanation although there are scores",
  "On one node with explainability, when coordinates of centres are used as keys of a hash map (80 times the number has to fit into 64 bits): a run which gets as far as the scores is explained exactly as without the keys if the coordinates of every crossing which is alone in its segment fit, and ends with a panic if one of them does not. An explanation which is written is the one without the keys. If no distance of a crossing exceeds 2^63 / 88 the keys make no difference. In another unit the same holds with the converted distances; there is a run and a unit for which scores are delivered and only the explanation panics because of the keys.",
  "all series, all parameters on one node, all constants of the clustering, all libraries for QR and SVD, all positive units",
  "the limit concerns numbers around 10^17 and only crossings which are alone in their segment; no test has such numbers",
  ["src/training/anomaly_contribution/mod.rs", "src/training/node_estimation/mod.rs", "src/utils/float_approx.rs"])
p("Crossings lie between the points, and ordinary values never reach the limit of the keys",
  "For every step which is kept, including steps of half a turn, and every border it crosses: if a crossing is found, it lies between the two points of the step. Hence on one node no distance of a crossing exceeds 9 * (patternLength - latent) * latent * M for a series whose values are at most M in absolute value (also with self correction), and as long as 792 * (patternLength - latent) * latent * M is below 2^63, the keys of the cluster centres never stop a run: scores and explanation are those without keys.",
  "all series and bounds M, all parameters on one node, all constants of the clustering, all libraries for QR and SVD which are settled and whose directions have no entry above 1",
  "a test sees a few crossings; that none of any series is outside of its step, or reaches the limit of the keys, needs all of them",
  ["src/utils/geometry.rs", "src/training/intersection_calculation/mod.rs", "src/training/intersection_calculation/helper.rs", "src/utils/float_approx.rs"])
p("When a crossing is not found",
  "For a step which is kept and a border it crosses the calculation of the crossing fails (`intersection error`, a panic of the run) exactly if both points of the step are on the line through the origin at the angle of the border. If no point is the origin in its first two coordinates, this happens exactly for steps of exactly half a turn through the origin which end on the ray of a border, and only at that last border; hence never with an odd number of segments. This replaces the first of the three reasons for a run on one node to stop between points and scores by a condition on the points alone.",
  "all numbers of segments, all steps and borders, all lists of points with their segments, with and without self correction; for the run all series, parameters on one node and constants of the clustering",
  "a panic for an exact position of two points is found by a test only if the test knows the position; that there is no other one needs all of them",
  ["src/utils/geometry.rs", "src/training/intersection_calculation/mod.rs", "src/training/intersection_calculation/helper.rs"])
p("Where the crossings are, and when a run on one node delivers scores",
  "The place where a kept step crosses a border depends on the two points of the step and the angle of the border only, not on the other steps of the node (which enter the matrix that is inverted): it divides the step in the ratio of the distances of its ends from the line of the border. In one dimension its distance from the origin is the area spanned by the two points over the sum of these distances. A run on one node can deliver scores exactly if for its points every crossing exists, the crossings of every border which is crossed at least twice do not all agree in some dimension, and the first kept step does not start in the segment before the last one and end in a lower one.",
  "all points, steps and borders, all other steps of the node; for the run all series, parameters on one node, libraries and constants of the clustering with order at most resolution",
  "the condition joins three panics in three stages; tests see runs which end or do not, not that there is no fourth reason",
  ["src/utils/geometry.rs", "src/training/intersection_calculation/mod.rs", "src/training/intersection_calculation/helper.rs", "src/training/node_estimation/mod.rs", "src/training/edge_estimation/mod.rs"])
p("Keys of the cluster centres on several nodes",
  "On several nodes, each of which computes the keys of the centres of its own segments, a run with the keys delivers only what a run without them can deliver. On two or three nodes which decide on self correction as one node would, it delivers a vector exactly if a run without the keys delivers it and the numbers of all centres which one node would compute fit in 64 bits; this holds as long as 792 * (patternLength - latent) * latent times the largest value of the series is below 2^63. Under the conditions of C75 it delivers at every node exactly what a run on one node with the keys delivers, also beyond that limit. If one node would find a centre with a number other than zero in a segment with at least two crossings, then in all large enough units no node of the cluster delivers anything.",
  "all series, parameters, constants of the clustering and schedules of all stages (those of C75); all libraries for QR and SVD which are settled and whose directions have no entry above 1",
  "a key which does not fit ends one node of the cluster and leaves the others waiting; no test has values of that size, and none excludes them for all series",
  ["src/utils/float_approx.rs", "src/training/node_estimation/multi_kde/mod.rs", "src/training/mod.rs"])
p("When a run on several nodes delivers scores",
  "On two or three nodes under the conditions of C75: if no step has both ends on the line of a border which it crosses, and the distances of the crossings of every border which is crossed more than once differ in every column, then every node delivers exactly one vector, which is the same on all nodes and in all schedules; otherwise no node delivers anything in any schedule. With the keys of the centres the same holds with one more condition: the numbers of all centres fit in 64 bits. All conditions are about the points which one node would compute.",
  "all series, parameters, constants of the clustering (order at most the resolution) and schedules of all stages which satisfy the conditions of C75",
  "whether a cluster ends with scores depends on every step and every segment of every node; a test sees some series, and a run which delivers nothing only hangs",
  ["src/training/mod.rs", "src/training/intersection_calculation/mod.rs", "src/training/node_estimation/mod.rs", "src/utils/geometry.rs"])
p("Equal stretches of the series get equal explanations",
  "On one node, if a run writes an explanation and two stretches of the series are equal, then under the conditions of C90 (a valid step starts in the stretch at or before the position, another one in the stretch after the query window) the positions at the same offset in the two stretches get the same mean rarities. If their sum is not zero, neither before nor after the medians of the columns are subtracted, then the two rows of the explanation are equal, namely these rarities less the medians. Without the conditions on the sums equal answers can become different rows.",
  "all series, parameters, constants of the clustering and schedules of the stages before the points; all pairs of equal stretches and offsets",
  "needs that labels and centres of crossings depend on nothing but the shape of the stretch, and that the three passes over the table do not disturb such rows; a test compares rows of one file",
  ["src/training/anomaly_contribution/mod.rs", "src/training/node_estimation/mod.rs", "src/training/scoring/mod.rs"])
with open(os.path.join(os.path.dirname(__file__), "..", "properties.jsonl"), "w") as f:
    for x in P:
        f.write(json.dumps(x) + "\n")
print(len(P))

# Formal model of S2G++ (HPI-Information-Systems/S2Gpp)

## 1. What this is

A Lean 4 model of the Rust sources in `/repo/src`, plus machine-checked proofs of the
properties in `properties.jsonl`. The code is a set of actix actors: one `Training` actor and
one `DataManager` actor per cluster node, helper actors per thread, and a pipeline of stages
that exchange messages between nodes.

Layout of `/verif/lean/Verif`:

* `Model/*.lean`  – definitions that follow the Rust code function by function. Every definition
  cites the file and lines it models and says where it simplifies.
* `Props/*.lean`  – the specifications (what the user expects; small definitions that do not use the
  functions of the model, at the beginning of the file or just before the theorem), the theorems
  `model refines spec`, and `example`s showing concrete non-trivial instances of the hypotheses.
  When the code violates a property, the file contains a concrete counterexample (`_counterexample`) and
  the exact condition under which the property holds. A theorem called `_partial` proves less than the property says.

Files outside `lean`: `properties.jsonl` (written by `tools/gen_properties.py`), `MANIFEST.json` (written by
`tools/gen_manifest.py` from `tools/claims.py`), `seeded/LOG.jsonl` (wrong programs and the theorems that fail for them).

## 2. Trusted base

* Lean's kernel (4.33.0), and the axioms `propext`, `Classical.choice`, `Quot.sound`: no theorem depends on
  anything else. No own axioms, no `sorry`, no `native_decide`, no `bv_decide`.
* The reading of the Rust code: there is no mechanical translation, the model is written by hand.
* Arithmetic: `f32` is replaced by exact numbers (ℝ, ℚ or an arbitrary ordered field). Rounding,
  overflow, `NaN` and `-0.0` are outside of the model, except that a division by zero / a singular matrix is an
  explicit error or an explicit case. `usize`/`isize` are unbounded (`Nat`/`Int`), underflow of `usize` is an
  explicit crash.
* `HashMap` is a function or association list with unspecified iteration order: theorems hold for every order.
* actix: an actor handles one message at a time; a mailbox is a FIFO queue; a message sent with
  `do_send` is delivered exactly once; between a pair of remote nodes order is kept; nothing is assumed between
  different pairs. Node crashes, mailbox limits, timeouts and partial failures are outside.
* Linear algebra routines of `ndarray-linalg` (QR, SVD, inverse, solve) are specified by their
  mathematical contract (e.g. `RᵀR = AᵀA` for QR, right singular vectors for SVD, solution of a regular system), not modelled.

### Modelled

| part of `/repo/src` | model | simplification |
|---|---|---|
| `parameters.rs` | `Parameters` | only the fields the stages use |
| `cluster_listener.rs`, `utils/mod.rs` (`ClusterNodes`) | `ClusterNodes`, `ClusterListener` | addresses are keys; no network failures |
| `data_manager/data_reader/`, `data_manager/mod.rs` | `DataReader`, `Columns` | rows are values of any type; CSV syntax is not modelled |
| `data_manager/stats_collector/` | `Stats` | over a field |
| `data_manager/preprocessor/` | `Preprocessor` | columns are values of any type |
| `data_manager/phase_spacer/`, `data_manager/reference_dataset_builder/` | `PhaseSpace` | one column; exact sums |
| `utils/{direct,rotation,helper}_protocol.rs` | `Protocols`, `Ring` | payload abstract |
| `training/rotation/pca/` | `PcaTree`, `Pca`, `PcaNet` | QR/SVD by contract; one dimension (several: `RotNet`) |
| `training/rotation/mod.rs`, `utils/ndarray_extensions/` | `Rotation`, `Points`, `RotNet` | over ℝ; `RotNet`: the messages of all dimensions, payloads abstract, node 0 is the main node, FIFO per pair of nodes |
| `training/segmentation/`, `data_store/{point,transition}` | `SegmentId`, `Transition`, `Segmentation`, `SelfCorrection`, `CorrNet` | polar coordinates over ℝ |
| `training/intersection_calculation/`, `utils/geometry.rs` | `Intersections`, `Geometry` | over ℝ, any dimension |
| `training/node_estimation/` (with `multi_kde`), `data_store/{node,node_questions}` | `NodeEstimation`, `Kde`, `NodeQA` | kernel as a function (there is no other clustering in the code) |
| `data_store/{mod,index}.rs`, `PointRef`, `TransitionRef` (sharing), the segmentation on them | `Store` | the other stages read points as values; nodes, intersections and edges are never changed and are values; locks and cells which live in one function only are left out |
| `training/edge_estimation/`, `data_store/edge` | `Edges` | |
| `training/transposition/` | `Transposition` | |
| `training/scoring/`, `training/anomaly_contribution/`, `utils/float_approx.rs`, `utils/itertools.rs` | `Weights`, `ScoreInit`, `EdgesInTime`, `Scoring`, `ParallelScore`, `Overlap`, `SubScores`, `Contribution`, `Explained` | over ℚ |
| `training/mod.rs`, `data_manager/mod.rs` (order of the stages with peers) | `Cluster` (to the points), `ClusterRun` (to the scores) | every stage has its own mailbox and starts from the result of the one before on all nodes; the rotations of factors, counts, degrees, weights and scores without the races of C18, C68, C73 |
| `training/rotation/mod.rs`, `data_store/{point,utils}.rs` when the rotation divides by zero | `NanRun` | a coordinate is a real number or NaN; all nine entries of a matrix are NaN together; clustering and coordinates of intersections are parameters; one node |
| the same and `training/rotation/pca/` when values are missing | `Missing` | a float is a real number or NaN; the library and the rotation matrices are parameters |
| `training/scoring/` on one node in single precision, from the points on | `FloatWalk` | points, segments and clustering as in `Pipeline` |
| `training/scoring/` in a cluster in single precision, from the points on | `FloatCluster` | as `FloatWalk`; the exchange of scores only moves numbers and is that of `SubScores` |
| `s2gpp/__init__.py` (`DistributedSeries2GraphPP`), `python_binding.rs` (distributed), `lib.rs` (without listener) | `DistEstimator` | arguments are integers, truth values, texts, paths, `None`, enum members; errors of Python and panics are not distinguished; the text of an address is parsed by an arbitrary function |
| `training/mod.rs` (handlers of `...Done`, all stages from the rotation on at the same time) | `Stage`, `Joint`, `JointRotation` | a mailbox per stage and node; schedules without the races of C18 and C73 |
| `data_manager/mod.rs`, `stats_collector/`, `preprocessor/` (all handlers of the data managers of all nodes) | `LoadNet`, in front of the training `FileRun` | messages between nodes may overtake each other, a mailbox is a queue; rows are numbers already (the text of the file: C07, C82); the nodes are connected |
| `cluster_listener.rs` (`MemberLeft`, `stopped`), `training/mod.rs` (`ScoringDone`) | `EndNet` | the last stage only; ends of processes are noticed at any time |
| `utils/ndarray_extensions/mod.rs` (strides in `min_axis`, `max_axis`) | `Nd` | rows and strides; no memory |
| `s2gpp/__init__.py` (`Series2GraphPP`), `python_binding.rs` (`s2gpp_local_array`) | `Estimator` | float division exact; `set_params` writes attributes directly |
| the places where results of threads are put together, in machine numbers (`pca/helper.rs`, `gaussian_kde.rs`, `scoring/mod.rs`) | `FloatRun` | everything between them is an arbitrary function; `f32` has no overflow, no subnormal numbers and one zero; one node |
| `training/scoring/{helper,mod}.rs` in machine numbers | `FloatScore` | as `FloatRun` |
| `training/mod.rs` (order of the stages without peers) | `Pipeline`, `Whole` | the series is given as rows (reading and statistics: C07-C12); PCA and scoring helpers in all schedules, other helpers by their result (C31, C36) |

### Not modelled

Logging, command line parsing, python glue (except C79, C89 and C95), CSV quoting and file formats,
memory layout of `ndarray` arrays (except C89), the actor runtime itself (threads, `Addr`, `actix-telepathy` serialisation), and one mailbox for all stages
(C87 has all stages from reading the file on in one transition system, but with a mailbox for the data manager and one per stage of the training).

## 3. Conventions

* A Rust panic (`unwrap` on `None`, index out of range, `usize` underflow, division by zero) is `none` / `Except.error`.
* Loops are folds or structural recursion; `while let Some(x) = buffer.pop()` is a fold.
* Distributed protocols are labelled transition systems: a step takes one message out of a mailbox/channel,
  runs the handler on the state of the node and appends the emitted messages. Theorems quantify over all
  reachable states, i.e. over all schedules.

## 4. Properties: model and proof plan

| id | model | proof |
|----|-------|-------|
| C01,C02 | `Parameters` functions over `Nat` with `Option` for the division | arithmetic; crash iff `rate < n` |
| C03 | `ClusterNodes` as the list of peer keys | sums of ranges, `Int.emod` |
| C04 | cluster listener as state machine over events | invariant over event lists |
| C05,C06 | `read_csv` as fold with state (buffer, overlap, position, sent) | loop invariant, induction over records; exact condition on N, k, L |
| C07 | `until_column`, `fromto` | list lemmas |
| C08 | min/max fold and merge | lattice fold, permutation invariance |
| C09 | Welford merge as written, over a field | induction over the merged nodes with an explicit error term; sign of the error over an ordered field |
| C10 | `is_done` bookkeeping | case analysis on event orders |
| C11,C12 | `distribute_work` state machine | invariant over every response order |
| C13 | `data manager` buffer state machine | invariant |
| C14,C15 | `PhaseSpacer::build` running window | induction; slicing lemma |
| C16 | reference data set | direct |
| C17 | `DirectProtocol` + network transition system | invariant over reachable states |
| C18 | `RotationProtocol` + ring network | invariant over reachable states that names the message a node processes as n-th one; race flags of a trace decide correctness |
| C19 | `HelperProtocol` | invariant |
| C20,C21,C23 | PCA tree as recursion / transition system | induction over rounds; witnesses for hangs; C23: exact cluster sizes by a schedule constructed for every size (`PcaExact`) |
| C22 | Gram matrices over ℝ | matrix algebra |
| C24 | rotation matrix over ℝ | `field_simp`/`nlinarith` |
| C25 | `get_segment_id` over ℝ with floor | floor lemmas |
| C26 | `has_valid_direction` over `Int` | `omega` |
| C27,C28,C29 | `build_segments` as fold; exchange as network | induction over points, composition with C17; witnesses |
| C30,C32 | `calculate_intersections` lag loop, assignment | `omega` + list lemmas |
| C31 | line/plane intersection over ℝ | linear algebra |
| C33 | node estimation loop | induction over segments |
| C34-C38 | KDE functions over lists | list induction |
| C39-C41 | `EdgesOrderer`, `connect_nodes` | induction over the nodes of a step; then over points |
| C42,C43 | `ask`, `find_splits`, question/answer exchange | arithmetic; induction over transitions |
| C44 | transposition | list partition lemmas, sortedness |
| C45,C46 | weights, degrees | `count` lemmas; exchange through C18; equivalence with absence of races by a payload that shows a missing contribution |
| C47 | `count_edges_in_time` | induction with invariant on the emitted prefix |
| C48-C50,C55 | scoring helper, chunking, reassembly | induction, permutation invariance |
| C51 | overlap message | list lemmas, counterexample |
| C52 | normalisation over ordered field | order lemmas |
| C53,C54 | sub score map; init flags | reuse of C18; finite state analysis for all event orders |
| C56 | thread default | arithmetic |
| C57 | dimension uniqueness | order lemmas |
| C58 | `PhaseSpacer::build` | the last row is never read: congruence of the fold |
| C59 | question/answer exchange of node estimation | transition system, invariant on answered questions, termination measure |
| C60,C61 | `explain` loops, float sort by digits, median | induction over rows; sortedness up to the precision of the keys |
| C62 | composition of all stages C27-C53 (`Distributed`, `Complete`, `FirstEdge`) | from the points on: the edges are those of the walk (C43), the order of edges into the same point is computed exactly, vectors depend only on the first of them; existence of complete runs by the termination measures of all stages; counterexample for the order |
| C63 | sign flip of components | case analysis over ℝ |
| C64 | composition C29, C26, C30, C33, C41, C47, C48, C49 without peers (`Model/Pipeline.lean`) | labels of `estimateNodes` per segment, edges = pairs of the walk, C49 in all schedules |
| C65 | constants of the density estimate (found missing by mutation) | algebra over ℝ against a separate definition of the estimate |
| C66 | `reduce` (found missing by mutation) | sums over rows, C22 |
| C67 | `apply_rotation_matrix`, `add_points_with_offset`, `new_calculate_segment` for all dimensions (`Model/Points.lean`) | positions in the flattened row; witness for two dimensions |
| C68 | loop over the dimensions (`Model/RotNet.lean`) | simulation: the messages of each dimension form a run of the PCA of one dimension (C23); invariant about the position of every node in the loop; lifting of the runs of C23 for the counterexamples |
| C69 | the whole run on one node from the series to the vector (`Model/Whole.lean`) | every stage commutes with the shift (C66, C14); the points are equal |
| C70 | the same | every stage commutes with scaling; the density clustering gives the same labels (`Kde.C70_cluster`), C31 for scaled coordinates |
| C71 | the same | C58 for the embedding; the first reference row depends on the minima only |
| C72 | the same | the PCA is a function of the data (C22, C23); C64 with the clustering of C36 and the coordinates of C31; a numerical run: `Props/WholeExample.lean` |
| C73 | segmentation with self correction on several nodes, both exchanges in one mailbox (`Model/CorrNet.lean`) | projection to the ring of C18 (`RingRel`) and to the segmentation of the corrected series of C27 (`SegRel`); the ring is a barrier; two schedules as counterexamples; runs in time exist because a run can wait with the first points (`C73_complete`) |
| C74 | data and rotation on all nodes (`Model/Cluster.lean`): C05, C08, C09, C15, C21, C68, C67 composed | the windows of the nodes are the windows of the series (C15), a complete factor and all means give the PCA of the series (C22), offsets add up; numerical instance: `Props/ClusterExample.lean` |
| C75 | all stages on all nodes (`Model/ClusterRun.lean`): C74, C73, C62, C31, C36 composed | crossings do not depend on the other stored steps (`C75_crossings`), the segmentation with self correction contains one of the corrected points (`C73_inside`), C62 with the clustering of C36, C72 for one node; existence by completing every stage; numerical instance: `Props/ClusterRunExample.lean` |
| C76 | `Whole.score`: which runs panic after the rotation | C72 with the exact crash condition of the clustering (C38) and of the intersection (C31); windows of a periodic series repeat, so points, steps and crossings repeat; instance: `Props/PeriodicExample.lean` |
| C77 | runs in which a rotation matrix is NaN (`Model/NanRun.lean`) | NaN gives segment 0 to every point, also to the mirrored ones; no steps, no edges, zero scores, 0/0; the reference window of a constant column is the mean window; agreement with C72 without NaN; instance: `Props/NanRunExample.lean` |
| C78 | stages as transition systems with an input and a result per node, and their composition in one system (`Model/Stage.lean`, `Model/Joint.lean`) | `Ends`: what a stage leaves on all nodes; overlapping stages end exactly as the same stages one after the other (`Stage.comp_ends`); every stage is put in this form; a rotation which is done on one node has been entered by all; with C75 equality with one node; the instance of C75 |
| C79 | constructor and attributes of the Python estimator, conversion to `usize`, preprocessing and whole run (`Model/Estimator.lean`) | the preprocessing finishes iff there is a thread (C11, `Preproc.completes`); exact parameters of the defaults; the SVD needs three entries per window; counterexamples for one processor, short patterns, `set_params` |
| C80 | the joint run of C78 (`Model/Stage.lean`, `Model/Joint.lean`) | `Live`, `Finishes`, `Terminates` for one stage (`Props/StageLive.lean`), kept by `comp`, `carry`, `both`; every stage has them on the inputs of the run (`Props/JointLeaves.lean`); termination of a composition by a lexicographic order in which the rank of the second stage may jump when the first moves; what is delivered by C78 and C75 |
| C81 | the run on one node with arbitrary functions for everything computed in `f32` (`Model/FloatRun.lean`), the exchange of the PCA helpers (`Model/PcaNet.lean`), the concatenation of scores (`Model/ParallelScore.lean`); rounding to 24 digits, ties to even | the factor of every helper after every round is a fixed expression (`HNet.tree`) of the factors; means of helpers 1 and 2 in both orders by steering the first three steps; uniqueness from the uniqueness of the three places where threads meet; witnesses in `f32` for every number of threads ≥ 3 |
| C82 | `read_csv` on lines with and without a record (`DataReader.readFile`) | the loop invariant of C05 does not use that the partition length is the quotient of the number of records; comparison of the first window for the converse |
| C83 | `score_p_degree`, the helper's loop and `normalize_score` with every operation rounded (`FloatScore`) | rounding is monotone and fixes integers up to 2^24; induction on the sum; the constant is less than half a unit in the last place of every number of edges |
| C84 | `Whole` | the windows, minimum, components, reference and rotation of a dimension depend on its column only; the segment reads the first two coordinates (C67); C72 |
| C85 | `Whole` | a permutation of the dimensions permutes the coordinates; the border planes treat the coordinates from the third on alike (uniqueness of the intersection, C31); labels do not depend on the names of centres; two waves as witness |
| C86 | the rotation as a stage in front of the joint run (`Model/JointRotation.lean`) | `RotNet` has the laws of a stage (results do not change: the list of results only grows and has one entry per dimension), is live and terminates (C68); `comp` of C78/C80; a node which has rotated has its slice of the points although the others have not (continue the rotation to its end, C74); the race by a schedule |
| C87 | the data managers as a network of mailboxes (`Model/LoadNet.lean`) in front of the run of C86 (`Model/FileRun.lean`) | invariant: what is in flight of every kind is determined by the states of sender and receiver, and the own partition of the main node is in front of everything from the peers; hence no panic; folds of minima, maxima and counts are independent of the order of arrival (C06-C10); a measure which every step decreases; then the laws of a stage and `comp` of C78/C80 |
| C88 | the rotation of the scores with processes which end (`Model/EndNet.lean`: `ScoringDone`, `MemberLeft`) | simulation by the ring without ends (C18), which has more messages on the links behind ended processes; measure; run everything but the messages of node c: c is the only one which is done; then let c stop and the others leave |
| C89 | `min_axis`/`max_axis` with strides, `to_owned`, `astype` (`Model/Layout.lean`) | case analysis over the layouts: contiguity of ndarray, flags of NumPy; the run itself by C79; witness with the two columns of C85 |
| C90 | as C72, C76, C87 | the walk of a stretch of points is the other one moved; equal rows give equal labels (`Kde.cluster_order_free`); the window lies in the stretch; witnesses with two lists of points |
| C91 | PCA means, reduction, rotation and segments with NaN (`Model/Missing.lean`) | NaN absorbs in `WithTop ℝ`; every row but the last is in some window, so the mean window is NaN in every schedule (C21, C23); then as C77 |
| C92 | scores of a walk in single precision, all schedules (`Model/FloatWalk.lean`) | C49, C64 and C83; every edge of a walk but the first has an edge before it, so its source has two ways; rounding is strict just above 1 |
| C93 | `CoordsN`, `Pipeline.localRun`, all schedules of the PCA and of the scoring | C21, C77_reaches for the points; C49_hang, an invariant for empty vectors, C64_scores for the scoring |
| C94 | all stages of a cluster from the points on with the helpers in single precision (`DistributedBy`, `Model/FloatCluster.lean`) | the proofs of C49, C53, C62 for every score of a window; with small sums the score is the rounded mean (C83), which does not depend on the order |
| C95 | binding of arguments, both constructors, conversions of pyo3, the process without a listener (`Model/DistEstimator.lean`) | the constructor with keywords as an equivalence (`create_eq`), the conversions as an equivalence (`launch_eq`), both together give a specification by names; everything else follows from it; with C79 and C87 the equality with the local estimator; invariant for the process alone |
| C96 | nothing new: the run of C87 with the helpers of C49 | what every run needs is read off the stages (`C96_needs`); answers in order always deliver (`ParScore.lucky`), the answer of the last helper before the others makes a node hang (`ParScore.hang`), a hung node stays hung (`Keeps`) and all others wait for it (C78); with positions for every helper C87 says that every run ends well |
| C97 | the store with a heap of points (`Model/Store.lean`): cells, addresses in the lists, in the index and in the steps | a relation between store and values (`Rel`): addresses of the points are distinct and point to the values, steps point to points of the store or to received first points; every operation keeps it (`op_rel`); the index by induction over the calls (`call_rel`) |
| C98 | nothing new: the run of C87 | the conditions of C75 read ids and segments of the points only, which the transformations of C69, C70, C71 and C85 keep (`Suited.congr`); then C87 for both series and the theorem about one node |
| C99 | the segmentation with self correction on data stores with shared points (`Model/HeapNet.lean`) | simulation in both directions (`sim`, `follow`) with the model by value of C73: the messages by value are those of `CorrNet`, and node by node `Rel` of C97; a node which still has to mirror holds its own points only, all points in messages are points after the decision (`Inv`) |
| C100 | copies and units of columns (`Props/WholeCopies.lean`, `Props/ClusterCopies.lean`) | column by column: PCA and rotation commute with positive factors (C70), points are picked coordinates with factors (`copyPt`), crossings depend on the first two coordinates and whether all values are zero (`intersectionPoint_pick`), distances ignore signs, the clustering normalises every column and takes the combinations of labels (`cluster_pick`) |
| C101 | keys of the centres (`Model/Hashed.lean`, `Props/WholeHashed.lean`, `Props/HashedExample.lean`) | the loop with hashes is the loop without, guarded by `Fits` (induction); centres lie on the padded grid, so they are bounded by the data; `localEdges` is monotone in the clustering and C64 says when it succeeds; scaling of the whole table of centres as in C70; a run with two crossings per segment as instance |
| C102 | explanation of a run (`Model/Explained.lean`, `Props/WholeExplained.lean`, `Props/ExplainedExample.lean`) | the loop which records is followed segment by segment beside `estimateLoop`; C59 gives the rarity of every recorded centre, the walk of C64 says which nodes are asked about, C47/C48 which edges are in a window, C60 when the rows can be filled; invariances: same points, or (unit) an injective map of the coordinates of centres. The hash limit of C101 is added in C104 |
| C103 | columns of the explanation (`Props/ExplainedColumns.lean`) | as C100 from the points to the clustering, whose centres are picked by columns (`cluster_pick_table`); the rarity is counted column by column and depends only on which coordinates are equal, hence the recorded rows and the answers are picked (`asked_pick`); medians are taken by column; the sums of rows agree for a permutation, and for copies vanish together because rarities are not negative |
| C104 | keys of the coordinates and the explanation (`Model/ExplainedHashed.lean`, `Props/ExplainedHashed.lean`, `Props/ExplainedHashedExample.lean`) | each loop with the keys is the loop without them guarded by a condition on its input (`mapM_guard`, `recordHashed_eq`, induction over the segments); for segments with two or more crossings the guard is the one of C101, which holds as there are scores, so that only segments with one crossing remain; units by scaling both conditions |
| C105 | bound for the crossings (`Props/CrossingBound.lean`) | the ends of a kept step are on different sides of the line of each border it crosses (sign of a sine, at most half a turn), so the result of C31 is a convex combination of them; windows are sums of `latent` values, directions have entries up to 1, the matrix of C24 is orthogonal, mirroring changes signs only; then C101 and C104 |
| C106 | crossings which are not found (`Props/CrossingFails.lean`) | C31 fails for a zero determinant; by C105 the ends are on different sides of the line of the border, so a zero difference of the two sines puts both on it; in polar form the sines are zero only at multiples of pi, and a kept step makes at most half a turn; then C72 |
| C107 | formula for crossings, exact condition for a delivery (`Props/CrossingFormula.lean`) | the result of C31 is on the line of the border, which fixes its share of the step; C76 with C106 for the first and the formula for the second reason; C72 for the delivery |
| C108 | keys on several nodes (`Model/ClusterHashed.lean`, `Props/ClusterHashed.lean`) | the clustering enters a run on several nodes only through `estimateNodes`, which is monotone in it; the stored crossings are those of one node up to their order (C32, C75), the centres do not depend on the order of the rows (`Props/KdeOrder.lean`), so C101 gives the exact condition and C105 the bound |
| C109 | exact condition for a delivery on several nodes (`Props/ClusterDelivers.lean`) | C75 turns it into a run on one node, C107 gives the condition there, C72 the uniqueness, C108 the keys |
| C110 | equal stretches get equal explanations (`Props/SameStretchExplained.lean`) | the windows of C90 are equal up to the time; crossings with one label have one centre, so their rarities are equal; rows with a sum which is not zero pass `fillRows` and `written` unchanged |

Open (`partial` in the manifest): none. Claims which are false in the code are stated with the exact condition under which they
hold, or with a counterexample (see the property statements).

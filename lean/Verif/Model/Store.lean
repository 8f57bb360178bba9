import Verif.Model.CorrNet
import Verif.Model.Transposition
import Verif.Model.Whole

/-!
# Model of the data store, `src/data_store/mod.rs` and `src/data_store/index.rs`, with shared points

`PointRef` is an `Arc<Mutex<Point>>` (`src/data_store/point.rs` line 72): the data store, its index and its transitions hold references
to cells, and `mirror_points` writes to the cells. Here a reference is the number of a cell. Intersections, nodes and edges are held by
`Arc`s without a mutex; they never change, so they are values here. The cells made and dropped inside of one function (`get_points` of a
`MaterializedTransition`) are left out.
-/

namespace S2G
namespace Store
variable {P : Type}

/-- What the store uses of a point: `get_id`, `get_segment` and `mirror` (`none`: it panics). -/
structure Kind (P : Type) where
  id : P → Nat
  seg : P → Nat
  mirror : P → Option P

/-- `DataStore`, src/data_store/mod.rs lines 26-34, and `DataStoreIndex`, src/data_store/index.rs lines 7-15. `cells` are all cells made so
far. -/
structure DataStore (P : Type) where
  cells : List P := []
  points : List Nat := []
  transitions : List (Nat × Nat) := []
  intersections : List Inter := []
  nodes : List Node := []
  edges : List Edge := []
  byId : Nat → Option Nat := fun _ => none
  bySegment : Nat → Option (List Inter) := fun _ => none
  byPoint : Nat → Option (List Node) := fun _ => none

namespace DataStore

/-- `PointRef::new`, src/data_store/point.rs lines 75-77: a new cell. -/
def newRef (s : DataStore P) (x : P) : DataStore P × Nat := ({ s with cells := s.cells ++ [x] }, s.cells.length)

/-- `DataStoreIndex::add_point`, src/data_store/index.rs lines 20-22 (`insert` replaces an earlier entry). -/
def indexPoint (k : Kind P) (s : DataStore P) (a : Nat) : Option (DataStore P) := do
  let x ← s.cells[a]?
  some { s with byId := Function.update s.byId (k.id x) (some a) }

/-- `DataStoreIndex::add_point_return`, lines 24-28. -/
def indexPointReturn (k : Kind P) (s : DataStore P) (a : Nat) : Option (DataStore P × Nat) := do
  let x ← s.cells[a]?
  let s ← s.indexPoint k a
  let b ← s.byId (k.id x)
  some (s, b)

/-- `add_point`, src/data_store/mod.rs lines 39-43. -/
def addPoint (k : Kind P) (s : DataStore P) (x : P) : Option (DataStore P) :=
  let (s, a) := s.newRef x
  indexPoint k { s with points := s.points ++ [a] } a

/-- `add_point_return`, lines 45-49. -/
def addPointReturn (k : Kind P) (s : DataStore P) (x : P) : Option (DataStore P × Nat) :=
  let (s, a) := s.newRef x
  indexPointReturn k { s with points := s.points ++ [a] } a

/-- `add_points_with_offset`, lines 56-68; `make` is `Point::new_calculate_segment`. -/
def addPointsWithOffset {C : Type} (k : Kind P) (make : Nat → C → Option P) (offset : Nat) (s : DataStore P) :
    List C → Option (DataStore P)
  | [] => some s
  | c :: cs => do
    let x ← make offset c
    let s ← s.addPoint k x
    addPointsWithOffset k make (offset + 1) s cs

/-- One round of the loop of `mirror_points`, lines 75-77: the cell is overwritten. -/
def mirrorCell (k : Kind P) (s : DataStore P) (a : Nat) : Option (DataStore P) := do
  let x ← s.cells[a]?
  let y ← k.mirror x
  some { s with cells := s.cells.set a y }

/-- `mirror_points`, lines 74-78. -/
def mirrorPoints (k : Kind P) (s : DataStore P) : Option (DataStore P) := s.points.foldlM (mirrorCell k) s

/-- `add_transition`, lines 82-84. -/
def addTransition (s : DataStore P) (t : Nat × Nat) : DataStore P := { s with transitions := s.transitions ++ [t] }

/-- `add_materialized_transition`, lines 93-98. -/
def addMaterialized (k : Kind P) (s : DataStore P) (t : P × P) : Option (DataStore P) := do
  let (s, a) ← s.addPointReturn k t.1
  let (s, b) ← s.addPointReturn k t.2
  some (s.addTransition (a, b))

/-- `clear_transitions`, lines 114-116. -/
def clearTransitions (s : DataStore P) : DataStore P := { s with transitions := [] }

/-- The two branches of `DataStoreIndex::add_intersection` and `add_node`: push to the vector of the key or insert a new one. -/
def push {α : Type} (entry : Option (List α)) (x : α) : Option (List α) :=
  match entry with
  | some l => some (l ++ [x])
  | none => some [x]

/-- `add_intersection`, lines 120-124, with `DataStoreIndex::add_intersection`, src/data_store/index.rs lines 36-44. -/
def addIntersection (s : DataStore P) (x : Inter) : DataStore P :=
  { s with
    intersections := s.intersections ++ [x]
    bySegment := Function.update s.bySegment x.2 (push (s.bySegment x.2) x) }

/-- `add_node_ref`, lines 147-150, with `DataStoreIndex::add_node`, src/data_store/index.rs lines 52-60. -/
def addNode (s : DataStore P) (v : Node) : DataStore P :=
  { s with
    nodes := s.nodes ++ [v]
    byPoint := Function.update s.byPoint v.fromId (push (s.byPoint v.fromId) v) }

/-- `add_edge`, lines 158-160. -/
def addEdge (s : DataStore P) (e : Edge) : DataStore P := { s with edges := s.edges ++ [e] }

/-- One round of the loop of `add_materialized_edges`, lines 169-175. -/
def addMaterializedEdge (s : DataStore P) (e : Edge) : DataStore P := ((s.addNode e.src).addNode e.dst).addEdge e

/-- `sort_edges`, lines 191-194. -/
def sortEdges (s : DataStore P) : DataStore P := { s with edges := Transposition.sortEdges s.edges }

/-- `wipe_graph`, lines 198-205, with `clear_nodes`, src/data_store/index.rs lines 68-70: the edges which were in the store, and the store
after it. -/
def wipeGraph (s : DataStore P) : List Edge × DataStore P :=
  (s.edges, { s with edges := [], nodes := [], byPoint := fun _ => none })

/-- A step, by value: `materialize`, src/data_store/transition/materialized.rs lines 30-37. -/
def materialize (s : DataStore P) (t : Nat × Nat) : Option (P × P) := do
  let x ← s.cells[t.1]?
  let y ← s.cells[t.2]?
  some (x, y)

/-- The points, by value. -/
def getPoints (s : DataStore P) : Option (List P) := s.points.mapM (s.cells[·]?)

/-- The steps, by value. -/
def getTransitions (s : DataStore P) : Option (List (P × P)) := s.transitions.mapM s.materialize

end DataStore

/-! ## The segmentation of one node on the store -/

/-- Id and segment of a point. -/
def Kind.pt (k : Kind P) (x : P) : Pt := ⟨k.id x, k.seg x⟩

/-- Ids and segments of a step. -/
def Kind.trans (k : Kind P) (t : P × P) : Trans := ⟨k.pt t.1, k.pt t.2⟩

/-- The fields of `Segmentation`, src/training/segmentation/mod.rs lines 25-38, and the data store. `last_transition` holds references;
`send_point`, `last_point`, `send_transition` and the transitions for other nodes hold copies of points. -/
structure Seg (P : Type) where
  store : DataStore P := {}
  sendPoint : Option P := none
  sendTransition : Option (P × P) := none
  lastPoint : Option P := none
  lastTransition : Option (Nat × Nat) := none
  questions : NodeQuestions := NodeQuestions.clear
  forNodes : Nat → List (P × P) := fun _ => []
  invalid : Nat := 0

/-- The local variables of `build_segments`, lines 113-118, next to the fields. -/
structure Loop (P : Type) where
  seg : Seg P
  foreign : Nat → List (P × P) := fun _ => []
  last : Option Nat := none
  lastTo : Option Nat := none
  lastStep : Option (Nat × Nat) := none

/-- The questions after `find_splits`, lines 187-205; it reads ids and segments of the two steps. -/
def splits (p : Parameters) (q : NodeQuestions) (prev : Option Trans) (lastTo : Option Nat) (t : Trans) (fromNode toNode : Nat) :
    Option NodeQuestions :=
  (SegState.findSplits { questions := q } p prev lastTo t fromNode toNode).map SegState.questions

/-- The questions after `search_split_between_transitions`, lines 207-224. -/
def splitBetween (p : Parameters) (q : NodeQuestions) (prev : Option Trans) (t : Trans) (fromNode lastTo : Nat) : Option NodeQuestions :=
  (SegState.splitBetween { questions := q } p prev t fromNode lastTo).map SegState.questions

/-- The step behind references, its ids and segments. -/
def Kind.look (k : Kind P) (s : DataStore P) (t : Nat × Nat) : Option Trans := (s.materialize t).map k.trans

/-- The branch of a valid transition, lines 128-161. -/
def onValid (k : Kind P) (p : Parameters) (own : Nat) (l : Loop P) (t : Nat × Nat) : Option (Loop P) := do
  let v ← l.seg.store.materialize t
  let fromNode ← p.segmentIdToAssignment (k.seg v.1)
  let toNode ← p.segmentIdToAssignment (k.seg v.2)
  let store := if fromNode = own then l.seg.store.addTransition t else l.seg.store
  let q ← splits p l.seg.questions (l.lastStep.bind (k.look store)) l.lastTo (k.trans v) fromNode toNode
  some { l with
    seg := { l.seg with
      store := store
      questions := q
      sendTransition := if l.seg.sendTransition.isNone then some v else l.seg.sendTransition }
    foreign := fun a => if a = fromNode then l.foreign a ++ [v] else l.foreign a
    lastTo := some toNode
    lastStep := some t }

/-- One round of the loop of `build_segments` up to line 170. -/
def visit (k : Kind P) (p : Parameters) (own : Nat) (l : Loop P) (a : Nat) : Option (Loop P) :=
  match l.last with
  | some b => do
    let v ← k.look l.seg.store (b, a)
    if v.isValid p.rate then onValid k p own l (b, a)
    else if p.selfCorrection && v.crossesSegments && !v.hasValidDirection p.rate then
      some { l with seg := { l.seg with invalid := l.seg.invalid + 1 } }
    else some l
  | none => do
    let x ← l.seg.store.cells[a]?
    if own ≠ 0 then some { l with seg := { l.seg with sendPoint := some x } } else some l

/-- One round of the loop of `build_segments`, lines 119-173. -/
def onPoint (k : Kind P) (p : Parameters) (own : Nat) (l : Loop P) (a : Nat) : Option (Loop P) := do
  let l' ← visit k p own l a
  some { l' with last := some a }

/-- `last_point.map(|x| x.deref_clone())`, line 179: a copy of the point. -/
def copyLast (s : DataStore P) : Option Nat → Option (Option P)
  | some a => (s.cells[a]?).map some
  | none => some none

/-- `build_segments`, lines 112-185; the result goes to `transitions_for_nodes` (lines 99, 314). -/
def buildSegments (k : Kind P) (p : Parameters) (own : Nat) (s : Seg P) : Option (Seg P) := do
  let l ← s.store.points.foldlM (onPoint k p own) { seg := s }
  let last ← copyLast l.seg.store l.last
  some { l.seg with lastPoint := last, lastTransition := l.lastStep, forNodes := l.foreign }

/-- `clear_segmentation`, lines 352-359. -/
def clearSegmentation (s : Seg P) : Seg P :=
  { s with store := s.store.clearTransitions, questions := NodeQuestions.clear, sendPoint := none, lastPoint := none,
           sendTransition := none, lastTransition := none }

/-- `try_self_correction` if it mirrors, lines 338-342. -/
def correct (k : Kind P) (p : Parameters) (own : Nat) (s : Seg P) : Option (Seg P) := do
  let s := clearSegmentation s
  let store ← s.store.mirrorPoints k
  buildSegments k p own { s with store := store }

/-- `Handler<SendFirstPointMessage>` up to the exchange, lines 388-443: the two points of the spanning step become new cells which are not
among the points of the store. -/
def onFirstPoint (k : Kind P) (p : Parameters) (own : Nat) (s : Seg P) (x : P) (first : P × P) : Option (Seg P) := do
  let lp ← s.lastPoint
  let (st, a) := s.store.newRef lp
  let (st, b) := st.newRef x
  let s := { s with store := st, lastPoint := none }
  let lt ← s.lastTransition
  let prev ← k.look s.store lt
  let v ← k.look s.store (a, b)
  if v.isValid p.rate then do
    let fromNode ← p.segmentIdToAssignment v.src.seg
    let toNode ← p.segmentIdToAssignment v.dst.seg
    let lastTo ← p.segmentIdToAssignment prev.dst.seg
    let st := if fromNode = own then s.store.addTransition (a, b) else s.store
    let q ← splits p s.questions (some prev) (some lastTo) v fromNode toNode
    let m ← st.materialize (a, b)
    some { s with
      store := st, questions := q
      forNodes := fun c => if c = fromNode then s.forNodes c ++ [m] else s.forNodes c }
  else do
    let fromNode ← p.segmentIdToAssignment (k.trans first).src.seg
    let lastTo ← p.segmentIdToAssignment prev.dst.seg
    let q ← splitBetween p s.questions (some prev) (k.trans first) fromNode lastTo
    some { s with questions := q }

/-- `Handler<SegmentMessage>`, lines 464-465: `add_materialized_transitions`. -/
def receive (k : Kind P) (s : Seg P) (ts : List (P × P)) : Option (Seg P) := do
  let st ← ts.foldlM (DataStore.addMaterialized k) s.store
  some { s with store := st }

/-- `segment` without peers, lines 83-90, 317-320 and 323-347, up to the distribution. -/
def segment (k : Kind P) (p : Parameters) (s : Seg P) : Option (Seg P) := do
  let s ← buildSegments k p 0 s
  if p.selfCorrection && SelfCorrection.mirrors ⟨s.store.transitions.length, s.invalid⟩ then correct k p 0 s else some s

/-- The points of a run with real coordinates. -/
noncomputable def real (rate : Nat) : Kind Points.Point where
  id := Points.Point.id
  seg := Points.Point.segment
  mirror := Whole.mirrorPoint rate

end Store
end S2G

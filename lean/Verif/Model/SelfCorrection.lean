import Verif.Model.Segmentation
import Verif.Model.Ring

/-!
# Model of the self correction, `src/training/segmentation/mod.rs` lines 290-359 and 362-383
-/

namespace S2G
namespace SelfCorrection

/-- `TransitionCountMessage`, src/training/segmentation/messages.rs lines 25-29. -/
structure Count where
  count : Nat
  clockwise : Nat
  deriving Repr, DecidableEq

/-- `transition_count` of a node with peers, src/training/segmentation/mod.rs lines 304-308: the transitions of
the data store plus the transitions for all nodes (the keys of `node_transitions` are node ids below `n`). -/
def transitionCount (n : Nat) (l : SegState) : Nat :=
  l.stored.length + ((List.range n).map (fun a => (l.forNodes a).length)).sum

/-- The message of a node, lines 309-312. -/
def countMsg (n : Nat) (l : SegState) : Count := ⟨transitionCount n l, l.invalid⟩

/-- `global_transition_count` and `invalid_transition_directions` of a node after its own contribution (line 314)
and the handled messages (lines 370-371). -/
def totals (own : Count) (received : List Count) : Count :=
  received.foldl (fun acc m => ⟨acc.count + m.count, acc.clockwise + m.clockwise⟩) own

/-- The decision of `try_self_correction`, lines 329-333: mirror iff `global < invalid`. -/
def mirrors (c : Count) : Bool := c.count < c.clockwise

/-- One node without peers, lines 317-320: only the data store is counted. -/
def localCount (l : SegState) : Count := ⟨l.stored.length, l.invalid⟩

/-- Effect of `mirror_points` (src/data_store/mod.rs lines 74-78, src/data_store/point.rs lines 53-58) on the
segment, for an even rate `2*h` and points strictly inside their sector; see
`SegmentId.C29_mirror_segment` for the geometry. -/
def mirrorPt (h : Nat) (a : Pt) : Pt := ⟨a.id, (3 * h - 1 - a.seg) % (2 * h)⟩

end SelfCorrection
end S2G

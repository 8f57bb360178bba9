import Verif.Model.Parameters
import Mathlib.Algebra.BigOperators.Group.List.Basic

/-!
# Model of `ClusterNodes` and `AnyClusterNodesIterator` (`src/utils/mod.rs`)

`ClusterNodes` is a `HashMap<usize, RemoteAddr>` of the *other* members. Only its keys matter for
the index arithmetic; the values are abstracted by a type `A` of addresses.
-/

namespace S2G

/-- `ClusterNodes`, src/utils/mod.rs lines 28-31: association list with distinct keys. -/
structure ClusterNodes (A : Type) where
  nodes : List (Nat × A)

namespace ClusterNodes
variable {A : Type}

/-- keys of the hash map. -/
def keys (c : ClusterNodes A) : List Nat := c.nodes.map Prod.fst

/-- `get`, src/utils/mod.rs lines 49-51. -/
def get (c : ClusterNodes A) (k : Nat) : Option A := c.nodes.lookup k

/-- `len`, src/utils/mod.rs lines 86-88. -/
def len (c : ClusterNodes A) : Nat := c.nodes.length

/-- `len_incl_own`, src/utils/mod.rs lines 90-92. -/
def lenInclOwn (c : ClusterNodes A) : Nat := c.len + 1

/-- `get_own_idx`, src/utils/mod.rs lines 53-57: sum of `0..len_incl_own` minus sum of the keys. -/
def getOwnIdx (c : ClusterNodes A) : Option Nat :=
  checkedSub (List.range c.lenInclOwn).sum c.keys.sum

/-- `get_shifted_idx`, src/utils/mod.rs lines 59-68. The outer `Option` is a crash of
`get_own_idx`, the inner one the returned `Option`. `mod_floor` is `Int.emod` for positive modulus. -/
def getShiftedIdx (c : ClusterNodes A) (shiftBy : Int) : Option (Option Nat) := do
  let own ← c.getOwnIdx
  if c.len > 0 then
    some (some (((own : Int) + shiftBy) % (c.lenInclOwn : Int)).toNat)
  else some none

/-- `get_next_idx`, src/utils/mod.rs lines 70-72. -/
def getNextIdx (c : ClusterNodes A) : Option (Option Nat) := c.getShiftedIdx 1

/-- `get_previous_idx`, src/utils/mod.rs lines 74-76. -/
def getPreviousIdx (c : ClusterNodes A) : Option (Option Nat) := c.getShiftedIdx (-1)

/-- `all_connected`, src/utils/mod.rs lines 132-134. -/
def allConnected (c : ClusterNodes A) (p : Parameters) : Bool := c.lenInclOwn == p.nClusterNodes

/-- `AnyAddr`: either the local address or a remote one. -/
inductive AnyAddr (A : Type) where
  | localAddr
  | remote (a : A)
  deriving Repr, DecidableEq

/-- State of `AnyClusterNodesIterator`, src/utils/mod.rs lines 191-195. -/
structure Iter (A : Type) where
  nodes : ClusterNodes A
  position : Nat

/-- `AnyClusterNodes::len`, src/utils/mod.rs lines 165-167. -/
def anyLen (c : ClusterNodes A) : Nat := c.nodes.length + 1

/-- `last_position`, src/utils/mod.rs lines 197-199. -/
def Iter.lastPosition (it : Iter A) : Bool := it.position ≥ it.nodes.anyLen

/-- `next`, src/utils/mod.rs lines 209-229. -/
def Iter.next (it : Iter A) : Option (AnyAddr A × Iter A) :=
  if it.position ≥ it.nodes.anyLen then none
  else
    let addr := match it.nodes.get it.position with
      | some a => AnyAddr.remote a
      | none => AnyAddr.localAddr
    some (addr, { it with position := it.position + 1 })

/-- Running the iterator to exhaustion with `fuel` steps, collecting (position, address). -/
def Iter.drain : Nat → Iter A → List (Nat × AnyAddr A)
  | 0, _ => []
  | fuel + 1, it =>
    match it.next with
    | none => []
    | some (a, it') => (it.position, a) :: Iter.drain fuel it'

/-- `iter_any_as` / `to_any().into_iter()`, src/utils/mod.rs lines 123-130, 234-241. -/
def iterAny (c : ClusterNodes A) : Iter A := ⟨c, 0⟩

end ClusterNodes
end S2G

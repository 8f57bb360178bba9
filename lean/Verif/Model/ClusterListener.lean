import Verif.Model.ClusterNodes
import Mathlib.Data.List.Basic

/-!
# Model of the cluster formation (`src/cluster_listener.rs`)

Addresses are an arbitrary type `A` with decidable equality (`SocketAddr`; a `Node` is identified with its
address). `HashSet<Node>` is a duplicate free list; the order in which the main node iterates over it is the
arbitrary function `ord`. The event `MemberLeft` (node failure) is outside of the model.
-/

namespace S2G
variable {A : Type} [DecidableEq A]

/-- `ClusterMemberListener`, src/cluster_listener.rs lines 18-25, without `main_node` (never read) and with
`started`, the list of `StartTrainingMessage`s sent so far. -/
structure Listener (A : Type) where
  connected : List A := []
  sortedNodes : List (Nat × A) := []
  addrBuffer : List A := []
  started : List (ClusterNodes A) := []

/-- Messages handled by the listener. -/
inductive ListenerEv (A : Type)
  | newMember (a : A)
  | sortedMembers (addrs : List A)
  deriving DecidableEq

namespace Listener

/-- `HashSet::insert`. -/
def setInsert (l : List A) (a : A) : List A := if a ∈ l then l else l ++ [a]

/-- `HashMap::insert`. -/
def mapInsert (m : List (Nat × A)) (i : Nat) (a : A) : List (Nat × A) :=
  m.filter (fun x => x.1 ≠ i) ++ [(i, a)]

/-- Loop of `sort_members`, src/cluster_listener.rs lines 41-54: `i` is the position in the roster,
`conn` the connected nodes not yet placed. -/
def sortLoop : Nat → List A → List A → List (Nat × A) → List (Nat × A)
  | _, [], _, m => m
  | i, a :: as, conn, m =>
    if a ∈ conn then sortLoop (i + 1) as (conn.erase a) (mapInsert m i a)
    else sortLoop (i + 1) as conn m

/-- `sort_members`, src/cluster_listener.rs lines 39-57. -/
def sortMembers (s : Listener A) (roster : List A) : Listener A :=
  { s with sortedNodes := sortLoop 0 roster s.connected s.sortedNodes }

/-- `start_training`, src/cluster_listener.rs lines 59-67. -/
def startTraining (s : Listener A) : Listener A :=
  { s with started := s.started ++ [⟨s.sortedNodes⟩] }

/-- Both message handlers, src/cluster_listener.rs lines 83-131 and 133-145. The second component is the
roster sent to every connected node (main node only). -/
def handle (n : Nat) (isMain : Bool) (own : A) (ord : List A → List A) (s : Listener A) :
    ListenerEv A → Listener A × List (List A)
  | .newMember a =>
    let s := { s with connected := setInsert s.connected a }
    if s.connected.length = n - 1 then
      if isMain then
        let roster := own :: ord s.connected
        ((s.sortMembers roster).startTraining, s.connected.map (fun _ => roster))
      else if s.addrBuffer.isEmpty then (s, [])
      else ((s.sortMembers s.addrBuffer).startTraining, [])
    else (s, [])
  | .sortedMembers addrs =>
    if s.connected.length = n - 1 then ((s.sortMembers addrs).startTraining, [])
    else ({ s with addrBuffer := addrs }, [])

/-- Run over a list of events, collecting the rosters sent. -/
def run (n : Nat) (isMain : Bool) (own : A) (ord : List A → List A) (es : List (ListenerEv A)) :
    Listener A × List (List A) :=
  es.foldl (fun acc e =>
    let r := handle n isMain own ord acc.1 e
    (r.1, acc.2 ++ r.2)) ({}, [])

end Listener
end S2G

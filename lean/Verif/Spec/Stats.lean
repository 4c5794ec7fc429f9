import Verif.Model.Stats
import Verif.Spec.Queue

/-!
# What statistics of a session should say
-/

namespace Hx.Spec
open Hx Msg Queue Stats

/-- The kind of an operation. -/
def Op.kind : Op → Kind
  | .put _ _ _ => .put
  | .get _ _ _ => .get
  | .getop _ _ _ _ _ => .getop
  | .del _ _ => .del
  | .hist _ _ => .hist

/-- The operations of a kind that some actions ask for. -/
def opsAsked (hash : Bytes → Bytes → Out Int) (servers : Nat) (k : Kind) (l : List Act) : List Op :=
  (l.flatMap fun | .call x _ => ops hash servers x | .flush _ => []).filter fun x => x.kind = k

/-- The number of operations of some packets. -/
def packetSizes {α : Type} (qs : List (List (List α))) : List Nat := qs.flatten.map List.length

/-- The packetSizes of the packets of a kind that are queued. -/
def packets (k : Kind) (q : Queues) : List Nat :=
  match k with
  | .put => packetSizes q.puts
  | .get => packetSizes q.gets
  | .getop => packetSizes q.getops
  | .del => packetSizes q.dels
  | .sync => []
  | .hist => packetSizes q.hists

/-- The number of packets of a kind that are queued for a datastore. -/
def packetsTo (k : Kind) (q : Queues) (ds : Nat) : Nat :=
  match k with
  | .put => (q.puts.getD ds []).length
  | .get => (q.gets.getD ds []).length
  | .getop => (q.getops.getD ds []).length
  | .del => (q.dels.getD ds []).length
  | .sync => 0
  | .hist => (q.hists.getD ds []).length

/-- The number a map has for a key; there is none for zero. -/
def count (l : List (Nat × Nat)) (d : Nat) : Nat := (l.lookup d).getD 0

/-- The kind of a call. -/
def callKind : Call → Kind
  | .put _ | .bput _ _ => .put
  | .get _ | .bget _ _ => .get
  | .getop _ | .bgetop _ _ => .getop
  | .del _ | .bdel _ _ => .del
  | .hist _ | .bhist _ _ => .hist

/-- Calls for many operations. -/
def isBulk : Call → Bool
  | .bput _ _ | .bget _ _ | .bgetop _ _ | .bdel _ _ | .bhist _ _ => true
  | _ => false

/-- The arguments of a call are acceptable. -/
def Acceptable (servers : Nat) : Call → Prop
  | .put a => Given a.s ∧ Given a.p ∧ Given a.o
  | .get a => Given a.s ∧ Given a.p
  | .getop a => Given a.s
  | .del a => Given a.s ∧ Given a.p
  | .hist a => 0 ≤ a.rs ∧ a.rs < servers
  | .bput arrays _ | .bget arrays _ | .bgetop arrays _ | .bdel arrays _ => arrays = true
  | .bhist arrays l => arrays = true ∧ ∀ a ∈ l, 0 ≤ a.rs ∧ a.rs < servers

instance (n : Nat) (x : Call) : Decidable (Acceptable n x) := by
  cases x <;> unfold Acceptable <;> infer_instance

/-- The times of the acceptable calls of a kind. -/
def times (servers : Nat) (bulk : Bool) (k : Kind) (l : List Act) : List Nat :=
  l.filterMap fun
    | .call x ns => if Acceptable servers x ∧ isBulk x = bulk ∧ callKind x = k then some ns else none
    | .flush _ => none

end Hx.Spec

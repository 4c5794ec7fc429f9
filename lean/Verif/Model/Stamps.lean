import Verif.Model.Elapsed

/-!
# Time stamps of operations

Every operation is stamped when it is queued (`src/hxhim/ops/impl.cpp`). The stamps stay with the packet on the client, and are to be moved to
the response and from there to the result (`src/hxhim/Results.cpp`), which prints them when it is destroyed.

* What an operation or an answer consists of is one item, though it lies in several arrays of the same length; an item that was moved is
  `none`.
* Whether a packet is too large for another operation is part of what is asked; how large it is is C28.
* The stamps of the transport belong to a packet and are left out.
-/

namespace Hx.Stamps
open Hx Fp

/-- `Chronostamp` (include/utils/Stats.hpp:17-20). A `Chronopoint` is a number of nanoseconds of the clock (include/utils/Stats.hpp:11-12); one
that was not set is 0. -/
structure Span where
  start : Int
  stop : Int
  deriving Repr, DecidableEq

/-- `Send` (include/utils/Stats.hpp:36-40). -/
structure Send where
  hash : Span
  insert : Span
  deriving Repr, DecidableEq

/-- A `Send` as `alloc_array` makes it. -/
def Send.unset : Send := ⟨⟨0, 0⟩, ⟨0, 0⟩⟩

/-- `Message` (include/message/Message.hpp:23-51); `reqs` is `none` if it is null. -/
structure Msg (α : Type) where
  max : Nat
  items : List (Option α)
  reqs : Option (List Send)
  allocate : Span

variable {α β : Type}

/-- `count`. -/
def Msg.count (m : Msg α) : Nat := m.items.length

/-- A message with space for `max` (src/message/Message.cpp:33-42). -/
def Msg.make (max : Nat) (allocate : Span) : Msg α :=
  ⟨max, [], if max = 0 then none else some (List.replicate max .unset), allocate⟩

/-- The `add` of all messages (for example src/message/SubjectPredicate.cpp:22-30): nothing checks that there is space. -/
def Msg.add (m : Msg α) (x : α) : Out (Msg α) :=
  if m.items.length < m.max then .ok { m with items := m.items ++ [some x] } else .ub

/-- Reading `timestamps.reqs[i]`. -/
def Msg.req (m : Msg α) (i : Nat) : Out Send :=
  match m.reqs with
  | none => .ub
  | some l => match l[i]? with
    | none => .ub
    | some s => .ok s

/-- Writing `timestamps.reqs[i]`. -/
def Msg.stamp (m : Msg α) (i : Nat) (s : Send) : Out (Msg α) :=
  match m.reqs with
  | none => .ub
  | some l => if i < l.length then .ok { m with reqs := some (l.set i s) } else .ub

/-- An operation to queue, with the times the clock shows meanwhile, and whether the last packet is too large for it. -/
structure Ask (α : Type) where
  item : α
  hash : Span
  insert : Span
  allocate : Span
  large : Bool

/-- `setup_packet` (src/hxhim/ops/impl.cpp:38-50). The last packet of the queue is the head of the list. -/
def setup (max : Nat) (a : Ask α) : List (Msg α) → List (Msg α)
  | [] => [.make max a.allocate]
  | m :: q => if max ≤ m.count ∨ a.large then .make max a.allocate :: m :: q else m :: q

/-- `PutImpl` and `HistogramImpl` for one operation (src/hxhim/ops/impl.cpp:158-187, 318-338). -/
def queuePut (max : Nat) (a : Ask α) (q : List (Msg α)) : Out (List (Msg α)) :=
  match setup max a q with
  | [] => .ub
  | m :: q => m.add a.item >>= fun m => m.stamp (m.count - 1) ⟨a.hash, a.insert⟩ >>= fun m => .ok (m :: q)

/-- `get_packet` and `GetImpl`, `GetOpImpl` or `DeleteImpl` (src/hxhim/ops/impl.cpp:70-92, 215-225). -/
def queueGet (max : Nat) (a : Ask α) (q : List (Msg α)) : Out (List (Msg α)) :=
  match setup max a q with
  | [] => .ub
  | m :: q => m.req m.count >>= fun s => m.stamp m.count ⟨a.hash, ⟨a.insert.start, s.insert.stop⟩⟩ >>= fun m =>
      m.add a.item >>= fun m => m.req (m.count - 1) >>= fun s =>
        m.stamp (m.count - 1) ⟨s.hash, ⟨s.insert.start, a.insert.stop⟩⟩ >>= fun m => .ok (m :: q)

/-- Operations one after the other, by one of the two. -/
def queue (f : Ask α → List (Msg α) → Out (List (Msg α))) : List (Msg α) → List (Ask α) → Out (List (Msg α))
  | q, [] => .ok q
  | q, a :: l => f a q >>= fun q => queue f q l

/-- The `steal` of the responses (for example src/message/BPut.cpp:58-65): the item is added and set to null in the other message. The
checks and the stamp of `Message::steal` (src/message/Message.cpp:46-71) are not part of it. -/
def steal (res : Msg α) (from' : Msg α) (i : Nat) : Out (Msg α × Msg α) :=
  match from'.items[i]? with
  | some (some x) => res.add x >>= fun res => .ok (res, { from' with items := from'.items.set i none })
  | _ => .ub

/-- `steal_timestamps` (src/message/Message.cpp:73-89). -/
def stealStamps (res : Msg α) (req : Msg β) (individuals : Bool) : Msg α × Msg β :=
  if individuals then ({ res with allocate := req.allocate, reqs := req.reqs }, { req with reqs := none })
  else ({ res with allocate := req.allocate }, req)

/-- The loop of the local range server (include/transport/backend/local/RangeServer.hpp:58-64). -/
def localLoop (req : Msg β) : Nat → Nat → Msg α → Msg α → Out (Msg α × Msg α)
  | 0, _, res, response => .ok (res, response)
  | k + 1, i, res, response => req.req i >>= fun s => response.stamp i s >>= fun response =>
      steal res response i >>= fun p => localLoop req k (i + 1) p.1 p.2

/-- The local range server (include/transport/backend/local/RangeServer.hpp:32-86), given the response of the datastore: its own response and
what is left of the other when it is destroyed. -/
def localServer (req : Msg β) (response : Msg α) : Out (Msg α × Msg α) :=
  localLoop req response.count 0 (stealStamps (.make req.count ⟨0, 0⟩) req false).1 response

/-- A response as it is unpacked (for example src/message/Unpacker.cpp:334-362). -/
def unpacked (answers : List α) : Msg α := ⟨answers.length, answers.map some, (Msg.make (α := α) answers.length ⟨0, 0⟩).reqs, ⟨0, 0⟩⟩

/-- What a result knows of its operation. -/
structure Result (α : Type) where
  item : α
  send : Send
  alloc : Option Span
  deriving Repr, DecidableEq

/-- `Result::init` for all that is left of a response (src/hxhim/Results.cpp:101-155, 238-245). -/
def resultsFrom (m : Msg α) : Nat → Nat → Out (List (Result α))
  | 0, _ => .ok []
  | k + 1, i => match m.items[i]? with
    | some (some x) => m.req i >>= fun s => resultsFrom m k (i + 1) >>= fun r =>
        .ok (⟨x, s, if i = 0 then some m.allocate else none⟩ :: r)
    | _ => .ub

/-- `AddAll` of one response. -/
def results (m : Msg α) : Out (List (Result α)) := resultsFrom m m.count 0

/-- A request to the rank itself (include/hxhim/private/process.hpp:127-145). -/
def viaLocal (req : Msg β) (response : Msg α) : Out (List (Result α)) := localServer req response >>= fun p => results p.1

/-- A request through Thallium, of which the response was unpacked (src/transport/backend/Thallium/EndpointGroup.cpp:190). -/
def viaThallium (req : Msg β) (answers : List α) : Out (List (Result α)) := results (stealStamps (unpacked answers) req true).1

/-- A request through MPI, whose stamps nothing moves (include/transport/backend/MPI/EndpointGroup.tpp:311-320). -/
def viaMpi (_req : Msg β) (answers : List α) : Out (List (Result α)) := results (unpacked answers)

/-- The three numbers of `print_event` (src/utils/Stats.cpp:69-80). -/
def event (epoch : Int) (s : Span) : Out (Nat × Nat × Spec.Ieee) :=
  Elapsed.chronoNano epoch s.start >>= fun a => Elapsed.chronoNano epoch s.stop >>= fun b => Elapsed.chronoSec s.start s.stop >>= fun c =>
    .ok (a, b, c)

end Hx.Stamps

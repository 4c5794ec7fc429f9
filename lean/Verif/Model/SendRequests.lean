import Verif.Model.Messages

/-!
# Objects for the sends of a round over MPI

For each message `parallel_send` of MPI constructs an `MPI_Request` for the size and
one for the data (`include/transport/backend/MPI/EndpointGroup.tpp:55-156`).

Simplifications:

* What becomes of a message that has been packed is an input.
* The objects are numbers as in `Model/Messages`.  `MPI_Request` has no destructor,
  so deallocating it is all there is to do.
* Those of sends that were started are deallocated when the send is complete, or
  after the loop if the session is stopped meanwhile.  The order is an input.
-/

namespace Hx.Lives

/-- What becomes of a message that has been packed. -/
inductive Sending where
  /-- the range server has no rank -/
  | noRank
  /-- sending the size fails -/
  | sizeFails
  /-- sending the data fails -/
  | dataFails
  /-- both are sent -/
  | sent
deriving DecidableEq, Repr

/-- One of the vectors `size_reqs` and `data_reqs`, and its counter. -/
structure Slots where
  reqs : List (Option Nat)
  count : Nat
deriving DecidableEq, Repr

/-- `dealloc(reqs[i])`: null is allowed, an index behind the end is not. -/
def deallocAt (reqs : List (Option Nat)) (i : Nat) (l : Ledger) : Out Ledger :=
  match reqs[i]? with
  | none => .ub
  | some none => .ok l
  | some (some k) => destruct k l

/-- Construct the object at the counter and start the send
(`include/transport/backend/MPI/EndpointGroup.tpp:71-78, 81-91, 94-97`).  If it fails,
the object at the index of the message is deallocated, and the pointer at the counter
is set to null. -/
def post (i : Nat) (starts : Bool) (t : Slots) (l : Ledger) : Out (Slots × Ledger) :=
  if t.count < t.reqs.length then
    let (r, l) := construct l
    let reqs := t.reqs.set t.count (some r)
    if starts then .ok (⟨reqs, t.count + 1⟩, l)
    else deallocAt reqs i l >>= fun l => .ok (⟨reqs.set t.count none, t.count⟩, l)
  else .ub

/-- The loop over the messages (`include/transport/backend/MPI/EndpointGroup.tpp:62-98`). -/
def sendAll : List Sending → Nat → Slots → Slots → Ledger → Out (Slots × Slots × Ledger)
  | [], _, sizes, datas, l => .ok (sizes, datas, l)
  | .noRank :: ms, i, sizes, datas, l => sendAll ms (i + 1) sizes datas l
  | .sizeFails :: ms, i, sizes, datas, l =>
    post i false sizes l >>= fun (sizes, l) => sendAll ms (i + 1) sizes datas l
  | .dataFails :: ms, i, sizes, datas, l =>
    post i true sizes l >>= fun (sizes, l) =>
    post i false datas l >>= fun (datas, l) => sendAll ms (i + 1) sizes datas l
  | .sent :: ms, i, sizes, datas, l =>
    post i true sizes l >>= fun (sizes, l) =>
    post i true datas l >>= fun (datas, l) => sendAll ms (i + 1) sizes datas l

/-- The objects up to the counter. -/
def Slots.started (t : Slots) : List Nat := (t.reqs.take t.count).filterMap id

/-- `parallel_send` from where the messages are packed
(`include/transport/backend/MPI/EndpointGroup.tpp:55-164`): the number of messages sent.
`order`: the order in which the sends that were started complete or are given up. -/
def parallelSend (order : List Nat → List Nat) (ms : List Sending) (l : Ledger) :
    Out (Nat × Ledger) :=
  let empty : Slots := ⟨List.replicate ms.length none, 0⟩
  sendAll ms 0 empty empty l >>= fun (sizes, datas, l) =>
  destructAll (order (sizes.started ++ datas.started)) l >>= fun l => .ok (datas.count, l)

end Hx.Lives

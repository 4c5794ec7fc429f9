import Verif.Model.Messages

/-!
# Responses of a round over Thallium and MPI

The client side of Thallium sends the requests of a round one after the other and
puts the responses into a chain (`src/transport/backend/Thallium/EndpointGroup.cpp`).
That of MPI receives all responses, unpacks them into an array, and makes a chain of
those (`include/transport/backend/MPI/EndpointGroup.tpp`).

Simplifications:

* What becomes of a request is an input.  The range server always answers
  (`Model/Rpc`).
* Messages are numbers as in `Model/Messages`.
* Requests are sent one after the other.  With ASYNC_THALLIUM they are sent at the
  same time, and the responses are put into the chain in the same order.
* For MPI sending and receiving themselves are not modelled: all calls of MPI succeed,
  and the session goes on until everything has been received.  The buffers and
  lengths of `parallel_recv` have the same indices only in that case.
-/

namespace Hx.Lives

/-- What becomes of an entry of the list of requests. -/
inductive Outcome where
  /-- the pointer is null -/
  | absent
  /-- there is no endpoint for the rank -/
  | noEndpoint
  /-- the request cannot be packed -/
  | notPacked
  /-- the response cannot be unpacked -/
  | unreadable
  /-- there is a response -/
  | response
deriving DecidableEq, Repr

/-- `process_request` (`src/transport/backend/Thallium/EndpointGroup.cpp:99-193`):
a response or null.  A response that cannot be unpacked has been constructed and
destructed by the unpacker (`src/message/Unpacker.cpp:308-314` and alike). -/
def processRequest (o : Outcome) (l : Ledger) : Out (Option Nat × Ledger) :=
  match o with
  | .unreadable =>
    let (out, l) := construct l
    destruct out l >>= fun l => .ok (none, l)
  | .response =>
    let (out, l) := construct l
    .ok (some out, l)
  | _ => .ok (none, l)

/-- The chain: `head`, `tail`, and the `next` pointers that were set. -/
structure Chain where
  head : Option Nat
  tail : Option Nat
  next : List (Nat × Nat)
deriving DecidableEq, Repr

/-- The body of the loop after the response has come
(`src/transport/backend/Thallium/EndpointGroup.cpp:251-260`).  `debug`: output of
level THALLIUM_DBG is on, for which `response->src` is read before the pointer is
looked at; otherwise the macro does not evaluate it (`include/utils/mlog2.h:427`). -/
def link (debug : Bool) (c : Chain) (response : Option Nat) : Out Chain :=
  match response with
  | none => if debug then .ub else .ok c
  | some r =>
    match c.head, c.tail with
    | none, _ => .ok ⟨some r, some r, c.next⟩
    | some _, some t => .ok { c with tail := some r, next := (t, r) :: c.next }
    | some _, none => .ub

/-- `process_requests` (`src/transport/backend/Thallium/EndpointGroup.cpp:205-265`). -/
def processRequests (debug : Bool) : List Outcome → Chain → Ledger → Out (Chain × Ledger)
  | [], c, l => .ok (c, l)
  | .absent :: os, c, l => processRequests debug os c l
  | o :: os, c, l =>
    processRequest o l >>= fun (r, l) =>
    link debug c r >>= fun c => processRequests debug os c l

/-- `parallel_recv` of MPI unpacks what has been received into an array, without
what cannot be unpacked (`include/transport/backend/MPI/EndpointGroup.tpp:311-323`).
Requests that were not sent have nothing to be received. -/
def unpackAll : List Outcome → Ledger → Out (List Nat × Ledger)
  | [], l => .ok ([], l)
  | o :: os, l =>
    processRequest o l >>= fun (r, l) =>
    unpackAll os l >>= fun (rs, l) => .ok (r.toList ++ rs, l)

/-- The loop of `return_msgs` (`include/transport/backend/MPI/EndpointGroup.tpp:354-370`):
the pointer is looked at first. -/
def linkAll : List Nat → Chain → Out Chain
  | [], c => .ok c
  | r :: rs, c => link false c (some r) >>= fun c => linkAll rs c

/-- `return_msgs`, once the responses are there. -/
def returnMsgs (os : List Outcome) (l : Ledger) : Out (Chain × Ledger) :=
  unpackAll os l >>= fun (rs, l) =>
  linkAll rs ⟨none, none, []⟩ >>= fun c => .ok (c, l)

/-- The messages one gets by following `next` (`src/message/Messages.cpp:3-8`), as
`AddAll` does. -/
def follow (next : List (Nat × Nat)) : Nat → Option Nat → List Nat
  | _, none => []
  | 0, some _ => []
  | n + 1, some k => k :: follow next n (next.lookup k)

end Hx.Lives

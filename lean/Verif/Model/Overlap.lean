import Verif.Model.Job

/-!
# Several ranks that flush at the same time

* Every operation on a datastore holds its mutex (src/datastore/datastore.cpp:118, 160, 165, 170, 178)
  and a range server uses nothing else that is shared (include/transport/backend/local/
  RangeServer.hpp:32-84), so requests are executed one after the other, whatever the number of threads.
  The order in which this happens is a list of served requests, the log.
* The log says for every request which flush sent it. A flush only gets the responses in the log, in
  the order it asks for them. All orders of requests of different flushes are allowed.
* A flush sends the requests of a round to different ranks at the same time and does not start the next
  round before all responses are there (include/hxhim/private/process.hpp:43-161). The model keeps the
  order of the requests of a flush to one rank, and allows all orders of requests to different ranks,
  also of different rounds, which is more than can happen.
* Asynchronous PUTs are disabled (`START_ASYNC_PUT_AT` 0). One MPI listener thread per rank, so that a
  response goes back to the rank that sent the request.
-/

namespace Hx.Job
open Hx Msg Process

/-- A request that was executed on a rank, the flush it belongs to, and the response. -/
structure Served where
  turn : Nat
  rank : Int
  req : Req
  res : Res

/-- The range servers as seen by one flush: its next request is the next one in its part of the log. -/
def replay : Server (List Served) := fun l rank req =>
  match l with
  | [] => .ub
  | y :: l => if y.rank = rank ∧ y.req = req then .ok (l, y.res) else .ub

/-- The range servers execute the requests of the log one after the other. -/
def executes (cb : Store.Callbacks) (heap : Nat) : World → List Served → World → Prop
  | w, [], w' => w' = w
  | w, y :: l, w' => ∃ u, World.serve cb heap w y.rank y.req = .ok (u, y.res) ∧ executes cb heap u l w'

/-- The requests to each rank are the same, in the same order; requests to different ranks are sent at
the same time (include/transport/backend/MPI/EndpointGroup.tpp:160-234). -/
def sameOrder (a b : List Served) : Prop :=
  ∀ rank, a.filter (fun y => decide (y.rank = rank)) = b.filter (fun y => decide (y.rank = rank))

/-- Queue (`Queue.calls`) and flush (src/hxhim/ops/FLUSH.cpp:211-235) with the responses of a part of
the log, all of which is used. Responses are looked at in the order of the `ReqList`, whichever came
first. -/
def turnOn (total : Nat) (part : List Served) (x : Turn) (r : Results.Results) : Prop :=
  ∃ asked q q', sameOrder asked part ∧ Queue.calls x.cfg true (Queue.Queues.init total) x.calls = .ok q ∧
    flush x.net replay asked q = .ok ([], r, q')

/-- The requests of one flush. -/
def partOf (i : Nat) (log : List Served) : List Served := log.filter (fun y => decide (y.turn = i))

/-- `log` is an execution of the turns, which gives the results `rs`. -/
structure Overlap (cb : Store.Callbacks) (heap total : Nat) (w : World) (turns : List Turn) (log : List Served)
    (w' : World) (rs : List Results.Results) : Prop where
  executes : executes cb heap w log w'
  only : ∀ y ∈ log, y.turn < turns.length
  results : rs.length = turns.length
  turns : ∀ i x r, turns[i]? = some x → rs[i]? = some r → turnOn total (partOf i log) x r

end Hx.Job

import Verif.Model.Placement
import Verif.Model.Queue
import Verif.Model.Results
import Verif.Model.Store

/-!
# Sending queued packets: `include/hxhim/private/process.hpp`, `src/hxhim/ops/FLUSH.cpp`,
`src/transport`

* The range servers are a state `σ` and a function that executes one request on one rank. `World`
  below is the instance made of the datastore model; other instances may contain other clients.
* `std::unordered_map` is an association list in order of insertion, together with an arbitrary
  function that gives the order of iteration.
* Range servers handle the requests of one round one after the other, in the order they are sent.
  Requests of one round go to different ranks.
* Messages are not lost, and the session is not closed while messages are on their way
  (`running` stays true). One MPI listener thread per rank.
* A range server that can not unpack a request uses a null request (MPI) or answers without the
  values the client waits for (Thallium); both are undefined here.
* Statistics are added in `Model/Stats`; time stamps are not modelled.
-/

namespace Hx.Process
open Hx Msg Place Results

/-- Execute a request on a rank. -/
abbrev Server (σ : Type) := σ → Int → Req → Out (σ × Res)

/-! ## Transports -/

/-- The endpoint group: range server id to rank. For Thallium the value is the address of the rank. -/
abbrev Endpoints := List (Int × Int)

/-- The loop over the ranks (src/transport/backend/MPI/Init.cpp:36-54,
src/transport/backend/Thallium/Init.cpp:75-90). -/
def endpointLoop (server member : Nat → Bool) (rank : Int) : List Nat → Nat → Endpoints
  | [], _ => []
  | i :: l, id =>
    if server i then
      if rank ≠ i ∧ member i = true then ((id : Int), (i : Int)) :: endpointLoop server member rank l (id + 1)
      else endpointLoop server member rank l (id + 1)
    else endpointLoop server member rank l id

/-- MPI: only ranks in the endpoint group of the configuration. -/
def mpiEndpoints (l : Layout) (rank : Int) (group : List Nat) : Endpoints :=
  endpointLoop (fun i => isRangeServerIn i l.size l.client l.server != 0) (fun i => group.contains i) rank
    (List.range l.size) 0

/-- Thallium: an empty endpoint group means all ranks. -/
def thalliumEndpoints (l : Layout) (rank : Int) (group : List Nat) : Endpoints :=
  endpointLoop (fun i => isRangeServer i l.client l.server != 0) (fun i => group.isEmpty || group.contains i) rank
    (List.range l.size) 0

/-- `Transport::init` (src/transport/transports.cpp:13-35). -/
inductive Transport where
  | null
  | mpi (ranks : Endpoints)
  | thallium (endpoints : Endpoints)

/-- `ReqList` (include/transport/transport.hpp:15-17). -/
abbrev ReqList := List (Int × Req)

/-- `remote[rank] = req`. -/
def ReqList.assign (m : ReqList) (rank : Int) (req : Req) : ReqList :=
  if m.any (fun x => x.1 == rank) then m.map (fun x => if x.1 == rank then (rank, req) else x)
  else m ++ [(rank, req)]

/-- What `process` reads from the session, and what the machine decides: the order of iteration of a
`ReqList`, the address of allocated memory, and the contents of a buffer behind the bytes that were
written to it. -/
structure Net where
  rank : Int
  dsToRank : List Int
  transport : Transport
  order : ReqList → ReqList
  order_perm : ∀ l, (order l).Perm l
  heap : Nat
  junk : Nat → Bytes

/-- The session of a rank (`init::queues`, src/hxhim/init.cpp:67-75). -/
def Layout.net (l : Layout) (rank : Nat) (t : Transport) (order : ReqList → ReqList)
    (order_perm : ∀ l, (order l).Perm l) (heap : Nat) (junk : Nat → Bytes) : Net :=
  ⟨rank, (List.range l.total).map l.dsToRank, t, order, order_perm, heap, junk⟩

variable {σ : Type}

/-- A request to another rank: pack, receive and execute there (src/transport/backend/MPI/
RangeServer.cpp:43-77, src/transport/backend/Thallium/RangeServer.cpp:53-106), pack the response,
unpack it here. A response that can not be unpacked is dropped. -/
def remoteServe (net : Net) (serve : Server σ) (s : σ) (rank : Int) (req : Req) : Out (σ × Option Res) :=
  match rdReq net.heap (req.pack ++ net.junk (req.size - req.pack.length)) with
  | .ok (req', _) =>
    serve s rank req' >>= fun x =>
    x.2.pack >>= fun w =>
    match rdRes net.heap (w ++ net.junk (x.2.size - w.length)) with
    | .ok (res, _) => .ok (x.1, some res)
    | .err => .ok (x.1, none)
    | .ub => .ub
  | .err => .ub
  | .ub => .ub

/-- Send requests one after the other. `route` gives the rank; without one the request is skipped. -/
def sendAll (net : Net) (serve : Server σ) (route : Int × Req → Option Int) :
    ReqList → σ → Out (σ × List (Int × Option Res))
  | [], s => .ok (s, [])
  | x :: l, s =>
    match route x with
    | none => sendAll net serve route l s
    | some rank =>
      remoteServe net serve s rank x.2 >>= fun y =>
      sendAll net serve route l y.1 >>= fun z =>
      .ok (z.1, (rank, y.2) :: z.2)

/-- `communicate`. Without a transport the pointer is null (src/transport/transports.cpp:15-16).

MPI (include/transport/backend/MPI/EndpointGroup.tpp): `parallel_send` (22-165) looks up the
datastore id of the request in the endpoint group. `parallel_recv` (178-324) looks up the rank the
request was sent to, as if it were an id. When that does not lead back to the rank, sizes, buffers and
messages no longer belong together or are waited for without end; this is undefined here.

Thallium (src/transport/backend/Thallium/EndpointGroup.cpp:102-262): looks up the rank the request
goes to, as if it were an id. -/
def communicate (net : Net) (serve : Server σ) (s : σ) (remote : ReqList) : Out (σ × List Res) :=
  match net.transport with
  | .null => .ub
  | .mpi ranks =>
    sendAll net serve (fun x => ranks.lookup x.2.dst) (net.order remote) s >>= fun r =>
    if r.2.all (fun x => ranks.lookup x.1 == some x.1) then .ok (r.1, r.2.filterMap (fun x => x.2)) else .ub
  | .thallium endpoints =>
    sendAll net serve (fun x => endpoints.lookup x.1) (net.order remote) s >>= fun r =>
    .ok (r.1, r.2.filterMap (fun x => x.2))

/-! ## process -/

/-- `remaining` (include/hxhim/private/process.hpp:14-25). -/
def remaining {α : Type} (qs : List (List (List α))) : Nat := (qs.map List.length).sum

/-- The first packet of each queue, with the number of the queue (include/hxhim/private/
process.hpp:53-59). -/
def fronts {α : Type} : Nat → List (List (List α)) → List (Nat × List α)
  | _, [] => []
  | i, [] :: qs => fronts (i + 1) qs
  | i, (p :: _) :: qs => (i, p) :: fronts (i + 1) qs

/-- The queues after `pop_front`. -/
def popped {α : Type} (qs : List (List (List α))) : List (List (List α)) := qs.map List.tail

/-- Divide the packets into local and remote ones (include/hxhim/private/process.hpp:61-72). -/
def divide {α : Type} (net : Net) (mk : List α → ReqBody) :
    List (Nat × List α) → List Req → ReqList → Out (List Req × ReqList)
  | [], loc, remote => .ok (loc, remote)
  | (i, p) :: l, loc, remote =>
    match net.dsToRank[i]? with
    | none => .ub
    | some rank =>
      if net.rank = rank then divide net mk l (loc ++ [⟨net.rank, i, mk p⟩]) remote
      else divide net mk l loc (ReqList.assign remote rank ⟨net.rank, i, mk p⟩)

/-- The local requests (include/hxhim/private/process.hpp:125-159). -/
def serveLocal (net : Net) (serve : Server σ) : List Req → σ → Results → Out (σ × Results)
  | [], s, r => .ok (s, r)
  | req :: l, s, r =>
    serve s net.rank req >>= fun x =>
    addAll [x.2] r >>= fun r =>
    serveLocal net serve l x.1 r

/-- One round of the loop of `process` (include/hxhim/private/process.hpp:43-161). -/
def round {α : Type} (net : Net) (serve : Server σ) (mk : List α → ReqBody) (s : σ) (r : Results)
    (qs : List (List (List α))) : Out (σ × Results × List (List (List α))) :=
  divide net mk (fronts 0 qs) [] [] >>= fun d =>
  (if d.2.isEmpty then .ok (s, r)
   else communicate net serve s d.2 >>= fun c => addAll c.2 r >>= fun r => .ok (c.1, r)) >>= fun x =>
  serveLocal net serve d.1 x.1 x.2 >>= fun y =>
  .ok (y.1, y.2, popped qs)

/-- The loop; a loop of more than `fuel` rounds is undefined. -/
def processLoop {α : Type} (net : Net) (serve : Server σ) (mk : List α → ReqBody) :
    Nat → σ → Results → List (List (List α)) → Out (σ × Results × List (List (List α)))
  | 0, _, _, _ => .ub
  | fuel + 1, s, r, qs =>
    if remaining qs = 0 then .ok (s, r, qs)
    else round net serve mk s r qs >>= fun x => processLoop net serve mk fuel x.1 x.2.1 x.2.2

/-- The local and remote requests of every round; they do not depend on responses (include/hxhim/private/
process.hpp:43-72). -/
def rounds {α : Type} (net : Net) (mk : List α → ReqBody) :
    Nat → List (List (List α)) → Out (List (List Req × ReqList))
  | 0, _ => .ub
  | fuel + 1, qs =>
    if remaining qs = 0 then .ok []
    else divide net mk (fronts 0 qs) [] [] >>= fun d => rounds net mk fuel (popped qs) >>= fun l => .ok (d :: l)

/-- `process` (include/hxhim/private/process.hpp:27-171): results and the queues afterwards. -/
def process {α : Type} (net : Net) (serve : Server σ) (mk : List α → ReqBody) (s : σ)
    (qs : List (List (List α))) : Out (σ × Results × List (List (List α))) :=
  processLoop net serve mk (remaining qs + 1) s Results.create qs

/-! ## FLUSH -/

/-- `FlushPuts` (src/hxhim/ops/FLUSH.cpp:33-66) when asynchronous PUTs are disabled. -/
def flushPuts (net : Net) (serve : Server σ) (s : σ) (q : Queue.Queues) : Out (σ × Results × Queue.Queues) :=
  process net serve .put s q.puts >>= fun x =>
  .ok (x.1, (Results.create.append x.2.1).1, { q with puts := x.2.2, putCount := 0 })

/-- `FlushGets` (src/hxhim/ops/FLUSH.cpp:88-96). -/
def flushGets (net : Net) (serve : Server σ) (s : σ) (q : Queue.Queues) : Out (σ × Results × Queue.Queues) :=
  process net serve .get s q.gets >>= fun x => .ok (x.1, x.2.1, { q with gets := x.2.2 })

/-- `FlushGetOps` (src/hxhim/ops/FLUSH.cpp:118-126). -/
def flushGetOps (net : Net) (serve : Server σ) (s : σ) (q : Queue.Queues) : Out (σ × Results × Queue.Queues) :=
  process net serve .getop s q.getops >>= fun x => .ok (x.1, x.2.1, { q with getops := x.2.2 })

/-- `FlushDeletes` (src/hxhim/ops/FLUSH.cpp:148-156). -/
def flushDels (net : Net) (serve : Server σ) (s : σ) (q : Queue.Queues) : Out (σ × Results × Queue.Queues) :=
  process net serve .del s q.dels >>= fun x => .ok (x.1, x.2.1, { q with dels := x.2.2 })

/-- `FlushHistograms` (src/hxhim/ops/FLUSH.cpp:178-186). -/
def flushHists (net : Net) (serve : Server σ) (s : σ) (q : Queue.Queues) : Out (σ × Results × Queue.Queues) :=
  process net serve .hist s q.hists >>= fun x => .ok (x.1, x.2.1, { q with hists := x.2.2 })

/-- `Flush` (src/hxhim/ops/FLUSH.cpp:211-235). -/
def flush (net : Net) (serve : Server σ) (s : σ) (q : Queue.Queues) : Out (σ × Results × Queue.Queues) :=
  let res := Results.create
  flushPuts net serve s q >>= fun x =>
  let res := (res.append x.2.1).1
  flushGets net serve x.1 x.2.2 >>= fun x =>
  let res := (res.append x.2.1).1
  flushGetOps net serve x.1 x.2.2 >>= fun x =>
  let res := (res.append x.2.1).1
  flushDels net serve x.1 x.2.2 >>= fun x =>
  let res := (res.append x.2.1).1
  flushHists net serve x.1 x.2.2 >>= fun x =>
  .ok (x.1, (res.append x.2.1).1, x.2.2)

/-! ## The range servers of the datastore model -/

/-- The datastores of each rank, and whether the LevelDB write of the n-th request succeeds. -/
structure World where
  ds : Int → List Store.DS
  wr : Nat → Bool
  served : Nat

/-- `Transport::local::range_server` (include/transport/backend/local/RangeServer.hpp:32-84) on a
rank. -/
def World.serve (cb : Store.Callbacks) (heap : Nat) : Server World := fun w rank req =>
  Store.rangeServer cb heap (w.wr w.served) (w.ds rank) req >>= fun x =>
  .ok (⟨fun r => if r = rank then x.1 else w.ds r, w.wr, w.served + 1⟩, x.2)

end Hx.Process

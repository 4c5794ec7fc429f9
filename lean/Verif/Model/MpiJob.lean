import Verif.Model.Mpi
import Verif.Model.Overlap

/-!
# Flushes as messages of the transports

The requests of flushes (`Model/Process.lean`) as what the clients of `Model/Mpi.lean` do, the range
servers of the datastore model as what the listeners do, and the results as what clients make of the
messages they receive.

Only what is said about listeners is about MPI; for Thallium see `Model/RpcJob.lean`.

* Every rank has one thread that flushes (asynchronous PUTs are disabled), one flush after the other.
* Packets carry the number of the flush they belong to, which is not part of the program and is not read
  by it.
* All ranks allocate at the same address, and buffers have the same contents behind what was written to
  them.
-/

namespace Hx.Job
open Hx Msg Process Mpi

/-- Bytes that are sent, or a request that is handed over in memory. -/
inductive Packet where
  | wire (bytes : Bytes)
  | direct (req : Req)

structure Parcel where
  turn : Nat
  packet : Packet

/-- Bytes that are received, or a response that is handed over in memory. -/
inductive Reply where
  | wire (bytes : Bytes)
  | direct (res : Res)

variable {n : Nat}

/-- A rank of the communicator. -/
def toRank (n : Nat) (rank : Int) : Out (Fin n) :=
  if h : 0 ≤ rank ∧ rank.toNat < n then .ok ⟨rank.toNat, h.2⟩ else .ub

/-! ## Clients -/

/-- The packet of a request to another rank (`Packer::pack`). -/
def packet (net : Net) (turn : Nat) (req : Req) : Parcel := ⟨turn, .wire (req.pack ++ net.junk (req.size - req.pack.length))⟩

/-- `parallel_send` (include/transport/backend/MPI/EndpointGroup.tpp:62-98) looks up the datastore id of
the request in the endpoint group and skips the request without an entry. `parallel_recv` (192-217)
looks up the rank as if it were an id; see `Process.communicate`. -/
def remoteRound (net : Net) (turn : Nat) (ranks : Endpoints) : ReqList → Out (List (Fin n × Parcel))
  | [] => .ok []
  | x :: l =>
    match ranks.lookup x.2.dst with
    | none => remoteRound net turn ranks l
    | some rank =>
      if ranks.lookup rank = some rank then
        toRank n rank >>= fun d => remoteRound net turn ranks l >>= fun l => .ok ((d, packet net turn x.2) :: l)
      else .ub

/-- `process_request` (src/transport/backend/Thallium/EndpointGroup.cpp:111-116) looks up the rank of the
request as if it were an id, and skips the request without an entry (249-258). -/
def callRound (net : Net) (turn : Nat) (endpoints : Endpoints) : ReqList → Out (List (Fin n × Parcel))
  | [] => .ok []
  | x :: l =>
    match endpoints.lookup x.1 with
    | none => callRound net turn endpoints l
    | some rank => toRank n rank >>= fun d => callRound net turn endpoints l >>= fun l => .ok ((d, packet net turn x.2) :: l)

/-- The requests to other ranks (`communicate`). -/
def wireRound (net : Net) (turn : Nat) (l : ReqList) : Out (List (Fin n × Parcel)) :=
  match net.transport with
  | .null => .ub
  | .mpi ranks => remoteRound net turn ranks l
  | .thallium endpoints => callRound net turn endpoints l

/-- One round (include/hxhim/private/process.hpp:74-161): first other ranks, then the own one. -/
def roundActs (net : Net) (turn : Nat) (d : List Req × ReqList) : Out (List (Act n Parcel)) :=
  (if d.2.isEmpty then .ok []
   else wireRound net turn (net.order d.2) >>= fun l => .ok [.remote l]) >>= fun a =>
  .ok (a ++ d.1.map (fun q => .local ⟨turn, .direct q⟩))

def roundsActs (net : Net) (turn : Nat) : List (List Req × ReqList) → Out (List (Act n Parcel))
  | [] => .ok []
  | d :: l => roundActs net turn d >>= fun a => roundsActs net turn l >>= fun b => .ok (a ++ b)

/-- `process` (include/hxhim/private/process.hpp:27-171). -/
def processActs {α : Type} (net : Net) (turn : Nat) (mk : List α → ReqBody) (qs : List (List (List α))) :
    Out (List (Act n Parcel)) := rounds net mk (remaining qs + 1) qs >>= roundsActs net turn

/-- The five parts of a flush. -/
structure FlushActs (n : Nat) where
  puts : List (Act n Parcel)
  gets : List (Act n Parcel)
  getops : List (Act n Parcel)
  dels : List (Act n Parcel)
  hists : List (Act n Parcel)

def FlushActs.all (f : FlushActs n) : List (Act n Parcel) := f.puts ++ f.gets ++ f.getops ++ f.dels ++ f.hists

/-- `Flush` (src/hxhim/ops/FLUSH.cpp:211-235). -/
def flushActs (net : Net) (turn : Nat) (q : Queue.Queues) : Out (FlushActs n) :=
  processActs net turn .put q.puts >>= fun a =>
  processActs net turn .get q.gets >>= fun b =>
  processActs net turn .getop q.getops >>= fun c =>
  processActs net turn .del q.dels >>= fun d =>
  processActs net turn .hist q.hists >>= fun e =>
  .ok ⟨a, b, c, d, e⟩

/-- The flushes of a rank. -/
def turnsOf (turns : List Turn) (c : Fin n) : List Nat :=
  (List.range turns.length).filter (fun i => (turns[i]?.map (fun x => x.net.rank)) == some (c : Int))

/-- `acts i` is what turn `i` does. -/
def JobActs (total : Nat) (turns : List Turn) (acts : Nat → FlushActs n) : Prop :=
  ∀ i x, turns[i]? = some x →
    ∃ q, Queue.calls x.cfg true (Queue.Queues.init total) x.calls = .ok q ∧ flushActs x.net i q = .ok (acts i)

/-- What the ranks do. -/
def jobProg (turns : List Turn) (acts : Nat → FlushActs n) (c : Fin n) : List (Act n Parcel) :=
  (turnsOf turns c).flatMap (fun i => (acts i).all)

/-! ## Range servers -/

/-- A listener unpacks the request, executes it, and packs the response for the rank in it
(src/transport/backend/MPI/RangeServer.cpp:43-77). A request of the own rank is executed
(include/transport/backend/local/RangeServer.hpp:32-84). A response that can not be packed is undefined,
as in `Process.remoteServe`. -/
def mpiServe (cb : Store.Callbacks) (heap addr : Nat) (junk : Nat → Bytes) (w : World) (s : Fin n) (p : Parcel) :
    Out (World × Fin n × Reply) :=
  match p.packet with
  | .wire bytes =>
    match rdReq addr bytes with
    | .ok (req, _) =>
      World.serve cb heap w s req >>= fun x =>
      x.2.pack >>= fun b =>
      toRank n x.2.dst >>= fun d => .ok (x.1, d, .wire (b ++ junk (x.2.size - b.length)))
    | _ => .ub
  | .direct req => World.serve cb heap w s req >>= fun x => .ok (x.1, s, .direct x.2)

/-- The job as ranks that use MPI. -/
def mpiSys (cb : Store.Callbacks) (heap addr : Nat) (junk : Nat → Bytes) (eager : Nat → Bool) : Sys n Parcel Reply World where
  serve := mpiServe cb heap addr junk
  reqSize p := match p.packet with | .wire b => b.length | .direct _ => 0
  resSize r := match r with | .wire b => b.length | .direct _ => 0
  eager := eager

/-! ## Results -/

/-- Unpack the responses (include/transport/backend/MPI/EndpointGroup.tpp:300-370); what can not be
unpacked is dropped. -/
def unpackAll (addr : Nat) : List Reply → Out (List Res)
  | [] => .ok []
  | .wire b :: l =>
    match rdRes addr b with
    | .ok (res, _) => unpackAll addr l >>= fun rs => .ok (res :: rs)
    | .err => unpackAll addr l
    | .ub => .ub
  | .direct res :: l => unpackAll addr l >>= fun rs => .ok (res :: rs)

/-- How many responses there are. -/
def replies : List (Act n Parcel) → Nat
  | [] => 0
  | .remote l :: acts => l.length + replies acts
  | .local _ :: acts => 1 + replies acts

/-- The results of `process` (include/hxhim/private/process.hpp:112-159): the responses to its requests
are the next ones that are received. -/
def processResults (addr : Nat) (acts : List (Act n Parcel)) (l : List Reply) : Out (Results.Results × List Reply) :=
  unpackAll addr (l.take (replies acts)) >>= fun rs =>
  Results.addAll rs Results.Results.create >>= fun r => .ok (r, l.drop (replies acts))

/-- The results of `Flush` (src/hxhim/ops/FLUSH.cpp:211-235). -/
def flushResults (addr : Nat) (f : FlushActs n) (l : List Reply) : Out (Results.Results × List Reply) :=
  let res := Results.Results.create
  processResults addr f.puts l >>= fun x =>
  let res := (res.append (Results.Results.create.append x.1).1).1
  processResults addr f.gets x.2 >>= fun x =>
  let res := (res.append x.1).1
  processResults addr f.getops x.2 >>= fun x =>
  let res := (res.append x.1).1
  processResults addr f.dels x.2 >>= fun x =>
  let res := (res.append x.1).1
  processResults addr f.hists x.2 >>= fun x =>
  .ok ((res.append x.1).1, x.2)

/-- The results of the flushes of a rank. -/
def clientResults (addr : Nat) : List (FlushActs n) → List Reply → Out (List Results.Results)
  | [], _ => .ok []
  | f :: fs, l =>
    flushResults addr f l >>= fun x => clientResults addr fs x.2 >>= fun rs => .ok (x.1 :: rs)

end Hx.Job

import Verif.Base.Bytes

/-!
# Who destructs messages

Messages are constructed by queueing operations, by unpacking packets, by
datastores and by range servers (`construct`, `include/utils/memory.hpp`), and
handed from one to the other as raw pointers.  Here a message is a number, and
all that is kept of it is whether it has been destructed.

Simplifications:

* What is in a message is left out (`Model/BlobUse`).
* How many responses a transport returns is an input: any number, in one chain
  each time.  That there is a transport is assumed.
* Messages that a transport constructs and does not return are left out.
* `std::unordered_map` is an association list in order of insertion.
* Packets that are longer or shorter than they say are left out (C11).
-/

namespace Hx.Lives

/-- Messages are numbered as they are constructed. -/
structure Ledger where
  /-- how many have been constructed -/
  next : Nat
  /-- those the memory of which has been freed, in order -/
  gone : List Nat
  /-- those the memory of which was freed without running the destructor, which
  frees the arrays -/
  lost : List Nat
deriving DecidableEq, Repr

/-- `construct` -/
def construct (l : Ledger) : Nat × Ledger := (l.next, { l with next := l.next + 1 })

/-- `destruct`: undefined if the message is gone. -/
def destruct (k : Nat) (l : Ledger) : Out Ledger :=
  if k < l.next ∧ k ∉ l.gone then .ok { l with gone := l.gone ++ [k] } else .ub

/-- `dealloc` of a message. -/
def dealloc (k : Nat) (l : Ledger) : Out Ledger :=
  if k < l.next ∧ k ∉ l.gone then .ok { l with gone := l.gone ++ [k], lost := l.lost ++ [k] }
  else .ub

def destructAll : List Nat → Ledger → Out Ledger
  | [], l => .ok l
  | k :: ks, l => destruct k l >>= fun l => destructAll ks l

/-- `Transport::local::range_server`
(`include/transport/backend/local/RangeServer.hpp:32-86`): it constructs the
response it returns, and destructs that of the datastore, if there is one. -/
def rangeServer (answers : Bool) (l : Ledger) : Out (Nat × Ledger) :=
  let (res, l) := construct l
  if answers then
    let (response, l) := construct l
    destruct response l >>= fun l => .ok (res, l)
  else .ok (res, l)

/-- `AddAll` destructs the responses of a chain one after the other
(`src/hxhim/Results.cpp:233-241`, `src/message/Messages.cpp:3-8`). -/
def addAll (chain : List Nat) (l : Ledger) : Out Ledger := destructAll chain l

/-- A request the rank serves itself (`include/hxhim/private/process.hpp:130-162`). -/
def serveHere (answers : Nat → Bool) (req : Nat) (l : Ledger) : Out Ledger :=
  rangeServer (answers req) l >>= fun (res, l) =>
  addAll [res] l >>= fun l => destruct req l

def serveAll (answers : Nat → Bool) : List Nat → Ledger → Out Ledger
  | [], l => .ok l
  | req :: reqs, l => serveHere answers req l >>= fun l => serveAll answers reqs l

/-- `communicate`: a chain of responses. -/
def communicate (n : Nat) (l : Ledger) : List Nat × Ledger :=
  (List.range' l.next n, { l with next := l.next + n })

/-- The first request of each queue, with the number of the datastore
(`include/hxhim/private/process.hpp:50-57`). -/
def firsts : Nat → List (List Nat) → List (Nat × Nat)
  | _, [] => []
  | ds, [] :: qs => firsts (ds + 1) qs
  | ds, (req :: _) :: qs => (ds, req) :: firsts (ds + 1) qs

/-- `remote[rank] = req` -/
def assign (remote : List (Nat × Nat)) (rank req : Nat) : List (Nat × Nat) :=
  if remote.any (fun x => x.1 == rank) then
    remote.map fun x => if x.1 == rank then (rank, req) else x
  else remote ++ [(rank, req)]

/-- Local requests, and remote ones by rank (`include/hxhim/private/process.hpp:59-69`). -/
def divide (here : Nat) (toRank : Nat → Nat) :
    List (Nat × Nat) → List Nat → List (Nat × Nat) → List Nat × List (Nat × Nat)
  | [], loc, remote => (loc, remote)
  | (ds, req) :: l, loc, remote =>
    if here = toRank ds then divide here toRank l (loc ++ [req]) remote
    else divide here toRank l loc (assign remote (toRank ds) req)

/-- What a session and its transport decide. -/
structure Session where
  here : Nat
  toRank : Nat → Nat
  /-- the datastore answers the request -/
  answers : Nat → Bool
  /-- the number of responses a transport returns in the round in which so many
  requests are left -/
  returned : Nat → Nat

/-- A round of `process` (`include/hxhim/private/process.hpp:43-162`). -/
def round (s : Session) (qs : List (List Nat)) (l : Ledger) : Out Ledger :=
  let d := divide s.here s.toRank (firsts 0 qs) [] []
  (if d.2.isEmpty then .ok l
   else
     let (chain, l) := communicate (s.returned qs.flatten.length) l
     addAll chain l >>= fun l => destructAll (d.2.map fun x => x.2) l) >>= fun l =>
  serveAll s.answers d.1 l

/-- `process` (`include/hxhim/private/process.hpp:27-175`); a loop that does not
end after so many rounds is undefined. -/
def process (s : Session) : Nat → List (List Nat) → Ledger → Out Ledger
  | 0, qs, l => if qs.flatten.isEmpty then .ok l else .ub
  | fuel + 1, qs, l =>
    if qs.flatten.isEmpty then .ok l
    else round s qs l >>= fun l => process s fuel (qs.map List.tail) l

/-- How a range server gets rid of messages: Thallium's by `destruct`
(`src/transport/backend/Thallium/RangeServer.cpp:86`, 96), that of MPI by
`dealloc` (`src/transport/backend/MPI/RangeServer.cpp:61`, 70). -/
inductive Transport where
  | thallium
  | mpi
deriving DecidableEq, Repr

def Transport.dispose : Transport → Nat → Ledger → Out Ledger
  | .thallium => destruct
  | .mpi => dealloc

/-- What a range server receives. -/
inductive Packet where
  /-- no buffer: not even the head can be unpacked -/
  | none
  /-- a head that says it is no request -/
  | notRequest
  /-- a request of an operation that is none of the five -/
  | unknown
  /-- a request whose second unpacking fails -/
  | broken
  /-- a request that the datastore answers, or not -/
  | request (answers : Bool)
deriving DecidableEq, Repr

/-- `Unpacker::unpack(Request **)` (`src/message/Unpacker.cpp:21-120`, 454-470):
the head is unpacked into a message of its own first. -/
def unpack (p : Packet) (l : Ledger) : Out (Option Nat × Ledger) :=
  let (base, l) := construct l
  match p with
  | .none => destruct base l >>= fun l => .ok (none, l)
  | .notRequest => destruct base l >>= fun l => .ok (none, l)
  | .unknown => destruct base l >>= fun l => .ok (none, l)
  | .broken =>
    let (out, l) := construct l
    destruct out l >>= fun l => destruct base l >>= fun l => .ok (none, l)
  | .request _ =>
    let (out, l) := construct l
    destruct base l >>= fun l => .ok (some out, l)

/-- Whether the datastore answers. -/
def Packet.answers : Packet → Bool
  | .request a => a
  | _ => false

/-- A packet that a range server receives: it is unpacked, executed and
disposed of, and so is the response after it was packed
(`src/transport/backend/Thallium/RangeServer.cpp:68-92`,
`src/transport/backend/MPI/RangeServer.cpp:54-70`).  Without a request Thallium's
returns; that of MPI does not look and `local::range_server` reads `req->op`. -/
def receive (t : Transport) (p : Packet) (l : Ledger) : Out Ledger :=
  unpack p l >>= fun (req, l) =>
  match req, t with
  | none, .thallium => .ok l
  | none, .mpi => .ub
  | some req, t =>
    rangeServer p.answers l >>= fun (res, l) =>
    t.dispose req l >>= fun l => t.dispose res l

/-- The packets a range server receives one after the other. -/
def receiveAll (t : Transport) : List Packet → Ledger → Out Ledger
  | [], l => .ok l
  | a :: as, l => receive t a l >>= fun l => receiveAll t as l

/-- A session that is being closed: the queue of PUTs, the PUTs the background
thread has taken, and the ledger. -/
structure Closing where
  queue : List (List Nat)
  batch : Option (List (List Nat))
  ledger : Ledger
deriving DecidableEq, Repr

/-- What the two threads do, each with the queue locked or to what only the thread
has. -/
inductive Turn where
  /-- `wait_for_background_puts(hx, true)` destructs what is queued
  (`src/hxhim/private.cpp:36-51`) -/
  | clear
  /-- the thread takes the queue (`src/hxhim/init.cpp:233-255`) -/
  | take
  /-- the thread processes what it has taken (`src/hxhim/init.cpp:261`) -/
  | run
deriving DecidableEq, Repr

/-- One turn; `n` is the number of queues (`total_range_servers`). -/
def turn (s : Session) (n : Nat) (c : Closing) : Turn → Out Closing
  | .clear => destructAll c.queue.flatten c.ledger >>= fun l => .ok { c with queue := [], ledger := l }
  | .take =>
    match c.batch with
    | none => .ok { c with queue := List.replicate n [], batch := some c.queue }
    | some _ => .ok c
  | .run =>
    match c.batch with
    | none => .ok c
    | some b => process s b.flatten.length b c.ledger >>= fun l => .ok { c with batch := none, ledger := l }

def turns (s : Session) (n : Nat) : List Turn → Closing → Out Closing
  | [], c => .ok c
  | t :: ts, c => turn s n c t >>= fun c => turns s n ts c

/-- `Close`, as far as requests go: the turns of both threads in any order, the
thread is joined when it has processed what it has taken
(`src/hxhim/destroy.cpp:39-44`), and `destroy::queues` destructs what is left of
PUTs and of the other kinds (`src/hxhim/destroy.cpp:53-86`). -/
def close (s : Session) (n : Nat) (ts : List Turn) (others : List (List Nat)) (c : Closing) :
    Out Ledger :=
  turns s n ts c >>= fun c =>
  turn s n c .run >>= fun c =>
  destructAll c.queue.flatten c.ledger >>= fun l => destructAll others.flatten l

end Hx.Lives

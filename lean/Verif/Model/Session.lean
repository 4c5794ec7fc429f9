import Verif.Model.Options
import Verif.Model.Process

/-!
# Life cycle of a session: `src/hxhim/hxhim.cpp`, `src/hxhim/init.cpp`, `src/hxhim/destroy.cpp`,
`src/hxhim/private.cpp`, `src/hxhim/accessors.cpp`, `src/hxhim/ops/SYNC.cpp`

* One rank calls one function after the other. The datastores of all ranks are a state `σ` with the
  functions of `Backend`; barriers are not modelled.
* The background thread runs only while it is waited for. Its interleaving with the caller is in
  `Model/Async.lean`.
* `hxhim_t::p` is null before `Init`.
* A barrier on `MPI_COMM_NULL` ends the program (MPI's default error handler), and so does joining a
  thread that was never started (`std::system_error`). Both are undefined here.
* `Init` on an open session leaks the old private data; what its background thread does from then on is
  not modelled.
* Print buffer, statistics, epoch and log are not modelled.
-/

namespace Hx.Session
open Hx Msg Config Process Results Place

/-- The datastores of all ranks. A datastore is opened by rank and id, with a path or, when the
option to open datastores is off, without. -/
structure Backend (σ : Type) where
  serve : Server σ
  openDs : σ → Nat → Nat → Option Bytes → Option σ
  syncDs : σ → Nat → Nat → σ × Int
  reopenDs : σ → Nat → Nat → Bytes → σ
  closeDs : σ → Nat → Nat → σ

/-- What the machine decides in a call: rank and size of the communicator, whether the transport can be
started, the functions of the user, and the parameters of `Net`. -/
structure Env where
  mpi : Option (Nat × Nat)
  transport : Bool
  userHash : Nat → Nat → Bytes → Bytes → Out Int
  order : ReqList → ReqList
  order_perm : ∀ l, (order l).Perm l
  heap : Nat
  junk : Nat → Bytes

/-- `hxhim_private_t` (include/hxhim/private/hxhim.hpp:52-154): the options and what `Open` sets up.
`servers` is `total_range_servers`, `ids` are the datastores of this rank, `kept` is
`async_puts.results` and `thread` says whether the background thread was started. -/
structure Priv where
  opts : Opts
  rank : Nat
  size : Nat
  servers : Nat
  total : Nat
  rsId : Int
  ids : List Nat
  transport : Transport
  dsToRank : List Int
  queues : Queue.Queues
  kept : Option Results
  thread : Bool

/-- A null `hxhim_t *`, a session without private data, and one with. -/
inductive Session where
  | null
  | none
  | some (p : Priv)

/-- `started` (src/hxhim/private.cpp:91-93). -/
def Session.started : Session → Bool
  | .some p => p.opts.running
  | _ => false

/-- A freshly constructed `hxhim_private_t` (src/hxhim/private.cpp:7-20). -/
def Priv.new : Priv where
  opts := Opts.new
  rank := 0
  size := 0
  servers := 0
  total := 0
  rsId := 0
  ids := []
  transport := .null
  dsToRank := []
  queues := Queue.Queues.init 0
  kept := none
  thread := false

def Priv.layout (p : Priv) : Layout := ⟨p.size, p.opts.clientRatio, p.opts.serverRatio, p.opts.perServer⟩

/-- What `process` reads. -/
def Priv.net (e : Env) (p : Priv) : Net := ⟨p.rank, p.dsToRank, p.transport, e.order, e.order_perm, e.heap, e.junk⟩

/-- The hash function; calling a null pointer is undefined. -/
def Priv.hash (e : Env) (p : Priv) (s q : Bytes) : Out Int :=
  match p.opts.hashFunc with
  | .none => .ub
  | .some (.builtin k) => Hash.hxhimHash k p.rank p.total s q
  | .some (.user f) => e.userHash f p.opts.hashArgs s q

/-- What queueing reads. -/
def Priv.cfg (e : Env) (p : Priv) : Queue.Cfg := ⟨p.hash e, p.opts.maxOps, p.opts.maxSize, p.servers⟩

variable {σ : Type}

/-! ## Close -/

/-- `Close` after the check of the pointers (src/hxhim/hxhim.cpp:231-276). `running` is reset first, so
`Sync` returns a null pointer at once (src/hxhim/ops/SYNC.cpp:15-17). What is queued is destroyed by
`destroy::async_puts` and `destroy::queues`. -/
def closePriv (b : Backend σ) (s : σ) (p : Priv) : Out σ :=
  if p.opts.comm = .null then .ub
  else if p.opts.asyncEnabled ∧ p.thread = false then .ub
  else .ok (p.ids.foldl (fun s id => b.closeDs s p.rank id) s)

/-! ## Open -/

/-- The outcome of an `init` function: the servers and the session, and whether it succeeded. -/
abbrev Stage (σ : Type) := σ × Priv × Bool

/-- Continue unless there was an error. -/
def andThen (x : Out (Stage σ)) (f : σ → Priv → Out (Stage σ)) : Out (Stage σ) :=
  x >>= fun r => if r.2.2 then f r.1 r.2.1 else .ok r

/-- `init::bootstrap` (src/hxhim/init.cpp:18-31). -/
def bootstrap (e : Env) (s : σ) (p : Priv) : Out (Stage σ) :=
  if p.opts.comm = .null then .ok (s, p, false)
  else
    match e.mpi with
    | .none => .ok (s, p, false)
    | .some (rank, size) => .ok (s, { p with rank := rank, size := size }, true)

/-- `init::running` (src/hxhim/init.cpp:40-43). -/
def setRunning (s : σ) (p : Priv) : Out (Stage σ) := .ok (s, { p with opts := { p.opts with running := true } }, true)

/-- The loop of `init::datastore` (src/hxhim/init.cpp:156-170) with `Datastore::Init`
(src/datastore/datastores.cpp:20-137), which dereferences the configuration. -/
def openLoop (b : Backend σ) : List Nat → σ → Priv → Out (Stage σ)
  | [], s, p => .ok (s, p, true)
  | id :: l, s, p =>
    if p.opts.store = .none then .ub
    else
      let path := if p.opts.openInit then
        some (generateName p.opts.dsPrefix p.opts.dsBase id p.opts.dsPostfix 47) else .none
      match b.openDs s p.rank id path with
      | .none => .ok (s, p, false)
      | .some s => openLoop b l s { p with ids := p.ids ++ [id] }

/-- `init::datastore` (src/hxhim/init.cpp:110-174). -/
def datastore (b : Backend σ) (s : σ) (p : Priv) : Out (Stage σ) :=
  if p.opts.clientRatio = 0 ∨ p.opts.serverRatio = 0 ∨ p.opts.perServer = 0 then .ok (s, p, false)
  else
    let p := { p with
      servers := p.layout.totalRangeServers
      total := p.layout.total
      rsId := rsGetIdIn p.rank p.size p.opts.clientRatio p.opts.serverRatio }
    openLoop b ((p.layout.created p.rank).map Int.toNat) s p

/-- `init::transport` (src/hxhim/init.cpp:327-348) with `Transport::init` (src/transport/
transports.cpp:4-42), which dereferences the configuration. -/
def transport (e : Env) (s : σ) (p : Priv) : Out (Stage σ) :=
  if p.opts.clientRatio = 0 ∨ p.opts.serverRatio = 0 then .ok (s, p, false)
  else
    match p.opts.transport with
    | .none => .ub
    | .some .null => .ok (s, { p with transport := .null }, true)
    | .some (.mpi _ _) =>
      if e.transport then .ok (s, { p with transport := .mpi (mpiEndpoints p.layout p.rank (p.opts.endpoints.map Int.toNat)) }, true)
      else .ok (s, p, false)
    | .some (.thallium _ _) =>
      if e.transport then
        .ok (s, { p with transport := .thallium (thalliumEndpoints p.layout p.rank (p.opts.endpoints.map Int.toNat)) }, true)
      else .ok (s, p, false)

/-- `init::queues` (src/hxhim/init.cpp:53-80). -/
def queues (s : σ) (p : Priv) : Out (Stage σ) :=
  .ok (s, { p with queues := Queue.Queues.init p.total, dsToRank := (List.range p.total).map p.layout.dsToRank }, true)

/-- Append to `async_puts.results` (src/hxhim/init.cpp:266-272, src/hxhim/private.cpp:78-84). -/
def keep (kept : Option Results) (r : Results) : Results :=
  match kept with
  | none => r
  | some k => (k.append r).1

/-- What the background thread does when it is waited for (`wait_for_background_puts`,
src/hxhim/private.cpp:26-59, `async_put_thread`, src/hxhim/init.cpp:223-281): it takes the queue, leaves
one with an entry per range server, and keeps the results. -/
def background (b : Backend σ) (e : Env) (s : σ) (p : Priv) : Out (σ × Priv) :=
  process (p.net e) b.serve .put s p.queues.puts >>= fun x =>
  .ok (x.1, { p with
    queues := { p.queues with puts := List.replicate p.servers [], putCount := 0 }
    kept := .some (keep p.kept x.2.1) })

/-- `init::async_puts` (src/hxhim/init.cpp:290-305). -/
def asyncPuts (b : Backend σ) (e : Env) (s : σ) (p : Priv) : Out (Stage σ) :=
  if p.opts.asyncEnabled then
    background b e s { p with kept := .none, thread := true } >>= fun x =>
    background b e x.1 x.2 >>= fun x => .ok (x.1, x.2, true)
  else .ok (s, p, true)

/-- After an error the session is closed (src/hxhim/hxhim.cpp:158-163, 200-203). -/
def finish (b : Backend σ) (r : Stage σ) : Out (σ × Session × Bool) :=
  if r.2.2 then .ok (r.1, .some r.2.1, true)
  else closePriv b r.1 r.2.1 >>= fun s => .ok (s, .none, false)

/-- `Open` (src/hxhim/hxhim.cpp:96-164). -/
def openSession (b : Backend σ) (e : Env) (s : σ) : Session → Out (σ × Session × Bool)
  | .some p =>
    if p.opts.running then .ok (s, .some p, false)
    else
      andThen (bootstrap e s p) (fun s p =>
      andThen (setRunning s p) (fun s p =>
      andThen (datastore b s p) (fun s p =>
      andThen (transport e s p) (fun s p =>
      andThen (queues s p) (fun s p =>
      asyncPuts b e s p))))) >>= finish b
  | _ => .ub

/-- `init::one_datastore` (src/hxhim/init.cpp:184-215). `destroy::datastore` destroys the datastore
configuration and sets it to null (src/datastore/datastores.cpp:139-155) before `Datastore::Init` reads
it. -/
def oneDatastore (b : Backend σ) (path : Bytes) (s : σ) (p : Priv) : Out (Stage σ) :=
  let s := p.ids.foldl (fun s id => b.closeDs s p.rank id) s
  let p := { p with opts := { p.opts with
    store := .none, clientRatio := 1, serverRatio := 1
    hashName := str "local", hashFunc := .some (.builtin .datastoreZero), hashArgs := 0 } }
  if p.opts.store = .none then .ub
  else
    match b.openDs s p.rank 0 (if p.opts.openInit then some path else .none) with
    | .none => .ok (s, p, false)
    | .some s => .ok (s, { p with rsId := 0, ids := p.ids ++ [0], servers := 1 }, true)

/-- `OpenOne` (src/hxhim/hxhim.cpp:186-209). -/
def openOne (b : Backend σ) (e : Env) (path : Bytes) (s : σ) : Session → Out (σ × Session × Bool)
  | .some p =>
    if p.opts.running then .ok (s, .some p, false)
    else
      andThen (bootstrap e s p) (fun s p =>
      if p.size ≠ 1 then .ok (s, p, false) else
      andThen (setRunning s p) (fun s p =>
      andThen (oneDatastore b path s p) (fun s p =>
      andThen (queues s p) (fun s p =>
      asyncPuts b e s p)))) >>= finish b
  | _ => .ub

/-- `Init` (src/hxhim/hxhim.cpp:55-72). Existing private data is ignored. -/
def init (build : Build) (sys : Sys) (keys : List Bytes) (comm : Comm) (b : Backend σ) (s : σ) :
    Session → Out (σ × Session × Bool)
  | .null => .ok (s, .null, false)
  | _ =>
    defaultReader build sys keys comm Opts.new >>= fun r =>
    finish b (s, { Priv.new with opts := r.1 }, r.2)

/-- `Close` (src/hxhim/hxhim.cpp:231-276). -/
def close (b : Backend σ) (s : σ) : Session → Out (σ × Session × Bool)
  | .some p => closePriv b s p >>= fun s => .ok (s, .none, true)
  | x => .ok (s, x, false)

/-! ## Flushing -/

inductive Kind where
  | puts | gets | getops | dels | hists | all
  deriving Repr, DecidableEq

/-- `FlushPuts` (src/hxhim/ops/FLUSH.cpp:33-66). The background thread is not waited for when the session
is not running (src/hxhim/private.cpp:54-57). -/
def flushPuts (b : Backend σ) (e : Env) (s : σ) (p : Priv) : Out (σ × Priv × Results) :=
  (if p.opts.asyncEnabled then
    (if p.opts.running then background b e s p >>= fun x => background b e x.1 x.2 else .ok (s, p)) >>= fun x =>
    .ok (x.1, { x.2 with kept := .none }, (Results.create.append (x.2.kept.getD Results.create)).1)
   else .ok (s, p, Results.create)) >>= fun x =>
  process (p.net e) b.serve .put x.1 x.2.1.queues.puts >>= fun y =>
  .ok (y.1, { x.2.1 with queues := { x.2.1.queues with puts := y.2.2, putCount := 0 } }, (x.2.2.append y.2.1).1)

/-- A flush function that changes the queues only. -/
def flushQueues (f : Queue.Queues → Out (σ × Results × Queue.Queues)) (p : Priv) : Out (σ × Priv × Results) :=
  f p.queues >>= fun x => .ok (x.1, { p with queues := x.2.2 }, x.2.1)

/-- The flush functions (src/hxhim/ops/FLUSH.cpp), given the private data. -/
def flushPriv (b : Backend σ) (e : Env) (s : σ) (p : Priv) : Kind → Out (σ × Priv × Results)
  | .puts => flushPuts b e s p
  | .gets => flushQueues (Process.flushGets (p.net e) b.serve s) p
  | .getops => flushQueues (Process.flushGetOps (p.net e) b.serve s) p
  | .dels => flushQueues (Process.flushDels (p.net e) b.serve s) p
  | .hists => flushQueues (Process.flushHists (p.net e) b.serve s) p
  | .all =>
    flushPuts b e s p >>= fun x =>
    let res := (Results.create.append x.2.2).1
    flushQueues (Process.flushGets (x.2.1.net e) b.serve x.1) x.2.1 >>= fun x =>
    let res := (res.append x.2.2).1
    flushQueues (Process.flushGetOps (x.2.1.net e) b.serve x.1) x.2.1 >>= fun x =>
    let res := (res.append x.2.2).1
    flushQueues (Process.flushDels (x.2.1.net e) b.serve x.1) x.2.1 >>= fun x =>
    let res := (res.append x.2.2).1
    flushQueues (Process.flushHists (x.2.1.net e) b.serve x.1) x.2.1 >>= fun x =>
    .ok (x.1, x.2.1, (res.append x.2.2).1)

/-- Sync the datastores of this rank (src/hxhim/ops/SYNC.cpp:24-57). -/
def syncLoop (b : Backend σ) (rank : Nat) : List Nat → σ → Results → σ × Results
  | [], s, r => (s, r)
  | id :: l, s, r =>
    let x := b.syncDs s rank id
    syncLoop b rank l x.1 (r.add [initSync rank x.2])

/-- `Sync` of a running session (src/hxhim/ops/SYNC.cpp:14-60). -/
def syncPriv (b : Backend σ) (e : Env) (s : σ) (p : Priv) : Out (σ × Priv × Results) :=
  flushPriv b e s p .all >>= fun x =>
  let y := syncLoop b p.rank (if p.rsId > -1 then p.ids else []) x.1 x.2.2
  .ok (y.1, x.2.1, y.2)

/-- `ChangeHash` of a running session (src/hxhim/hxhim.cpp:303-330). The name is not stored. -/
def changeHashPriv (b : Backend σ) (e : Env) (name : Bytes) (f : Option HashFn) (args : Nat) (s : σ) (p : Priv) :
    Out (σ × Priv × Results) :=
  syncPriv b e s p >>= fun x =>
  let p := { x.2.1 with opts := { x.2.1.opts with hashFunc := f, hashArgs := args } }
  let s := (List.range p.ids.length).foldl
    (fun s i => b.reopenDs s p.rank (p.ids.getD i 0) (p.layout.changeHashName name p.rank i)) x.1
  .ok (s, p, x.2.2)

/-- `ChangeDatastoreName` of a running session (src/hxhim/hxhim.cpp:365-408). Histograms are left to
the model of the datastores. -/
def changeNamePriv (b : Backend σ) (e : Env) (base : Bytes) (s : σ) (p : Priv) : Out (σ × Priv × Results) :=
  syncPriv b e s p >>= fun x =>
  let p := { x.2.1 with opts := { x.2.1.opts with dsBase := base } }
  let s := p.ids.foldl
    (fun s id => b.reopenDs s p.rank id (changeDatastoreName p.opts.dsPrefix base id p.opts.dsPostfix 47)) x.1
  .ok (s, p, x.2.2)

/-! ## Queueing -/

/-- `serial_puts` (src/hxhim/private.cpp:71-89): send the queued PUTs and keep the results. -/
def serialPuts (b : Backend σ) (e : Env) (s : σ) (p : Priv) : Out (σ × Priv) :=
  if p.opts.asyncMax ≤ p.queues.putCount then
    process (p.net e) b.serve .put s p.queues.puts >>= fun x =>
    .ok (x.1, { p with
      queues := { p.queues with puts := x.2.2, putCount := 0 }
      kept := .some (keep p.kept x.2.1) })
  else .ok (s, p)

/-- `BPutSingleType` of a running session (src/hxhim/ops/single_type.cpp:7-41). -/
def putSinglePriv (b : Backend σ) (e : Env) (arrays typeArrays : Bool) (l : List Queue.PutArg) (t : Nat) (s : σ)
    (p : Priv) : Out (σ × Priv × Bool) :=
  Queue.bputSingle (p.cfg e) p.queues arrays typeArrays l t >>= fun r =>
  let p := { p with queues := r.1 }
  if r.2 = false ∨ p.opts.asyncEnabled then .ok (s, p, r.2)
  else serialPuts b e s p >>= fun x => .ok (x.1, x.2, true)

/-! ## Accessors (src/hxhim/accessors.cpp) -/

inductive Accessor where
  | epoch | mpi | serverCount | ratio | datastoreCount | printBuffer | hash
  | location (id : Int)
  | haveHistogram (name : Bytes)
  deriving Repr, DecidableEq

/-- The values an accessor returns. -/
inductive Value where
  | nothing
  | nat (n : Nat)
  | nats (n m : Nat)
  | ints (n m : Int)
  | hash (name : Bytes) (f : Option HashFn) (args : Nat)
  | bool (b : Bool)
  deriving Repr, DecidableEq

/-- The `nocheck` functions. -/
def Priv.access (p : Priv) : Accessor → Bool × Value
  | .epoch => (true, .nothing)
  | .mpi => (true, .nats p.rank p.size)
  | .serverCount => (true, .nat p.servers)
  | .ratio => (true, .nats p.opts.clientRatio p.opts.serverRatio)
  | .datastoreCount => (true, .nat p.total)
  | .printBuffer => (true, .nothing)
  | .hash => (true, .hash p.opts.hashName p.opts.hashFunc p.opts.hashArgs)
  | .location id =>
    match p.layout.getDatastoreLocation id with
    | .ok (r, o) => (true, .ints r o)
    | _ => (false, .nothing)
  | .haveHistogram n => (true, .bool (p.opts.histNames.contains n))

/-- An accessor. `GetEpoch` (src/hxhim/accessors.cpp:27-60) only looks at the pointers. -/
def access (a : Accessor) (x : Session) : Bool × Value :=
  match a, x with
  | .epoch, .some p => p.access .epoch
  | a, .some p => if p.opts.running then p.access a else (false, .nothing)
  | _, _ => (false, .nothing)

/-! ## Calls -/

/-- The functions of the library. `c` marks the variant of the C interface. -/
inductive Call where
  | init (sys : Sys) (comm : Comm)
  | open
  | openOne (path : Bytes)
  | close
  | set (s : Setter)
  | queue (x : Queue.Call)
  | putSingle (arrays typeArrays : Bool) (l : List Queue.PutArg) (t : Nat)
  | getSingle (arrays typeArrays : Bool) (l : List Queue.GetArg) (t : Nat)
  | getopSingle (arrays opsArray : Bool) (l : List Queue.GetOpArg) (t : Nat)
  | flush (c : Bool) (k : Kind)
  | sync (c : Bool)
  | changeHash (c : Bool) (name : Bytes) (f : Option HashFn) (args : Nat)
  | changeName (c : Bool) (base : Bytes)
  | access (a : Accessor)

/-- What a call returns: `HXHIM_SUCCESS` or an error, an accessor's values, or a list of results that may
be null. -/
inductive Ret where
  | code (ok : Bool)
  | value (ok : Bool) (v : Value)
  | results (r : Option Results)

/-- A function that returns results. The C functions hand them to `hxhim_results_init`, which reads
`hx->p` (src/hxhim/Results.cpp:762-771). -/
def results (c : Bool) (x : Session) (s : σ) (f : σ → Priv → Out (σ × Priv × Results)) :
    Out (σ × Session × Ret) :=
  match x with
  | .some p =>
    if p.opts.running then f s p >>= fun r => .ok (r.1, .some r.2.1, .results (.some r.2.2))
    else .ok (s, x, .results .none)
  | x => if c then .ub else .ok (s, x, .results .none)

/-- A function that queues operations. -/
def queueing (x : Session) (s : σ) (f : Priv → Out (σ × Priv × Bool)) : Out (σ × Session × Ret) :=
  match x with
  | .some p =>
    if p.opts.running then f p >>= fun r => .ok (r.1, .some r.2.1, .code r.2.2)
    else .ok (s, x, .code false)
  | x => .ok (s, x, .code false)

/-- Queueing that changes the queues only. -/
def queued (s : σ) (p : Priv) (f : Queue.Queues → Out (Queue.Queues × Bool)) : Out (σ × Priv × Bool) :=
  f p.queues >>= fun r => .ok (s, { p with queues := r.1 }, r.2)

def coded (x : Out (σ × Session × Bool)) : Out (σ × Session × Ret) := x >>= fun r => .ok (r.1, r.2.1, .code r.2.2)

/-- A setter (src/hxhim/options.cpp). -/
def setter (t : Setter) (s : σ) (x : Session) : Out (σ × Session × Ret) :=
  match x with
  | .some p => t.onOpts p.opts >>= fun r => .ok (s, .some { p with opts := r.1 }, .code r.2)
  | .none => t.run (.some .none) >>= fun r => .ok (s, x, .code r.2)
  | .null => t.run .none >>= fun r => .ok (s, x, .code r.2)

/-- One call. -/
def step (build : Build) (keys : List Bytes) (b : Backend σ) (e : Env) (s : σ) (x : Session) :
    Call → Out (σ × Session × Ret)
  | .init sys comm => coded (init build sys keys comm b s x)
  | .open => coded (openSession b e s x)
  | .openOne path => coded (openOne b e path s x)
  | .close => coded (close b s x)
  | .set t => setter t s x
  | .queue c => queueing x s fun p => queued s p fun q => Queue.exec (p.cfg e) q c
  | .putSingle a ta l t => queueing x s fun p => putSinglePriv b e a ta l t s p
  | .getSingle a ta l t => queueing x s fun p => queued s p fun q => Queue.bgetSingle (p.cfg e) q a ta l t
  | .getopSingle a oa l t => queueing x s fun p => queued s p fun q => Queue.bgetopSingle (p.cfg e) q a oa l t
  | .flush _ k =>
    match x with
    | .some p => flushPriv b e s p k >>= fun r => .ok (r.1, .some r.2.1, .results (.some r.2.2))
    | _ => .ub
  | .sync c => results c x s (syncPriv b e)
  | .changeHash c n f a => results c x s (changeHashPriv b e n f a)
  | .changeName c base => results c x s (changeNamePriv b e base)
  | .access a => .ok (s, x, (fun r => .value r.1 r.2) (access a x))

/-- Calls one after the other; the return values in order. -/
def run (build : Build) (keys : List Bytes) (b : Backend σ) : List (Env × Call) → σ → Session →
    Out (σ × Session × List Ret)
  | [], s, x => .ok (s, x, [])
  | c :: l, s, x =>
    step build keys b c.1 s x c.2 >>= fun r =>
    run build keys b l r.1 r.2.1 >>= fun y => .ok (y.1, y.2.1, r.2.2 :: y.2.2)

end Hx.Session

import Verif.Model.Mpi
import Verif.Model.Rpc

/-!
# Closing a session

Ranks that do their work and then call `Close` (src/hxhim/hxhim.cpp:231-276), with `Sync`
(src/hxhim/ops/SYNC.cpp:14-57) in between. `Close` resets `running` first, then waits in a barrier for the
other ranks, and then takes down the transport.

* The requests between two barriers are those of the models of the transports (`Model/Mpi.lean`,
  `Model/Rpc.lean`).
* `MPI_Barrier` number `k` of a rank returns when all ranks have called theirs. `Sync` and `Close` use the
  same communicator.
* `Sync` in `Close` does nothing, as the session is not running any more (src/hxhim/ops/SYNC.cpp:15-17).
* Asynchronous PUTs are disabled. Results, queues and datastores are not modelled.
-/

namespace Hx.Close
open Function (update)

variable {n L : Nat} {α β W A S Λ : Type}

/-- Where a rank is: in the session; in the barrier of `Sync`; in the barrier of `Close`
(src/hxhim/hxhim.cpp:245-252); behind it (254-256); the range server of the transport destroyed
(src/transport/transport.cpp:45); all of it destroyed (src/transport/transport.cpp:46). -/
inductive Place where
  | working
  | sync
  | closing
  | leaving
  | gone
  | closed
deriving DecidableEq

/-- `hx->p->running`. -/
def Place.running : Place → Bool
  | .working => true
  | .sync => true
  | _ => false

/-- A transport: its steps, which can depend on where the ranks are; whether a client has nothing to do;
what a client does next; whether the threads of the range server of a rank have ended. -/
structure Net (n : Nat) (A S Λ : Type) where
  step : (Fin n → Place) → S → Λ → Option S
  idle : S → Fin n → Bool
  load : S → Fin n → List A → S
  stopped : S → Fin n → Bool

structure St (n : Nat) (A S : Type) where
  base : S
  /-- what each rank does after each of the next calls of `Sync` -/
  todo : Fin n → List (List A)
  place : Fin n → Place
  /-- how many barriers each rank has entered -/
  entered : Fin n → Nat

inductive Label (n : Nat) (Λ : Type) where
  | net (l : Λ)
  | sync (c : Fin n)
  | pass (c : Fin n)
  | close (c : Fin n)
  | leave (c : Fin n)
  | destroy (c : Fin n)
  | finalize (c : Fin n)
deriving DecidableEq

namespace St

def move (st : St n A S) (c : Fin n) (x : Place) : St n A S := { st with place := update st.place c x }
/-- Call `MPI_Barrier`. -/
def enter (st : St n A S) (c : Fin n) : St n A S := { st with entered := update st.entered c (st.entered c + 1) }
/-- All ranks have entered the barrier the rank is in. -/
def together (st : St n A S) (c : Fin n) : Bool := decide (∀ d, st.entered c ≤ st.entered d)

end St

/-- The flush of `Sync` is done; enter its barrier (src/hxhim/ops/SYNC.cpp:20-22). -/
def sync (net : Net n A S Λ) (st : St n A S) (c : Fin n) : Option (St n A S) :=
  if st.place c = .working ∧ net.idle st.base c = true ∧ (st.todo c).isEmpty = false then some ((st.move c .sync).enter c) else none

/-- `Sync` returns, and the rank goes on. -/
def pass (net : Net n A S Λ) (st : St n A S) (c : Fin n) : Option (St n A S) :=
  match st.todo c with
  | x :: l =>
    if st.place c = .sync ∧ st.together c = true then
      some { st.move c .working with base := net.load st.base c x, todo := update st.todo c l }
    else none
  | [] => none

/-- `Close` resets `running` and enters the barrier (src/hxhim/hxhim.cpp:245-252). -/
def close (net : Net n A S Λ) (st : St n A S) (c : Fin n) : Option (St n A S) :=
  if st.place c = .working ∧ net.idle st.base c = true ∧ (st.todo c).isEmpty = true then some ((st.move c .closing).enter c) else none

/-- All ranks are in the barrier (src/hxhim/hxhim.cpp:252). -/
def leave (st : St n A S) (c : Fin n) : Option (St n A S) :=
  if st.place c = .closing ∧ st.together c = true then some (st.move c .leaving) else none

/-- `~RangeServer`, which waits for listener threads (src/transport/transport.cpp:45,
src/transport/backend/MPI/RangeServer.cpp:29-37). -/
def destroy (net : Net n A S Λ) (st : St n A S) (c : Fin n) : Option (St n A S) :=
  if st.place c = .leaving ∧ net.stopped st.base c = true then some (st.move c .gone) else none

/-- `~EndpointGroup`, and the rest of `Close` (src/transport/transport.cpp:46,
src/transport/backend/Thallium/EndpointGroup.cpp:27-33). -/
def finalize (st : St n A S) (c : Fin n) : Option (St n A S) :=
  if st.place c = .gone then some (st.move c .closed) else none

def step (net : Net n A S Λ) (st : St n A S) : Label n Λ → Option (St n A S)
  | .net l => (net.step st.place st.base l).map (fun b => { st with base := b })
  | .sync c => sync net st c
  | .pass c => pass net st c
  | .close c => close net st c
  | .leave c => leave st c
  | .destroy c => destroy net st c
  | .finalize c => finalize st c

/-- An execution. -/
def run (net : Net n A S Λ) : St n A S → List (Label n Λ) → Option (St n A S)
  | st, [] => some st
  | st, l :: ls => step net st l >>= fun st' => run net st' ls

/-- All ranks have opened the session. -/
def init (b : S) (rest : Fin n → List (List A)) : St n A S := ⟨b, rest, fun _ => .working, fun _ => 0⟩

/-! ## MPI -/

/-- The messages, which listeners have ended, and how many receives of sizes of requests each rank has
freed while they were active (`MPI_Request_free`, src/transport/backend/MPI/RangeServer.cpp:199). Their
buffer was on the stack of the listener (line 49). -/
structure Link (n L : Nat) (α β W : Type) where
  st : Mpi.St n L α β W
  ended : Fin n → Fin L → Bool
  orphans : Fin n → Nat

/-- A step of the transport; a listener ends because the session is not running; a message arrives in a
receive whose listener has ended. -/
inductive MpiLabel (n L : Nat) where
  | msg (l : Mpi.Label n L)
  | stop (s : Fin n) (j : Fin L) (posted : Bool)
  | late (s c : Fin n)
deriving DecidableEq

/-- A listener that waits for nothing: it has a request, and does not look at `running` until the response
is on its way (src/transport/backend/MPI/RangeServer.cpp:54-67). -/
def isGot : Mpi.Listener n α β → Bool
  | .got _ _ => true
  | _ => false

/-- Listeners wait only while the session is running (src/transport/backend/MPI/RangeServer.cpp:46, 165,
191). Clients look at `running` of their own rank, which they do not reset while they send requests. -/
def listens (place : Fin n → Place) (x : Link n L α β W) : Mpi.Label n L → Bool
  | .listen s j _ => (place s).running && !x.ended s j
  | .listener s j => ((place s).running || isGot (x.st.listener s j)) && !x.ended s j
  | _ => true

/-- The listener ends. It can have started to wait for a request or not; the receive of a size is left to
the library. A send that is not complete is as well, although its buffer is freed
(src/transport/backend/MPI/RangeServer.cpp:68-70, 133-152, 163-203). The buffer for the data of a request
is never freed (lines 107-116). -/
def stop (sys : Mpi.Sys n α β W) (place : Fin n → Place) (x : Link n L α β W) (s : Fin n) (j : Fin L) (posted : Bool) :
    Option (Link n L α β W) :=
  if (place s).running || x.ended s j then none else
  let y : Link n L α β W := { x with ended := update x.ended s (update (x.ended s) j true) }
  match x.st.listener s j with
  | .idle => some (if posted then { y with orphans := update x.orphans s (x.orphans s + 1) } else y)
  | .sized _ _ => some y
  | .got _ _ => none
  | .sendSize d _ q => some (if sys.eager Mpi.sizeLen || decide (q < (x.st.pair d s).sizeRes.taken) then y else { y with st := y.st.fail })
  | .sendData d len q => some (if sys.eager len || decide (q < (x.st.pair d s).dataRes.taken) then y else { y with st := y.st.fail })

/-- The size of a request is written to the stack of a thread that has ended. -/
def late (x : Link n L α β W) (s c : Fin n) : Option (Link n L α β W) :=
  if x.orphans s = 0 ∨ (x.st.pair c s).sizeReq.next? = none then none else some { x with st := x.st.fail }

def mpiStep (sys : Mpi.Sys n α β W) (place : Fin n → Place) (x : Link n L α β W) (l : MpiLabel n L) : Option (Link n L α β W) :=
  if x.st.bad then none else
  match l with
  | .msg l => if listens place x l then (Mpi.step sys x.st l).map (fun y => { x with st := y }) else none
  | .stop s j posted => stop sys place x s j posted
  | .late s c => late x s c

/-- The client has nothing to do. -/
def mpiIdle (x : Mpi.Client n α β) : Bool :=
  match x.phase with
  | .ready => x.acts.isEmpty
  | _ => false

def mpiNet (sys : Mpi.Sys n α β W) : Net n (Mpi.Act n α) (Link n L α β W) (MpiLabel n L) where
  step := mpiStep sys
  idle x c := mpiIdle (x.st.client c)
  load x c l := { x with st := x.st.setClient c { x.st.client c with acts := l } }
  stopped x c := decide (∀ j, x.ended c j = true)

def mpiInit (w : W) (prog : Fin n → List (Mpi.Act n α)) : Link n L α β W := ⟨Mpi.init w prog, fun _ _ => false, fun _ => 0⟩

/-! ## Thallium -/

/-- The rank that a handler runs on. -/
def handler (st : Rpc.St n α β W) : Rpc.Label n → Option (Fin n)
  | .take i => st.calls[i]?.map (·.dst)
  | .pull i => st.calls[i]?.map (·.dst)
  | .serve i _ => st.calls[i]?.map (·.dst)
  | .clean i => st.calls[i]?.map (·.dst)
  | _ => none

/-- The rank that a client calls or reads from. -/
def server : Rpc.Label n → Option (Fin n)
  | .call _ s _ => some s
  | .recv _ s => some s
  | .read _ s => some s
  | _ => none

/-- Handlers do not look at `running`. They use the range server
(src/transport/backend/Thallium/RangeServer.cpp:20-35), so they are undefined when it is destroyed. There
are none when the engine is finalized, and nobody can be reached. -/
def rpcStep (sys : Rpc.Sys n α β W) (place : Fin n → Place) (st : Rpc.St n α β W) (l : Rpc.Label n) : Option (Rpc.St n α β W) :=
  match handler st l, server l with
  | some s, _ =>
    match place s with
    | .closed => none
    | .gone => (Rpc.step sys st l).map Rpc.St.fail
    | _ => Rpc.step sys st l
  | _, some s => if place s = .closed then none else Rpc.step sys st l
  | _, _ => Rpc.step sys st l

/-- The client has nothing to do. -/
def rpcIdle (x : Rpc.Client n α β) : Bool :=
  match x.phase with
  | .ready => x.acts.isEmpty
  | _ => false

def rpcNet (sys : Rpc.Sys n α β W) : Net n (Mpi.Act n α) (Rpc.St n α β W) (Rpc.Label n) where
  step := rpcStep sys
  idle st c := rpcIdle (st.client c)
  load st c l := st.setClient c { st.client c with acts := l }
  stopped _ _ := true

end Hx.Close

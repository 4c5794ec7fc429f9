import Verif.Model.Mpi

/-!
# Remote procedure calls of the Thallium transport

Ranks that send requests and wait for the responses (`process_request`), and handlers of the calls
(`RangeServer::process`, `RangeServer::cleanup`), as steps that are interleaved in any way.

* A call carries the size of the request and a handle to its memory on the rank of the client
  (`thallium::bulk`). The handler reads the request from there, and answers with the size, a handle and the
  address of the response. The client reads the response from the memory of the range server, and then asks
  the range server to free it, without waiting for that.
* `mem` has the buffers that are read by other ranks. `alloc` can return any address that is not in use,
  also one that was in use before. Reading or freeing a buffer that is not allocated is undefined, as is
  reading one of another length than expected. Buffers that are used by one thread during one step are not
  modelled: `req_buf` of the handler, `res_buf` of the client.
* Calls are answered once, and the answer is delivered to the caller. Calls and clean-ups are handled in
  any order, by up to `threads` handlers at a time on a rank.
* Without `ASYNC_THALLIUM` a client has one call open at a time, with it any number. Requests of a round
  can be called in any order; the code uses the order of the map.
* Packets are of any type that has a length. The range server is a function `serve` of the contents of
  all datastores, the rank and the request; `response->dst` is not used.
* Requests to the own range server do not use calls (include/hxhim/private/process.hpp:120-161).
* The engine is not finalized while calls are under way. Calls succeed, and packets can be packed and
  unpacked (C01, C02, C05, C12).
-/

namespace Hx.Rpc
open Function (update)
open Mpi (Act Got Entry)

variable {n : Nat} {α β W : Type}

/-- A buffer with a packed request, or a packed response. -/
inductive Buf (α β : Type) where
  | req (p : α)
  | res (r : β)
deriving DecidableEq

/-- What has become of a call: sent to the range server; taken by a handler; request read by the handler;
answered; answer received, with the length and the address of the response; response read, and the range
server asked to free it; freed. -/
inductive Stage (α : Type) where
  | sent
  | taken
  | pulled (p : α)
  | replied (len addr : Nat)
  | answered (len addr : Nat)
  | cleaning (addr : Nat)
  | closed
deriving DecidableEq

/-- A call (src/transport/backend/Thallium/EndpointGroup.cpp:129-137): the ranks of the client and the
range server, the length and the address of the request. -/
structure Call (n : Nat) (α : Type) where
  src : Fin n
  dst : Fin n
  len : Nat
  addr : Nat
  stage : Stage α
deriving DecidableEq

/-- One request of a round: not yet sent, sent with call number `i`, response received. -/
inductive Slot (β : Type) where
  | todo
  | called (i : Nat)
  | done (r : β)
deriving DecidableEq

/-- A client is between two rounds, or in one of them. -/
inductive Phase (n : Nat) (α β : Type) where
  | ready
  | round (slots : List (Fin n × α × Slot β))
deriving DecidableEq

structure Client (n : Nat) (α β : Type) where
  acts : List (Act n α)
  phase : Phase n α β
  results : List (Got n β)

structure St (n : Nat) (α β W : Type) where
  world : W
  client : Fin n → Client n α β
  /-- the buffers of each rank that are shared with other ranks -/
  mem : Fin n → Nat → Option (Buf α β)
  calls : List (Call n α)
  /-- the requests in the order they were processed (not part of the program) -/
  log : List (Entry n α β)
  /-- a buffer was not allocated or had another length, or a range server failed -/
  bad : Bool

/-- The range servers, the lengths of packets, the number of handlers of each rank, and whether
`ASYNC_THALLIUM` is defined. -/
structure Sys (n : Nat) (α β W : Type) where
  serve : W → Fin n → α → Out (W × β)
  reqSize : α → Nat
  resSize : β → Nat
  threads : Nat
  async : Bool

/-- What can happen next. Calls and handlers come with the address of the buffer they allocate. -/
inductive Label (n : Nat) where
  | start (c : Fin n)
  | call (c s : Fin n) (addr : Nat)
  | take (i : Nat)
  | pull (i : Nat)
  | serve (i : Nat) (addr : Nat)
  | recv (c s : Fin n)
  | read (c s : Fin n)
  | clean (i : Nat)
  | finish (c : Fin n)
deriving DecidableEq

namespace St

def setClient (st : St n α β W) (c : Fin n) (x : Client n α β) : St n α β W := { st with client := update st.client c x }
def setPhase (st : St n α β W) (c : Fin n) (x : Phase n α β) : St n α β W :=
  st.setClient c { st.client c with phase := x }
def setMem (st : St n α β W) (c : Fin n) (addr : Nat) (x : Option (Buf α β)) : St n α β W :=
  { st with mem := update st.mem c (update (st.mem c) addr x) }
def setCall (st : St n α β W) (i : Nat) (x : Call n α) : St n α β W := { st with calls := st.calls.set i x }
def fail (st : St n α β W) : St n α β W := { st with bad := true }

end St

/-- What has become of the request to `s`. -/
def slotOf (slots : List (Fin n × α × Slot β)) (s : Fin n) : Option (α × Slot β) :=
  (slots.find? (fun x => decide (x.1 = s))).map (·.2)

def setSlot (slots : List (Fin n × α × Slot β)) (s : Fin n) (x : Slot β) : List (Fin n × α × Slot β) :=
  slots.map (fun y => if y.1 = s then (y.1, y.2.1, x) else y)

def Slot.isCalled : Slot β → Bool
  | .called _ => true
  | _ => false

def Slot.got? (x : Fin n × α × Slot β) : Option (Got n β) :=
  match x with
  | (s, _, .done r) => some ⟨s, true, r⟩
  | _ => none

/-- A handler works on the call. -/
def Stage.busy : Stage α → Bool
  | .taken => true
  | .pulled _ => true
  | _ => false

/-- How many handlers of a rank are busy. -/
def busy (calls : List (Call n α)) (s : Fin n) : Nat := (calls.filter (fun x => decide (x.dst = s) && x.stage.busy)).length

/-- Start a round (`process_requests`, src/transport/backend/Thallium/EndpointGroup.cpp:205-262), or
process a request of the own range server (`local::range_server`). -/
def start (sys : Sys n α β W) (st : St n α β W) (c : Fin n) : Option (St n α β W) :=
  match (st.client c).phase, (st.client c).acts with
  | .ready, .remote l :: acts =>
    some (st.setClient c ⟨acts, .round (l.map (fun x => (x.1, x.2, .todo))), (st.client c).results⟩)
  | .ready, .local p :: acts =>
    match sys.serve st.world c p with
    | .ok (w, r) =>
      some { st.setClient c ⟨acts, .ready, (st.client c).results ++ [⟨c, false, r⟩]⟩ with
        world := w, log := st.log ++ [⟨c, c, false, p, r⟩] }
    | _ => some st.fail
  | _, _ => none

/-- Pack a request into a new buffer and call the range server
(src/transport/backend/Thallium/EndpointGroup.cpp:120-137). Without `ASYNC_THALLIUM` no other call of
this client is open (226-248). -/
def call (sys : Sys n α β W) (st : St n α β W) (c s : Fin n) (addr : Nat) : Option (St n α β W) :=
  match (st.client c).phase with
  | .round slots =>
    match slotOf slots s with
    | some (p, .todo) =>
      if (sys.async || slots.all (fun x => !x.2.2.isCalled)) && (st.mem c addr).isNone then
        some { (st.setMem c addr (some (.req p))).setPhase c (.round (setSlot slots s (.called st.calls.length))) with
          calls := st.calls ++ [⟨c, s, sys.reqSize p, addr, .sent⟩] }
      else none
    | _ => none
  | _ => none

/-- A handler takes a call. -/
def take (sys : Sys n α β W) (st : St n α β W) (i : Nat) : Option (St n α β W) :=
  match st.calls[i]? with
  | some x =>
    match x.stage with
    | .sent => if busy st.calls x.dst < sys.threads then some (st.setCall i { x with stage := .taken }) else none
    | _ => none
  | none => none

/-- The handler reads the request from the memory of the client
(src/transport/backend/Thallium/RangeServer.cpp:53-64). -/
def pull (sys : Sys n α β W) (st : St n α β W) (i : Nat) : Option (St n α β W) :=
  match st.calls[i]? with
  | some x =>
    match x.stage with
    | .taken =>
      match st.mem x.src x.addr with
      | some (.req p) => if sys.reqSize p = x.len then some (st.setCall i { x with stage := .pulled p }) else some st.fail
      | _ => some st.fail
    | _ => none
  | none => none

/-- The handler processes the request, packs the response into a new buffer, and answers the call
(src/transport/backend/Thallium/RangeServer.cpp:66-101). -/
def serve (sys : Sys n α β W) (st : St n α β W) (i addr : Nat) : Option (St n α β W) :=
  match st.calls[i]? with
  | some x =>
    match x.stage with
    | .pulled p =>
      if (st.mem x.dst addr).isNone then
        match sys.serve st.world x.dst p with
        | .ok (w, r) =>
          some { (st.setMem x.dst addr (some (.res r))).setCall i { x with stage := .replied (sys.resSize r) addr } with
            world := w, log := st.log ++ [⟨x.src, x.dst, true, p, r⟩] }
        | _ => some st.fail
      else none
    | _ => none
  | none => none

/-- The client receives the answer and frees the buffer of the request
(src/transport/backend/Thallium/EndpointGroup.cpp:137-146). -/
def recv (st : St n α β W) (c s : Fin n) : Option (St n α β W) :=
  match (st.client c).phase with
  | .round slots =>
    match slotOf slots s with
    | some (_, .called i) =>
      match st.calls[i]? with
      | some x =>
        match x.stage with
        | .replied len addr =>
          if (st.mem c x.addr).isSome then some ((st.setMem c x.addr none).setCall i { x with stage := .answered len addr })
          else some st.fail
        | _ => none
      | none => none
    | _ => none
  | _ => none

/-- The client reads the response from the memory of the range server, unpacks it, and asks the range
server to free it (src/transport/backend/Thallium/EndpointGroup.cpp:150-169). -/
def read (sys : Sys n α β W) (st : St n α β W) (c s : Fin n) : Option (St n α β W) :=
  match (st.client c).phase with
  | .round slots =>
    match slotOf slots s with
    | some (_, .called i) =>
      match st.calls[i]? with
      | some x =>
        match x.stage with
        | .answered len addr =>
          match st.mem s addr with
          | some (.res r) =>
            if sys.resSize r = len then
              some ((st.setPhase c (.round (setSlot slots s (.done r)))).setCall i { x with stage := .cleaning addr })
            else some st.fail
          | _ => some st.fail
        | _ => none
      | none => none
    | _ => none
  | _ => none

/-- A handler frees a response (src/transport/backend/Thallium/RangeServer.cpp:108-112). -/
def clean (sys : Sys n α β W) (st : St n α β W) (i : Nat) : Option (St n α β W) :=
  match st.calls[i]? with
  | some x =>
    match x.stage with
    | .cleaning addr =>
      if busy st.calls x.dst < sys.threads then
        if (st.mem x.dst addr).isSome then some ((st.setMem x.dst addr none).setCall i { x with stage := .closed })
        else some st.fail
      else none
    | _ => none
  | none => none

/-- All responses are there; they are chained in the order of the requests
(src/transport/backend/Thallium/EndpointGroup.cpp:236-261). -/
def finish (st : St n α β W) (c : Fin n) : Option (St n α β W) :=
  match (st.client c).phase with
  | .round slots =>
    if (slots.map Slot.got?).all (·.isSome) then
      some (st.setClient c { st.client c with phase := .ready, results := (st.client c).results ++ slots.filterMap Slot.got? })
    else none
  | _ => none

/-- One step, if it is possible. Nothing is said about what happens after a failure. -/
def step (sys : Sys n α β W) (st : St n α β W) (l : Label n) : Option (St n α β W) :=
  if st.bad then none else
  match l with
  | .start c => start sys st c
  | .call c s addr => call sys st c s addr
  | .take i => take sys st i
  | .pull i => pull sys st i
  | .serve i addr => serve sys st i addr
  | .recv c s => recv st c s
  | .read c s => read sys st c s
  | .clean i => clean sys st i
  | .finish c => finish st c

/-- An execution. -/
def run (sys : Sys n α β W) : St n α β W → List (Label n) → Option (St n α β W)
  | st, [] => some st
  | st, l :: ls => step sys st l >>= fun st' => run sys st' ls

/-- No calls under way; each client has something to do. -/
def init (w : W) (prog : Fin n → List (Act n α)) : St n α β W :=
  ⟨w, fun c => ⟨prog c, .ready, []⟩, fun _ _ => none, [], [], false⟩

end Hx.Rpc

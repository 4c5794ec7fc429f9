import Mathlib.Logic.Function.Basic
import Verif.Base.Bytes

/-!
# Messages of the MPI transport

Ranks that send requests and wait for the responses (`EndpointGroup::return_msgs`), and listener threads
that serve them (`RangeServer::listener_thread`), as steps that are interleaved in any way.

* Messages between two ranks with one tag are received in the order they were sent. There are four tags
  (include/transport/backend/MPI/constants.h:4-7): size and data, of requests and responses.
* `MPI_Isend` returns at once. The send is complete when the message was received, or earlier if the
  library keeps a copy: `eager len` says for which messages it does. MPI leaves this to the library.
* A loop over `MPI_Test` is a step that is possible when everything waited for is complete.
* Packets are of any type that has a length. The range server is a function `serve` of the contents of
  all datastores, the rank and the request; it gives the rank that gets the response
  (`response->dst`), and the response.
* One thread of each rank sends requests, and the destinations of a round are different ranks
  (include/transport/backend/MPI/EndpointGroup.tpp:62-98, `ReqList` is a map). Requests to other ranks
  can be posted in any order; the code uses the order of the map.
* `running` stays true: nobody closes the session while requests are under way. MPI calls succeed, and
  packets can be packed and unpacked (C01, C02, C05, C12).
-/

namespace Hx.Mpi
open Function (update)

/-- Messages from one rank to another with one tag: all that were sent, and how many were received. -/
structure Chan (α : Type) where
  msgs : List α
  taken : Nat
deriving DecidableEq

namespace Chan
variable {α : Type}

def empty : Chan α := ⟨[], 0⟩
/-- `MPI_Isend`. -/
def post (c : Chan α) (a : α) : Chan α := ⟨c.msgs ++ [a], c.taken⟩
/-- The message that is received next. -/
def next? (c : Chan α) : Option α := c.msgs[c.taken]?
def take (c : Chan α) : Chan α := ⟨c.msgs, c.taken + 1⟩
end Chan

variable {n L : Nat} {α β W : Type}

/-- The messages between the client of a rank and the range server of a rank
(include/transport/backend/MPI/constants.h:4-7). -/
structure Pair (α β : Type) where
  sizeReq : Chan Nat
  dataReq : Chan α
  sizeRes : Chan Nat
  dataRes : Chan β
deriving DecidableEq

def Pair.init : Pair α β := ⟨.empty, .empty, .empty, .empty⟩

/-- One request of a round, with what has become of it: nothing yet; size sent, as message number `q`;
data sent as well, as message number `q'`; size of the response received; response received. -/
inductive Slot (β : Type) where
  | todo
  | half (q : Nat)
  | full (q q' : Nat)
  | sized (len : Nat)
  | done (r : β)
deriving DecidableEq

/-- What the client waits for: `parallel_send`, the sizes in `parallel_recv`, the data in
`parallel_recv` (include/transport/backend/MPI/EndpointGroup.tpp:22-165, 179-251, 253-309). -/
inductive Stage where
  | sending
  | sizes
  | datas
deriving DecidableEq

/-- A client is between two rounds, or in one of them. -/
inductive Phase (n : Nat) (α β : Type) where
  | ready
  | round (stage : Stage) (slots : List (Fin n × α × Slot β))
deriving DecidableEq

/-- What a client does: a round of requests to other ranks, or a request to its own range server, which
does not use messages (include/hxhim/private/process.hpp:120-161). -/
inductive Act (n : Nat) (α : Type) where
  | remote (l : List (Fin n × α))
  | local (p : α)

/-- A response, and the rank it came from, with messages or not. -/
structure Got (n : Nat) (β : Type) where
  rank : Fin n
  wire : Bool
  res : β
deriving DecidableEq

structure Client (n : Nat) (α β : Type) where
  acts : List (Act n α)
  phase : Phase n α β
  results : List (Got n β)

/-- A listener thread (src/transport/backend/MPI/RangeServer.cpp:43-78): waiting for a size from any
rank (lines 99-105); waiting for the data from that rank (110-116); processing the request (54-66);
waiting for the size of the response to be sent, which is message number `q` (136-141); waiting for its
data to be sent (143-148). -/
inductive Listener (n : Nat) (α β : Type) where
  | idle
  | sized (src : Fin n) (len : Nat)
  | got (src : Fin n) (p : α)
  | sendSize (dst : Fin n) (r : β) (q : Nat)
  | sendData (dst : Fin n) (len : Nat) (q : Nat)
deriving DecidableEq

/-- A request that was processed. -/
structure Entry (n : Nat) (α β : Type) where
  src : Fin n
  rank : Fin n
  wire : Bool
  req : α
  res : β

structure St (n L : Nat) (α β W : Type) where
  world : W
  client : Fin n → Client n α β
  listener : Fin n → Fin L → Listener n α β
  /-- messages between the client of the first and the range server of the second rank -/
  pair : Fin n → Fin n → Pair α β
  /-- the requests in the order they were processed (not part of the program) -/
  log : List (Entry n α β)
  /-- a buffer was too small or not filled, or a range server failed -/
  bad : Bool

/-- The range servers, the lengths of packets, and what the MPI library copies. -/
structure Sys (n : Nat) (α β W : Type) where
  serve : W → Fin n → α → Out (W × Fin n × β)
  reqSize : α → Nat
  resSize : β → Nat
  eager : Nat → Bool

/-- `sizeof(std::size_t)`. -/
def sizeLen : Nat := 8

/-- What can happen next. -/
inductive Label (n L : Nat) where
  | start (c : Fin n)
  | post (c s : Fin n)
  | sent (c : Fin n)
  | size (c s : Fin n)
  | sized (c : Fin n)
  | data (c s : Fin n)
  | finish (c : Fin n)
  | listen (s : Fin n) (j : Fin L) (c : Fin n)
  | listener (s : Fin n) (j : Fin L)
deriving DecidableEq

namespace St

def setClient (st : St n L α β W) (c : Fin n) (x : Client n α β) : St n L α β W := { st with client := update st.client c x }
def setPhase (st : St n L α β W) (c : Fin n) (x : Phase n α β) : St n L α β W :=
  st.setClient c { st.client c with phase := x }
def setListener (st : St n L α β W) (s : Fin n) (j : Fin L) (x : Listener n α β) : St n L α β W :=
  { st with listener := update st.listener s (update (st.listener s) j x) }
def setPair (st : St n L α β W) (c s : Fin n) (x : Pair α β) : St n L α β W :=
  { st with pair := update st.pair c (update (st.pair c) s x) }
def fail (st : St n L α β W) : St n L α β W := { st with bad := true }

end St

/-- What has become of the request to `s`. -/
def slotOf (slots : List (Fin n × α × Slot β)) (s : Fin n) : Option (α × Slot β) :=
  (slots.find? (fun x => decide (x.1 = s))).map (·.2)

def setSlot (slots : List (Fin n × α × Slot β)) (s : Fin n) (x : Slot β) : List (Fin n × α × Slot β) :=
  slots.map (fun y => if y.1 = s then (y.1, y.2.1, x) else y)

/-- `MPI_Test` of the sends of one request (include/transport/backend/MPI/EndpointGroup.tpp:108-141). -/
def sentSlot (sys : Sys n α β W) (pr : Fin n → Pair α β) (x : Fin n × α × Slot β) : Bool :=
  match x with
  | (s, p, .full q q') => (sys.eager sizeLen || decide (q < (pr s).sizeReq.taken)) &&
      (sys.eager (sys.reqSize p) || decide (q' < (pr s).dataReq.taken))
  | _ => false

/-- The size of the response is known. -/
def Slot.isSized : Slot β → Bool
  | .sized _ => true
  | _ => false

def Slot.got? (x : Fin n × α × Slot β) : Option (Got n β) :=
  match x with
  | (s, _, .done r) => some ⟨s, true, r⟩
  | _ => none

/-- Start a round (`process`, include/hxhim/private/process.hpp:43-161), or process a request of the own
range server (`local::range_server`). -/
def start (sys : Sys n α β W) (st : St n L α β W) (c : Fin n) : Option (St n L α β W) :=
  match (st.client c).phase, (st.client c).acts with
  | .ready, .remote l :: acts =>
    some (st.setClient c ⟨acts, .round .sending (l.map (fun x => (x.1, x.2, .todo))), (st.client c).results⟩)
  | .ready, .local p :: acts =>
    match sys.serve st.world c p with
    | .ok (w, _, r) =>
      some { st.setClient c ⟨acts, .ready, (st.client c).results ++ [⟨c, false, r⟩]⟩ with
        world := w, log := st.log ++ [⟨c, c, false, p, r⟩] }
    | _ => some st.fail
  | _, _ => none

/-- Send the size, then the data of a request (include/transport/backend/MPI/EndpointGroup.tpp:70-97). -/
def post (sys : Sys n α β W) (st : St n L α β W) (c s : Fin n) : Option (St n L α β W) :=
  match (st.client c).phase with
  | .round .sending slots =>
    match slotOf slots s with
    | some (p, .todo) =>
      let pr := st.pair c s
      some ((st.setPair c s { pr with sizeReq := pr.sizeReq.post (sys.reqSize p) }).setPhase c
        (.round .sending (setSlot slots s (.half pr.sizeReq.msgs.length))))
    | some (p, .half q) =>
      let pr := st.pair c s
      some ((st.setPair c s { pr with dataReq := pr.dataReq.post p }).setPhase c
        (.round .sending (setSlot slots s (.full q pr.dataReq.msgs.length))))
    | _ => none
  | _ => none

/-- All sends are complete (include/transport/backend/MPI/EndpointGroup.tpp:101-141). -/
def sent (sys : Sys n α β W) (st : St n L α β W) (c : Fin n) : Option (St n L α β W) :=
  match (st.client c).phase with
  | .round .sending slots => if slots.all (sentSlot sys (st.pair c)) then some (st.setPhase c (.round .sizes slots)) else none
  | _ => none

/-- The size of a response arrives (include/transport/backend/MPI/EndpointGroup.tpp:192-241). -/
def size (st : St n L α β W) (c s : Fin n) : Option (St n L α β W) :=
  match (st.client c).phase with
  | .round .sizes slots =>
    match slotOf slots s with
    | some (_, .full _ _) =>
      let pr := st.pair c s
      match pr.sizeRes.next? with
      | some len => some ((st.setPair c s { pr with sizeRes := pr.sizeRes.take }).setPhase c
          (.round .sizes (setSlot slots s (.sized len))))
      | none => none
    | _ => none
  | _ => none

/-- All sizes are there (include/transport/backend/MPI/EndpointGroup.tpp:219-272). -/
def sized (st : St n L α β W) (c : Fin n) : Option (St n L α β W) :=
  match (st.client c).phase with
  | .round .sizes slots => if slots.all (fun x => x.2.2.isSized) then some (st.setPhase c (.round .datas slots)) else none
  | _ => none

/-- A response arrives in a buffer of the length that was received before
(include/transport/backend/MPI/EndpointGroup.tpp:253-299). -/
def data (sys : Sys n α β W) (st : St n L α β W) (c s : Fin n) : Option (St n L α β W) :=
  match (st.client c).phase with
  | .round .datas slots =>
    match slotOf slots s with
    | some (_, .sized len) =>
      let pr := st.pair c s
      match pr.dataRes.next? with
      | some r =>
        if sys.resSize r = len then
          some ((st.setPair c s { pr with dataRes := pr.dataRes.take }).setPhase c
            (.round .datas (setSlot slots s (.done r))))
        else some st.fail
      | none => none
    | _ => none
  | _ => none

/-- All responses are there; they are chained in the order of the requests
(include/transport/backend/MPI/EndpointGroup.tpp:280-370). -/
def finish (st : St n L α β W) (c : Fin n) : Option (St n L α β W) :=
  match (st.client c).phase with
  | .round .datas slots =>
    if (slots.map Slot.got?).all (·.isSome) then
      some (st.setClient c { st.client c with phase := .ready, results := (st.client c).results ++ slots.filterMap Slot.got? })
    else none
  | _ => none

/-- A listener receives a size from any rank (src/transport/backend/MPI/RangeServer.cpp:99-108). -/
def listen (st : St n L α β W) (s : Fin n) (j : Fin L) (c : Fin n) : Option (St n L α β W) :=
  match st.listener s j with
  | .idle =>
    let pr := st.pair c s
    match pr.sizeReq.next? with
    | some len => some ((st.setPair c s { pr with sizeReq := pr.sizeReq.take }).setListener s j (.sized c len))
    | none => none
  | _ => none

/-- The next step of a listener that has received a size
(src/transport/backend/MPI/RangeServer.cpp:46-77, 110-119, 133-152). -/
def listener (sys : Sys n α β W) (st : St n L α β W) (s : Fin n) (j : Fin L) : Option (St n L α β W) :=
  match st.listener s j with
  | .idle => none
  | .sized c len =>
    let pr := st.pair c s
    match pr.dataReq.next? with
    | some p =>
      if sys.reqSize p = len then some ((st.setPair c s { pr with dataReq := pr.dataReq.take }).setListener s j (.got c p))
      else some st.fail
    | none => none
  | .got c p =>
    match sys.serve st.world s p with
    | .ok (w, d, r) =>
      let pr := st.pair d s
      some { (st.setPair d s { pr with sizeRes := pr.sizeRes.post (sys.resSize r) }).setListener s j
          (.sendSize d r pr.sizeRes.msgs.length) with world := w, log := st.log ++ [⟨c, s, true, p, r⟩] }
    | _ => some st.fail
  | .sendSize d r q =>
    let pr := st.pair d s
    if sys.eager sizeLen || decide (q < pr.sizeRes.taken) then
      some ((st.setPair d s { pr with dataRes := pr.dataRes.post r }).setListener s j
        (.sendData d (sys.resSize r) pr.dataRes.msgs.length))
    else none
  | .sendData d len q =>
    if sys.eager len || decide (q < (st.pair d s).dataRes.taken) then some (st.setListener s j .idle) else none

/-- One step, if it is possible. Nothing is said about what happens after a failure. -/
def step (sys : Sys n α β W) (st : St n L α β W) (l : Label n L) : Option (St n L α β W) :=
  if st.bad then none else
  match l with
  | .start c => start sys st c
  | .post c s => post sys st c s
  | .sent c => sent sys st c
  | .size c s => size st c s
  | .sized c => sized st c
  | .data c s => data sys st c s
  | .finish c => finish st c
  | .listen s j c => listen st s j c
  | .listener s j => listener sys st s j

/-- An execution. -/
def run (sys : Sys n α β W) : St n L α β W → List (Label n L) → Option (St n L α β W)
  | st, [] => some st
  | st, l :: ls => step sys st l >>= fun st' => run sys st' ls

/-- No messages under way; each client has something to do. -/
def init (w : W) (prog : Fin n → List (Act n α)) : St n L α β W :=
  ⟨w, fun c => ⟨prog c, .ready, []⟩, fun _ _ => .idle, fun _ _ => .init, [], false⟩

end Hx.Mpi

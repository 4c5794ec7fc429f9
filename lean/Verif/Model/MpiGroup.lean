import Mathlib.Logic.Function.Basic
import Verif.Base.Bytes

/-!
# The buffers of the MPI endpoint group

`EndpointGroup::return_msgs` (include/transport/backend/MPI/EndpointGroup.tpp:331-371) with its arrays
`lens`, `dsts` and `srvs`, which are allocated once and used by all calls, and so by all threads of a
rank (include/transport/backend/MPI/EndpointGroup.hpp:66-70).

* A call is a list of instructions; instructions of two threads are interleaved in any way. There is no
  lock. The accesses of one instruction are atomic, which is more than C++ promises.
* `MPI_Isend` reads its buffer at once, and a message that is received is written when it is waited for.
* Messages between two ranks with one tag arrive in the order they were sent, and are given to receives
  in the order those were posted. A range server answers its requests in order, in any way.
* Packing, unpacking and MPI calls succeed, and the session is not closed.
-/

namespace Hx.MpiGroup
open Function (update)

/-- What all calls share: the length of the arrays (the number of ranks), the ranks of ids (`ranks`), and
the range servers: the answer of a rank to the last of the requests, given as sizes and data. -/
structure Group where
  size : Nat
  ranks : Int → Option Int
  answer : Int → List Nat → List Bytes → Bytes

/-- The arrays, the messages sent to range servers with their ranks, and the receives posted for the
sizes and the data of responses. -/
structure Net where
  lens : Nat → Nat
  dsts : Nat → Int
  srvs : Nat → Int
  sizes : List (Int × Nat)
  datas : List (Int × Bytes)
  sizeRecvs : List Int
  dataRecvs : List Int

/-- The local variables of a call: the requests, each with `msg->dst` and packed; where `dst_it` points
to; `data_count`; the receives of sizes: place in `lens`, rank, and how many receives from that rank were
posted before; the receives of data: length of the buffer instead of the place; the buffers; what was
unpacked. -/
structure Call where
  msgs : List (Int × Bytes)
  dst : Option Int
  sent : Nat
  sizeReqs : List (Nat × Int × Nat)
  dataReqs : List (Nat × Int × Nat)
  bufs : List Bytes
  got : List Bytes

def Call.new (msgs : List (Int × Bytes)) : Call := ⟨msgs, none, 0, [], [], [], []⟩

/-- The bodies of the loops: packing (lines 33-51), sending the size and the data (lines 61-98), receiving
the sizes (lines 194-211), waiting for them (219-241), receiving the data (255-272), waiting for them
(280-299), unpacking (314-322). -/
inductive Instr where
  | pack (i : Nat)
  | sizeTo (i : Nat)
  | dataTo (i : Nat)
  | recvSize (i : Nat)
  | sizeIn (i : Nat)
  | recvData (i : Nat)
  | dataIn (i : Nat)
  | unpack (i : Nat)
deriving DecidableEq

/-- The messages for one rank. -/
def toRank {γ : Type} (l : List (Int × γ)) (r : Int) : List γ := (l.filter (fun x => decide (x.1 = r))).map (·.2)

/-- Response number `t` of a rank, once it has the request. -/
def response (g : Group) (s : Net) (r : Int) (t : Nat) : Option Bytes :=
  if t < (toRank s.sizes r).length ∧ t < (toRank s.datas r).length then
    some (g.answer r ((toRank s.sizes r).take (t + 1)) ((toRank s.datas r).take (t + 1)))
  else none

/-- One instruction. `err`: the thread has to wait. Undefined: an index behind the end of an array, sending
more than the buffer has, a message that is longer than the buffer, unpacking more than the buffer has. -/
def exec (g : Group) (s : Net) (c : Call) : Instr → Out (Net × Call)
  | .pack i =>
    match c.msgs[i]? with
    | none => .ok (s, c)
    | some m =>
      if i < g.size then .ok ({ s with lens := update s.lens i m.2.length, dsts := update s.dsts i m.1 }, c) else .ub
  | .sizeTo i =>
    if i < c.msgs.length then
      match g.ranks (s.dsts i) with
      | none => .ok (s, { c with dst := none })
      | some r => .ok ({ s with sizes := s.sizes ++ [(r, s.lens i)] }, { c with dst := some r })
    else .ok (s, c)
  | .dataTo i =>
    match c.dst, c.msgs[i]? with
    | some r, some m =>
      if s.lens i ≤ m.2.length then
        .ok ({ s with datas := s.datas ++ [(r, m.2.take (s.lens i))], srvs := update s.srvs c.sent r }, { c with sent := c.sent + 1 })
      else .ub
    | _, _ => .ok (s, c)
  | .recvSize i =>
    if i < c.sent then
      match g.ranks (s.srvs i) with
      | none => .ok (s, c)
      | some r =>
        .ok ({ s with sizeRecvs := s.sizeRecvs ++ [r] }, { c with sizeReqs := c.sizeReqs ++ [(i, r, s.sizeRecvs.count r)] })
    else .ok (s, c)
  | .sizeIn i =>
    match c.sizeReqs[i]? with
    | none => .ok (s, c)
    | some (j, r, t) =>
      match response g s r t with
      | none => .err
      | some p => .ok ({ s with lens := update s.lens j p.length }, c)
  | .recvData i =>
    if i < c.sizeReqs.length then
      match g.ranks (s.srvs i) with
      | none => .ok (s, c)
      | some r =>
        .ok ({ s with dataRecvs := s.dataRecvs ++ [r] }, { c with dataReqs := c.dataReqs ++ [(s.lens i, r, s.dataRecvs.count r)] })
    else .ok (s, c)
  | .dataIn i =>
    match c.dataReqs[i]? with
    | none => .ok (s, c)
    | some (len, r, t) =>
      match response g s r t with
      | none => .err
      | some p =>
        -- what is behind the message is not initialized
        if p.length ≤ len then .ok (s, { c with bufs := c.bufs ++ [p ++ List.replicate (len - p.length) 0] }) else .ub
  | .unpack i =>
    match c.bufs[i]? with
    | none => .ok (s, c)
    | some b => if s.lens i ≤ b.length then .ok (s, { c with got := c.got ++ [b.take (s.lens i)] }) else .ub

/-- `return_msgs` for `k` requests. Loops with fewer iterations do nothing in the others. -/
def returnMsgs (k : Nat) : List Instr :=
  (List.range k).map .pack ++ (List.range k).flatMap (fun i => [.sizeTo i, .dataTo i]) ++
  (List.range k).map .recvSize ++ (List.range k).map .sizeIn ++
  (List.range k).map .recvData ++ (List.range k).map .dataIn ++ (List.range k).map .unpack

/-- One thread executes instructions while the others do nothing. -/
def run (g : Group) : Net × Call → List Instr → Out (Net × Call)
  | x, [] => .ok x
  | x, i :: l => exec g x.1 x.2 i >>= fun y => run g y l

/-- Calls one after the other, and what each of them returns. -/
def calls (g : Group) : Net → List (List (Int × Bytes)) → Out (Net × List (List Bytes))
  | s, [] => .ok (s, [])
  | s, msgs :: l =>
    run g (s, Call.new msgs) (returnMsgs msgs.length) >>= fun x => calls g x.1 l >>= fun y => .ok (y.1, x.2.got :: y.2)

/-- Two threads: the second executes the instructions marked with `true`. -/
def run2 (g : Group) : Net × Call × Call → List (Bool × Instr) → Out (Net × Call × Call)
  | x, [] => .ok x
  | (s, a, b), (false, i) :: l => exec g s a i >>= fun y => run2 g (y.1, y.2, b) l
  | (s, a, b), (true, i) :: l => exec g s b i >>= fun y => run2 g (y.1, a, y.2) l

end Hx.MpiGroup

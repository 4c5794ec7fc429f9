import Verif.Model.Message

/-!
# Queueing operations: `src/hxhim/ops/*.cpp`

* A packet is the list of its operations, a queue the list of its packets, and the vector of
  queues of one kind of operation a list indexed by datastore.
* The hash function is a parameter: from the bytes of subject and predicate to a datastore, negative
  for failure. `Hash.hxhimHash` gives the built-in ones; the user may supply others.
* A null pointer with a nonzero length is not read by every hash function, but here hashing it is
  undefined for all of them.
* Statistics are added in `Model/Stats`; log messages are not modelled, locking is left to the model of
  asynchronous PUTs.
-/

namespace Hx.Queue
open Hx Msg

/-- What queueing reads from the session: the hash function, `queues.max_per_request.ops`,
`queues.max_per_request.size` and `range_server.total_range_servers`. -/
structure Cfg where
  hash : Bytes → Bytes → Out Int
  maxOps : Nat
  maxSize : Nat
  servers : Nat

/-- The unsent operations (include/hxhim/private/hxhim.hpp:80-103); the indices are datastore,
packet, operation. `putCount` is `queues.puts.count`. -/
structure Queues where
  puts : List (List (List PutItem))
  putCount : Nat
  gets : List (List (List GetItem))
  getops : List (List (List GetOpItem))
  dels : List (List (List DelItem))
  hists : List (List (List Blob))
  deriving Repr, DecidableEq

/-- `init::queues` (src/hxhim/init.cpp:53-80): one queue per datastore. -/
def Queues.init (total : Nat) : Queues :=
  ⟨List.replicate total [], 0, List.replicate total [], List.replicate total [], List.replicate total [],
    List.replicate total []⟩

/-- `setup_packet` (src/hxhim/ops/impl.cpp:36-49): the queue whose last packet takes the next
operation. `size` is the size of an operation in a message. -/
def setupPacket {α : Type} (c : Cfg) (size : α → Nat) (additional : Nat) (q : List (List α)) : List (List α) :=
  match q.getLast? with
  | none => q ++ [[]]
  | some last =>
    if c.maxOps ≤ last.length then q ++ [[]]
    else if c.maxSize ≠ 0 ∧ c.maxSize < headerSize + (last.map size).sum + additional then q ++ [[]]
    else q

/-- `add` to the last packet, which has room for `maxOps` operations (`new_request`,
src/hxhim/ops/impl.cpp:19-25; src/message/SubjectPredicate.cpp:12-30). Writing behind the arrays is
undefined. -/
def addLast {α : Type} (c : Cfg) (x : α) (q : List (List α)) : Out (List (List α)) :=
  match q.getLast? with
  | none => .ub
  | some last => if c.maxOps ≤ last.length then .ub else .ok (q.dropLast ++ [last ++ [x]])

/-- Add an operation to queue number `id`; there is no bounds check. -/
def enqueue {α : Type} (c : Cfg) (size : α → Nat) (additional : Nat) (x : α) (id : Int)
    (qs : List (List (List α))) : Out (List (List (List α))) :=
  match qs[id.toNat]? with
  | none => .ub
  | some q => addLast c x (setupPacket c size additional q) >>= fun q => .ok (qs.set id.toNat q)

/-- The memory of the blob can be read. -/
def readable (b : Blob) : Bool := b.addr != 0 || b.bytes.isEmpty

/-- `hxhim_hash` (src/hxhim/hash.cpp:17-30). -/
def hashOf (c : Cfg) (s p : Blob) : Out Int := if readable s && readable p then c.hash s.bytes p.bytes else .ub

/-! ## PUT -/

/-- `HXHIM_PUT_SPO` ... `HXHIM_PUT_OPS` (include/hxhim/constants.h:48-53). -/
def putSPO : Nat := 0x01
def putSOP : Nat := 0x02
def putPSO : Nat := 0x04
def putPOS : Nat := 0x08
def putOSP : Nat := 0x10
def putOPS : Nat := 0x20

/-- `HXHIM_PUT_PERMUTATIONS` (src/hxhim/hxhim.cpp:14-21). -/
def putPermutations : List Nat := [putSPO, putSOP, putPSO, putPOS, putOSP, putOPS]

/-- The `switch` of `PutImpl` (src/hxhim/ops/impl.cpp:124-157). -/
def permute (perm : Nat) (s p o : Blob) : Option (Blob × Blob × Blob) :=
  if perm = putSPO then some (s, p, o)
  else if perm = putSOP then some (s, o, p)
  else if perm = putPSO then some (p, s, o)
  else if perm = putPOS then some (p, o, s)
  else if perm = putOSP then some (o, s, p)
  else if perm = putOPS then some (o, p, s)
  else none

/-- The loop of `PutImpl` over the remaining permutations (src/hxhim/ops/impl.cpp:115-188). The
flag is the return value; what was queued before an error stays queued. -/
def putLoop (c : Cfg) (s p o : Blob) (mask : Nat) : List Nat → Queues → Out (Queues × Bool)
  | [], q => .ok (q, true)
  | perm :: perms, q =>
    if mask &&& perm = 0 then putLoop c s p o mask perms q
    else
      match permute perm s p o with
      | none => .ok (q, false)
      | some (s', p', o') =>
        hashOf c s' p' >>= fun id =>
        if id < 0 then .ok (q, false)
        else
          enqueue c PutItem.size (blobSize s' true + blobSize p' true + blobSize o' true)
            (PutItem.make s' p' o') id q.puts >>= fun puts =>
          putLoop c s p o mask perms { q with puts := puts, putCount := q.putCount + 1 }

/-- Arguments of one PUT. -/
structure PutArg where
  s : Blob
  p : Blob
  o : Blob
  mask : Nat
  deriving Repr, DecidableEq

/-- `PutImpl` (src/hxhim/ops/impl.cpp:107-194). -/
def putImpl (c : Cfg) (q : Queues) (a : PutArg) : Out (Queues × Bool) := putLoop c a.s a.p a.o a.mask putPermutations q

/-! ## The other operations -/

structure GetArg where
  s : Blob
  p : Blob
  t : Nat
  deriving Repr, DecidableEq

structure GetOpArg where
  s : Blob
  p : Blob
  t : Nat
  n : Nat
  op : Nat
  deriving Repr, DecidableEq

structure DelArg where
  s : Blob
  p : Blob
  deriving Repr, DecidableEq

structure HistArg where
  rs : Int
  name : Blob
  deriving Repr, DecidableEq

/-- `GetImpl` (src/hxhim/ops/impl.cpp:209-229) with `get_packet` (65-92). -/
def getImpl (c : Cfg) (q : Queues) (a : GetArg) : Out (Queues × Bool) :=
  hashOf c a.s a.p >>= fun id =>
  if id < 0 then .ok (q, false)
  else
    enqueue c GetItem.size (blobSize a.s true + blobSize a.p true) (GetItem.make a.s a.p a.t) id q.gets >>=
      fun gets => .ok ({ q with gets := gets }, true)

/-- `GetOpImpl` (src/hxhim/ops/impl.cpp:246-266). -/
def getOpImpl (c : Cfg) (q : Queues) (a : GetOpArg) : Out (Queues × Bool) :=
  hashOf c a.s a.p >>= fun id =>
  if id < 0 then .ok (q, false)
  else
    enqueue c GetOpItem.size (blobSize a.s true + blobSize a.p true) ⟨a.op, a.s, a.p, a.t, a.n⟩ id q.getops >>=
      fun getops => .ok ({ q with getops := getops }, true)

/-- `DeleteImpl` (src/hxhim/ops/impl.cpp:280-299). -/
def delImpl (c : Cfg) (q : Queues) (a : DelArg) : Out (Queues × Bool) :=
  hashOf c a.s a.p >>= fun id =>
  if id < 0 then .ok (q, false)
  else
    enqueue c DelItem.size (blobSize a.s true + blobSize a.p true) (DelItem.make a.s a.p) id q.dels >>=
      fun dels => .ok ({ q with dels := dels }, true)

/-- `HistogramImpl` (src/hxhim/ops/impl.cpp:312-342): the number of the range server is the index of
the queue. -/
def histImpl (c : Cfg) (q : Queues) (a : HistArg) : Out (Queues × Bool) :=
  enqueue c histNameSize (blobSize a.name false) a.name a.rs q.hists >>=
    fun hists => .ok ({ q with hists := hists }, true)

/-! ## User calls -/

/-- Pointer not null and length not zero. -/
def given (b : Blob) : Bool := b.addr != 0 && !b.bytes.isEmpty

/-- The range check of `Histogram` (src/hxhim/ops/HISTOGRAM.cpp:14-18). -/
def rsOk (c : Cfg) (rs : Int) : Bool := 0 ≤ rs && rs < (c.servers : Int)

/-- The calls of the user that queue operations. `arrays` says that none of the array pointers of a
bulk call is null. -/
inductive Call where
  | put (a : PutArg)
  | get (a : GetArg)
  | getop (a : GetOpArg)
  | del (a : DelArg)
  | hist (a : HistArg)
  | bput (arrays : Bool) (l : List PutArg)
  | bget (arrays : Bool) (l : List GetArg)
  | bgetop (arrays : Bool) (l : List GetOpArg)
  | bdel (arrays : Bool) (l : List DelArg)
  | bhist (arrays : Bool) (l : List HistArg)

/-- The loop of a bulk call: return values are ignored. -/
def bulk {α : Type} (f : Queues → α → Out (Queues × Bool)) : List α → Queues → Out Queues
  | [], q => .ok q
  | a :: l, q => f q a >>= fun r => bulk f l r.1

/-- A call while the session is running (`started`, src/hxhim/private.cpp:91-93): `Put`
(src/hxhim/ops/PUT.cpp:19-56), `Get` (GET.cpp:19-39), `GetOp` (GETOP.cpp:19-41), `Delete`
(DELETE.cpp:16-34), `Histogram` (HISTOGRAM.cpp:12-33), `BPut` (BPUT.cpp:20-59), `BGet`
(BGET.cpp:19-45), `BGetOp` (BGETOP.cpp:20-49), `BDelete` (BDELETE.cpp:18-41), `BHistogram`
(BHISTOGRAM.cpp:13-45). The flag is whether `HXHIM_SUCCESS` is returned. -/
def exec (c : Cfg) (q : Queues) : Call → Out (Queues × Bool)
  | .put a => if given a.s && given a.p && given a.o then putImpl c q a else .ok (q, false)
  | .get a => if given a.s && given a.p then getImpl c q a else .ok (q, false)
  | .getop a => if given a.s then getOpImpl c q a else .ok (q, false)
  | .del a => if given a.s && given a.p then delImpl c q a else .ok (q, false)
  | .hist a => if rsOk c a.rs then histImpl c q a else .ok (q, false)
  | .bput arrays l => if arrays then bulk (putImpl c) l q >>= fun q => .ok (q, true) else .ok (q, false)
  | .bget arrays l => if arrays then bulk (getImpl c) l q >>= fun q => .ok (q, true) else .ok (q, false)
  | .bgetop arrays l => if arrays then bulk (getOpImpl c) l q >>= fun q => .ok (q, true) else .ok (q, false)
  | .bdel arrays l => if arrays then bulk (delImpl c) l q >>= fun q => .ok (q, true) else .ok (q, false)
  | .bhist arrays l =>
    if arrays && l.all (fun a => rsOk c a.rs) then bulk (histImpl c) l q >>= fun q => .ok (q, true)
    else .ok (q, false)

/-- A call in any state of the session. -/
def call (c : Cfg) (started : Bool) (q : Queues) (x : Call) : Out (Queues × Bool) :=
  if started then exec c q x else .ok (q, false)

/-- Calls one after the other. -/
def calls (c : Cfg) (started : Bool) (q : Queues) : List Call → Out Queues
  | [] => .ok q
  | x :: l => call c started q x >>= fun r => calls c started r.1 l

/-! ## Single-type bulk calls (src/hxhim/ops/single_type.cpp) -/

/-- The queueing part of `BPutSingleType` (src/hxhim/ops/single_type.cpp:7-33): subject and predicate
type arrays are not checked; what follows the loop (35-40) is in the model of processing. -/
def bputSingle (c : Cfg) (q : Queues) (arrays typeArrays : Bool) (l : List PutArg) (t : Nat) : Out (Queues × Bool) :=
  if arrays then
    if typeArrays = false ∧ l ≠ [] then .ub
    else bulk (putImpl c) (l.map (fun a => { a with o := { a.o with typ := t } })) q >>= fun q => .ok (q, true)
  else .ok (q, false)

/-- `BGetSingleType` (src/hxhim/ops/single_type.cpp:62-91). -/
def bgetSingle (c : Cfg) (q : Queues) (arrays typeArrays : Bool) (l : List GetArg) (t : Nat) : Out (Queues × Bool) :=
  if arrays then
    if typeArrays = false ∧ l ≠ [] then .ub
    else bulk (getImpl c) (l.map (fun a => { a with t := t })) q >>= fun q => .ok (q, true)
  else .ok (q, false)

/-- `BGetOpSingleType` (src/hxhim/ops/single_type.cpp:105-137): refuses a non-null `ops` array and
dereferences a null one. -/
def bgetopSingle (_ : Cfg) (q : Queues) (arrays opsArray : Bool) (l : List GetOpArg) (_ : Nat) : Out (Queues × Bool) :=
  if arrays = false ∨ opsArray = true then .ok (q, false)
  else if l = [] then .ok (q, true) else .ub

end Hx.Queue

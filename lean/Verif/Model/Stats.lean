import Verif.Model.Process
import Verif.Model.Config
import Verif.Model.Fp

/-!
# Statistics of a session: `src/hxhim/Stats.cpp`, `include/hxhim/private/Stats.hpp`

* `std::map`s by kind of operation are functions of the kind. A list that has been created has an
  element, so a kind exists in the map exactly when its list is not empty.
* `transport` and `incoming` are never filled.
* Time stamps are the nanoseconds a call took. Doubles and long doubles are exact.
* Queueing and sending are those of `Model/Queue` and `Model/Process`, in a session that is running.
-/

namespace Hx.Stats
open Hx Msg Queue Process Results
open Hx.Config (str)
open Hx.Elen (toDec)

/-- `hxhim_op_t` (include/hxhim/constants.h:69-82) without `HXHIM_INVALID`. -/
inductive Kind where
  | put | get | getop | del | sync | hist
  deriving Repr, DecidableEq

/-- The order of the enumeration. -/
def kinds : List Kind := [.put, .get, .getop, .del, .sync, .hist]

/-- `HXHIM_OP_STR` (src/hxhim/hxhim.cpp:25-27). -/
def Kind.name : Kind → Bytes
  | .put => str "HXHIM_PUT"
  | .get => str "HXHIM_GET"
  | .getop => str "HXHIM_GETOP"
  | .del => str "HXHIM_DELETE"
  | .sync => str "HXHIM_SYNC"
  | .hist => str "HXHIM_HISTOGRAM"

/-- `Global` (include/hxhim/private/Stats.hpp:15-41). A map from datastores to numbers is the list of
its pairs. -/
structure Global where
  single : Kind → List Nat
  bulk : Kind → List Nat
  used : Kind → List Nat
  outgoing : Kind → List (Nat × Nat)

def Global.init : Global := ⟨fun _ => [], fun _ => [], fun _ => [], fun _ => []⟩

/-- `map[k].push_back(n)`. -/
def push (f : Kind → List Nat) (k : Kind) (n : Nat) : Kind → List Nat := fun k' => if k' = k then f k ++ [n] else f k'

/-- `map[d]++`. -/
def bump (d : Nat) : List (Nat × Nat) → List (Nat × Nat)
  | [] => [(d, 1)]
  | (e, n) :: l => if d < e then (d, 1) :: (e, n) :: l else if d = e then (e, n + 1) :: l else (e, n) :: bump d l

/-! ## Packets -/

/-- One packet of `process` (include/hxhim/private/process.hpp:74-75). -/
def note {α : Type} (k : Kind) (g : Global) (x : Nat × List α) : Global :=
  { g with
    used := push g.used k x.2.length
    outgoing := fun k' => if k' = k then bump x.1 (g.outgoing k) else g.outgoing k' }

/-- The packets of the rounds of `process` (include/hxhim/private/process.hpp:43-82). -/
def collect {α : Type} (k : Kind) : Nat → List (List (List α)) → Global → Global
  | 0, _, g => g
  | fuel + 1, qs, g =>
    if remaining qs = 0 then g else collect k fuel (popped qs) ((fronts 0 qs).foldl (note k) g)

def collected {α : Type} (k : Kind) (qs : List (List (List α))) (g : Global) : Global := collect k (remaining qs + 1) qs g

/-- The flush functions of the kinds of operations (src/hxhim/ops/FLUSH.cpp); nothing is queued for
SYNC. -/
def flush {σ : Type} (net : Net) (serve : Server σ) (k : Kind) (s : σ) (q : Queues) (g : Global) : Out (σ × Queues × Global) :=
  match k with
  | .put => flushPuts net serve s q >>= fun x => .ok (x.1, x.2.2, collected .put q.puts g)
  | .get => flushGets net serve s q >>= fun x => .ok (x.1, x.2.2, collected .get q.gets g)
  | .getop => flushGetOps net serve s q >>= fun x => .ok (x.1, x.2.2, collected .getop q.getops g)
  | .del => flushDels net serve s q >>= fun x => .ok (x.1, x.2.2, collected .del q.dels g)
  | .sync => .ok (s, q, g)
  | .hist => flushHists net serve s q >>= fun x => .ok (x.1, x.2.2, collected .hist q.hists g)

/-! ## Calls -/

/-- Where a call leaves its time, unless it returns before: `Put` (src/hxhim/ops/PUT.cpp:25-54), `Get`
(GET.cpp:37), `GetOp` (GETOP.cpp:39), `Delete` (DELETE.cpp:32), `Histogram` (HISTOGRAM.cpp:30), `BPut`
(BPUT.cpp:57), `BGet` (BGET.cpp:43), `BGetOp` (BGETOP.cpp:47), `BDelete` (BDELETE.cpp:39), `BHistogram`
(BHISTOGRAM.cpp:43). What the call returns does not matter. -/
def timed (c : Cfg) (ns : Nat) (g : Global) : Call → Global
  | .put a => if given a.s && given a.p && given a.o then { g with single := push g.single .put ns } else g
  | .get a => if given a.s && given a.p then { g with single := push g.single .get ns } else g
  | .getop a => if given a.s then { g with bulk := push g.bulk .getop ns } else g
  | .del a => if given a.s && given a.p then { g with single := push g.single .del ns } else g
  | .hist a => if rsOk c a.rs then { g with single := push g.single .hist ns } else g
  | .bput arrays _ => if arrays then { g with bulk := push g.bulk .put ns } else g
  | .bget arrays _ => if arrays then { g with bulk := push g.bulk .get ns } else g
  | .bgetop arrays _ => if arrays then { g with bulk := push g.bulk .getop ns } else g
  | .bdel arrays _ => if arrays then { g with bulk := push g.bulk .del ns } else g
  | .bhist arrays l => if arrays && l.all (fun a => rsOk c a.rs) then { g with bulk := push g.bulk .hist ns } else g

/-- What a user does: calls that queue operations, with the time they take, and flushes. -/
inductive Act where
  | call (x : Call) (ns : Nat)
  | flush (k : Kind)

/-- The actions one after the other. -/
def run {σ : Type} (c : Cfg) (net : Net) (serve : Server σ) : List Act → σ → Queues → Global → Out (σ × Queues × Global)
  | [], s, q, g => .ok (s, q, g)
  | .call x ns :: l, s, q, g => Queue.exec c q x >>= fun r => run c net serve l s r.1 (timed c ns g x)
  | .flush k :: l, s, q, g => flush net serve k s q g >>= fun x => run c net serve l x.1 x.2.1 x.2.2

/-! ## Printing -/

/-- The kinds of a map, in the order of iteration. -/
def present {α : Type} (f : Kind → List α) : List Kind := kinds.filter fun k => !(f k).isEmpty

/-- The lines of `single_op` and `bulk_op` (src/hxhim/Stats.cpp:18-31,37-50). -/
def opLines (ind : Bytes) (f : Kind → List Nat) : Bytes :=
  (present f).flatMap fun k =>
    ind ++ ind ++ k.name ++ str " count: " ++ toDec (f k).length ++ str " duration: " ++
      Fp.fixed 3 ((f k).sum / 1000000000) ++ str " seconds\n"

/-- The lines of `used` (src/hxhim/Stats.cpp:56-64). -/
def usedLines (ind : Bytes) (maxOps : Nat) (f : Kind → List Nat) : Bytes :=
  (present f).flatMap fun k =>
    let avg : ℚ := (f k).sum / (f k).length
    ind ++ ind ++ k.name ++ str " count: " ++ toDec (f k).length ++ str " average filled: " ++ Fp.fixed 3 avg ++ str "/" ++
      toDec maxOps ++ str " (" ++ Fp.fixed 3 (100 * avg / maxOps) ++ str "%)\n"

/-- The lines of `outgoing` (src/hxhim/Stats.cpp:70-76). -/
def outgoingLines (ind : Bytes) (f : Kind → List (Nat × Nat)) : Bytes :=
  (present f).flatMap fun k => (f k).flatMap fun x =>
    ind ++ ind ++ k.name ++ str " -> " ++ toDec x.1 ++ str ": " ++ toDec x.2 ++ str "\n"

/-- A `std::ostream`: whether `std::fixed` is set, its precision, and what was written. -/
structure Stream where
  isFixed : Bool
  precision : Nat
  text : Bytes
  deriving Repr, DecidableEq

/-- `Global::print` (src/hxhim/Stats.cpp:6-80): the flags are restored, the precision is not one of
them. -/
def print (ind : Bytes) (maxOps : Nat) (g : Global) (s : Stream) : Stream :=
  let flags := s.isFixed
  let s := { s with isFixed := true, precision := 3 }
  let s := { s with text := s.text ++ ind ++ str "Single Ops:\n" ++ opLines ind g.single }
  let s := { s with text := s.text ++ ind ++ str "Bulk Ops:\n" ++ opLines ind g.bulk }
  let s := { s with text := s.text ++ ind ++ str "Average Message Packet Fill Rate:\n" ++ usedLines ind maxOps g.used }
  let s := { s with text := s.text ++ ind ++ str "Outgoing:\n" ++ outgoingLines ind g.outgoing }
  { s with isFixed := flags }

end Hx.Stats

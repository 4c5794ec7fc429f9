import Verif.Model.SpoGen
import Verif.Model.Job

/-!
# `examples/hxhim/hx.c`: every rank PUTs doubles and GETs them back

* Asynchronous PUTs are disabled (`START_ASYNC_PUT_AT` 0), so nothing is sent before a flush.
* What is printed is left out. The doubles are any bytes.
-/

namespace Hx.HxProgram
open Hx Process SpoGen

/-- `bufsize` (examples/hxhim/hx.c:12). -/
def bufsize : Nat := 100

/-- Where the arrays of a rank have their elements, and its doubles (examples/hxhim/hx.c:74-89). -/
structure Memory where
  subjectAt : Nat → Nat
  predicateAt : Nat → Nat
  doubleAt : Nat → Nat
  doubles : Nat → Bytes

/-- A call for each of the triples from `i` on; it reads the generated subject and predicate. -/
def each (f : Nat → Bytes → Bytes → Queue.Call) (rank : Int) : Nat → Nat → Out (List Queue.Call)
  | _, 0 => .ok []
  | i, n + 1 =>
    (fixed bufsize (name subject rank i)).read >>= fun s =>
    (fixed bufsize (name predicate rank i)).read >>= fun p =>
    each f rank (i + 1) n >>= fun l => .ok (f i s p :: l)

/-- The PUTs (examples/hxhim/hx.c:100-105): `hxhimPutDouble` is `Put` with eight bytes of type double (src/hxhim/ops/double.cpp:20-31),
in the order `HXHIM_PUT_SPO` only. -/
def puts (m : Memory) (rank : Int) (count : Nat) : Out (List Queue.Call) :=
  each (fun i s p => .put ⟨⟨m.subjectAt i, s, Store.tByte⟩, ⟨m.predicateAt i, p, Store.tByte⟩, ⟨m.doubleAt i, m.doubles i, Store.tDouble⟩,
    Queue.putSPO⟩) rank 0 count

/-- The GETs (examples/hxhim/hx.c:125-129, 177-181): `hxhimGetDouble` is `Get` for type double (src/hxhim/ops/double.cpp:67-74). -/
def gets (m : Memory) (rank : Int) (count : Nat) : Out (List Queue.Call) :=
  each (fun i s p => .get ⟨⟨m.subjectAt i, s, Store.tByte⟩, ⟨m.predicateAt i, p, Store.tByte⟩, Store.tDouble⟩) rank 0 count

/-- The first GETs of a rank (examples/hxhim/hx.c:99-131): all PUTs and GETs are queued, only the GETs are flushed. -/
def early (cb : Store.Callbacks) (heap total : Nat) (cfg : Queue.Cfg) (net : Net) (w : World) (puts gets : List Queue.Call) :
    Out (World × Results.Results × Queue.Queues) :=
  Queue.calls cfg true (Queue.Queues.init total) puts >>= fun q =>
  Queue.calls cfg true q gets >>= fun q => flushGets net (World.serve cb heap) w q

/-- The PUTs are flushed (examples/hxhim/hx.c:146-148). -/
def middle (cb : Store.Callbacks) (heap : Nat) (net : Net) (w : World) (q : Queue.Queues) : Out (World × Results.Results × Queue.Queues) :=
  flushPuts net (World.serve cb heap) w q

/-- The GETs are queued again, and everything is flushed (examples/hxhim/hx.c:176-189). -/
def late (cb : Store.Callbacks) (heap : Nat) (cfg : Queue.Cfg) (net : Net) (w : World) (q : Queue.Queues) (gets : List Queue.Call) :
    Out (World × Results.Results × Queue.Queues) :=
  Queue.calls cfg true q gets >>= fun q => flush net (World.serve cb heap) w q

/-- The flushes of a rank, each with the calls whose operations it sends. -/
structure RankTurns where
  early : Job.Turn
  middle : Job.Turn
  late : Job.Turn

def rankTurns (cfg : Queue.Cfg) (net : Net) (m : Memory) (rank : Int) (count : Nat) : Out RankTurns :=
  puts m rank count >>= fun p => gets m rank count >>= fun g => .ok ⟨⟨cfg, net, g⟩, ⟨cfg, net, p⟩, ⟨cfg, net, g⟩⟩

/-- The flushes of all ranks from rank `r` on. -/
def ranksTurns (session : Nat → Queue.Cfg × Net) (m : Nat → Memory) (count : Nat) : Nat → Nat → Out (List RankTurns)
  | _, 0 => .ok []
  | r, n + 1 =>
    rankTurns (session r).1 (session r).2 (m r) r count >>= fun x =>
    ranksTurns session m count (r + 1) n >>= fun l => .ok (x :: l)

/-- The flushes of the program on `n` ranks: those between the first two barriers, those up to the next barrier (examples/hxhim/hx.c:150),
and those at the end. -/
def program (session : Nat → Queue.Cfg × Net) (m : Nat → Memory) (count n : Nat) : Out (List Job.Turn) :=
  ranksTurns session m count 0 n >>= fun l => .ok (l.map (·.early) ++ l.map (·.middle) ++ l.map (·.late))

end Hx.HxProgram

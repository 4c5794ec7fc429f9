import Verif.Model.Store
import Verif.Model.Config
import Verif.Model.Fp

/-!
# Statistics of a datastore

Each packet a datastore processes leaves events (`Stats::Event`,
include/datastore/datastore.hpp:130-143): how long it took, how many operations it was and how many
bytes were involved. They are read by `GetStats` and by the messages of the destructor. The
datastore itself is that of `Model/Store`, which only has the lengths of the lists of events.

Simplifications: clocks are arguments, as are the bytes counted for a GETOP; DELETE events, which
nothing reads, are left out; `long double`s are exact, sums are unbounded.
-/

namespace Hx.DsStats
open Hx Msg Store
open Hx.Config (str)
open Hx.Elen (toDec)

/-- `Stats::Event` (include/datastore/datastore.hpp:131-137), with the nanoseconds it took. -/
structure Event where
  time : Nat
  count : Nat
  size : Nat
  deriving Repr, DecidableEq

/-- `Stats` (include/datastore/datastore.hpp:130-143): `getops` is never filled. -/
structure Stats where
  puts : List Event
  gets : List Event
  deriving Repr, DecidableEq

/-- What is not decided by the packet: the success of LevelDB's `Write`, the nanoseconds spent, and
the nanoseconds and bytes of each GETOP. -/
structure Machine where
  wr : Bool
  time : Nat
  ops : Nat → Nat × Nat

/-- The bytes counted by `BPutImpl` (src/datastore/InMemory.cpp:76, src/datastore/LevelDB.cpp:106). -/
def putSize (cb : Callbacks) : List PutItem → Out Nat
  | [] => .ok 0
  | x :: l =>
    encodeTriple cb x.subject x.predicate x.object >>= fun kv =>
    putSize cb l >>= fun n =>
    match kv with
    | some kv => .ok (kv.1.length + kv.2.length + n)
    | none => .ok n

/-- The bytes counted by `BGetImpl` (src/datastore/InMemory.cpp:142-147,
src/datastore/LevelDB.cpp:193). `objs` are the sizes of the objects the response has so far: the
object of an item is only added to the response after its size was read from there. -/
def getSize (b : Backend) (cb : Callbacks) (heap : Nat) (db : Db) : List Nat → List GetItem → Out Nat
  | _, [] => .ok 0
  | objs, x :: l =>
    encodeKey cb x.subject x.predicate >>= fun k =>
    getItem cb heap db x >>= fun r =>
    getSize b cb heap db (objs ++ [r.object.bytes.length]) l >>= fun n =>
    let o := if r.status = dsSuccess then objs.getD objs.length 0 else 0
    match b, k with
    | .mem, some k => .ok (o + k.length + n)
    | _, _ => .ok (o + n)

/-- The bytes counted by `operate(BHistogram)` (src/datastore/datastore.cpp:195-198). -/
def histSize (hs : Map Hist) : List Blob → Nat
  | [] => 0
  | x :: l => (match find hs x.bytes with | some h => h.packSize | none => 0) + histSize hs l

/-- The events of `BGetOpImpl`, one for each operation (src/datastore/InMemory.cpp:347-349,
src/datastore/LevelDB.cpp:389-391). -/
def opEvents (ops : Nat → Nat × Nat) : Nat → List GetOpRes → List Event
  | _, [] => []
  | i, r :: l => ⟨(ops i).1, r.recs.length, (ops i).2⟩ :: opEvents ops (i + 1) l

/-- The events of a packet (src/datastore/InMemory.cpp:49-51,95-96,109-111,167-168,
src/datastore/LevelDB.cpp, src/datastore/datastore.cpp:180-205); a datastore that is not usable
only processes HISTOGRAMs. -/
def record (cb : Callbacks) (heap : Nat) (m : Machine) (d : DS) (st : Stats) (req : ReqBody) (res : Option ResBody) :
    Out Stats :=
  match req with
  | .put l => if d.usable then putSize cb l >>= fun n => .ok { st with puts := st.puts ++ [⟨m.time, l.length, n⟩] } else .ok st
  | .get l =>
    if d.usable then
      getSize d.backend cb heap d.db [] l >>= fun n => .ok { st with gets := st.gets ++ [⟨m.time, l.length, n⟩] }
    else .ok st
  | .getop _ =>
    match res with
    | some (.getop rs) => .ok { st with gets := st.gets ++ opEvents m.ops 0 rs }
    | _ => .ok st
  | .del _ => .ok st
  | .hist l => .ok { st with gets := st.gets ++ [⟨m.time, l.length, histSize d.hists l⟩] }

/-- A datastore with its statistics processing packets one after the other. -/
def run (cb : Callbacks) (heap : Nat) : DS → Stats → List (Machine × ReqBody) → Out (DS × Stats × List (Option ResBody))
  | d, st, [] => .ok (d, st, [])
  | d, st, x :: l =>
    d.operate cb heap x.1.wr x.2 >>= fun r =>
    record cb heap x.1 d st x.2 r.2 >>= fun st =>
    run cb heap r.1 st l >>= fun t => .ok (t.1, t.2.1, r.2 :: t.2.2)

/-- `GetStats` (src/datastore/datastore.cpp:338-366). -/
def getStats (st : Stats) : Nat × Nat × Nat × Nat :=
  ((st.puts.map Event.time).sum, st.puts.length, (st.gets.map Event.time).sum, st.gets.length)

/-! ## The destructor -/

/-- A `long double` that is not negative. -/
inductive Ld where
  | num (q : ℚ)
  | inf
  | nan

/-- Division of a `size_t` by a time. -/
def perTime (n : Nat) (t : ℚ) : Ld := if t = 0 then (if n = 0 then .nan else .inf) else .num (n / t)

/-- `std::fixed << std::setprecision(3)`, `%.3Lf`. The quotient 0 / 0 has its sign bit set on x86. -/
def text : Ld → Bytes
  | .num q => Fp.fixed 3 q
  | .inf => str "inf"
  | .nan => str "-nan"

/-- `UNITS` (src/datastore/datastore.cpp:32). -/
def units : List Bytes := [str "B", str "KB", str "MB", str "GB", str "TB", str "PB"]

/-- `(rate / 1024) > 1`. -/
def Ld.large : Ld → Bool
  | .num q => decide (1 < q / 1024)
  | .inf => true
  | .nan => false

/-- `rate /= 1024`. -/
def Ld.down : Ld → Ld
  | .num q => .num (q / 1024)
  | x => x

/-- The loop of `hr_size` (src/datastore/datastore.cpp:35-39), `left = UNIT_COUNT - i`. -/
def unitLoop : Nat → Ld → Nat → Ld × Nat
  | 0, r, i => (r, i)
  | left + 1, r, i => if r.large then unitLoop left r.down (i + 1) else (r, i)

/-- `hr_size` (src/datastore/datastore.cpp:30-44). -/
def hrSize (size : Nat) (time : ℚ) : Out Bytes :=
  let x := unitLoop units.length (perTime size time) 0
  match units[x.2]? with
  | some u => .ok (text x.1 ++ u ++ str "/sec")
  | none => .ub

/-- `sec` (src/utils/Stats.cpp:28-30). -/
def sec (ns : Nat) : ℚ := ns / 1000000000

/-- The sums the destructor makes (src/datastore/datastore.cpp:52-68). -/
def totals (l : List Event) : ℚ × Nat × Nat :=
  l.foldl (fun t e => (t.1 + sec e.time, t.2.1 + e.count, t.2.2 + e.size)) (0, 0, 0)

/-- One of the two messages of the destructor (src/datastore/datastore.cpp:70-82), `name` is `PUT`
or `GET`; the arguments are only evaluated when the message is wanted. -/
def closing (rank id : Nat) (name : Bytes) (l : List Event) : Out Bytes :=
  let t := totals l
  let head := str "Rank " ++ toDec rank ++ str " Datastore " ++ toDec id ++ str ": " ++ toDec t.2.1 ++ str " " ++ name ++
    str "s (" ++ toDec t.2.2 ++ str " bytes) in " ++ Fp.fixed 3 t.1 ++ str " seconds"
  if t.2.1 = 0 then .ok head
  else hrSize t.2.2 t.1 >>= fun r =>
    .ok (head ++ str " (" ++ text (perTime t.2.1 t.1) ++ str " " ++ name ++ str "s/sec, " ++ r ++ str ")")

end Hx.DsStats

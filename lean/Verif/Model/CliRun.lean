import Verif.Model.Cli
import Verif.Model.Process

/-!
# Running commands and printing results: `examples/hxhim/cli.cpp`, `examples/hxhim/print_results.c`

* The data of the commands stay where they were read to, until the last command has run. `addr` gives the addresses of
  subject, predicate and object of each command. Asynchronous PUTs are disabled.
* `print_results` calls an accessor for each part of the result at the iterator; here the parts are those of the
  results the loop visits (C33, C34).
* `printf` follows glibc. A number that is printed is read as a whole, and a string of 2 GB or more is undefined.
-/

namespace Hx.Cli
open Hx Spec Store Elen Results
open Hx.Config (str)

/-! ## Printing -/

/-- `%d` and the like. -/
def decText (v : Int) : Bytes := if v < 0 then 45 :: toDec v.natAbs else toDec v.natAbs

def hexDigit (n : Nat) : UInt8 := UInt8.ofNat (if n < 10 then 48 + n else 87 + n)

/-- `%x`, at most `k` digits. -/
def hexText : Nat → Nat → Bytes
  | 0, _ => []
  | k + 1, n => if n < 16 then [hexDigit n] else hexText k (n / 16) ++ [hexDigit (n % 16)]

/-- `%.*f` of the number with the given bit pattern. -/
def fltText (f : Fp.Fmt) (prec x : Nat) : Bytes :=
  let neg := decide (x / 2 ^ (f.w + f.p) % 2 = 1)
  (if neg then [45] else []) ++
    match ieee f.w f.p x with
    | .nan => str "nan"
    | .inf _ => str "inf"
    | .fin _ q => Fp.fixed prec q

/-- Reading a number of `n` bytes. -/
def word (b : Blob) (n : Nat) : Out Bytes := if b.addr = 0 ∨ b.bytes.length < n then .ub else .ok (b.bytes.take n)

/-- `print_by_type` (print_results.c:9-42). -/
def printByType (b : Blob) : Out Bytes :=
  if b.typ = 0 then .ok (str "Invalid Type: 0 (" ++ toDec b.bytes.length ++ str " bytes)")
  else if b.typ = tInt32 then word b 4 >>= fun m => .ok (decText (ofMem int32 m))
  else if b.typ = tInt64 then word b 8 >>= fun m => .ok (decText (ofMem int64 m))
  else if b.typ = tUint32 then word b 4 >>= fun m => .ok (decText (ofMem int32 m))
  else if b.typ = tUint64 then word b 8 >>= fun m => .ok (decText (ofMem int64 m))
  else if b.typ = tFloat then word b 4 >>= fun m => .ok (fltText Fp.flt 9 (leVal m))
  else if b.typ = tDouble then word b 8 >>= fun m => .ok (fltText Fp.dbl 17 (leVal m))
  else if b.typ = tByte then
    if 2 ^ 31 ≤ b.bytes.length then .ub else .ok (b.bytes.takeWhile fun c => c != 0)
  else if b.typ = tPointer then .ok (if b.addr = 0 then str "(nil)" else str "0x" ++ hexText 16 b.addr)
  else .ok (str "Unknown Type: " ++ decText b.typ ++ str " (" ++ toDec b.bytes.length ++ str " bytes)")

/-- The blob a result refers to. -/
def deref (read : Nat → Nat → Bytes) : Datum → Blob
  | .ref r => ⟨r.addr, read r.addr r.len, r.typ⟩
  | .own b => b

/-- `hxhim_op_t` (include/hxhim/constants.h:70-77). -/
def opNumber : Kind → Nat
  | .put => 0 | .get => 1 | .getop => 2 | .del => 3 | .sync => 4 | .hist => 5

/-- Subject and predicate in braces. -/
def printPair (read : Nat → Nat → Bytes) (x : Result) : Out Bytes :=
  printByType (deref read x.subject) >>= fun s =>
  printByType (deref read x.predicate) >>= fun p => .ok (str "{" ++ s ++ str ", " ++ p ++ str "}")

/-- One result (print_results.c:80-120). -/
def printResult (read : Nat → Nat → Bytes) (x : Result) : Out Bytes :=
  let server := str " from range server " ++ decText x.rs ++ [10]
  let status := str " returned " ++ (if x.status = hxSuccess then str "SUCCESS" else str "ERROR")
  match x.kind with
  | .put => printPair read x >>= fun t => .ok (str "PUT          " ++ t ++ status ++ server)
  | .del => printPair read x >>= fun t => .ok (str "DEL          " ++ t ++ status ++ server)
  | .get | .getop =>
    if x.status = hxSuccess then
      printPair read x >>= fun t =>
      printByType (deref read x.object) >>= fun o => .ok (str "GET returned " ++ t ++ str " -> " ++ o ++ server)
    else .ok (str "GET returned ERROR" ++ server)
  | k => .ok (str "Bad Operation: " ++ toDec (opNumber k) ++ [10])

/-- The texts of some results. -/
def printList (read : Nat → Nat → Bytes) : List Result → Out Bytes
  | [] => .ok []
  | x :: l => printResult read x >>= fun a => printList read l >>= fun b => .ok (a ++ b)

/-- `print_results` (print_results.c:44-123) without the rank. -/
def printResults (read : Nat → Nat → Bytes) (r : Results) : Out Bytes :=
  visit (r.size + 1) r.goToHead >>= printList read

/-! ## Running -/

/-- `HXHIM_PUT_ALL` (include/hxhim/constants.h:54-56). -/
def putAll : Nat := 0x3f

/-- The call of a command that queues an operation (cli.cpp:313-341). -/
def call (addr : Nat → Nat) : Item → Option Queue.Call
  | .put s p o => some (.put ⟨⟨addr 0, s.bytes, s.typ⟩, ⟨addr 1, p.bytes, p.typ⟩, ⟨addr 2, o.bytes, o.typ⟩, putAll⟩)
  | .get s p t => some (.get ⟨⟨addr 0, s.bytes, s.typ⟩, ⟨addr 1, p.bytes, p.typ⟩, t⟩)
  | .getop s p t n op => some (.getop ⟨⟨addr 0, s.bytes, s.typ⟩, ⟨addr 1, p.bytes, p.typ⟩, t, n, op⟩)
  | .del s p => some (.del ⟨⟨addr 0, s.bytes, s.typ⟩, ⟨addr 1, p.bytes, p.typ⟩⟩)
  | _ => none

/-- The session the commands are run in, and the memory of the program. -/
structure Host (σ : Type) where
  cfg : Queue.Cfg
  net : Process.Net
  serve : Process.Server σ
  addr : Nat → Nat → Nat
  read : Nat → Nat → Bytes

variable {σ : Type}

/-- The flush of a command that flushes (cli.cpp:342-353). -/
def flushOf (h : Host σ) (s : σ) (q : Queue.Queues) : Item → Out (σ × Results × Queue.Queues)
  | .flushPuts => Process.flushPuts h.net h.serve s q
  | .flushGets => Process.flushGets h.net h.serve s q
  | .flushDels => Process.flushDels h.net h.serve s q
  | _ => Process.flush h.net h.serve s q

/-- Command number `i` (cli.cpp:308-364): what is printed, and whether it counts as successful. -/
def exec (h : Host σ) (i : Nat) (x : Item) (s : σ) (q : Queue.Queues) : Out (σ × Queue.Queues × Bytes × Bool) :=
  match call (h.addr i) x with
  | some c => Queue.call h.cfg true q c >>= fun r => .ok (s, r.1, [], r.2)
  | none => flushOf h s q x >>= fun r => printResults h.read r.2.1 >>= fun t => .ok (r.1, r.2.2, t, true)

/-- `run_commands` (cli.cpp:305-370): what is printed, and how many commands were successful. -/
def run (h : Host σ) : Nat → List Item → σ → Queue.Queues → Out (σ × Queue.Queues × Bytes × Nat)
  | _, [], s, q => .ok (s, q, [], 0)
  | i, x :: l, s, q =>
    exec h i x s q >>= fun r =>
    run h (i + 1) l r.1 r.2.1 >>= fun t => .ok (t.1, t.2.1, r.2.2.1 ++ t.2.2.1, t.2.2.2 + if r.2.2.2 then 1 else 0)

/-- Rank 0 of the program (cli.cpp:439-444). -/
def main (h : Host σ) (text : Bytes) (s : σ) (q : Queue.Queues) : Out (σ × Queue.Queues × Bytes) :=
  let cmds := (parse text).1
  run h 0 cmds s q >>= fun r => .ok (r.1, r.2.1, str "Read " ++ toDec cmds.length ++ str " valid commands\n" ++ r.2.2.1)

end Hx.Cli

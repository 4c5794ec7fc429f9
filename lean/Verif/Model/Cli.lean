import Verif.Model.Config
import Verif.Model.Fp

/-!
# Reading commands: `examples/hxhim/cli.cpp`

* Streams follow libstdc++ in the "C" locale: a stream is what remains to be read, a read that fails sets the
  fail bit, after which nothing of the line is read. Reading a decimal fraction gives the nearest number.
* What is written to the standard error stream is kept as the reason and the line.
* The members of a command that its operation does not use are left out.
-/

namespace Hx.Cli
open Hx Spec Store Elen
open Hx.Config (str takeWord isSpace getLines)

/-- `HXHIM_OP` (cli.cpp:13-26) without the variants for several items. -/
inductive Verb where
  | put | get | getop | del | flushPuts | flushGets | flushDels | flush
  deriving Repr, DecidableEq

/-- `USER2OP` (cli.cpp:43-56); the flag says that the name is of an operation on several items. -/
def verbs : List (Bytes × Verb × Bool) :=
  [(str "PUT", .put, false), (str "BPUT", .put, true), (str "GET", .get, false), (str "BGET", .get, true),
    (str "GETOP", .getop, false), (str "BGETOP", .getop, true), (str "DEL", .del, false), (str "BDEL", .del, true),
    (str "FLUSHPUTS", .flushPuts, false), (str "FLUSHGETS", .flushGets, false), (str "FLUSHDELS", .flushDels, false),
    (str "FLUSH", .flush, false)]

/-- `USER2OT` (cli.cpp:58-66). -/
def types : List (Bytes × Nat) :=
  [(str "INT32", tInt32), (str "INT64", tInt64), (str "UINT32", tUint32), (str "UINT64", tUint64),
    (str "FLOAT", tFloat), (str "DOUBLE", tDouble), (str "BYTE", tByte)]

/-- `USER2GETOP` (cli.cpp:68-75). -/
def getops : List (Bytes × Nat) :=
  [(str "EQ", Msg.goEq), (str "NEXT", Msg.goNext), (str "PREV", Msg.goPrev), (str "FIRST", Msg.goFirst), (str "LAST", Msg.goLast)]

/-- `std::map::find`. -/
def find {α : Type} (m : List (Bytes × α)) (k : Bytes) : Option α := (m.find? fun x => x.1 == k).map Prod.snd

/-! ## Extraction -/

/-- `stream >> x`: the value and what remains, or the fail bit. -/
abbrev Reader (α : Type) := Bytes → Option (α × Bytes)

/-- A sign, if there is one. -/
def takeSign : Bytes → Bool × Bytes
  | 45 :: u => (true, u)
  | 43 :: u => (false, u)
  | u => (false, u)

/-- `std::num_get` for integers, base 10: sign and magnitude. -/
def takeNumber : Reader (Bool × Nat) := fun s =>
  let t := takeSign (s.dropWhile isSpace)
  let ds := t.2.takeWhile Config.isDigit
  if ds.isEmpty then none else some ((t.1, Config.digits ds), t.2.dropWhile Config.isDigit)

/-- `stream >> i` for an integer type. Numbers that do not fit set the fail bit; the negative of an unsigned number
is taken modulo the type. -/
def takeInt (t : IntType) : Reader Int := fun s =>
  match takeNumber s with
  | none => none
  | some ((neg, n), rest) =>
    if t.signed then
      let v : Int := if neg then -(n : Int) else n
      if t.min ≤ v ∧ v ≤ t.max then some (v, rest) else none
    else if t.max < n then none
    else some (if neg then ((2 ^ (8 * t.width) - n : Nat) % 2 ^ (8 * t.width) : Nat) else n, rest)

/-- The exponent of a decimal fraction: nothing if there is none, the fail bit if it has no digits. -/
def takeExp (s : Bytes) : Option (Int × Bytes) :=
  match s with
  | c :: u =>
    if c = 101 ∨ c = 69 then
      let t := takeSign u
      let ds := t.2.takeWhile Config.isDigit
      if ds.isEmpty then none
      else some (if t.1 then -(Config.digits ds : Int) else Config.digits ds, t.2.dropWhile Config.isDigit)
    else some (0, s)
  | [] => some (0, [])

/-- The decimal point and the digits behind it. -/
def takeFrac (s : Bytes) : Bytes × Bytes :=
  match s with
  | 46 :: u => (u.takeWhile Config.isDigit, u.dropWhile Config.isDigit)
  | _ => ([], s)

/-- `stream >> x` for a floating point type (`std::num_get`, then `strtof` or `strtod` of what was accepted). Numbers
that are too large set the fail bit. -/
def takeFloat (f : Fp.Fmt) : Reader Ieee := fun s =>
  let t := takeSign (s.dropWhile isSpace)
  let whole := t.2.takeWhile Config.isDigit
  let frac := takeFrac (t.2.dropWhile Config.isDigit)
  if (whole ++ frac.1).isEmpty then none
  else
    match takeExp frac.2 with
    | none => none
    | some (e, rest) =>
      match f.round t.1 ((Config.digits (whole ++ frac.1) : ℚ) * 10 ^ (e - frac.1.length)) with
      | .fin neg q => some (.fin neg q, rest)
      | _ => none

/-- A word that is a key of a map (for types `operator>>`, cli.cpp:107-120). -/
def takeKey {α : Type} (m : List (Bytes × α)) : Reader α := fun s =>
  match takeWord s with
  | none => none
  | some (w, rest) => (find m w).map fun x => (x, rest)

/-- `operator>>` for a blob (cli.cpp:122-180): a type and a value of the type. -/
def takeBlob : Reader Val := fun s =>
  match takeKey types s with
  | none => none
  | some (t, s) =>
    match intType t with
    | some it => (takeInt it s).map fun x => (⟨toMem it x.1, t⟩, x.2)
    | none =>
      if t = tByte then (takeWord s).map fun x => (⟨x.1, t⟩, x.2)
      else (takeFloat (Fp.fmtOf t) s).map fun x => (⟨leBytes (Fp.fmtOf t).size ((Fp.fmtOf t).bits x.1), t⟩, x.2)

/-! ## Commands -/

/-- `UserInput` (cli.cpp:182-191). -/
inductive Item where
  | put (s p o : Val)
  | get (s p : Val) (t : Nat)
  | getop (s p : Val) (t n op : Nat)
  | del (s p : Val)
  | flushPuts
  | flushGets
  | flushDels
  | flush
  deriving Repr, DecidableEq

/-- The arguments of one operation (cli.cpp:237-290). -/
def takeItem : Verb → Reader Item
  | .put, s =>
    takeBlob s >>= fun a => takeBlob a.2 >>= fun b => takeBlob b.2 >>= fun c => some (.put a.1 b.1 c.1, c.2)
  | .get, s =>
    takeBlob s >>= fun a => takeBlob a.2 >>= fun b => takeKey types b.2 >>= fun c => some (.get a.1 b.1 c.1, c.2)
  | .getop, s =>
    takeBlob s >>= fun a => takeBlob a.2 >>= fun b => takeKey types b.2 >>= fun c =>
    takeInt uint64 c.2 >>= fun d => takeKey getops d.2 >>= fun e => some (.getop a.1 b.1 c.1 d.1.toNat e.1, e.2)
  | .del, s => takeBlob s >>= fun a => takeBlob a.2 >>= fun b => some (.del a.1 b.1, b.2)
  | .flushPuts, s => some (.flushPuts, s)
  | .flushGets, s => some (.flushGets, s)
  | .flushDels, s => some (.flushDels, s)
  | .flush, s => some (.flush, s)

/-- The loop over the items of a line (cli.cpp:233-299): what was read, and whether everything was. -/
def takeItems (v : Verb) : Nat → Bytes → List Item × Bool
  | 0, _ => ([], true)
  | n + 1, s =>
    match takeItem v s with
    | none => ([], false)
    | some (x, rest) => (x :: (takeItems v n rest).1, (takeItems v n rest).2)

/-- What is written about a line (cli.cpp:216,227,293-294). -/
inductive Complaint where
  | operation (name : Bytes)
  | count (line : Bytes)
  | format (line : Bytes) (v : Verb) (bulk : Bool)
  deriving Repr, DecidableEq

/-- One line (cli.cpp:206-300). -/
def parseLine (line : Bytes) : List Item × Option Complaint :=
  match takeWord line with
  | none => ([], none)
  | some (w, s) =>
    match find verbs w with
    | none => ([], some (.operation w))
    | some (v, bulk) =>
      match if bulk then takeInt uint64 s else some (1, s) with
      | none => ([], some (.count line))
      | some (n, s) =>
        let r := takeItems v n.toNat s
        (r.1, if r.2 then none else some (.format line v bulk))

/-- `parse_commands` (cli.cpp:203-303). -/
def parse (text : Bytes) : List Item × List Complaint :=
  let l := (getLines [] text).map parseLine
  (l.flatMap Prod.fst, l.filterMap Prod.snd)

end Hx.Cli

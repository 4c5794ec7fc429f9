import Verif.Base.Bytes

/-!
# Reading configurations: `src/utils/Configuration.cpp`, `include/utils/Configuration.hpp`

* A configuration is a function from keys to values. The iteration order of the unordered map is not
  used by the code modelled here.
* The locale is "C". `std::isspace` of a negative `char`, undefined by the standard, is false here,
  as it is with glibc.
* The file system and the environment are given by functions; a file that cannot be opened is one
  that does not exist.
* Extraction of numbers, words, characters and booleans from a string stream follows libstdc++.
-/

namespace Hx.Config
open Hx

/-- The bytes of an ASCII string literal. -/
def str (s : String) : Bytes := s.toList.map fun c => c.toNat.toUInt8

/-- `Config::Config` (include/utils/Configuration.hpp:18). -/
abbrev Map := Bytes → Option Bytes

/-- `config[key] = value`. -/
def Map.set (m : Map) (key value : Bytes) : Map := fun k => if k = key then some value else m k

/-- `config.clear()`. -/
def Map.empty : Map := fun _ => none

/-- `std::isspace`. -/
def isSpace (b : UInt8) : Bool := b == 32 || (9 ≤ b && b ≤ 13)

/-- Repeated `std::getline(stream, line)`: the lines end at `'\n'`, the last one may end at the end of
the stream, but then it is not empty. -/
def getLines (acc : Bytes) : Bytes → List Bytes
  | [] => if acc.isEmpty then [] else [acc]
  | b :: bs => if b = 10 then acc :: getLines [] bs else getLines (acc ++ [b]) bs

/-- Removal of leading and trailing white space (src/utils/Configuration.cpp:80-92). In a string of
white space `rhs - lhs` wraps around, and `substr` stops at the end of the string. -/
def trim (v : Bytes) : Bytes :=
  let lhs := (v.takeWhile isSpace).length
  let rhs := v.length - (v.reverse.takeWhile isSpace).length
  if rhs < lhs then v.drop lhs else (v.drop lhs).take (rhs - lhs)

/-- `stream >> word` for a `std::string`: what is read, and what remains in the stream. Nothing is
read, and the string is left alone, if only white space remains. -/
def takeWord (s : Bytes) : Option (Bytes × Bytes) :=
  let t := s.dropWhile isSpace
  if t.isEmpty then none else some (t.takeWhile fun b => !isSpace b, t.dropWhile fun b => !isSpace b)

/-- One line of `parse_kv_stream` (src/utils/Configuration.cpp:69-94). -/
def parseLine (config : Map) (line : Bytes) : Map :=
  match takeWord line with
  | none => config
  | some (key, rest) => if key.head? = some 35 then config else config.set key (trim rest)

/-- `parse_kv_stream` (src/utils/Configuration.cpp:64-99); the count is not modelled, nobody uses it. -/
def parseKV (config : Map) (text : Bytes) : Map := (getLines [] text).foldl parseLine config

/-- What is outside the program: files by name, environment variables by name. -/
structure Sys where
  files : Bytes → Option Bytes
  env : Bytes → Option Bytes

/-- The readers (include/utils/Configuration.hpp:74-132); `Directory` has no implementation. -/
inductive Reader where
  | file (name : Bytes)
  | envFile (var : Bytes)
  | envVar (var key : Bytes)

/-- Reading a file: the stream of a missing file yields no line. -/
def readFile (sys : Sys) (config : Map) (name : Bytes) : Map :=
  match sys.files name with
  | none => config
  | some text => parseKV config text

/-- `File::process`, `EnvironmentFile::process`, `EnvironmentVar::process`
(src/utils/Configuration.cpp:108-144). -/
def Reader.process (sys : Sys) (config : Map) : Reader → Map
  | .file name => readFile sys config name
  | .envFile var =>
    match sys.env var with
    | none => config
    | some name => readFile sys config name
  | .envVar var key =>
    match sys.env var with
    | none => config
    | some v => config.set key v

/-- `Sequence::process` (src/utils/Configuration.cpp:45-52). -/
def sequence (sys : Sys) (rs : List Reader) : Map := rs.foldl (Reader.process sys) Map.empty

/-! ## Extraction from a string stream -/

/-- `std::stringstream(s) >> v` for a `std::string`. -/
def readWord (s : Bytes) : Option Bytes := (takeWord s).map Prod.fst

/-- `std::stringstream(s) >> c` for a `char`. -/
def readChar (s : Bytes) : Option UInt8 := (s.dropWhile isSpace).head?

/-- A decimal digit. -/
def isDigit (b : UInt8) : Bool := 48 ≤ b && b ≤ 57

/-- The value of a string of digits. -/
def digits (ds : Bytes) : Nat := ds.foldl (fun n d => 10 * n + (d.toNat - 48)) 0

/-- The sign and magnitude read by `>>` for an integer: optional sign, then as many digits as there
are (`std::num_get`, base 10). -/
def readNumber (s : Bytes) : Option (Bool × Nat) :=
  let t := s.dropWhile isSpace
  let (neg, u) := match t with
    | 45 :: u => (true, u)
    | 43 :: u => (false, u)
    | u => (false, u)
  let ds := u.takeWhile isDigit
  if ds.isEmpty then none else some (neg, digits ds)

/-- `std::stringstream(s) >> n` for a `std::size_t`; a negative number is negated modulo 2^64. -/
def readSize (s : Bytes) : Option Nat :=
  match readNumber s with
  | none => none
  | some (neg, n) => if 2 ^ 64 ≤ n then none else some (if neg then (2 ^ 64 - n) % 2 ^ 64 else n)

/-- `std::stringstream(s) >> i` for an `int`. -/
def readInt (s : Bytes) : Option Int :=
  match readNumber s with
  | none => none
  | some (true, n) => if 2 ^ 31 < n then none else some (-(n : Int))
  | some (false, n) => if 2 ^ 31 ≤ n then none else some (n : Int)

/-- `::tolower` in the "C" locale. -/
def toLower (b : UInt8) : UInt8 := if 65 ≤ b && b ≤ 90 then b + 32 else b

/-- `get_value<bool>` of a text (src/utils/Configuration.cpp:155-166): `std::boolalpha`. -/
def readBool (s : Bytes) : Option Bool :=
  let t := (s.map toLower).dropWhile isSpace
  if (str "true").isPrefixOf t then some true
  else if (str "false").isPrefixOf t then some false
  else none

/-- Outcome of `get_value` and `get_from_map`: `FOUND` with the value, `NOT_FOUND`, `ERROR`
(include/utils/Configuration.hpp:13-15). -/
inductive Found (α : Type) where
  | found (a : α)
  | notFound
  | error
  deriving Repr, DecidableEq

/-- `get_value` (include/utils/Configuration.hpp:143-151). -/
def getValue {α : Type} (read : Bytes → Option α) (config : Map) (key : Bytes) : Found α :=
  match config key with
  | none => .notFound
  | some s =>
    match read s with
    | none => .error
    | some a => .found a

/-- `get_from_map` (include/utils/Configuration.hpp:175-192). -/
def getFromMap {α : Type} (config : Map) (key : Bytes) (table : List (Bytes × α)) : Found α :=
  getValue (fun s => table.lookup s) config key

end Hx.Config

import Verif.Base.Order

/-!
# Lexicographic number encoding: `include/utils/elen.tpp`

Characters are bytes. `neg` and `pos` are the two sign symbols (`NumericExtra::neg/pos`,
src/datastore/transform.cpp:8-13; defaults include/utils/elen.hpp:21-22).
-/

namespace Hx.Elen

/-- `'0' + d`. -/
def digitChar (d : Nat) : UInt8 := UInt8.ofNat (48 + d)

/-- `std::isdigit`. -/
def isDigit (c : UInt8) : Bool := 48 ≤ c.toNat && c.toNat ≤ 57

/-- `std::to_string` of a non-negative integer (standard library, assumed decimal without leading
zeros). -/
def toDec (n : Nat) : Bytes :=
  if n < 10 then [digitChar n] else toDec (n / 10) ++ [digitChar (n % 10)]
termination_by n

/-- One character of `flip` (include/utils/elen.tpp:4-10): digits become `9 - digit`. -/
def flipChar (c : UInt8) : UInt8 := if isDigit c then 57 - c + 48 else c

/-- `flip` (include/utils/elen.tpp:4-10). -/
def flip (s : Bytes) : Bytes := s.map flipChar

theorem length_toDec_pos (n : Nat) : 0 < (toDec n).length := by
  unfold toDec; split <;> simp

theorem length_toDec_le (n : Nat) : (toDec n).length ≤ n + 1 := by
  induction n using Nat.strongRecOn with
  | _ n ih =>
    unfold toDec
    split
    · simp
    · have := ih (n / 10) (by omega)
      simp; omega

theorem length_toDec_lt {n : Nat} (h : 2 ≤ (toDec n).length) : (toDec n).length < n := by
  unfold toDec at h ⊢
  split at h
  · simp at h
  · rename_i h10
    rw [if_neg h10]
    have := length_toDec_le (n / 10)
    simp; omega

/-- `encode::unique` (include/utils/elen.tpp:15-38) for a non-negative value: the prefix symbol,
the encoding of the number of digits when there is more than one, the digits (flipped if the
prefix is the negative symbol). -/
def unique (pre neg : UInt8) (value : Nat) : Bytes :=
  if value = 0 then [48]
  else
    let str := toDec value
    pre :: ((if _h : 2 ≤ str.length then unique pre neg str.length else [])
      ++ (if pre = neg then flip str else str))
termination_by value
decreasing_by exact length_toDec_lt (by assumption)

/-- `encode::integers` (include/utils/elen.tpp:41-52) on a mathematical integer, for values whose
negation is representable. -/
def encInt (neg pos : UInt8) (v : Int) : Bytes :=
  if v < 0 then unique neg neg v.natAbs
  else if 0 < v then unique pos neg v.natAbs
  else [48]

/-- The integer types the library registers (src/datastore/transform.cpp:18-29): width in bytes
and signedness. -/
structure IntType where
  width : Nat
  signed : Bool
  deriving Repr, DecidableEq

def int32 : IntType := ⟨4, true⟩
def int64 : IntType := ⟨8, true⟩
def uint32 : IntType := ⟨4, false⟩
def uint64 : IntType := ⟨8, false⟩

/-- Smallest value of the type. -/
def IntType.min (t : IntType) : Int := if t.signed then -(2 ^ (8 * t.width - 1) : Nat) else 0
/-- Largest value of the type. -/
def IntType.max (t : IntType) : Int :=
  if t.signed then (2 ^ (8 * t.width - 1) : Nat) - 1 else (2 ^ (8 * t.width) : Nat) - 1

/-- `encode::integers<T>` with its precondition: `-value` (line 45) overflows when `value` is the
smallest value of a signed type, which is undefined behaviour. -/
def encodeInteger (neg pos : UInt8) (t : IntType) (v : Int) : Out Bytes :=
  if v < 0 ∧ t.max < -v then .ub else .ok (encInt neg pos v)

/-- `std::istream >> unsigned/signed integer` on a string: the value of the longest prefix of
digits, `none` (failbit) when there is no digit.
Simplification: leading blanks and signs, which the encoder never produces, are not skipped. -/
def parseNum (s : Bytes) : Option Nat :=
  match s.takeWhile isDigit with
  | [] => none
  | ds => some (ds.foldl (fun acc c => 10 * acc + (c.toNat - 48)) 0)

/-- `decode::next<T>` (include/utils/elen.tpp:222-245), `max` being the largest value of `T`.
Returns the number read and the new position. `substr` throws when `position` is past the end;
`operator>>` fails on overflow. -/
def next (pre neg : UInt8) (str : Bytes) (position len : Nat) (max : Nat) : Out (Nat × Nat) :=
  if str.length < position then .err
  else
    let strLen := (str.drop position).take len
    let strLen := if pre = neg then flip strLen else strLen
    match parseNum strLen with
    | none => .err
    | some v => if max < v then .err else .ok (v, position + len)

/-- `get_prefix_count` (include/utils/elen.tpp:194-220) on a non-empty string. -/
def getPrefixCount (pre : UInt8) (str : Bytes) (neg pos : UInt8) : Out Nat :=
  if str.head? = some 48 then .ok 0
  else if pre ≠ pos ∧ pre ≠ neg then .err
  else
    let count := (str.takeWhile (· == pre)).length
    match str[count]? with
    | none => .err
    | some c => if isDigit c then .ok count else .err

/-- The loop of `decode::integers` that reads the nested lengths
(include/utils/elen.tpp:267-272), `k` iterations; `std::size_t` maximum `2^64 - 1`. Returns
(length, position). -/
def lengths (pre neg : UInt8) (str : Bytes) : Nat → Nat → Nat → Out (Nat × Nat)
  | 0, len, position => .ok (len, position)
  | k + 1, len, position => do
    let (len', position') ← next pre neg str position len (2 ^ 64 - 1)
    lengths pre neg str k len' position'

/-- `decode::integers<T>` (include/utils/elen.tpp:248-285). Returns the value and the number of
characters used (`*prefix_len`). With a prefix count of 0 the loop bound `prefix_count - 1` wraps
to `2^64 - 1`; the first iteration reads the leading `0` as a length and the second reads an empty
string and throws, so the outcome is an error. -/
def decodeInt (neg pos : UInt8) (t : IntType) (str : Bytes) : Out (Int × Nat) :=
  match str with
  | [] => .err
  | [c] => if c = 48 then .ok (0, 1) else .err
  | pre :: _ => do
    let count ← getPrefixCount pre str pos neg
    if count = 0 then .err
    else
      let (len, position) ← lengths pre neg str (count - 1) 1 count
      let (v, _) ← next pre neg str position len t.max.toNat
      .ok (if pre = neg then -(v : Int) else v, position + len)

/-- Bytes of an integer of type `t` in memory (two's complement, little endian). -/
def toMem (t : IntType) (v : Int) : Bytes := leBytes t.width (v % (2 ^ (8 * t.width) : Nat)).toNat

/-- Integer of type `t` in memory. -/
def ofMem (t : IntType) (m : Bytes) : Int :=
  let u := leVal m
  if t.signed ∧ 2 ^ (8 * t.width - 1) ≤ u then (u : Int) - (2 ^ (8 * t.width) : Nat) else u

/-- `Transform::encode::integers<T>` (include/datastore/transform.tpp:21-35): the source is read as
a `T` whatever size the caller gave, so a short buffer is read past its end. -/
def encodeMem (neg pos : UInt8) (t : IntType) (src : Bytes) : Out Bytes :=
  if src.length < t.width then .ub
  else encodeInteger neg pos t (ofMem t (src.take t.width))

/-- `Transform::decode::integers<T>` (include/datastore/transform.tpp:59-78). -/
def decodeMem (neg pos : UInt8) (t : IntType) (src : Bytes) : Out Bytes := do
  let (v, _) ← decodeInt neg pos t src
  .ok (toMem t v)

end Hx.Elen

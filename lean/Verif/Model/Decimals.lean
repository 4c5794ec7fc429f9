import Verif.Model.Fp

/-!
# The C interface of the encoder: `include/utils/elen.h`, `src/utils/elen.cpp`, `include/utils/elen.tpp`

Integers of one and two bytes, small decimals, large decimals and the comparison of strings. Integers of four and
eight bytes are in `Verif/Model/Elen.lean`, floating point numbers in `Verif/Model/Fp.lean`, which also states what
is assumed of streams: printing with a fixed number of digits is exact and rounds ties to even, reading gives the
nearest number. Strings for C have no zeros.
-/

namespace Hx.Elen

def int8 : IntType := ⟨1, true⟩
def int16 : IntType := ⟨2, true⟩
def uint8 : IntType := ⟨1, false⟩
def uint16 : IntType := ⟨2, false⟩

/-- `encode::integers<T>` (include/utils/elen.tpp:41-52) for types smaller than `int`: `-value` is an `int`, which is
converted to `T` for `unique` (15-38). For the smallest value that gives the value itself, which is negative: no
prefix is written for it, but one for the number of characters of its text, the minus sign included. -/
def encodeNarrow (neg pos : UInt8) (t : IntType) (v : Int) : Bytes :=
  if v < 0 ∧ t.max < -v then
    unique neg neg (45 :: toDec v.natAbs).length ++ flip (45 :: toDec v.natAbs)
  else encInt neg pos v

/-- `isspace`. -/
def isSpace (c : UInt8) : Bool := (9 ≤ c.toNat && c.toNat ≤ 13) || c = 32

/-- `decode::next<T>` (include/utils/elen.tpp:222-245) for types of one byte, which a stream reads as characters. -/
def nextChar (pre neg : UInt8) (str : Bytes) (position len : Nat) : Out (UInt8 × Nat) :=
  if str.length < position then .err
  else
    let strLen := (str.drop position).take len
    let strLen := if pre = neg then flip strLen else strLen
    match strLen.dropWhile isSpace with
    | [] => .err
    | c :: _ => .ok (c, position + len)

/-- Conversion to an integer type. -/
def wrap (t : IntType) (v : Int) : Int := ofMem t (toMem t v)

/-- `decode::integers<T>` (include/utils/elen.tpp:248-285) for types of one byte. -/
def decodeByte (neg pos : UInt8) (t : IntType) (str : Bytes) : Out (Int × Nat) :=
  match str with
  | [] => .err
  | [c] => if c = 48 then .ok (0, 1) else .err
  | pre :: _ => do
    let count ← getPrefixCount pre str pos neg
    if count = 0 then .err
    else
      let (len, position) ← lengths pre neg str (count - 1) 1 count
      let (c, _) ← nextChar pre neg str position len
      .ok (wrap t (if pre = neg then -(c.toNat : Int) else c.toNat), position + len)

/-- A `char`, which is signed. -/
def schar (c : UInt8) : Int := if c.toNat < 128 then c.toNat else (c.toNat : Int) - 256

/-- `lex_comp` for C (src/utils/elen.cpp:120-137), on the characters of two strings. -/
def lexComp : Bytes → Bytes → Bool
  | [], [] => false
  | [], r :: _ => decide (0 < schar r)
  | l :: _, [] => decide (schar l < 0)
  | l :: ls, r :: rs => if schar l < schar r then true else if schar r < schar l then false else lexComp ls rs

/-- `lex_comp` for C++ (src/utils/elen.cpp:31-33). -/
def lexComp' : Bytes → Bytes → Bool
  | [], [] => false
  | [], _ :: _ => true
  | _ :: _, [] => false
  | l :: ls, r :: rs => if schar l < schar r then true else if schar r < schar l then false else lexComp' ls rs

end Hx.Elen

namespace Hx.Fp
open Hx Spec Elen

/-- The number of digits after the decimal point: 6 if the precision is negative. -/
def places (prec : Int) : Nat := if prec < 0 then 6 else prec.toNat

/-- `small_decimals_digits` (include/utils/elen.tpp:54-78). The stream fails if there are fewer than two
characters, and nothing is read. -/
def smallDigits (prec : Int) : Ieee → Bytes
  | .fin s q =>
    if q = 0 then [48]
    else
      let out := (fixed (places prec) q).drop 2
      if s then flip out else out
  | .inf s => if s then flip ([105, 110, 102].drop 2) else [105, 110, 102].drop 2
  | .nan => [110, 97, 110].drop 2

/-- Whether the number is below and above 0. -/
def below : Ieee → Bool
  | .fin s q => s && decide (q ≠ 0)
  | .inf s => s
  | .nan => false
def above : Ieee → Bool
  | .fin s q => !s && decide (q ≠ 0)
  | .inf s => !s
  | .nan => false

/-- `encode::small_decimals` (include/utils/elen.tpp:80-94). -/
def encSmall (prec : Int) (neg pos : UInt8) (x : Ieee) : Bytes :=
  let out := smallDigits prec x
  if below x then neg :: (out ++ [pos]) else if above x then pos :: (out ++ [neg]) else out

/-- What `s >> integer >> decimal` reads in `large_decimals` (include/utils/elen.tpp:106-111). Texts of infinity and
NaN are no integers; an integer that does not fit becomes the largest or smallest and nothing else is read. Without
digits after the decimal point there is no decimal to read. -/
def readParts (f : Fmt) (prec : Int) : Ieee → Int × ℚ
  | .fin s q =>
    let n := halfEven (q * 10 ^ places prec)
    let i := n / 10 ^ places prec
    let v : Int := if s then -(i : Int) else i
    if int32.max < v then (int32.max, 0)
    else if v < int32.min then (int32.min, 0)
    else (v, f.val (f.near (((n % 10 ^ places prec : Nat) : ℚ) / 10 ^ places prec)))
  | _ => (0, 0)

/-- `encode::large_decimals` (include/utils/elen.tpp:96-139). -/
def encLarge (f : Fmt) (prec : Int) (neg pos : UInt8) (x : Ieee) : Out Bytes :=
  if x = .fin false 0 ∨ x = .fin true 0 then .ok [48]
  else
    let r := readParts f prec x
    let decimal : Ieee := .fin (below x) r.2
    (if r.1 ≠ 0 then encodeInteger neg pos int32 r.1
      else .ok (if below x then [neg, 57] else [pos, 48])) >>= fun out =>
    let out := if r.2 ≠ 0 then out ++ smallDigits prec decimal else out
    .ok (out ++ [if below x then pos else neg])

/-- `decode::small_decimals` (include/utils/elen.tpp:287-323). -/
def decSmall (f : Fmt) (neg pos : UInt8) (str : Bytes) : Out Ieee :=
  match str with
  | [] => .err
  | [c] => if c = 48 then .ok (.fin false 0) else .err
  | [_, _] => .err
  | front :: rest =>
    let digits := rest.dropLast
    if front = neg ∧ rest.getLastD 0 = pos then .ok (readFraction f true (flip digits))
    else if front = pos ∧ rest.getLastD 0 = neg then .ok (readFraction f false digits)
    else .err

/-- Addition in the type. -/
def plus (f : Fmt) : Ieee → Ieee → Ieee
  | .fin s a, .fin t b =>
    let r := (if s then -a else a) + (if t then -b else b)
    if r = 0 then .fin (s && t) 0 else f.round (decide (r < 0)) |r|
  | .inf s, .inf t => if s = t then .inf s else .nan
  | .inf s, .fin _ _ => .inf s
  | .fin _ _, .inf t => .inf t
  | _, _ => .nan

/-- `decode::large_decimals` (include/utils/elen.tpp:325-370). The integer is read as `decode::integers<int>` reads
it. -/
def decLarge (f : Fmt) (neg pos : UInt8) (str : Bytes) : Out Ieee :=
  match str with
  | [] => .err
  | [c] => if c = 48 then .ok (.fin false 0) else .err
  | [_, _] => .err
  | pre :: _ =>
    decodeInt neg pos int32 str >>= fun r =>
    let out := f.round (decide (pre = neg)) (r.1.natAbs : ℚ)
    if r.2 = str.length - 1 then .ok out
    else if str.length < r.2 then .err
    else decSmall f neg pos (pre :: str.drop r.2) >>= fun d => .ok (plus f out d)

end Hx.Fp

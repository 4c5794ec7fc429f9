import Verif.Model.Store
import Verif.Model.Float
import Verif.Spec.Ieee
import Mathlib.Data.Rat.Floor

/-!
# Floating point numbers in memory and their stored form

`frexp10`, `small_decimals_digits`, `encode::floating_point`, `decode::floating_point` of
`include/utils/elen.tpp` on IEEE 754 numbers, and the callbacks of `include/datastore/transform.tpp`.

* Bit patterns are read with `Spec.ieee`, which is the IEEE 754 standard. Products and conversions are
  rounded to nearest, ties to even.
* `log10` and `pow(10, n)` of the C library are parameters.
* Printing with a fixed number of digits is exact and rounds ties to even (glibc); reading a decimal
  fraction gives the nearest number. Payloads of NaNs are not kept.
-/

namespace Hx.Fp
open Hx Spec Elen

/-- A binary format: `w` bits of exponent, `p` bits of fraction. -/
structure Fmt where
  w : Nat
  p : Nat

/-- `float` and `double`. -/
def flt : Fmt := ⟨8, 23⟩
def dbl : Fmt := ⟨11, 52⟩

/-- Exponent of the smallest normal number. -/
def Fmt.emin (f : Fmt) : Int := 1 - (2 ^ (f.w - 1) - 1)

/-- The number with the given bit pattern, without sign. -/
def Fmt.val (f : Fmt) (k : Nat) : ℚ :=
  if k / 2 ^ f.p = 0 then (k : ℚ) * 2 ^ (f.emin - f.p)
  else (2 ^ f.p + k % 2 ^ f.p : Nat) * 2 ^ ((k / 2 ^ f.p : Nat) - 1 + f.emin - f.p)

/-- The bit pattern of infinity. -/
def Fmt.top (f : Fmt) : Nat := (2 ^ f.w - 1) * 2 ^ f.p

/-- Nearest integer, ties to even. -/
def halfEven (s : ℚ) : Nat :=
  let n := ⌊s⌋.toNat
  let r := s - n
  if r < 1 / 2 then n else if 1 / 2 < r then n + 1 else n + n % 2

/-- The exponent `e` with `2^e ≤ q < 2^(e+1)`. -/
def ilog2 (q : ℚ) : Int :=
  let a : Int := (Nat.log2 q.num.natAbs : Int) - Nat.log2 q.den
  if (2 : ℚ) ^ a ≤ q then a else a - 1

/-- Bit pattern of a non-negative rational number rounded to the format. -/
def Fmt.near (f : Fmt) (q : ℚ) : Nat :=
  if q = 0 then 0
  else
    let e := max (ilog2 q) f.emin
    min ((e - f.emin).toNat * 2 ^ f.p + halfEven (q / 2 ^ (e - f.p))) f.top

/-- Rounding to the format. -/
def Fmt.round (f : Fmt) (neg : Bool) (q : ℚ) : Ieee :=
  if f.near q = f.top then .inf neg else .fin neg (f.val (f.near q))

/-- Conversion to the format (of a product that is returned as `T`). -/
def Fmt.conv (f : Fmt) : Ieee → Ieee
  | .fin s q => f.round s q
  | x => x

/-- The bit pattern of a number of the format. -/
def Fmt.bits (f : Fmt) : Ieee → Nat
  | .nan => f.top + 2 ^ (f.p - 1)
  | .inf s => (if s then 2 ^ (f.w + f.p) else 0) + f.top
  | .fin s q => (if s then 2 ^ (f.w + f.p) else 0) + f.near q

/-- Multiplication of doubles. -/
def mul : Ieee → Ieee → Ieee
  | .fin s a, .fin t b => dbl.round (s != t) (a * b)
  | .inf s, .inf t => .inf (s != t)
  | .inf s, .fin t b => if b = 0 then .nan else .inf (s != t)
  | .fin s a, .inf t => if a = 0 then .nan else .inf (s != t)
  | _, _ => .nan

/-- The functions of the C library: `log10` of a positive number, for both types, and `pow(10, n)`. -/
structure Libm where
  log10 : ℚ → Ieee
  log10f : ℚ → Ieee
  pow10 : Int → Ieee

/-- `std::round`: nearest integer, ties away from zero. -/
def roundAway (q : ℚ) : Int := if 0 ≤ q then ⌊q + 1 / 2⌋ else -⌊-q + 1 / 2⌋

/-- The exponent `frexp10` computes from the logarithm (include/utils/elen.tpp:143-144). Converting
infinity, NaN or a number that is no `int` to an `int` is undefined. -/
def exponent : Ieee → Out Int
  | .fin s m =>
    let r := 1 + roundAway (if s then -m else m)
    if r.natAbs < 2 ^ 31 then .ok r else .ub
  | _ => .ub

/-- The `k` last decimal digits of a number. -/
def lastDigits (n : Nat) : Nat → Bytes
  | 0 => []
  | k + 1 => lastDigits (n / 10) k ++ [digitChar (n % 10)]

/-- `std::fixed << std::setprecision(prec)` of a non-negative number. -/
def fixed (prec : Nat) (q : ℚ) : Bytes :=
  let n := halfEven (q * 10 ^ prec)
  toDec (n / 10 ^ prec) ++ (if prec = 0 then [] else 46 :: lastDigits n prec)

/-- `small_decimals_digits` (include/utils/elen.tpp:56-78) of the absolute value, before flipping:
two characters are dropped, also of `inf` and `nan`. A mantissa of zero is not written at all
(include/utils/elen.tpp:176-178). -/
def mantissaDigits (prec : Nat) : Ieee → Bytes
  | .fin _ q => if q = 0 then [] else (fixed prec q).drop 2
  | .inf _ => [105, 110, 102].drop 2 -- "inf"
  | .nan => [110, 97, 110].drop 2 -- "nan"

/-- `std::log10` for the type. -/
def Libm.log (lib : Libm) (f : Fmt) (q : ℚ) : Ieee := if f.p = dbl.p then lib.log10 q else lib.log10f q

/-- `frexp10` (include/utils/elen.tpp:142-146) of a number that is not zero: the exponent, and the
product, a `double`, returned as a number of the type. -/
def frexp10 (lib : Libm) (f : Fmt) (s : Bool) (q : ℚ) : Out (Int × Ieee) := do
  let exp ← exponent (lib.log f q)
  .ok (exp, f.conv (mul (.fin s q) (lib.pow10 (-exp))))

/-- `encode::floating_point` (include/utils/elen.tpp:149-187). The logarithms of infinity and NaN are
infinity and NaN, which `frexp10` converts to `int`. -/
def encodeNum (lib : Libm) (f : Fmt) (prec : Nat) (neg pos : UInt8) : Ieee → Out Bytes
  | .fin s q =>
    if q = 0 then .ok [48]
    else do
      let (exp, m) ← frexp10 lib f s q
      .ok (encFlt neg pos (.num s exp (mantissaDigits prec m)))
  | _ => .ub

/-- `s >> out` of `±0.digits` in `small_decimals` (include/utils/elen.tpp:309-322).
Simplification: reading ends at the first character that is no digit, also at the letter of an exponent. -/
def readFraction (f : Fmt) (s : Bool) (digits : Bytes) : Ieee :=
  let ds := digits.takeWhile isDigit
  f.round s (((ds.foldl (fun acc c => 10 * acc + (c.toNat - 48)) 0 : Nat) : ℚ) / 10 ^ ds.length)

/-- `decode::floating_point` (include/utils/elen.tpp:373-438) with the numbers computed. -/
def decodeNum (lib : Libm) (f : Fmt) (neg pos : UInt8) (str : Bytes) : Out Ieee := do
  match ← decodeFlt neg pos str with
  | .zero => .ok (.fin false 0)
  | .num s e d => .ok (f.conv (mul (lib.pow10 e) (readFraction f s d)))

/-- Size of the type in memory. -/
def Fmt.size (f : Fmt) : Nat := (1 + f.w + f.p) / 8

/-- The type of a `hxhim_data_t`. -/
def fmtOf (t : Nat) : Fmt := if t = Store.tFloat then flt else dbl

/-- `Transform::encode::floating_point` and `Transform::decode::floating_point`
(include/datastore/transform.tpp:37-54, 80-99): the source is read as a `T` whatever size the caller
gave. -/
def codec (lib : Libm) (neg pos : UInt8) (fprec dprec : Nat) : Store.FloatCodec where
  encode v :=
    let f := fmtOf v.typ
    if v.bytes.length < f.size then .ub
    else do
      let e ← encodeNum lib f (if v.typ = Store.tFloat then fprec else dprec) neg pos
        (ieee f.w f.p (leVal (v.bytes.take f.size)))
      .ok (some e)
  decode v := do
    let f := fmtOf v.typ
    let x ← decodeNum lib f neg pos v.bytes
    .ok (some (leBytes f.size (f.bits x)))

end Hx.Fp

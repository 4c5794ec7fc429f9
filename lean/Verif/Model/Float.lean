import Verif.Model.Elen

/-!
# Floating point keys: `encode::floating_point`, `decode::floating_point` of
`include/utils/elen.tpp`

The conversion between a binary floating point number and its decimal sign, exponent and digits
(`frexp10`, lines 144-147, and the stream formatting of lines 56-78) is in `Verif/Model/Fp.lean`: this
part starts from the decimal triple the encoder computes and ends with the triple the decoder computes
from (`pow(10, exp) * mantissa`, line 437). Infinities and NaNs have no such triple.
-/

namespace Hx.Elen

/-- What `encode::floating_point` works with after `frexp10`: zero, or sign, decimal exponent and
the `precision` digits after the decimal point of the mantissa. The number is
`± 0.digits * 10^exp`. -/
inductive Flt where
  | zero
  | num (negative : Bool) (exp : Int) (digits : Bytes)
  deriving Repr, DecidableEq

/-- `encode::floating_point` (include/utils/elen.tpp:152-188). The exponent of a negative number
is negated (163), the digits of the mantissa are flipped by `small_decimals_digits` (73-75). -/
def encFlt (neg pos : UInt8) : Flt → Bytes
  | .zero => [48]
  | .num true exp digits => neg :: (encInt neg pos (-exp) ++ flip digits ++ [pos])
  | .num false exp digits => pos :: (encInt neg pos exp ++ digits ++ [neg])

/-- The exponent part of `decode::floating_point` (include/utils/elen.tpp:405-428) applied to the
string without the sign: exponent and position after it. `position` is first the number of prefix
symbols; if the character there is `'0'` the exponent is taken to be 0 and one character is
skipped. `wo_sign[position]` is within the string because `get_prefix_count` found a digit there
(or the string starts with `'0'`). -/
def decodeExp (neg pos : UInt8) (woSign : Bytes) : Out (Int × Nat) :=
  match woSign with
  | [] => .ub
  | pre :: _ => do
    let count ← getPrefixCount pre woSign neg pos
    if woSign[count]? = some 48 then .ok (0, count + 1)
    else
      -- a prefix count of 0 means the first character is '0', which was handled above
      let (len, position) ← lengths pre neg woSign (count - 1) 1 count
      let (v, position) ← next pre neg woSign position len (2 ^ 31 - 1)
      .ok (if pre = neg then -(v : Int) else v, position)

/-- `decode::floating_point` (include/utils/elen.tpp:375-438), with `small_decimals` (290-323)
inlined for the digits: `.num s e d` stands for the number `± 10^e * 0.d`. -/
def decodeFlt (neg pos : UInt8) (str : Bytes) : Out Flt :=
  match str with
  | [] => .err
  | [c] => if c = 48 then .ok .zero else .err
  | [_, _] => .err
  | front :: woSign => do
    let back := woSign.getLastD 0
    let sign ←
      if front = neg ∧ back = pos then Out.ok true
      else if front = pos ∧ back = neg then Out.ok false
      else Out.err
    let (exp, position) ← decodeExp neg pos woSign
    -- line 433 compares with the size of the string including the sign, so the decimal part is
    -- always read; `substr` throws past the end
    if woSign.length < position then .err
    else
      let rest := woSign.drop position
      -- small_decimals on sign ++ rest: needs at least three characters, ending in the postfix
      if rest.length < 2 then .err
      else
        let digits := rest.dropLast
        .ok (.num sign (if sign then -exp else exp) (if sign then flip digits else digits))

end Hx.Elen

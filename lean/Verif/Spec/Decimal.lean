import Mathlib.Data.Rat.Defs
import Mathlib.Algebra.Order.Field.Rat
import Mathlib.Algebra.Order.Field.Power
import Verif.Base.Bytes

/-!
# Specification of decimal floating point numbers

Independent of the encoder: the rational number a sign, exponent and digit string stand for.
-/

namespace Hx.Spec

/-- Value of a string of decimal digits (most significant first). -/
def digitsVal (ds : Bytes) : Nat := ds.foldl (fun acc c => 10 * acc + (c.toNat - 48)) 0

/-- `± 0.digits * 10^exp` as a rational number. -/
def decimalVal (negative : Bool) (exp : Int) (digits : Bytes) : ℚ :=
  (if negative then -1 else 1) * ((digitsVal digits : ℚ) / 10 ^ digits.length) * (10 : ℚ) ^ exp

end Hx.Spec

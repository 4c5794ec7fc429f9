import Mathlib.Data.Rat.Defs
import Mathlib.Algebra.Order.Field.Basic
import Mathlib.Algebra.Order.Field.Rat

/-!
# Specification: IEEE 754 binary formats
-/

namespace Hx.Spec

/-- A datum of IEEE 754, without the payload of NaNs. -/
inductive Ieee where
  | nan
  | inf (neg : Bool)
  | fin (neg : Bool) (magnitude : ℚ)
  deriving DecidableEq

/-- The datum of a bit pattern: sign, `w` bits of exponent, `p` bits of fraction. -/
def ieee (w p : Nat) (x : Nat) : Ieee :=
  let neg := decide (x / 2 ^ (w + p) % 2 = 1)
  let e := x / 2 ^ p % 2 ^ w
  let m := x % 2 ^ p
  let bias : Int := 2 ^ (w - 1) - 1
  if e = 2 ^ w - 1 then (if m = 0 then .inf neg else .nan)
  else if e = 0 then .fin neg (m * 2 ^ (1 - bias - p))
  else .fin neg ((2 ^ p + m : Nat) * 2 ^ (e - bias - p))

end Hx.Spec

import Verif.Model.Fp
import Mathlib.Analysis.SpecialFunctions.Log.Base

/-!
# What is assumed of the C library

`log10` of a number of the format is close to the logarithm and does not decrease; `pow(10, n)` is a
double close to the power of ten, infinity above the largest double. C libraries are far more accurate.
-/

namespace Hx.Spec
open Hx Fp

/-- The number a datum stands for. -/
def Ieee.value : Ieee → Option ℚ
  | .fin s q => some (if s then -q else q)
  | _ => none

/-- A logarithm for one format; `k` is the bit pattern of a positive number. -/
structure LogOk (f : Fmt) (log : ℚ → Ieee) : Prop where
  close : ∀ k, 0 < k → k < f.top → ∃ y, (log (f.val k)).value = some y ∧ |(y : ℝ) - Real.logb 10 (f.val k)| ≤ 1 / 50
  mono : ∀ k j, 0 < k → k ≤ j → j < f.top → ∀ y z, (log (f.val k)).value = some y → (log (f.val j)).value = some z → y ≤ z

/-- The C library. -/
structure LibmOk (lib : Libm) : Prop where
  log10 : LogOk dbl lib.log10
  log10f : LogOk flt lib.log10f
  pow10 : ∀ n : Int, -309 ≤ n → n ≤ 308 → ∃ v : ℚ, lib.pow10 n = .fin false v ∧ |v - 10 ^ n| ≤ 10 ^ n / 2 ^ 46
  pow10_small : ∀ n : Int, n < -309 → ∃ v : ℚ, 0 ≤ v ∧ lib.pow10 n = .fin false v
  pow10_large : ∀ n : Int, 308 < n → lib.pow10 n = .inf false

/-- Bytes a `float` or `double` occupies. -/
def numSize (t : Nat) : Nat := if t = Store.tFloat then 4 else 8

/-- The number in the memory of a `float` (type 5) or `double` (type 6), little endian. -/
def numberIn (t : Nat) (m : Bytes) : Ieee :=
  if t = Store.tFloat then ieee 8 23 (leVal (m.take 4)) else ieee 11 52 (leVal (m.take 8))

/-- A relative error: that of writing `prec` digits, and `n` times that of the calculations. -/
def relErr (t prec n : Nat) : ℚ := 17 / 10 ^ prec + n * (if t = Store.tFloat then 1 / 2 ^ 23 else 1 / 2 ^ 45)

/-- The range in which numbers of the type come back: from the smallest normal number to half the power
of two above its reciprocal. -/
def Moderate (t : Nat) (x : ℚ) : Prop :=
  if t = Store.tFloat then 1 / 2 ^ 126 ≤ |x| ∧ |x| ≤ 2 ^ 125 else 1 / 2 ^ 1022 ≤ |x| ∧ |x| ≤ 2 ^ 1021

/-- Numbers whose exponent gets lost, and a little more: positive ones around 10^-10 and negative ones
around -10^8. -/
def LosesExponent (x : ℚ) : Prop :=
  (3 / 10 ^ 11 ≤ x ∧ x ≤ 34 / 10 ^ 11) ∨ (3 * 10 ^ 7 ≤ -x ∧ -x ≤ 34 * 10 ^ 7)

end Hx.Spec

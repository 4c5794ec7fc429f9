import Verif.Model.Buckets
import Verif.Spec.Libm
import Verif.Spec.Histogram

/-!
# Specification of the bucket generators
-/

namespace Hx.Spec
open Hx Buckets

/-- The number in a `double`, when it is finite. -/
def numberOf (x : Dbl) : Option ℚ := (ieee 11 52 x.toNat).value

/-- All values are finite numbers. -/
def AllFinite (vs : List Dbl) : Prop := ∀ v ∈ vs, numberOf v ≠ none

/-- `d` is the largest of the numbers minus the smallest. -/
def Spread (vs : List Dbl) (d : ℚ) : Prop :=
  ∃ a ∈ vs, ∃ b ∈ vs, ∃ x y, numberOf a = some x ∧ numberOf b = some y ∧ d = y - x ∧
    ∀ v ∈ vs, ∀ z, numberOf v = some z → x ≤ z ∧ z ≤ y

/-- A good result for the first values: buckets with ascending left ends, the first of which is the smallest of the values. -/
structure GoodBuckets (vs left : List Dbl) : Prop where
  asc : Ascending left
  first : ∃ v ∈ vs, left.head? = some v ∧ ∀ w ∈ vs, ∀ x y, numberOf v = some x → numberOf w = some y → x ≤ y

/-- `x` is `r` with an error of at most 1/2^36. -/
def Near (x : Ieee) (r : ℝ) : Prop := ∃ y : ℚ, 0 ≤ y ∧ x = .fin false y ∧ |(y : ℝ) - r| ≤ 1 / 2 ^ 36

/-- The C library: roots and logarithms of numbers of values are accurate, square roots and binary logarithms do not fall below an
integer that the exact result reaches; the signs of square roots and natural logarithms are right, and natural logarithms are not
too far off. -/
structure MathOk (m : Math) : Prop where
  sqrt : ∀ n : Nat, 1 ≤ n → n < 2 ^ 32 → Near (m.sqrt (.fin false n)) (Real.sqrt n)
  sqrt_int : ∀ n k : Nat, 1 ≤ n → n < 2 ^ 32 → k * k ≤ n → ∀ y, m.sqrt (.fin false n) = .fin false y → (k : ℚ) ≤ y
  cbrt : ∀ n : Nat, 1 ≤ n → n < 2 ^ 32 → Near (m.cbrt (.fin false n)) ((n : ℝ) ^ ((1 : ℝ) / 3))
  log2 : ∀ n : Nat, 1 ≤ n → n < 2 ^ 32 → Near (m.log2 (.fin false n)) (Real.logb 2 n)
  log2_int : ∀ n k : Nat, 1 ≤ n → n < 2 ^ 32 → 2 ^ k ≤ n → ∀ y, m.log2 (.fin false n) = .fin false y → (k : ℚ) ≤ y
  sqrt_sign : ∀ x, m.sqrt x = .nan ∨ m.sqrt x = .inf false ∨ ∃ s q, m.sqrt x = .fin s q ∧ 0 ≤ q ∧ (s = true → q = 0)
  log_zero : ∀ s, m.log (.fin s 0) = .inf true
  log_one : m.log (.fin false 1) = .fin false 0
  log_small : ∀ q, 0 < q → q < 1 → ∃ y, 0 < y ∧ m.log (.fin false q) = .fin true y
  log_large : ∀ q, 1 + 1 / 2 ^ 52 ≤ q → q < 2 ^ 1024 → ∃ y, 1 / 2 ^ 53 ≤ y ∧ y ≤ 710 ∧ m.log (.fin false q) = .fin false y
  log_two : ∀ q, 2 ≤ q → q < 2 ^ 1024 → ∀ y, m.log (.fin false q) = .fin false y → 1 / 2 ≤ y
  log_size : ∀ q, 1 ≤ q → q ≤ 2 ^ 64 → ∀ y, m.log (.fin false q) = .fin false y → y ≤ 45

end Hx.Spec

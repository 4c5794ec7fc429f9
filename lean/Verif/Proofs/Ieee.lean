import Mathlib.Tactic.NormNum
import Mathlib.Tactic.Ring
import Verif.Model.Store
import Verif.Spec.Ieee

/-!
# Helper lemmas: floats as doubles
-/

namespace Hx.Store
open Hx.Spec

theorem ieee_double {s e m : Nat} (hs : s < 2) (he : e < 2 ^ 11) (hm : m < 2 ^ 52) :
    ieee 11 52 (UInt64.ofNat (s * 2 ^ 63 + (e * 2 ^ 52 + m))).toNat =
      if e = 2047 then (if m = 0 then .inf (decide (s = 1)) else .nan)
      else if e = 0 then .fin (decide (s = 1)) (m * 2 ^ (-1074 : Int))
      else .fin (decide (s = 1)) ((2 ^ 52 + m : Nat) * 2 ^ ((e : Int) - 1075)) := by
  have h0 : (UInt64.ofNat (s * 2 ^ 63 + (e * 2 ^ 52 + m))).toNat = s * 2 ^ 63 + (e * 2 ^ 52 + m) :=
    UInt64.toNat_ofNat_of_lt' (by norm_num [UInt64.size]; omega)
  unfold ieee
  rw [h0]
  have h1 : (s * 2 ^ 63 + (e * 2 ^ 52 + m)) / 2 ^ (11 + 52) % 2 = s := by omega
  have h2 : (s * 2 ^ 63 + (e * 2 ^ 52 + m)) / 2 ^ 52 % 2 ^ 11 = e := by omega
  have h3 : (s * 2 ^ 63 + (e * 2 ^ 52 + m)) % 2 ^ 52 = m := by omega
  simp only [h1, h2, h3]
  have e1 : (1 - ((2 : Int) ^ (11 - 1) - 1) - (52 : Nat)) = -1074 := by norm_num
  have e2 : ((e : Int) - ((2 : Int) ^ (11 - 1) - 1) - (52 : Nat)) = e - 1075 := by push_cast; omega
  rw [e1, e2]
  norm_num

theorem ieee_float {x : Nat} :
    ieee 8 23 x = if x / 2 ^ 23 % 2 ^ 8 = 255 then (if x % 2 ^ 23 = 0 then .inf (decide (x / 2 ^ 31 % 2 = 1)) else .nan)
      else if x / 2 ^ 23 % 2 ^ 8 = 0 then .fin (decide (x / 2 ^ 31 % 2 = 1)) ((x % 2 ^ 23 : Nat) * 2 ^ (-149 : Int))
      else .fin (decide (x / 2 ^ 31 % 2 = 1)) ((2 ^ 23 + x % 2 ^ 23 : Nat) * 2 ^ (((x / 2 ^ 23 % 2 ^ 8 : Nat) : Int) - 150)) := by
  unfold ieee
  generalize x / 2 ^ 23 % 2 ^ 8 = e
  have e1 : (1 - ((2 : Int) ^ (8 - 1) - 1) - (23 : Nat)) = -149 := by norm_num
  have e2 : ((e : Int) - ((2 : Int) ^ (8 - 1) - 1) - (23 : Nat)) = e - 150 := by push_cast; omega
  simp only [e1, e2]
  norm_num

theorem shift_pow (a : Nat) (k : Nat) (z : Int) : ((a * 2 ^ k : Nat) : ℚ) * 2 ^ z = a * 2 ^ (z + k) := by
  rw [zpow_add₀ (by norm_num)]
  push_cast
  rw [zpow_natCast]
  ring

theorem floatToDouble_value {x : Nat} (hx : x < 2 ^ 32) : ieee 11 52 (floatToDouble x).toNat = ieee 8 23 x := by
  have hs : x / 2 ^ 31 < 2 := by omega
  have hs' : x / 2 ^ 31 % 2 = x / 2 ^ 31 := by omega
  have hm : x % 2 ^ 23 < 2 ^ 23 := by omega
  have he : x / 2 ^ 23 % 2 ^ 8 < 256 := by omega
  rw [ieee_float, hs']
  unfold floatToDouble
  simp only
  generalize x / 2 ^ 31 = s at *
  generalize x % 2 ^ 23 = m at *
  generalize x / 2 ^ 23 % 2 ^ 8 = e at *
  by_cases h1 : e = 255
  · rw [if_pos h1, if_pos h1]
    by_cases h2 : m = 0
    · rw [if_pos h2, if_pos h2, ieee_double hs (by omega) (by omega)]
      rfl
    · rw [if_neg h2, if_neg h2]
      have h3 : m * 2 ^ 29 ||| 2 ^ 51 < 2 ^ 52 := Nat.or_lt_two_pow (by omega) (by omega)
      have h4 : m * 2 ^ 29 ||| 2 ^ 51 ≠ 0 := by
        have : 2 ^ 51 ≤ m * 2 ^ 29 ||| 2 ^ 51 := Nat.right_le_or
        omega
      rw [ieee_double hs (by omega) h3, if_pos rfl, if_neg h4]
  · rw [if_neg h1, if_neg h1]
    by_cases h2 : e = 0
    · rw [if_pos h2, if_pos h2]
      by_cases h3 : m = 0
      · rw [if_pos h3]
        have := ieee_double (s := s) (e := 0) (m := 0) hs (by omega) (by omega)
        simp only [Nat.zero_mul, Nat.add_zero] at this
        rw [Nat.add_zero, this, h3]
        simp
      · rw [if_neg h3]
        have h4 := Nat.log2_self_le h3
        have h5 : m < 2 ^ (m.log2 + 1) := Nat.lt_log2_self
        have h6 : m.log2 < 23 := (Nat.log2_lt h3).mpr hm
        generalize m.log2 = k at *
        have hp : 2 ^ k * 2 ^ (52 - k) = 2 ^ 52 := by rw [← Nat.pow_add]; congr 1; omega
        have h7 : (m - 2 ^ k) * 2 ^ (52 - k) < 2 ^ 52 := by
          rw [← hp]
          refine Nat.mul_lt_mul_of_pos_right ?_ (Nat.two_pow_pos _)
          rw [Nat.pow_succ] at h5
          omega
        rw [ieee_double hs (by omega) h7, if_neg (by omega), if_neg (by omega)]
        have h8 : 2 ^ 52 + (m - 2 ^ k) * 2 ^ (52 - k) = m * 2 ^ (52 - k) := by
          rw [← hp, ← Nat.add_mul]
          congr 1
          omega
        have h9 : (((k + 874 : Nat) : Int) - 1075 + ((52 - k : Nat) : Int)) = -149 := by omega
        rw [h8, shift_pow, h9]
    · rw [if_neg h2, if_neg h2]
      rw [ieee_double hs (by omega) (by omega), if_neg (by omega), if_neg (by omega)]
      have h8 : 2 ^ 52 + m * 2 ^ 29 = (2 ^ 23 + m) * 2 ^ 29 := by omega
      have h9 : (((e + 896 : Nat) : Int) - 1075 + ((29 : Nat) : Int)) = e - 150 := by omega
      rw [h8, shift_pow, h9]

end Hx.Store

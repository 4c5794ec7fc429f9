import Verif.Model.Elapsed
import Verif.Proofs.Fp
import Verif.Proofs.HxProgram
import Verif.Proofs.CliRun

/-! # Lemmas about elapsed times -/

namespace Hx.Elapsed
open Hx Spec Fp

theorem u64_cast (i : Int) : ((u64 i : Nat) : Int) = i % 2 ^ 64 := by
  unfold u64
  rw [Int.toNat_of_nonneg (Int.emod_nonneg _ (by norm_num))]

theorem count_cast (t : TimeSpec) : ((count t : Nat) : Int) = (t.sec * 1000000000 + t.nsec) % 2 ^ 64 := by
  unfold count
  push_cast
  rw [u64_cast, u64_cast]
  omega

theorem nano_cast (a b : TimeSpec) : ((nano a b : Nat) : Int) = ((b.sec - a.sec) * 1000000000 + (b.nsec - a.nsec)) % 2 ^ 64 := by
  have ha := count_cast a
  have hb := count_cast b
  unfold nano
  have : count a < 2 ^ 64 := by unfold count; exact Nat.mod_lt _ (by norm_num)
  rw [Int.natCast_mod, Nat.cast_sub (by omega)]
  push_cast
  omega

theorem total_mod (l : List Nat) : total l = l.sum % 2 ^ 64 := by
  have : ∀ (l : List Nat) (a : Nat), a < 2 ^ 64 → List.foldl (fun a n => (a + n) % 2 ^ 64) a l = (a + l.sum) % 2 ^ 64 := by
    intro l
    induction l with
    | nil => intro a ha; rw [List.foldl_nil, List.sum_nil, Nat.add_zero, Nat.mod_eq_of_lt ha]
    | cons n l ih =>
      intro a _
      rw [List.foldl_cons, ih _ (Nat.mod_lt _ (by norm_num)), List.sum_cons, Nat.mod_add_mod, Nat.add_assoc]
  unfold total
  rw [this l 0 (by norm_num), Nat.zero_add]

/-- Numbers of 64 bits are exact. -/
theorem ext_nat {n : Nat} (h2 : n < 2 ^ 64) : ext.near n < ext.top ∧ ext.val (ext.near n) = n := by
  rcases Nat.eq_zero_or_pos n with rfl | h1
  · have h := ext.near_zero
    rw [Nat.cast_zero, h]
    exact ⟨by decide, ext.val_zero⟩
  have hn0 : n ≠ 0 := by omega
  have hl : 2 ^ Nat.log 2 n ≤ n := Nat.pow_log_le_self 2 hn0
  have hu : n < 2 ^ (Nat.log 2 n + 1) := Nat.lt_pow_succ_log_self (by norm_num) n
  have he : Nat.log 2 n ≤ 63 := by
    by_contra hc
    have : 2 ^ 64 ≤ 2 ^ Nat.log 2 n := Nat.pow_le_pow_right (by norm_num) (by omega)
    omega
  generalize Nat.log 2 n = e at *
  have hb : 2 ^ 63 ≤ n * 2 ^ (63 - e) ∧ n * 2 ^ (63 - e) < 2 ^ 64 := by
    have e1 : 2 ^ 63 = 2 ^ e * 2 ^ (63 - e) := by rw [← Nat.pow_add]; congr 1; omega
    have e2 : 2 ^ 64 = 2 ^ (e + 1) * 2 ^ (63 - e) := by rw [← Nat.pow_add]; congr 1; omega
    constructor
    · rw [e1]; exact Nat.mul_le_mul_right _ hl
    · rw [e2]; exact Nat.mul_lt_mul_of_pos_right hu (Nat.pow_pos (by norm_num))
  have hv := ext.val_parts (e + 16382) (n * 2 ^ (63 - e)) (by show _ ≤ 2 ^ 64; omega) (.inr hb.1)
  have hval : ext.val ((e + 16382) * 2 ^ ext.p + n * 2 ^ (63 - e)) = n := by
    rw [hv]
    have : ((e + 16382 : Nat) : Int) + ext.emin - (ext.p : Nat) = -((63 - e : Nat) : Int) := by
      show ((e + 16382 : Nat) : Int) + (1 - (2 ^ 14 - 1)) - (63 : Nat) = _
      omega
    rw [this, zpow_neg, zpow_natCast]
    push_cast
    field_simp
  have hk : (e + 16382) * 2 ^ ext.p + n * 2 ^ (63 - e) < ext.top := by
    show (e + 16382) * 2 ^ 63 + n * 2 ^ (63 - e) < 32767 * 2 ^ 63
    have : (e + 16382) * 2 ^ 63 ≤ 16445 * 2 ^ 63 := Nat.mul_le_mul_right _ (by omega)
    omega
  rw [← hval, ext.near_val hk.le]
  exact ⟨hk, rfl⟩

theorem ext_round_nat {n : Nat} (h : n < 2 ^ 64) : ext.round false n = .fin false n := by
  obtain ⟨a, b⟩ := ext_nat h
  unfold Fmt.round
  rw [if_neg (by omega), b]

/-- Numbers that are not tiny are rounded with a small relative error. -/
theorem near_rel {f : Fmt} {q hi : ℚ} (h0 : 0 ≤ q) (h1 : q ≤ hi) (hhi : f.near hi < f.top)
    (htiny : q = 0 ∨ (2 : ℚ) ^ f.emin ≤ q) : f.near q < f.top ∧ |f.val (f.near q) - q| ≤ q / 2 ^ (f.p + 1) := by
  have ht : f.near q < f.top := (f.near_mono h0 h1).trans_lt hhi
  refine ⟨ht, ?_⟩
  rcases htiny with rfl | htiny
  · rw [f.near_zero, f.val_zero]; simp
  · refine (f.near_error h0 ht).trans (max_le le_rfl ?_)
    rw [le_div_iff₀ (by positivity), ← zpow_natCast, ← zpow_add₀ (by norm_num)]
    refine le_trans (le_of_eq ?_) htiny
    congr 1
    push_cast
    ring

theorem tiny_ext {q : ℚ} (h : 1 / 1000000000 ≤ q) : (2 : ℚ) ^ ext.emin ≤ q := by
  refine le_trans ?_ h
  refine le_trans (zpow_le_zpow_right₀ (by norm_num) (show ext.emin ≤ -30 by decide)) ?_
  norm_num

theorem tiny_dbl {q : ℚ} (h : 1 / 1000000000 ≤ q) : (2 : ℚ) ^ dbl.emin ≤ q := by
  refine le_trans ?_ h
  refine le_trans (zpow_le_zpow_right₀ (by norm_num) (show dbl.emin ≤ -30 by decide)) ?_
  norm_num

theorem seconds_eq {n : Nat} (h : n < 2 ^ 64) : seconds n = .fin false (ext.val (ext.near ((n : ℚ) / 1000000000))) ∧
    |ext.val (ext.near ((n : ℚ) / 1000000000)) - (n : ℚ) / 1000000000| ≤ (n : ℚ) / 1000000000 / 2 ^ 64 := by
  have hn : (n : ℚ) ≤ 2 ^ 64 := by exact_mod_cast h.le
  have hq : (0 : ℚ) ≤ (n : ℚ) / 1000000000 := by positivity
  obtain ⟨h1, h2⟩ := near_rel (f := ext) hq (hi := 2 ^ 64) (by
      rw [div_le_iff₀ (by norm_num)]
      linarith) (by decide +kernel) (by
      rcases Nat.eq_zero_or_pos n with rfl | hp
      · left; simp
      · right
        apply tiny_ext
        have : (1 : ℚ) ≤ n := by exact_mod_cast hp
        exact div_le_div_of_nonneg_right this (by norm_num))
  refine ⟨?_, h2⟩
  unfold seconds ldiv
  rw [ext_round_nat h]
  simp only
  unfold Fmt.round
  rw [if_neg (by omega)]

/-- Words end at the first blank. -/
theorem word_split {a b x y : Bytes} (ha : (32 : UInt8) ∉ a) (hb : (32 : UInt8) ∉ b) (h : a ++ 32 :: x = b ++ 32 :: y) : a = b ∧ x = y := by
  induction a generalizing b with
  | nil =>
    cases b with
    | nil => simpa using h
    | cons c b =>
      simp only [List.nil_append, List.cons_append, List.cons.injEq] at h
      exact absurd (by rw [h.1]; simp) hb
  | cons c a ih =>
    cases b with
    | nil =>
      simp only [List.nil_append, List.cons_append, List.cons.injEq] at h
      exact absurd (by rw [h.1]; simp) ha
    | cons d b =>
      simp only [List.cons_append, List.cons.injEq] at h
      obtain ⟨h1, h2⟩ := ih (fun hc => ha (by simp [hc])) (fun hc => hb (by simp [hc])) h.2
      exact ⟨by rw [h.1, h1], h2⟩

theorem blank_toDec (n : Nat) : (32 : UInt8) ∉ Elen.toDec n := fun h => absurd (Elen.toDec_digits n _ h) (by decide)

theorem blank_showInt (r : Int) : (32 : UInt8) ∉ Lowest.showInt r := by
  unfold Lowest.showInt
  split
  · intro h
    rcases List.mem_cons.mp h with h | h
    · exact absurd h (by decide)
    · exact blank_toDec _ h
  · exact blank_toDec _

theorem showInt_inj {r r' : Int} (h : Lowest.showInt r = Lowest.showInt r') : r = r' :=
  (HxProgram.showInt_split (x := []) (y := []) (by rw [h])).1

theorem format_inj {r r' : Int} {n n' : Bytes} {s s' e e' : Nat} {t t' : Bytes} (hn : (32 : UInt8) ∉ n) (hn' : (32 : UInt8) ∉ n')
    (h : format r n s e t = format r' n' s' e' t') : r = r' ∧ n = n' ∧ s = s' ∧ e = e' := by
  unfold format at h
  obtain ⟨g1, h⟩ := word_split (blank_showInt _) (blank_showInt _) h
  obtain ⟨g2, h⟩ := word_split hn hn' h
  obtain ⟨g3, h⟩ := word_split (blank_toDec _) (blank_toDec _) h
  obtain ⟨g4, -⟩ := word_split (blank_toDec _) (blank_toDec _) h
  exact ⟨showInt_inj g1, g2, HxProgram.toDec_injective g3, HxProgram.toDec_injective g4⟩

theorem format_words (r : Int) (n : Bytes) (s e : Nat) (t : Bytes) :
    format r n s e t = Lowest.showInt r ++ [32] ++ n ++ [32] ++ Elen.toDec s ++ [32] ++ Elen.toDec e ++ [32] ++ t ++ [10] := by
  unfold format
  simp only [List.append_assoc, List.cons_append, List.nil_append]

end Hx.Elapsed

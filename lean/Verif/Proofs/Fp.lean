import Verif.Model.Fp
import Mathlib.Tactic.Linarith
import Mathlib.Tactic.NormNum
import Mathlib.Tactic.Ring
import Mathlib.Tactic.FieldSimp
import Mathlib.Tactic.Positivity
import Mathlib.Algebra.Order.Floor.Ring

/-!
# Rounding: lemmas
-/

namespace Hx.Fp
open Hx Spec Elen

theorem two_zpow_pos (e : Int) : (0 : ℚ) < 2 ^ e := zpow_pos (by norm_num) e

theorem ilog2_spec {q : ℚ} (hq : 0 < q) : (2 : ℚ) ^ ilog2 q ≤ q ∧ q < 2 ^ (ilog2 q + 1) := by
  have hn : 0 < q.num := Rat.num_pos.mpr hq
  have hn0 : q.num.natAbs ≠ 0 := by omega
  have hd0 : q.den ≠ 0 := q.den_nz
  have hd : (0 : ℚ) < q.den := by exact_mod_cast Nat.pos_of_ne_zero hd0
  have hqe : q * q.den = (q.num.natAbs : ℚ) := by
    rw [Rat.mul_den_eq_num]
    have : (q.num : ℚ) = ((q.num.natAbs : Int) : ℚ) := by rw [Int.natAbs_of_nonneg hn.le]
    rw [this]; simp
  set ln := Nat.log2 q.num.natAbs with hln
  set ld := Nat.log2 q.den with hld
  have n1 : (2 : ℚ) ^ ln ≤ q.num.natAbs := by exact_mod_cast Nat.log2_self_le hn0
  have n2 : (q.num.natAbs : ℚ) < 2 ^ (ln + 1) := by exact_mod_cast Nat.lt_log2_self
  have d1 : (2 : ℚ) ^ ld ≤ q.den := by exact_mod_cast Nat.log2_self_le hd0
  have d2 : (q.den : ℚ) < 2 ^ (ld + 1) := by exact_mod_cast Nat.lt_log2_self
  have e1 : (2 : ℚ) ^ ((ln : Int) - ld) * 2 ^ ld = 2 ^ ln := by
    rw [← zpow_natCast, ← zpow_natCast, ← zpow_add₀ (by norm_num)]; congr 1; omega
  have hA := two_zpow_pos ((ln : Int) - ld)
  have up : q < 2 ^ ((ln : Int) - ld + 1) := by
    rw [zpow_add_one₀ (by norm_num)]
    have : q * 2 ^ ld < 2 ^ ((ln : Int) - ld) * 2 * 2 ^ ld := by
      calc q * 2 ^ ld ≤ q * q.den := by nlinarith
        _ < 2 ^ (ln + 1) := by rw [hqe]; exact n2
        _ = 2 ^ ((ln : Int) - ld) * 2 * 2 ^ ld := by rw [pow_succ, ← e1]; ring
    exact lt_of_mul_lt_mul_right this (by positivity)
  have lo : (2 : ℚ) ^ ((ln : Int) - ld - 1) < q := by
    have h2 : (2 : ℚ) ^ ((ln : Int) - ld - 1) * 2 = 2 ^ ((ln : Int) - ld) := by
      rw [← zpow_add_one₀ (by norm_num)]; congr 1; ring
    have : (2 : ℚ) ^ ((ln : Int) - ld - 1) * 2 ^ (ld + 1) < q * 2 ^ (ld + 1) := by
      calc (2 : ℚ) ^ ((ln : Int) - ld - 1) * 2 ^ (ld + 1) = 2 ^ ln := by rw [pow_succ, ← e1, ← h2]; ring
        _ ≤ q * q.den := by rw [hqe]; exact n1
        _ < q * 2 ^ (ld + 1) := by nlinarith
    exact lt_of_mul_lt_mul_right this (by positivity)
  show (2 : ℚ) ^ (if (2 : ℚ) ^ ((ln : Int) - ld) ≤ q then (ln : Int) - ld else (ln : Int) - ld - 1) ≤ q ∧ _
  unfold ilog2
  simp only [← hln, ← hld]
  split
  · exact ⟨by assumption, up⟩
  · refine ⟨lo.le, ?_⟩
    rw [sub_add_cancel]
    exact lt_of_not_ge (by assumption)

theorem halfEven_spec {s : ℚ} (hs : 0 ≤ s) : |(halfEven s : ℚ) - s| ≤ 1 / 2 := by
  have hf : (0 : Int) ≤ ⌊s⌋ := Int.floor_nonneg.mpr hs
  have hc : ((⌊s⌋.toNat : Nat) : ℚ) = ⌊s⌋ := by
    have : ((⌊s⌋.toNat : Nat) : Int) = ⌊s⌋ := Int.toNat_of_nonneg hf
    exact_mod_cast this
  have h1 := Int.floor_le s
  have h2 := Int.lt_floor_add_one s
  rw [← hc] at h1 h2
  unfold halfEven
  simp only
  rw [abs_le]
  split
  · constructor <;> push_cast <;> linarith
  · split
    · constructor <;> push_cast <;> linarith
    · have h4 : ⌊s⌋.toNat % 2 = 0 ∨ ⌊s⌋.toNat % 2 = 1 := by omega
      rcases h4 with h4 | h4 <;> rw [h4] <;> constructor <;> push_cast <;> linarith

theorem halfEven_bounds {s : ℚ} (hs : 0 ≤ s) : ⌊s⌋.toNat ≤ halfEven s ∧ halfEven s ≤ ⌊s⌋.toNat + 1 := by
  unfold halfEven
  simp only
  split
  · omega
  · split <;> omega

theorem halfEven_mono {s t : ℚ} (hs : 0 ≤ s) (h : s ≤ t) : halfEven s ≤ halfEven t := by
  have hfl : ⌊s⌋.toNat ≤ ⌊t⌋.toNat := Int.toNat_le_toNat (Int.floor_le_floor h)
  rcases Nat.lt_or_ge ⌊s⌋.toNat ⌊t⌋.toNat with hlt | hge
  · have h1 := (halfEven_bounds hs).2
    have h2 := (halfEven_bounds (hs.trans h)).1
    omega
  · have he : ⌊s⌋.toNat = ⌊t⌋.toNat := by omega
    unfold halfEven
    simp only [he]
    have h4 : ⌊t⌋.toNat % 2 < 2 := Nat.mod_lt _ (by norm_num)
    split_ifs <;> first | omega | (exfalso; linarith)

/-- The parts of a bit pattern. -/
theorem Fmt.val_parts (f : Fmt) (E n : Nat) (hn : n ≤ 2 ^ (f.p + 1)) (hE : E = 0 ∨ 2 ^ f.p ≤ n) :
    f.val (E * 2 ^ f.p + n) = n * 2 ^ ((E : Int) + f.emin - f.p) := by
  have hp : 0 < 2 ^ f.p := Nat.pow_pos (by norm_num)
  have hp2 : 2 ^ (f.p + 1) = 2 * 2 ^ f.p := by ring
  generalize hP : 2 ^ f.p = P at *
  unfold Fmt.val
  rw [hP]
  rcases Nat.lt_or_ge n P with h | h
  · obtain rfl : E = 0 := by omega
    rw [Nat.zero_mul, Nat.zero_add, if_pos (Nat.div_eq_of_lt h)]; simp
  · rcases Nat.lt_or_ge n (2 * P) with h2 | h2
    · have e1 : E * P + n = P * (E + 1) + (n - P) := by
        rw [Nat.mul_add, Nat.mul_comm P E]; omega
      have e2 : (E * P + n) / P = E + 1 := by
        rw [e1, Nat.mul_add_div hp, Nat.div_eq_of_lt (by omega)]
      have e3 : (E * P + n) % P = n - P := by
        rw [e1, Nat.mul_add_mod]; exact Nat.mod_eq_of_lt (by omega)
      rw [e2, e3, if_neg (by omega)]
      have e4 : P + (n - P) = n := by omega
      rw [e4]; congr 2; push_cast; ring
    · have e0 : n = 2 * P := by omega
      have e1 : E * P + n = P * (E + 2) := by rw [e0]; ring
      have e2 : (E * P + n) / P = E + 2 := by rw [e1, Nat.mul_div_cancel_left _ hp]
      have e3 : (E * P + n) % P = 0 := by rw [e1]; exact Nat.mul_mod_right _ _
      rw [e2, e3, if_neg (by omega), e0]
      have : ((E + 2 : Nat) : Int) - 1 + f.emin - f.p = (E + f.emin - f.p) + 1 := by push_cast; ring
      rw [this, zpow_add_one₀ (by norm_num)]
      push_cast; ring

theorem Fmt.parts (f : Fmt) (k : Nat) : ∃ E n, k = E * 2 ^ f.p + n ∧ n < 2 ^ (f.p + 1) ∧ (E = 0 ∨ 2 ^ f.p ≤ n) := by
  have hp : 0 < 2 ^ f.p := Nat.pow_pos (by norm_num)
  have hp2 : 2 ^ (f.p + 1) = 2 * 2 ^ f.p := by ring
  have h1 := Nat.div_add_mod k (2 ^ f.p)
  have h2 := Nat.mod_lt k hp
  rcases Nat.eq_zero_or_pos (k / 2 ^ f.p) with h | h
  · exact ⟨0, k % 2 ^ f.p, by rw [h] at h1; omega, by omega, .inl rfl⟩
  · refine ⟨k / 2 ^ f.p - 1, 2 ^ f.p + k % 2 ^ f.p, ?_, by omega, .inr (by omega)⟩
    obtain ⟨E, hE⟩ : ∃ E, k / 2 ^ f.p = E + 1 := ⟨k / 2 ^ f.p - 1, by omega⟩
    rw [hE] at h1 ⊢
    rw [Nat.add_sub_cancel, Nat.mul_comm]
    rw [Nat.mul_add] at h1; omega

theorem Fmt.val_succ (f : Fmt) (k : Nat) : f.val k < f.val (k + 1) := by
  obtain ⟨E, n, rfl, hn, hE⟩ := f.parts k
  rw [f.val_parts E n hn.le hE, Nat.add_assoc, f.val_parts E (n + 1) hn (hE.imp id (by omega))]
  have := two_zpow_pos ((E : Int) + f.emin - f.p)
  push_cast
  linarith [this]

theorem Fmt.val_strictMono (f : Fmt) : StrictMono f.val := strictMono_nat_of_lt_succ f.val_succ

theorem Fmt.val_zero (f : Fmt) : f.val 0 = 0 := by unfold Fmt.val; simp

theorem Fmt.val_nonneg (f : Fmt) (k : Nat) : 0 ≤ f.val k := by
  rw [← f.val_zero]; exact f.val_strictMono.monotone (Nat.zero_le k)

theorem Fmt.val_pos (f : Fmt) {k : Nat} (hk : 0 < k) : 0 < f.val k := by
  rw [← f.val_zero]; exact f.val_strictMono hk

/-- The parts of the rounded number, without overflow. -/
theorem Fmt.scaled (f : Fmt) {q : ℚ} (hq : 0 < q) :
    let e := max (ilog2 q) f.emin
    let s := q / 2 ^ (e - f.p)
    0 ≤ s ∧ s < 2 ^ (f.p + 1) ∧ ((e - f.emin).toNat = 0 ∨ (2 : ℚ) ^ f.p ≤ s) ∧ ((e - f.emin).toNat : Int) = e - f.emin := by
  intro e s
  obtain ⟨h1, h2⟩ := ilog2_spec hq
  have hz := two_zpow_pos (e - f.p)
  have hpe : (2 : ℚ) ^ f.p * 2 ^ (e - f.p) = 2 ^ e := by
    rw [← zpow_natCast, ← zpow_add₀ (by norm_num)]; congr 1; ring
  refine ⟨by positivity, ?_, ?_, ?_⟩
  · rw [div_lt_iff₀ hz, pow_succ, mul_right_comm, hpe, ← zpow_add_one₀ (by norm_num)]
    refine h2.trans_le (zpow_le_zpow_right₀ (by norm_num) ?_)
    have := le_max_left (ilog2 q) f.emin
    omega
  · rcases le_total (ilog2 q) f.emin with h | h
    · left
      have : e = f.emin := max_eq_right h
      omega
    · right
      have : e = ilog2 q := max_eq_left h
      rw [le_div_iff₀ hz, hpe, this]
      exact h1
  · have := le_max_right (ilog2 q) f.emin
    exact Int.toNat_of_nonneg (by omega)

theorem halfEven_natCast (n : Nat) : halfEven (n : ℚ) = n := by
  unfold halfEven
  have : ⌊(n : ℚ)⌋.toNat = n := by simp
  simp only [this]
  norm_num

theorem halfEven_le_of {s : ℚ} {n : Nat} (hs : 0 ≤ s) (h : s ≤ n) : halfEven s ≤ n := by
  have := halfEven_mono hs h
  rwa [halfEven_natCast] at this

theorem le_halfEven_of {s : ℚ} {n : Nat} (h : (n : ℚ) ≤ s) : n ≤ halfEven s := by
  have := halfEven_mono (Nat.cast_nonneg n) h
  rwa [halfEven_natCast] at this

theorem Fmt.near_zero (f : Fmt) : f.near 0 = 0 := by unfold Fmt.near; simp

/-- Rounding does not change the order. -/
theorem Fmt.near_mono (f : Fmt) {q r : ℚ} (hq : 0 ≤ q) (h : q ≤ r) : f.near q ≤ f.near r := by
  rcases hq.eq_or_lt with rfl | hq
  · rw [f.near_zero]; exact Nat.zero_le _
  have hr : 0 < r := hq.trans_le h
  unfold Fmt.near
  rw [if_neg hq.ne', if_neg hr.ne']
  simp only
  apply min_le_min_right
  obtain ⟨a0, a1, a2, a3⟩ := f.scaled hq
  obtain ⟨b0, b1, b2, b3⟩ := f.scaled hr
  have hl : ilog2 q ≤ ilog2 r := by
    have h1 := (ilog2_spec hq).1
    have h2 := (ilog2_spec hr).2
    have : (2 : ℚ) ^ ilog2 q < 2 ^ (ilog2 r + 1) := (h1.trans h).trans_lt h2
    have := (zpow_lt_zpow_iff_right₀ (by norm_num : (1 : ℚ) < 2)).mp this
    omega
  have he : max (ilog2 q) f.emin ≤ max (ilog2 r) f.emin := max_le_max_right _ hl
  rcases he.eq_or_lt with he | he
  · rw [he] at a0 ⊢
    apply Nat.add_le_add_left
    apply halfEven_mono a0
    exact div_le_div_of_nonneg_right h (two_zpow_pos _).le
  · have h1 : halfEven (q / 2 ^ (max (ilog2 q) f.emin - f.p)) ≤ 2 ^ (f.p + 1) := by
      apply halfEven_le_of a0
      push_cast; exact a1.le
    have h2 : 2 ^ f.p ≤ halfEven (r / 2 ^ (max (ilog2 r) f.emin - f.p)) := by
      rcases b2 with b2 | b2
      · exfalso
        have := le_max_right (ilog2 q) f.emin
        omega
      · apply le_halfEven_of; push_cast; exact b2
    obtain ⟨E, hE⟩ : ∃ E, (max (ilog2 q) f.emin - f.emin).toNat = E := ⟨_, rfl⟩
    obtain ⟨G, hG⟩ : ∃ G, (max (ilog2 r) f.emin - f.emin).toNat = G := ⟨_, rfl⟩
    have hEG : E + 1 ≤ G := by omega
    rw [hE, hG]
    have h3 : (E + 1) * 2 ^ f.p ≤ G * 2 ^ f.p := Nat.mul_le_mul_right _ hEG
    rw [Nat.add_mul, Nat.one_mul] at h3
    rw [pow_succ] at h1
    omega

theorem Fmt.near_le_top (f : Fmt) (q : ℚ) : f.near q ≤ f.top := by
  unfold Fmt.near
  split
  · exact Nat.zero_le _
  · exact min_le_right _ _

/-- The rounding error. -/
theorem Fmt.near_error (f : Fmt) {q : ℚ} (hq : 0 ≤ q) (h : f.near q < f.top) :
    |f.val (f.near q) - q| ≤ max (q / 2 ^ (f.p + 1)) (2 ^ (f.emin - f.p - 1)) := by
  rcases hq.eq_or_lt with rfl | hq
  · rw [f.near_zero, f.val_zero]; simp [(two_zpow_pos _).le]
  obtain ⟨a0, a1, a2, a3⟩ := f.scaled hq
  unfold Fmt.near at h ⊢
  rw [if_neg hq.ne'] at h ⊢
  simp only at h a0 a1 a2 a3 ⊢
  set e := max (ilog2 q) f.emin with he
  rw [min_eq_left (by omega)]
  have hle : halfEven (q / 2 ^ (e - f.p)) ≤ 2 ^ (f.p + 1) := by
    apply halfEven_le_of a0; push_cast; exact a1.le
  rw [f.val_parts _ _ hle (a2.imp id (fun h => by apply le_halfEven_of; push_cast; exact h)), a3]
  have hz := two_zpow_pos (e - f.p)
  have e1 : e - f.emin + f.emin - f.p = e - (f.p : Int) := by ring
  rw [e1]
  have herr := halfEven_spec a0
  have e2 : (halfEven (q / 2 ^ (e - (f.p : Int))) : ℚ) * 2 ^ (e - (f.p : Int)) - q =
      ((halfEven (q / 2 ^ (e - (f.p : Int))) : ℚ) - q / 2 ^ (e - (f.p : Int))) * 2 ^ (e - (f.p : Int)) := by
    field_simp
  rw [e2, abs_mul, abs_of_pos hz]
  have e3 : |(halfEven (q / 2 ^ (e - (f.p : Int))) : ℚ) - q / 2 ^ (e - (f.p : Int))| * 2 ^ (e - (f.p : Int))
      ≤ 2 ^ (e - (f.p : Int) - 1) := by
    rw [zpow_sub_one₀ (by norm_num)]
    have := mul_le_mul_of_nonneg_right herr hz.le
    linarith
  refine e3.trans ?_
  rcases le_total (ilog2 q) f.emin with hc | hc
  · have : e = f.emin := max_eq_right hc
    rw [this]; exact le_max_right _ _
  · have : e = ilog2 q := max_eq_left hc
    refine le_trans ?_ (le_max_left _ _)
    rw [le_div_iff₀ (by positivity), this]
    have : (2 : ℚ) ^ (ilog2 q - f.p - 1) * 2 ^ (f.p + 1) = 2 ^ ilog2 q := by
      rw [← zpow_natCast, ← zpow_add₀ (by norm_num)]; congr 1; push_cast; ring
    rw [this]
    exact (ilog2_spec hq).1

/-- Rounding is exact on numbers of the format. -/
theorem Fmt.near_val (f : Fmt) {k : Nat} (hk : k ≤ f.top) : f.near (f.val k) = k := by
  obtain ⟨E, n, rfl, hn, hE⟩ := f.parts k
  rcases Nat.eq_zero_or_pos (E * 2 ^ f.p + n) with h0 | h0
  · rw [h0, f.val_zero, f.near_zero]
  have hv := f.val_parts E n hn.le hE
  have hpos := f.val_pos h0
  unfold Fmt.near
  rw [if_neg hpos.ne']
  simp only
  have hnpos : 0 < n := by
    rcases hE with rfl | h
    · simpa using h0
    · exact (Nat.pow_pos (by norm_num)).trans_le h
  have hE2 : max (ilog2 (f.val (E * 2 ^ f.p + n))) f.emin = E + f.emin := by
    obtain ⟨h1, h2⟩ := ilog2_spec hpos
    rw [hv] at h1 h2 ⊢
    set l := ilog2 (↑n * 2 ^ ((E : Int) + f.emin - f.p)) with hl
    have hlt : (n : ℚ) < 2 ^ (f.p + 1) := by exact_mod_cast hn
    have up : l ≤ E + f.emin := by
      have : (2 : ℚ) ^ l < 2 ^ ((E : Int) + f.emin + 1) := by
        refine h1.trans_lt ?_
        have : (2 : ℚ) ^ ((E : Int) + f.emin + 1) = 2 ^ (f.p + 1) * 2 ^ ((E : Int) + f.emin - f.p) := by
          rw [← zpow_natCast, ← zpow_add₀ (by norm_num)]; congr 1; push_cast; ring
        rw [this]
        exact mul_lt_mul_of_pos_right hlt (two_zpow_pos _)
      have := (zpow_lt_zpow_iff_right₀ (by norm_num : (1 : ℚ) < 2)).mp this
      omega
    rcases hE with rfl | hE
    · simp only [Nat.cast_zero, zero_add] at up ⊢
      exact max_eq_right up
    · have : (2 : ℚ) ^ ((E : Int) + f.emin) < 2 ^ (l + 1) := by
        refine lt_of_le_of_lt ?_ h2
        have : (2 : ℚ) ^ ((E : Int) + f.emin) = 2 ^ f.p * 2 ^ ((E : Int) + f.emin - f.p) := by
          rw [← zpow_natCast, ← zpow_add₀ (by norm_num)]; congr 1; ring
        rw [this]
        have hge : (2 : ℚ) ^ f.p ≤ n := by exact_mod_cast hE
        exact mul_le_mul_of_nonneg_right hge (two_zpow_pos _).le
      have := (zpow_lt_zpow_iff_right₀ (by norm_num : (1 : ℚ) < 2)).mp this
      have : l = E + f.emin := by omega
      rw [this, max_eq_left]; omega
  rw [hE2, hv, mul_div_assoc, div_self (two_zpow_pos _).ne', mul_one, halfEven_natCast]
  have : ((E : Int) + f.emin - f.emin).toNat = E := by simp
  rw [this]
  exact min_eq_left hk

end Hx.Fp

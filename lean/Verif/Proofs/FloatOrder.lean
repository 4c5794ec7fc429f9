import Verif.Proofs.Float
import Mathlib.Tactic.NormNum
import Mathlib.Tactic.FieldSimp

/-!
# Order of floating point keys: lemmas
-/

namespace Hx.Elen
open Hx.Spec

/-- The rational number of an encoder input. -/
def fltVal : Flt → ℚ
  | .zero => 0
  | .num s e d => decimalVal s e d

/-- What `frexp10` and the fixed-precision formatting deliver for one type: `p` digits whose value
lies in one decade `[lo, 10 lo)` (the code uses the decade of `10^(p-1.5)`). -/
def Normal (p lo : Nat) : Flt → Prop
  | .zero => True
  | .num _ _ d => AllDigits d ∧ d.length = p ∧ lo ≤ digitsVal d ∧ digitsVal d < 10 * lo

/-- Magnitudes are ordered by exponent, then by digits. -/
theorem magnitude_lt {p lo : Nat} {e e' : Int} {d d' : Bytes}
    (hx : Normal p lo (.num false e d)) (hy : Normal p lo (.num false e' d'))
    (h : decimalVal false e d < decimalVal false e' d') :
    e < e' ∨ (e = e' ∧ digitsVal d < digitsVal d') := by
  obtain ⟨-, hl, h1, h2⟩ := hx
  obtain ⟨-, hl', h1', h2'⟩ := hy
  unfold decimalVal at h
  rw [hl, hl'] at h
  simp only [Bool.false_eq_true, if_false, one_mul] at h
  have hp : (0 : ℚ) < 10 ^ p := by positivity
  have h3 : (digitsVal d : ℚ) * 10 ^ e < (digitsVal d' : ℚ) * 10 ^ e' := by
    have := mul_lt_mul_of_pos_right h hp
    have e1 : ∀ (a : ℚ) (z : ℚ), a / 10 ^ p * z * 10 ^ p = a * z := by
      intro a z; field_simp
    rwa [e1, e1] at this
  rcases lt_trichotomy e e' with hlt | heq | hgt
  · exact .inl hlt
  · refine .inr ⟨heq, ?_⟩
    subst heq
    have hz : (0 : ℚ) < 10 ^ e := by positivity
    exact_mod_cast lt_of_mul_lt_mul_right h3 hz.le
  · exfalso
    have hz : (0 : ℚ) < 10 ^ e' := by positivity
    have h4 : (10 : ℚ) ^ e' * 10 ≤ 10 ^ e := by
      have : (10 : ℚ) ^ (e' + 1) ≤ 10 ^ e := zpow_le_zpow_right₀ (by norm_num) (by omega)
      rwa [zpow_add_one₀ (by norm_num)] at this
    have h5 : (lo : ℚ) * (10 ^ e' * 10) ≤ (digitsVal d : ℚ) * 10 ^ e := by
      apply mul_le_mul _ h4 (by positivity) (by positivity)
      exact_mod_cast h1
    have h6 : (digitsVal d' : ℚ) * 10 ^ e' < (10 * lo : ℚ) * 10 ^ e' := by
      apply mul_lt_mul_of_pos_right _ hz
      exact_mod_cast h2'
    have : (lo : ℚ) * (10 ^ e' * 10) = (10 * lo : ℚ) * 10 ^ e' := by ring
    linarith

theorem decimalVal_neg (e : Int) (d : Bytes) : decimalVal true e d = - decimalVal false e d := by
  unfold decimalVal; simp only [if_true, Bool.false_eq_true, if_false]; ring

theorem decimalVal_pos {p lo : Nat} (hlo : 0 < lo) {e : Int} {d : Bytes}
    (hx : Normal p lo (.num false e d)) : 0 < decimalVal false e d := by
  obtain ⟨-, hl, h1, h2⟩ := hx
  unfold decimalVal
  simp only [Bool.false_eq_true, if_false, one_mul]
  have : (0 : ℚ) < digitsVal d := by exact_mod_cast (by omega : 0 < digitsVal d)
  positivity

/-- Smaller numbers differ from larger ones at a first byte, which is smaller. -/
theorem encFlt_diff {neg pos : UInt8} (hs : Symbols neg pos) {p lo : Nat} (hlo : 0 < lo)
    (x y : Flt) (hx : Normal p lo x) (hy : Normal p lo y) (h : fltVal x < fltVal y) :
    DiffR (· < ·) (encFlt neg pos x) (encFlt neg pos y) := by
  have hn := hs.neg_lt
  have hp := hs.pos_gt
  have h48 : (48 : UInt8).toNat = 48 := rfl
  have negpos : neg < pos := by rw [UInt8.lt_iff_toNat_lt]; omega
  have negz : neg < 48 := by rw [UInt8.lt_iff_toNat_lt]; omega
  have zpos : 48 < pos := by rw [UInt8.lt_iff_toNat_lt]; omega
  cases x with
  | zero =>
    cases y with
    | zero => simp at h
    | num s e d =>
      cases s
      · exact DiffR.head zpos _ _
      · have := decimalVal_pos hlo (e := e) (d := d) hy
        simp only [fltVal, decimalVal_neg] at h; linarith
  | num s e d =>
    cases y with
    | zero =>
      cases s
      · have := decimalVal_pos hlo (e := e) (d := d) hx
        simp only [fltVal] at h; linarith
      · exact DiffR.head negz _ _
    | num s' e' d' =>
      have px := decimalVal_pos hlo (e := e) (d := d) hx
      have py := decimalVal_pos hlo (e := e') (d := d') hy
      cases s <;> cases s' <;> simp only [fltVal, decimalVal_neg] at h
      · simp only [encFlt]
        apply DiffR.cons
        rcases magnitude_lt hx hy h with h1 | ⟨h1, h2⟩
        · simp only [List.append_assoc]
          exact (encInt_diff hs h1).append _ _
        · subst h1
          simp only [List.append_assoc]
          apply DiffR.prefix
          apply DiffR.append
          obtain ⟨ha, hl, -, -⟩ := hx
          obtain ⟨hb, hl', -, -⟩ := hy
          exact (digits_diff ha hb (by omega) h2).mono (fun _ _ h => h.2.2)
      · linarith
      · exact DiffR.head negpos _ _
      · simp only [encFlt]
        apply DiffR.cons
        have h' : decimalVal false e' d' < decimalVal false e d := by linarith
        rcases magnitude_lt hy hx h' with h1 | ⟨h1, h2⟩
        · simp only [List.append_assoc]
          exact (encInt_diff hs (by omega : -e < -e')).append _ _
        · subst h1
          simp only [List.append_assoc]
          apply DiffR.prefix
          apply DiffR.append
          obtain ⟨ha, hl, -, -⟩ := hx
          obtain ⟨hb, hl', -, -⟩ := hy
          exact flip_diff (digits_diff hb ha (by omega) h2)

/-- Numbers with one value have one representation. -/
theorem fltVal_inj {p lo : Nat} (hlo : 0 < lo) (x y : Flt) (hx : Normal p lo x)
    (hy : Normal p lo y) (h : fltVal x = fltVal y) : x = y := by
  have mag : ∀ e d e' d', Normal p lo (.num false e d) → Normal p lo (.num false e' d') →
      decimalVal false e d = decimalVal false e' d' → e = e' ∧ d = d' := by
    intro e d e' d' hx hy h
    obtain ⟨ha, hl, h1, h2⟩ := hx
    obtain ⟨hb, hl', h1', h2'⟩ := hy
    -- if the exponents differ, the smaller exponent has the smaller value
    have key : ∀ e d e' d', AllDigits d → d.length = p → lo ≤ digitsVal d →
        digitsVal d < 10 * lo → d'.length = p → lo ≤ digitsVal d' → e < e' →
        decimalVal false e d < decimalVal false e' d' := by
      intro e d e' d' _ hl h1 h2 hl' h1' hee
      unfold decimalVal
      rw [hl, hl']
      simp only [Bool.false_eq_true, if_false, one_mul]
      have hz : (0 : ℚ) < 10 ^ e := by positivity
      have h4 : (10 : ℚ) ^ e * 10 ≤ 10 ^ e' := by
        have : (10 : ℚ) ^ (e + 1) ≤ 10 ^ e' := zpow_le_zpow_right₀ (by norm_num) (by omega)
        rwa [zpow_add_one₀ (by norm_num)] at this
      have h5 : (lo : ℚ) * (10 ^ e * 10) ≤ (digitsVal d' : ℚ) * 10 ^ e' := by
        apply mul_le_mul _ h4 (by positivity) (by positivity)
        exact_mod_cast h1'
      have h6 : (digitsVal d : ℚ) * 10 ^ e < (10 * lo : ℚ) * 10 ^ e := by
        apply mul_lt_mul_of_pos_right _ hz
        exact_mod_cast h2
      have h7 : (digitsVal d : ℚ) * 10 ^ e < (digitsVal d' : ℚ) * 10 ^ e' := by
        have : (lo : ℚ) * (10 ^ e * 10) = (10 * lo : ℚ) * 10 ^ e := by ring
        linarith
      have hp : (0 : ℚ) < 10 ^ p := by positivity
      have e1 : ∀ (a : ℚ) (z : ℚ), a / 10 ^ p * z = a * z / 10 ^ p := by
        intro a z; field_simp
      rw [e1, e1]
      exact div_lt_div_of_pos_right h7 hp
    rcases lt_trichotomy e e' with h3 | h3 | h3
    · have := key e d e' d' ha hl h1 h2 hl' h1' h3; linarith
    · refine ⟨h3, ?_⟩
      subst h3
      apply digitsVal_inj ha hb (by omega)
      unfold decimalVal at h
      rw [hl, hl'] at h
      simp only [Bool.false_eq_true, if_false, one_mul] at h
      have hz : (10 : ℚ) ^ e ≠ 0 := by positivity
      have hp : (10 : ℚ) ^ p ≠ 0 := by positivity
      have h4 := mul_right_cancel₀ hz h
      have h5 := (div_left_inj' hp).mp h4
      exact_mod_cast h5
    · have := key e' d' e d hb hl' h1' h2' hl h1 h3; linarith
  cases x with
  | zero =>
    cases y with
    | zero => rfl
    | num s e d =>
      have := decimalVal_pos hlo (e := e) (d := d) hy
      cases s <;> simp only [fltVal, decimalVal_neg] at h <;> linarith
  | num s e d =>
    cases y with
    | zero =>
      have := decimalVal_pos hlo (e := e) (d := d) hx
      cases s <;> simp only [fltVal, decimalVal_neg] at h <;> linarith
    | num s' e' d' =>
      have px := decimalVal_pos hlo (e := e) (d := d) hx
      have py := decimalVal_pos hlo (e := e') (d := d') hy
      cases s <;> cases s' <;> simp only [fltVal, decimalVal_neg] at h
      · obtain ⟨rfl, rfl⟩ := mag _ _ _ _ hx hy h; rfl
      · linarith
      · linarith
      · obtain ⟨rfl, rfl⟩ := mag _ _ _ _ hx hy (by linarith); rfl

end Hx.Elen

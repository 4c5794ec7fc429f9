import Verif.Proofs.Elen
import Verif.Model.Float
import Verif.Spec.Decimal
import Mathlib.Tactic.Ring
import Mathlib.Tactic.Positivity
import Mathlib.Tactic.Linarith

/-!
# Lemmas about floating point keys
-/

namespace Hx.Elen
open Hx.Spec

/-- All characters are digits. -/
def AllDigits (s : Bytes) : Prop := ∀ c ∈ s, isDigit c = true

theorem digitsVal_foldl (acc : Nat) (s : Bytes) :
    s.foldl (fun acc (c : UInt8) => 10 * acc + (c.toNat - 48)) acc
      = acc * 10 ^ s.length + digitsVal s := by
  induction s generalizing acc with
  | nil => simp [digitsVal]
  | cons c s ih =>
    unfold digitsVal
    simp only [List.foldl_cons, List.length_cons]
    rw [ih, ih (10 * 0 + (c.toNat - 48))]
    ring

theorem digitsVal_cons (c : UInt8) (s : Bytes) :
    digitsVal (c :: s) = (c.toNat - 48) * 10 ^ s.length + digitsVal s := by
  have := digitsVal_foldl (10 * 0 + (c.toNat - 48)) s
  unfold digitsVal at this ⊢
  rw [List.foldl_cons, this]
  simp

theorem digitsVal_lt {s : Bytes} (h : AllDigits s) : digitsVal s < 10 ^ s.length := by
  induction s with
  | nil => simp [digitsVal]
  | cons c s ih =>
    rw [digitsVal_cons, List.length_cons, Nat.pow_succ]
    have h1 := ih (fun d hd => h d (by simp [hd]))
    have h2 := isDigit_iff.mp (h c (by simp))
    have : (c.toNat - 48) * 10 ^ s.length ≤ 9 * 10 ^ s.length :=
      Nat.mul_le_mul_right _ (by omega)
    omega

/-- Digit strings of one length are ordered as their values. -/
theorem digits_diff {a b : Bytes} (ha : AllDigits a) (hb : AllDigits b)
    (hl : a.length = b.length) (h : digitsVal a < digitsVal b) :
    DiffR (fun x y => isDigit x = true ∧ isDigit y = true ∧ x < y) a b := by
  induction a generalizing b with
  | nil => cases b <;> simp_all
  | cons c a ih =>
    cases b with
    | nil => simp at hl
    | cons d b =>
      simp only [List.length_cons, Nat.add_right_cancel_iff] at hl
      have ha' : AllDigits a := fun x hx => ha x (by simp [hx])
      have hb' : AllDigits b := fun x hx => hb x (by simp [hx])
      have hc := ha c (by simp)
      have hd := hb d (by simp)
      have hc' := isDigit_iff.mp hc
      have hd' := isDigit_iff.mp hd
      rw [digitsVal_cons, digitsVal_cons, hl] at h
      have la := digitsVal_lt ha'
      have lb := digitsVal_lt hb'
      rw [hl] at la
      rcases Nat.lt_trichotomy c.toNat d.toNat with hlt | heq | hgt
      · exact DiffR.head ⟨hc, hd, UInt8.lt_iff_toNat_lt.mpr hlt⟩ _ _
      · have e : c = d := UInt8.toNat_inj.mp heq
        subst e
        exact (ih ha' hb' hl (by omega)).cons _
      · exfalso
        have : (d.toNat - 48 + 1) * 10 ^ b.length ≤ (c.toNat - 48) * 10 ^ b.length :=
          Nat.mul_le_mul_right _ (by omega)
        rw [Nat.add_mul] at this
        omega

theorem digitsVal_inj {a b : Bytes} (ha : AllDigits a) (hb : AllDigits b)
    (hl : a.length = b.length) (h : digitsVal a = digitsVal b) : a = b := by
  induction a generalizing b with
  | nil => cases b <;> simp_all
  | cons c a ih =>
    cases b with
    | nil => simp at hl
    | cons d b =>
      simp only [List.length_cons, Nat.add_right_cancel_iff] at hl
      have ha' : AllDigits a := fun x hx => ha x (by simp [hx])
      have hb' : AllDigits b := fun x hx => hb x (by simp [hx])
      have hc' := isDigit_iff.mp (ha c (by simp))
      have hd' := isDigit_iff.mp (hb d (by simp))
      rw [digitsVal_cons, digitsVal_cons, hl] at h
      have la := digitsVal_lt ha'
      have lb := digitsVal_lt hb'
      rw [hl] at la
      have : c.toNat = d.toNat := by
        rcases Nat.lt_trichotomy c.toNat d.toNat with hlt | heq | hgt
        · exfalso
          have : (c.toNat - 48 + 1) * 10 ^ b.length ≤ (d.toNat - 48) * 10 ^ b.length :=
            Nat.mul_le_mul_right _ (by omega)
          rw [Nat.add_mul] at this
          omega
        · exact heq
        · exfalso
          have : (d.toNat - 48 + 1) * 10 ^ b.length ≤ (c.toNat - 48) * 10 ^ b.length :=
            Nat.mul_le_mul_right _ (by omega)
          rw [Nat.add_mul] at this
          omega
      have e : c = d := UInt8.toNat_inj.mp this
      subst e
      rw [ih ha' hb' hl (by omega)]

theorem flip_diff {a b : Bytes}
    (h : DiffR (fun x y => isDigit x = true ∧ isDigit y = true ∧ x < y) a b) :
    DiffR (· < ·) (flip b) (flip a) := by
  obtain ⟨p, x, y, s, t, rfl, rfl, hx, hy, hxy⟩ := h
  refine ⟨flip p, flipChar y, flipChar x, flip t, flip s, by simp [flip], by simp [flip], ?_⟩
  show flipChar y < flipChar x
  rw [UInt8.lt_iff_toNat_lt] at hxy ⊢
  rw [flipChar_toNat hx, flipChar_toNat hy]
  have := isDigit_iff.mp hx; have := isDigit_iff.mp hy
  omega

/-! ## Decoding the exponent -/

theorem decodeExp_unique {neg pos : UInt8} (hs : Symbols neg pos) {pre : UInt8}
    (hpre : pre = neg ∨ pre = pos) {n : Nat} (h0 : n ≠ 0) (hn : n < 2 ^ 31)
    (hfirst : (body pre neg n).head? ≠ some 48) (b : Bytes) :
    decodeExp neg pos (unique pre neg n ++ b)
      = .ok (if pre = neg then -(n : Int) else n, (unique pre neg n).length) := by
  have hsneg := hs.neg_lt
  have hspos := hs.pos_gt
  have hpd : isDigit pre = false := by
    rcases hpre with rfl | rfl <;> simp [isDigit] <;> omega
  have hp48 : pre ≠ 48 := by rintro rfl; simp [isDigit] at hpd
  rw [unique_eq_body pre neg h0]
  have hd := depth_pos n
  obtain ⟨k, hk⟩ : ∃ k, depth n = k + 1 := ⟨_, (Nat.succ_pred_eq_of_pos hd).symm⟩
  obtain ⟨c, cs, hc⟩ : ∃ c cs, body pre neg n = c :: cs := by
    cases hb : body pre neg n with
    | nil => exact absurd hb (body_ne_nil _ _ _)
    | cons c cs => exact ⟨c, cs, rfl⟩
  have hcd : isDigit c = true := body_digits pre neg n c (by simp [hc])
  have hcp : c ≠ pre := by rintro rfl; rw [hpd] at hcd; cases hcd
  have hc48 : c ≠ 48 := by rintro rfl; simp [hc] at hfirst
  have hstr : List.replicate (depth n) pre ++ body pre neg n ++ b =
      pre :: (List.replicate k pre ++ (body pre neg n ++ b)) := by
    rw [hk]; simp [List.replicate_succ]
  have htw : ((List.replicate (depth n) pre ++ body pre neg n ++ b).takeWhile (· == pre)).length
      = depth n := by
    rw [List.append_assoc, takeWhile_replicate _ _ _ (by rw [hc]; simp [hcp])]
    simp
  have hget : (List.replicate (depth n) pre ++ body pre neg n ++ b)[depth n]? = some c := by
    rw [List.append_assoc, List.getElem?_append_right (by simp), hc]; simp
  have hcount : getPrefixCount pre (List.replicate (depth n) pre ++ body pre neg n ++ b) neg pos
      = .ok (depth n) := by
    unfold getPrefixCount
    rw [if_neg (by rw [hstr]; simp [hp48]), if_neg (by rcases hpre with rfl | rfl <;> simp)]
    simp only [htw, hget, hcd, if_true]
  generalize hS : List.replicate (depth n) pre ++ body pre neg n ++ b = S at *
  have hlen := lengths_body pre neg (n := n) (by omega) (List.replicate (depth n) pre) b
  rw [← List.append_assoc, hS, List.length_replicate] at hlen
  have hnext := next_written pre neg (List.replicate (depth n) pre ++ bodyHead pre neg n) b n
    (2 ^ 31 - 1) (by omega)
  have hS2 : List.replicate (depth n) pre ++ bodyHead pre neg n ++ (written pre neg (toDec n) ++ b)
      = S := by
    rw [← hS, body_eq]; simp
  rw [hS2, List.length_append, List.length_replicate] at hnext
  have : decodeExp neg pos S = (do
      let count ← getPrefixCount pre S neg pos
      if S[count]? = some 48 then .ok (0, count + 1)
      else
        let (len, position) ← lengths pre neg S (count - 1) 1 count
        let (v, position) ← next pre neg S position len (2 ^ 31 - 1)
        .ok (if pre = neg then -(v : Int) else v, position)) := by
    rw [hstr]; rfl
  rw [this, hcount]
  simp only [Out.ok_bind]
  rw [if_neg (by rw [hget]; simpa using hc48), hlen]
  simp only [Out.ok_bind]
  rw [hnext]
  simp only [Out.ok_bind, Out.ok.injEq, Prod.mk.injEq, true_and]
  rw [body_eq]; simp [Nat.add_assoc]

theorem toDec_small {n : Nat} (h : n < 10) : toDec n = [digitChar n] := by
  rw [toDec, if_pos h]

theorem length_toDec_bound : ∀ k m, m < 10 ^ k → 0 < k → (toDec m).length ≤ k := by
  intro k
  induction k with
  | zero => intro m _ h; omega
  | succ k ihk =>
    intro m hm _
    unfold toDec
    split
    · simp
    · rcases Nat.eq_zero_or_pos k with rfl | hk0
      · omega
      · have := ihk (m / 10) (by rw [Nat.pow_succ] at hm; omega) hk0
        simp; omega

/-- The first character after the prefix symbols is `'0'` only for the magnitude 9 written with
flipped digits (magnitudes below 10^8). -/
theorem body_head (pre neg : UInt8) {n : Nat} (h0 : n ≠ 0) (hn : n < 10 ^ 8)
    (h9 : pre = neg → n ≠ 9) : (body pre neg n).head? ≠ some 48 := by
  have small : ∀ m, m ≠ 0 → m < 10 → (pre = neg → m ≠ 9) →
      (written pre neg (toDec m)).head? ≠ some 48 ∧ (written pre neg (toDec m)).length = 1 := by
    intro m hm0 hm hm9
    refine ⟨?_, by simp [toDec_small hm]⟩
    rw [toDec_small hm]
    have hdig := isDigit_digitChar hm
    have hnat := digitChar_toNat hm
    unfold written
    split
    · rename_i hp
      have := hm9 hp
      simp only [flip, List.map_cons, List.map_nil, List.head?_cons, ne_eq, Option.some.injEq]
      intro h
      have h2 := congrArg UInt8.toNat h
      rw [flipChar_toNat hdig, hnat] at h2
      have h48 : (48 : UInt8).toNat = 48 := rfl
      omega
    · simp only [List.head?_cons, ne_eq, Option.some.injEq]
      intro h
      have h2 := congrArg UInt8.toNat h
      rw [hnat] at h2
      have h48 : (48 : UInt8).toNat = 48 := rfl
      omega
  rw [body_eq, bodyHead]
  split
  · rename_i h2
    have hl := length_toDec_bound 8 n hn (by omega)
    have hs := small (toDec n).length (by omega) (by omega) (by omega)
    rw [body_eq, bodyHead, if_neg (by rw [toDec_small (by omega)]; simp), List.nil_append]
    rw [List.head?_append_of_ne_nil _ (written_ne_nil _ _ _)]
    exact hs.1
  · rename_i h2
    have : n < 10 := by
      by_contra hge
      apply h2
      rw [toDec, if_neg hge]
      have := length_toDec_pos (n / 10)
      simp; omega
    rw [List.nil_append]
    exact (small n h0 this h9).1

/-- Decoding an exponent that is not coded as -9, whatever follows. -/
theorem decodeExp_encInt {neg pos : UInt8} (hs : Symbols neg pos) (e : Int)
    (he : e.natAbs < 10 ^ 8) (h9 : e ≠ -9) (b : Bytes) :
    decodeExp neg pos (encInt neg pos e ++ b) = .ok (e, (encInt neg pos e).length) := by
  have hnp : pos ≠ neg := by
    rintro rfl; have := hs.neg_lt; have := hs.pos_gt; omega
  unfold encInt
  split
  · rw [decodeExp_unique hs (.inl rfl) (by omega) (by omega)
      (body_head _ _ (by omega) he (by intro _; omega)) b, if_pos rfl]
    congr 2; omega
  · split
    · rw [decodeExp_unique hs (.inr rfl) (by omega) (by omega)
        (body_head _ _ (by omega) he (fun h => absurd h hnp)) b, if_neg hnp]
      congr 2; omega
    · have : e = 0 := by omega
      subst this
      simp [decodeExp, getPrefixCount]

theorem decodeFlt_front {neg pos : UInt8} (hs : Symbols neg pos) (sign : Bool) (E : Bytes)
    (digits : Bytes) (x : Int) (hd : digits ≠ [])
    (hE : decodeExp neg pos (E ++ (digits ++ [if sign then pos else neg]))
      = .ok (x, E.length)) (hEn : E ≠ []) :
    decodeFlt neg pos ((if sign then neg else pos) :: (E ++ digits ++ [if sign then pos else neg]))
      = .ok (.num sign (if sign then -x else x) (if sign then flip digits else digits)) := by
  have hnp : pos ≠ neg := by
    rintro rfl; have := hs.neg_lt; have := hs.pos_gt; omega
  obtain ⟨a, E', rfl⟩ := List.exists_cons_of_ne_nil hEn
  obtain ⟨d, D', rfl⟩ := List.exists_cons_of_ne_nil hd
  rw [List.append_assoc]
  generalize hW : (a :: E') ++ ((d :: D') ++ [if sign then pos else neg]) = W at *
  have hWl : W.length = E'.length + D'.length + 3 := by
    rw [← hW]; simp; omega
  have hback : W.getLastD 0 = if sign then pos else neg := by
    rw [← hW, ← List.append_assoc, List.getLastD_eq_getLast?, List.getLast?_append]; rfl
  have hdrop : W.drop (a :: E').length = (d :: D') ++ [if sign then pos else neg] := by
    rw [← hW]; exact List.drop_left' rfl
  obtain ⟨w0, w1, w2, Ws, rfl⟩ : ∃ w0 w1 w2 Ws, W = w0 :: w1 :: w2 :: Ws := by
    match W, hWl with
    | w0 :: w1 :: w2 :: Ws, _ => exact ⟨w0, w1, w2, Ws, rfl⟩
    | [_, _], h => simp at h
    | [_], h => simp at h
    | [], h => simp at h
  unfold decodeFlt
  simp only [hback]
  cases sign
  · simp only [Bool.false_eq_true, if_false] at *
    rw [if_neg (by rintro ⟨h, _⟩; exact hnp h), if_pos ⟨trivial, trivial⟩, Out.ok_bind, hE]
    simp only [Out.ok_bind]
    rw [if_neg (by simp at hWl ⊢; omega), hdrop, if_neg (by simp)]
    have hdl : ((d :: D') ++ [neg]).dropLast = d :: D' := by
      rw [List.dropLast_append_of_ne_nil (by simp)]; simp
    rw [hdl]; rfl
  · simp only [if_true] at *
    rw [if_pos ⟨trivial, trivial⟩, Out.ok_bind, hE]
    simp only [Out.ok_bind]
    rw [if_neg (by simp at hWl ⊢; omega), hdrop, if_neg (by simp)]
    have hdl : ((d :: D') ++ [pos]).dropLast = d :: D' := by
      rw [List.dropLast_append_of_ne_nil (by simp)]; simp
    rw [hdl]; rfl

theorem encInt_ne_nil (neg pos : UInt8) (v : Int) : encInt neg pos v ≠ [] := by
  unfold encInt
  split
  · exact unique_ne_nil _ _ _
  · split
    · exact unique_ne_nil _ _ _
    · simp

end Hx.Elen

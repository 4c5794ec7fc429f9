import Verif.Proofs.FloatOrder
import Mathlib.Data.Fintype.EquivFin
import Mathlib.Tactic.NormNum

/-!
# C07: floating point keys

`decimalVal` (Verif/Spec/Decimal.lean; `fltVal` applies it to an encoder input) is the rational number a sign, exponent and digit string
stand for; it is defined without reference to the encoder.
-/

namespace Hx.Props
open Hx Elen Spec

/-- C07, order. Stored floating point numbers compare byte by byte as the (decimal) numbers they
stand for. -/
theorem C07_float_order {neg pos : UInt8} (hs : Symbols neg pos) {p lo : Nat} (hlo : 0 < lo)
    (x y : Flt) (hx : Normal p lo x) (hy : Normal p lo y) :
    encFlt neg pos x < encFlt neg pos y ↔ fltVal x < fltVal y := by
  constructor
  · intro h
    rcases lt_trichotomy (fltVal x) (fltVal y) with h1 | h1 | h1
    · exact h1
    · rw [fltVal_inj hlo x y hx hy h1] at h; exact absurd h (bytes_lt_irrefl _)
    · exact absurd h (bytes_lt_asymm (encFlt_diff hs hlo y x hy hx h1).lt)
  · intro h
    exact (encFlt_diff hs hlo x y hx hy h).lt

/-- The decade the code uses for doubles: sixteen digits from `10^(16-1.5)`. -/
example : Normal 16 316227766016837 (.num true (-3) [49, 50, 51, 52, 53, 54, 55, 56, 57, 48, 49, 50, 51, 52, 53, 54])
    ∧ Normal 16 316227766016837 (.num false 12 [48, 57, 51, 52, 53, 54, 55, 56, 57, 48, 49, 50, 51, 52, 53, 54]) := by
  unfold Normal AllDigits; decide

/-- C07, order inside a composite key: the stored form of a number is never a prefix of that of
another number, so the order of keys of one subject is the order of the predicates. -/
theorem C07_float_order_stable {neg pos : UInt8} (hs : Symbols neg pos) {p lo : Nat} (hlo : 0 < lo)
    (x y : Flt) (hx : Normal p lo x) (hy : Normal p lo y) (h : fltVal x < fltVal y) (u v w : Bytes) :
    u ++ (encFlt neg pos x ++ v) < u ++ (encFlt neg pos y ++ w) :=
  (((encFlt_diff hs hlo x y hx hy h).append v w).prefix u).lt

/-- C07, reading back, part: the sign, exponent and digits come back, unless the exponent is
written as -9.
Missing for the full statement: exponent 9 of negative and -9 of positive numbers
(`C07_float_decode_false`). Decimal exponents of floats and doubles are far below 10^8. -/
theorem C07_float_decode_partial {neg pos : UInt8} (hs : Symbols neg pos) (x : Flt)
    (hx : match x with
      | .zero => True
      | .num s e d => AllDigits d ∧ d ≠ [] ∧ e.natAbs < 10 ^ 8 ∧ (if s then e ≠ 9 else e ≠ -9)) :
    decodeFlt neg pos (encFlt neg pos x) = .ok x := by
  cases x with
  | zero => simp [encFlt, decodeFlt]
  | num s e d =>
    obtain ⟨hd, hne, he, h9⟩ := hx
    cases s
    · simp only [Bool.false_eq_true, if_false] at h9
      have := decodeFlt_front hs false (encInt neg pos e) d e hne
        (decodeExp_encInt hs e he h9 _) (encInt_ne_nil _ _ _)
      simpa [encFlt] using this
    · simp only [if_true] at h9
      have hfne : flip d ≠ [] := by
        unfold Elen.flip; simpa using hne
      have := decodeFlt_front hs true (encInt neg pos (-e)) (flip d) (-e) hfne
        (decodeExp_encInt hs (-e) (by omega) (by omega) _) (encInt_ne_nil _ _ _)
      simpa [encFlt, flip_flip hd] using this

example : decodeFlt 0x2f 0x3a (encFlt 0x2f 0x3a (.num true (-12) [50, 53, 48])) =
    .ok (.num true (-12) [50, 53, 48]) :=
  C07_float_decode_partial defaultSymbols' _ (by unfold AllDigits; decide)
where
  defaultSymbols' : Symbols 0x2f 0x3a := ⟨by decide, by decide⟩

/-- C07 fails for exponent -9: `decode::floating_point` takes the flipped digit `0` of `/0` for
the exponent code `0` (include/utils/elen.tpp:412). Every positive number with decimal exponent -9
(about 10^-10, for example `1e-10`) and every negative number with decimal exponent 9 is read back
with exponent 0. -/
theorem C07_float_decode_false {neg pos : UInt8} (hs : Symbols neg pos) (d : Bytes)
    (hd : AllDigits d) (hne : d ≠ []) :
    decodeFlt neg pos (encFlt neg pos (.num false (-9) d)) = .ok (.num false 0 d) ∧
    decodeFlt neg pos (encFlt neg pos (.num true 9 d)) = .ok (.num true 0 d) := by
  have hnp : pos ≠ neg := by
    rintro rfl; have := hs.neg_lt; have := hs.pos_gt; omega
  have henc : encInt neg pos (-9) = [neg, 48] := by
    simp [encInt, unique, toDec, Elen.flip, flipChar, isDigit, digitChar]
  have hn48 : neg ≠ 48 := by
    rintro rfl
    have := hs.neg_lt
    have h48 : (48 : UInt8).toNat = 48 := rfl
    omega
  have hdec : ∀ b, decodeExp neg pos ([neg, 48] ++ b) = .ok (0, 2) := by
    intro b
    have h48n : ¬ (48 : UInt8) = neg := fun h => hn48 h.symm
    simp [decodeExp, getPrefixCount, hn48, h48n, isDigit]
  constructor
  · have := decodeFlt_front hs false [neg, 48] d 0 hne (hdec _) (by simp)
    simpa [encFlt, henc] using this
  · have hfne : flip d ≠ [] := by
      unfold Elen.flip; simpa using hne
    have := decodeFlt_front hs true [neg, 48] (flip d) 0 hfne (hdec _) (by simp)
    simpa [encFlt, henc, flip_flip hd] using this

/-- Doubles are not stored exactly: the 2^52 doubles in `[1, 2)` are written with exponent 1 and a
16-digit mantissa between 0.1000000000000000 and 0.2000000000000000, so two different doubles get
the same stored form, however the digits are computed. (So the second PUT of two such keys
overwrites the first, and an object read back is not the one that was PUT.) -/
theorem C07_double_collision (neg pos : UInt8) (mantissa : Fin (2 ^ 52) → Nat)
    (digits : Nat → Bytes)
    (h : ∀ i, 10 ^ 15 ≤ mantissa i ∧ mantissa i ≤ 2 * 10 ^ 15) :
    ∃ i j, i ≠ j ∧ encFlt neg pos (.num false 1 (digits (mantissa i)))
      = encFlt neg pos (.num false 1 (digits (mantissa j))) := by
  by_contra hno
  push Not at hno
  have hinj : Function.Injective (fun i : Fin (2 ^ 52) =>
      (⟨mantissa i - 10 ^ 15, by have := h i; omega⟩ : Fin (10 ^ 15 + 1))) := by
    intro i j hij
    by_contra hne
    apply hno i j hne
    have h1 := h i
    have h2 := h j
    have : mantissa i = mantissa j := by
      have := congrArg Fin.val hij
      simp only at this
      omega
    rw [this]
  have := Fintype.card_le_of_injective _ hinj
  rw [Fintype.card_fin, Fintype.card_fin] at this
  omega

example : ∃ m : Fin (2 ^ 52) → Nat, ∀ i, 10 ^ 15 ≤ m i ∧ m i ≤ 2 * 10 ^ 15 :=
  ⟨fun i => 10 ^ 15 + i.val % 10 ^ 15, fun i => by
    show 10 ^ 15 ≤ 10 ^ 15 + i.val % 10 ^ 15 ∧ 10 ^ 15 + i.val % 10 ^ 15 ≤ 2 * 10 ^ 15
    omega⟩

end Hx.Props

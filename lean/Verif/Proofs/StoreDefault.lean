import Verif.Proofs.StoreHistory
import Verif.Props.C03_Integers

/-!
# Helper lemmas: the default callbacks on plain values
-/

namespace Hx.Elen

theorem length_toDec_pow (k n : Nat) (h : n < 10 ^ (k + 1)) : (toDec n).length ≤ k + 1 := by
  induction k generalizing n with
  | zero => unfold toDec; rw [if_pos (by simpa using h)]; simp
  | succ k ih =>
    unfold toDec
    split
    · simp
    · have := ih (n / 10) (by rw [Nat.pow_succ] at h; omega)
      simp; omega

theorem length_unique_le (pre neg : UInt8) (n : Nat) : (unique pre neg n).length ≤ 3 * n + 1 := by
  induction n using Nat.strongRecOn with
  | _ n ih =>
    by_cases h0 : n = 0
    · subst h0; rw [unique]; simp
    · rw [unique, if_neg h0]
      have hl : (if pre = neg then flip (toDec n) else toDec n).length = (toDec n).length := by split <;> simp
      simp only [List.length_cons, List.length_append, hl]
      by_cases h2 : 2 ≤ (toDec n).length
      · rw [dif_pos h2]
        have h3 := ih _ (length_toDec_lt h2)
        have h4 : (toDec n).length ≤ n / 10 + 2 := by
          rw [toDec]; split
          · simp
          · have := length_toDec_le (n / 10); simp; omega
        have h5 : 10 ≤ n := by
          rcases Nat.lt_or_ge n 10 with h | h
          · exfalso; rw [toDec, if_pos h] at h2; simp at h2
          · exact h
        omega
      · rw [dif_neg h2]; simp; omega

theorem length_unique_small (pre neg : UInt8) (n : Nat) (h : n < 10 ^ 20) : (unique pre neg n).length < 2 ^ 64 := by
  by_cases h0 : n = 0
  · subst h0; rw [unique]; simp
  · rw [unique, if_neg h0]
    have hl : (if pre = neg then flip (toDec n) else toDec n).length = (toDec n).length := by split <;> simp
    have h1 := length_toDec_pow 19 n h
    have h3 := length_unique_le pre neg (toDec n).length
    simp only [List.length_cons, List.length_append, hl]
    split
    · omega
    · simp; omega

end Hx.Elen

namespace Hx.Store
open Hx Msg Spec Elen

theorem intType_width {t : Nat} {i : IntType} (h : intType t = some i) : 0 < i.width ∧ i.width ≤ 8 := by
  unfold intType at h
  split at h
  · cases h; decide
  · split at h
    · cases h; decide
    · split at h
      · cases h; decide
      · split at h
        · cases h; decide
        · cases h

/-- An integer that is not the smallest signed one has a stored form of moderate size which is
decoded to it. -/
theorem int_good {neg pos : UInt8} (hs : Symbols neg pos) {t : IntType} (hw : 0 < t.width) (hw8 : t.width ≤ 8)
    {m : Bytes} (hm : m.length = t.width) (hmin : t.signed = true → ofMem t m ≠ t.min) :
    ∃ e, encodeMem neg pos t m = .ok e ∧ e.length < 2 ^ 64 ∧ decodeMem neg pos t e = .ok m := by
  have hrt := Props.C04_integer_roundtrip_partial hs t hw hw8 m hm hmin
  cases he : encodeMem neg pos t m with
  | err => rw [he] at hrt; cases hrt
  | ub => rw [he] at hrt; cases hrt
  | ok e =>
    rw [he, Out.ok_bind] at hrt
    refine ⟨e, rfl, ?_, hrt⟩
    unfold encodeMem encodeInteger at he
    rw [if_neg (by omega)] at he
    split at he
    · cases he
    · cases he
      have hr := ofMem_range t hw m hm
      rw [List.take_of_length_le (by omega)]
      have hpow : 2 ^ (8 * t.width) ≤ 2 ^ 64 := Nat.pow_le_pow_right (by omega) (by omega)
      have hpow1 : (2 : Nat) ^ (8 * t.width - 1) ≤ 2 ^ 64 := Nat.pow_le_pow_right (by omega) (by omega)
      have hb : (ofMem t m).natAbs < 10 ^ 20 := by
        unfold IntType.min IntType.max at hr
        split at hr <;> omega
      unfold encInt
      split
      · exact length_unique_small _ _ _ hb
      · split
        · exact length_unique_small _ _ _ hb
        · simp

theorem plain_enc {neg pos : UInt8} (hs : Symbols neg pos) (f : FloatCodec) {b : Blob} (h : Plain b) :
    (defaultCallbacks neg pos f).encode b = .ok ((plainTransform neg pos f).E b.val) ∧
    ∀ e, (plainTransform neg pos f).E b.val = some e → e.length < 2 ^ 64 ∧
      (defaultCallbacks neg pos f).decode ⟨e, b.typ⟩ = .ok (some b.bytes) := by
  simp only [plainTransform, Blob.val, defaultCallbacks]
  cases ht : intType b.typ with
  | some t =>
    obtain ⟨ha, hl, hmin⟩ := h.int t ht
    obtain ⟨hw, hw8⟩ := intType_width ht
    obtain ⟨e, he, hlen, hd⟩ := int_good hs hw hw8 hl hmin
    simp only [he, ha, if_false, Out.ok_bind, Nat.one_ne_zero]
    refine ⟨trivial, ?_⟩
    intro e' h'; cases h'
    exact ⟨hlen, by rw [hd]; rfl⟩
  | none =>
    have hf : ¬ (b.typ = tFloat ∨ b.typ = tDouble) := by
      rintro (h1 | h1)
      · exact h.notFloat.1 h1
      · exact h.notFloat.2 h1
    simp only [hf, if_false]
    by_cases hb : b.typ = tByte ∨ b.typ = tPointer
    · simp only [hb, if_true]
      refine ⟨trivial, ?_⟩
      intro e' h'; cases h'
      exact ⟨h.len, rfl⟩
    · simp only [hb, if_false]
      exact ⟨trivial, by intro e' h'; cases h'⟩

/-- The stored form of an integer is `encInt` of some value. -/
theorem int_stored {neg pos : UInt8} {f : FloatCodec} {v : Val} {t : IntType} (ht : intType v.typ = some t) {e : Bytes}
    (h : (plainTransform neg pos f).E v = some e) : ∃ z, e = encInt neg pos z := by
  simp only [plainTransform, defaultCallbacks, ht, Nat.one_ne_zero, if_false, encodeMem, encodeInteger] at h
  split at h
  · rename_i h1
    revert h1 h
    split
    · intro h; cases h
    · split
      · intro h; cases h
      · intro h1 h2
        rw [Out.ok_bind] at h1
        cases h1; cases h2; exact ⟨_, rfl⟩
  · cases h

theorem plain_keyOk {neg pos : UInt8} (hs : Symbols neg pos) (f : FloatCodec) {b : Blob} (h : Plain b) :
    KeyOk (defaultCallbacks neg pos f) (plainTransform neg pos f) b :=
  ⟨(plain_enc hs f h).1, h.typ, fun e he => ((plain_enc hs f h).2 e he).1, fun e he => ((plain_enc hs f h).2 e he).2⟩

theorem plain_objOk {neg pos : UInt8} (hs : Symbols neg pos) (f : FloatCodec) {b : Blob} (h : Plain b) :
    ObjOk (defaultCallbacks neg pos f) (plainTransform neg pos f) b :=
  ⟨(plain_enc hs f h).1, by have := h.typ; omega, fun e he => ((plain_enc hs f h).2 e he).2⟩

theorem plain_bodyOk {neg pos : UInt8} (hs : Symbols neg pos) (f : FloatCodec) {r : ReqBody} (h : PlainBody r) :
    BodyOk (defaultCallbacks neg pos f) (plainTransform neg pos f) r := by
  cases r with
  | put l => exact fun x hx => ⟨plain_keyOk hs f (h x hx).1, plain_keyOk hs f (h x hx).2.1, plain_objOk hs f (h x hx).2.2⟩
  | del l => exact fun x hx => ⟨plain_keyOk hs f (h x hx).1, plain_keyOk hs f (h x hx).2⟩
  | get l => trivial
  | getop l => trivial
  | hist l => trivial

end Hx.Store

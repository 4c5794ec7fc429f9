import Verif.Proofs.FpDecode
import Verif.Proofs.StoreDefault

/-!
# Bit patterns in memory
-/

namespace Hx.Fp
open Hx Spec Elen Store

/-- A bit pattern is a sign and the pattern of a magnitude. -/
theorem ieee_eq (f : Fmt) (x : Nat) :
    ieee f.w f.p x =
      if x % (2 ^ f.p * 2 ^ f.w) < f.top then .fin (decide (x / 2 ^ (f.w + f.p) % 2 = 1)) (f.val (x % (2 ^ f.p * 2 ^ f.w)))
      else if x % (2 ^ f.p * 2 ^ f.w) = f.top then .inf (decide (x / 2 ^ (f.w + f.p) % 2 = 1)) else .nan := by
  have hp : 0 < 2 ^ f.p := Nat.pow_pos (by norm_num)
  have hw : 0 < 2 ^ f.w := Nat.pow_pos (by norm_num)
  have d1 : x % (2 ^ f.p * 2 ^ f.w) / 2 ^ f.p = x / 2 ^ f.p % 2 ^ f.w := Nat.mod_mul_right_div_self _ _ _
  have d2 : x % (2 ^ f.p * 2 ^ f.w) % 2 ^ f.p = x % 2 ^ f.p := Nat.mod_mul_right_mod _ _ _
  have d3 := Nat.div_add_mod (x % (2 ^ f.p * 2 ^ f.w)) (2 ^ f.p)
  have d4 : x / 2 ^ f.p % 2 ^ f.w < 2 ^ f.w := Nat.mod_lt _ hw
  have d5 : x % 2 ^ f.p < 2 ^ f.p := Nat.mod_lt _ hp
  unfold ieee
  simp only
  rw [d1, d2] at d3
  by_cases h : x / 2 ^ f.p % 2 ^ f.w = 2 ^ f.w - 1
  · rw [if_pos h]
    have htop : x % (2 ^ f.p * 2 ^ f.w) = f.top + x % 2 ^ f.p := by
      rw [← d3, h]; unfold Fmt.top; rw [Nat.mul_comm]
    have hlt : ¬ f.top + x % 2 ^ f.p < f.top := by omega
    rw [htop, if_neg hlt]
    by_cases h0 : x % 2 ^ f.p = 0
    · rw [if_pos h0, if_pos (by omega)]
    · rw [if_neg h0, if_neg (by omega)]
  · rw [if_neg h]
    have htop : x % (2 ^ f.p * 2 ^ f.w) < f.top := by
      unfold Fmt.top
      rw [Nat.mul_comm (2 ^ f.w - 1)]
      have : 2 ^ f.p * (x / 2 ^ f.p % 2 ^ f.w + 1) ≤ 2 ^ f.p * (2 ^ f.w - 1) := Nat.mul_le_mul_left _ (by omega)
      rw [Nat.mul_add] at this
      omega
    rw [if_pos htop]
    unfold Fmt.val Fmt.emin
    rw [d1, d2]
    by_cases h0 : x / 2 ^ f.p % 2 ^ f.w = 0
    · rw [if_pos h0, if_pos h0]
      congr 2
      rw [← d3, h0]; simp
    · rw [if_neg h0, if_neg h0]
      congr 3
      push_cast; ring

theorem ieee_fin {f : Fmt} {x : Nat} {s : Bool} {q : ℚ} (h : ieee f.w f.p x = .fin s q) : ∃ k, k < f.top ∧ q = f.val k := by
  rw [ieee_eq] at h
  split at h
  · next hk => cases h; exact ⟨_, hk, rfl⟩
  · split at h <;> cases h

/-- The pattern of a finite number. -/
theorem ieee_bits {f : Fmt} (s : Bool) {k : Nat} (hk : k < f.top) :
    ieee f.w f.p (f.bits (.fin s (f.val k))) = .fin s (f.val k) ∧ f.bits (.fin s (f.val k)) < 2 ^ (1 + f.w + f.p) := by
  have hp : 0 < 2 ^ f.p := Nat.pow_pos (by norm_num)
  have hwp : 0 < 2 ^ f.w := Nat.pow_pos (by norm_num)
  have e1 : 2 ^ (f.w + f.p) = 2 ^ f.p * 2 ^ f.w := by rw [Nat.pow_add, Nat.mul_comm]
  have e2 : 2 ^ (1 + f.w + f.p) = 2 * (2 ^ f.p * 2 ^ f.w) := by rw [← e1]; ring
  have ht : f.top < 2 ^ f.p * 2 ^ f.w := by
    unfold Fmt.top
    rw [Nat.mul_comm]
    exact Nat.mul_lt_mul_of_pos_left (by omega) hp
  have hb : f.bits (.fin s (f.val k)) = (if s then 2 ^ f.p * 2 ^ f.w else 0) + k := by
    unfold Fmt.bits; simp only; rw [f.near_val (by omega), e1]
  rw [hb, e2]
  generalize hN : 2 ^ f.p * 2 ^ f.w = N at *
  constructor
  · rw [ieee_eq, e1, hN]
    have m : ((if s then N else 0) + k) % N = k := by
      cases s
      · simp; exact Nat.mod_eq_of_lt (by omega)
      · simp; exact Nat.mod_eq_of_lt (by omega)
    have d : decide (((if s then N else 0) + k) / N % 2 = 1) = s := by
      cases s
      · simp [Nat.div_eq_of_lt (show k < N by omega)]
      · have : (N + k) / N = 1 := by
          rw [Nat.add_div_left _ (by omega), Nat.div_eq_of_lt (by omega)]
        simp [this]
    rw [m, d, if_pos hk]
  · cases s <;> simp <;> omega

theorem ieee_bits_inf {f : Fmt} (s : Bool) :
    ieee f.w f.p (f.bits (.inf s)) = .inf s ∧ f.bits (.inf s) < 2 ^ (1 + f.w + f.p) := by
  have hp : 0 < 2 ^ f.p := Nat.pow_pos (by norm_num)
  have hwp : 0 < 2 ^ f.w := Nat.pow_pos (by norm_num)
  have e1 : 2 ^ (f.w + f.p) = 2 ^ f.p * 2 ^ f.w := by rw [Nat.pow_add, Nat.mul_comm]
  have e2 : 2 ^ (1 + f.w + f.p) = 2 * (2 ^ f.p * 2 ^ f.w) := by rw [← e1]; ring
  have ht : f.top < 2 ^ f.p * 2 ^ f.w := by
    unfold Fmt.top
    rw [Nat.mul_comm]
    exact Nat.mul_lt_mul_of_pos_left (by omega) hp
  have hb : f.bits (.inf s) = (if s then 2 ^ f.p * 2 ^ f.w else 0) + f.top := by
    unfold Fmt.bits; simp only; rw [e1]
  rw [hb, e2]
  generalize hN : 2 ^ f.p * 2 ^ f.w = N at *
  constructor
  · rw [ieee_eq, e1, hN]
    have m : ((if s then N else 0) + f.top) % N = f.top := by
      cases s
      · simp; exact Nat.mod_eq_of_lt (by omega)
      · simp; exact Nat.mod_eq_of_lt (by omega)
    have d : decide (((if s then N else 0) + f.top) / N % 2 = 1) = s := by
      cases s
      · simp [Nat.div_eq_of_lt (show f.top < N by omega)]
      · have : (N + f.top) / N = 1 := by
          rw [Nat.add_div_left _ (by omega), Nat.div_eq_of_lt (by omega)]
        simp [this]
    rw [m, d, if_neg (by omega), if_pos rfl]
  · cases s <;> simp <;> omega

theorem isFmt_fmtOf (t : Nat) : IsFmt (fmtOf t) := by
  unfold fmtOf; split
  · exact .inl rfl
  · exact .inr rfl

theorem fmt_number (t : Nat) (m : Bytes) : ieee (fmtOf t).w (fmtOf t).p (leVal (m.take (fmtOf t).size)) = numberIn t m := by
  unfold fmtOf numberIn
  by_cases h : t = tFloat
  · rw [if_pos h, if_pos h]; rfl
  · rw [if_neg h, if_neg h]; rfl

theorem fmt_size (t : Nat) : (fmtOf t).size = numSize t := by
  unfold fmtOf numSize
  by_cases h : t = tFloat
  · rw [if_pos h, if_pos h]; rfl
  · rw [if_neg h, if_neg h]; rfl

/-- The precision for a type. -/
def precOf (t fprec dprec : Nat) : Nat := if t = tFloat then fprec else dprec

theorem codec_encode (lib : Libm) (neg pos : UInt8) (fprec dprec : Nat) (v : Val) (h : numSize v.typ ≤ v.bytes.length) :
    (codec lib neg pos fprec dprec).encode v =
      encodeNum lib (fmtOf v.typ) (precOf v.typ fprec dprec) neg pos (numberIn v.typ v.bytes) >>= fun e => .ok (some e) := by
  unfold codec
  simp only
  rw [fmt_size, if_neg (by omega), ← fmt_number, fmt_size]
  rfl

theorem codec_encode_ok {lib : Libm} {neg pos : UInt8} {fprec dprec : Nat} {v : Val} {e : Bytes}
    (h : (codec lib neg pos fprec dprec).encode v = .ok (some e)) :
    numSize v.typ ≤ v.bytes.length ∧ encodeNum lib (fmtOf v.typ) (precOf v.typ fprec dprec) neg pos (numberIn v.typ v.bytes) = .ok e := by
  by_cases hl : numSize v.typ ≤ v.bytes.length
  · rw [codec_encode _ _ _ _ _ _ hl] at h
    refine ⟨hl, ?_⟩
    cases hx : encodeNum lib (fmtOf v.typ) (precOf v.typ fprec dprec) neg pos (numberIn v.typ v.bytes) with
    | ok a => rw [hx, Out.ok_bind] at h; cases h; rfl
    | err => rw [hx] at h; cases h
    | ub => rw [hx] at h; cases h
  · unfold codec at h
    simp only at h
    rw [fmt_size, if_pos (by omega)] at h
    cases h

theorem pow_size (t : Nat) : 2 ^ (1 + (fmtOf t).w + (fmtOf t).p) = 256 ^ numSize t := by
  unfold fmtOf numSize
  by_cases h : t = tFloat
  · rw [if_pos h, if_pos h]; rfl
  · rw [if_neg h, if_neg h]; rfl

/-- What the decoder writes. -/
theorem codec_decode {lib : Libm} {neg pos : UInt8} {fprec dprec : Nat} {t : Nat} {c : Bytes} {s : Bool} {k : Nat}
    (hk : k < (fmtOf t).top) (h : decodeNum lib (fmtOf t) neg pos c = .ok (.fin s ((fmtOf t).val k))) :
    ∃ m, (codec lib neg pos fprec dprec).decode ⟨c, t⟩ = .ok (some m) ∧ m.length = numSize t ∧
      numberIn t m = .fin s ((fmtOf t).val k) := by
  refine ⟨leBytes (fmtOf t).size ((fmtOf t).bits (.fin s ((fmtOf t).val k))), ?_, by rw [length_leBytes, fmt_size], ?_⟩
  · unfold codec; simp only; rw [h, Out.ok_bind]
  · obtain ⟨h1, h2⟩ := ieee_bits s hk
    rw [← fmt_number, List.take_of_length_le (by rw [length_leBytes]), leVal_leBytes _ _ (by rw [fmt_size, ← pow_size]; exact h2), h1]

theorem codec_decode_inf {lib : Libm} {neg pos : UInt8} {fprec dprec : Nat} {t : Nat} {c : Bytes} {s : Bool}
    (h : decodeNum lib (fmtOf t) neg pos c = .ok (.inf s)) :
    ∃ m, (codec lib neg pos fprec dprec).decode ⟨c, t⟩ = .ok (some m) ∧ m.length = numSize t ∧ numberIn t m = .inf s := by
  refine ⟨leBytes (fmtOf t).size ((fmtOf t).bits (.inf s)), ?_, by rw [length_leBytes, fmt_size], ?_⟩
  · unfold codec; simp only; rw [h, Out.ok_bind]
  · obtain ⟨h1, h2⟩ := ieee_bits_inf (f := fmtOf t) s
    rw [← fmt_number, List.take_of_length_le (by rw [length_leBytes]), leVal_leBytes _ _ (by rw [fmt_size, ← pow_size]; exact h2), h1]

/-- A number in memory. -/
theorem number_value {t : Nat} {m : Bytes} {x : ℚ} (h : (numberIn t m).value = some x) :
    ∃ s k, k < (fmtOf t).top ∧ numberIn t m = .fin s ((fmtOf t).val k) ∧ x = (if s then -(fmtOf t).val k else (fmtOf t).val k) := by
  cases hn : numberIn t m with
  | nan => rw [hn] at h; cases h
  | inf s => rw [hn] at h; cases h
  | fin s q =>
    rw [← fmt_number] at hn
    obtain ⟨k, hk, rfl⟩ := ieee_fin hn
    rw [← fmt_number] at h
    rw [hn] at h
    exact ⟨s, k, hk, rfl, (Option.some.inj h).symm⟩

theorem abs_signed (s : Bool) {q : ℚ} (h : 0 ≤ q) : |if s then -q else q| = q := by
  cases s <;> simp [abs_of_nonneg h]

theorem eta_relErr (t prec n : Nat) : 17 / 10 ^ prec + n * (fmtOf t).eta = relErr t prec n := by
  unfold relErr fmtOf
  by_cases h : t = tFloat
  · rw [if_pos h, if_pos h]; rfl
  · rw [if_neg h, if_neg h]; rfl

theorem relErr_nonneg (t prec n : Nat) : 0 ≤ relErr t prec n := by
  unfold relErr
  have : (0 : ℚ) ≤ if t = tFloat then 1 / 2 ^ 23 else 1 / 2 ^ 45 := by split <;> positivity
  positivity

theorem moderate_bounds {t : Nat} {x : ℚ} (h : Moderate t x) :
    (2 : ℚ) ^ (fmtOf t).emin ≤ |x| ∧ |x| ≤ 2 ^ (-(fmtOf t).emin - 1) := by
  unfold Moderate at h
  unfold fmtOf
  by_cases ht : t = tFloat
  · rw [if_pos ht] at h ⊢
    exact ⟨le_trans (by decide +kernel) h.1, h.2.trans (by decide +kernel)⟩
  · rw [if_neg ht] at h ⊢
    exact ⟨le_trans (by decide +kernel) h.1, h.2.trans (by decide +kernel)⟩

/-- Exponents 9 and -9. -/
theorem bad_iff {s : Bool} {q : ℚ} {e : Int} (b1 : 3 / 100 * (10 : ℚ) ^ e ≤ q) (b2 : q ≤ 34 / 100 * (10 : ℚ) ^ e)
    (h : badExponent s e) : LosesExponent (if s then -q else q) := by
  unfold badExponent at h
  cases s
  · simp only [Bool.false_eq_true, if_false] at h ⊢
    subst h
    left
    norm_num at b1 b2 ⊢
    exact ⟨b1, b2⟩
  · simp only [if_true] at h ⊢
    subst h
    right
    norm_num at b1 b2 ⊢
    exact ⟨b1, b2⟩

end Hx.Fp

namespace Hx.Fp
open Hx Spec Elen Store

/-- The default callbacks on a float or double. -/
theorem enc_float {neg pos : UInt8} {f : FloatCodec} {b : Blob} (h : b.typ = tFloat ∨ b.typ = tDouble) (ha : b.addr ≠ 0) :
    (defaultCallbacks neg pos f).encode b = f.encode b.val := by
  have hi : intType b.typ = none := by rcases h with h | h <;> rw [h] <;> decide
  unfold defaultCallbacks
  simp only [hi]
  rw [if_pos h, if_neg ha]

theorem dec_float {neg pos : UInt8} {f : FloatCodec} {v : Val} (h : v.typ = tFloat ∨ v.typ = tDouble) :
    (defaultCallbacks neg pos f).decode v = f.decode v := by
  have hi : intType v.typ = none := by rcases h with h | h <;> rw [h] <;> decide
  unfold defaultCallbacks
  simp only [hi]
  rw [if_pos h]

/-- An object that was PUT is among the events. -/
theorem lastObj_mem {s p o : Val} {h : List Ev} (hl : lastObj s p h = some o) : .put s p o ∈ h := by
  induction h using List.reverseRecOn with
  | nil => cases hl
  | append_singleton h e ih =>
    cases e with
    | put s' p' o' =>
      rw [lastObj_put] at hl
      split at hl
      · next hc => cases hl; rw [hc.1, hc.2]; simp
      · exact List.mem_append_left _ (ih hl)
    | del s' p' =>
      rw [lastObj_del] at hl
      split at hl
      · cases hl
      · exact List.mem_append_left _ (ih hl)

/-- Different signs, exponents or digits are written differently. -/
theorem encFlt_num_inj {neg pos : UInt8} (hs : Symbols neg pos) {s s' : Bool} {e e' : Int} {d d' : Bytes} (hd : AllDigits d)
    (hd' : AllDigits d') (hl : d.length = d'.length) (h : encFlt neg pos (.num s e d) = encFlt neg pos (.num s' e' d')) :
    s = s' ∧ e = e' ∧ d = d' := by
  have hnp : pos ≠ neg := by
    rintro rfl; have := hs.neg_lt; have := hs.pos_gt; omega
  have int : ∀ {a b : Int}, encInt neg pos a = encInt neg pos b → a = b := by
    intro a b hab
    exact Props.C05_integer_prefix_free hs a b (by rw [hab])
  cases s <;> cases s' <;> simp only [encFlt, List.cons.injEq] at h
  · obtain ⟨h1, h2⟩ := List.append_inj' (List.append_inj' h.2 rfl).1 hl
    exact ⟨rfl, int h1, h2⟩
  · exact absurd h.1 hnp
  · exact absurd h.1.symm hnp
  · obtain ⟨h1, h2⟩ := List.append_inj' (List.append_inj' h.2 rfl).1 (by simp [Elen.flip, hl])
    refine ⟨rfl, by have := int h1; omega, ?_⟩
    rw [← flip_flip hd, ← flip_flip hd', h2]

end Hx.Fp

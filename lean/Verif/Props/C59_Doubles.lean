import Verif.Proofs.FpMem
import Verif.Props.C12_Store

/-!
# C59: floats and doubles, from the memory of the caller to the stored bytes and back

`numberIn` (Verif/Spec/Libm.lean) reads the memory of a `float` or `double` as IEEE 754 prescribes. The C library's `log10` and
`pow` are assumed to be accurate (`LibmOk`); nothing else is assumed of them.
-/

namespace Hx.Props
open Hx Elen Spec Store Msg Fp

/-! ## Order -/

/-- C59, order. For any two floats (or doubles), also subnormal ones, the stored form of the smaller one is the same as that of the
larger one or comes before it, whatever is written in front of and after them. -/
theorem C59_order {lib : Libm} (hl : LibmOk lib) {neg pos : UInt8} (hs : Symbols neg pos) (fprec dprec : Nat) (v w : Val)
    (ht : v.typ = w.typ) (hv : numSize v.typ ≤ v.bytes.length) (hw : numSize w.typ ≤ w.bytes.length) {x y : ℚ}
    (hx : (numberIn v.typ v.bytes).value = some x) (hy : (numberIn w.typ w.bytes).value = some y) (h : x ≤ y) :
    ∃ a b, (codec lib neg pos fprec dprec).encode v = .ok (some a) ∧ (codec lib neg pos fprec dprec).encode w = .ok (some b) ∧
      (a = b ∨ ∀ p q r : Bytes, p ++ (a ++ q) < p ++ (b ++ r)) := by
  obtain ⟨s, k, hk, e1, rfl⟩ := number_value hx
  obtain ⟨t, j, hj, e2, rfl⟩ := number_value hy
  rw [codec_encode _ _ _ _ _ _ hv, codec_encode _ _ _ _ _ _ hw, e1, e2]
  rw [← ht] at hj h ⊢
  obtain ⟨a, b, ha, hb, hab⟩ := encode_order (isFmt_fmtOf v.typ) hl (precOf v.typ fprec dprec) hs hk hj h
  rw [ha, hb]
  refine ⟨a, b, rfl, rfl, ?_⟩
  rcases hab with hab | hab
  · exact .inl hab
  · exact .inr (fun p q r => ((hab.append q r).prefix p).lt)

/-- C59, order of keys. With the default callbacks, the keys of one subject with floats (or doubles) as predicates are in the order of
the predicates, except that close predicates can share a key. -/
theorem C59_predicate_order {lib : Libm} (hl : LibmOk lib) {neg pos : UInt8} (hs : Symbols neg pos) (fprec dprec : Nat) (s v w : Blob)
    (es : Bytes) (hes : (defaultCallbacks neg pos (codec lib neg pos fprec dprec)).encode s = .ok (some es))
    (hf : v.typ = tFloat ∨ v.typ = tDouble) (ht : v.typ = w.typ) (av : v.addr ≠ 0) (aw : w.addr ≠ 0)
    (hv : numSize v.typ ≤ v.bytes.length) (hw : numSize w.typ ≤ w.bytes.length) {x y : ℚ}
    (hx : (numberIn v.typ v.bytes).value = some x) (hy : (numberIn w.typ w.bytes).value = some y) (h : x ≤ y) :
    ∃ k k', encodeKey (defaultCallbacks neg pos (codec lib neg pos fprec dprec)) s v = .ok (some k) ∧
      encodeKey (defaultCallbacks neg pos (codec lib neg pos fprec dprec)) s w = .ok (some k') ∧ (k = k' ∨ k < k') := by
  obtain ⟨a, b, ha, hb, hab⟩ := C59_order hl hs fprec dprec v.val w.val ht hv hw hx hy h
  rw [← enc_float (neg := neg) (pos := pos) (b := v) hf av] at ha
  rw [← enc_float (neg := neg) (pos := pos) (b := w) (by rwa [← ht]) aw] at hb
  refine ⟨Key.spToKey ⟨es, s.typ⟩ ⟨a, v.typ⟩, Key.spToKey ⟨es, s.typ⟩ ⟨b, w.typ⟩, ?_, ?_, ?_⟩
  · unfold encodeKey; rw [hes, Out.ok_bind]; simp only; rw [ha, Out.ok_bind]
  · unfold encodeKey; rw [hes, Out.ok_bind]; simp only; rw [hb, Out.ok_bind]
  · rw [ht]
    rcases hab with rfl | hab
    · exact .inl rfl
    · right
      have := hab es (0xff :: (leBytes 8 es.length ++ leBytes 8 a.length ++ [UInt8.ofNat s.typ, UInt8.ofNat w.typ]))
        (0xff :: (leBytes 8 es.length ++ leBytes 8 b.length ++ [UInt8.ofNat s.typ, UInt8.ofNat w.typ]))
      simpa [Key.spToKey] using this

/-- C59, order of keys by subject: keys whose subjects are floats (or doubles) are in the order of the subjects, whatever the predicates
are, unless the subjects have the same stored form. -/
theorem C59_subject_order {lib : Libm} (hl : LibmOk lib) {neg pos : UInt8} (hs : Symbols neg pos) (fprec dprec : Nat) (v w p p' : Blob)
    (ep ep' : Bytes) (hep : (defaultCallbacks neg pos (codec lib neg pos fprec dprec)).encode p = .ok (some ep))
    (hep' : (defaultCallbacks neg pos (codec lib neg pos fprec dprec)).encode p' = .ok (some ep'))
    (hf : v.typ = tFloat ∨ v.typ = tDouble) (ht : v.typ = w.typ) (av : v.addr ≠ 0) (aw : w.addr ≠ 0)
    (hv : numSize v.typ ≤ v.bytes.length) (hw : numSize w.typ ≤ w.bytes.length) {x y : ℚ}
    (hx : (numberIn v.typ v.bytes).value = some x) (hy : (numberIn w.typ w.bytes).value = some y) (h : x ≤ y) :
    (defaultCallbacks neg pos (codec lib neg pos fprec dprec)).encode v =
        (defaultCallbacks neg pos (codec lib neg pos fprec dprec)).encode w ∨
    ∃ k k', encodeKey (defaultCallbacks neg pos (codec lib neg pos fprec dprec)) v p = .ok (some k) ∧
      encodeKey (defaultCallbacks neg pos (codec lib neg pos fprec dprec)) w p' = .ok (some k') ∧ k < k' := by
  obtain ⟨a, b, ha, hb, hab⟩ := C59_order hl hs fprec dprec v.val w.val ht hv hw hx hy h
  rw [← enc_float (neg := neg) (pos := pos) (b := v) hf av] at ha
  rw [← enc_float (neg := neg) (pos := pos) (b := w) (by rwa [← ht]) aw] at hb
  rcases hab with rfl | hab
  · left; rw [ha, hb]
  · right
    refine ⟨Key.spToKey ⟨a, v.typ⟩ ⟨ep, p.typ⟩, Key.spToKey ⟨b, w.typ⟩ ⟨ep', p'.typ⟩, ?_, ?_, ?_⟩
    · unfold encodeKey; rw [ha, Out.ok_bind]; simp only; rw [hep, Out.ok_bind]
    · unfold encodeKey; rw [hb, Out.ok_bind]; simp only; rw [hep', Out.ok_bind]
    · have := hab [] (ep ++ (0xff :: (leBytes 8 a.length ++ leBytes 8 ep.length ++ [UInt8.ofNat v.typ, UInt8.ofNat p.typ])))
        (ep' ++ (0xff :: (leBytes 8 b.length ++ leBytes 8 ep'.length ++ [UInt8.ofNat w.typ, UInt8.ofNat p'.typ])))
      simpa [Key.spToKey] using this

/-! ## What is stored -/

/-- C59, what is stored. A float or double that is not extremely small is stored as a decimal number with as many digits as
configured, close to it. -/
theorem C59_stored {lib : Libm} (hl : LibmOk lib) (neg pos : UInt8) (fprec dprec : Nat) (v : Val) (hv : numSize v.typ ≤ v.bytes.length)
    {x : ℚ} (hx : (numberIn v.typ v.bytes).value = some x) (h0 : 1 / 10 ^ 309 ≤ |x|) :
    ∃ (s : Bool) (e : Int) (d : Bytes), (codec lib neg pos fprec dprec).encode v = .ok (some (encFlt neg pos (.num s e d))) ∧
      (s = true ↔ x < 0) ∧ AllDigits d ∧ d.length = precOf v.typ fprec dprec ∧
      |decimalVal s e d - x| ≤ |x| * relErr v.typ (precOf v.typ fprec dprec) 1 := by
  obtain ⟨s, k, hk, e1, rfl⟩ := number_value hx
  rw [abs_signed s (Fmt.val_nonneg _ _)] at h0 ⊢
  have k0 : 0 < k := by
    rcases Nat.eq_zero_or_pos k with rfl | h
    · rw [Fmt.val_zero] at h0; exact absurd h0 (by decide +kernel)
    · exact h
  rw [codec_encode _ _ _ _ _ _ hv, e1]
  obtain ⟨e, d, c1, hd, hlen, -, -, -, -, herr⟩ :=
    encode_close (isFmt_fmtOf v.typ) hl (precOf v.typ fprec dprec) neg pos s k0 hk h0
  rw [c1]
  refine ⟨s, e, d, rfl, ?_, hd, hlen, ?_⟩
  · have := Fmt.val_pos (fmtOf v.typ) k0
    cases s
    · simp; linarith
    · simp; linarith
  · rw [← eta_relErr, Nat.cast_one, one_mul]; exact herr

/-- C59, distinct numbers. Two numbers further apart than twice the relative error are stored differently (and therefore, by
`C59_order`, strictly in their order). -/
theorem C59_distinct {lib : Libm} (hl : LibmOk lib) {neg pos : UInt8} (hs : Symbols neg pos) (fprec dprec : Nat) (v w : Val)
    (ht : v.typ = w.typ) (hv : numSize v.typ ≤ v.bytes.length) (hw : numSize w.typ ≤ w.bytes.length) {x y : ℚ}
    (hx : (numberIn v.typ v.bytes).value = some x) (hy : (numberIn w.typ w.bytes).value = some y)
    (h0 : 1 / 10 ^ 309 ≤ |x|) (h1 : 1 / 10 ^ 309 ≤ |y|)
    (h : x + (|x| + |y|) * relErr v.typ (precOf v.typ fprec dprec) 1 < y) :
    ∃ a b, (codec lib neg pos fprec dprec).encode v = .ok (some a) ∧ (codec lib neg pos fprec dprec).encode w = .ok (some b) ∧
      ∀ p q r : Bytes, p ++ (a ++ q) < p ++ (b ++ r) := by
  have hr := relErr_nonneg v.typ (precOf v.typ fprec dprec) 1
  have hxy : x ≤ y := by
    have : 0 ≤ (|x| + |y|) * relErr v.typ (precOf v.typ fprec dprec) 1 := by positivity
    linarith
  obtain ⟨a, b, ha, hb, hab⟩ := C59_order hl hs fprec dprec v w ht hv hw hx hy hxy
  refine ⟨a, b, ha, hb, ?_⟩
  rcases hab with rfl | hab
  · exfalso
    obtain ⟨s, e, d, c1, -, hd, hlen, e1⟩ := C59_stored hl neg pos fprec dprec v hv hx h0
    obtain ⟨s', e', d', c2, -, hd', hlen', e2⟩ := C59_stored hl neg pos fprec dprec w hw hy h1
    rw [ha] at c1; rw [hb] at c2
    injection c1 with c1; injection c1 with c1
    injection c2 with c2; injection c2 with c2
    have hsame : decimalVal s e d = decimalVal s' e' d' := by
      obtain ⟨rfl, rfl, rfl⟩ := encFlt_num_inj hs hd hd' (by rw [hlen, hlen', ht]) (c1.symm.trans c2)
      rfl
    rw [← hsame, ← ht] at e2
    have t1 := abs_le.mp e1
    have t2 := abs_le.mp e2
    nlinarith
  · exact hab

/-! ## What comes back -/

/-- Everything about reading back in one place. -/
private theorem back {lib : Libm} (hl : LibmOk lib) {neg pos : UInt8} (hs : Symbols neg pos) (fprec dprec : Nat) (v : Val)
    (hp : 2 ≤ precOf v.typ fprec dprec) (hv : numSize v.typ ≤ v.bytes.length)
    {x : ℚ} (hx : (numberIn v.typ v.bytes).value = some x) (hm : Moderate v.typ x) :
    ∃ (s : Bool) (e : Int) (a m : Bytes) (y : ℚ), (s = true ↔ x < 0) ∧ 3 / 100 * (10 : ℚ) ^ e ≤ |x| ∧ |x| ≤ 34 / 100 * (10 : ℚ) ^ e ∧
      (codec lib neg pos fprec dprec).encode v = .ok (some a) ∧ (codec lib neg pos fprec dprec).decode ⟨a, v.typ⟩ = .ok (some m) ∧
      m.length = numSize v.typ ∧ (numberIn v.typ m).value = some y ∧
      |y - x / 10 ^ (if badExponent s e then e else 0)| ≤
        |x / 10 ^ (if badExponent s e then e else 0)| * relErr v.typ (precOf v.typ fprec dprec) 8 := by
  obtain ⟨h0, h1⟩ := moderate_bounds hm
  obtain ⟨s, k, hk, e1, rfl⟩ := number_value hx
  rw [abs_signed s (Fmt.val_nonneg _ _)] at h0 h1 ⊢
  obtain ⟨e, c, c1, b1, b2, j, hj, c2, herr⟩ := decode_close (isFmt_fmtOf v.typ) hl hp hs s h0 h1
  obtain ⟨m, c3, hlen, hval⟩ := codec_decode (fprec := fprec) (dprec := dprec) hj c2
  have hpos : 0 < (fmtOf v.typ).val k := lt_of_lt_of_le (two_zpow_pos _) h0
  refine ⟨s, e, c, m, if s then -(fmtOf v.typ).val j else (fmtOf v.typ).val j, ?_, b1, b2, ?_, c3, hlen, by rw [hval]; rfl, ?_⟩
  · cases s
    · simp; linarith
    · simp; linarith
  · rw [codec_encode _ _ _ _ _ _ hv, e1, c1]; rfl
  · rw [← eta_relErr]
    set z : ℚ := 10 ^ (if badExponent s e then e else 0) with hz
    have hzp : 0 < z := by rw [hz]; positivity
    have habs : |(if s then -(fmtOf v.typ).val k else (fmtOf v.typ).val k) / z| = (fmtOf v.typ).val k / z := by
      rw [abs_div, abs_signed s hpos.le, abs_of_pos hzp]
    rw [habs]
    refine le_trans (le_of_eq ?_) herr
    cases s
    · simp
    · simp only [if_true]
      have : -(fmtOf v.typ).val j - -(fmtOf v.typ).val k / z = -((fmtOf v.typ).val j - (fmtOf v.typ).val k / z) := by ring
      rw [this, abs_neg]

/-- C59, reading back, part: with at least two digits, a float or double comes back as a number close to it.
Missing for the full statement: numbers whose exponent is lost (`C59_lost_exponent_false`), the largest and smallest doubles
(`C59_large_false`, `C59_small_false`), infinity and NaN (`C59_not_finite_ub`); also outside `Moderate`: the other subnormal numbers and the
largest floats, for which nothing is claimed. -/
theorem C59_back_partial {lib : Libm} (hl : LibmOk lib) {neg pos : UInt8} (hs : Symbols neg pos) (fprec dprec : Nat) (v : Val)
    (hp : 2 ≤ precOf v.typ fprec dprec) (hv : numSize v.typ ≤ v.bytes.length)
    {x : ℚ} (hx : (numberIn v.typ v.bytes).value = some x) (hm : Moderate v.typ x) (he : ¬ LosesExponent x) :
    ∃ a m y, (codec lib neg pos fprec dprec).encode v = .ok (some a) ∧ (codec lib neg pos fprec dprec).decode ⟨a, v.typ⟩ = .ok (some m) ∧
      m.length = numSize v.typ ∧ (numberIn v.typ m).value = some y ∧ |y - x| ≤ |x| * relErr v.typ (precOf v.typ fprec dprec) 8 := by
  obtain ⟨s, e, a, m, y, hsx, b1, b2, c1, c2, c3, c4, c5⟩ := back hl hs fprec dprec v hp hv hx hm
  have hb : ¬ badExponent s e := by
    intro hb
    apply he
    have hx' : x = if s then -|x| else |x| := by
      cases s
      · simp at hsx ⊢; exact (abs_of_nonneg hsx).symm
      · simp at hsx ⊢; rw [abs_of_neg hsx]; ring
    rw [hx']
    exact bad_iff b1 b2 hb
  rw [if_neg hb, zpow_zero, div_one] at c5
  exact ⟨a, m, y, c1, c2, c3, c4, c5⟩

/-- C59 fails for positive numbers around 10^-10 and negative numbers around -10^8: they come back 10^9 times too large or too small,
because the exponents -9 and 9 are read as 0 (see `C07_float_decode_false`). -/
theorem C59_lost_exponent_false {lib : Libm} (hl : LibmOk lib) {neg pos : UInt8} (hs : Symbols neg pos) (fprec dprec : Nat) (v : Val)
    (hp : 2 ≤ precOf v.typ fprec dprec) (hv : numSize v.typ ≤ v.bytes.length) {x : ℚ} (hx : (numberIn v.typ v.bytes).value = some x)
    (h : (34 / 10 ^ 12 < x ∧ x < 3 / 10 ^ 10) ∨ (34 * 10 ^ 6 < -x ∧ -x < 3 * 10 ^ 8)) :
    ∃ a m y z, (codec lib neg pos fprec dprec).encode v = .ok (some a) ∧ (codec lib neg pos fprec dprec).decode ⟨a, v.typ⟩ = .ok (some m) ∧
      (numberIn v.typ m).value = some y ∧ z = (if 0 < x then x * 10 ^ 9 else x / 10 ^ 9) ∧
      |y - z| ≤ |z| * relErr v.typ (precOf v.typ fprec dprec) 8 := by
  have hm : Moderate v.typ x := by
    have habs : 1 / 2 ^ 126 ≤ |x| ∧ |x| ≤ 2 ^ 125 := by
      rcases h with h | h
      · rw [abs_of_pos (by linarith [h.1])]; constructor <;> linarith [h.1, h.2]
      · rw [abs_of_neg (by linarith [h.1])]; constructor <;> linarith [h.1, h.2]
    unfold Moderate
    split
    · exact habs
    · exact ⟨le_trans (by decide +kernel) habs.1, habs.2.trans (by decide +kernel)⟩
  obtain ⟨s, e, a, m, y, hsx, b1, b2, c1, c2, c3, c4, c5⟩ := back hl hs fprec dprec v hp hv hx hm
  rcases h with h | h
  · have hxp : 0 < x := by linarith [h.1]
    have hs' : s = false := by
      cases s
      · rfl
      · have := hsx.mp rfl; linarith
    subst hs'
    rw [abs_of_pos hxp] at b1 b2
    have he : e = -9 := by
      have e1 : e ≤ -9 := exponent_le b1 (by norm_num; linarith [h.2])
      have e2 : -9 ≤ e := le_exponent b2 (by norm_num; linarith [h.1])
      omega
    subst he
    have hb : badExponent false (-9) := rfl
    rw [if_pos hb] at c5
    refine ⟨a, m, y, x * 10 ^ 9, c1, c2, c4, by rw [if_pos hxp], ?_⟩
    have : x / 10 ^ (-9 : Int) = x * 10 ^ 9 := by rw [zpow_neg, div_inv_eq_mul]; norm_cast
    rwa [this] at c5
  · have hxn : x < 0 := by linarith [h.1]
    have hs' : s = true := hsx.mpr hxn
    subst hs'
    rw [abs_of_neg hxn] at b1 b2
    have he : e = 9 := by
      have e1 : e ≤ 9 := exponent_le b1 (by norm_num; linarith [h.2])
      have e2 : 9 ≤ e := le_exponent b2 (by norm_num; linarith [h.1])
      omega
    subst he
    have hb : badExponent true 9 := rfl
    rw [if_pos hb] at c5
    refine ⟨a, m, y, x / 10 ^ 9, c1, c2, c4, by rw [if_neg (by linarith)], ?_⟩
    exact_mod_cast c5

/-- C59, zero: zeros of either sign are stored as the digit 0 and come back as positive zero. -/
theorem C59_zero (lib : Libm) (neg pos : UInt8) (fprec dprec : Nat) (v : Val) (hv : numSize v.typ ≤ v.bytes.length)
    (hx : (numberIn v.typ v.bytes).value = some 0) :
    ∃ m, (codec lib neg pos fprec dprec).encode v = .ok (some [48]) ∧
      (codec lib neg pos fprec dprec).decode ⟨[48], v.typ⟩ = .ok (some m) ∧ m.length = numSize v.typ ∧ numberIn v.typ m = .fin false 0 := by
  obtain ⟨s, k, hk, e1, e2⟩ := number_value hx
  have hz : (fmtOf v.typ).val k = 0 := by
    cases s
    · simpa using e2.symm
    · simp only [if_true] at e2; linarith
  have h0 : 0 < (fmtOf v.typ).top := by omega
  have hdec : decodeNum lib (fmtOf v.typ) neg pos [48] = .ok (.fin false ((fmtOf v.typ).val 0)) := by rw [Fmt.val_zero]; rfl
  obtain ⟨m, c1, c2, c3⟩ := codec_decode (fprec := fprec) (dprec := dprec) h0 hdec
  rw [Fmt.val_zero] at c3
  refine ⟨m, ?_, c1, c2, c3⟩
  rw [codec_encode _ _ _ _ _ _ hv, e1, hz]
  rfl

/-- C59: storing infinity or NaN is undefined behaviour, because their logarithm is converted to `int` (include/utils/elen.tpp:144). -/
theorem C59_not_finite_ub (lib : Libm) (neg pos : UInt8) (fprec dprec : Nat) (v : Val) (hx : (numberIn v.typ v.bytes).value = none) :
    (codec lib neg pos fprec dprec).encode v = .ub := by
  by_cases hv : numSize v.typ ≤ v.bytes.length
  · rw [codec_encode _ _ _ _ _ _ hv]
    cases h : numberIn v.typ v.bytes with
    | nan => rfl
    | inf s => rfl
    | fin s q => rw [h] at hx; cases hx
  · unfold codec
    simp only
    rw [fmt_size, if_pos (by omega)]

/-- C59 fails for the largest doubles: they come back as infinity, because 10^309 is no double. -/
theorem C59_large_false {lib : Libm} (hl : LibmOk lib) {neg pos : UInt8} (hs : Symbols neg pos) (fprec dprec : Nat) (v : Val)
    (ht : v.typ = tDouble) (hp : 2 ≤ dprec) (hv : 8 ≤ v.bytes.length) {x : ℚ} (hx : (numberIn v.typ v.bytes).value = some x)
    (h : 34 * 10 ^ 306 < |x|) :
    ∃ a m, (codec lib neg pos fprec dprec).encode v = .ok (some a) ∧ (codec lib neg pos fprec dprec).decode ⟨a, v.typ⟩ = .ok (some m) ∧
      numberIn v.typ m = .inf (decide (x < 0)) := by
  have hfm : fmtOf v.typ = dbl := by rw [ht]; rfl
  have hpr : precOf v.typ fprec dprec = dprec := by rw [ht]; rfl
  have hsz : numSize v.typ = 8 := by rw [ht]; rfl
  obtain ⟨s, k, hk, e1, rfl⟩ := number_value hx
  rw [abs_signed s (Fmt.val_nonneg _ _)] at h
  have hpos : 0 < (fmtOf v.typ).val k := lt_trans (by decide +kernel) h
  rw [hfm] at hk h hpos
  obtain ⟨c, c1, c2⟩ := decode_large hl hp hs s hk h
  rw [← hfm] at c2
  obtain ⟨m, c3, -, c4⟩ := codec_decode_inf (fprec := fprec) (dprec := dprec) c2
  refine ⟨c, m, ?_, c3, ?_⟩
  · rw [codec_encode _ _ _ _ _ _ (by omega), e1, hfm, hpr, c1]; rfl
  · rw [c4, hfm]
    congr 1
    cases s
    · simp [hpos.le]
    · simp [hpos]

/-- C59 fails for the smallest doubles: `pow(10, 310)` is infinite, the digits of the mantissa are written as the last letter of `inf`, and
they come back as zero. -/
theorem C59_small_false {lib : Libm} (hl : LibmOk lib) {neg pos : UInt8} (hs : Symbols neg pos) (fprec dprec : Nat) (v : Val)
    (ht : v.typ = tDouble) (hv : 8 ≤ v.bytes.length) {x : ℚ} (hx : (numberIn v.typ v.bytes).value = some x)
    (h0 : x ≠ 0) (h : |x| < 3 / 10 ^ 310) :
    ∃ a m, (codec lib neg pos fprec dprec).encode v = .ok (some a) ∧ (codec lib neg pos fprec dprec).decode ⟨a, v.typ⟩ = .ok (some m) ∧
      numberIn v.typ m = .fin (decide (x < 0)) 0 := by
  have hfm : fmtOf v.typ = dbl := by rw [ht]; rfl
  have hpr : precOf v.typ fprec dprec = dprec := by rw [ht]; rfl
  have hsz : numSize v.typ = 8 := by rw [ht]; rfl
  obtain ⟨s, k, hk, e1, rfl⟩ := number_value hx
  rw [abs_signed s (Fmt.val_nonneg _ _)] at h
  have k0 : 0 < k := by
    rcases Nat.eq_zero_or_pos k with rfl | h
    · rw [Fmt.val_zero] at h0; simp at h0
    · exact h
  have hpos : 0 < (fmtOf v.typ).val k := Fmt.val_pos _ k0
  rw [hfm] at hk h hpos
  obtain ⟨c, c1, c2⟩ := decode_small hl dprec hs s k0 h
  rw [← hfm, ← Fmt.val_zero (fmtOf v.typ)] at c2
  obtain ⟨m, c3, -, c4⟩ := codec_decode (fprec := fprec) (dprec := dprec) (by rw [hfm]; decide +kernel) c2
  refine ⟨c, m, ?_, c3, ?_⟩
  · rw [codec_encode _ _ _ _ _ _ (by omega), e1, hfm, hpr, c1]; rfl
  · rw [c4, Fmt.val_zero, hfm]
    congr 1
    cases s
    · simp; linarith
    · simp; linarith

/-- C59: with the default sixteen digits, 1 and the next double have the same stored form, if `pow(10, -1)` is the double nearest to
1/10. So a PUT with one of them as a key overwrites the record of the other one. -/
theorem C59_collision {lib : Libm} (hl : LibmOk lib) (h10 : lib.pow10 (-1) = dbl.round false (1 / 10)) (neg pos : UInt8) (fprec : Nat) :
    ∃ a, (codec lib neg pos fprec 16).encode ⟨[0, 0, 0, 0, 0, 0, 0xf0, 0x3f], tDouble⟩ = .ok (some a) ∧
      (codec lib neg pos fprec 16).encode ⟨[1, 0, 0, 0, 0, 0, 0xf0, 0x3f], tDouble⟩ = .ok (some a) := by
  have one : ∀ k, 0x3ff0000000000000 ≤ k → k ≤ 0x3ff0000000000001 → encodeNum lib dbl 16 neg pos (.fin false (dbl.val k)) =
      .ok (encFlt neg pos (.num false 1 (lastDigits (mantInt 16 (mant dbl k (dbl.val (dbl.near (1 / 10))))) 16))) := by
    intro k k1 k2
    have hf : IsFmt dbl := .inr rfl
    have hlo : (1 : ℚ) ≤ dbl.val k := le_trans (by decide +kernel) (dbl.val_strictMono.monotone k1)
    have hhi : dbl.val k ≤ 2 := (dbl.val_strictMono.monotone k2).trans (by decide +kernel)
    obtain ⟨e, d, c1, -, b1, b2, r1, r2, c3⟩ := encode_num hf hl 16 neg pos (k := k) (by omega)
      (lt_of_le_of_lt k2 (by decide +kernel))
    have he : e = 1 := by
      have e1 : e ≤ 1 := exponent_le b1 (by norm_num; linarith)
      have e2 : 1 ≤ e := le_exponent b2 (by norm_num; linarith)
      omega
    subst he
    rcases c3 with ⟨-, v, hv, -, rfl, -⟩ | ⟨g, -⟩
    · rw [h10] at hv
      have hr : dbl.round false (1 / 10) = .fin false (dbl.val (dbl.near (1 / 10))) := by
        unfold Fmt.round; rw [if_neg (by decide +kernel)]
      rw [hr] at hv
      injection hv with _ hv
      rw [hv]; exact c1 false
    · omega
  have same : mantInt 16 (mant dbl 0x3ff0000000000000 (dbl.val (dbl.near (1 / 10)))) =
      mantInt 16 (mant dbl 0x3ff0000000000001 (dbl.val (dbl.near (1 / 10)))) := by decide +kernel
  refine ⟨encFlt neg pos (.num false 1 (lastDigits (mantInt 16 (mant dbl 0x3ff0000000000000 (dbl.val (dbl.near (1 / 10))))) 16)), ?_, ?_⟩
  · rw [codec_encode _ _ _ _ _ _ (by decide)]
    have : numberIn tDouble [0, 0, 0, 0, 0, 0, 0xf0, 0x3f] = .fin false (dbl.val 0x3ff0000000000000) := by decide +kernel
    simp only
    rw [this]
    show (encodeNum lib dbl 16 neg pos _ >>= _) = _
    rw [one _ (by decide) (by decide)]
    rfl
  · rw [codec_encode _ _ _ _ _ _ (by decide)]
    have : numberIn tDouble [1, 0, 0, 0, 0, 0, 0xf0, 0x3f] = .fin false (dbl.val 0x3ff0000000000001) := by decide +kernel
    simp only
    rw [this]
    show (encodeNum lib dbl 16 neg pos _ >>= _) = _
    rw [one _ (by decide) (by decide), same]
    rfl

/-! ## Through a datastore -/

/-- Floats and doubles among the objects of a PUT that come back close. -/
structure NumObj (b : Blob) : Prop where
  typ : b.typ = tFloat ∨ b.typ = tDouble
  addr : b.addr ≠ 0
  size : numSize b.typ ≤ b.bytes.length
  val : ∃ x, (numberIn b.typ b.bytes).value = some x ∧ (x = 0 ∨ Moderate b.typ x ∧ ¬ LosesExponent x)

/-- Packets with such objects; everything else is plain. -/
def NumBody : ReqBody → Prop
  | .put l => ∀ x ∈ l, Plain x.subject ∧ Plain x.predicate ∧ (Plain x.object ∨ NumObj x.object)
  | r => PlainBody r

/-- `y` is what the object `o` may come back as: a close number, or the same bytes if it is no number. -/
def ComesBack (fprec dprec : Nat) (o y : Val) : Prop :=
  y.typ = o.typ ∧
  if o.typ = tFloat ∨ o.typ = tDouble then
    y.bytes.length = numSize o.typ ∧
    ∃ x z, (numberIn o.typ o.bytes).value = some x ∧ (numberIn o.typ y.bytes).value = some z ∧
      |z - x| ≤ |x| * relErr o.typ (if o.typ = tFloat then fprec else dprec) 8
  else y.bytes = o.bytes

theorem num_obj {lib : Libm} (hl : LibmOk lib) {neg pos : UInt8} (hs : Symbols neg pos) {fprec dprec : Nat} (hf : 2 ≤ fprec)
    (hd : 2 ≤ dprec) {b : Blob} (h : NumObj b) :
    ∃ a m, (codec lib neg pos fprec dprec).encode b.val = .ok (some a) ∧
      (codec lib neg pos fprec dprec).decode ⟨a, b.typ⟩ = .ok (some m) ∧ ComesBack fprec dprec b.val ⟨m, b.typ⟩ := by
  obtain ⟨x, hx, hc⟩ := h.val
  have hp : 2 ≤ precOf b.typ fprec dprec := by unfold precOf; split <;> assumption
  rcases hc with rfl | ⟨hm, he⟩
  · obtain ⟨m, c1, c2, c3, c4⟩ := C59_zero lib neg pos fprec dprec b.val h.size hx
    refine ⟨_, m, c1, c2, rfl, ?_⟩
    have ht : b.val.typ = tFloat ∨ b.val.typ = tDouble := h.typ
    rw [if_pos ht]
    refine ⟨c3, 0, 0, hx, ?_, by simp⟩
    show (numberIn b.val.typ m).value = _
    rw [c4]; rfl
  · obtain ⟨a, m, y, c1, c2, c3, c4, c5⟩ := C59_back_partial hl hs fprec dprec b.val hp h.size hx hm he
    refine ⟨a, m, c1, c2, rfl, ?_⟩
    have ht : b.val.typ = tFloat ∨ b.val.typ = tDouble := h.typ
    rw [if_pos ht]
    exact ⟨c3, x, y, hx, c4, c5⟩

/-- The default callbacks on plain values and numbers. -/
def numberTransform (neg pos : UInt8) (f : FloatCodec) : Transform where
  E := (plainTransform neg pos f).E
  R v := if v.typ = tFloat ∨ v.typ = tDouble then
      (match f.encode v with
       | .ok (some e) => (match f.decode ⟨e, v.typ⟩ with
         | .ok (some m) => m
         | _ => [])
       | _ => [])
    else v.bytes

theorem num_keyOk {neg pos : UInt8} (hs : Symbols neg pos) (f : FloatCodec) {b : Blob} (h : Plain b) :
    KeyOk (defaultCallbacks neg pos f) (numberTransform neg pos f) b :=
  ⟨(plain_enc hs f h).1, h.typ, fun e he => ((plain_enc hs f h).2 e he).1, fun e he => ((plain_enc hs f h).2 e he).2⟩

theorem numE {neg pos : UInt8} {f : FloatCodec} {v : Val} (h : v.typ = tFloat ∨ v.typ = tDouble) {a : Bytes}
    (ha : f.encode v = .ok (some a)) : (plainTransform neg pos f).E v = some a := by
  have := enc_float (neg := neg) (pos := pos) (f := f) (b := ⟨1, v.bytes, v.typ⟩) h (by simp)
  unfold plainTransform
  simp only
  rw [this]
  show (match f.encode v with | .ok e => e | _ => none) = _
  rw [ha]

theorem num_objOk {lib : Libm} (hl : LibmOk lib) {neg pos : UInt8} (hs : Symbols neg pos) {fprec dprec : Nat} (hf : 2 ≤ fprec)
    (hd : 2 ≤ dprec) {b : Blob} (h : Plain b ∨ NumObj b) :
    ObjOk (defaultCallbacks neg pos (codec lib neg pos fprec dprec)) (numberTransform neg pos (codec lib neg pos fprec dprec)) b ∧
      ComesBack fprec dprec b.val ⟨(numberTransform neg pos (codec lib neg pos fprec dprec)).R b.val, b.typ⟩ := by
  rcases h with h | h
  · have hn : ¬ (b.val.typ = tFloat ∨ b.val.typ = tDouble) := by
      rintro (h1 | h1)
      · exact h.notFloat.1 h1
      · exact h.notFloat.2 h1
    have hR : (numberTransform neg pos (codec lib neg pos fprec dprec)).R b.val = b.bytes := by
      unfold numberTransform; simp only; rw [if_neg hn]; rfl
    refine ⟨⟨(plain_enc hs _ h).1, by have := h.typ; omega, fun e he => ?_⟩, rfl, ?_⟩
    · rw [hR]; exact ((plain_enc hs _ h).2 e he).2
    · rw [if_neg hn]; exact hR
  · obtain ⟨a, m, c1, c2, c3⟩ := num_obj hl hs hf hd h
    have ht : b.val.typ = tFloat ∨ b.val.typ = tDouble := h.typ
    have hR : (numberTransform neg pos (codec lib neg pos fprec dprec)).R b.val = m := by
      unfold numberTransform; simp only; rw [if_pos ht, c1]; simp only
      have : b.val.typ = b.typ := rfl
      rw [this, c2]
    have hE : (numberTransform neg pos (codec lib neg pos fprec dprec)).E b.val = some a := numE ht c1
    refine ⟨⟨?_, ?_, ?_⟩, by rw [hR]; exact c3⟩
    · rw [enc_float h.typ h.addr, c1, hE]
    · rcases h.typ with h | h <;> rw [h] <;> decide
    · intro e he
      rw [hE] at he; cases he
      rw [dec_float h.typ, c2, hR]

/-- C59 through a datastore, part. On a datastore that was opened empty, after any history of packets whose objects are plain values or
floats and doubles that can come back, every item of a GET packet is answered with the latest PUT of its pair: a close number, the same
bytes if it is no number, or an error if there is none.
Missing for the full statement: the numbers missing in `C59_back_partial`, and floats and doubles as subjects and predicates
(`C59_collision`). -/
theorem C59_get_partial {lib : Libm} (hl : LibmOk lib) {neg pos : UInt8} (hs : Symbols neg pos) {fprec dprec : Nat} (hf : 2 ≤ fprec)
    (hd : 2 ≤ dprec) (heap : Nat) (d0 d : DS) (hist : List (Bool × ReqBody)) (wr : Bool) (l : List GetItem)
    (hu : d0.usable = true) (he : d0.db = []) (hok : ∀ x ∈ hist, NumBody x.2)
    (hrun : DS.run (defaultCallbacks neg pos (codec lib neg pos fprec dprec)) heap d0 hist = .ok d)
    (hk : ∀ x ∈ l, Plain x.subject ∧ Plain x.predicate) :
    ∃ d' rs, d.operate (defaultCallbacks neg pos (codec lib neg pos fprec dprec)) heap wr (.get l) = .ok (d', some (.get rs)) ∧
      List.Forall₂ (fun x r =>
        match lastObj x.subject.val x.predicate.val
          (history (plainTransform neg pos (codec lib neg pos fprec dprec)).accepts d0.backend hist) with
        | some o => r.status = dsSuccess ∧ ComesBack fprec dprec o r.object.val
        | none => r.status = dsError) l rs := by
  obtain ⟨d', rs, h1, h2⟩ := C12_last_put_decides _ (numberTransform neg pos (codec lib neg pos fprec dprec)) heap d0 d hist wr l hu he
    (by
      intro x hx
      have := hok x hx
      cases hb : x.2 with
      | put l =>
        rw [hb] at this
        exact fun y hy => ⟨num_keyOk hs _ (this y hy).1, num_keyOk hs _ (this y hy).2.1, (num_objOk hl hs hf hd (this y hy).2.2).1⟩
      | del l =>
        rw [hb] at this
        exact fun y hy => ⟨num_keyOk hs _ (this y hy).1, num_keyOk hs _ (this y hy).2⟩
      | get l => trivial
      | getop l => trivial
      | hist l => trivial) hrun
    (fun x hx => ⟨num_keyOk hs _ (hk x hx).1, num_keyOk hs _ (hk x hx).2⟩)
  refine ⟨d', rs, h1, h2.imp ?_⟩
  intro x r ha
  have hacc : (numberTransform neg pos (codec lib neg pos fprec dprec)).accepts =
      (plainTransform neg pos (codec lib neg pos fprec dprec)).accepts := rfl
  unfold Answers at ha
  rw [hacc] at ha
  cases ho : lastObj x.subject.val x.predicate.val
      (history (plainTransform neg pos (codec lib neg pos fprec dprec)).accepts d0.backend hist) with
  | none => rw [ho] at ha; exact ha
  | some o =>
    rw [ho] at ha
    obtain ⟨a1, a2⟩ := ha
    refine ⟨a1, ?_⟩
    rw [a2]
    have hmem := lastObj_mem ho
    unfold history at hmem
    rw [List.mem_flatMap] at hmem
    obtain ⟨pkt, hp, hm⟩ := hmem
    split at hm
    · have hb := hok pkt hp
      cases hr : pkt.2 with
      | put items =>
        rw [hr] at hm hb
        simp only [events, List.mem_map, List.mem_filter] at hm
        obtain ⟨y, ⟨hy, -⟩, hev⟩ := hm
        injection hev with _ _ hobj
        rw [← hobj]
        exact (num_objOk hl hs hf hd (hb y hy).2.2).2
      | del items =>
        rw [hr] at hm
        simp only [events, List.mem_map] at hm
        obtain ⟨y, -, hev⟩ := hm
        cases hev
      | get items => rw [hr] at hm; simp [events] at hm
      | getop items => rw [hr] at hm; simp [events] at hm
      | hist items => rw [hr] at hm; simp [events] at hm
    · cases hm

/-! ## Instances -/

section Instances

/-- A library: logarithms rounded down to a multiple of 2^-40, powers of ten rounded to doubles. -/
private noncomputable def exLog (q : ℚ) : Ieee :=
  let y : ℚ := ⌊Real.logb 10 q * 2 ^ 40⌋ / 2 ^ 40
  .fin (decide (y < 0)) |y|

noncomputable def exLibm : Libm where
  log10 := exLog
  log10f := exLog
  pow10 n := if n < -309 then .fin false 0 else dbl.round false (10 ^ n)

private theorem exLog_value (q : ℚ) : (exLog q).value = some ((⌊Real.logb 10 q * 2 ^ 40⌋ : ℚ) / 2 ^ 40) := by
  unfold exLog Ieee.value
  simp only
  congr 1
  by_cases h : ((⌊Real.logb 10 q * 2 ^ 40⌋ : ℚ) / 2 ^ 40) < 0
  · rw [if_pos (by simpa using h), abs_of_neg h]; ring
  · rw [if_neg (by simpa using h), abs_of_nonneg (not_lt.mp h)]

private theorem exLog_ok (f : Fmt) : LogOk f exLog where
  close k h0 h1 := by
    refine ⟨_, exLog_value _, ?_⟩
    have h2 := Int.floor_le (Real.logb 10 (f.val k) * 2 ^ 40)
    have h3 := Int.lt_floor_add_one (Real.logb 10 (f.val k) * 2 ^ 40)
    rw [Rat.cast_div, Rat.cast_intCast, Rat.cast_pow, Rat.cast_ofNat, abs_le]
    generalize ⌊Real.logb 10 (f.val k) * 2 ^ 40⌋ = n at h2 h3 ⊢
    generalize Real.logb 10 (f.val k) = g at h2 h3 ⊢
    norm_num at h2 h3 ⊢
    constructor <;> linarith
  mono k j h0 h h1 y z hy hz := by
    rw [exLog_value] at hy hz
    rw [← Option.some.inj hy, ← Option.some.inj hz]
    apply div_le_div_of_nonneg_right _ (by positivity)
    have : Real.logb 10 (f.val k) ≤ Real.logb 10 (f.val j) := by
      apply Real.logb_le_logb_of_le (by norm_num)
      · exact_mod_cast f.val_pos h0
      · exact_mod_cast f.val_strictMono.monotone h
    have := Int.floor_le_floor (mul_le_mul_of_nonneg_right this (show (0 : ℝ) ≤ 2 ^ 40 by positivity))
    exact_mod_cast this

theorem exLibm_ok : LibmOk exLibm where
  log10 := exLog_ok dbl
  log10f := exLog_ok flt
  pow10 n h0 h1 := by
    have all : ∀ i : Fin 618, dbl.near (10 ^ ((i : Int) - 309)) < dbl.top ∧
        |dbl.val (dbl.near (10 ^ ((i : Int) - 309))) - 10 ^ ((i : Int) - 309)| ≤ 10 ^ ((i : Int) - 309) / 2 ^ 46 := by decide +kernel
    obtain ⟨a1, a2⟩ := all ⟨(n + 309).toNat, by omega⟩
    have hn : (((n + 309).toNat : Nat) : Int) - 309 = n := by omega
    simp only [hn] at a1 a2
    refine ⟨dbl.val (dbl.near (10 ^ n)), ?_, a2⟩
    show (if n < -309 then _ else _) = _
    rw [if_neg (by omega)]
    unfold Fmt.round
    rw [if_neg a1.ne]
  pow10_small n h := ⟨0, le_rfl, by show (if n < -309 then _ else _) = _; rw [if_pos h]⟩
  pow10_large n h := by
    show (if n < -309 then _ else _) = _
    rw [if_neg (by omega)]
    have h309 : (10 : ℚ) ^ (309 : Int) ≤ 10 ^ n := zpow_le_zpow_right₀ (by norm_num) (by omega)
    have : dbl.near (10 ^ (309 : Int)) ≤ dbl.near (10 ^ n) := dbl.near_mono (by positivity) h309
    have h1 : dbl.near (10 ^ (309 : Int)) = dbl.top := by decide +kernel
    have h2 := dbl.near_le_top (10 ^ n)
    unfold Fmt.round
    rw [if_pos (by omega)]

private theorem exSymbols : Symbols 0x2f 0x3a := ⟨by decide, by decide⟩

/-- The double 3/2 is stored as a number close to it and comes back close. -/
private def exThreeHalves : Val := ⟨[0, 0, 0, 0, 0, 0, 0xf8, 0x3f], tDouble⟩

private theorem ex_value : (numberIn exThreeHalves.typ exThreeHalves.bytes).value = some (3 / 2) := by decide +kernel

example : ∃ a m y, (codec exLibm 0x2f 0x3a 8 16).encode exThreeHalves = .ok (some a) ∧
    (codec exLibm 0x2f 0x3a 8 16).decode ⟨a, tDouble⟩ = .ok (some m) ∧ m.length = 8 ∧ (numberIn tDouble m).value = some y ∧
    |y - 3 / 2| ≤ 1 / 10 ^ 12 := by
  obtain ⟨a, m, y, h1, h2, h3, h4, h5⟩ := C59_back_partial exLibm_ok exSymbols 8 16 exThreeHalves (by decide) (by decide) ex_value
    (by unfold Moderate; decide +kernel) (by unfold LosesExponent; decide +kernel)
  refine ⟨a, m, y, h1, h2, h3, h4, h5.trans ?_⟩
  unfold relErr; decide +kernel

/-- -1 and 3/2 are stored in this order. -/
example : ∃ a b, (codec exLibm 0x2f 0x3a 8 16).encode ⟨[0, 0, 0, 0, 0, 0, 0xf0, 0xbf], tDouble⟩ = .ok (some a) ∧
    (codec exLibm 0x2f 0x3a 8 16).encode exThreeHalves = .ok (some b) ∧ ∀ p q r : Bytes, p ++ (a ++ q) < p ++ (b ++ r) :=
  C59_distinct exLibm_ok exSymbols 8 16 _ exThreeHalves rfl (by decide) (by decide)
    (show _ = some (-1) by decide +kernel) ex_value (by decide +kernel) (by decide +kernel) (by unfold relErr; decide +kernel)

/-- The float -10^8 comes back as about -1/10. -/
example : ∃ a m y, (codec exLibm 0x2f 0x3a 8 16).encode ⟨[0x20, 0xbc, 0xbe, 0xcc], tFloat⟩ = .ok (some a) ∧
    (codec exLibm 0x2f 0x3a 8 16).decode ⟨a, tFloat⟩ = .ok (some m) ∧ (numberIn tFloat m).value = some y ∧ |y + 1 / 10| ≤ 1 / 1000 := by
  obtain ⟨a, m, y, z, h1, h2, h3, h4, h5⟩ := C59_lost_exponent_false exLibm_ok exSymbols 8 16 ⟨[0x20, 0xbc, 0xbe, 0xcc], tFloat⟩
    (by decide) (by decide) (show _ = some (-10 ^ 8) by decide +kernel) (.inr (by decide +kernel))
  refine ⟨a, m, y, h1, h2, h3, ?_⟩
  have hz : z = -(1 / 10) := by rw [h4]; decide +kernel
  rw [hz] at h5
  have : y + 1 / 10 = y - -(1 / 10) := by ring
  rw [this]
  refine h5.trans ?_
  unfold relErr; decide +kernel

/-- The largest double comes back as infinity. -/
example : ∃ a m, (codec exLibm 0x2f 0x3a 8 16).encode ⟨[0xff, 0xff, 0xff, 0xff, 0xff, 0xff, 0xef, 0x7f], tDouble⟩ = .ok (some a) ∧
    (codec exLibm 0x2f 0x3a 8 16).decode ⟨a, tDouble⟩ = .ok (some m) ∧ numberIn tDouble m = .inf false := by
  obtain ⟨a, m, h1, h2, h3⟩ := C59_large_false exLibm_ok exSymbols 8 16 ⟨[0xff, 0xff, 0xff, 0xff, 0xff, 0xff, 0xef, 0x7f], tDouble⟩ rfl
    (by decide) (by decide) (show _ = some ((2 ^ 53 - 1) * 2 ^ 971) by decide +kernel) (by decide +kernel)
  exact ⟨a, m, h1, h2, h3.trans (by decide +kernel)⟩

/-- The smallest double comes back as zero. -/
example : ∃ a m, (codec exLibm 0x2f 0x3a 8 16).encode ⟨[1, 0, 0, 0, 0, 0, 0, 0], tDouble⟩ = .ok (some a) ∧
    (codec exLibm 0x2f 0x3a 8 16).decode ⟨a, tDouble⟩ = .ok (some m) ∧ numberIn tDouble m = .fin false 0 := by
  obtain ⟨a, m, h1, h2, h3⟩ := C59_small_false exLibm_ok exSymbols 8 16 ⟨[1, 0, 0, 0, 0, 0, 0, 0], tDouble⟩ rfl
    (by decide) (show _ = some (1 / 2 ^ 1074) by decide +kernel) (by decide +kernel) (by decide +kernel)
  exact ⟨a, m, h1, h2, h3.trans (by decide +kernel)⟩

example : (codec exLibm 0x2f 0x3a 8 16).encode ⟨[0, 0, 0, 0, 0, 0, 0xf0, 0x7f], tDouble⟩ = .ub :=
  C59_not_finite_ub _ _ _ _ _ _ (by decide +kernel)

example : ∃ a, (codec exLibm 0x2f 0x3a 8 16).encode ⟨[0, 0, 0, 0, 0, 0, 0xf0, 0x3f], tDouble⟩ = .ok (some a) ∧
    (codec exLibm 0x2f 0x3a 8 16).encode ⟨[1, 0, 0, 0, 0, 0, 0xf0, 0x3f], tDouble⟩ = .ok (some a) :=
  C59_collision exLibm_ok (show (if (-1 : Int) < -309 then Ieee.fin false 0 else dbl.round false (10 ^ (-1 : Int))) = _ by
    rw [if_neg (by decide)]; congr 1; norm_num) _ _ _

/-- Keys of one subject with the predicates -1 and 3/2; subjects 3/2. -/
example : ∃ k k', encodeKey (defaultCallbacks 0x2f 0x3a (codec exLibm 0x2f 0x3a 8 16)) (exB [1])
      ⟨1, [0, 0, 0, 0, 0, 0, 0xf0, 0xbf], tDouble⟩ = .ok (some k) ∧
    encodeKey (defaultCallbacks 0x2f 0x3a (codec exLibm 0x2f 0x3a 8 16)) (exB [1]) ⟨1, exThreeHalves.bytes, tDouble⟩ = .ok (some k') ∧
    (k = k' ∨ k < k') :=
  C59_predicate_order exLibm_ok exSymbols 8 16 (exB [1]) _ _ [1] rfl (.inr rfl) rfl (by decide) (by decide) (by decide) (by decide)
    (show _ = some (-1) by decide +kernel) ex_value (by decide +kernel)

/-- A double that is PUT under a byte string and fetched. -/
example : NumObj ⟨7, exThreeHalves.bytes, tDouble⟩ ∧ NumBody (.put [⟨exB [1], 1, exB [2], 2, ⟨7, exThreeHalves.bytes, tDouble⟩⟩]) := by
  have h : NumObj ⟨7, exThreeHalves.bytes, tDouble⟩ :=
    ⟨.inr rfl, by decide, by decide, _, ex_value, .inr ⟨by unfold Moderate; decide +kernel, by unfold LosesExponent; decide +kernel⟩⟩
  refine ⟨h, ?_⟩
  intro x hx
  simp only [List.mem_cons, List.not_mem_nil, or_false] at hx
  subst hx
  exact ⟨exB_plain _ (by decide), exB_plain _ (by decide), .inr h⟩

end Instances

end Hx.Props

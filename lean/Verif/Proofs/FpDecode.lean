import Verif.Proofs.FpEncode

/-!
# Reading floating point numbers back: lemmas
-/

namespace Hx.Fp
open Hx Spec Elen

/-- The exponent that `decode::floating_point` reads back wrong. -/
def badExponent (s : Bool) (e : Int) : Prop := if s then e = 9 else e = -9

instance (s : Bool) (e : Int) : Decidable (badExponent s e) := by unfold badExponent; infer_instance

/-- What comes back of a stored triple. -/
theorem decodeFlt_enc {neg pos : UInt8} (hs : Symbols neg pos) (s : Bool) (e : Int) (d : Bytes) (hd : d ≠ []) (hf : flip (flip d) = d)
    (he : e.natAbs < 10 ^ 8) :
    decodeFlt neg pos (encFlt neg pos (.num s e d)) = .ok (.num s (if badExponent s e then 0 else e) d) := by
  have hnp : pos ≠ neg := by
    rintro rfl; have := hs.neg_lt; have := hs.pos_gt; omega
  have henc : encInt neg pos (-9) = [neg, 48] := by
    simp [encInt, unique, toDec, Elen.flip, flipChar, isDigit, digitChar]
  have hn48 : neg ≠ 48 := by
    rintro rfl
    have := hs.neg_lt
    have h48 : (48 : UInt8).toNat = 48 := rfl
    omega
  have hdec : ∀ b, decodeExp neg pos ([neg, 48] ++ b) = .ok (0, 2) := by
    intro b
    have h48n : ¬ (48 : UInt8) = neg := fun h => hn48 h.symm
    simp [decodeExp, getPrefixCount, hn48, h48n, isDigit]
  have hfne : flip d ≠ [] := by unfold Elen.flip; simpa using hd
  cases s
  · by_cases hb : e = -9
    · subst hb
      have := decodeFlt_front hs false [neg, 48] d 0 hd (hdec _) (by simp)
      simpa [encFlt, henc, badExponent] using this
    · have := decodeFlt_front hs false (encInt neg pos e) d e hd (decodeExp_encInt hs e he hb _) (encInt_ne_nil _ _ _)
      simpa [encFlt, badExponent, hb] using this
  · by_cases hb : e = 9
    · subst hb
      have := decodeFlt_front hs true [neg, 48] (flip d) 0 hfne (hdec _) (by simp)
      simpa [encFlt, henc, badExponent, hf] using this
    · have := decodeFlt_front hs true (encInt neg pos (-e)) (flip d) (-e) hfne
        (decodeExp_encInt hs (-e) (by omega) (by omega) _) (encInt_ne_nil _ _ _)
      simpa [encFlt, badExponent, hb, hf] using this

theorem readFraction_digits (f : Fmt) (s : Bool) {d : Bytes} (hd : AllDigits d) :
    readFraction f s d = f.round s ((digitsVal d : ℚ) / 10 ^ d.length) := by
  have : d.takeWhile isDigit = d := by
    induction d with
    | nil => rfl
    | cons c d ih =>
      rw [List.takeWhile_cons_of_pos (hd c (by simp)), ih (fun x hx => hd x (by simp [hx]))]
  unfold readFraction
  rw [this]
  rfl

/-- Rounding of numbers that are neither large nor small. -/
theorem round_mid {f : Fmt} (hf : IsFmt f) (s : Bool) {q : ℚ} (h0 : (2 : ℚ) ^ (f.emin - 2) ≤ q) (h1 : q ≤ 2 ^ (-f.emin + 1)) :
    ∃ m, f.round s q = .fin s m ∧ m = f.val (f.near q) ∧ f.near q < f.top ∧ |m - q| ≤ q / 2 ^ (f.p - 1) := by
  have hbig : ∃ k, k < f.top ∧ f.val k = 2 ^ (-f.emin + 1) := by
    rcases hf with rfl | rfl
    · exact ⟨254 * 2 ^ 23, by decide +kernel⟩
    · exact ⟨2046 * 2 ^ 52, by decide +kernel⟩
  obtain ⟨k, hk, hk1⟩ := hbig
  have hq : 0 < q := (two_zpow_pos _).trans_le h0
  have hlt : f.near q < f.top := (f.near_le hq.le hk.le (by rw [hk1]; exact h1)).trans_lt hk
  refine ⟨_, by unfold Fmt.round; rw [if_neg hlt.ne], rfl, hlt, ?_⟩
  refine (f.near_error hq.le hlt).trans (max_le ?_ ?_)
  · apply div_le_div_of_nonneg_left hq.le (by positivity)
    exact pow_le_pow_right₀ (by norm_num) (by omega)
  · have : (2 : ℚ) ^ (f.emin - f.p - 1) ≤ 2 ^ (f.emin - 2) / 2 ^ (f.p - 1) := by
      rcases hf with rfl | rfl <;> decide +kernel
    refine this.trans ?_
    gcongr

/-- Relative errors add up. -/
theorem rel_comp {x y z a b : ℚ} (h1 : |y - x| ≤ x * a) (h2 : |z - y| ≤ y * b) (hb : 0 ≤ b) :
    |z - x| ≤ x * (a + b + a * b) := by
  have h3 : |z - x| ≤ |z - y| + |y - x| := abs_sub_le z y x
  rw [abs_le] at h1
  have : y * b ≤ (x + x * a) * b := mul_le_mul_of_nonneg_right (by linarith [h1.2]) hb
  have h1' : |y - x| ≤ x * a := abs_le.mpr h1
  nlinarith

theorem rel_bounds {x y a : ℚ} (hx : 0 < x) (h : |y - x| ≤ x * a) (ha : a ≤ 1 / 5) : 4 / 5 * x ≤ y ∧ y ≤ 6 / 5 * x := by
  rw [abs_le] at h
  have : x * a ≤ x * (1 / 5) := mul_le_mul_of_nonneg_left ha hx.le
  constructor <;> linarith [h.1, h.2]

theorem error_sum {f : Fmt} (hf : IsFmt f) {a : ℚ} (a1 : a ≤ 18 / 100) :
    (a + 1 / 2 ^ (f.p + 1) + a * (1 / 2 ^ (f.p + 1)) + 1 / 2 ^ 46 +
        (a + 1 / 2 ^ (f.p + 1) + a * (1 / 2 ^ (f.p + 1))) * (1 / 2 ^ 46)) + 1 / 2 ^ 51 +
      (a + 1 / 2 ^ (f.p + 1) + a * (1 / 2 ^ (f.p + 1)) + 1 / 2 ^ 46 +
        (a + 1 / 2 ^ (f.p + 1) + a * (1 / 2 ^ (f.p + 1))) * (1 / 2 ^ 46)) * (1 / 2 ^ 51) + 1 / 2 ^ (f.p - 1) +
      ((a + 1 / 2 ^ (f.p + 1) + a * (1 / 2 ^ (f.p + 1)) + 1 / 2 ^ 46 +
        (a + 1 / 2 ^ (f.p + 1) + a * (1 / 2 ^ (f.p + 1))) * (1 / 2 ^ 46)) + 1 / 2 ^ 51 +
      (a + 1 / 2 ^ (f.p + 1) + a * (1 / 2 ^ (f.p + 1)) + 1 / 2 ^ 46 +
        (a + 1 / 2 ^ (f.p + 1) + a * (1 / 2 ^ (f.p + 1))) * (1 / 2 ^ 46)) * (1 / 2 ^ 51)) * (1 / 2 ^ (f.p - 1)) ≤ a + 7 * f.eta := by
  rcases hf with rfl | rfl
  · have e1 : flt.eta = 1 / 2 ^ 23 := rfl
    have e2 : flt.p = 23 := rfl
    rw [e1, e2]; norm_num; linarith
  · have e1 : dbl.eta = 1 / 2 ^ 45 := rfl
    have e2 : dbl.p = 52 := rfl
    rw [e1, e2]; norm_num; linarith

/-- The arithmetic of `decode::floating_point`. -/
theorem decode_arith {f : Fmt} (hf : IsFmt f) {lib : Libm} (hl : LibmOk lib) (s : Bool) {E : Int} (hE1 : -309 ≤ E) (hE2 : E ≤ 308)
    {t A a : ℚ} (t1 : 3 / 100 ≤ t) (t2 : t ≤ 34 / 100) (hA : |A - t| ≤ t * a) (a0 : 0 ≤ a) (a1 : a ≤ 18 / 100)
    (hT0 : (2 : ℚ) ^ f.emin ≤ t * 10 ^ E) (hT1 : t * 10 ^ E ≤ 2 ^ (-f.emin - 1)) :
    ∃ j, j < f.top ∧ f.conv (mul (lib.pow10 E) (f.round s A)) = .fin s (f.val j) ∧
      |f.val j - t * 10 ^ E| ≤ t * 10 ^ E * (a + 7 * f.eta) := by
  have hz : (0 : ℚ) < 10 ^ E := by positivity
  have ht : 0 < t := by linarith
  have hT : 0 < t * 10 ^ E := by positivity
  obtain ⟨b1, b2⟩ := rel_bounds ht hA (by linarith)
  obtain ⟨m, hm, -, hme⟩ := round_small hf s (q := A) (by linarith) (by linarith)
  obtain ⟨v, hv, hve⟩ := hl.pow10 E hE1 hE2
  rw [div_eq_mul_one_div] at hme hve
  have r1 := rel_comp hA hme (by positivity)
  set p1 : ℚ := 1 / 2 ^ (f.p + 1) with hp1
  have hp1' : p1 ≤ 1 / 2 ^ 24 := by rcases hf with rfl | rfl <;> decide +kernel
  have hp1n : 0 ≤ p1 := by positivity
  have s1 : a + p1 + a * p1 ≤ 1 / 5 := by nlinarith
  obtain ⟨m1, m2⟩ := rel_bounds ht r1 s1
  have r2 : |m * 10 ^ E - t * 10 ^ E| ≤ t * 10 ^ E * (a + p1 + a * p1) := by
    rw [← sub_mul, abs_mul, abs_of_pos hz]
    have := mul_le_mul_of_nonneg_right r1 hz.le
    linarith
  have r3 : |v * m - m * 10 ^ E| ≤ m * 10 ^ E * (1 / 2 ^ 46) := by
    have hm0 : 0 < m := by linarith
    have : v * m - m * 10 ^ E = m * (v - 10 ^ E) := by ring
    rw [this, abs_mul, abs_of_pos hm0]
    have := mul_le_mul_of_nonneg_left hve hm0.le
    linarith
  have r4 := rel_comp r2 r3 (by norm_num)
  set c4 := a + p1 + a * p1 + 1 / 2 ^ 46 + (a + p1 + a * p1) * (1 / 2 ^ 46) with hc4
  have s4 : c4 ≤ 1 / 5 := by rw [hc4]; nlinarith
  obtain ⟨P1, P2⟩ := rel_bounds hT r4 s4
  -- the product is a double
  have lo1 : (2 : ℚ) ^ (f.emin - 2) ≤ 1 / 2 * 2 ^ f.emin := by
    have : (2 : ℚ) ^ (f.emin - 2) = 2 ^ f.emin * (1 / 4) := by rw [zpow_sub₀ (by norm_num)]; norm_num; ring
    rw [this]; have := two_zpow_pos f.emin; linarith
  have up1 : 2 * (2 : ℚ) ^ (-f.emin - 1) ≤ 2 ^ (-f.emin + 1) := by
    have : (2 : ℚ) ^ (-f.emin + 1) = 2 ^ (-f.emin - 1) * 4 := by
      have : -f.emin + 1 = (-f.emin - 1) + 2 := by ring
      rw [this, zpow_add₀ (by norm_num)]; norm_num
    rw [this]; have := two_zpow_pos (-f.emin - 1); linarith
  have lod : (2 : ℚ) ^ (dbl.emin - 2) ≤ 2 ^ (f.emin - 2) := by
    rcases hf with rfl | rfl <;> decide +kernel
  have upd : (2 : ℚ) ^ (-f.emin + 1) ≤ 2 ^ (-dbl.emin + 1) := by
    rcases hf with rfl | rfl <;> decide +kernel
  obtain ⟨q, hq, -, -, hqe⟩ := round_mid (.inr rfl : IsFmt dbl) s (q := v * m) (by linarith) (by linarith)
  rw [div_eq_mul_one_div] at hqe
  have hd51 : dbl.p - 1 = 51 := rfl
  rw [hd51] at hqe
  have r5 := rel_comp r4 hqe (by norm_num)
  set c5 := c4 + 1 / 2 ^ 51 + c4 * (1 / 2 ^ 51) with hc5
  have s5 : c5 ≤ 1 / 5 := by rw [hc5, hc4]; nlinarith
  obtain ⟨Q1, Q2⟩ := rel_bounds hT r5 s5
  obtain ⟨w, hw, hwv, hwt, hwe⟩ := round_mid hf s (q := q) (by linarith) (by linarith)
  rw [div_eq_mul_one_div] at hwe
  have r6 := rel_comp r5 hwe (by positivity)
  refine ⟨f.near q, hwt, ?_, ?_⟩
  · rw [hv, hm]
    have : mul (.fin false v) (.fin s m) = .fin s q := by
      show dbl.round (false != s) (v * m) = _
      have : (false != s) = s := by cases s <;> rfl
      rw [this]; exact hq
    rw [this, ← hwv]
    exact hw
  · rw [← hwv]
    refine r6.trans ?_
    apply mul_le_mul_of_nonneg_left _ hT.le
    rw [hc5, hc4, hp1]
    exact error_sum hf a1

/-- Numbers that come back almost unchanged, and those whose exponent is lost. -/
theorem decode_close {f : Fmt} (hf : IsFmt f) {lib : Libm} (hl : LibmOk lib) {prec : Nat} (hp : 2 ≤ prec) {neg pos : UInt8}
    (hs : Symbols neg pos) (s : Bool) {k : Nat} (h0 : (2 : ℚ) ^ f.emin ≤ f.val k) (h1 : f.val k ≤ 2 ^ (-f.emin - 1)) :
    ∃ (e : Int) (c : Bytes), encodeNum lib f prec neg pos (.fin s (f.val k)) = .ok c ∧
      3 / 100 * (10 : ℚ) ^ e ≤ f.val k ∧ f.val k ≤ 34 / 100 * (10 : ℚ) ^ e ∧
      ∃ j, j < f.top ∧ decodeNum lib f neg pos c = .ok (.fin s (f.val j)) ∧
        |f.val j - f.val k / 10 ^ (if badExponent s e then e else 0)| ≤
          f.val k / 10 ^ (if badExponent s e then e else 0) * (17 / 10 ^ prec + 8 * f.eta) := by
  have k0 : 0 < k := by
    rcases Nat.eq_zero_or_pos k with rfl | h
    · rw [f.val_zero] at h0; linarith [two_zpow_pos f.emin]
    · exact h
  have kt : k < f.top := by
    apply f.val_strictMono.lt_iff_lt.mp
    refine h1.trans_lt ?_
    rcases hf with rfl | rfl <;> decide +kernel
  have klo : (1 : ℚ) / 10 ^ 309 ≤ f.val k := by
    refine le_trans ?_ h0
    rcases hf with rfl | rfl <;> decide +kernel
  obtain ⟨e, d, c1, hd, hlen, b1, b2, r1, r2, herr⟩ := encode_close hf hl prec neg pos s k0 kt klo
  have r3 : e ≤ 308 := by
    apply exponent_le b1
    refine h1.trans_lt ?_
    rcases hf with rfl | rfl <;> decide +kernel
  refine ⟨e, _, c1, b1, b2, ?_⟩
  have hz : (0 : ℚ) < 10 ^ e := by positivity
  set t := f.val k / 10 ^ e with ht
  have hxt : f.val k = t * 10 ^ e := by rw [ht]; field_simp
  have t1 : 3 / 100 ≤ t := by rw [ht, le_div_iff₀ hz]; exact b1
  have t2 : t ≤ 34 / 100 := by rw [ht, div_le_iff₀ hz]; exact b2
  set A : ℚ := (digitsVal d : ℚ) / 10 ^ d.length with hA
  set a : ℚ := 17 / 10 ^ prec + f.eta with ha
  have hAe : |A - t| ≤ t * a := by
    have e1 : |A * 10 ^ e - f.val k| ≤ f.val k * a := by
      unfold decimalVal at herr
      rw [← hA] at herr
      cases s
      · simpa using herr
      · simp only [if_true] at herr
        have : -1 * A * 10 ^ e - -f.val k = -(A * 10 ^ e - f.val k) := by ring
        rwa [this, abs_neg] at herr
    rw [hxt, ← sub_mul, abs_mul, abs_of_pos hz] at e1
    have : t * 10 ^ e * a = t * a * 10 ^ e := by ring
    rw [this] at e1
    exact le_of_mul_le_mul_right e1 hz
  have heta : 0 ≤ f.eta ∧ f.eta ≤ 1 / 2 ^ 23 := by rcases hf with rfl | rfl <;> decide +kernel
  have hpow : (17 : ℚ) / 10 ^ prec ≤ 17 / 100 := by
    apply div_le_div_of_nonneg_left (by norm_num) (by norm_num)
    have : (10 : ℚ) ^ 2 ≤ 10 ^ prec := pow_le_pow_right₀ (by norm_num) hp
    linarith
  have a0 : 0 ≤ a := by rw [ha]; have : (0 : ℚ) ≤ 17 / 10 ^ prec := by positivity
                        linarith
  have a1 : a ≤ 18 / 100 := by rw [ha]; linarith
  have hdne : d ≠ [] := by rintro rfl; simp at hlen; omega
  have hdec : decodeNum lib f neg pos (encFlt neg pos (.num s e d)) =
      .ok (f.conv (mul (lib.pow10 (if badExponent s e then 0 else e)) (f.round s A))) := by
    unfold decodeNum
    rw [decodeFlt_enc hs s e d hdne (flip_flip hd) (by omega), Out.ok_bind]
    simp only
    rw [readFraction_digits f s hd]
  rw [hdec]
  have fin : a + 7 * f.eta = 17 / 10 ^ prec + 8 * f.eta := by rw [ha]; ring
  rw [← fin]
  by_cases hb : badExponent s e
  · rw [if_pos hb, if_pos hb]
    obtain ⟨j, j1, j2, j3⟩ := decode_arith hf hl s (E := 0) (by omega) (by omega) t1 t2 hAe a0 a1
      (by rw [zpow_zero, mul_one]; refine le_trans ?_ t1; rcases hf with rfl | rfl <;> decide +kernel)
      (by rw [zpow_zero, mul_one]; refine t2.trans ?_; rcases hf with rfl | rfl <;> decide +kernel)
    rw [zpow_zero, mul_one] at j3
    exact ⟨j, j1, by rw [j2], j3⟩
  · rw [if_neg hb, if_neg hb]
    obtain ⟨j, j1, j2, j3⟩ := decode_arith hf hl s (E := e) (by omega) r3 t1 t2 hAe a0 a1 (by rw [← hxt]; exact h0)
      (by rw [← hxt]; exact h1)
    refine ⟨j, j1, by rw [j2], ?_⟩
    rw [← hxt] at j3
    rw [zpow_zero, div_one]; exact j3

/-- The largest doubles come back as infinity. -/
theorem decode_large {lib : Libm} (hl : LibmOk lib) {prec : Nat} (hp : 2 ≤ prec) {neg pos : UInt8} (hs : Symbols neg pos) (s : Bool)
    {k : Nat} (h1 : k < dbl.top) (h : 34 * (10 : ℚ) ^ 306 < dbl.val k) :
    ∃ c, encodeNum lib dbl prec neg pos (.fin s (dbl.val k)) = .ok c ∧ decodeNum lib dbl neg pos c = .ok (.inf s) := by
  have hf : IsFmt dbl := .inr rfl
  have k0 : 0 < k := by
    rcases Nat.eq_zero_or_pos k with rfl | h'
    · rw [dbl.val_zero] at h; exact absurd h (by decide +kernel)
    · exact h'
  have klo : (1 : ℚ) / 10 ^ 309 ≤ dbl.val k := le_trans (by decide +kernel) h.le
  obtain ⟨e, d, c1, hd, hlen, b1, b2, r1, r2, herr⟩ := encode_close hf hl prec neg pos s k0 h1 klo
  have r3 : 309 ≤ e := by
    apply le_exponent b2
    refine lt_of_le_of_lt ?_ h
    decide +kernel
  obtain rfl : e = 309 := by omega
  refine ⟨_, c1, ?_⟩
  have hdne : d ≠ [] := by rintro rfl; simp at hlen; omega
  unfold decodeNum
  rw [decodeFlt_enc hs s 309 d hdne (flip_flip hd) (by omega), Out.ok_bind]
  simp only
  have hb : ¬ badExponent s 309 := by unfold badExponent; cases s <;> decide
  rw [if_neg hb, readFraction_digits dbl s hd, hl.pow10_large 309 (by omega)]
  -- the mantissa is not zero
  have hz : (0 : ℚ) < 10 ^ (309 : Int) := by positivity
  set A : ℚ := (digitsVal d : ℚ) / 10 ^ d.length with hA
  have hx := dbl.val_pos k0
  have hetad : dbl.eta = 1 / 2 ^ 45 := rfl
  have hpow : (17 : ℚ) / 10 ^ prec ≤ 17 / 100 := by
    apply div_le_div_of_nonneg_left (by norm_num) (by norm_num)
    have : (10 : ℚ) ^ 2 ≤ 10 ^ prec := pow_le_pow_right₀ (by norm_num) hp
    linarith
  have e1 : |A * 10 ^ (309 : Int) - dbl.val k| ≤ dbl.val k * (1 / 5) := by
    have e0 : |A * 10 ^ (309 : Int) - dbl.val k| ≤ dbl.val k * (17 / 10 ^ prec + dbl.eta) := by
      unfold decimalVal at herr
      rw [← hA] at herr
      cases s
      · simpa using herr
      · simp only [if_true] at herr
        have : -1 * A * 10 ^ (309 : Int) - -dbl.val k = -(A * 10 ^ (309 : Int) - dbl.val k) := by ring
        rwa [this, abs_neg] at herr
    refine e0.trans (mul_le_mul_of_nonneg_left ?_ hx.le)
    rw [hetad]; linarith
  obtain ⟨g1, g2⟩ := rel_bounds hx e1 le_rfl
  have A12 : 1 / 1000 ≤ A ∧ A ≤ 1 := by
    clear herr e1 c1 r1 r2 r3 klo h
    generalize (10 : ℚ) ^ (309 : Int) = z at *
    constructor
    · have : 1 / 1000 * z ≤ A * z := by linarith
      exact le_of_mul_le_mul_right this hz
    · have : A * z ≤ 1 * z := by linarith
      exact le_of_mul_le_mul_right this hz
  obtain ⟨A1, A2⟩ := A12
  obtain ⟨m, hm, -, hme⟩ := round_small hf s A1 A2
  have hm0 : m ≠ 0 := by
    rintro rfl
    have h53 : dbl.p + 1 = 53 := rfl
    rw [h53, abs_le] at hme
    clear herr e1 c1 r1 r2 r3 klo h b1 b2 g1 g2 hz
    linarith [hme.1]
  rw [hm]
  show Out.ok (dbl.conv (if m = 0 then .nan else .inf (false != s))) = _
  rw [if_neg hm0]
  have : (false != s) = s := by cases s <;> rfl
  rw [this]
  rfl

/-- The smallest doubles come back as zero. -/
theorem decode_small {lib : Libm} (hl : LibmOk lib) (prec : Nat) {neg pos : UInt8} (hs : Symbols neg pos) (s : Bool)
    {k : Nat} (h0 : 0 < k) (h : dbl.val k < 3 / 10 ^ 310) :
    ∃ c, encodeNum lib dbl prec neg pos (.fin s (dbl.val k)) = .ok c ∧ decodeNum lib dbl neg pos c = .ok (.fin s 0) := by
  have hf : IsFmt dbl := .inr rfl
  have h1 : k < dbl.top := by
    apply dbl.val_strictMono.lt_iff_lt.mp
    exact h.trans (by decide +kernel)
  obtain ⟨e, d, c1, -, b1, b2, r1, r2, c3⟩ := encode_num hf hl prec neg pos h0 h1
  have r3 : e ≤ -309 := by
    apply exponent_le b1
    exact h.trans_le (by decide +kernel)
  rcases c3 with ⟨g, -⟩ | ⟨-, rfl⟩
  · omega
  refine ⟨_, c1 s, ?_⟩
  unfold decodeNum
  rw [decodeFlt_enc hs s e [102] (by simp) (by decide) (by omega), Out.ok_bind]
  simp only
  have hb : ¬ badExponent s e := by unfold badExponent; cases s <;> simp <;> omega
  rw [if_neg hb]
  have hr : readFraction dbl s [102] = .fin s 0 := by
    have : readFraction dbl s [102] = dbl.round s 0 := by
      unfold readFraction
      have : [102].takeWhile isDigit = [] := by decide
      rw [this]
      simp
    rw [this]
    unfold Fmt.round
    rw [dbl.near_zero, if_neg (by decide), dbl.val_zero]
  obtain ⟨v, hv0, hv⟩ : ∃ v : ℚ, 0 ≤ v ∧ lib.pow10 e = .fin false v := by
    rcases le_or_gt (-309) e with h | h
    · obtain ⟨v, hv, hve⟩ := hl.pow10 e h (by omega)
      refine ⟨v, ?_, hv⟩
      rw [abs_le] at hve
      have : (0 : ℚ) < 10 ^ e := by positivity
      linarith [hve.1]
    · exact hl.pow10_small e h
  rw [hv, hr]
  have hz : dbl.round s 0 = .fin s 0 := by
    unfold Fmt.round
    rw [dbl.near_zero, if_neg (by decide), dbl.val_zero]
  have : mul (.fin false v) (.fin s 0) = .fin s 0 := by
    show dbl.round (false != s) (v * 0) = _
    have : (false != s) = s := by cases s <;> rfl
    rw [this, mul_zero]; exact hz
  rw [this]
  show Out.ok (dbl.round s 0) = _
  rw [hz]

end Hx.Fp

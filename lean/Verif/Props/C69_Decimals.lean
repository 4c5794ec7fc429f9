import Verif.Proofs.Decimals
import Verif.Proofs.FpMem

/-!
# C69: decimals, small integers and comparison in the C interface of the encoder

`elen.h` offers more than the transport and the datastores use: decimals below 1, decimals with an integer part, integers of one and
two bytes, and a comparison of strings. Numbers are what the bit patterns of `float` and `double` mean (Verif/Spec/Ieee.lean).
-/

namespace Hx.Props
open Hx Elen Spec Fp

theorem value_fin {f : Fmt} {x : Nat} {v : ℚ} (h : (ieee f.w f.p x).value = some v) :
    ∃ s k, k < f.top ∧ ieee f.w f.p x = .fin s (f.val k) ∧ v = signed s (f.val k) ∧ |v| = f.val k := by
  cases hx : ieee f.w f.p x with
  | fin s q =>
    obtain ⟨k, hk, rfl⟩ := ieee_fin hx
    rw [hx] at h
    have hv : v = signed s (f.val k) := (Option.some.inj h).symm
    refine ⟨s, k, hk, rfl, hv, ?_⟩
    rw [hv]
    cases s
    · exact abs_of_nonneg (f.val_nonneg k)
    · simp only [signed, if_true, abs_neg]
      exact abs_of_nonneg (f.val_nonneg k)
  | inf s => rw [hx] at h; cases h
  | nan => rw [hx] at h; cases h

/-- Six digits for every negative precision. -/
theorem C69_negative_precision (f : Fmt) {prec : Int} (h : prec < 0) (neg pos : UInt8) (x : Ieee) :
    encSmall prec neg pos x = encSmall 6 neg pos x ∧ encLarge f prec neg pos x = encLarge f 6 neg pos x := by
  have hp : places prec = places 6 := by simp [places, h]
  have hd : ∀ y, smallDigits prec y = smallDigits 6 y := by
    intro y
    unfold smallDigits
    rw [hp]
  have hr : ∀ y, readParts f prec y = readParts f 6 y := by
    intro y
    unfold readParts
    rw [hp]
  constructor
  · unfold encSmall
    rw [hd]
  · unfold encLarge
    rw [hr]
    simp only [hd]

/-! ## Small decimals -/

/-- Order of small decimals, for magnitudes that are not rounded to 1: the smaller number has the same text or a smaller one; the texts
differ if 0 is between the numbers, or if they differ by more than a unit of the last digit. -/
theorem C69_small_order_partial {f : Fmt} {neg pos : UInt8} (hs : Symbols neg pos) {p : Nat} (hp : p ≠ 0) {x y : Nat} {v w : ℚ}
    (hx : (ieee f.w f.p x).value = some v) (hy : (ieee f.w f.p y).value = some w)
    (hv : |v| < 1 - 1 / (2 * 10 ^ p)) (hw : |w| < 1 - 1 / (2 * 10 ^ p)) :
    let a := encSmall p neg pos (ieee f.w f.p x)
    let b := encSmall p neg pos (ieee f.w f.p y)
    (v ≤ w → a = b ∨ a < b) ∧ (v < w → v ≤ 0 → 0 ≤ w → a < b) ∧ (1 / 10 ^ p < w - v → a < b) := by
  obtain ⟨s, k, -, e1, rfl, av⟩ := value_fin hx
  obtain ⟨t, j, -, e2, rfl, aw⟩ := value_fin hy
  rw [e1, e2]
  rw [av] at hv
  rw [aw] at hw
  have b1 := units_bound (n := 1) (f.val_nonneg k) (by simpa using hv)
  have b2 := units_bound (n := 1) (f.val_nonneg j) (by simpa using hw)
  rw [Nat.one_mul] at b1 b2
  have hE : ∀ s q, units p q < 10 ^ p → encSmall p neg pos (.fin s q) =
      if q = 0 then [48] else front neg pos s :: (digitsOf s (units p q) p ++ [back neg pos s]) := by
    intro s q hq
    split
    · next h => rw [h, encSmall_zero]
    · next h =>
      have := encSmall_eq (prec := p) neg pos (s := s) h (by rwa [places_nat]) (by rwa [places_nat])
      rwa [places_nat] at this
  have := order_frame hs p (L := fun s n => front neg pos s :: (digitsOf s n p ++ [back neg pos s])) (10 ^ p) (fun s n => ⟨_, rfl⟩)
    (fun m n h hn => ⟨((digitsOf_diff h hn).1.append _ _).cons _, ((digitsOf_diff h hn).2.append _ _).cons _⟩)
    (f.val_nonneg k) (f.val_nonneg j) b1 b2 (hE s _ b1) (hE t _ b2)
  rwa [places_nat] at this

/-- The number 0.25 and the number -0.125 are small enough. -/
example : (ieee dbl.w dbl.p 0x3fd0000000000000).value = some (1 / 4) ∧ (ieee dbl.w dbl.p 0xbfc0000000000000).value = some (-1 / 8) ∧
    |(1 / 4 : ℚ)| < 1 - 1 / (2 * 10 ^ 6) ∧ |(-1 / 8 : ℚ)| < 1 - 1 / (2 * 10 ^ 6) := by decide +kernel

/-- Small decimals come back: the error is half a unit of the last digit, and that of reading. -/
theorem C69_small_back_partial {f : Fmt} (hf : IsFmt f) {neg pos : UInt8} (hs : Symbols neg pos) {p : Nat} (hp : p ≠ 0) {x : Nat} {v : ℚ}
    (hx : (ieee f.w f.p x).value = some v) (hv : |v| < 1 - 1 / (2 * 10 ^ p)) :
    ∃ y u, decSmall f neg pos (encSmall p neg pos (ieee f.w f.p x)) = .ok y ∧ y.value = some u ∧ 0 ≤ u * v ∧
      |u - v| ≤ 1 / (2 * 10 ^ p) + 1 / 2 ^ f.p := by
  obtain ⟨s, k, -, e1, rfl, av⟩ := value_fin hx
  rw [e1]
  rw [av] at hv
  have b1 := units_bound (n := 1) (f.val_nonneg k) (by simpa using hv)
  rw [Nat.one_mul] at b1
  have hD : (0 : ℚ) < 10 ^ p := by positivity
  by_cases h0 : f.val k = 0
  · rw [h0, encSmall_zero]
    refine ⟨_, 0, rfl, rfl, by simp, ?_⟩
    have : signed s (0 : ℚ) = 0 := by cases s <;> simp [signed]
    rw [this]
    simp
    positivity
  · have hE := encSmall_eq (prec := p) neg pos (s := s) h0 (by rwa [places_nat]) (by rwa [places_nat])
    rw [places_nat] at hE
    have hlen := digitsOf_length s (units p (f.val k)) p
    rw [hE, decSmall_frame f (Symbols.ne hs) s (by intro h; rw [h] at hlen; exact hp hlen.symm), readFraction_digitsOf f s b1]
    have hd1 : (units p (f.val k) : ℚ) / 10 ^ p ≤ 1 := by
      rw [div_le_one hD]
      exact_mod_cast b1.le
    obtain ⟨a, ha0, ha, hae⟩ := round_abs hf s (q := (units p (f.val k) : ℚ) / 10 ^ p) (by positivity) (hd1.trans (by norm_num))
    refine ⟨_, signed s a, by rw [ha], rfl, ?_, ?_⟩
    · have := mul_nonneg ha0 (f.val_nonneg k)
      cases s <;> simp [signed] <;> exact this
    · have hcl := units_close p (f.val_nonneg k)
      rw [places_nat] at hcl
      have hcl' : |(units p (f.val k) : ℚ) / 10 ^ p - f.val k| ≤ 1 / (2 * 10 ^ p) := by
        have e : (units p (f.val k) : ℚ) / 10 ^ p - f.val k = ((units p (f.val k) : ℚ) - f.val k * 10 ^ p) / 10 ^ p := by field_simp
        rw [e, abs_div, abs_of_pos hD, div_le_iff₀ hD]
        refine hcl.trans (le_of_eq ?_)
        field_simp
      have habs : |signed s a - signed s (f.val k)| = |a - f.val k| := by
        cases s
        · rfl
        · simp only [signed, if_true]
          rw [← abs_neg]
          congr 1
          ring
      rw [habs]
      have hu : (0 : ℚ) < 1 / 2 ^ (f.p + 1) := by positivity
      have hu2 : (1 : ℚ) / 2 ^ f.p = 2 * (1 / 2 ^ (f.p + 1)) := by
        rw [pow_succ]
        field_simp
      have h1 := abs_le.mp hae
      have h2 := abs_le.mp hcl'
      have h3 : ((units p (f.val k) : ℚ) / 10 ^ p + 1 / 8) * (1 / 2 ^ (f.p + 1)) ≤ 2 * (1 / 2 ^ (f.p + 1)) :=
        mul_le_mul_of_nonneg_right (by linarith) hu.le
      rw [hu2, abs_le]
      constructor <;> linarith [h1.1, h1.2, h2.1, h2.2]

/-- Decimals that a type distinguishes come back exactly: up to 6 digits for `float`, 15 for `double`. -/
theorem C69_small_exact {f : Fmt} (hf : IsFmt f) {neg pos : UInt8} (hs : Symbols neg pos) {p m : Nat} (hp : p ≤ if f.p = 23 then 6 else 15)
    (h0 : 0 < m) (hm : m < 10 ^ p) (s : Bool) :
    decSmall f neg pos (encSmall p neg pos (f.round s ((m : ℚ) / 10 ^ p))) = .ok (f.round s ((m : ℚ) / 10 ^ p)) := by
  have hD : (0 : ℚ) < 10 ^ p := by positivity
  have hp0 : p ≠ 0 := by rintro rfl; omega
  have hm1 : (1 : ℚ) ≤ m := by exact_mod_cast h0
  have hd1 : (m : ℚ) / 10 ^ p ≤ 1 := by
    rw [div_le_one hD]
    exact_mod_cast hm.le
  obtain ⟨a, ha0, ha, hae⟩ := round_abs hf s (q := (m : ℚ) / 10 ^ p) (by positivity) (hd1.trans (by norm_num))
  have hbig : 9 / 8 * (1 / 2 ^ (f.p + 1)) * (10 : ℚ) ^ p < 1 / 2 := by
    have hle : (10 : ℚ) ^ p ≤ 10 ^ (if f.p = 23 then 6 else 15) := pow_le_pow_right₀ (by norm_num) hp
    have h2 : 9 / 8 * (1 / 2 ^ (f.p + 1)) * (10 : ℚ) ^ (if f.p = 23 then 6 else 15) < 1 / 2 := by
      rcases hf with rfl | rfl <;> decide +kernel
    exact lt_of_le_of_lt (mul_le_mul_of_nonneg_left hle (by positivity)) h2
  have hu : units p a = m := by
    apply halfEven_eq _ (mul_nonneg ha0 (by positivity))
    left
    rw [places_nat]
    have e : a * 10 ^ p - m = (a - m / 10 ^ p) * 10 ^ p := by field_simp
    rw [e, abs_mul, abs_of_pos hD]
    refine lt_of_le_of_lt (mul_le_mul_of_nonneg_right (hae.trans ?_) hD.le) hbig
    exact mul_le_mul_of_nonneg_right (by linarith) (by positivity)
  have ha1 : a ≠ 0 := by
    rintro rfl
    have : units p (0 : ℚ) = 0 := by
      apply halfEven_eq _ (by simp)
      left
      simp
    omega
  rw [ha, encSmall_eq (prec := p) neg pos ha1 (by rwa [places_nat]) (by rwa [places_nat, hu]), places_nat, hu]
  have hlen := digitsOf_length s m p
  rw [decSmall_frame f (Symbols.ne hs) s (by intro h; rw [h] at hlen; exact hp0 hlen.symm), readFraction_digitsOf f s hm, ha]

example : (5 : Nat) ≤ (if dbl.p = 23 then 6 else 15) ∧ 0 < 31416 ∧ 31416 < 10 ^ 5 := by decide

/-- False for numbers that are rounded to 1 or are larger: only the digits after the point are written. Here 0.9999999 and 1 come back as 0,
and 1.5 as 0.5. -/
theorem C69_small_one_false :
    decSmall dbl 0x2d 0x2b (encSmall 6 0x2d 0x2b (dbl.round false (9999999 / 10000000))) = .ok (.fin false 0) ∧
    decSmall dbl 0x2d 0x2b (encSmall 6 0x2d 0x2b (.fin false 1)) = .ok (.fin false 0) ∧
    decSmall dbl 0x2d 0x2b (encSmall 6 0x2d 0x2b (.fin false (3 / 2))) = .ok (.fin false (1 / 2)) ∧
    encSmall 6 0x2d 0x2b (.fin false 1) < encSmall 6 0x2d 0x2b (.fin false (1 / 2)) := by
  decide +kernel

/-- Without digits there is nothing to read. -/
theorem C69_small_no_digits {f : Fmt} {neg pos : UInt8} {s : Bool} {q : ℚ} (h0 : 0 < q) (h : q < 9) :
    encSmall 0 neg pos (.fin s q) = [front neg pos s, back neg pos s] ∧ decSmall f neg pos (encSmall 0 neg pos (.fin s q)) = .err := by
  have hb : units 0 q < 10 := by
    have := units_bound (p := 0) (n := 10) h0.le (by norm_num; linarith)
    simpa using this
  have he : encSmall 0 neg pos (.fin s q) = [front neg pos s, back neg pos s] := by
    have hd : smallDigits 0 (.fin s q) = [] := by
      unfold smallDigits
      simp only
      rw [if_neg h0.ne']
      have : (fixed (places 0) q).drop 2 = [] := by
        have hp : places 0 = 0 := rfl
        unfold fixed
        simp only
        rw [hp, if_pos rfl, List.append_nil]
        simp only [pow_zero, Nat.div_one, mul_one]
        have : halfEven q < 10 := by
          have e : units 0 q = halfEven (q * 10 ^ places 0) := rfl
          rw [hp, pow_zero, mul_one] at e
          rwa [← e]
        rw [toDec_small this]
        rfl
      rw [this]
      cases s <;> rfl
    unfold encSmall
    simp only
    rw [hd]
    cases s <;> simp [below, above, h0.ne', front, back]
  exact ⟨he, by rw [he]; rfl⟩

/-! ## Large decimals -/

/-- Order of large decimals, for magnitudes whose integer part fits an `int`. -/
theorem C69_large_order_partial {f : Fmt} (hf : IsFmt f) {neg pos : UInt8} (hs : Symbols neg pos) {p : Nat} {x y : Nat} {v w : ℚ}
    (hx : (ieee f.w f.p x).value = some v) (hy : (ieee f.w f.p y).value = some w)
    (hv : |v| < 2 ^ 31 - 1 / (2 * 10 ^ p)) (hw : |w| < 2 ^ 31 - 1 / (2 * 10 ^ p)) :
    ∃ a b, encLarge f p neg pos (ieee f.w f.p x) = .ok a ∧ encLarge f p neg pos (ieee f.w f.p y) = .ok b ∧
      (v ≤ w → a = b ∨ a < b) ∧ (v < w → v ≤ 0 → 0 ≤ w → a < b) ∧ (1 / 10 ^ p < w - v → a < b) := by
  obtain ⟨s, k, -, e1, rfl, av⟩ := value_fin hx
  obtain ⟨t, j, -, e2, rfl, aw⟩ := value_fin hy
  rw [e1, e2]
  rw [av] at hv
  rw [aw] at hw
  have b1 := units_bound (n := 2 ^ 31) (f.val_nonneg k) (by push_cast; exact hv)
  have b2 := units_bound (n := 2 ^ 31) (f.val_nonneg j) (by push_cast; exact hw)
  have hE : ∀ s k, units p (f.val k) < 2 ^ 31 * 10 ^ p → encLarge f p neg pos (.fin s (f.val k)) =
      .ok (if f.val k = 0 then [48] else large neg pos p s (units p (f.val k))) := by
    intro s k hq
    split
    · next h => rw [h, encLarge_zero]
    · next h =>
      have := encLarge_eq hf (prec := p) neg pos (s := s) h (by rwa [places_nat])
      rwa [places_nat] at this
  refine ⟨_, _, hE s k b1, hE t j b2, ?_⟩
  have hhead : ∀ s n, ∃ t, large neg pos p s n = front neg pos s :: t := by
    intro s n
    obtain ⟨c, t, h⟩ := intPart_length neg pos s (n / 10 ^ p)
    unfold large
    rw [h]
    exact ⟨_, rfl⟩
  have := order_frame hs p (L := large neg pos p) (2 ^ 31 * 10 ^ p) hhead (fun m n h _ => large_diff hs p h)
    (f.val_nonneg k) (f.val_nonneg j) b1 b2 (s := s) (t := t) rfl rfl
  rwa [places_nat] at this

/-- The numbers 1234.5 and -0.125. -/
example : (ieee dbl.w dbl.p 0x40934a0000000000).value = some (2469 / 2) ∧ (ieee dbl.w dbl.p 0xbfc0000000000000).value = some (-1 / 8) ∧
    |(2469 / 2 : ℚ)| < 2 ^ 31 - 1 / (2 * 10 ^ 6) ∧ |(-1 / 8 : ℚ)| < 2 ^ 31 - 1 / (2 * 10 ^ 6) := by decide +kernel

/-- Large decimals come back: the error is half a unit of the last digit, and those of reading and adding. -/
theorem C69_large_back_partial {f : Fmt} (hf : IsFmt f) {neg pos : UInt8} (hs : Symbols neg pos) {p : Nat} {x : Nat} {v : ℚ}
    (hx : (ieee f.w f.p x).value = some v) (hv : |v| < 2 ^ 31 - 1 / (2 * 10 ^ p)) :
    ∃ y u, (encLarge f p neg pos (ieee f.w f.p x) >>= decLarge f neg pos) = .ok y ∧ y.value = some u ∧
      |u - v| ≤ 1 / (2 * 10 ^ p) + (3 * |v| + 3) / 2 ^ (f.p + 1) := by
  obtain ⟨s, k, -, e1, rfl, av⟩ := value_fin hx
  rw [e1, av]
  rw [av] at hv
  have b1 := units_bound (n := 2 ^ 31) (f.val_nonneg k) (by push_cast; exact hv)
  have hD : (0 : ℚ) < 10 ^ p := by positivity
  have hD1 : (1 : ℚ) ≤ 10 ^ p := one_le_pow₀ (by norm_num)
  by_cases h0 : f.val k = 0
  · rw [h0, encLarge_zero, Out.ok_bind]
    refine ⟨_, 0, rfl, rfl, ?_⟩
    have : signed s (0 : ℚ) = 0 := by cases s <;> simp [signed]
    rw [this]
    simp
    positivity
  · have hE := encLarge_eq hf (prec := p) neg pos (s := s) h0 (by rwa [places_nat])
    rw [places_nat] at hE
    rw [hE, Out.ok_bind]
    obtain ⟨a, ha, hae⟩ := decLarge_close hf hs p s b1
    refine ⟨_, signed s a, ha, rfl, ?_⟩
    have hcl := units_close p (f.val_nonneg k)
    rw [places_nat] at hcl
    have hcl' : |(units p (f.val k) : ℚ) / 10 ^ p - f.val k| ≤ 1 / (2 * 10 ^ p) := by
      have e : (units p (f.val k) : ℚ) / 10 ^ p - f.val k = ((units p (f.val k) : ℚ) - f.val k * 10 ^ p) / 10 ^ p := by field_simp
      rw [e, abs_div, abs_of_pos hD, div_le_iff₀ hD]
      refine hcl.trans (le_of_eq ?_)
      field_simp
    have habs : |signed s a - signed s (f.val k)| = |a - f.val k| := by
      cases s
      · rfl
      · simp only [signed, if_true]
        rw [← abs_neg]
        congr 1
        ring
    rw [habs]
    have h2 := abs_le.mp hcl'
    have hhalf : (1 : ℚ) / (2 * 10 ^ p) ≤ 1 / 2 := by
      apply div_le_div_of_nonneg_left (by norm_num) (by norm_num)
      linarith
    have h3 : (3 * ((units p (f.val k) : ℚ) / 10 ^ p) + 1) / 2 ^ (f.p + 1) ≤ (3 * f.val k + 3) / 2 ^ (f.p + 1) := by
      apply div_le_div_of_nonneg_right _ (by positivity)
      linarith [h2.2]
    have h1 := abs_le.mp (hae.trans h3)
    rw [abs_le]
    constructor <;> linarith [h1.1, h1.2, h2.1, h2.2]

/-- Whole numbers that fit an `int` come back exactly. -/
theorem C69_large_whole {f : Fmt} (hf : IsFmt f) {neg pos : UInt8} (hs : Symbols neg pos) {p : Nat} {x : Nat} {z : Int}
    (hx : (ieee f.w f.p x).value = some (z : ℚ)) (hz : |z| < 2 ^ 31) :
    ∃ y, (encLarge f p neg pos (ieee f.w f.p x) >>= decLarge f neg pos) = .ok y ∧ y.value = some (z : ℚ) := by
  obtain ⟨s, k, hk, e1, e2, av⟩ := value_fin hx
  rw [e1]
  have hv : f.val k = (z.natAbs : ℚ) := by
    rw [← av]
    rw [Nat.cast_natAbs]
    push_cast
    rfl
  have hn : z.natAbs < 2 ^ 31 := by
    have : (z.natAbs : Int) < 2 ^ 31 := by rw [Int.natCast_natAbs]; exact hz
    exact_mod_cast this
  have hDn : 0 < 10 ^ p := Nat.pow_pos (by norm_num)
  have hu : units p (f.val k) = z.natAbs * 10 ^ p := by
    unfold units
    rw [hv, places_nat]
    have : ((z.natAbs : ℚ) * 10 ^ p) = ((z.natAbs * 10 ^ p : Nat) : ℚ) := by push_cast; rfl
    rw [this]
    exact halfEven_natCast _
  by_cases h0 : f.val k = 0
  · rw [h0, encLarge_zero, Out.ok_bind]
    refine ⟨_, rfl, ?_⟩
    rw [e2, h0]
    cases s <;> simp [signed, Ieee.value]
  · have b1 : units p (f.val k) < 2 ^ 31 * 10 ^ p := by
      rw [hu]
      exact Nat.mul_lt_mul_of_pos_right hn hDn
    have hE := encLarge_eq hf (prec := p) neg pos (s := s) h0 (by rwa [places_nat])
    rw [places_nat] at hE
    rw [hE, Out.ok_bind, decLarge_eq hs p s b1, hu, if_pos (Nat.mul_mod_left _ _), Nat.mul_div_cancel _ hDn, ← hv]
    refine ⟨_, rfl, ?_⟩
    unfold Fmt.round
    rw [f.near_val hk.le, if_neg hk.ne, e2]
    rfl

example : (ieee flt.w flt.p 0xc9742400).value = some ((-1000000 : Int) : ℚ) ∧ |(-1000000 : Int)| < 2 ^ 31 := by decide +kernel

/-- False for numbers whose integer part does not fit: positive ones are all written as 2147483647, negative ones are undefined. -/
theorem C69_large_big_false {f : Fmt} (neg pos : UInt8) {p : Nat} {x : Nat} {v : ℚ} (hx : (ieee f.w f.p x).value = some v) :
    (2 ^ 31 - 1 / (2 * 10 ^ p) ≤ v → encLarge f p neg pos (ieee f.w f.p x) = .ok (encInt neg pos 2147483647 ++ [neg])) ∧
    (v ≤ -(2 ^ 31 - 1 / (2 * 10 ^ p)) → encLarge f p neg pos (ieee f.w f.p x) = .ub) := by
  obtain ⟨s, k, -, e1, rfl, av⟩ := value_fin hx
  rw [e1]
  have hD : (0 : ℚ) < 10 ^ p := by positivity
  have hD1 : (1 : ℚ) ≤ 10 ^ p := one_le_pow₀ (by norm_num)
  have hhalf : (1 : ℚ) / (2 * 10 ^ p) ≤ 1 / 2 := by
    apply div_le_div_of_nonneg_left (by norm_num) (by norm_num)
    linarith
  have hmax : int32.max = 2 ^ 31 - 1 := rfl
  have hmin : int32.min = -2 ^ 31 := rfl
  have hge : (2 : ℚ) ^ 31 - 1 / (2 * 10 ^ p) ≤ f.val k → 2 ^ 31 ≤ units p (f.val k) / 10 ^ p ∧ f.val k ≠ 0 := by
    intro h
    constructor
    · rw [Nat.le_div_iff_mul_le (Nat.pow_pos (by norm_num))]
      exact units_ge (n := 2 ^ 31) (.inl ⟨2 ^ 30, by norm_num⟩) (by push_cast; exact h) (f.val_nonneg k)
    · intro h0
      rw [h0] at h
      have : (1 : ℚ) < 2 ^ 31 := by norm_num
      linarith
  have hr : ∀ s, (readParts f p (.fin s (f.val k))) = (let i := units p (f.val k) / 10 ^ p
      let v : Int := if s then -(i : Int) else i
      if int32.max < v then (int32.max, 0)
      else if v < int32.min then (int32.min, 0)
      else (v, f.val (f.near (((units p (f.val k) % 10 ^ p : Nat) : ℚ) / 10 ^ p)))) := by
    intro s
    unfold readParts units
    simp only [places_nat]
  constructor
  · intro h
    cases s with
    | true =>
      simp only [signed, if_true] at h
      have := f.val_nonneg k
      have : (1 : ℚ) < 2 ^ 31 := by norm_num
      linarith
    | false =>
      simp only [signed, Bool.false_eq_true, if_false] at h
      obtain ⟨hi, h0⟩ := hge h
      have hrp : readParts f p (.fin false (f.val k)) = (2 ^ 31 - 1, 0) := by
        rw [hr]
        generalize units p (f.val k) / 10 ^ p = i at hi
        simp only [Bool.false_eq_true, if_false]
        rw [hmax, if_pos (by omega)]
      have hb : below (.fin false (f.val k)) = false := by simp [below]
      unfold encLarge
      rw [if_neg (by simp [h0]), hrp, hb]
      simp only
      unfold encodeInteger
      rw [if_pos (by decide), if_neg (by rw [hmax]; decide), Out.ok_bind]
      simp
  · intro h
    cases s with
    | false =>
      simp only [signed, Bool.false_eq_true, if_false] at h
      have := f.val_nonneg k
      have : (1 : ℚ) < 2 ^ 31 := by norm_num
      linarith
    | true =>
      simp only [signed, if_true, neg_le_neg_iff] at h
      obtain ⟨hi, h0⟩ := hge h
      have hrp : (readParts f p (.fin true (f.val k))).1 ≤ -2 ^ 31 := by
        rw [hr]
        generalize units p (f.val k) / 10 ^ p = i at hi
        simp only [if_true]
        rw [hmax, hmin, if_neg (by omega)]
        split
        · exact le_refl _
        · simp only
          omega
      unfold encLarge
      rw [if_neg (by simp [h0])]
      simp only
      generalize readParts f p (.fin true (f.val k)) = r at hrp
      unfold encodeInteger
      rw [if_pos (by omega), hmax, if_pos (by omega)]
      rfl

example : (ieee dbl.w dbl.p 0x41e0000000000000).value = some (2 ^ 31) ∧ (2 : ℚ) ^ 31 - 1 / (2 * 10 ^ 6) ≤ 2 ^ 31 := by decide +kernel

/-- False for infinity and NaN: they are written like 0 with a sign, and come back as 0. -/
theorem C69_large_inf_false {f : Fmt} (hf : IsFmt f) {neg pos : UInt8} (hs : Symbols neg pos) (prec : Int) (x : Ieee) (hx : x.value = none) :
    ∃ s, (encLarge f prec neg pos x >>= decLarge f neg pos) = .ok (.fin s 0) := by
  have hr0 : ∀ s, f.round s (0 : ℚ) = .fin s 0 := by
    intro s
    have : 0 < f.top := by rcases hf with rfl | rfl <;> decide
    unfold Fmt.round
    rw [f.near_zero, if_neg this.ne, f.val_zero]
  have key : ∀ s, decLarge f neg pos (large neg pos 0 s 0) = .ok (.fin s 0) := by
    intro s
    rw [decLarge_eq hs 0 s (by norm_num)]
    simp [hr0]
  have hl : large neg pos 0 false 0 = [pos, 48, neg] ∧ large neg pos 0 true 0 = [neg, 57, pos] := by
    simp [large, intPart, front, back]
  cases x with
  | fin s q => cases hx
  | inf s =>
    refine ⟨s, ?_⟩
    rw [← key s]
    cases s
    · rw [hl.1]; rfl
    · rw [hl.2]; rfl
  | nan =>
    refine ⟨false, ?_⟩
    rw [← key false, hl.1]
    rfl

/-! ## Integers of two bytes and one byte -/

/-- Integers of two bytes are ordered and come back, but for the smallest. -/
theorem C69_int16_partial {neg pos : UInt8} (hs : Symbols neg pos) {t : IntType} (ht : t = int16 ∨ t = uint16) {v w : Int}
    (hv : t.min ≤ v ∧ v ≤ t.max ∧ -v ≤ t.max) (hw : t.min ≤ w ∧ w ≤ t.max ∧ -w ≤ t.max) :
    (encodeNarrow neg pos t v < encodeNarrow neg pos t w ↔ v < w) ∧ ∃ k, decodeInt neg pos t (encodeNarrow neg pos t v) = .ok (v, k) := by
  have he : ∀ v, -v ≤ t.max → encodeNarrow neg pos t v = encInt neg pos v := by
    intro v h
    unfold encodeNarrow
    rw [if_neg (by omega)]
  have hmax : t.max < 10 ^ 20 := by rcases ht with rfl | rfl <;> decide
  rw [he v hv.2.2, he w hw.2.2]
  constructor
  · constructor
    · intro h
      rcases Int.lt_trichotomy v w with h1 | h1 | h1
      · exact h1
      · subst h1; exact absurd h (bytes_lt_irrefl _)
      · exact absurd h (bytes_lt_asymm (encInt_diff hs h1).lt)
    · intro h
      exact (encInt_diff hs h).lt
  · unfold encInt
    split
    · have := decodeInt_unique hs (.inl rfl) t (n := v.natAbs) (by omega) (by omega) (by omega) []
      rw [List.append_nil, if_pos rfl] at this
      refine ⟨_, this.trans (c := .ok (v, (unique neg neg v.natAbs).length)) ?_⟩
      congr 2
      omega
    · split
      · have := decodeInt_unique hs (.inr rfl) t (n := v.natAbs) (by omega) (by omega) (by omega) []
        rw [List.append_nil, if_neg (Ne.symm (Symbols.ne hs))] at this
        refine ⟨_, this.trans (c := .ok (v, (unique pos neg v.natAbs).length)) ?_⟩
        congr 2
        omega
      · exact ⟨1, by simp [decodeInt]; omega⟩

example : int16.min ≤ -1234 ∧ (-1234 : Int) ≤ int16.max ∧ -(-1234) ≤ int16.max := by decide

/-- False for the smallest: its text is read as another number. -/
theorem C69_int16_min_false : encodeNarrow 0x2d 0x2b int16 (-32768) = [0x2d, 0x33, 0x2d, 0x36, 0x37, 0x32, 0x33, 0x31] ∧
    decodeInt 0x2d 0x2b int16 (encodeNarrow 0x2d 0x2b int16 (-32768)) = .ok (-6, 2) := by
  decide +kernel

/-- The first digit. -/
def firstDigit (n : Nat) : Nat := if n < 10 then n else if n < 100 then n / 10 else n / 100

/-- False for integers of one byte: what comes back is the code of the first digit. Only 0 and 53 and -53 come back. -/
theorem C69_int8_false {neg pos : UInt8} (hs : Symbols neg pos) {t : IntType} (ht : t = int8 ∨ t = uint8) {v : Int}
    (hv : t.min ≤ v ∧ v ≤ t.max ∧ -v ≤ t.max) :
    ∃ u k, decodeByte neg pos t (encodeNarrow neg pos t v) = .ok (u, k) ∧
      u = (if v = 0 then 0 else if v < 0 then -(48 + firstDigit v.natAbs : Int) else 48 + firstDigit v.natAbs) ∧
      (u = v ↔ v = 0 ∨ v = 53 ∨ v = -53) := by
  have hr : -127 ≤ v ∧ v ≤ 255 ∧ (t = uint8 → 0 ≤ v) := by
    rcases ht with rfl | rfl
    · have h1 : int8.min = -128 := rfl
      have h2 : int8.max = 127 := rfl
      rw [h1, h2] at hv
      exact ⟨by omega, by omega, fun h => by cases h⟩
    · have h1 : uint8.min = 0 := rfl
      have h2 : uint8.max = 255 := rfl
      rw [h1, h2] at hv
      exact ⟨by omega, by omega, fun _ => by omega⟩
  have he : encodeNarrow neg pos t v = encInt neg pos v := by
    unfold encodeNarrow
    rw [if_neg (by omega)]
  rw [he]
  by_cases h0 : v = 0
  · subst h0
    exact ⟨0, 1, rfl, by simp, by simp⟩
  have hwrapp : ∀ d : Nat, 0 < d → d < 10 → wrap t (48 + d : Nat) = (48 + d : Nat) := by
    intro d _ h2
    have key : ∀ t, t = int8 ∨ t = uint8 → ∀ d : Fin 10, wrap t (48 + d.val : Nat) = (48 + d.val : Nat) := by
      rintro t (rfl | rfl) <;> decide +kernel
    exact key t ht ⟨d, h2⟩
  have hwrapn : t = int8 → ∀ d : Nat, 0 < d → d < 10 → wrap t (-((48 + d : Nat) : Int)) = -((48 + d : Nat) : Int) := by
    rintro rfl d _ h2
    have key : ∀ d : Fin 10, wrap int8 (-((48 + d.val : Nat) : Int)) = -((48 + d.val : Nat) : Int) := by decide +kernel
    exact key ⟨d, h2⟩
  have hfd : 0 < firstDigit v.natAbs ∧ firstDigit v.natAbs < 10 := by
    unfold firstDigit
    split
    · omega
    · split <;> omega
  have hback : ∀ n : Nat, 0 < n → n < 256 → (48 + firstDigit n = n ↔ n = 53) := by
    intro n h1 h2
    unfold firstDigit
    split
    · omega
    · split <;> omega
  rcases lt_or_gt_of_ne h0 with hneg | hpos
  · have ht8 : t = int8 := by
      rcases ht with h | h
      · exact h
      · have := hr.2.2 h; omega
    obtain ⟨c, cs, hc, hdec⟩ := decodeByte_unique hs (.inl rfl) t (n := v.natAbs) (by omega) (by omega)
    have hcn := toDec_first (n := v.natAbs) (by omega) hc
    change c.toNat = 48 + firstDigit v.natAbs at hcn
    rw [if_pos rfl, hcn, hwrapn ht8 _ hfd.1 hfd.2] at hdec
    refine ⟨_, (unique neg neg v.natAbs).length, ?_, rfl, ?_⟩
    · unfold encInt
      rw [if_pos hneg, hdec, if_neg h0, if_pos hneg]
      push_cast
      rfl
    · rw [if_neg h0, if_pos hneg]
      have := hback v.natAbs (by omega) (by omega)
      constructor
      · intro h
        have : v.natAbs = 53 := this.mp (by omega)
        omega
      · intro h
        have := this.mpr (by omega)
        omega
  · obtain ⟨c, cs, hc, hdec⟩ := decodeByte_unique hs (.inr rfl) t (n := v.natAbs) (by omega) (by omega)
    have hcn := toDec_first (n := v.natAbs) (by omega) hc
    change c.toNat = 48 + firstDigit v.natAbs at hcn
    rw [if_neg (Ne.symm (Symbols.ne hs)), hcn, hwrapp _ hfd.1 hfd.2] at hdec
    refine ⟨_, (unique pos neg v.natAbs).length, ?_, rfl, ?_⟩
    · unfold encInt
      rw [if_neg (by omega), if_pos hpos, hdec, if_neg h0, if_neg (by omega)]
      push_cast
      rfl
    · rw [if_neg h0, if_neg (by omega)]
      have := hback v.natAbs (by omega) (by omega)
      constructor
      · intro h
        have : v.natAbs = 53 := this.mp (by omega)
        omega
      · intro h
        have := this.mpr (by omega)
        omega

example : int8.min ≤ -42 ∧ (-42 : Int) ≤ int8.max ∧ -(-42) ≤ int8.max := by decide

/-! ## Comparison -/

/-- Both versions of `lex_comp` compare strings of 7-bit characters as strings of bytes. -/
theorem C69_compare_partial {a b : Bytes} (ha : ∀ c ∈ a, 0 < c.toNat ∧ c.toNat < 128) (hb : ∀ c ∈ b, 0 < c.toNat ∧ c.toNat < 128) :
    (lexComp a b = true ↔ a < b) ∧ (lexComp' a b = true ↔ a < b) := by
  obtain ⟨h1, h2⟩ := lexComp_lt ha hb
  rw [h1, h2]
  simp

/-- Integers are compared as numbers. -/
theorem C69_compare_integers {neg pos : UInt8} (hs : Symbols neg pos) (h0 : 0 < neg.toNat) (h1 : pos.toNat < 128) (v w : Int) :
    lexComp (encInt neg pos v) (encInt neg pos w) = true ↔ v < w := by
  rw [(C69_compare_partial (encInt_chars hs h0 h1 v) (encInt_chars hs h0 h1 w)).1]
  constructor
  · intro h
    rcases Int.lt_trichotomy v w with h1 | h1 | h1
    · exact h1
    · subst h1; exact absurd h (bytes_lt_irrefl _)
    · exact absurd h (bytes_lt_asymm (encInt_diff hs h1).lt)
  · intro h
    exact (encInt_diff hs h).lt

example : 0 < (0x2d : UInt8).toNat ∧ (0x7e : UInt8).toNat < 128 := by decide

/-- False for other characters, which are negative: they come before the 7-bit ones, and for the version for C before the end of a string. -/
theorem C69_compare_false : lexComp [200] [65] = true ∧ lexComp' [200] [65] = true ∧ ¬ [(200 : UInt8)] < [65] ∧
    lexComp [] [200] = false ∧ lexComp' [] [200] = true ∧ lexComp [200] [] = true := by
  decide +kernel

end Hx.Props

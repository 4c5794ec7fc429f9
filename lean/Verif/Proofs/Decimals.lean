import Verif.Model.Decimals
import Verif.Proofs.FpDecode

/-!
# Decimals: lemmas
-/

namespace Hx.Fp
open Hx Spec Elen

/-! ## Rounding -/

theorem halfEven_eq {t : ℚ} {m : Nat} (h : |t - m| < 1 / 2 ∨ (|t - m| = 1 / 2 ∧ m % 2 = 0)) (ht : 0 ≤ t) : halfEven t = m := by
  have hs := halfEven_spec ht
  rcases h with h | ⟨h, he⟩
  · rw [abs_le] at hs
    rw [abs_lt] at h
    have h1 : ((halfEven t : Nat) : ℚ) < m + 1 := by linarith
    have h2 : (m : ℚ) < halfEven t + 1 := by linarith
    have h1' : halfEven t < m + 1 := by exact_mod_cast h1
    have h2' : m < halfEven t + 1 := by exact_mod_cast h2
    omega
  · rcases abs_eq (by norm_num : (0 : ℚ) ≤ 1 / 2) |>.mp h with h | h
    · have hfl : ⌊t⌋.toNat = m := by
        have : ⌊t⌋ = (m : Int) := by
          rw [Int.floor_eq_iff]
          push_cast
          constructor <;> linarith
        rw [this]
        rfl
      unfold halfEven
      simp only [hfl]
      rw [if_neg (by rw [h]; norm_num), if_neg (by rw [h]; norm_num)]
      omega
    · have hm : 1 ≤ m := by
        rcases Nat.eq_zero_or_pos m with rfl | h'
        · simp at h; linarith
        · exact h'
      have hfl : ⌊t⌋.toNat = m - 1 := by
        have : ⌊t⌋ = ((m - 1 : Nat) : Int) := by
          rw [Int.floor_eq_iff]
          push_cast [hm]
          constructor <;> linarith
        rw [this]
        rfl
      unfold halfEven
      simp only [hfl]
      have hr : t - ((m - 1 : Nat) : ℚ) = 1 / 2 := by push_cast [hm]; linarith
      rw [hr, if_neg (by norm_num), if_neg (by norm_num)]
      omega

theorem halfEven_tie {t : ℚ} (ht : 0 ≤ t) (h : |(halfEven t : ℚ) - t| = 1 / 2) : halfEven t % 2 = 0 := by
  have hf : (0 : Int) ≤ ⌊t⌋ := Int.floor_nonneg.mpr ht
  have hc : ((⌊t⌋.toNat : Nat) : ℚ) = ⌊t⌋ := by
    have : ((⌊t⌋.toNat : Nat) : Int) = ⌊t⌋ := Int.toNat_of_nonneg hf
    exact_mod_cast this
  have h1 := Int.floor_le t
  have h2 := Int.lt_floor_add_one t
  unfold halfEven at h ⊢
  simp only at h ⊢
  rw [← hc] at h1 h2
  split at h
  · rename_i h3
    rw [abs_of_nonpos (by linarith)] at h
    linarith
  · split at h
    · rename_i h3 h4
      push_cast at h
      rw [abs_of_pos (by linarith)] at h
      linarith
    · rename_i h3 h4
      rw [if_neg h3, if_neg h4]
      omega

/-- Nothing is nearer. -/
theorem Fmt.near_nearest (f : Fmt) {q : ℚ} (hq : 0 ≤ q) (h : f.near q < f.top) (k : Nat) : |f.val (f.near q) - q| ≤ |f.val k - q| := by
  rcases hq.eq_or_lt with rfl | hq
  · rw [f.near_zero, f.val_zero]; simp
  obtain ⟨a0, a1, a2, a3⟩ := f.scaled hq
  have hnear : f.near q = (max (ilog2 q) f.emin - f.emin).toNat * 2 ^ f.p + halfEven (q / 2 ^ (max (ilog2 q) f.emin - f.p)) := by
    unfold Fmt.near at h ⊢
    rw [if_neg hq.ne'] at h ⊢
    simp only at h ⊢
    omega
  set e := max (ilog2 q) f.emin with he
  set u : ℚ := 2 ^ (e - f.p : Int) with hu
  have hz : 0 < u := two_zpow_pos _
  set s := q / u with hs
  have hqs : q = s * u := by rw [hs]; field_simp
  have hle : halfEven s ≤ 2 ^ (f.p + 1) := by
    apply halfEven_le_of a0; push_cast; exact a1.le
  have hge : (e - f.emin).toNat = 0 ∨ 2 ^ f.p ≤ halfEven s := a2.imp id (fun h => by apply le_halfEven_of; push_cast; exact h)
  have hval : ∀ n : Nat, n ≤ 2 ^ (f.p + 1) → ((e - f.emin).toNat = 0 ∨ 2 ^ f.p ≤ n) → f.val ((e - f.emin).toNat * 2 ^ f.p + n) = n * u := by
    intro n h1 h2
    rw [f.val_parts _ _ h1 h2, a3]
    have e1 : e - f.emin + f.emin - f.p = e - (f.p : Int) := by ring
    rw [e1]
  have herr := halfEven_spec a0
  rw [abs_le] at herr
  have hv := hval _ hle hge
  rw [hnear]
  rcases lt_trichotomy k ((e - f.emin).toNat * 2 ^ f.p + halfEven s) with hk | hk | hk
  · -- below
    rcases le_or_gt (f.val ((e - f.emin).toNat * 2 ^ f.p + halfEven s)) q with hc | hc
    · have hm := f.val_strictMono hk
      rw [abs_of_nonpos (by linarith), abs_of_nonpos (by linarith)]
      linarith
    · rw [hv] at hc ⊢
      have hlt : s < halfEven s := by
        rw [hqs] at hc
        exact lt_of_mul_lt_mul_right hc hz.le
      have hpos : 1 ≤ halfEven s := by
        have : (0 : ℚ) < halfEven s := lt_of_le_of_lt a0 hlt
        exact_mod_cast this
      have hge' : (e - f.emin).toNat = 0 ∨ 2 ^ f.p ≤ halfEven s - 1 := by
        refine a2.imp id fun h => ?_
        have : (2 : ℚ) ^ f.p < halfEven s := lt_of_le_of_lt h hlt
        have : 2 ^ f.p < halfEven s := by exact_mod_cast this
        omega
      have hkm : f.val k ≤ f.val ((e - f.emin).toNat * 2 ^ f.p + (halfEven s - 1)) := f.val_strictMono.monotone (by omega)
      rw [hval _ (by omega) hge'] at hkm
      have : ((halfEven s - 1 : Nat) : ℚ) = halfEven s - 1 := by push_cast [hpos]; ring
      rw [this] at hkm
      have hd : (halfEven s : ℚ) * u - q ≤ u / 2 := by
        rw [hqs]
        have := mul_le_mul_of_nonneg_right herr.2 hz.le
        linarith
      rw [abs_of_pos (by linarith), abs_of_nonpos (by linarith)]
      linarith
  · rw [hk]
  · rcases le_or_gt q (f.val ((e - f.emin).toNat * 2 ^ f.p + halfEven s)) with hc | hc
    · have hm := f.val_strictMono hk
      rw [abs_of_nonneg (by linarith), abs_of_nonneg (by linarith)]
      linarith
    · rw [hv] at hc ⊢
      have hlt : (halfEven s : ℚ) < s := by
        rw [hqs] at hc
        exact lt_of_mul_lt_mul_right hc hz.le
      have hle' : halfEven s + 1 ≤ 2 ^ (f.p + 1) := by
        have : (halfEven s : ℚ) < 2 ^ (f.p + 1) := hlt.trans a1
        have : halfEven s < 2 ^ (f.p + 1) := by exact_mod_cast this
        omega
      have hkm : f.val ((e - f.emin).toNat * 2 ^ f.p + (halfEven s + 1)) ≤ f.val k := f.val_strictMono.monotone (by omega)
      rw [hval _ hle' (hge.imp id (by omega))] at hkm
      push_cast at hkm
      have hd : q - (halfEven s : ℚ) * u ≤ u / 2 := by
        rw [hqs]
        have := mul_le_mul_of_nonneg_right herr.1 hz.le
        linarith
      rw [abs_of_neg (by linarith), abs_of_pos (by linarith)]
      linarith

theorem val_one {f : Fmt} (hf : IsFmt f) : ∃ k, k < f.top ∧ f.val k = 1 := by
  rcases hf with rfl | rfl
  · exact ⟨0x3f800000, by decide +kernel⟩
  · exact ⟨0x3ff0000000000000, by decide +kernel⟩

theorem near_lt_top {f : Fmt} (hf : IsFmt f) {q : ℚ} (h0 : 0 ≤ q) (h : q ≤ 1) : f.near q < f.top := by
  obtain ⟨k, hk, h1⟩ := val_one hf
  exact (f.near_le h0 hk.le (by rw [h1]; exact h)).trans_lt hk

/-- A short multiple of a power of two is a number of the format. -/
theorem Fmt.exact {f : Fmt} {n : Nat} {z : Int} (hn : n < 2 ^ (f.p + 1)) (hz : f.emin - f.p ≤ z) : ∃ k, f.val k = n * 2 ^ z := by
  rcases Nat.eq_zero_or_pos n with rfl | h0
  · exact ⟨0, by rw [f.val_zero]; simp⟩
  have hn0 : (0 : ℚ) < n := by exact_mod_cast h0
  have hq : (0 : ℚ) < n * 2 ^ z := mul_pos hn0 (two_zpow_pos z)
  obtain ⟨a0, a1, a2, a3⟩ := f.scaled hq
  obtain ⟨h1, -⟩ := ilog2_spec hq
  set e := max (ilog2 (n * 2 ^ z : ℚ)) f.emin with he
  have hlt : (n : ℚ) < 2 ^ (f.p + 1) := by exact_mod_cast hn
  have hup : e ≤ z + f.p := by
    have : ilog2 (n * 2 ^ z : ℚ) ≤ z + f.p := by
      have h2 : (2 : ℚ) ^ ilog2 (n * 2 ^ z : ℚ) < 2 ^ (z + f.p + 1) := by
        refine h1.trans_lt ?_
        have : (2 : ℚ) ^ (z + f.p + 1) = 2 ^ (f.p + 1) * 2 ^ z := by
          rw [← zpow_natCast, ← zpow_add₀ (by norm_num)]; congr 1; push_cast; ring
        rw [this]
        exact mul_lt_mul_of_pos_right hlt (two_zpow_pos _)
      have := (zpow_lt_zpow_iff_right₀ (by norm_num : (1 : ℚ) < 2)).mp h2
      omega
    omega
  have hj : ∃ j : Nat, z = j + (e - f.p) := ⟨(z - (e - f.p)).toNat, by omega⟩
  obtain ⟨j, hj⟩ := hj
  have hs : (n : ℚ) * 2 ^ z / 2 ^ (e - (f.p : Int)) = ((n * 2 ^ j : Nat) : ℚ) := by
    rw [hj, zpow_add₀ (by norm_num)]
    have := (two_zpow_pos (e - (f.p : Int))).ne'
    rw [← mul_assoc, mul_div_assoc, div_self this]
    push_cast
    rw [zpow_natCast]
    ring
  rw [hs] at a1 a2
  refine ⟨(e - f.emin).toNat * 2 ^ f.p + n * 2 ^ j, ?_⟩
  rw [f.val_parts _ _ (by exact_mod_cast a1.le) (a2.imp id fun h => by exact_mod_cast h), a3]
  have e1 : e - f.emin + f.emin - f.p = e - (f.p : Int) := by ring
  rw [e1, ← hs]
  have := (two_zpow_pos (e - (f.p : Int))).ne'
  field_simp

/-- The fraction of a number is a number of the format. -/
theorem Fmt.fraction {f : Fmt} {k I : Nat} (h0 : (I : ℚ) < f.val k) (h1 : f.val k < I + 1) : ∃ j, f.val j = f.val k - I := by
  obtain ⟨E, n, rfl, hn, hE⟩ := f.parts k
  have hv := f.val_parts E n hn.le hE
  rw [hv] at h0 h1 ⊢
  set z : Int := (E : Int) + f.emin - f.p with hz
  have hzp := two_zpow_pos z
  rcases le_or_gt 0 z with h | h
  · exfalso
    obtain ⟨j, hj⟩ : ∃ j : Nat, z = j := ⟨z.toNat, by omega⟩
    rw [hj, zpow_natCast] at h0 h1
    have a : I < n * 2 ^ j := by exact_mod_cast h0
    have b : n * 2 ^ j < I + 1 := by exact_mod_cast h1
    omega
  · obtain ⟨j, hj⟩ : ∃ j : Nat, z = -(j : Int) := ⟨(-z).toNat, by omega⟩
    have hI : (I : ℚ) = (I * 2 ^ j : Nat) * 2 ^ z := by
      rw [hj, zpow_neg, zpow_natCast]
      push_cast
      field_simp
    have hlt : I * 2 ^ j < n := by
      rw [hI] at h0
      exact_mod_cast lt_of_mul_lt_mul_right h0 hzp.le
    obtain ⟨m, hm⟩ := f.exact (n := n - I * 2 ^ j) (z := z) (by omega) (by omega)
    refine ⟨m, ?_⟩
    rw [hm, hI, Nat.cast_sub hlt.le]
    ring

/-! ## Digits -/

/-- The decimal number that is printed, in units of the last place. -/
def units (prec : Int) (q : ℚ) : Nat := halfEven (q * 10 ^ places prec)

theorem units_close (prec : Int) {q : ℚ} (hq : 0 ≤ q) : |(units prec q : ℚ) - q * 10 ^ places prec| ≤ 1 / 2 :=
  halfEven_spec (mul_nonneg hq (by positivity))

theorem units_mono (prec : Int) {q r : ℚ} (hq : 0 ≤ q) (h : q ≤ r) : units prec q ≤ units prec r :=
  halfEven_mono (mul_nonneg hq (by positivity)) (mul_le_mul_of_nonneg_right h (by positivity))

theorem units_lt (prec : Int) {q r : ℚ} (hq : 0 ≤ q) (h : 1 / 10 ^ places prec < r - q) : units prec q < units prec r := by
  have hD : (0 : ℚ) < 10 ^ places prec := by positivity
  have hr : 0 ≤ r := by
    have : (0 : ℚ) < 1 / 10 ^ places prec := by positivity
    linarith
  have h1 := abs_le.mp (units_close prec hq)
  have h2 := abs_le.mp (units_close prec hr)
  rw [div_lt_iff₀ hD, sub_mul] at h
  have : (units prec q : ℚ) < units prec r := by linarith [h1.2, h2.1]
  exact_mod_cast this

theorem drop_fixed {p : Nat} {q : ℚ} (hp : p ≠ 0) (h : halfEven (q * 10 ^ p) < 10 ^ p) : (fixed p q).drop 2 = lastDigits (halfEven (q * 10 ^ p)) p := by
  unfold fixed
  simp only
  rw [Nat.div_eq_of_lt h, toDec_small (by norm_num), if_neg hp]
  rfl

/-- The digits of a number of units, flipped for negative numbers. -/
def digitsOf (s : Bool) (m p : Nat) : Bytes := if s then flip (lastDigits m p) else lastDigits m p

theorem smallDigits_eq {prec : Int} {s : Bool} {q : ℚ} (hq : q ≠ 0) (hp : places prec ≠ 0) (h : units prec q < 10 ^ places prec) :
    smallDigits prec (.fin s q) = digitsOf s (units prec q) (places prec) := by
  unfold smallDigits
  simp only
  rw [if_neg hq, drop_fixed hp h]
  rfl

/-- What is read of a number and printed again are the same digits. -/
theorem fraction_digits {f : Fmt} (hf : IsFmt f) {prec : Int} {k : Nat} (s : Bool) (hm : units prec (f.val k) % 10 ^ places prec ≠ 0) :
    let c := f.val (f.near (((units prec (f.val k) % 10 ^ places prec : Nat) : ℚ) / 10 ^ places prec))
    c ≠ 0 ∧ smallDigits prec (.fin s c) = digitsOf s (units prec (f.val k) % 10 ^ places prec) (places prec) := by
  intro c
  have hp : places prec ≠ 0 := by
    intro h
    rw [h, pow_zero, Nat.mod_one] at hm
    exact hm rfl
  have hDn : 0 < 10 ^ places prec := Nat.pow_pos (by norm_num)
  have hD : (0 : ℚ) < 10 ^ places prec := by positivity
  have hq := f.val_nonneg k
  have hcl := units_close prec hq
  set q := f.val k with hqd
  set D : ℚ := 10 ^ places prec with hDd
  set N := units prec q with hN
  set m := N % 10 ^ places prec with hmd
  set I := N / 10 ^ places prec with hI
  have hNI : (N : ℚ) = I * D + m := by
    have := Nat.div_add_mod N (10 ^ places prec)
    rw [← this]
    push_cast
    ring
  have hmlt : m < 10 ^ places prec := Nat.mod_lt _ hDn
  have hmlt' : (m : ℚ) + 1 ≤ D := by
    have : m + 1 ≤ 10 ^ places prec := hmlt
    have : ((m + 1 : Nat) : ℚ) ≤ ((10 ^ places prec : Nat) : ℚ) := by exact_mod_cast this
    push_cast at this
    exact this
  have hm1 : (1 : ℚ) ≤ m := by
    have : 1 ≤ m := Nat.pos_of_ne_zero hm
    exact_mod_cast this
  have hcl' := abs_le.mp hcl
  have hlow : (I : ℚ) < q := by
    have : (I : ℚ) * D < q * D := by linarith [hcl'.2]
    exact lt_of_mul_lt_mul_right this hD.le
  have hhigh : q < I + 1 := by
    have : q * D < (I + 1) * D := by linarith [hcl'.1]
    exact lt_of_mul_lt_mul_right this hD.le
  obtain ⟨j, hj⟩ := f.fraction (k := k) hlow hhigh
  have hd0 : (0 : ℚ) ≤ m / D := by positivity
  have hd1 : (m : ℚ) / D ≤ 1 := by rw [div_le_one hD]; linarith
  have hn := f.near_nearest hd0 (near_lt_top hf hd0 hd1) j
  rw [hj] at hn
  have hscale : ∀ x : ℚ, |x * D - m| = |x - m / D| * D := by
    intro x
    have hx : x * D - m = (x - m / D) * D := by field_simp
    rw [hx, abs_mul, abs_of_pos hD]
  have hφ : |(q - I) * D - m| = |(N : ℚ) - q * D| := by
    rw [← abs_neg]
    congr 1
    rw [hNI]
    ring
  have hle : |c * D - m| ≤ |(N : ℚ) - q * D| := by
    rw [← hφ, hscale, hscale]
    exact mul_le_mul_of_nonneg_right hn hD.le
  have hc0 : 0 ≤ c := f.val_nonneg _
  have hcpos : c ≠ 0 := by
    intro h
    rw [h, zero_mul, zero_sub, abs_neg, abs_of_nonneg (by linarith)] at hle
    have := hle.trans hcl
    linarith
  have hunits : units prec c = m := by
    apply halfEven_eq _ (mul_nonneg hc0 hD.le)
    rcases (hle.trans hcl).lt_or_eq with h | h
    · exact .inl h
    · refine .inr ⟨h, ?_⟩
      have ht : |(N : ℚ) - q * D| = 1 / 2 := le_antisymm hcl (h ▸ hle)
      have he : N % 2 = 0 := halfEven_tie (mul_nonneg hq hD.le) ht
      have h10 : 10 ^ places prec % 2 = 0 := by
        obtain ⟨p, hp'⟩ := Nat.exists_eq_succ_of_ne_zero hp
        rw [hp', Nat.pow_succ]
        omega
      rw [hmd, Nat.mod_mod_of_dvd _ (Nat.dvd_of_mod_eq_zero h10)] 
      exact he
  refine ⟨hcpos, ?_⟩
  rw [smallDigits_eq hcpos hp (by rw [hunits]; exact hmlt), hunits]

theorem digitsOf_length (s : Bool) (m p : Nat) : (digitsOf s m p).length = p := by
  unfold digitsOf
  split
  · rw [length_flip]; exact (lastDigits_spec m p).2.1
  · exact (lastDigits_spec m p).2.1

theorem flip_allDigits {d : Bytes} (h : AllDigits d) : AllDigits (flip d) := by
  intro c hc
  simp only [Elen.flip, List.mem_map] at hc
  obtain ⟨x, hx, rfl⟩ := hc
  exact isDigit_flipChar (h x hx)

theorem digitsOf_digits (s : Bool) (m p : Nat) : AllDigits (digitsOf s m p) := by
  unfold digitsOf
  split
  · exact flip_allDigits (lastDigits_spec m p).1
  · exact (lastDigits_spec m p).1

theorem digitsOf_diff {m n p : Nat} (h : m < n) (hn : n < 10 ^ p) :
    DiffR (· < ·) (digitsOf false m p) (digitsOf false n p) ∧ DiffR (· < ·) (digitsOf true n p) (digitsOf true m p) := by
  obtain ⟨a1, a2, a3⟩ := lastDigits_spec m p
  obtain ⟨b1, b2, b3⟩ := lastDigits_spec n p
  have hd := digits_diff a1 b1 (by rw [a2, b2]) (by rw [a3, b3, Nat.mod_eq_of_lt hn, Nat.mod_eq_of_lt (h.trans hn)]; exact h)
  exact ⟨hd.mono fun x y h => h.2.2, flip_diff hd⟩

theorem readFraction_digitsOf (f : Fmt) (s : Bool) {m p : Nat} (hm : m < 10 ^ p) :
    readFraction f s (if s then flip (digitsOf s m p) else digitsOf s m p) = f.round s ((m : ℚ) / 10 ^ p) := by
  obtain ⟨a1, a2, a3⟩ := lastDigits_spec m p
  have : (if s then flip (digitsOf s m p) else digitsOf s m p) = lastDigits m p := by
    unfold digitsOf
    split
    · exact flip_flip a1
    · rfl
  rw [this, readFraction_digits f s a1, a3, a2, Nat.mod_eq_of_lt hm]

/-! ## Small decimals -/

theorem Symbols.ne {neg pos : UInt8} (hs : Symbols neg pos) : neg ≠ pos := by
  rintro rfl
  have := hs.neg_lt
  have := hs.pos_gt
  omega

/-- The first and the last character of a number that is not zero. -/
def front (neg pos : UInt8) (s : Bool) : UInt8 := if s then neg else pos
def back (neg pos : UInt8) (s : Bool) : UInt8 := if s then pos else neg

theorem encSmall_eq {prec : Int} (neg pos : UInt8) {s : Bool} {q : ℚ} (hq : q ≠ 0) (hp : places prec ≠ 0) (h : units prec q < 10 ^ places prec) :
    encSmall prec neg pos (.fin s q) = front neg pos s :: (digitsOf s (units prec q) (places prec) ++ [back neg pos s]) := by
  unfold encSmall
  simp only
  rw [smallDigits_eq hq hp h]
  cases s <;> simp [below, above, hq, front, back]

theorem encSmall_zero (prec : Int) (neg pos : UInt8) (s : Bool) : encSmall prec neg pos (.fin s 0) = [48] := by
  simp [encSmall, smallDigits, below, above]

theorem decSmall_frame (f : Fmt) {neg pos : UInt8} (hne : neg ≠ pos) (s : Bool) {d : Bytes} (hd : d ≠ []) :
    decSmall f neg pos (front neg pos s :: (d ++ [back neg pos s])) = .ok (readFraction f s (if s then Elen.flip d else d)) := by
  obtain ⟨c, t, rfl⟩ := List.exists_cons_of_ne_nil hd
  obtain ⟨e, u, he⟩ : ∃ e u, t ++ [back neg pos s] = e :: u := List.exists_cons_of_ne_nil (by simp)
  have hstr : c :: t ++ [back neg pos s] = c :: e :: u := by rw [← he]; rfl
  have : decSmall f neg pos (front neg pos s :: (c :: t ++ [back neg pos s])) =
      (let rest := c :: t ++ [back neg pos s]
       let digits := rest.dropLast
       if front neg pos s = neg ∧ rest.getLastD 0 = pos then Out.ok (readFraction f true (Elen.flip digits))
       else if front neg pos s = pos ∧ rest.getLastD 0 = neg then .ok (readFraction f false digits)
       else .err) := by
    rw [hstr]; rfl
  rw [this]
  simp only [List.dropLast_concat, List.getLastD_concat]
  cases s
  · rw [if_neg (by simp [front]; exact fun h => absurd h.symm hne), if_pos (by simp [front, back])]
    rfl
  · rw [if_pos (by simp [front, back])]
    rfl

/-! ## Large decimals -/

/-- What is written for the integer. -/
def intPart (neg pos : UInt8) (s : Bool) (i : Nat) : Bytes :=
  if i = 0 then [front neg pos s, if s then 57 else 48] else unique (front neg pos s) neg i

/-- What is written for a number of units. -/
def large (neg pos : UInt8) (p : Nat) (s : Bool) (n : Nat) : Bytes :=
  intPart neg pos s (n / 10 ^ p) ++ ((if n % 10 ^ p = 0 then [] else digitsOf s (n % 10 ^ p) p) ++ [back neg pos s])

theorem readParts_eq (f : Fmt) {prec : Int} {s : Bool} {q : ℚ} (h : units prec q < 2 ^ 31 * 10 ^ places prec) :
    readParts f prec (.fin s q) = (if s then -((units prec q / 10 ^ places prec : Nat) : Int) else (units prec q / 10 ^ places prec : Nat),
      f.val (f.near (((units prec q % 10 ^ places prec : Nat) : ℚ) / 10 ^ places prec))) := by
  have hI : units prec q / 10 ^ places prec < 2 ^ 31 := Nat.div_lt_of_lt_mul (by rw [Nat.mul_comm]; exact h)
  have hmax : int32.max = 2 ^ 31 - 1 := rfl
  have hmin : int32.min = -2 ^ 31 := rfl
  unfold readParts
  simp only
  change (if int32.max < (if s then -((units prec q / 10 ^ places prec : Nat) : Int) else (units prec q / 10 ^ places prec : Nat)) then _ else
    if (if s then -((units prec q / 10 ^ places prec : Nat) : Int) else (units prec q / 10 ^ places prec : Nat)) < int32.min then _ else _) = _
  have key : ∀ i : Nat, i < 2 ^ 31 → ¬ (2 : Int) ^ 31 - 1 < (if s then -(i : Int) else i) ∧ ¬ (if s then -(i : Int) else i) < -2 ^ 31 := by
    intro i hi
    cases s <;> simp only [if_true, if_false, Bool.false_eq_true] <;> omega
  rw [hmax, hmin, if_neg (key _ hI).1, if_neg (key _ hI).2]
  rfl

theorem encLarge_eq {f : Fmt} (hf : IsFmt f) {prec : Int} (neg pos : UInt8) {s : Bool} {k : Nat} (hk : f.val k ≠ 0)
    (h : units prec (f.val k) < 2 ^ 31 * 10 ^ places prec) :
    encLarge f prec neg pos (.fin s (f.val k)) = .ok (large neg pos (places prec) s (units prec (f.val k))) := by
  have hI : units prec (f.val k) / 10 ^ places prec < 2 ^ 31 := Nat.div_lt_of_lt_mul (by rw [Nat.mul_comm]; exact h)
  have hb : below (.fin s (f.val k)) = s := by simp [below, hk]
  have hmax : int32.max = 2 ^ 31 - 1 := rfl
  unfold encLarge
  rw [if_neg (by simp [hk]), readParts_eq f h, hb]
  simp only
  have hint : (if (if s then -((units prec (f.val k) / 10 ^ places prec : Nat) : Int) else (units prec (f.val k) / 10 ^ places prec : Nat)) ≠ 0 then
      encodeInteger neg pos int32 (if s then -((units prec (f.val k) / 10 ^ places prec : Nat) : Int) else (units prec (f.val k) / 10 ^ places prec : Nat))
      else .ok (if s then [neg, 57] else [pos, 48])) = .ok (intPart neg pos s (units prec (f.val k) / 10 ^ places prec)) := by
    generalize units prec (f.val k) / 10 ^ places prec = i at hI
    unfold intPart
    by_cases h0 : i = 0
    · rw [if_pos h0, if_neg (by cases s <;> simp [h0])]
      cases s <;> rfl
    · rw [if_neg h0, if_pos (by cases s <;> simp [h0])]
      unfold encodeInteger
      rw [hmax, if_neg (by cases s <;> simp only [if_true, if_false, Bool.false_eq_true] <;> omega)]
      unfold encInt
      cases s
      · simp only [Bool.false_eq_true, if_false]
        rw [if_neg (by omega), if_pos (by omega)]
        simp [front]
      · simp only [if_true]
        rw [if_pos (by omega)]
        simp [front]
  rw [hint, Out.ok_bind]
  congr 1
  unfold large
  by_cases hm : units prec (f.val k) % 10 ^ places prec = 0
  · rw [if_pos hm, hm]
    simp [f.near_zero, f.val_zero, back]
  · obtain ⟨c0, c1⟩ := fraction_digits hf s hm
    rw [if_neg hm, if_pos c0, c1]
    simp [back]

theorem encLarge_zero (f : Fmt) (prec : Int) (neg pos : UInt8) (s : Bool) : encLarge f prec neg pos (.fin s 0) = .ok [48] := by
  unfold encLarge
  rw [if_pos (by cases s <;> simp)]

theorem toDec_big {n : Nat} (h : ¬ 2 ≤ (toDec n).length) : n < 10 := by
  by_contra h10
  apply h
  unfold toDec
  rw [if_neg h10]
  have := length_toDec_pos (n / 10)
  simp
  omega

theorem intPart_diff {neg pos : UInt8} (hs : Symbols neg pos) {i j : Nat} (h : i < j) :
    DiffR (· < ·) (intPart neg pos false i) (intPart neg pos false j) ∧ DiffR (· < ·) (intPart neg pos true j) (intPart neg pos true i) := by
  have hj : j ≠ 0 := by omega
  have hspos := hs.pos_gt
  have hsneg := hs.neg_lt
  by_cases hi : i = 0
  · subst hi
    unfold intPart
    rw [if_pos rfl, if_neg hj, if_pos rfl, if_neg hj, unique_pos _ _ hj, unique_pos _ _ hj]
    constructor
    · apply DiffR.cons
      by_cases h2 : 2 ≤ (toDec j).length
      · rw [if_pos h2]
        obtain ⟨t, ht⟩ := unique_head (pre := front neg pos false) (neg := neg) (n := (toDec j).length) (by omega)
        rw [ht]
        apply DiffR.head
        rw [UInt8.lt_iff_toNat_lt]
        show 48 < pos.toNat
        omega
      · have := toDec_big h2
        rw [if_neg h2, toDec_small this, List.nil_append]
        unfold written
        rw [if_neg (show ¬ front neg pos false = neg from Ne.symm (Symbols.ne hs))]
        apply DiffR.head
        rw [UInt8.lt_iff_toNat_lt, digitChar_toNat this]
        show 48 < _
        omega
    · apply DiffR.cons
      by_cases h2 : 2 ≤ (toDec j).length
      · rw [if_pos h2]
        obtain ⟨t, ht⟩ := unique_head (pre := front neg pos true) (neg := neg) (n := (toDec j).length) (by omega)
        rw [ht]
        apply DiffR.head
        rw [UInt8.lt_iff_toNat_lt]
        show neg.toNat < 57
        omega
      · have := toDec_big h2
        rw [if_neg h2, toDec_small this, List.nil_append]
        unfold written
        rw [if_pos (by simp [front])]
        apply DiffR.head
        rw [UInt8.lt_iff_toNat_lt, flipChar_toNat (isDigit_digitChar this), digitChar_toNat this]
        show _ < 57
        omega
  · unfold intPart
    rw [if_neg hi, if_neg hj, if_neg hi, if_neg hj]
    have h1 := encInt_diff hs (v := i) (w := j) (by omega)
    have h2 := encInt_diff hs (v := -j) (w := -i) (by omega)
    unfold encInt at h1 h2
    rw [if_neg (by omega), if_pos (by omega), if_neg (by omega), if_pos (by omega)] at h1
    rw [if_pos (by omega), if_pos (by omega)] at h2
    simp only [Int.natAbs_natCast, Int.natAbs_neg] at h1 h2
    exact ⟨h1, h2⟩

theorem large_diff {neg pos : UInt8} (hs : Symbols neg pos) (p : Nat) {m n : Nat} (h : m < n) :
    DiffR (· < ·) (large neg pos p false m) (large neg pos p false n) ∧ DiffR (· < ·) (large neg pos p true n) (large neg pos p true m) := by
  have hD : 0 < 10 ^ p := Nat.pow_pos (by norm_num)
  have hspos := hs.pos_gt
  have hsneg := hs.neg_lt
  unfold large
  rcases (Nat.div_le_div_right (c := 10 ^ p) h.le).lt_or_eq with hlt | heq
  · obtain ⟨a, b⟩ := intPart_diff hs hlt
    exact ⟨a.append _ _, b.append _ _⟩
  · have hm : m % 10 ^ p < n % 10 ^ p := by
      have h1 := Nat.div_add_mod m (10 ^ p)
      have h2 := Nat.div_add_mod n (10 ^ p)
      rw [heq] at h1
      omega
    have hn0 : ¬ n % 10 ^ p = 0 := by omega
    simp only [heq, if_neg hn0]
    by_cases h0 : m % 10 ^ p = 0
    · simp only [if_pos h0]
      have key : ∀ s, ∃ c t, digitsOf s (n % 10 ^ p) p = c :: t ∧ isDigit c = true := by
        intro s
        have hl := digitsOf_length s (n % 10 ^ p) p
        have hdg := digitsOf_digits s (n % 10 ^ p) p
        cases hd : digitsOf s (n % 10 ^ p) p with
        | nil =>
          rw [hd] at hl
          have : p = 0 := hl.symm
          subst this
          rw [pow_zero, Nat.mod_one] at hm
          omega
        | cons c t => exact ⟨c, t, rfl, hdg c (by rw [hd]; simp)⟩
      obtain ⟨c, t, hc, hcd⟩ := key false
      obtain ⟨c', t', hc', hcd'⟩ := key true
      rw [hc, hc']
      have e1 := isDigit_iff.mp hcd
      have e2 := isDigit_iff.mp hcd'
      constructor
      · apply DiffR.prefix
        apply DiffR.head
        rw [UInt8.lt_iff_toNat_lt]
        simp only [back, Bool.false_eq_true, if_false]
        omega
      · apply DiffR.prefix
        apply DiffR.head
        rw [UInt8.lt_iff_toNat_lt]
        simp only [back, if_true]
        omega
    · simp only [if_neg h0]
      obtain ⟨a, b⟩ := digitsOf_diff hm (Nat.mod_lt _ hD)
      exact ⟨(a.append _ _).prefix _, (b.append _ _).prefix _⟩

theorem decodeInt_intPart {neg pos : UInt8} (hs : Symbols neg pos) (s : Bool) {i : Nat} (hi : i < 2 ^ 31) {b : Bytes} :
    decodeInt neg pos int32 (intPart neg pos s i ++ b) = .ok (if s then -(i : Int) else i, (intPart neg pos s i).length) := by
  have hmax : int32.max = 2 ^ 31 - 1 := rfl
  have hne := Symbols.ne hs
  unfold intPart
  by_cases h0 : i = 0
  · subst h0
    rw [if_pos rfl]
    have hspos := hs.pos_gt
    have hsneg := hs.neg_lt
    have hn48 : neg ≠ 48 := by rintro rfl; simp at hsneg
    have hp48 : pos ≠ 48 := by rintro rfl; simp at hspos
    have hn57 : (57 : UInt8) ≠ neg := by rintro rfl; simp at hsneg
    have hp57 : (48 : UInt8) ≠ pos := by rintro rfl; simp at hspos
    have e1 : (48 == pos) = false := by simp [hp57]
    have e2 : (57 == neg) = false := by simp [hn57]
    cases s
    · have hc : getPrefixCount pos (pos :: 48 :: b) pos neg = .ok 1 := by
        simp [getPrefixCount, hp48, e1, isDigit]
      show (getPrefixCount pos (pos :: 48 :: b) pos neg >>= _) = _
      rw [hc]
      simp [lengths, next, parseNum, isDigit, Ne.symm hne, front]
    · have hc : getPrefixCount neg (neg :: 57 :: b) pos neg = .ok 1 := by
        simp [getPrefixCount, hn48, e2, isDigit]
      show (getPrefixCount neg (neg :: 57 :: b) pos neg >>= _) = _
      rw [hc]
      simp [lengths, next, parseNum, isDigit, Elen.flip, flipChar, front]
  · rw [if_neg h0, decodeInt_unique hs (by cases s <;> simp [front]) int32 h0 (by omega) (by rw [hmax]; omega) b]
    cases s <;> simp [front, Ne.symm hne]

theorem intPart_length (neg pos : UInt8) (s : Bool) (i : Nat) : ∃ c t, intPart neg pos s i = front neg pos s :: c :: t := by
  unfold intPart
  split
  · exact ⟨_, _, rfl⟩
  · rw [unique_pos _ _ ‹_›]
    have := written_ne_nil (front neg pos s) neg i
    obtain ⟨c, t, h⟩ := List.exists_cons_of_ne_nil (List.append_ne_nil_of_right_ne_nil (if 2 ≤ (toDec i).length then unique (front neg pos s) neg (toDec i).length else []) this)
    exact ⟨c, t, by rw [h]⟩

theorem decLarge_eq {f : Fmt} {neg pos : UInt8} (hs : Symbols neg pos) (p : Nat) (s : Bool) {n : Nat} (h : n < 2 ^ 31 * 10 ^ p) :
    decLarge f neg pos (large neg pos p s n) = .ok (if n % 10 ^ p = 0 then f.round s ((n / 10 ^ p : Nat) : ℚ) else
      plus f (f.round s ((n / 10 ^ p : Nat) : ℚ)) (f.round s (((n % 10 ^ p : Nat) : ℚ) / 10 ^ p))) := by
  have hD : 0 < 10 ^ p := Nat.pow_pos (by norm_num)
  have hI : n / 10 ^ p < 2 ^ 31 := Nat.div_lt_of_lt_mul (by rw [Nat.mul_comm]; exact h)
  have hne := Symbols.ne hs
  unfold large
  set d := (if n % 10 ^ p = 0 then [] else digitsOf s (n % 10 ^ p) p) with hd
  obtain ⟨c, t, hct⟩ := intPart_length neg pos s (n / 10 ^ p)
  obtain ⟨e, u, heu⟩ : ∃ e u, t ++ (d ++ [back neg pos s]) = e :: u := List.exists_cons_of_ne_nil (by simp)
  have hstr : intPart neg pos s (n / 10 ^ p) ++ (d ++ [back neg pos s]) = front neg pos s :: c :: e :: u := by
    rw [hct, ← heu]; rfl
  have hdec := decodeInt_intPart hs s hI (b := d ++ [back neg pos s])
  set str := intPart neg pos s (n / 10 ^ p) ++ (d ++ [back neg pos s]) with hstr'
  have : decLarge f neg pos str = (decodeInt neg pos int32 str >>= fun r =>
    let out := f.round (decide (front neg pos s = neg)) (r.1.natAbs : ℚ)
    if r.2 = str.length - 1 then .ok out
    else if str.length < r.2 then .err
    else decSmall f neg pos (front neg pos s :: str.drop r.2) >>= fun d => .ok (plus f out d)) := by
    rw [hstr]; rfl
  rw [this, hdec, Out.ok_bind]
  simp only
  have hfr : decide (front neg pos s = neg) = s := by cases s <;> simp [front, Ne.symm hne]
  have habs : (if s then -((n / 10 ^ p : Nat) : Int) else (n / 10 ^ p : Nat)).natAbs = n / 10 ^ p := by
    generalize n / 10 ^ p = i
    cases s <;> simp only [if_true, if_false, Bool.false_eq_true] <;> omega
  rw [hfr, habs]
  have hlen : str.length = (intPart neg pos s (n / 10 ^ p)).length + (d.length + 1) := by rw [hstr']; simp
  by_cases hm : n % 10 ^ p = 0
  · rw [if_pos hm] at hd
    rw [if_pos hm, if_pos (by rw [hlen, hd]; simp)]
  · rw [if_neg hm] at hd
    have hdl : d.length = p := by rw [hd, digitsOf_length]
    have hp : p ≠ 0 := by
      rintro rfl
      rw [pow_zero, Nat.mod_one] at hm
      exact hm rfl
    rw [if_neg hm, if_neg (by rw [hlen, hdl]; omega), if_neg (by rw [hlen]; omega), hstr', List.drop_left,
      decSmall_frame f hne s (by intro hn; rw [hn] at hdl; exact hp hdl.symm), Out.ok_bind, hd,
      readFraction_digitsOf f s (Nat.mod_lt _ hD)]

/-- Rounding of numbers that are not large. -/
theorem round_abs {f : Fmt} (hf : IsFmt f) (s : Bool) {q : ℚ} (h0 : 0 ≤ q) (h1 : q ≤ 2 ^ 64) :
    ∃ a, 0 ≤ a ∧ f.round s q = .fin s a ∧ |a - q| ≤ (q + 1 / 8) * (1 / 2 ^ (f.p + 1)) := by
  rw [← div_eq_mul_one_div]
  have hbig : ∃ k, k < f.top ∧ f.val k = 2 ^ 64 := by
    rcases hf with rfl | rfl
    · exact ⟨191 * 2 ^ 23, by decide +kernel⟩
    · exact ⟨1087 * 2 ^ 52, by decide +kernel⟩
  obtain ⟨k, hk, hk1⟩ := hbig
  have hlt : f.near q < f.top := (f.near_le h0 hk.le (by rw [hk1]; exact h1)).trans_lt hk
  refine ⟨_, f.val_nonneg _, by unfold Fmt.round; rw [if_neg hlt.ne], ?_⟩
  refine (f.near_error h0 hlt).trans (max_le ?_ ?_)
  · apply div_le_div_of_nonneg_right _ (by positivity)
    linarith
  · have : (2 : ℚ) ^ (f.emin - f.p - 1) ≤ (1 / 8) / 2 ^ (f.p + 1) := by
      rcases hf with rfl | rfl <;> decide +kernel
    refine this.trans ?_
    apply div_le_div_of_nonneg_right _ (by positivity)
    linarith

theorem plus_same (f : Fmt) (s : Bool) {a b : ℚ} (ha : 0 ≤ a) (hb : 0 ≤ b) (hf : IsFmt f) : plus f (.fin s a) (.fin s b) = f.round s (a + b) := by
  have hr0 : f.round s 0 = .fin s 0 := by
    have : 0 < f.top := by rcases hf with rfl | rfl <;> decide
    unfold Fmt.round
    rw [f.near_zero, if_neg this.ne, f.val_zero]
  unfold plus
  simp only
  by_cases h : a + b = 0
  · have h' : (if s then -a else a) + (if s then -b else b) = 0 := by
      cases s <;> simp only [if_true, if_false, Bool.false_eq_true] <;> linarith
    rw [if_pos h', h, hr0]
    simp
  · have hpos : 0 < a + b := lt_of_le_of_ne (by linarith) (Ne.symm h)
    have h' : (if s then -a else a) + (if s then -b else b) = if s then -(a + b) else a + b := by
      cases s <;> simp only [if_true, if_false, Bool.false_eq_true] <;> ring
    rw [h', if_neg (by cases s <;> simp only [if_true, if_false, Bool.false_eq_true] <;> linarith)]
    cases s
    · simp only [if_false, Bool.false_eq_true]
      rw [abs_of_pos hpos, decide_eq_false (by linarith)]
    · simp only [if_true]
      rw [abs_neg, abs_of_pos hpos, decide_eq_true (by linarith)]

/-- The number read for a number of units. -/
theorem decLarge_close {f : Fmt} (hf : IsFmt f) {neg pos : UInt8} (hs : Symbols neg pos) (p : Nat) (s : Bool) {n : Nat} (h : n < 2 ^ 31 * 10 ^ p) :
    ∃ a, decLarge f neg pos (large neg pos p s n) = .ok (.fin s a) ∧ |a - n / 10 ^ p| ≤ (3 * (n / 10 ^ p : ℚ) + 1) / 2 ^ (f.p + 1) := by
  have hDn : 0 < 10 ^ p := Nat.pow_pos (by norm_num)
  have hD : (0 : ℚ) < 10 ^ p := by positivity
  have hI : n / 10 ^ p < 2 ^ 31 := Nat.div_lt_of_lt_mul (by rw [Nat.mul_comm]; exact h)
  have hI' : ((n / 10 ^ p : Nat) : ℚ) < 2 ^ 31 := by exact_mod_cast hI
  have hml : n % 10 ^ p < 10 ^ p := Nat.mod_lt _ hDn
  have hd1 : ((n % 10 ^ p : Nat) : ℚ) / 10 ^ p ≤ 1 := by
    rw [div_le_one hD]
    exact_mod_cast hml.le
  have hd0 : (0 : ℚ) ≤ ((n % 10 ^ p : Nat) : ℚ) / 10 ^ p := by positivity
  have hi0 : (0 : ℚ) ≤ ((n / 10 ^ p : Nat) : ℚ) := by positivity
  have hsum : (n : ℚ) / 10 ^ p = ((n / 10 ^ p : Nat) : ℚ) + ((n % 10 ^ p : Nat) : ℚ) / 10 ^ p := by
    have h1 : (n : ℚ) = 10 ^ p * ((n / 10 ^ p : Nat) : ℚ) + ((n % 10 ^ p : Nat) : ℚ) := by
      exact_mod_cast (Nat.div_add_mod n (10 ^ p)).symm
    rw [div_eq_iff hD.ne', h1]
    field_simp
  rw [decLarge_eq hs p s h]
  obtain ⟨a, ha0, ha, hae⟩ := round_abs hf s hi0 (hI'.le.trans (by norm_num))
  rw [ha]
  have hu : (0 : ℚ) < 1 / 2 ^ (f.p + 1) := by positivity
  have hu1 : (1 : ℚ) / 2 ^ (f.p + 1) ≤ 1 / 2 ^ 10 := by
    rcases hf with rfl | rfl <;> decide +kernel
  rw [div_eq_mul_one_div (3 * ((n : ℚ) / 10 ^ p) + 1)]
  set u : ℚ := 1 / 2 ^ (f.p + 1) with hud
  by_cases hm : n % 10 ^ p = 0
  · rw [if_pos hm]
    refine ⟨a, rfl, ?_⟩
    rw [hsum, hm]
    simp only [Nat.cast_zero, zero_div, add_zero]
    refine hae.trans (mul_le_mul_of_nonneg_right (by linarith) hu.le)
  · rw [if_neg hm]
    obtain ⟨b, hb0, hb, hbe⟩ := round_abs hf s hd0 (hd1.trans (by norm_num))
    rw [← hud] at hbe
    rw [hb, plus_same f s ha0 hb0 hf]
    rw [hsum]
    set i : ℚ := ((n / 10 ^ p : Nat) : ℚ)
    set d : ℚ := ((n % 10 ^ p : Nat) : ℚ) / 10 ^ p
    have haa := abs_le.mp hae
    have hbb := abs_le.mp hbe
    have hiu : i * u ≤ i * (1 / 2 ^ 10) := mul_le_mul_of_nonneg_left hu1 hi0
    have hdu : d * u ≤ d * (1 / 2 ^ 10) := mul_le_mul_of_nonneg_left hu1 hd0
    have hs1 : a + b ≤ i + d + (i + d + 1 / 4) * u := by nlinarith [haa.2, hbb.2]
    have hs2 : a + b ≤ 2 ^ 64 := by nlinarith
    obtain ⟨c, hc0, hc, hce⟩ := round_abs hf s (add_nonneg ha0 hb0) hs2
    rw [← hud] at hce
    refine ⟨c, by rw [hc], ?_⟩
    have hs3 : a + b ≤ (i + d) * (1 + 1 / 2 ^ 10) + 1 / 2 ^ 10 := by nlinarith
    have hce2 : |c - (a + b)| ≤ ((i + d) * (1 + 1 / 2 ^ 10) + 1 / 2 ^ 10 + 1 / 8) * u :=
      hce.trans (mul_le_mul_of_nonneg_right (by linarith) hu.le)
    have hcc := abs_le.mp hce2
    have hid : 0 ≤ (i + d) * u := mul_nonneg (add_nonneg hi0 hd0) hu.le
    rw [abs_le]
    constructor <;> nlinarith [haa.1, haa.2, hbb.1, hbb.2, hcc.1, hcc.2]

/-! ## Order -/

/-- The number of a sign and a magnitude. -/
def signed (s : Bool) (q : ℚ) : ℚ := if s then -q else q

theorem order_frame {neg pos : UInt8} (hs : Symbols neg pos) (prec : Int) {L : Bool → Nat → Bytes} (B : Nat)
    (hhead : ∀ s n, ∃ t, L s n = front neg pos s :: t)
    (hdiff : ∀ m n, m < n → n < B → DiffR (· < ·) (L false m) (L false n) ∧ DiffR (· < ·) (L true n) (L true m))
    {s t : Bool} {q r : ℚ} (hq : 0 ≤ q) (hr : 0 ≤ r) (hqB : units prec q < B) (hrB : units prec r < B) {a b : Bytes}
    (ha : a = if q = 0 then [48] else L s (units prec q)) (hb : b = if r = 0 then [48] else L t (units prec r)) :
    (signed s q ≤ signed t r → a = b ∨ a < b) ∧ (signed s q < signed t r → signed s q ≤ 0 → 0 ≤ signed t r → a < b) ∧
      (1 / 10 ^ places prec < signed t r - signed s q → a < b) := by
  have hspos := hs.pos_gt
  have hsneg := hs.neg_lt
  have hD : (0 : ℚ) < 1 / 10 ^ places prec := by positivity
  have all : ∀ {P Q R : Prop}, a < b → (P → a = b ∨ a < b) ∧ (Q → R → 0 ≤ signed t r → a < b) ∧ (1 / 10 ^ places prec < signed t r - signed s q → a < b) :=
    fun h => ⟨fun _ => .inr h, fun _ _ _ => h, fun _ => h⟩
  have none : signed t r < signed s q → (signed s q ≤ signed t r → a = b ∨ a < b) ∧ (signed s q < signed t r → signed s q ≤ 0 → 0 ≤ signed t r → a < b) ∧
      (1 / 10 ^ places prec < signed t r - signed s q → a < b) :=
    fun h => ⟨fun h' => absurd h (not_lt.mpr h'), fun h' => absurd h (not_lt.mpr h'.le), fun h' => by linarith⟩
  by_cases hq0 : q = 0
  · rw [if_pos hq0] at ha
    subst hq0
    have hz : signed s 0 = 0 := by cases s <;> simp [signed]
    by_cases hr0 : r = 0
    · rw [if_pos hr0] at hb
      subst hr0
      have hz' : signed t 0 = 0 := by cases t <;> simp [signed]
      rw [hz, hz']
      exact ⟨fun _ => .inl (by rw [ha, hb]), fun h => absurd h (lt_irrefl _), fun h => by linarith⟩
    · rw [if_neg hr0] at hb
      have hr1 : 0 < r := lt_of_le_of_ne hr (Ne.symm hr0)
      cases t
      · obtain ⟨u, hu⟩ := hhead false (units prec r)
        apply all
        rw [ha, hb, hu]
        refine (DiffR.head ?_ _ _).lt
        rw [UInt8.lt_iff_toNat_lt]
        show 48 < pos.toNat
        omega
      · apply none
        rw [hz]
        simp only [signed, if_true]
        linarith
  · have hq1 : 0 < q := lt_of_le_of_ne hq (Ne.symm hq0)
    rw [if_neg hq0] at ha
    by_cases hr0 : r = 0
    · rw [if_pos hr0] at hb
      subst hr0
      have hz' : signed t 0 = 0 := by cases t <;> simp [signed]
      cases s
      · apply none
        rw [hz']
        exact hq1
      · obtain ⟨u, hu⟩ := hhead true (units prec q)
        apply all
        rw [ha, hb, hu]
        refine (DiffR.head ?_ _ _).lt
        rw [UInt8.lt_iff_toNat_lt]
        exact hsneg
    · have hr1 : 0 < r := lt_of_le_of_ne hr (Ne.symm hr0)
      rw [if_neg hr0] at hb
      cases s <;> cases t
      · simp only [signed, Bool.false_eq_true, if_false]
        refine ⟨fun h => ?_, fun h h' => absurd hq1 (not_lt.mpr h'), fun h => ?_⟩
        · rcases (units_mono prec hq h).eq_or_lt with e | e
          · exact .inl (by rw [ha, hb, e])
          · exact .inr (by rw [ha, hb]; exact (hdiff _ _ e hrB).1.lt)
        · rw [ha, hb]
          exact (hdiff _ _ (units_lt prec hq h) hrB).1.lt
      · apply none
        simp only [signed, Bool.false_eq_true, if_false, if_true]
        linarith
      · obtain ⟨u, hu⟩ := hhead true (units prec q)
        obtain ⟨u', hu'⟩ := hhead false (units prec r)
        apply all
        rw [ha, hb, hu, hu']
        refine (DiffR.head ?_ _ _).lt
        rw [UInt8.lt_iff_toNat_lt]
        show neg.toNat < pos.toNat
        omega
      · simp only [signed, if_true]
        refine ⟨fun h => ?_, fun h h' h'' => by linarith, fun h => ?_⟩
        · rcases (units_mono prec hr (by linarith : r ≤ q)).eq_or_lt with e | e
          · exact .inl (by rw [ha, hb, e])
          · exact .inr (by rw [ha, hb]; exact (hdiff _ _ e hqB).2.lt)
        · rw [ha, hb]
          exact (hdiff _ _ (units_lt prec hr (by linarith)) hqB).2.lt

theorem units_bound {p n : Nat} {q : ℚ} (hq : 0 ≤ q) (h : q < n - 1 / (2 * 10 ^ p)) : units p q < n * 10 ^ p := by
  have hD : (0 : ℚ) < 10 ^ p := by positivity
  have h1 := (abs_le.mp (units_close p hq)).2
  have hp : places (p : Int) = p := by simp [places]
  rw [hp] at h1
  have : q * 10 ^ p < n * 10 ^ p - 1 / 2 := by
    have := mul_lt_mul_of_pos_right h hD
    have e : ((n : ℚ) - 1 / (2 * 10 ^ p)) * 10 ^ p = n * 10 ^ p - 1 / 2 := by field_simp
    rwa [e] at this
  have : (units p q : ℚ) < n * 10 ^ p := by linarith
  exact_mod_cast this

theorem places_nat (p : Nat) : places (p : Int) = p := by simp [places]

/-- From a number of units on. -/
theorem units_ge {p n : Nat} (hn : Even n ∨ p ≠ 0) {q : ℚ} (h : (n : ℚ) - 1 / (2 * 10 ^ p) ≤ q) (hq : 0 ≤ q) : n * 10 ^ p ≤ units p q := by
  have hD : (0 : ℚ) < 10 ^ p := by positivity
  by_contra hlt
  push Not at hlt
  have hle : (units p q : ℚ) + 1 ≤ n * 10 ^ p := by exact_mod_cast hlt
  have hcl := units_close p hq
  have h1 := (abs_le.mp hcl).1
  rw [places_nat] at h1
  have h2 : n * 10 ^ p - 1 / 2 ≤ q * 10 ^ p := by
    have := mul_le_mul_of_nonneg_right h hD.le
    have e : ((n : ℚ) - 1 / (2 * 10 ^ p)) * 10 ^ p = n * 10 ^ p - 1 / 2 := by field_simp
    rwa [e] at this
  have e1 : q * 10 ^ p = units p q + 1 / 2 := by linarith
  have e2 : (units p q : ℚ) + 1 = n * 10 ^ p := by linarith
  have e3 : units p q + 1 = n * 10 ^ p := by exact_mod_cast e2
  have hev : units p q % 2 = 0 := by
    apply halfEven_tie (mul_nonneg hq (by positivity))
    rw [places_nat]
    change |(units p q : ℚ) - q * 10 ^ p| = 1 / 2
    rw [e1]
    norm_num
  have hev2 : n * 10 ^ p % 2 = 0 := by
    rcases hn with hn | hn
    · exact Nat.even_iff.mp (hn.mul_right _)
    · obtain ⟨p', rfl⟩ := Nat.exists_eq_succ_of_ne_zero hn
      rw [Nat.pow_succ, ← Nat.mul_assoc]
      omega
  omega

end Hx.Fp

namespace Hx.Elen
open Hx

/-! ## Integers of one byte -/

theorem decodeByte_unique {neg pos : UInt8} (hs : Symbols neg pos) {pre : UInt8}
    (hpre : pre = neg ∨ pre = pos) (t : IntType) {n : Nat} (h0 : n ≠ 0) (hn : n < 10 ^ 20) :
    ∃ c cs, toDec n = c :: cs ∧ decodeByte neg pos t (unique pre neg n)
      = .ok (wrap t (if pre = neg then -(c.toNat : Int) else c.toNat), (unique pre neg n).length) := by
  obtain ⟨d, ds, hdd⟩ : ∃ c cs, toDec n = c :: cs := List.exists_cons_of_ne_nil (by
    intro h
    have := length_toDec_pos n
    rw [h] at this
    exact absurd this (by simp))
  refine ⟨d, ds, hdd, ?_⟩
  have hsneg := hs.neg_lt
  have hspos := hs.pos_gt
  have hpd : isDigit pre = false := by
    rcases hpre with rfl | rfl <;> simp [isDigit] <;> omega
  have hp48 : pre ≠ 48 := by rintro rfl; simp [isDigit] at hpd
  rw [unique_eq_body pre neg h0]
  have hd := depth_pos n
  obtain ⟨k, hk⟩ : ∃ k, depth n = k + 1 := ⟨_, (Nat.succ_pred_eq_of_pos hd).symm⟩
  obtain ⟨c, cs, hc⟩ : ∃ c cs, body pre neg n = c :: cs := by
    cases hb : body pre neg n with
    | nil => exact absurd hb (body_ne_nil _ _ _)
    | cons c cs => exact ⟨c, cs, rfl⟩
  have hcd : isDigit c = true := body_digits pre neg n c (by simp [hc])
  have hcp : c ≠ pre := by rintro rfl; rw [hpd] at hcd; cases hcd
  have hstr : List.replicate (depth n) pre ++ body pre neg n =
      pre :: (List.replicate k pre ++ body pre neg n) := by
    rw [hk]; simp [List.replicate_succ]
  have htw : ((List.replicate (depth n) pre ++ body pre neg n).takeWhile (· == pre)).length
      = depth n := by
    rw [takeWhile_replicate _ _ _ (by rw [hc]; simp [hcp])]
    simp
  have hget : (List.replicate (depth n) pre ++ body pre neg n)[depth n]? = some c := by
    rw [List.getElem?_append_right (by simp), hc]; simp
  have hcount : getPrefixCount pre (List.replicate (depth n) pre ++ body pre neg n) pos neg
      = .ok (depth n) := by
    unfold getPrefixCount
    rw [if_neg (by rw [hstr]; simp [hp48]), if_neg (by rcases hpre with rfl | rfl <;> simp)]
    simp only [htw, hget, hcd, if_true]
  obtain ⟨x, xs, hx⟩ : ∃ x xs, List.replicate k pre ++ body pre neg n = x :: xs := by
    cases hb : List.replicate k pre ++ body pre neg n with
    | nil => rw [hc] at hb; simp at hb
    | cons x xs => exact ⟨x, xs, rfl⟩
  generalize hS : List.replicate (depth n) pre ++ body pre neg n = S at *
  have hlen := lengths_body pre neg hn (List.replicate (depth n) pre) []
  rw [List.append_nil, hS, List.length_replicate] at hlen
  have hS2 : (List.replicate (depth n) pre ++ bodyHead pre neg n) ++ written pre neg (toDec n) = S := by
    rw [← hS, body_eq]; simp
  have hnext : nextChar pre neg S (depth n + (bodyHead pre neg n).length) (toDec n).length =
      .ok (d, depth n + (bodyHead pre neg n).length + (toDec n).length) := by
    have hl : (List.replicate (depth n) pre ++ bodyHead pre neg n).length = depth n + (bodyHead pre neg n).length := by simp
    have hw : (written pre neg (toDec n)).length = (toDec n).length := by unfold written; split <;> simp [Elen.flip]
    unfold nextChar
    rw [← hS2, if_neg (by rw [List.length_append, hl]; omega), ← hl, List.drop_left, ← hw, List.take_length]
    simp only
    have hfl : (if pre = neg then Elen.flip (written pre neg (toDec n)) else written pre neg (toDec n)) = toDec n := written_written pre neg n
    rw [hfl, hdd]
    have hdig : isDigit d = true := toDec_digits n d (by rw [hdd]; simp)
    have hd' := isDigit_iff.mp hdig
    have hsp : isSpace d = false := by
      unfold isSpace
      have : d ≠ 32 := by rintro rfl; simp at hd'
      simp [this]
      omega
    rw [List.dropWhile_cons_of_neg (by simp [hsp])]
  have : decodeByte neg pos t S = (do
      let count ← getPrefixCount pre S pos neg
      if count = 0 then .err
      else
        let (len, position) ← lengths pre neg S (count - 1) 1 count
        let (c, _) ← nextChar pre neg S position len
        .ok (wrap t (if pre = neg then -(c.toNat : Int) else c.toNat), position + len)) := by
    rw [hstr, hx]; rfl
  rw [this, hcount]
  simp only [Out.ok_bind]
  rw [if_neg (by omega), hlen]
  simp only [Out.ok_bind]
  rw [hnext]
  simp only [Out.ok_bind, Out.ok.injEq, Prod.mk.injEq, true_and]
  rw [← hS2]
  unfold written
  split <;> simp [Elen.flip, Nat.add_assoc]

/-- The first digit of a number below a thousand. -/
theorem toDec_first {n : Nat} (hn : n < 1000) {c : UInt8} {cs : Bytes} (h : toDec n = c :: cs) :
    c.toNat = 48 + (if n < 10 then n else if n < 100 then n / 10 else n / 100) := by
  by_cases h1 : n < 10
  · rw [toDec_small h1] at h
    cases h
    rw [if_pos h1, digitChar_toNat h1]
  · rw [if_neg h1]
    unfold toDec at h
    rw [if_neg h1] at h
    by_cases h2 : n < 100
    · rw [toDec_small (show n / 10 < 10 by omega)] at h
      cases h
      rw [if_pos h2, digitChar_toNat (by omega)]
    · unfold toDec at h
      rw [if_neg (by omega), toDec_small (show n / 10 / 10 < 10 by omega)] at h
      cases h
      rw [if_neg h2, digitChar_toNat (by omega)]
      omega

/-! ## Comparison -/

theorem schar_small {c : UInt8} (h : c.toNat < 128) : schar c = c.toNat := by simp [schar, h]

theorem lexComp_lt {a b : Bytes} (ha : ∀ c ∈ a, 0 < c.toNat ∧ c.toNat < 128) (hb : ∀ c ∈ b, 0 < c.toNat ∧ c.toNat < 128) :
    lexComp a b = decide (a < b) ∧ lexComp' a b = decide (a < b) := by
  induction a generalizing b with
  | nil =>
    cases b with
    | nil => simp [lexComp, lexComp']
    | cons r rs =>
      have h := hb r (by simp)
      simp [lexComp, lexComp', schar_small h.2, h.1]
  | cons l ls ih =>
    have hl := ha l (by simp)
    cases b with
    | nil => simp [lexComp, lexComp', schar_small hl.2]
    | cons r rs =>
      have hr := hb r (by simp)
      obtain ⟨i1, i2⟩ := ih (b := rs) (fun c hc => ha c (by simp [hc])) (fun c hc => hb c (by simp [hc]))
      have key : decide (l :: ls < r :: rs) = if l.toNat < r.toNat then true else if r.toNat < l.toNat then false else decide (ls < rs) := by
        by_cases h1 : l.toNat < r.toNat
        · rw [if_pos h1]
          exact decide_eq_true (List.Lex.rel (by rw [UInt8.lt_iff_toNat_lt]; exact h1))
        · rw [if_neg h1]
          by_cases h2 : r.toNat < l.toNat
          · rw [if_pos h2]
            exact decide_eq_false (bytes_lt_asymm (List.Lex.rel (by rw [UInt8.lt_iff_toNat_lt]; exact h2)))
          · rw [if_neg h2]
            have : l = r := UInt8.toNat_inj.mp (by omega)
            subst this
            simp [List.cons_lt_cons_iff]
      rw [key]
      simp only [lexComp, lexComp', schar_small hl.2, schar_small hr.2, i1, i2, Nat.cast_lt, and_self]

theorem encInt_chars {neg pos : UInt8} (hs : Symbols neg pos) (h0 : 0 < neg.toNat) (h1 : pos.toNat < 128) (v : Int) :
    ∀ c ∈ encInt neg pos v, 0 < c.toNat ∧ c.toNat < 128 := by
  have hsneg := hs.neg_lt
  have hspos := hs.pos_gt
  have key : ∀ pre, (pre = neg ∨ pre = pos) → ∀ n, n ≠ 0 → ∀ c ∈ unique pre neg n, 0 < c.toNat ∧ c.toNat < 128 := by
    intro pre hpre n hn c hc
    rw [unique_eq_body pre neg hn, List.mem_append] at hc
    rcases hc with hc | hc
    · rw [List.eq_of_mem_replicate hc]
      rcases hpre with rfl | rfl <;> omega
    · have := isDigit_iff.mp (body_digits pre neg n c hc)
      omega
  intro c hc
  unfold encInt at hc
  split at hc
  · exact key neg (.inl rfl) _ (by omega) c hc
  · split at hc
    · exact key pos (.inr rfl) _ (by omega) c hc
    · simp only [List.mem_singleton] at hc
      subst hc
      decide

end Hx.Elen

import Verif.Proofs.Fp
import Verif.Proofs.FloatOrder
import Verif.Spec.Libm

/-!
# Stored floating point numbers: lemmas
-/

namespace Hx.Fp
open Hx Spec Elen

theorem roundAway_close (q : ℚ) : |(roundAway q : ℚ) - q| ≤ 1 / 2 := by
  unfold roundAway
  rw [abs_le]
  split
  · have h1 := Int.floor_le (q + 1 / 2)
    have h2 := Int.lt_floor_add_one (q + 1 / 2)
    constructor <;> linarith
  · have h1 := Int.floor_le (-q + 1 / 2)
    have h2 := Int.lt_floor_add_one (-q + 1 / 2)
    push_cast
    constructor <;> linarith

theorem roundAway_mono {q r : ℚ} (h : q ≤ r) : roundAway q ≤ roundAway r := by
  unfold roundAway
  split <;> split
  · exact Int.floor_le_floor (by linarith)
  · linarith
  · have h1 : (0 : Int) ≤ ⌊r + 1 / 2⌋ := Int.floor_nonneg.mpr (by linarith)
    have h2 : (0 : Int) ≤ ⌊-q + 1 / 2⌋ := Int.floor_nonneg.mpr (by linarith)
    omega
  · have : ⌊-r + 1 / 2⌋ ≤ ⌊-q + 1 / 2⌋ := Int.floor_le_floor (by linarith)
    omega

/-- The two formats. -/
def IsFmt (f : Fmt) : Prop := f = flt ∨ f = dbl

theorem val_top_le {f : Fmt} (hf : IsFmt f) : f.val f.top ≤ 2 ^ 1024 := by
  rcases hf with rfl | rfl <;> decide +kernel

theorem le_val_one {f : Fmt} (hf : IsFmt f) : 1 / 2 ^ 1074 ≤ f.val 1 := by
  rcases hf with rfl | rfl <;> decide +kernel

/-- A power of ten is close to the number. -/
theorem power_bounds {x : ℚ} (hx : 0 < x) {y : ℚ} (hy : |(y : ℝ) - Real.logb 10 x| ≤ 1 / 50) :
    3 / 100 * (10 : ℚ) ^ (1 + roundAway y) ≤ x ∧ x ≤ 34 / 100 * (10 : ℚ) ^ (1 + roundAway y) := by
  have hxr : (0 : ℝ) < x := by exact_mod_cast hx
  have hr : |((roundAway y : Int) : ℝ) - y| ≤ 1 / 2 := by
    have h : ((|(roundAway y : ℚ) - y| : ℚ) : ℝ) ≤ ((1 / 2 : ℚ) : ℝ) := Rat.cast_le.mpr (roundAway_close y)
    push_cast at h
    exact h
  set r := roundAway y
  set L := Real.logb 10 (x : ℝ) with hL
  have hxL : (x : ℝ) = (10 : ℝ) ^ L := (Real.rpow_logb (by norm_num) (by norm_num) hxr).symm
  rw [abs_le] at hr hy
  have lo : (r : ℝ) - 13 / 25 ≤ L := by linarith [hr.1, hr.2, hy.1, hy.2]
  have up : L ≤ (r : ℝ) + 13 / 25 := by linarith [hr.1, hr.2, hy.1, hy.2]
  have e1 : ∀ c : ℝ, (10 : ℝ) ^ ((1 + r : Int) : ℝ) * 10 ^ c = (10 : ℝ) ^ ((1 + r : Int) + c) := fun c =>
    (Real.rpow_add (by norm_num) _ _).symm
  have hpos : (0 : ℝ) < 10 ^ ((1 + r : Int) : ℝ) := Real.rpow_pos_of_pos (by norm_num) _
  have cast : (((10 : ℚ) ^ (1 + r) : ℚ) : ℝ) = (10 : ℝ) ^ ((1 + r : Int) : ℝ) := by
    rw [Real.rpow_intCast]; push_cast; rfl
  have pow25 : ∀ m : Int, ((10 : ℝ) ^ ((m : ℝ) / 25)) ^ 25 = (10 : ℝ) ^ m := by
    intro m
    rw [← Real.rpow_natCast, ← Real.rpow_mul (by norm_num), ← Real.rpow_intCast]
    congr 1; push_cast; ring
  constructor
  · have hc : (3 / 100 : ℝ) ≤ 10 ^ (((-38 : Int) : ℝ) / 25) := by
      by_contra hcon
      have h1 := pow_lt_pow_left₀ (not_le.mp hcon) (Real.rpow_pos_of_pos (by norm_num) _).le (n := 25) (by norm_num)
      rw [pow25] at h1
      norm_num at h1
    have : (10 : ℝ) ^ ((1 + r : Int) : ℝ) * 10 ^ (((-38 : Int) : ℝ) / 25) ≤ x := by
      rw [e1, hxL]
      apply Real.rpow_le_rpow_of_exponent_le (by norm_num)
      push_cast; linarith
    have h2 : (3 / 100 : ℝ) * (10 : ℝ) ^ ((1 + r : Int) : ℝ) ≤ x := by
      have := mul_le_mul_of_nonneg_left hc hpos.le
      linarith
    apply (Rat.cast_le (K := ℝ)).mp
    rw [Rat.cast_mul, cast]
    push_cast
    push_cast at h2
    exact h2
  · have hc : (10 : ℝ) ^ (((-12 : Int) : ℝ) / 25) ≤ 34 / 100 := by
      by_contra hcon
      have h1 := pow_lt_pow_left₀ (not_le.mp hcon) (by norm_num) (n := 25) (by norm_num)
      rw [pow25] at h1
      norm_num at h1
    have : (x : ℝ) ≤ (10 : ℝ) ^ ((1 + r : Int) : ℝ) * 10 ^ (((-12 : Int) : ℝ) / 25) := by
      rw [e1, hxL]
      apply Real.rpow_le_rpow_of_exponent_le (by norm_num)
      push_cast; linarith
    have h2 : (x : ℝ) ≤ (34 / 100 : ℝ) * (10 : ℝ) ^ ((1 + r : Int) : ℝ) := by
      have := mul_le_mul_of_nonneg_left hc hpos.le
      linarith
    apply (Rat.cast_le (K := ℝ)).mp
    rw [Rat.cast_mul, cast]
    push_cast
    push_cast at h2
    exact h2

/-- Exponents of numbers in a range. -/
theorem exponent_le {x : ℚ} {e n : Int} (h1 : 3 / 100 * (10 : ℚ) ^ e ≤ x) (h2 : x < 3 / 10 * 10 ^ n) : e ≤ n := by
  by_contra hc
  have : (10 : ℚ) ^ (n + 1) ≤ 10 ^ e := zpow_le_zpow_right₀ (by norm_num) (by omega)
  rw [zpow_add_one₀ (by norm_num)] at this
  linarith

theorem le_exponent {x : ℚ} {e n : Int} (h1 : x ≤ 34 / 100 * (10 : ℚ) ^ e) (h2 : 34 / 1000 * 10 ^ n < x) : n ≤ e := by
  by_contra hc
  have : (10 : ℚ) ^ (e + 1) ≤ 10 ^ n := zpow_le_zpow_right₀ (by norm_num) (by omega)
  rw [zpow_add_one₀ (by norm_num)] at this
  linarith

/-- The exponent `frexp10` computes. -/
theorem exponent_spec {f : Fmt} (hf : IsFmt f) {log : ℚ → Ieee} (hl : LogOk f log) {k : Nat} (h0 : 0 < k) (h1 : k < f.top) :
    ∃ e : Int, exponent (log (f.val k)) = .ok e ∧ 3 / 100 * (10 : ℚ) ^ e ≤ f.val k ∧ f.val k ≤ 34 / 100 * (10 : ℚ) ^ e ∧
      -322 ≤ e ∧ e ≤ 309 := by
  obtain ⟨y, hy, hc⟩ := hl.close k h0 h1
  have hx := f.val_pos h0
  obtain ⟨a, b⟩ := power_bounds hx hc
  have up : f.val k < 2 ^ 1024 := (f.val_strictMono h1).trans_le (val_top_le hf)
  have lo : 1 / 2 ^ 1074 ≤ f.val k := (le_val_one hf).trans (f.val_strictMono.monotone h0)
  have h3 : (1 + roundAway y) ≤ 309 := exponent_le a (up.trans_le (by decide +kernel))
  have h4 : -322 ≤ 1 + roundAway y := le_exponent b (lt_of_lt_of_le (by decide +kernel) lo)
  refine ⟨1 + roundAway y, ?_, a, b, h4, h3⟩
  unfold exponent
  match hh : log (f.val k) with
  | .fin s m =>
    rw [hh] at hy
    simp only [Ieee.value, Option.some.injEq] at hy
    simp only [hy]
    rw [if_pos (by omega)]
  | .inf s => rw [hh] at hy; simp [Ieee.value] at hy
  | .nan => rw [hh] at hy; simp [Ieee.value] at hy

theorem exponent_mono {f : Fmt} {log : ℚ → Ieee} (hl : LogOk f log) {k j : Nat} (h0 : 0 < k) (h : k ≤ j) (h1 : j < f.top)
    {e e' : Int} (he : exponent (log (f.val k)) = .ok e) (he' : exponent (log (f.val j)) = .ok e') : e ≤ e' := by
  have key : ∀ {l : Ieee} {e : Int}, exponent l = .ok e → ∃ y, l.value = some y ∧ e = 1 + roundAway y := by
    intro l e h
    unfold exponent at h
    match l, h with
    | .fin s m, h =>
      refine ⟨_, rfl, ?_⟩
      by_cases hb : (1 + roundAway (if s = true then -m else m)).natAbs < 2 ^ 31
      · simp only [hb, if_true, Out.ok.injEq] at h; exact h.symm
      · simp only [hb, if_false] at h; cases h
    | .inf _, h => simp at h
    | .nan, h => simp at h
  obtain ⟨y, hy, rfl⟩ := key he
  obtain ⟨z, hz, rfl⟩ := key he'
  have := roundAway_mono (hl.mono k j h0 h h1 y z hy hz)
  omega

theorem Fmt.near_le {f : Fmt} {q : ℚ} {k : Nat} (hq : 0 ≤ q) (hk : k ≤ f.top) (h : q ≤ f.val k) : f.near q ≤ k := by
  have := f.near_mono hq h
  rwa [f.near_val hk] at this

theorem Fmt.le_near {f : Fmt} {q : ℚ} {k : Nat} (hk : k ≤ f.top) (h : f.val k ≤ q) : k ≤ f.near q := by
  have := f.near_mono (f.val_nonneg k) h
  rwa [f.near_val hk] at this

/-- Numbers up to one do not overflow and are rounded with a small relative error unless they are tiny. -/
theorem round_small {f : Fmt} (hf : IsFmt f) (s : Bool) {q : ℚ} (h0 : 1 / 1000 ≤ q) (h1 : q ≤ 1) :
    ∃ m, f.round s q = .fin s m ∧ m = f.val (f.near q) ∧ |m - q| ≤ q / 2 ^ (f.p + 1) := by
  have hone : ∃ k, k < f.top ∧ f.val k = 1 := by
    rcases hf with rfl | rfl
    · exact ⟨0x3f800000, by decide +kernel⟩
    · exact ⟨0x3ff0000000000000, by decide +kernel⟩
  obtain ⟨k, hk, hk1⟩ := hone
  have hlt : f.near q < f.top := (f.near_le (by linarith) hk.le (by rw [hk1]; exact h1)).trans_lt hk
  refine ⟨_, by unfold Fmt.round; rw [if_neg hlt.ne], rfl, ?_⟩
  refine (f.near_error (by linarith) hlt).trans (max_le le_rfl ?_)
  have : (2 : ℚ) ^ (f.emin - f.p - 1) ≤ 1 / 1000 / 2 ^ (f.p + 1) := by
    rcases hf with rfl | rfl <;> decide +kernel
  refine this.trans ?_
  gcongr

/-- Relative accuracy of a mantissa. -/
def Fmt.eta (f : Fmt) : ℚ := if f.p = dbl.p then 1 / 2 ^ 45 else 1 / 2 ^ 23

/-- The mantissa `frexp10` computes, if the power of ten is finite. -/
theorem mantissa_spec {f : Fmt} (hf : IsFmt f) {lib : Libm} (hl : LibmOk lib) {x : ℚ} {e : Int} (s : Bool)
    (h1 : 3 / 100 * (10 : ℚ) ^ e ≤ x) (h2 : x ≤ 34 / 100 * (10 : ℚ) ^ e) (hlo : -308 ≤ e) (hup : e ≤ 309) :
    ∃ v m, lib.pow10 (-e) = .fin false v ∧ 0 ≤ v ∧ f.conv (mul (.fin s x) (lib.pow10 (-e))) = .fin s m ∧
      m = f.val (f.near (dbl.val (dbl.near (x * v)))) ∧ |m - x / 10 ^ e| ≤ x / 10 ^ e * f.eta ∧
      29 / 1000 ≤ m ∧ m ≤ 35 / 100 := by
  obtain ⟨v, hv, hv2⟩ := hl.pow10 (-e) (by omega) (by omega)
  have hpe : (0 : ℚ) < 10 ^ e := by positivity
  have hinv : (10 : ℚ) ^ (-e) = 1 / 10 ^ e := by rw [zpow_neg]; simp
  set t := x / 10 ^ e with ht
  have hxt : x = t * 10 ^ e := by rw [ht]; field_simp
  have t1 : 3 / 100 ≤ t := by rw [ht, le_div_iff₀ hpe]; exact h1
  have t2 : t ≤ 34 / 100 := by rw [ht, div_le_iff₀ hpe]; exact h2
  have hx0 : 0 < x := lt_of_lt_of_le (by positivity) h1
  have hprod : |x * v - t| ≤ t / 2 ^ 46 := by
    have e1 : x * v - t = x * (v - 10 ^ (-e)) := by rw [hinv, ht]; ring
    rw [e1, abs_mul, abs_of_pos hx0]
    calc x * |v - 10 ^ (-e)| ≤ x * (10 ^ (-e) / 2 ^ 46) := by gcongr
      _ = t / 2 ^ 46 := by rw [hinv, ht]; ring
  rw [abs_le] at hprod
  have p1 : 1 / 1000 ≤ x * v := by nlinarith [hprod.1]
  have p2 : x * v ≤ 1 := by nlinarith [hprod.2]
  have hv0 : 0 ≤ v := by
    by_contra hc
    have : x * v ≤ 0 := by nlinarith
    linarith
  obtain ⟨a, ha, hav, hae⟩ := round_small (.inr rfl : IsFmt dbl) s p1 p2
  rw [abs_le] at hae
  have hp52 : dbl.p + 1 = 53 := rfl
  rw [hp52] at hae
  have a1 : 1 / 1000 ≤ a := by nlinarith [hae.1, hprod.1]
  have a2 : a ≤ 1 := by nlinarith [hae.2, hprod.2]
  obtain ⟨m, hm, hmv, hme⟩ := round_small hf s a1 a2
  rw [abs_le] at hme
  refine ⟨v, m, hv, hv0, ?_, by rw [hmv, hav], ?_⟩
  · rw [hv]
    have : mul (.fin s x) (.fin false v) = .fin s a := by
      show dbl.round (s != false) (x * v) = _
      have : (s != false) = s := by cases s <;> rfl
      rw [this]; exact ha
    rw [this]
    exact hm
  · have hb : |m - t| ≤ t * f.eta := by
      rw [abs_le]
      rcases hf with rfl | rfl
      · have : flt.eta = 1 / 2 ^ 23 := rfl
        have h24 : flt.p + 1 = 24 := rfl
        rw [this]; rw [h24] at hme
        constructor <;> nlinarith [hme.1, hme.2, hae.1, hae.2, hprod.1, hprod.2]
      · have : dbl.eta = 1 / 2 ^ 45 := rfl
        rw [this]; rw [hp52] at hme
        constructor <;> nlinarith [hme.1, hme.2, hae.1, hae.2, hprod.1, hprod.2]
    refine ⟨hb, ?_⟩
    have heta : f.eta ≤ 1 / 2 ^ 23 := by rcases hf with rfl | rfl <;> decide +kernel
    rw [abs_le] at hb
    constructor <;> nlinarith [hb.1, hb.2]

theorem log_ok {f : Fmt} (hf : IsFmt f) {lib : Libm} (hl : LibmOk lib) : LogOk f (lib.log f) := by
  rcases hf with rfl | rfl
  · exact hl.log10f
  · exact hl.log10

theorem lastDigits_spec (n k : Nat) : AllDigits (lastDigits n k) ∧ (lastDigits n k).length = k ∧
    digitsVal (lastDigits n k) = n % 10 ^ k := by
  induction k generalizing n with
  | zero => simp [lastDigits, AllDigits, digitsVal, Nat.mod_one]
  | succ k ih =>
    obtain ⟨h1, h2, h3⟩ := ih (n / 10)
    have hd : n % 10 < 10 := Nat.mod_lt _ (by norm_num)
    have hc : (digitChar (n % 10)).toNat = 48 + n % 10 := by
      unfold digitChar
      rw [UInt8.toNat_ofNat']
      exact Nat.mod_eq_of_lt (by omega)
    refine ⟨?_, by simp [lastDigits, h2], ?_⟩
    · intro c hmem
      simp only [lastDigits, List.mem_append, List.mem_singleton] at hmem
      rcases hmem with hmem | rfl
      · exact h1 c hmem
      · unfold isDigit
        rw [hc]; simp; omega
    · unfold digitsVal at h3 ⊢
      rw [lastDigits, List.foldl_append, h3]
      simp only [List.foldl_cons, List.foldl_nil, hc]
      rw [Nat.pow_succ, Nat.mul_comm (10 ^ k) 10, Nat.mod_mul]
      omega

/-- The mantissa of a positive number times a power of ten. -/
def mant (f : Fmt) (k : Nat) (v : ℚ) : ℚ := f.val (f.near (dbl.val (dbl.near (f.val k * v))))

theorem mant_mono (f : Fmt) {k j : Nat} (h : k ≤ j) {v : ℚ} (hv : 0 ≤ v) : mant f k v ≤ mant f j v := by
  unfold mant
  apply f.val_strictMono.monotone
  apply f.near_mono (dbl.val_nonneg _)
  apply dbl.val_strictMono.monotone
  apply dbl.near_mono (mul_nonneg (f.val_nonneg k) hv)
  exact mul_le_mul_of_nonneg_right (f.val_strictMono.monotone h) hv

/-- The digits of a mantissa. -/
def mantInt (prec : Nat) (m : ℚ) : Nat := halfEven (m * 10 ^ prec)

theorem mantInt_lt {m : ℚ} (h0 : 0 ≤ m) (h : m ≤ 35 / 100) (prec : Nat) : mantInt prec m < 10 ^ prec := by
  have hp : (0 : ℚ) < 10 ^ prec := by positivity
  have h1 := halfEven_spec (mul_nonneg h0 hp.le)
  rw [abs_le] at h1
  have h2 : (1 : ℚ) ≤ 10 ^ prec := one_le_pow₀ (by norm_num)
  have : (mantInt prec m : ℚ) < 10 ^ prec := by
    unfold mantInt
    nlinarith [h1.2]
  exact_mod_cast this

theorem mantissaDigits_eq {m : ℚ} (h0 : 29 / 1000 ≤ m) (h : m ≤ 35 / 100) (prec : Nat) (s : Bool) :
    mantissaDigits prec (.fin s m) = lastDigits (mantInt prec m) prec := by
  have hlt := mantInt_lt (by linarith) h prec
  unfold mantissaDigits fixed
  simp only
  rw [if_neg (by linarith)]
  have hz : toDec (halfEven (m * 10 ^ prec) / 10 ^ prec) = [48] := by
    show toDec (mantInt prec m / 10 ^ prec) = [48]
    rw [Nat.div_eq_of_lt hlt]
    unfold toDec; rfl
  rw [hz]
  rcases Nat.eq_zero_or_pos prec with rfl | hp
  · rfl
  · rw [if_neg (by omega)]; rfl

/-- What is stored for a number that is not zero. -/
theorem encode_num {f : Fmt} (hf : IsFmt f) {lib : Libm} (hl : LibmOk lib) (prec : Nat) (neg pos : UInt8) {k : Nat}
    (h0 : 0 < k) (h1 : k < f.top) :
    ∃ (e : Int) (d : Bytes), (∀ s, encodeNum lib f prec neg pos (.fin s (f.val k)) = .ok (encFlt neg pos (.num s e d))) ∧
      exponent (lib.log f (f.val k)) = .ok e ∧ 3 / 100 * (10 : ℚ) ^ e ≤ f.val k ∧ f.val k ≤ 34 / 100 * (10 : ℚ) ^ e ∧
      -322 ≤ e ∧ e ≤ 309 ∧
      ((-308 ≤ e ∧ ∃ v, lib.pow10 (-e) = .fin false v ∧ 0 ≤ v ∧ d = lastDigits (mantInt prec (mant f k v)) prec ∧
        |mant f k v - f.val k / 10 ^ e| ≤ f.val k / 10 ^ e * f.eta ∧ 29 / 1000 ≤ mant f k v ∧ mant f k v ≤ 35 / 100) ∨
       (e < -308 ∧ d = [102])) := by
  obtain ⟨e, he, b1, b2, r1, r2⟩ := exponent_spec hf (log_ok hf hl) h0 h1
  have hx := f.val_pos h0
  have henc : ∀ s, encodeNum lib f prec neg pos (.fin s (f.val k)) =
      .ok (encFlt neg pos (.num s e (mantissaDigits prec (f.conv (mul (.fin s (f.val k)) (lib.pow10 (-e))))))) := by
    intro s
    unfold encodeNum frexp10
    simp only
    rw [if_neg hx.ne', he]
    rfl
  rcases le_or_gt (-308) e with hlo | hlo
  · obtain ⟨v, m, hv, hv0, hm, hmv, hme, m1, m2⟩ := mantissa_spec hf hl false b1 b2 hlo r2
    have hmv' : m = mant f k v := hmv
    subst hmv'
    refine ⟨e, _, ?_, he, b1, b2, r1, r2, .inl ⟨hlo, v, hv, hv0, rfl, hme, m1, m2⟩⟩
    intro s
    rw [henc s]
    obtain ⟨v', m', hv', -, hm', hmv2, -, -, -⟩ := mantissa_spec hf hl s b1 b2 hlo r2
    obtain rfl : v' = v := by rw [hv] at hv'; injection hv' with _ h; exact h.symm
    rw [hm', hmv2]
    have := mantissaDigits_eq m1 m2 prec s
    unfold mant at this ⊢
    rw [this]
  · refine ⟨e, [102], ?_, he, b1, b2, r1, r2, .inr ⟨hlo, rfl⟩⟩
    intro s
    rw [henc s, hl.pow10_large (-e) (by omega)]
    have : mul (.fin s (f.val k)) (.inf false) = .inf (s != false) := by
      show (if f.val k = 0 then Ieee.nan else _) = _
      rw [if_neg hx.ne']
    rw [this]
    rfl

/-- Larger numbers have a larger exponent, or the same and the same or larger digits. -/
theorem encode_num_mono {f : Fmt} (hf : IsFmt f) {lib : Libm} (hl : LibmOk lib) (prec : Nat) (neg pos : UInt8) {k j : Nat}
    (h0 : 0 < k) (h : k ≤ j) (h1 : j < f.top) :
    ∃ (e e' : Int) (d d' : Bytes), (∀ s, encodeNum lib f prec neg pos (.fin s (f.val k)) = .ok (encFlt neg pos (.num s e d))) ∧
      (∀ s, encodeNum lib f prec neg pos (.fin s (f.val j)) = .ok (encFlt neg pos (.num s e' d'))) ∧
      (e < e' ∨ (e = e' ∧ (d = d' ∨ DiffR (fun x y => isDigit x = true ∧ isDigit y = true ∧ x < y) d d'))) := by
  obtain ⟨e, d, c1, c2, -, -, -, -, c3⟩ := encode_num hf hl prec neg pos h0 (h.trans_lt h1)
  obtain ⟨e', d', c1', c2', -, -, -, -, c3'⟩ := encode_num hf hl prec neg pos (h0.trans_le h) h1
  refine ⟨e, e', d, d', c1, c1', ?_⟩
  rcases (exponent_mono (log_ok hf hl) h0 h h1 c2 c2').eq_or_lt with rfl | hlt
  · right
    refine ⟨rfl, ?_⟩
    rcases c3 with ⟨g, v, hv, hv0, rfl, -, m1, m2⟩ | ⟨g, rfl⟩
    · rcases c3' with ⟨-, v', hv', -, rfl, -, m1', m2'⟩ | ⟨g', -⟩
      · obtain rfl : v' = v := by rw [hv] at hv'; injection hv' with _ h; exact h.symm
        have hle : mantInt prec (mant f k v') ≤ mantInt prec (mant f j v') := by
          unfold mantInt
          apply halfEven_mono (by positivity)
          exact mul_le_mul_of_nonneg_right (mant_mono f h hv0) (by positivity)
        rcases hle.eq_or_lt with heq | hlt
        · left; rw [heq]
        · right
          have a := lastDigits_spec (mantInt prec (mant f k v')) prec
          have b := lastDigits_spec (mantInt prec (mant f j v')) prec
          apply digits_diff a.1 b.1 (by rw [a.2.1, b.2.1])
          rw [a.2.2, b.2.2, Nat.mod_eq_of_lt (mantInt_lt (by linarith) m2 prec), Nat.mod_eq_of_lt (mantInt_lt (by linarith) m2' prec)]
          exact hlt
      · omega
    · rcases c3' with ⟨g', -⟩ | ⟨-, rfl⟩
      · omega
      · left; rfl
  · exact .inl hlt

/-- The same stored form, or one that differs at a first byte, which is smaller. -/
def NotAbove (a b : Bytes) : Prop := a = b ∨ DiffR (· < ·) a b

/-- Numbers are stored in their order. -/
theorem encode_order {f : Fmt} (hf : IsFmt f) {lib : Libm} (hl : LibmOk lib) (prec : Nat) {neg pos : UInt8} (hs : Symbols neg pos)
    {s t : Bool} {k j : Nat} (hk : k < f.top) (hj : j < f.top)
    (h : (if s then -f.val k else f.val k) ≤ (if t then -f.val j else f.val j)) :
    ∃ a b, encodeNum lib f prec neg pos (.fin s (f.val k)) = .ok a ∧ encodeNum lib f prec neg pos (.fin t (f.val j)) = .ok b ∧
      NotAbove a b := by
  have hn := hs.neg_lt
  have hp := hs.pos_gt
  have h48 : (48 : UInt8).toNat = 48 := rfl
  have negpos : neg < pos := by rw [UInt8.lt_iff_toNat_lt]; omega
  have negz : neg < 48 := by rw [UInt8.lt_iff_toNat_lt]; omega
  have zpos : 48 < pos := by rw [UInt8.lt_iff_toNat_lt]; omega
  have zero : ∀ s, encodeNum lib f prec neg pos (.fin s (f.val 0)) = .ok [48] := by
    intro s; unfold encodeNum; simp only; rw [if_pos f.val_zero]
  rcases Nat.eq_zero_or_pos k with rfl | k0
  · rcases Nat.eq_zero_or_pos j with rfl | j0
    · exact ⟨_, _, zero s, zero t, .inl rfl⟩
    · obtain ⟨e, d, c, -⟩ := encode_num hf hl prec neg pos j0 hj
      have hjp := f.val_pos j0
      rw [f.val_zero] at h
      cases t
      · exact ⟨_, _, zero s, c false, .inr (DiffR.head zpos _ _)⟩
      · simp only [neg_zero, ite_self, if_true] at h; linarith
  · have hkp := f.val_pos k0
    obtain ⟨e, d, c, -⟩ := encode_num hf hl prec neg pos k0 hk
    rcases Nat.eq_zero_or_pos j with rfl | j0
    · rw [f.val_zero] at h
      cases s
      · simp only [neg_zero, ite_self, Bool.false_eq_true, if_false] at h; linarith
      · exact ⟨_, _, c true, zero t, .inr (DiffR.head negz _ _)⟩
    · have hjp := f.val_pos j0
      obtain ⟨e', d', c', -⟩ := encode_num hf hl prec neg pos j0 hj
      cases s <;> cases t <;> simp only [Bool.false_eq_true, if_false, if_true] at h
      · have hkj : k ≤ j := f.val_strictMono.le_iff_le.mp h
        obtain ⟨e, e', d, d', c, c', hc⟩ := encode_num_mono hf hl prec neg pos k0 hkj hj
        refine ⟨_, _, c false, c' false, ?_⟩
        rcases hc with hc | ⟨rfl, rfl | hc⟩
        · right; simp only [encFlt]
          apply DiffR.cons
          simp only [List.append_assoc]
          exact (encInt_diff hs hc).append _ _
        · exact .inl rfl
        · right; simp only [encFlt]
          apply DiffR.cons
          simp only [List.append_assoc]
          apply DiffR.prefix
          apply DiffR.append
          exact hc.mono (fun _ _ h => h.2.2)
      · linarith
      · exact ⟨_, _, c true, c' false, .inr (DiffR.head negpos _ _)⟩
      · have hkj : j ≤ k := f.val_strictMono.le_iff_le.mp (by linarith)
        obtain ⟨e', e, d', d, c', c, hc⟩ := encode_num_mono hf hl prec neg pos j0 hkj hk
        refine ⟨_, _, c true, c' true, ?_⟩
        rcases hc with hc | ⟨rfl, rfl | hc⟩
        · right; simp only [encFlt]
          apply DiffR.cons
          simp only [List.append_assoc]
          exact (encInt_diff hs (by omega : -e < -e')).append _ _
        · exact .inl rfl
        · right; simp only [encFlt]
          apply DiffR.cons
          simp only [List.append_assoc]
          apply DiffR.prefix
          apply DiffR.append
          exact flip_diff hc

/-- The decimal number that is stored. -/
theorem encode_close {f : Fmt} (hf : IsFmt f) {lib : Libm} (hl : LibmOk lib) (prec : Nat) (neg pos : UInt8) (s : Bool) {k : Nat}
    (h0 : 0 < k) (h1 : k < f.top) (hx : (1 : ℚ) / 10 ^ 309 ≤ f.val k) :
    ∃ (e : Int) (d : Bytes), encodeNum lib f prec neg pos (.fin s (f.val k)) = .ok (encFlt neg pos (.num s e d)) ∧
      AllDigits d ∧ d.length = prec ∧ 3 / 100 * (10 : ℚ) ^ e ≤ f.val k ∧ f.val k ≤ 34 / 100 * (10 : ℚ) ^ e ∧ -308 ≤ e ∧ e ≤ 309 ∧
      |decimalVal s e d - (if s then -f.val k else f.val k)| ≤ f.val k * (17 / 10 ^ prec + f.eta) := by
  obtain ⟨e, d, c1, -, b1, b2, r1, r2, c3⟩ := encode_num hf hl prec neg pos h0 h1
  have hlo : -308 ≤ e := by
    apply le_exponent b2
    refine lt_of_lt_of_le ?_ hx
    decide +kernel
  rcases c3 with ⟨-, v, hv, hv0, rfl, hme, m1, m2⟩ | ⟨g, -⟩
  · obtain ⟨a1, a2, a3⟩ := lastDigits_spec (mantInt prec (mant f k v)) prec
    refine ⟨e, _, c1 s, a1, a2, b1, b2, hlo, r2, ?_⟩
    set M := mant f k v
    set D := mantInt prec M with hD
    rw [Nat.mod_eq_of_lt (mantInt_lt (by linarith) m2 prec)] at a3
    have hp : (0 : ℚ) < 10 ^ prec := by positivity
    have hz : (0 : ℚ) < 10 ^ e := by positivity
    have hD2 : |(D : ℚ) / 10 ^ prec - M| ≤ 1 / 2 / 10 ^ prec := by
      have := halfEven_spec (s := M * 10 ^ prec) (by positivity)
      have e1 : (D : ℚ) / 10 ^ prec - M = ((D : ℚ) - M * 10 ^ prec) / 10 ^ prec := by field_simp
      rw [e1, abs_div, abs_of_pos hp]
      exact div_le_div_of_nonneg_right this hp.le
    have main : |(D : ℚ) / 10 ^ prec * 10 ^ e - f.val k| ≤ f.val k * (17 / 10 ^ prec + f.eta) := by
      have e2 : (D : ℚ) / 10 ^ prec * 10 ^ e - f.val k = ((D : ℚ) / 10 ^ prec - M) * 10 ^ e + (M - f.val k / 10 ^ e) * 10 ^ e := by
        field_simp; ring
      rw [e2]
      refine (abs_add_le _ _).trans ?_
      rw [abs_mul, abs_mul, abs_of_pos hz]
      have g1 : |(D : ℚ) / 10 ^ prec - M| * 10 ^ e ≤ f.val k * (17 / 10 ^ prec) := by
        have := mul_le_mul_of_nonneg_right hD2 hz.le
        refine this.trans ?_
        have : 1 / 2 / 10 ^ prec * (10 : ℚ) ^ e = (1 / 2 * 10 ^ e) * (1 / 10 ^ prec) := by ring
        rw [this]
        have : f.val k * (17 / 10 ^ prec) = (17 * f.val k) * (1 / 10 ^ prec) := by ring
        rw [this]
        apply mul_le_mul_of_nonneg_right _ (by positivity)
        linarith
      have g2 : |M - f.val k / 10 ^ e| * 10 ^ e ≤ f.val k * f.eta := by
        have := mul_le_mul_of_nonneg_right hme hz.le
        refine this.trans (le_of_eq ?_)
        field_simp
      linarith
    unfold decimalVal
    rw [a2, a3]
    cases s
    · simpa using main
    · simp only [if_true]
      have : -1 * ((D : ℚ) / 10 ^ prec) * 10 ^ e - -f.val k = -((D : ℚ) / 10 ^ prec * 10 ^ e - f.val k) := by ring
      rw [this, abs_neg]
      exact main
  · omega

end Hx.Fp

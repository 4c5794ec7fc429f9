import Verif.Proofs.Elapsed

/-!
# C85: elapsed times

`nano` and `sec` of the examples and of `Stats`, the lines that are printed, sums and rates.
-/

namespace Hx.Props
open Hx Spec Fp Elapsed
open Hx.Spec.Config (Decimal)
open Hx.Spec.Cli (IntText FloatText)

/-- The nanoseconds from one time to another. -/
def between (a b : TimeSpec) : Int := (b.sec * 10 ^ 9 + b.nsec) - (a.sec * 10 ^ 9 + a.nsec)

/-- C85: `nano` is the number of nanoseconds between two times, if it is one of 64 bits, also when the times themselves are not. -/
theorem C85_nano (a b : TimeSpec) (h0 : 0 ≤ between a b) (h1 : between a b < 2 ^ 64) : (nano a b : Int) = between a b := by
  rw [nano_cast]
  unfold between at *
  norm_num at h0 h1 ⊢
  omega

/-- C85 is false for a time before the other: the result is a large number. -/
theorem C85_backwards_false (a b : TimeSpec) (h0 : between a b < 0) (h1 : -2 ^ 64 < between a b) :
    (nano a b : Int) = 2 ^ 64 + between a b := by
  rw [nano_cast]
  unfold between at *
  norm_num at h0 h1 ⊢
  omega

/-- C85: times one after the other add up. -/
theorem C85_adds (a b c : TimeSpec) (h0 : 0 ≤ between a b) (h1 : 0 ≤ between b c) (h2 : between a c < 2 ^ 64) :
    nano a b + nano b c = nano a c := by
  have e : between a c = between a b + between b c := by unfold between; ring
  have h3 := C85_nano a b h0 (by omega)
  have h4 := C85_nano b c h1 (by omega)
  have h5 := C85_nano a c (by omega) h2
  omega

/-- C85: `sec` is the number of seconds, with 64 bits, and does not change the order of times. -/
theorem C85_sec (a b : TimeSpec) (h0 : 0 ≤ between a b) (h1 : between a b < 2 ^ 64) :
    ∃ x : ℚ, sec a b = .fin false x ∧ |x - (between a b : ℚ) / 10 ^ 9| ≤ (between a b : ℚ) / 10 ^ 9 / 2 ^ 64 ∧
      ∀ c d : TimeSpec, between a b ≤ between c d → between c d < 2 ^ 64 → ∃ y, sec c d = .fin false y ∧ x ≤ y := by
  have h2 := C85_nano a b h0 h1
  have hn : nano a b < 2 ^ 64 := by omega
  have hq : ((nano a b : Nat) : ℚ) = (between a b : ℚ) := by rw [← h2]; simp
  obtain ⟨g1, g2⟩ := seconds_eq hn
  refine ⟨_, g1, ?_, ?_⟩
  · rw [hq] at g2
    rw [hq]
    norm_num at g2 ⊢
    exact g2
  · intro c d h3 h4
    have h5 := C85_nano c d (by omega) h4
    obtain ⟨g3, -⟩ := seconds_eq (n := nano c d) (by omega)
    refine ⟨_, g3, ?_⟩
    refine ext.val_strictMono.monotone (ext.near_mono (by positivity) (div_le_div_of_nonneg_right ?_ (by norm_num)))
    exact_mod_cast (by omega : nano a b ≤ nano c d)

/-- C85: the clock of `Stats` gives the same as the functions of the examples, for times that are in order and no more than 292 years
apart. -/
theorem C85_chrono (a b : Int) (h0 : a ≤ b) (h1 : b - a < 2 ^ 63) :
    ∃ n : Nat, chronoNano a b = .ok n ∧ (n : Int) = b - a ∧
      ∃ x : ℚ, chronoSec a b = .ok (.fin false x) ∧ |x - (b - a : ℚ) / 10 ^ 9| ≤ (b - a : ℚ) / 10 ^ 9 / 2 ^ 64 := by
  have e : chronoNano a b = .ok (u64 (b - a)) := by
    unfold chronoNano
    rw [if_pos ⟨by omega, h1⟩]
  have hc : ((u64 (b - a) : Nat) : Int) = b - a := by rw [u64_cast]; omega
  have hq : ((u64 (b - a) : Nat) : ℚ) = (b : ℚ) - a := by
    have : (((u64 (b - a) : Nat) : Int) : ℚ) = ((b - a : Int) : ℚ) := by rw [hc]
    push_cast at this
    exact this
  obtain ⟨g1, g2⟩ := seconds_eq (n := u64 (b - a)) (by omega)
  refine ⟨_, e, hc, _, by unfold chronoSec; rw [e, Out.ok_bind, g1], ?_⟩
  rw [hq] at g2 ⊢
  norm_num at g2 ⊢
  exact g2

/-- C85 is false for points of the clock that are further apart: the difference overflows. -/
theorem C85_far_ub (a b : Int) (h : 2 ^ 63 ≤ b - a ∨ b - a < -2 ^ 63) : chronoNano a b = .ub := by
  unfold chronoNano
  rw [if_neg (by omega)]

/-- C85: a line has five words: the rank, the name, the nanoseconds from the epoch to the start and to the end, and the seconds between
them, with an error of half a millisecond and the rounding of `sec`. -/
theorem C85_line (rank : Int) (name : Bytes) (epoch a b : TimeSpec) (h0 : 0 ≤ between epoch a) (h1 : 0 ≤ between a b)
    (h2 : between epoch b < 2 ^ 64) :
    ∃ r s e t : Bytes, line rank name epoch a b = r ++ [32] ++ name ++ [32] ++ s ++ [32] ++ e ++ [32] ++ t ++ [10] ∧
      IntText r rank ∧ (∃ n : Nat, Decimal s n ∧ (n : Int) = between epoch a) ∧ (∃ n : Nat, Decimal e n ∧ (n : Int) = between epoch b) ∧
      ∃ x : ℚ, FloatText t false x ∧ |x - (between a b : ℚ) / 10 ^ 9| ≤ 1 / 2000 + (between a b : ℚ) / 10 ^ 9 / 2 ^ 64 := by
  have hsum : between epoch b = between epoch a + between a b := by unfold between; ring
  obtain ⟨x, g1, g2, -⟩ := C85_sec a b h1 (by omega)
  have hx : 0 ≤ x := by
    obtain ⟨g3, -⟩ := seconds_eq (n := nano a b) (by have := C85_nano a b h1 (by omega); omega)
    unfold sec at g1
    rw [g3] at g1
    injection g1 with _ g1
    rw [← g1]
    exact ext.val_nonneg _
  refine ⟨Lowest.showInt rank, Elen.toDec (nano epoch a), Elen.toDec (nano epoch b), fixed 3 x, ?_, Cli.decText_int rank,
    ⟨_, Cli.toDec_decimal _, C85_nano _ _ h0 (by omega)⟩, ⟨_, Cli.toDec_decimal _, C85_nano _ _ (by omega) h2⟩, _,
    Cli.fixed_text (prec := 3) (by decide) false x, ?_⟩
  · unfold line
    rw [g1, format_words]
    rfl
  · have hh := halfEven_spec (s := x * 10 ^ 3) (by positivity)
    have hd : |(halfEven (x * 10 ^ 3) : ℚ) / 10 ^ 3 - x| ≤ 1 / 2000 := by
      rw [show (halfEven (x * 10 ^ 3) : ℚ) / 10 ^ 3 - x = ((halfEven (x * 10 ^ 3) : ℚ) - x * 10 ^ 3) / 10 ^ 3 by field_simp, abs_div]
      rw [div_le_iff₀ (by norm_num)]
      norm_num at hh ⊢
      linarith
    calc _ = |((halfEven (x * 10 ^ 3) : ℚ) / 10 ^ 3 - x) + (x - (between a b : ℚ) / 10 ^ 9)| := by congr 1; ring
      _ ≤ _ := (abs_add_le _ _).trans (add_le_add hd g2)

/-- C85: two lines that are the same are about the same rank, name and times, if names have no blanks. -/
theorem C85_line_back (rank rank' : Int) (name name' : Bytes) (epoch a b a' b' : TimeSpec) (hn : (32 : UInt8) ∉ name)
    (hn' : (32 : UInt8) ∉ name') (h0 : 0 ≤ between epoch a) (h1 : 0 ≤ between a b) (h2 : between epoch b < 2 ^ 64)
    (h0' : 0 ≤ between epoch a') (h1' : 0 ≤ between a' b') (h2' : between epoch b' < 2 ^ 64)
    (h : line rank name epoch a b = line rank' name' epoch a' b') :
    rank = rank' ∧ name = name' ∧ between epoch a = between epoch a' ∧ between epoch b = between epoch b' := by
  have hsum : between epoch b = between epoch a + between a b := by unfold between; ring
  have hsum' : between epoch b' = between epoch a' + between a' b' := by unfold between; ring
  unfold line at h
  obtain ⟨g1, g2, g3, g4⟩ := format_inj hn hn' h
  have e1 := C85_nano epoch a h0 (by omega)
  have e2 := C85_nano epoch b (by omega) h2
  have e3 := C85_nano epoch a' h0' (by omega)
  have e4 := C85_nano epoch b' (by omega) h2'
  exact ⟨g1, g2, by omega, by omega⟩

/-- C85: sums of times are exact if they have 64 bits. -/
theorem C85_total (l : List Nat) (h : l.sum < 2 ^ 64) : total l = l.sum := by
  rw [total_mod, Nat.mod_eq_of_lt h]

/-- The seconds of `puts.c` have the precision of a `double`. -/
theorem C85_puts (n : Nat) (h : n < 2 ^ 64) : ∃ x : ℚ, putsSeconds n = .fin false x ∧ |x - (n : ℚ) / 10 ^ 9| ≤ (n : ℚ) / 10 ^ 9 / 2 ^ 51 := by
  have hn : (n : ℚ) ≤ 2 ^ 64 := by exact_mod_cast h.le
  rcases Nat.eq_zero_or_pos n with rfl | hp
  · refine ⟨0, ?_, by simp⟩
    have h1 : dbl.round false ((0 : Nat) : ℚ) = .fin false 0 := by decide +kernel
    have h2 : dbl.round false ((0 : ℚ) / 1000000000) = .fin false 0 := by decide +kernel
    unfold putsSeconds
    rw [h1]
    exact h2
  have h1n : (1 : ℚ) ≤ n := by exact_mod_cast hp
  obtain ⟨a1, a2⟩ := near_rel (f := dbl) (q := n) (hi := 2 ^ 64) (by linarith) hn (by decide +kernel) (.inr (tiny_dbl (by linarith)))
  set m := dbl.val (dbl.near (n : ℚ)) with hm
  have e1 : dbl.round false (n : ℚ) = .fin false m := by unfold Fmt.round; rw [if_neg (by omega)]
  have a2 : |m - n| ≤ n / 2 ^ 53 := a2
  rw [abs_le] at a2
  have b1 : (n : ℚ) / 2 ^ 53 ≤ n / 2 := div_le_div_of_nonneg_left (by linarith) (by norm_num) (by norm_num)
  have hm0 : 1 / 2 ≤ m := by linarith [a2.1]
  have hm1 : m ≤ 2 ^ 65 := by linarith [a2.2]
  obtain ⟨c1, c2⟩ := near_rel (f := dbl) (q := m / 1000000000) (hi := 2 ^ 65) (by positivity) (by
      rw [div_le_iff₀ (by norm_num)]; linarith) (by decide +kernel) (.inr (by
      refine le_trans (zpow_le_zpow_right₀ (by norm_num) (show dbl.emin ≤ -40 by decide)) ?_
      rw [le_div_iff₀ (by norm_num)]
      refine le_trans ?_ hm0
      norm_num))
  refine ⟨dbl.val (dbl.near (m / 1000000000)), ?_, ?_⟩
  · unfold putsSeconds
    rw [e1]
    simp only
    unfold Fmt.round
    rw [if_neg (by omega)]
  · have c2 : |dbl.val (dbl.near (m / 1000000000)) - m / 1000000000| ≤ m / 1000000000 / 2 ^ 53 := c2
    rw [abs_le] at c2 ⊢
    norm_num at *
    constructor <;> linarith [a2.1, a2.2, c2.1, c2.2]

/-- C85: the time of `hx.c` is the sum of the two times. -/
theorem C85_duration (p f : Nat) (h : p + f < 2 ^ 64) :
    ∃ x : ℚ, duration p f = .fin false x ∧ |x - ((p + f : Nat) : ℚ) / 10 ^ 9| ≤ ((p + f : Nat) : ℚ) / 10 ^ 9 / 2 ^ 64 := by
  obtain ⟨g1, g2⟩ := seconds_eq h
  refine ⟨ext.val (ext.near (((p + f : Nat) : ℚ) / 1000000000)), ?_, by norm_num at g2 ⊢; exact g2⟩
  rw [← g1]
  unfold duration
  rw [ext_round_nat (show p < 2 ^ 64 by omega), ext_round_nat (show f < 2 ^ 64 by omega)]
  simp only
  unfold seconds
  rw [← Nat.cast_add, ext_round_nat h]

/-- C85: no time at all gives no rate: `inf`, or `nan` if nothing was PUT. -/
theorem C85_rate_zero_false (n : Nat) (hn : n ≠ 0) : rate n (duration 0 0) = .inf false ∧ rate 0 (duration 0 0) = .nan := by
  have h : duration 0 0 = .fin false 0 := by
    obtain ⟨x, h1, h2⟩ := C85_duration 0 0 (by decide)
    rw [h1]
    simp at h2
    rw [h2]
  rw [h]
  exact ⟨by simp [rate, hn], rfl⟩

/-- C85: otherwise the rate is the number by the time that was computed. -/
theorem C85_rate (n p f : Nat) (hn : 0 < n) (h1 : n < 2 ^ 64) (h2 : 0 < p + f) (h3 : p + f < 2 ^ 64) :
    ∃ x y : ℚ, duration p f = .fin false x ∧ 0 < x ∧ rate n (duration p f) = .fin false y ∧ |y - n / x| ≤ n / x / 2 ^ 64 := by
  obtain ⟨x, g1, g2⟩ := C85_duration p f h3
  have k1 : (1 : ℚ) ≤ ((p + f : Nat) : ℚ) := by exact_mod_cast h2
  have k2 : ((p + f : Nat) : ℚ) ≤ 2 ^ 64 := by exact_mod_cast h3.le
  generalize ((p + f : Nat) : ℚ) = m at *
  have k3 : (1 : ℚ) ≤ n := by exact_mod_cast hn
  have k4 : (n : ℚ) ≤ 2 ^ 64 := by exact_mod_cast h1.le
  have hx : 1 / 2 ^ 40 ≤ x ∧ x ≤ 2 ^ 64 := by
    rw [abs_le] at g2
    norm_num at *
    constructor <;> linarith [g2.1, g2.2]
  have hx0 : 0 < x := lt_of_lt_of_le (by norm_num) hx.1
  obtain ⟨a1, a2⟩ := near_rel (f := ext) (q := n / x) (hi := 2 ^ 104) (by positivity) (by
      rw [div_le_iff₀ hx0]
      calc (n : ℚ) ≤ 2 ^ 64 := k4
        _ = 2 ^ 104 * (1 / 2 ^ 40) := by norm_num
        _ ≤ _ := by gcongr; exact hx.1) (by decide +kernel) (.inr (by
      refine le_trans (zpow_le_zpow_right₀ (by norm_num) (show ext.emin ≤ -64 by decide)) ?_
      rw [le_div_iff₀ hx0]
      refine le_trans ?_ k3
      rw [zpow_neg, inv_mul_le_iff₀ (by positivity)]
      simpa using hx.2))
  refine ⟨x, ext.val (ext.near (n / x)), g1, hx0, ?_, a2⟩
  rw [g1]
  show (if x = 0 then _ else _) = _
  rw [if_neg hx0.ne', ext_round_nat h1]
  simp only
  unfold Fmt.round
  rw [if_neg (by omega)]

namespace C85Ex

/-- The clock when a program starts, 1.25 seconds later with a carry, and a time before it. -/
def epoch : TimeSpec := ⟨100, 900000000⟩
def start : TimeSpec := ⟨101, 0⟩
def stop : TimeSpec := ⟨102, 150000000⟩
def before : TimeSpec := ⟨100, 899999999⟩

/-- Times in order, with a carry of nanoseconds, as in `C85_nano`, `C85_adds`, `C85_sec`, `C85_line` and `C85_line_back`. -/
example : between epoch start = 100000000 ∧ between start stop = 1150000000 ∧ between epoch stop = 1250000000 ∧ nano epoch stop = 1250000000 ∧
    nano epoch start + nano start stop = nano epoch stop := by decide +kernel

/-- A time of 1.25 seconds is exact. -/
example : sec epoch stop = .fin false (5 / 4) := by decide +kernel

/-- One of 1.15 seconds is not, and nothing changes for what is printed. -/
example : sec start stop ≠ .fin false (23 / 20) ∧
    line 3 (Config.str "put") epoch start stop = Config.str "3 put 100000000 1250000000 1.150\n" := by decide +kernel

/-- A name without blanks. -/
example : (32 : UInt8) ∉ Config.str "mpi_barrier" := by decide +kernel

/-- One nanosecond backwards. -/
example : between epoch before = -1 ∧ nano epoch before = 2 ^ 64 - 1 := by decide +kernel

/-- Points of the clock of `Stats`, also from before it was 0, and two that are too far apart. -/
example : chronoNano (-5) 7 = .ok 12 ∧ chronoSec 0 2500000000 = .ok (.fin false (5 / 2)) ∧ chronoNano (-1) (2 ^ 63 - 1) = .ub := by decide +kernel

/-- A sum, and one that overflows. -/
example : total [5, 7, 2 ^ 63] = 2 ^ 63 + 12 ∧ total [2 ^ 63, 2 ^ 63 + 1] = 1 := by decide +kernel

/-- The times of 1.5 and 1 seconds, the rate of 10 PUTs, and what `puts.c` computes. -/
example : duration 1500000000 1000000000 = .fin false (5 / 2) ∧ rate 10 (duration 1500000000 1000000000) = .fin false 4 ∧
    putsSeconds 2500000000 = .fin false (5 / 2) := by decide +kernel

end C85Ex

end Hx.Props

import Verif.Proofs.Elen
import Verif.Model.Key

/-!
# C03, C04, C05, C06: integer subjects, predicates and objects

`Symbols neg pos` says that the sign symbols lie below and above the digits, as the defaults do.
-/

namespace Hx.Props
open Hx Elen Key

/-- The default symbols (include/utils/elen.hpp:21-22). -/
theorem defaultSymbols : Symbols 0x2f 0x3a := ⟨by decide, by decide⟩

/-- The symbols set by `DEFAULT_CONFIG` (`ELEN_NEG_SYMBOL` 0x01). -/
theorem configSymbols : Symbols 0x01 0x3a := ⟨by decide, by decide⟩

/-- C03. Stored integers compare byte by byte as the numbers do. -/
theorem C03_integer_order {neg pos : UInt8} (hs : Symbols neg pos) (v w : Int) :
    encInt neg pos v < encInt neg pos w ↔ v < w := by
  constructor
  · intro h
    rcases Int.lt_trichotomy v w with h1 | h1 | h1
    · exact h1
    · subst h1; exact absurd h (bytes_lt_irrefl _)
    · exact absurd h (bytes_lt_asymm (encInt_diff hs h1).lt)
  · intro h
    exact (encInt_diff hs h).lt

/-- C03 for the encoder with its overflow check: whenever two values of a type are encoded, they
are ordered as the numbers. -/
theorem C03_encoded_order {neg pos : UInt8} (hs : Symbols neg pos) (t : IntType) (v w : Int)
    (a b : Bytes) (ha : encodeInteger neg pos t v = .ok a) (hb : encodeInteger neg pos t w = .ok b) :
    a < b ↔ v < w := by
  unfold encodeInteger at ha hb
  split at ha
  · cases ha
  · split at hb
    · cases hb
    · cases ha; cases hb
      exact C03_integer_order hs v w

example : encodeInteger 0x2f 0x3a int32 (-123456) = .ok (encInt 0x2f 0x3a (-123456)) := by
  unfold encodeInteger; rw [if_neg (by decide)]
example : encInt 0x2f 0x3a (-12) < encInt 0x2f 0x3a (-9) :=
  (C03_integer_order defaultSymbols _ _).mpr (by decide)
/-- The encoding of `-12` is `//787`. -/
example : encInt 0x2f 0x3a (-12) = [0x2f, 0x2f, 0x37, 0x38, 0x37] := by
  simp [encInt, unique, toDec, Elen.flip, flipChar, isDigit, digitChar]

/-- Outside the property's range: symbols that are not around the digits break the order. The
configuration reader only checks that the negative symbol is below the positive one. -/
theorem C03_bad_symbols_false :
    ∃ neg pos : UInt8, neg < pos ∧ ∃ v w : Int, v < w ∧ ¬ encInt neg pos v < encInt neg pos w := by
  refine ⟨0x61, 0x62, by decide, -1, 0, by decide, ?_⟩
  simp [encInt, unique, toDec, Elen.flip, flipChar, isDigit, digitChar]
  decide

/-- C05. The stored form of an integer is not a prefix of that of another integer. -/
theorem C05_integer_prefix_free {neg pos : UInt8} (hs : Symbols neg pos) (v w : Int)
    (h : encInt neg pos v <+: encInt neg pos w) : v = w := by
  rcases Int.lt_trichotomy v w with h1 | h1 | h1
  · exact absurd h ((encInt_diff hs h1).not_prefix u8_lt_irrefl)
  · exact h1
  · exact absurd h ((encInt_diff hs h1).not_prefix' u8_lt_irrefl)

/-- C05, consequence: what follows an integer cannot change its order. -/
theorem C05_order_stable {neg pos : UInt8} (hs : Symbols neg pos) (v w : Int) (x y : Bytes)
    (h : v < w) : encInt neg pos v ++ x < encInt neg pos w ++ y :=
  ((encInt_diff hs h).append x y).lt

example : ¬ encInt 0x2f 0x3a 1 <+: encInt 0x2f 0x3a 10 := by
  intro h; have := C05_integer_prefix_free defaultSymbols _ _ h; omega

/-- C06. Keys of one subject with integer predicates are ordered as the predicates. -/
theorem C06_predicate_order {neg pos : UInt8} (hs : Symbols neg pos) (s : Val) (t : Nat)
    (v w : Int) :
    spToKey s ⟨encInt neg pos v, t⟩ < spToKey s ⟨encInt neg pos w, t⟩ ↔ v < w := by
  have key : ∀ v w, v < w →
      spToKey s ⟨encInt neg pos v, t⟩ < spToKey s ⟨encInt neg pos w, t⟩ := by
    intro v w h
    exact (((encInt_diff hs h).prefix s.bytes).append _ _).lt
  constructor
  · intro h
    rcases Int.lt_trichotomy v w with h1 | h1 | h1
    · exact h1
    · subst h1; exact absurd h (bytes_lt_irrefl _)
    · exact absurd h (bytes_lt_asymm (key _ _ h1))
  · exact key v w

/-- C06 for subjects: keys with integer subjects are grouped and ordered by subject, whatever the
predicates and types are. -/
theorem C06_subject_order {neg pos : UInt8} (hs : Symbols neg pos) (p p' : Val) (t t' : Nat)
    (v w : Int) (h : v < w) :
    spToKey ⟨encInt neg pos v, t⟩ p < spToKey ⟨encInt neg pos w, t'⟩ p' := by
  have := (((encInt_diff hs h).append p.bytes p'.bytes).append
    (0xff :: (leBytes 8 (encInt neg pos v).length ++ leBytes 8 p.bytes.length
      ++ [UInt8.ofNat t, UInt8.ofNat p.typ]))
    (0xff :: (leBytes 8 (encInt neg pos w).length ++ leBytes 8 p'.bytes.length
      ++ [UInt8.ofNat t', UInt8.ofNat p'.typ]))).lt
  simpa [spToKey] using this

example : spToKey ⟨[0xff, 0x3a], 7⟩ ⟨encInt 0x2f 0x3a 9, 1⟩ <
    spToKey ⟨[0xff, 0x3a], 7⟩ ⟨encInt 0x2f 0x3a 10, 1⟩ :=
  (C06_predicate_order defaultSymbols _ _ _ _).mpr (by decide)

/-- C04, part: every integer of up to 64 bits except the smallest signed one is read back
unchanged, byte for byte.
Missing for the full statement: the smallest value of a signed type, see `C04_int_min_ub`. -/
theorem C04_integer_roundtrip_partial {neg pos : UInt8} (hs : Symbols neg pos) (t : IntType)
    (hw : 0 < t.width) (hw8 : t.width ≤ 8) (m : Bytes) (hm : m.length = t.width)
    (hmin : t.signed = true → ofMem t m ≠ t.min) :
    (encodeMem neg pos t m >>= decodeMem neg pos t) = .ok m := by
  have hr := ofMem_range t hw m hm
  have hback := toMem_ofMem t m hm
  have hpow : 2 ^ (8 * t.width) ≤ 2 ^ 64 := Nat.pow_le_pow_right (by omega) (by omega)
  have hpow1 : (2 : Nat) ^ (8 * t.width - 1) ≤ 2 ^ 64 := Nat.pow_le_pow_right (by omega) (by omega)
  have hmaxle : t.max < 10 ^ 20 := by
    unfold IntType.max; split <;> omega
  have hmm : -(ofMem t m) ≤ t.max := by
    cases hsg : t.signed with
    | true =>
      have := hmin hsg
      unfold IntType.min at this hr
      unfold IntType.max at hr ⊢
      simp only [hsg, if_true] at this hr ⊢
      omega
    | false =>
      unfold IntType.min at hr
      simp only [hsg, if_false, Bool.false_eq_true] at hr
      omega
  generalize hv : ofMem t m = v at *
  have henc : encodeMem neg pos t m = .ok (encInt neg pos v) := by
    unfold encodeMem encodeInteger
    rw [if_neg (by omega), List.take_of_length_le (by omega), hv, if_neg (by omega)]
  rw [henc]
  simp only [Out.ok_bind, decodeMem]
  have hnp : pos ≠ neg := by
    rintro rfl; have := hs.neg_lt; have := hs.pos_gt; omega
  have hdec : ∃ k, decodeInt neg pos t (encInt neg pos v) = .ok (v, k) := by
    unfold encInt
    split
    · have := decodeInt_unique hs (.inl rfl) t (n := v.natAbs) (by omega) (by omega) (by omega) []
      rw [List.append_nil, if_pos rfl] at this
      exact ⟨_, by rw [this]; congr; omega⟩
    · split
      · have := decodeInt_unique hs (.inr rfl) t (n := v.natAbs) (by omega) (by omega) (by omega) []
        rw [List.append_nil, if_neg hnp] at this
        exact ⟨_, by rw [this]; congr; omega⟩
      · exact ⟨1, by simp [decodeInt]; omega⟩
  obtain ⟨k, hk⟩ := hdec
  rw [hk]
  simp only [Out.ok_bind, hback]

/-- C04 for the unsigned types, in full. -/
theorem C04_unsigned_roundtrip {neg pos : UInt8} (hs : Symbols neg pos) (m : Bytes) :
    (m.length = 4 → (encodeMem neg pos uint32 m >>= decodeMem neg pos uint32) = .ok m) ∧
    (m.length = 8 → (encodeMem neg pos uint64 m >>= decodeMem neg pos uint64) = .ok m) :=
  ⟨fun h => C04_integer_roundtrip_partial hs uint32 (by decide) (by decide) m h (by simp [uint32]),
   fun h => C04_integer_roundtrip_partial hs uint64 (by decide) (by decide) m h (by simp [uint64])⟩

example : (encodeMem 0x2f 0x3a int32 [0xc0, 0x1d, 0xfe, 0xff] >>= decodeMem 0x2f 0x3a int32)
    = .ok [0xc0, 0x1d, 0xfe, 0xff] :=
  C04_integer_roundtrip_partial defaultSymbols int32 (by decide) (by decide) _ rfl
    (fun _ => by decide)

/-- C04 fails at the smallest signed value: negating it (include/utils/elen.tpp:45) is undefined
behaviour. -/
theorem C04_int_min_ub (neg pos : UInt8) :
    encodeMem neg pos int32 [0, 0, 0, 0x80] = .ub ∧
    encodeMem neg pos int64 [0, 0, 0, 0, 0, 0, 0, 0x80] = .ub := by
  constructor <;>
  · unfold encodeMem encodeInteger
    rw [if_neg (by decide), if_pos (by decide)]

/-- An integer subject given with too few bytes is read past its end
(include/datastore/transform.tpp:22-31 ignores the size). -/
theorem C04_short_integer_ub (neg pos : UInt8) (m : Bytes) (h : m.length < 4) :
    encodeMem neg pos int32 m = .ub := by
  unfold encodeMem; rw [if_pos (by exact h)]

/-- What is not the text of an integer is reported: the empty string, a single character other than `0`,
and sign symbols that are not followed by a digit. -/
theorem C04_malformed {neg pos : UInt8} (hs : Symbols neg pos) (t : IntType) :
    decodeMem neg pos t [] = .err ∧ (∀ c, c ≠ 48 → decodeMem neg pos t [c] = .err) ∧
    (∀ pre k rest, (pre = neg ∨ pre = pos) → (∀ c, rest.head? = some c → isDigit c = false ∧ c ≠ pre) →
      decodeMem neg pos t (List.replicate (k + 1) pre ++ rest) = .err) := by
  have herr : ∀ str, decodeInt neg pos t str = .err → decodeMem neg pos t str = .err := by
    intro str h
    unfold decodeMem
    rw [h]
    rfl
  refine ⟨herr _ rfl, fun c hc => herr _ (by simp [decodeInt, hc]), fun pre k rest hpre hrest => herr _ ?_⟩
  have h48 : pre ≠ 48 := by
    have := hs.neg_lt; have := hs.pos_gt
    rcases hpre with rfl | rfl
    · rintro rfl; simp at *
    · rintro rfl; simp at *
  have htake : (List.replicate (k + 1) pre ++ rest).takeWhile (· == pre) = List.replicate (k + 1) pre := by
    rw [List.takeWhile_append_of_pos (by simp)]
    cases rest with
    | nil => simp
    | cons c rest =>
      have := (hrest c rfl).2
      rw [List.takeWhile_cons_of_neg (by simpa using this), List.append_nil]
  have hcount : getPrefixCount pre (List.replicate (k + 1) pre ++ rest) pos neg = .err := by
    unfold getPrefixCount
    rw [if_neg (by rw [List.replicate_succ, List.cons_append, List.head?_cons]; simpa using h48),
      if_neg (by rcases hpre with rfl | rfl <;> simp), htake]
    simp only [List.length_replicate]
    cases rest with
    | nil => simp
    | cons c rest =>
      have := (hrest c rfl).1
      simp [this]
  unfold decodeInt
  cases k with
  | zero =>
    cases rest with
    | nil => simp [h48]
    | cons c rest =>
      simp only [Nat.zero_add, List.replicate_one, List.cons_append, List.nil_append] at hcount ⊢
      rw [hcount]
      rfl
  | succ k =>
    simp only [List.replicate_succ, List.cons_append] at hcount ⊢
    rw [hcount]
    rfl

example : decodeMem 0x2f 0x3a int32 [0x3a, 0x3a, 0x41] = .err :=
  (C04_malformed defaultSymbols int32).2.2 0x3a 1 [0x41] (Or.inr rfl) (fun c h => by cases h; decide)

/-- Decoding never has undefined behaviour: any stored text gives an integer or is reported. (Blanks and signs inside of a text, which
the encoder does not write, are outside of the model, see `parseNum`.) -/
theorem C04_decode_defined (neg pos : UInt8) (t : IntType) (str : Bytes) : decodeMem neg pos t str ≠ .ub := by
  have hbind : ∀ {α β : Type} (x : Out α) (f : α → Out β), x ≠ .ub → (∀ a, f a ≠ .ub) → (x >>= f) ≠ .ub := by
    intro α β x f hx hf
    cases x with
    | ok a => exact hf a
    | err => intro h; cases h
    | ub => exact absurd rfl hx
  have hnext : ∀ pre position len max, next pre neg str position len max ≠ .ub := by
    intro pre position len max
    unfold next
    split
    · simp
    · dsimp only
      split
      · simp
      · split <;> simp
  have hlengths : ∀ pre k len position, lengths pre neg str k len position ≠ .ub := by
    intro pre k
    induction k with
    | zero => intro len position h; cases h
    | succ k ih =>
      intro len position
      exact hbind _ _ (hnext _ _ _ _) (fun a => ih _ _)
  have hcount : ∀ pre, getPrefixCount pre str pos neg ≠ .ub := by
    intro pre
    unfold getPrefixCount
    split
    · simp
    · split
      · simp
      · dsimp only
        split
        · simp
        · split <;> simp
  have hint : decodeInt neg pos t str ≠ .ub := by
    unfold decodeInt
    split
    · simp
    · split <;> simp
    · refine hbind _ _ (hcount _) (fun c => ?_)
      split
      · simp
      · exact hbind _ _ (hlengths _ _ _ _) (fun a => hbind _ _ (hnext _ _ _ _) (fun b => by simp))
  exact hbind _ _ hint (fun a => by simp)

end Hx.Props

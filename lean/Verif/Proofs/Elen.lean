import Verif.Model.Elen

/-!
# Lemmas about the integer encoding
-/

namespace Hx.Elen

/-- The conditions on the sign symbols: below and above the digits. -/
structure Symbols (neg pos : UInt8) : Prop where
  neg_lt : neg.toNat < 48
  pos_gt : 57 < pos.toNat

theorem digitChar_toNat {d : Nat} (h : d < 10) : (digitChar d).toNat = 48 + d := by
  unfold digitChar; rw [UInt8.toNat_ofNat']; omega

theorem isDigit_digitChar {d : Nat} (h : d < 10) : isDigit (digitChar d) = true := by
  simp [isDigit, digitChar_toNat h]; omega

theorem isDigit_iff {c : UInt8} : isDigit c = true ↔ 48 ≤ c.toNat ∧ c.toNat ≤ 57 := by
  simp [isDigit]

theorem toDec_digits (n : Nat) : ∀ c ∈ toDec n, isDigit c = true := by
  induction n using Nat.strongRecOn with
  | _ n ih =>
    unfold toDec
    split
    · rename_i h
      intro c hc
      simp at hc; subst hc
      exact isDigit_digitChar h
    · intro c hc
      rw [List.mem_append] at hc
      rcases hc with hc | hc
      · exact ih _ (by omega) c hc
      · simp at hc; subst hc
        exact isDigit_digitChar (by omega)

theorem flipChar_toNat {c : UInt8} (h : isDigit c = true) :
    (flipChar c).toNat = 105 - c.toNat := by
  have h2 := isDigit_iff.mp h
  have h57 : (57 : UInt8).toNat = 57 := rfl
  have h48 : (48 : UInt8).toNat = 48 := rfl
  unfold flipChar
  rw [if_pos h, UInt8.toNat_add, UInt8.toNat_sub, h57, h48]
  omega

theorem isDigit_flipChar {c : UInt8} (h : isDigit c = true) : isDigit (flipChar c) = true := by
  have := isDigit_iff.mp h
  rw [isDigit_iff, flipChar_toNat h]; omega

theorem flipChar_flipChar {c : UInt8} (h : isDigit c = true) : flipChar (flipChar c) = c := by
  have := isDigit_iff.mp h
  apply UInt8.toNat_inj.mp
  rw [flipChar_toNat (isDigit_flipChar h), flipChar_toNat h]; omega

theorem flip_flip {s : Bytes} (h : ∀ c ∈ s, isDigit c = true) : flip (flip s) = s := by
  unfold flip
  rw [List.map_map]
  conv => rhs; rw [← List.map_id s]
  apply List.map_congr_left
  intro c hc
  exact flipChar_flipChar (h c hc)

@[simp] theorem length_flip (s : Bytes) : (flip s).length = s.length := by simp [flip]

theorem length_toDec_mono {m n : Nat} (h : m ≤ n) : (toDec m).length ≤ (toDec n).length := by
  induction n using Nat.strongRecOn generalizing m with
  | _ n ih =>
    conv => lhs; unfold toDec
    conv => rhs; unfold toDec
    split <;> split
    · simp
    · simp
    · omega
    · have := @ih (n / 10) (by omega) (m / 10) (by omega)
      simpa using this

theorem toDec_lt {m n : Nat} (h : m < n) (hl : (toDec m).length = (toDec n).length) :
    DiffR (fun x y => isDigit x = true ∧ isDigit y = true ∧ x < y) (toDec m) (toDec n) := by
  induction n using Nat.strongRecOn generalizing m with
  | _ n ih =>
    have key : ∀ a b, a < b → b < 10 → isDigit (digitChar a) = true ∧
        isDigit (digitChar b) = true ∧ digitChar a < digitChar b := by
      intro a b hab hb
      refine ⟨isDigit_digitChar (by omega), isDigit_digitChar hb, ?_⟩
      rw [UInt8.lt_iff_toNat_lt, digitChar_toNat (by omega), digitChar_toNat hb]; omega
    rw [toDec.eq_1 m, toDec.eq_1 n] at hl ⊢
    have lm := length_toDec_pos (m / 10)
    have ln := length_toDec_pos (n / 10)
    split at hl <;> split at hl
    · rename_i h1 h2
      rw [if_pos h1, if_pos h2]
      exact DiffR.head (key m n h h2) [] []
    · simp at hl; simp [hl] at ln
    · omega
    · rename_i h1 h2
      rw [if_neg h1, if_neg h2]
      rcases Nat.lt_or_ge (m / 10) (n / 10) with hlt | hge
      · exact (ih (n / 10) (by omega) hlt (by simpa using hl)).append _ _
      · have e : m / 10 = n / 10 := by omega
        rw [e]
        exact DiffR.prefix (DiffR.head (key (m % 10) (n % 10) (by omega) (by omega)) [] []) _

/-- Digits as they are written: flipped when `pre = neg`. -/
def written (pre neg : UInt8) (s : Bytes) : Bytes := if pre = neg then flip s else s

theorem unique_pos (pre neg : UInt8) {n : Nat} (h : n ≠ 0) :
    unique pre neg n = pre :: ((if 2 ≤ (toDec n).length then unique pre neg (toDec n).length else [])
      ++ written pre neg (toDec n)) := by
  conv => lhs; unfold unique
  simp only [if_neg h, written, dite_eq_ite]

theorem written_ne_nil (pre neg : UInt8) (n : Nat) : written pre neg (toDec n) ≠ [] := by
  unfold written
  have := length_toDec_pos n
  intro h
  split at h
  · have : (flip (toDec n)).length = 0 := by rw [h]; rfl
    simp at this; simp [this] at *
  · simp [h] at this

theorem written_digits (pre neg : UInt8) (n : Nat) :
    ∀ c ∈ written pre neg (toDec n), isDigit c = true := by
  unfold written
  split
  · intro c hc
    simp only [flip, List.mem_map] at hc
    obtain ⟨d, hd, rfl⟩ := hc
    exact isDigit_flipChar (toDec_digits n d hd)
  · exact toDec_digits n

/-- Key lemma: encodings of `0 < m < n` with one prefix symbol differ at a first position, by a
relation `R` that the symbol and the written digits obey. -/
theorem unique_diff {R : UInt8 → UInt8 → Prop} {pre neg : UInt8}
    (hdig : ∀ x y, isDigit x = true → isDigit y = true → x < y →
      R (if pre = neg then flipChar x else x) (if pre = neg then flipChar y else y))
    (hpre : ∀ x, isDigit x = true → R x pre)
    {m n : Nat} (hm : m ≠ 0) (h : m < n) :
    DiffR R (unique pre neg m) (unique pre neg n) := by
  induction n using Nat.strongRecOn generalizing m with
  | _ n ih =>
    rw [unique_pos _ _ hm, unique_pos _ _ (by omega : n ≠ 0)]
    apply DiffR.cons
    have hmono := length_toDec_mono (Nat.le_of_lt h)
    rcases Nat.lt_or_ge (toDec m).length (toDec n).length with hlt | hge
    · rw [if_pos (show 2 ≤ (toDec n).length by have := length_toDec_pos m; omega)]
      split
      · rename_i h2
        have := @ih (toDec n).length (length_toDec_lt (by omega)) (toDec m).length
          (by omega) hlt
        exact this.append _ _
      · have : (toDec n).length ≠ 0 := by omega
        rw [unique_pos _ _ this]
        rw [List.nil_append, List.cons_append]
        cases hw : written pre neg (toDec m) with
        | nil => exact absurd hw (written_ne_nil _ _ _)
        | cons c cs =>
          exact DiffR.head (hpre c (written_digits pre neg m c (by simp [hw]))) _ _
    · have e : (toDec m).length = (toDec n).length := by omega
      rw [e]
      apply DiffR.prefix
      have hd := toDec_lt h e
      unfold written
      obtain ⟨p, x, y, s, t, h1, h2, hx, hy, hxy⟩ := hd
      rw [h1, h2]
      have := hdig x y hx hy hxy
      split
      · rename_i hp
        rw [if_pos hp, if_pos hp] at this
        exact ⟨flip p, _, _, flip s, flip t, by simp [flip], by simp [flip], this⟩
      · rename_i hp
        rw [if_neg hp, if_neg hp] at this
        exact ⟨p, x, y, s, t, rfl, rfl, this⟩

theorem unique_ne_nil (pre neg : UInt8) (n : Nat) : unique pre neg n ≠ [] := by
  unfold unique; split <;> simp

theorem unique_head {pre neg : UInt8} {n : Nat} (h : n ≠ 0) :
    ∃ t, unique pre neg n = pre :: t := ⟨_, unique_pos pre neg h⟩

/-- Encodings of two integers `v < w` differ at a first position, the smaller integer having the
smaller byte there. -/
theorem encInt_diff {neg pos : UInt8} (hs : Symbols neg pos) {v w : Int} (h : v < w) :
    DiffR (· < ·) (encInt neg pos v) (encInt neg pos w) := by
  have hne : neg < pos := by
    rw [UInt8.lt_iff_toNat_lt]; have := hs.neg_lt; have := hs.pos_gt; omega
  have hnp : pos ≠ neg := by
    rintro rfl; exact u8_lt_irrefl _ hne
  unfold encInt
  by_cases hv : v < 0
  · rw [if_pos hv]
    by_cases hw : w < 0
    · rw [if_pos hw]
      have := unique_diff (R := fun x y => y < x) (pre := neg) (neg := neg)
        (by
          intro x y hx hy hxy
          simp only [if_pos]
          rw [UInt8.lt_iff_toNat_lt] at hxy ⊢
          rw [flipChar_toNat hx, flipChar_toNat hy]
          have := isDigit_iff.mp hx; have := isDigit_iff.mp hy
          omega)
        (by
          intro x hx
          rw [UInt8.lt_iff_toNat_lt]
          have := isDigit_iff.mp hx; have := hs.neg_lt; omega)
        (m := w.natAbs) (n := v.natAbs) (by omega) (by omega)
      exact this.swap
    · rw [if_neg hw]
      obtain ⟨t, ht⟩ := unique_head (pre := neg) (neg := neg) (n := v.natAbs) (by omega)
      rw [ht]
      split
      · obtain ⟨t2, ht2⟩ := unique_head (pre := pos) (neg := neg) (n := w.natAbs) (by omega)
        rw [ht2]
        exact DiffR.head hne _ _
      · exact DiffR.head (by
          rw [UInt8.lt_iff_toNat_lt]; exact hs.neg_lt) _ _
  · rw [if_neg hv, if_neg (show ¬ w < 0 by omega), if_pos (show 0 < w by omega)]
    split
    · exact unique_diff (R := (· < ·)) (pre := pos) (neg := neg)
        (by intro x y _ _ hxy; simpa [if_neg hnp] using hxy)
        (by
          intro x hx
          rw [UInt8.lt_iff_toNat_lt]
          have := isDigit_iff.mp hx; have := hs.pos_gt; omega)
        (by omega) (by omega)
    · obtain ⟨t2, ht2⟩ := unique_head (pre := pos) (neg := neg) (n := w.natAbs) (by omega)
      rw [ht2]
      exact DiffR.head (by
        rw [UInt8.lt_iff_toNat_lt]; have := hs.pos_gt
        have h48 : (48 : UInt8).toNat = 48 := rfl
        omega) _ _

/-! ## Decoding -/

theorem foldl_dec (n : Nat) :
    (toDec n).foldl (fun acc (c : UInt8) => 10 * acc + (c.toNat - 48)) 0 = n := by
  induction n using Nat.strongRecOn with
  | _ n ih =>
    unfold toDec
    split
    · rename_i h
      simp [digitChar_toNat h]
    · rw [List.foldl_append, ih (n / 10) (by omega)]
      simp only [List.foldl_cons, List.foldl_nil, digitChar_toNat (show n % 10 < 10 by omega)]
      omega

theorem takeWhile_all {α : Type} {p : α → Bool} {s : List α} (h : ∀ c ∈ s, p c = true) :
    s.takeWhile p = s := by
  induction s with
  | nil => rfl
  | cons c s ih =>
    rw [List.takeWhile_cons, if_pos (h c (by simp)), ih (fun d hd => h d (by simp [hd]))]

theorem parseNum_toDec (n : Nat) : parseNum (toDec n) = some n := by
  unfold parseNum
  rw [takeWhile_all (toDec_digits n)]
  cases h : toDec n with
  | nil => have := length_toDec_pos n; rw [h] at this; simp at this
  | cons c cs => simp only; rw [← h, foldl_dec]

theorem written_written (pre neg : UInt8) (n : Nat) :
    (if pre = neg then flip (written pre neg (toDec n)) else written pre neg (toDec n)) = toDec n := by
  unfold written
  split
  · exact flip_flip (toDec_digits n)
  · rfl

@[simp] theorem length_written (pre neg : UInt8) (s : Bytes) :
    (written pre neg s).length = s.length := by
  unfold written; split <;> simp

theorem next_written (pre neg : UInt8) (a b : Bytes) (n max : Nat) (hn : n ≤ max) :
    next pre neg (a ++ (written pre neg (toDec n) ++ b)) a.length (toDec n).length max
      = .ok (n, a.length + (toDec n).length) := by
  unfold next
  rw [if_neg (by simp)]
  rw [List.drop_left' rfl, List.take_left' (by simp)]
  simp only [written_written, parseNum_toDec]
  rw [if_neg (by omega)]

/-- Number of prefix symbols at the front of `unique n`. -/
def depth (n : Nat) : Nat :=
  if _h : 2 ≤ (toDec n).length then depth (toDec n).length + 1 else 1
termination_by n
decreasing_by exact length_toDec_lt (by assumption)

/-- Everything after the prefix symbols. -/
def body (pre neg : UInt8) (n : Nat) : Bytes :=
  (if _h : 2 ≤ (toDec n).length then body pre neg (toDec n).length else [])
    ++ written pre neg (toDec n)
termination_by n
decreasing_by exact length_toDec_lt (by assumption)

theorem unique_eq_body (pre neg : UInt8) {n : Nat} (h : n ≠ 0) :
    unique pre neg n = List.replicate (depth n) pre ++ body pre neg n := by
  induction n using Nat.strongRecOn with
  | _ n ih =>
    rw [unique_pos _ _ h, depth, body]
    split
    · rename_i h2
      rw [ih _ (length_toDec_lt h2) (by omega)]
      simp [List.replicate_succ]
    · simp

theorem depth_pos (n : Nat) : 0 < depth n := by unfold depth; split <;> omega

theorem body_digits (pre neg : UInt8) (n : Nat) : ∀ c ∈ body pre neg n, isDigit c = true := by
  induction n using Nat.strongRecOn with
  | _ n ih =>
    rw [body]
    intro c hc
    rw [List.mem_append] at hc
    rcases hc with hc | hc
    · split at hc
      · rename_i h2; exact ih _ (length_toDec_lt h2) c hc
      · simp at hc
    · exact written_digits pre neg n c hc

theorem body_ne_nil (pre neg : UInt8) (n : Nat) : body pre neg n ≠ [] := by
  rw [body]
  intro h
  exact written_ne_nil pre neg n (List.append_eq_nil_iff.mp h).2

/-- The part of the body before the last number. -/
def bodyHead (pre neg : UInt8) (n : Nat) : Bytes :=
  if 2 ≤ (toDec n).length then body pre neg (toDec n).length else []

theorem body_eq (pre neg : UInt8) (n : Nat) :
    body pre neg n = bodyHead pre neg n ++ written pre neg (toDec n) := by
  rw [body, bodyHead]; simp only [dite_eq_ite]

theorem lengths_snoc (pre neg : UInt8) (str : Bytes) (k len pos : Nat) :
    lengths pre neg str (k + 1) len pos =
      (do let (l, p) ← lengths pre neg str k len pos
          next pre neg str p l (2 ^ 64 - 1)) := by
  induction k generalizing len pos with
  | zero =>
    simp only [lengths, Out.ok_bind]
    cases next pre neg str pos len (2 ^ 64 - 1) <;> simp
  | succ k ih =>
    rw [lengths]
    conv => rhs; rw [lengths]
    cases next pre neg str pos len (2 ^ 64 - 1) with
    | ok a => simp only [Out.ok_bind]; exact ih _ _
    | err => rfl
    | ub => rfl

/-- Running the nested-length loop over the front of `body n` stops at the last number with the
right length. -/
theorem lengths_body (pre neg : UInt8) {n : Nat} (hn : n < 10 ^ 20)
    (a b : Bytes) :
    lengths pre neg (a ++ (body pre neg n ++ b)) (depth n - 1) 1 a.length
      = .ok ((toDec n).length, a.length + (bodyHead pre neg n).length) := by
  induction n using Nat.strongRecOn generalizing b with
  | _ n ih =>
    rw [depth]
    split
    · rename_i h2
      have hlt := length_toDec_lt h2
      have hd := depth_pos (toDec n).length
      obtain ⟨k, hk⟩ : ∃ k, depth (toDec n).length = k + 1 := ⟨_, (Nat.succ_pred_eq_of_pos hd).symm⟩
      have hbig : (toDec n).length ≤ 2 ^ 64 - 1 := by
        have : ∀ k m, m < 10 ^ k → 0 < k → (toDec m).length ≤ k := by
          intro k
          induction k with
          | zero => intro m _ h; omega
          | succ k ihk =>
            intro m hm _
            unfold toDec
            split
            · simp
            · rcases Nat.eq_zero_or_pos k with rfl | hk0
              · omega
              · have := ihk (m / 10) (by rw [Nat.pow_succ] at hm; omega) hk0
                simp; omega
        have := this _ _ hn (by omega)
        omega
      have hbh : bodyHead pre neg n = body pre neg (toDec n).length := by
        rw [bodyHead, if_pos h2]
      rw [show depth (toDec n).length + 1 - 1 = k + 1 by omega, lengths_snoc]
      have ihn := ih (toDec n).length hlt (by omega) (written pre neg (toDec n) ++ b)
      rw [show depth (toDec n).length - 1 = k by omega] at ihn
      rw [body_eq, hbh, List.append_assoc, ihn]
      simp only [Out.ok_bind]
      rw [body_eq pre neg (toDec n).length]
      have := next_written pre neg (a ++ bodyHead pre neg (toDec n).length)
        (written pre neg (toDec n) ++ b) (toDec n).length (2 ^ 64 - 1) hbig
      simp only [List.length_append, List.append_assoc] at this
      simp only [List.append_assoc]
      rw [this]
      simp [Nat.add_assoc]
    · rename_i h2
      have h1 := length_toDec_pos n
      simp only [Nat.sub_self, lengths, bodyHead, if_neg h2, List.length_nil, Nat.add_zero,
        Out.ok.injEq, Prod.mk.injEq, and_true]
      omega

theorem takeWhile_replicate (pre : UInt8) (k : Nat) (s : Bytes)
    (h : ∀ c ∈ s.head?, c ≠ pre) :
    (List.replicate k pre ++ s).takeWhile (· == pre) = List.replicate k pre := by
  induction k with
  | zero =>
    cases s with
    | nil => rfl
    | cons c s =>
      have := h c (by simp)
      simp [this]
  | succ k ih => simp [List.replicate_succ, ih]

/-- Decoding the encoding of a positive magnitude with sign symbol `pre`, whatever follows. -/
theorem decodeInt_unique {neg pos : UInt8} (hs : Symbols neg pos) {pre : UInt8}
    (hpre : pre = neg ∨ pre = pos) (t : IntType) {n : Nat} (h0 : n ≠ 0)
    (hn : n < 10 ^ 20) (hmax : (n : Int) ≤ t.max) (b : Bytes) :
    decodeInt neg pos t (unique pre neg n ++ b)
      = .ok (if pre = neg then -(n : Int) else n, (unique pre neg n).length) := by
  have hsneg := hs.neg_lt
  have hspos := hs.pos_gt
  have hpd : isDigit pre = false := by
    rcases hpre with rfl | rfl <;> simp [isDigit] <;> omega
  have hp48 : pre ≠ 48 := by rintro rfl; simp [isDigit] at hpd
  rw [unique_eq_body pre neg h0]
  have hd := depth_pos n
  obtain ⟨k, hk⟩ : ∃ k, depth n = k + 1 := ⟨_, (Nat.succ_pred_eq_of_pos hd).symm⟩
  obtain ⟨c, cs, hc⟩ : ∃ c cs, body pre neg n = c :: cs := by
    cases hb : body pre neg n with
    | nil => exact absurd hb (body_ne_nil _ _ _)
    | cons c cs => exact ⟨c, cs, rfl⟩
  have hcd : isDigit c = true := body_digits pre neg n c (by simp [hc])
  have hcp : c ≠ pre := by rintro rfl; rw [hpd] at hcd; cases hcd
  have hstr : List.replicate (depth n) pre ++ body pre neg n ++ b =
      pre :: (List.replicate k pre ++ (body pre neg n ++ b)) := by
    rw [hk]; simp [List.replicate_succ]
  have htw : ((List.replicate (depth n) pre ++ body pre neg n ++ b).takeWhile (· == pre)).length
      = depth n := by
    rw [List.append_assoc, takeWhile_replicate _ _ _ (by rw [hc]; simp [hcp])]
    simp
  have hget : (List.replicate (depth n) pre ++ body pre neg n ++ b)[depth n]? = some c := by
    rw [List.append_assoc, List.getElem?_append_right (by simp), hc]; simp
  have hcount : getPrefixCount pre (List.replicate (depth n) pre ++ body pre neg n ++ b) pos neg
      = .ok (depth n) := by
    unfold getPrefixCount
    rw [if_neg (by rw [hstr]; simp [hp48]), if_neg (by rcases hpre with rfl | rfl <;> simp)]
    simp only [htw, hget, hcd, if_true]
  obtain ⟨x, xs, hx⟩ : ∃ x xs, List.replicate k pre ++ (body pre neg n ++ b) = x :: xs := by
    cases hb : List.replicate k pre ++ (body pre neg n ++ b) with
    | nil => rw [hc] at hb; simp at hb
    | cons x xs => exact ⟨x, xs, rfl⟩
  generalize hS : List.replicate (depth n) pre ++ body pre neg n ++ b = S at *
  have hlen := lengths_body pre neg hn (List.replicate (depth n) pre) b
  rw [← List.append_assoc, hS, List.length_replicate] at hlen
  have hnext := next_written pre neg (List.replicate (depth n) pre ++ bodyHead pre neg n) b n
    t.max.toNat (by omega)
  have hS2 : List.replicate (depth n) pre ++ bodyHead pre neg n ++ (written pre neg (toDec n) ++ b)
      = S := by
    rw [← hS, body_eq]; simp
  rw [hS2, List.length_append, List.length_replicate] at hnext
  have : decodeInt neg pos t S = (do
      let count ← getPrefixCount pre S pos neg
      if count = 0 then .err
      else
        let (len, position) ← lengths pre neg S (count - 1) 1 count
        let (v, _) ← next pre neg S position len t.max.toNat
        .ok (if pre = neg then -(v : Int) else v, position + len)) := by
    rw [hstr, hx]; rfl
  rw [this, hcount]
  simp only [Out.ok_bind]
  rw [if_neg (by omega), hlen]
  simp only [Out.ok_bind]
  rw [hnext]
  simp only [Out.ok_bind, Out.ok.injEq, Prod.mk.injEq, true_and]
  rw [body_eq]; simp [Nat.add_assoc]

/-! ## Memory representation -/

theorem toMem_ofMem (t : IntType) (m : Bytes) (hm : m.length = t.width) :
    toMem t (ofMem t m) = m := by
  unfold toMem ofMem
  have hlt := leVal_lt m
  rw [hm] at hlt
  have hp : (256 : Nat) ^ t.width = 2 ^ (8 * t.width) := by
    rw [Nat.pow_mul]
  rw [hp] at hlt
  have : ((if t.signed = true ∧ 2 ^ (8 * t.width - 1) ≤ leVal m then
      (leVal m : Int) - (2 ^ (8 * t.width) : Nat) else (leVal m : Int))
      % ((2 ^ (8 * t.width) : Nat) : Int)).toNat = leVal m := by
    generalize 2 ^ (8 * t.width) = M at *
    split
    · rw [Int.sub_emod_right, Int.emod_eq_of_lt (by omega) (by omega)]; omega
    · rw [Int.emod_eq_of_lt (by omega) (by omega)]; omega
  simp only [this]
  rw [← hm, leBytes_leVal]

theorem ofMem_range (t : IntType) (hw : 0 < t.width) (m : Bytes) (hm : m.length = t.width) :
    t.min ≤ ofMem t m ∧ ofMem t m ≤ t.max := by
  unfold ofMem IntType.min IntType.max
  have hlt := leVal_lt m
  rw [hm] at hlt
  have hp : (256 : Nat) ^ t.width = 2 ^ (8 * t.width) := by
    rw [Nat.pow_mul]
  rw [hp] at hlt
  have h2 : (2 : Nat) ^ (8 * t.width) = 2 * 2 ^ (8 * t.width - 1) := by
    conv => lhs; rw [show 8 * t.width = (8 * t.width - 1) + 1 by omega, Nat.pow_succ]
    omega
  rw [h2] at hlt ⊢
  generalize 2 ^ (8 * t.width - 1) = M at *
  cases t.signed
  · simp; omega
  · simp only [true_and, if_true]
    split <;> omega

end Hx.Elen

import Verif.Spec.Cli
import Verif.Proofs.Options
import Verif.Proofs.Decimals

/-!
# Lemmas about reading commands
-/

namespace Hx.Cli
open Hx Spec Store Elen
open Hx.Config (str takeWord getLines)
open Hx.Spec.Config (Blank Word Decimal Lines)
open Hx.Spec.Cli

theorem digit_of {c : UInt8} (h : 48 ≤ c.toNat ∧ c.toNat ≤ 57) :
    Config.isDigit c = true ∧ ¬ Blank c ∧ c ≠ 43 ∧ c ≠ 45 ∧ c ≠ 46 ∧ c ≠ 101 ∧ c ≠ 69 := by
  refine ⟨Config.digit_iff.mpr h, ?_, ?_, ?_, ?_, ?_, ?_⟩
  · unfold Blank; simp only [← UInt8.toNat_inj, UInt8.reduceToNat]; omega
  all_goals simp only [ne_eq, ← UInt8.toNat_inj, UInt8.reduceToNat]; omega

theorem blank_not {c : UInt8} (h : Blank c) : Config.isDigit c = false ∧ c ≠ 46 ∧ c ≠ 101 ∧ c ≠ 69 := by
  rcases h with rfl | rfl | rfl | rfl | rfl | rfl <;> decide

theorem dropSpace {a x : Bytes} (ha : ∀ b ∈ a, Blank b) (hx : ∀ b, x.head? = some b → ¬ Blank b) :
    (a ++ x).dropWhile Config.isSpace = x := by
  rw [Config.dropWhile_append_all fun y hy => (Config.isSpace_iff y).mpr (ha y hy)]
  apply Config.dropWhile_head
  intro b hb
  cases hs : Config.isSpace b with
  | false => rfl
  | true => exact absurd ((Config.isSpace_iff b).mp hs) (hx b hb)

theorem takeSign_eq {sg u : Bytes} {neg : Bool} (h : Sign sg neg) (hu : ∀ b, u.head? = some b → b ≠ 43 ∧ b ≠ 45) :
    takeSign (sg ++ u) = (neg, u) := by
  cases h with
  | none =>
    cases u with
    | nil => rfl
    | cons c cs =>
      have := hu c rfl
      simp only [List.nil_append]
      unfold takeSign
      split
      · next h => simp only [List.cons.injEq] at h; exact absurd h.1 this.2
      · next h => simp only [List.cons.injEq] at h; exact absurd h.1 this.1
      · rfl
  | plus => rfl
  | minus => rfl

theorem sign_head {sg u : Bytes} {neg : Bool} (h : Sign sg neg) (hu : ∀ b, u.head? = some b → ¬ Blank b) :
    ∀ b, (sg ++ u).head? = some b → ¬ Blank b := by
  cases h with
  | none => exact hu
  | plus => intro b hb; cases hb; unfold Blank; decide
  | minus => intro b hb; cases hb; unfold Blank; decide

theorem digits_split {ds rest : Bytes} (hd : Spec.Cli.Digits ds) (hr : ∀ b, rest.head? = some b → Config.isDigit b = false) :
    (ds ++ rest).takeWhile Config.isDigit = ds ∧ (ds ++ rest).dropWhile Config.isDigit = rest := by
  have h := fun c hc => (digit_of (hd c hc)).1
  rw [Config.takeWhile_append_all h, Config.dropWhile_append_all h, Config.takeWhile_head hr, Config.dropWhile_head hr]
  simp

theorem head_append {a b : Bytes} {p : UInt8 → Prop} (ha : ∀ c ∈ a, p c) (hb : ∀ c, b.head? = some c → p c) :
    ∀ c, (a ++ b).head? = some c → p c := by
  intro c hc
  cases a with
  | nil => exact hb c hc
  | cons x xs => cases hc; exact ha _ (by simp)

theorem head_cons {a b : Bytes} {p : UInt8 → Prop} (hne : a ≠ []) (ha : ∀ c ∈ a, p c) :
    ∀ c, (a ++ b).head? = some c → p c := by
  intro c hc
  cases a with
  | nil => exact absurd rfl hne
  | cons x xs => cases hc; exact ha _ (by simp)

/-- Numbers end where there is no more digit. -/
theorem takeNumber_eq {a sg ds rest : Bytes} {neg : Bool} {n : Nat} (ha : ∀ b ∈ a, Blank b) (hs : Sign sg neg) (hd : Decimal ds n)
    (hr : ∀ b, rest.head? = some b → Config.isDigit b = false) :
    takeNumber (a ++ ((sg ++ ds) ++ rest)) = some ((neg, n), rest) := by
  obtain ⟨hne, hd, rfl⟩ := hd
  have h1 : ∀ b, (ds ++ rest).head? = some b → ¬ Blank b := head_cons hne fun c hc => (digit_of (hd c hc)).2.1
  have h2 : ∀ b, (ds ++ rest).head? = some b → b ≠ 43 ∧ b ≠ 45 := head_cons hne fun c hc =>
    ⟨(digit_of (hd c hc)).2.2.1, (digit_of (hd c hc)).2.2.2.1⟩
  unfold takeNumber
  rw [List.append_assoc, dropSpace ha (sign_head hs h1), takeSign_eq hs h2]
  obtain ⟨h3, h4⟩ := digits_split hd hr
  simp only [h3, h4]
  rw [if_neg (by simpa using hne)]
  rfl

theorem takeInt_eq {t : IntType} {a w rest : Bytes} {v : Int} (ha : ∀ b ∈ a, Blank b) (hw : IntText w v)
    (hv : t.min ≤ v ∧ v ≤ t.max) (hr : ∀ b, rest.head? = some b → Config.isDigit b = false) :
    takeInt t (a ++ (w ++ rest)) = some (v, rest) := by
  obtain ⟨sg, neg, ds, n, hs, hd, rfl, rfl⟩ := hw
  unfold takeInt
  rw [takeNumber_eq ha hs hd hr]
  simp only
  cases hg : t.signed with
  | true => simp only [if_true]; rw [if_pos hv]
  | false =>
    simp only [Bool.false_eq_true, if_false]
    simp only [IntType.min, IntType.max, hg, Bool.false_eq_true, if_false] at hv ⊢
    cases neg with
    | false =>
      simp only [Bool.false_eq_true, if_false] at hv ⊢
      rw [if_neg (by omega)]
    | true =>
      simp only [if_true] at hv ⊢
      have : n = 0 := by omega
      subst this
      have hp : 0 < 2 ^ (8 * t.width) := Nat.pow_pos (by decide)
      rw [if_neg (by omega)]
      simp

/-- The negative of an unsigned number is taken modulo the type. -/
theorem takeInt_wrap {t : IntType} {a ds rest : Bytes} {n : Nat} (hu : t.signed = false) (ha : ∀ b ∈ a, Blank b) (hd : Decimal ds n)
    (h0 : 0 < n) (hn : n < 2 ^ (8 * t.width)) (hr : ∀ b, rest.head? = some b → Config.isDigit b = false) :
    takeInt t (a ++ ((45 :: ds) ++ rest)) = some (((2 ^ (8 * t.width) - n : Nat) : Int), rest) := by
  unfold takeInt
  have h := takeNumber_eq (sg := [45]) ha Sign.minus hd hr
  simp only [List.singleton_append] at h
  rw [h]
  simp only [hu, Bool.false_eq_true, if_false, IntType.max, if_true]
  rw [if_neg (by omega), Nat.mod_eq_of_lt (by omega)]

/-! ## Decimal fractions -/

theorem takeExp_eq {expo rest : Bytes} {e : Int}
    (h : (expo = [] ∧ e = 0) ∨ ∃ c x, (c = 101 ∨ c = 69) ∧ IntText x e ∧ expo = c :: x)
    (hr : ∀ b, rest.head? = some b → Blank b) : takeExp (expo ++ rest) = some (e, rest) := by
  have hr' : ∀ b, rest.head? = some b → Config.isDigit b = false := fun b hb => (blank_not (hr b hb)).1
  rcases h with ⟨rfl, rfl⟩ | ⟨c, x, hc, ⟨sg, neg, ds, n, hs, ⟨hne, hd, rfl⟩, rfl, rfl⟩, rfl⟩
  · cases rest with
    | nil => rfl
    | cons b bs =>
      have := blank_not (hr b rfl)
      show takeExp (b :: bs) = _
      unfold takeExp
      simp only
      rw [if_neg (by rintro (h | h) <;> simp_all)]
  · show takeExp (c :: ((sg ++ ds) ++ rest)) = _
    unfold takeExp
    simp only
    have h2 : ∀ b, (ds ++ rest).head? = some b → b ≠ 43 ∧ b ≠ 45 := head_cons hne fun c hc =>
      ⟨(digit_of (hd c hc)).2.2.1, (digit_of (hd c hc)).2.2.2.1⟩
    obtain ⟨h3, h4⟩ := digits_split hd hr'
    rw [if_pos hc, List.append_assoc, takeSign_eq hs h2]
    simp only [h3, h4]
    rw [if_neg (by simpa using hne)]
    rfl

theorem expo_head {expo rest : Bytes} {e : Int}
    (h : (expo = [] ∧ e = 0) ∨ ∃ c x, (c = 101 ∨ c = 69) ∧ IntText x e ∧ expo = c :: x)
    (hr : ∀ b, rest.head? = some b → Blank b) :
    ∀ b, (expo ++ rest).head? = some b → Config.isDigit b = false ∧ b ≠ 46 := by
  rcases h with ⟨rfl, rfl⟩ | ⟨c, x, hc, _, rfl⟩
  · intro b hb; exact ⟨(blank_not (hr b hb)).1, (blank_not (hr b hb)).2.1⟩
  · intro b hb
    cases hb
    rcases hc with rfl | rfl <;> decide

theorem takeFrac_eq {frac point u : Bytes} (hf : Spec.Cli.Digits frac) (hp : point = 46 :: frac ∨ (point = [] ∧ frac = []))
    (hu : ∀ b, u.head? = some b → Config.isDigit b = false ∧ b ≠ 46) : takeFrac (point ++ u) = (frac, u) := by
  rcases hp with rfl | ⟨rfl, rfl⟩
  · obtain ⟨h1, h2⟩ := digits_split hf fun b hb => (hu b hb).1
    show takeFrac (46 :: (frac ++ u)) = _
    unfold takeFrac
    simp only [h1, h2]
  · show takeFrac u = _
    cases u with
    | nil => rfl
    | cons c cs =>
      have := (hu c rfl).2
      unfold takeFrac
      split
      · next h => simp only [List.cons.injEq] at h; exact absurd h.1 this
      · rfl

theorem takeFloat_eq {f : Fp.Fmt} {a w rest : Bytes} {neg : Bool} {q : ℚ} (ha : ∀ b ∈ a, Blank b) (hw : FloatText w neg q)
    (hk : f.near q < f.top) (hr : ∀ b, rest.head? = some b → Blank b) :
    takeFloat f (a ++ (w ++ rest)) = some (.fin neg (f.val (f.near q)), rest) := by
  obtain ⟨sg, whole, frac, point, expo, e, hs, hwh, hf, hne, hp, he, rfl, rfl⟩ := hw
  have hx := expo_head he hr
  have hpt : ∀ b, (point ++ (expo ++ rest)).head? = some b → Config.isDigit b = false := by
    rcases hp with rfl | ⟨rfl, -⟩
    · intro b hb; cases hb; decide
    · exact fun b hb => (hx b hb).1
  obtain ⟨h1, h2⟩ := digits_split hwh hpt
  have hfirst : ∀ b, (whole ++ (point ++ (expo ++ rest))).head? = some b → (¬ Blank b) ∧ b ≠ 43 ∧ b ≠ 45 := by
    rcases hp with rfl | ⟨rfl, rfl⟩
    · refine head_append (fun c hc => ⟨(digit_of (hwh c hc)).2.1, (digit_of (hwh c hc)).2.2.1, (digit_of (hwh c hc)).2.2.2.1⟩) ?_
      intro c hc; cases hc; unfold Blank; decide
    · refine head_cons (by simpa using hne) fun c hc =>
        ⟨(digit_of (hwh c hc)).2.1, (digit_of (hwh c hc)).2.2.1, (digit_of (hwh c hc)).2.2.2.1⟩
  unfold takeFloat
  have hsplit : sg ++ whole ++ point ++ expo ++ rest = sg ++ (whole ++ (point ++ (expo ++ rest))) := by simp
  rw [hsplit, dropSpace ha (sign_head hs fun b hb => (hfirst b hb).1), takeSign_eq hs fun b hb => (hfirst b hb).2]
  simp only [h1, h2, takeFrac_eq hf hp hx, takeExp_eq he hr]
  rw [if_neg (by simpa using hne)]
  have hround : f.round neg ((Config.digits (whole ++ frac) : ℚ) * 10 ^ (e - frac.length)) =
      .fin neg (f.val (f.near (value (whole ++ frac) * 10 ^ (e - (frac.length : Int))))) := by
    have hd : Config.digits (whole ++ frac) = value (whole ++ frac) := rfl
    unfold Fp.Fmt.round
    rw [hd, if_neg (by omega)]
  rw [hround]

/-! ## Words -/

/-- The reader takes exactly these words. -/
def Reads {α : Type} (r : Reader α) (ws : List Bytes) (x : α) : Prop :=
  ∀ s more, Words s (ws ++ more) → ∃ rest, r s = some (x, rest) ∧ Words rest more

theorem reads_word {w : Bytes} : Reads takeWord [w] w := by
  intro s more h
  cases h with
  | cons ha hw hr h => exact ⟨_, Config.takeWord_eq ha hw hr, h⟩

theorem reads_key {α : Type} {m : List (Bytes × α)} {w : Bytes} {x : α} (hf : find m w = some x) : Reads (takeKey m) [w] x := by
  intro s more h
  obtain ⟨rest, h1, h2⟩ := reads_word s more h
  refine ⟨rest, ?_, h2⟩
  unfold takeKey
  rw [h1]
  simp [hf]

theorem reads_int {t : IntType} {w : Bytes} {v : Int} (hw : IntText w v) (hv : t.min ≤ v ∧ v ≤ t.max) : Reads (takeInt t) [w] v := by
  intro s more h
  cases h with
  | cons ha hw' hr h => exact ⟨_, takeInt_eq ha hw hv fun b hb => (blank_not (hr b hb)).1, h⟩

theorem reads_float {f : Fp.Fmt} {w : Bytes} {neg : Bool} {q : ℚ} (hw : FloatText w neg q) (hk : f.near q < f.top) :
    Reads (takeFloat f) [w] (.fin neg (f.val (f.near q))) := by
  intro s more h
  cases h with
  | cons ha hw' hr h => exact ⟨_, takeFloat_eq ha hw hk hr, h⟩

theorem find_type {t : Nat} (h : IsType t) : find types (typeName t) = some t := by
  obtain ⟨h1, h2⟩ := h
  rcases t with _ | _ | _ | _ | _ | _ | _ | _ | t
  all_goals first | decide +kernel | omega

theorem find_op {op : Nat} (h : op < 5) : find getops (opName op) = some op := by
  rcases op with _ | _ | _ | _ | _ | op
  all_goals first | decide +kernel | omega

theorem valText_type {w : Bytes} {v : Val} (h : ValText w v) : IsType v.typ := by
  unfold IsType
  cases h with
  | @int i t it ht hw hv =>
    have h : t = 1 ∨ t = 2 ∨ t = 3 ∨ t = 4 := by
      by_cases h1 : t = 1
      · exact Or.inl h1
      by_cases h2 : t = 2
      · exact Or.inr (Or.inl h2)
      by_cases h3 : t = 3
      · exact Or.inr (Or.inr (Or.inl h3))
      by_cases h4 : t = 4
      · exact Or.inr (Or.inr (Or.inr h4))
      simp [intType, tInt32, tInt64, tUint32, tUint64, h1, h2, h3, h4] at ht
    show 1 ≤ t ∧ t ≤ 7
    omega
  | @float _ _ t ht hw hk => show 1 ≤ t ∧ t ≤ 7; rcases ht with rfl | rfl <;> decide
  | byte h => show 1 ≤ tByte ∧ tByte ≤ 7; decide

theorem reads_blob {ws : List Bytes} {v : Val} (h : Pair ws v) : Reads takeBlob ws v := by
  obtain ⟨w, rfl, h⟩ := h
  have ht := find_type (valText_type h)
  intro s more hs
  obtain ⟨s1, h1, h2⟩ := reads_key ht s (w :: more) hs
  unfold takeBlob
  rw [h1]
  simp only
  cases h with
  | @int i t it hi hw hv =>
    obtain ⟨s2, h3, h4⟩ := reads_int hw hv s1 more h2
    refine ⟨s2, ?_, h4⟩
    simp only [hi, h3, Option.map_some]
  | @float neg q t hft hw hk =>
    obtain ⟨s2, h3, h4⟩ := reads_float hw hk s1 more h2
    refine ⟨s2, ?_, h4⟩
    have hi : intType t = none := by rcases hft with rfl | rfl <;> rfl
    have hb : t ≠ tByte := by rcases hft with rfl | rfl <;> decide
    simp only [hi, if_neg hb, h3, Option.map_some, Fp.Fmt.bits]
    rw [Fp.Fmt.near_val _ (Nat.le_of_lt hk)]
  | byte hw =>
    obtain ⟨s2, h3, h4⟩ := reads_word s1 more h2
    refine ⟨s2, ?_, h4⟩
    have hi : intType tByte = none := rfl
    simp only [hi, h3, Option.map_some, if_true]

theorem reads_item {x : Item} {ws : List Bytes} (h : Args x ws) : Reads (takeItem (verbOf x)) ws x := by
  intro s more hs
  cases h with
  | put h1 h2 h3 =>
    rw [List.append_assoc, List.append_assoc] at hs
    obtain ⟨s1, e1, hs⟩ := reads_blob h1 s _ hs
    obtain ⟨s2, e2, hs⟩ := reads_blob h2 s1 _ hs
    obtain ⟨s3, e3, hs⟩ := reads_blob h3 s2 _ hs
    exact ⟨s3, by simp [takeItem, verbOf, e1, e2, e3], hs⟩
  | get h1 h2 h3 =>
    rw [List.append_assoc, List.append_assoc] at hs
    obtain ⟨s1, e1, hs⟩ := reads_blob h1 s _ hs
    obtain ⟨s2, e2, hs⟩ := reads_blob h2 s1 _ hs
    obtain ⟨s3, e3, hs⟩ := reads_key (find_type h3) s2 _ hs
    exact ⟨s3, by simp [takeItem, verbOf, e1, e2, e3], hs⟩
  | @getop s' p t n op a b w h1 h2 ht hw hn ho =>
    rw [List.append_assoc, List.append_assoc] at hs
    obtain ⟨s1, e1, hs⟩ := reads_blob h1 s _ hs
    obtain ⟨s2, e2, hs⟩ := reads_blob h2 s1 _ hs
    obtain ⟨s3, e3, hs⟩ := reads_key (find_type ht) s2 (w :: opName op :: more) hs
    have h4 : Reads (takeInt uint64) [w] (n : Int) := reads_int hw (by
      simp only [IntType.min, IntType.max, uint64, Bool.false_eq_true, if_false]; omega)
    obtain ⟨s4, e4, hs⟩ := h4 s3 (opName op :: more) hs
    obtain ⟨s5, e5, hs⟩ := reads_key (find_op ho) s4 more hs
    exact ⟨s5, by simp [takeItem, verbOf, e1, e2, e3, e4, e5], hs⟩
  | del h1 h2 =>
    rw [List.append_assoc] at hs
    obtain ⟨s1, e1, hs⟩ := reads_blob h1 s _ hs
    obtain ⟨s2, e2, hs⟩ := reads_blob h2 s1 _ hs
    exact ⟨s2, by simp [takeItem, verbOf, e1, e2], hs⟩
  | flushPuts => exact ⟨s, rfl, hs⟩
  | flushGets => exact ⟨s, rfl, hs⟩
  | flushDels => exact ⟨s, rfl, hs⟩
  | flush => exact ⟨s, rfl, hs⟩

theorem takeItems_eq {v : Verb} {l : List Item} {ws : List Bytes} (hl : ∀ x ∈ l, verbOf x = v) (h : ArgList l ws) {s : Bytes}
    {more : List Bytes} (hs : Words s (ws ++ more)) : takeItems v l.length s = (l, true) := by
  induction h generalizing s with
  | nil => rfl
  | @cons x l a b hx _ ih =>
    rw [List.append_assoc] at hs
    obtain ⟨s1, h1, h2⟩ := reads_item hx s _ hs
    rw [hl x (by simp)] at h1
    have h3 := ih (fun y hy => hl y (by simp [hy])) h2
    simp only [List.length_cons, takeItems, h1, h3]

theorem takeItems_length (v : Verb) (n : Nat) (s : Bytes) :
    (takeItems v n s).1.length ≤ n ∧ ((takeItems v n s).2 = true ↔ (takeItems v n s).1.length = n) := by
  induction n generalizing s with
  | zero => exact ⟨Nat.le_refl _, by simp [takeItems]⟩
  | succ n ih =>
    unfold takeItems
    cases h : takeItem v s with
    | none => simp
    | some x =>
      have := ih x.2
      simp only [List.length_cons]
      exact ⟨by omega, this.2.trans (by omega)⟩

theorem takeItem_verb {v : Verb} {s : Bytes} {x : Item × Bytes} (h : takeItem v s = some x) : verbOf x.1 = v := by
  cases v <;> simp only [takeItem, Option.bind_eq_bind, Option.bind_eq_some_iff, Option.some.injEq] at h
  · obtain ⟨_, _, _, _, _, _, rfl⟩ := h; rfl
  · obtain ⟨_, _, _, _, _, _, rfl⟩ := h; rfl
  · obtain ⟨_, _, _, _, _, _, _, _, _, _, rfl⟩ := h; rfl
  · obtain ⟨_, _, _, _, rfl⟩ := h; rfl
  all_goals subst h; rfl

theorem takeItems_verb (v : Verb) (n : Nat) (s : Bytes) : ∀ x ∈ (takeItems v n s).1, verbOf x = v := by
  induction n generalizing s with
  | zero => intro x hx; cases hx
  | succ n ih =>
    unfold takeItems
    cases h : takeItem v s with
    | none => intro x hx; cases hx
    | some y =>
      intro x hx
      rcases List.mem_cons.mp hx with rfl | hx
      · exact takeItem_verb h
      · exact ih _ x hx

/-! ## Lines -/

theorem find_verb (v : Verb) : find verbs (str (verbName v)) = some (v, false) := by
  cases v <;> decide +kernel

theorem find_bulk {v : Verb} (h : HasBulk v) : find verbs (str ("B" ++ verbName v)) = some (v, true) := by
  rcases h with rfl | rfl | rfl | rfl <;> decide +kernel

theorem verbs_named : ∀ x ∈ verbs, (∃ v, x.1 = str (verbName v)) ∨ ∃ v, HasBulk v ∧ x.1 = str ("B" ++ verbName v) := by
  have h : ∀ x ∈ verbs, x.1 = if x.2.2 then str ("B" ++ verbName x.2.1) else str (verbName x.2.1) := by decide +kernel
  have hb : ∀ x ∈ verbs, x.2.2 = true → x.2.1 = .put ∨ x.2.1 = .get ∨ x.2.1 = .getop ∨ x.2.1 = .del := by decide +kernel
  intro x hx
  have h1 := h x hx
  cases hk : x.2.2 with
  | false => rw [hk] at h1; exact .inl ⟨x.2.1, h1⟩
  | true => rw [hk] at h1; exact .inr ⟨x.2.1, hb x hx hk, h1⟩

theorem parseLine_one {v : Verb} {line : Bytes} {ws : List Bytes} (h : Words line (str (verbName v) :: ws)) :
    ∃ s, Words s ws ∧ parseLine line = ((takeItems v 1 s).1, if (takeItems v 1 s).2 then none else some (.format line v false)) := by
  obtain ⟨s, h1, h2⟩ := reads_word line ws h
  refine ⟨s, h2, ?_⟩
  unfold parseLine
  simp only [h1, find_verb, Bool.false_eq_true, if_false]
  rfl

theorem parseLine_bulk {v : Verb} (hv : HasBulk v) {line : Bytes} {w : Bytes} {ws : List Bytes} {n : Nat}
    (h : Words line (str ("B" ++ verbName v) :: w :: ws)) (hn : Reads (takeInt uint64) [w] (n : Int)) :
    ∃ s, Words s ws ∧ parseLine line = ((takeItems v n s).1, if (takeItems v n s).2 then none else some (.format line v true)) := by
  obtain ⟨s, h1, h2⟩ := reads_word line _ h
  obtain ⟨s2, h3, h4⟩ := hn s ws h2
  refine ⟨s2, h4, ?_⟩
  unfold parseLine
  simp only [h1, find_bulk hv, if_true, h3, Int.toNat_natCast]

theorem parse_lines {text : Bytes} {ls : List Bytes} (h : Lines text ls) :
    parse text = ((ls.map parseLine).flatMap Prod.fst, (ls.map parseLine).filterMap Prod.snd) := by
  obtain ⟨hne, hn, rfl⟩ := h
  unfold parse
  simp only
  have key : ∀ ls : List Bytes, ls ≠ [] → (∀ l ∈ ls, (10 : UInt8) ∉ l) →
      ∃ tail, getLines [] (List.intercalate [10] ls) ++ tail = ls ∧ (tail = [] ∨ tail = [[]]) := by
    intro ls hne hn
    induction ls with
    | nil => exact absurd rfl hne
    | cons l r ih =>
      have hl : (10 : UInt8) ∉ l := hn l (by simp)
      cases r with
      | nil =>
        have : getLines [] (List.intercalate [10] [l]) = if l.isEmpty then [] else [l] := by
          rw [show List.intercalate [10] [l] = l ++ [] by simp [List.intercalate], Config.getLines_append hl]
          rfl
        rw [this]
        cases l with
        | nil => exact ⟨[[]], rfl, Or.inr rfl⟩
        | cons b bs => exact ⟨[], rfl, Or.inl rfl⟩
      | cons l2 r2 =>
        have : getLines [] (List.intercalate [10] (l :: l2 :: r2)) =
            l :: getLines [] (List.intercalate [10] (l2 :: r2)) := by
          rw [show List.intercalate [10] (l :: l2 :: r2) = l ++ (10 :: List.intercalate [10] (l2 :: r2)) by
            simp [List.intercalate, List.intersperse], Config.getLines_append hl]
          rw [List.nil_append]
          show getLines l (10 :: _) = _
          rw [getLines, if_pos rfl]
        obtain ⟨tail, h1, h2⟩ := ih (by simp) fun x hx => hn x (by simp [hx])
        exact ⟨tail, by rw [this, List.cons_append, h1], h2⟩
  obtain ⟨tail, h1, h2⟩ := key ls hne hn
  have hp : parseLine [] = ([], none) := rfl
  conv => rhs; rw [← h1]
  rcases h2 with rfl | rfl
  · rw [List.append_nil]
  · simp only [List.map_append, List.map_cons, List.map_nil, hp, List.flatMap_append, List.filterMap_append]
    simp

/-! ## What is refused -/

theorem takeInt_refused {t : IntType} {a w rest : Bytes} {v : Int} (ha : ∀ b ∈ a, Blank b) (hw : IntText w v)
    (hv : if t.signed then ¬ (t.min ≤ v ∧ v ≤ t.max) else t.max < v.natAbs) (hr : ∀ b, rest.head? = some b → Config.isDigit b = false) :
    takeInt t (a ++ (w ++ rest)) = none := by
  obtain ⟨sg, neg, ds, n, hs, hd, rfl, rfl⟩ := hw
  unfold takeInt
  rw [takeNumber_eq ha hs hd hr]
  simp only
  cases hg : t.signed with
  | true => rw [hg, if_pos rfl] at hv; simp only [if_true]; rw [if_neg hv]
  | false =>
    rw [hg] at hv
    simp only [Bool.false_eq_true, if_false] at hv ⊢
    have : (if neg then -(n : Int) else n).natAbs = n := by cases neg <;> simp
    rw [this] at hv
    rw [if_pos hv]

theorem takeFloat_refused {f : Fp.Fmt} {a w rest : Bytes} {neg : Bool} {q : ℚ} (ha : ∀ b ∈ a, Blank b) (hw : FloatText w neg q)
    (hk : f.top ≤ f.near q) (hr : ∀ b, rest.head? = some b → Blank b) : takeFloat f (a ++ (w ++ rest)) = none := by
  obtain ⟨sg, whole, frac, point, expo, e, hs, hwh, hf, hne, hp, he, rfl, rfl⟩ := hw
  have hx := expo_head he hr
  have hpt : ∀ b, (point ++ (expo ++ rest)).head? = some b → Config.isDigit b = false := by
    rcases hp with rfl | ⟨rfl, -⟩
    · intro b hb; cases hb; decide
    · exact fun b hb => (hx b hb).1
  obtain ⟨h1, h2⟩ := digits_split hwh hpt
  have hfirst : ∀ b, (whole ++ (point ++ (expo ++ rest))).head? = some b → (¬ Blank b) ∧ b ≠ 43 ∧ b ≠ 45 := by
    rcases hp with rfl | ⟨rfl, rfl⟩
    · refine head_append (fun c hc => ⟨(digit_of (hwh c hc)).2.1, (digit_of (hwh c hc)).2.2.1, (digit_of (hwh c hc)).2.2.2.1⟩) ?_
      intro c hc; cases hc; unfold Blank; decide
    · refine head_cons (by simpa using hne) fun c hc =>
        ⟨(digit_of (hwh c hc)).2.1, (digit_of (hwh c hc)).2.2.1, (digit_of (hwh c hc)).2.2.2.1⟩
  unfold takeFloat
  have hsplit : sg ++ whole ++ point ++ expo ++ rest = sg ++ (whole ++ (point ++ (expo ++ rest))) := by simp
  rw [hsplit, dropSpace ha (sign_head hs fun b hb => (hfirst b hb).1), takeSign_eq hs fun b hb => (hfirst b hb).2]
  simp only [h1, h2, takeFrac_eq hf hp hx, takeExp_eq he hr]
  rw [if_neg (by simpa using hne)]
  have hround : f.round neg ((Config.digits (whole ++ frac) : ℚ) * 10 ^ (e - frac.length)) = .inf neg := by
    have hd : Config.digits (whole ++ frac) = value (whole ++ frac) := rfl
    unfold Fp.Fmt.round
    rw [hd, if_pos (Nat.le_antisymm (f.near_le_top _) hk)]
  rw [hround]

theorem takeNumber_letter {a w rest : Bytes} {c : UInt8} (ha : ∀ b ∈ a, Blank b)
    (hc : Config.isDigit c = false ∧ ¬ Blank c ∧ c ≠ 43 ∧ c ≠ 45) : takeNumber (a ++ ((c :: w) ++ rest)) = none := by
  unfold takeNumber
  have hh : ∀ b, ((c :: w) ++ rest).head? = some b → ¬ Blank b := by intro b hb; cases hb; exact hc.2.1
  have ht : takeSign ((c :: w) ++ rest) = (false, (c :: w) ++ rest) :=
    takeSign_eq (sg := []) Sign.none (by intro b hb; cases hb; exact hc.2.2)
  rw [dropSpace ha hh, ht]
  simp [List.takeWhile_cons, hc.1]

/-- The reader fails on these words. -/
def Refuses {α : Type} (r : Reader α) (ws : List Bytes) : Prop := ∀ s more, Words s (ws ++ more) → r s = none

theorem refuses_letter {t : IntType} {w : Bytes} {c : UInt8} (hc : Config.isDigit c = false ∧ ¬ Blank c ∧ c ≠ 43 ∧ c ≠ 45) :
    Refuses (takeInt t) [c :: w] := by
  intro s more h
  cases h with
  | cons ha hw' hr h => unfold takeInt; rw [takeNumber_letter ha hc]

theorem typeName_letter {t : Nat} (h : IsType t) :
    ∃ c w, typeName t = c :: w ∧ Config.isDigit c = false ∧ ¬ Blank c ∧ c ≠ 43 ∧ c ≠ 45 := by
  obtain ⟨h1, h2⟩ := h
  unfold Blank
  rcases t with _ | _ | _ | _ | _ | _ | _ | _ | t
  all_goals first | omega | exact ⟨_, _, rfl, by decide +kernel⟩

theorem refuses_blob_int {t : Nat} {it : IntType} {w : Bytes} {v : Int} (ht : intType t = some it) (hn : IsType t) (hw : IntText w v)
    (hv : if it.signed then ¬ (it.min ≤ v ∧ v ≤ it.max) else it.max < v.natAbs) : Refuses takeBlob [typeName t, w] := by
  intro s more hs
  obtain ⟨s1, h1, h2⟩ := reads_key (find_type hn) s (w :: more) hs
  unfold takeBlob
  rw [h1]
  simp only [ht]
  cases h2 with
  | cons ha hw' hr h => rw [takeInt_refused ha hw hv fun b hb => (blank_not (hr b hb)).1]; rfl

theorem refuses_blob_float {t : Nat} {w : Bytes} {neg : Bool} {q : ℚ} (ht : t = tFloat ∨ t = tDouble) (hw : FloatText w neg q)
    (hk : (Fp.fmtOf t).top ≤ (Fp.fmtOf t).near q) : Refuses takeBlob [typeName t, w] := by
  intro s more hs
  have hn : IsType t := by unfold IsType; rcases ht with rfl | rfl <;> decide
  obtain ⟨s1, h1, h2⟩ := reads_key (find_type hn) s (w :: more) hs
  unfold takeBlob
  rw [h1]
  have hi : intType t = none := by rcases ht with rfl | rfl <;> rfl
  have hb : t ≠ tByte := by rcases ht with rfl | rfl <;> decide
  simp only [hi, if_neg hb]
  cases h2 with
  | cons ha hw' hr h => rw [takeFloat_refused ha hw hk hr]; rfl

theorem refuses_line {v : Verb} (hv : HasBulk v) {line : Bytes} {ws more : List Bytes} (h : Refuses takeBlob ws)
    (hw : Words line (str (verbName v) :: (ws ++ more))) : parseLine line = ([], some (.format line v false)) := by
  obtain ⟨s, h1, h2⟩ := parseLine_one hw
  have h3 := h s more h1
  have h4 : takeItem v s = none := by
    rcases hv with rfl | rfl | rfl | rfl <;> simp [takeItem, h3]
  rw [h2]
  simp [takeItems, h4]

theorem lines_append {a b : Bytes} {la lb : List Bytes} (ha : Lines a la) (hb : Lines b lb) : Lines (a ++ 10 :: b) (la ++ lb) := by
  obtain ⟨h1, h2, rfl⟩ := ha
  obtain ⟨h3, h4, rfl⟩ := hb
  refine ⟨by simp [h1], ?_, ?_⟩
  · intro l hl
    rcases List.mem_append.mp hl with hl | hl
    · exact h2 l hl
    · exact h4 l hl
  · clear h2 h4
    induction la with
    | nil => exact absurd rfl h1
    | cons x xs ih =>
      cases xs with
      | nil =>
        cases lb with
        | nil => exact absurd rfl h3
        | cons y ys => simp [List.intercalate, List.intersperse]
      | cons x2 xs2 =>
        have := ih (by simp)
        simp only [List.intercalate, List.intersperse, List.flatten_cons, List.cons_append, List.append_assoc, List.nil_append] at this ⊢
        rw [this]

end Hx.Cli

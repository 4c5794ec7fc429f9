import Verif.Proofs.Cli

/-!
# C73: reading commands

`examples/hxhim/cli.cpp` reads one operation, or several of one kind, from each line of its input. What a line says is defined
on its words (Verif/Spec/Cli.lean), and words are read as written. What is not as the help text says is stated below as well:
more words are ignored, a refused line leaves its first operations, and negative numbers become unsigned ones.
-/

namespace Hx.Props
open Hx Spec Store Elen Cli
open Hx.Config (str)
open Hx.Spec.Config (Blank Word Decimal Lines)
open Hx.Spec.Cli

/-- A line is read as written. -/
theorem C73_line {line : Bytes} {ws : List Bytes} {items : List Item} (hl : Words line ws) (h : Asks ws items) :
    parseLine line = (items, none) := by
  cases h with
  | blank =>
    cases hl with
    | nil h =>
      unfold parseLine
      have : Config.takeWord line = none := Config.takeWord_none.mpr h
      rw [this]
  | @one x a h =>
    obtain ⟨s, h1, h2⟩ := parseLine_one hl
    have h3 : takeItems (verbOf x) 1 s = ([x], true) := by
      refine takeItems_eq (l := [x]) (ws := a ++ []) (more := []) (by simp) (.cons h .nil) ?_
      simpa using h1
    rw [h2, h3]
    rfl
  | @many v l a w hv hv' hn hw h =>
    have hr : Cli.Reads (takeInt uint64) [w] (items.length : Int) := reads_int hw (by
      simp only [IntType.min, IntType.max, uint64, Bool.false_eq_true, if_false]; omega)
    obtain ⟨s, h1, h2⟩ := parseLine_bulk hv hl hr
    rw [h2, takeItems_eq hv' h (more := []) (by simpa using h1)]
    rfl

example : parseLine (str "  BDEL 2 INT32 -5 BYTE ab\tUINT64 7 FLOAT -1.5e1") =
    ([.del ⟨[251, 255, 255, 255], 1⟩ ⟨[97, 98], 7⟩, .del ⟨[7, 0, 0, 0, 0, 0, 0, 0], 4⟩ ⟨[0, 0, 112, 193], 5⟩], none) := by decide +kernel

/-- `Asks` is met by lines like this one. -/
example : ∃ items, Asks [str "GET", str "INT32", str "-5", str "BYTE", str "ab", str "DOUBLE"] items ∧ items.length = 1 := by
  refine ⟨[.get ⟨toMem int32 (-5), tInt32⟩ ⟨str "ab", tByte⟩ 6], ?_, rfl⟩
  have h1 : Pair [str "INT32", str "-5"] ⟨toMem int32 (-5), tInt32⟩ := by
    refine ⟨str "-5", rfl, .int rfl ⟨[45], true, [53], 5, .minus, ⟨by simp, ?_, rfl⟩, by decide +kernel, rfl⟩ (by decide)⟩
    intro c hc; rw [List.mem_singleton.mp hc]; decide
  have h2 : Pair [str "BYTE", str "ab"] ⟨str "ab", tByte⟩ := by
    refine ⟨str "ab", rfl, .byte ⟨by decide +kernel, ?_⟩⟩
    have : str "ab" = [97, 98] := by decide +kernel
    rw [this]
    unfold Blank
    decide
  exact Asks.one (Args.get (t := 6) h1 h2 ⟨by decide, by decide⟩)

/-- More words are ignored, whatever they are. -/
theorem C73_ignored_false {line : Bytes} {w : Bytes} {ws more : List Bytes} {items : List Item} (hl : Words line (w :: ws ++ more))
    (h : Asks (w :: ws) items) : parseLine line = (items, none) := by
  cases h with
  | @one x a h =>
    obtain ⟨s, h1, h2⟩ := parseLine_one hl
    have h3 : takeItems (verbOf x) 1 s = ([x], true) := by
      refine takeItems_eq (l := [x]) (ws := ws ++ []) (more := more) (by simp) (.cons h .nil) ?_
      simpa using h1
    rw [h2, h3]
    rfl
  | @many v l a w hv hv' hn hw h =>
    have hr : Cli.Reads (takeInt uint64) [w] (items.length : Int) := reads_int hw (by
      simp only [IntType.min, IntType.max, uint64, Bool.false_eq_true, if_false]; omega)
    obtain ⟨s, h1, h2⟩ := parseLine_bulk hv hl hr
    rw [h2, takeItems_eq hv' h (more := more) h1]
    rfl

example : parseLine (str "FLUSH PUT INT32 1") = ([.flush], none) := by decide +kernel
example : parseLine (str "BDEL 0 INT32 1 INT32 2") = ([], none) := by decide +kernel

/-- The lines of a text are read one after the other. -/
theorem C73_text {text : Bytes} {ls : List Bytes} {asked : List (List Item)} (ht : Lines text ls)
    (h : List.Forall₂ (fun line items => ∃ ws, Words line ws ∧ Asks ws items) ls asked) : parse text = (asked.flatten, []) := by
  rw [parse_lines ht]
  clear ht
  induction h with
  | nil => rfl
  | cons h _ ih =>
    obtain ⟨ws, h1, h2⟩ := h
    have h3 := congrArg Prod.fst ih
    have h4 := congrArg Prod.snd ih
    simp only at h3 h4
    simp [C73_line h1 h2, h3, h4]

example : parse (str "DEL INT32 1 INT32 2\n\nFLUSH\n") = ([.del ⟨[1, 0, 0, 0], 1⟩ ⟨[2, 0, 0, 0], 1⟩, .flush], []) := by decide +kernel

/-- What comes of a line does not depend on the others. -/
theorem C73_lines (a b : Bytes) : parse (a ++ 10 :: b) = ((parse a).1 ++ (parse b).1, (parse a).2 ++ (parse b).2) := by
  obtain ⟨la, ha⟩ := Config.exists_lines a
  obtain ⟨lb, hb⟩ := Config.exists_lines b
  rw [parse_lines ha, parse_lines hb, parse_lines (lines_append ha hb)]
  simp

/-- A line with several operations is the same as a line for each. -/
theorem C73_bulk {line text : Bytes} {v : Verb} {l : List Item} {w : Bytes} {args : List (List Bytes)} {ls : List Bytes}
    (hv : HasBulk v) (hn : l.length < 2 ^ 64) (hw : IntText w l.length) (hl : ∀ x ∈ l, verbOf x = v)
    (ha : List.Forall₂ Args l args) (hline : Words line (str ("B" ++ verbName v) :: w :: args.flatten))
    (hls : List.Forall₂ (fun ln a => Words ln (str (verbName v) :: a)) ls args) (ht : Lines text ls) :
    parseLine line = ((parse text).1, none) ∧ (parse text).2 = [] := by
  have h1 : ArgList l args.flatten := by
    clear hline hls hl hn hw
    induction ha with
    | nil => exact .nil
    | cons hx _ ih => exact .cons hx ih
  have h2 := C73_line hline (.many hv hl hn hw h1)
  have h3 : parse text = (((l.map fun x => [x])).flatten, []) := by
    refine C73_text ht ?_
    clear hline h1 hn hw h2 ht
    induction ha generalizing ls with
    | nil => cases hls; exact .nil
    | @cons x a l' args' hx _ ih =>
      cases hls with
      | cons hy hys =>
        refine .cons ⟨_, hy, ?_⟩ (ih (fun y hy => hl y (by simp [hy])) hys)
        have := Asks.one hx
        rwa [hl x (by simp)] at this
  have h4 : (l.map fun x => [x]).flatten = l := by
    clear h1 hn hw h2 h3 hl ha
    induction l with
    | nil => rfl
    | cons x l ih => simp [ih]
  rw [h3, h4, h2]
  exact ⟨rfl, rfl⟩

example : parseLine (str "BDEL 2 INT32 1 INT32 2 INT32 3 INT32 4") =
    ((parse (str "DEL INT32 1 INT32 2\nDEL INT32 3 INT32 4")).1, none) := by decide +kernel

/-! ## What is refused -/

/-- A blank line is nothing. -/
theorem C73_blank {line : Bytes} (h : Words line []) : parseLine line = ([], none) := C73_line h .blank

/-- The first word is the name of an operation. -/
theorem C73_unknown {line w : Bytes} {ws : List Bytes} (h : Words line (w :: ws)) (h1 : ∀ v, w ≠ str (verbName v))
    (h2 : ∀ v, HasBulk v → w ≠ str ("B" ++ verbName v)) : parseLine line = ([], some (.operation w)) := by
  obtain ⟨s, h3, -⟩ := reads_word line ws h
  unfold parseLine
  rw [h3]
  have : Cli.find verbs w = none := by
    unfold Cli.find
    rw [Option.map_eq_none_iff, List.find?_eq_none]
    intro x hx
    simp only [beq_iff_eq]
    intro hw
    rcases verbs_named x hx with ⟨v, hv⟩ | ⟨v, hv, hv'⟩
    · exact h1 v (hw.symm.trans hv)
    · exact h2 v hv (hw.symm.trans hv')
  simp only [this]

example : parseLine (str "put INT32 1 INT32 2 INT32 3") = ([], some (.operation (str "put"))) := by decide +kernel
example : parseLine (str "BFLUSH 2") = ([], some (.operation (str "BFLUSH"))) := by decide +kernel

/-- A line for one operation is read as one operation of the kind, or refused. -/
theorem C73_single {line : Bytes} {v : Verb} {ws : List Bytes} (h : Words line (str (verbName v) :: ws)) :
    (∃ x, verbOf x = v ∧ parseLine line = ([x], none)) ∨ parseLine line = ([], some (.format line v false)) := by
  obtain ⟨s, -, h2⟩ := parseLine_one h
  cases ht : takeItem v s with
  | none => exact .inr (by rw [h2]; simp [takeItems, ht])
  | some x => exact .inl ⟨x.1, takeItem_verb ht, by rw [h2]; simp [takeItems, ht]⟩

example : parseLine (str "PUT INT32 1 INT32 2") = ([], some (.format (str "PUT INT32 1 INT32 2") .put false)) := by decide +kernel

/-- A line for `n` operations is accepted if `n` operations of the kind were read; when it is refused there are fewer. -/
theorem C73_several {line w : Bytes} {v : Verb} {ws : List Bytes} {n : Nat} (hv : HasBulk v)
    (h : Words line (str ("B" ++ verbName v) :: w :: ws)) (hw : IntText w n) (hn : n < 2 ^ 64) :
    ∃ xs, (∀ x ∈ xs, verbOf x = v) ∧
      ((parseLine line = (xs, none) ∧ xs.length = n) ∨ (parseLine line = (xs, some (.format line v true)) ∧ xs.length < n)) := by
  have hr : Cli.Reads (takeInt uint64) [w] (n : Int) := reads_int hw (by
    simp only [IntType.min, IntType.max, uint64, Bool.false_eq_true, if_false]; omega)
  obtain ⟨s, -, h2⟩ := parseLine_bulk hv h hr
  refine ⟨(takeItems v n s).1, takeItems_verb v n s, ?_⟩
  obtain ⟨h3, h4⟩ := takeItems_length v n s
  rw [h2]
  cases hb : (takeItems v n s).2 with
  | true => exact .inl ⟨by simp, h4.mp hb⟩
  | false =>
    refine .inr ⟨by simp, ?_⟩
    rcases h3.lt_or_eq with h5 | h5
    · exact h5
    · rw [h4.mpr h5] at hb; cases hb

/-- The operations a refused line begins with are run all the same. -/
theorem C73_refused_false : let line := str "BDEL 2 INT32 1 INT32 2 INT32 3 INT32 x"
    parseLine line = ([.del ⟨[1, 0, 0, 0], 1⟩ ⟨[2, 0, 0, 0], 1⟩], some (.format line .del true)) := by decide +kernel

/-- Numbers that the type does not have are refused: of signed types what is not between the least and the greatest, of
unsigned types what is greater than the greatest with either sign. -/
theorem C73_range {line : Bytes} {v : Verb} {t : Nat} {it : IntType} {w : Bytes} {i : Int} {ws : List Bytes} (hv : HasBulk v)
    (ht : intType t = some it) (hw : IntText w i)
    (hi : if it.signed then ¬ (it.min ≤ i ∧ i ≤ it.max) else it.max < i.natAbs)
    (h : Words line (str (verbName v) :: typeName t :: w :: ws)) : parseLine line = ([], some (.format line v false)) := by
  refine refuses_line (ws := [typeName t, w]) (more := ws) hv ?_ h
  refine refuses_blob_int ht ?_ hw hi
  unfold IsType
  by_contra hc
  have h1 : t ≠ 1 ∧ t ≠ 2 ∧ t ≠ 3 ∧ t ≠ 4 := by omega
  simp [intType, tInt32, tInt64, tUint32, tUint64, h1] at ht

example : parseLine (str "DEL INT32 2147483648 INT32 1") = ([], some (.format (str "DEL INT32 2147483648 INT32 1") .del false)) := by
  decide +kernel
example : parseLine (str "DEL UINT32 -4294967296 INT32 1") = ([], some (.format (str "DEL UINT32 -4294967296 INT32 1") .del false)) := by
  decide +kernel

/-- Fractions that would be rounded to infinity are refused. -/
theorem C73_too_large {line : Bytes} {v : Verb} {t : Nat} {w : Bytes} {neg : Bool} {q : ℚ} {ws : List Bytes} (hv : HasBulk v)
    (ht : t = tFloat ∨ t = tDouble) (hw : FloatText w neg q) (hk : (Fp.fmtOf t).top ≤ (Fp.fmtOf t).near q)
    (h : Words line (str (verbName v) :: typeName t :: w :: ws)) : parseLine line = ([], some (.format line v false)) :=
  refuses_line (ws := [typeName t, w]) (more := ws) hv (refuses_blob_float ht hw hk) h

example : parseLine (str "DEL FLOAT 1e39 INT32 1") = ([], some (.format (str "DEL FLOAT 1e39 INT32 1") .del false)) := by decide +kernel

/-- The number that is taken for a fraction is the nearest of the type. -/
theorem C73_nearest {w : Bytes} {neg : Bool} {q : ℚ} (t : Nat) (hw : FloatText w neg q) (hk : (Fp.fmtOf t).near q < (Fp.fmtOf t).top)
    (k : Nat) : |(Fp.fmtOf t).val ((Fp.fmtOf t).near q) - q| ≤ |(Fp.fmtOf t).val k - q| := by
  obtain ⟨_, _, _, _, _, _, _, _, _, _, _, _, _, rfl⟩ := hw
  exact Fp.Fmt.near_nearest _ (by positivity) hk k

/-- The negative of an unsigned number is accepted, and is the difference to 2³² or 2⁶⁴. -/
theorem C73_unsigned_false {line : Bytes} {t t' : Nat} {it : IntType} {ds w : Bytes} {n : Nat} {x : Val}
    (ht : (t = tUint32 ∧ it = uint32) ∨ (t = tUint64 ∧ it = uint64)) (hd : Decimal ds n) (h0 : 0 < n) (hn : n < 2 ^ (8 * it.width))
    (hx : ValText w x) (hx' : x.typ = t') (h : Words line [str "DEL", typeName t, 45 :: ds, typeName t', w]) :
    parseLine line = ([.del ⟨toMem it ((2 ^ (8 * it.width) - n : Nat) : Int), t⟩ x], none) := by
  obtain ⟨s, h1, h2⟩ := parseLine_one (v := .del) h
  have hp : Pair [typeName t', w] x := ⟨w, by rw [hx'], hx⟩
  have hi : intType t = some it := by rcases ht with ⟨rfl, rfl⟩ | ⟨rfl, rfl⟩ <;> rfl
  have hu : it.signed = false := by rcases ht with ⟨-, rfl⟩ | ⟨-, rfl⟩ <;> rfl
  have hty : IsType t := by unfold IsType; rcases ht with ⟨rfl, -⟩ | ⟨rfl, -⟩ <;> decide
  obtain ⟨s1, e1, hs1⟩ := reads_key (find_type hty) s _ h1
  cases hs1 with
  | @cons a w' rest ws ha hw' hr hs2 =>
    have e2 := takeInt_wrap hu ha hd h0 hn fun b hb => (blank_not (hr b hb)).1
    obtain ⟨s3, e3, -⟩ := reads_blob hp rest [] (by simpa using hs2)
    have e4 : takeBlob s = some (⟨toMem it ((2 ^ (8 * it.width) - n : Nat) : Int), t⟩, rest) := by
      unfold takeBlob
      rw [e1]
      simp only [hi, e2, Option.map_some]
    rw [h2]
    simp [takeItems, takeItem, e4, e3]

example : parseLine (str "DEL UINT32 -1 BYTE a") = ([.del ⟨[255, 255, 255, 255], 3⟩ ⟨[97], 7⟩], none) := by decide +kernel

/-- The help text has no number of operations for `BGETOP`; a line written like that is always refused. -/
theorem C73_help_false {line : Bytes} {t : Nat} {ws : List Bytes} (ht : IsType t) (h : Words line (str "BGETOP" :: typeName t :: ws)) :
    parseLine line = ([], some (.count line)) := by
  obtain ⟨s, h1, h2⟩ := reads_word line _ h
  obtain ⟨c, w, hc, hl⟩ := typeName_letter ht
  rw [hc] at h2
  have h3 := refuses_letter (t := uint64) (w := w) hl s ws h2
  unfold parseLine
  have h4 : Cli.find verbs (str "BGETOP") = some (.getop, true) := by decide +kernel
  simp only [h1, h4, if_true, h3]

example : let line := str "BGETOP INT32 1 INT32 2 INT32 3 EQ"
    parseLine line = ([], some (.count line)) := by decide +kernel

/-- Words may be joined: what a number ends with is the next word. -/
theorem C73_joined_false : parseLine (str "BDEL 1INT32 1INT32 2") = ([.del ⟨[1, 0, 0, 0], 1⟩ ⟨[2, 0, 0, 0], 1⟩], none) := by decide +kernel

end Hx.Props

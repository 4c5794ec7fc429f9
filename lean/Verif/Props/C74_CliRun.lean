import Verif.Proofs.CliRun
import Verif.Props.C33_Results
import Verif.Props.C48_EndToEnd

/-!
# C74: running commands and printing results

`examples/hxhim/cli.cpp` runs the commands it has read (C73), and `examples/hxhim/print_results.c` prints a line for each result.
What is printed for a value can be given to the program again, as far as it is true. A session whose turns end with `FLUSH` is a
job of one rank, so the lines of its GETs have what C48 says.
-/

namespace Hx.Props
open Hx Msg Place Spec Store Elen Cli Results Process
open Hx.Config (str)
open Hx.Spec.Config (Blank Word Decimal Lines)
open Hx.Spec.Cli

/-! ## Values -/

/-- Integers of all types are read as they were printed. -/
theorem C74_integers {a t : Nat} {it : IntType} {m : Bytes} (ha : a ≠ 0) (ht : intType t = some it) (hm : m.length = it.width) :
    ∃ text, printByType (at_ a ⟨m, t⟩) = .ok text ∧ ReadsAs text ⟨m, t⟩ := by
  by_cases h1 : t = tInt32
  · subst h1; cases ht
    exact ⟨_, by rw [printByType, word_ok ha hm]; rfl, readsAs_signed rfl (by decide) hm⟩
  by_cases h2 : t = tInt64
  · subst h2; cases ht
    exact ⟨_, by rw [printByType, word_ok ha (n := 8) hm]; rfl, readsAs_signed rfl (by decide) hm⟩
  by_cases h3 : t = tUint32
  · subst h3; cases ht
    exact ⟨_, by rw [printByType, word_ok ha hm]; rfl, readsAs_unsigned (it := uint32) (is := int32) rfl ⟨by decide, by decide⟩ rfl rfl hm⟩
  by_cases h4 : t = tUint64
  · subst h4; cases ht
    exact ⟨_, by rw [printByType, word_ok ha (n := 8) hm]; rfl,
      readsAs_unsigned (it := uint64) (is := int64) rfl ⟨by decide, by decide⟩ rfl rfl hm⟩
  simp [intType, h1, h2, h3, h4] at ht

example : printByType (at_ 16 ⟨[251, 255, 255, 255], tInt32⟩) = .ok (str "-5") := by decide +kernel

/-- The line of the statement above is not what one would expect of unsigned numbers: from 2³¹ or 2⁶³ on they are printed
as negative numbers. -/
theorem C74_unsigned_false {a t : Nat} {w : Nat} {m : Bytes} (ha : a ≠ 0) (ht : (t = tUint32 ∧ w = 4) ∨ (t = tUint64 ∧ w = 8))
    (hm : m.length = w) (h : 2 ^ (8 * w - 1) ≤ leVal m) :
    printByType (at_ a ⟨m, t⟩) = .ok (45 :: toDec (2 ^ (8 * w) - leVal m)) := by
  have hlt := leVal_lt m
  have hp : (256 : Nat) ^ w = 2 ^ (8 * w) := by rw [Nat.pow_mul]
  rw [hm, hp] at hlt
  have key : decText (ofMem ⟨w, true⟩ m) = 45 :: toDec (2 ^ (8 * w) - leVal m) := by
    have hof : ofMem ⟨w, true⟩ m = (leVal m : Int) - (2 ^ (8 * w) : Nat) := by
      unfold ofMem; simp only; rw [if_pos ⟨trivial, h⟩]
    unfold decText
    rw [hof, if_pos (by omega)]
    congr 2
    omega
  rcases ht with ⟨rfl, rfl⟩ | ⟨rfl, rfl⟩
  · rw [← key, printByType, word_ok ha hm]; rfl
  · rw [← key, printByType, word_ok ha (n := 8) hm]; rfl

example : printByType (at_ 16 ⟨[255, 255, 255, 255], tUint32⟩) = .ok (str "-1") := by decide +kernel

theorem print_bytes (a : Nat) (w : Bytes) :
    printByType (at_ a ⟨w, tByte⟩) = if 2 ^ 31 ≤ w.length then .ub else .ok (w.takeWhile fun c => c != 0) := rfl

/-- Words are read as they were printed, when they have no zeros. -/
theorem C74_bytes {a : Nat} {w : Bytes} (hw : Word w) (h0 : (0 : UInt8) ∉ w) (hl : w.length < 2 ^ 31) :
    printByType (at_ a ⟨w, tByte⟩) = .ok w ∧ ReadsAs w ⟨w, tByte⟩ := by
  constructor
  · have h1 : ¬ 2 ^ 31 ≤ w.length := by omega
    have h2 : w.takeWhile (fun c => c != 0) = w := by
      refine Config.takeWhile_all ?_
      intro x hx
      simp only [bne_iff_ne]
      rintro rfl
      exact h0 hx
    rw [print_bytes, if_neg h1, h2]
  · exact ⟨hw, fun s more h => reads_blob ⟨_, rfl, .byte hw⟩ s more h⟩

/-- Nothing of a string is printed from the first zero on. -/
theorem C74_zero_false (a : Nat) {u v : Bytes} (hu : (0 : UInt8) ∉ u) (hl : (u ++ 0 :: v).length < 2 ^ 31) :
    printByType (at_ a ⟨u ++ 0 :: v, tByte⟩) = .ok u := by
  have h1 : ¬ 2 ^ 31 ≤ (u ++ 0 :: v).length := by omega
  have h2 : (u ++ 0 :: v).takeWhile (fun c => c != 0) = u := by
    rw [List.takeWhile_append_of_pos]
    · simp
    · intro x hx
      simp only [bne_iff_ne]
      rintro rfl
      exact hu hx
  rw [print_bytes, if_neg h1, h2]

example : printByType (at_ 16 ⟨[97, 0, 98], tByte⟩) = .ok (str "a") := by decide +kernel

/-- C74, partial: floats from 0.017 on and doubles from 0.091 on are read as they were printed, and zeros with either sign.
Missing: smaller numbers, of which too few digits are printed (`C74_small_false`), infinities and what is not a number. -/
theorem C74_floats_partial {a t : Nat} {m : Bytes} {neg : Bool} {q : ℚ} (ha : a ≠ 0) (ht : t = tFloat ∨ t = tDouble)
    (hm : m.length = (Fp.fmtOf t).size) (hx : ieee (Fp.fmtOf t).w (Fp.fmtOf t).p (leVal m) = .fin neg q)
    (hq : q = 0 ∨ (if t = tFloat then 17 / 1000 else 91 / 1000) ≤ q) :
    ∃ text, printByType (at_ a ⟨m, t⟩) = .ok text ∧ ReadsAs text ⟨m, t⟩ := by
  rcases ht with rfl | rfl
  · refine ⟨_, by rw [printByType, word_ok ha (n := 4) hm]; rfl, readsAs_float (prec := 9) (.inl rfl) (by decide) hm hx ?_⟩
    refine hq.imp id fun h => lt_of_lt_of_le ?_ h
    show (1 : ℚ) / 10 ^ 9 * (2 ^ (23 + 1) + 1) < 17 / 1000
    norm_num
  · refine ⟨_, by rw [printByType, word_ok ha (n := 8) hm]; rfl, readsAs_float (prec := 17) (.inr rfl) (by decide) hm hx ?_⟩
    refine hq.imp id fun h => lt_of_lt_of_le ?_ h
    show (1 : ℚ) / 10 ^ 17 * (2 ^ (52 + 1) + 1) < 91 / 1000
    norm_num

example : ieee 8 23 (leVal [205, 204, 204, 61]) = .fin false (13421773 / 134217728) ∧
    printByType (at_ 16 ⟨[205, 204, 204, 61], tFloat⟩) = .ok (str "0.100000001") := by decide +kernel

/-- Two doubles that are printed alike: 0 and 2⁻⁶⁰. -/
theorem C74_small_false : printByType (at_ 16 ⟨leBytes 8 0x3c30000000000000, tDouble⟩) = printByType (at_ 16 ⟨leBytes 8 0, tDouble⟩) ∧
    ieee 11 52 0x3c30000000000000 = .fin false (1 / 2 ^ 60) := by decide +kernel

/-! ## Results -/

/-- The results are printed one after the other, each once. -/
theorem C74_results {read : Nat → Nat → Bytes} {r : Results} {t : Bytes} :
    printResults read r = .ok t ↔
      ∃ lines, List.Forall₂ (fun x line => printResult read x = .ok line) r.items lines ∧ t = lines.flatten := by
  unfold printResults
  rw [(C33_visits r (r.size + 1) (Nat.lt_succ_self _)).1, Out.ok_bind]
  exact printList_ok

/-- The line of a PUT or DELETE. -/
theorem C74_put_line {read : Nat → Nat → Bytes} {x : Result} {s p : Bytes} (hk : x.kind = .put ∨ x.kind = .del)
    (hs : printByType (deref read x.subject) = .ok s) (hp : printByType (deref read x.predicate) = .ok p) :
    printResult read x = .ok (str (if x.kind = .put then "PUT" else "DEL") ++ str "          {" ++ s ++ str ", " ++ p ++ str "} returned " ++
      str (if x.status = hxSuccess then "SUCCESS" else "ERROR") ++ str " from range server " ++ decText x.rs ++ [10]) := by
  have e1 : str "PUT          " = str "PUT" ++ str "          " := by decide +kernel
  have e2 : str "DEL          " = str "DEL" ++ str "          " := by decide +kernel
  have e3 : str "          {" = str "          " ++ str "{" := by decide +kernel
  have e4 : str "} returned " = str "}" ++ str " returned " := by decide +kernel
  unfold printResult printPair
  rcases hk with hk | hk <;> simp only [hk, hs, hp, Out.ok_bind, reduceCtorEq, if_true, if_false, e1, e2, e3, e4, List.append_assoc]
  all_goals split <;> rfl

/-- The line of a GET or GETOP that found something. -/
theorem C74_get_line {read : Nat → Nat → Bytes} {x : Result} {s p o : Bytes} (hk : x.kind = .get ∨ x.kind = .getop)
    (hx : x.status = hxSuccess) (hs : printByType (deref read x.subject) = .ok s) (hp : printByType (deref read x.predicate) = .ok p)
    (ho : printByType (deref read x.object) = .ok o) :
    printResult read x = .ok (str "GET returned {" ++ s ++ str ", " ++ p ++ str "} -> " ++ o ++ str " from range server " ++
      decText x.rs ++ [10]) := by
  have e1 : str "GET returned {" = str "GET returned " ++ str "{" := by decide +kernel
  have e2 : str "} -> " = str "}" ++ str " -> " := by decide +kernel
  unfold printResult printPair
  rcases hk with hk | hk <;> simp only [hk, hx, hs, hp, ho, Out.ok_bind, if_true, e1, e2, List.append_assoc]

/-- The line of a GET or GETOP that did not: it does not say what was asked for. -/
theorem C74_error_line {read : Nat → Nat → Bytes} {x : Result} (hk : x.kind = .get ∨ x.kind = .getop) (hx : x.status ≠ hxSuccess) :
    printResult read x = .ok (str "GET returned ERROR from range server " ++ decText x.rs ++ [10]) := by
  have e1 : str "GET returned ERROR from range server " = str "GET returned ERROR" ++ str " from range server " := by decide +kernel
  unfold printResult
  rcases hk with hk | hk <;> simp only [hk, if_neg hx, e1, List.append_assoc]

/-! ## Commands -/

/-- Nothing is sent or printed without a flush. -/
theorem C74_waits {σ : Type} {h : Host σ} {l : List Item} (hl : ∀ x ∈ l, Waits x) {i : Nat} {s s' : σ} {q q' : Queue.Queues} {out : Bytes}
    {n : Nat} (hr : Cli.run h i l s q = .ok (s', q', out, n)) : s' = s ∧ out = [] := by
  induction l generalizing i q q' out n with
  | nil => cases hr; exact ⟨rfl, rfl⟩
  | cons x l ih =>
    obtain ⟨y, hy⟩ := call_waits (addr := h.addr i) (hl x (by simp))
    simp only [Cli.run, Cli.exec, hy] at hr
    obtain ⟨e, he, hr⟩ := ok_iff.mp hr
    obtain ⟨c, hc, he⟩ := ok_iff.mp he
    cases he
    obtain ⟨t, ht, hr⟩ := ok_iff.mp hr
    cases hr
    obtain ⟨h1, h2⟩ := ih (fun z hz => hl z (by simp [hz])) ht
    exact ⟨h1, by simp [h2]⟩

/-- GETOPs are only sent by `FLUSH`: the other flushes leave them in the queues. -/
theorem C74_getops {σ : Type} {h : Host σ} {i : Nat} {x : Item} (hx : x = .flushPuts ∨ x = .flushGets ∨ x = .flushDels) {s s' : σ}
    {q q' : Queue.Queues} {out : Bytes} {b : Bool} (hr : Cli.exec h i x s q = .ok (s', q', out, b)) : q'.getops = q.getops := by
  rcases hx with rfl | rfl | rfl
  all_goals
    simp only [Cli.exec, Cli.call, flushOf] at hr
    obtain ⟨r, h1, hr⟩ := ok_iff.mp hr
    obtain ⟨t, -, hr⟩ := ok_iff.mp hr
    cases hr
    obtain ⟨y, -, h1⟩ := ok_iff.mp h1
    cases h1
    rfl

/-- A flush of one kind of operation sends these and leaves the others. -/
theorem C74_flushes {σ : Type} {h : Host σ} {i : Nat} {s s' : σ} {q q' : Queue.Queues} {out : Bytes} {b : Bool} :
    (Cli.exec h i .flushPuts s q = .ok (s', q', out, b) → q'.gets = q.gets ∧ q'.dels = q.dels ∧ q'.puts = List.replicate q.puts.length []) ∧
    (Cli.exec h i .flushGets s q = .ok (s', q', out, b) → q'.puts = q.puts ∧ q'.dels = q.dels ∧ q'.gets = List.replicate q.gets.length []) ∧
    (Cli.exec h i .flushDels s q = .ok (s', q', out, b) → q'.puts = q.puts ∧ q'.gets = q.gets ∧ q'.dels = List.replicate q.dels.length []) := by
  refine ⟨fun hr => ?_, fun hr => ?_, fun hr => ?_⟩
  all_goals
    simp only [Cli.exec, Cli.call, flushOf] at hr
    obtain ⟨r, h1, hr⟩ := ok_iff.mp hr
    obtain ⟨t, -, hr⟩ := ok_iff.mp hr
    cases hr
    obtain ⟨⟨y1, y2, y3⟩, hy, h1⟩ := ok_iff.mp h1
    cases h1
    exact ⟨rfl, rfl, processLoop_empty _ hy⟩

/-- Commands that wait queue what they ask for, in order: a PUT its triple in all six orders, every other command its one operation. -/
theorem C74_queued {σ : Type} {h : Host σ} {l : List Item} (hl : ∀ x ∈ l, Waits x) {i total : Nat} {s s' : σ} {q' : Queue.Queues}
    {out : Bytes} {n : Nat} (hr : Cli.run h i l s (Queue.Queues.init total) = .ok (s', q', out, n)) :
    Extends h.cfg.hash ((callsOf h.addr i l).flatMap (ops h.cfg.hash h.cfg.servers)) (Queue.Queues.init total) q' ∧
    ∀ a b c : Blob, wanted ⟨a, b, c, 2 ^ 6 - 1⟩ = [(a, b, c), (a, c, b), (b, a, c), (b, c, a), (c, a, b), (c, b, a)] := by
  refine ⟨C27_order _ _ _ _ (run_waits hl (sized_init total) hr).2.2.2, fun a b c => ?_⟩
  have e : orderings.zipIdx.filter (fun x => (2 ^ 6 - 1 : Nat).testBit x.2) = orderings.zipIdx := by decide
  unfold wanted
  simp only
  rw [e]
  rfl

/-- A session whose turns end with `FLUSH` is a job of one rank, and the results of each turn are printed. -/
theorem C74_session {cb : Callbacks} {heap total : Nat} {h : Host World} (hserve : h.serve = World.serve cb heap) {l : List (List Item)}
    (hl : ∀ c ∈ l, ∀ x ∈ c, Waits x) {i : Nat} {w w' : World} {q' : Queue.Queues} {out : Bytes} {n : Nat}
    (hr : Cli.run h i (session l) w (Queue.Queues.init total) = .ok (w', q', out, n)) :
    ∃ rs texts, Job.run cb heap total w (turnsOf h i l) = .ok (w', rs) ∧
      List.Forall₂ (fun r t => printResults h.read r = .ok t) rs texts ∧ out = texts.flatten ∧ q' = Queue.Queues.init total := by
  induction l generalizing i w out n with
  | nil => cases hr; exact ⟨[], [], rfl, .nil, rfl, rfl⟩
  | cons c l ih =>
    have e : session (c :: l) = c ++ (.flush :: session l) := by simp [session]
    rw [e] at hr
    obtain ⟨x, y, hx, hy, hxy⟩ := Cli.run_append hr
    obtain ⟨a1, a2, a3, a4⟩ := run_waits (hl c (by simp)) (sized_init total) hx
    simp only [Cli.run, Cli.exec, Cli.call] at hy
    obtain ⟨e1, he1, hy⟩ := ok_iff.mp hy
    obtain ⟨f, hf, he1⟩ := ok_iff.mp he1
    obtain ⟨t, ht, he1⟩ := ok_iff.mp he1
    cases he1
    obtain ⟨z, hz, hy⟩ := ok_iff.mp hy
    cases hy
    simp only [Prod.mk.injEq] at hxy
    obtain ⟨rfl, rfl, rfl, rfl⟩ := hxy
    have hf' : Process.flush h.net (World.serve cb heap) w x.2.1 = .ok f := by
      rw [← hserve, ← a1]; exact hf
    have hq := flush_empty a3 hf'
    simp only [hq] at hz
    obtain ⟨z1, z2, z3, z4⟩ := z
    obtain ⟨rs, texts, b1, b2, rfl, b4⟩ := ih (fun d hd => hl d (by simp [hd])) hz
    refine ⟨f.2.1 :: rs, t :: texts, ?_, .cons ht b2, ?_, b4⟩
    · rw [show i + c.length + 1 = i + c.length + 1 from rfl] at b1
      simp only [turnsOf, Job.run, Job.turn, a4, Out.ok_bind, hf', b1]
    · simp [a2]

/-- The line is right for a GET of `g` after `h`. -/
def AnsweredLine (t : Transform) (h : List Ev) (g : Blob × Blob) (line : Bytes) : Prop :=
  ∃ server : Int,
    (∀ o, lastObj g.1.val g.2.val h = some o → ∃ (b : Blob) (x y z : Bytes), b.bytes = t.R o ∧ b.typ = o.typ ∧
      printByType g.1 = .ok x ∧ printByType g.2 = .ok y ∧ printByType b = .ok z ∧
      line = str "GET returned {" ++ x ++ str ", " ++ y ++ str "} -> " ++ z ++ str " from range server " ++ decText server ++ [10]) ∧
    (lastObj g.1.val g.2.val h = none → line = str "GET returned ERROR from range server " ++ decText server ++ [10])

theorem get_held {read : Nat → Nat → Bytes} {addr : Nat → Nat → Nat} {hash : Bytes → Bytes → Out Int} {servers : Nat} {l : List Item}
    {i : Nat} (hm : ∀ j x, l[j]? = some x → Holds read (addr (i + j)) x) {g : Blob × Blob}
    (hg : g ∈ getPairs ((callsOf addr i l).flatMap (ops hash servers))) :
    read g.1.addr g.1.bytes.length = g.1.bytes ∧ read g.2.addr g.2.bytes.length = g.2.bytes := by
  induction l generalizing i with
  | nil => cases hg
  | cons x l ih =>
    have h0 := hm 0 x rfl
    have hrest : ∀ j y, l[j]? = some y → Holds read (addr (i + 1 + j)) y := by
      intro j y hy
      have := hm (j + 1) y (by simpa using hy)
      rwa [show i + (j + 1) = i + 1 + j by omega] at this
    simp only [callsOf, List.flatMap_append, getPairs, List.filterMap_append] at hg
    rcases List.mem_append.mp hg with hg | hg
    · obtain ⟨o, ho, hgo⟩ := List.mem_filterMap.mp hg
      obtain ⟨c, hc, ho⟩ := List.mem_flatMap.mp ho
      rw [Option.mem_toList] at hc
      cases x with
      | put s p v =>
        cases hc
        simp only [ops] at ho
        split at ho
        · obtain ⟨perm, -, rfl⟩ := List.mem_map.mp ho
          cases hgo
        · cases ho
      | get s p t =>
        cases hc
        simp only [ops] at ho
        split at ho
        · unfold placed at ho
          split at ho
          · rw [List.mem_singleton] at ho
            subst ho
            cases hgo
            exact h0
          · cases ho
        · cases ho
      | getop s p t n op =>
        cases hc
        simp only [ops] at ho
        split at ho
        · unfold placed at ho
          split at ho
          · rw [List.mem_singleton] at ho
            subst ho
            cases hgo
          · cases ho
        · cases ho
      | del s p =>
        cases hc
        simp only [ops] at ho
        split at ho
        · unfold placed at ho
          split at ho
          · rw [List.mem_singleton] at ho
            subst ho
            cases hgo
          · cases ho
        · cases ho
      | flushPuts => cases hc
      | flushGets => cases hc
      | flushDels => cases hc
      | flush => cases hc
    · exact ih hrest hg

theorem turnsOf_append {σ : Type} (h : Host σ) (i : Nat) (a : List (List Item)) (c : List Item) :
    turnsOf h i (a ++ [c]) = turnsOf h i a ++ [⟨h.cfg, h.net, callsOf h.addr (i + (session a).length) c⟩] := by
  induction a generalizing i with
  | nil => rfl
  | cons b a ih =>
    have e : i + b.length + 1 + (session a).length = i + (session (b :: a)).length := by
      simp [session]; omega
    simp only [List.cons_append, turnsOf, ih, e]

/-- The results of a turn of the program, one after the other, for the lines of its GETs. -/
theorem lines_of_gets {t : Transform} {h : List Ev} {read : Nat → Nat → Bytes} {gs : List (Blob × Blob)} {rs : List Result}
    {lines : List Bytes} (hg : ∀ g ∈ gs, read g.1.addr g.1.bytes.length = g.1.bytes ∧ read g.2.addr g.2.bytes.length = g.2.bytes)
    (hr : List.Forall₂ (Returned t h) gs (rs.filter (fun y => decide (y.kind = .get))))
    (hl : List.Forall₂ (fun x line => printResult read x = .ok line) rs lines) :
    List.Forall₂ (AnsweredLine t h) gs
      (((rs.zip lines).filter (fun y => decide (y.1.kind = .get))).map Prod.snd) := by
  induction hl generalizing gs with
  | nil => simp only [List.filter_nil] at hr; cases hr; exact .nil
  | @cons x line rs lines hx _ ih =>
    by_cases hk : x.kind = .get
    · rw [List.filter_cons_of_pos (by simpa using hk)] at hr
      cases hr with
      | @cons g _ gs _ h1 h2 =>
        rw [List.zip_cons_cons, List.filter_cons_of_pos (by simpa using hk), List.map_cons]
        refine .cons ?_ (ih (fun g' hg' => hg g' (by simp [hg'])) h2)
        obtain ⟨m1, m2⟩ := hg g (by simp)
        have hsub : deref read x.subject = g.1 := by rw [h1.subject]; simp [deref, m1]
        have hpre : deref read x.predicate = g.2 := by rw [h1.predicate]; simp [deref, m2]
        refine ⟨x.rs, ?_, ?_⟩
        · intro o ho
          obtain ⟨hs, b, hb, hb1, hb2⟩ := h1.found o ho
          have hobj : deref read x.object = b := by rw [hb]; rfl
          have hx' := hx
          unfold printResult at hx'
          simp only [hk, hs, if_true] at hx'
          obtain ⟨p, hp, hx'⟩ := ok_iff.mp hx'
          obtain ⟨z, hz, hx'⟩ := ok_iff.mp hx'
          obtain ⟨a, ha, hp⟩ := ok_iff.mp hp
          obtain ⟨c, hc, hp⟩ := ok_iff.mp hp
          have := C74_get_line (.inl hk) hs ha hc hz
          rw [hx] at this
          refine ⟨b, a, c, z, hb1, hb2, by rw [← hsub]; exact ha, by rw [← hpre]; exact hc, by rw [← hobj]; exact hz, ?_⟩
          exact Out.ok.inj this
        · intro ho
          have hs := h1.absent ho
          have := C74_error_line (read := read) (.inl hk) (x := x) (by rw [hs]; decide)
          rw [hx] at this
          exact Out.ok.inj this
    · rw [List.filter_cons_of_neg (by simpa using hk)] at hr
      rw [List.zip_cons_cons, List.filter_cons_of_neg (by simpa using hk)]
      exact ih hg hr

theorem forall₂_snoc {α β : Type} {R : α → β → Prop} {a b : List α} {c : List β} (h : List.Forall₂ R (a ++ b) c) :
    ∃ c1 c2, List.Forall₂ R a c1 ∧ List.Forall₂ R b c2 ∧ c = c1 ++ c2 := by
  induction a generalizing c with
  | nil => exact ⟨[], c, .nil, h, rfl⟩
  | cons x a ih =>
    cases h with
    | cons h1 h2 =>
      obtain ⟨c1, c2, k1, k2, rfl⟩ := ih h2
      exact ⟨_, c2, .cons h1 k1, k2, rfl⟩

/-- C74, partial: in a session whose turns end with `FLUSH`, the text of the last turn is a sequence of lines, and those of
GETs have the object of the latest PUT of the pair, or say that there is none. Missing: what is missing in `C48_gets_partial`,
whose conditions on the turns are those here (`C48_thallium_sessions` gives them), and sessions with other flushes. -/
theorem C74_gets_partial (cb : Callbacks) (t : Transform) (hash : Bytes → Bytes → Out Int) (place : List Int) (heap : Nat)
    (hheap : heap ≠ 0 ∧ heap < 2 ^ 64) (hplace : place.length ≤ 2 ^ 31) (h : Host World) (hserve : h.serve = World.serve cb heap)
    (text : Bytes) (before : List (List Item)) (last : List Item) (htext : parse text = (session (before ++ [last]), []))
    (hwaits : ∀ c ∈ before ++ [last], ∀ x ∈ c, Waits x) (w w' : World) (q' : Queue.Queues) (out : Bytes) (hw : FreshWorld w)
    (hok : ∀ y ∈ turnsOf h 0 (before ++ [last]), TurnOk cb t hash place y)
    (hmem : ∀ i x, (session (before ++ [last]))[i]? = some x → Holds h.read (h.addr i) x)
    (hr : Cli.main h text w (Queue.Queues.init place.length) = .ok (w', q', out)) :
    ∃ (earlier : Bytes) (lines : List (Result × Bytes)) (gs : List (Blob × Blob)),
      out = str "Read " ++ toDec (session (before ++ [last])).length ++ str " valid commands\n" ++ earlier ++ (lines.map Prod.snd).flatten ∧
      gs.Perm (getPairs ((callsOf h.addr (session before).length last).flatMap (ops hash h.cfg.servers))) ∧
      List.Forall₂ (AnsweredLine t (turnsEvents t.accepts hash (turnsOf h 0 before) ++
          storedPuts t.accepts ((callsOf h.addr (session before).length last).flatMap (ops hash h.cfg.servers)))) gs
        ((lines.filter (fun y => decide (y.1.kind = .get))).map Prod.snd) := by
  unfold Cli.main at hr
  obtain ⟨r, h1, hr⟩ := ok_iff.mp hr
  rw [htext] at h1 hr
  obtain ⟨r1, r2, r3, r4⟩ := r
  simp only [Out.ok.injEq, Prod.mk.injEq] at hr
  obtain ⟨rfl, rfl, rfl⟩ := hr
  obtain ⟨rs, texts, hj, hp, hout, -⟩ := C74_session hserve hwaits h1
  have hta := turnsOf_append h 0 before last
  rw [Nat.zero_add] at hta
  rw [hta] at hj hok
  have hlen : rs ≠ [] := by
    rintro rfl
    obtain ⟨u, ra, rb, k1, k2, k3⟩ := Job.run_append _ _ hj
    simp only [Job.run] at k2
    obtain ⟨y, hy, k2⟩ := ok_iff.mp k2
    simp only [Out.ok_bind] at k2
    cases k2
    have := congrArg List.length k3
    simp at this
  obtain ⟨rs0, rl, rfl⟩ : ∃ a b, rs = a ++ [b] := ⟨_, _, (List.dropLast_append_getLast hlen).symm⟩
  obtain ⟨gs, hperm, hall⟩ := C48_gets_partial cb t hash place heap hheap hplace (turnsOf h 0 before) _ w r1 rs0 rl hw
    (fun y hy => hok y (by simp [hy])) (hok _ (by simp)) hj
  obtain ⟨ta, tb, hpa, hpb, rfl⟩ := forall₂_snoc hp
  cases hpb with
  | @cons _ tl _ _ hl hnil =>
    cases hnil
    obtain ⟨lines, hlines, rfl⟩ := C74_results.mp hl
    have hg : ∀ g ∈ gs, h.read g.1.addr g.1.bytes.length = g.1.bytes ∧ h.read g.2.addr g.2.bytes.length = g.2.bytes := by
      intro g hg
      refine get_held (l := last) ?_ (hperm.mem_iff.mp hg)
      intro j x hx
      refine hmem _ x ?_
      have e : session (before ++ [last]) = session before ++ (last ++ [.flush]) := by simp [session]
      rw [e, List.getElem?_append_right (by omega), Nat.add_sub_cancel_left, List.getElem?_append_left]
      · exact hx
      · exact (List.getElem?_eq_some_iff.mp hx).1
    refine ⟨ta.flatten, rl.items.zip lines, gs, ?_, hperm, lines_of_gets hg hall hlines⟩
    have hz : (rl.items.zip lines).map Prod.snd = lines := List.map_snd_zip (by rw [hlines.length_eq])
    rw [hz, hout]
    simp


/-! ## A session -/

private def exNet (l : Layout) (rank : Nat) : Net :=
  Layout.net l rank (.thallium (thalliumEndpoints l rank [])) id (fun _ => List.Perm.refl _) 4096 (fun n => List.replicate n 0)

private def exWorld (per : Nat) : World := ⟨fun _ => List.replicate per (exDs .mem []), fun _ => true, 0⟩

/-- The memory of the program: part `k` of command `i` is at `1000 * i + 100 * k + 16`. -/
private def exHost (l : Layout) (memory : List (Nat × Bytes)) : Host World :=
  ⟨⟨Hash.hxhimHash .ber 0 l.total, 10, 0, l.totalRangeServers⟩, exNet l 0, World.serve exCb 100, fun i k => 1000 * i + 100 * k + 16,
    fun a n => ((memory.lookup a).getD []).take n⟩

private def exMemory : List (Nat × Bytes) :=
  [(16, [97]), (116, [98]), (216, [99]), (2016, [97]), (2116, [98]), (3016, [97]), (3116, [97])]

private def exItems : List (List Item) := [[.put ⟨[97], 7⟩ ⟨[98], 7⟩ ⟨[99], 7⟩]]
private def exLastItems : List Item := [.get ⟨[97], 7⟩ ⟨[98], 7⟩ 7, .get ⟨[97], 7⟩ ⟨[97], 7⟩ 7]

private def exText : Bytes := str "PUT BYTE a BYTE b BYTE c\nFLUSH\nGET BYTE a BYTE b BYTE\nGET BYTE a BYTE a BYTE\nFLUSH\n"

/-- What the program prints for a session: a PUT has a line for each of its permutations. -/
example : (Cli.main (exHost ⟨3, 1, 1, 1⟩ exMemory) exText (exWorld 1) (Queue.Queues.init 3) >>= fun x => .ok x.2.2) =
    .ok (str ("Read 5 valid commands\n" ++
      "PUT          {b, a} returned SUCCESS from range server 1\nPUT          {c, a} returned SUCCESS from range server 1\n" ++
      "PUT          {a, b} returned SUCCESS from range server 2\nPUT          {c, b} returned SUCCESS from range server 2\n" ++
      "PUT          {a, c} returned SUCCESS from range server 0\nPUT          {b, c} returned SUCCESS from range server 0\n" ++
      "GET returned ERROR from range server 1\nGET returned {a, b} -> c from range server 2\n")) := by decide +kernel

private theorem exSent (a : Nat) (b : UInt8) (ha : a ≠ 0) (ha' : a < 2 ^ 64) : PlainSent ⟨a, [b], tByte⟩ :=
  ⟨⟨by show tByte < 256; decide, by show 1 < 2 ^ 64; decide, by intro t h; exact absurd h (by show intType tByte ≠ some t; intro h; cases h),
    by show tByte ≠ tFloat ∧ tByte ≠ tDouble; decide⟩, ha, ha', Or.inl (by simp)⟩

/-- The hypotheses of `C74_gets_partial` for it. -/
example : parse exText = (session (exItems ++ [exLastItems]), []) ∧ (∀ c ∈ exItems ++ [exLastItems], ∀ x ∈ c, Waits x) ∧
    FreshWorld (exWorld 1) ∧
    (∀ y ∈ turnsOf (exHost ⟨3, 1, 1, 1⟩ exMemory) 0 (exItems ++ [exLastItems]),
      TurnOk exCb (plainTransform 0x2f 0x3a exFloat) (Hash.hxhimHash .ber 0 3) ((List.range 3).map (Layout.dsToRank ⟨3, 1, 1, 1⟩)) y) ∧
    ∀ i x, (session (exItems ++ [exLastItems]))[i]? = some x →
      Holds (exHost ⟨3, 1, 1, 1⟩ exMemory).read ((exHost ⟨3, 1, 1, 1⟩ exMemory).addr i) x := by
  refine ⟨by decide +kernel, ?_, ⟨?_, fun _ => rfl⟩, ?_, ?_⟩
  · intro c hc x hx
    simp only [exItems, exLastItems, List.cons_append, List.nil_append, List.mem_cons, List.not_mem_nil, or_false] at hc
    rcases hc with rfl | rfl <;> simp only [List.mem_cons, List.not_mem_nil, or_false] at hx
    · subst hx; trivial
    · rcases hx with rfl | rfl <;> trivial
  · intro rank d hd
    rw [show d = exDs .mem [] from List.eq_of_mem_replicate hd]
    exact ⟨rfl, rfl⟩
  · have hops : ∀ c ∈ callsOf (exHost ⟨3, 1, 1, 1⟩ exMemory).addr 0 [.put ⟨[97], 7⟩ ⟨[98], 7⟩ ⟨[99], 7⟩] ++
        callsOf (exHost ⟨3, 1, 1, 1⟩ exMemory).addr 2 exLastItems,
        ∀ o ∈ ops (Hash.hxhimHash .ber 0 3) 3 c, PlainOp o := by
      intro c hc o ho
      have hall := List.mem_flatMap.mpr ⟨c, hc, ho⟩
      have e : (callsOf (exHost ⟨3, 1, 1, 1⟩ exMemory).addr 0 [.put ⟨[97], 7⟩ ⟨[98], 7⟩ ⟨[99], 7⟩] ++
          callsOf (exHost ⟨3, 1, 1, 1⟩ exMemory).addr 2 exLastItems).flatMap (ops (Hash.hxhimHash .ber 0 3) 3) =
          [.put ⟨16, [97], 7⟩ ⟨116, [98], 7⟩ ⟨216, [99], 7⟩, .put ⟨16, [97], 7⟩ ⟨216, [99], 7⟩ ⟨116, [98], 7⟩,
            .put ⟨116, [98], 7⟩ ⟨16, [97], 7⟩ ⟨216, [99], 7⟩, .put ⟨116, [98], 7⟩ ⟨216, [99], 7⟩ ⟨16, [97], 7⟩,
            .put ⟨216, [99], 7⟩ ⟨16, [97], 7⟩ ⟨116, [98], 7⟩, .put ⟨216, [99], 7⟩ ⟨116, [98], 7⟩ ⟨16, [97], 7⟩,
            .get ⟨2016, [97], 7⟩ ⟨2116, [98], 7⟩ 7, .get ⟨3016, [97], 7⟩ ⟨3116, [97], 7⟩ 7] := by decide +kernel
      have put : ∀ (a b c : Nat) (x y z : UInt8), (a ≠ 0 ∧ a < 2 ^ 64) → (b ≠ 0 ∧ b < 2 ^ 64) → (c ≠ 0 ∧ c < 2 ^ 64) →
          PlainOp (.put ⟨a, [x], 7⟩ ⟨b, [y], 7⟩ ⟨c, [z], 7⟩) := fun a b c x y z ha hb hc =>
        ⟨exSent _ _ ha.1 ha.2, exSent _ _ hb.1 hb.2, exSent _ _ hc.1 hc.2, by simp⟩
      have get : ∀ (a b : Nat) (x y : UInt8), (a ≠ 0 ∧ a < 2 ^ 64) → (b ≠ 0 ∧ b < 2 ^ 64) →
          PlainOp (.get ⟨a, [x], 7⟩ ⟨b, [y], 7⟩ 7) := fun a b x y ha hb => ⟨exSent _ _ ha.1 ha.2, exSent _ _ hb.1 hb.2, by decide⟩
      rw [e] at hall
      simp only [List.mem_cons, List.not_mem_nil, or_false] at hall
      rcases hall with rfl | rfl | rfl | rfl | rfl | rfl | rfl | rfl
      iterate 6 exact put _ _ _ _ _ _ (by decide) (by decide) (by decide)
      iterate 2 exact get _ _ _ _ (by decide) (by decide)
    intro y hy
    rcases List.mem_cons.mp hy with rfl | hy
    · exact C48_thallium_sessions (neg := 0x2f) (pos := 0x3a) ⟨by decide, by decide⟩ exFloat ⟨3, 1, 1, 1⟩ (by decide) ⟨rfl, Or.inl (Nat.le_refl _)⟩ .ber (by decide) 0 (by decide) [] (.inl rfl) _ _ 4096
        (by decide) _ 10 0 3 (by decide) _ (fun c hc => hops c (List.mem_append_left _ hc))
    · rw [List.mem_singleton.mp hy]
      exact C48_thallium_sessions (neg := 0x2f) (pos := 0x3a) ⟨by decide, by decide⟩ exFloat ⟨3, 1, 1, 1⟩ (by decide) ⟨rfl, Or.inl (Nat.le_refl _)⟩ .ber (by decide) 0 (by decide) [] (.inl rfl) _ _ 4096
        (by decide) _ 10 0 3 (by decide) _ (fun c hc => hops c (List.mem_append_right _ hc))
  · intro i x hx
    have hi : i < 5 := (List.getElem?_eq_some_iff.mp hx).1
    have : i = 0 ∨ i = 1 ∨ i = 2 ∨ i = 3 ∨ i = 4 := by omega
    rcases this with rfl | rfl | rfl | rfl | rfl <;> cases hx
    · exact ⟨rfl, rfl, rfl⟩
    · trivial
    · exact ⟨rfl, rfl⟩
    · exact ⟨rfl, rfl⟩
    · trivial

/-- GETOPs that `FLUSHGETS` leaves, and operations that are not flushed. -/
example : (Cli.run (exHost ⟨3, 1, 1, 1⟩ exMemory) 0 [.getop ⟨[97], 7⟩ ⟨[98], 7⟩ 7 5 1, .del ⟨[97], 7⟩ ⟨[98], 7⟩, .flushGets] (exWorld 1)
      (Queue.Queues.init 3) >>= fun x => .ok (x.2.1.getops.map List.length, x.2.1.dels.map List.length, x.2.2)) =
    .ok ([0, 0, 1], [0, 0, 1], [], 3) := by decide +kernel

end Hx.Props

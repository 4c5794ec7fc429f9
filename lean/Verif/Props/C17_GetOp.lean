import Verif.Proofs.GetOpExact
import Verif.Props.C12_Store

/-!
# C17-C20: GETOP

The contents of a datastore are the list `all` of its triples in key order (`Spec.Contents`); the
theorems say which part of that list a GETOP returns. They hold for a datastore opened empty that
has processed any history (`Spec.Reached`), in both backends unless noted.
-/

namespace Hx.Props
open Hx Msg Spec Store

/-- Every reachable datastore has contents, and only one. -/
theorem C17_contents_exist (cb : Callbacks) (t : Transform) (heap : Nat) (b : Backend)
    (hist : List (Bool × ReqBody)) (d : DS) (h : Reached cb t heap b hist d) :
    ∃ all, Contents t (history t.accepts b hist) all ∧
      ∀ all', Contents t (history t.accepts b hist) all' → all' = all := by
  obtain ⟨d0, hu, he, hb, hok, hrun⟩ := h
  obtain ⟨i, _, _⟩ := run_inv (h := []) (by rw [he]; exact Inv.nil cb t) hu hok hrun
  rw [List.nil_append, hb] at i
  obtain ⟨all, hc, _⟩ := i.contents
  exact ⟨all, hc, fun all' hc' => contents_unique hc' hc⟩

section
variable (cb : Callbacks) (t : Transform) (heap : Nat) (b : Backend) (hist : List (Bool × ReqBody)) (d : DS)
  (hr : Reached cb t heap b hist d)
include hr

/-! ## C17 -/

/-- C17, FIRST: the `n` smallest records, ascending; an error when there are none. -/
theorem C17_first (all : List Triple) (hc : Contents t (history t.accepts b hist) all)
    (x : GetOpItem) (hop : x.op = goFirst) (hn : 0 < x.numRecs) :
    (all ≠ [] → ∃ recs, getOpItem b cb heap d.db x = .ok ⟨dsSuccess, recs⟩ ∧
      recs.map recVals = (all.take x.numRecs).map t.back) ∧
    (all = [] → ∃ recs, getOpItem b cb heap d.db x = .ok ⟨dsError, recs⟩) := by
  obtain ⟨hdb, hg, -, -⟩ := reached_facts hr hc
  rw [hdb, getOpItem_nokey b cb heap _ (by rw [hop]; rfl), op_first hg b hop]
  constructor
  · intro h0
    rw [if_neg h0, Out.ok_bind, finish_ok]
    exact ⟨_, rfl, map_recVals t heap _⟩
  · intro h0
    rw [if_pos h0, Out.ok_bind, finish_error hn]
    exact ⟨_, rfl⟩

/-- C17, LAST, part: the `n` largest records, descending; an error when LevelDB has none.
Missing for the full statement: an empty in-memory datastore, see `C17_last_empty_ub`. -/
theorem C17_last_partial (all : List Triple) (hc : Contents t (history t.accepts b hist) all)
    (x : GetOpItem) (hop : x.op = goLast) (hn : 0 < x.numRecs) :
    (all ≠ [] → ∃ recs, getOpItem b cb heap d.db x = .ok ⟨dsSuccess, recs⟩ ∧
      recs.map recVals = (all.reverse.take x.numRecs).map t.back) ∧
    (all = [] → b = .level → ∃ recs, getOpItem b cb heap d.db x = .ok ⟨dsError, recs⟩) := by
  obtain ⟨hdb, hg, -, -⟩ := reached_facts hr hc
  rw [hdb, getOpItem_nokey b cb heap _ (by rw [hop]; rfl)]
  constructor
  · intro h0
    cases b with
    | mem =>
      rw [op_last_mem hg hop _ _ h0, Out.ok_bind, finish_ok]
      exact ⟨_, rfl, map_recVals t heap _⟩
    | level =>
      rw [op_last_level hg hop, if_neg h0, Out.ok_bind, finish_ok]
      exact ⟨_, rfl, map_recVals t heap _⟩
  · intro h0 hb
    subst hb
    rw [op_last_level hg hop, if_pos h0, Out.ok_bind, finish_error hn]
    exact ⟨_, rfl⟩

/-! ## C18 -/

/-- C18, part: the requested pair is stored and no record that sorts before it has a key starting
with the encoded subject and predicate. Then EQ returns it, NEXT returns it and its successors, PREV
it and its predecessors.
Missing for the full statement: pairs that are not stored and keys in between, see
`C18_eq_absent_false` and `C18_eq_other_false`. -/
theorem C18_start_at_pair_partial (before after : List Triple) (s p : Blob) (o : Val) (es ep : Bytes)
    (hc : Contents t (history t.accepts b hist) (before ++ (s.val, p.val, o) :: after))
    (hs : KeyOk cb t s) (hp : KeyOk cb t p) (hes : t.E s.val = some es) (hep : t.E p.val = some ep)
    (hbefore : ∀ a ∈ before, ¬ (es ++ ep) <+: t.key a)
    (x : GetOpItem) (hxs : x.subject = s) (hxp : x.predicate = p) (hn : 0 < x.numRecs) :
    (x.op = goEq → ∃ recs, getOpItem b cb heap d.db x = .ok ⟨dsSuccess, recs⟩ ∧
      recs.map recVals = [t.back (s.val, p.val, o)]) ∧
    (x.op = goNext → ∃ recs, getOpItem b cb heap d.db x = .ok ⟨dsSuccess, recs⟩ ∧
      recs.map recVals = (((s.val, p.val, o) :: after).take x.numRecs).map t.back) ∧
    (x.op = goPrev → ∃ recs, getOpItem b cb heap d.db x = .ok ⟨dsSuccess, recs⟩ ∧
      recs.map recVals = (((s.val, p.val, o) :: before.reverse).take x.numRecs).map t.back) := by
  obtain ⟨hdb, hg, -, -⟩ := reached_facts hr hc
  subst hxs hxp
  have henc : cb.encode x.subject = .ok (some es) := by rw [hs.enc, hes]
  have hencp : cb.encode x.predicate = .ok (some ep) := by rw [hp.enc, hep]
  have hkey : t.key (x.subject.val, x.predicate.val, o) = (es ++ ep) ++ (0xff :: (leBytes 8 es.length ++
      leBytes 8 ep.length ++ [UInt8.ofNat x.subject.typ, UInt8.ofNat x.predicate.typ])) := by
    unfold Transform.key
    simp only [hes, hep, Option.getD_some]
    simp [Key.spToKey, Blob.val]
  have hlt : ∀ a ∈ before, t.key a < es ++ ep := by
    intro a ha
    have := (List.pairwise_append.mp hc.sorted).2.2 a ha _ List.mem_cons_self
    rw [hkey] at this
    exact lt_of_lt_append this (hbefore a ha)
  have hge : ¬ t.key (x.subject.val, x.predicate.val, o) < es ++ ep := by
    rw [hkey]; exact not_lt_of_prefix (List.prefix_append _ _)
  have htw : (before ++ (x.subject.val, x.predicate.val, o) :: after).takeWhile
      (fun a => decide (t.key a < es ++ ep)) = before := by
    apply takeWhile_split
    · intro a ha; simpa using hlt a ha
    · intro a ha
      simp only [List.head?_cons, Option.some.injEq] at ha
      subst ha; simpa using hge
  have hdw : (before ++ (x.subject.val, x.predicate.val, o) :: after).dropWhile
      (fun a => decide (t.key a < es ++ ep)) = (x.subject.val, x.predicate.val, o) :: after := by
    rw [← drop_takeWhile, htw]; simp
  refine ⟨?_, ?_, ?_⟩
  · intro hop
    rw [hdb, getOpItem_key b heap _ (by rw [hop]; rfl) henc hencp, op_eq hg b hop _ _ hn]
    simp only [Option.getD_some]
    rw [hdw]
    simp only [Out.ok_bind, finish_ok]
    exact ⟨_, rfl, rfl⟩
  · intro hop
    rw [hdb, getOpItem_key b heap _ (by rw [hop]; rfl) henc hencp, op_next hg b hop]
    simp only [Option.getD_some]
    rw [hdw, if_neg (by simp), Out.ok_bind, finish_ok]
    exact ⟨_, rfl, map_recVals t heap _⟩
  · intro hop
    rw [hdb, getOpItem_key b heap _ (by rw [hop]; rfl) henc hencp, op_prev hg b hop]
    simp only [Option.getD_some]
    rw [hdw, htw, if_neg (by simp), Out.ok_bind, finish_ok]
    refine ⟨_, rfl, ?_⟩
    rw [map_recVals]
    congr 2
    rw [List.take_append, List.take_of_length_le (by omega)]
    simp

/-! ## C19 -/

/-- C19, LOWEST, part: when some stored key starts with the encoded subject and predicate, none is
equal to it, and (in memory) none is shorter, the `n` lowest records whose key starts with it are
returned. A predicate that cannot be encoded, such as a null pointer, counts as empty; if it has a
numeric type, keys that continue below the negative sign must not be present.
Missing for the full statement: those exceptions, see `C19_lowest_skips_false`,
`C19_lowest_none_false` and `C19_lowest_short_key_ub`. -/
theorem C19_lowest_partial (all : List Triple) (hc : Contents t (history t.accepts b hist) all)
    (x : GetOpItem) (hop : x.op = goLowest) (es : Bytes) (ep : Option Bytes)
    (hs : cb.encode x.subject = .ok (some es)) (hp : cb.encode x.predicate = .ok ep)
    (hsome : ∃ a ∈ all, (es ++ ep.getD []) <+: t.key a)
    (hne : ∀ a ∈ all, t.key a ≠ es ++ ep.getD [])
    (hnum : ep.getD [] = [] → isNumeric x.predicate.typ = true →
      ∀ a ∈ all, es <+: t.key a → ¬ t.key a < es ++ [cb.neg, 0])
    (hlen : b = .mem → ∀ a ∈ all, (es ++ ep.getD []).length ≤ (t.key a).length) :
    ∃ recs, getOpItem b cb heap d.db x = .ok ⟨dsSuccess, recs⟩ ∧
      recs.map recVals =
        ((all.filter (fun a => (es ++ ep.getD []).isPrefixOf (t.key a))).take x.numRecs).map t.back := by
  obtain ⟨hdb, hg, -, -⟩ := reached_facts hr hc
  rw [hdb, getOpItem_key b heap _ (by rw [hop]; rfl) hs hp, op_lowest hg b hop _ _ hlen]
  simp only
  have hseek : ∀ a ∈ all, (t.key a < getSeek cb (es ++ ep.getD []) (ep.getD []).length x.predicate.typ ∧
      ¬ (es ++ ep.getD []) <+: t.key a) ∨
      (¬ t.key a < getSeek cb (es ++ ep.getD []) (ep.getD []).length x.predicate.typ) := by
    intro a ha
    by_cases h1 : t.key a < getSeek cb (es ++ ep.getD []) (ep.getD []).length x.predicate.typ
    · refine Or.inl ⟨h1, ?_⟩
      rintro ⟨y, hy⟩
      unfold getSeek at h1
      split at h1
      · rename_i hcnd
        have hnil : ep.getD [] = [] := List.length_eq_zero_iff.mp hcnd.1
        rw [hnil, List.append_nil] at h1 hy
        exact hnum hnil hcnd.2 a ha ⟨y, hy⟩ h1
      · cases y with
        | nil => rw [List.append_nil] at hy; exact hne a ha hy.symm
        | cons c y =>
          rw [← hy] at h1
          have h2 : ¬ c :: y < [0] := by
            intro h2
            rcases List.cons_lt_cons_iff.mp h2 with h3 | ⟨_, h3⟩
            · simp at h3
            · simp at h3
          rcases bytes_trichotomy (c :: y) [0] with h3 | h3 | h3
          · exact h2 h3
          · rw [h3] at h1; exact bytes_lt_irrefl _ h1
          · exact bytes_lt_irrefl _ (bytes_lt_trans h1 (List.append_left_lt h3))
    · exact Or.inr h1
  have hps := prefix_getSeek cb (es ++ ep.getD []) (ep.getD []).length x.predicate.typ
  generalize getSeek cb (es ++ ep.getD []) (ep.getD []).length x.predicate.typ = seek at hseek hps ⊢
  generalize es ++ ep.getD [] = pre at hseek hsome hps ⊢
  have hsorted := hc.sorted
  -- what is skipped does not match
  have hskip : ∀ l : List Triple, (∀ a ∈ l, (t.key a < seek ∧ ¬ pre <+: t.key a) ∨ ¬ t.key a < seek) →
      l.filter (fun a => pre.isPrefixOf (t.key a)) =
        (l.dropWhile (fun a => decide (t.key a < seek))).filter (fun a => pre.isPrefixOf (t.key a)) := by
    intro l hl
    induction l with
    | nil => rfl
    | cons a l ih =>
      by_cases h1 : t.key a < seek
      · rw [List.dropWhile_cons_of_pos (by simpa using h1), ← ih (fun y hy => hl y (List.mem_cons_of_mem _ hy))]
        rcases hl a List.mem_cons_self with ⟨_, h2⟩ | h2
        · rw [List.filter_cons_of_neg (by rwa [List.isPrefixOf_iff_prefix])]
        · exact absurd h1 h2
      · rw [List.dropWhile_cons_of_neg (by simpa using h1)]
  -- among the rest the matches come first
  have hblock : ∀ l : List Triple, l.Pairwise (fun a b => t.key a < t.key b) →
      (∀ a ∈ l, ¬ t.key a < pre) →
      l.filter (fun a => pre.isPrefixOf (t.key a)) = l.takeWhile (fun a => pre.isPrefixOf (t.key a)) := by
    intro l hl hge
    induction l with
    | nil => rfl
    | cons a l ih =>
      have hl' := List.pairwise_cons.mp hl
      cases hpa : pre.isPrefixOf (t.key a) with
      | true =>
        rw [List.filter_cons_of_pos (by exact hpa), List.takeWhile_cons_of_pos (by exact hpa),
          ih hl'.2 (fun y hy => hge y (List.mem_cons_of_mem _ hy))]
      | false =>
        rw [List.takeWhile_cons_of_neg (by simp [hpa]), List.filter_cons_of_neg (by simp [hpa]), List.filter_eq_nil_iff]
        intro y hy hpy
        rw [List.isPrefixOf_iff_prefix] at hpy
        obtain ⟨z, hz⟩ := hpy
        have h1 := hl'.1 y hy
        rw [← hz] at h1
        have hna : ¬ pre <+: t.key a := by rw [← List.isPrefixOf_iff_prefix, hpa]; simp
        exact hge a List.mem_cons_self (lt_of_lt_append h1 hna)
  have hrest : ∀ a ∈ all.dropWhile (fun a => decide (t.key a < seek)), ¬ t.key a < pre := by
    intro a ha hlt
    exact dropWhile_sorted hc.sorted a ha (lt_of_lt_prefix hlt hps)
  have hfil := hskip all hseek
  rw [hblock _ (List.Pairwise.sublist (List.dropWhile_sublist _) hc.sorted) hrest] at hfil
  have hnn : all.dropWhile (fun a => decide (t.key a < seek)) ≠ [] := by
    intro h0
    rw [h0] at hfil
    obtain ⟨a, ha, hpa⟩ := hsome
    rw [List.takeWhile_nil, List.filter_eq_nil_iff] at hfil
    exact hfil a ha (by rwa [List.isPrefixOf_iff_prefix])
  rw [if_neg hnn, Out.ok_bind, finish_ok, hfil]
  exact ⟨_, rfl, map_recVals t heap _⟩

/-- C19, HIGHEST does not do its job: unless a stored key is exactly the encoded subject and
predicate (or, in memory, that and a zero byte), it returns no record at all. Stated for a predicate
that is not both empty and of a numeric type. -/
theorem C19_highest_returns_nothing (all : List Triple) (hc : Contents t (history t.accepts b hist) all)
    (x : GetOpItem) (hop : x.op = goHighest) (es : Bytes) (ep : Option Bytes)
    (hs : cb.encode x.subject = .ok (some es)) (hp : cb.encode x.predicate = .ok ep)
    (hnum : ep.getD [] ≠ [] ∨ isNumeric x.predicate.typ = false)
    (hne : ∀ a ∈ all, t.key a ≠ es ++ ep.getD [] ∧ t.key a ≠ es ++ ep.getD [] ++ [0])
    (hlen : b = .mem → ∀ a ∈ all, (es ++ ep.getD []).length ≤ (t.key a).length)
    (r : GetOpRes) (hres : getOpItem b cb heap d.db x = .ok r) :
    r.status = dsError ∨ r.recs = [] := by
  obtain ⟨hdb, hg, -, -⟩ := reached_facts hr hc
  have hseek : getSeek cb (es ++ ep.getD []) (ep.getD []).length x.predicate.typ = es ++ ep.getD [] ++ [0] := by
    unfold getSeek
    rw [if_neg]
    rintro ⟨h1, h2⟩
    rcases hnum with h3 | h3
    · exact h3 (List.length_eq_zero_iff.mp h1)
    · rw [h3] at h2; cases h2
  have hno : ∀ a ∈ all, t.key a ≤ es ++ ep.getD [] ++ [0] → (es ++ ep.getD []).isPrefixOf (t.key a) = false := by
    intro a ha hle
    cases hpa : (es ++ ep.getD []).isPrefixOf (t.key a) with
    | false => rfl
    | true =>
      exfalso
      rw [List.isPrefixOf_iff_prefix] at hpa
      obtain ⟨y, hy⟩ := hpa
      obtain ⟨h1, h2⟩ := hne a ha
      rw [← hy] at h1 h2 hle
      cases y with
      | nil => simp at h1
      | cons c y =>
        have h3 : c :: y ≠ [0] := fun h => h2 (by rw [h])
        have h4 : ([0] : Bytes) < c :: y := by
          by_cases hc0 : c = 0
          · subst hc0
            cases y with
            | nil => exact absurd rfl h3
            | cons _ _ => exact List.Lex.cons List.Lex.nil
          · refine List.Lex.rel ?_
            have : c.toNat ≠ 0 := fun h => hc0 (UInt8.toNat_inj.mp h)
            rw [UInt8.lt_iff_toNat_lt]
            have h0 : (0 : UInt8).toNat = 0 := rfl
            omega
        exact hle (List.append_left_lt h4)
  have hempty : ∀ l : List Triple, (∀ a ∈ l, a ∈ all ∧ t.key a ≤ es ++ ep.getD [] ++ [0]) →
      l.takeWhile (fun a => (es ++ ep.getD []).isPrefixOf (t.key a)) = [] := by
    intro l hl
    cases l with
    | nil => rfl
    | cons a l =>
      obtain ⟨h1, h2⟩ := hl a List.mem_cons_self
      rw [List.takeWhile_cons_of_neg (by rw [hno a h1 h2]; simp)]
  rw [hdb, getOpItem_key b heap _ (by rw [hop]; rfl) hs hp] at hres
  cases b with
  | level =>
    rw [op_highest_level hg hop] at hres
    simp only [hseek] at hres
    rw [hempty] at hres
    · split at hres
      · rw [Out.ok_bind] at hres
        exact Or.inl (finish_status (by decide) hres)
      · rw [Out.ok_bind, finish_ok] at hres
        cases hres; exact Or.inr (by simp)
    · intro a ha
      rw [List.mem_reverse] at ha
      have h1 := takeWhile_imp ha
      exact ⟨(List.takeWhile_sublist _).subset ha, List.le_of_lt (by simpa using h1)⟩
  | mem =>
    rw [op_highest_mem hg hop _ _ (hlen rfl)] at hres
    simp only [hseek] at hres
    rw [hempty] at hres
    · split at hres
      · rw [Out.ok_bind] at hres
        exact Or.inl (finish_status (by decide) hres)
      · split at hres
        · cases hres
        · rw [Out.ok_bind, finish_ok] at hres
          cases hres; exact Or.inr (by simp)
    · intro a ha
      rw [List.mem_reverse] at ha
      have ha' := List.mem_of_mem_drop ha
      have h1 := takeWhile_imp ha'
      exact ⟨(List.takeWhile_sublist _).subset ha', by simpa using h1⟩

/-! ## All operations -/

/-- C17, C18 and C19: what a GETOP returns, exactly, whatever is stored and whatever is asked for: all
seven operations, both backends. `Spec.getOpAnswer` picks the records out of `all`. GETOPs that are
undefined behaviour or read past their arrays have no result, see the `_ub` theorems below. -/
theorem C18_exact (all : List Triple) (hc : Contents t (history t.accepts b hist) all) (x : GetOpItem)
    (hk : x.op ≠ goFirst → x.op ≠ goLast → KeyOk cb t x.subject ∧ KeyOk cb t x.predicate) (r : GetOpRes)
    (h : getOpItem b cb heap d.db x = .ok r) : AnswersOp t cb.neg b all x r := by
  obtain ⟨hdb, hg, -, -⟩ := reached_facts hr hc
  rw [hdb] at h
  exact (getOpItem_exact hg hc.sorted b (fun h3 h4 => ⟨(hk h3 h4).1.enc, (hk h3 h4).2.enc⟩) h).answers

/-! ## C20 -/

/-- C20, part: for at least one record LevelDB's GETOPs stay inside the response, whatever the
operation and the contents.
Missing for the full statement: `n = 0` and the undefined behaviour of the in-memory backend, see
`C20_zero_records_ub`, `C17_last_empty_ub`, `C19_lowest_short_key_ub`, `C19_highest_begin_ub`. -/
theorem C20_level_in_bounds_partial (all : List Triple) (hc : Contents t (history t.accepts b hist) all)
    (hb : b = .level) (x : GetOpItem) (hn : 0 < x.numRecs) (es ep : Option Bytes)
    (hs : cb.encode x.subject = .ok es) (hp : cb.encode x.predicate = .ok ep) :
    ∃ r, getOpItem b cb heap d.db x = .ok r := by
  obtain ⟨hdb, hg, -, -⟩ := reached_facts hr hc
  subst hb
  have herr : ∀ s, s ≠ dsUnset → ∃ r, finish x ⟨s, []⟩ = .ok r := by
    intro s hs
    unfold finish
    rw [if_neg hs, if_neg (by simp; omega)]
    exact ⟨_, rfl⟩
  rw [hdb]
  by_cases h1 : x.op = goFirst
  · rw [getOpItem_nokey _ cb heap _ (by rw [h1]; rfl), op_first hg _ h1]
    split
    · exact herr dsError (by decide)
    · exact ⟨_, finish_ok x _⟩
  by_cases h2 : x.op = goLast
  · rw [getOpItem_nokey _ cb heap _ (by rw [h2]; rfl), op_last_level hg h2]
    split
    · exact herr dsError (by decide)
    · exact ⟨_, finish_ok x _⟩
  have hk : hasKey x.op = true := by simp [hasKey, h1, h2]
  cases es with
  | none =>
    unfold getOpItem loopInit
    rw [hk]
    simp only [if_true, hs, hp, Out.ok_bind]
    rw [if_neg (by decide), Out.ok_bind]
    exact herr dsError (by decide)
  | some es =>
    rw [getOpItem_key _ heap _ hk hs hp]
    by_cases h3 : x.op = goEq
    · rw [op_eq hg _ h3 _ _ hn]
      split
      · exact herr dsError (by decide)
      · exact ⟨_, finish_ok x _⟩
    by_cases h4 : x.op = goNext
    · rw [op_next hg _ h4]
      split
      · exact herr dsError (by decide)
      · exact ⟨_, finish_ok x _⟩
    by_cases h5 : x.op = goPrev
    · rw [op_prev hg _ h5]
      split
      · exact herr dsError (by decide)
      · exact ⟨_, finish_ok x _⟩
    by_cases h6 : x.op = goLowest
    · rw [op_lowest hg _ h6 _ _ (by intro h; cases h)]
      simp only
      split
      · exact herr dsError (by decide)
      · exact ⟨_, finish_ok x _⟩
    by_cases h7 : x.op = goHighest
    · rw [op_highest_level hg h7]
      simp only
      split
      · exact herr dsError (by decide)
      · exact ⟨_, finish_ok x _⟩
    simp only [opOf, levelOp]
    rw [if_neg h3, if_neg h4, if_neg h5, if_neg h1, if_neg h2, if_neg h6, if_neg h7, Out.ok_bind]
    exact herr dsError (by decide)

end

/-- C18 for integers: with the default callbacks, when the records sorting before the stored pair
have integer subjects and predicates of the same types as the pair, nothing gets in between. -/
theorem C18_integers_partial {neg pos : UInt8} (hsym : Elen.Symbols neg pos) (f : FloatCodec) (heap : Nat) (b : Backend)
    (hist : List (Bool × ReqBody)) (d : DS)
    (hr : Reached (defaultCallbacks neg pos f) (plainTransform neg pos f) heap b hist d)
    (before after : List Triple) (s p : Blob) (o : Val) (ts tp : Elen.IntType)
    (hc : Contents (plainTransform neg pos f) (history (plainTransform neg pos f).accepts b hist)
      (before ++ (s.val, p.val, o) :: after))
    (hs : Plain s) (hp : Plain p) (hts : intType s.typ = some ts) (htp : intType p.typ = some tp)
    (hbefore : ∀ a ∈ before, a.1.typ = s.typ ∧ a.2.1.typ = p.typ)
    (x : GetOpItem) (hxs : x.subject = s) (hxp : x.predicate = p) (hn : 0 < x.numRecs) :
    (x.op = goEq → ∃ recs, getOpItem b (defaultCallbacks neg pos f) heap d.db x = .ok ⟨dsSuccess, recs⟩ ∧
      recs.map recVals = [(s.val, p.val, o)]) ∧
    (x.op = goNext → ∃ recs, getOpItem b (defaultCallbacks neg pos f) heap d.db x = .ok ⟨dsSuccess, recs⟩ ∧
      recs.map recVals = ((s.val, p.val, o) :: after).take x.numRecs) ∧
    (x.op = goPrev → ∃ recs, getOpItem b (defaultCallbacks neg pos f) heap d.db x = .ok ⟨dsSuccess, recs⟩ ∧
      recs.map recVals = ((s.val, p.val, o) :: before.reverse).take x.numRecs) := by
  obtain ⟨-, hg, -, -⟩ := reached_facts hr hc
  obtain ⟨⟨es, hes, -⟩, ⟨ep, hep, -⟩, -⟩ := hg _ (List.mem_append_right _ List.mem_cons_self)
  have hback : ∀ l : List Triple, l.map (plainTransform neg pos f).back = l := by
    intro l; induction l with
    | nil => rfl
    | cons a l ih => rw [List.map_cons, ih]; rfl
  have h := C18_start_at_pair_partial _ _ heap b hist d hr before after s p o es ep hc (plain_keyOk hsym f hs)
    (plain_keyOk hsym f hp) hes hep ?_ x hxs hxp hn
  · simp only [hback] at h
    exact h
  · intro a ha hpre
    obtain ⟨⟨es', hes', -⟩, ⟨ep', hep', -⟩, -⟩ := hg a (List.mem_append_left _ ha)
    obtain ⟨h1, h2⟩ := hbefore a ha
    have hlt := (List.pairwise_append.mp hc.sorted).2.2 a ha _ List.mem_cons_self
    obtain ⟨z1, rfl⟩ := int_stored hts hes
    obtain ⟨z2, rfl⟩ := int_stored htp hep
    obtain ⟨z3, rfl⟩ := int_stored (by rw [h1]; exact hts) hes'
    obtain ⟨z4, rfl⟩ := int_stored (by rw [h2]; exact htp) hep'
    unfold Transform.key at hpre hlt
    rw [hes', hep', h1, h2] at hpre hlt
    rw [hes, hep] at hlt
    simp only [Option.getD_some, Key.spToKey, List.append_assoc] at hpre
    rcases Int.lt_trichotomy z1 z3 with h3 | h3 | h3
    · exact (((Elen.encInt_diff hsym h3).append _ _).not_prefix u8_lt_irrefl) hpre
    · subst h3
      rw [List.prefix_append_right_inj] at hpre
      rcases Int.lt_trichotomy z2 z4 with h4 | h4 | h4
      · have h5 : ∀ v, ¬ Elen.encInt neg pos z2 <+: Elen.encInt neg pos z4 ++ v := fun v => by
          have := ((Elen.encInt_diff hsym h4).append [] v).not_prefix u8_lt_irrefl
          rwa [List.append_nil] at this
        exact h5 _ hpre
      · subst h4
        exact bytes_lt_irrefl _ hlt
      · have h5 : ∀ v, ¬ Elen.encInt neg pos z2 <+: Elen.encInt neg pos z4 ++ v := fun v => by
          have := ((Elen.encInt_diff hsym h4).append v []).not_prefix' u8_lt_irrefl
          rwa [List.append_nil] at this
        exact h5 _ hpre
    · exact (((Elen.encInt_diff hsym h3).append _ _).not_prefix' u8_lt_irrefl) hpre

/-- C20. A GETOP for `n` records returns at most `n` records: every operation, every backend, every
database, also one that was not built by this library. -/
theorem C20_at_most_n (b : Backend) (cb : Callbacks) (heap : Nat) (db : Db) (x : GetOpItem) (r : GetOpRes)
    (h : getOpItem b cb heap db x = .ok r) : r.recs.length ≤ x.numRecs := by
  unfold getOpItem at h
  cases hl : loopInit cb x with
  | err => rw [hl] at h; cases h
  | ub => rw [hl] at h; cases h
  | ok i =>
    rw [hl, Out.ok_bind] at h
    have hfin : ∀ g : G, g.recs.length ≤ x.numRecs → finish x g = .ok r → r.recs.length ≤ x.numRecs := by
      intro g hg hf
      unfold finish at hf
      split at hf
      · cases hf; exact hg
      · split at hf
        · cases hf
        · cases hf; simp; omega
    split at h
    · cases b with
      | mem =>
        simp only at h
        cases ho : memOp cb heap db x i.2.1 i.2.2 with
        | err => rw [ho] at h; cases h
        | ub => rw [ho] at h; cases h
        | ok g => rw [ho] at h; exact hfin g (length_opOf (b := .mem) ho) h
      | level =>
        simp only at h
        cases ho : levelOp cb heap db x i.2.1 i.2.2 with
        | err => rw [ho] at h; cases h
        | ub => rw [ho] at h; cases h
        | ok g => rw [ho] at h; exact hfin g (length_opOf (b := .level) ho) h
    · rw [Out.ok_bind] at h
      exact hfin _ (Nat.zero_le _) h

/-! ## Witnesses -/

/-- LAST on an empty in-memory datastore decrements `begin()`. -/
theorem C17_last_empty_ub (cb : Callbacks) (heap : Nat) (x : GetOpItem) (h : x.op = goLast) :
    getOpItem .mem cb heap [] x = .ub := by
  rw [getOpItem_nokey _ cb heap _ (by rw [h]; rfl)]
  simp only [opOf, memOp, h]
  rw [if_neg (by decide), if_neg (by decide), if_neg (by decide), if_neg (by decide), if_pos trivial]
  rfl

/-- The database after storing the given pairs. -/
def exDb (l : List (Bytes × Bytes × Bytes)) : Out Db :=
  memPut exCb [] (l.map (fun a => exPut a.1 a.2.1 a.2.2)) >>= fun r => .ok r.1

def exGetOp (op : Nat) (s p : Bytes) (n : Nat) : GetOpItem := ⟨op, exB s, exB p, 0, n⟩

/-- The values an operation returns after storing `l`. -/
def exRun (b : Backend) (l : List (Bytes × Bytes × Bytes)) (x : GetOpItem) : Out (Int × List (Bytes × Bytes × Bytes)) :=
  exDb l >>= fun db => getOpItem b exCb 100 db x >>= fun r =>
    .ok (r.status, r.recs.map (fun y => (y.subject.bytes, y.predicate.bytes, y.object.bytes)))

/-- FIRST, LAST, NEXT, PREV and LOWEST on three records. -/
example : exRun .mem [([3], [], [1]), ([1], [2], [2]), ([1], [3], [3])] (exGetOp goFirst [] [] 2) =
    .ok (dsSuccess, [([1], [2], [2]), ([1], [3], [3])]) := by decide +kernel
example : exRun .level [([3], [], [1]), ([1], [2], [2]), ([1], [3], [3])] (exGetOp goLast [] [] 2) =
    .ok (dsSuccess, [([3], [], [1]), ([1], [3], [3])]) := by decide +kernel
example : exRun .mem [([3], [], [1]), ([1], [2], [2]), ([1], [3], [3])] (exGetOp goNext [1] [3] 5) =
    .ok (dsSuccess, [([1], [3], [3]), ([3], [], [1])]) := by decide +kernel
example : exRun .mem [([3], [], [1]), ([1], [2], [2]), ([1], [3], [3])] (exGetOp goPrev [1] [3] 5) =
    .ok (dsSuccess, [([1], [3], [3]), ([1], [2], [2])]) := by decide +kernel
example : exRun .level [([3], [], [1]), ([1], [2], [2]), ([1], [3], [3])] (exGetOp goLowest [1] [] 5) =
    .ok (dsSuccess, [([1], [2], [2]), ([1], [3], [3])]) := by decide +kernel

/-- The hypotheses of the theorems above are met by a datastore of three records. -/
def exThree : List (Bool × ReqBody) := [(true, .put [exPut [3] [] [1], exPut [1] [2] [2], exPut [1] [3] [3]])]

theorem exThree_reached (b : Backend) : ∃ d, Reached exCb (plainTransform 0x2f 0x3a exFloat) 100 b exThree d := by
  cases b <;>
  · refine ⟨_, exDs _ [], rfl, rfl, rfl, ?_, rfl⟩
    intro x hx
    refine plain_bodyOk ⟨by decide, by decide⟩ exFloat ?_
    simp only [exThree, List.mem_cons, List.not_mem_nil, or_false] at hx
    subst hx
    intro y hy
    simp only [List.mem_cons, List.not_mem_nil, or_false] at hy
    rcases hy with rfl | rfl | rfl <;>
      exact ⟨exB_plain _ (by decide), exB_plain _ (by decide), exB_plain _ (by decide)⟩

theorem exThree_contents (b : Backend) : Contents (plainTransform 0x2f 0x3a exFloat)
    (history (plainTransform 0x2f 0x3a exFloat).accepts b exThree)
    [((exB [1]).val, (exB [2]).val, (exB [2]).val), ((exB [1]).val, (exB [3]).val, (exB [3]).val),
     ((exB [3]).val, (exB []).val, (exB [1]).val)] := by
  have hh : history (plainTransform 0x2f 0x3a exFloat).accepts b exThree =
      [.put (exB [3]).val (exB []).val (exB [1]).val, .put (exB [1]).val (exB [2]).val (exB [2]).val,
       .put (exB [1]).val (exB [3]).val (exB [3]).val] := by cases b <;> decide
  constructor
  · intro s p o
    rw [hh]
    simp only [lastObj, List.foldl, List.mem_cons, List.not_mem_nil, or_false, Prod.mk.injEq]
    split
    · rename_i h; obtain ⟨rfl, rfl⟩ := h; simp [exB, Blob.val, eq_comm]
    · split
      · rename_i h1 h; obtain ⟨rfl, rfl⟩ := h; simp [exB, Blob.val, eq_comm]
      · split
        · rename_i h1 h2 h; obtain ⟨rfl, rfl⟩ := h; simp [exB, Blob.val, eq_comm]
        · rename_i h1 h2 h3
          simp only [reduceCtorEq, iff_false]
          rintro (⟨rfl, rfl, -⟩ | ⟨rfl, rfl, -⟩ | ⟨rfl, rfl, -⟩)
          · exact h2 ⟨rfl, rfl⟩
          · exact h1 ⟨rfl, rfl⟩
          · exact h3 ⟨rfl, rfl⟩
  · decide

example (b : Backend) : ∃ d recs, Reached exCb (plainTransform 0x2f 0x3a exFloat) 100 b exThree d ∧
    getOpItem b exCb 100 d.db (exGetOp goPrev [1] [3] 5) = .ok ⟨dsSuccess, recs⟩ ∧
    recs.map recVals = [((exB [1]).val, (exB [3]).val, (exB [3]).val), ((exB [1]).val, (exB [2]).val, (exB [2]).val)] := by
  obtain ⟨d, hd⟩ := exThree_reached b
  obtain ⟨recs, h1, h2⟩ := (C18_start_at_pair_partial _ _ _ _ _ _ hd
    [((exB [1]).val, (exB [2]).val, (exB [2]).val)] [((exB [3]).val, (exB []).val, (exB [1]).val)] (exB [1]) (exB [3])
    (exB [3]).val [1] [3] (exThree_contents b) (plain_keyOk ⟨by decide, by decide⟩ _ (exB_plain _ (by decide)))
    (plain_keyOk ⟨by decide, by decide⟩ _ (exB_plain _ (by decide))) rfl rfl (by decide) (exGetOp goPrev [1] [3] 5) rfl rfl
    (by decide)).2.2 rfl
  exact ⟨d, recs, hd, h1, h2⟩

example (b : Backend) : ∃ d recs, Reached exCb (plainTransform 0x2f 0x3a exFloat) 100 b exThree d ∧
    getOpItem b exCb 100 d.db (exGetOp goLowest [1] [] 5) = .ok ⟨dsSuccess, recs⟩ ∧
    recs.map recVals = [((exB [1]).val, (exB [2]).val, (exB [2]).val), ((exB [1]).val, (exB [3]).val, (exB [3]).val)] := by
  obtain ⟨d, hd⟩ := exThree_reached b
  obtain ⟨recs, h1, h2⟩ := C19_lowest_partial _ _ _ _ _ _ hd _ (exThree_contents b) (exGetOp goLowest [1] [] 5) rfl
    [1] (some []) rfl rfl (by decide) (by decide) (by intro _ h; cases h) (by intro _; decide)
  exact ⟨d, recs, hd, h1, h2⟩

/-- `C18_exact` for NEXT with a pair that is not stored: the records behind it. -/
example (b : Backend) : ∃ d r, Reached exCb (plainTransform 0x2f 0x3a exFloat) 100 b exThree d ∧
    getOpItem b exCb 100 d.db (exGetOp goNext [1] [2, 0xff, 0xff] 5) = .ok r ∧ r.status = dsSuccess ∧
    r.recs.map recVals = [((exB [1]).val, (exB [3]).val, (exB [3]).val), ((exB [3]).val, (exB []).val, (exB [1]).val)] := by
  obtain ⟨d, hd⟩ := exThree_reached b
  have hok : ∃ r, getOpItem b exCb 100 d.db (exGetOp goNext [1] [2, 0xff, 0xff] 5) = .ok r := by
    obtain ⟨hdb, hg, -, -⟩ := reached_facts hd (exThree_contents b)
    rw [hdb]
    have h : (getOpItem b exCb 100 ([((exB [1]).val, (exB [2]).val, (exB [2]).val), ((exB [1]).val, (exB [3]).val, (exB [3]).val),
        ((exB [3]).val, (exB []).val, (exB [1]).val)].map (entry (plainTransform 0x2f 0x3a exFloat)))
        (exGetOp goNext [1] [2, 0xff, 0xff] 5) matches .ok _) = true := by cases b <;> decide +kernel
    revert h
    cases getOpItem b exCb 100 ([((exB [1]).val, (exB [2]).val, (exB [2]).val), ((exB [1]).val, (exB [3]).val, (exB [3]).val),
        ((exB [3]).val, (exB []).val, (exB [1]).val)].map (entry (plainTransform 0x2f 0x3a exFloat)))
        (exGetOp goNext [1] [2, 0xff, 0xff] 5) <;> intro h
    · exact ⟨_, rfl⟩
    · cases h
    · cases h
  obtain ⟨r, hr⟩ := hok
  have := C18_exact _ _ _ _ _ _ hd _ (exThree_contents b) _ (fun _ _ =>
    ⟨plain_keyOk ⟨by decide, by decide⟩ _ (exB_plain _ (by decide)), plain_keyOk ⟨by decide, by decide⟩ _ (exB_plain _ (by decide))⟩)
    r hr
  have ha : getOpAnswer (plainTransform 0x2f 0x3a exFloat) exCb.neg b
      [((exB [1]).val, (exB [2]).val, (exB [2]).val), ((exB [1]).val, (exB [3]).val, (exB [3]).val),
        ((exB [3]).val, (exB []).val, (exB [1]).val)] goNext (exB [1]).val (exB [2, 0xff, 0xff]).val 5 =
      some [((exB [1]).val, (exB [3]).val, (exB [3]).val), ((exB [3]).val, (exB []).val, (exB [1]).val)] := by
    cases b <;> decide +kernel
  unfold AnswersOp at this
  simp only [exGetOp] at this
  rw [ha] at this
  exact ⟨d, r, hd, hr, this⟩

/-- C18 is false for a pair that is not stored: EQ succeeds with the next record. -/
theorem C18_eq_absent_false (b : Backend) :
    exRun b [([2], [7], [9])] (exGetOp goEq [1] [7] 1) = .ok (dsSuccess, [([2], [7], [9])]) := by
  cases b <;> decide +kernel

/-- C18 is false even for a stored pair: EQ returns another record whose key starts with the
requested subject and predicate. -/
theorem C18_eq_other_false (b : Backend) :
    exRun b [([1], [], [8]), ([1], [5], [9])] (exGetOp goEq [1] [] 1) = .ok (dsSuccess, [([1], [5], [9])]) := by
  cases b <;> decide +kernel

/-- C19 is false for LOWEST with the documented null predicate of a numeric type: a byte string
predicate below the negative sign is not found. -/
theorem C19_lowest_skips_false (b : Backend) :
    exRun b [([1], [5], [9])] ⟨goLowest, exB [1], ⟨0, [], tInt32⟩, 0, 1⟩ = .ok (dsError, [([1], [], [])]) := by
  cases b <;> decide +kernel

/-- LOWEST without any matching record reports success with no record when something sorts behind
the prefix, and an error otherwise. -/
theorem C19_lowest_none_false (b : Backend) :
    exRun b [([2], [5], [9])] (exGetOp goLowest [1] [] 1) = .ok (dsSuccess, []) ∧
    exRun b [([2], [5], [9])] (exGetOp goLowest [3] [] 1) = .ok (dsError, [([3], [], [])]) := by
  cases b <;> exact ⟨by decide +kernel, by decide +kernel⟩

/-- LOWEST in memory compares past the end of a stored key shorter than the prefix. -/
theorem C19_lowest_short_key_ub :
    exRun .mem [([2], [], [9])] (exGetOp goLowest (List.replicate 25 1) [] 1) = .ub := by decide +kernel

/-- C19 is false for HIGHEST: the only record of the subject is not found. -/
theorem C19_highest_false :
    exRun .level [([1], [5], [9])] (exGetOp goHighest [1] [] 1) = .ok (dsError, [([1], [], [])]) ∧
    exRun .level [([0], [], [7]), ([1], [5], [9])] (exGetOp goHighest [1] [] 1) = .ok (dsSuccess, []) ∧
    exRun .mem [([0], [], [7]), ([1], [5], [9])] (exGetOp goHighest [1] [] 1) = .ok (dsSuccess, []) :=
  ⟨by decide +kernel, by decide +kernel, by decide +kernel⟩

/-- HIGHEST in memory decrements `begin()` when every record sorts behind the prefix. -/
theorem C19_highest_begin_ub :
    exRun .mem [([1], [5], [9])] (exGetOp goHighest [1] [] 1) = .ub := by decide +kernel

/-- C20 is false for `n = 0`: EQ writes the record it finds, and the error path writes the request,
into arrays of length 0. -/
theorem C20_zero_records_ub (b : Backend) :
    exRun b [([1], [2], [9])] (exGetOp goEq [1] [2] 0) = .ub ∧
    exRun b [] (exGetOp goFirst [] [] 0) = .ub := by
  cases b <;> exact ⟨by decide +kernel, by decide +kernel⟩

/-- Two records with integer subjects and predicates. -/
def exI (s : Bytes) : Blob := ⟨100, s, tInt32⟩
def exInts : List (Bool × ReqBody) := [(true, .put [⟨exI [5, 0, 0, 0], 1, exI [7, 0, 0, 0], 2, exB [1]⟩,
  ⟨exI [5, 0, 0, 0], 1, exI [4, 0, 0, 0], 2, exB [2]⟩])]

theorem exI_plain (s : Bytes) (h : s.length = 4) (h2 : Elen.ofMem ⟨4, true⟩ s ≠ (⟨4, true⟩ : Elen.IntType).min) : Plain (exI s) := by
  refine ⟨show tInt32 < 256 by decide, by show s.length < _; omega, ?_, show tInt32 ≠ tFloat ∧ tInt32 ≠ tDouble by decide⟩
  intro t ht
  have : t = ⟨4, true⟩ := by
    have h3 : intType (exI s).typ = some ⟨4, true⟩ := rfl
    rw [h3] at ht; cases ht; rfl
  subst this
  exact ⟨show (100 : Nat) ≠ 0 by decide, h, fun _ => h2⟩

example (b : Backend) : ∃ d recs, Reached exCb (plainTransform 0x2f 0x3a exFloat) 100 b exInts d ∧
    getOpItem b exCb 100 d.db ⟨goPrev, exI [5, 0, 0, 0], exI [7, 0, 0, 0], 0, 3⟩ = .ok ⟨dsSuccess, recs⟩ ∧
    recs.map recVals = [((exI [5, 0, 0, 0]).val, (exI [7, 0, 0, 0]).val, (exB [1]).val),
      ((exI [5, 0, 0, 0]).val, (exI [4, 0, 0, 0]).val, (exB [2]).val)] := by
  have hrun : ∃ d, DS.run exCb 100 (exDs b []) exInts = .ok d := by
    have h : (DS.run exCb 100 (exDs b []) exInts matches .ok _) = true := by cases b <;> decide +kernel
    revert h
    cases DS.run exCb 100 (exDs b []) exInts <;> intro h
    · exact ⟨_, rfl⟩
    · cases h
    · cases h
  obtain ⟨d, hd⟩ := hrun
  have p5 := exI_plain [5, 0, 0, 0] rfl (by decide)
  have p7 := exI_plain [7, 0, 0, 0] rfl (by decide)
  have p4 := exI_plain [4, 0, 0, 0] rfl (by decide)
  have hr : Reached exCb (plainTransform 0x2f 0x3a exFloat) 100 b exInts d := by
    refine ⟨exDs b [], rfl, rfl, rfl, ?_, hd⟩
    intro x hx
    refine plain_bodyOk ⟨by decide, by decide⟩ exFloat ?_
    simp only [exInts, List.mem_cons, List.not_mem_nil, or_false] at hx
    subst hx
    intro y hy
    simp only [List.mem_cons, List.not_mem_nil, or_false] at hy
    rcases hy with rfl | rfl
    · exact ⟨p5, p7, exB_plain _ (by decide)⟩
    · exact ⟨p5, p4, exB_plain _ (by decide)⟩
  have hc : Contents (plainTransform 0x2f 0x3a exFloat) (history (plainTransform 0x2f 0x3a exFloat).accepts b exInts)
      ([((exI [5, 0, 0, 0]).val, (exI [4, 0, 0, 0]).val, (exB [2]).val)] ++
        ((exI [5, 0, 0, 0]).val, (exI [7, 0, 0, 0]).val, (exB [1]).val) :: []) := by
    have hh : history (plainTransform 0x2f 0x3a exFloat).accepts b exInts =
        [.put (exI [5, 0, 0, 0]).val (exI [7, 0, 0, 0]).val (exB [1]).val,
         .put (exI [5, 0, 0, 0]).val (exI [4, 0, 0, 0]).val (exB [2]).val] := by cases b <;> decide +kernel
    constructor
    · intro s p o
      rw [hh]
      simp only [lastObj, List.foldl, List.mem_cons, List.not_mem_nil, or_false, Prod.mk.injEq, List.cons_append, List.nil_append]
      split
      · rename_i h; obtain ⟨rfl, rfl⟩ := h; simp [exI, exB, Blob.val, eq_comm]
      · split
        · rename_i h1 h; obtain ⟨rfl, rfl⟩ := h; simp [exI, exB, Blob.val, eq_comm]
        · rename_i h1 h2
          simp only [reduceCtorEq, iff_false]
          rintro (⟨rfl, rfl, -⟩ | ⟨rfl, rfl, -⟩)
          · exact h1 ⟨rfl, rfl⟩
          · exact h2 ⟨rfl, rfl⟩
    · decide +kernel
  obtain ⟨recs, h1, h2⟩ := (C18_integers_partial ⟨by decide, by decide⟩ exFloat 100 b exInts d hr _ _ (exI [5, 0, 0, 0])
    (exI [7, 0, 0, 0]) _ ⟨4, true⟩ ⟨4, true⟩ hc p5 p7 rfl rfl (by decide)
    ⟨goPrev, exI [5, 0, 0, 0], exI [7, 0, 0, 0], 0, 3⟩ rfl rfl (by decide)).2.2 rfl
  exact ⟨d, recs, hr, h1, h2⟩

/-- As `exRun`, with types. -/
def exRun' (b : Backend) (l : List PutItem) (x : GetOpItem) : Out (Int × List Triple) :=
  memPut exCb [] l >>= fun r => getOpItem b exCb 100 r.1 x >>= fun r => .ok (r.status, r.recs.map recVals)

/-- C18 is false for integers of different types: 5 and 7 as 64 bit values are found when the
32 bit values are asked for. -/
theorem C18_types_false (b : Backend) :
    exRun' b [⟨⟨100, [5, 0, 0, 0, 0, 0, 0, 0], tInt64⟩, 1, exI [7, 0, 0, 0], 2, exB [1]⟩] ⟨goEq, exI [5, 0, 0, 0], exI [7, 0, 0, 0], 0, 1⟩ =
      .ok (dsSuccess, [(⟨[5, 0, 0, 0, 0, 0, 0, 0], tInt64⟩, ⟨[7, 0, 0, 0], tInt32⟩, ⟨[1], tByte⟩)]) := by
  cases b <;> decide +kernel

end Hx.Props

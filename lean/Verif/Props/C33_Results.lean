import Verif.Model.Results
import Verif.Base.Wire
import Mathlib.Tactic.SplitIfs

/-!
# C33, C34, C35: results
-/

namespace Hx.Props
open Hx Msg Results

/-! ## C33 -/

/-- What a user or the library can do to a list of results, apart from reading it. -/
inductive REv where
  | head
  | next
  | add (l : List Result)

/-- One event in the model. -/
def rstep (r : Results) : REv → Out Results
  | .head => .ok r.goToHead
  | .next => r.goToNext
  | .add l => .ok (r.add l)

/-- A sequence of events. -/
def rrun : Results → List REv → Out Results
  | r, [] => .ok r
  | r, e :: l => rstep r e >>= fun r => rrun r l

/-- Specification: the results added by the events. -/
def added : List REv → List Result
  | [] => []
  | .add l :: evs => l ++ added evs
  | _ :: evs => added evs

private theorem rrun_append (r : Results) (l l' : List REv) :
    rrun r (l ++ l') = rrun r l >>= fun r => rrun r l' := by
  induction l generalizing r with
  | nil => rfl
  | cons e l ih =>
    simp only [List.cons_append, rrun]
    cases rstep r e <;> simp [ih]

private theorem push_items (r : Results) (l : List Result) : (r.push l).items = r.items ++ l := by
  unfold Results.push
  cases l <;> simp

/-- C33: whatever the user does with the iterator, the list holds the results in the order they were
added. -/
theorem C33_items (r r' : Results) (evs : List REv) (h : rrun r evs = .ok r') :
    r'.items = r.items ++ added evs ∧ r'.size = r.size + (added evs).length := by
  have key : r'.items = r.items ++ added evs := by
    induction evs generalizing r with
    | nil => cases h; simp [added]
    | cons e l ih =>
      cases e with
      | head => exact ih r.goToHead h
      | next =>
        simp only [rrun, rstep, Results.goToNext, Results.valid] at h
        cases hi : r.it with
        | none => rw [hi] at h; cases h
        | some i =>
          rw [hi] at h
          simp only [Out.ok_bind] at h
          have := ih _ h
          split_ifs at this <;> exact this
      | add l =>
        have := ih _ h
        rw [this]
        simp [Results.add, push_items, added]
  exact ⟨key, by simp [Results.size, key]⟩

private theorem nexts (r : Results) (n : Nat) (i : Nat) (hi : i ≤ r.items.length) (hr : r.it = some i) :
    rrun r (List.replicate n .next) = .ok ⟨r.items, some (min (i + n) r.items.length)⟩ := by
  induction n generalizing r i with
  | zero =>
    obtain ⟨items, it⟩ := r
    subst hr
    simp only [List.replicate, rrun, Nat.add_zero]
    rw [Nat.min_eq_left hi]
  | succ n ih =>
    obtain ⟨items, it⟩ := r
    subst hr
    simp only [List.replicate_succ, rrun, rstep, Results.goToNext, Results.valid, Out.ok_bind]
    dsimp only at hi
    by_cases h : i = items.length
    · rw [if_neg (by simp [h]), ih ⟨items, some i⟩ i hi rfl]
      simp [h]
    · rw [if_pos (by simp [h])]
      have := ih ⟨items, some (i + 1)⟩ (i + 1) (by dsimp only; omega) rfl
      simp only [Option.map_some]
      rw [this]
      simp only [Out.ok.injEq, Results.mk.injEq, Option.some.injEq, true_and]
      omega

/-- C33: after any additions and movements, GoToHead and `n` times GoToNext lead to result number
`n`, and behind the last result when there are not that many. -/
theorem C33_position (evs : List REv) (n : Nat) (r : Results) (h : rrun Results.create evs = .ok r) :
    ∃ r', rrun Results.create (evs ++ .head :: List.replicate n .next) = .ok r' ∧ r'.items = added evs ∧
      r'.current = .ok (added evs)[n]? ∧ r'.valid = .ok (decide (n < (added evs).length)) := by
  obtain ⟨hi, -⟩ := C33_items _ _ _ h
  have hi : r.items = added evs := by simpa [Results.create] using hi
  rw [rrun_append, h, Out.ok_bind]
  simp only [rrun, rstep, Out.ok_bind]
  rw [nexts r.goToHead n 0 (Nat.zero_le _) rfl]
  refine ⟨_, rfl, hi, ?_, ?_⟩
  · simp only [Results.current, Results.goToHead, hi, Nat.zero_add]
    by_cases hn : n < (added evs).length
    · rw [Nat.min_eq_left (by omega), if_neg (by omega), List.getElem?_eq_getElem hn]
    · rw [Nat.min_eq_right (by omega), if_pos rfl, List.getElem?_eq_none (by omega)]
  · simp only [Results.valid, Results.goToHead, hi, Nat.zero_add]
    by_cases hn : n < (added evs).length
    · rw [Nat.min_eq_left (by omega)]
      simp [hn]; omega
    · rw [Nat.min_eq_right (by omega)]
      simp [hn]

private theorem visit_from (items : List Result) (i fuel : Nat) (hi : i ≤ items.length) (hf : items.length - i < fuel) :
    visit fuel ⟨items, some i⟩ = .ok (items.drop i) := by
  induction fuel generalizing i with
  | zero => omega
  | succ fuel ih =>
    simp only [visit, Results.valid, Out.ok_bind]
    by_cases h : i = items.length
    · rw [if_neg (by simp [h]), h, List.drop_length]
    · have hlt : i < items.length := by omega
      rw [if_pos (by simp [h])]
      simp only [Results.current, if_neg h, List.getElem?_eq_getElem hlt, Out.ok_bind, Results.goToNext,
        Results.valid]
      rw [if_pos (by simp [h])]
      simp only [Option.map_some]
      rw [ih (i + 1) (by omega) (by omega)]
      rw [Out.ok_bind, List.drop_eq_getElem_cons hlt]

/-- C33: the loop over the results ends after as many rounds as there are results and sees every
result once, in order. -/
theorem C33_visits (r : Results) (fuel : Nat) (hf : r.size < fuel) :
    visit fuel r.goToHead = .ok r.items ∧ r.items.length = r.size := by
  refine ⟨?_, rfl⟩
  exact visit_from r.items 0 fuel (Nat.zero_le _) hf

/-- C33: behind the last result every accessor fails without touching the caller's variables, and
GoToNext stays there. -/
theorem C33_end (r : Results) (h : r.valid = .ok false) :
    (∀ v, r.op v = .ok (false, v)) ∧ (∀ v, r.status v = .ok (false, v)) ∧ (∀ v, r.rangeServer v = .ok (false, v)) ∧
    (∀ v, r.subject v = .ok (false, v)) ∧ (∀ v, r.predicate v = .ok (false, v)) ∧
    (∀ v, r.object v = .ok (false, v)) ∧ (∀ v, r.histogram v = .ok (false, v)) ∧
    (∀ v, r.histogramPtr v = .ok (false, v)) ∧ r.goToNext = .ok r := by
  obtain ⟨items, it⟩ := r
  cases it with
  | none => cases h
  | some i =>
    simp only [Results.valid, Out.ok.injEq, bne_eq_false_iff_eq] at h
    subst h
    simp [Results.op, Results.status, Results.rangeServer, Results.subject, Results.predicate, Results.object,
      Results.histogram, Results.histogramPtr, Results.current, Results.goToNext, Results.valid]

/-- C33 fails when results were added after the iterator was set, also by a new list's first
addition: the iterator dangles, and asking whether it is valid is undefined. -/
theorem C33_stale_iterator_ub (r : Results) (l : List Result) (h : l ≠ []) :
    (r.add l).valid = .ub ∧ (r.add l).goToNext = .ub ∧ (∀ v, (r.add l).op v = .ub) ∧
    (∀ v, (r.add l).status v = .ub) ∧ (∀ v, (r.add l).rangeServer v = .ub) ∧ (∀ v, (r.add l).subject v = .ub) ∧
    (∀ v, (r.add l).predicate v = .ub) ∧ (∀ v, (r.add l).object v = .ub) ∧ (∀ v, (r.add l).histogram v = .ub) ∧
    (∀ v, (r.add l).histogramPtr v = .ub) := by
  have : (r.add l).it = none := by cases l <;> simp_all [Results.add, Results.push]
  simp [Results.op, Results.status, Results.rangeServer, Results.subject, Results.predicate, Results.object,
    Results.histogram, Results.histogramPtr, Results.current, Results.goToNext, Results.valid, this]

/-- C33: appending moves all results of the other list behind the ones of this list. -/
theorem C33_append (r other : Results) :
    (r.append other).1.items = r.items ++ other.items ∧ (r.append other).2.items = [] :=
  ⟨push_items r other.items, rfl⟩

private theorem bne_lt {a b : Nat} (h : a ≤ b) : (a != b) = decide (a < b) := by
  by_cases h1 : a = b
  · simp [h1]
  · have : a < b := by omega
    simp [h1, this]

/-- C33: the C functions report whether the new position is valid. -/
theorem C33_c_interface (r : Results) :
    cGoToHead (some r) = .ok (decide (0 < r.size), some r.goToHead) ∧ cGoToHead none = .ok (false, none) ∧
    (∀ i, r.it = some i → i < r.size →
      cGoToNext (some r) = .ok (decide (i + 1 < r.size), some ⟨r.items, some (i + 1)⟩)) ∧
    cGoToNext none = .ok (false, none) := by
  refine ⟨?_, rfl, ?_, rfl⟩
  · simp only [cGoToHead, Results.valid, Results.goToHead, Results.size, Out.ok_bind]
    congr 2
    exact bne_lt (Nat.zero_le _)
  · intro i hi hlt
    obtain ⟨items, it⟩ := r
    subst hi
    simp only [Results.size] at hlt ⊢
    have h : (i != items.length) = true := by simp; omega
    simp only [cGoToNext, Results.goToNext, Results.valid, Out.ok_bind, h, if_true, Option.map_some]
    congr 2
    exact bne_lt hlt

private def exPut : Result := initPut 3 ⟨dsSuccess, ⟨10, 2, 1⟩, ⟨20, 3, 1⟩⟩
private def exGet : Result := initGet 3 ⟨dsError, ⟨10, 2, 1⟩, ⟨20, 3, 1⟩, Blob.null⟩

example : ∃ r, rrun Results.create [.add [exPut], .head, .next, .next, .add [exGet, exPut], .head, .next] = .ok r :=
  ⟨_, rfl⟩

example : (⟨[exPut], some 1⟩ : Results).valid = .ok false := rfl

/-! ## C34 -/

/-- C34: Subject and Predicate succeed exactly for PUT, GET, GETOP and DELETE results, and then set
exactly the variables the caller passed. -/
theorem C34_subject_predicate (r : Results) (x : Result) (h : r.current = .ok (some x)) (v : Vars) :
    (x.kind = .put ∨ x.kind = .get ∨ x.kind = .getop ∨ x.kind = .del →
      r.subject v = .ok (true, ⟨v.ptr.map (fun _ => x.subject.addr), v.len.map (fun _ => x.subject.len),
        v.typ.map (fun _ => x.subject.typ)⟩) ∧
      r.predicate v = .ok (true, ⟨v.ptr.map (fun _ => x.predicate.addr), v.len.map (fun _ => x.predicate.len),
        v.typ.map (fun _ => x.predicate.typ)⟩)) ∧
    (x.kind = .sync ∨ x.kind = .hist → r.subject v = .ok (false, v) ∧ r.predicate v = .ok (false, v)) := by
  simp only [Results.subject, Results.predicate, h, Out.ok_bind]
  cases hk : x.kind <;> simp [Datum.get]

/-- C34: Object succeeds exactly for successful GET and GETOP results. -/
theorem C34_object (r : Results) (x : Result) (h : r.current = .ok (some x)) (v : Vars) :
    ((x.kind = .get ∨ x.kind = .getop) ∧ x.status = hxSuccess →
      r.object v = .ok (true, ⟨v.ptr.map (fun _ => x.object.addr), v.len.map (fun _ => x.object.len),
        v.typ.map (fun _ => x.object.typ)⟩)) ∧
    (¬ ((x.kind = .get ∨ x.kind = .getop) ∧ x.status = hxSuccess) → r.object v = .ok (false, v)) := by
  simp only [Results.object, h, Out.ok_bind]
  by_cases hs : x.status = hxSuccess <;> cases hk : x.kind <;> simp [Datum.get, hs]

/-- C34: Op, Status and RangeServer succeed for every result. -/
theorem C34_always (r : Results) (x : Result) (h : r.current = .ok (some x)) :
    (∀ v, r.op v = .ok (true, v.map (fun _ => x.kind))) ∧ (∀ v, r.status v = .ok (true, v.map (fun _ => x.status))) ∧
    (∀ v, r.rangeServer v = .ok (true, v.map (fun _ => x.rs))) := by
  simp [Results.op, Results.status, Results.rangeServer, h]

/-- C34: the pointer form of Histogram succeeds exactly for successful histogram results. -/
theorem C34_histogram_pointer (r : Results) (x : Result) (h : r.current = .ok (some x)) (v : Option (Option Hist)) :
    (x.kind = .hist ∧ x.status = hxSuccess → r.histogramPtr v = .ok (true, v.map (fun _ => x.hist))) ∧
    (¬ (x.kind = .hist ∧ x.status = hxSuccess) → r.histogramPtr v = .ok (false, v)) := by
  simp only [Results.histogramPtr, h, Out.ok_bind]
  by_cases hs : x.status = hxSuccess <;> cases hk : x.kind <;> simp [hs]

/-- C34, partial: the five-variable form of Histogram succeeds for a successful histogram result whose
buckets exist, and fails without touching the variables for results that are not successful
histograms. Missing: histograms that have not seen enough values (`C34_histogram_false`). -/
theorem C34_histogram_partial (r : Results) (x : Result) (h : r.current = .ok (some x)) (v : HistVars) :
    (∀ g, x.kind = .hist → x.status = hxSuccess → x.hist = some g → g.firstN ≤ g.count →
      r.histogram v = .ok (true, ⟨v.name.map (fun _ => g.name), v.nameLen.map (fun _ => g.name.length),
        v.buckets.map (fun _ => g.buckets), v.counts.map (fun _ => g.counts), v.size.map (fun _ => g.size)⟩)) ∧
    (¬ (x.kind = .hist ∧ x.status = hxSuccess) → r.histogram v = .ok (false, v)) := by
  simp only [Results.histogram, h, Out.ok_bind]
  refine ⟨fun g hk hs hg hc => ?_, fun hn => ?_⟩
  · simp [hk, hs, hg, getHist, getName, Nat.not_lt.mpr hc]
  · rw [if_pos]
    by_cases hk : x.kind = .hist
    · exact .inr (fun hs => hn ⟨hk, hs⟩)
    · exact .inl hk

/-- C34 fails for a successful histogram result without buckets yet: Histogram returns an error, but
has already set the caller's name variables. -/
theorem C34_histogram_false :
    ∃ (r : Results) (x : Result) (v : HistVars) (w : HistVars), r.current = .ok (some x) ∧ x.kind = .hist ∧
      x.status = hxSuccess ∧ r.histogram v = .ok (false, w) ∧ v.nameLen = some 7 ∧ w.nameLen = some 1 :=
  ⟨⟨[initHist 0 ⟨dsSuccess, some (Hist.create 5 none [65])⟩], some 0⟩,
    initHist 0 ⟨dsSuccess, some (Hist.create 5 none [65])⟩, ⟨some [], some 7, none, none, none⟩,
    ⟨some [65], some 1, none, none, none⟩, rfl, rfl, rfl, rfl, rfl, rfl⟩

/-- C34: the same holds through the C interface, which also refuses null pointers. -/
theorem C34_c_interface {α : Type} (f : Results → α → Out (Bool × α)) (v : α) :
    viaC f none v = .ok (false, v) ∧ ∀ r, viaC f (some r) v = f r v := ⟨rfl, fun _ => rfl⟩

example : (⟨[exPut, exGet], some 1⟩ : Results).current = .ok (some exGet) := rfl

/-! ## C35 -/

/-- What can be read from a result. -/
structure View where
  kind : Kind
  rs : Int
  success : Bool
  subject : Datum
  predicate : Datum
  object : Option Datum
  deriving DecidableEq

/-- What the accessors give for a result; the object only when `Object` succeeds. -/
def view (x : Result) : View :=
  ⟨x.kind, x.rs, decide (x.status = hxSuccess), x.subject, x.predicate,
    if (x.kind = .get ∨ x.kind = .getop) ∧ x.status = hxSuccess then some x.object else none⟩

/-- Specification: the results a response stands for. -/
def expected (res : Res) : List View :=
  match res.body with
  | .put l => l.map (fun x => ⟨.put, res.src, decide (x.status = dsSuccess), .ref x.subject, .ref x.predicate, none⟩)
  | .get l => l.map (fun x => ⟨.get, res.src, decide (x.status = dsSuccess), .ref x.subject, .ref x.predicate,
      if x.status = dsSuccess then some (.own x.object) else none⟩)
  | .getop l => l.flatMap (fun x => x.recs.map (fun y =>
      ⟨.getop, res.src, decide (x.status = dsSuccess), .own y.subject, .own y.predicate,
        if x.status = dsSuccess then some (.own y.object) else none⟩))
  | .del l => l.map (fun x => ⟨.del, res.src, decide (x.status = dsSuccess), .ref x.subject, .ref x.predicate, none⟩)
  | .hist l => l.map (fun x =>
      ⟨.hist, res.src, decide (x.status = dsSuccess), .own Blob.null, .own Blob.null, none⟩)

private theorem foldl_add {α : Type} (f : α → Result) (l : List α) (r : Results) :
    (l.foldl (fun r x => r.add [f x]) r).items = r.items ++ l.map f := by
  induction l generalizing r with
  | nil => simp
  | cons a l ih => rw [List.foldl_cons, ih, Results.add, push_items]; simp

private theorem addGetOps_ok (src : Int) (l : List GetOpRes) (r : Results) (h : ∀ x ∈ l, x.recs ≠ []) :
    ∃ r', addGetOps src l r = .ok r' ∧ r'.items = r.items ++ l.flatMap (fun x => x.recs.map (initRec src x.status)) := by
  induction l generalizing r with
  | nil => exact ⟨r, rfl, by simp⟩
  | cons x l ih =>
    have hx : x.recs.isEmpty = false := by simpa using h x (by simp)
    obtain ⟨r', h1, h2⟩ := ih (r.add (x.recs.map (initRec src x.status))) (fun y hy => h y (by simp [hy]))
    refine ⟨r', ?_, ?_⟩
    · simp only [addGetOps, initGetOp, hx, Bool.false_eq_true, if_false, Out.ok_bind]
      exact h1
    · rw [h2]; simp [Results.add, push_items]

private theorem view_create (k : Kind) (rs st : Int) :
    (Result.create k rs st).status = hxSuccess ↔ st = dsSuccess := by
  simp only [Result.create]
  split_ifs with h <;> simp [h, hxSuccess, hxError]

private theorem view_put (src : Int) (x : StatusItem) :
    view (initPut src x) = ⟨.put, src, decide (x.status = dsSuccess), .ref x.subject, .ref x.predicate, none⟩ := by
  by_cases h : x.status = dsSuccess <;> simp [view, initPut, Result.create, h, hxSuccess, hxError]

private theorem view_del (src : Int) (x : StatusItem) :
    view (initDel src x) = ⟨.del, src, decide (x.status = dsSuccess), .ref x.subject, .ref x.predicate, none⟩ := by
  by_cases h : x.status = dsSuccess <;> simp [view, initDel, Result.create, h, hxSuccess, hxError]

private theorem view_get (src : Int) (x : GetRes) :
    view (initGet src x) = ⟨.get, src, decide (x.status = dsSuccess), .ref x.subject, .ref x.predicate,
      if x.status = dsSuccess then some (.own x.object) else none⟩ := by
  by_cases h : x.status = dsSuccess <;> simp [view, initGet, Result.create, h, hxSuccess, hxError]

private theorem view_rec (src st : Int) (x : Rec) :
    view (initRec src st x) = ⟨.getop, src, decide (st = dsSuccess), .own x.subject, .own x.predicate,
      if st = dsSuccess then some (.own x.object) else none⟩ := by
  by_cases h : st = dsSuccess <;> simp [view, initRec, Result.create, h, hxSuccess, hxError]

private theorem view_hist (src : Int) (x : HistRes) :
    view (initHist src x) = ⟨.hist, src, decide (x.status = dsSuccess), .own Blob.null, .own Blob.null, none⟩ := by
  by_cases h : x.status = dsSuccess <;> simp [view, initHist, Result.create, h, hxSuccess, hxError]

/-- C35, partial: each entry of a response becomes a result with the right status and fields, in
order, and a GETOP with `k` records becomes `k` results in record order. Missing: GETOPs without
records (`C35_no_records_ub`). -/
theorem C35_results_partial (r : Results) (res : Res)
    (h : ∀ l, res.body = .getop l → ∀ x ∈ l, x.recs ≠ []) :
    ∃ r', addResponse r res = .ok r' ∧ r'.items.map view = r.items.map view ++ expected res := by
  obtain ⟨src, dst, body⟩ := res
  cases body with
  | put l => exact ⟨_, rfl, by simp [foldl_add, expected, Function.comp_def, view_put]⟩
  | get l => exact ⟨_, rfl, by simp [foldl_add, expected, Function.comp_def, view_get]⟩
  | getop l =>
    obtain ⟨r', h1, h2⟩ := addGetOps_ok src l r (h l rfl)
    refine ⟨r', h1, ?_⟩
    rw [h2]
    simp [expected, List.map_flatMap, Function.comp_def, view_rec]
  | del l => exact ⟨_, rfl, by simp [foldl_add, expected, Function.comp_def, view_del]⟩
  | hist l => exact ⟨_, rfl, by simp [foldl_add, expected, Function.comp_def, view_hist]⟩

/-- C35: the histograms of a response become the histograms of the results. -/
theorem C35_histograms (r r' : Results) (src dst : Int) (l : List HistRes)
    (h : addResponse r ⟨src, dst, .hist l⟩ = .ok r') :
    ∃ new, r'.items = r.items ++ new ∧ new.length = l.length ∧
      ∀ (i : Nat) (x : HistRes) (y : Result), l[i]? = some x → new[i]? = some y →
        (x.status = dsSuccess → y.status = hxSuccess ∧ y.hist.isSome = x.hist.isSome ∧ ∀ g, x.hist = some g → y.hist = some g) ∧
        (x.status ≠ dsSuccess → y.status = hxError ∧ y.hist.isNone) := by
  simp only [addResponse, Out.ok.injEq] at h
  subst h
  refine ⟨l.map (initHist src), foldl_add _ _ _, by simp, ?_⟩
  intro i x y hx hy
  rw [List.getElem?_map, hx] at hy
  simp only [Option.map_some, Option.some.injEq] at hy
  subst hy
  refine ⟨fun hs => ?_, fun hs => ?_⟩
  · simp [initHist, Result.create, hs]
  · simp [initHist, Result.create, hs]

/-- C35: the responses of a chain become results one after the other. -/
theorem C35_chain_partial (l : List Res) (r : Results)
    (h : ∀ res ∈ l, ∀ g, res.body = .getop g → ∀ x ∈ g, x.recs ≠ []) :
    ∃ r', addAll l r = .ok r' ∧ r'.items.map view = r.items.map view ++ l.flatMap expected := by
  induction l generalizing r with
  | nil => exact ⟨r, rfl, by simp⟩
  | cons res l ih =>
    obtain ⟨r1, h1, h2⟩ := C35_results_partial r res (h res (by simp))
    obtain ⟨r2, h3, h4⟩ := ih r1 (fun x hx => h x (by simp [hx]))
    refine ⟨r2, by simp [addAll, h1, h3], ?_⟩
    rw [h4, h2]; simp

/-- C35 fails for a GETOP without records, whatever its status: the result is used after it has been
destroyed. -/
theorem C35_no_records_ub (r : Results) (src dst : Int) (before after : List GetOpRes) (x : GetOpRes)
    (hx : x.recs = []) : addResponse r ⟨src, dst, .getop (before ++ x :: after)⟩ = .ub := by
  simp only [addResponse]
  induction before generalizing r with
  | nil => simp [addGetOps, initGetOp, hx]
  | cons y l ih =>
    simp only [List.cons_append, addGetOps]
    cases hy : initGetOp src y with
    | ok c => simp only [Out.ok_bind]; exact ih _
    | err =>
      simp only [initGetOp] at hy
      split_ifs at hy
    | ub => rfl

example : ∃ r', addResponse Results.create
    ⟨1, 0, .getop [⟨dsSuccess, [⟨⟨1, [1], 1⟩, ⟨2, [2], 1⟩, ⟨3, [3], 1⟩⟩, ⟨⟨1, [1], 1⟩, ⟨2, [4], 1⟩, ⟨3, [5], 1⟩⟩]⟩]⟩ = .ok r' ∧
    r'.items.length = 2 := ⟨_, rfl, rfl⟩

/-- `HXHIM_SUCCESS` and `HXHIM_ERROR` (include/hxhim/constants.h:21-24): what users compare with. -/
theorem C35_codes (k : Kind) (rs st : Int) : (Result.create k rs st).status = if st = 1 then 3 else 4 := rfl

end Hx.Props

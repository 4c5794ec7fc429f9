import Verif.Proofs.LowestNum
import Verif.Proofs.LowestCells

/-!
# C75: the lowest numbers

`Spec/Lowest.lean` says what "the `n` lowest" is. The datastore was opened empty and has processed packets with the triples of readings in
any of their orders (`Records`), as `HXHIM_PUT_ALL` writes them; then it is asked for LOWEST or HIGHEST of the attribute with a null
predicate of the type of the numbers, as `examples/hxhim/lowest.c` does.
-/

namespace Hx.Props
open Hx Msg Spec Store Elen Fp

/-! ## LOWEST -/

private theorem asks {cb : Callbacks} {attr : Bytes} {t : Nat} {x : GetOpItem} (hs : x.subject.val = text attr) (ha : x.predicate.addr = 0)
    (ht : x.predicate.typ = t) (hn : isNumeric t = true) (he : ∀ b : Blob, b.addr = 0 → b.typ = t → cb.encode b = .ok none) : Asks cb attr t x :=
  ⟨hs, ⟨ha, ht⟩, hn, he _ ha ht⟩

private theorem operate_one {cb : Callbacks} {heap : Nat} {wr : Bool} {d : DS} {x : GetOpItem} {res : GetOpRes} (hu : d.usable = true)
    (h : getOpItem d.backend cb heap d.db x = .ok res) :
    ∃ d', d.operate cb heap wr (.getop [x]) = .ok (d', some (.getop [res])) := by
  simp only [DS.operate, hu, if_true, getOpAll, h, Out.ok_bind]
  exact ⟨_, rfl⟩

private theorem operate_inv {cb : Callbacks} {heap : Nat} {wr : Bool} {d d' : DS} {x : GetOpItem} {res : GetOpRes} (hu : d.usable = true)
    (h : d.operate cb heap wr (.getop [x]) = .ok (d', some (.getop [res]))) : getOpItem d.backend cb heap d.db x = .ok res := by
  simp only [DS.operate, hu, if_true, getOpAll] at h
  cases hg : getOpItem d.backend cb heap d.db x with
  | err => rw [hg] at h; cases h
  | ub => rw [hg] at h; cases h
  | ok r =>
    rw [hg] at h
    simp only [Out.ok_bind] at h
    injection h with h
    injection h with _ h
    injection h with h
    injection h with h
    injection h with h _
    rw [h]

/-- C75, integers. LOWEST with a null predicate of the type of the numbers is answered with the names of the `n` things with the lowest
numbers, in ascending order; things with the same number count once. -/
theorem C75_lowest_integers {neg pos : UInt8} (hs : Symbols neg pos) (f : FloatCodec) (heap : Nat) (wr : Bool) (t : Nat) (i : IntType)
    (ht : intType t = some i) (attr : Bytes) (rs : List Reading) (hne : rs ≠ [])
    (hn : ∀ r ∈ rs, r.num.typ = t ∧ Plain ⟨1, r.num.bytes, t⟩) (hold : ∀ r ∈ rs, Told pos attr r.name)
    (d0 d : DS) (hu : d0.usable = true) (he : d0.db = []) (hlen : d0.backend = .mem → attr.length ≤ 19)
    (hist : List (Bool × ReqBody)) (hrec : Records d0.backend attr rs hist)
    (hrun : DS.run (defaultCallbacks neg pos f) heap d0 hist = .ok d)
    (x : GetOpItem) (hop : x.op = goLowest) (hsub : x.subject.val = text attr) (hnull : x.predicate.addr = 0) (hpt : x.predicate.typ = t) :
    ∃ d' recs, d.operate (defaultCallbacks neg pos f) heap wr (.getop [x]) = .ok (d', some (.getop [⟨dsSuccess, recs⟩])) ∧
      IsLowest (fun r => ofMem i r.num.bytes) (fun r s => ofMem i r.num.bytes = ofMem i s.num.bytes) (fun r v => v = r.num) attr rs
        x.numRecs recs := by
  have nums := int_nums hs f ht hn hold
  obtain ⟨u, b, holds⟩ := holds_of_run nums hu he hrec hrun
  have hnum : isNumeric t = true := by
    unfold intType at ht
    unfold isNumeric
    split at ht
    · rename_i h; rw [h]; rfl
    · split at ht
      · rename_i h; rw [h]; rfl
      · split at ht
        · rename_i h; rw [h]; rfl
        · split at ht
          · rename_i h; rw [h]; rfl
          · cases ht
  have hx : Asks (defaultCallbacks neg pos f) attr t x := asks hsub hnull hpt hnum (by
    intro b hb hbt; simp only [defaultCallbacks, hbt, ht, hb, if_true])
  rw [← b] at hlen
  obtain ⟨recs, h1, h2⟩ := nums.lowest (heap := heap) holds hne hlen hx rfl hop (fun r => (ofMem i r.num.bytes : ℚ)) (by
    intro r hr s hs' hlt
    have := (C06_predicate_order hs (text attr) t _ _).mp hlt
    exact_mod_cast this)
  obtain ⟨d', h3⟩ := operate_one (wr := wr) u h1
  refine ⟨d', recs, h3, ?_⟩
  obtain ⟨sel, shown, more, g1, g2, g3, g4, g5, g6, g7, g8⟩ := h2
  have inj : ∀ r s : Reading, encInt neg pos (ofMem i r.num.bytes) = encInt neg pos (ofMem i s.num.bytes) →
      ofMem i r.num.bytes = ofMem i s.num.bytes := by
    intro r s e
    rcases Int.lt_trichotomy (ofMem i r.num.bytes) (ofMem i s.num.bytes) with h | h | h
    · have := (C03_integer_order hs _ _).mpr h; rw [e] at this; exact absurd this (bytes_lt_irrefl _)
    · exact h
    · have := (C03_integer_order hs _ _).mpr h; rw [e] at this; exact absurd this (bytes_lt_irrefl _)
  have val : ∀ r ∈ rs, (⟨r.num.bytes, t⟩ : Val) = r.num := fun r hr => by rw [← (hn r hr).1]
  refine ⟨sel, shown, more, g1, g2, ?_, g4, g5, ?_, ?_, ?_⟩
  · refine List.forall₂_iff_get.mpr ⟨g3.length_eq, fun k h4 h5 => ?_⟩
    obtain ⟨e1, e2, e3⟩ := (List.forall₂_iff_get.mp g3).2 k h4 h5
    exact ⟨e1, e2.trans (val _ (g4 _ (List.get_mem _ _))), e3⟩
  · intro r hr
    rcases g6 r hr with ⟨s, h4, h5⟩ | h4
    · exact .inl ⟨s, h4, inj _ _ h5⟩
    · exact .inr h4
  · intro hm r hr
    obtain ⟨s, h4, h5⟩ := g7 hm r hr
    exact ⟨s, h4, inj _ _ h5⟩
  · intro c hc
    obtain ⟨r, h4, h5, h6, h7⟩ := g8 c hc
    exact ⟨r, h4, h5, h6, h7.trans (val r h4)⟩

/-- What is known of the floats or doubles of readings: 0 or not extremely large or small, given by `value`. -/
def Numbers (t : Nat) (value : Reading → ℚ) (rs : List Reading) : Prop :=
  ∀ r ∈ rs, r.num.typ = t ∧ numSize t ≤ r.num.bytes.length ∧ (numberIn t r.num.bytes).value = some (value r) ∧
    (value r = 0 ∨ Moderate t (value r))

/-- What comes back for a float or double: a number of the same type, close to it unless its exponent gets lost. -/
def Close (t prec : Nat) (value : Reading → ℚ) (r : Reading) (v : Val) : Prop :=
  v.typ = t ∧ v.bytes.length = numSize t ∧
    ∃ z, (numberIn t v.bytes).value = some z ∧ (¬ LosesExponent (value r) → |z - value r| ≤ |value r| * relErr t prec 8)

private noncomputable def storedForm (c : FloatCodec) (r : Reading) : Bytes :=
  match c.encode r.num with
  | .ok (some a) => a
  | _ => []

private noncomputable def readForm (c : FloatCodec) (r : Reading) : Bytes :=
  match c.decode ⟨storedForm c r, r.num.typ⟩ with
  | .ok (some a) => a
  | _ => []

private theorem flt_nums {lib : Libm} (hl : LibmOk lib) {neg pos : UInt8} (hs : Symbols neg pos) {fprec dprec : Nat} {t : Nat}
    (ht : t = tFloat ∨ t = tDouble) (hp : 2 ≤ precOf t fprec dprec) (hp' : precOf t fprec dprec < 2 ^ 63) {attr : Bytes}
    {rs : List Reading} {value : Reading → ℚ} (hn : Numbers t value rs) (hold : ∀ r ∈ rs, Told pos attr r.name) :
    Nums neg pos (defaultCallbacks neg pos (codec lib neg pos fprec dprec)) t attr rs (storedForm (codec lib neg pos fprec dprec))
      (readForm (codec lib neg pos fprec dprec)) ∧
    (∀ r ∈ rs, (codec lib neg pos fprec dprec).encode r.num = .ok (some (storedForm (codec lib neg pos fprec dprec) r))) ∧
    ∀ r ∈ rs, Close t (precOf t fprec dprec) value r ⟨readForm (codec lib neg pos fprec dprec) r, t⟩ := by
  have good : ∀ r ∈ rs, (codec lib neg pos fprec dprec).encode r.num = .ok (some (storedForm (codec lib neg pos fprec dprec) r)) ∧
      NumForm neg pos (storedForm (codec lib neg pos fprec dprec) r) ∧ (storedForm (codec lib neg pos fprec dprec) r).length < 2 ^ 64 ∧
      (codec lib neg pos fprec dprec).decode ⟨storedForm (codec lib neg pos fprec dprec) r, t⟩ =
        .ok (some (readForm (codec lib neg pos fprec dprec) r)) ∧
      Close t (precOf t fprec dprec) value r ⟨readForm (codec lib neg pos fprec dprec) r, t⟩ := by
    intro r hr
    obtain ⟨h1, h2, h3, h4⟩ := hn r hr
    rw [← h1] at hp hp' h2 h3 h4
    obtain ⟨a, m, z, c1, c2, c3, c4, c5, c6, c7⟩ := num_stored hl hs fprec dprec r.num hp hp' h2 h3 h4
    have e1 : storedForm (codec lib neg pos fprec dprec) r = a := by unfold storedForm; rw [c1]
    have e2 : readForm (codec lib neg pos fprec dprec) r = m := by unfold readForm; rw [e1, c4]
    rw [e1, e2, ← h1]
    exact ⟨c1, c2, c3, c4, rfl, c5, z, c6, c7⟩
  refine ⟨⟨fun r hr => (hn r hr).1, ?_, ?_, fun r hr => (good r hr).2.1, fun r hr => (good r hr).2.2.1, hold, ?_, byte_enc _ _ _,
    byte_dec _ _ _, symbols_lt hs⟩, fun r hr => (good r hr).1, fun r hr => (good r hr).2.2.2.2⟩
  · intro r hr b ha hb
    have hbt : b.typ = t := (congrArg Val.typ hb).trans (hn r hr).1
    rw [enc_float (by rw [hbt]; exact ht) ha, hb]
    exact (good r hr).1
  · intro r hr
    rw [dec_float (show (⟨_, t⟩ : Val).typ = tFloat ∨ (⟨_, t⟩ : Val).typ = tDouble from ht)]
    exact (good r hr).2.2.2.1
  · rcases ht with rfl | rfl <;> decide

private theorem flt_asks {neg pos : UInt8} {f : FloatCodec} {attr : Bytes} {t : Nat} {x : GetOpItem} (ht : t = tFloat ∨ t = tDouble)
    (hs : x.subject.val = text attr) (ha : x.predicate.addr = 0) (hpt : x.predicate.typ = t) :
    Asks (defaultCallbacks neg pos f) attr t x :=
  asks hs ha hpt (by rcases ht with rfl | rfl <;> decide) (by
    intro b hb hbt
    have hi : intType t = none := by rcases ht with h | h <;> rw [h] <;> decide
    simp only [defaultCallbacks, hbt, hi, hb, if_true]
    rw [if_pos ht])

private theorem flt_value {lib : Libm} (hl : LibmOk lib) {neg pos : UInt8} (hs : Symbols neg pos) {fprec dprec : Nat} {t : Nat}
    {attr : Bytes} {rs : List Reading} {value : Reading → ℚ} (hn : Numbers t value rs)
    (hst : ∀ r ∈ rs, (codec lib neg pos fprec dprec).encode r.num = .ok (some (storedForm (codec lib neg pos fprec dprec) r))) :
    ∀ r ∈ rs, ∀ s ∈ rs, numKey attr t (storedForm (codec lib neg pos fprec dprec)) r < numKey attr t (storedForm (codec lib neg pos fprec dprec)) s →
      value r < value s := by
  intro r hr s hs' hlt
  by_contra hge
  obtain ⟨r1, r2, r3, -⟩ := hn r hr
  obtain ⟨s1, s2, s3, -⟩ := hn s hs'
  rw [← r1] at r2 r3
  rw [← s1] at s2 s3
  obtain ⟨a, b, ha, hb, hab⟩ := C59_order hl hs fprec dprec s.num r.num (s1.trans r1.symm) s2 r2 s3 r3 (not_lt.mp hge)
  rw [hst s hs'] at ha
  rw [hst r hr] at hb
  injection ha with ha; injection ha with ha
  injection hb with hb; injection hb with hb
  unfold numKey at hlt
  rw [ha, hb] at hlt
  rcases hab with rfl | hab
  · exact bytes_lt_irrefl _ hlt
  · refine bytes_lt_asymm hlt ?_
    unfold Key.spToKey
    simp only [List.append_assoc]
    exact hab _ _ _

/-- C75, floats and doubles. LOWEST with a null predicate of the type of the numbers is answered with the names of the `n` things with the
lowest numbers, in ascending order; things whose numbers are stored alike count once. -/
theorem C75_lowest_numbers {lib : Libm} (hl : LibmOk lib) {neg pos : UInt8} (hs : Symbols neg pos) (fprec dprec : Nat) (heap : Nat) (wr : Bool)
    (t : Nat) (ht : t = tFloat ∨ t = tDouble) (hp : 2 ≤ precOf t fprec dprec) (hp' : precOf t fprec dprec < 2 ^ 63)
    (attr : Bytes) (rs : List Reading) (hne : rs ≠ []) (value : Reading → ℚ) (hn : Numbers t value rs) (hold : ∀ r ∈ rs, Told pos attr r.name)
    (d0 d : DS) (hu : d0.usable = true) (he : d0.db = []) (hlen : d0.backend = .mem → attr.length ≤ 19)
    (hist : List (Bool × ReqBody)) (hrec : Records d0.backend attr rs hist)
    (hrun : DS.run (defaultCallbacks neg pos (codec lib neg pos fprec dprec)) heap d0 hist = .ok d)
    (x : GetOpItem) (hop : x.op = goLowest) (hsub : x.subject.val = text attr) (hnull : x.predicate.addr = 0) (hpt : x.predicate.typ = t) :
    ∃ d' recs, d.operate (defaultCallbacks neg pos (codec lib neg pos fprec dprec)) heap wr (.getop [x]) =
        .ok (d', some (.getop [⟨dsSuccess, recs⟩])) ∧
      IsLowest value (fun r s => (codec lib neg pos fprec dprec).encode r.num = (codec lib neg pos fprec dprec).encode s.num)
        (Close t (precOf t fprec dprec) value) attr rs x.numRecs recs := by
  obtain ⟨nums, hst, hcl⟩ := flt_nums hl hs ht hp hp' hn hold
  obtain ⟨u, b, holds⟩ := holds_of_run nums hu he hrec hrun
  have hx := flt_asks (neg := neg) (pos := pos) (f := codec lib neg pos fprec dprec) ht hsub hnull hpt
  rw [← b] at hlen
  obtain ⟨recs, h1, h2⟩ := nums.lowest (heap := heap) holds hne hlen hx rfl hop value (flt_value hl hs hn hst)
  obtain ⟨d', h3⟩ := operate_one (wr := wr) u h1
  refine ⟨d', recs, h3, ?_⟩
  obtain ⟨sel, shown, more, g1, g2, g3, g4, g5, g6, g7, g8⟩ := h2
  have same : ∀ r ∈ rs, ∀ s ∈ rs, storedForm (codec lib neg pos fprec dprec) r = storedForm (codec lib neg pos fprec dprec) s →
      (codec lib neg pos fprec dprec).encode r.num = (codec lib neg pos fprec dprec).encode s.num := by
    intro r hr s hs' e
    rw [hst r hr, hst s hs', e]
  refine ⟨sel, shown, more, g1, g2, ?_, g4, g5, ?_, ?_, ?_⟩
  · refine List.forall₂_iff_get.mpr ⟨g3.length_eq, fun k h4 h5 => ?_⟩
    obtain ⟨e1, e2, e3⟩ := (List.forall₂_iff_get.mp g3).2 k h4 h5
    refine ⟨e1, ?_, e3⟩
    rw [e2]; exact hcl _ (g4 _ (List.get_mem _ _))
  · intro r hr
    rcases g6 r hr with ⟨s, h4, h5⟩ | h4
    · exact .inl ⟨s, h4, same _ (g4 s h4) _ hr h5⟩
    · exact .inr h4
  · intro hm r hr
    obtain ⟨s, h4, h5⟩ := g7 hm r hr
    exact ⟨s, h4, same _ (g4 s h4) _ hr h5⟩
  · intro c hc
    obtain ⟨r, h4, h5, h6, h7⟩ := g8 c hc
    refine ⟨r, h4, h5, h6, ?_⟩
    rw [h7]; exact hcl r h4

/-- C75: histories of PUTs of readings are processed, for integers. -/
theorem C75_processed_integers {neg pos : UInt8} (hs : Symbols neg pos) (f : FloatCodec) (heap : Nat) (t : Nat) (i : IntType)
    (ht : intType t = some i) (attr : Bytes) (rs : List Reading)
    (hn : ∀ r ∈ rs, r.num.typ = t ∧ Plain ⟨1, r.num.bytes, t⟩) (hold : ∀ r ∈ rs, Told pos attr r.name) (d0 : DS) (hu : d0.usable = true)
    (hh : d0.hists = []) (hist : List (Bool × ReqBody)) (hrec : Records d0.backend attr rs hist) (hput : ∀ x ∈ hist, ∃ l, x.2 = .put l) :
    ∃ d, DS.run (defaultCallbacks neg pos f) heap d0 hist = .ok d :=
  (int_nums hs f ht hn hold).run hu hh hrec hput

/-- C75: histories of PUTs of readings are processed, for floats and doubles. -/
theorem C75_processed_numbers {lib : Libm} (hl : LibmOk lib) {neg pos : UInt8} (hs : Symbols neg pos) (fprec dprec : Nat) (heap : Nat)
    (t : Nat) (ht : t = tFloat ∨ t = tDouble) (hp : 2 ≤ precOf t fprec dprec) (hp' : precOf t fprec dprec < 2 ^ 63)
    (attr : Bytes) (rs : List Reading) (value : Reading → ℚ) (hn : Numbers t value rs) (hold : ∀ r ∈ rs, Told pos attr r.name)
    (d0 : DS) (hu : d0.usable = true) (hh : d0.hists = []) (hist : List (Bool × ReqBody)) (hrec : Records d0.backend attr rs hist)
    (hput : ∀ x ∈ hist, ∃ l, x.2 = .put l) :
    ∃ d, DS.run (defaultCallbacks neg pos (codec lib neg pos fprec dprec)) heap d0 hist = .ok d :=
  (flt_nums hl hs ht hp hp' hn hold).1.run hu hh hrec hput

/-- C75, distinct numbers: when no two readings are indistinguishable, an answer to "the `n` lowest" starts with the first `n` readings of
the list of all readings by ascending number. -/
theorem C75_exactly (value : Reading → ℚ) (same : Reading → Reading → Prop) (back : Reading → Val → Prop) (attr : Bytes) (rs : List Reading)
    (n : Nat) (recs : List Rec) (h : IsLowest value same back attr rs n recs) (hd : ∀ r ∈ rs, ∀ s ∈ rs, same r s → r = s)
    (srt : List Reading) (hp : srt.Perm rs) (ho : srt.Pairwise (fun r s => value r < value s)) :
    List.Forall₂ (fun r c => c.subject.val = text attr ∧ back r c.predicate.val ∧ c.object.val = text r.name) (srt.take n)
      (recs.take rs.length) := by
  obtain ⟨sel, shown, more, g1, g2, g3, g4, g5, g6, g7, -⟩ := h
  have e : sel = srt.take n := by
    refine eq_take_of_lowest ho g5 (fun r hr => hp.mem_iff.mpr (g4 r hr)) ?_ ?_
    · have := g3.length_eq
      rw [g1, List.length_append] at g2; omega
    · intro r hr
      have hr' := hp.mem_iff.mp hr
      rcases g6 r hr' with ⟨s, hs, hsame⟩ | hg
      · exact .inl (hd s (g4 s hs) r hr' hsame ▸ hs)
      · exact .inr hg
  have hlen : shown.length = sel.length := g3.length_eq.symm
  have : recs.take rs.length = shown := by
    rw [g1]
    by_cases hm : more = []
    · rw [hm, List.append_nil, List.take_of_length_le]
      rw [hlen, e, List.length_take, hp.length_eq]; omega
    · have all : sel.length = rs.length := by
        rw [e, List.length_take, hp.length_eq]
        have hsub : ∀ r ∈ srt, r ∈ sel := by
          intro r hr
          have hr' := hp.mem_iff.mp hr
          obtain ⟨s, hs, hsame⟩ := g7 hm r hr'
          exact hd s (g4 s hs) r hr' hsame ▸ hs
        have hnd : srt.Nodup := ho.imp (fun hab e => by rw [e] at hab; exact lt_irrefl _ hab)
        have := (hnd.subperm hsub).length_le
        rw [e, List.length_take, hp.length_eq] at this
        omega
      rw [List.take_append_of_le_length (by omega), List.take_of_length_le (by omega)]
  rw [this, ← e]
  exact g3

/-! ## HIGHEST -/

/-- C75 fails for HIGHEST on floats and doubles: a successful answer has no records, and when numbers are also stored as subjects, as
`HXHIM_PUT_ALL` does, the answer is successful. The search starts below all numbers of the attribute and goes down. -/
theorem C75_highest_numbers_false {lib : Libm} (hl : LibmOk lib) {neg pos : UInt8} (hs : Symbols neg pos) (fprec dprec : Nat) (heap : Nat) (wr : Bool)
    (t : Nat) (ht : t = tFloat ∨ t = tDouble) (hp : 2 ≤ precOf t fprec dprec) (hp' : precOf t fprec dprec < 2 ^ 63)
    (attr : Bytes) (rs : List Reading) (hne : rs ≠ []) (value : Reading → ℚ) (hn : Numbers t value rs) (hold : ∀ r ∈ rs, Told pos attr r.name)
    (d0 d : DS) (hu : d0.usable = true) (he : d0.db = []) (hlen : d0.backend = .mem → attr.length ≤ 19)
    (hist : List (Bool × ReqBody)) (hrec : Records d0.backend attr rs hist)
    (hrun : DS.run (defaultCallbacks neg pos (codec lib neg pos fprec dprec)) heap d0 hist = .ok d)
    (x : GetOpItem) (hop : x.op = goHighest) (hsub : x.subject.val = text attr) (hnull : x.predicate.addr = 0) (hpt : x.predicate.typ = t) :
    (∀ d' res, d.operate (defaultCallbacks neg pos (codec lib neg pos fprec dprec)) heap wr (.getop [x]) = .ok (d', some (.getop [res])) →
      res.status = dsSuccess → res.recs = []) ∧
    ((∃ y ∈ hist, ∃ l, y.2 = .put l ∧ ∃ z ∈ l, ∃ r ∈ rs, z.subject.val = r.num) →
      ∃ d', d.operate (defaultCallbacks neg pos (codec lib neg pos fprec dprec)) heap wr (.getop [x]) =
        .ok (d', some (.getop [⟨dsSuccess, []⟩]))) := by
  obtain ⟨nums, hst, -⟩ := flt_nums hl hs ht hp hp' hn hold
  obtain ⟨u, b, holds⟩ := holds_of_run nums hu he hrec hrun
  have hx := flt_asks (neg := neg) (pos := pos) (f := codec lib neg pos fprec dprec) ht hsub hnull hpt
  rw [← b] at hlen
  obtain ⟨h1, h2⟩ := nums.highest (heap := heap) holds hne hlen hx rfl hop
  refine ⟨fun d' res h => h1 res (operate_inv u h), fun h => ?_⟩
  exact operate_one u (h2 (low_of_run nums hu he hrec hrun h))

/-- C75 fails for HIGHEST on integers in the same way. -/
theorem C75_highest_integers_false {neg pos : UInt8} (hs : Symbols neg pos) (f : FloatCodec) (heap : Nat) (wr : Bool) (t : Nat) (i : IntType)
    (ht : intType t = some i) (attr : Bytes) (rs : List Reading) (hne : rs ≠ [])
    (hn : ∀ r ∈ rs, r.num.typ = t ∧ Plain ⟨1, r.num.bytes, t⟩) (hold : ∀ r ∈ rs, Told pos attr r.name)
    (d0 d : DS) (hu : d0.usable = true) (he : d0.db = []) (hlen : d0.backend = .mem → attr.length ≤ 19)
    (hist : List (Bool × ReqBody)) (hrec : Records d0.backend attr rs hist)
    (hrun : DS.run (defaultCallbacks neg pos f) heap d0 hist = .ok d)
    (x : GetOpItem) (hop : x.op = goHighest) (hsub : x.subject.val = text attr) (hnull : x.predicate.addr = 0) (hpt : x.predicate.typ = t) :
    (∀ d' res, d.operate (defaultCallbacks neg pos f) heap wr (.getop [x]) = .ok (d', some (.getop [res])) →
      res.status = dsSuccess → res.recs = []) ∧
    ((∃ y ∈ hist, ∃ l, y.2 = .put l ∧ ∃ z ∈ l, ∃ r ∈ rs, z.subject.val = r.num) →
      ∃ d', d.operate (defaultCallbacks neg pos f) heap wr (.getop [x]) = .ok (d', some (.getop [⟨dsSuccess, []⟩]))) := by
  have nums := int_nums hs f ht hn hold
  obtain ⟨u, b, holds⟩ := holds_of_run nums hu he hrec hrun
  have hnum : isNumeric t = true := by
    unfold intType at ht
    unfold isNumeric
    split at ht
    · rename_i h; rw [h]; rfl
    · split at ht
      · rename_i h; rw [h]; rfl
      · split at ht
        · rename_i h; rw [h]; rfl
        · split at ht
          · rename_i h; rw [h]; rfl
          · cases ht
  have hx : Asks (defaultCallbacks neg pos f) attr t x := asks hsub hnull hpt hnum (by
    intro b hb hbt; simp only [defaultCallbacks, hbt, ht, hb, if_true])
  rw [← b] at hlen
  obtain ⟨h1, h2⟩ := nums.highest (heap := heap) holds hne hlen hx rfl hop
  refine ⟨fun d' res h => h1 res (operate_inv u h), fun h => ?_⟩
  exact operate_one u (h2 (low_of_run nums hu he hrec hrun h))

/-! ## `examples/hxhim/lowest.c` -/

/-- C75, the array of cells: in a square grid, or one with a single row, every cell is sent as it was generated. -/
theorem C75_cells_partial (numX numY : Nat) (h : numX = numY ∨ numX ≤ 1) (rank : Int) (temp : Nat → Nat → Bytes) :
    Lowest.sent numX numY rank temp =
      .ok ((Lowest.grid numX numY).map (fun c => ⟨Lowest.cellName rank c.1 c.2, temp c.1 c.2⟩)) := by
  refine Lowest.sent_of_injective ?_ ?_ (Lowest.nodup_grid _ _)
  · intro c hc
    obtain ⟨h1, h2⟩ := Lowest.mem_grid.mp hc
    unfold Lowest.index
    rcases h with rfl | h
    · calc c.1 * numX + c.2 < c.1 * numX + numX := by omega
        _ = (c.1 + 1) * numX := by ring
        _ ≤ numX * numX := Nat.mul_le_mul_right _ h1
    · have : numX = 1 := by omega
      subst this; omega
  · intro c hc c' hc' e
    obtain ⟨h1, h2⟩ := Lowest.mem_grid.mp hc
    obtain ⟨h3, h4⟩ := Lowest.mem_grid.mp hc'
    unfold Lowest.index at e
    rcases h with rfl | h
    · have d1 : (c.1 * numX + c.2) / numX = c.1 := by
        rw [Nat.mul_comm, Nat.mul_add_div (by omega), Nat.div_eq_of_lt h2, Nat.add_zero]
      have d2 : (c'.1 * numX + c'.2) / numX = c'.1 := by
        rw [Nat.mul_comm, Nat.mul_add_div (by omega), Nat.div_eq_of_lt h4, Nat.add_zero]
      have e1 : c.1 = c'.1 := by rw [← d1, ← d2, e]
      rw [e1] at e
      exact Prod.ext e1 (by omega)
    · have : numX = 1 := by omega
      subst this
      exact Prod.ext (by omega) (by omega)

/-- C75, more columns than rows: a cell is written behind the array. -/
theorem C75_cells_outside_ub (numX numY : Nat) (h0 : 0 < numY) (h : numY < numX) (rank : Int) (temp : Nat → Nat → Bytes) :
    Lowest.sent numX numY rank temp = .ub := by
  unfold Lowest.sent
  rw [Lowest.fill_ub ⟨(numX - 1, numY - 1), Lowest.mem_grid.mpr ⟨by show numX - 1 < numX; omega, by show numY - 1 < numY; omega⟩, ?_⟩]
  · rfl
  · rw [List.length_replicate]
    show numX * numY ≤ (numX - 1) * numX + (numY - 1)
    obtain ⟨k, rfl⟩ : ∃ k, numX = numY + k + 1 := ⟨numX - numY - 1, by omega⟩
    obtain ⟨m, rfl⟩ : ∃ m, numY = m + 1 := ⟨numY - 1, by omega⟩
    simp only [Nat.add_sub_cancel]
    nlinarith [Nat.zero_le (k * m), Nat.zero_le (k * k)]

/-- C75, more rows than columns: rows overlap. What is sent for the cell (0, `numX`) is the cell (1, 0), and the name and the
temperature of the former are lost. -/
theorem C75_cells_overlap_false (numX numY : Nat) (h1 : 1 < numX) (h : numX < numY) (rank : Int) (temp : Nat → Nat → Bytes) :
    (Lowest.grid numX numY)[numX]? = some (0, numX) ∧
    ∃ l, Lowest.sent numX numY rank temp = .ok l ∧ l[numX]? = some ⟨Lowest.cellName rank 1 0, temp 1 0⟩ := by
  obtain ⟨k, rfl⟩ : ∃ k, numX = k + 2 := ⟨numX - 2, by omega⟩
  obtain ⟨m, rfl⟩ : ∃ m, numY = m + 1 := ⟨numY - 1, by omega⟩
  have hg : Lowest.grid (k + 2) (m + 1) = (List.range (m + 1)).map (fun y => (0, y)) ++
      (1, 0) :: ((List.range m).map (fun y => (1, y + 1)) ++
        (List.range k).flatMap (fun x => (List.range (m + 1)).map (fun y => (x + 2, y)))) := by
    unfold Lowest.grid
    rw [List.range_succ_eq_map (n := k + 1), List.range_succ_eq_map (n := k)]
    simp only [List.map_cons, List.map_map, List.flatMap_cons, List.flatMap_map]
    congr 1
    rw [← List.cons_append]
    congr 1
    rw [List.range_succ_eq_map, List.map_cons, List.map_map]
    rfl
  have hpos : (Lowest.grid (k + 2) (m + 1))[k + 2]? = some (0, k + 2) := by
    rw [hg, List.getElem?_append_left (by rw [List.length_map, List.length_range]; omega), List.getElem?_map,
      List.getElem?_range (by omega)]
    rfl
  refine ⟨hpos, ?_⟩
  obtain ⟨r, f1, -, f3⟩ := Lowest.fill_get (numX := k + 2) (rank := rank) (temp := temp) (l := Lowest.grid (k + 2) (m + 1))
    (m := List.replicate ((k + 2) * (m + 1)) ⟨[], []⟩) (by
      intro c hc
      obtain ⟨g1, g2⟩ := Lowest.mem_grid.mp hc
      rw [List.length_replicate]
      unfold Lowest.index
      obtain ⟨j, rfl⟩ : ∃ j, m = k + 2 + j := ⟨m - (k + 2), by omega⟩
      nlinarith [Nat.mul_le_mul_right (k + 2) (Nat.lt_succ_iff.mp g1), Nat.zero_le (k * j)])
  refine ⟨_, by unfold Lowest.sent; rw [f1, Out.ok_bind], ?_⟩
  rw [List.getElem?_map, hpos, Option.map_some]
  have e := f3 _ _ _ hg (by
    intro c' hc'
    unfold Lowest.index
    simp only [List.mem_append, List.mem_map, List.mem_range, List.mem_flatMap] at hc'
    rcases hc' with ⟨y, -, rfl⟩ | ⟨x, -, y, -, rfl⟩
    · simp only; omega
    · simp only
      intro e
      have : (x + 2) * (k + 2) + y = 1 * (k + 2) + 0 := e
      nlinarith [Nat.zero_le (x * k)])
  have i0 : Lowest.index (k + 2) 0 (k + 2) = k + 2 := by unfold Lowest.index; omega
  have i1 : Lowest.index (k + 2) 1 0 = k + 2 := by unfold Lowest.index; omega
  simp only [i0, i1] at e ⊢
  rw [List.getD_eq_getElem?_getD, e]
  rfl

/-- The readings of a job: the cells of all ranks. -/
def cellsOf (ranks : List Int) (numX numY : Nat) (temp : Int → Nat → Nat → Bytes) : List Reading :=
  ranks.flatMap (fun k => (Lowest.grid numX numY).map (fun c => ⟨Lowest.cellName k c.1 c.2, ⟨temp k c.1 c.2, tDouble⟩⟩))

/-- The number of a reading that is a double. -/
noncomputable def doubleOf (r : Reading) : ℚ := ((numberIn tDouble r.num.bytes).value).getD 0

/-- C75, the program on any number of ranks, with a square grid or a single row: once the PUTs of all ranks have been processed by the first
datastore, in any order, its question for the lowest is answered with the names of the cells with the lowest temperatures, and its
question for the highest with nothing. -/
theorem C75_program_partial {lib : Libm} (hl : LibmOk lib) {neg pos : UInt8} (hs : Symbols neg pos) (hpos : pos < 0x43)
    (fprec dprec : Nat) (hp : 2 ≤ dprec) (hp' : dprec < 2 ^ 63) (heap : Nat) (wr : Bool) (numX numY : Nat)
    (h0 : 0 < numX ∧ 0 < numY) (hsq : numX = numY ∨ numX ≤ 1) (ranks : List Int) (hne : ranks ≠ []) (temp : Int → Nat → Nat → Bytes)
    (hname : ∀ k ∈ ranks, ∀ x y, x < numX → y < numY → (Lowest.cellName k x y).length < 100)
    (htemp : ∀ k ∈ ranks, ∀ x y, x < numX → y < numY → (temp k x y).length = 8 ∧
      ∃ q, (numberIn tDouble (temp k x y)).value = some q ∧ (q = 0 ∨ Moderate tDouble q))
    (c : Int → Queue.Cfg) (total a : Nat) (hc : ∀ k ∈ ranks, (c k).hash = Hash.hxhimHash .datastoreZero k.toNat total) (ha : a ≠ 0)
    (cells : Int → List Lowest.Cell)
    (hsent : ∀ k ∈ ranks, Lowest.sent numX numY k (temp k) = .ok (cells k)) (qs : Int → Queue.Queues)
    (hq : ∀ k ∈ ranks, Queue.calls (c k) true (Queue.Queues.init total) ((cells k).map (Lowest.putCall a)) = .ok (qs k))
    (hist : List (Bool × ReqBody)) (hd : Delivered (ranks.flatMap (fun k => (qs k).puts.getD 0 [])) hist)
    (d0 : DS) (hu : d0.usable = true) (he : d0.db = []) (hh : d0.hists = []) (n : Nat) :
    ∃ d, DS.run (defaultCallbacks neg pos (codec lib neg pos fprec dprec)) heap d0 hist = .ok d ∧
    (∃ d' recs, d.operate (defaultCallbacks neg pos (codec lib neg pos fprec dprec)) heap wr (.getop [Lowest.ask a goLowest n]) =
        .ok (d', some (.getop [⟨dsSuccess, recs⟩])) ∧
      IsLowest doubleOf (fun r s => (codec lib neg pos fprec dprec).encode r.num = (codec lib neg pos fprec dprec).encode s.num)
        (Close tDouble dprec doubleOf) Lowest.attr (cellsOf ranks numX numY temp) n recs) ∧
    ∃ d', d.operate (defaultCallbacks neg pos (codec lib neg pos fprec dprec)) heap wr (.getop [Lowest.ask a goHighest n]) =
      .ok (d', some (.getop [⟨dsSuccess, []⟩])) := by
  have hcells : ∀ k ∈ ranks, cells k = (Lowest.grid numX numY).map (fun c => ⟨Lowest.cellName k c.1 c.2, temp k c.1 c.2⟩) := by
    intro k hk
    have := hsent k hk
    rw [C75_cells_partial _ _ hsq] at this
    injection this with this
    exact this.symm
  have mem : ∀ r ∈ cellsOf ranks numX numY temp, ∃ k ∈ ranks, ∃ x y, x < numX ∧ y < numY ∧
      r = ⟨Lowest.cellName k x y, ⟨temp k x y, tDouble⟩⟩ := by
    intro r hr
    unfold cellsOf at hr
    rw [List.mem_flatMap] at hr
    obtain ⟨k, hk, hr⟩ := hr
    rw [List.mem_map] at hr
    obtain ⟨cc, hcc, rfl⟩ := hr
    obtain ⟨h1, h2⟩ := Lowest.mem_grid.mp hcc
    exact ⟨k, hk, cc.1, cc.2, h1, h2, rfl⟩
  have hrs : cellsOf ranks numX numY temp ≠ [] := by
    obtain ⟨k, l, rfl⟩ := List.exists_cons_of_ne_nil hne
    intro e
    have hm : (⟨Lowest.cellName k 0 0, ⟨temp k 0 0, tDouble⟩⟩ : Reading) ∈ cellsOf (k :: l) numX numY temp := by
      unfold cellsOf
      rw [List.mem_flatMap]
      exact ⟨k, List.mem_cons_self, List.mem_map.mpr ⟨(0, 0), Lowest.mem_grid.mpr h0, rfl⟩⟩
    rw [e] at hm; cases hm
  have hnum : Numbers tDouble doubleOf (cellsOf ranks numX numY temp) := by
    intro r hr
    obtain ⟨k, hk, x, y, hx, hy, rfl⟩ := mem r hr
    obtain ⟨t1, q, t2, t3⟩ := htemp k hk x y hx hy
    have e : doubleOf ⟨Lowest.cellName k x y, ⟨temp k x y, tDouble⟩⟩ = q := by unfold doubleOf; simp only [t2, Option.getD_some]
    rw [e]
    exact ⟨rfl, by rw [t1]; decide, t2, t3⟩
  have htold : ∀ r ∈ cellsOf ranks numX numY temp, Told pos Lowest.attr r.name := by
    intro r hr
    obtain ⟨k, hk, x, y, hx, hy, rfl⟩ := mem r hr
    exact Lowest.told_cell hpos (Nat.lt_trans (hname k hk x y hx hy) (by decide))
  have hflat : (ranks.flatMap (fun k => (qs k).puts.getD 0 [])).flatten = (ranks.flatMap cells).flatMap (Lowest.cellItems a) := by
    have hmem : ∀ k ∈ ranks, ((qs k).puts.getD 0 []).flatten = (cells k).flatMap (Lowest.cellItems a) := by
      intro k hk
      refine Lowest.queued_cells (hc k hk) ha ?_ (hq k hk)
      intro z hz
      rw [hcells k hk, List.mem_map] at hz
      obtain ⟨cc, hcc, rfl⟩ := hz
      obtain ⟨h1, h2⟩ := Lowest.mem_grid.mp hcc
      refine ⟨List.cons_ne_nil _ _, ?_⟩
      intro e
      have := (htemp k hk cc.1 cc.2 h1 h2).1
      simp only at e
      rw [e] at this; cases this
    clear hq hd hne hname htemp hsent hcells mem hrs hnum htold hc
    induction ranks with
    | nil => rfl
    | cons k ranks ih =>
      rw [List.flatMap_cons, List.flatMap_cons, List.flatten_append, List.flatMap_append, hmem k List.mem_cons_self,
        ih (fun j hj => hmem j (List.mem_cons_of_mem _ hj))]
  have hmap : (ranks.flatMap cells).map (fun c => (⟨c.name, ⟨c.temp, tDouble⟩⟩ : Reading)) = cellsOf ranks numX numY temp := by
    unfold cellsOf
    rw [List.map_flatMap]
    apply List.flatMap_congr
    intro k hk
    rw [hcells k hk, List.map_map]
    rfl
  obtain ⟨hrec, hsub⟩ := Lowest.records_of_delivered (b := d0.backend) hmap hflat hd
  obtain ⟨d, hrun⟩ := C75_processed_numbers hl hs fprec dprec heap tDouble (.inr rfl) hp hp' Lowest.attr _ doubleOf hnum htold d0 hu hh
    hist hrec (fun x hx => by obtain ⟨-, p, -, l, hl, -⟩ := hd.only x hx; exact ⟨l, hl⟩)
  refine ⟨d, hrun, ?_, ?_⟩
  · exact C75_lowest_numbers hl hs fprec dprec heap wr tDouble (.inr rfl) hp hp' Lowest.attr _ hrs doubleOf hnum htold d0 d hu he
      (fun _ => by decide) hist hrec hrun (Lowest.ask a goLowest n) rfl rfl rfl rfl
  · refine (C75_highest_numbers_false hl hs fprec dprec heap wr tDouble (.inr rfl) hp hp' Lowest.attr _ hrs doubleOf hnum htold d0 d hu he
      (fun _ => by decide) hist hrec hrun (Lowest.ask a goHighest n) rfl rfl rfl rfl).2 ?_
    obtain ⟨r, l, e⟩ := List.exists_cons_of_ne_nil hrs
    have hr : r ∈ cellsOf ranks numX numY temp := by rw [e]; exact List.mem_cons_self
    obtain ⟨x, hx, l, hl, y, hy, hv⟩ := hsub r hr
    exact ⟨x, hx, l, hl, y, hy, r, hr, hv⟩

/-! ## Instances -/

section Instances

private theorem lowSym : Symbols 0x2f 0x3a := ⟨by decide, by decide⟩

private def lowCodec : FloatCodec := ⟨fun _ => .err, fun _ => .err⟩

private theorem lowPlain (l : Bytes) (hl : l.length = 4) (hm : ofMem Elen.int32 l ≠ Elen.int32.min) : Plain ⟨1, l, tInt32⟩ :=
  ⟨(by decide : tInt32 < 256), by show l.length < 2 ^ 64; omega,
    fun t ht => by cases ht; exact ⟨(by decide : (1 : Nat) ≠ 0), hl, fun _ => hm⟩, (by decide : tInt32 ≠ tFloat ∧ tInt32 ≠ tDouble)⟩

/-- Three things with the numbers 5, -7 and 12 of type `int32_t`. -/
private def lowReadings : List Reading :=
  [⟨[0x61], ⟨[5, 0, 0, 0], tInt32⟩⟩, ⟨[0x62], ⟨[0xf9, 0xff, 0xff, 0xff], tInt32⟩⟩, ⟨[0x63], ⟨[12, 0, 0, 0], tInt32⟩⟩]

private def lowItem (r : Reading) : List PutItem :=
  (orders (text r.name) (text [0x54]) r.num).map (fun v => ⟨⟨1, v.1.bytes, v.1.typ⟩, 1, ⟨1, v.2.1.bytes, v.2.1.typ⟩, 1, ⟨1, v.2.2.bytes, v.2.2.typ⟩⟩)

private def lowHist (rs : List Reading) : List (Bool × ReqBody) := rs.map (fun r => (true, .put (lowItem r)))

private def lowFresh (b : Backend) : DS := ⟨b, [], true, [], 0, 0, 0⟩

private theorem lowRecords (b : Backend) (rs : List Reading) : Records b [0x54] rs (lowHist rs) where
  only x hx l hl := by
    unfold lowHist at hx
    obtain ⟨r, hr, rfl⟩ := List.mem_map.mp hx
    injection hl with hl
    refine ⟨.inr rfl, fun y hy => ?_⟩
    rw [← hl] at hy
    unfold lowItem at hy
    obtain ⟨v, hv, rfl⟩ := List.mem_map.mp hy
    exact ⟨Nat.one_ne_zero, Nat.one_ne_zero, Nat.one_ne_zero, r, hr, hv⟩
  there r hr := ⟨_, List.mem_map_of_mem hr, _, rfl, _, List.mem_map_of_mem (a := (text [0x54], r.num, text r.name)) (by simp [orders]), rfl⟩
  keeps x hx l hl := by
    unfold lowHist at hx
    obtain ⟨r, hr, rfl⟩ := List.mem_map.mp hx
    cases hl

private theorem lowTold (n : Bytes) (hn : n = [0x61] ∨ n = [0x62] ∨ n = [0x63]) : Told 0x3a [0x54] n := by
  rcases hn with rfl | rfl | rfl <;>
    exact ⟨⟨by decide, by decide⟩, ⟨_, _, rfl, by decide⟩, ⟨_, _, rfl, by decide⟩, by decide⟩

private def lowAsk (op n t : Nat) : GetOpItem := ⟨op, ⟨1, [0x54], tByte⟩, ⟨0, [], t⟩, tByte, n⟩

/-- The two lowest are the second and the first, in both backends, and the highest nothing. -/
example (b : Backend) : ∃ d d' d'' recs, DS.run (defaultCallbacks 0x2f 0x3a lowCodec) 1 (lowFresh b) (lowHist lowReadings) = .ok d ∧
    d.operate (defaultCallbacks 0x2f 0x3a lowCodec) 1 true (.getop [lowAsk goLowest 2 tInt32]) = .ok (d', some (.getop [⟨dsSuccess, recs⟩])) ∧
    List.Forall₂ (fun (r : Reading) c => c.subject.val = text [0x54] ∧ c.predicate.val = r.num ∧ c.object.val = text r.name)
      ([⟨[0x62], ⟨[0xf9, 0xff, 0xff, 0xff], tInt32⟩⟩, ⟨[0x61], ⟨[5, 0, 0, 0], tInt32⟩⟩] : List Reading) (recs.take 3) ∧
    d.operate (defaultCallbacks 0x2f 0x3a lowCodec) 1 true (.getop [lowAsk goHighest 2 tInt32]) = .ok (d'', some (.getop [⟨dsSuccess, []⟩])) := by
  have hn : ∀ r ∈ lowReadings, r.num.typ = tInt32 ∧ Plain ⟨1, r.num.bytes, tInt32⟩ := by
    intro r hr
    simp only [lowReadings, List.mem_cons, List.not_mem_nil, or_false] at hr
    rcases hr with rfl | rfl | rfl <;> exact ⟨rfl, lowPlain _ rfl (by decide)⟩
  have ht : ∀ r ∈ lowReadings, Told 0x3a [0x54] r.name := by
    intro r hr
    apply lowTold
    simp only [lowReadings, List.mem_cons, List.not_mem_nil, or_false] at hr
    rcases hr with rfl | rfl | rfl <;> simp
  obtain ⟨d, hd⟩ := C75_processed_integers lowSym lowCodec 1 tInt32 Elen.int32 rfl [0x54] lowReadings hn ht (lowFresh b) rfl rfl _ (lowRecords _ _)
    (fun x hx => by unfold lowHist at hx; obtain ⟨r, -, rfl⟩ := List.mem_map.mp hx; exact ⟨_, rfl⟩)
  obtain ⟨d', recs, h1, h2⟩ := C75_lowest_integers lowSym lowCodec 1 true tInt32 Elen.int32 rfl [0x54] lowReadings (by decide) hn ht (lowFresh b) d rfl rfl
    (fun _ => by decide) _ (lowRecords _ _) hd (lowAsk goLowest 2 tInt32) rfl rfl rfl rfl
  obtain ⟨d'', h3⟩ := (C75_highest_integers_false lowSym lowCodec 1 true tInt32 Elen.int32 rfl [0x54] lowReadings (by decide) hn ht (lowFresh b) d rfl rfl
    (fun _ => by decide) _ (lowRecords _ _) hd (lowAsk goHighest 2 tInt32) rfl rfl rfl rfl).2
    ⟨_, List.mem_cons_self, _, rfl, _, List.mem_map_of_mem (l := orders _ _ _) (a := ((⟨[5, 0, 0, 0], tInt32⟩ : Val), text [0x61], text [0x54])) (by decide), _,
      List.mem_cons_self, rfl⟩
  refine ⟨d, d', d'', recs, hd, h1, ?_, h3⟩
  exact C75_exactly _ _ _ _ _ 2 recs h2 (by decide)
    [⟨[0x62], ⟨[0xf9, 0xff, 0xff, 0xff], tInt32⟩⟩, ⟨[0x61], ⟨[5, 0, 0, 0], tInt32⟩⟩, ⟨[0x63], ⟨[12, 0, 0, 0], tInt32⟩⟩] (by decide)
    (by decide +kernel)

/-- Two things with the doubles 3/2 and -1. -/
private def lowDoubles : List Reading :=
  [⟨[0x61], ⟨[0, 0, 0, 0, 0, 0, 0xf8, 0x3f], tDouble⟩⟩, ⟨[0x62], ⟨[0, 0, 0, 0, 0, 0, 0xf0, 0xbf], tDouble⟩⟩]

example : ∃ d d' d'' recs, DS.run (defaultCallbacks 0x2f 0x3a (codec exLibm 0x2f 0x3a 8 16)) 1 (lowFresh .level) (lowHist lowDoubles) = .ok d ∧
    d.operate (defaultCallbacks 0x2f 0x3a (codec exLibm 0x2f 0x3a 8 16)) 1 true (.getop [lowAsk goLowest 1 tDouble]) =
      .ok (d', some (.getop [⟨dsSuccess, recs⟩])) ∧
    IsLowest doubleOf (fun r s => (codec exLibm 0x2f 0x3a 8 16).encode r.num = (codec exLibm 0x2f 0x3a 8 16).encode s.num)
      (Close tDouble 16 doubleOf) [0x54] lowDoubles 1 recs ∧
    d.operate (defaultCallbacks 0x2f 0x3a (codec exLibm 0x2f 0x3a 8 16)) 1 true (.getop [lowAsk goHighest 1 tDouble]) =
      .ok (d'', some (.getop [⟨dsSuccess, []⟩])) := by
  have v1 : (numberIn tDouble [0, 0, 0, 0, 0, 0, 0xf8, 0x3f]).value = some (3 / 2) := by decide +kernel
  have v2 : (numberIn tDouble [0, 0, 0, 0, 0, 0, 0xf0, 0xbf]).value = some (-1) := by decide +kernel
  have hn : Numbers tDouble doubleOf lowDoubles := by
    intro r hr
    simp only [lowDoubles, List.mem_cons, List.not_mem_nil, or_false] at hr
    rcases hr with rfl | rfl
    · have e : doubleOf ⟨[0x61], ⟨[0, 0, 0, 0, 0, 0, 0xf8, 0x3f], tDouble⟩⟩ = 3 / 2 := by unfold doubleOf; simp only [v1, Option.getD_some]
      rw [e]
      exact ⟨rfl, by decide, v1, .inr (by unfold Moderate; decide +kernel)⟩
    · have e : doubleOf ⟨[0x62], ⟨[0, 0, 0, 0, 0, 0, 0xf0, 0xbf], tDouble⟩⟩ = -1 := by unfold doubleOf; simp only [v2, Option.getD_some]
      rw [e]
      exact ⟨rfl, by decide, v2, .inr (by unfold Moderate; decide +kernel)⟩
  have ht : ∀ r ∈ lowDoubles, Told 0x3a [0x54] r.name := by
    intro r hr
    apply lowTold
    simp only [lowDoubles, List.mem_cons, List.not_mem_nil, or_false] at hr
    rcases hr with rfl | rfl <;> simp
  obtain ⟨d, hd⟩ := C75_processed_numbers exLibm_ok lowSym 8 16 1 tDouble (.inr rfl) (by decide) (by decide) [0x54] lowDoubles doubleOf hn ht
    (lowFresh .level) rfl rfl _ (lowRecords _ _)
    (fun x hx => by unfold lowHist at hx; obtain ⟨r, -, rfl⟩ := List.mem_map.mp hx; exact ⟨_, rfl⟩)
  obtain ⟨d', recs, h1, h2⟩ := C75_lowest_numbers exLibm_ok lowSym 8 16 1 true tDouble (.inr rfl) (by decide) (by decide) [0x54] lowDoubles
    (by decide) doubleOf hn ht (lowFresh .level) d rfl rfl (by decide) _ (lowRecords _ _) hd (lowAsk goLowest 1 tDouble) rfl rfl rfl rfl
  obtain ⟨d'', h3⟩ := (C75_highest_numbers_false exLibm_ok lowSym 8 16 1 true tDouble (.inr rfl) (by decide) (by decide) [0x54] lowDoubles
    (by decide) doubleOf hn ht (lowFresh .level) d rfl rfl (by decide) _ (lowRecords _ _) hd (lowAsk goHighest 1 tDouble) rfl rfl rfl rfl).2
    ⟨_, List.mem_cons_self, _, rfl, _, List.mem_map_of_mem
      (l := orders _ _ _) (a := ((⟨[0, 0, 0, 0, 0, 0, 0xf8, 0x3f], tDouble⟩ : Val), text [0x61], text [0x54])) (by decide), _, List.mem_cons_self, rfl⟩
  exact ⟨d, d', d'', recs, hd, h1, h2, h3⟩

/-- Cells: a square grid, more columns than rows, more rows than columns. -/
example : Lowest.sent 2 2 3 (fun x y => [x.toUInt8, y.toUInt8]) = .ok
    [⟨Config.str "Cell-(3, 0, 0)", [0, 0]⟩, ⟨Config.str "Cell-(3, 0, 1)", [0, 1]⟩, ⟨Config.str "Cell-(3, 1, 0)", [1, 0]⟩,
      ⟨Config.str "Cell-(3, 1, 1)", [1, 1]⟩] := by decide +kernel

example : Lowest.sent 3 1 3 (fun x y => [x.toUInt8, y.toUInt8]) = .ub := by decide +kernel

example : Lowest.sent 2 3 3 (fun x y => [x.toUInt8, y.toUInt8]) = .ok
    [⟨Config.str "Cell-(3, 0, 0)", [0, 0]⟩, ⟨Config.str "Cell-(3, 0, 1)", [0, 1]⟩, ⟨Config.str "Cell-(3, 1, 0)", [1, 0]⟩,
      ⟨Config.str "Cell-(3, 1, 0)", [1, 0]⟩, ⟨Config.str "Cell-(3, 1, 1)", [1, 1]⟩, ⟨Config.str "Cell-(3, 1, 2)", [1, 2]⟩] := by decide +kernel

/-- A job of two ranks with one cell each: temperatures 3/2 and -1. -/
private def lowTemp (k : Int) (_ _ : Nat) : Bytes := if k = 0 then [0, 0, 0, 0, 0, 0, 0xf8, 0x3f] else [0, 0, 0, 0, 0, 0, 0xf0, 0xbf]

private def lowCfg (k : Int) : Queue.Cfg := ⟨Hash.hxhimHash .datastoreZero k.toNat 2, 4, 0, 2⟩

private def lowCells (k : Int) : List Lowest.Cell := [⟨Lowest.cellName k 0 0, lowTemp k 0 0⟩]

private def lowQueues (k : Int) : Queue.Queues :=
  match Queue.calls (lowCfg k) true (Queue.Queues.init 2) ((lowCells k).map (Lowest.putCall 9)) with
  | .ok q => q
  | _ => Queue.Queues.init 2

private def lowPackets : List (List PutItem) := [0, 1].flatMap (fun k => (lowQueues k).puts.getD 0 [])

private theorem lowDelivered : Delivered lowPackets (lowPackets.map (fun p => (true, .put p))) := by
  have ha : ∀ p ∈ lowPackets, ∀ y ∈ p, y.subject.addr ≠ 0 ∧ y.predicate.addr ≠ 0 ∧ y.object.addr ≠ 0 := by decide +kernel
  have arr : ∀ p ∈ lowPackets, SameTriples p p := fun p hp => List.forall₂_same.mpr (fun y hy => ⟨rfl, rfl, rfl, ha p hp y hy⟩)
  refine ⟨fun x hx => ?_, fun p hp => ⟨_, List.mem_map_of_mem hp, p, rfl, arr p hp⟩⟩
  obtain ⟨p, hp, rfl⟩ := List.mem_map.mp hx
  exact ⟨rfl, p, hp, p, rfl, arr p hp⟩

example : lowPackets.map List.length = [4, 2, 4, 2] ∧
    ∃ d, DS.run (defaultCallbacks 0x2f 0x3a (codec exLibm 0x2f 0x3a 8 16)) 1 (lowFresh .mem)
      (lowPackets.map (fun p => (true, .put p))) = .ok d ∧
    (∃ d' recs, d.operate (defaultCallbacks 0x2f 0x3a (codec exLibm 0x2f 0x3a 8 16)) 1 true (.getop [Lowest.ask 9 goLowest 1]) =
        .ok (d', some (.getop [⟨dsSuccess, recs⟩])) ∧
      IsLowest doubleOf (fun r s => (codec exLibm 0x2f 0x3a 8 16).encode r.num = (codec exLibm 0x2f 0x3a 8 16).encode s.num)
        (Close tDouble 16 doubleOf) Lowest.attr (cellsOf [0, 1] 1 1 lowTemp) 1 recs) ∧
    ∃ d', d.operate (defaultCallbacks 0x2f 0x3a (codec exLibm 0x2f 0x3a 8 16)) 1 true (.getop [Lowest.ask 9 goHighest 1]) =
      .ok (d', some (.getop [⟨dsSuccess, []⟩])) := by
  have two : ∀ k ∈ ([0, 1] : List Int), k = 0 ∨ k = 1 := by intro k hk; simpa using hk
  refine ⟨by decide +kernel, ?_⟩
  refine C75_program_partial exLibm_ok lowSym (by decide) 8 16 (by decide) (by decide) 1 true 1 1 (by decide) (.inl rfl) [0, 1] (by decide) lowTemp
    ?_ ?_ lowCfg 2 9 (fun k _ => rfl) (by decide) lowCells ?_ lowQueues ?_ _ lowDelivered (lowFresh .mem) rfl rfl rfl 1
  · intro k hk x y hx hy
    obtain rfl : x = 0 := by omega
    obtain rfl : y = 0 := by omega
    rcases two k hk with rfl | rfl <;> decide +kernel
  · intro k hk x y hx hy
    rcases two k hk with rfl | rfl
    · exact ⟨rfl, 3 / 2, by show (numberIn tDouble [0, 0, 0, 0, 0, 0, 0xf8, 0x3f]).value = _; decide +kernel,
        .inr (by unfold Moderate; decide +kernel)⟩
    · exact ⟨rfl, -1, by show (numberIn tDouble [0, 0, 0, 0, 0, 0, 0xf0, 0xbf]).value = _; decide +kernel,
        .inr (by unfold Moderate; decide +kernel)⟩
  · intro k hk
    rcases two k hk with rfl | rfl <;> decide +kernel
  · intro k hk
    rcases two k hk with rfl | rfl <;> decide +kernel

end Instances

end Hx.Props

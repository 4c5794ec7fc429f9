import Verif.Spec.Constants
import Verif.Proofs.StoreDefault

/-!
# C12-C16, C21, C49: what a datastore remembers
-/

namespace Hx.Props
open Hx Msg Spec Store

/-! ## C12 -/

/-- C12. On a datastore that was opened empty, after any history of packets, every item of a GET
packet is answered with the latest PUT of its pair, or with an error if there is none.
Holds for every set of callbacks whose decoder undoes its encoder on the values used. -/
theorem C12_last_put_decides (cb : Callbacks) (t : Transform) (heap : Nat) (d0 d : DS)
    (hist : List (Bool × ReqBody)) (wr : Bool) (l : List GetItem)
    (hu : d0.usable = true) (he : d0.db = [])
    (hok : ∀ x ∈ hist, BodyOk cb t x.2) (hrun : DS.run cb heap d0 hist = .ok d)
    (hl : ∀ x ∈ l, KeyOk cb t x.subject ∧ KeyOk cb t x.predicate) :
    ∃ d' rs, d.operate cb heap wr (.get l) = .ok (d', some (.get rs)) ∧
      List.Forall₂ (Answers t (history t.accepts d0.backend hist)) l rs := by
  obtain ⟨i, hu', -⟩ := run_inv (h := []) (by rw [he]; exact Inv.nil cb t) hu hok hrun
  rw [List.nil_append] at i
  have key : ∃ rs, List.Forall₂ (fun x r => getItem cb heap d.db x = .ok r) l rs ∧
      List.Forall₂ (Answers t (history t.accepts d0.backend hist)) l rs := by
    clear hrun
    induction l with
    | nil => exact ⟨[], .nil, .nil⟩
    | cons x l ih =>
      obtain ⟨rs, h1, h2⟩ := ih (fun y hy => hl y (List.mem_cons_of_mem _ hy))
      obtain ⟨hs, hp⟩ := hl x List.mem_cons_self
      obtain ⟨r, h3, h4⟩ := getItem_inv (heap := heap) i hs hp
      exact ⟨r :: rs, .cons h3 h1, .cons h4 h2⟩
  obtain ⟨rs, h1, h2⟩ := key
  refine ⟨{ d with gets := d.gets + 1 }, rs, ?_, h2⟩
  simp only [DS.operate, hu', if_true, getAll_eq, mapO_of h1, Out.ok_bind]

/-- C12 for the callbacks the library registers, on byte strings, pointers and integers: the object
comes back byte for byte. -/
theorem C12_default_callbacks {neg pos : UInt8} (hs : Elen.Symbols neg pos) (f : FloatCodec) (heap : Nat)
    (d0 d : DS) (hist : List (Bool × ReqBody)) (wr : Bool) (l : List GetItem)
    (hu : d0.usable = true) (he : d0.db = [])
    (hok : ∀ x ∈ hist, PlainBody x.2)
    (hrun : DS.run (defaultCallbacks neg pos f) heap d0 hist = .ok d)
    (hl : ∀ x ∈ l, Plain x.subject ∧ Plain x.predicate) :
    ∃ d' rs, d.operate (defaultCallbacks neg pos f) heap wr (.get l) = .ok (d', some (.get rs)) ∧
      List.Forall₂ (fun x r =>
        match lastObj x.subject.val x.predicate.val
          (history (plainTransform neg pos f).accepts d0.backend hist) with
        | some o => r.status = dsSuccess ∧ r.object.val = o
        | none => r.status = dsError) l rs :=
  C12_last_put_decides _ _ heap d0 d hist wr l hu he (fun x hx => plain_bodyOk hs f (hok x hx)) hrun
    (fun x hx => ⟨plain_keyOk hs f (hl x hx).1, plain_keyOk hs f (hl x hx).2⟩)

section Instances

/-- Byte-string blobs for examples. -/
def exB (s : Bytes) : Blob := ⟨100, s, tByte⟩
def exFloat : FloatCodec := ⟨fun _ => .ok none, fun _ => .ok none⟩
def exCb : Callbacks := defaultCallbacks 0x2f 0x3a exFloat
def exDs (b : Backend) (db : Db) : DS := ⟨b, db, true, [], 0, 0, 0⟩
def exPut (s p o : Bytes) : PutItem := ⟨exB s, 1, exB p, 2, exB o⟩

/-- Overwritten within one packet, then another pair deleted. -/
def exHist : List (Bool × ReqBody) :=
  [(true, .put [exPut [1] [2] [3], exPut [1] [2] [4], exPut [1, 2] [] [5]]),
   (true, .del [⟨exB [1, 2], 1, exB [], 2⟩])]

theorem exB_plain (s : Bytes) (h : s.length < 2 ^ 64) : Plain (exB s) :=
  ⟨show tByte < 256 by decide, h, by intro t ht; simp [exB, intType, tByte, tInt32, tInt64, tUint32, tUint64] at ht,
    show tByte ≠ tFloat ∧ tByte ≠ tDouble by decide⟩

example : ∃ d' rs, ∃ d, DS.run exCb 100 (exDs .level []) exHist = .ok d ∧
    d.operate exCb 100 true (.get [⟨exB [1], 1, exB [2], 2, 0⟩, ⟨exB [1, 2], 1, exB [], 2, 0⟩]) =
      .ok (d', some (.get rs)) ∧ rs.map (fun r => (r.status, r.object.val)) =
        [(dsSuccess, ⟨[4], tByte⟩), (dsError, ⟨[], 0⟩)] :=
  ⟨_, _, _, rfl, rfl, by decide⟩

example : (∀ x ∈ exHist, PlainBody x.2) ∧
    lastObj (exB [1]).val (exB [2]).val (history (plainTransform 0x2f 0x3a exFloat).accepts .level exHist) =
      some ⟨[4], tByte⟩ := by
  constructor
  · intro x hx
    simp only [exHist, List.mem_cons, List.not_mem_nil, or_false] at hx
    rcases hx with rfl | rfl
    · intro y hy
      simp only [List.mem_cons, List.not_mem_nil, or_false] at hy
      rcases hy with rfl | rfl | rfl <;>
        exact ⟨exB_plain _ (by decide), exB_plain _ (by decide), exB_plain _ (by decide)⟩
    · intro y hy
      simp only [List.mem_cons, List.not_mem_nil, or_false] at hy
      subst hy
      exact ⟨exB_plain _ (by decide), exB_plain _ (by decide)⟩
  · decide

end Instances

/-! ## C13 -/

/-- C13, part: given the same packets (and LevelDB writes that succeed), both backends hold the
same records.
Missing for the full statement: PUT and DELETE statuses and GETOP answers differ, see
`C13_status_false` and `C13_getop_false`. -/
theorem C13_same_records_partial (cb : Callbacks) (heap : Nat) (dm dl dm' dl' : DS) (hist : List ReqBody)
    (hm : dm.backend = .mem) (hl : dl.backend = .level) (hu : dm.usable = true) (hu' : dl.usable = true)
    (hdb : dm.db = dl.db)
    (rm : DS.run cb heap dm (hist.map (fun r => (true, r))) = .ok dm')
    (rl : DS.run cb heap dl (hist.map (fun r => (true, r))) = .ok dl') :
    dm'.db = dl'.db ∧ ∀ l, getAll cb heap dm'.db l = getAll cb heap dl'.db l := by
  have key : dm'.db = dl'.db := by
    induction hist generalizing dm dl with
    | nil => cases rm; cases rl; exact hdb
    | cons r hist ih =>
      simp only [List.map_cons, DS.run] at rm rl
      cases om : dm.operate cb heap true r with
      | err => rw [om] at rm; cases rm
      | ub => rw [om] at rm; cases rm
      | ok xm =>
        cases ol : dl.operate cb heap true r with
        | err => rw [ol] at rl; cases rl
        | ub => rw [ol] at rl; cases rl
        | ok xl =>
          rw [om, Out.ok_bind] at rm
          rw [ol, Out.ok_bind] at rl
          have step : xm.1.backend = .mem ∧ xl.1.backend = .level ∧ xm.1.usable = true ∧ xl.1.usable = true ∧
              xm.1.db = xl.1.db := by
            cases r with
            | put l =>
              simp only [DS.operate, hu, hu', hm, hl, if_true, memPut_eq, levelPut_eq] at om ol
              cases hx : mapO (PutItem.enc cb) l with
              | err => rw [hx] at om; cases om
              | ub => rw [hx] at om; cases om
              | ok es =>
                simp only [hx, Out.ok_bind] at om ol
                generalize histHooks dm.hists _ = a at om
                generalize histHooks dl.hists _ = b at ol
                cases a with
                | err => cases om
                | ub => cases om
                | ok a =>
                  cases b with
                  | err => cases ol
                  | ub => cases ol
                  | ok b => cases om; cases ol; exact ⟨rfl, rfl, rfl, rfl, by rw [hdb]⟩
            | get l =>
              simp only [DS.operate, hu, hu', if_true] at om ol
              generalize getAll cb heap dm.db l = a at om
              generalize getAll cb heap dl.db l = b at ol
              cases a with
              | err => cases om
              | ub => cases om
              | ok a =>
                cases b with
                | err => cases ol
                | ub => cases ol
                | ok b => cases om; cases ol; exact ⟨hm, hl, rfl, rfl, hdb⟩
            | getop l =>
              simp only [DS.operate, hu, hu', if_true] at om ol
              generalize getOpAll dm.backend cb heap dm.db l = a at om
              generalize getOpAll dl.backend cb heap dl.db l = b at ol
              cases a with
              | err => cases om
              | ub => cases om
              | ok a =>
                cases b with
                | err => cases ol
                | ub => cases ol
                | ok b => cases om; cases ol; exact ⟨hm, hl, rfl, rfl, hdb⟩
            | del l =>
              simp only [DS.operate, hu, hu', hm, hl, if_true, memDel_eq, levelDel_eq] at om ol
              cases hx : mapO (DelItem.enc cb) l with
              | err => rw [hx] at om; cases om
              | ub => rw [hx] at om; cases om
              | ok es =>
                simp only [hx, Out.ok_bind] at om ol
                cases om; cases ol; exact ⟨rfl, rfl, rfl, rfl, by rw [hdb]⟩
            | hist l => cases om; cases ol; exact ⟨hm, hl, hu, hu', hdb⟩
          exact ih xm.1 xl.1 step.1 step.2.1 step.2.2.1 step.2.2.2.1 step.2.2.2.2 rm rl
  exact ⟨key, by rw [key]; exact fun _ => rfl⟩

example : ∃ dm dl, DS.run exCb 100 (exDs .mem []) exHist = .ok dm ∧
    DS.run exCb 100 (exDs .level []) exHist = .ok dl ∧ dm.db.length = 1 ∧ dm.db = dl.db :=
  ⟨_, _, rfl, rfl, rfl, rfl⟩

/-- A PUT packet all of whose items can be encoded is answered alike. -/
theorem C13_put_answers_partial (cb : Callbacks) (db : Db) (l : List PutItem)
    (h : ∀ x ∈ l, ∃ kv, encodeTriple cb x.subject x.predicate x.object = .ok (some kv)) :
    memPut cb db l = levelPut cb true db l := by
  rw [memPut_eq, levelPut_eq]
  have key : ∀ es, mapO (PutItem.enc cb) l = .ok es → List.zipWith
      (fun x e => putReply x (if e.isSome then dsSuccess else dsError)) l es =
      l.map (fun x => putReply x dsSuccess) := by
    intro es hes
    have hf := mapO_ok hes
    clear hes
    induction hf with
    | nil => rfl
    | @cons x e l es hx _ ih =>
      obtain ⟨kv, hkv⟩ := h x List.mem_cons_self
      rw [show PutItem.enc cb x = _ from hkv] at hx
      cases hx
      simp only [List.zipWith_cons_cons, List.map_cons, Option.isSome_some, if_true]
      rw [ih (fun y hy => h y (List.mem_cons_of_mem _ hy))]
  cases hes : mapO (PutItem.enc cb) l with
  | err => rfl
  | ub => rfl
  | ok es => simp only [Out.ok_bind, key es hes, if_true]

example : memPut exCb [] [exPut [1] [2] [3], exPut [4] [] []] = levelPut exCb true [] [exPut [1] [2] [3], exPut [4] [] []] :=
  C13_put_answers_partial _ _ _ (by
    intro x hx
    simp only [List.mem_cons, List.not_mem_nil, or_false] at hx
    rcases hx with rfl | rfl <;> exact ⟨_, rfl⟩)

/-- C13 is false for statuses: a PUT with an unregistered type and a DELETE of an absent pair
succeed on LevelDB and fail in memory. -/
theorem C13_status_false :
    (∃ l r r', memPut exCb [] l = .ok ([], r) ∧ levelPut exCb true [] l = .ok ([], r') ∧
      r.map (·.status) = [dsError] ∧ r'.map (·.status) = [dsSuccess]) ∧
    (∃ l r r', memDel exCb [] l = .ok ([], r) ∧ levelDel exCb true [] l = .ok ([], r') ∧
      r.map (·.status) = [dsError] ∧ r'.map (·.status) = [dsSuccess]) :=
  ⟨⟨[⟨⟨100, [1], 0⟩, 1, exB [2], 2, exB [3]⟩], _, _, rfl, rfl, rfl, rfl⟩,
   ⟨[⟨exB [1], 1, exB [2], 2⟩], _, _, rfl, rfl, rfl, rfl⟩⟩

/-- C13 is false for GETOP: LAST on an empty datastore is an error on LevelDB and undefined
behaviour in memory. -/
theorem C13_getop_false (cb : Callbacks) (heap : Nat) :
    getOpItem .mem cb heap [] ⟨goLast, Blob.null, Blob.null, 0, 1⟩ = .ub ∧
    getOpItem .level cb heap [] ⟨goLast, Blob.null, Blob.null, 0, 1⟩ =
      .ok ⟨dsError, [⟨Blob.null, Blob.null, Blob.null⟩]⟩ := ⟨rfl, rfl⟩

/-! ## C14 -/

/-- Key and value of an item, `none` when it cannot be encoded. -/
def encOf (cb : Callbacks) (x : PutItem) : Option (Bytes × Bytes) :=
  match encodeTriple cb x.subject x.predicate x.object with
  | .ok e => e
  | _ => none

/-- C14 in memory. After a PUT packet every key holds the object of the last item for it that was
reported successful, or what it held before; an item is reported successful exactly when its triple
can be encoded. -/
theorem C14_mem_put_status (cb : Callbacks) (db db' : Db) (l : List PutItem) (r : List StatusItem)
    (h : memPut cb db l = .ok (db', r)) :
    (∀ k, find db' k = (lastWrite (encOf cb) k (l.zip r)).or (find db k)) ∧
    List.Forall₂ (fun x y =>
      (y.status = dsSuccess ∧ ∃ kv, encodeTriple cb x.subject x.predicate x.object = .ok (some kv)) ∨
      (y.status = dsError ∧ encodeTriple cb x.subject x.predicate x.object = .ok none)) l r := by
  rw [memPut_eq] at h
  cases hes : mapO (PutItem.enc cb) l with
  | err => rw [hes] at h; cases h
  | ub => rw [hes] at h; cases h
  | ok es =>
    rw [hes] at h
    cases h
    have hf := mapO_ok hes
    clear hes
    constructor
    · intro k
      have gen : ∀ (acc : Option Bytes) (db : Db), acc.or (find db k) = find db k →
          find (applyPuts db es) k = ((l.zip (List.zipWith
            (fun x e => putReply x (if e.isSome then dsSuccess else dsError)) l es)).foldl (fun acc x =>
              match encOf cb x.1 with
              | some kv => if x.2.status = dsSuccess ∧ kv.1 = k then some kv.2 else acc
              | none => acc) acc).or (find db k) := by
        induction hf with
        | nil => intro acc db hacc; simp [applyPuts, hacc]
        | @cons x e l es hx _ ih =>
          intro acc db hacc
          have hx' : encOf cb x = e := by
            unfold encOf; rw [show encodeTriple cb x.subject x.predicate x.object = .ok e from hx]
          simp only [List.zipWith_cons_cons, List.zip_cons_cons, List.foldl_cons, hx']
          cases e with
          | none => exact ih acc db hacc
          | some kv =>
            have e1 : (putReply x (if (some kv).isSome then dsSuccess else dsError)).status = dsSuccess := rfl
            simp only [e1, true_and]
            show find (applyPuts (Store.put kv.1 kv.2 db) es) k = _
            have hp := find_put kv.1 k kv.2 db
            by_cases hk : kv.1 = k
            · rw [if_pos hk] at hp ⊢
              rw [ih (some kv.2) (Store.put kv.1 kv.2 db) (by rw [hp]; rfl), hp]
              generalize hz : List.foldl _ (some kv.2) _ = z
              cases z with
              | some z => rfl
              | none =>
                exfalso
                -- once something was written the accumulator stays
                have stay : ∀ (m : List (PutItem × StatusItem)) (a : Bytes), (m.foldl (fun acc x =>
                    match encOf cb x.1 with
                    | some kv => if x.2.status = dsSuccess ∧ kv.1 = k then some kv.2 else acc
                    | none => acc) (some a)) ≠ none := by
                  intro m
                  induction m with
                  | nil => intro a; simp
                  | cons y m ihm =>
                    intro a
                    simp only [List.foldl_cons]
                    cases hy : encOf cb y.1 with
                    | none => exact ihm a
                    | some kv' =>
                      simp only
                      split
                      · exact ihm _
                      · exact ihm _
                exact stay _ _ hz
            · rw [if_neg hk] at hp ⊢
              rw [ih acc (Store.put kv.1 kv.2 db) (by rw [hp]; exact hacc), hp]
      exact gen none db rfl
    · induction hf with
      | nil => exact .nil
      | @cons x e l es hx _ ih =>
        refine .cons ?_ ih
        cases e with
        | none => exact Or.inr ⟨rfl, hx⟩
        | some kv => exact Or.inl ⟨rfl, kv, hx⟩

/-- A packet with a refused item between two writes of the same pair. -/
example : ∃ db' r, memPut exCb [] [exPut [1] [2] [3], ⟨⟨100, [1], 0⟩, 1, exB [2], 2, exB [3]⟩, exPut [1] [2] [9]] = .ok (db', r) ∧
    r.map (·.status) = [dsSuccess, dsError, dsSuccess] ∧ db'.length = 1 := ⟨_, _, rfl, by decide, rfl⟩

/-- A numeric subject without data is refused by the default callbacks; nothing is stored. -/
theorem C14_null_number_refused (neg pos : UInt8) (f : FloatCodec) (db : Db) (x : PutItem)
    (ha : x.subject.addr = 0) (ht : isNumeric x.subject.typ = true) :
    memPut (defaultCallbacks neg pos f) db [x] = .ok (db, [putReply x dsError]) := by
  have henc : (defaultCallbacks neg pos f).encode x.subject = .ok none := by
    simp only [defaultCallbacks]
    cases hi : intType x.subject.typ with
    | some t => simp only [ha, if_true]
    | none =>
      have : x.subject.typ = tFloat ∨ x.subject.typ = tDouble := by
        simp only [isNumeric, Bool.or_eq_true, beq_iff_eq] at ht
        unfold intType at hi
        rcases ht with ((((h | h) | h) | h) | h) | h <;> first | (left; exact h) | (right; exact h) | skip
        all_goals (rw [h] at hi; cases hi)
      simp only [this, ha, if_true]
  simp only [memPut, encodeTriple, encodeKey, henc, Out.ok_bind]

example : memPut exCb [] [⟨⟨0, [], tInt32⟩, 1, exB [2], 2, exB [3]⟩] =
    .ok ([], [putReply ⟨⟨0, [], tInt32⟩, 1, exB [2], 2, exB [3]⟩ dsError]) :=
  C14_null_number_refused _ _ _ _ _ rfl rfl

/-- C14 is false on LevelDB: an item of an unregistered type is reported successful although
nothing was stored. -/
theorem C14_level_false :
    ∃ (l : List PutItem) (r : List StatusItem), levelPut exCb true [] l = .ok ([], r) ∧
      r.map (·.status) = [dsSuccess] :=
  ⟨[⟨⟨100, [1], 0⟩, 1, exB [2], 2, exB [3]⟩], _, rfl, rfl⟩

/-- C14 on LevelDB, part: a failed write reports an error for every item and changes nothing; a
successful write of items that can all be encoded acts as in memory (`C14_mem_put_status`).
Missing for the full statement: items that cannot be encoded. -/
theorem C14_level_put_status_partial (cb : Callbacks) (db : Db) (l : List PutItem) :
    (∀ db' r, levelPut cb false db l = .ok (db', r) → db' = db ∧ ∀ y ∈ r, y.status = dsError) ∧
    ((∀ x ∈ l, ∃ kv, encodeTriple cb x.subject x.predicate x.object = .ok (some kv)) →
      levelPut cb true db l = memPut cb db l) := by
  refine ⟨?_, fun h => (C13_put_answers_partial cb db l h).symm⟩
  intro db' r h
  rw [levelPut_eq] at h
  cases hes : mapO (PutItem.enc cb) l with
  | err => rw [hes] at h; cases h
  | ub => rw [hes] at h; cases h
  | ok es =>
    rw [hes] at h
    cases h
    refine ⟨rfl, ?_⟩
    intro y hy
    obtain ⟨x, _, rfl⟩ := List.mem_map.mp hy
    rfl

/-! ## C15 -/

/-- C15, the records: after a DELETE packet, in either backend, exactly the named pairs are gone. -/
theorem C15_delete_removes (cb : Callbacks) (db db' : Db) (l : List DelItem) (r : List StatusItem)
    (h : memDel cb db l = .ok (db', r) ∨ levelDel cb true db l = .ok (db', r)) (k : Bytes) :
    find db' k = if ∃ x ∈ l, encodeKey cb x.subject x.predicate = .ok (some k) then none else find db k := by
  have hd : ∃ ks, mapO (DelItem.enc cb) l = .ok ks ∧ db' = applyDels db ks := by
    rw [memDel_eq, levelDel_eq] at h
    cases hks : mapO (DelItem.enc cb) l with
    | err => rw [hks] at h; rcases h with h | h <;> cases h
    | ub => rw [hks] at h; rcases h with h | h <;> cases h
    | ok ks =>
      rw [hks] at h
      refine ⟨ks, rfl, ?_⟩
      rcases h with h | h <;> · cases h; rfl
  obtain ⟨ks, hks, rfl⟩ := hd
  rw [find_applyDels]
  have hf := mapO_ok hks
  have : (some k ∈ ks) ↔ ∃ x ∈ l, encodeKey cb x.subject x.predicate = .ok (some k) := by
    clear hks h
    induction hf with
    | nil => simp
    | @cons x e l es hx _ ih =>
      have hx' : encodeKey cb x.subject x.predicate = .ok e := hx
      simp only [List.mem_cons, ih, exists_eq_or_imp, hx', Out.ok.injEq]
      constructor
      · rintro (h | h)
        · exact Or.inl h.symm
        · exact Or.inr h
      · rintro (h | h)
        · exact Or.inl h.symm
        · exact Or.inr h
  simp only [this]

/-- C15, the status in memory: SUCCESS exactly when the record was there, not counting records an
earlier item of the same packet removed. -/
theorem C15_mem_delete_status (cb : Callbacks) (db db' : Db) (l : List DelItem) (r : List StatusItem)
    (h : memDel cb db l = .ok (db', r)) (i : Nat) (x : DelItem) (y : StatusItem)
    (hx : l[i]? = some x) (hy : r[i]? = some y) :
    (y.status = dsSuccess ∨ y.status = dsError) ∧
    (y.status = dsSuccess ↔ ∃ k, encodeKey cb x.subject x.predicate = .ok (some k) ∧
      (find db k).isSome ∧ ∀ x' ∈ l.take i, encodeKey cb x'.subject x'.predicate ≠ .ok (some k)) := by
  rw [memDel_eq] at h
  cases hks : mapO (DelItem.enc cb) l with
  | err => rw [hks] at h; cases h
  | ub => rw [hks] at h; cases h
  | ok ks =>
    rw [hks] at h
    cases h
    have hf := mapO_ok hks
    clear hks
    induction hf generalizing db i with
    | nil => simp at hx
    | @cons x0 e l es hx0 _ ih =>
      have hx0' : encodeKey cb x0.subject x0.predicate = .ok e := hx0
      cases i with
      | zero =>
        simp only [List.getElem?_cons_zero, Option.some.injEq] at hx
        subst hx
        cases e with
        | none =>
          simp only [delStatuses, List.getElem?_cons_zero, Option.some.injEq] at hy
          subst hy
          refine ⟨Or.inr rfl, ?_⟩
          simp only [hx0', List.take_zero]
          constructor
          · intro h; exact absurd h (by simp [delReply]; decide)
          · rintro ⟨k, hk, _⟩; cases hk
        | some k =>
          simp only [delStatuses, List.getElem?_cons_zero, Option.some.injEq] at hy
          subst hy
          simp only [hx0', List.take_zero, delReply]
          cases hfk : (find db k).isSome with
          | true => exact ⟨Or.inl rfl, by simp [hfk]⟩
          | false =>
            refine ⟨Or.inr rfl, ?_⟩
            constructor
            · intro h; exact absurd h (by decide)
            · rintro ⟨k', hk', hs, _⟩
              cases hk'; rw [hfk] at hs; cases hs
      | succ i =>
        simp only [List.getElem?_cons_succ] at hx
        simp only [List.take_succ_cons, List.forall_mem_cons, hx0']
        cases e with
        | none =>
          simp only [delStatuses, List.getElem?_cons_succ] at hy
          have := ih db i hx hy
          refine ⟨this.1, this.2.trans ?_⟩
          simp
        | some k0 =>
          simp only [delStatuses, List.getElem?_cons_succ] at hy
          have := ih (erase k0 db) i hx hy
          refine ⟨this.1, this.2.trans ?_⟩
          constructor
          · rintro ⟨k, h1, h2, h3⟩
            rw [find_erase] at h2
            by_cases hk : k0 = k
            · rw [if_pos hk] at h2; cases h2
            · rw [if_neg hk] at h2
              exact ⟨k, h1, h2, by simpa using hk, h3⟩
          · rintro ⟨k, h1, h2, h3, h4⟩
            have hk : k0 ≠ k := by simpa using h3
            exact ⟨k, h1, by rw [find_erase, if_neg hk]; exact h2, h4⟩

/-- Present, deleted twice in one packet, absent. -/
example : ∃ db' r, memDel exCb [(Key.spToKey ⟨[1], 7⟩ ⟨[2], 7⟩, [3, 7, 0, 0, 0])]
    [⟨exB [1], 1, exB [2], 2⟩, ⟨exB [1], 1, exB [2], 2⟩, ⟨exB [1], 1, exB [], 2⟩] = .ok (db', r) ∧
    r.map (·.status) = [dsSuccess, dsError, dsError] ∧ db' = [] := ⟨_, _, rfl, by decide, rfl⟩

/-- C15 is false on LevelDB: deleting a pair that is not there is reported as success. -/
theorem C15_level_status_false :
    ∃ (l : List DelItem) (r : List StatusItem), levelDel exCb true [] l = .ok ([], r) ∧
      r.map (·.status) = [dsSuccess] :=
  ⟨[⟨exB [1], 1, exB [2], 2⟩], _, rfl, rfl⟩

/-! ## C16 -/

/-- C16. GET, GETOP and HISTOGRAM packets change no record and no histogram, whatever they answer. -/
theorem C16_reads_change_nothing (cb : Callbacks) (heap : Nat) (wr : Bool) (d d' : DS) (req : ReqBody)
    (res : Option ResBody) (h : d.operate cb heap wr req = .ok (d', res))
    (hreq : (∃ l, req = .get l) ∨ (∃ l, req = .getop l) ∨ (∃ l, req = .hist l)) :
    d'.db = d.db ∧ d'.hists = d.hists := by
  rcases hreq with ⟨l, rfl⟩ | ⟨l, rfl⟩ | ⟨l, rfl⟩
  · simp only [DS.operate] at h
    split at h
    · generalize getAll cb heap d.db l = a at h
      cases a with
      | err => cases h
      | ub => cases h
      | ok a => cases h; exact ⟨rfl, rfl⟩
    · cases h; exact ⟨rfl, rfl⟩
  · simp only [DS.operate] at h
    split at h
    · generalize getOpAll d.backend cb heap d.db l = a at h
      cases a with
      | err => cases h
      | ub => cases h
      | ok a => cases h; exact ⟨rfl, rfl⟩
    · cases h; exact ⟨rfl, rfl⟩
  · cases h; exact ⟨rfl, rfl⟩

/-- A failing GET on a datastore with a record. -/
example : ∃ d' res, (exDs .mem [([1], [2])]).operate exCb 100 true (.get [⟨exB [1], 1, exB [2], 2, 0⟩]) = .ok (d', res) ∧
    d'.db = [([1], [2])] := ⟨_, _, rfl, rfl⟩

/-! ## C21 -/

/-- C21, part: a usable datastore's response matches the packet.
Missing for the full statement: an unusable datastore answers with nothing, see
`C21_unusable_false`; GETOP and HISTOGRAM responses have no room for the client's addresses. -/
theorem C21_one_response_each_partial (cb : Callbacks) (heap : Nat) (wr : Bool) (d d' : DS) (req : ReqBody)
    (res : Option ResBody) (hu : d.usable = true) (h : d.operate cb heap wr req = .ok (d', res)) :
    ∃ body, res = some body ∧ Matches req body := by
  cases req with
  | put l =>
    simp only [DS.operate, hu, if_true] at h
    cases hb : d.backend with
    | mem =>
      simp only [hb] at h
      cases hm : memPut cb d.db l with
      | err => rw [hm] at h; cases h
      | ub => rw [hm] at h; cases h
      | ok a =>
        rw [hm, Out.ok_bind] at h
        cases hh : histHooks d.hists (l.zip a.2) with
        | err => rw [hh] at h; cases h
        | ub => rw [hh] at h; cases h
        | ok hs => rw [hh] at h; cases h; exact ⟨_, rfl, matches_memPut hm⟩
    | level =>
      simp only [hb] at h
      cases hm : levelPut cb wr d.db l with
      | err => rw [hm] at h; cases h
      | ub => rw [hm] at h; cases h
      | ok a =>
        rw [hm, Out.ok_bind] at h
        cases hh : histHooks d.hists (l.zip a.2) with
        | err => rw [hh] at h; cases h
        | ub => rw [hh] at h; cases h
        | ok hs => rw [hh] at h; cases h; exact ⟨_, rfl, matches_levelPut hm⟩
  | get l =>
    simp only [DS.operate, hu, if_true, getAll_eq] at h
    cases hg : mapO (getItem cb heap d.db) l with
    | err => rw [hg] at h; cases h
    | ub => rw [hg] at h; cases h
    | ok r =>
      rw [hg] at h; cases h
      refine ⟨_, rfl, ?_⟩
      unfold Matches
      refine (mapO_ok hg).imp ?_
      intro x y hxy
      unfold getItem at hxy
      cases hk : encodeKey cb x.subject x.predicate with
      | err => simp [hk] at hxy
      | ub => simp [hk] at hxy
      | ok k =>
        simp only [hk, Out.ok_bind] at hxy
        cases k with
        | none => cases hxy; exact ⟨rfl, rfl⟩
        | some k =>
          simp only at hxy
          cases hfk : find d.db k with
          | none => rw [hfk] at hxy; cases hxy; exact ⟨rfl, rfl⟩
          | some v =>
            simp only [hfk] at hxy
            cases hv : removeType v with
            | err => simp [hv] at hxy
            | ub => simp [hv] at hxy
            | ok ot =>
              simp only [hv, Out.ok_bind] at hxy
              cases hd : cb.decode ⟨ot.1, ot.2⟩ with
              | err => simp [hd] at hxy
              | ub => simp [hd] at hxy
              | ok o =>
                simp only [hd, Out.ok_bind] at hxy
                cases o <;> · cases hxy; exact ⟨rfl, rfl⟩
  | getop l =>
    simp only [DS.operate, hu, if_true, getOpAll_eq] at h
    cases hg : mapO (getOpItem d.backend cb heap d.db) l with
    | err => rw [hg] at h; cases h
    | ub => rw [hg] at h; cases h
    | ok r => rw [hg] at h; cases h; exact ⟨_, rfl, (mapO_ok hg).length_eq⟩
  | del l =>
    simp only [DS.operate, hu, if_true] at h
    cases hes : mapO (DelItem.enc cb) l with
    | err => cases hb : d.backend <;> rw [hb] at h <;> simp [memDel_eq, levelDel_eq, hes] at h
    | ub => cases hb : d.backend <;> rw [hb] at h <;> simp [memDel_eq, levelDel_eq, hes] at h
    | ok ks =>
      cases hb : d.backend with
      | mem =>
        rw [hb] at h
        simp only [memDel_eq, hes, Out.ok_bind] at h
        cases h
        refine ⟨_, rfl, ?_⟩
        unfold Matches
        have hf := mapO_ok hes
        clear hes
        have gen : ∀ db, List.Forall₂ (fun (x : DelItem) (y : StatusItem) =>
            Echoes x.subject x.origS x.predicate x.origP y.subject y.predicate) l (delStatuses db l ks) := by
          induction hf with
          | nil => intro db; exact .nil
          | @cons x e l es _ _ ih =>
            intro db
            cases e with
            | none => exact .cons ⟨rfl, rfl⟩ (ih db)
            | some k => exact .cons ⟨rfl, rfl⟩ (ih _)
        exact gen d.db
      | level =>
        rw [hb] at h
        simp only [levelDel_eq, hes, Out.ok_bind] at h
        cases h
        refine ⟨_, rfl, ?_⟩
        simp only [Matches, List.forall₂_map_right_iff, List.forall₂_same]
        intro x _; exact ⟨rfl, rfl⟩
  | hist l => cases h; exact ⟨_, rfl, by simp [Matches]⟩

/-- Through the range server: the datastore addressed by the destination id, and no other, handles
the packet; its answer goes back to the requester. -/
theorem C21_range_server_partial (cb : Callbacks) (heap : Nat) (wr : Bool) (ds ds' : List DS) (req : Req) (res : Res)
    (hu : ∀ d ∈ ds, d.usable = true) (h : rangeServer cb heap wr ds req = .ok (ds', res)) :
    res.src = req.dst ∧ res.dst = req.src ∧ Matches req.body res.body ∧
    ∃ (i : Nat) (d d' : DS), (i : Int) = req.dst % ds.length ∧ ds[i]? = some d ∧
      d.operate cb heap wr req.body = .ok (d', some res.body) ∧ ds' = ds.set i d' := by
  unfold rangeServer at h
  split at h
  · cases h
  · simp only at h
    split at h
    · cases h
    · rename_i d hd
      cases ho : d.operate cb heap wr req.body with
      | err => rw [ho] at h; cases h
      | ub => rw [ho] at h; cases h
      | ok r =>
        rw [ho, Out.ok_bind] at h
        obtain ⟨body, hb, hm⟩ := C21_one_response_each_partial cb heap wr d r.1 req.body r.2
          (hu d (List.mem_of_getElem? hd)) ho
        cases h
        refine ⟨rfl, rfl, by rw [hb]; exact hm, _, d, r.1, ?_, hd, ?_, rfl⟩
        · rename_i hne _
          rw [Int.toNat_of_nonneg (Int.emod_nonneg _ (by omega))]
        · rw [ho, hb, Option.getD_some, ← hb]

example : ∃ ds' res, rangeServer exCb 100 true [exDs .mem [], exDs .mem []]
    ⟨4, 3, .put [exPut [1] [2] [3], exPut [4] [5] [6]]⟩ = .ok (ds', res) ∧ res.src = 3 ∧ res.dst = 4 ∧
    ds'.map (fun d => d.db.length) = [0, 2] := ⟨_, _, rfl, rfl, rfl, rfl⟩

/-- C21 is false when the datastore is not usable: the response is empty. -/
theorem C21_unusable_false :
    ∃ (ds : List DS) (req : Req) (ds' : List DS) (res : Res), rangeServer exCb 100 true ds req = .ok (ds', res) ∧
      req.body = .put [exPut [1] [2] [3]] ∧ res.body = .put [] :=
  ⟨[{ exDs .mem [] with usable := false }], ⟨0, 0, .put [exPut [1] [2] [3]]⟩, _, _, rfl, rfl, rfl⟩

/-! ## C49 -/

/-- C49. After any history the statistics have grown by the number of PUT packets, of GET and
HISTOGRAM packets and GETOP items, and of DELETE packets. -/
theorem C49_statistics (cb : Callbacks) (heap : Nat) (d d' : DS) (hist : List (Bool × ReqBody))
    (hu : d.usable = true) (h : DS.run cb heap d hist = .ok d') :
    d'.puts = d.puts + putEvents hist ∧ d'.gets = d.gets + getEvents hist ∧
    d'.deletes = d.deletes + delEvents hist := by
  induction hist generalizing d with
  | nil => cases h; exact ⟨rfl, rfl, rfl⟩
  | cons x hist ih =>
    unfold DS.run at h
    cases ho : d.operate cb heap x.1 x.2 with
    | err => rw [ho] at h; cases h
    | ub => rw [ho] at h; cases h
    | ok r =>
      rw [ho, Out.ok_bind] at h
      have step : r.1.usable = true ∧ r.1.puts = d.puts + putEvents [x] ∧ r.1.gets = d.gets + getEvents [x] ∧
          r.1.deletes = d.deletes + delEvents [x] := by
        obtain ⟨wr, req⟩ := x
        cases req with
        | put l =>
          simp only [DS.operate, hu, if_true] at ho
          cases hb : d.backend <;> simp only [hb] at ho
          · cases hm : memPut cb d.db l with
            | err => rw [hm] at ho; cases ho
            | ub => rw [hm] at ho; cases ho
            | ok a =>
              rw [hm, Out.ok_bind] at ho
              cases hh : histHooks d.hists (l.zip a.2) with
              | err => rw [hh] at ho; cases ho
              | ub => rw [hh] at ho; cases ho
              | ok hs => rw [hh] at ho; cases ho; simp [putEvents, getEvents, delEvents]
          · cases hm : levelPut cb wr d.db l with
            | err => rw [hm] at ho; cases ho
            | ub => rw [hm] at ho; cases ho
            | ok a =>
              rw [hm, Out.ok_bind] at ho
              cases hh : histHooks d.hists (l.zip a.2) with
              | err => rw [hh] at ho; cases ho
              | ub => rw [hh] at ho; cases ho
              | ok hs => rw [hh] at ho; cases ho; simp [putEvents, getEvents, delEvents]
        | get l =>
          simp only [DS.operate, hu, if_true] at ho
          generalize getAll cb heap d.db l = a at ho
          cases a with
          | err => cases ho
          | ub => cases ho
          | ok a => cases ho; simp [putEvents, getEvents, delEvents]
        | getop l =>
          simp only [DS.operate, hu, if_true] at ho
          generalize getOpAll d.backend cb heap d.db l = a at ho
          cases a with
          | err => cases ho
          | ub => cases ho
          | ok a => cases ho; simp [putEvents, getEvents, delEvents]
        | del l =>
          simp only [DS.operate, hu, if_true] at ho
          cases hb : d.backend <;> simp only [hb] at ho
          · cases hm : memDel cb d.db l with
            | err => rw [hm] at ho; cases ho
            | ub => rw [hm] at ho; cases ho
            | ok a => rw [hm] at ho; cases ho; simp [putEvents, getEvents, delEvents]
          · cases hm : levelDel cb wr d.db l with
            | err => rw [hm] at ho; cases ho
            | ub => rw [hm] at ho; cases ho
            | ok a => rw [hm] at ho; cases ho; simp [putEvents, getEvents, delEvents]
        | hist l => cases ho; simp [hu, putEvents, getEvents, delEvents]
      obtain ⟨h1, h2, h3⟩ := ih r.1 step.1 h
      simp only [putEvents, getEvents, delEvents, List.map_cons, List.map_nil, List.sum_cons, List.sum_nil,
        Nat.add_zero] at step h1 h2 h3 ⊢
      omega

example : ∃ d, DS.run exCb 100 (exDs .mem []) (exHist ++ [(true, .getop [⟨goFirst, Blob.null, Blob.null, 0, 1⟩,
    ⟨goLast, Blob.null, Blob.null, 0, 1⟩])]) = .ok d ∧ d.puts = 1 ∧ d.gets = 2 ∧ d.deletes = 1 := ⟨_, rfl, rfl, rfl, rfl⟩

/-- Types have the numbers of the header, and the integer types their widths and signs. -/
theorem C12_type_codes : [tInt32, tInt64, tUint32, tUint64, tFloat, tDouble, tByte, tPointer] =
      ["INT32", "INT64", "UINT32", "UINT64", "FLOAT", "DOUBLE", "BYTE", "POINTER"].map dataNames.idxOf ∧
    ["INT32", "INT64", "UINT32", "UINT64"].map (fun n => intType (dataNames.idxOf n)) =
      [some Elen.int32, some Elen.int64, some Elen.uint32, some Elen.uint64] ∧
    ["INVALID", "FLOAT", "DOUBLE", "BYTE", "POINTER", "MAX_KNOWN"].map (fun n => intType (dataNames.idxOf n)) =
      [none, none, none, none, none, none] := by decide +kernel

end Hx.Props

import Verif.Proofs.GetOp
import Verif.Spec.Lowest
import Verif.Proofs.Process

/-!
# Helper lemmas: LOWEST and HIGHEST on entries that need not come back exactly
-/

namespace Hx.Store
open Hx Msg Spec

/-- An entry is returned as a record. -/
def Shown (cb : Callbacks) (heap : Nat) (kv : Bytes × Bytes) (c : Rec) : Prop :=
  ∃ sp ot s p o, Key.keyToSp kv.1 = .ok sp ∧ removeType kv.2 = .ok ot ∧ cb.decode sp.1 = .ok (some s) ∧
    cb.decode sp.2 = .ok (some p) ∧ cb.decode ⟨ot.1, ot.2⟩ = .ok (some o) ∧
    c = ⟨⟨copyAddr heap s.length, s, sp.1.typ⟩, ⟨copyAddr heap p.length, p, sp.2.typ⟩, ⟨copyAddr heap o.length, o, ot.2⟩⟩

theorem copyResponse_shown {cb : Callbacks} {heap n j : Nat} {kv : Bytes × Bytes} {c : Rec} (h : Shown cb heap kv c)
    {recs : List Rec} (hr : recs.length = j) (hj : j < n) :
    copyResponse cb heap n ⟨dsUnset, recs⟩ j kv = .ok ⟨dsUnset, recs ++ [c]⟩ := by
  obtain ⟨sp, ot, s, p, o, h1, h2, h3, h4, h5, rfl⟩ := h
  unfold copyResponse
  rw [if_neg (by simp), h1]
  simp only [Out.ok_bind, h2, h3, h4, h5]
  rw [if_neg (by omega), List.take_of_length_le (by omega)]

theorem forward_shown {cb : Callbacks} {heap n : Nat} {db : Db} {cond : Bytes → Out Bool} {c : Bytes → Bool}
    (hc : ∀ kv ∈ db, cond kv.1 = .ok (c kv.1)) (hs : ∀ kv ∈ db, c kv.1 = true → ∃ r, Shown cb heap kv r)
    (r j it : Nat) (recs : List Rec) (hr : recs.length = j) (hn : r + j ≤ n) :
    ∃ more, forward (copyResponse cb heap n) cond db r j it ⟨dsUnset, recs⟩ = .ok ⟨dsUnset, recs ++ more⟩ ∧
      List.Forall₂ (Shown cb heap) (((db.drop it).takeWhile (fun kv => c kv.1)).take r) more := by
  induction r generalizing j it recs with
  | zero => exact ⟨[], by simp [forward], by simp⟩
  | succ r ih =>
    unfold forward
    cases ha : db[it]? with
    | none =>
      have : db.drop it = [] := List.drop_eq_nil_of_le (List.getElem?_eq_none_iff.mp ha)
      exact ⟨[], by simp, by simp [this]⟩
    | some kv =>
      obtain ⟨hlt, hget⟩ := List.getElem?_eq_some_iff.mp ha
      have hmem : kv ∈ db := List.mem_of_getElem? ha
      have hd : db.drop it = kv :: db.drop (it + 1) := by rw [List.drop_eq_getElem_cons hlt, hget]
      simp only
      rw [hc kv hmem, Out.ok_bind, hd, List.takeWhile_cons]
      cases hca : c kv.1 with
      | false => exact ⟨[], by simp, by simp⟩
      | true =>
        obtain ⟨x, hx⟩ := hs kv hmem hca
        obtain ⟨more, h1, h2⟩ := ih (j + 1) (it + 1) (recs ++ [x]) (by simp [hr]) (by omega)
        refine ⟨x :: more, ?_, ?_⟩
        · simp only [if_true]
          rw [copyResponse_shown hx hr (by omega), Out.ok_bind, h1]
          simp
        · simp only [if_true, List.take_succ_cons]
          exact .cons hx h2

/-! ## Sorted lists -/

theorem lt_of_not_prefix {es k x : Bytes} (h : ¬ k < es) (hp : ¬ es <+: k) : es ++ x < k := by
  rcases bytes_trichotomy (es ++ x) k with h1 | h1 | h1
  · exact h1
  · exact absurd (h1 ▸ List.prefix_append _ _) hp
  · exact absurd (lt_of_lt_append h1 hp) h

theorem lt_of_lt_of_not {a b k : Bytes} (h : ¬ a < b) (h1 : a < k) : ¬ k < b := fun h2 => h (bytes_lt_trans h1 h2)

theorem takeWhile_eq_filter {db : Db} (hs : Sorted db) {es : Bytes} (hge : ∀ kv ∈ db, ¬ kv.1 < es) :
    db.takeWhile (fun kv => es.isPrefixOf kv.1) = db.filter (fun kv => es.isPrefixOf kv.1) := by
  induction db with
  | nil => rfl
  | cons kv db ih =>
    have hs' := List.pairwise_cons.mp hs
    by_cases hk : es <+: kv.1
    · rw [List.takeWhile_cons_of_pos (by simpa using hk), List.filter_cons_of_pos (by simpa using hk),
        ih hs'.2 (fun x hx => hge x (List.mem_cons_of_mem _ hx))]
    · rw [List.takeWhile_cons_of_neg (by simpa using hk), List.filter_cons_of_neg (by simpa using hk)]
      symm
      rw [List.filter_eq_nil_iff]
      intro y hy hpy
      obtain ⟨z, hz⟩ := List.isPrefixOf_iff_prefix.mp hpy
      have := lt_of_not_prefix (x := z) (hge kv List.mem_cons_self) hk
      rw [hz] at this
      exact bytes_lt_asymm this (hs'.1 y hy)

theorem seek_filter {db : Db} (hs : Sorted db) {es seek : Bytes} (hes : es <+: seek)
    (hge : ∀ kv ∈ db, es <+: kv.1 → ¬ kv.1 < seek) :
    (db.drop (lowerBound db seek)).takeWhile (fun kv => es.isPrefixOf kv.1) = db.filter (fun kv => es.isPrefixOf kv.1) := by
  unfold lowerBound
  rw [drop_takeWhile]
  induction db with
  | nil => rfl
  | cons kv db ih =>
    have hs' := List.pairwise_cons.mp hs
    by_cases hk : kv.1 < seek
    · rw [List.dropWhile_cons_of_pos (by simpa using hk), List.filter_cons_of_neg ?_]
      · exact ih hs'.2 (fun x hx => hge x (List.mem_cons_of_mem _ hx))
      · intro h; exact hge kv List.mem_cons_self (List.isPrefixOf_iff_prefix.mp h) hk
    · rw [List.dropWhile_cons_of_neg (by simpa using hk)]
      refine takeWhile_eq_filter hs ?_
      intro x hx hlt
      have hx' : x.1 < seek := lt_of_lt_prefix hlt hes
      rcases List.mem_cons.mp hx with rfl | hx
      · exact hk hx'
      · exact hk (bytes_lt_trans (hs'.1 x hx) hx')

theorem lowerBound_lt {db : Db} {seek : Bytes} {kv : Bytes × Bytes} (h : kv ∈ db) (hk : ¬ kv.1 < seek) :
    lowerBound db seek < db.length := by
  unfold lowerBound
  rcases Nat.lt_or_ge (db.takeWhile (fun x => decide (x.1 < seek))).length db.length with h1 | h1
  · exact h1
  · exfalso
    have h2 := (List.takeWhile_sublist (p := fun x : Bytes × Bytes => decide (x.1 < seek)) (l := db)).eq_of_length_le h1
    have h3 := takeWhile_imp (h2.symm ▸ h : kv ∈ db.takeWhile (fun x => decide (x.1 < seek)))
    exact hk (by simpa using h3)

theorem upperBound_lt {db : Db} {seek : Bytes} {kv : Bytes × Bytes} (h : kv ∈ db) (hk : seek < kv.1) :
    upperBound db seek < db.length := by
  unfold upperBound
  rcases Nat.lt_or_ge (db.takeWhile (fun x => decide (x.1 ≤ seek))).length db.length with h1 | h1
  · exact h1
  · exfalso
    have h2 := (List.takeWhile_sublist (p := fun x : Bytes × Bytes => decide (x.1 ≤ seek)) (l := db)).eq_of_length_le h1
    have h3 := takeWhile_imp (h2.symm ▸ h : kv ∈ db.takeWhile (fun x => decide (x.1 ≤ seek)))
    exact (by simpa using h3 : kv.1 ≤ seek) hk

/-- The entry before a bound. -/
theorem takeWhile_last {α : Type} {p : α → Bool} {l : List α} {i : Nat} (h : (l.takeWhile p).length = i + 1) {x : α}
    (hx : l[i]? = some x) : p x = true := by
  apply takeWhile_imp (l := l)
  have h1 : (l.takeWhile p)[i]? = some x := by
    rw [← take_takeWhile, List.getElem?_take, if_pos (by omega), hx]
  exact List.mem_of_getElem? h1

/-! ## What a history of PUTs leaves -/

theorem mem_applyPuts {db : Db} {es : List (Option (Bytes × Bytes))} {kv : Bytes × Bytes} (h : kv ∈ applyPuts db es) :
    kv ∈ db ∨ some kv ∈ es := by
  induction es generalizing db with
  | nil => exact .inl h
  | cons e es ih =>
    cases e with
    | none => rcases ih (db := db) h with h | h; exact .inl h; exact .inr (List.mem_cons_of_mem _ h)
    | some e =>
      rcases ih (db := put e.1 e.2 db) h with h | h
      · rcases mem_put h with rfl | h
        · exact .inr List.mem_cons_self
        · exact .inl h
      · exact .inr (List.mem_cons_of_mem _ h)

theorem find_isSome_applyPuts {db : Db} {es : List (Option (Bytes × Bytes))} {k : Bytes} (h : (find db k).isSome) :
    (find (applyPuts db es) k).isSome := by
  induction es generalizing db with
  | nil => exact h
  | cons e es ih =>
    cases e with
    | none => exact ih (db := db) h
    | some e =>
      refine ih (db := put e.1 e.2 db) ?_
      rw [find_put]; split
      · rfl
      · exact h

theorem key_applyPuts {db : Db} {es : List (Option (Bytes × Bytes))} {k v : Bytes} (h : some (k, v) ∈ es) :
    (find (applyPuts db es) k).isSome := by
  induction es generalizing db with
  | nil => cases h
  | cons e es ih =>
    rcases List.mem_cons.mp h with h1 | h1
    · subst h1
      refine find_isSome_applyPuts (db := put k v db) ?_
      rw [find_put, if_pos rfl]; rfl
    · cases e with
      | none => exact ih (db := db) h1
      | some e => exact ih (db := put e.1 e.2 db) h1

/-- The database after a history: sorted, nothing but what was PUT, every key that was PUT. -/
theorem run_puts {cb : Callbacks} {heap : Nat} {hist : List (Bool × ReqBody)} {d0 d : DS} (hu : d0.usable = true)
    (hput : ∀ x ∈ hist, ∀ l, x.2 = .put l → d0.backend = .mem ∨ x.1 = true) (hdel : ∀ x ∈ hist, ∀ l, x.2 ≠ .del l)
    (hsd : Sorted d0.db) (hrun : DS.run cb heap d0 hist = .ok d) :
    d.usable = true ∧ d.backend = d0.backend ∧ Sorted d.db ∧
      (∀ kv ∈ d.db, kv ∈ d0.db ∨ ∃ x ∈ hist, ∃ l, x.2 = .put l ∧ ∃ y ∈ l, PutItem.enc cb y = .ok (some kv)) ∧
      (∀ x ∈ hist, ∀ l, x.2 = .put l → ∀ y ∈ l, ∀ k v, PutItem.enc cb y = .ok (some (k, v)) → (find d.db k).isSome) ∧
      (∀ k, (find d0.db k).isSome → (find d.db k).isSome) := by
  induction hist generalizing d0 with
  | nil => cases hrun; exact ⟨hu, rfl, hsd, fun kv h => .inl h, fun x h => absurd h List.not_mem_nil, fun k h => h⟩
  | cons x hist ih =>
    unfold DS.run at hrun
    obtain ⟨⟨d1, res⟩, h1, h2⟩ := Process.ok_iff.mp hrun
    simp only at h2
    -- one packet
    have step : d1.usable = true ∧ d1.backend = d0.backend ∧ Sorted d1.db ∧
        (∀ kv ∈ d1.db, kv ∈ d0.db ∨ ∃ l, x.2 = .put l ∧ ∃ y ∈ l, PutItem.enc cb y = .ok (some kv)) ∧
        (∀ l, x.2 = .put l → ∀ y ∈ l, ∀ k v, PutItem.enc cb y = .ok (some (k, v)) → (find d1.db k).isSome) ∧
        (∀ k, (find d0.db k).isSome → (find d1.db k).isSome) := by
      obtain ⟨wr, body⟩ := x
      cases body with
      | put l =>
        simp only [DS.operate, hu, if_true] at h1
        obtain ⟨r, h3, h4⟩ := Process.ok_iff.mp h1
        obtain ⟨hs, h5, h6⟩ := Process.ok_iff.mp h4
        cases h6
        have hw := hput _ List.mem_cons_self l rfl
        have : ∃ es, mapO (PutItem.enc cb) l = .ok es ∧ r.1 = applyPuts d0.db es := by
          cases hb : d0.backend with
          | mem =>
            rw [hb] at h3; simp only at h3
            rw [memPut_eq] at h3
            obtain ⟨es, h7, h8⟩ := Process.ok_iff.mp h3
            cases h8; exact ⟨es, h7, rfl⟩
          | level =>
            rw [hb] at h3; simp only at h3
            rw [levelPut_eq] at h3
            obtain ⟨es, h7, h8⟩ := Process.ok_iff.mp h3
            cases h8
            rcases hw with hw | hw
            · rw [hb] at hw; cases hw
            · exact ⟨es, h7, by simp only at hw; simp [hw]⟩
        obtain ⟨es, h7, h8⟩ := this
        have h9 := mapO_ok h7
        refine ⟨rfl, rfl, ?_, ?_, ?_, ?_⟩
        · show Sorted r.1
          rw [h8]; exact sorted_applyPuts hsd es
        · intro kv hkv
          have hkv : kv ∈ r.1 := hkv
          rw [h8] at hkv
          rcases mem_applyPuts hkv with h | h
          · exact .inl h
          · right
            refine ⟨l, rfl, ?_⟩
            obtain ⟨i, hi, hi'⟩ := List.getElem_of_mem h
            have hl := h9.length_eq
            have := List.forall₂_iff_get.mp h9
            exact ⟨l[i]'(by omega), List.getElem_mem _, by
              have h10 := this.2 i (by omega) hi
              simp only [List.get_eq_getElem] at h10
              rw [h10, hi']⟩
        · intro l' hl' y hy k v he
          cases hl'
          show (find r.1 k).isSome
          rw [h8]
          obtain ⟨i, hi, hi'⟩ := List.getElem_of_mem hy
          have hl := h9.length_eq
          have h10 := (List.forall₂_iff_get.mp h9).2 i hi (by omega)
          simp only [List.get_eq_getElem] at h10
          rw [hi', he] at h10
          injection h10 with h10
          exact key_applyPuts (h10 ▸ List.getElem_mem _)
        · intro k hk
          show (find r.1 k).isSome
          rw [h8]; exact find_isSome_applyPuts hk
      | get l =>
        simp only [DS.operate, hu, if_true] at h1
        obtain ⟨r, h3, h4⟩ := Process.ok_iff.mp h1
        cases h4
        exact ⟨rfl, rfl, hsd, fun kv h => .inl h, fun l h => (by cases h), fun k h => h⟩
      | getop l =>
        simp only [DS.operate, hu, if_true] at h1
        obtain ⟨r, h3, h4⟩ := Process.ok_iff.mp h1
        cases h4
        exact ⟨rfl, rfl, hsd, fun kv h => .inl h, fun l h => (by cases h), fun k h => h⟩
      | del l => exact absurd rfl (hdel _ List.mem_cons_self l)
      | hist l =>
        simp only [DS.operate] at h1
        cases h1
        exact ⟨hu, rfl, hsd, fun kv h => .inl h, fun l h => (by cases h), fun k h => h⟩
    obtain ⟨u1, b1, s1, m1, k1, f1⟩ := step
    obtain ⟨u2, b2, s2, m2, k2, f2⟩ := ih u1 (fun y hy l hl => b1 ▸ hput y (List.mem_cons_of_mem _ hy) l hl)
      (fun y hy => hdel y (List.mem_cons_of_mem _ hy)) s1 h2
    refine ⟨u2, b2.trans b1, s2, ?_, ?_, fun k h => f2 k (f1 k h)⟩
    · intro kv hkv
      rcases m2 kv hkv with h | ⟨y, hy, h⟩
      · rcases m1 kv h with h | h
        · exact .inl h
        · exact .inr ⟨x, List.mem_cons_self, h⟩
      · exact .inr ⟨y, List.mem_cons_of_mem _ hy, h⟩
    · intro y hy l hl z hz k v he
      rcases List.mem_cons.mp hy with rfl | hy
      · exact f2 k (k1 l hl z hz k v he)
      · exact k2 y hy l hl z hz k v he

/-! ## Readings -/

/-- The stored form of a number: a lone sign symbol only with something behind it. -/
def NumForm (neg pos : UInt8) (e : Bytes) : Prop := ∃ c l, e = c :: l ∧ c ≤ pos ∧ (neg < c ∨ (c = neg ∧ l ≠ []))

/-- What is known about the numbers of readings: their stored form `E` and what it is read back as, `D`. -/
structure Nums (neg pos : UInt8) (cb : Callbacks) (t : Nat) (attr : Bytes) (rs : List Reading) (E D : Reading → Bytes) : Prop where
  typ : ∀ r ∈ rs, r.num.typ = t
  enc : ∀ r ∈ rs, ∀ b : Blob, b.addr ≠ 0 → b.val = r.num → cb.encode b = .ok (some (E r))
  dec : ∀ r ∈ rs, cb.decode ⟨E r, t⟩ = .ok (some (D r))
  form : ∀ r ∈ rs, NumForm neg pos (E r)
  len : ∀ r ∈ rs, (E r).length < 2 ^ 64
  told : ∀ r ∈ rs, Told pos attr r.name
  small : t < 256
  byte : ∀ b : Blob, b.typ = tByte → cb.encode b = .ok (some b.bytes)
  byteBack : ∀ l : Bytes, cb.decode ⟨l, tByte⟩ = .ok (some l)
  lt : neg < pos

def numKey (attr : Bytes) (t : Nat) (E : Reading → Bytes) (r : Reading) : Bytes := Key.spToKey (text attr) ⟨E r, t⟩
def nameKey (attr : Bytes) (r : Reading) : Bytes := Key.spToKey (text attr) (text r.name)

theorem encodeTriple_some {cb : Callbacks} {s p o : Blob} {es ep eo : Bytes} (hs : cb.encode s = .ok (some es))
    (hp : cb.encode p = .ok (some ep)) (ho : cb.encode o = .ok (some eo)) :
    encodeTriple cb s p o = .ok (some (Key.spToKey ⟨es, s.typ⟩ ⟨ep, p.typ⟩, appendType eo o.typ)) := by
  unfold encodeTriple encodeKey
  rw [hs, Out.ok_bind]; simp only
  rw [hp, Out.ok_bind]; simp only [Out.ok_bind]
  rw [ho, Out.ok_bind]

theorem text_small (l : Bytes) : (text l).typ < 256 := by show tByte < 256; decide

theorem key_append (s p : Val) : ∃ z, Key.spToKey s p = s.bytes ++ (p.bytes ++ z) ∧ 19 ≤ z.length :=
  ⟨_, by unfold Key.spToKey; rw [List.append_assoc], by simp⟩

section
variable {neg pos : UInt8} {cb : Callbacks} {t : Nat} {attr : Bytes} {rs : List Reading} {E D : Reading → Bytes}
  (h : Nums neg pos cb t attr rs E D)
include h

/-- What an item of a reading is stored as. -/
theorem Nums.item {y : PutItem} {r : Reading} (hr : r ∈ rs) (a1 : y.subject.addr ≠ 0) (a2 : y.predicate.addr ≠ 0)
    (a3 : y.object.addr ≠ 0)
    (ho : (y.subject.val, y.predicate.val, y.object.val) ∈ orders (text r.name) (text attr) r.num) :
    ∃ kv, PutItem.enc cb y = .ok (some kv) ∧
      (kv = (numKey attr t E r, appendType r.name tByte) ∨ kv = (nameKey attr r, appendType (E r) t) ∨
        (∃ p v, kv = (Key.spToKey (text r.name) p, v)) ∨ ∃ p v, kv = (Key.spToKey ⟨E r, t⟩ p, v)) := by
  have ht := h.typ r hr
  have num : ∀ b : Blob, b.addr ≠ 0 → b.val = r.num → cb.encode b = .ok (some (E r)) ∧ b.typ = t := fun b ha hb =>
    ⟨h.enc r hr b ha hb, by rw [← ht, ← hb]; rfl⟩
  have byt : ∀ (b : Blob) (l : Bytes), b.val = text l → cb.encode b = .ok (some l) ∧ b.typ = tByte := by
    intro b l hb
    have h1 : b.typ = tByte := congrArg Val.typ hb
    have h2 : b.bytes = l := congrArg Val.bytes hb
    exact ⟨by rw [h.byte b h1, h2], h1⟩
  unfold PutItem.enc
  simp only [orders, List.mem_cons, Prod.mk.injEq, List.not_mem_nil, or_false] at ho
  rcases ho with ⟨h1, h2, h3⟩ | ⟨h1, h2, h3⟩ | ⟨h1, h2, h3⟩ | ⟨h1, h2, h3⟩ | ⟨h1, h2, h3⟩ | ⟨h1, h2, h3⟩
  · obtain ⟨e1, t1⟩ := byt _ _ h1
    obtain ⟨e2, t2⟩ := byt _ _ h2
    obtain ⟨e3, t3⟩ := num _ a3 h3
    exact ⟨_, encodeTriple_some e1 e2 e3, by rw [t1]; exact .inr (.inr (.inl ⟨_, _, rfl⟩))⟩
  · obtain ⟨e1, t1⟩ := byt _ _ h1
    obtain ⟨e2, t2⟩ := num _ a2 h2
    obtain ⟨e3, t3⟩ := byt _ _ h3
    exact ⟨_, encodeTriple_some e1 e2 e3, by rw [t1]; exact .inr (.inr (.inl ⟨_, _, rfl⟩))⟩
  · obtain ⟨e1, t1⟩ := byt _ _ h1
    obtain ⟨e2, t2⟩ := byt _ _ h2
    obtain ⟨e3, t3⟩ := num _ a3 h3
    exact ⟨_, encodeTriple_some e1 e2 e3, by rw [t1, t2, t3]; exact .inr (.inl rfl)⟩
  · obtain ⟨e1, t1⟩ := byt _ _ h1
    obtain ⟨e2, t2⟩ := num _ a2 h2
    obtain ⟨e3, t3⟩ := byt _ _ h3
    exact ⟨_, encodeTriple_some e1 e2 e3, by rw [t1, t2, t3]; exact .inl rfl⟩
  · obtain ⟨e1, t1⟩ := num _ a1 h1
    obtain ⟨e2, t2⟩ := byt _ _ h2
    obtain ⟨e3, t3⟩ := byt _ _ h3
    exact ⟨_, encodeTriple_some e1 e2 e3, by rw [t1]; exact .inr (.inr (.inr ⟨_, _, rfl⟩))⟩
  · obtain ⟨e1, t1⟩ := num _ a1 h1
    obtain ⟨e2, t2⟩ := byt _ _ h2
    obtain ⟨e3, t3⟩ := byt _ _ h3
    exact ⟨_, encodeTriple_some e1 e2 e3, by rw [t1]; exact .inr (.inr (.inr ⟨_, _, rfl⟩))⟩

theorem Nums.not_name {r : Reading} (hr : r ∈ rs) (p : Val) : ¬ attr <+: Key.spToKey (text r.name) p := by
  intro hp
  obtain ⟨z, hz, -⟩ := key_append (text r.name) p
  rw [hz] at hp
  obtain ⟨h1, h2⟩ := (h.told r hr).apart
  rcases List.prefix_or_prefix_of_prefix hp (List.prefix_append _ _) with h3 | h3
  · exact h1 h3
  · exact h2 h3

theorem Nums.num_lt_attr {r : Reading} (hr : r ∈ rs) (p : Val) (x : Bytes) : Key.spToKey ⟨E r, t⟩ p < attr ++ x := by
  obtain ⟨z, hz, -⟩ := key_append ⟨E r, t⟩ p
  obtain ⟨c, l, hc, hle, -⟩ := h.form r hr
  obtain ⟨c', l', hc', hlt⟩ := (h.told r hr).attr_gt
  rw [hz]
  simp only [hc, hc', List.cons_append]
  exact List.Lex.rel (UInt8.lt_of_le_of_lt hle hlt)

theorem Nums.not_num {r : Reading} (hr : r ∈ rs) (p : Val) : ¬ attr <+: Key.spToKey ⟨E r, t⟩ p := by
  intro hp
  have := h.num_lt_attr hr p []
  rw [List.append_nil] at this
  exact not_lt_of_prefix hp this

theorem Nums.seek_num {r : Reading} (hr : r ∈ rs) : attr ++ [neg, 0] < numKey attr t E r := by
  obtain ⟨z, hz, hl⟩ := key_append (text attr) ⟨E r, t⟩
  obtain ⟨c, l, hc, -, hneg⟩ := h.form r hr
  unfold numKey
  rw [hz]
  show attr ++ [neg, 0] < attr ++ (E r ++ z)
  apply List.append_left_lt
  rw [hc, List.cons_append]
  rcases hneg with h1 | ⟨rfl, hne⟩
  · exact List.Lex.rel h1
  · refine List.Lex.cons ?_
    cases l with
    | nil => exact absurd rfl hne
    | cons d l =>
      rw [List.cons_append]
      rcases UInt8.lt_or_eq_of_le (UInt8.zero_le (a := d)) with h2 | h2
      · exact List.Lex.rel h2
      · subst h2
        refine List.Lex.cons ?_
        cases hlz : l ++ z with
        | nil => have := congrArg List.length hlz; rw [List.length_append] at this; simp only [List.length_nil] at this; omega
        | cons _ _ => exact List.Lex.nil

theorem Nums.num_lt_name {r s : Reading} (hr : r ∈ rs) (hs : s ∈ rs) : numKey attr t E r < nameKey attr s := by
  obtain ⟨z, hz, -⟩ := key_append (text attr) ⟨E r, t⟩
  obtain ⟨z', hz', -⟩ := key_append (text attr) (text s.name)
  obtain ⟨c, l, hc, hle, -⟩ := h.form r hr
  obtain ⟨c', l', hc', hlt⟩ := (h.told s hs).name_gt
  unfold numKey nameKey
  rw [hz, hz']
  show attr ++ (E r ++ z) < attr ++ (s.name ++ z')
  apply List.append_left_lt
  rw [hc, hc', List.cons_append, List.cons_append]
  exact List.Lex.rel (UInt8.lt_of_le_of_lt hle hlt)

theorem Nums.seek_name {r : Reading} (hr : r ∈ rs) : attr ++ [neg, 0] < nameKey attr r :=
  bytes_lt_trans (h.seek_num hr) (h.num_lt_name hr hr)

theorem Nums.numKey_inj {r s : Reading} (hr : r ∈ rs) (hs : s ∈ rs) (he : numKey attr t E r = numKey attr t E s) : E r = E s := by
  have h1 := Props.C01_key_roundtrip (text attr) ⟨E r, t⟩ (h.told r hr).short.1 (h.len r hr) (text_small _) h.small
  have h2 := Props.C01_key_roundtrip (text attr) ⟨E s, t⟩ (h.told s hs).short.1 (h.len s hs) (text_small _) h.small
  unfold numKey at he
  rw [he, h2] at h1
  injection h1 with h1
  exact (congrArg (fun x => x.2.bytes) h1).symm

theorem Nums.shown_num {r : Reading} (hr : r ∈ rs) (heap : Nat) {c : Rec}
    (hc : Shown cb heap (numKey attr t E r, appendType r.name tByte) c) :
    c.subject.val = text attr ∧ c.predicate.val = ⟨D r, t⟩ ∧ c.object.val = text r.name := by
  obtain ⟨sp, ot, s, p, o, h1, h2, h3, h4, h5, rfl⟩ := hc
  have k := Props.C01_key_roundtrip (text attr) ⟨E r, t⟩ (h.told r hr).short.1 (h.len r hr) (text_small _) h.small
  rw [show Key.keyToSp (numKey attr t E r) = _ from k] at h1
  rw [removeType_appendType _ _ (by decide)] at h2
  cases h1; cases h2
  rw [show cb.decode (text attr) = _ from h.byteBack attr] at h3
  rw [h.dec r hr] at h4
  rw [h.byteBack] at h5
  cases h3; cases h4; cases h5
  exact ⟨rfl, rfl, rfl⟩

theorem Nums.shown_name {r : Reading} (hr : r ∈ rs) (heap : Nat) {c : Rec}
    (hc : Shown cb heap (nameKey attr r, appendType (E r) t) c) :
    c.subject.val = text attr ∧ c.predicate.val = text r.name ∧ c.object.val = ⟨D r, t⟩ := by
  obtain ⟨sp, ot, s, p, o, h1, h2, h3, h4, h5, rfl⟩ := hc
  have k := Props.C01_key_roundtrip (text attr) (text r.name) (h.told r hr).short.1 (h.told r hr).short.2 (text_small _) (text_small _)
  rw [show Key.keyToSp (nameKey attr r) = _ from k] at h1
  rw [removeType_appendType _ _ (by have := h.small; omega)] at h2
  cases h1; cases h2
  rw [show cb.decode (text attr) = _ from h.byteBack attr] at h3
  rw [show cb.decode (text r.name) = _ from h.byteBack r.name] at h4
  rw [h.dec r hr] at h5
  cases h3; cases h4; cases h5
  exact ⟨rfl, rfl, rfl⟩

theorem Nums.can_num {r : Reading} (hr : r ∈ rs) (heap : Nat) :
    ∃ c, Shown cb heap (numKey attr t E r, appendType r.name tByte) c :=
  ⟨_, _, _, _, _, _, Props.C01_key_roundtrip (text attr) ⟨E r, t⟩ (h.told r hr).short.1 (h.len r hr) (text_small _) h.small,
    removeType_appendType _ _ (by decide), h.byteBack attr, h.dec r hr, h.byteBack _, rfl⟩

theorem Nums.can_name {r : Reading} (hr : r ∈ rs) (heap : Nat) :
    ∃ c, Shown cb heap (nameKey attr r, appendType (E r) t) c :=
  ⟨_, _, _, _, _, _, Props.C01_key_roundtrip (text attr) (text r.name) (h.told r hr).short.1 (h.told r hr).short.2 (text_small _) (text_small _),
    removeType_appendType _ _ (by have := h.small; omega), h.byteBack attr, h.byteBack r.name, h.dec r hr, rfl⟩

end

/-- A database that holds readings. -/
structure Holds (attr : Bytes) (t : Nat) (rs : List Reading) (E : Reading → Bytes) (db : Db) : Prop where
  sorted : Sorted db
  long : ∀ kv ∈ db, 19 ≤ kv.1.length
  under : ∀ kv ∈ db, attr <+: kv.1 → ∃ r ∈ rs, kv = (numKey attr t E r, appendType r.name tByte) ∨
    kv = (nameKey attr r, appendType (E r) t)
  there : ∀ r ∈ rs, ∃ v, (numKey attr t E r, v) ∈ db

theorem holds_of_run {neg pos : UInt8} {cb : Callbacks} {t : Nat} {attr : Bytes} {rs : List Reading} {E D : Reading → Bytes}
    (h : Nums neg pos cb t attr rs E D) {heap : Nat} {d0 d : DS} {hist : List (Bool × ReqBody)} (hu : d0.usable = true)
    (he : d0.db = []) (hrec : Records d0.backend attr rs hist) (hrun : DS.run cb heap d0 hist = .ok d) :
    d.usable = true ∧ d.backend = d0.backend ∧ Holds attr t rs E d.db := by
  obtain ⟨u, b, s, m, k, -⟩ := run_puts hu (fun x hx l hl => (hrec.only x hx l hl).1) hrec.keeps
    (by rw [he]; exact List.Pairwise.nil) hrun
  have all : ∀ kv ∈ d.db, ∃ r ∈ rs, (kv = (numKey attr t E r, appendType r.name tByte) ∨ kv = (nameKey attr r, appendType (E r) t) ∨
        (∃ p v, kv = (Key.spToKey (text r.name) p, v)) ∨ ∃ p v, kv = (Key.spToKey ⟨E r, t⟩ p, v)) := by
    intro kv hkv
    rcases m kv hkv with h1 | ⟨x, hx, l, hl, y, hy, hy'⟩
    · rw [he] at h1; cases h1
    · obtain ⟨a1, a2, a3, r, hr, ho⟩ := (hrec.only x hx l hl).2 y hy
      obtain ⟨kv', h2, h3⟩ := h.item hr a1 a2 a3 ho
      rw [hy'] at h2
      cases h2
      exact ⟨r, hr, h3⟩
  refine ⟨u, b, s, ?_, ?_, ?_⟩
  · intro kv hkv
    have len : ∀ s p, 19 ≤ (Key.spToKey s p).length := by
      intro s p
      obtain ⟨z, hz, hl⟩ := key_append s p
      rw [hz]; simp; omega
    obtain ⟨r, -, h1 | h1 | ⟨p, v, h1⟩ | ⟨p, v, h1⟩⟩ := all kv hkv <;> rw [h1] <;> exact len _ _
  · intro kv hkv hp
    obtain ⟨r, hr, h1 | h1 | ⟨p, v, h1⟩ | ⟨p, v, h1⟩⟩ := all kv hkv
    · exact ⟨r, hr, .inl h1⟩
    · exact ⟨r, hr, .inr h1⟩
    · rw [h1] at hp; exact absurd hp (h.not_name hr p)
    · rw [h1] at hp; exact absurd hp (h.not_num hr p)
  · intro r hr
    obtain ⟨x, hx, l, hl, y, hy, ho⟩ := hrec.there r hr
    obtain ⟨a1, a2, a3, -⟩ := (hrec.only x hx l hl).2 y hy
    simp only [Prod.mk.injEq] at ho
    have e1 := h.byte y.subject (congrArg Val.typ ho.1)
    have e2 := h.enc r hr y.predicate a2 ho.2.1
    have e3 := h.byte y.object (congrArg Val.typ ho.2.2)
    have e4 : PutItem.enc cb y = _ := encodeTriple_some e1 e2 e3
    have b1 : y.subject.bytes = attr := congrArg Val.bytes ho.1
    have t1 : y.subject.typ = tByte := congrArg Val.typ ho.1
    have t2 : y.predicate.typ = t := (congrArg Val.typ ho.2.1).trans (h.typ r hr)
    rw [b1, t1, t2] at e4
    have := k x hx l hl y hy _ _ e4
    obtain ⟨v, hv⟩ := Option.isSome_iff_exists.mp this
    exact ⟨v, find_mem hv⟩

/-! ## Lists -/

theorem histHooks_none (l : List (PutItem × StatusItem)) : histHooks [] l = .ok [] := by
  induction l with
  | nil => rfl
  | cons x l ih =>
    have : histHook [] x.1 x.2.status = .ok [] := by
      unfold histHook
      split
      · rfl
      · rfl
    unfold histHooks
    rw [this, Out.ok_bind, ih]

/-- A history of PUTs that can be encoded is processed. -/
theorem run_defined {cb : Callbacks} {heap : Nat} {hist : List (Bool × ReqBody)} {d0 : DS} (hu : d0.usable = true) (hh : d0.hists = [])
    (hput : ∀ x ∈ hist, ∃ l, x.2 = .put l ∧ ∀ y ∈ l, ∃ kv, PutItem.enc cb y = .ok kv) : ∃ d, DS.run cb heap d0 hist = .ok d := by
  induction hist generalizing d0 with
  | nil => exact ⟨d0, rfl⟩
  | cons x hist ih =>
    obtain ⟨wr, body⟩ := x
    obtain ⟨l, hl, hy⟩ := hput _ List.mem_cons_self
    simp only at hl; subst hl
    have : ∃ es, mapO (PutItem.enc cb) l = .ok es := by
      clear ih hput
      induction l with
      | nil => exact ⟨[], rfl⟩
      | cons y l ih =>
        obtain ⟨kv, hkv⟩ := hy y List.mem_cons_self
        obtain ⟨es, hes⟩ := ih (fun z hz => hy z (List.mem_cons_of_mem _ hz))
        exact ⟨kv :: es, by unfold mapO; rw [hkv, Out.ok_bind, hes, Out.ok_bind]⟩
    obtain ⟨es, hes⟩ := this
    unfold DS.run
    have step : ∃ d1 res, d0.operate cb heap wr (.put l) = .ok (d1, res) ∧ d1.usable = true ∧ d1.hists = [] := by
      simp only [DS.operate, hu, if_true, hh]
      cases d0.backend with
      | mem =>
        simp only [memPut_eq, hes, Out.ok_bind, histHooks_none]
        exact ⟨_, _, rfl, rfl, rfl⟩
      | level =>
        simp only [levelPut_eq, hes, Out.ok_bind, histHooks_none]
        exact ⟨_, _, rfl, rfl, rfl⟩
    obtain ⟨d1, res, h1, h2, h3⟩ := step
    simp only
    rw [h1, Out.ok_bind]
    exact ih h2 h3 (fun y hy => hput y (List.mem_cons_of_mem _ hy))

theorem Nums.run {neg pos : UInt8} {cb : Callbacks} {t : Nat} {attr : Bytes} {rs : List Reading} {E D : Reading → Bytes}
    (h : Nums neg pos cb t attr rs E D) {heap : Nat} {d0 : DS} {hist : List (Bool × ReqBody)} (hu : d0.usable = true)
    (hh : d0.hists = []) (hrec : Records d0.backend attr rs hist) (hput : ∀ x ∈ hist, ∃ l, x.2 = .put l) :
    ∃ d, DS.run cb heap d0 hist = .ok d := by
  refine run_defined hu hh (fun x hx => ?_)
  obtain ⟨l, hl⟩ := hput x hx
  refine ⟨l, hl, fun y hy => ?_⟩
  obtain ⟨a1, a2, a3, r, hr, ho⟩ := (hrec.only x hx l hl).2 y hy
  obtain ⟨kv, hkv, -⟩ := h.item hr a1 a2 a3 ho
  exact ⟨_, hkv⟩

/-- A number as subject is stored below the attribute. -/
theorem low_of_run {neg pos : UInt8} {cb : Callbacks} {t : Nat} {attr : Bytes} {rs : List Reading} {E D : Reading → Bytes}
    (h : Nums neg pos cb t attr rs E D) {heap : Nat} {d0 d : DS} {hist : List (Bool × ReqBody)} (hu : d0.usable = true)
    (he : d0.db = []) (hrec : Records d0.backend attr rs hist) (hrun : DS.run cb heap d0 hist = .ok d)
    (hs : ∃ x ∈ hist, ∃ l, x.2 = .put l ∧ ∃ y ∈ l, ∃ r ∈ rs, y.subject.val = r.num) : ∃ kv ∈ d.db, kv.1 < attr := by
  obtain ⟨u, b, s, m, k, -⟩ := run_puts hu (fun x hx l hl => (hrec.only x hx l hl).1) hrec.keeps
    (by rw [he]; exact List.Pairwise.nil) hrun
  obtain ⟨x, hx, l, hl, y, hy, r, hr, hv⟩ := hs
  obtain ⟨a1, a2, a3, r', hr', ho⟩ := (hrec.only x hx l hl).2 y hy
  obtain ⟨⟨key, v⟩, hkv, -⟩ := h.item hr' a1 a2 a3 ho
  have e := h.enc r hr y.subject a1 hv
  have ht : y.subject.typ = t := (congrArg Val.typ hv).trans (h.typ r hr)
  have hf := k x hx l hl y hy key v hkv
  unfold PutItem.enc encodeTriple encodeKey at hkv
  rw [e, Out.ok_bind] at hkv
  simp only at hkv
  have : ∃ p, key = Key.spToKey ⟨E r, t⟩ p := by
    cases hp : cb.encode y.predicate with
    | err => rw [hp] at hkv; cases hkv
    | ub => rw [hp] at hkv; cases hkv
    | ok w =>
      rw [hp, Out.ok_bind] at hkv
      cases w with
      | none => cases hkv
      | some w =>
        simp only [Out.ok_bind] at hkv
        cases hob : cb.encode y.object with
        | err => rw [hob] at hkv; cases hkv
        | ub => rw [hob] at hkv; cases hkv
        | ok w' =>
          rw [hob, Out.ok_bind] at hkv
          cases w' with
          | none => cases hkv
          | some w' =>
            injection hkv with hkv; injection hkv with hkv
            exact ⟨_, by rw [← ht]; exact (congrArg Prod.fst hkv).symm⟩
  obtain ⟨p, rfl⟩ := this
  obtain ⟨v', hv'⟩ := Option.isSome_iff_exists.mp hf
  have := h.num_lt_attr hr p []
  rw [List.append_nil] at this
  exact ⟨_, find_mem hv', this⟩

theorem forall₂_split {α β : Type} {R : α → β → Prop} {a b : List α} {c : List β} (h : List.Forall₂ R (a ++ b) c) :
    ∃ c1 c2, c = c1 ++ c2 ∧ List.Forall₂ R a c1 ∧ List.Forall₂ R b c2 := by
  induction a generalizing c with
  | nil => exact ⟨[], c, rfl, .nil, h⟩
  | cons x a ih =>
    cases h with
    | cons hx h =>
      obtain ⟨c1, c2, rfl, h1, h2⟩ := ih h
      exact ⟨_ :: c1, c2, rfl, .cons hx h1, h2⟩

theorem forall₂_exists_left {α β : Type} {R : α → β → Prop} {l : List α} {c : List β} (h : List.Forall₂ R l c) {x : α} (hx : x ∈ l) :
    ∃ y ∈ c, R x y := by
  induction h with
  | nil => cases hx
  | cons h1 _ ih =>
    rcases List.mem_cons.mp hx with rfl | hx
    · exact ⟨_, List.mem_cons_self, h1⟩
    · obtain ⟨y, hy, hr⟩ := ih hx
      exact ⟨y, List.mem_cons_of_mem _ hy, hr⟩

theorem forall₂_exists_right {α β : Type} {R : α → β → Prop} {l : List α} {c : List β} (h : List.Forall₂ R l c) {y : β} (hy : y ∈ c) :
    ∃ x ∈ l, R x y := by
  induction h with
  | nil => cases hy
  | cons h1 _ ih =>
    rcases List.mem_cons.mp hy with rfl | hy
    · exact ⟨_, List.mem_cons_self, h1⟩
    · obtain ⟨x, hx, hr⟩ := ih hy
      exact ⟨x, List.mem_cons_of_mem _ hx, hr⟩

theorem choose_forall₂ {α β γ : Type} {R : α → β → Prop} {Q : α → γ → Prop} {l : List α} {c : List β}
    (h : List.Forall₂ R l c) (hq : ∀ x ∈ l, ∃ y, Q x y) :
    ∃ ys, List.Forall₂ Q l ys ∧ List.Forall₂ (fun y z => ∃ x, Q x y ∧ R x z) ys c := by
  induction h with
  | nil => exact ⟨[], .nil, .nil⟩
  | @cons x z l c hx _ ih =>
    obtain ⟨ys, h1, h2⟩ := ih (fun y hy => hq y (List.mem_cons_of_mem _ hy))
    obtain ⟨y, hy⟩ := hq x List.mem_cons_self
    exact ⟨y :: ys, .cons hy h1, .cons ⟨x, hy, hx⟩ h2⟩

theorem filter_split {α : Type} {lt : α → α → Prop} {p : α → Bool} {l : List α} (hs : l.Pairwise lt)
    (hp : ∀ a ∈ l, ∀ b ∈ l, lt a b → p b = true → p a = true) : l = l.filter p ++ l.filter (fun a => !p a) := by
  induction l with
  | nil => rfl
  | cons a l ih =>
    have hs' := List.pairwise_cons.mp hs
    have ih' := ih hs'.2 (fun x hx y hy => hp x (List.mem_cons_of_mem _ hx) y (List.mem_cons_of_mem _ hy))
    cases ha : p a with
    | true => rw [List.filter_cons_of_pos ha, List.filter_cons_of_neg (by simp [ha]), List.cons_append, ← ih']
    | false =>
      have hn : ∀ b ∈ l, p b = false := by
        intro b hb
        cases hb' : p b with
        | false => rfl
        | true =>
          have := hp a List.mem_cons_self b (List.mem_cons_of_mem _ hb) (hs'.1 b hb) hb'
          rw [ha] at this; exact this.symm
      rw [List.filter_cons_of_neg (by simp [ha]), List.filter_cons_of_pos (by simp [ha])]
      rw [List.filter_eq_nil_iff.mpr (by intro b hb; simp [hn b hb]), List.filter_eq_self.mpr (by intro b hb; simp [hn b hb])]
      rfl

/-! ## The operations on readings -/

theorem memcmpPrefix_ok {pre k : Bytes} (h : pre.length ≤ k.length) : memcmpPrefix pre k = .ok (pre.isPrefixOf k) := by
  unfold memcmpPrefix
  rw [if_neg (by omega)]
  congr 1
  rw [Bool.eq_iff_iff, decide_eq_true_iff, List.isPrefixOf_iff_prefix]
  constructor
  · intro h1; rw [← h1]; exact List.take_prefix _ _
  · intro h1; exact (List.prefix_iff_eq_take.mp h1).symm

/-- The item of a GETOP that asks for the numbers of an attribute: no predicate, only its type. -/
structure Asks (cb : Callbacks) (attr : Bytes) (t : Nat) (x : GetOpItem) : Prop where
  subject : x.subject.val = text attr
  pred : x.predicate.addr = 0 ∧ x.predicate.typ = t
  numeric : isNumeric t = true
  enc : cb.encode x.predicate = .ok none

section
variable {neg pos : UInt8} {cb : Callbacks} {t : Nat} {attr : Bytes} {rs : List Reading} {E D : Reading → Bytes}
  (h : Nums neg pos cb t attr rs E D)
include h

theorem Nums.getOp {b : Backend} {heap : Nat} {db : Db} {x : GetOpItem} (hx : Asks cb attr t x) (hk : hasKey x.op = true) :
    getOpItem b cb heap db x = (opOf b cb heap db x attr 0 >>= finish x) := by
  have h1 : cb.encode x.subject = .ok (some attr) := by
    rw [h.byte x.subject (congrArg Val.typ hx.subject)]
    have : x.subject.bytes = attr := congrArg Val.bytes hx.subject
    rw [this]
  have := getOpItem_key b heap db hk h1 hx.enc
  simpa using this

theorem Nums.lowest_list {b : Backend} {heap : Nat} {db : Db} (hd : Holds attr t rs E db) (hne : rs ≠ [])
    (hlen : b = .mem → attr.length ≤ 19) {x : GetOpItem} (hx : Asks cb attr t x) (hneg : cb.neg = neg) (hop : x.op = goLowest) :
    ∃ recs, getOpItem b cb heap db x = .ok ⟨dsSuccess, recs⟩ ∧
      List.Forall₂ (Shown cb heap) ((db.filter (fun kv => attr.isPrefixOf kv.1)).take x.numRecs) recs := by
  rw [h.getOp hx (by rw [hop]; decide)]
  have hseek : getSeek cb attr 0 x.predicate.typ = attr ++ [neg, 0] := by
    unfold getSeek; rw [hx.pred.2, hx.numeric, hneg]; simp
  have ge : ∀ kv ∈ db, attr <+: kv.1 → ¬ kv.1 < attr ++ [neg, 0] := by
    intro kv hkv hp
    obtain ⟨r, hr, h1 | h1⟩ := hd.under kv hkv hp <;> rw [h1]
    · exact bytes_lt_asymm (h.seek_num hr)
    · exact bytes_lt_asymm (h.seek_name hr)
  obtain ⟨r0, hr0⟩ := List.exists_mem_of_ne_nil _ hne
  obtain ⟨v0, hv0⟩ := hd.there r0 hr0
  have hlt := lowerBound_lt hv0 (bytes_lt_asymm (h.seek_num hr0))
  have hfil := seek_filter hd.sorted (List.prefix_append attr [neg, 0]) ge
  have hsh : ∀ kv ∈ db, attr.isPrefixOf kv.1 = true → ∃ r, Shown cb heap kv r := by
    intro kv hkv hp
    obtain ⟨r, hr, h1 | h1⟩ := hd.under kv hkv (List.isPrefixOf_iff_prefix.mp hp) <;> rw [h1]
    · exact h.can_num hr heap
    · exact h.can_name hr heap
  cases b with
  | mem =>
    obtain ⟨recs, h1, h2⟩ := forward_shown (n := x.numRecs) (cond := memcmpPrefix attr) (c := fun k => attr.isPrefixOf k)
      (fun kv hkv => memcmpPrefix_ok (by have := hd.long kv hkv; have := hlen rfl; omega)) hsh x.numRecs 0
      (lowerBound db (attr ++ [neg, 0])) [] rfl (by omega)
    rw [hfil] at h2
    refine ⟨recs, ?_, h2⟩
    simp only [opOf, memOp, hop, hseek]
    rw [if_neg (by decide), if_neg (by decide), if_neg (by decide), if_neg (by decide), if_neg (by decide), if_pos trivial, if_pos hlt, h1,
      Out.ok_bind, finish_ok]
    rfl
  | level =>
    obtain ⟨recs, h1, h2⟩ := forward_shown (n := x.numRecs) (cond := startsWith attr) (c := fun k => attr.isPrefixOf k)
      (fun kv hkv => rfl) hsh x.numRecs 0 (lowerBound db (attr ++ [neg, 0])) [] rfl (by omega)
    rw [hfil] at h2
    refine ⟨recs, ?_, h2⟩
    simp only [opOf, levelOp, hop, hseek]
    rw [if_neg (by decide), if_neg (by decide), if_neg (by decide), if_neg (by decide), if_neg (by decide), if_pos trivial, if_pos hlt, h1,
      Out.ok_bind, finish_ok]
    rfl

theorem Nums.lowest {b : Backend} {heap : Nat} {db : Db} (hd : Holds attr t rs E db) (hne : rs ≠ [])
    (hlen : b = .mem → attr.length ≤ 19) {x : GetOpItem} (hx : Asks cb attr t x) (hneg : cb.neg = neg) (hop : x.op = goLowest)
    (value : Reading → ℚ) (hv : ∀ r ∈ rs, ∀ s ∈ rs, numKey attr t E r < numKey attr t E s → value r < value s) :
    ∃ recs, getOpItem b cb heap db x = .ok ⟨dsSuccess, recs⟩ ∧
      IsLowest value (fun r s => E r = E s) (fun r v => v = ⟨D r, t⟩) attr rs x.numRecs recs := by
  obtain ⟨recs, h1, h2⟩ := h.lowest_list (heap := heap) hd hne hlen hx hneg hop
  refine ⟨recs, h1, ?_⟩
  set F := db.filter (fun kv => attr.isPrefixOf kv.1) with hF
  set L := F.take x.numRecs with hL
  have hFs : F.Pairwise (fun a b => a.1 < b.1) := List.Pairwise.sublist List.filter_sublist hd.sorted
  have hLs : L.Pairwise (fun a b => a.1 < b.1) := List.Pairwise.sublist (List.take_sublist _ _) hFs
  have hFd : ∀ kv ∈ F, kv ∈ db ∧ attr <+: kv.1 := by
    intro kv hkv
    obtain ⟨g1, g2⟩ := List.mem_filter.mp hkv
    exact ⟨g1, List.isPrefixOf_iff_prefix.mp g2⟩
  have hFc : ∀ kv ∈ F, ∃ r ∈ rs, kv = (numKey attr t E r, appendType r.name tByte) ∨ kv = (nameKey attr r, appendType (E r) t) :=
    fun kv hkv => hd.under kv (hFd kv hkv).1 (hFd kv hkv).2
  -- numbers and names
  classical
  let p : Bytes × Bytes → Bool := fun kv => decide (∃ r ∈ rs, kv = (numKey attr t E r, appendType r.name tByte))
  have hp1 : ∀ kv, p kv = true → ∃ r ∈ rs, kv = (numKey attr t E r, appendType r.name tByte) := fun kv hkv => of_decide_eq_true hkv
  have hp0 : ∀ kv ∈ F, p kv = false → ∃ r ∈ rs, kv = (nameKey attr r, appendType (E r) t) := by
    intro kv hkv hpk
    obtain ⟨r, hr, g | g⟩ := hFc kv hkv
    · exact absurd ⟨r, hr, g⟩ (of_decide_eq_false hpk)
    · exact ⟨r, hr, g⟩
  have hmono : ∀ a ∈ F, ∀ b ∈ F, a.1 < b.1 → p b = true → p a = true := by
    intro a ha b hb hab hpb
    cases hpa : p a with
    | true => rfl
    | false =>
      obtain ⟨r, hr, rfl⟩ := hp1 b hpb
      obtain ⟨s, hs, rfl⟩ := hp0 a ha hpa
      exact absurd hab (bytes_lt_asymm (h.num_lt_name hr hs))
  have hLF : ∀ kv ∈ L, kv ∈ F := fun kv hkv => (List.take_sublist _ _).subset hkv
  have hsplit := filter_split hLs (fun a ha b hb => hmono a (hLF a ha) b (hLF b hb))
  rw [hsplit] at h2
  obtain ⟨shown, more, hrecs, g1, g2⟩ := forall₂_split h2
  obtain ⟨sel, q1, q2⟩ := choose_forall₂ (Q := fun kv r => r ∈ rs ∧ kv = (numKey attr t E r, appendType r.name tByte)) g1
    (fun kv hkv => hp1 kv (List.mem_filter.mp hkv).2)
  have hkeys : (L.filter p).map Prod.fst = sel.map (numKey attr t E) := by
    clear q2 g1 hsplit h2
    revert q1
    generalize L.filter p = l
    intro q1
    induction q1 with
    | nil => rfl
    | cons hq _ ih => rw [List.map_cons, List.map_cons, ih, hq.2]
  have hselrs : ∀ r ∈ sel, r ∈ rs := by
    intro r hr
    obtain ⟨c, -, kv, hkv, -⟩ := forall₂_exists_left q2 hr
    exact hkv.1
  have hpos : ∀ r ∈ rs, ∃ kv ∈ F, kv.1 = numKey attr t E r ∧ p kv = true := by
    intro r hr
    obtain ⟨v, hv'⟩ := hd.there r hr
    obtain ⟨z, hz, -⟩ := key_append (text attr) ⟨E r, t⟩
    have hpre : attr <+: numKey attr t E r := by unfold numKey; rw [hz]; exact List.prefix_append _ _
    have hin : (numKey attr t E r, v) ∈ F := List.mem_filter.mpr ⟨hv', List.isPrefixOf_iff_prefix.mpr hpre⟩
    refine ⟨_, hin, rfl, ?_⟩
    cases hpk : p (numKey attr t E r, v) with
    | true => rfl
    | false =>
      obtain ⟨s, hs, e⟩ := hp0 _ hin hpk
      have := h.num_lt_name hr hs
      have e1 : numKey attr t E r = nameKey attr s := congrArg Prod.fst e
      rw [e1] at this
      exact absurd this (bytes_lt_irrefl _)
  have hsel : ∀ r ∈ rs, ∀ kv ∈ L, kv.1 = numKey attr t E r → p kv = true → ∃ s ∈ sel, E s = E r := by
    intro r hr kv hkv hk hpk
    have : kv.1 ∈ (L.filter p).map Prod.fst := List.mem_map_of_mem (List.mem_filter.mpr ⟨hkv, hpk⟩)
    rw [hkeys] at this
    obtain ⟨s, hs, e⟩ := List.mem_map.mp this
    exact ⟨s, hs, h.numKey_inj (hselrs s hs) hr (e.trans hk)⟩
  -- what was left out is greater
  have hout : ∀ kv ∈ F, kv ∉ L → L.length = x.numRecs ∧ ∀ a ∈ L, a.1 < kv.1 := by
    intro kv hkv hn
    have hap : L ++ F.drop x.numRecs = F := List.take_append_drop _ _
    have hin : kv ∈ F.drop x.numRecs := by
      rw [← hap] at hkv
      rcases List.mem_append.mp hkv with g | g
      · exact absurd g hn
      · exact g
    refine ⟨?_, ?_⟩
    · have : 0 < (F.drop x.numRecs).length := List.length_pos_of_mem hin
      rw [List.length_drop] at this
      rw [hL, List.length_take]; omega
    · intro a ha
      rw [← hap] at hFs
      exact (List.pairwise_append.mp hFs).2.2 a ha kv hin
  refine ⟨sel, shown, more, hrecs, ?_, ?_, hselrs, ?_, ?_, ?_, ?_⟩
  · have := h2.length_eq
    rw [← hsplit] at this
    rw [← this, hL, List.length_take]; omega
  · refine q2.imp ?_
    rintro r c ⟨kv, ⟨hr, rfl⟩, hc⟩
    exact h.shown_num hr heap hc
  · have hpw : (sel.map (numKey attr t E)).Pairwise (fun a b => a < b) := by
      rw [← hkeys, List.pairwise_map]
      exact List.Pairwise.sublist List.filter_sublist hLs
    rw [List.pairwise_map] at hpw
    exact hpw.imp_of_mem (fun ha hb hab => hv _ (hselrs _ ha) _ (hselrs _ hb) hab)
  · intro r hr
    obtain ⟨kv, hkv, hk, hpk⟩ := hpos r hr
    by_cases hin : kv ∈ L
    · exact .inl (hsel r hr kv hin hk hpk)
    · right
      obtain ⟨g3, g4⟩ := hout kv hkv hin
      have hall : L.filter p = L := by
        rw [List.filter_eq_self]
        exact fun a ha => hmono a (hLF a ha) kv hkv (g4 a ha) hpk
      refine ⟨?_, ?_⟩
      · rw [← g3, ← hall, ← q1.length_eq]
      · intro s hs
        apply hv s (hselrs s hs) r hr
        have : numKey attr t E s ∈ (L.filter p).map Prod.fst := by rw [hkeys]; exact List.mem_map_of_mem hs
        rw [hall] at this
        obtain ⟨a, ha, e⟩ := List.mem_map.mp this
        rw [← e, ← hk]
        exact g4 a ha
  · intro hm r hr
    obtain ⟨kv, hkv, hk, hpk⟩ := hpos r hr
    by_cases hin : kv ∈ L
    · exact hsel r hr kv hin hk hpk
    · exfalso
      obtain ⟨-, g4⟩ := hout kv hkv hin
      have hne' : L.filter (fun a => !p a) ≠ [] := by
        intro e
        rw [e] at g2
        cases g2
        exact hm rfl
      obtain ⟨a, ha⟩ := List.exists_mem_of_ne_nil _ hne'
      obtain ⟨ha1, ha2⟩ := List.mem_filter.mp ha
      have := hmono a (hLF a ha1) kv hkv (g4 a ha1) hpk
      rw [this] at ha2; cases ha2
  · intro c hc
    obtain ⟨kv, hkv, hkc⟩ := forall₂_exists_right g2 hc
    obtain ⟨ha1, ha2⟩ := List.mem_filter.mp hkv
    obtain ⟨r, hr, rfl⟩ := hp0 kv (hLF kv ha1) (by simpa using ha2)
    exact ⟨r, hr, h.shown_name hr heap hkc⟩

theorem Nums.highest {b : Backend} {heap : Nat} {db : Db} (hd : Holds attr t rs E db) (hne : rs ≠ [])
    (hlen : b = .mem → attr.length ≤ 19) {x : GetOpItem} (hx : Asks cb attr t x) (hneg : cb.neg = neg) (hop : x.op = goHighest) :
    (∀ res, getOpItem b cb heap db x = .ok res → res.status = dsSuccess → res.recs = []) ∧
    ((∃ kv ∈ db, kv.1 < attr) → getOpItem b cb heap db x = .ok ⟨dsSuccess, []⟩) := by
  rw [h.getOp hx (by rw [hop]; decide)]
  have hseek : getSeek cb attr 0 x.predicate.typ = attr ++ [neg, 0] := by
    unfold getSeek; rw [hx.pred.2, hx.numeric, hneg]; simp
  have ge : ∀ kv ∈ db, attr <+: kv.1 → attr ++ [neg, 0] < kv.1 := by
    intro kv hkv hp
    obtain ⟨r, hr, h1 | h1⟩ := hd.under kv hkv hp <;> rw [h1]
    · exact h.seek_num hr
    · exact h.seek_name hr
  obtain ⟨r0, hr0⟩ := List.exists_mem_of_ne_nil _ hne
  obtain ⟨v0, hv0⟩ := hd.there r0 hr0
  have herr : ∀ res, finish x ⟨dsError, []⟩ = .ok res → res.status = dsSuccess → res.recs = [] := by
    intro res h1 h2
    have := finish_status (by decide) h1
    rw [h2] at this; exact absurd this (by decide)
  have both : ∀ g : Out G, (g = .ok ⟨dsUnset, []⟩) → ((g >>= finish x) = .ok ⟨dsSuccess, []⟩) := by
    rintro g rfl; rw [Out.ok_bind]; exact finish_ok x []
  have done : ∀ g : Out GetOpRes, g = .ok ⟨dsSuccess, []⟩ →
      (∀ res, g = .ok res → res.status = dsSuccess → res.recs = []) ∧ ((∃ kv ∈ db, kv.1 < attr) → g = .ok ⟨dsSuccess, []⟩) := by
    rintro g rfl; exact ⟨fun res h1 _ => by cases h1; rfl, fun _ => rfl⟩
  cases b with
  | mem =>
    have hlt := upperBound_lt hv0 (h.seek_num hr0)
    simp only [opOf, memOp, hop, hseek]
    rw [if_neg (by decide), if_neg (by decide), if_neg (by decide), if_neg (by decide), if_neg (by decide), if_neg (by decide),
      if_pos trivial, if_pos hlt]
    by_cases h0 : upperBound db (attr ++ [neg, 0]) = 0
    · rw [if_pos h0]
      refine ⟨(by intro res h1; cases h1), ?_⟩
      rintro ⟨kv, hkv, hk⟩
      exfalso
      have hk' := lt_of_lt_prefix hk (List.prefix_append attr [neg, 0])
      cases hdb : db with
      | nil => rw [hdb] at hkv; cases hkv
      | cons y l =>
        have hy : y.1 ≤ attr ++ [neg, 0] := by
          intro hlt'
          have hs := hd.sorted
          rw [hdb] at hs hkv
          rcases List.mem_cons.mp hkv with rfl | hkv
          · exact bytes_lt_asymm hlt' hk'
          · exact bytes_lt_asymm hlt' (bytes_lt_trans ((List.pairwise_cons.mp hs).1 _ hkv) hk')
        unfold upperBound at h0
        rw [hdb, List.takeWhile_cons_of_pos (by simpa using hy)] at h0
        simp at h0
    · rw [if_neg h0]
      refine done _ (both _ ?_)
      cases hn : x.numRecs with
      | zero => rfl
      | succ n =>
        unfold memHighest
        split
        · rfl
        · cases hg : db[upperBound db (attr ++ [neg, 0]) - 1]? with
          | none => rw [List.getElem?_eq_none_iff] at hg; omega
          | some kv =>
            have hmem : kv ∈ db := List.mem_of_getElem? hg
            have hle := takeWhile_last (p := fun y : Bytes × Bytes => decide (y.1 ≤ attr ++ [neg, 0])) (l := db)
              (i := upperBound db (attr ++ [neg, 0]) - 1) (by unfold upperBound at h0 ⊢; omega) hg
            have hnp : attr.isPrefixOf kv.1 = false := by
              cases hp : attr.isPrefixOf kv.1 with
              | false => rfl
              | true => exact absurd (ge kv hmem (List.isPrefixOf_iff_prefix.mp hp)) (of_decide_eq_true hle)
            simp only
            rw [memcmpPrefix_ok (by have := hd.long kv hmem; have := hlen rfl; omega), Out.ok_bind, hnp]
            rfl
  | level =>
    have hlt := lowerBound_lt hv0 (bytes_lt_asymm (h.seek_num hr0))
    simp only [opOf, levelOp, hop, hseek]
    rw [if_neg (by decide), if_neg (by decide), if_neg (by decide), if_neg (by decide), if_neg (by decide), if_neg (by decide),
      if_pos trivial, if_pos hlt]
    by_cases h0 : lowerBound db (attr ++ [neg, 0]) = 0
    · rw [if_pos h0]
      refine ⟨fun res h1 => herr res h1, ?_⟩
      rintro ⟨kv, hkv, hk⟩
      exfalso
      have hk' := lt_of_lt_prefix hk (List.prefix_append attr [neg, 0])
      cases hdb : db with
      | nil => rw [hdb] at hkv; cases hkv
      | cons y l =>
        have hy : y.1 < attr ++ [neg, 0] := by
          have hs := hd.sorted
          rw [hdb] at hs hkv
          rcases List.mem_cons.mp hkv with rfl | hkv
          · exact hk'
          · exact bytes_lt_trans ((List.pairwise_cons.mp hs).1 _ hkv) hk'
        unfold lowerBound at h0
        rw [hdb, List.takeWhile_cons_of_pos (by simpa using hy)] at h0
        simp at h0
    · rw [if_neg h0]
      refine done _ (both _ ?_)
      cases hn : x.numRecs with
      | zero => rfl
      | succ n =>
        unfold levelBackward
        cases hg : db[lowerBound db (attr ++ [neg, 0]) - 1]? with
        | none => rw [List.getElem?_eq_none_iff] at hg; omega
        | some kv =>
          have hmem : kv ∈ db := List.mem_of_getElem? hg
          have hle := takeWhile_last (p := fun y : Bytes × Bytes => decide (y.1 < attr ++ [neg, 0])) (l := db)
            (i := lowerBound db (attr ++ [neg, 0]) - 1) (by unfold lowerBound at h0 ⊢; omega) hg
          have hnp : attr.isPrefixOf kv.1 = false := by
            cases hp : attr.isPrefixOf kv.1 with
            | false => rfl
            | true => exact absurd (of_decide_eq_true hle) (bytes_lt_asymm (ge kv hmem (List.isPrefixOf_iff_prefix.mp hp)))
          simp only [Option.bind_some, hg, Option.map_some]
          unfold startsWith
          rw [Out.ok_bind, hnp]
          rfl

end

end Hx.Store

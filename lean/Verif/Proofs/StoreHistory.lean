import Verif.Proofs.Store
import Verif.Spec.Store

/-!
# Helper lemmas: the database after a history
-/

namespace Hx.Store
open Hx Msg Spec

/-- `e` is the stored form of the subject or predicate `v`. -/
structure KeyVal (cb : Callbacks) (t : Transform) (v : Val) (e : Bytes) : Prop where
  enc : t.E v = some e
  typ : v.typ < 256
  len : e.length < 2 ^ 64
  dec : cb.decode ⟨e, v.typ⟩ = .ok (some v.bytes)

/-- `e` is the stored form of the object `v`. -/
structure ObjVal (cb : Callbacks) (t : Transform) (v : Val) (e : Bytes) : Prop where
  enc : t.E v = some e
  typ : v.typ < 2 ^ 32
  dec : cb.decode ⟨e, v.typ⟩ = .ok (some (t.R v))

theorem _root_.Hx.Spec.KeyOk.val {cb : Callbacks} {t : Transform} {b : Blob} (h : KeyOk cb t b) {e : Bytes}
    (he : t.E b.val = some e) : KeyVal cb t b.val e :=
  ⟨he, h.typ, h.len e he, h.dec e he⟩

theorem _root_.Hx.Spec.ObjOk.val' {cb : Callbacks} {t : Transform} {b : Blob} (h : ObjOk cb t b) {e : Bytes}
    (he : t.E b.val = some e) : ObjVal cb t b.val e :=
  ⟨he, h.typ, h.dec e he⟩

/-- The record a triple is stored as. -/
def entry (t : Transform) (a : Triple) : Bytes × Bytes :=
  (t.key a, appendType ((t.E a.2.2).getD []) a.2.2.typ)

/-- A triple that can be stored and read back. -/
def Good (cb : Callbacks) (t : Transform) (a : Triple) : Prop :=
  (∃ e, KeyVal cb t a.1 e) ∧ (∃ e, KeyVal cb t a.2.1 e) ∧ ∃ e, ObjVal cb t a.2.2 e

theorem key_inj {cb : Callbacks} {t : Transform} {s p s' p' : Val} {o o' : Val} {es ep es' ep' : Bytes}
    (hs : KeyVal cb t s es) (hp : KeyVal cb t p ep) (hs' : KeyVal cb t s' es') (hp' : KeyVal cb t p' ep')
    (h : t.key (s, p, o) = t.key (s', p', o')) : s = s' ∧ p = p' := by
  simp only [Transform.key, hs.enc, hp.enc, hs'.enc, hp'.enc, Option.getD_some] at h
  obtain ⟨h1, h2⟩ := Props.C02_key_injective ⟨es, s.typ⟩ ⟨ep, p.typ⟩ ⟨es', s'.typ⟩ ⟨ep', p'.typ⟩ hs.len hp.len hs.typ hp.typ hs'.len hp'.len hs'.typ hp'.typ h
  have d1 := hs.dec
  have d2 := hp.dec
  simp only [Val.mk.injEq] at h1 h2
  rw [h1.1, h1.2, hs'.dec] at d1
  rw [h2.1, h2.2, hp'.dec] at d2
  simp only [Out.ok.injEq, Option.some.injEq] at d1 d2
  refine ⟨?_, ?_⟩
  · cases s; cases s'; simp_all
  · cases p; cases p'; simp_all

theorem lastObj_put (s p s' p' o : Val) (h : List Ev) :
    lastObj s' p' (h ++ [.put s p o]) = if s = s' ∧ p = p' then some o else lastObj s' p' h := by
  simp [lastObj]

theorem lastObj_del (s p s' p' : Val) (h : List Ev) :
    lastObj s' p' (h ++ [.del s p]) = if s = s' ∧ p = p' then none else lastObj s' p' h := by
  simp [lastObj]

/-- The database holds exactly the latest triples of `h`. -/
structure Inv (cb : Callbacks) (t : Transform) (db : Db) (h : List Ev) : Prop where
  sorted : Sorted db
  sound : ∀ k v, find db k = some v → ∃ s p o, (k, v) = entry t (s, p, o) ∧ Good cb t (s, p, o) ∧ lastObj s p h = some o
  complete : ∀ s p o, lastObj s p h = some o → find db (t.key (s, p, o)) = some (entry t (s, p, o)).2 ∧ Good cb t (s, p, o)

theorem Inv.nil (cb : Callbacks) (t : Transform) : Inv cb t [] [] :=
  ⟨List.Pairwise.nil, by simp [find], by simp [lastObj]⟩

theorem Inv.put {cb : Callbacks} {t : Transform} {db : Db} {h : List Ev} (i : Inv cb t db h) {s p o : Val}
    (g : Good cb t (s, p, o)) :
    Inv cb t (Store.put (entry t (s, p, o)).1 (entry t (s, p, o)).2 db) (h ++ [.put s p o]) := by
  obtain ⟨⟨es, hs⟩, ⟨ep, hp⟩, eo, ho⟩ := g
  refine ⟨i.sorted.put _ _, ?_, ?_⟩
  · intro k v hf
    rw [find_put] at hf
    split at hf
    · rename_i hk
      cases hf
      exact ⟨s, p, o, by rw [← hk], ⟨⟨es, hs⟩, ⟨ep, hp⟩, eo, ho⟩, by rw [lastObj_put, if_pos ⟨rfl, rfl⟩]⟩
    · rename_i hk
      obtain ⟨s', p', o', he, g', hl⟩ := i.sound k v hf
      refine ⟨s', p', o', he, g', ?_⟩
      rw [lastObj_put, if_neg, hl]
      rintro ⟨rfl, rfl⟩
      have : k = (entry t (s, p, o')).1 := congrArg Prod.fst he
      exact hk this.symm
  · intro s' p' o' hl
    rw [lastObj_put] at hl
    rw [find_put]
    split at hl
    · rename_i h1
      obtain ⟨rfl, rfl⟩ := h1
      cases hl
      exact ⟨by simp [entry], ⟨⟨es, hs⟩, ⟨ep, hp⟩, eo, ho⟩⟩
    · rename_i h1
      obtain ⟨hf, g'⟩ := i.complete s' p' o' hl
      refine ⟨?_, g'⟩
      rw [if_neg, hf]
      obtain ⟨⟨es', hs'⟩, ⟨ep', hp'⟩, _⟩ := g'
      exact fun he => h1 (key_inj hs hp hs' hp' he)

theorem Inv.del {cb : Callbacks} {t : Transform} {db : Db} {h : List Ev} (i : Inv cb t db h) {s p : Val}
    {es ep : Bytes} (hs : KeyVal cb t s es) (hp : KeyVal cb t p ep) (o : Val) :
    Inv cb t (Store.erase (t.key (s, p, o)) db) (h ++ [.del s p]) := by
  refine ⟨i.sorted.erase _, ?_, ?_⟩
  · intro k v hf
    rw [find_erase] at hf
    split at hf
    · cases hf
    · rename_i hk
      obtain ⟨s', p', o', he, g', hl⟩ := i.sound k v hf
      refine ⟨s', p', o', he, g', ?_⟩
      rw [lastObj_del, if_neg, hl]
      rintro ⟨rfl, rfl⟩
      have : k = (entry t (s, p, o')).1 := congrArg Prod.fst he
      exact hk this.symm
  · intro s' p' o' hl
    rw [lastObj_del] at hl
    rw [find_erase]
    split at hl
    · cases hl
    · rename_i h1
      obtain ⟨hf, g'⟩ := i.complete s' p' o' hl
      refine ⟨?_, g'⟩
      rw [if_neg, hf]
      obtain ⟨⟨es', hs'⟩, ⟨ep', hp'⟩, _⟩ := g'
      exact fun he => h1 (key_inj hs hp hs' hp' he)

theorem encodeKey_ok {cb : Callbacks} {t : Transform} {s p : Blob} (hs : KeyOk cb t s) (hp : KeyOk cb t p) :
    encodeKey cb s p = .ok (if t.accepts s.val && t.accepts p.val then some (t.key (s.val, p.val, s.val)) else none) := by
  unfold encodeKey Transform.accepts Transform.key
  rw [hs.enc, Out.ok_bind]
  cases h1 : t.E s.val with
  | none => simp
  | some es =>
    simp only [hp.enc, Out.ok_bind]
    cases h2 : t.E p.val with
    | none => simp
    | some ep => simp [Blob.val]

theorem encodeTriple_ok {cb : Callbacks} {t : Transform} {s p o : Blob} (hs : KeyOk cb t s) (hp : KeyOk cb t p)
    (ho : ObjOk cb t o) :
    encodeTriple cb s p o = .ok (if t.accepts s.val && t.accepts p.val && t.accepts o.val
      then some (entry t (s.val, p.val, o.val)) else none) := by
  unfold encodeTriple
  rw [encodeKey_ok hs hp, Out.ok_bind]
  cases h1 : t.accepts s.val && t.accepts p.val with
  | false => simp
  | true =>
    simp only [if_true, ho.enc, Out.ok_bind, Bool.true_and]
    unfold Transform.accepts entry
    cases h2 : t.E o.val with
    | none => simp
    | some eo => simp [Blob.val, Transform.key]

theorem good_of {cb : Callbacks} {t : Transform} {s p o : Blob} (hs : KeyOk cb t s) (hp : KeyOk cb t p)
    (ho : ObjOk cb t o) (h : (t.accepts s.val && t.accepts p.val && t.accepts o.val) = true) :
    Good cb t (s.val, p.val, o.val) := by
  simp only [Bool.and_eq_true, Transform.accepts, Option.isSome_iff_exists] at h
  obtain ⟨⟨⟨es, h1⟩, ep, h2⟩, eo, h3⟩ := h
  exact ⟨⟨es, hs.val h1⟩, ⟨ep, hp.val h2⟩, eo, ho.val' h3⟩

theorem inv_puts {cb : Callbacks} {t : Transform} {db : Db} {h : List Ev} (i : Inv cb t db h) (l : List PutItem)
    (hl : BodyOk cb t (.put l)) :
    ∃ es, mapO (PutItem.enc cb) l = .ok es ∧ Inv cb t (applyPuts db es) (h ++ events t.accepts (.put l)) := by
  induction l generalizing db h with
  | nil => exact ⟨[], rfl, by simpa [events, applyPuts] using i⟩
  | cons x l ih =>
    obtain ⟨hs, hp, ho⟩ := hl x List.mem_cons_self
    have hl' : BodyOk cb t (.put l) := fun y hy => hl y (List.mem_cons_of_mem _ hy)
    unfold mapO
    rw [show PutItem.enc cb x = _ from encodeTriple_ok hs hp ho, Out.ok_bind]
    cases hc : (t.accepts x.subject.val && t.accepts x.predicate.val && t.accepts x.object.val) with
    | false =>
      obtain ⟨es, he, hi⟩ := ih i hl'
      refine ⟨none :: es, by rw [he]; simp, ?_⟩
      simpa [events, applyPuts, hc] using hi
    | true =>
      obtain ⟨es, he, hi⟩ := ih (i.put (good_of hs hp ho hc)) hl'
      refine ⟨some (entry t (x.subject.val, x.predicate.val, x.object.val)) :: es, by rw [he]; simp, ?_⟩
      have e : events t.accepts (.put (x :: l)) =
          .put x.subject.val x.predicate.val x.object.val :: events t.accepts (.put l) := by
        simp only [events]; rw [List.filter_cons_of_pos (by exact hc)]; rfl
      rw [e]
      simpa [applyPuts] using hi

theorem inv_dels {cb : Callbacks} {t : Transform} {db : Db} {h : List Ev} (i : Inv cb t db h) (l : List DelItem)
    (hl : BodyOk cb t (.del l)) :
    ∃ ks, mapO (DelItem.enc cb) l = .ok ks ∧ Inv cb t (applyDels db ks) (h ++ events t.accepts (.del l)) := by
  induction l generalizing db h with
  | nil => exact ⟨[], rfl, by simpa [events, applyDels] using i⟩
  | cons x l ih =>
    obtain ⟨hs, hp⟩ := hl x List.mem_cons_self
    have hl' : BodyOk cb t (.del l) := fun y hy => hl y (List.mem_cons_of_mem _ hy)
    unfold mapO
    rw [show DelItem.enc cb x = _ from encodeKey_ok hs hp, Out.ok_bind]
    cases hc : (t.accepts x.subject.val && t.accepts x.predicate.val) with
    | false =>
      obtain ⟨es, he, hi⟩ := ih i hl'
      refine ⟨none :: es, by rw [he]; simp, ?_⟩
      simpa [events, applyDels, hc] using hi
    | true =>
      have hc' := hc
      simp only [Bool.and_eq_true, Transform.accepts, Option.isSome_iff_exists] at hc'
      obtain ⟨⟨es, h1⟩, ep, h2⟩ := hc'
      obtain ⟨ks, he, hi⟩ := ih (i.del (hs.val h1) (hp.val h2) x.subject.val) hl'
      refine ⟨some (t.key (x.subject.val, x.predicate.val, x.subject.val)) :: ks, by rw [he]; simp, ?_⟩
      have e : events t.accepts (.del (x :: l)) =
          .del x.subject.val x.predicate.val :: events t.accepts (.del l) := by
        simp only [events]; rw [List.filter_cons_of_pos (by exact hc)]; rfl
      rw [e]
      simpa [applyDels] using hi

theorem operate_inv {cb : Callbacks} {t : Transform} {heap : Nat} {d d' : DS} {h : List Ev} {wr : Bool}
    {req : ReqBody} {res : Option ResBody} (i : Inv cb t d.db h) (hu : d.usable = true) (hreq : BodyOk cb t req)
    (ho : d.operate cb heap wr req = .ok (d', res)) :
    Inv cb t d'.db (h ++ if d.backend = .mem ∨ wr = true then events t.accepts req else []) ∧
      d'.usable = true ∧ d'.backend = d.backend := by
  cases req with
  | put l =>
    obtain ⟨es, he, hi⟩ := inv_puts i l hreq
    simp only [DS.operate, hu, if_true] at ho
    cases hb : d.backend with
    | mem =>
      rw [hb] at ho
      simp only [memPut_eq, he, Out.ok_bind] at ho
      cases hh : histHooks d.hists (l.zip (List.zipWith
        (fun x e => putReply x (if e.isSome then dsSuccess else dsError)) l es)) with
      | err => rw [hh] at ho; cases ho
      | ub => rw [hh] at ho; cases ho
      | ok hs =>
        rw [hh] at ho; cases ho
        exact ⟨by simpa using hi, rfl, rfl⟩
    | level =>
      rw [hb] at ho
      simp only [levelPut_eq, he, Out.ok_bind] at ho
      cases hh : histHooks d.hists (l.zip (l.map
        (fun x => putReply x (if wr then dsSuccess else dsError)))) with
      | err => rw [hh] at ho; cases ho
      | ub => rw [hh] at ho; cases ho
      | ok hs =>
        rw [hh] at ho; cases ho
        refine ⟨?_, rfl, rfl⟩
        cases wr
        · simpa using i
        · simpa using hi
  | get l =>
    simp only [DS.operate, hu, if_true] at ho
    cases hg : getAll cb heap d.db l with
    | err => rw [hg] at ho; cases ho
    | ub => rw [hg] at ho; cases ho
    | ok r => rw [hg] at ho; cases ho; exact ⟨by simpa [events] using i, rfl, rfl⟩
  | getop l =>
    simp only [DS.operate, hu, if_true] at ho
    cases hg : getOpAll d.backend cb heap d.db l with
    | err => rw [hg] at ho; cases ho
    | ub => rw [hg] at ho; cases ho
    | ok r => rw [hg] at ho; cases ho; exact ⟨by simpa [events] using i, rfl, rfl⟩
  | del l =>
    obtain ⟨ks, he, hi⟩ := inv_dels i l hreq
    simp only [DS.operate, hu, if_true] at ho
    cases hb : d.backend with
    | mem =>
      rw [hb] at ho
      simp only [memDel_eq, he, Out.ok_bind] at ho
      cases ho
      exact ⟨by simpa using hi, rfl, rfl⟩
    | level =>
      rw [hb] at ho
      simp only [levelDel_eq, he, Out.ok_bind] at ho
      cases ho
      refine ⟨?_, rfl, rfl⟩
      cases wr
      · simpa using i
      · simpa using hi
  | hist l => cases ho; exact ⟨by simpa [events] using i, hu, rfl⟩

theorem run_inv {cb : Callbacks} {t : Transform} {heap : Nat} {d d' : DS} {h : List Ev}
    {l : List (Bool × ReqBody)} (i : Inv cb t d.db h) (hu : d.usable = true) (hl : ∀ x ∈ l, BodyOk cb t x.2)
    (hr : DS.run cb heap d l = .ok d') :
    Inv cb t d'.db (h ++ history t.accepts d.backend l) ∧ d'.usable = true ∧ d'.backend = d.backend := by
  induction l generalizing d h with
  | nil => cases hr; exact ⟨by simpa [history] using i, hu, rfl⟩
  | cons x l ih =>
    unfold DS.run at hr
    cases ho : d.operate cb heap x.1 x.2 with
    | err => rw [ho] at hr; cases hr
    | ub => rw [ho] at hr; cases hr
    | ok r =>
      rw [ho, Out.ok_bind] at hr
      obtain ⟨i', hu', hb'⟩ := operate_inv i hu (hl x List.mem_cons_self) ho
      obtain ⟨i'', hu'', hb''⟩ := ih i' hu' (fun y hy => hl y (List.mem_cons_of_mem _ hy)) hr
      refine ⟨?_, hu'', hb''.trans hb'⟩
      rw [hb'] at i''
      simpa [history, List.append_assoc] using i''

theorem removeType_appendType (o : Bytes) (t : Nat) (h : t < 2 ^ 32) : removeType (appendType o t) = .ok (o, t) := by
  unfold removeType appendType
  rw [if_neg (by simp)]
  simp [leVal_leBytes 4 t (by omega)]

theorem getItem_inv {cb : Callbacks} {t : Transform} {heap : Nat} {db : Db} {h : List Ev} (i : Inv cb t db h)
    {x : GetItem} (hs : KeyOk cb t x.subject) (hp : KeyOk cb t x.predicate) :
    ∃ r, getItem cb heap db x = .ok r ∧ Answers t h x r := by
  unfold getItem Answers
  rw [encodeKey_ok hs hp]
  simp only [Out.ok_bind]
  cases hl : lastObj x.subject.val x.predicate.val h with
  | some o =>
    obtain ⟨hf, ⟨es, h1⟩, ⟨ep, h2⟩, eo, h3⟩ := i.complete _ _ _ hl
    have a1 : t.accepts x.subject.val = true := by simp [Transform.accepts, h1.enc]
    have a2 : t.accepts x.predicate.val = true := by simp [Transform.accepts, h2.enc]
    have hk : t.key (x.subject.val, x.predicate.val, x.subject.val) = t.key (x.subject.val, x.predicate.val, o) := rfl
    simp only [a1, a2, Bool.and_self, if_true, hk, hf]
    simp only [entry, h3.enc, Option.getD_some, removeType_appendType _ _ h3.typ, Out.ok_bind, h3.dec]
    exact ⟨_, rfl, rfl, rfl⟩
  | none =>
    cases hc : (t.accepts x.subject.val && t.accepts x.predicate.val) with
    | false => exact ⟨_, rfl, rfl⟩
    | true =>
      simp only [if_true]
      cases hf : find db (t.key (x.subject.val, x.predicate.val, x.subject.val)) with
      | none => exact ⟨_, rfl, rfl⟩
      | some v =>
        exfalso
        obtain ⟨s, p, o, he, ⟨⟨es, h1⟩, ⟨ep, h2⟩, _⟩, hl'⟩ := i.sound _ _ hf
        have hc' := hc
        simp only [Bool.and_eq_true, Transform.accepts, Option.isSome_iff_exists] at hc'
        obtain ⟨⟨es', e1⟩, ep', e2⟩ := hc'
        obtain ⟨rfl, rfl⟩ := key_inj (o := x.subject.val) (o' := o) (hs.val e1) (hp.val e2) h1 h2
          (congrArg Prod.fst he)
        rw [hl] at hl'; cases hl'

/-! ## Shapes of responses -/

theorem matches_memPut {cb : Callbacks} {db : Db} {l : List PutItem} {r : Db × List StatusItem}
    (h : memPut cb db l = .ok r) : Matches (.put l) (.put r.2) := by
  rw [memPut_eq] at h
  cases hes : mapO (PutItem.enc cb) l with
  | err => rw [hes] at h; cases h
  | ub => rw [hes] at h; cases h
  | ok es =>
    rw [hes] at h; cases h
    have hf := mapO_ok hes
    clear hes
    simp only [Matches]
    induction hf with
    | nil => exact .nil
    | cons _ _ ih => exact .cons ⟨rfl, rfl⟩ ih

theorem matches_levelPut {cb : Callbacks} {wr : Bool} {db : Db} {l : List PutItem} {r : Db × List StatusItem}
    (h : levelPut cb wr db l = .ok r) : Matches (.put l) (.put r.2) := by
  rw [levelPut_eq] at h
  cases hes : mapO (PutItem.enc cb) l with
  | err => rw [hes] at h; cases h
  | ub => rw [hes] at h; cases h
  | ok es =>
    rw [hes] at h; cases h
    simp only [Matches, List.forall₂_map_right_iff, List.forall₂_same]
    intro x _; exact ⟨rfl, rfl⟩

end Hx.Store

import Verif.Model.Store
import Verif.Props.C01_Keys
import Mathlib.Data.List.Forall2

/-!
# Helper lemmas: ordered maps and bulk operations
-/

namespace Hx.Store
open Hx Msg

/-! ## Ordered maps -/

/-- Keys strictly ascending. -/
def Sorted {β : Type} (m : Map β) : Prop := m.Pairwise (fun a b => a.1 < b.1)

theorem find_put {β : Type} (k k' : Bytes) (v : β) (m : Map β) :
    find (put k v m) k' = if k = k' then some v else find m k' := by
  induction m with
  | nil => simp [put, find]
  | cons x m ih =>
    unfold put
    by_cases h1 : k < x.1
    · rw [if_pos h1]; simp only [find]
    · rw [if_neg h1]
      by_cases h2 : k = x.1
      · rw [if_pos h2]; simp only [find]
        by_cases h3 : k = k'
        · simp [h3]
        · rw [if_neg h3, if_neg h3, if_neg (fun h => h3 (h2.trans h))]
      · rw [if_neg h2]; simp only [find]
        by_cases h3 : x.1 = k'
        · rw [if_pos h3, if_pos h3, if_neg (fun h => h2 (h.trans h3.symm))]
        · rw [if_neg h3, if_neg h3, ih]

theorem find_erase {β : Type} (k k' : Bytes) (m : Map β) :
    find (erase k m) k' = if k = k' then none else find m k' := by
  induction m with
  | nil => simp [erase, find]
  | cons x m ih =>
    unfold erase at ih ⊢
    by_cases h1 : x.1 = k
    · rw [List.filter_cons_of_neg (by simp [h1]), ih]
      by_cases h2 : k = k'
      · simp [h2]
      · rw [if_neg h2, if_neg h2]; simp only [find]; rw [if_neg (fun h => h2 (h1 ▸ h))]
    · rw [List.filter_cons_of_pos (by simp [h1])]
      simp only [find]
      by_cases h3 : x.1 = k'
      · rw [if_pos h3, if_neg (fun h => h1 (h3.trans h.symm)), if_pos h3]
      · rw [if_neg h3, ih]; split <;> rfl

theorem erase_absent {β : Type} (k : Bytes) (m : Map β) (h : find m k = none) : erase k m = m := by
  induction m with
  | nil => rfl
  | cons x m ih =>
    simp only [find] at h
    by_cases h1 : x.1 = k
    · rw [if_pos h1] at h; cases h
    · rw [if_neg h1] at h
      unfold erase at ih ⊢
      rw [List.filter_cons_of_pos (by simp [h1]), ih h]

theorem mem_put {β : Type} {k : Bytes} {v : β} {m : Map β} {x : Bytes × β} (h : x ∈ put k v m) :
    x = (k, v) ∨ x ∈ m := by
  induction m with
  | nil => simp [put] at h; exact Or.inl h
  | cons y m ih =>
    unfold put at h
    split at h
    · simpa using h
    · split at h
      · rcases List.mem_cons.mp h with h | h
        · exact Or.inl h
        · exact Or.inr (List.mem_cons_of_mem _ h)
      · rcases List.mem_cons.mp h with h | h
        · exact Or.inr (h ▸ List.mem_cons_self)
        · rcases ih h with h | h
          · exact Or.inl h
          · exact Or.inr (List.mem_cons_of_mem _ h)

theorem Sorted.put {β : Type} {m : Map β} (h : Sorted m) (k : Bytes) (v : β) : Sorted (put k v m) := by
  induction m with
  | nil => simp [Sorted, Store.put]
  | cons x m ih =>
    have hx := (List.pairwise_cons.mp h).1
    have hm := (List.pairwise_cons.mp h).2
    unfold Store.put
    by_cases h1 : k < x.1
    · rw [if_pos h1]
      refine List.pairwise_cons.mpr ⟨?_, h⟩
      intro y hy
      rcases List.mem_cons.mp hy with rfl | hy
      · exact h1
      · exact List.lt_trans h1 (hx y hy)
    · rw [if_neg h1]
      by_cases h2 : k = x.1
      · rw [if_pos h2]
        refine List.pairwise_cons.mpr ⟨?_, hm⟩
        intro y hy; rw [h2]; exact hx y hy
      · rw [if_neg h2]
        refine List.pairwise_cons.mpr ⟨?_, ih hm⟩
        intro y hy
        rcases mem_put hy with rfl | hy
        · rcases bytes_trichotomy k x.1 with h3 | h3 | h3
          · exact absurd h3 h1
          · exact absurd h3 h2
          · exact h3
        · exact hx y hy

theorem Sorted.erase {β : Type} {m : Map β} (h : Sorted m) (k : Bytes) : Sorted (erase k m) :=
  List.Pairwise.sublist List.filter_sublist h

theorem find_mem {β : Type} {m : Map β} {k : Bytes} {v : β} (h : find m k = some v) : (k, v) ∈ m := by
  induction m with
  | nil => simp [find] at h
  | cons x m ih =>
    simp only [find] at h
    split at h
    · rename_i h1; cases h; subst h1; exact List.mem_cons_self
    · exact List.mem_cons_of_mem _ (ih h)

theorem mem_find {β : Type} {m : Map β} (hs : Sorted m) {x : Bytes × β} (h : x ∈ m) : find m x.1 = some x.2 := by
  induction m with
  | nil => simp at h
  | cons y m ih =>
    have hx := (List.pairwise_cons.mp hs).1
    have hm := (List.pairwise_cons.mp hs).2
    simp only [find]
    rcases List.mem_cons.mp h with rfl | h
    · simp
    · rw [if_neg, ih hm h]
      intro he
      exact List.lt_irrefl x.1 (he ▸ hx x h)

/-- Two sorted maps with the same contents are the same list. -/
theorem sorted_ext {β : Type} {m m' : Map β} (h : Sorted m) (h' : Sorted m')
    (he : ∀ k, find m k = find m' k) : m = m' := by
  induction m generalizing m' with
  | nil =>
    cases m' with
    | nil => rfl
    | cons x m' =>
      have := he x.1
      simp [find] at this
  | cons x m ih =>
    cases m' with
    | nil => have := he x.1; simp [find] at this
    | cons y m' =>
      have hx := (List.pairwise_cons.mp h).1
      have hm := (List.pairwise_cons.mp h).2
      have hy := (List.pairwise_cons.mp h').1
      have hm' := (List.pairwise_cons.mp h').2
      have e1 : (x.1, x.2) ∈ y :: m' := find_mem (by rw [← he x.1]; simp [find])
      have e2 : (y.1, y.2) ∈ x :: m := find_mem (by rw [he y.1]; simp [find])
      have hxy : x = y := by
        rcases List.mem_cons.mp e1 with e1 | e1
        · exact e1
        · rcases List.mem_cons.mp e2 with e2 | e2
          · exact e2.symm
          · exact absurd (List.lt_trans (hx _ e2) (hy _ e1)) (List.lt_irrefl _)
      subst hxy
      rw [ih hm hm' (fun k => ?_)]
      have := he k
      simp only [find] at this
      by_cases hk : x.1 = k
      · subst hk
        have n1 : find m x.1 = none := by
          cases hf : find m x.1 with
          | none => rfl
          | some v => exact absurd (hx _ (find_mem hf)) (List.lt_irrefl _)
        have n2 : find m' x.1 = none := by
          cases hf : find m' x.1 with
          | none => rfl
          | some v => exact absurd (hy _ (find_mem hf)) (List.lt_irrefl _)
        rw [n1, n2]
      · rw [if_neg hk, if_neg hk] at this; exact this

/-! ## Bulk loops -/

/-- Run `f` on every item, stop at the first failure. -/
def mapO {α β : Type} (f : α → Out β) : List α → Out (List β)
  | [] => .ok []
  | x :: l => f x >>= fun y => mapO f l >>= fun ys => .ok (y :: ys)

theorem mapO_ok {α β : Type} {f : α → Out β} {l : List α} {ys : List β} (h : mapO f l = .ok ys) :
    List.Forall₂ (fun x y => f x = .ok y) l ys := by
  induction l generalizing ys with
  | nil => simp [mapO] at h; subst h; exact .nil
  | cons x l ih =>
    unfold mapO at h
    cases hx : f x with
    | err => simp [hx] at h
    | ub => simp [hx] at h
    | ok y =>
      rw [hx, Out.ok_bind] at h
      cases hl : mapO f l with
      | err => simp [hl] at h
      | ub => simp [hl] at h
      | ok ys' =>
        rw [hl, Out.ok_bind] at h
        cases h
        exact .cons hx (ih hl)

theorem mapO_of {α β : Type} {f : α → Out β} {l : List α} {ys : List β}
    (h : List.Forall₂ (fun x y => f x = .ok y) l ys) : mapO f l = .ok ys := by
  induction h with
  | nil => rfl
  | cons hx _ ih => unfold mapO; rw [hx, Out.ok_bind, ih, Out.ok_bind]

theorem getAll_eq (cb : Callbacks) (heap : Nat) (db : Db) (l : List GetItem) :
    getAll cb heap db l = mapO (getItem cb heap db) l := by
  induction l with
  | nil => rfl
  | cons x l ih => simp only [getAll, mapO, ih]

theorem getOpAll_eq (b : Backend) (cb : Callbacks) (heap : Nat) (db : Db) (l : List GetOpItem) :
    getOpAll b cb heap db l = mapO (getOpItem b cb heap db) l := by
  induction l with
  | nil => rfl
  | cons x l ih => simp only [getOpAll, mapO, ih]

def PutItem.enc (cb : Callbacks) (x : PutItem) : Out (Option (Bytes × Bytes)) :=
  encodeTriple cb x.subject x.predicate x.object

def DelItem.enc (cb : Callbacks) (x : DelItem) : Out (Option Bytes) := encodeKey cb x.subject x.predicate

/-- Store what could be encoded, in order. -/
def applyPuts (db : Db) (es : List (Option (Bytes × Bytes))) : Db :=
  es.foldl (fun db e => match e with | some kv => put kv.1 kv.2 db | none => db) db

/-- Remove what could be encoded. -/
def applyDels (db : Db) (ks : List (Option Bytes)) : Db :=
  ks.foldl (fun db k => match k with | some k => erase k db | none => db) db

theorem memPut_eq (cb : Callbacks) (db : Db) (l : List PutItem) :
    memPut cb db l = (mapO (PutItem.enc cb) l >>= fun es => .ok (applyPuts db es,
      List.zipWith (fun x e => putReply x (if e.isSome then dsSuccess else dsError)) l es)) := by
  induction l generalizing db with
  | nil => rfl
  | cons x l ih =>
    unfold memPut mapO
    simp only [PutItem.enc]
    cases hx : encodeTriple cb x.subject x.predicate x.object with
    | err => rfl
    | ub => rfl
    | ok kv =>
      rw [Out.ok_bind, Out.ok_bind]
      cases kv with
      | none =>
        simp only
        rw [ih db]
        cases mapO (PutItem.enc cb) l <;> simp [applyPuts, List.zipWith]
      | some kv =>
        simp only
        rw [ih]
        cases mapO (PutItem.enc cb) l <;> simp [applyPuts, List.zipWith]

theorem levelBatch_eq (cb : Callbacks) (l : List PutItem) :
    levelBatch cb l = (mapO (PutItem.enc cb) l >>= fun es => .ok (es.filterMap id)) := by
  induction l with
  | nil => rfl
  | cons x l ih =>
    unfold levelBatch mapO
    simp only [PutItem.enc]
    cases hx : encodeTriple cb x.subject x.predicate x.object with
    | err => rfl
    | ub => rfl
    | ok kv =>
      rw [Out.ok_bind, Out.ok_bind, ih]
      cases mapO (PutItem.enc cb) l with
      | err => rfl
      | ub => rfl
      | ok es => cases kv <;> simp

theorem foldl_puts (db : Db) (es : List (Option (Bytes × Bytes))) :
    (es.filterMap id).foldl (fun db kv => put kv.1 kv.2 db) db = applyPuts db es := by
  induction es generalizing db with
  | nil => rfl
  | cons e es ih =>
    cases e with
    | none => exact ih db
    | some kv => exact ih (put kv.1 kv.2 db)

theorem levelPut_eq (cb : Callbacks) (wr : Bool) (db : Db) (l : List PutItem) :
    levelPut cb wr db l = (mapO (PutItem.enc cb) l >>= fun es =>
      .ok (if wr then applyPuts db es else db,
        l.map (fun x => putReply x (if wr then dsSuccess else dsError)))) := by
  unfold levelPut
  rw [levelBatch_eq]
  cases mapO (PutItem.enc cb) l with
  | err => rfl
  | ub => rfl
  | ok es => simp only [Out.ok_bind, foldl_puts]

/-- Statuses of an in-memory DELETE packet. -/
def delStatuses : Db → List DelItem → List (Option Bytes) → List StatusItem
  | db, x :: l, k :: ks =>
    match k with
    | none => delReply x dsError :: delStatuses db l ks
    | some k => delReply x (if (find db k).isSome then dsSuccess else dsError) :: delStatuses (erase k db) l ks
  | _, _, _ => []

theorem memDel_eq (cb : Callbacks) (db : Db) (l : List DelItem) :
    memDel cb db l = (mapO (DelItem.enc cb) l >>= fun ks => .ok (applyDels db ks, delStatuses db l ks)) := by
  induction l generalizing db with
  | nil => rfl
  | cons x l ih =>
    unfold memDel mapO
    simp only [DelItem.enc]
    cases hx : encodeKey cb x.subject x.predicate with
    | err => rfl
    | ub => rfl
    | ok k =>
      rw [Out.ok_bind, Out.ok_bind]
      cases k with
      | none =>
        simp only
        rw [ih db]
        cases mapO (DelItem.enc cb) l <;> simp [applyDels, delStatuses]
      | some k =>
        simp only
        cases hf : find db k with
        | none =>
          simp only [Option.isSome_none, Bool.false_eq_true, if_false]
          rw [ih]
          cases mapO (DelItem.enc cb) l <;> simp [applyDels, delStatuses, hf, erase_absent k db hf]
        | some v =>
          simp only [Option.isSome_some, if_true]
          rw [ih]
          cases mapO (DelItem.enc cb) l <;> simp [applyDels, delStatuses, hf]

theorem levelDelBatch_eq (cb : Callbacks) (l : List DelItem) :
    levelDelBatch cb l = (mapO (DelItem.enc cb) l >>= fun ks => .ok (ks.filterMap id)) := by
  induction l with
  | nil => rfl
  | cons x l ih =>
    unfold levelDelBatch mapO
    simp only [DelItem.enc]
    cases hx : encodeKey cb x.subject x.predicate with
    | err => rfl
    | ub => rfl
    | ok k =>
      rw [Out.ok_bind, Out.ok_bind, ih]
      cases mapO (DelItem.enc cb) l with
      | err => rfl
      | ub => rfl
      | ok ks => cases k <;> simp

theorem foldl_dels (db : Db) (ks : List (Option Bytes)) :
    (ks.filterMap id).foldl (fun db k => erase k db) db = applyDels db ks := by
  induction ks generalizing db with
  | nil => rfl
  | cons k ks ih =>
    cases k with
    | none => exact ih db
    | some k => exact ih (erase k db)

theorem levelDel_eq (cb : Callbacks) (wr : Bool) (db : Db) (l : List DelItem) :
    levelDel cb wr db l = (mapO (DelItem.enc cb) l >>= fun ks =>
      .ok (if wr then applyDels db ks else db,
        l.map (fun x => delReply x (if wr then dsSuccess else dsError)))) := by
  unfold levelDel
  rw [levelDelBatch_eq]
  cases mapO (DelItem.enc cb) l with
  | err => rfl
  | ub => rfl
  | ok es => simp only [Out.ok_bind, foldl_dels]

theorem sorted_applyPuts {db : Db} (h : Sorted db) (es : List (Option (Bytes × Bytes))) :
    Sorted (applyPuts db es) := by
  induction es generalizing db with
  | nil => exact h
  | cons e es ih => cases e with
    | none => exact ih h
    | some kv => exact ih (h.put kv.1 kv.2)

theorem sorted_applyDels {db : Db} (h : Sorted db) (ks : List (Option Bytes)) :
    Sorted (applyDels db ks) := by
  induction ks generalizing db with
  | nil => exact h
  | cons e es ih => cases e with
    | none => exact ih h
    | some k => exact ih (h.erase k)

theorem find_applyDels (db : Db) (ks : List (Option Bytes)) (k : Bytes) :
    find (applyDels db ks) k = if some k ∈ ks then none else find db k := by
  induction ks generalizing db with
  | nil => simp [applyDels]
  | cons e es ih =>
    cases e with
    | none => simpa [applyDels] using ih db
    | some k' =>
      have := ih (erase k' db)
      simp only [applyDels, List.foldl_cons] at this ⊢
      rw [this, find_erase]
      by_cases h1 : some k ∈ es
      · simp [h1]
      · by_cases h2 : k' = k
        · simp [h2]
        · simp [h1, h2, Ne.symm h2]

end Hx.Store

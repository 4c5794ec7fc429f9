import Verif.Proofs.StoreDefault

/-!
# Helper lemmas: GETOP loops
-/

namespace Hx.Store
open Hx Msg Spec

/-! ## Contents as a list of triples -/

theorem exists_triples {cb : Callbacks} {t : Transform} {db : Db} {h : List Ev}
    (hdb : ∀ kv ∈ db, ∃ s p o, kv = entry t (s, p, o) ∧ Good cb t (s, p, o) ∧ lastObj s p h = some o) :
    ∃ all : List Triple, db = all.map (entry t) ∧ ∀ a ∈ all, Good cb t a ∧ lastObj a.1 a.2.1 h = some a.2.2 := by
  induction db with
  | nil => exact ⟨[], rfl, by simp⟩
  | cons kv db ih =>
    obtain ⟨all, h1, h2⟩ := ih (fun x hx => hdb x (List.mem_cons_of_mem _ hx))
    obtain ⟨s, p, o, h3, h4, h5⟩ := hdb kv List.mem_cons_self
    refine ⟨(s, p, o) :: all, by rw [List.map_cons, ← h1, h3], ?_⟩
    intro a ha
    rcases List.mem_cons.mp ha with rfl | ha
    · exact ⟨h4, h5⟩
    · exact h2 a ha

theorem Inv.contents {cb : Callbacks} {t : Transform} {db : Db} {h : List Ev} (i : Inv cb t db h) :
    ∃ all, Contents t h all ∧ db = all.map (entry t) ∧ ∀ a ∈ all, Good cb t a := by
  obtain ⟨all, h1, h2⟩ := exists_triples (cb := cb) (t := t) (h := h) (db := db)
    (fun kv hkv => i.sound kv.1 kv.2 (mem_find i.sorted hkv))
  refine ⟨all, ⟨?_, ?_⟩, h1, fun a ha => (h2 a ha).1⟩
  · intro s p o
    constructor
    · intro ha; exact (h2 _ ha).2
    · intro hl
      obtain ⟨hf, ⟨es, g1⟩, ⟨ep, g2⟩, _⟩ := i.complete s p o hl
      have := find_mem hf
      rw [h1] at this
      obtain ⟨a, ha, he⟩ := List.mem_map.mp this
      obtain ⟨⟨⟨es', g1'⟩, ⟨ep', g2'⟩, _⟩, hl'⟩ := h2 a ha
      obtain ⟨e1, e2⟩ := key_inj (o := a.2.2) (o' := o) g1' g2' g1 g2 (congrArg Prod.fst he)
      obtain ⟨a1, a2, a3⟩ := a
      simp only at e1 e2 hl'
      subst e1 e2
      rw [hl] at hl'; cases hl'
      exact ha
  · have := i.sorted
    unfold Sorted at this
    rw [h1, List.pairwise_map] at this
    exact this

theorem contents_unique {t : Transform} {h : List Ev} {a b : List Triple} (ha : Contents t h a)
    (hb : Contents t h b) : a = b := by
  have hmem : ∀ x, x ∈ a ↔ x ∈ b := fun ⟨s, p, o⟩ => (ha.mem s p o).trans (hb.mem s p o).symm
  have hsa := ha.sorted
  have hsb := hb.sorted
  clear ha hb
  induction a generalizing b with
  | nil =>
    cases b with
    | nil => rfl
    | cons y b => exact absurd ((hmem y).mpr List.mem_cons_self) (by simp)
  | cons x a ih =>
    cases b with
    | nil => exact absurd ((hmem x).mp List.mem_cons_self) (by simp)
    | cons y b =>
      have hx := List.pairwise_cons.mp hsa
      have hy := List.pairwise_cons.mp hsb
      have hxy : x = y := by
        rcases List.mem_cons.mp ((hmem x).mp List.mem_cons_self) with h1 | h1
        · exact h1
        · rcases List.mem_cons.mp ((hmem y).mpr List.mem_cons_self) with h2 | h2
          · exact h2.symm
          · exact absurd (List.lt_trans (hx.1 _ h2) (hy.1 _ h1)) (List.lt_irrefl _)
      subst hxy
      rw [ih (b := b) ?_ hx.2 hy.2]
      intro z
      constructor
      · intro hz
        rcases List.mem_cons.mp ((hmem z).mp (List.mem_cons_of_mem _ hz)) with rfl | h1
        · exact absurd (hx.1 _ hz) (List.lt_irrefl _)
        · exact h1
      · intro hz
        rcases List.mem_cons.mp ((hmem z).mpr (List.mem_cons_of_mem _ hz)) with rfl | h1
        · exact absurd (hy.1 _ hz) (List.lt_irrefl _)
        · exact h1

theorem reached_facts {cb : Callbacks} {t : Transform} {heap : Nat} {b : Backend} {hist : List (Bool × ReqBody)}
    {d : DS} (h : Reached cb t heap b hist d) {all : List Triple} (hc : Contents t (history t.accepts b hist) all) :
    d.db = all.map (entry t) ∧ (∀ a ∈ all, Good cb t a) ∧ d.backend = b ∧ d.usable = true := by
  obtain ⟨d0, hu, he, hb, hok, hrun⟩ := h
  obtain ⟨i, hu', hb'⟩ := run_inv (h := []) (by rw [he]; exact Inv.nil cb t) hu hok hrun
  rw [List.nil_append, hb] at i
  obtain ⟨all', hc', h1, h2⟩ := i.contents
  rw [contents_unique hc hc']
  exact ⟨h1, h2, hb'.trans hb, hu'⟩

/-! ## One record -/

/-- The record a triple is returned as. -/
def mkRec (t : Transform) (heap : Nat) (a : Triple) : Rec :=
  ⟨⟨copyAddr heap a.1.bytes.length, a.1.bytes, a.1.typ⟩, ⟨copyAddr heap a.2.1.bytes.length, a.2.1.bytes, a.2.1.typ⟩,
    ⟨copyAddr heap (t.R a.2.2).length, t.R a.2.2, a.2.2.typ⟩⟩

theorem recVals_mkRec (t : Transform) (heap : Nat) (a : Triple) : recVals (mkRec t heap a) = t.back a := rfl

theorem map_recVals (t : Transform) (heap : Nat) (l : List Triple) :
    (l.map (mkRec t heap)).map recVals = l.map t.back := by
  rw [List.map_map]; rfl

theorem keyToSp_entry {cb : Callbacks} {t : Transform} {a : Triple} (g : Good cb t a) :
    Key.keyToSp (entry t a).1 = .ok (⟨(t.E a.1).getD [], a.1.typ⟩, ⟨(t.E a.2.1).getD [], a.2.1.typ⟩) := by
  obtain ⟨⟨es, hs⟩, ⟨ep, hp⟩, _⟩ := g
  simp only [entry, Transform.key, hs.enc, hp.enc, Option.getD_some]
  exact Props.C01_key_roundtrip _ _ hs.len hp.len hs.typ hp.typ

theorem copyResponse_good {cb : Callbacks} {t : Transform} {heap n j : Nat} {a : Triple} (g : Good cb t a)
    {recs : List Rec} (hr : recs.length = j) (hj : j < n) :
    copyResponse cb heap n ⟨dsUnset, recs⟩ j (entry t a) = .ok ⟨dsUnset, recs ++ [mkRec t heap a]⟩ := by
  have hk := keyToSp_entry g
  obtain ⟨⟨es, hs⟩, ⟨ep, hp⟩, eo, ho⟩ := g
  unfold copyResponse
  rw [if_neg (by simp), hk]
  simp only [entry, Out.ok_bind, hs.enc, hp.enc, ho.enc, Option.getD_some, removeType_appendType _ _ ho.typ, hs.dec,
    hp.dec, ho.dec]
  rw [if_neg (by omega), List.take_of_length_le (by omega)]
  rfl

/-! ## Loops -/

theorem getElem?_map_entry (t : Transform) (all : List Triple) (i : Nat) :
    (all.map (entry t))[i]? = (all[i]?).map (entry t) := by simp

theorem forward_good {cb : Callbacks} {t : Transform} {heap n : Nat} {all : List Triple}
    (hg : ∀ a ∈ all, Good cb t a) {cond : Bytes → Out Bool} {c : Bytes → Bool}
    (hc : ∀ a ∈ all, cond (t.key a) = .ok (c (t.key a))) (r j it : Nat) (recs : List Rec)
    (hr : recs.length = j) (hn : r + j ≤ n) :
    forward (copyResponse cb heap n) cond (all.map (entry t)) r j it ⟨dsUnset, recs⟩ =
      .ok ⟨dsUnset, recs ++ (((all.drop it).takeWhile (fun a => c (t.key a))).take r).map (mkRec t heap)⟩ := by
  induction r generalizing j it recs with
  | zero => simp [forward]
  | succ r ih =>
    unfold forward
    rw [getElem?_map_entry]
    cases ha : all[it]? with
    | none =>
      have : all.drop it = [] := List.drop_eq_nil_of_le (List.getElem?_eq_none_iff.mp ha)
      simp [this]
    | some a =>
      obtain ⟨hlt, hget⟩ := List.getElem?_eq_some_iff.mp ha
      have hmem : a ∈ all := List.mem_of_getElem? ha
      have hd : all.drop it = a :: all.drop (it + 1) := by rw [List.drop_eq_getElem_cons hlt, hget]
      simp only [Option.map_some]
      rw [show (entry t a).1 = t.key a from rfl, hc a hmem, Out.ok_bind, hd, List.takeWhile_cons]
      cases hca : c (t.key a) with
      | false => simp
      | true =>
        simp only [if_true]
        rw [copyResponse_good (hg a hmem) hr (by omega), Out.ok_bind,
          ih (j + 1) (it + 1) (recs ++ [mkRec t heap a]) (by simp [hr]) (by omega)]
        simp

theorem memBackward_good {cb : Callbacks} {t : Transform} {heap n : Nat} {all : List Triple}
    (hg : ∀ a ∈ all, Good cb t a) (r j it : Nat) (recs : List Rec)
    (hr : recs.length = j) (hn : r + j ≤ n) (hit : it < all.length) :
    memBackward (copyResponse cb heap n) (all.map (entry t)) r j it ⟨dsUnset, recs⟩ =
      .ok ⟨dsUnset, recs ++ ((all.take (it + 1)).reverse.take r).map (mkRec t heap)⟩ := by
  induction r generalizing j it recs with
  | zero => simp [memBackward]
  | succ r ih =>
    unfold memBackward
    have ha : all[it]? = some all[it] := List.getElem?_eq_getElem hit
    have hmem : all[it] ∈ all := List.getElem_mem hit
    have ht : (all.take (it + 1)).reverse = all[it] :: (all.take it).reverse := by
      rw [List.take_succ_eq_append_getElem hit]; simp
    rw [getElem?_map_entry, ha]
    simp only [Option.map_some]
    rw [copyResponse_good (hg _ hmem) hr (by omega), Out.ok_bind, ht]
    by_cases h0 : it = 0
    · subst h0; simp
    · rw [if_neg h0, ih (j + 1) (it - 1) (recs ++ [mkRec t heap all[it]]) (by simp [hr]) (by omega) (by omega)]
      rw [show it - 1 + 1 = it by omega]
      simp

/-- A LevelDB iterator with `m` entries up to and including its own, not valid for `m = 0`. -/
def iterAt (m : Nat) : Option Nat := if m = 0 then none else some (m - 1)

theorem levelBackward_good {cb : Callbacks} {t : Transform} {heap n : Nat} {all : List Triple}
    (hg : ∀ a ∈ all, Good cb t a) {cond : Bytes → Out Bool} {c : Bytes → Bool}
    (hc : ∀ a ∈ all, cond (t.key a) = .ok (c (t.key a))) (r j m : Nat) (recs : List Rec)
    (hr : recs.length = j) (hn : r + j ≤ n) (hm : m ≤ all.length) :
    levelBackward (copyResponse cb heap n) cond (all.map (entry t)) r j (iterAt m) ⟨dsUnset, recs⟩ =
      .ok ⟨dsUnset, recs ++ (((all.take m).reverse.takeWhile (fun a => c (t.key a))).take r).map (mkRec t heap)⟩ := by
  induction r generalizing j m recs with
  | zero => simp [levelBackward]
  | succ r ih =>
    unfold levelBackward
    cases m with
    | zero => simp [iterAt]
    | succ m =>
      have hlt : m < all.length := by omega
      have ha : all[m]? = some all[m] := List.getElem?_eq_getElem hlt
      have hmem : all[m] ∈ all := List.getElem_mem hlt
      have ht : (all.take (m + 1)).reverse = all[m] :: (all.take m).reverse := by
        rw [List.take_succ_eq_append_getElem hlt]; simp
      have hi : (iterAt (m + 1)).bind (fun i => (all.map (entry t))[i]?.map (fun kv => (i, kv))) =
          some (m, entry t all[m]) := by
        simp only [iterAt, Nat.add_one_ne_zero, if_false, Option.bind_some, Nat.add_sub_cancel, getElem?_map_entry, ha,
          Option.map_some]
      rw [hi]
      simp only
      rw [show (entry t all[m]).1 = t.key all[m] from rfl, hc _ hmem, Out.ok_bind, ht, List.takeWhile_cons]
      cases hca : c (t.key all[m]) with
      | false => simp
      | true =>
        simp only [if_true]
        rw [copyResponse_good (hg _ hmem) hr (by omega), Out.ok_bind]
        rw [show (if m = 0 then none else some (m - 1)) = iterAt m from rfl,
          ih (j + 1) m (recs ++ [mkRec t heap all[m]]) (by simp [hr]) (by omega) (by omega)]
        simp

theorem memHighest_good {cb : Callbacks} {t : Transform} {heap n : Nat} {all : List Triple}
    (hg : ∀ a ∈ all, Good cb t a) {cond : Bytes → Out Bool} {c : Bytes → Bool}
    (hc : ∀ a ∈ all, cond (t.key a) = .ok (c (t.key a))) (r j it : Nat) (recs : List Rec)
    (hr : recs.length = j) (hn : r + j ≤ n) (hit : it < all.length) :
    memHighest (copyResponse cb heap n) cond (all.map (entry t)) r j it ⟨dsUnset, recs⟩ =
      .ok ⟨dsUnset, recs ++ ((((all.take (it + 1)).drop 1).reverse.takeWhile (fun a => c (t.key a))).take r).map
        (mkRec t heap)⟩ := by
  induction r generalizing j it recs with
  | zero => simp [memHighest]
  | succ r ih =>
    unfold memHighest
    cases it with
    | zero =>
      rw [if_pos rfl]
      have : (all.take (0 + 1)).drop 1 = [] := by
        apply List.drop_eq_nil_of_le; simp; omega
      simp [this]
    | succ m =>
      rw [if_neg (Nat.add_one_ne_zero m)]
      have ha : all[m + 1]? = some all[m + 1] := List.getElem?_eq_getElem hit
      have hmem : all[m + 1] ∈ all := List.getElem_mem hit
      have ht : ((all.take (m + 1 + 1)).drop 1).reverse = all[m + 1] :: ((all.take (m + 1)).drop 1).reverse := by
        rw [List.take_succ_eq_append_getElem hit, List.drop_append_of_le_length (by simp; omega)]; simp
      rw [getElem?_map_entry, ha]
      simp only [Option.map_some]
      rw [show (entry t all[m + 1]).1 = t.key all[m + 1] from rfl, hc _ hmem, Out.ok_bind, ht, List.takeWhile_cons]
      cases hca : c (t.key all[m + 1]) with
      | false => simp
      | true =>
        simp only [if_true]
        rw [copyResponse_good (hg _ hmem) hr (by omega), Out.ok_bind, Nat.add_sub_cancel,
          ih (j + 1) m (recs ++ [mkRec t heap all[m + 1]]) (by simp [hr]) (by omega) (by omega)]
        simp

/-! ## Searching -/

theorem takeWhile_split {α : Type} {p : α → Bool} {a b : List α} (ha : ∀ x ∈ a, p x = true)
    (hb : ∀ x, b.head? = some x → p x = false) : (a ++ b).takeWhile p = a := by
  induction a with
  | nil =>
    cases b with
    | nil => rfl
    | cons y b => simp [hb y rfl]
  | cons x a ih =>
    simp only [List.cons_append, List.takeWhile_cons, ha x List.mem_cons_self, if_true]
    rw [ih (fun y hy => ha y (List.mem_cons_of_mem _ hy))]

theorem takeWhile_true {α : Type} (l : List α) : l.takeWhile (fun _ => true) = l := by
  induction l with
  | nil => rfl
  | cons x l ih => rw [List.takeWhile_cons, if_pos rfl, ih]

theorem lowerBound_entry (t : Transform) (all : List Triple) (k : Bytes) :
    lowerBound (all.map (entry t)) k = (all.takeWhile (fun a => t.key a < k)).length := by
  unfold lowerBound
  rw [List.takeWhile_map, List.length_map]
  rfl

theorem upperBound_entry (t : Transform) (all : List Triple) (k : Bytes) :
    upperBound (all.map (entry t)) k = (all.takeWhile (fun a => t.key a ≤ k)).length := by
  unfold upperBound
  rw [List.takeWhile_map, List.length_map]
  rfl

theorem drop_takeWhile {α : Type} (p : α → Bool) (l : List α) : l.drop (l.takeWhile p).length = l.dropWhile p := by
  induction l with
  | nil => rfl
  | cons x l ih => cases h : p x <;> simp [h, ih]

theorem take_takeWhile {α : Type} (p : α → Bool) (l : List α) : l.take (l.takeWhile p).length = l.takeWhile p := by
  induction l with
  | nil => rfl
  | cons x l ih => cases h : p x <;> simp [h, ih]

/-- What sorts between a prefix and an extension of it starts with the prefix. -/
theorem lt_of_lt_append {k pre x : Bytes} (h : k < pre ++ x) (hp : ¬ pre <+: k) : k < pre := by
  induction pre generalizing k with
  | nil => exact absurd (List.nil_prefix) hp
  | cons c pre ih =>
    cases k with
    | nil => exact List.Lex.nil
    | cons b k =>
      rw [List.cons_append] at h
      rcases List.cons_lt_cons_iff.mp h with h1 | ⟨h1, h2⟩
      · exact List.Lex.rel h1
      · subst h1
        exact List.Lex.cons (ih h2 (fun hp' => hp (List.cons_prefix_cons.mpr ⟨rfl, hp'⟩)))

theorem not_lt_of_prefix {pre k : Bytes} (h : pre <+: k) : ¬ k < pre := by
  obtain ⟨x, rfl⟩ := h
  intro hlt
  by_cases hx : x = []
  · subst hx; rw [List.append_nil] at hlt; exact bytes_lt_irrefl _ hlt
  · exact bytes_lt_asymm hlt (lt_append_of_ne_nil pre hx)

theorem lt_of_lt_prefix {k pre x : Bytes} (h : k < pre) (hp : pre <+: x) : k < x := by
  obtain ⟨z, rfl⟩ := hp
  by_cases hz : z = []
  · subst hz; rwa [List.append_nil]
  · exact bytes_lt_trans h (lt_append_of_ne_nil pre hz)

theorem prefix_getSeek (cb : Callbacks) (pre : Bytes) (pl ty : Nat) : pre <+: getSeek cb pre pl ty := by
  unfold getSeek; split <;> exact List.prefix_append _ _

theorem dropWhile_sorted {t : Transform} {all : List Triple} {seek : Bytes}
    (h : all.Pairwise (fun a b => t.key a < t.key b)) :
    ∀ a ∈ all.dropWhile (fun a => decide (t.key a < seek)), ¬ t.key a < seek := by
  induction all with
  | nil => simp
  | cons x l ih =>
    have h' := List.pairwise_cons.mp h
    by_cases hx : t.key x < seek
    · rw [List.dropWhile_cons_of_pos (by simpa using hx)]; exact ih h'.2
    · rw [List.dropWhile_cons_of_neg (by simpa using hx)]
      intro a ha
      rcases List.mem_cons.mp ha with rfl | ha
      · exact hx
      · exact fun hlt => hx (bytes_lt_trans (h'.1 a ha) hlt)

theorem takeWhile_imp {α : Type} {p : α → Bool} {l : List α} {a : α} (h : a ∈ l.takeWhile p) : p a = true := by
  induction l with
  | nil => cases h
  | cons x l ih =>
    by_cases hx : p x = true
    · rw [List.takeWhile_cons_of_pos hx] at h
      rcases List.mem_cons.mp h with rfl | h
      · exact hx
      · exact ih h
    · rw [List.takeWhile_cons_of_neg hx] at h; cases h

/-! ## At most `n` records -/

theorem length_copyResponse {cb : Callbacks} {heap n j : Nat} {g g' : G} {kv : Bytes × Bytes} (hg : g.recs.length ≤ n)
    (h : copyResponse cb heap n g j kv = .ok g') : g'.recs.length ≤ n := by
  unfold copyResponse at h
  split at h
  · cases h; exact hg
  · cases h1 : Key.keyToSp kv.1 with
    | err => rw [h1] at h; cases h
    | ub => rw [h1] at h; cases h
    | ok sp =>
      cases h2 : removeType kv.2 with
      | err => rw [h1, h2] at h; cases h
      | ub => rw [h1, h2] at h; cases h
      | ok ot =>
        simp only [h1, h2, Out.ok_bind] at h
        cases h3 : cb.decode sp.1 with
        | err => rw [h3] at h; cases h
        | ub => rw [h3] at h; cases h
        | ok s =>
          simp only [h3, Out.ok_bind] at h
          cases s with
          | none => cases h; exact hg
          | some s =>
            simp only at h
            cases h4 : cb.decode sp.2 with
            | err => rw [h4] at h; cases h
            | ub => rw [h4] at h; cases h
            | ok p =>
              simp only [h4, Out.ok_bind] at h
              cases p with
              | none => cases h; exact hg
              | some p =>
                simp only at h
                cases h5 : cb.decode ⟨ot.1, ot.2⟩ with
                | err => rw [h5] at h; cases h
                | ub => rw [h5] at h; cases h
                | ok o =>
                  simp only [h5, Out.ok_bind] at h
                  cases o with
                  | none => cases h; exact hg
                  | some o =>
                    simp only at h
                    split at h
                    · cases h
                    · cases h; simp; omega

/-- A step that keeps the bound. -/
def Keeps (n : Nat) (visit : G → Nat → Bytes × Bytes → Out G) : Prop :=
  ∀ g j kv g', g.recs.length ≤ n → visit g j kv = .ok g' → g'.recs.length ≤ n

theorem length_forward {n : Nat} {visit : G → Nat → Bytes × Bytes → Out G} (hv : Keeps n visit)
    {cond : Bytes → Out Bool} {db : Db} (r j it : Nat) (g g' : G) (hg : g.recs.length ≤ n)
    (h : forward visit cond db r j it g = .ok g') : g'.recs.length ≤ n := by
  induction r generalizing j it g with
  | zero => cases h; exact hg
  | succ r ih =>
    unfold forward at h
    cases h1 : db[it]? with
    | none => rw [h1] at h; cases h; exact hg
    | some kv =>
      simp only [h1] at h
      cases h2 : cond kv.1 with
      | err => rw [h2] at h; cases h
      | ub => rw [h2] at h; cases h
      | ok c =>
        simp only [h2, Out.ok_bind] at h
        cases c with
        | false => cases h; exact hg
        | true =>
          simp only [if_true] at h
          cases h3 : visit g j kv with
          | err => rw [h3] at h; cases h
          | ub => rw [h3] at h; cases h
          | ok g1 => rw [h3, Out.ok_bind] at h; exact ih _ _ _ (hv _ _ _ _ hg h3) h

theorem length_memBackward {n : Nat} {visit : G → Nat → Bytes × Bytes → Out G} (hv : Keeps n visit)
    {db : Db} (r j it : Nat) (g g' : G) (hg : g.recs.length ≤ n)
    (h : memBackward visit db r j it g = .ok g') : g'.recs.length ≤ n := by
  induction r generalizing j it g with
  | zero => cases h; exact hg
  | succ r ih =>
    unfold memBackward at h
    cases h1 : db[it]? with
    | none => rw [h1] at h; cases h
    | some kv =>
      simp only [h1] at h
      cases h3 : visit g j kv with
      | err => rw [h3] at h; cases h
      | ub => rw [h3] at h; cases h
      | ok g1 =>
        rw [h3, Out.ok_bind] at h
        split at h
        · cases h; exact hv _ _ _ _ hg h3
        · exact ih _ _ _ (hv _ _ _ _ hg h3) h

theorem length_memHighest {n : Nat} {visit : G → Nat → Bytes × Bytes → Out G} (hv : Keeps n visit)
    {cond : Bytes → Out Bool} {db : Db} (r j it : Nat) (g g' : G) (hg : g.recs.length ≤ n)
    (h : memHighest visit cond db r j it g = .ok g') : g'.recs.length ≤ n := by
  induction r generalizing j it g with
  | zero => cases h; exact hg
  | succ r ih =>
    unfold memHighest at h
    split at h
    · cases h; exact hg
    · cases h1 : db[it]? with
      | none => rw [h1] at h; cases h
      | some kv =>
        simp only [h1] at h
        cases h2 : cond kv.1 with
        | err => rw [h2] at h; cases h
        | ub => rw [h2] at h; cases h
        | ok c =>
          simp only [h2, Out.ok_bind] at h
          cases c with
          | false => cases h; exact hg
          | true =>
            simp only [if_true] at h
            cases h3 : visit g j kv with
            | err => rw [h3] at h; cases h
            | ub => rw [h3] at h; cases h
            | ok g1 => rw [h3, Out.ok_bind] at h; exact ih _ _ _ (hv _ _ _ _ hg h3) h

theorem length_levelBackward {n : Nat} {visit : G → Nat → Bytes × Bytes → Out G} (hv : Keeps n visit)
    {cond : Bytes → Out Bool} {db : Db} (r j : Nat) (it : Option Nat) (g g' : G) (hg : g.recs.length ≤ n)
    (h : levelBackward visit cond db r j it g = .ok g') : g'.recs.length ≤ n := by
  induction r generalizing j it g with
  | zero => cases h; exact hg
  | succ r ih =>
    unfold levelBackward at h
    cases h1 : it.bind (fun i => db[i]?.map (fun kv => (i, kv))) with
    | none => rw [h1] at h; cases h; exact hg
    | some ikv =>
      obtain ⟨i, kv⟩ := ikv
      simp only [h1] at h
      cases h2 : cond kv.1 with
      | err => rw [h2] at h; cases h
      | ub => rw [h2] at h; cases h
      | ok c =>
        simp only [h2, Out.ok_bind] at h
        cases c with
        | false => cases h; exact hg
        | true =>
          simp only [if_true] at h
          cases h3 : visit g j kv with
          | err => rw [h3] at h; cases h
          | ub => rw [h3] at h; cases h
          | ok g1 => rw [h3, Out.ok_bind] at h; exact ih _ _ _ (hv _ _ _ _ hg h3) h

theorem length_opOf {b : Backend} {cb : Callbacks} {heap : Nat} {db : Db} {x : GetOpItem} {pre : Bytes} {pl : Nat}
    {g : G} (h : (match b with
      | .mem => memOp cb heap db x pre pl
      | .level => levelOp cb heap db x pre pl) = .ok g) : g.recs.length ≤ x.numRecs := by
  have hv : Keeps x.numRecs (copyResponse cb heap x.numRecs) := fun g j kv g' hg h => length_copyResponse hg h
  have h0 : ([] : List Rec).length ≤ x.numRecs := Nat.zero_le _
  cases b with
  | mem =>
    simp only [memOp] at h
    repeat' split at h
    all_goals first
      | (cases h; exact h0)
      | cases h
      | exact length_copyResponse h0 h
      | exact length_forward hv _ _ _ _ _ h0 h
      | exact length_memBackward hv _ _ _ _ _ h0 h
      | exact length_memHighest hv _ _ _ _ _ h0 h
  | level =>
    simp only [levelOp] at h
    repeat' split at h
    all_goals first
      | (cases h; exact h0)
      | cases h
      | exact length_copyResponse h0 h
      | exact length_forward hv _ _ _ _ _ h0 h
      | exact length_levelBackward hv _ _ _ _ _ h0 h

theorem finish_status {x : GetOpItem} {s : Int} {recs : List Rec} {r : GetOpRes} (hs : s ≠ dsUnset)
    (h : finish x ⟨s, recs⟩ = .ok r) : r.status = s := by
  unfold finish at h
  rw [if_neg hs] at h
  split at h
  · cases h
  · cases h; rfl

/-! ## The operations -/

/-- The operation of either backend. -/
def opOf (b : Backend) (cb : Callbacks) (heap : Nat) (db : Db) (x : GetOpItem) (pre : Bytes) (pl : Nat) : Out G :=
  match b with
  | .mem => memOp cb heap db x pre pl
  | .level => levelOp cb heap db x pre pl

theorem getOpItem_nokey (b : Backend) (cb : Callbacks) (heap : Nat) (db : Db) {x : GetOpItem}
    (h : hasKey x.op = false) : getOpItem b cb heap db x = (opOf b cb heap db x [] 0 >>= finish x) := by
  unfold getOpItem loopInit
  rw [h]
  simp only [Bool.false_eq_true, if_false, Out.ok_bind, if_true]
  cases b <;> rfl

theorem getOpItem_key (b : Backend) {cb : Callbacks} (heap : Nat) (db : Db) {x : GetOpItem}
    (h : hasKey x.op = true) {es : Bytes} {ep : Option Bytes} (hs : cb.encode x.subject = .ok (some es))
    (hp : cb.encode x.predicate = .ok ep) :
    getOpItem b cb heap db x = (opOf b cb heap db x (es ++ ep.getD []) (ep.getD []).length >>= finish x) := by
  unfold getOpItem loopInit
  rw [h]
  simp only [if_true, hs, hp, Out.ok_bind]
  cases b <;> rfl

theorem finish_ok (x : GetOpItem) (recs : List Rec) : finish x ⟨dsUnset, recs⟩ = .ok ⟨dsSuccess, recs⟩ := by
  unfold finish; rw [if_pos rfl]

theorem finish_error {x : GetOpItem} (hn : 0 < x.numRecs) :
    finish x ⟨dsError, []⟩ = .ok ⟨dsError, [⟨x.subject, x.predicate, Blob.null⟩]⟩ := by
  unfold finish
  rw [if_neg (by decide), if_neg (by simp; omega)]
  rfl

theorem always_ok (a : Bytes) : always a = .ok true := rfl

section
variable {cb : Callbacks} {t : Transform} {heap : Nat} {all : List Triple} (hg : ∀ a ∈ all, Good cb t a)
include hg

theorem op_first (b : Backend) {x : GetOpItem} (hop : x.op = goFirst) (pre : Bytes) (pl : Nat) :
    opOf b cb heap (all.map (entry t)) x pre pl =
      if all = [] then .ok ⟨dsError, []⟩ else .ok ⟨dsUnset, (all.take x.numRecs).map (mkRec t heap)⟩ := by
  have hf := forward_good (heap := heap) (n := x.numRecs) hg (cond := always) (c := fun _ => true)
    (fun _ _ => rfl) x.numRecs 0 0 [] rfl (by omega)
  have hw := takeWhile_true all
  simp only [List.drop_zero, hw, List.nil_append] at hf
  cases b <;>
  · simp only [opOf, memOp, levelOp, hop]
    rw [if_neg (by decide), if_neg (by decide), if_neg (by decide), if_pos trivial, hf]
    cases all <;> simp

theorem op_last_level {x : GetOpItem} (hop : x.op = goLast) (pre : Bytes) (pl : Nat) :
    opOf .level cb heap (all.map (entry t)) x pre pl =
      if all = [] then .ok ⟨dsError, []⟩ else .ok ⟨dsUnset, (all.reverse.take x.numRecs).map (mkRec t heap)⟩ := by
  simp only [opOf, levelOp, hop]
  rw [if_neg (by decide), if_neg (by decide), if_neg (by decide), if_neg (by decide), if_pos trivial]
  by_cases h0 : all = []
  · subst h0; simp
  · have hl : 0 < all.length := List.length_pos_iff.mpr h0
    have hf := levelBackward_good (heap := heap) (n := x.numRecs) hg (cond := always) (c := fun _ => true)
      (fun _ _ => rfl) x.numRecs 0 all.length [] rfl (by omega) (Nat.le_refl _)
    have hw := takeWhile_true all.reverse
    simp only [List.take_length, hw, List.nil_append] at hf
    rw [if_neg h0, List.length_map, if_pos hl, ← hf, iterAt, if_neg (by omega)]

theorem op_last_mem {x : GetOpItem} (hop : x.op = goLast) (pre : Bytes) (pl : Nat) (h0 : all ≠ []) :
    opOf .mem cb heap (all.map (entry t)) x pre pl =
      .ok ⟨dsUnset, (all.reverse.take x.numRecs).map (mkRec t heap)⟩ := by
  have hl : 0 < all.length := List.length_pos_iff.mpr h0
  simp only [opOf, memOp, hop]
  rw [if_neg (by decide), if_neg (by decide), if_neg (by decide), if_neg (by decide), if_pos trivial, List.length_map,
    if_neg (by omega), memBackward_good hg x.numRecs 0 _ [] rfl (by omega) (by omega)]
  rw [show all.length - 1 + 1 = all.length by omega, List.take_length, List.nil_append]

theorem op_eq (b : Backend) {x : GetOpItem} (hop : x.op = goEq) (pre : Bytes) (pl : Nat) (hn : 0 < x.numRecs) :
    opOf b cb heap (all.map (entry t)) x pre pl =
      match all.dropWhile (fun a => t.key a < pre) with
      | [] => .ok ⟨dsError, []⟩
      | a :: _ => .ok ⟨dsUnset, [mkRec t heap a]⟩ := by
  have hd := drop_takeWhile (fun a => decide (t.key a < pre)) all
  cases b <;>
  · simp only [opOf, memOp, levelOp, hop]
    rw [if_pos trivial, lowerBound_entry, getElem?_map_entry]
    rw [← List.head?_drop, hd]
    cases hc : all.dropWhile (fun a => decide (t.key a < pre)) with
    | nil => simp
    | cons a l =>
      have : a ∈ all := (List.dropWhile_sublist _).subset (by rw [hc]; exact List.mem_cons_self)
      simp only [List.head?_cons, Option.map_some]
      exact copyResponse_good (recs := []) (hg a this) rfl hn

theorem op_next (b : Backend) {x : GetOpItem} (hop : x.op = goNext) (pre : Bytes) (pl : Nat) :
    opOf b cb heap (all.map (entry t)) x pre pl =
      if all.dropWhile (fun a => t.key a < pre) = [] then .ok ⟨dsError, []⟩
      else .ok ⟨dsUnset, ((all.dropWhile (fun a => t.key a < pre)).take x.numRecs).map (mkRec t heap)⟩ := by
  have hd := drop_takeWhile (fun a => decide (t.key a < pre)) all
  have hf := forward_good (heap := heap) (n := x.numRecs) hg (cond := always) (c := fun _ => true)
    (fun _ _ => rfl) x.numRecs 0 (all.takeWhile (fun a => decide (t.key a < pre))).length [] rfl (by omega)
  have hw := @takeWhile_true Triple
  rw [hw, hd, List.nil_append] at hf
  cases b <;>
  · simp only [opOf, memOp, levelOp, hop]
    rw [if_neg (by decide), if_pos trivial, lowerBound_entry, hf, List.length_map]
    by_cases h0 : all.dropWhile (fun a => decide (t.key a < pre)) = []
    · rw [if_pos h0, if_neg]
      rw [← hd, List.drop_eq_nil_iff] at h0; omega
    · rw [if_neg h0, if_pos]
      rw [← hd, List.drop_eq_nil_iff] at h0; omega

theorem op_prev (b : Backend) {x : GetOpItem} (hop : x.op = goPrev) (pre : Bytes) (pl : Nat) :
    opOf b cb heap (all.map (entry t)) x pre pl =
      if all.dropWhile (fun a => t.key a < pre) = [] then .ok ⟨dsError, []⟩
      else .ok ⟨dsUnset, ((all.take ((all.takeWhile (fun a => t.key a < pre)).length + 1)).reverse.take x.numRecs).map
        (mkRec t heap)⟩ := by
  have hd := drop_takeWhile (fun a => decide (t.key a < pre)) all
  by_cases h0 : all.dropWhile (fun a => decide (t.key a < pre)) = []
  · rw [if_pos h0]
    rw [← hd, List.drop_eq_nil_iff] at h0
    cases b <;>
    · simp only [opOf, memOp, levelOp, hop]
      rw [if_neg (by decide), if_neg (by decide), if_pos trivial, lowerBound_entry, List.length_map, if_neg (by omega)]
  · rw [if_neg h0]
    rw [← hd, List.drop_eq_nil_iff] at h0
    cases b with
    | mem =>
      simp only [opOf, memOp, hop]
      rw [if_neg (by decide), if_neg (by decide), if_pos trivial, lowerBound_entry, List.length_map, if_pos (by omega),
        memBackward_good hg x.numRecs 0 _ [] rfl (by omega) (by omega)]
      rfl
    | level =>
      have hf := levelBackward_good (heap := heap) (n := x.numRecs) hg (cond := always) (c := fun _ => true)
        (fun _ _ => rfl) x.numRecs 0 ((all.takeWhile (fun a => decide (t.key a < pre))).length + 1) [] rfl (by omega)
        (by omega)
      have hw := @takeWhile_true Triple
      rw [hw, List.nil_append, iterAt, if_neg (by omega), Nat.add_sub_cancel] at hf
      simp only [opOf, levelOp, hop]
      rw [if_neg (by decide), if_neg (by decide), if_pos trivial, lowerBound_entry, List.length_map, if_pos (by omega), hf]

theorem op_lowest (b : Backend) {x : GetOpItem} (hop : x.op = goLowest) (pre : Bytes) (pl : Nat)
    (hlen : b = .mem → ∀ a ∈ all, pre.length ≤ (t.key a).length) :
    opOf b cb heap (all.map (entry t)) x pre pl =
      (let rest := all.dropWhile (fun a => t.key a < getSeek cb pre pl x.predicate.typ)
      if rest = [] then .ok ⟨dsError, []⟩
      else .ok ⟨dsUnset, ((rest.takeWhile (fun a => pre.isPrefixOf (t.key a))).take x.numRecs).map (mkRec t heap)⟩) := by
  simp only
  generalize hseek : getSeek cb pre pl x.predicate.typ = seek
  have hd := drop_takeWhile (fun a => decide (t.key a < seek)) all
  have hif : ∀ (y z : Out G), (if (all.takeWhile (fun a => decide (t.key a < seek))).length < all.length then y else z) =
      if all.dropWhile (fun a => decide (t.key a < seek)) = [] then z else y := by
    intro y z
    by_cases h0 : all.dropWhile (fun a => decide (t.key a < seek)) = []
    · rw [if_pos h0, if_neg]; rw [← hd, List.drop_eq_nil_iff] at h0; omega
    · rw [if_neg h0, if_pos]; rw [← hd, List.drop_eq_nil_iff] at h0; omega
  cases b with
  | mem =>
    have hc : ∀ a ∈ all, memcmpPrefix pre (t.key a) = .ok (pre.isPrefixOf (t.key a)) := by
      intro a ha
      unfold memcmpPrefix
      rw [if_neg (by have := hlen rfl a ha; omega)]
      congr 1
      rw [Bool.eq_iff_iff, decide_eq_true_iff, List.isPrefixOf_iff_prefix, List.prefix_iff_eq_take]
      exact eq_comm
    have hf := forward_good (heap := heap) (n := x.numRecs) hg hc x.numRecs 0
      (all.takeWhile (fun a => decide (t.key a < seek))).length [] rfl (by omega)
    rw [hd, List.nil_append] at hf
    simp only [opOf, memOp, hop, hseek]
    rw [if_neg (by decide), if_neg (by decide), if_neg (by decide), if_neg (by decide), if_neg (by decide), if_pos trivial,
      lowerBound_entry, hf, List.length_map, hif]
  | level =>
    have hf := forward_good (heap := heap) (n := x.numRecs) hg (cond := startsWith pre) (c := fun k => pre.isPrefixOf k)
      (fun _ _ => rfl) x.numRecs 0
      (all.takeWhile (fun a => decide (t.key a < seek))).length [] rfl (by omega)
    rw [hd, List.nil_append] at hf
    simp only [opOf, levelOp, hop, hseek]
    rw [if_neg (by decide), if_neg (by decide), if_neg (by decide), if_neg (by decide), if_neg (by decide), if_pos trivial,
      lowerBound_entry, hf, List.length_map, hif]

theorem op_highest_level {x : GetOpItem} (hop : x.op = goHighest) (pre : Bytes) (pl : Nat) :
    opOf .level cb heap (all.map (entry t)) x pre pl =
      (let before := all.takeWhile (fun a => t.key a < getSeek cb pre pl x.predicate.typ)
      if before = [] then .ok ⟨dsError, []⟩
      else .ok ⟨dsUnset, ((before.reverse.takeWhile (fun a => pre.isPrefixOf (t.key a))).take x.numRecs).map
        (mkRec t heap)⟩) := by
  simp only
  generalize hseek : getSeek cb pre pl x.predicate.typ = seek
  have ht := take_takeWhile (fun a => decide (t.key a < seek)) all
  have hle : (all.takeWhile (fun a => decide (t.key a < seek))).length ≤ all.length :=
    (List.takeWhile_sublist _).length_le
  have hf := fun m hm => levelBackward_good (heap := heap) (n := x.numRecs) hg (cond := startsWith pre)
    (c := fun k => pre.isPrefixOf k) (fun _ _ => rfl) x.numRecs 0 m [] rfl (by omega) hm
  simp only [opOf, levelOp, hop, hseek]
  rw [if_neg (by decide), if_neg (by decide), if_neg (by decide), if_neg (by decide), if_neg (by decide),
    if_neg (by decide), if_pos trivial, lowerBound_entry, List.length_map]
  have hz : all.takeWhile (fun a => decide (t.key a < seek)) = [] ↔
      (all.takeWhile (fun a => decide (t.key a < seek))).length = 0 := List.length_eq_zero_iff.symm
  have h1 := hf _ hle
  rw [ht, List.nil_append, iterAt] at h1
  by_cases h0 : (all.takeWhile (fun a => decide (t.key a < seek))).length = 0
  · rw [if_pos (hz.mpr h0), h0]
    by_cases hl : 0 < all.length
    · simp [hl]
    · simp [hl]
  · rw [if_neg (fun h => h0 (hz.mp h))]
    rw [if_neg h0] at h1
    by_cases hl : (all.takeWhile (fun a => decide (t.key a < seek))).length < all.length
    · rw [if_pos hl, if_neg h0, h1]
    · rw [if_neg hl, if_pos (by omega),
        show all.length = (all.takeWhile (fun a => decide (t.key a < seek))).length by omega, h1]

theorem op_highest_mem {x : GetOpItem} (hop : x.op = goHighest) (pre : Bytes) (pl : Nat)
    (hlen : ∀ a ∈ all, pre.length ≤ (t.key a).length) :
    opOf .mem cb heap (all.map (entry t)) x pre pl =
      (let before := all.takeWhile (fun a => t.key a ≤ getSeek cb pre pl x.predicate.typ)
      if before.length = all.length then .ok ⟨dsError, []⟩
      else if before = [] then .ub
      else .ok ⟨dsUnset, (((before.drop 1).reverse.takeWhile (fun a => pre.isPrefixOf (t.key a))).take x.numRecs).map
        (mkRec t heap)⟩) := by
  simp only
  generalize hseek : getSeek cb pre pl x.predicate.typ = seek
  have ht := take_takeWhile (fun a => decide (t.key a ≤ seek)) all
  have hle : (all.takeWhile (fun a => decide (t.key a ≤ seek))).length ≤ all.length :=
    (List.takeWhile_sublist _).length_le
  have hc : ∀ a ∈ all, memcmpPrefix pre (t.key a) = .ok (pre.isPrefixOf (t.key a)) := by
    intro a ha
    unfold memcmpPrefix
    rw [if_neg (by have := hlen a ha; omega)]
    congr 1
    rw [Bool.eq_iff_iff, decide_eq_true_iff, List.isPrefixOf_iff_prefix, List.prefix_iff_eq_take]
    exact eq_comm
  have hz : all.takeWhile (fun a => decide (t.key a ≤ seek)) = [] ↔
      (all.takeWhile (fun a => decide (t.key a ≤ seek))).length = 0 := List.length_eq_zero_iff.symm
  simp only [opOf, memOp, hop, hseek]
  rw [if_neg (by decide), if_neg (by decide), if_neg (by decide), if_neg (by decide), if_neg (by decide),
    if_neg (by decide), if_pos trivial, upperBound_entry, List.length_map]
  by_cases h1 : (all.takeWhile (fun a => decide (t.key a ≤ seek))).length = all.length
  · rw [if_pos h1, if_neg (by omega)]
  · rw [if_neg h1, if_pos (by omega)]
    by_cases h0 : (all.takeWhile (fun a => decide (t.key a ≤ seek))).length = 0
    · rw [if_pos h0, if_pos (hz.mpr h0)]
    · rw [if_neg h0, if_neg (fun h => h0 (hz.mp h)),
        memHighest_good hg hc x.numRecs 0 _ [] rfl (by omega) (by omega)]
      rw [show (all.takeWhile (fun a => decide (t.key a ≤ seek))).length - 1 + 1 =
        (all.takeWhile (fun a => decide (t.key a ≤ seek))).length by omega, ht, List.nil_append]

end

end Hx.Store

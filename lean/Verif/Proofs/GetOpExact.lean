import Verif.Proofs.GetOp
import Verif.Spec.GetOp

/-!
# Helper lemmas: the exact answers of GETOPs
-/

namespace Hx.Store
open Hx Msg Spec

/-! ## Sorted lists -/

theorem takeWhile_filter {α : Type} {lt : α → α → Prop} {q : α → Bool} {l : List α} (h : l.Pairwise lt)
    (hq : ∀ a b, lt a b → q b = true → q a = true) : l.takeWhile q = l.filter q := by
  induction l with
  | nil => rfl
  | cons x l ih =>
    have h' := List.pairwise_cons.mp h
    by_cases hx : q x = true
    · rw [List.takeWhile_cons_of_pos hx, List.filter_cons_of_pos hx, ih h'.2]
    · rw [List.takeWhile_cons_of_neg hx, List.filter_cons_of_neg hx]
      symm
      rw [List.filter_eq_nil_iff]
      exact fun y hy hqy => hx (hq _ _ (h'.1 y hy) hqy)

theorem dropWhile_filter {α : Type} {lt : α → α → Prop} {q : α → Bool} {l : List α} (h : l.Pairwise lt)
    (hq : ∀ a b, lt a b → q b = true → q a = true) : l.dropWhile q = l.filter (fun a => ! q a) := by
  induction l with
  | nil => rfl
  | cons x l ih =>
    have h' := List.pairwise_cons.mp h
    by_cases hx : q x = true
    · rw [List.dropWhile_cons_of_pos hx, List.filter_cons_of_neg (by simp [hx]), ih h'.2]
    · rw [List.dropWhile_cons_of_neg hx, List.filter_cons_of_pos (by simpa using hx)]
      congr 1
      symm
      rw [List.filter_eq_self]
      intro y hy
      have : ¬ q y = true := fun hqy => hx (hq _ _ (h'.1 y hy) hqy)
      simpa using this

section
variable {t : Transform} {all : List Triple} (hs : all.Pairwise (fun a b => t.key a < t.key b))
include hs

theorem below_take (k : Bytes) : all.takeWhile (fun a => decide (t.key a < k)) = all.filter (fun a => decide (t.key a < k)) :=
  takeWhile_filter hs (fun a b h hq => by simp only [decide_eq_true_eq] at *; exact bytes_lt_trans h hq)

theorem below_drop (k : Bytes) :
    all.dropWhile (fun a => decide (t.key a < k)) = all.filter (fun a => ! decide (t.key a < k)) :=
  dropWhile_filter hs (fun a b h hq => by simp only [decide_eq_true_eq] at *; exact bytes_lt_trans h hq)

theorem upto_take (k : Bytes) : all.takeWhile (fun a => decide (t.key a ≤ k)) = all.filter (fun a => ! decide (k < t.key a)) := by
  have h1 : (fun a : Triple => decide (t.key a ≤ k)) = fun a => ! decide (k < t.key a) := by
    funext a
    rw [Bool.eq_iff_iff]
    simp only [decide_eq_true_eq, Bool.not_eq_true', decide_eq_false_iff_not]
    exact Iff.rfl
  rw [h1]
  refine takeWhile_filter hs (fun a b h hq => ?_)
  simp only [Bool.not_eq_true', decide_eq_false_iff_not] at *
  exact fun hlt => hq (bytes_lt_trans hlt h)

/-- Among sorted keys not below `pre`, those starting with `pre` come first. -/
theorem block_first {pre : Bytes} (hge : ∀ a ∈ all, ¬ t.key a < pre) :
    all.takeWhile (fun a => pre.isPrefixOf (t.key a)) = all.filter (fun a => pre.isPrefixOf (t.key a)) := by
  induction all with
  | nil => rfl
  | cons x l ih =>
    have h' := List.pairwise_cons.mp hs
    by_cases hx : pre.isPrefixOf (t.key x) = true
    · rw [List.takeWhile_cons_of_pos (by exact hx), List.filter_cons_of_pos (by exact hx),
        ih h'.2 (fun a ha => hge a (List.mem_cons_of_mem _ ha))]
    · rw [List.takeWhile_cons_of_neg (by exact hx), List.filter_cons_of_neg (by exact hx)]
      symm
      rw [List.filter_eq_nil_iff]
      intro y hy hpy
      rw [List.isPrefixOf_iff_prefix] at hpy hx
      obtain ⟨z, hz⟩ := hpy
      have h1 := h'.1 y hy
      rw [← hz] at h1
      exact hge x List.mem_cons_self (lt_of_lt_append h1 hx)

/-- Among sorted keys at most `pre` with something behind it, those starting with `pre` come last. -/
theorem block_last {pre : Bytes} {seek : Bytes} (hp : pre <+: seek) (hle : ∀ a ∈ all, ¬ seek < t.key a) :
    all.reverse.takeWhile (fun a => pre.isPrefixOf (t.key a)) =
      (all.filter (fun a => pre.isPrefixOf (t.key a))).reverse := by
  rw [← List.filter_reverse]
  have hr : all.reverse.Pairwise (fun a b => t.key b < t.key a) := List.pairwise_reverse.mpr hs
  have hle' : ∀ a ∈ all.reverse, ¬ seek < t.key a := fun a ha => hle a (List.mem_reverse.mp ha)
  generalize all.reverse = l at hr hle'
  induction l with
  | nil => rfl
  | cons x l ih =>
    have h' := List.pairwise_cons.mp hr
    by_cases hx : pre.isPrefixOf (t.key x) = true
    · rw [List.takeWhile_cons_of_pos (by exact hx), List.filter_cons_of_pos (by exact hx),
        ih h'.2 (fun a ha => hle' a (List.mem_cons_of_mem _ ha))]
    · rw [List.takeWhile_cons_of_neg (by exact hx), List.filter_cons_of_neg (by exact hx)]
      symm
      rw [List.filter_eq_nil_iff]
      intro y hy hpy
      rw [List.isPrefixOf_iff_prefix] at hpy hx
      have h1 := h'.1 y hy
      obtain ⟨z, hz⟩ := hp
      -- `key x` is at most `seek`, so below `pre`
      have h2 : t.key x < pre := by
        rcases bytes_trichotomy (t.key x) seek with h3 | h3 | h3
        · exact lt_of_lt_append (by rw [hz]; exact h3) hx
        · exact absurd ⟨z, hz.trans h3.symm⟩ hx
        · exact absurd h3 (hle' x List.mem_cons_self)
      exact not_lt_of_prefix hpy (bytes_lt_trans h1 h2)

end

/-! ## `memcmp` that is defined -/

theorem memcmp_startsWith {pre k : Bytes} {c : Bool} (h : memcmpPrefix pre k = .ok c) : startsWith pre k = .ok c := by
  unfold memcmpPrefix at h
  split at h
  · cases h
  · cases h
    unfold startsWith
    congr 1
    rw [Bool.eq_iff_iff, decide_eq_true_iff, List.isPrefixOf_iff_prefix, List.prefix_iff_eq_take]
    exact eq_comm

theorem forward_imp {visit : G → Nat → Bytes × Bytes → Out G} {c c' : Bytes → Out Bool}
    (hc : ∀ k v, c k = .ok v → c' k = .ok v) {db : Db} {r j it : Nat} {g g' : G}
    (h : forward visit c db r j it g = .ok g') : forward visit c' db r j it g = .ok g' := by
  induction r generalizing j it g with
  | zero => exact h
  | succ r ih =>
    unfold forward at h ⊢
    cases hk : db[it]? with
    | none => rw [hk] at h; exact h
    | some kv =>
      simp only [hk] at h ⊢
      cases hv : c kv.1 with
      | err => rw [hv] at h; cases h
      | ub => rw [hv] at h; cases h
      | ok v =>
        rw [hc _ _ hv, Out.ok_bind]
        rw [hv, Out.ok_bind] at h
        cases v with
        | false => exact h
        | true =>
          simp only [if_true] at h ⊢
          cases hw : visit g j kv with
          | err => rw [hw] at h; cases h
          | ub => rw [hw] at h; cases h
          | ok g1 => rw [hw, Out.ok_bind] at h; rw [Out.ok_bind]; exact ih h

theorem memHighest_imp {visit : G → Nat → Bytes × Bytes → Out G} {c c' : Bytes → Out Bool}
    (hc : ∀ k v, c k = .ok v → c' k = .ok v) {db : Db} {r j it : Nat} {g g' : G}
    (h : memHighest visit c db r j it g = .ok g') : memHighest visit c' db r j it g = .ok g' := by
  induction r generalizing j it g with
  | zero => exact h
  | succ r ih =>
    unfold memHighest at h ⊢
    by_cases h0 : it = 0
    · rw [if_pos h0] at h ⊢; exact h
    rw [if_neg h0] at h ⊢
    cases hk : db[it]? with
    | none => rw [hk] at h; exact h
    | some kv =>
      simp only [hk] at h ⊢
      cases hv : c kv.1 with
      | err => rw [hv] at h; cases h
      | ub => rw [hv] at h; cases h
      | ok v =>
        rw [hc _ _ hv, Out.ok_bind]
        rw [hv, Out.ok_bind] at h
        cases v with
        | false => exact h
        | true =>
          simp only [if_true] at h ⊢
          cases hw : visit g j kv with
          | err => rw [hw] at h; cases h
          | ub => rw [hw] at h; cases h
          | ok g1 => rw [hw, Out.ok_bind] at h; rw [Out.ok_bind]; exact ih h

/-! ## The operations -/

section
variable {cb : Callbacks} {t : Transform} {heap : Nat} {all : List Triple} (hg : ∀ a ∈ all, Good cb t a)
  (hs : all.Pairwise (fun a b => t.key a < t.key b))
include hg hs

theorem op_lowest_ok (b : Backend) {x : GetOpItem} (hop : x.op = goLowest) (pre : Bytes) (pl : Nat) {g : G}
    (h : opOf b cb heap (all.map (entry t)) x pre pl = .ok g) :
    g = (if all.filter (fun a => ! decide (t.key a < getSeek cb pre pl x.predicate.typ)) = [] then ⟨dsError, []⟩
      else ⟨dsUnset, ((all.filter (fun a => ! decide (t.key a < getSeek cb pre pl x.predicate.typ) &&
        pre.isPrefixOf (t.key a))).take x.numRecs).map (mkRec t heap)⟩) := by
  have hl : opOf .level cb heap (all.map (entry t)) x pre pl = .ok g := by
    cases b with
    | level => exact h
    | mem =>
      simp only [opOf, memOp, levelOp, hop] at h ⊢
      rw [if_neg (by decide), if_neg (by decide), if_neg (by decide), if_neg (by decide), if_neg (by decide),
        if_pos trivial] at h ⊢
      split at h
      · rw [if_pos (by assumption)]
        exact forward_imp (fun _ _ => memcmp_startsWith) h
      · rw [if_neg (by assumption)]; exact h
  rw [op_lowest hg .level hop pre pl (by intro h; cases h)] at hl
  simp only [below_drop hs] at hl
  have hps := prefix_getSeek cb pre pl x.predicate.typ
  generalize getSeek cb pre pl x.predicate.typ = seek at hl hps ⊢
  rw [block_first (hs.sublist List.filter_sublist), List.filter_filter] at hl
  · split at hl
    · rw [if_pos (by assumption)]; cases hl; rfl
    · rw [if_neg (by assumption)]; cases hl
      congr 4
      funext a
      exact Bool.and_comm _ _
  · intro a ha hlt
    have h1 := (List.mem_filter.mp ha).2
    simp only [Bool.not_eq_true', decide_eq_false_iff_not] at h1
    exact h1 (lt_of_lt_prefix hlt hps)

theorem op_highest_level_eq {x : GetOpItem} (hop : x.op = goHighest) (pre : Bytes) (pl : Nat) :
    opOf .level cb heap (all.map (entry t)) x pre pl =
      .ok (if all.filter (fun a => decide (t.key a < getSeek cb pre pl x.predicate.typ)) = [] then ⟨dsError, []⟩
      else ⟨dsUnset, ((all.filter (fun a => decide (t.key a < getSeek cb pre pl x.predicate.typ) &&
        pre.isPrefixOf (t.key a))).reverse.take x.numRecs).map (mkRec t heap)⟩) := by
  rw [op_highest_level hg hop]
  simp only [below_take hs]
  have hps := prefix_getSeek cb pre pl x.predicate.typ
  generalize getSeek cb pre pl x.predicate.typ = seek at hps ⊢
  rw [block_last (hs.sublist List.filter_sublist) hps, List.filter_filter]
  · split
    · rfl
    · congr 6
      funext a
      exact Bool.and_comm _ _
  · intro a ha hlt
    have h1 := (List.mem_filter.mp ha).2
    simp only [decide_eq_true_eq] at h1
    exact bytes_lt_asymm h1 hlt

theorem op_highest_mem_ok {x : GetOpItem} (hop : x.op = goHighest) (pre : Bytes) (pl : Nat) {g : G}
    (h : opOf .mem cb heap (all.map (entry t)) x pre pl = .ok g) :
    g = (if all.filter (fun a => decide (getSeek cb pre pl x.predicate.typ < t.key a)) = [] then ⟨dsError, []⟩
      else ⟨dsUnset, (((all.drop 1).filter (fun a => ! decide (getSeek cb pre pl x.predicate.typ < t.key a) &&
        pre.isPrefixOf (t.key a))).reverse.take x.numRecs).map (mkRec t heap)⟩) := by
  have hps := prefix_getSeek cb pre pl x.predicate.typ
  simp only [opOf, memOp, hop] at h
  rw [if_neg (by decide), if_neg (by decide), if_neg (by decide), if_neg (by decide), if_neg (by decide),
    if_neg (by decide), if_pos trivial, upperBound_entry, List.length_map] at h
  generalize getSeek cb pre pl x.predicate.typ = seek at h hps ⊢
  have ht := take_takeWhile (fun a => decide (t.key a ≤ seek)) all
  have hu := upto_take hs seek
  have hnil : all.filter (fun a => decide (seek < t.key a)) = [] ↔
      (all.takeWhile (fun a => decide (t.key a ≤ seek))).length = all.length := by
    rw [hu]
    constructor
    · intro h0
      rw [List.filter_eq_self.mpr]
      intro a ha
      have := List.filter_eq_nil_iff.mp h0 a ha
      simpa using this
    · intro h0
      have h1 : all.filter (fun a => ! decide (seek < t.key a)) = all :=
        List.filter_sublist.eq_of_length h0
      rw [List.filter_eq_nil_iff]
      intro a ha
      have := List.filter_eq_self.mp h1 a ha
      simpa using this
  have hle : (all.takeWhile (fun a => decide (t.key a ≤ seek))).length ≤ all.length :=
    (List.takeWhile_sublist _).length_le
  by_cases h1 : (all.takeWhile (fun a => decide (t.key a ≤ seek))).length = all.length
  · rw [if_neg (by omega)] at h
    rw [if_pos (hnil.mpr h1)]
    cases h; rfl
  · rw [if_pos (by omega)] at h
    rw [if_neg (fun h0 => h1 (hnil.mp h0))]
    by_cases h0 : (all.takeWhile (fun a => decide (t.key a ≤ seek))).length = 0
    · rw [if_pos h0] at h; cases h
    · rw [if_neg h0] at h
      have h2 := memHighest_imp (fun _ _ => memcmp_startsWith) h
      rw [memHighest_good hg (cond := startsWith pre) (c := fun k => pre.isPrefixOf k) (fun _ _ => rfl) x.numRecs 0 _ []
        rfl (by omega) (by omega)] at h2
      rw [show (all.takeWhile (fun a => decide (t.key a ≤ seek))).length - 1 + 1 =
        (all.takeWhile (fun a => decide (t.key a ≤ seek))).length by omega, ht, List.nil_append] at h2
      have h3 : (all.takeWhile (fun a => decide (t.key a ≤ seek))).drop 1 =
          (all.drop 1).filter (fun a => ! decide (seek < t.key a)) := by
        cases all with
        | nil => rfl
        | cons y l =>
          have hy : decide (t.key y ≤ seek) = true := by
            cases hd : decide (t.key y ≤ seek) with
            | true => rfl
            | false => exact absurd (by rw [List.takeWhile_cons_of_neg (by simp [hd])]; rfl) h0
          rw [List.takeWhile_cons_of_pos (by exact hy)]
          exact upto_take (List.pairwise_cons.mp hs).2 seek
      rw [h3, block_last ((hs.sublist (List.drop_sublist _ _)).sublist List.filter_sublist) hps, List.filter_filter] at h2
      · cases h2
        congr 5
        funext a
        exact Bool.and_comm _ _
      · intro a ha hlt
        have h4 := (List.mem_filter.mp ha).2
        simp only [Bool.not_eq_true', decide_eq_false_iff_not] at h4
        exact h4 hlt

end

/-! ## Whole items -/

theorem finish_error_iff {x : GetOpItem} {r : GetOpRes} (h : finish x ⟨dsError, []⟩ = .ok r) :
    r.status = dsError ∧ r.recs = [⟨x.subject, x.predicate, Blob.null⟩] := by
  unfold finish at h
  rw [if_neg (by decide)] at h
  split at h
  · cases h
  · cases h; exact ⟨rfl, rfl⟩

theorem getSeek_startAt (cb : Callbacks) (pre ep : Bytes) (ty : Nat) :
    getSeek cb pre ep.length ty = startAt cb.neg pre (ep.isEmpty && numericTypes.contains ty) := by
  unfold getSeek startAt
  have h1 : isNumeric ty = numericTypes.contains ty := by
    simp only [isNumeric, numericTypes, List.contains_cons, List.contains_nil, tInt32, tInt64, tUint32, tUint64, tFloat,
      tDouble, Bool.or_false, Bool.or_assoc]
  rw [h1]
  by_cases h2 : ep = []
  · subst h2; simp
  · rw [if_neg (by simp [h2]), if_neg (by simp [h2])]

/-- As `AnswersOp`, with addresses. -/
def ExactOp (t : Transform) (heap : Nat) (neg : UInt8) (b : Backend) (all : List Triple) (x : GetOpItem) (r : GetOpRes) : Prop :=
  match getOpAnswer t neg b all x.op x.subject.val x.predicate.val x.numRecs with
  | some l => r = ⟨dsSuccess, l.map (mkRec t heap)⟩
  | none => r.status = dsError ∧ r.recs = [⟨x.subject, x.predicate, Blob.null⟩]

theorem ExactOp.answers {t : Transform} {heap : Nat} {neg : UInt8} {b : Backend} {all : List Triple} {x : GetOpItem}
    {r : GetOpRes} (h : ExactOp t heap neg b all x r) : AnswersOp t neg b all x r := by
  unfold ExactOp at h
  unfold AnswersOp
  split
  · rename_i l hl
    rw [hl] at h
    simp only at h
    subst h
    exact ⟨rfl, map_recVals t heap l⟩
  · rename_i hl
    rw [hl] at h
    exact h

theorem getOpItem_exact {cb : Callbacks} {t : Transform} {heap : Nat} {all : List Triple}
    (hg : ∀ a ∈ all, Good cb t a) (hs : all.Pairwise (fun a b => t.key a < t.key b)) (b : Backend)
    {x : GetOpItem} (hk : x.op ≠ 3 → x.op ≠ 4 → cb.encode x.subject = .ok (t.E x.subject.val) ∧
      cb.encode x.predicate = .ok (t.E x.predicate.val)) {r : GetOpRes}
    (h : getOpItem b cb heap (all.map (entry t)) x = .ok r) : ExactOp t heap cb.neg b all x r := by
  unfold ExactOp getOpAnswer
  by_cases h3 : x.op = 3
  · rw [if_pos h3]
    rw [getOpItem_nokey b cb heap _ (by rw [h3]; rfl), op_first hg b h3] at h
    by_cases h0 : all = []
    · rw [if_pos h0, Out.ok_bind] at h; rw [if_pos h0]; exact finish_error_iff h
    · rw [if_neg h0, Out.ok_bind, finish_ok] at h; rw [if_neg h0]; cases h
      rfl
  rw [if_neg h3]
  by_cases h4 : x.op = 4
  · rw [if_pos h4]
    rw [getOpItem_nokey b cb heap _ (by rw [h4]; rfl)] at h
    by_cases h0 : all = []
    · rw [if_pos h0]
      cases b with
      | level => rw [op_last_level hg h4, if_pos h0, Out.ok_bind] at h; exact finish_error_iff h
      | mem =>
        subst h0
        simp only [opOf, memOp, h4] at h
        rw [if_neg (by decide), if_neg (by decide), if_neg (by decide), if_neg (by decide), if_pos (by rfl),
          if_pos (by rfl)] at h
        cases h
    · rw [if_neg h0]
      cases b with
      | level =>
        rw [op_last_level hg h4, if_neg h0, Out.ok_bind, finish_ok] at h; cases h
        rfl
      | mem =>
        rw [op_last_mem hg h4 _ _ h0, Out.ok_bind, finish_ok] at h; cases h
        rfl
  rw [if_neg h4]
  obtain ⟨he, hp⟩ := hk h3 h4
  have hkey : hasKey x.op = true := by
    simp only [hasKey, goFirst, goLast, Bool.and_eq_true, bne_iff_ne, ne_eq]
    exact ⟨h3, h4⟩
  cases hes : t.E x.subject.val with
  | none =>
    simp only
    rw [hes] at he
    unfold getOpItem loopInit at h
    rw [hkey] at h
    simp only [if_true, he, hp, Out.ok_bind] at h
    rw [if_neg (by decide), Out.ok_bind] at h
    exact finish_error_iff h
  | some es =>
    simp only
    rw [hes] at he
    rw [getOpItem_key b heap _ hkey he hp] at h
    rw [← getSeek_startAt]
    generalize (t.E x.predicate.val).getD [] = ep at h ⊢
    unfold keyAnswer
    simp only
    by_cases e0 : x.op = 0
    · rw [if_pos e0]
      by_cases hn : 0 < x.numRecs
      · rw [op_eq hg b e0 _ _ hn, below_drop hs] at h
        cases hf : all.filter (fun a => ! decide (t.key a < es ++ ep)) with
        | nil => rw [hf] at h; exact finish_error_iff h
        | cons a l =>
          rw [hf] at h
          simp only [Out.ok_bind, finish_ok] at h
          cases h; rfl
      · -- no room for a record
        exfalso
        have hz : x.numRecs = 0 := by omega
        cases b <;>
        · simp only [opOf, memOp, levelOp, e0, goEq, if_true] at h
          rw [lowerBound_entry, getElem?_map_entry] at h
          cases ha : all[(all.takeWhile (fun a => decide (t.key a < es ++ ep))).length]? with
          | none =>
            rw [ha] at h
            simp only [Option.map_none, Out.ok_bind, finish] at h
            rw [if_neg (by decide), if_pos (by omega)] at h
            cases h
          | some a =>
            rw [ha] at h
            have hga := hg a (List.mem_of_getElem? ha)
            have hk2 := keyToSp_entry hga
            obtain ⟨⟨es', hs'⟩, ⟨ep', hp'⟩, eo, ho⟩ := hga
            simp only [Option.map_some] at h
            unfold copyResponse at h
            rw [if_neg (by simp), hk2] at h
            simp only [entry, Out.ok_bind, hs'.enc, hp'.enc, ho.enc, Option.getD_some, removeType_appendType _ _ ho.typ,
              hs'.dec, hp'.dec, ho.dec] at h
            rw [if_pos (by omega)] at h
            cases h
    rw [if_neg e0]
    by_cases e1 : x.op = 1
    · rw [if_pos e1]
      rw [op_next hg b e1, below_drop hs] at h
      split at h
      · rw [if_pos (by assumption)]; exact finish_error_iff h
      · rw [if_neg (by assumption)]; rw [Out.ok_bind, finish_ok] at h; cases h
        rfl
    rw [if_neg e1]
    by_cases e2 : x.op = 2
    · rw [if_pos e2]
      rw [op_prev hg b e2, below_drop hs] at h
      cases hf : all.filter (fun a => ! decide (t.key a < es ++ ep)) with
      | nil => rw [hf] at h; exact finish_error_iff h
      | cons a l =>
        rw [hf, if_neg (by simp), Out.ok_bind, finish_ok] at h
        cases h
        have hsplit : all = all.filter (fun a => decide (t.key a < es ++ ep)) ++ a :: l := by
          rw [← hf, ← below_drop hs, ← below_take hs, List.takeWhile_append_dropWhile]
        have h5 : (all.take ((all.takeWhile (fun a => decide (t.key a < es ++ ep))).length + 1)) =
            all.filter (fun a => decide (t.key a < es ++ ep)) ++ [a] := by
          rw [below_take hs]
          generalize all.filter (fun a => decide (t.key a < es ++ ep)) = before at hsplit ⊢
          rw [hsplit, List.take_append, List.take_of_length_le (by omega)]
          simp
        simp only [Option.map_some, List.head?_cons, h5, List.reverse_append, List.reverse_cons, List.reverse_nil, List.nil_append, List.singleton_append]
    rw [if_neg e2]
    by_cases e5 : x.op = 5
    · rw [if_pos e5]
      cases ho : opOf b cb heap (all.map (entry t)) x (es ++ ep) ep.length with
      | err => rw [ho] at h; cases h
      | ub => rw [ho] at h; cases h
      | ok g =>
        rw [ho, Out.ok_bind] at h
        have h6 := op_lowest_ok hg hs b e5 _ _ ho
        split at h6
        · rw [if_pos (by assumption)]; subst h6; exact finish_error_iff h
        · rw [if_neg (by assumption)]; subst h6; rw [finish_ok] at h; cases h
          rfl
    rw [if_neg e5]
    by_cases e6 : x.op = 6
    · rw [if_pos e6]
      cases b with
      | level =>
        rw [op_highest_level_eq hg hs e6, Out.ok_bind] at h
        simp only
        split at h
        · rw [if_pos (by assumption)]; exact finish_error_iff h
        · rw [if_neg (by assumption)]; rw [finish_ok] at h; cases h
          rfl
      | mem =>
        simp only
        cases ho : opOf .mem cb heap (all.map (entry t)) x (es ++ ep) ep.length with
        | err => rw [ho] at h; cases h
        | ub => rw [ho] at h; cases h
        | ok g =>
          rw [ho, Out.ok_bind] at h
          have h6 := op_highest_mem_ok hg hs e6 _ _ ho
          split at h6
          · rw [if_pos (by assumption)]; subst h6; exact finish_error_iff h
          · rw [if_neg (by assumption)]; subst h6; rw [finish_ok] at h; cases h
            rfl
    rw [if_neg e6]
    cases b <;>
    · simp only [opOf, memOp, levelOp, goEq, goNext, goPrev, goFirst, goLast, goLowest, goHighest, e0, e1, e2, h3, h4, e5, e6,
        if_false] at h
      exact finish_error_iff h

/-- Only stored triples are returned. -/
theorem answer_mem {t : Transform} {neg : UInt8} {b : Backend} {all l : List Triple} {op n : Nat} {s p : Val}
    (h : getOpAnswer t neg b all op s p n = some l) : ∀ a ∈ l, a ∈ all := by
  have hf : ∀ (q : Triple → Bool) a, a ∈ all.filter q → a ∈ all := fun q a ha => (List.mem_filter.mp ha).1
  unfold getOpAnswer at h
  split at h
  · split at h
    · cases h
    · cases h; exact fun a ha => List.mem_of_mem_take ha
  split at h
  · split at h
    · cases h
    · cases h; exact fun a ha => List.mem_reverse.mp (List.mem_of_mem_take ha)
  split at h
  · cases h
  · simp only at h
    unfold keyAnswer at h
    simp only at h
    split at h
    · obtain ⟨a, ha, rfl⟩ := Option.map_eq_some_iff.mp h
      intro c hc
      rw [List.mem_singleton] at hc
      subst hc
      exact hf _ _ (List.mem_of_mem_head? ha)
    split at h
    · split at h
      · cases h
      · cases h; exact fun a ha => hf _ _ (List.mem_of_mem_take ha)
    split at h
    · obtain ⟨a, ha, rfl⟩ := Option.map_eq_some_iff.mp h
      intro c hc
      rcases List.mem_cons.mp (List.mem_of_mem_take hc) with rfl | hc
      · exact hf _ _ (List.mem_of_mem_head? ha)
      · exact hf _ _ (List.mem_reverse.mp hc)
    split at h
    · split at h
      · cases h
      · cases h; exact fun a ha => hf _ _ (List.mem_of_mem_take ha)
    split at h
    · split at h
      · split at h
        · cases h
        · cases h; exact fun a ha => hf _ _ (List.mem_reverse.mp (List.mem_of_mem_take ha))
      · split at h
        · cases h
        · cases h
          exact fun a ha => List.mem_of_mem_drop (List.mem_filter.mp (List.mem_reverse.mp (List.mem_of_mem_take ha))).1
    · cases h

end Hx.Store

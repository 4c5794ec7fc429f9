import Verif.Spec.Messages
import Mathlib.Data.List.Basic
import Mathlib.Data.List.Nodup
import Mathlib.Data.List.Perm.Basic

/-!
# Who destructs messages: lemmas for C89
-/

namespace Hx.Lives

open Hx.Spec.Lives

/-- What was destructed, as a list. -/
structure Spent (l : Ledger) (xs : List Nat) (l' : Ledger) : Prop where
  later : l.next ≤ l'.next
  gone : l'.gone.Perm (l.gone ++ xs ++ List.range' l.next (l'.next - l.next))
  whole : l'.lost = l.lost

theorem Spent.refl (l : Ledger) : Spent l [] l := ⟨Nat.le_refl _, by simp, rfl⟩

theorem Spent.perm {l l' : Ledger} {xs ys : List Nat} (h : Spent l xs l') (hp : xs.Perm ys) :
    Spent l ys l' :=
  ⟨h.later, h.gone.trans ((hp.append_left _).append_right _), h.whole⟩

theorem Spent.trans {l l₁ l₂ : Ledger} {xs ys : List Nat} (h : Spent l xs l₁) (h' : Spent l₁ ys l₂) :
    Spent l (xs ++ ys) l₂ := by
  refine ⟨Nat.le_trans h.later h'.later, ?_, h'.whole.trans h.whole⟩
  have hr : List.range' l.next (l₂.next - l.next) =
      List.range' l.next (l₁.next - l.next) ++ List.range' l₁.next (l₂.next - l₁.next) := by
    have h1 := h.later
    have h2 := h'.later
    have e1 : l₂.next - l.next = (l₁.next - l.next) + (l₂.next - l₁.next) := by omega
    have := List.range'_append (s := l.next) (m := l₁.next - l.next) (n := l₂.next - l₁.next)
      (step := 1)
    rw [show l.next + 1 * (l₁.next - l.next) = l₁.next by omega] at this
    rw [e1, this]
  rw [hr]
  refine h'.gone.trans ?_
  refine ((h.gone.append_right ys).append_right _).trans ?_
  rw [List.perm_iff_count]
  intro a
  simp only [List.count_append]
  omega

theorem Spent.known {l l' : Ledger} {xs : List Nat} (h : Spent l xs l') (hk : Known l)
    (hx : ∀ k ∈ xs, k < l.next) : Known l' := by
  intro k hm
  have h0 := h.later
  rw [h.gone.mem_iff, List.mem_append, List.mem_append, List.mem_range'_1] at hm
  rcases hm with (hm | hm) | hm
  · exact Nat.lt_of_lt_of_le (hk k hm) h0
  · exact Nat.lt_of_lt_of_le (hx k hm) h0
  · omega

/-- A message not destructed is still there. -/
theorem Spent.there {l l' : Ledger} {xs : List Nat} (h : Spent l xs l') {k : Nat}
    (hk : k < l.next ∧ k ∉ l.gone) (hx : k ∉ xs) : k < l'.next ∧ k ∉ l'.gone := by
  refine ⟨Nat.lt_of_lt_of_le hk.1 h.later, fun hm => ?_⟩
  rw [h.gone.mem_iff, List.mem_append, List.mem_append, List.mem_range'_1] at hm
  rcases hm with (hm | hm) | hm
  · exact hk.2 hm
  · exact hx hm
  · omega

theorem Spent.done {l l' : Ledger} {xs : List Nat} (h : Spent l xs l')
    (hn : xs.Nodup) (hx : ∀ k ∈ xs, k < l.next) : Done xs l l' := by
  have h0 := h.later
  have hr : (List.range' l.next (l'.next - l.next)).Nodup := List.nodup_range'
  have hmem : ∀ k, k ∈ List.range' l.next (l'.next - l.next) ↔ l.next ≤ k ∧ k < l'.next := by
    intro k
    rw [List.mem_range'_1]
    omega
  refine ⟨h0, ?_, ?_, h.whole⟩
  · intro k hkk
    rw [h.gone.count_eq, List.count_append, List.count_append]
    rcases hkk with hkk | hkk
    · have h1 := hx k hkk
      have e1 := List.count_eq_one_of_mem hn hkk
      have e2 : List.count k (List.range' l.next (l'.next - l.next)) = 0 :=
        List.count_eq_zero.mpr fun hm => by have := (hmem k).mp hm; omega
      omega
    · have e1 := List.count_eq_one_of_mem hr ((hmem k).mpr hkk)
      have e2 : List.count k xs = 0 := List.count_eq_zero.mpr fun hm => by have := hx k hm; omega
      omega
  · intro k h1 h2
    have e1 : List.count k xs = 0 := List.count_eq_zero.mpr h1
    have e2 : List.count k (List.range' l.next (l'.next - l.next)) = 0 :=
      List.count_eq_zero.mpr fun hm => h2 ((hmem k).mp hm)
    rw [h.gone.count_eq, List.count_append, List.count_append]
    omega

theorem destruct_eq {k : Nat} {l : Ledger} (h : k < l.next ∧ k ∉ l.gone) :
    destruct k l = .ok { l with gone := l.gone ++ [k] } := if_pos h

theorem destructAll_eq {ks : List Nat} {l : Ledger} (hn : ks.Nodup)
    (h : ∀ k ∈ ks, k < l.next ∧ k ∉ l.gone) :
    destructAll ks l = .ok { l with gone := l.gone ++ ks } := by
  induction ks generalizing l with
  | nil => simp [destructAll]
  | cons k ks ih =>
    have hk := (List.nodup_cons.mp hn)
    rw [destructAll, destruct_eq (h k (List.mem_cons_self ..)), Out.ok_bind, ih hk.2]
    · simp
    · intro k' hk'
      have := h k' (List.mem_cons_of_mem _ hk')
      refine ⟨this.1, ?_⟩
      simp only [List.mem_append, List.mem_singleton, not_or]
      exact ⟨this.2, fun he => hk.1 (he ▸ hk')⟩

theorem rangeServer_eq (a : Bool) {l : Ledger} (hk : Known l) :
    rangeServer a l = .ok (l.next, ⟨l.next + 1 + (bif a then 1 else 0),
      l.gone ++ (bif a then [l.next + 1] else []), l.lost⟩) := by
  cases a
  · simp [rangeServer, construct]
  · simp only [rangeServer, construct, if_true]
    rw [destruct_eq ⟨by simp, fun hm => by have := hk _ hm; omega⟩]
    simp

theorem serveHere_ok (answers : Nat → Bool) {req : Nat} {l : Ledger} (hk : Known l)
    (h : req < l.next ∧ req ∉ l.gone) :
    ∃ l', serveHere answers req l = .ok l' ∧ Spent l [req] l' := by
  have hn : l.next ∉ l.gone := fun hm => Nat.lt_irrefl _ (hk _ hm)
  rw [serveHere, rangeServer_eq _ hk, Out.ok_bind]
  simp only [addAll]
  cases answers req
  · simp only [cond_false, List.append_nil, Nat.add_zero]
    rw [destructAll_eq (by simp) (by simpa using hn), Out.ok_bind, destruct_eq]
    · refine ⟨_, rfl, by simp, ?_, rfl⟩
      simp only [Nat.add_sub_cancel_left, List.range'_one]
      rw [List.perm_iff_count]
      intro b
      simp only [List.count_append]
      omega
    · refine ⟨by simp only; omega, ?_⟩
      simp only [List.mem_append, List.mem_singleton, not_or]
      exact ⟨h.2, by omega⟩
  · simp only [cond_true]
    rw [destructAll_eq (by simp), Out.ok_bind, destruct_eq]
    · refine ⟨_, rfl, by simp only; omega, ?_, rfl⟩
      have e : l.next + 1 + 1 - l.next = 2 := by omega
      simp only [e, List.range'_succ, List.range'_zero]
      rw [List.perm_iff_count]
      intro b
      simp only [List.count_append, List.count_cons, List.count_nil]
      omega
    · refine ⟨by simp only; omega, ?_⟩
      simp only [List.mem_append, List.mem_singleton, not_or]
      exact ⟨⟨h.2, by omega⟩, by omega⟩
    · simp only [List.mem_singleton, forall_eq, List.mem_append, not_or]
      exact ⟨by omega, hn, by omega⟩

theorem serveAll_ok (answers : Nat → Bool) {reqs : List Nat} {l : Ledger} (hk : Known l)
    (hn : reqs.Nodup) (h : ∀ k ∈ reqs, k < l.next ∧ k ∉ l.gone) :
    ∃ l', serveAll answers reqs l = .ok l' ∧ Spent l reqs l' := by
  induction reqs generalizing l with
  | nil => exact ⟨l, rfl, .refl l⟩
  | cons r reqs ih =>
    have hr := h r (List.mem_cons_self ..)
    have hn' := List.nodup_cons.mp hn
    obtain ⟨l₁, e₁, s₁⟩ := serveHere_ok answers hk hr
    obtain ⟨l₂, e₂, s₂⟩ := ih (l := l₁) (s₁.known hk (by simpa using hr.1)) hn'.2
      fun k hk' => s₁.there (h k (List.mem_cons_of_mem _ hk')) (by
        simp only [List.mem_singleton]
        rintro rfl
        exact hn'.1 hk')
    exact ⟨l₂, by rw [serveAll, e₁, Out.ok_bind, e₂], s₁.trans s₂⟩

/-- A chain that is constructed and destructed. -/
theorem chain_ok (n : Nat) {l : Ledger} (hk : Known l) :
    ∃ l', addAll (communicate n l).1 (communicate n l).2 = .ok l' ∧ Spent l [] l' := by
  rw [addAll, communicate, destructAll_eq List.nodup_range']
  · exact ⟨_, rfl, by simp, by simp, rfl⟩
  · intro k hm
    rw [List.mem_range'_1] at hm
    refine ⟨hm.2, fun hg => ?_⟩
    have := hk k hg
    omega

theorem firsts_ge {ds : Nat} {qs : List (List Nat)} {x : Nat × Nat} (h : x ∈ firsts ds qs) :
    ds ≤ x.1 ∧ x.1 < ds + qs.length := by
  fun_induction firsts ds qs with
  | case1 => cases h
  | case2 ds qs ih =>
    have := ih h
    simp only [List.length_cons]
    omega
  | case3 ds r q qs ih =>
    rcases List.mem_cons.mp h with rfl | h
    · simp
    · have := ih h
      simp only [List.length_cons]
      omega

/-- The datastores are different. -/
theorem firsts_nodup (ds : Nat) (qs : List (List Nat)) :
    ((firsts ds qs).map fun x => x.1).Nodup := by
  fun_induction firsts ds qs with
  | case1 => simp
  | case2 ds qs ih => exact ih
  | case3 ds r q qs ih =>
    rw [List.map_cons, List.nodup_cons]
    refine ⟨fun h => ?_, ih⟩
    obtain ⟨x, hx, he⟩ := List.mem_map.mp h
    have := (firsts_ge hx).1
    simp only at he
    omega

/-- What is taken out and what is left. -/
theorem firsts_tail (ds : Nat) (qs : List (List Nat)) :
    ((firsts ds qs).map (fun x => x.2) ++ (qs.map List.tail).flatten).Perm qs.flatten := by
  fun_induction firsts ds qs with
  | case1 => simp
  | case2 ds qs ih => simpa using ih
  | case3 ds r q qs ih =>
    simp only [List.map_cons, List.flatten_cons, List.tail_cons, List.cons_append]
    refine List.Perm.cons r ?_
    refine List.Perm.trans ?_ (ih.append_left q)
    rw [List.perm_iff_count]
    intro b
    simp only [List.count_append]
    omega

theorem divide_perm {here : Nat} {toRank : Nat → Nat} {xs : List (Nat × Nat)} {loc : List Nat}
    {remote : List (Nat × Nat)} (hn : (xs.map fun x => x.1).Nodup)
    (ho : ∀ x ∈ xs, ∀ y ∈ xs, toRank x.1 = toRank y.1 → toRank x.1 ≠ here → x.1 = y.1)
    (hr : ∀ x ∈ xs, toRank x.1 ≠ here → ∀ y ∈ remote, y.1 ≠ toRank x.1) :
    ((divide here toRank xs loc remote).1 ++
      (divide here toRank xs loc remote).2.map fun x => x.2).Perm
      (loc ++ (remote.map fun x => x.2) ++ xs.map fun x => x.2) := by
  induction xs generalizing loc remote with
  | nil => simp [divide]
  | cons x xs ih =>
    obtain ⟨ds, req⟩ := x
    rw [List.map_cons, List.nodup_cons] at hn
    have ho' : ∀ x ∈ xs, ∀ y ∈ xs, toRank x.1 = toRank y.1 → toRank x.1 ≠ here → x.1 = y.1 :=
      fun x hx y hy => ho x (List.mem_cons_of_mem _ hx) y (List.mem_cons_of_mem _ hy)
    rw [divide]
    split
    · refine (ih hn.2 ho' fun x hx => hr x (List.mem_cons_of_mem _ hx)).trans ?_
      rw [List.perm_iff_count]
      intro b
      simp only [List.count_append, List.map_cons, List.count_cons, List.count_nil]
      omega
    · rename_i hne
      have hnone : remote.any (fun x => x.1 == toRank ds) = false := by
        rw [List.any_eq_false]
        intro y hy
        simpa using hr (ds, req) (List.mem_cons_self ..) (fun h => hne h.symm) y hy
      have ha : assign remote (toRank ds) req = remote ++ [(toRank ds, req)] := by
        rw [assign, hnone]
        rfl
      rw [ha]
      refine (ih hn.2 ho' ?_).trans ?_
      · intro x hx hx' y hy
        rcases List.mem_append.mp hy with hy | hy
        · exact hr x (List.mem_cons_of_mem _ hx) hx' y hy
        · rw [List.mem_singleton] at hy
          subst hy
          intro he
          simp only at he
          have := ho (ds, req) (List.mem_cons_self ..) x (List.mem_cons_of_mem _ hx) he
            (fun h => hne h.symm)
          simp only at this
          exact hn.1 (List.mem_map.mpr ⟨x, hx, this.symm⟩)
      · rw [List.perm_iff_count]
        intro b
        simp only [List.count_append, List.map_append, List.map_cons, List.map_nil,
          List.count_cons, List.count_nil]
        omega

theorem round_ok {s : Session} {qs : List (List Nat)} {l : Ledger} (hk : Known l)
    (hq : Queued qs l) (ho : OneEach s qs.length) :
    ∃ l', round s qs l = .ok l' ∧ Spent l ((firsts 0 qs).map fun x => x.2) l' := by
  have hp := divide_perm (here := s.here) (toRank := s.toRank) (loc := []) (remote := [])
    (firsts_nodup 0 qs)
    (fun x hx y hy h1 h2 => ho _ _ (by have := firsts_ge hx; omega) (by have := firsts_ge hy; omega) h1 h2)
    (by simp)
  simp only [List.map_nil, List.append_nil, List.nil_append] at hp
  have ht := firsts_tail 0 qs
  have hnd : ((firsts 0 qs).map fun x => x.2).Nodup :=
    (List.nodup_append.mp (ht.nodup_iff.mpr hq.1)).1
  have hin : ∀ k ∈ (firsts 0 qs).map (fun x => x.2), k < l.next ∧ k ∉ l.gone := fun k hm =>
    hq.2 k (ht.mem_iff.mp (List.mem_append_left _ hm))
  rw [round]
  generalize divide s.here s.toRank (firsts 0 qs) [] [] = d at hp
  have hnd' := List.nodup_append.mp (hp.nodup_iff.mpr hnd)
  have hin1 : ∀ k ∈ d.1, k < l.next ∧ k ∉ l.gone := fun k hm =>
    hin k (hp.mem_iff.mp (List.mem_append_left _ hm))
  have hin2 : ∀ k ∈ d.2.map (fun x => x.2), k < l.next ∧ k ∉ l.gone := fun k hm =>
    hin k (hp.mem_iff.mp (List.mem_append_right _ hm))
  -- requests to other ranks
  have hrem : ∃ l₁, (if d.2.isEmpty then Out.ok l
      else
        let (chain, l) := communicate (s.returned qs.flatten.length) l
        addAll chain l >>= fun l => destructAll (d.2.map fun x => x.2) l) = .ok l₁ ∧
      Spent l (d.2.map fun x => x.2) l₁ := by
    split
    · rename_i he
      rw [List.isEmpty_iff] at he
      rw [he]
      exact ⟨l, rfl, .refl l⟩
    · obtain ⟨l₁, e₁, s₁⟩ := chain_ok (s.returned qs.flatten.length) hk
      have hin3 : ∀ k ∈ d.2.map (fun x => x.2), k < l₁.next ∧ k ∉ l₁.gone := fun k hm =>
        s₁.there (hin2 k hm) (by simp)
      refine ⟨{ l₁ with gone := l₁.gone ++ d.2.map fun x => x.2 }, ?_, ?_⟩
      · simp only [e₁, Out.ok_bind]
        exact destructAll_eq hnd'.2.1 hin3
      · exact s₁.trans (l₂ := { l₁ with gone := l₁.gone ++ d.2.map fun x => x.2 })
          ⟨Nat.le_refl _, by simp, rfl⟩
  obtain ⟨l₁, e₁, s₁⟩ := hrem
  obtain ⟨l₂, e₂, s₂⟩ := serveAll_ok s.answers (s₁.known hk fun k hm => (hin2 k hm).1) hnd'.1
    fun k hm => s₁.there (hin1 k hm) fun hm' => hnd'.2.2 k hm k hm' rfl
  refine ⟨l₂, ?_, (s₁.trans s₂).perm (List.perm_append_comm.trans hp)⟩
  simp only [e₁, Out.ok_bind]
  exact e₂

theorem firsts_ne {ds : Nat} {qs : List (List Nat)} (h : qs.flatten ≠ []) : firsts ds qs ≠ [] := by
  fun_induction firsts ds qs with
  | case1 => simp at h
  | case2 ds qs ih => exact ih (by simpa using h)
  | case3 => simp

theorem process_ok {s : Session} (fuel : Nat) {qs : List (List Nat)} {l : Ledger} (hk : Known l)
    (hq : Queued qs l) (ho : OneEach s qs.length) (hf : qs.flatten.length ≤ fuel) :
    ∃ l', process s fuel qs l = .ok l' ∧ Spent l qs.flatten l' := by
  induction fuel generalizing qs l with
  | zero =>
    have : qs.flatten = [] := List.length_eq_zero_iff.mp (Nat.le_zero.mp hf)
    rw [process, this]
    exact ⟨l, rfl, .refl l⟩
  | succ fuel ih =>
    rw [process]
    split
    · rename_i he
      rw [List.isEmpty_iff] at he
      rw [he]
      exact ⟨l, rfl, .refl l⟩
    · rename_i he
      rw [List.isEmpty_iff] at he
      obtain ⟨l₁, e₁, s₁⟩ := round_ok hk hq ho
      have ht := firsts_tail 0 qs
      have hnd := List.nodup_append.mp (ht.nodup_iff.mpr hq.1)
      have hlen := ht.length_eq
      have hpos := List.length_pos_iff.mpr (firsts_ne (ds := 0) he)
      rw [List.length_append, List.length_map] at hlen
      obtain ⟨l₂, e₂, s₂⟩ := ih (qs := qs.map List.tail) (l := l₁)
        (s₁.known hk fun k hm => (hq.2 k (ht.mem_iff.mp (List.mem_append_left _ hm))).1)
        ⟨hnd.2.1, fun k hm => s₁.there (hq.2 k (ht.mem_iff.mp (List.mem_append_right _ hm)))
          fun hm' => hnd.2.2 k hm' k hm rfl⟩
        (by simpa using ho) (by omega)
      exact ⟨l₂, by rw [e₁, Out.ok_bind, e₂], (s₁.trans s₂).perm ht⟩

/-! ### Closing a session -/

/-- The PUTs that are not gone yet. -/
def Closing.left (c : Closing) : List Nat := c.queue.flatten ++ (c.batch.getD []).flatten

/-- `xs` are gone, what is left is there, and there are not too many queues. -/
structure Going (n : Nat) (l : Ledger) (given : List Nat) (c : Closing) : Prop where
  spent : ∃ xs, Spent l xs c.ledger ∧ (xs ++ c.left).Perm given
  few : c.queue.length ≤ n ∧ (c.batch.getD []).length ≤ n

theorem destructAll_spent {ks : List Nat} {l : Ledger} (hn : ks.Nodup)
    (h : ∀ k ∈ ks, k < l.next ∧ k ∉ l.gone) :
    ∃ l', destructAll ks l = .ok l' ∧ Spent l ks l' :=
  ⟨_, destructAll_eq hn h, Nat.le_refl _, by simp, rfl⟩

/-- What is left is there. -/
theorem left_there {l l' : Ledger} {given xs ys : List Nat} (hn : given.Nodup)
    (hg : ∀ k ∈ given, k < l.next ∧ k ∉ l.gone) (h : Spent l xs l') (hp : (xs ++ ys).Perm given) :
    ys.Nodup ∧ (∀ k ∈ ys, k < l'.next ∧ k ∉ l'.gone) ∧ ∀ k ∈ xs, k < l.next := by
  have hn' := List.nodup_append.mp (hp.nodup_iff.mpr hn)
  refine ⟨hn'.2.1, fun k hk => ?_, fun k hk => ?_⟩
  · refine h.there (hg k (hp.mem_iff.mp (List.mem_append_right _ hk))) fun hx => ?_
    exact hn'.2.2 k hx k hk rfl
  · exact (hg k (hp.mem_iff.mp (List.mem_append_left _ hk))).1

theorem turn_ok {s : Session} {n : Nat} {l : Ledger} {given : List Nat} (hk : Known l)
    (hn : given.Nodup) (hg : ∀ k ∈ given, k < l.next ∧ k ∉ l.gone) (ho : OneEach s n) {c : Closing}
    (h : Going n l given c) (t : Turn) :
    ∃ c', turn s n c t = .ok c' ∧ Going n l given c' ∧
      (t = .run → c'.batch = none) := by
  obtain ⟨⟨xs, hs, hp⟩, hq, hb⟩ := h
  obtain ⟨hl, ht, hx⟩ := left_there hn hg hs hp
  cases t with
  | clear =>
    obtain ⟨l', e, s'⟩ := destructAll_spent (ks := c.queue.flatten) (l := c.ledger)
      (List.nodup_append.mp hl).1 fun k hm => ht k (List.mem_append_left _ hm)
    refine ⟨{ c with queue := [], ledger := l' }, by rw [turn, e, Out.ok_bind],
      ⟨⟨_, hs.trans s', ?_⟩, Nat.zero_le _, hb⟩, nofun⟩
    simpa [Closing.left] using hp
  | take =>
    cases hc : c.batch with
    | some b =>
      exact ⟨c, by simp only [turn, hc], ⟨⟨xs, hs, hp⟩, hq, hb⟩, nofun⟩
    | none =>
      refine ⟨{ c with queue := List.replicate n [], batch := some c.queue }, by simp only [turn, hc],
        ⟨⟨xs, hs, ?_⟩, by simp, hq⟩, nofun⟩
      simpa [Closing.left, hc] using hp
  | run =>
    cases hc : c.batch with
    | none => exact ⟨c, by simp only [turn, hc], ⟨⟨xs, hs, hp⟩, hq, hb⟩, fun _ => hc⟩
    | some b =>
      rw [Closing.left, hc, Option.getD_some] at hl ht hp
      rw [hc, Option.getD_some] at hb
      obtain ⟨l', e, s'⟩ := process_ok (s := s) _ (hs.known hk hx)
        ⟨(List.nodup_append.mp hl).2.1, fun k hm => ht k (List.mem_append_right _ hm)⟩
        (fun d d' h h' => ho d d' (Nat.lt_of_lt_of_le h hb) (Nat.lt_of_lt_of_le h' hb))
        (Nat.le_refl _)
      refine ⟨{ c with batch := none, ledger := l' }, by simp only [turn, hc, e, Out.ok_bind],
        ⟨⟨_, hs.trans s', ?_⟩, hq, Nat.zero_le _⟩, fun _ => rfl⟩
      refine List.Perm.trans ?_ hp
      rw [List.perm_iff_count]
      intro a
      simp only [Closing.left, Option.getD_none, List.flatten_nil, List.append_nil,
        List.count_append]
      omega

theorem turns_ok {s : Session} {n : Nat} {l : Ledger} {given : List Nat} (hk : Known l)
    (hn : given.Nodup) (hg : ∀ k ∈ given, k < l.next ∧ k ∉ l.gone) (ho : OneEach s n)
    (ts : List Turn) {c : Closing} (h : Going n l given c) :
    ∃ c', turns s n ts c = .ok c' ∧ Going n l given c' := by
  induction ts generalizing c with
  | nil => exact ⟨c, rfl, h⟩
  | cons t ts ih =>
    obtain ⟨c₁, e₁, g₁, -⟩ := turn_ok hk hn hg ho h t
    obtain ⟨c₂, e₂, g₂⟩ := ih g₁
    exact ⟨c₂, by rw [turns, e₁, Out.ok_bind, e₂], g₂⟩

theorem close_ok {s : Session} {n : Nat} (ts : List Turn) {others : List (List Nat)} {c : Closing}
    (hk : Known c.ledger) (hn : (c.left ++ others.flatten).Nodup)
    (hg : ∀ k ∈ c.left ++ others.flatten, k < c.ledger.next ∧ k ∉ c.ledger.gone)
    (ho : OneEach s n) (hq : c.queue.length ≤ n) (hb : (c.batch.getD []).length ≤ n) :
    ∃ l', close s n ts others c = .ok l' ∧ Spent c.ledger (c.left ++ others.flatten) l' := by
  have hn' := List.nodup_append.mp hn
  have hg' : ∀ k ∈ c.left, k < c.ledger.next ∧ k ∉ c.ledger.gone :=
    fun k hm => hg k (List.mem_append_left _ hm)
  obtain ⟨c₁, e₁, g₁⟩ := turns_ok hk hn'.1 hg' ho ts (c := c)
    ⟨⟨[], .refl _, List.Perm.refl _⟩, hq, hb⟩
  obtain ⟨c₂, e₂, ⟨⟨xs, hs, hp⟩, -⟩, hr⟩ := turn_ok hk hn'.1 hg' ho g₁ .run
  have hl : c₂.left = c₂.queue.flatten := by simp [Closing.left, hr rfl]
  rw [hl] at hp
  obtain ⟨hl', ht, -⟩ := left_there hn'.1 hg' hs hp
  obtain ⟨l₃, e₃, s₃⟩ := destructAll_spent hl' ht
  have s₄ := (hs.trans s₃).perm hp
  obtain ⟨l₅, e₅, s₅⟩ := destructAll_spent (ks := others.flatten) (l := l₃) hn'.2.1 fun k hm =>
    s₄.there (hg k (List.mem_append_right _ hm)) fun hx => hn'.2.2 k hx k hm rfl
  exact ⟨l₅, by rw [close, e₁, Out.ok_bind, e₂, Out.ok_bind, e₃, Out.ok_bind, e₅], s₄.trans s₅⟩

end Hx.Lives

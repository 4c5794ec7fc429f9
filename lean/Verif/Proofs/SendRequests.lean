import Verif.Spec.SendRequests
import Verif.Proofs.Messages

/-!
# Objects for the sends of a round over MPI: lemmas for C92
-/

namespace Hx.Lives

open Hx.Spec.Lives

/-- The objects up to the counter are `ids`, the rest is null. -/
structure Shape (t : Slots) (n : Nat) (ids : List Nat) : Prop where
  count : t.count = ids.length
  reqs : ∃ m, t.reqs = ids.map some ++ List.replicate m none ∧ ids.length + m = n

theorem shape_empty (n : Nat) : Shape ⟨List.replicate n none, 0⟩ n [] :=
  ⟨rfl, n, by simp, by simp⟩

theorem Shape.started {t : Slots} {n : Nat} {ids : List Nat} (h : Shape t n ids) :
    t.started = ids := by
  obtain ⟨m, e, -⟩ := h.reqs
  rw [Slots.started, e, h.count]
  simp [List.filterMap_map]

theorem Shape.set {t : Slots} {n : Nat} {ids : List Nat} (h : Shape t n ids)
    (hn : ids.length < n) : ∃ m, t.reqs = ids.map some ++ none :: List.replicate m none ∧
      ids.length + (m + 1) = n ∧
      ∀ o, t.reqs.set t.count o = ids.map some ++ o :: List.replicate m none := by
  obtain ⟨m, e, hm⟩ := h.reqs
  obtain ⟨m, rfl⟩ : ∃ k, m = k + 1 := ⟨m - 1, by omega⟩
  refine ⟨m, by rw [e, List.replicate_succ], hm, fun o => ?_⟩
  rw [e, h.count, List.replicate_succ, List.set_append_right _ _ (by simp)]
  simp

theorem Shape.lt {t : Slots} {n : Nat} {ids : List Nat} (h : Shape t n ids)
    (hn : ids.length < n) : t.count < t.reqs.length := by
  obtain ⟨m, e, hm, -⟩ := h.set hn
  rw [e, h.count]
  simp

theorem post_true {t : Slots} {n i : Nat} {ids : List Nat} (h : Shape t n ids)
    (hn : ids.length < n) (l : Ledger) :
    ∃ t', post i true t l = .ok (t', ⟨l.next + 1, l.gone, l.lost⟩) ∧
      Shape t' n (ids ++ [l.next]) := by
  obtain ⟨m, -, hm, e⟩ := h.set hn
  refine ⟨⟨t.reqs.set t.count (some l.next), t.count + 1⟩, ?_, ?_, m, ?_, ?_⟩
  · rw [post, if_pos (h.lt hn)]
    rfl
  · simp [h.count]
  · simp [e]
  · simp
    omega

theorem post_false {t : Slots} {n i : Nat} {ids : List Nat} (h : Shape t n ids)
    (hi : ids.length ≤ i) (hn : i < n) {l : Ledger} (hk : Known l) :
    ∃ t', post i false t l = .ok (t', ⟨l.next + 1,
        l.gone ++ (if ids.length = i then [l.next] else []), l.lost⟩) ∧ Shape t' n ids := by
  have hlt : ids.length < n := by omega
  obtain ⟨m, e₀, hm, e⟩ := h.set hlt
  have es : (t.reqs.set t.count (some l.next)).set t.count none = t.reqs := by
    rw [List.set_set, e, e₀]
  refine ⟨⟨t.reqs, t.count⟩, ?_, h.count, h.reqs⟩
  rw [post, if_pos (h.lt hlt)]
  have ed : deallocAt (t.reqs.set t.count (some l.next)) i ⟨l.next + 1, l.gone, l.lost⟩ =
      .ok ⟨l.next + 1, l.gone ++ (if ids.length = i then [l.next] else []), l.lost⟩ := by
    rw [e, deallocAt, List.getElem?_append_right (by simpa using hi), List.length_map]
    by_cases hc : ids.length = i
    · rw [if_pos hc, hc, Nat.sub_self]
      exact destruct_eq ⟨Nat.lt_succ_self _, fun hm => Nat.lt_irrefl _ (hk _ hm)⟩
    · rw [if_neg hc]
      obtain ⟨j, hj⟩ : ∃ j, i - ids.length = j + 1 := ⟨i - ids.length - 1, by omega⟩
      rw [hj, List.getElem?_cons_succ, List.getElem?_replicate, if_pos (by omega),
        List.append_nil]
  simp only [construct, Bool.false_eq_true, if_false, ed, Out.ok_bind, es]

/-- What the loop leaves: the objects in the arrays, those that are gone, and those
that are leaked are all there were and those that were constructed. -/
theorem sendAll_ok {ms : List Sending} {i n : Nat} {s d : Slots} {xs ys : List Nat} {l : Ledger}
    (hs : Shape s n xs) (hd : Shape d n ys) (hx : xs.length ≤ i) (hy : ys.length ≤ i)
    (hn : i + ms.length = n) (hk : Known l) :
    ∃ s' d' l' xs' ys', sendAll ms i s d l = .ok (s', d', l') ∧ Shape s' n xs' ∧ Shape d' n ys' ∧
      Known l' ∧ l'.next = l.next + (ms.map objects).sum ∧ l'.lost = l.lost ∧
      ys'.length = ys.length + ms.count .sent ∧
      ∀ k, (xs' ++ ys' ++ l'.gone ++
          leaked ms (xs.length = i) (ys.length = i) l.next).count k =
        (xs ++ ys ++ l.gone ++ List.range' l.next (ms.map objects).sum).count k := by
  induction ms generalizing i s d xs ys l with
  | nil => exact ⟨s, d, l, xs, ys, rfl, hs, hd, hk, rfl, rfl, rfl, fun k => by simp [leaked]⟩
  | cons m ms ih =>
    rw [List.length_cons] at hn
    have up : ∀ {l : Ledger}, Known l → Known ⟨l.next + 1, l.gone, l.lost⟩ :=
      fun h k hm => Nat.lt_succ_of_lt (h k hm)
    have upf : ∀ {l : Ledger} (c : Prop) [Decidable c], Known l →
        Known ⟨l.next + 1, l.gone ++ (if c then [l.next] else []), l.lost⟩ := by
      intro l c _ h k hm
      rcases List.mem_append.mp hm with hm | hm
      · exact Nat.lt_succ_of_lt (h k hm)
      · split at hm
        · rw [List.mem_singleton.mp hm]
          exact Nat.lt_succ_self _
        · cases hm
    have nx : xs.length ≠ i + 1 := by omega
    have ny : ys.length ≠ i + 1 := by omega
    cases m with
    | noRank =>
      obtain ⟨s', d', l', xs', ys', e, gs, gd, gk, g1, g2, g3, g4⟩ :=
        ih hs hd (Nat.le_succ_of_le hx) (Nat.le_succ_of_le hy) (by omega) hk
      refine ⟨s', d', l', xs', ys', e, gs, gd, gk, by simpa [objects] using g1, g2,
        by simpa using g3, fun k => ?_⟩
      have := g4 k
      simpa [leaked, objects, nx, ny] using this
    | sizeFails =>
      obtain ⟨s₁, e₁, h₁⟩ := post_false hs hx (by omega) hk
      obtain ⟨s', d', l', xs', ys', e, gs, gd, gk, g1, g2, g3, g4⟩ :=
        ih h₁ hd (Nat.le_succ_of_le hx) (Nat.le_succ_of_le hy) (by omega) (upf (xs.length = i) hk)
      refine ⟨s', d', l', xs', ys', by rw [sendAll, e₁, Out.ok_bind]; exact e, gs, gd, gk,
        by simp [objects, g1]; omega, g2, by simpa using g3, fun k => ?_⟩
      have := g4 k
      simp only [leaked, objects, List.map_cons, List.sum_cons, Nat.add_comm 1,
        List.range'_succ, List.count_append, List.count_cons, decide_eq_true_eq, nx, ny,
        decide_false] at this ⊢
      by_cases hc : xs.length = i
      · simp only [if_pos hc, List.count_cons, List.count_nil] at this ⊢
        omega
      · simp only [if_neg hc, List.count_cons, List.count_nil] at this ⊢
        omega
    | dataFails =>
      obtain ⟨s₁, e₁, h₁⟩ := post_true (i := i) hs (by omega) l
      obtain ⟨d₁, e₂, h₂⟩ := post_false hd hy (by omega) (up hk)
      obtain ⟨s', d', l', xs', ys', e, gs, gd, gk, g1, g2, g3, g4⟩ :=
        ih (i := i + 1) h₁ h₂ (by simpa using hx) (Nat.le_succ_of_le hy) (by omega) (upf (ys.length = i) (up hk))
      refine ⟨s', d', l', xs', ys', by
          rw [sendAll, e₁, Out.ok_bind]; simp only [e₂, Out.ok_bind]; exact e, gs, gd, gk,
        by simp [objects, g1]; omega, g2, by simpa using g3, fun k => ?_⟩
      have := g4 k
      simp only [leaked, objects, List.map_cons, List.sum_cons, Nat.add_comm 2,
        List.range'_succ, List.count_append, List.count_cons, decide_eq_true_eq, ny,
        decide_false, List.length_append, List.length_singleton, Nat.add_right_cancel_iff,
        List.count_nil] at this ⊢
      by_cases hc : ys.length = i
      · simp only [if_pos hc, List.count_cons, List.count_nil] at this ⊢
        omega
      · simp only [if_neg hc, List.count_cons, List.count_nil] at this ⊢
        omega
    | sent =>
      obtain ⟨s₁, e₁, h₁⟩ := post_true (i := i) hs (by omega) l
      obtain ⟨d₁, e₂, h₂⟩ := post_true (i := i) hd (by omega) ⟨l.next + 1, l.gone, l.lost⟩
      obtain ⟨s', d', l', xs', ys', e, gs, gd, gk, g1, g2, g3, g4⟩ :=
        ih (i := i + 1) h₁ h₂ (by simpa using hx) (by simpa using hy) (by omega) (up (up hk))
      refine ⟨s', d', l', xs', ys', by
          rw [sendAll, e₁, Out.ok_bind]; simp only [e₂, Out.ok_bind]; exact e, gs, gd, gk,
        by simp [objects, g1]; omega, g2, by simp at g3 ⊢; omega, fun k => ?_⟩
      have := g4 k
      simp only [leaked, objects, List.map_cons, List.sum_cons, Nat.add_comm 2,
        List.range'_succ, List.count_append, List.count_cons,
        List.length_append, List.length_singleton, Nat.add_right_cancel_iff,
        List.count_nil] at this ⊢
      omega

end Hx.Lives

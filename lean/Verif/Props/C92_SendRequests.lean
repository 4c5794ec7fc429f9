import Verif.Proofs.SendRequests

/-!
# C92: the objects for the sends of a round over MPI
-/

namespace Hx.Props

open Hx.Lives Hx.Spec.Lives

/-- **C92** (what is true for all failures).  Sending the messages of a round over MPI is defined whatever fails and
in which order the sends complete, and
of the `MPI_Request`s it constructs every one is deallocated exactly once, except
`leaked`, which are not.  It returns how many messages were sent. -/
theorem C92_leaked {order : List Nat → List Nat} (ho : ∀ xs, (order xs).Perm xs)
    {ms : List Sending} {l : Ledger} (hk : Known l) (hn : l.gone.Nodup) :
    ∃ l', parallelSend order ms l = .ok (ms.count .sent, l') ∧
      l'.next = l.next + (ms.map objects).sum ∧
      (l'.gone ++ leaked ms true true l.next).Perm
        (l.gone ++ List.range' l.next (ms.map objects).sum) := by
  obtain ⟨s, d, l₁, xs, ys, e, hs, hd, hk₁, e₁, -, e₃, e₄⟩ :=
    sendAll_ok (ms := ms) (i := 0) (shape_empty ms.length) (shape_empty ms.length)
      (Nat.le_refl _) (Nat.le_refl _) (Nat.zero_add _) hk
  have hp : (xs ++ ys ++ l₁.gone ++ leaked ms true true l.next).Perm
      (l.gone ++ List.range' l.next (ms.map objects).sum) :=
    List.perm_iff_count.mpr fun k => by simpa using e₄ k
  have hnd : (l.gone ++ List.range' l.next (ms.map objects).sum).Nodup := by
    refine List.nodup_append.mpr ⟨hn, List.nodup_range', fun a ha b hb hab => ?_⟩
    have h1 := hk a ha
    have h2 := (List.mem_range'_1.mp hb).1
    omega
  have hlt : ∀ k ∈ xs ++ ys ++ l₁.gone ++ leaked ms true true l.next, k < l₁.next := by
    intro k hm
    rcases List.mem_append.mp (hp.mem_iff.mp hm) with h | h
    · have := hk k h
      omega
    · have := (List.mem_range'_1.mp h).2
      omega
  have hd' := (List.nodup_append.mp (hp.nodup_iff.mpr hnd)).1
  have hxy := List.nodup_append.mp hd'
  have f := destructAll_eq (l := l₁) ((ho (xs ++ ys)).nodup_iff.mpr hxy.1) fun k hm =>
    have hm := (ho (xs ++ ys)).mem_iff.mp hm
    ⟨hlt k (List.mem_append_left _ (List.mem_append_left _ hm)),
      fun hg => hxy.2.2 k hm k hg rfl⟩
  refine ⟨⟨l₁.next, l₁.gone ++ order (xs ++ ys), l₁.lost⟩, ?_, e₁, ?_⟩
  · simp only [parallelSend, e, Out.ok_bind, hs.started, hd.started, f, hd.count, e₃]
    simp
  · refine List.Perm.trans (List.perm_iff_count.mpr fun k => ?_) hp
    simp only [List.count_append, (ho (xs ++ ys)).count_eq]
    omega

/-- Nothing is leaked if only one send fails at most, and every message has a rank. -/
theorem leaked_nil {ms : List Sending} (hr : .noRank ∉ ms)
    (hf : ms.count .sizeFails + ms.count .dataFails ≤ 1) (k : Nat) :
    leaked ms true true k = [] := by
  have none : ∀ (ms : List Sending) (a b : Bool) (k : Nat), .sizeFails ∉ ms → .dataFails ∉ ms →
      leaked ms a b k = [] := by
    intro ms
    induction ms with
    | nil => intros; rfl
    | cons m ms ih =>
      intro a b k h1 h2
      rw [List.mem_cons, not_or] at h1 h2
      cases m
      · exact ih _ _ _ h1.2 h2.2
      · exact absurd rfl h1.1
      · exact absurd rfl h2.1
      · exact ih _ _ _ h1.2 h2.2
  induction ms generalizing k with
  | nil => rfl
  | cons m ms ih =>
    rw [List.mem_cons, not_or] at hr
    cases m
    · exact absurd rfl hr.1
    · have h : ms.count .sizeFails = 0 ∧ ms.count .dataFails = 0 := by
        simp at hf ⊢
        omega
      rw [leaked, if_pos rfl, List.nil_append]
      exact none ms _ _ _ (List.count_eq_zero.mp h.1) (List.count_eq_zero.mp h.2)
    · have h : ms.count .sizeFails = 0 ∧ ms.count .dataFails = 0 := by
        simp at hf ⊢
        omega
      rw [leaked, if_pos rfl, List.nil_append]
      exact none ms _ _ _ (List.count_eq_zero.mp h.1) (List.count_eq_zero.mp h.2)
    · exact ih hr.2 (by simpa using hf) _

/-- **C92** (partial).  Every `MPI_Request` is deallocated exactly once, if every
message has a rank and at most one send fails.

Missing: it is false for other failures, see `C92_false`. -/
theorem C92_partial {order : List Nat → List Nat} (ho : ∀ xs, (order xs).Perm xs)
    {ms : List Sending} (hr : .noRank ∉ ms)
    (hf : ms.count .sizeFails + ms.count .dataFails ≤ 1) {l : Ledger} (hk : Known l)
    (hn : l.gone.Nodup) :
    ∃ l', parallelSend order ms l = .ok (ms.count .sent, l') ∧
      l'.gone.Perm (l.gone ++ List.range' l.next (ms.map objects).sum) := by
  obtain ⟨l', e, -, p⟩ := C92_leaked ho (ms := ms) hk hn
  rw [leaked_nil hr hf, List.append_nil] at p
  exact ⟨l', e, p⟩

/-- **C92** is false: if the data of two messages cannot be sent, the object of the
second is not deallocated, since that at the index of the message is, which is null. -/
theorem C92_false : ¬ ∀ (ms : List Sending) (l : Ledger), Known l → l.gone.Nodup →
    ∃ l', parallelSend id ms l = .ok (ms.count .sent, l') ∧
      l'.gone.Perm (l.gone ++ List.range' l.next (ms.map objects).sum) := by
  intro h
  obtain ⟨l', e, p⟩ := h [.dataFails, .dataFails] ⟨0, [], []⟩ (by intro k hk; cases hk)
    List.nodup_nil
  have e' : parallelSend id [.dataFails, .dataFails] ⟨0, [], []⟩ = .ok (0, ⟨4, [1, 0, 2], []⟩) := by
    decide
  rw [e'] at e
  cases e
  exact absurd p.length_eq (by decide)

/-- The message after one without a rank fails. -/
example : parallelSend id [.sent, .noRank, .sizeFails, .sent] ⟨0, [], []⟩ =
    .ok (2, ⟨5, [0, 3, 1, 4], []⟩) := by
  decide

example : parallelSend List.reverse [.sent, .noRank, .sizeFails, .sent] ⟨0, [], []⟩ =
    .ok (2, ⟨5, [4, 1, 3, 0], []⟩) := by
  decide

example : leaked [.sent, .noRank, .sizeFails, .sent] true true 0 = [2] := by decide

example : parallelSend id [.sent, .dataFails, .sent] ⟨7, [3], []⟩ =
    .ok (2, ⟨13, [3, 10, 7, 9, 11, 8, 12], []⟩) := by
  decide

end Hx.Props

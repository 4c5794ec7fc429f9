import Verif.Spec.ListenerBuffers
import Verif.Proofs.Messages

/-!
# C94: buffers of a listener of the MPI range server
-/

namespace Hx.Props

open Hx.Lives Hx.Spec.Lives

/-- **C94** (what is true for all turns).  A listener is defined whatever becomes
of its turns, and deallocates every buffer it allocates exactly once, except those of
requests it could not receive, which it does not. -/
theorem C94_abandoned {ts : List Listen} {l : Ledger} (hk : Known l) :
    ∃ l', listen ts l = .ok l' ∧ l'.next = l.next + (ts.map buffers).sum ∧
      (l'.gone ++ abandoned ts l.next).Perm
        (l.gone ++ List.range' l.next (ts.map buffers).sum) := by
  induction ts generalizing l with
  | nil => exact ⟨l, rfl, rfl, by simp [abandoned]⟩
  | cons t ts ih =>
    have free : ∀ {l : Ledger}, Known l →
        destruct l.next ⟨l.next + 1, l.gone, l.lost⟩ =
          .ok ⟨l.next + 1, l.gone ++ [l.next], l.lost⟩ ∧
        Known ⟨l.next + 1, l.gone ++ [l.next], l.lost⟩ := by
      intro l hk
      refine ⟨destruct_eq ⟨Nat.lt_succ_self _, fun hm => Nat.lt_irrefl _ (hk _ hm)⟩, ?_⟩
      intro k hm
      rcases List.mem_append.mp hm with hm | hm
      · exact Nat.lt_succ_of_lt (hk k hm)
      · rw [List.mem_singleton.mp hm]
        exact Nat.lt_succ_self _
    obtain ⟨f₁, k₁⟩ := free hk
    obtain ⟨f₂, k₂⟩ := free k₁
    cases t with
    | noSize =>
      obtain ⟨l', e, n, p⟩ := ih hk
      exact ⟨l', e, by simpa [buffers] using n, by simpa [buffers, abandoned] using p⟩
    | noData =>
      obtain ⟨l', e, n, p⟩ := ih (l := ⟨l.next + 1, l.gone, l.lost⟩)
        fun k hm => Nat.lt_succ_of_lt (hk k hm)
      refine ⟨l', e, by simp [buffers, n]; omega, List.perm_iff_count.mpr fun k => ?_⟩
      have := List.perm_iff_count.mp p k
      simp only [abandoned, buffers, List.map_cons, List.sum_cons, Nat.add_comm 1,
        List.range'_succ, List.count_append, List.count_cons] at this ⊢
      omega
    | served packed sent =>
      cases packed with
      | false =>
        obtain ⟨l', e, n, p⟩ := ih k₁
        refine ⟨l', ?_, by simp [buffers, n]; omega, List.perm_iff_count.mpr fun k => ?_⟩
        · simp only [listen, listenTurn, recvBuffer, construct, deallocBuffer, f₁, Out.ok_bind, e]
        have := List.perm_iff_count.mp p k
        simp only [abandoned, buffers, List.map_cons, List.sum_cons, Nat.add_comm 1,
          List.range'_succ, List.count_append, List.count_cons, List.count_nil, if_false,
          Bool.false_eq_true] at this ⊢
        omega
      | true =>
        obtain ⟨l', e, n, p⟩ := ih k₂
        refine ⟨l', ?_, by simp [buffers, n]; omega, List.perm_iff_count.mpr fun k => ?_⟩
        · simp only [listen, listenTurn, recvBuffer, construct, deallocBuffer, f₁, f₂,
            Out.ok_bind, e]
        have := List.perm_iff_count.mp p k
        simp only [abandoned, buffers, List.map_cons, List.sum_cons, Nat.add_comm 2,
          List.range'_succ, List.count_append, List.count_cons, List.count_nil, if_true,
          Nat.add_assoc l.next 1 1, Nat.reduceAdd]
          at this ⊢
        omega

/-- **C94** (partial).  Every buffer is deallocated exactly once if every request the
length of which was received is received.

Missing: it is false otherwise, see `C94_false`. -/
theorem C94_partial {ts : List Listen} (h : .noData ∉ ts) {l : Ledger} (hk : Known l) :
    ∃ l', listen ts l = .ok l' ∧
      l'.gone.Perm (l.gone ++ List.range' l.next (ts.map buffers).sum) := by
  obtain ⟨l', e, -, p⟩ := C94_abandoned (ts := ts) hk
  have : ∀ k, abandoned ts k = [] := by
    clear p e
    induction ts with
    | nil => intro; rfl
    | cons t ts ih =>
      intro k
      rw [List.mem_cons, not_or] at h
      cases t
      · exact ih h.2 _
      · exact absurd rfl h.1
      · exact ih h.2 _
  rw [this, List.append_nil] at p
  exact ⟨l', e, p⟩

/-- **C94** is false: the buffer of a request that cannot be received is not
deallocated. -/
theorem C94_false : ¬ ∀ (ts : List Listen) (l : Ledger), Known l →
    ∃ l', listen ts l = .ok l' ∧
      l'.gone.Perm (l.gone ++ List.range' l.next (ts.map buffers).sum) := by
  intro h
  obtain ⟨l', e, p⟩ := h [.served true true, .noData] ⟨0, [], []⟩ (by intro k hk; cases hk)
  have e' : listen [.served true true, .noData] ⟨0, [], []⟩ = .ok ⟨3, [0, 1], []⟩ := by decide
  rw [e'] at e
  cases e
  exact absurd p.length_eq (by decide)

example : listen [.served true true, .noData, .served false true, .noSize, .served true false]
    ⟨0, [], []⟩ = .ok ⟨6, [0, 1, 3, 4, 5], []⟩ := by
  decide

example : abandoned [.served true true, .noData, .served false true, .noSize] 0 = [2] := by decide

end Hx.Props

import Verif.Proofs.ResultLists

/-!
# C90: results are destructed exactly once
-/

namespace Hx.Props

open Hx.Lists Hx.Spec.Lists

/-- **C90** (while a session is open).  Whatever flushes, rounds of the background
thread (or PUTs sent at once) and destructions of lists a session consists of, no
list is used after it was destructed, and every result is in exactly one list of
the user or the session, once, or has been destructed, once. -/
theorem C90_kept (async c : Bool) (as : List Act) :
    ∃ s, steps async c as .start = .ok s ∧ Kept s := by
  obtain ⟨s, e, g, -⟩ := steps_ok (async := async) (c := c) as good_start rfl
  exact ⟨s, e, g.once, g.keys⟩

/-- **C90** (lists destroyed before the session is closed).  Every result has then
been destructed exactly once, and every list, through either interface. -/
theorem C90_closed (async c : Bool) (as : List Act) :
    ∃ s, (steps async c as .start >>= fun s => destroyAll c s s.users >>= fun s => close s) = .ok s ∧
      AllGone s := by
  obtain ⟨s, e, g, ho⟩ := steps_ok (async := async) (c := c) as good_start rfl
  obtain ⟨m, e₁, g₁⟩ := destroyAll_ok (c := c) (fun _ => ho) s.users s.async.toList
    (g.perm List.perm_append_comm)
  obtain ⟨m', e₂, g₂⟩ := close_ok (s := { s with mem := m, users := [] })
    (g₁.perm (by rw [State.live, List.append_nil]))
  refine ⟨{ s with mem := m', async := none, users := [], opened := false }, ?_, ?_, ?_⟩
  · rw [e, Out.ok_bind, e₁, Out.ok_bind, e₂]
  · exact List.map_eq_nil_iff.mp g₂.keys.eq_nil
  · intro x
    have h := g₂.once x
    rw [held, List.map_eq_nil_iff.mp g₂.keys.eq_nil] at h
    simpa using h

/-- **C90** (lists destroyed after the session was closed).  The same, through
the C++ interface. -/
theorem C90_after_close (async : Bool) (as : List Act) :
    ∃ s, (steps async false as .start >>= fun s => close s >>= fun s =>
      destroyAll false s s.users) = .ok s ∧ AllGone s := by
  obtain ⟨s, e, g, ho⟩ := steps_ok (async := async) (c := false) as good_start rfl
  obtain ⟨m, e₁, g₁⟩ := close_ok g
  obtain ⟨m', e₂, g₂⟩ := destroyAll_ok (c := false)
    (s := { s with mem := m, async := none, opened := false }) (by simp) s.users []
    (g₁.perm (by rw [List.append_nil]))
  refine ⟨{ s with mem := m', async := none, users := [], opened := false }, ?_, ?_, ?_⟩
  · rw [e, Out.ok_bind, e₁, Out.ok_bind, e₂]
  · exact List.map_eq_nil_iff.mp g₂.keys.eq_nil
  · intro x
    have h := g₂.once x
    rw [held, List.map_eq_nil_iff.mp g₂.keys.eq_nil] at h
    simpa using h

/-- … through the C interface it is undefined for every list that is left:
`hxhim_results_destroy` reads `hx->p`, which is null. -/
theorem C90_c_after_close_ub {s s' : State} (h : close s = .ok s') (k : Nat) (ks : List Nat) :
    destroyAll true s' (k :: ks) = .ub := by
  have ho : s'.opened = false := by
    rw [close] at h
    cases e : destructPtr s.async s.mem with
    | ok m => rw [e, Out.ok_bind] at h; cases h; rfl
    | err => rw [e] at h; cases h
    | ub => rw [e] at h; cases h
  rw [destroyAll, destroy, ho]
  rfl

/-- **C90** (what the user gets).  With a background thread a flush of PUTs gives
the user the results the session has kept and the new ones, in this order, and
leaves all other lists as they are. -/
theorem C90_puts {c : Bool} {as : List Act} {s : State} (h : steps true c as .start = .ok s)
    (n : Nat) :
    ∃ res s', flushPuts true n s = .ok (res, s') ∧
      HandedOver s s' res (List.range' s.mem.made n) := by
  obtain ⟨s₀, e₀, g, -⟩ := steps_ok (async := true) (c := c) as good_start rfl
  rw [h] at e₀
  cases e₀
  obtain ⟨x, r, hk, hl, h0, h1, h2⟩ := g.kept
  exact ⟨_, _, flushPuts_eq hk hl n, g.handed h0 h1 h2⟩

/-- … and so does a flush of everything. -/
theorem C90_flush {c : Bool} {as : List Act} {s : State} (h : steps true c as .start = .ok s)
    (puts gets getops dels hists : Nat) :
    ∃ res s', flush true puts gets getops dels hists s = .ok (res, s') ∧
      HandedOver s s' res
        (List.range' s.mem.made (puts + (gets + (getops + (dels + hists))))) := by
  obtain ⟨s₀, e₀, g, -⟩ := steps_ok (async := true) (c := c) as good_start rfl
  rw [h] at e₀
  cases e₀
  obtain ⟨x, r, hk, hl, h0, h1, h2⟩ := g.kept
  obtain ⟨l, e⟩ := flush_eq hk hl puts gets getops dels hists
  exact ⟨_, _, e, g.handed h0 h1 h2⟩

/-- … and a sync, which adds a result for each of the `n` datastores of the rank. -/
theorem C90_sync {c : Bool} {as : List Act} {s : State} (h : steps true c as .start = .ok s)
    (n puts gets getops dels hists : Nat) :
    ∃ res s', sync true n puts gets getops dels hists s = .ok (res, s') ∧
      HandedOver s s' res
        (List.range' s.mem.made (puts + (gets + (getops + (dels + (hists + n)))))) := by
  obtain ⟨s₀, e₀, g, -⟩ := steps_ok (async := true) (c := c) as good_start rfl
  rw [h] at e₀
  cases e₀
  obtain ⟨x, r, hk, hl, h0, h1, h2⟩ := g.kept
  obtain ⟨l, e⟩ := sync_eq hk hl n puts gets getops dels hists
  exact ⟨_, _, e, g.handed h0 h1 h2⟩

/-- … without a thread a flush hands over nothing the session has kept: what `serial_puts` has kept is
destructed when the session is closed, and the user never gets it. -/
theorem C90_handed_over_false {c : Bool} {as : List Act} {s s' : State} {n res : Nat}
    (h : steps false c as .start = .ok s) (e : flushPuts false n s = .ok (res, s')) :
    s'.async = s.async := by
  obtain ⟨s₀, e₀, g, -⟩ := steps_ok (async := false) (c := c) as good_start rfl
  rw [h] at e₀
  cases e₀
  obtain ⟨m, r, e', -⟩ := flushPuts_ok false g n
  rw [e] at e'
  cases e'
  rfl

namespace C90Ex

/-- Two rounds of the thread, a flush, a list destroyed, another round, a sync, and
a round that nobody asks for. -/
def acts : List Act :=
  [.background 2, .background 1, .flushPuts 1, .flush 1 2 0 1 0, .destroy 1, .background 1,
   .sync 2 0 1 0 0 0, .background 1]

end C90Ex

/-- Results 0 to 3 are gone, 4 to 7 and 8 to 11 are with the user, 12 is with the
session. -/
example : steps true true C90Ex.acts .start =
    .ok ⟨⟨20, 13, [(19, [12]), (12, [8, 9, 10, 11]), (4, [4, 5, 6, 7])], [0, 1, 2, 3]⟩,
      some 19, [12, 4], true⟩ := by
  decide

example : ∃ res s', flushPuts true 2 ⟨⟨2, 3, [(0, [0, 2]), (1, [1])], []⟩, some 0, [1], true⟩ =
    .ok (res, s') ∧ Holds s'.mem res [0, 2, 3, 4] ∧ Holds s'.mem 1 [1] :=
  ⟨2, ⟨⟨4, 5, [(2, [0, 2, 3, 4]), (1, [1])], []⟩, none, [1], true⟩, by decide, by
    simp [Holds], by simp [Holds]⟩

example : ∃ res s', sync true 2 1 0 1 0 0 ⟨⟨1, 1, [(0, [0])], []⟩, some 0, [], true⟩ =
    .ok (res, s') ∧ Holds s'.mem res [0, 1, 2, 3, 4] :=
  ⟨1, ⟨⟨8, 5, [(1, [0, 1, 2, 3, 4])], []⟩, none, [], true⟩, by decide, by simp [Holds]⟩

/-- Without a thread the results of PUTs sent at once stay with the session. -/
example : steps false true [.background 2, .flushPuts 1, .background 1] .start =
    .ok ⟨⟨4, 4, [(0, [0, 1, 3]), (1, [2])], []⟩, some 0, [1], true⟩ := by
  decide

/-- Appending without emptying the other list would destruct results twice: the
statement `Kept` is not true of any state. -/
example : ¬ Kept ⟨⟨2, 1, [(0, [0]), (1, [0])], []⟩, none, [0, 1], true⟩ := by
  intro h
  have := h.1 0
  revert this
  decide

example : ∃ s, (steps true true C90Ex.acts .start >>= fun s =>
    destroyAll true s s.users >>= fun s => close s) = .ok s ∧ AllGone s :=
  C90_closed true true C90Ex.acts

end Hx.Props

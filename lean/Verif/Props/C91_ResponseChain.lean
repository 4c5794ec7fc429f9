import Verif.Proofs.ResponseChain

/-!
# C91: the responses of a round over Thallium and MPI
-/

namespace Hx.Props

open Hx.Lives Hx.Spec.Lives

theorem responses_length (os : List Outcome) (k : Nat) : (responses os k).length ≤ os.length := by
  induction os generalizing k with
  | nil => exact Nat.le_refl _
  | cons o os ih =>
    have h0 := ih k
    have h1 := ih (k + 1)
    cases o <;> simp only [responses, List.length_cons] <;> omega

/-- **C91** Over Thallium a round returns a chain with the responses of all requests
that got one, in the order of the requests and each once, and leaves out the
others; responses that could not be unpacked, and no other messages, have been
destructed, each once.  This holds if debugging output is off or no request
fails. -/
theorem C91_partial (debug : Bool) {os : List Outcome}
    (hd : debug = false ∨ ∀ o ∈ os, failed o = false) {l : Ledger} (hk : Known l) :
    ∃ c l', processRequests debug os ⟨none, none, []⟩ l = .ok (c, l') ∧
      (∀ n, os.length ≤ n → follow c.next n c.head = responses os l.next) ∧
      l'.gone = l.gone ++ unreadable os l.next ∧ l'.lost = l.lost := by
  obtain ⟨c, e, g⟩ := processRequests_ok debug hd hk is_nil List.nodup_nil nofun
  refine ⟨c, _, e, fun n hn => ?_, rfl, rfl⟩
  refine g.reach n (Nat.le_trans ?_ hn)
  rw [List.nil_append]
  exact responses_length os l.next

/-- With debugging output it is undefined for every round with a request that
fails: the response is read before the pointer is looked at. -/
theorem C91_debug_ub {os : List Outcome} (hf : ∃ o ∈ os, failed o = true) {l : Ledger}
    (hk : Known l) : processRequests true os ⟨none, none, []⟩ l = .ub := by
  suffices h : ∀ (os : List Outcome) (c : Chain) (xs : List Nat) (l : Ledger), Known l → Is c xs →
      xs.Nodup → (∀ x ∈ xs, x < l.next) → (∃ o ∈ os, failed o = true) →
      processRequests true os c l = .ub from h os _ [] l hk is_nil List.nodup_nil nofun hf
  clear hf hk
  intro os
  induction os with
  | nil => rintro c xs l - - - - ⟨o, ho, -⟩; cases ho
  | cons o os ih =>
    intro c xs l hk h hn hx hf
    cases o with
    | absent =>
      rw [processRequests]
      refine ih c xs l hk h hn hx ?_
      obtain ⟨o, ho, hf⟩ := hf
      rcases List.mem_cons.mp ho with rfl | ho
      · cases hf
      · exact ⟨o, ho, hf⟩
    | noEndpoint => rw [processRequests] <;> first | rfl | nofun
    | notPacked => rw [processRequests] <;> first | rfl | nofun
    | unreadable =>
      have hno : l.next ∉ l.gone := fun hm => Nat.lt_irrefl _ (hk _ hm)
      have e₁ : destruct l.next ⟨l.next + 1, l.gone, l.lost⟩ =
          .ok ⟨l.next + 1, l.gone ++ [l.next], l.lost⟩ := destruct_eq ⟨Nat.lt_succ_self _, hno⟩
      rw [processRequests]
      · simp only [processRequest, construct, e₁, Out.ok_bind]
        rfl
      all_goals nofun
    | response =>
      have hxn : l.next ∉ xs := fun hm => Nat.lt_irrefl _ (hx _ hm)
      obtain ⟨c₁, e₁, g₁⟩ := link_ok true h hn hxn
      rw [processRequests]
      · simp only [processRequest, construct, Out.ok_bind, e₁]
        refine ih c₁ _ ⟨l.next + 1, l.gone, l.lost⟩ (fun k hm => Nat.lt_succ_of_lt (hk k hm)) g₁
          ?_ ?_ ?_
        · exact List.nodup_append.mpr ⟨hn, by simp, fun a ha b hb he => by
            rw [List.mem_singleton.mp hb] at he
            exact hxn (he ▸ ha)⟩
        · intro x hm
          rcases List.mem_append.mp hm with hm | hm
          · exact Nat.lt_succ_of_lt (hx x hm)
          · rw [List.mem_singleton.mp hm]
            exact Nat.lt_succ_self _
        · obtain ⟨o, ho, hf⟩ := hf
          rcases List.mem_cons.mp ho with rfl | ho
          · cases hf
          · exact ⟨o, ho, hf⟩
      all_goals nofun

/-- **C91** is false as it stands. -/
theorem C91_false : ¬ ∀ (debug : Bool) (os : List Outcome) (l : Ledger), Known l →
    ∃ x, processRequests debug os ⟨none, none, []⟩ l = .ok x := by
  intro h
  obtain ⟨x, e⟩ := h true [.noEndpoint] ⟨0, [], []⟩ (by intro k hk; cases hk)
  rw [C91_debug_ub ⟨_, List.mem_singleton.mpr rfl, rfl⟩ (by intro k hk; cases hk)] at e
  cases e

/-- **C91** (MPI).  Over MPI the same holds for what was received, with or without
debugging output. -/
theorem C91_mpi {os : List Outcome} {l : Ledger} (hk : Known l) :
    ∃ c l', returnMsgs os l = .ok (c, l') ∧
      (∀ n, os.length ≤ n → follow c.next n c.head = responses os l.next) ∧
      l'.gone = l.gone ++ unreadable os l.next ∧ l'.lost = l.lost := by
  obtain ⟨c, e, g⟩ := linkAll_ok (rs := responses os l.next) is_nil
    (by simpa using responses_nodup os l.next)
  refine ⟨c, ⟨l.next + used os, l.gone ++ unreadable os l.next, l.lost⟩,
    by rw [returnMsgs, unpackAll_ok hk, Out.ok_bind]; simp only [e, Out.ok_bind],
    fun n hn => ?_, rfl, rfl⟩
  refine g.reach n (Nat.le_trans ?_ hn)
  rw [List.nil_append]
  exact responses_length os l.next

example : returnMsgs [.response, .unreadable, .response, .response] ⟨6, [], []⟩ =
    .ok (⟨some 6, some 9, [(8, 9), (6, 8)]⟩, ⟨10, [7], []⟩) := by
  decide

/-- Six requests, three of which get responses; message 7 could not be unpacked. -/
example : processRequests false [.noEndpoint, .response, .unreadable, .absent, .response, .response]
    ⟨none, none, []⟩ ⟨6, [], []⟩ = .ok (⟨some 6, some 9, [(8, 9), (6, 8)]⟩, ⟨10, [7], []⟩) := by
  decide

example : ∃ c l', processRequests false [.noEndpoint, .response, .unreadable] ⟨none, none, []⟩
      ⟨3, [], []⟩ = .ok (c, l') ∧
    (∀ n, 3 ≤ n → follow c.next n c.head = [3]) ∧ l'.gone = [4] ∧ l'.lost = [] :=
  C91_partial false (.inl rfl) (os := [.noEndpoint, .response, .unreadable]) (l := ⟨3, [], []⟩)
    (by intro k hk; cases hk)

example : processRequests true [.response, .noEndpoint] ⟨none, none, []⟩ ⟨2, [], []⟩ = .ub := by
  decide

example : follow [(8, 9), (6, 8)] 6 (some 6) = [6, 8, 9] := by decide

example : responses [.noEndpoint, .response, .unreadable, .absent, .response, .response] 6 =
    [6, 8, 9] := by decide

end Hx.Props

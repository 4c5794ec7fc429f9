import Verif.Proofs.Messages

/-!
# C89: messages are destructed exactly once
-/

namespace Hx.Props

open Hx.Lives Hx.Spec.Lives

/-- **C89** (flushes).  `process` destructs every request that was queued and
every response that it, the range server or a datastore of the rank, or the
transport has constructed, exactly once and no other message, whatever the
transport returns, if no two datastores with packets in the queues are on the
same other rank. -/
theorem C89_process_partial {s : Session} {qs : List (List Nat)} {l : Ledger} (hk : Known l)
    (hq : Queued qs l) (ho : OneEach s qs.length) {fuel : Nat} (hf : qs.flatten.length ≤ fuel) :
    ∃ l', process s fuel qs l = .ok l' ∧ Done qs.flatten l l' := by
  obtain ⟨l', e, h⟩ := process_ok fuel hk hq ho hf
  exact ⟨l', e, h.done hq.1 fun k hm => (hq.2 k hm).1⟩

namespace C89Ex

/-- Three datastores, the first on the rank itself. -/
def session : Session := ⟨0, id, fun _ => true, fun _ => 2⟩

/-- Requests 0, 1 and 4 for the first datastore, 2 for the second, 3 for the third. -/
def queues : List (List Nat) := [[0, 1, 4], [2], [3]]

def ledger : Ledger := ⟨5, [], []⟩

theorem known : Known ledger := by intro k hk; cases hk

theorem queued : Queued queues ledger := by
  refine ⟨by decide, ?_⟩
  decide

theorem oneEach : OneEach session queues.length := fun _ _ _ _ h _ => h

end C89Ex

/-- The transport returns responses 5 and 6; the rank has 7 to 12. -/
example : process C89Ex.session 5 C89Ex.queues C89Ex.ledger =
    .ok ⟨13, [5, 6, 2, 3, 8, 7, 0, 10, 9, 1, 12, 11, 4], []⟩ := by
  decide

example : ∃ l', process C89Ex.session 5 C89Ex.queues C89Ex.ledger = .ok l' ∧
    Done C89Ex.queues.flatten C89Ex.ledger l' :=
  C89_process_partial C89Ex.known C89Ex.queued C89Ex.oneEach (by decide)

/-- … and it is false with two datastores on another rank: the second request
takes the place of the first, which is neither sent nor destructed. -/
theorem C89_two_datastores_false :
    ¬ ∀ (s : Session) (qs : List (List Nat)) (l l' : Ledger), Known l → Queued qs l →
      process s qs.flatten.length qs l = .ok l' → Done qs.flatten l l' := by
  intro h
  have := (h ⟨0, fun _ => 1, fun _ => true, fun _ => 1⟩ [[0], [1]] ⟨2, [], []⟩ ⟨3, [2, 1], []⟩
    (by intro k hk; cases hk) ⟨by decide, by decide⟩ (by decide)).once 0 (.inl (by decide))
  revert this
  decide

/-- **C89** (later flushes).  A session may flush again: what is queued
afterwards is destructed once as well, and what is gone is not touched. -/
theorem C89_again_partial {s s' : Session} {qs qs' : List (List Nat)} {l l' : Ledger} (hk : Known l)
    (hq : Queued qs l) (ho : OneEach s qs.length) (ho' : OneEach s' qs'.length)
    (hr : process s qs.flatten.length qs l = .ok l')
    -- what is queued between the flushes is new
    (n : Nat) (hq' : qs'.flatten.Nodup) (hnew : ∀ k ∈ qs'.flatten, l'.next ≤ k ∧ k < l'.next + n) :
    ∃ l'', process s' qs'.flatten.length qs' { l' with next := l'.next + n } = .ok l'' ∧
      Done qs'.flatten { l' with next := l'.next + n } l'' := by
  obtain ⟨l₁, e, h⟩ := process_ok _ hk hq ho (Nat.le_refl _)
  rw [hr] at e
  cases e
  have hk' : Known l' := h.known hk fun k hm => (hq.2 k hm).1
  refine C89_process_partial (l := { l' with next := l'.next + n }) ?_ ⟨hq', ?_⟩ ho' (Nat.le_refl _)
  · intro k hm
    have := hk' k hm
    simp only
    omega
  · intro k hm
    have := hnew k hm
    refine ⟨this.2, fun hg => ?_⟩
    have := hk' k hg
    omega

example : ∃ l'', process C89Ex.session 1 [[14]] ⟨15, [5, 6, 2, 3, 8, 7, 0, 10, 9, 1, 12, 11, 4], []⟩ =
      .ok l'' ∧ Done [14] ⟨15, [5, 6, 2, 3, 8, 7, 0, 10, 9, 1, 12, 11, 4], []⟩ l'' :=
  C89_again_partial (s := C89Ex.session) (s' := C89Ex.session) (qs := C89Ex.queues) (qs' := [[14]])
    (l := C89Ex.ledger) (l' := ⟨13, [5, 6, 2, 3, 8, 7, 0, 10, 9, 1, 12, 11, 4], []⟩) C89Ex.known
    C89Ex.queued C89Ex.oneEach (fun _ _ _ _ h _ => h) (by decide) 2 (by decide) (by decide)

/-- **C89** (closing).  When a session is closed, with requests of all kinds still
queued and PUTs taken by the background thread, all of them are destructed exactly
once, in whatever order the two threads get at the queue of PUTs. -/
theorem C89_close_partial {s : Session} {n : Nat} (ts : List Turn) {others : List (List Nat)}
    {c : Closing} (hk : Known c.ledger)
    (hq : Queued (c.queue ++ c.batch.getD [] ++ others) c.ledger) (ho : OneEach s n)
    (hl : c.queue.length ≤ n) (hb : (c.batch.getD []).length ≤ n) :
    ∃ l', close s n ts others c = .ok l' ∧
      Done (c.queue ++ c.batch.getD [] ++ others).flatten c.ledger l' := by
  have e : (c.queue ++ c.batch.getD [] ++ others).flatten = c.left ++ others.flatten := by
    simp [Closing.left]
  rw [Queued, e] at hq
  obtain ⟨l', e', h⟩ := close_ok (s := s) ts hk hq.1 hq.2 ho hl hb
  rw [e]
  exact ⟨l', e', h.done hq.1 fun k hm => (hq.2 k hm).1⟩

/-- The thread has taken PUTs 0 and 1; 2 and 3 are queued, and a GET 4.  If the
thread is first it sends 3 and serves 2; otherwise both are destructed unsent. -/
example : close C89Ex.session 3 [.run, .take, .clear, .run, .clear] [[4]]
    ⟨[[2], [3]], some [[0], [1]], ⟨5, [], []⟩⟩ =
    .ok ⟨13, [5, 6, 1, 8, 7, 0, 9, 10, 3, 12, 11, 2, 4], []⟩ := by
  decide

example : close C89Ex.session 3 [.clear, .run, .take, .run, .clear] [[4]]
    ⟨[[2], [3]], some [[0], [1]], ⟨5, [], []⟩⟩ =
    .ok ⟨9, [2, 3, 5, 6, 1, 8, 7, 0, 4], []⟩ := by
  decide

theorem receive_eq (t : Lives.Transport) (a : Bool) {l : Ledger} (hk : Known l) :
    receive t (.request a) l = .ok ⟨l.next + 3 + (bif a then 1 else 0),
      l.gone ++ [l.next] ++ (bif a then [l.next + 3] else []) ++ [l.next + 1, l.next + 2],
      l.lost ++ (match t with | .thallium => [] | .mpi => [l.next + 1, l.next + 2])⟩ := by
  have hno : ∀ k, l.next ≤ k → k ∉ l.gone := fun k h hm => by have := hk k hm; omega
  have hu : unpack (.request a) l = .ok (some (l.next + 1), ⟨l.next + 2, l.gone ++ [l.next], l.lost⟩) := by
    have e : destruct l.next ⟨l.next + 1 + 1, l.gone, l.lost⟩ =
        .ok ⟨l.next + 2, l.gone ++ [l.next], l.lost⟩ :=
      destruct_eq ⟨by simp only; omega, hno _ (Nat.le_refl _)⟩
    simp only [unpack, construct, e, Out.ok_bind]
  have hk' : Known ⟨l.next + 2, l.gone ++ [l.next], l.lost⟩ := by
    intro k hm
    rcases List.mem_append.mp hm with hm | hm
    · have := hk k hm
      simp only
      omega
    · simp only [List.mem_singleton] at hm
      simp only
      omega
  rw [receive, hu, Out.ok_bind]
  simp only [Packet.answers]
  rw [rangeServer_eq a hk', Out.ok_bind]
  have h1 := hno (l.next + 1) (by omega)
  have h2 := hno (l.next + 2) (by omega)
  cases a <;> cases t <;>
    simp [Lives.Transport.dispose, destruct, dealloc, h1, h2, Out.ok_bind]

/-- A packet that is no request leaves nothing behind. -/
theorem unpack_none {p : Packet} (hp : ∀ a, p ≠ .request a) {l : Ledger} (hk : Known l) :
    ∃ l', unpack p l = .ok (none, l') ∧ Spent l [] l' := by
  have hno : ∀ k, l.next ≤ k → k ∉ l.gone := fun k h hm => by have := hk k hm; omega
  have h0 := hno l.next (Nat.le_refl _)
  have h1 := hno (l.next + 1) (by omega)
  have one : Spent l [] ⟨l.next + 1, l.gone ++ [l.next], l.lost⟩ := by
    refine ⟨by simp, ?_, rfl⟩
    simp
  have e₁ : destruct l.next { l with next := l.next + 1 } =
      .ok ⟨l.next + 1, l.gone ++ [l.next], l.lost⟩ := destruct_eq ⟨Nat.lt_succ_self _, h0⟩
  cases p with
  | request a => exact absurd rfl (hp a)
  | broken =>
    refine ⟨⟨l.next + 2, l.gone ++ [l.next + 1] ++ [l.next], l.lost⟩, ?_, by simp, ?_, rfl⟩
    · have e₂ : destruct (l.next + 1) ⟨l.next + 1 + 1, l.gone, l.lost⟩ =
          .ok ⟨l.next + 2, l.gone ++ [l.next + 1], l.lost⟩ := destruct_eq ⟨Nat.lt_succ_self _, h1⟩
      have e₃ : destruct l.next ⟨l.next + 2, l.gone ++ [l.next + 1], l.lost⟩ =
          .ok ⟨l.next + 2, l.gone ++ [l.next + 1] ++ [l.next], l.lost⟩ :=
        destruct_eq ⟨by simp only; omega, by simp [h0]⟩
      simp only [unpack, construct, e₂, e₃, Out.ok_bind]
    · have e : l.next + 2 - l.next = 2 := by omega
      simp only [e, List.range'_succ, List.range'_zero]
      rw [List.perm_iff_count]
      intro b
      simp only [List.count_append, List.count_cons, List.count_nil]
      omega
  | none => exact ⟨_, by simp only [unpack, construct, e₁, Out.ok_bind], one⟩
  | notRequest => exact ⟨_, by simp only [unpack, construct, e₁, Out.ok_bind], one⟩
  | unknown => exact ⟨_, by simp only [unpack, construct, e₁, Out.ok_bind], one⟩

/-- **C89** (range servers of Thallium).  Whatever packets a range server
receives, requests or not, all messages it has constructed are destructed exactly
once. -/
theorem C89_thallium (as : List Packet) {l : Ledger} (hk : Known l) :
    ∃ l', receiveAll .thallium as l = .ok l' ∧ Done [] l l' := by
  suffices h : ∃ l', receiveAll .thallium as l = .ok l' ∧ Spent l [] l' by
    obtain ⟨l', e, h⟩ := h
    exact ⟨l', e, h.done (by simp) (by simp)⟩
  induction as generalizing l with
  | nil => exact ⟨l, rfl, .refl l⟩
  | cons p as ih =>
    have h₁ : ∃ l₁, receive .thallium p l = .ok l₁ ∧ Spent l [] l₁ := by
      by_cases hp : ∃ a, p = .request a
      · obtain ⟨a, rfl⟩ := hp
        refine ⟨_, receive_eq _ a hk, by simp only; omega, ?_, by simp⟩
        cases a
        · have e : l.next + 3 + 0 - l.next = 3 := by omega
          simp [e, List.range'_succ]
        · have e : l.next + 3 + 1 - l.next = 4 := by omega
          simp only [cond_true, e, List.range'_succ, List.range'_zero]
          rw [List.perm_iff_count]
          intro b
          have e' : l.next + 1 + 1 = l.next + 2 := rfl
          have e'' : l.next + 2 + 1 = l.next + 3 := rfl
          simp only [List.count_append, List.count_cons, List.count_nil, e', e'']
          omega
      · obtain ⟨l₁, e₁, s₁⟩ := unpack_none (fun a h => hp ⟨a, h⟩) hk
        exact ⟨l₁, by rw [receive, e₁, Out.ok_bind], s₁⟩
    obtain ⟨l₁, e₁, s₁⟩ := h₁
    obtain ⟨l₂, e₂, s₂⟩ := ih (s₁.known hk (by simp))
    exact ⟨l₂, by rw [receiveAll, e₁, Out.ok_bind, e₂], s₁.trans s₂⟩

example : receiveAll .thallium [.request true, .broken, .request false, .unknown] ⟨0, [], []⟩ =
    .ok ⟨10, [0, 3, 1, 2, 5, 4, 6, 7, 8, 9], []⟩ := by decide

/-- Range servers of MPI free every request and every response without running
the destructor: the arrays of two messages are lost with each request. -/
theorem C89_mpi (as : List Bool) {l : Ledger} (hk : Known l) :
    ∃ l', receiveAll .mpi (as.map Packet.request) l = .ok l' ∧
      l'.lost.length = l.lost.length + 2 * as.length := by
  induction as generalizing l with
  | nil => exact ⟨l, rfl, rfl⟩
  | cons a as ih =>
    obtain ⟨l₂, e₂, h₂⟩ := ih (l := ⟨l.next + 3 + (bif a then 1 else 0),
        l.gone ++ [l.next] ++ (bif a then [l.next + 3] else []) ++ [l.next + 1, l.next + 2],
        l.lost ++ [l.next + 1, l.next + 2]⟩) (by
      intro k hm
      simp only [List.mem_append, List.mem_cons, List.not_mem_nil, or_false] at hm
      rcases hm with ((hm | hm) | hm) | hm
      · have := hk k hm
        simp only
        omega
      · simp only
        omega
      · cases a
        · cases hm
        · simp only [cond_true, List.mem_singleton] at hm
          simp only [cond_true]
          omega
      · simp only
        omega)
    refine ⟨l₂, ?_, ?_⟩
    · rw [List.map_cons, receiveAll, receive_eq _ _ hk, Out.ok_bind]
      exact e₂
    · rw [h₂]
      simp only [List.length_append, List.length_cons, List.length_nil]
      omega

/-- **C89** is false for range servers of MPI. -/
theorem C89_mpi_false : ¬ ∀ (t : Lives.Transport) (as : List Bool) (l : Ledger), Known l →
    ∃ l', receiveAll t (as.map Packet.request) l = .ok l' ∧ Done [] l l' := by
  intro h
  have hk : Known ⟨0, [], []⟩ := by intro k hk; cases hk
  obtain ⟨l', e, hd⟩ := h .mpi [true] ⟨0, [], []⟩ hk
  obtain ⟨l₁, e₁, h₁⟩ := C89_mpi [true] hk
  rw [e] at e₁
  cases e₁
  rw [hd.whole] at h₁
  cases h₁

/-- … and undefined for every packet that is no request: the result of unpacking is
not looked at, and there is no request to execute. -/
theorem C89_mpi_ub {p : Packet} (hp : ∀ a, p ≠ .request a) {l : Ledger} (hk : Known l) :
    receive .mpi p l = .ub := by
  obtain ⟨l₁, e₁, -⟩ := unpack_none hp hk
  rw [receive, e₁, Out.ok_bind]

example : receiveAll .mpi [.request true, .unknown] ⟨0, [], []⟩ = .ub := by decide

end Hx.Props

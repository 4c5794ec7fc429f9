import Verif.Proofs.MpiEnds
import Verif.Proofs.MpiRounds

/-!
# C56: requests and responses of ranks that use MPI

For any number of ranks and listener threads, any programs of the clients, and any interleaving of
their steps. MPI itself is modelled by `Chan` and `eager` (Verif/Model/Mpi.lean).
-/

namespace Hx.Props
open Hx Hx.Mpi Spec.Mpi

variable {n L : Nat} {α β W : Type}

/-- C56, at any time: buffers have the right length, what the range servers did is the processing of
the requests of the log one after the other, each request that was processed was sent by the client it
is attributed to, requests of one client to one rank are processed in order and once, and the responses
a client has are those to its requests, in order. -/
theorem C56_faithful (sys : Sys n α β W) (Good : W → Prop) (w : W) (prog : Fin n → List (Act n α)) (hw : Good w)
    (hans : Answers sys prog Good) (hd : Distinct prog) (ls : List (Label n L)) (st : St n L α β W)
    (h : run sys (init w prog) ls = some st) : Faithful sys w prog st := by
  obtain ⟨H, hi⟩ := inv_run hans hd ls (inv_init w hw prog) h
  exact inv_faithful hi

/-- C56, at the end: all requests were processed once, and every client has the responses to all of its
requests, in the order of the requests. -/
theorem C56_complete (sys : Sys n α β W) (Good : W → Prop) (w : W) (prog : Fin n → List (Act n α)) (hw : Good w)
    (hans : Answers sys prog Good) (hd : Distinct prog) (ls : List (Label n L)) (st : St n L α β W)
    (h : run sys (init w prog) ls = some st) (hf : Finished st) : Complete sys w prog st := by
  obtain ⟨H, hi⟩ := inv_run hans hd ls (inv_init w hw prog) h
  exact inv_complete hi hf

/-- C56, at any time: requests are processed during the round they belong to: not before it starts, and
all of them before the next one starts. -/
theorem C56_rounds (sys : Sys n α β W) (Good : W → Prop) (w : W) (prog : Fin n → List (Act n α)) (hw : Good w)
    (hans : Answers sys prog Good) (hd : Distinct prog) (ls : List (Label n L)) (st : St n L α β W)
    (h : run sys (init w prog) ls = some st) : InRounds prog st := by
  obtain ⟨H, hi⟩ := inv_run hans hd ls (inv_init w hw prog) h
  exact inv_rounds hi

/-- C56: executions end. The bound depends on the number of requests only. -/
theorem C56_terminates (sys : Sys n α β W) (Good : W → Prop) (w : W) (prog : Fin n → List (Act n α)) (hw : Good w)
    (hans : Answers sys prog Good) (hd : Distinct prog) (ls : List (Label n L)) (st : St n L α β W)
    (h : run sys (init w prog) ls = some st) : ls.length ≤ stepBound prog := by
  have := left_run hans hd ls (inv_init w hw prog) h
  rw [left_init] at this
  omega

/-- C56, no deadlock, partial: when nothing more can happen, every client is finished, if the library
copies all messages, or every round is one request, or a rank has a listener for every client but one.
Missing: all other cases, in which it is false (`C56_deadlock_false`, `C56_large_responses_false`). -/
theorem C56_progress_partial (sys : Sys n α β W) (Good : W → Prop) (w : W) (prog : Fin n → List (Act n α)) (hw : Good w)
    (hans : Answers sys prog Good) (hd : Distinct prog) (hr : Relaxed sys L prog) (ls : List (Label n L)) (st : St n L α β W)
    (h : run sys (init w prog) ls = some st) (hs : Stuck sys st) : Finished st ∧ Complete sys w prog st := by
  obtain ⟨H, hi⟩ := inv_run hans hd ls (inv_init w hw prog) h
  have hf := stuck_finished hans hr hi hs
  exact ⟨hf, inv_complete hi hf⟩

/-- C56, partial: whatever has happened so far can be continued to the end, with the same conditions as
`C56_progress_partial`. Together with `C56_terminates`: it ends after finitely many steps, whatever
the order of the steps. -/
theorem C56_finishes_partial (sys : Sys n α β W) (Good : W → Prop) (w : W) (prog : Fin n → List (Act n α)) (hw : Good w)
    (hans : Answers sys prog Good) (hd : Distinct prog) (hr : Relaxed sys L prog) (ls : List (Label n L)) (st : St n L α β W)
    (h : run sys (init w prog) ls = some st) : ∃ more st', run sys st more = some st' ∧ Finished st' := by
  obtain ⟨H, hi⟩ := inv_run hans hd ls (inv_init w hw prog) h
  obtain ⟨more, st', h1, h2⟩ := run_stuck hans hd _ hi (Nat.le_refl _)
  obtain ⟨H', hi'⟩ := inv_run hans hd more hi h1
  exact ⟨more, st', h1, stuck_finished hans hr hi' h2⟩

/-- C56, two ranks: no deadlock with one listener, whatever the library does. -/
theorem C56_two_ranks (sys : Sys 2 α β W) (Good : W → Prop) (w : W) (prog : Fin 2 → List (Act 2 α)) (hw : Good w)
    (hans : Answers sys prog Good) (hd : Distinct prog) (hf : Foreign prog) (hL : 0 < L) (ls : List (Label 2 L)) (st : St 2 L α β W)
    (h : run sys (init w prog) ls = some st) (hs : Stuck sys st) : Finished st ∧ Complete sys w prog st :=
  C56_progress_partial sys Good w prog hw hans hd (Or.inr (Or.inr ⟨by omega, hf⟩)) ls st h hs

/-! ## Deadlocks -/

namespace Dead

/-- Requests have the rank of the client, and a length; the response has any length. -/
def sys (request response copied : Nat) : Sys 3 (Fin 3) Unit Unit :=
  ⟨fun w _ c => .ok (w, c, ()), fun _ => request, fun _ => response, fun len => decide (len ≤ copied)⟩

/-- Every rank has one round, with a request to each of the other ranks. -/
def prog : Fin 3 → List (Act 3 (Fin 3)) := fun c => [.remote [(c + 1, c), (c + 2, c)]]

theorem answers (request response copied : Nat) : Answers (sys request response copied) prog (fun _ => True) := by
  intro w _ c x hx
  have : x.2.2 = c := by
    simp only [prog, targets, List.map_cons, List.map_nil, List.append_nil, List.mem_cons, List.not_mem_nil, or_false] at hx
    rcases hx with rfl | rfl <;> rfl
  refine ⟨(), (), ?_, trivial⟩
  show Out.ok ((), x.2.2, ()) = _
  rw [this]

theorem distinct : Distinct prog := by
  intro c l hl
  cases List.mem_singleton.mp hl
  clear hl
  revert c
  decide

theorem foreign : Foreign prog := by
  intro c l hl
  cases List.mem_singleton.mp hl
  clear hl
  revert c
  decide

/-- All requests are sent, and the listener of each rank takes the request of the rank before. -/
def requests : List (Label 3 1) :=
  (List.finRange 3).flatMap (fun c => [.start c, .post c (c + 1), .post c (c + 1), .post c (c + 2), .post c (c + 2)]) ++
  (List.finRange 3).flatMap (fun c => [.listen (c + 1) 0 c, .listener (c + 1) 0, .listener (c + 1) 0, .listener (c + 1) 0])

/-- Then each client finds all its messages sent, and receives one size. -/
def responses : List (Label 3 1) := requests ++ [.sent 0, .sent 1, .sent 2, .size 0 1, .size 1 2, .size 2 0]

def stuck (sys : Sys 3 (Fin 3) Unit Unit) (st : St 3 1 (Fin 3) Unit Unit) : Prop :=
  (∀ c, step sys st (.start c) = none) ∧ (∀ c s, step sys st (.post c s) = none) ∧ (∀ c, step sys st (.sent c) = none) ∧
  (∀ c s, step sys st (.size c s) = none) ∧ (∀ c, step sys st (.sized c) = none) ∧ (∀ c s, step sys st (.data c s) = none) ∧
  (∀ c, step sys st (.finish c) = none) ∧ (∀ s j c, step sys st (.listen s j c) = none) ∧ ∀ s j, step sys st (.listener s j) = none

instance (sys : Sys 3 (Fin 3) Unit Unit) (st : St 3 1 (Fin 3) Unit Unit) : Decidable (stuck sys st) := by
  unfold stuck
  infer_instance

theorem stuck_iff {sys : Sys 3 (Fin 3) Unit Unit} {st : St 3 1 (Fin 3) Unit Unit} (h : stuck sys st) : Stuck sys st := by
  obtain ⟨h1, h2, h3, h4, h5, h6, h7, h8, h9⟩ := h
  intro l
  cases l with
  | start c => exact h1 c
  | post c s => exact h2 c s
  | sent c => exact h3 c
  | size c s => exact h4 c s
  | sized c => exact h5 c
  | data c s => exact h6 c s
  | finish c => exact h7 c
  | listen s j c => exact h8 s j c
  | listener s j => exact h9 s j

/-- The execution leads to a state in which nothing is possible, and no client is finished. -/
def Deadlock (sys : Sys 3 (Fin 3) Unit Unit) (ls : List (Label 3 1)) : Prop :=
  ∃ st, run sys (init () prog) ls = some st ∧ Stuck sys st ∧ ∀ c, (st.client c).phase ≠ .ready

def deadlock (sys : Sys 3 (Fin 3) Unit Unit) (ls : List (Label 3 1)) : Bool :=
  match run sys (init () prog) ls with
  | some st => decide (stuck sys st ∧ ∀ c, (st.client c).phase ≠ .ready)
  | none => false

theorem of_deadlock {sys : Sys 3 (Fin 3) Unit Unit} {ls : List (Label 3 1)} (h : deadlock sys ls = true) : Deadlock sys ls := by
  unfold deadlock at h
  cases e : run sys (init () prog) ls with
  | none => rw [e] at h; cases h
  | some st =>
    rw [e] at h
    have := of_decide_eq_true h
    exact ⟨st, e, stuck_iff this.1, this.2⟩

end Dead

/-- C56 is false without conditions: three ranks with one listener each, and a library that copies
messages of up to 64 bytes. Each rank sends a request of 100 bytes to each of the other ranks. All
ranks wait for ever: clients for the listeners to take the other request, listeners for the client to
receive the response. -/
theorem C56_deadlock_false : Answers (Dead.sys 100 100 64) Dead.prog (fun _ => True) ∧ Distinct Dead.prog ∧ Foreign Dead.prog ∧
    Dead.Deadlock (Dead.sys 100 100 64) Dead.requests :=
  ⟨Dead.answers _ _ _, Dead.distinct, Dead.foreign, Dead.of_deadlock (by decide +kernel)⟩

/-- The same if only the responses are too large to be copied, for example those to GETs. Clients
receive no response before they have the sizes of all of them. -/
theorem C56_large_responses_false : Answers (Dead.sys 10 100 64) Dead.prog (fun _ => True) ∧ Distinct Dead.prog ∧ Foreign Dead.prog ∧
    Dead.Deadlock (Dead.sys 10 100 64) Dead.responses :=
  ⟨Dead.answers _ _ _, Dead.distinct, Dead.foreign, Dead.of_deadlock (by decide +kernel)⟩

/-! ## Examples -/

/-- The hypotheses of `C56_progress_partial` hold for three ranks if the library copies everything. -/
example : Relaxed (Dead.sys 100 100 64) 2 Dead.prog ∧ ∀ len, (Dead.sys 100 100 1000000).eager len = true ∨ 1000000 < len :=
  ⟨Or.inr (Or.inr ⟨by decide, Dead.foreign⟩), fun len => by simp only [Dead.sys, decide_eq_true_eq]; omega⟩

/-- An execution of three ranks with two listeners each that ends, starting as the deadlock did: the
second listener of each rank takes the other request. -/
def endsWell : List (Label 3 2) :=
  (List.finRange 3).flatMap (fun c => [.start c, .post c (c + 1), .post c (c + 1), .post c (c + 2), .post c (c + 2)]) ++
  (List.finRange 3).flatMap (fun c => [.listen (c + 1) 0 c, .listener (c + 1) 0, .listener (c + 1) 0, .listener (c + 1) 0]) ++
  (List.finRange 3).flatMap (fun c => [.listen (c + 2) 1 c, .listener (c + 2) 1, .listener (c + 2) 1, .listener (c + 2) 1]) ++
  (List.finRange 3).flatMap (fun c => [.sent c, .size c (c + 1), .size c (c + 2), .sized c, .data c (c + 2), .data c (c + 1), .finish c])

example : ∃ st, run (Dead.sys 100 100 64) (init () Dead.prog) endsWell = some st ∧ Finished st ∧ st.log.length = 6 ∧
    (st.client 0).results = [⟨1, true, ()⟩, ⟨2, true, ()⟩] := by
  have h : (match run (Dead.sys 100 100 64) (init () Dead.prog) endsWell with
    | some st => decide ((∀ c, (st.client c).acts.isEmpty = true ∧ (st.client c).phase = .ready) ∧ st.log.length = 6 ∧
        (st.client 0).results = [⟨1, true, ()⟩, ⟨2, true, ()⟩])
    | none => false) = true := by decide +kernel
  cases e : run (Dead.sys 100 100 64) (init () Dead.prog) endsWell with
  | none => rw [e] at h; cases h
  | some st =>
    rw [e] at h
    obtain ⟨h1, h2, h3⟩ := of_decide_eq_true h
    exact ⟨st, rfl, fun c => ⟨List.isEmpty_iff.mp (h1 c).1, (h1 c).2⟩, h2, h3⟩

/-- The order of requests of different ranks is not fixed, so responses depend on the interleaving: two
ranks that add to a counter on the first one, locally and with messages. -/
example : let sys : Sys 2 (Fin 2) Nat Nat := ⟨fun w _ c => .ok (w + 1, c, w), fun _ => 1, fun _ => 1, fun _ => false⟩
    let prog : Fin 2 → List (Act 2 (Fin 2)) := fun c => if c = 0 then [.local 0] else [.remote [(0, 1)]]
    let one : List (Label 2 1) := [.start 1, .post 1 0, .post 1 0, .listen 0 0 1, .listener 0 0, .listener 0 0, .sent 1, .size 1 0, .sized 1,
      .listener 0 0, .data 1 0, .finish 1]
    ((run sys (init 0 prog) (.start 0 :: one)).map (fun st => (st.client 1).results) = some [⟨0, true, 1⟩]) ∧
    ((run sys (init 0 prog) (one ++ [.start 0])).map (fun st => (st.client 1).results) = some [⟨0, true, 0⟩]) := by
  decide +kernel

end Hx.Props

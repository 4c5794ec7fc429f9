import Verif.Proofs.RpcEnds

/-!
# C62: requests and responses of ranks that use Thallium

For any number of ranks and handlers, any programs of the clients, with and without `ASYNC_THALLIUM`, any
choice of addresses, and any interleaving of the steps. Thallium itself is modelled by the list of calls
(Verif/Model/Rpc.lean).
-/

namespace Hx.Props
open Hx.Mpi (Act Got)
open Hx.Spec.Mpi (Distinct targets)
open Hx Hx.Rpc Spec.Rpc

variable {n : Nat} {α β W : Type}

/-- C62, at any time: no buffer was read or freed that was not allocated or had another length than
announced, what the range servers did is the processing of the requests of the log one after the other,
each request that was processed was sent by the client it is attributed to, requests of one client to
one rank are processed in order and once, and the responses a client has are those to its requests, in
order. -/
theorem C62_faithful (sys : Sys n α β W) (Good : W → Prop) (w : W) (prog : Fin n → List (Act n α)) (hw : Good w)
    (hans : Answers sys prog Good) (hd : Distinct prog) (ls : List (Label n)) (st : St n α β W)
    (h : run sys (init w prog) ls = some st) : Faithful sys w prog st :=
  inv_faithful hd (inv_run hans hd ls (inv_init w hw prog) h)

/-- C62, at the end: all requests were processed once, and every client has the responses to all of its
requests, in the order of the requests. -/
theorem C62_complete (sys : Sys n α β W) (Good : W → Prop) (w : W) (prog : Fin n → List (Act n α)) (hw : Good w)
    (hans : Answers sys prog Good) (hd : Distinct prog) (ls : List (Label n)) (st : St n α β W)
    (h : run sys (init w prog) ls = some st) (hf : Finished st) : Complete sys w prog st :=
  inv_complete (inv_run hans hd ls (inv_init w hw prog) h) hf

/-- C62, at any time: requests are processed during the round they belong to: not before it starts, and
all of them before the next one starts. -/
theorem C62_rounds (sys : Sys n α β W) (Good : W → Prop) (w : W) (prog : Fin n → List (Act n α)) (hw : Good w)
    (hans : Answers sys prog Good) (hd : Distinct prog) (ls : List (Label n)) (st : St n α β W)
    (h : run sys (init w prog) ls = some st) : InRounds prog st :=
  inv_rounds hd (inv_run hans hd ls (inv_init w hw prog) h)

/-- C62, at any time: the buffers that are shared are those of the calls under way. Each call has the
buffer of its request until it is answered, and that of its response from then until it is freed; no two
calls share one, although addresses are used again. -/
theorem C62_buffers (sys : Sys n α β W) (Good : W → Prop) (w : W) (prog : Fin n → List (Act n α)) (hw : Good w)
    (hans : Answers sys prog Good) (hd : Distinct prog) (ls : List (Label n)) (st : St n α β W)
    (h : run sys (init w prog) ls = some st) : Owned st :=
  inv_owned (inv_run hans hd ls (inv_init w hw prog) h)

/-- C62: executions end. The bound depends on the number of requests only. -/
theorem C62_terminates (sys : Sys n α β W) (Good : W → Prop) (w : W) (prog : Fin n → List (Act n α)) (hw : Good w)
    (hans : Answers sys prog Good) (hd : Distinct prog) (ls : List (Label n)) (st : St n α β W)
    (h : run sys (init w prog) ls = some st) : ls.length ≤ stepBound prog := by
  have := left_run hans hd ls (inv_init w hw prog) h
  rw [left_init] at this
  omega

/-- C62, no deadlock and no leak: when nothing more can happen, every client has all its responses, and
every buffer was freed. Ranks need one handler; compare `C56_deadlock_false`. -/
theorem C62_progress (sys : Sys n α β W) (Good : W → Prop) (w : W) (prog : Fin n → List (Act n α)) (hw : Good w)
    (hans : Answers sys prog Good) (hd : Distinct prog) (ht : 0 < sys.threads) (ls : List (Label n)) (st : St n α β W)
    (h : run sys (init w prog) ls = some st) (hs : Stuck sys st) :
    Finished st ∧ Complete sys w prog st ∧ ∀ r a, st.mem r a = none := by
  have hi := inv_run hans hd ls (inv_init w hw prog) h
  have hf := stuck_finished hd ht hi hs
  exact ⟨hf, inv_complete hi hf, no_buffers hi (stuck_calls ht hi hs)⟩

/-- C62: whatever has happened so far can be continued to the end. Together with `C62_terminates`: it
ends after finitely many steps, whatever the order of the steps. -/
theorem C62_finishes (sys : Sys n α β W) (Good : W → Prop) (w : W) (prog : Fin n → List (Act n α)) (hw : Good w)
    (hans : Answers sys prog Good) (hd : Distinct prog) (ht : 0 < sys.threads) (ls : List (Label n)) (st : St n α β W)
    (h : run sys (init w prog) ls = some st) :
    ∃ more st', run sys st more = some st' ∧ Finished st' ∧ ∀ r a, st'.mem r a = none := by
  have hi := inv_run hans hd ls (inv_init w hw prog) h
  obtain ⟨more, st', h1, h2⟩ := run_stuck hans hd _ hi (Nat.le_refl _)
  have hi' := inv_run hans hd more hi h1
  exact ⟨more, st', h1, stuck_finished hd ht hi' h2, no_buffers hi' (stuck_calls ht hi' h2)⟩

/-! ## Examples -/

namespace Calls

/-- Requests have the rank of the client; the range servers count the requests. -/
def sys (async : Bool) : Sys 3 (Fin 3) Nat Nat := ⟨fun w _ _ => .ok (w + 1, w), fun _ => 100, fun _ => 200, 1, async⟩

/-- Every rank has one round, with a request to each of the other ranks, as in `Dead.prog`. -/
def prog : Fin 3 → List (Act 3 (Fin 3)) := fun c => [.remote [(c + 1, c), (c + 2, c)]]

theorem answers (async : Bool) : Answers (sys async) prog (fun _ => True) := fun w _ _ _ _ => ⟨w + 1, w, rfl, trivial⟩

theorem distinct : Distinct prog := by
  intro c l hl
  cases List.mem_singleton.mp hl
  clear hl
  revert c
  decide

/-- With `ASYNC_THALLIUM`: all requests are sent before one of them is processed. Each rank has its two
requests at addresses 7 and 8, and its two responses at 9 and, once the request at 7 is freed, there. -/
def overlap : List (Label 3) :=
  (List.finRange 3).flatMap (fun c => [.start c, .call c (c + 1) 7, .call c (c + 2) 8]) ++
  [.take 0, .take 2, .take 4, .pull 4, .pull 0, .pull 2, .serve 0 9, .serve 2 9, .serve 4 9] ++
  [.recv 0 1, .recv 1 2, .recv 2 0] ++
  [.take 1, .take 3, .take 5, .pull 1, .pull 3, .pull 5, .serve 1 7, .serve 3 7, .serve 5 7] ++
  [.read 0 1, .recv 0 2, .read 0 2, .finish 0, .read 1 2, .recv 1 0, .read 1 0, .finish 1, .read 2 0, .recv 2 1, .read 2 1, .finish 2] ++
  (List.range 6).map .clean

/-- Without it: one request of a client at a time, and address 7 for everything. -/
def oneByOne : List (Label 3) :=
  (List.finRange 3).flatMap (fun c =>
    let i := 2 * c.val
    [.start c, .call c (c + 1) 7, .take i, .pull i, .serve i 7, .recv c (c + 1), .read c (c + 1), .clean i,
      .call c (c + 2) 7, .take (i + 1), .pull (i + 1), .serve (i + 1) 7, .recv c (c + 2), .read c (c + 2), .clean (i + 1), .finish c])

def summary (st : St 3 (Fin 3) Nat Nat) : Bool × Nat × List (List (Got 3 Nat)) × Bool :=
  (decide (∀ c, (st.client c).acts.isEmpty = true ∧ (st.client c).phase = .ready), st.log.length,
    (List.finRange 3).map (fun c => (st.client c).results), (List.range 12).all (fun a => (List.finRange 3).all (fun c => (st.mem c a).isNone)))

end Calls

example : 0 < (Calls.sys true).threads ∧ Answers (Calls.sys true) Calls.prog (fun _ => True) ∧ Distinct Calls.prog :=
  ⟨by decide, Calls.answers _, Calls.distinct⟩

/-- Three ranks with one handler each, as in `C56_deadlock_false`: it ends, with the responses in the order
of the requests. -/
example : (run (Calls.sys true) (init 0 Calls.prog) Calls.overlap).map Calls.summary =
    some (true, 6, [[⟨1, true, 0⟩, ⟨2, true, 3⟩], [⟨2, true, 1⟩, ⟨0, true, 4⟩], [⟨0, true, 2⟩, ⟨1, true, 5⟩]], true) := by
  decide +kernel

example : (run (Calls.sys false) (init 0 Calls.prog) Calls.oneByOne).map Calls.summary =
    some (true, 6, [[⟨1, true, 0⟩, ⟨2, true, 1⟩], [⟨2, true, 2⟩, ⟨0, true, 3⟩], [⟨0, true, 4⟩, ⟨1, true, 5⟩]], true) := by
  decide +kernel

/-- The bound on the number of steps is reached. -/
example : Calls.overlap.length = stepBound Calls.prog ∧ Calls.oneByOne.length = stepBound Calls.prog := by
  decide +kernel

/-- Without `ASYNC_THALLIUM` the second request is not sent before the first is answered. -/
example : (run (Calls.sys false) (init 0 Calls.prog) (Calls.overlap.take 3)).isNone = true ∧
    (run (Calls.sys true) (init 0 Calls.prog) (Calls.overlap.take 3)).isSome = true := by
  decide +kernel

/-- An address that is in use is not returned by `alloc`. -/
example : (run (Calls.sys true) (init 0 Calls.prog) [.start 0, .call 0 1 7, .call 0 2 7]).isNone = true := by
  decide +kernel

end Hx.Props

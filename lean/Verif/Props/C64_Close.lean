import Verif.Proofs.CloseMpi
import Verif.Proofs.CloseRpc

/-!
# C64: closing a session

Any number of ranks do any requests, call `Sync` in between and `Close` at the end. All interleavings of
their steps and those of listeners and handlers. `first` is what the ranks do before the first `Sync`,
`rest` what they do after each.
-/

namespace Hx.Props
open Hx.Mpi (Act)
open Spec.Close Hx.Close
open Spec.Mpi (Distinct Foreign Relaxed sentTo targets)

variable {n L m : Nat} {α β W : Type}

/-! ## MPI -/

/-- C64, MPI, partial: if all ranks call `Sync` directly before `Close`, nothing goes wrong while ranks close:
no message arrives in memory that is gone, no send is abandoned, and at any time requests and responses
are as C56 says. Missing: programs in which a rank calls `Close` while others still have requests, for
which it is false (`C64_mpi_ub`, `C64_early_close_false`). -/
theorem C64_mpi_safe_partial (sys : Mpi.Sys n α β W) (Good : W → Prop) (w : W) (first : Fin n → List (Act n α))
    (rest : Fin n → List (List (Act n α))) (hw : Good w) (hans : Spec.Mpi.Answers sys (whole first rest) Good)
    (hd : Distinct (whole first rest)) (hm : Collective m rest) (hl : SyncLast rest) (ls : List (Label n (MpiLabel n L)))
    (st : St n (Act n α) (Link n L α β W)) (h : run (mpiNet sys) (init (mpiInit w first) rest) ls = some st) :
    Spec.Mpi.Faithful sys w (whole first rest) st.base.st := by
  have hi0 := mpi_inv_init (sys := sys) (L := L) (β := β) hw first hm
  have hi := mpi_inv_run hans hd ls hi0 h
  have hb := (mpi_good_run hans hd ls hi0 (last_init _ hl) rfl h).2
  obtain ⟨opened, H, ho, hj⟩ := hi.base
  rw [clear hb] at hj
  exact faithful_opened ho (Mpi.inv_faithful hj)

/-- C64, MPI: executions end, whatever the ranks do. -/
theorem C64_mpi_terminates (sys : Mpi.Sys n α β W) (Good : W → Prop) (w : W) (first : Fin n → List (Act n α))
    (rest : Fin n → List (List (Act n α))) (hw : Good w) (hans : Spec.Mpi.Answers sys (whole first rest) Good)
    (hd : Distinct (whole first rest)) (hm : Collective m rest) (ls : List (Label n (MpiLabel n L)))
    (st : St n (Act n α) (Link n L α β W)) (h : run (mpiNet sys) (init (mpiInit w first) rest) ls = some st) :
    ls.length ≤ mpiBound L m (whole first rest) := by
  have := mpi_left_run hans hd ls (mpi_inv_init (sys := sys) hw first hm) h
  rw [total_init first hm] at this
  omega

/-- C64, MPI, partial: if all ranks call `Sync` directly before `Close`, then when nothing more can happen,
`Close` has returned on all ranks, and all requests were processed and answered. The conditions on the
library and listeners are those of `C56_progress_partial`. -/
theorem C64_mpi_partial (sys : Mpi.Sys n α β W) (Good : W → Prop) (w : W) (first : Fin n → List (Act n α))
    (rest : Fin n → List (List (Act n α))) (hw : Good w) (hans : Spec.Mpi.Answers sys (whole first rest) Good)
    (hd : Distinct (whole first rest)) (hr : Relaxed sys L (whole first rest)) (hm : Collective m rest) (hl : SyncLast rest)
    (ls : List (Label n (MpiLabel n L))) (st : St n (Act n α) (Link n L α β W))
    (h : run (mpiNet sys) (init (mpiInit w first) rest) ls = some st) (hs : Stuck (mpiNet sys) st) :
    AllClosed st ∧ Spec.Mpi.Complete sys w (whole first rest) st.base.st := by
  have hi0 := mpi_inv_init (sys := sys) (L := L) (β := β) hw first hm
  have hi := mpi_inv_run hans hd ls hi0 h
  obtain ⟨h1, h2⟩ := mpi_good_run hans hd ls hi0 (last_init _ hl) rfl h
  have hc := mpi_stuck hans hr hi h1 h2 hs
  exact ⟨hc, mpi_closed hi h2 hc⟩

/-- C64, MPI, partial: whatever has happened so far can be continued until `Close` has returned on all ranks.
With `C64_mpi_terminates` and `C64_mpi_partial`: it does, whatever the order of the steps. -/
theorem C64_mpi_closes_partial (sys : Mpi.Sys n α β W) (Good : W → Prop) (w : W) (first : Fin n → List (Act n α))
    (rest : Fin n → List (List (Act n α))) (hw : Good w) (hans : Spec.Mpi.Answers sys (whole first rest) Good)
    (hd : Distinct (whole first rest)) (hr : Relaxed sys L (whole first rest)) (hm : Collective m rest) (hl : SyncLast rest)
    (ls : List (Label n (MpiLabel n L))) (st : St n (Act n α) (Link n L α β W))
    (h : run (mpiNet sys) (init (mpiInit w first) rest) ls = some st) :
    ∃ more st', run (mpiNet sys) st more = some st' ∧ AllClosed st' ∧ Spec.Mpi.Complete sys w (whole first rest) st'.base.st := by
  have hi0 := mpi_inv_init (sys := sys) (L := L) (β := β) hw first hm
  have hi := mpi_inv_run hans hd ls hi0 h
  obtain ⟨h1, h2⟩ := mpi_good_run hans hd ls hi0 (last_init _ hl) rfl h
  obtain ⟨more, st', h3, h4⟩ := mpi_run_stuck hans hd _ hi (Nat.le_refl _)
  have hi' := mpi_inv_run hans hd more hi h3
  obtain ⟨h5, h6⟩ := mpi_good_run hans hd more hi h1 h2 h3
  have hc := mpi_stuck hans hr hi' h5 h6 h4
  exact ⟨more, st', h3, hc, mpi_closed hi' h6 hc⟩

/-- C64 is false for MPI without `Sync` before `Close`: if a rank `s` calls `Close` when it has sent fewer
responses to a rank `c` than `c` has requests for it, then whatever happens next, `c` never gets to
`Close`, and `Close` returns on no rank. For all programs, libraries and numbers of listeners. -/
theorem C64_early_close_false (sys : Mpi.Sys n α β W) (Good : W → Prop) (w : W) (first : Fin n → List (Act n α))
    (rest : Fin n → List (List (Act n α))) (hw : Good w) (hans : Spec.Mpi.Answers sys (whole first rest) Good)
    (hd : Distinct (whole first rest)) (hm : Collective m rest) (ls : List (Label n (MpiLabel n L)))
    (st : St n (Act n α) (Link n L α β W)) (h : run (mpiNet sys) (init (mpiInit w first) rest) ls = some st)
    (s c : Fin n) (hs : Closing (st.place s))
    (hc : (st.base.st.pair c s).dataRes.msgs.length < (sentTo s true (targets c (whole first rest c))).length)
    (more : List (Label n (MpiLabel n L))) (st' : St n (Act n α) (Link n L α β W)) (h' : run (mpiNet sys) st more = some st') :
    ¬ Closing (st'.place c) ∧ ∀ d, ¬ Left (st'.place d) := by
  have hi := mpi_inv_run hans hd more (mpi_inv_run hans hd ls (mpi_inv_init (sys := sys) hw first hm) h) h'
  have hnc : ¬ Closing (st'.place c) := by
    intro hcl
    obtain ⟨-, h2, h3⟩ := closing_rank hi.places hcl
    obtain ⟨opened, H, ho, hj⟩ := hi.base
    have h4 := idle_responses hj h3 s
    have h5 : whole first rest c = opened c := by rw [ho c, h2]; simp
    have h6 := mpi_silent_run hs c more h'
    rw [h5] at hc
    have h4 : (st'.base.st.pair c s).dataRes.msgs.length = _ := h4
    omega
  exact ⟨hnc, fun d hd' => hnc (left_closing hi.places hd' c)⟩

/-! ## Thallium -/

/-- C64, Thallium: executions end. -/
theorem C64_thallium_terminates (sys : Rpc.Sys n α β W) (Good : W → Prop) (w : W) (first : Fin n → List (Act n α))
    (rest : Fin n → List (List (Act n α))) (hw : Good w) (hans : Spec.Rpc.Answers sys (whole first rest) Good)
    (hd : Distinct (whole first rest)) (hm : Collective m rest) (ls : List (Label n (Rpc.Label n)))
    (st : St n (Act n α) (Rpc.St n α β W)) (h : run (rpcNet sys) (init (Rpc.init w first) rest) ls = some st) :
    ls.length ≤ rpcBound m (whole first rest) := by
  have := rpc_left_run hans hd ls (rpc_inv_init (sys := sys) hw first hm) h
  rw [rpcTotal_init first hm] at this
  omega

/-- C64, Thallium: when nothing more can happen, `Close` has returned on all ranks. No `Sync` is needed
before it, unlike with MPI (`C64_early_close_false`). -/
theorem C64_thallium_closes (sys : Rpc.Sys n α β W) (Good : W → Prop) (w : W) (first : Fin n → List (Act n α))
    (rest : Fin n → List (List (Act n α))) (hw : Good w) (hans : Spec.Rpc.Answers sys (whole first rest) Good)
    (hd : Distinct (whole first rest)) (ht : 0 < sys.threads) (hm : Collective m rest) (ls : List (Label n (Rpc.Label n)))
    (st : St n (Act n α) (Rpc.St n α β W)) (h : run (rpcNet sys) (init (Rpc.init w first) rest) ls = some st)
    (hs : Stuck (rpcNet sys) st) : AllClosed st :=
  rpc_stuck hd ht (rpc_inv_run hans hd ls (rpc_inv_init (sys := sys) hw first hm) h) hs

/-- C64, Thallium, partial: as long as no rank destroys its range server while a request to free a response is
under way, nothing goes wrong: requests and responses are at any time as C62 says, and when `Close` has
returned on all ranks, all requests were answered and all buffers freed. Missing: requests to free a
response that are late, for which it is false (`C64_thallium_ub`). -/
theorem C64_thallium_safe_partial (sys : Rpc.Sys n α β W) (Good : W → Prop) (w : W) (first : Fin n → List (Act n α))
    (rest : Fin n → List (List (Act n α))) (hw : Good w) (hans : Spec.Rpc.Answers sys (whole first rest) Good)
    (hd : Distinct (whole first rest)) (hm : Collective m rest) (ls : List (Label n (Rpc.Label n)))
    (st : St n (Act n α) (Rpc.St n α β W)) (h : run (rpcNet sys) (init (Rpc.init w first) rest) ls = some st)
    (htidy : Tidy sys (init (Rpc.init w first) rest) ls) :
    Spec.Rpc.Faithful sys w (whole first rest) st.base ∧
      (AllClosed st → Spec.Rpc.Complete sys w (whole first rest) st.base ∧ ∀ r a, st.base.mem r a = none) := by
  have hi0 := rpc_inv_init (sys := sys) (β := β) hw first hm
  have hi := rpc_inv_run hans hd ls hi0 h
  have ht := tidy_run hans hd ls hi0 ⟨rfl, fun s hs => by rcases hs with e | e <;> cases e⟩ htidy h
  obtain ⟨opened, ho, hj⟩ := hi.base
  rw [rpc_clear ht.bad] at hj
  exact ⟨rpc_faithful_opened ho (Rpc.inv_faithful (rpc_distinct_opened hd ho) hj),
    fun hc => ⟨rpc_closed hi ht.bad hc, tidy_closed hi ht hc⟩⟩

/-- C64, Thallium: what has happened so far can be continued in this way until `Close` has returned on all
ranks. -/
theorem C64_thallium_tidy (sys : Rpc.Sys n α β W) (Good : W → Prop) (w : W) (first : Fin n → List (Act n α))
    (rest : Fin n → List (List (Act n α))) (hw : Good w) (hans : Spec.Rpc.Answers sys (whole first rest) Good)
    (hd : Distinct (whole first rest)) (ht : 0 < sys.threads) (hm : Collective m rest) (ls : List (Label n (Rpc.Label n)))
    (st : St n (Act n α) (Rpc.St n α β W)) (h : run (rpcNet sys) (init (Rpc.init w first) rest) ls = some st)
    (htidy : Tidy sys (init (Rpc.init w first) rest) ls) :
    ∃ more st', run (rpcNet sys) st more = some st' ∧ Tidy sys st more ∧ AllClosed st' := by
  have hi0 := rpc_inv_init (sys := sys) (β := β) hw first hm
  have hi := rpc_inv_run hans hd ls hi0 h
  have hti := tidy_run hans hd ls hi0 ⟨rfl, fun s hs => by rcases hs with e | e <;> cases e⟩ htidy h
  obtain ⟨more, st', h1, h2, h3⟩ := tidy_stuck hans hd ht _ hi hti (Nat.le_refl _)
  exact ⟨more, st', h1, h2, rpc_stuck hd ht (rpc_inv_run hans hd more hi h1) h3⟩

/-! ## Counterexamples and examples -/

namespace Bye

/-- Two ranks; the second one has a request for the first. -/
def first : Fin 2 → List (Act 2 (Fin 2)) := fun c => if c = 0 then [] else [.remote [(0, 1)]]

/-- Nobody calls `Sync`. -/
def rest : Fin 2 → List (List (Act 2 (Fin 2))) := fun _ => []

/-- Both call `Sync` before `Close`. -/
def synced : Fin 2 → List (List (Act 2 (Fin 2))) := fun _ => [[]]

def mpi (eager : Nat → Bool) : Mpi.Sys 2 (Fin 2) Nat Nat := ⟨fun w _ c => .ok (w + 1, c, w), fun _ => 16, fun _ => 16, eager⟩

def rpc : Rpc.Sys 2 (Fin 2) Nat Nat := ⟨fun w _ _ => .ok (w + 1, w), fun _ => 16, fun _ => 16, 1, false⟩

theorem whole_eq (rest : Fin 2 → List (List (Act 2 (Fin 2)))) (h : ∀ c, (rest c).flatten = []) : whole first rest = first := by
  funext c
  rw [whole, h c, List.append_nil]

theorem answers (eager : Nat → Bool) : Spec.Mpi.Answers (mpi eager) first (fun _ => True) := by
  intro w _ c x hx
  have hx : x.2.2 = c := by
    by_cases hc : c = 0
    · subst hc; cases hx
    · rw [first, if_neg hc] at hx
      have : c = 1 := by omega
      subst this
      cases List.mem_singleton.mp hx
      rfl
  refine ⟨w + 1, w, ?_, trivial⟩
  show Out.ok (w + 1, x.2.2, w) = _
  rw [hx]

theorem rpcAnswers : Spec.Rpc.Answers rpc first (fun _ => True) := fun w _ _ _ _ => ⟨w + 1, w, rfl, trivial⟩

theorem distinct : Distinct first := by
  intro c l hl
  by_cases hc : c = 0
  · subst hc; cases hl
  · rw [first, if_neg hc] at hl
    cases List.mem_singleton.mp hl
    decide

theorem foreign : Foreign first := by
  intro c l hl
  by_cases hc : c = 0
  · subst hc; cases hl
  · rw [first, if_neg hc] at hl
    have : c = 1 := by omega
    subst this
    cases List.mem_singleton.mp hl
    decide

end Bye

/-- C64 is false for MPI: one of two ranks closes the session, and the other has sent or will send it one
request. Whatever happens next, `Close` returns on neither, and the other never gets there. It does not
matter what the library copies and how many listeners there are. -/
theorem C64_hang_false (eager : Nat → Bool) (L : Nat) :
    ∃ st, run (mpiNet (Bye.mpi eager)) (init (mpiInit (L := L) 0 Bye.first) Bye.rest) [.close 0] = some st ∧
      ∀ more st', run (mpiNet (Bye.mpi eager)) st more = some st' → ¬ Closing (st'.place 1) ∧ ∀ d, ¬ Left (st'.place d) := by
  have hw : whole Bye.first Bye.rest = Bye.first := Bye.whole_eq _ (fun _ => rfl)
  refine ⟨_, rfl, fun more st' h' => ?_⟩
  exact C64_early_close_false (m := 0) (Bye.mpi eager) (fun _ => True) 0 Bye.first Bye.rest trivial (by rw [hw]; exact Bye.answers eager)
    (by rw [hw]; exact Bye.distinct) (fun _ => rfl) [.close 0] _ rfl 0 1 (Or.inl rfl) (by rw [hw]; exact Nat.zero_lt_one) more st' h'

/-- C64 is false for MPI: the receive of a listener that ended is still there, and the size of the next request
is written to the stack the listener had. -/
theorem C64_mpi_ub : (run (mpiNet (Bye.mpi (fun _ => true))) (init (mpiInit (L := 1) 0 Bye.first) Bye.rest)
    [.close 0, .net (.stop 0 0 true), .net (.msg (.start 1)), .net (.msg (.post 1 0)), .net (.late 0 1)]).map (fun st => st.base.st.bad) =
      some true := by
  decide +kernel

/-- The send of a response can be abandoned as well, and its buffer freed, if the library does not copy it. -/
theorem C64_mpi_send_ub : (run (mpiNet (Bye.mpi (fun _ => false))) (init (mpiInit (L := 1) 0 Bye.first) Bye.rest)
    [.net (.msg (.start 1)), .net (.msg (.post 1 0)), .net (.msg (.post 1 0)), .net (.msg (.listen 0 0 1)), .net (.msg (.listener 0 0)),
      .net (.msg (.listener 0 0)), .close 0, .net (.stop 0 0 false)]).map (fun st => st.base.st.bad) = some true := by
  decide +kernel

namespace Bye

/-- The second rank gets its response and asks to free it. -/
def served : List (Label 2 (Rpc.Label 2)) :=
  [.close 0, .net (.start 1), .net (.call 1 0 7), .net (.take 0), .net (.pull 0), .net (.serve 0 9), .net (.recv 1 0), .net (.read 1 0),
    .net (.finish 1), .close 1, .leave 0, .leave 1]

/-- The first rank handles that after its range server is destroyed. -/
def late : List (Label 2 (Rpc.Label 2)) := served ++ [.destroy 0, .net (.clean 0)]

/-- Or never. -/
def never : List (Label 2 (Rpc.Label 2)) := served ++ [.destroy 0, .finalize 0, .destroy 1, .finalize 1]

/-- Or before. -/
def before : List (Label 2 (Rpc.Label 2)) := served ++ [.net (.clean 0), .destroy 0, .finalize 0, .destroy 1, .finalize 1]

structure Shown where
  bad : Bool
  closed : Bool
  freed : Bool
  results : List Nat
deriving DecidableEq

def shown (st : St 2 (Act 2 (Fin 2)) (Rpc.St 2 (Fin 2) Nat Nat)) : Shown :=
  ⟨st.base.bad, decide (∀ c, st.place c = .closed), (List.range 12).all (fun a => (List.finRange 2).all (fun c => (st.base.mem c a).isNone)),
    (st.base.client 1).results.map (·.res)⟩

end Bye

/-- C64 is false for Thallium: nobody waits for the request to free a response, so it can be handled after the
range server was destroyed, or, if the engine was finalized before, never. -/
theorem C64_thallium_ub :
    (run (rpcNet Bye.rpc) (init (Rpc.init 0 Bye.first) Bye.rest) Bye.late).map (fun st => st.base.bad) = some true ∧
    (run (rpcNet Bye.rpc) (init (Rpc.init 0 Bye.first) Bye.rest) Bye.never).map Bye.shown = some ⟨false, true, false, [0]⟩ := by
  decide +kernel

/-- The same ranks, in the right order: all is closed and freed, and the rank that closed first has answered
the request. -/
example : (run (rpcNet Bye.rpc) (init (Rpc.init 0 Bye.first) Bye.rest) Bye.before).map Bye.shown = some ⟨false, true, true, [0]⟩ := by
  decide +kernel

namespace Bye

def cleaning (st : Rpc.St 2 (Fin 2) Nat Nat) (s : Fin 2) : Bool :=
  st.calls.any (fun x => decide (x.dst = s) && match x.stage with | .cleaning _ => true | _ => false)

def destroyed : Label 2 (Rpc.Label 2) → Option (Fin 2)
  | .destroy s => some s
  | _ => none

/-- Checks that an execution is tidy. -/
def tidy (st : St 2 (Act 2 (Fin 2)) (Rpc.St 2 (Fin 2) Nat Nat)) : List (Label 2 (Rpc.Label 2)) → Bool
  | [] => true
  | l :: ls => (match destroyed l with | some s => !cleaning st.base s | none => true) &&
      match step (rpcNet rpc) st l with
      | some st' => tidy st' ls
      | none => true

theorem tidy_sound : ∀ (ls : List (Label 2 (Rpc.Label 2))) (st : St 2 (Act 2 (Fin 2)) (Rpc.St 2 (Fin 2) Nat Nat)),
    tidy st ls = true → Tidy rpc st ls
  | [], _, _ => trivial
  | l :: ls, st, h => by
    simp only [tidy, Bool.and_eq_true] at h
    refine ⟨fun s e hc => ?_, fun st' e => ?_⟩
    · subst e
      obtain ⟨x, hx, hs, a, ha⟩ := hc
      have : cleaning st.base s = true := List.any_eq_true.mpr ⟨x, hx, by simp [hs, ha]⟩
      simp [destroyed, this] at h
    · have h := h.2
      rw [e] at h
      exact tidy_sound ls st' h

end Bye

/-- That execution is tidy. -/
example : Tidy Bye.rpc (init (Rpc.init 0 Bye.first) Bye.rest) Bye.before := Bye.tidy_sound _ _ (by decide +kernel)

/-- The hypotheses of the theorems for Thallium. -/
example : Spec.Rpc.Answers Bye.rpc (whole Bye.first Bye.rest) (fun _ => True) ∧ Distinct (whole Bye.first Bye.rest) ∧
    0 < Bye.rpc.threads ∧ Collective 0 Bye.rest := by
  rw [Bye.whole_eq Bye.rest (fun _ => rfl)]
  exact ⟨Bye.rpcAnswers, Bye.distinct, by decide, fun _ => rfl⟩

/-- The hypotheses of the theorems for MPI, with `Sync` before `Close`. -/
example (eager : Nat → Bool) : Spec.Mpi.Answers (Bye.mpi eager) (whole Bye.first Bye.synced) (fun _ => True) ∧
    Distinct (whole Bye.first Bye.synced) ∧ Relaxed (Bye.mpi eager) 1 (whole Bye.first Bye.synced) ∧ Collective 1 Bye.synced ∧
    SyncLast Bye.synced := by
  rw [Bye.whole_eq Bye.synced (fun _ => rfl)]
  exact ⟨Bye.answers eager, Bye.distinct, Or.inr (Or.inr ⟨by decide, Bye.foreign⟩), fun _ => rfl, fun _ => rfl⟩

/-- The two ranks with `Sync` before `Close`, and a library that copies nothing: both close. -/
example : (run (mpiNet (Bye.mpi (fun _ => false))) (init (mpiInit (L := 1) 0 Bye.first) Bye.synced)
    [.sync 0, .net (.msg (.start 1)), .net (.msg (.post 1 0)), .net (.msg (.post 1 0)), .net (.msg (.listen 0 0 1)), .net (.msg (.listener 0 0)),
      .net (.msg (.listener 0 0)), .net (.msg (.sent 1)), .net (.msg (.size 1 0)), .net (.msg (.sized 1)), .net (.msg (.listener 0 0)),
      .net (.msg (.data 1 0)), .net (.msg (.finish 1)), .sync 1, .pass 0, .close 0, .net (.stop 0 0 false), .pass 1, .close 1, .leave 0, .destroy 0,
      .leave 1, .net (.stop 1 0 true), .destroy 1, .finalize 0, .finalize 1]).map
      (fun st => (st.base.st.bad, (st.base.st.client 1).results.map (·.res), decide (∀ c, st.place c = .closed))) = some (false, [0], true) := by
  decide +kernel

/-- There the first rank cannot close before the second has its response. -/
example : (run (mpiNet (Bye.mpi (fun _ => true))) (init (mpiInit (L := 1) 0 Bye.first) Bye.synced) [.sync 0, .pass 0]).isNone = true ∧
    (run (mpiNet (Bye.mpi (fun _ => true))) (init (mpiInit (L := 1) 0 Bye.first) Bye.synced) [.close 0]).isNone = true := by
  decide +kernel

end Hx.Props

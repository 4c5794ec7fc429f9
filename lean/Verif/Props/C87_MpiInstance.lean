import Verif.Model.MpiInstance
import Mathlib.Tactic

/-!
# C87: what is done once in a process
-/

namespace Hx.Props
open Hx MpiInstance

namespace C87

theorem run_append (lib : Lib) (a b : List Ev) (p : Proc) : run lib p (a ++ b) = run lib p a >>= fun p => run lib p b := by
  induction a generalizing p with
  | nil => rfl
  | cons e a ih =>
    simp only [List.cons_append, run]
    cases step lib p e with
    | ok q => simp only [Out.ok_bind]; exact ih q
    | err => rfl
    | ub => rfl

theorem run_uses (lib : Lib) (p : Proc) (i : Inst) (h : p.inst = some i) (k : Nat) : run lib p (List.replicate k .use) = .ok p := by
  induction k with
  | zero => rfl
  | succ k ih =>
    simp only [List.replicate_succ, run, step, use, h, Out.ok_bind]
    exact ih

/-- What never changes in a process: MPI was initialised as often as its phase says. -/
def Counts (p : Proc) : Prop :=
  (p.phase = .before → p.inits = 0 ∧ p.finals = 0) ∧ (p.phase = .running → p.inits = 1 ∧ p.finals = 0) ∧
    (p.phase = .finalized → p.inits = 1 ∧ p.finals = 1)

theorem counts_init {lib : Lib} {p q : Proc} (h : Counts p) (e : mpiInit lib p = .ok q) : Counts q := by
  unfold mpiInit at e
  split at e
  · rename_i hp
    have := h.1 hp
    split at e <;> cases e
    · exact ⟨by simp, fun _ => ⟨by simp [this.1], this.2⟩, by simp⟩
    · exact h
  · cases e

theorem counts_finalize {p q : Proc} (h : Counts p) (e : mpiFinalize p = .ok q) : Counts q := by
  unfold mpiFinalize at e
  split at e
  · rename_i hp
    have := h.2.1 hp
    cases e
    exact ⟨by simp, by simp, fun _ => ⟨this.1, by simp [this.2]⟩⟩
  · cases e

theorem counts_query {lib : Lib} {b : Bool} {p q : Proc} (h : Counts p) (e : query lib b p = .ok q) : Counts q := by
  unfold query at e
  split at e
  · cases e; exact h
  · cases e

theorem counts_step {lib : Lib} {p q : Proc} (ev : Ev) (h : Counts p) (e : step lib p ev = .ok q) : Counts q := by
  cases ev with
  | init => exact counts_init h e
  | finalize => exact counts_finalize h e
  | use =>
    unfold step use at e
    simp only at e
    split at e
    · cases e; exact h
    · unfold construct at e
      split at e
      · split at e
        · cases hi : mpiInit lib p with
          | ok r =>
            rw [hi, Out.ok_bind] at e
            have hr := counts_init h hi
            split at e
            · exact counts_query hr e
            · cases e; exact hr
          | err => rw [hi] at e; cases e
          | ub => rw [hi] at e; cases e
        · cases e; exact h
      · exact counts_query h e

theorem counts_run {lib : Lib} (l : List Ev) : ∀ {p q : Proc}, Counts p → run lib p l = .ok q → Counts q := by
  induction l with
  | nil => intro p q h e; cases e; exact h
  | cons ev l ih =>
    intro p q h e
    unfold run at e
    cases hs : step lib p ev with
    | ok r => rw [hs, Out.ok_bind] at e; exact ih (counts_step ev h hs) e
    | err => rw [hs] at e; cases e
    | ub => rw [hs] at e; cases e

end C87

open C87

/-- C87: whatever a program does, as long as it is defined, MPI is initialised at most once, and finalised at most once and not without having
been initialised. -/
theorem C87_once (lib : Lib) (l : List Ev) (p q : Proc) (h : run lib start l = .ok p) (he : exit p = .ok q) :
    q.inits ≤ 1 ∧ q.finals ≤ q.inits := by
  have h0 : Counts start := ⟨fun _ => ⟨rfl, rfl⟩, by simp [start], by simp [start]⟩
  have h1 := counts_run l h0 h
  have h2 : Counts q := by
    unfold exit at he
    split at he
    · split at he
      · exact counts_finalize h1 he
      · cases he; exact h1
    · cases he; exact h1
  cases hq : q.phase with
  | before => have := h2.1 hq; omega
  | running => have := h2.2.1 hq; omega
  | finalized => have := h2.2.2 hq; omega

/-- C87: a program that leaves MPI to the instance: MPI is initialised with the first use and finalised at exit, once, and the instance knows
rank and size. -/
theorem C87_own (lib : Lib) (h1 : lib.initializedRc = 0) (h2 : lib.initRc = 0) (h3 : 3 ≤ lib.provided) (h4 : lib.rankRc = 0) (h5 : lib.sizeRc = 0)
    (k : Nat) : ∃ p q, run lib start (List.replicate (k + 1) .use) = .ok p ∧ p.inst = some ⟨true, true, lib.rank, lib.size⟩ ∧
      p.phase = .running ∧ exit p = .ok q ∧ q.phase = .finalized ∧ q.inits = 1 ∧ q.finals = 1 := by
  have hs : step lib start .use = .ok ⟨.running, 1, 0, some ⟨true, true, lib.rank, lib.size⟩⟩ := by
    simp [step, use, start, construct, h1, mpiInit, h2, h3, query, h4, h5, Out.ok_bind]
  refine ⟨⟨.running, 1, 0, some ⟨true, true, lib.rank, lib.size⟩⟩, ⟨.finalized, 1, 1, some ⟨true, true, lib.rank, lib.size⟩⟩, ?_, rfl, rfl, rfl, rfl, rfl,
    rfl⟩
  rw [List.replicate_succ, run, hs, Out.ok_bind]
  exact run_uses lib _ _ rfl k

/-- C87: a program that initialises and finalises MPI itself: the instance does neither, wherever it is used in between, and also if it is used
later again. -/
theorem C87_guest (lib : Lib) (h2 : lib.initRc = 0) (h4 : lib.rankRc = 0) (h5 : lib.sizeRc = 0) (k m : Nat) :
    ∃ p, run lib start (.init :: List.replicate (k + 1) .use ++ .finalize :: List.replicate m .use) = .ok p ∧
      p.inst = some ⟨false, true, lib.rank, lib.size⟩ ∧ exit p = .ok p ∧ p.phase = .finalized ∧ p.inits = 1 ∧ p.finals = 1 := by
  refine ⟨⟨.finalized, 1, 1, some ⟨false, true, lib.rank, lib.size⟩⟩, ?_, rfl, rfl, rfl, rfl, rfl⟩
  have hi : step lib start .init = .ok ⟨.running, 1, 0, none⟩ := by simp [step, mpiInit, start, h2]
  have hu : step lib ⟨.running, 1, 0, none⟩ .use = .ok ⟨.running, 1, 0, some ⟨false, true, lib.rank, lib.size⟩⟩ := by
    simp [step, use, construct, query, h4, h5]
  rw [run_append, run, hi, Out.ok_bind, List.replicate_succ, run, hu, Out.ok_bind, run_uses lib _ _ rfl k, Out.ok_bind]
  show run lib ⟨.finalized, 1, 1, some ⟨false, true, lib.rank, lib.size⟩⟩ (List.replicate m .use) = _
  exact run_uses lib _ _ rfl m

/-- C87: without a use nothing happens. -/
theorem C87_unused (lib : Lib) (h : lib.initRc = 0) : exit start = .ok start ∧
    ∃ p, run lib start [.init, .finalize] = .ok p ∧ exit p = .ok p ∧ p.inst = none := by
  refine ⟨rfl, ⟨.finalized, 1, 1, none⟩, ?_, rfl, rfl⟩
  simp [run, step, mpiInit, start, h, mpiFinalize, Out.ok_bind]

/-- C87 is false for a library without `MPI_THREAD_MULTIPLE`: MPI has been initialised and is never finalised, and the instance has rank 0 of 0
and no communicator. -/
theorem C87_threads_false (lib : Lib) (h1 : lib.initializedRc = 0) (h2 : lib.initRc = 0) (h3 : lib.provided < 3) (k : Nat) :
    ∃ p, run lib start (List.replicate (k + 1) .use) = .ok p ∧ p.inst = some ⟨false, false, 0, 0⟩ ∧ p.inits = 1 ∧ exit p = .ok p ∧
      p.phase = .running ∧ p.finals = 0 := by
  refine ⟨⟨.running, 1, 0, some ⟨false, false, 0, 0⟩⟩, ?_, rfl, rfl, rfl, rfl, rfl⟩
  have hs : step lib start .use = .ok ⟨.running, 1, 0, some ⟨false, false, 0, 0⟩⟩ := by
    have : ¬ 3 ≤ lib.provided := by omega
    simp [step, use, start, construct, h1, mpiInit, h2, this, Out.ok_bind]
  rw [List.replicate_succ, run, hs, Out.ok_bind]
  exact run_uses lib _ _ rfl k

/-- C87: programs that are undefined: one that finalises the MPI of the instance, one that initialises MPI after a use, and one whose first use is
after MPI was finalised. -/
theorem C87_ub (lib : Lib) (h1 : lib.initializedRc = 0) (h2 : lib.initRc = 0) (h3 : 3 ≤ lib.provided) :
    (∃ p, run lib start [.use, .finalize] = .ok p ∧ exit p = .ub) ∧ run lib start [.use, .init] = .ub ∧
      run lib start [.init, .finalize, .use] = .ub := by
  refine ⟨?_, ?_, ?_⟩
  · refine ⟨⟨.finalized, 1, 1, some ⟨true, true, if lib.rankRc = 0 then lib.rank else -1, if lib.sizeRc = 0 then lib.size else -1⟩⟩, ?_, rfl⟩
    simp [run, step, use, start, construct, h1, mpiInit, h2, h3, query, mpiFinalize, Out.ok_bind]
  · simp [run, step, use, start, construct, h1, mpiInit, h2, h3, query, Out.ok_bind]
  · simp [run, step, use, start, construct, mpiInit, h2, query, mpiFinalize, Out.ok_bind]

/-- C87: an endpoint has the rank and size of its communicator, and is not made from a null communicator or when the library fails. -/
theorem C87_endpoint (null : Bool) (lib : Lib) : (∃ r s, endpoint null lib = .ok (r, s)) ↔ (null = false ∧ lib.rankRc = 0 ∧ lib.sizeRc = 0) := by
  unfold endpoint
  constructor
  · rintro ⟨r, s, h⟩
    split at h
    · cases h
    · split at h
      · cases h
      · split at h
        · cases h
        · rename_i a b c
          exact ⟨by simpa using a, by simpa using b, by simpa using c⟩
  · rintro ⟨rfl, h1, h2⟩
    exact ⟨lib.rank, lib.size, by simp [h1, h2]⟩

theorem C87_endpoint_values (null : Bool) (lib : Lib) (r s : Int) (h : endpoint null lib = .ok (r, s)) : r = lib.rank ∧ s = lib.size := by
  unfold endpoint at h
  split at h
  · cases h
  · split at h
    · cases h
    · split at h
      · cases h
      · cases h; exact ⟨rfl, rfl⟩

/-- C87: all sessions of a process have the same epoch, the time at which the first was made. -/
theorem C87_epoch (now : Int) (l : List Int) : epochs (0, false) (now :: l) = List.replicate (l.length + 1) now := by
  have h : ∀ l : List Int, epochs (now, true) l = List.replicate l.length now := by
    intro l
    induction l with
    | nil => rfl
    | cons a l ih => simp only [epochs, epochInit, if_true, List.length_cons, List.replicate_succ, ih]
  simp only [epochs, epochInit, Bool.false_eq_true, if_false, h, List.replicate_succ]

namespace C87Ex

/-- Rank 2 of 5, with and without threads. -/
def lib : Lib := ⟨0, 0, 3, 0, 2, 0, 5⟩
def single : Lib := ⟨0, 0, 1, 0, 2, 0, 5⟩

/-- A program of its own and one that is a guest. -/
example : (run lib start [.use, .use] >>= exit) = .ok ⟨.finalized, 1, 1, some ⟨true, true, 2, 5⟩⟩ ∧
    (run lib start [.init, .use, .use, .finalize, .use] >>= exit) = .ok ⟨.finalized, 1, 1, some ⟨false, true, 2, 5⟩⟩ := by decide

/-- A library without threads. -/
example : (run single start [.use, .use] >>= exit) = .ok ⟨.running, 1, 0, some ⟨false, false, 0, 0⟩⟩ := by decide

/-- Endpoints, and epochs of three sessions. -/
example : endpoint false lib = .ok (2, 5) ∧ endpoint true lib = .err ∧ epochs (0, false) [7, 9, 12] = [7, 7, 7] := by decide

end C87Ex

end Hx.Props

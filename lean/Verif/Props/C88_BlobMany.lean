import Verif.Proofs.BlobMany
import Verif.Props.C54_NoDangling

/-!
# C88: buffers are freed exactly once however messages are mixed
-/

namespace Hx.Props

open Hx.Own Hx.Spec.Blob Hx.Spec.BlobMany

theorem allClean_of_passes {p : Nat → Program} {h : History} (hm : Mixed p h)
    (hp : ∀ k, Passes false (p k)) : AllClean h := by
  intro v hv m hr hf
  obtain ⟨m', h1, h2⟩ := clean_of_passes (passes_joined hm hp) (joinedVar v) (names_joined hv) m hr
    fun q r hq => by
      obtain ⟨o, ho⟩ := at_joined hq
      exact hf _ _ r o ho
  rw [compile_joined] at h1
  exact ⟨m', exec_of_run h1, h2⟩

theorem allSafe_of_passes {p : Nat → Program} {h : History} (hm : Mixed p h)
    (hp : ∀ k, Passes true (p k)) : AllSafe h := by
  intro v hv m hr hf
  obtain ⟨m', h1, h2⟩ := safe_of_passes (passes_joined hm hp) (joinedVar v) (names_joined hv) m hr
    fun q r hq => by
      obtain ⟨o, ho⟩ := at_joined hq
      exact hf _ _ r o ho
  rw [compile_joined] at h1
  exact ⟨m', h1, h2⟩

/-- **C88** (freed exactly once).  Any number of messages of any kind, served
by the ranks themselves or through Thallium, each with any number of
operations, mixed in any order.  Missing: GETOPs that return no record, or
records that cannot be decoded, and the transport of MPI, for which it is
false (C46). -/
theorem C88_once_partial {p : Nat → Program} {h : History} (hm : Mixed p h)
    (hp : ∀ k, Flush .thallium (p k) ∨ OpFlush .thallium Decodes (p k)) : AllClean h :=
  allClean_of_passes hm fun k => (hp k).elim passes_flush passes_ops

/-- **C88** (nothing undefined).  … and whichever transport each message takes,
nothing is read or freed that has been freed before.  Missing: GETOPs that
return no record, for which it is false (C54). -/
theorem C88_safe_partial {p : Nat → Program} {h : History} (hm : Mixed p h) (t : Nat → Transport)
    (hp : ∀ k, Flush (t k) (p k) ∨ OpFlush (t k) (fun _ => True) (p k)) : AllSafe h :=
  allSafe_of_passes hm fun k => (hp k).elim passes_flush_any passes_ops_any

namespace C88Ex

/-- Two PUTs that the rank serves itself while two GETs are on their way to
another rank. -/
def progs : Nat → Program
  | 0 => putLocal .inMemory 2 C46Ex.entry
  | 1 => getRemote .thallium C46Ex.sizes 2 C46Ex.entry
  | _ => []

/-- First one, then the other, operation by operation. -/
def turns : List (Place × Op) → List (Place × Op) → History
  | [], ys => ys.map fun y => (1, y)
  | x :: xs, [] => (x :: xs).map fun x => (0, x)
  | x :: xs, y :: ys => (0, x) :: (1, y) :: turns xs ys

def history : History := turns (flat (progs 0)) (flat (progs 1))

theorem of_turns (xs ys : List (Place × Op)) :
    (turns xs ys).of 0 = xs ∧ (turns xs ys).of 1 = ys ∧ ∀ k, (turns xs ys).of (k + 2) = [] := by
  fun_induction turns xs ys with
  | case1 ys => simp [History.of, List.filter_map, Function.comp_def]
  | case2 x xs => simp [History.of, List.filter_map, Function.comp_def]
  | case3 x xs y ys ih =>
    obtain ⟨h0, h1, h2⟩ := ih
    simp only [History.of] at h0 h1 h2 ⊢
    simp [h0, h1, h2]

theorem mixed : Mixed progs history
  | 0 => (of_turns _ _).1
  | 1 => (of_turns _ _).2.1
  | k + 2 => (of_turns _ _).2.2 k

theorem flushes : ∀ k, Flush .thallium (progs k)
  | 0 => .putLocal _ _ _
  | 1 => .getRemote _ _ _
  | _ + 2 => .none

/-- Names of variables. -/
def var (k : Nat) (q : Place) (r : Nat) : Nat := Nat.pair k (C46Ex.var q r)

theorem apart : Apart var := by
  intro k q r k' q' r' h
  obtain ⟨h1, h2⟩ := Nat.pair_eq_pair.mp h
  exact ⟨h1, C46Ex.names _ _ _ _ h2⟩

/-- Everything that was allocated has been freed once. -/
def allFreed : Out Mem → Bool
  | .ok m => (List.range m.next).all fun k => timesFreed m (.heap k) == 1
  | _ => true

end C88Ex

example : AllClean C88Ex.history :=
  C88_once_partial C88Ex.mixed fun k => .inl (C88Ex.flushes k)

/-- It allocates and frees: 10 buffers for the PUTs, 16 for the GETs. -/
example : C46Ex.tally (run .empty (C88Ex.history.ops C88Ex.var)) = some (26, [], 26) := by
  decide +kernel

/-- The hypotheses about variables are met. -/
example : ∃ m', run .empty (C88Ex.history.ops C88Ex.var) = .ok m' ∧ m'.objs = Mem.empty.objs :=
  let ⟨m', h, h', _⟩ := C88_once_partial C88Ex.mixed (fun k => .inl (C88Ex.flushes k)) _
    C88Ex.apart .empty ⟨[], .nil _⟩ fun _ _ _ _ _ => rfl
  ⟨m', h, h'⟩

/-- One message through MPI among others is enough to lose a buffer. -/
theorem C88_mpi_false :
    ¬ ∀ (p : Nat → Program) (h : History), Mixed p h → (∀ k, Flush .mpi (p k)) → AllClean h := by
  intro hall
  have hm : Mixed (fun k => if k = 0 then putRemote .inMemory .mpi C46Ex.sizes 1 C46Ex.entry else [])
      (C88Ex.turns (flat (putRemote .inMemory .mpi C46Ex.sizes 1 C46Ex.entry)) []) := by
    rintro (_ | _ | k)
    · exact (C88Ex.of_turns _ _).1
    · exact (C88Ex.of_turns _ _).2.1
    · exact (C88Ex.of_turns _ _).2.2 k
  obtain ⟨m', hr, -, -, honce, -⟩ := hall _ _ hm
    (fun k => by
      by_cases hk : k = 0
      · subst hk; exact .putRemote _ _ _ _
      · rw [if_neg hk]; exact .none)
    _ C88Ex.apart .empty ⟨[], .nil _⟩ fun _ _ _ _ _ => rfl
  have ht : C88Ex.allFreed (run .empty (History.ops C88Ex.var
      (C88Ex.turns (flat (putRemote .inMemory .mpi C46Ex.sizes 1 C46Ex.entry)) []))) = false := by
    decide +kernel
  rw [hr, C88Ex.allFreed, ← Bool.not_eq_true, List.all_eq_true] at ht
  refine ht fun k hk => ?_
  rw [honce k (Nat.zero_le _) (List.mem_range.mp hk)]
  rfl

end Hx.Props

import Verif.Model.Close
import Verif.Spec.Rpc

/-!
# Specification: closing a session
-/

namespace Hx.Spec.Close
open Hx Hx.Close

variable {n : Nat} {α β W A S Λ : Type}

/-- All that a rank does before it closes the session: up to the first call of `Sync`, and after each. -/
def whole (first : Fin n → List A) (rest : Fin n → List (List A)) (c : Fin n) : List A := first c ++ (rest c).flatten

/-- All ranks call `Sync` `m` times ("Collective operation", src/hxhim/ops/SYNC.cpp:7). -/
def Collective (m : Nat) (rest : Fin n → List (List A)) : Prop := ∀ c, (rest c).length = m

/-- All ranks call `Sync` directly before `Close`. -/
def SyncLast (rest : Fin n → List (List A)) : Prop := ∀ c, (rest c).getLast? = some []

/-- `Close` has returned on all ranks. -/
def AllClosed (st : St n A S) : Prop := ∀ c, st.place c = .closed

/-- The rank is behind the barrier of `Close`. -/
def Left (p : Place) : Prop := p = .leaving ∨ p = .gone ∨ p = .closed

/-- The rank has done everything and has called `Close`. -/
def Closing (p : Place) : Prop := p = .closing ∨ Left p

/-- No step is possible. -/
def Stuck (net : Net n A S Λ) (st : St n A S) : Prop := ∀ l, step net st l = none

/-- How many steps there can be with MPI. -/
def mpiBound (L m : Nat) (prog : Fin n → List (Mpi.Act n α)) : Nat := Spec.Mpi.stepBound prog + n * (2 * m + 4 + L) + 1

/-- How many steps there can be with Thallium. -/
def rpcBound (m : Nat) (prog : Fin n → List (Mpi.Act n α)) : Nat := Spec.Rpc.stepBound prog + n * (2 * m + 4)

/-- A rank was asked to free a response, and has not. -/
def Cleaning (st : Rpc.St n α β W) (s : Fin n) : Prop := ∃ x ∈ st.calls, x.dst = s ∧ ∃ a, x.stage = .cleaning a

/-- No rank destroys its range server while it is asked to free responses. -/
def Tidy (sys : Rpc.Sys n α β W) : St n (Mpi.Act n α) (Rpc.St n α β W) → List (Label n (Rpc.Label n)) → Prop
  | _, [] => True
  | st, l :: ls => (∀ s, l = .destroy s → ¬ Cleaning st.base s) ∧ ∀ st', step (rpcNet sys) st l = some st' → Tidy sys st' ls

end Hx.Spec.Close

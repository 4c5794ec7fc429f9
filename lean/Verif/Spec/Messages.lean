import Verif.Model.Messages

/-!
# What becomes of messages
-/

namespace Hx.Spec.Lives

open Hx.Lives

/-- `given`, and all messages constructed between `l` and `l'`, have been
destructed exactly once in between, and no other message has. -/
structure Done (given : List Nat) (l l' : Ledger) : Prop where
  later : l.next ≤ l'.next
  once : ∀ k, k ∈ given ∨ (l.next ≤ k ∧ k < l'.next) → l'.gone.count k = l.gone.count k + 1
  others : ∀ k, k ∉ given → ¬ (l.next ≤ k ∧ k < l'.next) → l'.gone.count k = l.gone.count k
  whole : l'.lost = l.lost

/-- A ledger knows the messages it says are gone. -/
def Known (l : Ledger) : Prop := ∀ k ∈ l.gone, k < l.next

/-- Requests that are there to be sent: each is in one queue once. -/
def Queued (qs : List (List Nat)) (l : Ledger) : Prop :=
  qs.flatten.Nodup ∧ ∀ k ∈ qs.flatten, k < l.next ∧ k ∉ l.gone

/-- Datastores of other ranks are on different ranks. -/
def OneEach (s : Session) (n : Nat) : Prop :=
  ∀ ds ds', ds < n → ds' < n → s.toRank ds = s.toRank ds' → s.toRank ds ≠ s.here → ds = ds'

end Hx.Spec.Lives

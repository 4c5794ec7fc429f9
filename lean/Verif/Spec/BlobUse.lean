import Verif.Model.BlobUse
import Verif.Spec.Blob

/-!
# What programs of the library may do to memory

The vocabulary of properties C46 and C54 for the programs of
`Model/BlobUse.lean`.
-/

namespace Hx.Spec.Blob

open Hx.Own

/-- The places of a program. -/
def At (p : Program) (q : Place) : Prop := ∃ ops, (q, ops) ∈ p

/-- Names of variables: different places and roles have different ones. -/
def Names (v : Place → Nat → Nat) : Prop := ∀ q r q' r', v q r = v q' r' → q = q' ∧ r = r'

/-- A program leaves no trace, whatever else is in memory when it starts. -/
def Clean (p : Program) : Prop :=
  ∀ v, Names v → ∀ m, Reachable m → (∀ q r, At p q → m.objs (v q r) = none) →
    ∃ m', Run m (compile v p) m' ∧
      -- the blobs of others are as before
      m'.objs = m.objs ∧
      -- what others own is not freed
      (∀ k, Owned m k → timesFreed m' (.heap k) = 0) ∧
      -- what has been allocated has been freed exactly once
      (∀ k, m.next ≤ k → k < m'.next → timesFreed m' (.heap k) = 1) ∧
      -- the buffers of the user have not
      ∀ a, timesFreed m' (.outside a) = 0

/-- A program does nothing undefined, though it may leak. -/
def Safe (p : Program) : Prop :=
  ∀ v, Names v → ∀ m, Reachable m → (∀ q r, At p q → m.objs (v q r) = none) →
    -- it runs to its end: nothing is read or freed that has been freed
    ∃ m', Own.run m (compile v p) = .ok m' ∧
      -- it leaves no blob behind
      m'.objs = m.objs ∧
      -- what others own is not freed
      (∀ k, Owned m k → timesFreed m' (.heap k) = 0) ∧
      -- nothing is freed twice
      (∀ x, timesFreed m' x ≤ 1) ∧
      -- the buffers of the user are not freed
      ∀ a, timesFreed m' (.outside a) = 0

end Hx.Spec.Blob

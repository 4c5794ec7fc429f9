import Verif.Model.BlobMany
import Verif.Spec.BlobUse

/-!
# What many messages may do to memory
-/

namespace Hx.Spec.BlobMany

open Hx.Own Hx.Spec.Blob

/-- Message `k` does what `p k` says, in this order; between two of its
operations anything may be done for other messages. -/
def Mixed (p : Nat → Program) (h : History) : Prop := ∀ k, h.of k = flat (p k)

/-- Different messages, places and roles have different variables. -/
def Apart (v : Nat → Place → Nat → Nat) : Prop :=
  ∀ k q r k' q' r', v k q r = v k' q' r' → k = k' ∧ q = q' ∧ r = r'

/-- None of the variables exists yet. -/
def Fresh (v : Nat → Place → Nat → Nat) (h : History) (m : Mem) : Prop :=
  ∀ k q r o, (k, q, o) ∈ h → m.objs (v k q r) = none

/-- Nothing is left of what was done, whatever else is in memory. -/
def AllClean (h : History) : Prop :=
  ∀ v, Apart v → ∀ m, Reachable m → Fresh v h m →
    ∃ m', Own.run m (h.ops v) = .ok m' ∧
      -- the blobs of others are as before
      m'.objs = m.objs ∧
      -- what others own is not freed
      (∀ k, Owned m k → timesFreed m' (.heap k) = 0) ∧
      -- what has been allocated has been freed exactly once
      (∀ k, m.next ≤ k → k < m'.next → timesFreed m' (.heap k) = 1) ∧
      -- the buffers of the user have not
      ∀ a, timesFreed m' (.outside a) = 0

/-- Nothing undefined is done, though something may leak. -/
def AllSafe (h : History) : Prop :=
  ∀ v, Apart v → ∀ m, Reachable m → Fresh v h m →
    ∃ m', Own.run m (h.ops v) = .ok m' ∧
      m'.objs = m.objs ∧
      (∀ k, Owned m k → timesFreed m' (.heap k) = 0) ∧
      (∀ x, timesFreed m' x ≤ 1) ∧
      ∀ a, timesFreed m' (.outside a) = 0

/-- What becomes of a message: the operations of all kinds, served by the rank
itself or sent to another one. -/
inductive Flush (t : Transport) : Program → Prop
  | none : Flush t []
  | putRemote (b z n e) : Flush t (putRemote b t z n e)
  | putLocal (b n e) : Flush t (putLocal b n e)
  | deleteRemote (b z n e) : Flush t (deleteRemote b t z n e)
  | deleteLocal (b n e) : Flush t (deleteLocal b n e)
  | getRemote (z n e) : Flush t (getRemote t z n e)
  | getLocal (n e) : Flush t (getLocal n e)
  | histRemote (z n e) : Flush t (histRemote t z n e)
  | histLocal (n e) : Flush t (histLocal n e)
  | writeHistograms (n e) : Flush t (writeHistograms n e)
  | readHistograms (n e) : Flush t (readHistograms n e)

/-- GETOPs that return a record at least, as C46 and C54 have them; `D` is what
else is asked of them. -/
inductive OpFlush (t : Transport) (D : OpEntry → Prop) : Program → Prop
  | getOpRemote (z n g) (hg : ∀ i, i < n → (g i).Valid) (hd : ∀ i, i < n → D (g i)) :
      OpFlush t D (getOpRemote t z n g)
  | getOpLocal (n g) (hg : ∀ i, i < n → (g i).Valid) (hd : ∀ i, i < n → D (g i)) :
      OpFlush t D (getOpLocal n g)

/-- Everything that was found is decoded, or the subject is not. -/
def Decodes (g : OpEntry) : Prop := g.failure ≠ some .predicate ∧ g.failure ≠ some .object

end Hx.Spec.BlobMany

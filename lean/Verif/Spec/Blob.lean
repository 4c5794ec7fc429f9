import Verif.Model.Blob

/-!
# What it means to own a buffer

The vocabulary of property C46, apart from the code of `Blob`.
-/

namespace Hx.Spec.Blob

open Hx.Own

/-- Blob `x` owns buffer `n`. -/
def Owns (m : Mem) (x n : Nat) : Prop :=
  ∃ o, m.objs x = some o ∧ o.clean = true ∧ o.ptr = .heap n

/-- Some blob owns buffer `n`. -/
def Owned (m : Mem) (n : Nat) : Prop := ∃ x, Owns m x n

/-- Blob `x` owns no buffer. -/
def OwnsNothing (m : Mem) (x : Nat) : Prop := ∀ n, ¬ Owns m x n

/-- Buffer `n` is allocated, and the business of the one who allocated it. -/
def Raw (m : Mem) (n : Nat) : Prop := n ∈ m.live ∧ ¬ Owned m n

/-- A pointer one may give away: null, or a buffer that no blob owns. -/
def Given (m : Mem) (p : Ptr) : Prop := p = .null ∨ ∃ n, p = .heap n ∧ Raw m n

/-- Blob `x` refers to a buffer that has been freed. -/
def Dangles (m : Mem) (x : Nat) : Prop :=
  ∃ o n, m.objs x = some o ∧ o.ptr = .heap n ∧ n ∉ m.live

/-- The rules a program has to follow.  Constructors, copies, moves,
assignments and destructions are free.

* A blob that is to own what it is given must be given a buffer that no other
  blob owns, and that came from `alloc`.
* `dealloc` without a blob is for buffers without a blob.
* `clear`, `unpack` and `unpack_ref` are for blobs that own nothing: they
  overwrite the pointer.
* `set_clean(true)` is for a blob that is clean already, or points to a buffer
  without an owner.
* Only blobs that do not dangle are read.
* Storage given up without a destructor holds no blob that owns a buffer. -/
def Proper (m : Mem) : Op → Prop
  | .make _ p _ _ true => Given m p
  | .free p => Given m p
  | .clear x => OwnsNothing m x
  | .unpack x _ _ _ _ => OwnsNothing m x
  | .unpackRef x _ _ _ => OwnsNothing m x
  | .setClean x true => ∀ o, m.objs x = some o → o.clean = true ∨ Given m o.ptr
  | .read x => ¬ Dangles m x
  | .forget x => OwnsNothing m x
  | _ => True

/-- `set_clean(false)` makes a buffer the business of the caller again. -/
def GivesBack : Op → Prop
  | .setClean _ false => True
  | _ => False

/-- Runs of programs that follow the rules. -/
inductive Run : Mem → List Op → Mem → Prop
  | nil (m : Mem) : Run m [] m
  | cons {m m₁ m₂ : Mem} {op : Op} {ops : List Op} :
      Proper m op → exec m op = .ok m₁ → Run m₁ ops m₂ → Run m (op :: ops) m₂

/-- A state a program following the rules can reach. -/
def Reachable (m : Mem) : Prop := ∃ ops, Run Mem.empty ops m

/-- How often `p` has been given to `operator delete`. -/
def timesFreed (m : Mem) (p : Ptr) : Nat := m.freed.count p

end Hx.Spec.Blob

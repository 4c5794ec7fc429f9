import Verif.Model.ResultLists

/-!
# What becomes of results
-/

namespace Hx.Spec.Lists

open Hx.Lists

/-- How often a result is in lists. -/
def held (m : Mem) (x : Nat) : Nat := (m.heap.map fun l => l.2.count x).sum

/-- A list holds these results, in this order. -/
def Holds (m : Mem) (k : Nat) (xs : List Nat) : Prop := (k, xs) ∈ m.heap

/-- The user gets a new list with what the session has kept and, after it, the
new results; the session keeps nothing, and no other list changes. -/
structure HandedOver (s s' : State) (res : Nat) (new : List Nat) : Prop where
  nothing : s'.async = none
  fresh : ∀ xs, ¬ Holds s.mem res xs
  all : ∀ k xs, s.async = some k → Holds s.mem k xs → Holds s'.mem res (xs ++ new)
  empty : s.async = none → Holds s'.mem res new
  others : ∀ k xs, s.async ≠ some k → Holds s.mem k xs → Holds s'.mem k xs

/-- Every result that was made is in one list, once, or has been destructed,
once; and the lists there are are those of the user and the one
the session keeps. -/
def Kept (s : State) : Prop :=
  (∀ x, held s.mem x + s.mem.gone.count x = if x < s.mem.made then 1 else 0) ∧
  (s.mem.heap.map fun l => l.1).Perm (s.async.toList ++ s.users)

/-- No list is left, and every result has been destructed exactly once. -/
def AllGone (s : State) : Prop :=
  s.mem.heap = [] ∧ ∀ x, s.mem.gone.count x = if x < s.mem.made then 1 else 0

end Hx.Spec.Lists

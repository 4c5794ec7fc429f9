import Verif.Model.AsyncOverlap

/-!
# Specification: time in a job of ranks with asynchronous PUTs
-/

namespace Hx.Spec.AsyncOverlap
open Hx Hx.AsyncOverlap

/-- Turn `a` ended before turn `b` began. Turns are numbered in the order they begin. -/
def Before {n : Nat} (trace : List (Event n)) (a b : Nat) : Prop :=
  ∃ t i calls u told v, trace = t ++ .begins i calls :: (u ++ .ends i told :: v) ∧ (turnsOf t).length = a ∧
    (turnsOf (t ++ .begins i calls :: u)).length ≤ b

/-- The events of turns of one rank with their requests and what the flush functions returned. -/
def blocks {n : Nat} (i : Fin n) (l : List ((List Queue.Call × List Job.Served) × List Results.Results)) : List (Event n) :=
  l.flatMap (fun x => .begins i x.1.1 :: (x.1.2.map (.serves i) ++ [.ends i x.2]))

end Hx.Spec.AsyncOverlap

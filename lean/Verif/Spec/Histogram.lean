import Verif.Model.Histogram

/-!
# Specification of histograms
-/

namespace Hx.Spec
open Hx

/-- The left ends of buckets: at least one, numbers, ascending. -/
structure Ascending (left : List Dbl) : Prop where
  ne : left ≠ []
  num : ∀ x ∈ left, Dbl.isNaN x = false
  asc : left.Pairwise (fun a b => Dbl.rank a ≤ Dbl.rank b)

/-- `v` lies in bucket `i`: not left of its left end and, unless it is the last bucket, left of the
next one's. A NaN is left of nothing. -/
def inBucket (left : List Dbl) (i : Nat) (v : Dbl) : Bool :=
  !Dbl.lt v (left.getD i 0) && (decide (left.length ≤ i + 1) || Dbl.lt v (left.getD (i + 1) 0))

/-- How many of `vs` lie in each bucket. -/
def tally (left : List Dbl) (vs : List Dbl) : List Nat :=
  (List.range left.length).map (fun i => vs.countP (inBucket left i))

/-- `v` is not left of the first bucket. -/
def covered (left : List Dbl) (v : Dbl) : Bool := !Dbl.lt v (left.getD 0 0)

/-- The right end kept behind the last bucket: the largest covered value that exceeds the smallest
positive number. -/
def rightEnd (left : List Dbl) (vs : List Dbl) : Dbl :=
  vs.foldl (fun r v => if covered left v && Dbl.lt r v then v else r) Dbl.minPos

end Hx.Spec

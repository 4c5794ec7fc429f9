import Verif.Spec.OverlapFail
import Verif.Spec.OverlapGetOp

/-!
# Specification: what GETOPs see of flushes that overlap in time, when writes fail

As `Spec/OverlapGetOp`, but what a flush did is what the statuses of its results say.
-/

namespace Hx.Spec
open Hx Msg Results Job

/-- What flush `k` did to datastore `ds` in this part of the log, according to the responses. -/
def storeTold (accepts : Val → Bool) (hash : Bytes → Bytes → Out Int) (ds k : Nat) (l : List Served) : List Ev :=
  inStore hash ds ((partOf k l).flatMap (fun y => done accepts y.req.body y.res.body))

/-- What a GETOP at datastore `ds` in flush `i` can have seen, of `n` flushes, if `before` was executed before it: as `SeenIn`,
with the writes that reported success. -/
structure SeenInTold (accepts : Val → Bool) (hash : Bytes → Bytes → Out Int) (n : Nat) (f : Nat → Outcomes) (log : List Served)
    (i ds : Nat) (before : List Served) : Prop where
  own : storeTold accepts hash ds i before = inStore hash ds (succeededPuts accepts (f i).puts)
  order : ∀ k < n,
    storeTold accepts hash ds k before <+: inStore hash ds (succeededPuts accepts (f k).puts ++ succeededDels accepts (f k).dels)
  finished : ∀ k < n, Finished log k i → k ≠ i →
    storeTold accepts hash ds k before = inStore hash ds (succeededPuts accepts (f k).puts ++ succeededDels accepts (f k).dels)
  later : ∀ k, Finished log i k → k ≠ i → storeTold accepts hash ds k before = []

/-- The request of flush `i` with the GETOP `g` at its place in the log; `before` was executed before it. -/
structure OpAnsweredTold (accepts : Val → Bool) (hash : Bytes → Bytes → Out Int) (n : Nat) (f : Nat → Outcomes) (log : List Served)
    (i : Nat) (g : GetOpItem) (before : List Served) (y : Served) (after : List Served) : Prop where
  split : log = before ++ y :: after
  turn : y.turn = i
  asked : opAsk g ∈ opsIn y.req.body
  seen : ∀ ds : Nat, home hash g.subject g.predicate = some ds → y.req.dst = ds ∧ SeenInTold accepts hash n f log i ds before

end Hx.Spec

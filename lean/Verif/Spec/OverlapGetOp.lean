import Verif.Spec.JobGetOp
import Verif.Spec.Overlap

/-!
# Specification: what GETOPs of flushes that overlap in time see of each other

As `Spec.Overlap`, for all that happens to a datastore.
-/

namespace Hx.Spec
open Hx Msg Results Job

/-- What flush `k` did to datastore `ds` in this part of the log. -/
def storeBy (accepts : Val → Bool) (hash : Bytes → Bytes → Out Int) (ds k : Nat) (l : List Served) : List Ev :=
  inStore hash ds ((partOf k l).flatMap (fun y => events accepts y.req.body))

/-- What a GETOP at datastore `ds` in flush `i` can have seen, if `before` was executed before it: the
PUTs of its own flush but none of its DELETEs, everything of finished flushes, nothing of flushes that
begin later, and of all flushes only a beginning of what they do to the datastore, in their order. -/
structure SeenIn (accepts : Val → Bool) (hash : Bytes → Bytes → Out Int) (turns : List Turn) (log : List Served) (i ds : Nat)
    (before : List Served) : Prop where
  own : ∀ x, turns[i]? = some x → storeBy accepts hash ds i before = inStore hash ds (storedPuts accepts (turnOps hash x))
  order : ∀ k x, turns[k]? = some x →
    storeBy accepts hash ds k before <+: inStore hash ds (flushEvents accepts (turnOps hash x))
  finished : ∀ k x, turns[k]? = some x → Finished log k i → k ≠ i →
    storeBy accepts hash ds k before = inStore hash ds (flushEvents accepts (turnOps hash x))
  later : ∀ k, Finished log i k → k ≠ i → storeBy accepts hash ds k before = []

/-- What a GETOP asks for; FIRST and LAST have no subject and predicate. -/
def opAsk (x : GetOpItem) : Nat × Option (Val × Val) × Nat :=
  (x.op, if x.op = 3 ∨ x.op = 4 then none else some (x.subject.val, x.predicate.val), x.numRecs)

/-- The GETOPs of a request. -/
def opsIn : ReqBody → List (Nat × Option (Val × Val) × Nat)
  | .getop l => l.map opAsk
  | _ => []

/-- The request of flush `i` with the GETOP `g` at its place in the log; `before` was executed before it. -/
structure OpAnswered (accepts : Val → Bool) (hash : Bytes → Bytes → Out Int) (turns : List Turn) (log : List Served) (i : Nat)
    (g : GetOpItem) (before : List Served) (y : Served) (after : List Served) : Prop where
  split : log = before ++ y :: after
  turn : y.turn = i
  asked : opAsk g ∈ opsIn y.req.body
  seen : ∀ ds : Nat, home hash g.subject g.predicate = some ds → y.req.dst = ds ∧ SeenIn accepts hash turns log i ds before

end Hx.Spec

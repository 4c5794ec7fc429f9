import Verif.Spec.Overlap
import Verif.Spec.JobFail

/-!
# Specification: what flushes that overlap in time see of each other, when writes fail

As `Spec/Overlap`, but what a flush did is what the statuses of its results say.
-/

namespace Hx.Spec
open Hx Msg Results Job

/-- The PUTs of a flush with their results, and its DELETEs with their results. -/
structure Outcomes where
  puts : List ((Blob × Blob × Blob) × Result)
  dels : List ((Blob × Blob) × Result)

/-- `f k` has the results of the writes of flush `k`. -/
def ToldBy (hash : Bytes → Bytes → Out Int) (turns : List Turn) (rs : List Results) (f : Nat → Outcomes) : Prop :=
  ∀ k x r, turns[k]? = some x → rs[k]? = some r →
    PutsReported (turnOps hash x) r (f k).puts ∧ DelsReported (turnOps hash x) r (f k).dels

/-- The PUTs of a pair by a flush that reported success. -/
def putsTold (accepts : Val → Bool) (s p : Val) (z : Outcomes) : List Ev := (succeededPuts accepts z.puts).filter (ofPair s p)

/-- The changes of a pair by a flush that reported success, in the order they are executed in. -/
def changesTold (accepts : Val → Bool) (s p : Val) (z : Outcomes) : List Ev :=
  (succeededPuts accepts z.puts ++ succeededDels accepts z.dels).filter (ofPair s p)

/-- The changes of a pair that the range servers reported as successful, in the order they were executed, with the flush they
belong to. -/
def wrote (accepts : Val → Bool) (s p : Val) (log : List Served) : List (Nat × Ev) :=
  log.flatMap (fun y => ((done accepts y.req.body y.res.body).filter (ofPair s p)).map (fun e => (y.turn, e)))

/-- What a GET of a pair in flush `i` can have seen, of `n` flushes: as `Seen`, with the writes that reported success. -/
structure SeenTold (accepts : Val → Bool) (n : Nat) (f : Nat → Outcomes) (log : List Served) (i : Nat) (s p : Val)
    (v : List (Nat × Ev)) : Prop where
  own : writesBy i v = putsTold accepts s p (f i)
  order : ∀ k < n, writesBy k v <+: changesTold accepts s p (f k)
  finished : ∀ k < n, Finished log k i → k ≠ i → writesBy k v = changesTold accepts s p (f k)
  later : ∀ k, Finished log i k → k ≠ i → writesBy k v = []
  all : ∀ z ∈ v, z.1 < n

/-- A request of flush `i` at its place in the log; `before` was executed before it. -/
structure AnsweredTold (accepts : Val → Bool) (n : Nat) (f : Nat → Outcomes) (log : List Served) (i : Nat) (before : List Served)
    (y : Served) (after : List Served) : Prop where
  split : log = before ++ y :: after
  turn : y.turn = i
  seen : ∀ g ∈ askedIn y.req.body, SeenTold accepts n f log i g.1 g.2 (wrote accepts g.1 g.2 before)

/-- `e`, done by flush `k`, can be the latest change of the pair at a GET of flush `i`: as `Latest`, with the writes that
reported success. -/
structure LatestTold (accepts : Val → Bool) (n : Nat) (f : Nat → Outcomes) (log : List Served) (i : Nat) (s p : Val) (k : Nat)
    (e : Ev) : Prop where
  turn : k < n
  mem : e ∈ changesTold accepts s p (f k)
  began : k ≠ i → ¬ Finished log i k
  own : k = i → (putsTold accepts s p (f k)).getLast? = some e
  finished : k ≠ i → Finished log k i → (changesTold accepts s p (f k)).getLast? = some e
  between : ∀ k' < n, k' ≠ k → k' ≠ i → Finished log k k' → Finished log k' i → changesTold accepts s p (f k') = []
  before : k ≠ i → Finished log k i → putsTold accepts s p (f i) = []

/-- The result of a GET of `g` in flush `i` is explained by one of the changes that can be the latest, or by none having to be
executed yet. -/
structure ExplainedTold (t : Transform) (n : Nat) (f : Nat → Outcomes) (log : List Served) (i : Nat) (g : Blob × Blob)
    (r : Result) : Prop where
  kind : r.kind = .get
  subject : r.subject = .ref ⟨g.1.addr, g.1.bytes.length, g.1.typ⟩
  predicate : r.predicate = .ref ⟨g.2.addr, g.2.bytes.length, g.2.typ⟩
  status : r.status = hxSuccess ∨ r.status = hxError
  found : r.status = hxSuccess → ∃ k o, LatestTold t.accepts n f log i g.1.val g.2.val k (.put g.1.val g.2.val o) ∧
    ∃ b : Blob, r.object = .own b ∧ b.bytes = t.R o ∧ b.typ = o.typ
  absent : r.status = hxError →
    (∃ k, LatestTold t.accepts n f log i g.1.val g.2.val k (.del g.1.val g.2.val)) ∨
    (putsTold t.accepts g.1.val g.2.val (f i) = [] ∧
      ∀ k < n, k ≠ i → Finished log k i → changesTold t.accepts g.1.val g.2.val (f k) = [])

end Hx.Spec

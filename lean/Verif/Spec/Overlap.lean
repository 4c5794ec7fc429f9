import Verif.Model.Overlap
import Verif.Spec.Job

/-!
# Specification: what flushes that overlap in time see of each other

A GET sees the writes of its pair that were executed before it. `Seen` says which ones these can be,
on the level of the operations of the flushes.
-/

namespace Hx.Spec
open Hx Msg Results Job

/-- The event is about the pair. -/
def ofPair (s p : Val) : Ev → Bool
  | .put s' p' _ => decide (s' = s ∧ p' = p)
  | .del s' p' => decide (s' = s ∧ p' = p)

/-- The writes of a pair in the order they were executed, with the flush they belong to. -/
def writes (accepts : Val → Bool) (s p : Val) (log : List Served) : List (Nat × Ev) :=
  log.flatMap (fun y => ((events accepts y.req.body).filter (ofPair s p)).map (fun e => (y.turn, e)))

/-- The writes by one flush. -/
def writesBy (i : Nat) (v : List (Nat × Ev)) : List Ev := (v.filter (fun z => decide (z.1 = i))).map Prod.snd

/-- All requests of flush `a` were served before all requests of flush `b`; for instance because they
are flushes of one rank, or because there is a barrier or a message between them. -/
def Finished (log : List Served) (a b : Nat) : Prop := log.Pairwise (fun y z => ¬ (y.turn = b ∧ z.turn = a))

/-- What a GET of a pair in flush `i` can have seen: its own PUTs but not its own DELETEs, everything
of finished flushes, nothing of flushes that begin later, and of all flushes only a beginning of what
they do with the pair, in their order. -/
structure Seen (accepts : Val → Bool) (hash : Bytes → Bytes → Out Int) (turns : List Turn) (log : List Served) (i : Nat)
    (s p : Val) (v : List (Nat × Ev)) : Prop where
  own : ∀ x, turns[i]? = some x → writesBy i v = (storedPuts accepts (turnOps hash x)).filter (ofPair s p)
  order : ∀ k x, turns[k]? = some x → writesBy k v <+: (flushEvents accepts (turnOps hash x)).filter (ofPair s p)
  finished : ∀ k x, turns[k]? = some x → Finished log k i → k ≠ i →
    writesBy k v = (flushEvents accepts (turnOps hash x)).filter (ofPair s p)
  later : ∀ k, Finished log i k → k ≠ i → writesBy k v = []
  all : ∀ z ∈ v, z.1 < turns.length

/-- The pairs of the GETs of a request. -/
def askedIn : ReqBody → List (Val × Val)
  | .get l => l.map (fun g => (g.subject.val, g.predicate.val))
  | _ => []

/-- A request of flush `i` at its place in the log; `before` was executed before it. -/
structure Answered (accepts : Val → Bool) (hash : Bytes → Bytes → Out Int) (turns : List Turn) (log : List Served) (i : Nat)
    (before : List Served) (y : Served) (after : List Served) : Prop where
  split : log = before ++ y :: after
  turn : y.turn = i
  seen : ∀ g ∈ askedIn y.req.body, Seen accepts hash turns log i g.1 g.2 (writes accepts g.1 g.2 before)

/-- What a flush does to a pair. -/
def changes (accepts : Val → Bool) (hash : Bytes → Bytes → Out Int) (s p : Val) (x : Turn) : List Ev :=
  (flushEvents accepts (turnOps hash x)).filter (ofPair s p)

/-- The PUTs of a pair by a flush. -/
def putsOf (accepts : Val → Bool) (hash : Bytes → Bytes → Out Int) (s p : Val) (x : Turn) : List Ev :=
  (storedPuts accepts (turnOps hash x)).filter (ofPair s p)

/-- `e`, done by flush `k`, can be the latest change of the pair at a GET of flush `i`: flush `k` does
not begin after flush `i`, no flush that is entirely between the two changes the pair, and `e` is not
followed by another change of flush `k` that must have been executed. -/
structure Latest (accepts : Val → Bool) (hash : Bytes → Bytes → Out Int) (turns : List Turn) (log : List Served) (i : Nat)
    (s p : Val) (k : Nat) (x : Turn) (e : Ev) : Prop where
  turn : turns[k]? = some x
  mem : e ∈ changes accepts hash s p x
  began : k ≠ i → ¬ Finished log i k
  own : k = i → (putsOf accepts hash s p x).getLast? = some e
  finished : k ≠ i → Finished log k i → (changes accepts hash s p x).getLast? = some e
  between : ∀ k' x', turns[k']? = some x' → k' ≠ k → k' ≠ i → Finished log k k' → Finished log k' i →
    changes accepts hash s p x' = []
  before : ∀ x', turns[i]? = some x' → k ≠ i → Finished log k i → putsOf accepts hash s p x' = []

/-- The result of a GET of `g` in flush `i` is explained by one of the changes that can be the latest,
or by none having to be executed yet. -/
structure Explained (t : Transform) (hash : Bytes → Bytes → Out Int) (turns : List Turn) (log : List Served) (i : Nat)
    (g : Blob × Blob) (r : Result) : Prop where
  kind : r.kind = .get
  subject : r.subject = .ref ⟨g.1.addr, g.1.bytes.length, g.1.typ⟩
  predicate : r.predicate = .ref ⟨g.2.addr, g.2.bytes.length, g.2.typ⟩
  status : r.status = hxSuccess ∨ r.status = hxError
  found : r.status = hxSuccess → ∃ k x o, Latest t.accepts hash turns log i g.1.val g.2.val k x (.put g.1.val g.2.val o) ∧
    ∃ b : Blob, r.object = .own b ∧ b.bytes = t.R o ∧ b.typ = o.typ
  absent : r.status = hxError →
    (∃ k x, Latest t.accepts hash turns log i g.1.val g.2.val k x (.del g.1.val g.2.val)) ∨
    ∀ k x, turns[k]? = some x → (k = i → putsOf t.accepts hash g.1.val g.2.val x = []) ∧
      (k ≠ i → Finished log k i → changes t.accepts hash g.1.val g.2.val x = [])

end Hx.Spec

import Verif.Spec.OverlapFail
import Verif.Spec.Prepared
import Verif.Spec.HistStore
import Verif.Spec.Wire

/-!
# Specification: histograms of a job

What the histogram requests of a flush find while the flushes of all ranks overlap and writes may fail. A number counts when the
PUT with it reported success.
-/

namespace Hx.Spec
open Hx Msg Results Job Process

/-- The histogram requests of a flush: the datastore asked and the name. -/
def histOps (l : List Op) : List (Nat × Blob) := l.filterMap (fun | .hist rs name => some (rs.toNat, name) | _ => none)

/-- The number a triple contributes to the histogram called `name`. -/
def tripleNumber (name : Bytes) (x : Blob × Blob × Blob) : Option Dbl := contributes name ⟨x.1, x.1.addr, x.2.1, x.2.1.addr, x.2.2⟩

/-- The numbers for the histogram `name` of datastore `ds` of the PUTs of a flush that reported success, in the order of the calls. -/
def toldNumbers (hash : Bytes → Bytes → Out Int) (ds : Nat) (name : Bytes) (ps : List ((Blob × Blob × Blob) × Result)) : List Dbl :=
  ps.filterMap (fun x => if x.2.status = hxSuccess ∧ home hash x.1.1 x.1.2.1 = some ds then tripleNumber name x.1 else none)

/-- The numbers for the histogram `name` that datastore `ds` answered with success, in the order they were executed. -/
def loggedNumbers (ds : Nat) (name : Bytes) (l : List Served) : List Dbl :=
  (l.filter (fun y => decide (y.req.dst = (ds : Int)))).flatMap (fun y => contributed name y.req.body (some y.res.body))

/-- What a histogram request of flush `i` can have seen, of `n` flushes: all numbers of its own flush and of flushes finished before it,
the first few numbers of other flushes, and nothing of flushes that begin after it. -/
structure NumbersSeen (hash : Bytes → Bytes → Out Int) (n : Nat) (f : Nat → Outcomes) (log : List Served) (i : Nat) (ds : Nat)
    (name : Bytes) (before : List Served) : Prop where
  own : loggedNumbers ds name (partOf i before) = toldNumbers hash ds name (f i).puts
  order : ∀ k < n, loggedNumbers ds name (partOf k before) <+: toldNumbers hash ds name (f k).puts
  finished : ∀ k < n, Finished log k i → k ≠ i → loggedNumbers ds name (partOf k before) = toldNumbers hash ds name (f k).puts
  later : ∀ k, Finished log i k → k ≠ i → loggedNumbers ds name (partOf k before) = []

/-- A histogram request of flush `i` at its place in the log; `before` was executed before it. -/
structure HistAnswered (hash : Bytes → Bytes → Out Int) (n : Nat) (f : Nat → Outcomes) (log : List Served) (i : Nat) (q : Nat × Blob)
    (before : List Served) (y : Served) (after : List Served) : Prop where
  split : log = before ++ y :: after
  turn : y.turn = i
  dst : y.req.dst = (q.1 : Int)
  seen : NumbersSeen hash n f log i q.1 q.2.bytes before
  all : (loggedNumbers q.1 q.2.bytes before).Perm ((List.range n).flatMap (fun k => loggedNumbers q.1 q.2.bytes (partOf k before)))

/-- The histogram that datastore `ds` of the job has under a name. -/
def histAt (place : List Int) (w : World) (ds : Nat) (name : Bytes) : Option Hist :=
  place[ds]?.bind (fun r => (w.ds r)[ds % (w.ds r).length]?.bind (fun d => Store.find d.hists name))

/-- The result of a histogram request: the histogram `h0` with the numbers `vs` added, or an error if there is none. -/
structure HistReturned (h0 : Option Hist) (vs : List Dbl) (z : Result) : Prop where
  kind : z.kind = .hist
  found : ∀ h, h0 = some h → z.status = hxSuccess ∧ ∃ h1 h2, h.addAll vs = .ok h1 ∧ z.hist = some h2 ∧ SameHist h1 h2
  absent : h0 = none → z.status = hxError ∧ z.hist = none

end Hx.Spec

import Verif.Spec.Job

/-!
# Specification: what a job stores according to its results

Writes may fail. What ranks then see of each other is determined by the statuses of the results of their PUTs and DELETEs.
-/

namespace Hx.Spec
open Hx Msg Store Results

/-- The PUTs asked for, in the order of the calls. -/
def putTriples (l : List Op) : List (Blob × Blob × Blob) := l.filterMap (fun | .put s p o => some (s, p, o) | _ => none)

/-- The DELETEs asked for, in the order of the calls. -/
def delPairs (l : List Op) : List (Blob × Blob) := l.filterMap (fun | .del s p => some (s, p) | _ => none)

/-- `r` is a result of an operation of kind `k` on the pair: it refers to the memory of the caller and reports success or an
error. -/
structure Reports (k : Kind) (s p : Blob) (r : Result) : Prop where
  kind : r.kind = k
  subject : r.subject = .ref ⟨s.addr, s.bytes.length, s.typ⟩
  predicate : r.predicate = .ref ⟨p.addr, p.bytes.length, p.typ⟩
  status : r.status = hxSuccess ∨ r.status = hxError

/-- Every PUT of `l` with its result, in the order of the calls. All results of PUTs occur; those of PUTs of one pair are in the
order of the calls. -/
structure PutsReported (l : List Op) (r : Results) (ps : List ((Blob × Blob × Blob) × Result)) : Prop where
  all : ps.map Prod.fst = putTriples l
  results : (ps.map Prod.snd).Perm (r.items.filter (fun y => decide (y.kind = .put)))
  reports : ∀ x ∈ ps, Reports .put x.1.1 x.1.2.1 x.2
  order : ∀ s p : Val, ((ps.filter (fun x => decide ((x.1.1.val, x.1.2.1.val) = (s, p)))).map Prod.snd).Sublist r.items

/-- Every DELETE of `l` with its result, likewise. -/
structure DelsReported (l : List Op) (r : Results) (ds : List ((Blob × Blob) × Result)) : Prop where
  all : ds.map Prod.fst = delPairs l
  results : (ds.map Prod.snd).Perm (r.items.filter (fun y => decide (y.kind = .del)))
  reports : ∀ x ∈ ds, Reports .del x.1.1 x.1.2 x.2
  order : ∀ s p : Val, ((ds.filter (fun x => decide ((x.1.1.val, x.1.2.val) = (s, p)))).map Prod.snd).Sublist r.items

/-- The accepted PUTs that reported success. -/
def succeededPuts (accepts : Val → Bool) (ps : List ((Blob × Blob × Blob) × Result)) : List Ev :=
  ps.filterMap (fun x => if decide (x.2.status = hxSuccess) && (accepts x.1.1.val && accepts x.1.2.1.val && accepts x.1.2.2.val) then
    some (.put x.1.1.val x.1.2.1.val x.1.2.2.val) else none)

/-- The accepted DELETEs that reported success. -/
def succeededDels (accepts : Val → Bool) (ds : List ((Blob × Blob) × Result)) : List Ev :=
  ds.filterMap (fun x => if decide (x.2.status = hxSuccess) && (accepts x.1.1.val && accepts x.1.2.val) then
    some (.del x.1.1.val x.1.2.val) else none)

/-- What turns did to the stored triples according to their results. -/
inductive Reported (accepts : Val → Bool) (hash : Bytes → Bytes → Out Int) : List Job.Turn → List Results → List Ev → Prop where
  | nil : Reported accepts hash [] [] []
  | cons {x r ps ds l rs H} : PutsReported (turnOps hash x) r ps → DelsReported (turnOps hash x) r ds → Reported accepts hash l rs H →
      Reported accepts hash (x :: l) (r :: rs) (succeededPuts accepts ps ++ succeededDels accepts ds ++ H)

/-- The event of a PUT, when it is accepted and the response says that it succeeded. -/
def putEv (a : Val → Bool) (x : PutItem × StatusItem) : Option Ev :=
  if decide (x.2.status = dsSuccess) && (a x.1.subject.val && a x.1.predicate.val && a x.1.object.val) then
    some (.put x.1.subject.val x.1.predicate.val x.1.object.val) else none

/-- The event of a DELETE, likewise. -/
def delEv (a : Val → Bool) (x : DelItem × StatusItem) : Option Ev :=
  if decide (x.2.status = dsSuccess) && (a x.1.subject.val && a x.1.predicate.val) then
    some (.del x.1.subject.val x.1.predicate.val) else none

/-- What a request did according to the response. -/
def done (a : Val → Bool) : ReqBody → ResBody → List Ev
  | .put l, .put rs => (l.zip rs).filterMap (putEv a)
  | .del l, .del rs => (l.zip rs).filterMap (delEv a)
  | _, _ => []

/-- Nothing was stored yet. -/
def EmptyWorld (w : Process.World) : Prop := ∀ rank, ∀ d ∈ w.ds rank, d.usable = true ∧ d.db = []

end Hx.Spec

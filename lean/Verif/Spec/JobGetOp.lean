import Verif.Spec.GetOp
import Verif.Spec.Job

/-!
# Specification: GETOPs of ranks that share range servers

A GETOP looks at one datastore: the one the hash function gives for its subject and predicate.
-/

namespace Hx.Spec
open Hx Msg Results

/-- The datastore a change belongs to. -/
def evHome (hash : Bytes → Bytes → Out Int) : Ev → Option Nat
  | .put s p _ => home hash ⟨0, s.bytes, s.typ⟩ ⟨0, p.bytes, p.typ⟩
  | .del s p => home hash ⟨0, s.bytes, s.typ⟩ ⟨0, p.bytes, p.typ⟩

/-- What happened to datastore `ds`. -/
def inStore (hash : Bytes → Bytes → Out Int) (ds : Nat) (h : List Ev) : List Ev :=
  h.filter (fun e => decide (evHome hash e = some ds))

/-- The GETOPs of the calls. -/
def getOps (l : List Op) : List GetOpItem :=
  l.filterMap (fun | .getop op s p ty n => some ⟨op, s, p, ty, n⟩ | _ => none)

/-- A result that is a copy of a stored triple. -/
def ReturnedRec (t : Transform) (a : Triple) (r : Result) : Prop :=
  r.kind = .getop ∧ r.status = hxSuccess ∧ ∃ s p o : Blob, r.subject = .own s ∧ r.predicate = .own p ∧ r.object = .own o ∧
    (s.val, p.val, o.val) = t.back a

/-- `rs` are the right results of the GETOP `x` after `h`: the records `getOpAnswer` picks out of its
datastore, in that order, or one error with subject and predicate. -/
def ReturnedOp (t : Transform) (neg : UInt8) (b : Store.Backend) (hash : Bytes → Bytes → Out Int) (h : List Ev)
    (x : GetOpItem) (rs : List Result) : Prop :=
  ∃ ds all, home hash x.subject x.predicate = some ds ∧ Contents t (inStore hash ds h) all ∧
    match getOpAnswer t neg b all x.op x.subject.val x.predicate.val x.numRecs with
    | some l => List.Forall₂ (ReturnedRec t) l rs
    | none => ∃ r, rs = [r] ∧ r.kind = .getop ∧ r.status = hxError ∧
        ∃ s p : Blob, r.subject = .own s ∧ r.predicate = .own p ∧ s.val = x.subject.val ∧ p.val = x.predicate.val

/-- The response to the GETOP can be sent: an error can be sent with data as subject and predicate, and
is never sent for FIRST and LAST. -/
def Arrives (t : Transform) (neg : UInt8) (b : Store.Backend) (hash : Bytes → Bytes → Out Int) (h : List Ev)
    (x : GetOpItem) : Prop :=
  (x.op ≠ 3 ∧ x.op ≠ 4 ∧ x.subject.bytes ≠ [] ∧ x.predicate.bytes ≠ []) ∨
  ∀ ds all, home hash x.subject x.predicate = some ds → Contents t (inStore hash ds h) all →
    getOpAnswer t neg b all x.op x.subject.val x.predicate.val x.numRecs ≠ none

/-- Different datastores of the job are different datastores of their ranks. -/
def Apart (place : List Int) (w : Process.World) : Prop :=
  ∀ rank ds ds', place[ds]? = some rank → place[ds']? = some rank →
    ds % (w.ds rank).length = ds' % (w.ds rank).length → ds = ds'

/-- All datastores have the backend `b`. -/
def Backed (b : Store.Backend) (w : Process.World) : Prop := ∀ rank, ∀ d ∈ w.ds rank, d.backend = b

/-- Subjects and predicates of PUTs are not empty. -/
def PutsGiven (l : List Op) : Prop := ∀ s p o, Op.put s p o ∈ l → s.bytes ≠ [] ∧ p.bytes ≠ []

/-- There are GETOPs. -/
def HasGetOps (hash : Bytes → Bytes → Out Int) (turns : List Job.Turn) : Prop := ∃ x ∈ turns, getOps (turnOps hash x) ≠ []

/-- If there are GETOPs then subjects and predicates of PUTs are not empty, so that all records can be
sent. -/
def KeysGiven (hash : Bytes → Bytes → Out Int) (turns : List Job.Turn) : Prop :=
  HasGetOps hash turns → ∀ x ∈ turns, PutsGiven (turnOps hash x)

/-- Subjects and predicates of GETOPs are of the kind `t` describes; FIRST and LAST ignore them. -/
def GetOpsOk (cb : Store.Callbacks) (t : Transform) (l : List Op) : Prop :=
  ∀ x ∈ getOps l, x.op ≠ 3 → x.op ≠ 4 →
    cb.encode x.subject = .ok (t.E x.subject.val) ∧ cb.encode x.predicate = .ok (t.E x.predicate.val)

end Hx.Spec

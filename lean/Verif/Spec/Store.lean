import Mathlib.Data.List.Forall2
import Verif.Model.Message
import Verif.Model.Store

/-!
# Specification of a datastore

A datastore is specified by the sequence of accepted PUTs and DELETEs, oldest first, on typed
values. Keys, encodings and packets do not occur.
-/

namespace Hx.Spec
open Hx Msg

/-- What happened to a datastore. -/
inductive Ev where
  | put (s p o : Val)
  | del (s p : Val)
  deriving Repr, DecidableEq

/-- The object the most recent PUT of `(s, p)` gave it, unless it was DELETEd since. -/
def lastObj (s p : Val) (h : List Ev) : Option Val :=
  h.foldl (fun acc e =>
    match e with
    | .put s' p' o => if s' = s ∧ p' = p then some o else acc
    | .del s' p' => if s' = s ∧ p' = p then none else acc) none

/-- The events of a packet; `accepts` tells which values have a registered type. -/
def events (accepts : Val → Bool) : ReqBody → List Ev
  | .put l => (l.filter (fun x => accepts x.subject.val && accepts x.predicate.val && accepts x.object.val)).map
      (fun x => .put x.subject.val x.predicate.val x.object.val)
  | .del l => (l.filter (fun x => accepts x.subject.val && accepts x.predicate.val)).map
      (fun x => .del x.subject.val x.predicate.val)
  | _ => []

/-- What is known about the transforms on the values in use: `E` is the stored form of a value
(`none`: refused), `R` the bytes an object comes back with. -/
structure Transform where
  E : Val → Option Bytes
  R : Val → Bytes

/-- `b` can be used as a subject or predicate: the encoder answers with `E`, the decoder undoes it,
and the key's length and type fields are wide enough. -/
structure KeyOk (cb : Store.Callbacks) (t : Transform) (b : Blob) : Prop where
  enc : cb.encode b = .ok (t.E b.val)
  typ : b.typ < 256
  len : ∀ e, t.E b.val = some e → e.length < 2 ^ 64
  dec : ∀ e, t.E b.val = some e → cb.decode ⟨e, b.typ⟩ = .ok (some b.bytes)

/-- `b` can be used as an object; it comes back as `R`. -/
structure ObjOk (cb : Store.Callbacks) (t : Transform) (b : Blob) : Prop where
  enc : cb.encode b = .ok (t.E b.val)
  typ : b.typ < 2 ^ 32
  dec : ∀ e, t.E b.val = some e → cb.decode ⟨e, b.typ⟩ = .ok (some (t.R b.val))

/-- All values a packet writes or deletes are of the kind above. -/
def BodyOk (cb : Store.Callbacks) (t : Transform) : ReqBody → Prop
  | .put l => ∀ x ∈ l, KeyOk cb t x.subject ∧ KeyOk cb t x.predicate ∧ ObjOk cb t x.object
  | .del l => ∀ x ∈ l, KeyOk cb t x.subject ∧ KeyOk cb t x.predicate
  | _ => True

/-- The events of a history of packets. A LevelDB packet whose `Write` failed did nothing. -/
def history (accepts : Val → Bool) (b : Store.Backend) (h : List (Bool × ReqBody)) : List Ev :=
  h.flatMap (fun x => if b = .mem ∨ x.1 = true then events accepts x.2 else [])

/-- A value is accepted when its type's encoder gives a result. -/
def Transform.accepts (t : Transform) (v : Val) : Bool := (t.E v).isSome

/-- A stored triple. -/
abbrev Triple := Val × Val × Val

/-- The key a pair is stored under. -/
def Transform.key (t : Transform) (a : Triple) : Bytes :=
  Key.spToKey ⟨(t.E a.1).getD [], a.1.typ⟩ ⟨(t.E a.2.1).getD [], a.2.1.typ⟩

/-- `all` lists the triples present after `h`, each pair with its latest object, by ascending key. -/
structure Contents (t : Transform) (h : List Ev) (all : List Triple) : Prop where
  mem : ∀ s p o, (s, p, o) ∈ all ↔ lastObj s p h = some o
  sorted : all.Pairwise (fun a b => t.key a < t.key b)

/-- A triple as it is returned: the object as `R` of what was PUT. -/
def Transform.back (t : Transform) (a : Triple) : Triple := (a.1, a.2.1, ⟨t.R a.2.2, a.2.2.typ⟩)

/-- The typed values of a returned record. -/
def recVals (r : Rec) : Triple := (r.subject.val, r.predicate.val, r.object.val)

/-- The right answer to a GET after `h`. -/
def Answers (t : Transform) (h : List Ev) (x : GetItem) (r : GetRes) : Prop :=
  match lastObj x.subject.val x.predicate.val h with
  | some o => r.status = dsSuccess ∧ r.object.val = ⟨t.R o, o.typ⟩
  | none => r.status = dsError

end Hx.Spec

namespace Hx.Spec
open Hx Msg

/-- Values the default callbacks store without loss: byte strings, pointers and integers given with
their exact size, except the smallest signed integers (undefined behaviour) and floating point
numbers (lossy). Values of unregistered types are included; they are refused. -/
structure Plain (b : Blob) : Prop where
  typ : b.typ < 256
  len : b.bytes.length < 2 ^ 64
  int : ∀ t, Store.intType b.typ = some t →
    b.addr ≠ 0 ∧ b.bytes.length = t.width ∧ (t.signed = true → Elen.ofMem t b.bytes ≠ t.min)
  notFloat : b.typ ≠ Store.tFloat ∧ b.typ ≠ Store.tDouble

/-- The default callbacks on plain values. -/
def plainTransform (neg pos : UInt8) (f : Store.FloatCodec) : Transform where
  E v := match (Store.defaultCallbacks neg pos f).encode ⟨1, v.bytes, v.typ⟩ with
    | .ok e => e
    | _ => none
  R v := v.bytes

/-- All blobs of a packet's PUTs and DELETEs are plain. -/
def PlainBody : ReqBody → Prop
  | .put l => ∀ x ∈ l, Plain x.subject ∧ Plain x.predicate ∧ Plain x.object
  | .del l => ∀ x ∈ l, Plain x.subject ∧ Plain x.predicate
  | _ => True

/-- The object the last successful item of a PUT packet stores under `k`, if any. `enc` gives an
item's key and value. -/
def lastWrite (enc : PutItem → Option (Bytes × Bytes)) (k : Bytes) (l : List (PutItem × StatusItem)) : Option Bytes :=
  l.foldl (fun acc x =>
    match enc x.1 with
    | some kv => if x.2.status = dsSuccess ∧ kv.1 = k then some kv.2 else acc
    | none => acc) none

/-- A response entry carries the client's addresses, lengths and types. -/
def Echoes (s : Blob) (origS : Nat) (p : Blob) (origP : Nat) (rs rp : Ref) : Prop :=
  rs = ⟨origS, s.bytes.length, s.typ⟩ ∧ rp = ⟨origP, p.bytes.length, p.typ⟩

/-- One entry per operation, in order, with the client's addresses where the response kind has
room for them. -/
def Matches : ReqBody → ResBody → Prop
  | .put l, .put r => List.Forall₂ (fun x y => Echoes x.subject x.origS x.predicate x.origP y.subject y.predicate) l r
  | .get l, .get r => List.Forall₂ (fun x y => Echoes x.subject x.origS x.predicate x.origP y.subject y.predicate) l r
  | .del l, .del r => List.Forall₂ (fun x y => Echoes x.subject x.origS x.predicate x.origP y.subject y.predicate) l r
  | .getop l, .getop r => l.length = r.length
  | .hist l, .hist r => l.length = r.length
  | _, _ => False

/-- Number of PUT packets, of GET events and of DELETE packets in a history. -/
def putEvents (h : List (Bool × ReqBody)) : Nat :=
  (h.map (fun x => match x.2 with | .put _ => 1 | _ => 0)).sum
def getEvents (h : List (Bool × ReqBody)) : Nat :=
  (h.map (fun x => match x.2 with | .get _ => 1 | .getop l => l.length | .hist _ => 1 | _ => 0)).sum
def delEvents (h : List (Bool × ReqBody)) : Nat :=
  (h.map (fun x => match x.2 with | .del _ => 1 | _ => 0)).sum

end Hx.Spec

namespace Hx.Spec
open Hx Msg

/-- `d` is a datastore that was opened empty with backend `b` and has processed `hist`. -/
def Reached (cb : Store.Callbacks) (t : Transform) (heap : Nat) (b : Store.Backend)
    (hist : List (Bool × ReqBody)) (d : Store.DS) : Prop :=
  ∃ d0 : Store.DS, d0.usable = true ∧ d0.db = [] ∧ d0.backend = b ∧ (∀ x ∈ hist, BodyOk cb t x.2) ∧
    Store.DS.run cb heap d0 hist = .ok d

end Hx.Spec

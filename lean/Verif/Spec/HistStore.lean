import Verif.Model.Store

/-!
# Specification of histogram tracking
-/

namespace Hx.Spec
open Hx Msg

/-- A datastore answering packets one after the other, with all its answers. -/
inductive Runs (cb : Store.Callbacks) (heap : Nat) : Store.DS → List (Bool × ReqBody) → List (Option ResBody) → Store.DS → Prop
  | nil (d : Store.DS) : Runs cb heap d [] [] d
  | cons {d d1 d2 : Store.DS} {x : Bool × ReqBody} {res : Option ResBody} {hist : List (Bool × ReqBody)}
      {rs : List (Option ResBody)} (h : d.operate cb heap x.1 x.2 = .ok (d1, res)) (t : Runs cb heap d1 hist rs d2) :
      Runs cb heap d (x :: hist) (res :: rs) d2

/-- The number a PUT contributes to the histogram called `name`: its object, when the predicate is
the byte string `name` and the object a `float` or `double`. -/
def contributes (name : Bytes) (x : PutItem) : Option Dbl :=
  if x.predicate.typ = Store.tByte ∧ x.predicate.bytes = name then
    if x.object.typ = Store.tFloat then some (Store.floatToDouble (leVal (x.object.bytes.take 4)))
    else if x.object.typ = Store.tDouble then some (UInt64.ofNat (leVal (x.object.bytes.take 8)))
    else none
  else none

/-- The numbers of the PUTs a packet's answer reports as successful, in order. -/
def contributed (name : Bytes) (req : ReqBody) (res : Option ResBody) : List Dbl :=
  match req, res with
  | .put l, some (.put r) => (l.zip r).filterMap (fun x => if x.2.status = dsSuccess then contributes name x.1 else none)
  | _, _ => []

/-- `h` is the histogram `name` after adding `vs`: made for `n` cached values with a bucket
generator that never returns an empty list; all numbers fit a `size_t`. -/
structure Grown (h : Hist) (n : Nat) (g : Hist.Gen) (name : Bytes) (vs : List Dbl) : Prop where
  gen : ∀ c, g c ≠ some []
  run : (Hist.create n (some g) name).addAll vs = .ok h
  n : n < 2 ^ 64
  name : name.length < 2 ^ 64
  count : vs.length < 2 ^ 64
  size : h.size < 2 ^ 64

/-- `r` is what the stored record `kv` says. -/
def FromRecord (cb : Store.Callbacks) (kv : Bytes × Bytes) (r : Rec) : Prop :=
  ∃ sp ot s p o, Key.keyToSp kv.1 = .ok sp ∧ Store.removeType kv.2 = .ok ot ∧
    cb.decode sp.1 = .ok (some s) ∧ cb.decode sp.2 = .ok (some p) ∧ cb.decode ⟨ot.1, ot.2⟩ = .ok (some o) ∧
    r.subject.val = ⟨s, sp.1.typ⟩ ∧ r.predicate.val = ⟨p, sp.2.typ⟩ ∧ r.object.val = ⟨o, ot.2⟩

end Hx.Spec

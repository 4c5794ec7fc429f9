import Verif.Model.Store
import Mathlib.Data.List.Forall2
import Mathlib.Algebra.Order.Field.Rat

/-!
# Specification of "the lowest numbers"

Things with names have one numeric attribute each. Their triples (name, attribute, number) are stored in all orders; the names are then
asked for by the attribute, lowest number first.
-/

namespace Hx.Spec
open Hx Msg

/-- A thing and the number of its attribute. -/
structure Reading where
  name : Bytes
  num : Val
  deriving DecidableEq

/-- A byte string as a typed value. -/
def text (b : Bytes) : Val := ⟨b, Store.tByte⟩

/-- The six orders of a triple. -/
def orders (a b c : Val) : List (Val × Val × Val) := [(a, b, c), (a, c, b), (b, a, c), (b, c, a), (c, a, b), (c, b, a)]

/-- The packets of a history write nothing but the triples of the readings, in any order, and at least the triple (attribute, number,
name) of each. Nothing is deleted and every write succeeds. -/
structure Records (b : Store.Backend) (attr : Bytes) (rs : List Reading) (hist : List (Bool × ReqBody)) : Prop where
  only : ∀ x ∈ hist, ∀ l, x.2 = .put l → (b = .mem ∨ x.1 = true) ∧ ∀ y ∈ l,
    y.subject.addr ≠ 0 ∧ y.predicate.addr ≠ 0 ∧ y.object.addr ≠ 0 ∧
    ∃ r ∈ rs, (y.subject.val, y.predicate.val, y.object.val) ∈ orders (text r.name) (text attr) r.num
  there : ∀ r ∈ rs, ∃ x ∈ hist, ∃ l, x.2 = .put l ∧ ∃ y ∈ l, (y.subject.val, y.predicate.val, y.object.val) = (text attr, r.num, text r.name)
  keeps : ∀ x ∈ hist, ∀ l, x.2 ≠ .del l

/-- A packet as it gets to a datastore: the same values at some addresses. -/
def SameTriples (sent got : List PutItem) : Prop :=
  List.Forall₂ (fun x y => y.subject.val = x.subject.val ∧ y.predicate.val = x.predicate.val ∧ y.object.val = x.object.val ∧
    y.subject.addr ≠ 0 ∧ y.predicate.addr ≠ 0 ∧ y.object.addr ≠ 0) sent got

/-- The history of a datastore is the packets of all the lists, in any order and each at least once; every write succeeds. -/
structure Delivered (packets : List (List PutItem)) (hist : List (Bool × ReqBody)) : Prop where
  only : ∀ x ∈ hist, x.1 = true ∧ ∃ p ∈ packets, ∃ l, x.2 = .put l ∧ SameTriples p l
  all : ∀ p ∈ packets, ∃ x ∈ hist, ∃ l, x.2 = .put l ∧ SameTriples p l

/-- The names can be told from the attribute and from numbers: neither of name and attribute starts with the other, and both start
with a character above the sign symbols. -/
structure Told (pos : UInt8) (attr name : Bytes) : Prop where
  apart : ¬ attr <+: name ∧ ¬ name <+: attr
  attr_gt : ∃ c l, attr = c :: l ∧ pos < c
  name_gt : ∃ c l, name = c :: l ∧ pos < c
  short : attr.length < 2 ^ 64 ∧ name.length < 2 ^ 64

/-- `recs` answers "the `n` lowest": first the names of readings, by strictly ascending number, such that every other reading is
indistinguishable from one of them (`same`) or, when there are `n` of them, higher than all of them; after all readings have had their
turn possibly other records of the attribute, which have no number for their predicate. `back r` tells what the number of `r` comes back
as. -/
def IsLowest (value : Reading → ℚ) (same : Reading → Reading → Prop) (back : Reading → Val → Prop) (attr : Bytes) (rs : List Reading)
    (n : Nat) (recs : List Rec) : Prop :=
  ∃ (sel : List Reading) (shown more : List Rec), recs = shown ++ more ∧ recs.length ≤ n ∧
    List.Forall₂ (fun r c => c.subject.val = text attr ∧ back r c.predicate.val ∧ c.object.val = text r.name) sel shown ∧
    (∀ r ∈ sel, r ∈ rs) ∧ sel.Pairwise (fun r s => value r < value s) ∧
    (∀ r ∈ rs, (∃ s ∈ sel, same s r) ∨ (sel.length = n ∧ ∀ s ∈ sel, value s < value r)) ∧
    (more ≠ [] → ∀ r ∈ rs, ∃ s ∈ sel, same s r) ∧
    ∀ c ∈ more, ∃ r ∈ rs, c.subject.val = text attr ∧ c.predicate.val = text r.name ∧ back r c.object.val

end Hx.Spec

import Verif.Spec.Process
import Verif.Spec.Wire

/-!
# Specification: the same operation here and on another rank
-/

namespace Hx.Spec
open Hx Msg

/-- The encoding of a blob does not change when the blob is copied to new memory at `heap`; data of
length zero are copied to the null pointer. -/
def Portable (cb : Store.Callbacks) (heap : Nat) (b : Blob) : Prop :=
  cb.encode ⟨if b.bytes = [] then 0 else heap, b.bytes, b.typ⟩ = cb.encode b

/-- The request of a client: the original addresses are those of the data, and the data can be
copied. FIRST and LAST ignore subject and predicate. -/
def ClientReq (cb : Store.Callbacks) (heap : Nat) : ReqBody → Prop
  | .put l => ∀ x ∈ l, x.origS = x.subject.addr ∧ x.origP = x.predicate.addr ∧
      Portable cb heap x.subject ∧ Portable cb heap x.predicate ∧ Portable cb heap x.object
  | .get l => ∀ x ∈ l, x.origS = x.subject.addr ∧ x.origP = x.predicate.addr ∧
      Portable cb heap x.subject ∧ Portable cb heap x.predicate
  | .getop l => ∀ x ∈ l, x.op ≠ 3 ∧ x.op ≠ 4 → Portable cb heap x.subject ∧ Portable cb heap x.predicate
  | .del l => ∀ x ∈ l, x.origS = x.subject.addr ∧ x.origP = x.predicate.addr ∧
      Portable cb heap x.subject ∧ Portable cb heap x.predicate
  | .hist _ => True

/-- GETOPs that fail are not FIRST or LAST and have data as subject and predicate. -/
def FailsWithKey : ReqBody → ResBody → Prop
  | .getop l, .getop r => List.Forall₂ (fun x y => y.status = 1 ∨
      (x.op ≠ 3 ∧ x.op ≠ 4 ∧ x.subject.bytes ≠ [] ∧ x.predicate.bytes ≠ [])) l r
  | _, _ => True

/-- Two outcomes: both fail in the same way, or both succeed with related values. -/
def OutRel {α β : Type} (R : α → β → Prop) : Out α → Out β → Prop
  | .ok a, .ok b => R a b
  | .err, .err => True
  | .ub, .ub => True
  | _, _ => False

end Hx.Spec

import Verif.Model.HxProgram
import Verif.Spec.JobFail
import Verif.Spec.Libm

/-!
# Specification: a rank that PUTs numbers and GETs them back

Triple number `i` of the rank has the subject `s i`, the predicate `p i` and the object `o i`.
-/

namespace Hx.Spec
open Hx Msg Store Results

/-- The double `m` is close to the double `o`, unless the exponent of `o` gets lost (C59). -/
def CloseDouble (prec : Nat) (o m : Bytes) : Prop :=
  m.length = 8 ∧ ∃ x z, (numberIn tDouble o).value = some x ∧ (numberIn tDouble m).value = some z ∧
    (¬ LosesExponent x → |z - x| ≤ |x| * relErr tDouble prec 8)

/-- The doubles that C59 is about: finite, and neither extremely large nor extremely small. -/
def GoodDouble (o : Bytes) : Prop :=
  o.length = 8 ∧ ∃ x, (numberIn tDouble o).value = some x ∧ (x = 0 ∨ Moderate tDouble x)

/-- What a rank sees: `first` has an error for each of its GETs, `wrote` a result for each of its PUTs (`told i` for number `i`), and
`second` a result for each of its GETs, which is an error when the PUT reported an error, and otherwise has what was PUT. -/
structure GetsBack (count prec : Nat) (s p o : Nat → Blob) (first wrote second : Results) (told : Nat → Result) : Prop where
  nothing : ∃ l, l.Perm (List.range count) ∧
    List.Forall₂ (fun i y => Reports .get (s i) (p i) y ∧ y.status = hxError) l (first.items.filter (fun y => decide (y.kind = .get)))
  puts : ((List.range count).map told).Perm (wrote.items.filter (fun y => decide (y.kind = .put)))
  reports : ∀ i < count, Reports .put (s i) (p i) (told i)
  back : ∃ l, l.Perm (List.range count) ∧
    List.Forall₂ (fun i y => Reports .get (s i) (p i) y ∧ y.status = (told i).status ∧
      (y.status = hxSuccess → ∃ b : Blob, y.object = .own b ∧ b.typ = (o i).typ ∧ CloseDouble prec (o i).bytes b.bytes)) l
      (second.items.filter (fun y => decide (y.kind = .get)))

/-- Where the things are: somewhere. -/
structure Placed (m : HxProgram.Memory) : Prop where
  subject : ∀ i, m.subjectAt i ≠ 0 ∧ m.subjectAt i < 2 ^ 64
  predicate : ∀ i, m.predicateAt i ≠ 0 ∧ m.predicateAt i < 2 ^ 64
  double : ∀ i, m.doubleAt i ≠ 0 ∧ m.doubleAt i < 2 ^ 64

/-- Ranks that flush nothing. -/
def idleTurns (session : Nat → Queue.Cfg × Process.Net) (n : Nat) : List Job.Turn := (List.range n).map (fun r => ⟨(session r).1, (session r).2, []⟩)

end Hx.Spec

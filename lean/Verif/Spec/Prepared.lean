import Verif.Spec.Job

/-!
# Specification: datastores that are ready for a job, with histograms
-/

namespace Hx.Spec
open Hx Process

/-- The histograms of a job before the first number: made with bucket generators that never return an empty list and never make 2^64
buckets. -/
def NewHists (w : World) : Prop := ∀ rank, ∀ d ∈ w.ds rank, ∀ name h, Store.find d.hists name = some h →
  ∃ n g, h = Hist.create n (some g) name ∧ (∀ c, g c ≠ some []) ∧ n < 2 ^ 64 ∧ name.length < 2 ^ 64 ∧
    ∀ vs h', h.addAll vs = .ok h' → h'.size < 2 ^ 64

/-- Numbers can always be added to the histograms: the bucket generator is never asked for buckets it does not have. -/
def AlwaysCount (w : World) : Prop := ∀ rank, ∀ d ∈ w.ds rank, ∀ name h, Store.find d.hists name = some h →
  ∀ vs, ∃ h', h.addAll vs = .ok h'

/-- Every rank of a datastore has datastores, whose histograms have no numbers yet and can count all numbers. -/
def Prepared (place : List Int) (w : World) : Prop := (∀ rank ∈ place, w.ds rank ≠ []) ∧ NewHists w ∧ AlwaysCount w

theorem Staffed.prepared {place : List Int} {w : World} (h : Staffed place w) : Prepared place w := by
  refine ⟨h.1, ?_, ?_⟩ <;>
  · intro rank d hd name x hx
    rw [h.2 rank d hd] at hx
    cases hx

/-- There are histograms. -/
def HasHists (w : World) : Prop := ∃ rank, ∃ d ∈ w.ds rank, ∃ name h, Store.find d.hists name = some h

/-- An object that has the type of a number has all the bytes of one. -/
def WholeObject (o : Blob) : Prop := (o.typ = Store.tFloat → 4 ≤ o.bytes.length) ∧ (o.typ = Store.tDouble → 8 ≤ o.bytes.length)

/-- The objects of PUTs that have the type of a number have all the bytes of one. -/
def PutsWhole (l : List Op) : Prop := ∀ s p o, Op.put s p o ∈ l → WholeObject o

/-- If there are histograms then the numbers that are PUT have all their bytes, and there are fewer than 2^64 operations. -/
def NumbersGiven (hash : Bytes → Bytes → Out Int) (w : World) (turns : List Job.Turn) : Prop :=
  HasHists w → (∀ x ∈ turns, PutsWhole (turnOps hash x)) ∧ (turns.map (fun x => (turnOps hash x).length)).sum < 2 ^ 64

theorem Staffed.noHists {place : List Int} {w : World} (h : Staffed place w) : ¬ HasHists w := by
  rintro ⟨rank, d, hd, name, x, hx⟩
  rw [h.2 rank d hd] at hx
  cases hx

theorem Staffed.numbers {place : List Int} {w : World} (h : Staffed place w) (hash : Bytes → Bytes → Out Int) (turns : List Job.Turn) :
    NumbersGiven hash w turns := fun hh => absurd hh h.noHists

/-- No histogram has 2^64 numbers. -/
def FewNumbers (w : World) : Prop := ∀ rank, ∀ d ∈ w.ds rank, ∀ name h, Store.find d.hists name = some h → h.count < 2 ^ 64

end Hx.Spec

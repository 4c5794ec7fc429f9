import Verif.Props.C46_Blobs

/-!
# C54: nothing is read or freed after it was freed
-/

namespace Hx.Props

open Hx.Own Hx.Spec.Blob

/-- **C54** (PUTs to another rank).  Whatever the transport and the backend,
and whatever `encode` does. -/
theorem C54_put_remote (b : Backend) (t : Transport) (z : Sizes) (n : Nat) (e : Nat → Entry) :
    Safe (putRemote b t z n e) :=
  safe_of_passes (passes_putRemote b t z n e true (.inl rfl))

/-- Two PUTs through MPI. -/
example : C46Ex.tally (run .empty (compile C46Ex.var
    (putRemote .inMemory .mpi C46Ex.sizes 2 C46Ex.entry))) =
    some (20, [7, 6, 5, 4, 3, 2], 14) := by
  decide +kernel

/-- **C54** (PUTs the rank serves itself). -/
theorem C54_put_local (b : Backend) (n : Nat) (e : Nat → Entry) : Safe (putLocal b n e) :=
  safe_of_passes (passes_putLocal b n e)

/-- **C54** (DELETEs to another rank). -/
theorem C54_delete_remote (b : Backend) (t : Transport) (z : Sizes) (n : Nat) (e : Nat → Entry) :
    Safe (deleteRemote b t z n e) :=
  safe_of_passes (passes_deleteRemote b t z n e true (.inl rfl))

/-- **C54** (DELETEs the rank serves itself). -/
theorem C54_delete_local (b : Backend) (n : Nat) (e : Nat → Entry) : Safe (deleteLocal b n e) :=
  safe_of_passes (passes_deleteLocal b n e)

/-- **C54** (GETs from another rank). -/
theorem C54_get_remote (t : Transport) (z : Sizes) (n : Nat) (e : Nat → Entry) :
    Safe (getRemote t z n e) :=
  safe_of_passes (passes_getRemote t z n e true (.inl rfl))

/-- **C54** (GETs the rank serves itself). -/
theorem C54_get_local (n : Nat) (e : Nat → Entry) : Safe (getLocal n e) :=
  safe_of_passes (passes_getLocal n e)

/-- **C54** (requests for histograms, and writing and reading them). -/
theorem C54_histograms (t : Transport) (z : Sizes) (n : Nat) (e : Nat → Entry) :
    Safe (histRemote t z n e) ∧ Safe (writeHistograms n e) ∧ Safe (readHistograms n e) :=
  ⟨safe_of_passes (passes_histRemote t z n e true (.inl rfl)),
    safe_of_passes (passes_writeHistograms n e), safe_of_passes (passes_readHistograms n e)⟩

/-- **C54** (GETOPs to another rank).  Missing: operations that return no
record, for which it is false. -/
theorem C54_getop_remote_partial (t : Transport) (z : Sizes) (n : Nat) (g : Nat → OpEntry)
    (hg : ∀ i, i < n → (g i).Valid) : Safe (getOpRemote t z n g) :=
  safe_of_passes (passes_getOpRemote t z n g hg true (.inl rfl))

example : Safe (getOpRemote .mpi C46Ex.sizes 2 C46Ex.op) :=
  C54_getop_remote_partial _ _ 2 _ (fun i _ => C46Ex.op_valid i)

/-- **C54** (GETOPs the rank serves itself). -/
theorem C54_getop_local_partial (n : Nat) (g : Nat → OpEntry) (hg : ∀ i, i < n → (g i).Valid) :
    Safe (getOpLocal n g) :=
  safe_of_passes (passes_getOpLocal n g hg true (.inl rfl))

/-- The user looks at the result that `init` has destructed already when a
GETOP returns no record. -/
theorem C54_getop_empty_false : ¬ ∀ n g, Safe (getOpLocal n g) := by
  intro h
  obtain ⟨m', hr, -⟩ := h 1 (fun _ => ⟨C46Ex.entry 0, true, 3, 0, none, fun _ => (4, 5, 6)⟩) _
    C46Ex.names .empty ⟨[], .nil _⟩ (fun _ _ _ => rfl)
  have : C46Ex.tally (run .empty (compile C46Ex.var (getOpLocal 1
      (fun _ => ⟨C46Ex.entry 0, true, 3, 0, none, fun _ => (4, 5, 6)⟩)))) = none := by
    decide +kernel
  rw [hr] at this
  cases this

end Hx.Props

import Verif.Proofs.RecvLengths

/-!
# C93: lengths of the responses of a round over MPI
-/

namespace Hx.Props

open Hx.Recv Hx.Spec.Recv

/-- **C93** (buffers).  If all lengths can be received, the buffers are those of the
servers from which data can be received, and each has the length of its response. -/
theorem C93_buffers_partial {ps : List Peer} {lens : List Nat} (hl : ps.length ≤ lens.length)
    (h : ∀ p ∈ ps, p.rank = true ∧ p.size = true) :
    recvBufs ps (recvLens ps lens) = (expected ps 0).map fun g => (g.server, g.allocated) := by
  rw [recvLens_eq hl h, recvBufs_eq h]

/-- **C93** (partial).  If all lengths can be received, and no data after data that
cannot, the response of every server is unpacked with its own length, which is that
of the buffer.

Missing: it is false otherwise, see `C93_length_false` and `C93_server_false`. -/
theorem C93_partial {ps : List Peer} {lens : List Nat} (hl : ps.length ≤ lens.length)
    (h : ∀ p ∈ ps, p.rank = true ∧ p.size = true)
    (hd : ps.Pairwise fun p q => q.data = true → p.data = true) :
    parallelRecv ps lens = expected ps 0 := by
  rw [parallelRecv, C93_buffers_partial hl h, recvLens_eq hl h]
  clear hl
  generalize 0 = i
  induction ps generalizing i with
  | nil => rfl
  | cons p ps ih =>
    have hp := h p (List.mem_cons_self ..)
    obtain ⟨h₁, h₂⟩ := List.pairwise_cons.mp hd
    cases e : p.data with
    | true =>
      have := ih (fun q hq => h q (List.mem_cons_of_mem _ hq)) h₂ (i + 1)
      rw [expected, if_pos (by simp [hp, e]), List.map_cons, List.map_cons,
        List.zipWith_cons_cons, this]
    | false =>
      have hn : ∀ q ∈ p :: ps, q.data = false := fun q hq => by
        rcases List.mem_cons.mp hq with rfl | hq
        · exact e
        · cases eq : q.data with
          | false => rfl
          | true => exact absurd (h₁ q hq eq) (by simp [e])
      rw [expected_nil hn, List.map_nil, List.zipWith_nil_left]

/-- **C93** is false: if the data of the first of two servers cannot be received, the
response of the second is unpacked with the length of the first, which is more than
was allocated for it. -/
theorem C93_length_false : ∃ (ps : List Peer) (lens : List Nat), ps.length ≤ lens.length ∧
    parallelRecv ps lens ≠ expected ps 0 ∧
    ∃ g ∈ parallelRecv ps lens, g.allocated < g.given :=
  ⟨[⟨true, true, false, 500⟩, ⟨true, true, true, 100⟩], [40, 40], by decide, by decide,
    ⟨1, 100, 500⟩, by decide, by decide⟩

/-- If the length of the first of two cannot be received, its data is received
nevertheless, with the length of the request, and the second is left out. -/
theorem C93_server_false : ∃ (ps : List Peer) (lens : List Nat), ps.length ≤ lens.length ∧
    expected ps 0 = [⟨1, 100, 100⟩] ∧ parallelRecv ps lens = [⟨0, 40, 40⟩] :=
  ⟨[⟨true, false, true, 500⟩, ⟨true, true, true, 100⟩], [40, 60], by decide, by decide, by decide⟩

example : parallelRecv [⟨true, true, true, 500⟩, ⟨true, true, true, 100⟩] [40, 60, 80] =
    [⟨0, 500, 500⟩, ⟨1, 100, 100⟩] :=
  C93_partial (by decide) (by decide) (by decide)

/-- The data of the last cannot be received. -/
example : parallelRecv [⟨true, true, true, 500⟩, ⟨true, true, false, 100⟩] [40, 60] =
    [⟨0, 500, 500⟩] :=
  C93_partial (by decide) (by decide) (by decide)

example : recvBufs [⟨true, true, false, 500⟩, ⟨true, true, true, 100⟩]
    (recvLens [⟨true, true, false, 500⟩, ⟨true, true, true, 100⟩] [40, 60]) = [(1, 100)] :=
  C93_buffers_partial (by decide) (by decide)

end Hx.Props

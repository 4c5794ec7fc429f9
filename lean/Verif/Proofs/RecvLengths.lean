import Verif.Spec.RecvLengths

/-!
# Lengths of the responses of a round over MPI: lemmas for C93
-/

namespace Hx.Recv

open Hx.Spec.Recv

theorem recvLens_eq {ps : List Peer} {lens : List Nat} (hl : ps.length ≤ lens.length)
    (h : ∀ p ∈ ps, p.rank = true ∧ p.size = true) : recvLens ps lens = ps.map Peer.length := by
  induction ps generalizing lens with
  | nil => simp [recvLens]
  | cons p ps ih =>
    cases lens with
    | nil => simp at hl
    | cons len lens =>
      have hp := h p (List.mem_cons_self ..)
      have := ih (lens := lens) (by simpa using hl) fun q hq => h q (List.mem_cons_of_mem _ hq)
      rw [recvLens] at this
      rw [recvLens, List.zipWith_cons_cons, this]
      simp [hp.1, hp.2]

theorem sizeCount_eq {ps : List Peer} (h : ∀ p ∈ ps, p.rank = true ∧ p.size = true) :
    sizeCount ps = ps.length :=
  List.countP_eq_length.mpr fun p hp => by simp [h p hp]

theorem recvBufs_eq {ps : List Peer} (h : ∀ p ∈ ps, p.rank = true ∧ p.size = true) :
    recvBufs ps (ps.map Peer.length) =
      (expected ps 0).map fun g => (g.server, g.allocated) := by
  rw [recvBufs, sizeCount_eq h, List.take_of_length_le (by simp)]
  generalize 0 = i
  induction ps generalizing i with
  | nil => rfl
  | cons p ps ih =>
    have hp := h p (List.mem_cons_self ..)
    have := ih (fun q hq => h q (List.mem_cons_of_mem _ hq)) (i + 1)
    rw [List.map_cons, List.zip_cons_cons, List.zipIdx_cons, List.filterMap_cons, this, expected]
    cases p.data <;> simp [hp.1, hp.2]

theorem expected_nil {ps : List Peer} (h : ∀ p ∈ ps, p.data = false) (i : Nat) :
    expected ps i = [] := by
  induction ps generalizing i with
  | nil => rfl
  | cons p ps ih =>
    rw [expected, if_neg (by simp [h p (List.mem_cons_self ..)])]
    exact ih (fun q hq => h q (List.mem_cons_of_mem _ hq)) (i + 1)

end Hx.Recv

import Verif.Model.MpiJob
import Verif.Spec.Mpi
import Verif.Spec.JobGetOp
import Verif.Spec.Overlap
import Verif.Spec.JobFail
import Verif.Spec.Prepared

/-!
# Specification: flushes of ranks that use MPI
-/

namespace Hx.Spec
open Hx Job Mpi

variable {n L : Nat} {β W : Type}

/-- A flush of one of the `n` ranks, which all use the same address for what they unpack. -/
structure Aboard (n addr : Nat) (junk : Nat → Bytes) (x : Turn) : Prop where
  rank : 0 ≤ x.net.rank ∧ x.net.rank < n
  heap : x.net.heap = addr
  junk : x.net.junk = junk

/-- A flush of one of the `n` ranks, with MPI. -/
structure MpiTurn (n addr : Nat) (junk : Nat → Bytes) (x : Turn) : Prop where
  mpi : ∃ ranks, x.net.transport = .mpi ranks
  rank : 0 ≤ x.net.rank ∧ x.net.rank < n
  heap : x.net.heap = addr
  junk : x.net.junk = junk

theorem MpiTurn.aboard {addr : Nat} {junk : Nat → Bytes} {x : Turn} (h : MpiTurn n addr junk x) : Aboard n addr junk x :=
  ⟨h.rank, h.heap, h.junk⟩

/-- Flush `i` has returned: its rank does nothing, and has only later flushes left. -/
def Over (turns : List Turn) (acts : Nat → FlushActs n) (st : St n L Parcel β W) (i : Nat) : Prop :=
  ∃ c k, i ∈ (turnsOf turns c).take k ∧ (st.client c).phase = .ready ∧
    (st.client c).acts = ((turnsOf turns c).drop k).flatMap (fun i => (acts i).all)

/-- Flush `j` has not begun: its rank has all of it left, and maybe more before it. -/
def Waiting (turns : List Turn) (acts : Nat → FlushActs n) (st : St n L Parcel β W) (j : Nat) : Prop :=
  ∃ c k, j ∈ (turnsOf turns c).drop k ∧ ((turnsOf turns c).drop k).flatMap (fun i => (acts i).all) <:+ (st.client c).acts

/-- At some moment of the execution, flush `i` has returned and flush `j` has not begun. -/
def Before (sys : Mpi.Sys n Parcel Reply Process.World) (w : Process.World) (turns : List Turn) (acts : Nat → FlushActs n) (ls : List (Mpi.Label n L))
    (i j : Nat) : Prop :=
  ∃ ls₁ ls₂ m, ls = ls₁ ++ ls₂ ∧ Mpi.run sys (Mpi.init w (jobProg turns acts)) ls₁ = some m ∧ Over turns acts m i ∧ Waiting turns acts m j

/-- A job of ranks that use MPI: `place` has the ranks of the datastores, which are empty at first; all
flushes are of operations that are always answered. -/
structure MpiJob (n : Nat) (cb : Store.Callbacks) (t : Transform) (hash : Bytes → Bytes → Out Int) (place : List Int) (heap addr : Nat)
    (junk : Nat → Bytes) (w : Process.World) (turns : List Turn) : Prop where
  address : heap ≠ 0 ∧ heap < 2 ^ 64
  count : place.length ≤ 2 ^ 31
  ranks : ∀ r ∈ place, 0 ≤ r ∧ r < n
  fresh : EmptyWorld w
  prepared : Prepared place w
  flushes : ∀ x ∈ turns, TurnOk cb t hash place x
  runs : ∀ x ∈ turns, TurnRuns cb t hash place.length x
  given : KeysGiven hash turns
  numbers : NumbersGiven hash w turns
  mpi : ∀ x ∈ turns, MpiTurn n addr junk x

theorem MpiJob.aboard {cb : Store.Callbacks} {t : Transform} {hash : Bytes → Bytes → Out Int} {place : List Int} {heap addr : Nat}
    {junk : Nat → Bytes} {w : Process.World} {turns : List Turn} (h : MpiJob n cb t hash place heap addr junk w turns) :
    ∀ x ∈ turns, Aboard n addr junk x := fun x hx => (h.mpi x hx).aboard

end Hx.Spec

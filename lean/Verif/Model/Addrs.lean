import Verif.Base.Bytes

/-!
# Addresses of the Thallium engines: `src/transport/backend/Thallium/Utilities.cpp`

All ranks call `get_addrs` and get the same. The errors of `MPI_Comm_rank`, `MPI_Comm_size` and
`MPI_Allreduce` are not modelled.
-/

namespace Hx.Addrs

/-- `MPI_Allgather` of characters: how many characters are received from each rank, and what each rank sends;
the receive buffer. -/
abbrev Gather := Nat → List Bytes → Out Bytes

/-- What the MPI standard defines: every rank sends as much as is received from it. -/
def strict : Gather := fun count sent => if sent.all (fun s => s.length == count) then .ok sent.flatten else .ub

/-- A library that accepts less, and leaves the rest of the buffer as it was: zero (`new char[]()`, line 36).
More than fits is undefined. -/
def padded : Gather := fun count sent =>
  if sent.all (fun s => decide (s.length ≤ count)) then .ok (sent.flatMap (fun s => s ++ List.replicate (count - s.length) 0)) else .ub

/-- `std::string(remote, strlen(remote))`. The last character of the buffer is a zero. -/
def cstr (b : Bytes) : Bytes := b.takeWhile (· != 0)

/-- The length of the longest address (`MPI_Allreduce` with `MPI_MAX`). -/
def longest (selves : List Bytes) : Nat := (selves.map List.length).foldr max 0

/-- `get_addrs` (src/transport/backend/Thallium/Utilities.cpp:11-50), with the address of the engine of every
rank. Lengths and positions are of type `int`. -/
def getAddrs (gather : Gather) (selves : List Bytes) : Out (List Bytes) :=
  let len := longest selves + 1
  if 2 ^ 31 ≤ len ∨ 2 ^ 31 ≤ len * selves.length then .ub
  else gather len selves >>= fun buf => .ok ((List.range selves.length).map (fun i => cstr (buf.drop (len * i))))

end Hx.Addrs

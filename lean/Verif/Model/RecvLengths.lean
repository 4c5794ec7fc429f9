/-!
# Lengths of the responses of a round over MPI

`parallel_recv` of MPI receives the lengths of all responses into `lens`, then the
responses, and then unpacks them (`include/transport/backend/MPI/EndpointGroup.tpp:192-324`).

Simplifications:

* Which receives can be started is an input.  Those that were started complete: the
  session is not stopped meanwhile.
* `lens` is the part of the array for the servers of the round.  Before, it has the
  lengths of the requests.
-/

namespace Hx.Recv

/-- A server that a response is expected from. -/
structure Peer where
  /-- it has an entry in `ranks` -/
  rank : Bool
  /-- receiving the length can be started -/
  size : Bool
  /-- receiving the data can be started -/
  data : Bool
  /-- the length of its response -/
  length : Nat
deriving DecidableEq, Repr

/-- The lengths (`include/transport/backend/MPI/EndpointGroup.tpp:196-241`): each is
received at the index of the server. -/
def recvLens (ps : List Peer) (lens : List Nat) : List Nat :=
  List.zipWith (fun p len => if p.rank && p.size then p.length else len) ps lens

/-- `size_req_count`. -/
def sizeCount (ps : List Peer) : Nat := ps.countP fun p => p.rank && p.size

/-- A response that was received. -/
structure Got where
  /-- the server it is from -/
  server : Nat
  /-- the bytes allocated for it -/
  allocated : Nat
  /-- the length it is unpacked with -/
  given : Nat
deriving DecidableEq, Repr

/-- `recvbufs` (`include/transport/backend/MPI/EndpointGroup.tpp:254-271`): the servers
up to `size_req_count`, with the lengths at their index; the buffers follow each
other without gaps. -/
def recvBufs (ps : List Peer) (lens : List Nat) : List (Nat × Nat) :=
  ((ps.zip lens).zipIdx.take (sizeCount ps)).filterMap fun q =>
    if q.1.1.rank && q.1.1.data then some (q.2, q.1.2) else none

/-- `parallel_recv` up to unpacking
(`include/transport/backend/MPI/EndpointGroup.tpp:192-320`): the buffer with an index is
unpacked with the length at that index. -/
def parallelRecv (ps : List Peer) (lens : List Nat) : List Got :=
  List.zipWith (fun b len => ⟨b.1, b.2, len⟩) (recvBufs ps (recvLens ps lens)) (recvLens ps lens)

end Hx.Recv

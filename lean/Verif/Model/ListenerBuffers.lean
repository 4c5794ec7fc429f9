import Verif.Model.Messages

/-!
# Buffers of a listener of the MPI range server

For each request a listener allocates a buffer for the packed request and one for the
packed response (`src/transport/backend/MPI/RangeServer.cpp:46-152`).

Simplifications:

* What becomes of a turn of the loop is an input.
* Buffers are numbers as messages are in `Model/Messages`.  The messages themselves
  are there.
* The request can be unpacked; if not, the turn is undefined (`Model/Messages`).
-/

namespace Hx.Lives

/-- What becomes of a turn of the loop. -/
inductive Listen where
  /-- the length of the request cannot be received, or the session is stopped before -/
  | noSize
  /-- the request cannot be received, or the session is stopped before -/
  | noData
  /-- the request is served; whether the response can be packed, and sent -/
  | served (packed sent : Bool)
deriving DecidableEq, Repr

/-- `recv` (`src/transport/backend/MPI/RangeServer.cpp:91-120`): the buffer, if any, and
whether there is a request in it. -/
def recvBuffer (t : Listen) (l : Ledger) : Option Nat × Bool × Ledger :=
  match t with
  | .noSize => (none, false, l)
  | .noData => let (b, l) := construct l; (some b, false, l)
  | .served _ _ => let (b, l) := construct l; (some b, true, l)

/-- `dealloc` of a buffer or null. -/
def deallocBuffer (b : Option Nat) (l : Ledger) : Out Ledger :=
  match b with
  | none => .ok l
  | some b => destruct b l

/-- A turn of `listener_thread` (`src/transport/backend/MPI/RangeServer.cpp:47-75`). -/
def listenTurn (t : Listen) (l : Ledger) : Out Ledger :=
  match recvBuffer t l with
  | (_, false, l) => .ok l
  | (req, true, l) =>
    deallocBuffer req l >>= fun l =>
    match t with
    | .served true _ => let (res, l) := construct l; deallocBuffer (some res) l
    | _ => deallocBuffer none l

/-- `listener_thread`. -/
def listen : List Listen → Ledger → Out Ledger
  | [], l => .ok l
  | t :: ts, l => listenTurn t l >>= fun l => listen ts l

end Hx.Lives

import Verif.Model.RecvLengths

/-!
# Which responses are to be received
-/

namespace Hx.Spec.Recv

open Hx.Recv

/-- The responses of all servers from which length and data can be received, with
their own lengths.  `i`: the number of the first server. -/
def expected : List Peer → Nat → List Got
  | [], _ => []
  | p :: ps, i =>
    if p.rank && p.size && p.data then ⟨i, p.length, p.length⟩ :: expected ps (i + 1)
    else expected ps (i + 1)

end Hx.Spec.Recv

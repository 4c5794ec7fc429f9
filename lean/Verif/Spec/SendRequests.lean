import Verif.Model.SendRequests
import Verif.Spec.Messages

/-!
# Which objects a round over MPI constructs, and which are left
-/

namespace Hx.Spec.Lives

open Hx.Lives

/-- How many objects there are for a message. -/
def objects : Sending → Nat
  | .noRank => 0
  | .sizeFails => 1
  | .dataFails => 2
  | .sent => 2

/-- The objects of failed sends that come after a message for which there was no
such send or it failed, if the next object has number `k`.  `sizes`, `datas`: the
sizes, the data of all messages so far were sent. -/
def leaked : List Sending → (sizes datas : Bool) → Nat → List Nat
  | [], _, _, _ => []
  | .noRank :: ms, _, _, k => leaked ms false false k
  | .sizeFails :: ms, sizes, _, k => (if sizes then [] else [k]) ++ leaked ms false false (k + 1)
  | .dataFails :: ms, sizes, datas, k =>
    (if datas then [] else [k + 1]) ++ leaked ms sizes false (k + 1 + 1)
  | .sent :: ms, sizes, datas, k => leaked ms sizes datas (k + 1 + 1)

end Hx.Spec.Lives

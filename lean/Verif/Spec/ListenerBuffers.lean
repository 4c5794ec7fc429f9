import Verif.Model.ListenerBuffers
import Verif.Spec.Messages

/-!
# Which buffers a listener allocates, and which are left
-/

namespace Hx.Spec.Lives

open Hx.Lives

/-- How many buffers there are for a turn. -/
def buffers : Listen → Nat
  | .noSize => 0
  | .noData => 1
  | .served packed _ => if packed then 2 else 1

/-- The buffers of requests that could not be received, if the next has number `k`. -/
def abandoned : List Listen → Nat → List Nat
  | [], _ => []
  | .noData :: ts, k => k :: abandoned ts (k + 1)
  | t :: ts, k => abandoned ts (k + buffers t)

end Hx.Spec.Lives

import Verif.Model.ResponseChain

/-!
# Which responses a round has
-/

namespace Hx.Spec.Lives

open Hx.Lives

/-- The responses, in the order of the requests, if the next message has number `n`. -/
def responses : List Outcome → Nat → List Nat
  | [], _ => []
  | .response :: os, n => n :: responses os (n + 1)
  | .unreadable :: os, n => responses os (n + 1)
  | _ :: os, n => responses os n

/-- Those that could not be unpacked. -/
def unreadable : List Outcome → Nat → List Nat
  | [], _ => []
  | .response :: os, n => unreadable os (n + 1)
  | .unreadable :: os, n => n :: unreadable os (n + 1)
  | _ :: os, n => unreadable os n

/-- A request that got no response. -/
def failed : Outcome → Bool
  | .noEndpoint | .notPacked | .unreadable => true
  | _ => false

end Hx.Spec.Lives

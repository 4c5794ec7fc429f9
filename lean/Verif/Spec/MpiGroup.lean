import Verif.Model.MpiGroup

/-!
# Specification: requests and their responses over MPI
-/

namespace Hx.Spec.MpiGroup
open Hx MpiGroup

/-- The requests whose destination is known, with the rank they are for. -/
def reached (g : Group) (msgs : List (Int × Bytes)) : List (Int × Bytes) :=
  msgs.filterMap (fun m => (g.ranks m.1).map (fun r => (r, m.2)))

/-- The responses to requests that are sent one after the other, when `before` was sent before. -/
def answers (g : Group) (before : List (Int × Bytes)) : List (Int × Bytes) → List Bytes
  | [] => []
  | x :: l =>
    let to := ((before ++ [x]).filter (fun y => decide (y.1 = x.1))).map (·.2)
    g.answer x.1 (to.map List.length) to :: answers g (before ++ [x]) l

/-- All requests were sent with their sizes, and all responses received. -/
structure Quiet (s : Net) : Prop where
  sizes : s.sizes = s.datas.map (fun x => (x.1, x.2.length))
  sizeRecvs : ∀ r, s.sizeRecvs.count r = (s.datas.map (·.1)).count r
  dataRecvs : ∀ r, s.dataRecvs.count r = (s.datas.map (·.1)).count r

/-- `l` is an interleaving of the instructions of two threads. -/
def Interleaves (l : List (Bool × Instr)) (a b : List Instr) : Prop :=
  (l.filter (fun x => !x.1)).map (·.2) = a ∧ (l.filter (·.1)).map (·.2) = b

end Hx.Spec.MpiGroup

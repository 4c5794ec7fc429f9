import Verif.Model.Queue
import Verif.Model.Store
import Verif.Model.Config

/-!
# `examples/hxhim/lowest.c`: the cells with the lowest temperatures

* `size_t` and `int` are unbounded; `calloc` succeeds; the names fit into `BUF_SIZE`.
* The random temperatures are any bytes.
* No PUT is sent before the flush (fewer PUTs are queued than `hxhim_set_asyncput_maximum...` allows).
-/

namespace Hx.Lowest
open Hx Msg

/-- `Cell_t` (examples/hxhim/lowest.c:21-24). -/
structure Cell where
  name : Bytes
  temp : Bytes
  deriving Repr, DecidableEq

/-- `%d`. -/
def showInt (n : Int) : Bytes := if n < 0 then 45 :: Elen.toDec n.natAbs else Elen.toDec n.natAbs

/-- `NAME_FMT` (examples/hxhim/lowest.c:17). -/
def cellName (rank : Int) (x y : Nat) : Bytes :=
  Config.str "Cell-(" ++ showInt rank ++ Config.str ", " ++ Elen.toDec x ++ Config.str ", " ++ Elen.toDec y ++ Config.str ")"

/-- `TEMP` without its terminator (examples/hxhim/lowest.c:18-19). -/
def attr : Bytes := Config.str "Temp"

/-- The index of a cell (examples/hxhim/lowest.c:94): the factor is the number of columns, not that of rows. -/
def index (numX x y : Nat) : Nat := x * numX + y

/-- The order of the two loops (examples/hxhim/lowest.c:92-93). -/
def grid (numX numY : Nat) : List (Nat × Nat) := (List.range numX).flatMap (fun x => (List.range numY).map (fun y => (x, y)))

/-- The loops without the PUTs (examples/hxhim/lowest.c:92-97): a write outside the array is undefined. -/
def fill (numX : Nat) (rank : Int) (temp : Nat → Nat → Bytes) : List (Nat × Nat) → List Cell → Out (List Cell)
  | [], m => .ok m
  | c :: l, m =>
    if index numX c.1 c.2 < m.length then
      fill numX rank temp l (m.set (index numX c.1 c.2) ⟨cellName rank c.1 c.2, temp c.1 c.2⟩)
    else .ub

/-- What the PUTs (examples/hxhim/lowest.c:99-103) send: the queues hold pointers into the array, so it is what the array holds at the
flush (109). -/
def sent (numX numY : Nat) (rank : Int) (temp : Nat → Nat → Bytes) : Out (List Cell) :=
  fill numX rank temp (grid numX numY) (List.replicate (numX * numY) ⟨[], []⟩) >>= fun m =>
  .ok ((grid numX numY).map (fun c => m.getD (index numX c.1 c.2) ⟨[], []⟩))

/-- The PUT of a cell (examples/hxhim/lowest.c:99-103): the three arguments are at some addresses. -/
def putCall (a : Nat) (c : Cell) : Queue.Call :=
  .put ⟨⟨a, c.name, Store.tByte⟩, ⟨a, attr, Store.tByte⟩, ⟨a, c.temp, Store.tDouble⟩, 0x3f⟩

/-- The GETOPs (examples/hxhim/lowest.c:119-122, 132-135) as they get to a datastore on the same rank. -/
def ask (a op n : Nat) : GetOpItem := ⟨op, ⟨a, attr, Store.tByte⟩, ⟨0, [], Store.tDouble⟩, Store.tByte, n⟩

end Hx.Lowest

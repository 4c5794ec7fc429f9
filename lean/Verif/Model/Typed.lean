import Verif.Model.Session

/-!
# The functions for floats and doubles

`src/hxhim/ops/float.cpp` and `src/hxhim/ops/double.cpp` (the two files differ in names only), on top of the calls of `Model/Session`.
The C functions (`hxhimPutFloat`, …) only call the C++ functions.
-/

namespace Hx.Typed
open Hx Msg Store

inductive NumTy where
  | float
  | double
  deriving Repr, DecidableEq

/-- `HXHIM_DATA_FLOAT`, `HXHIM_DATA_DOUBLE`. -/
def NumTy.typ : NumTy → Nat
  | .float => tFloat
  | .double => tDouble

/-- `sizeof(float)`, `sizeof(double)`. -/
def NumTy.size : NumTy → Nat
  | .float => 4
  | .double => 8

/-- The memory at the address of a number, given by its bits. -/
def NumTy.object (t : NumTy) (addr bits : Nat) : Blob := ⟨addr, leBytes t.size bits, t.typ⟩

/-- Subject, predicate, the pointer to the number, the number's bits and the permutations. -/
structure NumArg where
  s : Blob
  p : Blob
  addr : Nat
  bits : Nat
  mask : Nat
  deriving Repr, DecidableEq

def NumTy.arg (t : NumTy) (a : NumArg) : Queue.PutArg := ⟨a.s, a.p, t.object a.addr a.bits, a.mask⟩

/-- The calls. `arrays`: all arrays the caller has to give are given; `types`: the arrays of the types of subjects and predicates
are. -/
inductive Call where
  | put (a : NumArg)
  | get (s p : Blob)
  | getop (s p : Blob) (n op : Nat)
  | bput (arrays types : Bool) (l : List NumArg)
  | bget (arrays types : Bool) (l : List (Blob × Blob))
  | bgetop (arrays ops : Bool) (l : List (Blob × Blob × Nat × Nat))

/-- `PutFloat` (src/hxhim/ops/float.cpp:20-31), `GetFloat` (67-74), `GetOpFloat` (108-117), `BPutFloat` (156-173), `BGetFloat`
(214-223), `BGetOpFloat` (261-272), and the same lines of src/hxhim/ops/double.cpp. The array of the lengths of the objects is made by
`alloc_array` (include/utils/memory.hpp:29-40), which returns a null pointer for no elements. -/
def NumTy.call (t : NumTy) : Call → Session.Call
  | .put a => .queue (.put (t.arg a))
  | .get s p => .queue (.get ⟨s, p, t.typ⟩)
  | .getop s p n op => .queue (.getop ⟨s, p, t.typ, n, op⟩)
  | .bput arrays types l => .putSingle (arrays && !l.isEmpty) types (l.map t.arg) t.typ
  | .bget arrays types l => .getSingle arrays types (l.map (fun a => ⟨a.1, a.2, t.typ⟩)) t.typ
  | .bgetop arrays ops l => .getopSingle arrays ops (l.map (fun a => ⟨a.1, a.2.1, t.typ, a.2.2.1, a.2.2.2⟩)) t.typ

end Hx.Typed

import Verif.Base.Wire

/-!
# Data blobs and the buffers they own

`src/utils/Blob.cpp`, `include/utils/Blob.hpp`, `include/utils/memory.hpp`
and `src/utils/memory.cpp`.

A program using blobs is a list of operations on *variables* (numbers): the
storage of a blob, be it a local variable, a temporary, a member, or an
element of an array made by `alloc_array`.  The contents of buffers play no
part in who frees them, and are left out; what is kept is which buffers have
been allocated, which are still allocated, and every call of
`operator delete` on something that is not null.

`.ub` is what C++ leaves undefined: `operator delete` of memory that was not
obtained from `operator new`, or has been freed already, and reading memory
that has been freed.  `.err` marks
operations that are no program at all: constructing a blob in storage that
holds one, and using storage that holds none.
-/

namespace Hx.Own

/-- What a pointer may hold: null, an address of memory not obtained from
`alloc` (a buffer of the user, the inside of a packet, a string), or the
result of the `n`-th call of `alloc`. -/
inductive Ptr where
  | null
  | outside (a : Nat)
  | heap (n : Nat)
deriving DecidableEq, Repr

/-- `HXHIM_DATA_INVALID`, the type of an empty blob. -/
def invalid : Nat := 0

/-- The members of `Blob` (`include/utils/Blob.hpp:96-99`). -/
structure Obj where
  ptr : Ptr
  len : Nat
  typ : Nat
  clean : Bool
deriving DecidableEq, Repr

/-- The storage of blobs, and the heap. -/
structure Mem where
  /-- the blob in each variable, if it holds one -/
  objs : Nat → Option Obj
  /-- the number of allocations so far -/
  next : Nat
  /-- the buffers that are allocated -/
  live : List Nat
  /-- the arguments of the calls of `operator delete`, null left out -/
  freed : List Ptr

/-- No blob, no buffer. -/
def Mem.empty : Mem := ⟨fun _ => none, 0, [], []⟩

/-- Put `o` in variable `x`. -/
def Mem.set (m : Mem) (x : Nat) (o : Option Obj) : Mem :=
  { m with objs := fun y => if y = x then o else m.objs y }

/-- The blob in variable `x`. -/
def Mem.at (m : Mem) (x : Nat) : Out Obj :=
  match m.objs x with
  | some o => .ok o
  | none => .err

/-- Constructors need storage that holds no blob. -/
def Mem.vacant (m : Mem) (x : Nat) : Out Unit :=
  match m.objs x with
  | some _ => .err
  | none => .ok ()

/-- `alloc` (`src/utils/memory.cpp:3-5`): null for nothing, otherwise new
memory.  Running out of memory is left out. -/
def alloc (size : Nat) (m : Mem) : Ptr × Mem :=
  if size = 0 then (.null, m)
  else (.heap m.next, { m with next := m.next + 1, live := m.next :: m.live })

/-- `dealloc` (`src/utils/memory.cpp:7-9`): deleting null does nothing. -/
def free (p : Ptr) (m : Mem) : Out Mem :=
  match p with
  | .null => .ok m
  | .outside _ => .ub
  | .heap n =>
    if n ∈ m.live then
      .ok { m with live := m.live.erase n, freed := m.freed ++ [p] }
    else .ub

/-- `Blob::clear` (`Blob.cpp:97-102`). -/
def Obj.clear (_ : Obj) : Obj := ⟨.null, 0, invalid, false⟩

/-- `Blob::dealloc` (`Blob.cpp:104-109`). -/
def Obj.dealloc (o : Obj) (m : Mem) : Out (Obj × Mem) := do
  let m ← if o.clean then free o.ptr m else pure m
  pure (o.clear, m)

/-- The operations of the class, and the two functions of
`include/utils/memory.hpp` on buffers without a blob. -/
inductive Op where
  /-- `Blob x(p, len, typ, clean)` -/
  | make (x : Nat) (p : Ptr) (len typ : Nat) (clean : Bool)
  /-- `Blob x(len, src, typ)`, which copies the bytes -/
  | makeCopy (x : Nat) (len typ : Nat)
  /-- `Blob x(y)` -/
  | copy (x y : Nat)
  /-- `Blob x(std::move(y))` -/
  | move (x y : Nat)
  /-- `x.~Blob()` -/
  | destroy (x : Nat)
  /-- `x = y` -/
  | assign (x y : Nat)
  /-- `x = std::move(y)` -/
  | moveAssign (x y : Nat)
  /-- `x.set_type(typ)` -/
  | setType (x typ : Nat)
  /-- `x.set_clean(b)` -/
  | setClean (x : Nat) (b : Bool)
  /-- `x.clear()` -/
  | clear (x : Nat)
  /-- `x.dealloc()` -/
  | dealloc (x : Nat)
  /-- `x.unpack(src, typ?, copied)` where `len` bytes follow at `src` -/
  | unpack (x : Nat) (src : Ptr) (len : Nat) (typ : Option Nat) (copied : Bool)
  /-- `x.unpack_ref(src, typ?)` where `p` and `len` are found at `src` -/
  | unpackRef (x : Nat) (p : Ptr) (len : Nat) (typ : Option Nat)
  /-- `alloc(size)` -/
  | alloc (size : Nat)
  /-- `dealloc(p)` -/
  | free (p : Ptr)
  /-- reading the bytes of `x` -/
  | read (x : Nat)
  /-- the storage of `x` is given up, no destructor is called -/
  | forget (x : Nat)
deriving DecidableEq, Repr

/-- One operation. -/
def exec (m : Mem) : Op → Out Mem
  -- Blob.cpp:10-15, also behind `Blob.cpp:26-28` and `ReferenceBlob` (273-275)
  | .make x p len typ clean => do
    m.vacant x
    pure (m.set x (some ⟨p, len, typ, clean⟩))
  -- Blob.cpp:17-24
  | .makeCopy x len typ => do
    m.vacant x
    let (p, m) := Own.alloc len m
    pure (m.set x (some ⟨p, len, typ, true⟩))
  -- Blob.cpp:30-32
  | .copy x y => do
    m.vacant x
    let r ← m.at y
    pure (m.set x (some ⟨r.ptr, r.len, r.typ, false⟩))
  -- Blob.cpp:34-38
  | .move x y => do
    m.vacant x
    let r ← m.at y
    pure ((m.set x (some ⟨r.ptr, r.len, r.typ, r.clean⟩)).set y (some r.clear))
  -- Blob.cpp:40-42
  | .destroy x => do
    let o ← m.at x
    let (_, m) ← o.dealloc m
    pure (m.set x none)
  -- Blob.cpp:44-56
  | .assign x y => do
    let o ← m.at x
    let r ← m.at y
    if x = y then pure m
    else do
      let (_, m) ← o.dealloc m
      pure (m.set x (some ⟨r.ptr, r.len, r.typ, false⟩))
  -- Blob.cpp:58-72
  | .moveAssign x y => do
    let o ← m.at x
    let r ← m.at y
    if x = y then pure m
    else do
      let (_, m) ← o.dealloc m
      pure ((m.set x (some ⟨r.ptr, r.len, r.typ, r.clean⟩)).set y (some r.clear))
  -- Blob.cpp:85-89
  | .setType x typ => do
    let o ← m.at x
    pure (m.set x (some { o with typ := typ }))
  -- Blob.cpp:91-95
  | .setClean x b => do
    let o ← m.at x
    pure (m.set x (some { o with clean := b }))
  -- Blob.cpp:97-102
  | .clear x => do
    let o ← m.at x
    pure (m.set x (some o.clear))
  -- Blob.cpp:104-109
  | .dealloc x => do
    let o ← m.at x
    let (o, m) ← o.dealloc m
    pure (m.set x (some o))
  -- Blob.cpp:143-166
  | .unpack x src len typ copied => do
    let o ← m.at x
    if copied then
      let (p, m) := Own.alloc len m
      pure (m.set x (some ⟨p, len, typ.getD o.typ, true⟩))
    else
      pure (m.set x (some ⟨src, len, typ.getD o.typ, false⟩))
  -- Blob.cpp:192-211
  | .unpackRef x p len typ => do
    let o ← m.at x
    pure (m.set x (some ⟨p, len, typ.getD o.typ, false⟩))
  -- src/utils/memory.cpp:3-5
  | .alloc size => pure (Own.alloc size m).2
  -- src/utils/memory.cpp:7-9
  | .free p => Own.free p m
  -- `memcpy` from `data()`, wherever it is
  | .read x => do
    let o ← m.at x
    match o.ptr with
    | .heap n => if n ∈ m.live then pure m else .ub
    | _ => pure m
  -- `operator delete` of memory in which there are blobs; raw pointers at the end of a function
  | .forget x => do
    let _ ← m.at x
    pure (m.set x none)

/-- A program. -/
def run (m : Mem) : List Op → Out Mem
  | [] => .ok m
  | op :: ops => do
    let m ← exec m op
    run m ops

end Hx.Own

import Verif.Base.Wire

/-!
# Histograms: `src/utils/Histogram.cpp`

A `double` is its IEEE 754 bit pattern. Bucket generators (the built-in ones do floating point
arithmetic, the user may supply others) are parameters: functions from the cached values to the
left ends of the buckets.
-/

namespace Hx

/-- Bit pattern of a `double`. -/
abbrev Dbl := UInt64

namespace Dbl

/-- Bit pattern without the sign. -/
def mag (x : Dbl) : Nat := x.toNat % 2 ^ 63

/-- Not a number. -/
def isNaN (x : Dbl) : Bool := 0x7ff0000000000000 < mag x

/-- Order number: IEEE 754 comparison of non-NaN values is comparison of these. -/
def rank (x : Dbl) : Int := if x.toNat < 2 ^ 63 then (mag x : Int) else -(mag x : Int)

/-- `a < b` on `double`s. -/
def lt (a b : Dbl) : Bool := !isNaN a && !isNaN b && decide (rank a < rank b)

/-- `std::numeric_limits<double>::min()`: the smallest positive normal value. -/
def minPos : Dbl := 0x0010000000000000

end Dbl

namespace Hist

/-- A bucket generator (`HistogramBucketGenerator_t`, include/utils/Histogram.h): from the cached
values (`none` when the cache pointer is null) to the left ends of the buckets, or `none` for
`HISTOGRAM_ERROR`. -/
abbrev Gen := Option (List Dbl) → Option (List Dbl)

end Hist

/-- `Histogram::Histogram` (include/utils/Histogram.hpp:69-86). `cache = none` and
`buckets = none`, `counts = none` are null pointers; `cache` lists the values written to the array
so far, `buckets` has one entry more than `counts`. `gen = none` is a null function pointer. -/
structure Hist where
  name : Bytes
  firstN : Nat
  gen : Option Hist.Gen
  cache : Option (List Dbl)
  count : Nat
  buckets : Option (List Dbl)
  counts : Option (List Nat)
  size : Nat

namespace Hist

/-- Default constructor (src/utils/Histogram.cpp:155-165). -/
def empty : Hist := ⟨[], 0, none, none, 0, none, none, 0⟩

/-- Constructor from a configuration (src/utils/Histogram.cpp:167-177); `alloc_array(0)` is
null. -/
def create (firstN : Nat) (gen : Option Gen) (name : Bytes) : Hist :=
  ⟨name, firstN, gen, if firstN = 0 then none else some [], 0, none, none, 0⟩

/-- `std::upper_bound` over the first `len` entries from `first` (binary search of the standard
library): number of the first entry greater than `v`. -/
def upperBound (a : List Dbl) (v : Dbl) (first len : Nat) : Nat :=
  if h : len = 0 then first
  else
    let half := len / 2
    if Dbl.lt v (a.getD (first + half) 0) then upperBound a v first half
    else upperBound a v (first + half + 1) (len - half - 1)
termination_by len

/-- `insert` (src/utils/Histogram.cpp:582-600). The flag is the return code. -/
def insert (h : Hist) (v : Dbl) : Hist × Bool :=
  match h.buckets, h.counts with
  | some b, some c =>
    if h.size = 0 then (h, false)
    else
      let i := upperBound b v 0 h.size
      if i = 0 then (h, false)
      else
        let c := c.set (i - 1) (c.getD (i - 1) 0 + 1)
        let b := if Dbl.lt (b.getD h.size 0) v then b.set h.size v else b
        ({ h with buckets := some b, counts := some c }, true)
  | _, _ => (h, false)

/-- Insert several values, ignoring return codes (src/utils/Histogram.cpp:224-226). -/
def insertAll (h : Hist) (vs : List Dbl) : Hist := vs.foldl (fun h v => (insert h v).1) h

/-- The bucket generation part of `add` (src/utils/Histogram.cpp:213-227), `h.count` already
incremented. `none` is `HISTOGRAM_ERROR`. Undefined behaviour: the generator pointer is null, or
the generator is told that the cache holds more values than it does. -/
def generate (h : Hist) : Out (Hist × Bool) :=
  match h.gen with
  | none => .ub
  | some g =>
    if h.cache.any (fun c => c.length < h.count) then .ub
    else
      match g h.cache with
      | none => .ok (h, false)
      | some left =>
        let h := { h with buckets := some (left ++ [0]), size := left.length }
        if left.length = 0 then .ok (h, false)
        else
          let h := { h with counts := some (List.replicate left.length 0),
                            buckets := some (left ++ [Dbl.minPos]) }
          .ok (insertAll h (h.cache.getD []), true)

/-- `add` (src/utils/Histogram.cpp:203-237). -/
def add (h : Hist) (v : Dbl) : Out (Hist × Bool) :=
  (if h.count < h.firstN then
    match h.cache with
    | none => .ub
    | some c => .ok { h with cache := some (c.take h.count ++ [v]) }
  else .ok h) >>= fun h =>
  let h := { h with count := h.count + 1 }
  if h.firstN ≤ h.count then
    (if h.buckets.isNone then generate h else .ok (h, true)) >>= fun x =>
    if !x.2 then .ok x
    else if x.1.firstN < x.1.count then .ok ((insert x.1 v).1, true)
    else .ok (x.1, true)
  else .ok (h, true)

/-- Add values one after the other, ignoring return codes. -/
def addAll (h : Hist) : List Dbl → Out Hist
  | [] => .ok h
  | v :: vs => add h v >>= fun x => addAll x.1 vs

/-- Eight bytes of a `double`. -/
def dblBytes (x : Dbl) : Bytes := leBytes 8 x.toNat

/-- Read a `double`. -/
def rdDbl (src : Bytes) : Out (Dbl × Bytes) := rdNat 8 src >>= fun x => .ok (UInt64.ofNat x.1, x.2)

/-- The cached values that are packed: only while the buckets do not exist
(src/utils/Histogram.cpp:387-392). -/
def packedCache (h : Hist) : List Dbl := if h.count < h.firstN then (h.cache.getD []).take h.count else []

/-- `pack_size` (src/utils/Histogram.cpp:338-354). -/
def packSize (h : Hist) : Nat :=
  8 + h.name.length + 8 + 8 + 8 + (if h.count < h.firstN then 8 * h.count else 0)
    + (if h.size = 0 then 0 else h.size * 16 + 8)

/-- Bytes written by `pack` in place (src/utils/Histogram.cpp:395-443) when there is room. -/
def packBytes (h : Hist) : Bytes :=
  leBytes 8 h.name.length ++ h.name ++ leBytes 8 h.count ++ leBytes 8 h.firstN
    ++ h.packedCache.flatMap dblBytes ++ leBytes 8 h.size
    ++ (if h.size = 0 then [] else
      (((h.buckets.getD []).take h.size).zip (h.counts.getD [])).flatMap
        (fun x => dblBytes x.1 ++ leBytes 8 x.2)
      ++ dblBytes ((h.buckets.getD []).getD h.size 0))

/-- `pack(curr, avail, used)` (src/utils/Histogram.cpp:395-443): nothing is written when there is
not enough room. Returns the bytes and the room left. -/
def packIn (h : Hist) (avail : Nat) : Option (Bytes × Nat) :=
  if avail < h.packSize then none else some (h.packBytes, avail - h.packBytes.length)

/-- `unpack(curr, size, used)` (src/utils/Histogram.cpp:469-525) into the object `h`; `none` is a
`false` return. `clear` has reset everything but name, generator and cache. -/
def unpackIn (h : Hist) (size : Nat) (src : Bytes) : Out (Option Hist × Bytes) :=
  if size < 32 then .ok (none, src)
  else
    rdNat 8 src >>= fun nameLen =>
    rd nameLen.1 nameLen.2 >>= fun name =>
    rdNat 8 name.2 >>= fun count =>
    rdNat 8 count.2 >>= fun firstN =>
    (if count.1 < firstN.1 then
        rdMany rdDbl count.1 firstN.2 >>= fun c => .ok (some c.1, c.2)
      else .ok (h.cache, firstN.2)) >>= fun cache =>
    rdNat 8 cache.2 >>= fun sz =>
    if sz.1 = 0 then
      .ok (some ⟨name.1, firstN.1, h.gen, cache.1, count.1, none, none, 0⟩, sz.2)
    else if count.1 < firstN.1 then .ub
    else
      rdMany (fun s => rdDbl s >>= fun b => rdNat 8 b.2 >>= fun c => .ok ((b.1, c.1), c.2)) sz.1 sz.2
        >>= fun bc =>
      rdDbl bc.2 >>= fun last =>
      .ok (some ⟨name.1, firstN.1, h.gen, cache.1, count.1, some (bc.1.map (·.1) ++ [last.1]),
        some (bc.1.map (·.2)), sz.1⟩, last.2)

end Hist
end Hx

import Verif.Model.Lowest

/-!
# `examples/hxhim/spo_gen.c`: triples for the example programs

* `calloc` succeeds, except that it may return a null pointer for no bytes, which nobody reads.
* `size_t` has 64 bits, `int` has 32 bits.
* The numbers that `rand` gives are any numbers that are not negative.
-/

namespace Hx.SpoGen
open Hx

/-- A buffer and the length that is reported for it. -/
structure Made where
  buf : Bytes
  len : Nat
  deriving Repr, DecidableEq

/-- `gen_fixed_pattern` (examples/hxhim/spo_gen.c:38-50): `snprintf` writes no more than `max` characters with the terminator into the
zeroed buffer, and returns the length of the whole text. -/
def fixed (max : Nat) (text : Bytes) : Made :=
  ⟨text.take (max - 1) ++ List.replicate (max - (text.take (max - 1)).length) 0, text.length⟩

/-- What is read through the pointer with the length; reading behind the buffer is undefined. -/
def Made.read (x : Made) : Out Bytes := if x.len ≤ x.buf.length then .ok (x.buf.take x.len) else .ub

/-- The pattern `word-%d-%zu` (examples/hxhim/spo_gen.c:73-90). -/
def name (word : Bytes) (rank : Int) (i : Nat) : Bytes := word ++ [45] ++ Lowest.showInt rank ++ [45] ++ Elen.toDec i

def subject : Bytes := Config.str "subject"
def predicate : Bytes := Config.str "predicate"
def object : Bytes := Config.str "object"

/-- One array of `spo_gen_fixed` (examples/hxhim/spo_gen.c:52-93). -/
def spoFixed (count bufsize : Nat) (word : Bytes) (rank : Int) : List Made :=
  (List.range count).map (fun i => fixed bufsize (name word rank i))

/-- The length in `gen_random_pattern` (examples/hxhim/spo_gen.c:101); `r` is what `rand` gives. `size_t` wraps around, a remainder of
a division by zero is undefined. -/
def randomLen (min max r : Nat) : Out Nat :=
  let m := (max + 2 ^ 64 - min + 1) % 2 ^ 64
  if m = 0 then .ub else .ok ((r % m + min) % 2 ^ 64)

/-- `gen_random_pattern` (examples/hxhim/spo_gen.c:95-108). -/
def random (min max r : Nat) (byte : Nat → UInt8) : Out Made :=
  randomLen min max r >>= fun len => .ok ⟨(List.range len).map byte, len⟩

end Hx.SpoGen

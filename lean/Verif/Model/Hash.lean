import Verif.Base.Bytes

/-!
# Choosing a datastore: `src/hxhim/hash.cpp`, `include/utils/uthash.h`

`unsigned` is `UInt32`. The hash macros work on `unsigned char`s; `hashv` is threaded from the
subject to the predicate because the initialisations inside the macros are commented out.
-/

namespace Hx.Hash

/-- An `unsigned char` promoted to `unsigned`. -/
def u (b : UInt8) : UInt32 := b.toUInt32

/-- `(unsigned) keylen`: macros that copy the length into an `unsigned` see only this many bytes. -/
def seen (key : Bytes) : Bytes := key.take (key.length % 2 ^ 32)

/-- `HASH_BER` (include/utils/uthash.h:30-38). -/
def ber (key : Bytes) (h : UInt32) : Out UInt32 :=
  .ok ((seen key).foldl (fun h b => ((h <<< 5) + h) + u b) h)

/-- The loops of `HASH_SAX`, `HASH_FNV` and `HASH_OAT` compare an `unsigned` counter with a
`size_t` length: from 2^32 bytes on they never end (undefined behaviour). -/
def counted (step : UInt32 → UInt8 → UInt32) (key : Bytes) (h : UInt32) : Out UInt32 :=
  if 2 ^ 32 ≤ key.length then .ub else .ok (key.foldl step h)

/-- `HASH_SAX` (include/utils/uthash.h:42-50). -/
def sax (key : Bytes) (h : UInt32) : Out UInt32 :=
  counted (fun h b => h ^^^ ((h <<< 5) + (h >>> 2) + u b)) key h

/-- `HASH_FNV` (include/utils/uthash.h:52-61). -/
def fnv (key : Bytes) (h : UInt32) : Out UInt32 :=
  counted (fun h b => (h ^^^ u b) * 16777619) key h

/-- Loop body of `HASH_OAT` (include/utils/uthash.h:68-72). -/
def oatStep (h : UInt32) (b : UInt8) : UInt32 :=
  let h := h + u b
  let h := h + (h <<< 10)
  h ^^^ (h >>> 6)

/-- `HASH_OAT` (include/utils/uthash.h:63-76). -/
def oat (key : Bytes) (h : UInt32) : Out UInt32 :=
  (counted oatStep key h) >>= fun h =>
    let h := h + (h <<< 3)
    let h := h ^^^ (h >>> 11)
    .ok (h + (h <<< 15))

/-- `HASH_JEN_MIX` (include/utils/uthash.h:78-89). -/
def jenMix (a b c : UInt32) : UInt32 × UInt32 × UInt32 :=
  let a := a - b; let a := a - c; let a := a ^^^ (c >>> 13)
  let b := b - c; let b := b - a; let b := b ^^^ (a <<< 8)
  let c := c - a; let c := c - b; let c := c ^^^ (b >>> 13)
  let a := a - b; let a := a - c; let a := a ^^^ (c >>> 12)
  let b := b - c; let b := b - a; let b := b ^^^ (a <<< 16)
  let c := c - a; let c := c - b; let c := c ^^^ (b >>> 5)
  let a := a - b; let a := a - c; let a := a ^^^ (c >>> 3)
  let b := b - c; let b := b - a; let b := b ^^^ (a <<< 10)
  let c := c - a; let c := c - b; let c := c ^^^ (b >>> 15)
  (a, b, c)

/-- Four bytes of the `HASH_JEN` main loop, little endian. -/
def word (b0 b1 b2 b3 : UInt8) : UInt32 := u b0 + (u b1 <<< 8) + (u b2 <<< 16) + (u b3 <<< 24)

/-- The `switch` of `HASH_JEN` (include/utils/uthash.h:115-127). `at` is indexed by the position
in the rest of the key; a case is entered only when the position exists. -/
def jenTail (rest : Bytes) (i j h : UInt32) : UInt32 × UInt32 × UInt32 :=
  let at' (n : Nat) (s : UInt32) : UInt32 := if n < rest.length then u (rest.getD n 0) <<< s else 0
  (i + at' 3 24 + at' 2 16 + at' 1 8 + at' 0 0,
   j + at' 7 24 + at' 6 16 + at' 5 8 + at' 4 0,
   h + at' 10 24 + at' 9 16 + at' 8 8)

/-- The loop and `switch` of `HASH_JEN` (include/utils/uthash.h:98-128); `len` is the full key
length. -/
def jenLoop (len : Nat) : Bytes → UInt32 → UInt32 → UInt32 → UInt32
  | b0 :: b1 :: b2 :: b3 :: b4 :: b5 :: b6 :: b7 :: b8 :: b9 :: b10 :: b11 :: rest, i, j, h =>
    let m := jenMix (i + word b0 b1 b2 b3) (j + word b4 b5 b6 b7) (h + word b8 b9 b10 b11)
    jenLoop len rest m.1 m.2.1 m.2.2
  | rest, i, j, h =>
    let t := jenTail rest i j (h + UInt32.ofNat len)
    (jenMix t.1 t.2.1 t.2.2).2.2

/-- `HASH_JEN` (include/utils/uthash.h:91-129). -/
def jen (key : Bytes) (h : UInt32) : Out UInt32 :=
  .ok (jenLoop key.length (seen key) 0x9e3779b9 0x9e3779b9 h)

/-- `get16bits` (include/utils/uthash.h:138-141). -/
def get16 (b0 b1 : UInt8) : UInt32 := (u b1 <<< 8) + u b0

/-- Loop and end cases of `HASH_SFH` (include/utils/uthash.h:151-174). -/
def sfhLoop : Bytes → UInt32 → UInt32
  | b0 :: b1 :: b2 :: b3 :: rest, h =>
    let h := h + get16 b0 b1
    let tmp := (get16 b2 b3 <<< 11) ^^^ h
    let h := (h <<< 16) ^^^ tmp
    sfhLoop rest (h + (h >>> 11))
  | [b0, b1, b2], h =>
    let h := h + get16 b0 b1
    let h := h ^^^ (h <<< 16)
    let h := h ^^^ (u b2 <<< 18)
    h + (h >>> 11)
  | [b0, b1], h =>
    let h := h + get16 b0 b1
    let h := h ^^^ (h <<< 11)
    h + (h >>> 17)
  | [b0], h =>
    let h := h + u b0
    let h := h ^^^ (h <<< 10)
    h + (h >>> 1)
  | [], h => h

/-- `HASH_SFH` (include/utils/uthash.h:142-183). -/
def sfh (key : Bytes) (h : UInt32) : Out UInt32 :=
  let h := sfhLoop (seen key) h
  let h := h ^^^ (h <<< 3)
  let h := h + (h >>> 5)
  let h := h ^^^ (h <<< 4)
  let h := h + (h >>> 17)
  let h := h ^^^ (h <<< 25)
  .ok (h + (h >>> 6))

/-- Conversion of a `size_t` to the `int` return type (two's complement, as GCC and Clang do). -/
def toInt (n : Nat) : Int :=
  let m : Nat := n % 2 ^ 32
  if m < 2 ^ 31 then (m : Int) else (m : Int) - 2 ^ 32

/-- `x % count` with the result returned as `int`; division by zero is undefined. -/
def modCount (x count : Nat) : Out Int := if count = 0 then .ub else .ok (toInt (x % count))

/-- Sum of the bytes, as `SumModDatastores` forms it (src/hxhim/hash.cpp:74-81). -/
def byteSum (bs : Bytes) : Nat := (bs.map UInt8.toNat).sum

/-- The built-in hash functions (include/hxhim/hash.h, src/hxhim/config.cpp). -/
inductive Kind where
  | datastoreZero | rankMod | sumMod | ber | sax | fnv | oat | jen | sfh
  deriving Repr, DecidableEq

/-- A uthash based function: run over subject then predicate, take the remainder
(src/hxhim/hash.cpp:96-205). -/
def uthash (f : Bytes → UInt32 → Out UInt32) (init : UInt32) (count : Nat) (s p : Bytes) : Out Int :=
  f s init >>= fun h => f p h >>= fun h => modCount h.toNat count

/-- `hxhim_hash` (src/hxhim/hash.cpp:17-30) with each built-in function
(src/hxhim/hash.cpp:37-205). `rank` is the rank of the caller and `count` the number of
datastores of the session. The running `int` sum of `SumModDatastores` overflows (undefined
behaviour) when the bytes add up to 2^31 or more. -/
def hxhimHash (k : Kind) (rank count : Nat) (s p : Bytes) : Out Int :=
  match k with
  | .datastoreZero => .ok 0
  | .rankMod => modCount rank count
  | .sumMod => if 2 ^ 31 ≤ byteSum s + byteSum p then .ub else modCount (byteSum s + byteSum p) count
  | .ber => uthash ber 0 count s p
  | .sax => uthash sax 0 count s p
  | .fnv => uthash fnv 2166136261 count s p
  | .oat => uthash oat 0 count s p
  | .jen => uthash jen 0xfeedbeef count s p
  | .sfh => uthash sfh 0xcafebabe count s p

end Hx.Hash

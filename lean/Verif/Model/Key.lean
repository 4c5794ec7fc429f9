import Verif.Base.Bytes

/-!
# Composite keys: `src/datastore/triplestore.cpp`
-/

namespace Hx

/-- A typed byte string: the part of a `Blob` (include/utils/Blob.hpp:25-100) that is stored.
`typ` is the value of the `hxhim_data_t` enum. -/
structure Val where
  bytes : Bytes
  typ : Nat
  deriving Repr, DecidableEq

namespace Key

/-- Number of bytes after subject and predicate: terminator, two lengths, two types
(src/datastore/triplestore.cpp:44-62). -/
def trailer : Nat := 1 + 8 + 8 + 1 + 1

/-- `sp_to_key` (src/datastore/triplestore.cpp:25-67): subject bytes, predicate bytes, `0xff`,
`size_t` subject length, `size_t` predicate length, subject type, predicate type. The types are
stored through a `char *`, so only the low 8 bits survive (lines 57, 61).
Simplification: a null blob with nonzero length (undefined behaviour in `memcpy`) cannot be
expressed; `memcpy(_, nullptr, 0)` is taken to do nothing. -/
def spToKey (s p : Val) : Bytes :=
  s.bytes ++ p.bytes ++ (0xff :: (leBytes 8 s.bytes.length ++ leBytes 8 p.bytes.length
    ++ [UInt8.ofNat s.typ, UInt8.ofNat p.typ]))

/-- `key_to_sp` (src/datastore/triplestore.cpp:79-128). The two types and lengths are read
backwards from the end of the key, the predicate is the bytes before the terminator, the subject
is taken from the front. The code checks nothing: reading outside the key is `ub`. -/
def keyToSp (key : Bytes) : Out (Val × Val) :=
  let n := key.length
  if n < trailer then .ub
  else
    let predType := (key.getD (n - 1) 0).toNat
    let subType := (key.getD (n - 2) 0).toNat
    let predLen := leVal ((key.drop (n - 10)).take 8)
    let subLen := leVal ((key.drop (n - 18)).take 8)
    if n - trailer < predLen ∨ n < subLen then .ub
    else .ok (⟨key.take subLen, subType⟩, ⟨(key.drop (n - trailer - predLen)).take predLen, predType⟩)

end Key
end Hx

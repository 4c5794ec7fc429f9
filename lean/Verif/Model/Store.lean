import Verif.Model.Message
import Verif.Model.Elen

/-!
# Datastores: `src/datastore/datastore.cpp`, `InMemory.cpp`, `LevelDB.cpp`, `RocksDB.cpp`

* `RocksDB.cpp` is `LevelDB.cpp` with other names; both are the backend `level`.
* `std::map<std::string, _>` and a LevelDB database are lists of key/value pairs in ascending byte
  order of the keys. An iterator is an index into that list; the length of the list is `end()`.
* LevelDB: `Write` of a batch applies its entries in order or, when it fails, none of them; reads
  succeed. Iterators are not valid behind the last and before the first entry.
* Log messages are not modelled (they index `HXHIM_DATA_STR` by stored and requested types).
-/

namespace Hx.Store
open Hx Msg

/-! ## Ordered maps -/

/-- An ordered map with byte string keys. -/
abbrev Map (β : Type) := List (Bytes × β)

/-- Lookup (`std::map::find`, `leveldb::DB::Get`). -/
def find {β : Type} (m : Map β) (k : Bytes) : Option β :=
  match m with
  | [] => none
  | x :: m => if x.1 = k then some x.2 else find m k

/-- `m[k] = v`, `WriteBatch::Put`: overwrite or insert at the place of the key. -/
def put {β : Type} (k : Bytes) (v : β) (m : Map β) : Map β :=
  match m with
  | [] => [(k, v)]
  | x :: m => if k < x.1 then (k, v) :: x :: m else if k = x.1 then (k, v) :: m else x :: put k v m

/-- `m.erase(m.find(k))`, `WriteBatch::Delete`; keys are unique. -/
def erase {β : Type} (k : Bytes) (m : Map β) : Map β := m.filter (fun x => x.1 ≠ k)

/-- Index of the first entry whose key is not less than `k` (`lower_bound`, `Iterator::Seek`). -/
def lowerBound {β : Type} (m : Map β) (k : Bytes) : Nat := (m.takeWhile (fun x => x.1 < k)).length

/-- Index of the first entry whose key is greater than `k` (`upper_bound`). -/
def upperBound {β : Type} (m : Map β) (k : Bytes) : Nat := (m.takeWhile (fun x => x.1 ≤ k)).length

/-- The stored records. -/
abbrev Db := Map Bytes

/-! ## Transforms -/

/-- `Transform::Callbacks` (include/datastore/transform.hpp) as used through `encode` and `decode`
(src/datastore/datastore.cpp:377-413): `none` is a return value other than `DATASTORE_SUCCESS`
(type not registered, callback failed), `err` a thrown exception. `neg` is
`numeric_extra.neg`. -/
structure Callbacks where
  encode : Blob → Out (Option Bytes)
  decode : Val → Out (Option Bytes)
  neg : UInt8

/-- `hxhim_data_t` values (include/hxhim/constants.h). -/
def tInt32 : Nat := 1
def tInt64 : Nat := 2
def tUint32 : Nat := 3
def tUint64 : Nat := 4
def tFloat : Nat := 5
def tDouble : Nat := 6
def tByte : Nat := 7
def tPointer : Nat := 8

/-- The registered integer type, if any. -/
def intType (t : Nat) : Option Elen.IntType :=
  if t = tInt32 then some Elen.int32 else if t = tInt64 then some Elen.int64
  else if t = tUint32 then some Elen.uint32 else if t = tUint64 then some Elen.uint64 else none

/-- The floating point callbacks, left open: from the bytes in memory and the type to the stored
form and back. -/
structure FloatCodec where
  encode : Val → Out (Option Bytes)
  decode : Val → Out (Option Bytes)

/-- `default_callbacks` (src/datastore/transform.cpp:15-61, include/datastore/transform.tpp:21-99)
with sign symbols `neg` and `pos`. -/
def defaultCallbacks (neg pos : UInt8) (f : FloatCodec) : Callbacks where
  encode b :=
    match intType b.typ with
    | some t =>
      if b.addr = 0 then .ok none
      else Elen.encodeMem neg pos t b.bytes >>= fun e => .ok (some e)
    | none =>
      if b.typ = tFloat ∨ b.typ = tDouble then (if b.addr = 0 then .ok none else f.encode b.val)
      else if b.typ = tByte ∨ b.typ = tPointer then .ok (some b.bytes)
      else .ok none
  decode v :=
    match intType v.typ with
    | some t => Elen.decodeMem neg pos t v.bytes >>= fun m => .ok (some m)
    | none =>
      if v.typ = tFloat ∨ v.typ = tDouble then f.decode v
      else if v.typ = tByte ∨ v.typ = tPointer then .ok (some v.bytes)
      else .ok none
  neg := neg

/-! ## Keys and values -/

/-- `append_type` (src/datastore/datastore.cpp:421-432). -/
def appendType (o : Bytes) (t : Nat) : Bytes := o ++ leBytes 4 t

/-- `remove_type` (src/datastore/datastore.cpp:434-442): checks nothing. -/
def removeType (v : Bytes) : Out (Bytes × Nat) :=
  if v.length < 4 then .ub else .ok (v.take (v.length - 4), leVal (v.drop (v.length - 4)))

/-- Encode subject and predicate and build the key; `none` when an encoding fails. -/
def encodeKey (cb : Callbacks) (s p : Blob) : Out (Option Bytes) :=
  cb.encode s >>= fun es =>
  match es with
  | none => .ok none
  | some es =>
    cb.encode p >>= fun ep =>
    match ep with
    | none => .ok none
    | some ep => .ok (some (Key.spToKey ⟨es, s.typ⟩ ⟨ep, p.typ⟩))

/-- Encode a triple (src/datastore/InMemory.cpp:64-74, src/datastore/LevelDB.cpp:91-101). The three
encodings are tried in order until one fails. -/
def encodeTriple (cb : Callbacks) (s p o : Blob) : Out (Option (Bytes × Bytes)) :=
  encodeKey cb s p >>= fun k =>
  match k with
  | none => .ok none
  | some k =>
    cb.encode o >>= fun eo =>
    match eo with
    | none => .ok none
    | some eo => .ok (some (k, appendType eo o.typ))

/-- The client's subject and predicate as put into a response
(src/datastore/InMemory.cpp:89-91). -/
def echo (orig : Nat) (b : Blob) : Ref := ⟨orig, b.bytes.length, b.typ⟩

/-! ## PUT -/

def putReply (x : PutItem) (status : Int) : StatusItem := ⟨status, echo x.origS x.subject, echo x.origP x.predicate⟩

/-- `InMemory::BPutImpl` (src/datastore/InMemory.cpp:48-99). -/
def memPut (cb : Callbacks) : Db → List PutItem → Out (Db × List StatusItem)
  | db, [] => .ok (db, [])
  | db, x :: l =>
    encodeTriple cb x.subject x.predicate x.object >>= fun kv =>
    match kv with
    | some kv => memPut cb (put kv.1 kv.2 db) l >>= fun r => .ok (r.1, putReply x dsSuccess :: r.2)
    | none => memPut cb db l >>= fun r => .ok (r.1, putReply x dsError :: r.2)

/-- The batch `LevelDB::BPutImpl` collects (src/datastore/LevelDB.cpp:79-119). The status set per
item here is overwritten afterwards. -/
def levelBatch (cb : Callbacks) : List PutItem → Out (List (Bytes × Bytes))
  | [] => .ok []
  | x :: l =>
    encodeTriple cb x.subject x.predicate x.object >>= fun kv =>
    levelBatch cb l >>= fun b =>
    match kv with
    | some kv => .ok (kv :: b)
    | none => .ok b

/-- `LevelDB::BPutImpl` (src/datastore/LevelDB.cpp:70-135); `wr` is the success of `Write`. -/
def levelPut (cb : Callbacks) (wr : Bool) (db : Db) (l : List PutItem) : Out (Db × List StatusItem) :=
  levelBatch cb l >>= fun b =>
  .ok (if wr then b.foldl (fun db kv => put kv.1 kv.2 db) db else db,
    l.map (fun x => putReply x (if wr then dsSuccess else dsError)))

/-! ## GET -/

/-- One item of `BGetImpl` (src/datastore/InMemory.cpp:117-164,
src/datastore/LevelDB.cpp:155-210). `find` stands for `std::map::find` and `leveldb::DB::Get`. -/
def getItem (cb : Callbacks) (heap : Nat) (db : Db) (x : GetItem) : Out GetRes :=
  let reply (status : Int) (o : Blob) : GetRes := ⟨status, echo x.origS x.subject, echo x.origP x.predicate, o⟩
  encodeKey cb x.subject x.predicate >>= fun k =>
  match k with
  | none => .ok (reply dsError ⟨0, [], x.objType⟩)
  | some k =>
    match find db k with
    | none => .ok (reply dsError ⟨0, [], x.objType⟩)
    | some v =>
      removeType v >>= fun ot =>
      cb.decode ⟨ot.1, ot.2⟩ >>= fun o =>
      match o with
      | none => .ok (reply dsError ⟨0, [], ot.2⟩)
      | some o => .ok (reply dsSuccess ⟨copyAddr heap o.length, o, ot.2⟩)

/-- `BGetImpl` (src/datastore/InMemory.cpp:108-171, src/datastore/LevelDB.cpp:144-217). -/
def getAll (cb : Callbacks) (heap : Nat) (db : Db) : List GetItem → Out (List GetRes)
  | [] => .ok []
  | x :: l => getItem cb heap db x >>= fun r => getAll cb heap db l >>= fun rs => .ok (r :: rs)

/-! ## GETOP -/

/-- The part of a `Response::BGetOp` being filled for one operation: `statuses[i]` and the
`num_recs[i]` records written so far. -/
structure G where
  status : Int
  recs : List Rec

/-- `BGetOp_copy_response` (include/datastore/datastore.tpp:10-68) writing to index `j` of arrays
of `n` records. -/
def copyResponse (cb : Callbacks) (heap n : Nat) (g : G) (j : Nat) (kv : Bytes × Bytes) : Out G :=
  if g.status ≠ dsUnset then .ok g
  else
    Key.keyToSp kv.1 >>= fun sp =>
    removeType kv.2 >>= fun ot =>
    cb.decode sp.1 >>= fun s =>
    match s with
    | none => .ok { g with status := dsError }
    | some s =>
      cb.decode sp.2 >>= fun p =>
      match p with
      | none => .ok { g with status := dsError }
      | some p =>
        cb.decode ⟨ot.1, ot.2⟩ >>= fun o =>
        match o with
        | none => .ok { g with status := dsError }
        | some o =>
          if n ≤ j then .ub
          else .ok { g with recs := g.recs.take j ++
            [⟨⟨copyAddr heap s.length, s, sp.1.typ⟩, ⟨copyAddr heap p.length, p, sp.2.typ⟩,
              ⟨copyAddr heap o.length, o, ot.2⟩⟩] }

/-- `BGetOp_loop_init` (src/datastore/datastore.cpp:444-491): status, the first
`subject_len + predicate_len` bytes of the key, and `predicate_len`. A predicate that cannot be
encoded counts as empty. -/
def loopInit (cb : Callbacks) (x : GetOpItem) : Out (Int × Bytes × Nat) :=
  if hasKey x.op then
    cb.encode x.subject >>= fun es =>
    cb.encode x.predicate >>= fun ep =>
    match es with
    | none => .ok (dsError, [], (ep.getD []).length)
    | some es => .ok (dsUnset, es ++ ep.getD [], (ep.getD []).length)
  else .ok (dsUnset, [], 0)

/-- Numeric `hxhim_data_t`s. -/
def isNumeric (t : Nat) : Bool := t == tInt32 || t == tInt64 || t == tUint32 || t == tUint64 || t == tFloat || t == tDouble

/-- `BGetOp_get_seek` (src/datastore/datastore.cpp:493-517). -/
def getSeek (cb : Callbacks) (pre : Bytes) (predLen predType : Nat) : Bytes :=
  if predLen = 0 ∧ isNumeric predType then pre ++ [cb.neg, 0] else pre ++ [0]

/-- `BGetOp_error_response` (src/datastore/datastore.cpp:519-529) and the end of the loop body
(src/datastore/InMemory.cpp:337-343). -/
def finish (x : GetOpItem) (g : G) : Out GetOpRes :=
  if g.status = dsUnset then .ok ⟨dsSuccess, g.recs⟩
  else if x.numRecs ≤ g.recs.length then .ub
  else .ok ⟨g.status, g.recs ++ [⟨x.subject, x.predicate, Blob.null⟩]⟩

/-- `for(j = 0; (j < n) && (it != end) && cond; j++) { copy(j); it++; }`, `r = n - j` iterations
left. -/
def forward (visit : G → Nat → Bytes × Bytes → Out G) (cond : Bytes → Out Bool) (db : Db) :
    Nat → Nat → Nat → G → Out G
  | 0, _, _, g => .ok g
  | r + 1, j, it, g =>
    match db[it]? with
    | none => .ok g
    | some kv =>
      cond kv.1 >>= fun c =>
      if c then visit g j kv >>= fun g => forward visit cond db r (j + 1) (it + 1) g else .ok g

/-- The backward loop of `InMemory` PREV and LAST (src/datastore/InMemory.cpp:231-237):
`for(j = 0; j < n; j++) { copy(j); if (it == begin) break; it--; }`. Dereferencing `end()` is
undefined. -/
def memBackward (visit : G → Nat → Bytes × Bytes → Out G) (db : Db) : Nat → Nat → Nat → G → Out G
  | 0, _, _, g => .ok g
  | r + 1, j, it, g =>
    match db[it]? with
    | none => .ub
    | some kv =>
      visit g j kv >>= fun g => if it = 0 then .ok g else memBackward visit db r (j + 1) (it - 1) g

/-- The loop of `InMemory` HIGHEST (src/datastore/InMemory.cpp:312-319): it stops at
`rend().base()`, which is `begin()`. -/
def memHighest (visit : G → Nat → Bytes × Bytes → Out G) (cond : Bytes → Out Bool) (db : Db) :
    Nat → Nat → Nat → G → Out G
  | 0, _, _, g => .ok g
  | r + 1, j, it, g =>
    if it = 0 then .ok g
    else
      match db[it]? with
      | none => .ub
      | some kv =>
        cond kv.1 >>= fun c =>
        if c then visit g j kv >>= fun g => memHighest visit cond db r (j + 1) (it - 1) g else .ok g

/-- The backward loop over a LevelDB iterator:
`for(j = 0; (j < n) && it->Valid() && cond; j++) { copy(j); it->Prev(); }`. -/
def levelBackward (visit : G → Nat → Bytes × Bytes → Out G) (cond : Bytes → Out Bool) (db : Db) :
    Nat → Nat → Option Nat → G → Out G
  | 0, _, _, g => .ok g
  | r + 1, j, it, g =>
    match it.bind (fun i => db[i]?.map (fun kv => (i, kv))) with
    | none => .ok g
    | some (i, kv) =>
      cond kv.1 >>= fun c =>
      if c then
        visit g j kv >>= fun g =>
        levelBackward visit cond db r (j + 1) (if i = 0 then none else some (i - 1)) g
      else .ok g

/-- `memcmp(key.data(), it->first.data(), prefix_len) == 0`: undefined when the stored key is
shorter than the prefix. -/
def memcmpPrefix (pre key : Bytes) : Out Bool :=
  if key.length < pre.length then .ub else .ok (decide (key.take pre.length = pre))

/-- `leveldb::Slice::starts_with`. -/
def startsWith (pre key : Bytes) : Out Bool := .ok (pre.isPrefixOf key)

/-- No further condition. -/
def always (_ : Bytes) : Out Bool := .ok true

/-- The operations of `InMemory::BGetOpImpl` (src/datastore/InMemory.cpp:199-327) after a
successful `BGetOp_loop_init`. -/
def memOp (cb : Callbacks) (heap : Nat) (db : Db) (x : GetOpItem) (pre : Bytes) (predLen : Nat) : Out G :=
  let n := x.numRecs
  let visit := copyResponse cb heap n
  let g : G := ⟨dsUnset, []⟩
  let error : G := ⟨dsError, []⟩
  if x.op = goEq then
    match db[lowerBound db pre]? with
    | some kv => visit g 0 kv
    | none => .ok error
  else if x.op = goNext then
    let it := lowerBound db pre
    if it < db.length then forward visit always db n 0 it g else .ok error
  else if x.op = goPrev then
    let it := lowerBound db pre
    if it < db.length then memBackward visit db n 0 it g else .ok error
  else if x.op = goFirst then
    if 0 < db.length then forward visit always db n 0 0 g else .ok error
  else if x.op = goLast then
    -- `it = db.end(); it--;`
    if db.length = 0 then .ub else memBackward visit db n 0 (db.length - 1) g
  else if x.op = goLowest then
    let it := lowerBound db (getSeek cb pre predLen x.predicate.typ)
    if it < db.length then forward visit (memcmpPrefix pre) db n 0 it g else .ok error
  else if x.op = goHighest then
    let it := upperBound db (getSeek cb pre predLen x.predicate.typ)
    if it < db.length then
      -- `it--`
      if it = 0 then .ub else memHighest visit (memcmpPrefix pre) db n 0 (it - 1) g
    else .ok error  -- `rbegin().base()` is `end()`
  else .ok error

/-- The operations of `LevelDB::BGetOpImpl` (src/datastore/LevelDB.cpp:246-370). -/
def levelOp (cb : Callbacks) (heap : Nat) (db : Db) (x : GetOpItem) (pre : Bytes) (predLen : Nat) : Out G :=
  let n := x.numRecs
  let visit := copyResponse cb heap n
  let g : G := ⟨dsUnset, []⟩
  let error : G := ⟨dsError, []⟩
  if x.op = goEq then
    match db[lowerBound db pre]? with
    | some kv => visit g 0 kv
    | none => .ok error
  else if x.op = goNext then
    let it := lowerBound db pre
    if it < db.length then forward visit always db n 0 it g else .ok error
  else if x.op = goPrev then
    let it := lowerBound db pre
    if it < db.length then levelBackward visit always db n 0 (some it) g else .ok error
  else if x.op = goFirst then
    if 0 < db.length then forward visit always db n 0 0 g else .ok error
  else if x.op = goLast then
    if 0 < db.length then levelBackward visit always db n 0 (some (db.length - 1)) g else .ok error
  else if x.op = goLowest then
    let it := lowerBound db (getSeek cb pre predLen x.predicate.typ)
    if it < db.length then forward visit (startsWith pre) db n 0 it g else .ok error
  else if x.op = goHighest then
    let it := lowerBound db (getSeek cb pre predLen x.predicate.typ)
    -- `Seek`, then `Prev` or `SeekToLast`
    if it < db.length then
      if it = 0 then .ok error else levelBackward visit (startsWith pre) db n 0 (some (it - 1)) g
    else if 0 < db.length then levelBackward visit (startsWith pre) db n 0 (some (db.length - 1)) g
    else .ok error
  else .ok error

/-- Which implementation of a datastore. -/
inductive Backend where
  | mem
  | level
  deriving Repr, DecidableEq

/-- One item of `BGetOpImpl` (src/datastore/InMemory.cpp:183-350,
src/datastore/LevelDB.cpp:230-392). -/
def getOpItem (b : Backend) (cb : Callbacks) (heap : Nat) (db : Db) (x : GetOpItem) : Out GetOpRes :=
  loopInit cb x >>= fun i =>
  (if i.1 = dsUnset then
    match b with
    | .mem => memOp cb heap db x i.2.1 i.2.2
    | .level => levelOp cb heap db x i.2.1 i.2.2
  else .ok ⟨i.1, []⟩) >>= finish x

/-- `BGetOpImpl`. -/
def getOpAll (b : Backend) (cb : Callbacks) (heap : Nat) (db : Db) : List GetOpItem → Out (List GetOpRes)
  | [] => .ok []
  | x :: l => getOpItem b cb heap db x >>= fun r => getOpAll b cb heap db l >>= fun rs => .ok (r :: rs)

/-! ## DELETE -/

def delReply (x : DelItem) (status : Int) : StatusItem := ⟨status, echo x.origS x.subject, echo x.origP x.predicate⟩

/-- `InMemory::BDeleteImpl` (src/datastore/InMemory.cpp:362-414). -/
def memDel (cb : Callbacks) : Db → List DelItem → Out (Db × List StatusItem)
  | db, [] => .ok (db, [])
  | db, x :: l =>
    encodeKey cb x.subject x.predicate >>= fun k =>
    match k with
    | none => memDel cb db l >>= fun r => .ok (r.1, delReply x dsError :: r.2)
    | some k =>
      if (find db k).isSome then
        memDel cb (erase k db) l >>= fun r => .ok (r.1, delReply x dsSuccess :: r.2)
      else memDel cb db l >>= fun r => .ok (r.1, delReply x dsError :: r.2)

/-- Keys of the batch of `LevelDB::BDeleteImpl` (src/datastore/LevelDB.cpp:413-440). -/
def levelDelBatch (cb : Callbacks) : List DelItem → Out (List Bytes)
  | [] => .ok []
  | x :: l =>
    encodeKey cb x.subject x.predicate >>= fun k =>
    levelDelBatch cb l >>= fun b =>
    match k with
    | some k => .ok (k :: b)
    | none => .ok b

/-- `LevelDB::BDeleteImpl` (src/datastore/LevelDB.cpp:406-455). -/
def levelDel (cb : Callbacks) (wr : Bool) (db : Db) (l : List DelItem) : Out (Db × List StatusItem) :=
  levelDelBatch cb l >>= fun b =>
  .ok (if wr then b.foldl (fun db k => erase k db) db else db,
    l.map (fun x => delReply x (if wr then dsSuccess else dsError)))

/-! ## The datastore object -/

/-- Widening of a `float` to a `double`, on bit patterns. -/
def floatToDouble (x : Nat) : Dbl :=
  let sign := x / 2 ^ 31 * 2 ^ 63
  let e := x / 2 ^ 23 % 2 ^ 8
  let m := x % 2 ^ 23
  UInt64.ofNat (sign +
    (if e = 255 then 2047 * 2 ^ 52 + (if m = 0 then 0 else m * 2 ^ 29 ||| 2 ^ 51)
    else if e = 0 then
      (if m = 0 then 0 else
        let k := Nat.log2 m
        (k + 874) * 2 ^ 52 + (m - 2 ^ k) * 2 ^ (52 - k))
    else (e + 896) * 2 ^ 52 + m * 2 ^ 29))

/-- `Datastore` (include/datastore/datastore.hpp) with its database. The three statistics are the
lengths of the event lists. Histograms are held by value; `BHistogram` responses really share
them. -/
structure DS where
  backend : Backend
  db : Db
  usable : Bool
  hists : Map Hist
  puts : Nat
  gets : Nat
  deletes : Nat

/-- The histogram part of `operate(BPut)` for one item
(src/datastore/datastore.cpp:126-150). -/
def histHook (hs : Map Hist) (x : PutItem) (status : Int) : Out (Map Hist) :=
  if status = dsSuccess ∧ x.predicate.typ = tByte then
    match find hs x.predicate.bytes with
    | none => .ok hs
    | some h =>
      if x.object.typ = tFloat then
        if x.object.bytes.length < 4 then .ub
        else h.add (floatToDouble (leVal (x.object.bytes.take 4))) >>= fun h =>
          .ok (put x.predicate.bytes h.1 hs)
      else if x.object.typ = tDouble then
        if x.object.bytes.length < 8 then .ub
        else h.add (UInt64.ofNat (leVal (x.object.bytes.take 8))) >>= fun h =>
          .ok (put x.predicate.bytes h.1 hs)
      else .ok hs
  else .ok hs

/-- The loop of `operate(BPut)` (src/datastore/datastore.cpp:125-153); skipped by the code when
there are no histograms, where it does nothing. -/
def histHooks : Map Hist → List (PutItem × StatusItem) → Out (Map Hist)
  | hs, [] => .ok hs
  | hs, x :: l => histHook hs x.1 x.2.status >>= fun hs => histHooks hs l

/-- `operate(BHistogram)` for one name (src/datastore/datastore.cpp:186-202). -/
def histItem (hs : Map Hist) (name : Blob) : HistRes :=
  match find hs name.bytes with
  | some h => ⟨dsSuccess, some h⟩
  | none => ⟨dsError, none⟩

/-- The `operate` functions (src/datastore/datastore.cpp:117-208): `none` is the null pointer
returned when the datastore is not usable. -/
def DS.operate (cb : Callbacks) (heap : Nat) (wr : Bool) (d : DS) (req : ReqBody) : Out (DS × Option ResBody) :=
  match req with
  | .put l =>
    if d.usable then
      (match d.backend with
        | .mem => memPut cb d.db l
        | .level => levelPut cb wr d.db l) >>= fun r =>
      histHooks d.hists (l.zip r.2) >>= fun hs =>
      .ok ({ d with db := r.1, hists := hs, puts := d.puts + 1 }, some (.put r.2))
    else .ok (d, none)
  | .get l =>
    if d.usable then
      getAll cb heap d.db l >>= fun r => .ok ({ d with gets := d.gets + 1 }, some (.get r))
    else .ok (d, none)
  | .getop l =>
    if d.usable then
      getOpAll d.backend cb heap d.db l >>= fun r =>
      .ok ({ d with gets := d.gets + l.length }, some (.getop r))
    else .ok (d, none)
  | .del l =>
    if d.usable then
      (match d.backend with
        | .mem => memDel cb d.db l
        | .level => levelDel cb wr d.db l) >>= fun r =>
      .ok ({ d with db := r.1, deletes := d.deletes + 1 }, some (.del r.2))
    else .ok (d, none)
  | .hist l => .ok ({ d with gets := d.gets + 1 }, some (.hist (l.map (histItem d.hists))))

/-- A datastore processing packets one after the other. The flag of each packet is the success of
LevelDB's `Write`. -/
def DS.run (cb : Callbacks) (heap : Nat) : DS → List (Bool × ReqBody) → Out DS
  | d, [] => .ok d
  | d, x :: l => d.operate cb heap x.1 x.2 >>= fun r => DS.run cb heap r.1 l

/-- `Transport::local::range_server` (include/transport/backend/local/RangeServer.hpp:32-84):
the datastore is chosen by the destination id modulo the number of datastores per server; the
datastore's entries are moved into a fresh response. An unusable datastore gives an empty
response. -/
def emptyLike : ReqBody → ResBody
  | .put _ => .put [] | .get _ => .get [] | .getop _ => .getop [] | .del _ => .del [] | .hist _ => .hist []

def rangeServer (cb : Callbacks) (heap : Nat) (wr : Bool) (ds : List DS) (req : Req) : Out (List DS × Res) :=
  if ds.length = 0 then .ub
  else
    let i := (req.dst % (ds.length : Int)).toNat
    match ds[i]? with
    | none => .ub
    | some d =>
      d.operate cb heap wr req.body >>= fun r =>
      .ok (ds.set i r.1, ⟨req.dst, req.src, r.2.getD (emptyLike req.body)⟩)

end Hx.Store

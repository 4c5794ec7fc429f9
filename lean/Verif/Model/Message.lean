import Verif.Base.Wire
import Verif.Model.Key
import Verif.Model.Histogram

/-!
# Messages and their wire form: `src/message/*.cpp`, `src/utils/Blob.cpp`

* A blob is an address, the bytes at that address and a type. Address 0 is the null pointer.
* Blobs made by copying get the address `copyAddr heap len`: null for no bytes (`alloc(0)` returns
  null, include/utils/memory.hpp), otherwise some nonzero address `heap`. All copies get the same
  address, since only null or not null matters.
* Enumerations (`hxhim_op_t`, `hxhim_getop_t`, `hxhim_data_t`, `Direction`) are 4 byte unsigned
  integers, pointers and `size_t` 8 bytes, little endian.
* Timestamps are not sent and not modelled.
-/

namespace Hx

/-- `Blob` (include/utils/Blob.hpp:94-99) without the ownership flag. -/
structure Blob where
  addr : Nat
  bytes : Bytes
  typ : Nat
  deriving Repr, DecidableEq

/-- A `Blob` of which only pointer, length and type are used: the client's subject or predicate
as a response carries it. -/
structure Ref where
  addr : Nat
  len : Nat
  typ : Nat
  deriving Repr, DecidableEq

/-- The default constructed blob (include/utils/Blob.hpp:28-30). -/
def Blob.null : Blob := ⟨0, [], 0⟩

/-- The typed bytes of a blob. -/
def Blob.val (b : Blob) : Val := ⟨b.bytes, b.typ⟩

namespace Msg

/-- Address of an `n` byte allocation. -/
def copyAddr (heap n : Nat) : Nat := if n = 0 then 0 else heap

/-- `Blob::pack` (src/utils/Blob.cpp:114-131): a null blob writes nothing at all. -/
def packBlob (b : Blob) (withType : Bool) : Bytes :=
  if b.addr = 0 then []
  else leBytes 8 b.bytes.length ++ b.bytes ++ (if withType then leBytes 4 b.typ else [])

/-- `Blob::pack_size` (src/utils/Blob.cpp:133-139). -/
def blobSize (b : Blob) (withType : Bool) : Nat := b.bytes.length + 8 + (if withType then 4 else 0)

/-- `Blob::unpack` with `copy = true` into a default constructed blob
(src/utils/Blob.cpp:143-166). -/
def rdBlob (heap : Nat) (withType : Bool) (src : Bytes) : Out (Blob × Bytes) :=
  rdNat 8 src >>= fun len =>
  rd len.1 len.2 >>= fun data =>
  if withType then
    rdNat 4 data.2 >>= fun t => .ok (⟨copyAddr heap len.1, data.1, t.1⟩, t.2)
  else .ok (⟨copyAddr heap len.1, data.1, 0⟩, data.2)

/-- `Blob::pack_ref` with the type (src/utils/Blob.cpp:169-186). -/
def packRef (r : Ref) : Bytes := leBytes 8 r.addr ++ leBytes 8 r.len ++ leBytes 4 r.typ

/-- `Blob::pack_ref_size(true)` (src/utils/Blob.cpp:188-190). -/
def refSize : Nat := 8 + 8 + 4

/-- `Blob::unpack_ref` with the type (src/utils/Blob.cpp:192-211). -/
def rdRef (src : Bytes) : Out (Ref × Bytes) :=
  rdNat 8 src >>= fun a => rdNat 8 a.2 >>= fun l => rdNat 4 l.2 >>= fun t => .ok (⟨a.1, l.1, t.1⟩, t.2)

/-! ## Requests -/

/-- One operation of a `Request::BPut` (include/message/BPut.hpp). `origS`, `origP` are
`orig.subjects[i]`, `orig.predicates[i]`. -/
structure PutItem where
  subject : Blob
  origS : Nat
  predicate : Blob
  origP : Nat
  object : Blob
  deriving Repr, DecidableEq

/-- One operation of a `Request::BGet` (include/message/BGet.hpp). -/
structure GetItem where
  subject : Blob
  origS : Nat
  predicate : Blob
  origP : Nat
  objType : Nat
  deriving Repr, DecidableEq

/-- One operation of a `Request::BGetOp` (include/message/BGetOp.hpp:9-24). -/
structure GetOpItem where
  op : Nat
  subject : Blob
  predicate : Blob
  objType : Nat
  numRecs : Nat
  deriving Repr, DecidableEq

/-- One operation of a `Request::BDelete` (include/message/BDelete.hpp). -/
structure DelItem where
  subject : Blob
  origS : Nat
  predicate : Blob
  origP : Nat
  deriving Repr, DecidableEq

/-- The operations of a request, by kind. -/
inductive ReqBody where
  | put (l : List PutItem)
  | get (l : List GetItem)
  | getop (l : List GetOpItem)
  | del (l : List DelItem)
  | hist (l : List Blob)
  deriving Repr, DecidableEq

/-- A request (include/message/Request.hpp, include/message/Message.hpp:24-52). -/
structure Req where
  src : Int
  dst : Int
  body : ReqBody
  deriving Repr, DecidableEq

/-- `hxhim_op_t` (include/hxhim/constants.h): PUT, GET, GETOP, DELETE, SYNC, HISTOGRAM. -/
def opPut : Nat := 0
def opGet : Nat := 1
def opGetOp : Nat := 2
def opDelete : Nat := 3
def opHistogram : Nat := 5

/-- `Direction` (include/message/Message.hpp:16-20). -/
def dirRequest : Nat := 1
def dirResponse : Nat := 2

/-- `hxhim_getop_t` (include/hxhim/constants.h): EQ, NEXT, PREV, FIRST, LAST, LOWEST, HIGHEST. -/
def goEq : Nat := 0
def goNext : Nat := 1
def goPrev : Nat := 2
def goFirst : Nat := 3
def goLast : Nat := 4
def goLowest : Nat := 5
def goHighest : Nat := 6

/-- FIRST and LAST requests carry no subject and predicate. -/
def hasKey (op : Nat) : Bool := op != goFirst && op != goLast

def ReqBody.op : ReqBody → Nat
  | .put _ => opPut | .get _ => opGet | .getop _ => opGetOp | .del _ => opDelete | .hist _ => opHistogram

/-- Number of operations (`count`). -/
def ReqBody.count : ReqBody → Nat
  | .put l => l.length | .get l => l.length | .getop l => l.length | .del l => l.length
  | .hist l => l.length

/-- `Request::BPut::add` (src/message/BPut.cpp:25-29, src/message/SubjectPredicate.cpp:22-30):
an operation as the client builds it, with its contribution to the message size. -/
def PutItem.make (s p o : Blob) : PutItem := ⟨s, s.addr, p, p.addr, o⟩
def PutItem.size (x : PutItem) : Nat :=
  blobSize x.object true + (blobSize x.subject true + 8 + (blobSize x.predicate true + 8))

/-- `Request::BGet::add` (src/message/BGet.cpp:25-29). -/
def GetItem.make (s p : Blob) (t : Nat) : GetItem := ⟨s, s.addr, p, p.addr, t⟩
def GetItem.size (x : GetItem) : Nat :=
  4 + (blobSize x.subject true + 8 + (blobSize x.predicate true + 8))

/-- `Request::BGetOp::add` (src/message/BGetOp.cpp:29-52). -/
def GetOpItem.size (x : GetOpItem) : Nat :=
  (if hasKey x.op then blobSize x.subject true + blobSize x.predicate true else 0) + (4 + 8 + 4)

/-- `Request::BDelete::add` (src/message/BDelete.cpp:21-23). -/
def DelItem.make (s p : Blob) : DelItem := ⟨s, s.addr, p, p.addr⟩
def DelItem.size (x : DelItem) : Nat :=
  blobSize x.subject true + 8 + (blobSize x.predicate true + 8)

/-- `Request::BHistogram::add` (src/message/BHistogram.cpp:23-26). -/
def histNameSize (b : Blob) : Nat := blobSize b false

/-- Size of the header (src/message/Message.cpp:10-12). -/
def headerSize : Nat := 4 + 4 + 4 + 4 + 8

def ReqBody.size : ReqBody → Nat
  | .put l => (l.map PutItem.size).sum
  | .get l => (l.map GetItem.size).sum
  | .getop l => (l.map GetOpItem.size).sum
  | .del l => (l.map DelItem.size).sum
  | .hist l => (l.map histNameSize).sum

/-- `Message::size()` (src/message/Message.cpp:27-29): also the size of the buffer that is
allocated and sent (src/message/Packer.cpp:329-336). -/
def Req.size (r : Req) : Nat := headerSize + r.body.size

/-- The five header fields (src/message/Packer.cpp:338-354). -/
def packHeader (dir op : Nat) (src dst : Int) (count : Nat) : Bytes :=
  leBytes 4 dir ++ leBytes 4 op ++ intBytes src ++ intBytes dst ++ leBytes 8 count

/-- `Packer::pack(const Request::BPut *)` (src/message/Packer.cpp:58-73), one operation. -/
def PutItem.pack (x : PutItem) : Bytes :=
  packBlob x.subject true ++ leBytes 8 x.subject.addr ++ packBlob x.predicate true
    ++ leBytes 8 x.predicate.addr ++ packBlob x.object true

/-- `Packer::pack(const Request::BGet *)` (src/message/Packer.cpp:84-100). -/
def GetItem.pack (x : GetItem) : Bytes :=
  packBlob x.subject true ++ leBytes 8 x.subject.addr ++ packBlob x.predicate true
    ++ leBytes 8 x.predicate.addr ++ leBytes 4 x.objType

/-- `Packer::pack(const Request::BGetOp *)` (src/message/Packer.cpp:111-132). -/
def GetOpItem.pack (x : GetOpItem) : Bytes :=
  leBytes 4 x.op ++ (if hasKey x.op then packBlob x.subject true ++ packBlob x.predicate true else [])
    ++ leBytes 4 x.objType ++ leBytes 8 x.numRecs

/-- `Packer::pack(const Request::BDelete *)` (src/message/Packer.cpp:143-155). -/
def DelItem.pack (x : DelItem) : Bytes :=
  packBlob x.subject true ++ leBytes 8 x.subject.addr ++ packBlob x.predicate true
    ++ leBytes 8 x.predicate.addr

def ReqBody.pack : ReqBody → Bytes
  | .put l => l.flatMap PutItem.pack
  | .get l => l.flatMap GetItem.pack
  | .getop l => l.flatMap GetOpItem.pack
  | .del l => l.flatMap DelItem.pack
  | .hist l => l.flatMap (packBlob · false)

/-- The bytes `Packer::pack(const Request *)` writes (src/message/Packer.cpp:19-172). -/
def Req.pack (r : Req) : Bytes :=
  packHeader dirRequest r.body.op r.src r.dst r.body.count ++ r.body.pack

/-- `Unpacker::unpack(Request::BPut **)` (src/message/Unpacker.cpp:99-116), one operation. -/
def rdPut (heap : Nat) (src : Bytes) : Out (PutItem × Bytes) :=
  rdBlob heap true src >>= fun s => rdNat 8 s.2 >>= fun sa =>
  rdBlob heap true sa.2 >>= fun p => rdNat 8 p.2 >>= fun pa =>
  rdBlob heap true pa.2 >>= fun o => .ok (⟨s.1, sa.1, p.1, pa.1, o.1⟩, o.2)

/-- `Unpacker::unpack(Request::BGet **)` (src/message/Unpacker.cpp:130-148). -/
def rdGet (heap : Nat) (src : Bytes) : Out (GetItem × Bytes) :=
  rdBlob heap true src >>= fun s => rdNat 8 s.2 >>= fun sa =>
  rdBlob heap true sa.2 >>= fun p => rdNat 8 p.2 >>= fun pa =>
  rdNat 4 pa.2 >>= fun t => .ok (⟨s.1, sa.1, p.1, pa.1, t.1⟩, t.2)

/-- `Unpacker::unpack(Request::BGetOp **)` (src/message/Unpacker.cpp:162-185). -/
def rdGetOp (heap : Nat) (src : Bytes) : Out (GetOpItem × Bytes) :=
  rdNat 4 src >>= fun op =>
  (if hasKey op.1 then
    rdBlob heap true op.2 >>= fun s => rdBlob heap true s.2 >>= fun p => .ok ((s.1, p.1), p.2)
  else .ok ((Blob.null, Blob.null), op.2)) >>= fun sp =>
  rdNat 4 sp.2 >>= fun t => rdNat 8 t.2 >>= fun n =>
  .ok (⟨op.1, sp.1.1, sp.1.2, t.1, n.1⟩, n.2)

/-- `Unpacker::unpack(Request::BDelete **)` (src/message/Unpacker.cpp:199-213). -/
def rdDel (heap : Nat) (src : Bytes) : Out (DelItem × Bytes) :=
  rdBlob heap true src >>= fun s => rdNat 8 s.2 >>= fun sa =>
  rdBlob heap true sa.2 >>= fun p => rdNat 8 p.2 >>= fun pa => .ok (⟨s.1, sa.1, p.1, pa.1⟩, pa.2)

/-- The header (src/message/Unpacker.cpp:472-498). -/
structure Header where
  dir : Nat
  op : Nat
  src : Int
  dst : Int
  count : Nat

def rdHeader (src : Bytes) : Out (Header × Bytes) :=
  rdNat 4 src >>= fun dir => rdNat 4 dir.2 >>= fun op => rdInt op.2 >>= fun s => rdInt s.2 >>= fun d =>
  rdNat 8 d.2 >>= fun c => .ok (⟨dir.1, op.1, s.1, d.1, c.1⟩, c.2)

/-- `Unpacker::unpack(Request **)` (src/message/Unpacker.cpp:21-89): the request and the unread
rest of the buffer. -/
def rdReq (heap : Nat) (buf : Bytes) : Out (Req × Bytes) :=
  rdHeader buf >>= fun h =>
  if h.1.dir ≠ dirRequest then .err
  else if h.1.op = opPut then
    rdMany (rdPut heap) h.1.count h.2 >>= fun l => .ok (⟨h.1.src, h.1.dst, .put l.1⟩, l.2)
  else if h.1.op = opGet then
    rdMany (rdGet heap) h.1.count h.2 >>= fun l => .ok (⟨h.1.src, h.1.dst, .get l.1⟩, l.2)
  else if h.1.op = opGetOp then
    rdMany (rdGetOp heap) h.1.count h.2 >>= fun l => .ok (⟨h.1.src, h.1.dst, .getop l.1⟩, l.2)
  else if h.1.op = opDelete then
    rdMany (rdDel heap) h.1.count h.2 >>= fun l => .ok (⟨h.1.src, h.1.dst, .del l.1⟩, l.2)
  else if h.1.op = opHistogram then
    rdMany (rdBlob heap false) h.1.count h.2 >>= fun l => .ok (⟨h.1.src, h.1.dst, .hist l.1⟩, l.2)
  else .err

/-! ## Responses -/

/-- `DATASTORE_SUCCESS`, `DATASTORE_ERROR`, `DATASTORE_UNSET` (include/datastore/constants.hpp). -/
def dsSuccess : Int := 1
def dsError : Int := 2
def dsUnset : Int := 3

/-- One entry of a `Response::BPut` or `Response::BDelete`
(include/message/SubjectPredicate.hpp). -/
structure StatusItem where
  status : Int
  subject : Ref
  predicate : Ref
  deriving Repr, DecidableEq

/-- One entry of a `Response::BGet` (include/message/BGet.hpp). -/
structure GetRes where
  status : Int
  subject : Ref
  predicate : Ref
  object : Blob
  deriving Repr, DecidableEq

/-- One record of a `Response::BGetOp`. -/
structure Rec where
  subject : Blob
  predicate : Blob
  object : Blob
  deriving Repr, DecidableEq

/-- One entry of a `Response::BGetOp` (include/message/BGetOp.hpp:30-58). -/
structure GetOpRes where
  status : Int
  recs : List Rec
  deriving Repr, DecidableEq

/-- One entry of a `Response::BHistogram`: a null `shared_ptr` is `none`. -/
structure HistRes where
  status : Int
  hist : Option Hist

inductive ResBody where
  | put (l : List StatusItem)
  | get (l : List GetRes)
  | getop (l : List GetOpRes)
  | del (l : List StatusItem)
  | hist (l : List HistRes)

/-- A response. -/
structure Res where
  src : Int
  dst : Int
  body : ResBody

def ResBody.op : ResBody → Nat
  | .put _ => opPut | .get _ => opGet | .getop _ => opGetOp | .del _ => opDelete | .hist _ => opHistogram

def ResBody.count : ResBody → Nat
  | .put l => l.length | .get l => l.length | .getop l => l.length | .del l => l.length
  | .hist l => l.length

/-- `Response::SubjectPredicate::add` (src/message/SubjectPredicate.cpp:80-87). -/
def statusSize : Nat := 4 + (refSize + refSize)

/-- `Response::BGet::add` (src/message/BGet.cpp:62-70). -/
def GetRes.size (x : GetRes) : Nat := (if x.status = dsSuccess then blobSize x.object true else 0) + statusSize

/-- Size of a record in `Response::BGetOp::add`: the object counts whatever the status. -/
def Rec.size (x : Rec) : Nat := blobSize x.subject true + blobSize x.predicate true + blobSize x.object true

/-- `Response::BGetOp::add` (src/message/BGetOp.cpp:99-119): the record count is counted twice. -/
def GetOpRes.size (x : GetOpRes) : Nat := 4 + (8 + (8 + (x.recs.map Rec.size).sum))

/-- `Response::BHistogram::add` (src/message/BHistogram.cpp:57-65). -/
def HistRes.size (x : HistRes) : Nat :=
  4 + (if x.status = dsSuccess then (x.hist.map Hist.packSize).getD 0 else 0)

def ResBody.size : ResBody → Nat
  | .put l => (l.map (fun _ => statusSize)).sum
  | .get l => (l.map GetRes.size).sum
  | .getop l => (l.map GetOpRes.size).sum
  | .del l => (l.map (fun _ => statusSize)).sum
  | .hist l => (l.map HistRes.size).sum

/-- Size of a response built entry by entry with `add` or `steal` (both end in `add`,
src/message/BPut.cpp:60-67, src/message/BGet.cpp:72-81, src/message/BGetOp.cpp:134-146,
src/message/BDelete.cpp:58-65, src/message/BHistogram.cpp:67-72). -/
def Res.size (r : Res) : Nat := headerSize + r.body.size

/-- src/message/Packer.cpp:213-222 and 290-299. -/
def StatusItem.pack (x : StatusItem) : Bytes := intBytes x.status ++ packRef x.subject ++ packRef x.predicate

/-- src/message/Packer.cpp:234-248. -/
def GetRes.pack (x : GetRes) : Bytes :=
  intBytes x.status ++ packRef x.subject ++ packRef x.predicate
    ++ (if x.status = dsSuccess then packBlob x.object true else [])

/-- src/message/Packer.cpp:267-278. -/
def Rec.pack (status : Int) (x : Rec) : Bytes :=
  packBlob x.subject true ++ packBlob x.predicate true
    ++ (if status = dsSuccess then packBlob x.object true else [])

/-- src/message/Packer.cpp:259-279. -/
def GetOpRes.pack (x : GetOpRes) : Bytes :=
  intBytes x.status ++ leBytes 8 x.recs.length ++ x.recs.flatMap (Rec.pack x.status)

/-- src/message/Packer.cpp:310-319. `avail` is the room the packer believes is left: it starts as
the whole buffer behind the header and is only reduced by the histograms, not by the statuses.
A successful entry without histogram would be a null dereference. -/
def packHists : List HistRes → Nat → Out Bytes
  | [], _ => .ok []
  | x :: l, avail =>
    if x.status = dsSuccess then
      match x.hist with
      | none => .ub
      | some h =>
        match h.packIn avail with
        | none => packHists l avail >>= fun b => .ok (intBytes x.status ++ b)
        | some (w, left) => packHists l left >>= fun b => .ok (intBytes x.status ++ w ++ b)
    else packHists l avail >>= fun b => .ok (intBytes x.status ++ b)

def ResBody.pack : ResBody → Out Bytes
  | .put l => .ok (l.flatMap StatusItem.pack)
  | .get l => .ok (l.flatMap GetRes.pack)
  | .getop l => .ok (l.flatMap GetOpRes.pack)
  | .del l => .ok (l.flatMap StatusItem.pack)
  | .hist l => packHists l (ResBody.hist l).size

/-- The bytes `Packer::pack(const Response *)` writes (src/message/Packer.cpp:174-322). -/
def Res.pack (r : Res) : Out Bytes :=
  r.body.pack >>= fun b => .ok (packHeader dirResponse r.body.op r.src r.dst r.body.count ++ b)

/-- src/message/Unpacker.cpp:316-327 and 412-423. -/
def rdStatus (src : Bytes) : Out (StatusItem × Bytes) :=
  rdInt src >>= fun st => rdRef st.2 >>= fun s => rdRef s.2 >>= fun p => .ok (⟨st.1, s.1, p.1⟩, p.2)

/-- src/message/Unpacker.cpp:341-358. -/
def rdGetRes (heap : Nat) (src : Bytes) : Out (GetRes × Bytes) :=
  rdInt src >>= fun st => rdRef st.2 >>= fun s => rdRef s.2 >>= fun p =>
  if st.1 = dsSuccess then rdBlob heap true p.2 >>= fun o => .ok (⟨st.1, s.1, p.1, o.1⟩, o.2)
  else .ok (⟨st.1, s.1, p.1, Blob.null⟩, p.2)

/-- src/message/Unpacker.cpp:384-395. -/
def rdRec (heap : Nat) (status : Int) (src : Bytes) : Out (Rec × Bytes) :=
  rdBlob heap true src >>= fun s => rdBlob heap true s.2 >>= fun p =>
  if status = dsSuccess then rdBlob heap true p.2 >>= fun o => .ok (⟨s.1, p.1, o.1⟩, o.2)
  else .ok (⟨s.1, p.1, Blob.null⟩, p.2)

/-- src/message/Unpacker.cpp:372-398. -/
def rdGetOpRes (heap : Nat) (src : Bytes) : Out (GetOpRes × Bytes) :=
  rdInt src >>= fun st => rdNat 8 st.2 >>= fun n =>
  rdMany (rdRec heap st.1) n.1 n.2 >>= fun l => .ok (⟨st.1, l.1⟩, l.2)

/-- src/message/Unpacker.cpp:437-448. `remaining` is the size of the buffer behind the header and
never reduced. The result of `unpack` is ignored; a fresh histogram stays as it was when `unpack`
refuses. -/
def rdHistRes (remaining : Nat) (src : Bytes) : Out (HistRes × Bytes) :=
  rdInt src >>= fun st =>
  if st.1 = dsSuccess then
    Hist.unpackIn (Hist.create 0 none []) remaining st.2 >>= fun h =>
    .ok (⟨st.1, some (h.1.getD (Hist.create 0 none []))⟩, h.2)
  else .ok (⟨st.1, none⟩, st.2)

/-- `Unpacker::unpack(Response **)` (src/message/Unpacker.cpp:238-306). -/
def rdRes (heap : Nat) (buf : Bytes) : Out (Res × Bytes) :=
  rdHeader buf >>= fun h =>
  if h.1.dir ≠ dirResponse then .err
  else if h.1.op = opPut then
    rdMany rdStatus h.1.count h.2 >>= fun l => .ok (⟨h.1.src, h.1.dst, .put l.1⟩, l.2)
  else if h.1.op = opGet then
    rdMany (rdGetRes heap) h.1.count h.2 >>= fun l => .ok (⟨h.1.src, h.1.dst, .get l.1⟩, l.2)
  else if h.1.op = opGetOp then
    rdMany (rdGetOpRes heap) h.1.count h.2 >>= fun l => .ok (⟨h.1.src, h.1.dst, .getop l.1⟩, l.2)
  else if h.1.op = opDelete then
    rdMany rdStatus h.1.count h.2 >>= fun l => .ok (⟨h.1.src, h.1.dst, .del l.1⟩, l.2)
  else if h.1.op = opHistogram then
    rdMany (rdHistRes (buf.length - headerSize)) h.1.count h.2 >>= fun l =>
      .ok (⟨h.1.src, h.1.dst, .hist l.1⟩, l.2)
  else .err

end Msg
end Hx

import Verif.Model.Blob

/-!
# What the library does with blobs

Programs of `Model/Blob.lean`: from the first operation queued to the
destruction of the results, with all that clients, transports and range
servers do with blobs and buffers in between.

The blobs belonging to one operation of a message are numbered by their *role*
(0, 1, …).  A *place* is an operation, or a record of one, or the message
itself; place `q` keeps the blob of role `r` in variable `v q r`.  A program is
a list of steps, each a place and operations on the roles of that place.

Simplifications:

* Elements of arrays are default-constructed by `alloc_array`
  (`include/utils/memory.hpp:28-40`) and destroyed by `dealloc_array` (42-51),
  each array in a loop of its own; here the arrays of a message are made, and
  destroyed, operation by operation.  Elements beyond `count`, which never hold
  anything, are left out.
* A raw pointer (`void *`) that is to be freed is written as a blob that owns
  what it points to.  `dealloc(p)` is `dealloc` of that blob after it was made
  to own what it points to, `RealBlob(p, …)`
  a move from it, `ReferenceBlob(p, …)` a copy of it, and the pointer goes out
  of scope by `forget`.
* A buffer that is allocated and given to `RealBlob` in the same breath is
  written as `makeCopy`: both allocate, and construct a blob that owns what was
  allocated (`real_eq_makeCopy`).
* The memory of messages themselves, of results, and of arrays is left out:
  only the buffers of blobs and packets are in view.
-/

namespace Hx.Own

/-- The operation on other variables. -/
def Op.rename (f : Nat → Nat) : Op → Op
  | .make x p len typ clean => .make (f x) p len typ clean
  | .makeCopy x len typ => .makeCopy (f x) len typ
  | .copy x y => .copy (f x) (f y)
  | .move x y => .move (f x) (f y)
  | .destroy x => .destroy (f x)
  | .assign x y => .assign (f x) (f y)
  | .moveAssign x y => .moveAssign (f x) (f y)
  | .setType x typ => .setType (f x) typ
  | .setClean x b => .setClean (f x) b
  | .clear x => .clear (f x)
  | .dealloc x => .dealloc (f x)
  | .unpack x src len typ copied => .unpack (f x) src len typ copied
  | .unpackRef x p len typ => .unpackRef (f x) p len typ
  | .alloc size => .alloc size
  | .free p => .free p
  | .read x => .read (f x)
  | .forget x => .forget (f x)

/-- Where blobs are kept: with the message, or with record `j` of operation
`i`.  All but GETOPs have one record. -/
inductive Place where
  | message
  | record (i j : Nat)
deriving DecidableEq, Repr

/-- What is done at one place after the other. -/
abbrev Program := List (Place × List Op)

/-- The operations of a program on variables. -/
def compile (v : Place → Nat → Nat) (p : Program) : List Op :=
  p.flatMap fun x => x.2.map (Op.rename (v x.1))

/-- A loop over `n` operations. -/
def each (n : Nat) (f : Nat → List Op) : Program :=
  (List.range n).map fun i => (.record i 0, f i)

/-- Something done once per message. -/
def once (ops : List Op) : Program := [(.message, ops)]

/-- `alloc_array<Blob>(n)` for arrays holding the given roles. -/
def make (roles : List Nat) : List Op := roles.map fun r => .make r .null 0 invalid false

/-- `dealloc_array(ptr, n)` for arrays holding the given roles, and the end of
the life of local variables and temporaries. -/
def drop (roles : List Nat) : List Op := roles.map fun r => .destroy r

/-- `dealloc` of the memory in which blobs of the given roles are. -/
def forget (roles : List Nat) : List Op := roles.map fun r => .forget r

/-- Pointers that are null. -/
def nulls (roles : List Nat) : List Op := roles.map fun r => .make r .null 0 invalid true

/-- `dealloc(p)`, which frees what `p` points to whoever owns it, and the
pointer goes out of scope. -/
def release (r : Nat) : List Op := [.setClean r true, .dealloc r, .forget r]

/-- What `encode` did: it failed, it made something new, or it pointed to what
it was given.  The functions of users may do the last. -/
inductive Enc where
  | failed
  | fresh (len : Nat)
  | same
deriving DecidableEq, Repr

/-- `&&` -/
def Enc.and : Enc → Enc → Enc
  | .failed, _ => .failed
  | _, x => x

def Enc.ok : Enc → Bool
  | .failed => false
  | _ => true

/-- The arguments of one operation, and what became of it. -/
structure Entry where
  /-- the user's buffers -/
  sub : Nat
  pre : Nat
  obj : Nat
  subLen : Nat
  preLen : Nat
  objLen : Nat
  subType : Nat
  preType : Nat
  objType : Nat
  /-- what `encode` does with them -/
  encSub : Enc
  encPre : Enc
  encObj : Enc
  /-- the length of the key made by `sp_to_key`, the value by `append_type` -/
  keyLen : Nat
  valueLen : Nat
  /-- the predicate of a PUT has a histogram, its object goes there -/
  tracked : Bool
  /-- the pair is there -/
  found : Bool
  /-- `decode` succeeds, and allocates so much -/
  decoded : Bool
  objDec : Nat
  /-- an address inside the datastore, or inside a packet -/
  inside : Nat

/-- How long packets are. -/
structure Sizes where
  req : Nat
  res : Nat

/-! Roles at a record: 0–2 arguments of `PutImpl` and the like, 3–5 arguments
of `add` of the request, 6–7 arguments of `SubjectPredicate::add`, 8–10 the
blobs of the request at the client, 11–13 those of the request at the server,
14 the key, 15–17 temporaries and the value, 18–19 the arguments of
`sp_to_key`, 20–22 the blobs of the response at the server, 23–25 the
arguments of `add` of a response, 26–28 the blobs of the response at the
client, 29–31 those of the result, 32–34 what `encode` returned, 35–37 what
`decode` returned, 38–40 the blobs of a result that is never returned, 41–43
those of the response that the datastore makes.

Roles at the message: 0 the packet with the request at the client, 1 at the
server, 2 the packet with the response at the server, 3 at the client. -/

/-! ## The client -/

/-- `hxhim::PutImpl` with one permutation (`src/hxhim/ops/impl.cpp:107-192`),
the blobs of which `ReferenceBlob` makes (`src/hxhim/ops/PUT.cpp:41-46`),
`BPut::add` (`src/message/BPut.cpp:23-27`) and `SubjectPredicate::add`
(`src/message/SubjectPredicate.cpp:22-31`). -/
def queuePut (e : Entry) : List Op :=
  [.make 0 (.outside e.sub) e.subLen e.subType false,
   .make 1 (.outside e.pre) e.preLen e.preType false,
   .make 2 (.outside e.obj) e.objLen e.objType false,
   .copy 3 0, .copy 4 1, .copy 5 2,
   .assign 10 5, .copy 6 3, .copy 7 4, .assign 8 6, .assign 9 7]
  ++ drop [7, 6, 5, 4, 3, 2, 1, 0]

/-- `hxhim::GetImpl` and `DeleteImpl` (`src/hxhim/ops/impl.cpp:209-237`,
276-300) and `add` of their requests (`src/message/BGet.cpp:23-27`). -/
def queuePair (e : Entry) : List Op :=
  [.make 0 (.outside e.sub) e.subLen e.subType false,
   .make 1 (.outside e.pre) e.preLen e.preType false,
   .copy 3 0, .copy 4 1, .copy 6 3, .copy 7 4, .assign 8 6, .assign 9 7]
  ++ drop [7, 6, 4, 3, 1, 0]

/-- `hxhim::GetOpImpl` (`src/hxhim/ops/impl.cpp:239-274`) and `BGetOp::add`
(`src/message/BGetOp.cpp:27-54`). -/
def queueOp (e : Entry) : List Op :=
  [.make 0 (.outside e.sub) e.subLen e.subType false,
   .make 1 (.outside e.pre) e.preLen e.preType false,
   .copy 3 0, .copy 4 1, .assign 8 3, .assign 9 4]
  ++ drop [4, 3, 1, 0]

/-- Reading blobs, to pack them or to look at them. -/
def look (roles : List Nat) : List Op := roles.map fun r => .read r

/-- `Unpacker::unpack` of blobs of the given roles, lengths and types that are
copied (`src/message/Unpacker.cpp:99-113`, 130-138, 168-174, 199-207). -/
def unpackCopies (e : Entry) (bs : List (Nat × Nat × Nat)) : List Op :=
  bs.map fun (r, len, typ) => .unpack r (.outside e.inside) len (some typ) true

/-- `Unpacker::unpack` of a response to PUT, GET or DELETE
(`src/message/Unpacker.cpp:316-328`, 345-352, 412-424): addresses of the user. -/
def unpackAddresses (e : Entry) : List Op :=
  [.unpackRef 26 (.outside e.sub) e.subLen (some e.subType),
   .unpackRef 27 (.outside e.pre) e.preLen (some e.preType)]

/-- `hxhim::Result::init` for PUT and DELETE (`src/hxhim/Results.cpp:155-162`,
206-213) from the response in roles `s` and `p`. -/
def pairResult (s p : Nat) : List Op :=
  make [29, 30] ++ [.moveAssign 29 s, .moveAssign 30 p]

/-- `hxhim::Result::init` for GET, and for a record of a GETOP
(`src/hxhim/Results.cpp:164-204`). -/
def tripleResult (success : Bool) (s p o : Nat) : List Op :=
  make [29, 30, 31] ++ [.moveAssign 29 s, .moveAssign 30 p]
  ++ (if success then [.moveAssign 31 o] else [])

/-! ## The range server -/

/-- `Datastore::encode` (`src/datastore/datastore.cpp:377-394`) of the blob of
role `src` into the pointer of role `r`, which is null to begin with. -/
def encode (x : Enc) (r src : Nat) : List Op :=
  match x with
  | .failed => nulls [r]
  | .fresh len => [.read src, .makeCopy r len invalid]
  | .same => [.read src, .copy r src]

/-- `if (p != blob.data()) dealloc(p)`, and the end of the life of `p`. -/
def releaseEnc (x : Enc) (r : Nat) : List Op :=
  match x with
  | .same => [.forget r]
  | _ => release r

/-- `sp_to_key` (`src/datastore/triplestore.cpp:25-67`) with its two temporary
arguments, which refer to what was encoded; the key is in role 14. -/
def spToKey (e : Entry) : List Op :=
  [.copy 18 32, .copy 19 33, .read 18, .read 19,
   .makeCopy 15 e.keyLen 7, .move 16 15, .destroy 15, .moveAssign 14 16, .destroy 16]
  ++ drop [19, 18]

/-- `append_type` (`src/datastore/datastore.cpp:421-432`) into role 17. -/
def appendType (e : Entry) : List Op :=
  [.read 34, .makeCopy 15 e.valueLen 7, .move 16 15, .destroy 15, .move 17 16, .destroy 16]

/-- `add` of a datastore's response to PUT or DELETE with its `ReferenceBlob` arguments
(`src/message/BPut.cpp:54-56`, `src/message/SubjectPredicate.cpp:80-87`), which
takes its arguments by value and moves from them. -/
def addResponse (e : Entry) : List Op :=
  [.make 23 (.outside e.sub) e.subLen e.subType false,
   .make 24 (.outside e.pre) e.preLen e.preType false,
   .moveAssign 41 23, .moveAssign 42 24]
  ++ drop [24, 23]

/-- `x = nullptr`: a blob made of a null pointer is moved. -/
def renull (x : Nat) : List Op :=
  [.make 15 .null 0 invalid false, .moveAssign x 15, .destroy 15]

/-- `BPut::steal` and `BDelete::steal` (`src/message/BPut.cpp:58-65`,
`src/message/BDelete.cpp:53-60`): the range server moves what the datastore
answered into the response that it returns. -/
def stealPair : List Op :=
  [.move 23 41, .move 24 42, .moveAssign 20 23, .moveAssign 21 24]
  ++ drop [24, 23] ++ renull 41 ++ renull 42

/-- `Transport::local::range_server`, which all range servers call
(`include/transport/backend/local/RangeServer.hpp:40-71`): the datastore makes
a response of its own with blobs in `roles`, the range server steals the
entries one by one and destructs the empty response. -/
def served (roles : List Nat) (n : Nat) (serve : Program) (steal : Nat → List Op) : Program :=
  (each n fun _ => make roles) ++ serve ++ each n steal ++ each n fun _ => drop roles

/-- The loops of the datastores: those of `InMemory`, and those of `LevelDB`
and `RocksDB`, which differ in names only. -/
inductive Backend where
  | inMemory
  | onDisk
deriving DecidableEq, Repr

/-- Subject and predicate encoded, one after the other. -/
def encodePair (s p : Nat) (e : Entry) : List Op :=
  encode e.encSub 32 s ++ encode (e.encSub.and e.encPre) 33 p

/-- A PUT in `BPutImpl` (`src/datastore/InMemory.cpp:55-88`,
`src/datastore/LevelDB.cpp:80-118`); `s`, `p` and `o` are the roles of the
request. -/
def servePut (s p o : Nat) (e : Entry) : List Op :=
  encodePair s p e ++ encode ((e.encSub.and e.encPre).and e.encObj) 34 o
  ++ (if ((e.encSub.and e.encPre).and e.encObj).ok then
        make [14] ++ spToKey e ++ appendType e ++ look [14, 17] ++ drop [17, 14]
      else [])
  ++ releaseEnc e.encSub 32 ++ releaseEnc (e.encSub.and e.encPre) 33
  ++ releaseEnc ((e.encSub.and e.encPre).and e.encObj) 34

/-- `BPutImpl`, and the histograms in `Datastore::operate`
(`src/datastore/datastore.cpp:117-157`). -/
def servePuts (b : Backend) (s p o n : Nat) (e : Nat → Entry) : Program :=
  served [41, 42] n
    ((match b with
      | .inMemory => each n fun i => servePut s p o (e i) ++ addResponse (e i)
      | .onDisk => (each n fun i => servePut s p o (e i)) ++ each n fun i => addResponse (e i))
     ++ each n fun i => if (e i).tracked then look [p, o] else [])
    fun _ => stealPair

/-- A DELETE in `BDeleteImpl` up to the point where the encoded pair is freed
(`src/datastore/InMemory.cpp:369-390`, `src/datastore/LevelDB.cpp:386-401`). -/
def serveDelete (s p : Nat) (e : Entry) : List Op :=
  encodePair s p e
  ++ (if (e.encSub.and e.encPre).ok then make [14] ++ spToKey e ++ look [14] ++ drop [14] else [])

/-- Freeing the encoded pair. -/
def releasePair (e : Entry) : List Op :=
  releaseEnc e.encSub 32 ++ releaseEnc (e.encSub.and e.encPre) 33

/-- `BDeleteImpl`: the in-memory store adds to the response before it frees
(`src/datastore/InMemory.cpp:392-401`), the others in a second loop
(`src/datastore/LevelDB.cpp:403-420`). -/
def serveDeletes (b : Backend) (s p n : Nat) (e : Nat → Entry) : Program :=
  served [41, 42] n
    (match b with
     | .inMemory => each n fun i => serveDelete s p (e i) ++ addResponse (e i) ++ releasePair (e i)
     | .onDisk => (each n fun i => serveDelete s p (e i) ++ releasePair (e i))
        ++ each n fun i => addResponse (e i))
    fun _ => stealPair

/-- A GET succeeds. -/
def Entry.got (e : Entry) : Bool := (e.encSub.and e.encPre).ok && e.found && e.decoded

/-- A GET in `BGetImpl` (`src/datastore/InMemory.cpp:115-169`,
`src/datastore/LevelDB.cpp:155-211`) and `BGet::add`
(`src/message/BGet.cpp:56-64`), which moves the object out of the temporary
only on success.  `decode` leaves null behind when it fails. -/
def serveGet (s p : Nat) (e : Entry) : List Op :=
  encodePair s p e
  ++ (if (e.encSub.and e.encPre).ok then
        make [14] ++ spToKey e ++ look [14]
        ++ (if e.found then
              -- the value in the datastore, and `decode`
              [.make 18 (.outside e.inside) e.objLen e.objType false, .read 18]
              ++ (if e.decoded then [.makeCopy 37 e.objDec e.objType]
                  else [.make 37 .null 0 invalid false])
              ++ [.destroy 18]
            else [.make 37 .null 0 invalid false])
        ++ drop [14]
      else [.make 37 .null 0 invalid false])
  ++ [.make 23 (.outside e.sub) e.subLen e.subType false,
      .make 24 (.outside e.pre) e.preLen e.preType false,
      -- `RealBlob(object, …)`
      .move 15 37, .forget 37, .move 25 15, .destroy 15]
  ++ (if e.got then [.moveAssign 43 25] else [])
  -- `SubjectPredicate::add` takes references to the parameters of `BGet::add`
  ++ [.moveAssign 41 23, .moveAssign 42 24]
  ++ drop [25, 24, 23]
  ++ releasePair e

/-- `BGet::steal` (`src/message/BGet.cpp:66-75`): subject and predicate are
copied into the parameters of `add`, the object is passed by reference. -/
def stealTriple (e : Entry) : List Op :=
  [.copy 23 41, .copy 24 42]
  ++ (if e.got then [.moveAssign 22 43] else [])
  ++ [.moveAssign 20 23, .moveAssign 21 24]
  ++ drop [24, 23] ++ renull 41 ++ renull 42 ++ renull 43

/-! ## Transports -/

/-- What becomes of a message at a range server: Thallium's calls `destruct`
(`src/transport/backend/Thallium/RangeServer.cpp:86`, 96), that of MPI
`dealloc` (`src/transport/backend/MPI/RangeServer.cpp:61`, 70), which frees the
memory of the message and calls no destructor. -/
inductive Transport where
  | thallium
  | mpi
deriving DecidableEq, Repr

/-- The end of a message with blobs of the given roles. -/
def Transport.dispose : Transport → List Nat → List Op
  | .thallium, roles => drop roles
  | .mpi, roles => forget roles

/-- `Packer::pack` of a request and its way to the server
(`src/transport/backend/Thallium/EndpointGroup.cpp:113-139`,
`include/transport/backend/MPI/EndpointGroup.tpp:28-150`). -/
def sendRequest (z : Sizes) : Program :=
  -- the packet, sent, received; the client frees its own
  once [.read 0, .makeCopy 1 z.req invalid] ++ once (release 0)

/-- A request packed by `reads`, sent, and unpacked by `unpack`. -/
def request (z : Sizes) (reads alloc unpack : Program) : Program :=
  once [.makeCopy 0 z.req invalid] ++ reads ++ sendRequest z
  ++ once [.read 1] ++ alloc ++ unpack ++ once (release 1)

/-- A response packed by `reads`, disposed of by `done`, sent, and unpacked by
`unpack`.  The server's packet is freed by the cleanup RPC
(`src/transport/backend/Thallium/RangeServer.cpp:111-115`), or after it was
sent (`src/transport/backend/MPI/RangeServer.cpp:71`). -/
def response (z : Sizes) (reads done alloc unpack : Program) : Program :=
  once [.makeCopy 2 z.res invalid] ++ reads ++ done ++ once [.read 2, .makeCopy 3 z.res invalid]
  ++ once [.read 3] ++ alloc ++ unpack ++ once (release 3) ++ once (release 2)

/-! ## Flushes

From the first operation queued to the destruction of the results, which the
user has read. -/

/-- PUTs queued, sent to another rank, and unpacked there. -/
def putSend (z : Sizes) (n : Nat) (e : Nat → Entry) : Program :=
  -- BPut(max), src/message/BPut.cpp:3-22
  (each n fun _ => make [8, 9, 10])
  ++ (each n fun i => queuePut (e i))
  ++ request z (each n fun _ => look [8, 9, 10])
      (each n fun _ => make [11, 12, 13])
      (each n fun i => unpackCopies (e i)
        [(11, (e i).subLen, (e i).subType), (12, (e i).preLen, (e i).preType),
         (13, (e i).objLen, (e i).objType)])
  ++ (each n fun _ => make [20, 21])

/-- The way back of a response to PUTs or DELETEs; `roles` are those of the
request, `sent` the ones it had at the client. -/
def pairBack (t : Transport) (z : Sizes) (roles sent : List Nat) (n : Nat) (e : Nat → Entry) :
    Program :=
  (each n fun _ => t.dispose roles)
  ++ response z [] (each n fun _ => t.dispose [20, 21]) (each n fun _ => make [26, 27])
      (each n fun i => unpackAddresses (e i))
  -- AddAll (src/hxhim/Results.cpp:233-241), next (src/message/Response.cpp)
  ++ (each n fun _ => pairResult 26 27)
  ++ (each n fun _ => drop [26, 27])
  -- include/hxhim/private/process.hpp:117-119
  ++ (each n fun _ => drop sent)
  ++ (each n fun _ => look [29, 30])
  -- hxhim_results_destroy
  ++ (each n fun _ => drop [29, 30])

/-- PUTs sent to another rank. -/
def putRemote (b : Backend) (t : Transport) (z : Sizes) (n : Nat) (e : Nat → Entry) : Program :=
  putSend z n e ++ servePuts b 11 12 13 n e ++ pairBack t z [11, 12, 13] [8, 9, 10] n e

/-- PUTs queued for the rank itself. -/
def putHere (n : Nat) (e : Nat → Entry) : Program :=
  (each n fun _ => make [8, 9, 10])
  ++ (each n fun i => queuePut (e i))
  ++ (each n fun _ => make [20, 21])

/-- The results of PUTs or DELETEs that the rank has served itself. -/
def pairHere (sent : List Nat) (n : Nat) : Program :=
  (each n fun _ => pairResult 20 21)
  ++ (each n fun _ => drop [20, 21])
  ++ (each n fun _ => drop sent)
  ++ (each n fun _ => look [29, 30])
  ++ (each n fun _ => drop [29, 30])

/-- PUTs served by the rank itself (`include/hxhim/private/process.hpp:130-162`). -/
def putLocal (b : Backend) (n : Nat) (e : Nat → Entry) : Program :=
  putHere n e ++ servePuts b 8 9 10 n e ++ pairHere [8, 9, 10] n

/-- DELETEs or GETs queued, sent to another rank, and unpacked there; `roles`
are those of the response. -/
def pairSend (z : Sizes) (roles : List Nat) (n : Nat) (e : Nat → Entry) : Program :=
  (each n fun _ => make [8, 9])
  ++ (each n fun i => queuePair (e i))
  ++ request z (each n fun _ => look [8, 9])
      (each n fun _ => make [11, 12])
      (each n fun i => unpackCopies (e i)
        [(11, (e i).subLen, (e i).subType), (12, (e i).preLen, (e i).preType)])
  ++ (each n fun _ => make roles)

/-- DELETEs sent to another rank. -/
def deleteRemote (b : Backend) (t : Transport) (z : Sizes) (n : Nat) (e : Nat → Entry) : Program :=
  pairSend z [20, 21] n e ++ serveDeletes b 11 12 n e ++ pairBack t z [11, 12] [8, 9] n e

/-- DELETEs or GETs queued for the rank itself. -/
def pairQueued (roles : List Nat) (n : Nat) (e : Nat → Entry) : Program :=
  (each n fun _ => make [8, 9])
  ++ (each n fun i => queuePair (e i))
  ++ (each n fun _ => make roles)

/-- DELETEs served by the rank itself. -/
def deleteLocal (b : Backend) (n : Nat) (e : Nat → Entry) : Program :=
  pairQueued [20, 21] n e ++ serveDeletes b 8 9 n e ++ pairHere [8, 9] n

/-- `BGetImpl`. -/
def serveGets (s p n : Nat) (e : Nat → Entry) : Program :=
  served [41, 42, 43] n (each n fun i => serveGet s p (e i)) fun i => stealTriple (e i)

/-- The way back of a response to GETs. -/
def getBack (t : Transport) (z : Sizes) (n : Nat) (e : Nat → Entry) : Program :=
  (each n fun _ => t.dispose [11, 12])
  -- src/message/Packer.cpp, Unpacker.cpp:341-358: the object if there is one
  ++ response z (each n fun i => if (e i).got then look [22] else [])
      (each n fun _ => t.dispose [20, 21, 22])
      (each n fun _ => make [26, 27, 28])
      (each n fun i => unpackAddresses (e i) ++
        (if (e i).got then unpackCopies (e i) [(28, (e i).objDec, (e i).objType)] else []))
  ++ (each n fun i => tripleResult (e i).got 26 27 28)
  ++ (each n fun _ => drop [26, 27, 28])
  ++ (each n fun _ => drop [8, 9])
  ++ (each n fun _ => look [29, 30, 31])
  ++ (each n fun _ => drop [29, 30, 31])

/-- GETs sent to another rank. -/
def getRemote (t : Transport) (z : Sizes) (n : Nat) (e : Nat → Entry) : Program :=
  pairSend z [20, 21, 22] n e ++ serveGets 11 12 n e ++ getBack t z n e

/-- The results of GETs that the rank has served itself. -/
def getHere (n : Nat) (e : Nat → Entry) : Program :=
  (each n fun i => tripleResult (e i).got 20 21 22)
  ++ (each n fun _ => drop [20, 21, 22])
  ++ (each n fun _ => drop [8, 9])
  ++ (each n fun _ => look [29, 30, 31])
  ++ (each n fun _ => drop [29, 30, 31])

/-- GETs served by the rank itself. -/
def getLocal (n : Nat) (e : Nat → Entry) : Program :=
  pairQueued [20, 21, 22] n e ++ serveGets 8 9 n e ++ getHere n e

/-! ## GETOPs -/

/-- How a GETOP fails: before any record is copied, or because subject (0),
predicate (1) or object (2) of a record is not decoded. -/
inductive OpFailure where
  | early
  | subject
  | predicate
  | object
deriving DecidableEq, Repr

/-- A GETOP and what becomes of it. -/
structure OpEntry where
  /-- its arguments; what is decoded has the lengths and types of the records -/
  arg : Entry
  /-- it sends a pair: FIRST and LAST do not -/
  pair : Bool
  /-- the number of records asked for -/
  asked : Nat
  /-- the number of records copied -/
  got : Nat
  failure : Option OpFailure
  /-- what record `j` has: the lengths of subject, predicate and object -/
  recs : Nat → Nat × Nat × Nat

/-- `num_recs` of the response: `BGetOp_error_response` adds one. -/
def OpEntry.count (g : OpEntry) : Nat := if g.failure.isSome then g.got + 1 else g.got

/-- The record with which the blobs of the operation itself are kept: the one
that `BGetOp_error_response` fills, if it is called, otherwise the first. -/
def OpEntry.main (g : OpEntry) : Nat := if g.failure.isSome then g.got else 0

def OpEntry.success (g : OpEntry) : Bool := g.failure.isNone

/-- What the datastores see to: no more records than were asked for, at least
one, and none if the operation fails early. -/
structure OpEntry.Valid (g : OpEntry) : Prop where
  room : g.count ≤ g.asked
  least : 1 ≤ g.count
  early : g.failure = some .early → g.got = 0

/-- A loop over `n` operations. -/
def eachOp (n : Nat) (g : Nat → OpEntry) (f : OpEntry → List Op) : Program :=
  (List.range n).map fun i => (.record i (g i).main, f (g i))

/-- A loop over the first `k` records of each of `n` operations. -/
def eachRec (n : Nat) (g : Nat → OpEntry) (k : OpEntry → Nat) (f : OpEntry → Nat → List Op) :
    Program :=
  (List.range n).flatMap fun i => (List.range (k (g i))).map fun j => (.record i j, f (g i) j)

/-- `key_to_sp` with `copy = false` (`src/datastore/triplestore.cpp:79-139`)
into roles 23 and 24, and the value in role 25
(`include/datastore/datastore.tpp:21-45`). -/
def splitKey (e : Entry) : List Op :=
  make [23, 24]
  ++ [.make 18 (.outside e.inside) e.keyLen 7 false, .read 18,
      .make 19 (.outside e.inside) e.preLen e.preType false, .moveAssign 24 19, .destroy 19,
      .make 19 (.outside e.inside) e.subLen e.subType false, .moveAssign 23 19, .destroy 19,
      .destroy 18,
      .make 25 (.outside e.inside) e.objLen e.objType false]

/-- `res->…[i][j] = std::move(RealBlob(p, …))` -/
def keep (dst raw : Nat) : List Op :=
  [.move 15 raw, .move 16 15, .destroy 15, .moveAssign dst 16, .destroy 16]

/-- `BGetOp_copy_response` when everything is decoded
(`include/datastore/datastore.tpp:46-62`). -/
def copyResponse (g : OpEntry) (j : Nat) : List Op :=
  splitKey g.arg
  ++ [.read 23, .makeCopy 35 (g.recs j).1 g.arg.subType,
      .read 24, .makeCopy 36 (g.recs j).2.1 g.arg.preType,
      .read 25, .makeCopy 37 (g.recs j).2.2 g.arg.objType]
  ++ keep 20 35 ++ keep 21 36 ++ keep 22 37
  ++ forget [35, 36, 37] ++ drop [25, 24, 23]

/-- `BGetOp_copy_response` when something is not decoded
(`include/datastore/datastore.tpp:46-66`): the pointers go out of scope as they
are. -/
def failResponse (g : OpEntry) : List Op :=
  match g.failure with
  | none => []
  | some .early => []
  | some .subject =>
    splitKey g.arg ++ [.read 23] ++ make [35, 36, 37] ++ forget [35, 36, 37] ++ drop [25, 24, 23]
  | some .predicate =>
    splitKey g.arg
    ++ [.read 23, .makeCopy 35 (g.recs g.got).1 g.arg.subType, .read 24] ++ make [36, 37]
    ++ forget [35, 36, 37] ++ drop [25, 24, 23]
  | some .object =>
    splitKey g.arg
    ++ [.read 23, .makeCopy 35 (g.recs g.got).1 g.arg.subType,
        .read 24, .makeCopy 36 (g.recs g.got).2.1 g.arg.preType, .read 25] ++ make [37]
    ++ forget [35, 36, 37] ++ drop [25, 24, 23]

/-- `BGetOp_loop_init` without the arrays (`src/datastore/datastore.cpp:444-486`):
the predicate is encoded whether or not the subject was. -/
def loopInit (s p : Nat) (g : OpEntry) : List Op :=
  if g.pair then
    encode g.arg.encSub 32 s ++ encode g.arg.encPre 33 p
    ++ (if g.arg.encSub.ok then spToKey g.arg else [])
  else nulls [32, 33]

/-- The blobs of operation `i` in the loop of `BGetOpImpl`. -/
def serveOp (s p : Nat) (g : Nat → OpEntry) (i : Nat) : Program :=
  -- `Blob key;`, src/datastore/InMemory.cpp:196
  [(.record i (g i).main, make [14])]
  ++ ((List.range (g i).asked).map fun j => (.record i j, make [20, 21, 22]))
  ++ [(.record i (g i).main, loopInit s p (g i))]
  ++ ((List.range (g i).got).map fun j => (.record i j, copyResponse (g i) j))
  ++ [(.record i (g i).main, failResponse (g i) ++ look [14]
        -- src/datastore/InMemory.cpp:327-332
        ++ (if (g i).pair then releaseEnc (g i).arg.encSub 32 ++ releaseEnc (g i).arg.encPre 33
            else release 32 ++ release 33)
        -- BGetOp_error_response (src/datastore/datastore.cpp:519-530)
        ++ (if (g i).failure.isSome then [.moveAssign 20 s, .moveAssign 21 p] else [])
        ++ drop [14])]

/-- `BGetOpImpl` (`src/datastore/InMemory.cpp:183-351`,
`src/datastore/LevelDB.cpp:225-372`).  `BGetOp::steal`
(`src/message/BGetOp.cpp:132-144`) hands over the arrays as they are: the blobs
stay where they are. -/
def serveOps (s p n : Nat) (g : Nat → OpEntry) : Program :=
  (List.range n).flatMap fun i => serveOp s p g i

/-- `Response::BGetOp::cleanup` (`src/message/BGetOp.cpp:152-171`) destroys the
records there are, and frees the rest of the arrays with them. -/
def cleanOps (n : Nat) (g : Nat → OpEntry) : Program :=
  (eachRec n g OpEntry.count fun _ _ => drop [20, 21, 22])
  ++ eachRec n g OpEntry.asked fun g j => if j < g.count then [] else forget [20, 21, 22]

/-- The number of results in the list that `init` returns: the first is
returned even if it has been destructed. -/
def OpEntry.nodes (g : OpEntry) : Nat := max g.count 1

/-- `hxhim::Result::init` for GETOPs (`src/hxhim/Results.cpp:177-204`) from the
records in roles `s`, `p` and `o`: one result for each, and one that is
destructed at once, which is the first if there is no record. -/
def opResults (n : Nat) (g : Nat → OpEntry) (s p o : Nat) : Program :=
  (eachRec n g OpEntry.count fun g _ => tripleResult g.success s p o)
  ++ eachOp n g fun g =>
    if g.count = 0 then make [29, 30, 31] ++ drop [31, 30, 29]
    else make [38, 39, 40] ++ drop [40, 39, 38]

/-- GETOPs queued, sent to another rank, and unpacked there. -/
def opSend (z : Sizes) (n : Nat) (g : Nat → OpEntry) : Program :=
  (eachOp n g fun _ => make [8, 9])
  ++ (eachOp n g fun g => queueOp g.arg)
  ++ request z (eachOp n g fun g => if g.pair then look [8, 9] else [])
      (eachOp n g fun _ => make [11, 12])
      -- src/message/Unpacker.cpp:168-174
      (eachOp n g fun g => if g.pair then
        unpackCopies g.arg [(11, g.arg.subLen, g.arg.subType), (12, g.arg.preLen, g.arg.preType)]
        else [])

/-- The way back of a response to GETOPs. -/
def opBack (t : Transport) (z : Sizes) (n : Nat) (g : Nat → OpEntry) : Program :=
  (eachOp n g fun _ => t.dispose [11, 12])
  ++ response z (eachRec n g OpEntry.count fun g _ => look [20, 21] ++
        if g.success then look [22] else [])
      (match t with
       | .thallium => cleanOps n g
       | .mpi => eachRec n g OpEntry.asked fun _ _ => forget [20, 21, 22])
      (eachRec n g OpEntry.count fun _ _ => make [26, 27, 28])
      -- src/message/Unpacker.cpp:380-395
      (eachRec n g OpEntry.count fun g j =>
        unpackCopies g.arg [(26, (g.recs j).1, g.arg.subType), (27, (g.recs j).2.1, g.arg.preType)]
        ++ if g.success then unpackCopies g.arg [(28, (g.recs j).2.2, g.arg.objType)] else [])
  ++ opResults n g 26 27 28
  ++ (eachRec n g OpEntry.count fun _ _ => drop [26, 27, 28])
  ++ (eachOp n g fun _ => drop [8, 9])
  ++ (eachRec n g OpEntry.nodes fun _ _ => look [29, 30, 31])
  ++ (eachRec n g OpEntry.nodes fun _ _ => drop [29, 30, 31])

/-- GETOPs sent to another rank. -/
def getOpRemote (t : Transport) (z : Sizes) (n : Nat) (g : Nat → OpEntry) : Program :=
  opSend z n g ++ serveOps 11 12 n g ++ opBack t z n g

/-- GETOPs queued for the rank itself. -/
def opQueued (n : Nat) (g : Nat → OpEntry) : Program :=
  (eachOp n g fun _ => make [8, 9])
  ++ (eachOp n g fun g => queueOp g.arg)

/-- The results of GETOPs that the rank has served itself. -/
def opHere (n : Nat) (g : Nat → OpEntry) : Program :=
  opResults n g 20 21 22
  ++ cleanOps n g
  ++ (eachOp n g fun _ => drop [8, 9])
  ++ (eachRec n g OpEntry.nodes fun _ _ => look [29, 30, 31])
  ++ (eachRec n g OpEntry.nodes fun _ _ => drop [29, 30, 31])

/-- GETOPs served by the rank itself. -/
def getOpLocal (n : Nat) (g : Nat → OpEntry) : Program :=
  opQueued n g ++ serveOps 8 9 n g ++ opHere n g

/-! ## Histograms -/

/-- Requests for histograms sent to another rank: names are blobs
(`src/hxhim/ops/HISTOGRAM.cpp`, `src/message/BHistogram.cpp:24-27`), histograms
are shared pointers, moved by `BHistogram::steal`, and no business of this
model. -/
def histRemote (t : Transport) (z : Sizes) (n : Nat) (e : Nat → Entry) : Program :=
  (each n fun _ => make [8])
  ++ (each n fun i => [.make 0 (.outside (e i).sub) (e i).subLen 7 false, .copy 3 0, .copy 4 3,
        .assign 8 4] ++ drop [4, 3, 0])
  ++ request z (each n fun _ => look [8]) (each n fun _ => make [11])
      -- src/message/Unpacker.cpp:227-232
      (each n fun i => [.unpack 11 (.outside (e i).inside) (e i).subLen none true])
  -- src/datastore/datastore.cpp:186-202
  ++ (each n fun _ => look [11])
  ++ (each n fun _ => t.dispose [11])
  ++ response z [] [] [] []
  ++ (each n fun _ => drop [8])

/-- `WriteHistogramsImpl` for `n` histograms
(`src/datastore/InMemory.cpp:423-443`, `src/datastore/LevelDB.cpp:433-461`):
the packed histograms are freed in a second loop. -/
def writeHistograms (n : Nat) (e : Nat → Entry) : Program :=
  (each n fun i => make [14]
    ++ [.make 18 (.outside (e i).sub) (e i).subLen 7 false,
        .make 19 (.outside (e i).pre) (e i).preLen 7 false, .read 18, .read 19,
        .makeCopy 15 (e i).keyLen 7, .move 16 15, .destroy 15, .moveAssign 14 16, .destroy 16]
    ++ drop [19, 18]
    -- Histogram::pack (src/utils/Histogram.cpp:198-249)
    ++ [.makeCopy 34 (e i).valueLen invalid] ++ look [14, 34] ++ drop [14])
  -- `db->Write`
  ++ (each n fun _ => look [34])
  ++ (each n fun _ => release 34)

/-- `ReadHistogramsImpl` (`src/datastore/InMemory.cpp:454-479`,
`src/datastore/LevelDB.cpp:472-501`). -/
def readHistograms (n : Nat) (e : Nat → Entry) : Program :=
  each n fun i => make [14]
    ++ [.make 18 (.outside (e i).sub) (e i).subLen 7 false,
        .make 19 (.outside (e i).pre) (e i).preLen 7 false, .read 18, .read 19,
        .makeCopy 15 (e i).keyLen 7, .move 16 15, .destroy 15, .moveAssign 14 16, .destroy 16]
    ++ drop [19, 18] ++ look [14] ++ drop [14]

end Hx.Own

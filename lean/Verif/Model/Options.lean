import Verif.Model.Config
import Verif.Model.Hash

/-!
# Options: `src/hxhim/options.cpp`, `src/hxhim/config.cpp`, `include/hxhim/config.hpp`

* Pointers to user functions and their arguments are numbers; 0 is null.
* Which optional parts were compiled in is a parameter of the model.
* Configuration values and names contain no NUL character (some are passed on as C strings).
* `destruct` of a replaced configuration object is not modelled, nor is failure to allocate memory.
-/

namespace Hx.Config
open Hx

/-- `HXHIM_HAVE_LEVELDB`, `HXHIM_HAVE_ROCKSDB`, `HXHIM_HAVE_THALLIUM`. -/
structure Build where
  leveldb : Bool
  rocksdb : Bool
  thallium : Bool
  deriving Repr, DecidableEq

/-- An MPI communicator; `world none` is one whose size cannot be had. -/
inductive Comm where
  | null
  | world (size : Option Nat)
  deriving Repr, DecidableEq

/-- `Datastore::Config` and its children (include/datastore/*.hpp). -/
inductive StoreCfg where
  | inMemory
  | leveldb (create : Bool)
  | rocksdb (create : Bool)
  deriving Repr, DecidableEq

/-- `Transport::Options` and its children (include/transport). -/
inductive TransportCfg where
  | null
  | mpi (comm : Comm) (listeners : Nat)
  | thallium (module : Bytes) (threads : Int)
  deriving Repr, DecidableEq

/-- `hxhim_hash_t`: a built-in function or one of the user. -/
inductive HashFn where
  | builtin (k : Hash.Kind)
  | user (addr : Nat)
  deriving Repr, DecidableEq

/-- The bucket generators (include/utils/Histogram.h). -/
inductive GenFn where
  | nBuckets | squareRoot | sturges | rice | scott | uniformLog
  | user (addr : Nat)
  deriving Repr, DecidableEq

/-- The options in `hxhim_private_t` (include/hxhim/private/hxhim.hpp:52-154). Sets are lists without
repetition. -/
structure Opts where
  running : Bool
  comm : Comm
  debugLevel : Int
  clientRatio : Nat
  serverRatio : Nat
  perServer : Nat
  openInit : Bool
  dsPrefix : Bytes
  dsBase : Bytes
  dsPostfix : Bytes
  store : Option StoreCfg
  hashName : Bytes
  hashFunc : Option HashFn
  hashArgs : Nat
  transport : Option TransportCfg
  endpoints : List Int
  asyncEnabled : Bool
  asyncMax : Nat
  maxOps : Nat
  maxSize : Nat
  neg : UInt8
  pos : UInt8
  floatPrec : Nat
  doublePrec : Nat
  encode : List (Nat × Nat × Nat)
  decode : List (Nat × Nat × Nat)
  firstN : Nat
  gen : Option GenFn
  genArgs : Nat
  histRead : Bool
  histWrite : Bool
  histNames : List Bytes
  deriving Repr, DecidableEq

/-- `elen::NEG_SYMBOL`, `elen::POS_SYMBOL`, `elen::encode::FLOAT_PRECISION` and `DOUBLE_PRECISION`
(include/utils/elen.hpp:21-27). -/
def elenNeg : UInt8 := 47
def elenPos : UInt8 := 58
def elenFloat : Int := 8
def elenDouble : Int := 16

/-- `hxhim_private::hxhim_private` (src/hxhim/private.cpp:7-20), `NumericExtra::NumericExtra`
(src/datastore/transform.cpp:8-13). The members are value-initialised. -/
def Opts.new : Opts where
  running := false
  comm := .null
  debugLevel := 0x00010000
  clientRatio := 0
  serverRatio := 0
  perServer := 0
  openInit := true
  dsPrefix := []
  dsBase := []
  dsPostfix := []
  store := none
  hashName := []
  hashFunc := none
  hashArgs := 0
  transport := none
  endpoints := []
  asyncEnabled := false
  asyncMax := 0
  maxOps := 0
  maxSize := 0
  neg := elenNeg
  pos := elenPos
  floatPrec := 8
  doublePrec := 16
  encode := []
  decode := []
  firstN := 0
  gen := none
  genArgs := 0
  histRead := false
  histWrite := false
  histNames := []

/-! ## Names (include/hxhim/config.hpp:35-172) -/

def kDebugLevel := str "DEBUG_LEVEL"
def kClientRatio := str "CLIENT_RATIO"
def kServerRatio := str "SERVER_RATIO"
def kPerServer := str "DATASTORES_PER_SERVER"
def kDatastore := str "DATASTORE"
def kPrefix := str "DATASTORE_PREFIX"
def kBasename := str "DATASTORE_BASENAME"
def kPostfix := str "DATASTORE_POSTFIX"
def kLevelCreate := str "LEVELDB_CREATE_IF_MISSING"
def kRocksCreate := str "ROCKSDB_CREATE_IF_MISSING"
def kHash := str "HASH"
def kTransport := str "TRANSPORT"
def kListeners := str "NUM_LISTENERS"
def kModule := str "THALLIUM_MODULE"
def kThreads := str "THALLIUM_THREAD_COUNT"
def kEndpoints := str "ENDPOINT_GROUP"
def kAsyncAt := str "START_ASYNC_PUTS_AT"
def kMaxOps := str "MAXIMUM_OPS_PER_REQUEST"
def kMaxSize := str "MAXIMUM_SIZE_PER_REQUEST"
def kFirstN := str "HISTOGRAM_FIRST_N"
def kGenName := str "HISTOGRAM_BUCKET_GEN_NAME"
def kTrack := str "HISTOGRAM_TRACK_PREDICATES"
def kHistRead := str "HISTOGRAM_READ_EXISTING"
def kHistWrite := str "HISTOGRAM_WRITE_AT_EXIT"
def kNeg := str "ELEN_NEG_SYMBOL"
def kPos := str "ELEN_POS_SYMBOL"
def kFloatPrec := str "ELEN_ENCODE_FLOAT_PRECISION"
def kDoublePrec := str "ELEN_ENCODE_DOUBLE_PRECISION"

/-- `DEBUG_LEVELS`, with the numbers of include/utils/mlog2.h:50-63. -/
def debugLevels : List (Bytes × Int) :=
  [(str "EMERGENCY", 0x00700000), (str "ALERT", 0x00600000), (str "CRITICAL", 0x00500000), (str "ERROR", 0x00400000),
    (str "WARNING", 0x00300000), (str "NOTICE", 0x00200000), (str "INFO", 0x00100000), (str "DEBUG", 0x000f0000),
    (str "DEBUG0", 0x00080000), (str "DEBUG1", 0x00040000), (str "DEBUG2", 0x00020000), (str "DEBUG3", 0x00010000)]

/-- `Datastore::Type`. -/
inductive StoreType where
  | inMemory | leveldb | rocksdb
  deriving Repr, DecidableEq

/-- `DATASTORES`. -/
def datastores (b : Build) : List (Bytes × StoreType) :=
  (str "IN_MEMORY", .inMemory) :: ((if b.leveldb then [(str "LEVELDB", .leveldb)] else [])
    ++ (if b.rocksdb then [(str "ROCKSDB", .rocksdb)] else []))

/-- `HASHES`. -/
def hashes : List (Bytes × Hash.Kind) :=
  [(str "DATASTORE_0", .datastoreZero), (str "RANK_MOD_DATASTORES", .rankMod), (str "SUM_MOD_DATASTORES", .sumMod),
    (str "UTHASH_BER", .ber), (str "UTHASH_SAX", .sax), (str "UTHASH_FNV", .fnv), (str "UTHASH_OAT", .oat),
    (str "UTHASH_JEN", .jen), (str "UTHASH_SFH", .sfh)]

/-- `Transport::Type`. -/
inductive TransportType where
  | null | mpi | thallium
  deriving Repr, DecidableEq

/-- `TRANSPORTS`. -/
def transports (b : Build) : List (Bytes × TransportType) :=
  [(str "NULL", .null), (str "MPI", .mpi)] ++ (if b.thallium then [(str "THALLIUM", .thallium)] else [])

/-- `HISTOGRAM_BUCKET_GENERATORS` and `HISTOGRAM_BUCKET_GENERATOR_EXTRA_ARGS`. -/
def generators : List (Bytes × GenFn × Nat) :=
  [(str "10_BUCKETS", .nBuckets, 10), (str "SQUARE_ROOT_CHOICE", .squareRoot, 0), (str "STURGES_FORMULA", .sturges, 0),
    (str "RICE_RULE", .rice, 0), (str "SCOTTS_NORMAL_REFERENCE_RULE", .scott, 0), (str "UNIFORM_LOG2", .uniformLog, 2),
    (str "UNIFORM_LOG10", .uniformLog, 10)]

/-- `DEFAULT_CONFIG` (include/hxhim/config.hpp:177-208). `std::string(elen::NEG_SYMBOL, 1)` is 47 times
the character 1, and of the two entries with key `ELEN_NEG_SYMBOL` the first counts. -/
def defaultConfig (b : Build) : List (Bytes × Bytes) :=
  [(kDebugLevel, str "CRITICAL"), (kClientRatio, str "2"), (kServerRatio, str "1"), (kPerServer, str "1"),
    (kPrefix, str "."), (kBasename, str "hxhim"), (kPostfix, str "")] ++
  (if b.leveldb then [(kDatastore, str "LEVELDB"), (kLevelCreate, str "true")]
    else if b.rocksdb then [(kDatastore, str "ROCKSDB"), (kRocksCreate, str "true")]
    else [(kDatastore, str "IN_MEMORY")]) ++
  [(kTransport, str "NULL"), (kHash, str "RANK_MOD_DATASTORES"), (kEndpoints, str "ALL"), (kAsyncAt, str "0"),
    (kMaxOps, str "128"), (kMaxSize, str "1048576"), (kFirstN, str "10"), (kGenName, str "10_BUCKETS"),
    (kHistRead, str "true"), (kHistWrite, str "true"), (kNeg, List.replicate 47 1), (kFloatPrec, str "8"),
    (kDoublePrec, str "16")]

/-- A configuration given by a list of entries. -/
def Map.ofList (l : List (Bytes × Bytes)) : Map := fun k => l.lookup k

/-! ## Setters (src/hxhim/options.cpp)

The result is the new state and whether the setter returned `HXHIM_SUCCESS`. The checks of `hx` and
`hx->p` are in `Setter.run` below. -/

abbrev Set := Opts → Opts × Bool

/-- The check of `running` all setters begin with. -/
def checked (f : Set) : Set := fun o => if o.running then (o, false) else f o

/-- Insertion into a set. -/
def insertSet {α : Type} [BEq α] (x : α) (l : List α) : List α := if l.contains x then l else l ++ [x]

/-- `emplace` into a map: an existing entry stays. -/
def emplace (l : List (Nat × Nat × Nat)) (key fn extra : Nat) : List (Nat × Nat × Nat) :=
  if (l.lookup key).isSome then l else l ++ [(key, fn, extra)]

/-- Lines 20-26. -/
def setBootstrap (c : Comm) : Set := checked fun o => ({ o with comm := c }, c != .null)
/-- Lines 35-43. -/
def setDebugLevel (l : Int) : Set := checked fun o => ({ o with debugLevel := l }, true)
/-- Lines 52-64. -/
def setClientRatio (n : Nat) : Set := checked fun o => if n < 1 then (o, false) else ({ o with clientRatio := n }, true)
/-- Lines 73-85. -/
def setServerRatio (n : Nat) : Set := checked fun o => if n < 1 then (o, false) else ({ o with serverRatio := n }, true)
/-- Lines 95-107. -/
def setPerServer (n : Nat) : Set := checked fun o => if n = 0 then (o, false) else ({ o with perServer := n }, true)
/-- Lines 117-125. -/
def setOpenInit (i : Int) : Set := checked fun o => ({ o with openInit := i != 0 }, true)
/-- Lines 137-146. -/
def setHistograms (r w : Bool) : Set := checked fun o => ({ o with histRead := r, histWrite := w }, true)
/-- Lines 157-167. -/
def setDatastore (s : StoreCfg) : Set := checked fun o => ({ o with store := some s }, true)
/-- Lines 178-188. -/
def setDatastoreName (pre base post : Bytes) : Set :=
  checked fun o => ({ o with dsPrefix := pre, dsBase := base, dsPostfix := post }, true)
/-- Lines 258-274. -/
def setHashName (name : Bytes) : Set := checked fun o =>
  match hashes.lookup name with
  | none => (o, false)
  | some k => ({ o with hashName := name, hashFunc := some (.builtin k), hashArgs := 0 }, true)
/-- Lines 287-301. -/
def setHashFunction (name : Bytes) (func args : Nat) : Set := checked fun o =>
  if func = 0 then (o, false) else ({ o with hashName := name, hashFunc := some (.user func), hashArgs := args }, true)
/-- Lines 303-314. -/
def setNumeric (neg pos : UInt8) (f d : Nat) : Set :=
  checked fun o => ({ o with neg := neg, pos := pos, floatPrec := f, doublePrec := d }, true)
/-- Lines 316-327. -/
def setTransform (type enc encExtra dec decExtra : Nat) : Set := checked fun o =>
  ({ o with encode := emplace o.encode type enc encExtra, decode := emplace o.decode type dec decExtra }, true)
/-- Lines 338-348. -/
def setTransport (t : TransportCfg) : Set := checked fun o => ({ o with transport := some t }, true)
/-- Lines 375-383. -/
def setTransportMPI (listeners : Nat) : Set := fun o => setTransport (.mpi o.comm listeners) o
/-- Lines 425-437. -/
def addEndpoint (id : Int) : Set := checked fun o =>
  if id < 0 then (o, false) else ({ o with endpoints := insertSet id o.endpoints }, true)
/-- Lines 446-454. -/
def clearEndpoints : Set := checked fun o => ({ o with endpoints := [] }, true)
/-- Lines 464-473. -/
def setAsyncAt (n : Nat) : Set := checked fun o => ({ o with asyncEnabled := n != 0, asyncMax := n }, true)
/-- Lines 483-491. -/
def setMaxOps (n : Nat) : Set := checked fun o => ({ o with maxOps := n }, true)
/-- Lines 501-509. -/
def setMaxSize (n : Nat) : Set := checked fun o => ({ o with maxSize := n }, true)
/-- Lines 519-527. -/
def setFirstN (n : Nat) : Set := checked fun o => ({ o with firstN := n }, true)
/-- Lines 539-558. -/
def setGenName (name : Bytes) : Set := checked fun o =>
  match generators.lookup name with
  | none => (o, false)
  | some (g, a) => ({ o with gen := some g, genArgs := a }, true)
/-- Lines 586-599. -/
def setGenFunction (fn args : Nat) : Set := checked fun o =>
  if fn = 0 then (o, false) else ({ o with gen := some (.user fn), genArgs := args }, true)
/-- Lines 620-627. -/
def addTracked (name : Bytes) : Set := checked fun o => ({ o with histNames := insertSet name o.histNames }, true)

/-- The calls of include/hxhim/options.h. A C string is `none` if the pointer is null. -/
inductive Setter where
  | bootstrap (c : Comm)
  | debugLevel (l : Int)
  | clientRatio (n : Nat)
  | serverRatio (n : Nat)
  | perServer (n : Nat)
  | openInit (i : Int)
  | histograms (r w : Bool)
  | datastoreName (pre base post : Option Bytes)
  | inMemory
  | leveldb (create : Bool)
  | rocksdb (create : Bool)
  | hashName (name : Option Bytes)
  | hashFunction (name : Option Bytes) (func args : Nat)
  | numeric (neg pos : UInt8) (f d : Nat)
  | transform (type enc encExtra dec decExtra : Nat)
  | transportNull
  | transportMPI (listeners : Nat)
  | transportThallium (module : Option Bytes) (threads : Int)
  | addEndpoint (id : Int)
  | clearEndpoints
  | asyncAt (n : Nat)
  | maxOps (n : Nat)
  | maxSize (n : Nat)
  | firstN (n : Nat)
  | genName (name : Option Bytes)
  | genFunction (fn args : Nat)
  | track (name : Option Bytes)
  deriving Repr, DecidableEq

/-- A use of a C string after the check of the session: a null pointer is undefined. -/
def withStr (s : Option Bytes) (f : Bytes → Set) (o : Opts) : Out (Opts × Bool) :=
  if o.running then .ok (o, false)
  else match s with
    | none => .ub
    | some s => .ok (f s o)

/-- A setter on a session that exists. `hxhim_set_transport_thallium` and
`hxhim_add_histogram_track_predicate` build a `std::string` before they check the session
(src/hxhim/options.cpp:412-414, 609-611). `hxhim_set_hash_function` looks at `func` before `name`. -/
def Setter.onOpts : Setter → Opts → Out (Opts × Bool)
  | .bootstrap c, o => .ok (setBootstrap c o)
  | .debugLevel l, o => .ok (setDebugLevel l o)
  | .clientRatio n, o => .ok (setClientRatio n o)
  | .serverRatio n, o => .ok (setServerRatio n o)
  | .perServer n, o => .ok (setPerServer n o)
  | .openInit i, o => .ok (setOpenInit i o)
  | .histograms r w, o => .ok (setHistograms r w o)
  | .datastoreName a b c, o =>
    withStr a (fun _ o => (o, true)) o >>= fun _ => withStr b (fun _ o => (o, true)) o >>= fun _ =>
      withStr c (fun c => setDatastoreName (a.getD []) (b.getD []) c) o
  | .inMemory, o => .ok (setDatastore .inMemory o)
  | .leveldb c, o => .ok (setDatastore (.leveldb c) o)
  | .rocksdb c, o => .ok (setDatastore (.rocksdb c) o)
  | .hashName n, o => withStr n setHashName o
  | .hashFunction n f a, o => if f = 0 then .ok (o, false) else withStr n (fun n => setHashFunction n f a) o
  | .numeric n p f d, o => .ok (setNumeric n p f d o)
  | .transform t e ee d de, o => .ok (setTransform t e ee d de o)
  | .transportNull, o => .ok (setTransport .null o)
  | .transportMPI n, o => .ok (setTransportMPI n o)
  | .transportThallium m t, o =>
    match m with
    | none => .ub
    | some m => .ok (setTransport (.thallium m t) o)
  | .addEndpoint i, o => .ok (Config.addEndpoint i o)
  | .clearEndpoints, o => .ok (Config.clearEndpoints o)
  | .asyncAt n, o => .ok (setAsyncAt n o)
  | .maxOps n, o => .ok (setMaxOps n o)
  | .maxSize n, o => .ok (setMaxSize n o)
  | .firstN n, o => .ok (setFirstN n o)
  | .genName n, o => withStr n setGenName o
  | .genFunction f a, o => .ok (setGenFunction f a o)
  | .track n, o =>
    match n with
    | none => .ub
    | some n => .ok (addTracked n o)

/-- `hxhim_t *hx`: null, without private part, or with it. -/
abbrev Handle := Option (Option Opts)

/-- A call of a setter. `hxhim_set_transport_mpi` reads `hx->p->bootstrap.comm` before any check
(src/hxhim/options.cpp:376). -/
def Setter.run (s : Setter) : Handle → Out (Handle × Bool)
  | some (some o) => s.onOpts o >>= fun r => .ok (some (some r.1), r.2)
  | h =>
    match s with
    | .transportMPI _ => .ub
    | .transportThallium none _ => .ub
    | .track none => .ub
    | _ => .ok (h, false)

/-! ## `src/hxhim/config.cpp` -/

/-- A parsing function: new state and what it returns. A loop that never ends is undefined. -/
abbrev Step := Opts → Out (Opts × Bool)

/-- `f && g`. -/
def Step.and (f g : Step) : Step := fun o => f o >>= fun r => if r.2 then g r.1 else .ok (r.1, false)

/-- A step that cannot fail to end. -/
def Step.of (f : Set) : Step := fun o => .ok (f o)

/-- `parse_value`, `parse_map_value` (src/hxhim/config.cpp:24-79). -/
def parseFound {α : Type} (v : Found α) (set : α → Set) : Step := fun o =>
  match v with
  | .notFound => .ok (o, true)
  | .error => .ok (o, false)
  | .found a => .ok (set a o)

/-- `create_if_missing` (src/hxhim/config.cpp:120-131, 135-146): true if the key is absent. -/
def parseCreate (m : Map) (key : Bytes) (mk : Bool → StoreCfg) : Step := fun o =>
  match getValue readBool m key with
  | .error => .ok (o, false)
  | .notFound => .ok (setDatastore (mk true) o)
  | .found c => .ok (setDatastore (mk c) o)

/-- The postfix is optional (src/hxhim/config.cpp:94-155). -/
def parsePostfix (m : Map) (o : Opts) : Opts :=
  match getValue readWord m kPostfix with
  | .found post => { o with dsPostfix := post }
  | _ => o

/-- The configuration of each kind of datastore (src/hxhim/config.cpp:94-155). -/
def parseStore (m : Map) : StoreType → Step
  | .inMemory => Step.of (setDatastore .inMemory)
  | .leveldb => parseCreate m kLevelCreate .leveldb
  | .rocksdb => parseCreate m kRocksCreate .rocksdb

/-- `parse_datastore` (src/hxhim/config.cpp:94-155). -/
def parseDatastore (b : Build) (m : Map) : Step := fun o =>
  match getFromMap m kDatastore (datastores b) with
  | .found t =>
    match getValue readWord m kPrefix with
    | .found pre =>
      match getValue readWord m kBasename with
      | .found base => parseStore m t (parsePostfix m { o with dsPrefix := pre, dsBase := base })
      | _ => .ok ({ o with dsPrefix := pre }, false)
    | _ => .ok (o, false)
  | _ => .ok (o, false)

/-- `parse_hash` (src/hxhim/config.cpp:157-159). -/
def parseHash (m : Map) : Step := parseFound (getValue readWord m kHash) setHashName

/-- The thread count of Thallium (src/hxhim/config.cpp:195-205). What cannot be read leaves 0, what is
too large the largest `int`, what is too small the smallest. -/
def threadCount (m : Map) : Int :=
  let n : Int := match m kThreads with
    | none => -1
    | some s =>
      if (s.dropWhile isSpace).isEmpty then -1
      else match readNumber s with
        | none => 0
        | some (true, n) => if 2 ^ 31 < n then -(2 ^ 31) else -(n : Int)
        | some (false, n) => if 2 ^ 31 ≤ n then 2 ^ 31 - 1 else (n : Int)
  if n < -1 then -1 else n

/-- `parse_transport` (src/hxhim/config.cpp:161-220). -/
def parseTransport (b : Build) (m : Map) : Step := fun o =>
  match getFromMap m kTransport (transports b) with
  | .found .null =>
    Step.and (Step.of (setTransport .null)) (Step.of (setHashName (str "RANK_MOD_DATASTORES"))) o
  | .found .mpi =>
    match getValue readSize m kListeners with
    | .found n => Step.and (Step.of (setTransportMPI n)) (parseHash m) o
    | _ => .ok (o, false)
  | .found .thallium =>
    match m kModule with
    | none => .ok (o, false)
    | some mod => Step.and (Step.of (setTransport (.thallium mod (threadCount m)))) (parseHash m) o
  | _ => .ok (o, false)

/-- `parse_endpointgroup` (src/hxhim/config.cpp:222-248). The loop over a list of ranks makes a new
stream for every iteration, so it reads the first number forever. -/
def parseEndpoints (m : Map) : Step := fun o =>
  match m kEndpoints with
  | none => .ok (o, false)
  | some s =>
    let o := (clearEndpoints o).1
    if s = str "ALL" then
      match o.comm with
      | .null => .ok (o, false)
      | .world none => .ok (o, false)
      | .world (some n) => .ok ((List.range n).foldl (fun o (r : Nat) => (addEndpoint r o).1) o, true)
    else match readInt s with
      | none => .ok (o, false)
      | some id => if (addEndpoint id o).2 then .ub else .ok (o, false)

/-- The value of a `char`, which is signed. -/
def charVal (b : UInt8) : Int := if b.toNat < 128 then b.toNat else (b.toNat : Int) - 256

/-- Conversion of an `int` to `size_t`. -/
def toSize (i : Int) : Nat := (i % 2 ^ 64).toNat

/-- One optional value of `parse_elen`: `none` is failure. -/
def optional {α : Type} (v : Found α) (dflt : α) : Option α :=
  match v with
  | .found a => some a
  | .notFound => some dflt
  | .error => none

/-- `parse_elen` (src/hxhim/config.cpp:250-293). -/
def parseElen (m : Map) : Step := fun o =>
  match optional (getValue readChar m kNeg) elenNeg, optional (getValue readChar m kPos) elenPos,
    optional (getValue readInt m kFloatPrec) elenFloat, optional (getValue readInt m kDoublePrec) elenDouble with
  | some n, some p, some f, some d =>
    if charVal p ≤ charVal n then .ok (o, false)
    else if d ≤ f then .ok (o, false)
    else .ok (setNumeric n p (toSize f) (toSize d) o)
  | _, _, _, _ => .ok (o, false)

/-- Repeated `std::getline(s, name, ',')`. -/
def splitComma (acc : Bytes) : Bytes → List Bytes
  | [] => if acc.isEmpty then [] else [acc]
  | b :: bs => if b = 44 then acc :: splitComma [] bs else splitComma (acc ++ [b]) bs

/-- The second half of `parse_histogram` (src/hxhim/config.cpp:301-324). -/
def parseHistRest (m : Map) : Step := fun o =>
  match optional (getValue readBool m kHistRead) true, optional (getValue readBool m kHistWrite) true with
  | some r, some w =>
    let (o, ok) := setHistograms r w o
    if !ok then .ok (o, false)
    else match m kTrack with
      | none => .ok (o, true)
      | some s => .ok ({ o with histNames := (splitComma [] s).foldl (fun l n => insertSet n l) o.histNames }, true)
  | _, _ => .ok (o, false)

/-- `parse_histogram` (src/hxhim/config.cpp:295-327). -/
def parseHistogram (m : Map) : Step :=
  Step.and (parseFound (getValue readSize m kFirstN) setFirstN)
    (Step.and (parseFound (getValue readWord m kGenName) setGenName) (parseHistRest m))

/-- `fill_options` (src/hxhim/config.cpp:338-360). -/
def fillOptions (b : Build) (m : Map) : Step := fun o =>
  if o.comm = .null then .ok (o, false)
  else
    ((parseFound (getFromMap m kDebugLevel debugLevels) setDebugLevel).and <|
    (parseFound (getValue readSize m kClientRatio) setClientRatio).and <|
    (parseFound (getValue readSize m kServerRatio) setServerRatio).and <|
    (parseFound (getValue readSize m kPerServer) setPerServer).and <|
    (parseDatastore b m).and <|
    (parseTransport b m).and <|
    (parseEndpoints m).and <|
    (parseFound (getValue readSize m kAsyncAt) setAsyncAt).and <|
    (parseFound (getValue readSize m kMaxOps) setMaxOps).and <|
    (parseFound (getValue readSize m kMaxSize) setMaxSize).and <|
    (parseElen m).and <|
    parseHistogram m) o

/-- The readers of `default_reader` (src/hxhim/config.cpp:417-433); the order of the environment
variables is that of an unordered map, here `keys`. -/
def defaultReaders (keys : List Bytes) : List Reader :=
  [.file (str "hxhim.conf"), .envFile (str "HXHIM_CONFIG")] ++
    keys.map fun k => .envVar (str "HXHIM_" ++ k) k

/-- `default_reader` (src/hxhim/config.cpp:405-443). The result of the second `fill_options` is
ignored. -/
def defaultReader (b : Build) (sys : Sys) (keys : List Bytes) (comm : Comm) : Step := fun o =>
  let o := (setBootstrap comm o).1
  fillOptions b (Map.ofList (defaultConfig b)) o >>= fun r =>
    if r.2 then fillOptions b (sequence sys (defaultReaders keys)) r.1 >>= fun r => .ok (r.1, true)
    else .ok (r.1, false)

end Hx.Config

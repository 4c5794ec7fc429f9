import Verif.Spec.Config

/-!
# Specification of options

Which option a configuration key stands for, and which value a text denotes.
-/

namespace Hx.Spec.Config
open Hx Hx.Config

/-- The configuration keys. -/
inductive Key where
  | debugLevel | clientRatio | serverRatio | perServer | datastore | prefix | basename | postfix | levelCreate
  | rocksCreate | hash | transport | listeners | module | threads | endpoints | asyncAt | maxOps | maxSize
  | firstN | genName | track | histRead | histWrite | neg | pos | floatPrec | doublePrec
  deriving Repr, DecidableEq

/-- The name of a key in a configuration. -/
def Key.name : Key → Bytes
  | .debugLevel => str "DEBUG_LEVEL"
  | .clientRatio => str "CLIENT_RATIO"
  | .serverRatio => str "SERVER_RATIO"
  | .perServer => str "DATASTORES_PER_SERVER"
  | .datastore => str "DATASTORE"
  | .prefix => str "DATASTORE_PREFIX"
  | .basename => str "DATASTORE_BASENAME"
  | .postfix => str "DATASTORE_POSTFIX"
  | .levelCreate => str "LEVELDB_CREATE_IF_MISSING"
  | .rocksCreate => str "ROCKSDB_CREATE_IF_MISSING"
  | .hash => str "HASH"
  | .transport => str "TRANSPORT"
  | .listeners => str "NUM_LISTENERS"
  | .module => str "THALLIUM_MODULE"
  | .threads => str "THALLIUM_THREAD_COUNT"
  | .endpoints => str "ENDPOINT_GROUP"
  | .asyncAt => str "START_ASYNC_PUTS_AT"
  | .maxOps => str "MAXIMUM_OPS_PER_REQUEST"
  | .maxSize => str "MAXIMUM_SIZE_PER_REQUEST"
  | .firstN => str "HISTOGRAM_FIRST_N"
  | .genName => str "HISTOGRAM_BUCKET_GEN_NAME"
  | .track => str "HISTOGRAM_TRACK_PREDICATES"
  | .histRead => str "HISTOGRAM_READ_EXISTING"
  | .histWrite => str "HISTOGRAM_WRITE_AT_EXIT"
  | .neg => str "ELEN_NEG_SYMBOL"
  | .pos => str "ELEN_POS_SYMBOL"
  | .floatPrec => str "ELEN_ENCODE_FLOAT_PRECISION"
  | .doublePrec => str "ELEN_ENCODE_DOUBLE_PRECISION"

/-- The value of an option. -/
inductive OptVal where
  | int (i : Int)
  | nat (n : Nat)
  | bytes (b : Bytes)
  | bool (b : Bool)
  | char (c : UInt8)
  | store (t : Option StoreType)
  | transport (t : Option TransportType)
  | hash (name : Bytes) (f : Option HashFn) (args : Nat)
  | gen (g : Option GenFn) (args : Nat)
  | optNat (n : Option Nat)
  | optBytes (b : Option Bytes)
  | ranks (l : List Int)
  | names (l : List Bytes)
  | async (enabled : Bool) (max : Nat)
  deriving Repr, DecidableEq

/-- The option a key stands for. The flags of LevelDB and RocksDB are true and the thread count is -1
where there is none. -/
def view : Key → Opts → OptVal
  | .debugLevel, o => .int o.debugLevel
  | .clientRatio, o => .nat o.clientRatio
  | .serverRatio, o => .nat o.serverRatio
  | .perServer, o => .nat o.perServer
  | .datastore, o => .store (match o.store with
    | none => none
    | some .inMemory => some .inMemory
    | some (.leveldb _) => some .leveldb
    | some (.rocksdb _) => some .rocksdb)
  | .prefix, o => .bytes o.dsPrefix
  | .basename, o => .bytes o.dsBase
  | .postfix, o => .bytes o.dsPostfix
  | .levelCreate, o => .bool (match o.store with | some (.leveldb c) => c | _ => true)
  | .rocksCreate, o => .bool (match o.store with | some (.rocksdb c) => c | _ => true)
  | .hash, o => .hash o.hashName o.hashFunc o.hashArgs
  | .transport, o => .transport (match o.transport with
    | none => none
    | some .null => some .null
    | some (.mpi _ _) => some .mpi
    | some (.thallium _ _) => some .thallium)
  | .listeners, o => .optNat (match o.transport with | some (.mpi _ n) => some n | _ => none)
  | .module, o => .optBytes (match o.transport with | some (.thallium m _) => some m | _ => none)
  | .threads, o => .int (match o.transport with | some (.thallium _ n) => n | _ => -1)
  | .endpoints, o => .ranks o.endpoints
  | .asyncAt, o => .async o.asyncEnabled o.asyncMax
  | .maxOps, o => .nat o.maxOps
  | .maxSize, o => .nat o.maxSize
  | .firstN, o => .nat o.firstN
  | .genName, o => .gen o.gen o.genArgs
  | .track, o => .names o.histNames
  | .histRead, o => .bool o.histRead
  | .histWrite, o => .bool o.histWrite
  | .neg, o => .char o.neg
  | .pos, o => .char o.pos
  | .floatPrec, o => .nat o.floatPrec
  | .doublePrec, o => .nat o.doublePrec

/-- The decimal number `n`. -/
def Decimal (text : Bytes) (n : Nat) : Prop :=
  text ≠ [] ∧ (∀ c ∈ text, 48 ≤ c.toNat ∧ c.toNat ≤ 57) ∧
    n = text.foldl (fun acc c => 10 * acc + (c.toNat - 48)) 0

/-- A truth value. -/
def Truth (text : Bytes) (b : Bool) : Prop :=
  if b then text ∈ [str "true", str "True", str "TRUE"] else text ∈ [str "false", str "False", str "FALSE"]

/-- A list of names, separated by commas. -/
def CommaList (text : Bytes) (l : List Bytes) : Prop :=
  l ≠ [] ∧ (∀ n ∈ l, n ≠ [] ∧ (44 : UInt8) ∉ n) ∧ l.Nodup ∧ text = List.intercalate [44] l

/-- The names of debug levels and the bits the log facility uses for them (include/utils/mlog2.h). -/
inductive DebugName : Bytes → Int → Prop where
  | emergency : DebugName (str "EMERGENCY") (7 * 2 ^ 20)
  | alert : DebugName (str "ALERT") (6 * 2 ^ 20)
  | critical : DebugName (str "CRITICAL") (5 * 2 ^ 20)
  | error : DebugName (str "ERROR") (4 * 2 ^ 20)
  | warning : DebugName (str "WARNING") (3 * 2 ^ 20)
  | notice : DebugName (str "NOTICE") (2 * 2 ^ 20)
  | info : DebugName (str "INFO") (2 ^ 20)
  | debug : DebugName (str "DEBUG") (15 * 2 ^ 16)
  | debug0 : DebugName (str "DEBUG0") (2 ^ 19)
  | debug1 : DebugName (str "DEBUG1") (2 ^ 18)
  | debug2 : DebugName (str "DEBUG2") (2 ^ 17)
  | debug3 : DebugName (str "DEBUG3") (2 ^ 16)

/-- The name of a kind of datastore, and whether the library was built with it. -/
def storeName (b : Build) : StoreType → Bytes × Bool
  | .inMemory => (str "IN_MEMORY", true)
  | .leveldb => (str "LEVELDB", b.leveldb)
  | .rocksdb => (str "ROCKSDB", b.rocksdb)

/-- The name of a transport, and whether the library was built with it. -/
def transportName (b : Build) : TransportType → Bytes × Bool
  | .null => (str "NULL", true)
  | .mpi => (str "MPI", true)
  | .thallium => (str "THALLIUM", b.thallium)

/-- The name of a hash function. -/
def hashName : Hash.Kind → Bytes
  | .datastoreZero => str "DATASTORE_0"
  | .rankMod => str "RANK_MOD_DATASTORES"
  | .sumMod => str "SUM_MOD_DATASTORES"
  | .ber => str "UTHASH_BER"
  | .sax => str "UTHASH_SAX"
  | .fnv => str "UTHASH_FNV"
  | .oat => str "UTHASH_OAT"
  | .jen => str "UTHASH_JEN"
  | .sfh => str "UTHASH_SFH"

/-- The names of bucket generators, with their argument. -/
inductive GenName : Bytes → GenFn → Nat → Prop where
  | ten : GenName (str "10_BUCKETS") .nBuckets 10
  | squareRoot : GenName (str "SQUARE_ROOT_CHOICE") .squareRoot 0
  | sturges : GenName (str "STURGES_FORMULA") .sturges 0
  | rice : GenName (str "RICE_RULE") .rice 0
  | scott : GenName (str "SCOTTS_NORMAL_REFERENCE_RULE") .scott 0
  | log2 : GenName (str "UNIFORM_LOG2") .uniformLog 2
  | log10 : GenName (str "UNIFORM_LOG10") .uniformLog 10

/-- The value the documentation in include/hxhim/config.hpp gives to a text; `n` is the number of
ranks. -/
def Denotes (b : Build) (n : Nat) : Key → Bytes → OptVal → Prop
  | .debugLevel, t, v => ∃ l, DebugName t l ∧ v = .int l
  | .clientRatio, t, v | .serverRatio, t, v | .perServer, t, v => ∃ k, Decimal t k ∧ 0 < k ∧ k < 2 ^ 64 ∧ v = .nat k
  | .maxOps, t, v | .maxSize, t, v | .firstN, t, v => ∃ k, Decimal t k ∧ k < 2 ^ 64 ∧ v = .nat k
  | .asyncAt, t, v => ∃ k, Decimal t k ∧ k < 2 ^ 64 ∧ v = .async (decide (k ≠ 0)) k
  | .datastore, t, v => ∃ s, storeName b s = (t, true) ∧ v = .store (some s)
  | .prefix, t, v | .basename, t, v | .postfix, t, v => Word t ∧ v = .bytes t
  | .levelCreate, t, v | .rocksCreate, t, v | .histRead, t, v | .histWrite, t, v => ∃ c, Truth t c ∧ v = .bool c
  | .hash, t, v => ∃ k, t = hashName k ∧ v = .hash t (some (.builtin k)) 0
  | .transport, t, v => ∃ s, transportName b s = (t, true) ∧ v = .transport (some s)
  | .listeners, t, v => ∃ k, Decimal t k ∧ k < 2 ^ 64 ∧ v = .optNat (some k)
  | .module, t, v => v = .optBytes (some t)
  | .threads, t, v => ∃ k, Decimal t k ∧ k < 2 ^ 31 ∧ v = .int k
  | .endpoints, t, v => t = str "ALL" ∧ v = .ranks ((List.range n).map fun (r : Nat) => (r : Int))
  | .genName, t, v => ∃ g a, GenName t g a ∧ v = .gen (some g) a
  | .track, t, v => ∃ l, CommaList t l ∧ v = .names l
  | .neg, t, v | .pos, t, v => ∃ c, t = [c] ∧ ¬ Blank c ∧ v = .char c
  | .floatPrec, t, v | .doublePrec, t, v => ∃ k, Decimal t k ∧ k < 2 ^ 31 ∧ v = .nat k

/-- The options documented as defaults (`DEFAULT_CONFIG`, include/hxhim/config.hpp:177-208), but with
the negative symbol 1 that its entry amounts to; `n` is the number of ranks. -/
def defaults (b : Build) (n : Nat) : Opts :=
  { Opts.new with
    comm := .world (some n)
    debugLevel := 0x00500000
    clientRatio := 2
    serverRatio := 1
    perServer := 1
    dsPrefix := str "."
    dsBase := str "hxhim"
    store := some (if b.leveldb then .leveldb true else if b.rocksdb then .rocksdb true else .inMemory)
    transport := some .null
    hashName := str "RANK_MOD_DATASTORES"
    hashFunc := some (.builtin .rankMod)
    endpoints := (List.range n).map fun (r : Nat) => (r : Int)
    maxOps := 128
    maxSize := 1048576
    neg := 1
    firstN := 10
    gen := some .nBuckets
    genArgs := 10
    histRead := true
    histWrite := true }

end Hx.Spec.Config

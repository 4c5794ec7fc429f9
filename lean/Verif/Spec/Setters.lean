import Verif.Model.Options

/-!
# Specification: what the setters of a session are for

The options by name, what a call asks for, and which calls are refused.
-/

namespace Hx.Spec.Setters
open Hx Hx.Config

/-- The options of a session. -/
inductive Setting where
  | communicator | debugLevel | clientRatio | serverRatio | perServer | openInit | histogramFiles | datastoreName | datastore | hash
  | numeric | transforms | transport | endpoints | asyncPuts | maxOps | maxSize | firstN | generator | tracked
  deriving Repr, DecidableEq

/-- The type of an option. Sets are predicates, maps are functions. -/
def Setting.Value : Setting → Type
  | .communicator => Comm
  | .debugLevel => Int
  | .clientRatio | .serverRatio | .perServer | .maxOps | .maxSize | .firstN => Nat
  | .openInit => Bool
  | .histogramFiles => Bool × Bool
  | .datastoreName => Bytes × Bytes × Bytes
  | .datastore => Option StoreCfg
  | .hash => Bytes × Option HashFn × Nat
  | .numeric => UInt8 × UInt8 × Nat × Nat
  | .transforms => (Nat → Option (Nat × Nat)) × (Nat → Option (Nat × Nat))
  | .transport => Option TransportCfg
  | .endpoints => Int → Prop
  | .asyncPuts => Bool × Nat
  | .generator => Option GenFn × Nat
  | .tracked => Bytes → Prop

/-- The option of a session. -/
def Setting.read : (k : Setting) → Opts → k.Value
  | .communicator, o => o.comm
  | .debugLevel, o => o.debugLevel
  | .clientRatio, o => o.clientRatio
  | .serverRatio, o => o.serverRatio
  | .perServer, o => o.perServer
  | .openInit, o => o.openInit
  | .histogramFiles, o => (o.histRead, o.histWrite)
  | .datastoreName, o => (o.dsPrefix, o.dsBase, o.dsPostfix)
  | .datastore, o => o.store
  | .hash, o => (o.hashName, o.hashFunc, o.hashArgs)
  | .numeric, o => (o.neg, o.pos, o.floatPrec, o.doublePrec)
  | .transforms, o => (fun t => o.encode.lookup t, fun t => o.decode.lookup t)
  | .transport, o => o.transport
  | .endpoints, o => fun i => i ∈ o.endpoints
  | .asyncPuts, o => (o.asyncEnabled, o.asyncMax)
  | .maxOps, o => o.maxOps
  | .maxSize, o => o.maxSize
  | .firstN, o => o.firstN
  | .generator, o => (o.gen, o.genArgs)
  | .tracked, o => fun n => n ∈ o.histNames

/-- The option a call is for. -/
def subject : Setter → Setting
  | .bootstrap _ => .communicator
  | .debugLevel _ => .debugLevel
  | .clientRatio _ => .clientRatio
  | .serverRatio _ => .serverRatio
  | .perServer _ => .perServer
  | .openInit _ => .openInit
  | .histograms _ _ => .histogramFiles
  | .datastoreName _ _ _ => .datastoreName
  | .inMemory | .leveldb _ | .rocksdb _ => .datastore
  | .hashName _ | .hashFunction _ _ _ => .hash
  | .numeric _ _ _ _ => .numeric
  | .transform _ _ _ _ _ => .transforms
  | .transportNull | .transportMPI _ | .transportThallium _ _ => .transport
  | .addEndpoint _ | .clearEndpoints => .endpoints
  | .asyncAt _ => .asyncPuts
  | .maxOps _ => .maxOps
  | .maxSize _ => .maxSize
  | .firstN _ => .firstN
  | .genName _ | .genFunction _ _ => .generator
  | .track _ => .tracked

/-- The nine hash functions that have names. -/
def NamedHash (name : Bytes) (k : Hash.Kind) : Prop :=
  (name = str "DATASTORE_0" ∧ k = .datastoreZero) ∨ (name = str "RANK_MOD_DATASTORES" ∧ k = .rankMod) ∨
  (name = str "SUM_MOD_DATASTORES" ∧ k = .sumMod) ∨ (name = str "UTHASH_BER" ∧ k = .ber) ∨ (name = str "UTHASH_SAX" ∧ k = .sax) ∨
  (name = str "UTHASH_FNV" ∧ k = .fnv) ∨ (name = str "UTHASH_OAT" ∧ k = .oat) ∨ (name = str "UTHASH_JEN" ∧ k = .jen) ∨
  (name = str "UTHASH_SFH" ∧ k = .sfh)

/-- The seven bucket generators that have names, with their arguments. -/
def NamedGenerator (name : Bytes) (g : GenFn) (args : Nat) : Prop :=
  (name = str "10_BUCKETS" ∧ g = .nBuckets ∧ args = 10) ∨ (name = str "SQUARE_ROOT_CHOICE" ∧ g = .squareRoot ∧ args = 0) ∨
  (name = str "STURGES_FORMULA" ∧ g = .sturges ∧ args = 0) ∨ (name = str "RICE_RULE" ∧ g = .rice ∧ args = 0) ∨
  (name = str "SCOTTS_NORMAL_REFERENCE_RULE" ∧ g = .scott ∧ args = 0) ∨ (name = str "UNIFORM_LOG2" ∧ g = .uniformLog ∧ args = 2) ∨
  (name = str "UNIFORM_LOG10" ∧ g = .uniformLog ∧ args = 10)

/-- The call asks for value `v`, if the options were `o`. A call that asks for nothing is to be refused. -/
def Asks : (s : Setter) → Opts → (subject s).Value → Prop
  | .bootstrap c, _, v => c ≠ .null ∧ v = c
  | .debugLevel l, _, v => v = l
  | .clientRatio n, _, v => n ≠ 0 ∧ v = n
  | .serverRatio n, _, v => n ≠ 0 ∧ v = n
  | .perServer n, _, v => n ≠ 0 ∧ v = n
  | .openInit i, _, v => v = decide (i ≠ 0)
  | .histograms r w, _, v => v = (r, w)
  | .datastoreName a b c, _, v => a = some v.1 ∧ b = some v.2.1 ∧ c = some v.2.2
  | .inMemory, _, v => v = some .inMemory
  | .leveldb c, _, v => v = some (.leveldb c)
  | .rocksdb c, _, v => v = some (.rocksdb c)
  | .hashName n, _, v => n = some v.1 ∧ ∃ k, NamedHash v.1 k ∧ v.2 = (some (.builtin k), 0)
  | .hashFunction n f a, _, v => f ≠ 0 ∧ n = some v.1 ∧ v.2 = (some (.user f), a)
  | .numeric n p f d, _, v => v = (n, p, f, d)
  | .transform t e ee d de, o, v =>
    v = (fun x => if x = t then some (e, ee) else (Setting.transforms.read o).1 x,
      fun x => if x = t then some (d, de) else (Setting.transforms.read o).2 x)
  | .transportNull, _, v => v = some .null
  | .transportMPI n, o, v => v = some (.mpi o.comm n)
  | .transportThallium m t, _, v => ∃ name, m = some name ∧ v = some (.thallium name t)
  | .addEndpoint i, o, v => 0 ≤ i ∧ v = fun x => x = i ∨ Setting.endpoints.read o x
  | .clearEndpoints, _, v => v = fun _ => False
  | .asyncAt n, _, v => v = (decide (n ≠ 0), n)
  | .maxOps n, _, v => v = n
  | .maxSize n, _, v => v = n
  | .firstN n, _, v => v = n
  | .genName n, _, v => ∃ name g a, n = some name ∧ NamedGenerator name g a ∧ v = (some g, a)
  | .genFunction f a, _, v => f ≠ 0 ∧ v = (some (.user f), a)
  | .track n, o, v => ∃ name, n = some name ∧ v = fun x => x = name ∨ Setting.tracked.read o x

end Hx.Spec.Setters

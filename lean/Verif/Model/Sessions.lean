import Verif.Model.HistStore
import Verif.Model.Overlap
import Verif.Model.Placement

/-!
# Sessions one after the other on the same LevelDB directories

* The directories are on a file system that all ranks see. What is in the directories between sessions
  is a function of their names.
* A session opens its datastores, its ranks queue and flush (flushes may overlap, `Model/Overlap`), and
  then the datastores are closed. LevelDB keeps what its calls acknowledged until the directory is opened
  again; a session that ends without closing its datastores is not modelled.
* Datastores are opened by `Open` (`open_init`, the default) and not renamed later
  (`ChangeDatastoreName`, C41). RocksDB has the same code as LevelDB.
-/

namespace Hx.Sessions
open Hx Msg Store Process Job Place

/-- The databases in the directories; `none` when there is none. -/
abbrev Disk := Bytes → Option Db

/-- The options of a session that its datastores depend on (`hx->p->range_server`, `hx->p->histograms`):
the directory names are made from `pre`, `base` and `post`, `create` is `create_if_missing` of
`LevelDB::Config`, `names` are the histograms, `read` and `write` whether they are read and written. -/
structure Opts where
  layout : Layout
  backend : Backend
  pre : Bytes
  base : Bytes
  post : Bytes
  create : Bool
  names : List Bytes
  firstN : Nat
  gen : Option Hist.Gen
  read : Bool
  write : Bool

/-- The directory of datastore `id` (src/datastore/datastores.cpp:106-110); the separator is '/'
(include/datastore/datastores.hpp:20-24). -/
def Opts.dir (o : Opts) (id : Nat) : Bytes := generateName o.pre o.base id o.post 47

/-- `leveldb::DB::Open` in `OpenImpl` (src/datastore/LevelDB.cpp:29-49): what is there, or an empty
database when there is none and `create_if_missing` is set (src/datastore/LevelDB.cpp:20-23). `lib` is
false when the library fails for any other reason. -/
def openDir (create lib : Bool) (found : Option Db) : Option Db :=
  if lib then
    match found with
    | some db => some db
    | none => if create then some [] else none
  else none

/-- `Datastore::Init` without an exact name (src/datastore/datastores.cpp:20-136): a new datastore is
opened, and its histograms are read and made. `none` when it cannot be opened. -/
def Opts.init (o : Opts) (lib : Bytes → Bool) (disk : Disk) (id : Nat) : Out (Option DS) :=
  DS.openDs ⟨o.backend, [], false, [], 0, 0, 0⟩ (openDir o.create (lib (o.dir id)) (disk (o.dir id))) none >>= fun d =>
  if d.usable then d.initHists o.read o.names o.firstN o.gen >>= fun d => .ok (some d) else .ok none

/-- The loop of `init::datastore` (src/hxhim/init.cpp:153-170) over the datastores of a rank; `none` when
it returns an error. -/
def Opts.initAll (o : Opts) (lib : Bytes → Bool) (disk : Disk) : List Nat → Out (Option (List DS))
  | [] => .ok (some [])
  | id :: ids => o.init lib disk id >>= fun d =>
    match d with
    | none => .ok none
    | some d => o.initAll lib disk ids >>= fun r => .ok (r.map (fun ds => d :: ds))

/-- The ids of the datastores of a rank (src/hxhim/init.cpp:142-156). -/
def Opts.ids (o : Opts) (rank : Nat) : List Nat := (o.layout.created rank).map Int.toNat

/-- `init::datastore` (src/hxhim/init.cpp:111-174) succeeded on all ranks; `w` has their datastores. -/
structure Opened (o : Opts) (lib : Bytes → Bool) (disk : Disk) (w : World) : Prop where
  valid : o.layout.Valid
  opened : ∀ rank : Nat, rank < o.layout.size → o.initAll lib disk (o.ids rank) = .ok (some (w.ds rank))
  others : ∀ rank : Int, ¬ (0 ≤ rank ∧ rank < o.layout.size) → w.ds rank = []

/-- The datastores of all ranks with their ids. -/
def Opts.owned (o : Opts) (w : World) : List (Nat × DS) :=
  (List.range o.layout.size).flatMap (fun rank => (o.ids rank).zip (w.ds rank))

/-- `Close` of one datastore in `Datastore::destroy` (src/datastore/datastores.cpp:139-148). An in-memory
datastore leaves nothing. `wr` is the success of the write of the histograms. -/
def Opts.closeOne (o : Opts) (wr : Bytes → Bool) (disk : Disk) (x : Nat × DS) : Disk :=
  match o.backend with
  | .mem => disk
  | .level => fun name => if name = o.dir x.1 then some (x.2.closeDs (wr name) o.write).2 else disk name

/-- `Datastore::destroy` (src/datastore/datastores.cpp:138-153) on all ranks. -/
def Opts.close (o : Opts) (wr : Bytes → Bool) (w : World) (disk : Disk) : Disk := (o.owned w).foldl (o.closeOne wr) disk

/-- A session: its options, what the library does when directories are opened (`lib`) and histograms are
written (`wr`), the flushes of its ranks, and the log and the results of an execution. -/
structure Session where
  opts : Opts
  heap : Nat
  lib : Bytes → Bool
  wr : Bytes → Bool
  turns : List Turn
  log : List Served
  rs : List Results.Results

/-- Sessions one after the other. -/
def runs (cb : Callbacks) : Disk → List Session → Disk → Prop
  | disk, [], disk' => disk' = disk
  | disk, s :: l, disk' => ∃ w w', Opened s.opts s.lib disk w ∧
      Overlap cb s.heap s.opts.layout.total w s.turns s.log w' s.rs ∧ runs cb (s.opts.close s.wr w' disk) l disk'

end Hx.Sessions

import Verif.Model.Store

/-!
# Histograms in a datastore: opening, closing, writing and reading

`src/datastore/datastore.cpp`, `InMemory.cpp`, `LevelDB.cpp`, `RocksDB.cpp`, `datastores.cpp`.
The contents of a LevelDB or RocksDB directory are given as a parameter when it is opened and
returned when it is closed.
-/

namespace Hx.Store
open Hx Msg

/-- `HISTOGRAM_SUBJECT` (src/datastore/datastore.cpp:12): "HISTOGRAM". -/
def histSubject : Bytes := [72, 73, 83, 84, 79, 71, 82, 65, 77]

/-- The key a histogram is stored under (src/datastore/InMemory.cpp:425-426,
src/datastore/LevelDB.cpp:468-469); `Blob(std::string)` has type `HXHIM_DATA_BYTE`. -/
def histKey (name : Bytes) : Bytes := Key.spToKey ⟨histSubject, tByte⟩ ⟨name, tByte⟩

/-- `WriteHistogramsImpl` (src/datastore/InMemory.cpp:422-442, src/datastore/LevelDB.cpp:463-488);
`wr` is the success of LevelDB's `Write`. The packed form has no type suffix. For a histogram whose
arrays match its counters `pack_size` is the length of `packBytes`. -/
def writeHists (b : Backend) (wr : Bool) (db : Db) (hs : Map Hist) : Db :=
  if b = .mem ∨ wr = true then hs.foldl (fun db x => put (histKey x.1) x.2.packBytes db) db else db

/-- `ReadHistogramsImpl` (src/datastore/InMemory.cpp:452-477, src/datastore/LevelDB.cpp:499-528):
the histograms and the number found. -/
def readHists (db : Db) : Map Hist → List Bytes → Out (Map Hist × Nat)
  | hs, [] => .ok (hs, 0)
  | hs, name :: names =>
    match find db (histKey name) with
    | none => readHists db hs names
    | some v =>
      Hist.unpackIn Hist.empty v.length v >>= fun r =>
      match r.1 with
      | none => readHists db hs names
      | some h => readHists db (put name h hs) names >>= fun r => .ok (r.1, r.2 + 1)

/-- `Open` (src/datastore/datastore.cpp:87-94) with `OpenImpl` (src/datastore/InMemory.cpp:26-30,
src/datastore/LevelDB.cpp:29-49): an in-memory datastore starts empty; `stored` is what the
LevelDB directory holds, `none` when it cannot be opened. -/
def DS.openDs (d : DS) (stored : Option Db) (names : Option (List Bytes)) : Out DS :=
  let d := match d.backend with
    | .mem => { d with db := [], usable := true }
    | .level => match stored with
      | some db => { d with db := db, usable := true }
      | none => { d with db := [], usable := false }
  match names with
  | none => .ok d
  | some names => if d.usable then readHists d.db d.hists names >>= fun r => .ok { d with hists := r.1 } else .ok d

/-- `Close` (src/datastore/datastore.cpp:96-100) with `Sync` (369-375) and `CloseImpl`: the closed
datastore and what is left in the LevelDB directory. -/
def DS.closeDs (d : DS) (wr write : Bool) : DS × Db :=
  let db := if write ∧ d.usable then writeHists d.backend wr d.db d.hists else d.db
  ({ d with db := [], usable := false, hists := [] }, db)

/-- The histogram part of `Datastore::Init` (src/datastore/datastores.cpp:115-130) after a
successful `Open`: read histograms if asked to, then make the missing ones (all of them when not
reading). -/
def DS.initHists (d : DS) (read : Bool) (names : List Bytes) (firstN : Nat) (gen : Option Hist.Gen) : Out DS :=
  (if read then readHists d.db d.hists names else .ok (d.hists, 0)) >>= fun r =>
  .ok { d with hists := names.foldl (fun hs name =>
    if read = false ∨ (find hs name).isNone then put name (Hist.create firstN gen name) hs else hs) r.1 }

end Hx.Store

import Verif.Model.Elen

/-!
# Where datastores live: `src/hxhim/RangeServer.cpp`, `src/hxhim/Datastore.cpp`,
`src/hxhim/init.cpp`, `src/hxhim/accessors.cpp`

`int` is modelled by `Int` and `std::size_t` by `Nat`; overflow of `int` (more than 2^31 - 1
datastores) is not modelled.
-/

namespace Hx.Place

/-- Result of a C++ expression of type `int` that is a boolean. -/
def ofBool (b : Bool) : Int := if b then 1 else 0

/-- `RangeServer::is_range_server(rank, client, server)` (src/hxhim/RangeServer.cpp:15-25). -/
def isRangeServer (rank : Int) (client server : Nat) : Int :=
  if rank < 0 ∨ client = 0 ∨ server = 0 then -1
  else ofBool (rank.toNat % client < server)

/-- `RangeServer::is_range_server(rank, size, client, server)`
(src/hxhim/RangeServer.cpp:37-46). -/
def isRangeServerIn (rank size : Int) (client server : Nat) : Int :=
  if size ≤ rank then -1 else isRangeServer rank client server

/-- `RangeServer::get_rank(id, client, server)` (src/hxhim/RangeServer.cpp:57-74). -/
def rsGetRank (id : Int) (client server : Nat) : Int :=
  if id < 0 ∨ client = 0 ∨ server = 0 then -1
  else if client ≤ server then id
  else ((id.toNat / server * client + id.toNat % server : Nat) : Int)

/-- `RangeServer::get_rank(id, size, client, server)` (src/hxhim/RangeServer.cpp:86-96). -/
def rsGetRankIn (id size : Int) (client server : Nat) : Int :=
  let rank := rsGetRank id client server
  if size ≤ rank then -1 else rank

/-- `RangeServer::get_id(rank, client, server)` (src/hxhim/RangeServer.cpp:107-129). -/
def rsGetId (rank : Int) (client server : Nat) : Int :=
  if rank < 0 ∨ client = 0 ∨ server = 0 then -1
  else if client ≤ server then rank
  else if server ≤ rank.toNat % client then -1
  else ((rank.toNat / client * server + rank.toNat % client : Nat) : Int)

/-- `RangeServer::get_id(rank, size, client, server)` (src/hxhim/RangeServer.cpp:140-149). -/
def rsGetIdIn (rank size : Int) (client server : Nat) : Int :=
  if size ≤ rank then -1 else rsGetId rank client server

/-- `Datastore::get_rank(id, client, server, per)` (src/hxhim/Datastore.cpp:14-33). -/
def dsGetRank (id : Int) (client server per : Nat) : Int :=
  if id < 0 ∨ client = 0 ∨ server = 0 ∨ per = 0 then -1
  else
    let rs := id.toNat / per
    if client ≤ server then (rs : Int)
    else ((rs / server * client + rs % server : Nat) : Int)

/-- `Datastore::get_rank(id, size, client, server, per)` (src/hxhim/Datastore.cpp:45-56). -/
def dsGetRankIn (id size : Int) (client server per : Nat) : Int :=
  let rank := dsGetRank id client server per
  if size ≤ rank then -1 else rank

/-- `Datastore::get_id(rank, offset, client, server, per)` (src/hxhim/Datastore.cpp:67-94). -/
def dsGetId (rank : Int) (offset client server per : Nat) : Int :=
  if rank < 0 ∨ client = 0 ∨ server = 0 ∨ per = 0 ∨ per ≤ offset then -1
  else if client ≤ server then ((rank.toNat * per + offset : Nat) : Int)
  else if server ≤ rank.toNat % client then -1
  else (((rank.toNat / client * server + rank.toNat % client) * per + offset : Nat) : Int)

/-- `Datastore::get_id(rank, offset, size, client, server, per)`
(src/hxhim/Datastore.cpp:105-116). -/
def dsGetIdIn (rank : Int) (offset : Nat) (size : Int) (client server per : Nat) : Int :=
  if size ≤ rank then -1 else dsGetId rank offset client server per

/-- The parameters of a session that decide placement (`hx->p->bootstrap.size`,
`hx->p->range_server`). -/
structure Layout where
  size : Nat
  client : Nat
  server : Nat
  per : Nat
  deriving Repr, DecidableEq

/-- Layouts that `init::datastore` accepts (src/hxhim/init.cpp:113-117). -/
def Layout.Valid (l : Layout) : Prop := 0 < l.client ∧ 0 < l.server ∧ 0 < l.per

instance (l : Layout) : Decidable l.Valid := by unfold Layout.Valid; infer_instance

/-- `total_range_servers` as computed by `init::datastore` (src/hxhim/init.cpp:121-136). -/
def Layout.totalRangeServers (l : Layout) : Nat :=
  if l.client ≤ l.server then l.size
  else l.server * (l.size / l.client) + min (l.size % l.client) l.server

/-- `datastores.total` (src/hxhim/init.cpp:139), which `GetDatastoreCount` reports
(src/hxhim/accessors.cpp:238-244). -/
def Layout.total (l : Layout) : Nat := l.totalRangeServers * l.per

/-- `queues.ds_to_rank[i]` (src/hxhim/init.cpp:69-75): the rank requests for datastore `i` are
sent to. -/
def Layout.dsToRank (l : Layout) (i : Nat) : Int := dsGetRankIn i l.size l.client l.server l.per

/-- The datastores a rank creates: `init::datastore` (src/hxhim/init.cpp:142-170). Nothing when
the rank has no range server id, otherwise `per` datastores numbered from
`Datastore::get_id(rank, 0, size, ...)`. -/
def Layout.created (l : Layout) (rank : Nat) : List Int :=
  if rsGetIdIn rank l.size l.client l.server < 0 then []
  else (List.range l.per).map (fun (i : Nat) => dsGetIdIn rank 0 l.size l.client l.server l.per + (i : Int))

/-- The position inside `range_server.datastores.ds` of the local datastore that serves requests
for datastore `id`: `Transport::local::range_server` indexes with the part of the id below `per`
(include/transport/backend/local/RangeServer.hpp:54). -/
def Layout.offset (l : Layout) (id : Nat) : Nat := id % l.per

/-- `GetDatastoreLocation` with both outputs requested (src/hxhim/accessors.cpp:284-305). The call
`RangeServer::get_rank(id, client_ratio, server_ratio, per_server)` has four arguments, so it is
the overload `get_rank(id, size, client_ratio, server_ratio)`: the client ratio is passed as the
world size, the server ratio as the client ratio and the number of datastores as the server
ratio. -/
def Layout.getDatastoreLocation (l : Layout) (id : Int) : Out (Int × Int) :=
  if id < 0 ∨ l.total ≤ id.toNat then .err
  else
    let rank := rsGetRankIn id (l.client : Int) l.server l.per
    if rank < 0 then .err
    else .ok (rank, ((id.toNat % l.per : Nat) : Int))

/-- `GetDatastoreLocation` with a null `rank` (src/hxhim/accessors.cpp:284-305). -/
def Layout.getDatastoreOffset (l : Layout) (id : Int) : Out Int :=
  if id < 0 ∨ l.total ≤ id.toNat then .err
  else .ok ((id.toNat % l.per : Nat) : Int)

/-- Decimal form of an `int` as written by `operator<<`. -/
def intDec (v : Int) : Bytes := if v < 0 then 45 :: Elen.toDec v.natAbs else Elen.toDec v.natAbs

/-- `Datastore::generate_name` (src/datastore/datastores.cpp:10-18). -/
def generateName (pre basename : Bytes) (id : Nat) (post : Bytes) (sep : UInt8) : Bytes :=
  pre ++ [sep] ++ basename ++ [45] ++ Elen.toDec id ++ post

/-- The name `ChangeHash` opens local datastore number `i` of a rank with
(src/hxhim/hxhim.cpp:316-325). `Datastore::get_id(rank, size, client, server, i)` has five
arguments: the world size is passed as the offset and `i` as the number of datastores per
server. -/
def Layout.changeHashName (l : Layout) (name : Bytes) (rank i : Nat) : Bytes :=
  name ++ [45] ++ intDec (dsGetId rank l.size l.client l.server i)

/-- The name `ChangeDatastoreName` opens the datastore with id `id` with
(src/hxhim/hxhim.cpp:384-391). -/
def changeDatastoreName (pre basename : Bytes) (id : Nat) (post : Bytes) (sep : UInt8) : Bytes :=
  generateName pre basename id post sep

end Hx.Place

import Verif.Model.Rpc
import Verif.Model.MpiJob

/-!
# Flushes as calls of the Thallium transport

The requests of flushes (`Model/MpiJob.lean`) as what the clients of `Model/Rpc.lean` do, and the range
servers of the datastore model as what the handlers do. The simplifications are those of
`Model/MpiJob.lean`.
-/

namespace Hx.Job
open Hx Msg Process

variable {n : Nat}

/-- A handler unpacks the request, executes it, and packs the response
(src/transport/backend/Thallium/RangeServer.cpp:66-90). A request of the own rank is executed
(include/transport/backend/local/RangeServer.hpp:32-84). A response that can not be packed is undefined,
as in `Process.remoteServe`. -/
def rpcServe (cb : Store.Callbacks) (heap addr : Nat) (junk : Nat → Bytes) (w : World) (s : Fin n) (p : Parcel) : Out (World × Reply) :=
  match p.packet with
  | .wire bytes =>
    match rdReq addr bytes with
    | .ok (req, _) =>
      World.serve cb heap w s req >>= fun x =>
      x.2.pack >>= fun b => .ok (x.1, .wire (b ++ junk (x.2.size - b.length)))
    | _ => .ub
  | .direct req => World.serve cb heap w s req >>= fun x => .ok (x.1, .direct x.2)

/-- The job as ranks that use Thallium. -/
def rpcSys (cb : Store.Callbacks) (heap addr : Nat) (junk : Nat → Bytes) (threads : Nat) (async : Bool) : Rpc.Sys n Parcel Reply World where
  serve := rpcServe cb heap addr junk
  reqSize p := match p.packet with | .wire b => b.length | .direct _ => 0
  resSize r := match r with | .wire b => b.length | .direct _ => 0
  threads := threads
  async := async

end Hx.Job

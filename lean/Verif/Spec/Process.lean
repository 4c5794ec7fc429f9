import Verif.Model.Process

/-!
# Specification: what a flush has to do

A flush is a list of deliveries, executed one after the other.
-/

namespace Hx.Spec
open Hx Msg Process

/-- A request and the rank it is given to. `wire` says that it is packed and sent. -/
structure Send where
  rank : Int
  wire : Bool
  req : Req

/-- Execute deliveries; the responses that come back, in order. -/
def deliverAll {σ : Type} (exec : σ → Send → Out (σ × Option Res)) : List Send → σ → Out (σ × List Res)
  | [], s => .ok (s, [])
  | x :: l, s =>
    exec s x >>= fun y =>
    deliverAll exec l y.1 >>= fun z =>
    .ok (z.1, y.2.toList ++ z.2)

/-- Deliver over the wire, or by a function call. -/
def deliver {σ : Type} (net : Net) (serve : Server σ) (s : σ) (x : Send) : Out (σ × Option Res) :=
  if x.wire then remoteServe net serve s x.rank x.req
  else serve s x.rank x.req >>= fun y => .ok (y.1, some y.2)

/-- The requests delivered to a datastore, in order. -/
def sentTo (l : List Send) (ds : Nat) : List ReqBody :=
  (l.filter (fun x => x.req.dst == (ds : Int))).map (fun x => x.req.body)

/-- The packets in the queue of a datastore. -/
def packetsFor {α : Type} (mk : List α → ReqBody) (qs : List (List (List α))) (ds : Nat) : List ReqBody :=
  (qs.getD ds []).map mk

/-- The deliveries hand over every packet exactly once, to the rank of its datastore and in the order
of the queue; the network is used exactly for other ranks. -/
structure Delivers {α : Type} (net : Net) (mk : List α → ReqBody) (qs : List (List (List α))) (l : List Send) : Prop where
  packets : ∀ ds, sentTo l ds = packetsFor mk qs ds
  place : ∀ x ∈ l, x.req.src = net.rank ∧ ∃ ds : Nat, ds < qs.length ∧ x.req.dst = ds ∧
    net.dsToRank[ds]? = some x.rank ∧ x.wire = decide (x.rank ≠ net.rank)

/-- The endpoint group leads from the datastores on a rank to that rank. -/
def Reaches (net : Net) (ds : Nat) (rank : Int) : Prop :=
  match net.transport with
  | .null => False
  | .mpi ranks => ranks.lookup (ds : Int) = some rank ∧ ranks.lookup rank = some rank
  | .thallium endpoints => endpoints.lookup rank = some rank

/-- Every datastore has a rank, other ranks can be reached, and no other rank has two datastores. -/
structure Routed (net : Net) (n : Nat) : Prop where
  placed : n ≤ net.dsToRank.length
  reach : ∀ (ds : Nat) (rank : Int), ds < n → net.dsToRank[ds]? = some rank → rank ≠ net.rank → Reaches net ds rank
  single : ∀ (ds ds' : Nat) (rank : Int), ds < n → ds' < n → net.dsToRank[ds]? = some rank →
    net.dsToRank[ds']? = some rank → rank ≠ net.rank → ds = ds'

end Hx.Spec

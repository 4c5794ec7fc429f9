import Verif.Model.Process

/-!
# Several ranks that use the same range servers

* Ranks take turns: a rank queues operations and then calls `Flush`
  (src/hxhim/ops/FLUSH.cpp:211-235), which is over before another rank flushes. What each rank queues
  only reaches the range servers with its flush.
* Asynchronous PUTs are disabled (`START_ASYNC_PUT_AT` 0).
* Every flush leaves all queues empty (`C30_order`), so every turn starts with the queues of
  `init::queues`.
-/

namespace Hx.Job
open Hx Process

/-- One turn of a rank: its configuration, its connections, and its calls before the flush. -/
structure Turn where
  cfg : Queue.Cfg
  net : Net
  calls : List Queue.Call

/-- Queue (`Queue.calls`) and flush. `total` is the number of datastores of the job. -/
def turn (cb : Store.Callbacks) (heap total : Nat) (w : World) (x : Turn) : Out (World × Results.Results) :=
  Queue.calls x.cfg true (Queue.Queues.init total) x.calls >>= fun q =>
  flush x.net (World.serve cb heap) w q >>= fun y => .ok (y.1, y.2.1)

/-- Turns one after the other: the range servers and the results of each turn. -/
def run (cb : Store.Callbacks) (heap total : Nat) : World → List Turn → Out (World × List Results.Results)
  | w, [] => .ok (w, [])
  | w, x :: l =>
    turn cb heap total w x >>= fun y =>
    run cb heap total y.1 l >>= fun z => .ok (z.1, y.2 :: z.2)

end Hx.Job

import Verif.Model.BlobUse

/-!
# What many messages do with blobs at once

`Model/BlobUse.lean` follows one message from the first operation queued to the
destruction of the results.  A job has many on their way at the same time:
each rank has several, the thread that sends PUTs in the background
(`src/hxhim/init.cpp:218-300`) makes more of them while the user queues, and range
servers answer in threads of their own
(`src/transport/backend/Thallium/RangeServer.cpp`,
`src/transport/backend/MPI/RangeServer.cpp`).  Here the operations of many
messages are mixed in any order that keeps the order of each message.

Simplifications: operations on blobs are done one at a time (the allocator of
`src/utils/memory.cpp` is taken to be safe for threads), and all ranks share
one memory, in which no two have the same addresses.
-/

namespace Hx.Own

/-- Requests for histograms that the rank serves itself
(`src/hxhim/ops/HISTOGRAM.cpp`, `src/message/BHistogram.cpp:24-27`,
`src/datastore/datastore.cpp:186-202`). -/
def histLocal (n : Nat) (e : Nat → Entry) : Program :=
  (each n fun _ => make [8])
  ++ (each n fun i => [.make 0 (.outside (e i).sub) (e i).subLen 7 false, .copy 3 0, .copy 4 3,
        .assign 8 4] ++ drop [4, 3, 0])
  ++ (each n fun _ => look [8])
  ++ (each n fun _ => drop [8])

/-- The operations of a program one by one. -/
def flat (p : Program) : List (Place × Op) := p.flatMap fun x => x.2.map fun o => (x.1, o)

/-- What is done one after the other: the message, the place and the operation. -/
abbrev History := List (Nat × Place × Op)

/-- What is done for message `k`. -/
def History.of (h : History) (k : Nat) : List (Place × Op) :=
  (h.filter fun x => x.1 = k).map fun x => x.2

/-- The operations on variables; place `q` of message `k` keeps the blob of
role `r` in `v k q r`. -/
def History.ops (v : Nat → Place → Nat → Nat) (h : History) : List Op :=
  h.map fun x => x.2.2.rename (v x.1 x.2.1)

end Hx.Own

import Verif.Model.AsyncJob
import Verif.Model.Overlap

/-!
# Several ranks with asynchronous PUTs that flush at the same time

The code is that of `Model/Async` (src/hxhim/init.cpp:223-281, src/hxhim/ops/FLUSH.cpp:211-235), which is cited there.
A trace has what happens in the job in the order of time: ranks begin and end turns (`AsyncJob.turnJobs`), and
range servers execute requests, one after the other (`Model/Overlap`).

* Every rank has a thread of the user and a background thread (`Async.St`). What one step of a rank sends is
  executed while it takes this step; the requests of other ranks can come in between. `srv` has the responses
  the step gets; all of them are used.
* The requests of a step are executed in the order they are sent, except that those to different ranks can
  change places (`Job.sameOrder`), as in `Model/Overlap`.
* The two threads of one rank do not take steps at the same time, as in `Model/Async`. Threads of different
  ranks do.
* Requests have the number of the turn their rank is in. This is a name for what is there in the trace: the
  first turn to begin has the number 0. A request of a rank that is in no turn has the number of turns, which
  is not the number of a turn.
-/

namespace Hx.AsyncOverlap
open Hx Process Results Session Async AsyncJob

variable {n : Nat}

inductive Event (n : Nat) where
  | begins (i : Fin n) (calls : List Queue.Call)
  | serves (i : Fin n) (y : Job.Served)
  | ends (i : Fin n) (told : List Results)

/-- The rank an event belongs to; for a request the one that sent it. -/
def Event.rank : Event n → Fin n
  | .begins i _ | .serves i _ | .ends i _ => i

/-- What a rank does. -/
def own (i : Fin n) (trace : List (Event n)) : List (Event n) := trace.filter (fun x => decide (x.rank = i))

/-- The requests, in the order they were executed. -/
def logOf (trace : List (Event n)) : List Job.Served :=
  trace.filterMap (fun x => match x with | .serves _ y => some y | _ => none)

/-- What the next turn of a rank to end returns. -/
def toldBy (i : Fin n) : List (Event n) → List Results
  | [] => []
  | .ends j told :: l => if j = i then told else toldBy i l
  | _ :: l => toldBy i l

/-- The turns in the order they begin, with their ranks, the calls before `Flush` and what the flush functions
return. -/
def turnsOf : List (Event n) → List (Fin n × List Queue.Call × List Results)
  | [] => []
  | .begins i calls :: l => (i, calls, toldBy i l) :: turnsOf l
  | _ :: l => turnsOf l

def put {α : Type} (f : Fin n → α) (i : Fin n) (a : α) : Fin n → α := fun j => if j = i then a else f j

/-- The requests have the number of the turn the rank is in, given the turns the ranks are in, the number of
the next turn, and the number of all turns. -/
def numbered (total : Nat) : (Fin n → Option Nat) → Nat → List (Event n) → Prop
  | _, _, [] => True
  | turn, k, .begins i _ :: l => numbered total (put turn i (some k)) (k + 1) l
  | turn, k, .serves i y :: l => y.turn = (turn i).getD total ∧ numbered total turn k l
  | turn, k, .ends i _ :: l => numbered total (put turn i none) k l

/-- The threads of a rank take steps, in any order, while its requests `part` are executed. -/
inductive Steps (b : Backend (List Job.Served)) (e : Env) :
    St (List Job.Served) → List Job.Served → St (List Job.Served) → Prop where
  | refl (st) : Steps b e st [] st
  | step {st a asked part st' rest st''} : Job.sameOrder asked part →
      step b e { st with srv := asked } a = some (.ok st') → st'.srv = [] →
      Steps b e st' rest st'' → Steps b e st (part ++ rest) st''

/-- A rank takes turns. -/
inductive Acts (b : Backend (List Job.Served)) (e : Env) (i : Fin n) : St (List Job.Served) → List (Event n) → Prop where
  | nil {st part st'} : Steps b e st part st' → Acts b e i st (part.map (.serves i))
  | turn {st before st0 calls part st1 l} : Steps b e st before st0 →
      Steps b e { st0 with jobs := turnJobs calls } part st1 → st1.user = .idle → st1.jobs = [] → Acts b e i st1 l →
      Acts b e i st (before.map (.serves i) ++
        .begins i calls :: (part.map (.serves i) ++ .ends i (st1.told.drop st0.told.length) :: l))

/-- `trace` is an execution of ranks that are in the states `S` at first. -/
structure Trace (cb : Store.Callbacks) (heap : Nat) (b : Backend (List Job.Served)) (env : Fin n → Env) (w : World)
    (S : Fin n → St (List Job.Served)) (trace : List (Event n)) (w' : World) : Prop where
  executes : Job.executes cb heap w (logOf trace) w'
  numbered : numbered (turnsOf trace).length (fun _ => none) 0 trace
  ranks : ∀ i, Acts b (env i) i (S i) (own i trace)

end Hx.AsyncOverlap

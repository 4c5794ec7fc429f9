import Verif.Model.Async

/-!
# Several ranks with asynchronous PUTs that use the same range servers

Every rank has a thread of the user and a background thread (`Async.St`). In its turn a rank queues
operations and calls `Flush` (src/hxhim/ops/FLUSH.cpp:211-235); turns do not overlap. The threads of all
ranks take steps in any order: the background threads of the other ranks also run during a turn.

* The range servers are shared: a rank that takes a step finds them as the last step of any rank left
  them. The field `srv` of a rank that does not move is not used.
-/

namespace Hx.AsyncJob
open Hx Process Results Session Async

variable {σ : Type} {n : Nat}

/-- What a rank does in its turn: calls that queue, then `Flush`. -/
def turnJobs (calls : List Queue.Call) : List Job :=
  calls.map .queue ++ [.flushPuts, .flushGets, .flushGetOps, .flushDels, .flushHists]

/-- The state of one rank changes. -/
def set (S : Fin n → St σ) (i : Fin n) (st : St σ) : Fin n → St σ := fun j => if j = i then st else S j

/-- The threads of all ranks take steps, in any order. -/
inductive Steps (b : Backend σ) (env : Fin n → Env) : σ → (Fin n → St σ) → σ → (Fin n → St σ) → Prop where
  | refl (s S) : Steps b env s S s S
  | step {s S i a st s' S'} : step b (env i) { S i with srv := s } a = some (.ok st) →
      Steps b env st.srv (set S i st) s' S' → Steps b env s S s' S'

/-- Ranks take turns. A turn is recorded with its rank, the calls before `Flush`, and what the flush
functions returned. -/
inductive Turns (b : Backend σ) (env : Fin n → Env) :
    σ → (Fin n → St σ) → List (Fin n × List Queue.Call × List Results) → σ → (Fin n → St σ) → Prop where
  | nil {s S s' S'} : Steps b env s S s' S' → Turns b env s S [] s' S'
  | turn {s S i calls s1 S1 l s' S'} : Steps b env s (set S i { S i with jobs := turnJobs calls }) s1 S1 →
      (S1 i).user = .idle → (S1 i).jobs = [] → Turns b env s1 S1 l s' S' →
      Turns b env s S ((i, calls, (S1 i).told.drop (S i).told.length) :: l) s' S'

/-- What `Flush` returns, given what the flush functions returned (src/hxhim/ops/FLUSH.cpp:211-235). -/
def joined (l : List Results) : Results := l.foldl (fun res r => (res.append r).1) Results.create

end Hx.AsyncJob

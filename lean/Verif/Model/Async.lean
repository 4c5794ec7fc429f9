import Verif.Model.Session

/-!
# Asynchronous PUTs: the background thread and the thread of the user

`async_put_thread` (src/hxhim/init.cpp:223-281), `wait_for_background_puts` (src/hxhim/private.cpp:26-59),
`FlushPuts` (src/hxhim/ops/FLUSH.cpp:33-66), `Put` and `BPut` (src/hxhim/ops/PUT.cpp, BPUT.cpp) and `Close`.

* Two threads: the user's, which works through a list of calls, and the one of the library. A step is a
  piece of one thread between two points at which the other can take over.
* The variables protected by `queues.puts.mutex` are only touched while it is held, so a critical
  section is one step. `async_puts.mutex` is held by the user from `enter` until they sleep.
* A call of `process` is one step; its requests are not interleaved with those of the other thread.
* Condition variables: a sleeping thread goes on when it is notified, or spuriously.
* `async_puts.results` is not protected. An access of one thread that is not ordered before or after an
  access of the other by a mutex is a data race, and undefined.
* Exceptions and undefined behaviour of a thread end the program.
* Only `Put`, `BPut` and the calls that queue other operations; `BPutSingleType` does not take the mutex.
-/

namespace Hx.Async
open Hx Msg Config Process Results Session

abbrev Batch := List (List (List PutItem))

/-- Where the background thread is. `racy` says that the user has accessed `async_puts.results` since
the two threads last synchronised. -/
inductive Bg where
  | top
  | check
  | asleep
  | work (batch : Batch) (racy : Bool)
  | store (r : Results) (racy : Bool)
  | setDone
  | notify
  | exited

/-- Why the user waits for the background thread. -/
inductive Why where
  | opening | flush | close
  deriving DecidableEq

/-- Where the user is. `second` tells the two rounds of `wait_for_background_puts` apart. -/
inductive User where
  | idle
  | enter (second : Bool) (w : Why)
  | wait (second : Bool) (w : Why)
  | asleep (second : Bool) (w : Why)
  | collect
  | drain (r : Results)
  | join
  | closed

/-- The calls of the user. `Flush` is `flushPuts` and the others one after the other. -/
inductive Job where
  | queue (c : Queue.Call)
  | flushPuts
  | flushGets | flushGetOps | flushDels | flushHists
  | close

/-- The state of both threads, and a record of what happened: `asked` are the calls that queued,
`sent` the calls of `process` for PUTs with the servers before, the queue and the results, `returned`
what `FlushPuts` returned, `told` what all flush functions returned, in order. -/
structure St (σ : Type) where
  srv : σ
  p : Priv
  flushed : Bool
  done : Bool
  bg : Bg
  user : User
  jobs : List Job
  asked : List Queue.Call
  sent : List (σ × Batch × Results)
  returned : List Results
  told : List Results

variable {σ : Type}

/-- The predicate of the background thread (src/hxhim/init.cpp:239-243). -/
def wanted (st : St σ) : Bool :=
  !st.p.opts.running || decide (st.p.opts.asyncMax ≤ st.p.queues.putCount) || st.flushed

/-- The user holds `async_puts.mutex`. -/
def User.holds : User → Bool
  | .enter _ _ | .wait _ _ => true
  | _ => false

/-- `async_puts.results` was accessed and `queues.puts.mutex` not yet released after it. -/
def User.collected : User → Bool
  | .drain _ => true
  | _ => false

/-- A step of the background thread; `none` when it is blocked. -/
def stepBg (b : Backend σ) (e : Env) (st : St σ) : Option (Out (St σ)) :=
  match st.bg with
  | .top => some (.ok { st with bg := if st.p.opts.running then .check else .exited })
  | .check =>
    if wanted st then
      some (.ok { st with
        bg := .work st.p.queues.puts st.user.collected
        flushed := false
        p := { st.p with queues := { st.p.queues with puts := List.replicate st.p.servers [], putCount := 0 } } })
    else some (.ok { st with bg := .asleep })
  | .asleep => none
  | .work batch racy =>
    some (process (st.p.net e) b.serve .put st.srv batch >>= fun x =>
      .ok { st with srv := x.1, bg := .store x.2.1 racy, sent := st.sent ++ [(st.srv, batch, x.2.1)] })
  | .store r racy =>
    if racy then some .ub
    else some (.ok { st with bg := .setDone, p := { st.p with kept := some (keep st.p.kept r) } })
  | .setDone => if st.user.holds then none else some (.ok { st with bg := .notify, done := true })
  | .notify =>
    some (.ok { st with
      bg := .top
      user := match st.user with | .asleep i w => .wait i w | u => u })
  | .exited => none

/-- `start_processing.notify_all()`. -/
def wakeBg : Bg → Bg
  | .asleep => .check
  | x => x

/-- The access of the user to `async_puts.results` races with the run the background thread is in. -/
def Bg.touched : Bg → Bg
  | .work batch _ => .work batch true
  | .store r _ => .store r true
  | x => x

/-- Does the call reach `notify_all`? -/
def notifies : Queue.Call → Bool
  | .put a => Queue.given a.s && Queue.given a.p && Queue.given a.o
  | .bput arrays _ => arrays
  | _ => false

/-- One of the flush functions that do not concern PUTs. -/
def other (st : St σ) (jobs : List Job) (f : Queue.Queues → Out (σ × Results × Queue.Queues)) : Out (St σ) :=
  f st.p.queues >>= fun x => .ok { st with srv := x.1, jobs := jobs, p := { st.p with queues := x.2.2 }, told := st.told ++ [x.2.1] }

/-- The user begins the next call. `Close` resets `running`, so `Sync` does nothing. -/
def begin (b : Backend σ) (e : Env) (st : St σ) : Option (Out (St σ)) :=
  match st.jobs with
  | [] => none
  | .queue c :: jobs =>
    some (Queue.exec (st.p.cfg e) st.p.queues c >>= fun r =>
      .ok { st with
        jobs := jobs
        p := { st.p with queues := r.1 }
        bg := if notifies c then wakeBg st.bg else st.bg
        asked := st.asked ++ [c] })
  | .flushPuts :: jobs => some (.ok { st with jobs := jobs, user := .enter false .flush })
  | .flushGets :: jobs => some (other st jobs (Process.flushGets (st.p.net e) b.serve st.srv))
  | .flushGetOps :: jobs => some (other st jobs (Process.flushGetOps (st.p.net e) b.serve st.srv))
  | .flushDels :: jobs => some (other st jobs (Process.flushDels (st.p.net e) b.serve st.srv))
  | .flushHists :: jobs => some (other st jobs (Process.flushHists (st.p.net e) b.serve st.srv))
  | .close :: jobs =>
    some (.ok { st with
      jobs := jobs, user := .enter false .close, p := { st.p with opts := { st.p.opts with running := false } } })

/-- A step of the user; `none` when they are blocked or have nothing to do. -/
def stepUser (b : Backend σ) (e : Env) (st : St σ) : Option (Out (St σ)) :=
  match st.user with
  | .idle => begin b e st
  | .enter i w =>
    some (.ok { st with
      user := .wait i w, done := false, flushed := true, bg := wakeBg st.bg
      p := if w = .close then { st.p with queues := { st.p.queues with puts := [] } } else st.p })
  | .wait i w =>
    if !st.p.opts.running || st.done then
      some (.ok { st with
        user := if i = false then .enter true w else
          match w with | .opening => .idle | .flush => .collect | .close => .join })
    else some (.ok { st with user := .asleep i w })
  | .asleep _ _ => none
  | .collect =>
    match st.bg with
    | .setDone => some .ub
    | bg => some (.ok { st with
        bg := bg.touched
        user := .drain (Results.create.append (st.p.kept.getD Results.create)).1
        p := { st.p with kept := none } })
  | .drain r =>
    some (process (st.p.net e) b.serve .put st.srv st.p.queues.puts >>= fun x =>
      .ok { st with
        srv := x.1, user := .idle
        p := { st.p with queues := { st.p.queues with puts := x.2.2, putCount := 0 } }
        sent := st.sent ++ [(st.srv, st.p.queues.puts, x.2.1)]
        returned := st.returned ++ [(r.append x.2.1).1]
        told := st.told ++ [(r.append x.2.1).1] })
  | .join =>
    match st.bg with
    | .exited => some (.ok { st with user := .closed, p := { st.p with kept := none } })
    | _ => none
  | .closed => none

inductive Act where
  | user | bg
  | spuriousUser | spuriousBg
  deriving DecidableEq

/-- A step of one thread, or a spurious wakeup. -/
def step (b : Backend σ) (e : Env) (st : St σ) : Act → Option (Out (St σ))
  | .user => stepUser b e st
  | .bg => stepBg b e st
  | .spuriousUser => match st.user with | .asleep i w => some (.ok { st with user := .wait i w }) | _ => none
  | .spuriousBg => match st.bg with | .asleep => some (.ok { st with bg := .check }) | _ => none

/-- An interleaving: the threads take turns in the given order and every step returns. -/
inductive Run (b : Backend σ) (e : Env) : St σ → List Act → St σ → Prop where
  | nil (st) : Run b e st [] st
  | cons {st st' st'' a l} : step b e st a = some (.ok st') → Run b e st' l st'' → Run b e st (a :: l) st''

/-- The thread has just been started by `init::async_puts` (src/hxhim/init.cpp:290-305), which waits for
it; then come the calls of the user. -/
def start (s : σ) (p : Priv) (jobs : List Job) : St σ where
  srv := s
  p := p
  flushed := false
  done := false
  bg := .top
  user := .enter false .opening
  jobs := jobs
  asked := []
  sent := []
  returned := []
  told := []

end Hx.Async

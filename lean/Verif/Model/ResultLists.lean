import Verif.Base.Bytes

/-!
# Who destructs results

Lists of results (`hxhim::Results`) are made by flushes and by the thread that
sends PUTs in the background, put together by `Append`, given to the user, and
destroyed by the user or by `Close`.  Here a list is a number, results are
numbers, and the memory of lists says which results each of them holds.

Simplifications:

* What is in a result is left out (`Model/Results`, `Model/BlobUse`).
* How many results `process` makes is an input.  GETOPs that return no record
  are left out: `init` returns a result that it has destructed already
  (C54_getop_empty_false).
* The steps of the background thread and of the user are done one after the
  other: the thread has stored its results before `wait_for_background_puts`
  returns (C32).
* A `hxhim_results_t` holds a pointer to the list and one to the session; it is
  made and destroyed with the list the user gets, and is not counted.
* Results are built without PRINT_TIMESTAMPS, with which their destructor reads
  the session.
-/

namespace Hx.Lists

/-- Memory. -/
structure Mem where
  /-- how many lists have been made -/
  lists : Nat
  /-- how many results have been made -/
  made : Nat
  /-- the lists there are, and what they hold -/
  heap : List (Nat × List Nat)
  /-- the results that have been destructed -/
  gone : List Nat
deriving DecidableEq, Repr

/-- The contents of a list, and the rest of the memory. -/
def take (k : Nat) : List (Nat × List Nat) → Option (List Nat × List (Nat × List Nat))
  | [] => none
  | x :: h =>
    if x.1 = k then some (x.2, h)
    else (take k h).map fun y => (y.1, x :: y.2)

/-- `construct<hxhim::Results>()`, and `n` results added to it
(`src/hxhim/Results.cpp:238-245`, 257-260, 284-297). -/
def make (n : Nat) (m : Mem) : Nat × Mem :=
  (m.lists, { m with
    lists := m.lists + 1, made := m.made + n,
    heap := (m.lists, List.range' m.made n) :: m.heap })

/-- `d->Append(s)` (`src/hxhim/Results.cpp:304-309`): `s` is emptied. -/
def append (d s : Nat) (m : Mem) : Out Mem :=
  match take d m.heap with
  | none => .ub
  | some (cd, h) =>
    match take s h with
    | none => .ub
    | some (cs, h) => .ok { m with heap := (d, cd ++ cs) :: (s, []) :: h }

/-- `res->Add(...)` of `n` new results, one after the other
(`src/hxhim/Results.cpp:284-297`). -/
def add (k n : Nat) (m : Mem) : Out Mem :=
  match take k m.heap with
  | none => .ub
  | some (c, h) =>
    .ok { m with made := m.made + n, heap := (k, c ++ List.range' m.made n) :: h }

/-- `destruct` of a list: its results are destructed with it
(`src/hxhim/Results.cpp:262-266`). -/
def destruct (k : Nat) (m : Mem) : Out Mem :=
  match take k m.heap with
  | none => .ub
  | some (c, h) => .ok { m with heap := h, gone := m.gone ++ c }

/-- The same for a pointer that may be null: nothing happens. -/
def appendPtr (d : Nat) : Option Nat → Mem → Out Mem
  | none, m => .ok m
  | some s, m => append d s m

def destructPtr : Option Nat → Mem → Out Mem
  | none, m => .ok m
  | some k, m => destruct k m

/-- A session: memory, `async_puts.results`, the lists the user has got, and
whether `hx->p` is there. -/
structure State where
  mem : Mem
  async : Option Nat
  users : List Nat
  opened : Bool
deriving DecidableEq, Repr

/-- A round of the background thread (`src/hxhim/init.cpp:261-271`), and, where
there is no thread, `serial_puts` (`src/hxhim/private.cpp:71-89`). -/
def background (n : Nat) (s : State) : Out State :=
  let (results, m) := make n s.mem
  match s.async with
  | some k =>
    append k results m >>= fun m =>
    destruct results m >>= fun m => .ok { s with mem := m }
  | none => .ok { s with mem := m, async := some results }

/-- `FlushPuts` (`src/hxhim/ops/FLUSH.cpp:33-66`): `async` if there is a
background thread. -/
def flushPuts (async : Bool) (n : Nat) (s : State) : Out (Nat × State) :=
  let (res, m) := make 0 s.mem
  (if async then
    appendPtr res s.async m >>= fun m =>
    destructPtr s.async m >>= fun m => .ok { s with mem := m, async := none }
   else .ok { s with mem := m }) >>= fun s =>
  let (puts, m) := make n s.mem
  append res puts m >>= fun m =>
  destruct puts m >>= fun m => .ok (res, { s with mem := m })

/-- `FlushGets`, `FlushGetOps`, `FlushDeletes` and `FlushHistograms`
(`src/hxhim/ops/FLUSH.cpp:88-186`). -/
def flushOne (n : Nat) (s : State) : Nat × State :=
  let (res, m) := make n s.mem
  (res, { s with mem := m })

/-- `res->Append(x); destruct(x);` (`src/hxhim/ops/FLUSH.cpp:219-231`). -/
def merge (res x : Nat) (s : State) : Out State :=
  append res x s.mem >>= fun m =>
  destruct x m >>= fun m => .ok { s with mem := m }

/-- One after the other, each with its number of results. -/
def mergeAll (res : Nat) : List Nat → State → Out State
  | [], s => .ok s
  | n :: ns, s =>
    let (x, s) := flushOne n s
    merge res x s >>= fun s => mergeAll res ns s

/-- `Flush`: PUTs, then GETs, GETOPs, DELETEs and histograms
(`src/hxhim/ops/FLUSH.cpp:211-235`). -/
def flush (async : Bool) (puts gets getops dels hists : Nat) (s : State) : Out (Nat × State) :=
  let (res, m) := make 0 s.mem
  flushPuts async puts { s with mem := m } >>= fun (x, s) =>
  merge res x s >>= fun s =>
  mergeAll res [gets, getops, dels, hists] s >>= fun s => .ok (res, s)

/-- `Sync` (`src/hxhim/ops/SYNC.cpp:14-60`), also called by `ChangeHash` and
`ChangeDatastoreName` (`src/hxhim/hxhim.cpp:303-330`, 365-): a flush, and a
result for each of the `n` datastores of the rank. -/
def sync (async : Bool) (n puts gets getops dels hists : Nat) (s : State) : Out (Nat × State) :=
  flush async puts gets getops dels hists s >>= fun (res, s) =>
  add res n s.mem >>= fun m => .ok (res, { s with mem := m })

/-- `Results::Destroy`, or with `c` `hxhim_results_destroy`, which reads the
session (`src/hxhim/Results.cpp:275-277`, 779-788). -/
def destroy (c : Bool) (k : Nat) (s : State) : Out Mem :=
  if c && !s.opened then .ub else destruct k s.mem

/-- What the user and the background thread do. -/
inductive Act where
  | background (n : Nat)
  | flushPuts (n : Nat)
  | flushOne (n : Nat)
  | flush (puts gets getops dels hists : Nat)
  | sync (n puts gets getops dels hists : Nat)
  /-- the list that was got so many lists ago is destroyed -/
  | destroy (i : Nat)
deriving DecidableEq, Repr

/-- The user keeps the list. -/
def keep (x : Nat × State) : State := { x.2 with users := x.1 :: x.2.users }

/-- One step of a session with or without a background thread, by a user of the
C or the C++ interface. -/
def step (async c : Bool) (s : State) : Act → Out State
  | .background n => background n s
  | .flushPuts n => flushPuts async n s >>= fun x => .ok (keep x)
  | .flushOne n => .ok (keep (flushOne n s))
  | .flush a b c d e => flush async a b c d e s >>= fun x => .ok (keep x)
  | .sync n a b c d e => sync async n a b c d e s >>= fun x => .ok (keep x)
  | .destroy i =>
    match s.users[i]? with
    | none => .ok s
    | some k => destroy c k s >>= fun m => .ok { s with mem := m, users := s.users.eraseIdx i }

def steps (async c : Bool) : List Act → State → Out State
  | [], s => .ok s
  | a :: as, s => step async c s a >>= fun s => steps async c as s

/-- `Close`: the results nobody has got are destructed
(`src/hxhim/destroy.cpp:39-51`), and so is `hx->p`
(`src/hxhim/hxhim.cpp:245-271`).  `Sync` returns null there, since the session
does not run any more. -/
def close (s : State) : Out State :=
  destructPtr s.async s.mem >>= fun m => .ok { s with mem := m, async := none, opened := false }

/-- The user destroys all lists that are left. -/
def destroyAll (c : Bool) (s : State) : List Nat → Out State
  | [] => .ok { s with users := [] }
  | k :: ks => destroy c k s >>= fun m => destroyAll c { s with mem := m } ks

/-- After `Open`. -/
def State.start : State := ⟨⟨0, 0, [], []⟩, none, [], true⟩

end Hx.Lists

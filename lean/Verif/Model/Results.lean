import Verif.Model.Message

/-!
# Results: `src/hxhim/Results.cpp`

* `std::deque` is a list, its iterator an index; the index of `end()` is the length. `push_back`
  and a non-empty `insert` invalidate every iterator of a deque, `end()` included; `none` is an
  invalidated iterator, and every use of it but assignment is undefined.
* A pointer argument of an accessor is `none` when null, otherwise the value of the caller's
  variable. Accessors return whether `HXHIM_SUCCESS` is returned, and the variables.
* `Object` casts a GETOP result to the GET result type; both have the same layout.
* Timestamps are not modelled, and a result list is not appended to itself.
-/

namespace Hx.Results
open Hx Msg

/-- `hxhim_op_t` (include/hxhim/constants.h:69-82). -/
inductive Kind where
  | put | get | getop | del | sync | hist
  deriving Repr, DecidableEq

/-- `HXHIM_SUCCESS`, `HXHIM_ERROR` (include/hxhim/constants.h:22-25). -/
def hxSuccess : Int := 3
def hxError : Int := 4

/-- The blob of a result: the client's memory, of which only the reference is known, or a copy. -/
inductive Datum where
  | ref (r : Ref)
  | own (b : Blob)
  deriving Repr, DecidableEq

def Datum.addr : Datum → Nat | .ref r => r.addr | .own b => b.addr
def Datum.len : Datum → Nat | .ref r => r.len | .own b => b.bytes.length
def Datum.typ : Datum → Nat | .ref r => r.typ | .own b => b.typ

/-- `hxhim::Result::Result` and its descendants (include/hxhim/private/Results.hpp:10-86); fields a
descendant does not have are null. -/
structure Result where
  kind : Kind
  rs : Int
  status : Int
  subject : Datum
  predicate : Datum
  object : Datum
  hist : Option Hist

/-- The constructors (src/hxhim/Results.cpp:26-33, 70-99). -/
def Result.create (k : Kind) (rs dsStatus : Int) : Result :=
  ⟨k, rs, if dsStatus = dsSuccess then hxSuccess else hxError, .own Blob.null, .own Blob.null, .own Blob.null, none⟩

/-- `init(hx, Response::BPut *, i)` (src/hxhim/Results.cpp:155-162). -/
def initPut (src : Int) (x : StatusItem) : Result :=
  { Result.create .put src x.status with subject := .ref x.subject, predicate := .ref x.predicate }

/-- `init(hx, Response::BGet *, i)` (src/hxhim/Results.cpp:164-175). -/
def initGet (src : Int) (x : GetRes) : Result :=
  let out := { Result.create .get src x.status with subject := .ref x.subject, predicate := .ref x.predicate }
  if out.status = hxSuccess then { out with object := .own x.object } else out

/-- One round of the loop of `init(hx, Response::BGetOp *, i)` (src/hxhim/Results.cpp:185-192). -/
def initRec (src status : Int) (r : Rec) : Result :=
  let out := { Result.create .getop src status with subject := .own r.subject, predicate := .own r.predicate }
  if out.status = hxSuccess then { out with object := .own r.object } else out

/-- `init(hx, Response::BGetOp *, i)` (src/hxhim/Results.cpp:177-204): the chain of results. Without
records `curr` is still `top`, which is destroyed and returned; the caller then writes to it
(src/hxhim/Results.cpp:142-148). -/
def initGetOp (src : Int) (x : GetOpRes) : Out (List Result) :=
  if x.recs.isEmpty then .ub else .ok (x.recs.map (initRec src x.status))

/-- `init(hx, Response::BDelete *, i)` (src/hxhim/Results.cpp:206-213). -/
def initDel (src : Int) (x : StatusItem) : Result :=
  { Result.create .del src x.status with subject := .ref x.subject, predicate := .ref x.predicate }

/-- `init(hx, synced)` (src/hxhim/Results.cpp:215-218). -/
def initSync (rank synced : Int) : Result := Result.create .sync rank synced

/-- `init(hx, Response::BHistogram *, i)` (src/hxhim/Results.cpp:220-229). -/
def initHist (src : Int) (x : HistRes) : Result :=
  let out := Result.create .hist src x.status
  if x.status = dsSuccess then { out with hist := x.hist } else out

/-- `Results` (include/hxhim/Results.hpp:86-128). -/
structure Results where
  items : List Result
  it : Option Nat

/-- src/hxhim/Results.cpp:257-260. -/
def Results.create : Results := ⟨[], some 0⟩

/-- One or more `push_back`. -/
def Results.push (r : Results) (l : List Result) : Results := if l.isEmpty then r else ⟨r.items ++ l, none⟩

/-- `Add` (src/hxhim/Results.cpp:284-297) of a result, with the chain of a GETOP. -/
def Results.add (r : Results) (chain : List Result) : Results := r.push chain

/-- The inner loop of `AddAll` for the remaining GETOPs. -/
def addGetOps (src : Int) : List GetOpRes → Results → Out Results
  | [], r => .ok r
  | x :: l, r => initGetOp src x >>= fun c => addGetOps src l (r.add c)

/-- The inner loop of `AddAll` (src/hxhim/Results.cpp:241-243). -/
def addResponse (r : Results) (res : Res) : Out Results :=
  match res.body with
  | .put l => .ok (l.foldl (fun r x => r.add [initPut res.src x]) r)
  | .get l => .ok (l.foldl (fun r x => r.add [initGet res.src x]) r)
  | .getop l => addGetOps res.src l r
  | .del l => .ok (l.foldl (fun r x => r.add [initDel res.src x]) r)
  | .hist l => .ok (l.foldl (fun r x => r.add [initHist res.src x]) r)

/-- `AddAll` (src/hxhim/Results.cpp:238-245) for a chain of responses. -/
def addAll : List Res → Results → Out Results
  | [], r => .ok r
  | x :: l, r => addResponse r x >>= fun r => addAll l r

/-- `Append` (src/hxhim/Results.cpp:304-309): this list and the other one. -/
def Results.append (r other : Results) : Results × Results := (r.push other.items, ⟨[], none⟩)

/-- `ValidIterator` (src/hxhim/Results.cpp:316-318). -/
def Results.valid (r : Results) : Out Bool :=
  match r.it with
  | none => .ub
  | some i => .ok (i != r.items.length)

/-- `GoToHead` (src/hxhim/Results.cpp:340-342). -/
def Results.goToHead (r : Results) : Results := { r with it := some 0 }

/-- `GoToNext` (src/hxhim/Results.cpp:366-370). -/
def Results.goToNext (r : Results) : Out Results :=
  r.valid >>= fun v => .ok (if v then { r with it := r.it.map (· + 1) } else r)

/-- `Size` (src/hxhim/Results.cpp:394-396). -/
def Results.size (r : Results) : Nat := r.items.length

/-- `it == results.end()`, otherwise `*it`; dereferencing past the end is undefined. -/
def Results.current (r : Results) : Out (Option Result) :=
  match r.it with
  | none => .ub
  | some i =>
    if i = r.items.length then .ok none
    else match r.items[i]? with
      | some x => .ok (some x)
      | none => .ub

/-- `HXHIM_CXX_RESULTS_LOOP` after `GoToHead` (include/hxhim/Results.hpp:65-68): the results the body
sees; at most `fuel` rounds. -/
def visit : Nat → Results → Out (List Result)
  | 0, _ => .err
  | fuel + 1, r =>
    r.valid >>= fun v =>
    if v then
      r.current >>= fun x =>
      match x with
      | none => .ub
      | some x => r.goToNext >>= fun r => visit fuel r >>= fun l => .ok (x :: l)
    else .ok []

/-! ## Accessors -/

/-- `Op` (src/hxhim/Results.cpp:425-435). -/
def Results.op (r : Results) (v : Option Kind) : Out (Bool × Option Kind) :=
  r.current >>= fun x =>
  match x with
  | none => .ok (false, v)
  | some x => .ok (true, v.map (fun _ => x.kind))

/-- `Status` (src/hxhim/Results.cpp:460-470). -/
def Results.status (r : Results) (v : Option Int) : Out (Bool × Option Int) :=
  r.current >>= fun x =>
  match x with
  | none => .ok (false, v)
  | some x => .ok (true, v.map (fun _ => x.status))

/-- `RangeServer` (src/hxhim/Results.cpp:495-505). -/
def Results.rangeServer (r : Results) (v : Option Int) : Out (Bool × Option Int) :=
  r.current >>= fun x =>
  match x with
  | none => .ok (false, v)
  | some x => .ok (true, v.map (fun _ => x.rs))

/-- The caller's variables for a blob. -/
structure Vars where
  ptr : Option Nat
  len : Option Nat
  typ : Option Nat
  deriving Repr, DecidableEq

/-- `Blob::get` (src/utils/Blob.cpp:221-233). -/
def Datum.get (d : Datum) (v : Vars) : Vars :=
  ⟨v.ptr.map (fun _ => d.addr), v.len.map (fun _ => d.len), v.typ.map (fun _ => d.typ)⟩

/-- `Subject` (src/hxhim/Results.cpp:532-549). -/
def Results.subject (r : Results) (v : Vars) : Out (Bool × Vars) :=
  r.current >>= fun x =>
  match x with
  | none => .ok (false, v)
  | some x =>
    if x.kind ≠ .put ∧ x.kind ≠ .get ∧ x.kind ≠ .getop ∧ x.kind ≠ .del then .ok (false, v)
    else .ok (true, x.subject.get v)

/-- `Predicate` (src/hxhim/Results.cpp:578-594). -/
def Results.predicate (r : Results) (v : Vars) : Out (Bool × Vars) :=
  r.current >>= fun x =>
  match x with
  | none => .ok (false, v)
  | some x =>
    if x.kind ≠ .put ∧ x.kind ≠ .get ∧ x.kind ≠ .getop ∧ x.kind ≠ .del then .ok (false, v)
    else .ok (true, x.predicate.get v)

/-- `Object` (src/hxhim/Results.cpp:622-637). -/
def Results.object (r : Results) (v : Vars) : Out (Bool × Vars) :=
  r.current >>= fun x =>
  match x with
  | none => .ok (false, v)
  | some x =>
    if (x.kind ≠ .get ∧ x.kind ≠ .getop) ∨ x.status ≠ hxSuccess then .ok (false, v)
    else .ok (true, x.object.get v)

/-- The caller's variables for the parts of a histogram; null arrays are `some none`. -/
structure HistVars where
  name : Option Bytes
  nameLen : Option Nat
  buckets : Option (Option (List Dbl))
  counts : Option (Option (List Nat))
  size : Option Nat

/-- `Histogram::get_name` (src/utils/Histogram.cpp:259-269). -/
def getName (h : Hist) (v : HistVars) : HistVars :=
  { v with name := v.name.map (fun _ => h.name), nameLen := v.nameLen.map (fun _ => h.name.length) }

/-- `Histogram::get` (src/utils/Histogram.cpp:310-328). -/
def getHist (h : Hist) (v : HistVars) : Bool × HistVars :=
  if h.count < h.firstN then (false, v)
  else (true, { v with buckets := v.buckets.map (fun _ => h.buckets), counts := v.counts.map (fun _ => h.counts),
                       size := v.size.map (fun _ => h.size) })

/-- `Histogram` with five variables (src/hxhim/Results.cpp:668-690). -/
def Results.histogram (r : Results) (v : HistVars) : Out (Bool × HistVars) :=
  r.current >>= fun x =>
  match x with
  | none => .ok (false, v)
  | some x =>
    if x.kind ≠ .hist ∨ x.status ≠ hxSuccess then .ok (false, v)
    else
      match x.hist with
      | none => .ub
      | some h => .ok (getHist h (getName h v))

/-- `Histogram` with a pointer to the histogram (src/hxhim/Results.cpp:718-735). -/
def Results.histogramPtr (r : Results) (v : Option (Option Hist)) : Out (Bool × Option (Option Hist)) :=
  r.current >>= fun x =>
  match x with
  | none => .ok (false, v)
  | some x =>
    if x.kind ≠ .hist ∨ x.status ≠ hxSuccess then .ok (false, v)
    else .ok (true, v.map (fun _ => x.hist))

/-! ## C interface -/

/-- The C functions refuse null pointers (`hxhim_results_valid`, src/hxhim/Results.cpp:253-255) and
call the function of the same name. -/
def viaC {α : Type} (f : Results → α → Out (Bool × α)) (r : Option Results) (v : α) : Out (Bool × α) :=
  match r with
  | none => .ok (false, v)
  | some r => f r v

/-- `hxhim_results_goto_head` (src/hxhim/Results.cpp:351-358). -/
def cGoToHead : Option Results → Out (Bool × Option Results)
  | none => .ok (false, none)
  | some r => r.goToHead.valid >>= fun v => .ok (v, some r.goToHead)

/-- `hxhim_results_goto_next` (src/hxhim/Results.cpp:379-386). -/
def cGoToNext : Option Results → Out (Bool × Option Results)
  | none => .ok (false, none)
  | some r => r.goToNext >>= fun r => r.valid >>= fun v => .ok (v, some r)

end Hx.Results

import Verif.Spec.Queue
import Verif.Spec.Remote
import Verif.Spec.Store
import Verif.Model.Job

/-!
# Specification: what ranks that share range servers see of each other

On the level of the operations the calls ask for; datastores, packets, keys and messages do not
occur.
-/

namespace Hx.Spec
open Hx Msg Results

/-- The PUTs that are accepted, in the order of the calls. -/
def storedPuts (accepts : Val → Bool) (l : List Op) : List Ev :=
  l.filterMap (fun
    | .put s p o => if accepts s.val && accepts p.val && accepts o.val then some (.put s.val p.val o.val) else none
    | _ => none)

/-- The DELETEs that are accepted, in the order of the calls. -/
def storedDels (accepts : Val → Bool) (l : List Op) : List Ev :=
  l.filterMap (fun
    | .del s p => if accepts s.val && accepts p.val then some (.del s.val p.val) else none
    | _ => none)

/-- What a flush does to the stored triples: first its PUTs, in the end its DELETEs. -/
def flushEvents (accepts : Val → Bool) (l : List Op) : List Ev := storedPuts accepts l ++ storedDels accepts l

/-- The pairs that are asked for with GET. -/
def getPairs (l : List Op) : List (Blob × Blob) := l.filterMap (fun | .get s p _ => some (s, p) | _ => none)

/-- The operations of a turn. -/
def turnOps (hash : Bytes → Bytes → Out Int) (x : Job.Turn) : List Op := x.calls.flatMap (ops hash x.cfg.servers)

/-- What turns do to the stored triples. -/
def turnsEvents (accepts : Val → Bool) (hash : Bytes → Bytes → Out Int) (l : List Job.Turn) : List Ev :=
  l.flatMap (fun x => flushEvents accepts (turnOps hash x))

/-- `r` is the right result of a GET of `g` after `h`: it refers to the memory of the caller, and has
the object of the latest PUT of the pair, or is an error without one. -/
structure Returned (t : Transform) (h : List Ev) (g : Blob × Blob) (r : Result) : Prop where
  kind : r.kind = .get
  subject : r.subject = .ref ⟨g.1.addr, g.1.bytes.length, g.1.typ⟩
  predicate : r.predicate = .ref ⟨g.2.addr, g.2.bytes.length, g.2.typ⟩
  found : ∀ o, lastObj g.1.val g.2.val h = some o →
    r.status = hxSuccess ∧ ∃ b : Blob, r.object = .own b ∧ b.bytes = t.R o ∧ b.typ = o.typ
  absent : lastObj g.1.val g.2.val h = none → r.status = hxError

/-- Data that can be sent, and whose encoding does not depend on where they are. -/
def Sent (cb : Store.Callbacks) (heap : Nat) (b : Blob) : Prop := Solid b ∧ Portable cb heap b

/-- The values of an operation are of the kind `t` describes and can be sent, and objects come back
as data that can be sent. -/
def OpOk (cb : Store.Callbacks) (t : Transform) (heap : Nat) : Op → Prop
  | .put s p o => (KeyOk cb t s ∧ KeyOk cb t p ∧ ObjOk cb t o) ∧ (Sent cb heap s ∧ Sent cb heap p ∧ Sent cb heap o) ∧
      t.R o.val ≠ [] ∧ (t.R o.val).length < 2 ^ 64
  | .get s p ty => (KeyOk cb t s ∧ KeyOk cb t p) ∧ (Sent cb heap s ∧ Sent cb heap p) ∧ ty < 2 ^ 32
  | .getop op s p ty n => (op ≠ 3 ∧ op ≠ 4 → Sent cb heap s ∧ Sent cb heap p) ∧ op < 2 ^ 32 ∧ ty < 2 ^ 32 ∧ n < 2 ^ 64
  | .del s p => (KeyOk cb t s ∧ KeyOk cb t p) ∧ Sent cb heap s ∧ Sent cb heap p
  | .hist _ name => Solid name

/-- Nothing was stored yet, and LevelDB writes succeed. -/
structure FreshWorld (w : Process.World) : Prop where
  empty : ∀ rank, ∀ d ∈ w.ds rank, d.usable = true ∧ d.db = []
  writes : ∀ n, w.wr n = true

/-- A turn of a rank of the job whose datastores are on the ranks `place` and whose hash function is
`hash`. -/
structure TurnOk (cb : Store.Callbacks) (t : Transform) (hash : Bytes → Bytes → Out Int) (place : List Int)
    (x : Job.Turn) : Prop where
  sameHash : x.cfg.hash = hash
  samePlace : x.net.dsToRank = place
  routed : Routed x.net place.length
  maxOps : x.cfg.maxOps < 2 ^ 64
  rank : IntRange x.net.rank
  address : x.net.heap ≠ 0 ∧ x.net.heap < 2 ^ 64
  operations : ∀ o ∈ turnOps hash x, OpOk cb t x.net.heap o

/-- A PUT or DELETE of the pair. -/
def Writes (s p : Val) : Op → Prop
  | .put s' p' _ => s'.val = s ∧ p'.val = p
  | .del s' p' => s'.val = s ∧ p'.val = p
  | _ => False

/-- PUTs, GETs, DELETEs, requests for histograms, and the GETOPs that are answered whatever is stored:
EQ, NEXT, PREV and unknown operations, with data as subject and predicate and room for a record. FIRST
and LAST cannot be answered when nothing is stored, LOWEST and HIGHEST can be answered with no record. -/
def SimpleOp (cb : Store.Callbacks) (t : Transform) : Op → Prop
  | .put _ _ _ => True
  | .get _ _ _ => True
  | .del _ _ => True
  | .hist _ _ => True
  | .getop op s p _ n => (op < 3 ∨ 6 < op) ∧ 0 < n ∧ (s.bytes ≠ [] ∧ cb.encode s = .ok (t.E s.val)) ∧
      p.bytes ≠ [] ∧ cb.encode p = .ok (t.E p.val)

/-- Every rank of the layout has datastores, and there are no histograms. -/
def Staffed (place : List Int) (w : Process.World) : Prop :=
  (∀ rank ∈ place, w.ds rank ≠ []) ∧ ∀ rank, ∀ d ∈ w.ds rank, d.hists = []

/-- A turn with a hash function that gives one of `total` datastores (or fails), packets that can hold
something, arguments that can be read, and operations that are always answered. -/
structure TurnRuns (cb : Store.Callbacks) (t : Transform) (hash : Bytes → Bytes → Out Int) (total : Nat) (x : Job.Turn) : Prop where
  hashed : HashOk x.cfg total
  room : 0 < x.cfg.maxOps
  servers : x.cfg.servers ≤ total
  arguments : ∀ c ∈ x.calls, ReadableCall c
  simple : ∀ o ∈ turnOps hash x, SimpleOp cb t o

end Hx.Spec

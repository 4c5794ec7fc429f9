import Verif.Model.Queue

/-!
# Specification: which operations a sequence of calls asks for
-/

namespace Hx.Spec
open Hx Msg Queue

/-- The three parts of a triple. -/
inductive Role where
  | S | P | O
  deriving Repr, DecidableEq

/-- The six orderings by name; bit `i` of a permutation mask asks for number `i`. -/
def orderings : List (Role × Role × Role) :=
  [(.S, .P, .O), (.S, .O, .P), (.P, .S, .O), (.P, .O, .S), (.O, .S, .P), (.O, .P, .S)]

def pick (a : PutArg) : Role → Blob
  | .S => a.s | .P => a.p | .O => a.o

/-- The triples a PUT asks for: one for each bit of its mask. -/
def wanted (a : PutArg) : List (Blob × Blob × Blob) :=
  (orderings.zipIdx.filter (fun x => a.mask.testBit x.2)).map
    (fun x => (pick a x.1.1, pick a x.1.2.1, pick a x.1.2.2))

/-- An operation to be executed by a datastore. -/
inductive Op where
  | put (s p o : Blob)
  | get (s p : Blob) (t : Nat)
  | getop (op : Nat) (s p : Blob) (t n : Nat)
  | del (s p : Blob)
  | hist (rs : Int) (name : Blob)
  deriving Repr, DecidableEq

/-- The datastore a pair belongs to, if the hash function gives one. -/
def home (hash : Bytes → Bytes → Out Int) (s p : Blob) : Option Nat :=
  match hash s.bytes p.bytes with
  | .ok i => if i < 0 then none else some i.toNat
  | _ => none

/-- The datastore an operation belongs to. -/
def dest (hash : Bytes → Bytes → Out Int) : Op → Option Nat
  | .put s p _ => home hash s p
  | .get s p _ => home hash s p
  | .getop _ s p _ _ => home hash s p
  | .del s p => home hash s p
  | .hist rs _ => some rs.toNat

/-- The triples of a PUT up to the first one the hash function has no datastore for. -/
def putOps (hash : Bytes → Bytes → Out Int) (a : PutArg) : List Op :=
  ((wanted a).takeWhile (fun x => (home hash x.1 x.2.1).isSome)).map (fun x => .put x.1 x.2.1 x.2.2)

/-- An operation without datastore is dropped. -/
def placed (hash : Bytes → Bytes → Out Int) (x : Op) : List Op := if (dest hash x).isSome then [x] else []

/-- Neither null nor empty. -/
def Given (b : Blob) : Prop := b.addr ≠ 0 ∧ b.bytes ≠ []

instance (b : Blob) : Decidable (Given b) := by unfold Given; infer_instance

/-- The operations a call asks for, in order. Single calls refuse missing arguments, bulk calls
refuse missing arrays; histograms are asked of one of `servers` range servers. -/
def ops (hash : Bytes → Bytes → Out Int) (servers : Nat) : Call → List Op
  | .put a => if Given a.s ∧ Given a.p ∧ Given a.o then putOps hash a else []
  | .get a => if Given a.s ∧ Given a.p then placed hash (.get a.s a.p a.t) else []
  | .getop a => if Given a.s then placed hash (.getop a.op a.s a.p a.t a.n) else []
  | .del a => if Given a.s ∧ Given a.p then placed hash (.del a.s a.p) else []
  | .hist a => if 0 ≤ a.rs ∧ a.rs < servers then [.hist a.rs a.name] else []
  | .bput arrays l => if arrays then l.flatMap (putOps hash) else []
  | .bget arrays l => if arrays then l.flatMap (fun a => placed hash (.get a.s a.p a.t)) else []
  | .bgetop arrays l => if arrays then l.flatMap (fun a => placed hash (.getop a.op a.s a.p a.t a.n)) else []
  | .bdel arrays l => if arrays then l.flatMap (fun a => placed hash (.del a.s a.p)) else []
  | .bhist arrays l =>
    if arrays ∧ ∀ a ∈ l, 0 ≤ a.rs ∧ a.rs < servers then l.map (fun a => .hist a.rs a.name) else []

/-- The operations of one kind for one datastore. A queued PUT, GET or DELETE remembers the client's
addresses. -/
def putsFor (hash : Bytes → Bytes → Out Int) (ds : Nat) (l : List Op) : List PutItem :=
  (l.filter (fun x => dest hash x = some ds)).filterMap
    (fun | .put s p o => some ⟨s, s.addr, p, p.addr, o⟩ | _ => none)

def getsFor (hash : Bytes → Bytes → Out Int) (ds : Nat) (l : List Op) : List GetItem :=
  (l.filter (fun x => dest hash x = some ds)).filterMap
    (fun | .get s p t => some ⟨s, s.addr, p, p.addr, t⟩ | _ => none)

def getopsFor (hash : Bytes → Bytes → Out Int) (ds : Nat) (l : List Op) : List GetOpItem :=
  (l.filter (fun x => dest hash x = some ds)).filterMap
    (fun | .getop op s p t n => some ⟨op, s, p, t, n⟩ | _ => none)

def delsFor (hash : Bytes → Bytes → Out Int) (ds : Nat) (l : List Op) : List DelItem :=
  (l.filter (fun x => dest hash x = some ds)).filterMap
    (fun | .del s p => some ⟨s, s.addr, p, p.addr⟩ | _ => none)

def histsFor (hash : Bytes → Bytes → Out Int) (ds : Nat) (l : List Op) : List Blob :=
  (l.filter (fun x => dest hash x = some ds)).filterMap (fun | .hist _ name => some name | _ => none)

/-- The number of PUTs. -/
def putNumber (l : List Op) : Nat := (l.filter (fun | .put _ _ _ => true | _ => false)).length

/-- The operations queued for a datastore, packet by packet. -/
def queued {α : Type} (qs : List (List (List α))) (ds : Nat) : List α := (qs.getD ds []).flatten

/-- The queues hold `l` in addition to what `q` held, each operation with its datastore and in
order. -/
structure Extends (hash : Bytes → Bytes → Out Int) (l : List Op) (q q' : Queues) : Prop where
  puts : ∀ ds, queued q'.puts ds = queued q.puts ds ++ putsFor hash ds l
  gets : ∀ ds, queued q'.gets ds = queued q.gets ds ++ getsFor hash ds l
  getops : ∀ ds, queued q'.getops ds = queued q.getops ds ++ getopsFor hash ds l
  dels : ∀ ds, queued q'.dels ds = queued q.dels ds ++ delsFor hash ds l
  hists : ∀ ds, queued q'.hists ds = queued q.hists ds ++ histsFor hash ds l
  count : q'.putCount = q.putCount + putNumber l

/-- Every packet of every queue satisfies `P` (given the packet as the body of a request). -/
structure AllPackets (P : ReqBody → Prop) (q : Queues) : Prop where
  puts : ∀ t ∈ q.puts, ∀ pk ∈ t, P (.put pk)
  gets : ∀ t ∈ q.gets, ∀ pk ∈ t, P (.get pk)
  getops : ∀ t ∈ q.getops, ∀ pk ∈ t, P (.getop pk)
  dels : ∀ t ∈ q.dels, ∀ pk ∈ t, P (.del pk)
  hists : ∀ t ∈ q.hists, ∀ pk ∈ t, P (.hist pk)

/-- All five vectors of queues have `n` entries. -/
def Sized (n : Nat) (q : Queues) : Prop :=
  q.puts.length = n ∧ q.gets.length = n ∧ q.getops.length = n ∧ q.dels.length = n ∧ q.hists.length = n

/-- The hash function answers with a datastore or fails. -/
def HashOk (c : Cfg) (total : Nat) : Prop := ∀ s p, ∃ i, c.hash s p = .ok i ∧ i < total

/-- The blobs of the arguments of a call can be read. -/
def ReadableCall : Call → Prop
  | .put a => readable a.s = true ∧ readable a.p = true ∧ readable a.o = true
  | .get a => readable a.s = true ∧ readable a.p = true
  | .getop a => readable a.s = true ∧ readable a.p = true
  | .del a => readable a.s = true ∧ readable a.p = true
  | .bput _ l => ∀ a ∈ l, readable a.s = true ∧ readable a.p = true ∧ readable a.o = true
  | .bget _ l => ∀ a ∈ l, readable a.s = true ∧ readable a.p = true
  | .bgetop _ l => ∀ a ∈ l, readable a.s = true ∧ readable a.p = true
  | .bdel _ l => ∀ a ∈ l, readable a.s = true ∧ readable a.p = true
  | _ => True

end Hx.Spec

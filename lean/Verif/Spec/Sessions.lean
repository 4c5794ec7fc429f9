import Verif.Model.Sessions
import Verif.Spec.OverlapFail

/-!
# Specification: sessions one after the other

The flushes of all sessions are numbered through, and the logs of the sessions are put together to one log.
Then the specification of flushes that overlap (`Spec/OverlapFail`) says what a GET of any session can return.
-/

namespace Hx.Spec
open Hx Msg Results Job Place Sessions

/-- An entry of the log of a session that comes after `off` flushes. -/
def later (off : Nat) (y : Served) : Served := { y with turn := off + y.turn }

/-- The flushes of all sessions. -/
def allTurns (l : List Session) : List Turn := l.flatMap (fun s => s.turns)

/-- The results of the flushes. -/
def allResults (l : List Session) : List Results := l.flatMap (fun s => s.rs)

/-- The log of all sessions, the first of which comes after `off` flushes. -/
def allLog : Nat → List Session → List Served
  | _, [] => []
  | off, s :: l => s.log.map (later off) ++ allLog (off + s.turns.length) l

/-- The rank of each datastore. -/
def placeOf (l : Layout) : List Int := (List.range l.total).map l.dsToRank

/-- The options of sessions on the same LevelDB directories: the same names and the same number of datastores; the number of
ranks, which of them are range servers and how many datastores each has may differ. -/
structure SameStore (pre base post : Bytes) (total : Nat) (o : Opts) : Prop where
  backend : o.backend = .level
  pre : o.pre = pre
  base : o.base = base
  post : o.post = post
  total : o.layout.total = total

/-- Histograms are not written. -/
def Quiet (o : Opts) : Prop := o.names = [] ∨ o.write = false

/-- A pair that is stored under the key of a histogram: the subject is stored as "HISTOGRAM", and both types are `HXHIM_DATA_BYTE`. -/
def HistPair (t : Transform) (s p : Val) : Prop := t.E s = some [72, 73, 83, 84, 79, 71, 82, 65, 77] ∧ s.typ = 7 ∧ p.typ = 7

/-- An operation that does not read the stored form of the histograms. A GETOP could come across it. -/
def Clear (t : Transform) : Op → Prop
  | .get s p _ => ¬ HistPair t s.val p.val
  | .getop _ _ _ _ _ => False
  | _ => True

/-- A session that may read and write histograms, and whose operations do not read their stored form. -/
def ClearSession (t : Transform) (hash : Bytes → Bytes → Out Int) (s : Session) : Prop :=
  (∀ n ∈ s.opts.names, n.length < 2 ^ 64) ∧ ∀ x ∈ s.turns, ∀ o ∈ turnOps hash x, Clear t o

/-- Before histograms are written for the first time there is no condition; from then on the operations do not read their stored
form. -/
def HistsApart (t : Transform) (hash : Bytes → Bytes → Out Int) (l : List Session) : Prop :=
  ∃ a b, l = a ++ b ∧ (∀ s ∈ a, Quiet s.opts) ∧ ∀ s ∈ b, ClearSession t hash s

/-- A session on these directories, whose flushes are as in C78. -/
structure SessionOk (cb : Store.Callbacks) (t : Transform) (hash : Bytes → Bytes → Out Int) (pre base post : Bytes) (total : Nat)
    (s : Session) : Prop where
  store : SameStore pre base post total s.opts
  heap : s.heap ≠ 0 ∧ s.heap < 2 ^ 64
  turns : ∀ x ∈ s.turns, TurnOk cb t hash (placeOf s.opts.layout) x

/-- Nothing is stored in the directories: they do not exist or are empty. -/
def EmptyDisk (pre base post : Bytes) (total : Nat) (disk : Disk) : Prop :=
  ∀ id < total, ∀ db, disk (generateName pre base id post 47) = some db → db = []

end Hx.Spec

import Verif.Spec.Cli
import Verif.Spec.Job

/-!
# What is printed, and the turns of a session
-/

namespace Hx.Spec.Cli
open Hx Store Elen
open Hx.Cli (Item Verb Host)
open Hx.Config (str)
open Hx.Spec.Config (Blank Word Decimal)

/-- The word is read as the value, wherever it stands behind the name of the type. -/
def ReadsAs (w : Bytes) (v : Val) : Prop :=
  Word w ∧ ∀ s more, Words s (typeName v.typ :: w :: more) → ∃ rest, Cli.takeBlob s = some (v, rest) ∧ Words rest more

/-- The blob of a value at an address. -/
def at_ (a : Nat) (v : Val) : Blob := ⟨a, v.bytes, v.typ⟩

/-- The operations that wait for a flush. -/
def Waits : Item → Prop
  | .put .. => True
  | .get .. => True
  | .getop .. => True
  | .del .. => True
  | _ => False

/-- Commands in turns that end with `FLUSH`. -/
def session (l : List (List Item)) : List Item := l.flatMap (· ++ [.flush])

/-- What a command asks for: PUTs are stored in all six orders. -/
def callOf (addr : Nat → Nat) : Item → Option Queue.Call
  | .put s p o => some (.put ⟨at_ (addr 0) s, at_ (addr 1) p, at_ (addr 2) o, 2 ^ 6 - 1⟩)
  | .get s p t => some (.get ⟨at_ (addr 0) s, at_ (addr 1) p, t⟩)
  | .getop s p t n op => some (.getop ⟨at_ (addr 0) s, at_ (addr 1) p, t, n, op⟩)
  | .del s p => some (.del ⟨at_ (addr 0) s, at_ (addr 1) p⟩)
  | _ => none

/-- The calls of commands, the first of which has number `i`. -/
def callsOf (addr : Nat → Nat → Nat) : Nat → List Item → List Queue.Call
  | _, [] => []
  | i, x :: l => (callOf (addr i) x).toList ++ callsOf addr (i + 1) l

/-- The turns of a session (Verif/Model/Job.lean). -/
def turnsOf {σ : Type} (h : Host σ) : Nat → List (List Item) → List Job.Turn
  | _, [] => []
  | i, c :: l => ⟨h.cfg, h.net, callsOf h.addr i c⟩ :: turnsOf h (i + c.length + 1) l

/-- The parts of a command are where `addr` says. -/
def Holds (read : Nat → Nat → Bytes) (addr : Nat → Nat) : Item → Prop
  | .put s p o => read (addr 0) s.bytes.length = s.bytes ∧ read (addr 1) p.bytes.length = p.bytes ∧
      read (addr 2) o.bytes.length = o.bytes
  | .get s p _ => read (addr 0) s.bytes.length = s.bytes ∧ read (addr 1) p.bytes.length = p.bytes
  | .getop s p _ _ _ => read (addr 0) s.bytes.length = s.bytes ∧ read (addr 1) p.bytes.length = p.bytes
  | .del s p => read (addr 0) s.bytes.length = s.bytes ∧ read (addr 1) p.bytes.length = p.bytes
  | _ => True

end Hx.Spec.Cli

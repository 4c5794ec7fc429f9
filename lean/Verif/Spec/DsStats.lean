import Verif.Model.DsStats

/-!
# What statistics of a datastore should say
-/

namespace Hx.Spec
open Hx Msg

/-- The PUTs of some packets. -/
def putsIn (h : List ReqBody) : List PutItem := h.flatMap fun | .put l => l | _ => []

/-- The GETs of some packets. -/
def getsIn (h : List ReqBody) : List GetItem := h.flatMap fun | .get l => l | _ => []

/-- The names of histograms asked for. -/
def namesIn (h : List ReqBody) : List Blob := h.flatMap fun | .hist l => l | _ => []

/-- The records returned by GETOPs. -/
def recsIn (rs : List (Option ResBody)) : List Rec :=
  rs.flatMap fun | some (.getop l) => l.flatMap GetOpRes.recs | _ => []

/-- The length of an encoded value, if it can be encoded. -/
def encLen (cb : Store.Callbacks) (b : Blob) : Option Nat :=
  match cb.encode b with
  | .ok (some e) => some e.length
  | _ => none

/-- The bytes of a key: subject, predicate, a mark, two lengths and two types. -/
def keyBytes (cb : Store.Callbacks) (s p : Blob) : Option Nat :=
  match encLen cb s, encLen cb p with
  | some a, some b => some (a + b + 1 + 2 * 8 + 2)
  | _, _ => none

/-- The bytes a PUT stores: the key, the object and its type. Nothing is stored if one of the three
cannot be encoded. -/
def storedBytes (cb : Store.Callbacks) (x : PutItem) : Nat :=
  match keyBytes cb x.subject x.predicate, encLen cb x.object with
  | some k, some o => k + (o + 4)
  | _, _ => 0

/-- The total of a field of events. -/
def total (f : DsStats.Event → Nat) (l : List DsStats.Event) : Nat := (l.map f).sum

/-- The time a packet adds to that of PUTs. -/
def putTime (x : DsStats.Machine × ReqBody) : Nat :=
  match x.2 with
  | .put _ => x.1.time
  | _ => 0

/-- The time a packet adds to that of GETs: GETOPs are timed one by one. -/
def getTime (x : DsStats.Machine × ReqBody) : Nat :=
  match x.2 with
  | .get _ => x.1.time
  | .hist _ => x.1.time
  | .getop l => ((List.range l.length).map fun i => (x.1.ops i).1).sum
  | _ => 0

/-- The seconds some events took. -/
def seconds (l : List DsStats.Event) : ℚ := total DsStats.Event.time l / 1000000000

/-- A bulk transfer is too fast to be displayed: there are bytes but no time, or more than 1024 PB/s. -/
def TooFast (size : Nat) (time : ℚ) : Prop := (time = 0 ∧ size ≠ 0) ∨ (time ≠ 0 ∧ 1024 ^ 6 < size / time)

/-- The names of 1, 1024, ..., 1024 ^ 5 bytes. -/
def unitName : Nat → String
  | 0 => "B" | 1 => "KB" | 2 => "MB" | 3 => "GB" | 4 => "TB" | 5 => "PB" | _ => "?"

end Hx.Spec

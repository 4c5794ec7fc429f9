import Verif.Model.Message
import Mathlib.Data.List.Forall2

/-!
# Specification: what "the same message" means

Relations between the message a process sends and the message another process receives. Memory
addresses of data differ between processes; the client's addresses travel as numbers.
-/

namespace Hx.Spec
open Hx Msg

/-- Same bytes and type. -/
def SameData (a b : Blob) : Prop := a.bytes = b.bytes ∧ a.typ = b.typ

/-- What the server has to see of a PUT: same data, and the client's own addresses. -/
def SamePut (a b : PutItem) : Prop :=
  SameData a.subject b.subject ∧ SameData a.predicate b.predicate ∧ SameData a.object b.object ∧
  b.origS = a.subject.addr ∧ b.origP = a.predicate.addr

def SameGet (a b : GetItem) : Prop :=
  SameData a.subject b.subject ∧ SameData a.predicate b.predicate ∧ a.objType = b.objType ∧
  b.origS = a.subject.addr ∧ b.origP = a.predicate.addr

/-- FIRST (3) and LAST (4) ignore subject and predicate. -/
def SameGetOp (a b : GetOpItem) : Prop :=
  a.op = b.op ∧ a.objType = b.objType ∧ a.numRecs = b.numRecs ∧
  (a.op ≠ 3 ∧ a.op ≠ 4 → SameData a.subject b.subject ∧ SameData a.predicate b.predicate)

def SameDel (a b : DelItem) : Prop :=
  SameData a.subject b.subject ∧ SameData a.predicate b.predicate ∧
  b.origS = a.subject.addr ∧ b.origP = a.predicate.addr

def SameReqBody : ReqBody → ReqBody → Prop
  | .put l, .put l' => List.Forall₂ SamePut l l'
  | .get l, .get l' => List.Forall₂ SameGet l l'
  | .getop l, .getop l' => List.Forall₂ SameGetOp l l'
  | .del l, .del l' => List.Forall₂ SameDel l l'
  | .hist l, .hist l' => List.Forall₂ (fun a b => a.bytes = b.bytes) l l'
  | _, _ => False

def SameReq (a b : Req) : Prop := a.src = b.src ∧ a.dst = b.dst ∧ SameReqBody a.body b.body

/-- Objects travel only with successful results. -/
def SameGetRes (a b : GetRes) : Prop :=
  a.status = b.status ∧ a.subject = b.subject ∧ a.predicate = b.predicate ∧
  (a.status = 1 → SameData a.object b.object)

def SameRec (status : Int) (a b : Rec) : Prop :=
  SameData a.subject b.subject ∧ SameData a.predicate b.predicate ∧
  (status = 1 → SameData a.object b.object)

def SameGetOpRes (a b : GetOpRes) : Prop :=
  a.status = b.status ∧ List.Forall₂ (SameRec a.status) a.recs b.recs

/-- Everything a client can see of a histogram: name, number of values, the cached values while
there are no buckets, boundaries and counts. -/
def SameHist (a b : Hist) : Prop :=
  a.name = b.name ∧ a.firstN = b.firstN ∧ a.count = b.count ∧ a.size = b.size ∧
  (a.count < a.firstN → a.cache = b.cache) ∧ a.buckets = b.buckets ∧ a.counts = b.counts

def SameHistRes (a b : HistRes) : Prop :=
  a.status = b.status ∧
  (a.status = 1 → ∃ h h', a.hist = some h ∧ b.hist = some h' ∧ SameHist h h')

def SameResBody : ResBody → ResBody → Prop
  | .put l, .put l' => l = l'
  | .get l, .get l' => List.Forall₂ SameGetRes l l'
  | .getop l, .getop l' => List.Forall₂ SameGetOpRes l l'
  | .del l, .del l' => l = l'
  | .hist l, .hist l' => List.Forall₂ SameHistRes l l'
  | _, _ => False

def SameRes (a b : Res) : Prop := a.src = b.src ∧ a.dst = b.dst ∧ SameResBody a.body b.body

/-! ## What a machine can represent, and what the packer can send -/

/-- The blob fits the machine: length and address below 2^64, type an enumeration value. -/
def Fits (b : Blob) : Prop := b.bytes.length < 2 ^ 64 ∧ b.typ < 2 ^ 32 ∧ b.addr < 2 ^ 64

/-- The blob fits and its pointer is not null. -/
def Solid (b : Blob) : Prop := Fits b ∧ b.addr ≠ 0

instance (b : Blob) : Decidable (Fits b) := by unfold Fits; infer_instance
instance (b : Blob) : Decidable (Solid b) := by unfold Solid; infer_instance

def RefFits (r : Ref) : Prop := r.addr < 2 ^ 64 ∧ r.len < 2 ^ 64 ∧ r.typ < 2 ^ 32

instance (r : Ref) : Decidable (RefFits r) := by unfold RefFits; infer_instance

def SendableReqBody : ReqBody → Prop
  | .put l => ∀ x ∈ l, Solid x.subject ∧ Solid x.predicate ∧ Solid x.object
  | .get l => ∀ x ∈ l, Solid x.subject ∧ Solid x.predicate ∧ x.objType < 2 ^ 32
  | .getop l => ∀ x ∈ l, x.op < 2 ^ 32 ∧ x.objType < 2 ^ 32 ∧ x.numRecs < 2 ^ 64 ∧
      (x.op ≠ 3 ∧ x.op ≠ 4 → Solid x.subject ∧ Solid x.predicate)
  | .del l => ∀ x ∈ l, Solid x.subject ∧ Solid x.predicate
  | .hist l => ∀ x ∈ l, Solid x

/-- A request whose pointers are not null and whose numbers fit. -/
def SendableReq (r : Req) : Prop :=
  IntRange r.src ∧ IntRange r.dst ∧ r.body.count < 2 ^ 64 ∧ SendableReqBody r.body

/-- A histogram as the class keeps it: cache of `count` values until `first_n` values have arrived,
then buckets with one boundary more than counts. -/
def HistFits (h : Hist) : Prop :=
  h.name.length < 2 ^ 64 ∧ h.count < 2 ^ 64 ∧ h.firstN < 2 ^ 64 ∧ h.size < 2 ^ 64 ∧
  (h.count < h.firstN → h.size = 0 ∧ ∃ c, h.cache = some c ∧ c.length = h.count) ∧
  (h.size = 0 → h.buckets = none ∧ h.counts = none) ∧
  (h.size ≠ 0 → ∃ b c, h.buckets = some b ∧ h.counts = some c ∧ b.length = h.size + 1 ∧
    c.length = h.size ∧ ∀ n ∈ c, n < 2 ^ 64)

def SendableResBody : ResBody → Prop
  | .put l => ∀ x ∈ l, IntRange x.status ∧ RefFits x.subject ∧ RefFits x.predicate
  | .get l => ∀ x ∈ l, IntRange x.status ∧ RefFits x.subject ∧ RefFits x.predicate ∧
      (x.status = 1 → Solid x.object)
  | .getop l => ∀ x ∈ l, IntRange x.status ∧ x.recs.length < 2 ^ 64 ∧
      ∀ r ∈ x.recs, Solid r.subject ∧ Solid r.predicate ∧ (x.status = 1 → Solid r.object)
  | .del l => ∀ x ∈ l, IntRange x.status ∧ RefFits x.subject ∧ RefFits x.predicate
  | .hist l => ∀ x ∈ l, IntRange x.status ∧ (x.status = 1 → ∃ h, x.hist = some h ∧ HistFits h)

def SendableRes (r : Res) : Prop :=
  IntRange r.src ∧ IntRange r.dst ∧ r.body.count < 2 ^ 64 ∧ SendableResBody r.body

end Hx.Spec

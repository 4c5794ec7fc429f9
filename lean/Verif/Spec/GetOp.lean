import Verif.Spec.Store

/-!
# Specification: the records a GETOP returns

As a function of the stored triples in the order of their keys. A GETOP goes by the encoded subject
and predicate one after the other, which is only a part of a key.
-/

namespace Hx.Spec
open Hx Msg

/-- The numeric `hxhim_data_t`s: INT32, INT64, UINT32, UINT64, FLOAT, DOUBLE. -/
def numericTypes : List Nat := [1, 2, 3, 4, 5, 6]

/-- Where LOWEST and HIGHEST start: behind the requested byte string, or, without a predicate of a
numeric type, behind the sign of negative numbers. -/
def startAt (neg : UInt8) (pre : Bytes) (noNumber : Bool) : Bytes :=
  if noNumber then pre ++ [neg, 0] else pre ++ [0]

/-- The operations EQ (0), NEXT (1), PREV (2), LOWEST (5) and HIGHEST (6) with the requested byte
string `pre`; `none` is an error. -/
def keyAnswer (t : Transform) (b : Store.Backend) (all : List Triple) (op : Nat) (pre start : Bytes) (n : Nat) :
    Option (List Triple) :=
  let behind := all.filter (fun a => ! decide (t.key a < pre))
  let before := all.filter (fun a => decide (t.key a < pre))
  if op = 0 then behind.head?.map (fun a => [a])
  else if op = 1 then if behind = [] then none else some (behind.take n)
  else if op = 2 then behind.head?.map (fun a => (a :: before.reverse).take n)
  else if op = 5 then
    if all.filter (fun a => ! decide (t.key a < start)) = [] then none
    else some ((all.filter (fun a => ! decide (t.key a < start) && pre.isPrefixOf (t.key a))).take n)
  else if op = 6 then
    match b with
    | .level =>
      if all.filter (fun a => decide (t.key a < start)) = [] then none
      else some ((all.filter (fun a => decide (t.key a < start) && pre.isPrefixOf (t.key a))).reverse.take n)
    | .mem =>
      -- the lowest record is never returned, and nothing when all records are at or before `start`
      if all.filter (fun a => decide (start < t.key a)) = [] then none
      else some (((all.drop 1).filter (fun a => ! decide (start < t.key a) && pre.isPrefixOf (t.key a))).reverse.take n)
  else none

/-- What a GETOP returns when `all` is stored; `none` is an error. FIRST is 3, LAST is 4. -/
def getOpAnswer (t : Transform) (neg : UInt8) (b : Store.Backend) (all : List Triple) (op : Nat) (s p : Val) (n : Nat) :
    Option (List Triple) :=
  if op = 3 then if all = [] then none else some (all.take n)
  else if op = 4 then if all = [] then none else some (all.reverse.take n)
  else
    match t.E s with
    | none => none
    | some es =>
      let ep := (t.E p).getD []
      keyAnswer t b all op (es ++ ep) (startAt neg (es ++ ep) (ep.isEmpty && numericTypes.contains p.typ)) n

/-- The answer `r` to a GETOP: the records, or an error with the request. -/
def AnswersOp (t : Transform) (neg : UInt8) (b : Store.Backend) (all : List Triple) (x : GetOpItem) (r : GetOpRes) : Prop :=
  match getOpAnswer t neg b all x.op x.subject.val x.predicate.val x.numRecs with
  | some l => r.status = dsSuccess ∧ r.recs.map recVals = l.map t.back
  | none => r.status = dsError ∧ r.recs = [⟨x.subject, x.predicate, Blob.null⟩]

end Hx.Spec

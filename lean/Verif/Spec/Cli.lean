import Verif.Model.CliRun
import Verif.Spec.Options

/-!
# What the lines of commands say

A line is a sequence of words; what words stand for does not depend on how they are read.
-/

namespace Hx.Spec.Cli
open Hx Store Elen
open Hx.Cli (Item Verb)
open Hx.Config (str)
open Hx.Spec.Config (Blank Word Decimal)

/-- The text is these words, with white space between them, and maybe around them. -/
inductive Words : Bytes → List Bytes → Prop
  | nil {s : Bytes} (h : ∀ b ∈ s, Blank b) : Words s []
  | cons {a w rest : Bytes} {ws : List Bytes} (ha : ∀ b ∈ a, Blank b) (hw : Word w) (hr : ∀ b, rest.head? = some b → Blank b)
      (h : Words rest ws) : Words (a ++ (w ++ rest)) (w :: ws)

/-- A sign: nothing, `+` or `-`. -/
inductive Sign : Bytes → Bool → Prop
  | none : Sign [] false
  | plus : Sign [43] false
  | minus : Sign [45] true

/-- The word is an integer: a sign and digits. -/
def IntText (w : Bytes) (v : Int) : Prop :=
  ∃ sg neg ds n, Sign sg neg ∧ Decimal ds n ∧ w = sg ++ ds ∧ v = if neg then -(n : Int) else n

/-- Digits, or nothing. -/
def Digits (ds : Bytes) : Prop := ∀ c ∈ ds, 48 ≤ c.toNat ∧ c.toNat ≤ 57

/-- The number some digits stand for. -/
def value (ds : Bytes) : Nat := ds.foldl (fun n c => 10 * n + (c.toNat - 48)) 0

/-- The word is a decimal fraction: a sign, digits with or without a decimal point, and maybe an exponent. -/
def FloatText (w : Bytes) (neg : Bool) (q : ℚ) : Prop :=
  ∃ sg whole frac point expo e, Sign sg neg ∧ Digits whole ∧ Digits frac ∧ whole ++ frac ≠ [] ∧
    (point = 46 :: frac ∨ (point = [] ∧ frac = [])) ∧
    ((expo = [] ∧ e = 0) ∨ ∃ c x, (c = 101 ∨ c = 69) ∧ IntText x e ∧ expo = c :: x) ∧
    w = sg ++ whole ++ point ++ expo ∧ q = value (whole ++ frac) * 10 ^ (e - (frac.length : Int))

/-- The names of types. -/
def typeName : Nat → Bytes
  | 1 => str "INT32" | 2 => str "INT64" | 3 => str "UINT32" | 4 => str "UINT64"
  | 5 => str "FLOAT" | 6 => str "DOUBLE" | 7 => str "BYTE" | _ => []

/-- There is a type with this number. -/
def IsType (t : Nat) : Prop := 1 ≤ t ∧ t ≤ 7

/-- The word stands for the value `v`, of type `v.typ`. Decimal fractions stand for the number of the type that is
nearest (`Fmt.near`, `C73_nearest`). -/
inductive ValText : Bytes → Val → Prop
  | int {w : Bytes} {i : Int} {t : Nat} {it : IntType} (ht : intType t = some it) (hw : IntText w i)
      (h : it.min ≤ i ∧ i ≤ it.max) : ValText w ⟨toMem it i, t⟩
  | float {w : Bytes} {neg : Bool} {q : ℚ} {t : Nat} (ht : t = tFloat ∨ t = tDouble) (hw : FloatText w neg q)
      (hk : (Fp.fmtOf t).near q < (Fp.fmtOf t).top) :
      ValText w ⟨leBytes (Fp.fmtOf t).size ((if neg then 2 ^ ((Fp.fmtOf t).w + (Fp.fmtOf t).p) else 0) + (Fp.fmtOf t).near q), t⟩
  | byte {w : Bytes} (h : Word w) : ValText w ⟨w, tByte⟩

/-- The two words of a subject, predicate or object. -/
def Pair (ws : List Bytes) (v : Val) : Prop := ∃ w, ws = [typeName v.typ, w] ∧ ValText w v

/-- The names of GETOPs. -/
def opName : Nat → Bytes
  | 0 => str "EQ" | 1 => str "NEXT" | 2 => str "PREV" | 3 => str "FIRST" | 4 => str "LAST" | _ => []

/-- The words of an operation's arguments (cli.cpp:29-40). -/
inductive Args : Item → List Bytes → Prop
  | put {s p o : Val} {a b c : List Bytes} (hs : Pair a s) (hp : Pair b p) (ho : Pair c o) : Args (.put s p o) (a ++ (b ++ c))
  | get {s p : Val} {t : Nat} {a b : List Bytes} (hs : Pair a s) (hp : Pair b p) (ht : IsType t) :
      Args (.get s p t) (a ++ (b ++ [typeName t]))
  | getop {s p : Val} {t n op : Nat} {a b : List Bytes} {w : Bytes} (hs : Pair a s) (hp : Pair b p) (ht : IsType t)
      (hw : IntText w n) (hn : n < 2 ^ 64) (ho : op < 5) : Args (.getop s p t n op) (a ++ (b ++ [typeName t, w, opName op]))
  | del {s p : Val} {a b : List Bytes} (hs : Pair a s) (hp : Pair b p) : Args (.del s p) (a ++ b)
  | flushPuts : Args .flushPuts []
  | flushGets : Args .flushGets []
  | flushDels : Args .flushDels []
  | flush : Args .flush []

/-- The verb of an operation. -/
def verbOf : Item → Verb
  | .put .. => .put | .get .. => .get | .getop .. => .getop | .del .. => .del
  | .flushPuts => .flushPuts | .flushGets => .flushGets | .flushDels => .flushDels | .flush => .flush

/-- The names of operations. -/
def verbName : Verb → String
  | .put => "PUT" | .get => "GET" | .getop => "GETOP" | .del => "DEL"
  | .flushPuts => "FLUSHPUTS" | .flushGets => "FLUSHGETS" | .flushDels => "FLUSHDELS" | .flush => "FLUSH"

/-- Operations that can be asked for with several items. -/
def HasBulk (v : Verb) : Prop := v = .put ∨ v = .get ∨ v = .getop ∨ v = .del

/-- The arguments of several operations. -/
inductive ArgList : List Item → List Bytes → Prop
  | nil : ArgList [] []
  | cons {x : Item} {l : List Item} {a b : List Bytes} (hx : Args x a) (hl : ArgList l b) : ArgList (x :: l) (a ++ b)

/-- The words of a line that asks for these operations. -/
inductive Asks : List Bytes → List Item → Prop
  | blank : Asks [] []
  | one {x : Item} {a : List Bytes} (h : Args x a) : Asks (str (verbName (verbOf x)) :: a) [x]
  | many {v : Verb} {l : List Item} {a : List Bytes} {w : Bytes} (hv : HasBulk v) (hl : ∀ x ∈ l, verbOf x = v)
      (hn : l.length < 2 ^ 64) (hw : IntText w l.length) (h : ArgList l a) : Asks (str ("B" ++ verbName v) :: w :: a) l

end Hx.Spec.Cli

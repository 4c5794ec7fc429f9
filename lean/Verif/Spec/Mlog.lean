import Verif.Base.Bytes

/-!
# Specification: log messages
-/

namespace Hx.Spec.Mlog

/-- The last `n` of a list. -/
def lastN {α : Type} (n : Nat) (l : List α) : List α := (l.reverse.take n).reverse

/-- A line for a text: it ends with a newline, and is at most `max` long. -/
def logLine (max : Nat) (text : Bytes) : Bytes :=
  let line := if text.getLast? = some 10 then text else text ++ [10]
  if line.length ≤ max then line else line.take (max - 1) ++ [10]

/-- The text of a line: two parts of a header and the message. Of a message that cannot be formatted, `none` or too
long for an `int`, only the header, without the blank at its end. -/
def logText (h1 h2 : Bytes) (msg : Option Bytes) : Bytes :=
  match msg with
  | none => (h1 ++ h2).dropLast
  | some m => if 2 ^ 31 ≤ m.length then (h1 ++ h2).dropLast else h1 ++ h2 ++ m

/-- What is logged for a message: a line, or nothing if the header leaves no room in 4096 bytes. -/
def logged (h1 h2 : Bytes) (msg : Option Bytes) : Bytes := if h1.length + h2.length < 4095 then logLine 4095 (logText h1 h2 msg) else []

/-- What headers look like, whether they fit or not: the first part has at least two characters, both can be
counted, and there is no newline before the blank at the end. -/
structure Header (h1 h2 : Bytes) : Prop where
  long : 2 ≤ h1.length
  count : h1.length + h2.length + 1 < 2 ^ 31
  newline : (h1 ++ h2).dropLast.getLast? ≠ some 10

/-- The length of the text can be counted. -/
def Counts (h1 h2 : Bytes) (msg : Option Bytes) : Prop := ∀ m, msg = some m → m.length < 2 ^ 31 → h1.length + h2.length + m.length < 2 ^ 31

end Hx.Spec.Mlog

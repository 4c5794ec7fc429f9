import Verif.Model.Options

/-!
# Specification of configuration sources

What a line, a text and a source define, without reference to how they are read.
-/

namespace Hx.Spec.Config
open Hx

/-- White space: blank, `\t`, `\n`, `\v`, `\f`, `\r`. -/
def Blank (b : UInt8) : Prop := b = 32 ∨ b = 9 ∨ b = 10 ∨ b = 11 ∨ b = 12 ∨ b = 13

/-- A word: not empty and without white space. -/
def Word (w : Bytes) : Prop := w ≠ [] ∧ ∀ b ∈ w, ¬ Blank b

/-- A value: no white space at either end. -/
def Value (v : Bytes) : Prop := (∀ b, v.head? = some b → ¬ Blank b) ∧ (∀ b, v.getLast? = some b → ¬ Blank b)

/-- The line is a key that does not start with `#`, white space and a value, with white space around
it. A key alone defines the empty value. -/
def LineDefines (line key value : Bytes) : Prop :=
  Word key ∧ key.head? ≠ some 35 ∧ Value value ∧
    ∃ a b c, line = a ++ key ++ b ++ value ++ c ∧ (∀ x ∈ a, Blank x) ∧ (∀ x ∈ b, Blank x) ∧ (∀ x ∈ c, Blank x) ∧
      (value ≠ [] → b ≠ [])

/-- The line is blank, or its first character that is not blank is `#`. -/
def Comment (line : Bytes) : Prop :=
  (∀ x ∈ line, Blank x) ∨ ∃ a rest, line = a ++ 35 :: rest ∧ ∀ x ∈ a, Blank x

/-- The text consists of these lines. -/
def Lines (text : Bytes) (ls : List Bytes) : Prop :=
  ls ≠ [] ∧ (∀ l ∈ ls, (10 : UInt8) ∉ l) ∧ text = List.intercalate [10] ls

/-- The last of the items that defines something defines `v`. -/
def LastDef {ι : Type} (defs : ι → Bytes → Prop) (items : List ι) (v : Bytes) : Prop :=
  ∃ pre x post, items = pre ++ x :: post ∧ defs x v ∧ ∀ y ∈ post, ∀ w, ¬ defs y w

/-- The last line of the text that defines the key. -/
def TextDefines (text key value : Bytes) : Prop :=
  ∃ ls, Lines text ls ∧ LastDef (fun l v => LineDefines l key v) ls value

/-- What a source defines. -/
def SourceDefines (sys : Hx.Config.Sys) (key : Bytes) : Hx.Config.Reader → Bytes → Prop
  | .file name, v => ∃ text, sys.files name = some text ∧ TextDefines text key v
  | .envFile var, v => ∃ name text, sys.env var = some name ∧ sys.files name = some text ∧ TextDefines text key v
  | .envVar var k, v => k = key ∧ sys.env var = some v

end Hx.Spec.Config

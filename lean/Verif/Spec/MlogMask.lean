import Verif.Model.MlogMask

/-!
# Specification: log masks
-/

namespace Hx.Spec.Mlog
open Hx.Mlog (Fac)

/-- The level of flags or of a mask: 0 for debug messages, 1 for information, up to 7 for emergencies. -/
def level (f : Nat) : Nat := f / 2 ^ 20 % 8

/-- Two sets of debug channels have one in common. -/
def Shares (a b : Nat) : Prop := ∃ i, i < 4 ∧ a.testBit (16 + i) = true ∧ b.testBit (16 + i) = true

/-- The messages a mask lets through: those of its level or above; debug messages on one of its channels. -/
def Wants (mask flags : Nat) : Prop := (level flags = 0 ∧ Shares mask flags) ∨ (level flags ≠ 0 ∧ level mask ≤ level flags)

/-- A mask that is either a level or a set of debug channels. -/
structure Plain (mask : Nat) : Prop where
  bits : mask / 2 ^ 16 % 2 ^ 7 * 2 ^ 16 = mask
  one : level mask = 0 ∨ mask / 2 ^ 16 % 2 ^ 4 = 0

/-- Strings that are the same but for the case of letters. -/
def sameCase (a b : Bytes) : Bool :=
  let low : UInt8 → UInt8 := fun c => if 65 ≤ c ∧ c ≤ 90 then c + 32 else c
  a.map low == b.map low

/-- Names of levels above debug. -/
def levelNames : List (Bytes × Nat) := [
  ([73, 78, 70, 79], 1), ([78, 79, 84, 69], 2), ([87, 65, 82, 78], 3), ([69, 82, 82], 4), ([67, 82, 73, 84], 5), ([65, 76, 82, 84], 6), ([69, 77, 82, 71], 7)]

/-- The shortest name of a mask: its level, `DBUG` for all debug channels, else a `D` and the numbers of the
channels. -/
def maskName (mask : Nat) : Bytes :=
  match levelNames.find? fun p => p.2 = level mask with
  | some p => p.1
  | none =>
    if mask / 2 ^ 16 % 16 = 15 then [68, 66, 85, 71]
    else 68 :: ((List.range 4).filter fun c => mask.testBit (19 - c)).map fun c => UInt8.ofNat (48 + c)

/-- Names with exactly four characters, for all masks with debug channels or a level. -/
def longName (mask : Nat) : Bytes :=
  if level mask = 0 then maskName mask ++ List.replicate (4 - (maskName mask).length) 45 else maskName mask ++ List.replicate (4 - (maskName mask).length) 32

/-- All masks that have a name. -/
def allMasks : List Nat := (List.range' 1 7).map (· * 2 ^ 20) ++ (List.range 16).map (· * 2 ^ 16)

/-- The mask a text means: names in upper or lower case, `DEBUG`; names of channels, filled up with dashes, which can
be left out. -/
def maskValue (s : Bytes) : Option Nat :=
  if sameCase s [69, 82, 82] then some 0x400000
  else if sameCase s [68, 69, 66, 85, 71] then some 0xf0000
  else allMasks.find? fun m => sameCase (if s.head? = some 68 then s ++ List.replicate (4 - s.length) 45 else s) (longName m)

/-- A setting: a facility, or all of them, and the name of a mask. -/
abbrev Setting := Option Bytes × Bytes

/-- A setting as text. -/
def entry : Setting → Bytes
  | (none, l) => l
  | (some n, l) => n ++ [61] ++ l

/-- Settings as text. -/
def write (ss : List Setting) : Bytes := [44].intercalate (ss.map entry)

/-- Settings that can be written: no commas, no equals signs and no zeros, a known mask if it is for all, and no blank
at the end. -/
structure Valid (s : Setting) : Prop where
  comma : (44 : UInt8) ∉ entry s
  equals : ∀ n, s.1 = some n → (61 : UInt8) ∉ n
  equals' : s.1 = none → (61 : UInt8) ∉ s.2
  zero : (0 : UInt8) ∉ s.2
  known : s.1 = none → maskValue s.2 ≠ none
  blank : ∀ c, s.2.getLast? = some c → c ≠ 10 ∧ c ≠ 32 ∧ c ≠ 9

/-- Whether the facility has the name. -/
def hasName (f : Fac) (name : Bytes) : Bool := f.aname.any (sameCase · name) || f.lname.any (sameCase · name)

/-- Change the first element with a property. -/
def setFirst {α : Type} (p : α → Bool) (f : α → α) : List α → List α
  | [] => []
  | x :: l => if p x then f x :: l else x :: setFirst p f l

/-- What a setting does to the facilities. -/
def apply (t : List Fac) (s : Setting) : List Fac :=
  match maskValue s.2 with
  | none => t
  | some v => match s.1 with
    | none => t.map fun f => { f with mask := v }
    | some n => setFirst (hasName · n) (fun f => { f with mask := v }) t

/-- More facilities, with the default mask and no names. -/
def grow (defMask : Nat) (t : List Fac) (n : Nat) : List Fac := t ++ List.replicate (n - t.length) ⟨defMask, none, none⟩

/-- Calls that change the facilities. -/
inductive Op where
  | mask (facility : Nat) (mask : Nat)
  | name (facility : Nat) (aname lname : Option Bytes)
  | alloc (aname lname : Option Bytes)

/-- What they do. -/
def Op.does (defMask : Nat) (t : List Fac) : Op → List Fac
  | .mask i m => (grow defMask t (i + 1)).modify i fun f => { f with mask := m / 2 ^ 16 % 2 ^ 7 * 2 ^ 16 }
  | .name i a l => (grow defMask t (i + 1)).modify i fun f => { f with aname := a, lname := if a.isSome then l else none }
  | .alloc a l => t ++ [⟨defMask, a, if a.isSome then l else none⟩]

/-- The name of a facility in the text of all masks. -/
def nameOf (i : Nat) (f : Fac) : Bytes :=
  match f.lname, f.aname with
  | some n, _ => n
  | none, some n => n
  | none, none => (Nat.toDigits 10 i).map fun c => UInt8.ofNat c.toNat

/-- All masks, as settings. -/
def settings (t : List Fac) : List Setting := t.zipIdx.map fun p => (some (nameOf p.2 p.1), maskName p.1.mask)

/-- The mask for a facility; facilities that are not known have the mask of the first. -/
def maskFor (t : List Fac) (facility : Nat) : Nat := ((t[facility]?.orElse fun _ => t[0]?).map Fac.mask).getD 0

/-- Names that can be told apart: every facility has one, which no facility before it has, without commas and equals
signs; the first does not begin with a blank. -/
structure Names (t : List Fac) : Prop where
  has : ∀ f ∈ t, f.lname.isSome = true ∨ f.aname.isSome = true
  apart : ∀ i j f g, j < i → t[i]? = some f → t[j]? = some g → hasName g (nameOf i f) = false
  signs : ∀ f ∈ t, (44 : UInt8) ∉ nameOf 0 f ∧ (61 : UInt8) ∉ nameOf 0 f
  blank : ∀ f c, t[0]? = some f → (nameOf 0 f).head? = some c → c ≠ 32 ∧ c ≠ 9

/-- The names of facilities. -/
def names (t : List Fac) : List (Option Bytes × Option Bytes) := t.map fun f => (f.aname, f.lname)

end Hx.Spec.Mlog

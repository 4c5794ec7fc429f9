import Verif.Model.Mkdir

/-!
# Specification: making directories while other processes do too
-/

namespace Hx.Spec.Mkdir
open Hx.Mkdir

/-- Everything is in a directory. -/
def WellFormed (fs : Fs) : Prop := fs [] = some .dir ∧ ∀ p, p ≠ [] → fs p ≠ none → fs p.dropLast = some .dir

/-- Directories are added, nothing is removed or changed. -/
def Grows (fs fs' : Fs) : Prop := (∀ p x, fs p = some x → fs' p = some x) ∧ ∀ p, fs p = none → fs' p = none ∨ fs' p = some .dir

/-- A call of `mkdir_p`, which makes `n` steps, and the file system, in which other processes add directories at
any time. -/
inductive Run (e : Env) : Nat → Fs → Proc → Fs → Proc → Prop where
  | refl (fs : Fs) (p : Proc) : Run e 0 fs p fs p
  | own {n fs p fs' p' fs'' p''} : step e fs p = some (fs', p') → Run e n fs' p' fs'' p'' → Run e (n + 1) fs p fs'' p''
  | others {n fs p fs' fs'' p''} : Grows fs fs' → WellFormed fs' → Run e n fs' p fs'' p'' → Run e n fs p fs'' p''

/-- The places a path goes through, from where its resolution begins to what it names. -/
def visited : Path → List Bytes → List Path
  | p, [] => [p]
  | p, x :: l => p :: visited (if x = [46] then p else if x = [46, 46] then p.dropLast else p ++ [x]) l

/-- The places of a path. -/
def places (cwd : Path) (path : Bytes) : List Path :=
  visited (if path.head? = some 47 then [] else cwd) ((path.splitOn 47).filter (fun x => !x.isEmpty))

/-- The path names a directory. -/
def IsDir (cwd : Path) (fs : Fs) (path : Bytes) : Prop := ∀ q ∈ places cwd path, fs q = some .dir

/-- The path names something. -/
def Exists (cwd : Path) (fs : Fs) (path : Bytes) : Prop :=
  (∀ q ∈ (places cwd path).dropLast, fs q = some .dir) ∧ ∀ q, (places cwd path).getLast? = some q → fs q ≠ none

end Hx.Spec.Mkdir

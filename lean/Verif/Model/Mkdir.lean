import Verif.Model.Addrs
import Mathlib.Logic.Function.Basic

/-!
# Making directories: `src/utils/mkdir_p.cpp`

A file system of directories and other files, without links. Several processes use it at the same time, so
`mkdir_p` is a sequence of steps, each of which calls `mkdir` once.
-/

namespace Hx.Mkdir

inductive Node where
  | dir
  | file
deriving DecidableEq

/-- Names from the root. -/
abbrev Path := List Bytes

abbrev Fs := Path → Option Node

/-- `errno` of `mkdir`: `EEXIST`, `ENOENT`, `ENOTDIR`, and others. -/
inductive Err where
  | exist
  | noent
  | notdir
  | other (n : Nat)
deriving DecidableEq

inductive Ret where
  | made (fs : Fs)
  | failed (e : Err)

/-- The directory of the process, and where the system refuses to make a directory (`EACCES`, `ENOSPC`, ...). -/
structure Env where
  cwd : Path
  deny : Path → Option Nat

def slash : UInt8 := 47
def dot : Bytes := [46]
def dotdot : Bytes := [46, 46]

/-- The names of a path: what is between slashes, if anything. -/
def names (s : Bytes) : List Bytes := (s.splitOn slash).filter (fun x => !x.isEmpty)

/-- Where the resolution of a path begins. -/
def base (e : Env) (s : Bytes) : Path := if s.head? = some slash then [] else e.cwd

/-- From a directory to a name in it. -/
def into (p : Path) (x : Bytes) : Path := if x = dot then p else if x = dotdot then p.dropLast else p ++ [x]

/-- Resolve names; all that is gone through has to be a directory, the result need not exist. -/
def walk (fs : Fs) : Path → List Bytes → Except Err Path
  | p, [] => .ok p
  | p, x :: l =>
    match fs p with
    | some .dir => walk fs (into p x) l
    | some .file => .error .notdir
    | none => .error .noent

/-- `mkdir(2)`. -/
def mkdir (e : Env) (fs : Fs) (s : Bytes) : Ret :=
  if s = [] then .failed .noent else
  match (names s).getLast? with
  | none => .failed .exist
  | some x =>
    match walk fs (base e s) (names s).dropLast with
    | .error err => .failed err
    | .ok p =>
      match fs p with
      | none => .failed .noent
      | some .file => .failed .notdir
      | some .dir =>
        if x = dot ∨ x = dotdot ∨ (fs (p ++ [x])).isSome then .failed .exist
        else match e.deny (p ++ [x]) with
          | some n => .failed (.other n)
          | none => .made (Function.update fs (p ++ [x]) (some .dir))

/-- A call of `mkdir_p`: the copy of the path, which ends with a zero; the position; what was returned, `none`
for 0. -/
structure Proc where
  buf : Bytes
  size : Nat
  pos : Nat
  ret : Option (Option Err)

/-- src/utils/mkdir_p.cpp:8-12. -/
def start (path : Bytes) : Proc := ⟨path ++ [0], path.length, 1, none⟩

/-- The next separator, or the end (src/utils/mkdir_p.cpp:14-17). -/
def scan (p : Proc) : Nat := p.pos + (((p.buf.take p.size).drop p.pos).takeWhile (· != slash)).length

/-- One iteration of the loop (src/utils/mkdir_p.cpp:13-34), or the end of the function. `none` when it has
returned. Both writes are to positions of the buffer. -/
def step (e : Env) (fs : Fs) (p : Proc) : Option (Fs × Proc) :=
  if p.ret.isSome then none
  else if p.pos < p.size then
    let i := scan p
    let cut := p.buf.set i 0
    match mkdir e fs (Addrs.cstr cut) with
    | .made fs' => some (fs', { p with buf := cut.set i slash, pos := i + 1 })
    | .failed .exist => some (fs, { p with buf := cut.set i slash, pos := i + 1 })
    | .failed err => some (fs, { p with buf := cut, ret := some (some err) })
  else some (fs, { p with ret := some none })

end Hx.Mkdir

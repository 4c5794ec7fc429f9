import Verif.Model.Options

/-!
# Callbacks of a session

Which function encodes and decodes which data type once a session is open.
-/

namespace Hx.Config
open Hx

/-- A callback: one of the library's, none (bytes are copied), or one of the user's. -/
inductive Callback where
  | library
  | copy
  | user (fn extra : Nat)
  deriving Repr, DecidableEq

/-- `default_callbacks` (src/datastore/transform.cpp:15-61): the types of include/hxhim/constants.h:130-140
from INT32 (1) to DOUBLE (6), then BYTE (7) and POINTER (8). The same for encoding and decoding. -/
def defaultTable : List (Nat × Callback) :=
  [(1, .library), (2, .library), (3, .library), (4, .library), (5, .library), (6, .library), (7, .copy), (8, .copy)]

/-- `init::transform` (src/hxhim/init.cpp:84-100) for one of the two tables: `emplace` does not replace. -/
def sessionTable (l : List (Nat × Nat × Nat)) : List (Nat × Callback) :=
  l.foldl (fun t e => if (t.lookup e.1).isSome then t else t ++ [(e.1, .user e.2.1 e.2.2)]) defaultTable

/-- The function that encodes values of a type. -/
def encoder (o : Opts) (type : Nat) : Option Callback := (sessionTable o.encode).lookup type

/-- The function that decodes values of a type. -/
def decoder (o : Opts) (type : Nat) : Option Callback := (sessionTable o.decode).lookup type

end Hx.Config

import Verif.Model.Store

/-!
# The instance of MPI, endpoints, and the epoch

`Transport::MPI::Instance` (`src/transport/backend/MPI/Instance.cpp`), `EndpointBase` (`src/transport/backend/MPI/EndpointBase.cpp`) and
`Stats::init` (`src/utils/Stats.cpp`).

* MPI may be initialised once and finalised once (MPI 3.1, 8.7); anything else, and asking for ranks before or after, is undefined.
  `MPI_Initialized` is true after `MPI_Finalize`, too.
* The instance is a variable of static storage, so members the constructor does not set are 0.
* Messages on standard error are left out.
-/

namespace Hx.MpiInstance
open Hx

/-- What the calls of the library return. Level 3 is `MPI_THREAD_MULTIPLE`. -/
structure Lib where
  initializedRc : Int
  initRc : Int
  provided : Nat
  rankRc : Int
  rank : Int
  sizeRc : Int
  size : Int

/-- What has become of MPI. -/
inductive Phase
  | before
  | running
  | finalized
  deriving DecidableEq, Repr

/-- The members of the instance (include/transport/backend/MPI/Instance.hpp:42-47); `world` is whether the communicator is
`MPI_COMM_WORLD`. The instance and the world have the same rank and size. -/
structure Inst where
  was : Bool
  world : Bool
  rank : Int
  size : Int
  deriving DecidableEq, Repr

/-- A process: MPI, how often it was initialised and finalised, and the instance once there is one. -/
structure Proc where
  phase : Phase
  inits : Nat
  finals : Nat
  inst : Option Inst
  deriving DecidableEq, Repr

/-- A process when it starts. -/
def start : Proc := ⟨.before, 0, 0, none⟩

/-- `MPI_Init` or `MPI_Init_thread`. -/
def mpiInit (lib : Lib) (p : Proc) : Out Proc :=
  if p.phase = .before then (if lib.initRc = 0 then .ok { p with phase := .running, inits := p.inits + 1 } else .ok p) else .ub

/-- `MPI_Finalize`. -/
def mpiFinalize (p : Proc) : Out Proc :=
  if p.phase = .running then .ok { p with phase := .finalized, finals := p.finals + 1 } else .ub

/-- The second half of the constructor (src/transport/backend/MPI/Instance.cpp:38-51). -/
def query (lib : Lib) (was : Bool) (p : Proc) : Out Proc :=
  if p.phase = .running then
    .ok { p with inst := some ⟨was, true, if lib.rankRc = 0 then lib.rank else -1, if lib.sizeRc = 0 then lib.size else -1⟩ }
  else .ub

/-- The constructor (src/transport/backend/MPI/Instance.cpp:15-52). -/
def construct (lib : Lib) (p : Proc) : Out Proc :=
  if p.phase = .before then
    if lib.initializedRc = 0 then
      mpiInit lib p >>= fun p => if lib.initRc = 0 ∧ 3 ≤ lib.provided then query lib true p else .ok { p with inst := some ⟨false, false, 0, 0⟩ }
    else .ok { p with inst := some ⟨false, false, 0, 0⟩ }
  else query lib false p

/-- `Instance::instance` (src/transport/backend/MPI/Instance.cpp:9-12). -/
def use (lib : Lib) (p : Proc) : Out Proc :=
  match p.inst with
  | some _ => .ok p
  | none => construct lib p

/-- What a program does. -/
inductive Ev
  | use
  | init
  | finalize
  deriving DecidableEq, Repr

/-- One of these. -/
def step (lib : Lib) (p : Proc) : Ev → Out Proc
  | .use => use lib p
  | .init => mpiInit lib p
  | .finalize => mpiFinalize p

/-- A program up to its exit. -/
def run (lib : Lib) : Proc → List Ev → Out Proc
  | p, [] => .ok p
  | p, e :: l => step lib p e >>= fun p => run lib p l

/-- The exit of the program, which destroys the instance (src/transport/backend/MPI/Instance.cpp:55-58). -/
def exit (p : Proc) : Out Proc :=
  match p.inst with
  | some i => if i.was then mpiFinalize p else .ok p
  | none => .ok p

/-- The constructor of `EndpointBase` (src/transport/backend/MPI/EndpointBase.cpp:6-22): rank and size, or an exception. -/
def endpoint (null : Bool) (lib : Lib) : Out (Int × Int) :=
  if null then .err else if lib.rankRc ≠ 0 then .err else if lib.sizeRc ≠ 0 then .err else .ok (lib.rank, lib.size)

/-- `Stats::init` (src/utils/Stats.cpp:8-15): the epoch and whether it is set, at a time. -/
def epochInit (s : Int × Bool) (now : Int) : Int × Bool := if s.2 then s else (now, true)

/-- The values that calls of it return, one after the other. -/
def epochs : Int × Bool → List Int → List Int
  | _, [] => []
  | s, now :: l => (epochInit s now).1 :: epochs (epochInit s now) l

end Hx.MpiInstance

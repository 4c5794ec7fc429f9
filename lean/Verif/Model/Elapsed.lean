import Verif.Model.Fp
import Verif.Model.Lowest

/-!
# Elapsed times

`examples/hxhim/timestamps.{h,c}`, the clocks of `src/utils/Stats.cpp`, and what `examples/hxhim/hx.c`, `examples/hxhim/puts.c` and
`Datastore::GetStats` make of them.

* `long double` is the 80 bit format of x86, which has the numbers of a format with 15 bits of exponent and 63 of fraction; operations are
  rounded to nearest. `1e9` is a `double` and exact.
* A `steady_clock` counts nanoseconds in 64 bits with sign (libstdc++).
* `src/utils/elapsed.c` is left out: the header it includes does not exist, so it is no part of a build.
-/

namespace Hx.Elapsed
open Hx Spec Fp
open Hx.Config (str)

/-- `long double`. -/
def ext : Fmt := ⟨15, 63⟩

/-- Conversion to `uint64_t`. -/
def u64 (i : Int) : Nat := (i % 2 ^ 64).toNat

/-- `struct timespec`. -/
structure TimeSpec where
  sec : Int
  nsec : Int
  deriving Repr, DecidableEq

/-- `s = tv_sec; s *= 1000000000ULL; s += tv_nsec;` (examples/hxhim/timestamps.c:4-6 and 8-10). -/
def count (t : TimeSpec) : Nat := (u64 t.sec * 1000000000 % 2 ^ 64 + u64 t.nsec) % 2 ^ 64

/-- `nano` (examples/hxhim/timestamps.c:3-13). -/
def nano (start stop : TimeSpec) : Nat := (count stop + 2 ^ 64 - count start) % 2 ^ 64

/-- Division of `long double`s, of which the divisor is positive. -/
def ldiv (x : Ieee) (d : ℚ) : Ieee :=
  match x with
  | .fin s q => ext.round s (q / d)
  | x => x

/-- `(long double) n / 1e9` (examples/hxhim/timestamps.c:16, src/utils/Stats.cpp:30). -/
def seconds (n : Nat) : Ieee := ldiv (ext.round false n) 1000000000

/-- `sec` (examples/hxhim/timestamps.c:15-17). -/
def sec (start stop : TimeSpec) : Ieee := seconds (nano start stop)

/-- `%.3Lf` of a number that is not negative. -/
def three : Ieee → Bytes
  | .fin _ q => fixed 3 q
  | .inf _ => str "inf"
  | .nan => str "-nan"

/-- `"%d " #name " %" PRIu64 " %" PRIu64 " %.3Lf\n"` (examples/hxhim/timestamps.h:21). -/
def format (rank : Int) (name : Bytes) (start stop : Nat) (seconds : Bytes) : Bytes :=
  Lowest.showInt rank ++ 32 :: (name ++ 32 :: (Elen.toDec start ++ 32 :: (Elen.toDec stop ++ 32 :: (seconds ++ [10]))))

/-- The line `timestamp_end` prints (examples/hxhim/timestamps.h:19-25). -/
def line (rank : Int) (name : Bytes) (epoch start stop : TimeSpec) : Bytes :=
  format rank name (nano epoch start) (nano epoch stop) (three (sec start stop))

/-- `Stats::nano` (src/utils/Stats.cpp:21-27) of two points of the clock. The difference of the counts is one of 64 bits with sign. -/
def chronoNano (start stop : Int) : Out Nat :=
  if -2 ^ 63 ≤ stop - start ∧ stop - start < 2 ^ 63 then .ok (u64 (stop - start)) else .ub

/-- `Stats::sec` (src/utils/Stats.cpp:29-35). -/
def chronoSec (start stop : Int) : Out Ieee := chronoNano start stop >>= fun n => .ok (seconds n)

/-- The sum of times in `GetStats` (src/datastore/datastore.cpp:344-360) and `bput_flush_time` (examples/hxhim/puts.c:61, 106-107). -/
def total : List Nat → Nat := List.foldl (fun a n => (a + n) % 2 ^ 64) 0

/-- `duration` (examples/hxhim/hx.c:156-159). A `uint64_t` is converted before it is added. -/
def duration (put flush : Nat) : Ieee :=
  match ext.round false put, ext.round false flush with
  | .fin _ a, .fin _ b => ldiv (ext.round false (a + b)) 1000000000
  | _, _ => .nan

/-- `total_secs` (examples/hxhim/puts.c:134): `1e9` is a `double`, so the division is one of `double`s. -/
def putsSeconds (n : Nat) : Ieee :=
  match dbl.round false n with
  | .fin s q => dbl.round s (q / 1000000000)
  | x => x

/-- The number of PUTs by the time (examples/hxhim/hx.c:165, examples/hxhim/puts.c:135): 0 / 0 is no number. -/
def rate (n : Nat) : Ieee → Ieee
  | .fin _ q => if q = 0 then (if n = 0 then .nan else .inf false) else
      match ext.round false n with
      | .fin s m => ext.round s (m / q)
      | x => x
  | .inf _ => .fin false 0
  | .nan => .nan

end Hx.Elapsed

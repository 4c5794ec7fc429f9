import Verif.Model.Fp
import Verif.Model.Histogram
import Verif.Model.Options

/-!
# The library's bucket generators: `src/utils/Histogram.cpp`

Arithmetic on `double`s is IEEE 754 with rounding to nearest, ties to even. Bit patterns are read with `Spec.ieee`. `sqrt`,
`cbrt`, `log` and `log2` of the C library are parameters.
-/

namespace Hx.Buckets
open Hx Spec Fp Config

/-- The number of a bit pattern. -/
def num (x : Dbl) : Ieee := ieee 11 52 x.toNat

/-- The bit pattern of a number. -/
def pat (x : Ieee) : Dbl := UInt64.ofNat (dbl.bits x)

/-- A rational number as a `double`; zero gets the given sign. -/
def rnd (zero : Bool) (v : ℚ) : Ieee := if v = 0 then .fin zero 0 else dbl.round (decide (v < 0)) |v|

def signed (s : Bool) (q : ℚ) : ℚ := if s then -q else q

/-- Addition of doubles. A sum of zero is positive unless both numbers are negative zeros. -/
def add : Ieee → Ieee → Ieee
  | .fin s a, .fin t b => rnd (s && t) (signed s a + signed t b)
  | .inf s, .inf t => if s = t then .inf s else .nan
  | .inf s, .fin _ _ => .inf s
  | .fin _ _, .inf t => .inf t
  | _, _ => .nan

def opp : Ieee → Ieee
  | .fin s a => .fin (!s) a
  | .inf s => .inf (!s)
  | .nan => .nan

def sub (a b : Ieee) : Ieee := add a (opp b)

/-- Division of doubles. -/
def div : Ieee → Ieee → Ieee
  | .fin s a, .fin t b =>
    if b = 0 then (if a = 0 then .nan else .inf (s != t)) else dbl.round (s != t) (a / b)
  | .inf s, .fin t _ => .inf (s != t)
  | .fin s _, .inf t => .fin (s != t) 0
  | _, _ => .nan

/-- Conversion of a `size_t` to `double`. -/
def ofSize (n : Nat) : Ieee := dbl.round false n

/-- Conversion of a `double` to `size_t`: the fraction is cut off; undefined when the result does not fit. -/
def toSize : Ieee → Out Nat
  | .fin s m => if s then (if m < 1 then .ok 0 else .ub) else if ⌊m⌋.toNat < 2 ^ 64 then .ok ⌊m⌋.toNat else .ub
  | _ => .ub

/-- `std::ceil`. -/
def ceil : Ieee → Ieee
  | .fin s m => .fin s (if s then ⌊m⌋ else ⌈m⌉)
  | x => x

/-- Functions of the C library on `double`s. -/
structure Math where
  sqrt : Ieee → Ieee
  cbrt : Ieee → Ieee
  log : Ieee → Ieee
  log2 : Ieee → Ieee

/-- `std::min_element` and `std::max_element`: the first of the smallest (largest) values. -/
def minElement (v : Dbl) (vs : List Dbl) : Dbl := vs.foldl (fun m x => if Dbl.lt x m then x else m) v
def maxElement (v : Dbl) (vs : List Dbl) : Dbl := vs.foldl (fun m x => if Dbl.lt m x then x else m) v

/-- The loops that write the left ends (src/utils/Histogram.cpp:44-47, 68-71). -/
def leftEnds (step : Ieee) : Nat → Dbl → List Dbl
  | 0, _ => []
  | k + 1, left => left :: leftEnds step k (pat (add (num left) step))

/-- `generate_using_bin_count` (src/utils/Histogram.cpp:34-53). -/
def usingBinCount (min max : Dbl) (count : Nat) : List Dbl :=
  leftEnds (div (sub (num max) (num min)) (ofSize count)) count min

/-- `histogram_n_buckets` (src/utils/Histogram.cpp:55-74) of values `v :: vs`; `none` is `HISTOGRAM_ERROR`. -/
def nBuckets (extra : Nat) (v : Dbl) (vs : List Dbl) : Option (List Dbl) :=
  if extra = 0 then none
  else some (leftEnds (ceil (div (sub (num (maxElement v vs)) (num (minElement v vs))) (ofSize extra))) extra (minElement v vs))

/-- The numbers of buckets of the other generators; the `double` is converted to `size_t`.
`histogram_square_root_choice` (src/utils/Histogram.cpp:85), `histogram_sturges_formula` (97), `histogram_rice_rule` (109). -/
def squareRoot (m : Math) (n : Nat) : Ieee := m.sqrt (ofSize n)
def sturges (m : Math) (n : Nat) : Ieee := add (m.log2 (ofSize n)) (ofSize 2)
def rice (m : Math) (n : Nat) : Ieee := add (m.cbrt (ofSize n)) (ofSize 2)

/-- `histogram_scotts_normal_reference_rule` (src/utils/Histogram.cpp:121-139). The smallest value minus the largest. -/
def scott (m : Math) (v : Dbl) (vs : List Dbl) : Ieee :=
  let l := v :: vs
  let mean := div (l.foldl (fun acc x => add acc (num x)) (.fin false 0)) (ofSize l.length)
  let sumsqr := l.foldl (fun acc x => add acc (mul (sub (num x) mean) (sub (num x) mean))) (.fin false 0)
  let stdev := m.sqrt (div sumsqr (ofSize (l.length - 1)))
  let h := div (mul (.fin false (7 / 2)) stdev) (m.cbrt (ofSize l.length))
  div (sub (num (minElement v vs)) (num (maxElement v vs))) h

/-- `histogram_uniform_logn` (src/utils/Histogram.cpp:142-152). -/
def uniformLog (m : Math) (extra : Nat) (v : Dbl) (vs : List Dbl) : Ieee :=
  let d := sub (num (maxElement v vs)) (num (minElement v vs))
  ceil (div (mul d (m.log (ofSize extra))) (m.log d))

/-- The generators on the first values, given by the pointer to them and their number: `none` is `HISTOGRAM_ERROR`. -/
def run (m : Math) (g : GenFn) (extra : Nat) : Option (List Dbl) → Out (Option (List Dbl))
  | some (v :: vs) =>
    let binned (count : Ieee) : Out (Option (List Dbl)) :=
      toSize count >>= fun k => .ok (some (usingBinCount (minElement v vs) (maxElement v vs) k))
    match g with
    | .nBuckets => .ok (nBuckets extra v vs)
    | .squareRoot => binned (squareRoot m (vs.length + 1))
    | .sturges => binned (sturges m (vs.length + 1))
    | .rice => binned (rice m (vs.length + 1))
    | .scott => binned (scott m v vs)
    | .uniformLog => if extra = 0 then .ok none else binned (uniformLog m extra v vs)
    | .user _ => .err
  | _ => .ok none

end Hx.Buckets

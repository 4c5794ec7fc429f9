import Verif.Base.Bytes

/-!
# Log messages: `src/utils/mlog2.c`

How a message is formatted, and the message buffer it is put into. Texts that `snprintf` makes are given; it
writes as much of a text as there is room for, and a zero. A result that does not fit an `int` is an error of
`vsnprintf`. The lock is held by one thread at a time, so calls are in some order.
-/

namespace Hx.Mlog

/-- Write to memory. -/
def wr (mem : Bytes) (off : Nat) (src : Bytes) : Out Bytes :=
  if off + src.length ≤ mem.length then .ok (mem.take off ++ src ++ mem.drop (off + src.length)) else .ub

/-- Read from memory. -/
def rd (mem : Bytes) (off n : Nat) : Out Bytes := if off + n ≤ mem.length then .ok ((mem.drop off).take n) else .ub

/-- `snprintf(b + off, size, ...)`. -/
def snprintf (b : Bytes) (off size : Nat) (text : Bytes) : Out Bytes := wr b off (text.take (size - 1) ++ [0])

/-- The end of the formatting (src/utils/mlog2.c:614-630): cut the message, or end it with a newline. `tlen` is an
`int`, here not negative. The result is the buffer and the length. -/
def finish (b : Bytes) (tlen : Nat) : Out (Bytes × Nat) :=
  if 4096 ≤ tlen ∨ (tlen = 4095 ∧ b[4094]? ≠ some 10) then wr b 4094 [10] >>= fun b => .ok (b, 4095)
  else if tlen = 0 then .ub
  else if b[tlen - 1]? ≠ some 10 then wr b tlen [10, 0] >>= fun b => .ok (b, tlen + 1)
  else .ok (b, tlen)

/-- `vmlog`, from the header to the message (src/utils/mlog2.c:583-630): the contents of the buffer `b` before, the
two parts of the header, and the message, `none` for an error of `vsnprintf`. No result if the header does not
fit. If the first part fails, `hlen` is negative, and `vsnprintf` is given the address before the buffer. -/
def format (b : Bytes) (h1 : Option Bytes) (h2 : Bytes) (msg : Option Bytes) : Out (Option (Bytes × Nat)) :=
  match h1 with
  | none => .ub
  | some h1 =>
    snprintf b 0 4096 h1 >>= fun b =>
    (if h1.length < 4096 then snprintf b h1.length (4096 - h1.length) h2 >>= fun b => .ok (b, h1.length + h2.length)
      else .ok (b, h1.length)) >>= fun (b, hlen) =>
    if 2 ^ 31 ≤ hlen + 1 then .ub
    else if 4096 ≤ hlen + 1 then .ok none
    else match msg with
      | none => finish b (hlen - 1) >>= fun r => .ok (some r)
      | some m =>
        snprintf b hlen (4096 - hlen) m >>= fun b =>
        if 2 ^ 31 ≤ m.length then finish b (hlen - 1) >>= fun r => .ok (some r)
        else if 2 ^ 31 ≤ hlen + m.length then .ub
        else finish b (hlen + m.length) >>= fun r => .ok (some r)

/-- What `fprintf("%s", ...)` prints. -/
def cstr (b : Bytes) : Bytes := b.takeWhile (· != 0)

/-- What is written to standard error (src/utils/mlog2.c:703-709): the length of the first part of the header,
whether standard error is a terminal. -/
def toStderr (b : Bytes) (h1 : Nat) (_stdoutTty stderrTty : Bool) : Bytes := cstr (if stderrTty then b.drop h1 else b)

/-- What is written to standard output (src/utils/mlog2.c:710-717). -/
def toStdout (b : Bytes) (h1 : Nat) (_stdoutTty stderrTty : Bool) : Bytes := cstr (if stderrTty then b.drop h1 else b)

/-- The message buffer (`struct mlog_mbhead`, src/utils/mlog2.c:80-87) and the memory behind the header. -/
structure Mb where
  len : Nat
  cnt : Nat
  wp : Nat
  data : Bytes
deriving DecidableEq

/-- The message buffer of `mlog_open` (src/utils/mlog2.c:853-864). The length is an `int`, not below 16. -/
def Mb.new (len : Nat) : Mb := ⟨len, 0, 0, List.replicate len 0⟩

/-- `vmlog`, from the formatted message to the message buffer (src/utils/mlog2.c:638-671). -/
def put (mb : Mb) (b : Bytes) (tlen : Nat) : Out Mb :=
  let bp := if mb.len < tlen then tlen - mb.len else 0
  let resid := if mb.len < tlen then mb.len else tlen
  let ncpy := if mb.len - mb.wp < resid then mb.len - mb.wp else resid
  rd b bp ncpy >>= fun s1 => wr mb.data mb.wp s1 >>= fun data =>
  (if resid - ncpy ≠ 0 then rd b (bp + ncpy) (resid - ncpy) >>= fun s2 => wr data 0 s2 else .ok data) >>= fun data =>
  let wp := if tlen < mb.len then (if mb.len ≤ mb.wp + tlen then mb.wp + tlen - mb.len else mb.wp + tlen) else mb.wp
  let cnt := if mb.cnt < mb.len then (if mb.len < mb.cnt + tlen then mb.len else mb.cnt + tlen) else mb.cnt
  .ok { mb with wp := wp, cnt := cnt, data := data }

/-- A call of `mlog` that is not filtered: the contents of its buffer, which is not initialized, and what is
formatted. -/
structure Msg where
  b : Bytes
  h1 : Bytes
  h2 : Bytes
  msg : Option Bytes

/-- `vmlog` (src/utils/mlog2.c:507-730), as far as the message buffer is concerned. -/
def log (mb : Mb) (m : Msg) : Out Mb :=
  format m.b (some m.h1) m.h2 m.msg >>= fun r =>
  match r with
  | none => .ok mb
  | some (b, tlen) => put mb b tlen

/-- Several calls. -/
def logs (mb : Mb) : List Msg → Out Mb
  | [] => .ok mb
  | m :: l => log mb m >>= fun mb => logs mb l

/-- Two pieces of memory, by position and length. -/
structure View where
  o1 : Nat
  l1 : Nat
  o2 : Nat
  l2 : Nat
deriving DecidableEq

/-- `mlog_dmesg_mbuf` (src/utils/mlog2.c:176-216). A null pointer to the second piece is a length of 0. -/
def view (mb : Mb) : View :=
  let v : View := ⟨mb.wp, mb.len - mb.wp, 0, mb.wp⟩
  let skip := mb.len - mb.cnt
  let (v, skip) := if v.l1 ≤ skip then ((⟨v.o2, v.l2, 0, 0⟩ : View), skip - v.l1) else (v, skip)
  if skip ≠ 0 then { v with o1 := v.o1 + skip, l1 := v.l1 - skip } else v

/-- What the pieces contain. -/
def pieces (mem : Bytes) (v : View) : Out (Bytes × Bytes) :=
  rd mem v.o1 v.l1 >>= fun a => rd mem v.o2 v.l2 >>= fun b => .ok (a, b)

/-- `mlog_mbcopy`, going back from the end (src/utils/mlog2.c:1347-1362): the new lengths of the pieces. -/
def pull (l1 l2 : Nat) (offset : Int) : Nat × Nat :=
  let (l2, offset) := if 0 < offset ∧ 0 < l2 then (if (l2 : Int) < offset then (0, offset - l2) else (l2 - offset.toNat, 0)) else (l2, offset)
  let l1 := if 0 < offset ∧ 0 < l1 then (if (l1 : Int) < offset then 0 else l1 - offset.toNat) else l1
  (l1, l2)

/-- `mlog_mbcopy`, leaving out the beginning (src/utils/mlog2.c:1366-1381). -/
def leaveOut (v : View) (skip : Nat) : View :=
  if skip ≠ 0 then
    let (o1, l1, skip) := if v.l1 < skip then (v.o1, 0, skip - v.l1) else (v.o1 + skip, v.l1 - skip, 0)
    if v.l2 < skip then ⟨o1, l1, v.o2, 0⟩ else ⟨o1, l1, v.o2 + skip, v.l2 - skip⟩
  else v

/-- `mlog_mbcopy` (src/utils/mlog2.c:1335-1392) with a buffer of `len` bytes; no result for an error. -/
def mbcopy (mb : Mb) (offset len : Int) : Out (Option Bytes) :=
  if len < 1 then .ok none else
  let v := view mb
  let l := pull v.l1 v.l2 offset
  let got := l.1 + l.2
  let want := if (got : Int) < len then got else len.toNat
  let skip := if want < got then got - want else 0
  pieces mb.data (leaveOut ⟨v.o1, l.1, v.o2, l.2⟩ skip) >>= fun (a, b) =>
  if a.length + b.length ≤ len.toNat then .ok (some (a ++ b)) else .ub

/-- `MBH_START`. -/
def magic : Bytes := [62, 67, 112, 77, 100, 85, 108, 60]

/-- A word in memory, on a host of either byte order. -/
def word (big : Bool) (x : Nat) : Bytes := if big then (leBytes 4 x).reverse else leBytes 4 x

/-- The message buffer in memory: the header and the data. -/
def Mb.image (big : Bool) (mb : Mb) : Bytes := magic ++ word big 0xdeadbeef ++ word big mb.len ++ word big mb.cnt ++ word big mb.wp ++ mb.data

/-- `wswap` (src/utils/mlog2.c:426-432), with sums of the bytes for the bitwise or. -/
def wswap (w : Nat) : Nat := w / 2 ^ 24 + w / 2 ^ 16 % 2 ^ 8 * 2 ^ 8 + w / 2 ^ 8 % 2 ^ 8 * 2 ^ 16 + w % 2 ^ 8 * 2 ^ 24

/-- The field at a position of the header, read by a little-endian host. -/
def field (image : Bytes) (off : Nat) : Nat := leVal ((image.drop off).take 4)

/-- One iteration of `mlog_findmesgbuf` (src/utils/mlog2.c:1466-1507), at a position with room for a header. -/
def findAt (image : Bytes) (ptr : Nat) : Option View :=
  if (image.drop ptr).take 8 ≠ magic then none else
  let swapped := field image (ptr + 8) = wswap 0xdeadbeef
  let len := if swapped then wswap (field image (ptr + 12)) else field image (ptr + 12)
  let cnt := if swapped then wswap (field image (ptr + 16)) else field image (ptr + 16)
  let wp := if swapped then wswap (field image (ptr + 20)) else field image (ptr + 20)
  if len < cnt then none else if len < wp then none else if image.length < ptr + len then none else
  let v : View := ⟨ptr + 24 + wp, len - wp, ptr + 24, wp⟩
  let skip := len - cnt
  let w := if v.l1 < skip then ((⟨v.o2, v.l2, 0, 0⟩ : View), skip - v.l1) else (v, skip)
  some (if w.2 ≠ 0 then { w.1 with o1 := w.1.o1 + w.2, l1 := w.1.l1 - w.2 } else w.1)

/-- The loop of `mlog_findmesgbuf`: as many positions as are left. -/
def findLoop (image : Bytes) : Nat → Nat → Option View
  | 0, _ => none
  | n + 1, ptr => if ptr + 24 < image.length then (match findAt image ptr with | some v => some v | none => findLoop image n (ptr + 4)) else none

/-- `mlog_findmesgbuf` (src/utils/mlog2.c:1457-1510). A pointer before the memory is undefined. -/
def find (image : Bytes) : Out (Option View) := if image.length < 24 then .ub else .ok (findLoop image image.length 0)

end Hx.Mlog

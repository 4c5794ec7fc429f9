import Verif.Base.Bytes

/-!
# Log masks: `src/utils/mlog2.c`, `include/utils/mlog2.h`

Which messages are logged: facilities with names and masks, masks as text, and the log of a process, which all
sessions share. Flags and masks are the bits of an `int`. Memory can always be allocated; one call is after another
(each holds the lock).
-/

namespace Hx.Mlog

/-- `MLOG_PRIMASK` (include/utils/mlog2.h:49). -/
def PRIMASK : Nat := 0x007f0000

/-- `MLOG_INFO` (include/utils/mlog2.h:56). -/
def INFO : Nat := 0x00100000

/-- `MLOG_ERR` (include/utils/mlog2.h:53). -/
def ERR : Nat := 0x00400000

/-- `MLOG_DBG` (include/utils/mlog2.h:59). -/
def DBG : Nat := 0x000f0000

/-- `MLOG_FACMASK` (include/utils/mlog2.h:64). -/
def FACMASK : Nat := 0x0000ffff

/-- A facility (`struct mlog_fac`, include/utils/mlog2.h:76-80). -/
structure Fac where
  mask : Nat
  aname : Option Bytes
  lname : Option Bytes
deriving DecidableEq

/-- An open log (`struct mlog_xstate`, include/utils/mlog2.h:85-91, and `struct mlog_state`, src/utils/mlog2.c:91-113),
as far as facilities and masks are concerned: `slots` are the facilities there is memory for, `cnt` those in use. -/
structure Log where
  slots : List Fac
  cnt : Nat
  defMask : Nat
  stderrMask : Nat
deriving DecidableEq

/-- `default_fac0name`. -/
def fac0name : Bytes := [77, 76, 79, 71]

/-! ## Facilities -/

/-- A facility that is new. -/
def fresh (defMask i : Nat) : Fac := ⟨defMask, if i = 0 then some fac0name else none, none⟩

/-- `mlog_setnfac` (src/utils/mlog2.c:335-379). -/
def setnfac (l : Log) (n : Nat) : Log :=
  if n ≤ l.cnt then l
  else if n ≤ l.slots.length then { l with cnt := n }
  else
    let try' := if n < 1024 then n + 32 else n
    { l with slots := l.slots.take l.cnt ++ (List.range' l.cnt (try' - l.cnt)).map (fresh l.defMask), cnt := n }

/-- Replace a facility in the array. -/
def setFac (l : Log) (i : Nat) (f : Fac → Fac) : Out Log :=
  match l.slots[i]? with
  | none => .ub
  | some x => .ok { l with slots := l.slots.set i (f x) }

/-- `mlog_setlogmask` (src/utils/mlog2.c:1087-1104): the new log and the old mask. -/
def setlogmask (l : Log) (facility : Int) (mask : Nat) : Out (Log × Nat) :=
  if facility < 0 then .ub
  else
    (if (l.cnt : Int) ≤ facility then (if 2 ^ 31 - 1 ≤ facility then .ub else .ok (setnfac l (facility.toNat + 1))) else .ok l) >>= fun l =>
    match l.slots[facility.toNat]? with
    | none => .ub
    | some x => setFac l facility.toNat (fun f => { f with mask := mask &&& PRIMASK }) >>= fun l => .ok (l, x.mask)

/-- `mlog_namefacility` (src/utils/mlog2.c:1015-1054). Without a short name, there is no long one. -/
def namefacility (l : Log) (facility : Int) (aname lname : Option Bytes) : Out Log :=
  if facility < 0 then .ub
  else
    (if (l.cnt : Int) ≤ facility then (if 2 ^ 31 - 1 ≤ facility then .ub else .ok (setnfac l (facility.toNat + 1))) else .ok l) >>= fun l =>
    setFac l facility.toNat fun f => { f with aname := aname, lname := if aname.isSome then lname else none }

/-- `mlog_allocfacility` (src/utils/mlog2.c:1062-1079): the new log and the number. -/
def allocfacility (l : Log) (aname lname : Option Bytes) : Out (Log × Nat) :=
  if 2 ^ 31 - 1 ≤ l.cnt then .ub
  else namefacility (setnfac l (l.cnt + 1)) l.cnt aname lname >>= fun l' => .ok (l', l.cnt)

/-- `mlog_open` (src/utils/mlog2.c:792-905), without log file, message buffer, console and syslog, so that nothing
fails but the checks; no result for an error. -/
def openLog (maxfacHint : Int) (defMask stderrMask : Nat) : Option Log :=
  if maxfacHint < 0 ∨ defMask &&& PRIMASK ≠ defMask ∨ stderrMask &&& PRIMASK ≠ stderrMask then none
  else some (setnfac ⟨[], 0, defMask, stderrMask⟩ (if maxfacHint < 1 then 1 else maxfacHint.toNat))

/-! ## Filters -/

/-- The mask that applies (include/utils/mlog2.h:122-132, src/utils/mlog2.c:537-543). -/
def maskOf (l : Log) (flags : Nat) : Out Nat :=
  let fac := flags &&& FACMASK
  match l.slots[if l.cnt ≤ fac then 0 else fac]? with
  | none => .ub
  | some f => .ok f.mask

/-- `mlog_filter` (include/utils/mlog2.h:113-142) of an open log. -/
def filter (l : Log) (flags : Nat) : Out Bool :=
  maskOf l flags >>= fun mask =>
  let lvl := flags &&& PRIMASK
  if INFO ≤ lvl then .ok (if lvl < mask then false else true)
  else .ok (if lvl &&& mask = 0 then false else true)

/-- `vmlog`, up to the decision (src/utils/mlog2.c:537-566): nothing if the message is not logged, else whether it
goes to standard error because of its level. -/
def decide' (l : Log) (flags : Nat) : Out (Option Bool) :=
  let lvl := flags &&& PRIMASK
  maskOf l flags >>= fun msk =>
  if INFO ≤ lvl then
    if lvl < msk then .ok none
    else .ok (some (decide (l.stderrMask ≠ 0 ∧ l.stderrMask ≤ lvl)))
  else
    if lvl &&& msk = 0 then .ok none
    else .ok (some (decide (lvl &&& l.stderrMask ≠ 0)))

/-! ## Levels as text -/

/-- `norm` (src/utils/mlog2.c:265-267). -/
def norm : List Bytes := [[68, 66, 85, 71], [73, 78, 70, 79], [78, 79, 84, 69], [87, 65, 82, 78], [69, 82, 82, 32], [67, 82, 73, 84], [65, 76, 82, 84], [69, 77, 82, 71]]

/-- `dbg` (src/utils/mlog2.c:268-272). -/
def dbg : List Bytes := [
  [68, 45, 45, 45], [68, 51, 45, 45], [68, 50, 45, 45], [68, 50, 51, 45],
  [68, 49, 45, 45], [68, 49, 51, 45], [68, 49, 50, 45], [68, 49, 50, 51],
  [68, 48, 45, 45], [68, 48, 51, 45], [68, 48, 50, 45], [68, 48, 50, 51],
  [68, 48, 49, 45], [68, 48, 49, 51], [68, 48, 49, 50], [68, 66, 85, 71]]

/-- `mlog_pristr` (src/utils/mlog2.c:280-290). -/
def pristr (pri : Nat) : Bytes :=
  let pri := pri &&& PRIMASK
  let s := (pri >>> 20) &&& 7
  if s ≠ 0 then norm[s]?.getD [] else dbg[(pri >>> 16) &&& 15]?.getD []

/-- `tolower` in the C locale. -/
def lower (c : UInt8) : UInt8 := if 65 ≤ c ∧ c ≤ 90 then c + 32 else c

/-- `strcasecmp(a, b) == 0`, for strings without zeros. -/
def caseEq (a b : Bytes) : Bool := a.map lower == b.map lower

/-- `mlog_str2pri` (src/utils/mlog2.c:742-781); no result for -1. -/
def str2pri (pstr : Bytes) : Option Nat :=
  if 5 < pstr.length then none
  else if caseEq pstr [69, 82, 82] then some ERR
  else if caseEq pstr [68, 69, 66, 85, 71] then some DBG
  else
    let ptmp := if pstr.head? = some 68 then pstr ++ List.replicate (4 - pstr.length) 45 else pstr
    match (List.range' 1 7).find? fun i => caseEq ptmp (norm[i]?.getD []) with
    | some i => some (i <<< 20)
    | none => match (List.range 16).find? fun i => caseEq ptmp (dbg[i]?.getD []) with
      | some i => some (i <<< 16)
      | none => none

/-! ## Masks as text -/

/-- Whether a facility has the name (src/utils/mlog2.c:1190-1201). -/
def named (f : Fac) (name : Bytes) : Bool := f.aname.any (caseEq · name) || f.lname.any (caseEq · name)

/-- Set the masks of the first `n` facilities (src/utils/mlog2.c:1215-1217). -/
def setAll (l : Log) (pri : Nat) : Nat → Out Log
  | 0 => .ok l
  | n + 1 => setAll l pri n >>= fun l => setlogmask l n pri >>= fun r => .ok r.1

/-- Whether the priority is blank at the end (src/utils/mlog2.c:1166-1170). -/
def blank (c : UInt8) : Bool := c = 10 || c = 32 || c = 9

/-- `mlog_setmasks`, one setting (src/utils/mlog2.c:1147-1218). An unknown priority for all facilities is logged with a
null pointer for `%s`, if errors are logged. -/
def setOne (l : Log) (current : Bytes) (last : Bool) : Out Log :=
  if current = [] then .ok l
  else
    let fac := current.takeWhile (· != 61)
    let hasFac : Bool := fac.length < current.length
    let pri := if hasFac then current.drop (fac.length + 1) else current
    let pri := if last then (pri.reverse.dropWhile blank).reverse else pri
    match (if 5 < pri.length then none else str2pri (pri.takeWhile (· != 0))) with
    | none => if hasFac then .ok l else decide' l ERR >>= fun r => if r.isSome then .ub else .ok l
    | some prino =>
      if hasFac then
        match (l.slots.take l.cnt).findIdx? (named · fac) with
        | none => .ok l
        | some facno => setlogmask l facno prino >>= fun r => .ok r.1
      else setAll l prino l.cnt

/-- The loop of `mlog_setmasks` (src/utils/mlog2.c:1134-1219): at most as many settings as there are characters. -/
def setLoop (l : Log) : Nat → Bytes → Out Log
  | 0, _ => .ok l
  | n + 1, m =>
    let current := m.takeWhile (· != 44)
    if current.length < m.length then setOne l current false >>= fun l => setLoop l n (m.drop (current.length + 1))
    else setOne l current true

/-- `mlog_setmasks` (src/utils/mlog2.c:1113-1222) with the characters of the string. -/
def setmasks (l : Log) (mstr : Bytes) : Out Log :=
  let m := mstr.dropWhile fun c => c = 32 || c = 9
  if m = [] then .ok l else setLoop l (m.length + 1) m

/-- The output of `mlog_getmasks`: what is in the buffer, how much is to be skipped, how much room is left, how much
there was. -/
structure Put where
  buf : Bytes
  skip : Int
  resid : Int
  total : Nat
deriving DecidableEq

/-- `mlog_bput` (src/utils/mlog2.c:391-416), one character; `copy` is false for a null buffer. -/
def bput1 (copy : Bool) (p : Put) (c : UInt8) : Put :=
  let p := { p with total := p.total + 1 }
  if 0 < p.skip then { p with skip := p.skip - 1 }
  else if 0 < p.resid ∧ copy then { p with buf := p.buf ++ [c], resid := p.resid - 1 }
  else p

/-- `mlog_bput`. -/
def bput (copy : Bool) (p : Put) (s : Bytes) : Put := s.foldl (bput1 copy) p

/-- Decimal digits (`%d` of a number that is not negative). -/
def digits (n : Nat) : Bytes := (Nat.toDigits 10 n).map fun c => UInt8.ofNat c.toNat

/-- `mlog_getmasks`, one facility (src/utils/mlog2.c:1242-1263). -/
def getOne (copy : Bool) (p : Put) (facno : Nat) (f : Fac) : Put :=
  let p := if facno ≠ 0 then bput copy p [44] else p
  let p := match (match f.lname with | some n => some n | none => f.aname) with
    | none => bput copy p (digits facno)
    | some n => bput copy p n
  let p := bput copy p [61]
  ((pristr f.mask).takeWhile fun c => c != 32 && c != 45).foldl (fun p c => bput copy p [c]) p

/-- The loop of `mlog_getmasks`. -/
def getLoop (copy : Bool) (p : Put) : Nat → List Fac → Put
  | _, [] => p
  | i, f :: fs => getLoop copy (getOne copy p i f) (i + 1) fs

/-- `mlog_getmasks` (src/utils/mlog2.c:1225-1273): what is written to the buffer, and the result. -/
def getmasks (l : Log) (copy : Bool) (discard len : Int) (unterm : Bool) : Bytes × Int :=
  let p := getLoop copy ⟨[], discard, len, 0⟩ 0 (l.slots.take l.cnt)
  let p := bput copy p [10]
  let p := if unterm then p else bput copy p [0]
  (p.buf, if copy then len - p.resid else p.total)

/-! ## The log of a process -/

/-- What sessions do with the log: `hxhim::Open` (src/hxhim/hxhim.cpp:110), `hxhim::OpenOne` (src/hxhim/hxhim.cpp:192) with
the debug level, `hxhim::Close` (src/hxhim/hxhim.cpp:274). -/
inductive Ev where
  | opened (debugLevel : Nat)
  | closed

/-- `mlog_open` does nothing to a log that is open (src/utils/mlog2.c:799). -/
def happen (log : Option Log) : Ev → Option Log
  | .opened level => if log.isSome then log else openLog 0 level level
  | .closed => none

/-- After a number of events. -/
def after (evs : List Ev) : Option Log := evs.foldl happen none

/-- A message of a session, with the macro and the function: whether it is written to standard error, the only
place hxhim's log has. -/
def written (log : Option Log) (flags : Nat) : Out Bool :=
  match log with
  | none => .ok false
  | some l => filter l flags >>= fun p => if p then decide' l flags >>= fun r => .ok (r == some true) else .ok false

end Hx.Mlog

import Verif.Proofs.MlogMask

/-!
# C68: log masks let through what they say, and are kept, set and read as text

A message is logged if the mask of its facility wants it. hxhim opens the log of the process with the debug level as
the mask, and closes it with the session.
-/

namespace Hx.Props
open Hx Hx.Mlog Spec.Mlog

/-- Which messages are logged: those that the mask of the facility wants, for masks that are a level or a set of debug
channels. -/
theorem C68_filter_partial {l : Log} {t : List Fac} {k flags : Nat} (h : Rep l t k) (hp : Plain (maskFor t (flags % 2 ^ 16))) :
    ∃ b, filter l flags = .ok b ∧ (b = true ↔ Wants (maskFor t (flags % 2 ^ 16)) flags) := filter_rep h hp

/-- The macro and `vmlog` decide the same, whatever the masks are. -/
theorem C68_same (l : Log) (flags : Nat) : filter l flags = decide' l flags >>= fun r => .ok r.isSome := filter_same l flags

/-- False: a mask with a level and a debug channel drops messages of its level. -/
theorem C68_mixed_false : ∃ l : Log, openLog 0 0x110000 0 = some l ∧ filter l 0x100000 = .ok false ∧ Wants 0x110000 0x100000 :=
  ⟨_, rfl, by decide +kernel, .inr ⟨by decide, by decide⟩⟩

/-! ## Facilities -/

/-- Calls that change the facilities. -/
def call (l : Log) : Op → Out Log
  | .mask i m => setlogmask l i m >>= fun r => .ok r.1
  | .name i a b => namefacility l i a b
  | .alloc a b => allocfacility l a b >>= fun r => .ok r.1

/-- Several. -/
def calls (l : Log) : List Op → Out Log
  | [] => .ok l
  | o :: os => call l o >>= fun l => calls l os

/-- The numbers can be counted. -/
def Small : Op → Prop
  | .mask i _ => i + 1 < 2 ^ 31
  | .name i _ _ => i + 1 < 2 ^ 31
  | .alloc _ _ => True

theorem call_rep {l : Log} {t : List Fac} {k : Nat} {o : Op} (h : Rep l t k) (ho : Small o) (ht : t.length + 1 < 2 ^ 31) :
    ∃ l' k', call l o = .ok l' ∧ Rep l' (o.does l.defMask t) k' ∧ l'.defMask = l.defMask := by
  cases o with
  | mask i m =>
    obtain ⟨l', k', old, e, r, d, -, -⟩ := setlogmask_rep (m := m) h ho
    exact ⟨l', k', by rw [call, e, Out.ok_bind], r, d⟩
  | name i a b =>
    obtain ⟨l', k', e, r, d, -⟩ := namefacility_rep (a := a) (b := b) h ho
    exact ⟨l', k', e, r, d⟩
  | alloc a b =>
    obtain ⟨l', k', e, r, d, -⟩ := allocfacility_rep (a := a) (b := b) h ht
    exact ⟨l', k', by rw [call, e, Out.ok_bind], r, d⟩

/-- After opening the log and any calls, the facilities are what the calls made of them one by one; what was allocated
in advance and reallocated does not show, and nothing outside of the array is used. -/
theorem C68_table {hint : Int} {d s : Nat} {l : Log} {os : List Op} (hl : openLog hint d s = some l) (hs : ∀ o ∈ os, Small o)
    (hc : ∀ n, ((os.take n).foldl (Op.does d) (⟨d, some fac0name, none⟩ :: List.replicate (hint.toNat - 1) ⟨d, none, none⟩)).length + 1 < 2 ^ 31) :
    ∃ l' k, calls l os = .ok l' ∧
      Rep l' (os.foldl (Op.does d) (⟨d, some fac0name, none⟩ :: List.replicate (hint.toNat - 1) ⟨d, none, none⟩)) k := by
  obtain ⟨k, r, hd, -⟩ := openLog_rep hl
  generalize (⟨d, some fac0name, none⟩ :: List.replicate (hint.toNat - 1) ⟨d, none, none⟩ : List Fac) = t at r hc
  clear hl
  induction os generalizing l t k with
  | nil => exact ⟨l, k, rfl, r⟩
  | cons o os ih =>
    obtain ⟨l', k', e, r', d'⟩ := call_rep r (hs o List.mem_cons_self) (hc 0)
    rw [hd] at r' d'
    obtain ⟨l'', k'', e', r''⟩ := ih (fun x hx => hs x (List.mem_cons_of_mem _ hx)) k' d' _ r' fun n => hc (n + 1)
    exact ⟨l'', k'', by rw [calls, e, Out.ok_bind]; exact e', r''⟩

/-- `mlog_setlogmask` returns the mask from before, `mlog_allocfacility` the number of the new facility. -/
theorem C68_results {l : Log} {t : List Fac} {k i m : Nat} {a b : Option Bytes} (h : Rep l t k) (hi : i + 1 < 2 ^ 31) (ht : t.length + 1 < 2 ^ 31) :
    (∃ l' old, setlogmask l i m = .ok (l', old) ∧ (grow l.defMask t (i + 1))[i]?.map Fac.mask = some old) ∧ ∃ l', allocfacility l a b = .ok (l', t.length) := by
  obtain ⟨l1, -, old, e1, -, -, -, h1⟩ := setlogmask_rep (m := m) h hi
  obtain ⟨l2, -, e2, -, -, -⟩ := allocfacility_rep (a := a) (b := b) h ht
  exact ⟨⟨l1, old, e1, h1⟩, l2, e2⟩

/-- Negative numbers are not looked for. -/
theorem C68_negative_ub {l : Log} {i : Int} {m : Nat} {a b : Option Bytes} (h : i < 0) : setlogmask l i m = .ub ∧ namefacility l i a b = .ub :=
  ⟨if_pos h, if_pos h⟩

/-- The number of facilities cannot be counted beyond the largest `int`, and only then. -/
theorem C68_too_many_ub {l : Log} {t : List Fac} {k : Nat} {a b : Option Bytes} (h : Rep l t k) :
    allocfacility l a b = .ub ↔ 2 ^ 31 ≤ t.length + 1 := by
  constructor
  · intro hu
    rcases Nat.lt_or_ge (t.length + 1) (2 ^ 31) with hlt | hge
    · obtain ⟨l', k', e, -⟩ := allocfacility_rep (a := a) (b := b) h hlt
      rw [hu] at e
      cases e
    · exact hge
  · intro ht
    unfold allocfacility
    rw [if_pos (by rw [h.cnt]; omega)]

/-- False: a facility with a long name only has none. -/
theorem C68_long_name_false (l : Log) (i : Int) (n : Bytes) : namefacility l i none (some n) = namefacility l i none none := rfl

/-! ## Text -/

/-- The mask a text means, for every text. -/
theorem C68_levels (s : Bytes) : str2pri s = maskValue s := str2pri_eq s

/-- Every level and every set of channels has its names. -/
theorem C68_level_names : ∀ m ∈ allMasks, str2pri (maskName m) = some m ∧ str2pri (longName m) = some m := by decide +kernel

/-- False: names of levels can be in lower case, and so can names of channels, if they have four characters, but not
if the dashes are left out. -/
theorem C68_lower_case_false : str2pri [105, 110, 102, 111] = some 0x100000 ∧ str2pri [100, 49, 45, 45] = some 0x40000 ∧
    str2pri [68, 49] = some 0x40000 ∧ str2pri [100, 49] = none := by decide +kernel

/-- Settings are applied in their order, each to the first facility with the name or to all; blanks around them are
left out. -/
theorem C68_set_partial {l : Log} {t : List Fac} {k : Nat} {ss : List Setting} {pre ws : Bytes} (h : Rep l t k) (hl : t.length < 2 ^ 31) (hne : ss ≠ [])
    (hs : ∀ s ∈ ss, Valid s) (hpre : ∀ c ∈ pre, c = 32 ∨ c = 9) (hfirst : ∀ c, (write ss).head? = some c → c ≠ 32 ∧ c ≠ 9)
    (hw : ∀ c ∈ ws, c = 10 ∨ c = 32 ∨ c = 9) :
    ∃ l' k', setmasks l (pre ++ write ss ++ ws) = .ok l' ∧ Rep l' (ss.foldl apply t) k' := by
  obtain ⟨l', k', e, r, -, -⟩ := setmasks_rep (ws := ws) h hl hne hs hpre hfirst fun c hc => by
    rcases hw c hc with rfl | rfl | rfl <;> rfl
  exact ⟨l', k', e, r⟩

/-- An unknown level for all facilities is logged with a null pointer as the name of the facility, if errors are
logged. -/
theorem C68_null_ub {l : Log} {t : List Fac} {k : Nat} {lv : Bytes} (h : Rep l t k) (hp : Plain (maskFor t 0)) (hw : Wants (maskFor t 0) ERR)
    (hne : lv ≠ []) (hc : (44 : UInt8) ∉ lv ∧ (61 : UInt8) ∉ lv ∧ (0 : UInt8) ∉ lv) (hb : ∀ c ∈ lv, c ≠ 10 ∧ c ≠ 32 ∧ c ≠ 9) (hv : maskValue lv = none) :
    setmasks l lv = .ub := by
  have hm : lv.dropWhile (fun c => c = 32 || c = 9) = lv := by
    cases lv with
    | nil => rfl
    | cons c r =>
      have := hb c List.mem_cons_self
      rw [List.dropWhile_cons_of_neg (by simp [this.2.1, this.2.2])]
  have hcur := takeWhile_all (bne_of_notMem hc.1)
  have hfac := takeWhile_all (bne_of_notMem hc.2.1)
  have ht : ((lv.reverse.dropWhile blank).reverse) = lv := by
    have := trim (a := lv) (ws := []) (fun c hc => by cases hc) fun c hc => blank_false (hb c (List.mem_of_getLast? hc))
    rwa [List.append_nil] at this
  have hp' : (if 5 < lv.length then none else str2pri (lv.takeWhile (· != 0))) = none := by
    split
    · rfl
    · rw [takeWhile_all (bne_of_notMem hc.2.2), str2pri_eq, hv]
  have hd : ∃ r, decide' l ERR = .ok r ∧ r.isSome = true := by
    obtain ⟨b, hb1, hb2⟩ := filter_rep h (flags := ERR) hp
    rw [filter_same] at hb1
    have hb3 : b = true := hb2.mpr hw
    cases hx : decide' l ERR with
    | ok r =>
      rw [hx, Out.ok_bind, hb3] at hb1
      exact ⟨r, rfl, by injection hb1⟩
    | err => rw [hx] at hb1; cases hb1
    | ub => rw [hx] at hb1; cases hb1
  obtain ⟨r, hr1, hr2⟩ := hd
  unfold setmasks
  rw [hm, if_neg hne]
  unfold setLoop
  simp only [hcur, Nat.lt_irrefl, if_false]
  unfold setOne
  simp only [if_neg hne, hfac, Nat.lt_irrefl, decide_false, Bool.false_eq_true, if_false, if_true, ht]
  rw [hp']
  simp only [hr1, Out.ok_bind, hr2, if_true]

/-- All masks as text, a newline, and a zero if wanted, without what is to be discarded and as much as fits; or the
length of it. -/
theorem C68_get {l : Log} {t : List Fac} {k : Nat} {copy unterm : Bool} {discard len : Int} (h : Rep l t k)
    (hm : ∀ f ∈ t, f.mask / 2 ^ 16 % 2 ^ 7 * 2 ^ 16 = f.mask) :
    let full := write (settings t) ++ [10] ++ (if unterm then [] else [0])
    getmasks l copy discard len unterm =
      if copy then ((full.drop discard.toNat).take len.toNat, (((full.drop discard.toNat).take len.toNat).length : Int)) else ([], (full.length : Int)) :=
  getmasks_eq h hm

/-- Masks that were read can be set again, also after they were changed, if all facilities have names that can be
told apart. -/
theorem C68_back_partial {l l' : Log} {t t' : List Fac} {k k' : Nat} {len : Int} (h : Rep l t k) (h' : Rep l' t' k') (hl : t.length < 2 ^ 31) (hn : Names t)
    (hp : ∀ f ∈ t, Plain f.mask) (hsame : names t' = names t) (hlen : (getmasks l false 0 0 true).2 ≤ len) :
    ∃ l'' k'', setmasks l' (getmasks l true 0 len true).1 = .ok l'' ∧ Rep l'' t k'' := by
  have hb : ∀ f ∈ t, f.mask / 2 ^ 16 % 2 ^ 7 * 2 ^ 16 = f.mask := fun f hf => (hp f hf).bits
  have hg := C68_get (copy := true) (unterm := true) (discard := 0) (len := len) h hb
  have hg' := C68_get (copy := false) (unterm := true) (discard := 0) (len := 0) h hb
  simp only [Bool.false_eq_true, if_false, if_true, List.append_nil] at hg hg'
  rw [hg'] at hlen
  rw [hg]
  simp only [Int.toNat_zero, List.drop_zero] at hlen ⊢
  rw [List.take_of_length_le (by omega)]
  have hne : settings t ≠ [] := by
    intro hc
    have := congrArg List.length hc
    simp [settings] at this
    exact h.pos this
  have hlt : t'.length = t.length := by
    have := congrArg List.length hsame
    simpa [names] using this
  have hfirst : ∀ c, (write (settings t)).head? = some c → c ≠ 32 ∧ c ≠ 9 := by
    obtain ⟨f, r, rfl⟩ := List.exists_cons_of_ne_nil h.pos
    intro c hc
    have hw : ∃ q, write (settings (f :: r)) = nameOf 0 f ++ 61 :: q := by
      cases r with
      | nil => exact ⟨maskName f.mask, by rw [show settings [f] = [(some (nameOf 0 f), maskName f.mask)] from rfl, write_one]; simp [entry]⟩
      | cons g r => exact ⟨_, by rw [show settings (f :: g :: r) = (some (nameOf 0 f), maskName f.mask) :: _ :: _ from rfl, write_cons, entry, List.append_assoc, List.append_assoc]; rfl⟩
    obtain ⟨q, hq⟩ := hw
    rw [hq] at hc
    cases hna : nameOf 0 f with
    | nil =>
      rw [hna] at hc
      simp at hc
      subst hc
      decide
    | cons x y =>
      rw [hna] at hc
      simp at hc
      subst hc
      exact hn.blank f _ rfl (by rw [hna]; rfl)
  obtain ⟨l'', k'', e, r⟩ := C68_set_partial (pre := []) (ws := [10]) h' (by omega) hne (settings_valid hn hp) (fun c hc => by cases hc) hfirst
    (fun c hc => by cases List.mem_singleton.mp hc; exact .inl rfl)
  rw [List.nil_append] at e
  refine ⟨l'', k'', e, ?_⟩
  have := restore t [] t' hp hn.has hn.apart hsame
  rw [List.nil_append, List.nil_append] at this
  have hst : settings t = (t.zipIdx ([] : List Fac).length).map fun q => (some (nameOf q.2 q.1), maskName q.1.mask) := rfl
  rw [hst, this] at r
  exact r

/-- False: a facility without a name is written with its number, which is not understood. -/
theorem C68_unnamed_false : ∃ l l1 l2 : Log, openLog 2 0x300000 0 = some l ∧ setlogmask l 1 0x100000 = .ok (l1, 0x300000) ∧
    setmasks l1 (getmasks l true 0 100 true).1 = .ok l2 ∧ l2 = l1 ∧ l1.slots[1]? ≠ l.slots[1]? := by
  refine ⟨_, _, _, rfl, rfl, rfl, ?_⟩
  decide +kernel

/-! ## Sessions -/

/-- With one session at a time and a debug level that is a level or a set of channels, the messages that the debug
level wants are written to standard error, of all facilities, and after the end of the session none. -/
theorem C68_session_partial {evs : List Ev} {d flags : Nat} (hc : after evs = none) (hp : Plain d) (h0 : d ≠ 0) :
    (∃ b, written (after (evs ++ [.opened d])) flags = .ok b ∧ (b = true ↔ Wants d flags)) ∧
      written (after (evs ++ [.opened d, .closed])) flags = .ok false := by
  have ha : ∀ es, after (evs ++ es) = es.foldl happen none := by
    intro es
    rw [after, List.foldl_append]
    rw [show List.foldl happen none evs = none from hc]
  rw [ha, ha]
  have hop : ∃ l, openLog 0 d d = some l := by
    unfold openLog
    rw [if_neg]
    · exact ⟨_, rfl⟩
    · have := and_primask d
      rw [hp.bits] at this
      simp [this]
  obtain ⟨l, hl⟩ := hop
  obtain ⟨k, r, -, hst⟩ := openLog_rep hl
  have hm : maskFor (⟨d, some fac0name, none⟩ :: List.replicate ((0 : Int).toNat - 1) ⟨d, none, none⟩) (flags % 2 ^ 16) = d := by
    unfold maskFor
    rw [show (0 : Int).toNat - 1 = 0 from rfl, List.replicate_zero]
    cases flags % 2 ^ 16 with
    | zero => rfl
    | succ n => rfl
  constructor
  · show ∃ b, written (happen none (.opened d)) flags = .ok b ∧ _
    simp only [happen, Option.isSome_none, Bool.false_eq_true, if_false, hl, written]
    obtain ⟨b, hb1, hb2⟩ := filter_rep r (flags := flags) (by rw [hm]; exact hp)
    rw [hm] at hb2
    refine ⟨b, ?_, hb2⟩
    rw [hb1, Out.ok_bind]
    cases b with
    | false => rfl
    | true =>
      simp only [if_true]
      rw [filter_same] at hb1
      unfold decide' at hb1 ⊢
      rw [maskOf_rep r, hm] at hb1 ⊢
      simp only [Out.ok_bind, hst] at hb1 ⊢
      by_cases hi : INFO ≤ flags &&& PRIMASK
      · rw [if_pos hi] at hb1 ⊢
        by_cases hlt : flags &&& PRIMASK < d
        · rw [if_pos hlt] at hb1; cases hb1
        · rw [if_neg hlt, Out.ok_bind, decide_eq_true (show d ≠ 0 ∧ d ≤ flags &&& PRIMASK from ⟨h0, by omega⟩)]
          rfl
      · rw [if_neg hi] at hb1 ⊢
        by_cases hz : (flags &&& PRIMASK) &&& d = 0
        · rw [if_pos hz] at hb1; cases hb1
        · rw [if_neg hz, Out.ok_bind, decide_eq_true hz]
          rfl
  · rfl

/-- False: the log is that of the process. A second session's debug level does nothing, and when it is closed the
first session has no log any more. -/
theorem C68_two_sessions_false (a b flags : Nat) (ha : Plain a) :
    after [.opened a, .opened b] = after [.opened a] ∧ written (after [.opened a, .opened b, .closed]) flags = .ok false := by
  refine ⟨?_, rfl⟩
  have hop : ∃ l, openLog 0 a a = some l := by
    unfold openLog
    rw [if_neg]
    · exact ⟨_, rfl⟩
    · have := and_primask a
      rw [ha.bits] at this
      simp [this]
  obtain ⟨l, hl⟩ := hop
  simp [after, happen, hl]

/-- False: with the debug level 0, which wants all messages that are not debug messages, nothing is written; nor with
one that has other bits, which is not refused (`hxhim_set_debug_level`). -/
theorem C68_levels_false : written (after [.opened 0]) 0x700000 = .ok false ∧ Wants 0 0x700000 ∧
    (∃ l, after [.opened 0] = some l ∧ filter l 0x700000 = .ok true) ∧ after [.opened 0x100001] = none := by
  refine ⟨by decide +kernel, .inr ⟨by decide, by decide⟩, ⟨_, rfl, by decide +kernel⟩, by decide +kernel⟩

/-! ## Examples -/

/-- hxhim's default debug level. -/
example : Plain 0x10000 ∧ Wants 0x10000 (2 + 0x100000) ∧ Wants 0x10000 (2 + 0xf0000) ∧ ¬ Wants 0x10000 (2 + 0x80000) := by
  refine ⟨⟨by decide, by decide⟩, .inr ⟨by decide, by decide⟩, .inl ⟨by decide, 0, by decide, by decide, by decide⟩, ?_⟩
  rintro (⟨-, i, hi, h1, h2⟩ | ⟨h, -⟩)
  · match i with
    | 0 => revert h2; decide
    | 1 => revert h1; decide
    | 2 => revert h1; decide
    | 3 => revert h1; decide
  · revert h; decide

/-- Two facilities with names, a setting for one, and reading them. -/
example : ∃ l l' : Log, openLog 0 0x300000 0 = some l ∧ calls l [.alloc (some [65]) (some [97, 98]), .mask 1 0x80000] = .ok l' ∧
    getmasks l' true 0 100 true = ([77, 76, 79, 71, 61, 87, 65, 82, 78, 44, 97, 98, 61, 68, 48, 10], 16) ∧
    getmasks l' true 3 2 true = ([71, 61], 2) ∧
    setmasks l' [32, 109, 76, 111, 71, 61, 105, 110, 102, 111, 10] = .ok { l' with slots := l'.slots.set 0 ⟨0x100000, some fac0name, none⟩ } := by
  refine ⟨_, _, rfl, rfl, ?_⟩
  decide +kernel

example : Valid (some [65], [87, 65, 82, 78]) ∧ Valid (none, [68, 69, 66, 85, 71]) :=
  ⟨by constructor <;> first | decide +kernel | (intro n h; cases h; decide +kernel), by constructor <;> first | decide +kernel | (intro n h; cases h; decide +kernel)⟩

/-- Facilities with names that can be told apart. -/
example : Names [⟨0x300000, some fac0name, none⟩, ⟨0x80000, some [65], some [97, 98]⟩] where
  has := by decide
  apart := by
    intro i j f g hj hi hg
    match i, j with
    | 0, _ => omega
    | 1, 0 => cases hi; cases hg; decide
    | 1, j + 1 => omega
    | i + 2, _ => cases hi
  signs := by decide
  blank := by
    intro f c hf hc
    cases hf
    cases hc
    decide

end Hx.Props

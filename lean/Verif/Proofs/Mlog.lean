import Verif.Model.Mlog
import Verif.Spec.Mlog

/-!
# Helper lemmas: log messages
-/

namespace Hx.Mlog
open Spec.Mlog

theorem lastN_eq {α : Type} (n : Nat) (l : List α) : lastN n l = l.drop (l.length - n) := by
  unfold lastN
  rw [List.take_reverse, List.reverse_reverse]

theorem lastN_length {α : Type} (n : Nat) (l : List α) : (lastN n l).length = min n l.length := by
  rw [lastN_eq, List.length_drop]; omega

theorem lastN_append {α : Type} (n : Nat) (l m : List α) (h : m.length ≤ n) : lastN n (l ++ m) = lastN (n - m.length) l ++ m := by
  rw [lastN_eq, lastN_eq, List.length_append, List.drop_append_of_le_length (by omega)]
  congr 2; omega

theorem lastN_append_short {α : Type} (n : Nat) (l m : List α) (h : n ≤ m.length) : lastN n (l ++ m) = lastN n m := by
  rw [lastN_eq, lastN_eq, List.length_append, List.drop_append, List.drop_of_length_le (by omega), List.nil_append]
  congr 1; omega

theorem lastN_lastN {α : Type} (n k : Nat) (l : List α) : lastN n (lastN k l) = lastN (min n k) l := by
  rw [lastN_eq, lastN_eq, lastN_eq, List.drop_drop, List.length_drop]
  congr 1; omega

theorem lastN_all {α : Type} (n : Nat) (l : List α) (h : l.length ≤ n) : lastN n l = l := by
  rw [lastN_eq, Nat.sub_eq_zero_of_le h, List.drop_zero]

theorem wr_ok {mem src : Bytes} {off : Nat} (h : off + src.length ≤ mem.length) :
    wr mem off src = .ok (mem.take off ++ src ++ mem.drop (off + src.length)) := if_pos h

theorem rd_ok {mem : Bytes} {off n : Nat} (h : off + n ≤ mem.length) : rd mem off n = .ok ((mem.drop off).take n) := if_pos h

/-- What holds of the message buffer, after the bytes of `log`. -/
structure GoodAt (log : Bytes) (len cnt wp : Nat) (data : Bytes) : Prop where
  pos : 0 < len
  size : data.length = len
  wp_lt : wp < len
  cnt_eq : cnt = min log.length len
  part : cnt < len → wp = cnt ∧ data.take wp = log
  full : cnt = len → data.drop wp ++ data.take wp = lastN len log

def Good (log : Bytes) (mb : Mb) : Prop := GoodAt log mb.len mb.cnt mb.wp mb.data

theorem good_new (n : Nat) (h : 0 < n) : Good [] (Mb.new n) where
  pos := h
  size := by simp [Mb.new]
  wp_lt := h
  cnt_eq := by simp [Mb.new]
  part := fun _ => ⟨rfl, rfl⟩
  full := fun e => by simp only [Mb.new] at e; omega

theorem good_inside {log data m : Bytes} {len cnt wp : Nat} (h : GoodAt log len cnt wp data) (hw : wp + m.length < len) :
    GoodAt (log ++ m) len (min (cnt + m.length) len) (wp + m.length) (data.take wp ++ m ++ data.drop (wp + m.length)) := by
  obtain ⟨hpos, hsize, hwp, hcnt, hpart, hfull⟩ := h
  have hl : (data.take wp ++ m).length = wp + m.length := by rw [List.length_append, List.length_take]; omega
  refine ⟨hpos, ?_, hw, by rw [List.length_append]; omega, fun hc => ?_, fun hc => ?_⟩
  · rw [List.length_append, hl, List.length_drop]; omega
  · obtain ⟨h1, h2⟩ := hpart (by omega)
    refine ⟨by omega, ?_⟩
    rw [List.take_left' hl, h2]
  · have hcl : cnt = len := by
      rcases Nat.lt_or_ge cnt len with h | h
      · have := (hpart h).1
        omega
      · omega
    rw [List.take_left' hl, List.drop_left' hl, lastN_append _ _ _ (by omega)]
    have hf := hfull hcl
    have : lastN (len - m.length) log = lastN (len - m.length) (lastN len log) := by rw [lastN_lastN]; congr 1; omega
    rw [this, ← hf, lastN_eq, ← List.append_assoc]
    congr 1
    rw [List.length_append, List.length_drop, List.length_take, List.drop_append_of_le_length (by rw [List.length_drop]; omega), List.drop_drop]
    congr 2; omega

theorem good_around {log data m : Bytes} {len cnt wp : Nat} (h : GoodAt log len cnt wp data) (hlt : m.length < len) (hw : len ≤ wp + m.length) :
    GoodAt (log ++ m) len (min (cnt + m.length) len) (wp + m.length - len)
      (m.drop (len - wp) ++ ((data.take wp).drop (wp + m.length - len) ++ m.take (len - wp))) := by
  obtain ⟨hpos, hsize, hwp, hcnt, hpart, hfull⟩ := h
  have hl : (m.drop (len - wp)).length = wp + m.length - len := by rw [List.length_drop]; omega
  refine ⟨hpos, ?_, by omega, by rw [List.length_append]; omega, fun hc => ?_, fun hc => ?_⟩
  · rw [List.length_append, hl, List.length_append, List.length_drop, List.length_take, List.length_take]; omega
  · exfalso
    rcases Nat.lt_or_ge cnt len with h | h
    · have := (hpart h).1
      omega
    · omega
  · rw [List.take_left' hl, List.drop_left' hl, List.append_assoc, List.take_append_drop, lastN_append _ _ _ (by omega)]
    congr 1
    rcases Nat.lt_or_ge cnt len with hcl | hcl
    · obtain ⟨h1, h2⟩ := hpart hcl
      have := congrArg List.length h2
      rw [List.length_take] at this
      rw [h2, lastN_eq]
      congr 1; omega
    · have hf := hfull (by omega)
      have : lastN (len - m.length) log = lastN (len - m.length) (lastN len log) := by rw [lastN_lastN]; congr 1; omega
      rw [this, ← hf, lastN_eq, List.length_append, List.length_drop, List.length_take, List.drop_append, List.drop_of_length_le (l := data.drop wp) (by rw [List.length_drop]; omega),
        List.nil_append, List.length_drop]
      congr 1; omega

theorem good_over {log data m : Bytes} {len cnt wp : Nat} (h : GoodAt log len cnt wp data) (hge : len ≤ m.length) :
    GoodAt (log ++ m) len (min (cnt + m.length) len) wp ((lastN len m).drop (len - wp) ++ (lastN len m).take (len - wp)) := by
  obtain ⟨hpos, hsize, hwp, hcnt, hpart, hfull⟩ := h
  have hs : (lastN len m).length = len := by rw [lastN_length]; omega
  have hl : ((lastN len m).drop (len - wp)).length = wp := by rw [List.length_drop]; omega
  refine ⟨hpos, ?_, hwp, by rw [List.length_append]; omega, fun hc => ?_, fun hc => ?_⟩
  · rw [List.length_append, hl, List.length_take]; omega
  · exfalso; omega
  · rw [List.take_left' hl, List.drop_left' hl, List.take_append_drop, lastN_append_short _ _ _ hge]

theorem put_good {log b : Bytes} {mb : Mb} {tlen : Nat} (h : Good log mb) (hb : tlen ≤ b.length) :
    ∃ mb', put mb b tlen = .ok mb' ∧ mb'.len = mb.len ∧ Good (log ++ b.take tlen) mb' := by
  obtain ⟨len, cnt, wp, data⟩ := mb
  change GoodAt log len cnt wp data at h
  have ⟨hpos, hsize, hwp, hcnt, hpart, hfull⟩ := h
  have hml : (b.take tlen).length = tlen := by rw [List.length_take]; omega
  have hc : (if cnt < len then (if len < cnt + tlen then len else cnt + tlen) else cnt) = min (cnt + tlen) len := by
    split
    · split <;> omega
    · omega
  rcases Nat.lt_or_ge tlen len with hlt | hlt
  · have e1 : ¬ len < tlen := by omega
    rcases Nat.lt_or_ge (wp + tlen) len with hw | hw
    · have e2 : ¬ len - wp < tlen := by omega
      have e3 : ¬ len ≤ wp + tlen := by omega
      have hm1 : rd b 0 tlen = .ok (b.take tlen) := by rw [rd_ok (by omega), List.drop_zero]
      have hg := good_inside (m := b.take tlen) h (by omega)
      generalize b.take tlen = m at *
      rw [hml] at hg
      refine ⟨⟨len, min (cnt + tlen) len, wp + tlen, data.take wp ++ m ++ data.drop (wp + tlen)⟩, ?_, rfl, hg⟩
      simp only [put, if_neg e1, if_neg e2, if_pos hlt, if_neg e3, hm1, Out.ok_bind, hc]
      rw [wr_ok (by omega), hml]
      simp
    · have hn : (if len - wp < tlen then len - wp else tlen) = len - wp := by split <;> omega
      have hm1 : rd b 0 (len - wp) = .ok ((b.take tlen).take (len - wp)) := by
        rw [rd_ok (by omega), List.drop_zero, List.take_take, Nat.min_eq_left (by omega)]
      have hm2 : rd b (0 + (len - wp)) (tlen - (len - wp)) = .ok ((b.take tlen).drop (len - wp)) := by
        rw [rd_ok (by omega), Nat.zero_add, List.drop_take]
      have hg := good_around (m := b.take tlen) h (by omega) (by omega)
      generalize b.take tlen = m at *
      rw [hml] at hg
      have hl1 : (data.take wp).length = wp := by rw [List.length_take]; omega
      have hl2 : (m.take (len - wp)).length = len - wp := by rw [List.length_take]; omega
      have hl3 : (m.drop (len - wp)).length = tlen - (len - wp) := by rw [List.length_drop]; omega
      have hd1 : wr data wp (m.take (len - wp)) = .ok (data.take wp ++ m.take (len - wp)) := by
        rw [wr_ok (by omega), List.drop_of_length_le (by omega), List.append_nil]
      refine ⟨⟨len, min (cnt + tlen) len, wp + tlen - len, m.drop (len - wp) ++ ((data.take wp).drop (wp + tlen - len) ++ m.take (len - wp))⟩, ?_, rfl, hg⟩
      simp only [put, if_neg e1, hn, if_pos hlt, if_pos hw, hm1, hm2, hd1, Out.ok_bind, hc]
      by_cases hz : tlen - (len - wp) = 0
      · rw [if_neg (by omega)]
        have e4 : wp + tlen - len = 0 := by omega
        have e5 : m.drop (len - wp) = [] := List.eq_nil_of_length_eq_zero (by omega)
        simp [e4, e5]
      · rw [if_pos hz, wr_ok (by rw [List.length_append]; omega)]
        simp only [Out.ok_bind, List.take_zero, List.nil_append, hl3, Nat.zero_add]
        rw [List.drop_append_of_le_length (by omega), show tlen - (len - wp) = wp + tlen - len by omega]
  · have hbp : (if len < tlen then tlen - len else 0) = tlen - len := by split <;> omega
    have hre : (if len < tlen then len else tlen) = len := by split <;> omega
    have hn : (if len - wp < len then len - wp else len) = len - wp := by split <;> omega
    have hs : lastN len (b.take tlen) = (b.drop (tlen - len)).take len := by
      rw [lastN_eq, hml, List.drop_take]; congr 1; omega
    have hm1 : rd b (tlen - len) (len - wp) = .ok ((lastN len (b.take tlen)).take (len - wp)) := by
      rw [rd_ok (by omega), hs, List.take_take, Nat.min_eq_left (by omega)]
    have hm2 : rd b (tlen - len + (len - wp)) (len - (len - wp)) = .ok ((lastN len (b.take tlen)).drop (len - wp)) := by
      rw [rd_ok (by omega), hs, List.drop_take, List.drop_drop]
    have hg := good_over (m := b.take tlen) h (by omega)
    rw [hml] at hg
    have hsl : (lastN len (b.take tlen)).length = len := by rw [lastN_length]; omega
    generalize lastN len (b.take tlen) = s at *
    have hl1 : (data.take wp).length = wp := by rw [List.length_take]; omega
    have hl2 : (s.take (len - wp)).length = len - wp := by rw [List.length_take]; omega
    have hl3 : (s.drop (len - wp)).length = wp := by rw [List.length_drop]; omega
    have hd1 : wr data wp (s.take (len - wp)) = .ok (data.take wp ++ s.take (len - wp)) := by
      rw [wr_ok (by omega), List.drop_of_length_le (by omega), List.append_nil]
    refine ⟨⟨len, min (cnt + tlen) len, wp, s.drop (len - wp) ++ s.take (len - wp)⟩, ?_, rfl, hg⟩
    simp only [put, hbp, hre, hn, if_neg (Nat.not_lt.mpr hlt), hm1, hm2, hd1, Out.ok_bind, hc]
    by_cases hz : len - (len - wp) = 0
    · rw [if_neg (by omega)]
      have e4 : wp = 0 := by omega
      have e5 : s.drop (len - wp) = [] := List.eq_nil_of_length_eq_zero (by omega)
      subst e4
      simp at e5
      simp [e5]
    · rw [if_pos hz, wr_ok (by rw [List.length_append]; omega)]
      simp only [Out.ok_bind, List.take_zero, List.nil_append, hl3, Nat.zero_add]
      rw [List.drop_left' hl1]

/-! ## Reading it -/

theorem view_good {log : Bytes} {mb : Mb} (h : Good log mb) :
    ∃ a b, pieces mb.data (view mb) = .ok (a, b) ∧ a ++ b = lastN mb.len log := by
  obtain ⟨len, cnt, wp, data⟩ := mb
  obtain ⟨hpos, hsize, hwp, hcnt, hpart, hfull⟩ := h
  simp only at *
  rcases Nat.lt_or_ge cnt len with hc | hc
  · obtain ⟨h1, h2⟩ := hpart hc
    subst h1
    have : view ⟨len, wp, wp, data⟩ = ⟨0, wp, 0, 0⟩ := by simp [view]
    refine ⟨data.take wp, [], ?_, ?_⟩
    · rw [this, pieces, rd_ok (by show 0 + wp ≤ _; omega), rd_ok (by show 0 + 0 ≤ _; omega)]
      simp
    · rw [h2, List.append_nil, lastN_all _ _ (by omega)]
  · have hce : cnt = len := by omega
    subst hce
    have : view ⟨cnt, cnt, wp, data⟩ = ⟨wp, cnt - wp, 0, wp⟩ := by
      have : ¬ (cnt - wp ≤ 0) := by omega
      simp only [view, Nat.sub_self, if_neg this]
      simp
    refine ⟨data.drop wp, data.take wp, ?_, hfull rfl⟩
    rw [this, pieces, rd_ok (by show wp + (cnt - wp) ≤ _; omega), rd_ok (by show 0 + wp ≤ _; omega)]
    simp only [Out.ok_bind, List.drop_zero]
    rw [List.take_of_length_le (by rw [List.length_drop]; omega)]

theorem rd_length {mem a : Bytes} {off n : Nat} (h : rd mem off n = .ok a) : a = (mem.drop off).take n ∧ a.length = n ∧ off + n ≤ mem.length := by
  unfold rd at h
  split at h
  · rename_i hle
    cases h
    refine ⟨rfl, ?_, hle⟩
    rw [List.length_take, List.length_drop]; omega
  · cases h

theorem pieces_ok {mem a b : Bytes} {v : View} (h : pieces mem v = .ok (a, b)) : rd mem v.o1 v.l1 = .ok a ∧ rd mem v.o2 v.l2 = .ok b := by
  unfold pieces at h
  cases h1 : rd mem v.o1 v.l1 with
  | err => rw [h1] at h; cases h
  | ub => rw [h1] at h; cases h
  | ok a' =>
    cases h2 : rd mem v.o2 v.l2 with
    | err => rw [h1, h2] at h; cases h
    | ub => rw [h1, h2] at h; cases h
    | ok b' =>
      rw [h1, h2] at h
      cases h
      exact ⟨rfl, rfl⟩

theorem pull_spec (a b : Bytes) (offset : Int) : ∃ l1 l2, pull a.length b.length offset = (l1, l2) ∧ l1 ≤ a.length ∧ l2 ≤ b.length ∧
    a.take l1 ++ b.take l2 = (a ++ b).take (a.length + b.length - offset.toNat) := by
  unfold pull
  by_cases h0 : 0 < offset
  · obtain ⟨n, rfl⟩ := Int.eq_ofNat_of_zero_le (Int.le_of_lt h0)
    have hn : (↑n : Int).toNat = n := Int.toNat_natCast n
    by_cases hb : b.length < n
    · refine ⟨a.length - (n - b.length), 0, ?_, Nat.sub_le _ _, Nat.zero_le _, ?_⟩
      · have e1 : (if 0 < (↑n : Int) ∧ 0 < b.length then (if (b.length : Int) < ↑n then ((0 : Nat), (↑n : Int) - b.length) else (b.length - (↑n : Int).toNat, 0)) else (b.length, ↑n)) =
            (0, ((n - b.length : Nat) : Int)) := by
          split
          · rw [if_pos (by omega)]; congr 1; omega
          · rename_i h
            have : b.length = 0 := by omega
            rw [this]; simp
        rw [e1]
        simp only [Prod.mk.injEq, and_true]
        split
        · split <;> omega
        · omega
      · rw [List.take_append, List.take_zero, List.append_nil, hn, show a.length + b.length - n - a.length = 0 by omega, List.take_zero, List.append_nil]
        congr 1; omega
    · refine ⟨a.length, b.length - n, ?_, Nat.le_refl _, Nat.sub_le _ _, ?_⟩
      · have e1 : (if 0 < (↑n : Int) ∧ 0 < b.length then (if (b.length : Int) < ↑n then ((0 : Nat), (↑n : Int) - b.length) else (b.length - (↑n : Int).toNat, 0)) else (b.length, ↑n)) =
            (b.length - n, 0) := by
          rw [if_pos (by omega), if_neg (by omega), hn]
        rw [e1]
        simp
      · rw [List.take_append, hn, List.take_of_length_le (l := a) (Nat.le_refl _), List.take_of_length_le (l := a) (by omega),
          show a.length + b.length - n - a.length = b.length - n by omega]
  · refine ⟨a.length, b.length, ?_, Nat.le_refl _, Nat.le_refl _, ?_⟩
    · simp [h0]
    · rw [List.take_of_length_le (Nat.le_refl _), List.take_of_length_le (Nat.le_refl _), List.take_of_length_le]
      rw [List.length_append]; omega

theorem rd_take {mem a : Bytes} {off n k : Nat} (h : rd mem off n = .ok a) (hk : k ≤ n) : rd mem off k = .ok (a.take k) := by
  obtain ⟨h1, h2, h3⟩ := rd_length h
  rw [rd_ok (by omega), h1, List.take_take, Nat.min_eq_left hk]

theorem rd_drop {mem a : Bytes} {off n k : Nat} (h : rd mem off n = .ok a) (hk : k ≤ n) : rd mem (off + k) (n - k) = .ok (a.drop k) := by
  obtain ⟨h1, h2, h3⟩ := rd_length h
  rw [rd_ok (by omega), h1, List.drop_take, List.drop_drop]

theorem leaveOut_spec {mem a b : Bytes} {v : View} {skip : Nat} (h1 : rd mem v.o1 v.l1 = .ok a) (h2 : rd mem v.o2 v.l2 = .ok b) (hs : skip ≤ v.l1 + v.l2) :
    ∃ a' b', pieces mem (leaveOut v skip) = .ok (a', b') ∧ a' ++ b' = (a ++ b).drop skip := by
  obtain ⟨-, ha, -⟩ := rd_length h1
  obtain ⟨-, hb, -⟩ := rd_length h2
  unfold leaveOut
  by_cases h0 : skip = 0
  · rw [if_neg (by omega)]
    exact ⟨a, b, by simp [pieces, h1, h2], by rw [h0]; rfl⟩
  · rw [if_pos h0]
    by_cases h3 : v.l1 < skip
    · rw [if_pos h3]
      simp only
      rw [if_neg (by omega)]
      refine ⟨[], b.drop (skip - v.l1), ?_, ?_⟩
      · simp only [pieces]
        rw [rd_take h1 (Nat.zero_le _), rd_drop h2 (by omega)]
        simp
      · rw [List.drop_append, List.drop_of_length_le (l := a) (by omega), ha]
    · rw [if_neg h3]
      simp only
      rw [if_neg (by omega)]
      refine ⟨a.drop skip, b, ?_, ?_⟩
      · simp only [pieces]
        rw [rd_drop h1 (by omega), rd_drop h2 (Nat.zero_le _)]
        simp
      · rw [List.drop_append_of_le_length (by omega)]

theorem mbcopy_good {log : Bytes} {mb : Mb} (h : Good log mb) (offset len : Int) (hl : 1 ≤ len) :
    mbcopy mb offset len = .ok (some (lastN len.toNat ((lastN mb.len log).take ((lastN mb.len log).length - offset.toNat)))) := by
  obtain ⟨a, b, hp, hab⟩ := view_good h
  obtain ⟨h1, h2⟩ := pieces_ok hp
  obtain ⟨-, ha, -⟩ := rd_length h1
  obtain ⟨-, hb, -⟩ := rd_length h2
  obtain ⟨l1, l2, hpull, hl1, hl2, hcon⟩ := pull_spec a b offset
  rw [ha, hb] at hpull
  have g1 := rd_take h1 (k := l1) (by omega)
  have g2 := rd_take h2 (k := l2) (by omega)
  have hlen : ((a ++ b).take (a.length + b.length - offset.toNat)).length = l1 + l2 := by
    rw [← hcon, List.length_append, List.length_take, List.length_take]; omega
  rw [← hab, List.length_append]
  generalize hk : len.toNat = k
  have hkl : len = k := by omega
  have hskip : (if (if ((l1 + l2 : Nat) : Int) < len then l1 + l2 else len.toNat) < l1 + l2 then
      l1 + l2 - (if ((l1 + l2 : Nat) : Int) < len then l1 + l2 else len.toNat) else 0) = l1 + l2 - k := by
    rw [hk, hkl]
    split <;> split <;> omega
  rw [hk] at hskip
  obtain ⟨a', b', hq, hab'⟩ := leaveOut_spec (v := ⟨(view mb).o1, l1, (view mb).o2, l2⟩) (skip := l1 + l2 - k) g1 g2 (Nat.sub_le _ _)
  have hres : a' ++ b' = lastN k ((a ++ b).take (a.length + b.length - offset.toNat)) := by
    rw [hab', lastN_eq, hlen, hcon]
  have hlen' : a'.length + b'.length ≤ k := by
    rw [← List.length_append, hres, lastN_length]; omega
  simp only [mbcopy, if_neg (show ¬ len < 1 by omega), hpull, hskip, hq, Out.ok_bind, hk, if_pos hlen', hres]

/-! ## Formatting -/

theorem snprintf_ok {b p text : Bytes} {off size : Nat} (hp : b.take off = p) (hs : 0 < size) (hb : off + size ≤ b.length) :
    ∃ b', snprintf b off size text = .ok b' ∧ b'.length = b.length ∧ b'.take (off + (text.take (size - 1)).length) = p ++ text.take (size - 1) ∧
      b'[off + (text.take (size - 1)).length]? = some 0 := by
  have hl : (text.take (size - 1)).length ≤ size - 1 := by rw [List.length_take]; omega
  have hpl : p.length = off := by rw [← hp, List.length_take]; omega
  unfold snprintf
  generalize text.take (size - 1) = t at *
  refine ⟨_, wr_ok (by rw [List.length_append, List.length_singleton]; omega), ?_, ?_, ?_⟩
  · simp; omega
  · rw [hp, ← List.append_assoc, List.append_assoc, List.take_left' (by rw [List.length_append, hpl])]
  · rw [hp, List.getElem?_append_left (by simp [hpl]), List.getElem?_append_right (by omega), hpl, Nat.add_sub_cancel_left,
      List.getElem?_append_right (Nat.le_refl _), Nat.sub_self]
    rfl

theorem finish_ok {b T : Bytes} (hb : b.length = 4096) (h0 : T ≠ []) (ht : b.take (min T.length 4095) = T.take 4095) (hz : T.length ≤ 4095 ∨ b[4095]? = some 0)
    (hz' : T.length ≤ 4095 → T.getLast? = some 10 ∨ T.length = 4095 → b[T.length]? = some 0) :
    ∃ b', finish b T.length = .ok (b', (logLine 4095 T).length) ∧ b'.length = 4096 ∧ b'.take (logLine 4095 T).length = logLine 4095 T ∧
      b'[(logLine 4095 T).length]? = some 0 := by
  have hpos : 0 < T.length := List.length_pos_iff.mpr h0
  have hget : ∀ i, i < T.length → i < 4095 → b[i]? = T[i]? := by
    intro i h1 h2
    have : (b.take (min T.length 4095))[i]? = (T.take 4095)[i]? := by rw [ht]
    rwa [List.getElem?_take_of_lt (by omega), List.getElem?_take_of_lt h2] at this
  have hlast : T.getLast? = T[T.length - 1]? := List.getLast?_eq_getElem?
  unfold finish
  by_cases hc : 4096 ≤ T.length ∨ (T.length = 4095 ∧ b[4094]? ≠ some 10)
  · rw [if_pos hc]
    have hline : logLine 4095 T = T.take 4094 ++ [10] := by
      unfold logLine
      rcases hc with hc | ⟨hc, hc'⟩
      · split
        · rw [if_neg (by omega)]
        · rw [if_neg (by rw [List.length_append]; omega), List.take_append_of_le_length (by omega)]
      · rw [hget 4094 (by omega) (by omega)] at hc'
        rw [hlast, hc, if_neg hc', if_neg (by rw [List.length_append, hc]; decide), List.take_append_of_le_length (by omega)]
    have hlen : (T.take 4094).length = 4094 := by
      rw [List.length_take]; rcases hc with hc | ⟨hc, -⟩ <;> omega
    have hll : (logLine 4095 T).length = 4095 := by rw [hline, List.length_append, hlen]; rfl
    rw [wr_ok (by rw [hb]; decide), hll, hline]
    have hbt : b.take 4094 = T.take 4094 := by
      have := congrArg (List.take 4094) ht
      rwa [List.take_take, List.take_take, Nat.min_eq_left (by rcases hc with hc | ⟨hc, -⟩ <;> omega), Nat.min_eq_left (by decide)] at this
    refine ⟨_, rfl, ?_, ?_, ?_⟩
    · simp [hb]
    · rw [hbt]
      exact List.take_left' (by rw [List.length_append, hlen]; rfl)
    · rw [List.getElem?_append_right (by rw [List.length_append, hbt, hlen]; decide), List.length_append, hbt, hlen]
      show (b.drop 4095)[0]? = some 0
      rw [List.getElem?_drop]
      rcases hz with h | h
      · exact (by
          have e : T.length = 4095 := by rcases hc with hc | ⟨hc, -⟩ <;> omega
          have := hz' h (.inr e)
          rwa [e] at this)
      · exact h
  · rw [if_neg hc, if_neg (by omega)]
    have hle : T.length ≤ 4095 := by
      rcases Nat.lt_or_ge T.length 4096 with h | h
      · omega
      · exact absurd (.inl h) hc
    have hbt : b.take T.length = T := by
      rw [Nat.min_eq_left hle, List.take_of_length_le hle] at ht
      exact ht
    have hbl : b[T.length - 1]? = T.getLast? := by
      rw [hlast]
      by_cases h : T.length - 1 < 4095
      · exact hget _ (by omega) h
      · omega
    rw [hbl]
    by_cases hn : T.getLast? = some 10
    · have hline : logLine 4095 T = T := by rw [logLine, if_pos hn, if_pos hle]
      rw [if_neg (by simpa using hn), hline]
      exact ⟨b, rfl, hb, hbt, hz' hle (.inl hn)⟩
    · have hle' : T.length ≤ 4094 := by
        rcases Nat.lt_or_ge T.length 4095 with h | h
        · omega
        · have e : T.length = 4095 := by omega
          refine absurd (.inr ⟨e, ?_⟩) hc
          rw [hget 4094 (by omega) (by omega)]
          rw [hlast, e] at hn
          exact hn
      have hline : logLine 4095 T = T ++ [10] := by
        unfold logLine
        rw [if_neg hn, if_pos (by rw [List.length_append, List.length_singleton]; omega)]
      have hl2 : (T ++ [10]).length = T.length + 1 := by rw [List.length_append, List.length_singleton]
      rw [if_pos hn, wr_ok (by rw [hb]; show T.length + 2 ≤ _; omega), hline, hl2, hbt]
      refine ⟨_, rfl, ?_, ?_, ?_⟩
      · simp [hb]; omega
      · rw [show T ++ [10, 0] = (T ++ [10]) ++ [0] by simp, List.append_assoc]
        exact List.take_left' hl2
      · rw [show T ++ [10, 0] = (T ++ [10]) ++ [0] by simp, List.append_assoc, List.getElem?_append_right (by omega), hl2, Nat.sub_self]
        rfl

theorem format_ok {b h1 h2 : Bytes} {msg : Option Bytes} (hb : b.length = 4096) (h2l : 2 ≤ h1.length) (hf : h1.length + h2.length < 4095)
    (hn : (h1 ++ h2).dropLast.getLast? ≠ some 10) (hm : ∀ m, msg = some m → m.length < 2 ^ 31 → h1.length + h2.length + m.length < 2 ^ 31) :
    ∃ b', format b (some h1) h2 msg = .ok (some (b', (logLine 4095 (logText h1 h2 msg)).length)) ∧ b'.length = 4096 ∧
      b'.take (logLine 4095 (logText h1 h2 msg)).length = logLine 4095 (logText h1 h2 msg) ∧ b'[(logLine 4095 (logText h1 h2 msg)).length]? = some 0 := by
  obtain ⟨b1, e1, l1, t1, -⟩ := snprintf_ok (b := b) (p := []) (text := h1) (off := 0) (size := 4096) rfl (by decide) (by omega)
  have ht1 : h1.take 4095 = h1 := List.take_of_length_le (by omega)
  rw [show 4096 - 1 = 4095 from rfl, ht1, Nat.zero_add, List.nil_append] at t1
  obtain ⟨b2, e2, l2, t2, z2⟩ := snprintf_ok (b := b1) (text := h2) (off := h1.length) (size := 4096 - h1.length) t1 (by omega) (by omega)
  have ht2 : h2.take (4096 - h1.length - 1) = h2 := List.take_of_length_le (by omega)
  rw [ht2] at t2 z2
  have hbad : ∀ b3 : Bytes, b3.length = 4096 → b3.take (h1.length + h2.length - 1) = (h1 ++ h2).dropLast →
      ∃ b', finish b3 (h1.length + h2.length - 1) = .ok (b', (logLine 4095 (h1 ++ h2).dropLast).length) ∧ b'.length = 4096 ∧
        b'.take (logLine 4095 (h1 ++ h2).dropLast).length = logLine 4095 (h1 ++ h2).dropLast ∧
        b'[(logLine 4095 (h1 ++ h2).dropLast).length]? = some 0 := by
    intro b3 l3 t3
    have hl : (h1 ++ h2).dropLast.length = h1.length + h2.length - 1 := by rw [List.length_dropLast, List.length_append]
    rw [← hl] at t3 ⊢
    refine finish_ok l3 ?_ ?_ (.inl (by omega)) ?_
    · exact List.length_pos_iff.mp (by omega)
    · rw [Nat.min_eq_left (by omega), t3, List.take_of_length_le (by omega)]
    · rintro - (h | h)
      · exact absurd h hn
      · omega
  have hpre : ∀ b3 : Bytes, b3.take (h1.length + h2.length) = h1 ++ h2 → b3.take (h1.length + h2.length - 1) = (h1 ++ h2).dropLast := by
    intro b3 h
    rw [List.dropLast_eq_take, ← h, List.take_take]
    congr 1
    rw [h, List.length_append]; omega
  have hform : ∀ r, (match msg with
      | none => finish b2 (h1.length + h2.length - 1) >>= fun r => .ok (some r)
      | some m =>
        snprintf b2 (h1.length + h2.length) (4096 - (h1.length + h2.length)) m >>= fun b =>
        if 2 ^ 31 ≤ m.length then finish b (h1.length + h2.length - 1) >>= fun r => .ok (some r)
        else if 2 ^ 31 ≤ h1.length + h2.length + m.length then .ub
        else finish b (h1.length + h2.length + m.length) >>= fun r => .ok (some r)) = Out.ok r → format b (some h1) h2 msg = .ok r := by
    intro r hr
    simp only [format, e1, Out.ok_bind, if_pos (show h1.length < 4096 by omega), e2, if_neg (show ¬ 2 ^ 31 ≤ h1.length + h2.length + 1 by omega),
      if_neg (show ¬ 4096 ≤ h1.length + h2.length + 1 by omega)]
    exact hr
  cases msg with
  | none =>
    obtain ⟨b', f1, f2, f3, f4⟩ := hbad b2 (by omega) (hpre b2 t2)
    exact ⟨b', hform _ (by simp only [f1, Out.ok_bind]; rfl), f2, f3, f4⟩
  | some m =>
    obtain ⟨b3, e3, l3, t3, z3⟩ := snprintf_ok (b := b2) (text := m) (off := h1.length + h2.length) (size := 4096 - (h1.length + h2.length)) t2 (by omega) (by omega)
    by_cases hbig : 2 ^ 31 ≤ m.length
    · have htx : logText h1 h2 (some m) = (h1 ++ h2).dropLast := if_pos hbig
      have t3' : b3.take (h1.length + h2.length) = h1 ++ h2 := by
        have := congrArg (List.take (h1.length + h2.length)) t3
        rwa [List.take_take, Nat.min_eq_left (Nat.le_add_right _ _), List.take_left' (by rw [List.length_append])] at this
      obtain ⟨b', f1, f2, f3, f4⟩ := hbad b3 (by omega) (hpre b3 t3')
      rw [htx]
      exact ⟨b', hform _ (by simp only [e3, f1, Out.ok_bind, if_pos hbig]), f2, f3, f4⟩
    · have htx : logText h1 h2 (some m) = h1 ++ h2 ++ m := if_neg hbig
      have hlen := hm m rfl (by omega)
      have hT : (h1 ++ h2 ++ m).length = h1.length + h2.length + m.length := by rw [List.length_append, List.length_append]
      have hmt : (m.take (4096 - (h1.length + h2.length) - 1)).length = min m.length (4095 - (h1.length + h2.length)) := by
        rw [List.length_take]; omega
      rw [hmt] at t3 z3
      obtain ⟨b', f1, f2, f3, f4⟩ := finish_ok (b := b3) (T := h1 ++ h2 ++ m) (by omega) (List.length_pos_iff.mp (by omega))
        (by
          rw [hT, show min (h1.length + h2.length + m.length) 4095 = h1.length + h2.length + min m.length (4095 - (h1.length + h2.length)) by omega, t3,
            List.take_append, List.take_of_length_le (l := h1 ++ h2) (by rw [List.length_append]; omega), List.length_append]
          congr 2; omega)
        (by
          rw [hT]
          by_cases h : h1.length + h2.length + m.length ≤ 4095
          · exact .inl h
          · right
            rwa [show h1.length + h2.length + min m.length (4095 - (h1.length + h2.length)) = 4095 by omega] at z3)
        (by
          intro h _
          rw [hT] at h ⊢
          rwa [show min m.length (4095 - (h1.length + h2.length)) = m.length by omega] at z3)
      rw [hT] at f1
      rw [htx]
      exact ⟨b', hform _ (by simp only [e3, f1, Out.ok_bind, if_neg hbig, if_neg (show ¬ 2 ^ 31 ≤ h1.length + h2.length + m.length by omega)]), f2, f3, f4⟩

/-! ## Finding it -/

theorem findLoop_at {image : Bytes} {v : View} {P : Nat} (hP : P + 24 < image.length) (hv : findAt image P = some v) :
    ∀ (n ptr : Nat), ptr ≤ P → 4 ∣ P - ptr → P - ptr < n → (∀ k, ptr ≤ k → k < P → 4 ∣ P - k → findAt image k = none) → findLoop image n ptr = some v
  | 0, _, _, _, h, _ => by omega
  | n + 1, ptr, h1, h2, h3, h4 => by
    rw [findLoop, if_pos (by omega)]
    by_cases he : ptr = P
    · rw [he, hv]
    · rw [h4 ptr (Nat.le_refl _) (by omega) h2]
      exact findLoop_at hP hv n (ptr + 4) (by omega) (by omega) (by omega) fun k hk1 hk2 hk3 => h4 k (by omega) hk2 hk3

theorem rd_append {a b c : Bytes} {off n : Nat} {x : Bytes} (h : rd b off n = .ok x) : rd (a ++ b ++ c) (a.length + off) n = .ok x := by
  obtain ⟨h1, h2, h3⟩ := rd_length h
  rw [rd_ok (by simp only [List.length_append]; omega), h1, List.append_assoc, ← List.drop_drop, List.drop_left, List.drop_append_of_le_length (by omega),
    List.take_append_of_le_length (by rw [List.length_drop]; omega)]

theorem length_word (big : Bool) (x : Nat) : (word big x).length = 4 := by
  unfold word; split <;> simp

theorem bytes4 {x : Nat} (hx : x < 2 ^ 32) : ∃ a b c d, a < 256 ∧ b < 256 ∧ c < 256 ∧ d < 256 ∧ x = a + 256 * (b + 256 * (c + 256 * d)) :=
  ⟨x % 256, x / 256 % 256, x / 65536 % 256, x / 16777216, by omega, by omega, by omega, by omega, by omega⟩

theorem wswap_bytes {a b c d : Nat} (ha : a < 256) (hb : b < 256) (hc : c < 256) (hd : d < 256) :
    wswap (a + 256 * (b + 256 * (c + 256 * d))) = d + 256 * (c + 256 * (b + 256 * a)) := by
  have h1 : (a + 256 * (b + 256 * (c + 256 * d))) / 2 ^ 24 = d := by omega
  have h2 : (a + 256 * (b + 256 * (c + 256 * d))) / 2 ^ 16 % 2 ^ 8 = c := by omega
  have h3 : (a + 256 * (b + 256 * (c + 256 * d))) / 2 ^ 8 % 2 ^ 8 = b := by omega
  have h4 : (a + 256 * (b + 256 * (c + 256 * d))) % 2 ^ 8 = a := by omega
  rw [wswap, h1, h2, h3, h4]
  omega

theorem field_at {a c : Bytes} {big : Bool} {x : Nat} (hx : x < 2 ^ 32) : field (a ++ word big x ++ c) a.length = if big then wswap x else x := by
  rw [field, List.append_assoc, List.drop_left, List.take_left' (length_word big x)]
  cases big
  · exact leVal_leBytes 4 x hx
  · have h : ∀ n, n < 256 → (UInt8.ofNat n).toNat = n := by
      intro n hn
      rw [UInt8.toNat_ofNat']
      exact Nat.mod_eq_of_lt hn
    obtain ⟨p, q, r, t, hp, hq, hr, ht, rfl⟩ := bytes4 hx
    have e1 : (p + 256 * (q + 256 * (r + 256 * t))) % 256 = p := by omega
    have e2 : (p + 256 * (q + 256 * (r + 256 * t))) / 256 = q + 256 * (r + 256 * t) := by omega
    have e3 : (q + 256 * (r + 256 * t)) % 256 = q := by omega
    have e4 : (q + 256 * (r + 256 * t)) / 256 = r + 256 * t := by omega
    have e5 : (r + 256 * t) % 256 = r := by omega
    have e6 : (r + 256 * t) / 256 = t := by omega
    have e7 : t % 256 = t := by omega
    rw [if_pos rfl, wswap_bytes hp hq hr ht]
    simp only [word, leBytes, if_true, List.reverse_cons, List.reverse_nil, List.nil_append, List.cons_append, leVal, e1, e2, e3, e4, e5, e6, e7, h p hp, h q hq, h r hr, h t ht, Nat.mul_zero, Nat.add_zero]

theorem wswap_wswap {x : Nat} (hx : x < 2 ^ 32) : wswap (wswap x) = x := by
  obtain ⟨p, q, r, t, hp, hq, hr, ht, rfl⟩ := bytes4 hx
  rw [wswap_bytes hp hq hr ht, wswap_bytes ht hr hq hp]

theorem findAt_image {log pre post : Bytes} {mb : Mb} {big : Bool} (h : Good log mb) (hl : mb.len < 2 ^ 32) :
    ∃ v a b, findAt (pre ++ mb.image big ++ post) pre.length = some v ∧ pieces (pre ++ mb.image big ++ post) v = .ok (a, b) ∧ a ++ b = lastN mb.len log := by
  obtain ⟨len, cnt, wp, data⟩ := mb
  obtain ⟨hpos, hsize, hwp, hcnt, hpart, hfull⟩ := h
  simp only at *
  have hw := length_word big
  have f0 : field (pre ++ Mb.image big ⟨len, cnt, wp, data⟩ ++ post) (pre.length + 8) = if big then wswap 0xdeadbeef else 0xdeadbeef := by
    have := field_at (a := pre ++ magic) (c := word big len ++ word big cnt ++ word big wp ++ data ++ post) (big := big) (x := 0xdeadbeef) (by decide)
    rw [← this]
    congr 1
    · simp only [Mb.image, List.append_assoc]
    · rw [List.length_append]; rfl
  have f1 : field (pre ++ Mb.image big ⟨len, cnt, wp, data⟩ ++ post) (pre.length + 12) = if big then wswap len else len := by
    have := field_at (a := pre ++ magic ++ word big 0xdeadbeef) (c := word big cnt ++ word big wp ++ data ++ post) (big := big) (x := len) hl
    rw [← this]
    congr 1
    · simp only [Mb.image, List.append_assoc]
    · simp only [List.length_append, hw]; rfl
  have f2 : field (pre ++ Mb.image big ⟨len, cnt, wp, data⟩ ++ post) (pre.length + 16) = if big then wswap cnt else cnt := by
    have := field_at (a := pre ++ magic ++ word big 0xdeadbeef ++ word big len) (c := word big wp ++ data ++ post) (big := big) (x := cnt) (by omega)
    rw [← this]
    congr 1
    · simp only [Mb.image, List.append_assoc]
    · simp only [List.length_append, hw]; rfl
  have f3 : field (pre ++ Mb.image big ⟨len, cnt, wp, data⟩ ++ post) (pre.length + 20) = if big then wswap wp else wp := by
    have := field_at (a := pre ++ magic ++ word big 0xdeadbeef ++ word big len ++ word big cnt) (c := data ++ post) (big := big) (x := wp) (by omega)
    rw [← this]
    congr 1
    · simp only [Mb.image, List.append_assoc]
    · simp only [List.length_append, hw]; rfl
  have hm : ((pre ++ Mb.image big ⟨len, cnt, wp, data⟩ ++ post).drop pre.length).take 8 = magic := by
    rw [List.append_assoc, List.drop_left]
    simp only [Mb.image, List.append_assoc]
    exact List.take_left' rfl
  have hil : (Mb.image big ⟨len, cnt, wp, data⟩).length = 24 + len := by
    simp only [Mb.image, List.length_append, hw, hsize, magic, List.length_cons, List.length_nil]
  have hsplit : ∃ hd : Bytes, hd.length = 24 ∧ Mb.image big ⟨len, cnt, wp, data⟩ = hd ++ data :=
    ⟨_, by simp only [List.length_append, hw, magic, List.length_cons, List.length_nil], rfl⟩
  have hcond : (if big then wswap 0xdeadbeef else 0xdeadbeef) = wswap 0xdeadbeef ↔ big = true := by cases big <;> decide
  have hswap : ∀ x, x < 2 ^ 32 → (if (if big then wswap 0xdeadbeef else 0xdeadbeef) = wswap 0xdeadbeef then wswap (if big then wswap x else x) else if big then wswap x else x) = x := by
    intro x hx
    simp only [hcond]
    cases big
    · simp
    · simp [wswap_wswap hx]
  have hrd : ∀ off n a, rd data off n = .ok a → rd (pre ++ Mb.image big ⟨len, cnt, wp, data⟩ ++ post) (pre.length + 24 + off) n = .ok a := by
    intro off n a h
    obtain ⟨hd, hd1, hd2⟩ := hsplit
    have := rd_append (a := pre ++ hd) (c := post) h
    rw [List.length_append, hd1] at this
    rw [hd2, ← List.append_assoc]
    exact this
  have hF : findAt (pre ++ Mb.image big ⟨len, cnt, wp, data⟩ ++ post) pre.length =
      some (if len - cnt ≠ 0 then (⟨pre.length + 24 + wp + (len - cnt), len - wp - (len - cnt), pre.length + 24, wp⟩ : View)
        else ⟨pre.length + 24 + wp, len - wp, pre.length + 24, wp⟩) := by
    have hns : ¬ len - wp < len - cnt := by
      rcases Nat.lt_or_ge cnt len with hc | hc
      · have := (hpart hc).1; omega
      · omega
    unfold findAt
    simp only [f0, f1, f2, f3]
    rw [hswap len hl, hswap cnt (by omega), hswap wp (by omega)]
    rw [if_neg (fun h => h hm), if_neg (by omega), if_neg (by omega), if_neg (by rw [List.length_append, List.length_append, hil]; omega)]
    simp only [if_neg hns]
  rcases Nat.lt_or_ge cnt len with hc | hc
  · obtain ⟨hp1, hp2⟩ := hpart hc
    refine ⟨_, [], data.take wp, hF, ?_, ?_⟩
    · rw [if_pos (by omega)]
      have e1 := hrd len 0 [] (by rw [rd_ok (by omega)]; simp)
      have e2 := hrd 0 wp (data.take wp) (by rw [rd_ok (by omega)]; simp)
      simp only [pieces]
      rw [show pre.length + 24 + wp + (len - cnt) = pre.length + 24 + len by omega, show len - wp - (len - cnt) = 0 by omega, e1, Out.ok_bind]
      rw [show pre.length + 24 = pre.length + 24 + 0 from rfl, e2]
      rfl
    · rw [List.nil_append, hp2, lastN_all]; omega
  · refine ⟨_, data.drop wp, data.take wp, hF, ?_, hfull (by omega)⟩
    rw [if_neg (by omega)]
    have e1 := hrd wp (len - wp) (data.drop wp) (by rw [rd_ok (by omega), List.take_of_length_le]; rw [List.length_drop]; omega)
    have e2 := hrd 0 wp (data.take wp) (by rw [rd_ok (by omega)]; simp)
    simp only [pieces]
    rw [e1, Out.ok_bind, show pre.length + 24 = pre.length + 24 + 0 from rfl, e2]
    rfl

theorem findAt_none {image : Bytes} {ptr : Nat} (h : (image.drop ptr).take 8 ≠ magic) : findAt image ptr = none := if_pos h

theorem find_image {log pre post : Bytes} {mb : Mb} {big : Bool} (h : Good log mb) (hl : mb.len < 2 ^ 32) (h4 : 4 ∣ pre.length)
    (hno : ∀ k, k < pre.length → 4 ∣ k → ((pre ++ mb.image big ++ post).drop k).take 8 ≠ magic) :
    ∃ v a b, find (pre ++ mb.image big ++ post) = .ok (some v) ∧ pieces (pre ++ mb.image big ++ post) v = .ok (a, b) ∧ a ++ b = lastN mb.len log := by
  obtain ⟨v, a, b, h1, h2, h3⟩ := findAt_image (pre := pre) (post := post) (big := big) h hl
  have hil : (mb.image big).length = 24 + mb.len := by
    have := h.size
    simp only [Mb.image, List.length_append, length_word, magic, List.length_cons, List.length_nil]; omega
  have hpos := h.pos
  have hlen : pre.length + 24 < (pre ++ mb.image big ++ post).length := by rw [List.length_append, List.length_append]; omega
  refine ⟨v, a, b, ?_, h2, h3⟩
  rw [find, if_neg (by omega), findLoop_at hlen h1 _ 0 (by omega) (by omega) (by omega) fun k _ hk hd => findAt_none (hno k hk (by omega))]

/-! ## Sequences of messages -/

theorem format_none {b h1 h2 : Bytes} {msg : Option Bytes} (hb : b.length = 4096) (hc : h1.length + h2.length + 1 < 2 ^ 31)
    (hf : 4095 ≤ h1.length + h2.length) : format b (some h1) h2 msg = .ok none := by
  obtain ⟨b1, e1, l1, -, -⟩ := snprintf_ok (b := b) (p := []) (text := h1) (off := 0) (size := 4096) rfl (by decide) (by omega)
  simp only [format, e1, Out.ok_bind]
  by_cases h : h1.length < 4096
  · obtain ⟨b2, e2, -, -, -⟩ := snprintf_ok (b := b1) (text := h2) (off := h1.length) (size := 4096 - h1.length) rfl (by omega) (by omega)
    simp only [if_pos h, e2, Out.ok_bind, if_neg (show ¬ 2 ^ 31 ≤ h1.length + h2.length + 1 by omega), if_pos (show 4096 ≤ h1.length + h2.length + 1 by omega)]
  · simp only [if_neg h, Out.ok_bind, if_neg (show ¬ 2 ^ 31 ≤ h1.length + 1 by omega), if_pos (show 4096 ≤ h1.length + 1 by omega)]

theorem log_good {lg : Bytes} {mb : Mb} {m : Msg} (h : Good lg mb) (hb : m.b.length = 4096) (hh : Header m.h1 m.h2) (hm : Counts m.h1 m.h2 m.msg) :
    ∃ mb', log mb m = .ok mb' ∧ mb'.len = mb.len ∧ Good (lg ++ logged m.h1 m.h2 m.msg) mb' := by
  unfold logged
  split
  · rename_i hf
    obtain ⟨b', f1, f2, f3, -⟩ := format_ok hb hh.long hf hh.newline hm
    have hle : (logLine 4095 (logText m.h1 m.h2 m.msg)).length ≤ 4096 := by
      have := congrArg List.length f3
      rw [List.length_take] at this; omega
    obtain ⟨mb', p1, p2, p3⟩ := put_good (b := b') (tlen := (logLine 4095 (logText m.h1 m.h2 m.msg)).length) h (by omega)
    rw [f3] at p3
    exact ⟨mb', by simp only [log, f1, Out.ok_bind]; exact p1, p2, p3⟩
  · rename_i hf
    rw [List.append_nil]
    exact ⟨mb, by simp only [log, format_none hb hh.count (by omega), Out.ok_bind], rfl, h⟩

theorem logs_good : ∀ (ms : List Msg) {lg : Bytes} {mb : Mb}, Good lg mb → (∀ m ∈ ms, m.b.length = 4096 ∧ Header m.h1 m.h2 ∧ Counts m.h1 m.h2 m.msg) →
    ∃ mb', logs mb ms = .ok mb' ∧ mb'.len = mb.len ∧ Good (lg ++ ms.flatMap fun m => logged m.h1 m.h2 m.msg) mb'
  | [], lg, mb, h, _ => ⟨mb, rfl, rfl, by rw [List.flatMap_nil, List.append_nil]; exact h⟩
  | m :: ms, lg, mb, h, hm => by
    obtain ⟨h1, h2, h3⟩ := hm m List.mem_cons_self
    obtain ⟨mb', e1, e2, e3⟩ := log_good h h1 h2 h3
    obtain ⟨mb'', f1, f2, f3⟩ := logs_good ms e3 fun x hx => hm x (List.mem_cons_of_mem _ hx)
    exact ⟨mb'', by simp only [logs, e1, Out.ok_bind]; exact f1, f2.trans e2, by rw [List.flatMap_cons, ← List.append_assoc]; exact f3⟩

end Hx.Mlog

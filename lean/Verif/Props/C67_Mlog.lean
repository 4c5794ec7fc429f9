import Verif.Proofs.Mlog

/-!
# C67: log messages become lines, and the message buffer keeps the last of them

`vmlog` formats a message into 4096 bytes on its stack, and writes it to the message buffer and to standard error
and output. The message buffer can be copied, and found in an image of the memory.
-/

namespace Hx.Props
open Hx Hx.Mlog Spec.Mlog

/-- Formatting stays inside the buffer, whatever the buffer contained, and makes the line: the text, cut if it is
too long, with a newline and a zero at the end. Missing: messages with a length that cannot be counted together with
the header. -/
theorem C67_format_partial {b h1 h2 : Bytes} {msg : Option Bytes} (hb : b.length = 4096) (hh : Header h1 h2) (hf : h1.length + h2.length < 4095)
    (hm : Counts h1 h2 msg) :
    ∃ b', format b (some h1) h2 msg = .ok (some (b', (logLine 4095 (logText h1 h2 msg)).length)) ∧ b'.length = 4096 ∧
      b'.take (logLine 4095 (logText h1 h2 msg)).length = logLine 4095 (logText h1 h2 msg) ∧
      b'[(logLine 4095 (logText h1 h2 msg)).length]? = some 0 := format_ok hb hh.long hf hh.newline hm

/-- What a line is: it ends with a newline, it has at most 4095 bytes, and if the text fits it is the text. -/
theorem C67_line (text : Bytes) :
    (logLine 4095 text).getLast? = some 10 ∧ (logLine 4095 text).length ≤ 4095 ∧
      (text.length < 4095 → logLine 4095 text = text ∨ logLine 4095 text = text ++ [10]) ∧ text.take 4094 <+: logLine 4095 text := by
  unfold logLine
  by_cases hn : text.getLast? = some 10
  · simp only [if_pos hn]
    split
    · rename_i h
      exact ⟨hn, h, fun _ => .inl rfl, List.take_prefix _ _⟩
    · rename_i h
      refine ⟨List.getLast?_concat .., ?_, fun h' => by omega, List.prefix_append _ _⟩
      rw [List.length_append, List.length_take, List.length_singleton]; omega
  · simp only [if_neg hn]
    split
    · rename_i h
      rw [List.length_append, List.length_singleton] at h
      exact ⟨List.getLast?_concat .., by rw [List.length_append, List.length_singleton]; exact h, fun _ => .inr rfl,
        (List.take_prefix _ _).trans (List.prefix_append _ _)⟩
    · rename_i h
      rw [List.length_append, List.length_singleton] at h
      refine ⟨List.getLast?_concat .., ?_, fun h' => by omega, ?_⟩
      · rw [List.length_append, List.length_take, List.length_singleton]; omega
      · rw [List.take_append_of_le_length (by omega)]
        exact List.prefix_append _ _

/-- A message without zeros is printed as its line, to a terminal without the first part of the header. -/
theorem C67_printed_partial {b h1 h2 : Bytes} {msg : Option Bytes} (hb : b.length = 4096) (hh : Header h1 h2) (hf : h1.length + h2.length < 4095)
    (hm : Counts h1 h2 msg) (h0 : (0 : UInt8) ∉ logText h1 h2 msg) :
    ∃ b' n, format b (some h1) h2 msg = .ok (some (b', n)) ∧ ∀ out,
      toStderr b' h1.length out false = logLine 4095 (logText h1 h2 msg) ∧
      toStderr b' h1.length out true = (logLine 4095 (logText h1 h2 msg)).drop h1.length := by
  obtain ⟨b', e1, e2, e3, e4⟩ := C67_format_partial hb hh hf hm
  obtain ⟨i1, i2, -, i4⟩ := C67_line (logText h1 h2 msg)
  have hz : (0 : UInt8) ∉ logLine 4095 (logText h1 h2 msg) := by
    have : ∀ t : Bytes, (0 : UInt8) ∉ t → (0 : UInt8) ∉ t ++ [10] := by
      intro t h hc
      rcases List.mem_append.mp hc with hc | hc
      · exact h hc
      · cases List.mem_singleton.mp hc
    unfold logLine
    split <;> simp only []
    · split
      · exact h0
      · exact this _ fun h => h0 (List.mem_of_mem_take h)
    · split
      · exact this _ h0
      · exact this _ fun h => this _ h0 (List.mem_of_mem_take h)
  have hlong : h1.length ≤ (logLine 4095 (logText h1 h2 msg)).length := by
    have := i4.length_le
    rw [List.length_take] at this
    have hl := hh.long
    have hpos : 0 < (logLine 4095 (logText h1 h2 msg)).length := by
      cases h : logLine 4095 (logText h1 h2 msg) with
      | nil => rw [h] at i1; cases i1
      | cons => simp
    have ht : h1.length + h2.length - 1 ≤ (logText h1 h2 msg).length := by
      unfold logText
      split
      · rw [List.length_dropLast, List.length_append]; omega
      · split
        · rw [List.length_dropLast, List.length_append]; omega
        · rw [List.length_append, List.length_append]; omega
    have hmore : (logText h1 h2 msg).length < 4095 → (logText h1 h2 msg).getLast? ≠ some 10 → (logLine 4095 (logText h1 h2 msg)).length = (logText h1 h2 msg).length + 1 := by
      intro ha hb
      rw [logLine, if_neg hb]
      simp only [List.length_append, List.length_singleton]
      rw [if_pos (by omega), List.length_append, List.length_singleton]
    have htl : (logText h1 h2 msg).length = h1.length + h2.length - 1 → (logText h1 h2 msg).getLast? ≠ some 10 := by
      intro h
      unfold logText at h ⊢
      split
      · exact hh.newline
      · split
        · exact hh.newline
        · rename_i hx
          simp only [if_neg hx, List.length_append] at h
          omega
    by_cases hcase : (logText h1 h2 msg).length = h1.length + h2.length - 1
    · have := hmore (by omega) (htl hcase); omega
    · omega
  have hget : b' = logLine 4095 (logText h1 h2 msg) ++ 0 :: b'.drop ((logLine 4095 (logText h1 h2 msg)).length + 1) := by
    obtain ⟨hi, hv⟩ := List.getElem?_eq_some_iff.mp e4
    have := List.drop_eq_getElem_cons hi
    rw [hv] at this
    rw [← this]
    conv => lhs; rw [← List.take_append_drop (logLine 4095 (logText h1 h2 msg)).length b', e3]
  have hcs : ∀ (l r : Bytes), (0 : UInt8) ∉ l → cstr (l ++ 0 :: r) = l := by
    intro l r h
    unfold cstr
    rw [List.takeWhile_append_of_pos]
    · simp
    · intro x hx
      simp only [bne_iff_ne, ne_eq]
      rintro rfl
      exact h hx
  refine ⟨b', _, e1, fun out => ⟨?_, ?_⟩⟩
  · rw [toStderr, if_neg (by decide), hget, hcs _ _ hz]
  · rw [toStderr, if_pos rfl, hget, List.drop_append_of_le_length hlong, hcs _ _ fun h => hz (List.mem_of_mem_drop h)]

/-- A header that leaves no room: nothing is logged. -/
theorem C67_header_long {b h1 h2 : Bytes} {msg : Option Bytes} (hb : b.length = 4096) (hh : Header h1 h2) (hf : 4095 ≤ h1.length + h2.length) :
    format b (some h1) h2 msg = .ok none := format_none hb hh.count hf

/-- The messages so far are never written outside of the message buffer, which then contains the last bytes of all
lines. -/
theorem C67_buffer_partial {n : Nat} {ms : List Msg} (hn : 0 < n) (hms : ∀ m ∈ ms, m.b.length = 4096 ∧ Header m.h1 m.h2 ∧ Counts m.h1 m.h2 m.msg) :
    ∃ mb a b, logs (Mb.new n) ms = .ok mb ∧ pieces mb.data (view mb) = .ok (a, b) ∧
      a ++ b = lastN n (ms.flatMap fun m => logged m.h1 m.h2 m.msg) := by
  obtain ⟨mb, e1, e2, e3⟩ := logs_good ms (good_new n hn) hms
  obtain ⟨a, b, h1, h2⟩ := view_good e3
  rw [e2] at h2
  exact ⟨mb, a, b, e1, h1, h2⟩

/-- `mlog_mbcopy` copies the last bytes, without as many as the offset says. -/
theorem C67_copy_partial {n : Nat} {ms : List Msg} {mb : Mb} {offset len : Int} (hn : 0 < n)
    (hms : ∀ m ∈ ms, m.b.length = 4096 ∧ Header m.h1 m.h2 ∧ Counts m.h1 m.h2 m.msg) (hl : logs (Mb.new n) ms = .ok mb) (h1 : 1 ≤ len) :
    let kept := lastN n (ms.flatMap fun m => logged m.h1 m.h2 m.msg)
    mbcopy mb offset len = .ok (some (lastN len.toNat (kept.take (kept.length - offset.toNat)))) := by
  obtain ⟨mb', e1, e2, e3⟩ := logs_good ms (good_new n hn) hms
  rw [hl] at e1
  cases e1
  have := mbcopy_good e3 offset len h1
  rw [e2] at this
  exact this

/-- In an image of the memory, the message buffer is found, if what is before it does not look like one; on a host
of either byte order. -/
theorem C67_found_partial {n : Nat} {ms : List Msg} {mb : Mb} {pre post : Bytes} {big : Bool} (hn : 0 < n) (hn' : n < 2 ^ 32)
    (hms : ∀ m ∈ ms, m.b.length = 4096 ∧ Header m.h1 m.h2 ∧ Counts m.h1 m.h2 m.msg) (hl : logs (Mb.new n) ms = .ok mb) (h4 : 4 ∣ pre.length)
    (hno : ∀ k, k < pre.length → 4 ∣ k → ((pre ++ mb.image big ++ post).drop k).take 8 ≠ magic) :
    ∃ v a b, find (pre ++ mb.image big ++ post) = .ok (some v) ∧ pieces (pre ++ mb.image big ++ post) v = .ok (a, b) ∧
      a ++ b = lastN n (ms.flatMap fun m => logged m.h1 m.h2 m.msg) := by
  obtain ⟨mb', e1, e2, e3⟩ := logs_good ms (good_new n hn) hms
  rw [hl] at e1
  cases e1
  have hlen : mb.len = n := e2
  obtain ⟨v, a, b, h1, h2, h3⟩ := find_image (post := post) e3 (by omega) h4 hno
  exact ⟨v, a, b, h1, h2, by rw [← hlen]; exact h3⟩

/-- How the message buffer looks in memory: it begins with `>CpMdUl<` and `0xdeadbeef`. -/
theorem C67_image (mb : Mb) :
    mb.image false = (">CpMdUl<".toList.map fun c => c.toNat.toUInt8) ++ [0xef, 0xbe, 0xad, 0xde] ++
      leBytes 4 mb.len ++ leBytes 4 mb.cnt ++ leBytes 4 mb.wp ++ mb.data ∧
    mb.image true = (">CpMdUl<".toList.map fun c => c.toNat.toUInt8) ++ [0xde, 0xad, 0xbe, 0xef] ++
      (leBytes 4 mb.len).reverse ++ (leBytes 4 mb.cnt).reverse ++ (leBytes 4 mb.wp).reverse ++ mb.data := by
  have h1 : magic = ">CpMdUl<".toList.map fun c => c.toNat.toUInt8 := by decide +kernel
  have h2 : leBytes 4 0xdeadbeef = [0xef, 0xbe, 0xad, 0xde] := by decide +kernel
  simp only [Mb.image, word, h1, h2]
  exact ⟨rfl, rfl⟩

/-- False: in an image that ends too early, a message buffer is found of which a part is outside. -/
theorem C67_cut_false :
    ∃ mb : Mb, (∃ m : Msg, m.b.length = 4096 ∧ Header m.h1 m.h2 ∧ Counts m.h1 m.h2 m.msg ∧ log (Mb.new 20) m = .ok mb) ∧
      ∃ v, find ((mb.image false).take 25) = .ok (some v) ∧ pieces ((mb.image false).take 25) v = .ub := by
  have hm : ∀ x : Bytes, (some [104, 105] : Option Bytes) = some x → x.length < 2 ^ 31 → 1 + 1 + 1 + x.length < 2 ^ 31 := by
    intro x hx _
    cases hx
    decide
  refine ⟨⟨20, 6, 6, [97, 97, 32, 104, 105, 10] ++ List.replicate 14 0⟩, ⟨⟨List.replicate 4096 0, [97, 97], [32], some [104, 105]⟩, ?_, ⟨?_, ?_, ?_⟩, hm, ?_⟩, ⟨44, 0, 24, 6⟩, ?_⟩
  · exact List.length_replicate
  all_goals decide +kernel

/-- An image smaller than the header of a message buffer: a pointer before its beginning is computed. -/
theorem C67_small_ub {image : Bytes} (h : image.length < 24) : find image = .ub := if_pos h

/-- A message whose length cannot be counted together with the header's. -/
theorem C67_overflow_ub {b h1 h2 m : Bytes} (hb : b.length = 4096) (hf : h1.length + h2.length < 4095) (hm : m.length < 2 ^ 31)
    (ho : 2 ^ 31 ≤ h1.length + h2.length + m.length) : format b (some h1) h2 (some m) = .ub := by
  obtain ⟨b1, e1, l1, -, -⟩ := snprintf_ok (b := b) (p := []) (text := h1) (off := 0) (size := 4096) rfl (by decide) (by omega)
  obtain ⟨b2, e2, l2, -, -⟩ := snprintf_ok (b := b1) (text := h2) (off := h1.length) (size := 4096 - h1.length) rfl (by omega) (by omega)
  obtain ⟨b3, e3, -, -, -⟩ := snprintf_ok (b := b2) (text := m) (off := h1.length + h2.length) (size := 4096 - (h1.length + h2.length)) rfl (by omega) (by omega)
  simp only [format, e1, e2, e3, Out.ok_bind, if_pos (show h1.length < 4096 by omega), if_neg (show ¬ 2 ^ 31 ≤ h1.length + h2.length + 1 by omega),
    if_neg (show ¬ 4096 ≤ h1.length + h2.length + 1 by omega), if_neg (show ¬ 2 ^ 31 ≤ m.length by omega), if_pos ho]

/-- False: what is left out on standard output depends on standard error. A terminal on standard output gets all of
the line if standard error is a file, and a file on standard output gets part of it if standard error is a
terminal. -/
theorem C67_stdout_false :
    (¬ ∀ b h1 out err, toStdout b h1 out err = if out then cstr (b.drop h1) else cstr b) ∧ ∀ b h1 out err, toStdout b h1 out err = toStderr b h1 out err :=
  ⟨fun h => absurd (h [97, 98, 0] 1 true false) (by decide), fun _ _ _ _ => rfl⟩

/-! ## Examples -/

example : Header [50, 48, 50, 54, 32] [72, 88, 72, 73, 32, 73, 78, 70, 79, 32] ∧
    Counts [50, 48, 50, 54, 32] [72, 88, 72, 73, 32, 73, 78, 70, 79, 32] (some [104, 105]) :=
  ⟨⟨by decide, by decide, by decide⟩, fun m h _ => by cases h; decide⟩

example : logged [50, 32] [88, 32] (some [104, 105]) = [50, 32, 88, 32, 104, 105, 10] ∧ logged [50, 32] [88, 32] none = [50, 32, 88, 10] := by decide

/-- The buffer, not initialized before, after formatting. -/
example : (match format (List.replicate 4096 7) (some [50, 32]) [88, 32] (some [104, 105]) with
    | .ok (some (b, n)) => some (b.take 10, n)
    | _ => none) = some ([50, 32, 88, 32, 104, 105, 10, 0, 7, 7], 7) := by decide +kernel

/-- Messages that wrap around in a message buffer of 16 bytes, and a copy of them. -/
example : let m : Msg := ⟨List.replicate 4096 7, [50, 32], [88, 32], some [104, 105]⟩
    ∃ mb, logs (Mb.new 16) [m, m, m] = .ok mb ∧ mb.wp = 5 ∧ mb.cnt = 16 ∧
      mbcopy mb 1 100 = .ok (some [105, 10, 50, 32, 88, 32, 104, 105, 10, 50, 32, 88, 32, 104, 105]) ∧
      find ([1, 2, 3, 4] ++ mb.image true ++ [5]) = .ok (some ⟨33, 11, 28, 5⟩) := by
  refine ⟨⟨16, 16, 5, [88, 32, 104, 105, 10] ++ [105, 10, 50, 32, 88, 32, 104, 105, 10, 50, 32]⟩, ?_⟩
  decide +kernel

/-- A header that leaves no room. -/
example : 4095 ≤ (List.replicate 4000 (97 : UInt8)).length + (List.replicate 95 (97 : UInt8)).length := by decide +kernel

end Hx.Props

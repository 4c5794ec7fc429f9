import Verif.Model.Hash

/-!
# C25: the choice of datastore
-/

namespace Hx.Props
open Hx Hash

/-- The caller's rank plays no part in any hash but `RankModDatastores`: all ranks send a pair to
the same datastore. -/
theorem C25_same_for_all_ranks_partial (k : Kind) (hk : k ≠ .rankMod) (r r' count : Nat) (s p : Bytes) :
    hxhimHash k r count s p = hxhimHash k r' count s p := by
  cases k <;> first | rfl | exact absurd rfl hk

/-- C25 fails for `RankModDatastores`: two ranks send the same pair to different datastores. -/
theorem C25_rank_mod_false : ∃ r r' count : Nat, ∀ s p, hxhimHash .rankMod r count s p ≠ hxhimHash .rankMod r' count s p :=
  ⟨0, 1, 2, fun _ _ => by simp [hxhimHash, modCount, toInt]⟩

private theorem modCount_range {x count : Nat} (hc : count ≤ 2 ^ 31) {d : Int}
    (h : modCount x count = .ok d) : 0 ≤ d ∧ d < count := by
  unfold modCount at h
  split at h
  · cases h
  · have := Nat.mod_lt x (show count > 0 by omega)
    simp only [Out.ok.injEq, toInt] at h
    rw [Nat.mod_eq_of_lt (show x % count < 2 ^ 32 by omega), if_pos (by omega)] at h
    omega

private theorem uthash_range {f : Bytes → UInt32 → Out UInt32} {i : UInt32} {count : Nat} {s p : Bytes}
    (hc : count ≤ 2 ^ 31) {d : Int} (h : uthash f i count s p = .ok d) : 0 ≤ d ∧ d < count := by
  unfold uthash at h
  cases h1 : f s i with
  | ok a =>
    rw [h1, Out.ok_bind] at h
    cases h2 : f p a with
    | ok b => rw [h2, Out.ok_bind] at h; exact modCount_range hc h
    | err => rw [h2] at h; cases h
    | ub => rw [h2] at h; cases h
  | err => rw [h1] at h; cases h
  | ub => rw [h1] at h; cases h

/-- Every hash value is the id of an existing datastore, for any number of datastores an `int` can
count. -/
theorem C25_in_range (k : Kind) (r count : Nat) (hpos : 0 < count) (hc : count ≤ 2 ^ 31) (s p : Bytes)
    (d : Int) (h : hxhimHash k r count s p = .ok d) : 0 ≤ d ∧ d < count := by
  cases k with
  | datastoreZero => simp only [hxhimHash, Out.ok.injEq] at h; omega
  | rankMod => exact modCount_range hc h
  | sumMod =>
    simp only [hxhimHash] at h
    split at h
    · cases h
    · exact modCount_range hc h
  | _ => exact uthash_range hc h

private theorem byteSum_le (bs : Bytes) : byteSum bs ≤ 255 * bs.length := by
  unfold byteSum
  induction bs with
  | nil => simp
  | cons b bs ih =>
    have := b.toNat_lt
    simp only [List.map_cons, List.sum_cons, List.length_cons]
    omega

/-- The hash is always defined (and so chooses a datastore) for pairs of up to 8 MiB in total. -/
theorem C25_defined (k : Kind) (r count : Nat) (hpos : 0 < count) (s p : Bytes)
    (hl : s.length + p.length ≤ 8 * 2 ^ 20) : ∃ d, hxhimHash k r count s p = .ok d := by
  have hcount : ∀ x, ∃ d, modCount x count = .ok d := fun x => by
    unfold modCount; rw [if_neg (by omega)]; exact ⟨_, rfl⟩
  have hloop : ∀ (f : UInt32 → UInt8 → UInt32) (key : Bytes) (h : UInt32), key.length ≤ 8 * 2 ^ 20 →
      counted f key h = .ok (key.foldl f h) := by
    intro f key h hk; unfold counted; rw [if_neg (by omega)]
  have h1 : s.length ≤ 8 * 2 ^ 20 := by omega
  have h2 : p.length ≤ 8 * 2 ^ 20 := by omega
  cases k with
  | datastoreZero => exact ⟨0, rfl⟩
  | rankMod => exact hcount _
  | sumMod =>
    have hs := byteSum_le s
    have hp := byteSum_le p
    simp only [hxhimHash]
    rw [if_neg (by omega)]
    exact hcount _
  | ber => exact hcount _
  | sax =>
    simp only [hxhimHash, uthash, sax, hloop _ _ _ h1, hloop _ _ _ h2, Out.ok_bind]; exact hcount _
  | fnv =>
    simp only [hxhimHash, uthash, fnv, hloop _ _ _ h1, hloop _ _ _ h2, Out.ok_bind]; exact hcount _
  | oat =>
    simp only [hxhimHash, uthash, oat, hloop _ _ _ h1, hloop _ _ _ h2, Out.ok_bind]; exact hcount _
  | jen => exact hcount _
  | sfh => exact hcount _

example : hxhimHash .sumMod 3 5 [1, 2, 255] [7] = .ok 0 := by decide
example : hxhimHash .fnv 0 1000 (List.range 17 |>.map fun i => UInt8.ofNat (97 + i)) [120, 121, 122] = .ok 591 ∧
    hxhimHash .jen 0 1000 (List.range 17 |>.map fun i => UInt8.ofNat (97 + i)) [120, 121, 122] = .ok 446 ∧
    hxhimHash .sfh 0 1000 (List.range 17 |>.map fun i => UInt8.ofNat (97 + i)) [120, 121, 122] = .ok 770 := by
  decide +kernel

/-- Limit of C25: a pair of more than 8 MiB can make the `int` sum of `SumModDatastores` overflow,
which is undefined behaviour. -/
theorem C25_large_pair_ub (r count : Nat) : ∃ s p : Bytes, hxhimHash .sumMod r count s p = .ub := by
  refine ⟨List.replicate (2 ^ 31) 1, [], ?_⟩
  have : byteSum (List.replicate (2 ^ 31) 1) = 2 ^ 31 := by
    unfold byteSum
    rw [List.map_replicate, List.sum_replicate_nat]; rfl
  simp only [hxhimHash, this]
  rw [if_pos (by omega)]

/-- The chained byte hashes see only the concatenation of subject and predicate, so all ways of
splitting the same bytes go to the same datastore. -/
theorem C25_chained_concatenation (k : Kind) (hk : k = .sumMod ∨ k = .fnv ∨ k = .sax) (r count : Nat)
    (s p s' p' : Bytes) (hl : s.length + p.length < 2 ^ 32) (h : s ++ p = s' ++ p') :
    hxhimHash k r count s p = hxhimHash k r count s' p' := by
  have hlen : s.length + p.length = s'.length + p'.length := by
    have := congrArg List.length h; simpa using this
  have hc : ∀ (f : UInt32 → UInt8 → UInt32) (i : UInt32) (a b : Bytes), a.length + b.length < 2 ^ 32 →
      uthash (counted f) i count a b = modCount ((a ++ b).foldl f i).toNat count := by
    intro f i a b hab
    unfold uthash counted
    rw [if_neg (by omega), Out.ok_bind, if_neg (by omega), Out.ok_bind, List.foldl_append]
  rcases hk with rfl | rfl | rfl
  · have : byteSum s + byteSum p = byteSum s' + byteSum p' := by
      unfold byteSum
      rw [← List.sum_append_nat, ← List.sum_append_nat, ← List.map_append, ← List.map_append, h]
    simp only [hxhimHash, this]
  · exact (hc _ _ s p hl).trans (h ▸ (hc _ _ s' p' (by omega)).symm)
  · exact (hc _ _ s p hl).trans (h ▸ (hc _ _ s' p' (by omega)).symm)

/-- Published test vectors: one-at-a-time of Jenkins, and FNV-1a. -/
theorem C25_test_vectors : oat "a".toUTF8.toList 0 = .ok 0xca2e9442 ∧
    oat "The quick brown fox jumps over the lazy dog".toUTF8.toList 0 = .ok 0x519e91f5 ∧
    fnv "a".toUTF8.toList 0x811c9dc5 = .ok 0xe40c292c ∧ fnv "foobar".toUTF8.toList 0x811c9dc5 = .ok 0xbf9cf968 := by
  decide +kernel

/-- The Bernstein hash is the number with the bytes as digits to the base 33, modulo 2^32. -/
theorem C25_bernstein (key : Bytes) (hl : key.length < 2 ^ 32) (h : UInt32) :
    ber key h = .ok (UInt32.ofNat (key.foldl (fun n b => 33 * n + b.toNat) h.toNat)) := by
  have hs : seen key = key := by
    unfold seen
    rw [Nat.mod_eq_of_lt hl, List.take_length]
  unfold ber
  rw [hs]
  congr 1
  have : ∀ (key : Bytes) (n : Nat), key.foldl (fun (h : UInt32) b => ((h <<< 5) + h) + u b) (UInt32.ofNat n) =
      UInt32.ofNat (key.foldl (fun n b => 33 * n + b.toNat) n) := by
    intro key
    induction key with
    | nil => intro n; rfl
    | cons b key ih =>
      intro n
      rw [List.foldl_cons, List.foldl_cons, ← ih]
      congr 1
      have hb := b.toNat_lt
      apply UInt32.toNat_inj.mp
      simp [u, Nat.shiftLeft_eq]
      omega
  have := this key h.toNat
  rwa [UInt32.ofNat_toNat] at this

/-- Values computed from the published definitions apart from this model: every number of bytes that can be left over. -/
theorem C25_more_vectors :
    let abc (n : Nat) : Bytes := (List.range n).map (fun i => UInt8.ofNat (97 + i))
    [0, 1, 5, 26].map (fun n => sax (abc n) 0) = [.ok 0, .ok 0x61, .ok 0x731b823, .ok 0xdb95057c] ∧
    [0, 11, 12, 23, 26].map (fun n => jen (abc n) 0xfeedbeef) =
      [.ok 0xee1c8aa, .ok 0x8f91d79f, .ok 0x669d8e48, .ok 0xa9ce0092, .ok 0x18f55a7e] ∧
    [0, 5, 6, 7, 8].map (fun n => sfh (abc n) 0xcafebabe) =
      [.ok 0xe45304c5, .ok 0x74e5c268, .ok 0xf6f21f2, .ok 0xb9e4fc57, .ok 0x896f6f81] := by
  decide +kernel

/-- C25 fails for more datastores than an `int` can count: the number of the datastore is negative. -/
theorem C25_too_many_false (s p : Bytes) (r : Nat) (h1 : 2 ^ 31 ≤ r) (h2 : r < 2 ^ 32) :
    ∃ d, hxhimHash .rankMod r (2 ^ 32) s p = .ok d ∧ -(2 ^ 31) ≤ d ∧ d < 0 := by
  refine ⟨(r : Int) - 2 ^ 32, ?_, by omega, by omega⟩
  have e1 : r % 2 ^ 32 = r := Nat.mod_eq_of_lt h2
  have e2 : ¬ r < 2 ^ 31 := by omega
  simp [hxhimHash, modCount, toInt, e1, e2]

end Hx.Props

import Verif.Proofs.Ieee
import Verif.Proofs.HistStore
import Verif.Proofs.StoreDefault
import Verif.Props.C12_Store
import Verif.Props.C42_Histogram

/-!
# C43, C44, C45: histograms in a datastore
-/

namespace Hx.Props
open Hx Msg Spec Store Hist

/-! ## C43 -/

theorem grown_kept {h : Hist} {n : Nat} {g : Gen} {name : Bytes} {vs : List Dbl} (hg : Grown h n g name vs) :
    Kept h ∧ HistFits h ∧ h.count = vs.length ∧ h.firstN = n ∧ h.gen = some g ∧ h.name = name := by
  obtain ⟨a1, a2, a3, a4, a5⟩ := addAll_kept hg.gen vs (h := create n (some g) name) rfl (create_kept _ _ _) hg.run
  have hc : h.count = vs.length := by rw [a2]; simp [create]
  have hn : h.firstN = n := a3
  have hm : h.name = name := a5
  refine ⟨a1, a1.fits ?_ ?_ ?_ hg.size, hc, hn, a4, hm⟩
  · rw [hm]; exact hg.name
  · rw [hc]; exact hg.count
  · rw [hn]; exact hg.n

theorem sameHist_arrived (g0 : Option Gen) (c0 : Option (List Dbl)) (h : Hist) : SameHist h (arrivedHist g0 c0 h) := by
  refine ⟨rfl, rfl, rfl, rfl, ?_, rfl, rfl⟩
  intro hc
  simp only [arrivedHist]
  rw [if_pos hc]

/-- C43, packing. A histogram made by adding values, packed and unpacked into any other histogram
object, has the same name, number of values, boundaries and counts, and the same cached values
while there are no buckets. Missing: cached values afterwards (`C43_cache_false`), and the bucket
generator (`C43_restored_ub`). -/
theorem C43_pack_partial (h : Hist) (n : Nat) (g : Gen) (name : Bytes) (vs : List Dbl) (hg : Grown h n g name vs)
    (h0 : Hist) (rest : Bytes) :
    ∃ h', unpackIn h0 h.packBytes.length (h.packBytes ++ rest) = .ok (some h', rest) ∧ SameHist h h' ∧
      h'.name = name ∧ h'.count = vs.length := by
  obtain ⟨-, hf, hc, -, -, hm⟩ := grown_kept hg
  exact ⟨_, unpack_pack h0 (length_packBytes_ge h) h hf rest, sameHist_arrived _ _ h, hm, hc⟩

/-- C43: `pack_size` is the number of bytes a histogram made by adding values packs to. A buffer of that size is enough, a smaller one
is refused and nothing is written. -/
theorem C43_exact_buffer (h : Hist) (n : Nat) (g : Gen) (name : Bytes) (vs : List Dbl) (hg : Grown h n g name vs) :
    h.packBytes.length = h.packSize ∧ packIn h h.packSize = some (h.packBytes, 0) ∧
      (∀ more, packIn h (h.packSize + more) = some (h.packBytes, more)) ∧ ∀ avail < h.packSize, packIn h avail = none := by
  obtain ⟨hk, -⟩ := grown_kept hg
  have hl : h.packBytes.length = h.packSize := by
    unfold Hist.packBytes Hist.packSize
    simp only [List.length_append, length_leBytes]
    have h1 : (h.packedCache.flatMap Hist.dblBytes).length = if h.count < h.firstN then 8 * h.count else 0 := by
      rw [length_flatMap_const _ 8 _ (fun x _ => by simp [Hist.dblBytes])]
      unfold Hist.packedCache
      split
      · next hc =>
        obtain ⟨-, c, hc1, hc2⟩ := hk.caching hc
        rw [hc1, Option.getD_some, List.length_take]; omega
      · simp
    have h2 : (if h.size = 0 then ([] : Bytes) else
        (((h.buckets.getD []).take h.size).zip (h.counts.getD [])).flatMap
          (fun x => Hist.dblBytes x.1 ++ leBytes 8 x.2)
        ++ Hist.dblBytes ((h.buckets.getD []).getD h.size 0)).length
        = if h.size = 0 then 0 else h.size * 16 + 8 := by
      split
      · simp
      · next hz =>
        obtain ⟨b, c, hb, hc, hbl, hcl, -⟩ := hk.shape hz
        rw [List.length_append, length_flatMap_const _ 16 _ (fun x _ => by simp [Hist.dblBytes])]
        rw [hb, hc, Option.getD_some, Option.getD_some, List.length_zip, List.length_take]
        simp only [Hist.dblBytes, length_leBytes]
        omega
    rw [h1, h2]; omega
  refine ⟨hl, ?_, ?_, ?_⟩
  · unfold packIn; rw [if_neg (by omega), hl, Nat.sub_self]
  · intro more
    unfold packIn; rw [if_neg (by omega), hl, Nat.add_sub_cancel_left]
  · intro avail ha
    unfold packIn; rw [if_pos ha]

/-- C43, writing and reading back. `WriteHistograms` followed by `ReadHistograms` finds every
histogram asked for that the datastore holds, whatever other names are asked for that have no
record; other histograms stay. -/
theorem C43_write_read_partial (b : Backend) (wr : Bool) (hwr : b = .mem ∨ wr = true) (db : Db) (hs hs0 : Map Hist)
    (hsort : hs.Pairwise (fun a b => a.1 < b.1))
    (hg : ∀ x ∈ hs, ∃ n g vs, Grown x.2 n g x.1 vs) (names : List Bytes) (hlen : ∀ name ∈ names, name.length < 2 ^ 64)
    (hnames : ∀ name ∈ names, find hs name = none → find db (histKey name) = none) :
    ∃ hs' k, readHists (writeHists b wr db hs) hs0 names = .ok (hs', k) ∧
      (∀ name ∈ names, ∀ h, find hs name = some h → ∃ h', find hs' name = some h' ∧ SameHist h h') ∧
      ∀ name, name ∉ names ∨ find hs name = none → find hs' name = find hs0 name := by
  have hlen' : ∀ x ∈ hs, x.1.length < 2 ^ 64 := by
    intro x hx
    obtain ⟨n, g, vs, hgr⟩ := hg x hx
    exact hgr.name
  have hw : writeHists b wr db hs = histWrites db hs := by unfold writeHists; rw [if_pos hwr]; rfl
  have hfit : ∀ n h, find hs n = some h → HistFits h := by
    intro n h hf
    obtain ⟨m, g, vs, hgr⟩ := hg _ (find_mem hf)
    exact (grown_kept hgr).2.1
  obtain ⟨hs', k, e, f⟩ := readHists_spec (histWrites db hs) (find hs) names hs0 (by
    intro n hn
    rw [find_histWrites hs hsort hlen' n (hlen n hn)]
    cases hh : find hs n with
    | none => exact hnames n hn hh
    | some h => rfl) (fun n _ h hh => hfit n h hh)
  refine ⟨hs', k, by rw [hw]; exact e, ?_, ?_⟩
  · intro n hn h hh
    refine ⟨arrivedHist none none h, ?_, sameHist_arrived _ _ h⟩
    rw [f n, hh, if_pos ⟨hn, rfl⟩]
    rfl
  · intro n hn
    rw [f n, if_neg]
    rintro ⟨h1, h2⟩
    rcases hn with h | h
    · exact h h1
    · rw [h] at h2; cases h2

/-- C43, reopening. A LevelDB datastore closed with its histograms written, and opened again on the
directory, has the same histograms and records. -/
theorem C43_reopen_partial (d d0 : DS) (hb : d.backend = .level) (hb0 : d0.backend = .level) (hu : d.usable = true)
    (hsort : d.hists.Pairwise (fun a b => a.1 < b.1)) (hg : ∀ x ∈ d.hists, ∃ n g vs, Grown x.2 n g x.1 vs)
    (names : List Bytes) (hlen : ∀ name ∈ names, name.length < 2 ^ 64)
    (hnames : ∀ name ∈ names, find d.hists name = none → find d.db (histKey name) = none) :
    ∃ d1, d0.openDs (some (d.closeDs true true).2) (some names) = .ok d1 ∧ d1.usable = true ∧
      d1.db = (d.closeDs true true).2 ∧
      ∀ name ∈ names, ∀ h, find d.hists name = some h → ∃ h', find d1.hists name = some h' ∧ SameHist h h' := by
  obtain ⟨hs', k, e, f, -⟩ :=
    C43_write_read_partial .level true (.inr rfl) d.db d.hists d0.hists hsort hg names hlen hnames
  have hc : (d.closeDs true true).2 = writeHists .level true d.db d.hists := by
    simp only [DS.closeDs, hu, hb, and_self, if_true]
  rw [hc]
  refine ⟨{ d0 with db := writeHists .level true d.db d.hists, usable := true, hists := hs' }, ?_, rfl, rfl, f⟩
  simp only [DS.openDs, hb0, if_true, e, Out.ok_bind]

/-- A datastore that cannot be opened is not usable, has no records, and keeps the histograms it had. -/
theorem C43_open_fails (d : DS) (hb : d.backend = .level) (names : Option (List Bytes)) :
    d.openDs none names = .ok { d with db := [], usable := false } := by
  cases names <;> simp [DS.openDs, hb]

/-- The restored histogram goes on counting like the original once there are buckets. -/
theorem C43_continues_partial (h : Hist) (n : Nat) (g : Gen) (name : Bytes) (vs : List Dbl) (hg : Grown h n g name vs)
    (hb : h.buckets ≠ none) (ws : List Dbl) :
    ∃ h1 h2, h.addAll ws = .ok h1 ∧ (arrivedHist none none h).addAll ws = .ok h2 ∧ SameHist h1 h2 := by
  obtain ⟨hk, -⟩ := grown_kept hg
  have hfc := hk.some hb
  have key : ∀ (ws : List Dbl) (a b : Hist), SameHist a b → a.buckets ≠ none → a.firstN ≤ a.count →
      ∃ h1 h2, a.addAll ws = .ok h1 ∧ b.addAll ws = .ok h2 ∧ SameHist h1 h2 := by
    intro ws
    induction ws with
    | nil => intro a b hab _ _; exact ⟨a, b, rfl, rfl, hab⟩
    | cons w ws ih =>
      intro a b hab hne hle
      obtain ⟨an, af, ag, ac, acount, ab, acs, asz⟩ := a
      obtain ⟨bn, bf, bg, bc, bcount, bb, bcs, bsz⟩ := b
      obtain ⟨e1, e2, e3, e4, -, e6, e7⟩ := hab
      simp only at e1 e2 e3 e4 e6 e7 hne hle
      subst e1 e2 e3 e4 e6 e7
      cases ab with
      | none => exact absurd rfl hne
      | some bk =>
        have n1 : ¬ acount < af := by omega
        have n2 : af ≤ acount + 1 := by omega
        have n3 : af < acount + 1 := by omega
        simp only [addAll, Hist.add, n1, n2, n3, if_false, if_true, Out.ok_bind, Option.isNone_some,
          Bool.false_eq_true, Bool.not_true]
        refine ih _ _ ?_ ?_ ?_
        · unfold Hist.insert
          cases acs with
          | none => exact ⟨rfl, rfl, rfl, rfl, fun h => by simp only at h; omega, rfl, rfl⟩
          | some cs =>
            simp only
            split
            · exact ⟨rfl, rfl, rfl, rfl, fun h => by simp only at h; omega, rfl, rfl⟩
            · split
              · exact ⟨rfl, rfl, rfl, rfl, fun h => by simp only at h; omega, rfl, rfl⟩
              · exact ⟨rfl, rfl, rfl, rfl, fun h => by simp only at h; omega, rfl, rfl⟩
        · unfold Hist.insert
          cases acs with
          | none => simp
          | some cs =>
            simp only
            split
            · simp
            · split <;> simp
        · unfold Hist.insert
          cases acs with
          | none => simp only; omega
          | some cs =>
            simp only
            split
            · simp only; omega
            · split <;> (simp only; omega)
  exact key ws h _ (sameHist_arrived _ _ h) hb hfc

/-- Restored before there are buckets, a histogram has no bucket generator: the value that
completes the first `n` calls a null pointer. -/
theorem C43_restored_ub (h : Hist) (n : Nat) (g : Gen) (name : Bytes) (vs : List Dbl) (hg : Grown h n g name vs)
    (hn : vs.length + 1 = n) (v : Dbl) : (arrivedHist none none h).add v = .ub := by
  obtain ⟨hk, -, hc, hf, -, -⟩ := grown_kept hg
  have hlt : h.count < h.firstN := by omega
  obtain ⟨hz, c, hcc, -⟩ := hk.caching hlt
  obtain ⟨hb, -⟩ := hk.empty hz
  unfold Hist.add
  simp only [arrivedHist, if_pos hlt, hcc, hb, Out.ok_bind, Option.isNone_none, if_true, generate]
  rw [if_pos (by omega)]
  rfl

/-- One bucket starting at the smallest cached value, for the examples. -/
def exGen : Gen := fun _ => some [0]

theorem exGen_ne (c : Option (List Dbl)) : exGen c ≠ some [] := by simp [exGen]

/-- One value added, one bucket made. -/
def exOne : Hist := ⟨[104], 1, some exGen, some [d1], 1, some [0, d1], some [1], 1⟩

theorem exOne_grown : Grown exOne 1 exGen [104] [d1] :=
  ⟨exGen_ne, by with_unfolding_all rfl, by decide, by decide, by decide, by decide⟩

/-- Two values cached. -/
def exTwo : Hist := ⟨[105], 3, some exGen, some [d1, d2], 2, none, none, 0⟩

theorem exTwo_grown : Grown exTwo 3 exGen [105] [d1, d2] :=
  ⟨exGen_ne, rfl, by decide, by decide, by decide, by decide⟩

/-- The cached values are not kept once there are buckets. -/
theorem C43_cache_false : ∃ h h', Grown h 1 exGen [104] [d1] ∧
    unpackIn Hist.empty h.packBytes.length h.packBytes = .ok (some h', []) ∧ h.cache = some [d1] ∧ h'.cache = none :=
  ⟨exOne, ⟨[104], 1, none, none, 1, some [0, d1], some [1], 1⟩, exOne_grown, by with_unfolding_all rfl, rfl, rfl⟩

/-- An in-memory datastore that is closed and opened again has neither histograms nor records,
although it wrote them. -/
theorem C43_memory_reopen_false (d : DS) (hb : d.backend = .mem) (names : List Bytes) (stored : Option Db) :
    (d.closeDs true true).1.openDs stored (some names) =
      .ok { d with db := [], usable := true, hists := [] } := by
  have : ∀ (names : List Bytes) (hs : Map Hist), readHists [] hs names = .ok (hs, 0) := by
    intro names
    induction names with
    | nil => intro hs; rfl
    | cons n names ih => intro hs; simp only [readHists, find]; exact ih hs
  simp only [DS.closeDs, DS.openDs, hb, if_true, this, Out.ok_bind]

/-- A histogram with one bucket is packed to 57 bytes. -/
example : exOne.packSize = 57 ∧ packIn exOne 57 = some (exOne.packBytes, 0) ∧ packIn exOne 56 = none :=
  ⟨by decide, (C43_exact_buffer _ _ _ _ _ exOne_grown).2.1, (C43_exact_buffer _ _ _ _ _ exOne_grown).2.2.2 _ (by decide)⟩

/-- One histogram with a bucket, one still caching. -/
example : ∃ d0 d1', (⟨.level, [([1], [2])], true, [([104], exOne), ([105], exTwo)], 0, 0, 0⟩ : DS).hists.Pairwise
      (fun a b => a.1 < b.1) ∧ exOne.buckets ≠ none ∧ exTwo.buckets = none ∧
    d0 = (⟨.level, [], false, [], 0, 0, 0⟩ : DS) ∧
    d0.openDs (some ((⟨.level, [([1], [2])], true, [([104], exOne), ([105], exTwo)], 0, 0, 0⟩ : DS).closeDs true true).2)
      (some [[106], [105], [104]]) = .ok d1' ∧ ∃ h, find d1'.hists [105] = some h ∧ SameHist exTwo h := by
  have hs : (⟨.level, [([1], [2])], true, [([104], exOne), ([105], exTwo)], 0, 0, 0⟩ : DS).hists.Pairwise
      (fun a b => a.1 < b.1) := by
    simp only [List.pairwise_cons, List.mem_singleton, forall_eq, List.not_mem_nil, false_imp_iff, implies_true,
      List.Pairwise.nil, and_true]
    decide
  obtain ⟨d1', e, -, -, f⟩ := C43_reopen_partial ⟨.level, [([1], [2])], true, [([104], exOne), ([105], exTwo)], 0, 0, 0⟩
    ⟨.level, [], false, [], 0, 0, 0⟩ rfl rfl rfl hs (by
      intro x hx
      simp only [List.mem_cons, List.not_mem_nil, or_false] at hx
      rcases hx with rfl | rfl
      · exact ⟨_, _, _, exOne_grown⟩
      · exact ⟨_, _, _, exTwo_grown⟩) [[106], [105], [104]] (by decide) (by
      intro n hn
      simp only [List.mem_cons, List.not_mem_nil, or_false] at hn
      rcases hn with rfl | rfl | rfl
      · intro _; rfl
      · intro h; cases h
      · intro h; cases h)
  obtain ⟨h', f2, f3⟩ := f [105] (by simp) exTwo rfl
  exact ⟨_, d1', hs, by simp [exOne], rfl, rfl, e, h', f2, f3⟩

/-! ## C44 -/

/-- C44. After any history of packets, a tracked histogram is what adding the numbers of the PUTs
reported successful, in order, makes of it; a predicate without a histogram gets none. -/
theorem C44_tracks (cb : Callbacks) (heap : Nat) (d d' : DS) (hist : List (Bool × ReqBody)) (rs : List (Option ResBody))
    (hr : Runs cb heap d hist rs d') (name : Bytes) :
    (∀ h0, find d.hists name = some h0 →
      ∃ h1, h0.addAll ((hist.zip rs).flatMap (fun x => contributed name x.1.2 x.2)) = .ok h1 ∧
        find d'.hists name = some h1) ∧
    (find d.hists name = none → find d'.hists name = none) := by
  induction hr with
  | nil => exact ⟨fun h0 h => ⟨h0, rfl, h⟩, id⟩
  | cons h t ih =>
    obtain ⟨a1, a2⟩ := operate_hists h name
    refine ⟨?_, fun hn => ih.2 (a1 hn)⟩
    intro h0 h0'
    obtain ⟨h1, e1, f1⟩ := a2 h0 h0'
    obtain ⟨h2, e2, f2⟩ := ih.1 h1 f1
    refine ⟨h2, ?_, f2⟩
    rw [List.zip_cons_cons, List.flatMap_cons, addAll_append, e1, Out.ok_bind, e2]

/-- C44, requests. After any history, asking for histograms gives for each name the histogram with the
numbers that were added to it and success, or an error if the predicate has none. -/
theorem C44_requests (cb : Callbacks) (heap : Nat) (d d' : DS) (hist : List (Bool × ReqBody)) (rs : List (Option ResBody))
    (hr : Runs cb heap d hist rs d') (wr : Bool) (names : List Blob) :
    ∃ (d'' : DS) (l : List HistRes), d'.operate cb heap wr (.hist names) = .ok (d'', some (.hist l)) ∧ d''.hists = d'.hists ∧ d''.db = d'.db ∧
      l.length = names.length ∧
      ∀ (i : Nat) (name : Blob), names[i]? = some name →
        (∀ h0, find d.hists name.bytes = some h0 →
          ∃ h1, h0.addAll ((hist.zip rs).flatMap (fun x => contributed name.bytes x.1.2 x.2)) = .ok h1 ∧ l[i]? = some (⟨dsSuccess, some h1⟩ : HistRes)) ∧
        (find d.hists name.bytes = none → l[i]? = some (⟨dsError, none⟩ : HistRes)) := by
  refine ⟨_, names.map (histItem d'.hists), rfl, rfl, rfl, by simp, ?_⟩
  intro i name hi
  obtain ⟨h1, h2⟩ := C44_tracks cb heap d d' hist rs hr name.bytes
  have hget : (names.map (histItem d'.hists))[i]? = some (histItem d'.hists name) := by rw [List.getElem?_map, hi]; rfl
  refine ⟨fun h0 hh => ?_, fun hn => ?_⟩
  · obtain ⟨h, e, f⟩ := h1 h0 hh
    exact ⟨h, e, by rw [hget]; unfold histItem; rw [f]⟩
  · rw [hget]; unfold histItem; rw [h2 hn]

/-- Every history that runs has answers. -/
theorem C44_runs (cb : Callbacks) (heap : Nat) (d d' : DS) (hist : List (Bool × ReqBody))
    (h : DS.run cb heap d hist = .ok d') : ∃ rs, Runs cb heap d hist rs d' := by
  induction hist generalizing d with
  | nil => cases h; exact ⟨[], .nil _⟩
  | cons x hist ih =>
    simp only [DS.run] at h
    cases ho : d.operate cb heap x.1 x.2 with
    | err => rw [ho] at h; cases h
    | ub => rw [ho] at h; cases h
    | ok r =>
      rw [ho, Out.ok_bind] at h
      obtain ⟨rs, hrs⟩ := ih r.1 h
      exact ⟨r.2 :: rs, .cons (by rw [ho]) hrs⟩

/-- C44 with C42: the counts of a tracked histogram. -/
theorem C44_counts (cb : Callbacks) (heap : Nat) (d d' : DS) (hist : List (Bool × ReqBody)) (rs : List (Option ResBody))
    (hr : Runs cb heap d hist rs d') (name : Bytes) (n : Nat) (g : Gen) (hn : 0 < n) (left : List Dbl)
    (h0 : find d.hists name = some (create n (some g) name)) :
    let vs := (hist.zip rs).flatMap (fun x => contributed name x.1.2 x.2)
    n ≤ vs.length → g (some (vs.take n)) = some left → Ascending left →
    ∃ h, find d'.hists name = some h ∧ h.count = vs.length ∧ h.buckets = some (left ++ [rightEnd left vs]) ∧
      h.counts = some (tally left vs) := by
  intro vs hl hg ha
  obtain ⟨h1, e1, f1⟩ := (C44_tracks cb heap d d' hist rs hr name).1 _ h0
  obtain ⟨h2, e2, c, -, b, t⟩ := C42_counts g n name vs left hn hl hg ha
  have : h1 = h2 := by
    have := e1.symm.trans e2
    cases this; rfl
  subst this
  exact ⟨h1, f1, c, b, t⟩

/-- C44, start. Opening a datastore gives every configured predicate a histogram: a new one, unless
histograms are to be read and there is one already. Other predicates get none. -/
theorem C44_init (d d' : DS) (names : List Bytes) (firstN : Nat) (gen : Option Gen) (read : Bool)
    (h : d.initHists read names firstN gen = .ok d') (name : Bytes) :
    ∃ hs0 k, (if read then readHists d.db d.hists names else .ok (d.hists, 0)) = .ok (hs0, k) ∧
      find d'.hists name =
        (if name ∈ names ∧ (read = false ∨ find hs0 name = none) then some (create firstN gen name) else find hs0 name) ∧
      d'.db = d.db := by
  unfold DS.initHists at h
  generalize (if read then readHists d.db d.hists names else .ok (d.hists, 0)) = o at h ⊢
  cases o with
  | err => cases h
  | ub => cases h
  | ok r =>
    rw [Out.ok_bind] at h
    cases h
    refine ⟨r.1, r.2, rfl, ?_, rfl⟩
    simp only
    generalize r.1 = hs
    induction names generalizing hs with
    | nil => simp
    | cons m names ih =>
      simp only [List.foldl_cons]
      rw [ih]
      by_cases hm : name = m
      · subst hm
        cases read <;> cases hf : find hs name <;> simp [find_put, hf]
      · have e : ∀ c : Prop, [Decidable c] →
            find (if c then put m (create firstN gen m) hs else hs) name = find hs name := by
          intro c _
          split
          · rw [find_put, if_neg (Ne.symm hm)]
          · rfl
        rw [e]
        simp [hm]

/-- One histogram read from the datastore, one new. -/
example : ∃ d', (⟨.mem, writeHists .mem true [] [([105], exTwo)], true, [], 0, 0, 0⟩ : DS).initHists true [[105], [106]] 5
      (some exGen) = .ok d' ∧ (find d'.hists [105]).map (·.count) = some 2 ∧
    (find d'.hists [106]).map (fun h => (h.count, h.firstN)) = some (0, 5) :=
  ⟨_, rfl, rfl, rfl⟩

/-- Floating point callbacks that store the bytes as they are. -/
def exCopyFloat : FloatCodec := ⟨fun v => .ok (some v.bytes), fun v => .ok (some v.bytes)⟩
def exCbF : Callbacks := defaultCallbacks 0x2f 0x3a exCopyFloat
def exTracked (b : Backend) : DS := ⟨b, [], true, [([104], create 3 (some exGen) [104])], 0, 0, 0⟩
def exDouble (v : Dbl) : Blob := ⟨100, dblBytes v, tDouble⟩

/-- Two doubles for the tracked predicate, one for another, a float, and a byte string. -/
def exTrack : List (Bool × ReqBody) :=
  [(true, .put [⟨exB [1], 1, exB [104], 2, exDouble d1⟩, ⟨exB [2], 1, exB [105], 2, exDouble d2⟩]),
   (true, .put [⟨exB [3], 1, exB [104], 2, ⟨100, [0, 0, 0, 64], tFloat⟩⟩, exPut [4] [104] [9]])]

example : ∃ d' rs h, Runs exCbF 100 (exTracked .mem) exTrack rs d' ∧
    (exTrack.zip rs).flatMap (fun x => contributed [104] x.1.2 x.2) = [d1, 0x4000000000000000] ∧
    find d'.hists [104] = some h ∧ h.count = 2 ∧ find d'.hists [105] = none := by
  refine ⟨_, _, ⟨[104], 3, some exGen, some [d1, 0x4000000000000000], 2, none, none, 0⟩,
    .cons rfl (.cons rfl (.nil _)), ?_, ?_, rfl, ?_⟩
  · rfl
  · with_unfolding_all rfl
  · rfl

/-! ## C45 -/

/-- C45, writing. Writing histograms changes no record but those stored under "HISTOGRAM" and the
name of a tracked predicate, both as byte strings. Missing: those pairs
(`C45_overwrites_false`). -/
theorem C45_write_partial (b : Backend) (wr : Bool) (db : Db) (hs : Map Hist) (hlen : ∀ x ∈ hs, x.1.length < 2 ^ 64)
    (s p : Val) (hs1 : s.bytes.length < 2 ^ 64) (hp1 : p.bytes.length < 2 ^ 64) (hs2 : s.typ < 256) (hp2 : p.typ < 256)
    (hne : ¬ (s = ⟨histSubject, tByte⟩ ∧ p.typ = tByte ∧ ∃ h, (p.bytes, h) ∈ hs)) :
    find (writeHists b wr db hs) (Key.spToKey s p) = find db (Key.spToKey s p) := by
  unfold writeHists
  split
  · refine find_histWrites_other hs _ ?_ db
    intro x hx e
    obtain ⟨h1, h2⟩ := C02_key_injective ⟨histSubject, tByte⟩ ⟨x.1, tByte⟩ s p (show histSubject.length < 2 ^ 64 by decide)
      (hlen x hx) (show tByte < 256 by decide) (show tByte < 256 by decide) hs1 hp1 hs2 hp2 e
    refine hne ⟨h1.symm, by rw [← h2], x.2, ?_⟩
    rw [← h2]
    exact hx
  · rfl

/-- C45 for GET with the default callbacks: the answer for any other pair is the same. -/
theorem C45_get_partial {neg pos : UInt8} (hsym : Elen.Symbols neg pos) (f : FloatCodec) (heap : Nat) (b : Backend)
    (wr : Bool) (db : Db) (hs : Map Hist) (hlen : ∀ x ∈ hs, x.1.length < 2 ^ 64) (x : GetItem)
    (h1 : Plain x.subject) (h2 : Plain x.predicate)
    (hne : ¬ (x.subject.val = ⟨histSubject, tByte⟩ ∧ x.predicate.typ = tByte ∧ ∃ h, (x.predicate.bytes, h) ∈ hs)) :
    getItem (defaultCallbacks neg pos f) heap (writeHists b wr db hs) x = getItem (defaultCallbacks neg pos f) heap db x := by
  have k1 := plain_keyOk hsym f h1
  have k2 := plain_keyOk hsym f h2
  unfold getItem encodeKey
  rw [k1.enc, k2.enc]
  simp only [Out.ok_bind]
  cases e1 : (plainTransform neg pos f).E x.subject.val with
  | none => rfl
  | some es =>
    cases e2 : (plainTransform neg pos f).E x.predicate.val with
    | none => rfl
    | some ep =>
      simp only [Out.ok_bind]
      have hbyte : ∀ (v : Val) (e : Bytes), v.typ = tByte → (plainTransform neg pos f).E v = some e → e = v.bytes := by
        intro v e ht he
        simp [plainTransform, defaultCallbacks, ht, intType, tByte, tInt32, tInt64, tUint32, tUint64, tFloat, tDouble] at he
        exact he.symm
      rw [C45_write_partial b wr db hs hlen ⟨es, x.subject.typ⟩ ⟨ep, x.predicate.typ⟩ (k1.len es e1) (k2.len ep e2) k1.typ k2.typ]
      rintro ⟨a1, a2, h, a3⟩
      simp only [Val.mk.injEq] at a1 a2 a3
      have b1 := hbyte x.subject.val es a1.2 e1
      have b2 := hbyte x.predicate.val ep a2 e2
      refine hne ⟨?_, a2, h, ?_⟩
      · rw [← a1.1, ← a1.2, b1]; rfl
      · rw [b2] at a3; exact a3

/-- C45, GET with the default callbacks never returns a histogram: asking for its record is
answered with an error and no object. -/
theorem C45_get_refused (neg pos : UInt8) (f : FloatCodec) (heap : Nat) (db : Db) (x : GetItem) (h : Hist) (n : Nat)
    (g : Gen) (name : Bytes) (vs : List Dbl) (hg : Grown h n g name vs) (k : Bytes)
    (hk : encodeKey (defaultCallbacks neg pos f) x.subject x.predicate = .ok (some k)) (hf : find db k = some h.packBytes) :
    ∃ r, getItem (defaultCallbacks neg pos f) heap db x = .ok r ∧ r.status = dsError ∧ r.object.bytes = [] := by
  obtain ⟨hkept, -⟩ := grown_kept hg
  obtain ⟨ot, e1, e2⟩ := hist_not_decoded neg pos f hkept hg.size
  unfold getItem
  simp only [hk, Out.ok_bind, hf, e1, e2]
  exact ⟨_, rfl, rfl, rfl⟩

/-- C45, GETOP: every record returned is the error placeholder or what some stored record says, and
with the default callbacks that is never a histogram. -/
theorem C45_getop_refused (neg pos : UInt8) (f : FloatCodec) (heap : Nat) (b : Backend) (db : Db) (x : GetOpItem)
    (r : GetOpRes) (h : getOpItem b (defaultCallbacks neg pos f) heap db x = .ok r) :
    ∀ rec ∈ r.recs, rec = ⟨x.subject, x.predicate, Blob.null⟩ ∨
      ∃ kv ∈ db, FromRecord (defaultCallbacks neg pos f) kv rec ∧
        ∀ h n g name vs, Grown h n g name vs → kv.2 ≠ h.packBytes := by
  intro rec hrec
  rcases from_getOpItem h rec hrec with h | ⟨kv, hkv, hfr⟩
  · exact .inl h
  · refine .inr ⟨kv, hkv, hfr, ?_⟩
    intro h n g name vs hg e
    obtain ⟨hkept, -⟩ := grown_kept hg
    obtain ⟨ot, e1, e2⟩ := hist_not_decoded neg pos f hkept hg.size
    obtain ⟨sp, ot', s, p, o, -, f2, -, -, f5, -⟩ := hfr
    rw [e, e1] at f2
    cases f2
    rw [e2] at f5
    cases f5

/-- A user's record under that pair is overwritten when the histograms are written. -/
theorem C45_overwrites_false (b : Backend) :
    ∃ d, DS.run exCb 100 { exTracked b with db := [] } [(true, .put [exPut histSubject [104] [9]])] = .ok d ∧
      (∃ r, getItem exCb 100 d.db ⟨exB histSubject, 1, exB [104], 2, 0⟩ = .ok r ∧ r.status = dsSuccess ∧
        r.object.val = ⟨[9], tByte⟩) ∧
      ∃ r, getItem exCb 100 (writeHists b true d.db d.hists) ⟨exB histSubject, 1, exB [104], 2, 0⟩ = .ok r ∧
        r.status = dsError := by
  cases b <;> exact ⟨_, rfl, ⟨_, rfl, rfl, rfl⟩, _, rfl, rfl⟩

/-- Writing histograms makes a FIRST that reaches the histogram's record fail. -/
theorem C45_first_false (b : Backend) :
    ∃ d, DS.run exCb 100 { exTracked b with db := [] } [(true, .put [exPut [1] [2] [3], exPut [90] [2] [4]])] = .ok d ∧
      (∃ r, getOpItem b exCb 100 d.db ⟨goFirst, exB [], exB [], 0, 2⟩ = .ok r ∧ r.status = dsSuccess) ∧
      ∃ r, getOpItem b exCb 100 (writeHists b true d.db d.hists) ⟨goFirst, exB [], exB [], 0, 2⟩ = .ok r ∧
        r.status = dsError := by
  cases b <;> exact ⟨_, rfl, ⟨_, rfl, rfl⟩, _, rfl, rfl⟩

/-- Another subject with the tracked predicate is untouched by writing. -/
example (b : Backend) : getItem exCb 100 (writeHists b true [(Key.spToKey ⟨[1], 7⟩ ⟨[104], 7⟩, [9, 7, 0, 0, 0])] (exTracked b).hists)
      ⟨exB [1], 1, exB [104], 2, 0⟩ = .ok ⟨dsSuccess, ⟨1, 1, 7⟩, ⟨2, 1, 7⟩, ⟨100, [9], 7⟩⟩ ∧
    ¬ ((exB [1]).val = ⟨histSubject, tByte⟩ ∧ (exB [104]).typ = tByte ∧ ∃ h, ((exB [104]).bytes, h) ∈ (exTracked b).hists) := by
  refine ⟨by cases b <;> rfl, ?_⟩
  rintro ⟨h, -⟩
  exact absurd h (by decide)

/-- A stored histogram that a GET and a FIRST run into. -/
example (b : Backend) : ∃ k, encodeKey exCb (exB histSubject) (exB [104]) = .ok (some k) ∧
    find (writeHists b true [] [([104], exOne)]) k = some exOne.packBytes ∧
    ∃ r, getOpItem b exCb 100 (writeHists b true [] [([104], exOne)]) ⟨goFirst, exB [], exB [], 0, 1⟩ = .ok r ∧
      r.recs = [⟨exB [], exB [], Blob.null⟩] := by
  refine ⟨_, rfl, ?_, ?_⟩
  · cases b <;> rfl
  · cases b <;> exact ⟨_, rfl, rfl⟩

/-- C44: the number a `float` contributes is its value. -/
theorem C44_float_value (name : Bytes) (x : PutItem) (hp : x.predicate.typ = tByte ∧ x.predicate.bytes = name)
    (ho : x.object.typ = tFloat) : ∃ d, contributes name x = some d ∧
      ieee 11 52 d.toNat = ieee 8 23 (leVal (x.object.bytes.take 4)) := by
  refine ⟨_, by simp only [contributes, hp, ho, and_self, if_true], floatToDouble_value ?_⟩
  have h1 := leVal_lt (x.object.bytes.take 4)
  have h2 : (x.object.bytes.take 4).length ≤ 4 := List.length_take_le _ _
  have h3 : 256 ^ (x.object.bytes.take 4).length ≤ 256 ^ 4 := Nat.pow_le_pow_right (by omega) h2
  omega

/-- -1.5 as a `float`. -/
example : ieee 8 23 0xbfc00000 = .fin true (3 / 2) ∧ floatToDouble 0xbfc00000 = 0xbff8000000000000 := by
  refine ⟨?_, by decide +kernel⟩
  rw [ieee_float]
  norm_num

end Hx.Props

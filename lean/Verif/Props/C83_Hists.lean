import Verif.Props.C82_HistJob
import Verif.Props.C83_Sessions

/-!
# C83: histograms of the session before
-/

namespace Hx.Props
open Hx Msg Spec Process Store Results Job Place Sessions

/-- C83, histograms: a session that makes histograms and writes them when it closes is followed by a session on the same directories,
with any layout, that reads them. Then each datastore of the second session begins with the histogram that has all numbers the
datastore with the same id took in the first session. -/
theorem C83_hists (cb : Callbacks) (t : Transform) (hash : Bytes → Bytes → Out Int) (pre base post : Bytes) (total : Nat)
    (htotal : total ≤ 2 ^ 31) (s : Session) (o2 : Opts) (lib2 : Bytes → Bool) (disk : Disk) (w w' w2 : World)
    (hs : SessionOk cb t hash pre base post total s) (ho : Opened s.opts s.lib disk w)
    (h : Overlap cb s.heap s.opts.layout.total w s.turns s.log w' s.rs) (hs2 : SameStore pre base post total o2)
    (ho2 : Opened o2 lib2 (s.opts.close s.wr w' disk) w2) (hread : s.opts.read = false) (hwrite : s.opts.write = true)
    (hread2 : o2.read = true) (g : Hist.Gen) (hgen : s.opts.gen = some g) (hg : ∀ c, g c ≠ some []) (hn : s.opts.firstN < 2 ^ 64)
    (hnames : ∀ name ∈ s.opts.names, name.length < 2 ^ 64) (id : Nat) (hid : id < total)
    (hwr : s.wr (generateName pre base id post 47) = true) (name : Bytes) (hname : name ∈ s.opts.names) (hname2 : name ∈ o2.names)
    (hsize : ∀ vs h', (Hist.create s.opts.firstN (some g) name).addAll vs = .ok h' → h'.size < 2 ^ 64)
    (hcount : (loggedNumbers id name s.log).length < 2 ^ 64) :
    ∃ h1 h2, (Hist.create s.opts.firstN (some g) name).addAll (loggedNumbers id name s.log) = .ok h1 ∧
      histAt (placeOf o2.layout) w2 id name = some h2 ∧ SameHist h1 h2 := by
  obtain ⟨⟨hb, rfl, rfl, rfl, rfl⟩, -, hturns⟩ := hs
  obtain ⟨hb2, hpre, hbase, hpost, htot⟩ := hs2
  have hdir : o2.dir = s.opts.dir := by
    funext i
    unfold Opts.dir
    rw [hpre, hbase, hpost]
  rw [← placeOf_length s.opts.layout] at h htotal
  have hk := overlap_known htotal hturns h
  have hlenw := executes_lengths hk h.executes
  obtain ⟨rank, h1, h2, d, h3, h4⟩ := closed_at (wr := s.wr) (disk2 := disk) hb ho hlenw hid
  have hoff : id % s.opts.layout.per = s.opts.layout.offset id := rfl
  have hp := placeOf_get.mpr ⟨hid, h1⟩
  -- the histogram at the start
  obtain ⟨d0, hd0⟩ : ∃ d0, (w.ds rank)[s.opts.layout.offset id]? = some d0 := by
    refine ⟨_, List.getElem?_eq_getElem ?_⟩
    rw [← hlenw]
    exact (List.getElem?_eq_some_iff.mp h3).1
  have hstart : find d0.hists name = some (Hist.create s.opts.firstN (some g) name) := by
    obtain ⟨-, id', -, -, -, h7⟩ := opened_get ho hd0
    unfold Opts.init at h7
    obtain ⟨e, he, h7⟩ := ok_iff.mp h7
    split at h7
    · obtain ⟨x, hx, h7⟩ := ok_iff.mp h7
      cases h7
      obtain ⟨hs0, k, -, h8, -⟩ := C44_init _ _ _ _ _ _ hx name
      rw [h8, if_pos ⟨hname, Or.inl hread⟩, hgen]
    · cases h7
  obtain ⟨a1, ha1, ha2⟩ := (executes_hists (opened_apart ho) hk h.executes id rank hp name).2 _ (by
    rw [histAt_some hp, h2, hoff, hd0, Option.bind_some]
    exact hstart)
  rw [histAt_some hp, hlenw, h2, hoff, h3, Option.bind_some] at ha2
  have hgrown : Grown a1 s.opts.firstN g name (loggedNumbers id name s.log) :=
    ⟨hg, ha1, hn, hnames name hname, hcount, hsize _ _ ha1⟩
  have hfit := (grown_kept hgrown).2.1
  -- the record
  have hsorted : ∀ r, ∀ e ∈ w.ds r, Sorted e.hists ∧ e.usable = true ∧ e.backend = .level := by
    intro r e he
    obtain ⟨i, hi⟩ := List.mem_iff_getElem?.mp he
    obtain ⟨-, id', -, -, -, h7⟩ := opened_get ho hi
    exact ⟨init_sorted h7, (init_some hb h7).1, (init_backend h7).trans hb⟩
  obtain ⟨g1, g2, g3⟩ := executes_sorted hk h.executes hsorted rank d (List.mem_of_getElem? h3)
  have hlen : ∀ x ∈ d.hists, x.1.length < 2 ^ 64 := by
    intro x hx
    refine hnames _ ?_
    obtain ⟨-, id', -, -, -, h7⟩ := opened_get ho hd0
    refine init_names h7 x.1 (fun hnone => Job.find_mem hx ?_)
    have := (executes_hists (opened_apart ho) hk h.executes id rank hp x.1).1 (by
      rw [histAt_some hp, h2, hoff, hd0, Option.bind_some]
      exact hnone)
    rw [histAt_some hp, hlenw, h2, hoff, h3, Option.bind_some] at this
    exact this
  have hrec : find (d.closeDs (s.wr (s.opts.dir id)) s.opts.write).2 (histKey name) = some a1.packBytes := by
    unfold DS.closeDs
    rw [hwrite, g2, show s.wr (s.opts.dir id) = true from hwr]
    simp only [true_and, if_true]
    unfold writeHists
    rw [if_pos (Or.inr rfl)]
    rw [show (d.hists.foldl (fun db x => put (histKey x.1) x.2.packBytes db) d.db) = histWrites d.db d.hists from rfl,
      find_histWrites d.hists g1 hlen name (hnames name hname), ha2]
  -- the second session
  have hid2 : id < o2.layout.total := by rw [htot]; exact hid
  obtain ⟨rank2, -, j1, j2, j3, -⟩ := opened_has ho2 hid2
  obtain ⟨e, he⟩ : ∃ e, (w2.ds rank2)[o2.layout.offset id]? = some e := ⟨_, List.getElem?_eq_getElem (by rw [j2]; exact j3)⟩
  obtain ⟨-, id', j4, j5, j6, j7⟩ := opened_get ho2 he
  obtain rfl : id' = id := place_inj ho2.valid j4 hid2 (j5.trans j1.symm) j6
  have hend := init_read hb2 hread2 (by rw [hdir]; exact h4) hrec hfit hname2 j7
  refine ⟨a1, arrivedHist none none a1, ha1, ?_, sameHist_arrived _ _ a1⟩
  rw [histAt_some (placeOf_get.mpr ⟨hid2, j1⟩), j2, show id' % o2.layout.per = o2.layout.offset id' from rfl, he, Option.bind_some]
  exact hend

/-! ### Example -/

namespace C83HistEx
open C82Ex C83Ex

/-- Two ranks with a datastore each; a histogram named `h` is made, and written in the end. -/
def first : Opts := ⟨⟨2, 1, 1, 1⟩, .level, [100], [97], [], true, [[104]], 2, some exGen, false, true⟩

/-- One rank with both datastores, which reads the histogram. -/
def second : Opts := ⟨⟨1, 1, 1, 2⟩, .level, [100], [97], [], false, [[104]], 2, some exGen, true, true⟩

/-- The only rank GETs a number. -/
def get : Turn := ⟨⟨Hash.hxhimHash .sumMod 0 2, 10, 0, 1⟩, Layout.net ⟨1, 1, 1, 2⟩ 0 .null id (fun _ => List.Perm.refl _) 4096
  (fun n => List.replicate n 0), [.get ⟨key 64 1, key 80 104, tDouble⟩]⟩

/-- The flushes of C82, then a GET in the second session. The third write of LevelDB fails in the first session. What both log, the
GET returns, and the histograms of the second session have (the number of values and the counts). -/
def sessions : Out (List (List Dbl) × List (Int × Bytes) × List (List Nat)) :=
  play (C83Ex.world first lib noDisk (fun n => decide (n ≠ 2))) order >>= fun x =>
  outcome x.1 0 flushA >>= fun a =>
  outcome x.1 1 flushB >>= fun b =>
  let w2 := C83Ex.world second lib (first.close lib x.2 noDisk) (fun _ => true)
  play w2 [(0, 0, ⟨0, 1, .get [⟨key 64 1, 64, key 80 104, 80, tDouble⟩]⟩)] >>= fun y =>
  resultsOf 2 y.1 0 get >>= fun q =>
  if opens first lib noDisk && opens second lib (first.close lib x.2 noDisk) then
    .ok ([loggedNumbers 0 [104] x.1, loggedNumbers 1 [104] x.1], (C83Ex.shown q).map Prod.snd,
      [0, 1].map (fun id => match histAt (placeOf second.layout) w2 id [104] with | some h => h.count :: h.counts.getD [] | none => []))
  else .err

theorem sessions_eq : sessions = .ok ([[], [d1, d3]], [(hxSuccess, Hist.dblBytes d1)], [[0], [2, 2]]) := by decide +kernel

theorem sized (vs : List Dbl) (h' : Hist) (he : (Hist.create 2 (some exGen) [104]).addAll vs = .ok h') : h'.size < 2 ^ 64 := by
  by_cases hl : vs.length < 2
  · rw [Hist.addAll_caching 2 _ _ vs hl] at he
    cases he
    show 0 < 2 ^ 64
    decide
  · obtain ⟨h2, e2, -, c2, -⟩ := C42_counts exGen 2 [104] vs [0] (by decide) (by omega) rfl ⟨by decide, by decide, by decide⟩
    rw [e2] at he
    cases he
    rw [c2]
    decide

end C83HistEx
open C83HistEx C82Ex C83Ex

/-- Two ranks PUT numbers and write their histograms, then one rank with both datastores reads them and GETs a number. The hypotheses
of `C83_hists` and `C83_gets_partial` hold; the histogram of datastore 1 has the two numbers. -/
example : ∃ log log' rs q w w' w2 w3 disk', ∃ s s2 : Session, s = ⟨first, 100, lib, lib, [flushA, flushB], log, rs⟩ ∧
    s2 = ⟨second, 100, lib, lib, [get], log', [q]⟩ ∧ Opened first lib noDisk w ∧
    Overlap exCbF 100 first.layout.total w [flushA, flushB] log w' rs ∧ Opened second lib (first.close lib w' noDisk) w2 ∧
    Overlap exCbF 100 second.layout.total w2 [get] log' w3 [q] ∧ runs exCbF noDisk [s, s2] disk' ∧
    (∀ x ∈ [s, s2], SessionOk exCbF (plainTransform 0x2f 0x3a exCopyFloat) (Hash.hxhimHash .sumMod 0 2) [100] [97] [] 2 x) ∧
    HistsApart (plainTransform 0x2f 0x3a exCopyFloat) (Hash.hxhimHash .sumMod 0 2) [s, s2] ∧ (∀ c, exGen c ≠ some []) ∧
    (∀ vs h', (Hist.create 2 (some exGen) [104]).addAll vs = .ok h' → h'.size < 2 ^ 64) ∧
    loggedNumbers 1 [104] log = [d1, d3] ∧ (C83Ex.shown q).map Prod.snd = [(hxSuccess, Hist.dblBytes d1)] ∧
    (histAt (placeOf second.layout) w2 1 [104]).map (fun h => h.count :: h.counts.getD []) = some [2, 2] := by
  have h := sessions_eq
  unfold sessions at h
  obtain ⟨x, hx, h⟩ := ok_iff.mp h
  obtain ⟨a, ha, h⟩ := ok_iff.mp h
  obtain ⟨b, hb, h⟩ := ok_iff.mp h
  obtain ⟨y, hy, h⟩ := ok_iff.mp h
  obtain ⟨q, hq, h⟩ := ok_iff.mp h
  split at h
  case isFalse => cases h
  rename_i ho
  obtain ⟨ho1, ho2⟩ := Bool.and_eq_true_iff.mp ho
  obtain ⟨e1, e2⟩ := Prod.mk.inj (Out.ok.inj h)
  obtain ⟨e2, e3⟩ := Prod.mk.inj e2
  simp only [List.map_cons, List.map_nil, List.cons.injEq, and_true] at e1 e3
  obtain ⟨h1, h2, -⟩ := C82Ex.play_executes _ (show C82Ex.play _ C82Ex.order = .ok (x.1, x.2) from hx)
  obtain ⟨h3, h4, -⟩ := C82Ex.play_executes _ (show C82Ex.play _ _ = .ok (y.1, y.2) from hy)
  have h2 : x.1.map (·.turn) = [0, 1, 0, 1, 1] := h2
  have h4 : y.1.map (·.turn) = [0] := h4
  have o1 := opens_world (fun n => decide (n ≠ 2)) ho1
  have o2 := opens_world (fun _ => true) ho2
  have v1 : Overlap exCbF 100 first.layout.total (C83Ex.world first lib noDisk (fun n => decide (n ≠ 2))) [flushA, flushB] x.1 x.2 [a, b] := by
    refine ⟨h1, ?_, rfl, ?_⟩
    · intro y hy
      have : y.turn ∈ x.1.map (·.turn) := List.mem_map.mpr ⟨y, hy, rfl⟩
      rw [h2] at this
      show y.turn < 2
      simp only [List.mem_cons, List.not_mem_nil, or_false] at this
      omega
    · intro i y r hi hr
      match i with
      | 0 => cases hi; cases hr; exact outcome_turnOn ha
      | 1 => cases hi; cases hr; exact outcome_turnOn hb
      | i + 2 => cases hi
  have v2 : Overlap exCbF 100 second.layout.total (C83Ex.world second lib (first.close lib x.2 noDisk) (fun _ => true)) [get] y.1 y.2 [q] := by
    refine ⟨h3, ?_, rfl, ?_⟩
    · intro z hz
      have : z.turn ∈ y.1.map (·.turn) := List.mem_map.mpr ⟨z, hz, rfl⟩
      rw [h4, List.mem_singleton] at this
      show z.turn < 1
      omega
    · intro i z r hi hr
      match i with
      | 0 => cases hi; cases hr; exact resultsOf_turnOn hq
      | i + 1 => cases hi
  have eget : turnOps (Hash.hxhimHash .sumMod 0 2) get = [.get (key 64 1) (key 80 104) tDouble] := by decide +kernel
  have hclear : ∀ {l : List Op}, (∀ o ∈ l, ∀ s p ty, o = Op.get s p ty → s = key 64 1) → (∀ o ∈ l, ∀ b s n p ty, o ≠ Op.getop b s n p ty) →
      ∀ o ∈ l, Clear (plainTransform 0x2f 0x3a exCopyFloat) o := by
    intro l h1 h2 o ho
    match o, ho with
    | .put _ _ _, _ => trivial
    | .del _ _, _ => trivial
    | .hist _ _, _ => trivial
    | .getop _ _ _ _ _, ho => exact absurd rfl (h2 _ ho _ _ _ _ _)
    | .get s p ty, ho =>
      rw [h1 _ ho s p ty rfl]
      rintro ⟨h, -⟩
      revert h
      decide
  refine ⟨x.1, y.1, [a, b], q, _, x.2, _, y.2, _, _, _, rfl, rfl, o1, v1, o2, v2, ⟨_, x.2, o1, v1, _, y.2, o2, v2, rfl⟩, ?_, ⟨[], _, rfl, by simp, ?_⟩,
    exGen_ne, sized, e1.2, e2, ?_⟩
  · intro s hs
    simp only [List.mem_cons, List.not_mem_nil, or_false] at hs
    rcases hs with rfl | rfl
    · exact ⟨⟨rfl, rfl, rfl, rfl, rfl⟩, ⟨(by decide : 100 ≠ 0), (by decide : 100 < 2 ^ 64)⟩, turns_ok⟩
    · refine ⟨⟨rfl, rfl, rfl, rfl, rfl⟩, ⟨(by decide : 100 ≠ 0), (by decide : 100 < 2 ^ 64)⟩, ?_⟩
      intro z hz
      rw [List.mem_singleton.mp hz]
      refine C83_one_rank (neg := 0x2f) (pos := 0x3a) ⟨by decide, by decide⟩ exCopyFloat ⟨1, 1, 1, 2⟩ (by decide) rfl .sumMod _ id _ 4096
        (by decide) _ 10 0 1 (by decide) [.get ⟨key 64 1, key 80 104, tDouble⟩] ?_
      intro c hc o ho
      have : o ∈ turnOps (Hash.hxhimHash .sumMod 0 2) get := List.mem_flatMap.mpr ⟨c, hc, ho⟩
      rw [eget, List.mem_singleton] at this
      subst this
      exact ⟨keyPlain _ _ (by decide) (by decide), keyPlain _ _ (by decide) (by decide), by decide⟩
  · intro s hs
    simp only [List.mem_cons, List.not_mem_nil, or_false] at hs
    rcases hs with rfl | rfl
    · refine ⟨by intro n hn; rw [List.mem_singleton.mp hn]; decide, ?_⟩
      intro z hz
      have ea : turnOps (Hash.hxhimHash .sumMod 0 2) flushA = [.put (key 16 1) (key 32 104) (num 48 d1), .put (key 16 2) (key 32 104) (num 48 d2)] := by
        decide +kernel
      have eb : turnOps (Hash.hxhimHash .sumMod 0 2) flushB = [.put (key 16 3) (key 32 104) (num 48 d3), .hist 0 (key 96 104), .hist 1 (key 96 104),
        .hist 1 (key 96 105)] := by decide +kernel
      have hz : z = flushA ∨ z = flushB := by simpa using hz
      rcases hz with rfl | rfl
      · rw [ea]; exact hclear (by simp) (by simp)
      · rw [eb]; exact hclear (by simp) (by simp)
    · refine ⟨by intro n hn; rw [List.mem_singleton.mp hn]; decide, ?_⟩
      intro z hz
      rw [List.mem_singleton.mp hz, eget]
      exact hclear (by simp) (by simp)
  · have := e3.2
    revert this
    generalize histAt (placeOf second.layout) _ 1 [104] = r
    intro hr
    cases r with
    | none => cases hr
    | some h => exact congrArg some hr

end Hx.Props

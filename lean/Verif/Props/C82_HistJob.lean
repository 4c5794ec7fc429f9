import Verif.Proofs.HistJob
import Verif.Props.C42_Histogram
import Verif.Props.C48_EndToEnd

/-!
# C82: histograms count what all ranks stored
-/

namespace Hx.Props
open Hx Msg Spec Process Store Results Job Place

/-- C82, partial: the flushes of the ranks overlap in any way, starting with empty datastores and histograms without numbers, and any
of the writes may fail. Every histogram request of every flush has one result, in some order. If the datastore asked has a histogram of
that name, the result is that histogram with the numbers of all PUTs added, of all ranks, that the datastore answered with success
before the request: all of its own flush and of flushes that were finished, the first few of flushes that overlap, none of later
ones. If not, the result is an error. Asynchronous PUTs are `C82_async_partial`, the messages of MPI and Thallium underneath
`C82_mpi_partial` and `C82_thallium_partial`. Missing: histograms that were read back from a datastore, and the condition that no
packet fails with its message (`Overlap`). -/
theorem C82_overlap_partial (cb : Callbacks) (t : Transform) (hash : Bytes → Bytes → Out Int) (place : List Int) (heap : Nat)
    (hplace : place.length ≤ 2 ^ 31) (turns : List Turn) (w w' : World) (log : List Served) (rs : List Results) (hw : EmptyWorld w)
    (ha : Apart place w) (hnew : NewHists w) (hturns : ∀ y ∈ turns, TurnOk cb t hash place y)
    (h : Overlap cb heap place.length w turns log w' rs)
    (hcount : ∀ ds name, histAt place w ds name ≠ none → (loggedNumbers ds name log).length < 2 ^ 64) :
    ∃ f, ToldBy hash turns rs f ∧ ∀ i x r, turns[i]? = some x → rs[i]? = some r →
      ∃ qs, qs.Perm (histOps (turnOps hash x)) ∧
        List.Forall₂ (fun q z => ∃ before y after, HistAnswered hash turns.length f log i q before y after ∧
          HistReturned (histAt place w q.1 q.2.bytes) (loggedNumbers q.1 q.2.bytes before) z) qs
          (r.items.filter (fun y => decide (y.kind = .hist))) :=
  overlap_hists hplace (stores_empty hw) ha hnew hturns h hcount

/-- Once the other flushes with numbers for the histogram are over, all of their numbers were seen. -/
theorem _root_.Hx.Spec.HistAnswered.complete {hash : Bytes → Bytes → Out Int} {n : Nat} {f : Nat → Outcomes} {log before after : List Served}
    {i : Nat} {q : Nat × Blob} {y : Served} (h : HistAnswered hash n f log i q before y after)
    (hfin : ∀ k < n, k ≠ i → Finished log k i ∨ toldNumbers hash q.1 q.2.bytes (f k).puts = []) :
    (loggedNumbers q.1 q.2.bytes before).Perm ((List.range n).flatMap (fun k => toldNumbers hash q.1 q.2.bytes (f k).puts)) := by
  have : (List.range n).flatMap (fun k => toldNumbers hash q.1 q.2.bytes (f k).puts) =
      (List.range n).flatMap (fun k => loggedNumbers q.1 q.2.bytes (partOf k before)) := by
    refine List.flatMap_congr ?_
    intro k hk
    have hk := List.mem_range.mp hk
    by_cases hki : k = i
    · rw [hki, h.seen.own]
    · rcases hfin k hk hki with h1 | h1
      · rw [h.seen.finished k hk h1 hki]
      · have := h.seen.order k hk
        rw [h1] at this
        rw [h1, List.prefix_nil.mp this]
  rw [this]
  exact h.all

/-- C82, partial: a flush that begins when the other flushes that PUT numbers for a histogram are over gets all numbers of the job that
reported success, each exactly once. Missing: as `C82_overlap_partial`. -/
theorem C82_all_partial (cb : Callbacks) (t : Transform) (hash : Bytes → Bytes → Out Int) (place : List Int) (heap : Nat)
    (hplace : place.length ≤ 2 ^ 31) (turns : List Turn) (w w' : World) (log : List Served) (rs : List Results) (hw : EmptyWorld w)
    (ha : Apart place w) (hnew : NewHists w) (hturns : ∀ y ∈ turns, TurnOk cb t hash place y)
    (h : Overlap cb heap place.length w turns log w' rs)
    (hcount : ∀ ds name, histAt place w ds name ≠ none → (loggedNumbers ds name log).length < 2 ^ 64) :
    ∃ f, ToldBy hash turns rs f ∧ ∀ i x r, turns[i]? = some x → rs[i]? = some r →
      ∃ qs, qs.Perm (histOps (turnOps hash x)) ∧
        List.Forall₂ (fun q z =>
          (∀ k < turns.length, k ≠ i → Finished log k i ∨ toldNumbers hash q.1 q.2.bytes (f k).puts = []) →
          ∃ vs : List Dbl, vs.Perm ((List.range turns.length).flatMap (fun k => toldNumbers hash q.1 q.2.bytes (f k).puts)) ∧
            HistReturned (histAt place w q.1 q.2.bytes) vs z) qs
          (r.items.filter (fun y => decide (y.kind = .hist))) := by
  obtain ⟨f, hf, hall⟩ := C82_overlap_partial cb t hash place heap hplace turns w w' log rs hw ha hnew hturns h hcount
  refine ⟨f, hf, fun i x r hi hr => ?_⟩
  obtain ⟨qs, hq, h2⟩ := hall i x r hi hr
  refine ⟨qs, hq, h2.imp ?_⟩
  rintro q z ⟨before, y, after, hans, hret⟩ hfin
  exact ⟨_, hans.complete hfin, hret⟩

/-- C82: a histogram of a job has counted as many numbers as were added. -/
theorem C82_counted (n : Nat) (g : Hist.Gen) (name : Bytes) (hg : ∀ c, g c ≠ some []) (vs : List Dbl) (z : Result)
    (h : HistReturned (some (Hist.create n (some g) name)) vs z) :
    z.status = hxSuccess ∧ ∃ h2, z.hist = some h2 ∧ h2.name = name ∧ h2.count = vs.length := by
  obtain ⟨h1, a, b, h2, h3, h4⟩ := h.found _ rfl
  have hk := addAll_kept hg vs (h := Hist.create n (some g) name) rfl (create_kept n (some g) name) h2
  refine ⟨h1, b, h3, ?_, ?_⟩
  · rw [← h4.1, hk.2.2.2.2]; rfl
  · rw [← h4.2.2.1, hk.2.1]
    show 0 + vs.length = _
    omega

/-- C82: with enough numbers and buckets that ascend, the counts are the numbers in each of the buckets. -/
theorem C82_counts (n : Nat) (g : Hist.Gen) (name : Bytes) (vs left : List Dbl) (z : Result) (hn : 0 < n) (hl : n ≤ vs.length)
    (hg : g (some (vs.take n)) = some left) (hasc : Ascending left)
    (h : HistReturned (some (Hist.create n (some g) name)) vs z) :
    z.status = hxSuccess ∧ ∃ h2, z.hist = some h2 ∧ h2.count = vs.length ∧ h2.buckets = some (left ++ [rightEnd left vs]) ∧
      h2.counts = some (tally left vs) := by
  obtain ⟨h1, a, b, h2, h3, h4⟩ := h.found _ rfl
  obtain ⟨c, c1, c2, -, c4, c5⟩ := C42_counts g n name vs left hn hl hg hasc
  rw [c1] at h2
  cases h2
  exact ⟨h1, b, h3, by rw [← h4.2.2.1, c2], by rw [← h4.2.2.2.2.2.1, c4], by rw [← h4.2.2.2.2.2.2, c5]⟩

/-! ### Examples -/

namespace C82Ex

def net (rank : Nat) : Net :=
  Layout.net ⟨2, 1, 1, 1⟩ rank (.thallium (thalliumEndpoints ⟨2, 1, 1, 1⟩ rank [])) id (fun _ => List.Perm.refl _) 4096
    (fun n => List.replicate n 0)

/-- Both datastores have a histogram named `h` that makes its bucket with the second number. The third write of LevelDB fails. -/
def world : World :=
  ⟨fun _ => [⟨.level, [], true, [([104], Hist.create 2 (some exGen) [104])], 0, 0, 0⟩], fun n => decide (n ≠ 2), 0⟩

/-- A flush of `rank`; there are two ranks with one datastore each. -/
def turn (rank : Nat) (calls : List Queue.Call) : Turn := ⟨⟨Hash.hxhimHash .sumMod rank 2, 10, 0, 2⟩, net rank, calls⟩

def key (a : Nat) (b : UInt8) : Blob := ⟨a, [b], 7⟩
def num (a : Nat) (v : Dbl) : Blob := ⟨a, Hist.dblBytes v, tDouble⟩
def put (s : UInt8) (v : Dbl) : Queue.Call := .put ⟨key 16 s, key 32 104, num 48 v, 1⟩
def hist (rs : Int) (b : UInt8) : Queue.Call := .hist ⟨rs, key 96 b⟩

/-- Rank 0 PUTs two numbers, one for each datastore. -/
def flushA : Turn := turn 0 [put 1 d1, put 2 d2]
/-- Rank 1 PUTs a number and asks both datastores, and for a histogram that does not exist. -/
def flushB : Turn := turn 1 [put 3 d3, hist 0 104, hist 1 104, hist 1 105]

/-- The requests in the order they are executed; names are sent without their types. The histogram of datastore 1 is asked after the PUT of rank 0, that of datastore 0
after a PUT of rank 0 that fails. -/
def order : List (Nat × Int × Req) :=
  let item (at' : Nat → Nat) (s : UInt8) (v : Dbl) : PutItem := ⟨key (at' 16) s, 16, key (at' 32) 104, 32, num (at' 48) v⟩
  [(0, 1, ⟨0, 1, .put [item (fun _ => 4096) 1 d1]⟩),
    (1, 1, ⟨1, 1, .put [item id 3 d3]⟩),
    (0, 0, ⟨0, 0, .put [item id 2 d2]⟩),
    (1, 0, ⟨1, 0, .hist [⟨4096, [104], 0⟩]⟩),
    (1, 1, ⟨1, 1, .hist [key 96 104, key 96 105]⟩)]

/-- Execute requests one after the other. -/
def play : World → List (Nat × Int × Req) → Out (List Served × World)
  | w, [] => .ok ([], w)
  | w, (i, rank, req) :: l =>
    World.serve exCbF 100 w rank req >>= fun x =>
    play x.1 l >>= fun y => .ok (⟨i, rank, req, x.2⟩ :: y.1, y.2)

theorem play_executes (l : List (Nat × Int × Req)) : ∀ {w w' : World} {log : List Served}, play w l = .ok (log, w') →
    executes exCbF 100 w log w' ∧ log.map (·.turn) = l.map (·.1) ∧ log.map (·.req) = l.map (·.2.2) := by
  induction l with
  | nil => intro w w' log h; cases h; exact ⟨rfl, rfl, rfl⟩
  | cons a l ih =>
    intro w w' log h
    obtain ⟨i, rank, req⟩ := a
    simp only [play] at h
    obtain ⟨x, hx, h⟩ := ok_iff.mp h
    obtain ⟨y, hy, h⟩ := ok_iff.mp h
    cases h
    obtain ⟨h1, h2, h3⟩ := ih (show play x.1 l = .ok (y.1, y.2) from hy)
    exact ⟨⟨x.1, hx, h1⟩, by simp [h2], by simp [h3]⟩

/-- The results of a flush with its part of the log, if all of it is used. -/
def outcome (log : List Served) (i : Nat) (x : Turn) : Out Results :=
  Queue.calls x.cfg true (Queue.Queues.init 2) x.calls >>= fun q =>
  flush x.net replay (partOf i log) q >>= fun y => if y.1.isEmpty then .ok y.2.1 else .err

theorem outcome_turnOn {log : List Served} {i : Nat} {x : Turn} {r : Results} (h : outcome log i x = .ok r) :
    turnOn 2 (partOf i log) x r := by
  unfold outcome at h
  obtain ⟨q, hq, h⟩ := ok_iff.mp h
  obtain ⟨y, hy, h⟩ := ok_iff.mp h
  split at h
  · rename_i he
    cases h
    refine ⟨_, q, y.2.2, sameOrder_refl _, hq, ?_⟩
    rw [hy]
    have : y.1 = [] := by simpa using he
    rw [← this]
  · cases h

/-- Statuses of all results, and how many numbers the histograms have, followed by the counts of their buckets. -/
def shown (r : Results) : List (Int × List Nat) :=
  r.items.map (fun r => (r.status, match r.hist with | some h => h.count :: h.counts.getD [] | none => []))

def all : Out (List (List (Int × List Nat)) × List (List Dbl)) :=
  play world order >>= fun x =>
  outcome x.1 0 flushA >>= fun a =>
  outcome x.1 1 flushB >>= fun b => .ok ([shown a, shown b], [loggedNumbers 0 [104] x.1, loggedNumbers 1 [104] x.1])

theorem all_eq : all = .ok ([[(hxSuccess, []), (hxError, [])],
    [(hxSuccess, []), (hxSuccess, [0]), (hxSuccess, [2, 2]), (hxError, [])]], [[], [d1, d3]]) := by
  decide +kernel

def puts : ReqBody → Nat | .put l => l.length | _ => 0

theorem contributed_length (name : Bytes) (q : ReqBody) (r : Option ResBody) : (contributed name q r).length ≤ puts q := by
  unfold contributed
  split
  · refine (List.length_filterMap_le _ _).trans ?_
    rw [List.length_zip]
    exact Nat.min_le_left _ _
  · exact Nat.zero_le _

theorem logged_length (ds : Nat) (name : Bytes) (log : List Served) :
    (loggedNumbers ds name log).length ≤ ((log.map (·.req)).map (fun q => puts q.body)).sum := by
  unfold loggedNumbers
  induction log with
  | nil => exact Nat.le_refl _
  | cons y l ih =>
    have := contributed_length name y.req.body (some y.res.body)
    rw [List.filter_cons, List.map_cons, List.map_cons, List.sum_cons]
    split
    · rw [List.flatMap_cons, List.length_append]; omega
    · omega

theorem keyPlain (a : Nat) (b : UInt8) (ha : a ≠ 0) (ha' : a < 2 ^ 64) : PlainSent (key a b) :=
  ⟨⟨by show tByte < 256; decide, by show 1 < 2 ^ 64; decide, by intro t h; exact absurd h (by show intType tByte ≠ some t; intro h; cases h),
    by show tByte ≠ tFloat ∧ tByte ≠ tDouble; decide⟩, ha, ha', Or.inl (by simp [key])⟩

theorem dblBytes_length (v : Dbl) : (Hist.dblBytes v).length = 8 := length_leBytes _ _

theorem put_ok (s p : UInt8) (v : Dbl) : OpOk exCbF (plainTransform 0x2f 0x3a exCopyFloat) 4096 (.put (key 16 s) (key 32 p) (num 48 v)) := by
  have sent : ∀ a b, a ≠ 0 → a < 2 ^ 64 → KeyOk exCbF (plainTransform 0x2f 0x3a exCopyFloat) (key a b) ∧ Sent exCbF 4096 (key a b) := by
    intro a b h1 h2
    have := (C48_default_callbacks (neg := 0x2f) (pos := 0x3a) ⟨by decide, by decide⟩ exCopyFloat 4096 (by decide) (.del (key a b) (key a b))
      ⟨keyPlain a b h1 h2, keyPlain a b h1 h2⟩).1
    exact ⟨this.1.1, this.2.1⟩
  obtain ⟨k1, s1⟩ := sent 16 s (by decide) (by decide)
  obtain ⟨k2, s2⟩ := sent 32 p (by decide) (by decide)
  have hne : Hist.dblBytes v ≠ [] := fun h => by have := dblBytes_length v; rw [h] at this; cases this
  refine ⟨⟨k1, k2, ⟨rfl, by show tDouble < 2 ^ 32; decide, ?_⟩⟩, ⟨s1, s2, ⟨⟨?_, by show tDouble < 2 ^ 32; decide, by show 48 < 2 ^ 64; decide⟩,
    by show 48 ≠ 0; decide⟩, ?_⟩, hne, ?_⟩
  · intro e he; cases he; rfl
  · show (Hist.dblBytes v).length < 2 ^ 64
    rw [dblBytes_length]; decide
  · show exCbF.encode ⟨if Hist.dblBytes v = [] then 0 else 4096, Hist.dblBytes v, tDouble⟩ = _
    rw [if_neg hne]; rfl
  · show (Hist.dblBytes v).length < 2 ^ 64
    rw [dblBytes_length]; decide

theorem turn_ok (rank : Nat) (hr : rank < 2) (calls : List Queue.Call)
    (hall : ∀ o ∈ turnOps (Hash.hxhimHash .sumMod 0 2) (turn rank calls),
      (∃ s p v, o = Op.put (key 16 s) (key 32 p) (num 48 v)) ∨ ∃ rs b, o = Op.hist rs (key 96 b)) :
    TurnOk exCbF (plainTransform 0x2f 0x3a exCopyFloat) (Hash.hxhimHash .sumMod 0 2) ((List.range 2).map (Layout.dsToRank ⟨2, 1, 1, 1⟩))
      (turn rank calls) := by
  have h := C48_thallium_sessions (neg := 0x2f) (pos := 0x3a) ⟨by decide, by decide⟩ exCopyFloat ⟨2, 1, 1, 1⟩ (by decide)
    ⟨rfl, Or.inl (Nat.le_refl _)⟩ .sumMod (by decide) rank (by omega) [] (Or.inl rfl) id (fun _ => List.Perm.refl _) 4096 (by decide)
    (fun n => List.replicate n 0) 10 0 2 (by decide) [] (fun c hc => absurd hc (by simp))
  refine ⟨h.sameHash, h.samePlace, h.routed, h.maxOps, h.rank, h.address, ?_⟩
  intro o ho
  rcases hall o ho with ⟨s, p, v, rfl⟩ | ⟨rs, b, rfl⟩
  · exact put_ok s p v
  · exact ⟨⟨by show 1 < 2 ^ 64; decide, by show 7 < 2 ^ 32; decide, by show 96 < 2 ^ 64; decide⟩, by show 96 ≠ 0; decide⟩

theorem turns_ok : ∀ y ∈ [flushA, flushB], TurnOk exCbF (plainTransform 0x2f 0x3a exCopyFloat) (Hash.hxhimHash .sumMod 0 2)
    ((List.range 2).map (Layout.dsToRank ⟨2, 1, 1, 1⟩)) y := by
  have ea : turnOps (Hash.hxhimHash .sumMod 0 2) flushA = [.put (key 16 1) (key 32 104) (num 48 d1), .put (key 16 2) (key 32 104) (num 48 d2)] := by
    decide +kernel
  have eb : turnOps (Hash.hxhimHash .sumMod 0 2) flushB = [.put (key 16 3) (key 32 104) (num 48 d3), .hist 0 (key 96 104), .hist 1 (key 96 104),
    .hist 1 (key 96 105)] := by decide +kernel
  intro y hy
  simp only [List.mem_cons, List.not_mem_nil, or_false] at hy
  rcases hy with rfl | rfl
  · refine turn_ok 0 (by decide) _ ?_
    show ∀ o ∈ turnOps (Hash.hxhimHash .sumMod 0 2) flushA, _
    rw [ea]
    intro o ho
    simp only [List.mem_cons, List.not_mem_nil, or_false] at ho
    rcases ho with rfl | rfl <;> exact Or.inl ⟨_, _, _, rfl⟩
  · refine turn_ok 1 (by decide) _ ?_
    show ∀ o ∈ turnOps (Hash.hxhimHash .sumMod 0 2) flushB, _
    rw [eb]
    intro o ho
    simp only [List.mem_cons, List.not_mem_nil, or_false] at ho
    rcases ho with rfl | rfl | rfl | rfl
    · exact Or.inl ⟨_, _, _, rfl⟩
    all_goals exact Or.inr ⟨_, _, rfl⟩

theorem world_empty : EmptyWorld world := by
  intro rank d hd
  rw [List.mem_singleton.mp hd]
  exact ⟨rfl, rfl⟩

theorem world_apart : Apart ((List.range 2).map (Layout.dsToRank ⟨2, 1, 1, 1⟩)) world := by
  intro rank ds ds' h1 h2 _
  have get : ∀ ds : Nat, ((List.range 2).map (Layout.dsToRank ⟨2, 1, 1, 1⟩))[ds]? = some rank → (ds : Int) = rank := by
    intro ds h
    match ds with
    | 0 => cases h; rfl
    | 1 => cases h; rfl
    | n + 2 => cases h
  have := get ds h1
  have := get ds' h2
  omega

theorem world_new : NewHists world := by
  intro rank d hd name h hf
  rw [List.mem_singleton.mp hd] at hf
  have hn : name = [104] ∧ h = Hist.create 2 (some exGen) [104] := by
    simp only [Store.find] at hf
    by_cases hn : [104] = name
    · subst hn; simpa using hf.symm
    · simp [hn] at hf
  obtain ⟨rfl, rfl⟩ := hn
  refine ⟨2, exGen, rfl, exGen_ne, by decide, by decide, ?_⟩
  intro vs h' he
  by_cases hl : vs.length < 2
  · rw [Hist.addAll_caching 2 _ _ vs hl] at he
    cases he
    show 0 < 2 ^ 64
    decide
  · obtain ⟨h2, e2, -, c2, -⟩ := C42_counts exGen 2 [104] vs [0] (by decide) (by omega) rfl ⟨by decide, by decide, by decide⟩
    rw [e2] at he
    cases he
    rw [c2]
    decide

end C82Ex
open C82Ex

/-- Two flushes that overlap and meet the hypotheses of the theorems above. The histogram of datastore 1 has the numbers of both ranks;
that of datastore 0 has none, since the PUT of rank 0 failed. -/
example : ∃ log w' rs, Overlap exCbF 100 2 world [flushA, flushB] log w' rs ∧ EmptyWorld world ∧ NewHists world ∧
    Apart ((List.range 2).map (Layout.dsToRank ⟨2, 1, 1, 1⟩)) world ∧
    (∀ y ∈ [flushA, flushB], TurnOk exCbF (plainTransform 0x2f 0x3a exCopyFloat) (Hash.hxhimHash .sumMod 0 2)
      ((List.range 2).map (Layout.dsToRank ⟨2, 1, 1, 1⟩)) y) ∧
    (∀ ds name, histAt ((List.range 2).map (Layout.dsToRank ⟨2, 1, 1, 1⟩)) world ds name ≠ none →
      (loggedNumbers ds name log).length < 2 ^ 64) ∧
    log.map (·.turn) = [0, 1, 0, 1, 1] ∧ loggedNumbers 0 [104] log = [] ∧ loggedNumbers 1 [104] log = [d1, d3] ∧
    rs.map shown = [[(hxSuccess, []), (hxError, [])],
      [(hxSuccess, []), (hxSuccess, [0]), (hxSuccess, [2, 2]), (hxError, [])]] := by
  have h := all_eq
  unfold C82Ex.all at h
  obtain ⟨x, hx, h⟩ := ok_iff.mp h
  obtain ⟨a, ha, h⟩ := ok_iff.mp h
  obtain ⟨b, hb, h⟩ := ok_iff.mp h
  obtain ⟨h1, h2, h5⟩ := C82Ex.play_executes _ (show C82Ex.play world C82Ex.order = .ok (x.1, x.2) from hx)
  have h2 : x.1.map (·.turn) = [0, 1, 0, 1, 1] := h2
  have h3 := Prod.mk.inj (Out.ok.inj h)
  have h4 := h3.2
  simp only [List.cons.injEq, and_true] at h4
  refine ⟨x.1, x.2, [a, b], ⟨h1, ?_, rfl, ?_⟩, world_empty, world_new, world_apart, turns_ok, ?_, h2, h4.1, h4.2, h3.1⟩
  · intro y hy
    have : y.turn ∈ x.1.map (·.turn) := List.mem_map.mpr ⟨y, hy, rfl⟩
    rw [h2] at this
    show y.turn < 2
    simp only [List.mem_cons, List.not_mem_nil, or_false] at this
    omega
  · intro i y r hi hr
    match i with
    | 0 => cases hi; cases hr; exact C82Ex.outcome_turnOn ha
    | 1 => cases hi; cases hr; exact C82Ex.outcome_turnOn hb
    | i + 2 => cases hi
  · intro ds name _
    have := logged_length ds name x.1
    rw [h5] at this
    exact lt_of_le_of_lt this (by decide)

end Hx.Props

import Verif.Proofs.DsStats
import Verif.Props.C12_Store

/-!
# C71: the statistics of a datastore

What `GetStats` and the messages of a datastore that is destroyed say about the packets it has
processed (src/datastore/datastore.cpp:30-83,338-366).
-/

namespace Hx.Props
open Hx Msg Spec Store DsStats

/-! ## Counting -/

/-- Counting never changes what a datastore does: it processes a history with its statistics as
the same datastore of the other properties without them. -/
theorem C71_counting_is_harmless (cb : Callbacks) (heap : Nat) (d d' : DS) (st : Stats) (hist : List (Machine × ReqBody)) :
    (∃ st' rs, run cb heap d st hist = .ok (d', st', rs)) ↔
      DS.run cb heap d (hist.map fun x => (x.1.wr, x.2)) = .ok d' := run_iff

/-- The events of PUT packets count the PUTs of the packets, and the bytes of the keys and values of
those that could be encoded. -/
theorem C71_puts (cb : Callbacks) (heap : Nat) (d d' : DS) (st st' : Stats) (hist : List (Machine × ReqBody))
    (rs : List (Option ResBody)) (hu : d.usable = true) (h : run cb heap d st hist = .ok (d', st', rs)) :
    total Event.count st'.puts = total Event.count st.puts + (putsIn (hist.map Prod.snd)).length ∧
    total Event.size st'.puts = total Event.size st.puts + ((putsIn (hist.map Prod.snd)).map (storedBytes cb)).sum :=
  run_puts hu h

/-- What is called GETs are the GETs, the histograms asked for and the records GETOPs returned. -/
theorem C71_gets (cb : Callbacks) (heap : Nat) (d d' : DS) (st st' : Stats) (hist : List (Machine × ReqBody))
    (rs : List (Option ResBody)) (hu : d.usable = true) (h : run cb heap d st hist = .ok (d', st', rs)) :
    total Event.count st'.gets = total Event.count st.gets + (getsIn (hist.map Prod.snd)).length +
      (namesIn (hist.map Prod.snd)).length + (recsIn rs).length := run_gets hu h

/-- The times are those of the packets, and of each GETOP. -/
theorem C71_times (cb : Callbacks) (heap : Nat) (d d' : DS) (st st' : Stats) (hist : List (Machine × ReqBody))
    (rs : List (Option ResBody)) (hu : d.usable = true) (h : run cb heap d st hist = .ok (d', st', rs)) :
    total Event.time st'.puts = total Event.time st.puts + (hist.map putTime).sum ∧
    total Event.time st'.gets = total Event.time st.gets + (hist.map getTime).sum := run_event_times hu h

/-- Bytes of GETs (full claim: the keys and the objects found): with the in-memory datastore the
keys, with LevelDB nothing. Objects are not counted (`C71_get_bytes_false`). -/
theorem C71_get_bytes_partial (cb : Callbacks) (heap : Nat) (d d' : DS) (st st' : Stats) (hist : List (Machine × ReqBody))
    (rs : List (Option ResBody)) (hu : d.usable = true) (h : run cb heap d st hist = .ok (d', st', rs))
    (hg : ∀ x ∈ hist, (∀ l, x.2 ≠ .getop l) ∧ ∀ l, x.2 ≠ .hist l) :
    total Event.size st'.gets = total Event.size st.gets + if d.backend = .mem then
      ((getsIn (hist.map Prod.snd)).map fun x => (keyBytes cb x.subject x.predicate).getD 0).sum else 0 :=
  run_get_bytes hu h hg

/-- `GetStats` gives the nanoseconds, and the numbers of events: one for a packet, one for each item
of a GETOP packet. -/
theorem C71_getstats (cb : Callbacks) (heap : Nat) (d d' : DS) (hist : List (Machine × ReqBody))
    (st' : Stats) (rs : List (Option ResBody)) (hu : d.usable = true)
    (h : run cb heap d ⟨[], []⟩ hist = .ok (d', st', rs)) :
    getStats st' = (total Event.time st'.puts, putEvents (hist.map fun x => (x.1.wr, x.2)),
      total Event.time st'.gets, getEvents (hist.map fun x => (x.1.wr, x.2))) := by
  have hs := C49_statistics cb heap d d' _ hu ((C71_counting_is_harmless cb heap d d' ⟨[], []⟩ hist).1 ⟨_, _, h⟩)
  obtain ⟨h1, h2⟩ := run_lengths h
  have h3 : st'.puts.length = putEvents (hist.map fun x => (x.1.wr, x.2)) := by
    have := hs.1; simp only [List.length_nil] at h1; omega
  have h4 : st'.gets.length = getEvents (hist.map fun x => (x.1.wr, x.2)) := by
    have := hs.2.1; simp only [List.length_nil] at h2; omega
  rw [getStats, h3, h4]; rfl

namespace C71Ex

def m (wr : Bool) (time : Nat) : Machine := ⟨wr, time, fun i => (i + 1, 10 * i)⟩
def get (s p : Bytes) : GetItem := ⟨exB s, 1, exB p, 2, tByte⟩
def none : Stats := ⟨[], []⟩

/-- Three PUTs in one packet, one of a value no callback takes, two GETs, a histogram that does not
exist and a GETOP. -/
def hist : List (Machine × ReqBody) :=
  [(m true 5, .put [exPut [1] [2] [3, 4, 5], ⟨exB [1], 1, ⟨100, [2], tFloat⟩, 2, exB [3]⟩, exPut [6] [] [7]]),
   (m true 7, .get [get [1] [2], get [9] []]), (m true 9, .hist [exB [104]]),
   (m true 11, .getop [⟨goFirst, Blob.null, Blob.null, 0, 3⟩])]

end C71Ex
open C71Ex

example : (exDs .mem []).usable = true ∧ ∃ d' st' rs, run exCb 100 (exDs .mem []) none hist = .ok (d', st', rs) ∧
    st' = ⟨[⟨5, 3, 28 + 25⟩], [⟨7, 2, 41⟩, ⟨9, 1, 0⟩, ⟨1, 2, 0⟩]⟩ ∧ getStats st' = (5, 1, 17, 3) ∧
    total Event.count st'.puts = 0 + (putsIn (hist.map Prod.snd)).length :=
  ⟨rfl, _, _, _, rfl, rfl, rfl, rfl⟩

example : (hist.map putTime).sum = 5 ∧ (hist.map getTime).sum = 17 := ⟨rfl, rfl⟩

/-- `GetStats` does not give the numbers of PUTs and GETs: a packet of three PUTs is one, a packet
of two GETs is one. -/
theorem C71_getstats_false : ∃ (hist : List (Machine × ReqBody)) (d' : DS) (st' : Stats) (rs : List (Option ResBody)),
    run exCb 100 (exDs .mem []) none hist = .ok (d', st', rs) ∧
    (putsIn (hist.map Prod.snd)).length = 3 ∧ (getStats st').2.1 = 1 ∧
    (getsIn (hist.map Prod.snd)).length = 2 ∧ (getStats st').2.2.2 = 1 :=
  ⟨C71Ex.hist.take 2, _, _, _, rfl, rfl, rfl, rfl, rfl⟩

theorem exCb_bytes (s : Bytes) : exCb.encode (exB s) = .ok (some s) ∧ exCb.decode ⟨s, tByte⟩ = .ok (some s) := ⟨rfl, rfl⟩

/-- Whatever object is stored and found again, its bytes are not counted: LevelDB counts nothing, the
in-memory datastore the 21 bytes of the key. -/
theorem C71_get_bytes_false (o : Bytes) : ∀ b : Backend, ∃ (d' : DS) (st' : Stats) (r : GetRes),
    run exCb 100 (exDs b []) none [(m true 1, .put [exPut [1] [2] o]), (m true 1, .get [C71Ex.get [1] [2]])] =
      .ok (d', st', [some (.put [putReply (exPut [1] [2] o) dsSuccess]), some (.get [r])]) ∧
    r.status = dsSuccess ∧ r.object.bytes = o ∧
    total Event.size st'.gets = if b = .mem then 21 else 0 := by
  have hv : ∀ o : Bytes, removeType (appendType o tByte) = .ok (o, tByte) := by
    intro o
    have h4 : (leBytes 4 tByte).length = 4 := length_leBytes _ _
    unfold removeType appendType
    rw [if_neg (by simp)]
    simp only [List.length_append, h4, Nat.add_sub_cancel, List.take_left, List.drop_left]
    rfl
  have hg : getItem exCb 100 [(Key.spToKey ⟨[1], tByte⟩ ⟨[2], tByte⟩, appendType o tByte)] (C71Ex.get [1] [2]) =
      .ok ⟨dsSuccess, echo 1 (exB [1]), echo 2 (exB [2]), ⟨copyAddr 100 o.length, o, tByte⟩⟩ := by
    unfold getItem
    have hk : encodeKey exCb (C71Ex.get [1] [2]).subject (C71Ex.get [1] [2]).predicate =
        .ok (some (Key.spToKey ⟨[1], tByte⟩ ⟨[2], tByte⟩)) := rfl
    simp only [hk, Out.ok_bind]
    have hf : find [(Key.spToKey ⟨[1], tByte⟩ ⟨[2], tByte⟩, appendType o tByte)] (Key.spToKey ⟨[1], tByte⟩ ⟨[2], tByte⟩) =
        some (appendType o tByte) := rfl
    simp only [hf, hv, Out.ok_bind, (exCb_bytes o).2]
    rfl
  intro b
  have h1 : (exDs b []).operate exCb 100 true (.put [exPut [1] [2] o]) =
      .ok ({ exDs b [(Key.spToKey ⟨[1], tByte⟩ ⟨[2], tByte⟩, appendType o tByte)] with puts := 1 },
        some (.put [putReply (exPut [1] [2] o) dsSuccess])) := by cases b <;> rfl
  have h2 : ∀ k, DS.operate exCb 100 true
      { exDs b [(Key.spToKey ⟨[1], tByte⟩ ⟨[2], tByte⟩, appendType o tByte)] with puts := k } (.get [C71Ex.get [1] [2]]) =
      .ok ({ exDs b [(Key.spToKey ⟨[1], tByte⟩ ⟨[2], tByte⟩, appendType o tByte)] with puts := k, gets := 1 },
        some (.get [⟨dsSuccess, echo 1 (exB [1]), echo 2 (exB [2]), ⟨copyAddr 100 o.length, o, tByte⟩⟩])) := by
    intro k
    simp only [DS.operate, getAll, hg, Out.ok_bind, exDs, if_true]
  have h3 : ∃ st1 : Stats, record exCb 100 (m true 1) (exDs b []) none (.put [exPut [1] [2] o])
      (some (.put [putReply (exPut [1] [2] o) dsSuccess])) = .ok st1 ∧ st1.gets = [] := ⟨_, rfl, rfl⟩
  obtain ⟨st1, h3, h4⟩ := h3
  have h5 : getSize b exCb 100 [(Key.spToKey ⟨[1], tByte⟩ ⟨[2], tByte⟩, appendType o tByte)] [] [C71Ex.get [1] [2]] =
      .ok (if b = .mem then 21 else 0) := by
    have hk : encodeKey exCb (C71Ex.get [1] [2]).subject (C71Ex.get [1] [2]).predicate =
        .ok (some (Key.spToKey ⟨[1], tByte⟩ ⟨[2], tByte⟩)) := rfl
    simp only [getSize, hg, hk, Out.ok_bind]
    cases b <;> rfl
  refine ⟨{ exDs b [(Key.spToKey ⟨[1], tByte⟩ ⟨[2], tByte⟩, appendType o tByte)] with puts := 1, gets := 1 },
    { st1 with gets := [⟨1, 1, if b = .mem then 21 else 0⟩] },
    ⟨dsSuccess, echo 1 (exB [1]), echo 2 (exB [2]), ⟨copyAddr 100 o.length, o, tByte⟩⟩, ?_, rfl, rfl, ?_⟩
  · unfold run
    simp only [m] at h3 ⊢
    rw [h1, Out.ok_bind, h3, Out.ok_bind]
    unfold run
    have h2' := h2 1
    simp only [exDs] at h2' ⊢
    simp only [h2', Out.ok_bind, record, if_true, h5, h4, List.nil_append, run]
    rfl
  · cases b <;> rfl

/-- Bytes that LevelDB failed to write are counted nevertheless: all PUTs fail, nothing is stored,
and yet the events have as many PUTs and bytes as had it worked. -/
theorem C71_failed_false : ∃ (l : List PutItem) (d' : DS) (st' : Stats) (rs : List StatusItem),
    run exCb 100 (exDs .level []) none [(m false 1, .put l)] = .ok (d', st', [some (.put rs)]) ∧
    (∀ r ∈ rs, r.status = dsError) ∧ rs.length = 2 ∧ d'.db = [] ∧ total Event.count st'.puts = 2 ∧ total Event.size st'.puts = 53 :=
  ⟨[exPut [1] [2] [3], exPut [3] [4] [5, 6]], _, _, _, rfl, by decide, rfl, rfl, rfl, rfl⟩

/-! ## Rates and the messages -/

theorem units_getElem (i : Nat) (h : i < 6) : units[i]? = some (Config.str (unitName i)) := by
  rcases i with _ | _ | _ | _ | _ | _ | i <;> first | rfl | omega

/-- A rate that is not too fast is displayed as a number of a unit, which it exceeds unless it is
bytes, and of which it has at most 1024. -/
theorem C71_rate (size : Nat) (time : ℚ) (ht : time ≠ 0) (h : ¬ TooFast size time) :
    ∃ i, i < 6 ∧ hrSize size time =
        .ok (Fp.fixed 3 (size / time / 1024 ^ i) ++ Config.str (unitName i) ++ Config.str "/sec") ∧
      size / time ≤ 1024 ^ (i + 1) ∧ (0 < i → 1024 ^ i < size / time) := by
  obtain ⟨j, h1, h2, h3, h4⟩ := unitLoop_num 6 0 (size / time)
  have hj : j < 6 := by
    by_contra hj
    have : j = 6 := by omega
    subst this
    exact h (Or.inr ⟨ht, h4 (by omega)⟩)
  refine ⟨j, hj, ?_, h3 hj, h4⟩
  unfold hrSize
  have hp : perTime size time = .num (size / time) := by unfold perTime; rw [if_neg ht]
  have hl : units.length = 6 := rfl
  simp only [hp, hl, h2, Nat.zero_add, units_getElem j hj, text]

/-- No bytes in no time are `-nan` bytes. -/
theorem C71_rate_nothing : hrSize 0 0 = .ok (Config.str "-nanB/sec") := by decide +kernel

/-- The array of units is read past its end exactly when the rate is too fast, which includes any
number of bytes within one tick of the clock. -/
theorem C71_rate_ub (size : Nat) (time : ℚ) : hrSize size time = .ub ↔ TooFast size time := by
  constructor
  · intro h
    by_contra hc
    by_cases ht : time = 0
    · subst ht
      by_cases hs : size = 0
      · subst hs; rw [C71_rate_nothing] at h; cases h
      · exact hc (Or.inl ⟨rfl, hs⟩)
    · obtain ⟨i, _, h1, _⟩ := C71_rate size time ht hc
      rw [h1] at h; cases h
  · intro h
    have hl : units.length = 6 := rfl
    have hn : units[6]? = Option.none := rfl
    unfold hrSize
    rcases h with ⟨rfl, hs⟩ | ⟨ht, hr⟩
    · have hp : perTime size 0 = .inf := by unfold perTime; rw [if_pos rfl, if_neg hs]
      simp only [hp, hl, unitLoop_inf, Nat.zero_add, hn]
    · have hp : perTime size time = .num (size / time) := by unfold perTime; rw [if_neg ht]
      obtain ⟨j, h1, h2, h3, h4⟩ := unitLoop_num 6 0 (size / time)
      have hj : j = 6 := by
        by_contra hj
        have hj : j < 6 := by omega
        have := h3 hj
        have hle : (1024 : ℚ) ^ (j + 1) ≤ 1024 ^ 6 := pow_le_pow_right₀ (by norm_num) (by omega)
        linarith
      subst hj
      simp only [hp, hl, h2, Nat.zero_add, hn]

/-- The message of a datastore that is destroyed has the sums of the events; without operations no
rate is displayed. -/
theorem C71_closing (rank id : Nat) (name : Bytes) (l : List Event) :
    closing rank id name l =
      (let head := Config.str "Rank " ++ Elen.toDec rank ++ Config.str " Datastore " ++ Elen.toDec id ++ Config.str ": " ++
        Elen.toDec (total Event.count l) ++ Config.str " " ++ name ++ Config.str "s (" ++ Elen.toDec (total Event.size l) ++
        Config.str " bytes) in " ++ Fp.fixed 3 (seconds l) ++ Config.str " seconds"
      if total Event.count l = 0 then .ok head
      else hrSize (total Event.size l) (seconds l) >>= fun r =>
        .ok (head ++ Config.str " (" ++ text (perTime (total Event.count l) (seconds l)) ++ Config.str " " ++ name ++
          Config.str "s/sec, " ++ r ++ Config.str ")")) := by
  unfold closing
  rw [totals_eq]

/-- Destroying a datastore is undefined exactly when something was counted too fast. -/
theorem C71_closing_ub (rank id : Nat) (name : Bytes) (l : List Event) :
    closing rank id name l = .ub ↔ total Event.count l ≠ 0 ∧ TooFast (total Event.size l) (seconds l) := by
  rw [C71_closing, ← C71_rate_ub]
  by_cases h : total Event.count l = 0
  · simp [h]
  · simp only [h, if_false, ne_eq, not_false_eq_true, true_and]
    cases hrSize (total Event.size l) (seconds l) with
    | ok r => simp
    | err => simp
    | ub => simp

/-- A datastore whose only packet took less than a tick of its clock is destroyed with an access out
of bounds. -/
theorem C71_destroy_ub : ∃ (d' : DS) (st' : Stats) (rs : List (Option ResBody)),
    run exCb 100 (exDs .mem []) none [(m true 0, .put [exPut [1] [2] [3]])] = .ok (d', st', rs) ∧
    closing 0 0 (Config.str "PUT") st'.puts = .ub :=
  ⟨_, _, _, rfl, by
    rw [C71_closing_ub]
    refine ⟨by decide, Or.inl ⟨?_, by decide⟩⟩
    show ((0 : Nat) : ℚ) / 1000000000 = 0
    norm_num⟩

end Hx.Props

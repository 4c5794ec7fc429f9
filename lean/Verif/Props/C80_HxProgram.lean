import Verif.Proofs.HxProgram
import Verif.Proofs.Stats
import Verif.Proofs.AsyncJob
import Verif.Props.C59_Doubles

/-!
# C80 The example program `hx.c`

Every rank PUTs doubles under names that no other rank has. Its GETs before the PUTs are flushed find nothing. Its GETs after the PUTs
were flushed find the doubles, up to the digits that are stored, if the PUTs reported success, and nothing otherwise.
-/

namespace Hx.Props
open Hx Msg Spec Process Store Results Job Place SpoGen HxProgram Elen Fp

/-! ## Names (`spo_gen.c`) -/

/-- C80: buffers of 100 bytes are enough for all names. -/
theorem C80_names (word : Bytes) (hw : word = subject ∨ word = predicate ∨ word = SpoGen.object) (rank : Int)
    (hr : -2 ^ 31 ≤ rank ∧ rank < 2 ^ 31) (count : Nat) (hc : count ≤ 2 ^ 64) (i : Nat) (hi : i < count) :
    ∃ x, (spoFixed count bufsize word rank)[i]? = some x ∧ x.read = .ok (name word rank i) ∧ x.len = (name word rank i).length := by
  refine ⟨SpoGen.fixed bufsize (name word rank i), ?_, ?_, rfl⟩
  · unfold spoFixed
    rw [List.getElem?_map, List.getElem?_range hi]
    rfl
  · apply fixed_read
    have := name_length (word := word) (i := i) hr (by omega)
    have e : word.length ≤ 9 := by rcases hw with rfl | rfl | rfl <;> decide
    unfold bufsize
    omega

/-- C80: no two ranks, and no two triples of a rank, have a name in common. -/
theorem C80_distinct (word : Bytes) (r r' : Int) (i i' : Nat) : name word r i = name word r' i' ↔ r = r' ∧ i = i' :=
  ⟨name_inj, by rintro ⟨rfl, rfl⟩; rfl⟩

/-- C80: buffers one byte too short lose the last character, so that different names become the same; with buffers that are shorter
than the name, what is behind the buffer is read. -/
theorem C80_short_buffer_false :
    ((SpoGen.fixed (name subject 0 10).length (name subject 0 10)).read =
      (SpoGen.fixed (name subject 0 11).length (name subject 0 11)).read ∧ name subject 0 10 ≠ name subject 0 11) ∧
    ∀ (max : Nat) (text : Bytes), 0 < max → max < text.length → (SpoGen.fixed max text).read = .ub := by
  refine ⟨⟨by decide +kernel, by decide +kernel⟩, ?_⟩
  intro max text h0 h
  unfold SpoGen.fixed Made.read
  rw [if_neg]
  simp only [List.length_append, List.length_replicate, List.length_take]
  omega

/-- C80: random lengths are between the bounds. The lower bound one above the upper one is a division by zero. -/
theorem C80_random (min max r : Nat) (hm : max < 2 ^ 64) :
    (min ≤ max → max - min + 1 < 2 ^ 64 → ∀ byte, ∃ x, random min max r byte = .ok x ∧ min ≤ x.len ∧ x.len ≤ max ∧ x.buf.length = x.len) ∧
    (min = max + 1 → min < 2 ^ 64 → ∀ byte, random min max r byte = .ub) := by
  constructor
  · intro h h' byte
    have e : (max + 2 ^ 64 - min + 1) % 2 ^ 64 = max - min + 1 := by omega
    have hlt := Nat.mod_lt r (show 0 < max - min + 1 by omega)
    have e2 : (r % (max - min + 1) + min) % 2 ^ 64 = r % (max - min + 1) + min := Nat.mod_eq_of_lt (by omega)
    refine ⟨⟨(List.range (r % (max - min + 1) + min)).map byte, r % (max - min + 1) + min⟩, ?_, ?_, ?_, ?_⟩
    · unfold random randomLen
      simp only [e]
      rw [if_neg (by omega), e2]
      rfl
    · show min ≤ r % (max - min + 1) + min; omega
    · show r % (max - min + 1) + min ≤ max; omega
    · simp
  · intro h h' byte
    unfold random randomLen
    have e : (max + 2 ^ 64 - min + 1) % 2 ^ 64 = 0 := by omega
    simp only [e]
    rfl

/-! ## Flushes of one kind -/

/-- Only the queues of PUTs may differ, and not in their number. -/
private structure Framed (q q' : Queue.Queues) : Prop where
  puts : q'.puts.length = q.puts.length
  gets : q'.gets = q.gets
  getops : q'.getops = q.getops
  dels : q'.dels = q.dels
  hists : q'.hists = q.hists

private theorem Framed.refl (q : Queue.Queues) : Framed q q := ⟨rfl, rfl, rfl, rfl, rfl⟩

private theorem Framed.trans {q q' q'' : Queue.Queues} (h : Framed q q') (h' : Framed q' q'') : Framed q q'' :=
  ⟨h'.puts.trans h.puts, h'.gets.trans h.gets, h'.getops.trans h.getops, h'.dels.trans h.dels, h'.hists.trans h.hists⟩

private theorem enqueue_length {α : Type} {c : Queue.Cfg} {size : α → Nat} {k : Nat} {x : α} {id : Int} {qs qs' : List (List (List α))}
    (h : Queue.enqueue c size k x id qs = .ok qs') : qs'.length = qs.length := by
  unfold Queue.enqueue at h
  split at h
  · cases h
  · obtain ⟨y, -, h⟩ := ok_iff.mp h
    cases h
    simp

private theorem put_frame (c : Queue.Cfg) (s p o : Blob) (mask : Nat) (l : List Nat) (q : Queue.Queues) {q' : Queue.Queues} {b : Bool}
    (h : Queue.putLoop c s p o mask l q = .ok (q', b)) :
    Framed q q' := by
  induction l generalizing q with
  | nil => cases h; exact Framed.refl _
  | cons perm l ih =>
    unfold Queue.putLoop at h
    split at h
    · exact ih _ h
    · split at h
      · cases h; exact Framed.refl _
      · obtain ⟨id, -, h⟩ := ok_iff.mp h
        split at h
        · cases h; exact Framed.refl _
        · obtain ⟨puts, e, h⟩ := ok_iff.mp h
          have hrest := ih _ h
          exact ⟨hrest.puts.trans (enqueue_length e), hrest.gets, hrest.getops, hrest.dels, hrest.hists⟩

private theorem puts_frame {c : Queue.Cfg} {l : List Queue.Call} (hl : ∀ x ∈ l, ∃ a, x = .put a) {q q' : Queue.Queues}
    (h : Queue.calls c true q l = .ok q') : Framed q q' := by
  induction l generalizing q with
  | nil => cases h; exact Framed.refl _
  | cons x l ih =>
    obtain ⟨⟨q1, b⟩, h1, h2⟩ := ok_iff.mp h
    have hrest := ih (fun y hy => hl y (by simp [hy])) h2
    obtain ⟨a, rfl⟩ := hl x (by simp)
    have : Framed q q1 := by
      unfold Queue.call Queue.exec at h1
      simp only [if_true] at h1
      split at h1
      · exact put_frame _ _ _ _ _ _ _ h1
      · cases h1; exact Framed.refl _
    exact this.trans hrest

/-- GETs change nothing but the queues of GETs, whatever else is queued. -/
private theorem gets_frame {c : Queue.Cfg} {l : List Queue.Call} (hl : ∀ x ∈ l, ∃ a, x = .get a) {q q' : Queue.Queues}
    (h : Queue.calls c true q l = .ok q') (r : Queue.Queues) (hr : r.gets = q.gets) :
    Queue.calls c true r l = .ok { r with gets := q'.gets } ∧ q'.gets.length = q.gets.length := by
  induction l generalizing q r with
  | nil =>
    cases h
    refine ⟨?_, rfl⟩
    show Out.ok r = _
    rw [← hr]
  | cons x l ih =>
    obtain ⟨⟨q1, b⟩, h1, h2⟩ := ok_iff.mp h
    obtain ⟨a, rfl⟩ := hl x (by simp)
    have : (∃ b, Queue.call c true r (.get a) = .ok ({ r with gets := q1.gets }, b)) ∧ q1.gets.length = q.gets.length := by
      unfold Queue.call Queue.exec at h1 ⊢
      simp only [if_true] at h1 ⊢
      split at h1
      · rename_i hg
        rw [if_pos hg]
        unfold Queue.getImpl at h1 ⊢
        obtain ⟨id, e1, h1⟩ := ok_iff.mp h1
        rw [e1, Out.ok_bind]
        split at h1
        · rename_i hid
          cases h1
          rw [if_pos hid, ← hr]
          exact ⟨⟨_, rfl⟩, rfl⟩
        · rename_i hid
          obtain ⟨g, e2, h1⟩ := ok_iff.mp h1
          cases h1
          rw [if_neg hid, hr, e2]
          exact ⟨⟨_, rfl⟩, enqueue_length e2⟩
      · rename_i hg
        cases h1
        rw [if_neg hg, ← hr]
        exact ⟨⟨_, rfl⟩, rfl⟩
    obtain ⟨⟨b, hb⟩, hlen⟩ := this
    obtain ⟨i1, i2⟩ := ih (fun y hy => hl y (by simp [hy])) h2 { r with gets := q1.gets } rfl
    refine ⟨?_, i2.trans hlen⟩
    show Queue.call c true r (.get a) >>= _ = _
    rw [hb, Out.ok_bind, i1]

section phases

variable {cb : Callbacks} {heap total : Nat} {cfg : Queue.Cfg} {net : Net} {puts gets : List Queue.Call} {qp qg : Queue.Queues}

/-- C80: the three flushes of a rank in the program, with PUTs that are queued while GETs are flushed, do what flushes of just the GETs,
just the PUTs and just the GETs do: they leave the same in the range servers, and have the same results. The flush of GETs leaves the
PUTs where they are. -/
theorem C80_phases (hputs : ∀ x ∈ puts, ∃ a, x = .put a) (hgets : ∀ x ∈ gets, ∃ a, x = .get a)
    (hp : Queue.calls cfg true (Queue.Queues.init total) puts = .ok qp) (hg : Queue.calls cfg true (Queue.Queues.init total) gets = .ok qg)
    (w w1 : World) (r1 : Results) (q1 : Queue.Queues) (h1 : early cb heap total cfg net w puts gets = .ok (w1, r1, q1)) :
    (∃ r, turn cb heap total w ⟨cfg, net, gets⟩ = .ok (w1, r) ∧ r.items = r1.items) ∧ q1.puts = qp.puts ∧
    ∀ w' w2 r2 q2, middle cb heap net w' q1 = .ok (w2, r2, q2) →
      (∃ r, turn cb heap total w' ⟨cfg, net, puts⟩ = .ok (w2, r) ∧ r.items = r2.items) ∧
      ∀ w'' w3 r3 q3, late cb heap cfg net w'' q2 gets = .ok (w3, r3, q3) →
        ∃ r, turn cb heap total w'' ⟨cfg, net, gets⟩ = .ok (w3, r) ∧ r.items = r3.items := by
  obtain ⟨f0, f1, f2, f3, f4⟩ := puts_frame hputs hp
  obtain ⟨hg', hlen⟩ := gets_frame hgets hg (Queue.Queues.init total) rfl
  have eg : qg = { Queue.Queues.init total with gets := qg.gets } := by rw [hg] at hg'; injection hg'
  have hgp := (gets_frame hgets hg qp f1).1
  have empty : Results.create.items = [] := rfl
  -- a flush of nothing but GETs
  have only : ∀ (w w1 : World) (r1 : Results) (qs : List (List (List GetItem))),
      process net (World.serve cb heap) .get w qg.gets = .ok (w1, r1, qs) →
      ∃ r, turn cb heap total w ⟨cfg, net, gets⟩ = .ok (w1, r) ∧ r.items = r1.items := by
    intro w w1 r1 qs h
    apply Exists.intro
    constructor
    · unfold turn
      simp only
      rw [hg, Out.ok_bind, eg]
      unfold flush flushPuts flushGets flushGetOps flushDels flushHists
      simp only [Queue.Queues.init, AsyncJob.process_nothing, Out.ok_bind, h]
      rfl
    · simp [append_items, empty]
  unfold early at h1
  rw [hp, Out.ok_bind, hgp, Out.ok_bind] at h1
  unfold flushGets at h1
  obtain ⟨⟨wa, ra, qa⟩, e1, h1⟩ := ok_iff.mp h1
  simp only [Out.ok.injEq, Prod.mk.injEq] at h1
  obtain ⟨rfl, rfl, rfl⟩ := h1
  refine ⟨only _ _ _ _ e1, rfl, ?_⟩
  intro w' w2 r2 q2 h2
  unfold middle flushPuts at h2
  obtain ⟨⟨wb, rb, qb⟩, e2, h2⟩ := ok_iff.mp h2
  simp only [Out.ok.injEq, Prod.mk.injEq] at h2
  obtain ⟨rfl, rfl, rfl⟩ := h2
  refine ⟨?_, ?_⟩
  · apply Exists.intro
    constructor
    · unfold turn
      simp only
      rw [hp, Out.ok_bind]
      unfold flush flushPuts flushGets flushGetOps flushDels flushHists
      simp only [e2, Out.ok_bind, f1, f2, f3, f4, Queue.Queues.init, AsyncJob.process_nothing]
      rfl
    · simp [append_items, empty]
  · intro w'' w3 r3 q3 h3
    have same : ∀ {α : Type} (qs : List (List (List α))), qs.length = total → qs.map (fun _ => ([] : List (List α))) = List.replicate total [] := by
      intro α qs h
      rw [List.map_const', h]
    have hqa : qa = List.replicate total [] := by
      rw [show qa = _ from Stats.process_queues e1]
      exact same _ (by rw [hlen]; simp [Queue.Queues.init])
    have hqb : qb = List.replicate total [] := by
      rw [show qb = _ from Stats.process_queues e2]
      exact same _ (by rw [f0]; simp [Queue.Queues.init])
    unfold late at h3
    rw [(gets_frame hgets hg _ (show _ = (Queue.Queues.init total).gets from hqa)).1, Out.ok_bind] at h3
    unfold flush flushPuts flushGets flushGetOps flushDels flushHists at h3
    simp only [hqb, f2, f3, f4, Queue.Queues.init, AsyncJob.process_nothing, Out.ok_bind] at h3
    cases e3 : process net (World.serve cb heap) .get w'' qg.gets with
    | err => rw [e3] at h3; cases h3
    | ub => rw [e3] at h3; cases h3
    | ok z =>
    simp only [e3, AsyncJob.process_nothing, Out.ok_bind, Out.ok.injEq, Prod.mk.injEq] at h3
    obtain ⟨rfl, rfl, rfl⟩ := h3
    obtain ⟨r, t1, t2⟩ := only _ _ _ _ e3
    exact ⟨r, t1, by rw [t2]; simp [append_items, empty]⟩

end phases

/-! ## Jobs -/

section jobs

variable {n L : Nat} {lib : Libm} {neg pos : UInt8} {fprec dprec : Nat} {t' : Transform} {hash : Bytes → Bytes → Out Int} {place : List Int}
  {heap addr : Nat} {junk : Nat → Bytes} {w : World} {session : Nat → Queue.Cfg × Net} {m : Nat → Memory} {count : Nat}

/-- C80 with MPI, partial: the program runs on ranks of any kind that a job may have (`idleTurns`), with doubles that are finite and neither
extremely large nor extremely small. When all ranks are finished, whatever the order of the steps of all of them was and whichever writes
failed, every rank was told nothing but errors by its first GETs, and its last GETs have what its PUTs put, as far as these reported
success. Missing: as `C57_safe_partial`; asynchronous PUTs (C77, C81). -/
theorem C80_mpi_partial (eager : Nat → Bool) (hidle : MpiJob n (defaultCallbacks neg pos (codec lib neg pos fprec dprec)) t' hash place heap addr junk w (idleTurns session n))
    (hl : LibmOk lib) (hs : Symbols neg pos) (hp : 2 ≤ dprec ∧ dprec < 2 ^ 63) (hh : ∀ s p, ∃ d : Int, hash s p = .ok d ∧ 0 ≤ d)
    (hrank : ∀ r < n, (session r).2.rank = r) (hm : ∀ r, Placed (m r)) (hd : ∀ r i, GoodDouble ((m r).doubles i))
    (hcount : count ≤ 2 ^ 64) (hn : n ≤ 2 ^ 31) (hfew : HasHists w → 3 * n * count < 2 ^ 64) :
    ∃ turns t, program session m count n = .ok turns ∧
      MpiJob n (defaultCallbacks neg pos (codec lib neg pos fprec dprec)) t hash place heap addr junk w turns ∧
      ∀ (acts : Nat → FlushActs n), JobActs place.length turns acts → ∀ (ls : List (Mpi.Label n L)) (st : Mpi.St n L Parcel Reply World),
        Mpi.run (mpiSys (defaultCallbacks neg pos (codec lib neg pos fprec dprec)) heap addr junk eager) (Mpi.init w (jobProg turns acts)) ls = some st → Spec.Mpi.Finished st →
        ∀ c : Fin n, ∃ first wrote second told,
          clientResults addr ((turnsOf turns c).map acts) ((st.client c).results.map (·.res)) = .ok [first, wrote, second] ∧
          GetsBack count dprec (fun i => ⟨(m c).subjectAt i, name subject c i, tByte⟩) (fun i => ⟨(m c).predicateAt i, name predicate c i, tByte⟩)
            (fun i => ⟨(m c).doubleAt i, (m c).doubles i, tDouble⟩) first wrote second told := by
  have hturns := turns_ok (session := session) (fprec := fprec) (dprec := dprec) (t' := t') hl hs hp.1 hp.2 hh hm hd hcount hn
    (fun x hx => ⟨hidle.flushes x hx, hidle.runs x hx⟩)
  have hjob : MpiJob n (defaultCallbacks neg pos (codec lib neg pos fprec dprec)) (numTransform neg pos (codec lib neg pos fprec dprec)) hash place
      heap addr junk w (turnsOfAll session m count n) := by
    refine ⟨hidle.address, hidle.count, hidle.ranks, hidle.fresh, hidle.prepared, fun x hx => (hturns x hx).1, fun x hx => (hturns x hx).2,
      no_getops hh hm hd, fun h => ⟨whole_numbers hh hm hd, few_operations hh hm hd (hfew h)⟩, ?_⟩
    intro x hx
    obtain ⟨r, hr, hx⟩ := mem_turns hx
    have h := hidle.mpi ⟨(session r).1, (session r).2, []⟩ (List.mem_map.mpr ⟨r, List.mem_range.mpr hr, rfl⟩)
    rcases hx with rfl | rfl <;> exact ⟨h.1, h.2, h.3, h.4⟩
  refine ⟨_, _, program_ok session m hcount hn, hjob, ?_⟩
  intro acts hacts ls st h hf c
  obtain ⟨log, rs, h1, h2, -, h3, f, f1, f2⟩ := C78_mpi_partial eager hjob acts hacts ls st h hf
  have hc := c.isLt
  have hlen3 : (turnsOfAll session m count n).length = n + n + n := by unfold turnsOfAll; simp; omega
  have hres : ∀ k < n + n + n, rs[k]? = some (rs[k]?.getD Results.create) := by
    intro k hk
    rw [List.getElem?_eq_getElem (by rw [h1.results, hlen3]; exact hk)]
    rfl
  have e0 := hres c.val (by omega)
  have e1 := hres (n + c.val) (by omega)
  have e2 := hres (n + n + c.val) (by omega)
  have ht0 := turns_early session m count hc
  have ht1 := turns_middle session m count hc
  have ht2 := turns_late session m count hc
  obtain ⟨told, hg⟩ := rank_sees (t := numTransform neg pos (codec lib neg pos fprec dprec)) hh hm (fun r i => good_ne (hd r i)) h1.results f1 f2
    (fun r hr i hi => (accepted hl hs hp.1 hp.2 hm hd hcount hn r hr i hi).1) dprec
    (fun r hr i hi => (accepted hl hs hp.1 hp.2 hm hd hcount hn r hr i hi).2) hc
    (h3 _ _ _ _ ht0 ht1 rfl (by omega)) (h3 _ _ _ _ ht1 ht2 rfl (by omega)) e0 e1 e2
  refine ⟨_, _, _, told, ?_, hg⟩
  have : [c.val, n + c.val, n + n + c.val].filterMap (fun i => rs[i]?) =
      [rs[c.val]?.getD Results.create, rs[n + c.val]?.getD Results.create, rs[n + n + c.val]?.getD Results.create] := by
    rw [List.filterMap_cons_some e0, List.filterMap_cons_some e1, List.filterMap_cons_some e2, List.filterMap_nil]
  rw [h2 c, turns_of_rank session m count hrank c, this]

/-- C80 with Thallium, partial: as `C80_mpi_partial`. Missing: as `C63_safe_partial`; asynchronous PUTs (C77, C81). -/
theorem C80_thallium_partial (threads : Nat) (async : Bool) (hidle : ThalliumJob n (defaultCallbacks neg pos (codec lib neg pos fprec dprec)) t' hash place heap addr junk w (idleTurns session n))
    (hl : LibmOk lib) (hs : Symbols neg pos) (hp : 2 ≤ dprec ∧ dprec < 2 ^ 63) (hh : ∀ s p, ∃ d : Int, hash s p = .ok d ∧ 0 ≤ d)
    (hrank : ∀ r < n, (session r).2.rank = r) (hm : ∀ r, Placed (m r)) (hd : ∀ r i, GoodDouble ((m r).doubles i))
    (hcount : count ≤ 2 ^ 64) (hn : n ≤ 2 ^ 31) (hfew : HasHists w → 3 * n * count < 2 ^ 64) :
    ∃ turns t, program session m count n = .ok turns ∧
      ThalliumJob n (defaultCallbacks neg pos (codec lib neg pos fprec dprec)) t hash place heap addr junk w turns ∧
      ∀ (acts : Nat → FlushActs n), JobActs place.length turns acts → ∀ (ls : List (Rpc.Label n)) (st : Rpc.St n Parcel Reply World),
        Rpc.run (rpcSys (defaultCallbacks neg pos (codec lib neg pos fprec dprec)) heap addr junk threads async) (Rpc.init w (jobProg turns acts)) ls = some st → Spec.Rpc.Finished st →
        ∀ c : Fin n, ∃ first wrote second told,
          clientResults addr ((turnsOf turns c).map acts) ((st.client c).results.map (·.res)) = .ok [first, wrote, second] ∧
          GetsBack count dprec (fun i => ⟨(m c).subjectAt i, name subject c i, tByte⟩) (fun i => ⟨(m c).predicateAt i, name predicate c i, tByte⟩)
            (fun i => ⟨(m c).doubleAt i, (m c).doubles i, tDouble⟩) first wrote second told := by
  have hturns := turns_ok (session := session) (fprec := fprec) (dprec := dprec) (t' := t') hl hs hp.1 hp.2 hh hm hd hcount hn
    (fun x hx => ⟨hidle.flushes x hx, hidle.runs x hx⟩)
  have hjob : ThalliumJob n (defaultCallbacks neg pos (codec lib neg pos fprec dprec)) (numTransform neg pos (codec lib neg pos fprec dprec)) hash place
      heap addr junk w (turnsOfAll session m count n) := by
    refine ⟨hidle.address, hidle.count, hidle.ranks, hidle.fresh, hidle.prepared, fun x hx => (hturns x hx).1, fun x hx => (hturns x hx).2,
      no_getops hh hm hd, fun h => ⟨whole_numbers hh hm hd, few_operations hh hm hd (hfew h)⟩, ?_⟩
    intro x hx
    obtain ⟨r, hr, hx⟩ := mem_turns hx
    have h := hidle.thallium ⟨(session r).1, (session r).2, []⟩ (List.mem_map.mpr ⟨r, List.mem_range.mpr hr, rfl⟩)
    rcases hx with rfl | rfl <;> exact ⟨h.1, h.2, h.3, h.4⟩
  refine ⟨_, _, program_ok session m hcount hn, hjob, ?_⟩
  intro acts hacts ls st h hf c
  obtain ⟨log, rs, h1, h2, -, h3, f, f1, f2⟩ := C78_thallium_partial threads async hjob acts hacts ls st h hf
  have hc := c.isLt
  have hlen3 : (turnsOfAll session m count n).length = n + n + n := by unfold turnsOfAll; simp; omega
  have hres : ∀ k < n + n + n, rs[k]? = some (rs[k]?.getD Results.create) := by
    intro k hk
    rw [List.getElem?_eq_getElem (by rw [h1.results, hlen3]; exact hk)]
    rfl
  have e0 := hres c.val (by omega)
  have e1 := hres (n + c.val) (by omega)
  have e2 := hres (n + n + c.val) (by omega)
  have ht0 := turns_early session m count hc
  have ht1 := turns_middle session m count hc
  have ht2 := turns_late session m count hc
  obtain ⟨told, hg⟩ := rank_sees (t := numTransform neg pos (codec lib neg pos fprec dprec)) hh hm (fun r i => good_ne (hd r i)) h1.results f1 f2
    (fun r hr i hi => (accepted hl hs hp.1 hp.2 hm hd hcount hn r hr i hi).1) dprec
    (fun r hr i hi => (accepted hl hs hp.1 hp.2 hm hd hcount hn r hr i hi).2) hc
    (h3 _ _ _ _ ht0 ht1 rfl (by omega)) (h3 _ _ _ _ ht1 ht2 rfl (by omega)) e0 e1 e2
  refine ⟨_, _, _, told, ?_, hg⟩
  have : [c.val, n + c.val, n + n + c.val].filterMap (fun i => rs[i]?) =
      [rs[c.val]?.getD Results.create, rs[n + c.val]?.getD Results.create, rs[n + n + c.val]?.getD Results.create] := by
    rw [List.filterMap_cons_some e0, List.filterMap_cons_some e1, List.filterMap_cons_some e2, List.filterMap_nil]
  rw [h2 c, turns_of_rank session m count hrank c, this]

end jobs

/-! ## Three ranks -/

namespace C80Ex

noncomputable def floats : FloatCodec := codec exLibm 0x2f 0x3a 8 16

/-- Addresses of two arrays of pointers, and the double 3/2 everywhere. -/
def memory (_ : Nat) : Memory := ⟨fun i => 4096 + i % 2, fun i => 8192 + i % 2, fun i => 16384 + i % 2 * 8, fun _ => [0, 0, 0, 0, 0, 0, 0xf8, 0x3f]⟩

theorem good (r i : Nat) : GoodDouble ((memory r).doubles i) :=
  ⟨rfl, 3 / 2, show (numberIn tDouble [0, 0, 0, 0, 0, 0, 0xf8, 0x3f]).value = some (3 / 2) by decide +kernel, .inr (by unfold Moderate; decide +kernel)⟩

theorem placed (r : Nat) : Placed (memory r) := by
  refine ⟨?_, ?_, ?_⟩ <;> intro i <;> simp only [memory] <;> omega

def session (r : Nat) : Queue.Cfg × Net := (⟨Hash.hxhimHash .ber r 3, 10, 0, 3⟩, ThalliumEx.net r)

theorem idle_job : ThalliumJob 3 (defaultCallbacks 0x2f 0x3a floats) (plainTransform 0x2f 0x3a floats) (Hash.hxhimHash .ber 0 3)
    ((List.range 3).map (Layout.dsToRank ⟨3, 1, 1, 1⟩)) 100 4096 (fun n => List.replicate n 0) C78Ex.failing (idleTurns session 3) :=
  C63_sessions (neg := 0x2f) (pos := 0x3a) ⟨by decide, by decide⟩ floats ⟨3, 1, 1, 1⟩ (by decide) ⟨rfl, Or.inl (Nat.le_refl _)⟩ (by decide)
    (by decide) .ber (by decide) (fun s p => ⟨_, rfl⟩) [] (Or.inl rfl) id (fun _ => List.Perm.refl _) 100 4096 (by decide) (by decide)
    (fun n => List.replicate n 0) 10 0 3 (by decide) (by decide) C78Ex.failing C78Ex.failing_empty.1 C78Ex.failing_empty.2.prepared
    ((List.range 3).map (fun r => (r, []))) (fun x hx => by obtain ⟨r, h1, rfl⟩ := List.mem_map.mp hx; exact List.mem_range.mp h1)
    (fun x hx c hc => by obtain ⟨r, h1, rfl⟩ := List.mem_map.mp hx; cases hc)
    (by rintro ⟨x, hx, c, hc, -⟩; obtain ⟨r, h1, rfl⟩ := List.mem_map.mp hx; cases hc)
    (fun h => absurd h C78Ex.failing_empty.2.noHists)

/-- Three ranks with two doubles each, on LevelDB that does not write what the second request asks for: the program comes to its end, and
then every rank has got back what it was told to be written. -/
example : ∃ turns acts ls st, program session memory 2 3 = .ok turns ∧ JobActs 3 turns acts ∧
    Rpc.run (rpcSys (defaultCallbacks 0x2f 0x3a floats) 100 4096 (fun n => List.replicate n 0) 1 true)
      (Rpc.init C78Ex.failing (jobProg turns acts)) ls = some st ∧ Spec.Rpc.Finished st ∧
    ∀ c : Fin 3, ∃ first wrote second told,
      clientResults 4096 ((turnsOf turns c).map acts) ((st.client c).results.map (·.res)) = .ok [first, wrote, second] ∧
      GetsBack 2 16 (fun i => ⟨4096 + i % 2, name subject c i, tByte⟩) (fun i => ⟨8192 + i % 2, name predicate c i, tByte⟩)
        (fun i => ⟨16384 + i % 2 * 8, [0, 0, 0, 0, 0, 0, 0xf8, 0x3f], tDouble⟩) first wrote second told := by
  obtain ⟨turns, t, h1, h2, h3⟩ := C80_thallium_partial (count := 2) 1 true idle_job exLibm_ok ⟨by decide, by decide⟩ ⟨by decide, by decide⟩
    (fun s p => ⟨_, rfl, (C25_in_range .ber 0 3 (by decide) (by decide) s p _ rfl).1⟩) (fun r _ => rfl) placed good (by decide) (by decide) (fun _ => by decide)
  obtain ⟨acts, h4⟩ := C63_acts h2
  obtain ⟨-, ⟨ls, st, h5, h6, -⟩, -⟩ := C63_finishes_partial 1 (by decide) true h2 acts h4 [] _ rfl
  exact ⟨turns, acts, ls, st, h1, h4, h5, h6, h3 acts h4 ls st h5 h6⟩

/-- The names of the first triples of rank 12. -/
example : name subject 12 0 = Config.str "subject-12-0" ∧ name predicate (-1) 10 = Config.str "predicate--1-10" := by decide +kernel

/-- Lengths between 3 and 5. -/
example : random 3 5 7 (fun _ => 65) = .ok ⟨[65, 65, 65, 65], 4⟩ := by decide +kernel

end C80Ex

end Hx.Props

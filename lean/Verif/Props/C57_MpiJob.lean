import Verif.Proofs.JobFew
import Verif.Props.C55_Overlap
import Verif.Props.C56_Mpi

/-!
# C57: flushes of ranks that use MPI

Flushes (C29, C55) as messages (C56), for any interleaving of the steps of all clients and listeners.
-/

namespace Hx.Props
open Hx Msg Spec Process Store Results Job Place

variable {n L : Nat}

variable {cb : Callbacks} {t : Transform} {hash : Bytes → Bytes → Out Int} {place : List Int} {heap addr : Nat} {junk : Nat → Bytes}
  {w : World} {turns : List Turn}

theorem _root_.Hx.Spec.MpiJob.gives {cb : Store.Callbacks} {t : Transform} {hash : Bytes → Bytes → Out Int} {place : List Int} {heap addr : Nat}
    {junk : Nat → Bytes} {w : World} {turns : List Turn} (h : MpiJob n cb t hash place heap addr junk w turns) :
    ∀ x ∈ turns, Gives ⟨HasGetOps hash turns, HasHists w⟩ (turnOps hash x) :=
  fun x hx => ⟨fun hG => h.given hG x hx, fun hG => (h.numbers hG).1 x hx⟩

/-- C57: every rank has a sequence of rounds of requests to send, which does not depend on responses. -/
theorem C57_acts (hjob : MpiJob n cb t hash place heap addr junk w turns) :
    ∃ acts : Nat → FlushActs n, JobActs place.length turns acts :=
  job_planned hjob.count hjob.ranks hjob.flushes hjob.runs hjob.gives hjob.aboard

/-- A request without an entry in the endpoint group is left out of its round, and nothing else changes. -/
theorem C57_unreachable (net : Net) (turn : Nat) (ranks : Endpoints) (l : ReqList) :
    remoteRound (n := n) net turn ranks l = remoteRound net turn ranks (l.filter (fun x => (ranks.lookup x.2.dst).isSome)) := by
  induction l with
  | nil => rfl
  | cons x l ih =>
    cases hx : ranks.lookup x.2.dst with
    | none =>
      rw [List.filter_cons_of_neg (by simp [hx]), ← ih]
      conv_lhs => unfold remoteRound
      rw [hx]
    | some rank =>
      rw [List.filter_cons_of_pos (by simp [hx])]
      unfold remoteRound
      rw [hx, ih]

/-- C57, at any time, partial: no buffer is too small, and no listener fails. Missing: the GETOPs that
`SimpleOp` leaves out, histograms whose bucket generator fails or that were read back, and as `C78_gets_partial`: writes may fail. -/
theorem C57_safe_partial (eager : Nat → Bool) (hjob : MpiJob n cb t hash place heap addr junk w turns)
    (acts : Nat → FlushActs n) (hacts : JobActs place.length turns acts) (ls : List (Mpi.Label n L))
    (st : Mpi.St n L Parcel Reply World)
    (h : Mpi.run (mpiSys cb heap addr junk eager) (Mpi.init w (jobProg turns acts)) ls = some st) : st.bad = false := by
  obtain ⟨l, hp⟩ := planned_of_acts hjob.count hjob.ranks hjob.flushes hjob.runs hjob.gives hjob.aboard hacts
  exact (C56_faithful _ (Fit cb t hash place ⟨HasGetOps hash turns, HasHists w⟩) w _ ⟨hjob.prepared.ready _, _, stores_empty hjob.fresh, fun _ _ _ _ h => by cases h⟩ (job_answers hp hjob.address.1 hjob.address.2)
    (job_distinct hp) ls st h).good

/-- C57: the histograms of a job have no more than 2^64 - 1 numbers when all clients are finished. -/
theorem C57_few (eager : Nat → Bool) (hjob : MpiJob n cb t hash place heap addr junk w turns)
    (acts : Nat → FlushActs n) (hacts : JobActs place.length turns acts) (ls : List (Mpi.Label n L))
    (st : Mpi.St n L Parcel Reply World)
    (h : Mpi.run (mpiSys cb heap addr junk eager) (Mpi.init w (jobProg turns acts)) ls = some st) (hf : Spec.Mpi.Finished st)
    (hh : HasHists w) : FewNumbers st.world := by
  obtain ⟨l, hp⟩ := planned_of_acts hjob.count hjob.ranks hjob.flushes hjob.runs hjob.gives hjob.aboard hacts
  exact job_few hp hjob.prepared.2.1 (hjob.numbers hh).2 (C56_complete _ (Fit cb t hash place ⟨HasGetOps hash turns, HasHists w⟩) w _
    ⟨hjob.prepared.ready _, _, stores_empty hjob.fresh, fun _ _ _ _ h => by cases h⟩ (job_answers hp hjob.address.1 hjob.address.2)
    (job_distinct hp) ls st h hf)

/-- C57, partial: when all clients are finished, there is an order of the requests in which the range
servers executed them one after the other (`Overlap`, so all of C55 holds), and what each rank makes of
the messages it received are the results of its flushes with that order. The order respects time: if at
some moment flush `i` has returned and flush `j` has not begun, all requests of `i` are before those of
`j`; and the same for two flushes of one rank. Missing: as `C57_safe_partial`. -/
theorem C57_partial (eager : Nat → Bool) (hjob : MpiJob n cb t hash place heap addr junk w turns)
    (acts : Nat → FlushActs n) (hacts : JobActs place.length turns acts) (ls : List (Mpi.Label n L))
    (st : Mpi.St n L Parcel Reply World)
    (h : Mpi.run (mpiSys cb heap addr junk eager) (Mpi.init w (jobProg turns acts)) ls = some st) (hf : Spec.Mpi.Finished st) :
    ∃ log rs, Overlap cb heap place.length w turns log st.world rs ∧
      (∀ c, clientResults addr ((turnsOf turns c).map acts) ((st.client c).results.map (·.res)) =
        .ok ((turnsOf turns c).filterMap (fun i => rs[i]?))) ∧
      (∀ i j ls₁ ls₂ m, ls = ls₁ ++ ls₂ →
        Mpi.run (mpiSys cb heap addr junk eager) (Mpi.init w (jobProg turns acts)) ls₁ = some m →
        Over turns acts m i → Waiting turns acts m j → Spec.Finished log i j) ∧
      ∀ i j x y, turns[i]? = some x → turns[j]? = some y → x.net.rank = y.net.rank → i < j → Spec.Finished log i j := by
  obtain ⟨l, hp⟩ := planned_of_acts hjob.count hjob.ranks hjob.flushes hjob.runs hjob.gives hjob.aboard hacts
  have hw : Fit cb t hash place ⟨HasGetOps hash turns, HasHists w⟩ w := ⟨hjob.prepared.ready _, _, stores_empty hjob.fresh, fun _ _ _ _ h => by cases h⟩
  have hans := job_answers (eager := eager) hp hjob.address.1 hjob.address.2
  have hcomplete := C56_complete _ (Fit cb t hash place ⟨HasGetOps hash turns, HasHists w⟩) w _ hw hans (job_distinct hp) ls st h hf
  obtain ⟨P, hP, hturn, rs, h1, h2⟩ := mpi_overlap hp hjob.address.1 hjob.address.2 (all_turns hjob.aboard) hw hcomplete
    (C57_few eager hjob acts hacts ls st h hf)
  have key : ∀ i j ls₁ ls₂ m, ls = ls₁ ++ ls₂ →
        Mpi.run (mpiSys cb heap addr junk eager) (Mpi.init w (jobProg turns acts)) ls₁ = some m →
        Over turns acts m i → Waiting turns acts m j → Spec.Finished (P.map Prod.snd) i j := by
    intro i j ls₁ ls₂ m hls hm hi hj
    subst hls
    have hlast : Mpi.run (mpiSys cb heap addr junk eager) m ls₂ = some st := by
      rw [Mpi.run_append, hm] at h
      exact h
    exact mpi_finished hp (C56_rounds _ (Fit cb t hash place ⟨HasGetOps hash turns, HasHists w⟩) w _ hw hans (job_distinct hp) ls₁ m hm) (Mpi.run_log ls₂ hlast)
      hcomplete.requests hP hturn hi hj
  refine ⟨P.map Prod.snd, rs, h1, h2, key, ?_⟩
  intro i j x y hi hj hxy hij
  obtain ⟨c, hc⟩ := all_turns hjob.aboard i (List.getElem?_eq_some_iff.mp hi).1
  have hd : j ∈ turnsOf turns c := by
    obtain ⟨x', e1, e2⟩ := mem_turnsOf.mp hc
    rw [hi] at e1
    cases e1
    exact mem_turnsOf.mpr ⟨y, hj, by rw [← hxy]; exact e2⟩
  obtain ⟨ls₁, ls₂, m, m1, m2, -, m3, m4⟩ := program_order h hf hc hd hij
  exact key i j ls₁ ls₂ m m1 m2 m3 m4

/-- C57, partial: whatever has happened so far can be continued until all flushes have returned, if the
library copies all messages, or every round is one request, or a rank has a listener for every client but
one. Missing: all other cases, in which it is false (C56). -/
theorem C57_finishes_partial (eager : Nat → Bool) (hjob : MpiJob n cb t hash place heap addr junk w turns)
    (acts : Nat → FlushActs n) (hacts : JobActs place.length turns acts)
    (hrelaxed : (0 < L ∧ ∀ len, eager len = true) ∨ (0 < L ∧ ∀ c r, Mpi.Act.remote r ∈ jobProg turns acts c → r.length ≤ 1) ∨ n ≤ L + 1)
    (ls : List (Mpi.Label n L)) (st : Mpi.St n L Parcel Reply World)
    (h : Mpi.run (mpiSys cb heap addr junk eager) (Mpi.init w (jobProg turns acts)) ls = some st) :
    ls.length ≤ Spec.Mpi.stepBound (jobProg turns acts) ∧
    ∃ more st', Mpi.run (mpiSys cb heap addr junk eager) st more = some st' ∧ Spec.Mpi.Finished st' := by
  obtain ⟨l, hp⟩ := planned_of_acts hjob.count hjob.ranks hjob.flushes hjob.runs hjob.gives hjob.aboard hacts
  have hw : Fit cb t hash place ⟨HasGetOps hash turns, HasHists w⟩ w := ⟨hjob.prepared.ready _, _, stores_empty hjob.fresh, fun _ _ _ _ h => by cases h⟩
  have hans := job_answers (eager := eager) hp hjob.address.1 hjob.address.2
  refine ⟨C56_terminates _ (Fit cb t hash place ⟨HasGetOps hash turns, HasHists w⟩) w _ hw hans (job_distinct hp) ls st h,
    C56_finishes_partial _ (Fit cb t hash place ⟨HasGetOps hash turns, HasHists w⟩) w _ hw hans (job_distinct hp) ?_ ls st h⟩
  rcases hrelaxed with h | h | h
  · exact Or.inl h
  · exact Or.inr (Or.inl h)
  · exact Or.inr (Or.inr ⟨h, job_foreign hp⟩)

/-- C57, partial: flush `a` PUTs `(s, p, o)` (its last PUT of that pair, without a DELETE of it) and has
returned before flush `b` of any rank begins. Every other flush that PUTs or DELETEs the pair has
returned before `a` begins, or begins when `b` has returned. Then among the results that the rank of `b`
gets from the messages it receives, those of `b` have `o` for the GET of the pair. Missing: as
`C57_safe_partial`. -/
theorem C57_reads_partial (eager : Nat → Bool) (hjob : MpiJob n cb t hash place heap addr junk w turns) (hwrites : ∀ n, w.wr n = true)
    (acts : Nat → FlushActs n) (hacts : JobActs place.length turns acts) (ls : List (Mpi.Label n L))
    (st : Mpi.St n L Parcel Reply World)
    (h : Mpi.run (mpiSys cb heap addr junk eager) (Mpi.init w (jobProg turns acts)) ls = some st) (hf : Spec.Mpi.Finished st)
    (a b : Nat) (xa xb : Turn) (ha : turns[a]? = some xa) (hb : turns[b]? = some xb) (c : Fin n) (k : Nat)
    (hk : (turnsOf turns c)[k]? = some b) (hab : a ≠ b) (hbefore : Before (mpiSys cb heap addr junk eager) w turns acts ls a b)
    (s p o s' p' : Blob) (ty : Nat) (first last : List Op)
    (hput : turnOps hash xa = first ++ Op.put s p o :: last) (hlast : ∀ y ∈ last, ¬ Writes s.val p.val y)
    (hdel : ∀ s₁ p₁, Op.del s₁ p₁ ∈ first → ¬ (s₁.val = s.val ∧ p₁.val = p.val))
    (haccept : t.accepts s.val = true ∧ t.accepts p.val = true ∧ t.accepts o.val = true)
    (hothers : ∀ k x, turns[k]? = some x → k ≠ a → k ≠ b →
      (∀ z ∈ turnOps hash x, ¬ Writes s.val p.val z) ∨ Before (mpiSys cb heap addr junk eager) w turns acts ls k a ∨
        Before (mpiSys cb heap addr junk eager) w turns acts ls b k)
    (hown : ∀ s₁ p₁ o₁, Op.put s₁ p₁ o₁ ∈ turnOps hash xb → ¬ (s₁.val = s.val ∧ p₁.val = p.val))
    (hget : Op.get s' p' ty ∈ turnOps hash xb) (hsame : s'.val = s.val ∧ p'.val = p.val) :
    ∃ rs r, clientResults addr ((turnsOf turns c).map acts) ((st.client c).results.map (·.res)) = .ok rs ∧ rs[k]? = some r ∧
      ∃ y ∈ r.items, y.kind = .get ∧ y.subject = .ref ⟨s'.addr, s'.bytes.length, s'.typ⟩ ∧
        y.predicate = .ref ⟨p'.addr, p'.bytes.length, p'.typ⟩ ∧ y.status = hxSuccess ∧
        ∃ v : Blob, y.object = .own v ∧ v.bytes = t.R o.val ∧ v.typ = o.typ := by
  obtain ⟨log, rs, h1, h2, h3, -⟩ := C57_partial eager hjob acts hacts ls st h hf
  have hbf : ∀ i j, Before (mpiSys cb heap addr junk eager) w turns acts ls i j → Spec.Finished log i j := by
    rintro i j ⟨ls₁, ls₂, m, m1, m2, m3, m4⟩
    exact h3 i j ls₁ ls₂ m m1 m2 m3 m4
  have hlt : b < rs.length := by rw [h1.results]; exact (List.getElem?_eq_some_iff.mp hb).1
  have hr : rs[b]? = some rs[b] := List.getElem?_eq_getElem hlt
  refine ⟨_, rs[b], h2 c, by rw [own_result h1.results hk, hr], ?_⟩
  · exact C55_partial cb t hash place heap hjob.address hjob.count turns w st.world log rs ⟨hjob.fresh, hwrites⟩ hjob.flushes h1 a b xa xb rs[b] ha hb hr hab
      (hbf a b hbefore) s p o s' p' ty first last hput hlast hdel haccept
      (fun k x hk hka hkb => by
        rcases hothers k x hk hka hkb with h | h | h
        · exact Or.inl h
        · exact Or.inr (Or.inl (hbf _ _ h))
        · exact Or.inr (Or.inr (hbf _ _ h)))
      hown hget hsame

theorem getOps_mem {l : List Op} (h : getOps l ≠ []) : ∃ op s p ty n, Op.getop op s p ty n ∈ l := by
  obtain ⟨y, hy⟩ := List.exists_mem_of_ne_nil _ h
  obtain ⟨o, ho, e⟩ := List.mem_filterMap.mp hy
  cases o with
  | getop op s p ty n => exact ⟨op, s, p, ty, n, ho⟩
  | _ => cases e

/-- C57: jobs the theorems above apply to. One datastore per range server with range server ids equal to
ranks (`Aligned`), all of them in the endpoint group, a built-in hash function but `RankModDatastores`,
and flushes by any ranks of plain PUTs, GETs, DELETEs, requests for histograms, and GETOPs that are
always answered, with subjects and predicates that are not empty in PUTs if there are GETOPs. -/
theorem C57_sessions {neg pos : UInt8} (hs : Elen.Symbols neg pos) (f : FloatCodec) (l : Layout) (hv : l.Valid) (ha : Aligned l)
    (hl : l.size ≤ 2 ^ 31) (hl0 : 0 < l.total) (k : Hash.Kind) (hk : k ≠ .rankMod)
    (hhash : ∀ s p, ∃ d, Hash.hxhimHash k 0 l.total s p = .ok d) (group : List Nat) (hg : ∀ i < l.total, group.contains i = true)
    (order : ReqList → ReqList) (hp : ∀ l, (order l).Perm l) (heap addr : Nat) (hheap : heap ≠ 0 ∧ heap < 2 ^ 64)
    (haddr : addr ≠ 0 ∧ addr < 2 ^ 64) (junk : Nat → Bytes) (maxOps maxSize servers : Nat) (hm : 0 < maxOps ∧ maxOps < 2 ^ 64)
    (hservers : servers ≤ l.total) (w : World) (hw : EmptyWorld w) (hst : Prepared ((List.range l.total).map l.dsToRank) w)
    (flushes : List (Nat × List Queue.Call)) (hranks : ∀ x ∈ flushes, x.1 < l.size)
    (hcalls : ∀ x ∈ flushes, ∀ c ∈ x.2, ReadableCall c ∧ ∀ o ∈ ops (Hash.hxhimHash k 0 l.total) servers c, PlainOp o ∧ AnsweredOp o)
    (hgiven : (∃ x ∈ flushes, ∃ c ∈ x.2, ∃ op s p ty n, Op.getop op s p ty n ∈ ops (Hash.hxhimHash k 0 l.total) servers c) →
      ∀ x ∈ flushes, ∀ c ∈ x.2, PutsGiven (ops (Hash.hxhimHash k 0 l.total) servers c))
    (hfew : HasHists w → (flushes.map (fun x => (x.2.flatMap (ops (Hash.hxhimHash k 0 l.total) servers)).length)).sum < 2 ^ 64) :
    MpiJob l.size (defaultCallbacks neg pos f) (plainTransform neg pos f) (Hash.hxhimHash k 0 l.total)
      ((List.range l.total).map l.dsToRank) heap addr junk w
      (flushes.map (fun x => ⟨⟨Hash.hxhimHash k x.1 l.total, maxOps, maxSize, servers⟩,
        Layout.net l x.1 (.mpi (mpiEndpoints l x.1 group)) order hp addr junk, x.2⟩)) := by
  have htotal : l.total ≤ l.size := (aligned_total l ha hv).1
  have hlen : ((List.range l.total).map l.dsToRank).length = l.total := by simp
  refine ⟨hheap, by rw [hlen]; omega, ?_, hw, hst, ?_, ?_, ?_, ?_, ?_⟩
  · intro r hr
    obtain ⟨i, hi, rfl⟩ := List.mem_map.mp hr
    rw [List.mem_range] at hi
    rw [aligned_rank l ha hv i hi]
    omega
  · intro x hx
    obtain ⟨y, hy, rfl⟩ := List.mem_map.mp hx
    have := hranks y hy
    exact C48_mpi_sessions hs f l hv ha k hk y.1 (by omega) group hg order hp addr haddr junk maxOps maxSize servers hm.2 y.2
      (fun c hc o ho => ((hcalls y hy c hc).2 o ho).1)
  · intro x hx
    obtain ⟨y, hy, rfl⟩ := List.mem_map.mp hx
    rw [hlen]
    refine ⟨?_, hm.1, hservers, fun c hc => (hcalls y hy c hc).1, ?_⟩
    · intro s p
      obtain ⟨d, hd⟩ := hhash s p
      rw [C25_same_for_all_ranks_partial k hk 0 y.1 l.total s p] at hd
      exact ⟨d, hd, (C25_in_range k y.1 l.total hl0 (by omega) s p d hd).2⟩
    · intro o ho
      obtain ⟨c, hc, ho⟩ := List.mem_flatMap.mp ho
      exact C48_default_answered hs f o ((hcalls y hy c hc).2 o ho).1 ((hcalls y hy c hc).2 o ho).2
  · rintro ⟨x, hx, hne⟩ z hz s' p' v hv
    obtain ⟨op, s, p, ty, n, ho⟩ := getOps_mem hne
    obtain ⟨y, hy, rfl⟩ := List.mem_map.mp hx
    obtain ⟨y', hy', rfl⟩ := List.mem_map.mp hz
    obtain ⟨c, hc, ho⟩ := List.mem_flatMap.mp ho
    obtain ⟨c', hc', hv⟩ := List.mem_flatMap.mp hv
    exact hgiven ⟨y, hy, c, hc, op, s, p, ty, n, ho⟩ y' hy' c' hc' s' p' v hv
  · refine fun h => ⟨?_, by rw [List.map_map]; exact hfew h⟩
    intro x hx s p o ho
    obtain ⟨y, hy, rfl⟩ := List.mem_map.mp hx
    obtain ⟨c, hc, ho⟩ := List.mem_flatMap.mp ho
    obtain ⟨-, -, ⟨ho, -⟩, -⟩ := ((hcalls y hy c hc).2 _ ho).1
    exact ⟨fun h => absurd h ho.notFloat.1, fun h => absurd h ho.notFloat.2⟩
  · intro x hx
    obtain ⟨y, hy, rfl⟩ := List.mem_map.mp hx
    have := hranks y hy
    exact ⟨⟨_, rfl⟩, ⟨Int.natCast_nonneg _, by show (y.1 : Int) < l.size; omega⟩, rfl, rfl⟩

/-! ## Three ranks -/

namespace MpiEx

deriving instance DecidableEq for Packet, Parcel, Mpi.Act

def net (rank : Nat) : Net :=
  Layout.net ⟨3, 1, 1, 1⟩ rank (.mpi (mpiEndpoints ⟨3, 1, 1, 1⟩ rank [0, 1, 2])) id (fun _ => List.Perm.refl _) 4096 (fun n => List.replicate n 0)

/-- The transport of three ranks that copies messages of up to `copied` bytes. -/
def sys (copied : Nat) : Mpi.Sys 3 Parcel Reply World :=
  mpiSys exCb 100 4096 (fun n => List.replicate n 0) (fun len => decide (len ≤ copied))

def world : World := ⟨fun _ => [exDs .mem []], fun _ => true, 0⟩
def at' (a : Nat) (b : UInt8) : Blob := ⟨a, [b], 7⟩
/-- Each predicate has an address of its own. -/
def put (s p o : UInt8) : Queue.Call := .put ⟨at' 16 s, at' (512 + p.toNat) p, at' 48 o, 1⟩
def get (s p : UInt8) : Queue.Call := .get ⟨at' 64 s, at' 80 p, 7⟩
/-- NEXT, for up to 5 records. -/
def next (s p : UInt8) : Queue.Call := .getop ⟨at' 64 s, at' 80 p, 7, 5, 1⟩
def turnsFor (flushes : List (Nat × List Queue.Call)) : List Turn :=
  flushes.map (fun x => ⟨⟨Hash.hxhimHash .ber x.1 3, 10, 0, 3⟩, net x.1, x.2⟩)

def actsFor (turns : List Turn) (i : Nat) : Out (FlushActs 3) :=
  match turns[i]? with
  | none => .err
  | some x => Queue.calls x.cfg true (Queue.Queues.init 3) x.calls >>= fun q => flushActs x.net i q

/-- What flush `i` does. -/
def acts (turns : List Turn) (i : Nat) : FlushActs 3 :=
  match actsFor turns i with
  | .ok f => f
  | _ => ⟨[], [], [], [], []⟩

theorem acts_ok (turns : List Turn)
    (h : ((List.range turns.length).all (fun i => match actsFor turns i with | .ok _ => true | _ => false)) = true) :
    JobActs 3 turns (acts turns) := by
  intro i x hi
  have := List.all_eq_true.mp h i (List.mem_range.mpr (List.getElem?_eq_some_iff.mp hi).1)
  unfold acts
  cases e : actsFor turns i with
  | ok f =>
    unfold actsFor at e
    rw [hi] at e
    obtain ⟨q, h1, h2⟩ := ok_iff.mp e
    exact ⟨q, h1, h2⟩
  | err => rw [e] at this; cases this
  | ub => rw [e] at this; cases this

private theorem sent (a : Nat) (b : UInt8) (ha : a ≠ 0) (ha' : a < 2 ^ 64) : PlainSent (at' a b) :=
  ⟨⟨by show tByte < 256; decide, by show 1 < 2 ^ 64; decide, by intro t h; exact absurd h (by show intType tByte ≠ some t; intro h; cases h),
    by show tByte ≠ tFloat ∧ tByte ≠ tDouble; decide⟩, ha, ha', Or.inl (by simp [at'])⟩

/-- `put`, `get` and `next` are operations of `C57_sessions`. -/
theorem calls_ok (flushes : List (Nat × List Queue.Call))
    (h : ∀ x ∈ flushes, x.1 < 3 ∧ ∀ c ∈ x.2, (∃ s p o, c = put s p o) ∨ (∃ s p, c = get s p) ∨ ∃ s p, c = next s p) :
    ∀ x ∈ flushes, ∀ c ∈ x.2, ReadableCall c ∧ ∀ o ∈ ops (Hash.hxhimHash .ber 0 3) 3 c,
      PlainOp o ∧ AnsweredOp o ∧ ∀ s p v, o = .put s p v → s.bytes ≠ [] ∧ p.bytes ≠ [] := by
  intro x hx c hc
  rcases (h x hx).2 c hc with ⟨s, p, o, rfl⟩ | ⟨s, p, rfl⟩ | ⟨s, p, rfl⟩
  · refine ⟨⟨rfl, by simp [Queue.readable, at'], rfl⟩, fun y hy => ?_⟩
    have : y = Op.put (at' 16 s) (at' (512 + p.toNat) p) (at' 48 o) := by
      unfold put ops at hy
      simp only at hy
      split at hy
      · unfold putOps at hy
        obtain ⟨z, hz, rfl⟩ := List.mem_map.mp hy
        have hz := List.takeWhile_subset _ hz
        have hw : ∀ a b c : Blob, wanted ⟨a, b, c, 1⟩ = [(a, b, c)] := fun a b c => by cbv
        rw [hw, List.mem_singleton] at hz
        rw [hz]
      · cases hy
    subst this
    have := p.toNat_lt
    exact ⟨⟨sent _ _ (by decide) (by decide), sent _ _ (by omega) (by omega), sent _ _ (by decide) (by decide), by simp [at']⟩, True.intro,
      by rintro s p v h; cases h; simp [at']⟩
  · refine ⟨⟨rfl, rfl⟩, fun y hy => ?_⟩
    have : y = Op.get (at' 64 s) (at' 80 p) 7 := by
      unfold get ops placed at hy
      simp only at hy
      split at hy
      · split at hy
        · simpa using hy
        · cases hy
      · cases hy
    subst this
    exact ⟨⟨sent _ _ (by decide) (by decide), sent _ _ (by decide) (by decide), by decide⟩, True.intro, by rintro s p v h; cases h⟩
  · refine ⟨⟨rfl, rfl⟩, fun y hy => ?_⟩
    have : y = Op.getop 1 (at' 64 s) (at' 80 p) 7 5 := by
      unfold next ops placed at hy
      simp only at hy
      split at hy
      · split at hy
        · simpa using hy
        · cases hy
      · cases hy
    subst this
    exact ⟨⟨sent _ _ (by decide) (by decide), sent _ _ (by decide) (by decide), by decide, by decide, by decide⟩,
      ⟨by decide, by decide, by simp [at'], by simp [at']⟩, by rintro s p v h; cases h⟩

theorem world_fresh : FreshWorld world ∧ Staffed ((List.range 3).map (Layout.dsToRank ⟨3, 1, 1, 1⟩)) world := by
  refine ⟨⟨?_, fun _ => rfl⟩, ⟨?_, ?_⟩⟩
  · intro rank d hd
    rw [show d = exDs .mem [] from List.mem_singleton.mp hd]
    exact ⟨rfl, rfl⟩
  · intro rank _ h
    cases h
  · intro rank d hd
    rw [show d = exDs .mem [] from List.mem_singleton.mp hd]
    rfl

/-- All flushes of `put`, `get` and `next` by the three ranks are jobs. -/
theorem job_in {w : World} (hw : EmptyWorld w) (hs : Staffed ((List.range 3).map (Layout.dsToRank ⟨3, 1, 1, 1⟩)) w)
    (flushes : List (Nat × List Queue.Call))
    (h : ∀ x ∈ flushes, x.1 < 3 ∧ ∀ c ∈ x.2, (∃ s p o, c = put s p o) ∨ (∃ s p, c = get s p) ∨ ∃ s p, c = next s p) :
    MpiJob 3 exCb (plainTransform 0x2f 0x3a exFloat) (Hash.hxhimHash .ber 0 3) ((List.range 3).map (Layout.dsToRank ⟨3, 1, 1, 1⟩)) 100 4096
      (fun n => List.replicate n 0) w (turnsFor flushes) := by
  have key := calls_ok flushes h
  exact C57_sessions (neg := 0x2f) (pos := 0x3a) ⟨by decide, by decide⟩ exFloat ⟨3, 1, 1, 1⟩ (by decide) ⟨rfl, Or.inl (Nat.le_refl _)⟩ (by decide)
    (by decide) .ber (by decide) (fun s p => ⟨_, rfl⟩) [0, 1, 2] (by decide) id (fun _ => List.Perm.refl _) 100 4096 (by decide) (by decide)
    (fun n => List.replicate n 0) 10 0 3 (by decide) (by decide) w hw hs.prepared flushes (fun x hx => (h x hx).1)
    (fun x hx c hc => ⟨(key x hx c hc).1, fun o ho => ⟨((key x hx c hc).2 o ho).1, ((key x hx c hc).2 o ho).2.1⟩⟩)
    (fun _ x hx c hc s p v ho => ((key x hx c hc).2 _ ho).2.2 s p v rfl) (fun h => absurd h hs.noHists)

theorem job (flushes : List (Nat × List Queue.Call))
    (h : ∀ x ∈ flushes, x.1 < 3 ∧ ∀ c ∈ x.2, (∃ s p o, c = put s p o) ∨ (∃ s p, c = get s p) ∨ ∃ s p, c = next s p) :
    MpiJob 3 exCb (plainTransform 0x2f 0x3a exFloat) (Hash.hxhimHash .ber 0 3) ((List.range 3).map (Layout.dsToRank ⟨3, 1, 1, 1⟩)) 100 4096
      (fun n => List.replicate n 0) world (turnsFor flushes) :=
  job_in world_fresh.1.empty world_fresh.2 flushes h

/-! ### A deadlock -/

/-- Each rank PUTs one pair to each of the other ranks. -/
def crossing : List (Nat × List Queue.Call) := [(0, [put 1 1 3, put 1 2 4]), (1, [put 1 0 5, put 1 2 6]), (2, [put 1 0 7, put 1 1 8])]

def isReady {α β : Type} : Mpi.Phase 3 α β → Bool
  | .ready => true
  | _ => false

/-- Nothing is possible, and no client has returned. -/
def stuck (sys : Mpi.Sys 3 Parcel Reply World) (st : Mpi.St 3 1 Parcel Reply World) : Bool :=
  let no := fun l => (Mpi.step sys st l).isNone
  (List.finRange 3).all (fun c => !isReady (st.client c).phase && no (.start c) && no (.sent c) && no (.sized c) && no (.finish c) && no (.listener c 0) &&
    (List.finRange 3).all (fun s => no (.post c s) && no (.size c s) && no (.data c s) && no (.listen c 0 s)))

theorem of_stuck {sys : Mpi.Sys 3 Parcel Reply World} {st : Mpi.St 3 1 Parcel Reply World} (h : stuck sys st = true) :
    Spec.Mpi.Stuck sys st ∧ ∀ c, (st.client c).phase ≠ .ready := by
  unfold stuck at h
  simp only [List.all_eq_true, Bool.and_eq_true, List.mem_finRange, forall_const, Option.isNone_iff_eq_none, Bool.not_eq_true'] at h
  refine ⟨?_, fun c hc => ?_⟩
  · intro l
    cases l with
    | start c => exact (h c).1.1.1.1.1.2
    | post c s => exact ((h c).2 s).1.1.1
    | sent c => exact (h c).1.1.1.1.2
    | size c s => exact ((h c).2 s).1.1.2
    | sized c => exact (h c).1.1.1.2
    | data c s => exact ((h c).2 s).1.2
    | finish c => exact (h c).1.1.2
    | listen s j c => rw [Subsingleton.elim j 0]; exact ((h s).2 c).2
    | listener s j => rw [Subsingleton.elim j 0]; exact (h s).1.2
  · have := (h c).1.1.1.1.1.1
    rw [hc] at this
    cases this

/-! ### An execution that ends -/

/-- Rank 0 PUTs two pairs, and rank 2 GETs them. -/
def passing : List (Nat × List Queue.Call) := [(0, [put 1 1 3, put 1 2 4]), (2, [get 1 1, get 1 2])]

/-- The first flush. -/
def firstHalf : List (Mpi.Label 3 1) :=
  [.start 0, .post 0 1, .post 0 1, .post 0 2, .post 0 2, .listen 1 0 0, .listener 1 0, .listener 1 0, .listen 2 0 0, .listener 2 0, .listener 2 0, .sent 0,
    .size 0 1, .size 0 2, .sized 0, .listener 1 0, .listener 2 0, .data 0 2, .data 0 1, .listener 1 0, .finish 0]

/-- The second flush, with one remote request and a local one. -/
def secondHalf : List (Mpi.Label 3 1) :=
  [.start 2, .post 2 1, .post 2 1, .listen 1 0 2, .listener 1 0, .listener 1 0, .sent 2, .size 2 1, .sized 2, .listener 1 0, .data 2 1, .finish 2, .start 2]

/-- Statuses and objects. -/
def shown (r : Results) : List (Int × Bytes) :=
  r.items.map (fun r => (r.status, match r.object with | .own b => b.bytes | _ => []))

theorem crossing_job : MpiJob 3 exCb (plainTransform 0x2f 0x3a exFloat) (Hash.hxhimHash .ber 0 3)
    ((List.range 3).map (Layout.dsToRank ⟨3, 1, 1, 1⟩)) 100 4096 (fun n => List.replicate n 0) world (turnsFor crossing) := by
  refine job _ ?_
  intro x hx
  simp only [crossing, List.mem_cons, List.not_mem_nil, or_false] at hx
  rcases hx with rfl | rfl | rfl <;> refine ⟨by decide, ?_⟩ <;> intro c hc <;> simp only [List.mem_cons, List.not_mem_nil, or_false] at hc <;>
    rcases hc with rfl | rfl <;> exact Or.inl ⟨_, _, _, rfl⟩

theorem passing_in {w : World} (hw : EmptyWorld w) (hs : Staffed ((List.range 3).map (Layout.dsToRank ⟨3, 1, 1, 1⟩)) w) :
    MpiJob 3 exCb (plainTransform 0x2f 0x3a exFloat) (Hash.hxhimHash .ber 0 3)
      ((List.range 3).map (Layout.dsToRank ⟨3, 1, 1, 1⟩)) 100 4096 (fun n => List.replicate n 0) w (turnsFor passing) := by
  refine job_in hw hs _ ?_
  intro x hx
  simp only [passing, List.mem_cons, List.not_mem_nil, or_false] at hx
  rcases hx with rfl | rfl <;> refine ⟨by decide, ?_⟩ <;> intro c hc <;> simp only [List.mem_cons, List.not_mem_nil, or_false] at hc <;>
    rcases hc with rfl | rfl
  · exact Or.inl ⟨_, _, _, rfl⟩
  · exact Or.inl ⟨_, _, _, rfl⟩
  · exact Or.inr (Or.inl ⟨_, _, rfl⟩)
  · exact Or.inr (Or.inl ⟨_, _, rfl⟩)

theorem passing_job : MpiJob 3 exCb (plainTransform 0x2f 0x3a exFloat) (Hash.hxhimHash .ber 0 3)
    ((List.range 3).map (Layout.dsToRank ⟨3, 1, 1, 1⟩)) 100 4096 (fun n => List.replicate n 0) world (turnsFor passing) :=
  passing_in world_fresh.1.empty world_fresh.2

end MpiEx

open MpiEx

/-- C57: flushes need not return. Three ranks with one listener each, and a library that copies messages
of up to 64 bytes. Each rank PUTs one pair to each of the other ranks, and after some steps all ranks
wait for ever. -/
theorem C57_deadlock_false :
    MpiJob 3 exCb (plainTransform 0x2f 0x3a exFloat) (Hash.hxhimHash .ber 0 3) ((List.range 3).map (Layout.dsToRank ⟨3, 1, 1, 1⟩)) 100 4096
      (fun n => List.replicate n 0) world (turnsFor crossing) ∧
    JobActs 3 (turnsFor crossing) (acts (turnsFor crossing)) ∧
    ∃ st, Mpi.run (mpiSys exCb 100 4096 (fun n => List.replicate n 0) (fun len => decide (len ≤ 64)))
        (Mpi.init world (jobProg (turnsFor crossing) (acts (turnsFor crossing)))) Dead.requests = some st ∧
      Spec.Mpi.Stuck (mpiSys exCb 100 4096 (fun n => List.replicate n 0) (fun len => decide (len ≤ 64))) st ∧
      ∀ c, (st.client c).phase ≠ .ready := by
  refine ⟨crossing_job, acts_ok _ (by decide +kernel), ?_⟩
  have h : (match Mpi.run (sys 64) (Mpi.init world (jobProg (turnsFor crossing) (acts (turnsFor crossing)))) Dead.requests with
    | some st => stuck (sys 64) st
    | none => false) = true := by decide +kernel
  unfold sys at h
  split at h
  · rename_i st e
    exact ⟨st, e, of_stuck h⟩
  · cases h

/-- An execution in which both flushes return. The flush of rank 2 begins when the one of rank 0 has
returned, so `Before` and the other hypotheses of `C57_reads_partial` hold for its first GET. -/
example : ∃ st rs,
    Mpi.run (sys 64) (Mpi.init world (jobProg (turnsFor passing) (acts (turnsFor passing)))) (firstHalf ++ secondHalf) = some st ∧
    Spec.Mpi.Finished st ∧ st.log.length = 4 ∧
    JobActs 3 (turnsFor passing) (acts (turnsFor passing)) ∧
    Before (sys 64) world (turnsFor passing) (acts (turnsFor passing)) (firstHalf ++ secondHalf) 0 1 ∧
    turnsOf (turnsFor passing) (2 : Fin 3) = [1] ∧
    clientResults 4096 ((turnsOf (turnsFor passing) (2 : Fin 3)).map (acts (turnsFor passing))) ((st.client 2).results.map (·.res)) = .ok rs ∧
    rs.map shown = [[(hxSuccess, [3]), (hxSuccess, [4])]] ∧
    (turnsFor passing).map (turnOps (Hash.hxhimHash .ber 0 3)) =
      [[Op.put (at' 16 1) (at' 513 1) (at' 48 3), Op.put (at' 16 1) (at' 514 2) (at' 48 4)], [Op.get (at' 64 1) (at' 80 1) 7, Op.get (at' 64 1) (at' 80 2) 7]] := by
  have hmid : (match Mpi.run (sys 64) (Mpi.init world (jobProg (turnsFor passing) (acts (turnsFor passing)))) firstHalf with
    | some st => isReady (st.client 0).phase && (st.client 0).acts.isEmpty && decide ((st.client 2).acts = (acts (turnsFor passing) 1).all)
    | none => false) = true := by decide +kernel
  have hend : (match Mpi.run (sys 64) (Mpi.init world (jobProg (turnsFor passing) (acts (turnsFor passing)))) (firstHalf ++ secondHalf) with
    | some st => (List.finRange 3).all (fun c => isReady (st.client c).phase && (st.client c).acts.isEmpty) && decide (st.log.length = 4) &&
        (match clientResults 4096 ((turnsOf (turnsFor passing) (2 : Fin 3)).map (acts (turnsFor passing))) ((st.client 2).results.map (·.res)) with
          | .ok rs => decide (rs.map shown = [[(hxSuccess, [3]), (hxSuccess, [4])]])
          | _ => false)
    | none => false) = true := by decide +kernel
  have ready : ∀ {p : Mpi.Phase 3 Parcel Reply}, isReady p = true → p = .ready := by
    intro p h
    cases p <;> first | rfl | cases h
  split at hmid
  case h_2 => cases hmid
  rename_i m hm
  simp only [Bool.and_eq_true, decide_eq_true_eq, List.isEmpty_iff] at hmid
  split at hend
  case h_2 => cases hend
  rename_i st e
  simp only [Bool.and_eq_true, decide_eq_true_eq, List.isEmpty_iff, List.all_eq_true, List.mem_finRange, forall_const] at hend
  obtain ⟨⟨h1, h2⟩, h3⟩ := hend
  split at h3
  case h_2 => cases h3
  rename_i rs hrs
  have t0 : turnsOf (turnsFor passing) (0 : Fin 3) = [0] := by decide +kernel
  have t2 : turnsOf (turnsFor passing) (2 : Fin 3) = [1] := by decide +kernel
  refine ⟨st, rs, e, fun c => ⟨(h1 c).2, ready (h1 c).1⟩, h2, acts_ok _ (by decide +kernel),
    ⟨firstHalf, secondHalf, m, rfl, hm, ⟨0, 1, ?_, ready hmid.1.1, ?_⟩, ⟨2, 0, ?_, ?_⟩⟩, t2, hrs, of_decide_eq_true h3, by decide +kernel⟩
  · rw [t0]; decide
  · rw [t0, hmid.1.2]; rfl
  · rw [t2]; decide
  · rw [t2, hmid.2]; simp

end Hx.Props

import Verif.Proofs.RpcJob
import Verif.Props.C57_MpiJob
import Verif.Props.C61_Mpi
import Verif.Props.C62_Thallium

/-!
# C63: flushes of ranks that use Thallium

Flushes (C29, C55) as calls (C62), for any interleaving of the steps of all clients and handlers, with and
without `ASYNC_THALLIUM`.
-/

namespace Hx.Props
open Hx Msg Spec Process Store Results Job Place

variable {n : Nat}

variable {cb : Callbacks} {t : Transform} {hash : Bytes → Bytes → Out Int} {place : List Int} {heap addr : Nat} {junk : Nat → Bytes}
  {w : World} {turns : List Turn}

theorem _root_.Hx.Spec.ThalliumJob.gives {cb : Store.Callbacks} {t : Transform} {hash : Bytes → Bytes → Out Int} {place : List Int} {heap addr : Nat}
    {junk : Nat → Bytes} {w : World} {turns : List Turn} (h : ThalliumJob n cb t hash place heap addr junk w turns) :
    ∀ x ∈ turns, Gives ⟨HasGetOps hash turns, HasHists w⟩ (turnOps hash x) :=
  fun x hx => ⟨fun hG => h.given hG x hx, fun hG => (h.numbers hG).1 x hx⟩

/-- C63: every rank has a sequence of rounds of requests to send, which does not depend on responses. -/
theorem C63_acts (hjob : ThalliumJob n cb t hash place heap addr junk w turns) :
    ∃ acts : Nat → FlushActs n, JobActs place.length turns acts :=
  job_planned hjob.count hjob.ranks hjob.flushes hjob.runs hjob.gives hjob.aboard

/-- A request without an entry in the endpoint group is left out of its round, and nothing else changes. -/
theorem C63_unreachable (net : Net) (turn : Nat) (endpoints : Endpoints) (l : ReqList) :
    callRound (n := n) net turn endpoints l = callRound net turn endpoints (l.filter (fun x => (endpoints.lookup x.1).isSome)) := by
  induction l with
  | nil => rfl
  | cons x l ih =>
    cases hx : endpoints.lookup x.1 with
    | none =>
      rw [List.filter_cons_of_neg (by simp [hx]), ← ih]
      conv_lhs => unfold callRound
      rw [hx]
    | some rank =>
      rw [List.filter_cons_of_pos (by simp [hx])]
      unfold callRound
      rw [hx, ih]

private theorem fit (hjob : ThalliumJob n cb t hash place heap addr junk w turns) : Fit cb t hash place ⟨HasGetOps hash turns, HasHists w⟩ w :=
  ⟨hjob.prepared.ready _, _, stores_empty hjob.fresh, fun _ _ _ _ h => by cases h⟩

/-- C63, at any time, partial: no memory is read or freed that is not allocated or has another length, no
handler fails, and no two calls share a buffer. Missing: the GETOPs that `SimpleOp` leaves out, histograms
whose bucket generator fails or that were read back, and as `C78_gets_partial`: writes may fail. -/
theorem C63_safe_partial (threads : Nat) (async : Bool) (hjob : ThalliumJob n cb t hash place heap addr junk w turns)
    (acts : Nat → FlushActs n) (hacts : JobActs place.length turns acts) (ls : List (Rpc.Label n)) (st : Rpc.St n Parcel Reply World)
    (h : Rpc.run (rpcSys cb heap addr junk threads async) (Rpc.init w (jobProg turns acts)) ls = some st) :
    st.bad = false ∧ Spec.Rpc.Owned st := by
  obtain ⟨l, hp⟩ := planned_of_acts hjob.count hjob.ranks hjob.flushes hjob.runs hjob.gives hjob.aboard hacts
  have hans := rpc_answers (threads := threads) (async := async) hp hjob.address.1 hjob.address.2
  exact ⟨(C62_faithful _ _ w _ (fit hjob) hans (job_distinct hp) ls st h).good, C62_buffers _ _ w _ (fit hjob) hans (job_distinct hp) ls st h⟩

/-- C63: the histograms of a job have no more than 2^64 - 1 numbers when all clients are finished. -/
theorem C63_few (threads : Nat) (async : Bool) (hjob : ThalliumJob n cb t hash place heap addr junk w turns)
    (acts : Nat → FlushActs n) (hacts : JobActs place.length turns acts) (ls : List (Rpc.Label n)) (st : Rpc.St n Parcel Reply World)
    (h : Rpc.run (rpcSys cb heap addr junk threads async) (Rpc.init w (jobProg turns acts)) ls = some st) (hf : Spec.Rpc.Finished st)
    (hh : HasHists w) : FewNumbers st.world := by
  obtain ⟨l, hp⟩ := planned_of_acts hjob.count hjob.ranks hjob.flushes hjob.runs hjob.gives hjob.aboard hacts
  exact job_few hp hjob.prepared.2.1 (hjob.numbers hh).2 (seen_complete hp hjob.address.1 hjob.address.2 (fit hjob) (fun _ => true)
    (C62_complete _ _ w _ (fit hjob) (rpc_answers (threads := threads) (async := async) hp hjob.address.1 hjob.address.2)
      (job_distinct hp) ls st h hf))

/-- C63, partial: when all clients are finished, there is an order of the requests in which the range
servers executed them one after the other (`Overlap`, so all of C55 holds), and what each rank makes of
the responses it read are the results of its flushes with that order. The order respects time: if at some
moment flush `i` has returned and flush `j` has not begun, all requests of `i` are before those of `j`; and
the same for two flushes of one rank. Missing: as `C63_safe_partial`. -/
theorem C63_partial (threads : Nat) (async : Bool) (hjob : ThalliumJob n cb t hash place heap addr junk w turns)
    (acts : Nat → FlushActs n) (hacts : JobActs place.length turns acts) (ls : List (Rpc.Label n)) (st : Rpc.St n Parcel Reply World)
    (h : Rpc.run (rpcSys cb heap addr junk threads async) (Rpc.init w (jobProg turns acts)) ls = some st) (hf : Spec.Rpc.Finished st) :
    ∃ log rs, Overlap cb heap place.length w turns log st.world rs ∧
      (∀ c, clientResults addr ((turnsOf turns c).map acts) ((st.client c).results.map (·.res)) =
        .ok ((turnsOf turns c).filterMap (fun i => rs[i]?))) ∧
      (∀ i j, Spec.Rpc.Before (rpcSys cb heap addr junk threads async) w turns acts ls i j → Spec.Finished log i j) ∧
      ∀ i j x y, turns[i]? = some x → turns[j]? = some y → x.net.rank = y.net.rank → i < j → Spec.Finished log i j := by
  obtain ⟨l, hp⟩ := planned_of_acts hjob.count hjob.ranks hjob.flushes hjob.runs hjob.gives hjob.aboard hacts
  have hw := fit hjob
  have hans := rpc_answers (threads := threads) (async := async) hp hjob.address.1 hjob.address.2
  have hcomplete := C62_complete _ _ w _ hw hans (job_distinct hp) ls st h hf
  obtain ⟨P, hP, hturn, rs, h1, h2⟩ := mpi_overlap hp hjob.address.1 hjob.address.2 (all_turns hjob.aboard) hw
    (seen_complete hp hjob.address.1 hjob.address.2 hw (fun _ => true) hcomplete)
    (C63_few threads async hjob acts hacts ls st h hf)
  have key : ∀ i j, Spec.Rpc.Before (rpcSys cb heap addr junk threads async) w turns acts ls i j → Spec.Finished (P.map Prod.snd) i j := by
    rintro i j ⟨ls₁, ls₂, m, hls, hm, hi, hj⟩
    subst hls
    have hlast : Rpc.run (rpcSys cb heap addr junk threads async) m ls₂ = some st := by
      rw [Rpc.run_append, hm] at h
      exact h
    exact mpi_finished hp (Rpc.seen_rounds (C62_rounds _ _ w _ hw hans (job_distinct hp) ls₁ m hm)) (st := Rpc.seen st) (Rpc.run_log ls₂ hlast)
      hcomplete.requests hP hturn (seen_over hi) (seen_waiting hj)
  refine ⟨P.map Prod.snd, rs, h1, h2, key, ?_⟩
  intro i j x y hi hj hxy hij
  obtain ⟨c, hc⟩ := all_turns hjob.aboard i (List.getElem?_eq_some_iff.mp hi).1
  have hd : j ∈ turnsOf turns c := by
    obtain ⟨x', e1, e2⟩ := mem_turnsOf.mp hc
    rw [hi] at e1
    cases e1
    exact mem_turnsOf.mpr ⟨y, hj, by rw [← hxy]; exact e2⟩
  obtain ⟨ls₁, ls₂, m, m1, m2, -, m3, m4⟩ := rpc_order h hf hc hd hij
  exact key i j ⟨ls₁, ls₂, m, m1, m2, m3, m4⟩

/-- C63, partial: flushes return. Executions have a bounded number of steps, any execution can be continued
until all flushes have returned, when nothing more is possible they have, and then every buffer was
freed. One handler on each rank is enough; compare `C57_deadlock_false`. Missing: as
`C63_safe_partial`. -/
theorem C63_finishes_partial (threads : Nat) (ht : 0 < threads) (async : Bool) (hjob : ThalliumJob n cb t hash place heap addr junk w turns)
    (acts : Nat → FlushActs n) (hacts : JobActs place.length turns acts) (ls : List (Rpc.Label n)) (st : Rpc.St n Parcel Reply World)
    (h : Rpc.run (rpcSys cb heap addr junk threads async) (Rpc.init w (jobProg turns acts)) ls = some st) :
    ls.length ≤ Spec.Rpc.stepBound (jobProg turns acts) ∧
    (∃ more st', Rpc.run (rpcSys cb heap addr junk threads async) st more = some st' ∧ Spec.Rpc.Finished st' ∧ ∀ r a, st'.mem r a = none) ∧
    (Spec.Rpc.Stuck (rpcSys cb heap addr junk threads async) st → Spec.Rpc.Finished st ∧ ∀ r a, st.mem r a = none) := by
  obtain ⟨l, hp⟩ := planned_of_acts hjob.count hjob.ranks hjob.flushes hjob.runs hjob.gives hjob.aboard hacts
  have hans := rpc_answers (threads := threads) (async := async) hp hjob.address.1 hjob.address.2
  refine ⟨C62_terminates _ _ w _ (fit hjob) hans (job_distinct hp) ls st h, C62_finishes _ _ w _ (fit hjob) hans (job_distinct hp) ht ls st h, ?_⟩
  intro hs
  obtain ⟨h1, -, h2⟩ := C62_progress _ _ w _ (fit hjob) hans (job_distinct hp) ht ls st h hs
  exact ⟨h1, h2⟩

/-- C63, partial: flush `a` PUTs `(s, p, o)` (its last PUT of that pair, without a DELETE of it) and has
returned before flush `b` of any rank begins. Every other flush that PUTs or DELETEs the pair has
returned before `a` begins, or begins when `b` has returned. Then among the results that the rank of `b`
gets from the responses it reads, those of `b` have `o` for the GET of the pair. Missing: as
`C63_safe_partial`. -/
theorem C63_reads_partial (threads : Nat) (async : Bool) (hjob : ThalliumJob n cb t hash place heap addr junk w turns)
    (hwrites : ∀ n, w.wr n = true)
    (acts : Nat → FlushActs n) (hacts : JobActs place.length turns acts) (ls : List (Rpc.Label n)) (st : Rpc.St n Parcel Reply World)
    (h : Rpc.run (rpcSys cb heap addr junk threads async) (Rpc.init w (jobProg turns acts)) ls = some st) (hf : Spec.Rpc.Finished st)
    (a b : Nat) (xa xb : Turn) (ha : turns[a]? = some xa) (hb : turns[b]? = some xb) (c : Fin n) (k : Nat)
    (hk : (turnsOf turns c)[k]? = some b) (hab : a ≠ b)
    (hbefore : Spec.Rpc.Before (rpcSys cb heap addr junk threads async) w turns acts ls a b)
    (s p o s' p' : Blob) (ty : Nat) (first last : List Op)
    (hput : turnOps hash xa = first ++ Op.put s p o :: last) (hlast : ∀ y ∈ last, ¬ Writes s.val p.val y)
    (hdel : ∀ s₁ p₁, Op.del s₁ p₁ ∈ first → ¬ (s₁.val = s.val ∧ p₁.val = p.val))
    (haccept : t.accepts s.val = true ∧ t.accepts p.val = true ∧ t.accepts o.val = true)
    (hothers : ∀ k x, turns[k]? = some x → k ≠ a → k ≠ b →
      (∀ z ∈ turnOps hash x, ¬ Writes s.val p.val z) ∨ Spec.Rpc.Before (rpcSys cb heap addr junk threads async) w turns acts ls k a ∨
        Spec.Rpc.Before (rpcSys cb heap addr junk threads async) w turns acts ls b k)
    (hown : ∀ s₁ p₁ o₁, Op.put s₁ p₁ o₁ ∈ turnOps hash xb → ¬ (s₁.val = s.val ∧ p₁.val = p.val))
    (hget : Op.get s' p' ty ∈ turnOps hash xb) (hsame : s'.val = s.val ∧ p'.val = p.val) :
    ∃ rs r, clientResults addr ((turnsOf turns c).map acts) ((st.client c).results.map (·.res)) = .ok rs ∧ rs[k]? = some r ∧
      ∃ y ∈ r.items, y.kind = .get ∧ y.subject = .ref ⟨s'.addr, s'.bytes.length, s'.typ⟩ ∧
        y.predicate = .ref ⟨p'.addr, p'.bytes.length, p'.typ⟩ ∧ y.status = hxSuccess ∧
        ∃ v : Blob, y.object = .own v ∧ v.bytes = t.R o.val ∧ v.typ = o.typ := by
  obtain ⟨log, rs, h1, h2, h3, -⟩ := C63_partial threads async hjob acts hacts ls st h hf
  have hlt : b < rs.length := by rw [h1.results]; exact (List.getElem?_eq_some_iff.mp hb).1
  have hr : rs[b]? = some rs[b] := List.getElem?_eq_getElem hlt
  refine ⟨_, rs[b], h2 c, by rw [own_result h1.results hk, hr], ?_⟩
  exact C55_partial cb t hash place heap hjob.address hjob.count turns w st.world log rs ⟨hjob.fresh, hwrites⟩ hjob.flushes h1 a b xa xb rs[b] ha hb hr hab
    (h3 a b hbefore) s p o s' p' ty first last hput hlast hdel haccept
    (fun k x hk hka hkb => by
      rcases hothers k x hk hka hkb with h | h | h
      · exact Or.inl h
      · exact Or.inr (Or.inl (h3 _ _ h))
      · exact Or.inr (Or.inr (h3 _ _ h)))
    hown hget hsame

/-- C63, GETOPs, partial: when all clients are finished, there is an order of the requests in which the
range servers executed them, which respects time as in `C63_partial`, and every GETOP of every flush has,
in the results its rank makes of the responses it read, exactly what `Spec.getOpAnswer` picks out of its
datastore after the requests before one of the flush itself (`C61_overlap_partial`). Missing: as
`C63_safe_partial`. -/
theorem C63_getops_partial (threads : Nat) (async : Bool) (b : Backend) (hjob : ThalliumJob n cb t hash place heap addr junk w turns)
    (hwrites : ∀ n, w.wr n = true) (ha : Apart place w) (hb : Backed b w)
    (acts : Nat → FlushActs n) (hacts : JobActs place.length turns acts) (ls : List (Rpc.Label n)) (st : Rpc.St n Parcel Reply World)
    (h : Rpc.run (rpcSys cb heap addr junk threads async) (Rpc.init w (jobProg turns acts)) ls = some st) (hf : Spec.Rpc.Finished st) :
    ∃ log w' rs, Overlap cb heap place.length w turns log w' rs ∧
      (∀ i j, Spec.Rpc.Before (rpcSys cb heap addr junk threads async) w turns acts ls i j → Spec.Finished log i j) ∧
      (∀ i j x y, turns[i]? = some x → turns[j]? = some y → x.net.rank = y.net.rank → i < j → Spec.Finished log i j) ∧
      ∀ c, ∃ own, clientResults addr ((turnsOf turns c).map acts) ((st.client c).results.map (·.res)) = .ok own ∧
        ∀ (k i : Nat) x, (turnsOf turns c)[k]? = some i → turns[i]? = some x → getOps (turnOps hash x) ≠ [] →
          ∃ r, own[k]? = some r ∧
            ∃ gs groups, gs.Perm (getOps (turnOps hash x)) ∧ r.items.filter (fun y => decide (y.kind = .getop)) = groups.flatten ∧
              List.Forall₂ (fun g z => ∃ before y after, OpAnswered t.accepts hash turns log i g before y after ∧
                ReturnedOp t cb.neg b hash (before.flatMap (fun y => events t.accepts y.req.body)) g z) gs groups := by
  obtain ⟨log, rs, h1, h2, h3, h4⟩ := C63_partial threads async hjob acts hacts ls st h hf
  refine ⟨log, st.world, rs, h1, h3, h4, fun c => ⟨_, h2 c, ?_⟩⟩
  intro k i x hk hi hne
  have hx : x ∈ turns := List.mem_of_getElem? hi
  have hlt : i < rs.length := by rw [h1.results]; exact (List.getElem?_eq_some_iff.mp hi).1
  have hr : rs[i]? = some rs[i] := List.getElem?_eq_getElem hlt
  have hsimple := (hjob.runs x hx).simple
  exact ⟨rs[i], by rw [own_result h1.results hk, hr], C61_overlap_partial cb t hash place heap hjob.address hjob.count b turns w st.world
    log rs ⟨hjob.fresh, hwrites⟩ ha hb hjob.flushes (hjob.given ⟨x, hx, hne⟩) h1 i x rs[i] hi hr (simple_getOpsOk hsimple)
    (fun g hg _ _ _ _ _ => simple_arrives hsimple hg b _)⟩

/-- C63: jobs the theorems above apply to, as `C57_sessions`. The endpoint group may also be empty, which
stands for all range servers. -/
theorem C63_sessions {neg pos : UInt8} (hs : Elen.Symbols neg pos) (f : FloatCodec) (l : Layout) (hv : l.Valid) (ha : Aligned l)
    (hl : l.size ≤ 2 ^ 31) (hl0 : 0 < l.total) (k : Hash.Kind) (hk : k ≠ .rankMod)
    (hhash : ∀ s p, ∃ d, Hash.hxhimHash k 0 l.total s p = .ok d) (group : List Nat)
    (hg : group = [] ∨ ∀ i < l.total, group.contains i = true)
    (order : ReqList → ReqList) (hp : ∀ l, (order l).Perm l) (heap addr : Nat) (hheap : heap ≠ 0 ∧ heap < 2 ^ 64)
    (haddr : addr ≠ 0 ∧ addr < 2 ^ 64) (junk : Nat → Bytes) (maxOps maxSize servers : Nat) (hm : 0 < maxOps ∧ maxOps < 2 ^ 64)
    (hservers : servers ≤ l.total) (w : World) (hw : EmptyWorld w) (hst : Prepared ((List.range l.total).map l.dsToRank) w)
    (flushes : List (Nat × List Queue.Call)) (hranks : ∀ x ∈ flushes, x.1 < l.size)
    (hcalls : ∀ x ∈ flushes, ∀ c ∈ x.2, ReadableCall c ∧ ∀ o ∈ ops (Hash.hxhimHash k 0 l.total) servers c, PlainOp o ∧ AnsweredOp o)
    (hgiven : (∃ x ∈ flushes, ∃ c ∈ x.2, ∃ op s p ty n, Op.getop op s p ty n ∈ ops (Hash.hxhimHash k 0 l.total) servers c) →
      ∀ x ∈ flushes, ∀ c ∈ x.2, PutsGiven (ops (Hash.hxhimHash k 0 l.total) servers c))
    (hfew : HasHists w → (flushes.map (fun x => (x.2.flatMap (ops (Hash.hxhimHash k 0 l.total) servers)).length)).sum < 2 ^ 64) :
    ThalliumJob l.size (defaultCallbacks neg pos f) (plainTransform neg pos f) (Hash.hxhimHash k 0 l.total)
      ((List.range l.total).map l.dsToRank) heap addr junk w
      (flushes.map (fun x => ⟨⟨Hash.hxhimHash k x.1 l.total, maxOps, maxSize, servers⟩,
        Layout.net l x.1 (.thallium (thalliumEndpoints l x.1 group)) order hp addr junk, x.2⟩)) := by
  have htotal : l.total ≤ l.size := (aligned_total l ha hv).1
  have hlen : ((List.range l.total).map l.dsToRank).length = l.total := by simp
  refine ⟨hheap, by rw [hlen]; omega, ?_, hw, hst, ?_, ?_, ?_, ?_, ?_⟩
  · intro r hr
    obtain ⟨i, hi, rfl⟩ := List.mem_map.mp hr
    rw [List.mem_range] at hi
    rw [aligned_rank l ha hv i hi]
    omega
  · intro x hx
    obtain ⟨y, hy, rfl⟩ := List.mem_map.mp hx
    have := hranks y hy
    exact C48_thallium_sessions hs f l hv ha k hk y.1 (by omega) group hg order hp addr haddr junk maxOps maxSize servers hm.2 y.2
      (fun c hc o ho => ((hcalls y hy c hc).2 o ho).1)
  · intro x hx
    obtain ⟨y, hy, rfl⟩ := List.mem_map.mp hx
    rw [hlen]
    refine ⟨?_, hm.1, hservers, fun c hc => (hcalls y hy c hc).1, ?_⟩
    · intro s p
      obtain ⟨d, hd⟩ := hhash s p
      rw [C25_same_for_all_ranks_partial k hk 0 y.1 l.total s p] at hd
      exact ⟨d, hd, (C25_in_range k y.1 l.total hl0 (by omega) s p d hd).2⟩
    · intro o ho
      obtain ⟨c, hc, ho⟩ := List.mem_flatMap.mp ho
      exact C48_default_answered hs f o ((hcalls y hy c hc).2 o ho).1 ((hcalls y hy c hc).2 o ho).2
  · rintro ⟨x, hx, hne⟩ z hz s' p' v hv
    obtain ⟨op, s, p, ty, n, ho⟩ := getOps_mem hne
    obtain ⟨y, hy, rfl⟩ := List.mem_map.mp hx
    obtain ⟨y', hy', rfl⟩ := List.mem_map.mp hz
    obtain ⟨c, hc, ho⟩ := List.mem_flatMap.mp ho
    obtain ⟨c', hc', hv⟩ := List.mem_flatMap.mp hv
    exact hgiven ⟨y, hy, c, hc, op, s, p, ty, n, ho⟩ y' hy' c' hc' s' p' v hv
  · refine fun h => ⟨?_, by rw [List.map_map]; exact hfew h⟩
    intro x hx s p o ho
    obtain ⟨y, hy, rfl⟩ := List.mem_map.mp hx
    obtain ⟨c, hc, ho⟩ := List.mem_flatMap.mp ho
    obtain ⟨-, -, ⟨ho, -⟩, -⟩ := ((hcalls y hy c hc).2 _ ho).1
    exact ⟨fun h => absurd h ho.notFloat.1, fun h => absurd h ho.notFloat.2⟩
  · intro x hx
    obtain ⟨y, hy, rfl⟩ := List.mem_map.mp hx
    have := hranks y hy
    exact ⟨⟨_, rfl⟩, ⟨Int.natCast_nonneg _, by show (y.1 : Int) < l.size; omega⟩, rfl, rfl⟩

/-! ## Three ranks -/

namespace ThalliumEx
open MpiEx (world acts crossing calls_ok world_fresh)

def net (rank : Nat) : Net :=
  Layout.net ⟨3, 1, 1, 1⟩ rank (.thallium (thalliumEndpoints ⟨3, 1, 1, 1⟩ rank [])) id (fun _ => List.Perm.refl _) 4096 (fun n => List.replicate n 0)

def sys (async : Bool) : Rpc.Sys 3 Parcel Reply World := rpcSys exCb 100 4096 (fun n => List.replicate n 0) 1 async

def turnsFor (flushes : List (Nat × List Queue.Call)) : List Turn :=
  flushes.map (fun x => ⟨⟨Hash.hxhimHash .ber x.1 3, 10, 0, 3⟩, net x.1, x.2⟩)

/-- All flushes of `put`, `get` and `next` by the three ranks are jobs. -/
theorem job (flushes : List (Nat × List Queue.Call))
    (h : ∀ x ∈ flushes, x.1 < 3 ∧ ∀ c ∈ x.2, (∃ s p o, c = MpiEx.put s p o) ∨ (∃ s p, c = MpiEx.get s p) ∨ ∃ s p, c = MpiEx.next s p) :
    ThalliumJob 3 exCb (plainTransform 0x2f 0x3a exFloat) (Hash.hxhimHash .ber 0 3) ((List.range 3).map (Layout.dsToRank ⟨3, 1, 1, 1⟩)) 100 4096
      (fun n => List.replicate n 0) world (turnsFor flushes) := by
  have key := calls_ok flushes h
  exact C63_sessions (neg := 0x2f) (pos := 0x3a) ⟨by decide, by decide⟩ exFloat ⟨3, 1, 1, 1⟩ (by decide) ⟨rfl, Or.inl (Nat.le_refl _)⟩ (by decide)
    (by decide) .ber (by decide) (fun s p => ⟨_, rfl⟩) [] (Or.inl rfl) id (fun _ => List.Perm.refl _) 100 4096 (by decide) (by decide)
    (fun n => List.replicate n 0) 10 0 3 (by decide) (by decide) world world_fresh.1.empty world_fresh.2.prepared flushes (fun x hx => (h x hx).1)
    (fun x hx c hc => ⟨(key x hx c hc).1, fun o ho => ⟨((key x hx c hc).2 o ho).1, ((key x hx c hc).2 o ho).2.1⟩⟩)
    (fun _ x hx c hc s p v ho => ((key x hx c hc).2 _ ho).2.2 s p v rfl) (fun h => absurd h world_fresh.2.noHists)

/-- Rank 0 PUTs two pairs, and rank 2 GETs them and asks what comes after the first one. -/
def passing : List (Nat × List Queue.Call) := [(0, [MpiEx.put 1 1 3, MpiEx.put 1 2 4]), (2, [MpiEx.get 1 1, MpiEx.get 1 2, MpiEx.next 1 1])]

/-- The first flush, without `ASYNC_THALLIUM`. -/
def firstHalf : List (Rpc.Label 3) :=
  [.start 0, .call 0 1 7, .take 0, .pull 0, .serve 0 7, .recv 0 1, .read 0 1, .call 0 2 7, .take 1, .pull 1, .clean 0, .serve 1 8, .recv 0 2,
    .read 0 2, .finish 0]

/-- The second flush: two remote requests and a local one. The response to the second PUT is freed late. -/
def secondHalf : List (Rpc.Label 3) :=
  [.start 2, .call 2 1 7, .take 2, .pull 2, .serve 2 7, .recv 2 1, .clean 1, .read 2 1, .finish 2, .start 2,
    .start 2, .call 2 1 8, .take 3, .pull 3, .serve 3 9, .recv 2 1, .read 2 1, .finish 2, .clean 2, .clean 3]

/-- What a result owns. -/
structure Shown where
  status : Int
  subject : Bytes
  predicate : Bytes
  object : Bytes
deriving DecidableEq

def shown (r : Results) : List Shown :=
  let data : Datum → Bytes := fun | .own b => b.bytes | _ => []
  r.items.map (fun r => ⟨r.status, data r.subject, data r.predicate, data r.object⟩)

def isReady {α β : Type} : Rpc.Phase 3 α β → Bool
  | .ready => true
  | _ => false

/-- All flushes have returned, all buffers are freed, and the results of a rank. -/
def ends (async : Bool) (flushes : List (Nat × List Queue.Call)) (ls : List (Rpc.Label 3)) (c : Fin 3) :
    Option (Bool × Bool × Option (List (List Shown))) :=
  (Rpc.run (sys async) (Rpc.init world (jobProg (turnsFor flushes) (acts (turnsFor flushes)))) ls).map (fun st =>
    ((List.finRange 3).all (fun c => isReady (st.client c).phase && (st.client c).acts.isEmpty),
      (List.finRange 3).all (fun c => (List.range 12).all (fun a => (st.mem c a).isNone)),
      match clientResults 4096 ((turnsOf (turnsFor flushes) c).map (acts (turnsFor flushes))) ((st.client c).results.map (·.res)) with
      | .ok rs => some (rs.map shown)
      | _ => none))

theorem passing_job : ThalliumJob 3 exCb (plainTransform 0x2f 0x3a exFloat) (Hash.hxhimHash .ber 0 3)
    ((List.range 3).map (Layout.dsToRank ⟨3, 1, 1, 1⟩)) 100 4096 (fun n => List.replicate n 0) world (turnsFor passing) := by
  refine job _ ?_
  intro x hx
  simp only [passing, List.mem_cons, List.not_mem_nil, or_false] at hx
  rcases hx with rfl | rfl <;> refine ⟨by decide, ?_⟩ <;> intro c hc <;> simp only [List.mem_cons, List.not_mem_nil, or_false] at hc
  · rcases hc with rfl | rfl
    · exact Or.inl ⟨_, _, _, rfl⟩
    · exact Or.inl ⟨_, _, _, rfl⟩
  · rcases hc with rfl | rfl | rfl
    · exact Or.inr (Or.inl ⟨_, _, rfl⟩)
    · exact Or.inr (Or.inl ⟨_, _, rfl⟩)
    · exact Or.inr (Or.inr ⟨_, _, rfl⟩)

theorem crossing_job : ThalliumJob 3 exCb (plainTransform 0x2f 0x3a exFloat) (Hash.hxhimHash .ber 0 3)
    ((List.range 3).map (Layout.dsToRank ⟨3, 1, 1, 1⟩)) 100 4096 (fun n => List.replicate n 0) world (turnsFor crossing) := by
  refine job _ ?_
  intro x hx
  simp only [crossing, List.mem_cons, List.not_mem_nil, or_false] at hx
  rcases hx with rfl | rfl | rfl <;> refine ⟨by decide, ?_⟩ <;> intro c hc <;> simp only [List.mem_cons, List.not_mem_nil, or_false] at hc <;>
    rcases hc with rfl | rfl <;> exact Or.inl ⟨_, _, _, rfl⟩

end ThalliumEx

open ThalliumEx

example : JobActs 3 (turnsFor passing) (MpiEx.acts (turnsFor passing)) := MpiEx.acts_ok _ (by decide +kernel)

/-- An execution in which both flushes return, and what rank 2 has then. -/
example : ends false passing (firstHalf ++ secondHalf) 2 =
    some (true, true, some [[⟨hxSuccess, [], [], [3]⟩, ⟨hxSuccess, [], [], [4]⟩, ⟨hxSuccess, [1], [1], [3]⟩]]) := by
  decide +kernel

/-- The hypotheses of `C63_reads_partial` on time: the first flush has returned when the second begins. -/
example : Spec.Rpc.Before (sys false) MpiEx.world (turnsFor passing) (MpiEx.acts (turnsFor passing)) (firstHalf ++ secondHalf) 0 1 := by
  have h : (match Rpc.run (sys false) (Rpc.init MpiEx.world (jobProg (turnsFor passing) (MpiEx.acts (turnsFor passing)))) firstHalf with
    | some st => ThalliumEx.isReady (st.client 0).phase && (st.client 0).acts.isEmpty &&
        decide ((st.client 2).acts = (MpiEx.acts (turnsFor passing) 1).all)
    | none => false) = true := by decide +kernel
  split at h
  · rename_i st hst
    rw [Bool.and_eq_true, Bool.and_eq_true] at h
    obtain ⟨⟨h1, h2⟩, h3⟩ := h
    have hr : (st.client 0).phase = .ready := by
      cases hp : (st.client 0).phase with
      | ready => rfl
      | round s => rw [hp] at h1; cases h1
    refine ⟨firstHalf, secondHalf, st, rfl, hst, ⟨0, 1, by decide +kernel, hr, ?_⟩, ⟨2, 0, by decide +kernel, ?_⟩⟩
    · rw [List.isEmpty_iff.mp h2]
      decide +kernel
    · rw [of_decide_eq_true h3]
      have : ((turnsOf (turnsFor passing) (2 : Fin 3)).drop 0).flatMap (fun i => (MpiEx.acts (turnsFor passing) i).all) =
          (MpiEx.acts (turnsFor passing) 1).all := by decide +kernel
      rw [this]
  · cases h

/-- The flushes of `C57_deadlock_false` with Thallium, one handler on each rank: they return. -/
example : ends true MpiEx.crossing Calls.overlap 0 = some (true, true, some [[⟨hxSuccess, [], [], []⟩, ⟨hxSuccess, [], [], []⟩]]) := by
  decide +kernel

end Hx.Props

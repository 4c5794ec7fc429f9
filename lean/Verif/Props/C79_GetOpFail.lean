import Verif.Proofs.GetOpFail
import Verif.Props.C61_Mpi
import Verif.Props.C63_ThalliumJob
import Verif.Props.C76_FailedWrites

/-!
# C79: what GETOPs find when writes fail

As C61, but every write may fail. What is found is what the results of PUTs and DELETEs say.
-/

namespace Hx.Props
open Hx Msg Spec Process Store Results Job Place

/-- C79, partial: when ranks take turns, starting with empty datastores, and any of the writes fail, every PUT and DELETE has one
result, and every GETOP of the last turn has exactly the results that `Spec.getOpAnswer` picks out of the datastore its subject
and predicate belong to, after the PUTs and DELETEs of all earlier turns and the PUTs of the turn itself that reported success.
The results of one GETOP are behind each other. Missing: as `C61_partial`. -/
theorem C79_partial (cb : Callbacks) (t : Transform) (hash : Bytes → Bytes → Out Int) (place : List Int) (heap : Nat)
    (hheap : heap ≠ 0 ∧ heap < 2 ^ 64) (hplace : place.length ≤ 2 ^ 31) (b : Backend) (turns : List Turn) (x : Turn)
    (w w' : World) (rs : List Results) (r : Results) (hw : EmptyWorld w) (ha : Apart place w) (hb : Backed b w)
    (hturns : ∀ y ∈ turns, TurnOk cb t hash place y) (hx : TurnOk cb t hash place x)
    (hgiven : ∀ y ∈ turns ++ [x], PutsGiven (turnOps hash y)) (hops : GetOpsOk cb t (turnOps hash x))
    (h : run cb heap place.length w (turns ++ [x]) = .ok (w', rs ++ [r])) :
    ∃ H ps ds, Reported t.accepts hash turns rs H ∧ PutsReported (turnOps hash x) r ps ∧ DelsReported (turnOps hash x) r ds ∧
      ((∀ y ∈ getOps (turnOps hash x), Arrives t cb.neg b hash (H ++ succeededPuts t.accepts ps) y) →
        ∃ gs groups, gs.Perm (getOps (turnOps hash x)) ∧ r.items.filter (fun y => decide (y.kind = .getop)) = groups.flatten ∧
          List.Forall₂ (ReturnedOp t cb.neg b hash (H ++ succeededPuts t.accepts ps)) gs groups) := by
  obtain ⟨u, r1, r2, h1, h2, h3⟩ := run_append turns [x] h
  obtain ⟨H, hH, hu, hk⟩ := run_told hheap.1 hheap.2 hplace turns (stores_empty hw) hturns h1
  simp only [run] at h2
  obtain ⟨y, hy, h2⟩ := ok_iff.mp h2
  simp only [Out.ok_bind] at h2
  cases h2
  obtain ⟨e1, e2⟩ := List.append_inj' h3 rfl
  cases e2
  subst e1
  rw [List.nil_append] at hu
  obtain ⟨ps, ds, -, i2, i3, -, i5⟩ := turn_told (b := b) hheap.1 hheap.2 hplace hu hx hy
  refine ⟨H, ps, ds, hH, i2, i3, fun harr => i5 (hk.apart ha) (hk.backed hb) ?_ hops harr⟩
  intro s p o hm
  rcases List.mem_append.mp hm with hm | hm
  · exact keysFit_told hH hturns (fun y hy => hgiven y (by simp [hy])) s p o hm
  · exact keysFit_puts hx.operations (hgiven x (by simp)) s p o (succeededPuts_stored i2 _ hm)

/-- C79, partial: turns of operations that are always answered do succeed, whichever writes fail, and all GETOPs of the last turn
have exactly the results that `Spec.getOpAnswer` picks out of their datastores, after what reported success. Missing: as
`C48_runs_partial`. -/
theorem C79_runs_partial (cb : Callbacks) (t : Transform) (hash : Bytes → Bytes → Out Int) (place : List Int) (heap : Nat)
    (hheap : heap ≠ 0 ∧ heap < 2 ^ 64) (hplace : place.length ≤ 2 ^ 31) (b : Backend) (turns : List Turn) (x : Turn)
    (w : World) (hw : EmptyWorld w) (hs : Staffed place w) (ha : Apart place w) (hb : Backed b w)
    (hturns : ∀ y ∈ turns ++ [x], TurnOk cb t hash place y) (hruns : ∀ y ∈ turns ++ [x], TurnRuns cb t hash place.length y)
    (hgiven : ∀ y ∈ turns ++ [x], PutsGiven (turnOps hash y)) :
    ∃ w' rs r, run cb heap place.length w (turns ++ [x]) = .ok (w', rs ++ [r]) ∧
      ∃ H ps ds, Reported t.accepts hash turns rs H ∧ PutsReported (turnOps hash x) r ps ∧ DelsReported (turnOps hash x) r ds ∧
        ∃ gs groups, gs.Perm (getOps (turnOps hash x)) ∧ r.items.filter (fun y => decide (y.kind = .getop)) = groups.flatten ∧
          List.Forall₂ (ReturnedOp t cb.neg b hash (H ++ succeededPuts t.accepts ps)) gs groups := by
  obtain ⟨w', rs, h, -⟩ := C76_runs_partial cb t hash place heap hheap hplace (turns ++ [x]) w hw hs hturns hruns (fun _ => hgiven)
  obtain ⟨u, r1, r2, -, h2, rfl⟩ := run_append turns [x] h
  simp only [run] at h2
  obtain ⟨y, -, h2⟩ := ok_iff.mp h2
  simp only [Out.ok_bind] at h2
  cases h2
  have hsimple := (hruns x (by simp)).simple
  obtain ⟨H, ps, ds, i1, i2, i3, i4⟩ := C79_partial cb t hash place heap hheap hplace b turns x w _ r1 y.2 hw ha hb
    (fun y hy => hturns y (by simp [hy])) (hturns x (by simp)) hgiven (simple_getOpsOk hsimple) h
  exact ⟨_, r1, y.2, h, H, ps, ds, i1, i2, i3, i4 (fun g hg => simple_arrives hsimple hg b _)⟩

/-- C79 when flushes overlap, partial: starting with empty datastores, and with any of the writes failing, every PUT and DELETE of
every flush has one result (`ToldBy`), and there is a request in the log for every GETOP of every flush, such that the GETOP has
exactly the results that `Spec.getOpAnswer` picks out of the datastore its subject and predicate belong to, after all that
reported success before that request. Which PUTs and DELETEs of the datastore these are: all PUTs of the flush itself that
reported success and none of its DELETEs, all of finished flushes that reported success, none of flushes that begin later, and a
prefix of those of each other flush (`SeenInTold`). Missing: as `C61_partial` and `C78_gets_partial`. -/
theorem C79_overlap_partial (cb : Callbacks) (t : Transform) (hash : Bytes → Bytes → Out Int) (place : List Int) (heap : Nat)
    (hheap : heap ≠ 0 ∧ heap < 2 ^ 64) (hplace : place.length ≤ 2 ^ 31) (b : Backend) (turns : List Turn) (w w' : World)
    (log : List Served) (rs : List Results) (hw : EmptyWorld w) (ha : Apart place w) (hb : Backed b w)
    (hturns : ∀ y ∈ turns, TurnOk cb t hash place y) (hgiven : ∀ y ∈ turns, PutsGiven (turnOps hash y))
    (h : Overlap cb heap place.length w turns log w' rs) :
    ∃ f : Nat → Outcomes, ToldBy hash turns rs f ∧ ∀ i x r, turns[i]? = some x → rs[i]? = some r → GetOpsOk cb t (turnOps hash x) →
      (∀ g ∈ getOps (turnOps hash x), ∀ before y after, log = before ++ y :: after → y.turn = i →
        Arrives t cb.neg b hash (before.flatMap (fun y => done t.accepts y.req.body y.res.body)) g) →
      ∃ gs groups, gs.Perm (getOps (turnOps hash x)) ∧ r.items.filter (fun y => decide (y.kind = .getop)) = groups.flatten ∧
        List.Forall₂ (fun g z => ∃ before y after, OpAnsweredTold t.accepts hash turns.length f log i g before y after ∧
          ReturnedOp t cb.neg b hash (before.flatMap (fun y => done t.accepts y.req.body y.res.body)) g z) gs groups :=
  overlap_getops_told hheap.1 hheap.2 hplace (stores_empty hw) ha hb hturns hgiven h

section jobs

variable {n L : Nat} {cb : Callbacks} {t : Transform} {hash : Bytes → Bytes → Out Int} {place : List Int} {heap addr : Nat}
  {junk : Nat → Bytes} {w : World} {turns : List Turn}

/-- The GETOPs among the results `own c` that the ranks make of what they receive. -/
def GetOpsTold (cb : Callbacks) (t : Transform) (hash : Bytes → Bytes → Out Int) (b : Backend) (turns : List Turn) (log : List Served)
    (f : Nat → Outcomes) (own : Fin n → List Results) : Prop :=
  ∀ (c : Fin n) (k i : Nat) x, (turnsOf turns c)[k]? = some i → turns[i]? = some x →
    ∃ r, (own c)[k]? = some r ∧
      ∃ gs groups, gs.Perm (getOps (turnOps hash x)) ∧ r.items.filter (fun y => decide (y.kind = .getop)) = groups.flatten ∧
        List.Forall₂ (fun g z => ∃ before y after, OpAnsweredTold t.accepts hash turns.length f log i g before y after ∧
          ReturnedOp t cb.neg b hash (before.flatMap (fun y => done t.accepts y.req.body y.res.body)) g z) gs groups

private theorem getOpsTold (hheap : heap ≠ 0 ∧ heap < 2 ^ 64) (hplace : place.length ≤ 2 ^ 31) (b : Backend) {w' : World}
    {log : List Served} {rs : List Results} (hw : EmptyWorld w) (ha : Apart place w) (hb : Backed b w)
    (hturns : ∀ y ∈ turns, TurnOk cb t hash place y) (hruns : ∀ y ∈ turns, TurnRuns cb t hash place.length y)
    (hgiven : ∀ y ∈ turns, PutsGiven (turnOps hash y)) (h : Overlap cb heap place.length w turns log w' rs) :
    ∃ f : Nat → Outcomes, ToldBy hash turns rs f ∧
      GetOpsTold (n := n) cb t hash b turns log f (fun c => (turnsOf turns c).filterMap (fun i => rs[i]?)) := by
  obtain ⟨f, h1, h2⟩ := C79_overlap_partial cb t hash place heap hheap hplace b turns w w' log rs hw ha hb hturns hgiven h
  refine ⟨f, h1, fun c k i x hk hi => ?_⟩
  have hx : x ∈ turns := List.mem_of_getElem? hi
  have hlt : i < rs.length := by rw [h.results]; exact (List.getElem?_eq_some_iff.mp hi).1
  have hr : rs[i]? = some rs[i] := List.getElem?_eq_getElem hlt
  have hsimple := (hruns x hx).simple
  exact ⟨rs[i], by rw [own_result h.results hk, hr], h2 i x rs[i] hi hr (simple_getOpsOk hsimple)
    (fun g hg _ _ _ _ _ => simple_arrives hsimple hg b _)⟩

/-- C79 with MPI, partial: when all clients are finished, whichever writes failed, there is an order of the requests in which the
range servers executed them, which respects time as in `C57_partial`, what the ranks make of the messages they received are the
results of their flushes, and with the results of the PUTs and DELETEs every GETOP of every flush has exactly what
`Spec.getOpAnswer` picks out of its datastore, as in `C79_overlap_partial`. Missing: as `C57_safe_partial`. -/
theorem C79_mpi_partial (eager : Nat → Bool) (b : Backend) (hjob : MpiJob n cb t hash place heap addr junk w turns)
    (ha : Apart place w) (hb : Backed b w) (hgiven : ∀ y ∈ turns, PutsGiven (turnOps hash y))
    (acts : Nat → FlushActs n) (hacts : JobActs place.length turns acts) (ls : List (Mpi.Label n L))
    (st : Mpi.St n L Parcel Reply World)
    (h : Mpi.run (mpiSys cb heap addr junk eager) (Mpi.init w (jobProg turns acts)) ls = some st) (hf : Spec.Mpi.Finished st) :
    ∃ log rs, Overlap cb heap place.length w turns log st.world rs ∧
      (∀ c, clientResults addr ((turnsOf turns c).map acts) ((st.client c).results.map (·.res)) =
        .ok ((turnsOf turns c).filterMap (fun i => rs[i]?))) ∧
      (∀ i j, Before (mpiSys cb heap addr junk eager) w turns acts ls i j → Spec.Finished log i j) ∧
      (∀ i j x y, turns[i]? = some x → turns[j]? = some y → x.net.rank = y.net.rank → i < j → Spec.Finished log i j) ∧
      ∃ f : Nat → Outcomes, ToldBy hash turns rs f ∧
        GetOpsTold (n := n) cb t hash b turns log f (fun c => (turnsOf turns c).filterMap (fun i => rs[i]?)) := by
  obtain ⟨log, rs, h1, h2, h3, h4⟩ := C57_partial eager hjob acts hacts ls st h hf
  refine ⟨log, rs, h1, h2, ?_, h4, getOpsTold hjob.address hjob.count b hjob.fresh ha hb hjob.flushes hjob.runs hgiven h1⟩
  rintro i j ⟨ls₁, ls₂, m, m1, m2, m3, m4⟩
  exact h3 i j ls₁ ls₂ m m1 m2 m3 m4

/-- C79 with Thallium, partial, likewise. Missing: as `C63_safe_partial`. -/
theorem C79_thallium_partial (threads : Nat) (async : Bool) (b : Backend) (hjob : ThalliumJob n cb t hash place heap addr junk w turns)
    (ha : Apart place w) (hb : Backed b w) (hgiven : ∀ y ∈ turns, PutsGiven (turnOps hash y))
    (acts : Nat → FlushActs n) (hacts : JobActs place.length turns acts) (ls : List (Rpc.Label n)) (st : Rpc.St n Parcel Reply World)
    (h : Rpc.run (rpcSys cb heap addr junk threads async) (Rpc.init w (jobProg turns acts)) ls = some st) (hf : Spec.Rpc.Finished st) :
    ∃ log rs, Overlap cb heap place.length w turns log st.world rs ∧
      (∀ c, clientResults addr ((turnsOf turns c).map acts) ((st.client c).results.map (·.res)) =
        .ok ((turnsOf turns c).filterMap (fun i => rs[i]?))) ∧
      (∀ i j, Spec.Rpc.Before (rpcSys cb heap addr junk threads async) w turns acts ls i j → Spec.Finished log i j) ∧
      (∀ i j x y, turns[i]? = some x → turns[j]? = some y → x.net.rank = y.net.rank → i < j → Spec.Finished log i j) ∧
      ∃ f : Nat → Outcomes, ToldBy hash turns rs f ∧
        GetOpsTold (n := n) cb t hash b turns log f (fun c => (turnsOf turns c).filterMap (fun i => rs[i]?)) := by
  obtain ⟨log, rs, h1, h2, h3, h4⟩ := C63_partial threads async hjob acts hacts ls st h hf
  exact ⟨log, rs, h1, h2, h3, h4, getOpsTold hjob.address hjob.count b hjob.fresh ha hb hjob.flushes hjob.runs hgiven h1⟩

end jobs

/-! ### Examples -/

namespace C79Ex
open MpiEx

/-- LevelDB on three ranks, which does not write what the second request asks for. -/
def failing : World := ⟨fun _ => [exDs .level []], fun n => decide (n ≠ 1), 0⟩

/-- Rank 0 PUTs a pair, rank 1 PUTs another one to the same datastore, which fails, and rank 0 PUTs a third. Rank 2 asks for up to
five records. -/
def asked : List (Nat × List Queue.Call) := [(0, [put 1 1 3]), (1, [put 1 4 9]), (0, [put 1 7 5]), (2, [next 1 1])]

/-- The GETOP finds the first and the third. -/
example : (run exCb 100 3 failing (turnsFor asked) >>= fun x =>
    .ok (x.2.map (fun r => r.items.map (fun y => (y.status, match y.predicate with | .own b => b.bytes | _ => []))))) =
    .ok [[(hxSuccess, [])], [(hxError, [])], [(hxSuccess, [])], [(hxSuccess, [1]), (hxSuccess, [7])]] := by
  decide +kernel

theorem failing_ok : EmptyWorld failing ∧ Staffed ((List.range 3).map (Layout.dsToRank ⟨3, 1, 1, 1⟩)) failing ∧
    Apart ((List.range 3).map (Layout.dsToRank ⟨3, 1, 1, 1⟩)) failing ∧ Backed .level failing := by
  refine ⟨?_, ⟨?_, ?_⟩, ?_, ?_⟩
  · intro rank d hd
    rw [show d = exDs .level [] from List.mem_singleton.mp hd]
    exact ⟨rfl, rfl⟩
  · intro rank _ h
    cases h
  · intro rank d hd
    rw [show d = exDs .level [] from List.mem_singleton.mp hd]
    rfl
  · intro rank ds ds' h1 h2 _
    have get : ∀ ds : Nat, ((List.range 3).map (Layout.dsToRank ⟨3, 1, 1, 1⟩))[ds]? = some rank → (ds : Int) = rank := by
      intro ds h
      match ds with
      | 0 => cases h; rfl
      | 1 => cases h; rfl
      | 2 => cases h; rfl
      | n + 3 => cases h
    have := get ds h1
    have := get ds' h2
    omega
  · intro rank d hd
    rw [show d = exDs .level [] from List.mem_singleton.mp hd]
    rfl

/-- The hypotheses of all theorems above. -/
example : MpiJob 3 exCb (plainTransform 0x2f 0x3a exFloat) (Hash.hxhimHash .ber 0 3) ((List.range 3).map (Layout.dsToRank ⟨3, 1, 1, 1⟩)) 100 4096
      (fun n => List.replicate n 0) failing (turnsFor asked) ∧
    (∀ y ∈ turnsFor asked, PutsGiven (turnOps (Hash.hxhimHash .ber 0 3) y)) ∧
    (turnsFor asked).map (fun x => (getOps (turnOps (Hash.hxhimHash .ber 0 3) x)).length) = [0, 0, 0, 1] ∧
    JobActs 3 (turnsFor asked) (acts (turnsFor asked)) := by
  have hjob := job_in failing_ok.1 failing_ok.2.1 asked (by
    intro x hx
    simp only [asked, List.mem_cons, List.not_mem_nil, or_false] at hx
    rcases hx with rfl | rfl | rfl | rfl <;> refine ⟨by decide, ?_⟩ <;> intro c hc <;> rw [List.mem_singleton] at hc <;> subst hc
    · exact Or.inl ⟨_, _, _, rfl⟩
    · exact Or.inl ⟨_, _, _, rfl⟩
    · exact Or.inl ⟨_, _, _, rfl⟩
    · exact Or.inr (Or.inr ⟨_, _, rfl⟩))
  have hlen : (turnsFor asked).map (fun x => (getOps (turnOps (Hash.hxhimHash .ber 0 3) x)).length) = [0, 0, 0, 1] := by decide +kernel
  refine ⟨hjob, hjob.given ?_, hlen, acts_ok _ (by decide +kernel)⟩
  have hm : 1 ∈ (turnsFor asked).map (fun x => (getOps (turnOps (Hash.hxhimHash .ber 0 3) x)).length) := by rw [hlen]; simp
  obtain ⟨x, hx, h1⟩ := List.mem_map.mp hm
  exact ⟨x, hx, fun h0 => by rw [h0] at h1; cases h1⟩

end C79Ex

end Hx.Props

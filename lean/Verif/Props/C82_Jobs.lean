import Verif.Props.C78_Jobs
import Verif.Props.C82_HistJob

/-!
# C82 with MPI and Thallium
-/

namespace Hx.Props
open Hx Msg Spec Process Store Results Job Place

variable {cb : Callbacks} {t : Transform} {hash : Bytes → Bytes → Out Int} {place : List Int} {heap addr : Nat} {junk : Nat → Bytes}
  {n L : Nat} {w : World} {turns : List Turn}

/-- C82 with MPI, partial: when all clients are finished, whichever writes failed, there is an order of the requests in which the range
servers executed them, which respects time as in `C57_partial`; what the ranks make of the messages they received are the results of
their flushes; and every histogram request of every flush has one result, which is the histogram of the datastore asked with the numbers
of the PUTs of all ranks that were answered with success before it, or an error if there is no such histogram. If the other flushes
with numbers for the histogram have returned before this flush begins, the result has all of their numbers that reported success, each
exactly once. Missing: as `C57_safe_partial`, histograms that were read back from a datastore. -/
theorem C82_mpi_partial (eager : Nat → Bool) (hjob : MpiJob n cb t hash place heap addr junk w turns) (ha : Apart place w)
    (acts : Nat → FlushActs n) (hacts : JobActs place.length turns acts) (ls : List (Mpi.Label n L))
    (st : Mpi.St n L Parcel Reply World)
    (h : Mpi.run (mpiSys cb heap addr junk eager) (Mpi.init w (jobProg turns acts)) ls = some st) (hf : Spec.Mpi.Finished st) :
    ∃ log rs, Overlap cb heap place.length w turns log st.world rs ∧
      (∀ c, clientResults addr ((turnsOf turns c).map acts) ((st.client c).results.map (·.res)) =
        .ok ((turnsOf turns c).filterMap (fun i => rs[i]?))) ∧
      (∀ i j, Before (mpiSys cb heap addr junk eager) w turns acts ls i j → Spec.Finished log i j) ∧
      (∀ i j x y, turns[i]? = some x → turns[j]? = some y → x.net.rank = y.net.rank → i < j → Spec.Finished log i j) ∧
      ∃ f : Nat → Outcomes, ToldBy hash turns rs f ∧ ∀ i x r, turns[i]? = some x → rs[i]? = some r →
        ∃ qs, qs.Perm (histOps (turnOps hash x)) ∧ List.Forall₂ (fun q z => ∃ before y after,
          HistAnswered hash turns.length f log i q before y after ∧
          HistReturned (histAt place w q.1 q.2.bytes) (loggedNumbers q.1 q.2.bytes before) z ∧
          ((∀ k < turns.length, k ≠ i → Before (mpiSys cb heap addr junk eager) w turns acts ls k i ∨
              toldNumbers hash q.1 q.2.bytes (f k).puts = []) →
            (loggedNumbers q.1 q.2.bytes before).Perm
              ((List.range turns.length).flatMap (fun k => toldNumbers hash q.1 q.2.bytes (f k).puts)))) qs
          (r.items.filter (fun y => decide (y.kind = .hist))) := by
  obtain ⟨log, rs, h1, h2, h3, h4, -⟩ := C78_mpi_partial eager hjob acts hacts ls st h hf
  obtain ⟨f, h5, h6⟩ := C82_overlap_partial cb t hash place heap hjob.count turns w st.world log rs hjob.fresh ha hjob.prepared.2.1
    hjob.flushes h1 (few_logged hjob.count ha hjob.prepared.2.1 hjob.flushes h1 (C57_few eager hjob acts hacts ls st h hf))
  refine ⟨log, rs, h1, h2, h3, h4, f, h5, fun i x r hi hr => ?_⟩
  obtain ⟨qs, hq, h7⟩ := h6 i x r hi hr
  refine ⟨qs, hq, h7.imp ?_⟩
  rintro q z ⟨before, y, after, hans, hret⟩
  exact ⟨before, y, after, hans, hret, fun hfin => hans.complete (fun k hk hki => (hfin k hk hki).imp (h3 k i) id)⟩

/-- C82 with Thallium, partial, likewise. Missing: as `C63_safe_partial`, histograms that were read back from a datastore. -/
theorem C82_thallium_partial (threads : Nat) (async : Bool) (hjob : ThalliumJob n cb t hash place heap addr junk w turns)
    (ha : Apart place w) (acts : Nat → FlushActs n) (hacts : JobActs place.length turns acts) (ls : List (Rpc.Label n))
    (st : Rpc.St n Parcel Reply World)
    (h : Rpc.run (rpcSys cb heap addr junk threads async) (Rpc.init w (jobProg turns acts)) ls = some st) (hf : Spec.Rpc.Finished st) :
    ∃ log rs, Overlap cb heap place.length w turns log st.world rs ∧
      (∀ c, clientResults addr ((turnsOf turns c).map acts) ((st.client c).results.map (·.res)) =
        .ok ((turnsOf turns c).filterMap (fun i => rs[i]?))) ∧
      (∀ i j, Spec.Rpc.Before (rpcSys cb heap addr junk threads async) w turns acts ls i j → Spec.Finished log i j) ∧
      (∀ i j x y, turns[i]? = some x → turns[j]? = some y → x.net.rank = y.net.rank → i < j → Spec.Finished log i j) ∧
      ∃ f : Nat → Outcomes, ToldBy hash turns rs f ∧ ∀ i x r, turns[i]? = some x → rs[i]? = some r →
        ∃ qs, qs.Perm (histOps (turnOps hash x)) ∧ List.Forall₂ (fun q z => ∃ before y after,
          HistAnswered hash turns.length f log i q before y after ∧
          HistReturned (histAt place w q.1 q.2.bytes) (loggedNumbers q.1 q.2.bytes before) z ∧
          ((∀ k < turns.length, k ≠ i → Spec.Rpc.Before (rpcSys cb heap addr junk threads async) w turns acts ls k i ∨
              toldNumbers hash q.1 q.2.bytes (f k).puts = []) →
            (loggedNumbers q.1 q.2.bytes before).Perm
              ((List.range turns.length).flatMap (fun k => toldNumbers hash q.1 q.2.bytes (f k).puts)))) qs
          (r.items.filter (fun y => decide (y.kind = .hist))) := by
  obtain ⟨log, rs, h1, h2, h3, h4, -⟩ := C78_thallium_partial threads async hjob acts hacts ls st h hf
  obtain ⟨f, h5, h6⟩ := C82_overlap_partial cb t hash place heap hjob.count turns w st.world log rs hjob.fresh ha hjob.prepared.2.1
    hjob.flushes h1 (few_logged hjob.count ha hjob.prepared.2.1 hjob.flushes h1 (C63_few threads async hjob acts hacts ls st h hf))
  refine ⟨log, rs, h1, h2, h3, h4, f, h5, fun i x r hi hr => ?_⟩
  obtain ⟨qs, hq, h7⟩ := h6 i x r hi hr
  refine ⟨qs, hq, h7.imp ?_⟩
  rintro q z ⟨before, y, after, hans, hret⟩
  exact ⟨before, y, after, hans, hret, fun hfin => hans.complete (fun k hk hki => (hfin k hk hki).imp (h3 k i) id)⟩

/-! ### Two ranks with histograms -/

namespace C82Ex

theorem world_prepared : Prepared ((List.range 2).map (Layout.dsToRank ⟨2, 1, 1, 1⟩)) world := by
  refine ⟨fun _ _ => by simp [world], world_new, ?_⟩
  intro rank d hd name h hf vs
  rw [List.mem_singleton.mp hd] at hf
  have hh : h = Hist.create 2 (some exGen) [104] := by
    simp only [Store.find] at hf
    by_cases hn : [104] = name
    · subst hn; simpa using hf.symm
    · simp [hn] at hf
  subst hh
  by_cases hl : vs.length < 2
  · exact ⟨_, Hist.addAll_caching 2 _ _ vs hl⟩
  · obtain ⟨h2, e2, -⟩ := C42_counts exGen 2 [104] vs [0] (by decide) (by omega) rfl ⟨by decide, by decide, by decide⟩
    exact ⟨h2, e2⟩

/-- A flush of `rank`, with a hash function that is defined for all keys. -/
def berTurn (rank : Nat) (calls : List Queue.Call) : Turn := ⟨⟨Hash.hxhimHash .ber rank 2, 10, 0, 2⟩, net rank, calls⟩

/-- The flushes of `flushA` and `flushB`. -/
def berA : Turn := berTurn 0 [put 1 d1, put 2 d2]
def berB : Turn := berTurn 1 [put 3 d3, hist 0 104, hist 1 104, hist 1 105]

theorem idle : ThalliumJob 2 exCbF (plainTransform 0x2f 0x3a exCopyFloat) (Hash.hxhimHash .ber 0 2)
    ((List.range 2).map (Layout.dsToRank ⟨2, 1, 1, 1⟩)) 100 4096 (fun n => List.replicate n 0) world [berTurn 0 [], berTurn 1 []] :=
  C63_sessions (neg := 0x2f) (pos := 0x3a) ⟨by decide, by decide⟩ exCopyFloat ⟨2, 1, 1, 1⟩ (by decide) ⟨rfl, Or.inl (Nat.le_refl _)⟩ (by decide)
    (by decide) .ber (by decide) (fun s p => ⟨_, rfl⟩) [] (Or.inl rfl) id (fun _ => List.Perm.refl _) 100 4096 (by decide) (by decide)
    (fun n => List.replicate n 0) 10 0 2 (by decide) (by decide) world world_empty world_prepared
    [(0, []), (1, [])] (by decide)
    (fun x hx c hc => by simp only [List.mem_cons, List.not_mem_nil, or_false] at hx; rcases hx with rfl | rfl <;> cases hc)
    (by rintro ⟨x, hx, c, hc, -⟩; simp only [List.mem_cons, List.not_mem_nil, or_false] at hx; rcases hx with rfl | rfl <;> cases hc)
    (fun _ => by decide)

theorem ops_A : turnOps (Hash.hxhimHash .ber 0 2) berA = [.put (key 16 1) (key 32 104) (num 48 d1), .put (key 16 2) (key 32 104) (num 48 d2)] := by
  decide +kernel
theorem ops_B : turnOps (Hash.hxhimHash .ber 0 2) berB = [.put (key 16 3) (key 32 104) (num 48 d3), .hist 0 (key 96 104), .hist 1 (key 96 104),
    .hist 1 (key 96 105)] := by decide +kernel

theorem job : ThalliumJob 2 exCbF (plainTransform 0x2f 0x3a exCopyFloat) (Hash.hxhimHash .ber 0 2)
    ((List.range 2).map (Layout.dsToRank ⟨2, 1, 1, 1⟩)) 100 4096 (fun n => List.replicate n 0) world [berA, berB] := by
  have hops : ∀ x ∈ [berA, berB], ∀ o ∈ turnOps (Hash.hxhimHash .ber 0 2) x,
      (∃ s v, o = Op.put (key 16 s) (key 32 104) (num 48 v)) ∨ ∃ rs b, o = Op.hist rs (key 96 b) := by
    intro x hx o ho
    simp only [List.mem_cons, List.not_mem_nil, or_false] at hx
    rcases hx with rfl | rfl
    · rw [ops_A] at ho
      simp only [List.mem_cons, List.not_mem_nil, or_false] at ho
      rcases ho with rfl | rfl <;> exact Or.inl ⟨_, _, rfl⟩
    · rw [ops_B] at ho
      simp only [List.mem_cons, List.not_mem_nil, or_false] at ho
      rcases ho with rfl | rfl | rfl | rfl
      · exact Or.inl ⟨_, _, rfl⟩
      all_goals exact Or.inr ⟨_, _, rfl⟩
  have hrun : ∀ x ∈ [berA, berB], ∀ o ∈ turnOps (Hash.hxhimHash .ber 0 2) x,
      SimpleOp exCbF (plainTransform 0x2f 0x3a exCopyFloat) o := by
    intro x hx o ho
    rcases hops x hx o ho with ⟨s, v, rfl⟩ | ⟨rs, b, rfl⟩ <;> exact True.intro
  refine ⟨idle.address, idle.count, idle.ranks, idle.fresh, idle.prepared, ?_, ?_, ?_, fun _ => ⟨?_, by rw [List.map_cons, List.map_cons, ops_A, ops_B]; decide⟩, ?_⟩
  · intro x hx
    have hall : ∀ o ∈ turnOps (Hash.hxhimHash .ber 0 2) x, OpOk exCbF (plainTransform 0x2f 0x3a exCopyFloat) 4096 o := by
      intro o ho
      rcases hops x hx o ho with ⟨s, v, rfl⟩ | ⟨rs, b, rfl⟩
      · exact put_ok s 104 v
      · exact ⟨⟨by show 1 < 2 ^ 64; decide, by show 7 < 2 ^ 32; decide, by show 96 < 2 ^ 64; decide⟩, by show 96 ≠ 0; decide⟩
    simp only [List.mem_cons, List.not_mem_nil, or_false] at hx
    rcases hx with rfl | rfl
    · have h := idle.flushes (berTurn 0 []) (by simp)
      exact ⟨h.sameHash, h.samePlace, h.routed, h.maxOps, h.rank, h.address, hall⟩
    · have h := idle.flushes (berTurn 1 []) (by simp)
      exact ⟨h.sameHash, h.samePlace, h.routed, h.maxOps, h.rank, h.address, hall⟩
  · intro x hx
    have ho := hrun x hx
    simp only [List.mem_cons, List.not_mem_nil, or_false] at hx
    rcases hx with rfl | rfl
    · have h := idle.runs (berTurn 0 []) (by simp)
      refine ⟨h.hashed, h.room, h.servers, ?_, ho⟩
      intro c hc
      simp only [berA, berTurn, List.mem_cons, List.not_mem_nil, or_false] at hc
      rcases hc with rfl | rfl <;> exact ⟨rfl, rfl, rfl⟩
    · have h := idle.runs (berTurn 1 []) (by simp)
      refine ⟨h.hashed, h.room, h.servers, ?_, ho⟩
      intro c hc
      simp only [berB, berTurn, List.mem_cons, List.not_mem_nil, or_false] at hc
      rcases hc with rfl | rfl | rfl | rfl
      · exact ⟨rfl, rfl, rfl⟩
      all_goals exact True.intro
  · rintro ⟨x, hx, hne⟩
    exfalso
    apply hne
    unfold getOps
    rw [List.filterMap_eq_nil_iff]
    intro o ho
    rcases hops x hx o ho with ⟨s, v, rfl⟩ | ⟨rs, b, rfl⟩ <;> rfl
  · intro x hx s p o ho
    rcases hops x hx _ ho with ⟨s, v, h⟩ | ⟨rs, b, h⟩
    · cases h
      refine ⟨fun h => ?_, fun _ => ?_⟩
      · cases (show tDouble = tFloat from h)
      · show 8 ≤ (Hist.dblBytes v).length
        rw [dblBytes_length]
    · cases h
  · intro x hx
    simp only [List.mem_cons, List.not_mem_nil, or_false] at hx
    rcases hx with rfl | rfl
    · have h := idle.thallium (berTurn 0 []) (by simp); exact ⟨h.1, h.2, h.3, h.4⟩
    · have h := idle.thallium (berTurn 1 []) (by simp); exact ⟨h.1, h.2, h.3, h.4⟩

end C82Ex
open C82Ex

/-- Two ranks with a histogram each, over Thallium: the job comes to its end, and rank 1 has a result for each of its three histogram
requests. -/
example : ∃ acts ls st, JobActs 2 [berA, berB] acts ∧
    Rpc.run (rpcSys exCbF 100 4096 (fun n => List.replicate n 0) 1 true) (Rpc.init world (jobProg [berA, berB] acts)) ls = some st ∧
    Spec.Rpc.Finished st ∧ Apart ((List.range 2).map (Layout.dsToRank ⟨2, 1, 1, 1⟩)) world ∧ HasHists world ∧
    ∃ r, clientResults 4096 ((turnsOf [berA, berB] (1 : Fin 2)).map acts) ((st.client (1 : Fin 2)).results.map (·.res)) = .ok [r] ∧
      (r.items.filter (fun y => decide (y.kind = .hist))).length = 3 := by
  obtain ⟨acts, h4⟩ := C63_acts job
  obtain ⟨-, ⟨ls, st, h5, h6, -⟩, -⟩ := C63_finishes_partial 1 (by decide) true job acts h4 [] _ rfl
  refine ⟨acts, ls, st, h4, h5, h6, world_apart, ⟨0, _, by simp [world]; rfl, [104], _, rfl⟩, ?_⟩
  obtain ⟨log, rs, h1, h2, -, -, f, -, h7⟩ := C82_thallium_partial 1 true job world_apart acts h4 ls st h5 h6
  have hlen : rs.length = 2 := h1.results
  match rs, hlen with
  | [a, b], _ =>
    refine ⟨b, ?_, ?_⟩
    · rw [h2 1]
      rw [show turnsOf [berA, berB] (1 : Fin 2) = [1] by decide +kernel]
      rfl
    · obtain ⟨qs, hq, h8⟩ := h7 1 berB b rfl rfl
      rw [← h8.length_eq, hq.length_eq, ops_B]
      rfl

end Hx.Props

import Verif.Props.C57_MpiJob
import Verif.Props.C63_ThalliumJob
import Verif.Props.C78_OverlapFail

/-!
# C78 for jobs with MPI and with Thallium

Flushes as messages (C57) or calls (C63), for any interleaving of the steps of all clients and range servers, when writes fail.
-/

namespace Hx.Props
open Hx Msg Spec Process Store Results Job Place

variable {n L : Nat} {cb : Callbacks} {t : Transform} {hash : Bytes → Bytes → Out Int} {place : List Int} {heap addr : Nat}
  {junk : Nat → Bytes} {w : World} {turns : List Turn}

/-- Flush `k` has the results `r` among the results `res` of the ranks. -/
def ResultOf (turns : List Turn) (res : Fin n → List Results) (k : Nat) (r : Results) : Prop :=
  ∃ (c : Fin n) (j : Nat), (turnsOf turns c)[j]? = some k ∧ (res c)[j]? = some r

private theorem result_rs {turns : List Turn} {res : Fin n → List Results} {rs : List Results} (hlen : rs.length = turns.length)
    (h : ∀ c, res c = (turnsOf turns c).filterMap (fun i => rs[i]?)) {k : Nat} {r : Results} (hr : ResultOf turns res k r) :
    rs[k]? = some r := by
  obtain ⟨c, j, h1, h2⟩ := hr
  rw [h c, own_result hlen h1] at h2
  exact h2

private theorem rs_result {turns : List Turn} {res : Fin n → List Results} {rs : List Results} (hlen : rs.length = turns.length)
    (haboard : ∀ x ∈ turns, Aboard n addr junk x)
    (h : ∀ c, res c = (turnsOf turns c).filterMap (fun i => rs[i]?)) {k : Nat} {r : Results} (hr : rs[k]? = some r) :
    ResultOf turns res k r := by
  have hk : k < turns.length := by rw [← hlen]; exact (List.getElem?_eq_some_iff.mp hr).1
  obtain ⟨c, hc⟩ := all_turns haboard k hk
  obtain ⟨j, hj⟩ := List.mem_iff_getElem?.mp hc
  exact ⟨c, j, hj, by rw [h c, own_result hlen hj]; exact hr⟩

/-- C78 with MPI, partial: when all clients are finished, whichever writes failed, there is an order of the requests in which the
range servers executed them, which respects time as in `C57_partial`; what the ranks make of the messages they received are the
results of their flushes; and with the results of the PUTs and DELETEs every GET is explained by a change of the pair that
reported success and can be the latest one. Missing: as `C57_safe_partial`. -/
theorem C78_mpi_partial (eager : Nat → Bool) (hjob : MpiJob n cb t hash place heap addr junk w turns)
    (acts : Nat → FlushActs n) (hacts : JobActs place.length turns acts) (ls : List (Mpi.Label n L))
    (st : Mpi.St n L Parcel Reply World)
    (h : Mpi.run (mpiSys cb heap addr junk eager) (Mpi.init w (jobProg turns acts)) ls = some st) (hf : Spec.Mpi.Finished st) :
    ∃ log rs, Overlap cb heap place.length w turns log st.world rs ∧
      (∀ c, clientResults addr ((turnsOf turns c).map acts) ((st.client c).results.map (·.res)) =
        .ok ((turnsOf turns c).filterMap (fun i => rs[i]?))) ∧
      (∀ i j, Before (mpiSys cb heap addr junk eager) w turns acts ls i j → Spec.Finished log i j) ∧
      (∀ i j x y, turns[i]? = some x → turns[j]? = some y → x.net.rank = y.net.rank → i < j → Spec.Finished log i j) ∧
      ∃ f : Nat → Outcomes, ToldBy hash turns rs f ∧ ∀ i x r, turns[i]? = some x → rs[i]? = some r →
        ∃ gs, gs.Perm (getPairs (turnOps hash x)) ∧
          List.Forall₂ (ExplainedTold t turns.length f log i) gs (r.items.filter (fun y => decide (y.kind = .get))) := by
  obtain ⟨log, rs, h1, h2, h3, h4⟩ := C57_partial eager hjob acts hacts ls st h hf
  refine ⟨log, rs, h1, h2, ?_, h4, C78_explained_partial cb t hash place heap hjob.address hjob.count turns w st.world log rs
    hjob.fresh hjob.flushes h1⟩
  rintro i j ⟨ls₁, ls₂, m, m1, m2, m3, m4⟩
  exact h3 i j ls₁ ls₂ m m1 m2 m3 m4

/-- C78 with Thallium, partial, likewise. Missing: as `C63_safe_partial`. -/
theorem C78_thallium_partial (threads : Nat) (async : Bool) (hjob : ThalliumJob n cb t hash place heap addr junk w turns)
    (acts : Nat → FlushActs n) (hacts : JobActs place.length turns acts) (ls : List (Rpc.Label n)) (st : Rpc.St n Parcel Reply World)
    (h : Rpc.run (rpcSys cb heap addr junk threads async) (Rpc.init w (jobProg turns acts)) ls = some st) (hf : Spec.Rpc.Finished st) :
    ∃ log rs, Overlap cb heap place.length w turns log st.world rs ∧
      (∀ c, clientResults addr ((turnsOf turns c).map acts) ((st.client c).results.map (·.res)) =
        .ok ((turnsOf turns c).filterMap (fun i => rs[i]?))) ∧
      (∀ i j, Spec.Rpc.Before (rpcSys cb heap addr junk threads async) w turns acts ls i j → Spec.Finished log i j) ∧
      (∀ i j x y, turns[i]? = some x → turns[j]? = some y → x.net.rank = y.net.rank → i < j → Spec.Finished log i j) ∧
      ∃ f : Nat → Outcomes, ToldBy hash turns rs f ∧ ∀ i x r, turns[i]? = some x → rs[i]? = some r →
        ∃ gs, gs.Perm (getPairs (turnOps hash x)) ∧
          List.Forall₂ (ExplainedTold t turns.length f log i) gs (r.items.filter (fun y => decide (y.kind = .get))) := by
  obtain ⟨log, rs, h1, h2, h3, h4⟩ := C63_partial threads async hjob acts hacts ls st h hf
  exact ⟨log, rs, h1, h2, h3, h4, C78_explained_partial cb t hash place heap hjob.address hjob.count turns w st.world log rs
    hjob.fresh hjob.flushes h1⟩

/-- C78 with MPI, partial: flush `a` PUTs `(s, p, o)` (its last PUT of that pair, without a DELETE of it), the results of its rank
with those references report success, and it has returned before flush `b` of any rank begins. Every other flush has no PUT or
DELETE of the pair, or its rank was told that all its PUTs and DELETEs failed, or it has returned before `a` begins, or begins
when `b` has returned. Then the results that the rank of `b` gets have `o` for the GET of the pair. Missing: as
`C57_safe_partial`. -/
theorem C78_mpi_reads_partial (eager : Nat → Bool) (hjob : MpiJob n cb t hash place heap addr junk w turns)
    (acts : Nat → FlushActs n) (hacts : JobActs place.length turns acts) (ls : List (Mpi.Label n L))
    (st : Mpi.St n L Parcel Reply World)
    (h : Mpi.run (mpiSys cb heap addr junk eager) (Mpi.init w (jobProg turns acts)) ls = some st) (hf : Spec.Mpi.Finished st)
    (res : Fin n → List Results)
    (hres : ∀ c, clientResults addr ((turnsOf turns c).map acts) ((st.client c).results.map (·.res)) = .ok (res c))
    (a b : Nat) (xa xb : Turn) (ra rb : Results) (ha : turns[a]? = some xa) (hb : turns[b]? = some xb)
    (hra : ResultOf turns res a ra) (hrb : ResultOf turns res b rb) (hab : a ≠ b)
    (hbefore : Before (mpiSys cb heap addr junk eager) w turns acts ls a b)
    (s p o s' p' : Blob) (ty : Nat) (first last : List Op)
    (hput : turnOps hash xa = first ++ Op.put s p o :: last) (hlast : ∀ y ∈ last, ¬ Writes s.val p.val y)
    (hdel : ∀ s₁ p₁, Op.del s₁ p₁ ∈ first → ¬ (s₁.val = s.val ∧ p₁.val = p.val))
    (haccept : t.accepts s.val = true ∧ t.accepts p.val = true ∧ t.accepts o.val = true)
    (hstatus : ∀ y ∈ ra.items, y.kind = .put → y.subject = .ref ⟨s.addr, s.bytes.length, s.typ⟩ →
      y.predicate = .ref ⟨p.addr, p.bytes.length, p.typ⟩ → y.status = hxSuccess)
    (hothers : ∀ k x r, turns[k]? = some x → ResultOf turns res k r → k ≠ a → k ≠ b →
      Unchanged hash s.val p.val x r ∨ Before (mpiSys cb heap addr junk eager) w turns acts ls k a ∨
        Before (mpiSys cb heap addr junk eager) w turns acts ls b k)
    (hown : (∀ s₁ p₁ o₁, Op.put s₁ p₁ o₁ ∈ turnOps hash xb → ¬ (s₁.val = s.val ∧ p₁.val = p.val)) ∨ NoneWritten rb)
    (hget : Op.get s' p' ty ∈ turnOps hash xb) (hsame : s'.val = s.val ∧ p'.val = p.val) :
    ∃ y ∈ rb.items, y.kind = .get ∧ y.subject = .ref ⟨s'.addr, s'.bytes.length, s'.typ⟩ ∧
      y.predicate = .ref ⟨p'.addr, p'.bytes.length, p'.typ⟩ ∧ y.status = hxSuccess ∧
      ∃ v : Blob, y.object = .own v ∧ v.bytes = t.R o.val ∧ v.typ = o.typ := by
  obtain ⟨log, rs, h1, h2, h3, -, -⟩ := C78_mpi_partial eager hjob acts hacts ls st h hf
  have hrs : ∀ c, res c = (turnsOf turns c).filterMap (fun i => rs[i]?) := fun c => Out.ok.inj ((hres c).symm.trans (h2 c))
  exact C78_partial cb t hash place heap hjob.address hjob.count turns w st.world log rs hjob.fresh hjob.flushes h1 a b xa xb ra rb
    ha hb (result_rs h1.results hrs hra) (result_rs h1.results hrs hrb) hab (h3 a b hbefore) s p o s' p' ty first last hput hlast
    hdel haccept hstatus (fun k x r hk hr hka hkb => by
      rcases hothers k x r hk (rs_result h1.results hjob.aboard hrs hr) hka hkb with h | h | h
      · exact Or.inl h
      · exact Or.inr (Or.inl (h3 _ _ h))
      · exact Or.inr (Or.inr (h3 _ _ h))) hown hget hsame

/-- C78 with Thallium, partial, likewise. Missing: as `C63_safe_partial`. -/
theorem C78_thallium_reads_partial (threads : Nat) (async : Bool) (hjob : ThalliumJob n cb t hash place heap addr junk w turns)
    (acts : Nat → FlushActs n) (hacts : JobActs place.length turns acts) (ls : List (Rpc.Label n)) (st : Rpc.St n Parcel Reply World)
    (h : Rpc.run (rpcSys cb heap addr junk threads async) (Rpc.init w (jobProg turns acts)) ls = some st) (hf : Spec.Rpc.Finished st)
    (res : Fin n → List Results)
    (hres : ∀ c, clientResults addr ((turnsOf turns c).map acts) ((st.client c).results.map (·.res)) = .ok (res c))
    (a b : Nat) (xa xb : Turn) (ra rb : Results) (ha : turns[a]? = some xa) (hb : turns[b]? = some xb)
    (hra : ResultOf turns res a ra) (hrb : ResultOf turns res b rb) (hab : a ≠ b)
    (hbefore : Spec.Rpc.Before (rpcSys cb heap addr junk threads async) w turns acts ls a b)
    (s p o s' p' : Blob) (ty : Nat) (first last : List Op)
    (hput : turnOps hash xa = first ++ Op.put s p o :: last) (hlast : ∀ y ∈ last, ¬ Writes s.val p.val y)
    (hdel : ∀ s₁ p₁, Op.del s₁ p₁ ∈ first → ¬ (s₁.val = s.val ∧ p₁.val = p.val))
    (haccept : t.accepts s.val = true ∧ t.accepts p.val = true ∧ t.accepts o.val = true)
    (hstatus : ∀ y ∈ ra.items, y.kind = .put → y.subject = .ref ⟨s.addr, s.bytes.length, s.typ⟩ →
      y.predicate = .ref ⟨p.addr, p.bytes.length, p.typ⟩ → y.status = hxSuccess)
    (hothers : ∀ k x r, turns[k]? = some x → ResultOf turns res k r → k ≠ a → k ≠ b →
      Unchanged hash s.val p.val x r ∨ Spec.Rpc.Before (rpcSys cb heap addr junk threads async) w turns acts ls k a ∨
        Spec.Rpc.Before (rpcSys cb heap addr junk threads async) w turns acts ls b k)
    (hown : (∀ s₁ p₁ o₁, Op.put s₁ p₁ o₁ ∈ turnOps hash xb → ¬ (s₁.val = s.val ∧ p₁.val = p.val)) ∨ NoneWritten rb)
    (hget : Op.get s' p' ty ∈ turnOps hash xb) (hsame : s'.val = s.val ∧ p'.val = p.val) :
    ∃ y ∈ rb.items, y.kind = .get ∧ y.subject = .ref ⟨s'.addr, s'.bytes.length, s'.typ⟩ ∧
      y.predicate = .ref ⟨p'.addr, p'.bytes.length, p'.typ⟩ ∧ y.status = hxSuccess ∧
      ∃ v : Blob, y.object = .own v ∧ v.bytes = t.R o.val ∧ v.typ = o.typ := by
  obtain ⟨log, rs, h1, h2, h3, -, -⟩ := C78_thallium_partial threads async hjob acts hacts ls st h hf
  have hrs : ∀ c, res c = (turnsOf turns c).filterMap (fun i => rs[i]?) := fun c => Out.ok.inj ((hres c).symm.trans (h2 c))
  exact C78_partial cb t hash place heap hjob.address hjob.count turns w st.world log rs hjob.fresh hjob.flushes h1 a b xa xb ra rb
    ha hb (result_rs h1.results hrs hra) (result_rs h1.results hrs hrb) hab (h3 a b hbefore) s p o s' p' ty first last hput hlast
    hdel haccept hstatus (fun k x r hk hr hka hkb => by
      rcases hothers k x r hk (rs_result h1.results hjob.aboard hrs hr) hka hkb with h | h | h
      · exact Or.inl h
      · exact Or.inr (Or.inl (h3 _ _ h))
      · exact Or.inr (Or.inr (h3 _ _ h))) hown hget hsame

namespace C78Ex
open MpiEx

/-- LevelDB on three ranks, which does not write what the second request asks for. -/
def failing : World := ⟨fun _ => [exDs .level []], fun n => decide (n ≠ 1), 0⟩

theorem failing_empty : EmptyWorld failing ∧ Staffed ((List.range 3).map (Layout.dsToRank ⟨3, 1, 1, 1⟩)) failing := by
  refine ⟨?_, ⟨?_, ?_⟩⟩
  · intro rank d hd
    rw [show d = exDs .level [] from List.mem_singleton.mp hd]
    exact ⟨rfl, rfl⟩
  · intro rank _ h
    cases h
  · intro rank d hd
    rw [show d = exDs .level [] from List.mem_singleton.mp hd]
    rfl

/-- Rank 0 PUTs two pairs, and is told that the second was not written. Then rank 2 GETs both: it gets the first, and
an error for the second. The hypotheses of `C78_mpi_partial` hold, and those of `C78_mpi_reads_partial` for the first pair. -/
example : MpiJob 3 exCb (plainTransform 0x2f 0x3a exFloat) (Hash.hxhimHash .ber 0 3)
      ((List.range 3).map (Layout.dsToRank ⟨3, 1, 1, 1⟩)) 100 4096 (fun n => List.replicate n 0) failing (turnsFor passing) ∧
    JobActs 3 (turnsFor passing) (acts (turnsFor passing)) ∧
    ∃ st ra rb,
      Mpi.run (sys 64) (Mpi.init failing (jobProg (turnsFor passing) (acts (turnsFor passing)))) (firstHalf ++ secondHalf) = some st ∧
      Spec.Mpi.Finished st ∧
      Before (sys 64) failing (turnsFor passing) (acts (turnsFor passing)) (firstHalf ++ secondHalf) 0 1 ∧
      clientResults 4096 ((turnsOf (turnsFor passing) (0 : Fin 3)).map (acts (turnsFor passing))) ((st.client 0).results.map (·.res)) = .ok ra ∧
      clientResults 4096 ((turnsOf (turnsFor passing) (2 : Fin 3)).map (acts (turnsFor passing))) ((st.client 2).results.map (·.res)) = .ok rb ∧
      ra.map shown = [[(hxSuccess, []), (hxError, [])]] ∧
      ra.map (fun r => r.items.map (fun y => (y.kind, y.subject, y.predicate))) =
        [[(.put, .ref ⟨16, 1, 7⟩, .ref ⟨513, 1, 7⟩), (.put, .ref ⟨16, 1, 7⟩, .ref ⟨514, 1, 7⟩)]] ∧
      rb.map shown = [[(hxSuccess, [3]), (hxError, [])]] := by
  refine ⟨passing_in failing_empty.1 failing_empty.2, acts_ok _ (by decide +kernel), ?_⟩
  have hmid : (match Mpi.run (sys 64) (Mpi.init failing (jobProg (turnsFor passing) (acts (turnsFor passing)))) firstHalf with
    | some st => isReady (st.client 0).phase && (st.client 0).acts.isEmpty && decide ((st.client 2).acts = (acts (turnsFor passing) 1).all)
    | none => false) = true := by decide +kernel
  have hend : (match Mpi.run (sys 64) (Mpi.init failing (jobProg (turnsFor passing) (acts (turnsFor passing)))) (firstHalf ++ secondHalf) with
    | some st => (List.finRange 3).all (fun c => isReady (st.client c).phase && (st.client c).acts.isEmpty) &&
        (match clientResults 4096 ((turnsOf (turnsFor passing) (0 : Fin 3)).map (acts (turnsFor passing))) ((st.client 0).results.map (·.res)),
            clientResults 4096 ((turnsOf (turnsFor passing) (2 : Fin 3)).map (acts (turnsFor passing))) ((st.client 2).results.map (·.res)) with
          | .ok ra, .ok rb => decide (ra.map shown = [[(hxSuccess, []), (hxError, [])]] ∧
              ra.map (fun r => r.items.map (fun y => (y.kind, y.subject, y.predicate))) =
                [[(.put, .ref ⟨16, 1, 7⟩, .ref ⟨513, 1, 7⟩), (.put, .ref ⟨16, 1, 7⟩, .ref ⟨514, 1, 7⟩)]] ∧
              rb.map shown = [[(hxSuccess, [3]), (hxError, [])]])
          | _, _ => false)
    | none => false) = true := by decide +kernel
  have ready : ∀ {p : Mpi.Phase 3 Parcel Reply}, isReady p = true → p = .ready := by
    intro p h
    cases p <;> first | rfl | cases h
  split at hmid
  case h_2 => cases hmid
  rename_i m hm
  simp only [Bool.and_eq_true, decide_eq_true_eq, List.isEmpty_iff] at hmid
  split at hend
  case h_2 => cases hend
  rename_i st e
  simp only [Bool.and_eq_true, List.isEmpty_iff, List.all_eq_true, List.mem_finRange, forall_const] at hend
  obtain ⟨h1, h3⟩ := hend
  split at h3
  case h_2 => cases h3
  rename_i ra rb hra hrb
  have t0 : turnsOf (turnsFor passing) (0 : Fin 3) = [0] := by decide +kernel
  have t2 : turnsOf (turnsFor passing) (2 : Fin 3) = [1] := by decide +kernel
  obtain ⟨h3, h4, h5⟩ := of_decide_eq_true h3
  refine ⟨st, ra, rb, e, fun c => ⟨(h1 c).2, ready (h1 c).1⟩,
    ⟨firstHalf, secondHalf, m, rfl, hm, ⟨0, 1, ?_, ready hmid.1.1, ?_⟩, ⟨2, 0, ?_, ?_⟩⟩, hra, hrb, h3, h4, h5⟩
  · rw [t0]; decide
  · rw [t0, hmid.1.2]; rfl
  · rw [t2]; decide
  · rw [t2, hmid.2]; simp

end C78Ex

end Hx.Props

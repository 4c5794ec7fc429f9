import Verif.Props.C57_MpiJob
import Verif.Props.C61_JobGetOps
import Verif.Props.C61_Overlap

/-!
# C61: GETOPs that are always answered, and GETOPs over MPI
-/

namespace Hx.Props
open Hx Msg Spec Process Store Results Job Place

section
variable {cb : Callbacks} {t : Transform} {hash : Bytes → Bytes → Out Int}

theorem simple_getOpsOk {l : List Op} (h : ∀ o ∈ l, SimpleOp cb t o) : GetOpsOk cb t l := by
  intro x hx _ _
  obtain ⟨o, ho, e⟩ := List.mem_filterMap.mp hx
  have := h o ho
  cases o with
  | getop op s p ty n => cases e; exact ⟨this.2.2.1.2, this.2.2.2.2⟩
  | _ => cases e

theorem simple_arrives {l : List Op} (h : ∀ o ∈ l, SimpleOp cb t o) {g : GetOpItem} (hg : g ∈ getOps l) (b : Backend)
    (H : List Ev) : Arrives t cb.neg b hash H g := by
  obtain ⟨o, ho, e⟩ := List.mem_filterMap.mp hg
  have := h o ho
  cases o with
  | getop op s p ty n =>
    cases e
    obtain ⟨h1, -, ⟨h2, -⟩, h3, -⟩ := this
    exact Or.inl ⟨by simp only; omega, by simp only; omega, h2, h3⟩
  | _ => cases e

end

/-- C61, partial: turns of operations that are always answered do succeed, and all GETOPs of the last
turn have exactly the results that `Spec.getOpAnswer` picks out of their datastores; that the job runs is
not assumed. Missing: as `C48_runs_partial`. -/
theorem C61_runs_partial (cb : Callbacks) (t : Transform) (hash : Bytes → Bytes → Out Int) (place : List Int) (heap : Nat)
    (hheap : heap ≠ 0 ∧ heap < 2 ^ 64) (hplace : place.length ≤ 2 ^ 31) (b : Backend) (turns : List Turn) (x : Turn)
    (w : World) (hw : FreshWorld w) (hs : Staffed place w) (ha : Apart place w) (hb : Backed b w)
    (hturns : ∀ y ∈ turns ++ [x], TurnOk cb t hash place y) (hruns : ∀ y ∈ turns ++ [x], TurnRuns cb t hash place.length y)
    (hgiven : ∀ y ∈ turns ++ [x], PutsGiven (turnOps hash y)) :
    ∃ w' rs r, run cb heap place.length w (turns ++ [x]) = .ok (w', rs ++ [r]) ∧
      ∃ gs groups, gs.Perm (getOps (turnOps hash x)) ∧ r.items.filter (fun y => decide (y.kind = .getop)) = groups.flatten ∧
        List.Forall₂ (ReturnedOp t cb.neg b hash
          (turnsEvents t.accepts hash turns ++ storedPuts t.accepts (turnOps hash x))) gs groups := by
  obtain ⟨w', rs, h, -⟩ := C48_runs_partial cb t hash place heap hheap hplace (turns ++ [x]) w hw hs hturns hruns (fun _ => hgiven)
  obtain ⟨u, r1, r2, -, h2, rfl⟩ := run_append turns [x] h
  simp only [run] at h2
  obtain ⟨y, -, h2⟩ := ok_iff.mp h2
  simp only [Out.ok_bind] at h2
  cases h2
  have hsimple := (hruns x (by simp)).simple
  exact ⟨_, r1, y.2, h, C61_partial cb t hash place heap hheap hplace b turns x w _ r1 y.2 hw ha hb
    (fun y hy => hturns y (by simp [hy])) (hturns x (by simp)) hgiven (simple_getOpsOk hsimple)
    (fun g hg => simple_arrives hsimple hg b _) h⟩

variable {n L : Nat}

/-- C61 over MPI, partial: when all clients are finished, there is an order of the requests in which the
range servers executed them, which respects time as in `C57_partial`, and every GETOP of every flush has,
in the results its rank makes of the messages it received, exactly what `Spec.getOpAnswer` picks out of
its datastore after the requests before one of the flush itself (`C61_overlap_partial`). Missing: as
`C57_safe_partial`. -/
theorem C61_mpi_partial {cb : Callbacks} {t : Transform} {hash : Bytes → Bytes → Out Int} {place : List Int} {heap addr : Nat}
    {junk : Nat → Bytes} {w : World} {turns : List Turn} (eager : Nat → Bool) (b : Backend)
    (hjob : MpiJob n cb t hash place heap addr junk w turns) (hwrites : ∀ n, w.wr n = true) (ha : Apart place w) (hb : Backed b w)
    (acts : Nat → FlushActs n) (hacts : JobActs place.length turns acts) (ls : List (Mpi.Label n L))
    (st : Mpi.St n L Parcel Reply World)
    (h : Mpi.run (mpiSys cb heap addr junk eager) (Mpi.init w (jobProg turns acts)) ls = some st) (hf : Spec.Mpi.Finished st) :
    ∃ log w' rs, Overlap cb heap place.length w turns log w' rs ∧
      (∀ i j, Before (mpiSys cb heap addr junk eager) w turns acts ls i j → Spec.Finished log i j) ∧
      (∀ i j x y, turns[i]? = some x → turns[j]? = some y → x.net.rank = y.net.rank → i < j → Spec.Finished log i j) ∧
      ∀ c, ∃ own, clientResults addr ((turnsOf turns c).map acts) ((st.client c).results.map (·.res)) = .ok own ∧
        ∀ (k i : Nat) x, (turnsOf turns c)[k]? = some i → turns[i]? = some x → getOps (turnOps hash x) ≠ [] →
          ∃ r, own[k]? = some r ∧
            ∃ gs groups, gs.Perm (getOps (turnOps hash x)) ∧ r.items.filter (fun y => decide (y.kind = .getop)) = groups.flatten ∧
              List.Forall₂ (fun g z => ∃ before y after, OpAnswered t.accepts hash turns log i g before y after ∧
                ReturnedOp t cb.neg b hash (before.flatMap (fun y => events t.accepts y.req.body)) g z) gs groups := by
  obtain ⟨log, rs, h1, h2, h3, h4⟩ := C57_partial eager hjob acts hacts ls st h hf
  refine ⟨log, st.world, rs, h1, ?_, h4, fun c => ⟨_, h2 c, ?_⟩⟩
  · rintro i j ⟨ls₁, ls₂, m, m1, m2, m3, m4⟩
    exact h3 i j ls₁ ls₂ m m1 m2 m3 m4
  · intro k i x hk hi hne
    have hx : x ∈ turns := List.mem_of_getElem? hi
    have hlt : i < rs.length := by rw [h1.results]; exact (List.getElem?_eq_some_iff.mp hi).1
    have hr : rs[i]? = some rs[i] := List.getElem?_eq_getElem hlt
    have hsimple := (hjob.runs x hx).simple
    exact ⟨rs[i], by rw [own_result h1.results hk, hr], C61_overlap_partial cb t hash place heap hjob.address hjob.count b turns w st.world
      log rs ⟨hjob.fresh, hwrites⟩ ha hb hjob.flushes (hjob.given ⟨x, hx, hne⟩) h1 i x rs[i] hi hr (simple_getOpsOk hsimple)
      (fun g hg _ _ _ _ _ => simple_arrives hsimple hg b _)⟩

/-! ### Example -/

open MpiEx

/-- Rank 0 PUTs two pairs for ranks 1 and 2, and rank 2 GETOPs NEXT from each of them. -/
private def asking : List (Nat × List Queue.Call) := [(0, [put 1 1 3, put 1 2 4]), (2, [next 1 1, next 1 2])]

/-- A job of the theorems above. -/
example : MpiJob 3 exCb (plainTransform 0x2f 0x3a exFloat) (Hash.hxhimHash .ber 0 3) ((List.range 3).map (Layout.dsToRank ⟨3, 1, 1, 1⟩)) 100 4096
      (fun n => List.replicate n 0) world (turnsFor asking) ∧
    Apart ((List.range 3).map (Layout.dsToRank ⟨3, 1, 1, 1⟩)) world ∧ Backed .mem world ∧
    (turnsFor asking).map (fun x => (getOps (turnOps (Hash.hxhimHash .ber 0 3) x)).length) = [0, 2] ∧
    JobActs 3 (turnsFor asking) (acts (turnsFor asking)) := by
  refine ⟨job _ ?_, ?_, ?_, by decide +kernel, acts_ok _ (by decide +kernel)⟩
  · intro x hx
    simp only [asking, List.mem_cons, List.not_mem_nil, or_false] at hx
    rcases hx with rfl | rfl <;> refine ⟨by decide, ?_⟩ <;> intro c hc <;> simp only [List.mem_cons, List.not_mem_nil, or_false] at hc <;>
      rcases hc with rfl | rfl
    · exact Or.inl ⟨_, _, _, rfl⟩
    · exact Or.inl ⟨_, _, _, rfl⟩
    · exact Or.inr (Or.inr ⟨_, _, rfl⟩)
    · exact Or.inr (Or.inr ⟨_, _, rfl⟩)
  · intro rank ds ds' h1 h2 _
    have get : ∀ ds : Nat, ((List.range 3).map (Layout.dsToRank ⟨3, 1, 1, 1⟩))[ds]? = some rank → (ds : Int) = rank := by
      intro ds h
      match ds with
      | 0 => cases h; rfl
      | 1 => cases h; rfl
      | 2 => cases h; rfl
      | n + 3 => cases h
    have := get ds h1
    have := get ds' h2
    omega
  · intro rank d hd
    rw [show d = exDs .mem [] from List.mem_singleton.mp hd]
    rfl

/-- Subjects, predicates and objects. -/
private def shown (r : Results) : List (Int × Bytes × Bytes × Bytes) :=
  let data : Datum → Bytes := fun | .own b => b.bytes | _ => []
  r.items.map (fun r => (r.status, data r.subject, data r.predicate, data r.object))

/-- An execution in which both flushes return, and what rank 2 has then. -/
example : (match Mpi.run (sys 64) (Mpi.init world (jobProg (turnsFor asking) (acts (turnsFor asking)))) (firstHalf ++ secondHalf) with
    | some st => (List.finRange 3).all (fun c => isReady (st.client c).phase && (st.client c).acts.isEmpty) &&
        (match clientResults 4096 ((turnsOf (turnsFor asking) (2 : Fin 3)).map (acts (turnsFor asking))) ((st.client 2).results.map (·.res)) with
          | .ok rs => decide (rs.map shown = [[(hxSuccess, [1], [1], [3]), (hxSuccess, [1], [2], [4])]])
          | _ => false)
    | none => false) = true := by
  decide +kernel

end Hx.Props

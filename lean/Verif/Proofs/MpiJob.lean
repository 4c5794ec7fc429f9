import Verif.Proofs.MpiJobServe
import Verif.Proofs.MpiJobLine
import Verif.Spec.MpiJob

/-!
# Helper lemmas: an execution with messages is an execution of flushes that overlap
-/

namespace Hx.Job
open Hx Msg Spec Process Store Results Props

variable {cb : Callbacks} {t : Transform} {hash : Bytes → Bytes → Out Int} {place : List Int} {heap addr : Nat} {junk : Nat → Bytes}
  {n L : Nat} {G : Uses} {eager : Nat → Bool} {turns : List Turn} {acts : Nat → FlushActs n}

theorem mem_turnsOf {c : Fin n} {i : Nat} : i ∈ turnsOf turns c ↔ ∃ x, turns[i]? = some x ∧ x.net.rank = ((c : Nat) : Int) := by
  unfold turnsOf
  rw [List.mem_filter, List.mem_range]
  constructor
  · rintro ⟨h1, h2⟩
    rw [List.getElem?_eq_getElem h1] at h2
    exact ⟨turns[i], List.getElem?_eq_getElem h1, by simpa using h2⟩
  · rintro ⟨x, h1, h2⟩
    exact ⟨(List.getElem?_eq_some_iff.mp h1).1, by rw [h1]; simp [h2]⟩

theorem nodup_turnsOf (c : Fin n) : (turnsOf turns c).Nodup := List.Nodup.filter _ List.nodup_range

theorem sorted_turnsOf (c : Fin n) : (turnsOf turns c).Pairwise (· < ·) := List.Pairwise.filter _ List.pairwise_lt_range

theorem turnsOf_unique {c d : Fin n} {i : Nat} (hc : i ∈ turnsOf turns c) (hd : i ∈ turnsOf turns d) : c = d := by
  obtain ⟨x, h1, h2⟩ := mem_turnsOf.mp hc
  obtain ⟨y, h3, h4⟩ := mem_turnsOf.mp hd
  rw [h1] at h3
  cases h3
  rw [h2] at h4
  exact Fin.ext (by omega)

/-- The results of a flush among those of its rank. -/
theorem own_result {rs : List Results} (hlen : rs.length = turns.length) {c : Fin n} {k i : Nat} (hk : (turnsOf turns c)[k]? = some i) :
    ((turnsOf turns c).filterMap (fun i => rs[i]?))[k]? = rs[i]? := by
  have hall : ∀ i ∈ turnsOf turns c, ∃ r, rs[i]? = some r := by
    intro i hi
    obtain ⟨x, hx, -⟩ := mem_turnsOf.mp hi
    have : i < rs.length := by rw [hlen]; exact (List.getElem?_eq_some_iff.mp hx).1
    exact ⟨_, List.getElem?_eq_getElem this⟩
  generalize turnsOf turns c = is at hk hall
  induction is generalizing k with
  | nil => cases hk
  | cons j is ih =>
    obtain ⟨r, hr⟩ := hall j (by simp)
    rw [List.filterMap_cons, hr]
    cases k with
    | zero =>
      simp only [List.getElem?_cons_zero, Option.some.injEq] at hk
      subst hk
      simp only [List.getElem?_cons_zero, hr]
    | succ k =>
      simp only [List.getElem?_cons_succ] at hk ⊢
      exact ih hk (fun j hj => hall j (by simp [hj]))

/-- What all flushes do. -/
def Planned (cb : Callbacks) (t : Transform) (hash : Bytes → Bytes → Out Int) (place : List Int) (G : Uses) (addr : Nat)
    (junk : Nat → Bytes) (turns : List Turn) (acts : Nat → FlushActs n) (l : Nat → List Send) : Prop :=
  ∀ c i, i ∈ turnsOf turns c → ∃ x, turns[i]? = some x ∧ x.net.rank = ((c : Nat) : Int) ∧ x.net.heap = addr ∧ x.net.junk = junk ∧
    TurnOk cb t hash place x ∧ MpiPlan cb t hash place G addr i c x (acts i) (l i)

private theorem forall₂_right {α β : Type} {R : α → β → Prop} {a : List α} {b : List β} (h : List.Forall₂ R a b) {y : β}
    (hy : y ∈ b) : ∃ x ∈ a, R x y := by
  induction h with
  | nil => cases hy
  | cons h _ ih =>
    rcases List.mem_cons.mp hy with rfl | hy
    · exact ⟨_, by simp, h⟩
    · obtain ⟨x, hx, hr⟩ := ih hy
      exact ⟨x, by simp [hx], hr⟩

theorem targets_flatMap {α : Type} (c : Fin n) (is : List Nat) (f : Nat → List (Mpi.Act n α)) :
    Spec.Mpi.targets c (is.flatMap f) = is.flatMap (fun i => Spec.Mpi.targets c (f i)) := by
  induction is with
  | nil => rfl
  | cons i is ih => rw [List.flatMap_cons, List.flatMap_cons, Mpi.targets_append, ih]

section
variable {l : Nat → List Send} (hp : Planned cb t hash place G addr junk turns acts l)
include hp

/-- Requests carry the number of the flush, and use messages for other ranks only. -/
theorem target_tag {c : Fin n} {i : Nat} (hi : i ∈ turnsOf turns c) {x : Fin n × Bool × Parcel}
    (hx : x ∈ Spec.Mpi.targets c (acts i).all) : x.2.2.turn = i ∧ x.2.1 = decide (x.1 ≠ c) := by
  obtain ⟨y, -, hrank, -, -, -, h⟩ := hp c i hi
  obtain ⟨s, hs, ht⟩ := forall₂_right h.targets hx
  constructor
  · rw [ht.parcel]
    split <;> rfl
  · rw [ht.wire, (h.src s hs).2]
    rw [hrank, ht.rank, Bool.eq_iff_iff]
    simp only [decide_eq_true_eq, ne_eq, Int.natCast_inj, Fin.ext_iff]

theorem part_tag {c : Fin n} {is : List Nat} (his : ∀ i ∈ is, i ∈ turnsOf turns c) {x : Fin n × Bool × Parcel}
    (hx : x ∈ Spec.Mpi.targets c (is.flatMap (fun i => (acts i).all))) : x.2.2.turn ∈ is ∧ x.2.1 = decide (x.1 ≠ c) := by
  rw [targets_flatMap] at hx
  obtain ⟨i, hi, hx⟩ := List.mem_flatMap.mp hx
  obtain ⟨h1, h2⟩ := target_tag hp (his i hi) hx
  exact ⟨by rw [h1]; exact hi, h2⟩

theorem job_answers (hheap : heap ≠ 0) (hheap' : heap < 2 ^ 64) :
    Spec.Mpi.Answers (mpiSys cb heap addr junk eager) (jobProg turns acts) (Fit cb t hash place G) := by
  intro w hw c x hx
  unfold jobProg at hx
  rw [targets_flatMap] at hx
  obtain ⟨i, hi, hx⟩ := List.mem_flatMap.mp hx
  obtain ⟨y, -, hrank, ha, -, hok, h⟩ := hp c i hi
  obtain ⟨s, hs, ht⟩ := forall₂_right h.targets hx
  exact serve_answers hheap hheap' ha hrank hw ht (h.src s hs) (h.sends s hs).1 (h.sends s hs).2

theorem job_tidy (c : Fin n) : Tidy c (jobProg turns acts c) := by
  intro r hr
  obtain ⟨i, hi, hr⟩ := List.mem_flatMap.mp hr
  obtain ⟨y, -, -, -, -, -, h⟩ := hp c i hi
  exact h.tidy r hr

theorem job_distinct : Spec.Mpi.Distinct (jobProg turns acts) := fun c r hr => (job_tidy hp c r hr).1

theorem job_foreign : Spec.Mpi.Foreign (jobProg turns acts) := fun c r hr => (job_tidy hp c r hr).2

/-- The log of messages as a log of requests that are served. -/
theorem executes_pairs (hheap : heap ≠ 0) (hheap' : heap < 2 ^ 64) (log : List (Mpi.Entry n Parcel Reply)) {w w' : World}
    (hw : Fit cb t hash place G w) (h : Spec.Mpi.Executes (mpiServe cb heap addr junk) w log w')
    (hlog : ∀ e ∈ log, (e.rank, e.wire, e.req) ∈ Spec.Mpi.targets e.src (jobProg turns acts e.src)) (hfew : G.hists → FewNumbers w') :
    ∃ P : List (Mpi.Entry n Parcel Reply × Served), P.map Prod.fst = log ∧ executes cb heap w (P.map Prod.snd) w' ∧
      FewNumbers w ∧ ∀ p ∈ P, ∃ u u', (Fit cb t hash place G u ∧ FewNumbers u) ∧ Tells cb heap addr junk u u' p.1 p.2 := by
  induction log generalizing w with
  | nil =>
    cases h
    refine ⟨[], rfl, rfl, ?_, by simp⟩
    by_cases hG : G.hists
    · exact hfew hG
    · exact hw.1.few hG
  | cons e log ih =>
    obtain ⟨u, d, hs, h⟩ := h
    obtain ⟨u', r, hs', hfit⟩ := job_answers (eager := fun _ => true) hp hheap hheap' w hw e.src _ (hlog e (by simp))
    have hs' : mpiServe cb heap addr junk w e.rank e.req = .ok (u', e.src, r) := hs'
    rw [hs] at hs'
    have hu : u = u' := (Prod.mk.inj (Out.ok.inj hs')).1
    subst hu
    obtain ⟨P, h1, h2, hfu, h3⟩ := ih hfit h (fun e he => hlog e (by simp [he]))
    obtain ⟨y, hy⟩ := tells_of_serve hs
    have hfw := serve_few hw.1 hy.serve hfu
    refine ⟨(e, y) :: P, by rw [List.map_cons, h1], ⟨u, hy.serve, h2⟩, hfw, ?_⟩
    intro p hpm
    rcases List.mem_cons.mp hpm with rfl | hpm
    · exact ⟨w, u, ⟨hw, hfw⟩, hy⟩
    · exact h3 p hpm

/-- One flush, with the messages it gets. -/
theorem turn_heard (hheap : heap ≠ 0) (hheap' : heap < 2 ^ 64) {c : Fin n} {i : Nat} (hi : i ∈ turnsOf turns c)
    {B : List (Mpi.Entry n Parcel Reply × Served)}
    (hB : B.map (fun p => (p.1.rank, p.1.wire, p.1.req)) = Spec.Mpi.targets c (acts i).all)
    (hfit : ∀ p ∈ B, ∃ u u', (Fit cb t hash place G u ∧ FewNumbers u) ∧ Tells cb heap addr junk u u' p.1 p.2) :
    ∃ x r, turns[i]? = some x ∧ turnOn place.length (B.map Prod.snd) x r ∧
      ∀ rest, flushResults addr (acts i) (B.map (fun p => p.1.res) ++ rest) = .ok (r, rest) := by
  obtain ⟨x, hx, hrank, ha, hj, hok, h⟩ := hp c i hi
  have ht := h.targets
  rw [← hB] at ht
  have hZ : ∃ Z : List Heard, Z.map (·.entry.send) = l i ∧ Z.map (·.entry.srv) = B.map Prod.snd ∧
      Z.map (·.reply) = B.map (fun p => p.1.res) ∧ ∀ z ∈ Z, z.Ok x.net addr := by
    have hsends := h.sends
    clear hB h
    generalize l i = ss at ht hsends
    induction B generalizing ss with
    | nil =>
      rw [List.map_nil] at ht
      cases ht
      exact ⟨[], rfl, rfl, rfl, by simp⟩
    | cons p B ih =>
      rw [List.map_cons] at ht
      cases ht with
      | cons h1 h2 =>
        rename_i s ss
        obtain ⟨Z, z1, z2, z3, z4⟩ := ih (fun q hq => hfit q (by simp [hq])) _ h2 (fun s hs => hsends s (by simp [hs]))
        obtain ⟨u, u', f1, f2⟩ := hfit p (by simp)
        obtain ⟨back, hback⟩ := heard_of_tells hheap hheap' hok.address.1 hok.address.2 ha hj f1.1 f1.2 f2 h1 (hsends s (by simp)).1
          (hsends s (by simp)).2
        refine ⟨⟨⟨s, p.2, back⟩, p.1.res⟩ :: Z, by simp [z1], by simp [z2], by simp [z3], ?_⟩
        intro z hz
        rcases List.mem_cons.mp hz with rfl | hz
        · exact hback
        · exact z4 z hz
  obtain ⟨Z, z1, z2, z3, z4⟩ := hZ
  obtain ⟨r, h1, h2⟩ := h.works Z z1 z4
  rw [z2] at h1
  rw [z3] at h2
  exact ⟨x, r, hx, h1, h2⟩

omit hp in
theorem clientResults_ok (G : Nat → List Reply) (rs : List Results) (is : List Nat)
    (h : ∀ i ∈ is, ∃ r, rs[i]? = some r ∧ ∀ rest, flushResults addr (acts i) (G i ++ rest) = .ok (r, rest)) :
    clientResults addr (is.map acts) (is.flatMap G) = .ok (is.filterMap (fun i => rs[i]?)) := by
  induction is with
  | nil => rfl
  | cons i is ih =>
    obtain ⟨r, h1, h2⟩ := h i (by simp)
    rw [List.map_cons, List.flatMap_cons, clientResults, h2, Out.ok_bind, ih (fun j hj => h j (by simp [hj])), Out.ok_bind,
      List.filterMap_cons, h1]

theorem mpi_overlap (hheap : heap ≠ 0) (hheap' : heap < 2 ^ 64) (hall : ∀ i < turns.length, ∃ c : Fin n, i ∈ turnsOf turns c)
    {w : World} (hw : Fit cb t hash place G w) {st : Mpi.St n L Parcel Reply World}
    (h : Spec.Mpi.Complete (mpiSys cb heap addr junk eager) w (jobProg turns acts) st) (hfew : G.hists → FewNumbers st.world) :
    ∃ P : List (Mpi.Entry n Parcel Reply × Served), P.map Prod.fst = st.log ∧ (∀ p ∈ P, p.2.turn = p.1.req.turn) ∧
      ∃ rs, Overlap cb heap place.length w turns (P.map Prod.snd) st.world rs ∧
        ∀ c, clientResults addr ((turnsOf turns c).map acts) ((st.client c).results.map (·.res)) =
          .ok ((turnsOf turns c).filterMap (fun i => rs[i]?)) := by
  have hmem : ∀ e ∈ st.log, (e.rank, e.wire, e.req) ∈ Spec.Mpi.targets e.src (jobProg turns acts e.src) :=
    fun e he => Mpi.entry_target (fun c s b => by rw [h.requests c s b]) he
  obtain ⟨P, hP, hex, -, hfit⟩ := executes_pairs hp hheap hheap' st.log hw h.world hmem hfew
  have htell : ∀ p ∈ P, p.2.turn = p.1.req.turn ∧ p.2.rank = ((p.1.rank : Nat) : Int) := by
    intro p hpm
    obtain ⟨u, u', -, ht⟩ := hfit p hpm
    exact ⟨ht.turn, ht.rank⟩
  have hfrom : ∀ p ∈ P, p.1.req.turn ∈ turnsOf turns p.1.src ∧ p.1.wire = decide (p.1.rank ≠ p.1.src) := by
    intro p hpm
    exact part_tag hp (fun i hi => hi) (hmem p.1 (by rw [← hP]; exact List.mem_map.mpr ⟨p, hpm, rfl⟩))
  have hline : ∀ c : Fin n, ∃ F : Nat → List (Mpi.Entry n Parcel Reply × Served),
      (∀ i ∈ turnsOf turns c, (F i).map (fun p => (p.1.rank, p.1.wire, p.1.req)) = Spec.Mpi.targets c (acts i).all) ∧
      (st.client c).results.map (·.res) = (turnsOf turns c).flatMap (fun i => (F i).map (fun p => p.1.res)) ∧
      ∀ s b, ((turnsOf turns c).flatMap F).filter (fun p => decide ((p.1.rank, p.1.wire) = (s, b))) =
        P.filter (fun p => decide (p.1.src = c ∧ p.1.rank = s ∧ p.1.wire = b)) := by
    intro c
    obtain ⟨A, a1, a2, a3⟩ := Mpi.client_line P hP c (h.requests c) (h.responses c) (h.order c)
    unfold jobProg at a1
    rw [targets_flatMap] at a1
    obtain ⟨F, f1, f2⟩ := Keys.split_flatMap _ _ _ (nodup_turnsOf c) A a1
    refine ⟨F, f2, ?_, ?_⟩
    · rw [a2, f1, List.map_flatMap]
    · rw [← f1]
      exact a3
  obtain ⟨F, hF⟩ := Classical.axiomOfChoice hline
  have hsub : ∀ c i, i ∈ turnsOf turns c → ∀ p ∈ F c i, p ∈ P := by
    intro c i hi p hpm
    have : p ∈ ((turnsOf turns c).flatMap (F c)).filter (fun q => decide ((q.1.rank, q.1.wire) = (p.1.rank, p.1.wire))) :=
      List.mem_filter.mpr ⟨List.mem_flatMap.mpr ⟨i, hi, hpm⟩, by simp⟩
    rw [(hF c).2.2] at this
    exact (List.mem_filter.mp this).1
  have htag : ∀ c i, i ∈ turnsOf turns c → ∀ p ∈ F c i, p.1.req.turn = i ∧ p.1.wire = decide (p.1.rank ≠ c) := by
    intro c i hi p hpm
    have : (p.1.rank, p.1.wire, p.1.req) ∈ Spec.Mpi.targets c (acts i).all := by
      rw [← (hF c).1 i hi]
      exact List.mem_map.mpr ⟨p, hpm, rfl⟩
    exact target_tag hp hi this
  have horder : ∀ c i, i ∈ turnsOf turns c → sameOrder ((F c i).map Prod.snd) (partOf i (P.map Prod.snd)) := by
    intro c i hi rank
    unfold partOf
    rw [List.filter_map, List.filter_map, List.filter_map]
    congr 1
    rw [List.filter_filter]
    have e1 : (F c i).filter ((fun y : Served => decide (y.rank = rank)) ∘ Prod.snd) =
        (F c i).filter (fun p => decide (((p.1.rank : Nat) : Int) = rank)) := by
      apply List.filter_congr
      intro p hpm
      simp only [Function.comp, (htell p (hsub c i hi p hpm)).2]
    have e2 : P.filter (fun a => ((fun y : Served => decide (y.rank = rank)) ∘ Prod.snd) a && ((fun y : Served => decide (y.turn = i)) ∘ Prod.snd) a) =
        P.filter (fun p => decide (((p.1.rank : Nat) : Int) = rank) && decide (p.1.req.turn = i)) := by
      apply List.filter_congr
      intro p hpm
      simp only [Function.comp, (htell p hpm).2, (htell p hpm).1]
    rw [e1, e2]
    by_cases hr : ∃ s : Fin n, rank = ((s : Nat) : Int)
    · obtain ⟨s, rfl⟩ := hr
      have hcast : ∀ d : Fin n, (((d : Nat) : Int) = ((s : Nat) : Int)) ↔ d = s := by
        intro d
        rw [Int.natCast_inj, Fin.ext_iff]
      simp only [hcast]
      have h3 := (hF c).2.2 s (decide (s ≠ c))
      have h4 := congrArg (List.filter (fun p => decide (p.1.req.turn = i))) h3
      rw [List.filter_filter, List.filter_filter] at h4
      have e3 : P.filter (fun p => decide (p.1.rank = s) && decide (p.1.req.turn = i)) =
          P.filter (fun a => decide (a.1.req.turn = i) && decide (a.1.src = c ∧ a.1.rank = s ∧ a.1.wire = decide (s ≠ c))) := by
        apply List.filter_congr
        intro p hpm
        obtain ⟨g1, g2⟩ := hfrom p hpm
        rw [Bool.eq_iff_iff]
        simp only [Bool.and_eq_true, decide_eq_true_eq]
        constructor
        · rintro ⟨k1, k2⟩
          have : p.1.src = c := turnsOf_unique g1 (by rw [k2]; exact hi)
          exact ⟨k2, this, k1, by rw [g2, this, k1]⟩
        · rintro ⟨k1, k2, k3, -⟩
          exact ⟨k3, k1⟩
      rw [e3, ← h4]
      have e4 := Keys.filter_flatMap (fun p : Mpi.Entry n Parcel Reply × Served => p.1.req.turn) (F c) (turnsOf turns c) (nodup_turnsOf c)
        (fun j hj p hpm => (htag c j hj p hpm).1) hi
      have e5 : ((turnsOf turns c).flatMap (F c)).filter (fun a => decide (a.1.req.turn = i) && decide ((a.1.rank, a.1.wire) = (s, decide (s ≠ c)))) =
          (((turnsOf turns c).flatMap (F c)).filter (fun p => decide (p.1.req.turn = i))).filter (fun a => decide ((a.1.rank, a.1.wire) = (s, decide (s ≠ c)))) := by
        rw [List.filter_filter]
        apply List.filter_congr
        intro p _
        exact Bool.and_comm _ _
      rw [e5, e4]
      apply List.filter_congr
      intro p hpm
      have := (htag c i hi p hpm).2
      rw [Bool.eq_iff_iff]
      simp only [decide_eq_true_eq, Prod.mk.injEq]
      constructor
      · intro k
        exact ⟨k, by rw [this, k]⟩
      · exact fun k => k.1
    · rw [List.filter_eq_nil_iff.mpr, List.filter_eq_nil_iff.mpr]
      · intro p _ hd
        rw [Bool.and_eq_true] at hd
        exact hr ⟨p.1.rank, (of_decide_eq_true hd.1).symm⟩
      · intro p _ hd
        exact hr ⟨p.1.rank, (of_decide_eq_true hd).symm⟩
  have hres : ∀ k : Fin turns.length, ∃ r, turnOn place.length (partOf k (P.map Prod.snd)) turns[k] r ∧
      ∀ c, k.val ∈ turnsOf turns c → ∀ rest, flushResults addr (acts k) ((F c k).map (fun p => p.1.res) ++ rest) = .ok (r, rest) := by
    intro k
    obtain ⟨c, hc⟩ := hall k k.isLt
    obtain ⟨x, r, hx, ⟨asked, q, q', o1, o2, o3⟩, hr⟩ := turn_heard hp hheap hheap' hc ((hF c).1 k hc) (fun p hpm => hfit p (hsub c k hc p hpm))
    have hxk : turns[k] = x := by
      have := List.getElem?_eq_getElem k.isLt
      rw [hx] at this
      exact (Option.some.inj this).symm
    refine ⟨r, ⟨asked, q, q', ?_, by rw [hxk]; exact o2, by rw [hxk]; exact o3⟩, ?_⟩
    · intro rank
      exact (o1 rank).trans (horder c k hc rank)
    · intro d hd
      have := turnsOf_unique hc hd
      subst this
      exact hr
  obtain ⟨f, hf⟩ := Classical.axiomOfChoice hres
  refine ⟨P, hP, fun p hpm => (htell p hpm).1, List.ofFn f, ⟨hex, ?_, List.length_ofFn, ?_⟩, ?_⟩
  · intro y hy
    obtain ⟨p, hpm, rfl⟩ := List.mem_map.mp hy
    rw [(htell p hpm).1]
    obtain ⟨x, hx, -⟩ := mem_turnsOf.mp (hfrom p hpm).1
    exact (List.getElem?_eq_some_iff.mp hx).1
  · intro i x r hi hir
    obtain ⟨hlt, rfl⟩ := List.getElem?_eq_some_iff.mp hi
    rw [List.getElem?_ofFn, dif_pos hlt] at hir
    cases hir
    exact (hf ⟨i, hlt⟩).1
  · intro c
    rw [(hF c).2.1]
    refine clientResults_ok _ _ _ ?_
    intro i hi
    obtain ⟨x, hx, -⟩ := mem_turnsOf.mp hi
    have hlt := (List.getElem?_eq_some_iff.mp hx).1
    exact ⟨f ⟨i, hlt⟩, by rw [List.getElem?_ofFn, dif_pos hlt], (hf ⟨i, hlt⟩).2 c hi⟩

/-- A flush that is over when another one has not begun is over in the log. -/
theorem mpi_finished {m st : Mpi.St n L Parcel Reply World} (hm : Spec.Mpi.InRounds (jobProg turns acts) m) (hlog : m.log <+: st.log)
    (hreq : ∀ c s b, (Spec.Mpi.logOf c s b st.log).map Prod.fst = Spec.Mpi.sentTo s b (Spec.Mpi.targets c (jobProg turns acts c)))
    {P : List (Mpi.Entry n Parcel Reply × Served)} (hP : P.map Prod.fst = st.log) (hturn : ∀ p ∈ P, p.2.turn = p.1.req.turn)
    {i j : Nat} (hi : Over turns acts m i) (hj : Waiting turns acts m j) : Spec.Finished (P.map Prod.snd) i j := by
  obtain ⟨more, hmore⟩ := hlog
  rw [← hmore] at hP
  obtain ⟨P1, P2, rfl, hP1, hP2⟩ := List.map_eq_append_iff.mp hP
  have hsrc : ∀ e ∈ st.log, e.req.turn ∈ turnsOf turns e.src := by
    intro e he
    exact (part_tag hp (fun i hi => hi) (Mpi.entry_target (fun c s b => by rw [hreq c s b]) he)).1
  have h1 : ∀ p ∈ P1, p.2.turn ≠ j := by
    intro p hpm hpj
    obtain ⟨c, k, hk, mid, hmid⟩ := hj
    have he : p.1 ∈ m.log := by rw [← hP1]; exact List.mem_map.mpr ⟨p, hpm, rfl⟩
    have htag : p.1.req.turn = j := by rw [← hturn p (by simp [hpm]), hpj]
    have hc : p.1.src = c := turnsOf_unique (hsrc p.1 (by rw [← hmore]; simp [he])) (by rw [htag]; exact List.mem_of_mem_drop hk)
    obtain ⟨pre, e1, e2⟩ := hm c
    have e3 : pre ++ mid = ((turnsOf turns c).take k).flatMap (fun i => (acts i).all) := by
      unfold jobProg at e1
      rw [← hmid, ← List.append_assoc] at e1
      conv_lhs at e1 => rw [← List.take_append_drop k (turnsOf turns c), List.flatMap_append]
      exact (List.append_cancel_right e1).symm
    have hin : p.1.req ∈ (Spec.Mpi.logOf c p.1.rank p.1.wire m.log).map Prod.fst := by
      unfold Spec.Mpi.logOf
      rw [List.map_map]
      exact List.mem_map.mpr ⟨p.1, List.mem_filter.mpr ⟨he, by simp [hc]⟩, rfl⟩
    have hin := (e2 p.1.rank p.1.wire).1.subset hin
    obtain ⟨x, hx, hxr⟩ := List.mem_map.mp hin
    have hx := (List.mem_filter.mp hx).1
    have hx : x ∈ Spec.Mpi.targets c (((turnsOf turns c).take k).flatMap (fun i => (acts i).all)) := by
      rw [← e3, Mpi.targets_append]
      exact List.mem_append_left _ hx
    have := (part_tag hp (fun i hi => List.mem_of_mem_take hi) hx).1
    rw [hxr, htag] at this
    have hnd := nodup_turnsOf (turns := turns) c
    rw [← List.take_append_drop k (turnsOf turns c), List.nodup_append] at hnd
    exact hnd.2.2 j this j hk rfl
  have h2 : ∀ p ∈ P2, p.2.turn ≠ i := by
    intro p hpm hpi
    obtain ⟨c, k, hk, hready, hacts⟩ := hi
    have he : p.1 ∈ more := by rw [← hP2]; exact List.mem_map.mpr ⟨p, hpm, rfl⟩
    have htag : p.1.req.turn = i := by rw [← hturn p (by simp [hpm]), hpi]
    have hc : p.1.src = c := turnsOf_unique (hsrc p.1 (by rw [← hmore]; simp [he])) (by rw [htag]; exact List.mem_of_mem_take hk)
    obtain ⟨pre, e1, e2⟩ := hm c
    have e3 := (e2 p.1.rank p.1.wire).2 hready
    have e4 := hreq c p.1.rank p.1.wire
    rw [← hmore, e1, Mpi.targets_append, Mpi.sentTo_append] at e4
    have e5 : Spec.Mpi.logOf c p.1.rank p.1.wire (m.log ++ more) =
        Spec.Mpi.logOf c p.1.rank p.1.wire m.log ++ Spec.Mpi.logOf c p.1.rank p.1.wire more := by
      unfold Spec.Mpi.logOf
      rw [List.filter_append, List.map_append]
    rw [e5, List.map_append, e3] at e4
    have e6 := List.append_cancel_left e4
    have hin : p.1.req ∈ (Spec.Mpi.logOf c p.1.rank p.1.wire more).map Prod.fst := by
      unfold Spec.Mpi.logOf
      rw [List.map_map]
      exact List.mem_map.mpr ⟨p.1, List.mem_filter.mpr ⟨he, by simp [hc]⟩, rfl⟩
    rw [e6] at hin
    obtain ⟨x, hx, hxr⟩ := List.mem_map.mp hin
    have hx := (List.mem_filter.mp hx).1
    rw [hacts] at hx
    have := (part_tag hp (fun i hi => List.mem_of_mem_drop hi) hx).1
    rw [hxr, htag] at this
    have hnd := nodup_turnsOf (turns := turns) c
    rw [← List.take_append_drop k (turnsOf turns c), List.nodup_append] at hnd
    exact hnd.2.2 i hk i this rfl
  unfold Spec.Finished
  rw [List.map_append, List.pairwise_append]
  refine ⟨?_, ?_, ?_⟩
  · refine List.pairwise_of_forall_mem_list ?_
    intro y hy z hz hyz
    obtain ⟨p, hpm, rfl⟩ := List.mem_map.mp hy
    exact h1 p hpm hyz.1
  · refine List.pairwise_of_forall_mem_list ?_
    intro y hy z hz hyz
    obtain ⟨p, hpm, rfl⟩ := List.mem_map.mp hz
    exact h2 p hpm hyz.2
  · intro y hy z hz hyz
    obtain ⟨p, hpm, rfl⟩ := List.mem_map.mp hy
    exact h1 p hpm hyz.1

end

/-- Flushes of one rank are one after the other. -/
theorem program_order {sys : Mpi.Sys n Parcel Reply World} {w : World} {st : Mpi.St n L Parcel Reply World} {ls : List (Mpi.Label n L)}
    (h : Mpi.run sys (Mpi.init w (jobProg turns acts)) ls = some st) (hf : Spec.Mpi.Finished st) {c : Fin n} {i j : Nat}
    (hi : i ∈ turnsOf turns c) (hj : j ∈ turnsOf turns c) (hij : i < j) :
    ∃ ls₁ ls₂ m, ls = ls₁ ++ ls₂ ∧ Mpi.run sys (Mpi.init w (jobProg turns acts)) ls₁ = some m ∧ Mpi.run sys m ls₂ = some st ∧
      Over turns acts m i ∧ Waiting turns acts m j := by
  obtain ⟨l1, l2, hl⟩ := List.append_of_mem hj
  have hsort := sorted_turnsOf (turns := turns) c
  have htake : (turnsOf turns c).take l1.length = l1 := by rw [hl, List.take_left]
  have hdrop : (turnsOf turns c).drop l1.length = j :: l2 := by rw [hl, List.drop_left]
  have hi1 : i ∈ l1 := by
    rw [hl] at hi
    rcases List.mem_append.mp hi with h | h
    · exact h
    · exfalso
      rcases List.mem_cons.mp h with h | h
      · omega
      · rw [hl, List.pairwise_append, List.pairwise_cons] at hsort
        have := hsort.2.1.1 i h
        omega
  have hacts : ((Mpi.init w (jobProg turns acts) : Mpi.St n L Parcel Reply World).client c).acts =
      l1.flatMap (fun i => (acts i).all) ++ (j :: l2).flatMap (fun i => (acts i).all) := by
    show jobProg turns acts c = _
    unfold jobProg
    rw [hl, List.flatMap_append]
  obtain ⟨ls₁, ls₂, m, h1, h2, h3, h4, h5⟩ := Mpi.moment ls h c _ _ hacts (hf c)
  refine ⟨ls₁, ls₂, m, h1, h2, h3, ⟨c, l1.length, by rw [htake]; exact hi1, h5, by rw [hdrop]; exact h4⟩,
    ⟨c, l1.length, by rw [hdrop]; simp, by rw [hdrop, h4]⟩⟩

/-- All flushes have something to do. -/
theorem job_planned {N : Prop} (hp31 : place.length ≤ 2 ^ 31) (hn : ∀ r ∈ place, 0 ≤ r ∧ r < n) (hturns : ∀ x ∈ turns, TurnOk cb t hash place x)
    (hruns : ∀ x ∈ turns, TurnRuns cb t hash place.length x) (hgiven : ∀ x ∈ turns, Gives ⟨HasGetOps hash turns, N⟩ (turnOps hash x))
    (hmpi : ∀ x ∈ turns, Aboard n addr junk x) :
    ∃ acts : Nat → FlushActs n, JobActs place.length turns acts := by
  have h : ∀ i : Nat, ∃ f : FlushActs n, ∀ x, turns[i]? = some x →
      ∃ q, Queue.calls x.cfg true (Queue.Queues.init place.length) x.calls = .ok q ∧ flushActs x.net i q = .ok f := by
    intro i
    cases hi : turns[i]? with
    | none => exact ⟨⟨[], [], [], [], []⟩, by simp⟩
    | some x =>
      have hx := List.mem_of_getElem? hi
      obtain ⟨h2, h3, h4⟩ := hmpi x hx
      obtain ⟨c, -, hc⟩ := toRank_ok (n := n) h2.1 h2.2
      obtain ⟨q, f, l, e1, e2, -⟩ := mpi_plan hp31 (G := ⟨HasGetOps hash turns, N⟩) addr i c hc hn (hturns x hx) (hruns x hx)
        (fun h => ⟨x, hx, h⟩) (hgiven x hx)
      exact ⟨f, fun y hy => by cases hy; exact ⟨q, e1, e2⟩⟩
  obtain ⟨acts, h⟩ := Classical.axiomOfChoice h
  exact ⟨acts, h⟩

theorem planned_of_acts {N : Prop} (hp31 : place.length ≤ 2 ^ 31) (hn : ∀ r ∈ place, 0 ≤ r ∧ r < n) (hturns : ∀ x ∈ turns, TurnOk cb t hash place x)
    (hruns : ∀ x ∈ turns, TurnRuns cb t hash place.length x) (hgiven : ∀ x ∈ turns, Gives ⟨HasGetOps hash turns, N⟩ (turnOps hash x))
    (hmpi : ∀ x ∈ turns, Aboard n addr junk x)
    (hacts : JobActs place.length turns acts) : ∃ l, Planned cb t hash place ⟨HasGetOps hash turns, N⟩ addr junk turns acts l := by
  have h : ∀ i : Nat, ∃ l : List Send, ∀ c : Fin n, i ∈ turnsOf turns c → ∃ x, turns[i]? = some x ∧ x.net.rank = ((c : Nat) : Int) ∧
      x.net.heap = addr ∧ x.net.junk = junk ∧ TurnOk cb t hash place x ∧ MpiPlan cb t hash place ⟨HasGetOps hash turns, N⟩ addr i c x (acts i) l := by
    intro i
    by_cases hi : ∃ c : Fin n, i ∈ turnsOf turns c
    · obtain ⟨c, hc⟩ := hi
      obtain ⟨x, h1, h2⟩ := mem_turnsOf.mp hc
      have hx := List.mem_of_getElem? h1
      obtain ⟨m2, m3, m4⟩ := hmpi x hx
      obtain ⟨q, f, l, e1, e2, e3⟩ := mpi_plan hp31 (G := ⟨HasGetOps hash turns, N⟩) addr i c h2 hn (hturns x hx) (hruns x hx)
        (fun h => ⟨x, hx, h⟩) (hgiven x hx)
      obtain ⟨q', g1, g2⟩ := hacts i x h1
      rw [e1] at g1
      cases g1
      rw [e2] at g2
      cases g2
      refine ⟨l, fun d hd => ?_⟩
      have := turnsOf_unique hc hd
      subst this
      exact ⟨x, h1, h2, m3, m4, hturns x hx, e3⟩
    · exact ⟨[], fun c hc => absurd ⟨c, hc⟩ hi⟩
  obtain ⟨l, h⟩ := Classical.axiomOfChoice h
  exact ⟨l, fun c i hi => h i c hi⟩

theorem all_turns (hmpi : ∀ x ∈ turns, Aboard n addr junk x) : ∀ i < turns.length, ∃ c : Fin n, i ∈ turnsOf turns c := by
  intro i hi
  obtain ⟨h2, -, -⟩ := hmpi turns[i] (List.getElem_mem hi)
  obtain ⟨c, -, hc⟩ := toRank_ok (n := n) h2.1 h2.2
  exact ⟨c, mem_turnsOf.mpr ⟨_, List.getElem?_eq_getElem hi, hc⟩⟩

end Hx.Job

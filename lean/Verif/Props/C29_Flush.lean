import Verif.Proofs.Process
import Verif.Props.C33_Results

/-!
# C29, C30: flushing
-/

namespace Hx.Props
open Hx Msg Spec Process Results Place

variable {σ α : Type}

/-! ## C29 -/

/-- C29, partial. Flushing one kind of operation terminates and is the execution of deliveries that
hand every queued packet over exactly once, to the rank of the datastore it was queued for and in
queue order; the responses become the results, and the queues are empty. The deliveries depend only
on what was queued. Missing: assumes `Routed`, which many layouts violate (see the theorems below). -/
theorem C29_flush_partial (net : Net) (mk : List α → ReqBody) (qs : List (List (List α)))
    (hR : Routed net qs.length) : ∃ l, Delivers net mk qs l ∧
      ∀ {σ : Type} (serve : Server σ) (s s' : σ) (r : Results) (qs' : List (List (List α))),
        process net serve mk s qs = .ok (s', r, qs') ↔
          qs' = qs.map (fun _ => []) ∧
          ∃ rs, deliverAll (deliver net serve) l s = .ok (s', rs) ∧ addAll rs Results.create = .ok r := by
  obtain ⟨l, h1, h2⟩ := processLoop_delivers net mk qs hR
  exact ⟨l, h1, fun serve s s' r qs' => h2 serve _ (Nat.lt_succ_self _) s s' _ r qs'⟩

/-- C29, part that holds for every layout and transport: nothing is delivered twice, invented or
reordered, and the queues are empty afterwards. -/
theorem C29_at_most_once (net : Net) (serve : Server σ) (mk : List α → ReqBody) (s s' : σ) (r : Results)
    (qs qs' : List (List (List α))) (h : process net serve mk s qs = .ok (s', r, qs')) :
    qs' = qs.map (fun _ => []) ∧ ∃ l rs, deliverAll (deliver net serve) l s = .ok (s', rs) ∧
      addAll rs Results.create = .ok r ∧ (∀ ds, (sentTo l ds).Sublist (packetsFor mk qs ds)) ∧
      ∀ x ∈ l, x.req.src = net.rank ∧ ∃ ds : Nat, ds < qs.length ∧ x.req.dst = ds :=
  processLoop_ok h

/-! ### Layouts -/

private theorem lookup_loop (server member : Nat → Bool) (rank : Int) (T : Nat) (hs : ∀ i, i < T → server i = true)
    (j n : Nat) (hj : j < T) (hr : rank ≠ j) (hm : member j = true) :
    ∀ k, k ≤ j → j < k + n →
      (endpointLoop server member rank (List.range' k n) k).lookup (j : Int) = some (j : Int) := by
  induction n with
  | zero => intro k h1 h2; omega
  | succ n ih =>
    intro k h1 h2
    rw [List.range'_succ]
    simp only [endpointLoop, hs k (by omega), if_true]
    by_cases hk : k = j
    · subst hk
      rw [if_pos ⟨hr, hm⟩]
      simp [List.lookup]
    · have := ih (k + 1) (by omega) (by omega)
      split
      · rw [List.lookup_cons]
        have hne : ((j : Int) == (k : Int)) = false := by
          rw [beq_eq_false_iff_ne]; omega
        rw [hne]
        exact this
      · exact this

/-- The layouts whose range server ids are ranks, with one datastore per range server. -/
def Aligned (l : Layout) : Prop := l.per = 1 ∧ (l.client ≤ l.server ∨ l.size ≤ l.client)

theorem aligned_total (l : Layout) (h : Aligned l) (hv : l.Valid) :
    l.total ≤ l.size ∧ (l.server < l.client → l.total ≤ l.server) := by
  obtain ⟨h1, h2⟩ := h
  obtain ⟨hc, hs, hp⟩ := hv
  unfold Layout.total Layout.totalRangeServers
  rw [h1, Nat.mul_one]
  split
  · exact ⟨Nat.le_refl _, by omega⟩
  · have hle : l.size ≤ l.client := by omega
    rcases Nat.lt_or_eq_of_le hle with hlt | heq
    · rw [Nat.div_eq_of_lt hlt, Nat.mod_eq_of_lt hlt, Nat.mul_zero, Nat.zero_add]
      omega
    · rw [heq, Nat.div_self hc, Nat.mod_self]
      omega

theorem aligned_rank (l : Layout) (h : Aligned l) (hv : l.Valid) (i : Nat) (hi : i < l.total) :
    l.dsToRank i = i := by
  obtain ⟨ht1, ht2⟩ := aligned_total l h hv
  obtain ⟨h1, h2⟩ := h
  obtain ⟨hc, hs, hp⟩ := hv
  have hr : dsGetRank i l.client l.server l.per = i := by
    unfold dsGetRank
    rw [if_neg (by omega), h1]
    simp only [Int.toNat_natCast, Nat.div_one]
    split
    · rfl
    · have : i < l.server := by omega
      rw [Nat.div_eq_of_lt this, Nat.mod_eq_of_lt this, Nat.zero_mul, Nat.zero_add]
  unfold Layout.dsToRank dsGetRankIn
  simp only [hr]
  rw [if_neg (by omega)]

private theorem aligned_server (l : Layout) (h : Aligned l) (hv : l.Valid) (i : Nat) (hi : i < l.total) :
    (isRangeServer i l.client l.server != 0) = true ∧ (isRangeServerIn i l.size l.client l.server != 0) = true := by
  obtain ⟨ht1, ht2⟩ := aligned_total l h hv
  obtain ⟨h1, h2⟩ := h
  obtain ⟨hc, hs, hp⟩ := hv
  have key : isRangeServer i l.client l.server = 1 := by
    unfold isRangeServer
    rw [if_neg (by omega)]
    have : i % l.client < l.server := by
      by_cases hcs : l.client ≤ l.server
      · exact Nat.lt_of_lt_of_le (Nat.mod_lt _ hc) hcs
      · exact Nat.lt_of_le_of_lt (Nat.mod_le _ _) (by omega)
    simp [ofBool, this]
  refine ⟨by rw [key]; rfl, ?_⟩
  unfold isRangeServerIn
  rw [if_neg (by omega), key]; rfl

private theorem total_le (l : Layout) (rank : Nat) (t : Transport) (order : ReqList → ReqList)
    (hp : ∀ l, (order l).Perm l) (heap : Nat) (junk : Nat → Bytes) :
    l.total ≤ (Layout.net l rank t order hp heap junk).dsToRank.length := by
  simp [Layout.net]

private theorem net_rank (l : Layout) (rank : Nat) (t : Transport) (order : ReqList → ReqList)
    (hp : ∀ l, (order l).Perm l) (heap : Nat) (junk : Nat → Bytes) (ds : Nat) (hd : ds < l.total) :
    (Layout.net l rank t order hp heap junk).dsToRank[ds]? = some (l.dsToRank ds) := by
  simp [Layout.net, hd]

/-- C29: layouts that are served correctly over MPI. One datastore per range server, range server ids
equal to ranks, and all range servers in the endpoint group. -/
theorem C29_mpi_layouts (l : Layout) (hv : l.Valid) (h : Aligned l) (rank : Nat) (group : List Nat)
    (hg : ∀ i < l.total, group.contains i = true) (order : ReqList → ReqList) (hp : ∀ l, (order l).Perm l)
    (heap : Nat) (junk : Nat → Bytes) :
    Routed (Layout.net l rank (.mpi (mpiEndpoints l rank group)) order hp heap junk) l.total := by
  obtain ⟨ht1, ht2⟩ := aligned_total l h hv
  have lk : ∀ ds, ds < l.total → (rank : Int) ≠ ds → (mpiEndpoints l rank group).lookup (ds : Int) = some (ds : Int) := by
    intro ds hd hne
    unfold mpiEndpoints
    rw [List.range_eq_range']
    exact lookup_loop _ _ _ l.total (fun i hi => (aligned_server l h hv i hi).2) ds l.size hd
      hne (hg ds hd) 0 (Nat.zero_le _) (by omega)
  refine ⟨total_le .., ?_, ?_⟩
  · intro ds r hd hr hne
    rw [net_rank l rank _ order hp heap junk ds hd, aligned_rank l h hv ds hd] at hr
    cases hr
    have hne' : (rank : Int) ≠ ds := fun he => hne he.symm
    exact ⟨lk ds hd hne', lk ds hd hne'⟩
  · intro ds ds' r hd hd' hr hr' _
    rw [net_rank l rank _ order hp heap junk ds hd, aligned_rank l h hv ds hd] at hr
    rw [net_rank l rank _ order hp heap junk ds' hd', aligned_rank l h hv ds' hd'] at hr'
    cases hr
    have := Option.some.inj hr'
    omega

/-- C29: layouts that are served correctly over Thallium; an empty endpoint group stands for all
ranks. -/
theorem C29_thallium_layouts (l : Layout) (hv : l.Valid) (h : Aligned l) (rank : Nat) (group : List Nat)
    (hg : group = [] ∨ ∀ i < l.total, group.contains i = true) (order : ReqList → ReqList)
    (hp : ∀ l, (order l).Perm l) (heap : Nat) (junk : Nat → Bytes) :
    Routed (Layout.net l rank (.thallium (thalliumEndpoints l rank group)) order hp heap junk) l.total := by
  obtain ⟨ht1, ht2⟩ := aligned_total l h hv
  have lk : ∀ ds, ds < l.total → (rank : Int) ≠ ds →
      (thalliumEndpoints l rank group).lookup (ds : Int) = some (ds : Int) := by
    intro ds hd hne
    unfold thalliumEndpoints
    rw [List.range_eq_range']
    refine lookup_loop _ _ _ l.total (fun i hi => (aligned_server l h hv i hi).1) ds l.size hd
      hne ?_ 0 (Nat.zero_le _) (by omega)
    rcases hg with rfl | hg
    · rfl
    · rw [hg ds hd, Bool.or_true]
  refine ⟨total_le .., ?_, ?_⟩
  · intro ds r hd hr hne
    rw [net_rank l rank _ order hp heap junk ds hd, aligned_rank l h hv ds hd] at hr
    cases hr
    exact lk ds hd (fun he => hne he.symm)
  · intro ds ds' r hd hd' hr hr' _
    rw [net_rank l rank _ order hp heap junk ds hd, aligned_rank l h hv ds hd] at hr
    rw [net_rank l rank _ order hp heap junk ds' hd', aligned_rank l h hv ds' hd'] at hr'
    cases hr
    have := Option.some.inj hr'
    omega

/-- C29: a job of a single rank is served correctly whatever the transport and the number of
datastores. -/
theorem C29_single_rank (l : Layout) (hv : l.Valid) (h1 : l.size = 1) (t : Transport) (order : ReqList → ReqList)
    (hp : ∀ l, (order l).Perm l) (heap : Nat) (junk : Nat → Bytes) :
    Routed (Layout.net l 0 t order hp heap junk) l.total := by
  obtain ⟨hc, hs, hpr⟩ := hv
  have key : ∀ ds, ds < l.total → l.dsToRank ds = 0 := by
    intro ds hd
    have ht : l.totalRangeServers ≤ 1 := by
      unfold Layout.totalRangeServers
      rw [h1]
      split
      · exact Nat.le_refl _
      · have h2 : 1 < l.client := by omega
        rw [Nat.div_eq_of_lt h2, Nat.mod_eq_of_lt h2]; omega
    have hlt : ds < l.per := by
      unfold Layout.total at hd
      have := Nat.mul_le_mul_right l.per ht
      omega
    have hr : dsGetRank ds l.client l.server l.per = 0 := by
      unfold dsGetRank
      rw [if_neg (by omega)]
      simp only [Int.toNat_natCast, Nat.div_eq_of_lt hlt, Nat.zero_div, Nat.zero_mod]
      split <;> simp
    unfold Layout.dsToRank dsGetRankIn
    simp only [hr]
    rw [if_neg (by omega)]
  refine ⟨total_le .., ?_, ?_⟩
  · intro ds r hd hr hne
    rw [net_rank l 0 t order hp heap junk ds hd, key ds hd] at hr
    cases hr
    exact absurd rfl hne
  · intro ds ds' r hd _ hr _ hne
    rw [net_rank l 0 t order hp heap junk ds hd, key ds hd] at hr
    cases hr
    exact absurd rfl hne

example : Aligned ⟨4, 1, 1, 1⟩ ∧ Layout.total ⟨4, 1, 1, 1⟩ = 4 := ⟨⟨rfl, Or.inl (by decide)⟩, rfl⟩
example : Aligned ⟨4, 4, 2, 1⟩ ∧ Layout.total ⟨4, 4, 2, 1⟩ = 2 := ⟨⟨rfl, Or.inr (by decide)⟩, rfl⟩

/-! ### Where C29 fails -/

private theorem assign_ne_nil (m : ReqList) (k : Int) (v : Req) : ReqList.assign m k v ≠ [] := by
  unfold ReqList.assign
  split
  · rename_i h
    intro hn
    rw [List.map_eq_nil_iff] at hn
    rw [hn] at h
    cases h
  · simp

private theorem divide_nonempty (net : Net) (mk : List α → ReqBody) (l : List (Nat × List α)) (loc : List Req)
    (remote : ReqList) (h : remote ≠ [] ∨ ∃ x ∈ l, ∃ rank, net.dsToRank[x.1]? = some rank ∧ rank ≠ net.rank) :
    divide net mk l loc remote = .ub ∨ ∃ d, divide net mk l loc remote = .ok d ∧ d.2 ≠ [] := by
  induction l generalizing loc remote with
  | nil =>
    rcases h with h | ⟨x, hx, -⟩
    · exact Or.inr ⟨_, rfl, h⟩
    · cases hx
  | cons y l ih =>
    obtain ⟨i, p⟩ := y
    simp only [divide]
    cases hk : net.dsToRank[i]? with
    | none => exact Or.inl rfl
    | some rank =>
      simp only
      split
      · rename_i hloc
        apply ih
        rcases h with h | ⟨x, hx, rk, hr, hne⟩
        · exact Or.inl h
        · rcases List.mem_cons.mp hx with rfl | hx
          · rw [hk] at hr; cases hr; exact absurd hloc.symm hne
          · exact Or.inr ⟨x, hx, rk, hr, hne⟩
      · exact ih _ _ (Or.inl (assign_ne_nil _ _ _))

/-- C29 fails without a transport (`TRANSPORT_NULL`) as soon as a packet is for another rank: the
transport pointer is null. -/
theorem C29_null_ub (net : Net) (serve : Server σ) (mk : List α → ReqBody) (s : σ) (qs : List (List (List α)))
    (ds : Nat) (p : List α) (q : List (List α)) (rank : Int) (ht : net.transport = .null)
    (hq : qs[ds]? = some (p :: q)) (hr : net.dsToRank[ds]? = some rank) (hne : rank ≠ net.rank) :
    process net serve mk s qs = .ub := by
  have hrem : remaining qs ≠ 0 := by
    intro h0
    have := (remaining_zero h0).1 mk ds
    simp [packetsFor, List.getD, hq] at this
  unfold process processLoop
  rw [if_neg hrem]
  have : round net serve mk s Results.create qs = .ub := by
    unfold round
    rcases divide_nonempty net mk (fronts 0 qs) [] []
      (Or.inr ⟨(ds, p), mem_fronts_zero.mpr ⟨q, hq⟩, rank, hr, hne⟩) with h | ⟨d, h, hd⟩
    · rw [h]; rfl
    · have hemp : d.2.isEmpty = false := by simpa using hd
      rw [h, Out.ok_bind, hemp]
      simp [communicate, ht]
  rw [this]; rfl

/-- A range server that keeps a log of what it executes where, and answers every PUT. -/
def logServe : Server (List (Int × Int)) := fun s rank req =>
  .ok (s ++ [(rank, req.dst)], ⟨req.dst, req.src, match req.body with
    | .put l => .put (l.map (fun x => ⟨dsSuccess, ⟨x.origS, x.subject.bytes.length, x.subject.typ⟩,
        ⟨x.origP, x.predicate.bytes.length, x.predicate.typ⟩⟩))
    | _ => .put []⟩)

private def exNet (l : Layout) (rank : Nat) (t : Transport) : Net :=
  Layout.net l rank t id (fun _ => List.Perm.refl _) 4096 (fun n => List.replicate n 0)

private def exP (a b c : UInt8) : PutItem := PutItem.make ⟨16, [a], 7⟩ ⟨32, [b], 7⟩ ⟨48, [c], 7⟩

/-- What the log and the number of results are after a flush. -/
private def outcome (net : Net) (qs : List (List (List PutItem))) : Out (List (Int × Int) × Nat) :=
  process net logServe .put [] qs >>= fun x => .ok (x.1, x.2.1.size)

/-- C29 is false with two datastores on another rank: in a job of two ranks with two datastores each,
PUTs for datastores 2 and 3 by rank 0 over Thallium end as one executed packet and one result. -/
theorem C29_two_datastores_false :
    outcome (exNet ⟨2, 1, 1, 2⟩ 0 (.thallium (thalliumEndpoints ⟨2, 1, 1, 2⟩ 0 [])))
      [[], [], [[exP 1 2 3]], [[exP 4 5 6]]] = .ok ([(1, 3)], 1) := by
  decide +kernel

/-- C29 is false over MPI with two datastores per rank: a PUT by rank 2 for datastore 1, which is on
rank 0, is executed by rank 1, and its result says success. -/
theorem C29_mpi_wrong_rank_false :
    (exNet ⟨3, 1, 1, 2⟩ 2 (.mpi (mpiEndpoints ⟨3, 1, 1, 2⟩ 2 [0, 1, 2]))).dsToRank[1]? = some 0 ∧
    outcome (exNet ⟨3, 1, 1, 2⟩ 2 (.mpi (mpiEndpoints ⟨3, 1, 1, 2⟩ 2 [0, 1, 2])))
      [[], [[exP 1 2 3]], [], [], [], []] = .ok ([(1, 1)], 1) := by
  decide +kernel

/-- C29 is false over MPI for a rank outside the endpoint group: the packet is dropped silently. -/
theorem C29_mpi_group_false :
    outcome (exNet ⟨2, 1, 1, 1⟩ 0 (.mpi (mpiEndpoints ⟨2, 1, 1, 1⟩ 0 [])))
      [[], [[exP 1 2 3]]] = .ok ([], 0) := by
  decide +kernel

/-- C29 is false over Thallium when only every second rank is a range server: the endpoint of
datastore 1, on rank 2, is looked up under the rank but stored under the range server id. -/
theorem C29_thallium_ratio_false :
    (exNet ⟨4, 2, 1, 1⟩ 0 (.thallium (thalliumEndpoints ⟨4, 2, 1, 1⟩ 0 []))).dsToRank[1]? = some 2 ∧
    outcome (exNet ⟨4, 2, 1, 1⟩ 0 (.thallium (thalliumEndpoints ⟨4, 2, 1, 1⟩ 0 [])))
      [[], [[exP 1 2 3]]] = .ok ([], 0) := by
  decide +kernel

/-- Three ranks, packets for all of them, two for the second. -/
example : outcome (exNet ⟨3, 1, 1, 1⟩ 0 (.mpi (mpiEndpoints ⟨3, 1, 1, 1⟩ 0 [0, 1, 2])))
    [[[exP 1 2 3]], [[exP 4 5 6, exP 7 8 9], [exP 1 1 1]], [[exP 2 2 2]]] =
      .ok ([(1, 1), (2, 2), (0, 0), (1, 1)], 5) := by
  decide +kernel

/-! ## C30 -/

private theorem push_items (r : Results) (l : List Result) : (r.push l).items = r.items ++ l := by
  unfold Results.push
  split
  · rename_i h; rw [List.isEmpty_iff] at h; rw [h, List.append_nil]
  · rfl

private theorem foldl_items {β : Type} (f : β → Result) (l : List β) (r : Results) :
    (l.foldl (fun r x => r.add [f x]) r).items = r.items ++ l.map f := by
  induction l generalizing r with
  | nil => simp
  | cons x l ih => rw [List.foldl_cons, ih, Results.add, push_items]; simp

private theorem addGetOps_from (src : Int) (l : List GetOpRes) (r r' : Results) (h : addGetOps src l r = .ok r') :
    ∃ new, ∀ q, ∃ q', addGetOps src l q = .ok q' ∧ q'.items = q.items ++ new := by
  induction l generalizing r with
  | nil => exact ⟨[], fun q => ⟨q, rfl, by simp⟩⟩
  | cons x l ih =>
    simp only [addGetOps] at h
    obtain ⟨c, hc, h⟩ := ok_iff.mp h
    obtain ⟨new, hn⟩ := ih _ h
    refine ⟨c ++ new, fun q => ?_⟩
    obtain ⟨q', h1, h2⟩ := hn (q.add c)
    refine ⟨q', ?_, ?_⟩
    · simp only [addGetOps, hc, Out.ok_bind]; exact h1
    · rw [h2, Results.add, push_items, List.append_assoc]

/-- What responses add to the results does not depend on the results that are already there. -/
private theorem addAll_from (l : List Res) (r r' : Results) (h : addAll l r = .ok r') :
    ∃ new, ∀ q, ∃ q', addAll l q = .ok q' ∧ q'.items = q.items ++ new := by
  induction l generalizing r with
  | nil => exact ⟨[], fun q => ⟨q, rfl, by simp⟩⟩
  | cons x l ih =>
    simp only [addAll] at h
    obtain ⟨c, hc, h⟩ := ok_iff.mp h
    obtain ⟨new, hn⟩ := ih _ h
    have : ∃ new', ∀ q, ∃ q', addResponse q x = .ok q' ∧ q'.items = q.items ++ new' := by
      obtain ⟨src, dst, body⟩ := x
      cases body with
      | getop m => exact addGetOps_from src m _ _ hc
      | put m => exact ⟨m.map (initPut src), fun q => ⟨_, rfl, foldl_items _ m q⟩⟩
      | get m => exact ⟨m.map (initGet src), fun q => ⟨_, rfl, foldl_items _ m q⟩⟩
      | del m => exact ⟨m.map (initDel src), fun q => ⟨_, rfl, foldl_items _ m q⟩⟩
      | hist m => exact ⟨m.map (initHist src), fun q => ⟨_, rfl, foldl_items _ m q⟩⟩
    obtain ⟨new', hn'⟩ := this
    refine ⟨new' ++ new, fun q => ?_⟩
    obtain ⟨q1, h1, h2⟩ := hn' q
    obtain ⟨q2, h3, h4⟩ := hn q1
    exact ⟨q2, by simp only [addAll, h1, Out.ok_bind]; exact h3, by rw [h4, h2, List.append_assoc]⟩

/-- The deliveries of one phase of a flush: packets of one kind only, each at most once, in queue
order, and with the datastore they were queued for as destination. -/
structure Phase (net : Net) (mk : List α → ReqBody) (qs : List (List (List α))) (l : List Send) : Prop where
  packets : ∀ ds, (sentTo l ds).Sublist (packetsFor mk qs ds)
  dest : ∀ x ∈ l, x.req.src = net.rank ∧ ∃ ds : Nat, ds < qs.length ∧ x.req.dst = ds

theorem Phase.kind {net : Net} {mk : List α → ReqBody} {qs : List (List (List α))} {l : List Send}
    (h : Phase net mk qs l) : ∀ x ∈ l, ∃ p, x.req.body = mk p := by
  intro x hx
  obtain ⟨-, ds, -, hd⟩ := h.dest x hx
  have h1 : x.req.body ∈ sentTo l ds := by
    unfold sentTo
    exact List.mem_map.mpr ⟨x, List.mem_filter.mpr ⟨hx, by simp [hd]⟩, rfl⟩
  have h2 := (h.packets ds).subset h1
  unfold packetsFor at h2
  obtain ⟨p, -, hp⟩ := List.mem_map.mp h2
  exact ⟨p, hp.symm⟩

private theorem phase (net : Net) (serve : Server σ) (mk : List α → ReqBody) {s : σ} {qs : List (List (List α))}
    {x : σ × Results × List (List (List α))} (h : process net serve mk s qs = .ok x) :
    x.2.2 = qs.map (fun _ => []) ∧ ∃ l rs, Phase net mk qs l ∧ deliverAll (deliver net serve) l s = .ok (x.1, rs) ∧
      addAll rs Results.create = .ok x.2.1 := by
  obtain ⟨h1, l, rs, h2, h3, h4, h5⟩ := C29_at_most_once net serve mk s x.1 x.2.1 qs x.2.2 h
  exact ⟨h1, l, rs, ⟨h4, h5⟩, h2, h3⟩

private theorem chain_two (exec : σ → Send → Out (σ × Option Res)) {l m : List Send} {s s1 s2 : σ} {rs rs' : List Res}
    (h1 : deliverAll exec l s = .ok (s1, rs)) (h2 : deliverAll exec m s1 = .ok (s2, rs')) :
    deliverAll exec (l ++ m) s = .ok (s2, rs ++ rs') := by
  rw [deliverAll_append, h1, Out.ok_bind, h2]; rfl

private theorem items_two {rs rs' : List Res} {r r' a : Results} (h1 : addAll rs Results.create = .ok a)
    (h2 : addAll rs' Results.create = .ok r') (ha : a.items = r.items) :
    ∃ b, addAll (rs ++ rs') Results.create = .ok b ∧ b.items = (r.append r').1.items := by
  obtain ⟨new, hn⟩ := addAll_from rs' _ _ h2
  obtain ⟨b, hb, hi⟩ := hn a
  obtain ⟨c, hc, hi'⟩ := hn Results.create
  rw [h2] at hc
  cases hc
  refine ⟨b, by rw [addAll_append, h1, Out.ok_bind]; exact hb, ?_⟩
  rw [hi, ha, Results.append, push_items, hi']
  rfl

/-- C30. One `Flush` executes PUTs, then GETs, then GETOPs, then DELETEs, then histograms, whatever
the layout and the transport; the results are in that order too. -/
theorem C30_order (net : Net) (serve : Server σ) (s s' : σ) (q q' : Queue.Queues) (r : Results)
    (h : flush net serve s q = .ok (s', r, q')) :
    q' = ⟨q.puts.map (fun _ => []), 0, q.gets.map (fun _ => []), q.getops.map (fun _ => []),
      q.dels.map (fun _ => []), q.hists.map (fun _ => [])⟩ ∧
    ∃ lp lg lo ld lh rs r0, Phase net .put q.puts lp ∧ Phase net .get q.gets lg ∧ Phase net .getop q.getops lo ∧
      Phase net .del q.dels ld ∧ Phase net .hist q.hists lh ∧
      deliverAll (deliver net serve) (lp ++ lg ++ lo ++ ld ++ lh) s = .ok (s', rs) ∧
      addAll rs Results.create = .ok r0 ∧ r0.items = r.items := by
  unfold flush flushPuts flushGets flushGetOps flushDels flushHists at h
  obtain ⟨x1, h1, h⟩ := ok_iff.mp h
  obtain ⟨y1, g1, h1⟩ := ok_iff.mp h1; cases h1
  obtain ⟨x2, h2, h⟩ := ok_iff.mp h
  obtain ⟨y2, g2, h2⟩ := ok_iff.mp h2; cases h2
  obtain ⟨x3, h3, h⟩ := ok_iff.mp h
  obtain ⟨y3, g3, h3⟩ := ok_iff.mp h3; cases h3
  obtain ⟨x4, h4, h⟩ := ok_iff.mp h
  obtain ⟨y4, g4, h4⟩ := ok_iff.mp h4; cases h4
  obtain ⟨x5, h5, h⟩ := ok_iff.mp h
  obtain ⟨y5, g5, h5⟩ := ok_iff.mp h5; cases h5
  cases h
  obtain ⟨e1, lp, r1, p1, d1, a1⟩ := phase net serve _ g1
  obtain ⟨e2, lg, r2, p2, d2, a2⟩ := phase net serve _ g2
  obtain ⟨e3, lo, r3, p3, d3, a3⟩ := phase net serve _ g3
  obtain ⟨e4, ld, r4, p4, d4, a4⟩ := phase net serve _ g4
  obtain ⟨e5, lh, r5, p5, d5, a5⟩ := phase net serve _ g5
  refine ⟨by simp [e1, e2, e3, e4, e5], ?_⟩
  have i1 : y1.2.1.items = (Results.create.append (Results.create.append y1.2.1).1).1.items := by
    simp [Results.append, push_items, Results.create]
  obtain ⟨b2, j2, i2⟩ := items_two a1 a2 i1
  obtain ⟨b3, j3, i3⟩ := items_two j2 a3 i2
  obtain ⟨b4, j4, i4⟩ := items_two j3 a4 i3
  obtain ⟨b5, j5, i5⟩ := items_two j4 a5 i4
  exact ⟨lp, lg, lo, ld, lh, _, b5, p1, p2, p3, p4, p5,
    chain_two _ (chain_two _ (chain_two _ (chain_two _ d1 d2) d3) d4) d5, j5, i5⟩

/-- C30 with C29: with a routed layout the phases are complete. -/
theorem C30_complete_partial (net : Net) (serve : Server σ) (s s' : σ) (q q' : Queue.Queues) (r : Results) (n : Nat)
    (hR : Routed net n) (hp : q.puts.length ≤ n) (hg : q.gets.length ≤ n) (ho : q.getops.length ≤ n)
    (hd : q.dels.length ≤ n) (hh : q.hists.length ≤ n)
    (h : flush net serve s q = .ok (s', r, q')) :
    ∃ lp lg lo ld lh rs r0, Delivers net .put q.puts lp ∧ Delivers net .get q.gets lg ∧ Delivers net .getop q.getops lo ∧
      Delivers net .del q.dels ld ∧ Delivers net .hist q.hists lh ∧
      deliverAll (deliver net serve) (lp ++ lg ++ lo ++ ld ++ lh) s = .ok (s', rs) ∧
      addAll rs Results.create = .ok r0 ∧ r0.items = r.items := by
  have full : ∀ {β : Type} (mk : List β → ReqBody) (qs : List (List (List β))), qs.length ≤ n → ∀ (s : σ) x,
      process net serve mk s qs = .ok x → ∃ l rs, Delivers net mk qs l ∧
        deliverAll (deliver net serve) l s = .ok (x.1, rs) ∧ addAll rs Results.create = .ok x.2.1 := by
    intro β mk qs hl s x hx
    have hR' : Routed net qs.length := ⟨Nat.le_trans hl hR.placed,
      fun ds rank h1 => hR.reach ds rank (by omega),
      fun ds ds' rank h1 h2 => hR.single ds ds' rank (by omega) (by omega)⟩
    obtain ⟨l, hl, hall⟩ := C29_flush_partial net mk qs hR'
    obtain ⟨-, rs, h1, h2⟩ := (hall serve s x.1 x.2.1 x.2.2).mp hx
    exact ⟨l, rs, hl, h1, h2⟩
  unfold flush flushPuts flushGets flushGetOps flushDels flushHists at h
  obtain ⟨x1, h1, h⟩ := ok_iff.mp h
  obtain ⟨y1, g1, h1⟩ := ok_iff.mp h1; cases h1
  obtain ⟨x2, h2, h⟩ := ok_iff.mp h
  obtain ⟨y2, g2, h2⟩ := ok_iff.mp h2; cases h2
  obtain ⟨x3, h3, h⟩ := ok_iff.mp h
  obtain ⟨y3, g3, h3⟩ := ok_iff.mp h3; cases h3
  obtain ⟨x4, h4, h⟩ := ok_iff.mp h
  obtain ⟨y4, g4, h4⟩ := ok_iff.mp h4; cases h4
  obtain ⟨x5, h5, h⟩ := ok_iff.mp h
  obtain ⟨y5, g5, h5⟩ := ok_iff.mp h5; cases h5
  cases h
  obtain ⟨lp, r1, p1, d1, a1⟩ := full _ _ hp _ _ g1
  obtain ⟨lg, r2, p2, d2, a2⟩ := full _ _ hg _ _ g2
  obtain ⟨lo, r3, p3, d3, a3⟩ := full _ _ ho _ _ g3
  obtain ⟨ld, r4, p4, d4, a4⟩ := full _ _ hd _ _ g4
  obtain ⟨lh, r5, p5, d5, a5⟩ := full _ _ hh _ _ g5
  have i1 : y1.2.1.items = (Results.create.append (Results.create.append y1.2.1).1).1.items := by
    simp [Results.append, push_items, Results.create]
  obtain ⟨b2, j2, i2⟩ := items_two a1 a2 i1
  obtain ⟨b3, j3, i3⟩ := items_two j2 a3 i2
  obtain ⟨b4, j4, i4⟩ := items_two j3 a4 i3
  obtain ⟨b5, j5, i5⟩ := items_two j4 a5 i4
  exact ⟨lp, lg, lo, ld, lh, _, b5, p1, p2, p3, p4, p5,
    chain_two _ (chain_two _ (chain_two _ (chain_two _ d1 d2) d3) d4) d5, j5, i5⟩

/-- One rank: a PUT, a GET and a DELETE of the same pair queued in the opposite order. -/
example : (flush (exNet ⟨1, 1, 1, 1⟩ 0 .null) (fun (s : List Nat) _ req => .ok (s ++ [req.body.op], ⟨0, 0, .put []⟩)) []
    ⟨[[[exP 1 2 3]]], 1, [[[GetItem.make ⟨16, [1], 7⟩ ⟨32, [2], 7⟩ 7]]], [[]],
      [[[DelItem.make ⟨16, [1], 7⟩ ⟨32, [2], 7⟩]]], [[]]⟩ >>= fun x => .ok x.1) = .ok [opPut, opGet, opDelete] := by
  decide +kernel

end Hx.Props

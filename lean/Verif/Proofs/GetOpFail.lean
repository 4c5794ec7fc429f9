import Verif.Proofs.OverlapFail
import Verif.Spec.GetOpFail

/-!
# Helper lemmas: GETOPs when writes fail
-/

namespace Hx.Job
open Hx Msg Spec Process Store Results Props

variable {cb : Callbacks} {t : Transform} {hash : Bytes → Bytes → Out Int} {place : List Int} {heap : Nat} {b : Backend}

/-! ## Stored keys -/

theorem KeysFit.mono {H H' : List Ev} (h : KeysFit H') (hs : ∀ e ∈ H, e ∈ H') : KeysFit H :=
  fun s p o hm => h s p o (hs _ hm)

theorem succeededPuts_stored {a : Val → Bool} {l : List Op} {r : Results} {ps : List ((Blob × Blob × Blob) × Result)}
    (h : PutsReported l r ps) : ∀ e ∈ succeededPuts a ps, e ∈ storedPuts a l := by
  intro e he
  obtain ⟨x, hx, he⟩ := List.mem_filterMap.mp he
  split at he
  · rename_i hc
    cases he
    rw [Bool.and_eq_true] at hc
    have hm : x.1 ∈ putTriples l := by rw [← h.all]; exact List.mem_map_of_mem hx
    obtain ⟨o, ho, e⟩ := List.mem_filterMap.mp hm
    cases o <;> simp only [Option.some.injEq, reduceCtorEq] at e
    rename_i s p v
    refine List.mem_filterMap.mpr ⟨_, ho, ?_⟩
    rw [← e] at hc ⊢
    simp only at hc ⊢
    rw [if_pos hc.2]
  · cases he

theorem succeededDels_not_put {a : Val → Bool} {ds : List ((Blob × Blob) × Result)} {s p o : Val} :
    Ev.put s p o ∉ succeededDels a ds := by
  intro he
  obtain ⟨x, -, he⟩ := List.mem_filterMap.mp he
  split at he <;> cases he

theorem keysFit_told {l : List Turn} {rs : List Results} {H : List Ev} (h : Reported t.accepts hash l rs H)
    (hok : ∀ y ∈ l, TurnOk cb t hash place y) (hg : ∀ y ∈ l, PutsGiven (turnOps hash y)) : KeysFit H := by
  induction h with
  | nil => intro s p o h; cases h
  | @cons x r ps ds l rs H hp hd _ ih =>
    intro s p o hm
    rcases List.mem_append.mp hm with hm | hm
    · rcases List.mem_append.mp hm with hm | hm
      · exact keysFit_puts (hok x (by simp)).operations (hg x (by simp)) s p o (succeededPuts_stored hp _ hm)
      · exact absurd hm succeededDels_not_put
    · exact ih (fun y hy => hok y (by simp [hy])) (fun y hy => hg y (by simp [hy])) s p o hm

/-! ## Turns -/

theorem turn_told (hheap : heap ≠ 0) (hheap' : heap < 2 ^ 64) (hp31 : place.length ≤ 2 ^ 31) {w w' : World} {H : List Ev}
    {x : Turn} {r : Results} (hw : Stores cb t hash place w H) (hx : TurnOk cb t hash place x)
    (h : turn cb heap place.length w x = .ok (w', r)) :
    ∃ ps ds, Stores cb t hash place w' (H ++ (succeededPuts t.accepts ps ++ succeededDels t.accepts ds)) ∧
      PutsReported (turnOps hash x) r ps ∧ DelsReported (turnOps hash x) r ds ∧ Kept w w' ∧
      (Apart place w → Backed b w → KeysFit (H ++ succeededPuts t.accepts ps) → GetOpsOk cb t (turnOps hash x) →
        (∀ y ∈ getOps (turnOps hash x), Arrives t cb.neg b hash (H ++ succeededPuts t.accepts ps) y) →
        ∃ gs groups, gs.Perm (getOps (turnOps hash x)) ∧ r.items.filter (fun y => decide (y.kind = .getop)) = groups.flatten ∧
          List.Forall₂ (ReturnedOp t cb.neg b hash (H ++ succeededPuts t.accepts ps)) gs groups) := by
  unfold turn at h
  obtain ⟨q, hq, h⟩ := ok_iff.mp h
  obtain ⟨y, hy, h⟩ := ok_iff.mp h
  cases h
  obtain ⟨-, z1, z2, z3, z4, z5⟩ := queue_facts hx hq
  have hR := hx.routed
  unfold flush flushPuts flushGets flushGetOps flushDels flushHists at hy
  obtain ⟨x1, h1, hy⟩ := ok_iff.mp hy
  obtain ⟨y1, g1, h1⟩ := ok_iff.mp h1; cases h1
  obtain ⟨x2, h2, hy⟩ := ok_iff.mp hy
  obtain ⟨y2, g2, h2⟩ := ok_iff.mp h2; cases h2
  obtain ⟨x3, h3, hy⟩ := ok_iff.mp hy
  obtain ⟨y3, g3, h3⟩ := ok_iff.mp h3; cases h3
  obtain ⟨x4, h4, hy⟩ := ok_iff.mp hy
  obtain ⟨y4, g4, h4⟩ := ok_iff.mp h4; cases h4
  obtain ⟨x5, h5, hy⟩ := ok_iff.mp hy
  obtain ⟨y5, g5, h5⟩ := ok_iff.mp h5; cases h5
  cases hy
  obtain ⟨lp, r1, p1, d1, a1⟩ := phase _ _ (by rw [z1]; exact hR) g1
  obtain ⟨lg, r2, p2, d2, a2⟩ := phase _ _ (by rw [show _ = q.gets from rfl, z2]; exact hR) g2
  obtain ⟨lo, r3, p3, d3, a3⟩ := phase _ _ (by rw [show _ = q.getops from rfl, z3]; exact hR) g3
  obtain ⟨ld, r4, p4, d4, a4⟩ := phase _ _ (by rw [show _ = q.dels from rfl, z4]; exact hR) g4
  obtain ⟨lh, r5, p5, d5, a5⟩ := phase _ _ (by rw [show _ = q.hists from rfl, z5]; exact hR) g5
  simp only at p2 p3 p4 p5 d2 d3 d4 d5
  have fp := fine_puts hp31 hx hq p1
  have fg := fine_gets hp31 hx hq p2
  have fo := fine_getops hp31 hx hq p3
  have fd := fine_dels hp31 hx hq p4
  have fh := fine_hists hp31 hx hq p5
  have k1 := addAll_kind a1 (deliverAll_kinds lp (fun s hs => ⟨(fp s hs).1.req, (fp s hs).2⟩) d1) (by simp [Results.create])
  have k2 := addAll_kind a2 (deliverAll_kinds lg (fun s hs => ⟨(fg s hs).1.1.req, (fg s hs).1.2⟩) d2) (by simp [Results.create])
  have k3 := addAll_kind a3 (deliverAll_kinds lo (fun s hs => ⟨(fo s hs).1.req, (fo s hs).2⟩) d3) (by simp [Results.create])
  have k4 := addAll_kind a4 (deliverAll_kinds ld (fun s hs => ⟨(fd s hs).1.req, (fd s hs).2⟩) d4) (by simp [Results.create])
  have k5 := addAll_kind a5 (deliverAll_kinds lh (fun s hs => ⟨(fh s hs).1.req, (fh s hs).2⟩) d5) (by simp [Results.create])
  obtain ⟨ps, e1, e2, e3, e4, w1⟩ := puts_reported hp31 hw hx hq p1 d1 a1
  have w2 := deliverAll_nothing lg w1 (fun s hs => ⟨(fg s hs).1.1, _, (fg s hs).1.2, by decide, by decide⟩) d2
  have w3 := deliverAll_nothing lo w2 (fun s hs => ⟨(fo s hs).1, _, (fo s hs).2, by decide, by decide⟩) d3
  obtain ⟨ds, i1, i2, i3, i4, w4⟩ := dels_reported hp31 w3 hx hq p4 d4 a4
  have w5 := deliverAll_nothing lh w4 (fun s hs => ⟨(fh s hs).1, _, (fh s hs).2, by decide, by decide⟩) d5
  have t1 := deliverAll_kept lp hw (fun s hs => (fp s hs).1) d1
  have t2 := deliverAll_kept lg w1 (fun s hs => (fg s hs).1.1) d2
  have t3 := deliverAll_kept lo w2 (fun s hs => (fo s hs).1) d3
  have t4 := deliverAll_kept ld w3 (fun s hs => (fd s hs).1) d4
  have t5 := deliverAll_kept lh w4 (fun s hs => (fh s hs).1) d5
  refine ⟨ps, ds, by rw [← List.append_assoc]; exact w5, ⟨e1, ?_, e3, ?_⟩, ⟨i1, ?_, i3, ?_⟩,
    (((t1.trans t2).trans t3).trans t4).trans t5, ?_⟩
  · simp only [append_items, List.filter_append]
    rw [kind_all k1, kind_none (by decide) k2, kind_none (by decide) k3, kind_none (by decide) k4, kind_none (by decide) k5]
    simpa [Results.create] using e2
  · intro s p
    refine (e4 s p).trans ?_
    simp only [append_items, Results.create, List.nil_append, List.append_assoc]
    exact List.sublist_append_left _ _
  · simp only [append_items, List.filter_append]
    rw [kind_none (by decide) k1, kind_none (by decide) k2, kind_none (by decide) k3, kind_all k4, kind_none (by decide) k5]
    simpa [Results.create] using i2
  · intro s p
    refine (i4 s p).trans ?_
    simp only [append_items]
    exact (List.sublist_append_right _ _).trans (List.sublist_append_left _ _)
  · intro ha hb hkeys hops harr
    obtain ⟨gs, groups, f1, f2, f3⟩ := getops_returned hheap hheap' hp31 w2 hx ((t1.trans t2).apart ha) ((t1.trans t2).backed hb)
      hq p3 d3 a3 hkeys hops harr
    refine ⟨gs, groups, f1, ?_, f3⟩
    simp only [append_items, List.filter_append]
    rw [kind_none (by decide) k1, kind_none (by decide) k2, kind_all k3, kind_none (by decide) k4, kind_none (by decide) k5, f2]
    simp [Results.create]

theorem run_told (hheap : heap ≠ 0) (hheap' : heap < 2 ^ 64) (hp31 : place.length ≤ 2 ^ 31) (l : List Turn) {w w' : World}
    {H : List Ev} {rs : List Results} (hw : Stores cb t hash place w H) (hl : ∀ x ∈ l, TurnOk cb t hash place x)
    (h : run cb heap place.length w l = .ok (w', rs)) :
    ∃ H', Reported t.accepts hash l rs H' ∧ Stores cb t hash place w' (H ++ H') ∧ Kept w w' := by
  induction l generalizing w H rs with
  | nil => cases h; exact ⟨[], .nil, by simpa using hw, fun _ => rfl⟩
  | cons x l ih =>
    simp only [run] at h
    obtain ⟨y, hy, h⟩ := ok_iff.mp h
    obtain ⟨z, hz, h⟩ := ok_iff.mp h
    cases h
    obtain ⟨ps, ds, e1, e2, e3, e4, -⟩ := turn_told (b := .mem) hheap hheap' hp31 hw (hl x (by simp)) hy
    obtain ⟨H', f1, f2, f3⟩ := ih e1 (fun u hu => hl u (by simp [hu])) hz
    refine ⟨_, .cons e2 e3 f1, ?_, e4.trans f3⟩
    rw [← List.append_assoc]
    exact f2

/-! ## Flushes that overlap -/

theorem executes_kept' {w w' : World} {H : List Ev} {log : List Served} (hw : Stores cb t hash place w H)
    (hl : ∀ y ∈ log, Known cb t hash place heap y) (h : executes cb heap w log w') : Kept w w' := by
  induction log generalizing w H with
  | nil => cases h; exact fun _ => rfl
  | cons y log ih =>
    obtain ⟨u, hu, h⟩ := h
    have hy := hl y (by simp)
    have h1 := executes_done (log := [y]) hw (by simpa using hy) ⟨u, hu, rfl⟩
    obtain ⟨net, m, rfl, hok, hfine⟩ := hy
    have hd : deliverAll (deliver net (World.serve cb heap)) [m.send] w = .ok (u, m.back.toList ++ []) := by
      simp only [deliverAll, hok.step w u hu, Out.ok_bind]
    exact (deliverAll_kept [m.send] hw (by simpa using hfine) hd).trans (ih h1 (fun z hz => hl z (by simp [hz])) h)

theorem overlap_getops_told (hheap : heap ≠ 0) (hheap' : heap < 2 ^ 64) (hp31 : place.length ≤ 2 ^ 31) {w w' : World}
    {turns : List Turn} {log : List Served} {rs : List Results} (hw : Stores cb t hash place w []) (ha : Apart place w) (hb : Backed b w)
    (hturns : ∀ x ∈ turns, TurnOk cb t hash place x) (hgiven : ∀ x ∈ turns, PutsGiven (turnOps hash x))
    (h : Overlap cb heap place.length w turns log w' rs) :
    ∃ f : Nat → Outcomes, ToldBy hash turns rs f ∧ ∀ i x r, turns[i]? = some x → rs[i]? = some r → GetOpsOk cb t (turnOps hash x) →
      (∀ g ∈ getOps (turnOps hash x), ∀ before y after, log = before ++ y :: after → y.turn = i →
        Arrives t cb.neg b hash (before.flatMap (fun y => done t.accepts y.req.body y.res.body)) g) →
      ∃ gs groups, gs.Perm (getOps (turnOps hash x)) ∧ r.items.filter (fun y => decide (y.kind = .getop)) = groups.flatten ∧
        List.Forall₂ (fun g z => ∃ before y after, OpAnsweredTold t.accepts hash turns.length f log i g before y after ∧
          ReturnedOp t cb.neg b hash (before.flatMap (fun y => done t.accepts y.req.body y.res.body)) g z) gs groups := by
  obtain ⟨f, hf, hdoes⟩ := overlap_told hp31 hw hturns h
  refine ⟨f, hf, fun i x r hi hr hops harr => ?_⟩
  obtain ⟨r', mp, mg, mo, rest, hr', hp, hown⟩ := hdoes i x hi
  rw [hr] at hr'
  cases hr'
  have haddr := (hturns x (List.mem_of_getElem? hi)).address
  refine ⟨_, _, hp.ops, hp.opItems, ?_⟩
  refine forall₂_flatMap _ _ _ ?_
  intro M m M' hm
  obtain ⟨before, after, h1, h3, hF⟩ := seen_before hp31 hturns h hi hp (M := mg ++ M) (m := m) (M' := M') (by rw [hm]; simp)
    (ev := doneOf t.accepts) (fun y _ e he => doneOf_asked _ y e he) (P := fun k => succeededPuts t.accepts (f k).puts)
    (D := fun k => succeededDels t.accepts (f k).dels)
    (fun k z hk => by
      obtain ⟨r, mp, mg, mo, rest, -, a, b⟩ := hdoes k z hk
      exact ⟨r, mp, mg, mo, rest, a, b⟩) hown
  obtain ⟨u, e1, v, e2, -⟩ : ∃ u, executes cb heap w before u ∧ ∃ v, World.serve cb heap u m.srv.rank m.srv.req = .ok (v, m.srv.res) ∧
      executes cb heap v after w' := executes_append (by rw [← h1]; exact h.executes)
  have hknown : ∀ y ∈ before, Known cb t hash place heap y :=
    fun y hy => overlap_known hp31 hturns h y (by rw [h1]; simp [hy])
  have hold := executes_done hw hknown e1
  rw [List.nil_append] at hold
  have hkept := executes_kept' hw hknown e1
  have hkeys : KeysFit (before.flatMap (doneOf t.accepts)) :=
    (overlap_keysFit hp31 hturns hgiven h (l := before) (fun y hy => by rw [h1]; simp [hy])).mono (by
      intro e he
      obtain ⟨y, hy, he⟩ := List.mem_flatMap.mp he
      exact List.mem_flatMap.mpr ⟨y, hy, doneOf_asked _ y e he⟩)
  obtain ⟨hok, hfine⟩ := hp.ok m (by rw [hm]; simp)
  obtain ⟨g, hg, hgk⟩ := hp.getops m (by rw [hm]; simp)
  have hd : deliverAll (deliver x.net (World.serve cb heap)) [m.send] u = .ok (v, m.back.toList) := by
    simp only [deliverAll, hok.step u v e2, Out.ok_bind, List.append_nil]
  obtain ⟨-, hR⟩ := deliverAll_getops hheap hheap' haddr.1 haddr.2 [m.send] hkeys hold (hkept.apart ha) (hkept.backed hb) (by
    intro z hz
    rw [List.mem_singleton] at hz
    subst hz
    exact ⟨hfine, g, hg, fun y hy => ⟨hops y (hgk y hy).1, harr y (hgk y hy).1 before m.srv after h1 h3, (hgk y hy).2⟩⟩) hd
  have hret := forall₂_resultOps _ _ hR
  simp only [List.flatMap_cons, List.flatMap_nil, List.append_nil] at hret
  have hans : ∀ y ∈ getopsIn m.send.req.body, OpAnsweredTold t.accepts hash turns.length f log i y before m.srv after := by
    intro y hy
    refine ⟨h1, h3, ?_, ?_⟩
    · rw [hok.ops, opsIn_getopsIn]
      exact List.mem_map_of_mem hy
    · intro ds hds
      rw [hg] at hy
      obtain ⟨-, d, hd, hd'⟩ := hgk y hy
      rw [hds] at hd'
      cases hd'
      obtain ⟨d', hd', hpl, -⟩ := hfine.dst
      rw [hd] at hd'
      have : ds = d' := by exact_mod_cast hd'
      subst this
      obtain ⟨a1, a2, a3, a4⟩ := hF (fun e => decide (evHome hash e = some ds)) ds
        (fun e he => by rw [← evHome_hv]; exact of_decide_eq_true he) (by rw [hok.rank]; exact hpl)
      exact ⟨by rw [hok.dst]; exact hd, a1, a2, a3, a4⟩
  generalize getopsIn m.send.req.body = ys at hret hans
  generalize m.back.toList.flatMap (fun res => (getopsOut res).map (recResults res.src)) = zs at hret
  induction hret with
  | nil => exact .nil
  | @cons y z ys zs hyz _ ih =>
    exact .cons ⟨before, m.srv, after, hans y (by simp), hyz⟩ (ih (fun y hy => hans y (by simp [hy])))

end Hx.Job

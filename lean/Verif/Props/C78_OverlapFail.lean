import Verif.Proofs.OverlapFail
import Verif.Props.C55_Overlap
import Verif.Props.C76_FailedWrites

/-!
# C78: flushes of several ranks that overlap in time, when writes fail

As C55, but every write may fail. What a flush did is what the results of its PUTs and DELETEs say.
-/

namespace Hx.Props
open Hx Msg Spec Process Store Results Job Place

/-- C78 for all GETs, partial: starting with empty datastores, and with any of the writes failing, every PUT and DELETE of every
flush has one result, which refers to the memory of the caller (`ToldBy`), and every GET of every flush has one result. There is a
request in the log of this flush that asks for the pair, such that the result has the object of the latest PUT of the pair before
that request that reported success, or says that there is none. Which PUTs and DELETEs of a pair are before that request: all
PUTs of the flush itself that reported success and none of its DELETEs, all of finished flushes that reported success, none of
flushes that begin later, and a prefix of those of each other flush (`SeenTold`). PUTs and DELETEs that report an error change
nothing. Missing: layouts that are not `Routed`, hash functions that depend on the rank, objects that come back empty
(`C48_empty_object_ub`) and asynchronous PUTs (taking turns: C77). -/
theorem C78_gets_partial (cb : Callbacks) (t : Transform) (hash : Bytes → Bytes → Out Int) (place : List Int) (heap : Nat)
    (hheap : heap ≠ 0 ∧ heap < 2 ^ 64) (hplace : place.length ≤ 2 ^ 31) (turns : List Turn) (w w' : World) (log : List Served)
    (rs : List Results) (hw : EmptyWorld w) (hturns : ∀ y ∈ turns, TurnOk cb t hash place y)
    (h : Overlap cb heap place.length w turns log w' rs) :
    ∃ f : Nat → Outcomes, ToldBy hash turns rs f ∧ ∀ i x r, turns[i]? = some x → rs[i]? = some r →
      ∃ gs, gs.Perm (getPairs (turnOps hash x)) ∧ List.Forall₂ (fun g z => ∃ before y after,
        AnsweredTold t.accepts turns.length f log i before y after ∧ (g.1.val, g.2.val) ∈ askedIn y.req.body ∧
        Returned t ((wrote t.accepts g.1.val g.2.val before).map Prod.snd) g z) gs
          (r.items.filter (fun y => decide (y.kind = .get))) :=
  overlap_gets_told hheap.1 hheap.2 hplace (stores_empty hw) hturns h

private theorem forall₂_imp {α β : Type} {R S : α → β → Prop} (hRS : ∀ a b, R a b → S a b) {l : List α} {m : List β}
    (h : List.Forall₂ R l m) : List.Forall₂ S l m := by
  induction h with
  | nil => exact .nil
  | cons h _ ih => exact .cons (hRS _ _ h) ih

/-- C78 in terms of flushes and their results only, partial: the result of every GET is explained by a change of the pair that
reported success and can be the latest one. Missing: as `C78_gets_partial`. -/
theorem C78_explained_partial (cb : Callbacks) (t : Transform) (hash : Bytes → Bytes → Out Int) (place : List Int) (heap : Nat)
    (hheap : heap ≠ 0 ∧ heap < 2 ^ 64) (hplace : place.length ≤ 2 ^ 31) (turns : List Turn) (w w' : World) (log : List Served)
    (rs : List Results) (hw : EmptyWorld w) (hturns : ∀ y ∈ turns, TurnOk cb t hash place y)
    (h : Overlap cb heap place.length w turns log w' rs) :
    ∃ f : Nat → Outcomes, ToldBy hash turns rs f ∧ ∀ i x r, turns[i]? = some x → rs[i]? = some r →
      ∃ gs, gs.Perm (getPairs (turnOps hash x)) ∧
        List.Forall₂ (ExplainedTold t turns.length f log i) gs (r.items.filter (fun y => decide (y.kind = .get))) := by
  obtain ⟨f, hf, hg⟩ := C78_gets_partial cb t hash place heap hheap hplace turns w w' log rs hw hturns h
  refine ⟨f, hf, fun i x r hi hr => ?_⟩
  obtain ⟨gs, h1, h2⟩ := hg i x r hi hr
  refine ⟨gs, h1, forall₂_imp ?_ h2⟩
  rintro g z ⟨before, y, after, ha, hy, hz⟩
  exact explained_told ha hy hz

private theorem filter_none {s p : Val} {l : List Ev} (h : ∀ e ∈ l, evPair e ≠ (s, p)) : l.filter (ofPair s p) = [] := by
  rw [List.filter_eq_nil_iff]
  intro e he hp
  exact h e he (evPair_ofPair.mp hp)

/-- A flush that did not change a pair. -/
theorem changesTold_unchanged {a : Val → Bool} {hash : Bytes → Bytes → Out Int} {s p : Val} {x : Turn} {r : Results} {z : Outcomes}
    (h1 : PutsReported (turnOps hash x) r z.puts) (h2 : DelsReported (turnOps hash x) r z.dels) (h : Unchanged hash s p x r) :
    changesTold a s p z = [] := by
  unfold changesTold
  rcases h with h | h
  · rw [List.filter_append, filter_none (succeeded_pair h1 (fun _ _ _ ho hp => h _ ho hp)),
      filter_none (succeeded_dels_pair h2 (fun _ _ ho hp => h _ ho hp))]
    rfl
  · rw [succeeded_none h1 h, succeeded_dels_none h2 h]
    rfl

/-- When the results are explained, the object of the latest PUT is found. -/
theorem found_told {t : Transform} {hash : Bytes → Bytes → Out Int} {turns : List Turn} {log : List Served} {rs : List Results}
    {f : Nat → Outcomes} (hlen : rs.length = turns.length) (htell : ToldBy hash turns rs f)
    (hg : ∀ i x r, turns[i]? = some x → rs[i]? = some r → ∃ gs, gs.Perm (getPairs (turnOps hash x)) ∧
      List.Forall₂ (ExplainedTold t turns.length f log i) gs (r.items.filter (fun y => decide (y.kind = .get))))
    (a b : Nat) (xa xb : Turn) (ra rb : Results) (ha : turns[a]? = some xa) (hb : turns[b]? = some xb)
    (hra : rs[a]? = some ra) (hrb : rs[b]? = some rb) (hab : a ≠ b) (hf : Finished log a b)
    (s p o s' p' : Blob) (ty : Nat) (first last : List Op)
    (hput : turnOps hash xa = first ++ Op.put s p o :: last) (hlast : ∀ y ∈ last, ¬ Writes s.val p.val y)
    (hdel : ∀ s₁ p₁, Op.del s₁ p₁ ∈ first → ¬ (s₁.val = s.val ∧ p₁.val = p.val))
    (haccept : t.accepts s.val = true ∧ t.accepts p.val = true ∧ t.accepts o.val = true)
    (hstatus : ∀ y ∈ ra.items, y.kind = .put → y.subject = .ref ⟨s.addr, s.bytes.length, s.typ⟩ →
      y.predicate = .ref ⟨p.addr, p.bytes.length, p.typ⟩ → y.status = hxSuccess)
    (hothers : ∀ k x r, turns[k]? = some x → rs[k]? = some r → k ≠ a → k ≠ b →
      Unchanged hash s.val p.val x r ∨ Finished log k a ∨ Finished log b k)
    (hown : (∀ s₁ p₁ o₁, Op.put s₁ p₁ o₁ ∈ turnOps hash xb → ¬ (s₁.val = s.val ∧ p₁.val = p.val)) ∨ NoneWritten rb)
    (hget : Op.get s' p' ty ∈ turnOps hash xb) (hsame : s'.val = s.val ∧ p'.val = p.val) :
    ∃ y ∈ rb.items, y.kind = .get ∧ y.subject = .ref ⟨s'.addr, s'.bytes.length, s'.typ⟩ ∧
      y.predicate = .ref ⟨p'.addr, p'.bytes.length, p'.typ⟩ ∧ y.status = hxSuccess ∧
      ∃ v : Blob, y.object = .own v ∧ v.bytes = t.R o.val ∧ v.typ = o.typ := by
  obtain ⟨gs, hperm, hall⟩ := hg b xb rb hb hrb
  have hmem : (s', p') ∈ gs := hperm.mem_iff.mpr (List.mem_filterMap.mpr ⟨_, hget, rfl⟩)
  obtain ⟨y, hy, hE⟩ := forall₂_mem hall hmem
  obtain ⟨h1, h2⟩ := htell a xa ra ha hra
  have hchanges : ∃ l, changesTold t.accepts s.val p.val (f a) = l ++ [.put s.val p.val o.val] := by
    unfold changesTold
    have hd : (succeededDels t.accepts (f a).dels).filter (ofPair s.val p.val) = [] := by
      refine filter_none (succeeded_dels_pair h2 ?_)
      intro s₁ p₁ hm hp
      rw [hput] at hm
      rcases List.mem_append.mp hm with hm | hm
      · exact hdel _ _ hm hp
      · rcases List.mem_cons.mp hm with hm | hm
        · cases hm
        · exact hlast _ hm hp
    rw [List.filter_append, hd, List.append_nil]
    generalize (f a).puts = pa at h1
    have hsplit : pa.map Prod.fst = putTriples first ++ (s, p, o) :: putTriples last := by
      rw [h1.all, hput]
      simp [putTriples, List.filterMap_append]
    obtain ⟨p1, p2, rfl, f1, f2⟩ := List.map_eq_append_iff.mp hsplit
    obtain ⟨x, p3, rfl, f3, f4⟩ := List.map_eq_cons_iff.mp f2
    have hx1 := puts_result h1 x (by simp)
    have hx2 := h1.reports x (by simp)
    rw [f3] at hx2
    have hx3 := hstatus _ hx1.1 hx1.2 hx2.subject hx2.predicate
    have hev : succeededPuts t.accepts (p1 ++ x :: p3) = succeededPuts t.accepts p1 ++ [Ev.put s.val p.val o.val] ++
        succeededPuts t.accepts p3 := by
      unfold succeededPuts
      rw [List.filterMap_append, List.filterMap_cons, hx3, f3]
      simp [haccept]
    have hlate : (succeededPuts t.accepts p3).filter (ofPair s.val p.val) = [] := by
      refine filter_none ?_
      intro e he
      obtain ⟨y, hy, h4⟩ := List.mem_filterMap.mp he
      split at h4
      · cases h4
        have : y.1 ∈ putTriples last := by rw [← f4]; exact List.mem_map.mpr ⟨y, hy, rfl⟩
        obtain ⟨u, hu, h5⟩ := List.mem_filterMap.mp this
        cases u <;> simp only [reduceCtorEq, Option.some.injEq] at h5
        rw [← h5]
        intro hc
        simp only [evPair, Prod.mk.injEq] at hc
        exact hlast _ hu hc
      · cases h4
    refine ⟨(succeededPuts t.accepts p1).filter (ofPair s.val p.val), ?_⟩
    rw [hev, List.filter_append, List.filter_append, hlate, List.append_nil, List.filter_cons_of_pos (by simp [ofPair])]
    rfl
  obtain ⟨l, hchanges⟩ := hchanges
  obtain ⟨g1, g2⟩ := explained_put_told (a := a) (o := o.val) hE (List.getElem?_eq_some_iff.mp ha).1 hab hf
    (by simp only [hsame.1, hsame.2, hchanges, List.getLast?_concat])
    (by
      simp only [hsame.1, hsame.2]
      obtain ⟨h3, -⟩ := htell b xb rb hb hrb
      unfold putsTold
      rcases hown with hown | hown
      · exact filter_none (succeeded_pair h3 hown)
      · rw [succeeded_none h3 hown]; rfl)
    (by
      intro k hk hka hkb
      have hx := List.getElem?_eq_getElem hk
      have hr := List.getElem?_eq_getElem (l := rs) (i := k) (by omega)
      rcases hothers k _ _ hx hr hka hkb with h | h | h
      · left
        simp only [hsame.1, hsame.2]
        obtain ⟨h3, h4⟩ := htell k _ _ hx hr
        exact changesTold_unchanged h3 h4 h
      · exact Or.inr (Or.inl h)
      · exact Or.inr (Or.inr h))
  exact ⟨y, List.mem_of_mem_filter hy, hE.kind, hE.subject, hE.predicate, g1, g2⟩

/-- C78, partial: flush `a` PUTs `(s, p, o)` (its last PUT of that pair, without a DELETE of it), the results with those
references report success, and it is over before flush `b` of any rank begins. Every other flush has no PUT or DELETE of the pair,
or all its PUTs and DELETEs failed, or it is over before `a` begins, or begins when `b` is over; all other flushes may overlap in
any way. Then the GET of the pair in `b` has `o`. Missing: as `C78_gets_partial`. -/
theorem C78_partial (cb : Callbacks) (t : Transform) (hash : Bytes → Bytes → Out Int) (place : List Int) (heap : Nat)
    (hheap : heap ≠ 0 ∧ heap < 2 ^ 64) (hplace : place.length ≤ 2 ^ 31) (turns : List Turn) (w w' : World) (log : List Served)
    (rs : List Results) (hw : EmptyWorld w) (hturns : ∀ y ∈ turns, TurnOk cb t hash place y)
    (h : Overlap cb heap place.length w turns log w' rs)
    (a b : Nat) (xa xb : Turn) (ra rb : Results) (ha : turns[a]? = some xa) (hb : turns[b]? = some xb)
    (hra : rs[a]? = some ra) (hrb : rs[b]? = some rb) (hab : a ≠ b) (hf : Finished log a b)
    (s p o s' p' : Blob) (ty : Nat) (first last : List Op)
    (hput : turnOps hash xa = first ++ Op.put s p o :: last) (hlast : ∀ y ∈ last, ¬ Writes s.val p.val y)
    (hdel : ∀ s₁ p₁, Op.del s₁ p₁ ∈ first → ¬ (s₁.val = s.val ∧ p₁.val = p.val))
    (haccept : t.accepts s.val = true ∧ t.accepts p.val = true ∧ t.accepts o.val = true)
    (hstatus : ∀ y ∈ ra.items, y.kind = .put → y.subject = .ref ⟨s.addr, s.bytes.length, s.typ⟩ →
      y.predicate = .ref ⟨p.addr, p.bytes.length, p.typ⟩ → y.status = hxSuccess)
    (hothers : ∀ k x r, turns[k]? = some x → rs[k]? = some r → k ≠ a → k ≠ b →
      Unchanged hash s.val p.val x r ∨ Finished log k a ∨ Finished log b k)
    (hown : (∀ s₁ p₁ o₁, Op.put s₁ p₁ o₁ ∈ turnOps hash xb → ¬ (s₁.val = s.val ∧ p₁.val = p.val)) ∨ NoneWritten rb)
    (hget : Op.get s' p' ty ∈ turnOps hash xb) (hsame : s'.val = s.val ∧ p'.val = p.val) :
    ∃ y ∈ rb.items, y.kind = .get ∧ y.subject = .ref ⟨s'.addr, s'.bytes.length, s'.typ⟩ ∧
      y.predicate = .ref ⟨p'.addr, p'.bytes.length, p'.typ⟩ ∧ y.status = hxSuccess ∧
      ∃ v : Blob, y.object = .own v ∧ v.bytes = t.R o.val ∧ v.typ = o.typ := by
  obtain ⟨f, htell, hg⟩ := C78_explained_partial cb t hash place heap hheap hplace turns w w' log rs hw hturns h
  exact found_told h.results htell hg a b xa xb ra rb ha hb hra hrb hab hf s p o s' p' ty first last hput hlast hdel haccept hstatus
    hothers hown hget hsame

/-- C78: of two flushes one after the other, the second does not see less than the first; so GETs never return an older object
after a newer one, whichever writes fail. -/
theorem C78_reads_in_order (accepts : Val → Bool) (n : Nat) (f : Nat → Outcomes) (log : List Served)
    (i j : Nat) (before before' after after' : List Served) (y y' : Served) (s p : Val) (hf : Finished log i j)
    (h : AnsweredTold accepts n f log i before y after) (h' : AnsweredTold accepts n f log j before' y' after') :
    wrote accepts s p before <+: wrote accepts s p before' := by
  have key : before <+: before' := by
    have e := h.split.symm.trans h'.split
    rcases List.append_eq_append_iff.mp e with ⟨c, h1, -⟩ | ⟨c, h1, h2⟩
    · exact ⟨c, h1.symm⟩
    · cases c with
      | nil => rw [List.append_nil] at h1; exact ⟨[], by rw [h1, List.append_nil]⟩
      | cons z c =>
        exfalso
        rw [List.cons_append, List.cons.injEq] at h2
        unfold Finished at hf
        rw [h.split, List.pairwise_append] at hf
        exact hf.2.2 y' (by rw [h1, ← h2.1]; simp) y (by simp) ⟨h'.turn, h.turn⟩
  obtain ⟨c, rfl⟩ := key
  rw [wrote_append]
  exact List.prefix_append _ _

/-- C78: a flush all of whose results report success did what was asked for (so that C55 is the special case without failed
writes); a flush all of whose results report errors did nothing. -/
theorem C78_told (accepts : Val → Bool) (hash : Bytes → Bytes → Out Int) (turns : List Turn) (rs : List Results) (f : Nat → Outcomes)
    (h : ToldBy hash turns rs f) (k : Nat) (x : Turn) (r : Results) (hx : turns[k]? = some x) (hr : rs[k]? = some r) (s p : Val) :
    (AllWritten r → changesTold accepts s p (f k) = changes accepts hash s p x ∧ putsTold accepts s p (f k) = putsOf accepts hash s p x) ∧
    (NoneWritten r → changesTold accepts s p (f k) = []) := by
  obtain ⟨h1, h2⟩ := h k x r hx hr
  refine ⟨fun ha => ?_, fun hn => changesTold_unchanged h1 h2 (Or.inr hn)⟩
  unfold changesTold changes putsTold putsOf flushEvents
  rw [succeeded_all h1 ha, succeeded_dels_all h2 ha]
  exact ⟨rfl, rfl⟩

/-- C78, partial: flushes of operations that are always answered can overlap in every way, whichever writes fail: there is a
number of requests for each flush, such that the requests can be executed in every order of the flushes, and all flushes succeed.
Missing: as `C55_runs_partial`. -/
theorem C78_runs_partial (cb : Callbacks) (t : Transform) (hash : Bytes → Bytes → Out Int) (place : List Int) (heap : Nat)
    (hheap : heap ≠ 0 ∧ heap < 2 ^ 64) (hplace : place.length ≤ 2 ^ 31) (turns : List Turn) (w : World)
    (hw : EmptyWorld w) (hs : Staffed place w) (hturns : ∀ y ∈ turns, TurnOk cb t hash place y)
    (hruns : ∀ y ∈ turns, TurnRuns cb t hash place.length y) (hgiven : KeysGiven hash turns) :
    ∃ n : Nat → Nat, ∀ order : List Nat, (∀ k, order.count k = n k) →
      ∃ log w' rs, log.map (·.turn) = order ∧ Overlap cb heap place.length w turns log w' rs :=
  overlap_defined (G := ⟨HasGetOps hash turns, False⟩) hheap.1 hheap.2 hplace (stores_empty hw) (fun _ _ _ _ h => by cases h) (hs.bare _) hturns
    hruns (fun x hx h => ⟨x, hx, h⟩) (fun x hx => ⟨fun h => hgiven h x hx, False.elim⟩)

/-! ### Examples -/

open C76Ex C55Ex

/-- The requests of the five flushes of the examples of C76 in an order in which they overlap: the GETs of the last flush are
before and after the PUT of flush 2 and the DELETE of flush 3. The second and the fourth request for a write fail. -/
private def exOrder : List (Nat × Int × Req) :=
  let b (a : Nat) (x : UInt8) : Blob := ⟨a, [x], 7⟩
  [(0, 2, ⟨0, 2, .put [⟨b 4096 1, 16, b 4096 2, 32, b 4096 3⟩]⟩), (1, 2, ⟨1, 2, .put [⟨b 4096 1, 16, b 4096 2, 32, b 4096 9⟩]⟩),
    (4, 0, ⟨2, 0, .get [⟨b 4096 1, 64, b 4096 3, 80, 7⟩]⟩),
    (3, 2, ⟨0, 2, .del [⟨b 4096 1, 16, b 4096 2, 32⟩]⟩), (2, 0, ⟨1, 0, .put [⟨b 4096 1, 16, b 4096 3, 32, b 4096 4⟩]⟩),
    (4, 2, ⟨2, 2, .get [⟨b 64 1, 64, b 80 2, 80, 7⟩]⟩)]

private def shown (r : Results) : List (Kind × Int × Bytes) :=
  r.items.map (fun r => (r.kind, r.status, match r.object with | .own b => b.bytes | _ => []))

private def exShown : Out (List (List (Kind × Int × Bytes))) :=
  play exWorld exOrder >>= fun x =>
  results x.1 0 tA >>= fun a => results x.1 1 tB >>= fun b => results x.1 2 tC >>= fun c => results x.1 3 tD >>= fun d =>
  results x.1 4 tE >>= fun e => .ok [shown a, shown b, shown c, shown d, shown e]

/-- The first GET of the last flush finds nothing, as flush 2 stores later; the second finds the object of flush 0, as the PUT of
flush 1 and the DELETE of flush 3 failed. -/
private theorem exShown_eq : exShown = .ok [[(.put, hxSuccess, [])], [(.put, hxError, [])], [(.put, hxSuccess, [])],
    [(.del, hxError, [])], [(.get, hxError, []), (.get, hxSuccess, [3])]] := by decide +kernel

/-- Flushes that overlap, with failed writes; the hypotheses of `C78_partial` on the flushes and their results, for flushes 0
and 4. The other hypotheses are shown for C76. -/
example : ∃ log w' rs, Overlap exCb 100 3 exWorld [tA, tB, tC, tD, tE] log w' rs ∧ log.map (·.turn) = [0, 1, 4, 3, 2, 4] ∧
    Finished log 0 4 ∧ ¬ Finished log 2 4 ∧ ¬ Finished log 4 2 ∧ ¬ Finished log 3 4 ∧ ¬ Finished log 4 3 ∧
    (∃ r, rs[0]? = some r ∧ AllWritten r) ∧ (∃ r, rs[1]? = some r ∧ NoneWritten r) ∧ (∃ r, rs[3]? = some r ∧ NoneWritten r) ∧
    rs.map shown = [[(.put, hxSuccess, [])], [(.put, hxError, [])], [(.put, hxSuccess, [])], [(.del, hxError, [])],
      [(.get, hxError, []), (.get, hxSuccess, [3])]] := by
  have h := exShown_eq
  unfold exShown at h
  obtain ⟨x, hx, h⟩ := ok_iff.mp h
  obtain ⟨a, ha, h⟩ := ok_iff.mp h
  obtain ⟨b, hb, h⟩ := ok_iff.mp h
  obtain ⟨c, hc, h⟩ := ok_iff.mp h
  obtain ⟨d, hd, h⟩ := ok_iff.mp h
  obtain ⟨e, he, h⟩ := ok_iff.mp h
  obtain ⟨h1, h2⟩ := play_executes _ (show play exWorld exOrder = .ok (x.1, x.2) from hx)
  have h2 : x.1.map (·.turn) = [0, 1, 4, 3, 2, 4] := h2
  have fin : ∀ i j, Finished x.1 i j ↔ (x.1.map (·.turn)).Pairwise (fun y z => ¬ (y = j ∧ z = i)) := by
    intro i j
    unfold Finished
    rw [List.pairwise_map]
  have h := Out.ok.inj h
  have one : ∀ {r : Results} {k : Kind} {st : Int} {o : Bytes}, shown r = [(k, st, o)] → ∀ y ∈ r.items, y.status = st := by
    intro r k st o hr y hy
    have := List.mem_map_of_mem (f := fun r : Result => (r.kind, r.status, match r.object with | .own b => b.bytes | _ => [])) hy
    rw [show r.items.map _ = _ from hr, List.mem_singleton] at this
    exact congrArg (fun z => z.2.1) this
  simp only [List.cons.injEq] at h
  refine ⟨x.1, x.2, [a, b, c, d, e], ⟨h1, ?_, rfl, ?_⟩, h2, ?_, ?_, ?_, ?_, ?_,
    ⟨a, rfl, fun y hy _ => one h.1 y hy⟩, ⟨b, rfl, fun y hy _ => one h.2.1 y hy⟩, ⟨d, rfl, fun y hy _ => one h.2.2.2.1 y hy⟩, ?_⟩
  · intro y hy
    have : y.turn ∈ x.1.map (·.turn) := List.mem_map.mpr ⟨y, hy, rfl⟩
    rw [h2] at this
    show y.turn < 5
    simp only [List.mem_cons, List.not_mem_nil, or_false] at this
    omega
  · intro i y r hi hr
    match i with
    | 0 => cases hi; cases hr; exact results_turnOn ha
    | 1 => cases hi; cases hr; exact results_turnOn hb
    | 2 => cases hi; cases hr; exact results_turnOn hc
    | 3 => cases hi; cases hr; exact results_turnOn hd
    | 4 => cases hi; cases hr; exact results_turnOn he
    | i + 5 => cases hi
  · rw [fin, h2]; decide
  · rw [fin, h2]; decide
  · rw [fin, h2]; decide
  · rw [fin, h2]; decide
  · rw [fin, h2]; decide
  · simp [h]

end Hx.Props

import Verif.Proofs.OverlapRuns
import Verif.Proofs.OverlapSeen
import Verif.Props.C48_EndToEnd

/-!
# C55: flushes of several ranks that overlap in time

A log of the requests in the order the range servers executed them (`Overlap`), for any order of
requests of different flushes.
-/

namespace Hx.Props
open Hx Msg Spec Process Store Results Job Place

/-- C55 for all GETs, partial: starting with empty datastores, every GET of every flush has one result.
It refers to the memory of the caller, and there is a request in the log of this flush that asks for
the pair, such that the result has the object of the latest PUT of the pair before that request, or
says that there is none. Which PUTs and DELETEs of a pair are before that request: all PUTs of the
flush itself and none of its DELETEs, all of finished flushes, none of flushes that begin later, and a
prefix of those of each other flush (`Seen`). Missing: layouts that are not `Routed`, hash functions
that depend on the rank, objects that come back empty and asynchronous PUTs. Failed writes: C78. -/
theorem C55_gets_partial (cb : Callbacks) (t : Transform) (hash : Bytes → Bytes → Out Int) (place : List Int) (heap : Nat)
    (hheap : heap ≠ 0 ∧ heap < 2 ^ 64) (hplace : place.length ≤ 2 ^ 31) (turns : List Turn) (w w' : World) (log : List Served)
    (rs : List Results) (hw : FreshWorld w) (hturns : ∀ y ∈ turns, TurnOk cb t hash place y)
    (h : Overlap cb heap place.length w turns log w' rs) (i : Nat) (x : Turn) (r : Results) (hi : turns[i]? = some x)
    (hr : rs[i]? = some r) :
    ∃ gs, gs.Perm (getPairs (turnOps hash x)) ∧ List.Forall₂ (fun g z => ∃ before y after,
      Answered t.accepts hash turns log i before y after ∧ (g.1.val, g.2.val) ∈ askedIn y.req.body ∧
      Returned t ((writes t.accepts g.1.val g.2.val before).map Prod.snd) g z) gs
        (r.items.filter (fun y => decide (y.kind = .get))) :=
  overlap_gets hheap.1 hheap.2 hplace (holds_fresh hw) hturns h hi hr

private theorem forall₂_imp {α β : Type} {R S : α → β → Prop} (hRS : ∀ a b, R a b → S a b) {l : List α} {m : List β}
    (h : List.Forall₂ R l m) : List.Forall₂ S l m := by
  induction h with
  | nil => exact .nil
  | cons h _ ih => exact .cons (hRS _ _ h) ih

/-- C55 in terms of flushes only, partial: the result of every GET is explained by a change of the pair
that can be the latest one. An object that is returned was PUT by a flush that did not begin later, and
was not replaced by a flush entirely between the two; a GET that finds nothing follows a DELETE with
the same conditions, or there is no finished flush that changed the pair. Missing: as
`C55_gets_partial`. -/
theorem C55_explained_partial (cb : Callbacks) (t : Transform) (hash : Bytes → Bytes → Out Int) (place : List Int) (heap : Nat)
    (hheap : heap ≠ 0 ∧ heap < 2 ^ 64) (hplace : place.length ≤ 2 ^ 31) (turns : List Turn) (w w' : World) (log : List Served)
    (rs : List Results) (hw : FreshWorld w) (hturns : ∀ y ∈ turns, TurnOk cb t hash place y)
    (h : Overlap cb heap place.length w turns log w' rs) (i : Nat) (x : Turn) (r : Results) (hi : turns[i]? = some x)
    (hr : rs[i]? = some r) :
    ∃ gs, gs.Perm (getPairs (turnOps hash x)) ∧
      List.Forall₂ (Explained t hash turns log i) gs (r.items.filter (fun y => decide (y.kind = .get))) := by
  obtain ⟨gs, h1, h2⟩ := C55_gets_partial cb t hash place heap hheap hplace turns w w' log rs hw hturns h i x r hi hr
  refine ⟨gs, h1, forall₂_imp ?_ h2⟩
  rintro g z ⟨before, y, after, ha, hy, hz⟩
  exact explained ha hy hz

private theorem filter_none {s p : Val} {l : List Ev} (h : ∀ e ∈ l, evPair e ≠ (s, p)) : l.filter (ofPair s p) = [] := by
  rw [List.filter_eq_nil_iff]
  intro e he hp
  exact h e he (evPair_ofPair.mp hp)

private theorem changes_none {a : Val → Bool} {hash : Bytes → Bytes → Out Int} {s p : Val} {x : Turn}
    (h : ∀ z ∈ turnOps hash x, ¬ Writes s p z) : changes a hash s p x = [] := by
  unfold changes flushEvents
  rw [List.filter_append, filter_none (stored_put_pair h), filter_none (stored_del_pair (fun s' p' hd hp => h _ hd hp))]
  rfl

/-- C55, partial: flush `a` PUTs `(s, p, o)` (its last PUT of that pair, without a DELETE of it) and is
over before flush `b` of any rank begins. Every other flush that PUTs or DELETEs the pair is over before
`a` begins, or begins when `b` is over; all other flushes may overlap in any way. Then the GET of the
pair in `b` has `o`. Missing: as `C55_gets_partial`. -/
theorem C55_partial (cb : Callbacks) (t : Transform) (hash : Bytes → Bytes → Out Int) (place : List Int) (heap : Nat)
    (hheap : heap ≠ 0 ∧ heap < 2 ^ 64) (hplace : place.length ≤ 2 ^ 31) (turns : List Turn) (w w' : World) (log : List Served)
    (rs : List Results) (hw : FreshWorld w) (hturns : ∀ y ∈ turns, TurnOk cb t hash place y)
    (h : Overlap cb heap place.length w turns log w' rs)
    (a b : Nat) (xa xb : Turn) (r : Results) (ha : turns[a]? = some xa) (hb : turns[b]? = some xb) (hr : rs[b]? = some r)
    (hab : a ≠ b) (hf : Finished log a b)
    (s p o s' p' : Blob) (ty : Nat) (first last : List Op)
    (hput : turnOps hash xa = first ++ Op.put s p o :: last) (hlast : ∀ y ∈ last, ¬ Writes s.val p.val y)
    (hdel : ∀ s₁ p₁, Op.del s₁ p₁ ∈ first → ¬ (s₁.val = s.val ∧ p₁.val = p.val))
    (haccept : t.accepts s.val = true ∧ t.accepts p.val = true ∧ t.accepts o.val = true)
    (hothers : ∀ k x, turns[k]? = some x → k ≠ a → k ≠ b →
      (∀ z ∈ turnOps hash x, ¬ Writes s.val p.val z) ∨ Finished log k a ∨ Finished log b k)
    (hown : ∀ s₁ p₁ o₁, Op.put s₁ p₁ o₁ ∈ turnOps hash xb → ¬ (s₁.val = s.val ∧ p₁.val = p.val))
    (hget : Op.get s' p' ty ∈ turnOps hash xb) (hsame : s'.val = s.val ∧ p'.val = p.val) :
    ∃ y ∈ r.items, y.kind = .get ∧ y.subject = .ref ⟨s'.addr, s'.bytes.length, s'.typ⟩ ∧
      y.predicate = .ref ⟨p'.addr, p'.bytes.length, p'.typ⟩ ∧ y.status = hxSuccess ∧
      ∃ v : Blob, y.object = .own v ∧ v.bytes = t.R o.val ∧ v.typ = o.typ := by
  obtain ⟨gs, hperm, hall⟩ := C55_explained_partial cb t hash place heap hheap hplace turns w w' log rs hw hturns h b xb r hb hr
  have hmem : (s', p') ∈ gs := hperm.mem_iff.mpr (List.mem_filterMap.mpr ⟨_, hget, rfl⟩)
  obtain ⟨y, hy, hE⟩ := forall₂_mem hall hmem
  have hchanges : changes t.accepts hash s.val p.val xa =
      (storedPuts t.accepts first).filter (ofPair s.val p.val) ++ [.put s.val p.val o.val] := by
    have hp : storedPuts t.accepts (turnOps hash xa) =
        storedPuts t.accepts first ++ Ev.put s.val p.val o.val :: storedPuts t.accepts last := by
      rw [hput]
      simp [storedPuts, List.filterMap_append, haccept]
    have hd : (storedDels t.accepts (turnOps hash xa)).filter (ofPair s.val p.val) = [] := by
      refine filter_none (stored_del_pair ?_)
      intro s₁ p₁ hm hp
      rw [hput] at hm
      rcases List.mem_append.mp hm with hm | hm
      · exact hdel _ _ hm hp
      · rcases List.mem_cons.mp hm with hm | hm
        · cases hm
        · exact hlast _ hm hp
    unfold changes flushEvents
    rw [List.filter_append, hd, hp, List.filter_append, List.filter_cons_of_pos (by simp [ofPair]),
      filter_none (stored_put_pair hlast), List.append_nil]
  obtain ⟨h1, h2⟩ := explained_put (o := o.val) hE ha hb hab hf
    (by simp only [hsame.1, hsame.2, hchanges, List.getLast?_concat])
    (by
      simp only [hsame.1, hsame.2]
      refine filter_none ?_
      intro e he hp
      obtain ⟨x, hx, h2⟩ := List.mem_filterMap.mp he
      cases x <;> simp only [reduceCtorEq] at h2
      split at h2
      · cases h2
        simp only [evPair, Prod.mk.injEq] at hp
        exact hown _ _ _ hx hp
      · cases h2)
    (by
      intro k x hk hka hkb
      rcases hothers k x hk hka hkb with h | h | h
      · refine Or.inl (changes_none ?_)
        simp only [hsame.1, hsame.2]
        exact h
      · exact Or.inr (Or.inl h)
      · exact Or.inr (Or.inr h))
  exact ⟨y, List.mem_of_mem_filter hy, hE.kind, hE.subject, hE.predicate, h1, h2⟩

/-- C55: of two flushes one after the other, the second does not see less than the first; so GETs never
return an older object after a newer one. -/
theorem C55_reads_in_order (accepts : Val → Bool) (hash : Bytes → Bytes → Out Int) (turns : List Turn) (log : List Served)
    (i j : Nat) (before before' after after' : List Served) (y y' : Served) (s p : Val) (hij : i ≠ j) (hf : Finished log i j)
    (h : Answered accepts hash turns log i before y after) (h' : Answered accepts hash turns log j before' y' after') :
    writes accepts s p before <+: writes accepts s p before' := by
  have key : before <+: before' := by
    have e := h.split.symm.trans h'.split
    rcases List.append_eq_append_iff.mp e with ⟨c, h1, -⟩ | ⟨c, h1, h2⟩
    · exact ⟨c, h1.symm⟩
    · cases c with
      | nil => rw [List.append_nil] at h1; exact ⟨[], by rw [h1, List.append_nil]⟩
      | cons z c =>
        exfalso
        rw [List.cons_append, List.cons.injEq] at h2
        unfold Finished at hf
        rw [h.split, List.pairwise_append] at hf
        exact hf.2.2 y' (by rw [h1, ← h2.1]; simp) y (by simp) ⟨h'.turn, h.turn⟩
  obtain ⟨c, rfl⟩ := key
  rw [writes_append]
  exact List.prefix_append _ _

/-- C55, partial: flushes of the operations of `C48_runs_partial` can overlap in every way: there is a
number of requests for each flush, such that the requests can be executed in every order of the flushes,
and all flushes succeed. Missing: the other GETOPs and datastores with histograms, as there, and as
`C55_gets_partial`. -/
theorem C55_runs_partial (cb : Callbacks) (t : Transform) (hash : Bytes → Bytes → Out Int) (place : List Int) (heap : Nat)
    (hheap : heap ≠ 0 ∧ heap < 2 ^ 64) (hplace : place.length ≤ 2 ^ 31) (turns : List Turn) (w : World)
    (hw : FreshWorld w) (hs : Staffed place w) (hturns : ∀ y ∈ turns, TurnOk cb t hash place y)
    (hruns : ∀ y ∈ turns, TurnRuns cb t hash place.length y) (hgiven : KeysGiven hash turns) :
    ∃ n : Nat → Nat, ∀ order : List Nat, (∀ k, order.count k = n k) →
      ∃ log w' rs, log.map (·.turn) = order ∧ Overlap cb heap place.length w turns log w' rs :=
  overlap_defined (G := ⟨HasGetOps hash turns, False⟩) hheap.1 hheap.2 hplace (holds_fresh hw).toStores (fun _ _ _ _ h => by cases h) (hs.bare _) hturns
    hruns (fun x hx h => ⟨x, hx, h⟩) (fun x hx => ⟨fun h => hgiven h x hx, False.elim⟩)

/-- C55: ranks that take turns (C48) are a special case, in which each flush is over before the next
begins. -/
theorem C55_turns (cb : Callbacks) (t : Transform) (hash : Bytes → Bytes → Out Int) (place : List Int) (heap : Nat)
    (hplace : place.length ≤ 2 ^ 31) (turns : List Turn) (w w' : World) (rs : List Results)
    (hturns : ∀ y ∈ turns, TurnOk cb t hash place y) (h : run cb heap place.length w turns = .ok (w', rs)) :
    ∃ log, Overlap cb heap place.length w turns log w' rs ∧ ∀ i j, i < j → Finished log i j := by
  obtain ⟨log, h1, h2, h3, h4, h5⟩ := run_overlap hplace turns hturns 0 h
  refine ⟨log, ⟨h1, fun y hy => by have := h3 y hy; omega, h2, ?_⟩, ?_⟩
  · intro i x r hi hr
    have := h5 i x r hi hr
    rwa [Nat.zero_add] at this
  · intro i j hij
    refine h4.imp ?_
    intro y z hyz hc
    omega

/-! ### Examples -/

private def exNet (l : Layout) (rank : Nat) : Net :=
  Layout.net l rank (.thallium (thalliumEndpoints l rank [])) id (fun _ => List.Perm.refl _) 4096 (fun n => List.replicate n 0)

private def exWorld (per : Nat) : World := ⟨fun _ => List.replicate per (exDs .mem []), fun _ => true, 0⟩

/-- A flush of `rank`; there are three ranks with one datastore each. -/
private def exTurn (rank : Nat) (calls : List Queue.Call) : Turn :=
  ⟨⟨Hash.hxhimHash .ber rank 3, 10, 0, 3⟩, exNet ⟨3, 1, 1, 1⟩ rank, calls⟩

private def exAt (a : Nat) (b : UInt8) : Blob := ⟨a, [b], 7⟩
private def exPutArg (s p o : UInt8) : Queue.Call := .put ⟨exAt 16 s, exAt 32 p, exAt 48 o, 1⟩
private def exGetArg (s p : UInt8) : Queue.Call := .get ⟨exAt 64 s, exAt 80 p, 7⟩

/-- Rank 0 PUTs two pairs, rank 1 PUTs and GETs the first one, rank 2 GETs both. -/
private def exTurns : List Turn :=
  [exTurn 0 [exPutArg 1 2 3, exPutArg 1 3 4], exTurn 1 [exPutArg 1 2 5, exGetArg 1 2], exTurn 2 [exGetArg 1 2, exGetArg 1 3]]

/-- The requests in the order they are executed: each with the flush and the rank of the range server.
Blobs that came in a packet are at 4096. -/
private def exOrder : List (Nat × Int × Req) :=
  let put (src dst : Int) (a b c : Nat) (s p o : UInt8) : Req := ⟨src, dst, .put [⟨exAt a s, 16, exAt b p, 32, exAt c o⟩]⟩
  let get (src dst : Int) (a b : Nat) (s p : UInt8) : Req := ⟨src, dst, .get [⟨exAt a s, 64, exAt b p, 80, 7⟩]⟩
  [(1, 2, put 1 2 4096 4096 4096 1 2 5), (0, 2, put 0 2 4096 4096 4096 1 2 3), (1, 2, get 1 2 4096 4096 1 2),
    (0, 0, put 0 0 16 32 48 1 3 4), (2, 0, get 2 0 4096 4096 1 3), (2, 2, get 2 2 64 80 1 2)]

namespace C55Ex
end C55Ex
open C55Ex

/-- Execute requests one after the other. -/
def C55Ex.play : World → List (Nat × Int × Req) → Out (List Served × World)
  | w, [] => .ok ([], w)
  | w, (i, rank, req) :: l =>
    World.serve exCb 100 w rank req >>= fun x =>
    play x.1 l >>= fun y => .ok (⟨i, rank, req, x.2⟩ :: y.1, y.2)

theorem C55Ex.play_executes (l : List (Nat × Int × Req)) : ∀ {w w' : World} {log : List Served}, play w l = .ok (log, w') →
    executes exCb 100 w log w' ∧ log.map (·.turn) = l.map (·.1) := by
  induction l with
  | nil => intro w w' log h; cases h; exact ⟨rfl, rfl⟩
  | cons a l ih =>
    intro w w' log h
    obtain ⟨i, rank, req⟩ := a
    simp only [play] at h
    obtain ⟨x, hx, h⟩ := ok_iff.mp h
    obtain ⟨y, hy, h⟩ := ok_iff.mp h
    cases h
    obtain ⟨h1, h2⟩ := ih (show play x.1 l = .ok (y.1, y.2) from hy)
    exact ⟨⟨x.1, hx, h1⟩, by simp [h2]⟩

/-- The results of a flush with its part of the log, if all of it is used. -/
def C55Ex.results (log : List Served) (i : Nat) (x : Turn) : Out Results :=
  Queue.calls x.cfg true (Queue.Queues.init 3) x.calls >>= fun q =>
  flush x.net replay (partOf i log) q >>= fun y => if y.1.isEmpty then .ok y.2.1 else .err

theorem C55Ex.results_turnOn {log : List Served} {i : Nat} {x : Turn} {r : Results} (h : results log i x = .ok r) :
    turnOn 3 (partOf i log) x r := by
  unfold results at h
  obtain ⟨q, hq, h⟩ := ok_iff.mp h
  obtain ⟨y, hy, h⟩ := ok_iff.mp h
  split at h
  · rename_i he
    cases h
    refine ⟨_, q, y.2.2, sameOrder_refl _, hq, ?_⟩
    rw [hy]
    have : y.1 = [] := by simpa using he
    rw [← this]
  · cases h

/-- Requests of a flush to different ranks can be served in another order than they are sent in. -/
example (total : Nat) (y z : Served) (hyz : y.rank ≠ z.rank) (x : Turn) (r : Results) (h : turnOn total [y, z] x r) :
    turnOn total [z, y] x r := by
  obtain ⟨asked, q, q', h1, h2⟩ := h
  refine ⟨asked, q, q', fun rank => (h1 rank).trans ?_, h2⟩
  by_cases hy : y.rank = rank
  · have hz : ¬ z.rank = rank := fun hz => hyz (hy.trans hz.symm)
    simp [hy, hz]
  · by_cases hz : z.rank = rank <;> simp [hy, hz]

/-- Statuses and objects. -/
private def shown (r : Results) : List (Int × Bytes) :=
  r.items.map (fun r => (r.status, match r.object with | .own b => b.bytes | _ => []))

private def exShown : Out (List (List (Int × Bytes))) :=
  play (exWorld 1) exOrder >>= fun x =>
  results x.1 0 (exTurn 0 [exPutArg 1 2 3, exPutArg 1 3 4]) >>= fun a =>
  results x.1 1 (exTurn 1 [exPutArg 1 2 5, exGetArg 1 2]) >>= fun b =>
  results x.1 2 (exTurn 2 [exGetArg 1 2, exGetArg 1 3]) >>= fun c => .ok [shown a, shown b, shown c]

/-- The GET of rank 1 finds what rank 0 PUT between the PUT and the GET of the flush of rank 1. -/
private theorem exShown_eq : exShown = .ok [[(hxSuccess, []), (hxSuccess, [])], [(hxSuccess, []), (hxSuccess, [3])],
    [(hxSuccess, [4]), (hxSuccess, [3])]] := by decide +kernel

/-- Three flushes that overlap. The flush of rank 2 begins when the others are over. -/
example : ∃ log w' rs, Overlap exCb 100 3 (exWorld 1) exTurns log w' rs ∧ log.map (·.turn) = [1, 0, 1, 0, 2, 2] ∧
    Finished log 0 2 ∧ Finished log 1 2 ∧ ¬ Finished log 0 1 ∧ ¬ Finished log 1 0 ∧
    rs.map shown = [[(hxSuccess, []), (hxSuccess, [])], [(hxSuccess, []), (hxSuccess, [3])], [(hxSuccess, [4]), (hxSuccess, [3])]] := by
  have h := exShown_eq
  unfold exShown at h
  obtain ⟨x, hx, h⟩ := ok_iff.mp h
  obtain ⟨a, ha, h⟩ := ok_iff.mp h
  obtain ⟨b, hb, h⟩ := ok_iff.mp h
  obtain ⟨c, hc, h⟩ := ok_iff.mp h
  obtain ⟨h1, h2⟩ := play_executes _ (show play (exWorld 1) exOrder = .ok (x.1, x.2) from hx)
  have h2 : x.1.map (·.turn) = [1, 0, 1, 0, 2, 2] := h2
  have fin : ∀ i j, Finished x.1 i j ↔ (x.1.map (·.turn)).Pairwise (fun y z => ¬ (y = j ∧ z = i)) := by
    intro i j
    unfold Finished
    rw [List.pairwise_map]
  refine ⟨x.1, x.2, [a, b, c], ⟨h1, ?_, rfl, ?_⟩, h2, ?_, ?_, ?_, ?_, Out.ok.inj h⟩
  · intro y hy
    have : y.turn ∈ x.1.map (·.turn) := List.mem_map.mpr ⟨y, hy, rfl⟩
    rw [h2] at this
    show y.turn < 3
    simp only [List.mem_cons, List.not_mem_nil, or_false] at this
    omega
  · intro i y r hi hr
    match i with
    | 0 => cases hi; cases hr; exact results_turnOn ha
    | 1 => cases hi; cases hr; exact results_turnOn hb
    | 2 => cases hi; cases hr; exact results_turnOn hc
    | i + 3 => cases hi
  · rw [fin, h2]; decide
  · rw [fin, h2]; decide
  · rw [fin, h2]; decide
  · rw [fin, h2]; decide

private theorem exSent (a : Nat) (b : UInt8) (ha : a ≠ 0) (ha' : a < 2 ^ 64) : PlainSent (exAt a b) :=
  ⟨⟨by show tByte < 256; decide, by show 1 < 2 ^ 64; decide, by intro t h; exact absurd h (by show intType tByte ≠ some t; intro h; cases h),
    by show tByte ≠ tFloat ∧ tByte ≠ tDouble; decide⟩, ha, ha', Or.inl (by simp [exAt])⟩

/-- The hypotheses of the theorems above for these flushes. -/
example : FreshWorld (exWorld 1) ∧ Staffed ((List.range 3).map (Layout.dsToRank ⟨3, 1, 1, 1⟩)) (exWorld 1) ∧
    KeysGiven (Hash.hxhimHash .ber 0 3) exTurns ∧ ∀ y ∈ exTurns,
      TurnOk exCb (plainTransform 0x2f 0x3a exFloat) (Hash.hxhimHash .ber 0 3) ((List.range 3).map (Layout.dsToRank ⟨3, 1, 1, 1⟩)) y ∧
      TurnRuns exCb (plainTransform 0x2f 0x3a exFloat) (Hash.hxhimHash .ber 0 3) ((List.range 3).map (Layout.dsToRank ⟨3, 1, 1, 1⟩)).length y := by
  have put : ∀ s p o, ∀ x ∈ ops (Hash.hxhimHash .ber 0 3) 3 (exPutArg s p o), PlainOp x ∧ SimpleOp exCb (plainTransform 0x2f 0x3a exFloat) x ∧ ∀ s p v, x = .put s p v → s.bytes ≠ [] ∧ p.bytes ≠ [] := by
    intro s p o x hx
    have : x = Op.put (exAt 16 s) (exAt 32 p) (exAt 48 o) := by
      unfold exPutArg ops at hx
      simp only at hx
      split at hx
      · unfold putOps at hx
        obtain ⟨y, hy, rfl⟩ := List.mem_map.mp hx
        have hy := List.takeWhile_subset _ hy
        have hw : ∀ a b c : Blob, wanted ⟨a, b, c, 1⟩ = [(a, b, c)] := fun a b c => by cbv
        rw [hw, List.mem_singleton] at hy
        rw [hy]
      · cases hx
    subst this
    exact ⟨⟨exSent _ _ (by decide) (by decide), exSent _ _ (by decide) (by decide), exSent _ _ (by decide) (by decide),
      by simp [exAt]⟩, True.intro, by rintro s p v h; cases h; simp [exAt]⟩
  have get : ∀ s p, ∀ x ∈ ops (Hash.hxhimHash .ber 0 3) 3 (exGetArg s p), PlainOp x ∧ SimpleOp exCb (plainTransform 0x2f 0x3a exFloat) x ∧ ∀ s p v, x = .put s p v → s.bytes ≠ [] ∧ p.bytes ≠ [] := by
    intro s p x hx
    have : x = Op.get (exAt 64 s) (exAt 80 p) 7 := by
      unfold exGetArg ops placed at hx
      simp only at hx
      split at hx
      · split at hx
        · simpa using hx
        · cases hx
      · cases hx
    subst this
    exact ⟨⟨exSent _ _ (by decide) (by decide), exSent _ _ (by decide) (by decide), by decide⟩, True.intro, by rintro s p v h; cases h⟩
  have ok : ∀ rank < 3, ∀ calls : List Queue.Call,
      (∀ c ∈ calls, (∃ s p o, c = exPutArg s p o) ∨ ∃ s p, c = exGetArg s p) →
      TurnOk exCb (plainTransform 0x2f 0x3a exFloat) (Hash.hxhimHash .ber 0 3) ((List.range 3).map (Layout.dsToRank ⟨3, 1, 1, 1⟩)) (exTurn rank calls) ∧
      TurnRuns exCb (plainTransform 0x2f 0x3a exFloat) (Hash.hxhimHash .ber 0 3) ((List.range 3).map (Layout.dsToRank ⟨3, 1, 1, 1⟩)).length (exTurn rank calls) ∧
      PutsGiven (turnOps (Hash.hxhimHash .ber 0 3) (exTurn rank calls)) := by
    intro rank hr calls hcalls
    have hp : ∀ c ∈ calls, ReadableCall c ∧ ∀ o ∈ ops (Hash.hxhimHash .ber 0 3) 3 c, PlainOp o ∧ SimpleOp exCb (plainTransform 0x2f 0x3a exFloat) o ∧ ∀ s p v, o = .put s p v → s.bytes ≠ [] ∧ p.bytes ≠ [] := by
      intro c hc
      rcases hcalls c hc with ⟨s, p, o, rfl⟩ | ⟨s, p, rfl⟩
      · exact ⟨⟨rfl, rfl, rfl⟩, put s p o⟩
      · exact ⟨⟨rfl, rfl⟩, get s p⟩
    refine ⟨C48_thallium_sessions (neg := 0x2f) (pos := 0x3a) ⟨by decide, by decide⟩ exFloat ⟨3, 1, 1, 1⟩ (by decide) ⟨rfl, Or.inl (Nat.le_refl _)⟩ .ber (by decide) rank (by omega) []
      (Or.inl rfl) id _ 4096 (by decide) _ 10 0 3 (by decide) calls (fun c hc o ho => ((hp c hc).2 o ho).1), ⟨?_, (by decide : 0 < 10), (by decide : 3 ≤ 3), fun c hc => (hp c hc).1, ?_⟩, ?_⟩
    · intro s p
      obtain ⟨d, hd⟩ : ∃ d, Hash.hxhimHash .ber rank 3 s p = .ok d := ⟨_, rfl⟩
      exact ⟨d, hd, (C25_in_range .ber rank 3 (by decide) (by decide) s p d hd).2⟩
    · intro o ho
      obtain ⟨c, hc, ho⟩ := List.mem_flatMap.mp ho
      exact ((hp c hc).2 o ho).2.1
    · intro s p v ho
      obtain ⟨c, hc, ho⟩ := List.mem_flatMap.mp ho
      exact ((hp c hc).2 _ ho).2.2 s p v rfl
  have all : ∀ y ∈ exTurns, TurnOk exCb (plainTransform 0x2f 0x3a exFloat) (Hash.hxhimHash .ber 0 3) ((List.range 3).map (Layout.dsToRank ⟨3, 1, 1, 1⟩)) y ∧
      TurnRuns exCb (plainTransform 0x2f 0x3a exFloat) (Hash.hxhimHash .ber 0 3) ((List.range 3).map (Layout.dsToRank ⟨3, 1, 1, 1⟩)).length y ∧
      PutsGiven (turnOps (Hash.hxhimHash .ber 0 3) y) := by
    intro y hy
    simp only [exTurns, List.mem_cons, List.not_mem_nil, or_false] at hy
    rcases hy with rfl | rfl | rfl <;> refine ok _ (by decide) _ ?_ <;> intro c hc <;>
      simp only [List.mem_cons, List.not_mem_nil, or_false] at hc <;> rcases hc with rfl | rfl
    · exact Or.inl ⟨_, _, _, rfl⟩
    · exact Or.inl ⟨_, _, _, rfl⟩
    · exact Or.inl ⟨_, _, _, rfl⟩
    · exact Or.inr ⟨_, _, rfl⟩
    · exact Or.inr ⟨_, _, rfl⟩
    · exact Or.inr ⟨_, _, rfl⟩
  refine ⟨⟨?_, fun _ => rfl⟩, ⟨?_, ?_⟩, fun _ y hy => (all y hy).2.2, fun y hy => ⟨(all y hy).1, (all y hy).2.1⟩⟩
  · intro rank d hd
    rw [show d = exDs .mem [] from List.eq_of_mem_replicate hd]
    exact ⟨rfl, rfl⟩
  · intro rank _ h
    cases h
  · intro rank d hd
    rw [show d = exDs .mem [] from List.eq_of_mem_replicate hd]
    rfl

/-- The hypotheses of `C55_partial` on the operations, for the second pair, which rank 1 does not touch. -/
example : (exTurn 0 [exPutArg 1 2 3, exPutArg 1 3 4]).calls.flatMap (ops (Hash.hxhimHash .ber 0 3) 3) =
      [Op.put (exAt 16 1) (exAt 32 2) (exAt 48 3)] ++ Op.put (exAt 16 1) (exAt 32 3) (exAt 48 4) :: [] ∧
    Op.get (exAt 64 1) (exAt 80 3) 7 ∈ (exTurn 2 [exGetArg 1 2, exGetArg 1 3]).calls.flatMap (ops (Hash.hxhimHash .ber 0 3) 3) ∧
    (exTurn 1 [exPutArg 1 2 5, exGetArg 1 2]).calls.flatMap (ops (Hash.hxhimHash .ber 0 3) 3) =
      [Op.put (exAt 16 1) (exAt 32 2) (exAt 48 5), Op.get (exAt 64 1) (exAt 80 2) 7] := by
  decide +kernel

end Hx.Props

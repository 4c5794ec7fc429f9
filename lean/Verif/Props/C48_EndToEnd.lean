import Verif.Proofs.JobRuns
import Verif.Props.C25_Hash

/-!
# C48: what one rank PUTs, any rank can GET

Ranks take turns: each queues operations and flushes them (`Job.run`).
-/

namespace Hx.Props
open Hx Msg Spec Process Store Results Job Place

/-- C48 for all GETs of a turn, partial: when ranks take turns, starting with empty datastores, every
GET of the last turn has one result, which refers to the memory of the caller and has the object of
the latest PUT of the pair by any rank, or says that there is none. PUTs of the turn itself count,
DELETEs of the turn itself do not (they are executed last). Missing: layouts that are not `Routed`
(`C48_two_datastores_false`), hash functions that depend on the rank (`C48_rank_hash_false`), objects
that come back empty (`C48_empty_object_ub`). Flushes that overlap in time: C55. Writes that fail: C76. Asynchronous PUTs: C77. -/
theorem C48_gets_partial (cb : Callbacks) (t : Transform) (hash : Bytes → Bytes → Out Int) (place : List Int) (heap : Nat)
    (hheap : heap ≠ 0 ∧ heap < 2 ^ 64) (hplace : place.length ≤ 2 ^ 31) (turns : List Turn) (x : Turn) (w w' : World)
    (rs : List Results) (r : Results) (hw : FreshWorld w) (hturns : ∀ y ∈ turns, TurnOk cb t hash place y)
    (hx : TurnOk cb t hash place x) (h : run cb heap place.length w (turns ++ [x]) = .ok (w', rs ++ [r])) :
    ∃ gs, gs.Perm (getPairs (turnOps hash x)) ∧
      List.Forall₂ (Returned t (turnsEvents t.accepts hash turns ++ storedPuts t.accepts (turnOps hash x))) gs
        (r.items.filter (fun y => decide (y.kind = .get))) := by
  obtain ⟨u, r1, r2, h1, h2, h3⟩ := run_append turns [x] h
  have hu := run_holds hheap.1 hheap.2 hplace turns (holds_fresh hw) hturns h1
  simp only [run] at h2
  obtain ⟨y, hy, h2⟩ := ok_iff.mp h2
  simp only [Out.ok_bind] at h2
  cases h2
  have hr : r = y.2 := by
    have := congrArg List.getLast? h3
    simpa using this
  rw [hr]
  rw [List.nil_append] at hu
  exact (turn_holds hheap.1 hheap.2 hplace hu hx hy).2

theorem lastObj_put (s p o : Val) (h : List Ev) : lastObj s p (h ++ [.put s p o]) = some o := by
  unfold lastObj
  rw [List.foldl_append]
  simp

theorem stored_put_pair {a : Val → Bool} {l : List Op} {s p : Val} (h : ∀ x ∈ l, ¬ Writes s p x) :
    ∀ e ∈ storedPuts a l, evPair e ≠ (s, p) := by
  intro e he hp
  obtain ⟨x, hx, h2⟩ := List.mem_filterMap.mp he
  cases x <;> simp only [reduceCtorEq] at h2
  split at h2
  · cases h2
    simp only [evPair, Prod.mk.injEq] at hp
    exact h _ hx hp
  · cases h2

theorem stored_del_pair {a : Val → Bool} {l : List Op} {s p : Val} (h : ∀ s' p', Op.del s' p' ∈ l → ¬ (s'.val = s ∧ p'.val = p)) :
    ∀ e ∈ storedDels a l, evPair e ≠ (s, p) := by
  intro e he hp
  obtain ⟨x, hx, h2⟩ := List.mem_filterMap.mp he
  cases x <;> simp only [reduceCtorEq] at h2
  split at h2
  · cases h2
    simp only [evPair, Prod.mk.injEq] at hp
    exact h _ _ hx hp
  · cases h2

theorem forall₂_mem {α β : Type} {R : α → β → Prop} {l : List α} {m : List β} (h : List.Forall₂ R l m) {x : α}
    (hx : x ∈ l) : ∃ y ∈ m, R x y := by
  induction h with
  | nil => cases hx
  | @cons a b l m hab _ ih =>
    rcases List.mem_cons.mp hx with rfl | hx
    · exact ⟨b, by simp, hab⟩
    · obtain ⟨y, hy, hR⟩ := ih hx
      exact ⟨y, by simp [hy], hR⟩

/-- C48, partial: rank A PUTs `(s, p, o)` in turn `a` (its last PUT of that pair, without a DELETE of
it in the same turn), no later turn PUTs or DELETEs the pair, and turn `b` of any rank GETs it: then
the result of the GET has `o`. Missing: as `C48_gets_partial`. -/
theorem C48_partial (cb : Callbacks) (t : Transform) (hash : Bytes → Bytes → Out Int) (place : List Int) (heap : Nat)
    (hheap : heap ≠ 0 ∧ heap < 2 ^ 64) (hplace : place.length ≤ 2 ^ 31) (before between : List Turn) (a b : Turn)
    (w w' : World) (rs : List Results) (r : Results) (hw : FreshWorld w)
    (hturns : ∀ y ∈ before ++ a :: between ++ [b], TurnOk cb t hash place y)
    (h : run cb heap place.length w (before ++ a :: between ++ [b]) = .ok (w', rs ++ [r]))
    (s p o s' p' : Blob) (ty : Nat) (first last : List Op)
    (hput : turnOps hash a = first ++ Op.put s p o :: last) (hlast : ∀ y ∈ last, ¬ Writes s.val p.val y)
    (hdel : ∀ s₁ p₁, Op.del s₁ p₁ ∈ first → ¬ (s₁.val = s.val ∧ p₁.val = p.val))
    (haccept : t.accepts s.val = true ∧ t.accepts p.val = true ∧ t.accepts o.val = true)
    (hbetween : ∀ y ∈ between, ∀ z ∈ turnOps hash y, ¬ Writes s.val p.val z)
    (hb : ∀ s₁ p₁ o₁, Op.put s₁ p₁ o₁ ∈ turnOps hash b → ¬ (s₁.val = s.val ∧ p₁.val = p.val))
    (hget : Op.get s' p' ty ∈ turnOps hash b) (hsame : s'.val = s.val ∧ p'.val = p.val) :
    ∃ y ∈ r.items, y.kind = .get ∧ y.subject = .ref ⟨s'.addr, s'.bytes.length, s'.typ⟩ ∧
      y.predicate = .ref ⟨p'.addr, p'.bytes.length, p'.typ⟩ ∧ y.status = hxSuccess ∧
      ∃ v : Blob, y.object = .own v ∧ v.bytes = t.R o.val ∧ v.typ = o.typ := by
  obtain ⟨gs, hperm, hall⟩ := C48_gets_partial cb t hash place heap hheap hplace (before ++ a :: between) b w w' rs r hw
    (fun y hy => hturns y (by rw [List.mem_append]; exact Or.inl hy)) (hturns b (by simp)) h
  have hmem : (s', p') ∈ gs := hperm.mem_iff.mpr (List.mem_filterMap.mpr ⟨_, hget, rfl⟩)
  have key : lastObj s'.val p'.val (turnsEvents t.accepts hash (before ++ a :: between) ++
      storedPuts t.accepts (turnOps hash b)) = some o.val := by
    rw [hsame.1, hsame.2, lastObj_skip]
    · have hmid : ∀ e ∈ turnsEvents t.accepts hash between, evPair e ≠ (s.val, p.val) := by
        intro e he
        obtain ⟨y, hy, he⟩ := List.mem_flatMap.mp he
        rcases List.mem_append.mp he with he | he
        · exact stored_put_pair (hbetween y hy) e he
        · exact stored_del_pair (fun s₁ p₁ hd hp => hbetween y hy _ hd hp) e he
      have hsplit : turnsEvents t.accepts hash (before ++ a :: between) =
          turnsEvents t.accepts hash before ++ storedPuts t.accepts first ++ [.put s.val p.val o.val] ++
            (storedPuts t.accepts last ++ storedDels t.accepts (turnOps hash a) ++ turnsEvents t.accepts hash between) := by
        have hp : storedPuts t.accepts (turnOps hash a) =
            storedPuts t.accepts first ++ Ev.put s.val p.val o.val :: storedPuts t.accepts last := by
          rw [hput]
          simp [storedPuts, List.filterMap_append, haccept]
        simp only [turnsEvents, List.flatMap_append, List.flatMap_cons, flushEvents, hp]
        simp
      rw [hsplit, lastObj_skip, lastObj_put]
      intro e he
      rcases List.mem_append.mp he with he | he
      · rcases List.mem_append.mp he with he | he
        · exact stored_put_pair hlast e he
        · refine stored_del_pair ?_ e he
          intro s₁ p₁ hd hp
          rw [hput] at hd
          rcases List.mem_append.mp hd with hd | hd
          · exact hdel _ _ hd hp
          · rcases List.mem_cons.mp hd with hd | hd
            · cases hd
            · exact hlast _ hd hp
      · exact hmid e he
    · intro e he hp
      obtain ⟨x, hx, h2⟩ := List.mem_filterMap.mp he
      cases x <;> simp only [reduceCtorEq] at h2
      split at h2
      · cases h2
        simp only [evPair, Prod.mk.injEq] at hp
        exact hb _ _ _ hx hp
      · cases h2
  obtain ⟨y, hy, hR⟩ := forall₂_mem hall hmem
  obtain ⟨h1, h2⟩ := hR.found _ key
  exact ⟨y, List.mem_of_mem_filter hy, hR.kind, hR.subject, hR.predicate, h1, h2⟩

/-- C48, partial: turns of PUTs, GETs, DELETEs, requests for histograms, and the GETOPs EQ, NEXT and PREV
with data as subject and predicate all succeed (`SimpleOp`). With `C48_gets_partial`, `C48_partial` and
`C61_partial` this gives the results without assuming that the job runs. Missing: FIRST and LAST, which
fail when nothing is stored; LOWEST and HIGHEST, which fail when nothing is found (C20, C35); GETOPs when
there are PUTs with empty subjects or predicates; datastores with histograms. -/
theorem C48_runs_partial (cb : Callbacks) (t : Transform) (hash : Bytes → Bytes → Out Int) (place : List Int) (heap : Nat)
    (hheap : heap ≠ 0 ∧ heap < 2 ^ 64) (hplace : place.length ≤ 2 ^ 31) (turns : List Turn) (w : World)
    (hw : FreshWorld w) (hs : Staffed place w) (hturns : ∀ y ∈ turns, TurnOk cb t hash place y)
    (hruns : ∀ y ∈ turns, TurnRuns cb t hash place.length y) (hgiven : KeysGiven hash turns) :
    ∃ w' rs, run cb heap place.length w turns = .ok (w', rs) ∧ rs.length = turns.length :=
  run_defined (G := ⟨HasGetOps hash turns, False⟩) hheap.1 hheap.2 hplace turns (holds_fresh hw).toStores (fun _ _ _ _ h => by cases h) (hs.bare _) hturns
    hruns (fun x hx h => ⟨x, hx, h⟩) (fun x hx => ⟨fun h => hgiven h x hx, False.elim⟩)

/-- A blob the default callbacks store without loss, and that can be sent. -/
def PlainSent (b : Blob) : Prop := Plain b ∧ b.addr ≠ 0 ∧ b.addr < 2 ^ 64 ∧ (b.bytes ≠ [] ∨ isNumeric b.typ = false)

/-- The blobs of an operation are plain, objects are not empty, and a GETOP is for records. -/
def PlainOp : Op → Prop
  | .put s p o => PlainSent s ∧ PlainSent p ∧ PlainSent o ∧ o.bytes ≠ []
  | .get s p ty => PlainSent s ∧ PlainSent p ∧ ty < 2 ^ 32
  | .getop op s p ty n => PlainSent s ∧ PlainSent p ∧ op < 2 ^ 32 ∧ ty < 2 ^ 32 ∧ n < 2 ^ 64
  | .del s p => PlainSent s ∧ PlainSent p
  | .hist _ name => Solid name

/-- With the default callbacks plain operations meet the conditions above, and objects come back with
the bytes they were PUT with. -/
theorem C48_default_callbacks {neg pos : UInt8} (hs : Elen.Symbols neg pos) (f : FloatCodec) (heap : Nat) (hh : heap ≠ 0)
    (x : Op) (hx : PlainOp x) :
    OpOk (defaultCallbacks neg pos f) (plainTransform neg pos f) heap x ∧ ∀ v, (plainTransform neg pos f).R v = v.bytes := by
  have sent : ∀ b, PlainSent b → Sent (defaultCallbacks neg pos f) heap b := by
    rintro b ⟨h1, h2, h3, h4⟩
    have := h1.typ
    exact ⟨⟨⟨h1.len, by omega, h3⟩, h2⟩, C31_default_callbacks neg pos f heap hh b h2 h4⟩
  have key : ∀ b, PlainSent b → KeyOk (defaultCallbacks neg pos f) (plainTransform neg pos f) b :=
    fun b h => plain_keyOk hs f h.1
  refine ⟨?_, fun v => rfl⟩
  cases x with
  | put s p o =>
    obtain ⟨h1, h2, h3, h4⟩ := hx
    exact ⟨⟨key s h1, key p h2, plain_objOk hs f h3.1⟩, ⟨sent s h1, sent p h2, sent o h3⟩, h4, h3.1.len⟩
  | get s p ty =>
    obtain ⟨h1, h2, h3⟩ := hx
    exact ⟨⟨key s h1, key p h2⟩, ⟨sent s h1, sent p h2⟩, h3⟩
  | getop op s p ty n =>
    obtain ⟨h1, h2, h3, h4, h5⟩ := hx
    exact ⟨fun _ => ⟨sent s h1, sent p h2⟩, h3, h4, h5⟩
  | del s p => exact ⟨⟨key s hx.1, key p hx.2⟩, sent s hx.1, sent p hx.2⟩
  | hist rs name => exact hx

/-- GETOPs that are always answered, as in `SimpleOp`. -/
def AnsweredOp : Op → Prop
  | .getop op s p _ n => (op < 3 ∨ 6 < op) ∧ 0 < n ∧ s.bytes ≠ [] ∧ p.bytes ≠ []
  | _ => True

/-- With the default callbacks nothing else is needed. -/
theorem C48_default_answered {neg pos : UInt8} (hs : Elen.Symbols neg pos) (f : FloatCodec) (x : Op) (hx : PlainOp x)
    (ha : AnsweredOp x) : SimpleOp (defaultCallbacks neg pos f) (plainTransform neg pos f) x := by
  cases x with
  | getop op s p ty n =>
    obtain ⟨h1, h2, -⟩ := hx
    obtain ⟨a1, a2, a3, a4⟩ := ha
    exact ⟨a1, a2, ⟨a3, (plain_keyOk hs f h1.1).enc⟩, a4, (plain_keyOk hs f h2.1).enc⟩
  | _ => exact True.intro

/-- C48: sessions the theorems above apply to. One datastore per range server with range server ids
equal to ranks (`Aligned`), Thallium with all ranks in the endpoint group, any built-in hash function but
`RankModDatastores`, and plain operations. -/
theorem C48_thallium_sessions {neg pos : UInt8} (hs : Elen.Symbols neg pos) (f : FloatCodec) (l : Layout) (hv : l.Valid)
    (ha : Aligned l) (k : Hash.Kind) (hk : k ≠ .rankMod) (rank : Nat) (hrank : rank < 2 ^ 31) (group : List Nat)
    (hg : group = [] ∨ ∀ i < l.total, group.contains i = true) (order : ReqList → ReqList) (hp : ∀ l, (order l).Perm l)
    (heap : Nat) (hh : heap ≠ 0 ∧ heap < 2 ^ 64) (junk : Nat → Bytes) (maxOps maxSize servers : Nat) (hm : maxOps < 2 ^ 64)
    (calls : List Queue.Call)
    (hops : ∀ c ∈ calls, ∀ o ∈ ops (Hash.hxhimHash k 0 l.total) servers c, PlainOp o) :
    TurnOk (defaultCallbacks neg pos f) (plainTransform neg pos f) (Hash.hxhimHash k 0 l.total)
      ((List.range l.total).map l.dsToRank)
      ⟨⟨Hash.hxhimHash k rank l.total, maxOps, maxSize, servers⟩,
        Layout.net l rank (.thallium (thalliumEndpoints l rank group)) order hp heap junk, calls⟩ := by
  refine ⟨?_, rfl, ?_, hm, ?_, hh, ?_⟩
  · funext s p
    exact C25_same_for_all_ranks_partial k hk rank 0 l.total s p
  · rw [List.length_map, List.length_range]
    exact C29_thallium_layouts l hv ha rank group hg order hp heap junk
  · show IntRange (rank : Int)
    unfold IntRange; omega
  · intro o ho
    obtain ⟨c, hc, ho⟩ := List.mem_flatMap.mp ho
    exact (C48_default_callbacks hs f heap hh.1 o (hops c hc o ho)).1

/-- The same over MPI. -/
theorem C48_mpi_sessions {neg pos : UInt8} (hs : Elen.Symbols neg pos) (f : FloatCodec) (l : Layout) (hv : l.Valid)
    (ha : Aligned l) (k : Hash.Kind) (hk : k ≠ .rankMod) (rank : Nat) (hrank : rank < 2 ^ 31) (group : List Nat)
    (hg : ∀ i < l.total, group.contains i = true) (order : ReqList → ReqList) (hp : ∀ l, (order l).Perm l)
    (heap : Nat) (hh : heap ≠ 0 ∧ heap < 2 ^ 64) (junk : Nat → Bytes) (maxOps maxSize servers : Nat) (hm : maxOps < 2 ^ 64)
    (calls : List Queue.Call)
    (hops : ∀ c ∈ calls, ∀ o ∈ ops (Hash.hxhimHash k 0 l.total) servers c, PlainOp o) :
    TurnOk (defaultCallbacks neg pos f) (plainTransform neg pos f) (Hash.hxhimHash k 0 l.total)
      ((List.range l.total).map l.dsToRank)
      ⟨⟨Hash.hxhimHash k rank l.total, maxOps, maxSize, servers⟩,
        Layout.net l rank (.mpi (mpiEndpoints l rank group)) order hp heap junk, calls⟩ := by
  refine ⟨?_, rfl, ?_, hm, ?_, hh, ?_⟩
  · funext s p
    exact C25_same_for_all_ranks_partial k hk rank 0 l.total s p
  · rw [List.length_map, List.length_range]
    exact C29_mpi_layouts l hv ha rank group hg order hp heap junk
  · show IntRange (rank : Int)
    unfold IntRange; omega
  · intro o ho
    obtain ⟨c, hc, ho⟩ := List.mem_flatMap.mp ho
    exact (C48_default_callbacks hs f heap hh.1 o (hops c hc o ho)).1

/-! ### Examples and counterexamples -/

private def exNet (l : Layout) (rank : Nat) : Net :=
  Layout.net l rank (.thallium (thalliumEndpoints l rank [])) id (fun _ => List.Perm.refl _) 4096 (fun n => List.replicate n 0)

private def exWorld (per : Nat) : World := ⟨fun _ => List.replicate per (exDs .mem []), fun _ => true, 0⟩

/-- A turn of `rank` with the hash function `k`. -/
private def exTurn (l : Layout) (k : Hash.Kind) (rank : Nat) (calls : List Queue.Call) : Turn :=
  ⟨⟨Hash.hxhimHash k rank l.total, 10, 0, l.totalRangeServers⟩, exNet l rank, calls⟩

private def exPutArg (s p o : UInt8) : Queue.Call := .put ⟨⟨16, [s], 7⟩, ⟨32, [p], 7⟩, ⟨48, [o], 7⟩, 1⟩
private def exGetArg (s p : UInt8) : Queue.Call := .get ⟨⟨64, [s], 7⟩, ⟨80, [p], 7⟩, 7⟩
/-- NEXT, for up to 5 records. -/
private def exOpArg (s p : UInt8) : Queue.Call := .getop ⟨⟨64, [s], 7⟩, ⟨80, [p], 7⟩, 7, 5, 1⟩

/-- Statuses and objects of the results of the last turn. -/
private def exLast (l : Layout) (turns : List Turn) : Out (List (Int × Bytes)) :=
  run exCb 100 l.total (exWorld l.per) turns >>= fun x =>
  .ok ((x.2.getLastD Results.create).items.map (fun r => (r.status, match r.object with | .own b => b.bytes | _ => [])))

/-- Three ranks with one datastore each. Rank 0 overwrites a pair and PUTs another one, rank 1 DELETEs
the second, rank 2 GETs both, and the records from each of them on. -/
private def exTurns : List Turn :=
  [exTurn ⟨3, 1, 1, 1⟩ .ber 0 [exPutArg 1 2 3, exPutArg 1 3 4, exPutArg 1 2 5],
    exTurn ⟨3, 1, 1, 1⟩ .ber 1 [.del ⟨⟨16, [1], 7⟩, ⟨32, [3], 7⟩⟩]]

private def exFinal : Turn := exTurn ⟨3, 1, 1, 1⟩ .ber 2 [exGetArg 1 2, exGetArg 1 3, exOpArg 1 2, exOpArg 1 3]

example : exLast ⟨3, 1, 1, 1⟩ (exTurns ++ [exFinal]) = .ok [(hxError, []), (hxSuccess, [5]), (hxError, []), (hxSuccess, [5])] := by
  decide +kernel

private theorem exSent (a : Nat) (b : UInt8) (ha : a ≠ 0) (ha' : a < 2 ^ 64) : PlainSent ⟨a, [b], tByte⟩ :=
  ⟨⟨by show tByte < 256; decide, by show 1 < 2 ^ 64; decide, by intro t h; exact absurd h (by show intType tByte ≠ some t; intro h; cases h),
    by show tByte ≠ tFloat ∧ tByte ≠ tDouble; decide⟩, ha, ha', Or.inl (by simp)⟩

/-- The hypotheses of `C48_gets_partial` and `C48_runs_partial` for these turns. -/
example : FreshWorld (exWorld 1) ∧ Staffed ((List.range 3).map (Layout.dsToRank ⟨3, 1, 1, 1⟩)) (exWorld 1) ∧
    KeysGiven (Hash.hxhimHash .ber 0 3) (exTurns ++ [exFinal]) ∧ HasGetOps (Hash.hxhimHash .ber 0 3) (exTurns ++ [exFinal]) ∧
    ∀ y ∈ exTurns ++ [exFinal],
      TurnOk exCb (plainTransform 0x2f 0x3a exFloat) (Hash.hxhimHash .ber 0 3) ((List.range 3).map (Layout.dsToRank ⟨3, 1, 1, 1⟩)) y ∧
      TurnRuns exCb (plainTransform 0x2f 0x3a exFloat) (Hash.hxhimHash .ber 0 3) ((List.range 3).map (Layout.dsToRank ⟨3, 1, 1, 1⟩)).length y := by
  have plain : ∀ y ∈ exTurns ++ [exFinal], ∀ c ∈ y.calls, ReadableCall c ∧ ∀ o ∈ ops (Hash.hxhimHash .ber 0 3) 3 c, PlainOp o ∧ AnsweredOp o ∧ ∀ s p v, o = .put s p v → s.bytes ≠ [] ∧ p.bytes ≠ [] := by
    have e1 : ∀ s p o, s ∈ [1] → p ∈ [2, 3] → o ∈ [3, 4, 5] → ops (Hash.hxhimHash .ber 0 3) 3 (exPutArg s p o) =
        [Op.put ⟨16, [s], 7⟩ ⟨32, [p], 7⟩ ⟨48, [o], 7⟩] := by
      intro s p o hs hp ho
      simp only [List.mem_cons, List.not_mem_nil, or_false] at hs hp ho
      rcases hp with rfl | rfl <;> subst hs <;> rcases ho with rfl | rfl | rfl <;> decide +kernel
    have e2 : ∀ s p, s ∈ [1] → p ∈ [2, 3] → ops (Hash.hxhimHash .ber 0 3) 3 (exGetArg s p) =
        [Op.get ⟨64, [s], 7⟩ ⟨80, [p], 7⟩ 7] := by
      intro s p hs hp
      simp only [List.mem_cons, List.not_mem_nil, or_false] at hs hp
      rcases hp with rfl | rfl <;> subst hs <;> rfl
    have e4 : ∀ s p, s ∈ [1] → p ∈ [2, 3] → ops (Hash.hxhimHash .ber 0 3) 3 (exOpArg s p) =
        [Op.getop 1 ⟨64, [s], 7⟩ ⟨80, [p], 7⟩ 7 5] := by
      intro s p hs hp
      simp only [List.mem_cons, List.not_mem_nil, or_false] at hs hp
      rcases hp with rfl | rfl <;> subst hs <;> rfl
    have e3 : ops (Hash.hxhimHash .ber 0 3) 3 (.del ⟨⟨16, [1], 7⟩, ⟨32, [3], 7⟩⟩) = [Op.del ⟨16, [1], 7⟩ ⟨32, [3], 7⟩] := rfl
    have put : ∀ s p o, s ∈ [1] → p ∈ [2, 3] → o ∈ [3, 4, 5] → ∀ x ∈ ops (Hash.hxhimHash .ber 0 3) 3 (exPutArg s p o), PlainOp x ∧ AnsweredOp x ∧ ∀ s p v, x = .put s p v → s.bytes ≠ [] ∧ p.bytes ≠ [] := by
      intro s p o hs hp ho x hx
      rw [e1 s p o hs hp ho, List.mem_singleton] at hx
      subst hx
      exact ⟨⟨exSent _ _ (by decide) (by decide), exSent _ _ (by decide) (by decide), exSent _ _ (by decide) (by decide),
        by simp⟩, True.intro, by rintro s p v h; cases h; simp⟩
    have get : ∀ s p, s ∈ [1] → p ∈ [2, 3] → ∀ x ∈ ops (Hash.hxhimHash .ber 0 3) 3 (exGetArg s p), PlainOp x ∧ AnsweredOp x ∧ ∀ s p v, x = .put s p v → s.bytes ≠ [] ∧ p.bytes ≠ [] := by
      intro s p hs hp x hx
      rw [e2 s p hs hp, List.mem_singleton] at hx
      subst hx
      exact ⟨⟨exSent _ _ (by decide) (by decide), exSent _ _ (by decide) (by decide), by decide⟩, True.intro, by rintro s p v h; cases h⟩
    have getop : ∀ s p, s ∈ [1] → p ∈ [2, 3] → ∀ x ∈ ops (Hash.hxhimHash .ber 0 3) 3 (exOpArg s p), PlainOp x ∧ AnsweredOp x ∧ ∀ s p v, x = .put s p v → s.bytes ≠ [] ∧ p.bytes ≠ [] := by
      intro s p hs hp x hx
      rw [e4 s p hs hp, List.mem_singleton] at hx
      subst hx
      exact ⟨⟨exSent _ _ (by decide) (by decide), exSent _ _ (by decide) (by decide), by decide, by decide, by decide⟩,
        ⟨by decide, by decide, by simp, by simp⟩, by rintro s p v h; cases h⟩
    intro y hy c hc
    simp only [exTurns, List.cons_append, List.nil_append, List.mem_cons, List.not_mem_nil, or_false] at hy
    rcases hy with rfl | rfl | rfl <;> simp only [exTurn, exFinal, List.mem_cons, List.not_mem_nil, or_false] at hc
    · rcases hc with rfl | rfl | rfl <;> exact ⟨⟨rfl, rfl, rfl⟩, put _ _ _ (by simp) (by simp) (by simp)⟩
    · subst hc
      refine ⟨⟨rfl, rfl⟩, fun x hx => ?_⟩
      rw [e3, List.mem_singleton] at hx
      subst hx
      exact ⟨⟨exSent _ _ (by decide) (by decide), exSent _ _ (by decide) (by decide)⟩, True.intro, by rintro s p v h; cases h⟩
    · rcases hc with rfl | rfl | rfl | rfl
      · exact ⟨⟨rfl, rfl⟩, get _ _ (by simp) (by simp)⟩
      · exact ⟨⟨rfl, rfl⟩, get _ _ (by simp) (by simp)⟩
      · exact ⟨⟨rfl, rfl⟩, getop _ _ (by simp) (by simp)⟩
      · exact ⟨⟨rfl, rfl⟩, getop _ _ (by simp) (by simp)⟩
  have shape : ∀ y ∈ exTurns ++ [exFinal], ∃ rank < 3, ∃ calls, y = exTurn ⟨3, 1, 1, 1⟩ .ber rank calls := by
    intro y hy
    simp only [exTurns, List.cons_append, List.nil_append, List.mem_cons, List.not_mem_nil, or_false] at hy
    rcases hy with rfl | rfl | rfl
    · exact ⟨0, by decide, _, rfl⟩
    · exact ⟨1, by decide, _, rfl⟩
    · exact ⟨2, by decide, _, rfl⟩
  refine ⟨⟨?_, fun _ => rfl⟩, ⟨?_, ?_⟩, ?_, ⟨exFinal, by simp, by decide +kernel⟩, ?_⟩
  · intro rank d hd
    rw [show d = exDs .mem [] from List.eq_of_mem_replicate hd]
    exact ⟨rfl, rfl⟩
  · intro rank _ h
    cases h
  · intro rank d hd
    rw [show d = exDs .mem [] from List.eq_of_mem_replicate hd]
    rfl
  · intro _ y hy s p v ho
    have hp := plain y hy
    obtain ⟨rank, hr, calls, rfl⟩ := shape y hy
    obtain ⟨c, hc, ho⟩ := List.mem_flatMap.mp ho
    exact ((hp c hc).2 _ ho).2.2 s p v rfl
  · intro y hy
    have hp := plain y hy
    obtain ⟨rank, hr, calls, rfl⟩ := shape y hy
    refine ⟨C48_thallium_sessions (neg := 0x2f) (pos := 0x3a) ⟨by decide, by decide⟩ exFloat ⟨3, 1, 1, 1⟩ (by decide) ⟨rfl, Or.inl (Nat.le_refl _)⟩ .ber (by decide) rank (by omega) []
      (Or.inl rfl) id _ 4096 (by decide) _ 10 0 3 (by decide) calls (fun c hc o ho => ((hp c hc).2 o ho).1), ?_, (by decide : 0 < 10), (by decide : 3 ≤ 3), fun c hc => (hp c hc).1, ?_⟩
    · intro s p
      obtain ⟨d, hd⟩ : ∃ d, Hash.hxhimHash .ber rank 3 s p = .ok d := ⟨_, rfl⟩
      exact ⟨d, hd, (C25_in_range .ber rank 3 (by decide) (by decide) s p d hd).2⟩
    · intro o ho
      obtain ⟨c, hc, ho⟩ := List.mem_flatMap.mp ho
      exact C48_default_answered (neg := 0x2f) (pos := 0x3a) ⟨by decide, by decide⟩ exFloat o ((hp c hc).2 o ho).1 ((hp c hc).2 o ho).2.1

/-- The hypotheses of `C48_partial` on the operations, for the first pair. -/
example : (exTurns.getD 0 exFinal).calls.flatMap (ops (Hash.hxhimHash .ber 0 3) 3) =
      [Op.put ⟨16, [1], 7⟩ ⟨32, [2], 7⟩ ⟨48, [3], 7⟩, Op.put ⟨16, [1], 7⟩ ⟨32, [3], 7⟩ ⟨48, [4], 7⟩] ++
        Op.put ⟨16, [1], 7⟩ ⟨32, [2], 7⟩ ⟨48, [5], 7⟩ :: [] ∧
    Op.get ⟨64, [1], 7⟩ ⟨80, [2], 7⟩ 7 ∈ exFinal.calls.flatMap (ops (Hash.hxhimHash .ber 0 3) 3) ∧
    (∀ z ∈ (exTurns.getD 1 exFinal).calls.flatMap (ops (Hash.hxhimHash .ber 0 3) 3), z = Op.del ⟨16, [1], 7⟩ ⟨32, [3], 7⟩) := by
  decide +kernel

/-- C48 is false for `RankModDatastores`: the GET by another rank looks in another datastore. -/
theorem C48_rank_hash_false :
    exLast ⟨2, 1, 1, 1⟩ [exTurn ⟨2, 1, 1, 1⟩ .rankMod 0 [exPutArg 1 2 3], exTurn ⟨2, 1, 1, 1⟩ .rankMod 1 [exGetArg 1 2]] =
      .ok [(hxError, [])] := by
  decide +kernel

/-- C48 is false with two datastores on another rank: of two PUTs for datastores 2 and 3 by rank 0,
rank 1 finds one, although it has both datastores. -/
theorem C48_two_datastores_false :
    exLast ⟨2, 1, 1, 2⟩ [exTurn ⟨2, 1, 1, 2⟩ .sumMod 0 [exPutArg 1 1 3, exPutArg 1 2 4],
      exTurn ⟨2, 1, 1, 2⟩ .sumMod 1 [exGetArg 1 1, exGetArg 1 2]] = .ok [(hxError, []), (hxSuccess, [4])] := by
  decide +kernel

/-- C48 is false for empty objects, which `BPut` accepts: rank 1, which has the datastore, gets the object back,
but the response to another rank has no object, and what is behind the message is read as its length. When
that is not 0, the read goes past the message. -/
theorem C48_empty_object_ub :
    exLast ⟨2, 1, 1, 1⟩ [exTurn ⟨2, 1, 1, 1⟩ .sumMod 1 [.bput true [⟨⟨16, [1], 7⟩, ⟨32, [2], 7⟩, ⟨48, [], 7⟩, 1⟩]],
      exTurn ⟨2, 1, 1, 1⟩ .sumMod 1 [exGetArg 1 2]] = .ok [(hxSuccess, [])] ∧
    exLast ⟨2, 1, 1, 1⟩ [exTurn ⟨2, 1, 1, 1⟩ .sumMod 1 [.bput true [⟨⟨16, [1], 7⟩, ⟨32, [2], 7⟩, ⟨48, [], 7⟩, 1⟩]],
      ⟨⟨Hash.hxhimHash .sumMod 0 2, 10, 0, 2⟩, Layout.net ⟨2, 1, 1, 1⟩ 0 (.thallium (thalliumEndpoints ⟨2, 1, 1, 1⟩ 0 [])) id
        (fun _ => List.Perm.refl _) 4096 (fun n => List.replicate n 0xff), [exGetArg 1 2]⟩] = .ub := by
  decide +kernel

end Hx.Props

import Verif.Props.C48_EndToEnd

/-!
# C76: what ranks see of each other when writes fail

As C48, but every write may fail. What was stored is what the results of PUTs and DELETEs say.
-/

namespace Hx.Props
open Hx Msg Spec Process Store Results Job Place

/-- C76 for all GETs of a turn, partial: when ranks take turns, starting with empty datastores, and any of
the writes fail, every PUT and DELETE has one result, which refers to the memory of the caller, and every
GET of the last turn has the object of the latest PUT of the pair that reported success, or says that
there is none. PUTs and DELETEs that report an error change nothing. Missing: layouts that are not
`Routed`, hash functions that depend on the rank (C48), objects that come back empty
(`C48_empty_object_ub`). Flushes that overlap in time: C78. Asynchronous PUTs: C77. -/
theorem C76_gets_partial (cb : Callbacks) (t : Transform) (hash : Bytes → Bytes → Out Int) (place : List Int) (heap : Nat)
    (hheap : heap ≠ 0 ∧ heap < 2 ^ 64) (hplace : place.length ≤ 2 ^ 31) (turns : List Turn) (x : Turn) (w w' : World)
    (rs : List Results) (r : Results) (hw : EmptyWorld w) (hturns : ∀ y ∈ turns, TurnOk cb t hash place y)
    (hx : TurnOk cb t hash place x) (h : run cb heap place.length w (turns ++ [x]) = .ok (w', rs ++ [r])) :
    ∃ H ps ds, Reported t.accepts hash turns rs H ∧ PutsReported (turnOps hash x) r ps ∧ DelsReported (turnOps hash x) r ds ∧
      ∃ gs, gs.Perm (getPairs (turnOps hash x)) ∧
        List.Forall₂ (Returned t (H ++ succeededPuts t.accepts ps)) gs (r.items.filter (fun y => decide (y.kind = .get))) := by
  obtain ⟨u, r1, r2, h1, h2, h3⟩ := run_append turns [x] h
  obtain ⟨H, hrep, hu⟩ := run_stores hheap.1 hheap.2 hplace turns (stores_empty hw) hturns h1
  simp only [run] at h2
  obtain ⟨y, hy, h2⟩ := ok_iff.mp h2
  simp only [Out.ok_bind] at h2
  cases h2
  obtain ⟨rfl, hr⟩ := List.append_inj' h3 rfl
  have hr : r = y.2 := by simpa using hr
  rw [hr]
  rw [List.nil_append] at hu
  obtain ⟨ps, ds, -, hs⟩ := turn_stores hheap.1 hheap.2 hplace hu hx hy
  exact ⟨H, ps, ds, hrep, hs.puts, hs.dels, hs.gets⟩

/-- C76, partial: turns of operations that are always answered do not fail, whichever writes fail.
Missing: as `C48_runs_partial`. -/
theorem C76_runs_partial (cb : Callbacks) (t : Transform) (hash : Bytes → Bytes → Out Int) (place : List Int) (heap : Nat)
    (hheap : heap ≠ 0 ∧ heap < 2 ^ 64) (hplace : place.length ≤ 2 ^ 31) (turns : List Turn) (w : World)
    (hw : EmptyWorld w) (hs : Staffed place w) (hturns : ∀ y ∈ turns, TurnOk cb t hash place y)
    (hruns : ∀ y ∈ turns, TurnRuns cb t hash place.length y) (hgiven : KeysGiven hash turns) :
    ∃ w' rs, run cb heap place.length w turns = .ok (w', rs) ∧ rs.length = turns.length :=
  run_defined (G := ⟨HasGetOps hash turns, False⟩) hheap.1 hheap.2 hplace turns (stores_empty hw) (fun _ _ _ _ h => by cases h) (hs.bare _) hturns
    hruns (fun x hx h => ⟨x, hx, h⟩) (fun x hx => ⟨fun h => hgiven h x hx, False.elim⟩)

/-! ### Consequences of the results -/

/-- All results of PUTs and DELETEs report an error. -/
def NoneWritten (r : Results) : Prop := ∀ y ∈ r.items, y.kind = .put ∨ y.kind = .del → y.status = hxError

/-- All results of PUTs and DELETEs report success. -/
def AllWritten (r : Results) : Prop := ∀ y ∈ r.items, y.kind = .put ∨ y.kind = .del → y.status = hxSuccess

theorem puts_result {l : List Op} {r : Results} {ps : List ((Blob × Blob × Blob) × Result)} (h : PutsReported l r ps) :
    ∀ x ∈ ps, x.2 ∈ r.items ∧ x.2.kind = .put := by
  intro x hx
  have := h.results.mem_iff.mp (List.mem_map.mpr ⟨x, hx, rfl⟩)
  exact ⟨List.mem_of_mem_filter this, (h.reports x hx).kind⟩

theorem dels_result {l : List Op} {r : Results} {ds : List ((Blob × Blob) × Result)} (h : DelsReported l r ds) :
    ∀ x ∈ ds, x.2 ∈ r.items ∧ x.2.kind = .del := by
  intro x hx
  have := h.results.mem_iff.mp (List.mem_map.mpr ⟨x, hx, rfl⟩)
  exact ⟨List.mem_of_mem_filter this, (h.reports x hx).kind⟩

/-- PUTs that report errors stored nothing. -/
theorem succeeded_none {a : Val → Bool} {l : List Op} {r : Results} {ps : List ((Blob × Blob × Blob) × Result)}
    (h : PutsReported l r ps) (hr : NoneWritten r) : succeededPuts a ps = [] := by
  unfold succeededPuts
  rw [List.filterMap_eq_nil_iff]
  intro x hx
  obtain ⟨h1, h2⟩ := puts_result h x hx
  rw [hr _ h1 (Or.inl h2)]
  rfl

theorem succeeded_dels_none {a : Val → Bool} {l : List Op} {r : Results} {ds : List ((Blob × Blob) × Result)}
    (h : DelsReported l r ds) (hr : NoneWritten r) : succeededDels a ds = [] := by
  unfold succeededDels
  rw [List.filterMap_eq_nil_iff]
  intro x hx
  obtain ⟨h1, h2⟩ := dels_result h x hx
  rw [hr _ h1 (Or.inr h2)]
  rfl

/-- PUTs that report success stored what was asked for. -/
theorem succeeded_all {a : Val → Bool} {l : List Op} {r : Results} {ps : List ((Blob × Blob × Blob) × Result)}
    (h : PutsReported l r ps) (hr : AllWritten r) : succeededPuts a ps = storedPuts a l := by
  have e : succeededPuts a ps = (ps.map Prod.fst).filterMap (fun x => if a x.1.val && a x.2.1.val && a x.2.2.val then
      some (Ev.put x.1.val x.2.1.val x.2.2.val) else none) := by
    unfold succeededPuts
    rw [List.filterMap_map]
    refine List.filterMap_congr (fun x hx => ?_)
    obtain ⟨h1, h2⟩ := puts_result h x hx
    rw [hr _ h1 (Or.inl h2)]
    simp
  rw [e, h.all]
  unfold putTriples storedPuts
  rw [List.filterMap_filterMap]
  refine List.filterMap_congr (fun o _ => ?_)
  cases o <;> rfl

theorem succeeded_dels_all {a : Val → Bool} {l : List Op} {r : Results} {ds : List ((Blob × Blob) × Result)}
    (h : DelsReported l r ds) (hr : AllWritten r) : succeededDels a ds = storedDels a l := by
  have e : succeededDels a ds = (ds.map Prod.fst).filterMap (fun x => if a x.1.val && a x.2.val then
      some (Ev.del x.1.val x.2.val) else none) := by
    unfold succeededDels
    rw [List.filterMap_map]
    refine List.filterMap_congr (fun x hx => ?_)
    obtain ⟨h1, h2⟩ := dels_result h x hx
    rw [hr _ h1 (Or.inr h2)]
    simp
  rw [e, h.all]
  unfold delPairs storedDels
  rw [List.filterMap_filterMap]
  refine List.filterMap_congr (fun o _ => ?_)
  cases o <;> rfl

/-- C76: turns all of whose results report success stored all that was asked for, turns all of whose
results report errors stored nothing. -/
theorem C76_reported (accepts : Val → Bool) (hash : Bytes → Bytes → Out Int) (turns : List Turn) (rs : List Results) (H : List Ev)
    (h : Reported accepts hash turns rs H) :
    ((∀ r ∈ rs, AllWritten r) → H = turnsEvents accepts hash turns) ∧ ((∀ r ∈ rs, NoneWritten r) → H = []) := by
  induction h with
  | nil => exact ⟨fun _ => rfl, fun _ => rfl⟩
  | @cons x r ps ds l rs H h1 h2 _ ih =>
    refine ⟨fun hr => ?_, fun hr => ?_⟩
    · rw [succeeded_all h1 (hr r (by simp)), succeeded_dels_all h2 (hr r (by simp)), ih.1 (fun y hy => hr y (by simp [hy]))]
      simp [turnsEvents, flushEvents]
    · rw [succeeded_none h1 (hr r (by simp)), succeeded_dels_none h2 (hr r (by simp)), ih.2 (fun y hy => hr y (by simp [hy]))]
      rfl

/-- A turn did not change the pair: it has no PUT or DELETE of the pair, or none of its writes succeeded. -/
def Unchanged (hash : Bytes → Bytes → Out Int) (s p : Val) (x : Turn) (r : Results) : Prop :=
  (∀ z ∈ turnOps hash x, ¬ Writes s p z) ∨ NoneWritten r

theorem succeeded_pair {a : Val → Bool} {l : List Op} {r : Results} {ps : List ((Blob × Blob × Blob) × Result)} {s p : Val}
    (h : PutsReported l r ps) (hl : ∀ s₁ p₁ o₁, Op.put s₁ p₁ o₁ ∈ l → ¬ (s₁.val = s ∧ p₁.val = p)) :
    ∀ e ∈ succeededPuts a ps, evPair e ≠ (s, p) := by
  intro e he hp
  obtain ⟨x, hx, h2⟩ := List.mem_filterMap.mp he
  split at h2
  · cases h2
    have hm : x.1 ∈ putTriples l := by rw [← h.all]; exact List.mem_map.mpr ⟨x, hx, rfl⟩
    obtain ⟨o, ho, he⟩ := List.mem_filterMap.mp hm
    cases o <;> simp only [reduceCtorEq, Option.some.injEq] at he
    rw [← he] at hp
    simp only [evPair, Prod.mk.injEq] at hp
    exact hl _ _ _ ho hp
  · cases h2

theorem succeeded_dels_pair {a : Val → Bool} {l : List Op} {r : Results} {ds : List ((Blob × Blob) × Result)} {s p : Val}
    (h : DelsReported l r ds) (hl : ∀ s₁ p₁, Op.del s₁ p₁ ∈ l → ¬ (s₁.val = s ∧ p₁.val = p)) :
    ∀ e ∈ succeededDels a ds, evPair e ≠ (s, p) := by
  intro e he hp
  obtain ⟨x, hx, h2⟩ := List.mem_filterMap.mp he
  split at h2
  · cases h2
    have hm : x.1 ∈ delPairs l := by rw [← h.all]; exact List.mem_map.mpr ⟨x, hx, rfl⟩
    obtain ⟨o, ho, he⟩ := List.mem_filterMap.mp hm
    cases o <;> simp only [reduceCtorEq, Option.some.injEq] at he
    rw [← he] at hp
    simp only [evPair, Prod.mk.injEq] at hp
    exact hl _ _ ho hp
  · cases h2

theorem reported_unchanged {a : Val → Bool} {hash : Bytes → Bytes → Out Int} {s p : Val} {turns : List Turn} {rs : List Results}
    {H : List Ev} (h : Reported a hash turns rs H) (hu : ∀ x ∈ turns.zip rs, Unchanged hash s p x.1 x.2) :
    ∀ e ∈ H, evPair e ≠ (s, p) := by
  induction h with
  | nil => simp
  | @cons x r ps ds l rs H h1 h2 _ ih =>
    intro e he
    rcases List.mem_append.mp he with he | he
    · rcases hu (x, r) (by simp) with hc | hc
      · rcases List.mem_append.mp he with he | he
        · exact succeeded_pair h1 (fun _ _ _ ho hp => hc _ ho hp) e he
        · exact succeeded_dels_pair h2 (fun _ _ ho hp => hc _ ho hp) e he
      · rw [succeeded_none h1 hc, succeeded_dels_none h2 hc] at he
        cases he
    · exact ih (fun y hy => hu y (by rw [List.zip_cons_cons]; exact List.mem_cons_of_mem _ hy)) e he

theorem reported_split {a : Val → Bool} {hash : Bytes → Bytes → Out Int} {l l' : List Turn} {rs : List Results} {H : List Ev}
    (h : Reported a hash (l ++ l') rs H) :
    ∃ r1 r2 H1 H2, rs = r1 ++ r2 ∧ H = H1 ++ H2 ∧ r1.length = l.length ∧ Reported a hash l r1 H1 ∧ Reported a hash l' r2 H2 := by
  induction l generalizing rs H with
  | nil => exact ⟨[], rs, [], H, rfl, rfl, rfl, .nil, h⟩
  | cons x l ih =>
    cases h with
    | cons h1 h2 h3 =>
      obtain ⟨r1, r2, H1, H2, e1, e2, e3, e4, e5⟩ := ih h3
      exact ⟨_ :: r1, r2, _, H2, by rw [e1]; rfl, by rw [e2, ← List.append_assoc], by simp [e3], .cons h1 h2 e4, e5⟩

/-- C76, partial: rank A PUTs `(s, p, o)` in turn `a`, as its last PUT of that pair and without a DELETE of it in the
same turn, and the results with those references report success. Every turn in between either has no PUT or
DELETE of the pair, or all its PUTs and DELETEs failed. Turn `b` of any rank GETs the pair: the result has
`o`. Missing: as `C76_gets_partial`. -/
theorem C76_partial (cb : Callbacks) (t : Transform) (hash : Bytes → Bytes → Out Int) (place : List Int) (heap : Nat)
    (hheap : heap ≠ 0 ∧ heap < 2 ^ 64) (hplace : place.length ≤ 2 ^ 31) (before between : List Turn) (a b : Turn)
    (w w' : World) (rsBefore rsBetween : List Results) (ra rb : Results) (hw : EmptyWorld w)
    (hlen : rsBefore.length = before.length)
    (hturns : ∀ y ∈ before ++ a :: between ++ [b], TurnOk cb t hash place y)
    (h : run cb heap place.length w (before ++ a :: between ++ [b]) = .ok (w', rsBefore ++ ra :: rsBetween ++ [rb]))
    (s p o s' p' : Blob) (ty : Nat) (first last : List Op)
    (hput : turnOps hash a = first ++ Op.put s p o :: last) (hlast : ∀ y ∈ last, ¬ Writes s.val p.val y)
    (hdel : ∀ s₁ p₁, Op.del s₁ p₁ ∈ first → ¬ (s₁.val = s.val ∧ p₁.val = p.val))
    (haccept : t.accepts s.val = true ∧ t.accepts p.val = true ∧ t.accepts o.val = true)
    (hstatus : ∀ y ∈ ra.items, y.kind = .put → y.subject = .ref ⟨s.addr, s.bytes.length, s.typ⟩ →
      y.predicate = .ref ⟨p.addr, p.bytes.length, p.typ⟩ → y.status = hxSuccess)
    (hbetween : ∀ x ∈ between.zip rsBetween, Unchanged hash s.val p.val x.1 x.2)
    (hb : (∀ s₁ p₁ o₁, Op.put s₁ p₁ o₁ ∈ turnOps hash b → ¬ (s₁.val = s.val ∧ p₁.val = p.val)) ∨ NoneWritten rb)
    (hget : Op.get s' p' ty ∈ turnOps hash b) (hsame : s'.val = s.val ∧ p'.val = p.val) :
    ∃ y ∈ rb.items, y.kind = .get ∧ y.subject = .ref ⟨s'.addr, s'.bytes.length, s'.typ⟩ ∧
      y.predicate = .ref ⟨p'.addr, p'.bytes.length, p'.typ⟩ ∧ y.status = hxSuccess ∧
      ∃ v : Blob, y.object = .own v ∧ v.bytes = t.R o.val ∧ v.typ = o.typ := by
  obtain ⟨H, ps, ds, hrep, hps, -, gs, hperm, hall⟩ := C76_gets_partial cb t hash place heap hheap hplace (before ++ a :: between) b w w'
    (rsBefore ++ ra :: rsBetween) rb hw
    (fun y hy => hturns y (by rw [List.mem_append]; exact Or.inl hy)) (hturns b (by simp)) h
  have hmem : (s', p') ∈ gs := hperm.mem_iff.mpr (List.mem_filterMap.mpr ⟨_, hget, rfl⟩)
  have key : lastObj s'.val p'.val (H ++ succeededPuts t.accepts ps) = some o.val := by
    rw [hsame.1, hsame.2, lastObj_skip]
    · obtain ⟨r1, r2, H1, H2, e1, rfl, e3, -, e5⟩ := reported_split hrep
      obtain ⟨rfl, e6⟩ := List.append_inj e1 (by rw [hlen, e3])
      subst e6
      cases e5 with
      | @cons _ _ pa da _ _ H3 h1 h2 h3 =>
        -- the PUT among the PUTs of turn `a`
        have hsplit : pa.map Prod.fst = putTriples first ++ (s, p, o) :: putTriples last := by
          rw [h1.all, hput]
          simp [putTriples, List.filterMap_append]
        obtain ⟨p1, p2, rfl, f1, f2⟩ := List.map_eq_append_iff.mp hsplit
        obtain ⟨x, p3, rfl, f3, f4⟩ := List.map_eq_cons_iff.mp f2
        have hx1 := puts_result h1 x (by simp)
        have hx2 := h1.reports x (by simp)
        rw [f3] at hx2
        have hx3 := hstatus _ hx1.1 hx1.2 hx2.subject hx2.predicate
        have hev : succeededPuts t.accepts (p1 ++ x :: p3) = succeededPuts t.accepts p1 ++ [Ev.put s.val p.val o.val] ++
            succeededPuts t.accepts p3 := by
          unfold succeededPuts
          rw [List.filterMap_append, List.filterMap_cons, hx3, f3]
          simp [haccept]
        rw [hev, show H1 ++ (succeededPuts t.accepts p1 ++ [Ev.put s.val p.val o.val] ++ succeededPuts t.accepts p3 ++
            succeededDels t.accepts da ++ H3) = H1 ++ succeededPuts t.accepts p1 ++ [Ev.put s.val p.val o.val] ++
            (succeededPuts t.accepts p3 ++ (succeededDels t.accepts da ++ H3)) by simp, lastObj_skip, lastObj_put]
        intro e he
        rcases List.mem_append.mp he with he | he
        · obtain ⟨y, hy, h4⟩ := List.mem_filterMap.mp he
          split at h4
          · cases h4
            have : y.1 ∈ putTriples last := by rw [← f4]; exact List.mem_map.mpr ⟨y, hy, rfl⟩
            obtain ⟨u, hu, h5⟩ := List.mem_filterMap.mp this
            cases u <;> simp only [reduceCtorEq, Option.some.injEq] at h5
            rw [← h5]
            intro hc
            simp only [evPair, Prod.mk.injEq] at hc
            exact hlast _ hu hc
          · cases h4
        · rcases List.mem_append.mp he with he | he
          · refine succeeded_dels_pair h2 ?_ e he
            intro s₁ p₁ hd hp
            rw [hput] at hd
            rcases List.mem_append.mp hd with hd | hd
            · exact hdel _ _ hd hp
            · rcases List.mem_cons.mp hd with hd | hd
              · cases hd
              · exact hlast _ hd hp
          · exact reported_unchanged h3 hbetween e he
    · rcases hb with hb | hb
      · exact succeeded_pair hps hb
      · rw [succeeded_none hps hb]; simp
  obtain ⟨y, hy, hR⟩ := forall₂_mem hall hmem
  obtain ⟨h1, h2⟩ := hR.found _ key
  exact ⟨y, List.mem_of_mem_filter hy, hR.kind, hR.subject, hR.predicate, h1, h2⟩

/-! ### Examples -/

namespace C76Ex

def exNet (l : Layout) (rank : Nat) : Net :=
  Layout.net l rank (.thallium (thalliumEndpoints l rank [])) id (fun _ => List.Perm.refl _) 4096 (fun n => List.replicate n 0)

/-- LevelDB, where the second and the fourth request for a write fail. -/
def exWorld : World := ⟨fun _ => [exDs .level []], fun n => decide (n ≠ 1 ∧ n ≠ 3), 0⟩

def exTurn (rank : Nat) (calls : List Queue.Call) : Turn :=
  ⟨⟨Hash.hxhimHash .ber rank 3, 10, 0, 3⟩, exNet ⟨3, 1, 1, 1⟩ rank, calls⟩

def exPutArg (s p o : UInt8) : Queue.Call := .put ⟨⟨16, [s], 7⟩, ⟨32, [p], 7⟩, ⟨48, [o], 7⟩, 1⟩
def exDelArg (s p : UInt8) : Queue.Call := .del ⟨⟨16, [s], 7⟩, ⟨32, [p], 7⟩⟩
def exGetArg (s p : UInt8) : Queue.Call := .get ⟨⟨64, [s], 7⟩, ⟨80, [p], 7⟩, 7⟩

def tA : Turn := exTurn 0 [exPutArg 1 2 3]
/-- The PUT fails. -/
def tB : Turn := exTurn 1 [exPutArg 1 2 9]
/-- This PUT, of another pair, succeeds. -/
def tC : Turn := exTurn 1 [exPutArg 1 3 4]
/-- The DELETE fails. -/
def tD : Turn := exTurn 0 [exDelArg 1 2]
def tE : Turn := exTurn 2 [exGetArg 1 2, exGetArg 1 3]

end C76Ex
open C76Ex

/-- Statuses and objects of the results of all turns: the GET returns the object of the first turn. -/
example : (run exCb 100 3 exWorld [tA, tB, tC, tD, tE] >>= fun x =>
    .ok (x.2.map (fun r => r.items.map (fun y => (y.status, match y.object with | .own b => b.bytes | _ => []))))) =
    .ok [[(hxSuccess, [])], [(hxError, [])], [(hxSuccess, [])], [(hxError, [])], [(hxSuccess, [4]), (hxSuccess, [3])]] := by
  decide +kernel

theorem C76Ex.exSent (a : Nat) (b : UInt8) (ha : a ≠ 0) (ha' : a < 2 ^ 64) : PlainSent ⟨a, [b], tByte⟩ :=
  ⟨⟨by show tByte < 256; decide, by show 1 < 2 ^ 64; decide, by intro t h; exact absurd h (by show intType tByte ≠ some t; intro h; cases h),
    by show tByte ≠ tFloat ∧ tByte ≠ tDouble; decide⟩, ha, ha', Or.inl (by simp)⟩

def C76Ex.exOps (y : Turn) : List Op := y.calls.flatMap (ops (Hash.hxhimHash .ber 0 3) 3)

theorem C76Ex.exOps_plain : ∀ y ∈ [tA, tB, tC, tD, tE], ∀ o ∈ exOps y, PlainOp o := by
  have e1 : exOps tA = [Op.put ⟨16, [1], 7⟩ ⟨32, [2], 7⟩ ⟨48, [3], 7⟩] := by decide +kernel
  have e2 : exOps tB = [Op.put ⟨16, [1], 7⟩ ⟨32, [2], 7⟩ ⟨48, [9], 7⟩] := by decide +kernel
  have e3 : exOps tC = [Op.put ⟨16, [1], 7⟩ ⟨32, [3], 7⟩ ⟨48, [4], 7⟩] := by decide +kernel
  have e4 : exOps tD = [Op.del ⟨16, [1], 7⟩ ⟨32, [2], 7⟩] := by decide +kernel
  have e5 : exOps tE = [Op.get ⟨64, [1], 7⟩ ⟨80, [2], 7⟩ 7, Op.get ⟨64, [1], 7⟩ ⟨80, [3], 7⟩ 7] := by decide +kernel
  have q : ∀ a b, a ∈ [16, 32, 48, 64, 80] → PlainSent ⟨a, [b], 7⟩ := by
    intro a b ha
    simp only [List.mem_cons, List.not_mem_nil, or_false] at ha
    refine exSent a b ?_ ?_ <;> omega
  intro y hy o ho
  simp only [List.mem_cons, List.not_mem_nil, or_false] at hy
  rcases hy with rfl | rfl | rfl | rfl | rfl
  · rw [e1, List.mem_singleton] at ho
    subst ho
    exact ⟨q _ _ (by simp), q _ _ (by simp), q _ _ (by simp), by simp⟩
  · rw [e2, List.mem_singleton] at ho
    subst ho
    exact ⟨q _ _ (by simp), q _ _ (by simp), q _ _ (by simp), by simp⟩
  · rw [e3, List.mem_singleton] at ho
    subst ho
    exact ⟨q _ _ (by simp), q _ _ (by simp), q _ _ (by simp), by simp⟩
  · rw [e4, List.mem_singleton] at ho
    subst ho
    exact ⟨q _ _ (by simp), q _ _ (by simp)⟩
  · rw [e5] at ho
    simp only [List.mem_cons, List.not_mem_nil, or_false] at ho
    rcases ho with rfl | rfl <;> exact ⟨q _ _ (by simp), q _ _ (by simp), by decide⟩

/-- The hypotheses of `C76_gets_partial` and `C76_runs_partial` for these turns. -/
example : EmptyWorld exWorld ∧ Staffed ((List.range 3).map (Layout.dsToRank ⟨3, 1, 1, 1⟩)) exWorld ∧
    KeysGiven (Hash.hxhimHash .ber 0 3) [tA, tB, tC, tD, tE] ∧
    ∀ y ∈ [tA, tB, tC, tD, tE],
      TurnOk exCb (plainTransform 0x2f 0x3a exFloat) (Hash.hxhimHash .ber 0 3) ((List.range 3).map (Layout.dsToRank ⟨3, 1, 1, 1⟩)) y ∧
      TurnRuns exCb (plainTransform 0x2f 0x3a exFloat) (Hash.hxhimHash .ber 0 3) ((List.range 3).map (Layout.dsToRank ⟨3, 1, 1, 1⟩)).length y := by
  have shape : ∀ y ∈ [tA, tB, tC, tD, tE], ∃ rank < 3, y = exTurn rank y.calls ∧ (∀ c ∈ y.calls, ReadableCall c) := by
    intro y hy
    simp only [List.mem_cons, List.not_mem_nil, or_false] at hy
    rcases hy with rfl | rfl | rfl | rfl | rfl
    · exact ⟨0, by decide, rfl, by intro c hc; rw [show c = _ from List.mem_singleton.mp hc]; exact ⟨rfl, rfl, rfl⟩⟩
    · exact ⟨1, by decide, rfl, by intro c hc; rw [show c = _ from List.mem_singleton.mp hc]; exact ⟨rfl, rfl, rfl⟩⟩
    · exact ⟨1, by decide, rfl, by intro c hc; rw [show c = _ from List.mem_singleton.mp hc]; exact ⟨rfl, rfl, rfl⟩⟩
    · exact ⟨0, by decide, rfl, by intro c hc; rw [show c = _ from List.mem_singleton.mp hc]; exact ⟨rfl, rfl⟩⟩
    · refine ⟨2, by decide, rfl, ?_⟩
      intro c hc
      simp only [tE, exTurn, List.mem_cons, List.not_mem_nil, or_false] at hc
      rcases hc with rfl | rfl <;> exact ⟨rfl, rfl⟩
  have hops : ∀ y ∈ [tA, tB, tC, tD, tE], turnOps (Hash.hxhimHash .ber 0 3) y = exOps y := by
    intro y hy
    simp only [List.mem_cons, List.not_mem_nil, or_false] at hy
    rcases hy with rfl | rfl | rfl | rfl | rfl <;> rfl
  have noGetOp : ∀ y ∈ [tA, tB, tC, tD, tE], getOps (exOps y) = [] := by decide +kernel
  refine ⟨?_, ⟨?_, ?_⟩, ?_, ?_⟩
  · intro rank d hd
    rw [show d = exDs .level [] from List.mem_singleton.mp hd]
    exact ⟨rfl, rfl⟩
  · intro rank _ h
    cases h
  · intro rank d hd
    rw [show d = exDs .level [] from List.mem_singleton.mp hd]
    rfl
  · rintro ⟨y, hy, hn⟩
    rw [hops y hy] at hn
    exact absurd (noGetOp y hy) hn
  · intro y hy
    have hp := exOps_plain y hy
    rw [← hops y hy] at hp
    obtain ⟨rank, hr, he, hc⟩ := shape y hy
    have hg := noGetOp y hy
    rw [← hops y hy] at hg
    generalize y.calls = calls at he hc
    subst he
    refine ⟨C48_thallium_sessions (neg := 0x2f) (pos := 0x3a) ⟨by decide, by decide⟩ exFloat ⟨3, 1, 1, 1⟩ (by decide) ⟨rfl, Or.inl (Nat.le_refl _)⟩ .ber (by decide) rank (by omega) []
      (Or.inl rfl) id _ 4096 (by decide) _ 10 0 3 (by decide) calls (fun c hc o ho => hp o (List.mem_flatMap.mpr ⟨c, hc, ho⟩)), ?_, (by decide : 0 < 10), (by decide : 3 ≤ 3), hc, ?_⟩
    · intro s p
      obtain ⟨d, hd⟩ : ∃ d, Hash.hxhimHash .ber rank 3 s p = .ok d := ⟨_, rfl⟩
      exact ⟨d, hd, (C25_in_range .ber rank 3 (by decide) (by decide) s p d hd).2⟩
    · intro o ho
      refine C48_default_answered (neg := 0x2f) (pos := 0x3a) ⟨by decide, by decide⟩ exFloat o (hp o ho) ?_
      cases o with
      | getop op s p ty n =>
        have : (⟨op, s, p, ty, n⟩ : GetOpItem) ∈ getOps (turnOps (Hash.hxhimHash .ber 0 3) (exTurn rank calls)) :=
          List.mem_filterMap.mpr ⟨_, ho, rfl⟩
        rw [hg] at this
        cases this
      | _ => exact True.intro

/-- The hypotheses of `C76_partial` on the operations and results, for the pair of the first turn. -/
example : exOps tA = [] ++ Op.put ⟨16, [1], 7⟩ ⟨32, [2], 7⟩ ⟨48, [3], 7⟩ :: [] ∧
    Op.get ⟨64, [1], 7⟩ ⟨80, [2], 7⟩ 7 ∈ exOps tE ∧ exOps tC = [Op.put ⟨16, [1], 7⟩ ⟨32, [3], 7⟩ ⟨48, [4], 7⟩] ∧
    ∃ w ra rb rc rd re, run exCb 100 3 exWorld [tA, tB, tC, tD, tE] = .ok (w, [ra, rb, rc, rd, re]) ∧ AllWritten ra ∧
      NoneWritten rb ∧ AllWritten rc ∧ NoneWritten rd := by
  refine ⟨by decide +kernel, by decide +kernel, by decide +kernel, ?_⟩
  have hl : (run exCb 100 3 exWorld [tA, tB, tC, tD, tE] >>= fun x =>
      .ok (x.2.map (fun r => r.items.map (fun y => (y.kind, y.status))))) =
      .ok [[(.put, hxSuccess)], [(.put, hxError)], [(.put, hxSuccess)], [(.del, hxError)], [(.get, hxSuccess), (.get, hxSuccess)]] := by
    decide +kernel
  obtain ⟨u, hu, hl⟩ := ok_iff.mp hl
  have hl := Out.ok.inj hl
  obtain ⟨w, rs⟩ := u
  obtain ⟨ra, r1, rfl, ea, hl⟩ := List.map_eq_cons_iff.mp hl
  obtain ⟨rb, r1, rfl, eb, hl⟩ := List.map_eq_cons_iff.mp hl
  obtain ⟨rc, r1, rfl, ec, hl⟩ := List.map_eq_cons_iff.mp hl
  obtain ⟨rd, r1, rfl, ed, hl⟩ := List.map_eq_cons_iff.mp hl
  obtain ⟨re, r1, rfl, ee, hl⟩ := List.map_eq_cons_iff.mp hl
  obtain rfl := List.map_eq_nil_iff.mp hl
  have one : ∀ (r : Results) (k : Kind) (st : Int), r.items.map (fun y => (y.kind, y.status)) = [(k, st)] → ∀ y ∈ r.items, y.status = st := by
    intro r k st h y hy
    have : (y.kind, y.status) ∈ [(k, st)] := by rw [← h]; exact List.mem_map.mpr ⟨y, hy, rfl⟩
    exact congrArg Prod.snd (List.mem_singleton.mp this)
  exact ⟨w, ra, rb, rc, rd, re, hu, fun y hy _ => one _ _ _ ea y hy, fun y hy _ => one _ _ _ eb y hy, fun y hy _ => one _ _ _ ec y hy,
    fun y hy _ => one _ _ _ ed y hy⟩

end Hx.Props

import Verif.Proofs.Overlap
import Verif.Props.C48_EndToEnd

/-!
# C61: GETOPs of flushes that overlap in time

A log of the requests in the order the range servers executed them, as in `Props.C55_Overlap`.
-/

namespace Hx.Props
open Hx Msg Spec Process Store Results Job Place

/-- C61 when flushes overlap, partial: starting with empty datastores, there is a request in the log for
every GETOP of every flush, such that the GETOP has exactly the results that `Spec.getOpAnswer` picks out
of the datastore its subject and predicate belong to, after all requests before that one. Which PUTs and
DELETEs of the datastore are before it: all PUTs of the flush itself and none of its DELETEs, all of
finished flushes, none of flushes that begin later, and a prefix of those of each other flush (`SeenIn`).
Missing: as `C61_partial` and `C55_gets_partial`. -/
theorem C61_overlap_partial (cb : Callbacks) (t : Transform) (hash : Bytes → Bytes → Out Int) (place : List Int) (heap : Nat)
    (hheap : heap ≠ 0 ∧ heap < 2 ^ 64) (hplace : place.length ≤ 2 ^ 31) (b : Backend) (turns : List Turn) (w w' : World)
    (log : List Served) (rs : List Results) (hw : FreshWorld w) (ha : Apart place w) (hb : Backed b w)
    (hturns : ∀ y ∈ turns, TurnOk cb t hash place y) (hgiven : ∀ y ∈ turns, PutsGiven (turnOps hash y))
    (h : Overlap cb heap place.length w turns log w' rs) (i : Nat) (x : Turn) (r : Results) (hi : turns[i]? = some x)
    (hr : rs[i]? = some r) (hops : GetOpsOk cb t (turnOps hash x))
    (harrives : ∀ g ∈ getOps (turnOps hash x), ∀ before y after, log = before ++ y :: after → y.turn = i →
      Arrives t cb.neg b hash (before.flatMap (fun y => events t.accepts y.req.body)) g) :
    ∃ gs groups, gs.Perm (getOps (turnOps hash x)) ∧ r.items.filter (fun y => decide (y.kind = .getop)) = groups.flatten ∧
      List.Forall₂ (fun g z => ∃ before y after, OpAnswered t.accepts hash turns log i g before y after ∧
        ReturnedOp t cb.neg b hash (before.flatMap (fun y => events t.accepts y.req.body)) g z) gs groups :=
  overlap_getops hheap.1 hheap.2 hplace (holds_fresh hw) ha hb hturns hgiven h hi hr hops harrives

/-! ### Example -/

private def exNet (l : Layout) (rank : Nat) : Net :=
  Layout.net l rank (.thallium (thalliumEndpoints l rank [])) id (fun _ => List.Perm.refl _) 4096 (fun n => List.replicate n 0)

private def exWorld : World := ⟨fun _ => [exDs .level []], fun _ => true, 0⟩

/-- A flush of `rank`; there are two ranks with one datastore each. -/
private def exTurn (rank : Nat) (calls : List Queue.Call) : Turn :=
  ⟨⟨Hash.hxhimHash .sumMod rank 2, 10, 0, 2⟩, exNet ⟨2, 1, 1, 1⟩ rank, calls⟩

private def exAt (a : Nat) (b : UInt8) : Blob := ⟨a, [b], 7⟩
private def exPutArg (s p o : UInt8) : Queue.Call := .put ⟨exAt 16 s, exAt 32 p, exAt 48 o, 1⟩
private def exOpArg (s p : UInt8) (n : Nat) : Queue.Call := .getop ⟨exAt 64 s, exAt 80 p, 7, n, 1⟩

private def exFlushA : Turn := exTurn 0 [exPutArg 1 2 3, exPutArg 1 4 5, exOpArg 1 2 5]
private def exFlushB : Turn := exTurn 1 [exPutArg 1 6 7, .del ⟨exAt 16 1, exAt 32 4⟩, exOpArg 1 4 5]

/-- The requests in the order they are executed: the DELETE of rank 1 is the last one. All keys belong to
the datastore of rank 1. -/
private def exOrder : List (Nat × Int × Req) :=
  let put (at' : Nat → Nat) (s p o : UInt8) : PutItem := ⟨exAt (at' 16) s, 16, exAt (at' 32) p, 32, exAt (at' 48) o⟩
  [(1, 1, ⟨1, 1, .put [put id 1 6 7]⟩),
    (0, 1, ⟨0, 1, .put [put (fun _ => 4096) 1 2 3, put (fun _ => 4096) 1 4 5]⟩),
    (1, 1, ⟨1, 1, .getop [⟨1, exAt 64 1, exAt 80 4, 7, 5⟩]⟩),
    (1, 1, ⟨1, 1, .del [⟨exAt 16 1, 16, exAt 32 4, 32⟩]⟩),
    (0, 1, ⟨0, 1, .getop [⟨1, exAt 4096 1, exAt 4096 2, 7, 5⟩]⟩)]

/-- Execute requests one after the other. -/
private def play : World → List (Nat × Int × Req) → Out (List Served × World)
  | w, [] => .ok ([], w)
  | w, (i, rank, req) :: l =>
    World.serve exCb 100 w rank req >>= fun x =>
    play x.1 l >>= fun y => .ok (⟨i, rank, req, x.2⟩ :: y.1, y.2)

private theorem play_executes (l : List (Nat × Int × Req)) : ∀ {w w' : World} {log : List Served}, play w l = .ok (log, w') →
    executes exCb 100 w log w' ∧ log.map (·.turn) = l.map (·.1) := by
  induction l with
  | nil => intro w w' log h; cases h; exact ⟨rfl, rfl⟩
  | cons a l ih =>
    intro w w' log h
    obtain ⟨i, rank, req⟩ := a
    simp only [play] at h
    obtain ⟨x, hx, h⟩ := ok_iff.mp h
    obtain ⟨y, hy, h⟩ := ok_iff.mp h
    cases h
    obtain ⟨h1, h2⟩ := ih (show play x.1 l = .ok (y.1, y.2) from hy)
    exact ⟨⟨x.1, hx, h1⟩, by simp [h2]⟩

/-- The results of a flush with its part of the log, if all of it is used. -/
private def results (log : List Served) (i : Nat) (x : Turn) : Out Results :=
  Queue.calls x.cfg true (Queue.Queues.init 2) x.calls >>= fun q =>
  flush x.net replay (partOf i log) q >>= fun y => if y.1.isEmpty then .ok y.2.1 else .err

private theorem results_turnOn {log : List Served} {i : Nat} {x : Turn} {r : Results} (h : results log i x = .ok r) :
    turnOn 2 (partOf i log) x r := by
  unfold results at h
  obtain ⟨q, hq, h⟩ := ok_iff.mp h
  obtain ⟨y, hy, h⟩ := ok_iff.mp h
  split at h
  · rename_i he
    cases h
    refine ⟨_, q, y.2.2, sameOrder_refl _, hq, ?_⟩
    rw [hy]
    have : y.1 = [] := by simpa using he
    rw [← this]
  · cases h

/-- Subjects, predicates and objects of the GETOPs. -/
private def shown (r : Results) : List (Bytes × Bytes × Bytes) :=
  let data : Datum → Bytes := fun | .own b => b.bytes | _ => []
  (r.items.filter (fun y => decide (y.kind = .getop))).map (fun r => (data r.subject, data r.predicate, data r.object))

private def exShown : Out (List (List (Bytes × Bytes × Bytes))) :=
  play exWorld exOrder >>= fun x =>
  results x.1 0 exFlushA >>= fun a =>
  results x.1 1 exFlushB >>= fun b => .ok [shown a, shown b]

/-- The GETOP of rank 1 sees what the flush of rank 0 PUT; the GETOP of rank 0 sees the PUT and the DELETE
of rank 1. -/
private theorem exShown_eq : exShown = .ok [[([1], [2], [3]), ([1], [6], [7])], [([1], [4], [5]), ([1], [6], [7])]] := by
  decide +kernel

/-- Two flushes that overlap. -/
example : ∃ log w' rs, Overlap exCb 100 2 exWorld [exFlushA, exFlushB] log w' rs ∧ log.map (·.turn) = [1, 0, 1, 1, 0] ∧
    ¬ Finished log 0 1 ∧ ¬ Finished log 1 0 ∧
    rs.map shown = [[([1], [2], [3]), ([1], [6], [7])], [([1], [4], [5]), ([1], [6], [7])]] := by
  have h := exShown_eq
  unfold exShown at h
  obtain ⟨x, hx, h⟩ := ok_iff.mp h
  obtain ⟨a, ha, h⟩ := ok_iff.mp h
  obtain ⟨b, hb, h⟩ := ok_iff.mp h
  obtain ⟨h1, h2⟩ := play_executes _ (show play exWorld exOrder = .ok (x.1, x.2) from hx)
  have h2 : x.1.map (·.turn) = [1, 0, 1, 1, 0] := h2
  have fin : ∀ i j, Finished x.1 i j ↔ (x.1.map (·.turn)).Pairwise (fun y z => ¬ (y = j ∧ z = i)) := by
    intro i j
    unfold Finished
    rw [List.pairwise_map]
  refine ⟨x.1, x.2, [a, b], ⟨h1, ?_, rfl, ?_⟩, h2, ?_, ?_, Out.ok.inj h⟩
  · intro y hy
    have : y.turn ∈ x.1.map (·.turn) := List.mem_map.mpr ⟨y, hy, rfl⟩
    rw [h2] at this
    show y.turn < 2
    simp only [List.mem_cons, List.not_mem_nil, or_false] at this
    omega
  · intro i y r hi hr
    match i with
    | 0 => cases hi; cases hr; exact results_turnOn ha
    | 1 => cases hi; cases hr; exact results_turnOn hb
    | i + 2 => cases hi
  · rw [fin, h2]; decide
  · rw [fin, h2]; decide

private theorem exSent (a : Nat) (b : UInt8) (ha : a ≠ 0) (ha' : a < 2 ^ 64) : PlainSent (exAt a b) :=
  ⟨⟨by show tByte < 256; decide, by show 1 < 2 ^ 64; decide, by intro t h; exact absurd h (by show intType tByte ≠ some t; intro h; cases h),
    by show tByte ≠ tFloat ∧ tByte ≠ tDouble; decide⟩, ha, ha', Or.inl (by simp [exAt])⟩

private theorem exOps : ∀ x ∈ [exFlushA, exFlushB], ∃ rank < 2, ∃ calls, x = exTurn rank calls ∧
    ∀ o ∈ turnOps (Hash.hxhimHash .sumMod 0 2) x, (∃ s p o', o = Op.put (exAt 16 s) (exAt 32 p) (exAt 48 o')) ∨
      (∃ s p, o = Op.del (exAt 16 s) (exAt 32 p)) ∨ ∃ s p, o = Op.getop 1 (exAt 64 s) (exAt 80 p) 7 5 := by
  have ea : turnOps (Hash.hxhimHash .sumMod 0 2) exFlushA = [.put (exAt 16 1) (exAt 32 2) (exAt 48 3), .put (exAt 16 1) (exAt 32 4) (exAt 48 5),
    .getop 1 (exAt 64 1) (exAt 80 2) 7 5] := by decide +kernel
  have eb : turnOps (Hash.hxhimHash .sumMod 0 2) exFlushB = [.put (exAt 16 1) (exAt 32 6) (exAt 48 7), .del (exAt 16 1) (exAt 32 4),
    .getop 1 (exAt 64 1) (exAt 80 4) 7 5] := by decide +kernel
  intro x hx
  simp only [List.mem_cons, List.not_mem_nil, or_false] at hx
  rcases hx with rfl | rfl
  · refine ⟨0, by decide, _, rfl, ?_⟩
    rw [ea]
    intro o ho
    simp only [List.mem_cons, List.not_mem_nil, or_false] at ho
    rcases ho with rfl | rfl | rfl
    · exact Or.inl ⟨_, _, _, rfl⟩
    · exact Or.inl ⟨_, _, _, rfl⟩
    · exact Or.inr (Or.inr ⟨_, _, rfl⟩)
  · refine ⟨1, by decide, _, rfl, ?_⟩
    rw [eb]
    intro o ho
    simp only [List.mem_cons, List.not_mem_nil, or_false] at ho
    rcases ho with rfl | rfl | rfl
    · exact Or.inl ⟨_, _, _, rfl⟩
    · exact Or.inr (Or.inl ⟨_, _, rfl⟩)
    · exact Or.inr (Or.inr ⟨_, _, rfl⟩)

/-- The hypotheses of `C61_overlap_partial` for these flushes. -/
example : FreshWorld exWorld ∧ Apart ((List.range 2).map (Layout.dsToRank ⟨2, 1, 1, 1⟩)) exWorld ∧ Backed .level exWorld ∧
    ∀ y ∈ [exFlushA, exFlushB],
      TurnOk exCb (plainTransform 0x2f 0x3a exFloat) (Hash.hxhimHash .sumMod 0 2) ((List.range 2).map (Layout.dsToRank ⟨2, 1, 1, 1⟩)) y ∧
      PutsGiven (turnOps (Hash.hxhimHash .sumMod 0 2) y) ∧
      GetOpsOk exCb (plainTransform 0x2f 0x3a exFloat) (turnOps (Hash.hxhimHash .sumMod 0 2) y) ∧
      ∀ g ∈ getOps (turnOps (Hash.hxhimHash .sumMod 0 2) y), ∀ H,
        Arrives (plainTransform 0x2f 0x3a exFloat) exCb.neg .level (Hash.hxhimHash .sumMod 0 2) H g := by
  refine ⟨⟨?_, fun _ => rfl⟩, ?_, ?_, ?_⟩
  · intro rank d hd
    rw [show d = exDs .level [] from List.mem_singleton.mp hd]
    exact ⟨rfl, rfl⟩
  · intro rank ds ds' h1 h2 h3
    have get : ∀ ds : Nat, ((List.range 2).map (Layout.dsToRank ⟨2, 1, 1, 1⟩))[ds]? = some rank → (ds : Int) = rank := by
      intro ds h
      match ds with
      | 0 => cases h; rfl
      | 1 => cases h; rfl
      | n + 2 => cases h
    have := get ds h1
    have := get ds' h2
    omega
  · intro rank d hd
    rw [show d = exDs .level [] from List.mem_singleton.mp hd]
    rfl
  · intro y hy
    obtain ⟨rank, hr, calls, rfl, hall⟩ := exOps y hy
    refine ⟨?_, ?_, ?_, ?_⟩
    · refine C48_thallium_sessions (neg := 0x2f) (pos := 0x3a) ⟨by decide, by decide⟩ exFloat ⟨2, 1, 1, 1⟩ (by decide)
        ⟨rfl, Or.inl (Nat.le_refl _)⟩ .sumMod (by decide) rank (by omega) [] (Or.inl rfl) id _ 4096 (by decide) _ 10 0 2
        (by decide) calls ?_
      intro c hc o ho
      rcases hall o (List.mem_flatMap.mpr ⟨c, hc, ho⟩) with ⟨s, p, o', rfl⟩ | ⟨s, p, rfl⟩ | ⟨s, p, rfl⟩
      · exact ⟨exSent _ _ (by decide) (by decide), exSent _ _ (by decide) (by decide), exSent _ _ (by decide) (by decide),
          by simp [exAt]⟩
      · exact ⟨exSent _ _ (by decide) (by decide), exSent _ _ (by decide) (by decide)⟩
      · exact ⟨exSent _ _ (by decide) (by decide), exSent _ _ (by decide) (by decide), by decide, by decide, by decide⟩
    · intro s p o ho
      rcases hall _ ho with ⟨s, p, o', he⟩ | ⟨s, p, he⟩ | ⟨s, p, he⟩ <;> cases he
      exact ⟨by simp [exAt], by simp [exAt]⟩
    · intro x hx h3 h4
      obtain ⟨o, ho, he⟩ := List.mem_filterMap.mp hx
      rcases hall o ho with ⟨s, p, o', rfl⟩ | ⟨s, p, rfl⟩ | ⟨s, p, rfl⟩ <;> cases he
      exact ⟨(plain_keyOk ⟨by decide, by decide⟩ exFloat (exSent _ _ (by decide) (by decide)).1).enc,
        (plain_keyOk ⟨by decide, by decide⟩ exFloat (exSent _ _ (by decide) (by decide)).1).enc⟩
    · intro g hg H
      obtain ⟨o, ho, he⟩ := List.mem_filterMap.mp hg
      rcases hall o ho with ⟨s, p, o', rfl⟩ | ⟨s, p, rfl⟩ | ⟨s, p, rfl⟩ <;> cases he
      exact Or.inl ⟨by simp, by simp, by simp [exAt], by simp [exAt]⟩

end Hx.Props

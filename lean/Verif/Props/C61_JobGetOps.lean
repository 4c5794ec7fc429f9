import Verif.Proofs.JobGetOp
import Verif.Props.C22_Placement
import Verif.Props.C48_EndToEnd

/-!
# C61. GETOPs: what a rank finds of what other ranks stored

Ranks take turns, as in `Props.C48_EndToEnd`.
-/

namespace Hx.Props
open Hx Msg Spec Process Store Results Job Place

/-- C61, partial: when ranks take turns, starting with empty datastores, every
GETOP of the last turn has exactly the results that `Spec.getOpAnswer` picks out of the datastore its
subject and predicate belong to, after all earlier turns of all ranks and the PUTs of the turn itself.
The results of one GETOP are behind each other. Missing, beyond what `C48_gets_partial` misses: empty
subjects and predicates of stored triples, and GETOPs without an answer that are FIRST or LAST or have an
empty subject or predicate (over a network, see
`C61_first_ub` and `C61_empty_false`). GETOPs that are undefined behaviour: C17 to C20. -/
theorem C61_partial (cb : Callbacks) (t : Transform) (hash : Bytes → Bytes → Out Int) (place : List Int) (heap : Nat)
    (hheap : heap ≠ 0 ∧ heap < 2 ^ 64) (hplace : place.length ≤ 2 ^ 31) (b : Backend) (turns : List Turn) (x : Turn)
    (w w' : World) (rs : List Results) (r : Results) (hw : FreshWorld w) (ha : Apart place w) (hb : Backed b w)
    (hturns : ∀ y ∈ turns, TurnOk cb t hash place y) (hx : TurnOk cb t hash place x)
    (hgiven : ∀ y ∈ turns ++ [x], PutsGiven (turnOps hash y)) (hops : GetOpsOk cb t (turnOps hash x))
    (harrives : ∀ y ∈ getOps (turnOps hash x),
      Arrives t cb.neg b hash (turnsEvents t.accepts hash turns ++ storedPuts t.accepts (turnOps hash x)) y)
    (h : run cb heap place.length w (turns ++ [x]) = .ok (w', rs ++ [r])) :
    ∃ gs groups, gs.Perm (getOps (turnOps hash x)) ∧ r.items.filter (fun y => decide (y.kind = .getop)) = groups.flatten ∧
      List.Forall₂ (ReturnedOp t cb.neg b hash
        (turnsEvents t.accepts hash turns ++ storedPuts t.accepts (turnOps hash x))) gs groups := by
  obtain ⟨u, r1, r2, h1, h2, h3⟩ := run_append turns [x] h
  have hu := run_holds hheap.1 hheap.2 hplace turns (holds_fresh hw) hturns h1
  have hk := run_kept hheap.1 hheap.2 hplace turns (holds_fresh hw) ha hb hturns h1
  simp only [run] at h2
  obtain ⟨y, hy, h2⟩ := ok_iff.mp h2
  simp only [Out.ok_bind] at h2
  cases h2
  have hr : r = y.2 := by
    have := congrArg List.getLast? h3
    simpa using this
  rw [hr]
  rw [List.nil_append] at hu
  refine (turn_getops hheap.1 hheap.2 hplace hu hx (hk.apart ha) (hk.backed hb) hy).2 ?_ hops harrives
  intro s p o hm
  rcases List.mem_append.mp hm with hm | hm
  · exact keysFit_turns hturns (fun y hy => hgiven y (by simp [hy])) s p o hm
  · exact keysFit_puts hx.operations (hgiven x (by simp)) s p o hm

/-- C61: every layout with the datastores the ranks create (C22) has its datastores `Apart`. -/
theorem C61_apart (l : Layout) (hv : l.Valid) (w : World) (hw : ∀ rank : Nat, (w.ds rank).length = (l.created rank).length) :
    Apart ((List.range l.total).map l.dsToRank) w := by
  intro rank ds ds' h1 h2 h3
  have get : ∀ ds : Nat, ((List.range l.total).map l.dsToRank)[ds]? = some rank → ds < l.total ∧ l.dsToRank ds = rank := by
    intro ds h
    rw [List.getElem?_map] at h
    obtain ⟨i, hi, he⟩ := Option.map_eq_some_iff.mp h
    obtain ⟨hlt, hi⟩ := List.getElem?_eq_some_iff.mp hi
    rw [List.getElem_range] at hi
    subst hi
    rw [List.length_range] at hlt
    exact ⟨hlt, he⟩
  obtain ⟨a1, a2⟩ := get ds h1
  obtain ⟨b1, b2⟩ := get ds' h2
  obtain ⟨m, c1, c2, c3, c4, -⟩ := C22_id_to_location l hv ds a1
  obtain ⟨m', d1, d2, d3, d4, -⟩ := C22_id_to_location l hv ds' b1
  have hm : m = m' := by omega
  subst hm
  have hr : rank = (m : Int) := by omega
  rw [hr, hw m, ((C22_created l hv m c1.1).1 c1).1] at h3
  unfold Layout.offset at c4 d4
  rw [h3] at c4
  omega

/-! ### Examples and counterexamples -/

private def exNet (l : Layout) (rank : Nat) : Net :=
  Layout.net l rank (.thallium (thalliumEndpoints l rank [])) id (fun _ => List.Perm.refl _) 4096 (fun n => List.replicate n 0)

private def exWorld (b : Backend) : World := ⟨fun _ => [exDs b []], fun _ => true, 0⟩

private def exTurn (l : Layout) (rank : Nat) (calls : List Queue.Call) : Turn :=
  ⟨⟨Hash.hxhimHash .sumMod rank l.total, 10, 0, l.totalRangeServers⟩, exNet l rank, calls⟩

private def exPutArg (s p o : UInt8) : Queue.Call := .put ⟨⟨16, [s], 7⟩, ⟨32, [p], 7⟩, ⟨48, [o], 7⟩, 1⟩
private def exOpArg (op : Nat) (s p : UInt8) (n : Nat) : Queue.Call := .getop ⟨⟨64, [s], 7⟩, ⟨80, [p], 7⟩, 7, n, op⟩

/-- Statuses, subjects, predicates and objects of the results of the last turn. -/
private def exLast (b : Backend) (l : Layout) (turns : List Turn) : Out (List (Int × Bytes × Bytes × Bytes)) :=
  let data : Datum → Bytes := fun | .own b => b.bytes | _ => []
  run exCb 100 l.total (exWorld b) turns >>= fun x =>
  .ok ((x.2.getLastD Results.create).items.map (fun r => (r.status, data r.subject, data r.predicate, data r.object)))

/-- Two ranks. Rank 0 PUTs triples into both datastores, rank 1 overwrites one and DELETEs another,
rank 0 asks for what is behind a pair. -/
private def exTurns : List Turn :=
  [exTurn ⟨2, 1, 1, 1⟩ 0 [exPutArg 1 2 3, exPutArg 1 3 4, exPutArg 1 4 5, exPutArg 3 2 6, exPutArg 1 6 7],
    exTurn ⟨2, 1, 1, 1⟩ 1 [exPutArg 1 4 8, .del ⟨⟨16, [1], 7⟩, ⟨32, [6], 7⟩⟩]]

private def exFinal : Turn := exTurn ⟨2, 1, 1, 1⟩ 0 [exOpArg 1 1 4 5, exOpArg 0 1 2 1, exOpArg 4 1 2 1]

example : exLast .level ⟨2, 1, 1, 1⟩ (exTurns ++ [exFinal]) = .ok [(hxSuccess, [1], [4], [8]), (hxSuccess, [3], [2], [6]),
    (hxSuccess, [1], [2], [3]), (hxSuccess, [3], [2], [6])] := by decide +kernel


private theorem exOps : ∀ y ∈ exTurns ++ [exFinal], ∃ rank < 2, ∃ calls ops, y = exTurn ⟨2, 1, 1, 1⟩ rank calls ∧
    turnOps (Hash.hxhimHash .sumMod 0 2) y = ops ∧ ops.all (fun o => match o with
      | .put s p o => [s, p, o].all (fun b => b.addr ≠ 0 && b.addr < 2 ^ 64 && b.bytes.length == 1 && b.typ == 7)
      | .getop op s p ty n => [s, p].all (fun b => b.addr ≠ 0 && b.addr < 2 ^ 64 && b.bytes.length == 1 && b.typ == 7) &&
          op < 2 ^ 32 && ty < 2 ^ 32 && n < 2 ^ 64
      | .del s p => [s, p].all (fun b => b.addr ≠ 0 && b.addr < 2 ^ 64 && b.bytes.length == 1 && b.typ == 7)
      | _ => false) = true := by
  intro y hy
  simp only [exTurns, List.cons_append, List.nil_append, List.mem_cons, List.not_mem_nil, or_false] at hy
  rcases hy with rfl | rfl | rfl
  · exact ⟨0, by decide, _, _, rfl, rfl, by decide +kernel⟩
  · exact ⟨1, by decide, _, _, rfl, rfl, by decide +kernel⟩
  · exact ⟨0, by decide, _, _, rfl, rfl, by decide +kernel⟩

private theorem exSent {b : Blob} (h : (b.addr ≠ 0 && b.addr < 2 ^ 64 && b.bytes.length == 1 && b.typ == 7) = true) :
    PlainSent b ∧ b.bytes ≠ [] := by
  simp only [Bool.and_eq_true, decide_eq_true_eq, beq_iff_eq, ne_eq] at h
  obtain ⟨⟨⟨h1, h2⟩, h3⟩, h4⟩ := h
  have hne : b.bytes ≠ [] := fun hc => by rw [hc] at h3; cases h3
  refine ⟨⟨⟨by rw [h4]; decide, by rw [h3]; decide, ?_, ?_⟩, h1, h2, Or.inl hne⟩, hne⟩
  · intro ty hty
    rw [h4] at hty
    exact absurd hty (by show intType tByte ≠ some ty; intro h; cases h)
  · rw [h4]; decide

/-- The hypotheses of `C61_partial` for these turns. -/
example (b : Backend) : FreshWorld (exWorld b) ∧ Apart ((List.range 2).map (Layout.dsToRank ⟨2, 1, 1, 1⟩)) (exWorld b) ∧
    Backed b (exWorld b) ∧ (∀ y ∈ exTurns ++ [exFinal],
      TurnOk exCb (plainTransform 0x2f 0x3a exFloat) (Hash.hxhimHash .sumMod 0 2) ((List.range 2).map (Layout.dsToRank ⟨2, 1, 1, 1⟩)) y ∧
      PutsGiven (turnOps (Hash.hxhimHash .sumMod 0 2) y) ∧
      GetOpsOk exCb (plainTransform 0x2f 0x3a exFloat) (turnOps (Hash.hxhimHash .sumMod 0 2) y)) ∧
    ∀ y ∈ getOps (turnOps (Hash.hxhimHash .sumMod 0 2) exFinal), Arrives (plainTransform 0x2f 0x3a exFloat) exCb.neg b (Hash.hxhimHash .sumMod 0 2)
      (turnsEvents (plainTransform 0x2f 0x3a exFloat).accepts (Hash.hxhimHash .sumMod 0 2) exTurns ++
        storedPuts (plainTransform 0x2f 0x3a exFloat).accepts (turnOps (Hash.hxhimHash .sumMod 0 2) exFinal)) y := by
  refine ⟨⟨?_, fun _ => rfl⟩, ?_, ?_, ?_, ?_⟩
  · intro rank d hd
    rw [show d = exDs b [] from List.mem_singleton.mp hd]
    exact ⟨rfl, rfl⟩
  · intro rank ds ds' h1 h2 h3
    have get : ∀ ds : Nat, ((List.range 2).map (Layout.dsToRank ⟨2, 1, 1, 1⟩))[ds]? = some rank → (ds : Int) = rank := by
      intro ds h
      match ds with
      | 0 => cases h; rfl
      | 1 => cases h; rfl
      | n + 2 => cases h
    have := get ds h1
    have := get ds' h2
    omega
  · intro rank d hd
    rw [show d = exDs b [] from List.mem_singleton.mp hd]
    rfl
  · intro y hy
    obtain ⟨rank, hr, calls, ops', rfl, hops, hall⟩ := exOps y hy
    rw [List.all_eq_true] at hall
    have plain : ∀ o ∈ ops', PlainOp o ∧ (∀ s p o', o = .put s p o' → s.bytes ≠ [] ∧ p.bytes ≠ []) := by
      intro o ho
      have h := hall o ho
      cases o with
      | put s p o =>
        simp only [List.all_cons, List.all_nil, Bool.and_true, Bool.and_eq_true (_ && _ && _ && _)] at h
        obtain ⟨h1, h2, h3⟩ := h
        refine ⟨⟨(exSent h1).1, (exSent h2).1, (exSent h3).1, (exSent h3).2⟩, ?_⟩
        intro s' p' o' he
        cases he
        exact ⟨(exSent h1).2, (exSent h2).2⟩
      | get s p n => cases h
      | getop op s p ty n =>
        simp only [List.all_cons, List.all_nil, Bool.and_true] at h
        rw [Bool.and_eq_true, Bool.and_eq_true, Bool.and_eq_true, Bool.and_eq_true] at h
        obtain ⟨⟨⟨⟨h1, h2⟩, h3⟩, h4⟩, h5⟩ := h
        refine ⟨⟨(exSent h1).1, (exSent h2).1, of_decide_eq_true h3, of_decide_eq_true h4, of_decide_eq_true h5⟩, ?_⟩
        intro s' p' o' he
        cases he
      | del s p =>
        simp only [List.all_cons, List.all_nil, Bool.and_true, Bool.and_eq_true (_ && _ && _ && _)] at h
        refine ⟨⟨(exSent h.1).1, (exSent h.2).1⟩, ?_⟩
        intro s' p' o' he
        cases he
      | hist rs name => cases h
    refine ⟨?_, ?_, ?_⟩
    · refine C48_thallium_sessions (neg := 0x2f) (pos := 0x3a) ⟨by decide, by decide⟩ exFloat ⟨2, 1, 1, 1⟩ (by decide) ⟨rfl, Or.inl (Nat.le_refl _)⟩ .sumMod (by decide) rank (by omega) []
        (Or.inl rfl) id _ 4096 (by decide) _ 10 0 2 (by decide) calls ?_
      intro c hc o ho
      refine (plain o ?_).1
      rw [← hops]
      exact List.mem_flatMap.mpr ⟨c, hc, ho⟩
    · intro s p o ho
      rw [hops] at ho
      exact (plain _ ho).2 _ _ _ rfl
    · intro x hx h3 h4
      obtain ⟨o, ho, he⟩ := List.mem_filterMap.mp hx
      rw [hops] at ho
      cases o <;> simp only [Option.some.injEq] at he <;> try cases he
      obtain ⟨h1, h2, -⟩ := (plain _ ho).1
      exact ⟨(plain_keyOk ⟨by decide, by decide⟩ exFloat h1.1).enc, (plain_keyOk ⟨by decide, by decide⟩ exFloat h2.1).enc⟩
  · have e : getOps (turnOps (Hash.hxhimHash .sumMod 0 2) exFinal) =
        [⟨1, ⟨64, [1], 7⟩, ⟨80, [4], 7⟩, 7, 5⟩, ⟨0, ⟨64, [1], 7⟩, ⟨80, [2], 7⟩, 7, 1⟩, ⟨4, ⟨64, [1], 7⟩, ⟨80, [2], 7⟩, 7, 1⟩] := by decide +kernel
    rw [e]
    intro y hy
    simp only [List.mem_cons, List.not_mem_nil, or_false] at hy
    rcases hy with rfl | rfl | rfl
    · exact Or.inl ⟨by decide, by decide, by simp, by simp⟩
    · exact Or.inl ⟨by decide, by decide, by simp, by simp⟩
    · refine Or.inr fun ds all hh hc => ?_
      have hds : ds = 1 := by
        have : home (Hash.hxhimHash .sumMod 0 2) ⟨64, [1], 7⟩ ⟨80, [2], 7⟩ = some 1 := by decide +kernel
        rw [this] at hh
        cases hh; rfl
      subst hds
      have hl : lastObj ⟨[3], 7⟩ ⟨[2], 7⟩ (inStore (Hash.hxhimHash .sumMod 0 2) 1
          (turnsEvents (plainTransform 0x2f 0x3a exFloat).accepts (Hash.hxhimHash .sumMod 0 2) exTurns ++
            storedPuts (plainTransform 0x2f 0x3a exFloat).accepts (turnOps (Hash.hxhimHash .sumMod 0 2) exFinal))) = some ⟨[6], 7⟩ := by
        decide +kernel
      have hm := (hc.mem _ _ _).mpr hl
      show (if all = [] then none else some (all.reverse.take 1)) ≠ none
      rw [if_neg (fun h0 => by rw [h0] at hm; cases hm)]
      simp

/-- C61 is false for FIRST on an empty datastore of another rank: undefined when there is another GETOP
behind it in the packet. On the rank itself there are two errors. -/
theorem C61_first_ub :
    exLast .level ⟨2, 1, 1, 1⟩ [exTurn ⟨2, 1, 1, 1⟩ 0 [exOpArg 3 1 2 5, exOpArg 1 1 2 1]] = .ub ∧
    exLast .level ⟨2, 1, 1, 1⟩ [exTurn ⟨2, 1, 1, 1⟩ 1 [exOpArg 3 1 2 5, exOpArg 1 1 2 1]] =
      .ok [(hxError, [1], [2], []), (hxError, [1], [2], [])] := by
  refine ⟨by decide +kernel, by decide +kernel⟩


/-- A BPUT of one triple with an empty predicate. -/
private def exEmpty : Queue.Call := .bput true [⟨⟨16, [1], 7⟩, ⟨32, [], 7⟩, ⟨48, [2], 7⟩, 1⟩]

/-- C61 is false for GETOPs that find a triple with an empty predicate: on another rank the object comes
back as the predicate. On the rank itself the triple is right. -/
theorem C61_empty_false :
    exLast .level ⟨2, 1, 1, 1⟩ [exTurn ⟨2, 1, 1, 1⟩ 1 [exEmpty], exTurn ⟨2, 1, 1, 1⟩ 0 [exOpArg 3 1 2 1]] =
      .ok [(hxSuccess, [1], [2], [])] ∧
    exLast .level ⟨2, 1, 1, 1⟩ [exTurn ⟨2, 1, 1, 1⟩ 1 [exEmpty], exTurn ⟨2, 1, 1, 1⟩ 1 [exOpArg 3 1 2 1]] =
      .ok [(hxSuccess, [1], [], [2])] := by
  refine ⟨by decide +kernel, by decide +kernel⟩

end Hx.Props

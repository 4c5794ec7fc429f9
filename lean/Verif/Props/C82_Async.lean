import Verif.Props.C81_AsyncOverlap
import Verif.Props.C82_HistJob

/-!
# C82 with asynchronous PUTs
-/

namespace Hx.Props
open Hx Msg Spec Process Store Results Session Async AsyncOverlap Spec.AsyncOverlap Job AsyncJob

variable {n : Nat}

/-- C82 with asynchronous PUTs, partial: turns overlap in time, below the limit, and the threads of all ranks take their steps in any
order. Every histogram request of every turn has one result: the histogram with the numbers of the PUTs that reported success, as in
`C82_overlap_partial`; a turn that begins when the other turns with numbers for the histogram have ended gets all of them exactly once.
Missing: as `C81_explained_partial` and `C82_overlap_partial`. -/
theorem C82_async_partial (cb : Callbacks) (t : Transform) (hash : Bytes → Bytes → Out Int) (place : List Int) (heap : Nat)
    (hplace : place.length ≤ 2 ^ 31) (b : Session.Backend (List Served)) (hserve : b.serve = replay) (env : Fin n → Env)
    (p : Fin n → Priv) (w w' : World) (S : Fin n → St (List Served)) (trace : List (Event n)) (hw : EmptyWorld w) (ha : Apart place w)
    (hnew : NewHists w) (hopen : ∀ i, Opened b (env i) place.length (p i) (S i))
    (hbelow : ∀ x ∈ AsyncOverlap.turnsOf trace, BelowLimit env p x.1 x.2.1)
    (hturns : ∀ y ∈ jobTurns env p trace, TurnOk cb t hash place y)
    (hcount : ∀ ds name, histAt place w ds name ≠ none → (loggedNumbers ds name (logOf trace)).length < 2 ^ 64) (h : Trace cb heap b env w S trace w') :
    ∃ f : Nat → Outcomes, ToldBy hash (jobTurns env p trace) (jobResults trace) f ∧
      ∀ i x r, (jobTurns env p trace)[i]? = some x → (jobResults trace)[i]? = some r →
        ∃ qs, qs.Perm (histOps (turnOps hash x)) ∧
          List.Forall₂ (fun q z => ∃ before y after,
            HistAnswered hash (jobTurns env p trace).length f (logOf trace) i q before y after ∧
            HistReturned (histAt place w q.1 q.2.bytes) (loggedNumbers q.1 q.2.bytes before) z ∧
            ((∀ k < (jobTurns env p trace).length, k ≠ i → Before trace k i ∨ toldNumbers hash q.1 q.2.bytes (f k).puts = []) →
              (loggedNumbers q.1 q.2.bytes before).Perm
                ((List.range (jobTurns env p trace).length).flatMap (fun k => toldNumbers hash q.1 q.2.bytes (f k).puts)))) qs
            (r.items.filter (fun y => decide (y.kind = .hist))) := by
  obtain ⟨rs, h1, h2, h3, -⟩ := C81_overlap cb heap place.length b hserve env p w w' S trace hopen hbelow h
  obtain ⟨f, h4, h5⟩ := C82_overlap_partial cb t hash place heap hplace _ w w' _ rs hw ha hnew hturns h1 hcount
  refine ⟨f, told_items h2 h4, fun i x r hx hr => ?_⟩
  obtain ⟨r', hr', hi⟩ := same_items h2 hr
  rw [← hi]
  obtain ⟨qs, hq, h6⟩ := h5 i x r' hx hr'
  refine ⟨qs, hq, h6.imp ?_⟩
  rintro q z ⟨before, y, after, hans, hret⟩
  exact ⟨before, y, after, hans, hret, fun hfin => hans.complete (fun k hk hki => (hfin k hk hki).imp (h3 k i) id)⟩

/-! ### An example -/

open C82Ex

namespace C82Ex

/-- Two ranks with one datastore each; the background thread starts by itself at four PUTs. -/
def priv (rank : Fin 2) : Priv := { Priv.new with
  opts := { Config.Opts.new with
    running := true, comm := .world (some 2), clientRatio := 1, serverRatio := 1, perServer := 1
    hashFunc := some (.builtin .sumMod), asyncEnabled := true, asyncMax := 4, maxOps := 10, maxSize := 0 }
  rank := rank, size := 2, servers := 2, total := 2, ids := [rank]
  transport := .thallium (thalliumEndpoints ⟨2, 1, 1, 1⟩ rank []), dsToRank := (net rank).dsToRank
  queues := Queue.Queues.init 2, thread := true }

/-- Requests get the responses of the log; the datastores are there. -/
def backend : Session.Backend (List Served) :=
  ⟨replay, fun s _ _ _ => some s, fun s _ _ => (s, 0), fun s _ _ _ => s, fun s _ _ => s⟩

theorem defined_of {log : List Served} {k : Nat} {x : Turn} {r : Results} {i : Fin 2} {part : List Served}
    (h : outcome log k x = .ok r) (hp : partOf k log = part) (hx : x = callsOf (fun _ => C77Ex.env) priv i x.calls) :
    Defined (fun _ => C77Ex.env) priv 2 i (x.calls, part) := by
  unfold outcome at h
  obtain ⟨q, hq, h⟩ := ok_iff.mp h
  obtain ⟨y, hy, h⟩ := ok_iff.mp h
  split at h
  · rename_i he
    have he : y.1 = [] := by simpa using he
    rw [hx] at hq hy
    refine ⟨q, y.2.2, y.2.1, hq, ?_⟩
    rw [← he]
    exact hp ▸ hy
  · cases h

theorem five {log : List Served} (h : log.length = 5) : ∃ y0 y1 y2 y3 y4, log = [y0, y1, y2, y3, y4] :=
  match log, h with
  | [y0, y1, y2, y3, y4], _ => ⟨y0, y1, y2, y3, y4, rfl⟩

end C82Ex

/-- Two ranks that are opened take the turns of the example above at the same time. (`EmptyWorld`, `Apart`, `NewHists` and `TurnOk` are
`world_empty`, `world_apart`, `world_new` and `turns_ok`.) -/
example : ∃ S : Fin 2 → St (List Served), (∀ i, Opened backend C77Ex.env 2 (C82Ex.priv i) (S i)) ∧
    ∃ (trace : List (Event 2)) (w' : World), Trace exCbF 100 backend (fun _ => C77Ex.env) world S trace w' ∧
      (∀ x ∈ AsyncOverlap.turnsOf trace, BelowLimit (fun _ => C77Ex.env) C82Ex.priv x.1 x.2.1) ∧
      jobTurns (fun _ => C77Ex.env) C82Ex.priv trace = [flushA, flushB] ∧ (logOf trace).map (·.turn) = [0, 1, 0, 1, 1] ∧
      (∀ ds name, (loggedNumbers ds name (logOf trace)).length < 2 ^ 64) ∧ loggedNumbers 1 [104] (logOf trace) = [d1, d3] := by
  have hopen : ∀ i, ∃ st, Opened backend C77Ex.env 2 (C82Ex.priv i) st := by
    intro i
    have h : ∀ i, (match C32Ex.play backend C77Ex.env C32Ex.opening (start [] (C82Ex.priv i) []) with
        | some (.ok st) => (match st.user with | .idle => true | _ => false)
        | _ => false) = true := by decide +kernel
    have h := h i
    split at h
    · rename_i st hst
      split at h
      · rename_i hu
        exact ⟨st, ⟨rfl, rfl, rfl, rfl, by simp [C82Ex.priv, Queue.Queues.init], rfl⟩, rfl, rfl, by show 0 < 4; decide,
          ⟨_, _, C32Ex.run_of_play _ _ _ _ _ hst⟩, hu⟩
      · cases h
    · cases h
  choose S hS using hopen
  refine ⟨S, hS, ?_⟩
  have h := all_eq
  unfold C82Ex.all at h
  obtain ⟨⟨log, w'⟩, hx, h⟩ := ok_iff.mp h
  obtain ⟨a, ha, h⟩ := ok_iff.mp h
  obtain ⟨b, hb, h⟩ := ok_iff.mp h
  have h4 := (Prod.mk.inj (Out.ok.inj h)).2
  simp only [List.cons.injEq, and_true] at h4
  obtain ⟨h1, h2, h5⟩ := C82Ex.play_executes _ hx
  have hcount : ∀ ds name, (loggedNumbers ds name log).length < 2 ^ 64 := fun ds name => by
    have := logged_length ds name log
    rw [h5] at this
    exact lt_of_le_of_lt this (by decide)
  have h2 : log.map (·.turn) = [0, 1, 0, 1, 1] := h2
  obtain ⟨y0, y1, y2, y3, y4, rfl⟩ : ∃ y0 y1 y2 y3 y4, log = [y0, y1, y2, y3, y4] := by
    refine five ?_
    rw [← List.length_map, h2]
    rfl
  simp only [List.map_cons, List.map_nil, List.cons.injEq, and_true] at h2
  obtain ⟨e0, e1, e2, e3, e4⟩ := h2
  have bA : BelowLimit (fun _ => C77Ex.env) C82Ex.priv 0 flushA.calls := by unfold BelowLimit; decide +kernel
  have bB : BelowLimit (fun _ => C77Ex.env) C82Ex.priv 1 flushB.calls := by unfold BelowLimit; decide +kernel
  have dA := defined_of (i := 0) ha (part := [y0, y2]) (by simp [partOf, e0, e1, e2, e3, e4]) rfl
  have dB := defined_of (i := 1) hb (part := [y1, y3, y4]) (by simp [partOf, e0, e1, e2, e3, e4]) rfl
  have runs := C81_runs 2 backend rfl (fun _ => C77Ex.env) C82Ex.priv S hS
  obtain ⟨r0, l0, a0⟩ := runs 0 [(flushA.calls, [y0, y2])]
    (by rintro x hx; rw [List.mem_singleton.mp hx]; exact bA) (by rintro x hx; rw [List.mem_singleton.mp hx]; exact dA)
  obtain ⟨r1, l1, a1⟩ := runs 1 [(flushB.calls, [y1, y3, y4])]
    (by rintro x hx; rw [List.mem_singleton.mp hx]; exact bB) (by rintro x hx; rw [List.mem_singleton.mp hx]; exact dB)
  match r0, l0, r1, l1 with
  | [rA], _, [rB], _ =>
    have hlog : logOf [.begins 0 flushA.calls, .begins 1 flushB.calls, .serves (0 : Fin 2) y0, .serves 1 y1, .serves 0 y2, .ends 0 rA,
      .serves 1 y3, .serves 1 y4, .ends 1 rB] = [y0, y1, y2, y3, y4] := rfl
    refine ⟨[.begins 0 flushA.calls, .begins 1 flushB.calls, .serves 0 y0, .serves 1 y1, .serves 0 y2, .ends 0 rA, .serves 1 y3,
      .serves 1 y4, .ends 1 rB], w', ⟨h1, ?_, ?_⟩, ?_, rfl, ?_, ?_, ?_⟩
    · simp [AsyncOverlap.numbered, AsyncOverlap.put, e0, e1, e2, e3, e4]
    · intro i
      match i with
      | 0 => exact a0
      | 1 => exact a1
    · intro x hx
      simp only [AsyncOverlap.turnsOf, List.mem_cons, List.not_mem_nil, or_false] at hx
      rcases hx with rfl | rfl
      · exact bA
      · exact bB
    · rw [hlog]; simp [e0, e1, e2, e3, e4]
    · rw [hlog]; exact hcount
    · rw [hlog]; exact h4.2

end Hx.Props

import Verif.Proofs.AsyncOverlap
import Verif.Spec.AsyncOverlap
import Verif.Props.C77_AsyncJob
import Verif.Props.C78_OverlapFail
import Verif.Props.C79_GetOpFail

/-!
# C81: ranks with asynchronous PUTs whose flushes overlap in time

As long as the PUTs of a turn stay below the limit, whatever the background threads do and whatever is going on at the same
time, ranks see of each other what they would see without asynchronous PUTs (C78, C79).
-/

namespace Hx.Props
open Hx Msg Spec Process Store Results Session Async AsyncOverlap Spec.AsyncOverlap Job AsyncJob

private theorem exists_list {α : Type} {P : Nat → α → Prop} (N : Nat) (h : ∀ m < N, ∃ a, P m a) :
    ∃ l : List α, l.length = N ∧ ∀ m a, l[m]? = some a → P m a := by
  induction N with
  | zero => exact ⟨[], rfl, fun m a hm => by simp at hm⟩
  | succ N ih =>
    obtain ⟨l, h1, h2⟩ := ih (fun m hm => h m (by omega))
    obtain ⟨a, ha⟩ := h N (by omega)
    refine ⟨l ++ [a], by simp [h1], fun m x hm => ?_⟩
    by_cases hml : m < l.length
    · rw [List.getElem?_append_left hml] at hm; exact h2 m x hm
    · have hmN : m = N := by
        have := (List.getElem?_eq_some_iff.mp hm).1
        simp only [List.length_append, List.length_singleton] at this
        omega
      rw [hmN, List.getElem?_append_right (by omega)] at hm
      simp [h1] at hm
      rw [hmN, ← hm]
      exact ha

variable {n : Nat}

private theorem at_rest {b : Session.Backend (List Served)} {env : Fin n → Env} {total : Nat} {p : Fin n → Priv}
    {S : Fin n → St (List Served)} (h : ∀ i, Opened b (env i) total (p i) (S i)) (i : Fin n) : Rest (env i) total (p i) (S i) := by
  obtain ⟨s, acts, hr⟩ := (h i).opening
  exact (opened_rest (h i).starting.enabled (h i).starting.running (h i).starting.kept (h i).queues (h i).servers (h i).limit hr
    (h i).idle).1

/-- The turns without their results. -/
def jobTurns (env : Fin n → Env) (p : Fin n → Priv) (trace : List (Event n)) : List Turn :=
  (AsyncOverlap.turnsOf trace).map (fun x => callsOf env p x.1 x.2.1)

/-- What `Flush` returned in the turns. -/
def jobResults (trace : List (Event n)) : List Results := (AsyncOverlap.turnsOf trace).map (fun x => joined x.2.2)

/-- C81: ranks with asynchronous PUTs take turns that overlap in time, below the limit, and the threads of all ranks take their
steps in any order. The requests are those of the same turns without asynchronous PUTs, in an order that is possible without
(`Overlap`), every turn returns the same results, no request is executed outside of its turn, and turns of one rank do not overlap. -/
theorem C81_overlap (cb : Callbacks) (heap total : Nat) (b : Session.Backend (List Served)) (hserve : b.serve = replay)
    (env : Fin n → Env) (p : Fin n → Priv) (w w' : World) (S : Fin n → St (List Served)) (trace : List (Event n))
    (hopen : ∀ i, Opened b (env i) total (p i) (S i))
    (hbelow : ∀ x ∈ AsyncOverlap.turnsOf trace, BelowLimit env p x.1 x.2.1) (h : Trace cb heap b env w S trace w') :
    ∃ rs, Overlap cb heap total w (jobTurns env p trace) (logOf trace) w' rs ∧
      rs.map (fun r => r.items) = (jobResults trace).map (fun r => r.items) ∧
      (∀ a c, Before trace a c → Finished (logOf trace) a c) ∧
      (∀ (a c : Nat) x y, (AsyncOverlap.turnsOf trace)[a]? = some x → (AsyncOverlap.turnsOf trace)[c]? = some y → x.1 = y.1 → a < c →
        Finished (logOf trace) a c) := by
  have hok := trace_ok hserve (fun i => (hopen i).servers) (at_rest hopen) (fun i calls hm => by
    obtain ⟨told, ht⟩ := AsyncOverlap.mem_turnsOf hm
    exact hbelow _ ht) h
  obtain ⟨-, hB⟩ := hok.parts
  obtain ⟨rs, h1, h2⟩ := exists_list (P := fun m r => ∀ x, (AsyncOverlap.turnsOf trace)[m]? = some x →
    turnOn total (partOf m (logOf trace)) (callsOf env p x.1 x.2.1) r ∧ r.items = x.2.2.flatMap (fun y => y.items))
    (AsyncOverlap.turnsOf trace).length (fun m hm => by
      obtain ⟨r, h3, h4⟩ := hB m _ (List.getElem?_eq_getElem hm)
      rw [Nat.zero_add] at h3
      refine ⟨r, fun x hx => ?_⟩
      rw [List.getElem?_eq_getElem hm] at hx
      cases hx
      exact ⟨h3, h4⟩)
  refine ⟨rs, ⟨h.executes, fun y hy => ?_, by rw [h1, jobTurns, List.length_map], fun i x r hi hr => ?_⟩, ?_, ?_, ?_⟩
  · rcases hok.labels _ y hy with ⟨i, hi⟩ | ⟨-, hi⟩
    · cases hi
    · rw [jobTurns, List.length_map]; omega
  · rw [jobTurns, List.getElem?_map] at hi
    obtain ⟨y, hy, rfl⟩ := Option.map_eq_some_iff.mp hi
    exact (h2 i r hr y hy).1
  · apply List.ext_getElem?
    intro m
    rw [List.getElem?_map, List.getElem?_map, jobResults, List.getElem?_map]
    by_cases hm : m < rs.length
    · rw [List.getElem?_eq_getElem hm, List.getElem?_eq_getElem (h1 ▸ hm)]
      have := (h2 m _ (List.getElem?_eq_getElem hm) _ (List.getElem?_eq_getElem (h1 ▸ hm))).2
      simp only [Option.map_some, this, joined_items]
    · rw [List.getElem?_eq_none (by omega), List.getElem?_eq_none (by omega)]
      rfl
  · rintro a c ⟨t, i, calls, u, told, v, rfl, rfl, hc⟩
    rw [turnsOf_append_begins] at hc
    exact hok.finished (fun _ _ _ => Or.inr ⟨told, v, rfl⟩) hc
  · intro a c x y ha hc hxy hac
    exact hok.sameRank ha hc hxy hac

/-! ### What ranks see of each other -/

/-- What the turns were told depends on the results only. -/
theorem told_items {hash : Bytes → Bytes → Out Int} {turns : List Turn} {rs rs' : List Results} {f : Nat → Outcomes}
    (h : rs.map (fun r => r.items) = rs'.map (fun r => r.items)) (ht : ToldBy hash turns rs f) : ToldBy hash turns rs' f := by
  intro k x r' hx hr'
  have hk : (rs.map (fun r => r.items))[k]? = some r'.items := by rw [h, List.getElem?_map, hr']; rfl
  rw [List.getElem?_map] at hk
  obtain ⟨r, hr, hi⟩ := Option.map_eq_some_iff.mp hk
  obtain ⟨h1, h2⟩ := ht k x r hx hr
  exact ⟨⟨h1.all, hi ▸ h1.results, h1.reports, hi ▸ h1.order⟩, ⟨h2.all, hi ▸ h2.results, h2.reports, hi ▸ h2.order⟩⟩

theorem same_items {rs rs' : List Results} (h : rs.map (fun r => r.items) = rs'.map (fun r => r.items)) {k : Nat} {r' : Results}
    (hr : rs'[k]? = some r') : ∃ r, rs[k]? = some r ∧ r.items = r'.items := by
  have hk : (rs.map (fun r => r.items))[k]? = some r'.items := by rw [h, List.getElem?_map, hr]; rfl
  rw [List.getElem?_map] at hk
  exact Option.map_eq_some_iff.mp hk

/-- C81 for all GETs, partial: starting with empty datastores, and with any of the writes failing, every PUT and DELETE of every
turn has one result (`ToldBy`), and the result of every GET is explained by a change of the pair that reported success and can be the
latest one, given which turns ended before others began. Missing: more PUTs than the limit (`C32`), more datastores than range
servers (`C32_more_datastores_ub`), and as `C78_gets_partial` except for asynchronous PUTs. -/
theorem C81_explained_partial (cb : Callbacks) (t : Transform) (hash : Bytes → Bytes → Out Int) (place : List Int) (heap : Nat)
    (hheap : heap ≠ 0 ∧ heap < 2 ^ 64) (hplace : place.length ≤ 2 ^ 31) (b : Session.Backend (List Served)) (hserve : b.serve = replay)
    (env : Fin n → Env) (p : Fin n → Priv) (w w' : World) (S : Fin n → St (List Served)) (trace : List (Event n)) (hw : EmptyWorld w)
    (hopen : ∀ i, Opened b (env i) place.length (p i) (S i))
    (hbelow : ∀ x ∈ AsyncOverlap.turnsOf trace, BelowLimit env p x.1 x.2.1)
    (hturns : ∀ y ∈ jobTurns env p trace, TurnOk cb t hash place y) (h : Trace cb heap b env w S trace w') :
    (∀ a c, Before trace a c → Finished (logOf trace) a c) ∧
    ∃ f : Nat → Outcomes, ToldBy hash (jobTurns env p trace) (jobResults trace) f ∧
      ∀ i x r, (jobTurns env p trace)[i]? = some x → (jobResults trace)[i]? = some r →
        ∃ gs, gs.Perm (getPairs (turnOps hash x)) ∧
          List.Forall₂ (ExplainedTold t (jobTurns env p trace).length f (logOf trace) i) gs
            (r.items.filter (fun y => decide (y.kind = .get))) := by
  obtain ⟨rs, h1, h2, h3, -⟩ := C81_overlap cb heap place.length b hserve env p w w' S trace hopen hbelow h
  obtain ⟨f, h4, h5⟩ := C78_explained_partial cb t hash place heap hheap hplace _ w w' _ rs hw hturns h1
  refine ⟨h3, f, told_items h2 h4, fun i x r hx hr => ?_⟩
  obtain ⟨r', hr', hi⟩ := same_items h2 hr
  rw [← hi]
  exact h5 i x r' hx hr'

/-- C81 for all GETOPs, partial, likewise, as `C79_overlap_partial`. Missing: as `C81_explained_partial` and `C79_overlap_partial`. -/
theorem C81_getops_partial (cb : Callbacks) (t : Transform) (hash : Bytes → Bytes → Out Int) (place : List Int) (heap : Nat)
    (hheap : heap ≠ 0 ∧ heap < 2 ^ 64) (hplace : place.length ≤ 2 ^ 31) (B : Backend) (b : Session.Backend (List Served))
    (hserve : b.serve = replay) (env : Fin n → Env) (p : Fin n → Priv) (w w' : World) (S : Fin n → St (List Served))
    (trace : List (Event n)) (hw : EmptyWorld w) (ha : Apart place w) (hb : Backed B w)
    (hopen : ∀ i, Opened b (env i) place.length (p i) (S i))
    (hbelow : ∀ x ∈ AsyncOverlap.turnsOf trace, BelowLimit env p x.1 x.2.1)
    (hturns : ∀ y ∈ jobTurns env p trace, TurnOk cb t hash place y)
    (hgiven : ∀ y ∈ jobTurns env p trace, PutsGiven (turnOps hash y)) (h : Trace cb heap b env w S trace w') :
    ∃ f : Nat → Outcomes, ToldBy hash (jobTurns env p trace) (jobResults trace) f ∧
      ∀ i x r, (jobTurns env p trace)[i]? = some x → (jobResults trace)[i]? = some r → GetOpsOk cb t (turnOps hash x) →
        (∀ g ∈ getOps (turnOps hash x), ∀ before y after, logOf trace = before ++ y :: after → y.turn = i →
          Arrives t cb.neg B hash (before.flatMap (fun y => done t.accepts y.req.body y.res.body)) g) →
        ∃ gs groups, gs.Perm (getOps (turnOps hash x)) ∧ r.items.filter (fun y => decide (y.kind = .getop)) = groups.flatten ∧
          List.Forall₂ (fun g z => ∃ before y after,
            OpAnsweredTold t.accepts hash (jobTurns env p trace).length f (logOf trace) i g before y after ∧
            ReturnedOp t cb.neg B hash (before.flatMap (fun y => done t.accepts y.req.body y.res.body)) g z) gs groups := by
  obtain ⟨rs, h1, h2, -⟩ := C81_overlap cb heap place.length b hserve env p w w' S trace hopen hbelow h
  obtain ⟨f, h4, h5⟩ := C79_overlap_partial cb t hash place heap hheap hplace B _ w w' _ rs hw ha hb hturns hgiven h1
  refine ⟨f, told_items h2 h4, fun i x r hx hr hops harr => ?_⟩
  obtain ⟨r', hr', hi⟩ := same_items h2 hr
  rw [← hi]
  exact h5 i x r' hx hr' hops harr

/-- C81, partial: turn `a` PUTs `(s, p, o)` (its last PUT of that pair, without a DELETE of it), the results with those references
report success, and it ends before turn `c` of any rank begins. Every other turn has no PUT or DELETE of the pair, or all its PUTs
and DELETEs failed, or it ends before `a` begins, or begins when `c` has ended; all other turns may overlap in any way, and the
background threads do whatever they do. Then the GET of the pair in `c` has `o`. Missing: as `C81_explained_partial`. -/
theorem C81_partial (cb : Callbacks) (t : Transform) (hash : Bytes → Bytes → Out Int) (place : List Int) (heap : Nat)
    (hheap : heap ≠ 0 ∧ heap < 2 ^ 64) (hplace : place.length ≤ 2 ^ 31) (b : Session.Backend (List Served)) (hserve : b.serve = replay)
    (env : Fin n → Env) (q : Fin n → Priv) (w w' : World) (S : Fin n → St (List Served)) (trace : List (Event n)) (hw : EmptyWorld w)
    (hopen : ∀ i, Opened b (env i) place.length (q i) (S i))
    (hbelow : ∀ x ∈ AsyncOverlap.turnsOf trace, BelowLimit env q x.1 x.2.1)
    (hturns : ∀ y ∈ jobTurns env q trace, TurnOk cb t hash place y) (h : Trace cb heap b env w S trace w')
    (a c : Nat) (xa xc : Turn) (ra rc : Results) (ha : (jobTurns env q trace)[a]? = some xa) (hc : (jobTurns env q trace)[c]? = some xc)
    (hra : (jobResults trace)[a]? = some ra) (hrc : (jobResults trace)[c]? = some rc) (hac : Before trace a c)
    (s p o s' p' : Blob) (ty : Nat) (first last : List Op)
    (hput : turnOps hash xa = first ++ Op.put s p o :: last) (hlast : ∀ y ∈ last, ¬ Writes s.val p.val y)
    (hdel : ∀ s₁ p₁, Op.del s₁ p₁ ∈ first → ¬ (s₁.val = s.val ∧ p₁.val = p.val))
    (haccept : t.accepts s.val = true ∧ t.accepts p.val = true ∧ t.accepts o.val = true)
    (hstatus : ∀ y ∈ ra.items, y.kind = .put → y.subject = .ref ⟨s.addr, s.bytes.length, s.typ⟩ →
      y.predicate = .ref ⟨p.addr, p.bytes.length, p.typ⟩ → y.status = hxSuccess)
    (hothers : ∀ k x r, (jobTurns env q trace)[k]? = some x → (jobResults trace)[k]? = some r → k ≠ a → k ≠ c →
      Unchanged hash s.val p.val x r ∨ Before trace k a ∨ Before trace c k)
    (hown : (∀ s₁ p₁ o₁, Op.put s₁ p₁ o₁ ∈ turnOps hash xc → ¬ (s₁.val = s.val ∧ p₁.val = p.val)) ∨ NoneWritten rc)
    (hget : Op.get s' p' ty ∈ turnOps hash xc) (hsame : s'.val = s.val ∧ p'.val = p.val) :
    ∃ y ∈ rc.items, y.kind = .get ∧ y.subject = .ref ⟨s'.addr, s'.bytes.length, s'.typ⟩ ∧
      y.predicate = .ref ⟨p'.addr, p'.bytes.length, p'.typ⟩ ∧ y.status = hxSuccess ∧
      ∃ v : Blob, y.object = .own v ∧ v.bytes = t.R o.val ∧ v.typ = o.typ := by
  obtain ⟨rs, h1, h2, h3, -⟩ := C81_overlap cb heap place.length b hserve env q w w' S trace hopen hbelow h
  obtain ⟨ra', hra', ia⟩ := same_items h2 hra
  obtain ⟨rc', hrc', ic⟩ := same_items h2 hrc
  have hne : a ≠ c := by
    obtain ⟨t, i, calls, u, told, v, -, rfl, hl⟩ := hac
    rw [turnsOf_append_begins] at hl
    omega
  rw [← ic]
  refine C78_partial cb t hash place heap hheap hplace _ w w' _ rs hw hturns h1 a c xa xc ra' rc' ha hc hra' hrc' hne (h3 a c hac)
    s p o s' p' ty first last hput hlast hdel haccept (by rw [ia]; exact hstatus) ?_ ?_ hget hsame
  · intro k x r hx hr hka hkc
    obtain ⟨r', hr', ir⟩ := same_items h2.symm hr
    rcases hothers k x r' hx hr' hka hkc with h4 | h4 | h4
    · rcases h4 with h4 | h4
      · exact Or.inl (Or.inl h4)
      · exact Or.inl (Or.inr (fun y hy => h4 y (ir ▸ hy)))
    · exact Or.inr (Or.inl (h3 k a h4))
    · exact Or.inr (Or.inr (h3 c k h4))
  · rcases hown with h4 | h4
    · exact Or.inl h4
    · exact Or.inr (fun y hy => h4 y (ic ▸ hy))

/-! ### Turns can be taken -/

/-- A turn of the calls, with the responses `part`, is defined without asynchronous PUTs. -/
def Defined (env : Fin n → Env) (p : Fin n → Priv) (total : Nat) (i : Fin n) (x : List Queue.Call × List Served) : Prop :=
  ∃ q q' r, Queue.calls ((p i).cfg (env i)) true (Queue.Queues.init total) x.1 = .ok q ∧
    flush ((p i).net (env i)) replay x.2 q = .ok ([], r, q')

/-- C81: a rank can take all turns below the limit that are defined without asynchronous PUTs, whatever the responses are. -/
theorem C81_runs (total : Nat) (b : Session.Backend (List Served)) (hserve : b.serve = replay) (env : Fin n → Env) (p : Fin n → Priv)
    (S : Fin n → St (List Served)) (hopen : ∀ i, Opened b (env i) total (p i) (S i)) (i : Fin n)
    (turns : List (List Queue.Call × List Served)) (hbelow : ∀ x ∈ turns, BelowLimit env p i x.1)
    (hdef : ∀ x ∈ turns, Defined env p total i x) :
    ∃ told, told.length = turns.length ∧ Acts b (env i) i (S i) (blocks i (turns.zip told)) := by
  have hr := at_rest hopen i
  generalize S i = st at hr
  induction turns generalizing st with
  | nil => exact ⟨[], rfl, .nil (.refl _)⟩
  | cons x turns ih =>
    obtain ⟨q, q', r, hq, hf⟩ := hdef x (by simp)
    obtain ⟨st1, h1, h2, h3⟩ := turn_exists hserve hr (hbelow x (by simp)) hq hf
    obtain ⟨hr1, -⟩ := steps_turn hserve (hopen i).servers hr (hbelow x (by simp)) h1 h2 h3
    obtain ⟨told, h4, h5⟩ := ih (fun y hy => hbelow y (by simp [hy])) (fun y hy => hdef y (by simp [hy])) st1 hr1
    refine ⟨st1.told.drop st.told.length :: told, by simp [h4], ?_⟩
    have := Acts.turn (.refl st) h1 h2 h3 h5
    simpa [blocks] using this

/-! ### An example -/

open C76Ex C55Ex C77Ex

private def exOrder : List (Nat × Int × Req) :=
  let b (a : Nat) (x : UInt8) : Blob := ⟨a, [x], 7⟩
  [(0, 2, ⟨0, 2, .put [⟨b 4096 1, 16, b 4096 2, 32, b 4096 3⟩]⟩), (1, 2, ⟨1, 2, .put [⟨b 4096 1, 16, b 4096 2, 32, b 4096 9⟩]⟩),
    (4, 0, ⟨2, 0, .get [⟨b 4096 1, 64, b 4096 3, 80, 7⟩]⟩),
    (3, 2, ⟨0, 2, .del [⟨b 4096 1, 16, b 4096 2, 32⟩]⟩), (2, 0, ⟨1, 0, .put [⟨b 4096 1, 16, b 4096 3, 32, b 4096 4⟩]⟩),
    (4, 2, ⟨2, 2, .get [⟨b 64 1, 64, b 80 2, 80, 7⟩]⟩)]

private def exRuns : Out (List Nat) :=
  play exWorld exOrder >>= fun x =>
  results x.1 0 tA >>= fun a => results x.1 1 tB >>= fun b => results x.1 2 tC >>= fun c => results x.1 3 tD >>= fun d =>
  results x.1 4 tE >>= fun e => .ok [a.items.length, b.items.length, c.items.length, d.items.length, e.items.length]

private theorem exRuns_eq : exRuns = .ok [1, 1, 1, 1, 2] := by decide +kernel

private theorem exDefined {log : List Served} {k : Nat} {x : Turn} {r : Results} {i : Fin 3} {part : List Served}
    (h : results log k x = .ok r) (hp : partOf k log = part) (hx : x = callsOf (fun _ => C77Ex.env) C77Ex.priv i x.calls) :
    Defined (fun _ => C77Ex.env) C77Ex.priv 3 i (x.calls, part) := by
  unfold C55Ex.results at h
  obtain ⟨q, hq, h⟩ := ok_iff.mp h
  obtain ⟨y, hy, h⟩ := ok_iff.mp h
  split at h
  · rename_i he
    have he : y.1 = [] := by simpa using he
    rw [hx] at hq hy
    refine ⟨q, y.2.2, y.2.1, hq, ?_⟩
    rw [← he]
    exact hp ▸ hy
  · cases h

private theorem exSix {log : List Served} (h : log.length = 6) : ∃ y0 y1 y2 y3 y4 y5, log = [y0, y1, y2, y3, y4, y5] :=
  match log, h with
  | [y0, y1, y2, y3, y4, y5], _ => ⟨y0, y1, y2, y3, y4, y5, rfl⟩

/-- Requests get the responses of the log; the datastores are there. -/
private def exBackend : Session.Backend (List Served) :=
  ⟨replay, fun s _ _ _ => some s, fun s _ _ => (s, 0), fun s _ _ _ => s, fun s _ _ => s⟩

/-- Three ranks that are opened take the five turns of the examples of C76 and C78, the first two one after the other, the other
three at the same time. (`EmptyWorld` and `TurnOk` are shown for C76; `Before` for turns 0 and 4 is what `C81_partial` needs.) -/
example : ∃ S : Fin 3 → St (List Served), (∀ i, Opened exBackend C77Ex.env 3 (C77Ex.priv i) (S i)) ∧
    ∃ (trace : List (Event 3)) (w' : World), Trace exCb 100 exBackend (fun _ => C77Ex.env) exWorld S trace w' ∧
      (∀ x ∈ AsyncOverlap.turnsOf trace, BelowLimit (fun _ => C77Ex.env) C77Ex.priv x.1 x.2.1) ∧
      jobTurns (fun _ => C77Ex.env) C77Ex.priv trace = [tA, tB, tC, tD, tE] ∧ (logOf trace).map (·.turn) = [0, 1, 4, 3, 2, 4] ∧
      Before trace 0 4 ∧ Before trace 0 1 := by
  have hopen : ∀ i, ∃ st, Opened exBackend C77Ex.env 3 (C77Ex.priv i) st := by
    intro i
    have h : ∀ i, (match C32Ex.play exBackend C77Ex.env C32Ex.opening (start [] (C77Ex.priv i) []) with
        | some (.ok st) => (match st.user with | .idle => true | _ => false)
        | _ => false) = true := by decide +kernel
    have h := h i
    split at h
    · rename_i st hst
      split at h
      · rename_i hu
        exact ⟨st, ⟨rfl, rfl, rfl, rfl, by simp [C77Ex.priv, Queue.Queues.init], rfl⟩, rfl, rfl, by show 0 < 4; decide,
          ⟨_, _, C32Ex.run_of_play _ _ _ _ _ hst⟩, hu⟩
      · cases h
    · cases h
  choose S hS using hopen
  refine ⟨S, hS, ?_⟩
  have h := exRuns_eq
  unfold exRuns at h
  obtain ⟨⟨log, w'⟩, hx, h⟩ := ok_iff.mp h
  obtain ⟨a, ha, h⟩ := ok_iff.mp h
  obtain ⟨b, hb, h⟩ := ok_iff.mp h
  obtain ⟨c, hc, h⟩ := ok_iff.mp h
  obtain ⟨d, hd, h⟩ := ok_iff.mp h
  obtain ⟨e, he, h⟩ := ok_iff.mp h
  obtain ⟨h1, h2⟩ := play_executes _ hx
  have h2 : log.map (·.turn) = [0, 1, 4, 3, 2, 4] := h2
  obtain ⟨y0, y1, y2, y3, y4, y5, rfl⟩ : ∃ y0 y1 y2 y3 y4 y5, log = [y0, y1, y2, y3, y4, y5] := by
    refine exSix ?_
    rw [← List.length_map, h2]
    rfl
  simp only [List.map_cons, List.map_nil, List.cons.injEq, and_true] at h2
  obtain ⟨e0, e1, e2, e3, e4, e5⟩ := h2
  have hbelow : ∀ x ∈ turns, BelowLimit (fun _ => C77Ex.env) C77Ex.priv x.1 x.2 := by
    unfold BelowLimit
    decide +kernel
  have dA := exDefined (i := 0) ha (part := [y0]) (by simp [partOf, e0, e1, e2, e3, e4, e5]) rfl
  have dB := exDefined (i := 1) hb (part := [y1]) (by simp [partOf, e0, e1, e2, e3, e4, e5]) rfl
  have dC := exDefined (i := 1) hc (part := [y4]) (by simp [partOf, e0, e1, e2, e3, e4, e5]) rfl
  have dD := exDefined (i := 0) hd (part := [y3]) (by simp [partOf, e0, e1, e2, e3, e4, e5]) rfl
  have dE := exDefined (i := 2) he (part := [y2, y5]) (by simp [partOf, e0, e1, e2, e3, e4, e5]) rfl
  have runs := C81_runs 3 exBackend rfl (fun _ => C77Ex.env) C77Ex.priv S hS
  obtain ⟨r0, l0, a0⟩ := runs 0 [(tA.calls, [y0]), (tD.calls, [y3])]
    (by rintro x hx; simp only [List.mem_cons, List.not_mem_nil, or_false] at hx
        rcases hx with rfl | rfl
        · exact hbelow (0, tA.calls) (by simp [turns])
        · exact hbelow (0, tD.calls) (by simp [turns]))
    (by rintro x hx; simp only [List.mem_cons, List.not_mem_nil, or_false] at hx; rcases hx with rfl | rfl <;> assumption)
  obtain ⟨r1, l1, a1⟩ := runs 1 [(tB.calls, [y1]), (tC.calls, [y4])]
    (by rintro x hx; simp only [List.mem_cons, List.not_mem_nil, or_false] at hx
        rcases hx with rfl | rfl
        · exact hbelow (1, tB.calls) (by simp [turns])
        · exact hbelow (1, tC.calls) (by simp [turns]))
    (by rintro x hx; simp only [List.mem_cons, List.not_mem_nil, or_false] at hx; rcases hx with rfl | rfl <;> assumption)
  obtain ⟨r2, l2, a2⟩ := runs 2 [(tE.calls, [y2, y5])]
    (by rintro x hx; simp only [List.mem_cons, List.not_mem_nil, or_false] at hx; rcases hx with rfl
        exact hbelow (2, tE.calls) (by simp [turns]))
    (by rintro x hx; simp only [List.mem_cons, List.not_mem_nil, or_false] at hx; rcases hx with rfl; assumption)
  match r0, l0, r1, l1, r2, l2 with
  | [rA, rD], _, [rB, rC], _, [rE], _ =>
    refine ⟨[.begins 0 tA.calls, .serves 0 y0, .ends 0 rA, .begins 1 tB.calls, .serves 1 y1, .ends 1 rB, .begins 1 tC.calls,
      .begins 0 tD.calls, .begins 2 tE.calls, .serves 2 y2, .serves 0 y3, .ends 0 rD, .serves 1 y4, .serves 2 y5, .ends 2 rE,
      .ends 1 rC], w', ⟨h1, ?_, ?_⟩, ?_, rfl, ?_, ?_, ?_⟩
    · simp [AsyncOverlap.numbered, AsyncOverlap.put, e0, e1, e2, e3, e4, e5]
    · intro i
      match i with
      | 0 => exact a0
      | 1 => exact a1
      | 2 => exact a2
    · intro x hx
      refine hbelow (x.1, x.2.1) ?_
      simp only [AsyncOverlap.turnsOf, List.mem_cons, List.not_mem_nil, or_false] at hx
      rcases hx with rfl | rfl | rfl | rfl | rfl <;> simp [turns]
    · simp [logOf, e0, e1, e2, e3, e4, e5]
    · exact ⟨[], 0, tA.calls, [.serves 0 y0], rA, _, rfl, rfl, by simp [AsyncOverlap.turnsOf]⟩
    · exact ⟨[], 0, tA.calls, [.serves 0 y0], rA, _, rfl, rfl, by simp [AsyncOverlap.turnsOf]⟩

end Hx.Props

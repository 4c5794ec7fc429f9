import Verif.Proofs.AsyncJob
import Verif.Props.C32_Async
import Verif.Props.C76_FailedWrites

/-!
# C77: ranks with asynchronous PUTs that share range servers

As long as the PUTs of a turn stay below the limit, whatever the background threads of the ranks do, ranks
see of each other what they would see without asynchronous PUTs (C48, C76).
-/

namespace Hx.Props
open Hx Msg Spec Process Store Results Session Async AsyncJob

/-- `Open` with asynchronous PUTs has returned. The job has one datastore per range server. -/
structure Opened {σ : Type} (b : Backend σ) (e : Env) (total : Nat) (p : Priv) (st : St σ) : Prop where
  starting : Starting p
  queues : p.queues = Queue.Queues.init total
  servers : p.servers = total
  limit : 0 < p.opts.asyncMax
  opening : ∃ s acts, Run b e (start s p []) acts st
  idle : st.user = .idle

/-- The number of PUTs of the turn does not reach the limit. -/
def BelowLimit {n : Nat} (env : Fin n → Env) (p : Fin n → Priv) (i : Fin n) (calls : List Queue.Call) : Prop :=
  putNumber (calls.flatMap (ops ((p i).hash (env i)) (p i).servers)) < (p i).opts.asyncMax

/-- A turn without its results. -/
def callsOf {n : Nat} (env : Fin n → Env) (p : Fin n → Priv) (i : Fin n) (calls : List Queue.Call) : Job.Turn :=
  ⟨(p i).cfg (env i), (p i).net (env i), calls⟩

private theorem rests {σ : Type} {n : Nat} {b : Backend σ} {env : Fin n → Env} {total : Nat} {p : Fin n → Priv} {S : Fin n → St σ}
    (h : ∀ i, Opened b (env i) total (p i) (S i)) (i : Fin n) : Rest (env i) total (p i) (S i) := by
  obtain ⟨s, acts, hr⟩ := (h i).opening
  exact (opened_rest (h i).starting.enabled (h i).starting.running (h i).starting.kept (h i).queues (h i).servers (h i).limit hr
    (h i).idle).1

theorem joined_items (l : List Results) : (joined l).items = l.flatMap (fun r => r.items) := by
  have key : ∀ (l : List Results) (r : Results), (l.foldl (fun res r => (res.append r).1) r).items =
      r.items ++ l.flatMap (fun r => r.items) := by
    intro l
    induction l with
    | nil => intro r; simp
    | cons x l ih =>
      intro r
      rw [List.foldl_cons, ih, Job.append_items, List.flatMap_cons, List.append_assoc]
  unfold joined
  rw [key]
  rfl

/-- C77: ranks with asynchronous PUTs take turns, below the limit, and the threads of all ranks take
their steps in any order. The range servers end up as if asynchronous PUTs were disabled, and every turn
returns the same results. -/
theorem C77_turns (cb : Callbacks) (heap total n : Nat) (b : Backend World) (hserve : b.serve = World.serve cb heap)
    (env : Fin n → Env) (p : Fin n → Priv) (w w' : World) (S S' : Fin n → St World)
    (l : List (Fin n × List Queue.Call × List Results)) (hopen : ∀ i, Opened b (env i) total (p i) (S i))
    (hbelow : ∀ x ∈ l, BelowLimit env p x.1 x.2.1) (h : Turns b env w S l w' S') :
    ∃ rs, Job.run cb heap total w (l.map (fun x => callsOf env p x.1 x.2.1)) = .ok (w', rs) ∧
      rs.map (fun r => r.items) = l.map (fun x => (joined x.2.2).items) := by
  obtain ⟨-, rs, h1, h2⟩ := turns_run hserve (fun i => (hopen i).servers) h (rests hopen) hbelow
  refine ⟨rs, h1, ?_⟩
  clear h1 h
  induction h2 with
  | nil => rfl
  | cons h _ ih =>
    rw [List.map_cons, List.map_cons, h, joined_items, ih (fun x hx => hbelow x (List.mem_cons_of_mem _ hx))]

private theorem busy_of {cb : Callbacks} {heap total n : Nat} {b : Backend World} (hserve : b.serve = World.serve cb heap)
    {env : Fin n → Env} {p : Fin n → Priv} {w w1 w2 : World} {S S1 S2 : Fin n → St World}
    {l : List (Fin n × List Queue.Call × List Results)} (hopen : ∀ i, Opened b (env i) total (p i) (S i))
    (hbelow : ∀ x ∈ l, BelowLimit env p x.1 x.2.1) (h : Turns b env w S l w1 S1) {i : Fin n} {calls : List Queue.Call}
    (hi : BelowLimit env p i calls) (hs : Steps b env w1 (set S1 i { S1 i with jobs := turnJobs calls }) w2 S2)
    {y : World × List Results}
    (hrun : Job.run cb heap total w (l.map (fun x => callsOf env p x.1 x.2.1) ++ [callsOf env p i calls]) = .ok y) :
    (∀ j, j ≠ i → Rest (env j) total (p j) (S2 j)) ∧
      Busy b (env i) (w1, (S1 i).p) (S1 i).told calls { S2 i with srv := w2 } ∧
      ∃ z, inTurn b (env i) (turnJobs calls) (w1, (S1 i).p, (S1 i).told) = .ok z := by
  obtain ⟨hR, rs, h1, h2⟩ := turns_run hserve (fun i => (hopen i).servers) h (rests hopen) hbelow
  have hb := rest_busy (b := b) (s := w1) (hR i) hi
  obtain ⟨g1, g2⟩ := steps_busy (total := total) (p := p) hs (i := i) (fun j hj => by rw [set_other _ _ hj]; exact hR j)
    (by rw [set_same]; exact hb)
  refine ⟨g1, g2, ?_⟩
  obtain ⟨y1, y2⟩ := y
  obtain ⟨u, r1, r2, k1, k2, -⟩ := Job.run_append _ _ hrun
  have hu : u = w1 := by
    have := h1.symm.trans k1
    cases this
    rfl
  subst hu
  simp only [Job.run] at k2
  obtain ⟨z, hz, -⟩ := ok_iff.mp k2
  exact turn_inTurn hserve (hR i) hz _

/-- C77: in any interleaving of the threads of all ranks no step fails or is undefined, when the turns are
defined without asynchronous PUTs. -/
theorem C77_defined (cb : Callbacks) (heap total n : Nat) (b : Backend World) (hserve : b.serve = World.serve cb heap)
    (env : Fin n → Env) (p : Fin n → Priv) (w w1 w2 : World) (S S1 S2 : Fin n → St World)
    (l : List (Fin n × List Queue.Call × List Results)) (hopen : ∀ i, Opened b (env i) total (p i) (S i))
    (hbelow : ∀ x ∈ l, BelowLimit env p x.1 x.2.1) (h : Turns b env w S l w1 S1) (i : Fin n) (calls : List Queue.Call)
    (hi : BelowLimit env p i calls) (hs : Steps b env w1 (set S1 i { S1 i with jobs := turnJobs calls }) w2 S2)
    (y : World × List Results)
    (hrun : Job.run cb heap total w (l.map (fun x => callsOf env p x.1 x.2.1) ++ [callsOf env p i calls]) = .ok y)
    (j : Fin n) (a : Act) : Async.step b (env j) { S2 j with srv := w2 } a = none ∨
      ∃ st, Async.step b (env j) { S2 j with srv := w2 } a = some (.ok st) := by
  obtain ⟨g1, g2, z, hz⟩ := busy_of hserve hopen hbelow h hi hs hrun
  cases hst : Async.step b (env j) { S2 j with srv := w2 } a with
  | none => exact Or.inl rfl
  | some r =>
    right
    by_cases hj : j = i
    · subst hj
      obtain ⟨st, rfl⟩ := busy_defined g2 hz hst
      exact ⟨st, rfl⟩
    · obtain ⟨st, rfl⟩ := rest_defined (g1 j hj) hst
      exact ⟨st, rfl⟩

/-- C77: from every state that can occur in a turn the turn can be completed, when it is defined without
asynchronous PUTs. (`C32_returns` bounds the number of steps.) -/
theorem C77_completes (cb : Callbacks) (heap total n : Nat) (b : Backend World) (hserve : b.serve = World.serve cb heap)
    (env : Fin n → Env) (p : Fin n → Priv) (w w1 w2 : World) (S S1 S2 : Fin n → St World)
    (l : List (Fin n × List Queue.Call × List Results)) (hopen : ∀ i, Opened b (env i) total (p i) (S i))
    (hbelow : ∀ x ∈ l, BelowLimit env p x.1 x.2.1) (h : Turns b env w S l w1 S1) (i : Fin n) (calls : List Queue.Call)
    (hi : BelowLimit env p i calls) (hs : Steps b env w1 (set S1 i { S1 i with jobs := turnJobs calls }) w2 S2)
    (y : World × List Results)
    (hrun : Job.run cb heap total w (l.map (fun x => callsOf env p x.1 x.2.1) ++ [callsOf env p i calls]) = .ok y) :
    ∃ w' S', Steps b env w2 S2 w' S' ∧ (S' i).user = .idle ∧ (S' i).jobs = [] := by
  obtain ⟨g1, g2, z, hz⟩ := busy_of hserve hopen hbelow h hi hs hrun
  exact busy_completes hz _ _ g2 (Nat.le_refl _) (Nat.le_refl _)

/-- C77: turns that are defined without asynchronous PUTs can be taken with them. -/
theorem C77_runs (cb : Callbacks) (heap total n : Nat) (b : Backend World) (hserve : b.serve = World.serve cb heap)
    (env : Fin n → Env) (p : Fin n → Priv) (w : World) (S : Fin n → St World) (turns : List (Fin n × List Queue.Call))
    (hopen : ∀ i, Opened b (env i) total (p i) (S i)) (hbelow : ∀ x ∈ turns, BelowLimit env p x.1 x.2) (y : World × List Results)
    (hrun : Job.run cb heap total w (turns.map (fun x => callsOf env p x.1 x.2)) = .ok y) :
    ∃ l w' S', l.map (fun x => (x.1, x.2.1)) = turns ∧ Turns b env w S l w' S' :=
  turns_exist hserve (fun i => (hopen i).servers) turns (rests hopen) hbelow hrun

/-! ### What ranks see of each other -/

private theorem reports_items {l : List Op} {r r' : Results} (h : r.items = r'.items) {ps : List ((Blob × Blob × Blob) × Result)}
    (hp : PutsReported l r ps) : PutsReported l r' ps := ⟨hp.all, h ▸ hp.results, hp.reports, h ▸ hp.order⟩

private theorem deletes_items {l : List Op} {r r' : Results} (h : r.items = r'.items) {ds : List ((Blob × Blob) × Result)}
    (hp : DelsReported l r ds) : DelsReported l r' ds := ⟨hp.all, h ▸ hp.results, hp.reports, h ▸ hp.order⟩

private theorem reported_items {accepts : Val → Bool} {hash : Bytes → Bytes → Out Int} {turns : List Job.Turn} {rs rs' : List Results}
    {H : List Ev} (h : rs.map (fun r => r.items) = rs'.map (fun r => r.items)) (hr : Reported accepts hash turns rs H) :
    Reported accepts hash turns rs' H := by
  induction hr generalizing rs' with
  | nil =>
    cases rs' with
    | nil => exact .nil
    | cons => cases h
  | cons h1 h2 _ ih =>
    cases rs' with
    | nil => cases h
    | cons r' rs' =>
      simp only [List.map_cons, List.cons.injEq] at h
      exact .cons (reports_items h.1 h1) (deletes_items h.1 h2) (ih h.2)

/-- C77 for all GETs of a turn, partial: ranks with asynchronous PUTs take turns, below the limit, starting with
empty datastores, any writes may fail, and the threads take their steps in any order. Every PUT and DELETE has
one result, which refers to the memory of the caller, and every GET of the last turn has the object of the latest
PUT of the pair that reported success, or says that there is none. Missing: more PUTs than the limit (`C32`), more
datastores than range servers (`C32_more_datastores_ub`), and as `C76_gets_partial`. -/
theorem C77_gets_partial (cb : Callbacks) (t : Transform) (hash : Bytes → Bytes → Out Int) (place : List Int) (heap n : Nat)
    (hheap : heap ≠ 0 ∧ heap < 2 ^ 64) (hplace : place.length ≤ 2 ^ 31) (b : Backend World) (hserve : b.serve = World.serve cb heap)
    (env : Fin n → Env) (p : Fin n → Priv) (w w' : World) (S S' : Fin n → St World)
    (l : List (Fin n × List Queue.Call × List Results)) (x : Fin n × List Queue.Call × List Results) (hw : EmptyWorld w)
    (hopen : ∀ i, Opened b (env i) place.length (p i) (S i)) (hbelow : ∀ y ∈ l ++ [x], BelowLimit env p y.1 y.2.1)
    (hturns : ∀ y ∈ l ++ [x], TurnOk cb t hash place (callsOf env p y.1 y.2.1)) (h : Turns b env w S (l ++ [x]) w' S') :
    ∃ H ps ds, Reported t.accepts hash (l.map (fun y => callsOf env p y.1 y.2.1)) (l.map (fun y => joined y.2.2)) H ∧
      PutsReported (turnOps hash (callsOf env p x.1 x.2.1)) (joined x.2.2) ps ∧
      DelsReported (turnOps hash (callsOf env p x.1 x.2.1)) (joined x.2.2) ds ∧
      ∃ gs, gs.Perm (getPairs (turnOps hash (callsOf env p x.1 x.2.1))) ∧
        List.Forall₂ (Returned t (H ++ succeededPuts t.accepts ps)) gs
          ((joined x.2.2).items.filter (fun y => decide (y.kind = .get))) := by
  obtain ⟨rs, h1, h2⟩ := C77_turns cb heap place.length n b hserve env p w w' S S' (l ++ [x]) hopen hbelow h
  rw [List.map_append] at h1 h2
  obtain ⟨rl, rx, rfl, k1, k2⟩ := List.map_eq_append_iff.mp h2
  obtain ⟨r, rn, rfl, k8, hn⟩ := List.map_eq_cons_iff.mp k2
  obtain rfl := List.map_eq_nil_iff.mp hn
  change r.items = (joined x.2.2).items at k8
  obtain ⟨H, ps, ds, g1, g2, g3, gs, g4, g5⟩ := C76_gets_partial cb t hash place heap hheap hplace
    (l.map (fun y => callsOf env p y.1 y.2.1)) (callsOf env p x.1 x.2.1) w w' rl r hw
    (fun y hy => by obtain ⟨z, hz, rfl⟩ := List.mem_map.mp hy; exact hturns z (by simp [hz])) (hturns x (by simp)) h1
  refine ⟨H, ps, ds, reported_items ?_ g1, reports_items k8 g2, deletes_items k8 g3, gs, g4, ?_⟩
  · rw [k1, List.map_map]; rfl
  · rw [← k8]; exact g5

/-- C77, partial: rank A PUTs `(s, p, o)` in turn `a`, as its last PUT of that pair and without a DELETE of it in the
same turn, and the results with those references report success. Every turn in between either has no PUT or
DELETE of the pair, or all its PUTs and DELETEs failed. Turn `c` of any rank GETs the pair: the result has
`o`, whatever the background threads did meanwhile. Missing: as `C77_gets_partial`. -/
theorem C77_partial (cb : Callbacks) (t : Transform) (hash : Bytes → Bytes → Out Int) (place : List Int) (heap n : Nat)
    (hheap : heap ≠ 0 ∧ heap < 2 ^ 64) (hplace : place.length ≤ 2 ^ 31) (b : Backend World) (hserve : b.serve = World.serve cb heap)
    (env : Fin n → Env) (q : Fin n → Priv) (w w' : World) (S S' : Fin n → St World)
    (before between : List (Fin n × List Queue.Call × List Results)) (a c : Fin n × List Queue.Call × List Results) (hw : EmptyWorld w)
    (hopen : ∀ i, Opened b (env i) place.length (q i) (S i))
    (hbelow : ∀ y ∈ before ++ a :: between ++ [c], BelowLimit env q y.1 y.2.1)
    (hturns : ∀ y ∈ before ++ a :: between ++ [c], TurnOk cb t hash place (callsOf env q y.1 y.2.1))
    (h : Turns b env w S (before ++ a :: between ++ [c]) w' S')
    (s p o s' p' : Blob) (ty : Nat) (first last : List Op)
    (hput : turnOps hash (callsOf env q a.1 a.2.1) = first ++ Op.put s p o :: last) (hlast : ∀ y ∈ last, ¬ Writes s.val p.val y)
    (hdel : ∀ s₁ p₁, Op.del s₁ p₁ ∈ first → ¬ (s₁.val = s.val ∧ p₁.val = p.val))
    (haccept : t.accepts s.val = true ∧ t.accepts p.val = true ∧ t.accepts o.val = true)
    (hstatus : ∀ y ∈ (joined a.2.2).items, y.kind = .put → y.subject = .ref ⟨s.addr, s.bytes.length, s.typ⟩ →
      y.predicate = .ref ⟨p.addr, p.bytes.length, p.typ⟩ → y.status = hxSuccess)
    (hbetween : ∀ x ∈ between, Unchanged hash s.val p.val (callsOf env q x.1 x.2.1) (joined x.2.2))
    (hc : (∀ s₁ p₁ o₁, Op.put s₁ p₁ o₁ ∈ turnOps hash (callsOf env q c.1 c.2.1) → ¬ (s₁.val = s.val ∧ p₁.val = p.val)) ∨
      NoneWritten (joined c.2.2))
    (hget : Op.get s' p' ty ∈ turnOps hash (callsOf env q c.1 c.2.1)) (hsame : s'.val = s.val ∧ p'.val = p.val) :
    ∃ y ∈ (joined c.2.2).items, y.kind = .get ∧ y.subject = .ref ⟨s'.addr, s'.bytes.length, s'.typ⟩ ∧
      y.predicate = .ref ⟨p'.addr, p'.bytes.length, p'.typ⟩ ∧ y.status = hxSuccess ∧
      ∃ v : Blob, y.object = .own v ∧ v.bytes = t.R o.val ∧ v.typ = o.typ := by
  obtain ⟨rs, h1, h2⟩ := C77_turns cb heap place.length n b hserve env q w w' S S' _ hopen hbelow h
  rw [List.map_append, List.map_append, List.map_cons] at h1 h2
  obtain ⟨r1, rx, rfl, k1, k2⟩ := List.map_eq_append_iff.mp h2
  obtain ⟨rc, rn, rfl, k8, hn⟩ := List.map_eq_cons_iff.mp k2
  obtain rfl := List.map_eq_nil_iff.mp hn
  change rc.items = (joined c.2.2).items at k8
  obtain ⟨rb, ry, rfl, k3, k4⟩ := List.map_eq_append_iff.mp k1
  obtain ⟨ra, rt, rfl, k5, k6⟩ := List.map_eq_cons_iff.mp k4
  rw [← k8]
  have hnone : ∀ {r r' : Results}, r.items = r'.items → NoneWritten r' → NoneWritten r := by
    intro r r' he hn y hy
    exact hn y (he ▸ hy)
  refine C76_partial cb t hash place heap hheap hplace (before.map (fun y => callsOf env q y.1 y.2.1))
    (between.map (fun y => callsOf env q y.1 y.2.1)) (callsOf env q a.1 a.2.1) (callsOf env q c.1 c.2.1) w w' rb rt ra rc hw
    ?_ ?_ h1 s p o s' p' ty first last hput hlast hdel haccept ?_ ?_ ?_ hget hsame
  · have := congrArg List.length k3
    simpa using this
  · intro y hy
    have : y ∈ (before ++ a :: between ++ [c]).map (fun y => callsOf env q y.1 y.2.1) := by simpa using hy
    obtain ⟨z, hz, rfl⟩ := List.mem_map.mp this
    exact hturns z hz
  · change ra.items = (joined a.2.2).items at k5
    rw [k5]; exact hstatus
  · have key : ∀ (l : List (Fin n × List Queue.Call × List Results)) (rt : List Results),
        rt.map (fun r => r.items) = l.map (fun x => (joined x.2.2).items) →
        (∀ x ∈ l, Unchanged hash s.val p.val (callsOf env q x.1 x.2.1) (joined x.2.2)) →
        ∀ x ∈ (l.map (fun y => callsOf env q y.1 y.2.1)).zip rt, Unchanged hash s.val p.val x.1 x.2 := by
      intro l
      induction l with
      | nil => intro rt _ _ x hx; simp at hx
      | cons u l ih =>
        intro rt he hu x hx
        cases rt with
        | nil => simp at hx
        | cons r rt =>
          simp only [List.map_cons, List.cons.injEq] at he
          simp only [List.map_cons, List.zip_cons_cons, List.mem_cons] at hx
          rcases hx with rfl | hx
          · rcases hu u (by simp) with h | h
            · exact Or.inl h
            · exact Or.inr (hnone he.1 h)
          · exact ih rt he.2 (fun x hx => hu x (by simp [hx])) x hx
    exact key between rt k6 hbetween
  · rcases hc with hc | hc
    · exact Or.inl hc
    · exact Or.inr (hnone k8 hc)

/-! ### Examples -/

namespace C77Ex
open C76Ex

def env : Env := { C39Ex.env with order := id, order_perm := fun _ => List.Perm.refl _, heap := 4096, junk := fun n => List.replicate n 0 }

/-- Three ranks with one datastore each; the background thread starts by itself at four PUTs. -/
def priv (rank : Fin 3) : Priv := { Priv.new with
  opts := { Config.Opts.new with
    running := true, comm := .world (some 3), clientRatio := 1, serverRatio := 1, perServer := 1
    hashFunc := some (.builtin .ber), asyncEnabled := true, asyncMax := 4, maxOps := 10, maxSize := 0 }
  rank := rank, size := 3, servers := 3, total := 3, ids := [rank]
  transport := .thallium (thalliumEndpoints ⟨3, 1, 1, 1⟩ rank []), dsToRank := (exNet ⟨3, 1, 1, 1⟩ rank).dsToRank
  queues := Queue.Queues.init 3, thread := true }

/-- The turns of the example of C76. -/
def turns : List (Fin 3 × List Queue.Call) := [(0, tA.calls), (1, tB.calls), (1, tC.calls), (0, tD.calls), (2, tE.calls)]

end C77Ex
open C76Ex C77Ex

/-- Three ranks can be opened, and take the turns of the example of C76 (`EmptyWorld` and `TurnOk` are shown there). -/
example : (∀ x ∈ turns, BelowLimit (fun _ => C77Ex.env) C77Ex.priv x.1 x.2) ∧
    turns.map (fun x => callsOf (fun _ => C77Ex.env) C77Ex.priv x.1 x.2) = [tA, tB, tC, tD, tE] ∧
    ∃ S, (∀ i, Opened C32Ex.stores C77Ex.env 3 (C77Ex.priv i) (S i)) ∧
      ∃ l w' S', l.map (fun x => (x.1, x.2.1)) = turns ∧ Turns C32Ex.stores (fun _ => C77Ex.env) exWorld S l w' S' := by
  have hbelow : ∀ x ∈ turns, BelowLimit (fun _ => C77Ex.env) C77Ex.priv x.1 x.2 := by
    unfold BelowLimit
    decide +kernel
  have heq : turns.map (fun x => callsOf (fun _ => C77Ex.env) C77Ex.priv x.1 x.2) = [tA, tB, tC, tD, tE] := rfl
  have hopen : ∀ i, ∃ st, Opened C32Ex.stores C77Ex.env 3 (C77Ex.priv i) st := by
    intro i
    have h : ∀ i, (match C32Ex.play C32Ex.stores C77Ex.env C32Ex.opening (start exWorld (C77Ex.priv i) []) with
        | some (.ok st) => (match st.user with | .idle => true | _ => false)
        | _ => false) = true := by decide +kernel
    have h := h i
    split at h
    · rename_i st hst
      split at h
      · rename_i hu
        exact ⟨st, ⟨rfl, rfl, rfl, rfl, by simp [C77Ex.priv, Queue.Queues.init], rfl⟩, rfl, rfl, by show 0 < 4; decide,
          ⟨_, _, C32Ex.run_of_play _ _ _ _ _ hst⟩, hu⟩
      · cases h
    · cases h
  refine ⟨hbelow, heq, fun i => (hopen i).choose, fun i => (hopen i).choose_spec, ?_⟩
  have hrun : (Job.run exCb 100 3 exWorld [tA, tB, tC, tD, tE] >>= fun x => .ok x.2.length) = .ok 5 := by decide +kernel
  obtain ⟨y, hy, -⟩ := ok_iff.mp hrun
  exact C77_runs exCb 100 3 3 C32Ex.stores rfl (fun _ => C77Ex.env) C77Ex.priv exWorld _ turns
    (fun i => (hopen i).choose_spec) hbelow y (heq ▸ hy)

end Hx.Props

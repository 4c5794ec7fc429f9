import Verif.Proofs.Async
import Verif.Props.C29_Results
import Verif.Props.C39_LifeCycle

/-!
# C32: asynchronous PUTs
-/

namespace Hx.Props
open Hx Msg Process Results Session Async Spec

variable {σ : Type}

/-- A session with asynchronous PUTs as `Open` starts the thread: open, nothing queued, no results. -/
structure Starting (p : Priv) : Prop where
  enabled : p.opts.asyncEnabled = true
  running : p.opts.running = true
  thread : p.thread = true
  kept : p.kept = none
  empty : ∀ q ∈ p.queues.puts, q = []
  count : p.queues.putCount = 0

/-- The PUTs the calls asked for, for one datastore and in order. -/
def putsAsked (e : Env) (p : Priv) (l : List Queue.Call) (ds : Nat) : List PutItem :=
  putsFor (p.hash e) ds (l.flatMap (ops (p.hash e) p.servers))

/-- The PUTs in the batches that were sent, for one datastore and in order. -/
def putsSent (l : List (σ × Batch × Results)) (ds : Nat) : List PutItem := l.flatMap (fun x => Spec.queued x.2.1 ds)

/-- C32, whatever the interleaving, until `Close`: the calls made so far are the beginning of the
program, no PUT is sent twice, invented or overtaken by another one for the same datastore, the servers
executed exactly the batches recorded as sent, and no result is returned twice or invented. -/
theorem C32_at_most_once (b : Backend σ) (e : Env) (s : σ) (p : Priv) (hp : Starting p) (jobs : List Job) (l : List Act)
    (st : St σ) (hr : Run b e (start s p jobs) l st) (hc : ¬ Closing st.user) :
    (∃ called, jobs = called ++ st.jobs ∧ st.asked = called.filterMap callOf) ∧
    (∀ ds, putsSent st.sent ds <+: putsAsked e p st.asked ds) ∧
    Served (p.net e) b.serve s st.sent st.srv ∧
    st.returned.flatMap (fun r => r.items) <+: st.sent.flatMap (fun x => x.2.2.items) := by
  have hi : Inv b e p jobs st := hr.induct (fun _ _ _ h hs => inv_step h hs) (inv_start s p jobs hp.running hp.kept hp.empty)
  have hs : Served (st.p.net e) b.serve s st.sent st.srv :=
    hr.induct (P := fun st => Served (st.p.net e) b.serve s st.sent st.srv) (fun _ _ _ h hs => served_step hs h) .nil
  have hc : st.user.closing = false := by
    cases h : st.user.closing with
    | false => rfl
    | true => exact absurd ((closing_iff _).mpr h) hc
  refine ⟨hi.jobs, fun ds => ?_, hi.net ▸ hs, ?_⟩
  · exact ⟨Spec.queued st.bg.batch ds ++ Spec.queued st.p.queues.puts ds, by
      rw [putsAsked, hi.puts hc ds, putsSent, List.append_assoc]⟩
  · exact ⟨st.user.results ++ keptItems st.p ++ st.bg.results, by rw [hi.results hc]; simp only [List.append_assoc]⟩

/-- C32, partial, whatever the interleaving: when `FlushPuts` returns, every PUT asked for so far has
been sent exactly once, and the results of all of them have been returned, each by one `FlushPuts`.
Missing: some interleavings never get there because of a data race (`C32_race_ub`), PUTs that are
queued when the session is closed are dropped (`C40_close_false`), and the queue is too small with more
than one datastore per range server (`C32_more_datastores_ub`). -/
theorem C32_flush_partial (b : Backend σ) (e : Env) (s : σ) (p : Priv) (hp : Starting p) (jobs : List Job) (l : List Act)
    (st st' : St σ) (r : Results) (hr : Run b e (start s p jobs) l st) (hu : st.user = .drain r)
    (hs : step b e st .user = some (.ok st')) :
    st'.user = .idle ∧ st'.returned.length = st.returned.length + 1 ∧
    (∀ ds, putsSent st'.sent ds = putsAsked e p st'.asked ds) ∧
    st'.returned.flatMap (fun r => r.items) = st'.sent.flatMap (fun x => x.2.2.items) := by
  have hi : Inv b e p jobs st := hr.induct (fun _ _ _ h hs => inv_step h hs) (inv_start s p jobs hp.running hp.kept hp.empty)
  have hcl : Clear st ∧ keptItems st.p = [] := by
    have := hi.phase
    unfold Async.Phase at this
    rw [hu] at this
    exact this
  have hstep := of_step hs
  have hi' := inv_step hi hstep
  cases hstep
  case drain r' s' r1 q hu' hpr =>
    have hq := (C29_at_most_once _ _ _ _ _ _ _ _ hpr).1
    refine ⟨rfl, by simp, fun ds => ?_, ?_⟩
    · have := hi'.puts rfl ds
      rw [queued_zero hcl.1.batch, queued_zero (by rw [hq]; exact remaining_map_nil _), List.append_nil, List.append_nil] at this
      exact this.symm
    · have := hi'.results rfl
      rw [show st.bg.results = [] from hcl.1.results] at this
      have hk : keptItems ({ st.p with queues := { st.p.queues with puts := q, putCount := 0 } }) = [] := hcl.2
      rw [hk] at this
      simpa only [User.results, List.append_nil] using this.symm
  all_goals (simp_all)

/-- C30 with asynchronous PUTs, partial: after `FlushPuts` has returned and until the next call that
queues, all PUTs are done, so GETs and other operations that are flushed then come after them. -/
theorem C30_async_partial (b : Backend σ) (e : Env) (s : σ) (p : Priv) (hp : Starting p) (jobs : List Job) (l l' : List Act)
    (st st' st'' : St σ) (r : Results) (hr : Run b e (start s p jobs) l st) (hu : st.user = .drain r)
    (hs : step b e st .user = some (.ok st')) (hr' : Run b e st' l' st'') (hc : ¬ Closing st''.user)
    (ha : st''.asked = st'.asked) :
    Served (p.net e) b.serve s st''.sent st''.srv ∧ (∀ ds, putsSent st'.sent ds = putsAsked e p st''.asked ds) ∧
    ∃ more, st''.sent = st'.sent ++ more ∧ ∀ ds, putsSent more ds = [] := by
  obtain ⟨-, -, h1, -⟩ := C32_flush_partial b e s p hp jobs l st st' r hr hu hs
  have run_append : ∀ {l l' : List Act} {x y z : St σ}, Run b e x l y → Run b e y l' z → Run b e x (l ++ l') z := by
    intro l l' x y z h
    induction h with
    | nil => exact id
    | cons h _ ih => exact fun h' => .cons h (ih h')
  have hr2 := run_append hr (.cons hs hr')
  obtain ⟨-, h2, h3, -⟩ := C32_at_most_once b e s p hp jobs _ st'' hr2 hc
  have hext : ∃ more, st''.sent = st'.sent ++ more := by
    clear h1 h2 h3 hr2 ha hc hs
    induction hr' with
    | nil => exact ⟨[], (List.append_nil _).symm⟩
    | cons h _ ih =>
      obtain ⟨m1, g1⟩ := step_sent (of_step h)
      obtain ⟨m2, g2⟩ := ih
      exact ⟨m1 ++ m2, by rw [g2, g1, List.append_assoc]⟩
  obtain ⟨more, hm⟩ := hext
  refine ⟨h3, fun ds => by rw [ha]; exact h1 ds, more, hm, fun ds => ?_⟩
  have := h2 ds
  rw [ha, ← h1 ds, hm] at this
  simp only [putsSent, List.flatMap_append] at this ⊢
  obtain ⟨t, ht⟩ := this
  have := congrArg List.length ht
  simp only [List.length_append] at this
  exact List.length_eq_zero_iff.mp (by omega)

/-- The PUTs of a request. -/
def putItems : ReqBody → List PutItem
  | .put l => l
  | _ => []

/-- C32 on datastores that can be used, partial: when `FlushPuts` returns, the results returned so far
are, in order, one for each PUT of a list of deliveries that hands every PUT asked for to the rank of
its datastore. The layout has to be one in which every datastore can be reached, and the PUTs ones that
can be sent, as in `C29_put_results_partial`. -/
theorem C32_results_partial (cb : Store.Callbacks) (heap : Nat) (b : Backend World) (hb : b.serve = World.serve cb heap)
    (e : Env) (s : World) (p : Priv) (hp : Starting p) (jobs : List Job) (l : List Act) (st st' : St World) (r : Results)
    (hr : Run b e (start s p jobs) l st) (hu : st.user = .drain r) (hs : step b e st .user = some (.ok st'))
    (hh : e.heap ≠ 0) (hh' : e.heap < 2 ^ 64) (hrank : p.rank < 2 ^ 31) (hw : Usable s) (hR : Routed (p.net e) p.total)
    (hq : p.queues.puts.length ≤ p.total) (hn : p.servers ≤ p.total) (ht : p.total ≤ 2 ^ 31)
    (hx : ∀ ds, (putsAsked e p st'.asked ds).length < 2 ^ 64 ∧ SendableReqBody (.put (putsAsked e p st'.asked ds)) ∧
      ClientReq cb e.heap (.put (putsAsked e p st'.asked ds))) :
    ∃ d : List Send,
      (∀ ds, (sentTo d ds).flatMap putItems = putsAsked e p st'.asked ds) ∧
      (∀ x ∈ d, ∃ ds : Nat, x.req.dst = ds ∧ (p.net e).dsToRank[ds]? = some x.rank) ∧
      (st'.returned.flatMap (fun r => r.items)).map label = d.flatMap (fun x => Hx.Props.asked x.req) := by
  obtain ⟨-, -, h1, h2⟩ := C32_flush_partial b e s p hp jobs l st st' r hr hu hs
  have hi : Inv b e p jobs st' := inv_step
    (hr.induct (fun _ _ _ h hs => inv_step h hs) (inv_start s p jobs hp.running hp.kept hp.empty)) (of_step hs)
  have hwide : Wide p.total st' := wide_step
    (hr.induct (P := fun st => Wide p.total st) (fun _ _ _ h hs => wide_step h hs)
      ⟨hn, hq, by simp [start, Bg.batch], fun x hx => by cases hx⟩) (of_step hs)
  have hserved : Served (p.net e) b.serve s st'.sent st'.srv := hi.net ▸ served_step (of_step hs)
    (hr.induct (P := fun st => Served (st.p.net e) b.serve s st.sent st.srv) (fun _ _ _ h hs => served_step hs h) .nil)
  have husable := (served_keeps (P := Usable) (fun w rank req w' res h hs => usable_serve h (hb ▸ hs)) hserved hw).2
  have hmem : ∀ x ∈ st'.sent, ∀ q ∈ x.2.1, ∀ pk ∈ q, ∃ ds, pk.length ≤ (putsAsked e p st'.asked ds).length ∧
      ∀ i ∈ pk, i ∈ putsAsked e p st'.asked ds := by
    intro x hx q hq pk hpk
    obtain ⟨ds, hds⟩ := List.mem_iff_getElem?.mp hq
    have hsub : pk.Sublist (putsSent st'.sent ds) := by
      refine List.Sublist.trans ?_ (List.sublist_flatten_of_mem (List.mem_map.mpr ⟨x, hx, rfl⟩))
      unfold Spec.queued
      have : x.2.1.getD ds [] = q := by simp [hds]
      rw [this]
      exact List.sublist_flatten_of_mem hpk
    rw [h1 ds] at hsub
    exact ⟨ds, hsub.length_le, fun i hi => hsub.subset hi⟩
  have key : ∀ sent : List (World × Batch × Results), (∀ x ∈ sent, x ∈ st'.sent) → ∃ d : List Send,
      (∀ ds, (sentTo d ds).flatMap putItems = putsSent sent ds) ∧
      (∀ x ∈ d, ∃ ds : Nat, x.req.dst = ds ∧ (p.net e).dsToRank[ds]? = some x.rank) ∧
      (sent.flatMap (fun x => x.2.2.items)).map label = d.flatMap (fun x => Hx.Props.asked x.req) := by
    intro sent
    induction sent with
    | nil => exact fun _ => ⟨[], fun _ => rfl, fun x h => (by cases h), rfl⟩
    | cons x sent ih =>
      intro hm
      obtain ⟨d, g1, g2, g3⟩ := ih (fun y hy => hm y (List.mem_cons_of_mem _ hy))
      have hxm := hm x List.mem_cons_self
      obtain ⟨s', q', hpr⟩ := hi.calls x hxm
      rw [hb] at hpr
      have hlen := hwide.sent x hxm
      have hR' : Routed (p.net e) x.2.1.length :=
        ⟨Nat.le_trans hlen hR.placed, fun ds rank h => hR.reach ds rank (by omega),
          fun ds ds' rank h h' => hR.single ds ds' rank (by omega) (by omega)⟩
      have hok : ∀ q ∈ x.2.1, ∀ pk ∈ q, pk.length < 2 ^ 64 ∧ SendableReqBody (.put pk) ∧ ClientReq cb e.heap (.put pk) := by
        intro q hq pk hpk
        obtain ⟨ds, k1, k2⟩ := hmem x hxm q hq pk hpk
        obtain ⟨j1, j2, j3⟩ := hx ds
        exact ⟨by omega, fun i hi => j2 i (k2 i hi), fun i hi => j3 i (k2 i hi)⟩
      obtain ⟨dl, t1, t2⟩ := C29_put_results_partial cb heap (p.net e) hh hh' ⟨by
        show -(2 ^ 31) ≤ (p.rank : Int); omega, by show (p.rank : Int) < 2 ^ 31; omega⟩ x.2.1 q' (by omega) hR' hok x.1 s'
        (husable x hxm) x.2.2 hpr
      refine ⟨dl ++ d, fun ds => ?_, fun y hy => ?_, ?_⟩
      · have : sentTo (dl ++ d) ds = sentTo dl ds ++ sentTo d ds := by unfold sentTo; simp
        rw [this, List.flatMap_append, g1 ds, t1.packets ds]
        simp only [putsSent, List.flatMap_cons]
        congr 1
        have hid : (putItems ∘ ReqBody.put) = id := rfl
        simp [packetsFor, Spec.queued, List.flatMap_def, hid]
      · rcases List.mem_append.mp hy with hy | hy
        · obtain ⟨-, ds, -, u2, u3, -⟩ := t1.place y hy
          exact ⟨ds, u2, u3⟩
        · exact g2 y hy
      · simp only [List.flatMap_cons, List.map_append, List.flatMap_append, t2, g3]
  obtain ⟨d, g1, g2, g3⟩ := key st'.sent (fun _ h => h)
  exact ⟨d, fun ds => by rw [g1 ds, h1 ds], g2, by rw [h2]; exact g3⟩

/-! ## Below the limit -/

private theorem calm_run {b : Backend σ} {e : Env} {s : σ} {p : Priv} (hp : Starting p) {jobs : List Job}
    (h0 : 0 < p.opts.asyncMax) (hb : Below (p.hash e) p.servers p.opts.asyncMax 0 jobs) {l : List Act} {st : St σ}
    (hr : Run b e (start s p jobs) l st) : Calm e st :=
  hr.induct (P := fun st => Calm e st) (fun _ _ _ h hs => calm_step h hs) (calm_start s p jobs hp.running hp.count h0 hb)

/-- C32, partial: as long as the number of queued PUTs stays below the limit there is no data race. -/
theorem C32_no_race_partial (b : Backend σ) (e : Env) (s : σ) (p : Priv) (hp : Starting p) (jobs : List Job)
    (h0 : 0 < p.opts.asyncMax) (hb : Below (p.hash e) p.servers p.opts.asyncMax 0 jobs) (l : List Act) (st : St σ)
    (hr : Run b e (start s p jobs) l st) : ¬ Races st := by
  have hi := calm_run hp h0 hb hr
  rintro (⟨h1, h2⟩ | ⟨r, h⟩)
  · have := (hi.rests (by rw [h1]; rfl) (by rw [h1]; rfl)).1
    rw [h2] at this; cases this
  · have := hi.bg
    rw [h] at this
    rcases this with h | h | h <;> cases h

/-- C32, partial: below the limit every interleaving of the two threads gives, between two calls, the
servers, session and results of the calls made so far, one after the other, with a background thread
that works only while it is waited for. -/
theorem C32_in_turn_partial (b : Backend σ) (e : Env) (s : σ) (p : Priv) (hp : Starting p) (jobs : List Job)
    (h0 : 0 < p.opts.asyncMax) (hb : Below (p.hash e) p.servers p.opts.asyncMax 0 jobs) (l : List Act) (st : St σ)
    (hr : Run b e (start s p jobs) l st) (hu : st.user = .idle) :
    ∃ called s1 p1, jobs = called ++ st.jobs ∧ asyncPuts b e s p = .ok (s1, p1, true) ∧
      inTurn b e called (s1, p1, []) = .ok (st.srv, st.p, st.told) := by
  have key : Calm e st ∧ st.p.opts.asyncEnabled = true ∧ Seq b e (twice b e s p) [] jobs st :=
    hr.induct (P := fun st => Calm e st ∧ st.p.opts.asyncEnabled = true ∧ Seq b e (twice b e s p) [] jobs st)
      (fun _ _ _ h hs => ⟨calm_step h.1 hs, (step_enabled hs).trans h.2.1, seq_step h.1 h.2.1 hs h.2.2⟩)
      ⟨calm_start s p jobs hp.running hp.count h0 hb, hp.enabled, seq_start s p jobs⟩
  obtain ⟨l, x, h1, -, h2, h3⟩ := key.2.2.idle hu
  refine ⟨l, x.1, x.2, h1, ?_, h3⟩
  have he : ∀ p : Priv, p.kept = none → p.thread = true → { p with kept := none, thread := true } = p := by
    intro p h1 h2
    cases p
    simp_all
  rw [asyncPuts, if_pos hp.enabled, he p hp.kept hp.thread]
  unfold twice at h2
  obtain ⟨y, g1, g2⟩ := ok_iff.mp h2
  rw [g1, Out.ok_bind, g2, Out.ok_bind]

/-! ## Progress -/

/-- C32: the threads do not block each other. While the user is in a call, one of them can take a step. -/
theorem C32_no_deadlock (b : Backend σ) (e : Env) (s : σ) (p : Priv) (hp : Starting p) (jobs : List Job) (l : List Act)
    (st : St σ) (hr : Run b e (start s p jobs) l st) (h1 : st.user ≠ .idle) (h2 : st.user ≠ .closed) :
    (step b e st .user).isSome = true ∨ (step b e st .bg).isSome = true :=
  live_moves (hr.induct (fun _ _ _ h hs => live_step h hs) (live_start s p jobs hp.running)) h1 h2

private theorem rank_le (st : St σ) : rank st ≤ 629 := by
  unfold rank
  have h1 : userRank st.user ≤ 600 := by
    unfold userRank
    split <;> (try split) <;> omega
  have h2 : bgRank st.p.opts.running st.bg ≤ 9 := by
    unfold bgRank
    split <;> (try split) <;> omega
  split <;> split <;> omega

/-- C32: a call returns after finitely many steps. Until the user begins another call the threads take
at most 629 steps, and 9 more for each spurious wakeup. -/
theorem C32_returns (b : Backend σ) (e : Env) (st st' : St σ) (h0 : 0 < st.p.opts.asyncMax) (l : List Act)
    (hr : Run b e st l st') (hj : st'.jobs.length = st.jobs.length) :
    (l.filter (fun a => ¬ Spurious a)).length ≤ 629 + 9 * (l.filter (fun a => Spurious a)).length := by
  have h1 := run_rank hr h0 hj
  have h2 := rank_le st
  have h3 : (l.filter (fun a => ¬ Spurious a)) = l.filter (fun a => !spurious a) :=
    List.filter_congr (fun a _ => by simp [spurious_iff])
  have h4 : (l.filter (fun a => Spurious a)) = l.filter spurious :=
    List.filter_congr (fun a _ => by simp [spurious_iff])
  rw [h3, h4]
  omega

/-! ## What is missing -/

/-- C32 is false with more than one datastore per range server: after `Open`, whatever the
interleaving was, a PUT for a datastore whose number is not below the number of range servers writes
behind the queue. -/
theorem C32_more_datastores_ub (b : Backend σ) (e : Env) (s : σ) (p : Priv) (hp : Starting p) (a : Queue.PutArg)
    (jobs : List Job) (l : List Act) (st : St σ) (hr : Run b e (start s p (.queue (.put a) :: jobs)) l st)
    (hu : st.user = .idle) (hj : st.jobs = .queue (.put a) :: jobs)
    (hg : Queue.given a.s = true ∧ Queue.given a.p = true ∧ Queue.given a.o = true)
    (hm : a.mask &&& Queue.putSPO ≠ 0) (ds : Nat) (hds : p.hash e a.s.bytes a.p.bytes = .ok ds) (hn : p.servers ≤ ds) :
    step b e st .user = some .ub := by
  have hi : Inv b e p (.queue (.put a) :: jobs) st :=
    hr.induct (fun _ _ _ h hs => inv_step h hs) (inv_start s p _ hp.running hp.kept hp.empty)
  have hf : Fresh (Job.queue (.put a) :: jobs).length st :=
    hr.induct (P := fun st => Fresh _ st) (fun _ _ _ h hs => fresh_step h hs) (fresh_start s p _ hp.running)
  have hq : st.p.queues.puts = List.replicate st.p.servers [] := by
    rcases hf.puts (by rw [hj]) with h | ⟨-, -, -, h⟩
    · exact h
    · rw [hu] at h
      rcases h with h | h | h <;> cases h
  have hservers : st.p.servers = p.servers := congrArg Queue.Cfg.servers hi.cfg
  have hhash : (st.p.cfg e).hash = p.hash e := congrArg Queue.Cfg.hash hi.cfg
  simp only [Async.step, stepUser, hu, begin, hj]
  have hread : ∀ x : Blob, Queue.given x = true → Queue.readable x = true := by
    intro x hx
    unfold Queue.given at hx
    unfold Queue.readable
    simp_all
  have hnone : st.p.queues.puts[ds]? = none := by
    rw [hq, hservers]
    simp [hn]
  have : Queue.exec (st.p.cfg e) st.p.queues (.put a) = .ub := by
    simp only [Queue.exec, hg.1, hg.2.1, hg.2.2, Bool.and_self, if_true, Queue.putImpl, Queue.putPermutations, Queue.putLoop]
    rw [if_neg hm]
    simp only [Queue.permute, if_true, Queue.hashOf, hread _ hg.1, hread _ hg.2.1, Bool.and_self, hhash, hds, Out.ok_bind]
    rw [if_neg (by omega)]
    simp only [Queue.enqueue, Int.toNat_natCast, hnone, Out.ub_bind]
  rw [this]
  rfl

namespace C32Ex

/-- The threads take the given steps. -/
def play (b : Backend σ) (e : Env) : List Act → St σ → Option (Out (St σ))
  | [], st => some (.ok st)
  | a :: l, st =>
    match step b e st a with
    | some (.ok st') => play b e l st'
    | x => x

theorem run_of_play (b : Backend σ) (e : Env) (l : List Act) (st st' : St σ) (h : play b e l st = some (.ok st')) :
    Run b e st l st' := by
  induction l generalizing st with
  | nil =>
    simp only [play, Option.some.injEq, Out.ok.injEq] at h
    subst h
    exact .nil _
  | cons a l ih =>
    simp only [play] at h
    split at h
    · rename_i st1 h1
      exact .cons h1 (ih _ h)
    · rename_i hne
      exact absurd h (hne st')

/-- One range server, and as many PUTs as given before the background thread starts by itself. -/
def priv (max : Nat) : Priv := { Priv.new with
  opts := { Config.Opts.new with
    running := true, comm := .world (some 1), clientRatio := 1, serverRatio := 1, perServer := 1
    hashFunc := some (.builtin .datastoreZero), asyncEnabled := true, asyncMax := max, maxOps := 4 }
  size := 1, servers := 1, total := 1, ids := [0], dsToRank := [0], queues := Queue.Queues.init 1, thread := true }

theorem starting (max : Nat) : Starting (priv max) := ⟨rfl, rfl, rfl, rfl, by simp [priv, Queue.Queues.init], rfl⟩

def put (b : UInt8) : Job := .queue (.put ⟨C39Ex.blob 1, C39Ex.blob 2, C39Ex.blob b, 1⟩)

/-- Both rounds of the wait in `Open`, the user asleep while the thread works. -/
def opening : List Act := [.user, .user, .bg, .bg, .bg, .bg, .bg, .bg, .user, .user, .user, .bg, .bg, .bg, .bg, .bg, .bg, .user]

def after (max : Nat) (jobs : List Job) (l : List Act) : Option (Out (St (List (Int × Nat)))) :=
  play C39Ex.log C39Ex.env (opening ++ l) (start [] (priv max) jobs)

/-- The PUT makes the background thread start. `FlushPuts` takes the end of that run for the end of the
one it has asked for, and so is one run ahead of the thread. -/
def late : List Act := [.bg, .user, .bg, .user, .user, .user, .bg, .bg, .bg, .bg, .bg, .bg, .user, .user, .user,
  .bg, .bg, .bg, .bg, .bg, .bg, .user, .user, .bg]

/-- The same, but the run begins only when `FlushPuts` has taken the results. -/
def later : List Act := [.bg, .user, .bg, .user, .user, .user, .bg, .bg, .bg, .bg, .bg, .bg, .user, .user, .user,
  .bg, .bg, .bg, .bg, .bg, .user, .user]

end C32Ex
open C32Ex

/-- C32 is false: when the number of queued PUTs reaches the limit, there is an interleaving in which
`FlushPuts` reads and clears the results while the background thread stores new ones. -/
theorem C32_race_ub : ∃ (p : Priv) (jobs : List Job) (l : List Act) (st : St (List (Int × Nat))), Starting p ∧
    Run C39Ex.log C39Ex.env (start [] p jobs) l st ∧ Races st ∧ step C39Ex.log C39Ex.env st .bg = some .ub := by
  have h : (match after 1 [put 3, .flushPuts] late with
      | some (.ok st) => (match st.bg with | .store _ true => true | _ => false)
      | _ => false) = true := by decide +kernel
  split at h
  · rename_i st hst
    split at h
    · rename_i r hb
      refine ⟨_, _, _, st, starting 1, run_of_play _ _ _ _ _ hst, .inr ⟨r, hb⟩, ?_⟩
      simp [Async.step, stepBg, hb]
    · cases h
  · cases h

/-- The results race as well when the background thread begins while `FlushPuts` sends the PUTs that are
left, as it has not synchronised with the thread since it took the results. -/
theorem C32_race_drain_ub : ∃ (p : Priv) (jobs : List Job) (l : List Act) (st : St (List (Int × Nat))) (r : Results),
    Starting p ∧ Run C39Ex.log C39Ex.env (start [] p jobs) l st ∧ st.bg = .check ∧ st.user = .drain r ∧
    ∃ l' st', Run C39Ex.log C39Ex.env st l' st' ∧ Act.user ∉ l' ∧ step C39Ex.log C39Ex.env st' .bg = some .ub := by
  have h : (match after 1 [put 3, .flushPuts] later with
      | some (.ok st) => (match st.bg, st.user with | .check, .drain _ => true | _, _ => false) &&
        (match play C39Ex.log C39Ex.env [.bg, .bg] st with
        | some (.ok st') => (match st'.bg with | .store _ true => true | _ => false)
        | _ => false)
      | _ => false) = true := by decide +kernel
  split at h
  · rename_i st hst
    rw [Bool.and_eq_true] at h
    obtain ⟨h1, h2⟩ := h
    split at h1
    · rename_i r hb hu
      split at h2
      · rename_i st' hst'
        split at h2
        · rename_i r' hb'
          refine ⟨_, _, _, st, r, starting 1, run_of_play _ _ _ _ _ hst, hb, hu, _, st', run_of_play _ _ _ _ _ hst', by decide, ?_⟩
          simp [Async.step, stepBg, hb']
        · cases h2
      · cases h2
    · cases h1
  · cases h

/-- C32 is false when the session is closed: the PUT that is queued then is never sent. -/
theorem C32_close_false : ∃ (p : Priv) (jobs : List Job) (l : List Act) (st : St (List (Int × Nat))), Starting p ∧
    Run C39Ex.log C39Ex.env (start [] p jobs) l st ∧ st.user = .closed ∧ st.bg = .exited ∧
    putsAsked C39Ex.env p st.asked 0 ≠ [] ∧ putsSent st.sent 0 = [] := by
  have h : (match after 4 [put 3, .close] [.user, .user, .user, .user, .user, .user, .bg, .user] with
      | some (.ok st) => (match st.user, st.bg with | .closed, .exited => true | _, _ => false) &&
        !(putsAsked C39Ex.env (priv 4) st.asked 0).isEmpty && (putsSent st.sent 0).isEmpty
      | _ => false) = true := by decide +kernel
  split at h
  · rename_i st hst
    simp only [Bool.and_eq_true, Bool.not_eq_true', List.isEmpty_eq_false_iff, List.isEmpty_iff] at h
    obtain ⟨⟨h1, h2⟩, h3⟩ := h
    split at h1
    · rename_i g1 g2
      exact ⟨_, _, _, st, starting 4, run_of_play _ _ _ _ _ hst, g1, g2, h2, h3⟩
    · cases h1
  · cases h

/-! ## Examples -/

namespace C32Ex

/-- Two PUTs and `FlushPuts`, up to the point where it sends what is left: the background thread starts
at the second PUT, and the user waits for two more runs. -/
def flushing : List Act := [.user, .bg, .bg, .user, .bg, .bg, .bg, .bg, .bg, .user, .user, .user, .spuriousUser, .user,
  .bg, .bg, .bg, .bg, .bg, .bg, .user, .user, .user, .bg, .bg, .bg, .bg, .bg, .bg, .user, .user]

/-- A session with a hash function of the user that always says 1, and two datastores on its only
range server. -/
def two : Priv := { priv 4 with
  opts := { (priv 4).opts with perServer := 2, hashFunc := some (.user 5) }
  total := 2, ids := [0, 1], dsToRank := [0, 0], queues := Queue.Queues.init 2 }

def toOne : Env := { C39Ex.env with userHash := fun _ _ _ _ => .ok 1 }

/-- The datastores of the model instead of those that only remember. -/
def stores : Backend World := ⟨World.serve exCb 100, fun s _ _ _ => some s, fun s _ _ => (s, 0), fun s _ _ _ => s, fun s _ _ => s⟩

def world : World := ⟨fun _ => [exDs .level []], fun _ => true, 0⟩

end C32Ex

/-- Hypotheses of `C32_at_most_once`, `C32_flush_partial` and `C30_async_partial`: the run of the
example ends where `FlushPuts` sends what is left, and two PUTs have been sent together. -/
example : Starting (priv 2) ∧ ∃ st, Run C39Ex.log C39Ex.env (start [] (priv 2) [put 3, put 4, .flushPuts, .close])
    (opening ++ flushing) st ∧ ∃ r st', st.user = .drain r ∧ step C39Ex.log C39Ex.env st .user = some (.ok st') ∧
      st'.srv = [(0, 2)] ∧ (putsSent st'.sent 0).length = 2 ∧ st'.returned.map (fun r => r.items.length) = [2] := by
  refine ⟨starting 2, ?_⟩
  have h : (match after 2 [put 3, put 4, .flushPuts, .close] flushing with
      | some (.ok st) => (match st.user with
        | .drain _ => (match Async.step C39Ex.log C39Ex.env st .user with
          | some (.ok st') => decide (st'.srv = [(0, 2)]) && decide ((putsSent st'.sent 0).length = 2) &&
              decide (st'.returned.map (fun r => r.items.length) = [2])
          | _ => false)
        | _ => false)
      | _ => false) = true := by decide +kernel
  split at h
  · rename_i st hst
    split at h
    · rename_i r hu
      split at h
      · rename_i st' hs
        simp only [Bool.and_eq_true, decide_eq_true_eq] at h
        exact ⟨st, run_of_play _ _ _ _ _ hst, r, st', hu, hs, h.1.1, h.1.2, h.2⟩
      · cases h
    · cases h
  · cases h

/-- With a limit of 4 two PUTs before a flush stay below it, and so do two more after it. -/
example : Below ((priv 4).hash C39Ex.env) (priv 4).servers (priv 4).opts.asyncMax 0
    [put 3, put 4, .flushPuts, put 5, .flushGets, put 6, .flushPuts, .close] := by
  have h : ∀ x ∈ [(3 : UInt8), 4, 5, 6], putNumber (ops ((priv 4).hash C39Ex.env) (priv 4).servers (.put ⟨C39Ex.blob 1, C39Ex.blob 2, C39Ex.blob x, 1⟩)) ≤ 1 := by
    decide +kernel
  simp only [Below, put]
  have h3 := h 3 (by simp); have h4 := h 4 (by simp); have h5 := h 5 (by simp); have h6 := h 6 (by simp)
  have : (priv 4).opts.asyncMax = 4 := rfl
  rw [this]
  refine ⟨by omega, by omega, by omega, by omega, trivial⟩

/-- Hypotheses of `C32_more_datastores_ub`. -/
example : Starting two ∧ two.hash toOne [1] [2] = .ok (1 : Nat) ∧ two.servers ≤ 1 ∧
    ∃ st, Run C39Ex.log toOne (start [] two [put 3]) opening st ∧ st.user = .idle ∧ st.jobs.length = 1 := by
  refine ⟨⟨rfl, rfl, rfl, rfl, by simp [two, Queue.Queues.init], rfl⟩, rfl, Nat.le_refl _, ?_⟩
  have h : (match play C39Ex.log toOne opening (start [] two [put 3]) with
      | some (.ok st) => (match st.user with | .idle => decide (st.jobs.length = 1) | _ => false)
      | _ => false) = true := by decide +kernel
  split at h
  · rename_i st hst
    split at h
    · rename_i hu
      exact ⟨st, run_of_play _ _ _ _ _ hst, hu, by simpa using h⟩
    · cases h
  · cases h

/-- Hypotheses of `C32_results_partial`, and the results. -/
example : Usable world ∧ Routed ((priv 2).net C39Ex.env) (priv 2).total ∧ (priv 2).queues.puts.length ≤ (priv 2).total ∧
    SendableReqBody (.put [PutItem.make (C39Ex.blob 1) (C39Ex.blob 2) (C39Ex.blob 3)]) ∧
    (match play stores C39Ex.env (opening ++ flushing ++ [.user]) (start world (priv 2) [put 3, put 4, .flushPuts]) with
      | some (.ok st) => st.returned.map (fun r => r.items.map (fun i => (i.rs, i.predicate.addr, i.status)))
      | _ => []) = [[(0, 1, 3), (0, 1, 3)]] := by
  refine ⟨?_, ⟨Nat.le_refl _, ?_, ?_⟩, Nat.le_refl _, ?_, by decide +kernel⟩
  · intro rank d hd
    simp only [world, List.mem_cons, List.not_mem_nil, or_false] at hd
    subst hd; rfl
  · intro ds rank h1 h2 h3
    have : ds = 0 := by simp [priv] at h1; omega
    subst this
    cases h2
    exact absurd rfl h3
  · intro ds ds' rank h1 h2 h3 _ h5
    have : ds = 0 := by simp [priv] at h1; omega
    subst this
    cases h3
    exact absurd rfl h5
  · intro x hx
    simp only [List.mem_cons, List.not_mem_nil, or_false] at hx
    subst hx
    exact ⟨by decide, by decide, by decide⟩

end Hx.Props

import Verif.Model.AsyncJob
import Verif.Model.Job
import Verif.Proofs.Async
import Verif.Proofs.JobFail

/-!
# Ranks with asynchronous PUTs taking turns: helper lemmas
-/

namespace Hx.AsyncJob
open Hx Msg Process Results Session Async Spec

variable {σ : Type} {b : Backend σ} {e : Env}

/-! ## A turn of one rank, one call after the other -/

theorem process_nothing {α : Type} (net : Net) (serve : Server σ) (mk : List α → ReqBody) (s : σ) (n : Nat) :
    process net serve mk s (List.replicate n []) = .ok (s, Results.create, List.replicate n []) := by
  have h : remaining (List.replicate n ([] : List (List α))) = 0 :=
    remaining_of_queued (fun q hq => (List.mem_replicate.mp hq).2)
  unfold process processLoop
  rw [h, if_pos rfl]

/-- What the parts of a turn give. -/
structure Stages (σ : Type) where
  puts : σ × Results × List (List (List PutItem))
  gets : σ × Results × List (List (List GetItem))
  getops : σ × Results × List (List (List GetOpItem))
  dels : σ × Results × List (List (List DelItem))
  hists : σ × Results × List (List (List Blob))

def stages (net : Net) (serve : Server σ) (s : σ) (q : Queue.Queues) : Out (Stages σ) :=
  process net serve .put s q.puts >>= fun y1 =>
  process net serve .get y1.1 q.gets >>= fun y2 =>
  process net serve .getop y2.1 q.getops >>= fun y3 =>
  process net serve .del y3.1 q.dels >>= fun y4 =>
  process net serve .hist y4.1 q.hists >>= fun y5 => .ok ⟨y1, y2, y3, y4, y5⟩

/-- Results of `FlushPuts` that wait for the background thread. -/
def putResults (kept : Option Results) (r : Results) : Results :=
  ((Results.create.append ((some (keep (some (keep kept r)) Results.create)).getD Results.create)).1.append Results.create).1

theorem bind_assoc' {α β γ : Type} (x : Out α) (f : α → Out β) (g : β → Out γ) :
    (x >>= f) >>= g = x >>= fun a => f a >>= g := by cases x <;> rfl

theorem flushPuts_eq (s : σ) (p : Priv) (ha : p.opts.asyncEnabled = true) (hr : p.opts.running = true) :
    flushPriv b e s p .puts = process (p.net e) b.serve .put s p.queues.puts >>= fun y =>
      .ok (y.1, { p with queues := { p.queues with puts := List.replicate p.servers [], putCount := 0 }, kept := none },
        putResults p.kept y.2.1) := by
  simp only [flushPriv, Session.flushPuts, ha, hr, if_true, background]
  cases h : process (p.net e) b.serve .put s p.queues.puts with
  | ok y =>
    simp only [Out.ok_bind, process_nothing]
    rfl
  | err => rfl
  | ub => rfl

theorem inTurn_calls (calls : List Queue.Call) (L : List Job) (s : σ) (p : Priv) (rs : List Results) :
    inTurn b e (calls.map .queue ++ L) (s, p, rs) =
      Queue.calls (p.cfg e) true p.queues calls >>= fun q => inTurn b e L (s, { p with queues := q }, rs) := by
  induction calls generalizing p with
  | nil => rfl
  | cons c calls ih =>
    simp only [List.map_cons, List.cons_append, inTurn, Queue.calls, Queue.call, if_true]
    cases h : Queue.exec (p.cfg e) p.queues c with
    | ok r =>
      simp only [Out.ok_bind]
      rw [ih]
      rfl
    | err => rfl
    | ub => rfl

theorem inTurn_turn (calls : List Queue.Call) (s : σ) (p : Priv) (rs : List Results)
    (ha : p.opts.asyncEnabled = true) (hr : p.opts.running = true) :
    inTurn b e (turnJobs calls) (s, p, rs) =
      Queue.calls (p.cfg e) true p.queues calls >>= fun q => stages (p.net e) b.serve s q >>= fun z =>
        .ok (z.hists.1, { p with
          queues := ⟨List.replicate p.servers [], 0, z.gets.2.2, z.getops.2.2, z.dels.2.2, z.hists.2.2⟩, kept := none },
          rs ++ [putResults p.kept z.puts.2.1, z.gets.2.1, z.getops.2.1, z.dels.2.1, z.hists.2.1]) := by
  rw [turnJobs, inTurn_calls]
  cases Queue.calls (p.cfg e) true p.queues calls with
  | err => rfl
  | ub => rfl
  | ok q =>
    simp only [Out.ok_bind, inTurn, stages]
    rw [flushPuts_eq s { p with queues := q } ha hr]
    simp only [flushPriv, flushQueues, Process.flushGets, Process.flushGetOps, Process.flushDels, Process.flushHists, bind_assoc',
      Out.ok_bind, List.append_assoc, List.cons_append, List.nil_append]
    rfl

theorem turn_stages {cb : Store.Callbacks} {heap total : Nat} {w w' : World} {x : Job.Turn} {r : Results} :
    Job.turn cb heap total w x = .ok (w', r) ↔ ∃ q z, Queue.calls x.cfg true (Queue.Queues.init total) x.calls = .ok q ∧
      stages x.net (World.serve cb heap) w q = .ok z ∧ w' = z.hists.1 ∧
      r = ((((((Results.create.append (Results.create.append z.puts.2.1).1).1.append z.gets.2.1).1.append
        z.getops.2.1).1.append z.dels.2.1).1.append z.hists.2.1).1) := by
  unfold Job.turn
  constructor
  · intro h
    obtain ⟨q, hq, h⟩ := ok_iff.mp h
    obtain ⟨y, hy, h⟩ := ok_iff.mp h
    cases h
    simp only [flush, Process.flushPuts, Process.flushGets, Process.flushGetOps, Process.flushDels, Process.flushHists, bind_assoc',
      Out.ok_bind] at hy
    obtain ⟨y1, h1, hy⟩ := ok_iff.mp hy
    obtain ⟨y2, h2, hy⟩ := ok_iff.mp hy
    obtain ⟨y3, h3, hy⟩ := ok_iff.mp hy
    obtain ⟨y4, h4, hy⟩ := ok_iff.mp hy
    obtain ⟨y5, h5, hy⟩ := ok_iff.mp hy
    cases hy
    exact ⟨q, ⟨y1, y2, y3, y4, y5⟩, hq, by simp only [stages, h1, h2, h3, h4, h5, Out.ok_bind], rfl, rfl⟩
  · rintro ⟨q, z, hq, hz, rfl, rfl⟩
    obtain ⟨y1, h1, hz⟩ := ok_iff.mp hz
    obtain ⟨y2, h2, hz⟩ := ok_iff.mp hz
    obtain ⟨y3, h3, hz⟩ := ok_iff.mp hz
    obtain ⟨y4, h4, hz⟩ := ok_iff.mp hz
    obtain ⟨y5, h5, hz⟩ := ok_iff.mp hz
    cases hz
    simp only [hq, flush, Process.flushPuts, Process.flushGets, Process.flushGetOps, Process.flushDels, Process.flushHists, Out.ok_bind,
      h1, h2, h3, h4, h5]

/-! ## Ranks at rest and the rank whose turn it is -/

/-- Between turns. `p` is the session as it was opened. -/
structure Rest (e : Env) (total : Nat) (p : Priv) (st : St σ) : Prop where
  user : st.user = .idle
  jobs : st.jobs = []
  calm : Calm e st
  live : Live st
  enabled : st.p.opts.asyncEnabled = true
  kept : (st.p.kept.getD Results.create).items = []
  queues : st.p.queues = Queue.Queues.init total
  cfg : st.p.cfg e = p.cfg e
  net : st.p.net e = p.net e
  max : st.p.opts.asyncMax = p.opts.asyncMax

/-- In a turn that began with the servers and the session `x` and the results `rs`. -/
structure Busy (b : Backend σ) (e : Env) (x : σ × Priv) (rs : List Results) (calls : List Queue.Call) (st : St σ) : Prop where
  calm : Calm e st
  live : Live st
  enabled : st.p.opts.asyncEnabled = true
  seq : Seq b e (.ok x) rs (turnJobs calls) st
  closing : st.user.closing = false
  opening : st.user.opening = false
  max : st.p.opts.asyncMax = x.2.opts.asyncMax

theorem calm_srv {st : St σ} (h : Calm e st) (s : σ) : Calm e { st with srv := s } :=
  ⟨h.running, h.bg, h.rests, h.waits, h.count, h.jobs, h.opening⟩

theorem live_srv {st : St σ} (h : Live st) (s : σ) : Live { st with srv := s } :=
  ⟨h.running, h.exited, h.waiting, h.asleep, h.closing⟩

theorem rest_step {total : Nat} {p : Priv} {st st' : St σ} {a : Act} {s : σ} (h : Rest e total p st)
    (hs : step b e { st with srv := s } a = some (.ok st')) : Rest e total p st' ∧ st'.srv = s := by
  have hS := of_step hs
  have hc := calm_srv h.calm s
  have hl := live_srv h.live s
  have key : st'.srv = s ∧ st'.p = st.p ∧ st'.user = st.user ∧ st'.jobs = st.jobs := by
    cases a with
    | user => simp only [Async.step, stepUser, h.user, begin, h.jobs] at hs; cases hs
    | bg =>
      obtain ⟨h1, h2, h3⟩ := bg_quiet hc hS (by simp only [h.user]; rfl) (by simp only [h.user]; rfl)
      exact ⟨h1, h2, h3, (bg_same hS).1⟩
    | spuriousUser => simp only [Async.step, h.user] at hs; cases hs
    | spuriousBg =>
      simp only [Async.step] at hs
      split at hs
      · cases hs; exact ⟨rfl, rfl, rfl, rfl⟩
      · cases hs
  obtain ⟨k1, k2, k3, k4⟩ := key
  exact ⟨⟨k3.trans h.user, k4.trans h.jobs, calm_step hc hS, live_step hl hS, by rw [k2]; exact h.enabled, by rw [k2]; exact h.kept,
    by rw [k2]; exact h.queues, by rw [k2]; exact h.cfg, by rw [k2]; exact h.net, by rw [k2]; exact h.max⟩, k1⟩

theorem turnJobs_close (calls : List Queue.Call) : Job.close ∉ turnJobs calls := by
  simp [turnJobs]

/-- A rank that is not opening or closing only does so when told to. -/
theorem step_between {st st' : St σ} {a : Act} (hs : Step b e st a st') (hj : st.user = .idle → Job.close ∉ st.jobs)
    (hc : st.user.closing = false) (ho : st.user.opening = false) : st'.user.closing = false ∧ st'.user.opening = false := by
  cases hs with
  | close js hu hq => exact absurd (by rw [hq]; exact List.mem_cons_self) (hj hu)
  | notifyUser i w hb hu => rw [hu] at hc ho; cases w <;> first | exact ⟨rfl, rfl⟩ | (cases hc; done) | cases ho
  | enter i w hu => rw [hu] at hc ho; cases w <;> first | exact ⟨rfl, rfl⟩ | (cases hc; done) | cases ho
  | next w hu => rw [hu] at hc ho; cases w <;> first | exact ⟨rfl, rfl⟩ | (cases hc; done) | cases ho
  | stopped hu => rw [hu] at hc; cases hc
  | userSleep i w hu => rw [hu] at hc ho; cases w <;> first | exact ⟨rfl, rfl⟩ | (cases hc; done) | cases ho
  | join hu => rw [hu] at hc; cases hc
  | spuriousUser i w hu => rw [hu] at hc ho; cases w <;> first | exact ⟨rfl, rfl⟩ | (cases hc; done) | cases ho
  | queue c js q' ok hu => exact ⟨hc, ho⟩
  | other => exact ⟨hc, ho⟩
  | top => exact ⟨hc, ho⟩
  | take => exact ⟨hc, ho⟩
  | sleep => exact ⟨hc, ho⟩
  | work => exact ⟨hc, ho⟩
  | store => exact ⟨hc, ho⟩
  | setDone => exact ⟨hc, ho⟩
  | notify => exact ⟨hc, ho⟩
  | spuriousBg => exact ⟨hc, ho⟩
  | flushPuts => exact ⟨rfl, rfl⟩
  | opened => exact ⟨rfl, rfl⟩
  | waited => exact ⟨rfl, rfl⟩
  | collect => exact ⟨rfl, rfl⟩
  | drain => exact ⟨rfl, rfl⟩

theorem busy_step {x : σ × Priv} {rs : List Results} {calls : List Queue.Call} {st st' : St σ} {a : Act}
    (h : Busy b e x rs calls st) (hs : step b e st a = some (.ok st')) : Busy b e x rs calls st' := by
  have hS := of_step hs
  have hb := step_between hS (fun hu hm => by
    obtain ⟨l, y, h1, -⟩ := h.seq.idle hu
    exact turnJobs_close calls (h1 ▸ List.mem_append_right l hm)) h.closing h.opening
  exact ⟨calm_step h.calm hS, live_step h.live hS, (step_enabled hS).trans h.enabled, seq_step h.calm h.enabled hS h.seq, hb.1, hb.2,
    (step_max hS).trans h.max⟩

theorem putNumber_append (l l' : List Op) : putNumber (l ++ l') = putNumber l + putNumber l' := by
  unfold putNumber; rw [List.filter_append, List.length_append]

theorem below_turn {hash : Bytes → Bytes → Out Int} {servers max : Nat} (calls : List Queue.Call) {k : Nat}
    (h : k + putNumber (calls.flatMap (ops hash servers)) < max) : Below hash servers max k (turnJobs calls) := by
  unfold turnJobs
  induction calls generalizing k with
  | nil => simp [Below]
  | cons c calls ih =>
    rw [List.flatMap_cons, putNumber_append] at h
    exact ⟨by omega, ih (by omega)⟩

theorem rest_busy {total : Nat} {p : Priv} {st : St σ} {s : σ} {calls : List Queue.Call} (h : Rest e total p st)
    (hb : putNumber (calls.flatMap (ops (p.hash e) p.servers)) < p.opts.asyncMax) :
    Busy b e (s, st.p) st.told calls { st with srv := s, jobs := turnJobs calls } := by
  have hc := h.calm
  have hcount : st.p.queues.putCount = 0 := by rw [h.queues]; rfl
  refine ⟨⟨hc.running, hc.bg, hc.rests, hc.waits, hc.count, fun _ => ?_, hc.opening⟩, ⟨h.live.1, h.live.2, h.live.3, h.live.4, h.live.5⟩,
    h.enabled, ⟨fun ho => ?_, fun _ => ⟨[], (s, st.p), rfl, by simp, rfl, rfl⟩, fun _ _ hn => absurd h.user hn⟩, ?_, ?_, rfl⟩
  · have h1 : st.p.hash e = p.hash e := congrArg Queue.Cfg.hash h.cfg
    have h2 : st.p.servers = p.servers := congrArg Queue.Cfg.servers h.cfg
    simp only [h.user, hcount, h1, h2, h.max]
    exact below_turn calls (by omega)
  · simp only [h.user] at ho; cases ho
  · simp only [h.user]; rfl
  · simp only [h.user]; rfl

theorem busy_done {x : σ × Priv} {rs : List Results} {calls : List Queue.Call} {st : St σ} (h : Busy b e x rs calls st)
    (hu : st.user = .idle) (hj : st.jobs = []) : inTurn b e (turnJobs calls) (x.1, x.2, rs) = .ok (st.srv, st.p, st.told) := by
  obtain ⟨l, y, h1, -, h2, h3⟩ := h.seq.idle hu
  cases h2
  rw [hj, List.append_nil] at h1
  rw [h1]
  exact h3

theorem processed_empty {α : Type} {net : Net} {serve : Server σ} {mk : List α → ReqBody} {s s' : σ} {r : Results}
    {qs qs' : List (List (List α))} {total : Nat} (hl : qs.length = total) (h : process net serve mk s qs = .ok (s', r, qs')) :
    qs' = List.replicate total [] := by
  rw [(processLoop_ok h).1, ← hl, List.map_const']

theorem putResults_items {kept : Option Results} (h : (kept.getD Results.create).items = []) (r : Results) :
    (putResults kept r).items = r.items := by
  have hk : (keep kept r).items = r.items := by
    unfold keep
    cases kept with
    | none => rfl
    | some k => simp only [Job.append_items, Option.getD_some] at h ⊢; rw [h, List.nil_append]
  have hc : Results.create.items = [] := rfl
  simp only [putResults, Job.append_items, hc, List.nil_append, List.append_nil, Option.getD_some]
  show (keep (some (keep kept r)) Results.create).items = _
  rw [keep, Job.append_items, hc, List.append_nil, hk]

/-- What `Flush` makes of the five calls of `process`. -/
theorem flush_stages {net : Net} {serve : Server σ} {s : σ} {q : Queue.Queues} {z : Stages σ} (hz : stages net serve s q = .ok z) :
    flush net serve s q = .ok (z.hists.1, ((((((Results.create.append (Results.create.append z.puts.2.1).1).1.append
      z.gets.2.1).1.append z.getops.2.1).1.append z.dels.2.1).1.append z.hists.2.1).1),
      ⟨z.puts.2.2, 0, z.gets.2.2, z.getops.2.2, z.dels.2.2, z.hists.2.2⟩) := by
  obtain ⟨y1, h1, hz⟩ := ok_iff.mp hz
  obtain ⟨y2, h2, hz⟩ := ok_iff.mp hz
  obtain ⟨y3, h3, hz⟩ := ok_iff.mp hz
  obtain ⟨y4, h4, hz⟩ := ok_iff.mp hz
  obtain ⟨y5, h5, hz⟩ := ok_iff.mp hz
  cases hz
  simp only [flush, Process.flushPuts, Process.flushGets, Process.flushGetOps, Process.flushDels, Process.flushHists, Out.ok_bind,
    h1, h2, h3, h4, h5]

/-- A turn with asynchronous PUTs gives the same as one without. -/
theorem flush_done {total : Nat} {serve : Server σ} (hserve : b.serve = serve) {p : Priv}
    (hp : p.servers = total) {st0 st : St σ} {w : σ} {calls : List Queue.Call} (h0 : Rest e total p st0)
    (h : Busy b e (w, st0.p) st0.told calls st) (hu : st.user = .idle) (hj : st.jobs = []) :
    Rest e total p st ∧ ∃ q q' r, Queue.calls (p.cfg e) true (Queue.Queues.init total) calls = .ok q ∧
      flush (p.net e) serve w q = .ok (st.srv, r, q') ∧ r.items = (st.told.drop st0.told.length).flatMap (fun y => y.items) := by
  have hrun : st0.p.opts.running = true := by rw [h0.calm.running, h0.user]; rfl
  have hd := busy_done h hu hj
  rw [inTurn_turn calls w st0.p st0.told h0.enabled hrun] at hd
  obtain ⟨q, hq, hd⟩ := ok_iff.mp hd
  obtain ⟨z, hz, hd⟩ := ok_iff.mp hd
  simp only [Out.ok.injEq, Prod.mk.injEq] at hd
  obtain ⟨d1, d2, d3⟩ := hd
  have hservers : st0.p.servers = total := (congrArg Queue.Cfg.servers h0.cfg).trans hp
  rw [h0.cfg, h0.queues] at hq
  rw [h0.net, hserve] at hz
  obtain ⟨-, z2, z3, z4, z5⟩ := (Queue.calls_ok _ _ _ hq).sized _ (Queue.sized_init _)
  refine ⟨⟨hu, hj, h.calm, h.live, h.enabled, ?_, ?_, ?_, ?_, ?_⟩, q, _, _, hq, (flush_stages hz).trans (by rw [d1]), ?_⟩
  · rw [← d2]; rfl
  · rw [← d2]
    unfold stages at hz
    obtain ⟨y1, g1, hz⟩ := ok_iff.mp hz
    obtain ⟨y2, g2, hz⟩ := ok_iff.mp hz
    obtain ⟨y3, g3, hz⟩ := ok_iff.mp hz
    obtain ⟨y4, g4, hz⟩ := ok_iff.mp hz
    obtain ⟨y5, g5, hz⟩ := ok_iff.mp hz
    cases hz
    simp only [Queue.Queues.init, hservers, processed_empty z2 g2, processed_empty z3 g3, processed_empty z4 g4, processed_empty z5 g5]
  · rw [← d2]; exact h0.cfg
  · rw [← d2]; exact h0.net
  · rw [← d2]; exact h0.max
  · rw [← d3]
    simp only [List.drop_left, List.flatMap_cons, List.flatMap_nil, putResults_items h0.kept, Job.append_items, List.append_assoc,
      List.append_nil]
    rfl

/-- A turn with asynchronous PUTs gives the same as one without. -/
theorem turn_done {cb : Store.Callbacks} {heap total : Nat} {b : Backend World} (hserve : b.serve = World.serve cb heap) {p : Priv}
    (hp : p.servers = total) {st0 st : St World} {w : World} {calls : List Queue.Call} (h0 : Rest e total p st0)
    (h : Busy b e (w, st0.p) st0.told calls st) (hu : st.user = .idle) (hj : st.jobs = []) :
    Rest e total p st ∧ ∃ r, Job.turn cb heap total w ⟨p.cfg e, p.net e, calls⟩ = .ok (st.srv, r) ∧
      r.items = (st.told.drop st0.told.length).flatMap (fun y => y.items) := by
  obtain ⟨h1, q, q', r, h2, h3, h4⟩ := flush_done hserve hp h0 h hu hj
  refine ⟨h1, r, ?_, h4⟩
  unfold Job.turn
  rw [h2, Out.ok_bind, h3]
  rfl

/-! ## All ranks -/

variable {n : Nat} {env : Fin n → Env}

theorem set_same (S : Fin n → St σ) (i : Fin n) (st : St σ) : set S i st i = st := if_pos rfl
theorem set_other (S : Fin n → St σ) {i j : Fin n} (st : St σ) (h : j ≠ i) : set S i st j = S j := if_neg h

theorem steps_rest {total : Nat} {p : Fin n → Priv} {s s' : σ} {S S' : Fin n → St σ} (hs : Steps b env s S s' S')
    (h : ∀ j, Rest (env j) total (p j) (S j)) : s' = s ∧ ∀ j, Rest (env j) total (p j) (S' j) := by
  induction hs with
  | refl => exact ⟨rfl, h⟩
  | @step s S i a st s' S' h1 _ ih =>
    obtain ⟨g1, g2⟩ := rest_step (h i) h1
    obtain ⟨g3, g4⟩ := ih (fun j => by
      by_cases hj : j = i
      · subst hj; rw [set_same]; exact g1
      · rw [set_other _ _ hj]; exact h j)
    exact ⟨g3.trans g2, g4⟩

theorem steps_busy {total : Nat} {p : Fin n → Priv} {s s' : σ} {S S' : Fin n → St σ} (hs : Steps b env s S s' S') {i : Fin n}
    {x : σ × Priv} {rs : List Results} {calls : List Queue.Call} (h : ∀ j, j ≠ i → Rest (env j) total (p j) (S j))
    (hi : Busy b (env i) x rs calls { S i with srv := s }) :
    (∀ j, j ≠ i → Rest (env j) total (p j) (S' j)) ∧ Busy b (env i) x rs calls { S' i with srv := s' } := by
  induction hs with
  | refl => exact ⟨h, hi⟩
  | @step s S k a st s' S' h1 _ ih =>
    by_cases hk : k = i
    · subst hk
      have hb := busy_step hi h1
      exact ih (fun j hj => by rw [set_other _ _ hj]; exact h j hj) (by rw [set_same]; exact hb)
    · obtain ⟨g1, g2⟩ := rest_step (h k hk) h1
      refine ih (fun j hj => ?_) ?_
      · by_cases hjk : j = k
        · subst hjk; rw [set_same]; exact g1
        · rw [set_other _ _ hjk]; exact h j hj
      · rw [set_other _ _ (Ne.symm hk), g2]; exact hi

/-- The turn of a rank that was opened with `p`. -/
def turnOf (env : Fin n → Env) (p : Fin n → Priv) (x : Fin n × List Queue.Call × List Results) : Job.Turn :=
  ⟨(p x.1).cfg (env x.1), (p x.1).net (env x.1), x.2.1⟩

theorem turns_run {cb : Store.Callbacks} {heap total : Nat} {b : Backend World} (hserve : b.serve = World.serve cb heap)
    {p : Fin n → Priv} (hp : ∀ i, (p i).servers = total) {w w' : World} {S S' : Fin n → St World}
    {l : List (Fin n × List Queue.Call × List Results)} (hl : Turns b env w S l w' S')
    (h : ∀ j, Rest (env j) total (p j) (S j))
    (hb : ∀ x ∈ l, putNumber (x.2.1.flatMap (ops ((p x.1).hash (env x.1)) (p x.1).servers)) < (p x.1).opts.asyncMax) :
    (∀ j, Rest (env j) total (p j) (S' j)) ∧ ∃ rs, Job.run cb heap total w (l.map (turnOf env p)) = .ok (w', rs) ∧
      List.Forall₂ (fun r (x : Fin n × List Queue.Call × List Results) => r.items = x.2.2.flatMap (fun y => y.items)) rs l := by
  induction hl with
  | nil hs =>
    obtain ⟨h1, h2⟩ := steps_rest hs h
    exact ⟨h2, [], by rw [h1]; rfl, .nil⟩
  | @turn s S i calls s1 S1 l s' S' hs hu hj _ ih =>
    have hb0 := rest_busy (b := b) (s := s) (h i) (hb _ List.mem_cons_self)
    obtain ⟨h1, h2⟩ := steps_busy (total := total) (p := p) hs (i := i) (fun j hj => by rw [set_other _ _ hj]; exact h j)
      (by rw [set_same]; exact hb0)
    obtain ⟨h3, r, h4, h5⟩ := turn_done hserve (hp i) (h i) h2 hu hj
    obtain ⟨h6, rs, h7, h8⟩ := ih (fun j => by
      by_cases hj : j = i
      · subst hj
        exact ⟨h3.user, h3.jobs, calm_srv h3.calm (S1 j).srv, live_srv h3.live (S1 j).srv, h3.enabled, h3.kept, h3.queues, h3.cfg, h3.net,
          h3.max⟩
      · exact h1 j hj) (fun x hx => hb x (List.mem_cons_of_mem _ hx))
    refine ⟨h6, r :: rs, ?_, .cons h5 h8⟩
    simp only [List.map_cons, Job.run, turnOf]
    rw [h4, Out.ok_bind, h7, Out.ok_bind]

/-! ## Definedness and progress -/

theorem flush_parts {s : σ} {p : Priv} {y : σ × Priv × Results} (ha : p.opts.asyncEnabled = true) (hr : p.opts.running = true)
    (h : flushPriv b e s p .puts = .ok y) : ∃ x1 x2 z, background b e s p = .ok x1 ∧ background b e x1.1 x1.2 = .ok x2 ∧
      process (p.net e) b.serve .put x2.1 x2.2.queues.puts = .ok z := by
  simp only [flushPriv, Session.flushPuts, ha, hr, if_true] at h
  obtain ⟨u, hu, h⟩ := ok_iff.mp h
  obtain ⟨v, hv, hu⟩ := ok_iff.mp hu
  obtain ⟨x1, h1, hv⟩ := ok_iff.mp hv
  cases hu
  obtain ⟨z, hz, -⟩ := ok_iff.mp h
  exact ⟨x1, v, z, h1, hv, hz⟩

theorem background_parts {s : σ} {p : Priv} {x : σ × Priv} (h : background b e s p = .ok x) :
    ∃ z, process (p.net e) b.serve .put s p.queues.puts = .ok z := by
  obtain ⟨z, hz, -⟩ := ok_iff.mp h
  exact ⟨z, hz⟩

/-- The call of `FlushPuts` that waits for the background thread. -/
theorem busy_flush {x : σ × Priv} {rs : List Results} {calls : List Queue.Call} {st : St σ} (h : Busy b e x rs calls st)
    {y : σ × Priv × List Results} (hok : inTurn b e (turnJobs calls) (x.1, x.2, rs) = .ok y) (hu : st.user ≠ .idle) :
    ∃ s p z, flushPriv b e s p .puts = .ok z ∧ During b e s p st := by
  obtain ⟨l, x', s, p, h1, h2, h3, h4, h5⟩ := h.seq.flush h.opening h.closing hu
  cases h3
  rw [h1, inTurn_append _ _ h2, h4, Out.ok_bind] at hok
  obtain ⟨z, hz, -⟩ := ok_iff.mp hok
  exact ⟨s, p, z, hz, h5⟩

theorem busy_running {x : σ × Priv} {rs : List Results} {calls : List Queue.Call} {st : St σ} (h : Busy b e x rs calls st) :
    st.p.opts.running = true := by rw [h.calm.running, h.closing]; rfl

theorem out_cases {α : Type} {x : Out α} (h : ∃ y, x = .ok y) (f : α → Out (St σ)) (hf : ∀ y, ∃ z, f y = .ok z) :
    ∃ z, (x >>= f) = .ok z := by
  obtain ⟨y, rfl⟩ := h
  exact hf y

/-- When the calls one after the other are defined, so is every step of every interleaving. -/
theorem busy_defined {x : σ × Priv} {rs : List Results} {calls : List Queue.Call} {st : St σ} (h : Busy b e x rs calls st)
    {y : σ × Priv × List Results} (hok : inTurn b e (turnJobs calls) (x.1, x.2, rs) = .ok y) {a : Act} {r : Out (St σ)}
    (hs : Async.step b e st a = some r) : ∃ st', r = .ok st' := by
  cases a with
  | spuriousUser =>
    simp only [Async.step] at hs
    split at hs <;> cases hs
    exact ⟨_, rfl⟩
  | spuriousBg =>
    simp only [Async.step] at hs
    split at hs <;> cases hs
    exact ⟨_, rfl⟩
  | bg =>
    simp only [Async.step, stepBg] at hs
    split at hs
    · cases hs; exact ⟨_, rfl⟩
    · split at hs <;> cases hs <;> exact ⟨_, rfl⟩
    · cases hs
    · rename_i batch racy hb
      cases hs
      refine out_cases ?_ _ (fun _ => ⟨_, rfl⟩)
      obtain ⟨hw, hd, hf⟩ := calm_busy h.calm (by rw [hb]; rfl) h.closing
      obtain ⟨s, p, z, hz, hD⟩ := busy_flush h hok (fun hu => by rw [hu] at hw; cases hw)
      have key : ∀ s' p', Waiting b e s' p' st → st.srv = s' ∧ batch = p'.queues.puts ∧ st.p = taken p' := by
        intro s' p' h'
        simpa [Waiting, hd, hf, hb] using h'
      have first : ∀ s' p', Waiting b e s' p' st → (∃ x1, background b e s' p' = .ok x1) →
          ∃ y, process (st.p.net e) b.serve .put st.srv batch = .ok y := by
        rintro s' p' hW ⟨x1, h1⟩
        obtain ⟨k1, k2, k3⟩ := key _ _ hW
        obtain ⟨v, hv⟩ := background_parts h1
        refine ⟨v, ?_⟩
        rw [k1, k2, k3]
        exact hv
      have hopts : ∀ p', st.p = taken p' → p'.opts.asyncEnabled = true ∧ p'.opts.running = true := by
        intro p' h'
        have h1 := h.enabled
        have h2 := busy_running h
        rw [h'] at h1 h2
        exact ⟨h1, h2⟩
      unfold During at hD
      split at hD
      · rename_i hu; rw [hu] at hw; cases hw
      · obtain ⟨-, -, k3⟩ := key _ _ hD
        obtain ⟨e1, e2⟩ := hopts _ k3
        obtain ⟨x1, x2, v, g1, g2, g3⟩ := flush_parts e1 e2 hz
        exact first _ _ hD ⟨_, g1⟩
      · obtain ⟨-, -, k3⟩ := key _ _ hD
        obtain ⟨e1, e2⟩ := hopts _ k3
        obtain ⟨x1, x2, v, g1, g2, g3⟩ := flush_parts e1 e2 hz
        exact first _ _ hD ⟨_, g1⟩
      · rename_i hu; rw [hu] at hw; cases hw
      · obtain ⟨s1, p1, t1, t2⟩ := hD
        obtain ⟨-, -, k3⟩ := key _ _ t2
        obtain ⟨e1, e2⟩ := hopts _ k3
        rw [(background_priv t1).1] at e1 e2
        obtain ⟨x1, x2, v, g1, g2, g3⟩ := flush_parts e1 e2 hz
        rw [t1] at g1; cases g1
        exact first _ _ t2 ⟨_, g2⟩
      · obtain ⟨s1, p1, t1, t2⟩ := hD
        obtain ⟨-, -, k3⟩ := key _ _ t2
        obtain ⟨e1, e2⟩ := hopts _ k3
        rw [(background_priv t1).1] at e1 e2
        obtain ⟨x1, x2, v, g1, g2, g3⟩ := flush_parts e1 e2 hz
        rw [t1] at g1; cases g1
        exact first _ _ t2 ⟨_, g2⟩
      · rename_i hu; rw [hu] at hw; cases hw
      · rename_i hu; rw [hu] at hw; cases hw
      · exact hD.elim
    · rename_i r' racy hb
      split at hs
      · rename_i hr
        exfalso
        have := h.calm.bg
        rw [hb, hr] at this
        rcases this with h | h | h <;> cases h
      · cases hs; exact ⟨_, rfl⟩
    · split at hs <;> cases hs
      exact ⟨_, rfl⟩
    · cases hs; exact ⟨_, rfl⟩
    · cases hs
  | user =>
    simp only [Async.step, stepUser] at hs
    split at hs
    · rename_i hu
      obtain ⟨l, x', h1, h2, h3, h4⟩ := h.seq.idle hu
      cases h3
      rw [h1, inTurn_append _ _ h2, h4, Out.ok_bind] at hok
      simp only [begin] at hs
      split at hs
      · cases hs
      · rename_i c jobs hj
        cases hs
        rw [hj] at hok
        obtain ⟨z, hz, -⟩ := ok_iff.mp hok
        exact out_cases ⟨_, hz⟩ _ (fun _ => ⟨_, rfl⟩)
      · cases hs; exact ⟨_, rfl⟩
      · rename_i jobs hj
        cases hs
        rw [hj] at hok
        obtain ⟨z, hz, -⟩ := ok_iff.mp hok
        obtain ⟨v, hv, -⟩ := ok_iff.mp hz
        exact out_cases ⟨_, hv⟩ _ (fun _ => ⟨_, rfl⟩)
      · rename_i jobs hj
        cases hs
        rw [hj] at hok
        obtain ⟨z, hz, -⟩ := ok_iff.mp hok
        obtain ⟨v, hv, -⟩ := ok_iff.mp hz
        exact out_cases ⟨_, hv⟩ _ (fun _ => ⟨_, rfl⟩)
      · rename_i jobs hj
        cases hs
        rw [hj] at hok
        obtain ⟨z, hz, -⟩ := ok_iff.mp hok
        obtain ⟨v, hv, -⟩ := ok_iff.mp hz
        exact out_cases ⟨_, hv⟩ _ (fun _ => ⟨_, rfl⟩)
      · rename_i jobs hj
        cases hs
        rw [hj] at hok
        obtain ⟨z, hz, -⟩ := ok_iff.mp hok
        obtain ⟨v, hv, -⟩ := ok_iff.mp hz
        exact out_cases ⟨_, hv⟩ _ (fun _ => ⟨_, rfl⟩)
      · cases hs; exact ⟨_, rfl⟩
    · cases hs; exact ⟨_, rfl⟩
    · split at hs <;> cases hs <;> exact ⟨_, rfl⟩
    · cases hs
    · rename_i hu
      have hR := (h.calm.rests (by rw [hu]; rfl) (by rw [hu]; rfl)).1
      split at hs
      · rename_i hb; rw [hb] at hR; cases hR
      · cases hs; exact ⟨_, rfl⟩
    · rename_i r' hu
      cases hs
      refine out_cases ?_ _ (fun _ => ⟨_, rfl⟩)
      obtain ⟨s, p, z, hz, hD⟩ := busy_flush h hok (by rw [hu]; simp)
      unfold During at hD
      rw [hu] at hD
      obtain ⟨p2, u1, u2, -⟩ := hD
      obtain ⟨v1, v2⟩ := twice_priv u1
      have ho : st.p.opts = p.opts := by rw [u2]; exact v1
      have hnet : st.p.net e = p.net e := by rw [u2]; exact v2
      obtain ⟨x1, x2, v, g1, g2, g3⟩ := flush_parts (ho ▸ h.enabled) (ho ▸ busy_running h) hz
      unfold twice at u1
      rw [g1, Out.ok_bind, g2] at u1
      cases u1
      exact ⟨v, by rw [hnet, u2]; exact g3⟩
    · rename_i hu
      have := h.closing
      rw [hu] at this; cases this
    · cases hs

theorem busy_moves {x : σ × Priv} {rs : List Results} {calls : List Queue.Call} {st : St σ} (h : Busy b e x rs calls st)
    (hd : ¬ (st.user = .idle ∧ st.jobs = [])) : ∃ a r, spurious a = false ∧ Async.step b e st a = some r := by
  by_cases hu : st.user = .idle
  · refine ⟨.user, ?_⟩
    have hj : st.jobs ≠ [] := fun hj => hd ⟨hu, hj⟩
    simp only [Async.step, stepUser, hu, begin]
    cases hq : st.jobs with
    | nil => exact absurd hq hj
    | cons j jobs => cases j <;> exact ⟨_, rfl, rfl⟩
  · have hcl : st.user ≠ .closed := fun hc => by have := h.closing; rw [hc] at this; cases this
    rcases live_moves (b := b) (e := e) h.live hu hcl with hm | hm
    · obtain ⟨r, hr⟩ := Option.isSome_iff_exists.mp hm
      exact ⟨.user, r, rfl, hr⟩
    · obtain ⟨r, hr⟩ := Option.isSome_iff_exists.mp hm
      exact ⟨.bg, r, rfl, hr⟩

/-- From every state the turn can be completed. -/
theorem busy_completes {i : Fin n} {x : σ × Priv} {rs : List Results} {calls : List Queue.Call} {y : σ × Priv × List Results}
    (hok : inTurn b (env i) (turnJobs calls) (x.1, x.2, rs) = .ok y) (m k : Nat) {s : σ} {S : Fin n → St σ}
    (h : Busy b (env i) x rs calls { S i with srv := s }) (hm : (S i).jobs.length ≤ m) (hk : rank { S i with srv := s } ≤ k) :
    ∃ s' S', Steps b env s S s' S' ∧ (S' i).user = .idle ∧ (S' i).jobs = [] := by
  induction m using Nat.strongRecOn generalizing k s S with
  | _ m ihm =>
    induction k using Nat.strongRecOn generalizing s S with
    | _ k ihk =>
      by_cases hd : (S i).user = .idle ∧ (S i).jobs = []
      · exact ⟨s, S, .refl _ _, hd⟩
      · obtain ⟨a, r, ha, hr⟩ := busy_moves h hd
        obtain ⟨st, rfl⟩ := busy_defined h hok hr
        have hS := of_step hr
        have hb : Busy b (env i) x rs calls { (set S i st) i with srv := st.srv } := by rw [set_same]; exact busy_step h hr
        have hj := step_jobs hS
        have hmax : 0 < (S i).p.opts.asyncMax := Nat.lt_of_le_of_lt (Nat.zero_le _) (h.calm.count h.closing)
        by_cases heq : st.jobs.length = (S i).jobs.length
        · have hrank := rank_step hS hmax heq
          rw [ha] at hrank
          simp only [Bool.false_eq_true, if_false] at hrank
          obtain ⟨s', S', g1, g2⟩ := ihk (rank st) (Nat.lt_of_lt_of_le hrank hk) hb (by rw [set_same, heq]; exact hm)
            (Nat.le_of_eq (by rw [set_same]))
          exact ⟨s', S', .step hr g1, g2⟩
        · obtain ⟨s', S', g1, g2⟩ := ihm st.jobs.length (by
              have : st.jobs.length ≤ (S i).jobs.length := hj
              omega) (rank st) hb (Nat.le_of_eq (by rw [set_same])) (Nat.le_of_eq (by rw [set_same]))
          exact ⟨s', S', .step hr g1, g2⟩

/-! ## After `Open` -/

theorem opened_rest {total : Nat} {p : Priv} {s : σ} {acts : List Act} {st : St σ} (ha : p.opts.asyncEnabled = true)
    (hrun : p.opts.running = true) (hk : p.kept = none) (hq : p.queues = Queue.Queues.init total) (hs : p.servers = total)
    (hm : 0 < p.opts.asyncMax) (hr : Run b e (start s p []) acts st) (hu : st.user = .idle) : Rest e total p st ∧ st.srv = s := by
  have hc : p.queues.putCount = 0 := by rw [hq]; rfl
  have key : Calm e st ∧ Live st ∧ st.p.opts.asyncEnabled = true ∧ Seq b e (twice b e s p) [] [] st :=
    hr.induct (P := fun st => Calm e st ∧ Live st ∧ st.p.opts.asyncEnabled = true ∧ Seq b e (twice b e s p) [] [] st)
      (fun _ _ _ h hs => ⟨calm_step h.1 hs, live_step h.2.1 hs, (step_enabled hs).trans h.2.2.1, seq_step h.1 h.2.2.1 hs h.2.2.2⟩)
      ⟨calm_start s p [] hrun hc hm trivial, live_start s p [] hrun, ha, seq_start s p []⟩
  obtain ⟨k1, k2, k3, k4⟩ := key
  obtain ⟨l, x, h1, h2, h3, h4⟩ := k4.idle hu
  obtain ⟨rfl, hj⟩ := List.nil_eq_append_iff.mp h1
  simp only [inTurn, Out.ok.injEq, Prod.mk.injEq] at h4
  obtain ⟨g1, g2, -⟩ := h4
  have hputs : p.queues.puts = List.replicate p.servers [] := by rw [hq, hs]; rfl
  simp only [twice, background, hputs, process_nothing, Out.ok_bind, Out.ok.injEq] at h3
  rw [← h3] at g1 g2
  refine ⟨⟨hu, hj, k1, k2, k3, ?_, ?_, ?_, ?_, ?_⟩, g1.symm⟩
  · rw [← g2, hk]; rfl
  · rw [← g2, hs]
    simp only [hq, Queue.Queues.init]
  · rw [← g2]; rfl
  · rw [← g2]; rfl
  · rw [← g2]

theorem rest_defined {total : Nat} {p : Priv} {st : St σ} {a : Act} {s : σ} {r : Out (St σ)} (h : Rest e total p st)
    (hs : Async.step b e { st with srv := s } a = some r) : ∃ st', r = .ok st' := by
  have hR := (h.calm.rests (by rw [h.user]; rfl) (by rw [h.user]; rfl)).1
  cases a with
  | user => simp only [Async.step, stepUser, h.user, begin, h.jobs] at hs; cases hs
  | bg =>
    simp only [Async.step, stepBg] at hs
    split at hs
    · cases hs; exact ⟨_, rfl⟩
    · split at hs <;> cases hs <;> exact ⟨_, rfl⟩
    · cases hs
    · rename_i hb; rw [hb] at hR; cases hR
    · rename_i hb; rw [hb] at hR; cases hR
    · rename_i hb; rw [hb] at hR; cases hR
    · cases hs; exact ⟨_, rfl⟩
    · cases hs
  | spuriousUser => simp only [Async.step, h.user] at hs; cases hs
  | spuriousBg =>
    simp only [Async.step] at hs
    split at hs <;> cases hs
    exact ⟨_, rfl⟩

/-- A turn that is defined without asynchronous PUTs is defined with them. -/
theorem turn_inTurn {cb : Store.Callbacks} {heap total : Nat} {b : Backend World} (hserve : b.serve = World.serve cb heap) {p : Priv}
    {st : St World} {w : World} {calls : List Queue.Call} (h : Rest e total p st) {y : World × Results}
    (ht : Job.turn cb heap total w ⟨p.cfg e, p.net e, calls⟩ = .ok y) (rs : List Results) :
    ∃ z, inTurn b e (turnJobs calls) (w, st.p, rs) = .ok z := by
  have hrun : st.p.opts.running = true := by rw [h.calm.running, h.user]; rfl
  obtain ⟨q, z, hq, hz, -⟩ := turn_stages.mp ht
  rw [inTurn_turn calls w st.p rs h.enabled hrun, h.cfg, h.queues, hq, Out.ok_bind, h.net, hserve, hz, Out.ok_bind]
  exact ⟨_, rfl⟩

theorem turns_exist {cb : Store.Callbacks} {heap total : Nat} {b : Backend World} (hserve : b.serve = World.serve cb heap)
    {p : Fin n → Priv} (hp : ∀ i, (p i).servers = total) (ts : List (Fin n × List Queue.Call)) {w : World} {S : Fin n → St World}
    (h : ∀ j, Rest (env j) total (p j) (S j))
    (hb : ∀ x ∈ ts, putNumber (x.2.flatMap (ops ((p x.1).hash (env x.1)) (p x.1).servers)) < (p x.1).opts.asyncMax)
    {y : World × List Results}
    (hrun : Job.run cb heap total w (ts.map (fun x => ⟨(p x.1).cfg (env x.1), (p x.1).net (env x.1), x.2⟩)) = .ok y) :
    ∃ l w' S', l.map (fun x => (x.1, x.2.1)) = ts ∧ Turns b env w S l w' S' := by
  induction ts generalizing w S y with
  | nil => exact ⟨[], w, S, rfl, .nil (.refl _ _)⟩
  | cons x ts ih =>
    obtain ⟨i, calls⟩ := x
    simp only [List.map_cons, Job.run] at hrun
    obtain ⟨v, hv, hrun⟩ := ok_iff.mp hrun
    obtain ⟨z, hz, -⟩ := ok_iff.mp hrun
    have hb0 := rest_busy (b := b) (s := w) (h i) (hb _ List.mem_cons_self)
    obtain ⟨u, hu⟩ := turn_inTurn hserve (h i) hv (S i).told
    obtain ⟨w1, S1, g1, g2, g3⟩ := busy_completes (env := env) (S := set S i { S i with jobs := turnJobs calls }) hu _ _
      (by rw [set_same]; exact hb0) (Nat.le_refl _) (Nat.le_refl _)
    obtain ⟨h1, h2⟩ := steps_busy (total := total) (p := p) g1 (i := i) (fun j hj => by rw [set_other _ _ hj]; exact h j)
      (by rw [set_same]; exact hb0)
    obtain ⟨h3, r, h4, -⟩ := turn_done hserve (hp i) (h i) h2 g2 g3
    have hw1 : v.1 = w1 := by
      have := hv.symm.trans h4
      cases this
      rfl
    rw [hw1] at hz
    obtain ⟨l, w', S', k1, k2⟩ := ih (S := S1) (fun j => by
      by_cases hj : j = i
      · subst hj
        exact ⟨h3.user, h3.jobs, calm_srv h3.calm (S1 j).srv, live_srv h3.live (S1 j).srv, h3.enabled, h3.kept, h3.queues, h3.cfg, h3.net,
          h3.max⟩
      · exact h1 j hj) (fun x hx => hb x (List.mem_cons_of_mem _ hx)) hz
    exact ⟨_ :: l, w', S', by rw [List.map_cons, k1], .turn g1 g2 g3 k2⟩

end Hx.AsyncJob

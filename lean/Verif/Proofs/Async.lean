import Verif.Model.Async
import Verif.Spec.Async
import Verif.Proofs.Session
import Verif.Props.C26_Queue
import Verif.Props.C29_Flush
import Verif.Props.C33_Results

/-!
# Lemmas on asynchronous PUTs
-/

namespace Hx.Async
open Hx Msg Config Process Results Session Spec Hx.Props

variable {σ : Type} {b : Backend σ} {e : Env}

/-- The steps that return, one by one. -/
inductive Step (b : Backend σ) (e : Env) : St σ → Act → St σ → Prop where
  | top (st : St σ) : st.bg = .top → Step b e st .bg { st with bg := if st.p.opts.running then .check else .exited }
  | take (st : St σ) : st.bg = .check → Async.wanted st = true → Step b e st .bg { st with
      bg := .work st.p.queues.puts st.user.collected, flushed := false
      p := { st.p with queues := { st.p.queues with puts := List.replicate st.p.servers [], putCount := 0 } } }
  | sleep (st : St σ) : st.bg = .check → Async.wanted st = false → Step b e st .bg { st with bg := .asleep }
  | work (st : St σ) (batch racy s' r q) : st.bg = .work batch racy →
      process (st.p.net e) b.serve .put st.srv batch = .ok (s', r, q) →
      Step b e st .bg { st with srv := s', bg := .store r racy, sent := st.sent ++ [(st.srv, batch, r)] }
  | store (st : St σ) (r) : st.bg = .store r false →
      Step b e st .bg { st with bg := .setDone, p := { st.p with kept := some (Session.keep st.p.kept r) } }
  | setDone (st : St σ) : st.bg = .setDone → st.user.holds = false → Step b e st .bg { st with bg := .notify, done := true }
  | notifyUser (st : St σ) (i w) : st.bg = .notify → st.user = .asleep i w →
      Step b e st .bg { st with bg := .top, user := .wait i w }
  | notify (st : St σ) : st.bg = .notify → (∀ i w, st.user ≠ .asleep i w) → Step b e st .bg { st with bg := .top }
  | queue (st : St σ) (c jobs q' ok) : st.user = .idle → st.jobs = .queue c :: jobs →
      Queue.exec (st.p.cfg e) st.p.queues c = .ok (q', ok) → Step b e st .user { st with
        jobs := jobs, p := { st.p with queues := q' }, bg := if notifies c then wakeBg st.bg else st.bg
        asked := st.asked ++ [c] }
  | flushPuts (st : St σ) (jobs) : st.user = .idle → st.jobs = .flushPuts :: jobs →
      Step b e st .user { st with jobs := jobs, user := .enter false .flush }
  | other (st : St σ) (j jobs s' q' r) : st.user = .idle → st.jobs = j :: jobs → j ≠ .flushPuts → j ≠ .close →
      (∀ c, j ≠ .queue c) → q'.puts = st.p.queues.puts → q'.putCount = st.p.queues.putCount →
      OtherFlush (st.p.net e) b.serve st.srv s' →
      (∀ l rs, inTurn b e (j :: l) (st.srv, st.p, rs) = inTurn b e l (s', { st.p with queues := q' }, rs ++ [r])) →
      Step b e st .user { st with srv := s', jobs := jobs, p := { st.p with queues := q' }, told := st.told ++ [r] }
  | close (st : St σ) (jobs) : st.user = .idle → st.jobs = .close :: jobs → Step b e st .user { st with
      jobs := jobs, user := .enter false .close, p := { st.p with opts := { st.p.opts with running := false } } }
  | enter (st : St σ) (i w) : st.user = .enter i w → Step b e st .user { st with
      user := .wait i w, done := false, flushed := true, bg := wakeBg st.bg
      p := if w = .close then { st.p with queues := { st.p.queues with puts := [] } } else st.p }
  | next (st : St σ) (w) : st.user = .wait false w → (st.p.opts.running = false ∨ st.done = true) →
      Step b e st .user { st with user := .enter true w }
  | opened (st : St σ) : st.user = .wait true .opening → (st.p.opts.running = false ∨ st.done = true) →
      Step b e st .user { st with user := .idle }
  | waited (st : St σ) : st.user = .wait true .flush → (st.p.opts.running = false ∨ st.done = true) →
      Step b e st .user { st with user := .collect }
  | stopped (st : St σ) : st.user = .wait true .close → (st.p.opts.running = false ∨ st.done = true) →
      Step b e st .user { st with user := .join }
  | userSleep (st : St σ) (i w) : st.user = .wait i w → st.p.opts.running = true → st.done = false →
      Step b e st .user { st with user := .asleep i w }
  | collect (st : St σ) : st.user = .collect → st.bg ≠ .setDone → Step b e st .user { st with
      bg := st.bg.touched, user := .drain (Results.create.append (st.p.kept.getD Results.create)).1
      p := { st.p with kept := none } }
  | drain (st : St σ) (r s' r' q) : st.user = .drain r →
      process (st.p.net e) b.serve .put st.srv st.p.queues.puts = .ok (s', r', q) → Step b e st .user { st with
        srv := s', user := .idle, p := { st.p with queues := { st.p.queues with puts := q, putCount := 0 } }
        sent := st.sent ++ [(st.srv, st.p.queues.puts, r')], returned := st.returned ++ [(r.append r').1]
        told := st.told ++ [(r.append r').1] }
  | join (st : St σ) : st.user = .join → st.bg = .exited →
      Step b e st .user { st with user := .closed, p := { st.p with kept := none } }
  | spuriousUser (st : St σ) (i w) : st.user = .asleep i w → Step b e st .spuriousUser { st with user := .wait i w }
  | spuriousBg (st : St σ) : st.bg = .asleep → Step b e st .spuriousBg { st with bg := .check }

theorem other_step {st : St σ} {f : Queue.Queues → Out (σ × Results × Queue.Queues)} {j : Job} {jobs : List Job} {st' : St σ}
    (hf : ∀ x, f st.p.queues = .ok x → x.2.2.puts = st.p.queues.puts ∧ x.2.2.putCount = st.p.queues.putCount)
    (hu : st.user = .idle) (hj : st.jobs = j :: jobs) (h1 : j ≠ .flushPuts) (h2 : j ≠ .close) (h3 : ∀ c, j ≠ .queue c)
    (ho : ∀ x, f st.p.queues = .ok x → OtherFlush (st.p.net e) b.serve st.srv x.1)
    (ht : ∀ l rs, inTurn b e (j :: l) (st.srv, st.p, rs) = flushQueues f st.p >>= fun x => inTurn b e l (x.1, x.2.1, rs ++ [x.2.2]))
    (h : Async.other st jobs f = .ok st') : Step b e st .user st' := by
  unfold Async.other at h
  obtain ⟨x, hx, h⟩ := ok_iff.mp h
  simp only [Out.ok.injEq] at h; subst h
  obtain ⟨g1, g2⟩ := hf x hx
  exact .other st j jobs x.1 x.2.2 x.2.1 hu hj h1 h2 h3 g1 g2 (ho x hx) (fun l rs => by rw [ht]; simp only [flushQueues, hx, Out.ok_bind])

theorem of_step {st st' : St σ} {a : Act} (h : step b e st a = some (.ok st')) : Step b e st a st' := by
  cases a with
  | user =>
    simp only [step, stepUser] at h
    split at h
    · rename_i hu
      simp only [begin] at h
      split at h
      · cases h
      · rename_i c jobs hj
        simp only [Option.some.injEq] at h
        obtain ⟨r, hr, h⟩ := ok_iff.mp h
        simp only [Out.ok.injEq] at h; subst h
        exact .queue st c jobs r.1 r.2 hu hj hr
      · rename_i jobs hj
        simp only [Option.some.injEq, Out.ok.injEq] at h; subst h
        exact .flushPuts st jobs hu hj
      · rename_i jobs hj
        simp only [Option.some.injEq] at h
        refine other_step ?_ hu hj (by simp) (by simp) (by simp)
          (fun x hx => ⟨st.p.queues, x.2.2, x.2.1, .inl hx⟩) (fun l rs => rfl) h
        intro x hx
        unfold Process.flushGets at hx
        obtain ⟨y, -, hx⟩ := ok_iff.mp hx
        simp only [Out.ok.injEq] at hx; subst hx; exact ⟨rfl, rfl⟩
      · rename_i jobs hj
        simp only [Option.some.injEq] at h
        refine other_step ?_ hu hj (by simp) (by simp) (by simp)
          (fun x hx => ⟨st.p.queues, x.2.2, x.2.1, .inr (.inl hx)⟩) (fun l rs => rfl) h
        intro x hx
        unfold Process.flushGetOps at hx
        obtain ⟨y, -, hx⟩ := ok_iff.mp hx
        simp only [Out.ok.injEq] at hx; subst hx; exact ⟨rfl, rfl⟩
      · rename_i jobs hj
        simp only [Option.some.injEq] at h
        refine other_step ?_ hu hj (by simp) (by simp) (by simp)
          (fun x hx => ⟨st.p.queues, x.2.2, x.2.1, .inr (.inr (.inl hx))⟩) (fun l rs => rfl) h
        intro x hx
        unfold Process.flushDels at hx
        obtain ⟨y, -, hx⟩ := ok_iff.mp hx
        simp only [Out.ok.injEq] at hx; subst hx; exact ⟨rfl, rfl⟩
      · rename_i jobs hj
        simp only [Option.some.injEq] at h
        refine other_step ?_ hu hj (by simp) (by simp) (by simp)
          (fun x hx => ⟨st.p.queues, x.2.2, x.2.1, .inr (.inr (.inr hx))⟩) (fun l rs => rfl) h
        intro x hx
        unfold Process.flushHists at hx
        obtain ⟨y, -, hx⟩ := ok_iff.mp hx
        simp only [Out.ok.injEq] at hx; subst hx; exact ⟨rfl, rfl⟩
      · rename_i jobs hj
        simp only [Option.some.injEq, Out.ok.injEq] at h; subst h
        exact .close st jobs hu hj
    · rename_i i w hu
      simp only [Option.some.injEq, Out.ok.injEq] at h; subst h
      exact .enter st i w hu
    · rename_i i w hu
      split at h
      · rename_i hc
        have hc : st.p.opts.running = false ∨ st.done = true := by simpa using hc
        simp only [Option.some.injEq, Out.ok.injEq] at h; subst h
        cases i with
        | false => exact .next st w hu hc
        | true =>
          cases w with
          | opening => exact .opened st hu hc
          | flush => exact .waited st hu hc
          | close => exact .stopped st hu hc
      · rename_i hc
        simp only [Option.some.injEq, Out.ok.injEq] at h; subst h
        have hc : st.p.opts.running = true ∧ st.done = false := by simpa using hc
        exact .userSleep st i w hu hc.1 hc.2
    · cases h
    · rename_i hu
      split at h
      · cases h
      · rename_i hn
        simp only [Option.some.injEq, Out.ok.injEq] at h; subst h
        exact .collect st hu hn
    · rename_i r hu
      simp only [Option.some.injEq] at h
      obtain ⟨x, hx, h⟩ := ok_iff.mp h
      simp only [Out.ok.injEq] at h; subst h
      exact .drain st r x.1 x.2.1 x.2.2 hu hx
    · rename_i hu
      split at h
      · rename_i hb
        simp only [Option.some.injEq, Out.ok.injEq] at h; subst h
        exact .join st hu hb
      · cases h
    · cases h
  | bg =>
    simp only [step, stepBg] at h
    split at h
    · rename_i hb
      simp only [Option.some.injEq, Out.ok.injEq] at h; subst h; exact .top st hb
    · rename_i hb
      split at h
      · rename_i hw
        simp only [Option.some.injEq, Out.ok.injEq] at h; subst h; exact .take st hb hw
      · rename_i hw
        simp only [Option.some.injEq, Out.ok.injEq] at h; subst h; exact .sleep st hb (by simpa using hw)
    · cases h
    · rename_i batch racy hb
      simp only [Option.some.injEq] at h
      obtain ⟨x, hx, h⟩ := ok_iff.mp h
      simp only [Out.ok.injEq] at h; subst h
      exact .work st batch racy x.1 x.2.1 x.2.2 hb hx
    · rename_i r racy hb
      split at h
      · cases h
      · rename_i hr
        have : racy = false := by simpa using hr
        subst this
        simp only [Option.some.injEq, Out.ok.injEq] at h; subst h; exact .store st r hb
    · rename_i hb
      split at h
      · cases h
      · rename_i hr
        simp only [Option.some.injEq, Out.ok.injEq] at h; subst h; exact .setDone st hb (by simpa using hr)
    · rename_i hb
      simp only [Option.some.injEq, Out.ok.injEq] at h; subst h
      split
      · rename_i i w hu
        exact .notifyUser st i w hb hu
      · rename_i hu
        exact .notify st hb hu
    · cases h
  | spuriousUser =>
    simp only [step] at h
    split at h
    · rename_i i w hu
      simp only [Option.some.injEq, Out.ok.injEq] at h; subst h; exact .spuriousUser st i w hu
    · cases h
  | spuriousBg =>
    simp only [step] at h
    split at h
    · rename_i hb
      simp only [Option.some.injEq, Out.ok.injEq] at h; subst h; exact .spuriousBg st hb
    · cases h

theorem Run.induct {P : St σ → Prop} {st st' : St σ} {l : List Act} (hr : Run b e st l st')
    (hs : ∀ st a st', P st → Step b e st a st' → P st') (h : P st) : P st' := by
  induction hr with
  | nil => exact h
  | cons h1 _ ih => exact ih (hs _ _ _ h (of_step h1))

/-! ## Bookkeeping -/

/-- What the background thread has taken and not sent. -/
def Bg.batch : Bg → Batch
  | .work q _ => q
  | _ => []

/-- The results the background thread has not stored. -/
def Bg.results : Bg → List Result
  | .store r _ => r.items
  | _ => []

def Bg.mid : Bg → Bool
  | .work _ _ | .store _ _ | .setDone => true
  | _ => false

/-- The results `FlushPuts` has collected. -/
def User.results : User → List Result
  | .drain r => r.items
  | _ => []

def keptItems (p : Priv) : List Result := (p.kept.getD Results.create).items

/-- The queue is empty, and so is what the background thread holds. -/
structure Clear (st : St σ) : Prop where
  queue : remaining st.p.queues.puts = 0
  batch : remaining st.bg.batch = 0
  results : st.bg.results = []

/-- What has been achieved by the time `FlushPuts` is at a point. -/
def Phase (st : St σ) : Prop :=
  match st.user with
  | .enter true .flush => st.bg.mid = true → remaining st.p.queues.puts = 0
  | .wait false .flush | .asleep false .flush => st.done = true → st.bg.mid = true → remaining st.p.queues.puts = 0
  | .wait true .flush | .asleep true .flush =>
    (st.bg.mid = true → remaining st.p.queues.puts = 0) ∧ (st.done = true → Clear st)
  | .collect => Clear st
  | .drain _ => Clear st ∧ keptItems st.p = []
  | _ => True

/-- `Close` has begun. -/
def User.closing : User → Bool
  | .enter _ .close | .wait _ .close | .asleep _ .close | .join | .closed => true
  | _ => false

structure Inv (b : Backend σ) (e : Env) (p0 : Priv) (jobs0 : List Job) (st : St σ) : Prop where
  cfg : st.p.cfg e = p0.cfg e
  net : st.p.net e = p0.net e
  running : st.p.opts.running = !st.user.closing
  calls : ∀ x ∈ st.sent, ∃ s' q', process (p0.net e) b.serve .put x.1 x.2.1 = .ok (s', x.2.2, q')
  jobs : ∃ l, jobs0 = l ++ st.jobs ∧ st.asked = l.filterMap callOf
  puts : st.user.closing = false → ∀ ds,
    putsFor (p0.hash e) ds (st.asked.flatMap (ops (p0.hash e) p0.servers)) =
      st.sent.flatMap (fun x => Spec.queued x.2.1 ds) ++ Spec.queued st.bg.batch ds ++ Spec.queued st.p.queues.puts ds
  results : st.user.closing = false →
    st.sent.flatMap (fun x => x.2.2.items) =
      st.returned.flatMap (fun r => r.items) ++ st.user.results ++ keptItems st.p ++ st.bg.results
  phase : Phase st

theorem queued_zero {α : Type} {qs : List (List (List α))} (h : remaining qs = 0) (ds : Nat) : Spec.queued qs ds = [] := by
  have := (remaining_zero h).2
  unfold Spec.queued
  rw [this, List.getD_eq_getElem?_getD, List.getElem?_map]
  cases qs[ds]? <;> rfl

theorem remaining_replicate {α : Type} (n : Nat) : remaining (List.replicate n ([] : List (List α))) = 0 := by
  simp [remaining]

theorem remaining_map_nil {α : Type} (qs : List (List (List α))) : remaining (qs.map (fun _ => ([] : List (List α)))) = 0 := by
  unfold remaining; induction qs with
  | nil => rfl
  | cons q qs ih => simp

theorem process_empty {α : Type} {net : Net} {serve : Server σ} {mk : List α → ReqBody} {s : σ} {qs : List (List (List α))}
    (h : remaining qs = 0) : process net serve mk s qs = .ok (s, Results.create, qs) := by
  unfold process processLoop
  rw [if_pos h]

theorem keep_items (p : Priv) (r : Results) : keptItems { p with kept := some (Session.keep p.kept r) } = keptItems p ++ r.items := by
  unfold keptItems Session.keep
  cases p.kept with
  | none => rfl
  | some k => exact (C33_append k r).1

theorem putsFor_append (hash : Bytes → Bytes → Out Int) (ds : Nat) (l l' : List Op) :
    putsFor hash ds (l ++ l') = putsFor hash ds l ++ putsFor hash ds l' := by
  unfold putsFor; rw [List.filter_append, List.filterMap_append]

theorem wake_batch (x : Bg) : (wakeBg x).batch = x.batch := by cases x <;> rfl
theorem wake_results (x : Bg) : (wakeBg x).results = x.results := by cases x <;> rfl
theorem wake_mid (x : Bg) : (wakeBg x).mid = x.mid := by cases x <;> rfl
theorem touched_batch (x : Bg) : x.touched.batch = x.batch := by cases x <;> rfl
theorem touched_results (x : Bg) : x.touched.results = x.results := by cases x <;> rfl

theorem phase_of {st st' : St σ} (hu : st'.user = st.user) (hd : st'.done = st.done)
    (hm : st'.bg.mid = true → st.bg.mid = true ∨ remaining st'.p.queues.puts = 0)
    (hr : remaining st.p.queues.puts = 0 → remaining st'.p.queues.puts = 0) (hc : Clear st → Clear st')
    (hk : Clear st → keptItems st.p = [] → keptItems st'.p = []) (h : Phase st) : Phase st' := by
  have key : (st.bg.mid = true → remaining st.p.queues.puts = 0) → st'.bg.mid = true → remaining st'.p.queues.puts = 0 :=
    fun h1 h2 => (hm h2).elim (fun h3 => hr (h1 h3)) id
  unfold Phase at h ⊢
  rw [hu, hd]
  split <;> first | trivial | (rename_i he; rw [he] at h; simp only at h)
  · exact key h
  · exact fun h1 => key (h h1)
  · exact fun h1 => key (h h1)
  · exact ⟨key h.1, fun h1 => hc (h.2 h1)⟩
  · exact ⟨key h.1, fun h1 => hc (h.2 h1)⟩
  · exact hc h
  · exact ⟨hc h.1, hk h.1 h.2⟩

theorem clear_quiet {st st' : St σ} (hb : st'.bg.batch = []) (hr : st'.bg.results = [])
    (hq : st'.p.queues.puts = st.p.queues.puts) (h : Clear st) : Clear st' :=
  ⟨by rw [hq]; exact h.queue, by rw [hb]; rfl, hr⟩

theorem inv_step {p0 : Priv} {jobs0 : List Job} {st st' : St σ} {a : Act} (hi : Inv b e p0 jobs0 st)
    (hs : Step b e st a st') : Inv b e p0 jobs0 st' := by
  obtain ⟨cfg, net, running, calls, jobs, puts, results, phase⟩ := hi
  cases hs with
  | top hb =>
    rw [hb] at puts results
    refine ⟨cfg, net, running, calls, jobs, ?_, ?_, ?_⟩
    · cases st.p.opts.running <;> exact puts
    · cases st.p.opts.running <;> exact results
    · refine phase_of (st := st) rfl rfl ?_ id (clear_quiet ?_ ?_ rfl) (fun _ => id) phase
      · cases st.p.opts.running <;> (intro h; cases h)
      · cases st.p.opts.running <;> rfl
      · cases st.p.opts.running <;> rfl
  | take hb hw =>
    rw [hb] at puts results
    refine ⟨cfg, net, running, calls, jobs, ?_, results, ?_⟩
    · intro hc ds
      simp only [puts hc ds, Bg.batch, queued_zero (remaining_replicate _), List.append_nil]
      simp [Spec.queued]
    · exact phase_of (st := st) rfl rfl (fun _ => .inr (remaining_replicate _)) (fun _ => remaining_replicate _)
        (fun h => ⟨remaining_replicate _, h.queue, rfl⟩) (fun _ => id) phase
  | sleep hb hw =>
    rw [hb] at puts results
    exact ⟨cfg, net, running, calls, jobs, puts, results,
      phase_of (st := st) rfl rfl (fun h => by cases h) id (clear_quiet rfl rfl rfl) (fun _ => id) phase⟩
  | work batch racy s' r q hb hp =>
    rw [hb] at puts results
    refine ⟨cfg, net, running, ?_, jobs, ?_, ?_, ?_⟩
    · intro x hx
      rcases List.mem_append.mp hx with hx | hx
      · exact calls x hx
      · rw [List.mem_singleton.mp hx, ← net]; exact ⟨s', q, hp⟩
    · intro hc ds
      rw [puts hc ds]
      simp [Bg.batch, Spec.queued]
    · intro hc
      have := results hc
      simp only [Bg.results, List.append_nil] at this
      simp [Bg.results, this]
    · refine phase_of (st := st) rfl rfl (fun _ => .inl (by rw [hb]; rfl)) id (fun h => ?_) (fun _ => id) phase
      have h1 : remaining batch = 0 := by
        have h1 := h.batch
        rw [hb] at h1
        exact h1
      rw [process_empty h1] at hp
      cases hp
      exact ⟨h.queue, rfl, rfl⟩
  | store r hb =>
    rw [hb] at puts results
    refine ⟨cfg, net, running, calls, jobs, puts, ?_, ?_⟩
    · intro hc
      simp only [keep_items]
      rw [results hc]
      simp [Bg.results]
    · refine phase_of (st := st) rfl rfl (fun _ => .inl (by rw [hb]; rfl)) id (fun h => ⟨h.queue, rfl, rfl⟩) (fun h hk => ?_) phase
      have h1 := h.results
      rw [hb] at h1
      simp only [keep_items, hk, List.nil_append]
      exact h1
  | setDone hb hh =>
    rw [hb] at puts results
    refine ⟨cfg, net, running, calls, jobs, puts, results, ?_⟩
    unfold Phase at phase ⊢
    simp only
    split <;> first | trivial | (rename_i he; rw [he] at phase hh; simp only at phase)
    · cases hh
    · cases hh
    · intro _ h; cases h
    · cases hh
    · refine ⟨(fun h => (by cases h)), fun _ => ⟨phase.1 (by rw [hb]; rfl), rfl, rfl⟩⟩
    · exact ⟨phase.queue, rfl, rfl⟩
    · exact ⟨⟨phase.1.queue, rfl, rfl⟩, phase.2⟩
  | notifyUser i w hb hu =>
    rw [hb] at puts results
    rw [hu] at puts results running
    refine ⟨cfg, net, ?_, calls, jobs, ?_, ?_, ?_⟩
    · rw [running]; cases w <;> rfl
    · intro hc; exact puts (by rw [← hc]; cases w <;> rfl)
    · intro hc; exact results (by rw [← hc]; cases w <;> rfl)
    · have := phase
      simp only [Phase, hu] at this
      cases w <;> cases i <;> simp only [Phase] at this ⊢
      · intro _ h; cases h
      · exact ⟨(fun h => (by cases h)), fun h => ⟨(this.2 h).queue, rfl, rfl⟩⟩
  | notify hb hu =>
    rw [hb] at puts results
    exact ⟨cfg, net, running, calls, jobs, puts, results,
      phase_of (st := st) rfl rfl (fun h => by cases h) id (clear_quiet rfl rfl rfl) (fun _ => id) phase⟩
  | queue c js q' ok hu hj hx =>
    obtain ⟨l, h1, h2⟩ := jobs
    have hext := (Queue.exec_ok hx).ext
    refine ⟨cfg, net, running, calls, ⟨l ++ [.queue c], ?_, ?_⟩, ?_, ?_, ?_⟩
    · rw [h1, hj]; simp
    · rw [h2]; simp [callOf]
    · intro hc ds
      have hb : (if notifies c = true then wakeBg st.bg else st.bg).batch = st.bg.batch := by
        split
        · exact wake_batch _
        · rfl
      simp only [hb, List.flatMap_append, putsFor_append]
      rw [puts hc ds, hext.puts ds]
      have : (st.p.cfg e).hash = p0.hash e := by rw [cfg]; rfl
      have h3 : (st.p.cfg e).servers = p0.servers := by rw [cfg]; rfl
      simp [this, h3]
    · intro hc
      have hb : (if notifies c = true then wakeBg st.bg else st.bg).results = st.bg.results := by
        split
        · exact wake_results _
        · rfl
      simp only [hb]
      exact results hc
    · simp [Phase, hu]
  | flushPuts js hu hj =>
    obtain ⟨l, h1, h2⟩ := jobs
    rw [hu] at puts results running
    refine ⟨cfg, net, running, calls, ⟨l ++ [.flushPuts], ?_, ?_⟩, puts, results, ?_⟩
    · rw [h1, hj]; simp
    · rw [h2]; simp [callOf]
    · simp [Phase]
  | other j js s' q' r hu hj n1 n2 n3 hq hn ho ht =>
    obtain ⟨l, h1, h2⟩ := jobs
    refine ⟨cfg, net, running, calls, ⟨l ++ [j], ?_, ?_⟩, ?_, results, ?_⟩
    · rw [h1, hj]; simp
    · rw [h2]
      cases j <;> simp_all [callOf]
    · simp only [hq]; exact puts
    · simp [Phase, hu]
  | close js hu hj =>
    obtain ⟨l, h1, h2⟩ := jobs
    refine ⟨cfg, net, rfl, calls, ⟨l ++ [.close], ?_, ?_⟩, fun h => (by cases h), fun h => (by cases h), ?_⟩
    · rw [h1, hj]; simp
    · rw [h2]; simp [callOf]
    · simp [Phase]
  | enter i w hu =>
    rw [hu] at puts results running
    cases w with
    | close => exact ⟨cfg, net, running, calls, jobs, fun h => (by cases h), fun h => (by cases h), by cases i <;> trivial⟩
    | opening =>
      refine ⟨cfg, net, running, calls, jobs, ?_, ?_, by cases i <;> trivial⟩
      · intro hc ds
        simp only [wake_batch]
        exact puts hc ds
      · intro hc
        simp only [wake_results]
        exact results hc
    | flush =>
      refine ⟨cfg, net, running, calls, jobs, ?_, ?_, ?_⟩
      · intro hc ds
        simp only [wake_batch]
        exact puts hc ds
      · intro hc
        simp only [wake_results]
        exact results hc
      · simp only [Phase, hu] at phase
        cases i
        · simp [Phase]
        · simp only [Phase, wake_mid]
          exact ⟨phase, fun h => by cases h⟩
  | next w hu hc =>
    rw [hu] at puts results running
    refine ⟨cfg, net, by rw [running]; cases w <;> rfl, calls, jobs, ?_, ?_, ?_⟩
    · intro hc; exact puts (by rw [← hc]; cases w <;> rfl)
    · intro hc; exact results (by rw [← hc]; cases w <;> rfl)
    · simp only [Phase, hu] at phase
      cases w with
      | flush =>
        have : st.done = true := hc.resolve_left (by rw [running]; simp [User.closing])
        exact phase this
      | _ => trivial
  | opened hu hc =>
    rw [hu] at puts results running
    exact ⟨cfg, net, running, calls, jobs, puts, results, trivial⟩
  | waited hu hc =>
    rw [hu] at puts results running
    refine ⟨cfg, net, running, calls, jobs, puts, results, ?_⟩
    simp only [Phase, hu] at phase
    have : st.done = true := hc.resolve_left (by rw [running]; simp [User.closing])
    have h1 := phase.2 this
    exact ⟨h1.queue, h1.batch, h1.results⟩
  | stopped hu hc =>
    rw [hu] at running
    exact ⟨cfg, net, running, calls, jobs, fun h => (by cases h), fun h => (by cases h), trivial⟩
  | userSleep i w hu hr hd =>
    rw [hu] at puts results running
    refine ⟨cfg, net, by rw [running]; cases w <;> rfl, calls, jobs, ?_, ?_, ?_⟩
    · intro hc; exact puts (by rw [← hc]; cases w <;> rfl)
    · intro hc; exact results (by rw [← hc]; cases w <;> rfl)
    · simp only [Phase, hu] at phase
      cases w <;> cases i <;> simp only [Phase] at phase ⊢
      · exact phase
      · exact ⟨phase.1, fun h => by rw [hd] at h; cases h⟩
  | collect hu hn =>
    rw [hu] at puts results running
    simp only [Phase, hu] at phase
    refine ⟨cfg, net, running, calls, jobs, ?_, ?_, ⟨⟨phase.queue, ?_, ?_⟩, rfl⟩⟩
    · intro hc ds
      simp only [touched_batch]
      exact puts hc ds
    · intro hc
      simp only [touched_results]
      rw [results hc]
      simp only [User.results, (C33_append _ _).1, keptItems, List.append_nil]
      simp [Results.create]
    · simp only [touched_batch]; exact phase.batch
    · simp only [touched_results]; exact phase.results
  | drain r s' r' q hu hp =>
    rw [hu] at puts results running
    simp only [Phase, hu] at phase
    obtain ⟨hcl, hk⟩ := phase
    refine ⟨cfg, net, running, ?_, jobs, ?_, ?_, trivial⟩
    · intro x hx
      rcases List.mem_append.mp hx with hx | hx
      · exact calls x hx
      · rw [List.mem_singleton.mp hx, ← net]; exact ⟨s', q, hp⟩
    · intro hc ds
      rw [puts hc ds]
      have := (C29_at_most_once _ _ _ _ _ _ _ _ hp).1
      subst this
      simp [queued_zero hcl.batch, queued_zero (remaining_replicate _)]
    · intro hc
      have h1 : keptItems { st.p with queues := { st.p.queues with puts := q, putCount := 0 } } = [] := hk
      rw [List.flatMap_append, results hc, hk, hcl.results, h1]
      simp [User.results, (C33_append _ _).1]
  | join hu hb =>
    rw [hu] at running
    exact ⟨cfg, net, running, calls, jobs, fun h => (by cases h), fun h => (by cases h), trivial⟩
  | spuriousUser i w hu =>
    rw [hu] at puts results running
    refine ⟨cfg, net, ?_, calls, jobs, ?_, ?_, ?_⟩
    · rw [running]; cases w <;> rfl
    · intro hc; exact puts (by rw [← hc]; cases w <;> rfl)
    · intro hc; exact results (by rw [← hc]; cases w <;> rfl)
    · have := phase
      simp only [Phase, hu] at this
      cases w <;> cases i <;> simp only [Phase] at this ⊢
      · exact this
      · exact ⟨this.1, fun h => ⟨(this.2 h).queue, (this.2 h).batch, (this.2 h).results⟩⟩
  | spuriousBg hb =>
    rw [hb] at puts results
    exact ⟨cfg, net, running, calls, jobs, puts, results,
      phase_of (st := st) rfl rfl (fun h => by cases h) id (clear_quiet rfl rfl rfl) (fun _ => id) phase⟩

/-! ## Progress -/

def User.waits : User → Bool
  | .wait _ _ | .asleep _ _ => true
  | _ => false

/-- Nobody waits for something that does not come. -/
structure Live (st : St σ) : Prop where
  running : st.p.opts.running = !st.user.closing
  exited : st.bg = .exited → st.p.opts.running = false
  waiting : st.user.waits = true → st.p.opts.running = true → st.done = false →
    (st.flushed = true ∧ st.bg ≠ .asleep) ∨ st.bg.mid = true
  asleep : ∀ i w, st.user = .asleep i w → st.p.opts.running = true ∧ (st.done = true → st.bg = .notify)
  closing : st.user.closing = true → (∀ w, st.user ≠ .enter false w) → st.bg ≠ .asleep

theorem wake_not_asleep (x : Bg) : wakeBg x ≠ .asleep := by cases x <;> simp [wakeBg]
theorem wake_exited {x : Bg} (h : wakeBg x = .exited) : x = .exited := by cases x <;> simp_all [wakeBg]
theorem touched_exited {x : Bg} (h : x.touched = .exited) : x = .exited := by cases x <;> simp_all [Bg.touched]

theorem live_step {st st' : St σ} {a : Act} (hi : Live st) (hs : Step b e st a st') : Live st' := by
  obtain ⟨running, exited, waiting, asleep, closing⟩ := hi
  cases hs with
  | top hb =>
    refine ⟨running, ?_, ?_, ?_, ?_⟩
    · simp only
      split
      · intro h; cases h
      · rename_i h; exact fun _ => by simpa using h
    · intro h1 h2 h3
      rw [if_pos (show st.p.opts.running = true from h2)]
      rcases waiting h1 h2 h3 with h | h
      · exact .inl ⟨h.1, by simp⟩
      · rw [hb] at h; cases h
    · intro i w hu
      obtain ⟨h1, h2⟩ := asleep i w hu
      exact ⟨h1, fun h => by have := h2 h; rw [hb] at this; cases this⟩
    · intro _ _
      simp only
      split <;> simp
  | take hb hw =>
    refine ⟨running, fun h => (by cases h), fun _ _ _ => .inr rfl, ?_, fun _ _ => by simp⟩
    intro i w hu
    obtain ⟨h1, h2⟩ := asleep i w hu
    exact ⟨h1, fun h => by have := h2 h; rw [hb] at this; cases this⟩
  | sleep hb hw =>
    simp only [Async.wanted, Bool.or_eq_false_iff, Bool.not_eq_false'] at hw
    refine ⟨running, fun h => (by cases h), ?_, ?_, ?_⟩
    · intro h1 h2 h3
      rcases waiting h1 h2 h3 with h | h
      · rw [hw.2] at h; cases h.1
      · rw [hb] at h; cases h
    · intro i w hu
      obtain ⟨h1, h2⟩ := asleep i w hu
      exact ⟨h1, fun h => by have := h2 h; rw [hb] at this; cases this⟩
    · intro h
      have h : st.user.closing = true := h
      rw [h, hw.1.1] at running
      cases running
  | work batch racy s' r q hb hp =>
    refine ⟨running, fun h => (by cases h), fun _ _ _ => .inr rfl, ?_, fun _ _ => by simp⟩
    intro i w hu
    obtain ⟨h1, h2⟩ := asleep i w hu
    exact ⟨h1, fun h => by have := h2 h; rw [hb] at this; cases this⟩
  | store r hb =>
    refine ⟨running, fun h => (by cases h), fun _ _ _ => .inr rfl, ?_, fun _ _ => by simp⟩
    intro i w hu
    obtain ⟨h1, h2⟩ := asleep i w hu
    exact ⟨h1, fun h => by have := h2 h; rw [hb] at this; cases this⟩
  | setDone hb hh =>
    exact ⟨running, fun h => (by cases h), fun _ _ h => (by cases h), fun i w hu => ⟨(asleep i w hu).1, fun _ => rfl⟩,
      fun _ _ => by simp⟩
  | notifyUser i w hb hu =>
    rw [hu] at running waiting
    refine ⟨by rw [running]; cases w <;> rfl, fun h => (by cases h), ?_, fun _ _ h => (by cases h), fun _ _ => by simp⟩
    intro _ h2 h3
    rcases waiting rfl h2 h3 with h | h
    · exact .inl ⟨h.1, by simp⟩
    · rw [hb] at h; cases h
  | notify hb hu =>
    refine ⟨running, fun h => (by cases h), ?_, fun i w h => absurd h (hu i w), fun _ _ => by simp⟩
    intro h1 h2 h3
    rcases waiting h1 h2 h3 with h | h
    · exact .inl ⟨h.1, by simp⟩
    · rw [hb] at h; cases h
  | queue c js q' ok hu hj hx =>
    rw [hu] at running
    refine ⟨?_, ?_, ?_, ?_, ?_⟩
    · rw [hu]; exact running
    · intro h
      simp only at h
      split at h
      · exact exited (wake_exited h)
      · exact exited h
    · intro h; simp only [hu] at h; cases h
    · intro i w h; simp only [hu] at h; cases h
    · intro h; simp only [hu] at h; cases h
  | flushPuts js hu hj =>
    rw [hu] at running
    exact ⟨running, exited, fun h => (by cases h), fun _ _ h => (by cases h), fun h => (by cases h)⟩
  | other j js s' q' r hu hj n1 n2 n3 hq hn ho ht =>
    refine ⟨running, exited, ?_, ?_, ?_⟩
    · intro h; simp only [hu] at h; cases h
    · intro i w h; simp only [hu] at h; cases h
    · intro h; simp only [hu] at h; cases h
  | close js hu hj =>
    exact ⟨rfl, fun _ => rfl, fun h => (by cases h), fun _ _ h => (by cases h), fun _ h => absurd rfl (h .close)⟩
  | enter i w hu =>
    rw [hu] at running
    have hr : (if w = .close then { st.p with queues := { st.p.queues with puts := [] } } else st.p).opts.running =
        st.p.opts.running := by split <;> rfl
    refine ⟨?_, ?_, ?_, fun _ _ h => (by cases h), fun _ _ => wake_not_asleep _⟩
    · simp only [hr]
      rw [running]; cases w <;> rfl
    · simp only [hr]
      exact fun h => exited (wake_exited h)
    · exact fun _ _ _ => .inl ⟨rfl, wake_not_asleep _⟩
  | next w hu hc =>
    rw [hu] at running closing
    refine ⟨by rw [running]; cases w <;> rfl, exited, fun h => (by cases h), fun _ _ h => (by cases h), ?_⟩
    intro h _
    exact closing (by cases w <;> first | rfl | cases h) (by simp)
  | opened hu hc =>
    rw [hu] at running
    exact ⟨running, exited, fun h => (by cases h), fun _ _ h => (by cases h), fun h => (by cases h)⟩
  | waited hu hc =>
    rw [hu] at running
    exact ⟨running, exited, fun h => (by cases h), fun _ _ h => (by cases h), fun h => (by cases h)⟩
  | stopped hu hc =>
    rw [hu] at running closing
    exact ⟨running, exited, fun h => (by cases h), fun _ _ h => (by cases h), fun _ _ => closing rfl (by simp)⟩
  | userSleep i w hu hr hd =>
    rw [hu] at running waiting closing
    refine ⟨by rw [running]; cases w <;> rfl, exited, fun _ => waiting rfl,
      fun _ _ _ => ⟨hr, fun h => by rw [hd] at h; cases h⟩, ?_⟩
    intro h _
    exact closing (by cases w <;> first | rfl | cases h) (by simp)
  | collect hu hn =>
    rw [hu] at running
    exact ⟨running, fun h => exited (touched_exited h), fun h => (by cases h), fun _ _ h => (by cases h),
      fun h => (by cases h)⟩
  | drain r s' r' q hu hp =>
    rw [hu] at running
    exact ⟨running, exited, fun h => (by cases h), fun _ _ h => (by cases h), fun h => (by cases h)⟩
  | join hu hb =>
    rw [hu] at running
    exact ⟨running, exited, fun h => (by cases h), fun _ _ h => (by cases h), fun _ _ => by rw [hb]; simp⟩
  | spuriousUser i w hu =>
    rw [hu] at running waiting closing
    refine ⟨by rw [running]; cases w <;> rfl, exited, fun _ => waiting rfl, fun _ _ h => (by cases h), ?_⟩
    intro h _
    exact closing (by cases w <;> first | rfl | cases h) (by simp)
  | spuriousBg hb =>
    refine ⟨running, fun h => (by cases h), ?_, ?_, fun _ _ => by simp⟩
    · intro h1 h2 h3
      rcases waiting h1 h2 h3 with h | h
      · exact absurd hb h.2
      · rw [hb] at h; cases h
    · intro i w hu
      obtain ⟨h1, h2⟩ := asleep i w hu
      exact ⟨h1, fun h => by have := h2 h; rw [hb] at this; cases this⟩

theorem bg_moves {st : St σ} (h1 : st.bg ≠ .asleep) (h2 : st.bg ≠ .exited) (h3 : st.user.holds = false) :
    (step b e st .bg).isSome = true := by
  simp only [step, stepBg]
  split <;> rename_i hb
  · rfl
  · split <;> rfl
  · exact absurd hb h1
  · rfl
  · split <;> rfl
  · rw [if_neg (by simp [h3])]; rfl
  · rfl
  · exact absurd hb h2

theorem live_moves {st : St σ} (h : Live st) (h1 : st.user ≠ .idle) (h2 : st.user ≠ .closed) :
    (step b e st .user).isSome = true ∨ (step b e st .bg).isSome = true := by
  cases hu : st.user with
  | idle => exact absurd hu h1
  | closed => exact absurd hu h2
  | enter i w => left; simp [step, stepUser, hu]
  | wait i w => left; simp only [step, stepUser, hu]; split <;> rfl
  | asleep i w =>
    right
    obtain ⟨h3, h4⟩ := h.asleep i w hu
    have hne : st.bg ≠ .exited := fun hb => by have := h.exited hb; rw [h3] at this; cases this
    refine bg_moves ?_ hne (by rw [hu]; rfl)
    cases hd : st.done with
    | true => rw [h4 hd]; simp
    | false =>
      rcases h.waiting (by rw [hu]; rfl) h3 hd with h5 | h5
      · exact h5.2
      · intro hb; rw [hb] at h5; cases h5
  | collect => left; simp only [step, stepUser, hu]; split <;> rfl
  | drain r => left; simp [step, stepUser, hu]
  | join =>
    by_cases hb : st.bg = .exited
    · left; simp [step, stepUser, hu, hb]
    · right
      exact bg_moves (h.closing (by rw [hu]; rfl) (by rw [hu]; simp)) hb (by rw [hu]; rfl)

def userRank : User → Nat
  | .idle | .closed => 0
  | .join | .drain _ => 100
  | .collect => 200
  | .asleep i _ => if i then 300 else 500
  | .wait i _ => if i then 301 else 501
  | .enter i _ => if i then 400 else 600

def bgRank (running : Bool) : Bg → Nat
  | .exited | .asleep => 0
  | .check => if running then 1 else 9
  | .top => 2
  | .notify => 4
  | .setDone => 5
  | .store _ _ => 6
  | .work _ _ => 7

/-- Steps left in a call, at most. -/
def rank (st : St σ) : Nat :=
  userRank st.user + bgRank st.p.opts.running st.bg + (if st.flushed then 10 else 0) +
    (if st.p.opts.asyncMax ≤ st.p.queues.putCount then 10 else 0)

def spurious : Act → Bool
  | .spuriousUser | .spuriousBg => true
  | _ => false

theorem wake_rank (r : Bool) (x : Bg) : bgRank r (wakeBg x) ≤ bgRank r x + 9 := by
  cases x <;> simp only [wakeBg, bgRank] <;> (try split) <;> omega

theorem rank_step {st st' : St σ} {a : Act} (hs : Step b e st a st') (h0 : 0 < st.p.opts.asyncMax)
    (hj : st'.jobs.length = st.jobs.length) :
    (if spurious a then rank st' ≤ rank st + 9 else rank st' < rank st) := by
  cases hs with
  | top hb =>
    simp only [spurious, rank, hb]
    cases st.p.opts.running <;> simp [bgRank]
  | take hb hw =>
    simp only [spurious, rank, hb, bgRank, Async.wanted] at hw ⊢
    rw [if_neg (show ¬ st.p.opts.asyncMax ≤ 0 by omega)]
    by_cases h1 : st.p.opts.asyncMax ≤ st.p.queues.putCount <;> cases h2 : st.flushed <;> cases h3 : st.p.opts.running <;>
      simp_all <;> omega
  | sleep hb hw =>
    simp only [Async.wanted, Bool.or_eq_false_iff, Bool.not_eq_false'] at hw
    simp only [spurious, rank, hb, bgRank, hw.1.1, if_true]
    simp
  | work batch racy s' r q hb hp => simp only [spurious, rank, hb, bgRank]; simp
  | store r hb => simp only [spurious, rank, hb, bgRank]; simp
  | setDone hb hh => simp only [spurious, rank, hb, bgRank]; simp
  | notifyUser i w hb hu =>
    simp only [spurious, rank, hb, bgRank, hu, userRank]
    cases i <;> simp <;> omega
  | notify hb hu => simp only [spurious, rank, hb, bgRank]; simp
  | queue c js q' ok hu hj' hx => rw [hj'] at hj; simp at hj
  | flushPuts js hu hj' => rw [hj'] at hj; simp at hj
  | other j js s' q' r hu hj' n1 n2 n3 hq hn ho ht => rw [hj'] at hj; simp at hj
  | close js hu hj' => rw [hj'] at hj; simp at hj
  | enter i w hu =>
    have h1 : (if w = .close then { st.p with queues := { st.p.queues with puts := [] } } else st.p).opts = st.p.opts := by
      split <;> rfl
    have h2 : (if w = .close then { st.p with queues := { st.p.queues with puts := [] } } else st.p).queues.putCount =
        st.p.queues.putCount := by
      split <;> rfl
    have h3 := wake_rank st.p.opts.running st.bg
    simp only [spurious, rank, hu, userRank, h1, h2]
    cases i <;> cases st.flushed <;> simp <;> omega
  | next w hu hc => simp only [spurious, rank, hu, userRank]; simp
  | opened hu hc => simp only [spurious, rank, hu, userRank]; simp
  | waited hu hc => simp only [spurious, rank, hu, userRank]; simp
  | stopped hu hc => simp only [spurious, rank, hu, userRank]; simp
  | userSleep i w hu hr hd =>
    simp only [spurious, rank, hu, userRank]
    cases i <;> simp
  | collect hu hn =>
    have : bgRank st.p.opts.running st.bg.touched = bgRank st.p.opts.running st.bg := by cases st.bg <;> rfl
    simp only [spurious, rank, hu, userRank, this]; simp
  | drain r s' r' q hu hp =>
    simp only [spurious, rank, hu, userRank]
    rw [if_neg (show ¬ st.p.opts.asyncMax ≤ 0 by omega)]
    simp; omega
  | join hu hb => simp only [spurious, rank, hu, userRank]; simp
  | spuriousUser i w hu =>
    simp only [spurious, rank, hu, userRank]
    cases i <;> simp <;> omega
  | spuriousBg hb =>
    simp only [spurious, rank, hb, bgRank]
    cases st.p.opts.running <;> simp <;> omega

theorem step_jobs {st st' : St σ} {a : Act} (hs : Step b e st a st') : st'.jobs.length ≤ st.jobs.length := by
  cases hs <;> first | exact Nat.le_refl _ | simp_all

theorem step_max {st st' : St σ} {a : Act} (hs : Step b e st a st') : st'.p.opts.asyncMax = st.p.opts.asyncMax := by
  cases hs <;> first | rfl | (simp only; split <;> rfl)

theorem run_jobs {st st' : St σ} {l : List Act} (hr : Run b e st l st') : st'.jobs.length ≤ st.jobs.length := by
  induction hr with
  | nil => exact Nat.le_refl _
  | cons h _ ih => exact Nat.le_trans ih (step_jobs (of_step h))

theorem run_rank {st st' : St σ} {l : List Act} (hr : Run b e st l st') (h0 : 0 < st.p.opts.asyncMax)
    (hj : st'.jobs.length = st.jobs.length) :
    (l.filter (fun a => !spurious a)).length + rank st' ≤ rank st + 9 * (l.filter spurious).length := by
  induction hr with
  | nil => simp
  | @cons st st1 st2 a l h hr ih =>
    have hs := of_step h
    have h1 := step_jobs hs
    have h2 := run_jobs hr
    have h3 := rank_step hs h0 (by omega)
    have h4 := ih (by rw [step_max hs]; exact h0) (by omega)
    cases ha : spurious a <;> simp [ha] at h3 ⊢ <;> omega

/-! ## Below the limit -/

/-- Between two runs. -/
def Bg.rests : Bg → Bool
  | .top | .check | .asleep | .notify => true
  | _ => false

/-- In a run that does not race. -/
def Bg.runs : Bg → Bool
  | .work _ racy | .store _ racy => !racy
  | .setDone => true
  | _ => false

/-- The two threads wait for each other. -/
structure Calm (e : Env) (st : St σ) : Prop where
  running : st.p.opts.running = !st.user.closing
  bg : st.bg.rests = true ∨ st.bg.runs = true ∨ st.bg = .exited
  rests : st.user.closing = false → st.user.waits = false → st.bg.rests = true ∧ st.flushed = false
  waits : st.user.closing = false → st.user.waits = true →
    (st.done = true → st.bg.rests = true ∧ st.flushed = false) ∧
    (st.done = false → if st.flushed then st.bg.rests = true else st.bg.runs = true)
  count : st.user.closing = false → st.p.queues.putCount < st.p.opts.asyncMax
  jobs : st.user.closing = false →
    Below (st.p.hash e) st.p.servers st.p.opts.asyncMax (match st.user with | .idle => st.p.queues.putCount | _ => 0) st.jobs
  opening : ∀ i, st.user = .enter i .opening ∨ st.user = .wait i .opening ∨ st.user = .asleep i .opening →
    st.p.queues.putCount = 0

theorem wake_rests {x : Bg} (h : x.rests = true) : (wakeBg x).rests = true := by cases x <;> simp_all [wakeBg, Bg.rests]
theorem wake_runs (x : Bg) : (wakeBg x).runs = x.runs := by cases x <;> rfl
theorem touched_rests {x : Bg} (h : x.rests = true) : x.touched = x := by cases x <;> simp_all [Bg.touched, Bg.rests]

theorem calm_take {st : St σ} (hi : Calm e st) (hw : Async.wanted st = true) :
    st.user.closing = true ∨ (st.user.waits = true ∧ st.done = false ∧ st.flushed = true) := by
  obtain ⟨running, bg, rests, waits, count, jobs, opening⟩ := hi
  cases hc : st.user.closing with
  | true => exact .inl rfl
  | false =>
    right
    have hcount := count hc
    rw [hc] at running
    simp only [Async.wanted, running, Bool.or_eq_true, decide_eq_true_eq] at hw
    have hf : st.flushed = true := by
      rcases hw with (hw | hw) | hw
      · cases hw
      · omega
      · exact hw
    cases hw' : st.user.waits with
    | false => have := (rests hc hw').2; rw [hf] at this; cases this
    | true =>
      refine ⟨rfl, ?_, hf⟩
      cases hd : st.done with
      | false => rfl
      | true => have := ((waits hc hw').1 hd).2; rw [hf] at this; cases this

theorem calm_busy {st : St σ} (hi : Calm e st) (hb : st.bg.rests = false) (hc : st.user.closing = false) :
    st.user.waits = true ∧ st.done = false ∧ st.flushed = false := by
  cases hw : st.user.waits with
  | false => have := (hi.rests hc hw).1; rw [hb] at this; cases this
  | true =>
    cases hd : st.done with
    | true => have := ((hi.waits hc hw).1 hd).1; rw [hb] at this; cases this
    | false =>
      cases hf : st.flushed with
      | true => have := (hi.waits hc hw).2 hd; rw [hf, if_pos rfl, hb] at this; cases this
      | false => exact ⟨rfl, rfl, rfl⟩

theorem calm_step {st st' : St σ} {a : Act} (hi : Calm e st) (hs : Step b e st a st') : Calm e st' := by
  obtain ⟨running, bg, rests, waits, count, jobs, opening⟩ := id hi
  -- a step of the background thread from rest to rest
  have quiet : ∀ {x : Bg}, st.bg.rests = true → x.rests = true → st.bg.runs = false → Calm e { st with bg := x } := by
    intro x h1 h2 h3
    refine ⟨running, .inl h2, fun hc hw => ⟨h2, (rests hc hw).2⟩, fun hc hw => ⟨fun hd => ⟨h2, ((waits hc hw).1 hd).2⟩, ?_⟩,
      count, jobs, opening⟩
    intro hd
    have := (waits hc hw).2 hd
    simp only
    split at this
    · rename_i hf; rw [if_pos hf]; exact h2
    · rw [h3] at this; cases this
  -- one from a run to a run
  have busy : ∀ {x : Bg}, st.bg.rests = false → x.runs = true →
      Calm e { st with bg := x } := by
    intro x h1 h2
    refine ⟨running, .inr (.inl h2), fun hc hw => ?_, fun hc hw => ⟨fun hd => ?_, fun hd => ?_⟩, count, jobs, opening⟩
    · have := (rests hc hw).1; rw [h1] at this; cases this
    · have := ((waits hc hw).1 hd).1; rw [h1] at this; cases this
    · have := (waits hc hw).2 hd
      simp only
      split at this
      · rw [h1] at this; cases this
      · rename_i hf; rw [if_neg hf]; exact h2
  cases hs with
  | top hb =>
    cases hc : st.user.closing with
    | false =>
      rw [hc] at running
      rw [running]
      exact quiet (by rw [hb]; rfl) rfl (by rw [hb]; rfl)
    | true =>
      rw [hc] at running
      have hr : (if st.p.opts.running = true then Bg.check else Bg.exited) = .exited := by rw [running]; rfl
      rw [hr]
      refine ⟨by rw [running, hc], .inr (.inr rfl), fun h => ?_, fun h => ?_, count, jobs, opening⟩
      · rw [hc] at h; cases h
      · rw [hc] at h; cases h
  | take hb hw =>
    have hcol := calm_take hi hw
    have hnc : st.user.collected = false := by
      rcases hcol with h | h
      · cases hu : st.user <;> simp_all [User.closing, User.collected]
      · cases hu : st.user <;> simp_all [User.waits, User.collected]
    rcases hcol with h | ⟨h1, h2, h3⟩
    · refine ⟨running, .inr (.inl (by simp [Bg.runs, hnc])), fun hc => ?_, fun hc => ?_, fun hc => ?_, fun hc => ?_, ?_⟩
      · rw [show st.user.closing = false from hc] at h; cases h
      · rw [show st.user.closing = false from hc] at h; cases h
      · rw [show st.user.closing = false from hc] at h; cases h
      · rw [show st.user.closing = false from hc] at h; cases h
      · exact fun _ _ => rfl
    · refine ⟨running, .inr (.inl (by simp [Bg.runs, hnc])), fun _ hw => ?_, fun _ _ => ⟨fun hd => ?_, fun _ => ?_⟩, fun hc => ?_, fun hc => ?_, ?_⟩
      · rw [show st.user.waits = false from hw] at h1; cases h1
      · rw [show st.done = true from hd] at h2; cases h2
      · simp [Bg.runs, hnc]
      · have := count hc; show 0 < _; simp only; omega
      · have := jobs hc
        cases hu : st.user <;> rw [hu] at this h1 <;> first | (cases h1; done) | (simp only; exact this)
      · exact fun _ _ => rfl
  | sleep hb hw => exact quiet (by rw [hb]; rfl) rfl (by rw [hb]; rfl)
  | work batch racy s' r q hb hp =>
    have hr : racy = false := by
      rw [hb] at bg
      rcases bg with h | h | h
      · cases h
      · simpa [Bg.runs] using h
      · cases h
    subst hr
    have := busy (x := .store r false) (by rw [hb]; rfl) rfl
    exact ⟨this.1, this.2, this.3, this.4, this.5, this.6, this.7⟩
  | store r hb =>
    have := busy (x := .setDone) (by rw [hb]; rfl) rfl
    exact ⟨this.1, this.2, this.3, this.4, this.5, this.6, this.7⟩
  | setDone hb hh =>
    refine ⟨running, .inl rfl, fun hc hw => ⟨rfl, (rests hc hw).2⟩, fun hc hw => ⟨fun _ => ⟨rfl, ?_⟩, fun hd => (by cases hd)⟩,
      count, jobs, opening⟩
    cases hf : st.flushed with
    | false => rfl
    | true =>
      cases hd : st.done with
      | true => have := ((waits hc hw).1 hd).2; rw [hf] at this; cases this
      | false => have := (waits hc hw).2 hd; rw [hf, hb] at this; cases this
  | notifyUser i w hb hu =>
    have := quiet (x := .top) (by rw [hb]; rfl) rfl (by rw [hb]; rfl)
    obtain ⟨t1, t2, t3, t4, t5, t6, t7⟩ := this
    simp only [hu] at t1 t3 t4 t5 t6 t7
    refine ⟨by rw [t1]; cases w <;> rfl, t2, fun _ h => (by cases h), fun hc _ => t4 (by rw [← hc]; cases w <;> rfl) rfl,
      fun hc => t5 (by rw [← hc]; cases w <;> rfl), fun hc => t6 (by rw [← hc]; cases w <;> rfl), ?_⟩
    intro j hj
    simp only [reduceCtorEq, false_or, or_false, User.wait.injEq] at hj
    exact t7 j (.inr (.inr (by rw [hj.1, hj.2])))
  | notify hb hu => exact quiet (by rw [hb]; rfl) rfl (by rw [hb]; rfl)
  | queue c js q' ok hu hj hx =>
    have hext := (Queue.exec_ok hx).ext
    simp only [hu] at running rests waits count jobs opening
    have hB := jobs rfl
    rw [hj] at hB
    have hR := rests rfl rfl
    have hc : q'.putCount = st.p.queues.putCount + putNumber (ops (st.p.hash e) st.p.servers c) := hext.count
    have hb : (if notifies c = true then wakeBg st.bg else st.bg).rests = true := by
      split
      · exact wake_rests hR.1
      · exact hR.1
    refine ⟨by rw [hu]; exact running, .inl hb, fun _ _ => ⟨hb, hR.2⟩, fun _ h => ?_, fun _ => ?_, fun _ => ?_, fun i h => ?_⟩
    · simp only [hu] at h; cases h
    · rw [hc]; exact hB.1
    · simp only [hu, hc]; exact hB.2
    · simp only [hu] at h; simp at h
  | flushPuts js hu hj =>
    simp only [hu] at running rests waits count jobs opening
    have hB := jobs rfl
    rw [hj] at hB
    refine ⟨running, bg, fun _ _ => rests rfl rfl, fun _ h => (by cases h), fun _ => count rfl, fun _ => hB, fun i h => (by simp at h)⟩
  | other j js s' q' r hu hj n1 n2 n3 hq hn ho ht =>
    simp only [hu] at running rests waits count jobs opening
    have hB := jobs rfl
    rw [hj] at hB
    refine ⟨by rw [hu]; exact running, bg, fun _ _ => rests rfl rfl, fun _ h => ?_, fun _ => ?_, fun _ => ?_, fun i h => ?_⟩
    · simp only [hu] at h; cases h
    · rw [hn]; exact count rfl
    · simp only [hu, hn]
      cases j <;> simp_all [Below] <;> exact hB
    · simp only [hu] at h; simp at h
  | close js hu hj =>
    exact ⟨rfl, bg, fun h => (by cases h), fun h => (by cases h), fun h => (by cases h), fun h => (by cases h), fun i h => (by simp at h)⟩
  | enter i w hu =>
    simp only [hu] at running rests waits count jobs opening
    have hb : (wakeBg st.bg).rests = true ∨ (wakeBg st.bg).runs = true ∨ wakeBg st.bg = .exited := by
      rcases bg with h | h | h
      · exact .inl (wake_rests h)
      · exact .inr (.inl (by rw [wake_runs]; exact h))
      · exact .inr (.inr (by rw [h]; rfl))
    cases w with
    | close =>
      exact ⟨running, hb, fun h => (by cases h), fun h => (by cases h), fun h => (by cases h), fun h => (by cases h),
        fun i h => (by simp at h)⟩
    | flush =>
      refine ⟨running, hb, fun _ h => (by cases h), fun _ _ => ⟨fun h => (by cases h), fun _ => ?_⟩, fun _ => count rfl,
        fun _ => jobs rfl, fun i h => (by simp at h)⟩
      exact wake_rests (rests rfl rfl).1
    | opening =>
      refine ⟨running, hb, fun _ h => (by cases h), fun _ _ => ⟨fun h => (by cases h), fun _ => ?_⟩, fun _ => count rfl,
        fun _ => jobs rfl, fun j h => opening i (.inl rfl)⟩
      exact wake_rests (rests rfl rfl).1
  | next w hu hc =>
    simp only [hu] at running rests waits count jobs opening
    have hd : User.closing (.wait false w) = false → st.done = true := fun h =>
      hc.resolve_left (by rw [running, h]; simp)
    have hcl : User.closing (.wait false w) = User.closing (.enter true w) := by cases w <;> rfl
    refine ⟨by rw [running, hcl], bg, fun h _ => (waits (by rw [hcl]; exact h) rfl).1 (hd (by rw [hcl]; exact h)),
      fun _ h => (by cases h), fun h => count (by rw [hcl]; exact h), fun h => jobs (by rw [hcl]; exact h), ?_⟩
    intro j hj
    simp only [reduceCtorEq, or_false, User.enter.injEq] at hj
    exact opening false (.inr (.inl (by rw [hj.2])))
  | opened hu hc =>
    simp only [hu] at running rests waits count jobs opening
    have hd : st.done = true := hc.resolve_left (by rw [running]; simp [User.closing])
    have h0 := opening true (.inr (.inl rfl))
    refine ⟨running, bg, fun _ _ => (waits rfl rfl).1 hd, fun _ h => (by cases h), fun _ => count rfl, fun _ => ?_, fun i h => (by simp at h)⟩
    simp only [h0]
    exact jobs rfl
  | waited hu hc =>
    simp only [hu] at running rests waits count jobs opening
    have hd : st.done = true := hc.resolve_left (by rw [running]; simp [User.closing])
    exact ⟨running, bg, fun _ _ => (waits rfl rfl).1 hd, fun _ h => (by cases h), fun _ => count rfl, fun _ => jobs rfl,
      fun i h => (by simp at h)⟩
  | stopped hu hc =>
    simp only [hu] at running
    exact ⟨running, bg, fun h => (by cases h), fun h => (by cases h), fun h => (by cases h), fun h => (by cases h),
        fun i h => (by simp at h)⟩
  | userSleep i w hu hr hd =>
    simp only [hu] at running rests waits count jobs opening
    have hcl : User.closing (.wait i w) = User.closing (.asleep i w) := by cases w <;> rfl
    refine ⟨by rw [running, hcl], bg, fun _ h => (by cases h), fun h _ => waits (by rw [hcl]; exact h) rfl,
      fun h => count (by rw [hcl]; exact h), fun h => jobs (by rw [hcl]; exact h), ?_⟩
    intro j hj
    simp only [reduceCtorEq, false_or, User.asleep.injEq] at hj
    exact opening i (.inr (.inl (by rw [hj.2])))
  | collect hu hn =>
    simp only [hu] at running rests waits count jobs opening
    have hR := rests rfl rfl
    have ht := touched_rests hR.1
    refine ⟨running, by rw [ht]; exact bg, fun _ _ => by rw [ht]; exact hR, fun _ h => (by cases h), fun _ => count rfl,
      fun _ => jobs rfl, fun i h => (by simp at h)⟩
  | drain r s' r' q hu hp =>
    simp only [hu] at running rests waits count jobs opening
    refine ⟨running, bg, fun _ _ => rests rfl rfl, fun _ h => (by cases h), fun _ => ?_, fun _ => jobs rfl, fun i h => (by simp at h)⟩
    have := count rfl
    simp only; omega
  | join hu hb =>
    simp only [hu] at running
    exact ⟨running, bg, fun h => (by cases h), fun h => (by cases h), fun h => (by cases h), fun h => (by cases h),
        fun i h => (by simp at h)⟩
  | spuriousUser i w hu =>
    simp only [hu] at running rests waits count jobs opening
    have hcl : User.closing (.wait i w) = User.closing (.asleep i w) := by cases w <;> rfl
    refine ⟨by rw [running, hcl], bg, fun _ h => (by cases h), fun h _ => waits (by rw [← hcl]; exact h) rfl,
      fun h => count (by rw [← hcl]; exact h), fun h => jobs (by rw [← hcl]; exact h), ?_⟩
    intro j hj
    simp only [reduceCtorEq, false_or, or_false, User.wait.injEq] at hj
    exact opening i (.inr (.inr (by rw [hj.2])))
  | spuriousBg hb => exact quiet (by rw [hb]; rfl) rfl (by rw [hb]; rfl)

/-! ## One call after the other -/

def taken (p : Priv) : Priv :=
  { p with queues := { p.queues with puts := List.replicate p.servers [], putCount := 0 } }

/-- A run of the background thread that starts with `s` and `p` is waited for. -/
def Waiting (b : Backend σ) (e : Env) (s : σ) (p : Priv) (st : St σ) : Prop :=
  if st.done then background b e s p = .ok (st.srv, st.p)
  else if st.flushed then st.srv = s ∧ st.p = p
  else
    match st.bg with
    | .work batch _ => st.srv = s ∧ batch = p.queues.puts ∧ st.p = taken p
    | .store r _ => (∃ q, process (p.net e) b.serve .put s p.queues.puts = .ok (st.srv, r, q)) ∧ st.p = taken p
    | .setDone => background b e s p = .ok (st.srv, st.p)
    | _ => False

def twice (b : Backend σ) (e : Env) (s : σ) (p : Priv) : Out (σ × Priv) :=
  background b e s p >>= fun x => background b e x.1 x.2

/-- How far a call that waits for the background thread has come. -/
def During (b : Backend σ) (e : Env) (s : σ) (p : Priv) (st : St σ) : Prop :=
  match st.user with
  | .enter false _ => st.srv = s ∧ st.p = p
  | .wait false _ | .asleep false _ => Waiting b e s p st
  | .enter true _ => background b e s p = .ok (st.srv, st.p)
  | .wait true _ | .asleep true _ => ∃ s1 p1, background b e s p = .ok (s1, p1) ∧ Waiting b e s1 p1 st
  | .collect => twice b e s p = .ok (st.srv, st.p)
  | .drain r => ∃ p2, twice b e s p = .ok (st.srv, p2) ∧ st.p = { p2 with kept := none } ∧
      r = (Results.create.append (p2.kept.getD Results.create)).1
  | _ => False

def User.opening : User → Bool
  | .enter _ .opening | .wait _ .opening | .asleep _ .opening => true
  | _ => false

/-- The two threads do what the calls would do one after the other. -/
structure Seq (b : Backend σ) (e : Env) (X : Out (σ × Priv)) (rs0 : List Results) (jobs0 : List Job) (st : St σ) : Prop where
  opening : st.user.opening = true → ∃ s0 p0, X = twice b e s0 p0 ∧ During b e s0 p0 st ∧ st.told = rs0 ∧ st.jobs = jobs0
  idle : st.user = .idle → ∃ l x, jobs0 = l ++ st.jobs ∧ Job.close ∉ l ∧ X = .ok x ∧
    inTurn b e l (x.1, x.2, rs0) = .ok (st.srv, st.p, st.told)
  flush : st.user.opening = false → st.user.closing = false → st.user ≠ .idle →
    ∃ l x s p, jobs0 = l ++ .flushPuts :: st.jobs ∧ Job.close ∉ l ∧ X = .ok x ∧
      inTurn b e l (x.1, x.2, rs0) = .ok (s, p, st.told) ∧ During b e s p st

theorem inTurn_append (l l' : List Job) (hl : Job.close ∉ l) (x : σ × Priv × List Results) :
    inTurn b e (l ++ l') x = inTurn b e l x >>= inTurn b e l' := by
  induction l generalizing x with
  | nil => rfl
  | cons j l ih =>
    obtain ⟨s, p, rs⟩ := x
    have hl' : Job.close ∉ l := fun h => hl (List.mem_cons_of_mem _ h)
    cases j with
    | close => exact absurd List.mem_cons_self hl
    | queue c =>
      simp only [List.cons_append, inTurn]
      cases Queue.exec (p.cfg e) p.queues c <;> simp [ih hl']
    | flushPuts =>
      simp only [List.cons_append, inTurn]
      cases flushPriv b e s p .puts <;> simp [ih hl']
    | flushGets =>
      simp only [List.cons_append, inTurn]
      cases flushPriv b e s p .gets <;> simp [ih hl']
    | flushGetOps =>
      simp only [List.cons_append, inTurn]
      cases flushPriv b e s p .getops <;> simp [ih hl']
    | flushDels =>
      simp only [List.cons_append, inTurn]
      cases flushPriv b e s p .dels <;> simp [ih hl']
    | flushHists =>
      simp only [List.cons_append, inTurn]
      cases flushPriv b e s p .hists <;> simp [ih hl']

/-- A step of the background thread during a wait. -/
theorem waiting_bg {s : σ} {p : Priv} {st st' : St σ} (hi : Calm e st) (hs : Step b e st .bg st')
    (hc : st.user.closing = false) (h : Waiting b e s p st) : Waiting b e s p st' := by
  unfold Waiting at h
  cases hs with
  | top hb =>
    rw [hb] at h
    unfold Waiting
    cases st.p.opts.running <;> exact h
  | take hb hw' =>
    rcases calm_take hi hw' with h1 | ⟨h1, h2, h3⟩
    · rw [hc] at h1; cases h1
    · simp only [h2, h3, if_true, Bool.false_eq_true, if_false] at h
      simp only [Waiting, h2, Bool.false_eq_true, if_false, h.1, h.2, taken, true_and]
  | sleep hb hw' =>
    unfold Waiting
    rw [hb] at h
    exact h
  | work batch racy s' r q hb hp =>
    obtain ⟨h1, h2, h3⟩ := calm_busy hi (by rw [hb]; rfl) hc
    simp only [h2, h3, hb, Bool.false_eq_true, if_false] at h
    obtain ⟨g1, g2, g3⟩ := h
    simp only [Waiting, h2, h3, Bool.false_eq_true, if_false]
    refine ⟨⟨q, ?_⟩, g3⟩
    rw [← hp, g1, g2, g3]
    rfl
  | store r hb =>
    obtain ⟨h1, h2, h3⟩ := calm_busy hi (by rw [hb]; rfl) hc
    simp only [h2, h3, hb, Bool.false_eq_true, if_false] at h
    obtain ⟨⟨q, g1⟩, g2⟩ := h
    simp only [Waiting, h2, h3, Bool.false_eq_true, if_false]
    rw [background, g1, Out.ok_bind, g2]
    rfl
  | setDone hb hh =>
    obtain ⟨h1, h2, h3⟩ := calm_busy hi (by rw [hb]; rfl) hc
    simp only [h2, h3, hb, Bool.false_eq_true, if_false] at h
    simp only [Waiting, if_true]
    exact h
  | notifyUser i w hb hu =>
    unfold Waiting
    rw [hb] at h
    exact h
  | notify hb hu =>
    unfold Waiting
    rw [hb] at h
    exact h

theorem waiting_eq {s : σ} {p : Priv} {st st' : St σ} (h1 : st'.done = st.done) (h2 : st'.flushed = st.flushed)
    (h3 : st'.bg = st.bg) (h4 : st'.srv = st.srv) (h5 : st'.p = st.p) (h : Waiting b e s p st) : Waiting b e s p st' := by
  unfold Waiting at h ⊢
  rw [h1, h2, h3, h4, h5]
  exact h

/-- What a step of the background thread leaves alone. -/
theorem bg_same {st st' : St σ} (hs : Step b e st .bg st') :
    st'.jobs = st.jobs ∧ st'.told = st.told ∧
      (st'.user = st.user ∨ ∃ i w, st.user = .asleep i w ∧ st'.user = .wait i w) := by
  cases hs <;> first | exact ⟨rfl, rfl, .inl rfl⟩ | exact ⟨rfl, rfl, .inr ⟨_, _, by assumption, rfl⟩⟩

theorem bg_quiet {st st' : St σ} (hi : Calm e st) (hs : Step b e st .bg st') (hw : st.user.waits = false)
    (hc : st.user.closing = false) : st'.srv = st.srv ∧ st'.p = st.p ∧ st'.user = st.user := by
  have hR := (hi.rests hc hw).1
  cases hs with
  | top hb => exact ⟨rfl, rfl, rfl⟩
  | take hb hw' =>
    rcases calm_take hi hw' with h1 | ⟨h1, -⟩
    · rw [hc] at h1; cases h1
    · rw [hw] at h1; cases h1
  | sleep hb hw' => exact ⟨rfl, rfl, rfl⟩
  | work batch racy s' r q hb hp => rw [hb] at hR; cases hR
  | store r hb => rw [hb] at hR; cases hR
  | setDone hb hh => rw [hb] at hR; cases hR
  | notifyUser i w hb hu => rw [hu] at hw; cases hw
  | notify hb hu => exact ⟨rfl, rfl, rfl⟩

theorem seq_of {X : Out (σ × Priv)} {rs0 : List Results} {jobs0 : List Job} {st st' : St σ} (hj : st'.jobs = st.jobs)
    (hr : st'.told = st.told) (ho : st'.user.opening = st.user.opening) (hc : st'.user.closing = st.user.closing)
    (hn : st'.user = .idle ↔ st.user = .idle) (hd : st.user.closing = false → ∀ s p, During b e s p st → During b e s p st')
    (hi : st.user = .idle → st'.srv = st.srv ∧ st'.p = st.p) (h : Seq b e X rs0 jobs0 st) : Seq b e X rs0 jobs0 st' := by
  obtain ⟨h1, h2, h3⟩ := h
  refine ⟨?_, ?_, ?_⟩
  · intro h
    rw [ho] at h
    obtain ⟨s0, p0, g0, g1, g2, g3⟩ := h1 h
    refine ⟨s0, p0, g0, hd ?_ _ _ g1, by rw [hr, g2], by rw [hj, g3]⟩
    cases hu : st.user <;> rw [hu] at h <;> first | (cases h; done) | skip
    all_goals (rename_i w; cases w <;> first | rfl | cases h)
  · intro h
    have h := hn.mp h
    rw [hj, hr, (hi h).1, (hi h).2]
    exact h2 h
  · intro g1 g2 g3
    rw [ho] at g1
    rw [hc] at g2
    obtain ⟨l, x, s, p, t1, t2, t3, t4, t5⟩ := h3 g1 g2 (fun h => g3 (hn.mpr h))
    exact ⟨l, x, s, p, by rw [hj]; exact t1, t2, t3, by rw [hr]; exact t4, hd g2 _ _ t5⟩

theorem seq_move {X : Out (σ × Priv)} {rs0 : List Results} {jobs0 : List Job} {st st' : St σ} (h1 : st'.jobs = st.jobs)
    (h2 : st'.told = st.told) (h3 : st'.user = st.user ∨ ∃ i w, st.user = .asleep i w ∧ st'.user = .wait i w)
    (quiet : st.user.waits = false → st.user.closing = false → st'.srv = st.srv ∧ st'.p = st.p ∧ st'.user = st.user)
    (key : st.user.waits = true → st.user.closing = false → ∀ s p, Waiting b e s p st → Waiting b e s p st')
    (h : Seq b e X rs0 jobs0 st) : Seq b e X rs0 jobs0 st' := by
  refine seq_of h1 h2 ?_ ?_ ?_ ?_ ?_ h
  · rcases h3 with h3 | ⟨i, w, h3, h4⟩
    · rw [h3]
    · rw [h3, h4]; cases w <;> rfl
  · rcases h3 with h3 | ⟨i, w, h3, h4⟩
    · rw [h3]
    · rw [h3, h4]; cases w <;> rfl
  · rcases h3 with h3 | ⟨i, w, h3, h4⟩
    · rw [h3]
    · rw [h3, h4]; simp
  · intro hc s p hd
    cases hw : st.user.waits with
    | false =>
      obtain ⟨g1, g2, g3⟩ := quiet hw hc
      unfold During at hd ⊢
      rw [g1, g2, g3]
      cases hu : st.user <;> rw [hu] at hd hw <;> first | (cases hw; done) | exact hd | (rename_i i w; cases i <;> exact hd)
    | true =>
      have key := key hw hc
      unfold During at hd ⊢
      rcases h3 with h3 | ⟨i, w, h3, h4⟩
      · rw [h3]
        cases hu : st.user <;> rw [hu] at hd hw <;> first | (cases hw; done) | skip
        · rename_i i w
          cases i
          · exact key _ _ hd
          · obtain ⟨s1, p1, t1, t2⟩ := hd
            exact ⟨s1, p1, t1, key _ _ t2⟩
        · rename_i i w
          cases i
          · exact key _ _ hd
          · obtain ⟨s1, p1, t1, t2⟩ := hd
            exact ⟨s1, p1, t1, key _ _ t2⟩
      · rw [h4]
        rw [h3] at hd
        cases i
        · exact key _ _ hd
        · obtain ⟨s1, p1, t1, t2⟩ := hd
          exact ⟨s1, p1, t1, key _ _ t2⟩
  · intro h
    obtain ⟨g1, g2, -⟩ := quiet (by rw [h]; rfl) (by rw [h]; rfl)
    exact ⟨g1, g2⟩

theorem seq_bg {X : Out (σ × Priv)} {rs0 : List Results} {jobs0 : List Job} {st st' : St σ} (hi : Calm e st) (hs : Step b e st .bg st')
    (h : Seq b e X rs0 jobs0 st) : Seq b e X rs0 jobs0 st' := by
  obtain ⟨h1, h2, h3⟩ := bg_same hs
  exact seq_move h1 h2 h3 (bg_quiet hi hs) (fun _ hc _ _ => waiting_bg hi hs hc) h

theorem background_priv {s s' : σ} {p p' : Priv} (h : background b e s p = .ok (s', p')) :
    p'.opts = p.opts ∧ p'.net e = p.net e := by
  unfold background at h
  obtain ⟨x, -, h⟩ := ok_iff.mp h
  cases h
  exact ⟨rfl, rfl⟩

theorem twice_priv {s s' : σ} {p p' : Priv} (h : twice b e s p = .ok (s', p')) :
    p'.opts = p.opts ∧ p'.net e = p.net e := by
  unfold twice at h
  obtain ⟨x, h1, h⟩ := ok_iff.mp h
  obtain ⟨g1, g2⟩ := background_priv h1
  obtain ⟨g3, g4⟩ := background_priv h
  exact ⟨g3.trans g1, g4.trans g2⟩

/-- The last step of `FlushPuts`. -/
theorem flush_done {s : σ} {p p2 : Priv} {s2 s' : σ} {r' : Results} {q : Batch} (ha : p.opts.asyncEnabled = true)
    (hr : p.opts.running = true) (h : twice b e s p = .ok (s2, p2))
    (hp : process (p.net e) b.serve .put s2 p2.queues.puts = .ok (s', r', q)) :
    flushPriv b e s p .puts = .ok (s', { p2 with kept := none, queues := { p2.queues with puts := q, putCount := 0 } },
      ((Results.create.append (p2.kept.getD Results.create)).1.append r').1) := by
  unfold twice at h
  simp only [flushPriv, Session.flushPuts, ha, hr, if_true]
  rw [h]
  simp only [Out.ok_bind, hp]

theorem seq_step {X : Out (σ × Priv)} {rs0 : List Results} {jobs0 : List Job} {st st' : St σ} {a : Act} (hi : Calm e st)
    (ha : st.p.opts.asyncEnabled = true) (hs : Step b e st a st') (h : Seq b e X rs0 jobs0 st) : Seq b e X rs0 jobs0 st' := by
  have hrun := hi.running
  have hidle : ∀ {x : St σ}, x.user = .idle → (∃ l y, jobs0 = l ++ x.jobs ∧ Job.close ∉ l ∧ X = .ok y ∧
      inTurn b e l (y.1, y.2, rs0) = .ok (x.srv, x.p, x.told)) → Seq b e X rs0 jobs0 x := by
    intro x hx h
    refine ⟨fun h => ?_, fun _ => h, fun _ _ h => absurd hx h⟩
    rw [hx] at h; cases h
  have hclose : ∀ {x : St σ}, x.user.closing = true → Seq b e X rs0 jobs0 x := by
    intro x hx
    refine ⟨fun h => ?_, fun h => ?_, fun _ h => ?_⟩
    · cases hu : x.user <;> rw [hu] at hx h <;> first | (cases h; done) | skip
      all_goals (rename_i w; cases w <;> first | (cases h; done) | cases hx)
    · rw [h] at hx; cases hx
    · rw [h] at hx; cases hx
  obtain ⟨h1, h2, h3⟩ := id h
  -- a step within a call
  have hstay : ∀ {x : St σ}, x.jobs = st.jobs → x.told = st.told → x.user.opening = st.user.opening →
      x.user.closing = false → st.user.closing = false → x.user ≠ .idle → st.user ≠ .idle →
      (∀ s p, During b e s p st → During b e s p x) → Seq b e X rs0 jobs0 x := by
    intro x g1 g2 g3 g4 g5 g6 g7 g8
    exact seq_of g1 g2 g3 (by rw [g4, g5]) ⟨fun h => absurd h g6, fun h => absurd h g7⟩ (fun _ => g8) (fun h => absurd h g7) h
  cases hs with
  | top hb => exact seq_bg hi (.top st hb) h
  | take hb hw => exact seq_bg hi (.take st hb hw) h
  | sleep hb hw => exact seq_bg hi (.sleep st hb hw) h
  | work batch racy s' r q hb hp => exact seq_bg hi (.work st batch racy s' r q hb hp) h
  | store r hb => exact seq_bg hi (.store st r hb) h
  | setDone hb hh => exact seq_bg hi (.setDone st hb hh) h
  | notifyUser i w hb hu => exact seq_bg hi (.notifyUser st i w hb hu) h
  | notify hb hu => exact seq_bg hi (.notify st hb hu) h
  | spuriousBg hb =>
    refine seq_move (st := st) rfl rfl (.inl rfl) (fun _ _ => ⟨rfl, rfl, rfl⟩) ?_ h
    intro _ _ s p hd
    unfold Waiting at hd ⊢
    rw [hb] at hd
    exact hd
  | spuriousUser i w hu =>
    refine seq_move (st := st) rfl rfl (.inr ⟨i, w, hu, rfl⟩) (fun hw => ?_) (fun _ _ s p hd => hd) h
    rw [hu] at hw; cases hw
  | queue c js q' ok hu hj hx =>
    obtain ⟨l, x, t1, t2, t3, t4⟩ := h2 hu
    refine hidle hu ⟨l ++ [.queue c], x, ?_, ?_, t3, ?_⟩
    · rw [t1, hj]; simp
    · simp [t2]
    · rw [inTurn_append _ _ t2, t4]
      simp only [Out.ok_bind, inTurn, hx]
  | other j js s' q' r hu hj n1 n2 n3 hq hn ho ht =>
    obtain ⟨l, x, t1, t2, t3, t4⟩ := h2 hu
    refine hidle hu ⟨l ++ [j], x, ?_, ?_, t3, ?_⟩
    · rw [t1, hj]; simp
    · simp [t2, Ne.symm n2]
    · rw [inTurn_append _ _ t2, t4]
      simp only [Out.ok_bind, ht]
      rfl
  | flushPuts js hu hj =>
    obtain ⟨l, x, t1, t2, t3, t4⟩ := h2 hu
    refine ⟨fun h => (by cases h), fun h => (by cases h), fun _ _ _ => ⟨l, x, st.srv, st.p, ?_, t2, t3, t4, ⟨rfl, rfl⟩⟩⟩
    rw [t1, hj]
  | close js hu hj => exact hclose rfl
  | enter i w hu =>
    cases w with
    | close => exact hclose rfl
    | opening =>
      refine hstay rfl rfl (by rw [hu]; rfl) rfl (by rw [hu]; rfl) (by simp) (by rw [hu]; simp) ?_
      intro s p hd
      unfold During at hd
      rw [hu] at hd
      cases i
      · exact hd
      · exact ⟨st.srv, st.p, hd, rfl, rfl⟩
    | flush =>
      refine hstay rfl rfl (by rw [hu]; rfl) rfl (by rw [hu]; rfl) (by simp) (by rw [hu]; simp) ?_
      intro s p hd
      unfold During at hd
      rw [hu] at hd
      cases i
      · exact hd
      · exact ⟨st.srv, st.p, hd, rfl, rfl⟩
  | next w hu hc =>
    cases w with
    | close => exact hclose rfl
    | opening =>
      have hd' : st.done = true := hc.resolve_left (by rw [hrun, hu]; simp [User.closing])
      refine hstay rfl rfl (by rw [hu]; rfl) rfl (by rw [hu]; rfl) (by simp) (by rw [hu]; simp) ?_
      intro s p hd
      unfold During at hd
      rw [hu] at hd
      simp only [Waiting, hd', if_true] at hd
      exact hd
    | flush =>
      have hd' : st.done = true := hc.resolve_left (by rw [hrun, hu]; simp [User.closing])
      refine hstay rfl rfl (by rw [hu]; rfl) rfl (by rw [hu]; rfl) (by simp) (by rw [hu]; simp) ?_
      intro s p hd
      unfold During at hd
      rw [hu] at hd
      simp only [Waiting, hd', if_true] at hd
      exact hd
  | opened hu hc =>
    have hd' : st.done = true := hc.resolve_left (by rw [hrun, hu]; simp [User.closing])
    obtain ⟨s0, p0, g0, g1, g2, g3⟩ := h1 (by rw [hu]; rfl)
    unfold During at g1
    rw [hu] at g1
    obtain ⟨s1, p1, t1, t2⟩ := g1
    simp only [Waiting, hd', if_true] at t2
    refine hidle rfl ⟨[], (st.srv, st.p), by rw [← g3]; rfl, by simp, ?_, ?_⟩
    · rw [g0]; unfold twice; rw [t1, Out.ok_bind, t2]
    · simp only [inTurn, g2]
  | waited hu hc =>
    have hd' : st.done = true := hc.resolve_left (by rw [hrun, hu]; simp [User.closing])
    refine hstay rfl rfl (by rw [hu]; rfl) rfl (by rw [hu]; rfl) (by simp) (by rw [hu]; simp) ?_
    intro s p hd
    unfold During at hd
    rw [hu] at hd
    obtain ⟨s1, p1, t1, t2⟩ := hd
    simp only [Waiting, hd', if_true] at t2
    simp only [During, twice, t1, Out.ok_bind, t2]
  | stopped hu hc => exact hclose rfl
  | userSleep i w hu hr hd' =>
    have hcl : User.closing (.asleep i w) = false := by
      rw [hu] at hrun; rw [hr] at hrun
      cases w <;> first | rfl | cases hrun
    refine hstay rfl rfl (by rw [hu]; cases w <;> rfl) hcl (by rw [hu, ← hcl]; cases w <;> rfl) (by simp) (by rw [hu]; simp) ?_
    intro s p hd
    unfold During at hd
    rw [hu] at hd
    cases i <;> exact hd
  | collect hu hn =>
    refine hstay rfl rfl (by rw [hu]; rfl) rfl (by rw [hu]; rfl) (by simp) (by rw [hu]; simp) ?_
    intro s p hd
    unfold During at hd
    rw [hu] at hd
    exact ⟨st.p, hd, rfl, rfl⟩
  | drain r s' r' q hu hp =>
    obtain ⟨l, x, s, p, t1, t2, t3, t4, t5⟩ := h3 (by rw [hu]; rfl) (by rw [hu]; rfl) (by rw [hu]; simp)
    unfold During at t5
    rw [hu] at t5
    obtain ⟨p2, u1, u2, u3⟩ := t5
    obtain ⟨v1, v2⟩ := twice_priv u1
    have ho : st.p.opts = p.opts := by rw [u2]; exact v1
    have hnet : st.p.net e = p.net e := by rw [u2]; exact v2
    have hr' : st.p.opts.running = true := by rw [hrun, hu]; rfl
    rw [hnet, u2] at hp
    have := flush_done (b := b) (e := e) (by rw [← ho]; exact ha) (by rw [← ho]; exact hr') u1 hp
    refine hidle rfl ⟨l ++ [.flushPuts], x, ?_, ?_, t3, ?_⟩
    · rw [t1]; simp
    · simp [t2]
    · rw [inTurn_append _ _ t2, t4]
      simp only [Out.ok_bind, inTurn, this, u2, u3]
  | join hu hb => exact hclose rfl

/-! ## Starting -/

theorem closing_iff (u : User) : Closing u ↔ u.closing = true := by
  unfold Closing
  cases u <;> simp [User.closing] <;> (rename_i w; cases w <;> simp)

theorem spurious_iff (a : Act) : Spurious a ↔ spurious a = true := by cases a <;> simp [Spurious, spurious]

theorem remaining_of_queued {α : Type} {qs : List (List (List α))} (h : ∀ q ∈ qs, q = []) : remaining qs = 0 := by
  induction qs with
  | nil => rfl
  | cons q qs ih =>
    have h1 := h q (by simp)
    have h2 := ih (fun q hq => h q (by simp [hq]))
    simp only [remaining, List.map_cons, List.sum_cons] at h2 ⊢
    rw [h1, h2]; rfl

theorem inv_start (s : σ) (p : Priv) (jobs : List Job) (hr : p.opts.running = true) (hk : p.kept = none)
    (hq : ∀ q ∈ p.queues.puts, q = []) : Inv b e p jobs (start s p jobs) := by
  refine ⟨rfl, rfl, hr, fun x h => ?_, ⟨[], rfl, rfl⟩, fun _ ds => ?_, fun _ => ?_, trivial⟩
  · cases h
  · simp only [start, Bg.batch, queued_zero (remaining_of_queued hq)]
    simp [Spec.queued, putsFor]
  · simp [start, User.results, keptItems, hk, Bg.results, Results.create]

theorem live_start (s : σ) (p : Priv) (jobs : List Job) (hr : p.opts.running = true) : Live (start s p jobs) :=
  ⟨hr, fun h => (by cases h), fun h => (by cases h), fun _ _ h => (by cases h), fun h => (by cases h)⟩

theorem calm_start (s : σ) (p : Priv) (jobs : List Job) (hr : p.opts.running = true) (hc : p.queues.putCount = 0)
    (h0 : 0 < p.opts.asyncMax) (hb : Below (p.hash e) p.servers p.opts.asyncMax 0 jobs) : Calm e (start s p jobs) :=
  ⟨hr, .inl rfl, fun _ _ => ⟨rfl, rfl⟩, fun _ h => (by cases h), fun _ => (by rw [show (start s p jobs).p = p from rfl, hc]; exact h0),
    fun _ => hb, fun _ _ => hc⟩

theorem seq_start (s : σ) (p : Priv) (jobs : List Job) : Seq b e (twice b e s p) [] jobs (start s p jobs) :=
  ⟨fun _ => ⟨s, p, rfl, ⟨rfl, rfl⟩, rfl, rfl⟩, fun h => (by cases h), fun h => (by cases h)⟩

theorem step_enabled {st st' : St σ} {a : Act} (hs : Step b e st a st') :
    st'.p.opts.asyncEnabled = st.p.opts.asyncEnabled := by
  cases hs <;> first | rfl | (simp only; split <;> rfl)

theorem step_sent {st st' : St σ} {a : Act} (hs : Step b e st a st') : ∃ l, st'.sent = st.sent ++ l := by
  cases hs <;> first | exact ⟨[], (List.append_nil _).symm⟩ | exact ⟨_, rfl⟩

theorem step_net {st st' : St σ} {a : Act} (hs : Step b e st a st') : st'.p.net e = st.p.net e := by
  cases hs <;> first | rfl | (simp only; split <;> rfl)

theorem served_step {s0 : σ} {st st' : St σ} {a : Act} (hs : Step b e st a st')
    (h : Served (st.p.net e) b.serve s0 st.sent st.srv) : Served (st'.p.net e) b.serve s0 st'.sent st'.srv := by
  rw [step_net hs]
  cases hs with
  | work batch racy s' r q hb hp => exact .put h hp
  | drain r s' r' q hu hp => exact .put h hp
  | other j js s' q' r hu hj n1 n2 n3 hq hn ho ht => exact .other h ho
  | _ => exact h

/-! ## After `Open` -/

/-- Before the first call: the first run of the background thread has replaced the queue. -/
structure Fresh (n : Nat) (st : St σ) : Prop where
  jobs : st.jobs.length ≤ n
  user : st.jobs.length = n → st.user.opening = true ∨ st.user = .idle
  puts : st.jobs.length = n → st.p.queues.puts = List.replicate st.p.servers [] ∨
    ((st.bg = .top ∨ st.bg = .check ∨ st.bg = .asleep) ∧ st.done = false ∧ st.p.opts.running = true ∧
      (st.user = .enter false .opening ∨ st.user = .wait false .opening ∨ st.user = .asleep false .opening))

theorem fresh_step {n : Nat} {st st' : St σ} {a : Act} (h : Fresh n st) (hs : Step b e st a st') : Fresh n st' := by
  have hj := step_jobs hs
  obtain ⟨h1, h2, h3⟩ := h
  refine ⟨Nat.le_trans hj h1, fun hn => ?_, fun hn => ?_⟩
  · have h2 := h2 (by omega)
    cases hs
    case queue hq _ => simp only [hq, List.length_cons] at h1 hn; omega
    case flushPuts hq => simp only [hq, List.length_cons] at h1 hn; omega
    case other hq _ _ _ _ _ _ _ => simp only [hq, List.length_cons] at h1 hn; omega
    case close hq => simp only [hq, List.length_cons] at h1 hn; omega
    case notifyUser i w _ hu => rw [hu] at h2; cases w <;> simp [User.opening] at h2 ⊢
    case enter i w hu => rw [hu] at h2; cases w <;> simp [User.opening] at h2 ⊢
    case next w hu _ => rw [hu] at h2; cases w <;> simp [User.opening] at h2 ⊢
    case userSleep i w hu _ _ => rw [hu] at h2; cases w <;> simp [User.opening] at h2 ⊢
    case spuriousUser i w hu => rw [hu] at h2; cases w <;> simp [User.opening] at h2 ⊢
    all_goals first
      | exact h2
      | (rename_i hu _; rw [hu] at h2; simpa [User.opening] using h2)
      | (rename_i hu; rw [hu] at h2; simpa [User.opening] using h2)
      | skip
    all_goals (simp_all [User.opening])
  · have h2 := h2 (by omega)
    have h3 := h3 (by omega)
    cases hs
    case queue hq _ => simp only [hq, List.length_cons] at h1 hn; omega
    case flushPuts hq => simp only [hq, List.length_cons] at h1 hn; omega
    case other hq _ _ _ _ _ _ _ => simp only [hq, List.length_cons] at h1 hn; omega
    case close hq => simp only [hq, List.length_cons] at h1 hn; omega
    case take => exact .inl rfl
    case drain hu _ => rw [hu] at h2; simp [User.opening] at h2
    case enter i w hu =>
      have hw : w ≠ .close := by
        intro hw
        rw [hu, hw] at h2
        cases i <;> simp [User.opening] at h2
      simp only [hw, if_false]
      rcases h3 with h3 | ⟨g1, g2, g3, g4⟩
      · exact .inl h3
      · refine .inr ⟨?_, trivial, g3, ?_⟩
        · rcases g1 with g | g | g <;> simp [g, wakeBg]
        · rw [hu] at g4
          simp at g4
          simp [g4]
    all_goals
      rcases h3 with h3 | ⟨g1, g2, g3, g4⟩
      · exact .inl h3
      · simp_all

theorem fresh_start (s : σ) (p : Priv) (jobs : List Job) (hr : p.opts.running = true) :
    Fresh jobs.length (start s p jobs) :=
  ⟨Nat.le_refl _, fun _ => .inl rfl, fun _ => .inr ⟨.inl rfl, rfl, hr, .inl rfl⟩⟩

/-! ## The number of queues -/

theorem putLoop_length {c : Queue.Cfg} {s p o : Blob} {mask : Nat} (l : List Nat) {q : Queue.Queues} {x : Queue.Queues × Bool}
    (h : Queue.putLoop c s p o mask l q = .ok x) : x.1.puts.length = q.puts.length := by
  induction l generalizing q with
  | nil => cases h; rfl
  | cons perm l ih =>
    simp only [Queue.putLoop] at h
    split at h
    · exact ih h
    · split at h
      · cases h; rfl
      · obtain ⟨id, -, h⟩ := ok_iff.mp h
        split at h
        · cases h; rfl
        · obtain ⟨puts, hp, h⟩ := ok_iff.mp h
          rw [ih h]
          exact (Queue.enqueue_ok hp).1

theorem bulk_length {α : Type} {f : Queue.Queues → α → Out (Queue.Queues × Bool)}
    (hf : ∀ q a x, f q a = .ok x → x.1.puts.length = q.puts.length) (l : List α) {q q' : Queue.Queues}
    (h : Queue.bulk f l q = .ok q') : q'.puts.length = q.puts.length := by
  induction l generalizing q with
  | nil => cases h; rfl
  | cons a l ih =>
    obtain ⟨r, hr, h⟩ := ok_iff.mp h
    rw [ih h, hf _ _ _ hr]

theorem getImpl_length {c : Queue.Cfg} (q : Queue.Queues) (a : Queue.GetArg) (x : Queue.Queues × Bool)
    (h : Queue.getImpl c q a = .ok x) : x.1.puts.length = q.puts.length := by
  obtain ⟨id, -, h⟩ := ok_iff.mp h
  split at h
  · cases h; rfl
  · obtain ⟨y, -, h⟩ := ok_iff.mp h
    cases h; rfl

theorem getOpImpl_length {c : Queue.Cfg} (q : Queue.Queues) (a : Queue.GetOpArg) (x : Queue.Queues × Bool)
    (h : Queue.getOpImpl c q a = .ok x) : x.1.puts.length = q.puts.length := by
  obtain ⟨id, -, h⟩ := ok_iff.mp h
  split at h
  · cases h; rfl
  · obtain ⟨y, -, h⟩ := ok_iff.mp h
    cases h; rfl

theorem delImpl_length {c : Queue.Cfg} (q : Queue.Queues) (a : Queue.DelArg) (x : Queue.Queues × Bool)
    (h : Queue.delImpl c q a = .ok x) : x.1.puts.length = q.puts.length := by
  obtain ⟨id, -, h⟩ := ok_iff.mp h
  split at h
  · cases h; rfl
  · obtain ⟨y, -, h⟩ := ok_iff.mp h
    cases h; rfl

theorem histImpl_length {c : Queue.Cfg} (q : Queue.Queues) (a : Queue.HistArg) (x : Queue.Queues × Bool)
    (h : Queue.histImpl c q a = .ok x) : x.1.puts.length = q.puts.length := by
  obtain ⟨y, -, h⟩ := ok_iff.mp h
  cases h; rfl

theorem exec_length {c : Queue.Cfg} {q : Queue.Queues} {x : Queue.Call} {r : Queue.Queues × Bool}
    (h : Queue.exec c q x = .ok r) : r.1.puts.length = q.puts.length := by
  cases x with
  | put a =>
    simp only [Queue.exec] at h
    split at h
    · exact putLoop_length _ h
    · cases h; rfl
  | get a =>
    simp only [Queue.exec] at h
    split at h
    · exact getImpl_length _ _ _ h
    · cases h; rfl
  | getop a =>
    simp only [Queue.exec] at h
    split at h
    · exact getOpImpl_length _ _ _ h
    · cases h; rfl
  | del a =>
    simp only [Queue.exec] at h
    split at h
    · exact delImpl_length _ _ _ h
    · cases h; rfl
  | hist a =>
    simp only [Queue.exec] at h
    split at h
    · exact histImpl_length _ _ _ h
    · cases h; rfl
  | bput arrays l =>
    simp only [Queue.exec] at h
    split at h
    · obtain ⟨q', hq, h⟩ := ok_iff.mp h
      cases h
      exact bulk_length (fun q a x h => putLoop_length _ h) l hq
    · cases h; rfl
  | bget arrays l =>
    simp only [Queue.exec] at h
    split at h
    · obtain ⟨q', hq, h⟩ := ok_iff.mp h
      cases h
      exact bulk_length getImpl_length l hq
    · cases h; rfl
  | bgetop arrays l =>
    simp only [Queue.exec] at h
    split at h
    · obtain ⟨q', hq, h⟩ := ok_iff.mp h
      cases h
      exact bulk_length getOpImpl_length l hq
    · cases h; rfl
  | bdel arrays l =>
    simp only [Queue.exec] at h
    split at h
    · obtain ⟨q', hq, h⟩ := ok_iff.mp h
      cases h
      exact bulk_length delImpl_length l hq
    · cases h; rfl
  | bhist arrays l =>
    simp only [Queue.exec] at h
    split at h
    · obtain ⟨q', hq, h⟩ := ok_iff.mp h
      cases h
      exact bulk_length histImpl_length l hq
    · cases h; rfl

structure Wide (n : Nat) (st : St σ) : Prop where
  servers : st.p.servers ≤ n
  puts : st.p.queues.puts.length ≤ n
  batch : st.bg.batch.length ≤ n
  sent : ∀ x ∈ st.sent, x.2.1.length ≤ n

theorem wide_step {n : Nat} {st st' : St σ} {a : Act} (h : Wide n st) (hs : Step b e st a st') : Wide n st' := by
  obtain ⟨h1, h2, h3, h4⟩ := h
  have wake : ∀ x : Bg, (wakeBg x).batch = x.batch := fun x => by cases x <;> rfl
  have touch : ∀ x : Bg, x.touched.batch = x.batch := fun x => by cases x <;> rfl
  cases hs with
  | top hb => exact ⟨h1, h2, by simp only; split <;> simp [Bg.batch], h4⟩
  | take hb hw => exact ⟨h1, by simpa using h1, h2, h4⟩
  | sleep hb hw => exact ⟨h1, h2, by simp [Bg.batch], h4⟩
  | work batch racy s' r q hb hp =>
    refine ⟨h1, h2, by simp [Bg.batch], fun x hx => ?_⟩
    rcases List.mem_append.mp hx with hx | hx
    · exact h4 x hx
    · rw [List.mem_singleton] at hx
      subst hx
      rw [hb] at h3
      exact h3
  | store r hb => exact ⟨h1, h2, by simp [Bg.batch], h4⟩
  | setDone hb hu => exact ⟨h1, h2, by simp [Bg.batch], h4⟩
  | notifyUser i w hb hu => exact ⟨h1, h2, by simp [Bg.batch], h4⟩
  | notify hb hu => exact ⟨h1, h2, by simp [Bg.batch], h4⟩
  | queue c jobs q' ok hu hj hx =>
    refine ⟨h1, by rw [show q'.puts.length = _ from exec_length hx]; exact h2, ?_, h4⟩
    simp only
    split
    · rw [wake]; exact h3
    · exact h3
  | flushPuts jobs hu hj => exact ⟨h1, h2, h3, h4⟩
  | other j jobs s' q' r hu hj _ _ _ hq _ _ _ => exact ⟨h1, by rw [show q'.puts = _ from hq]; exact h2, h3, h4⟩
  | close jobs hu hj => exact ⟨h1, h2, h3, h4⟩
  | enter i w hu =>
    refine ⟨?_, ?_, by simp only [wake]; exact h3, h4⟩
    · simp only; split <;> exact h1
    · simp only; split
      · simp
      · exact h2
  | next w hu hd => exact ⟨h1, h2, h3, h4⟩
  | opened hu hd => exact ⟨h1, h2, h3, h4⟩
  | waited hu hd => exact ⟨h1, h2, h3, h4⟩
  | stopped hu hd => exact ⟨h1, h2, h3, h4⟩
  | userSleep i w hu hr hd => exact ⟨h1, h2, h3, h4⟩
  | collect hu hb => exact ⟨h1, h2, by simp only [touch]; exact h3, h4⟩
  | drain r s' r' q hu hp =>
    have hq := (C29_at_most_once _ _ _ _ _ _ _ _ hp).1
    refine ⟨h1, by simp only [hq, List.length_map]; exact h2, h3, fun x hx => ?_⟩
    rcases List.mem_append.mp hx with hx | hx
    · exact h4 x hx
    · rw [List.mem_singleton] at hx
      subst hx
      exact h2
  | join hu hb => exact ⟨h1, h2, h3, h4⟩
  | spuriousUser i w hu => exact ⟨h1, h2, h3, h4⟩
  | spuriousBg hb => exact ⟨h1, h2, by simp [Bg.batch], h4⟩

/-! ## What all requests preserve -/

theorem deliver_keeps {serve : Server σ} {P : σ → Prop} (hP : ∀ s rank req s' res, P s → serve s rank req = .ok (s', res) → P s')
    {net : Net} {x : Send} {s s' : σ} {o : Option Res} (hs : P s) (h : deliver net serve s x = .ok (s', o)) : P s' := by
  unfold deliver at h
  split at h
  · unfold remoteServe at h
    split at h
    · obtain ⟨y, hy, h⟩ := ok_iff.mp h
      obtain ⟨w, -, h⟩ := ok_iff.mp h
      split at h
      · cases h; exact hP _ _ _ _ _ hs hy
      · cases h; exact hP _ _ _ _ _ hs hy
      · cases h
    · cases h
    · cases h
  · obtain ⟨y, hy, h⟩ := ok_iff.mp h
    cases h
    exact hP _ _ _ _ _ hs hy

theorem deliverAll_keeps {serve : Server σ} {P : σ → Prop} (hP : ∀ s rank req s' res, P s → serve s rank req = .ok (s', res) → P s')
    {net : Net} (l : List Send) {s s' : σ} {rs : List Res} (hs : P s)
    (h : deliverAll (deliver net serve) l s = .ok (s', rs)) : P s' := by
  induction l generalizing s rs with
  | nil => cases h; exact hs
  | cons x l ih =>
    obtain ⟨y, hy, h⟩ := ok_iff.mp h
    obtain ⟨z, hz, h⟩ := ok_iff.mp h
    cases h
    exact ih (deliver_keeps hP hs hy) hz

theorem process_keeps {α : Type} {serve : Server σ} {P : σ → Prop}
    (hP : ∀ s rank req s' res, P s → serve s rank req = .ok (s', res) → P s') {net : Net} {mk : List α → ReqBody}
    {s : σ} {x : σ × Results × List (List (List α))} {qs : List (List (List α))} (hs : P s)
    (h : process net serve mk s qs = .ok x) : P x.1 := by
  obtain ⟨-, l, rs, hl, -⟩ := C29_at_most_once net serve mk s x.1 x.2.1 qs x.2.2 h
  exact deliverAll_keeps hP l hs hl

theorem served_keeps {serve : Server σ} {P : σ → Prop} (hP : ∀ s rank req s' res, P s → serve s rank req = .ok (s', res) → P s')
    {net : Net} {s s' : σ} {l : List (σ × Batch × Results)} (h : Served net serve s l s') (hs : P s) :
    P s' ∧ ∀ x ∈ l, P x.1 := by
  induction h with
  | nil => exact ⟨hs, fun x hx => by cases hx⟩
  | put _ hp ih =>
    refine ⟨process_keeps hP ih.1 hp, fun x hx => ?_⟩
    rcases List.mem_append.mp hx with hx | hx
    · exact ih.2 x hx
    · rw [List.mem_singleton] at hx
      subst hx
      exact ih.1
  | other _ ho ih =>
    refine ⟨?_, ih.2⟩
    obtain ⟨q, q', r, h | h | h | h⟩ := ho <;>
      (obtain ⟨x, hx, h⟩ := ok_iff.mp h; cases h; exact process_keeps hP ih.1 hx)

end Hx.Async

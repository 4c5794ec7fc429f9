import Verif.Model.AsyncOverlap
import Verif.Proofs.AsyncJob
import Verif.Proofs.Overlap

/-!
# Ranks with asynchronous PUTs that flush at the same time: auxiliary lemmas
-/

namespace Hx.AsyncOverlap
open Hx Msg Spec Process Results Session Async AsyncJob Job

/-! ## What a function uses of the responses -/

/-- `f` uses a beginning of the responses, and does not look at the others. -/
def Frame {α : Type} (f : List Served → Out (List Served × α)) : Prop :=
  ∀ l l' a, f l = .ok (l', a) → ∃ c, l = c ++ l' ∧ ∀ m, f (c ++ m) = .ok (m, a)

theorem frame_ok {α : Type} (a : α) : Frame (fun l => .ok (l, a)) := by
  intro l l' a' h
  cases h
  exact ⟨[], rfl, fun m => rfl⟩

theorem frame_bind {α β : Type} {f : List Served → Out (List Served × α)} {g : α → List Served → Out (List Served × β)}
    (hf : Frame f) (hg : ∀ a, Frame (g a)) : Frame (fun l => f l >>= fun x => g x.2 x.1) := by
  intro l l' b h
  obtain ⟨⟨l1, a⟩, h1, h2⟩ := ok_iff.mp h
  obtain ⟨c1, rfl, k1⟩ := hf _ _ _ h1
  obtain ⟨c2, rfl, k2⟩ := hg a _ _ _ h2
  refine ⟨c1 ++ c2, by rw [List.append_assoc], fun m => ?_⟩
  rw [List.append_assoc]
  simp only [k1, Out.ok_bind, k2]

/-- A computation without the range servers in between. -/
theorem frame_pure {α β : Type} (x : Out α) {g : α → List Served → Out (List Served × β)} (hg : ∀ a, Frame (g a)) :
    Frame (fun l => x >>= fun a => g a l) := by
  intro l l' b h
  obtain ⟨a, h1, h2⟩ := ok_iff.mp h
  obtain ⟨c, hc, k⟩ := hg a _ _ _ h2
  refine ⟨c, hc, fun m => ?_⟩
  simp only [h1, Out.ok_bind, k]

theorem frame_ub {α : Type} : Frame (fun _ => (.ub : Out (List Served × α))) := by
  intro l l' a h
  cases h

theorem frame_replay (rank : Int) (req : Req) : Frame (fun l => replay l rank req) := by
  intro l l' a h
  cases l with
  | nil => cases h
  | cons y l =>
    simp only [replay] at h
    by_cases hy : y.rank = rank ∧ y.req = req
    · rw [if_pos hy] at h
      cases h
      refine ⟨[y], rfl, fun m => ?_⟩
      simp only [replay, List.cons_append, List.nil_append]
      rw [if_pos hy]
    · rw [if_neg hy] at h
      cases h

theorem frame_remote (net : Net) (rank : Int) (req : Req) : Frame (fun l => remoteServe net replay l rank req) := by
  unfold remoteServe
  split
  · rename_i req' rest _
    refine frame_bind (g := fun a l => a.pack >>= fun w => match rdRes net.heap (w ++ net.junk (a.size - w.length)) with
      | .ok (res, _) => .ok (l, some res) | .err => .ok (l, none) | .ub => .ub) (frame_replay rank req') ?_
    intro a
    refine frame_pure a.pack (g := fun w l => match rdRes net.heap (w ++ net.junk (a.size - w.length)) with
      | .ok (res, _) => .ok (l, some res) | .err => .ok (l, none) | .ub => .ub) ?_
    intro w
    cases rdRes net.heap (w ++ net.junk (a.size - w.length)) with
    | ok x => exact frame_ok (some x.1)
    | err => exact frame_ok none
    | ub => exact frame_ub
  · exact frame_ub
  · exact frame_ub

theorem frame_sendAll (net : Net) (route : Int × Req → Option Int) (l : ReqList) : Frame (fun s => sendAll net replay route l s) := by
  induction l with
  | nil => exact frame_ok _
  | cons x l ih =>
    simp only [sendAll]
    cases route x with
    | none => exact ih
    | some rank =>
      exact frame_bind (g := fun a s => sendAll net replay route l s >>= fun z => .ok (z.1, (rank, a) :: z.2)) (frame_remote net rank x.2)
        (fun a => frame_bind (g := fun z s => .ok (s, (rank, a) :: z)) ih (fun z => frame_ok _))

theorem frame_communicate (net : Net) (remote : ReqList) : Frame (fun s => communicate net replay s remote) := by
  unfold communicate
  cases net.transport with
  | null => exact frame_ub
  | mpi ranks =>
    refine frame_bind (g := fun a s => if a.all (fun x => ranks.lookup x.1 == some x.1) then .ok (s, a.filterMap (fun x => x.2)) else .ub)
      (frame_sendAll net _ _) (fun a => ?_)
    by_cases h : a.all (fun x => ranks.lookup x.1 == some x.1)
    · simp only [h, if_true]; exact frame_ok _
    · simp only [h]; exact frame_ub
  | thallium endpoints =>
    exact frame_bind (g := fun a s => .ok (s, a.filterMap (fun x => x.2))) (frame_sendAll net _ _) (fun a => frame_ok _)

theorem frame_local (net : Net) (l : List Req) (r : Results) : Frame (fun s => serveLocal net replay l s r) := by
  induction l generalizing r with
  | nil => exact frame_ok _
  | cons req l ih =>
    simp only [serveLocal]
    exact frame_bind (g := fun a s => addAll [a] r >>= fun r => serveLocal net replay l s r) (frame_replay net.rank req)
      (fun a => frame_pure (addAll [a] r) (g := fun r s => serveLocal net replay l s r) (fun r => ih r))

theorem frame_round {α : Type} (net : Net) (mk : List α → ReqBody) (r : Results) (qs : List (List (List α))) :
    Frame (fun s => round net replay mk s r qs) := by
  unfold round
  refine frame_pure _ (fun d => ?_)
  refine frame_bind (f := fun s => if d.2.isEmpty then .ok (s, r)
    else communicate net replay s d.2 >>= fun c => addAll c.2 r >>= fun r => .ok (c.1, r))
    (g := fun r s => serveLocal net replay d.1 s r >>= fun y => .ok (y.1, y.2, popped qs)) ?_ (fun r => ?_)
  · by_cases h : d.2.isEmpty
    · simp only [h, if_true]; exact frame_ok _
    · simp only [h]
      exact frame_bind (g := fun a s => addAll a r >>= fun r => .ok (s, r)) (frame_communicate net d.2)
        (fun a => frame_pure (addAll a r) (fun r => frame_ok r))
  · exact frame_bind (g := fun a s => .ok (s, a, popped qs)) (frame_local net d.1 r) (fun a => frame_ok _)

theorem frame_loop {α : Type} (net : Net) (mk : List α → ReqBody) (fuel : Nat) (r : Results) (qs : List (List (List α))) :
    Frame (fun s => processLoop net replay mk fuel s r qs) := by
  induction fuel generalizing r qs with
  | zero => exact frame_ub
  | succ fuel ih =>
    simp only [processLoop]
    by_cases h : remaining qs = 0
    · simp only [h, if_true]; exact frame_ok _
    · simp only [h, if_false]
      exact frame_bind (g := fun a s => processLoop net replay mk fuel s a.1 a.2) (frame_round net mk r qs) (fun a => ih a.1 a.2)

theorem frame_process {α : Type} (net : Net) (mk : List α → ReqBody) (qs : List (List (List α))) :
    Frame (fun s => process net replay mk s qs) := frame_loop net mk _ _ qs

/-! ## Steps -/

variable {b : Backend (List Served)} {e : Env}

theorem frame_other {f : List Served → Queue.Queues → Out (List Served × Results × Queue.Queues)}
    (hf : ∀ q, Frame (fun s => f s q)) {st st' : St (List Served)} {jobs : List Async.Job} {l : List Served}
    (h : other { st with srv := l } jobs (f l) = .ok st') :
    ∃ c, l = c ++ st'.srv ∧ ∀ m u, ∃ u',
      other { st with srv := c ++ m, sent := u } jobs (f (c ++ m)) = .ok { st' with srv := m, sent := u' } := by
  unfold other at h ⊢
  obtain ⟨x, hx, h⟩ := ok_iff.mp h
  cases h
  obtain ⟨x1, x2⟩ := x
  have hx' : f l st.p.queues = .ok (x1, x2) := hx
  obtain ⟨c, hc, k⟩ := hf st.p.queues _ _ _ hx'
  refine ⟨c, hc, fun m u => ⟨u, ?_⟩⟩
  have k' : f (c ++ m) st.p.queues = .ok (m, x2) := k m
  show (f (c ++ m) st.p.queues >>= _) = _
  rw [k']
  rfl

theorem frame_flush {α : Type} (net : Net) (mk : List α → ReqBody) (qs : List (List (List α)))
    (g : List (List (List α)) → Queue.Queues) : Frame (fun s => process net replay mk s qs >>= fun x => .ok (x.1, x.2.1, g x.2.2)) :=
  frame_bind (g := fun a s => .ok (s, a.1, g a.2)) (frame_process net mk qs) (fun _ => frame_ok _)

/-- A step uses a beginning of the responses, and leaves the others alone. -/
theorem frame_uses (hserve : b.serve = replay) {st st' : St (List Served)} {a : Act} {l : List Served}
    (h : Async.step b e { st with srv := l } a = some (.ok st')) :
    ∃ c, l = c ++ st'.srv ∧ ∀ m u, ∃ u',
      Async.step b e { st with srv := c ++ m, sent := u } a = some (.ok { st' with srv := m, sent := u' }) := by
  obtain ⟨srv, p, flushed, done, bg, user, jobs, asked, sent, returned, told⟩ := st
  cases a with
  | spuriousUser =>
    simp only [Async.step] at h ⊢
    cases user <;> simp only [reduceCtorEq, Option.some.injEq, Out.ok.injEq] at h ⊢
    subst h
    exact ⟨[], rfl, fun m u => ⟨u, rfl⟩⟩
  | spuriousBg =>
    simp only [Async.step] at h ⊢
    cases bg <;> simp only [reduceCtorEq, Option.some.injEq, Out.ok.injEq] at h ⊢
    subst h
    exact ⟨[], rfl, fun m u => ⟨u, rfl⟩⟩
  | bg =>
    simp only [Async.step, stepBg] at h ⊢
    cases bg with
    | work batch racy =>
      simp only [Option.some.injEq] at h ⊢
      obtain ⟨x, hx, h⟩ := ok_iff.mp h
      cases h
      obtain ⟨x1, x2⟩ := x
      rw [hserve] at hx ⊢
      obtain ⟨c, hc, k⟩ := frame_process _ _ _ _ _ _ hx
      refine ⟨c, hc, fun m u => ?_⟩
      simp only [k m, Out.ok_bind]
      exact ⟨_, rfl⟩
    | check =>
      have hsame : ∀ l' u, wanted (⟨l', p, flushed, done, .check, user, jobs, asked, u, returned, told⟩ : St (List Served)) =
        wanted (⟨l, p, flushed, done, .check, user, jobs, asked, sent, returned, told⟩ : St (List Served)) := fun _ _ => rfl
      by_cases hw : wanted (⟨l, p, flushed, done, .check, user, jobs, asked, sent, returned, told⟩ : St (List Served)) = true
      · simp only [hsame, hw, if_true] at h ⊢
        simp only [Option.some.injEq, Out.ok.injEq] at h ⊢
        subst h
        exact ⟨[], rfl, fun m u => ⟨u, rfl⟩⟩
      · simp only [hsame, hw] at h ⊢
        simp only [Bool.false_eq_true, if_false, Option.some.injEq, Out.ok.injEq] at h ⊢
        subst h
        exact ⟨[], rfl, fun m u => ⟨u, rfl⟩⟩
    | store r racy =>
      cases racy
      · simp only [Bool.false_eq_true, if_false, Option.some.injEq, Out.ok.injEq] at h ⊢
        subst h
        exact ⟨[], rfl, fun m u => ⟨u, rfl⟩⟩
      · simp at h
    | setDone =>
      by_cases hw : user.holds = true
      · simp only [hw, if_true] at h
        cases h
      · simp only [hw, Bool.false_eq_true, if_false] at h ⊢
        simp only [Option.some.injEq, Out.ok.injEq] at h ⊢
        subst h
        exact ⟨[], rfl, fun m u => ⟨u, rfl⟩⟩
    | asleep => cases h
    | exited => cases h
    | top =>
      simp only [Option.some.injEq, Out.ok.injEq] at h ⊢
      subst h
      exact ⟨[], rfl, fun m u => ⟨u, rfl⟩⟩
    | notify =>
      simp only [Option.some.injEq, Out.ok.injEq] at h ⊢
      subst h
      exact ⟨[], rfl, fun m u => ⟨u, rfl⟩⟩
  | user =>
    simp only [Async.step, stepUser] at h ⊢
    cases user with
    | drain r =>
      simp only [Option.some.injEq] at h ⊢
      obtain ⟨x, hx, h⟩ := ok_iff.mp h
      cases h
      obtain ⟨x1, x2⟩ := x
      rw [hserve] at hx ⊢
      obtain ⟨c, hc, k⟩ := frame_process _ _ _ _ _ _ hx
      refine ⟨c, hc, fun m u => ?_⟩
      simp only [k m, Out.ok_bind]
      exact ⟨_, rfl⟩
    | enter i w =>
      simp only [Option.some.injEq, Out.ok.injEq] at h ⊢
      subst h
      exact ⟨[], rfl, fun m u => ⟨u, rfl⟩⟩
    | wait i w =>
      by_cases hw : (!p.opts.running || done) = true
      · simp only [hw, if_true] at h ⊢
        simp only [Option.some.injEq, Out.ok.injEq] at h ⊢
        subst h
        exact ⟨[], rfl, fun m u => ⟨u, rfl⟩⟩
      · simp only [hw, Bool.false_eq_true, if_false] at h ⊢
        simp only [Option.some.injEq, Out.ok.injEq] at h ⊢
        subst h
        exact ⟨[], rfl, fun m u => ⟨u, rfl⟩⟩
    | asleep i w => cases h
    | closed => cases h
    | collect =>
      cases bg <;> simp only [reduceCtorEq, Option.some.injEq, Out.ok.injEq] at h ⊢ <;>
      · subst h
        exact ⟨[], rfl, fun m u => ⟨u, rfl⟩⟩
    | join =>
      cases bg <;> simp only [reduceCtorEq, Option.some.injEq, Out.ok.injEq] at h ⊢
      subst h
      exact ⟨[], rfl, fun m u => ⟨u, rfl⟩⟩
    | idle =>
      simp only [begin] at h ⊢
      cases jobs with
      | nil => cases h
      | cons j js =>
        cases j with
        | queue q =>
          simp only [Option.some.injEq] at h ⊢
          obtain ⟨x, hx, h⟩ := ok_iff.mp h
          cases h
          refine ⟨[], rfl, fun m u => ⟨u, ?_⟩⟩
          rw [show Queue.exec _ _ _ = _ from hx]
          rfl
        | flushPuts =>
          simp only [Option.some.injEq, Out.ok.injEq] at h ⊢
          subst h
          exact ⟨[], rfl, fun m u => ⟨u, rfl⟩⟩
        | close =>
          simp only [Option.some.injEq, Out.ok.injEq] at h ⊢
          subst h
          exact ⟨[], rfl, fun m u => ⟨u, rfl⟩⟩
        | flushGets =>
          simp only [Option.some.injEq] at h ⊢
          rw [hserve] at h ⊢
          exact frame_other (f := Process.flushGets (p.net e) replay)
            (st := ⟨srv, p, flushed, done, bg, .idle, .flushGets :: js, asked, sent, returned, told⟩)
            (fun q => frame_flush (p.net e) .get q.gets (fun x => { q with gets := x })) h
        | flushGetOps =>
          simp only [Option.some.injEq] at h ⊢
          rw [hserve] at h ⊢
          exact frame_other (f := Process.flushGetOps (p.net e) replay)
            (st := ⟨srv, p, flushed, done, bg, .idle, .flushGetOps :: js, asked, sent, returned, told⟩)
            (fun q => frame_flush (p.net e) .getop q.getops (fun x => { q with getops := x })) h
        | flushDels =>
          simp only [Option.some.injEq] at h ⊢
          rw [hserve] at h ⊢
          exact frame_other (f := Process.flushDels (p.net e) replay)
            (st := ⟨srv, p, flushed, done, bg, .idle, .flushDels :: js, asked, sent, returned, told⟩)
            (fun q => frame_flush (p.net e) .del q.dels (fun x => { q with dels := x })) h
        | flushHists =>
          simp only [Option.some.injEq] at h ⊢
          rw [hserve] at h ⊢
          exact frame_other (f := Process.flushHists (p.net e) replay)
            (st := ⟨srv, p, flushed, done, bg, .idle, .flushHists :: js, asked, sent, returned, told⟩)
            (fun q => frame_flush (p.net e) .hist q.hists (fun x => { q with hists := x })) h


/-- A step that uses exactly some responses leaves further ones alone. -/
theorem frame_step (hserve : b.serve = replay) {st st' : St (List Served)} {a : Act} {c : List Served}
    (h : Async.step b e { st with srv := c } a = some (.ok st')) (hs : st'.srv = []) (m : List Served) (u : List _) :
    ∃ u', Async.step b e { st with srv := c ++ m, sent := u } a = some (.ok { st' with srv := m, sent := u' }) := by
  obtain ⟨c', h1, h2⟩ := frame_uses hserve h
  rw [hs, List.append_nil] at h1
  rw [h1]
  exact h2 m u

theorem sameOrder_append {a a' c c' : List Served} (h : sameOrder a c) (h' : sameOrder a' c') : sameOrder (a ++ a') (c ++ c') := by
  intro rank
  rw [List.filter_append, List.filter_append, h rank, h' rank]

theorem sameOrder_nil {c : List Served} (h : sameOrder [] c) : c = [] := by
  cases c with
  | nil => rfl
  | cons y c =>
    have := h y.rank
    simp at this

theorem rest_fields {total : Nat} {p : Priv} {st : St (List Served)} (h : Rest e total p st) (s : List Served) (u : List _) :
    Rest e total p { st with srv := s, sent := u } :=
  ⟨h.user, h.jobs, ⟨h.calm.running, h.calm.bg, h.calm.rests, h.calm.waits, h.calm.count, h.calm.jobs, h.calm.opening⟩,
    ⟨h.live.running, h.live.exited, h.live.waiting, h.live.asleep, h.live.closing⟩, h.enabled, h.kept, h.queues, h.cfg, h.net, h.max⟩

/-- A rank at rest sends nothing. -/
theorem steps_rest {total : Nat} {p : Priv} {st st' : St (List Served)} {part : List Served} (hs : Steps b e st part st')
    (h : Rest e total p st) : Rest e total p st' ∧ part = [] := by
  induction hs with
  | refl st => exact ⟨h, rfl⟩
  | @step st a asked part st' rest st'' ho hst hn _ ih =>
    obtain ⟨h1, h2⟩ := rest_step h hst
    obtain ⟨h3, rfl⟩ := ih h1
    rw [hn] at h2
    subst h2
    exact ⟨h3, by rw [sameOrder_nil ho]; rfl⟩

theorem steps_busy (hserve : b.serve = replay) {st st' : St (List Served)} {part : List Served} (hs : Steps b e st part st') :
    ∃ asked, sameOrder asked part ∧ ∀ x rs calls u, Busy b e x rs calls { st with srv := asked, sent := u } →
      ∃ u', Busy b e x rs calls { st' with srv := [], sent := u' } := by
  induction hs with
  | refl st => exact ⟨[], sameOrder_refl _, fun _ _ _ u h => ⟨u, h⟩⟩
  | @step st a asked part st' rest st'' ho hst hn _ ih =>
    obtain ⟨asked', h1, h2⟩ := ih
    refine ⟨asked ++ asked', sameOrder_append ho h1, fun x rs calls u h => ?_⟩
    obtain ⟨u', hu⟩ := frame_step hserve hst hn asked' u
    exact h2 x rs calls u' (busy_step h hu)

/-- A turn with asynchronous PUTs gives the same as one without. -/
theorem steps_turn (hserve : b.serve = replay) {total : Nat} {p : Priv} (hp : p.servers = total) {st0 st1 : St (List Served)}
    {calls : List Queue.Call} {part : List Served} (h0 : Rest e total p st0)
    (hb : putNumber (calls.flatMap (ops (p.hash e) p.servers)) < p.opts.asyncMax)
    (hs : Steps b e { st0 with jobs := turnJobs calls } part st1) (hu : st1.user = .idle) (hj : st1.jobs = []) :
    Rest e total p st1 ∧ ∃ r, turnOn total part ⟨p.cfg e, p.net e, calls⟩ r ∧
      r.items = (st1.told.drop st0.told.length).flatMap (fun y => y.items) := by
  obtain ⟨asked, ho, hbusy⟩ := steps_busy hserve hs
  obtain ⟨u', hb'⟩ := hbusy (asked, st0.p) st0.told calls st0.sent (rest_busy (b := b) (s := asked) h0 hb)
  obtain ⟨h1, q, q', r, h2, h3, h4⟩ := flush_done hserve hp h0 hb' hu hj
  exact ⟨rest_fields h1 st1.srv st1.sent, r, ⟨asked, q, q', ho, h2, h3⟩, h4⟩

/-! ## Traces -/

variable {n : Nat}

/-- What a rank that is in no turn does from now on: turns with `Q`, and nothing between them. -/
inductive AtRest (Q : Fin n → List Queue.Call → List Served → List Results → Prop) (i : Fin n) : List (Event n) → Prop where
  | nil : AtRest Q i []
  | turn {calls part told l} : Q i calls part told → AtRest Q i l →
      AtRest Q i (.begins i calls :: (part.map (.serves i) ++ .ends i told :: l))

/-- What a rank that is in a turn does from now on. -/
def InTurn (Q : Fin n → List Queue.Call → List Served → List Results → Prop) (i : Fin n) (part : List Served) (told : List Results)
    (l : List (Event n)) : Prop := ∃ l', l = part.map (.serves i) ++ .ends i told :: l' ∧ AtRest Q i l'

theorem acts_rest (hserve : b.serve = replay) {total : Nat} {p : Priv} (hp : p.servers = total) {i : Fin n} {st : St (List Served)}
    {l : List (Event n)} (h : Acts b e i st l) (h0 : Rest e total p st)
    (hb : ∀ calls, .begins i calls ∈ l → putNumber (calls.flatMap (ops (p.hash e) p.servers)) < p.opts.asyncMax) :
    AtRest (fun _ calls part told => ∃ r, turnOn total part ⟨p.cfg e, p.net e, calls⟩ r ∧ r.items = told.flatMap (fun y => y.items)) i l := by
  induction h with
  | nil hs =>
    obtain ⟨-, rfl⟩ := steps_rest hs h0
    exact .nil
  | @turn st before st0 calls part st1 l hs ht hu hj _ ih =>
    obtain ⟨h1, rfl⟩ := steps_rest hs h0
    obtain ⟨h2, r, h3, h4⟩ := steps_turn hserve hp h1 (hb calls (by simp)) ht hu hj
    exact .turn ⟨r, h3, h4⟩ (ih h2 (fun calls hc => hb calls (by simp [hc])))

theorem own_cons (i : Fin n) (x : Event n) (l : List (Event n)) : own i (x :: l) = if x.rank = i then x :: own i l else own i l := by
  unfold own
  rw [List.filter_cons]
  simp

theorem own_self {i : Fin n} {x : Event n} (h : x.rank = i) (l : List (Event n)) : own i (x :: l) = x :: own i l := by
  rw [own_cons, if_pos h]

theorem own_other {i : Fin n} {x : Event n} (h : x.rank ≠ i) (l : List (Event n)) : own i (x :: l) = own i l := by
  rw [own_cons, if_neg h]

theorem own_begins (i : Fin n) (c : List Queue.Call) (l : List (Event n)) : own i (.begins i c :: l) = .begins i c :: own i l := own_self rfl l
theorem own_serves (i : Fin n) (y : Served) (l : List (Event n)) : own i (.serves i y :: l) = .serves i y :: own i l := own_self rfl l
theorem own_ends (i : Fin n) (t : List Results) (l : List (Event n)) : own i (.ends i t :: l) = .ends i t :: own i l := own_self rfl l
theorem own_begins' {i j : Fin n} (h : j ≠ i) (c : List Queue.Call) (l : List (Event n)) : own j (.begins i c :: l) = own j l :=
  own_other (fun hc => h hc.symm) l
theorem own_serves' {i j : Fin n} (h : i ≠ j) (y : Served) (l : List (Event n)) : own j (.serves i y :: l) = own j l :=
  own_other (x := .serves i y) h l
theorem own_ends' {i j : Fin n} (h : j ≠ i) (t : List Results) (l : List (Event n)) : own j (.ends i t :: l) = own j l :=
  own_other (fun hc => h hc.symm) l

theorem toldBy_own {i : Fin n} {part : List Served} {told : List Results} {l' : List (Event n)} (l : List (Event n))
    (h : own i l = part.map (.serves i) ++ .ends i told :: l') : toldBy i l = told := by
  induction l generalizing part with
  | nil => cases part <;> simp [own] at h
  | cons x l ih =>
    by_cases hx : x.rank = i
    · rw [own_self hx] at h
      cases part with
      | nil =>
        simp only [List.map_nil, List.nil_append, List.cons.injEq] at h
        rw [h.1]
        simp [toldBy]
      | cons y part =>
        simp only [List.map_cons, List.cons_append, List.cons.injEq] at h
        rw [h.1]
        exact ih h.2
    · rw [own_other hx] at h
      cases x with
      | ends j t => simp only [toldBy]; rw [if_neg (show ¬ j = i from hx)]; exact ih h
      | begins j c => exact ih h
      | serves j y => exact ih h

variable {Q : Fin n → List Queue.Call → List Served → List Results → Prop}

/-- The ranks are in the turns `turn`; `k` turns have begun. -/
structure Ok (Q : Fin n → List Queue.Call → List Served → List Results → Prop) (total : Nat) (turn : Fin n → Option Nat) (k : Nat)
    (l : List (Event n)) : Prop where
  numbered : numbered total turn k l
  rest : ∀ i, turn i = none → AtRest Q i (own i l)
  busy : ∀ i m, turn i = some m → m < k ∧ ∃ part told, InTurn Q i part told (own i l)
  unique : ∀ i j m, turn i = some m → turn j = some m → i = j

theorem put_self {α : Type} (f : Fin n → α) (i : Fin n) (a : α) : put f i a i = a := if_pos rfl
theorem put_other {α : Type} (f : Fin n → α) {i j : Fin n} (a : α) (h : j ≠ i) : put f i a j = f j := if_neg h

theorem Ok.begins {total k : Nat} {turn : Fin n → Option Nat} {i : Fin n} {calls : List Queue.Call} {l : List (Event n)}
    (h : Ok Q total turn k (.begins i calls :: l)) : turn i = none ∧ Ok Q total (put turn i (some k)) (k + 1) l ∧
      ∃ part told, Q i calls part told ∧ InTurn Q i part told (own i l) := by
  have hn : turn i = none := by
    cases hi : turn i with
    | none => rfl
    | some m =>
      obtain ⟨-, part, told, l', hl, -⟩ := h.busy i m hi
      simp only [own_begins, own_serves, own_ends] at hl
      cases part <;> simp at hl
  have hr := h.rest i hn
  simp only [own_begins, own_serves, own_ends] at hr
  generalize ho : own i l = o at hr
  cases hr with
  | @turn _ part told l' hQ hl =>
    refine ⟨hn, ⟨h.numbered, fun j hj => ?_, fun j m hj => ?_, fun j j' m hj hj' => ?_⟩, part, told, hQ, l', rfl, hl⟩
    · by_cases hji : j = i
      · rw [hji, put_self] at hj; cases hj
      · rw [put_other _ _ hji] at hj
        have := h.rest j hj
        rwa [own_begins' hji] at this
    · by_cases hji : j = i
      · subst hji
        rw [put_self] at hj
        cases hj
        exact ⟨by omega, part, told, l', ho, hl⟩
      · rw [put_other _ _ hji] at hj
        obtain ⟨h1, p, t, h2⟩ := h.busy j m hj
        rw [own_begins' hji] at h2
        exact ⟨by omega, p, t, h2⟩
    · by_cases hji : j = i <;> by_cases hji' : j' = i
      · rw [hji, hji']
      · rw [hji, put_self] at hj
        rw [put_other _ _ hji'] at hj'
        cases hj
        exact absurd (h.busy j' k hj').1 (by omega)
      · rw [hji', put_self] at hj'
        rw [put_other _ _ hji] at hj
        cases hj'
        exact absurd (h.busy j k hj).1 (by omega)
      · rw [put_other _ _ hji] at hj
        rw [put_other _ _ hji'] at hj'
        exact h.unique j j' m hj hj'

theorem Ok.serves {total k : Nat} {turn : Fin n → Option Nat} {i : Fin n} {y : Served} {l : List (Event n)}
    (h : Ok Q total turn k (.serves i y :: l)) : turn i = some y.turn ∧ Ok Q total turn k l := by
  obtain ⟨hy, hl⟩ := h.numbered
  have hs : turn i = some y.turn := by
    cases hi : turn i with
    | none =>
      have hr := h.rest i hi
      simp only [own_begins, own_serves, own_ends] at hr
      cases hr
    | some m => rw [hi] at hy; rw [hy]; rfl
  refine ⟨hs, hl, fun j hj => ?_, fun j m hj => ?_, h.unique⟩
  · have hji : i ≠ j := fun hc => by subst hc; rw [hs] at hj; cases hj
    have := h.rest j hj
    rwa [own_serves' hji] at this
  · obtain ⟨h1, p, t, h2⟩ := h.busy j m hj
    by_cases hji : i = j
    · subst hji
      obtain ⟨l', h3, h4⟩ := h2
      simp only [own_begins, own_serves, own_ends] at h3
      cases p with
      | nil => simp at h3
      | cons z p =>
        simp only [List.map_cons, List.cons_append, List.cons.injEq] at h3
        exact ⟨h1, p, t, l', h3.2, h4⟩
    · rw [own_serves' hji] at h2
      exact ⟨h1, p, t, h2⟩

theorem Ok.ends {total k : Nat} {turn : Fin n → Option Nat} {i : Fin n} {told : List Results} {l : List (Event n)}
    (h : Ok Q total turn k (.ends i told :: l)) : (∃ m, turn i = some m) ∧ Ok Q total (put turn i none) k l := by
  have hs : ∃ m, turn i = some m := by
    cases hi : turn i with
    | none =>
      have hr := h.rest i hi
      simp only [own_begins, own_serves, own_ends] at hr
      cases hr
    | some m => exact ⟨m, rfl⟩
  obtain ⟨m, hm⟩ := hs
  refine ⟨⟨m, hm⟩, h.numbered, fun j hj => ?_, fun j m' hj => ?_, fun j j' m' hj hj' => ?_⟩
  · by_cases hji : j = i
    · subst hji
      obtain ⟨-, p, t, l', h3, h4⟩ := h.busy j m hm
      simp only [own_begins, own_serves, own_ends] at h3
      cases p with
      | nil =>
        simp only [List.map_nil, List.nil_append, List.cons.injEq] at h3
        rw [h3.2]; exact h4
      | cons z p => simp at h3
    · rw [put_other _ _ hji] at hj
      have := h.rest j hj
      rwa [own_ends' hji] at this
  · have hji : j ≠ i := fun hc => by rw [hc, put_self] at hj; cases hj
    rw [put_other _ _ hji] at hj
    obtain ⟨h1, p, t, h2⟩ := h.busy j m' hj
    rw [own_ends' hji] at h2
    exact ⟨h1, p, t, h2⟩
  · have hji : j ≠ i := fun hc => by rw [hc, put_self] at hj; cases hj
    have hji' : j' ≠ i := fun hc => by rw [hc, put_self] at hj'; cases hj'
    rw [put_other _ _ hji] at hj
    rw [put_other _ _ hji'] at hj'
    exact h.unique j j' m' hj hj'

/-- Requests belong to turns that are going on or begin later. -/
theorem Ok.labels {total : Nat} (l : List (Event n)) {k : Nat} {turn : Fin n → Option Nat} (h : Ok Q total turn k l) :
    ∀ y ∈ logOf l, (∃ i, turn i = some y.turn) ∨ (k ≤ y.turn ∧ y.turn < k + (turnsOf l).length) := by
  induction l generalizing k turn with
  | nil => intro y hy; cases hy
  | cons x l ih =>
    intro y hy
    cases x with
    | begins i calls =>
      obtain ⟨-, h1, -⟩ := h.begins
      rcases ih h1 y hy with ⟨j, hj⟩ | ⟨h2, h3⟩
      · by_cases hji : j = i
        · rw [hji, put_self] at hj
          cases hj
          exact Or.inr ⟨Nat.le_refl _, by simp only [turnsOf, List.length_cons]; omega⟩
        · rw [put_other _ _ hji] at hj; exact Or.inl ⟨j, hj⟩
      · exact Or.inr ⟨by omega, by simp only [turnsOf, List.length_cons]; omega⟩
    | serves i z =>
      obtain ⟨h1, h2⟩ := h.serves
      rcases List.mem_cons.mp (show y ∈ z :: logOf l from hy) with rfl | hy
      · exact Or.inl ⟨i, h1⟩
      · exact ih h2 y hy
    | ends i told =>
      obtain ⟨-, h1⟩ := h.ends
      rcases ih h1 y hy with ⟨j, hj⟩ | h2
      · by_cases hji : j = i
        · rw [hji, put_self] at hj; cases hj
        · rw [put_other _ _ hji] at hj; exact Or.inl ⟨j, hj⟩
      · exact Or.inr h2

/-- The requests with the number of a turn are those of its rank between its beginning and its end. -/
theorem Ok.parts {total : Nat} (l : List (Event n)) {k : Nat} {turn : Fin n → Option Nat} (h : Ok Q total turn k l) :
    (∀ i m part told, turn i = some m → InTurn Q i part told (own i l) → partOf m (logOf l) = part) ∧
    (∀ m x, (turnsOf l)[m]? = some x → Q x.1 x.2.1 (partOf (k + m) (logOf l)) x.2.2) := by
  induction l generalizing k turn with
  | nil =>
    refine ⟨fun i m part told _ hi => ?_, fun m x hx => ?_⟩
    · obtain ⟨l', hl, -⟩ := hi
      cases part <;> simp [own] at hl
    · simp [turnsOf] at hx
  | cons x l ih =>
    cases x with
    | begins i calls =>
      obtain ⟨hn, h1, part, told, hQ, hin⟩ := h.begins
      obtain ⟨hA, hB⟩ := ih h1
      refine ⟨fun j m part' told' hj hi => ?_, fun m x hx => ?_⟩
      · have hji : j ≠ i := fun hc => by rw [hc, hn] at hj; cases hj
        rw [own_begins' hji] at hi
        exact hA j m part' told' (by rw [put_other _ _ hji]; exact hj) hi
      · cases m with
        | zero =>
          simp only [turnsOf, List.getElem?_cons_zero, Option.some.injEq] at hx
          subst hx
          have hp := hA i k part told (put_self _ _ _) hin
          obtain ⟨l', hl, -⟩ := hin
          show Q i calls (partOf k (logOf l)) (toldBy i l)
          rw [hp, toldBy_own l hl]
          exact hQ
        | succ m =>
          simp only [turnsOf, List.getElem?_cons_succ] at hx
          have := hB m x hx
          rwa [show k + 1 + m = k + (m + 1) by omega] at this
    | serves i z =>
      obtain ⟨hz, h1⟩ := h.serves
      obtain ⟨hA, hB⟩ := ih h1
      have hlog : logOf (.serves i z :: l) = z :: logOf l := rfl
      refine ⟨fun j m part' told' hj hi => ?_, fun m x hx => ?_⟩
      · by_cases hji : i = j
        · subst hji
          rw [hz] at hj
          cases hj
          obtain ⟨l', hl, hr⟩ := hi
          simp only [own_begins, own_serves, own_ends] at hl
          cases part' with
          | nil => simp at hl
          | cons u part' =>
            simp only [List.map_cons, List.cons_append, List.cons.injEq, Event.serves.injEq, true_and] at hl
            rw [hlog, partOf, List.filter_cons, if_pos (by simp), ← hl.1]
            congr 1
            exact hA i z.turn part' told' hz ⟨l', hl.2, hr⟩
        · rw [own_serves' hji] at hi
          rw [hlog, partOf, List.filter_cons, if_neg]
          · exact hA j m part' told' hj hi
          · intro hc
            exact hji (h1.unique i j m (by rw [hz, of_decide_eq_true hc]) hj)
      · rw [hlog, partOf, List.filter_cons, if_neg]
        · exact hB m x hx
        · intro hc
          have := (h1.busy i z.turn hz).1
          rw [of_decide_eq_true hc] at this
          omega
    | ends i told =>
      obtain ⟨⟨m0, hm0⟩, h1⟩ := h.ends
      obtain ⟨hA, hB⟩ := ih h1
      refine ⟨fun j m part' told' hj hi => ?_, hB⟩
      by_cases hji : j = i
      · subst hji
        obtain ⟨l', hl, hr⟩ := hi
        simp only [own_begins, own_serves, own_ends] at hl
        cases part' with
        | cons u part' => simp at hl
        | nil =>
          show List.filter _ (logOf l) = []
          rw [List.filter_eq_nil_iff]
          intro y hy hc
          have hc := of_decide_eq_true hc
          rcases h1.labels l y hy with ⟨j', hj'⟩ | ⟨h2, -⟩
          · by_cases hjj : j' = j
            · rw [hjj, put_self] at hj'; cases hj'
            · rw [put_other _ _ hjj, hc] at hj'
              exact hjj (h.unique j' j m hj' hj)
          · have := (h.busy j m hj).1
            omega
      · rw [own_ends' hji] at hi
        exact hA j m part' told' (by rw [put_other _ _ hji]; exact hj) hi

theorem logOf_append (l l' : List (Event n)) : logOf (l ++ l') = logOf l ++ logOf l' := List.filterMap_append

/-- Time goes on. -/
theorem Ok.advance {total : Nat} (u : List (Event n)) {v : List (Event n)} {k : Nat} {turn : Fin n → Option Nat}
    (h : Ok Q total turn k (u ++ v)) : ∃ turn', Ok Q total turn' (k + (turnsOf u).length) v ∧
      (∀ j m, turn' j = some m → turn j = some m ∨ k ≤ m) ∧ ∀ y ∈ logOf u, y.turn < k + (turnsOf u).length := by
  induction u generalizing k turn with
  | nil => exact ⟨turn, h, fun j m hj => Or.inl hj, fun y hy => by cases hy⟩
  | cons x u ih =>
    cases x with
    | begins i calls =>
      obtain ⟨-, h1, -⟩ := Ok.begins h
      obtain ⟨turn', h2, h3, h4⟩ := ih h1
      have hk : k + 1 + (turnsOf u).length = k + (turnsOf (.begins i calls :: u)).length := by
        simp only [turnsOf, List.length_cons]; omega
      rw [hk] at h2 h4
      refine ⟨turn', h2, fun j m hj => ?_, h4⟩
      rcases h3 j m hj with h5 | h5
      · by_cases hji : j = i
        · rw [hji, put_self] at h5
          cases h5
          exact Or.inr (Nat.le_refl _)
        · rw [put_other _ _ hji] at h5; exact Or.inl h5
      · exact Or.inr (by omega)
    | serves i z =>
      obtain ⟨hz, h1⟩ := Ok.serves h
      obtain ⟨turn', h2, h3, h4⟩ := ih h1
      refine ⟨turn', h2, h3, fun y hy => ?_⟩
      rcases List.mem_cons.mp (show y ∈ z :: logOf u from hy) with rfl | hy
      · have := (h1.busy i y.turn hz).1
        show _ < k + (turnsOf u).length
        omega
      · exact h4 y hy
    | ends i told =>
      obtain ⟨-, h1⟩ := Ok.ends h
      obtain ⟨turn', h2, h3, h4⟩ := ih h1
      refine ⟨turn', h2, fun j m hj => ?_, h4⟩
      rcases h3 j m hj with h5 | h5
      · by_cases hji : j = i
        · rw [hji, put_self] at h5; cases h5
        · rw [put_other _ _ hji] at h5; exact Or.inl h5
      · exact Or.inr h5

/-- A turn is over when nobody is in it. -/
theorem Ok.finished {total : Nat} {t u v : List (Event n)} {i : Fin n} {calls : List Queue.Call}
    (h : Ok Q total (fun _ => none) 0 (t ++ .begins i calls :: (u ++ v)))
    (hv : ∀ (turn : Fin n → Option Nat) k, Ok Q total turn k v → turn i ≠ some (turnsOf t).length ∨
      ∃ told v', v = .ends i told :: v') {c : Nat} (hc : (turnsOf t).length + 1 + (turnsOf u).length ≤ c) :
    Finished (logOf (t ++ .begins i calls :: (u ++ v))) (turnsOf t).length c := by
  obtain ⟨turn1, h1, -, k1⟩ := Ok.advance t h
  rw [Nat.zero_add] at h1 k1
  obtain ⟨hn, h2, -⟩ := h1.begins
  obtain ⟨turn3, h3, h4, k3⟩ := Ok.advance u h2
  have hlive : ∀ j, turn3 j = some (turnsOf t).length → j = i := by
    intro j hj
    rcases h4 j _ hj with h5 | h5
    · by_cases hji : j = i
      · exact hji
      · rw [put_other _ _ hji] at h5
        exact absurd (h1.busy j _ h5).1 (by omega)
    · omega
  have hafter : ∀ z ∈ logOf v, z.turn ≠ (turnsOf t).length := by
    intro z hz hzt
    rcases hv turn3 _ h3 with h6 | ⟨told, v', rfl⟩
    · rcases h3.labels v z hz with ⟨j, hj⟩ | ⟨h7, -⟩
      · rw [hzt] at hj
        exact h6 (hlive j hj ▸ hj)
      · omega
    · obtain ⟨-, h7⟩ := h3.ends
      rcases h7.labels v' z hz with ⟨j, hj⟩ | ⟨h8, -⟩
      · by_cases hji : j = i
        · rw [hji, put_self] at hj; cases hj
        · rw [put_other _ _ hji, hzt] at hj
          exact hji (hlive j hj)
      · omega
  have hlog : logOf (t ++ .begins i calls :: (u ++ v)) = logOf t ++ (logOf u ++ logOf v) := by
    rw [logOf_append, show logOf (.begins i calls :: (u ++ v)) = logOf (u ++ v) from rfl, logOf_append]
  unfold Finished
  rw [hlog, ← List.append_assoc, List.pairwise_append]
  have hbefore : ∀ y ∈ logOf t ++ logOf u, y.turn ≠ c := by
    intro y hy
    rcases List.mem_append.mp hy with hy | hy
    · have := k1 y hy; omega
    · have := k3 y hy; omega
  refine ⟨List.Pairwise.imp_of_mem (R := fun _ _ => True) (fun hy _ _ hyz => hbefore _ hy hyz.1) (List.pairwise_of_forall (fun _ _ => trivial)),
    List.Pairwise.imp_of_mem (R := fun _ _ => True) (fun _ hz _ hyz => hafter _ hz hyz.2) (List.pairwise_of_forall (fun _ _ => trivial)),
    fun y hy z _ hyz => hbefore y hy hyz.1⟩

/-- A turn in the trace. -/
theorem turn_split {m : Nat} {x : Fin n × List Queue.Call × List Results} (l : List (Event n)) (h : (turnsOf l)[m]? = some x) :
    ∃ t v, l = t ++ .begins x.1 x.2.1 :: v ∧ (turnsOf t).length = m ∧ (turnsOf l).drop (m + 1) = turnsOf v := by
  induction l generalizing m with
  | nil => simp [turnsOf] at h
  | cons e l ih =>
    cases e with
    | begins i calls =>
      cases m with
      | zero =>
        simp only [turnsOf, List.getElem?_cons_zero, Option.some.injEq] at h
        subst h
        exact ⟨[], l, rfl, rfl, rfl⟩
      | succ m =>
        simp only [turnsOf, List.getElem?_cons_succ] at h
        obtain ⟨t, v, rfl, h2, h3⟩ := ih h
        exact ⟨.begins i calls :: t, v, rfl, by simp only [turnsOf, List.length_cons, h2], by simpa only [turnsOf, List.drop_succ_cons] using h3⟩
    | serves i y =>
      obtain ⟨t, v, rfl, h2, h3⟩ := ih h
      exact ⟨.serves i y :: t, v, rfl, h2, h3⟩
    | ends i told =>
      obtain ⟨t, v, rfl, h2, h3⟩ := ih h
      exact ⟨.ends i told :: t, v, rfl, h2, h3⟩

/-- Turns of one rank do not overlap. -/
theorem Ok.sameRank {total : Nat} {l : List (Event n)} (h : Ok Q total (fun _ => none) 0 l) {a c : Nat}
    {x y : Fin n × List Queue.Call × List Results} (ha : (turnsOf l)[a]? = some x) (hc : (turnsOf l)[c]? = some y) (hxy : x.1 = y.1)
    (hac : a < c) : Finished (logOf l) a c := by
  obtain ⟨t, v, rfl, h2, h3⟩ := turn_split l ha
  have hc' : (turnsOf v)[c - (a + 1)]? = some y := by
    rw [← h3, List.getElem?_drop, show a + 1 + (c - (a + 1)) = c by omega]
    exact hc
  obtain ⟨u, v', rfl, h4, -⟩ := turn_split v hc'
  subst h2
  refine Ok.finished h (fun turn k hk => Or.inl ?_) (by omega)
  rw [hxy, hk.begins.1]
  simp

theorem turnsOf_append_begins (t : List (Event n)) {i : Fin n} {calls : List Queue.Call} {v : List (Event n)} :
    (turnsOf (t ++ .begins i calls :: v)).length = (turnsOf t).length + 1 + (turnsOf v).length := by
  induction t with
  | nil => simp [turnsOf]; omega
  | cons x t ih => cases x <;> simp only [List.cons_append, turnsOf, List.length_cons, ih] <;> omega

/-- The beginning of a trace. -/
theorem trace_ok {cb : Store.Callbacks} {heap total : Nat} {env : Fin n → Env} {p : Fin n → Priv} (hserve : b.serve = replay)
    (hp : ∀ i, (p i).servers = total) {w w' : World} {S : Fin n → St (List Served)} {trace : List (Event n)}
    (hr : ∀ i, Rest (env i) total (p i) (S i))
    (hb : ∀ i calls, .begins i calls ∈ trace →
      putNumber (calls.flatMap (ops ((p i).hash (env i)) (p i).servers)) < (p i).opts.asyncMax)
    (h : Trace cb heap b env w S trace w') :
    Ok (fun i calls part told => ∃ r, turnOn total part ⟨(p i).cfg (env i), (p i).net (env i), calls⟩ r ∧
      r.items = told.flatMap (fun y => y.items)) (turnsOf trace).length (fun _ => none) 0 trace := by
  refine ⟨h.numbered, fun i _ => ?_, fun i m hm => (by cases hm), fun i j m hm => (by cases hm)⟩
  have := acts_rest hserve (hp i) (h.ranks i) (hr i) (fun calls hc => hb i calls (List.mem_of_mem_filter hc))
  revert this
  generalize own i trace = o
  intro h
  induction h with
  | nil => exact .nil
  | turn hQ _ ih => exact .turn hQ ih

theorem mem_turnsOf {l : List (Event n)} {i : Fin n} {calls : List Queue.Call} (h : .begins i calls ∈ l) : ∃ told, (i, calls, told) ∈ turnsOf l := by
  induction l with
  | nil => cases h
  | cons x l ih =>
    rcases List.mem_cons.mp h with rfl | h
    · exact ⟨_, List.mem_cons_self⟩
    · obtain ⟨t, ht⟩ := ih h
      cases x with
      | begins j c => exact ⟨t, List.mem_cons_of_mem _ ht⟩
      | serves j y => exact ⟨t, ht⟩
      | ends j y => exact ⟨t, ht⟩

/-! ## Turns that can be taken -/

theorem stages_flush {σ : Type} {net : Net} {serve : Server σ} {s s' : σ} {q q' : Queue.Queues} {r : Results}
    (h : flush net serve s q = .ok (s', r, q')) : ∃ z, stages net serve s q = .ok z ∧ z.hists.1 = s' := by
  simp only [flush, Process.flushPuts, Process.flushGets, Process.flushGetOps, Process.flushDels, Process.flushHists, bind_assoc',
    Out.ok_bind] at h
  obtain ⟨y1, h1, h⟩ := ok_iff.mp h
  obtain ⟨y2, h2, h⟩ := ok_iff.mp h
  obtain ⟨y3, h3, h⟩ := ok_iff.mp h
  obtain ⟨y4, h4, h⟩ := ok_iff.mp h
  obtain ⟨y5, h5, h⟩ := ok_iff.mp h
  cases h
  exact ⟨⟨y1, y2, y3, y4, y5⟩, by simp only [stages, h1, h2, h3, h4, h5, Out.ok_bind], rfl⟩

theorem steps_of (hserve : b.serve = replay) {s s' : List Served} {S S' : Fin 1 → St (List Served)}
    (hs : AsyncJob.Steps b (fun _ => e) s S s' S') : ∃ part, s = part ++ s' ∧ ∀ x u, ∃ x' u',
      Steps b e { S 0 with srv := x, sent := u } part { S' 0 with srv := x', sent := u' } := by
  induction hs with
  | refl s S => exact ⟨[], rfl, fun x u => ⟨x, u, .refl _⟩⟩
  | @step s S i a st s' S' h _ ih =>
    obtain rfl : i = 0 := Fin.fin_one_eq_zero i
    obtain ⟨part, hpart, h1⟩ := ih
    obtain ⟨c, hc, h2⟩ := frame_uses hserve h
    refine ⟨c ++ part, hc.trans (by rw [hpart, List.append_assoc]), fun x u => ?_⟩
    obtain ⟨u1, h3⟩ := h2 [] u
    obtain ⟨x', u', h4⟩ := h1 [] u1
    rw [List.append_nil] at h3
    rw [set_same] at h4
    exact ⟨x', u', .step (sameOrder_refl c) h3 rfl h4⟩

/-- A turn that is defined without asynchronous PUTs, with the responses `part`, can be taken with them. -/
theorem turn_exists (hserve : b.serve = replay) {total : Nat} {p : Priv} {st0 : St (List Served)}
    {calls : List Queue.Call} {part : List Served} (h0 : Rest e total p st0)
    (hb : putNumber (calls.flatMap (ops (p.hash e) p.servers)) < p.opts.asyncMax) {q q' : Queue.Queues} {r : Results}
    (hq : Queue.calls (p.cfg e) true (Queue.Queues.init total) calls = .ok q) (hf : flush (p.net e) replay part q = .ok ([], r, q')) :
    ∃ st1, Steps b e { st0 with jobs := turnJobs calls } part st1 ∧ st1.user = .idle ∧ st1.jobs = [] := by
  obtain ⟨z, hz, hz0⟩ := stages_flush hf
  have hrun : st0.p.opts.running = true := by rw [h0.calm.running, h0.user]; rfl
  have hin : ∃ y, inTurn b e (turnJobs calls) (part, st0.p, st0.told) = .ok y ∧ y.1 = [] := by
    rw [inTurn_turn calls part st0.p st0.told h0.enabled hrun, h0.cfg, h0.queues, hq, Out.ok_bind, h0.net, hserve, hz, Out.ok_bind]
    exact ⟨_, rfl, hz0⟩
  obtain ⟨y, hy, hy0⟩ := hin
  have hbusy := rest_busy (b := b) (s := part) h0 hb
  obtain ⟨s', S', h1, h2, h3⟩ := busy_completes (env := fun _ : Fin 1 => e) (i := 0) hy _ _
    (S := fun _ => { st0 with jobs := turnJobs calls }) (s := part) hbusy (Nat.le_refl _) (Nat.le_refl _)
  obtain ⟨g1, g2⟩ := AsyncJob.steps_busy (total := total) (p := fun _ => p) h1 (i := 0)
    (fun j hj => absurd (Fin.fin_one_eq_zero j) hj) hbusy
  have hd := busy_done g2 h2 h3
  have hs' : s' = [] := by
    have := hd.symm.trans hy
    cases this
    exact hy0
  subst hs'
  obtain ⟨part', hp, hsteps⟩ := steps_of hserve h1
  rw [List.append_nil] at hp
  subst hp
  obtain ⟨x', u', h4⟩ := hsteps st0.srv st0.sent
  exact ⟨_, h4, h2, h3⟩

end Hx.AsyncOverlap

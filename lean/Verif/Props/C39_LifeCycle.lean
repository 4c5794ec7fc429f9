import Verif.Proofs.Session
import Verif.Props.C29_Flush

/-!
# C39, C40, C50, C52: the life cycle of a session
-/

namespace Hx.Props
open Hx Msg Config Process Results Place Session Spec

variable {σ : Type}

/-! ## C39 -/

/-- Calls that queue, flush or read; the rest are `Init`, `Open`, `OpenOne`, `Close` and the setters. -/
def IsUse : Call → Prop
  | .init _ _ | .open | .openOne _ | .close | .set _ => False
  | _ => True

/-- An error or a null pointer. -/
def Refused : Ret → Prop
  | .code ok => ok = false
  | .value ok _ => ok = false
  | .results r => r = .none

/-- The calls that do not look whether the session is open: the flush functions, `GetEpoch`, and the
C functions that wrap a null result without private data. -/
def Unchecked (x : Session) : Call → Prop
  | .flush _ _ => True
  | .access .epoch => ∃ p, x = .some p
  | .sync true | .changeHash true _ _ _ | .changeName true _ => ¬ ∃ p, x = .some p
  | _ => False

/-- C39, partial. On a session that is not open a queueing, flushing or accessor call returns an error
or null, and changes nothing. Missing: the calls in `Unchecked`, see the theorems below. -/
theorem C39_refused_partial (build : Build) (keys : List Bytes) (b : Backend σ) (e : Env) (s : σ) (x : Session)
    (hx : x.started = false) (c : Call) (hc : IsUse c) (hu : ¬ Unchecked x c) :
    ∃ r, step build keys b e s x c = .ok (s, x, r) ∧ Refused r := by
  have q : ∀ f : Priv → Out (σ × Priv × Bool), ∃ r, queueing x s f = .ok (s, x, r) ∧ Refused r := by
    intro f
    cases x with
    | null => exact ⟨_, rfl, rfl⟩
    | none => exact ⟨_, rfl, rfl⟩
    | some p =>
      refine ⟨.code false, ?_, rfl⟩
      have hx : p.opts.running = false := hx
      simp [queueing, hx]
  have rs : ∀ (c : Bool) (f : σ → Priv → Out (σ × Priv × Results)), (c = true → ∃ p, x = .some p) →
      ∃ r, results c x s f = .ok (s, x, r) ∧ Refused r := by
    intro c f h
    refine ⟨.results .none, ?_, rfl⟩
    cases x with
    | null =>
      cases c with
      | true => obtain ⟨p, hp⟩ := h rfl; cases hp
      | false => rfl
    | none =>
      cases c with
      | true => obtain ⟨p, hp⟩ := h rfl; cases hp
      | false => rfl
    | some p =>
      have hx : p.opts.running = false := hx
      simp [results, hx]
  have cf : ∀ (d : Bool) {P : Prop}, (d = true → ¬ ¬ P) → d = true → P := fun d P h hd => Classical.byContradiction (h hd)
  cases c with
  | init _ _ => exact hc.elim
  | «open» => exact hc.elim
  | openOne _ => exact hc.elim
  | close => exact hc.elim
  | set _ => exact hc.elim
  | queue _ => exact q _
  | putSingle _ _ _ _ => exact q _
  | getSingle _ _ _ _ => exact q _
  | getopSingle _ _ _ _ => exact q _
  | flush _ _ => exact (hu trivial).elim
  | sync c => exact rs c _ (cf c fun h => by subst h; exact hu)
  | changeHash c n f a => exact rs c _ (cf c fun h => by subst h; exact hu)
  | changeName c n => exact rs c _ (cf c fun h => by subst h; exact hu)
  | access a =>
    refine ⟨_, rfl, ?_⟩
    show (access a x).1 = false
    cases x with
    | null => cases a <;> rfl
    | none => cases a <;> rfl
    | some p =>
      have hx : p.opts.running = false := hx
      cases a with
      | epoch => exact (hu ⟨p, rfl⟩).elim
      | _ => simp [access, hx]

theorem idle_step {build : Build} {keys : List Bytes} {b : Backend σ} {e : Env} {s : σ} {x : Session} {c : Call}
    {r : σ × Session × Ret} (hi : Idle x) (h : step build keys b e s x c = .ok r) : Idle r.2.1 := by
  by_cases hr : x.started = true
  · -- the session is open
    obtain ⟨p, rfl⟩ : ∃ p, x = .some p := by
      cases x with
      | some p => exact ⟨p, rfl⟩
      | _ => cases hr
    have hr : p.opts.running = true := hr
    have op : ∀ {p' : Priv}, p'.opts.running = true → Idle (.some p') := fun h1 h2 => by rw [h1] at h2; cases h2
    have qu : ∀ {f : Priv → Out (σ × Priv × Bool)} {r : σ × Session × Ret},
        (∀ y, f p = .ok y → y.2.1.opts = p.opts) → queueing (.some p) s f = .ok r → Idle r.2.1 := by
      intro f r hf h
      simp only [queueing, hr, if_true] at h
      obtain ⟨y, hy, h⟩ := ok_iff.mp h
      simp only [Out.ok.injEq] at h; subst h
      exact op (by rw [hf y hy, hr])
    have qd : ∀ {f : Queue.Queues → Out (Queue.Queues × Bool)} {y}, queued s p f = .ok y → y.2.1.opts = p.opts := by
      intro f y hy
      unfold Session.queued at hy
      obtain ⟨z, -, hy⟩ := ok_iff.mp hy
      simp only [Out.ok.injEq] at hy; subst hy; rfl
    have re : ∀ {c : Bool} {f : σ → Priv → Out (σ × Priv × Results)} {r : σ × Session × Ret},
        (∀ y, f s p = .ok y → y.2.1.opts.running = true) → results c (.some p) s f = .ok r → Idle r.2.1 := by
      intro c f r hf h
      simp only [results, hr, if_true] at h
      obtain ⟨y, hy, h⟩ := ok_iff.mp h
      simp only [Out.ok.injEq] at h; subst h
      exact op (hf y hy)
    cases c with
    | init sys comm =>
      simp only [step, coded, Session.init] at h
      obtain ⟨y, hy, h⟩ := ok_iff.mp h
      simp only [Out.ok.injEq] at h; subst h
      obtain ⟨z, hz, hy⟩ := ok_iff.mp hy
      unfold finish at hy
      split at hy
      · simp only [Out.ok.injEq] at hy; subst hy
        exact fun _ => ⟨rfl, rfl, rfl, rfl⟩
      · obtain ⟨w, -, hy⟩ := ok_iff.mp hy
        simp only [Out.ok.injEq] at hy; subst hy; trivial
    | «open» =>
      simp only [step, coded, openSession, hr, if_true, Out.ok_bind, Out.ok.injEq] at h; subst h; exact op hr
    | openOne path =>
      simp only [step, coded, openOne, hr, if_true, Out.ok_bind, Out.ok.injEq] at h; subst h; exact op hr
    | close =>
      simp only [step, coded, close] at h
      obtain ⟨y, hy, h⟩ := ok_iff.mp h
      obtain ⟨z, -, hy⟩ := ok_iff.mp hy
      simp only [Out.ok.injEq] at h hy; subst h; subst hy; trivial
    | set t =>
      simp only [step, setter] at h
      obtain ⟨y, hy, h⟩ := ok_iff.mp h
      simp only [Out.ok.injEq] at h; subst h
      exact op (by show y.1.running = true; rw [setter_running hy, hr])
    | queue x =>
      simp only [step] at h
      exact qu (fun y hy => qd hy) h
    | putSingle a ta l t =>
      simp only [step] at h
      refine qu (fun y hy => ?_) h
      unfold putSinglePriv at hy
      obtain ⟨z, -, hy⟩ := ok_iff.mp hy
      simp only at hy
      split at hy
      · simp only [Out.ok.injEq] at hy; subst hy; rfl
      · obtain ⟨w, hw, hy⟩ := ok_iff.mp hy
        simp only [Out.ok.injEq] at hy; subst hy
        show w.2.opts = p.opts
        unfold serialPuts at hw
        split at hw
        · obtain ⟨v, -, hw⟩ := ok_iff.mp hw
          simp only [Out.ok.injEq] at hw; subst hw; rfl
        · simp only [Out.ok.injEq] at hw; subst hw; rfl
    | getSingle a ta l t =>
      simp only [step] at h
      exact qu (fun y hy => qd hy) h
    | getopSingle a ta l t =>
      simp only [step] at h
      exact qu (fun y hy => qd hy) h
    | flush c k =>
      simp only [step] at h
      obtain ⟨y, hy, h⟩ := ok_iff.mp h
      simp only [Out.ok.injEq] at h; subst h
      exact op (by rw [flush_running hy, hr])
    | sync c =>
      simp only [step] at h
      exact re (fun y hy => by rw [sync_running hy, hr]) h
    | changeHash c n f a =>
      simp only [step] at h
      refine re (fun y hy => ?_) h
      unfold changeHashPriv at hy
      obtain ⟨z, hz, hy⟩ := ok_iff.mp hy
      simp only [Out.ok.injEq] at hy; subst hy
      show z.2.1.opts.running = true
      rw [sync_running hz, hr]
    | changeName c n =>
      simp only [step] at h
      refine re (fun y hy => ?_) h
      unfold changeNamePriv at hy
      obtain ⟨z, hz, hy⟩ := ok_iff.mp hy
      simp only [Out.ok.injEq] at hy; subst hy
      show z.2.1.opts.running = true
      rw [sync_running hz, hr]
    | access a => simp only [step, Out.ok.injEq] at h; subst h; exact hi
  · -- it is not
    have hr : x.started = false := by simpa using hr
    by_cases hu : IsUse c
    · by_cases hn : Unchecked x c
      · cases c with
        | flush c k =>
          simp only [step] at h
          cases x with
          | null => cases h
          | none => cases h
          | some p =>
            obtain ⟨r', hr', -⟩ := fresh_flush (b := b) (e := e) (s := s) hr (hi hr) k
            simp only [hr', Out.ok_bind, Out.ok.injEq] at h
            subst h; exact hi
        | access a => simp only [step, Out.ok.injEq] at h; subst h; exact hi
        | sync c =>
          cases x with
          | some p => cases c <;> simp only [Unchecked] at hn; exact (hn ⟨p, rfl⟩).elim
          | _ => cases c <;> cases h; trivial
        | changeHash c n f a =>
          cases x with
          | some p => cases c <;> simp only [Unchecked] at hn; exact (hn ⟨p, rfl⟩).elim
          | _ => cases c <;> cases h; trivial
        | changeName c n =>
          cases x with
          | some p => cases c <;> simp only [Unchecked] at hn; exact (hn ⟨p, rfl⟩).elim
          | _ => cases c <;> cases h; trivial
        | _ => exact hn.elim
      · obtain ⟨r', h1, -⟩ := C39_refused_partial build keys b e s x hr c hu hn
        rw [h1] at h
        simp only [Out.ok.injEq] at h; subst h; exact hi
    · have fin : ∀ {q : Stage σ} {y}, Session.finish b q = .ok y → (q.2.2 = true → Idle (.some q.2.1)) → Idle y.2.1 := by
        intro q y hy hq
        unfold Session.finish at hy
        split at hy
        · rename_i h1
          simp only [Out.ok.injEq] at hy; subst hy; exact hq h1
        · obtain ⟨w, -, hy⟩ := ok_iff.mp hy
          simp only [Out.ok.injEq] at hy; subst hy; trivial
      cases c with
      | init sys comm =>
        simp only [step, coded] at h
        obtain ⟨y, hy, h⟩ := ok_iff.mp h
        simp only [Out.ok.injEq] at h; subst h
        cases x with
        | null => simp only [Session.init, Out.ok.injEq] at hy; subst hy; trivial
        | none =>
          obtain ⟨z, hz, hy⟩ := ok_iff.mp hy
          exact fin hy fun _ _ => ⟨rfl, rfl, rfl, rfl⟩
        | some p =>
          obtain ⟨z, hz, hy⟩ := ok_iff.mp hy
          exact fin hy fun _ _ => ⟨rfl, rfl, rfl, rfl⟩
      | «open» =>
        simp only [step, coded] at h
        obtain ⟨y, hy, h⟩ := ok_iff.mp h
        simp only [Out.ok.injEq] at h; subst h
        cases x with
        | null => cases hy
        | none => cases hy
        | some p =>
          rcases open_ok hr hy with ⟨-, p', h1, h2⟩ | ⟨-, h1⟩
          · show Idle y.2.1
            rw [h1]
            intro h3; rw [h2] at h3; cases h3
          · show Idle y.2.1
            rw [h1]; trivial
      | openOne path =>
        simp only [step, coded] at h
        obtain ⟨y, hy, h⟩ := ok_iff.mp h
        simp only [Out.ok.injEq] at h; subst h
        cases x with
        | null => cases hy
        | none => cases hy
        | some p =>
          show Idle y.2.1
          rw [(openOne_ok hr hy).2]; trivial
      | close =>
        simp only [step, coded] at h
        obtain ⟨y, hy, h⟩ := ok_iff.mp h
        simp only [Out.ok.injEq] at h; subst h
        cases x with
        | null => cases hy; trivial
        | none => cases hy; trivial
        | some p =>
          obtain ⟨z, -, hy⟩ := ok_iff.mp hy
          simp only [Out.ok.injEq] at hy; subst hy; trivial
      | set t =>
        simp only [step, setter] at h
        cases x with
        | null =>
          obtain ⟨y, hy, h⟩ := ok_iff.mp h
          simp only [Out.ok.injEq] at h; subst h; trivial
        | none =>
          obtain ⟨y, hy, h⟩ := ok_iff.mp h
          simp only [Out.ok.injEq] at h; subst h; trivial
        | some p =>
          obtain ⟨y, hy, h⟩ := ok_iff.mp h
          simp only [Out.ok.injEq] at h; subst h
          intro _
          exact hi hr
      | _ => exact (hu trivial).elim

theorem idle_run {build : Build} {keys : List Bytes} {b : Backend σ} {l : List (Env × Call)} {s s' : σ} {x x' : Session}
    {rs : List Ret} (hi : Idle x) (h : run build keys b l s x = .ok (s', x', rs)) : Idle x' := by
  induction l generalizing s x rs with
  | nil => simp only [run, Out.ok.injEq, Prod.mk.injEq] at h; rw [← h.2.1]; exact hi
  | cons c l ih =>
    simp only [run] at h
    obtain ⟨y, hy, h⟩ := ok_iff.mp h
    obtain ⟨z, hz, h⟩ := ok_iff.mp h
    simp only [Out.ok.injEq, Prod.mk.injEq] at h
    obtain ⟨h1, h2, h3⟩ := h
    subst h1 h2
    exact ih (idle_step hi hy) hz

/-- C39. Whatever calls are made, in whatever order, on a session that starts without private data:
while it is not open nothing is queued, and no results are kept. -/
theorem C39_nothing_queued (build : Build) (keys : List Bytes) (b : Backend σ) (l : List (Env × Call)) (s s' : σ)
    (p : Priv) (rs : List Ret) (h : run build keys b l s .none = .ok (s', .some p, rs)) (hr : p.opts.running = false) :
    p.queues = Queue.Queues.init 0 ∧ p.kept = .none :=
  have := idle_run (x := .none) trivial h hr
  ⟨this.1, this.2.1⟩

/-- C39 is false for the flush functions: between `Init` and `Open` they return a list of results, not
null. The list is empty and nothing is sent. -/
theorem C39_flush_false (build : Build) (keys : List Bytes) (b : Backend σ) (l : List (Env × Call)) (s s' : σ)
    (p : Priv) (rs : List Ret) (h : run build keys b l s .none = .ok (s', .some p, rs)) (hr : p.opts.running = false)
    (e : Env) (c : Bool) (k : Session.Kind) :
    ∃ r, step build keys b e s' (.some p) (.flush c k) = .ok (s', .some p, .results (.some r)) ∧ r.items = [] := by
  obtain ⟨r, h1, h2⟩ := fresh_flush (b := b) (e := e) (s := s') hr (idle_run (x := .none) trivial h hr) k
  exact ⟨r, by simp only [step, h1, Out.ok_bind], h2⟩

/-- C39: flushing before `Init` or after `Close` dereferences a null pointer. -/
theorem C39_flush_ub (build : Build) (keys : List Bytes) (b : Backend σ) (e : Env) (s : σ) (x : Session)
    (hx : ¬ ∃ p, x = .some p) (c : Bool) (k : Session.Kind) : step build keys b e s x (.flush c k) = .ub := by
  cases x with
  | some p => exact (hx ⟨p, rfl⟩).elim
  | _ => rfl

/-- C39: so do `hxhimSync`, `hxhimChangeHash` and `hxhimChangeDatastoreName`, on the way to wrap the null
result. -/
theorem C39_c_results_ub (build : Build) (keys : List Bytes) (b : Backend σ) (e : Env) (s : σ) (x : Session)
    (hx : ¬ ∃ p, x = .some p) (n : Bytes) (f : Option HashFn) (a : Nat) :
    step build keys b e s x (.sync true) = .ub ∧ step build keys b e s x (.changeHash true n f a) = .ub ∧
      step build keys b e s x (.changeName true n) = .ub := by
  cases x with
  | some p => exact (hx ⟨p, rfl⟩).elim
  | _ => exact ⟨rfl, rfl, rfl⟩

/-- C39 is false for `GetEpoch`, which succeeds between `Init` and `Open`. -/
theorem C39_epoch_false (build : Build) (keys : List Bytes) (b : Backend σ) (e : Env) (s : σ) (p : Priv) :
    step build keys b e s (.some p) (.access .epoch) = .ok (s, .some p, .value true .nothing) := rfl

/-! ## C40 -/

/-- C40 is false. `Close` does the same whatever is queued: it closes the local datastores, and no
request reaches a datastore. -/
theorem C40_close_false (b : Backend σ) (s : σ) (p : Priv) (q : Queue.Queues) :
    close b s (.some { p with queues := q }) = close b s (.some p) ∧
    (p.opts.comm ≠ .null → p.opts.asyncEnabled = false →
      close b s (.some p) = .ok (p.ids.foldl (fun s id => b.closeDs s p.rank id) s, .none, true)) := by
  refine ⟨rfl, fun h1 h2 => ?_⟩
  simp [close, closePriv, h1, h2]

theorem flush_all (b : Backend σ) (e : Env) (s : σ) (p : Priv) (ha : p.opts.asyncEnabled = false)
    (r : σ × Priv × Results) (h : flushPriv b e s p .all = .ok r) :
    ∃ q, Process.flush (p.net e) b.serve s p.queues = .ok (r.1, r.2.2, q) ∧ r.2.1 = { p with queues := q } := by
  unfold flushPriv Session.flushPuts at h
  rw [ha, if_neg (by decide)] at h
  simp only [Out.ok_bind] at h
  obtain ⟨x1, h1, h⟩ := ok_iff.mp h
  obtain ⟨y1, g1, h1⟩ := ok_iff.mp h1
  simp only [Out.ok.injEq] at h1; subst h1
  unfold flushQueues at h
  obtain ⟨x2, h2, h⟩ := ok_iff.mp h
  obtain ⟨y2, g2, h2⟩ := ok_iff.mp h2
  simp only [Out.ok.injEq] at h2; subst h2
  obtain ⟨x3, h3, h⟩ := ok_iff.mp h
  obtain ⟨y3, g3, h3⟩ := ok_iff.mp h3
  simp only [Out.ok.injEq] at h3; subst h3
  obtain ⟨x4, h4, h⟩ := ok_iff.mp h
  obtain ⟨y4, g4, h4⟩ := ok_iff.mp h4
  simp only [Out.ok.injEq] at h4; subst h4
  obtain ⟨x5, h5, h⟩ := ok_iff.mp h
  obtain ⟨y5, g5, h5⟩ := ok_iff.mp h5
  simp only [Out.ok.injEq] at h5; subst h5
  simp only [Out.ok.injEq] at h; subst h
  refine ⟨y5.2.2, ?_, rfl⟩
  unfold Process.flush Process.flushPuts
  rw [g1]
  simp only [Out.ok_bind]
  erw [g2]
  simp only [Out.ok_bind]
  erw [g3]
  simp only [Out.ok_bind]
  erw [g4]
  simp only [Out.ok_bind]
  erw [g5]
  rfl

/-- C40, partial. When the program flushes before it closes the session, every queued operation is
executed once, PUTs first, before the datastores are closed. Missing: without the flush nothing is
executed (`C40_close_false`); asynchronous PUTs; layouts that are not `Routed` (C29). -/
theorem C40_flush_first_partial (build : Build) (keys : List Bytes) (b : Backend σ) (e e' : Env) (s s' : σ) (p : Priv)
    (ha : p.opts.asyncEnabled = false) (x : Session) (rs : List Ret) (n : Nat) (hR : Routed (p.net e) n)
    (hp : p.queues.puts.length ≤ n) (hg : p.queues.gets.length ≤ n) (ho : p.queues.getops.length ≤ n)
    (hd : p.queues.dels.length ≤ n) (hh : p.queues.hists.length ≤ n)
    (h : run build keys b [(e, .flush false .all), (e', .close)] s (.some p) = .ok (s', x, rs)) :
    ∃ lp lg lo ld lh res s1, Delivers (p.net e) .put p.queues.puts lp ∧ Delivers (p.net e) .get p.queues.gets lg ∧
      Delivers (p.net e) .getop p.queues.getops lo ∧ Delivers (p.net e) .del p.queues.dels ld ∧
      Delivers (p.net e) .hist p.queues.hists lh ∧
      deliverAll (deliver (p.net e) b.serve) (lp ++ lg ++ lo ++ ld ++ lh) s = .ok (s1, res) ∧
      s' = p.ids.foldl (fun s id => b.closeDs s p.rank id) s1 ∧ x = .none := by
  simp only [run, step, coded, close] at h
  obtain ⟨y, hy, h⟩ := ok_iff.mp h
  obtain ⟨z, hz, hy⟩ := ok_iff.mp hy
  simp only [Out.ok.injEq] at hy; subst hy
  obtain ⟨q, hq, hp'⟩ := flush_all b e s p ha z hz
  obtain ⟨w, hw, h⟩ := ok_iff.mp h
  simp only [Out.ok.injEq, Prod.mk.injEq] at h
  obtain ⟨w1, hw1, hw⟩ := ok_iff.mp hw
  obtain ⟨w2, hw2, hw1⟩ := ok_iff.mp hw1
  simp only [Out.ok_bind, Out.ok.injEq] at hw; subst hw
  obtain ⟨w3, hw3, hw2⟩ := ok_iff.mp hw2
  simp only [Out.ok.injEq] at hw2; subst hw2
  simp only [Out.ok.injEq] at hw1; subst hw1
  obtain ⟨h1, h2, -⟩ := h
  obtain ⟨lp, lg, lo, ld, lh, res, r0, d1, d2, d3, d4, d5, d6, -, -⟩ :=
    C30_complete_partial (p.net e) b.serve s z.1 p.queues q z.2.2 n hR hp hg ho hd hh hq
  refine ⟨lp, lg, lo, ld, lh, res, z.1, d1, d2, d3, d4, d5, d6, ?_, h2.symm⟩
  simp only at h1
  rw [← h1]
  rw [hp'] at hw3
  unfold closePriv at hw3
  split at hw3
  · cases hw3
  · split at hw3
    · cases hw3
    · simp only [Out.ok.injEq] at hw3; exact hw3.symm

/-! ## C50 -/

/-- C50 is false for every configuration: on a job of one rank `OpenOne` destroys the datastore
configuration and then dereferences it. -/
theorem C50_open_one_ub (b : Backend σ) (e : Env) (path : Bytes) (s : σ) (p : Priv) (rank : Nat)
    (hr : p.opts.running = false) (hc : p.opts.comm ≠ .null) (hm : e.mpi = .some (rank, 1)) :
    openOne b e path s (.some p) = .ub := by
  simp [openOne, hr, bootstrap, hc, hm, andThen, setRunning, oneDatastore]

/-- C50, the part that holds: jobs of more than one rank are refused, and the session is closed. -/
theorem C50_more_ranks_partial (b : Backend σ) (e : Env) (path : Bytes) (s : σ) (p : Priv) (rank size : Nat)
    (hr : p.opts.running = false) (hc : p.opts.comm ≠ .null) (ha : p.opts.asyncEnabled = false)
    (hm : e.mpi = .some (rank, size)) (hs : size ≠ 1) (hi : p.ids = []) :
    openOne b e path s (.some p) = .ok (s, .none, false) := by
  simp [openOne, hr, bootstrap, hc, hm, andThen, hs, Session.finish, closePriv, ha, hi]

/-! ## C52 -/

/-- C52. When `Open` returns it returns success exactly when the session is open afterwards. If not, the
session has no private data any more. An open session is left alone. -/
theorem C52_open (b : Backend σ) (e : Env) (s : σ) (x : Session) (r : σ × Session × Bool)
    (h : openSession b e s x = .ok r) :
    ∃ p, x = .some p ∧
      ((p.opts.running = true ∧ r = (s, x, false)) ∨
       (p.opts.running = false ∧ r.2.2 = true ∧ ∃ p', r.2.1 = .some p' ∧ p'.opts = { p.opts with running := true }) ∨
       (p.opts.running = false ∧ r.2.2 = false ∧ r.2.1 = .none)) := by
  cases x with
  | null => cases h
  | none => cases h
  | some p =>
    refine ⟨p, rfl, ?_⟩
    cases hr : p.opts.running with
    | true =>
      simp only [openSession, hr, if_true, Out.ok.injEq] at h
      exact .inl ⟨rfl, h.symm⟩
    | false =>
      rcases open_ok hr h with ⟨h1, p', h2, h3⟩ | ⟨h1, h2⟩
      · exact .inr (.inl ⟨rfl, h1, p', h2, h3⟩)
      · exact .inr (.inr ⟨rfl, h1, h2⟩)

/-- The datastores of a rank can be opened one after the other. -/
def OpensAll (b : Backend σ) (rank : Nat) (path : Nat → Option Bytes) : List Nat → σ → Prop
  | [], _ => True
  | id :: l, s => ∃ s', b.openDs s rank id (path id) = some s' ∧ OpensAll b rank path l s'

/-- Where the datastore with the given id is. -/
def pathOf (o : Config.Opts) (id : Nat) : Option Bytes :=
  if o.openInit then some (generateName o.dsPrefix o.dsBase id o.dsPostfix 47) else none

private theorem openLoop_success {b : Backend σ} {l : List Nat} {s : σ} {p : Priv} {r : Stage σ} (h : openLoop b l s p = .ok r) :
    r.2.2 = true ↔ OpensAll b p.rank (pathOf p.opts) l s := by
  induction l generalizing s p with
  | nil => simp only [openLoop, Out.ok.injEq] at h; subst h; simp [OpensAll]
  | cons id l ih =>
    simp only [openLoop] at h
    split at h
    · cases h
    · split at h
      · next hn =>
        simp only [Out.ok.injEq] at h; subst h
        simp only [Bool.false_eq_true, false_iff, OpensAll, not_exists, not_and]
        intro s' hs'
        unfold pathOf at hs'
        rw [hn] at hs'; cases hs'
      · next s' hs' =>
        rw [ih h]
        simp only [OpensAll]
        constructor
        · intro ho; exact ⟨s', hs', ho⟩
        · rintro ⟨s'', h1, h2⟩
          unfold pathOf at h1
          rw [hs'] at h1
          cases h1
          exact h2

/-- C52. When `Open` returns, it has succeeded if and only if there is a communicator, MPI could be asked for rank and size, no ratio is
zero, all datastores of the rank could be opened, and the transport, unless there is none, could be set up. -/
theorem C52_open_success (b : Backend σ) (e : Env) (s : σ) (p : Priv) (r : σ × Session × Bool) (hr : p.opts.running = false)
    (h : openSession b e s (.some p) = .ok r) :
    r.2.2 = true ↔
      p.opts.comm ≠ .null ∧ ∃ rank size, e.mpi = some (rank, size) ∧
        p.opts.clientRatio ≠ 0 ∧ p.opts.serverRatio ≠ 0 ∧ p.opts.perServer ≠ 0 ∧
        OpensAll b rank (pathOf p.opts)
          (((⟨size, p.opts.clientRatio, p.opts.serverRatio, p.opts.perServer⟩ : Place.Layout).created rank).map Int.toNat) s ∧
        (p.opts.transport ≠ some .null → e.transport = true) := by
  simp only [openSession, hr] at h
  rw [if_neg (by decide)] at h
  obtain ⟨y, h1, h⟩ := ok_iff.mp h
  have hry : r.2.2 = y.2.2 := by
    unfold Session.finish at h
    split at h
    · next hy => simp only [Out.ok.injEq] at h; subst h; exact hy.symm
    · next hy =>
      obtain ⟨t, -, h⟩ := ok_iff.mp h
      simp only [Out.ok.injEq] at h; subst h
      simp only [Bool.not_eq_true] at hy; exact hy.symm
  rw [hry]
  clear h hry
  obtain ⟨z, h2, h1⟩ := andThen_ok h1
  unfold bootstrap at h2
  split at h2
  · next hc =>
    simp only [Out.ok.injEq] at h2; subst h2
    rcases h1 with ⟨h3, -⟩ | ⟨-, rfl⟩
    · cases h3
    · simp [hc]
  · next hc =>
    split at h2
    · next hm =>
      simp only [Out.ok.injEq] at h2; subst h2
      rcases h1 with ⟨h3, -⟩ | ⟨-, rfl⟩
      · cases h3
      · simp [hm]
    · next rank size hm =>
      simp only [Out.ok.injEq] at h2; subst h2
      rcases h1 with ⟨-, h1⟩ | ⟨h3, -⟩
      swap
      · cases h3
      obtain ⟨z1, g1, h1⟩ := andThen_ok h1
      simp only [setRunning, Out.ok.injEq] at g1; subst g1
      rcases h1 with ⟨-, h1⟩ | ⟨h4, -⟩
      swap
      · cases h4
      have goal : y.2.2 = true ↔ p.opts.clientRatio ≠ 0 ∧ p.opts.serverRatio ≠ 0 ∧ p.opts.perServer ≠ 0 ∧
          OpensAll b rank (pathOf p.opts)
            (((⟨size, p.opts.clientRatio, p.opts.serverRatio, p.opts.perServer⟩ : Place.Layout).created rank).map Int.toNat) s ∧
          (p.opts.transport ≠ some .null → e.transport = true) := by
        obtain ⟨z2, g2, h1⟩ := andThen_ok h1
        unfold datastore at g2
        split at g2
        · next hz =>
          simp only [Out.ok.injEq] at g2; subst g2
          rcases h1 with ⟨h3, -⟩ | ⟨-, rfl⟩
          · cases h3
          · simp only at hz
            constructor
            · intro hf; cases hf
            · rintro ⟨a1, a2, a3, -⟩
              rcases hz with hz | hz | hz
              · exact absurd hz a1
              · exact absurd hz a2
              · exact absurd hz a3
        · next hz =>
          simp only [not_or] at hz
          obtain ⟨n1, n2, n3⟩ := hz
          have ho := openLoop_success g2
          have hop := openLoop_opts g2
          rcases h1 with ⟨h3, h1⟩ | ⟨h3, rfl⟩
          swap
          · rw [ho]
            constructor
            · intro hh; rw [ho.mpr hh] at h3; cases h3
            · rintro ⟨-, -, -, a4, -⟩; exact a4
          have hall := ho.mp h3
          obtain ⟨z3, g3, h1⟩ := andThen_ok h1
          have hopts : z2.2.1.opts = { p.opts with running := true } := by rw [hop]
          unfold Session.transport at g3
          rw [hopts] at g3
          rw [if_neg (by simp only; rintro (hh | hh); exacts [n1 hh, n2 hh])] at g3
          have rest : ∀ w : Stage σ, andThen (queues w.1 w.2.1) (fun s p => asyncPuts b e s p) = .ok y → y.2.2 = true := by
            intro w hw
            obtain ⟨z4, g4, hw⟩ := andThen_ok hw
            simp only [queues, Out.ok.injEq] at g4; subst g4
            rcases hw with ⟨-, hw⟩ | ⟨h5, -⟩
            swap
            · cases h5
            unfold asyncPuts at hw
            split at hw
            · obtain ⟨u, -, hw⟩ := ok_iff.mp hw
              obtain ⟨u', -, hw⟩ := ok_iff.mp hw
              simp only [Out.ok.injEq] at hw; subst hw; rfl
            · simp only [Out.ok.injEq] at hw; subst hw; rfl
          have good : z3.2.2 = true → y.2.2 = true := by
            intro hz3
            rcases h1 with ⟨-, h1⟩ | ⟨h5, -⟩
            · exact rest z3 h1
            · rw [hz3] at h5; cases h5
          have bad : z3.2.2 = false → y.2.2 = false := by
            intro hz3
            rcases h1 with ⟨h5, -⟩ | ⟨-, rfl⟩
            · rw [hz3] at h5; cases h5
            · exact hz3
          simp only at g3
          cases ht : p.opts.transport with
          | none => rw [ht] at g3; cases g3
          | some t =>
            rw [ht] at g3
            cases t with
            | null =>
              simp only [Out.ok.injEq] at g3; subst g3
              constructor
              · intro _; exact ⟨n1, n2, n3, hall, fun hh => absurd rfl hh⟩
              · intro _; exact good rfl
            | mpi c n =>
              simp only at g3
              by_cases he : e.transport = true
              · rw [if_pos he] at g3
                simp only [Out.ok.injEq] at g3; subst g3
                exact ⟨fun _ => ⟨n1, n2, n3, hall, fun _ => he⟩, fun _ => good rfl⟩
              · rw [if_neg he] at g3
                simp only [Out.ok.injEq] at g3; subst g3
                constructor
                · intro hh; rw [bad rfl] at hh; cases hh
                · rintro ⟨-, -, -, -, a5⟩; exact absurd (a5 (by simp)) he
            | thallium c n =>
              simp only at g3
              by_cases he : e.transport = true
              · rw [if_pos he] at g3
                simp only [Out.ok.injEq] at g3; subst g3
                exact ⟨fun _ => ⟨n1, n2, n3, hall, fun _ => he⟩, fun _ => good rfl⟩
              · rw [if_neg he] at g3
                simp only [Out.ok.injEq] at g3; subst g3
                constructor
                · intro hh; rw [bad rfl] at hh; cases hh
                · rintro ⟨-, -, -, -, a5⟩; exact absurd (a5 (by simp)) he
      rw [goal]
      constructor
      · intro hh; exact ⟨hc, rank, size, hm, hh⟩
      · rintro ⟨-, rank', size', hm', hh⟩
        rw [hm] at hm'
        cases hm'
        exact hh

/-- C52. `Close` returns success exactly when there is private data, and there is none afterwards. -/
theorem C52_close (b : Backend σ) (s : σ) (x : Session) (r : σ × Session × Bool) (h : close b s x = .ok r) :
    (r.2.2 = true ↔ ∃ p, x = .some p) ∧ ¬ ∃ p, r.2.1 = .some p := by
  cases x with
  | null => cases h; exact ⟨⟨fun h => (by cases h), fun ⟨_, h⟩ => by cases h⟩, fun ⟨_, h⟩ => by cases h⟩
  | none => cases h; exact ⟨⟨fun h => (by cases h), fun ⟨_, h⟩ => by cases h⟩, fun ⟨_, h⟩ => by cases h⟩
  | some p =>
    obtain ⟨z, -, h⟩ := ok_iff.mp h
    simp only [Out.ok.injEq] at h; subst h
    exact ⟨⟨fun _ => ⟨p, rfl⟩, fun _ => rfl⟩, fun ⟨_, h⟩ => by cases h⟩

/-- C52 is false after a failure: opening a session that failed to open, or was closed, dereferences a
null pointer instead of returning an error. -/
theorem C52_reopen_ub (b : Backend σ) (e e' : Env) (s : σ) (p : Priv) (r : σ × Session × Bool)
    (hr : p.opts.running = false) (h : openSession b e s (.some p) = .ok r) (hf : r.2.2 = false) :
    openSession b e' r.1 r.2.1 = .ub := by
  rcases open_ok hr h with ⟨h1, -⟩ | ⟨-, h2⟩
  · rw [h1] at hf; cases hf
  · rw [h2]; rfl

/-- C52 is false with asynchronous PUTs: closing a session that was never opened joins a thread that was
never started, and so does a failing `Open`. -/
theorem C52_async_close_ub (b : Backend σ) (s : σ) (p : Priv) (ha : p.opts.asyncEnabled = true) (ht : p.thread = false) :
    close b s (.some p) = .ub := by
  simp only [close, closePriv, ha, ht]
  split <;> rfl

/-! ## Examples -/

namespace C39Ex

/-- Datastores that remember which requests reached them; opening and closing leaves marks. -/
def log : Backend (List (Int × Nat)) where
  serve := fun s rank req =>
    match req.body with
    | .put l => .ok (s ++ [(rank, l.length)], ⟨rank, req.src, .put (l.map fun _ => ⟨0, ⟨0, 0, 0⟩, ⟨0, 0, 0⟩⟩)⟩)
    | _ => .err
  openDs := fun s _ _ _ => some s
  syncDs := fun s _ _ => (s, 0)
  reopenDs := fun s _ _ _ => s
  closeDs := fun s rank _ => s ++ [((rank : Int), 100)]

def env : Env := ⟨some (0, 1), true, fun _ _ _ _ => .err, id, fun l => List.Perm.refl l, 1, fun n => List.replicate n 0⟩

def made : Session := .some { Priv.new with opts := { Opts.new with
  comm := .world (some 1), clientRatio := 1, serverRatio := 1, perServer := 1, store := some .inMemory
  hashFunc := some (.builtin .datastoreZero), transport := some .null, maxOps := 4 } }

def blob (b : UInt8) : Blob := ⟨1, [b], 7⟩
def put : Call := .queue (.put ⟨blob 1, blob 2, blob 3, 1⟩)

/-- The servers after some calls, and what the calls returned. -/
def after (l : List Call) : Out (List (Int × Nat) × List Bool) :=
  run ⟨true, true, true⟩ [] log (l.map fun c => (env, c)) [] made >>= fun r =>
  .ok (r.1, r.2.2.map fun x => match x with | .code b => b | .value b _ => b | .results r => r.isSome)

end C39Ex
open C39Ex

/-- A PUT before `Open` is refused. -/
example : after [put, .access .mpi, .sync false] = .ok ([], [false, false, false]) := by decide +kernel
/-- The session of the examples can be opened; it cannot without MPI. -/
example : OpensAll log 0 (pathOf Opts.new) (((⟨1, 1, 1, 1⟩ : Place.Layout).created 0).map Int.toNat) [] ∧
    (openSession log env [] made >>= fun r => .ok r.2.2) = .ok true ∧
    (openSession log { env with mpi := none } [] made >>= fun r => .ok r.2.2) = .ok false := by
  refine ⟨?_, by decide +kernel, by decide +kernel⟩
  have : ((⟨1, 1, 1, 1⟩ : Place.Layout).created 0).map Int.toNat = [0] := by decide +kernel
  rw [this]
  exact ⟨_, rfl, trivial⟩
/-- A queued PUT is lost by `Close`. -/
example : after [.open, put, put, .close] = .ok ([(0, 100)], [true, true, true, true]) := by decide +kernel
/-- It is executed when the session is flushed first. -/
example : after [.open, put, put, .flush false .all, .close] =
    .ok ([(0, 2), (0, 100)], [true, true, true, true, true]) := by decide +kernel
example : after [.open, .open, .close, .close, put] = .ok ([(0, 100)], [true, false, true, false, false]) := by
  decide +kernel
example : after [.openOne (str "x")] = .ub := by decide +kernel
example : after [.open, .close, .open] = .ub := by decide +kernel

/-! ## C22: the datastores of a session -/

private theorem openLoop_opened {b : Backend σ} (l : List Nat) {s s' : σ} {p p' : Priv} (h : openLoop b l s p = .ok (s', p', true)) :
    p'.ids = p.ids ++ l ∧ l.foldlM (fun s id => b.openDs s p.rank id (if p.opts.openInit = true then
      some (p.opts.dsPrefix ++ Config.str "/" ++ p.opts.dsBase ++ Config.str "-" ++ Elen.toDec id ++ p.opts.dsPostfix) else none)) s = some s' := by
  induction l generalizing s p with
  | nil =>
    simp only [openLoop, Out.ok.injEq, Prod.mk.injEq] at h
    obtain ⟨rfl, rfl, -⟩ := h
    simp
  | cons id l ih =>
    simp only [openLoop] at h
    split at h
    · cases h
    · split at h
      · simp at h
      · rename_i s₁ e
        obtain ⟨h1, h2⟩ := ih h
        refine ⟨by rw [h1]; simp, ?_⟩
        rw [List.foldlM_cons]
        have e' : b.openDs s p.rank id (if p.opts.openInit = true then
            some (p.opts.dsPrefix ++ Config.str "/" ++ p.opts.dsBase ++ Config.str "-" ++ Elen.toDec id ++ p.opts.dsPostfix) else none) = some s₁ := by
          rw [← e]
          rfl
        rw [e']
        exact h2

/-- C22: a session that opens its datastores opens, in order, the datastores that are created on its rank,
each in the file named after the prefix, a slash, the base name, a hyphen, its number and the postfix. -/
theorem C22_opened {b : Backend σ} {s s' : σ} {p p' : Priv} (h : datastore b s p = .ok (s', p', true)) :
    p'.ids = p.ids ++ (p.layout.created p.rank).map Int.toNat ∧
    ((p.layout.created p.rank).map Int.toNat).foldlM (fun s id => b.openDs s p.rank id (if p.opts.openInit = true then
      some (p.opts.dsPrefix ++ Config.str "/" ++ p.opts.dsBase ++ Config.str "-" ++ Elen.toDec id ++ p.opts.dsPostfix) else none)) s = some s' := by
  unfold datastore at h
  split at h
  · simp at h
  · simp only [] at h
    exact openLoop_opened (p := { p with
      servers := p.layout.totalRangeServers
      total := p.layout.total
      rsId := rsGetIdIn p.rank p.size p.opts.clientRatio p.opts.serverRatio }) _ h

/-- Rank 2 of three ranks with two datastores per range server, and a machine that remembers what it
opened. -/
example : (datastore ⟨fun _ _ _ => .err, fun l _ id n => some (l ++ [(id, n)]), fun s _ _ => (s, 0), fun s _ _ _ => s, fun s _ _ => s⟩
    ([] : List (Nat × Option Bytes)) { Priv.new with
      rank := 2
      size := 3
      opts := { Config.Opts.new with clientRatio := 2, serverRatio := 1, perServer := 2, dsPrefix := [46], dsBase := [104], store := some .inMemory } } >>= fun r => .ok (r.1, r.2.2)) =
    .ok ([(2, some [46, 47, 104, 45, 50]), (3, some [46, 47, 104, 45, 51])], true) := by decide +kernel

end Hx.Props

import Verif.Props.C39_LifeCycle

/-!
# C53: accessors of an open session; C47: what `BPutSingleType` does after queueing
-/

namespace Hx.Props
open Hx Msg Config Process Results Place Session Spec

variable {σ : Type}

/-! ## C53 -/

/-- What the accessors have to return for a session of `size` ranks opened on rank `rank` with options
`o`. Specified without the session; the counts and locations are those of the layout, for which C22 to C24
are proved. -/
def Reported (o : Opts) (rank size : Nat) : Accessor → Bool × Value
  | .epoch => (true, .nothing)
  | .mpi => (true, .nats rank size)
  | .serverCount => (true, .nat (Layout.mk size o.clientRatio o.serverRatio o.perServer).totalRangeServers)
  | .ratio => (true, .nats o.clientRatio o.serverRatio)
  | .datastoreCount => (true, .nat (Layout.mk size o.clientRatio o.serverRatio o.perServer).total)
  | .printBuffer => (true, .nothing)
  | .hash => (true, .hash o.hashName o.hashFunc o.hashArgs)
  | .location id =>
    match (Layout.mk size o.clientRatio o.serverRatio o.perServer).getDatastoreLocation id with
    | .ok (r, k) => (true, .ints r k)
    | _ => (false, .nothing)
  | .haveHistogram n => (true, .bool (o.histNames.contains n))

/-- The values behind the accessors. -/
def Holds (o : Opts) (rank size : Nat) (p : Priv) : Prop :=
  p.opts = o ∧ p.rank = rank ∧ p.size = size ∧
    p.servers = (Layout.mk size o.clientRatio o.serverRatio o.perServer).totalRangeServers ∧
    p.total = (Layout.mk size o.clientRatio o.serverRatio o.perServer).total

theorem holds_reported {o : Opts} {rank size : Nat} {p : Priv} (h : Holds o rank size p) (hr : o.running = true)
    (a : Accessor) : access a (.some p) = Reported o rank size a := by
  obtain ⟨h1, h2, h3, h4, h5⟩ := h
  subst h1 h2 h3
  cases a with
  | location id =>
    simp only [access, hr, if_true, Priv.access, Reported, Priv.layout]
    generalize Layout.getDatastoreLocation _ id = x
    cases x <;> rfl
  | _ => simp [access, hr, Priv.access, Reported, h4, h5]

theorem background_holds {b : Backend σ} {e : Env} {s : σ} {p : Priv} {r : σ × Priv} {o : Opts} {rank size : Nat}
    (hp : Holds o rank size p) (h : background b e s p = .ok r) : Holds o rank size r.2 := by
  unfold background at h
  obtain ⟨x, -, h⟩ := ok_iff.mp h
  simp only [Out.ok.injEq] at h; subst h; exact hp

/-- C53. After a successful `Open` the accessors return the rank and size of the communicator, the
numbers that follow from the options, and the options. -/
theorem C53_open (b : Backend σ) (e : Env) (s s' : σ) (p p' : Priv) (rank size : Nat) (hr : p.opts.running = false)
    (hm : e.mpi = .some (rank, size)) (h : openSession b e s (.some p) = .ok (s', .some p', true)) :
    Holds { p.opts with running := true } rank size p' ∧
      ∀ a, access a (.some p') = Reported { p.opts with running := true } rank size a := by
  suffices hh : Holds { p.opts with running := true } rank size p' from ⟨hh, holds_reported hh rfl⟩
  simp only [openSession, hr] at h
  rw [if_neg (by decide)] at h
  obtain ⟨y, h1, h⟩ := ok_iff.mp h
  unfold Session.finish at h
  split at h
  swap
  · obtain ⟨t, -, h⟩ := ok_iff.mp h
    cases h
  rename_i hy
  simp only [Out.ok.injEq, Prod.mk.injEq, Session.some.injEq, and_true] at h
  obtain ⟨-, h⟩ := h
  subst h
  obtain ⟨z, h2, h1⟩ := andThen_ok h1
  rcases h1 with ⟨h3, h1⟩ | ⟨h3, h1⟩
  swap
  · subst h1; rw [h3] at hy; cases hy
  have hz : z.2.1 = { p with rank := rank, size := size } := by
    unfold bootstrap at h2
    split at h2
    · simp only [Out.ok.injEq] at h2; subst h2; cases h3
    · rw [hm] at h2
      simp only [Out.ok.injEq] at h2; subst h2; rfl
  obtain ⟨z1, g1, h1⟩ := andThen_ok h1
  simp only [setRunning, Out.ok.injEq] at g1; subst g1
  rcases h1 with ⟨-, h1⟩ | ⟨h4, -⟩
  swap
  · cases h4
  obtain ⟨z2, g2, h1⟩ := andThen_ok h1
  rcases h1 with ⟨h4, h1⟩ | ⟨h4, h1⟩
  swap
  · subst h1; rw [h4] at hy; cases hy
  have k2 : Holds { p.opts with running := true } rank size z2.2.1 := by
    unfold datastore at g2
    split at g2
    · simp only [Out.ok.injEq] at g2; subst g2; cases h4
    · rw [openLoop_opts g2, hz]
      exact ⟨rfl, rfl, rfl, rfl, rfl⟩
  obtain ⟨z3, g3, h1⟩ := andThen_ok h1
  rcases h1 with ⟨h5, h1⟩ | ⟨h5, h1⟩
  swap
  · subst h1; rw [h5] at hy; cases hy
  have k3 : Holds { p.opts with running := true } rank size z3.2.1 := by
    unfold Session.transport at g3
    split at g3
    · simp only [Out.ok.injEq] at g3; subst g3; exact k2
    · split at g3
      · cases g3
      · simp only [Out.ok.injEq] at g3; subst g3; exact k2
      · split at g3 <;> (simp only [Out.ok.injEq] at g3; subst g3; exact k2)
      · split at g3 <;> (simp only [Out.ok.injEq] at g3; subst g3; exact k2)
  obtain ⟨z4, g4, h1⟩ := andThen_ok h1
  simp only [queues, Out.ok.injEq] at g4; subst g4
  rcases h1 with ⟨-, h1⟩ | ⟨h6, -⟩
  swap
  · cases h6
  unfold asyncPuts at h1
  split at h1
  · obtain ⟨w1, g5, h1⟩ := ok_iff.mp h1
    obtain ⟨w2, g6, h1⟩ := ok_iff.mp h1
    simp only [Out.ok.injEq] at h1; subst h1
    exact background_holds (background_holds (p := { z3.2.1 with
      queues := Queue.Queues.init z3.2.1.total, dsToRank := (List.range z3.2.1.total).map z3.2.1.layout.dsToRank
      kept := .none, thread := true }) k3 g5) g6
  · simp only [Out.ok.injEq] at h1; subst h1; exact k3

theorem flush_holds {b : Backend σ} {e : Env} {s : σ} {p : Priv} {k : Session.Kind} {r : σ × Priv × Results} {o : Opts}
    {rank size : Nat} (hp : Holds o rank size p) (h : flushPriv b e s p k = .ok r) : Holds o rank size r.2.1 := by
  have fq : ∀ {f : Queue.Queues → Out (σ × Results × Queue.Queues)} {p : Priv} {r : σ × Priv × Results},
      Holds o rank size p → flushQueues f p = .ok r → Holds o rank size r.2.1 := by
    intro f p r hp h
    unfold flushQueues at h
    obtain ⟨x, -, h⟩ := ok_iff.mp h
    simp only [Out.ok.injEq] at h; subst h; exact hp
  have fp : ∀ {r : σ × Priv × Results}, Session.flushPuts b e s p = .ok r → Holds o rank size r.2.1 := by
    intro r h
    unfold Session.flushPuts at h
    obtain ⟨x, hx, h⟩ := ok_iff.mp h
    obtain ⟨y, -, h⟩ := ok_iff.mp h
    simp only [Out.ok.injEq] at h; subst h
    show Holds o rank size x.2.1
    split at hx
    · obtain ⟨z, hz, hx⟩ := ok_iff.mp hx
      simp only [Out.ok.injEq] at hx; subst hx
      show Holds o rank size z.2
      split at hz
      · obtain ⟨w, hw, hz⟩ := ok_iff.mp hz
        exact background_holds (background_holds hp hw) hz
      · simp only [Out.ok.injEq] at hz; subst hz; exact hp
    · simp only [Out.ok.injEq] at hx; subst hx; exact hp
  cases k
  · exact fp h
  · exact fq hp h
  · exact fq hp h
  · exact fq hp h
  · exact fq hp h
  · unfold flushPriv at h
    obtain ⟨x1, h1, h⟩ := ok_iff.mp h
    obtain ⟨x2, h2, h⟩ := ok_iff.mp h
    obtain ⟨x3, h3, h⟩ := ok_iff.mp h
    obtain ⟨x4, h4, h⟩ := ok_iff.mp h
    obtain ⟨x5, h5, h⟩ := ok_iff.mp h
    simp only [Out.ok.injEq] at h; subst h
    exact (fq (fq (fq (fq (fp h1) h2) h3) h4) h5 : Holds o rank size x5.2.1)

theorem sync_holds {b : Backend σ} {e : Env} {s : σ} {p : Priv} {r : σ × Priv × Results} {o : Opts}
    {rank size : Nat} (hp : Holds o rank size p) (h : syncPriv b e s p = .ok r) : Holds o rank size r.2.1 := by
  unfold syncPriv at h
  obtain ⟨x, hx, h⟩ := ok_iff.mp h
  simp only [Out.ok.injEq] at h; subst h
  exact (flush_holds hp hx : Holds o rank size x.2.1)

/-- The options after a call that an open session survives. `ChangeHash` replaces the function and its
argument, `ChangeDatastoreName` the name of the datastores. -/
def optsAfter (o : Opts) : Call → Opts
  | .changeHash _ _ f a => { o with hashFunc := f, hashArgs := a }
  | .changeName _ base => { o with dsBase := base }
  | _ => o

/-- C53. Every call other than `Init` and `Close` leaves an open session open, and the accessors return
the same as before, except the hash function after `ChangeHash`. -/
theorem C53_step (build : Build) (keys : List Bytes) (b : Backend σ) (e : Env) (s : σ) (p : Priv) (o : Opts)
    (rank size : Nat) (hp : Holds o rank size p) (hr : o.running = true) (c : Call)
    (hc : ¬ (∃ sys comm, c = .init sys comm) ∧ c ≠ .close) (r : σ × Session × Ret)
    (h : step build keys b e s (.some p) c = .ok r) :
    ∃ p', r.2.1 = .some p' ∧ Holds (optsAfter o c) rank size p' ∧
      ∀ a, access a (.some p') = Reported (optsAfter o c) rank size a := by
  suffices hh : ∃ p', r.2.1 = .some p' ∧ Holds (optsAfter o c) rank size p' by
    obtain ⟨p', h1, h2⟩ := hh
    exact ⟨p', h1, h2, holds_reported h2 (by cases c <;> exact hr)⟩
  have hr' : p.opts.running = true := by rw [hp.1, hr]
  have qu : ∀ {f : Priv → Out (σ × Priv × Bool)} {r : σ × Session × Ret},
      (∀ y, f p = .ok y → Holds o rank size y.2.1) → queueing (.some p) s f = .ok r →
        ∃ p', r.2.1 = .some p' ∧ Holds o rank size p' := by
    intro f r hf h
    simp only [queueing, hr', if_true] at h
    obtain ⟨y, hy, h⟩ := ok_iff.mp h
    simp only [Out.ok.injEq] at h; subst h
    exact ⟨_, rfl, hf y hy⟩
  have qd : ∀ {f : Queue.Queues → Out (Queue.Queues × Bool)} {y}, Session.queued s p f = .ok y → Holds o rank size y.2.1 := by
    intro f y hy
    unfold Session.queued at hy
    obtain ⟨z, -, hy⟩ := ok_iff.mp hy
    simp only [Out.ok.injEq] at hy; subst hy; exact hp
  have re : ∀ {c : Bool} {f : σ → Priv → Out (σ × Priv × Results)} {r : σ × Session × Ret} {o' : Opts},
      (∀ y, f s p = .ok y → Holds o' rank size y.2.1) → results c (.some p) s f = .ok r →
        ∃ p', r.2.1 = .some p' ∧ Holds o' rank size p' := by
    intro c f r o' hf h
    simp only [results, hr', if_true] at h
    obtain ⟨y, hy, h⟩ := ok_iff.mp h
    simp only [Out.ok.injEq] at h; subst h
    exact ⟨_, rfl, hf y hy⟩
  cases c with
  | init sys comm => exact (hc.1 ⟨_, _, rfl⟩).elim
  | close => exact (hc.2 rfl).elim
  | «open» =>
    simp only [step, coded, openSession, hr', if_true, Out.ok_bind, Out.ok.injEq] at h; subst h; exact ⟨p, rfl, hp⟩
  | openOne path =>
    simp only [step, coded, openOne, hr', if_true, Out.ok_bind, Out.ok.injEq] at h; subst h; exact ⟨p, rfl, hp⟩
  | set t =>
    simp only [step, setter] at h
    obtain ⟨y, hy, h⟩ := ok_iff.mp h
    simp only [Out.ok.injEq] at h; subst h
    have := C38_open_refused t p.opts hr' (some (some y.1), y.2) (by simp [Setter.run, hy])
    simp only [Prod.mk.injEq, Option.some.injEq] at this
    refine ⟨_, rfl, ?_⟩
    rw [this.1]
    exact hp
  | queue x => simp only [step] at h; exact qu (fun y hy => qd hy) h
  | getSingle a ta l t => simp only [step] at h; exact qu (fun y hy => qd hy) h
  | getopSingle a ta l t => simp only [step] at h; exact qu (fun y hy => qd hy) h
  | putSingle a ta l t =>
    simp only [step] at h
    refine qu (fun y hy => ?_) h
    unfold putSinglePriv at hy
    obtain ⟨z, -, hy⟩ := ok_iff.mp hy
    simp only at hy
    split at hy
    · simp only [Out.ok.injEq] at hy; subst hy; exact hp
    · obtain ⟨w, hw, hy⟩ := ok_iff.mp hy
      simp only [Out.ok.injEq] at hy; subst hy
      show Holds o rank size w.2
      unfold serialPuts at hw
      split at hw
      · obtain ⟨v, -, hw⟩ := ok_iff.mp hw
        simp only [Out.ok.injEq] at hw; subst hw; exact hp
      · simp only [Out.ok.injEq] at hw; subst hw; exact hp
  | flush c k =>
    simp only [step] at h
    obtain ⟨y, hy, h⟩ := ok_iff.mp h
    simp only [Out.ok.injEq] at h; subst h
    exact ⟨_, rfl, flush_holds hp hy⟩
  | sync c => simp only [step] at h; exact re (fun y hy => sync_holds hp hy) h
  | changeHash c n f a =>
    simp only [step] at h
    refine re (fun y hy => ?_) h
    unfold changeHashPriv at hy
    obtain ⟨z, hz, hy⟩ := ok_iff.mp hy
    simp only [Out.ok.injEq] at hy; subst hy
    obtain ⟨h1, h2⟩ := sync_holds hp hz
    refine ⟨?_, h2⟩
    show { z.2.1.opts with hashFunc := f, hashArgs := a } = _
    rw [h1]; rfl
  | changeName c n =>
    simp only [step] at h
    refine re (fun y hy => ?_) h
    unfold changeNamePriv at hy
    obtain ⟨z, hz, hy⟩ := ok_iff.mp hy
    simp only [Out.ok.injEq] at hy; subst hy
    obtain ⟨h1, h2⟩ := sync_holds hp hz
    refine ⟨?_, h2⟩
    show { z.2.1.opts with dsBase := n } = _
    rw [h1]; rfl
  | access a => simp only [step, Out.ok.injEq] at h; subst h; exact ⟨p, rfl, hp⟩

/-- C53 is false after `ChangeHash`: `GetHash` returns the new function under the name of the old one. -/
theorem C53_hash_name_false (build : Build) (keys : List Bytes) (b : Backend σ) (e : Env) (s : σ) (p : Priv) (o : Opts)
    (rank size : Nat) (hp : Holds o rank size p) (hr : o.running = true) (c : Bool) (name : Bytes) (f : Option HashFn)
    (args : Nat) (r : σ × Session × Ret) (h : step build keys b e s (.some p) (.changeHash c name f args) = .ok r) :
    access .hash r.2.1 = (true, .hash o.hashName f args) := by
  obtain ⟨p', h1, -, h2⟩ := C53_step build keys b e s p o rank size hp hr (.changeHash c name f args)
    ⟨fun ⟨_, _, h⟩ => (by cases h), fun h => (by cases h)⟩ r h
  rw [h1]
  exact h2 .hash

example : ∃ r, step ⟨true, true, true⟩ [] log env [] (.some { Priv.new with
      opts := { Opts.new with running := true, hashName := str "SUM" }, size := 1, servers := 0 })
      (.changeHash false (str "NEW") (some (.user 5)) 0) = .ok r ∧
    access .hash r.2.1 = (true, .hash (str "SUM") (some (.user 5)) 0) := ⟨_, rfl, rfl⟩

/-- `ChangeHash` does not refuse a null function, which `hxhim_set_hash_function` does: the calls that
look for the datastore of a pair call it. -/
theorem C53_null_hash_ub (build : Build) (keys : List Bytes) (b : Backend σ) (e e' : Env) (s : σ) (p : Priv) (o : Opts)
    (rank size : Nat) (hp : Holds o rank size p) (hr : o.running = true) (c : Bool) (name : Bytes) (args : Nat)
    (r : σ × Session × Ret) (h : step build keys b e s (.some p) (.changeHash c name none args) = .ok r) (t : σ) :
    (∀ a : Queue.GetArg, Queue.given a.s → Queue.given a.p →
      step build keys b e' t r.2.1 (.queue (.get a)) = .ub) ∧
    ∀ a : Queue.DelArg, Queue.given a.s → Queue.given a.p →
      step build keys b e' t r.2.1 (.queue (.del a)) = .ub := by
  obtain ⟨p', h1, h2, -⟩ := C53_step build keys b e s p o rank size hp hr (.changeHash c name none args)
    ⟨fun ⟨_, _, h⟩ => (by cases h), fun h => (by cases h)⟩ r h
  have hf : p'.opts.hashFunc = none := by rw [h2.1]; rfl
  have hrun : p'.opts.running = true := by rw [h2.1]; exact hr
  have hash : ∀ x y, Queue.hashOf (p'.cfg e') x y = .ub := by
    intro x y
    unfold Queue.hashOf Priv.cfg Priv.hash
    simp only [hf, ite_self]
  rw [h1]
  refine ⟨fun a hs hq => ?_, fun a hs hq => ?_⟩
  · simp only [step, queueing, hrun, if_true, Session.queued, Queue.exec, hs, hq, Bool.and_self, Queue.getImpl, hash]
    rfl
  · simp only [step, queueing, hrun, if_true, Session.queued, Queue.exec, hs, hq, Bool.and_self, Queue.delImpl, hash]
    rfl

example : ∃ r, step ⟨true, true, true⟩ [] log env [] (.some { Priv.new with
      opts := { Opts.new with running := true, hashName := str "SUM" }, size := 1, servers := 0 })
      (.changeHash false (str "NEW") none 0) = .ok r ∧ r.2.2 = .results (some Results.create) := ⟨_, rfl, rfl⟩

/-! ## C47: `BPutSingleType` -/

/-- What a flush returns and does, with asynchronous PUTs disabled, does not depend on the results
`serial_puts` has kept, and they stay where they are. -/
theorem C47_kept_ignored (b : Backend σ) (e : Env) (s : σ) (p : Priv) (ha : p.opts.asyncEnabled = false)
    (k : Option Results) (kind : Session.Kind) :
    flushPriv b e s { p with kept := k } kind =
      (flushPriv b e s p kind >>= fun r => .ok (r.1, { r.2.1 with kept := k }, r.2.2)) := by
  have bind_assoc : ∀ {α β γ : Type} (x : Out α) (f : α → Out β) (g : β → Out γ),
      (x >>= f) >>= g = x >>= fun a => f a >>= g := by
    intro α β γ x f g; cases x <;> rfl
  have fq : ∀ {α : Type} (f : Queue.Queues → Out (σ × Results × Queue.Queues)) (p : Priv) (g : σ × Priv × Results → Out α),
      (flushQueues f { p with kept := k } >>= g) =
        (flushQueues f p >>= fun r => g (r.1, { r.2.1 with kept := k }, r.2.2)) := by
    intro α f p g
    unfold flushQueues
    simp only [bind_assoc, Out.ok_bind]
  have fp : ∀ {α : Type} (g : σ × Priv × Results → Out α), (Session.flushPuts b e s { p with kept := k } >>= g) =
      (Session.flushPuts b e s p >>= fun r => g (r.1, { r.2.1 with kept := k }, r.2.2)) := by
    intro α g
    unfold Session.flushPuts
    simp only [ha, Bool.false_eq_true, if_false, bind_assoc, Out.ok_bind]
    rfl
  have pb : ∀ {α : Type} (x : Out α), x = (x >>= fun a => .ok a) := by intro α x; cases x <;> rfl
  cases kind
  · rw [pb (flushPriv b e s { p with kept := k } _)]; exact fp _
  · rw [pb (flushPriv b e s { p with kept := k } _)]; exact fq _ _ _
  · rw [pb (flushPriv b e s { p with kept := k } _)]; exact fq _ _ _
  · rw [pb (flushPriv b e s { p with kept := k } _)]; exact fq _ _ _
  · rw [pb (flushPriv b e s { p with kept := k } _)]; exact fq _ _ _
  · simp only [flushPriv, bind_assoc, Out.ok_bind]
    rw [fp]
    congr 1; funext x1
    erw [fq]
    congr 1; funext x2
    erw [fq]
    congr 1; funext x3
    erw [fq]
    congr 1; funext x4
    erw [fq]
    rfl

/-- C47 is false for `BPutSingleType`: with asynchronous PUTs disabled, which sets their limit to 0, it does
not leave the PUTs in the queue but sends them at once, together with all PUTs queued before. The results
are put aside, and no flush returns them (`C47_kept_ignored`). -/
theorem C47_put_single_false (b : Backend σ) (e : Env) (s : σ) (p : Priv) (ha : p.opts.asyncEnabled = false)
    (hm : p.opts.asyncMax = 0) (ta : Bool) (l : List Queue.PutArg) (t : Nat) (r : σ × Priv × Bool)
    (h : putSinglePriv b e true ta l t s p = .ok r) :
    ∃ q x, Queue.bputSingle (p.cfg e) p.queues true ta l t = .ok (q, true) ∧
      process (p.net e) b.serve .put s q.puts = .ok x ∧ r.1 = x.1 ∧
      (∀ packets ∈ r.2.1.queues.puts, packets = []) ∧ r.2.1.queues.putCount = 0 ∧
      r.2.1.kept.isSome = true ∧ (p.kept = .none → r.2.1.kept = .some x.2.1) := by
  unfold putSinglePriv at h
  obtain ⟨z, hz, h⟩ := ok_iff.mp h
  have hz2 : z.2 = true := by
    unfold Queue.bputSingle at hz
    rw [if_pos rfl] at hz
    split at hz
    · cases hz
    · obtain ⟨w, -, hz⟩ := ok_iff.mp hz
      simp only [Out.ok.injEq] at hz; subst hz; rfl
  simp only at h
  rw [if_neg (by rw [hz2, ha]; decide)] at h
  obtain ⟨w, hw, h⟩ := ok_iff.mp h
  simp only [Out.ok.injEq] at h; subst h
  unfold serialPuts at hw
  simp only [hm] at hw
  rw [if_pos (Nat.zero_le _)] at hw
  obtain ⟨x, hx, hw⟩ := ok_iff.mp hw
  simp only [Out.ok.injEq] at hw; subst hw
  refine ⟨z.1, x, ?_, hx, rfl, ?_, rfl, rfl, ?_⟩
  · rw [hz, ← hz2]
  · obtain ⟨h1, -⟩ := C29_at_most_once _ _ _ _ _ _ _ _ hx
    intro packets hp
    have hp : packets ∈ x.2.2 := hp
    rw [h1] at hp
    simp only [List.mem_map] at hp
    obtain ⟨_, -, rfl⟩ := hp
    rfl
  · intro hk
    show some (match p.kept with | .none => x.2.1 | .some r => (r.append x.2.1).1) = _
    rw [hk]

/-! ## Examples -/

namespace C53Ex
open C39Ex

/-- The session of `C39Ex` opens, and reports one rank. -/
example : ∃ s p, openSession log env [] made = .ok (s, .some p, true) ∧ access .mpi (.some p) = (true, .nats 0 1) ∧
    access .datastoreCount (.some p) = (true, .nat 1) := ⟨_, _, rfl, by decide +kernel, by decide +kernel⟩

/-- `BPutSingleType` sends its PUTs, and the flush that follows returns no results. -/
example : ∃ s p r, openSession log env [] made = .ok (s, .some p, true) ∧
    putSinglePriv log env true true [⟨blob 1, blob 2, blob 3, 1⟩] 7 s p = .ok r ∧ r.1.length = s.length + 1 ∧
    (flushPriv log env r.1 r.2.1 .puts >>= fun x => .ok (x.1.length, x.2.2.items.length)) = .ok (s.length + 1, 0) := by
  refine ⟨_, _, _, rfl, rfl, ?_⟩
  decide +kernel

end C53Ex

end Hx.Props

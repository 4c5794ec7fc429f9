import Verif.Model.Session
import Verif.Proofs.Process
import Verif.Proofs.Options
import Verif.Props.C38_Setters

/-!
# Lemmas about the life cycle
-/

namespace Hx.Session
open Hx Msg Config Process Results Place

variable {σ : Type}

theorem setter_running {t : Setter} {o : Opts} {r : Opts × Bool} (h : t.onOpts o = .ok r) :
    r.1.running = o.running := by
  cases ho : o.running with
  | true =>
    have := Props.C38_open_refused t o ho (some (some r.1), r.2) (by simp [Setter.run, h])
    simp only [Prod.mk.injEq, Option.some.injEq] at this
    rw [this.1, ho]
  | false =>
    have ch : ∀ {f : Config.Set} {o : Opts}, o.running = false → (f o).1.running = false → (checked f o).1.running = false :=
      fun hp hq => checked_inv (P := fun o => o.running = false) hp hq
    have ws : ∀ {t : Option Bytes} {f : Bytes → Config.Set} {r : Opts × Bool}, (∀ t, (f t o).1.running = false) →
        withStr t f o = .ok r → r.1.running = false := by
      intro t f r hf hw
      unfold withStr at hw
      split at hw
      · simp only [Out.ok.injEq] at hw; subst hw; exact ho
      · cases t with
        | none => cases hw
        | some t => simp only [Out.ok.injEq] at hw; subst hw; exact hf t
    cases t <;> simp only [Setter.onOpts, Out.ok.injEq] at h <;> try subst h
    case clientRatio n => refine ch ho ?_; split <;> exact ho
    case serverRatio n => refine ch ho ?_; split <;> exact ho
    case perServer n => refine ch ho ?_; split <;> exact ho
    case datastoreName a b c =>
      obtain ⟨q1, -, h⟩ := ok_iff.mp h
      obtain ⟨q2, -, h⟩ := ok_iff.mp h
      exact ws (f := fun c => setDatastoreName (a.getD []) (b.getD []) c) (fun t => ch ho ho) h
    case hashName n =>
      refine ws (f := setHashName) (fun t => ch ho ?_) h
      split <;> exact ho
    case hashFunction n f a =>
      split at h
      · simp only [Out.ok.injEq] at h; subst h; exact ho
      · refine ws (f := fun n => setHashFunction n f a) (fun t => ch ho ?_) h
        split <;> exact ho
    case transportThallium m t =>
      cases m with
      | none => cases h
      | some m => simp only [Out.ok.injEq] at h; subst h; exact ch ho ho
    case genName n =>
      refine ws (f := setGenName) (fun t => ch ho ?_) h
      split <;> exact ho
    case track n =>
      cases n with
      | none => cases h
      | some m => simp only [Out.ok.injEq] at h; subst h; exact ch ho ho
    case addEndpoint i => refine ch ho ?_; split <;> exact ho
    case genFunction f a => refine ch ho ?_; split <;> exact ho
    all_goals exact ch ho ho

/-! ## Stages of Open -/

theorem andThen_ok {x : Out (Stage σ)} {f : σ → Priv → Out (Stage σ)} {r : Stage σ} (h : andThen x f = .ok r) :
    ∃ y, x = .ok y ∧ ((y.2.2 = true ∧ f y.1 y.2.1 = .ok r) ∨ (y.2.2 = false ∧ r = y)) := by
  unfold andThen at h
  obtain ⟨y, h1, h2⟩ := ok_iff.mp h
  refine ⟨y, h1, ?_⟩
  cases hy : y.2.2 with
  | true => rw [hy, if_pos rfl] at h2; exact .inl ⟨rfl, h2⟩
  | false =>
    rw [hy, if_neg (by decide)] at h2
    simp only [Out.ok.injEq] at h2
    exact .inr ⟨rfl, h2.symm⟩

theorem openLoop_opts {b : Backend σ} {l : List Nat} {s : σ} {p : Priv} {r : Stage σ} (h : openLoop b l s p = .ok r) :
    r.2.1 = { p with ids := r.2.1.ids } := by
  induction l generalizing s p with
  | nil => simp only [openLoop, Out.ok.injEq] at h; subst h; rfl
  | cons id l ih =>
    simp only [openLoop] at h
    split at h
    · cases h
    · split at h
      · simp only [Out.ok.injEq] at h; subst h; rfl
      · rw [ih h]

theorem datastore_opts {b : Backend σ} {s : σ} {p : Priv} {r : Stage σ} (h : datastore b s p = .ok r) :
    r.2.1.opts = p.opts := by
  unfold datastore at h
  split at h
  · simp only [Out.ok.injEq] at h; subst h; rfl
  · rw [openLoop_opts h]

theorem transport_opts {e : Env} {s : σ} {p : Priv} {r : Stage σ} (h : transport e s p = .ok r) :
    r.2.1.opts = p.opts := by
  unfold transport at h
  split at h
  · simp only [Out.ok.injEq] at h; subst h; rfl
  · split at h
    · cases h
    · simp only [Out.ok.injEq] at h; subst h; rfl
    · split at h <;> (simp only [Out.ok.injEq] at h; subst h; rfl)
    · split at h <;> (simp only [Out.ok.injEq] at h; subst h; rfl)

theorem queues_opts {s : σ} {p : Priv} {r : Stage σ} (h : queues s p = .ok r) : r.2.1.opts = p.opts := by
  simp only [queues, Out.ok.injEq] at h; subst h; rfl

theorem background_opts {b : Backend σ} {e : Env} {s : σ} {p : Priv} {r : σ × Priv} (h : background b e s p = .ok r) :
    r.2.opts = p.opts := by
  unfold background at h
  obtain ⟨x, -, h⟩ := ok_iff.mp h
  simp only [Out.ok.injEq] at h; subst h; rfl

theorem async_opts {b : Backend σ} {e : Env} {s : σ} {p : Priv} {r : Stage σ} (h : asyncPuts b e s p = .ok r) :
    r.2.1.opts = p.opts ∧ r.2.2 = true := by
  unfold asyncPuts at h
  split at h
  · obtain ⟨x, h1, h⟩ := ok_iff.mp h
    obtain ⟨y, h2, h⟩ := ok_iff.mp h
    simp only [Out.ok.injEq] at h; subst h
    exact ⟨by rw [background_opts h2, background_opts h1], rfl⟩
  · simp only [Out.ok.injEq] at h; subst h; exact ⟨rfl, rfl⟩

/-- The stages of `Open` after `bootstrap` leave a running session. -/
theorem stages_running {b : Backend σ} {e : Env} {s : σ} {p : Priv} {r : Stage σ}
    (h : andThen (setRunning s p) (fun s p => andThen (datastore b s p) (fun s p =>
      andThen (transport e s p) (fun s p => andThen (queues s p) (fun s p => asyncPuts b e s p)))) = .ok r) :
    r.2.1.opts = { p.opts with running := true } := by
  obtain ⟨y, h1, h⟩ := andThen_ok h
  simp only [setRunning, Out.ok.injEq] at h1; subst h1
  rcases h with ⟨-, h⟩ | ⟨-, h⟩
  swap
  · subst h; rfl
  obtain ⟨y, h1, h⟩ := andThen_ok h
  have e1 := datastore_opts h1
  rcases h with ⟨-, h⟩ | ⟨-, h⟩
  swap
  · subst h; exact e1
  obtain ⟨y', h1, h⟩ := andThen_ok h
  have e2 := transport_opts h1
  rcases h with ⟨-, h⟩ | ⟨-, h⟩
  swap
  · subst h; rw [e2, e1]
  obtain ⟨y'', h1, h⟩ := andThen_ok h
  have e3 := queues_opts h1
  rcases h with ⟨-, h⟩ | ⟨-, h⟩
  swap
  · subst h; rw [e3, e2, e1]
  rw [(async_opts h).1, e3, e2, e1]

/-- `Open` gives a running session or none. -/
theorem open_ok {b : Backend σ} {e : Env} {s : σ} {p : Priv} {r : σ × Session × Bool} (hp : p.opts.running = false)
    (h : openSession b e s (.some p) = .ok r) :
    (r.2.2 = true ∧ ∃ p', r.2.1 = .some p' ∧ p'.opts = { p.opts with running := true }) ∨
      (r.2.2 = false ∧ r.2.1 = .none) := by
  simp only [openSession, hp] at h
  rw [if_neg (by decide)] at h
  obtain ⟨y, h1, h⟩ := ok_iff.mp h
  unfold finish at h
  split at h
  · rename_i hy
    simp only [Out.ok.injEq] at h; subst h
    left
    refine ⟨rfl, y.2.1, rfl, ?_⟩
    obtain ⟨z, h2, h1⟩ := andThen_ok h1
    have hz : z.2.1.opts = p.opts := by
      unfold bootstrap at h2
      split at h2
      · simp only [Out.ok.injEq] at h2; subst h2; rfl
      · split at h2 <;> (simp only [Out.ok.injEq] at h2; subst h2; rfl)
    rcases h1 with ⟨-, h1⟩ | ⟨h3, h1⟩
    · rw [stages_running h1, hz]
    · subst h1; rw [h3] at hy; cases hy
  · obtain ⟨t, -, h⟩ := ok_iff.mp h
    simp only [Out.ok.injEq] at h; subst h
    exact .inr ⟨rfl, rfl⟩

/-- `OpenOne` never gives a session. -/
theorem openOne_ok {b : Backend σ} {e : Env} {path : Bytes} {s : σ} {p : Priv} {r : σ × Session × Bool}
    (hp : p.opts.running = false) (h : openOne b e path s (.some p) = .ok r) : r.2.2 = false ∧ r.2.1 = .none := by
  simp only [openOne, hp] at h
  rw [if_neg (by decide)] at h
  obtain ⟨y, h1, h⟩ := ok_iff.mp h
  have hy : y.2.2 = false := by
    obtain ⟨z, -, h1⟩ := andThen_ok h1
    rcases h1 with ⟨-, h1⟩ | ⟨h3, h1⟩
    · split at h1
      · simp only [Out.ok.injEq] at h1; subst h1; rfl
      · exfalso
        obtain ⟨z', h2, h1⟩ := andThen_ok h1
        simp only [setRunning, Out.ok.injEq] at h2; subst h2
        rcases h1 with ⟨-, h1⟩ | ⟨h3, -⟩
        · obtain ⟨z'', h2, -⟩ := andThen_ok h1
          unfold oneDatastore at h2
          simp at h2
        · cases h3
    · subst h1; exact h3
  unfold finish at h
  rw [hy, if_neg (by decide)] at h
  obtain ⟨t, -, h⟩ := ok_iff.mp h
  simp only [Out.ok.injEq] at h; subst h
  exact ⟨rfl, rfl⟩

/-! ## Sessions that are not open -/

/-- Private data between `Init` and `Open`. -/
def Fresh (p : Priv) : Prop := p.queues = Queue.Queues.init 0 ∧ p.kept = .none ∧ p.ids = [] ∧ p.thread = false

/-- A session that is not open holds nothing. -/
def Idle : Session → Prop
  | .some p => p.opts.running = false → Fresh p
  | _ => True

theorem fresh_flush {b : Backend σ} {e : Env} {s : σ} {p : Priv} (hr : p.opts.running = false) (hf : Fresh p) (k : Kind) :
    ∃ r, flushPriv b e s p k = .ok (s, p, r) ∧ r.items = [] := by
  obtain ⟨h1, h2, h3, h4⟩ := hf
  have pr : ∀ {α : Type} (mk : List α → ReqBody) (s : σ), process (p.net e) b.serve mk s [] = .ok (s, Results.create, []) :=
    fun _ _ => rfl
  have hp : flushPuts b e s p = .ok (s, p, Results.create) := by
    cases p with
    | mk opts rank size servers total rsId ids transport dsToRank queues kept thread =>
      simp only at h1 h2 h3 h4 hr
      subst h1 h2
      unfold flushPuts
      simp only [hr]
      cases opts.asyncEnabled <;> rfl
  have hg : flushQueues (Process.flushGets (p.net e) b.serve s) p = .ok (s, p, Results.create) := by
    cases p; simp only at h1; subst h1; rfl
  have ho : flushQueues (Process.flushGetOps (p.net e) b.serve s) p = .ok (s, p, Results.create) := by
    cases p; simp only at h1; subst h1; rfl
  have hd : flushQueues (Process.flushDels (p.net e) b.serve s) p = .ok (s, p, Results.create) := by
    cases p; simp only at h1; subst h1; rfl
  have hh : flushQueues (Process.flushHists (p.net e) b.serve s) p = .ok (s, p, Results.create) := by
    cases p; simp only at h1; subst h1; rfl
  cases k
  · exact ⟨_, hp, rfl⟩
  · exact ⟨_, hg, rfl⟩
  · exact ⟨_, ho, rfl⟩
  · exact ⟨_, hd, rfl⟩
  · exact ⟨_, hh, rfl⟩
  · refine ⟨Results.create, ?_, rfl⟩
    simp only [flushPriv, hp, Out.ok_bind, hg, ho, hd, hh]
    rfl

theorem flush_running {b : Backend σ} {e : Env} {s : σ} {p : Priv} {k : Kind} {r : σ × Priv × Results}
    (h : flushPriv b e s p k = .ok r) : r.2.1.opts = p.opts := by
  have fq : ∀ {f : Queue.Queues → Out (σ × Results × Queue.Queues)} {p : Priv} {r : σ × Priv × Results},
      flushQueues f p = .ok r → r.2.1.opts = p.opts := by
    intro f p r h
    unfold flushQueues at h
    obtain ⟨x, -, h⟩ := ok_iff.mp h
    simp only [Out.ok.injEq] at h; subst h; rfl
  have fp : ∀ {r : σ × Priv × Results}, flushPuts b e s p = .ok r → r.2.1.opts = p.opts := by
    intro r h
    unfold flushPuts at h
    obtain ⟨x, hx, h⟩ := ok_iff.mp h
    obtain ⟨y, -, h⟩ := ok_iff.mp h
    simp only [Out.ok.injEq] at h; subst h
    show x.2.1.opts = p.opts
    split at hx
    · obtain ⟨z, hz, hx⟩ := ok_iff.mp hx
      simp only [Out.ok.injEq] at hx; subst hx
      show z.2.opts = p.opts
      split at hz
      · obtain ⟨w, hw, hz⟩ := ok_iff.mp hz
        rw [background_opts hz, background_opts hw]
      · simp only [Out.ok.injEq] at hz; subst hz; rfl
    · simp only [Out.ok.injEq] at hx; subst hx; rfl
  cases k
  · exact fp h
  · exact fq h
  · exact fq h
  · exact fq h
  · exact fq h
  · unfold flushPriv at h
    obtain ⟨x1, h1, h⟩ := ok_iff.mp h
    obtain ⟨x2, h2, h⟩ := ok_iff.mp h
    obtain ⟨x3, h3, h⟩ := ok_iff.mp h
    obtain ⟨x4, h4, h⟩ := ok_iff.mp h
    obtain ⟨x5, h5, h⟩ := ok_iff.mp h
    simp only [Out.ok.injEq] at h; subst h
    show x5.2.1.opts = p.opts
    rw [fq h5, fq h4, fq h3, fq h2, fp h1]

theorem sync_running {b : Backend σ} {e : Env} {s : σ} {p : Priv} {r : σ × Priv × Results}
    (h : syncPriv b e s p = .ok r) : r.2.1.opts = p.opts := by
  unfold syncPriv at h
  obtain ⟨x, hx, h⟩ := ok_iff.mp h
  simp only [Out.ok.injEq] at h; subst h
  exact (flush_running hx : x.2.1.opts = p.opts)

end Hx.Session

import Verif.Props.C37_Applied
import Verif.Props.C26_Queue

/-!
# C38: setters on open sessions, and zero ratios and counts
-/

namespace Hx.Props
open Hx Hx.Config Hx.Spec.Config

theorem checked_running {f : Set} {o : Opts} (h : o.running = true) : checked f o = (o, false) := by
  unfold checked; rw [h]; rfl

/-- On an open session every setter that returns fails and changes nothing. -/
theorem C38_open_refused (s : Setter) (o : Opts) (hr : o.running = true) (r : Handle × Bool)
    (h : s.run (some (some o)) = .ok r) : r = (some (some o), false) := by
  have key : ∀ q, s.onOpts o = .ok q → q = (o, false) := by
    intro q hq
    cases s <;>
      simp only [Setter.onOpts, setBootstrap, setDebugLevel, setClientRatio, setServerRatio, setPerServer, setOpenInit,
        setHistograms, setDatastore, setNumeric, setTransform, setTransport, setTransportMPI, Config.addEndpoint,
        Config.clearEndpoints, setAsyncAt, setMaxOps, setMaxSize, setFirstN, setGenFunction, addTracked, withStr,
        checked_running hr, hr, if_true, Out.ok_bind, Out.ok.injEq] at hq <;> try exact hq.symm
    · split at hq <;> (simp only [Out.ok.injEq] at hq; exact hq.symm)
    · split at hq
      · cases hq
      · simp only [Out.ok.injEq] at hq; exact hq.symm
    · split at hq
      · cases hq
      · simp only [Out.ok.injEq] at hq; exact hq.symm
  simp only [Setter.run] at h
  cases hq : s.onOpts o with
  | err => rw [hq] at h; cases h
  | ub => rw [hq] at h; cases h
  | ok q =>
    rw [hq] at h
    simp only [Out.ok_bind, Out.ok.injEq] at h
    rw [key q hq] at h
    exact h.symm

/-- It returns, unless a module or a predicate is given as a null pointer: these are used before the
session is looked at. -/
theorem C38_open_defined (s : Setter) (o : Opts) (hr : o.running = true) :
    s.run (some (some o)) = .ok (some (some o), false) ∨
      (s.run (some (some o)) = .ub ∧ ((∃ t, s = .transportThallium none t) ∨ s = .track none)) := by
  cases hq : s.run (some (some o)) with
  | ok r => rw [C38_open_refused s o hr r hq]; exact .inl rfl
  | err =>
    exfalso
    cases s <;>
      simp only [Setter.run, Setter.onOpts, withStr, hr, if_true, Out.ok_bind] at hq <;> try cases hq
    · split at hq <;> cases hq
    · split at hq <;> cases hq
    · split at hq <;> cases hq
  | ub =>
    right
    refine ⟨rfl, ?_⟩
    cases s <;>
      simp only [Setter.run, Setter.onOpts, withStr, hr, if_true, Out.ok_bind] at hq <;> try cases hq
    · split at hq <;> cases hq
    · next m t =>
      cases m with
      | none => exact .inl ⟨t, rfl⟩
      | some m => cases hq
    · next m =>
      cases m with
      | none => exact .inr rfl
      | some m => cases hq

/-- C38: a handle that is null or has no private part is left as it is and refused, except that
`hxhim_set_transport_mpi`, a null module and a null predicate are used before the handle is looked at. -/
theorem C38_no_session (s : Setter) (h : Handle) (hh : h = none ∨ h = some none) :
    (s.run h = .ub ↔ (∃ n, s = .transportMPI n) ∨ (∃ t, s = .transportThallium none t) ∨ s = .track none) ∧
    (s.run h ≠ .ub → s.run h = .ok (h, false)) := by
  rcases hh with rfl | rfl
  all_goals
    cases s with
    | transportThallium m t => cases m <;> simp [Setter.run]
    | track m => cases m <;> simp [Setter.run]
    | _ => simp [Setter.run]

/-- Ratios and numbers of datastores of zero are refused and change nothing, on every session. -/
theorem C38_zero_refused (h : Handle) (s : Setter) (hs : s ∈ [Setter.clientRatio 0, .serverRatio 0, .perServer 0]) :
    s.run h = .ok (h, false) := by
  have key : ∀ o, s.onOpts o = .ok (o, false) := by
    intro o
    simp only [List.mem_cons, List.not_mem_nil, or_false] at hs
    rcases hs with rfl | rfl | rfl <;>
      simp [Setter.onOpts, setClientRatio, setServerRatio, setPerServer, checked]
  unfold Setter.run
  split
  · rw [key]; rfl
  · simp only [List.mem_cons, List.not_mem_nil, or_false] at hs
    rcases hs with rfl | rfl | rfl <;> rfl

/-- Ratios and the number of datastores are positive. -/
def Positive (o : Opts) : Prop := 0 < o.clientRatio ∧ 0 < o.serverRatio ∧ 0 < o.perServer

theorem positive_setter (s : Setter) (o : Opts) (r : Opts × Bool) (h : s.onOpts o = .ok r) (hp : Positive o) :
    Positive r.1 := by
  have ch : ∀ {f : Set} {o : Opts}, Positive o → Positive (f o).1 → Positive (checked f o).1 :=
    fun hp hq => checked_inv (P := Positive) hp hq
  have ws : ∀ {t : Option Bytes} {f : Bytes → Set} {r : Opts × Bool}, (∀ t, Positive (f t o).1) →
      withStr t f o = .ok r → Positive r.1 := by
    intro t f r hf hw
    unfold withStr at hw
    split at hw
    · simp only [Out.ok.injEq] at hw; subst hw; exact hp
    · cases t with
      | none => cases hw
      | some t => simp only [Out.ok.injEq] at hw; subst hw; exact hf t
  cases s <;> simp only [Setter.onOpts, Out.ok.injEq] at h <;> try subst h
  case clientRatio n =>
    refine ch hp ?_
    split
    · exact hp
    · exact ⟨by show 0 < n; omega, hp.2.1, hp.2.2⟩
  case serverRatio n =>
    refine ch hp ?_
    split
    · exact hp
    · exact ⟨hp.1, by show 0 < n; omega, hp.2.2⟩
  case perServer n =>
    refine ch hp ?_
    split
    · exact hp
    · exact ⟨hp.1, hp.2.1, by show 0 < n; omega⟩
  case datastoreName a b c =>
    cases h1 : withStr a (fun _ o => (o, true)) o with
    | err => rw [h1] at h; cases h
    | ub => rw [h1] at h; cases h
    | ok q1 =>
      rw [h1, Out.ok_bind] at h
      cases h2 : withStr b (fun _ o => (o, true)) o with
      | err => rw [h2] at h; cases h
      | ub => rw [h2] at h; cases h
      | ok q2 =>
        rw [h2, Out.ok_bind] at h
        exact ws (f := fun c => setDatastoreName (a.getD []) (b.getD []) c) (fun t => ch hp hp) h
  case hashName n =>
    refine ws (f := setHashName) (fun t => ch hp ?_) h
    split <;> exact hp
  case hashFunction n f a =>
    split at h
    · simp only [Out.ok.injEq] at h; subst h; exact hp
    · refine ws (f := fun n => setHashFunction n f a) (fun t => ch hp ?_) h
      split <;> exact hp
  case transportThallium m t =>
    cases m with
    | none => cases h
    | some m => simp only [Out.ok.injEq] at h; subst h; exact ch hp hp
  case genName n =>
    refine ws (f := setGenName) (fun t => ch hp ?_) h
    split <;> exact hp
  case track n =>
    cases n with
    | none => cases h
    | some m => simp only [Out.ok.injEq] at h; subst h; exact ch hp hp
  case addEndpoint i =>
    refine ch hp ?_
    split <;> exact hp
  case genFunction f a =>
    refine ch hp ?_
    split <;> exact hp
  all_goals exact ch hp hp

theorem positive_fill (b : Build) (m : Map) : Inv (fillOptions b m) Positive := by
  have ch : ∀ {f : Set} {o : Opts}, Positive o → Positive (f o).1 → Positive (checked f o).1 :=
    fun hp hq => checked_inv (P := Positive) hp hq
  refine inv_fill ?_ ?_ ?_ ?_ ?_ ?_ ?_ ?_ ?_ ?_ ?_ (Inv.and ?_ (Inv.and ?_ ?_))
  · exact Inv.found fun a _ o hp => ch hp hp
  · refine Inv.found fun a _ o hp => ch hp ?_
    split
    · exact hp
    · exact ⟨by show 0 < a; omega, hp.2.1, hp.2.2⟩
  · refine Inv.found fun a _ o hp => ch hp ?_
    split
    · exact hp
    · exact ⟨hp.1, by show 0 < a; omega, hp.2.2⟩
  · refine Inv.found fun a _ o hp => ch hp ?_
    split
    · exact hp
    · exact ⟨hp.1, hp.2.1, by show 0 < a; omega⟩
  · exact inv_datastore (fun _ _ hp _ => hp) (fun _ _ hp _ => hp) (fun _ _ hp _ => hp) (fun _ _ hp _ _ _ => hp)
  · exact inv_transport (fun _ hp _ => hp) (fun _ _ hp _ _ => hp) (fun _ _ _ hp _ _ _ => hp) (fun _ hp _ => hp)
      (fun _ _ _ hp _ => hp)
  · exact inv_endpoints (fun _ _ hp _ => hp)
  · exact Inv.found fun a _ o hp => ch hp hp
  · exact Inv.found fun a _ o hp => ch hp hp
  · exact Inv.found fun a _ o hp => ch hp hp
  · exact inv_elen (fun _ _ _ _ _ hp _ _ _ _ => hp)
  · exact Inv.found fun a _ o hp => ch hp hp
  · refine Inv.found fun a _ o hp => ch hp ?_
    split <;> exact hp
  · exact inv_histRest (fun _ _ _ hp _ _ => hp) (fun _ _ hp _ => hp)

/-- A session: setters are called and, at some point, it is opened; `none` stands for the latter. -/
def sessionRun (o : Opts) : List (Option Setter) → Out Opts
  | [] => .ok o
  | none :: l => sessionRun { o with running := true } l
  | some s :: l => s.onOpts o >>= fun r => sessionRun r.1 l

/-- Whatever configuration is read, whatever setters are called before and after the session is opened,
the ratios and the number of datastores are positive. -/
theorem C38_positive (b : Build) (sys : Sys) (keys : List Bytes) (n : Nat) (o : Opts) (ok : Bool)
    (h : defaultReader b sys keys (.world (some n)) Opts.new = .ok (o, ok)) (l : List (Option Setter)) (o' : Opts)
    (hl : sessionRun o l = .ok o') : Positive o' := by
  have h0 : Positive o := by
    have e : (setBootstrap (.world (some n)) Opts.new).1 = fresh n := rfl
    unfold defaultReader at h
    simp only [e, C37_defaults, Out.ok_bind, if_true] at h
    cases hf : fillOptions b (sequence sys (defaultReaders keys)) (defaults b n) with
    | err => rw [hf] at h; cases h
    | ub => rw [hf] at h; cases h
    | ok q =>
      rw [hf] at h
      simp only [Out.ok_bind, Out.ok.injEq, Prod.mk.injEq] at h
      rw [← h.1]
      exact positive_fill b _ _ _ hf ⟨(by decide : 0 < 2), (by decide : 0 < 1), (by decide : 0 < 1)⟩
  clear h
  induction l generalizing o with
  | nil => simp only [sessionRun, Out.ok.injEq] at hl; subst hl; exact h0
  | cons s l ih =>
    cases s with
    | none => exact ih { o with running := true } hl h0
    | some s =>
      simp only [sessionRun] at hl
      cases hs : s.onOpts o with
      | err => rw [hs] at hl; cases hl
      | ub => rw [hs] at hl; cases hl
      | ok r =>
        rw [hs, Out.ok_bind] at hl
        exact ih r.1 hl (positive_setter s o r hs h0)

/-- Once the session is open its options stay what they are. -/
theorem C38_frozen (o o' : Opts) (hr : o.running = true) (l : List (Option Setter))
    (hl : sessionRun o l = .ok o') : o' = o := by
  induction l generalizing o with
  | nil => simp only [sessionRun, Out.ok.injEq] at hl; exact hl.symm
  | cons s l ih =>
    cases s with
    | none =>
      have e : ({ o with running := true } : Opts) = o := by
        cases o; simp only at hr; subst hr; rfl
      simp only [sessionRun, e] at hl
      exact ih o hr hl
    | some s =>
      simp only [sessionRun] at hl
      cases hs : s.onOpts o with
      | err => rw [hs] at hl; cases hl
      | ub => rw [hs] at hl; cases hl
      | ok r =>
        have := C38_open_refused s o hr (some (some r.1), r.2) (by simp [Setter.run, hs])
        simp only [Prod.mk.injEq, Option.some.injEq] at this
        rw [hs, Out.ok_bind, this.1] at hl
        exact ih o hr hl

/-- Zero operations per request are accepted, though no operation can be queued then (`C27_zero_ops_ub`):
`hxhim_set_maximum_ops_per_request` does not look at the count. -/
theorem C38_zero_ops_false (o : Opts) (hr : o.running = false) :
    (Setter.maxOps 0).run (some (some o)) = .ok (some (some { o with maxOps := 0 }), true) := by
  simp [Setter.run, Setter.onOpts, setMaxOps, checked, hr]

example : Setter.run (.clientRatio 7) (some (some { Opts.new with running := true, clientRatio := 3 })) =
    .ok (some (some { Opts.new with running := true, clientRatio := 3 }), false) := rfl

example : sessionRun (defaults ⟨true, true, true⟩ 2) [some (.clientRatio 7), some (.perServer 0), none, some (.serverRatio 9)] =
    .ok { defaults ⟨true, true, true⟩ 2 with running := true, clientRatio := 7 } := rfl

/-- Null strings are not checked: undefined behaviour on a session that is not open, for two setters on
any session. -/
theorem C38_null_strings_ub (o : Opts) (a b c : Option Bytes) (f args : Nat) (threads : Int) :
    (o.running = false → (a = none ∨ b = none ∨ c = none → (Setter.datastoreName a b c).onOpts o = .ub) ∧
      (Setter.hashName none).onOpts o = .ub ∧ (f ≠ 0 → (Setter.hashFunction none f args).onOpts o = .ub) ∧
      (Setter.genName none).onOpts o = .ub) ∧
    (Setter.transportThallium none threads).onOpts o = .ub ∧ (Setter.track none).onOpts o = .ub := by
  refine ⟨fun hr => ⟨?_, ?_, ?_, ?_⟩, rfl, rfl⟩
  · rintro (rfl | rfl | rfl)
    · simp [Setter.onOpts, withStr, hr]
    · cases a <;> simp [Setter.onOpts, withStr, hr]
    · cases a <;> cases b <;> simp [Setter.onOpts, withStr, hr]
  · simp [Setter.onOpts, withStr, hr]
  · intro h; simp [Setter.onOpts, withStr, hr, h]
  · simp [Setter.onOpts, withStr, hr]

end Hx.Props

import Verif.Spec.Setters
import Verif.Props.C38_Setters

/-!
# C58: setters change the option they are for, and nothing else
-/

namespace Hx.Props
open Hx Hx.Config Hx.Spec.Config Hx.Spec.Setters

private theorem lookup_hash (name : Bytes) (k : Hash.Kind) : hashes.lookup name = some k ↔ NamedHash name k := by
  unfold NamedHash
  constructor
  · intro h
    unfold hashes at h
    simp only [List.lookup_cons] at h
    repeat' split at h
    all_goals first | cases h | skip
    all_goals simp_all
  · rintro (⟨rfl, rfl⟩ | ⟨rfl, rfl⟩ | ⟨rfl, rfl⟩ | ⟨rfl, rfl⟩ | ⟨rfl, rfl⟩ | ⟨rfl, rfl⟩ | ⟨rfl, rfl⟩ | ⟨rfl, rfl⟩ | ⟨rfl, rfl⟩) <;> decide

private theorem lookup_generator (name : Bytes) (g : GenFn) (a : Nat) : generators.lookup name = some (g, a) ↔ NamedGenerator name g a := by
  unfold NamedGenerator
  constructor
  · intro h
    unfold generators at h
    simp only [List.lookup_cons] at h
    repeat' split at h
    all_goals first | cases h | skip
    all_goals simp_all
  · rintro (⟨rfl, rfl, rfl⟩ | ⟨rfl, rfl, rfl⟩ | ⟨rfl, rfl, rfl⟩ | ⟨rfl, rfl, rfl⟩ | ⟨rfl, rfl, rfl⟩ | ⟨rfl, rfl, rfl⟩ | ⟨rfl, rfl, rfl⟩) <;> decide

private theorem mem_insertSet {α : Type} [BEq α] [LawfulBEq α] (x y : α) (l : List α) : y ∈ insertSet x l ↔ y = x ∨ y ∈ l := by
  unfold insertSet
  split
  · rename_i h
    have : x ∈ l := by simpa using h
    constructor
    · exact Or.inr
    · rintro (rfl | h)
      · exact this
      · exact h
  · rw [List.mem_append, List.mem_singleton]; exact Or.comm

private theorem lookup_emplace (l : List (Nat × Nat × Nat)) (key fn extra x : Nat) (h : l.lookup key = none) :
    (emplace l key fn extra).lookup x = if x = key then some (fn, extra) else l.lookup x := by
  unfold emplace
  rw [h]
  simp only [Option.isSome_none, Bool.false_eq_true, if_false, List.lookup_append]
  by_cases hx : x = key
  · subst hx
    simp [h]
  · have : (x == key) = false := by simpa using hx
    simp [hx, List.lookup_cons, this]

/-- C58, partial: a call on a session that is not open. It succeeds if and only if it asks for something;
then the option has the value that was asked for, and otherwise nothing changes. All other options stay
what they are. Missing: a second function for the same type (`C58_transform_false`), and the null
communicator (`C58_bootstrap_false`). -/
theorem C58_sets_partial (s : Setter) (o o' : Opts) (ok : Bool) (hr : o.running = false) (h : s.onOpts o = .ok (o', ok)) :
    (ok = true ↔ ∃ v, Asks s o v) ∧
    (ok = true → (∀ t e ee d de, s = .transform t e ee d de → (Setting.transforms.read o).1 t = none ∧ (Setting.transforms.read o).2 t = none) →
      Asks s o ((subject s).read o')) ∧
    (∀ k, k ≠ subject s → k.read o' = k.read o) ∧
    (ok = false → s ≠ .bootstrap .null → o' = o) ∧ o'.running = false := by
  cases s
  case transform t e ee d de =>
    simp only [Setter.onOpts, setTransform, checked, hr, Bool.false_eq_true, if_false, Out.ok.injEq, Prod.mk.injEq] at h
    obtain ⟨rfl, rfl⟩ := h
    refine ⟨⟨fun _ => ⟨_, rfl⟩, fun _ => rfl⟩, fun _ hn => ?_, ?_, by simp, by first | exact hr | rfl⟩
    · obtain ⟨h1, h2⟩ := hn _ _ _ _ _ rfl
      exact Prod.ext (funext fun x => lookup_emplace _ _ _ _ _ h1) (funext fun x => lookup_emplace _ _ _ _ _ h2)
    · intro k hk
      cases k <;> first | rfl | exact absurd rfl hk
  case hashName n =>
    simp only [Setter.onOpts, withStr, setHashName, checked, hr, Bool.false_eq_true, if_false] at h
    cases n with
    | none => cases h
    | some n =>
      simp only [Out.ok.injEq] at h
      cases e : hashes.lookup n with
      | none =>
        rw [e] at h
        cases h
        refine ⟨⟨by simp, ?_⟩, by simp, fun _ _ => rfl, fun _ _ => rfl, by first | exact hr | rfl⟩
        rintro ⟨v, h1, k, h2, -⟩
        rw [← Option.some.inj h1] at h2
        rw [(lookup_hash _ _).mpr h2] at e
        cases e
      | some k =>
        rw [e] at h
        cases h
        have : Asks (.hashName (some n)) o (n, some (.builtin k), 0) := ⟨rfl, k, (lookup_hash _ _).mp e, rfl⟩
        refine ⟨⟨fun _ => ⟨_, this⟩, fun _ => rfl⟩, fun _ _ => this, ?_, by simp, by first | exact hr | rfl⟩
        intro k hk
        cases k <;> first | rfl | exact absurd rfl hk
  case genName n =>
    simp only [Setter.onOpts, withStr, setGenName, checked, hr, Bool.false_eq_true, if_false] at h
    cases n with
    | none => cases h
    | some n =>
      simp only [Out.ok.injEq] at h
      cases e : generators.lookup n with
      | none =>
        rw [e] at h
        cases h
        refine ⟨⟨by simp, ?_⟩, by simp, fun _ _ => rfl, fun _ _ => rfl, by first | exact hr | rfl⟩
        rintro ⟨v, name, g, a, h1, h2, -⟩
        cases h1
        rw [(lookup_generator _ _ _).mpr h2] at e
        cases e
      | some k =>
        rw [e] at h
        cases h
        have : Asks (.genName (some n)) o (some k.1, k.2) := ⟨n, k.1, k.2, rfl, (lookup_generator _ _ _).mp e, rfl⟩
        refine ⟨⟨fun _ => ⟨_, this⟩, fun _ => rfl⟩, fun _ _ => this, ?_, by simp, by first | exact hr | rfl⟩
        intro k hk
        cases k <;> first | rfl | exact absurd rfl hk
  case datastoreName a b c =>
    cases a <;> cases b <;> cases c <;> simp only [Setter.onOpts, withStr, hr, Bool.false_eq_true, if_false] at h <;> try cases h
    rename_i a b c
    simp only [Out.ok_bind, setDatastoreName, checked, hr, Bool.false_eq_true, if_false, Option.getD_some, Out.ok.injEq, Prod.mk.injEq] at h
    obtain ⟨rfl, rfl⟩ := h
    refine ⟨⟨fun _ => ⟨(a, b, c), rfl, rfl, rfl⟩, fun _ => rfl⟩, fun _ _ => ⟨rfl, rfl, rfl⟩, ?_, by simp, by first | exact hr | rfl⟩
    intro k hk
    cases k <;> first | rfl | exact absurd rfl hk
  case hashFunction n f a =>
    by_cases hf : f = 0
    · simp only [Setter.onOpts, hf, if_true, Out.ok.injEq, Prod.mk.injEq] at h
      obtain ⟨rfl, rfl⟩ := h
      exact ⟨⟨by simp, fun ⟨v, h1, _⟩ => absurd hf h1⟩, by simp, fun _ _ => rfl, fun _ _ => rfl, by first | exact hr | rfl⟩
    · cases n with
      | none => simp [Setter.onOpts, hf, withStr, hr] at h
      | some n =>
        simp only [Setter.onOpts, hf, withStr, setHashFunction, checked, hr, Bool.false_eq_true, if_false, Out.ok.injEq, Prod.mk.injEq] at h
        obtain ⟨rfl, rfl⟩ := h
        refine ⟨⟨fun _ => ⟨(n, some (.user f), a), hf, rfl, rfl⟩, fun _ => rfl⟩, fun _ _ => ⟨hf, rfl, rfl⟩, ?_, by simp, by first | exact hr | rfl⟩
        intro k hk
        cases k <;> first | rfl | exact absurd rfl hk
  case genFunction f a =>
    simp only [Setter.onOpts, setGenFunction, checked, hr, Bool.false_eq_true, if_false, Out.ok.injEq] at h
    by_cases hf : f = 0
    · simp only [hf, if_true, Prod.mk.injEq] at h
      obtain ⟨rfl, rfl⟩ := h
      exact ⟨⟨by simp, fun ⟨v, h1, _⟩ => absurd hf h1⟩, by simp, fun _ _ => rfl, fun _ _ => rfl, by first | exact hr | rfl⟩
    · simp only [hf, if_false, Prod.mk.injEq] at h
      obtain ⟨rfl, rfl⟩ := h
      refine ⟨⟨fun _ => ⟨_, hf, rfl⟩, fun _ => rfl⟩, fun _ _ => ⟨hf, rfl⟩, ?_, by simp, by first | exact hr | rfl⟩
      intro k hk
      cases k <;> first | rfl | exact absurd rfl hk
  case transportThallium m t =>
    cases m with
    | none => cases h
    | some m =>
      simp only [Setter.onOpts, setTransport, checked, hr, Bool.false_eq_true, if_false, Out.ok.injEq, Prod.mk.injEq] at h
      obtain ⟨rfl, rfl⟩ := h
      refine ⟨⟨fun _ => ⟨_, m, rfl, rfl⟩, fun _ => rfl⟩, fun _ _ => ⟨m, rfl, rfl⟩, ?_, by simp, by first | exact hr | rfl⟩
      intro k hk
      cases k <;> first | rfl | exact absurd rfl hk
  case track n =>
    cases n with
    | none => cases h
    | some n =>
      simp only [Setter.onOpts, addTracked, checked, hr, Bool.false_eq_true, if_false, Out.ok.injEq, Prod.mk.injEq] at h
      obtain ⟨rfl, rfl⟩ := h
      refine ⟨⟨fun _ => ⟨_, n, rfl, rfl⟩, fun _ => rfl⟩, fun _ _ => ⟨n, rfl, ?_⟩, ?_, by simp, by first | exact hr | rfl⟩
      · exact funext fun x => propext (mem_insertSet _ _ _)
      · intro k hk
        cases k <;> first | rfl | exact absurd rfl hk
  case addEndpoint i =>
    simp only [Setter.onOpts, Config.addEndpoint, checked, hr, Bool.false_eq_true, if_false, Out.ok.injEq] at h
    by_cases hi : i < 0
    · simp only [hi, if_true, Prod.mk.injEq] at h
      obtain ⟨rfl, rfl⟩ := h
      exact ⟨⟨by simp, fun ⟨v, h1, _⟩ => absurd h1 (by omega)⟩, by simp, fun _ _ => rfl, fun _ _ => rfl, by first | exact hr | rfl⟩
    · simp only [hi, if_false, Prod.mk.injEq] at h
      obtain ⟨rfl, rfl⟩ := h
      refine ⟨⟨fun _ => ⟨_, by omega, rfl⟩, fun _ => rfl⟩, fun _ _ => ⟨by omega, ?_⟩, ?_, by simp, by first | exact hr | rfl⟩
      · exact funext fun x => propext (mem_insertSet _ _ _)
      · intro k hk
        cases k <;> first | rfl | exact absurd rfl hk
  case clearEndpoints =>
    simp only [Setter.onOpts, Config.clearEndpoints, checked, hr, Bool.false_eq_true, if_false, Out.ok.injEq, Prod.mk.injEq] at h
    obtain ⟨rfl, rfl⟩ := h
    refine ⟨⟨fun _ => ⟨_, rfl⟩, fun _ => rfl⟩, fun _ _ => ?_, ?_, by simp, by first | exact hr | rfl⟩
    · exact funext fun x => propext ⟨fun h => (List.not_mem_nil h).elim, False.elim⟩
    · intro k hk
      cases k <;> first | rfl | exact absurd rfl hk
  case bootstrap c =>
    simp only [Setter.onOpts, setBootstrap, checked, hr, Bool.false_eq_true, if_false, Out.ok.injEq, Prod.mk.injEq] at h
    obtain ⟨rfl, rfl⟩ := h
    refine ⟨⟨fun hc => ⟨c, by simpa using hc, rfl⟩, fun ⟨v, hc, _⟩ => by simpa using hc⟩, fun hc _ => ⟨by simpa using hc, rfl⟩, ?_, ?_, by first | exact hr | rfl⟩
    · intro k hk
      cases k <;> first | rfl | exact absurd rfl hk
    · intro hc hn
      have : c = .null := by simpa using hc
      exact absurd (by rw [this]) hn
  case openInit i =>
    simp only [Setter.onOpts, setOpenInit, checked, hr, Bool.false_eq_true, if_false, Out.ok.injEq, Prod.mk.injEq] at h
    obtain ⟨rfl, rfl⟩ := h
    refine ⟨⟨fun _ => ⟨_, rfl⟩, fun _ => rfl⟩, fun _ _ => ?_, ?_, by simp, by first | exact hr | rfl⟩
    · show (i != 0) = decide (i ≠ 0)
      by_cases hi : i = 0 <;> simp [hi]
    · intro k hk
      cases k <;> first | rfl | exact absurd rfl hk
  case asyncAt n =>
    simp only [Setter.onOpts, setAsyncAt, checked, hr, Bool.false_eq_true, if_false, Out.ok.injEq, Prod.mk.injEq] at h
    obtain ⟨rfl, rfl⟩ := h
    refine ⟨⟨fun _ => ⟨_, rfl⟩, fun _ => rfl⟩, fun _ _ => ?_, ?_, by simp, by first | exact hr | rfl⟩
    · show ((n != 0), n) = (decide (n ≠ 0), n)
      by_cases hi : n = 0 <;> simp [hi]
    · intro k hk
      cases k <;> first | rfl | exact absurd rfl hk
  case clientRatio n =>
    simp only [Setter.onOpts, setClientRatio, checked, hr, Bool.false_eq_true, if_false, Out.ok.injEq] at h
    by_cases hn : n < 1
    · simp only [hn, if_true, Prod.mk.injEq] at h
      obtain ⟨rfl, rfl⟩ := h
      exact ⟨⟨by simp, fun ⟨v, h1, _⟩ => absurd h1 (by omega)⟩, by simp, fun _ _ => rfl, fun _ _ => rfl, by first | exact hr | rfl⟩
    · simp only [hn, if_false, Prod.mk.injEq] at h
      obtain ⟨rfl, rfl⟩ := h
      refine ⟨⟨fun _ => ⟨_, by omega, rfl⟩, fun _ => rfl⟩, fun _ _ => ⟨by omega, rfl⟩, ?_, by simp, by first | exact hr | rfl⟩
      intro k hk
      cases k <;> first | rfl | exact absurd rfl hk
  case serverRatio n =>
    simp only [Setter.onOpts, setServerRatio, checked, hr, Bool.false_eq_true, if_false, Out.ok.injEq] at h
    by_cases hn : n < 1
    · simp only [hn, if_true, Prod.mk.injEq] at h
      obtain ⟨rfl, rfl⟩ := h
      exact ⟨⟨by simp, fun ⟨v, h1, _⟩ => absurd h1 (by omega)⟩, by simp, fun _ _ => rfl, fun _ _ => rfl, by first | exact hr | rfl⟩
    · simp only [hn, if_false, Prod.mk.injEq] at h
      obtain ⟨rfl, rfl⟩ := h
      refine ⟨⟨fun _ => ⟨_, by omega, rfl⟩, fun _ => rfl⟩, fun _ _ => ⟨by omega, rfl⟩, ?_, by simp, by first | exact hr | rfl⟩
      intro k hk
      cases k <;> first | rfl | exact absurd rfl hk
  case perServer n =>
    simp only [Setter.onOpts, setPerServer, checked, hr, Bool.false_eq_true, if_false, Out.ok.injEq] at h
    by_cases hn : n = 0
    · simp only [hn, if_true, Prod.mk.injEq] at h
      obtain ⟨rfl, rfl⟩ := h
      exact ⟨⟨by simp, fun ⟨v, h1, _⟩ => absurd hn h1⟩, by simp, fun _ _ => rfl, fun _ _ => rfl, by first | exact hr | rfl⟩
    · simp only [hn, if_false, Prod.mk.injEq] at h
      obtain ⟨rfl, rfl⟩ := h
      refine ⟨⟨fun _ => ⟨_, hn, rfl⟩, fun _ => rfl⟩, fun _ _ => ⟨hn, rfl⟩, ?_, by simp, by first | exact hr | rfl⟩
      intro k hk
      cases k <;> first | rfl | exact absurd rfl hk
  all_goals
    simp only [Setter.onOpts, setDebugLevel, setHistograms, setDatastore, setNumeric, setTransport, setTransportMPI, setMaxOps, setMaxSize, setFirstN,
      checked, hr, Bool.false_eq_true, if_false, Out.ok.injEq, Prod.mk.injEq] at h
    obtain ⟨rfl, rfl⟩ := h
    refine ⟨⟨fun _ => ⟨_, rfl⟩, fun _ => rfl⟩, fun _ _ => rfl, ?_, by simp, by first | exact hr | rfl⟩
    intro k hk
    cases k <;> first | rfl | exact absurd rfl hk

/-- C58: calls with all their strings return, on every session that is not open. -/
theorem C58_defined (s : Setter) (o : Opts)
    (h : (∀ a b c, s = .datastoreName a b c → a ≠ none ∧ b ≠ none ∧ c ≠ none) ∧ s ≠ .hashName none ∧ (∀ f a, s ≠ .hashFunction none f a) ∧
      (∀ t, s ≠ .transportThallium none t) ∧ s ≠ .genName none ∧ s ≠ .track none) : ∃ o' ok, s.onOpts o = .ok (o', ok) := by
  obtain ⟨h1, h2, h3, h4, h5, h6⟩ := h
  have ws : ∀ {t : Option Bytes} {f : Bytes → Set}, t ≠ none → ∃ o' ok, withStr t f o = .ok (o', ok) := by
    intro t f ht
    unfold withStr
    split
    · exact ⟨_, _, rfl⟩
    · cases t with
      | none => exact absurd rfl ht
      | some t => exact ⟨_, _, rfl⟩
  cases s
  case datastoreName a b c =>
    obtain ⟨ha, hb, hc⟩ := h1 a b c rfl
    obtain ⟨_, _, e1⟩ := ws (t := a) (f := fun _ o => (o, true)) ha
    obtain ⟨_, _, e2⟩ := ws (t := b) (f := fun _ o => (o, true)) hb
    simp only [Setter.onOpts, e1, e2, Out.ok_bind]
    exact ws hc
  case hashName n => exact ws (fun h => h2 (by rw [h]))
  case genName n => exact ws (fun h => h5 (by rw [h]))
  case hashFunction n f a =>
    simp only [Setter.onOpts]
    split
    · exact ⟨_, _, rfl⟩
    · exact ws (fun h => h3 f a (by rw [h]))
  case transportThallium m t =>
    cases m with
    | none => exact absurd rfl (h4 t)
    | some m => exact ⟨_, _, rfl⟩
  case track n =>
    cases n with
    | none => exact absurd rfl h6
    | some n => exact ⟨_, _, rfl⟩
  all_goals exact ⟨_, _, rfl⟩

private theorem run_cons {o o' : Opts} {s : Setter} {l : List Setter} (h : sessionRun o ((s :: l).map some) = .ok o') :
    ∃ o₁ ok, s.onOpts o = .ok (o₁, ok) ∧ sessionRun o₁ (l.map some) = .ok o' := by
  simp only [List.map_cons, sessionRun] at h
  obtain ⟨r, h1, h2⟩ := Queue.bind_ok h
  exact ⟨r.1, r.2, h1, h2⟩

/-- C58, partial: after any calls on a session that is not open, every option is what the last call for it
asked for that asks for something, or what it was before. Missing: as `C58_sets_partial`. -/
theorem C58_last_partial (l : List Setter) (o o' : Opts) (hr : o.running = false) (hl : sessionRun o (l.map some) = .ok o')
    (hnull : Setter.bootstrap .null ∉ l) (k : Setting) (hk : k ≠ .transforms) :
    (∃ pre s post o₁, l = pre ++ s :: post ∧ sessionRun o (pre.map some) = .ok o₁ ∧ subject s = k ∧ Asks s o₁ ((subject s).read o') ∧
      ∀ y ∈ post, subject y = k → ∀ u v, ¬ Asks y u v) ∨
    ((∀ y ∈ l, subject y = k → ∀ u v, ¬ Asks y u v) ∧ k.read o' = k.read o) := by
  have indep : ∀ (s : Setter) (o₁ o₂ : Opts), (∃ v, Asks s o₁ v) → ∃ v, Asks s o₂ v := by
    intro s o₁ o₂ ⟨v, hv⟩
    cases s
    case transform => exact ⟨_, rfl⟩
    case transportMPI => exact ⟨_, rfl⟩
    case addEndpoint => exact ⟨_, hv.1, rfl⟩
    case track =>
      obtain ⟨n, h1, -⟩ := hv
      exact ⟨_, n, h1, rfl⟩
    all_goals exact ⟨v, hv⟩
  induction l generalizing o with
  | nil =>
    simp only [List.map_nil, sessionRun, Out.ok.injEq] at hl
    subst hl
    exact Or.inr ⟨by simp, rfl⟩
  | cons s l ih =>
    obtain ⟨o₁, ok, h1, h2⟩ := run_cons hl
    simp only [List.mem_cons, not_or] at hnull
    obtain ⟨c1, c2, c3, c4, c5⟩ := C58_sets_partial s o o₁ ok hr h1
    rcases ih o₁ c5 h2 hnull.2 with ⟨pre, x, post, o₂, e1, e2, e3⟩ | ⟨e1, e2⟩
    · refine Or.inl ⟨s :: pre, x, post, o₂, by rw [e1]; rfl, ?_, e3⟩
      simp only [List.map_cons, sessionRun, h1, Out.ok_bind]
      exact e2
    · by_cases hs : subject s = k
      · cases ok with
        | true =>
          refine Or.inl ⟨[], s, l, o, rfl, rfl, hs, ?_, e1⟩
          subst hs
          rw [e2]
          refine c2 rfl ?_
          rintro t e ee d de rfl
          exact absurd rfl hk
        | false =>
          refine Or.inr ⟨?_, by rw [e2, c4 rfl (Ne.symm hnull.1)]⟩
          intro y hy
          rcases List.mem_cons.mp hy with rfl | hy
          · intro _ u v huv
            exact absurd (c1.mpr (indep _ u o ⟨v, huv⟩)) (by simp)
          · exact e1 y hy
      · refine Or.inr ⟨?_, by rw [e2, c3 k (Ne.symm hs)]⟩
        intro y hy
        rcases List.mem_cons.mp hy with rfl | hy
        · exact fun h => absurd h hs
        · exact e1 y hy

/-- C58: the endpoint group has the ranks that were added and not removed again. -/
theorem C58_endpoints (l : List Setter) (o o' : Opts) (hr : o.running = false) (hl : sessionRun o (l.map some) = .ok o') (i : Int) :
    i ∈ o'.endpoints ↔ (∃ pre post, l = pre ++ .addEndpoint i :: post ∧ 0 ≤ i ∧ Setter.clearEndpoints ∉ post) ∨
      (i ∈ o.endpoints ∧ Setter.clearEndpoints ∉ l) := by
  induction l generalizing o with
  | nil =>
    simp only [List.map_nil, sessionRun, Out.ok.injEq] at hl
    subst hl
    simp
  | cons s l ih =>
    obtain ⟨o₁, ok, h1, h2⟩ := run_cons hl
    obtain ⟨-, -, c3, -, c5⟩ := C58_sets_partial s o o₁ ok hr h1
    rw [ih o₁ c5 h2]
    have hfront : (∃ pre post, s :: l = pre ++ .addEndpoint i :: post ∧ 0 ≤ i ∧ Setter.clearEndpoints ∉ post) ↔
        (s = .addEndpoint i ∧ 0 ≤ i ∧ Setter.clearEndpoints ∉ l) ∨
        ∃ pre post, l = pre ++ .addEndpoint i :: post ∧ 0 ≤ i ∧ Setter.clearEndpoints ∉ post := by
      constructor
      · rintro ⟨pre, post, e, h3, h4⟩
        cases pre with
        | nil => cases e; exact Or.inl ⟨rfl, h3, h4⟩
        | cons x pre => cases e; exact Or.inr ⟨pre, post, rfl, h3, h4⟩
      · rintro (⟨rfl, h3, h4⟩ | ⟨pre, post, e, h3, h4⟩)
        · exact ⟨[], l, rfl, h3, h4⟩
        · exact ⟨s :: pre, post, by rw [e]; rfl, h3, h4⟩
    rw [hfront]
    have hmem : i ∈ o₁.endpoints ↔ (s = .addEndpoint i ∧ 0 ≤ i) ∨ (i ∈ o.endpoints ∧ s ≠ .clearEndpoints) := by
      by_cases ha : ∃ j, s = .addEndpoint j
      · obtain ⟨j, rfl⟩ := ha
        simp only [Setter.onOpts, Config.addEndpoint, checked, hr, Bool.false_eq_true, if_false, Out.ok.injEq] at h1
        by_cases hj : j < 0
        · rw [if_pos hj, Prod.mk.injEq] at h1
          rw [← h1.1]
          constructor
          · exact fun h => Or.inr ⟨h, by simp⟩
          · rintro (⟨h, h'⟩ | ⟨h, -⟩)
            · cases h; omega
            · exact h
        · rw [if_neg hj, Prod.mk.injEq] at h1
          rw [← h1.1]
          simp only [mem_insertSet, Setter.addEndpoint.injEq]
          constructor
          · rintro (rfl | h)
            · exact Or.inl ⟨rfl, by omega⟩
            · exact Or.inr ⟨h, by simp⟩
          · rintro (⟨rfl, -⟩ | ⟨h, -⟩)
            · exact Or.inl rfl
            · exact Or.inr h
      · by_cases hc : s = .clearEndpoints
        · subst hc
          simp only [Setter.onOpts, Config.clearEndpoints, checked, hr, Bool.false_eq_true, if_false, Out.ok.injEq, Prod.mk.injEq] at h1
          rw [← h1.1]
          simp
        · have hs : Setting.endpoints ≠ subject s := by
            intro h
            cases s <;> first | (cases h; done) | exact hc rfl | exact ha ⟨_, rfl⟩
          have := congrFun (c3 .endpoints hs) i
          simp only [Setting.read] at this
          rw [show (i ∈ o₁.endpoints) = (i ∈ o.endpoints) from this]
          constructor
          · exact fun h => Or.inr ⟨h, hc⟩
          · rintro (⟨h, -⟩ | ⟨h, -⟩)
            · exact absurd ⟨i, h⟩ ha
            · exact h
    rw [hmem]
    simp only [List.mem_cons, not_or]
    constructor
    · rintro (h | ⟨⟨h, h'⟩ | ⟨h, h'⟩, h''⟩)
      · exact Or.inl (Or.inr h)
      · exact Or.inl (Or.inl ⟨h, h', h''⟩)
      · exact Or.inr ⟨h, Ne.symm h', h''⟩
    · rintro ((⟨h, h', h''⟩ | h) | ⟨h, h', h''⟩)
      · exact Or.inr ⟨Or.inl ⟨h, h'⟩, h''⟩
      · exact Or.inl h
      · exact Or.inr ⟨Or.inr ⟨h, Ne.symm h'⟩, h''⟩

/-- C58: the predicates with histograms are those that were added. -/
theorem C58_tracked (l : List Setter) (o o' : Opts) (hr : o.running = false) (hl : sessionRun o (l.map some) = .ok o') (n : Bytes) :
    n ∈ o'.histNames ↔ Setter.track (some n) ∈ l ∨ n ∈ o.histNames := by
  induction l generalizing o with
  | nil =>
    simp only [List.map_nil, sessionRun, Out.ok.injEq] at hl
    subst hl
    simp
  | cons s l ih =>
    obtain ⟨o₁, ok, h1, h2⟩ := run_cons hl
    obtain ⟨-, -, c3, -, c5⟩ := C58_sets_partial s o o₁ ok hr h1
    rw [ih o₁ c5 h2, List.mem_cons]
    by_cases ha : subject s = .tracked
    · obtain ⟨m, rfl⟩ : ∃ m, s = .track m := by cases s <;> first | exact ⟨_, rfl⟩ | cases ha
      cases m with
      | none => cases h1
      | some m =>
        simp only [Setter.onOpts, addTracked, checked, hr, Bool.false_eq_true, if_false, Out.ok.injEq, Prod.mk.injEq] at h1
        rw [← h1.1]
        simp only [mem_insertSet, Setter.track.injEq, Option.some.injEq]
        constructor
        · rintro (h | h | h)
          · exact Or.inl (Or.inr h)
          · exact Or.inl (Or.inl h)
          · exact Or.inr h
        · rintro ((h | h) | h)
          · exact Or.inr (Or.inl h)
          · exact Or.inl h
          · exact Or.inr (Or.inr h)
    · rw [show (n ∈ o₁.histNames) = (n ∈ o.histNames) from congrFun (c3 .tracked (Ne.symm ha)) n]
      constructor
      · rintro (h | h)
        · exact Or.inl (Or.inr h)
        · exact Or.inr h
      · rintro ((h | h) | h)
        · exact absurd (by rw [← h]; rfl) ha
        · exact Or.inl h
        · exact Or.inr h

/-- C58 is false for the functions of a type: the second pair is dropped, though the call succeeds. -/
theorem C58_transform_false (o : Opts) (hr : o.running = false) (t : Nat) (f g : Nat × Nat) (h1 : (Setting.transforms.read o).1 t = some f)
    (h2 : (Setting.transforms.read o).2 t = some g) (e ee d de : Nat) : (Setter.transform t e ee d de).onOpts o = .ok (o, true) := by
  have h1 : o.encode.lookup t = some f := h1
  have h2 : o.decode.lookup t = some g := h2
  simp only [Setter.onOpts, setTransform, checked, hr, emplace, h1, h2, Option.isSome_some, if_true, Bool.false_eq_true, if_false]
  cases o; cases hr; rfl

/-- C58 is false for the null communicator: the call fails, and the communicator that was set before is
lost. -/
theorem C58_bootstrap_false (o : Opts) (hr : o.running = false) (n : Option Nat) (hc : Setting.communicator.read o = .world n) :
    ∃ o', (Setter.bootstrap .null).onOpts o = .ok (o', false) ∧ Setting.communicator.read o' = .null ∧
      Setting.communicator.read o' ≠ Setting.communicator.read o := by
  refine ⟨{ o with comm := .null }, by simp [Setter.onOpts, setBootstrap, checked, hr], rfl, ?_⟩
  rw [hc]
  intro h
  cases h

/-- C58: the MPI transport keeps the communicator of the time it was chosen. The same two calls in the
other order give a session that talks to other ranks than its options say. -/
theorem C58_mpi_communicator_false (o : Opts) (hr : o.running = false) (c : Comm) (n : Nat) (hc : o.comm ≠ c) :
    ∃ o₁ o₂, sessionRun o [some (.bootstrap c), some (.transportMPI n)] = .ok o₁ ∧
      sessionRun o [some (.transportMPI n), some (.bootstrap c)] = .ok o₂ ∧
      Setting.communicator.read o₁ = c ∧ Setting.communicator.read o₂ = c ∧
      Setting.transport.read o₁ = some (.mpi c n) ∧ Setting.transport.read o₂ ≠ some (.mpi c n) := by
  refine ⟨{ o with comm := c, transport := some (.mpi c n) }, { o with transport := some (.mpi o.comm n), comm := c }, ?_, ?_, rfl, rfl, rfl, ?_⟩
  · simp [sessionRun, Setter.onOpts, setBootstrap, setTransportMPI, setTransport, checked, hr]
  · simp [sessionRun, Setter.onOpts, setBootstrap, setTransportMPI, setTransport, checked, hr]
  · intro h
    exact hc (TransportCfg.mpi.inj (Option.some.inj h)).1

/-! ## Examples -/

/-- Two calls for one option, of which the second is refused, and one for another. -/
example : ∃ o', sessionRun (defaults ⟨true, true, true⟩ 2) ([Setter.clientRatio 7, .maxOps 3, .clientRatio 0].map some) = .ok o' ∧
    Setting.clientRatio.read o' = (7 : Nat) ∧ Setting.maxOps.read o' = (3 : Nat) ∧ Setting.maxSize.read o' = Setting.maxSize.read (defaults ⟨true, true, true⟩ 2) :=
  ⟨_, rfl, rfl, rfl, rfl⟩

/-- Endpoints are removed and added. -/
example : ∃ o', sessionRun (defaults ⟨true, true, true⟩ 2) ([Setter.addEndpoint 5, .clearEndpoints, .addEndpoint 1, .addEndpoint (-1), .addEndpoint 1].map some) = .ok o' ∧
    o'.endpoints = [1] := ⟨_, rfl, rfl⟩

/-- A session with functions for a type. -/
example : ∃ o', (Setter.transform 3 10 0 11 0).onOpts (defaults ⟨true, true, true⟩ 2) = .ok (o', true) ∧
    (Setting.transforms.read o').1 3 = some (10, 0) ∧ (Setting.transforms.read o').2 3 = some (11, 0) ∧ o'.running = false :=
  ⟨_, rfl, rfl, rfl, rfl⟩

/-- The default communicator is not null. -/
example : Setting.communicator.read (defaults ⟨true, true, true⟩ 2) = .world (some 2) := rfl

end Hx.Props

import Verif.Proofs.Options
import Verif.Props.C36_Config

/-!
# C37: options set by a configuration
-/

namespace Hx.Props
open Hx Hx.Config Hx.Spec.Config

/-- The documented default of an option. -/
def documented (b : Build) : Key → Option Bytes
  | .debugLevel => some (str "CRITICAL")
  | .clientRatio => some (str "2")
  | .serverRatio => some (str "1")
  | .perServer => some (str "1")
  | .datastore => some (str (if b.leveldb then "LEVELDB" else if b.rocksdb then "ROCKSDB" else "IN_MEMORY"))
  | .prefix => some (str ".")
  | .basename => some (str "hxhim")
  | .postfix => some (str "")
  | .levelCreate => if b.leveldb then some (str "true") else none
  | .rocksCreate => if !b.leveldb && b.rocksdb then some (str "true") else none
  | .hash => some (str "RANK_MOD_DATASTORES")
  | .transport => some (str "NULL")
  | .listeners => none
  | .module => none
  | .threads => none
  | .endpoints => some (str "ALL")
  | .asyncAt => some (str "0")
  | .maxOps => some (str "128")
  | .maxSize => some (str "1048576")
  | .firstN => some (str "10")
  | .genName => some (str "10_BUCKETS")
  | .track => none
  | .histRead => some (str "true")
  | .histWrite => some (str "true")
  | .neg => some (List.replicate 47 1)
  | .pos => none
  | .floatPrec => some (str "8")
  | .doublePrec => some (str "16")

/-- C37: what the default configuration has for every option. -/
theorem C37_default_config (b : Build) (K : Key) : Map.ofList (defaultConfig b) K.name = documented b K := by
  have key : ∀ l r t : Bool, ([Key.debugLevel, .clientRatio, .serverRatio, .perServer, .datastore, .prefix, .basename, .postfix,
      .levelCreate, .rocksCreate, .hash, .transport, .listeners, .module, .threads, .endpoints, .asyncAt, .maxOps, .maxSize, .firstN,
      .genName, .track, .histRead, .histWrite, .neg, .pos, .floatPrec, .doublePrec].all fun K =>
      Map.ofList (defaultConfig ⟨l, r, t⟩) K.name == documented ⟨l, r, t⟩ K) = true := by decide +kernel
  have := List.all_eq_true.mp (key b.leveldb b.rocksdb b.thallium) K (by cases K <;> simp)
  exact eq_of_beq this

/-- C37: decimal numbers are read as they are when they fit in 64 bits (sizes) or in 31 bits (`int`), and refused otherwise. -/
theorem C37_numbers (t : Bytes) (n : Nat) (h : Decimal t n) :
    readSize t = (if n < 2 ^ 64 then some n else none) ∧ readInt t = (if n < 2 ^ 31 then some (n : Int) else none) := by
  unfold readSize readInt
  rw [readNumber_decimal h]
  simp only [Bool.false_eq_true, if_false]
  constructor
  · by_cases hn : n < 2 ^ 64
    · rw [if_pos hn, if_neg (by omega)]
    · rw [if_neg hn, if_pos (by omega)]
  · by_cases hn : n < 2 ^ 31
    · rw [if_pos hn, if_neg (by omega)]
    · rw [if_neg hn, if_pos (by omega)]

example : Decimal (str "18446744073709551616") (2 ^ 64) ∧ readSize (str "18446744073709551616") = none ∧
    Decimal (str "128") 128 ∧ readSize (str "128") = some 128 :=
  ⟨⟨by decide, by decide +kernel, by decide +kernel⟩, by decide +kernel, ⟨by decide, by decide +kernel, by decide +kernel⟩, by decide +kernel⟩

/-- A fresh session of `n` ranks. -/
def fresh (n : Nat) : Opts := { Opts.new with comm := .world (some n) }

/-- The default configuration fills in the default options, whatever the build and the number of
ranks. -/
theorem C37_defaults (b : Build) (n : Nat) :
    fillOptions b (Map.ofList (defaultConfig b)) (fresh n) = .ok (defaults b n, true) := by
  obtain ⟨h1, h2, h3, h4, h5, h6, h7, h8, h9, h10, h11, h12, h13, h14, h15, h16, h17, h18, h19, h20, h21, h22, h23,
    h24, h25, h26⟩ := default_found b
  generalize Map.ofList (defaultConfig b) = m at *
  have hds : ∀ o : Opts, o.running = false → o.dsPostfix = [] → parseDatastore b m o = .ok ({ o with
      dsPrefix := str ".", dsBase := str "hxhim",
      store := some (if b.leveldb then .leveldb true else if b.rocksdb then .rocksdb true else .inMemory) }, true) := by
    intro o hr _
    unfold parseDatastore parsePostfix
    simp only [h5, h6, h7, h8]
    cases hb : b.leveldb with
    | true => simp [parseStore, parseCreate, h9 hb, setDatastore, checked, hr]
    | false =>
      cases hb' : b.rocksdb with
      | true => simp [parseStore, parseCreate, h10 hb hb', setDatastore, checked, hr]
      | false => simp [parseStore, Step.of, setDatastore, checked, hr]
  unfold fillOptions
  rw [if_neg (by simp [fresh])]
  rw [step_and (o' := { fresh n with debugLevel := 0x00500000 })
    (by simp [parseFound, h1, setDebugLevel, checked, fresh, Opts.new])]
  rw [step_and (o' := { fresh n with debugLevel := 0x00500000, clientRatio := 2 })
    (by simp [parseFound, h2, setClientRatio, checked, fresh, Opts.new])]
  rw [step_and (o' := { fresh n with debugLevel := 0x00500000, clientRatio := 2, serverRatio := 1 })
    (by simp [parseFound, h3, setServerRatio, checked, fresh, Opts.new])]
  rw [step_and (o' := { fresh n with debugLevel := 0x00500000, clientRatio := 2, serverRatio := 1, perServer := 1 })
    (by simp [parseFound, h4, setPerServer, checked, fresh, Opts.new])]
  rw [step_and (hds _ rfl rfl)]
  have htr : ∀ o : Opts, o.running = false → parseTransport b m o = .ok ({ o with
      transport := some .null, hashName := str "RANK_MOD_DATASTORES", hashFunc := some (.builtin .rankMod),
      hashArgs := 0 }, true) := by
    intro o hr
    unfold parseTransport
    simp only [h11]
    rw [step_and (o' := { o with transport := some .null }) (by simp [Step.of, setTransport, checked, hr])]
    simp [Step.of, setHashName, checked, hr, h12]
  rw [step_and (htr _ rfl), step_and (parseEndpoints_all h13 rfl rfl)]
  have has : ∀ o : Opts, o.running = false → parseFound (getValue readSize m kAsyncAt) setAsyncAt o =
      .ok ({ o with asyncEnabled := false, asyncMax := 0 }, true) := by
    intro o hr; simp [parseFound, h14, setAsyncAt, checked, hr]
  have hmo : ∀ o : Opts, o.running = false → parseFound (getValue readSize m kMaxOps) setMaxOps o =
      .ok ({ o with maxOps := 128 }, true) := by
    intro o hr; simp [parseFound, h15, setMaxOps, checked, hr]
  have hms : ∀ o : Opts, o.running = false → parseFound (getValue readSize m kMaxSize) setMaxSize o =
      .ok ({ o with maxSize := 1048576 }, true) := by
    intro o hr; simp [parseFound, h16, setMaxSize, checked, hr]
  have hel : ∀ o : Opts, o.running = false → parseElen m o =
      .ok ({ o with neg := 1, pos := 58, floatPrec := 8, doublePrec := 16 }, true) := by
    intro o hr
    unfold parseElen
    simp only [h17, h18, h19, h20, Config.optional]
    rw [if_neg (by decide), if_neg (by decide)]
    simp [setNumeric, checked, hr, elenPos, toSize]
  rw [step_and (has _ rfl), step_and (hmo _ rfl), step_and (hms _ rfl), step_and (hel _ rfl)]
  have hfn : ∀ o : Opts, o.running = false → parseFound (getValue readSize m kFirstN) setFirstN o =
      .ok ({ o with firstN := 10 }, true) := by
    intro o hr; simp [parseFound, h21, setFirstN, checked, hr]
  have hgn : ∀ o : Opts, o.running = false → parseFound (getValue readWord m kGenName) setGenName o =
      .ok ({ o with gen := some .nBuckets, genArgs := 10 }, true) := by
    intro o hr; simp [parseFound, h22, setGenName, checked, hr, h23]
  unfold parseHistogram
  rw [step_and (hfn _ rfl), step_and (hgn _ rfl)]
  unfold parseHistRest
  simp [h24, h25, h26, Config.optional, setHistograms, checked, fresh, Opts.new, defaults, elenPos]

/-- Options a configuration does not set keep their default values, except the negative symbol, however
far reading the configuration gets. -/
theorem C37_untouched (b : Build) (u : Map) (n : Nat) (K : Key) (hK : K ≠ .neg) (hu : u K.name = none)
    (r : Opts × Bool) (h : fillOptions b u (defaults b n) = .ok r) : view K r.1 = view K (defaults b n) := by
  refine inv_fill (b := b) (m := u) (P := fun o => view K o = view K (defaults b n)) ?_ ?_ ?_ ?_ ?_ ?_ ?_ ?_ ?_ ?_
    ?_ ?_ _ _ h rfl
  · refine inv_absent fun a o hp hne => checked_inv (f := fun o => _) (P := fun o => view K o = view K (defaults b n)) hp ?_
    cases K <;> first | exact hp | exact absurd hu hne
  · refine inv_absent fun a o hp hne => checked_inv (f := fun o => _) (P := fun o => view K o = view K (defaults b n)) hp ?_
    split
    · exact hp
    · cases K <;> first | exact hp | exact absurd hu hne
  · refine inv_absent fun a o hp hne => checked_inv (f := fun o => _) (P := fun o => view K o = view K (defaults b n)) hp ?_
    split
    · exact hp
    · cases K <;> first | exact hp | exact absurd hu hne
  · refine inv_absent fun a o hp hne => checked_inv (f := fun o => _) (P := fun o => view K o = view K (defaults b n)) hp ?_
    split
    · exact hp
    · cases K <;> first | exact hp | exact absurd hu hne
  · refine inv_datastore ?_ ?_ ?_ ?_
    · intro o w hp hne; cases K <;> first | exact hp | exact absurd hu hne
    · intro o w hp hne; cases K <;> first | exact hp | exact absurd hu hne
    · intro o w hp hne; cases K <;> first | exact hp | exact absurd hu hne
    · intro o s hp hne hl hro
      have def_level : view .levelCreate (defaults b n) = .bool true := by
        cases h1 : b.leveldb <;> cases h2 : b.rocksdb <;> simp [view, defaults, h1, h2]
      have def_rocks : view .rocksCreate (defaults b n) = .bool true := by
        cases h1 : b.leveldb <;> cases h2 : b.rocksdb <;> simp [view, defaults, h1, h2]
      cases K <;> first | exact hp | exact absurd hu hne | skip
      · rw [def_level]
        cases s with
        | leveldb c =>
          cases c with
          | true => rfl
          | false => exact absurd hu (hl _ rfl rfl)
        | _ => rfl
      · rw [def_rocks]
        cases s with
        | rocksdb c =>
          cases c with
          | true => rfl
          | false => exact absurd hu (hro _ rfl rfl)
        | _ => rfl
  · refine inv_transport ?_ ?_ ?_ ?_ ?_
    · intro o hp hne; cases K <;> first | exact hp | exact absurd hu hne | rfl
    · intro o k hp hne hne'; cases K <;> first | exact hp | exact absurd hu hne | exact absurd hu hne' | rfl
    · intro o w k hp hne hne' ht
      cases K <;> first | exact hp | exact absurd hu hne | exact absurd hu hne' | rfl | skip
      have : k = -1 := by
        by_cases hk : k = -1
        · exact hk
        · exact absurd hu (ht hk)
      subst this; rfl
    · intro o hp hne; cases K <;> first | exact hp | exact absurd hu hne | rfl
    · intro o w k hp hne; cases K <;> first | exact hp | exact absurd hu hne
  · refine inv_endpoints ?_
    intro o e hp hne; cases K <;> first | exact hp | exact absurd hu hne
  · refine inv_absent fun a o hp hne => checked_inv (f := fun o => _) (P := fun o => view K o = view K (defaults b n)) hp ?_
    cases K <;> first | exact hp | exact absurd hu hne
  · refine inv_absent fun a o hp hne => checked_inv (f := fun o => _) (P := fun o => view K o = view K (defaults b n)) hp ?_
    cases K <;> first | exact hp | exact absurd hu hne
  · refine inv_absent fun a o hp hne => checked_inv (f := fun o => _) (P := fun o => view K o = view K (defaults b n)) hp ?_
    cases K <;> first | exact hp | exact absurd hu hne
  · refine inv_elen ?_
    intro o x p f d hp h1 h2 h3 h4
    cases K <;> first | exact hp | exact absurd rfl hK | skip
    · rcases h2 with rfl | h2
      · rfl
      · exact absurd hu h2
    · rcases h3 with rfl | h3
      · rfl
      · exact absurd hu h3
    · rcases h4 with rfl | h4
      · rfl
      · exact absurd hu h4
  · refine Inv.and ?_ (Inv.and ?_ ?_)
    · refine inv_absent fun a o hp hne => checked_inv (f := fun o => _) (P := fun o => view K o = view K (defaults b n)) hp ?_
      cases K <;> first | exact hp | exact absurd hu hne
    · refine inv_absent fun a o hp hne => checked_inv (f := fun o => _) (P := fun o => view K o = view K (defaults b n)) hp ?_
      split
      · exact hp
      · cases K <;> first | exact hp | exact absurd hu hne
    · refine inv_histRest ?_ ?_
      · intro o r w hp h1 h2
        cases K <;> first | exact hp | skip
        · rcases h1 with rfl | h1
          · rfl
          · exact absurd hu h1
        · rcases h2 with rfl | h2
          · rfl
          · exact absurd hu h2
      · intro o l hp hne; cases K <;> first | exact hp | exact absurd hu hne

/-- ... so options no source defines have their default values in a new session, except the negative
symbol. -/
theorem C37_untouched_session (b : Build) (sys : Sys) (keys : List Bytes) (n : Nat) (K : Key) (hK : K ≠ .neg)
    (hu : ∀ r ∈ defaultReaders keys, ∀ v, ¬ SourceDefines sys K.name r v) (r : Opts × Bool)
    (h : defaultReader b sys keys (.world (some n)) Opts.new = .ok r) :
    r.2 = true ∧ view K r.1 = view K (defaults b n) := by
  have e : (setBootstrap (.world (some n)) Opts.new).1 = fresh n := rfl
  unfold defaultReader at h
  simp only [e, C37_defaults, Out.ok_bind, if_true] at h
  cases hf : fillOptions b (sequence sys (defaultReaders keys)) (defaults b n) with
  | err => rw [hf] at h; cases h
  | ub => rw [hf] at h; cases h
  | ok q =>
    rw [hf] at h
    simp only [Out.ok_bind, Out.ok.injEq] at h
    subst h
    exact ⟨rfl, C37_untouched b _ n K hK ((C36_undefined sys _ _).mpr hu) q hf⟩

/-! ## The steps -/

/-- One step after the other, until one fails. -/
def runSteps : List Step → Step
  | [] => fun o => .ok (o, true)
  | f :: fs => f.and (runSteps fs)

/-- The steps of `fill_options`. -/
def fillSteps (b : Build) (m : Map) : List Step :=
  [parseFound (getFromMap m kDebugLevel debugLevels) setDebugLevel,
    parseFound (getValue readSize m kClientRatio) setClientRatio,
    parseFound (getValue readSize m kServerRatio) setServerRatio,
    parseFound (getValue readSize m kPerServer) setPerServer,
    parseDatastore b m, parseTransport b m, parseEndpoints m,
    parseFound (getValue readSize m kAsyncAt) setAsyncAt,
    parseFound (getValue readSize m kMaxOps) setMaxOps,
    parseFound (getValue readSize m kMaxSize) setMaxSize,
    parseElen m,
    parseFound (getValue readSize m kFirstN) setFirstN,
    parseFound (getValue readWord m kGenName) setGenName,
    parseHistRest m]

theorem and_skip (f : Step) : f.and (runSteps []) = f := by
  funext o
  unfold Step.and runSteps
  cases f o with
  | err => rfl
  | ub => rfl
  | ok r =>
    obtain ⟨o', b⟩ := r
    cases b <;> simp

theorem fill_eq {b : Build} {m : Map} {o : Opts} (h : o.comm ≠ .null) :
    fillOptions b m o = runSteps (fillSteps b m) o := by
  unfold fillOptions
  rw [if_neg h]
  simp only [fillSteps, runSteps, parseHistogram]
  have := and_skip (parseHistRest m)
  simp only [runSteps] at this
  rw [this]

/-- What a step that succeeds establishes. -/
def Est (f : Step) (B P : Opts → Prop) : Prop := ∀ o o', B o → f o = .ok (o', true) → P o'

theorem runSteps_inv {fs : List Step} {P : Opts → Prop} (h : ∀ f ∈ fs, Inv f P) : Inv (runSteps fs) P := by
  induction fs with
  | nil =>
    intro o r hr hp
    simp only [runSteps, Out.ok.injEq] at hr
    subst hr; exact hp
  | cons f fs ih => exact Inv.and (h f (by simp)) (ih fun g hg => h g (by simp [hg]))

theorem runSteps_est {fs : List Step} {B P : Opts → Prop} (i : Nat) (hi : i < fs.length)
    (hB : ∀ j (hj : j < fs.length), j < i → Inv fs[j] B) (he : Est fs[i] B P) (hk : ∀ j (hj : j < fs.length), i < j → Inv fs[j] P) : Est (runSteps fs) B P := by
  induction fs generalizing i with
  | nil => exact absurd hi (by simp)
  | cons f fs ih =>
    intro o o' hb h
    obtain ⟨o1, h1, h2⟩ := step_and_true h
    cases i with
    | zero =>
      refine runSteps_inv (fun g hg => ?_) o1 (o', true) h2 (he o o1 hb h1)
      obtain ⟨j, hj, rfl⟩ := List.mem_iff_getElem.mp hg
      exact hk (j + 1) (by simpa using hj) (by omega)
    | succ i =>
      exact ih i (by simpa using hi) (fun j hj hij => hB (j + 1) (by simpa using hj) (by omega)) he
        (fun j hj hij => hk (j + 1) (by simpa using hj) (by omega)) o1 o' (hB 0 (by simp) (by omega) o _ h1 hb) h2

theorem runSteps_stop {fs : List Step} {B P : Opts → Prop} (i : Nat) (hi : i < fs.length)
    (hB : ∀ j (hj : j < fs.length), j < i → Inv fs[j] B) (hs : ∀ o o', B o → fs[i] o ≠ .ok (o', true))
    (hk : ∀ j (hj : j < fs.length), j ≤ i → Inv fs[j] P) (o : Opts) (r : Opts × Bool) (hb : B o)
    (h : runSteps fs o = .ok r) (hp : P o) : P r.1 ∧ r.2 = false := by
  induction fs generalizing i o with
  | nil => exact absurd hi (by simp)
  | cons f fs ih =>
    rcases step_and_inv h with ⟨o1, h1, h2⟩ | ⟨o1, h1, rfl⟩
    · cases i with
      | zero => exact absurd h1 (hs o o1 hb)
      | succ i =>
        exact ih i (by simpa using hi) (fun j hj hij => hB (j + 1) (by simpa using hj) (by omega)) hs
          (fun j hj hij => hk (j + 1) (by simpa using hj) (by omega)) o1 (hB 0 (by simp) (by omega) o _ h1 hb) h2
          (hk 0 (by simp) (by omega) o _ h1 hp)
    · exact ⟨hk 0 (by simp) (by omega) o _ h1 hp, rfl⟩

/-- The step that reads a key. -/
def stepOf : Key → Nat
  | .debugLevel => 0
  | .clientRatio => 1
  | .serverRatio => 2
  | .perServer => 3
  | .datastore | .prefix | .basename | .postfix | .levelCreate | .rocksCreate => 4
  | .hash | .transport | .listeners | .module | .threads => 5
  | .endpoints => 6
  | .asyncAt => 7
  | .maxOps => 8
  | .maxSize => 9
  | .neg | .pos | .floatPrec | .doublePrec => 10
  | .firstN => 11
  | .genName => 12
  | .track | .histRead | .histWrite => 13

/-- A step changes only the options of its keys. -/
theorem keep (b : Build) (m : Map) (K : Key) (v : OptVal) (j : Nat) (hj : j < (fillSteps b m).length)
    (h : j ≠ stepOf K) : Inv (fillSteps b m)[j] (fun o => view K o = v) := by
  have hj' : j < 14 := hj
  have ch : ∀ {f : Set} {o : Opts}, view K o = v → view K (f o).1 = v → view K (checked f o).1 = v :=
    fun hp hq => checked_inv (P := fun o => view K o = v) hp hq
  match j, hj' with
  | 0, _ =>
    refine Inv.found fun a _ o hp => ch hp ?_
    cases K <;> first | exact hp | exact absurd rfl h
  | 1, _ =>
    refine Inv.found fun a _ o hp => ch hp ?_
    split
    · exact hp
    · cases K <;> first | exact hp | exact absurd rfl h
  | 2, _ =>
    refine Inv.found fun a _ o hp => ch hp ?_
    split
    · exact hp
    · cases K <;> first | exact hp | exact absurd rfl h
  | 3, _ =>
    refine Inv.found fun a _ o hp => ch hp ?_
    split
    · exact hp
    · cases K <;> first | exact hp | exact absurd rfl h
  | 4, _ =>
    refine inv_datastore ?_ ?_ ?_ ?_
    · intro o w hp _; cases K <;> first | exact hp | exact absurd rfl h
    · intro o w hp _; cases K <;> first | exact hp | exact absurd rfl h
    · intro o w hp _; cases K <;> first | exact hp | exact absurd rfl h
    · intro o w hp _ _ _; cases K <;> first | exact hp | exact absurd rfl h
  | 5, _ =>
    refine inv_transport ?_ ?_ ?_ ?_ ?_
    · intro o hp _; cases K <;> first | exact hp | exact absurd rfl h
    · intro o _ hp _ _; cases K <;> first | exact hp | exact absurd rfl h
    · intro o _ _ hp _ _ _; cases K <;> first | exact hp | exact absurd rfl h
    · intro o hp _; cases K <;> first | exact hp | exact absurd rfl h
    · intro o _ _ hp _; cases K <;> first | exact hp | exact absurd rfl h
  | 6, _ =>
    refine inv_endpoints ?_
    intro o _ hp _; cases K <;> first | exact hp | exact absurd rfl h
  | 7, _ =>
    refine Inv.found fun a _ o hp => ch hp ?_
    cases K <;> first | exact hp | exact absurd rfl h
  | 8, _ =>
    refine Inv.found fun a _ o hp => ch hp ?_
    cases K <;> first | exact hp | exact absurd rfl h
  | 9, _ =>
    refine Inv.found fun a _ o hp => ch hp ?_
    cases K <;> first | exact hp | exact absurd rfl h
  | 10, _ =>
    refine inv_elen ?_
    intro o _ _ _ _ hp _ _ _ _; cases K <;> first | exact hp | exact absurd rfl h
  | 11, _ =>
    refine Inv.found fun a _ o hp => ch hp ?_
    cases K <;> first | exact hp | exact absurd rfl h
  | 12, _ =>
    refine Inv.found fun a _ o hp => ch hp ?_
    split
    · exact hp
    · cases K <;> first | exact hp | exact absurd rfl h
  | 13, _ =>
    refine inv_histRest ?_ ?_
    · intro o _ _ hp _ _; cases K <;> first | exact hp | exact absurd rfl h
    · intro o _ hp _; cases K <;> first | exact hp | exact absurd rfl h

/-- A session that is not open, with `n` ranks. -/
def Closed (n : Nat) (o : Opts) : Prop := o.running = false ∧ o.comm = .world (some n)

theorem closed_keep (b : Build) (m : Map) (n : Nat) : ∀ f ∈ fillSteps b m, Inv f (Closed n) := by
  have ch : ∀ {f : Set} {o : Opts}, Closed n o → Closed n (f o).1 → Closed n (checked f o).1 :=
    fun hp hq => checked_inv (P := Closed n) hp hq
  intro f hf
  simp only [fillSteps, List.mem_cons, List.not_mem_nil, or_false] at hf
  rcases hf with rfl | rfl | rfl | rfl | rfl | rfl | rfl | rfl | rfl | rfl | rfl | rfl | rfl | rfl
  · exact Inv.found fun a _ o hp => ch hp hp
  · refine Inv.found fun a _ o hp => ch hp ?_
    split
    · exact hp
    · exact hp
  · refine Inv.found fun a _ o hp => ch hp ?_
    split
    · exact hp
    · exact hp
  · refine Inv.found fun a _ o hp => ch hp ?_
    split
    · exact hp
    · exact hp
  · exact inv_datastore (fun _ _ hp _ => hp) (fun _ _ hp _ => hp) (fun _ _ hp _ => hp) (fun _ _ hp _ _ _ => hp)
  · exact inv_transport (fun _ hp _ => hp) (fun _ _ hp _ _ => hp) (fun _ _ _ hp _ _ _ => hp) (fun _ hp _ => hp)
      (fun _ _ _ hp _ => hp)
  · exact inv_endpoints (fun _ _ hp _ => hp)
  · exact Inv.found fun a _ o hp => ch hp hp
  · exact Inv.found fun a _ o hp => ch hp hp
  · exact Inv.found fun a _ o hp => ch hp hp
  · exact inv_elen (fun _ _ _ _ _ hp _ _ _ _ => hp)
  · exact Inv.found fun a _ o hp => ch hp hp
  · refine Inv.found fun a _ o hp => ch hp ?_
    split
    · exact hp
    · exact hp
  · exact inv_histRest (fun _ _ _ hp _ _ => hp) (fun _ _ hp _ => hp)

end Hx.Props

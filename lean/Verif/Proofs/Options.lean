import Verif.Spec.Options
import Verif.Proofs.Config

/-!
# Options: lemmas
-/

namespace Hx.Config
open Hx Spec.Config

theorem step_and {f g : Step} {o o' : Opts} (h : f o = .ok (o', true)) : (f.and g) o = g o' := by
  simp [Step.and, h]

theorem step_and_false {f g : Step} {o o' : Opts} (h : f o = .ok (o', false)) : (f.and g) o = .ok (o', false) := by
  simp [Step.and, h]

theorem step_and_inv {f g : Step} {o : Opts} {r : Opts × Bool} (h : (f.and g) o = .ok r) :
    (∃ o', f o = .ok (o', true) ∧ g o' = .ok r) ∨ (∃ o', f o = .ok (o', false) ∧ r = (o', false)) := by
  unfold Step.and at h
  cases hf : f o with
  | err => rw [hf] at h; cases h
  | ub => rw [hf] at h; cases h
  | ok p =>
    obtain ⟨o', b⟩ := p
    rw [hf] at h
    cases b with
    | true => exact .inl ⟨o', rfl, h⟩
    | false =>
      simp only [Out.ok_bind, Bool.false_eq_true, if_false] at h
      cases h
      exact .inr ⟨o', rfl, rfl⟩

theorem step_and_true {f g : Step} {o o' : Opts} (h : (f.and g) o = .ok (o', true)) :
    ∃ o1, f o = .ok (o1, true) ∧ g o1 = .ok (o', true) := by
  rcases step_and_inv h with h | ⟨_, _, h⟩
  · exact h
  · cases h

/-- What holds before holds after. -/
def Inv (f : Step) (P : Opts → Prop) : Prop := ∀ o r, f o = .ok r → P o → P r.1

theorem Inv.and {f g : Step} {P : Opts → Prop} (hf : Inv f P) (hg : Inv g P) : Inv (f.and g) P := by
  intro o r h hp
  rcases step_and_inv h with ⟨o', h1, h2⟩ | ⟨o', h1, rfl⟩
  · exact hg o' r h2 (hf o _ h1 hp)
  · exact hf o _ h1 hp

theorem Inv.of {f : Set} {P : Opts → Prop} (h : ∀ o, P o → P (f o).1) : Inv (Step.of f) P := by
  intro o r hr hp
  simp only [Step.of, Out.ok.injEq] at hr
  subst hr
  exact h o hp

theorem Inv.found {α : Type} {v : Found α} {set : α → Set} {P : Opts → Prop}
    (h : ∀ a, v = .found a → ∀ o, P o → P (set a o).1) : Inv (parseFound v set) P := by
  intro o r hr hp
  unfold parseFound at hr
  cases v with
  | notFound => simp only [Out.ok.injEq] at hr; subst hr; exact hp
  | error => simp only [Out.ok.injEq] at hr; subst hr; exact hp
  | found a => simp only [Out.ok.injEq] at hr; subst hr; exact h a rfl o hp

theorem checked_inv {f : Set} {P : Opts → Prop} {o : Opts} (hp : P o) (h : P (f o).1) : P (checked f o).1 := by
  unfold checked; split
  · exact hp
  · exact h

theorem getValue_none {α : Type} {read : Bytes → Option α} {m : Map} {k : Bytes} (h : m k = none) :
    getValue read m k = .notFound := by unfold getValue; rw [h]

theorem getValue_some {α : Type} {read : Bytes → Option α} {m : Map} {k s : Bytes} (h : m k = some s) :
    getValue read m k = match read s with | none => .error | some a => .found a := by
  unfold getValue; rw [h]; rfl

theorem getValue_found {α : Type} {read : Bytes → Option α} {m : Map} {k : Bytes} {a : α}
    (h : getValue read m k = .found a) : ∃ s, m k = some s ∧ read s = some a := by
  unfold getValue at h
  cases hm : m k with
  | none => rw [hm] at h; cases h
  | some s =>
    rw [hm] at h
    cases hr : read s with
    | none => simp only [hr] at h; cases h
    | some x => simp only [hr] at h; cases h; exact ⟨s, rfl, hr⟩

theorem getFromMap_found {α : Type} {m : Map} {k : Bytes} {table : List (Bytes × α)} {a : α}
    (h : getFromMap m k table = .found a) : ∃ s, m k = some s ∧ table.lookup s = some a := getValue_found h

/-! ## What the steps change -/

/-- A property of the options that does not look at the field. -/
theorem inv_datastore {b : Build} {m : Map} {P : Opts → Prop}
    (hpre : ∀ o w, P o → m kPrefix ≠ none → P { o with dsPrefix := w })
    (hbase : ∀ o w, P o → m kBasename ≠ none → P { o with dsBase := w })
    (hpost : ∀ o w, P o → m kPostfix ≠ none → P { o with dsPostfix := w })
    (hstore : ∀ o s, P o → m kDatastore ≠ none → (∀ c, s = .leveldb c → c = false → m kLevelCreate ≠ none) →
      (∀ c, s = .rocksdb c → c = false → m kRocksCreate ≠ none) → P { o with store := some s }) :
    Inv (parseDatastore b m) P := by
  intro o r hr hp
  unfold parseDatastore at hr
  cases hd : getFromMap m kDatastore (datastores b) with
  | notFound => simp only [hd, Out.ok.injEq] at hr; subst hr; exact hp
  | error => simp only [hd, Out.ok.injEq] at hr; subst hr; exact hp
  | found t =>
    have hdn : m kDatastore ≠ none := by
      obtain ⟨s, hs, _⟩ := getFromMap_found hd; rw [hs]; simp
    simp only [hd] at hr
    cases h1 : getValue readWord m kPrefix with
    | notFound => simp only [h1, Out.ok.injEq] at hr; subst hr; exact hp
    | error => simp only [h1, Out.ok.injEq] at hr; subst hr; exact hp
    | found pre =>
      have hpn : m kPrefix ≠ none := by
        obtain ⟨s, hs, _⟩ := getValue_found h1; rw [hs]; simp
      simp only [h1] at hr
      have p1 : P { o with dsPrefix := pre } := hpre o pre hp hpn
      cases h2 : getValue readWord m kBasename with
      | notFound => simp only [h2, Out.ok.injEq] at hr; subst hr; exact p1
      | error => simp only [h2, Out.ok.injEq] at hr; subst hr; exact p1
      | found base =>
        have hbn : m kBasename ≠ none := by
          obtain ⟨s, hs, _⟩ := getValue_found h2; rw [hs]; simp
        simp only [h2] at hr
        have p2 : P { o with dsPrefix := pre, dsBase := base } := hbase _ base p1 hbn
        have p3 : P (parsePostfix m { o with dsPrefix := pre, dsBase := base }) := by
          unfold parsePostfix
          cases h3 : getValue readWord m kPostfix with
          | notFound => exact p2
          | error => exact p2
          | found post =>
            refine hpost _ post p2 ?_
            obtain ⟨s, hs, _⟩ := getValue_found h3; rw [hs]; simp
        generalize parsePostfix m { o with dsPrefix := pre, dsBase := base } = o3 at hr p3
        cases t with
        | inMemory =>
          simp only [parseStore, Step.of, Out.ok.injEq] at hr
          subst hr
          refine checked_inv p3 (hstore o3 _ p3 hdn ?_ ?_) <;> (intro c h; cases h)
        | leveldb =>
          simp only [parseStore, parseCreate] at hr
          cases h4 : getValue readBool m kLevelCreate with
          | error => simp only [h4, Out.ok.injEq] at hr; subst hr; exact p3
          | notFound =>
            simp only [h4, Out.ok.injEq] at hr; subst hr
            refine checked_inv p3 (hstore o3 _ p3 hdn ?_ ?_)
            · intro c h hc; cases h; cases hc
            · intro c h; cases h
          | found c =>
            simp only [h4, Out.ok.injEq] at hr; subst hr
            refine checked_inv p3 (hstore o3 _ p3 hdn ?_ ?_)
            · intro c h hc
              obtain ⟨s, hs, _⟩ := getValue_found h4; rw [hs]; simp
            · intro c h; cases h
        | rocksdb =>
          simp only [parseStore, parseCreate] at hr
          cases h4 : getValue readBool m kRocksCreate with
          | error => simp only [h4, Out.ok.injEq] at hr; subst hr; exact p3
          | notFound =>
            simp only [h4, Out.ok.injEq] at hr; subst hr
            refine checked_inv p3 (hstore o3 _ p3 hdn ?_ ?_)
            · intro c h; cases h
            · intro c h hc; cases h; cases hc
          | found c =>
            simp only [h4, Out.ok.injEq] at hr; subst hr
            refine checked_inv p3 (hstore o3 _ p3 hdn ?_ ?_)
            · intro c h; cases h
            · intro c h hc
              obtain ⟨s, hs, _⟩ := getValue_found h4; rw [hs]; simp

theorem inv_hashName {name : Bytes} {P : Opts → Prop} {o : Opts} (hp : P o)
    (h : ∀ k, hashes.lookup name = some k → P { o with hashName := name, hashFunc := some (.builtin k), hashArgs := 0 }) :
    P (setHashName name o).1 := by
  unfold setHashName
  refine checked_inv (f := fun o => _) hp ?_
  cases hl : hashes.lookup name with
  | none => exact hp
  | some k => exact h k hl

theorem inv_hash {m : Map} {P : Opts → Prop}
    (hhash : ∀ o name k, P o → m kHash ≠ none →
      P { o with hashName := name, hashFunc := some (.builtin k), hashArgs := 0 }) : Inv (parseHash m) P := by
  unfold parseHash
  refine Inv.found fun name hn o hp => inv_hashName hp fun k _ => hhash o name k hp ?_
  obtain ⟨s, hs, _⟩ := getValue_found hn; rw [hs]; simp

theorem threadCount_none {m : Map} (h : m kThreads = none) : threadCount m = -1 := by
  unfold threadCount; simp only [h]; rfl

theorem inv_transport {b : Build} {m : Map} {P : Opts → Prop}
    (hnull : ∀ o, P o → m kTransport ≠ none → P { o with transport := some .null })
    (hmpi : ∀ o n, P o → m kTransport ≠ none → m kListeners ≠ none → P { o with transport := some (.mpi o.comm n) })
    (hthal : ∀ o w n, P o → m kTransport ≠ none → m kModule ≠ none → (n ≠ -1 → m kThreads ≠ none) →
      P { o with transport := some (.thallium w n) })
    (hrank : ∀ o, P o → m kTransport ≠ none →
      P { o with hashName := str "RANK_MOD_DATASTORES", hashFunc := some (.builtin .rankMod), hashArgs := 0 })
    (hhash : ∀ o name k, P o → m kHash ≠ none →
      P { o with hashName := name, hashFunc := some (.builtin k), hashArgs := 0 }) :
    Inv (parseTransport b m) P := by
  intro o r hr hp
  unfold parseTransport at hr
  cases ht : getFromMap m kTransport (transports b) with
  | notFound => simp only [ht, Out.ok.injEq] at hr; subst hr; exact hp
  | error => simp only [ht, Out.ok.injEq] at hr; subst hr; exact hp
  | found t =>
    have htn : m kTransport ≠ none := by
      obtain ⟨s, hs, _⟩ := getFromMap_found ht; rw [hs]; simp
    simp only [ht] at hr
    cases t with
    | null =>
      refine Inv.and (Inv.of ?_) (Inv.of ?_) o r hr hp
      · exact fun o hp => checked_inv (f := fun o => _) hp (hnull o hp htn)
      · intro o hp
        refine inv_hashName hp fun k hk => ?_
        have : hashes.lookup (str "RANK_MOD_DATASTORES") = some .rankMod := by decide +kernel
        rw [this] at hk; cases hk
        exact hrank o hp htn
    | mpi =>
      simp only at hr
      cases hl : getValue readSize m kListeners with
      | notFound => simp only [hl, Out.ok.injEq] at hr; subst hr; exact hp
      | error => simp only [hl, Out.ok.injEq] at hr; subst hr; exact hp
      | found n =>
        simp only [hl] at hr
        refine Inv.and (Inv.of ?_) (inv_hash hhash) o r hr hp
        refine fun o hp => checked_inv (f := fun o => _) hp (hmpi o n hp htn ?_)
        obtain ⟨s, hs, _⟩ := getValue_found hl; rw [hs]; simp
    | thallium =>
      simp only at hr
      cases hl : m kModule with
      | none => simp only [hl, Out.ok.injEq] at hr; subst hr; exact hp
      | some w =>
        simp only [hl] at hr
        refine Inv.and (Inv.of ?_) (inv_hash hhash) o r hr hp
        refine fun o hp => checked_inv (f := fun o => _) hp (hthal o w _ hp htn (by rw [hl]; simp) ?_)
        intro hn h
        exact hn (threadCount_none h)

theorem addEndpoint_fold (l : List Nat) (o : Opts) :
    ∃ e, l.foldl (fun o (r : Nat) => (addEndpoint r o).1) o = { o with endpoints := e } := by
  induction l generalizing o with
  | nil => exact ⟨o.endpoints, rfl⟩
  | cons x xs ih =>
    rw [List.foldl_cons]
    have : ∃ e, (addEndpoint x o).1 = { o with endpoints := e } := by
      unfold addEndpoint checked
      split
      · exact ⟨o.endpoints, rfl⟩
      · simp only
        split
        · exact ⟨o.endpoints, rfl⟩
        · exact ⟨_, rfl⟩
    obtain ⟨e, he⟩ := this
    rw [he]
    obtain ⟨e', he'⟩ := ih { o with endpoints := e }
    exact ⟨e', he'⟩

theorem inv_endpoints {m : Map} {P : Opts → Prop}
    (h : ∀ o e, P o → m kEndpoints ≠ none → P { o with endpoints := e }) : Inv (parseEndpoints m) P := by
  intro o r hr hp
  unfold parseEndpoints at hr
  cases he : m kEndpoints with
  | none => simp only [he, Out.ok.injEq] at hr; subst hr; exact hp
  | some s =>
    have hn : m kEndpoints ≠ none := by rw [he]; simp
    have p1 : P (clearEndpoints o).1 := checked_inv (f := fun o => _) hp (h o [] hp hn)
    simp only [he] at hr
    split at hr
    · cases hc : (clearEndpoints o).1.comm with
      | null => simp only [hc, Out.ok.injEq] at hr; subst hr; exact p1
      | world n =>
        cases n with
        | none => simp only [hc, Out.ok.injEq] at hr; subst hr; exact p1
        | some n =>
          simp only [hc, Out.ok.injEq] at hr; subst hr
          obtain ⟨e, hfold⟩ := addEndpoint_fold (List.range n) (clearEndpoints o).1
          simp only [hfold]
          exact h _ e p1 hn
    · cases hi : readInt s with
      | none => simp only [hi, Out.ok.injEq] at hr; subst hr; exact p1
      | some id =>
        simp only [hi] at hr
        split at hr
        · cases hr
        · simp only [Out.ok.injEq] at hr; subst hr; exact p1

theorem optional_some {α : Type} {v : Found α} {d a : α} (h : optional v d = some a) :
    v = .found a ∨ (v = .notFound ∧ a = d) := by
  cases v with
  | found x => exact .inl (by simpa [optional] using h)
  | notFound => exact .inr ⟨rfl, by simpa [optional] using h.symm⟩
  | error => cases h

theorem optional_value {α : Type} {read : Bytes → Option α} {m : Map} {k : Bytes} {d a : α}
    (h : optional (getValue read m k) d = some a) : a = d ∨ m k ≠ none := by
  rcases optional_some h with h | ⟨_, h⟩
  · obtain ⟨s, hs, _⟩ := getValue_found h
    exact .inr (by rw [hs]; simp)
  · exact .inl h

theorem inv_elen {m : Map} {P : Opts → Prop}
    (h : ∀ o n p f d, P o → (n = elenNeg ∨ m kNeg ≠ none) → (p = elenPos ∨ m kPos ≠ none) →
      (f = elenFloat ∨ m kFloatPrec ≠ none) → (d = elenDouble ∨ m kDoublePrec ≠ none) →
      P { o with neg := n, pos := p, floatPrec := toSize f, doublePrec := toSize d }) : Inv (parseElen m) P := by
  intro o r hr hp
  unfold parseElen at hr
  split at hr
  · next n p f d hn hpo hf hd =>
    split at hr
    · simp only [Out.ok.injEq] at hr; subst hr; exact hp
    · split at hr
      · simp only [Out.ok.injEq] at hr; subst hr; exact hp
      · simp only [Out.ok.injEq] at hr; subst hr
        exact checked_inv (f := fun o => _) hp
          (h o n p f d hp (optional_value hn) (optional_value hpo) (optional_value hf) (optional_value hd))
  · simp only [Out.ok.injEq] at hr; subst hr; exact hp

theorem inv_histRest {m : Map} {P : Opts → Prop}
    (h : ∀ o r w, P o → (r = true ∨ m kHistRead ≠ none) → (w = true ∨ m kHistWrite ≠ none) →
      P { o with histRead := r, histWrite := w })
    (ht : ∀ o l, P o → m kTrack ≠ none → P { o with histNames := l }) : Inv (parseHistRest m) P := by
  intro o r hr hp
  unfold parseHistRest at hr
  split at hr
  · next rd wr hrd hwr =>
    have p1 : P (setHistograms rd wr o).1 :=
      checked_inv (f := fun o => _) hp (h o rd wr hp (optional_value hrd) (optional_value hwr))
    generalize setHistograms rd wr o = q at hr p1
    obtain ⟨o1, ok⟩ := q
    simp only at hr p1
    split at hr
    · simp only [Out.ok.injEq] at hr; subst hr; exact p1
    · cases htr : m kTrack with
      | none => simp only [htr, Out.ok.injEq] at hr; subst hr; exact p1
      | some s =>
        simp only [htr, Out.ok.injEq] at hr; subst hr
        exact ht o1 _ p1 (by rw [htr]; simp)
  · simp only [Out.ok.injEq] at hr; subst hr; exact hp

/-- A step for a single key that is absent changes nothing. -/
theorem inv_absent {α : Type} {read : Bytes → Option α} {m : Map} {k : Bytes} {set : α → Set} {P : Opts → Prop}
    (h : ∀ a o, P o → m k ≠ none → P (set a o).1) : Inv (parseFound (getValue read m k) set) P := by
  refine Inv.found fun a ha o hp => h a o hp ?_
  obtain ⟨s, hs, _⟩ := getValue_found ha; rw [hs]; simp

/-- Properties that every step keeps hold of the filled options. -/
theorem inv_fill {b : Build} {m : Map} {P : Opts → Prop}
    (h1 : Inv (parseFound (getFromMap m kDebugLevel debugLevels) setDebugLevel) P)
    (h2 : Inv (parseFound (getValue readSize m kClientRatio) setClientRatio) P)
    (h3 : Inv (parseFound (getValue readSize m kServerRatio) setServerRatio) P)
    (h4 : Inv (parseFound (getValue readSize m kPerServer) setPerServer) P)
    (h5 : Inv (parseDatastore b m) P) (h6 : Inv (parseTransport b m) P) (h7 : Inv (parseEndpoints m) P)
    (h8 : Inv (parseFound (getValue readSize m kAsyncAt) setAsyncAt) P)
    (h9 : Inv (parseFound (getValue readSize m kMaxOps) setMaxOps) P)
    (h10 : Inv (parseFound (getValue readSize m kMaxSize) setMaxSize) P)
    (h11 : Inv (parseElen m) P) (h12 : Inv (parseHistogram m) P) : Inv (fillOptions b m) P := by
  intro o r hr hp
  unfold fillOptions at hr
  split at hr
  · simp only [Out.ok.injEq] at hr; subst hr; exact hp
  · exact (h1.and <| h2.and <| h3.and <| h4.and <| h5.and <| h6.and <| h7.and <| h8.and <| h9.and <| h10.and <|
      h11.and h12) o r hr hp

/-! ## Reading of texts -/

theorem not_isSpace {c : UInt8} (h : ¬ Blank c) : isSpace c = false := by
  cases hc : isSpace c with
  | false => rfl
  | true => exact absurd ((isSpace_iff _).mp hc) h

theorem dropSpace_of_head {c : UInt8} {l : Bytes} (h : ¬ Blank c) : (c :: l).dropWhile isSpace = c :: l := by
  rw [List.dropWhile_cons, not_isSpace h]; simp

theorem readWord_word {w : Bytes} (h : Word w) : readWord w = some w := by
  have : takeWord ([] ++ (w ++ [])) = some (w, []) := takeWord_eq (by simp) h (by simp)
  simp only [List.nil_append, List.append_nil] at this
  simp [readWord, this]

theorem readChar_single {c : UInt8} (h : ¬ Blank c) : readChar [c] = some c := by
  unfold readChar; rw [dropSpace_of_head h]; rfl

theorem digit_iff {c : UInt8} : isDigit c = true ↔ 48 ≤ c.toNat ∧ c.toNat ≤ 57 := by
  simp [isDigit, UInt8.le_iff_toNat_le]

theorem takeWhile_all {p : UInt8 → Bool} {l : Bytes} (h : ∀ c ∈ l, p c = true) : l.takeWhile p = l := by
  induction l with
  | nil => rfl
  | cons x xs ih =>
    rw [List.takeWhile_cons, h x (by simp), if_pos rfl, ih fun c hc => h c (by simp [hc])]

theorem readNumber_decimal {t : Bytes} {n : Nat} (h : Decimal t n) : readNumber t = some (false, n) := by
  obtain ⟨hne, hd, rfl⟩ := h
  cases t with
  | nil => exact absurd rfl hne
  | cons c cs =>
    have hc := hd c (by simp)
    have hs : ¬ Blank c := by
      unfold Blank
      simp only [← UInt8.toNat_inj, UInt8.reduceToNat]
      omega
    have h45 : c ≠ 45 := by simp only [ne_eq, ← UInt8.toNat_inj, UInt8.reduceToNat]; omega
    have h43 : c ≠ 43 := by simp only [ne_eq, ← UInt8.toNat_inj, UInt8.reduceToNat]; omega
    have htw : (c :: cs).takeWhile isDigit = c :: cs := takeWhile_all fun x hx => digit_iff.mpr (hd x hx)
    unfold readNumber
    rw [dropSpace_of_head hs]
    simp only
    split
    · next h => simp only [List.cons.injEq] at h; exact absurd h.1 h45
    · next h => simp only [List.cons.injEq] at h; exact absurd h.1 h43
    · rw [htw]; rfl

theorem readSize_decimal {t : Bytes} {n : Nat} (h : Decimal t n) (hn : n < 2 ^ 64) : readSize t = some n := by
  unfold readSize; rw [readNumber_decimal h]
  simp only
  rw [if_neg (by omega)]; simp

theorem readInt_decimal {t : Bytes} {n : Nat} (h : Decimal t n) (hn : n < 2 ^ 31) : readInt t = some (n : Int) := by
  unfold readInt; rw [readNumber_decimal h]
  simp only
  rw [if_neg (by omega)]

theorem readBool_truth {t : Bytes} {c : Bool} (h : Truth t c) : readBool t = some c := by
  cases c with
  | true =>
    simp only [Truth, if_true, List.mem_cons, List.not_mem_nil, or_false] at h
    rcases h with rfl | rfl | rfl <;> decide +kernel
  | false =>
    simp only [Truth, Bool.false_eq_true, if_false, List.mem_cons, List.not_mem_nil, or_false] at h
    rcases h with rfl | rfl | rfl <;> decide +kernel

theorem threadCount_decimal {m : Map} {t : Bytes} {n : Nat} (hm : m kThreads = some t) (h : Decimal t n)
    (hn : n < 2 ^ 31) : threadCount m = n := by
  have hne : (t.dropWhile isSpace).isEmpty = false := by
    obtain ⟨hne, hd, _⟩ := h
    cases t with
    | nil => exact absurd rfl hne
    | cons c cs =>
      have hc := hd c (by simp)
      rw [dropSpace_of_head]
      · rfl
      · unfold Blank
        simp only [← UInt8.toNat_inj, UInt8.reduceToNat]
        omega
  unfold threadCount
  simp only [hm, hne, readNumber_decimal h]
  simp only [Bool.false_eq_true, if_false]
  rw [if_neg (by omega), if_neg (by omega)]

theorem splitComma_name {n : Bytes} (h : (44 : UInt8) ∉ n) (acc rest : Bytes) :
    splitComma acc (n ++ 44 :: rest) = (acc ++ n) :: splitComma [] rest := by
  induction n generalizing acc with
  | nil => simp [splitComma]
  | cons c cs ih =>
    have hc : c ≠ 44 := fun e => h (by simp [e])
    rw [List.cons_append, splitComma, if_neg hc, ih (fun e => h (by simp [e]))]
    simp

theorem splitComma_last {n : Bytes} (h : (44 : UInt8) ∉ n) (acc : Bytes) (hne : acc ++ n ≠ []) :
    splitComma acc n = [acc ++ n] := by
  induction n generalizing acc with
  | nil =>
    cases acc with
    | nil => exact absurd rfl hne
    | cons => simp [splitComma]
  | cons c cs ih =>
    have hc : c ≠ 44 := fun e => h (by simp [e])
    rw [splitComma, if_neg hc, ih (fun e => h (by simp [e])) _ (by simp)]
    simp

theorem splitComma_list {l : List Bytes} (hne : l ≠ []) (h : ∀ n ∈ l, n ≠ [] ∧ (44 : UInt8) ∉ n) :
    splitComma [] (List.intercalate [44] l) = l := by
  induction l with
  | nil => exact absurd rfl hne
  | cons x xs ih =>
    cases xs with
    | nil =>
      have := h x (by simp)
      simp only [List.intercalate, List.intersperse, List.flatten_cons, List.flatten_nil, List.append_nil]
      exact splitComma_last this.2 [] this.1
    | cons y ys =>
      have hx := h x (by simp)
      have e : List.intercalate [44] (x :: y :: ys) = x ++ 44 :: List.intercalate [44] (y :: ys) := by
        simp [List.intercalate, List.intersperse]
      rw [e, splitComma_name hx.2, ih (by simp) fun n hn => h n (by simp [hn])]
      rfl

theorem insertSet_fold {α : Type} [BEq α] [LawfulBEq α] (l acc : List α) (h : (acc ++ l).Nodup) :
    l.foldl (fun a n => insertSet n a) acc = acc ++ l := by
  induction l generalizing acc with
  | nil => simp
  | cons x xs ih =>
    have hx : x ∉ acc := by
      intro hx
      have := (List.nodup_append.mp h).2.2 x hx x (by simp)
      exact this rfl
    have : insertSet x acc = acc ++ [x] := by
      unfold insertSet
      rw [if_neg (by simpa using hx)]
    rw [List.foldl_cons, this, ih _ (by simpa using h)]
    simp

theorem endpoints_fold (l : List Nat) (o : Opts) (hr : o.running = false)
    (hn : (o.endpoints ++ l.map fun (r : Nat) => (r : Int)).Nodup) :
    l.foldl (fun o (r : Nat) => (addEndpoint r o).1) o =
      { o with endpoints := o.endpoints ++ l.map fun (r : Nat) => (r : Int) } := by
  induction l generalizing o with
  | nil => simp
  | cons x xs ih =>
    have hx : (x : Int) ∉ o.endpoints := by
      intro hx
      exact (List.nodup_append.mp hn).2.2 x hx x (by simp) rfl
    have e : (addEndpoint x o).1 = { o with endpoints := o.endpoints ++ [(x : Int)] } := by
      unfold addEndpoint checked
      simp only [hr, Bool.false_eq_true, if_false]
      rw [if_neg (by omega)]
      unfold insertSet
      rw [if_neg (by simpa using hx)]
    rw [List.foldl_cons, e, ih { o with endpoints := o.endpoints ++ [(x : Int)] } hr (by simpa using hn)]
    simp

theorem range_nodup (n : Nat) : ((List.range n).map fun (r : Nat) => (r : Int)).Nodup := by
  rw [List.nodup_iff_pairwise_ne, List.pairwise_map]
  exact List.Pairwise.imp (fun h e => h (by omega)) List.nodup_range

theorem parseEndpoints_all {m : Map} {o : Opts} {n : Nat} (hm : m kEndpoints = some (str "ALL"))
    (hr : o.running = false) (hc : o.comm = .world (some n)) :
    parseEndpoints m o = .ok ({ o with endpoints := (List.range n).map fun (r : Nat) => (r : Int) }, true) := by
  have e : (clearEndpoints o).1 = { o with endpoints := [] } := by
    unfold clearEndpoints checked; simp [hr]
  unfold parseEndpoints
  simp only [hm, e, if_true, hc]
  have := endpoints_fold (List.range n) { o with endpoints := [] } hr (by simpa using range_nodup n)
  simp only [hc, List.nil_append] at this
  rw [this]

/-- What the default configuration says. -/
theorem default_found (b : Build) :
    let m := Map.ofList (defaultConfig b)
    getFromMap m kDebugLevel debugLevels = .found 0x00500000 ∧
    getValue readSize m kClientRatio = .found 2 ∧
    getValue readSize m kServerRatio = .found 1 ∧
    getValue readSize m kPerServer = .found 1 ∧
    getFromMap m kDatastore (datastores b) =
      .found (if b.leveldb then .leveldb else if b.rocksdb then .rocksdb else .inMemory) ∧
    getValue readWord m kPrefix = .found (str ".") ∧
    getValue readWord m kBasename = .found (str "hxhim") ∧
    getValue readWord m kPostfix = .error ∧
    (b.leveldb = true → getValue readBool m kLevelCreate = .found true) ∧
    (b.leveldb = false → b.rocksdb = true → getValue readBool m kRocksCreate = .found true) ∧
    getFromMap m kTransport (transports b) = .found .null ∧
    hashes.lookup (str "RANK_MOD_DATASTORES") = some .rankMod ∧
    m kEndpoints = some (str "ALL") ∧
    getValue readSize m kAsyncAt = .found 0 ∧
    getValue readSize m kMaxOps = .found 128 ∧
    getValue readSize m kMaxSize = .found 1048576 ∧
    getValue readChar m kNeg = .found 1 ∧ getValue readChar m kPos = .notFound ∧
    getValue readInt m kFloatPrec = .found 8 ∧ getValue readInt m kDoublePrec = .found 16 ∧
    getValue readSize m kFirstN = .found 10 ∧
    getValue readWord m kGenName = .found (str "10_BUCKETS") ∧
    generators.lookup (str "10_BUCKETS") = some (.nBuckets, 10) ∧
    getValue readBool m kHistRead = .found true ∧ getValue readBool m kHistWrite = .found true ∧
    m kTrack = none := by
  obtain ⟨b1, b2, b3⟩ := b
  cases b1 <;> cases b2 <;> cases b3 <;> decide +kernel

end Hx.Config

import Verif.Spec.Mpi
import Mathlib.Data.List.Nodup

/-!
# Helper lemmas: requests and responses of ranks that use MPI
-/

namespace Hx.Mpi
open Hx Spec.Mpi
open Function (update update_self update_of_ne)

variable {n L : Nat} {α β W : Type} {sys : Sys n α β W}

/-! ## Slots -/

/-- What has become of the current request of a client to `s`. -/
def view (x : Phase n α β) (s : Fin n) : Option (α × Slot β) :=
  match x with
  | .ready => none
  | .round _ slots => slotOf slots s

theorem slotOf_cons (y : Fin n × α × Slot β) (l : List (Fin n × α × Slot β)) (s : Fin n) :
    slotOf (y :: l) s = if y.1 = s then some y.2 else slotOf l s := by
  unfold slotOf
  by_cases h : y.1 = s
  · rw [List.find?_cons_of_pos (by simp [h]), if_pos h]; rfl
  · rw [List.find?_cons_of_neg (by simp [h]), if_neg h]

theorem slotOf_setSlot_ne {l : List (Fin n × α × Slot β)} {s s' : Fin n} (h : s' ≠ s) (x : Slot β) :
    slotOf (setSlot l s x) s' = slotOf l s' := by
  induction l with
  | nil => rfl
  | cons y l ih =>
    rw [setSlot, List.map_cons, slotOf_cons, slotOf_cons]
    change (if _ then _ else slotOf (setSlot l s x) s') = _
    rw [ih]
    by_cases hy : y.1 = s
    · rw [if_pos hy]
      simp only
      rw [if_neg (by rw [hy]; exact fun e => h e.symm), if_neg (by rw [hy]; exact fun e => h e.symm)]
    · rw [if_neg hy]

theorem slotOf_setSlot {l : List (Fin n × α × Slot β)} {s : Fin n} {p : α} {y : Slot β} (h : slotOf l s = some (p, y)) (x : Slot β) :
    slotOf (setSlot l s x) s = some (p, x) := by
  induction l with
  | nil => cases h
  | cons z l ih =>
    rw [slotOf_cons] at h
    rw [setSlot, List.map_cons, slotOf_cons]
    change (if _ then _ else slotOf (setSlot l s x) s) = _
    by_cases hz : z.1 = s
    · rw [if_pos hz] at h
      have h := Option.some.inj h
      simp [hz, h]
    · rw [if_neg hz] at h
      rw [if_neg hz, if_neg hz]
      exact ih h

theorem setSlot_keys (l : List (Fin n × α × Slot β)) (s : Fin n) (x : Slot β) : (setSlot l s x).map Prod.fst = l.map Prod.fst := by
  unfold setSlot
  rw [List.map_map]
  refine List.map_congr_left ?_
  intro y _
  simp only [Function.comp]
  split <;> rfl

theorem mem_setSlot {l : List (Fin n × α × Slot β)} {s : Fin n} {x : Slot β} {y : Fin n × α × Slot β} (h : y ∈ setSlot l s x) :
    (y ∈ l ∧ y.1 ≠ s) ∨ y.2.2 = x := by
  obtain ⟨z, hz, rfl⟩ := List.mem_map.mp h
  by_cases hs : z.1 = s
  · right; simp [hs]
  · left; simp [hs, hz]

theorem slotOf_of_mem {l : List (Fin n × α × Slot β)} (hn : (l.map Prod.fst).Nodup) {y : Fin n × α × Slot β} (h : y ∈ l) :
    slotOf l y.1 = some y.2 := by
  induction l with
  | nil => cases h
  | cons z l ih =>
    rw [slotOf_cons]
    rw [List.map_cons, List.nodup_cons] at hn
    rcases List.mem_cons.mp h with rfl | h
    · rw [if_pos rfl]
    · rw [if_neg (by intro e; exact hn.1 (e ▸ List.mem_map_of_mem h))]
      exact ih hn.2 h

theorem mem_of_slotOf {l : List (Fin n × α × Slot β)} {s : Fin n} {x : α × Slot β} (h : slotOf l s = some x) : (s, x) ∈ l := by
  induction l with
  | nil => cases h
  | cons z l ih =>
    rw [slotOf_cons] at h
    split at h
    · rename_i hz
      cases h
      rw [← hz]
      exact List.mem_cons_self
    · exact List.mem_cons_of_mem _ (ih h)

theorem slotOf_none {l : List (Fin n × α × Slot β)} {s : Fin n} (h : slotOf l s = none) : ∀ y ∈ l, y.1 ≠ s := by
  induction l with
  | nil => simp
  | cons z l ih =>
    rw [slotOf_cons] at h
    split at h
    · cases h
    · rename_i hz
      intro y hy
      rcases List.mem_cons.mp hy with rfl | hy
      · exact hz
      · exact ih h y hy

/-! ## One client and one range server -/

/-- The listener has a request of `c` and has not sent all of the response. -/
def Active (c : Fin n) : Listener n α β → Prop
  | .sized c' _ => c' = c
  | .got c' _ => c' = c
  | .sendSize c' _ _ => c' = c
  | _ => False

/-- All states of the exchange of messages; `H` are the exchanges that are over. -/
inductive Joint (sys : Sys n α β W) (H : List (α × β)) (f : Fin L → Listener n α β) (c : Fin n) :
    Option (α × Slot β) → Pair α β → List (α × β) → Prop where
  | free (v : Option (α × Slot β)) (hv : v = none ∨ (∃ p, v = some (p, .todo)) ∨ ∃ p r, v = some (p, .done r))
      (ha : ∀ j, ¬ Active c (f j)) :
      Joint sys H f c v ⟨⟨H.map (sys.reqSize ·.1), H.length⟩, ⟨H.map (·.1), H.length⟩, ⟨H.map (sys.resSize ·.2), H.length⟩,
        ⟨H.map (·.2), H.length⟩⟩ H
  | half (p : α) (ha : ∀ j, ¬ Active c (f j)) :
      Joint sys H f c (some (p, .half H.length)) ⟨⟨H.map (sys.reqSize ·.1) ++ [sys.reqSize p], H.length⟩,
        ⟨H.map (·.1), H.length⟩, ⟨H.map (sys.resSize ·.2), H.length⟩, ⟨H.map (·.2), H.length⟩⟩ H
  | halfTaken (p : α) (j : Fin L) (hj : f j = .sized c (sys.reqSize p)) (ha : ∀ j', Active c (f j') → j' = j) :
      Joint sys H f c (some (p, .half H.length)) ⟨⟨H.map (sys.reqSize ·.1) ++ [sys.reqSize p], H.length + 1⟩,
        ⟨H.map (·.1), H.length⟩, ⟨H.map (sys.resSize ·.2), H.length⟩, ⟨H.map (·.2), H.length⟩⟩ H
  | full (p : α) (ha : ∀ j, ¬ Active c (f j)) :
      Joint sys H f c (some (p, .full H.length H.length)) ⟨⟨H.map (sys.reqSize ·.1) ++ [sys.reqSize p], H.length⟩,
        ⟨H.map (·.1) ++ [p], H.length⟩, ⟨H.map (sys.resSize ·.2), H.length⟩, ⟨H.map (·.2), H.length⟩⟩ H
  | fullTaken (p : α) (j : Fin L) (hj : f j = .sized c (sys.reqSize p)) (ha : ∀ j', Active c (f j') → j' = j) :
      Joint sys H f c (some (p, .full H.length H.length)) ⟨⟨H.map (sys.reqSize ·.1) ++ [sys.reqSize p], H.length + 1⟩,
        ⟨H.map (·.1) ++ [p], H.length⟩, ⟨H.map (sys.resSize ·.2), H.length⟩, ⟨H.map (·.2), H.length⟩⟩ H
  | got (p : α) (j : Fin L) (hj : f j = .got c p) (ha : ∀ j', Active c (f j') → j' = j) :
      Joint sys H f c (some (p, .full H.length H.length)) ⟨⟨H.map (sys.reqSize ·.1) ++ [sys.reqSize p], H.length + 1⟩,
        ⟨H.map (·.1) ++ [p], H.length + 1⟩, ⟨H.map (sys.resSize ·.2), H.length⟩, ⟨H.map (·.2), H.length⟩⟩ H
  | served (p : α) (r : β) (j : Fin L) (x : Slot β) (t : Nat) (hj : f j = .sendSize c r H.length)
      (ha : ∀ j', Active c (f j') → j' = j)
      (hx : (x = .full H.length H.length ∧ t = H.length) ∨ (x = .sized (sys.resSize r) ∧ t = H.length + 1)) :
      Joint sys H f c (some (p, x)) ⟨⟨H.map (sys.reqSize ·.1) ++ [sys.reqSize p], H.length + 1⟩,
        ⟨H.map (·.1) ++ [p], H.length + 1⟩, ⟨H.map (sys.resSize ·.2) ++ [sys.resSize r], t⟩, ⟨H.map (·.2), H.length⟩⟩
        (H ++ [(p, r)])
  | answered (p : α) (r : β) (x : Slot β) (t : Nat) (ha : ∀ j, ¬ Active c (f j))
      (hx : (x = .full H.length H.length ∧ t = H.length) ∨ (x = .sized (sys.resSize r) ∧ t = H.length + 1)) :
      Joint sys H f c (some (p, x)) ⟨⟨H.map (sys.reqSize ·.1) ++ [sys.reqSize p], H.length + 1⟩,
        ⟨H.map (·.1) ++ [p], H.length + 1⟩, ⟨H.map (sys.resSize ·.2) ++ [sys.resSize r], t⟩, ⟨H.map (·.2) ++ [r], H.length⟩⟩
        (H ++ [(p, r)])

/-- Listeners that have nothing to do with `c` do not matter. -/
theorem Joint.listener {H : List (α × β)} {f g : Fin L → Listener n α β} {c : Fin n} {v : Option (α × Slot β)} {pr : Pair α β}
    {lg : List (α × β)} (h : Joint sys H f c v pr lg) (hfg : ∀ j, f j = g j ∨ (¬ Active c (f j) ∧ ¬ Active c (g j))) :
    Joint sys H g c v pr lg := by
  have h0 : (∀ j, ¬ Active c (f j)) → ∀ j, ¬ Active c (g j) := by
    intro ha j
    rcases hfg j with e | e
    · rw [← e]; exact ha j
    · exact e.2
  have h1 : ∀ j, (∀ j', Active c (f j') → j' = j) → ∀ j', Active c (g j') → j' = j := by
    intro j ha j' hj'
    rcases hfg j' with e | e
    · rw [← e] at hj'; exact ha j' hj'
    · exact absurd hj' e.2
  have h2 : ∀ j x, f j = x → Active c x → g j = x := by
    intro j x hx hact
    rcases hfg j with e | e
    · rw [← e]; exact hx
    · rw [hx] at e; exact absurd hact e.1
  cases h with
  | free _ hv ha => exact .free _ hv (h0 ha)
  | half p ha => exact .half p (h0 ha)
  | halfTaken p j hj ha => exact .halfTaken p j (h2 _ _ hj rfl) (h1 _ ha)
  | full p ha => exact .full p (h0 ha)
  | fullTaken p j hj ha => exact .fullTaken p j (h2 _ _ hj rfl) (h1 _ ha)
  | got p j hj ha => exact .got p j (h2 _ _ hj rfl) (h1 _ ha)
  | served p r j x t hj ha hx => exact .served p r j x t (h2 _ _ hj rfl) (h1 _ ha) hx
  | answered p r x t ha hx => exact .answered p r x t (h0 ha) hx

/-! ## All clients and range servers -/

/-- What a request can be in each stage. -/
def StageOk : Stage → Slot β → Prop
  | .sending, x => x = .todo ∨ (∃ q, x = .half q) ∨ ∃ q q', x = .full q q'
  | .sizes, x => (∃ q q', x = .full q q') ∨ ∃ len, x = .sized len
  | .datas, x => (∃ len, x = .sized len) ∨ ∃ r, x = .done r

/-- The request to `s` that is not over. -/
def current (v : Option (α × Slot β)) : List α :=
  match v with
  | some (_, .done _) => []
  | some (p, _) => [p]
  | none => []

/-- The response that was received in this round. -/
def received (v : Option (α × Slot β)) : List β :=
  match v with
  | some (_, .done r) => [r]
  | _ => []

/-- The ranks of the current round. -/
def keys (x : Phase n α β) : List (Fin n × Bool) :=
  match x with
  | .ready => []
  | .round _ slots => slots.map (fun y => (y.1, true))

structure ClientInv (prog : List (Act n α)) (c : Fin n) (x : Client n α β) (H : Fin n → List (α × β)) (log : List (Entry n α β)) :
    Prop where
  acts : ∃ pre, prog = pre ++ x.acts
  nodup : ∀ stage slots, x.phase = .round stage slots → (slots.map Prod.fst).Nodup ∧ (∀ y ∈ slots, StageOk stage y.2.2) ∧
    ∃ l, Act.remote l ∈ prog ∧ slots.map Prod.fst = l.map Prod.fst
  requests : ∀ s, sentTo s true (targets c prog) = (H s).map Prod.fst ++ current (view x.phase s) ++ sentTo s true (targets c x.acts)
  responses : ∀ s, (H s).map Prod.snd = gotFrom s true x.results ++ received (view x.phase s)
  order : (targets c prog).map (fun y => (y.1, y.2.1)) =
    x.results.map (fun y => (y.rank, y.wire)) ++ keys x.phase ++ (targets c x.acts).map (fun y => (y.1, y.2.1))
  localReq : ∀ s, (logOf c s false log).map Prod.fst ++ sentTo s false (targets c x.acts) = sentTo s false (targets c prog)
  localRes : ∀ s, (logOf c s false log).map Prod.snd = gotFrom s false x.results

structure Inv (sys : Sys n α β W) (Good : W → Prop) (w : W) (prog : Fin n → List (Act n α)) (H : Fin n → Fin n → List (α × β))
    (st : St n L α β W) : Prop where
  bad : st.bad = false
  good : Good st.world
  world : Executes sys.serve w st.log st.world
  client : ∀ c, ClientInv (prog c) c (st.client c) (H c) st.log
  joint : ∀ c s, Joint sys (H c s) (st.listener s) c (view (st.client c).phase s) (st.pair c s) (logOf c s true st.log)
  pending : ∀ s j d len q, st.listener s j = .sendData d len q → q < (st.pair d s).dataRes.msgs.length
  once : ∀ s j j' d len len' q, st.listener s j = .sendData d len q → st.listener s j' = .sendData d len' q → j = j'

theorem inv_init {Good : W → Prop} (w : W) (hw : Good w) (prog : Fin n → List (Act n α)) :
    Inv (L := L) (β := β) sys Good w prog (fun _ _ => []) (init w prog) := by
  refine ⟨rfl, hw, rfl, ?_, ?_, ?_, ?_⟩
  · intro c
    refine ⟨⟨[], rfl⟩, ?_, ?_, ?_, ?_, ?_, ?_⟩
    · intro stage slots h; cases h
    · intro s; rfl
    · intro s; rfl
    · rfl
    · intro s; rfl
    · intro s; rfl
  · intro c s
    exact .free _ (Or.inl rfl) (fun j h => h)
  · intro s j d len q h; cases h
  · intro s j j' d len len' q h; cases h

theorem executes_snoc {serve : W → Fin n → α → Out (W × Fin n × β)} {w u v : W} {log : List (Entry n α β)} {x : Entry n α β}
    {d : Fin n} (h : Executes serve w log u) (hx : serve u x.rank x.req = .ok (v, d, x.res)) : Executes serve w (log ++ [x]) v := by
  induction log generalizing w with
  | nil => cases h; exact ⟨v, d, hx, rfl⟩
  | cons y log ih =>
    obtain ⟨u', d', h1, h2⟩ := h
    exact ⟨u', d', h1, ih h2⟩

theorem logOf_snoc (c s : Fin n) (b : Bool) (log : List (Entry n α β)) (x : Entry n α β) :
    logOf c s b (log ++ [x]) = logOf c s b log ++ if x.src = c ∧ x.rank = s ∧ x.wire = b then [(x.req, x.res)] else [] := by
  unfold logOf
  rw [List.filter_append, List.map_append]
  congr 1
  by_cases h : x.src = c ∧ x.rank = s ∧ x.wire = b <;> simp [h]

theorem sentTo_append (s : Fin n) (b : Bool) (l l' : List (Fin n × Bool × α)) : sentTo s b (l ++ l') = sentTo s b l ++ sentTo s b l' := by
  unfold sentTo
  rw [List.filter_append, List.map_append]

theorem gotFrom_append (s : Fin n) (b : Bool) (l l' : List (Got n β)) : gotFrom s b (l ++ l') = gotFrom s b l ++ gotFrom s b l' := by
  unfold gotFrom
  rw [List.filter_append, List.map_append]

theorem mem_sentTo {s : Fin n} {b : Bool} {l : List (Fin n × Bool × α)} {p : α} : p ∈ sentTo s b l ↔ (s, b, p) ∈ l := by
  unfold sentTo
  rw [List.mem_map]
  constructor
  · rintro ⟨⟨s', b', p'⟩, h, rfl⟩
    rw [List.mem_filter] at h
    simp only [decide_eq_true_eq] at h
    rw [← h.2.1, ← h.2.2]
    exact h.1
  · intro h
    exact ⟨_, List.mem_filter.mpr ⟨h, by simp⟩, rfl⟩

/-! ## Steps -/

variable {Good : W → Prop} {w : W} {prog : Fin n → List (Act n α)} {H : Fin n → Fin n → List (α × β)}
  {st st' : St n L α β W}

/-- A step of a client. -/
theorem inv_client (h : Inv sys Good w prog H st) {c : Fin n} {x : Client n α β} {Hc : Fin n → List (α × β)}
    {pr : Fin n → Pair α β} (hx : ClientInv (prog c) c x Hc st.log)
    (hj : ∀ s, Joint sys (Hc s) (st.listener s) c (view x.phase s) (pr s) (logOf c s true st.log))
    (hp : ∀ s, (st.pair c s).dataRes.msgs.length ≤ (pr s).dataRes.msgs.length) :
    Inv sys Good w prog (update H c Hc) { st with client := update st.client c x, pair := update st.pair c pr } := by
  refine ⟨h.bad, h.good, h.world, ?_, ?_, ?_, h.once⟩
  · intro c'
    by_cases hc : c' = c
    · subst hc
      simp only [update_self]
      exact hx
    · simp only [update_of_ne hc]
      exact h.client c'
  · intro c' s
    by_cases hc : c' = c
    · subst hc
      simp only [update_self]
      exact hj s
    · simp only [update_of_ne hc]
      exact h.joint c' s
  · intro s j d len q hl
    have := h.pending s j d len q hl
    by_cases hc : d = c
    · subst hc
      simp only [update_self]
      exact Nat.lt_of_lt_of_le this (hp s)
    · simp only [update_of_ne hc]
      exact this

/-- A step of a listener. -/
theorem inv_listener (h : Inv sys Good w prog H st) {c s : Fin n} {j : Fin L} {x : Listener n α β} {pr : Pair α β}
    {log : List (Entry n α β)} {w' : W} (hg : Good w') (hw : Executes sys.serve w log w')
    (hlog : ∀ c' s' b, (c', s', b) ≠ (c, s, true) → logOf c' s' b log = logOf c' s' b st.log)
    (hj : Joint sys (H c s) (update (st.listener s) j x) c (view (st.client c).phase s) pr (logOf c s true log))
    (hold : ∀ c', c' ≠ c → ¬ Active c' (st.listener s j)) (hnew : ∀ c', c' ≠ c → ¬ Active c' x)
    (hx : ∀ d len q, x = .sendData d len q → d = c ∧ q < pr.dataRes.msgs.length ∧ (st.pair c s).dataRes.msgs.length ≤ q)
    (hp : (st.pair c s).dataRes.msgs.length ≤ pr.dataRes.msgs.length) :
    Inv sys Good w prog H { (st.setPair c s pr).setListener s j x with world := w', log := log } := by
  have hpair : ∀ c' s', (c', s') ≠ (c, s) → (st.setPair c s pr).pair c' s' = st.pair c' s' := by
    intro c' s' hne
    unfold St.setPair
    by_cases hc : c' = c
    · subst hc
      have hs : s' ≠ s := fun e => hne (by rw [e])
      simp only [update_self, update_of_ne hs]
    · simp only [update_of_ne hc]
  have hpair' : (st.setPair c s pr).pair c s = pr := by simp [St.setPair]
  refine ⟨h.bad, hg, hw, ?_, ?_, ?_, ?_⟩
  · intro c'
    obtain ⟨h1, h2, h3, h4, h5, h6, h7⟩ := h.client c'
    refine ⟨h1, h2, h3, h4, h5, ?_, ?_⟩
    · intro s'
      show (logOf c' s' false log).map Prod.fst ++ _ = _
      rw [hlog _ _ _ (by simp)]
      exact h6 s'
    · intro s'
      show (logOf c' s' false log).map Prod.snd = _
      rw [hlog _ _ _ (by simp)]
      exact h7 s'
  · intro c' s'
    show Joint sys (H c' s') (update st.listener s (update (st.listener s) j x) s') c' _ ((st.setPair c s pr).pair c' s') (logOf c' s' true log)
    by_cases hs : s' = s
    · subst hs
      rw [update_self]
      by_cases hc : c' = c
      · subst hc
        rw [hpair']
        exact hj
      · rw [hpair _ _ (by simp [hc]), hlog _ _ _ (by simp [hc])]
        refine (h.joint c' s').listener ?_
        intro j'
        by_cases hjj : j' = j
        · subst hjj
          rw [update_self]
          exact Or.inr ⟨hold c' hc, hnew c' hc⟩
        · rw [update_of_ne hjj]
          exact Or.inl rfl
    · rw [update_of_ne hs, hpair _ _ (by simp [hs]), hlog _ _ _ (by simp [hs])]
      exact h.joint c' s'
  · intro s' j' d len q hl
    change update st.listener s (update (st.listener s) j x) s' j' = _ at hl
    show q < ((st.setPair c s pr).pair d s').dataRes.msgs.length
    have key : st.listener s' j' = .sendData d len q → q < ((st.setPair c s pr).pair d s').dataRes.msgs.length := by
      intro e
      have := h.pending s' j' d len q e
      by_cases hd : (d, s') = (c, s)
      · cases hd
        rw [hpair']
        exact Nat.lt_of_lt_of_le this hp
      · rw [hpair _ _ hd]
        exact this
    by_cases hs : s' = s
    · subst hs
      rw [update_self] at hl
      by_cases hjj : j' = j
      · subst hjj
        rw [update_self] at hl
        obtain ⟨rfl, h2, -⟩ := hx d len q hl
        rw [hpair']
        exact h2
      · rw [update_of_ne hjj] at hl
        exact key hl
    · rw [update_of_ne hs] at hl
      exact key hl
  · intro s' j1 j2 d len len' q h1 h2
    change update st.listener s (update (st.listener s) j x) s' _ = _ at h1
    change update st.listener s (update (st.listener s) j x) s' _ = _ at h2
    by_cases hs : s' = s
    · subst hs
      rw [update_self] at h1 h2
      by_cases e1 : j1 = j <;> by_cases e2 : j2 = j
      · rw [e1, e2]
      · subst e1
        rw [update_self] at h1
        rw [update_of_ne e2] at h2
        obtain ⟨rfl, -, h3⟩ := hx _ _ _ h1
        have := h.pending _ _ _ _ _ h2
        omega
      · subst e2
        rw [update_self] at h2
        rw [update_of_ne e1] at h1
        obtain ⟨rfl, -, h3⟩ := hx _ _ _ h2
        have := h.pending _ _ _ _ _ h1
        omega
      · rw [update_of_ne e1] at h1
        rw [update_of_ne e2] at h2
        exact h.once _ _ _ _ _ _ _ h1 h2
    · rw [update_of_ne hs] at h1 h2
      exact h.once _ _ _ _ _ _ _ h1 h2

theorem view_setSlot {slots : List (Fin n × α × Slot β)} {s : Fin n} {p : α} {y : Slot β} (h : slotOf slots s = some (p, y))
    (stage : Stage) (z : Slot β) (s' : Fin n) :
    view (.round stage (setSlot slots s z)) s' = if s' = s then some (p, z) else slotOf slots s' := by
  show slotOf _ _ = _
  by_cases hs : s' = s
  · subst hs
    rw [slotOf_setSlot h, if_pos rfl]
  · rw [slotOf_setSlot_ne hs, if_neg hs]

/-- The request to `s` makes progress. -/
theorem clientInv_slot {pg : List (Act n α)} {c : Fin n} {x : Client n α β} {Hc : Fin n → List (α × β)} {log : List (Entry n α β)}
    (h : ClientInv pg c x Hc log) {stage : Stage} {slots : List (Fin n × α × Slot β)} (hph : x.phase = .round stage slots)
    {s : Fin n} {p : α} {y z : Slot β} (hs : slotOf slots s = some (p, y)) (hz : StageOk stage z) (Hs : List (α × β))
    (hcur : Hs.map Prod.fst ++ current (some (p, z)) = (Hc s).map Prod.fst ++ current (some (p, y)))
    (hres : Hs.map Prod.snd = gotFrom s true x.results ++ received (some (p, z))) :
    ClientInv pg c { x with phase := .round stage (setSlot slots s z) } (update Hc s Hs) log := by
  have hview : ∀ s', view x.phase s' = slotOf slots s' := by intro s'; rw [hph]; rfl
  refine ⟨h.acts, ?_, ?_, ?_, ?_, h.localReq, h.localRes⟩
  · intro stage' slots' e
    cases e
    obtain ⟨h1, h2, h3⟩ := h.nodup stage slots hph
    refine ⟨by rw [setSlot_keys]; exact h1, ?_, by rw [setSlot_keys]; exact h3⟩
    intro u hu
    rcases mem_setSlot hu with hu | hu
    · exact h2 u hu.1
    · rw [hu]; exact hz
  · intro s'
    rw [h.requests s', hview]
    simp only [view_setSlot hs]
    by_cases hss : s' = s
    · subst hss
      rw [if_pos rfl, update_self, hs, hcur]
    · rw [if_neg hss, update_of_ne hss]
  · intro s'
    simp only [view_setSlot hs]
    by_cases hss : s' = s
    · subst hss
      rw [if_pos rfl, update_self, hres]
    · rw [if_neg hss, update_of_ne hss, h.responses s', hview]
  · rw [h.order, hph]
    simp only [keys]
    have : (setSlot slots s z).map (fun y => (y.1, true)) = slots.map (fun y => (y.1, true)) := by
      have := congrArg (List.map (fun (i : Fin n) => (i, true))) (setSlot_keys slots s z)
      rwa [List.map_map, List.map_map] at this
    rw [this]

theorem eq_setPhase (st : St n L α β W) (c s : Fin n) (pr : Pair α β) (x : Phase n α β) :
    (st.setPair c s pr).setPhase c x = { st with
      client := update st.client c { st.client c with phase := x }
      pair := update st.pair c (update (st.pair c) s pr) } := rfl

/-- A request of a round makes progress. -/
theorem inv_slot (h : Inv sys Good w prog H st) {c s : Fin n} {stage : Stage} {slots : List (Fin n × α × Slot β)}
    (hph : (st.client c).phase = .round stage slots) {p : α} {y z : Slot β} (hs : slotOf slots s = some (p, y))
    (hz : StageOk stage z) (Hs : List (α × β)) (pr : Pair α β)
    (hcur : Hs.map Prod.fst ++ current (some (p, z)) = (H c s).map Prod.fst ++ current (some (p, y)))
    (hres : Hs.map Prod.snd = gotFrom s true (st.client c).results ++ received (some (p, z)))
    (hj : Joint sys Hs (st.listener s) c (some (p, z)) pr (logOf c s true st.log))
    (hp : (st.pair c s).dataRes.msgs.length ≤ pr.dataRes.msgs.length) :
    Inv sys Good w prog (update H c (update (H c) s Hs)) ((st.setPair c s pr).setPhase c (.round stage (setSlot slots s z))) := by
  rw [eq_setPhase]
  refine inv_client h (clientInv_slot (h.client c) hph hs hz Hs hcur hres) ?_ ?_
  · intro s'
    simp only [view_setSlot hs]
    by_cases hss : s' = s
    · subst hss
      rw [if_pos rfl, update_self, update_self]
      exact hj
    · rw [if_neg hss, update_of_ne hss, update_of_ne hss]
      have := h.joint c s'
      rw [hph] at this
      exact this
  · intro s'
    by_cases hss : s' = s
    · subst hss
      rw [update_self]; exact hp
    · rw [update_of_ne hss]

theorem view_joint (h : Inv sys Good w prog H st) {c s : Fin n} {stage : Stage} {slots : List (Fin n × α × Slot β)}
    (hph : (st.client c).phase = .round stage slots) {x : α × Slot β} (hs : slotOf slots s = some x) :
    Joint sys (H c s) (st.listener s) c (some x) (st.pair c s) (logOf c s true st.log) := by
  have := h.joint c s
  rw [hph] at this
  simp only [view, hs] at this
  exact this

theorem notDone_responses (h : Inv sys Good w prog H st) {c s : Fin n} {stage : Stage} {slots : List (Fin n × α × Slot β)}
    (hph : (st.client c).phase = .round stage slots) {x : α × Slot β} (hs : slotOf slots s = some x)
    (hx : ∀ r, x.2 ≠ .done r) : (H c s).map Prod.snd = gotFrom s true (st.client c).results := by
  have := (h.client c).responses s
  rw [hph] at this
  simp only [view, hs] at this
  rw [this]
  obtain ⟨p, y⟩ := x
  cases y <;> simp [received]
  exact absurd rfl (hx _)

theorem inv_post (h : Inv sys Good w prog H st) {c s : Fin n} (hst : post sys st c s = some st') :
    ∃ H', Inv sys Good w prog H' st' := by
  unfold post at hst
  split at hst
  · rename_i slots hph
    split at hst
    · rename_i p hs
      cases hst
      have hj := view_joint h hph hs
      refine ⟨_, inv_slot h hph hs (Or.inr (Or.inl ⟨_, rfl⟩)) (H c s) _ rfl ?_ ?_ (Nat.le_refl _)⟩
      · rw [notDone_responses h hph hs (by simp)]; simp [received]
      · generalize hpr : st.pair c s = pr at hj ⊢
        generalize hlg : logOf c s true st.log = lg at hj ⊢
        cases hj with
        | free _ hv ha =>
          simp only [Chan.post, List.length_map]
          exact .half p ha
        | served _ _ _ _ _ _ _ hx => rcases hx with ⟨hx, -⟩ | ⟨hx, -⟩ <;> cases hx
        | answered _ _ _ _ _ hx => rcases hx with ⟨hx, -⟩ | ⟨hx, -⟩ <;> cases hx
    · rename_i p q hs
      cases hst
      have hj := view_joint h hph hs
      refine ⟨_, inv_slot h hph hs (Or.inr (Or.inr ⟨_, _, rfl⟩)) (H c s) _ rfl ?_ ?_ (Nat.le_refl _)⟩
      · rw [notDone_responses h hph hs (by simp)]; simp [received]
      · generalize hpr : st.pair c s = pr at hj ⊢
        generalize hlg : logOf c s true st.log = lg at hj ⊢
        cases hj with
        | free _ hv ha => rcases hv with hv | ⟨_, hv⟩ | ⟨_, _, hv⟩ <;> cases hv
        | half _ ha =>
          simp only [Chan.post, List.length_map]
          exact .full p ha
        | halfTaken _ j hj ha =>
          simp only [Chan.post, List.length_map]
          exact .fullTaken p j hj ha
        | served _ _ _ _ _ _ _ hx => rcases hx with ⟨hx, -⟩ | ⟨hx, -⟩ <;> cases hx
        | answered _ _ _ _ _ hx => rcases hx with ⟨hx, -⟩ | ⟨hx, -⟩ <;> cases hx
    · cases hst
  · cases hst

theorem inv_phase (h : Inv sys Good w prog H st) {c : Fin n} {stage stage' : Stage} {slots : List (Fin n × α × Slot β)}
    (hph : (st.client c).phase = .round stage slots) (hs : ∀ y ∈ slots, StageOk stage' y.2.2) :
    ∃ H', Inv sys Good w prog H' (st.setPhase c (.round stage' slots)) := by
  have hc := h.client c
  have key := inv_client (c := c) (x := { st.client c with phase := .round stage' slots }) (Hc := H c) (pr := st.pair c) h
    ⟨hc.acts, ?_, ?_, ?_, ?_, hc.localReq, hc.localRes⟩ ?_ (fun _ => Nat.le_refl _)
  · rw [Function.update_eq_self, Function.update_eq_self] at key
    exact ⟨_, key⟩
  · intro _ _ e
    cases e
    exact ⟨(hc.nodup _ _ hph).1, hs, (hc.nodup _ _ hph).2.2⟩
  · intro s; rw [hc.requests s, hph]; rfl
  · intro s; rw [hc.responses s, hph]; rfl
  · rw [hc.order, hph]; rfl
  · intro s
    have := h.joint c s
    rw [hph] at this
    exact this

theorem inv_sent (h : Inv sys Good w prog H st) {c : Fin n} (hst : sent sys st c = some st') : ∃ H', Inv sys Good w prog H' st' := by
  unfold sent at hst
  split at hst
  · rename_i slots hph
    split at hst
    · rename_i hall
      cases hst
      refine inv_phase h hph ?_
      intro y hy
      have := List.all_eq_true.mp hall y hy
      obtain ⟨a, b, x⟩ := y
      cases x <;> simp only [sentSlot, Bool.false_eq_true] at this
      exact Or.inl ⟨_, _, rfl⟩
    · cases hst
  · cases hst

theorem inv_sized (h : Inv sys Good w prog H st) {c : Fin n} (hst : sized st c = some st') : ∃ H', Inv sys Good w prog H' st' := by
  unfold sized at hst
  split at hst
  · rename_i slots hph
    split at hst
    · rename_i hall
      cases hst
      refine inv_phase h hph ?_
      intro y hy
      have := List.all_eq_true.mp hall y hy
      obtain ⟨a, b, x⟩ := y
      cases x <;> simp only [Slot.isSized, Bool.false_eq_true] at this
      exact Or.inl ⟨_, rfl⟩
    · cases hst
  · cases hst

theorem inv_size (h : Inv sys Good w prog H st) {c s : Fin n} (hst : size st c s = some st') : ∃ H', Inv sys Good w prog H' st' := by
  unfold size at hst
  split at hst
  · rename_i slots hph
    split at hst
    · rename_i p q q' hs
      have hj := view_joint h hph hs
      simp only at hst
      split at hst
      · rename_i len hnext
        cases hst
        refine ⟨_, inv_slot h hph hs (Or.inr ⟨_, rfl⟩) (H c s) _ rfl ?_ ?_ (Nat.le_refl _)⟩
        · rw [notDone_responses h hph hs (by simp)]; simp [received]
        · generalize hpr : st.pair c s = pr at hj hnext ⊢
          generalize hlg : logOf c s true st.log = lg at hj ⊢
          have none : ∀ (l : List Nat), (l[l.length]? : Option Nat) = some len → False := by simp
          cases hj with
          | free _ hv ha => rcases hv with hv | ⟨_, hv⟩ | ⟨_, _, hv⟩ <;> cases hv
          | full _ ha => simp [Chan.next?] at hnext
          | fullTaken _ j hj ha => simp [Chan.next?] at hnext
          | got _ j hj ha => simp [Chan.next?] at hnext
          | served _ r j _ t hj ha hx =>
            rcases hx with ⟨hx, rfl⟩ | ⟨hx, -⟩
            · simp only [Chan.next?, Chan.take] at hnext ⊢
              rw [List.getElem?_append_right (by simp)] at hnext
              simp at hnext
              subst hnext
              exact .served p r j _ _ hj ha (Or.inr ⟨rfl, rfl⟩)
            · cases hx
          | answered _ r _ t ha hx =>
            rcases hx with ⟨hx, rfl⟩ | ⟨hx, -⟩
            · simp only [Chan.next?, Chan.take] at hnext ⊢
              rw [List.getElem?_append_right (by simp)] at hnext
              simp at hnext
              subst hnext
              exact .answered p r _ _ ha (Or.inr ⟨rfl, rfl⟩)
            · cases hx
      · cases hst
    · cases hst
  · cases hst

theorem inv_data (h : Inv sys Good w prog H st) {c s : Fin n} (hst : data sys st c s = some st') : ∃ H', Inv sys Good w prog H' st' := by
  unfold data at hst
  split at hst
  · rename_i slots hph
    split at hst
    · rename_i p len hs
      have hj := view_joint h hph hs
      simp only at hst
      have hresp := notDone_responses h hph hs (by simp)
      split at hst
      · rename_i r hnext
        generalize hpr : st.pair c s = pr at hj hnext hst
        generalize hlg : logOf c s true st.log = lg at hj
        cases hj with
        | free _ hv ha => rcases hv with hv | ⟨_, hv⟩ | ⟨_, _, hv⟩ <;> cases hv
        | served _ r j _ t hj ha hx => simp [Chan.next?] at hnext
        | answered _ r' _ t ha hx =>
          rcases hx with ⟨hx, -⟩ | ⟨hx, rfl⟩
          · cases hx
          · cases hx
            simp only [Chan.next?] at hnext
            rw [List.getElem?_append_right (by simp)] at hnext
            simp at hnext
            subst hnext
            rw [if_pos rfl] at hst
            cases hst
            refine ⟨_, inv_slot h hph hs (Or.inr ⟨_, rfl⟩) (H c s ++ [(p, r')]) _ ?_ ?_ ?_ ?_⟩
            · simp [current]
            · simp [received, ← hresp]
            · rw [hlg]
              have := Joint.free (sys := sys) (H := H c s ++ [(p, r')]) (f := st.listener s) (c := c) (some (p, Slot.done r'))
                (Or.inr (Or.inr ⟨_, _, rfl⟩)) ha
              simpa [Chan.take] using this
            · rw [hpr]; simp [Chan.take]
      · cases hst
    · cases hst
  · cases hst

/-! ### Rounds -/

theorem slotOf_todo (l : List (Fin n × α)) (s : Fin n) :
    slotOf (β := β) (l.map (fun x => (x.1, x.2, .todo))) s = (l.find? (fun x => decide (x.1 = s))).map (fun x => (x.2, .todo)) := by
  induction l with
  | nil => rfl
  | cons y l ih =>
    rw [List.map_cons, slotOf_cons]
    simp only
    by_cases h : y.1 = s
    · rw [if_pos h, List.find?_cons_of_pos (by simp [h])]; rfl
    · rw [if_neg h, List.find?_cons_of_neg (by simp [h]), ih]

theorem current_todo {l : List (Fin n × α)} (hn : (l.map Prod.fst).Nodup) (s : Fin n) :
    current (slotOf (β := β) (l.map (fun x => (x.1, x.2, .todo))) s) = sentTo s true (l.map (fun x => (x.1, true, x.2))) := by
  rw [slotOf_todo]
  induction l with
  | nil => rfl
  | cons y l ih =>
    rw [List.map_cons, List.nodup_cons] at hn
    by_cases h : y.1 = s
    · rw [List.find?_cons_of_pos (by simp [h])]
      have : sentTo s true (l.map (fun x => (x.1, true, x.2))) = [] := by
        rw [List.eq_nil_iff_forall_not_mem]
        intro p hp
        obtain ⟨x, hx, e⟩ := List.mem_map.mp (mem_sentTo.mp hp)
        cases e
        exact hn.1 (by rw [h]; exact List.mem_map_of_mem hx)
      rw [List.map_cons, show ∀ (a : Fin n × Bool × α) l, a :: l = [a] ++ l from fun _ _ => rfl, sentTo_append, this]
      simp [sentTo, h, current]
    · rw [List.find?_cons_of_neg (by simp [h]), ih hn.2]
      simp [sentTo, h]

theorem received_todo (l : List (Fin n × α)) (s : Fin n) :
    received (slotOf (β := β) (l.map (fun x => (x.1, x.2, .todo))) s) = [] := by
  rw [slotOf_todo]
  cases l.find? (fun x => decide (x.1 = s)) <;> rfl

theorem gotFrom_slots {l : List (Fin n × α × Slot β)} (hn : (l.map Prod.fst).Nodup) (s : Fin n) :
    gotFrom s true (l.filterMap Slot.got?) = received (slotOf l s) := by
  induction l with
  | nil => rfl
  | cons y l ih =>
    rw [List.map_cons, List.nodup_cons] at hn
    have ih := ih hn.2
    rw [slotOf_cons, show y :: l = [y] ++ l from rfl, List.filterMap_append, gotFrom_append]
    by_cases h : y.1 = s
    · rw [if_pos h]
      have h0 : slotOf l s = none := by
        rcases Option.eq_none_or_eq_some (slotOf l s) with e | ⟨x, e⟩
        · exact e
        · exact absurd (List.mem_map_of_mem (f := Prod.fst) (mem_of_slotOf e)) (by rw [← h]; exact hn.1)
      rw [ih, h0]
      obtain ⟨a, b, x⟩ := y
      simp only at h
      subst h
      cases x <;> simp [gotFrom, Slot.got?, received]
    · rw [if_neg h, ih]
      obtain ⟨a, b, x⟩ := y
      simp only at h
      cases x <;> simp [gotFrom, Slot.got?, received, h]

theorem gotFrom_false (l : List (Fin n × α × Slot β)) (s : Fin n) : gotFrom s false (l.filterMap Slot.got?) = [] := by
  unfold gotFrom
  rw [List.filter_eq_nil_iff.mpr]
  · rfl
  · intro x hx
    obtain ⟨⟨a, b, y⟩, -, e⟩ := List.mem_filterMap.mp hx
    cases y <;> simp only [Slot.got?, Option.some.injEq, reduceCtorEq] at e
    subst e
    simp

theorem got_keys {l : List (Fin n × α × Slot β)} (h : (l.map Slot.got?).all (·.isSome) = true) :
    (l.filterMap Slot.got?).map (fun x => (x.rank, x.wire)) = l.map (fun y => (y.1, true)) := by
  induction l with
  | nil => rfl
  | cons y l ih =>
    rw [List.map_cons, List.all_cons, Bool.and_eq_true] at h
    obtain ⟨a, b, x⟩ := y
    cases x <;> simp only [Slot.got?, Option.isSome_none, Bool.false_eq_true, false_and] at h
    rw [List.map_cons, ← ih h.2]
    simp [Slot.got?]

theorem inv_finish (h : Inv sys Good w prog H st) {c : Fin n} (hst : finish st c = some st') : ∃ H', Inv sys Good w prog H' st' := by
  unfold finish at hst
  split at hst
  · rename_i slots hph
    split at hst
    · rename_i hall
      cases hst
      have hc := h.client c
      have hn := (hc.nodup _ _ hph).1
      have hdone : ∀ s x, slotOf slots s = some x → ∃ r, x.2 = .done r := by
        intro s x hs
        have := List.all_eq_true.mp hall _ (List.mem_map_of_mem (f := Slot.got?) (mem_of_slotOf hs))
        obtain ⟨p, x⟩ := x
        cases x <;> simp [Slot.got?] at this ⊢
      have key := inv_client (c := c) (x := { st.client c with phase := .ready, results := (st.client c).results ++ slots.filterMap Slot.got? })
        (Hc := H c) (pr := st.pair c) h ⟨hc.acts, ?_, ?_, ?_, ?_, hc.localReq, ?_⟩ ?_ (fun _ => Nat.le_refl _)
      · rw [Function.update_eq_self, Function.update_eq_self] at key
        exact ⟨_, key⟩
      · intro _ _ e; cases e
      · intro s
        rw [hc.requests s, hph]
        have : current (slotOf slots s) = [] := by
          rcases Option.eq_none_or_eq_some (slotOf slots s) with e | ⟨x, e⟩
          · rw [e]; rfl
          · obtain ⟨r, hr⟩ := hdone s x e
            rw [e]
            obtain ⟨p, x⟩ := x
            simp only at hr
            subst hr
            rfl
        show _ ++ current (slotOf slots s) ++ _ = _ ++ [] ++ _
        rw [this]
      · intro s
        rw [hc.responses s, hph]
        simp only [view]
        rw [gotFrom_append, gotFrom_slots hn]
        simp [received]
      · rw [hc.order, hph]
        simp only [keys, List.map_append, got_keys hall, List.append_nil]
      · intro s
        rw [gotFrom_append, gotFrom_false, List.append_nil]
        exact hc.localRes s
      · intro s
        have := h.joint c s
        rw [hph] at this
        simp only [view] at this ⊢
        rcases Option.eq_none_or_eq_some (slotOf slots s) with e | ⟨x, e⟩
        · rw [e] at this; exact this
        · obtain ⟨r, hr⟩ := hdone s x e
          rw [e] at this
          obtain ⟨p, x⟩ := x
          simp only at hr
          subst hr
          generalize st.pair c s = pr at this ⊢
          generalize logOf c s true st.log = lg at this ⊢
          cases this with
          | free _ _ ha => exact .free _ (Or.inl rfl) ha
          | served _ _ _ _ _ _ _ hx => rcases hx with ⟨hx, -⟩ | ⟨hx, -⟩ <;> cases hx
          | answered _ _ _ _ _ hx => rcases hx with ⟨hx, -⟩ | ⟨hx, -⟩ <;> cases hx
    · cases hst
  · cases hst

theorem target_mem (h : Inv sys Good w prog H st) {c s : Fin n} {p : α} {b : Bool}
    (hp : (s, b, p) ∈ targets c (st.client c).acts) : (s, b, p) ∈ targets c (prog c) := by
  obtain ⟨pre, hpre⟩ := (h.client c).acts
  have app : ∀ l l' : List (Act n α), targets c (l ++ l') = targets c l ++ targets c l' := by
    intro l l'
    induction l with
    | nil => rfl
    | cons a l ih => cases a <;> simp [targets, ih]
  rw [hpre, app]
  exact List.mem_append_right _ hp

theorem inv_start (hans : Answers sys prog Good) (hd : Distinct prog) (h : Inv sys Good w prog H st) {c : Fin n}
    (hst : start sys st c = some st') : ∃ H', Inv sys Good w prog H' st' := by
  have hc := h.client c
  unfold start at hst
  split at hst
  · rename_i l acts hph hacts
    cases hst
    obtain ⟨pre, hpre⟩ := hc.acts
    rw [hacts] at hpre
    have hn : (l.map Prod.fst).Nodup := hd c l (by rw [hpre]; simp)
    have key := inv_client (c := c) (x := ⟨acts, .round .sending (l.map (fun x => (x.1, x.2, .todo))), (st.client c).results⟩)
      (Hc := H c) (pr := st.pair c) h ⟨⟨pre ++ [.remote l], by rw [hpre]; simp⟩, ?_, ?_, ?_, ?_, ?_, hc.localRes⟩ ?_ (fun _ => Nat.le_refl _)
    · rw [Function.update_eq_self, Function.update_eq_self] at key
      exact ⟨_, key⟩
    · intro _ _ e
      cases e
      refine ⟨by rw [List.map_map]; exact hn, ?_, l, by rw [hpre]; simp, by rw [List.map_map]; rfl⟩
      intro y hy
      obtain ⟨x, -, rfl⟩ := List.mem_map.mp hy
      exact Or.inl rfl
    · intro s
      rw [hc.requests s, hph, hacts]
      show _ ++ [] ++ sentTo s true (l.map _ ++ targets c acts) = _ ++ current (slotOf (l.map _) s) ++ sentTo s true (targets c acts)
      rw [current_todo hn, sentTo_append, List.append_nil, List.append_assoc]
    · intro s
      rw [hc.responses s, hph]
      show _ ++ [] = _ ++ received (slotOf (l.map _) s)
      rw [received_todo]
    · rw [hc.order, hph, hacts]
      simp [keys, targets]
    · intro s
      rw [← hc.localReq s, hacts]
      simp only [targets, sentTo_append]
      congr 1
      have : sentTo s false (l.map (fun x => (x.1, true, x.2))) = [] := by
        rw [List.eq_nil_iff_forall_not_mem]
        intro p hp
        obtain ⟨x, -, e⟩ := List.mem_map.mp (mem_sentTo.mp hp)
        cases e
      rw [this, List.nil_append]
    · intro s
      have := h.joint c s
      rw [hph] at this
      simp only [view] at this ⊢
      generalize st.pair c s = pr at this ⊢
      generalize logOf c s true st.log = lg at this ⊢
      cases this with
      | free _ _ ha =>
        refine .free _ ?_ ha
        rw [slotOf_todo]
        cases l.find? (fun x => decide (x.1 = s)) with
        | none => exact Or.inl rfl
        | some y => exact Or.inr (Or.inl ⟨_, rfl⟩)
  · rename_i p acts hph hacts
    obtain ⟨w', r, hs, hg⟩ := hans st.world h.good c (c, false, p) (target_mem h (by rw [hacts]; simp [targets]))
    rw [hs] at hst
    cases hst
    have hlog : ∀ c' s b, logOf c' s b (st.log ++ [⟨c, c, false, p, r⟩]) = logOf c' s b st.log ++ if c = c' ∧ c = s ∧ false = b then [(p, r)] else [] := by
      intro c' s b; rw [logOf_snoc]
    refine ⟨H, h.bad, hg, executes_snoc h.world hs, ?_, ?_, ?_, h.once⟩
    · intro c'
      by_cases hcc : c' = c
      · subst hcc
        show ClientInv _ _ (update st.client c' _ c') _ (st.log ++ [_])
        rw [update_self]
        obtain ⟨pre, hpre⟩ := hc.acts
        rw [hacts] at hpre
        refine ⟨⟨pre ++ [.local p], by rw [hpre]; simp⟩, ?_, ?_, ?_, ?_, ?_, ?_⟩
        · intro _ _ e; cases e
        · intro s
          rw [hc.requests s, hph, hacts]
          simp [targets, view, current, sentTo]
        · intro s
          rw [hc.responses s, hph]
          simp [view, received, gotFrom_append]
          simp [gotFrom]
        · rw [hc.order, hph, hacts]
          simp [keys, targets]
        · intro s
          rw [← hc.localReq s, hacts, hlog, List.map_append]
          by_cases hs : c' = s <;> simp [hs, targets, sentTo]
        · intro s
          rw [hlog, List.map_append, hc.localRes s, gotFrom_append]
          by_cases hs : c' = s <;> simp [hs, gotFrom]
      · show ClientInv _ _ (update st.client c _ c') _ (st.log ++ [_])
        rw [update_of_ne hcc]
        obtain ⟨h1, h2, h3, h4, h5, h6, h7⟩ := h.client c'
        refine ⟨h1, h2, h3, h4, h5, ?_, ?_⟩
        · intro s
          rw [hlog, if_neg (by simp [Ne.symm hcc]), List.append_nil]
          exact h6 s
        · intro s
          rw [hlog, if_neg (by simp [Ne.symm hcc]), List.append_nil]
          exact h7 s
    · intro c' s
      show Joint sys (H c' s) (st.listener s) c' (view (update st.client c _ c').phase s) (st.pair c' s) (logOf c' s true (st.log ++ [_]))
      rw [hlog, if_neg (by simp), List.append_nil]
      by_cases hcc : c' = c
      · subst hcc
        rw [update_self]
        have := h.joint c' s
        rw [hph] at this
        exact this
      · rw [update_of_ne hcc]
        exact h.joint c' s
    · exact h.pending
  · cases hst

/-! ### Listeners -/

theorem eq_setListener (st : St n L α β W) (c s : Fin n) (j : Fin L) (pr : Pair α β) (x : Listener n α β) :
    (st.setPair c s pr).setListener s j x =
      { (st.setPair c s pr).setListener s j x with world := st.world, log := st.log } := rfl

theorem others {f : Fin L → Listener n α β} {c : Fin n} {j : Fin L} {x : Listener n α β}
    (h : ∀ j', ¬ Active c (f j')) : ∀ j', Active c (update f j x j') → j' = j := by
  intro j' hj'
  refine Classical.byContradiction (fun hne => ?_)
  rw [update_of_ne hne] at hj'
  exact h j' hj'

theorem others' {f : Fin L → Listener n α β} {c : Fin n} {j : Fin L} {x : Listener n α β}
    (h : ∀ j', Active c (f j') → j' = j) : ∀ j', Active c (update f j x j') → j' = j := by
  intro j' hj'
  refine Classical.byContradiction (fun hne => ?_)
  rw [update_of_ne hne] at hj'
  exact hne (h j' hj')

theorem nobody {f : Fin L → Listener n α β} {c : Fin n} {j : Fin L} {x : Listener n α β} (hx : ¬ Active c x)
    (h : ∀ j', Active c (f j') → j' = j) : ∀ j', ¬ Active c (update f j x j') := by
  intro j' hj'
  by_cases hne : j' = j
  · subst hne; rw [update_self] at hj'; exact hx hj'
  · rw [update_of_ne hne] at hj'
    exact hne (h j' hj')

theorem inv_listen (h : Inv sys Good w prog H st) {c s : Fin n} {j : Fin L} (hst : listen st s j c = some st') :
    ∃ H', Inv sys Good w prog H' st' := by
  unfold listen at hst
  split at hst
  · rename_i hl
    simp only at hst
    split at hst
    · rename_i len hnext
      cases hst
      rw [eq_setListener]
      have hj := h.joint c s
      refine ⟨H, inv_listener h h.good h.world (fun _ _ _ _ => rfl) ?_ ?_ ?_ ?_ (Nat.le_refl _)⟩
      · generalize st.pair c s = pr at hj hnext ⊢
        generalize view (st.client c).phase s = v at hj ⊢
        generalize logOf c s true st.log = lg at hj ⊢
        cases hj with
        | free _ _ ha => simp [Chan.next?] at hnext
        | half p ha =>
          simp only [Chan.next?] at hnext
          rw [List.getElem?_append_right (by simp)] at hnext
          simp at hnext
          subst hnext
          exact .halfTaken p j (update_self ..) (others ha)
        | full p ha =>
          simp only [Chan.next?] at hnext
          rw [List.getElem?_append_right (by simp)] at hnext
          simp at hnext
          subst hnext
          exact .fullTaken p j (update_self ..) (others ha)
        | halfTaken => simp [Chan.next?] at hnext
        | fullTaken => simp [Chan.next?] at hnext
        | got => simp [Chan.next?] at hnext
        | served => simp [Chan.next?] at hnext
        | answered => simp [Chan.next?] at hnext
      · intro c' _; rw [hl]; exact fun e => e
      · intro c' hc; exact fun e => hc e.symm
      · intro d len q e; cases e
    · cases hst
  · cases hst

theorem inv_listener_step (hans : Answers sys prog Good) (h : Inv sys Good w prog H st) {s : Fin n} {j : Fin L}
    (hst : listener sys st s j = some st') : ∃ H', Inv sys Good w prog H' st' := by
  unfold listener at hst
  split at hst
  · cases hst
  · -- the data of the request
    rename_i c len hl
    simp only at hst
    split at hst
    · rename_i p hnext
      have hj := h.joint c s
      have hact : Active c (st.listener s j) := by rw [hl]; rfl
      generalize hpr : st.pair c s = pr at hj hnext hst
      generalize hv : view (st.client c).phase s = v at hj
      generalize hlg : logOf c s true st.log = lg at hj
      cases hj with
      | free _ _ ha => exact absurd hact (ha j)
      | half p ha => exact absurd hact (ha j)
      | full p ha => exact absurd hact (ha j)
      | answered _ _ _ _ ha => exact absurd hact (ha j)
      | halfTaken p j' hj' ha => simp [Chan.next?] at hnext
      | fullTaken p' j' hj' ha =>
        have := ha j hact
        subst this
        rw [hl] at hj'
        cases hj'
        simp only [Chan.next?] at hnext
        rw [List.getElem?_append_right (by simp)] at hnext
        simp at hnext
        subst hnext
        rw [if_pos rfl] at hst
        cases hst
        rw [eq_setListener]
        refine ⟨H, inv_listener h h.good h.world (fun _ _ _ _ => rfl) ?_ ?_ ?_ ?_ (by rw [hpr])⟩
        · rw [hv, hlg]
          exact .got p' j (update_self ..) (others' ha)
        · intro c' hc; rw [hl]; exact fun e => hc e.symm
        · intro c' hc; exact fun e => hc e.symm
        · intro d len q e; cases e
      | got p' j' hj' ha =>
        have := ha j hact
        subst this
        rw [hl] at hj'
        cases hj'
      | served p' r j' x t hj' ha =>
        have := ha j hact
        subst this
        rw [hl] at hj'
        cases hj'
    · cases hst
  · -- processing
    rename_i c p hl
    have hj := h.joint c s
    have hact : Active c (st.listener s j) := by rw [hl]; rfl
    generalize hpr : st.pair c s = pr at hj
    generalize hv : view (st.client c).phase s = v at hj
    generalize hlg : logOf c s true st.log = lg at hj
    cases hj with
    | free _ _ ha => exact absurd hact (ha j)
    | half p ha => exact absurd hact (ha j)
    | full p ha => exact absurd hact (ha j)
    | answered _ _ _ _ ha => exact absurd hact (ha j)
    | halfTaken p j' hj' ha =>
      have := ha j hact
      subst this
      rw [hl] at hj'
      cases hj'
    | fullTaken p' j' hj' ha =>
      have := ha j hact
      subst this
      rw [hl] at hj'
      cases hj'
    | served p' r j' x t hj' ha =>
      have := ha j hact
      subst this
      rw [hl] at hj'
      cases hj'
    | got p' j' hj' ha =>
      have := ha j hact
      subst this
      rw [hl] at hj'
      cases hj'
      have hmem : (s, true, p) ∈ targets c (prog c) := by
        refine mem_sentTo.mp ?_
        rw [(h.client c).requests s, hv]
        simp [current]
      obtain ⟨w', r, hs, hg⟩ := hans st.world h.good c _ hmem
      simp only at hs
      rw [hs] at hst
      cases hst
      refine ⟨H, inv_listener h hg (executes_snoc h.world (x := ⟨c, s, true, p, r⟩) hs) ?_ ?_ ?_ ?_ ?_ (Nat.le_refl _)⟩
      · intro c' s' b hne
        rw [logOf_snoc, if_neg, List.append_nil]
        rintro ⟨rfl, rfl, rfl⟩
        exact hne rfl
      · rw [logOf_snoc, if_pos ⟨rfl, rfl, rfl⟩, hv, hlg, hpr]
        simp only [Chan.post, List.length_map]
        exact .served p r j _ _ (update_self ..) (others' ha) (Or.inl ⟨rfl, rfl⟩)
      · intro c' hc; rw [hl]; exact fun e => hc e.symm
      · intro c' hc; exact fun e => hc e.symm
      · intro d len q e; cases e
  · -- the data of the response
    rename_i d r q hl
    simp only at hst
    split at hst
    · cases hst
      have hj := h.joint d s
      have hact : Active d (st.listener s j) := by rw [hl]; rfl
      generalize hpr : st.pair d s = pr at hj
      generalize hv : view (st.client d).phase s = v at hj
      generalize hlg : logOf d s true st.log = lg at hj
      cases hj with
      | free _ _ ha => exact absurd hact (ha j)
      | half p ha => exact absurd hact (ha j)
      | full p ha => exact absurd hact (ha j)
      | answered _ _ _ _ ha => exact absurd hact (ha j)
      | halfTaken p j' hj' ha =>
        have := ha j hact
        subst this
        rw [hl] at hj'
        cases hj'
      | fullTaken p' j' hj' ha =>
        have := ha j hact
        subst this
        rw [hl] at hj'
        cases hj'
      | got p' j' hj' ha =>
        have := ha j hact
        subst this
        rw [hl] at hj'
        cases hj'
      | served p' r' j' x t hj' ha hx =>
        have := ha j hact
        subst this
        rw [hl] at hj'
        cases hj'
        rw [eq_setListener]
        refine ⟨H, inv_listener h h.good h.world (fun _ _ _ _ => rfl) ?_ ?_ ?_ ?_ (by rw [hpr]; simp [Chan.post])⟩
        · rw [hv, hlg]
          exact .answered p' r x t (nobody (fun e => e) ha) hx
        · intro c' hc; rw [hl]; exact fun e => hc e.symm
        · intro c' _; exact fun e => e
        · intro d' len q e
          cases e
          refine ⟨rfl, by simp [Chan.post], ?_⟩
          rw [hpr]
    · cases hst
  · -- back to waiting
    rename_i d len q hl
    split at hst
    · cases hst
      have : st.setListener s j .idle = { (st.setPair d s (st.pair d s)).setListener s j .idle with world := st.world, log := st.log } := by
        simp [St.setListener, St.setPair]
      rw [this]
      refine ⟨H, inv_listener h h.good h.world (fun _ _ _ _ => rfl) ?_ ?_ ?_ ?_ (Nat.le_refl _)⟩
      · refine (h.joint d s).listener ?_
        intro j'
        by_cases hjj : j' = j
        · subst hjj
          rw [update_self, hl]
          exact Or.inr ⟨fun e => e, fun e => e⟩
        · rw [update_of_ne hjj]
          exact Or.inl rfl
      · intro c' _; rw [hl]; exact fun e => e
      · intro c' _; exact fun e => e
      · intro d len q e; cases e
    · cases hst

theorem inv_step (hans : Answers sys prog Good) (hd : Distinct prog) (h : Inv sys Good w prog H st) {l : Label n L}
    (hst : step sys st l = some st') : ∃ H', Inv sys Good w prog H' st' := by
  unfold step at hst
  rw [h.bad] at hst
  cases l with
  | start c => exact inv_start hans hd h hst
  | post c s => exact inv_post h hst
  | sent c => exact inv_sent h hst
  | size c s => exact inv_size h hst
  | sized c => exact inv_sized h hst
  | data c s => exact inv_data h hst
  | finish c => exact inv_finish h hst
  | listen s j c => exact inv_listen h hst
  | listener s j => exact inv_listener_step hans h hst

theorem inv_run (hans : Answers sys prog Good) (hd : Distinct prog) (ls : List (Label n L)) {st : St n L α β W} {H : Fin n → Fin n → List (α × β)}
    (h : Inv sys Good w prog H st) (hst : run sys st ls = some st') : ∃ H', Inv sys Good w prog H' st' := by
  induction ls generalizing st H with
  | nil => cases hst; exact ⟨H, h⟩
  | cons l ls ih =>
    simp only [run, Option.bind_eq_bind, Option.bind_eq_some_iff] at hst
    obtain ⟨u, hu, hst⟩ := hst
    obtain ⟨H', h'⟩ := inv_step hans hd h hu
    exact ih h' hst

end Hx.Mpi

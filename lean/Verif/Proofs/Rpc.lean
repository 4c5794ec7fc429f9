import Verif.Spec.Rpc
import Verif.Proofs.MpiRounds

/-!
# Helper lemmas: requests and responses of ranks that use Thallium
-/

namespace Hx.Rpc
open Hx.Mpi (Act Got Entry logOf_snoc sentTo_append gotFrom_append mem_sentTo targets_append)
open Hx.Spec.Mpi (targets sentTo gotFrom logOf Distinct)
open Hx Spec.Rpc
open Function (update update_self update_of_ne)

variable {n : Nat} {α β W : Type} {sys : Sys n α β W}

/-! ## Slots -/

theorem slotOf_cons (y : Fin n × α × Slot β) (l : List (Fin n × α × Slot β)) (s : Fin n) :
    slotOf (y :: l) s = if y.1 = s then some y.2 else slotOf l s := by
  unfold slotOf
  by_cases h : y.1 = s
  · rw [List.find?_cons_of_pos (by simp [h]), if_pos h]; rfl
  · rw [List.find?_cons_of_neg (by simp [h]), if_neg h]

theorem slotOf_setSlot_ne {l : List (Fin n × α × Slot β)} {s s' : Fin n} (h : s' ≠ s) (x : Slot β) :
    slotOf (setSlot l s x) s' = slotOf l s' := by
  induction l with
  | nil => rfl
  | cons y l ih =>
    rw [setSlot, List.map_cons, slotOf_cons, slotOf_cons]
    change (if _ then _ else slotOf (setSlot l s x) s') = _
    rw [ih]
    by_cases hy : y.1 = s
    · rw [if_pos hy]
      simp only
      rw [if_neg (by rw [hy]; exact fun e => h e.symm), if_neg (by rw [hy]; exact fun e => h e.symm)]
    · rw [if_neg hy]

theorem slotOf_setSlot {l : List (Fin n × α × Slot β)} {s : Fin n} {p : α} {y : Slot β} (h : slotOf l s = some (p, y)) (x : Slot β) :
    slotOf (setSlot l s x) s = some (p, x) := by
  induction l with
  | nil => cases h
  | cons z l ih =>
    rw [slotOf_cons] at h
    rw [setSlot, List.map_cons, slotOf_cons]
    change (if _ then _ else slotOf (setSlot l s x) s) = _
    by_cases hz : z.1 = s
    · rw [if_pos hz] at h
      have h := Option.some.inj h
      simp [hz, h]
    · rw [if_neg hz] at h
      rw [if_neg hz, if_neg hz]
      exact ih h

theorem setSlot_reqs (l : List (Fin n × α × Slot β)) (s : Fin n) (x : Slot β) :
    (setSlot l s x).map (fun y => (y.1, y.2.1)) = l.map (fun y => (y.1, y.2.1)) := by
  unfold setSlot
  rw [List.map_map]
  refine List.map_congr_left ?_
  intro y _
  simp only [Function.comp]
  split <;> rfl

theorem slotOf_of_mem {l : List (Fin n × α × Slot β)} (hn : (l.map Prod.fst).Nodup) {y : Fin n × α × Slot β} (h : y ∈ l) :
    slotOf l y.1 = some y.2 := by
  induction l with
  | nil => cases h
  | cons z l ih =>
    rw [slotOf_cons]
    rw [List.map_cons, List.nodup_cons] at hn
    rcases List.mem_cons.mp h with rfl | h
    · rw [if_pos rfl]
    · rw [if_neg (by intro e; exact hn.1 (e ▸ List.mem_map_of_mem h))]
      exact ih hn.2 h

theorem mem_of_slotOf {l : List (Fin n × α × Slot β)} {s : Fin n} {x : α × Slot β} (h : slotOf l s = some x) : (s, x) ∈ l := by
  induction l with
  | nil => cases h
  | cons z l ih =>
    rw [slotOf_cons] at h
    split at h
    · rename_i hz
      cases h
      rw [← hz]
      exact List.mem_cons_self
    · exact List.mem_cons_of_mem _ (ih h)

theorem slotOf_todo {l : List (Fin n × α)} {s : Fin n} {x : α × Slot β}
    (h : slotOf (l.map (fun x => (x.1, x.2, .todo))) s = some x) : x.2 = .todo := by
  obtain ⟨y, -, hy⟩ := List.mem_map.mp (mem_of_slotOf h)
  cases hy
  rfl

/-- The response in a slot. -/
def received (x : Option (α × Slot β)) : List β :=
  match x with
  | some (_, .done r) => [r]
  | _ => []

theorem gotFrom_slots {l : List (Fin n × α × Slot β)} (hn : (l.map Prod.fst).Nodup) (s : Fin n) :
    gotFrom s true (l.filterMap Slot.got?) = received (slotOf l s) := by
  induction l with
  | nil => rfl
  | cons y l ih =>
    rw [List.map_cons, List.nodup_cons] at hn
    have ih := ih hn.2
    rw [slotOf_cons, show y :: l = [y] ++ l from rfl, List.filterMap_append, gotFrom_append]
    by_cases h : y.1 = s
    · rw [if_pos h]
      have h0 : slotOf l s = none := by
        rcases Option.eq_none_or_eq_some (slotOf l s) with e | ⟨x, e⟩
        · exact e
        · exact absurd (List.mem_map_of_mem (f := Prod.fst) (mem_of_slotOf e)) (by rw [← h]; exact hn.1)
      rw [ih, h0]
      obtain ⟨a, b, x⟩ := y
      simp only at h
      subst h
      cases x <;> simp [gotFrom, Slot.got?, received]
    · rw [if_neg h, ih]
      obtain ⟨a, b, x⟩ := y
      simp only at h
      cases x <;> simp [gotFrom, Slot.got?, received, h]

theorem gotFrom_false (l : List (Fin n × α × Slot β)) (s : Fin n) : gotFrom s false (l.filterMap Slot.got?) = [] := by
  unfold gotFrom
  rw [List.filter_eq_nil_iff.mpr]
  · rfl
  · intro x hx
    obtain ⟨⟨a, b, y⟩, -, e⟩ := List.mem_filterMap.mp hx
    cases y <;> simp only [Slot.got?, Option.some.injEq, reduceCtorEq] at e
    subst e
    simp

theorem got_keys {l : List (Fin n × α × Slot β)} (h : (l.map Slot.got?).all (·.isSome) = true) :
    (l.filterMap Slot.got?).map (fun x => (x.rank, x.wire)) = l.map (fun y => (y.1, true)) := by
  induction l with
  | nil => rfl
  | cons y l ih =>
    rw [List.map_cons, List.all_cons, Bool.and_eq_true] at h
    obtain ⟨a, b, x⟩ := y
    cases x <;> simp only [Slot.got?, Option.isSome_none, Bool.false_eq_true, false_and] at h
    rw [List.map_cons, ← ih h.2]
    simp [Slot.got?]

/-- The requests of a round for one rank. -/
theorem sentTo_slots {l : List (Fin n × α × Slot β)} (hn : (l.map Prod.fst).Nodup) (s : Fin n) (b : Bool) :
    sentTo s b (l.map (fun x => (x.1, true, x.2.1))) = if b then ((slotOf l s).map Prod.fst).toList else [] := by
  cases b with
  | false =>
    rw [if_neg (by simp), List.eq_nil_iff_forall_not_mem]
    intro p hp
    obtain ⟨y, -, e⟩ := List.mem_map.mp (mem_sentTo.mp hp)
    cases e
  | true =>
    rw [if_pos rfl]
    induction l with
    | nil => rfl
    | cons y l ih =>
      rw [List.map_cons, List.nodup_cons] at hn
      have ih := ih hn.2
      rw [List.map_cons, show ∀ (a : Fin n × Bool × α) l, a :: l = [a] ++ l from fun _ _ => rfl, sentTo_append, ih, slotOf_cons]
      by_cases h : y.1 = s
      · rw [if_pos h]
        have h0 : slotOf l s = none := by
          rcases Option.eq_none_or_eq_some (slotOf l s) with e | ⟨x, e⟩
          · exact e
          · exact absurd (List.mem_map_of_mem (f := Prod.fst) (mem_of_slotOf e)) (by rw [← h]; exact hn.1)
        rw [h0]
        simp [sentTo, h]
      · rw [if_neg h]
        simp [sentTo, h]

/-! ## Calls and buffers -/

def bufs (x : Call n α) : List (Fin n × Nat) := reqBuf x ++ resBuf x

theorem flatMap_split {γ δ : Type} (f : γ → List δ) {l : List γ} {i : Nat} {x : γ} (h : l[i]? = some x) :
    (l.flatMap f).Perm (f x ++ (l.eraseIdx i).flatMap f) := by
  induction l generalizing i with
  | nil => cases h
  | cons y l ih =>
    cases i with
    | zero =>
      rw [List.getElem?_cons_zero] at h
      cases h
      exact List.Perm.refl _
    | succ i =>
      rw [List.getElem?_cons_succ] at h
      rw [List.flatMap_cons, List.eraseIdx_cons_succ, List.flatMap_cons]
      refine ((ih h).append_left _).trans ?_
      rw [← List.append_assoc, ← List.append_assoc]
      exact List.perm_append_comm.append_right _

theorem eraseIdx_set {γ : Type} (l : List γ) (i : Nat) (x : γ) : (l.set i x).eraseIdx i = l.eraseIdx i := by
  induction l generalizing i with
  | nil => rfl
  | cons y l ih =>
    cases i with
    | zero => rfl
    | succ i => simp [ih]

theorem mem_eraseIdx {γ : Type} {l : List γ} {i j : Nat} {y : γ} (h : l[j]? = some y) (hij : j ≠ i) : y ∈ l.eraseIdx i := by
  induction l generalizing i j with
  | nil => cases h
  | cons z l ih =>
    cases i with
    | zero =>
      cases j with
      | zero => exact absurd rfl hij
      | succ j =>
        rw [List.getElem?_cons_succ] at h
        exact List.mem_of_getElem? h
    | succ i =>
      rw [List.eraseIdx_cons_succ]
      cases j with
      | zero =>
        rw [List.getElem?_cons_zero] at h
        cases h
        exact List.mem_cons_self
      | succ j =>
        rw [List.getElem?_cons_succ] at h
        exact List.mem_cons_of_mem _ (ih h (fun e => hij (by rw [e])))

/-- The buffers of one call, and those of the others. -/
theorem owned_iff {mem : Fin n → Nat → Option (Buf α β)} {calls : List (Call n α)} {i : Nat} {x : Call n α} (h : calls[i]? = some x) :
    ((calls.flatMap bufs).Nodup ∧ ∀ r a, (mem r a).isSome ↔ (r, a) ∈ calls.flatMap bufs) ↔
      (bufs x ++ (calls.eraseIdx i).flatMap bufs).Nodup ∧
        ∀ r a, (mem r a).isSome ↔ (r, a) ∈ bufs x ∨ (r, a) ∈ (calls.eraseIdx i).flatMap bufs := by
  have hp := flatMap_split bufs h
  rw [hp.nodup_iff]
  refine and_congr_right (fun _ => forall_congr' (fun r => forall_congr' (fun a => ?_)))
  rw [hp.mem_iff, List.mem_append]

/-! ## Invariant -/

/-- A stage in which the client waits for the response. -/
def Stage.isOpen : Stage α → Bool
  | .cleaning _ => false
  | .closed => false
  | _ => true

/-- What has become of the call for request `p`; `e` is what was processed. -/
def StageInv (sys : Sys n α β W) (mem : Fin n → Nat → Option (Buf α β)) (x : Call n α) (p : α) (e : List (α × β)) : Prop :=
  match x.stage with
  | .sent => mem x.src x.addr = some (.req p) ∧ e = []
  | .taken => mem x.src x.addr = some (.req p) ∧ e = []
  | .pulled q => q = p ∧ e = []
  | .replied len a => ∃ r, mem x.dst a = some (.res r) ∧ len = sys.resSize r ∧ e = [(p, r)]
  | .answered len a => ∃ r, mem x.dst a = some (.res r) ∧ len = sys.resSize r ∧ e = [(p, r)]
  | .cleaning _ => False
  | .closed => False

/-- What has become of a request of a round. -/
def SlotInv (sys : Sys n α β W) (mem : Fin n → Nat → Option (Buf α β)) (calls : List (Call n α)) (c s : Fin n) (p : α)
    (slot : Slot β) (e : List (α × β)) : Prop :=
  match slot with
  | .todo => e = []
  | .called i => ∃ x, calls[i]? = some x ∧ x.src = c ∧ x.dst = s ∧ x.len = sys.reqSize p ∧ StageInv sys mem x p e
  | .done r => e = [(p, r)]

/-- All requests of `pre` were processed and answered. -/
structure Past (c : Fin n) (pre : List (Act n α)) (H : Fin n → Bool → List (α × β)) (results : List (Got n β)) : Prop where
  requests : ∀ s b, (H s b).map Prod.fst = sentTo s b (targets c pre)
  responses : ∀ s b, gotFrom s b results = (H s b).map Prod.snd
  order : results.map (fun x => (x.rank, x.wire)) = (targets c pre).map (fun x => (x.1, x.2.1))

structure RoundInv (sys : Sys n α β W) (prog : List (Act n α)) (st : St n α β W) (c : Fin n) (acts : List (Act n α))
    (results : List (Got n β)) (ss : List (Fin n × α × Slot β)) (pre : List (Act n α)) (H : Fin n → Bool → List (α × β))
    (E : Fin n → List (α × β)) : Prop where
  prog : prog = pre ++ .remote (ss.map (fun x => (x.1, x.2.1))) :: acts
  past : Past c pre H results
  slots : ∀ s p x, slotOf ss s = some (p, x) → SlotInv sys st.mem st.calls c s p x (E s)
  none : ∀ s, slotOf ss s = none → E s = []
  log : ∀ s b, logOf c s b st.log = H s b ++ if b then E s else []

def ClientInv (sys : Sys n α β W) (prog : List (Act n α)) (st : St n α β W) (c : Fin n) (x : Client n α β) : Prop :=
  match x.phase with
  | .ready => ∃ pre, prog = pre ++ x.acts ∧ Past c pre (fun s b => logOf c s b st.log) x.results
  | .round slots => ∃ pre H E, RoundInv sys prog st c x.acts x.results slots pre H E

/-- Calls that are open belong to a request. -/
def Linked (st : St n α β W) : Prop :=
  ∀ i x, st.calls[i]? = some x → x.stage.isOpen = true →
    ∃ slots p, (st.client x.src).phase = .round slots ∧ slotOf slots x.dst = some (p, .called i)

structure Inv (sys : Sys n α β W) (Good : W → Prop) (w : W) (prog : Fin n → List (Act n α)) (st : St n α β W) : Prop where
  good : st.bad = false
  fit : Good st.world
  world : Executes sys.serve w st.log st.world
  owned : (st.calls.flatMap bufs).Nodup ∧ ∀ r a, (st.mem r a).isSome ↔ (r, a) ∈ st.calls.flatMap bufs
  linked : Linked st
  client : ∀ c, ClientInv sys (prog c) st c (st.client c)

variable {Good : W → Prop} {w : W} {prog : Fin n → List (Act n α)} {st st' : St n α β W}

theorem inv_init (w : W) (hw : Good w) (prog : Fin n → List (Act n α)) : Inv sys Good w prog (init w prog) where
  good := rfl
  fit := hw
  world := rfl
  owned := ⟨by simp [init], by simp [init]⟩
  linked := by
    intro i x h
    cases h
  client := fun c => ⟨[], rfl, fun _ _ => rfl, fun _ _ => rfl, rfl⟩

theorem executes_snoc {serve : W → Fin n → α → Out (W × β)} {w u v : W} {log : List (Entry n α β)} {x : Entry n α β}
    (h : Executes serve w log u) (hx : serve u x.rank x.req = .ok (v, x.res)) : Executes serve w (log ++ [x]) v := by
  induction log generalizing w with
  | nil => cases h; exact ⟨v, hx, rfl⟩
  | cons y log ih =>
    obtain ⟨u', h1, h2⟩ := h
    exact ⟨u', h1, ih h2⟩

/-- Slots whose calls and buffers do not change. -/
theorem slotInv_frame {mem mem' : Fin n → Nat → Option (Buf α β)} {calls calls' : List (Call n α)} {c s : Fin n} {p : α}
    {slot : Slot β} {e : List (α × β)} (h : SlotInv sys mem calls c s p slot e)
    (hf : ∀ i x, slot = .called i → calls[i]? = some x → calls'[i]? = some x ∧ ∀ k ∈ bufs x, mem' k.1 k.2 = mem k.1 k.2) :
    SlotInv sys mem' calls' c s p slot e := by
  cases slot with
  | todo => exact h
  | done r => exact h
  | called i =>
    obtain ⟨x, h1, h2, h3, h4, h5⟩ := h
    obtain ⟨f1, f2⟩ := hf i x rfl h1
    refine ⟨x, f1, h2, h3, h4, ?_⟩
    obtain ⟨src, dst, len, addr, stage⟩ := x
    cases stage with
    | sent =>
      have := f2 (src, addr) (by simp [bufs, reqBuf])
      exact ⟨this.trans h5.1, h5.2⟩
    | taken =>
      have := f2 (src, addr) (by simp [bufs, reqBuf])
      exact ⟨this.trans h5.1, h5.2⟩
    | pulled q => exact h5
    | replied len a =>
      have := f2 (dst, a) (by simp [bufs, reqBuf, resBuf])
      obtain ⟨r, g1, g2⟩ := h5
      exact ⟨r, this.trans g1, g2⟩
    | answered len a =>
      have := f2 (dst, a) (by simp [bufs, reqBuf, resBuf])
      obtain ⟨r, g1, g2⟩ := h5
      exact ⟨r, this.trans g1, g2⟩
    | cleaning a => exact h5.elim
    | closed => exact h5.elim

theorem logOf_other {c c' : Fin n} (h : c' ≠ c) {s s' : Fin n} {b b' : Bool} {p : α} {r : β} (log : List (Entry n α β)) :
    logOf c' s' b' (log ++ [⟨c, s, b, p, r⟩]) = logOf c' s' b' log := by
  rw [logOf_snoc, if_neg (fun e => h e.1.symm), List.append_nil]

/-- Clients that do nothing. -/
theorem clientInv_frame {pg : List (Act n α)} {c : Fin n} {x : Client n α β} (h : ClientInv sys pg st c x)
    (hlog : ∀ s b, logOf c s b st'.log = logOf c s b st.log)
    (hf : ∀ slots s p i y, x.phase = .round slots → slotOf slots s = some (p, .called i) → st.calls[i]? = some y →
      y.stage.isOpen = true → y.src = c → y.dst = s → st'.calls[i]? = some y ∧ ∀ k ∈ bufs y, st'.mem k.1 k.2 = st.mem k.1 k.2) :
    ClientInv sys pg st' c x := by
  obtain ⟨acts, phase, results⟩ := x
  cases phase with
  | ready =>
    obtain ⟨pre, h1, h2⟩ := h
    refine ⟨pre, h1, ?_⟩
    simp only [hlog]
    exact h2
  | round slots =>
    obtain ⟨pre, H, E, h⟩ := h
    refine ⟨pre, H, E, h.prog, h.past, ?_, h.none, fun s b => by rw [hlog]; exact h.log s b⟩
    intro s p y hs
    have hy := h.slots s p y hs
    refine slotInv_frame hy ?_
    intro i z hi hz
    subst hi
    obtain ⟨z', g1, g2, g3, g4, g5⟩ := hy
    rw [hz] at g1
    cases g1
    refine hf slots s p i z rfl hs hz ?_ g2 g3
    unfold StageInv at g5
    unfold Stage.isOpen
    split <;> simp_all

/-! ## Steps -/

theorem round_nodup (hd : Distinct prog) (h : Inv sys Good w prog st) {c : Fin n} {slots : List (Fin n × α × Slot β)}
    (hph : (st.client c).phase = .round slots) : (slots.map Prod.fst).Nodup := by
  have hc := h.client c
  unfold ClientInv at hc
  rw [hph] at hc
  obtain ⟨pre, H, E, hc⟩ := hc
  have := hd c (slots.map (fun x => (x.1, x.2.1))) (by rw [hc.prog]; simp)
  rw [List.map_map] at this
  exact this

/-- The call of a request. -/
theorem slot_call (h : Inv sys Good w prog st) {c s : Fin n} {p : α} {i : Nat} {slots : List (Fin n × α × Slot β)}
    (hph : (st.client c).phase = .round slots) (hs : slotOf slots s = some (p, .called i)) :
    ∃ x e, st.calls[i]? = some x ∧ x.src = c ∧ x.dst = s ∧ x.len = sys.reqSize p ∧ StageInv sys st.mem x p e := by
  have hc := h.client c
  unfold ClientInv at hc
  rw [hph] at hc
  obtain ⟨pre, H, E, hc⟩ := hc
  obtain ⟨x, h1, h2, h3, h4, h5⟩ := hc.slots s p _ hs
  exact ⟨x, E s, h1, h2, h3, h4, h5⟩

theorem stage_open {mem : Fin n → Nat → Option (Buf α β)} {x : Call n α} {p : α} {e : List (α × β)} (h : StageInv sys mem x p e) :
    x.stage.isOpen = true := by
  obtain ⟨src, dst, len, addr, stage⟩ := x
  cases stage <;> first | rfl | exact h.elim

theorem setSlot_self {l : List (Fin n × α × Slot β)} (hn : (l.map Prod.fst).Nodup) {s : Fin n} {p : α} {x : Slot β}
    (h : slotOf l s = some (p, x)) : setSlot l s x = l := by
  unfold setSlot
  conv_rhs => rw [← List.map_id l]
  refine List.map_congr_left ?_
  intro y hy
  by_cases hys : y.1 = s
  · have := slotOf_of_mem hn hy
    rw [hys, h] at this
    have := Option.some.inj this
    rw [if_pos hys, id, show y = (y.1, y.2) from rfl, ← this]
  · rw [if_neg hys, id]

/-- Something happens to one call. -/
theorem inv_update (_hd : Distinct prog) (h : Inv sys Good w prog st) {c s : Fin n} {p : α} {i : Nat} {slots : List (Fin n × α × Slot β)}
    {x : Call n α} (hph : (st.client c).phase = .round slots) (hs : slotOf slots s = some (p, .called i)) (hx : st.calls[i]? = some x)
    (x' : Call n α) (slot' : Slot β) (mem' : Fin n → Nat → Option (Buf α β)) (world' : W) (log' : List (Entry n α β)) (d : List (α × β))
    (e1 : x'.src = x.src) (e2 : x'.dst = x.dst) (hopen : x'.stage.isOpen = true → slot' = .called i)
    (hinv : ∀ e, StageInv sys st.mem x p e → SlotInv sys mem' (st.calls.set i x') c s p slot' (e ++ d))
    (hmem : ∀ k, k ∈ (st.calls.eraseIdx i).flatMap bufs → mem' k.1 k.2 = st.mem k.1 k.2)
    (howned : (bufs x' ++ (st.calls.eraseIdx i).flatMap bufs).Nodup ∧
        ∀ r a, (mem' r a).isSome ↔ (r, a) ∈ bufs x' ∨ (r, a) ∈ (st.calls.eraseIdx i).flatMap bufs)
    (hlog : ∀ c' s' b, logOf c' s' b log' = logOf c' s' b st.log ++ if c' = c ∧ s' = s ∧ b = true then d else [])
    (hfit : Good world') (hworld : Executes sys.serve w log' world') :
    Inv sys Good w prog ⟨world', update st.client c { st.client c with phase := .round (setSlot slots s slot') }, mem',
      st.calls.set i x', log', st.bad⟩ := by
  obtain ⟨x0, e0, f1, f2, f3, f4, f5⟩ := slot_call h hph hs
  rw [hx] at f1
  cases f1
  have hi : i < st.calls.length := (List.getElem?_eq_some_iff.mp hx).1
  have hset : (st.calls.set i x')[i]? = some x' := by rw [List.getElem?_set_self hi]
  have hother : ∀ j y, j ≠ i → st.calls[j]? = some y → (st.calls.set i x')[j]? = some y ∧ ∀ k ∈ bufs y, mem' k.1 k.2 = st.mem k.1 k.2 := by
    intro j y hj hy
    refine ⟨by rw [List.getElem?_set_ne (fun e => hj e.symm)]; exact hy, ?_⟩
    intro k hk
    exact hmem k (List.mem_flatMap.mpr ⟨y, mem_eraseIdx hy hj, hk⟩)
  refine ⟨h.good, hfit, hworld, ?_, ?_, ?_⟩
  · rw [owned_iff hset, eraseIdx_set]
    exact howned
  · intro j y hj hy
    simp only at hj ⊢
    by_cases hji : j = i
    · subst hji
      rw [hset] at hj
      cases hj
      refine ⟨setSlot slots s slot', p, ?_, ?_⟩
      · rw [e1, f2, update_self]
      · rw [e2, f3, slotOf_setSlot hs, hopen hy]
    · rw [List.getElem?_set_ne (fun e => hji e.symm)] at hj
      obtain ⟨slots', p', g1, g2⟩ := h.linked j y hj hy
      by_cases hc : y.src = c
      · rw [hc] at g1 ⊢
        rw [hph] at g1
        cases g1
        have hys : y.dst ≠ s := by
          intro e
          rw [e, hs] at g2
          have := Option.some.inj g2
          simp only [Prod.mk.injEq, Slot.called.injEq] at this
          exact hji this.2.symm
        refine ⟨setSlot slots s slot', p', by rw [update_self], by rw [slotOf_setSlot_ne hys]; exact g2⟩
      · exact ⟨slots', p', by rw [update_of_ne hc]; exact g1, g2⟩
  · intro c'
    by_cases hc : c' = c
    · subst hc
      have hcl := h.client c'
      unfold ClientInv at hcl ⊢
      rw [hph] at hcl
      simp only [update_self]
      obtain ⟨pre, H, E, hcl⟩ := hcl
      refine ⟨pre, H, update E s (E s ++ d), ?_, hcl.past, ?_, ?_, ?_⟩
      · rw [setSlot_reqs]
        exact hcl.prog
      · intro s' p' y hy
        by_cases hss : s' = s
        · subst hss
          rw [slotOf_setSlot hs] at hy
          cases hy
          rw [update_self]
          refine hinv _ ?_
          obtain ⟨x1, g1, g2, g3, g4, g5⟩ := hcl.slots s' p _ hs
          rw [hx] at g1
          cases g1
          exact g5
        · rw [slotOf_setSlot_ne hss] at hy
          rw [update_of_ne hss]
          have hsl := hcl.slots s' p' y hy
          refine slotInv_frame hsl ?_
          intro j z hj hz
          subst hj
          refine hother j z ?_ hz
          intro e
          subst e
          obtain ⟨x1, g1, g2, g3, -⟩ := hsl
          rw [hx] at g1
          cases g1
          exact hss (g3.symm.trans f3)
      · intro s' hn
        have hss : s' ≠ s := by
          intro e
          rw [e, slotOf_setSlot hs] at hn
          cases hn
        rw [slotOf_setSlot_ne hss] at hn
        rw [update_of_ne hss]
        exact hcl.none s' hn
      · intro s' b
        simp only
        rw [hlog, hcl.log s' b]
        by_cases hss : s' = s
        · subst hss
          rw [update_self]
          cases b <;> simp
        · rw [update_of_ne hss, if_neg (show ¬ (c' = c' ∧ s' = s ∧ b = true) from fun e => hss e.2.1), List.append_nil]
    · simp only
      rw [update_of_ne hc]
      refine clientInv_frame (h.client c') ?_ ?_
      · intro s' b
        simp only
        rw [hlog, if_neg (fun e => hc e.1), List.append_nil]
      · intro slots' s' p' j y hph' hs' hj hy hsrc hdst
        refine hother j y ?_ hj
        intro e
        subst e
        rw [hx] at hj
        cases hj
        exact hc (hsrc.symm.trans f2)

/-- The same, for steps that the client does not take part in. -/
theorem inv_call (hd : Distinct prog) (h : Inv sys Good w prog st) {i : Nat} {x : Call n α} (hx : st.calls[i]? = some x)
    (ho : x.stage.isOpen = true) (x' : Call n α) (mem' : Fin n → Nat → Option (Buf α β)) (world' : W) (log' : List (Entry n α β))
    (d : α → List (α × β)) (e1 : x'.src = x.src) (e2 : x'.dst = x.dst) (e3 : x'.len = x.len)
    (hinv : ∀ p e, x.len = sys.reqSize p → StageInv sys st.mem x p e → StageInv sys mem' x' p (e ++ d p))
    (hmem : ∀ k, k ∈ (st.calls.eraseIdx i).flatMap bufs → mem' k.1 k.2 = st.mem k.1 k.2)
    (howned : (bufs x' ++ (st.calls.eraseIdx i).flatMap bufs).Nodup ∧
        ∀ r a, (mem' r a).isSome ↔ (r, a) ∈ bufs x' ∨ (r, a) ∈ (st.calls.eraseIdx i).flatMap bufs)
    (hlog : ∀ p e, StageInv sys st.mem x p e → ∀ c' s' b, logOf c' s' b log' = logOf c' s' b st.log ++ if c' = x.src ∧ s' = x.dst ∧ b = true then d p else [])
    (hfit : Good world') (hworld : Executes sys.serve w log' world') :
    Inv sys Good w prog ⟨world', st.client, mem', st.calls.set i x', log', st.bad⟩ := by
  obtain ⟨slots, p, hph, hs⟩ := h.linked i x hx ho
  obtain ⟨x0, e0, f1, -, -, f4, f5⟩ := slot_call h hph hs
  rw [hx] at f1
  cases f1
  have hi : i < st.calls.length := (List.getElem?_eq_some_iff.mp hx).1
  have key := inv_update hd h hph hs hx x' (.called i) mem' world' log' (d p) e1 e2 (fun _ => rfl) (fun e he => by
    exact ⟨x', by rw [List.getElem?_set_self hi], e1, e2, e3.trans f4, hinv p e f4 he⟩) hmem howned (hlog p e0 f5) hfit hworld
  rw [setSlot_self (round_nodup hd h hph) hs] at key
  have : update st.client x.src { st.client x.src with phase := .round slots } = st.client := by
    rw [← hph]
    exact Function.update_eq_self _ _
  rw [this] at key
  exact key

theorem logOf_nothing {c s : Fin n} (log : List (Entry n α β)) :
    ∀ c' s' b, logOf c' s' b log = logOf c' s' b log ++ if c' = c ∧ s' = s ∧ b = true then [] else [] := by
  intro c' s' b
  split <;> rw [List.append_nil]

theorem inv_take (hd : Distinct prog) (h : Inv sys Good w prog st) {i : Nat} (hst : take sys st i = some st') : Inv sys Good w prog st' := by
  unfold take at hst
  split at hst
  · rename_i x hx
    split at hst
    · rename_i hstage
      split at hst
      · cases hst
        refine inv_call hd h hx (by rw [hstage]; rfl) { x with stage := .taken } st.mem st.world st.log (fun _ => []) rfl rfl rfl ?_
          (fun _ _ => rfl) ?_ (fun _ _ _ => logOf_nothing _) h.fit h.world
        · intro p e _ he
          unfold StageInv at he ⊢
          rw [hstage] at he
          rw [List.append_nil]
          exact he
        · have ho := (owned_iff hx).mp h.owned
          have : bufs ({ x with stage := .taken } : Call n α) = bufs x := by unfold bufs reqBuf resBuf; rw [hstage]
          rw [this]
          exact ho
      · cases hst
    · cases hst
  · cases hst

theorem inv_pull (hd : Distinct prog) (h : Inv sys Good w prog st) {i : Nat} (hst : pull sys st i = some st') : Inv sys Good w prog st' := by
  unfold pull at hst
  split at hst
  · rename_i x hx
    split at hst
    · rename_i hstage
      have ho : x.stage.isOpen = true := by rw [hstage]; rfl
      obtain ⟨slots, p, hph, hs⟩ := h.linked i x hx ho
      obtain ⟨x0, e0, f1, -, -, f4, f5⟩ := slot_call h hph hs
      rw [hx] at f1
      cases f1
      have hm := f5
      unfold StageInv at hm
      rw [hstage] at hm
      rw [hm.1] at hst
      simp only at hst
      rw [if_pos f4.symm] at hst
      cases hst
      refine inv_call hd h hx ho { x with stage := .pulled p } st.mem st.world st.log (fun _ => []) rfl rfl rfl ?_
        (fun _ _ => rfl) ?_ (fun _ _ _ => logOf_nothing _) h.fit h.world
      · intro p' e _ he
        unfold StageInv at he ⊢
        rw [hstage] at he
        simp only at he ⊢
        rw [hm.1] at he
        cases he.1
        exact ⟨rfl, by rw [he.2]; rfl⟩
      · have ho := (owned_iff hx).mp h.owned
        have : bufs ({ x with stage := .pulled p } : Call n α) = bufs x := by unfold bufs reqBuf resBuf; rw [hstage]
        rw [this]
        exact ho
    · cases hst
  · cases hst

/-- Requests of a round are among those of the program. -/
theorem slot_target (h : Inv sys Good w prog st) {c s : Fin n} {p : α} {y : Slot β} {slots : List (Fin n × α × Slot β)}
    (hph : (st.client c).phase = .round slots) (hs : slotOf slots s = some (p, y)) : (s, true, p) ∈ targets c (prog c) := by
  have hc := h.client c
  unfold ClientInv at hc
  rw [hph] at hc
  obtain ⟨pre, H, E, hc⟩ := hc
  rw [hc.prog, targets_append]
  refine List.mem_append_right _ (List.mem_append_left _ ?_)
  rw [List.map_map]
  exact List.mem_map.mpr ⟨_, mem_of_slotOf hs, rfl⟩

theorem update_other {mem : Fin n → Nat → Option (Buf α β)} {c : Fin n} {a : Nat} {x : Option (Buf α β)} {k : Fin n × Nat} (h : k ≠ (c, a)) :
    update mem c (update (mem c) a x) k.1 k.2 = mem k.1 k.2 := by
  by_cases hc : k.1 = c
  · have ha : k.2 ≠ a := fun e => h (Prod.ext hc e)
    rw [hc, update_self, update_of_ne ha]
  · rw [update_of_ne hc]

theorem update_here {mem : Fin n → Nat → Option (Buf α β)} {c : Fin n} {a : Nat} {x : Option (Buf α β)} :
    update mem c (update (mem c) a x) c a = x := by
  rw [update_self, update_self]

theorem inv_serve (hans : Answers sys prog Good) (hd : Distinct prog) (h : Inv sys Good w prog st) {i addr : Nat}
    (hst : serve sys st i addr = some st') : Inv sys Good w prog st' := by
  unfold serve at hst
  split at hst
  · rename_i x hx
    split at hst
    · rename_i q hstage
      split at hst
      · rename_i hfree
        have ho : x.stage.isOpen = true := by rw [hstage]; rfl
        obtain ⟨slots, p, hph, hs⟩ := h.linked i x hx ho
        obtain ⟨x0, e0, f1, -, -, f4, f5⟩ := slot_call h hph hs
        rw [hx] at f1
        cases f1
        have hm := f5
        unfold StageInv at hm
        rw [hstage] at hm
        obtain ⟨rfl, -⟩ := hm
        obtain ⟨w', r, g1, g2⟩ := hans st.world h.fit x.src (x.dst, true, q) (slot_target h hph hs)
        simp only at g1
        rw [g1] at hst
        cases hst
        have hown := (owned_iff hx).mp h.owned
        have hb : bufs x = [(x.src, x.addr)] := by unfold bufs reqBuf resBuf; rw [hstage]; rfl
        have hb' : bufs ({ x with stage := .replied (sys.resSize r) addr } : Call n α) = [(x.src, x.addr), (x.dst, addr)] := by
          unfold bufs reqBuf resBuf; rfl
        have hnew : (x.dst, addr) ∉ bufs x ∧ (x.dst, addr) ∉ (st.calls.eraseIdx i).flatMap bufs := by
          have := (hown.2 x.dst addr).not.mp (by rw [Option.isNone_iff_eq_none.mp hfree]; simp)
          exact not_or.mp this
        rw [hb] at hnew hown
        refine inv_call hd h hx ho { x with stage := .replied (sys.resSize r) addr } _ w' _ (fun p => [(p, r)]) rfl rfl rfl ?_
          ?_ ?_ ?_ g2 (executes_snoc h.world g1)
        · intro p e _ he
          unfold StageInv at he ⊢
          rw [hstage] at he
          obtain ⟨rfl, rfl⟩ := he
          exact ⟨r, update_here, rfl, rfl⟩
        · intro k hk
          refine update_other (fun e => ?_)
          rw [e] at hk
          exact hnew.2 hk
        · rw [hb']
          refine ⟨?_, ?_⟩
          · have h1 := hown.1
            simp only [List.singleton_append, List.nodup_cons] at h1
            simp only [List.cons_append, List.nil_append, List.nodup_cons, List.mem_cons, not_or]
            refine ⟨⟨?_, h1.1⟩, hnew.2, h1.2⟩
            intro e
            exact hnew.1 (by rw [e]; simp)
          · intro rk a
            by_cases hk : (rk, a) = (x.dst, addr)
            · cases hk
              show (update st.mem x.dst (update (st.mem x.dst) addr (some (.res r))) x.dst addr).isSome ↔ _
              rw [update_here]
              simp
            · have := update_other (mem := st.mem) (x := some (.res r)) hk
              simp only at this
              show (update st.mem x.dst (update (st.mem x.dst) addr (some (.res r))) rk a).isSome ↔ _
              rw [this, hown.2 rk a]
              simp only [List.mem_cons, List.not_mem_nil, or_false]
              constructor
              · rintro (h | h)
                · exact Or.inl (Or.inl h)
                · exact Or.inr h
              · rintro ((h | h) | h)
                · exact Or.inl h
                · exact absurd h hk
                · exact Or.inr h
        · intro p e he c' s' b
          unfold StageInv at he
          rw [hstage] at he
          obtain ⟨rfl, -⟩ := he
          rw [logOf_snoc]
          congr 1
          have : (x.src = c' ∧ x.dst = s' ∧ true = b) ↔ (c' = x.src ∧ s' = x.dst ∧ b = true) := by
            constructor <;> rintro ⟨h1, h2, h3⟩ <;> exact ⟨h1.symm, h2.symm, h3.symm⟩
          simp only [this]
      · cases hst
    · cases hst
  · cases hst

theorem inv_recv (hd : Distinct prog) (h : Inv sys Good w prog st) {c s : Fin n} (hst : recv st c s = some st') : Inv sys Good w prog st' := by
  unfold recv at hst
  split at hst
  · rename_i slots hph
    split at hst
    · rename_i p i hs
      split at hst
      · rename_i x hx
        split at hst
        · rename_i len addr hstage
          obtain ⟨x0, e0, f1, f2, f3, f4, f5⟩ := slot_call h hph hs
          rw [hx] at f1
          cases f1
          have ho : x.stage.isOpen = true := by rw [hstage]; rfl
          have hown := (owned_iff hx).mp h.owned
          have hb : bufs x = [(x.src, x.addr), (x.dst, addr)] := by unfold bufs reqBuf resBuf; rw [hstage]; rfl
          rw [hb] at hown
          have hlive : (st.mem c x.addr).isSome := (hown.2 c x.addr).mpr (by rw [f2]; simp)
          rw [if_pos hlive] at hst
          cases hst
          have hb' : bufs ({ x with stage := .answered len addr } : Call n α) = [(x.dst, addr)] := by unfold bufs reqBuf resBuf; rfl
          have h1 := hown.1
          simp only [List.cons_append, List.nil_append, List.nodup_cons, List.mem_cons, not_or] at h1
          have hother : ∀ k : Fin n × Nat, k ≠ (c, x.addr) → update st.mem c (update (st.mem c) x.addr none) k.1 k.2 = st.mem k.1 k.2 :=
            fun k hk => update_other hk
          refine inv_call hd h hx ho { x with stage := .answered len addr } _ st.world st.log (fun _ => []) rfl rfl rfl ?_
            ?_ ?_ (fun _ _ _ => logOf_nothing _) h.fit h.world
          · intro p e _ he
            unfold StageInv at he ⊢
            rw [hstage] at he
            obtain ⟨r, g1, g2, g3⟩ := he
            refine ⟨r, ?_, g2, by rw [g3]; rfl⟩
            have := hother (x.dst, addr) (by rw [← f2]; exact fun e => h1.1.1 e.symm)
            exact this.trans g1
          · intro k hk
            refine hother k (fun e => ?_)
            rw [e, ← f2] at hk
            exact h1.1.2 hk
          · rw [hb']
            refine ⟨by simp only [List.singleton_append, List.nodup_cons]; exact h1.2, ?_⟩
            intro rk a
            show (update st.mem c (update (st.mem c) x.addr none) rk a).isSome ↔ _
            by_cases hk : (rk, a) = (c, x.addr)
            · cases hk
              rw [update_here]
              rw [← f2]
              simp only [Option.isSome_none, Bool.false_eq_true, false_iff, not_or, List.mem_singleton]
              exact h1.1
            · have := hother (rk, a) hk
              simp only at this
              rw [this, hown.2 rk a]
              simp only [List.mem_cons, List.not_mem_nil, or_false]
              rw [f2]
              constructor
              · rintro ((h | h) | h)
                · exact absurd h hk
                · exact Or.inl h
                · exact Or.inr h
              · rintro (h | h)
                · exact Or.inl (Or.inr h)
                · exact Or.inr h
        · cases hst
      · cases hst
    · cases hst
  · cases hst

theorem inv_read (hd : Distinct prog) (h : Inv sys Good w prog st) {c s : Fin n} (hst : read sys st c s = some st') : Inv sys Good w prog st' := by
  unfold read at hst
  split at hst
  · rename_i slots hph
    split at hst
    · rename_i p i hs
      split at hst
      · rename_i x hx
        split at hst
        · rename_i len addr hstage
          obtain ⟨x0, e0, f1, f2, f3, f4, f5⟩ := slot_call h hph hs
          rw [hx] at f1
          cases f1
          have hm := f5
          unfold StageInv at hm
          rw [hstage] at hm
          obtain ⟨r, g1, g2, g3⟩ := hm
          rw [f3] at g1
          simp only [g1, g2, if_true] at hst
          cases hst
          have hown := (owned_iff hx).mp h.owned
          have hb : bufs ({ x with stage := .cleaning addr } : Call n α) = bufs x := by unfold bufs reqBuf resBuf; rw [hstage]
          rw [← hb] at hown
          refine inv_update hd h hph hs hx { x with stage := .cleaning addr } (.done r) st.mem st.world st.log [] rfl rfl
            (fun e => by cases e) ?_ (fun _ _ => rfl) hown (logOf_nothing _) h.fit h.world
          intro e he
          unfold StageInv at he
          rw [hstage] at he
          obtain ⟨r', k1, -, k3⟩ := he
          rw [f3, g1] at k1
          cases k1
          rw [List.append_nil]
          exact k3
        · cases hst
      · cases hst
    · cases hst
  · cases hst

theorem inv_clean (h : Inv sys Good w prog st) {i : Nat} (hst : clean sys st i = some st') : Inv sys Good w prog st' := by
  unfold clean at hst
  split at hst
  · rename_i x hx
    split at hst
    · rename_i addr hstage
      split at hst
      · have hown := (owned_iff hx).mp h.owned
        have hb : bufs x = [(x.dst, addr)] := by unfold bufs reqBuf resBuf; rw [hstage]; rfl
        rw [hb] at hown
        have hlive : (st.mem x.dst addr).isSome := (hown.2 x.dst addr).mpr (by simp)
        rw [if_pos hlive] at hst
        cases hst
        have hi : i < st.calls.length := (List.getElem?_eq_some_iff.mp hx).1
        have h1 := hown.1
        simp only [List.singleton_append, List.nodup_cons] at h1
        have hother : ∀ k : Fin n × Nat, k ≠ (x.dst, addr) → update st.mem x.dst (update (st.mem x.dst) addr none) k.1 k.2 = st.mem k.1 k.2 :=
          fun k hk => update_other hk
        have hset : (st.calls.set i { x with stage := .closed })[i]? = some { x with stage := .closed } := by rw [List.getElem?_set_self hi]
        have hb' : bufs ({ x with stage := .closed } : Call n α) = [] := by unfold bufs reqBuf resBuf; rfl
        refine ⟨h.good, h.fit, h.world, ?_, ?_, ?_⟩
        · show ((st.calls.set i { x with stage := .closed }).flatMap bufs).Nodup ∧
            ∀ r a, (update st.mem x.dst (update (st.mem x.dst) addr none) r a).isSome ↔ (r, a) ∈ (st.calls.set i { x with stage := .closed }).flatMap bufs
          rw [owned_iff hset, eraseIdx_set, hb']
          refine ⟨h1.2, ?_⟩
          intro rk a
          by_cases hk : (rk, a) = (x.dst, addr)
          · cases hk
            rw [update_here]
            simp only [Option.isSome_none, Bool.false_eq_true, false_iff, not_or]
            exact ⟨by simp, h1.1⟩
          · have := hother (rk, a) hk
            simp only at this
            rw [this, hown.2 rk a]
            simp only [List.mem_singleton, List.not_mem_nil, false_or]
            constructor
            · rintro (h | h)
              · exact absurd h hk
              · exact h
            · exact Or.inr
        · intro j y hj hy
          have hji : j ≠ i := by
            intro e
            subst e
            have hj : (st.calls.set j { x with stage := .closed })[j]? = some y := hj
            rw [hset] at hj
            cases hj
            cases hy
          have hj : (st.calls.set i { x with stage := .closed })[j]? = some y := hj
          rw [List.getElem?_set_ne (fun e => hji e.symm)] at hj
          exact h.linked j y hj hy
        · intro c
          refine clientInv_frame (h.client c) (fun _ _ => rfl) ?_
          intro slots s p j y _ _ hj hy _ _
          have hji : j ≠ i := by
            intro e
            subst e
            rw [hx] at hj
            cases hj
            rw [hstage] at hy
            cases hy
          refine ⟨?_, ?_⟩
          · show (st.calls.set i { x with stage := .closed })[j]? = some y
            rw [List.getElem?_set_ne (fun e => hji e.symm)]
            exact hj
          · intro k hk
            refine hother k (fun e => ?_)
            rw [e] at hk
            exact h1.1 (List.mem_flatMap.mpr ⟨y, mem_eraseIdx hj hji, hk⟩)
      · cases hst
    · cases hst
  · cases hst

theorem inv_call_step (h : Inv sys Good w prog st) {c s : Fin n} {addr : Nat} (hst : call sys st c s addr = some st') :
    Inv sys Good w prog st' := by
  unfold call at hst
  split at hst
  · rename_i slots hph
    split at hst
    · rename_i p hs
      split at hst
      · rename_i hcond
        cases hst
        rw [Bool.and_eq_true] at hcond
        have hfree := Option.isNone_iff_eq_none.mp hcond.2
        let x : Call n α := ⟨c, s, sys.reqSize p, addr, .sent⟩
        have hother : ∀ k : Fin n × Nat, k ≠ (c, addr) → update st.mem c (update (st.mem c) addr (some (.req p))) k.1 k.2 = st.mem k.1 k.2 :=
          fun k hk => update_other hk
        have hnew : (c, addr) ∉ st.calls.flatMap bufs := by
          rw [← h.owned.2 c addr, hfree]
          simp
        have hold : ∀ (j : Nat) (y : Call n α), st.calls[j]? = some y → (st.calls ++ [x])[j]? = some y ∧
            ∀ k ∈ bufs y, update st.mem c (update (st.mem c) addr (some (.req p))) k.1 k.2 = st.mem k.1 k.2 := by
          intro j y hj
          refine ⟨by rw [List.getElem?_append_left (List.getElem?_eq_some_iff.mp hj).1]; exact hj, ?_⟩
          intro k hk
          refine hother k (fun e => ?_)
          rw [e] at hk
          exact hnew (List.mem_flatMap.mpr ⟨y, List.mem_of_getElem? hj, hk⟩)
        have hx : (st.calls ++ [x])[st.calls.length]? = some x := by rw [List.getElem?_append_right (Nat.le_refl _)]; simp
        have hb : bufs x = [(c, addr)] := rfl
        refine ⟨h.good, h.fit, h.world, ?_, ?_, ?_⟩
        · show ((st.calls ++ [x]).flatMap bufs).Nodup ∧
            ∀ r a, (update st.mem c (update (st.mem c) addr (some (.req p))) r a).isSome ↔ (r, a) ∈ (st.calls ++ [x]).flatMap bufs
          rw [List.flatMap_append]
          simp only [List.flatMap_cons, List.flatMap_nil, List.append_nil, hb]
          refine ⟨?_, ?_⟩
          · rw [List.nodup_append]
            refine ⟨h.owned.1, by simp, ?_⟩
            intro a ha b hb' e
            rw [List.mem_singleton] at hb'
            rw [e, hb'] at ha
            exact hnew ha
          · intro rk a
            rw [List.mem_append, List.mem_singleton]
            by_cases hk : (rk, a) = (c, addr)
            · cases hk
              rw [update_here]
              simp
            · have := hother (rk, a) hk
              simp only at this
              rw [this, h.owned.2 rk a]
              simp [hk]
        · intro j y hj hy
          have hj : (st.calls ++ [x])[j]? = some y := hj
          show ∃ slots' p', (update st.client c { st.client c with phase := .round (setSlot slots s (.called st.calls.length)) } y.src).phase =
            .round slots' ∧ slotOf slots' y.dst = some (p', .called j)
          by_cases hlt : j < st.calls.length
          · rw [List.getElem?_append_left hlt] at hj
            obtain ⟨slots', p', g1, g2⟩ := h.linked j y hj hy
            by_cases hc : y.src = c
            · rw [hc] at g1 ⊢
              rw [hph] at g1
              cases g1
              have hys : y.dst ≠ s := by
                intro e
                rw [e, hs] at g2
                cases g2
              exact ⟨_, p', by rw [update_self], by rw [slotOf_setSlot_ne hys]; exact g2⟩
            · exact ⟨slots', p', by rw [update_of_ne hc]; exact g1, g2⟩
          · have hje : j = st.calls.length := by
              have := (List.getElem?_eq_some_iff.mp hj).1
              rw [List.length_append, List.length_singleton] at this
              omega
            subst hje
            rw [hx] at hj
            cases hj
            exact ⟨_, p, by rw [update_self], slotOf_setSlot hs _⟩
        · intro c'
          show ClientInv sys (prog c') _ c' (update st.client c { st.client c with phase := .round (setSlot slots s (.called st.calls.length)) } c')
          by_cases hc : c' = c
          · subst hc
            rw [update_self]
            have hcl := h.client c'
            unfold ClientInv at hcl ⊢
            rw [hph] at hcl
            obtain ⟨pre, H, E, hcl⟩ := hcl
            refine ⟨pre, H, E, ?_, hcl.past, ?_, ?_, hcl.log⟩
            · rw [setSlot_reqs]
              exact hcl.prog
            · intro s' p' y hy
              by_cases hss : s' = s
              · subst hss
                rw [slotOf_setSlot hs] at hy
                cases hy
                have h0 : E s' = [] := hcl.slots s' p _ hs
                exact ⟨x, hx, rfl, rfl, rfl, update_here, h0⟩
              · rw [slotOf_setSlot_ne hss] at hy
                exact slotInv_frame (hcl.slots s' p' y hy) (fun j z _ hz => hold j z hz)
            · intro s' hn
              have hss : s' ≠ s := by
                intro e
                rw [e, slotOf_setSlot hs] at hn
                cases hn
              rw [slotOf_setSlot_ne hss] at hn
              exact hcl.none s' hn
          · rw [update_of_ne hc]
            exact clientInv_frame (h.client c') (fun _ _ => rfl) (fun _ _ _ j y _ _ hj _ _ _ => hold j y hj)
      · cases hst
    · cases hst
  · cases hst

theorem inv_start (hans : Answers sys prog Good) (h : Inv sys Good w prog st) {c : Fin n}
    (hst : start sys st c = some st') : Inv sys Good w prog st' := by
  unfold start at hst
  split at hst
  · rename_i l acts hph hacts
    cases hst
    refine ⟨h.good, h.fit, h.world, h.owned, ?_, ?_⟩
    · intro j y hj hy
      obtain ⟨slots', p', g1, g2⟩ := h.linked j y hj hy
      refine ⟨slots', p', ?_, g2⟩
      show (update st.client c _ y.src).phase = _
      rw [update_of_ne]
      · exact g1
      · intro e
        rw [e, hph] at g1
        cases g1
    · intro c'
      show ClientInv sys (prog c') _ c' (update st.client c ⟨acts, .round (l.map (fun x => (x.1, x.2, .todo))), (st.client c).results⟩ c')
      by_cases hc : c' = c
      · subst hc
        rw [update_self]
        have hcl := h.client c'
        unfold ClientInv at hcl ⊢
        rw [hph] at hcl
        obtain ⟨pre, h1, h2⟩ := hcl
        refine ⟨pre, _, fun _ => [], ?_, h2, ?_, fun _ _ => rfl, ?_⟩
        · rw [h1, hacts, List.map_map]
          simp only [Function.comp_def]
          rw [List.map_id']
        · intro s p x hx
          have := slotOf_todo hx
          simp only at this
          subst this
          rfl
        · intro s b
          cases b <;> exact (List.append_nil _).symm
      · rw [update_of_ne hc]
        exact clientInv_frame (h.client c') (fun _ _ => rfl) (fun _ _ _ j y _ _ hj _ _ _ => ⟨hj, fun _ _ => rfl⟩)
  · rename_i p acts hph hacts
    have hcl := h.client c
    unfold ClientInv at hcl
    rw [hph] at hcl
    obtain ⟨pre, h1, h2⟩ := hcl
    obtain ⟨w', r, g1, g2⟩ := hans st.world h.fit c (c, false, p) (by
      rw [h1, hacts, targets_append]
      exact List.mem_append_right _ List.mem_cons_self)
    simp only at g1
    rw [g1] at hst
    cases hst
    refine ⟨h.good, g2, executes_snoc h.world g1, h.owned, ?_, ?_⟩
    · intro j y hj hy
      obtain ⟨slots', p', g1, g2⟩ := h.linked j y hj hy
      refine ⟨slots', p', ?_, g2⟩
      show (update st.client c _ y.src).phase = _
      rw [update_of_ne]
      · exact g1
      · intro e
        rw [e, hph] at g1
        cases g1
    · intro c'
      show ClientInv sys (prog c') _ c' (update st.client c ⟨acts, .ready, (st.client c).results ++ [⟨c, false, r⟩]⟩ c')
      by_cases hc : c' = c
      · subst hc
        rw [update_self]
        refine ⟨pre ++ [.local p], by rw [h1, hacts]; simp, ?_, ?_, ?_⟩
        · intro s b
          simp only
          rw [logOf_snoc, List.map_append, h2.requests s b, targets_append, sentTo_append]
          congr 1
          by_cases hsb : c' = s ∧ false = b
          · rw [if_pos ⟨rfl, hsb⟩]
            simp [targets, sentTo, hsb.1, ← hsb.2]
          · rw [if_neg (fun e => hsb e.2)]
            simp only [targets, sentTo]
            rw [List.filter_cons_of_neg (by simpa using hsb)]
            rfl
        · intro s b
          simp only
          rw [logOf_snoc, List.map_append, gotFrom_append, h2.responses s b]
          congr 1
          by_cases hsb : c' = s ∧ false = b
          · rw [if_pos ⟨rfl, hsb⟩]
            simp [gotFrom, hsb.1, ← hsb.2]
          · rw [if_neg (fun e => hsb e.2)]
            simp only [gotFrom]
            rw [List.filter_cons_of_neg (by simpa using hsb)]
            rfl
        · simp only
          rw [List.map_append, h2.order, targets_append, List.map_append]
          rfl
      · rw [update_of_ne hc]
        refine clientInv_frame (h.client c') (fun s b => ?_) (fun _ _ _ j y _ _ hj _ _ _ => ⟨hj, fun _ _ => rfl⟩)
        exact logOf_other hc st.log
  · cases hst

theorem inv_finish (hd : Distinct prog) (h : Inv sys Good w prog st) {c : Fin n} (hst : finish st c = some st') : Inv sys Good w prog st' := by
  unfold finish at hst
  split at hst
  · rename_i slots hph
    split at hst
    · rename_i hall
      cases hst
      have hn := round_nodup hd h hph
      have hdone : ∀ s p x, slotOf slots s = some (p, x) → ∃ r, x = .done r := by
        intro s p x hs
        have := List.all_eq_true.mp hall _ (List.mem_map_of_mem (f := Slot.got?) (mem_of_slotOf hs))
        cases x <;> simp [Slot.got?] at this ⊢
      refine ⟨h.good, h.fit, h.world, h.owned, ?_, ?_⟩
      · intro j y hj hy
        obtain ⟨slots', p', g1, g2⟩ := h.linked j y hj hy
        refine ⟨slots', p', ?_, g2⟩
        show (update st.client c _ y.src).phase = _
        rw [update_of_ne]
        · exact g1
        · intro e
          rw [e, hph] at g1
          cases g1
          obtain ⟨r, hr⟩ := hdone _ _ _ g2
          cases hr
      · intro c'
        show ClientInv sys (prog c') _ c'
          (update st.client c { st.client c with phase := .ready, results := (st.client c).results ++ slots.filterMap Slot.got? } c')
        by_cases hc : c' = c
        · subst hc
          rw [update_self]
          have hcl := h.client c'
          unfold ClientInv at hcl ⊢
          rw [hph] at hcl
          obtain ⟨pre, H, E, hcl⟩ := hcl
          have hE : ∀ s, (E s).map Prod.fst = ((slotOf slots s).map Prod.fst).toList ∧ (E s).map Prod.snd = received (slotOf slots s) := by
            intro s
            rcases Option.eq_none_or_eq_some (slotOf slots s) with e | ⟨⟨p, x⟩, e⟩
            · rw [hcl.none s e, e]
              exact ⟨rfl, rfl⟩
            · obtain ⟨r, rfl⟩ := hdone s p x e
              have h0 : E s = [(p, r)] := hcl.slots s p _ e
              rw [h0, e]
              exact ⟨rfl, rfl⟩
          have htg : targets c' [.remote (slots.map (fun x => (x.1, x.2.1)))] = slots.map (fun x => (x.1, true, x.2.1)) := by
            simp [targets, Function.comp_def]
          refine ⟨pre ++ [.remote (slots.map (fun x => (x.1, x.2.1)))], by rw [hcl.prog]; simp, ?_, ?_, ?_⟩
          · intro s b
            simp only
            show List.map Prod.fst (logOf c' s b st.log) = _
            rw [hcl.log s b, List.map_append, hcl.past.requests s b, targets_append, sentTo_append, htg, sentTo_slots hn]
            cases b with
            | false => rfl
            | true => simp only [if_true]; rw [(hE s).1]
          · intro s b
            simp only
            show _ = List.map Prod.snd (logOf c' s b st.log)
            rw [hcl.log s b, List.map_append, gotFrom_append, hcl.past.responses s b]
            cases b with
            | false => rw [gotFrom_false]; rfl
            | true => simp only [if_true]; rw [gotFrom_slots hn, (hE s).2]
          · simp only
            rw [List.map_append, hcl.past.order, targets_append, List.map_append, htg, got_keys hall, List.map_map]
            rfl
        · rw [update_of_ne hc]
          exact clientInv_frame (h.client c') (fun _ _ => rfl) (fun _ _ _ j y _ _ hj _ _ _ => ⟨hj, fun _ _ => rfl⟩)
    · cases hst
  · cases hst

theorem inv_step (hans : Answers sys prog Good) (hd : Distinct prog) (h : Inv sys Good w prog st) {l : Label n}
    (hst : step sys st l = some st') : Inv sys Good w prog st' := by
  unfold step at hst
  rw [h.good] at hst
  cases l with
  | start c => exact inv_start hans h hst
  | call c s addr => exact inv_call_step h hst
  | take i => exact inv_take hd h hst
  | pull i => exact inv_pull hd h hst
  | serve i addr => exact inv_serve hans hd h hst
  | recv c s => exact inv_recv hd h hst
  | read c s => exact inv_read hd h hst
  | clean i => exact inv_clean h hst
  | finish c => exact inv_finish hd h hst

theorem inv_run (hans : Answers sys prog Good) (hd : Distinct prog) (ls : List (Label n)) {st : St n α β W}
    (h : Inv sys Good w prog st) (hst : run sys st ls = some st') : Inv sys Good w prog st' := by
  induction ls generalizing st with
  | nil => cases hst; exact h
  | cons l ls ih =>
    simp only [run, Option.bind_eq_bind, Option.bind_eq_some_iff] at hst
    obtain ⟨u, hu, hst⟩ := hst
    exact ih (inv_step hans hd h hu) hst

end Hx.Rpc

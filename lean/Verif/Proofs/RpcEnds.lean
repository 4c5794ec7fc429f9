import Verif.Proofs.Rpc
import Mathlib.Algebra.BigOperators.Fin

/-!
# Helper lemmas: executions of ranks that use Thallium, and how they end
-/

namespace Hx.Rpc
open Hx.Mpi (Act Got Entry sentTo_append gotFrom_append targets_append)
open Hx.Spec.Mpi (targets sentTo gotFrom logOf Distinct)
open Hx Spec.Rpc
open Function (update update_self update_of_ne)

variable {n : Nat} {α β W : Type} {sys : Sys n α β W} {Good : W → Prop} {w : W} {prog : Fin n → List (Act n α)} {st st' : St n α β W}

/-! ## What holds at any time -/

/-- The requests of a round that were processed. -/
theorem round_part {c : Fin n} {acts : List (Act n α)} {results : List (Got n β)} {slots : List (Fin n × α × Slot β)} {pre : List (Act n α)}
    {H : Fin n → Bool → List (α × β)} {E : Fin n → List (α × β)} {pg : List (Act n α)} (hn : (slots.map Prod.fst).Nodup)
    (h : RoundInv sys pg st c acts results slots pre H E) (s : Fin n) (b : Bool) :
    (logOf c s b st.log).map Prod.fst <+: sentTo s b (targets c (pre ++ [.remote (slots.map (fun x => (x.1, x.2.1)))])) := by
  have htg : targets c [.remote (slots.map (fun x => (x.1, x.2.1)))] = slots.map (fun x => (x.1, true, x.2.1)) := by
    simp [targets, Function.comp_def]
  rw [h.log s b, List.map_append, h.past.requests s b, targets_append, sentTo_append, htg, sentTo_slots hn]
  refine (List.prefix_append_right_inj _).mpr ?_
  cases b with
  | false => exact List.prefix_refl _
  | true =>
    simp only [if_true]
    rcases Option.eq_none_or_eq_some (slotOf slots s) with e | ⟨⟨p, x⟩, e⟩
    · rw [h.none s e, e]
      exact List.prefix_refl _
    · have hsl := h.slots s p x e
      rw [e]
      have : E s = [] ∨ ∃ r, E s = [(p, r)] := by
        cases x with
        | todo => exact Or.inl hsl
        | done r => exact Or.inr ⟨r, hsl⟩
        | called i =>
          obtain ⟨y, -, -, -, -, hst⟩ := hsl
          obtain ⟨src, dst, len, addr, stage⟩ := y
          cases stage with
          | sent => exact Or.inl hst.2
          | taken => exact Or.inl hst.2
          | pulled q => exact Or.inl hst.2
          | replied len a => obtain ⟨r, -, -, hr⟩ := hst; exact Or.inr ⟨r, hr⟩
          | answered len a => obtain ⟨r, -, -, hr⟩ := hst; exact Or.inr ⟨r, hr⟩
          | cleaning a => exact hst.elim
          | closed => exact hst.elim
      rcases this with h0 | ⟨r, h0⟩
      · rw [h0]
        exact List.nil_prefix
      · rw [h0]
        exact List.prefix_refl _

theorem inv_rounds (hd : Distinct prog) (h : Inv sys Good w prog st) : InRounds prog st := by
  intro c
  have hc := h.client c
  unfold ClientInv at hc
  cases hph : (st.client c).phase with
  | ready =>
    rw [hph] at hc
    obtain ⟨pre, h1, h2⟩ := hc
    exact ⟨pre, h1, fun s b => ⟨by rw [h2.requests s b], fun _ => h2.requests s b⟩⟩
  | round slots =>
    rw [hph] at hc
    obtain ⟨pre, H, E, hc⟩ := hc
    refine ⟨_, by rw [hc.prog, List.append_cons], fun s b => ⟨round_part (round_nodup hd h hph) hc s b, fun e => by cases e⟩⟩

theorem inv_faithful (hd : Distinct prog) (h : Inv sys Good w prog st) : Faithful sys w prog st := by
  refine ⟨h.good, h.world, ?_, ?_, ?_⟩
  · intro c s b
    obtain ⟨pre, h1, h2⟩ := inv_rounds hd h c
    rw [h1, targets_append, sentTo_append]
    exact (h2 s b).1.trans (List.prefix_append _ _)
  · intro c s b
    have hc := h.client c
    unfold ClientInv at hc
    split at hc
    · obtain ⟨pre, h1, h2⟩ := hc
      rw [h2.responses s b]
    · obtain ⟨pre, H, E, hc⟩ := hc
      rw [hc.past.responses s b, hc.log s b, List.map_append]
      exact List.prefix_append _ _
  · intro c
    have hc := h.client c
    unfold ClientInv at hc
    split at hc
    · obtain ⟨pre, h1, h2⟩ := hc
      rw [h2.order, h1, targets_append, List.map_append]
      exact List.prefix_append _ _
    · obtain ⟨pre, H, E, hc⟩ := hc
      rw [hc.past.order, hc.prog, targets_append, List.map_append]
      exact List.prefix_append _ _

theorem inv_complete (h : Inv sys Good w prog st) (hf : Finished st) : Complete sys w prog st := by
  have key : ∀ c, Past c (prog c) (fun s b => logOf c s b st.log) (st.client c).results := by
    intro c
    have hc := h.client c
    unfold ClientInv at hc
    rw [(hf c).2] at hc
    obtain ⟨pre, h1, h2⟩ := hc
    rw [(hf c).1, List.append_nil] at h1
    rw [h1]
    exact h2
  exact ⟨h.world, fun c => (key c).requests, fun c => (key c).responses, fun c => (key c).order⟩

theorem inv_owned (h : Inv sys Good w prog st) : Owned st := ⟨h.owned.1, h.owned.2⟩

/-! ## How many steps there are -/

def slotLeft : Slot β → Nat
  | .todo => 7
  | _ => 0

def stageLeft : Stage α → Nat
  | .sent => 6
  | .taken => 5
  | .pulled _ => 4
  | .replied _ _ => 3
  | .answered _ _ => 2
  | .cleaning _ => 1
  | .closed => 0

def actLeft (a : Act n α) : Nat := match a with | .remote l => 2 + 7 * l.length | .local _ => 1

def phaseLeft : Phase n α β → Nat
  | .ready => 0
  | .round slots => 1 + (slots.map (fun x => slotLeft x.2.2)).sum

def clientLeft (x : Client n α β) : Nat := (x.acts.map actLeft).sum + phaseLeft x.phase

def left (st : St n α β W) : Nat := (∑ c, clientLeft (st.client c)) + (st.calls.map (fun x => stageLeft x.stage)).sum

theorem left_init (w : W) (prog : Fin n → List (Act n α)) : left (init w prog : St n α β W) = stepBound prog := by
  unfold left stepBound init clientLeft phaseLeft
  simp only [List.map_nil, List.sum_nil, Nat.add_zero]
  rfl

theorem sum_update (f : Fin n → Nat) (c : Fin n) (a : Nat) : (∑ d, update f c a d) + f c = (∑ d, f d) + a := by
  rw [Finset.sum_update_of_mem (Finset.mem_univ c)]
  have := Finset.add_sum_erase Finset.univ f (Finset.mem_univ c)
  rw [Finset.sdiff_singleton_eq_erase]
  omega

theorem clients_update (f : Fin n → Client n α β) (c : Fin n) (x : Client n α β) :
    (∑ d, clientLeft (update f c x d)) + clientLeft (f c) = (∑ d, clientLeft (f d)) + clientLeft x := by
  have : (fun d => clientLeft (update f c x d)) = update (fun d => clientLeft (f d)) c (clientLeft x) := by
    funext d
    by_cases h : d = c
    · subst h; rw [update_self, update_self]
    · rw [update_of_ne h, update_of_ne h]
  rw [this]
  exact sum_update (fun d => clientLeft (f d)) c _

theorem calls_set {calls : List (Call n α)} {i : Nat} {x : Call n α} (h : calls[i]? = some x) (x' : Call n α) :
    ((calls.set i x').map (fun x => stageLeft x.stage)).sum + stageLeft x.stage = (calls.map (fun x => stageLeft x.stage)).sum + stageLeft x'.stage := by
  induction calls generalizing i with
  | nil => cases h
  | cons y calls ih =>
    cases i with
    | zero =>
      rw [List.getElem?_cons_zero] at h
      cases h
      simp only [List.set_cons_zero, List.map_cons, List.sum_cons]
      omega
    | succ i =>
      rw [List.getElem?_cons_succ] at h
      have := ih h
      simp only [List.set_cons_succ, List.map_cons, List.sum_cons]
      omega

theorem slots_set {slots : List (Fin n × α × Slot β)} (hn : (slots.map Prod.fst).Nodup) {s : Fin n} {p : α} {x : Slot β}
    (h : slotOf slots s = some (p, x)) (x' : Slot β) :
    ((setSlot slots s x').map (fun x => slotLeft x.2.2)).sum + slotLeft x = (slots.map (fun x => slotLeft x.2.2)).sum + slotLeft x' := by
  induction slots with
  | nil => cases h
  | cons y slots ih =>
    rw [slotOf_cons] at h
    rw [List.map_cons, List.nodup_cons] at hn
    by_cases hy : y.1 = s
    · rw [if_pos hy] at h
      have h := Option.some.inj h
      have hrest : setSlot slots s x' = slots := by
        unfold setSlot
        conv_rhs => rw [← List.map_id slots]
        refine List.map_congr_left ?_
        intro z hz
        rw [if_neg, id]
        intro e
        exact hn.1 (by rw [hy, ← e]; exact List.mem_map_of_mem hz)
      have hcons : setSlot (y :: slots) s x' = (y.1, y.2.1, x') :: setSlot slots s x' := by
        rw [setSlot, List.map_cons, if_pos hy]
        rfl
      rw [hcons, hrest]
      simp only [List.map_cons, List.sum_cons, h]
      omega
    · rw [if_neg hy] at h
      have := ih hn.2 h
      have hcons : setSlot (y :: slots) s x' = y :: setSlot slots s x' := by
        rw [setSlot, List.map_cons, if_neg hy]
        rfl
      rw [hcons]
      simp only [List.map_cons, List.sum_cons]
      omega

theorem slots_todo (l : List (Fin n × α)) :
    ((l.map (fun x => ((x.1, x.2, .todo) : Fin n × α × Slot β))).map (fun x => slotLeft x.2.2)).sum = 7 * l.length := by
  induction l with
  | nil => rfl
  | cons x l ih =>
    rw [List.map_cons, List.map_cons, List.sum_cons, ih, List.length_cons]
    show 7 + _ = _
    omega

theorem slots_done {l : List (Fin n × α × Slot β)} (h : (l.map Slot.got?).all (·.isSome) = true) : (l.map (fun x => slotLeft x.2.2)).sum = 0 := by
  induction l with
  | nil => rfl
  | cons y l ih =>
    rw [List.map_cons, List.all_cons, Bool.and_eq_true] at h
    obtain ⟨a, b, x⟩ := y
    cases x <;> simp only [Slot.got?, Option.isSome_none, Bool.false_eq_true, false_and] at h
    rw [List.map_cons, List.sum_cons, ih h.2]
    rfl

/-- Every step brings the end closer by one. -/
theorem left_step (hans : Answers sys prog Good) (hd : Distinct prog) (h : Inv sys Good w prog st) {l : Label n}
    (hst : step sys st l = some st') : left st' + 1 = left st := by
  have h' := inv_step hans hd h hst
  have hgood := h'.good
  unfold step at hst
  rw [h.good] at hst
  simp only [Bool.false_eq_true, if_false] at hst
  have hfail : st' ≠ st.fail := by
    rintro rfl
    cases hgood
  unfold left
  cases l with
  | start c =>
    simp only [start] at hst
    split at hst
    · rename_i l acts hph hacts
      cases hst
      have := clients_update st.client c ⟨acts, .round (l.map (fun x => (x.1, x.2, .todo))), (st.client c).results⟩
      simp only [St.setClient]
      have e1 : clientLeft (st.client c) = 2 + 7 * l.length + (acts.map actLeft).sum := by
        unfold clientLeft
        rw [hacts, hph]
        simp [phaseLeft, actLeft]
      have e2 : clientLeft (⟨acts, .round (l.map (fun x => (x.1, x.2, .todo))), (st.client c).results⟩ : Client n α β) =
          1 + 7 * l.length + (acts.map actLeft).sum := by
        show (acts.map actLeft).sum + (1 + _) = _
        rw [slots_todo]
        omega
      omega
    · rename_i p acts hph hacts
      split at hst
      · rename_i w' r hserve
        cases hst
        have := clients_update st.client c ⟨acts, .ready, (st.client c).results ++ [⟨c, false, r⟩]⟩
        simp only [St.setClient]
        have e1 : clientLeft (st.client c) = 1 + (acts.map actLeft).sum := by
          unfold clientLeft
          rw [hacts, hph]
          simp [phaseLeft, actLeft]
        have e2 : clientLeft (⟨acts, .ready, (st.client c).results ++ [⟨c, false, r⟩]⟩ : Client n α β) = (acts.map actLeft).sum := rfl
        omega
      · exact absurd (Option.some.inj hst).symm hfail
    · cases hst
  | call c s addr =>
    simp only [call] at hst
    split at hst
    · rename_i slots hph
      split at hst
      · rename_i p hs
        split at hst
        · cases hst
          have := clients_update st.client c ⟨(st.client c).acts, .round (setSlot slots s (.called st.calls.length)), (st.client c).results⟩
          have h2 := slots_set (round_nodup hd h hph) hs (.called st.calls.length)
          simp only [St.setMem, St.setPhase, St.setClient, List.map_append, List.map_cons, List.map_nil, List.sum_append, List.sum_cons,
            List.sum_nil, stageLeft]
          have e1 : clientLeft (st.client c) = ((st.client c).acts.map actLeft).sum + (1 + (slots.map (fun x => slotLeft x.2.2)).sum) := by
            unfold clientLeft
            rw [hph]
            rfl
          have e2 : clientLeft (⟨(st.client c).acts, .round (setSlot slots s (.called st.calls.length)), (st.client c).results⟩ : Client n α β) =
            ((st.client c).acts.map actLeft).sum + (1 + ((setSlot slots s (.called st.calls.length)).map (fun x => slotLeft x.2.2)).sum) := rfl
          simp only [slotLeft] at h2 e1 e2
          omega
        · cases hst
      · cases hst
    · cases hst
  | take i =>
    simp only [take] at hst
    split at hst
    · rename_i x hx
      split at hst
      · rename_i hstage
        split at hst
        · cases hst
          have := calls_set hx { x with stage := .taken }
          rw [hstage] at this
          simp only [St.setCall, stageLeft] at this ⊢
          omega
        · cases hst
      · cases hst
    · cases hst
  | pull i =>
    simp only [pull] at hst
    split at hst
    · rename_i x hx
      split at hst
      · rename_i hstage
        split at hst
        · rename_i p hm
          split at hst
          · cases hst
            have := calls_set hx { x with stage := .pulled p }
            rw [hstage] at this
            simp only [St.setCall, stageLeft] at this ⊢
            omega
          · exact absurd (Option.some.inj hst).symm hfail
        · exact absurd (Option.some.inj hst).symm hfail
      · cases hst
    · cases hst
  | serve i addr =>
    simp only [serve] at hst
    split at hst
    · rename_i x hx
      split at hst
      · rename_i p hstage
        split at hst
        · split at hst
          · rename_i w' r hserve
            cases hst
            have := calls_set hx { x with stage := .replied (sys.resSize r) addr }
            rw [hstage] at this
            simp only [St.setCall, St.setMem, stageLeft] at this ⊢
            omega
          · exact absurd (Option.some.inj hst).symm hfail
        · cases hst
      · cases hst
    · cases hst
  | recv c s =>
    simp only [recv] at hst
    split at hst
    · rename_i slots hph
      split at hst
      · rename_i p i hs
        split at hst
        · rename_i x hx
          split at hst
          · rename_i len addr hstage
            split at hst
            · cases hst
              have := calls_set hx { x with stage := .answered len addr }
              rw [hstage] at this
              simp only [St.setCall, St.setMem, stageLeft] at this ⊢
              omega
            · exact absurd (Option.some.inj hst).symm hfail
          · cases hst
        · cases hst
      · cases hst
    · cases hst
  | read c s =>
    simp only [read] at hst
    split at hst
    · rename_i slots hph
      split at hst
      · rename_i p i hs
        split at hst
        · rename_i x hx
          split at hst
          · rename_i len addr hstage
            split at hst
            · rename_i r hm
              split at hst
              · cases hst
                have h1 := clients_update st.client c ⟨(st.client c).acts, .round (setSlot slots s (.done r)), (st.client c).results⟩
                have h2 := slots_set (round_nodup hd h hph) hs (.done r)
                have h3 := calls_set hx { x with stage := .cleaning addr }
                rw [hstage] at h3
                have e1 : clientLeft (st.client c) = ((st.client c).acts.map actLeft).sum + (1 + (slots.map (fun x => slotLeft x.2.2)).sum) := by
                  unfold clientLeft
                  rw [hph]
                  rfl
                have e2 : clientLeft (⟨(st.client c).acts, .round (setSlot slots s (.done r)), (st.client c).results⟩ : Client n α β) =
                  ((st.client c).acts.map actLeft).sum + (1 + ((setSlot slots s (.done r)).map (fun x => slotLeft x.2.2)).sum) := rfl
                simp only [St.setCall, St.setPhase, St.setClient, stageLeft] at h3 ⊢
                simp only [slotLeft] at h2 e1 e2
                omega
              · exact absurd (Option.some.inj hst).symm hfail
            · exact absurd (Option.some.inj hst).symm hfail
          · cases hst
        · cases hst
      · cases hst
    · cases hst
  | clean i =>
    simp only [clean] at hst
    split at hst
    · rename_i x hx
      split at hst
      · rename_i addr hstage
        split at hst
        · split at hst
          · cases hst
            have := calls_set hx { x with stage := .closed }
            rw [hstage] at this
            simp only [St.setCall, St.setMem, stageLeft] at this ⊢
            omega
          · exact absurd (Option.some.inj hst).symm hfail
        · cases hst
      · cases hst
    · cases hst
  | finish c =>
    simp only [finish] at hst
    split at hst
    · rename_i slots hph
      split at hst
      · rename_i hall
        cases hst
        have h1 := clients_update st.client c ⟨(st.client c).acts, .ready, (st.client c).results ++ slots.filterMap Slot.got?⟩
        have e1 : clientLeft (st.client c) = ((st.client c).acts.map actLeft).sum + (1 + (slots.map (fun x => slotLeft x.2.2)).sum) := by
          unfold clientLeft
          rw [hph]
          rfl
        have e2 : clientLeft (⟨(st.client c).acts, .ready, (st.client c).results ++ slots.filterMap Slot.got?⟩ : Client n α β) =
          ((st.client c).acts.map actLeft).sum + 0 := rfl
        rw [slots_done hall] at e1
        simp only [St.setClient]
        omega
      · cases hst
    · cases hst

theorem left_run (hans : Answers sys prog Good) (hd : Distinct prog) (ls : List (Label n)) {st : St n α β W}
    (h : Inv sys Good w prog st) (hst : run sys st ls = some st') : left st' + ls.length = left st := by
  induction ls generalizing st with
  | nil => cases hst; rfl
  | cons l ls ih =>
    simp only [run, Option.bind_eq_bind, Option.bind_eq_some_iff] at hst
    obtain ⟨u, hu, hst⟩ := hst
    have h1 := left_step hans hd h hu
    have h2 := ih (inv_step hans hd h hu) hst
    rw [List.length_cons]
    omega

/-! ## Progress -/

theorem le_sum {l : List Nat} {a : Nat} (h : a ∈ l) : a ≤ l.sum := by
  induction l with
  | nil => cases h
  | cons b l ih =>
    rw [List.sum_cons]
    rcases List.mem_cons.mp h with rfl | h
    · omega
    · have := ih h
      omega

theorem fresh (h : Inv sys Good w prog st) (c : Fin n) : ∃ a, (st.mem c a).isNone = true := by
  refine ⟨((st.calls.flatMap bufs).map Prod.snd).sum + 1, ?_⟩
  rw [← Option.not_isSome, Bool.not_eq_true', Bool.eq_false_iff]
  intro hs
  have := (h.owned.2 _ _).mp hs
  have := le_sum (List.mem_map_of_mem (f := Prod.snd) this)
  simp only at this
  omega

theorem stuck_calls (ht : 0 < sys.threads) (h : Inv sys Good w prog st)
    (hs : Stuck sys st) : ∀ x ∈ st.calls, x.stage = .closed := by
  have hstep : ∀ l : Label n, (if st.bad then none else (match l with
      | .start c => start sys st c
      | .call c s addr => call sys st c s addr
      | .take i => take sys st i
      | .pull i => pull sys st i
      | .serve i addr => serve sys st i addr
      | .recv c s => recv st c s
      | .read c s => read sys st c s
      | .clean i => clean sys st i
      | .finish c => finish st c : Option (St n α β W))) = none := hs
  rw [h.good] at hstep
  simp only [Bool.false_eq_true, if_false] at hstep
  have hidle : ∀ x ∈ st.calls, x.stage.busy = false := by
    intro x hx
    obtain ⟨i, hi⟩ := List.mem_iff_getElem?.mp hx
    rw [← Bool.not_eq_true]
    intro hb
    cases hst : x.stage with
    | taken =>
      have := hstep (.pull i)
      simp only [pull, hi, hst] at this
      split at this
      · split at this <;> cases this
      · cases this
    | pulled p =>
      obtain ⟨a, ha⟩ := fresh h x.dst
      have := hstep (.serve i a)
      simp only [serve, hi, hst, ha, if_true] at this
      split at this <;> cases this
    | _ => rw [hst] at hb; cases hb
  have hbusy : ∀ s, busy st.calls s = 0 := by
    intro s
    unfold busy
    rw [List.length_eq_zero_iff, List.filter_eq_nil_iff]
    intro x hx
    rw [hidle x hx]
    simp
  intro x hx
  obtain ⟨i, hi⟩ := List.mem_iff_getElem?.mp hx
  have hopen : x.stage.isOpen = true → ∃ slots p, (st.client x.src).phase = .round slots ∧ slotOf slots x.dst = some (p, .called i) :=
    h.linked i x hi
  cases hst : x.stage with
  | closed => rfl
  | sent =>
    have := hstep (.take i)
    simp only [take, hi, hst, hbusy, ht, if_true] at this
    cases this
  | taken => have := hidle x hx; rw [hst] at this; cases this
  | pulled p => have := hidle x hx; rw [hst] at this; cases this
  | replied len a =>
    obtain ⟨slots, p, h1, h2⟩ := hopen (by rw [hst]; rfl)
    have := hstep (.recv x.src x.dst)
    simp only [recv, h1, h2, hi, hst] at this
    split at this <;> cases this
  | answered len a =>
    obtain ⟨slots, p, h1, h2⟩ := hopen (by rw [hst]; rfl)
    have := hstep (.read x.src x.dst)
    simp only [read, h1, h2, hi, hst] at this
    split at this
    · split at this <;> cases this
    · cases this
  | cleaning a =>
    have := hstep (.clean i)
    simp only [clean, hi, hst, hbusy, ht, if_true] at this
    split at this <;> cases this

theorem stuck_finished (hd : Distinct prog) (ht : 0 < sys.threads) (h : Inv sys Good w prog st)
    (hs : Stuck sys st) : Finished st := by
  have hclosed := stuck_calls ht h hs
  intro c
  have hready : (st.client c).phase = .ready := by
    cases hph : (st.client c).phase with
    | ready => rfl
    | round slots =>
      exfalso
      have hn := round_nodup hd h hph
      have hno : ∀ y ∈ slots, y.2.2.isCalled = false := by
        intro y hy
        obtain ⟨s, p, x⟩ := y
        cases x with
        | todo => rfl
        | done r => rfl
        | called i =>
          obtain ⟨z, e, g1, g2, g3, g4, g5⟩ := slot_call h hph (slotOf_of_mem hn hy)
          have := stage_open g5
          rw [hclosed z (List.mem_of_getElem? g1)] at this
          cases this
      by_cases htodo : ∃ y ∈ slots, y.2.2 = .todo
      · obtain ⟨⟨s, p, x⟩, hy, rfl⟩ := htodo
        obtain ⟨a, ha⟩ := fresh h c
        have := hs (.call c s a)
        unfold step at this
        rw [h.good] at this
        simp only [Bool.false_eq_true, if_false, call, hph, slotOf_of_mem hn hy, ha, Bool.and_true] at this
        rw [if_pos] at this
        · cases this
        · rw [Bool.or_eq_true]
          right
          rw [List.all_eq_true]
          intro y hy
          rw [hno y hy]
          rfl
      · have := hs (.finish c)
        unfold step at this
        rw [h.good] at this
        simp only [Bool.false_eq_true, if_false, finish, hph] at this
        rw [if_pos] at this
        · cases this
        · rw [List.all_eq_true]
          intro z hz
          obtain ⟨⟨s, p, x⟩, hy, rfl⟩ := List.mem_map.mp hz
          cases x with
          | todo => exact absurd ⟨_, hy, rfl⟩ htodo
          | done r => rfl
          | called i => have := hno _ hy; cases this
  refine ⟨?_, hready⟩
  cases hacts : (st.client c).acts with
  | nil => rfl
  | cons a acts =>
    exfalso
    have := hs (.start c)
    unfold step at this
    rw [h.good] at this
    simp only [Bool.false_eq_true, if_false, start, hready, hacts] at this
    cases a with
    | remote l => cases this
    | «local» p =>
      simp only at this
      split at this <;> cases this

theorem no_buffers (h : Inv sys Good w prog st) (hc : ∀ x ∈ st.calls, x.stage = .closed) (r : Fin n) (a : Nat) : st.mem r a = none := by
  rw [← Option.not_isSome_iff_eq_none, h.owned.2 r a]
  intro hm
  obtain ⟨x, hx, hm⟩ := List.mem_flatMap.mp hm
  unfold bufs reqBuf resBuf at hm
  rw [hc x hx] at hm
  cases hm

/-- Executions can be continued until nothing more is possible. -/
theorem run_stuck (hans : Answers sys prog Good) (hd : Distinct prog) (m : Nat) {st : St n α β W} (h : Inv sys Good w prog st)
    (hm : left st ≤ m) : ∃ ls st', run sys st ls = some st' ∧ Stuck sys st' := by
  induction m generalizing st with
  | zero =>
    refine ⟨[], st, rfl, ?_⟩
    intro l
    cases hl : step sys st l with
    | none => rfl
    | some u =>
      have := left_step hans hd h hl
      omega
  | succ m ih =>
    by_cases hs : Stuck sys st
    · exact ⟨[], st, rfl, hs⟩
    · unfold Stuck at hs
      push Not at hs
      obtain ⟨l, hl⟩ := hs
      obtain ⟨u, hu⟩ := Option.ne_none_iff_exists'.mp hl
      have := left_step hans hd h hu
      obtain ⟨ls, st', h1, h2⟩ := ih (inv_step hans hd h hu) (by omega)
      refine ⟨l :: ls, st', ?_, h2⟩
      simp only [run, hu, Option.bind_eq_bind, Option.bind_some]
      exact h1

end Hx.Rpc

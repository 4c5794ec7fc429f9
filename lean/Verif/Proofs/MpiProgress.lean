import Verif.Proofs.Mpi
import Mathlib.Algebra.BigOperators.Group.Finset.Basic
import Mathlib.Data.Fintype.BigOperators
import Mathlib.Data.Fintype.Card

/-!
# Helper lemmas: ranks that use MPI make progress
-/

namespace Hx.Mpi
open Hx Spec.Mpi
open Function (update update_self update_of_ne)

variable {n L : Nat} {α β W : Type} {sys : Sys n α β W} {Good : W → Prop} {w : W} {prog : Fin n → List (Act n α)}
  {H : Fin n → Fin n → List (α × β)} {st st' : St n L α β W}

/-! ## What clients have received -/

theorem joint_log {Hs : List (α × β)} {f : Fin L → Listener n α β} {c : Fin n} {v : Option (α × Slot β)} {pr : Pair α β}
    {lg : List (α × β)} (h : Joint sys Hs f c v pr lg) : Hs <+: lg ∧ lg.map Prod.fst <+: Hs.map Prod.fst ++ current v := by
  cases h with
  | free _ hv ha => exact ⟨List.prefix_refl _, List.prefix_append _ _⟩
  | half p ha => exact ⟨List.prefix_refl _, List.prefix_append _ _⟩
  | halfTaken p j hj ha => exact ⟨List.prefix_refl _, List.prefix_append _ _⟩
  | full p ha => exact ⟨List.prefix_refl _, List.prefix_append _ _⟩
  | fullTaken p j hj ha => exact ⟨List.prefix_refl _, List.prefix_append _ _⟩
  | got p j hj ha => exact ⟨List.prefix_refl _, List.prefix_append _ _⟩
  | served p r j x t hj ha hx =>
    refine ⟨List.prefix_append _ _, ?_⟩
    rcases hx with ⟨rfl, -⟩ | ⟨rfl, -⟩ <;> simp [current]
  | answered p r x t ha hx =>
    refine ⟨List.prefix_append _ _, ?_⟩
    rcases hx with ⟨rfl, -⟩ | ⟨rfl, -⟩ <;> simp [current]

theorem inv_faithful (h : Inv sys Good w prog H st) : Faithful sys w prog st := by
  refine ⟨h.bad, h.world, ?_, ?_, ?_⟩
  · intro c s b
    cases b with
    | false =>
      rw [← (h.client c).localReq s]
      exact List.prefix_append _ _
    | true =>
      rw [(h.client c).requests s]
      exact (joint_log (h.joint c s)).2.trans (List.prefix_append _ _)
  · intro c s b
    cases b with
    | false => rw [(h.client c).localRes s]
    | true =>
      have := (joint_log (h.joint c s)).1.map Prod.snd
      rw [(h.client c).responses s] at this
      exact (List.prefix_append _ _).trans this
  · intro c
    rw [(h.client c).order, List.append_assoc]
    exact List.prefix_append _ _

theorem inv_complete (h : Inv sys Good w prog H st) (hf : Finished st) : Complete sys w prog st := by
  refine ⟨h.world, ?_, ?_, ?_⟩
  · intro c s b
    cases b with
    | false =>
      rw [← (h.client c).localReq s, (hf c).1]
      simp [targets, sentTo]
    | true =>
      obtain ⟨h1, h2⟩ := joint_log (h.joint c s)
      rw [(h.client c).requests s]
      rw [(hf c).2, (hf c).1] at *
      simp only [view, current, targets, sentTo, List.filter_nil, List.map_nil, List.append_nil] at h2 ⊢
      exact h2.eq_of_length_le (h1.map _).length_le
  · intro c s b
    cases b with
    | false => exact ((h.client c).localRes s).symm
    | true =>
      obtain ⟨h1, h2⟩ := joint_log (h.joint c s)
      have hr := (h.client c).responses s
      rw [(hf c).2] at h2 hr
      simp only [view, current, received, List.append_nil] at h2 hr
      rw [← hr]
      refine (h1.map _).eq_of_length_le ?_
      have := h2.length_le
      simpa using this
  · intro c
    rw [(h.client c).order, (hf c).1, (hf c).2]
    simp [keys, targets]

/-! ## No deadlock -/

theorem stuck_label (h : Inv sys Good w prog H st) (hs : Stuck sys st) :
    (∀ c, start sys st c = none) ∧ (∀ c s, post sys st c s = none) ∧ (∀ c, sent sys st c = none) ∧ (∀ c s, size st c s = none) ∧
    (∀ c, sized st c = none) ∧ (∀ c s, data sys st c s = none) ∧ (∀ c, finish st c = none) ∧
    (∀ s j c, listen st s j c = none) ∧ (∀ s j, listener sys st s j = none) := by
  have key : ∀ l, step sys st l = none := hs
  unfold step at key
  simp only [h.bad] at key
  exact ⟨fun c => key (.start c), fun c s => key (.post c s), fun c => key (.sent c), fun c s => key (.size c s),
    fun c => key (.sized c), fun c s => key (.data c s), fun c => key (.finish c), fun s j c => key (.listen s j c),
    fun s j => key (.listener s j)⟩

theorem round_of_view (h : Inv sys Good w prog H st) {c s : Fin n} {x : α × Slot β} (hv : view (st.client c).phase s = some x) :
    ∃ stage slots, (st.client c).phase = .round stage slots ∧ slotOf slots s = some x ∧ StageOk stage x.2 := by
  cases hph : (st.client c).phase with
  | ready => rw [hph] at hv; cases hv
  | round stage slots =>
    rw [hph] at hv
    exact ⟨stage, slots, rfl, hv, ((h.client c).nodup _ _ hph).2.1 _ (mem_of_slotOf hv)⟩

theorem no_half (h : Inv sys Good w prog H st) (hs : Stuck sys st) {c s : Fin n} {p : α} {q : Nat}
    (hv : view (st.client c).phase s = some (p, .half q)) : False := by
  obtain ⟨stage, slots, hph, hsl, hok⟩ := round_of_view h hv
  obtain ⟨-, hpost, -⟩ := stuck_label h hs
  have := hpost c s
  cases stage with
  | sending =>
    unfold post at this
    rw [hph] at this
    simp only [hsl, reduceCtorEq] at this
  | sizes => rcases hok with ⟨_, _, e⟩ | ⟨_, e⟩ <;> cases e
  | datas => rcases hok with ⟨_, e⟩ | ⟨_, e⟩ <;> cases e

/-- The request of `c` to `s` is sent and nobody has taken it. -/
def Waits (st : St n L α β W) (c s : Fin n) : Prop :=
  (∃ p q q', view (st.client c).phase s = some (p, .full q q')) ∧ (∀ j, ¬ Active c (st.listener s j)) ∧
  (st.pair c s).sizeReq.next? ≠ none ∧ (st.pair c s).dataRes.msgs.length ≤ (st.pair c s).dataRes.taken

/-- The listener waits for `d` to receive the response. -/
def Serves (sys : Sys n α β W) (st : St n L α β W) (s : Fin n) (j : Fin L) (d : Fin n) : Prop :=
  (∃ r q, st.listener s j = .sendSize d r q ∧ sys.eager sizeLen = false) ∨
  ∃ len q, st.listener s j = .sendData d len q ∧ sys.eager len = false ∧ (st.pair d s).dataRes.taken ≤ q

theorem stuck_listener (hans : Answers sys prog Good) (h : Inv sys Good w prog H st) (hs : Stuck sys st) (s : Fin n) (j : Fin L) :
    st.listener s j = .idle ∨ ∃ d, Serves sys st s j d := by
  obtain ⟨-, -, -, -, -, -, -, -, hl⟩ := stuck_label h hs
  have hl := hl s j
  unfold listener at hl
  split at hl
  · exact Or.inl ‹_›
  · rename_i c len he
    exfalso
    simp only at hl
    have hact : Active c (st.listener s j) := by rw [he]; rfl
    have hj := h.joint c s
    generalize hpr : st.pair c s = pr at hj hl
    generalize hv : view (st.client c).phase s = v at hj
    generalize logOf c s true st.log = lg at hj
    cases hj with
    | free _ _ ha => exact ha j hact
    | half p ha => exact ha j hact
    | full p ha => exact ha j hact
    | answered _ _ _ _ ha => exact ha j hact
    | halfTaken p j' hj' ha => exact no_half h hs hv
    | fullTaken p j' hj' ha =>
      simp only [Chan.next?] at hl
      rw [List.getElem?_append_right (by simp)] at hl
      simp at hl
      split at hl <;> cases hl
    | got p j' hj' ha =>
      have := ha j hact
      subst this
      rw [he] at hj'
      cases hj'
    | served p r j' x t hj' ha =>
      have := ha j hact
      subst this
      rw [he] at hj'
      cases hj'
  · exfalso
    split at hl <;> cases hl
  · rename_i d r q he
    simp only at hl
    split at hl
    · cases hl
    · rename_i hc
      simp only [Bool.or_eq_true, not_or, Bool.not_eq_true] at hc
      exact Or.inr ⟨d, Or.inl ⟨r, q, he, hc.1⟩⟩
  · rename_i d len q he
    split at hl
    · cases hl
    · rename_i hc
      simp only [Bool.or_eq_true, not_or, Bool.not_eq_true, decide_eq_false_iff_not] at hc
      exact Or.inr ⟨d, Or.inr ⟨len, q, he, hc.1, by omega⟩⟩

/-- What has become of a request that was sent. -/
theorem stuck_full (hans : Answers sys prog Good) (h : Inv sys Good w prog H st) (hs : Stuck sys st) {c s : Fin n} {p : α} {q q' : Nat}
    (hv : view (st.client c).phase s = some (p, .full q q')) :
    Waits st c s ∨ (q < (st.pair c s).sizeReq.taken ∧ q' < (st.pair c s).dataReq.taken ∧ ∃ len, (st.pair c s).sizeRes.next? = some len) := by
  have hj := h.joint c s
  rw [hv] at hj
  have hserv : ∀ j x, st.listener s j = x → x ≠ .idle → (∀ d, ¬ Serves sys st s j d) → False := by
    intro j x hx hne hno
    rcases stuck_listener hans h hs s j with e | ⟨d, e⟩
    · exact hne (hx.symm.trans e)
    · exact hno d e
  generalize hpr : st.pair c s = pr at hj
  generalize logOf c s true st.log = lg at hj
  cases hj with
  | free _ hv' _ => rcases hv' with e | ⟨_, e⟩ | ⟨_, _, e⟩ <;> cases e
  | full _ ha =>
    refine Or.inl ⟨⟨_, _, _, hv⟩, ha, ?_, ?_⟩
    · rw [hpr]
      simp only [Chan.next?]
      rw [List.getElem?_append_right (by simp)]
      simp
    · rw [hpr]; simp
  | fullTaken _ j hj ha =>
    exfalso
    refine hserv j _ hj (by simp) ?_
    rintro d (⟨_, _, e, _⟩ | ⟨_, _, e, _⟩) <;> (rw [hj] at e; cases e)
  | got _ j hj ha =>
    exfalso
    refine hserv j _ hj (by simp) ?_
    rintro d (⟨_, _, e, _⟩ | ⟨_, _, e, _⟩) <;> (rw [hj] at e; cases e)
  | served _ r j _ t hj ha hx =>
    rcases hx with ⟨hx, rfl⟩ | ⟨hx, -⟩
    · cases hx
      refine Or.inr ⟨Nat.lt_succ_self _, Nat.lt_succ_self _, sys.resSize r, ?_⟩
      simp only [Chan.next?]
      rw [List.getElem?_append_right (by simp)]
      simp
    · cases hx
  | answered _ r _ t ha hx =>
    rcases hx with ⟨hx, rfl⟩ | ⟨hx, -⟩
    · cases hx
      refine Or.inr ⟨Nat.lt_succ_self _, Nat.lt_succ_self _, sys.resSize r, ?_⟩
      simp only [Chan.next?]
      rw [List.getElem?_append_right (by simp)]
      simp
    · cases hx

/-- A client that is not finished waits for a request to be taken. -/
theorem stuck_client (hans : Answers sys prog Good) (h : Inv sys Good w prog H st) (hs : Stuck sys st) (c : Fin n)
    (hc : ¬ ((st.client c).acts = [] ∧ (st.client c).phase = .ready)) : ∃ s, Waits st c s := by
  obtain ⟨hstart, hpost, hsent, hsize, hsized, hdata, hfinish, -, hlistener⟩ := stuck_label h hs
  cases hph : (st.client c).phase with
  | ready =>
    exfalso
    have := hstart c
    unfold start at this
    rw [hph] at this
    cases ha : (st.client c).acts with
    | nil => exact hc ⟨ha, hph⟩
    | cons a acts =>
      rw [ha] at this
      cases a with
      | remote l => cases this
      | «local» p =>
        simp only at this
        split at this <;> cases this
  | round stage slots =>
    have hn := ((h.client c).nodup _ _ hph).1
    have hok := ((h.client c).nodup _ _ hph).2.1
    have hview : ∀ y ∈ slots, view (st.client c).phase y.1 = some y.2 := by
      intro y hy
      rw [hph]
      exact slotOf_of_mem hn hy
    cases stage with
    | sending =>
      have := hsent c
      unfold sent at this
      rw [hph] at this
      simp only at this
      split at this
      · cases this
      · rename_i hall
        simp only [List.all_eq_true, not_forall] at hall
        obtain ⟨⟨s, p, x⟩, hy, hall⟩ := hall
        have hv := hview _ hy
        simp only at hv
        rcases hok _ hy with e | ⟨q, e⟩ | ⟨q, q', e⟩
        · exfalso
          simp only at e
          subst e
          have := hpost c s
          unfold post at this
          rw [hph] at this hv
          simp only [show slotOf slots s = _ from hv, reduceCtorEq] at this
        · simp only at e
          subst e
          exact (no_half h hs hv).elim
        · simp only at e
          subst e
          rcases stuck_full hans h hs hv with hw | ⟨h1, h2, -⟩
          · exact ⟨s, hw⟩
          · exact absurd (by simp [sentSlot, h1, h2]) hall
    | sizes =>
      have := hsized c
      unfold sized at this
      rw [hph] at this
      simp only at this
      split at this
      · cases this
      · rename_i hall
        simp only [List.all_eq_true, not_forall] at hall
        obtain ⟨⟨s, p, x⟩, hy, hall⟩ := hall
        have hv := hview _ hy
        simp only at hv
        rcases hok _ hy with ⟨q, q', e⟩ | ⟨len, e⟩
        · simp only at e
          subst e
          rcases stuck_full hans h hs hv with hw | ⟨-, -, len, h3⟩
          · exact ⟨s, hw⟩
          · exfalso
            have := hsize c s
            unfold size at this
            rw [hph] at this hv
            simp only [show slotOf slots s = _ from hv, h3, reduceCtorEq] at this
        · simp only at e
          subst e
          exact absurd rfl hall
    | datas =>
      exfalso
      have := hfinish c
      unfold finish at this
      rw [hph] at this
      simp only at this
      split at this
      · cases this
      · rename_i hall
        simp only [List.all_eq_true, not_forall] at hall
        obtain ⟨z, hz, hall⟩ := hall
        obtain ⟨⟨s, p, x⟩, hy, rfl⟩ := List.mem_map.mp hz
        have hv := hview _ hy
        simp only at hv
        rcases hok _ hy with ⟨len, e⟩ | ⟨r, e⟩
        · simp only at e
          subst e
          have hdat := hdata c s
          unfold data at hdat
          have hj := h.joint c s
          rw [hv] at hj
          rw [hph] at hdat hv
          simp only [show slotOf slots s = _ from hv] at hdat
          generalize hpr : st.pair c s = pr at hj hdat
          generalize logOf c s true st.log = lg at hj
          cases hj with
          | free _ hv' _ => rcases hv' with e | ⟨_, e⟩ | ⟨_, _, e⟩ <;> cases e
          | served _ r j _ t hj ha hx =>
            rcases hx with ⟨hx, -⟩ | ⟨-, rfl⟩
            · cases hx
            · have := hlistener s j
              unfold listener at this
              rw [hj] at this
              simp only [hpr] at this
              rw [if_pos (by simp)] at this
              cases this
          | answered _ r _ t ha hx =>
            simp only [Chan.next?] at hdat
            rw [List.getElem?_append_right (by simp)] at hdat
            simp at hdat
            split at hdat <;> cases hdat
        · simp only at e
          subst e
          exact absurd rfl hall

/-- A client that a listener answers does not wait for a request to that rank to be taken. -/
theorem serves_not_waits (h : Inv sys Good w prog H st) {s : Fin n} {j : Fin L} {d : Fin n} (hsv : Serves sys st s j d) :
    ¬ Waits st d s ∧ ∃ x, view (st.client d).phase s = some x := by
  have hj := h.joint d s
  rcases hsv with ⟨r, q, hl, he⟩ | ⟨len, q, hl, he, hq⟩
  · have hact : Active d (st.listener s j) := by rw [hl]; rfl
    refine ⟨fun hw => hw.2.1 j hact, ?_⟩
    generalize st.pair d s = pr at hj
    generalize hv : view (st.client d).phase s = v at hj
    generalize logOf d s true st.log = lg at hj
    cases hj with
    | free _ _ ha => exact absurd hact (ha j)
    | half p ha => exact ⟨_, rfl⟩
    | halfTaken p j hj ha => exact ⟨_, rfl⟩
    | full p ha => exact ⟨_, rfl⟩
    | fullTaken p j hj ha => exact ⟨_, rfl⟩
    | got p j hj ha => exact ⟨_, rfl⟩
    | served p r j x t hj ha hx => exact ⟨_, rfl⟩
    | answered p r x t ha hx => exact ⟨_, rfl⟩
  · have hp := h.pending _ _ _ _ _ hl
    refine ⟨fun hw => by have := hw.2.2.2; omega, ?_⟩
    generalize st.pair d s = pr at hj hp hq
    generalize hv : view (st.client d).phase s = v at hj
    generalize logOf d s true st.log = lg at hj
    cases hj with
    | free _ _ ha => simp at hp hq; omega
    | half p ha => exact ⟨_, rfl⟩
    | halfTaken p j hj ha => exact ⟨_, rfl⟩
    | full p ha => exact ⟨_, rfl⟩
    | fullTaken p j hj ha => exact ⟨_, rfl⟩
    | got p j hj ha => exact ⟨_, rfl⟩
    | served p r j x t hj ha hx => exact ⟨_, rfl⟩
    | answered p r x t ha hx => exact ⟨_, rfl⟩

/-- A rank is answered by one listener at a time. -/
theorem serves_unique (h : Inv sys Good w prog H st) {s : Fin n} {j j' : Fin L} {d : Fin n} (h1 : Serves sys st s j d)
    (h2 : Serves sys st s j' d) : j = j' := by
  have hj := h.joint d s
  have mixed : ∀ j j' r q len q', st.listener s j = .sendSize d r q → st.listener s j' = .sendData d len q' →
      (st.pair d s).dataRes.taken ≤ q' → False := by
    intro j j' r q len q' e1 e2 hq
    have hact : Active d (st.listener s j) := by rw [e1]; rfl
    have hp := h.pending _ _ _ _ _ e2
    generalize st.pair d s = pr at hj hp hq
    generalize hv : view (st.client d).phase s = v at hj
    generalize logOf d s true st.log = lg at hj
    cases hj with
    | answered p r x t ha hx => exact ha j hact
    | _ => simp at hp hq; omega
  rcases h1 with ⟨r, q, e1, -⟩ | ⟨len, q, e1, -, hq⟩ <;> rcases h2 with ⟨r', q', e2, -⟩ | ⟨len', q', e2, -, hq'⟩
  · have a1 : Active d (st.listener s j) := by rw [e1]; rfl
    have a2 : Active d (st.listener s j') := by rw [e2]; rfl
    generalize st.pair d s = pr at hj
    generalize hv : view (st.client d).phase s = v at hj
    generalize logOf d s true st.log = lg at hj
    cases hj with
    | free _ _ ha => exact absurd a1 (ha j)
    | half p ha => exact absurd a1 (ha j)
    | full p ha => exact absurd a1 (ha j)
    | answered p r x t ha hx => exact absurd a1 (ha j)
    | halfTaken p k hk ha => exact (ha j a1).trans (ha j' a2).symm
    | fullTaken p k hk ha => exact (ha j a1).trans (ha j' a2).symm
    | got p k hk ha => exact (ha j a1).trans (ha j' a2).symm
    | served p r k x t hk ha hx => exact (ha j a1).trans (ha j' a2).symm
  · exact (mixed _ _ _ _ _ _ e1 e2 hq').elim
  · exact (mixed _ _ _ _ _ _ e2 e1 hq).elim
  · have : q = q' := by
      have hp := h.pending _ _ _ _ _ e1
      have hp' := h.pending _ _ _ _ _ e2
      generalize st.pair d s = pr at hj hp hp' hq hq'
      generalize hv : view (st.client d).phase s = v at hj
      generalize logOf d s true st.log = lg at hj
      cases hj <;> simp at hp hp' hq hq' <;> omega
    subst this
    exact h.once _ _ _ _ _ _ _ e1 e2

/-- If nothing is possible, a client that is not finished waits for a rank whose listeners all answer
other clients, each of which waits as well. -/
theorem stuck_cycle (hans : Answers sys prog Good) (h : Inv sys Good w prog H st) (hs : Stuck sys st) (c : Fin n)
    (hc : ¬ ((st.client c).acts = [] ∧ (st.client c).phase = .ready)) :
    ∃ s, Waits st c s ∧ ∀ j, ∃ d, Serves sys st s j d ∧ d ≠ c ∧ ∃ s', s' ≠ s ∧ Waits st d s' := by
  obtain ⟨s, hw⟩ := stuck_client hans h hs c hc
  refine ⟨s, hw, ?_⟩
  intro j
  rcases stuck_listener hans h hs s j with hi | ⟨d, hd⟩
  · exfalso
    obtain ⟨-, -, -, -, -, -, -, hlisten, -⟩ := stuck_label h hs
    have := hlisten s j c
    unfold listen at this
    rw [hi] at this
    simp only at this
    rcases Option.eq_none_or_eq_some ((st.pair c s).sizeReq.next?) with e | ⟨len, e⟩
    · exact hw.2.2.1 e
    · rw [e] at this; cases this
  · obtain ⟨hnw, x, hv⟩ := serves_not_waits h hd
    refine ⟨d, hd, ?_, ?_⟩
    · rintro rfl; exact hnw hw
    · obtain ⟨s', hw'⟩ := stuck_client hans h hs d (by
        rintro ⟨-, e⟩
        rw [e] at hv
        cases hv)
      exact ⟨s', by rintro rfl; exact hnw hw', hw'⟩

theorem foreign_view (h : Inv sys Good w prog H st) (hf : Foreign prog) {c s : Fin n} {x : α × Slot β}
    (hv : view (st.client c).phase s = some x) : s ≠ c := by
  cases hph : (st.client c).phase with
  | ready => rw [hph] at hv; cases hv
  | round stage slots =>
    rw [hph] at hv
    obtain ⟨-, -, l, hl, hk⟩ := (h.client c).nodup _ _ hph
    have h1 := List.mem_map_of_mem (f := Prod.fst) (mem_of_slotOf hv)
    rw [hk] at h1
    obtain ⟨y, hy, he⟩ := List.mem_map.mp h1
    have he : y.1 = s := he
    rw [← he]
    exact hf c l hl y hy

theorem stuck_finished (hans : Answers sys prog Good) (hr : Relaxed sys L prog) (h : Inv sys Good w prog H st) (hs : Stuck sys st) :
    Finished st := by
  intro c
  refine Classical.byContradiction (fun hc => ?_)
  obtain ⟨s, hw, hall⟩ := stuck_cycle hans h hs c hc
  rcases hr with ⟨hL, he⟩ | ⟨hL, hone⟩ | hL
  · obtain ⟨d, hd, -⟩ := hall ⟨0, hL⟩
    rcases hd with ⟨_, _, _, e⟩ | ⟨len, _, _, e, _⟩
    · rw [he] at e; cases e
    · rw [he] at e; cases e
  · obtain ⟨d, hd, -, s', hne, hw'⟩ := hall ⟨0, hL⟩
    obtain ⟨-, x, hv⟩ := serves_not_waits h hd
    obtain ⟨⟨p, q, q', hv'⟩, -⟩ := hw'
    cases hph : (st.client d).phase with
    | ready => rw [hph] at hv; cases hv
    | round stage slots =>
      rw [hph] at hv hv'
      obtain ⟨-, -, l, hl, hk⟩ := (h.client d).nodup _ _ hph
      have h1 := List.mem_map_of_mem (f := Prod.fst) (mem_of_slotOf hv)
      have h2 := List.mem_map_of_mem (f := Prod.fst) (mem_of_slotOf hv')
      rw [hk] at h1 h2
      have := hone d l hl
      match l, this with
      | [], _ => cases h1
      | [a], _ =>
        simp only [List.map_cons, List.map_nil, List.mem_singleton] at h1 h2
        exact hne (h2.trans h1.symm)
      | a :: b :: l, h => simp at h
  · obtain ⟨hL, hfor⟩ := hL
    obtain ⟨f, hf⟩ := Classical.axiomOfChoice hall
    have hsc : s ≠ c := by
      obtain ⟨⟨p, q, q', hv⟩, -⟩ := hw
      exact foreign_view h hfor hv
    have hmem : ∀ j, f j ∈ (Finset.univ.erase c).erase s := by
      intro j
      obtain ⟨-, x, hv⟩ := serves_not_waits h (hf j).1
      simp only [Finset.mem_erase, Finset.mem_univ, and_true]
      exact ⟨fun e => foreign_view h hfor hv e.symm, (hf j).2.1⟩
    have hinj : Function.Injective f := by
      intro j j' e
      refine serves_unique h (hf j).1 ?_
      rw [e]
      exact (hf j').1
    have h1 := Finset.card_le_card (s := Finset.univ.image f) (t := (Finset.univ.erase c).erase s) (by
      intro d hd
      obtain ⟨j, -, rfl⟩ := Finset.mem_image.mp hd
      exact hmem j)
    rw [Finset.card_image_of_injective _ hinj, Finset.card_erase_of_mem (by simp [hsc]), Finset.card_erase_of_mem (Finset.mem_univ c)] at h1
    simp only [Finset.card_univ, Fintype.card_fin] at h1
    have h2 := c.isLt
    have h3 := s.isLt
    have h4 : s.val ≠ c.val := fun e => hsc (Fin.ext e)
    omega

end Hx.Mpi

import Verif.Spec.Close

/-!
# Helper lemmas: where ranks are that close a session
-/

namespace Hx.Close
open Hx Spec.Close
open Function (update update_self update_of_ne)

variable {n : Nat} {A S Λ : Type} {net : Net n A S Λ} {m : Nat} {st st' : St n A S}

/-- What the place of a rank says about the barriers it has entered and what it has left to do. -/
def RankOk (m : Nat) (p : Place) (k t : Nat) (idle : Bool) : Prop :=
  match p with
  | .working => k + t = m
  | .sync => k + t = m + 1 ∧ 0 < t ∧ idle = true
  | _ => k = m + 1 ∧ t = 0 ∧ idle = true

/-- How many barriers have returned. -/
def passed (p : Place) (k : Nat) : Nat :=
  match p with
  | .sync => k - 1
  | .closing => k - 1
  | _ => k

structure Places (net : Net n A S Λ) (m : Nat) (st : St n A S) : Prop where
  rank : ∀ c, RankOk m (st.place c) (st.entered c) (st.todo c).length (net.idle st.base c)
  passed : ∀ c d, passed (st.place c) (st.entered c) ≤ st.entered d

/-- Clients that have nothing to do stay so until they get something to do. -/
structure Lawful (net : Net n A S Λ) : Prop where
  stable : ∀ place b l b' c, net.step place b l = some b' → net.idle b c = true → net.idle b' c = true
  load : ∀ b c x d, d ≠ c → net.idle (net.load b c x) d = net.idle b d
  nil : ∀ b c, net.idle b c = true → net.idle (net.load b c []) c = true

theorem places_init (b : S) {rest : Fin n → List (List A)} (hm : Collective m rest) : Places net m (init b rest) := by
  refine ⟨fun c => ?_, fun c d => Nat.zero_le _⟩
  show 0 + _ = m
  rw [Nat.zero_add]
  exact hm c

theorem places_move (h : Places net m st) {c : Fin n} {p : Place} (hr : RankOk m p (st.entered c) (st.todo c).length (net.idle st.base c))
    (hp : ∀ d, Close.passed p (st.entered c) ≤ st.entered d) : Places net m (st.move c p) := by
  refine ⟨fun d => ?_, fun d e => ?_⟩
  · simp only [St.move]
    by_cases hd : d = c
    · subst hd; rw [update_self]; exact hr
    · rw [update_of_ne hd]; exact h.rank d
  · simp only [St.move]
    by_cases hd : d = c
    · subst hd; rw [update_self]; exact hp e
    · rw [update_of_ne hd]; exact h.passed d e

theorem places_enter (h : Places net m st) {c : Fin n} {p : Place}
    (hr : RankOk m p (st.entered c + 1) (st.todo c).length (net.idle st.base c))
    (hp : ∀ d, Close.passed p (st.entered c + 1) ≤ st.entered d) : Places net m ((st.move c p).enter c) := by
  refine ⟨fun d => ?_, fun d e => ?_⟩
  · simp only [St.move, St.enter]
    by_cases hd : d = c
    · subst hd; rw [update_self, update_self]; exact hr
    · rw [update_of_ne hd, update_of_ne hd]; exact h.rank d
  · simp only [St.move, St.enter]
    have hle : st.entered e ≤ update st.entered c (st.entered c + 1) e := by
      by_cases he : e = c
      · subst he; rw [update_self]; omega
      · rw [update_of_ne he]
    refine Nat.le_trans ?_ hle
    by_cases hd : d = c
    · subst hd; rw [update_self, update_self]; exact hp e
    · rw [update_of_ne hd, update_of_ne hd]; exact h.passed d e

theorem places_step (hn : Lawful net) (h : Places net m st) {l : Label n Λ} (hst : step net st l = some st') : Places net m st' := by
  cases l with
  | net l =>
    obtain ⟨b, hb, rfl⟩ := Option.map_eq_some_iff.mp hst
    refine ⟨fun c => ?_, h.passed⟩
    have := h.rank c
    show RankOk m (st.place c) (st.entered c) (st.todo c).length (net.idle b c)
    cases hp : st.place c <;> rw [hp] at this
    · exact this
    all_goals exact ⟨this.1, this.2.1, hn.stable _ _ _ _ _ hb this.2.2⟩
  | sync c =>
    simp only [step, sync] at hst
    split at hst
    · rename_i hc
      cases hst
      obtain ⟨h1, h2, h3⟩ := hc
      have hr := h.rank c
      rw [h1] at hr
      have hp := h.passed c
      rw [h1] at hp
      refine places_enter h ⟨?_, ?_, h2⟩ hp
      · have : st.entered c + (st.todo c).length = m := hr
        omega
      · cases ht : st.todo c with
        | nil => rw [ht] at h3; cases h3
        | cons x l => simp
    · cases hst
  | pass c =>
    simp only [step, pass] at hst
    split at hst
    · rename_i x l ht
      split at hst
      · rename_i hc
        cases hst
        obtain ⟨h1, h2⟩ := hc
        have hr := h.rank c
        rw [h1, ht] at hr
        obtain ⟨hr1, -, hr3⟩ := hr
        refine ⟨fun d => ?_, fun d e => ?_⟩
        · simp only [St.move]
          by_cases hd : d = c
          · subst hd
            rw [update_self, update_self]
            show _ + _ = m
            simp only [List.length_cons] at hr1
            omega
          · rw [update_of_ne hd, update_of_ne hd, hn.load _ _ _ _ hd]
            exact h.rank d
        · simp only [St.move]
          by_cases hd : d = c
          · subst hd
            rw [update_self]
            exact of_decide_eq_true h2 e
          · rw [update_of_ne hd]
            exact h.passed d e
      · cases hst
    · cases hst
  | close c =>
    simp only [step, close] at hst
    split at hst
    · rename_i hc
      cases hst
      obtain ⟨h1, h2, h3⟩ := hc
      have hr := h.rank c
      rw [h1] at hr
      have hp := h.passed c
      rw [h1] at hp
      have ht : (st.todo c).length = 0 := by rw [List.isEmpty_iff.mp h3]; rfl
      have hr : st.entered c + (st.todo c).length = m := hr
      exact places_enter h ⟨by omega, ht, h2⟩ hp
    · cases hst
  | leave c =>
    simp only [step, leave] at hst
    split at hst
    · rename_i hc
      cases hst
      have hr := h.rank c
      rw [hc.1] at hr
      exact places_move h hr (of_decide_eq_true hc.2)
    · cases hst
  | destroy c =>
    simp only [step, destroy] at hst
    split at hst
    · rename_i hc
      cases hst
      have hr := h.rank c
      have hp := h.passed c
      rw [hc.1] at hr hp
      exact places_move h hr hp
    · cases hst
  | finalize c =>
    simp only [step, finalize] at hst
    split at hst
    · rename_i hc
      cases hst
      have hr := h.rank c
      have hp := h.passed c
      rw [hc] at hr hp
      exact places_move h hr hp
    · cases hst

theorem closing_iff {p : Place} : Closing p ↔ p.running = false := by
  unfold Closing Left
  cases p <;> simp [Place.running]

theorem closing_rank (h : Places net m st) {c : Fin n} (hc : Closing (st.place c)) :
    st.entered c = m + 1 ∧ st.todo c = [] ∧ net.idle st.base c = true := by
  have := h.rank c
  rcases hc with e | e | e | e <;> rw [e] at this <;> exact ⟨this.1, List.eq_nil_of_length_eq_zero this.2.1, this.2.2⟩

theorem left_entered (h : Places net m st) {c : Fin n} (hc : Left (st.place c)) (d : Fin n) : m + 1 ≤ st.entered d := by
  have h1 := (closing_rank h (Or.inr hc)).1
  have := h.passed c d
  rcases hc with e | e | e <;> rw [e, h1] at this <;> exact this

theorem entered_closing (h : Places net m st) {c : Fin n} (hc : m + 1 ≤ st.entered c) : Closing (st.place c) := by
  have := h.rank c
  cases hp : st.place c <;> rw [hp] at this
  · have : _ + _ = m := this; omega
  · obtain ⟨h1, h2, h3⟩ := this; omega
  · exact Or.inl rfl
  · exact Or.inr (Or.inl rfl)
  · exact Or.inr (Or.inr (Or.inl rfl))
  · exact Or.inr (Or.inr (Or.inr rfl))

/-- When one rank is behind the barrier of `Close`, all have called it. -/
theorem left_closing (h : Places net m st) {c : Fin n} (hc : Left (st.place c)) (d : Fin n) : Closing (st.place d) :=
  entered_closing h (left_entered h hc d)

theorem closing_step {l : Label n Λ} (hst : step net st l = some st') {c : Fin n} (hc : Closing (st.place c)) : Closing (st'.place c) := by
  have hmove : ∀ (d : Fin n) (p : Place), (d = c → Closing p) → Closing ((st.move d p).place c) := by
    intro d p hp
    simp only [St.move]
    by_cases hd : c = d
    · subst hd; rw [update_self]; exact hp rfl
    · rw [update_of_ne hd]; exact hc
  have hno : ∀ p, p = Place.working ∨ p = Place.sync → ¬ Closing p := by
    intro p hp h
    rw [closing_iff] at h
    rcases hp with rfl | rfl <;> cases h
  cases l with
  | net l => obtain ⟨b, hb, rfl⟩ := Option.map_eq_some_iff.mp hst; exact hc
  | sync d =>
    simp only [step, sync] at hst
    split at hst
    · rename_i h; cases hst
      exact hmove d _ (fun e => absurd hc (hno _ (Or.inl (e ▸ h.1))))
    · cases hst
  | pass d =>
    simp only [step, pass] at hst
    split at hst
    · split at hst
      · rename_i h; cases hst
        exact hmove d _ (fun e => absurd hc (hno _ (Or.inr (e ▸ h.1))))
      · cases hst
    · cases hst
  | close d =>
    simp only [step, close] at hst
    split at hst
    · cases hst; exact hmove d _ (fun _ => Or.inl rfl)
    · cases hst
  | leave d =>
    simp only [step, leave] at hst
    split at hst
    · cases hst; exact hmove d _ (fun _ => Or.inr (Or.inl rfl))
    · cases hst
  | destroy d =>
    simp only [step, destroy] at hst
    split at hst
    · cases hst; exact hmove d _ (fun _ => Or.inr (Or.inr (Or.inl rfl)))
    · cases hst
  | finalize d =>
    simp only [step, finalize] at hst
    split at hst
    · cases hst; exact hmove d _ (fun _ => Or.inr (Or.inr (Or.inr rfl)))
    · cases hst

/-! ## Programs that call `Sync` directly before `Close` -/

/-- What is left ends with nothing. -/
def LastOk (net : Net n A S Λ) (st : St n A S) : Prop :=
  ∀ c, (st.todo c = [] → net.idle st.base c = true) ∧ (st.todo c ≠ [] → (st.todo c).getLast? = some [])

theorem last_init (b : S) {rest : Fin n → List (List A)} (hl : SyncLast rest) : LastOk net (init b rest) := by
  intro c
  refine ⟨fun h => ?_, fun _ => hl c⟩
  have h : rest c = [] := h
  have := hl c
  rw [h] at this
  cases this

theorem last_step (hn : Lawful net) (hp : Places net m st) (h : LastOk net st) {l : Label n Λ} (hst : step net st l = some st') :
    LastOk net st' := by
  cases l with
  | net l =>
    obtain ⟨b, hb, rfl⟩ := Option.map_eq_some_iff.mp hst
    exact fun c => ⟨fun e => hn.stable _ _ _ _ _ hb ((h c).1 e), (h c).2⟩
  | sync c =>
    simp only [step, sync] at hst
    split at hst
    · cases hst; exact h
    · cases hst
  | pass c =>
    simp only [step, pass] at hst
    split at hst
    · rename_i x l ht
      split at hst
      · rename_i hc
        cases hst
        intro d
        simp only [St.move]
        by_cases hd : d = c
        · subst hd
          rw [update_self]
          have h2 := (h d).2 (by rw [ht]; exact List.cons_ne_nil _ _)
          rw [ht] at h2
          have hr := hp.rank d
          rw [hc.1] at hr
          refine ⟨?_, ?_⟩
          · rintro rfl
            simp only [List.getLast?_singleton, Option.some.injEq] at h2
            subst h2
            exact hn.nil _ _ hr.2.2
          · intro hne
            rw [List.getLast?_cons] at h2
            cases e : l.getLast? with
            | none => exact absurd (List.getLast?_eq_none_iff.mp e) hne
            | some y => rw [e] at h2; exact h2
        · rw [update_of_ne hd, hn.load _ _ _ _ hd]
          exact h d
      · cases hst
    · cases hst
  | close c =>
    simp only [step, close] at hst
    split at hst
    · cases hst; exact h
    · cases hst
  | leave c =>
    simp only [step, leave] at hst
    split at hst
    · cases hst; exact h
    · cases hst
  | destroy c =>
    simp only [step, destroy] at hst
    split at hst
    · cases hst; exact h
    · cases hst
  | finalize c =>
    simp only [step, finalize] at hst
    split at hst
    · cases hst; exact h
    · cases hst

/-- When a rank has called `Close`, no rank has anything left to do. -/
theorem closing_idle (h : Places net m st) (hl : LastOk net st) {c : Fin n} (hc : Closing (st.place c)) (d : Fin n) :
    net.idle st.base d = true ∧ (st.todo d).flatten = [] := by
  have he : m ≤ st.entered d := by
    have h1 := (closing_rank h hc).1
    have h2 := h.passed c d
    rw [h1] at h2
    rcases hc with e | e | e | e <;> rw [e] at h2 <;> simp only [Close.passed] at h2 <;> omega
  have hr := h.rank d
  have hcl : Closing (st.place d) → net.idle st.base d = true ∧ (st.todo d).flatten = [] := by
    intro hd
    obtain ⟨-, h2, h3⟩ := closing_rank h hd
    exact ⟨h3, by rw [h2]; rfl⟩
  cases hp : st.place d with
  | working =>
    rw [hp] at hr
    have hr : st.entered d + (st.todo d).length = m := hr
    have ht : st.todo d = [] := List.eq_nil_of_length_eq_zero (by omega)
    exact ⟨(hl d).1 ht, by rw [ht]; rfl⟩
  | sync =>
    rw [hp] at hr
    obtain ⟨h1, h2, h3⟩ := hr
    refine ⟨h3, ?_⟩
    obtain ⟨x, hx⟩ := List.length_eq_one_iff.mp (show (st.todo d).length = 1 by omega)
    have := (hl d).2 (by rw [hx]; exact List.cons_ne_nil _ _)
    rw [hx] at this
    cases this
    rw [hx]
    rfl
  | closing => exact hcl (hp ▸ Or.inl rfl)
  | leaving => exact hcl (hp ▸ Or.inr (Or.inl rfl))
  | gone => exact hcl (hp ▸ Or.inr (Or.inr (Or.inl rfl)))
  | closed => exact hcl (hp ▸ Or.inr (Or.inr (Or.inr rfl)))

/-! ## What is left to do -/

def placeLeft : Place → Nat
  | .working => 4
  | .sync => 3
  | .closing => 3
  | .leaving => 2
  | .gone => 1
  | .closed => 0

/-- What a rank has left to do besides its requests. -/
def rankLeft (p : Place) (t : Nat) : Nat := 2 * t + placeLeft p

/-- When nobody can enter or leave a barrier, and clients have nothing to do, all have closed. -/
theorem stuck_places (h : Places net m st) (hidle : ∀ c, net.idle st.base c = true)
    (hstop : ∀ c, st.place c = .leaving → net.stopped st.base c = true)
    (hs : ∀ c, step net st (.sync c) = none ∧ step net st (.pass c) = none ∧ step net st (.close c) = none ∧
      step net st (.leave c) = none ∧ step net st (.destroy c) = none ∧ step net st (.finalize c) = none) : AllClosed st := by
  have hw : ∀ c, st.place c ≠ .working := by
    intro c hc
    obtain ⟨h1, -, h3, -⟩ := hs c
    simp only [step, sync, close, hc, hidle c, true_and] at h1 h3
    split at h1
    · cases h1
    split at h3
    · cases h3
    cases e : (st.todo c).isEmpty
    · contradiction
    · contradiction
  -- nobody is in a barrier, as the rank that has entered the fewest can go on
  have hb : ∀ k c, st.entered c ≤ k → ¬ (st.place c = .sync ∨ st.place c = .closing) := by
    intro k
    induction k with
    | zero =>
      intro c hc hp
      have hto : st.together c = true := decide_eq_true (fun d => by omega)
      obtain ⟨-, h2, -, h4, -⟩ := hs c
      have hr := h.rank c
      rcases hp with hp | hp
      · rw [hp] at hr
        simp only [step, pass, hp, hto] at h2
        split at h2
        · cases h2
        · rename_i ht; rw [ht] at hr; exact absurd hr.2.1 (by simp)
      · simp only [step, leave, hp, hto] at h4; cases h4
    | succ k ih =>
      intro c hc hp
      by_cases hlt : ∃ d, st.entered d < st.entered c
      · obtain ⟨d, hd⟩ := hlt
        have hnb := ih d (by omega)
        have hr := h.rank d
        have hrc := h.rank c
        have hle : st.entered c ≤ m + 1 := by
          rcases hp with hp | hp <;> rw [hp] at hrc
          · obtain ⟨h1, -⟩ := hrc; omega
          · obtain ⟨h1, -⟩ := hrc; omega
        cases hpd : st.place d with
        | working => exact hw d hpd
        | sync => exact hnb (Or.inl hpd)
        | closing => exact hnb (Or.inr hpd)
        | leaving => rw [hpd] at hr; obtain ⟨h1, -⟩ := hr; omega
        | gone => rw [hpd] at hr; obtain ⟨h1, -⟩ := hr; omega
        | closed => rw [hpd] at hr; obtain ⟨h1, -⟩ := hr; omega
      · push Not at hlt
        have hto : st.together c = true := decide_eq_true hlt
        obtain ⟨-, h2, -, h4, -⟩ := hs c
        have hr := h.rank c
        rcases hp with hp | hp
        · rw [hp] at hr
          simp only [step, pass, hp, hto] at h2
          split at h2
          · cases h2
          · rename_i ht; rw [ht] at hr; exact absurd hr.2.1 (by simp)
        · simp only [step, leave, hp, hto] at h4; cases h4
  intro c
  have hnb := hb _ c (Nat.le_refl _)
  obtain ⟨-, -, -, -, h5, h6⟩ := hs c
  cases hp : st.place c with
  | working => exact absurd hp (hw c)
  | sync => exact absurd (Or.inl hp) hnb
  | closing => exact absurd (Or.inr hp) hnb
  | leaving => simp only [step, destroy, hp, hstop c hp] at h5; cases h5
  | gone => simp only [step, finalize, hp] at h6; cases h6
  | closed => rfl

end Hx.Close

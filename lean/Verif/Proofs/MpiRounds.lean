import Verif.Proofs.Mpi

/-!
# Helper lemmas: when requests of a client are processed
-/

namespace Hx.Mpi
open Hx Spec.Mpi
open Function (update update_self update_of_ne)

variable {n L : Nat} {α β W : Type} {sys : Sys n α β W} {Good : W → Prop} {w : W} {prog : Fin n → List (Act n α)}
  {H : Fin n → Fin n → List (α × β)} {st st' : St n L α β W}

theorem targets_append (c : Fin n) (a b : List (Act n α)) : targets c (a ++ b) = targets c a ++ targets c b := by
  induction a with
  | nil => rfl
  | cons x a ih => cases x <;> simp [targets, ih]

theorem inv_rounds (h : Inv sys Good w prog H st) : InRounds prog st := by
  intro c
  obtain ⟨pre, hpre⟩ := (h.client c).acts
  refine ⟨pre, hpre, ?_⟩
  intro s b
  have hsplit : sentTo s b (targets c (prog c)) = sentTo s b (targets c pre) ++ sentTo s b (targets c (st.client c).acts) := by
    rw [hpre, targets_append, sentTo_append]
  cases b with
  | false =>
    have := (h.client c).localReq s
    rw [hsplit] at this
    have := List.append_cancel_right this
    exact ⟨by rw [this], fun _ => this⟩
  | true =>
    have hr := (h.client c).requests s
    rw [hsplit] at hr
    have hr := List.append_cancel_right hr
    rw [hr]
    have hj := h.joint c s
    have hfree : ∀ v pr lg, Joint sys (H c s) (st.listener s) c v pr lg → lg.map Prod.fst <+: (H c s).map Prod.fst ++ current v ∧
        (v = none → lg = H c s) := by
      intro v pr lg hj
      cases hj with
      | free _ hv ha => exact ⟨List.prefix_append _ _, fun _ => rfl⟩
      | half p ha => exact ⟨List.prefix_append _ _, nofun⟩
      | halfTaken p j hj ha => exact ⟨List.prefix_append _ _, nofun⟩
      | full p ha => exact ⟨List.prefix_append _ _, nofun⟩
      | fullTaken p j hj ha => exact ⟨List.prefix_append _ _, nofun⟩
      | got p j hj ha => exact ⟨List.prefix_append _ _, nofun⟩
      | served p r j x t hj ha hx =>
        refine ⟨?_, nofun⟩
        rcases hx with ⟨rfl, -⟩ | ⟨rfl, -⟩ <;> simp [current]
      | answered p r x t ha hx =>
        refine ⟨?_, nofun⟩
        rcases hx with ⟨rfl, -⟩ | ⟨rfl, -⟩ <;> simp [current]
    obtain ⟨h1, h2⟩ := hfree _ _ _ hj
    refine ⟨h1, ?_⟩
    intro hready
    rw [hready] at h2 ⊢
    rw [h2 rfl]
    simp [view, current]

theorem step_log {l : Label n L} (hst : step sys st l = some st') : st.log <+: st'.log := by
  unfold step at hst
  split at hst
  · cases hst
  cases l with
  | start c =>
    simp only [start] at hst
    split at hst
    · rw [← Option.some.inj hst]; exact List.prefix_refl _
    · split at hst
      · rw [← Option.some.inj hst]; exact List.prefix_append _ _
      · rw [← Option.some.inj hst]; exact List.prefix_refl _
    · cases hst
  | post c s =>
    simp only [post] at hst
    split at hst
    · split at hst
      · rw [← Option.some.inj hst]; exact List.prefix_refl _
      · rw [← Option.some.inj hst]; exact List.prefix_refl _
      · cases hst
    · cases hst
  | sent c =>
    simp only [sent] at hst
    split at hst
    · split at hst
      · rw [← Option.some.inj hst]; exact List.prefix_refl _
      · cases hst
    · cases hst
  | size c s =>
    simp only [size] at hst
    split at hst
    · split at hst
      · split at hst
        · rw [← Option.some.inj hst]; exact List.prefix_refl _
        · cases hst
      · cases hst
    · cases hst
  | sized c =>
    simp only [sized] at hst
    split at hst
    · split at hst
      · rw [← Option.some.inj hst]; exact List.prefix_refl _
      · cases hst
    · cases hst
  | data c s =>
    simp only [data] at hst
    split at hst
    · split at hst
      · split at hst
        · split at hst
          · rw [← Option.some.inj hst]; exact List.prefix_refl _
          · rw [← Option.some.inj hst]; exact List.prefix_refl _
        · cases hst
      · cases hst
    · cases hst
  | finish c =>
    simp only [finish] at hst
    split at hst
    · split at hst
      · rw [← Option.some.inj hst]; exact List.prefix_refl _
      · cases hst
    · cases hst
  | listen s j c =>
    simp only [listen] at hst
    split at hst
    · split at hst
      · rw [← Option.some.inj hst]; exact List.prefix_refl _
      · cases hst
    · cases hst
  | listener s j =>
    simp only [listener] at hst
    split at hst
    · cases hst
    · split at hst
      · split at hst
        · rw [← Option.some.inj hst]; exact List.prefix_refl _
        · rw [← Option.some.inj hst]; exact List.prefix_refl _
      · cases hst
    · split at hst
      · rw [← Option.some.inj hst]; exact List.prefix_append _ _
      · rw [← Option.some.inj hst]; exact List.prefix_refl _
    · split at hst
      · rw [← Option.some.inj hst]; exact List.prefix_refl _
      · cases hst
    · split at hst
      · rw [← Option.some.inj hst]; exact List.prefix_refl _
      · cases hst

theorem run_append (ls ls' : List (Label n L)) (st : St n L α β W) : run sys st (ls ++ ls') = run sys st ls >>= fun m => run sys m ls' := by
  induction ls generalizing st with
  | nil => rfl
  | cons l ls ih =>
    simp only [List.cons_append, run, Option.bind_eq_bind]
    cases step sys st l with
    | none => rfl
    | some u => exact ih u

theorem run_log (ls : List (Label n L)) {st : St n L α β W} (hst : run sys st ls = some st') : st.log <+: st'.log := by
  induction ls generalizing st with
  | nil => cases hst; exact List.prefix_refl _
  | cons l ls ih =>
    simp only [run, Option.bind_eq_bind, Option.bind_eq_some_iff] at hst
    obtain ⟨u, hu, hst⟩ := hst
    exact (step_log hu).trans (ih hst)

/-- A step leaves what a client still has to do, or is the start of a round or local request. -/
theorem step_acts {l : Label n L} (hst : step sys st l = some st') (c : Fin n) : (st'.client c).acts = (st.client c).acts ∨
    ((st.client c).phase = .ready ∧ ∃ a, (st.client c).acts = a :: (st'.client c).acts) := by
  have hset : ∀ (u : St n L α β W) (d : Fin n) (x : Client n α β), u.client = st.client → x.acts = (st.client d).acts →
      ((u.setClient d x).client c).acts = (st.client c).acts := by
    intro u d x hu hx
    unfold St.setClient
    by_cases hc : c = d
    · subst hc; simp only [update_self]; exact hx
    · simp only [update_of_ne hc, hu]
  unfold step at hst
  split at hst
  · cases hst
  cases l with
  | start d =>
    simp only [start] at hst
    by_cases hc : c = d
    · subst hc
      split at hst
      · rename_i h1 h2
        rw [← Option.some.inj hst]
        right
        exact ⟨h1, _, by simp only [h2, St.setClient, update_self]; rfl⟩
      · rename_i h1 h2
        split at hst
        · rw [← Option.some.inj hst]
          right
          exact ⟨h1, _, by simp only [h2, St.setClient, update_self]; rfl⟩
        · rw [← Option.some.inj hst]; exact Or.inl rfl
      · cases hst
    · split at hst
      · rw [← Option.some.inj hst]; left; simp only [St.setClient, update_of_ne hc]
      · split at hst
        · rw [← Option.some.inj hst]; left; simp only [St.setClient, update_of_ne hc]
        · rw [← Option.some.inj hst]; exact Or.inl rfl
      · cases hst
  | post d s =>
    left
    simp only [post] at hst
    split at hst
    · split at hst
      · rw [← Option.some.inj hst]; exact hset _ _ _ rfl rfl
      · rw [← Option.some.inj hst]; exact hset _ _ _ rfl rfl
      · cases hst
    · cases hst
  | sent d =>
    left
    simp only [sent] at hst
    split at hst
    · split at hst
      · rw [← Option.some.inj hst]; exact hset _ _ _ rfl rfl
      · cases hst
    · cases hst
  | size d s =>
    left
    simp only [size] at hst
    split at hst
    · split at hst
      · split at hst
        · rw [← Option.some.inj hst]; exact hset _ _ _ rfl rfl
        · cases hst
      · cases hst
    · cases hst
  | sized d =>
    left
    simp only [sized] at hst
    split at hst
    · split at hst
      · rw [← Option.some.inj hst]; exact hset _ _ _ rfl rfl
      · cases hst
    · cases hst
  | data d s =>
    left
    simp only [data] at hst
    split at hst
    · split at hst
      · split at hst
        · split at hst
          · rw [← Option.some.inj hst]; exact hset _ _ _ rfl rfl
          · rw [← Option.some.inj hst]; rfl
        · cases hst
      · cases hst
    · cases hst
  | finish d =>
    left
    simp only [finish] at hst
    split at hst
    · split at hst
      · rw [← Option.some.inj hst]; exact hset _ _ _ rfl rfl
      · cases hst
    · cases hst
  | listen s j d =>
    left
    simp only [listen] at hst
    split at hst
    · split at hst
      · rw [← Option.some.inj hst]; rfl
      · cases hst
    · cases hst
  | listener s j =>
    left
    simp only [listener] at hst
    split at hst
    · cases hst
    · split at hst
      · split at hst
        · rw [← Option.some.inj hst]; rfl
        · rw [← Option.some.inj hst]; rfl
      · cases hst
    · split at hst
      · rw [← Option.some.inj hst]; rfl
      · rw [← Option.some.inj hst]; rfl
    · split at hst
      · rw [← Option.some.inj hst]; rfl
      · cases hst
    · split at hst
      · rw [← Option.some.inj hst]; rfl
      · cases hst

/-- There is a moment at which a client is between any two rounds. -/
theorem moment (ls : List (Label n L)) {st : St n L α β W} (hst : run sys st ls = some st') (c : Fin n) (pre post : List (Act n α))
    (hacts : (st.client c).acts = pre ++ post) (hend : (st'.client c).acts = [] ∧ (st'.client c).phase = .ready) :
    ∃ ls₁ ls₂ m, ls = ls₁ ++ ls₂ ∧ run sys st ls₁ = some m ∧ run sys m ls₂ = some st' ∧ (m.client c).acts = post ∧
      (m.client c).phase = .ready := by
  induction ls generalizing st pre with
  | nil =>
    cases hst
    rw [hacts] at hend
    have : post = [] := (List.append_eq_nil_iff.mp hend.1).2
    subst this
    exact ⟨[], [], st', rfl, rfl, rfl, hacts.trans hend.1, hend.2⟩
  | cons l ls ih =>
    have hst0 := hst
    simp only [run, Option.bind_eq_bind, Option.bind_eq_some_iff] at hst
    obtain ⟨u, hu, hst⟩ := hst
    have next : ∀ pre, (u.client c).acts = pre ++ post → ∃ ls₁ ls₂ m, l :: ls = ls₁ ++ ls₂ ∧ run sys st ls₁ = some m ∧
        run sys m ls₂ = some st' ∧ (m.client c).acts = post ∧ (m.client c).phase = .ready := by
      intro pre hpre
      obtain ⟨ls₁, ls₂, m, h1, h2, h3, h4⟩ := ih hst pre hpre
      refine ⟨l :: ls₁, ls₂, m, by rw [h1]; rfl, ?_, h3, h4⟩
      simp only [run, hu, Option.bind_eq_bind, Option.bind_some]
      exact h2
    rcases step_acts hu c with h | ⟨hready, a, h⟩
    · exact next pre (h.trans hacts)
    · cases pre with
      | nil => exact ⟨[], l :: ls, st, rfl, rfl, hst0, hacts, hready⟩
      | cons x pre =>
        rw [hacts, List.cons_append] at h
        exact next pre (List.cons.inj h).2.symm

end Hx.Mpi

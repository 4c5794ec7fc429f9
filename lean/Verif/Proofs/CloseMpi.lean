import Verif.Proofs.Close
import Verif.Proofs.MpiEnds
import Verif.Proofs.MpiRounds

/-!
# Helper lemmas: closing a session with MPI
-/

namespace Hx.Close
open Hx Spec.Close Spec.Mpi
open Hx.Mpi (Act Inv Joint Active view)
open Function (update update_self update_of_ne)

variable {n L m : Nat} {α β W : Type} {sys : Mpi.Sys n α β W} {Good : W → Prop} {w : W} {prog opened : Fin n → List (Act n α)}
  {H : Fin n → Fin n → List (α × β)}

/-! ## Clients that have nothing to do -/

theorem mpiIdle_iff {x : Mpi.Client n α β} : mpiIdle x = true ↔ x.acts = [] ∧ x.phase = .ready := by
  unfold mpiIdle
  cases hp : x.phase with
  | ready => simp
  | round g l => simp

theorem mpi_client {st st' : Mpi.St n L α β W} {l : Mpi.Label n L} (hst : Mpi.step sys st l = some st') {c : Fin n}
    (hc : mpiIdle (st.client c) = true) : st'.client c = st.client c := by
  obtain ⟨ha, hp⟩ := mpiIdle_iff.mp hc
  have hset : ∀ (u : Mpi.St n L α β W) (d : Fin n) (x : Mpi.Client n α β), u.client = st.client → d ≠ c →
      (u.setClient d x).client c = st.client c := by
    intro u d x hu hd
    show update u.client d x c = _
    rw [update_of_ne (Ne.symm hd), hu]
  unfold Mpi.step at hst
  split at hst
  · cases hst
  cases l with
  | start d =>
    simp only [Mpi.start] at hst
    split at hst
    · rename_i h1 h2
      cases hst
      exact hset _ _ _ rfl (fun e => by rw [e, ha] at h2; cases h2)
    · rename_i h1 h2
      split at hst
      · cases hst
        exact hset st _ _ rfl (fun e => by rw [e, ha] at h2; cases h2)
      · cases hst; rfl
    · cases hst
  | post d s =>
    simp only [Mpi.post] at hst
    split at hst
    · rename_i h1
      have hd : d ≠ c := fun e => by rw [e, hp] at h1; cases h1
      split at hst
      · cases hst; exact hset _ _ _ rfl hd
      · cases hst; exact hset _ _ _ rfl hd
      · cases hst
    · cases hst
  | sent d =>
    simp only [Mpi.sent] at hst
    split at hst
    · rename_i h1
      have hd : d ≠ c := fun e => by rw [e, hp] at h1; cases h1
      split at hst
      · cases hst; exact hset _ _ _ rfl hd
      · cases hst
    · cases hst
  | size d s =>
    simp only [Mpi.size] at hst
    split at hst
    · rename_i h1
      have hd : d ≠ c := fun e => by rw [e, hp] at h1; cases h1
      split at hst
      · split at hst
        · cases hst; exact hset _ _ _ rfl hd
        · cases hst
      · cases hst
    · cases hst
  | sized d =>
    simp only [Mpi.sized] at hst
    split at hst
    · rename_i h1
      have hd : d ≠ c := fun e => by rw [e, hp] at h1; cases h1
      split at hst
      · cases hst; exact hset _ _ _ rfl hd
      · cases hst
    · cases hst
  | data d s =>
    simp only [Mpi.data] at hst
    split at hst
    · rename_i h1
      have hd : d ≠ c := fun e => by rw [e, hp] at h1; cases h1
      split at hst
      · split at hst
        · split at hst
          · cases hst; exact hset _ _ _ rfl hd
          · cases hst; rfl
        · cases hst
      · cases hst
    · cases hst
  | finish d =>
    simp only [Mpi.finish] at hst
    split at hst
    · rename_i h1
      have hd : d ≠ c := fun e => by rw [e, hp] at h1; cases h1
      split at hst
      · cases hst; exact hset _ _ _ rfl hd
      · cases hst
    · cases hst
  | listen s j d =>
    simp only [Mpi.listen] at hst
    split at hst
    · split at hst
      · cases hst; rfl
      · cases hst
    · cases hst
  | listener s j =>
    simp only [Mpi.listener] at hst
    split at hst
    · cases hst
    · split at hst
      · split at hst
        · cases hst; rfl
        · cases hst; rfl
      · cases hst
    · split at hst
      · cases hst; rfl
      · cases hst; rfl
    · split at hst
      · cases hst; rfl
      · cases hst
    · split at hst
      · cases hst; rfl
      · cases hst

/-- A step of the transport, or one that leaves everything but `bad`. -/
theorem mpiStep_cases {place : Fin n → Place} {x x' : Link n L α β W} {l : MpiLabel n L} (hst : mpiStep sys place x l = some x') :
    x.st.bad = false ∧ ((∃ k, l = .msg k ∧ listens place x k = true ∧ Mpi.step sys x.st k = some x'.st ∧ x'.ended = x.ended ∧ x'.orphans = x.orphans) ∨
      (∃ s j p, l = .stop s j p ∧ stop sys place x s j p = some x') ∨ ∃ s c, l = .late s c ∧ late x s c = some x') := by
  unfold mpiStep at hst
  split at hst
  · cases hst
  rename_i hb
  refine ⟨by simpa using hb, ?_⟩
  cases l with
  | msg k =>
    left
    simp only at hst
    split at hst
    · rename_i hl
      obtain ⟨y, hy, rfl⟩ := Option.map_eq_some_iff.mp hst
      exact ⟨k, rfl, hl, hy, rfl, rfl⟩
    · cases hst
  | stop s j p => exact Or.inr (Or.inl ⟨s, j, p, rfl, hst⟩)
  | late s c => exact Or.inr (Or.inr ⟨s, c, rfl, hst⟩)

/-- What a listener that ends leaves behind. -/
theorem stop_cases {place : Fin n → Place} {x x' : Link n L α β W} {s : Fin n} {j : Fin L} {p : Bool}
    (hst : stop sys place x s j p = some x') : (place s).running = false ∧ x.ended s j = false ∧
      x'.ended = update x.ended s (update (x.ended s) j true) ∧ (x'.st = x.st ∨ x'.st = x.st.fail) ∧
      ∀ s', s' ≠ s → x'.orphans s' = x.orphans s' := by
  unfold stop at hst
  split at hst
  · cases hst
  rename_i hb
  simp only [Bool.or_eq_true, not_or, Bool.not_eq_true] at hb
  refine ⟨hb.1, hb.2, ?_⟩
  simp only at hst
  split at hst
  · cases hst; split
    · exact ⟨rfl, Or.inl rfl, fun s' hs => update_of_ne hs _ _⟩
    · exact ⟨rfl, Or.inl rfl, fun _ _ => rfl⟩
  · cases hst; exact ⟨rfl, Or.inl rfl, fun _ _ => rfl⟩
  · cases hst
  · cases hst; split
    · exact ⟨rfl, Or.inl rfl, fun _ _ => rfl⟩
    · exact ⟨rfl, Or.inr rfl, fun _ _ => rfl⟩
  · cases hst; split
    · exact ⟨rfl, Or.inl rfl, fun _ _ => rfl⟩
    · exact ⟨rfl, Or.inr rfl, fun _ _ => rfl⟩

theorem late_cases {x x' : Link n L α β W} {s c : Fin n} (hst : late x s c = some x') : (x.st.pair c s).sizeReq.next? ≠ none ∧
    x.orphans s ≠ 0 ∧ x' = { x with st := x.st.fail } := by
  unfold late at hst
  split at hst
  · cases hst
  · rename_i h
    push Not at h
    cases hst
    exact ⟨h.2, h.1, rfl⟩

theorem mpi_lawful (sys : Mpi.Sys n α β W) : Lawful (mpiNet (L := L) sys) := by
  refine ⟨?_, ?_, ?_⟩
  · intro place x l x' c hst hc
    obtain ⟨-, ⟨k, -, -, h, -⟩ | ⟨s, j, p, -, h⟩ | ⟨s, d, -, h⟩⟩ := mpiStep_cases hst
    · show mpiIdle (x'.st.client c) = true
      rw [mpi_client h hc]
      exact hc
    · obtain ⟨-, -, -, h | h, -⟩ := stop_cases h <;> show mpiIdle (x'.st.client c) = true <;> rw [h] <;> exact hc
    · obtain ⟨-, -, rfl⟩ := late_cases h
      exact hc
  · intro x c l d hd
    show mpiIdle (update x.st.client c _ d) = _
    rw [update_of_ne hd]
    rfl
  · intro x c hc
    show mpiIdle (update x.st.client c _ c) = _
    rw [update_self]
    exact mpiIdle_iff.mpr ⟨rfl, (mpiIdle_iff.mp hc).2⟩

/-! ## Messages -/

/-- A client that has done everything gets something to do. -/
theorem inv_load {st : Mpi.St n L α β W} (h : Inv sys Good w opened H st) {c : Fin n} (hc : mpiIdle (st.client c) = true)
    (l : List (Act n α)) :
    Inv sys Good w (update opened c (opened c ++ l)) H (st.setClient c { st.client c with acts := l }) := by
  obtain ⟨ha, hp⟩ := mpiIdle_iff.mp hc
  refine ⟨h.bad, h.good, h.world, fun d => ?_, fun d s => ?_, h.pending, h.once⟩
  · show Mpi.ClientInv (update opened c _ d) d (update st.client c _ d) (H d) st.log
    by_cases hd : d = c
    · subst hd
      rw [update_self, update_self]
      have hi := h.client d
      refine ⟨⟨opened d, rfl⟩, ?_, ?_, hi.responses, ?_, ?_, hi.localRes⟩
      · intro stage slots e
        rw [show _ = _ from hp] at e
        cases e
      · intro s
        have := hi.requests s
        rw [ha] at this
        rw [Mpi.targets_append, Mpi.sentTo_append, this]
        simp [targets, sentTo]
      · have := hi.order
        rw [ha] at this
        rw [Mpi.targets_append, List.map_append, this]
        simp [targets]
      · intro s
        have := hi.localReq s
        rw [ha] at this
        rw [Mpi.targets_append, Mpi.sentTo_append, ← this]
        simp [targets, sentTo]
    · rw [update_of_ne hd, update_of_ne hd]
      exact h.client d
  · show Joint sys (H d s) (st.listener s) d (view (update st.client c _ d).phase s) (st.pair d s) _
    by_cases hd : d = c
    · subst hd
      rw [update_self]
      exact h.joint d s
    · rw [update_of_ne hd]
      exact h.joint d s

/-- The requests between the calls of `Sync` that have returned are as if there was no `Sync`. -/
structure MpiInv (sys : Mpi.Sys n α β W) (Good : W → Prop) (w : W) (prog : Fin n → List (Act n α)) (m : Nat)
    (st : St n (Act n α) (Link n L α β W)) : Prop where
  places : Places (mpiNet sys) m st
  ended : ∀ s j, st.base.ended s j = true → Closing (st.place s)
  orphans : ∀ s, st.base.orphans s ≠ 0 → Closing (st.place s)
  base : ∃ opened H, (∀ c, prog c = opened c ++ (st.todo c).flatten) ∧ Inv sys Good w opened H { st.base.st with bad := false }

theorem answers_opened (hans : Answers sys prog Good) {todo : Fin n → List (List (Act n α))}
    (ho : ∀ c, prog c = opened c ++ (todo c).flatten) : Answers sys opened Good := by
  intro v hv c x hx
  refine hans v hv c x ?_
  rw [ho c, Mpi.targets_append]
  exact List.mem_append_left _ hx

theorem distinct_opened (hd : Distinct prog) {todo : Fin n → List (List (Act n α))}
    (ho : ∀ c, prog c = opened c ++ (todo c).flatten) : Distinct opened := by
  intro c l hl
  refine hd c l ?_
  rw [ho c]
  exact List.mem_append_left _ hl

theorem relaxed_opened (hr : Relaxed sys L prog) {todo : Fin n → List (List (Act n α))}
    (ho : ∀ c, prog c = opened c ++ (todo c).flatten) : Relaxed sys L opened := by
  have hm : ∀ c l, Act.remote l ∈ opened c → Act.remote l ∈ prog c := by
    intro c l hl
    rw [ho c]
    exact List.mem_append_left _ hl
  rcases hr with h | ⟨h1, h2⟩ | ⟨h1, h2⟩
  · exact Or.inl h
  · exact Or.inr (Or.inl ⟨h1, fun c l hl => h2 c l (hm c l hl)⟩)
  · exact Or.inr (Or.inr ⟨h1, fun c l hl => h2 c l (hm c l hl)⟩)

theorem mpi_inv_init (hw : Good w) (first : Fin n → List (Act n α)) {rest : Fin n → List (List (Act n α))} (hm : Collective m rest) :
    MpiInv sys Good w (whole first rest) m (init (mpiInit (L := L) (β := β) w first) rest) :=
  ⟨places_init _ hm, fun _ _ h => Bool.noConfusion h, fun _ h => absurd rfl h, first, _, fun _ => rfl, Mpi.inv_init w hw first⟩

theorem clear {st : Mpi.St n L α β W} (h : st.bad = false) : { st with bad := false } = st := by
  obtain ⟨_, _, _, _, _, _⟩ := st
  cases h
  rfl

variable {st st' : St n (Act n α) (Link n L α β W)}

theorem mpi_inv_step (hans : Answers sys prog Good) (hd : Distinct prog) (h : MpiInv sys Good w prog m st) {l : Label n (MpiLabel n L)}
    (hst : step (mpiNet sys) st l = some st') : MpiInv sys Good w prog m st' := by
  have hp := places_step (mpi_lawful sys) h.places hst
  have hcl := fun c => closing_step (c := c) hst
  obtain ⟨opened, H, ho, hi⟩ := h.base
  cases l with
  | net l =>
    obtain ⟨x, hx, rfl⟩ := Option.map_eq_some_iff.mp hst
    obtain ⟨hb, ⟨k, -, -, h1, h2, h3⟩ | ⟨s, j, p, -, h1⟩ | ⟨s, d, -, h1⟩⟩ := mpiStep_cases hx
    · rw [clear hb] at hi
      obtain ⟨H', hi'⟩ := Mpi.inv_step (answers_opened hans ho) (distinct_opened hd ho) hi h1
      refine ⟨hp, ?_, ?_, opened, H', ho, ?_⟩
      · intro s j he
        have he : x.ended s j = true := he
        rw [h2] at he
        exact h.ended s j he
      · intro s he
        have he : x.orphans s ≠ 0 := he
        rw [h3] at he
        exact h.orphans s he
      · show Inv sys Good w opened H' { x.st with bad := false }
        rw [clear hi'.bad]
        exact hi'
    · obtain ⟨h1, -, h3, h4, h5⟩ := stop_cases h1
      refine ⟨hp, ?_, ?_, opened, H, ho, ?_⟩
      · intro s' j' he
        have he : x.ended s' j' = true := he
        rw [h3] at he
        by_cases hs : s' = s
        · subst hs; exact closing_iff.mpr h1
        · rw [update_of_ne hs] at he
          exact h.ended s' j' he
      · intro s' he
        by_cases hs : s' = s
        · subst hs; exact closing_iff.mpr h1
        · have he : x.orphans s' ≠ 0 := he
          rw [h5 s' hs] at he
          exact h.orphans s' he
      · show Inv sys Good w opened H { x.st with bad := false }
        rcases h4 with h4 | h4 <;> rw [h4] <;> exact hi
    · obtain ⟨-, -, rfl⟩ := late_cases h1
      exact ⟨hp, h.ended, h.orphans, opened, H, ho, hi⟩
  | sync c =>
    simp only [step, sync] at hst
    split at hst
    · cases hst; exact ⟨hp, fun s j e => hcl s (h.ended s j e), fun s e => hcl s (h.orphans s e), opened, H, ho, hi⟩
    · cases hst
  | pass c =>
    simp only [step, pass] at hst
    split at hst
    · rename_i x l ht
      split at hst
      · rename_i hc
        cases hst
        have hr := h.places.rank c
        rw [hc.1] at hr
        refine ⟨hp, fun s j e => hcl s (h.ended s j e), fun s e => hcl s (h.orphans s e), _, H, ?_, inv_load hi hr.2.2 x⟩
        intro d
        show prog d = update opened c _ d ++ (update st.todo c l d).flatten
        by_cases hd : d = c
        · subst hd
          rw [update_self, update_self, ho d, ht, List.flatten_cons, List.append_assoc]
        · rw [update_of_ne hd, update_of_ne hd]
          exact ho d
      · cases hst
    · cases hst
  | close c =>
    simp only [step, close] at hst
    split at hst
    · cases hst; exact ⟨hp, fun s j e => hcl s (h.ended s j e), fun s e => hcl s (h.orphans s e), opened, H, ho, hi⟩
    · cases hst
  | leave c =>
    simp only [step, leave] at hst
    split at hst
    · cases hst; exact ⟨hp, fun s j e => hcl s (h.ended s j e), fun s e => hcl s (h.orphans s e), opened, H, ho, hi⟩
    · cases hst
  | destroy c =>
    simp only [step, destroy] at hst
    split at hst
    · cases hst; exact ⟨hp, fun s j e => hcl s (h.ended s j e), fun s e => hcl s (h.orphans s e), opened, H, ho, hi⟩
    · cases hst
  | finalize c =>
    simp only [step, finalize] at hst
    split at hst
    · cases hst; exact ⟨hp, fun s j e => hcl s (h.ended s j e), fun s e => hcl s (h.orphans s e), opened, H, ho, hi⟩
    · cases hst

theorem mpi_inv_run (hans : Answers sys prog Good) (hd : Distinct prog) (ls : List (Label n (MpiLabel n L)))
    (h : MpiInv sys Good w prog m st) (hst : run (mpiNet sys) st ls = some st') : MpiInv sys Good w prog m st' := by
  induction ls generalizing st with
  | nil => cases hst; exact h
  | cons l ls ih =>
    simp only [run, Option.bind_eq_bind, Option.bind_eq_some_iff] at hst
    obtain ⟨u, hu, hst⟩ := hst
    exact ih (mpi_inv_step hans hd h hu) hst

theorem faithful_opened {todo : Fin n → List (List (Act n α))} (ho : ∀ c, prog c = opened c ++ (todo c).flatten)
    {x : Mpi.St n L α β W} (h : Faithful sys w opened x) : Faithful sys w prog x := by
  refine ⟨h.good, h.world, fun c s b => (h.requests c s b).trans ?_, h.responses, fun c => (h.order c).trans ?_⟩
  · rw [ho c, Mpi.targets_append, Mpi.sentTo_append]
    exact List.prefix_append _ _
  · rw [ho c, Mpi.targets_append, List.map_append]
    exact List.prefix_append _ _

/-! ## A rank that closes too early -/

/-- Listeners of ranks that are not running do not send responses. -/
theorem mpi_silent {place : Fin n → Place} {x x' : Link n L α β W} {l : MpiLabel n L} (hst : mpiStep sys place x l = some x')
    {s : Fin n} (hs : (place s).running = false) (c : Fin n) :
    (x'.st.pair c s).dataRes.msgs.length = (x.st.pair c s).dataRes.msgs.length := by
  obtain ⟨hb, ⟨k, -, hl, h, -⟩ | ⟨s', j, p, -, h⟩ | ⟨s', d, -, h⟩⟩ := mpiStep_cases hst
  · have hset : ∀ (u : Mpi.St n L α β W) (d s' : Fin n) (pr : Mpi.Pair α β), u.pair = x.st.pair →
        pr.dataRes.msgs.length = (x.st.pair d s').dataRes.msgs.length →
        ((u.setPair d s' pr).pair c s).dataRes.msgs.length = (x.st.pair c s).dataRes.msgs.length := by
      intro u d s' pr hu hpr
      show (update u.pair d (update (u.pair d) s' pr) c s).dataRes.msgs.length = _
      rw [hu]
      by_cases hd : c = d
      · subst hd
        rw [update_self]
        by_cases hs' : s = s'
        · subst hs'; rw [update_self]; exact hpr
        · rw [update_of_ne hs']
      · rw [update_of_ne hd]
    generalize x'.st = y at h ⊢
    unfold Mpi.step at h
    rw [hb] at h
    simp only [Bool.false_eq_true, if_false] at h
    cases k with
    | start d =>
      simp only [Mpi.start] at h
      split at h
      · cases h; rfl
      · split at h
        · cases h; rfl
        · cases h; rfl
      · cases h
    | post d s' =>
      simp only [Mpi.post] at h
      split at h
      · split at h
        · cases h; exact hset _ _ _ _ rfl rfl
        · cases h; exact hset _ _ _ _ rfl rfl
        · cases h
      · cases h
    | sent d =>
      simp only [Mpi.sent] at h
      split at h
      · split at h
        · cases h; rfl
        · cases h
      · cases h
    | size d s' =>
      simp only [Mpi.size] at h
      split at h
      · split at h
        · split at h
          · cases h; exact hset _ _ _ _ rfl rfl
          · cases h
        · cases h
      · cases h
    | sized d =>
      simp only [Mpi.sized] at h
      split at h
      · split at h
        · cases h; rfl
        · cases h
      · cases h
    | data d s' =>
      simp only [Mpi.data] at h
      split at h
      · split at h
        · split at h
          · split at h
            · cases h; exact hset _ _ _ _ rfl rfl
            · cases h; rfl
          · cases h
        · cases h
      · cases h
    | finish d =>
      simp only [Mpi.finish] at h
      split at h
      · split at h
        · cases h; rfl
        · cases h
      · cases h
    | listen s' j d =>
      simp only [Mpi.listen] at h
      split at h
      · split at h
        · cases h; exact hset x.st _ _ _ rfl rfl
        · cases h
      · cases h
    | listener s' j =>
      have hns : s' = s → isGot (x.st.listener s' j) = true := by
        rintro rfl
        simp only [listens, hs, Bool.false_or, Bool.and_eq_true] at hl
        exact hl.1
      simp only [Mpi.listener] at h
      split at h
      · cases h
      · split at h
        · split at h
          · cases h; exact hset x.st _ _ _ rfl rfl
          · cases h; rfl
        · cases h
      · split at h
        · cases h; exact hset x.st _ _ _ rfl rfl
        · cases h; rfl
      · rename_i d r q hlis
        split at h
        · cases h
          have hne : s' ≠ s := fun e => by have := hns e; rw [hlis] at this; cases this
          show (update x.st.pair d (update (x.st.pair d) s' _) c s).dataRes.msgs.length = _
          by_cases hd : c = d
          · subst hd; rw [update_self, update_of_ne (Ne.symm hne)]
          · rw [update_of_ne hd]
        · cases h
      · split at h
        · cases h; rfl
        · cases h
  · obtain ⟨-, -, -, h | h, -⟩ := stop_cases h <;> rw [h] <;> rfl
  · obtain ⟨-, -, rfl⟩ := late_cases h
    rfl

theorem mpi_silent_run {s : Fin n} (hs : Closing (st.place s)) (c : Fin n) (ls : List (Label n (MpiLabel n L)))
    (hst : run (mpiNet sys) st ls = some st') :
    (st'.base.st.pair c s).dataRes.msgs.length = (st.base.st.pair c s).dataRes.msgs.length := by
  induction ls generalizing st with
  | nil => cases hst; rfl
  | cons l ls ih =>
    simp only [run, Option.bind_eq_bind, Option.bind_eq_some_iff] at hst
    obtain ⟨u, hu, hst⟩ := hst
    rw [ih (closing_step hu hs) hst]
    cases l with
    | net l =>
      obtain ⟨x, hx, rfl⟩ := Option.map_eq_some_iff.mp hu
      exact mpi_silent hx (closing_iff.mp hs) c
    | sync d =>
      simp only [step, sync] at hu
      split at hu
      · cases hu; rfl
      · cases hu
    | pass d =>
      simp only [step, pass] at hu
      split at hu
      · split at hu
        · cases hu; rfl
        · cases hu
      · cases hu
    | close d =>
      simp only [step, close] at hu
      split at hu
      · cases hu; rfl
      · cases hu
    | leave d =>
      simp only [step, leave] at hu
      split at hu
      · cases hu; rfl
      · cases hu
    | destroy d =>
      simp only [step, destroy] at hu
      split at hu
      · cases hu; rfl
      · cases hu
    | finalize d =>
      simp only [step, finalize] at hu
      split at hu
      · cases hu; rfl
      · cases hu

/-- A client that has done everything has a response to each request. -/
theorem idle_responses {x : Mpi.St n L α β W} (h : Inv sys Good w opened H x) {c : Fin n} (hc : mpiIdle (x.client c) = true) (s : Fin n) :
    (x.pair c s).dataRes.msgs.length = (sentTo s true (targets c (opened c))).length := by
  obtain ⟨ha, hp⟩ := mpiIdle_iff.mp hc
  have h1 := (h.client c).requests s
  have h2 := h.joint c s
  rw [hp] at h1 h2
  rw [ha] at h1
  rw [h1]
  simp only [view] at h2 ⊢
  generalize hpr : x.pair c s = pr at h2 ⊢
  generalize logOf c s true x.log = lg at h2
  cases h2 with
  | free => simp [Mpi.current, targets, sentTo]

/-! ## All ranks call `Sync` directly before `Close` -/

/-- Between two ranks whose client has done everything there are no messages. -/
theorem idle_free {x : Mpi.St n L α β W} (h : Inv sys Good w opened H x) {c : Fin n} (hc : mpiIdle (x.client c) = true) (s : Fin n) :
    (x.pair c s).sizeReq.next? = none ∧ (∀ j, ¬ Active c (x.listener s j)) ∧
      ∀ q, q < (x.pair c s).dataRes.msgs.length → q < (x.pair c s).dataRes.taken := by
  obtain ⟨ha, hp⟩ := mpiIdle_iff.mp hc
  have h2 := h.joint c s
  rw [hp] at h2
  simp only [view] at h2
  generalize hpr : x.pair c s = pr at h2 ⊢
  generalize logOf c s true x.log = lg at h2
  cases h2 with
  | free v hv hact =>
    refine ⟨?_, hact, ?_⟩
    · simp [Mpi.Chan.next?]
    · intro q hq; simpa using hq

theorem mpi_good_step (h : MpiInv sys Good w prog m st) (hl : LastOk (mpiNet sys) st) (hb : st.base.st.bad = false)
    {l : Label n (MpiLabel n L)} (hst : step (mpiNet sys) st l = some st') (h' : MpiInv sys Good w prog m st')
    (hans : Answers sys prog Good) (hd : Distinct prog) : st'.base.st.bad = false := by
  obtain ⟨opened, H, ho, hi⟩ := h.base
  rw [clear hb] at hi
  cases l with
  | net l =>
    obtain ⟨x, hx, rfl⟩ := Option.map_eq_some_iff.mp hst
    obtain ⟨-, ⟨k, -, -, h1, h2, -⟩ | ⟨s, j, p, -, h1⟩ | ⟨s, d, -, h1⟩⟩ := mpiStep_cases hx
    · obtain ⟨H', hi'⟩ := Mpi.inv_step (answers_opened hans ho) (distinct_opened hd ho) hi h1
      exact hi'.bad
    · have hs := closing_iff.mpr (stop_cases h1).1
      have hidle := fun d => (closing_idle h.places hl hs d).1
      show x.st.bad = false
      unfold stop at h1
      split at h1
      · cases h1
      simp only at h1
      split at h1
      · cases h1; split <;> exact hb
      · cases h1; exact hb
      · cases h1
      · rename_i d r q hlis
        have := (idle_free hi (hidle d) s).2.1 j
        rw [hlis] at this
        exact absurd rfl this
      · rename_i d len q hlis
        have := (idle_free hi (hidle d) s).2.2 q (hi.pending s j d len q hlis)
        cases h1
        rw [if_pos (by simp [this])]
        exact hb
    · obtain ⟨h2, h3, -⟩ := late_cases h1
      exact absurd (idle_free hi (closing_idle h.places hl (h.orphans s h3) d).1 s).1 h2
  | sync d =>
    simp only [step, sync] at hst
    split at hst
    · cases hst; exact hb
    · cases hst
  | pass d =>
    simp only [step, pass] at hst
    split at hst
    · split at hst
      · cases hst; exact hb
      · cases hst
    · cases hst
  | close d =>
    simp only [step, close] at hst
    split at hst
    · cases hst; exact hb
    · cases hst
  | leave d =>
    simp only [step, leave] at hst
    split at hst
    · cases hst; exact hb
    · cases hst
  | destroy d =>
    simp only [step, destroy] at hst
    split at hst
    · cases hst; exact hb
    · cases hst
  | finalize d =>
    simp only [step, finalize] at hst
    split at hst
    · cases hst; exact hb
    · cases hst

theorem mpi_good_run (hans : Answers sys prog Good) (hd : Distinct prog) (ls : List (Label n (MpiLabel n L)))
    (h : MpiInv sys Good w prog m st) (hl : LastOk (mpiNet sys) st) (hb : st.base.st.bad = false)
    (hst : run (mpiNet sys) st ls = some st') : LastOk (mpiNet sys) st' ∧ st'.base.st.bad = false := by
  induction ls generalizing st with
  | nil => cases hst; exact ⟨hl, hb⟩
  | cons l ls ih =>
    simp only [run, Option.bind_eq_bind, Option.bind_eq_some_iff] at hst
    obtain ⟨u, hu, hst⟩ := hst
    have hu' := mpi_inv_step hans hd h hu
    exact ih hu' (last_step (mpi_lawful sys) h.places hl hu) (mpi_good_step h hl hb hu hu' hans hd) hst

/-- When nothing more is possible, all ranks have closed. -/
theorem mpi_stuck (hans : Answers sys prog Good) (hr : Relaxed sys L prog) (h : MpiInv sys Good w prog m st) (hl : LastOk (mpiNet sys) st)
    (hb : st.base.st.bad = false) (hs : Stuck (mpiNet sys) st) : AllClosed st := by
  obtain ⟨opened, H, ho, hi⟩ := h.base
  rw [clear hb] at hi
  have hnet : ∀ l, mpiStep sys st.place st.base l = none := by
    intro l
    have : step (mpiNet sys) st (.net l) = none := hs (.net l)
    exact Option.map_eq_none_iff.mp this
  have hidle : ∀ c, (mpiNet sys).idle st.base c = true := by
    by_cases hc : ∃ s, Closing (st.place s)
    · obtain ⟨s, hc⟩ := hc
      exact fun c => (closing_idle h.places hl hc c).1
    · push Not at hc
      have hrun : ∀ s, (st.place s).running = true := by
        intro s
        have := hc s
        rw [closing_iff] at this
        simpa using this
      have hend : ∀ s j, st.base.ended s j = false := by
        intro s j
        cases e : st.base.ended s j with
        | false => rfl
        | true => exact absurd (h.ended s j e) (hc s)
      have hstuck : Spec.Mpi.Stuck sys st.base.st := by
        intro l
        have := hnet (.msg l)
        unfold mpiStep at this
        rw [hb] at this
        simp only [Bool.false_eq_true, if_false] at this
        rw [if_pos] at this
        · exact Option.map_eq_none_iff.mp this
        · cases l <;> simp [listens, hrun, hend]
      intro c
      exact mpiIdle_iff.mpr (Mpi.stuck_finished (answers_opened hans ho) (relaxed_opened hr ho) hi hstuck c)
  refine stuck_places h.places hidle ?_ (fun c => ⟨hs _, hs _, hs _, hs _, hs _, hs _⟩)
  intro c hc
  refine decide_eq_true (fun j => ?_)
  cases e : st.base.ended c j with
  | true => rfl
  | false =>
    exfalso
    have := hnet (.stop c j false)
    unfold mpiStep at this
    rw [hb] at this
    simp only [Bool.false_eq_true, if_false, stop, hc, Place.running, e, Bool.or_self] at this
    cases hlis : st.base.st.listener c j with
    | idle => rw [hlis] at this; cases this
    | sized d len => rw [hlis] at this; cases this
    | got d p => exact (idle_free hi (hidle d) c).2.1 j (by rw [hlis]; rfl)
    | sendSize d r q => rw [hlis] at this; cases this
    | sendData d len q => rw [hlis] at this; cases this

/-- At the end. -/
theorem mpi_closed (h : MpiInv sys Good w prog m st) (hb : st.base.st.bad = false) (hc : AllClosed st) :
    Complete sys w prog st.base.st := by
  obtain ⟨opened, H, ho, hi⟩ := h.base
  rw [clear hb] at hi
  have hr := fun c => closing_rank h.places (c := c) (Or.inr (Or.inr (Or.inr (hc c))))
  have he : prog = opened := by
    funext c
    rw [ho c, (hr c).2.1]
    simp
  rw [he]
  exact Mpi.inv_complete hi (fun c => mpiIdle_iff.mp (hr c).2.2)

/-! ## Executions end -/

/-- What is left to do. -/
def total (st : St n (Act n α) (Link n L α β W)) : Nat :=
  Mpi.left st.base.st + (∑ c, (Mpi.Ends.acts (st.todo c).flatten + rankLeft (st.place c) (st.todo c).length)) +
    (∑ s, ∑ j, (if st.base.ended s j then 0 else 1)) + (if st.base.st.bad then 0 else 1)

theorem total_init (first : Fin n → List (Act n α)) {rest : Fin n → List (List (Act n α))} (hm : Collective m rest) :
    total (init (mpiInit (L := L) (β := β) w first) rest) = mpiBound L m (whole first rest) := by
  have h1 : ∀ c, Mpi.Ends.acts (rest c).flatten + rankLeft .working (rest c).length =
      Mpi.Ends.acts (rest c).flatten + (2 * m + 4) := by
    intro c; rw [hm c]; rfl
  have h2 : stepBound (whole first rest) = stepBound first + ∑ c, Mpi.Ends.acts (rest c).flatten := by
    unfold stepBound whole
    rw [← Finset.sum_add_distrib]
    refine Finset.sum_congr rfl (fun c _ => ?_)
    rw [List.map_append, List.sum_append]
    rfl
  unfold total mpiBound
  simp only [init, mpiInit, h1]
  rw [Mpi.left_init, h2, Finset.sum_add_distrib]
  simp [Mpi.init, Finset.sum_const]
  rw [Nat.mul_add n (2 * m + 4) L]
  omega

theorem mpi_left_step (hans : Answers sys prog Good) (hd : Distinct prog) (h : MpiInv sys Good w prog m st)
    {l : Label n (MpiLabel n L)} (hst : step (mpiNet sys) st l = some st') : total st' < total st := by
  obtain ⟨opened, H, ho, hi⟩ := h.base
  have hmove : ∀ (u : St n (Act n α) (Link n L α β W)) (c : Fin n), u.base = st.base → u.todo = st.todo →
      (∀ d, d ≠ c → u.place d = st.place d) → placeLeft (u.place c) < placeLeft (st.place c) → total u < total st := by
    intro u c h1 h2 h3 h4
    unfold total
    rw [h1, h2]
    have := Mpi.sum_change (f := fun d => Mpi.Ends.acts (st.todo d).flatten + rankLeft (st.place d) (st.todo d).length)
      (g := fun d => Mpi.Ends.acts (st.todo d).flatten + rankLeft (u.place d) (st.todo d).length) c
      (fun j hj => by simp only [h3 j hj])
    simp only [rankLeft] at this ⊢
    omega
  have hmv : ∀ (c : Fin n) (p : Place), placeLeft p < placeLeft (st.place c) → total (st.move c p) < total st ∧
      total ((st.move c p).enter c) < total st := by
    intro c p hp
    refine ⟨hmove _ c rfl rfl (fun d hd => update_of_ne hd _ _) ?_, hmove _ c rfl rfl (fun d hd => update_of_ne hd _ _) ?_⟩
    · show placeLeft (update st.place c p c) < _
      rw [update_self]; exact hp
    · show placeLeft (update st.place c p c) < _
      rw [update_self]; exact hp
  cases l with
  | net l =>
    obtain ⟨x, hx, rfl⟩ := Option.map_eq_some_iff.mp hst
    obtain ⟨hb, ⟨k, -, -, h1, h2, h3⟩ | ⟨s, j, p, -, h1⟩ | ⟨s, d, -, h1⟩⟩ := mpiStep_cases hx
    · rw [clear hb] at hi
      obtain ⟨H', hi'⟩ := Mpi.inv_step (answers_opened hans ho) (distinct_opened hd ho) hi h1
      have := Mpi.left_step hi h1 hi'.bad
      unfold total
      simp only [h2, hb, hi'.bad]
      omega
    · obtain ⟨h1, h2, h3, h4, -⟩ := stop_cases h1
      have he : (∑ s', ∑ j', (if x.ended s' j' then 0 else 1 : Nat)) + 1 = ∑ s', ∑ j', (if st.base.ended s' j' then 0 else 1 : Nat) := by
        have a1 := Mpi.sum_change (f := fun j' => (if st.base.ended s j' then 0 else 1 : Nat))
          (g := fun j' => (if x.ended s j' then 0 else 1 : Nat)) j
          (fun j' hj' => by simp only [h3, update_self, update_of_ne hj'])
        have a2 := Mpi.sum_change (f := fun s' => ∑ j', (if st.base.ended s' j' then 0 else 1 : Nat))
          (g := fun s' => ∑ j', (if x.ended s' j' then 0 else 1 : Nat)) s
          (fun s' hs' => by simp only [h3, update_of_ne hs'])
        have a3 : x.ended s j = true := by rw [h3, update_self, update_self]
        rw [if_pos a3, if_neg (by simp [h2])] at a1
        omega
      have hle : Mpi.left x.st = Mpi.left st.base.st := by rcases h4 with h4 | h4 <;> rw [h4] <;> rfl
      unfold total
      simp only [hle, hb]
      have : (if x.st.bad = true then 0 else 1 : Nat) ≤ 1 := by split <;> omega
      simp only [Bool.false_eq_true, if_false]
      omega
    · obtain ⟨-, -, rfl⟩ := late_cases h1
      unfold total
      have hle : Mpi.left st.base.st.fail = Mpi.left st.base.st := rfl
      have hf : st.base.st.fail.bad = true := rfl
      simp only [hle, hb, hf, if_true, Bool.false_eq_true, if_false]
      omega
  | sync c =>
    simp only [step, sync] at hst
    split at hst
    · rename_i hc; cases hst; exact (hmv c .sync (by rw [hc.1]; decide)).2
    · cases hst
  | pass c =>
    simp only [step, pass] at hst
    split at hst
    · rename_i x l ht
      split at hst
      · rename_i hc
        cases hst
        have hr := h.places.rank c
        rw [hc.1] at hr
        obtain ⟨ha, -⟩ := mpiIdle_iff.mp hr.2.2
        have a1 := Mpi.left_client st.base.st c { st.base.st.client c with acts := x }
        have a2 := Mpi.sum_change (f := fun d => Mpi.Ends.acts (st.todo d).flatten + rankLeft (st.place d) (st.todo d).length)
          (g := fun d => Mpi.Ends.acts (update st.todo c l d).flatten + rankLeft (update st.place c .working d) (update st.todo c l d).length) c
          (fun j hj => by simp only [update_of_ne hj])
        simp only [update_self, ht, hc.1, rankLeft, List.length_cons, List.flatten_cons, Mpi.Ends.acts, List.map_append,
          List.sum_append] at a2
        simp only [Mpi.Ends.client, ha, Mpi.Ends.acts, List.map_nil, List.sum_nil] at a1
        show Mpi.left (st.base.st.setClient c { st.base.st.client c with acts := x }) +
          (∑ d, (Mpi.Ends.acts (update st.todo c l d).flatten + rankLeft (update st.place c .working d) (update st.todo c l d).length)) +
          (∑ s, ∑ j, (if st.base.ended s j then 0 else 1)) + (if st.base.st.bad then 0 else 1) < total st
        unfold total
        have a3 : placeLeft .working = 4 := rfl
        have a4 : placeLeft .sync = 3 := rfl
        simp only [rankLeft, Mpi.Ends.acts] at a2 ⊢
        omega
      · cases hst
    · cases hst
  | close c =>
    simp only [step, close] at hst
    split at hst
    · rename_i hc; cases hst; exact (hmv c .closing (by rw [hc.1]; decide)).2
    · cases hst
  | leave c =>
    simp only [step, leave] at hst
    split at hst
    · rename_i hc; cases hst; exact (hmv c .leaving (by rw [hc.1]; decide)).1
    · cases hst
  | destroy c =>
    simp only [step, destroy] at hst
    split at hst
    · rename_i hc; cases hst; exact (hmv c .gone (by rw [hc.1]; decide)).1
    · cases hst
  | finalize c =>
    simp only [step, finalize] at hst
    split at hst
    · rename_i hc; cases hst; exact (hmv c .closed (by rw [hc]; decide)).1
    · cases hst

theorem mpi_left_run (hans : Answers sys prog Good) (hd : Distinct prog) (ls : List (Label n (MpiLabel n L)))
    (h : MpiInv sys Good w prog m st) (hst : run (mpiNet sys) st ls = some st') : ls.length + total st' ≤ total st := by
  induction ls generalizing st with
  | nil => cases hst; simp
  | cons l ls ih =>
    simp only [run, Option.bind_eq_bind, Option.bind_eq_some_iff] at hst
    obtain ⟨u, hu, hst⟩ := hst
    have h1 := ih (mpi_inv_step hans hd h hu) hst
    have h2 := mpi_left_step hans hd h hu
    simp only [List.length_cons]
    omega

/-- Executions can be continued until nothing more is possible. -/
theorem mpi_run_stuck (hans : Answers sys prog Good) (hd : Distinct prog) (k : Nat) {st : St n (Act n α) (Link n L α β W)}
    (h : MpiInv sys Good w prog m st) (hk : total st ≤ k) : ∃ ls st', run (mpiNet sys) st ls = some st' ∧ Stuck (mpiNet sys) st' := by
  induction k generalizing st with
  | zero =>
    refine ⟨[], st, rfl, fun l => ?_⟩
    cases e : step (mpiNet sys) st l with
    | none => rfl
    | some u => have := mpi_left_step hans hd h e; omega
  | succ k ih =>
    by_cases hs : Stuck (mpiNet sys) st
    · exact ⟨[], st, rfl, hs⟩
    · unfold Spec.Close.Stuck at hs
      push Not at hs
      obtain ⟨l, hl⟩ := hs
      obtain ⟨u, hu⟩ := Option.ne_none_iff_exists'.mp hl
      have := mpi_left_step hans hd h hu
      obtain ⟨ls, st', h1, h2⟩ := ih (mpi_inv_step hans hd h hu) (by omega)
      refine ⟨l :: ls, st', ?_, h2⟩
      simp only [run, hu, Option.bind_eq_bind, Option.bind_some]
      exact h1

end Hx.Close

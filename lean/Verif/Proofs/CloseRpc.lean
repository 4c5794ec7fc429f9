import Verif.Proofs.Close
import Verif.Proofs.RpcEnds
import Verif.Proofs.MpiRounds
import Verif.Proofs.MpiEnds

/-!
# Helper lemmas: closing a session with Thallium
-/

namespace Hx.Close
open Spec.Close Spec.Rpc
open Hx.Mpi (Act)
open Hx.Rpc (Inv)
open Function (update update_self update_of_ne)
open Spec.Mpi hiding Answers Complete Faithful Stuck stepBound Executes Finished InRounds

variable {n m : Nat} {α β W : Type} {sys : Rpc.Sys n α β W} {Good : W → Prop} {w : W} {prog opened : Fin n → List (Act n α)}

theorem rpcIdle_iff {x : Rpc.Client n α β} : rpcIdle x = true ↔ x.acts = [] ∧ x.phase = .ready := by
  unfold rpcIdle
  cases hp : x.phase with
  | ready => simp
  | round l => simp

theorem rpc_client {st st' : Rpc.St n α β W} {l : Rpc.Label n} (hst : Rpc.step sys st l = some st') {c : Fin n}
    (hc : rpcIdle (st.client c) = true) : st'.client c = st.client c := by
  obtain ⟨ha, hp⟩ := rpcIdle_iff.mp hc
  have hset : ∀ (u : Rpc.St n α β W) (d : Fin n) (x : Rpc.Client n α β), u.client = st.client → d ≠ c →
      (u.setClient d x).client c = st.client c := by
    intro u d x hu hd
    show update u.client d x c = _
    rw [update_of_ne (Ne.symm hd), hu]
  unfold Rpc.step at hst
  split at hst
  · cases hst
  cases l with
  | start d =>
    simp only [Rpc.start] at hst
    split at hst
    · rename_i h1 h2
      cases hst
      exact hset _ _ _ rfl (fun e => by rw [e, ha] at h2; cases h2)
    · rename_i h1 h2
      split at hst
      · cases hst
        exact hset st _ _ rfl (fun e => by rw [e, ha] at h2; cases h2)
      · cases hst; rfl
    · cases hst
  | call d s a =>
    simp only [Rpc.call] at hst
    split at hst
    · rename_i h1
      have hd : d ≠ c := fun e => by rw [e, hp] at h1; cases h1
      split at hst
      · split at hst
        · cases hst; exact hset (st.setMem d a _) _ _ rfl hd
        · cases hst
      · cases hst
    · cases hst
  | take i =>
    simp only [Rpc.take] at hst
    split at hst
    · split at hst
      · split at hst
        · cases hst; rfl
        · cases hst
      · cases hst
    · cases hst
  | pull i =>
    simp only [Rpc.pull] at hst
    split at hst
    · split at hst
      · split at hst
        · split at hst
          · cases hst; rfl
          · cases hst; rfl
        · cases hst; rfl
      · cases hst
    · cases hst
  | serve i a =>
    simp only [Rpc.serve] at hst
    split at hst
    · split at hst
      · split at hst
        · split at hst
          · cases hst; rfl
          · cases hst; rfl
        · cases hst
      · cases hst
    · cases hst
  | recv d s =>
    simp only [Rpc.recv] at hst
    split at hst
    · split at hst
      · split at hst
        · split at hst
          · split at hst
            · cases hst; rfl
            · cases hst; rfl
          · cases hst
        · cases hst
      · cases hst
    · cases hst
  | read d s =>
    simp only [Rpc.read] at hst
    split at hst
    · rename_i h1
      have hd : d ≠ c := fun e => by rw [e, hp] at h1; cases h1
      split at hst
      · split at hst
        · split at hst
          · split at hst
            · split at hst
              · cases hst; exact hset _ _ _ rfl hd
              · cases hst; rfl
            · cases hst; rfl
          · cases hst
        · cases hst
      · cases hst
    · cases hst
  | clean i =>
    simp only [Rpc.clean] at hst
    split at hst
    · split at hst
      · split at hst
        · split at hst
          · cases hst; rfl
          · cases hst; rfl
        · cases hst
      · cases hst
    · cases hst
  | finish d =>
    simp only [Rpc.finish] at hst
    split at hst
    · rename_i h1
      have hd : d ≠ c := fun e => by rw [e, hp] at h1; cases h1
      split at hst
      · cases hst; exact hset _ _ _ rfl hd
      · cases hst
    · cases hst

/-- A step of the transport, with a failure if the range server is destroyed. -/
theorem rpcStep_cases {place : Fin n → Place} {x x' : Rpc.St n α β W} {l : Rpc.Label n} (hst : rpcStep sys place x l = some x') :
    ∃ u, Rpc.step sys x l = some u ∧ (x' = u ∨ (x' = u.fail ∧ ∃ s, handler x l = some s ∧ place s = .gone)) ∧
      ∀ s, handler x l = some s → place s ≠ .closed := by
  unfold rpcStep at hst
  split at hst
  · rename_i s hs
    split at hst
    · cases hst
    · rename_i hp
      obtain ⟨u, hu, rfl⟩ := Option.map_eq_some_iff.mp hst
      refine ⟨u, hu, Or.inr ⟨rfl, s, hs, hp⟩, ?_⟩
      intro s' hs'
      cases hs.symm.trans hs'
      rw [hp]
      exact fun e => Place.noConfusion e
    · rename_i h1 h2
      refine ⟨x', hst, Or.inl rfl, ?_⟩
      intro s' hs'
      cases hs.symm.trans hs'
      exact h1
  · rename_i h0
    split at hst
    · cases hst
    · exact ⟨x', hst, Or.inl rfl, fun s' hs' => absurd hs' (by intro e; exact h0 _ e)⟩
  · rename_i hno _
    exact ⟨x', hst, Or.inl rfl, fun s' hs' => absurd hs' (by intro e; exact hno _ e)⟩

theorem rpc_lawful (sys : Rpc.Sys n α β W) : Lawful (rpcNet sys) := by
  refine ⟨?_, ?_, ?_⟩
  · intro place x l x' c hst hc
    obtain ⟨u, hu, h, -⟩ := rpcStep_cases hst
    have := rpc_client hu hc
    rcases h with rfl | ⟨rfl, -⟩ <;> show rpcIdle _ = true
    · rw [this]; exact hc
    · show rpcIdle (u.client c) = true
      rw [this]; exact hc
  · intro x c l d hd
    show rpcIdle (update x.client c _ d) = _
    rw [update_of_ne hd]
    rfl
  · intro x c hc
    show rpcIdle (update x.client c _ c) = _
    rw [update_self]
    exact rpcIdle_iff.mpr ⟨rfl, (rpcIdle_iff.mp hc).2⟩

/-! ## Calls -/

theorem rpc_inv_load {st : Rpc.St n α β W} (h : Inv sys Good w opened st) {c : Fin n} (hc : rpcIdle (st.client c) = true)
    (l : List (Act n α)) : Inv sys Good w (update opened c (opened c ++ l)) (st.setClient c { st.client c with acts := l }) := by
  obtain ⟨ha, hp⟩ := rpcIdle_iff.mp hc
  refine ⟨h.good, h.fit, h.world, h.owned, ?_, fun d => ?_⟩
  · intro i x hx ho
    obtain ⟨slots, p, h1, h2⟩ := h.linked i x hx ho
    refine ⟨slots, p, ?_, h2⟩
    show (update st.client c _ x.src).phase = _
    by_cases hd : x.src = c
    · rw [hd, update_self]; rw [hd] at h1; exact h1
    · rw [update_of_ne hd]; exact h1
  · show Rpc.ClientInv sys (update opened c _ d) _ d (update st.client c _ d)
    by_cases hd : d = c
    · subst hd
      rw [update_self, update_self]
      have hi := h.client d
      unfold Rpc.ClientInv at hi ⊢
      rw [hp, ha] at hi
      simp only [hp]
      obtain ⟨pre, h1, h2⟩ := hi
      refine ⟨opened d, rfl, ?_⟩
      rw [h1, List.append_nil]
      exact h2
    · rw [update_of_ne hd, update_of_ne hd]
      have hi := h.client d
      unfold Rpc.ClientInv at hi ⊢
      split
      · rename_i e
        simp only [e] at hi
        exact hi
      · rename_i slots e
        simp only [e] at hi
        obtain ⟨pre, H, E, hr⟩ := hi
        exact ⟨pre, H, E, hr.prog, hr.past, hr.slots, hr.none, hr.log⟩

/-- The requests between the calls of `Sync` that have returned are as if there was no `Sync`. -/
structure RpcInv (sys : Rpc.Sys n α β W) (Good : W → Prop) (w : W) (prog : Fin n → List (Act n α)) (m : Nat)
    (st : St n (Act n α) (Rpc.St n α β W)) : Prop where
  places : Places (rpcNet sys) m st
  bad : st.base.bad = true → ∃ s, Left (st.place s)
  base : ∃ opened, (∀ c, prog c = opened c ++ (st.todo c).flatten) ∧ Inv sys Good w opened { st.base with bad := false }

theorem rpc_answers_opened (hans : Answers sys prog Good) {todo : Fin n → List (List (Act n α))}
    (ho : ∀ c, prog c = opened c ++ (todo c).flatten) : Answers sys opened Good := by
  intro v hv c x hx
  refine hans v hv c x ?_
  rw [ho c, Mpi.targets_append]
  exact List.mem_append_left _ hx

theorem rpc_distinct_opened (hd : Distinct prog) {todo : Fin n → List (List (Act n α))}
    (ho : ∀ c, prog c = opened c ++ (todo c).flatten) : Distinct opened := by
  intro c l hl
  refine hd c l ?_
  rw [ho c]
  exact List.mem_append_left _ hl

theorem rpc_inv_init (hw : Good w) (first : Fin n → List (Act n α)) {rest : Fin n → List (List (Act n α))} (hm : Collective m rest) :
    RpcInv (β := β) sys Good w (whole first rest) m (init (Rpc.init w first) rest) :=
  ⟨places_init _ hm, fun h => Bool.noConfusion h, first, fun _ => rfl, Rpc.inv_init w hw first⟩

theorem rpc_clear {st : Rpc.St n α β W} (h : st.bad = false) : { st with bad := false } = st := by
  obtain ⟨_, _, _, _, _, _⟩ := st
  cases h
  rfl

theorem rpc_step_good {x u : Rpc.St n α β W} {l : Rpc.Label n} (h : Rpc.step sys x l = some u) : x.bad = false := by
  unfold Rpc.step at h
  split at h
  · cases h
  · rename_i hb; simpa using hb

theorem left_step_place {A S Λ : Type} {net : Net n A S Λ} {u u' : St n A S} {l : Label n Λ} (hst : step net u l = some u') {c : Fin n}
    (hc : Left (u.place c)) : Left (u'.place c) := by
  have hmove : ∀ (d : Fin n) (p : Place), (d = c → Left p) → Left ((u.move d p).place c) := by
    intro d p hp
    simp only [St.move]
    by_cases hd : c = d
    · subst hd; rw [update_self]; exact hp rfl
    · rw [update_of_ne hd]; exact hc
  have hno : ∀ p, p = Place.working ∨ p = Place.sync ∨ p = Place.closing → ¬ Left p := by
    intro p hp h
    rcases hp with rfl | rfl | rfl <;> rcases h with e | e | e <;> cases e
  cases l with
  | net l => obtain ⟨b, hb, rfl⟩ := Option.map_eq_some_iff.mp hst; exact hc
  | sync d =>
    simp only [step, sync] at hst
    split at hst
    · rename_i h; cases hst
      exact hmove d _ (fun e => absurd hc (hno _ (Or.inl (e ▸ h.1))))
    · cases hst
  | pass d =>
    simp only [step, pass] at hst
    split at hst
    · split at hst
      · rename_i h; cases hst
        exact hmove d _ (fun e => absurd hc (hno _ (Or.inr (Or.inl (e ▸ h.1)))))
      · cases hst
    · cases hst
  | close d =>
    simp only [step, close] at hst
    split at hst
    · rename_i h; cases hst; exact hmove d _ (fun e => absurd hc (hno _ (Or.inl (e ▸ h.1))))
    · cases hst
  | leave d =>
    simp only [step, leave] at hst
    split at hst
    · cases hst; exact hmove d _ (fun _ => Or.inl rfl)
    · cases hst
  | destroy d =>
    simp only [step, destroy] at hst
    split at hst
    · cases hst; exact hmove d _ (fun _ => Or.inr (Or.inl rfl))
    · cases hst
  | finalize d =>
    simp only [step, finalize] at hst
    split at hst
    · cases hst; exact hmove d _ (fun _ => Or.inr (Or.inr rfl))
    · cases hst

variable {st st' : St n (Act n α) (Rpc.St n α β W)}

theorem rpc_inv_step (hans : Answers sys prog Good) (hd : Distinct prog) (h : RpcInv sys Good w prog m st) {l : Label n (Rpc.Label n)}
    (hst : step (rpcNet sys) st l = some st') : RpcInv sys Good w prog m st' := by
  have hp := places_step (rpc_lawful sys) h.places hst
  have hcl : (∃ s, Left (st.place s)) → ∃ s, Left (st'.place s) := fun ⟨s, hs⟩ => ⟨s, left_step_place hst hs⟩
  obtain ⟨opened, ho, hi⟩ := h.base
  cases l with
  | net l =>
    obtain ⟨x, hx, rfl⟩ := Option.map_eq_some_iff.mp hst
    obtain ⟨u, hu, hc, -⟩ := rpcStep_cases hx
    have hb := rpc_step_good hu
    rw [rpc_clear hb] at hi
    have hi' := Rpc.inv_step (rpc_answers_opened hans ho) (rpc_distinct_opened hd ho) hi hu
    rcases hc with rfl | ⟨rfl, s, -, hs⟩
    · refine ⟨hp, ?_, opened, ho, ?_⟩
      · intro hb'
        have hb' : x.bad = true := hb'
        rw [hi'.good] at hb'
        cases hb'
      · show Inv sys Good w opened { x with bad := false }
        rw [rpc_clear hi'.good]
        exact hi'
    · refine ⟨hp, fun _ => ⟨s, Or.inr (Or.inl hs)⟩, opened, ho, ?_⟩
      show Inv sys Good w opened { u with bad := false }
      rw [rpc_clear hi'.good]
      exact hi'
  | sync c =>
    simp only [step, sync] at hst
    split at hst
    · cases hst; exact ⟨hp, fun e => hcl (h.bad e), opened, ho, hi⟩
    · cases hst
  | pass c =>
    simp only [step, pass] at hst
    split at hst
    · rename_i x l ht
      split at hst
      · rename_i hc
        cases hst
        have hr := h.places.rank c
        rw [hc.1] at hr
        refine ⟨hp, fun e => hcl (h.bad e), _, ?_, rpc_inv_load hi hr.2.2 x⟩
        intro d
        show prog d = update opened c _ d ++ (update st.todo c l d).flatten
        by_cases hd : d = c
        · subst hd
          rw [update_self, update_self, ho d, ht, List.flatten_cons, List.append_assoc]
        · rw [update_of_ne hd, update_of_ne hd]
          exact ho d
      · cases hst
    · cases hst
  | close c =>
    simp only [step, close] at hst
    split at hst
    · cases hst; exact ⟨hp, fun e => hcl (h.bad e), opened, ho, hi⟩
    · cases hst
  | leave c =>
    simp only [step, leave] at hst
    split at hst
    · cases hst; exact ⟨hp, fun e => hcl (h.bad e), opened, ho, hi⟩
    · cases hst
  | destroy c =>
    simp only [step, destroy] at hst
    split at hst
    · cases hst; exact ⟨hp, fun e => hcl (h.bad e), opened, ho, hi⟩
    · cases hst
  | finalize c =>
    simp only [step, finalize] at hst
    split at hst
    · cases hst; exact ⟨hp, fun e => hcl (h.bad e), opened, ho, hi⟩
    · cases hst

theorem rpc_inv_run (hans : Answers sys prog Good) (hd : Distinct prog) (ls : List (Label n (Rpc.Label n)))
    (h : RpcInv sys Good w prog m st) (hst : run (rpcNet sys) st ls = some st') : RpcInv sys Good w prog m st' := by
  induction ls generalizing st with
  | nil => cases hst; exact h
  | cons l ls ih =>
    simp only [run, Option.bind_eq_bind, Option.bind_eq_some_iff] at hst
    obtain ⟨u, hu, hst⟩ := hst
    exact ih (rpc_inv_step hans hd h hu) hst

theorem rpc_faithful_opened {todo : Fin n → List (List (Act n α))} (ho : ∀ c, prog c = opened c ++ (todo c).flatten)
    {x : Rpc.St n α β W} (h : Faithful sys w opened x) : Faithful sys w prog x := by
  refine ⟨h.good, h.world, fun c s b => (h.requests c s b).trans ?_, h.responses, fun c => (h.order c).trans ?_⟩
  · rw [ho c, Mpi.targets_append, Mpi.sentTo_append]
    exact List.prefix_append _ _
  · rw [ho c, Mpi.targets_append, List.map_append]
    exact List.prefix_append _ _

/-- Once a rank is behind the barrier, all calls are answered. -/
theorem left_calls (h : RpcInv sys Good w prog m st) {s : Fin n} (hs : Left (st.place s)) :
    ∀ x ∈ st.base.calls, x.stage = .closed ∨ ∃ a, x.stage = .cleaning a := by
  obtain ⟨opened, ho, hi⟩ := h.base
  intro x hx
  obtain ⟨i, hix⟩ := List.getElem?_of_mem hx
  have hidle := (closing_rank h.places (left_closing h.places hs x.src)).2.2
  cases hst : x.stage with
  | closed => exact Or.inl rfl
  | cleaning a => exact Or.inr ⟨a, rfl⟩
  | _ =>
    exfalso
    obtain ⟨slots, p, h1, -⟩ := hi.linked i x hix (by rw [hst]; rfl)
    have h1 : (st.base.client x.src).phase = .round slots := h1
    have := (rpcIdle_iff.mp hidle).2
    rw [this] at h1
    cases h1

/-- When nothing more is possible, all ranks have closed. -/
theorem rpc_stuck (hd : Distinct prog) (ht : 0 < sys.threads) (h : RpcInv sys Good w prog m st)
    (hs : Spec.Close.Stuck (rpcNet sys) st) : AllClosed st := by
  obtain ⟨opened, ho, hi⟩ := h.base
  have hidle : ∀ c, (rpcNet sys).idle st.base c = true := by
    by_cases hc : ∃ s, Left (st.place s)
    · obtain ⟨s, hc⟩ := hc
      exact fun c => (closing_rank h.places (left_closing h.places hc c)).2.2
    · have hb : st.base.bad = false := by
        cases e : st.base.bad with
        | false => rfl
        | true => exact absurd (h.bad e) hc
      rw [rpc_clear hb] at hi
      push Not at hc
      have hpl : ∀ s, st.place s ≠ .closed ∧ st.place s ≠ .gone :=
        fun s => ⟨fun e => hc s (Or.inr (Or.inr e)), fun e => hc s (Or.inr (Or.inl e))⟩
      have hstuck : Spec.Rpc.Stuck sys st.base := by
        intro l
        have : step (rpcNet sys) st (.net l) = none := hs (.net l)
        have : rpcStep sys st.place st.base l = none := Option.map_eq_none_iff.mp this
        unfold rpcStep at this
        split at this
        · rename_i s _
          split at this
          · rename_i e; exact absurd e (hpl s).1
          · rename_i e; exact absurd e (hpl s).2
          · exact this
        · rename_i s _ _
          rw [if_neg (hpl _).1] at this
          exact this
        · exact this
      intro c
      exact rpcIdle_iff.mpr (Rpc.stuck_finished (rpc_distinct_opened hd ho) ht hi hstuck c)
  exact stuck_places h.places hidle (fun _ _ => rfl) (fun c => ⟨hs _, hs _, hs _, hs _, hs _, hs _⟩)

theorem rpc_closed (h : RpcInv sys Good w prog m st) (hb : st.base.bad = false) (hc : AllClosed st) : Complete sys w prog st.base := by
  obtain ⟨opened, ho, hi⟩ := h.base
  rw [rpc_clear hb] at hi
  have hr := fun c => closing_rank h.places (c := c) (Or.inr (Or.inr (Or.inr (hc c))))
  have he : prog = opened := by
    funext c
    rw [ho c, (hr c).2.1]
    simp
  rw [he]
  exact Rpc.inv_complete hi (fun c => rpcIdle_iff.mp (hr c).2.2)

/-! ## Executions end -/

/-- What is left to do. -/
def rpcTotal (st : St n (Act n α) (Rpc.St n α β W)) : Nat :=
  Rpc.left st.base + ∑ c, (((st.todo c).flatten.map Rpc.actLeft).sum + rankLeft (st.place c) (st.todo c).length)

theorem rpcTotal_init (first : Fin n → List (Act n α)) {rest : Fin n → List (List (Act n α))} (hm : Collective m rest) :
    rpcTotal (init (Rpc.init (β := β) w first) rest) = rpcBound m (whole first rest) := by
  have h1 : ∀ c, ((rest c).flatten.map Rpc.actLeft).sum + rankLeft .working (rest c).length =
      ((rest c).flatten.map Rpc.actLeft).sum + (2 * m + 4) := by
    intro c; rw [hm c]; rfl
  have h2 : stepBound (whole first rest) = stepBound first + ∑ c, ((rest c).flatten.map Rpc.actLeft).sum := by
    unfold stepBound whole
    rw [← Finset.sum_add_distrib]
    refine Finset.sum_congr rfl (fun c _ => ?_)
    rw [List.map_append, List.sum_append]
    rfl
  unfold rpcTotal rpcBound
  simp only [init, h1]
  rw [Rpc.left_init, h2, Finset.sum_add_distrib]
  simp [Finset.sum_const]
  omega

theorem rpc_left_step (hans : Answers sys prog Good) (hd : Distinct prog) (h : RpcInv sys Good w prog m st)
    {l : Label n (Rpc.Label n)} (hst : step (rpcNet sys) st l = some st') : rpcTotal st' < rpcTotal st := by
  obtain ⟨opened, ho, hi⟩ := h.base
  have hmove : ∀ (u : St n (Act n α) (Rpc.St n α β W)) (c : Fin n), u.base = st.base → u.todo = st.todo →
      (∀ d, d ≠ c → u.place d = st.place d) → placeLeft (u.place c) < placeLeft (st.place c) → rpcTotal u < rpcTotal st := by
    intro u c h1 h2 h3 h4
    unfold rpcTotal
    rw [h1, h2]
    have := Mpi.sum_change (f := fun d => ((st.todo d).flatten.map Rpc.actLeft).sum + rankLeft (st.place d) (st.todo d).length)
      (g := fun d => ((st.todo d).flatten.map Rpc.actLeft).sum + rankLeft (u.place d) (st.todo d).length) c
      (fun j hj => by simp only [h3 j hj])
    simp only [rankLeft] at this ⊢
    omega
  have hmv : ∀ (c : Fin n) (p : Place), placeLeft p < placeLeft (st.place c) → rpcTotal (st.move c p) < rpcTotal st ∧
      rpcTotal ((st.move c p).enter c) < rpcTotal st := by
    intro c p hp
    refine ⟨hmove _ c rfl rfl (fun d hd => update_of_ne hd _ _) ?_, hmove _ c rfl rfl (fun d hd => update_of_ne hd _ _) ?_⟩
    · show placeLeft (update st.place c p c) < _
      rw [update_self]; exact hp
    · show placeLeft (update st.place c p c) < _
      rw [update_self]; exact hp
  cases l with
  | net l =>
    obtain ⟨x, hx, rfl⟩ := Option.map_eq_some_iff.mp hst
    obtain ⟨u, hu, hc, -⟩ := rpcStep_cases hx
    rw [rpc_clear (rpc_step_good hu)] at hi
    have := Rpc.left_step (rpc_answers_opened hans ho) (rpc_distinct_opened hd ho) hi hu
    have hle : Rpc.left x = Rpc.left u := by rcases hc with rfl | ⟨rfl, -⟩ <;> rfl
    unfold rpcTotal
    simp only [hle]
    omega
  | sync c =>
    simp only [step, sync] at hst
    split at hst
    · rename_i hc; cases hst; exact (hmv c .sync (by rw [hc.1]; decide)).2
    · cases hst
  | pass c =>
    simp only [step, pass] at hst
    split at hst
    · rename_i x l ht
      split at hst
      · rename_i hc
        cases hst
        have hr := h.places.rank c
        rw [hc.1] at hr
        obtain ⟨ha, -⟩ := rpcIdle_iff.mp hr.2.2
        have a1 := Rpc.clients_update st.base.client c (⟨x, (st.base.client c).phase, (st.base.client c).results⟩ : Rpc.Client n α β)
        have a2 := Mpi.sum_change (f := fun d => ((st.todo d).flatten.map Rpc.actLeft).sum + rankLeft (st.place d) (st.todo d).length)
          (g := fun d => ((update st.todo c l d).flatten.map Rpc.actLeft).sum +
            rankLeft (update st.place c .working d) (update st.todo c l d).length) c
          (fun j hj => by simp only [update_of_ne hj])
        simp only [update_self, ht, hc.1, rankLeft, List.length_cons, List.flatten_cons, List.map_append,
          List.sum_append] at a2
        have a5 : Rpc.clientLeft (st.base.client c) = Rpc.phaseLeft (st.base.client c).phase := by simp [Rpc.clientLeft, ha]
        have a6 : Rpc.clientLeft (⟨x, (st.base.client c).phase, (st.base.client c).results⟩ : Rpc.Client n α β) = (x.map Rpc.actLeft).sum + Rpc.phaseLeft (st.base.client c).phase := rfl
        rw [a5, a6] at a1
        show ((∑ d, Rpc.clientLeft (update st.base.client c (⟨x, (st.base.client c).phase, (st.base.client c).results⟩ : Rpc.Client n α β) d)) +
            (st.base.calls.map (fun x => Rpc.stageLeft x.stage)).sum) +
          (∑ d, (((update st.todo c l d).flatten.map Rpc.actLeft).sum +
            rankLeft (update st.place c .working d) (update st.todo c l d).length)) < rpcTotal st
        unfold rpcTotal Rpc.left
        have a3 : placeLeft .working = 4 := rfl
        have a4 : placeLeft .sync = 3 := rfl
        simp only [rankLeft] at a2 ⊢
        omega
      · cases hst
    · cases hst
  | close c =>
    simp only [step, close] at hst
    split at hst
    · rename_i hc; cases hst; exact (hmv c .closing (by rw [hc.1]; decide)).2
    · cases hst
  | leave c =>
    simp only [step, leave] at hst
    split at hst
    · rename_i hc; cases hst; exact (hmv c .leaving (by rw [hc.1]; decide)).1
    · cases hst
  | destroy c =>
    simp only [step, destroy] at hst
    split at hst
    · rename_i hc; cases hst; exact (hmv c .gone (by rw [hc.1]; decide)).1
    · cases hst
  | finalize c =>
    simp only [step, finalize] at hst
    split at hst
    · rename_i hc; cases hst; exact (hmv c .closed (by rw [hc]; decide)).1
    · cases hst

theorem rpc_left_run (hans : Answers sys prog Good) (hd : Distinct prog) (ls : List (Label n (Rpc.Label n)))
    (h : RpcInv sys Good w prog m st) (hst : run (rpcNet sys) st ls = some st') : ls.length + rpcTotal st' ≤ rpcTotal st := by
  induction ls generalizing st with
  | nil => cases hst; simp
  | cons l ls ih =>
    simp only [run, Option.bind_eq_bind, Option.bind_eq_some_iff] at hst
    obtain ⟨u, hu, hst⟩ := hst
    have h1 := ih (rpc_inv_step hans hd h hu) hst
    have h2 := rpc_left_step hans hd h hu
    simp only [List.length_cons]
    omega

/-! ## Tidy executions -/

/-- Ranks that have destroyed their range server are not asked to free responses. -/
structure TidyInv (st : St n (Act n α) (Rpc.St n α β W)) : Prop where
  bad : st.base.bad = false
  gone : ∀ s, st.place s = .gone ∨ st.place s = .closed → ¬ Cleaning st.base s

/-- Once a rank is behind the barrier, the only steps of the transport are those that free responses. -/
theorem left_clean (h : RpcInv sys Good w prog m st) {s : Fin n} (hs : Left (st.place s)) {l : Rpc.Label n} {u : Rpc.St n α β W}
    (hst : Rpc.step sys st.base l = some u) : ∃ i x a, l = .clean i ∧ st.base.calls[i]? = some x ∧ x.stage = .cleaning a ∧
      (u.calls = st.base.calls.set i { x with stage := .closed } ∨ u.calls = st.base.calls) := by
  have hidle := fun c => rpcIdle_iff.mp (closing_rank h.places (left_closing h.places hs c)).2.2
  have hcalls := left_calls h hs
  unfold Rpc.step at hst
  split at hst
  · cases hst
  cases l with
  | start c =>
    exfalso
    simp only [Rpc.start, (hidle c).1, (hidle c).2] at hst
    cases hst
  | call c d a => exfalso; simp only [Rpc.call, (hidle c).2] at hst; cases hst
  | recv c d => exfalso; simp only [Rpc.recv, (hidle c).2] at hst; cases hst
  | read c d => exfalso; simp only [Rpc.read, (hidle c).2] at hst; cases hst
  | finish c => exfalso; simp only [Rpc.finish, (hidle c).2] at hst; cases hst
  | take i =>
    exfalso
    simp only [Rpc.take] at hst
    split at hst
    · rename_i x hx
      rcases hcalls x (List.mem_of_getElem? hx) with e | ⟨a, e⟩ <;> rw [e] at hst <;> cases hst
    · cases hst
  | pull i =>
    exfalso
    simp only [Rpc.pull] at hst
    split at hst
    · rename_i x hx
      rcases hcalls x (List.mem_of_getElem? hx) with e | ⟨a, e⟩ <;> rw [e] at hst <;> cases hst
    · cases hst
  | serve i a =>
    exfalso
    simp only [Rpc.serve] at hst
    split at hst
    · rename_i x hx
      rcases hcalls x (List.mem_of_getElem? hx) with e | ⟨a, e⟩ <;> rw [e] at hst <;> cases hst
    · cases hst
  | clean i =>
    simp only [Rpc.clean] at hst
    split at hst
    · rename_i x hx
      split at hst
      · rename_i a ha
        refine ⟨i, x, a, rfl, hx, ha, ?_⟩
        split at hst
        · split at hst
          · cases hst; exact Or.inl rfl
          · cases hst; exact Or.inr rfl
        · cases hst
      · cases hst
    · cases hst

theorem tidy_step (hans : Answers sys prog Good) (hd : Distinct prog) (h : RpcInv sys Good w prog m st) (ht : TidyInv st)
    {l : Label n (Rpc.Label n)} (hl : ∀ s, l = .destroy s → ¬ Cleaning st.base s) (hst : step (rpcNet sys) st l = some st') : TidyInv st' := by
  obtain ⟨opened, ho, hi⟩ := h.base
  rw [rpc_clear ht.bad] at hi
  have hmv : ∀ (c : Fin n) (p : Place), (p = .gone ∨ p = .closed → ¬ Cleaning st.base c) →
      ∀ s, update st.place c p s = .gone ∨ update st.place c p s = .closed → ¬ Cleaning st.base s := by
    intro c p hp s hs
    by_cases hd : s = c
    · subst hd; rw [update_self] at hs; exact hp hs
    · rw [update_of_ne hd] at hs; exact ht.gone s hs
  have hno : ∀ p, p = Place.working ∨ p = Place.sync ∨ p = Place.closing ∨ p = Place.leaving → ¬ (p = .gone ∨ p = .closed) := by
    rintro p (rfl | rfl | rfl | rfl) (e | e) <;> cases e
  cases l with
  | net l =>
    obtain ⟨x, hx, rfl⟩ := Option.map_eq_some_iff.mp hst
    obtain ⟨u, hu, hc, -⟩ := rpcStep_cases hx
    have hi' := Rpc.inv_step (rpc_answers_opened hans ho) (rpc_distinct_opened hd ho) hi hu
    have hxu : x = u := by
      rcases hc with hc | ⟨-, s, hs, hp⟩
      · exact hc
      · exfalso
        obtain ⟨i, y, a, rfl, h2, h3, -⟩ := left_clean h (Or.inr (Or.inl hp)) hu
        simp only [handler, h2, Option.map_some, Option.some.injEq] at hs
        exact ht.gone s (Or.inl hp) ⟨y, List.mem_of_getElem? h2, hs, a, h3⟩
    subst hxu
    refine ⟨hi'.good, ?_⟩
    rintro s hs ⟨z, hz, hzs, a', hza⟩
    have hs : st.place s = .gone ∨ st.place s = .closed := hs
    have hleft : Left (st.place s) := by
      rcases hs with e | e <;> rw [e]
      · exact Or.inr (Or.inl rfl)
      · exact Or.inr (Or.inr rfl)
    obtain ⟨i, y, a, rfl, h2, h3, h4⟩ := left_clean h hleft hu
    refine ht.gone s hs ⟨z, ?_, hzs, a', hza⟩
    rcases h4 with h4 | h4
    · have hz : z ∈ x.calls := hz
      rw [h4] at hz
      rcases List.mem_or_eq_of_mem_set hz with hz | rfl
      · exact hz
      · cases hza
    · have hz : z ∈ x.calls := hz
      rw [h4] at hz
      exact hz
  | sync c =>
    simp only [step, sync] at hst
    split at hst
    · cases hst; exact ⟨ht.bad, hmv c _ (fun e => absurd e (hno _ (by simp)))⟩
    · cases hst
  | pass c =>
    simp only [step, pass] at hst
    split at hst
    · split at hst
      · cases hst; exact ⟨ht.bad, hmv c .working (fun e => absurd e (hno _ (by simp)))⟩
      · cases hst
    · cases hst
  | close c =>
    simp only [step, close] at hst
    split at hst
    · cases hst; exact ⟨ht.bad, hmv c _ (fun e => absurd e (hno _ (by simp)))⟩
    · cases hst
  | leave c =>
    simp only [step, leave] at hst
    split at hst
    · cases hst; exact ⟨ht.bad, hmv c _ (fun e => absurd e (hno _ (by simp)))⟩
    · cases hst
  | destroy c =>
    simp only [step, destroy] at hst
    split at hst
    · cases hst; exact ⟨ht.bad, hmv c _ (fun _ => hl c rfl)⟩
    · cases hst
  | finalize c =>
    simp only [step, finalize] at hst
    split at hst
    · rename_i hc
      cases hst; exact ⟨ht.bad, hmv c _ (fun _ => ht.gone c (Or.inl hc))⟩
    · cases hst

theorem tidy_run (hans : Answers sys prog Good) (hd : Distinct prog) (ls : List (Label n (Rpc.Label n)))
    (h : RpcInv sys Good w prog m st) (ht : TidyInv st) (hl : Tidy sys st ls) (hst : run (rpcNet sys) st ls = some st') : TidyInv st' := by
  induction ls generalizing st with
  | nil => cases hst; exact ht
  | cons l ls ih =>
    simp only [run, Option.bind_eq_bind, Option.bind_eq_some_iff] at hst
    obtain ⟨u, hu, hst⟩ := hst
    exact ih (rpc_inv_step hans hd h hu) (tidy_step hans hd h ht hl.1 hu) (hl.2 u hu) hst

/-- When a rank can only destroy its range server, it is not asked to free responses. -/
theorem tidy_destroy (hth : 0 < sys.threads) (h : RpcInv sys Good w prog m st) (ht : TidyInv st) {s : Fin n} (hs : st.place s = .leaving)
    (hno : ∀ l, step (rpcNet sys) st (.net l) = none) : ¬ Cleaning st.base s := by
  rintro ⟨x, hx, hxs, a, ha⟩
  obtain ⟨i, hi⟩ := List.getElem?_of_mem hx
  have hcalls := left_calls h (s := s) (Or.inl hs)
  have hbusy : Rpc.busy st.base.calls x.dst = 0 := by
    unfold Rpc.busy
    rw [List.length_eq_zero_iff, List.filter_eq_nil_iff]
    intro y hy
    rcases hcalls y hy with e | ⟨b, e⟩ <;> simp [e, Rpc.Stage.busy]
  have := hno (.clean i)
  have : rpcStep sys st.place st.base (.clean i) = none := Option.map_eq_none_iff.mp this
  unfold rpcStep at this
  simp only [handler, hi, Option.map_some, hxs, hs] at this
  unfold Rpc.step at this
  rw [ht.bad] at this
  simp only [Bool.false_eq_true, if_false, Rpc.clean, hi, ha, hbusy, hth, if_true] at this
  split at this <;> cases this

/-- Executions can be continued in a tidy way until nothing more is possible. -/
theorem tidy_stuck (hans : Answers sys prog Good) (hd : Distinct prog) (hth : 0 < sys.threads) (k : Nat)
    {st : St n (Act n α) (Rpc.St n α β W)} (h : RpcInv sys Good w prog m st) (ht : TidyInv st) (hk : rpcTotal st ≤ k) :
    ∃ ls st', run (rpcNet sys) st ls = some st' ∧ Tidy sys st ls ∧ Spec.Close.Stuck (rpcNet sys) st' := by
  induction k generalizing st with
  | zero =>
    refine ⟨[], st, rfl, trivial, fun l => ?_⟩
    cases e : step (rpcNet sys) st l with
    | none => rfl
    | some u => have := rpc_left_step hans hd h e; omega
  | succ k ih =>
    have hgo : ∀ l u, step (rpcNet sys) st l = some u → (∀ s, l = .destroy s → ¬ Cleaning st.base s) →
        ∃ ls st', run (rpcNet sys) st ls = some st' ∧ Tidy sys st ls ∧ Spec.Close.Stuck (rpcNet sys) st' := by
      intro l u hu hl
      have := rpc_left_step hans hd h hu
      obtain ⟨ls, st', h1, h2, h3⟩ := ih (rpc_inv_step hans hd h hu) (tidy_step hans hd h ht hl hu) (by omega)
      refine ⟨l :: ls, st', ?_, ⟨hl, ?_⟩, h3⟩
      · simp only [run, hu, Option.bind_eq_bind, Option.bind_some]
        exact h1
      · intro u' hu'
        cases hu.symm.trans hu'
        exact h2
    by_cases hnet : ∃ l, step (rpcNet sys) st (.net l) ≠ none
    · obtain ⟨l, hl⟩ := hnet
      obtain ⟨u, hu⟩ := Option.ne_none_iff_exists'.mp hl
      exact hgo _ u hu (fun s e => by cases e)
    · push Not at hnet
      by_cases hs : Spec.Close.Stuck (rpcNet sys) st
      · exact ⟨[], st, rfl, trivial, hs⟩
      · unfold Spec.Close.Stuck at hs
        push Not at hs
        obtain ⟨l, hl⟩ := hs
        obtain ⟨u, hu⟩ := Option.ne_none_iff_exists'.mp hl
        refine hgo l u hu ?_
        rintro s rfl
        simp only [step, destroy] at hu
        split at hu
        · rename_i hc
          exact tidy_destroy hth h ht hc.1 hnet
        · cases hu

/-- All responses are freed at the end of a tidy execution. -/
theorem tidy_closed (h : RpcInv sys Good w prog m st) (ht : TidyInv st) (hc : AllClosed st) (r : Fin n) (a : Nat) : st.base.mem r a = none := by
  obtain ⟨opened, ho, hi⟩ := h.base
  refine Rpc.no_buffers hi ?_ r a
  intro x hx
  have hx : x ∈ st.base.calls := hx
  rcases left_calls h (s := x.dst) (Or.inr (Or.inr (hc _))) x hx with e | ⟨b, e⟩
  · exact e
  · exact absurd ⟨x, hx, rfl, b, e⟩ (ht.gone x.dst (Or.inr (hc _)))

end Hx.Close

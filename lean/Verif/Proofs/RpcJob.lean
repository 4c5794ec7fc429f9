import Verif.Proofs.RpcEnds
import Verif.Proofs.JobFew
import Verif.Spec.RpcJob

/-!
# Helper lemmas: an execution with calls is an execution of flushes that overlap
-/

namespace Hx.Rpc
open Hx.Mpi (Act)
open Hx
open Function (update update_self update_of_ne)

variable {n : Nat} {α β W : Type} {sys : Sys n α β W} {st st' : St n α β W}

theorem step_log {l : Label n} (hst : step sys st l = some st') : st.log <+: st'.log := by
  unfold step at hst
  split at hst
  · cases hst
  cases l <;> simp only [start, call, take, pull, serve, recv, read, clean, finish] at hst
  all_goals
    repeat' split at hst
  all_goals first
    | (cases hst; done)
    | (rw [← Option.some.inj hst]; exact List.prefix_refl _)
    | (rw [← Option.some.inj hst]; exact List.prefix_append _ _)

theorem run_append (ls ls' : List (Label n)) (st : St n α β W) : run sys st (ls ++ ls') = run sys st ls >>= fun m => run sys m ls' := by
  induction ls generalizing st with
  | nil => rfl
  | cons l ls ih =>
    simp only [List.cons_append, run, Option.bind_eq_bind]
    cases step sys st l with
    | none => rfl
    | some u => exact ih u

theorem run_log (ls : List (Label n)) {st : St n α β W} (hst : run sys st ls = some st') : st.log <+: st'.log := by
  induction ls generalizing st with
  | nil => cases hst; exact List.prefix_refl _
  | cons l ls ih =>
    simp only [run, Option.bind_eq_bind, Option.bind_eq_some_iff] at hst
    obtain ⟨u, hu, hst⟩ := hst
    exact (step_log hu).trans (ih hst)

/-- A step leaves what a client still has to do, or is the start of a round or local request. -/
theorem step_acts {l : Label n} (hst : step sys st l = some st') (c : Fin n) : (st'.client c).acts = (st.client c).acts ∨
    ((st.client c).phase = .ready ∧ ∃ a, (st.client c).acts = a :: (st'.client c).acts) := by
  have hset : ∀ (u : St n α β W) (d : Fin n) (x : Client n α β), u.client = st.client → x.acts = (st.client d).acts →
      ((u.setClient d x).client c).acts = (st.client c).acts := by
    intro u d x hu hx
    unfold St.setClient
    by_cases hc : c = d
    · subst hc; simp only [update_self]; exact hx
    · simp only [update_of_ne hc, hu]
  unfold step at hst
  split at hst
  · cases hst
  cases l with
  | start d =>
    simp only [start] at hst
    by_cases hc : c = d
    · subst hc
      split at hst
      · rename_i h1 h2
        rw [← Option.some.inj hst]
        right
        exact ⟨h1, _, by simp only [h2, St.setClient, update_self]; rfl⟩
      · rename_i h1 h2
        split at hst
        · rw [← Option.some.inj hst]
          right
          exact ⟨h1, _, by simp only [h2, St.setClient, update_self]; rfl⟩
        · rw [← Option.some.inj hst]; exact Or.inl rfl
      · cases hst
    · split at hst
      · rw [← Option.some.inj hst]; left; simp only [St.setClient, update_of_ne hc]
      · split at hst
        · rw [← Option.some.inj hst]; left; simp only [St.setClient, update_of_ne hc]
        · rw [← Option.some.inj hst]; exact Or.inl rfl
      · cases hst
  | _ =>
    left
    simp only [call, take, pull, serve, recv, read, clean, finish] at hst
    repeat' split at hst
    all_goals first
      | (cases hst; done)
      | (rw [← Option.some.inj hst]; rfl)
      | (rw [← Option.some.inj hst]; exact hset _ _ _ rfl rfl)

/-- There is a moment at which a client is between any two rounds. -/
theorem moment (ls : List (Label n)) {st : St n α β W} (hst : run sys st ls = some st') (c : Fin n) (pre post : List (Act n α))
    (hacts : (st.client c).acts = pre ++ post) (hend : (st'.client c).acts = [] ∧ (st'.client c).phase = .ready) :
    ∃ ls₁ ls₂ m, ls = ls₁ ++ ls₂ ∧ run sys st ls₁ = some m ∧ run sys m ls₂ = some st' ∧ (m.client c).acts = post ∧
      (m.client c).phase = .ready := by
  induction ls generalizing st pre with
  | nil =>
    cases hst
    rw [hacts] at hend
    have : post = [] := (List.append_eq_nil_iff.mp hend.1).2
    subst this
    exact ⟨[], [], st', rfl, rfl, rfl, hacts.trans hend.1, hend.2⟩
  | cons l ls ih =>
    have hst0 := hst
    simp only [run, Option.bind_eq_bind, Option.bind_eq_some_iff] at hst
    obtain ⟨u, hu, hst⟩ := hst
    have next : ∀ pre, (u.client c).acts = pre ++ post → ∃ ls₁ ls₂ m, l :: ls = ls₁ ++ ls₂ ∧ run sys st ls₁ = some m ∧
        run sys m ls₂ = some st' ∧ (m.client c).acts = post ∧ (m.client c).phase = .ready := by
      intro pre hpre
      obtain ⟨ls₁, ls₂, m, h1, h2, h3, h4⟩ := ih hst pre hpre
      refine ⟨l :: ls₁, ls₂, m, by rw [h1]; rfl, ?_, h3, h4⟩
      simp only [run, hu, Option.bind_eq_bind, Option.bind_some]
      exact h2
    rcases step_acts hu c with h | ⟨hready, a, h⟩
    · exact next pre (h.trans hacts)
    · cases pre with
      | nil => exact ⟨[], l :: ls, st, rfl, rfl, hst0, hacts, hready⟩
      | cons x pre =>
        rw [hacts, List.cons_append] at h
        exact next pre (List.cons.inj h).2.symm

/-- What clients have done and got, as with MPI. -/
def seen (st : St n α β W) : Mpi.St n 0 α β W where
  world := st.world
  client c := ⟨(st.client c).acts, match (st.client c).phase with | .ready => .ready | .round _ => .round .sending [], (st.client c).results⟩
  listener _ j := j.elim0
  pair _ _ := .init
  log := st.log
  bad := st.bad

theorem seen_ready (st : St n α β W) (c : Fin n) : ((seen st).client c).phase = .ready ↔ (st.client c).phase = .ready := by
  unfold seen
  simp only
  cases (st.client c).phase <;> simp

theorem seen_rounds {prog : Fin n → List (Act n α)} (h : Spec.Rpc.InRounds prog st) : Spec.Mpi.InRounds prog (seen st) := by
  intro c
  obtain ⟨pre, h1, h2⟩ := h c
  exact ⟨pre, h1, fun s b => ⟨(h2 s b).1, fun hr => (h2 s b).2 ((seen_ready st c).mp hr)⟩⟩

end Hx.Rpc

namespace Hx.Job
open Hx Msg Spec Process Store Results Props

variable {cb : Callbacks} {t : Transform} {hash : Bytes → Bytes → Out Int} {place : List Int} {heap addr : Nat} {junk : Nat → Bytes}
  {n : Nat} {G : Uses} {threads : Nat} {async : Bool} {turns : List Turn} {acts : Nat → FlushActs n}

/-- A handler does what a listener does. -/
theorem rpcServe_of_mpi {w u : World} {s d : Fin n} {p : Parcel} {r : Reply} (h : mpiServe cb heap addr junk w s p = .ok (u, d, r)) :
    rpcServe cb heap addr junk w s p = .ok (u, r) := by
  unfold mpiServe at h
  unfold rpcServe
  split at h
  · rename_i bytes hb
    rw [hb]
    split at h
    · rename_i req rest hreq
      obtain ⟨x, hx, h⟩ := ok_iff.mp h
      obtain ⟨b, hb, h⟩ := ok_iff.mp h
      obtain ⟨d', -, h⟩ := ok_iff.mp h
      cases h
      simp only [hreq, hx, hb, Out.ok_bind]
    · cases h
  · rename_i req hreq
    rw [hreq]
    obtain ⟨x, hx, h⟩ := ok_iff.mp h
    cases h
    simp only [hx, Out.ok_bind]

theorem seen_over {β : Type} {st : Rpc.St n Parcel β World} {i : Nat} (h : Spec.Rpc.Over turns acts st i) : Over turns acts (Rpc.seen st) i := by
  obtain ⟨c, k, h1, h2, h3⟩ := h
  exact ⟨c, k, h1, (Rpc.seen_ready st c).mpr h2, h3⟩

theorem seen_waiting {β : Type} {st : Rpc.St n Parcel β World} {i : Nat} (h : Spec.Rpc.Waiting turns acts st i) : Waiting turns acts (Rpc.seen st) i := h

section
variable {l : Nat → List Send} (hp : Planned cb t hash place G addr junk turns acts l)
include hp

theorem rpc_answers (hheap : heap ≠ 0) (hheap' : heap < 2 ^ 64) :
    Spec.Rpc.Answers (rpcSys cb heap addr junk threads async) (jobProg turns acts) (Fit cb t hash place G) := by
  intro w hw c x hx
  obtain ⟨u, r, h1, h2⟩ := job_answers (eager := fun _ => true) hp hheap hheap' w hw c x hx
  exact ⟨u, r, rpcServe_of_mpi h1, h2⟩

theorem executes_mpi (hheap : heap ≠ 0) (hheap' : heap < 2 ^ 64) (log : List (Mpi.Entry n Parcel Reply)) {w w' : World}
    (hw : Fit cb t hash place G w) (h : Spec.Rpc.Executes (rpcServe cb heap addr junk) w log w')
    (hlog : ∀ e ∈ log, (e.rank, e.wire, e.req) ∈ Spec.Mpi.targets e.src (jobProg turns acts e.src)) :
    Spec.Mpi.Executes (mpiServe cb heap addr junk) w log w' := by
  induction log generalizing w with
  | nil => exact h
  | cons e log ih =>
    obtain ⟨u, hs, h⟩ := h
    obtain ⟨u', r, hs', hfit⟩ := job_answers (eager := fun _ => true) hp hheap hheap' w hw e.src _ (hlog e (by simp))
    have hs' : mpiServe cb heap addr junk w e.rank e.req = .ok (u', e.src, r) := hs'
    have := rpcServe_of_mpi hs'
    rw [hs] at this
    have := Out.ok.inj this
    simp only [Prod.mk.injEq] at this
    obtain ⟨rfl, rfl⟩ := this
    exact ⟨u, e.src, hs', ih hfit h (fun e he => hlog e (by simp [he]))⟩

theorem seen_complete (hheap : heap ≠ 0) (hheap' : heap < 2 ^ 64) {w : World} (hw : Fit cb t hash place G w)
    {st : Rpc.St n Parcel Reply World} (eager : Nat → Bool)
    (h : Spec.Rpc.Complete (rpcSys cb heap addr junk threads async) w (jobProg turns acts) st) :
    Spec.Mpi.Complete (mpiSys cb heap addr junk eager) w (jobProg turns acts) (Rpc.seen st) := by
  refine ⟨?_, h.requests, h.responses, h.order⟩
  exact executes_mpi hp hheap hheap' st.log hw h.world (fun e he => Mpi.entry_target (fun c s b => by rw [h.requests c s b]) he)

end

/-- Flushes of one rank are one after the other. -/
theorem rpc_order {sys : Rpc.Sys n Parcel Reply World} {w : World} {st : Rpc.St n Parcel Reply World} {ls : List (Rpc.Label n)}
    (h : Rpc.run sys (Rpc.init w (jobProg turns acts)) ls = some st) (hf : Spec.Rpc.Finished st) {c : Fin n} {i j : Nat}
    (hi : i ∈ turnsOf turns c) (hj : j ∈ turnsOf turns c) (hij : i < j) :
    ∃ ls₁ ls₂ m, ls = ls₁ ++ ls₂ ∧ Rpc.run sys (Rpc.init w (jobProg turns acts)) ls₁ = some m ∧ Rpc.run sys m ls₂ = some st ∧
      Spec.Rpc.Over turns acts m i ∧ Spec.Rpc.Waiting turns acts m j := by
  obtain ⟨l1, l2, hl⟩ := List.append_of_mem hj
  have hsort := sorted_turnsOf (turns := turns) c
  have htake : (turnsOf turns c).take l1.length = l1 := by rw [hl, List.take_left]
  have hdrop : (turnsOf turns c).drop l1.length = j :: l2 := by rw [hl, List.drop_left]
  have hi1 : i ∈ l1 := by
    rw [hl] at hi
    rcases List.mem_append.mp hi with h | h
    · exact h
    · exfalso
      rcases List.mem_cons.mp h with h | h
      · omega
      · rw [hl, List.pairwise_append, List.pairwise_cons] at hsort
        have := hsort.2.1.1 i h
        omega
  have hacts : ((Rpc.init w (jobProg turns acts) : Rpc.St n Parcel Reply World).client c).acts =
      l1.flatMap (fun i => (acts i).all) ++ (j :: l2).flatMap (fun i => (acts i).all) := by
    show jobProg turns acts c = _
    unfold jobProg
    rw [hl, List.flatMap_append]
  obtain ⟨ls₁, ls₂, m, h1, h2, h3, h4, h5⟩ := Rpc.moment ls h c _ _ hacts (hf c)
  refine ⟨ls₁, ls₂, m, h1, h2, h3, ⟨c, l1.length, by rw [htake]; exact hi1, h5, by rw [hdrop]; exact h4⟩,
    ⟨c, l1.length, by rw [hdrop]; simp, by rw [hdrop, h4]⟩⟩

end Hx.Job

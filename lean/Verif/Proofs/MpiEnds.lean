import Verif.Proofs.MpiProgress

/-!
# Helper lemmas: executions of ranks that use MPI end

Every step makes a number smaller. It counts messages that were not received, with weights, and what
clients and listeners have left to do.
-/

namespace Hx.Mpi
open Hx Spec.Mpi
open Function (update update_self update_of_ne)

variable {n L : Nat} {α β W : Type} {sys : Sys n α β W} {Good : W → Prop} {w : W} {prog : Fin n → List (Act n α)}
  {H : Fin n → Fin n → List (α × β)} {st st' : St n L α β W}

namespace Ends

def chan {α : Type} (c : Chan α) : Nat := c.msgs.length - c.taken

def pair (x : Pair α β) : Nat := 7 * chan x.sizeReq + chan x.dataReq + chan x.sizeRes + chan x.dataRes

def slot : Slot β → Nat
  | .todo => 10
  | .half _ => 2
  | _ => 0

def slots (l : List (Fin n × α × Slot β)) : Nat := (l.map (fun x => slot x.2.2)).sum

def stage : Stage → Nat
  | .sending => 3
  | .sizes => 2
  | .datas => 1

def phase : Phase n α β → Nat
  | .ready => 0
  | .round g l => stage g + slots l

def act : Act n α → Nat
  | .remote l => 4 + 10 * l.length
  | .local _ => 1

def acts (l : List (Act n α)) : Nat := (l.map act).sum

def client (x : Client n α β) : Nat := acts x.acts + phase x.phase

def listener : Listener n α β → Nat
  | .idle => 0
  | .sized _ _ => 6
  | .got _ _ => 5
  | .sendSize _ _ _ => 3
  | .sendData _ _ _ => 1

end Ends

/-- How much is left to do. -/
def left (st : St n L α β W) : Nat :=
  (∑ c, Ends.client (st.client c)) + (∑ s, ∑ j, Ends.listener (st.listener s j)) + ∑ c, ∑ s, Ends.pair (st.pair c s)

theorem sum_change {k : Nat} {f g : Fin k → Nat} (i : Fin k) (h : ∀ j, j ≠ i → g j = f j) : (∑ j, g j) + f i = (∑ j, f j) + g i := by
  rw [← Finset.add_sum_erase _ f (Finset.mem_univ i), ← Finset.add_sum_erase _ g (Finset.mem_univ i),
    Finset.sum_congr rfl (g := fun j => f j) (fun j hj => h j (Finset.ne_of_mem_erase hj))]
  omega

theorem left_client (st : St n L α β W) (c : Fin n) (x : Client n α β) :
    left (st.setClient c x) + Ends.client (st.client c) = left st + Ends.client x := by
  have := sum_change (f := fun i => Ends.client (st.client i)) (g := fun i => Ends.client ((st.setClient c x).client i)) c
    (fun j hj => by simp only [St.setClient]; rw [update_of_ne hj])
  simp only [St.setClient, update_self] at this
  simp only [left, St.setClient]
  omega

theorem left_phase (st : St n L α β W) (c : Fin n) (x : Phase n α β) :
    left (st.setPhase c x) + Ends.phase (st.client c).phase = left st + Ends.phase x := by
  have := left_client st c { st.client c with phase := x }
  simp only [Ends.client] at this
  simp only [St.setPhase]
  omega

theorem left_listener (st : St n L α β W) (s : Fin n) (j : Fin L) (x : Listener n α β) :
    left (st.setListener s j x) + Ends.listener (st.listener s j) = left st + Ends.listener x := by
  have h1 := sum_change (f := fun i => ∑ j, Ends.listener (st.listener i j)) (g := fun i => ∑ k, Ends.listener ((st.setListener s j x).listener i k)) s
    (fun j hj => by simp only [St.setListener]; rw [update_of_ne hj])
  have h2 := sum_change (f := fun i => Ends.listener (st.listener s i)) (g := fun i => Ends.listener ((st.setListener s j x).listener s i)) j
    (fun j hj => by simp only [St.setListener]; rw [update_self, update_of_ne hj])
  simp only [St.setListener, update_self] at h1 h2
  simp only [left, St.setListener]
  omega

theorem left_pair (st : St n L α β W) (c s : Fin n) (x : Pair α β) :
    left (st.setPair c s x) + Ends.pair (st.pair c s) = left st + Ends.pair x := by
  have h1 := sum_change (f := fun i => ∑ j, Ends.pair (st.pair i j)) (g := fun i => ∑ j, Ends.pair ((st.setPair c s x).pair i j)) c
    (fun j hj => by simp only [St.setPair]; rw [update_of_ne hj])
  have h2 := sum_change (f := fun i => Ends.pair (st.pair c i)) (g := fun i => Ends.pair ((st.setPair c s x).pair c i)) s
    (fun j hj => by simp only [St.setPair]; rw [update_self, update_of_ne hj])
  simp only [St.setPair, update_self] at h1 h2
  simp only [left, St.setPair]
  omega

theorem chan_post {α : Type} (c : Chan α) (a : α) : Ends.chan (c.post a) ≤ Ends.chan c + 1 := by
  simp only [Ends.chan, Chan.post, List.length_append, List.length_cons, List.length_nil]
  omega

theorem chan_take {α : Type} {c : Chan α} {a : α} (h : c.next? = some a) : Ends.chan c.take + 1 = Ends.chan c := by
  have := (List.getElem?_eq_some_iff.mp h).1
  simp only [Ends.chan, Chan.take]
  omega

theorem slots_setSlot {l : List (Fin n × α × Slot β)} {s : Fin n} {p : α} {y : Slot β} (hn : (l.map Prod.fst).Nodup)
    (h : slotOf l s = some (p, y)) (x : Slot β) : Ends.slots (setSlot l s x) + Ends.slot y = Ends.slots l + Ends.slot x := by
  induction l with
  | nil => cases h
  | cons z l ih =>
    rw [slotOf_cons] at h
    rw [List.map_cons, List.nodup_cons] at hn
    simp only [setSlot, List.map_cons, Ends.slots, List.sum_cons] at ih ⊢
    split at h
    · rename_i hz
      have h := Option.some.inj h
      have : l.map (fun y => if y.1 = s then (y.1, y.2.1, x) else y) = l := by
        conv => rhs; rw [← List.map_id l]
        refine List.map_congr_left (fun y hy => ?_)
        rw [if_neg]
        · rfl
        · intro e
          exact hn.1 (hz.trans e.symm ▸ List.mem_map_of_mem hy)
      rw [this, if_pos hz, h]
      simp only
      omega
    · rename_i hz
      have := ih hn.2 h
      rw [if_neg hz]
      omega

theorem slots_todo (l : List (Fin n × α)) : Ends.slots (β := β) (l.map (fun x => (x.1, x.2, .todo))) = 10 * l.length := by
  induction l with
  | nil => rfl
  | cons y l ih =>
    simp only [Ends.slots, List.map_cons, List.sum_cons, List.length_cons, Ends.slot] at ih ⊢
    omega

theorem fail_bad {x : St n L α β W} (hb : st'.bad = false) (e : some x.fail = some st') : False := by
  have := Option.some.inj e
  rw [← this] at hb
  cases hb

theorem client_lt {c : Fin n} {x : Client n α β} (h : Ends.client x < Ends.client (st.client c)) : left (st.setClient c x) < left st := by
  have := left_client st c x
  omega

theorem phase_lt {c : Fin n} {x : Phase n α β} (h : Ends.phase x < Ends.phase (st.client c).phase) : left (st.setPhase c x) < left st := by
  have := left_phase st c x
  omega

theorem phase_pair_lt {c s : Fin n} {x : Phase n α β} {p : Pair α β}
    (h : Ends.phase x + Ends.pair p < Ends.phase (st.client c).phase + Ends.pair (st.pair c s)) :
    left ((st.setPair c s p).setPhase c x) < left st := by
  have h1 := left_phase (st.setPair c s p) c x
  have h2 := left_pair st c s p
  rw [show (st.setPair c s p).client = st.client from rfl] at h1
  omega

theorem listener_pair_lt {d s : Fin n} {j : Fin L} {x : Listener n α β} {p : Pair α β}
    (h : Ends.listener x + Ends.pair p < Ends.listener (st.listener s j) + Ends.pair (st.pair d s)) :
    left ((st.setPair d s p).setListener s j x) < left st := by
  have h1 := left_listener (st.setPair d s p) s j x
  have h2 := left_pair st d s p
  rw [show (st.setPair d s p).listener = st.listener from rfl] at h1
  omega

theorem left_world (st : St n L α β W) (w : W) (log : List (Entry n α β)) : left { st with world := w, log := log } = left st := rfl

theorem left_start_step (c : Fin n) (hst : start sys st c = some st') (hb : st'.bad = false) : left st' < left st := by
  unfold start at hst
  split at hst
  · rename_i l acts hp ha
    rw [← Option.some.inj hst]
    refine client_lt ?_
    simp only [Ends.client, ha, hp, Ends.acts, List.map_cons, List.sum_cons, Ends.act, Ends.phase, Ends.stage, slots_todo]
    omega
  · rename_i p acts hp ha
    split at hst
    · rw [← Option.some.inj hst, left_world]
      refine client_lt ?_
      simp only [Ends.client, ha, hp, Ends.acts, List.map_cons, List.sum_cons, Ends.act, Ends.phase]
      omega
    · exact (fail_bad hb hst).elim
  · exact (Option.some_ne_none _ hst.symm).elim

theorem left_post_step (h : Inv sys Good w prog H st) (c s : Fin n) (hst : post sys st c s = some st') : left st' < left st := by
  unfold post at hst
  split at hst
  · rename_i slots hp
    have hn := ((h.client c).nodup _ _ hp).1
    split at hst
    · rename_i p hv
      rw [← Option.some.inj hst]
      refine phase_pair_lt ?_
      have h3 := slots_setSlot hn hv (.half (st.pair c s).sizeReq.msgs.length)
      have h4 := chan_post (st.pair c s).sizeReq (sys.reqSize p)
      rw [hp]
      simp only [Ends.phase, Ends.pair, Ends.slot] at h3 ⊢
      omega
    · rename_i p q hv
      rw [← Option.some.inj hst]
      refine phase_pair_lt ?_
      have h3 := slots_setSlot hn hv (.full q (st.pair c s).dataReq.msgs.length)
      have h4 := chan_post (st.pair c s).dataReq p
      rw [hp]
      simp only [Ends.phase, Ends.pair, Ends.slot] at h3 ⊢
      omega
    · exact (Option.some_ne_none _ hst.symm).elim
  · exact (Option.some_ne_none _ hst.symm).elim

theorem left_sent_step (c : Fin n) (hst : sent sys st c = some st') : left st' < left st := by
  unfold sent at hst
  split at hst
  · rename_i slots hp
    split at hst
    · rw [← Option.some.inj hst]
      refine phase_lt ?_
      rw [hp]
      simp only [Ends.phase, Ends.stage]
      omega
    · exact (Option.some_ne_none _ hst.symm).elim
  · exact (Option.some_ne_none _ hst.symm).elim

theorem left_size_step (h : Inv sys Good w prog H st) (c s : Fin n) (hst : size st c s = some st') : left st' < left st := by
  unfold size at hst
  split at hst
  · rename_i slots hp
    have hn := ((h.client c).nodup _ _ hp).1
    split at hst
    · rename_i p q q' hv
      simp only at hst
      split at hst
      · rename_i len hlen
        rw [← Option.some.inj hst]
        refine phase_pair_lt ?_
        have h3 := slots_setSlot hn hv (.sized len)
        have h4 := chan_take hlen
        rw [hp]
        simp only [Ends.phase, Ends.pair, Ends.slot] at h3 ⊢
        omega
      · exact (Option.some_ne_none _ hst.symm).elim
    · exact (Option.some_ne_none _ hst.symm).elim
  · exact (Option.some_ne_none _ hst.symm).elim

theorem left_sized_step (c : Fin n) (hst : sized st c = some st') : left st' < left st := by
  unfold sized at hst
  split at hst
  · rename_i slots hp
    split at hst
    · rw [← Option.some.inj hst]
      refine phase_lt ?_
      rw [hp]
      simp only [Ends.phase, Ends.stage]
      omega
    · exact (Option.some_ne_none _ hst.symm).elim
  · exact (Option.some_ne_none _ hst.symm).elim

theorem left_data_step (h : Inv sys Good w prog H st) (c s : Fin n) (hst : data sys st c s = some st') (hb : st'.bad = false) :
    left st' < left st := by
  unfold data at hst
  split at hst
  · rename_i slots hp
    have hn := ((h.client c).nodup _ _ hp).1
    split at hst
    · rename_i p len hv
      simp only at hst
      split at hst
      · rename_i r hr
        split at hst
        · rw [← Option.some.inj hst]
          refine phase_pair_lt ?_
          have h3 := slots_setSlot hn hv (.done r)
          have h4 := chan_take hr
          rw [hp]
          simp only [Ends.phase, Ends.pair, Ends.slot] at h3 ⊢
          omega
        · exact (fail_bad hb hst).elim
      · exact (Option.some_ne_none _ hst.symm).elim
    · exact (Option.some_ne_none _ hst.symm).elim
  · exact (Option.some_ne_none _ hst.symm).elim

theorem left_finish_step (c : Fin n) (hst : finish st c = some st') : left st' < left st := by
  unfold finish at hst
  split at hst
  · rename_i slots hp
    split at hst
    · rw [← Option.some.inj hst]
      refine client_lt ?_
      simp only [Ends.client, hp, Ends.phase, Ends.stage]
      omega
    · exact (Option.some_ne_none _ hst.symm).elim
  · exact (Option.some_ne_none _ hst.symm).elim

theorem left_listen_step (s : Fin n) (j : Fin L) (c : Fin n) (hst : listen st s j c = some st') : left st' < left st := by
  unfold listen at hst
  split at hst
  · rename_i hi
    simp only at hst
    split at hst
    · rename_i len hlen
      rw [← Option.some.inj hst]
      refine listener_pair_lt ?_
      have h4 := chan_take hlen
      rw [hi]
      simp only [Ends.listener, Ends.pair]
      omega
    · exact (Option.some_ne_none _ hst.symm).elim
  · exact (Option.some_ne_none _ hst.symm).elim

theorem left_listener_step (s : Fin n) (j : Fin L) (hst : listener sys st s j = some st') (hb : st'.bad = false) : left st' < left st := by
  unfold listener at hst
  split at hst
  · exact (Option.some_ne_none _ hst.symm).elim
  · rename_i c len hi
    simp only at hst
    split at hst
    · rename_i p hp
      split at hst
      · rw [← Option.some.inj hst]
        refine listener_pair_lt ?_
        have h4 := chan_take hp
        rw [hi]
        simp only [Ends.listener, Ends.pair]
        omega
      · exact (fail_bad hb hst).elim
    · exact (Option.some_ne_none _ hst.symm).elim
  · rename_i c p hi
    split at hst
    · rename_i w' d r hw
      simp only at hst
      rw [← Option.some.inj hst, left_world]
      refine listener_pair_lt ?_
      have h4 := chan_post (st.pair d s).sizeRes (sys.resSize r)
      rw [hi]
      simp only [Ends.listener, Ends.pair]
      omega
    · exact (fail_bad hb hst).elim
  · rename_i d r q hi
    simp only at hst
    split at hst
    · rw [← Option.some.inj hst]
      refine listener_pair_lt ?_
      have h4 := chan_post (st.pair d s).dataRes r
      rw [hi]
      simp only [Ends.listener, Ends.pair]
      omega
    · exact (Option.some_ne_none _ hst.symm).elim
  · rename_i d len q hi
    split at hst
    · rw [← Option.some.inj hst]
      have h1 := left_listener st s j .idle
      rw [hi] at h1
      simp only [Ends.listener] at h1
      omega
    · exact (Option.some_ne_none _ hst.symm).elim

theorem left_step (h : Inv sys Good w prog H st) {l : Label n L} (hst : step sys st l = some st') (hb : st'.bad = false) :
    left st' < left st := by
  unfold step at hst
  rw [h.bad] at hst
  cases l with
  | start c => exact left_start_step c hst hb
  | post c s => exact left_post_step h c s hst
  | sent c => exact left_sent_step c hst
  | size c s => exact left_size_step h c s hst
  | sized c => exact left_sized_step c hst
  | data c s => exact left_data_step h c s hst hb
  | finish c => exact left_finish_step c hst
  | listen s j c => exact left_listen_step s j c hst
  | listener s j => exact left_listener_step s j hst hb

theorem left_run (hans : Answers sys prog Good) (hd : Distinct prog) (ls : List (Label n L)) {st : St n L α β W} {H : Fin n → Fin n → List (α × β)}
    (h : Inv sys Good w prog H st) (hst : run sys st ls = some st') : ls.length + left st' ≤ left st := by
  induction ls generalizing st H with
  | nil => cases hst; simp
  | cons l ls ih =>
    simp only [run, Option.bind_eq_bind, Option.bind_eq_some_iff] at hst
    obtain ⟨u, hu, hst⟩ := hst
    obtain ⟨H', h'⟩ := inv_step hans hd h hu
    have h1 := ih h' hst
    have h2 := left_step h hu h'.bad
    rw [List.length_cons]
    omega

theorem left_init (w : W) (prog : Fin n → List (Act n α)) : left (L := L) (β := β) (init w prog) = stepBound prog := by
  simp only [left, stepBound, init, Ends.client, Ends.acts, Ends.phase, Ends.listener, Ends.pair, Pair.init, Chan.empty, Ends.chan,
    Finset.sum_const_zero, Nat.add_zero, List.length_nil, Nat.sub_self, Nat.mul_zero]
  refine Finset.sum_congr rfl (fun c _ => ?_)
  congr 1

/-- From any state that is reached, some execution leads to a state in which nothing is possible. -/
theorem run_stuck (hans : Answers sys prog Good) (hd : Distinct prog) (k : Nat) {st : St n L α β W} {H : Fin n → Fin n → List (α × β)}
    (h : Inv sys Good w prog H st) (hk : left st ≤ k) : ∃ ls st', run sys st ls = some st' ∧ Stuck sys st' := by
  induction k generalizing st H with
  | zero =>
    refine ⟨[], st, rfl, fun l => ?_⟩
    cases e : step sys st l with
    | none => rfl
    | some u =>
      obtain ⟨H', h'⟩ := inv_step hans hd h e
      have := left_step h e h'.bad
      omega
  | succ k ih =>
    by_cases hs : Stuck sys st
    · exact ⟨[], st, rfl, hs⟩
    · simp only [Stuck, not_forall] at hs
      obtain ⟨l, hl⟩ := hs
      obtain ⟨u, e⟩ := Option.ne_none_iff_exists'.mp hl
      obtain ⟨H', h'⟩ := inv_step hans hd h e
      have := left_step h e h'.bad
      obtain ⟨ls, st', h1, h2⟩ := ih h' (by omega)
      exact ⟨l :: ls, st', by simp [run, e, h1], h2⟩

end Hx.Mpi

import Verif.Spec.Queue
import Mathlib.Tactic.SplitIfs

/-!
# Lemmas about queueing
-/

namespace Hx.Queue
open Hx Msg Spec

theorem setupPacket_cases {α : Type} (c : Cfg) (size : α → Nat) (add : Nat) (q : List (List α)) :
    setupPacket c size add q = q ++ [[]] ∨
    ∃ init last, q = init ++ [last] ∧ setupPacket c size add q = init ++ [last] ∧ last.length < c.maxOps ∧
      (c.maxSize ≠ 0 → headerSize + (last.map size).sum + add ≤ c.maxSize) := by
  rcases List.eq_nil_or_concat q with rfl | ⟨init, last, rfl⟩
  · left; rfl
  · simp only [setupPacket, List.concat_eq_append, List.getLast?_concat]
    split_ifs with h1 h2
    · left; rfl
    · left; rfl
    · right
      exact ⟨init, last, rfl, rfl, by omega, fun h => Nat.le_of_not_lt (fun h3 => h2 ⟨h, h3⟩)⟩

theorem addLast_concat {α : Type} (c : Cfg) (x : α) (init : List (List α)) (last : List α) :
    addLast c x (init ++ [last]) = if c.maxOps ≤ last.length then .ub else .ok (init ++ [last ++ [x]]) := by
  simp [addLast]

/-- Everything about one `enqueue`. -/
theorem enqueue_ok {α : Type} {c : Cfg} {size : α → Nat} {add : Nat} {x : α} {id : Int}
    {qs qs' : List (List (List α))} (h : enqueue c size add x id qs = .ok qs') :
    qs'.length = qs.length ∧ id.toNat < qs.length ∧ 0 < c.maxOps ∧
    (∀ ds, queued qs' ds = queued qs ds ++ if ds = id.toNat then [x] else []) ∧
    ∀ P : List α → Prop, P [x] →
      (∀ l, l.length < c.maxOps → (c.maxSize ≠ 0 → headerSize + (l.map size).sum + add ≤ c.maxSize) →
        P l → P (l ++ [x])) →
      (∀ t ∈ qs, ∀ pk ∈ t, P pk) → ∀ t ∈ qs', ∀ pk ∈ t, P pk := by
  unfold enqueue at h
  cases hq : qs[id.toNat]? with
  | none => rw [hq] at h; cases h
  | some q =>
    rw [hq] at h
    obtain ⟨hlt, hget⟩ := List.getElem?_eq_some_iff.mp hq
    have key : ∀ init last, setupPacket c size add q = init ++ [last] →
        last.length < c.maxOps ∧ qs' = qs.set id.toNat (init ++ [last ++ [x]]) := by
      intro init last he
      simp only [he, addLast_concat] at h
      split_ifs at h with h1
      · cases h
      · simp only [Out.ok_bind, Out.ok.injEq] at h
        exact ⟨by omega, h.symm⟩
    have hq' : queued qs id.toNat = q.flatten := by simp [queued, List.getD, hq]
    rcases setupPacket_cases c size add q with hs | ⟨init, last, hqe, hs, hlen, hsz⟩
    · obtain ⟨h1, rfl⟩ := key q [] hs
      refine ⟨by simp, hlt, by simpa using h1, ?_, ?_⟩
      · intro ds
        by_cases hd : ds = id.toNat
        · subst hd
          rw [hq']
          simp [queued, List.getD, hlt]
        · simp [queued, List.getD, hd, List.getElem?_set_ne (Ne.symm hd)]
      · intro P h0 _ hall t ht pk hpk
        rcases List.mem_or_eq_of_mem_set ht with ht | rfl
        · exact hall t ht pk hpk
        · rcases List.mem_append.mp hpk with hpk | hpk
          · exact hall q (List.mem_of_getElem? hq) pk hpk
          · simp at hpk; subst hpk; exact h0
    · obtain ⟨h1, rfl⟩ := key init last hs
      refine ⟨by simp, hlt, by omega, ?_, ?_⟩
      · intro ds
        by_cases hd : ds = id.toNat
        · subst hd
          rw [hq', hqe]
          simp [queued, List.getD, hlt]
        · simp [queued, List.getD, hd, List.getElem?_set_ne (Ne.symm hd)]
      · intro P _ hstep hall t ht pk hpk
        have hqm := List.mem_of_getElem? hq
        rcases List.mem_or_eq_of_mem_set ht with ht | rfl
        · exact hall t ht pk hpk
        · rcases List.mem_append.mp hpk with hpk | hpk
          · exact hall q hqm pk (by rw [hqe]; exact List.mem_append_left _ hpk)
          · simp at hpk; subst hpk
            exact hstep last hlen hsz (hall q hqm last (by rw [hqe]; simp))

theorem enqueue_defined {α : Type} {c : Cfg} (size : α → Nat) (add : Nat) (x : α) {id : Int}
    {qs : List (List (List α))} (h0 : 0 < c.maxOps) (hid : id.toNat < qs.length) :
    ∃ qs', enqueue c size add x id qs = .ok qs' := by
  unfold enqueue
  rw [List.getElem?_eq_getElem hid]
  rcases setupPacket_cases c size add qs[id.toNat] with hs | ⟨init, last, _, hs, hlen, _⟩
  · simp only [hs, addLast_concat, List.length_nil]
    rw [if_neg (by omega)]
    exact ⟨_, rfl⟩
  · simp only [hs, addLast_concat]
    rw [if_neg (by omega)]
    exact ⟨_, rfl⟩

/-! ## The relation between queues before and after -/

theorem ext_refl (hash : Bytes → Bytes → Out Int) (q : Queues) : Extends hash [] q q := by
  refine ⟨fun ds => ?_, fun ds => ?_, fun ds => ?_, fun ds => ?_, fun ds => ?_, ?_⟩ <;>
    simp [putsFor, getsFor, getopsFor, delsFor, histsFor, putNumber]

theorem ext_trans {hash : Bytes → Bytes → Out Int} {l l' : List Op} {q q' q'' : Queues}
    (h : Extends hash l q q') (h' : Extends hash l' q' q'') : Extends hash (l ++ l') q q'' := by
  refine ⟨fun ds => ?_, fun ds => ?_, fun ds => ?_, fun ds => ?_, fun ds => ?_, ?_⟩
  · rw [h'.puts, h.puts]; simp [putsFor]
  · rw [h'.gets, h.gets]; simp [getsFor]
  · rw [h'.getops, h.getops]; simp [getopsFor]
  · rw [h'.dels, h.dels]; simp [delsFor]
  · rw [h'.hists, h.hists]; simp [histsFor]
  · rw [h'.count, h.count]; simp [putNumber]; omega

/-- What the size check forgets about an operation of a request: the client's addresses and the
fields that are not blobs. -/
def slack : ReqBody → Nat
  | .put _ => 16 | .get _ => 20 | .getop _ => 16 | .del _ => 16 | .hist _ => 0

/-- What queueing guarantees of a packet. -/
structure Limited (c : Cfg) (b : ReqBody) : Prop where
  pos : 0 < b.count
  ops : b.count ≤ c.maxOps
  size : c.maxSize ≠ 0 → 2 ≤ b.count → headerSize + b.size ≤ c.maxSize + slack b

/-- What one call does. -/
structure Step (c : Cfg) (l : List Op) (q q' : Queues) : Prop where
  ext : Extends c.hash l q q'
  lim : AllPackets (Limited c) q → AllPackets (Limited c) q'
  sized : ∀ n, Sized n q → Sized n q'

theorem step_refl (c : Cfg) (q : Queues) : Step c [] q q := ⟨ext_refl _ q, id, fun _ => id⟩

theorem step_trans {c : Cfg} {l l' : List Op} {q q' q'' : Queues} (h : Step c l q q') (h' : Step c l' q' q'') :
    Step c (l ++ l') q q'' :=
  ⟨ext_trans h.ext h'.ext, fun x => h'.lim (h.lim x), fun n x => h'.sized n (h.sized n x)⟩

theorem hashOf_ok {c : Cfg} {s p : Blob} {id : Int} (h : hashOf c s p = .ok id) : c.hash s.bytes p.bytes = .ok id := by
  unfold hashOf at h
  split_ifs at h
  · exact h

theorem home_some {c : Cfg} {s p : Blob} {id : Int} (h : hashOf c s p = .ok id) (h0 : ¬ id < 0) :
    home c.hash s p = some id.toNat := by
  simp [home, hashOf_ok h, h0]

theorem home_none {c : Cfg} {s p : Blob} {id : Int} (h : hashOf c s p = .ok id) (h0 : id < 0) :
    home c.hash s p = none := by
  simp [home, hashOf_ok h, h0]

theorem bind_ok {α β : Type} {x : Out α} {f : α → Out β} {b : β} (h : (x >>= f) = .ok b) :
    ∃ a, x = .ok a ∧ f a = .ok b := by
  cases x with
  | ok a => exact ⟨a, rfl, h⟩
  | err => cases h
  | ub => cases h

theorem step_put {c : Cfg} {s p o : Blob} {id : Int} {q : Queues} {puts : List (List (List PutItem))}
    (h : hashOf c s p = .ok id) (h0 : ¬ id < 0)
    (he : enqueue c PutItem.size (blobSize s true + blobSize p true + blobSize o true) (PutItem.make s p o) id q.puts
      = .ok puts) :
    Step c [.put s p o] q { q with puts := puts, putCount := q.putCount + 1 } := by
  obtain ⟨hl, _, hm, hc, hP⟩ := enqueue_ok he
  have hd := home_some h h0
  refine ⟨⟨fun ds => ?_, fun ds => ?_, fun ds => ?_, fun ds => ?_, fun ds => ?_, rfl⟩, fun hq => ?_, fun n hn => ?_⟩
  · rw [hc]
    by_cases hds : ds = id.toNat
    · simp [putsFor, dest, hd, hds, PutItem.make]
    · simp [putsFor, dest, hd, hds, Ne.symm hds]
  · by_cases hds : id.toNat = ds <;> simp [getsFor, dest, hd, hds]
  · by_cases hds : id.toNat = ds <;> simp [getopsFor, dest, hd, hds]
  · by_cases hds : id.toNat = ds <;> simp [delsFor, dest, hd, hds]
  · by_cases hds : id.toNat = ds <;> simp [histsFor, dest, hd, hds]
  · refine ⟨?_, hq.gets, hq.getops, hq.dels, hq.hists⟩
    refine hP (fun l => Limited c (.put l)) ⟨by simp [ReqBody.count], by simp [ReqBody.count]; omega, ?_⟩ ?_ hq.puts
    · intro _ h2; simp [ReqBody.count] at h2
    · intro l h1 h2 _
      refine ⟨by simp [ReqBody.count], by simp [ReqBody.count]; omega, fun h3 _ => ?_⟩
      have := h2 h3
      simp only [ReqBody.size, List.map_append, List.sum_append, List.map_cons, List.map_nil, List.sum_cons,
        List.sum_nil, slack, PutItem.size, PutItem.make] at this ⊢
      omega
  · obtain ⟨h1, h2⟩ := hn
    exact ⟨by simpa [hl] using h1, h2⟩

theorem step_get {c : Cfg} {a : GetArg} {id : Int} {q : Queues} {gets : List (List (List GetItem))}
    (h : hashOf c a.s a.p = .ok id) (h0 : ¬ id < 0)
    (he : enqueue c GetItem.size (blobSize a.s true + blobSize a.p true) (GetItem.make a.s a.p a.t) id q.gets
      = .ok gets) :
    Step c [.get a.s a.p a.t] q { q with gets := gets } := by
  obtain ⟨hl, _, hm, hc, hP⟩ := enqueue_ok he
  have hd := home_some h h0
  refine ⟨⟨fun ds => ?_, fun ds => ?_, fun ds => ?_, fun ds => ?_, fun ds => ?_, rfl⟩, fun hq => ?_, fun n hn => ?_⟩
  · by_cases hds : id.toNat = ds <;> simp [putsFor, dest, hd, hds]
  · rw [hc]
    by_cases hds : ds = id.toNat
    · simp [getsFor, dest, hd, hds, GetItem.make]
    · simp [getsFor, dest, hd, hds, Ne.symm hds]
  · by_cases hds : id.toNat = ds <;> simp [getopsFor, dest, hd, hds]
  · by_cases hds : id.toNat = ds <;> simp [delsFor, dest, hd, hds]
  · by_cases hds : id.toNat = ds <;> simp [histsFor, dest, hd, hds]
  · refine ⟨hq.puts, ?_, hq.getops, hq.dels, hq.hists⟩
    refine hP (fun l => Limited c (.get l)) ⟨by simp [ReqBody.count], by simp [ReqBody.count]; omega, ?_⟩ ?_ hq.gets
    · intro _ h2; simp [ReqBody.count] at h2
    · intro l h1 h2 _
      refine ⟨by simp [ReqBody.count], by simp [ReqBody.count]; omega, fun h3 _ => ?_⟩
      have := h2 h3
      simp only [ReqBody.size, List.map_append, List.sum_append, List.map_cons, List.map_nil, List.sum_cons,
        List.sum_nil, slack, GetItem.size, GetItem.make] at this ⊢
      omega
  · obtain ⟨h1, h2, h3⟩ := hn
    exact ⟨h1, by simpa [hl] using h2, h3⟩

theorem step_getop {c : Cfg} {a : GetOpArg} {id : Int} {q : Queues} {getops : List (List (List GetOpItem))}
    (h : hashOf c a.s a.p = .ok id) (h0 : ¬ id < 0)
    (he : enqueue c GetOpItem.size (blobSize a.s true + blobSize a.p true) ⟨a.op, a.s, a.p, a.t, a.n⟩ id q.getops
      = .ok getops) :
    Step c [.getop a.op a.s a.p a.t a.n] q { q with getops := getops } := by
  obtain ⟨hl, _, hm, hc, hP⟩ := enqueue_ok he
  have hd := home_some h h0
  refine ⟨⟨fun ds => ?_, fun ds => ?_, fun ds => ?_, fun ds => ?_, fun ds => ?_, rfl⟩, fun hq => ?_, fun n hn => ?_⟩
  · by_cases hds : id.toNat = ds <;> simp [putsFor, dest, hd, hds]
  · by_cases hds : id.toNat = ds <;> simp [getsFor, dest, hd, hds]
  · rw [hc]
    by_cases hds : ds = id.toNat
    · simp [getopsFor, dest, hd, hds]
    · simp [getopsFor, dest, hd, hds, Ne.symm hds]
  · by_cases hds : id.toNat = ds <;> simp [delsFor, dest, hd, hds]
  · by_cases hds : id.toNat = ds <;> simp [histsFor, dest, hd, hds]
  · refine ⟨hq.puts, hq.gets, ?_, hq.dels, hq.hists⟩
    refine hP (fun l => Limited c (.getop l)) ⟨by simp [ReqBody.count], by simp [ReqBody.count]; omega, ?_⟩ ?_
      hq.getops
    · intro _ h2; simp [ReqBody.count] at h2
    · intro l h1 h2 _
      refine ⟨by simp [ReqBody.count], by simp [ReqBody.count]; omega, fun h3 _ => ?_⟩
      have := h2 h3
      simp only [ReqBody.size, List.map_append, List.sum_append, List.map_cons, List.map_nil, List.sum_cons,
        List.sum_nil, slack, GetOpItem.size] at this ⊢
      split_ifs <;> omega
  · obtain ⟨h1, h2, h3, h4⟩ := hn
    exact ⟨h1, h2, by simpa [hl] using h3, h4⟩

theorem step_del {c : Cfg} {a : DelArg} {id : Int} {q : Queues} {dels : List (List (List DelItem))}
    (h : hashOf c a.s a.p = .ok id) (h0 : ¬ id < 0)
    (he : enqueue c DelItem.size (blobSize a.s true + blobSize a.p true) (DelItem.make a.s a.p) id q.dels
      = .ok dels) :
    Step c [.del a.s a.p] q { q with dels := dels } := by
  obtain ⟨hl, _, hm, hc, hP⟩ := enqueue_ok he
  have hd := home_some h h0
  refine ⟨⟨fun ds => ?_, fun ds => ?_, fun ds => ?_, fun ds => ?_, fun ds => ?_, rfl⟩, fun hq => ?_, fun n hn => ?_⟩
  · by_cases hds : id.toNat = ds <;> simp [putsFor, dest, hd, hds]
  · by_cases hds : id.toNat = ds <;> simp [getsFor, dest, hd, hds]
  · by_cases hds : id.toNat = ds <;> simp [getopsFor, dest, hd, hds]
  · rw [hc]
    by_cases hds : ds = id.toNat
    · simp [delsFor, dest, hd, hds, DelItem.make]
    · simp [delsFor, dest, hd, hds, Ne.symm hds]
  · by_cases hds : id.toNat = ds <;> simp [histsFor, dest, hd, hds]
  · refine ⟨hq.puts, hq.gets, hq.getops, ?_, hq.hists⟩
    refine hP (fun l => Limited c (.del l)) ⟨by simp [ReqBody.count], by simp [ReqBody.count]; omega, ?_⟩ ?_ hq.dels
    · intro _ h2; simp [ReqBody.count] at h2
    · intro l h1 h2 _
      refine ⟨by simp [ReqBody.count], by simp [ReqBody.count]; omega, fun h3 _ => ?_⟩
      have := h2 h3
      simp only [ReqBody.size, List.map_append, List.sum_append, List.map_cons, List.map_nil, List.sum_cons,
        List.sum_nil, slack, DelItem.size, DelItem.make] at this ⊢
      omega
  · obtain ⟨h1, h2, h3, h4, h5⟩ := hn
    exact ⟨h1, h2, h3, by simpa [hl] using h4, h5⟩

theorem step_hist {c : Cfg} {a : HistArg} {q q' : Queues} {b : Bool} (h : histImpl c q a = .ok (q', b)) :
    Step c [.hist a.rs a.name] q q' ∧ b = true := by
  obtain ⟨hists, he, h⟩ := bind_ok h
  cases h
  refine ⟨?_, rfl⟩
  obtain ⟨hl, _, hm, hc, hP⟩ := enqueue_ok he
  refine ⟨⟨fun ds => ?_, fun ds => ?_, fun ds => ?_, fun ds => ?_, fun ds => ?_, rfl⟩, fun hq => ?_, fun n hn => ?_⟩
  · by_cases hds : a.rs.toNat = ds <;> simp [putsFor, dest, hds]
  · by_cases hds : a.rs.toNat = ds <;> simp [getsFor, dest, hds]
  · by_cases hds : a.rs.toNat = ds <;> simp [getopsFor, dest, hds]
  · by_cases hds : a.rs.toNat = ds <;> simp [delsFor, dest, hds]
  · rw [hc]
    by_cases hds : ds = a.rs.toNat
    · simp [histsFor, dest, hds]
    · simp [histsFor, dest, hds, Ne.symm hds]
  · refine ⟨hq.puts, hq.gets, hq.getops, hq.dels, ?_⟩
    refine hP (fun l => Limited c (.hist l)) ⟨by simp [ReqBody.count], by simp [ReqBody.count]; omega, ?_⟩ ?_ hq.hists
    · intro _ h2; simp [ReqBody.count] at h2
    · intro l h1 h2 _
      refine ⟨by simp [ReqBody.count], by simp [ReqBody.count]; omega, fun h3 _ => ?_⟩
      have := h2 h3
      simp only [ReqBody.size, List.map_append, List.sum_append, List.map_cons, List.map_nil, List.sum_cons,
        List.sum_nil, slack, histNameSize] at this ⊢
      omega
  · obtain ⟨h1, h2, h3, h4, h5⟩ := hn
    exact ⟨h1, h2, h3, h4, by simpa [hl] using h5⟩

/-! ## Loops and calls -/

/-- The triple an ordering makes. -/
def triple (a : PutArg) (x : (Role × Role × Role) × Nat) : Blob × Blob × Blob :=
  (pick a x.1.1, pick a x.1.2.1, pick a x.1.2.2)

theorem and_two_pow_eq_zero (n i : Nat) : n &&& 2 ^ i = 0 ↔ n.testBit i = false := by
  constructor
  · intro h
    have := congrArg (fun k => k.testBit i) h
    simpa using this
  · intro h
    apply Nat.eq_of_testBit_eq
    intro j
    by_cases hj : i = j
    · subst hj; simp [h]
    · simp [hj]

theorem putLoop_ok {c : Cfg} (a : PutArg) : ∀ (L : List ((Role × Role × Role) × Nat)) (q q' : Queues) (b : Bool),
    (∀ x ∈ L, permute (2 ^ x.2) a.s a.p a.o = some (triple a x)) →
    putLoop c a.s a.p a.o a.mask (L.map (fun x => 2 ^ x.2)) q = .ok (q', b) →
    Step c ((((L.filter (fun x => a.mask.testBit x.2)).map (triple a)).takeWhile
        (fun x => (home c.hash x.1 x.2.1).isSome)).map (fun x => .put x.1 x.2.1 x.2.2)) q q' ∧
      (b = true ↔ ∀ x ∈ (L.filter (fun x => a.mask.testBit x.2)).map (triple a), (home c.hash x.1 x.2.1).isSome) := by
  intro L
  induction L with
  | nil => intro q q' b _ h; cases h; exact ⟨step_refl c q, by simp⟩
  | cons x L ih =>
    intro q q' b hL h
    have hx := hL x (by simp)
    have hL' : ∀ y ∈ L, permute (2 ^ y.2) a.s a.p a.o = some (triple a y) := fun y hy => hL y (by simp [hy])
    simp only [List.map_cons, putLoop] at h
    by_cases hb : a.mask.testBit x.2 = false
    · rw [if_pos ((and_two_pow_eq_zero _ _).mpr hb)] at h
      rw [List.filter_cons_of_neg (by simp [hb])]
      exact ih q q' b hL' h
    · rw [if_neg (fun h' => hb ((and_two_pow_eq_zero _ _).mp h')), hx] at h
      rw [List.filter_cons_of_pos (by simpa using hb), List.map_cons]
      obtain ⟨id, hid, h⟩ := bind_ok h
      split_ifs at h with h0
      · cases h
        have hn : home c.hash (triple a x).1 (triple a x).2.1 = none := home_none hid h0
        rw [List.takeWhile_cons_of_neg (by rw [hn]; simp)]
        refine ⟨step_refl c q, ⟨fun h => (by cases h), fun h => ?_⟩⟩
        have := h (triple a x) (by simp)
        rw [hn] at this
        cases this
      · obtain ⟨puts, he, h⟩ := bind_ok h
        have hs : home c.hash (triple a x).1 (triple a x).2.1 = some id.toNat := home_some hid h0
        rw [List.takeWhile_cons_of_pos (by rw [hs]; rfl), List.map_cons]
        obtain ⟨i1, i2⟩ := ih _ q' b hL' h
        refine ⟨step_trans (step_put hid h0 he) i1, i2.trans ?_⟩
        simp only [List.mem_cons, forall_eq_or_imp]
        rw [hs]
        simp

theorem putImpl_ok {c : Cfg} {a : PutArg} {q q' : Queues} {b : Bool} (h : putImpl c q a = .ok (q', b)) :
    Step c (putOps c.hash a) q q' ∧ (b = true ↔ ∀ x ∈ wanted a, (home c.hash x.1 x.2.1).isSome) :=
  putLoop_ok a orderings.zipIdx q q' b (by
    intro x hx
    simp only [orderings, List.zipIdx_cons, List.zipIdx_nil, List.mem_cons, List.not_mem_nil, or_false] at hx
    rcases hx with rfl | rfl | rfl | rfl | rfl | rfl <;> rfl) h

theorem getImpl_ok {c : Cfg} {a : GetArg} {q q' : Queues} {b : Bool} (h : getImpl c q a = .ok (q', b)) :
    Step c (placed c.hash (.get a.s a.p a.t)) q q' ∧ (b = true ↔ (home c.hash a.s a.p).isSome) := by
  obtain ⟨id, hid, h⟩ := bind_ok h
  split_ifs at h with h0
  · cases h; simp [placed, dest, home_none hid h0, step_refl]
  · obtain ⟨gets, he, h⟩ := bind_ok h
    cases h
    simp [placed, dest, home_some hid h0, step_get hid h0 he]

theorem getOpImpl_ok {c : Cfg} {a : GetOpArg} {q q' : Queues} {b : Bool} (h : getOpImpl c q a = .ok (q', b)) :
    Step c (placed c.hash (.getop a.op a.s a.p a.t a.n)) q q' ∧ (b = true ↔ (home c.hash a.s a.p).isSome) := by
  obtain ⟨id, hid, h⟩ := bind_ok h
  split_ifs at h with h0
  · cases h; simp [placed, dest, home_none hid h0, step_refl]
  · obtain ⟨gets, he, h⟩ := bind_ok h
    cases h
    simp [placed, dest, home_some hid h0, step_getop hid h0 he]

theorem delImpl_ok {c : Cfg} {a : DelArg} {q q' : Queues} {b : Bool} (h : delImpl c q a = .ok (q', b)) :
    Step c (placed c.hash (.del a.s a.p)) q q' ∧ (b = true ↔ (home c.hash a.s a.p).isSome) := by
  obtain ⟨id, hid, h⟩ := bind_ok h
  split_ifs at h with h0
  · cases h; simp [placed, dest, home_none hid h0, step_refl]
  · obtain ⟨gets, he, h⟩ := bind_ok h
    cases h
    simp [placed, dest, home_some hid h0, step_del hid h0 he]

theorem bulk_ok {α : Type} {c : Cfg} {f : Queues → α → Out (Queues × Bool)} {g : α → List Op}
    (hf : ∀ q a q' b, f q a = .ok (q', b) → Step c (g a) q q') : ∀ (l : List α) (q q' : Queues),
    bulk f l q = .ok q' → Step c (l.flatMap g) q q' := by
  intro l
  induction l with
  | nil => intro q q' h; cases h; exact step_refl c q
  | cons a l ih =>
    intro q q' h
    obtain ⟨⟨q1, b⟩, h1, h⟩ := bind_ok h
    exact step_trans (hf _ _ _ _ h1) (ih _ _ h)

theorem given_iff (b : Blob) : given b = true ↔ Given b := by simp [given, Given]

theorem rsOk_iff (c : Cfg) (rs : Int) : rsOk c rs = true ↔ 0 ≤ rs ∧ rs < c.servers := by simp [rsOk]

theorem exec_ok {c : Cfg} {x : Call} {q q' : Queues} {b : Bool} (h : exec c q x = .ok (q', b)) :
    Step c (ops c.hash c.servers x) q q' := by
  cases x with
  | put a =>
    simp only [exec, Bool.and_eq_true, given_iff, and_assoc] at h
    simp only [ops]
    split_ifs at h ⊢
    · exact (putImpl_ok h).1
    · cases h; exact step_refl c q
  | get a =>
    simp only [exec, Bool.and_eq_true, given_iff] at h
    simp only [ops]
    split_ifs at h ⊢
    · exact (getImpl_ok h).1
    · cases h; exact step_refl c q
  | getop a =>
    simp only [exec, given_iff] at h
    simp only [ops]
    split_ifs at h ⊢
    · exact (getOpImpl_ok h).1
    · cases h; exact step_refl c q
  | del a =>
    simp only [exec, Bool.and_eq_true, given_iff] at h
    simp only [ops]
    split_ifs at h ⊢
    · exact (delImpl_ok h).1
    · cases h; exact step_refl c q
  | hist a =>
    simp only [exec, rsOk_iff] at h
    simp only [ops]
    split_ifs at h ⊢
    · exact (step_hist h).1
    · cases h; exact step_refl c q
  | bput arrays l =>
    simp only [exec] at h
    simp only [ops]
    split_ifs at h ⊢
    · obtain ⟨q1, h1, h⟩ := bind_ok h
      cases h
      exact bulk_ok (f := putImpl c) (g := putOps c.hash) (fun _ _ _ _ h => (putImpl_ok h).1) l q _ h1
    · cases h; exact step_refl c q
  | bget arrays l =>
    simp only [exec] at h
    simp only [ops]
    split_ifs at h ⊢
    · obtain ⟨q1, h1, h⟩ := bind_ok h
      cases h
      exact bulk_ok (f := getImpl c) (g := fun a => placed c.hash (.get a.s a.p a.t)) (fun _ _ _ _ h => (getImpl_ok h).1) l q _ h1
    · cases h; exact step_refl c q
  | bgetop arrays l =>
    simp only [exec] at h
    simp only [ops]
    split_ifs at h ⊢
    · obtain ⟨q1, h1, h⟩ := bind_ok h
      cases h
      exact bulk_ok (f := getOpImpl c) (g := fun a => placed c.hash (.getop a.op a.s a.p a.t a.n)) (fun _ _ _ _ h => (getOpImpl_ok h).1) l q _ h1
    · cases h; exact step_refl c q
  | bdel arrays l =>
    simp only [exec] at h
    simp only [ops]
    split_ifs at h ⊢
    · obtain ⟨q1, h1, h⟩ := bind_ok h
      cases h
      exact bulk_ok (f := delImpl c) (g := fun a => placed c.hash (.del a.s a.p)) (fun _ _ _ _ h => (delImpl_ok h).1) l q _ h1
    · cases h; exact step_refl c q
  | bhist arrays l =>
    simp only [exec, Bool.and_eq_true, List.all_eq_true, rsOk_iff] at h
    simp only [ops]
    split_ifs at h ⊢
    · obtain ⟨q1, h1, h⟩ := bind_ok h
      cases h
      have := bulk_ok (f := histImpl c) (g := fun a => [.hist a.rs a.name]) (fun _ _ _ _ h => (step_hist h).1) l q _ h1
      simpa [List.flatMap_singleton, List.map_eq_flatMap] using this
    · cases h; exact step_refl c q

theorem calls_ok {c : Cfg} : ∀ (l : List Call) (q q' : Queues), calls c true q l = .ok q' →
    Step c (l.flatMap (ops c.hash c.servers)) q q' := by
  intro l
  induction l with
  | nil => intro q q' h; cases h; exact step_refl c q
  | cons x l ih =>
    intro q q' h
    obtain ⟨⟨q1, b⟩, h1, h⟩ := bind_ok h
    exact step_trans (exec_ok h1) (ih _ _ h)

theorem allPackets_init (P : ReqBody → Prop) (n : Nat) : AllPackets P (Queues.init n) := by
  constructor <;> intro t ht pk hpk <;>
    (simp only [Queues.init, List.mem_replicate] at ht; rw [ht.2] at hpk; cases hpk)

theorem sized_init (n : Nat) : Sized n (Queues.init n) := by simp [Sized, Queues.init]

theorem queued_init {α : Type} (n ds : Nat) : queued (List.replicate n ([] : List (List α))) ds = [] := by
  simp only [queued, List.getD, List.getElem?_replicate]
  split <;> rfl

/-! ## Definedness -/

theorem hashOf_defined {c : Cfg} {total : Nat} (hh : HashOk c total) {s p : Blob} (hs : readable s = true)
    (hp : readable p = true) : ∃ i, hashOf c s p = .ok i ∧ i < total := by
  obtain ⟨i, h1, h2⟩ := hh s.bytes p.bytes
  exact ⟨i, by simp [hashOf, hs, hp, h1], h2⟩

theorem putLoop_defined {c : Cfg} {total : Nat} (h0 : 0 < c.maxOps) (hh : HashOk c total) {s p o : Blob}
    (hs : readable s = true) (hp : readable p = true) (ho : readable o = true) (mask : Nat) :
    ∀ (L : List Nat) (q : Queues), Sized total q → ∃ r, putLoop c s p o mask L q = .ok r := by
  intro L
  induction L with
  | nil => intro q _; exact ⟨_, rfl⟩
  | cons x L ih =>
    intro q hq
    simp only [putLoop]
    split_ifs with h1
    · exact ih q hq
    · cases hx : permute x s p o with
      | none => exact ⟨_, rfl⟩
      | some t =>
        obtain ⟨s', p', o'⟩ := t
        have hr : readable s' = true ∧ readable p' = true := by
          simp only [permute] at hx
          split_ifs at hx <;> simp only [Option.some.injEq, Prod.mk.injEq] at hx <;>
            obtain ⟨rfl, rfl, rfl⟩ := hx <;> simp [*]
        obtain ⟨i, hi, hlt⟩ := hashOf_defined hh hr.1 hr.2
        simp only [hi, Out.ok_bind]
        split_ifs with h2
        · exact ⟨_, rfl⟩
        · obtain ⟨qs', he⟩ := enqueue_defined (qs := q.puts) PutItem.size
            (blobSize s' true + blobSize p' true + blobSize o' true) (PutItem.make s' p' o') h0
            (show i.toNat < q.puts.length by rw [hq.1]; omega)
          rw [he]
          exact ih _ ((step_put hi h2 he).sized _ hq)

theorem getImpl_defined {c : Cfg} {total : Nat} (h0 : 0 < c.maxOps) (hh : HashOk c total) {a : GetArg} {q : Queues}
    (hs : readable a.s = true) (hp : readable a.p = true) (hq : Sized total q) : ∃ r, getImpl c q a = .ok r := by
  obtain ⟨i, hi, hlt⟩ := hashOf_defined hh hs hp
  simp only [getImpl, hi, Out.ok_bind]
  split_ifs with h2
  · exact ⟨_, rfl⟩
  · obtain ⟨qs', he⟩ := enqueue_defined (qs := q.gets) GetItem.size (blobSize a.s true + blobSize a.p true)
      (GetItem.make a.s a.p a.t) h0 (show i.toNat < q.gets.length by rw [hq.2.1]; omega)
    rw [he]; exact ⟨_, rfl⟩

theorem getOpImpl_defined {c : Cfg} {total : Nat} (h0 : 0 < c.maxOps) (hh : HashOk c total) {a : GetOpArg} {q : Queues}
    (hs : readable a.s = true) (hp : readable a.p = true) (hq : Sized total q) : ∃ r, getOpImpl c q a = .ok r := by
  obtain ⟨i, hi, hlt⟩ := hashOf_defined hh hs hp
  simp only [getOpImpl, hi, Out.ok_bind]
  split_ifs with h2
  · exact ⟨_, rfl⟩
  · obtain ⟨qs', he⟩ := enqueue_defined (qs := q.getops) GetOpItem.size (blobSize a.s true + blobSize a.p true)
      ⟨a.op, a.s, a.p, a.t, a.n⟩ h0 (show i.toNat < q.getops.length by rw [hq.2.2.1]; omega)
    rw [he]; exact ⟨_, rfl⟩

theorem delImpl_defined {c : Cfg} {total : Nat} (h0 : 0 < c.maxOps) (hh : HashOk c total) {a : DelArg} {q : Queues}
    (hs : readable a.s = true) (hp : readable a.p = true) (hq : Sized total q) : ∃ r, delImpl c q a = .ok r := by
  obtain ⟨i, hi, hlt⟩ := hashOf_defined hh hs hp
  simp only [delImpl, hi, Out.ok_bind]
  split_ifs with h2
  · exact ⟨_, rfl⟩
  · obtain ⟨qs', he⟩ := enqueue_defined (qs := q.dels) DelItem.size (blobSize a.s true + blobSize a.p true)
      (DelItem.make a.s a.p) h0 (show i.toNat < q.dels.length by rw [hq.2.2.2.1]; omega)
    rw [he]; exact ⟨_, rfl⟩

theorem histImpl_defined {c : Cfg} {total : Nat} (h0 : 0 < c.maxOps) {a : HistArg} {q : Queues}
    (hs : rsOk c a.rs = true) (ht : c.servers ≤ total) (hq : Sized total q) : ∃ r, histImpl c q a = .ok r := by
  obtain ⟨h1, h2⟩ := (rsOk_iff c a.rs).mp hs
  obtain ⟨qs', he⟩ := enqueue_defined (qs := q.hists) histNameSize (blobSize a.name false) a.name h0
    (show a.rs.toNat < q.hists.length by rw [hq.2.2.2.2]; omega)
  simp only [histImpl, he]; exact ⟨_, rfl⟩

theorem bulk_defined {α : Type} {total : Nat} {f : Queues → α → Out (Queues × Bool)} : ∀ (l : List α),
    (∀ q a, a ∈ l → Sized total q → ∃ r, f q a = .ok r) →
    (∀ q a r, f q a = .ok r → Sized total q → Sized total r.1) →
    ∀ q, Sized total q → ∃ q', bulk f l q = .ok q' := by
  intro l
  induction l with
  | nil => intro _ _ q _; exact ⟨q, rfl⟩
  | cons a l ih =>
    intro h1 h2 q hq
    obtain ⟨r, hr⟩ := h1 q a (by simp) hq
    simp only [bulk, hr, Out.ok_bind]
    exact ih (fun q b hb => h1 q b (by simp [hb])) h2 r.1 (h2 _ _ _ hr hq)

theorem exec_defined {c : Cfg} {total : Nat} (h0 : 0 < c.maxOps) (hh : HashOk c total) (ht : c.servers ≤ total)
    {x : Call} (hx : ReadableCall x) {q : Queues} (hq : Sized total q) : ∃ r, exec c q x = .ok r := by
  cases x with
  | put a =>
    simp only [exec]
    split_ifs
    · exact putLoop_defined h0 hh hx.1 hx.2.1 hx.2.2 _ _ q hq
    · exact ⟨_, rfl⟩
  | get a =>
    simp only [exec]
    split_ifs
    · exact getImpl_defined h0 hh hx.1 hx.2 hq
    · exact ⟨_, rfl⟩
  | getop a =>
    simp only [exec]
    split_ifs
    · exact getOpImpl_defined h0 hh hx.1 hx.2 hq
    · exact ⟨_, rfl⟩
  | del a =>
    simp only [exec]
    split_ifs
    · exact delImpl_defined h0 hh hx.1 hx.2 hq
    · exact ⟨_, rfl⟩
  | hist a =>
    simp only [exec]
    split_ifs with h
    · exact histImpl_defined h0 h ht hq
    · exact ⟨_, rfl⟩
  | bput arrays l =>
    simp only [exec]
    split_ifs
    · obtain ⟨q', h⟩ := bulk_defined (total := total) (f := putImpl c) l
        (fun q a ha hq => putLoop_defined h0 hh (hx a ha).1 (hx a ha).2.1 (hx a ha).2.2 _ _ q hq)
        (fun q a r h hq => (putImpl_ok (b := r.2) h).1.sized _ hq) q hq
      rw [h]; exact ⟨_, rfl⟩
    · exact ⟨_, rfl⟩
  | bget arrays l =>
    simp only [exec]
    split_ifs
    · obtain ⟨q', h⟩ := bulk_defined (total := total) (f := getImpl c) l
        (fun q a ha hq => getImpl_defined h0 hh (hx a ha).1 (hx a ha).2 hq)
        (fun q a r h hq => (getImpl_ok (b := r.2) h).1.sized _ hq) q hq
      rw [h]; exact ⟨_, rfl⟩
    · exact ⟨_, rfl⟩
  | bgetop arrays l =>
    simp only [exec]
    split_ifs
    · obtain ⟨q', h⟩ := bulk_defined (total := total) (f := getOpImpl c) l
        (fun q a ha hq => getOpImpl_defined h0 hh (hx a ha).1 (hx a ha).2 hq)
        (fun q a r h hq => (getOpImpl_ok (b := r.2) h).1.sized _ hq) q hq
      rw [h]; exact ⟨_, rfl⟩
    · exact ⟨_, rfl⟩
  | bdel arrays l =>
    simp only [exec]
    split_ifs
    · obtain ⟨q', h⟩ := bulk_defined (total := total) (f := delImpl c) l
        (fun q a ha hq => delImpl_defined h0 hh (hx a ha).1 (hx a ha).2 hq)
        (fun q a r h hq => (delImpl_ok (b := r.2) h).1.sized _ hq) q hq
      rw [h]; exact ⟨_, rfl⟩
    · exact ⟨_, rfl⟩
  | bhist arrays l =>
    simp only [exec, Bool.and_eq_true, List.all_eq_true]
    split_ifs with h
    · obtain ⟨q', h⟩ := bulk_defined (total := total) (f := histImpl c) l
        (fun q a ha hq => histImpl_defined h0 (h.2 a ha) ht hq)
        (fun q a r h hq => (step_hist (b := r.2) h).1.sized _ hq) q hq
      rw [h]; exact ⟨_, rfl⟩
    · exact ⟨_, rfl⟩

theorem calls_defined {c : Cfg} {total : Nat} (h0 : 0 < c.maxOps) (hh : HashOk c total) (ht : c.servers ≤ total) :
    ∀ (l : List Call), (∀ x ∈ l, ReadableCall x) → ∀ q, Sized total q → ∃ q', calls c true q l = .ok q' := by
  intro l
  induction l with
  | nil => intro _ q _; exact ⟨q, rfl⟩
  | cons x l ih =>
    intro hl q hq
    obtain ⟨r, hr⟩ := exec_defined h0 hh ht (hl x (by simp)) hq
    simp only [calls, call, if_true, hr, Out.ok_bind]
    exact ih (fun y hy => hl y (by simp [hy])) r.1 ((exec_ok (b := r.2) hr).sized _ hq)

end Hx.Queue

import Verif.Spec.ResultLists
import Mathlib.Data.List.Nodup
import Mathlib.Data.List.Perm.Basic
import Mathlib.Algebra.BigOperators.Group.List.Basic

/-!
# Who destructs results: lemmas for C90
-/

namespace Hx.Lists

open Hx.Spec.Lists

theorem take_some {k : Nat} {h : List (Nat × List Nat)} (hk : k ∈ h.map fun l => l.1) :
    ∃ c r, take k h = some (c, r) ∧ h.Perm ((k, c) :: r) := by
  induction h with
  | nil => cases hk
  | cons x h ih =>
    rw [take]
    split
    · rename_i he
      refine ⟨x.2, h, rfl, ?_⟩
      rw [← he]
    · rename_i he
      rw [List.map_cons, List.mem_cons] at hk
      obtain ⟨c, r, e, p⟩ := ih (hk.resolve_left fun h => he h.symm)
      refine ⟨c, x :: r, by rw [e]; rfl, ?_⟩
      exact (p.cons x).trans (List.Perm.swap ..)

/-- Memory in which the lists `L` exist, and each result is somewhere once. -/
structure Good (m : Mem) (L : List Nat) : Prop where
  keys : (m.heap.map fun l => l.1).Perm L
  nodup : L.Nodup
  known : ∀ k ∈ L, k < m.lists
  once : ∀ x, held m x + m.gone.count x = if x < m.made then 1 else 0

theorem Good.perm {m : Mem} {L L' : List Nat} (h : Good m L) (p : L.Perm L') : Good m L' :=
  ⟨h.keys.trans p, p.nodup_iff.mp h.nodup, fun k hk => h.known k (p.mem_iff.mpr hk), h.once⟩

theorem held_perm {h h' : List (Nat × List Nat)} (p : h.Perm h') (x : Nat) :
    (h.map fun l => l.2.count x).sum = (h'.map fun l => l.2.count x).sum :=
  (p.map _).sum_eq

theorem count_new (a n x : Nat) :
    (List.range' a n).count x = if a ≤ x ∧ x < a + n then 1 else 0 := by
  split
  · exact List.count_eq_one_of_mem List.nodup_range' (by rw [List.mem_range'_1]; assumption)
  · exact List.count_eq_zero.mpr (by rw [List.mem_range'_1]; assumption)

theorem Good.make {m : Mem} {L : List Nat} (h : Good m L) (n : Nat) :
    ∃ m', make n m = (m.lists, m') ∧ Good m' (m.lists :: L) := by
  refine ⟨_, rfl, ?_, ?_, ?_, ?_⟩
  · exact h.keys.cons _
  · exact List.nodup_cons.mpr ⟨fun hm => Nat.lt_irrefl _ (h.known _ hm), h.nodup⟩
  · intro k hk
    rcases List.mem_cons.mp hk with rfl | hk
    · exact Nat.lt_succ_self _
    · exact Nat.lt_succ_of_lt (h.known k hk)
  · intro x
    have h0 := h.once x
    simp only [held, List.map_cons, List.sum_cons] at h0 ⊢
    rw [count_new]
    split at h0 <;> split <;> split <;> omega

theorem Good.append {m : Mem} {L : List Nat} (h : Good m L) {d s : Nat} (hd : d ∈ L) (hs : s ∈ L)
    (hne : d ≠ s) : ∃ m', append d s m = .ok m' ∧ Good m' L ∧ m'.lists = m.lists := by
  obtain ⟨cd, r, e, p⟩ := take_some (h.keys.mem_iff.mpr hd)
  have hs' : s ∈ r.map fun l => l.1 := by
    have := (p.map fun l => l.1).mem_iff.mp (h.keys.mem_iff.mpr hs)
    rw [List.map_cons, List.mem_cons] at this
    exact this.resolve_left fun h => hne h.symm
  obtain ⟨cs, r', e', p'⟩ := take_some hs'
  have pp : m.heap.Perm ((d, cd) :: (s, cs) :: r') := p.trans (p'.cons _)
  refine ⟨{ m with heap := (d, cd ++ cs) :: (s, []) :: r' }, ?_, ⟨?_, h.nodup, h.known, ?_⟩, rfl⟩
  · simp only [Lists.append, e, e']
  · exact ((pp.map fun l => l.1).symm).trans h.keys
  · intro x
    have h0 := h.once x
    rw [held, held_perm pp] at h0
    rw [held]
    simp only [List.map_cons, List.sum_cons, List.count_append, List.count_nil] at h0 ⊢
    omega

theorem Good.add {m : Mem} {L : List Nat} (h : Good m L) {k : Nat} (hk : k ∈ L) (n : Nat) :
    ∃ m', add k n m = .ok m' ∧ Good m' L := by
  obtain ⟨c, r, e, p⟩ := take_some (h.keys.mem_iff.mpr hk)
  refine ⟨{ m with made := m.made + n, heap := (k, c ++ List.range' m.made n) :: r }, ?_,
    ?_, h.nodup, h.known, ?_⟩
  · simp only [Lists.add, e]
  · exact ((p.map fun l => l.1).symm).trans h.keys
  · intro x
    have h0 := h.once x
    rw [held, held_perm p] at h0
    rw [held]
    simp only [List.map_cons, List.sum_cons, List.count_append, count_new] at h0 ⊢
    split at h0 <;> split <;> split <;> omega

theorem Good.destruct {m : Mem} {L : List Nat} {k : Nat} (h : Good m (k :: L)) :
    ∃ m', destruct k m = .ok m' ∧ Good m' L ∧ m'.lists = m.lists := by
  obtain ⟨c, r, e, p⟩ := take_some (h.keys.mem_iff.mpr (List.mem_cons_self ..))
  refine ⟨{ m with heap := r, gone := m.gone ++ c }, ?_, ⟨?_, ?_, ?_, ?_⟩, rfl⟩
  · simp only [Lists.destruct, e]
  · exact (((p.map fun l => l.1).symm).trans h.keys).cons_inv
  · exact (List.nodup_cons.mp h.nodup).2
  · exact fun k' hk => h.known k' (List.mem_cons_of_mem _ hk)
  · intro x
    have h0 := h.once x
    rw [held, held_perm p] at h0
    rw [held]
    simp only [List.map_cons, List.sum_cons, List.count_append] at h0 ⊢
    omega

/-- `res->Append(x); destruct(x);` -/
theorem Good.merge {m : Mem} {L : List Nat} {res x : Nat} (h : Good m (x :: L)) (hr : res ∈ L) :
    ∃ m', (Lists.append res x m >>= fun m => Lists.destruct x m) = Out.ok m' ∧ Good m' L ∧ m'.lists = m.lists := by
  have hne : res ≠ x := fun he => (List.nodup_cons.mp h.nodup).1 (he ▸ hr)
  obtain ⟨m₁, e₁, g₁, l₁⟩ := h.append (List.mem_cons_of_mem _ hr) (List.mem_cons_self ..) hne
  obtain ⟨m₂, e₂, g₂, l₂⟩ := g₁.destruct
  exact ⟨m₂, by rw [e₁, Out.ok_bind, e₂], g₂, l₂.trans l₁⟩

/-- The lists of a session. -/
def State.live (s : State) : List Nat := s.async.toList ++ s.users

theorem background_ok {s : State} (h : Good s.mem s.live) (n : Nat) :
    ∃ s', background n s = .ok s' ∧ Good s'.mem s'.live ∧ s'.opened = s.opened := by
  obtain ⟨m₁, e₁, g₁⟩ := h.make n
  rw [background, e₁]
  cases ha : s.async with
  | none =>
    refine ⟨_, rfl, ?_, rfl⟩
    simpa [State.live, ha] using g₁
  | some k =>
    obtain ⟨m₂, e₂, g₂, -⟩ := g₁.merge (res := k) (by simp [State.live, ha])
    refine ⟨{ s with mem := m₂ }, ?_, ?_, rfl⟩
    · simp only
      cases e : Lists.append k s.mem.lists m₁ with
      | ok m =>
        rw [e, Out.ok_bind] at e₂
        rw [Out.ok_bind, e₂, Out.ok_bind, ha]
      | err => rw [e] at e₂; cases e₂
      | ub => rw [e] at e₂; cases e₂
    · simpa [State.live, ha] using g₂

theorem merge_ok {s : State} {L : List Nat} {res x : Nat} (h : Good s.mem (x :: L)) (hr : res ∈ L) :
    ∃ m, merge res x s = .ok { s with mem := m } ∧ Good m L := by
  obtain ⟨m₂, e₂, g₂, -⟩ := h.merge hr
  refine ⟨m₂, ?_, g₂⟩
  rw [merge]
  cases e : Lists.append res x s.mem with
  | ok m =>
    rw [e, Out.ok_bind] at e₂
    rw [Out.ok_bind, e₂, Out.ok_bind]
  | err => rw [e] at e₂; cases e₂
  | ub => rw [e] at e₂; cases e₂

/-- What a flush leaves in the session. -/
def left (async : Bool) (s : State) : Option Nat := if async then none else s.async

/-- With other lists `L` of the caller. -/
theorem flushPuts_ok {s : State} {L : List Nat} (async : Bool)
    (h : Good s.mem (s.async.toList ++ L)) (n : Nat) :
    ∃ m res, flushPuts async n s = .ok (res, { s with mem := m, async := left async s }) ∧
      Good m (res :: ((left async s).toList ++ L)) := by
  obtain ⟨m₁, e₁, g₁⟩ := h.make 0
  -- what the thread left
  have h₂ : ∃ m₂, (if async then
      appendPtr s.mem.lists s.async m₁ >>= fun m =>
      destructPtr s.async m >>= fun m => Out.ok { s with mem := m, async := none }
     else .ok { s with mem := m₁ }) = .ok { s with mem := m₂, async := left async s } ∧
      Good m₂ (s.mem.lists :: ((left async s).toList ++ L)) := by
    cases async with
    | false => exact ⟨m₁, rfl, g₁⟩
    | true =>
      cases hs : s.async with
      | none =>
        rw [hs] at g₁
        exact ⟨m₁, rfl, g₁⟩
      | some k =>
        rw [hs] at g₁
        have g₁' : Good m₁ (k :: s.mem.lists :: L) := g₁.perm (List.Perm.swap ..)
        obtain ⟨m₂, e₂, g₂, -⟩ := g₁'.merge (res := s.mem.lists) (by simp)
        refine ⟨m₂, ?_, g₂⟩
        simp only [if_true, appendPtr, destructPtr, left]
        cases e : Lists.append s.mem.lists k m₁ with
        | ok m =>
          rw [e, Out.ok_bind] at e₂
          rw [Out.ok_bind, e₂, Out.ok_bind]
        | err => rw [e] at e₂; cases e₂
        | ub => rw [e] at e₂; cases e₂
  obtain ⟨m₂, e₂, g₂⟩ := h₂
  obtain ⟨m₃, e₃, g₃⟩ := g₂.make n
  obtain ⟨m₄, e₄, g₄⟩ := merge_ok (s := { s with mem := m₃, async := left async s }) g₃
    (List.mem_cons_self ..)
  refine ⟨m₄, s.mem.lists, ?_, g₄⟩
  rw [flushPuts, e₁]
  simp only
  rw [e₂, Out.ok_bind]
  simp only [e₃]
  rw [merge] at e₄
  simp only at e₄
  cases e : Lists.append s.mem.lists m₂.lists m₃ with
  | ok m =>
    rw [e, Out.ok_bind] at e₄
    rw [Out.ok_bind]
    cases e' : Lists.destruct m₂.lists m with
    | ok m' =>
      rw [e', Out.ok_bind] at e₄
      cases e₄
      rfl
    | err => rw [e'] at e₄; cases e₄
    | ub => rw [e'] at e₄; cases e₄
  | err => rw [e] at e₄; cases e₄
  | ub => rw [e] at e₄; cases e₄

theorem mergeAll_ok {s : State} {L : List Nat} {res : Nat} (ns : List Nat) (h : Good s.mem L)
    (hr : res ∈ L) : ∃ m, mergeAll res ns s = .ok { s with mem := m } ∧ Good m L := by
  induction ns generalizing s with
  | nil => exact ⟨s.mem, rfl, h⟩
  | cons n ns ih =>
    obtain ⟨m₁, e₁, g₁⟩ := h.make n
    obtain ⟨m₂, e₂, g₂⟩ := merge_ok (s := { s with mem := m₁ }) g₁ hr
    obtain ⟨m₃, e₃, g₃⟩ := ih (s := { s with mem := m₂ }) g₂
    refine ⟨m₃, ?_, g₃⟩
    rw [mergeAll, flushOne, e₁]
    simp only
    rw [e₂, Out.ok_bind]
    exact e₃

theorem flush_ok {s : State} {L : List Nat} (async : Bool) (h : Good s.mem (s.async.toList ++ L))
    (a b c d e : Nat) :
    ∃ m res, flush async a b c d e s = .ok (res, { s with mem := m, async := left async s }) ∧
      Good m (res :: ((left async s).toList ++ L)) := by
  obtain ⟨m₁, e₁, g₁⟩ := h.make 0
  obtain ⟨m₂, x, e₂, g₂⟩ := flushPuts_ok (s := { s with mem := m₁ }) (L := s.mem.lists :: L) async
    (g₁.perm List.perm_middle.symm) a
  obtain ⟨m₃, e₃, g₃⟩ := merge_ok (s := { s with mem := m₂, async := left async s })
    (res := s.mem.lists) g₂ (by simp)
  obtain ⟨m₄, e₄, g₄⟩ := mergeAll_ok (s := { s with mem := m₃, async := left async s })
    (res := s.mem.lists) [b, c, d, e] g₃ (by simp)
  refine ⟨m₄, s.mem.lists, ?_, g₄.perm List.perm_middle⟩
  rw [flush, e₁]
  simp only
  rw [e₂, Out.ok_bind]
  simp only
  have e₃' : merge s.mem.lists x { s with mem := m₂, async := left async { s with mem := m₁ } } =
      .ok { s with mem := m₃, async := left async s } := e₃
  rw [e₃', Out.ok_bind]
  rw [e₄, Out.ok_bind]

theorem sync_ok {s : State} {L : List Nat} (async : Bool) (h : Good s.mem (s.async.toList ++ L))
    (n a b c d e : Nat) :
    ∃ m res, sync async n a b c d e s = .ok (res, { s with mem := m, async := left async s }) ∧
      Good m (res :: ((left async s).toList ++ L)) := by
  obtain ⟨m, res, e₁, g₁⟩ := flush_ok async h a b c d e
  obtain ⟨m', e₂, g₂⟩ := g₁.add (List.mem_cons_self ..) n
  refine ⟨m', res, ?_, g₂⟩
  rw [sync, e₁, Out.ok_bind]
  simp only
  rw [e₂, Out.ok_bind]

theorem step_ok {async c : Bool} {s : State} (h : Good s.mem s.live) (ho : s.opened = true)
    (a : Act) :
    ∃ s', step async c s a = .ok s' ∧ Good s'.mem s'.live ∧ s'.opened = true := by
  cases a with
  | background n =>
    obtain ⟨s', e, g, o⟩ := background_ok h n
    exact ⟨s', e, g, o.trans ho⟩
  | flushPuts n =>
    obtain ⟨m, res, e, g⟩ := flushPuts_ok async h n
    exact ⟨keep (res, { s with mem := m, async := left async s }), by rw [step, e, Out.ok_bind],
      g.perm List.perm_middle.symm, ho⟩
  | flushOne n =>
    obtain ⟨m, e, g⟩ := h.make n
    refine ⟨_, rfl, ?_, ?_⟩
    · simp only [flushOne, e, keep, State.live]
      exact g.perm List.perm_middle.symm
    · simpa [flushOne, e, keep] using ho
  | flush a b c d e =>
    obtain ⟨m, res, e', g⟩ := flush_ok async h a b c d e
    exact ⟨keep (res, { s with mem := m, async := left async s }), by rw [step, e', Out.ok_bind],
      g.perm List.perm_middle.symm, ho⟩
  | sync n a b c d e =>
    obtain ⟨m, res, e', g⟩ := sync_ok async h n a b c d e
    exact ⟨keep (res, { s with mem := m, async := left async s }), by rw [step, e', Out.ok_bind],
      g.perm List.perm_middle.symm, ho⟩
  | destroy i =>
    rw [step]
    cases hi : s.users[i]? with
    | none => exact ⟨s, rfl, h, ho⟩
    | some k =>
      obtain ⟨hi', hk⟩ := List.getElem?_eq_some_iff.mp hi
      have hp : s.users.Perm (k :: s.users.eraseIdx i) := by
        rw [← hk]
        exact (List.getElem_cons_eraseIdx_perm hi').symm
      have h' : Good s.mem (k :: (s.async.toList ++ s.users.eraseIdx i)) :=
        h.perm ((hp.append_left _).trans List.perm_middle)
      obtain ⟨m, e, g, -⟩ := h'.destruct
      exact ⟨{ s with mem := m, users := s.users.eraseIdx i },
        by simp [destroy, ho, e, Out.ok_bind], g, ho⟩

theorem steps_ok {async c : Bool} (as : List Act) {s : State} (h : Good s.mem s.live)
    (ho : s.opened = true) :
    ∃ s', steps async c as s = .ok s' ∧ Good s'.mem s'.live ∧ s'.opened = true := by
  induction as generalizing s with
  | nil => exact ⟨s, rfl, h, ho⟩
  | cons a as ih =>
    obtain ⟨s₁, e₁, g₁, f₁⟩ := step_ok (async := async) (c := c) h ho a
    obtain ⟨s₂, e₂, g₂, f₂⟩ := ih g₁ f₁
    exact ⟨s₂, by rw [steps, e₁, Out.ok_bind, e₂], g₂, f₂⟩

theorem good_start : Good State.start.mem State.start.live :=
  ⟨List.Perm.refl _, List.nodup_nil, fun _ h => absurd h List.not_mem_nil, fun _ => rfl⟩

theorem close_ok {s : State} (h : Good s.mem s.live) :
    ∃ m, close s = .ok { s with mem := m, async := none, opened := false } ∧ Good m s.users := by
  rw [close]
  cases ha : s.async with
  | none => exact ⟨s.mem, rfl, by simpa [State.live, ha] using h⟩
  | some k =>
    rw [State.live, ha] at h
    obtain ⟨m, e, g, -⟩ := Good.destruct (L := s.users) (k := k) h
    exact ⟨m, by simp only [destructPtr, e, Out.ok_bind], g⟩

theorem destroyAll_ok {c : Bool} {s : State} (ho : c = true → s.opened = true) (ks L : List Nat)
    (h : Good s.mem (ks ++ L)) :
    ∃ m, destroyAll c s ks = .ok { s with mem := m, users := [] } ∧ Good m L := by
  induction ks generalizing s with
  | nil => exact ⟨s.mem, rfl, h⟩
  | cons k ks ih =>
    obtain ⟨m, e, g, -⟩ := Good.destruct (L := ks ++ L) (k := k) h
    obtain ⟨m', e', g'⟩ := ih (s := { s with mem := m }) ho g
    have hd : destroy c k s = .ok m := by
      rw [destroy, if_neg, e]
      cases c
      · simp
      · simp [ho rfl]
    exact ⟨m', by rw [destroyAll, hd, Out.ok_bind, e'], g'⟩

/-! ### What the user gets -/

theorem take_head (k : Nat) (c : List Nat) (h : List (Nat × List Nat)) :
    take k ((k, c) :: h) = some (c, h) := by
  rw [take, if_pos rfl]

theorem take_next {k j : Nat} (hne : j ≠ k) (c d : List Nat) (h : List (Nat × List Nat)) :
    take k ((j, d) :: (k, c) :: h) = some (c, (j, d) :: h) := by
  rw [take, if_neg hne, take_head]
  rfl

/-- `res->Append(x); destruct(x);` with `x` made last. -/
theorem merge_eq {s : State} {res x : Nat} {cr cx : List Nat} {h : List (Nat × List Nat)}
    (hh : s.mem.heap = (x, cx) :: (res, cr) :: h) (hne : x ≠ res) :
    merge res x s = .ok { s with mem := { s.mem with heap := (res, cr ++ cx) :: h } } := by
  rw [merge, append, hh, take_next hne]
  simp only [take_head]
  rw [Out.ok_bind, destruct]
  simp only [take_next hne.symm, Out.ok_bind, List.append_nil]

theorem range_add (a n k : Nat) : List.range' a n ++ List.range' (a + n) k = List.range' a (n + k) := by
  have := List.range'_append (s := a) (m := n) (n := k) (step := 1)
  rwa [Nat.one_mul] at this

theorem mergeAll_eq (ns : List Nat) {s : State} {res : Nat} {c : List Nat}
    {h : List (Nat × List Nat)} (hh : s.mem.heap = (res, c) :: h) (hl : res < s.mem.lists) :
    mergeAll res ns s = .ok { s with mem := ⟨s.mem.lists + ns.length, s.mem.made + ns.sum,
      (res, c ++ List.range' s.mem.made ns.sum) :: h, s.mem.gone⟩ } := by
  induction ns generalizing s c with
  | nil =>
    obtain ⟨⟨a, b, d, e⟩, f, g, o⟩ := s
    simp only at hh
    simp [mergeAll, hh]
  | cons n ns ih =>
    rw [mergeAll, flushOne, make]
    simp only
    rw [merge_eq (cr := c) (cx := List.range' s.mem.made n) (h := h) (by simp [hh]) (by omega), Out.ok_bind, ih rfl (Nat.lt_succ_of_lt hl)]
    simp only [List.append_assoc, range_add, List.sum_cons, List.length_cons]
    rw [show s.mem.lists + 1 + ns.length = s.mem.lists + (ns.length + 1) by omega,
      show s.mem.made + n + ns.sum = s.mem.made + (n + ns.sum) by omega]

/-- What the session has kept, and the rest of the memory. -/
def kept (s : State) : Option (List Nat × List (Nat × List Nat)) :=
  match s.async with
  | none => some ([], s.mem.heap)
  | some k => take k s.mem.heap

theorem flushPuts_eq {s : State} {c : List Nat} {h : List (Nat × List Nat)}
    (hk : kept s = some (c, h)) (hl : ∀ k ∈ s.async, k < s.mem.lists) (n : Nat) :
    flushPuts true n s = .ok (s.mem.lists, { s with
      mem := ⟨s.mem.lists + 2, s.mem.made + n,
        (s.mem.lists, c ++ List.range' s.mem.made n) :: h, s.mem.gone⟩
      async := none }) := by
  have h₁ : (appendPtr s.mem.lists s.async (make 0 s.mem).2 >>= fun m =>
      destructPtr s.async m >>= fun m => Out.ok { s with mem := m, async := none }) =
      .ok { s with mem := ⟨s.mem.lists + 1, s.mem.made, (s.mem.lists, c) :: h, s.mem.gone⟩,
                   async := none } := by
    rw [kept] at hk
    cases ha : s.async with
    | none =>
      rw [ha] at hk
      cases hk
      rfl
    | some k =>
      rw [ha] at hk
      simp only at hk
      have hne : s.mem.lists ≠ k := Nat.ne_of_gt (hl k (by simp [ha]))
      simp only [appendPtr, destructPtr, make, append, take_head, hk, Out.ok_bind, destruct,
        take_next hne, List.append_nil, List.range'_zero, List.nil_append, Nat.add_zero]
  rw [flushPuts]
  have hm : make 0 s.mem = (s.mem.lists, (make 0 s.mem).2) := rfl
  rw [hm]
  simp only [if_true]
  rw [h₁, Out.ok_bind]
  have h₂ := merge_eq (s := ⟨⟨s.mem.lists + 2, s.mem.made + n,
      (s.mem.lists + 1, List.range' s.mem.made n) :: (s.mem.lists, c) :: h, s.mem.gone⟩, none,
      s.users, s.opened⟩) rfl (show s.mem.lists + 1 ≠ s.mem.lists by omega)
  rw [merge] at h₂
  simp only [make] at h₂ ⊢
  cases e : append s.mem.lists (s.mem.lists + 1) ⟨s.mem.lists + 1 + 1, s.mem.made + n,
      (s.mem.lists + 1, List.range' s.mem.made n) :: (s.mem.lists, c) :: h, s.mem.gone⟩ with
  | ok m =>
    rw [e, Out.ok_bind] at h₂
    rw [Out.ok_bind]
    cases e' : destruct (s.mem.lists + 1) m with
    | ok m' =>
      rw [e', Out.ok_bind] at h₂
      cases h₂
      rfl
    | err => rw [e'] at h₂; cases h₂
    | ub => rw [e'] at h₂; cases h₂
  | err => rw [e] at h₂; cases h₂
  | ub => rw [e] at h₂; cases h₂

theorem flush_eq {s : State} {x : List Nat} {h : List (Nat × List Nat)}
    (hk : kept s = some (x, h)) (hl : ∀ k ∈ s.async, k < s.mem.lists) (a b c d e : Nat) :
    ∃ l, flush true a b c d e s = .ok (s.mem.lists, { s with
      mem := ⟨l, s.mem.made + (a + (b + (c + (d + e)))),
        (s.mem.lists, x ++ List.range' s.mem.made (a + (b + (c + (d + e))))) :: h, s.mem.gone⟩
      async := none }) := by
  have hk' : kept { s with mem := (make 0 s.mem).2 } =
      some (x, (s.mem.lists, []) :: h) := by
    rw [kept] at hk ⊢
    cases ha : s.async with
    | none => rw [ha] at hk; cases hk; rfl
    | some k =>
      rw [ha] at hk
      simp only at hk
      have hne : s.mem.lists ≠ k := Nat.ne_of_gt (hl k (by simp [ha]))
      simp [make, take, hne, hk]
  refine ⟨s.mem.lists + 1 + 2 + 4, ?_⟩
  rw [flush]
  have hm : make 0 s.mem = (s.mem.lists, (make 0 s.mem).2) := rfl
  rw [hm]
  simp only
  rw [flushPuts_eq hk' (fun k hk => Nat.lt_succ_of_lt (hl k hk)), Out.ok_bind]
  simp only [make]
  rw [merge_eq rfl (by omega), Out.ok_bind, mergeAll_eq _ rfl (by simp only; omega), Out.ok_bind]
  simp only [List.nil_append, List.append_assoc, range_add, List.sum_cons, List.sum_nil,
    Nat.add_zero, List.length_cons, List.length_nil, Nat.add_assoc]

theorem sync_eq {s : State} {x : List Nat} {h : List (Nat × List Nat)}
    (hk : kept s = some (x, h)) (hl : ∀ k ∈ s.async, k < s.mem.lists) (n a b c d e : Nat) :
    ∃ l, sync true n a b c d e s = .ok (s.mem.lists, { s with
      mem := ⟨l, s.mem.made + (a + (b + (c + (d + (e + n))))),
        (s.mem.lists, x ++ List.range' s.mem.made (a + (b + (c + (d + (e + n)))))) :: h, s.mem.gone⟩
      async := none }) := by
  obtain ⟨l, e'⟩ := flush_eq hk hl a b c d e
  refine ⟨l, ?_⟩
  rw [sync, e', Out.ok_bind]
  simp only [add, take_head, Out.ok_bind, List.append_assoc, range_add, Nat.add_assoc]

/-- What the session has kept can be found, and the rest is untouched. -/
theorem Good.kept {s : State} (h : Good s.mem s.live) :
    ∃ c r, kept s = some (c, r) ∧ (∀ k ∈ s.async, k < s.mem.lists) ∧
      (s.async = none → c = []) ∧
      (∀ k xs, s.async = some k → Holds s.mem k xs → xs = c) ∧
      ∀ k xs, s.async ≠ some k → Holds s.mem k xs → (k, xs) ∈ r := by
  cases ha : s.async with
  | none =>
    refine ⟨[], s.mem.heap, by rw [Lists.kept, ha], by simp, by simp, by simp, ?_⟩
    exact fun _ _ _ h => h
  | some k =>
    have hk : k ∈ s.live := by simp [State.live, ha]
    obtain ⟨c, r, e, p⟩ := take_some (h.keys.mem_iff.mpr hk)
    have hp := (p.map fun l => l.1).symm.trans h.keys
    have hn : (k :: r.map fun l => l.1).Nodup := hp.nodup_iff.mpr h.nodup
    refine ⟨c, r, by rw [Lists.kept, ha]; exact e, ?_, by simp, ?_, ?_⟩
    · intro j hj
      cases hj
      exact h.known k hk
    · intro j xs hj hh
      cases hj
      rcases List.mem_cons.mp (p.mem_iff.mp hh) with h' | h'
      · cases h'
        rfl
      · exact absurd (List.mem_map_of_mem h') (List.nodup_cons.mp hn).1
    · intro j xs hj hh
      rcases List.mem_cons.mp (p.mem_iff.mp hh) with h' | h'
      · cases h'
        exact absurd rfl hj
      · exact h'

theorem Good.handed {s : State} (h : Good s.mem s.live) {c new : List Nat}
    {r : List (Nat × List Nat)} {l n : Nat}
    (h0 : s.async = none → c = [])
    (h1 : ∀ k xs, s.async = some k → Holds s.mem k xs → xs = c)
    (h2 : ∀ k xs, s.async ≠ some k → Holds s.mem k xs → (k, xs) ∈ r) :
    HandedOver s { s with mem := ⟨l, n, (s.mem.lists, c ++ new) :: r, s.mem.gone⟩, async := none }
      s.mem.lists new := by
  refine ⟨rfl, ?_, ?_, ?_, ?_⟩
  · intro xs hx
    exact Nat.lt_irrefl _ (h.known _ (h.keys.mem_iff.mp (List.mem_map_of_mem hx)))
  · intro k xs hk hx
    rw [h1 k xs hk hx]
    exact List.mem_cons_self ..
  · intro ha
    rw [h0 ha]
    exact List.mem_cons_self ..
  · exact fun k xs hk hx => List.mem_cons_of_mem _ (h2 k xs hk hx)

end Hx.Lists

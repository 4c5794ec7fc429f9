import Verif.Spec.Blob

/-!
# Lemmas about the ownership of buffers
-/

namespace Hx.Own

open Hx.Spec.Blob

/-- The buffer owned by the contents of a variable. -/
def ownOf : Option Obj → Option Nat
  | some ⟨.heap n, _, _, true⟩ => some n
  | _ => none

/-- Never to be freed unless null or from `alloc`. -/
def fine : Option Obj → Prop
  | some ⟨.outside _, _, _, true⟩ => False
  | _ => True

theorem ownOf_iff {o : Option Obj} {n : Nat} :
    ownOf o = some n ↔ ∃ b, o = some b ∧ b.clean = true ∧ b.ptr = .heap n := by
  constructor
  · intro h
    match o, h with
    | some ⟨.heap k, l, t, true⟩, h =>
      refine ⟨_, rfl, rfl, ?_⟩
      simpa [ownOf] using h
  · rintro ⟨⟨p, l, t, c⟩, rfl, hc, hp⟩
    dsimp at hc hp
    subst hc hp
    rfl

theorem owns_iff {m : Mem} {x n : Nat} : Owns m x n ↔ ownOf (m.objs x) = some n := ownOf_iff.symm

theorem owned_iff {m : Mem} {n : Nat} : Owned m n ↔ ∃ x, ownOf (m.objs x) = some n := by
  simp only [Owned, owns_iff]

theorem ownsNothing_iff {m : Mem} {x : Nat} : OwnsNothing m x ↔ ownOf (m.objs x) = none := by
  simp only [OwnsNothing, owns_iff]
  cases h : ownOf (m.objs x) <;> simp

/-- What holds in every state a program following the rules can reach. -/
structure Inv (m : Mem) : Prop where
  fine : ∀ x, fine (m.objs x)
  inj : ∀ x y n, ownOf (m.objs x) = some n → ownOf (m.objs y) = some n → x = y
  alive : ∀ x n, ownOf (m.objs x) = some n → n ∈ m.live
  nodup : m.live.Nodup
  known : ∀ n, n < m.next ↔ n ∈ m.live ∨ Ptr.heap n ∈ m.freed
  apart : ∀ n, n ∈ m.live → Ptr.heap n ∉ m.freed
  once : m.freed.Nodup
  heap : ∀ p ∈ m.freed, ∃ n, p = .heap n

theorem inv_empty : Inv Mem.empty := by
  constructor <;> simp [Mem.empty, Own.fine, ownOf]

/-! ## The pieces operations are made of -/

theorem objs_set {m : Mem} {x y : Nat} {o : Option Obj} :
    (m.set x o).objs y = if y = x then o else m.objs y := rfl

theorem inv_set {m : Mem} (h : Inv m) (x : Nat) (o : Option Obj) (hf : Own.fine o)
    (ho : ∀ n, ownOf o = some n → n ∈ m.live ∧ ∀ y, y ≠ x → ownOf (m.objs y) ≠ some n) :
    Inv (m.set x o) where
  fine y := by
    rw [objs_set]
    split
    · exact hf
    · exact h.fine y
  inj y z n hy hz := by
    rw [objs_set] at hy hz
    by_cases h1 : y = x <;> by_cases h2 : z = x
    · rw [h1, h2]
    · rw [if_pos h1] at hy
      rw [if_neg h2] at hz
      exact ((ho n hy).2 z h2 hz).elim
    · rw [if_neg h1] at hy
      rw [if_pos h2] at hz
      exact ((ho n hz).2 y h1 hy).elim
    · rw [if_neg h1] at hy
      rw [if_neg h2] at hz
      exact h.inj y z n hy hz
  alive y n hy := by
    rw [objs_set] at hy
    split at hy
    · exact (ho n hy).1
    · exact h.alive y n hy
  nodup := h.nodup
  known := h.known
  apart := h.apart
  once := h.once
  heap := h.heap

/-- A blob that owns nothing may be put anywhere, as far as double frees go. -/
theorem inv_set_none {m : Mem} (h : Inv m) (x : Nat) (o : Option Obj) (hf : Own.fine o)
    (ho : ownOf o = none) : Inv (m.set x o) :=
  inv_set h x o hf (fun n hn => by rw [ho] at hn; cases hn)

theorem fine_ref (p : Ptr) (l t : Nat) : Own.fine (some ⟨p, l, t, false⟩) := by
  cases p <;> trivial

theorem ownOf_ref (p : Ptr) (l t : Nat) : ownOf (some ⟨p, l, t, false⟩) = none := by
  cases p <;> rfl

theorem fine_clear (o : Obj) : Own.fine (some o.clear) := trivial
theorem ownOf_clear (o : Obj) : ownOf (some o.clear) = none := rfl

theorem inv_alloc {m : Mem} (h : Inv m) (size : Nat) : Inv (Own.alloc size m).2 := by
  rw [Own.alloc]
  split
  · exact h
  · refine ⟨h.fine, h.inj, ?_, ?_, ?_, ?_, h.once, h.heap⟩
    · intro x n hn
      exact List.mem_cons_of_mem _ (h.alive x n hn)
    · refine List.nodup_cons.mpr ⟨?_, h.nodup⟩
      intro hm
      exact Nat.lt_irrefl _ ((h.known m.next).mpr (.inl hm))
    · intro n
      show n < m.next + 1 ↔ n ∈ m.next :: m.live ∨ _
      rw [List.mem_cons, or_assoc, ← h.known n]
      omega
    · intro n hn
      rcases List.mem_cons.mp hn with hn | hn
      · subst hn
        intro hf
        exact Nat.lt_irrefl _ ((h.known m.next).mpr (.inr hf))
      · exact h.apart n hn

theorem objs_alloc {m : Mem} {size : Nat} : (Own.alloc size m).2.objs = m.objs := by
  rw [Own.alloc]
  split <;> rfl

theorem freed_alloc {m : Mem} {size : Nat} : (Own.alloc size m).2.freed = m.freed := by
  rw [Own.alloc]
  split <;> rfl

theorem given_alloc {m : Mem} (h : Inv m) (size : Nat) :
    Given (Own.alloc size m).2 (Own.alloc size m).1 := by
  rw [Own.alloc]
  split
  · exact .inl rfl
  · refine .inr ⟨m.next, rfl, List.mem_cons_self .., ?_⟩
    rw [owned_iff]
    rintro ⟨x, hx⟩
    exact Nat.lt_irrefl _ ((h.known m.next).mpr (.inl (h.alive x _ hx)))

/-- A clean blob on a buffer that is given away. -/
theorem inv_own {m : Mem} (h : Inv m) (x : Nat) {p : Ptr} (l t : Nat) (hp : Given m p) :
    Inv (m.set x (some ⟨p, l, t, true⟩)) := by
  rcases hp with rfl | ⟨n, rfl, hl, hno⟩
  · exact inv_set_none h x _ trivial rfl
  · refine inv_set h x _ trivial ?_
    intro k hk
    have : n = k := by simpa [ownOf] using hk
    subst this
    refine ⟨hl, fun y _ hy => hno (owned_iff.mpr ⟨y, hy⟩)⟩

theorem free_ok {m m' : Mem} {p : Ptr} (h : free p m = .ok m') :
    (p = .null ∧ m' = m) ∨ ∃ n, p = .heap n ∧ n ∈ m.live ∧
      m' = { m with live := m.live.erase n, freed := m.freed ++ [p] } := by
  cases p with
  | null => simp only [free, Out.ok.injEq] at h; exact .inl ⟨rfl, h.symm⟩
  | outside a => simp [free] at h
  | heap n =>
    simp only [free] at h
    split at h
    · simp only [Out.ok.injEq] at h
      exact .inr ⟨n, rfl, by assumption, h.symm⟩
    · simp at h

theorem free_given {m : Mem} {p : Ptr} (hp : Given m p) : ∃ m', free p m = .ok m' := by
  rcases hp with rfl | ⟨n, rfl, hl, -⟩
  · exact ⟨m, rfl⟩
  · refine ⟨_, by rw [free]; exact if_pos hl⟩

theorem inv_free {m m' : Mem} {p : Ptr} (h : Inv m) (hp : Given m p) (hf : free p m = .ok m') :
    Inv m' := by
  rcases free_ok hf with ⟨rfl, rfl⟩ | ⟨n, rfl, hl, rfl⟩
  · exact h
  · have hno : ¬ Owned m n := by
      rcases hp with hp | ⟨k, hk, -, hno⟩
      · cases hp
      · cases hk
        exact hno
    refine ⟨h.fine, h.inj, ?_, h.nodup.erase n, ?_, ?_, ?_, ?_⟩
    · intro x k hk
      refine (List.mem_erase_of_ne ?_).mpr (h.alive x k hk)
      rintro rfl
      exact hno (owned_iff.mpr ⟨x, hk⟩)
    · intro k
      show k < m.next ↔ k ∈ m.live.erase n ∨ Ptr.heap k ∈ m.freed ++ [Ptr.heap n]
      rw [h.known k, List.mem_append, List.mem_singleton]
      by_cases hkn : k = n
      · subst hkn
        simp [hl]
      · rw [List.mem_erase_of_ne hkn]
        simp [hkn]
    · intro k hk
      show _ ∉ m.freed ++ [Ptr.heap n]
      have hkn : k ≠ n := by
        rintro rfl
        exact (h.nodup.not_mem_erase) hk
      rw [List.mem_append, List.mem_singleton]
      rintro (hkf | hkf)
      · exact h.apart k (List.mem_of_mem_erase hk) hkf
      · cases hkf
        exact hkn rfl
    · show (m.freed ++ [Ptr.heap n]).Nodup
      rw [List.nodup_append]
      refine ⟨h.once, by simp, ?_⟩
      intro a ha b hb hab
      rw [List.mem_singleton] at hb
      subst hab hb
      exact h.apart n hl ha
    · intro q hq
      rcases List.mem_append.mp hq with hq | hq
      · exact h.heap q hq
      · exact ⟨n, List.mem_singleton.mp hq⟩

/-- `Blob::dealloc` of the blob in `x`, and whatever is put in `x` next. -/
theorem dealloc_step {m : Mem} (h : Inv m) {x : Nat} {o : Obj} (hx : m.objs x = some o) :
    ∃ m₁, o.dealloc m = .ok (o.clear, m₁) ∧ m₁.objs = m.objs ∧ Inv (m₁.set x (some o.clear)) ∧
      m₁.next = m.next ∧
      ((ownOf (some o) = none ∧ m₁ = m) ∨
        ∃ n, ownOf (some o) = some n ∧ m₁.freed = m.freed ++ [.heap n]) := by
  have hm : Inv (m.set x (some o.clear)) := inv_set_none h x _ trivial rfl
  obtain ⟨p, l, t, c⟩ := o
  cases c with
  | false => exact ⟨m, rfl, rfl, hm, rfl, .inl ⟨ownOf_ref p l t, rfl⟩⟩
  | true =>
    have hg : Given (m.set x (some (Obj.clear ⟨p, l, t, true⟩))) p := by
      cases p with
      | null => exact .inl rfl
      | outside a =>
        have := h.fine x
        rw [hx] at this
        exact this.elim
      | heap n =>
        have hn : ownOf (m.objs x) = some n := by rw [hx]; rfl
        refine .inr ⟨n, rfl, h.alive x n hn, ?_⟩
        rw [owned_iff]
        rintro ⟨y, hy⟩
        rw [objs_set] at hy
        split at hy
        · cases hy
        · rename_i hyx
          exact hyx (h.inj y x n hy hn)
    obtain ⟨m', hm'⟩ := free_given hg
    have hinv := inv_free hm hg hm'
    rcases free_ok hm' with ⟨rfl, rfl⟩ | ⟨n, rfl, hl, rfl⟩
    · exact ⟨m, rfl, rfl, hm, rfl, .inl ⟨rfl, rfl⟩⟩
    · refine ⟨{ m with live := m.live.erase n, freed := m.freed ++ [.heap n] }, ?_, rfl, hinv, rfl,
        .inr ⟨n, rfl, rfl⟩⟩
      have hl' : n ∈ m.live := hl
      simp [Obj.dealloc, free, hl']

theorem set_set {m : Mem} {x : Nat} {o o' : Option Obj} : (m.set x o).set x o' = m.set x o' := by
  simp only [Mem.set, Mem.mk.injEq, and_true]
  funext y
  split <;> rfl

theorem set_comm {m : Mem} {x y : Nat} {o o' : Option Obj} (h : x ≠ y) :
    (m.set x o).set y o' = (m.set y o').set x o := by
  simp only [Mem.set, Mem.mk.injEq, and_true]
  funext z
  by_cases hx : z = x
  · subst hx
    simp [h]
  · simp [hx]

theorem set_self {m : Mem} {x : Nat} : m.set x (m.objs x) = m := by
  cases m
  simp only [Mem.set, Mem.mk.injEq, and_true]
  funext y
  split
  · rename_i h; rw [h]
  · rfl

/-- Handing what `y` owns over to `x`, which owns nothing. -/
theorem inv_take {m : Mem} (h : Inv m) {x y : Nat} (hxy : x ≠ y) {r : Obj} (hy : m.objs y = some r) :
    Inv ((m.set x (some ⟨r.ptr, r.len, r.typ, r.clean⟩)).set y (some r.clear)) := by
  rw [set_comm hxy]
  refine inv_set (inv_set_none h y _ (fine_clear r) (ownOf_clear r)) x _ ?_ ?_
  · have := h.fine y
    rwa [hy] at this
  · intro n hn
    have hn' : ownOf (m.objs y) = some n := by rw [hy]; exact hn
    refine ⟨h.alive y n hn', ?_⟩
    intro z hzx hz
    rw [objs_set] at hz
    split at hz
    · cases hz
    · rename_i hzy
      exact hzy (h.inj z y n hz hn')

/-! ## One operation -/

theorem at_ok {m : Mem} {x : Nat} {o : Obj} (h : m.at x = .ok o) : m.objs x = some o := by
  rw [Mem.at] at h
  split at h
  · simp only [Out.ok.injEq] at h
    rw [← h]; assumption
  · simp at h

theorem vacant_ok {m : Mem} {x : Nat} {u : Unit} (h : m.vacant x = .ok u) : m.objs x = none := by
  rw [Mem.vacant] at h
  split at h
  · simp at h
  · assumption

/-- What an operation following the rules does. -/
structure Effect (m : Mem) (op : Op) (m' : Mem) : Prop where
  inv : Inv m'
  kept : ¬ GivesBack op → ∀ n, Owned m n → Owned m' n ∨ Ptr.heap n ∈ m'.freed
  freed : ∃ fs, m'.freed = m.freed ++ fs ∧ fs.length ≤ 1 ∧
    ∀ p ∈ fs, ∃ n, p = .heap n ∧ (Owned m n ∨ op = .free (.heap n))
  next : m.next ≤ m'.next
  born : (∀ size, op ≠ .alloc size) → ∀ n, m.next ≤ n → n < m'.next → Owned m' n

/-- Changing a variable that owns nothing. -/
theorem effect_set {m m₁ : Mem} {op : Op} {x : Nat} {o : Option Obj} (hi : Inv (m₁.set x o))
    (hx : ownOf (m.objs x) = none) (ho : m₁.objs = m.objs) (hf : m₁.freed = m.freed)
    (hn : m.next ≤ m₁.next)
    (hb : ∀ n, m.next ≤ n → n < m₁.next → ownOf o = some n) : Effect m op (m₁.set x o) where
  inv := hi
  kept _ n hown := by
    obtain ⟨y, hy⟩ := owned_iff.mp hown
    refine .inl (owned_iff.mpr ⟨y, ?_⟩)
    rw [objs_set, ho]
    split
    · rename_i h
      rw [h, hx] at hy
      cases hy
    · exact hy
  freed := ⟨[], by simp [Mem.set, hf], by simp, by simp⟩
  next := hn
  born _ n h1 h2 := owned_iff.mpr ⟨x, by rw [objs_set, if_pos rfl]; exact hb n h1 h2⟩

theorem not_born {k n : Nat} {p : Prop} (h : k ≤ n) (h' : n < k) : p :=
  absurd h (Nat.not_le.mpr h')

theorem born_alloc {m : Mem} {len l t n : Nat} (h : m.next ≤ n) (h' : n < (Own.alloc len m).2.next) :
    ownOf (some ⟨(Own.alloc len m).1, l, t, true⟩) = some n := by
  rw [Own.alloc] at h' ⊢
  split at h'
  · exact not_born h h'
  · rename_i hl
    have : n = m.next := by
      have : n < m.next + 1 := h'
      omega
    rw [if_neg hl, this]
    rfl

/-- Overwriting a variable after `Blob::dealloc`. -/
theorem effect_dealloc {m : Mem} {op : Op} {x : Nat} {a : Obj} {f : Mem → Mem}
    (hx : m.objs x = some a) {m₁ : Mem} (ho : m₁.objs = m.objs)
    (hn : m₁.next = m.next)
    (hd : (ownOf (some a) = none ∧ m₁ = m) ∨
        ∃ n, ownOf (some a) = some n ∧ m₁.freed = m.freed ++ [.heap n])
    (hi : Inv (f m₁)) (hnext : (f m₁).next = m₁.next) (hfreed : (f m₁).freed = m₁.freed)
    (hown : ∀ n, (∃ y, y ≠ x ∧ ownOf (m₁.objs y) = some n) → Owned (f m₁) n) :
    Effect m op (f m₁) where
  inv := hi
  kept _ n hw := by
    obtain ⟨y, hy⟩ := owned_iff.mp hw
    by_cases hyx : y = x
    · subst hyx
      rw [hx] at hy
      rcases hd with ⟨hno, -⟩ | ⟨k, hk, hfr⟩
      · rw [hno] at hy
        cases hy
      · rw [hk] at hy
        cases hy
        refine .inr ?_
        rw [hfreed, hfr]
        simp
    · exact .inl (hown n ⟨y, hyx, by rw [ho]; exact hy⟩)
  freed := by
    rcases hd with ⟨-, hm⟩ | ⟨k, hk, hfr⟩
    · exact ⟨[], by rw [hfreed, hm]; simp, by simp, by simp⟩
    · refine ⟨[.heap k], by rw [hfreed, hfr], by simp, ?_⟩
      intro p hp
      rw [List.mem_singleton] at hp
      refine ⟨k, hp, .inl (owned_iff.mpr ⟨x, by rw [hx]; exact hk⟩)⟩
  next := by rw [hnext, hn]; exact Nat.le_refl _
  born _ n h1 h2 := by
    rw [hnext, hn] at h2
    exact not_born h1 h2

/-- An operation that follows the rules is defined, and keeps the invariant. -/
theorem step {m : Mem} {op : Op} (h : Inv m) (hp : Proper m op) :
    exec m op = .err ∨ ∃ m', exec m op = .ok m' ∧ Effect m op m' := by
  have hvac : ∀ x, m.vacant x = .err ∨ (m.vacant x = .ok () ∧ m.objs x = none) := by
    intro x
    rw [Mem.vacant]
    cases m.objs x <;> simp
  have hat : ∀ x, m.at x = .err ∨ ∃ o, m.at x = .ok o ∧ m.objs x = some o := by
    intro x
    rw [Mem.at]
    cases m.objs x <;> simp
  cases op with
  | make x p len typ clean =>
    rcases hvac x with hv | ⟨hv, hx⟩
    · exact .inl (by simp [exec, hv])
    · refine .inr ⟨m.set x (some ⟨p, len, typ, clean⟩), by simp [exec, hv], ?_⟩
      refine effect_set ?_ (by rw [hx]; rfl) rfl rfl (Nat.le_refl _)
        (fun _ => not_born)
      cases clean with
      | false => exact inv_set_none h x _ (fine_ref ..) (ownOf_ref ..)
      | true => exact inv_own h x len typ hp
  | makeCopy x len typ =>
    rcases hvac x with hv | ⟨hv, hx⟩
    · exact .inl (by simp [exec, hv])
    · refine .inr ⟨(Own.alloc len m).2.set x (some ⟨(Own.alloc len m).1, len, typ, true⟩),
        by simp [exec, hv], ?_⟩
      refine effect_set (inv_own (inv_alloc h len) x len typ (given_alloc h len)) (by rw [hx]; rfl)
        objs_alloc freed_alloc (by rw [Own.alloc]; split <;> simp)
          (fun _ => born_alloc)
  | copy x y =>
    rcases hvac x with hv | ⟨hv, hx⟩
    · exact .inl (by simp [exec, hv])
    · rcases hat y with ha | ⟨r, ha, hy⟩
      · exact .inl (by simp [exec, hv, ha])
      · refine .inr ⟨m.set x (some ⟨r.ptr, r.len, r.typ, false⟩), by simp [exec, hv, ha], ?_⟩
        exact effect_set (inv_set_none h x _ (fine_ref ..) (ownOf_ref ..)) (by rw [hx]; rfl) rfl rfl
          (Nat.le_refl _) (fun _ => not_born)
  | move x y =>
    rcases hvac x with hv | ⟨hv, hx⟩
    · exact .inl (by simp [exec, hv])
    · rcases hat y with ha | ⟨r, ha, hy⟩
      · exact .inl (by simp [exec, hv, ha])
      · refine .inr ⟨(m.set x (some ⟨r.ptr, r.len, r.typ, r.clean⟩)).set y (some r.clear),
          by simp [exec, hv, ha], ?_⟩
        have hxy : x ≠ y := by
          rintro rfl
          rw [hx] at hy
          cases hy
        refine ⟨inv_take h hxy hy, ?_, ⟨[], by simp [Mem.set], by simp, by simp⟩, Nat.le_refl _,
          fun _ _ => not_born⟩
        intro _ n hw
        obtain ⟨z, hz⟩ := owned_iff.mp hw
        refine .inl (owned_iff.mpr ?_)
        by_cases hzy : z = y
        · refine ⟨x, ?_⟩
          rw [objs_set, if_neg hxy, objs_set, if_pos rfl]
          rw [hzy, hy] at hz
          exact hz
        · refine ⟨z, ?_⟩
          rw [objs_set, if_neg hzy, objs_set, if_neg ?_]
          · exact hz
          · rintro rfl
            rw [hx] at hz
            cases hz
  | destroy x =>
    rcases hat x with ha | ⟨o, ha, hx⟩
    · exact .inl (by simp [exec, ha])
    · obtain ⟨m₁, hd, ho, hi, hn, hfr⟩ := dealloc_step h hx
      refine .inr ⟨m₁.set x none, by simp [exec, ha, hd], ?_⟩
      refine effect_dealloc (f := fun m => m.set x none) hx ho hn hfr ?_ rfl rfl ?_
      · have := inv_set_none hi x none trivial rfl
        rwa [set_set] at this
      · rintro n ⟨y, hyx, hy⟩
        exact owned_iff.mpr ⟨y, by rw [objs_set, if_neg hyx]; exact hy⟩
  | assign x y =>
    rcases hat x with ha | ⟨o, ha, hx⟩
    · exact .inl (by simp [exec, ha])
    · rcases hat y with hb | ⟨r, hb, hy⟩
      · exact .inl (by simp [exec, ha, hb])
      · by_cases hxy : x = y
        · subst hxy
          refine .inr ⟨m, by simp [exec, ha], h, fun _ n hn => .inl hn, ⟨[], by simp, by simp, by simp⟩,
            Nat.le_refl _, fun _ _ => not_born⟩
        · obtain ⟨m₁, hd, ho, hi, hn, hfr⟩ := dealloc_step h hx
          refine .inr ⟨m₁.set x (some ⟨r.ptr, r.len, r.typ, false⟩), by simp [exec, ha, hb, hd, hxy], ?_⟩
          refine effect_dealloc (f := fun m => m.set x (some ⟨r.ptr, r.len, r.typ, false⟩)) hx ho hn
            hfr ?_ rfl rfl ?_
          · have := inv_set_none hi x _ (fine_ref r.ptr r.len r.typ) (ownOf_ref ..)
            rwa [set_set] at this
          · rintro n ⟨z, hzx, hz⟩
            exact owned_iff.mpr ⟨z, by rw [objs_set, if_neg hzx]; exact hz⟩
  | moveAssign x y =>
    rcases hat x with ha | ⟨o, ha, hx⟩
    · exact .inl (by simp [exec, ha])
    · rcases hat y with hb | ⟨r, hb, hy⟩
      · exact .inl (by simp [exec, ha, hb])
      · by_cases hxy : x = y
        · subst hxy
          refine .inr ⟨m, by simp [exec, ha], h, fun _ n hn => .inl hn, ⟨[], by simp, by simp, by simp⟩,
            Nat.le_refl _, fun _ _ => not_born⟩
        · obtain ⟨m₁, hd, ho, hi, hn, hfr⟩ := dealloc_step h hx
          refine .inr ⟨(m₁.set x (some ⟨r.ptr, r.len, r.typ, r.clean⟩)).set y (some r.clear),
            by simp [exec, ha, hb, hd, hxy], ?_⟩
          refine effect_dealloc
            (f := fun m => (m.set x (some ⟨r.ptr, r.len, r.typ, r.clean⟩)).set y (some r.clear))
            hx ho hn hfr ?_ rfl rfl ?_
          · have hy' : (m₁.set x (some o.clear)).objs y = some r := by
              rw [objs_set, if_neg (Ne.symm hxy), ho]
              exact hy
            have := inv_take hi hxy hy'
            rwa [set_set] at this
          · rintro n ⟨z, hzx, hz⟩
            refine owned_iff.mpr ?_
            by_cases hzy : z = y
            · refine ⟨x, ?_⟩
              rw [objs_set, if_neg hxy, objs_set, if_pos rfl]
              rw [hzy, ho, hy] at hz
              exact hz
            · exact ⟨z, by rw [objs_set, if_neg hzy, objs_set, if_neg hzx]; exact hz⟩
  | setType x typ =>
    rcases hat x with ha | ⟨o, ha, hx⟩
    · exact .inl (by simp [exec, ha])
    · refine .inr ⟨m.set x (some { o with typ := typ }), by simp [exec, ha], ?_⟩
      have hsame : ownOf (some { o with typ := typ }) = ownOf (m.objs x) := by
        rw [hx]
        obtain ⟨p, l, t, c⟩ := o
        cases p <;> cases c <;> rfl
      refine ⟨inv_set h x _ ?_ ?_, ?_, ⟨[], by simp [Mem.set], by simp, by simp⟩, Nat.le_refl _,
          fun _ _ => not_born⟩
      · have := h.fine x
        rw [hx] at this
        obtain ⟨p, l, t, c⟩ := o
        cases p <;> cases c <;> exact this
      · intro n hn
        rw [hsame] at hn
        exact ⟨h.alive x n hn, fun y hyx hy => hyx (h.inj y x n hy hn)⟩
      · intro _ n hw
        obtain ⟨y, hy⟩ := owned_iff.mp hw
        refine .inl (owned_iff.mpr ⟨y, ?_⟩)
        rw [objs_set]
        split
        · rename_i hyx
          rw [hsame, ← hyx]
          exact hy
        · exact hy
  | setClean x b =>
    rcases hat x with ha | ⟨o, ha, hx⟩
    · exact .inl (by simp [exec, ha])
    · refine .inr ⟨m.set x (some { o with clean := b }), by simp [exec, ha], ?_⟩
      obtain ⟨p, l, t, c⟩ := o
      cases b with
      | false =>
        exact ⟨inv_set_none h x _ (fine_ref ..) (ownOf_ref ..), fun hg => (hg trivial).elim,
          ⟨[], by simp [Mem.set], by simp, by simp⟩, Nat.le_refl _,
          fun _ _ => not_born⟩
      | true =>
        cases c with
        | true =>
          have : m.set x (some ⟨p, l, t, true⟩) = m := by rw [← hx]; exact set_self
          show Effect m _ (m.set x (some ⟨p, l, t, true⟩))
          rw [this]
          exact ⟨h, fun _ n hn => .inl hn, ⟨[], by simp, by simp, by simp⟩, Nat.le_refl _,
            fun _ _ => not_born⟩
        | false =>
          rcases hp _ hx with hc | hg
          · cases hc
          · refine effect_set (inv_own h x l t hg) ?_ rfl rfl (Nat.le_refl _) (fun _ => not_born)
            rw [hx]
            exact ownOf_ref ..
  | clear x =>
    rcases hat x with ha | ⟨o, ha, hx⟩
    · exact .inl (by simp [exec, ha])
    · refine .inr ⟨m.set x (some o.clear), by simp [exec, ha], ?_⟩
      exact effect_set (inv_set_none h x _ (fine_clear o) (ownOf_clear o)) (ownsNothing_iff.mp hp) rfl
        rfl (Nat.le_refl _) (fun _ => not_born)
  | dealloc x =>
    rcases hat x with ha | ⟨o, ha, hx⟩
    · exact .inl (by simp [exec, ha])
    · obtain ⟨m₁, hd, ho, hi, hn, hfr⟩ := dealloc_step h hx
      refine .inr ⟨m₁.set x (some o.clear), by simp [exec, ha, hd], ?_⟩
      refine effect_dealloc (f := fun m => m.set x (some o.clear)) hx ho hn hfr hi rfl rfl ?_
      rintro n ⟨y, hyx, hy⟩
      exact owned_iff.mpr ⟨y, by rw [objs_set, if_neg hyx]; exact hy⟩
  | unpack x src len typ copied =>
    rcases hat x with ha | ⟨o, ha, hx⟩
    · exact .inl (by simp [exec, ha])
    · cases copied with
      | true =>
        refine .inr ⟨(Own.alloc len m).2.set x (some ⟨(Own.alloc len m).1, len, typ.getD o.typ, true⟩),
          by simp [exec, ha], ?_⟩
        exact effect_set (inv_own (inv_alloc h len) x len _ (given_alloc h len))
          (ownsNothing_iff.mp hp) objs_alloc freed_alloc (by rw [Own.alloc]; split <;> simp)
          (fun _ => born_alloc)
      | false =>
        refine .inr ⟨m.set x (some ⟨src, len, typ.getD o.typ, false⟩), by simp [exec, ha], ?_⟩
        exact effect_set (inv_set_none h x _ (fine_ref ..) (ownOf_ref ..)) (ownsNothing_iff.mp hp) rfl
          rfl (Nat.le_refl _) (fun _ => not_born)
  | unpackRef x p len typ =>
    rcases hat x with ha | ⟨o, ha, hx⟩
    · exact .inl (by simp [exec, ha])
    · refine .inr ⟨m.set x (some ⟨p, len, typ.getD o.typ, false⟩), by simp [exec, ha], ?_⟩
      exact effect_set (inv_set_none h x _ (fine_ref ..) (ownOf_ref ..)) (ownsNothing_iff.mp hp) rfl
        rfl (Nat.le_refl _) (fun _ => not_born)
  | alloc size =>
    refine .inr ⟨(Own.alloc size m).2, by simp [exec], inv_alloc h size, ?_,
      ⟨[], by rw [freed_alloc]; simp, by simp, by simp⟩, by rw [Own.alloc]; split <;> simp,
      fun h => absurd rfl (h size)⟩
    intro _ n hw
    refine .inl (owned_iff.mpr ?_)
    rw [objs_alloc]
    exact owned_iff.mp hw
  | free p =>
    obtain ⟨m', hm'⟩ := free_given hp
    refine .inr ⟨m', hm', inv_free h hp hm', ?_, ?_, ?_, ?_⟩
    · intro _ n hw
      rcases free_ok hm' with ⟨rfl, rfl⟩ | ⟨k, rfl, hl, rfl⟩
      · exact .inl hw
      · exact .inl hw
    · rcases free_ok hm' with ⟨rfl, rfl⟩ | ⟨k, rfl, hl, rfl⟩
      · exact ⟨[], by simp, by simp, by simp⟩
      · exact ⟨[.heap k], rfl, by simp, fun q hq => ⟨k, List.mem_singleton.mp hq, .inr rfl⟩⟩
    · rcases free_ok hm' with ⟨rfl, rfl⟩ | ⟨k, rfl, hl, rfl⟩ <;> exact Nat.le_refl _
    · rcases free_ok hm' with ⟨rfl, rfl⟩ | ⟨k, rfl, hl, rfl⟩ <;> exact fun _ _ => not_born
  | read x =>
    rcases hat x with ha | ⟨o, ha, hx⟩
    · exact .inl (by simp [exec, ha])
    · refine .inr ⟨m, ?_, h, fun _ n hn => .inl hn, ⟨[], by simp, by simp, by simp⟩, Nat.le_refl _,
        fun _ _ => not_born⟩
      simp only [exec, ha, Out.ok_bind]
      cases hptr : o.ptr with
      | heap n =>
        have : n ∈ m.live := Classical.byContradiction fun hn => hp ⟨o, n, hx, hptr, hn⟩
        simp [this]
      | null => rfl
      | outside a => rfl
  | forget x =>
    rcases hat x with ha | ⟨o, ha, hx⟩
    · exact .inl (by simp [exec, ha])
    · refine .inr ⟨m.set x none, by simp [exec, ha], ?_⟩
      exact effect_set (inv_set_none h x _ trivial rfl) (ownsNothing_iff.mp hp) rfl rfl (Nat.le_refl _)
        (fun _ => not_born)

theorem effect_of {m m' : Mem} {op : Op} (h : Inv m) (hp : Proper m op) (he : exec m op = .ok m') :
    Effect m op m' := by
  rcases step h hp with he' | ⟨k, hk, heff⟩
  · rw [he] at he'
    cases he'
  · rw [he] at hk
    cases hk
    exact heff

theorem inv_run {m m' : Mem} {ops : List Op} (hr : Run m ops m') (h : Inv m) : Inv m' := by
  induction hr with
  | nil => exact h
  | cons hp he _ ih => exact ih (effect_of h hp he).inv

theorem inv_reachable {m : Mem} (h : Reachable m) : Inv m := by
  obtain ⟨ops, hr⟩ := h
  exact inv_run hr inv_empty

theorem freed_run {m m' : Mem} {ops : List Op} (hr : Run m ops m') (h : Inv m) :
    ∃ fs, m'.freed = m.freed ++ fs := by
  induction hr with
  | nil => exact ⟨[], by simp⟩
  | cons hp he _ ih =>
    have e := effect_of h hp he
    obtain ⟨fs, hfs⟩ := ih e.inv
    obtain ⟨gs, hgs, -⟩ := e.freed
    exact ⟨gs ++ fs, by rw [hfs, hgs, List.append_assoc]⟩

theorem kept_run {m m' : Mem} {ops : List Op} (hr : Run m ops m') (h : Inv m)
    (hg : ∀ op ∈ ops, ¬ GivesBack op) {n : Nat} (hn : Owned m n ∨ Ptr.heap n ∈ m.freed) :
    Owned m' n ∨ Ptr.heap n ∈ m'.freed := by
  induction hr with
  | nil => exact hn
  | cons hp he _ ih =>
    have e := effect_of h hp he
    refine ih e.inv (fun op hop => hg op (List.mem_cons_of_mem _ hop)) ?_
    rcases hn with hn | hn
    · exact e.kept (hg _ (List.mem_cons_self ..)) n hn
    · obtain ⟨gs, hgs, -⟩ := e.freed
      rw [hgs]
      exact .inr (List.mem_append_left _ hn)

theorem run_append {m m₁ m₂ : Mem} {as bs : List Op} (h : Run m as m₁) (h' : Run m₁ bs m₂) :
    Run m (as ++ bs) m₂ := by
  induction h with
  | nil => exact h'
  | cons hp he _ ih => exact .cons hp he (ih h')

end Hx.Own

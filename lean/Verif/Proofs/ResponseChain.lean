import Verif.Spec.ResponseChain
import Verif.Proofs.Messages

/-!
# Responses of a round over Thallium: lemmas for C91
-/

namespace Hx.Lives

open Hx.Spec.Lives

/-- The chain consists of `xs`. -/
structure Is (c : Chain) (xs : List Nat) : Prop where
  head : c.head = xs.head?
  tail : c.tail = xs.getLast?
  /-- from every message one gets to the end -/
  reach : ∀ n, xs.length ≤ n → follow c.next n c.head = xs
  last : ∀ t ∈ c.tail, c.next.lookup t = none
  known : ∀ p ∈ c.next, p.1 ∈ xs

theorem follow_snoc {t r : Nat} {next : List (Nat × Nat)} (n : Nat) (k : Option Nat)
    {xs : List Nat} (h : follow next n k = xs ++ [t]) (hx : t ∉ xs) (ht : next.lookup t = none)
    (hr : next.lookup r = none) (hne : r ≠ t) :
    follow ((t, r) :: next) (n + 1) k = xs ++ [t, r] := by
  induction n generalizing k xs with
  | zero => cases k <;> cases xs <;> cases h
  | succ n ih =>
    cases k with
    | none => cases xs <;> cases h
    | some k =>
      rw [follow] at h
      cases xs with
      | nil =>
        simp only [List.nil_append, List.cons.injEq] at h
        obtain ⟨rfl, -⟩ := h
        have h1 : (r == k) = false := by simpa using hne
        rw [follow, List.lookup_cons, beq_self_eq_true]
        simp only
        rw [follow, List.lookup_cons, h1]
        simp only
        rw [hr]
        cases n <;> rfl
      | cons x xs =>
        simp only [List.cons_append, List.cons.injEq] at h
        obtain ⟨rfl, h⟩ := h
        have hkt : k ≠ t := fun h' => hx (h' ▸ List.mem_cons_self ..)
        have h1 : (k == t) = false := by simpa using hkt
        rw [follow, List.lookup_cons, h1]
        simp only
        rw [ih _ h fun h' => hx (List.mem_cons_of_mem _ h')]
        rfl

theorem lookup_none {r : Nat} {next : List (Nat × Nat)} (h : ∀ p ∈ next, p.1 ≠ r) :
    next.lookup r = none := by
  rw [List.lookup_eq_none_iff]
  intro p hp
  simpa using fun h' => h p hp h'.symm

theorem link_ok (debug : Bool) {c : Chain} {xs : List Nat} (h : Is c xs) (hn : xs.Nodup) {r : Nat}
    (hr : r ∉ xs) : ∃ c', link debug c (some r) = .ok c' ∧ Is c' (xs ++ [r]) := by
  have hl : c.next.lookup r = none := lookup_none fun p hp he => hr (he ▸ h.known p hp)
  rcases List.eq_nil_or_concat xs with rfl | ⟨ys, t, rfl⟩
  · refine ⟨⟨some r, some r, c.next⟩, ?_, rfl, rfl, ?_, ?_, ?_⟩
    · rw [link, h.head]
      rfl
    · intro n hn
      cases n with
      | zero => cases hn
      | succ n =>
        rw [follow, hl]
        cases n <;> rfl
    · intro t ht
      cases ht
      exact hl
    · exact fun p hp => absurd (h.known p hp) List.not_mem_nil
  · rw [List.concat_eq_append] at *
    have ht : c.tail = some t := by rw [h.tail]; simp
    obtain ⟨x, hx⟩ : ∃ x, c.head = some x := by
      rw [h.head]
      cases ys <;> exact ⟨_, rfl⟩
    have hty : t ∉ ys := fun hm => by
      have := List.nodup_append.mp hn
      exact this.2.2 t hm t (List.mem_singleton.mpr rfl) rfl
    have hne : r ≠ t := fun he => hr (he ▸ by simp)
    refine ⟨{ c with tail := some r, next := (t, r) :: c.next }, ?_, ?_, ?_, ?_, ?_, ?_⟩
    · simp only [link, hx, ht]
    · simp only
      rw [h.head]
      cases ys <;> rfl
    · simp
    · intro n hn'
      cases n with
      | zero => simp at hn'
      | succ n =>
        have := follow_snoc (r := r) n c.head (h.reach n (by simpa using hn')) hty
          (h.last t ht) hl hne
        simpa using this
    · intro t' ht'
      cases ht'
      have h1 : (r == t) = false := by simpa using hne
      simp only
      rw [List.lookup_cons, h1]
      exact hl
    · intro p hp
      rcases List.mem_cons.mp hp with rfl | hp
      · simp
      · exact List.mem_append_left _ (h.known p hp)

/-- Numbers of responses and of those that were unreadable. -/
def used (os : List Outcome) : Nat :=
  (os.filter fun o => o == .response || o == .unreadable).length

theorem processRequests_ok (debug : Bool) {os : List Outcome}
    (hd : debug = false ∨ ∀ o ∈ os, failed o = false) {c : Chain} {xs : List Nat} {l : Ledger}
    (hk : Known l) (h : Is c xs) (hn : xs.Nodup) (hx : ∀ x ∈ xs, x < l.next) :
    ∃ c', processRequests debug os c l = .ok (c', ⟨l.next + used os,
        l.gone ++ unreadable os l.next, l.lost⟩) ∧ Is c' (xs ++ responses os l.next) := by
  induction os generalizing c xs l with
  | nil => exact ⟨c, by simp [processRequests, used, unreadable], by simpa [responses] using h⟩
  | cons o os ih =>
    have hd' : debug = false ∨ ∀ o ∈ os, failed o = false :=
      hd.imp id fun h o ho => h o (List.mem_cons_of_mem _ ho)
    have hf : failed o = true → debug = false := fun h =>
      hd.resolve_right fun h' => by rw [h' o (List.mem_cons_self ..)] at h; cases h
    cases o with
    | absent =>
      obtain ⟨c', e, g⟩ := ih hd' hk h hn hx
      exact ⟨c', by rw [processRequests, e]; rfl, g⟩
    | noEndpoint =>
      obtain ⟨c', e, g⟩ := ih hd' hk h hn hx
      refine ⟨c', ?_, g⟩
      rw [processRequests, processRequest, Out.ok_bind]
      · simp only [link, hf rfl, Bool.false_eq_true, if_false, Out.ok_bind]
        rw [hf rfl] at e
        rw [e]
        rfl
      all_goals nofun
    | notPacked =>
      obtain ⟨c', e, g⟩ := ih hd' hk h hn hx
      refine ⟨c', ?_, g⟩
      rw [processRequests, processRequest, Out.ok_bind]
      · simp only [link, hf rfl, Bool.false_eq_true, if_false, Out.ok_bind]
        rw [hf rfl] at e
        rw [e]
        rfl
      all_goals nofun
    | unreadable =>
      have hno : l.next ∉ l.gone := fun hm => Nat.lt_irrefl _ (hk _ hm)
      have e₁ : destruct l.next ⟨l.next + 1, l.gone, l.lost⟩ =
          .ok ⟨l.next + 1, l.gone ++ [l.next], l.lost⟩ := destruct_eq ⟨Nat.lt_succ_self _, hno⟩
      obtain ⟨c', e, g⟩ := ih (l := ⟨l.next + 1, l.gone ++ [l.next], l.lost⟩) hd' (by
        intro k hm
        rcases List.mem_append.mp hm with hm | hm
        · exact Nat.lt_succ_of_lt (hk k hm)
        · rw [List.mem_singleton.mp hm]
          exact Nat.lt_succ_self _) h hn fun x hm => Nat.lt_succ_of_lt (hx x hm)
      refine ⟨c', ?_, g⟩
      rw [processRequests]
      · simp only [processRequest, construct, e₁, Out.ok_bind, link, hf rfl, Bool.false_eq_true,
          if_false]
        rw [hf rfl] at e
        rw [e]
        simp only [used, unreadable, List.append_assoc, List.singleton_append]
        rw [List.filter_cons_of_pos (by rfl), List.length_cons]
        congr 3
        omega
      all_goals nofun
    | response =>
      have hxn : l.next ∉ xs := fun hm => Nat.lt_irrefl _ (hx _ hm)
      obtain ⟨c₁, e₁, g₁⟩ := link_ok debug h hn hxn
      obtain ⟨c', e, g⟩ := ih (l := ⟨l.next + 1, l.gone, l.lost⟩) hd'
        (fun k hm => Nat.lt_succ_of_lt (hk k hm)) g₁
        (List.nodup_append.mpr ⟨hn, by simp, fun a ha b hb he => by
          rw [List.mem_singleton.mp hb] at he
          exact hxn (he ▸ ha)⟩) (by
          intro x hm
          rcases List.mem_append.mp hm with hm | hm
          · exact Nat.lt_succ_of_lt (hx x hm)
          · rw [List.mem_singleton.mp hm]
            exact Nat.lt_succ_self _)
      refine ⟨c', ?_, by simpa [responses] using g⟩
      rw [processRequests]
      · simp only [processRequest, construct, Out.ok_bind, e₁]
        rw [e]
        simp only [used, unreadable]
        rw [List.filter_cons_of_pos (by rfl), List.length_cons]
        congr 3
        omega
      all_goals nofun

theorem is_nil : Is ⟨none, none, []⟩ [] :=
  ⟨rfl, rfl, fun n _ => by cases n <;> rfl, nofun, nofun⟩

theorem linkAll_ok {rs : List Nat} {c : Chain} {xs : List Nat} (h : Is c xs)
    (hn : (xs ++ rs).Nodup) : ∃ c', linkAll rs c = .ok c' ∧ Is c' (xs ++ rs) := by
  induction rs generalizing c xs with
  | nil => exact ⟨c, rfl, by simpa using h⟩
  | cons r rs ih =>
    have hn' := List.nodup_append.mp hn
    obtain ⟨c₁, e₁, g₁⟩ := link_ok false h hn'.1 (r := r)
      fun hm => hn'.2.2 r hm r (List.mem_cons_self ..) rfl
    obtain ⟨c₂, e₂, g₂⟩ := ih g₁ (by simpa using hn)
    exact ⟨c₂, by rw [linkAll, e₁, Out.ok_bind, e₂], by simpa using g₂⟩

theorem responses_ge {os : List Outcome} {n x : Nat} (h : x ∈ responses os n) : n ≤ x := by
  induction os generalizing n with
  | nil => cases h
  | cons o os ih =>
    cases o <;> simp only [responses] at h
    · exact ih h
    · exact ih h
    · exact ih h
    · have := ih h
      omega
    · rcases List.mem_cons.mp h with rfl | h
      · exact Nat.le_refl _
      · have := ih h
        omega

theorem responses_nodup (os : List Outcome) (n : Nat) : (responses os n).Nodup := by
  induction os generalizing n with
  | nil => exact List.nodup_nil
  | cons o os ih =>
    cases o <;> simp only [responses]
    · exact ih n
    · exact ih n
    · exact ih n
    · exact ih (n + 1)
    · exact List.nodup_cons.mpr ⟨fun h => by have := responses_ge h; omega, ih (n + 1)⟩

theorem unpackAll_ok {os : List Outcome} {l : Ledger} (hk : Known l) :
    unpackAll os l = .ok (responses os l.next, ⟨l.next + used os,
      l.gone ++ unreadable os l.next, l.lost⟩) := by
  induction os generalizing l with
  | nil => simp [unpackAll, responses, used, unreadable]
  | cons o os ih =>
    cases o with
    | absent =>
      simp only [unpackAll, processRequest, Out.ok_bind, ih hk]
      rfl
    | noEndpoint =>
      simp only [unpackAll, processRequest, Out.ok_bind, ih hk]
      rfl
    | notPacked =>
      simp only [unpackAll, processRequest, Out.ok_bind, ih hk]
      rfl
    | unreadable =>
      have hno : l.next ∉ l.gone := fun hm => Nat.lt_irrefl _ (hk _ hm)
      have e₁ : destruct l.next ⟨l.next + 1, l.gone, l.lost⟩ =
          .ok ⟨l.next + 1, l.gone ++ [l.next], l.lost⟩ := destruct_eq ⟨Nat.lt_succ_self _, hno⟩
      have hk' : Known ⟨l.next + 1, l.gone ++ [l.next], l.lost⟩ := by
        intro k hm
        rcases List.mem_append.mp hm with hm | hm
        · exact Nat.lt_succ_of_lt (hk k hm)
        · rw [List.mem_singleton.mp hm]
          exact Nat.lt_succ_self _
      simp only [unpackAll, processRequest, construct, e₁, Out.ok_bind, ih hk', used, responses,
        unreadable, List.append_assoc, List.singleton_append, Option.toList_none, List.nil_append]
      rw [List.filter_cons_of_pos (by rfl), List.length_cons]
      congr 3
      omega
    | response =>
      have hk' : Known ⟨l.next + 1, l.gone, l.lost⟩ := fun k hm => Nat.lt_succ_of_lt (hk k hm)
      simp only [unpackAll, processRequest, construct, Out.ok_bind, ih hk', used, responses,
        unreadable, Option.toList_some, List.singleton_append]
      rw [List.filter_cons_of_pos (by rfl), List.length_cons]
      congr 3
      omega

end Hx.Lives

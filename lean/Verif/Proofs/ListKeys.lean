import Mathlib.Data.List.Count

/-!
# Helper lemmas: lists and their parts by key
-/

namespace Hx.Keys

variable {K E : Type} [DecidableEq K]

/-- Parts with the right keys are the parts of one list. -/
theorem merge (key : E → K) (ks : List K) : ∀ (F : K → List E), (∀ k, ∀ e ∈ F k, key e = k) →
    (∀ k, (F k).length = ks.count k) →
    ∃ A : List E, A.map key = ks ∧ ∀ k, A.filter (fun e => decide (key e = k)) = F k := by
  induction ks with
  | nil =>
    intro F _ hl
    refine ⟨[], rfl, fun k => ?_⟩
    have := hl k
    rw [List.count_nil] at this
    rw [List.eq_nil_of_length_eq_zero this]
    rfl
  | cons k0 ks ih =>
    intro F hk hl
    have h0 := hl k0
    rw [List.count_cons_self] at h0
    obtain ⟨e, more, he⟩ : ∃ e more, F k0 = e :: more := by
      cases h : F k0 with
      | nil => rw [h] at h0; cases h0
      | cons e more => exact ⟨e, more, rfl⟩
    have hke : key e = k0 := hk k0 e (by rw [he]; simp)
    obtain ⟨A, h1, h2⟩ := ih (fun k => if k = k0 then more else F k) (by
      intro k x hx
      split at hx
      · rename_i hkk
        subst hkk
        exact hk _ x (by rw [he]; simp [hx])
      · exact hk k x hx) (by
      intro k
      split
      · rename_i hkk
        subst hkk
        rw [he, List.length_cons] at h0
        omega
      · rename_i hkk
        rw [hl k, List.count_cons_of_ne (Ne.symm hkk)])
    refine ⟨e :: A, by rw [List.map_cons, h1, hke], fun k => ?_⟩
    have h2 := h2 k
    by_cases hkk : k = k0
    · subst hkk
      rw [if_pos rfl] at h2
      rw [List.filter_cons_of_pos (by simp [hke]), h2, he]
    · rw [if_neg hkk] at h2
      rw [List.filter_cons_of_neg (by simp [hke, Ne.symm hkk]), h2]

/-- A list is given by its keys and the parts by key. -/
theorem ext {key : E → K} {A B : List E} (hk : A.map key = B.map key)
    (hf : ∀ k, A.filter (fun e => decide (key e = k)) = B.filter (fun e => decide (key e = k))) : A = B := by
  induction A generalizing B with
  | nil =>
    cases B with
    | nil => rfl
    | cons b B => cases hk
  | cons a A ih =>
    cases B with
    | nil => cases hk
    | cons b B =>
      rw [List.map_cons, List.map_cons, List.cons.injEq] at hk
      have h0 := hf (key a)
      rw [List.filter_cons_of_pos (by simp), List.filter_cons_of_pos (by simp [hk.1])] at h0
      have hab := (List.cons.inj h0).1
      subst hab
      congr 1
      refine ih hk.2 (fun k => ?_)
      have := hf k
      by_cases hak : key a = k
      · rw [List.filter_cons_of_pos (by simp [hak]), List.filter_cons_of_pos (by simp [hak])] at this
        exact (List.cons.inj this).2
      · rw [List.filter_cons_of_neg (by simp [hak]), List.filter_cons_of_neg (by simp [hak])] at this
        exact this

end Hx.Keys

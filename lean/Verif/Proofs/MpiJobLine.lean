import Verif.Proofs.MpiRounds
import Verif.Proofs.ListKeys

/-!
# Helper lemmas: the requests of one client in its order
-/

namespace Hx.Mpi
open Hx Spec.Mpi

variable {n L : Nat} {α β γ W : Type}

/-- Entries of the log are requests of the client they are attributed to. -/
theorem entry_target {log : List (Entry n α β)} {prog : Fin n → List (Act n α)}
    (h : ∀ c s b, (logOf c s b log).map Prod.fst <+: sentTo s b (targets c (prog c))) {e : Entry n α β} (he : e ∈ log) :
    (e.rank, e.wire, e.req) ∈ targets e.src (prog e.src) := by
  have h1 : e.req ∈ (logOf e.src e.rank e.wire log).map Prod.fst := by
    unfold logOf
    rw [List.map_map]
    exact List.mem_map.mpr ⟨e, List.mem_filter.mpr ⟨he, by simp⟩, rfl⟩
  have h2 := (h e.src e.rank e.wire).subset h1
  unfold sentTo at h2
  obtain ⟨x, hx, hxe⟩ := List.mem_map.mp h2
  obtain ⟨hx, hk⟩ := List.mem_filter.mp hx
  have hk := of_decide_eq_true hk
  obtain ⟨a, b, p⟩ := x
  simp only at hk hxe
  rw [← hk.1, ← hk.2, ← hxe]
  exact hx

/-- The requests of a client, in its order, with what is known about each. -/
theorem client_line {log : List (Entry n α β)} (P : List (Entry n α β × γ)) (hP : P.map Prod.fst = log) (c : Fin n)
    {T : List (Fin n × Bool × α)} {got : List (Got n β)}
    (hreq : ∀ s b, (logOf c s b log).map Prod.fst = sentTo s b T)
    (hres : ∀ s b, gotFrom s b got = (logOf c s b log).map Prod.snd)
    (hord : got.map (fun x => (x.rank, x.wire)) = T.map (fun x => (x.1, x.2.1))) :
    ∃ A : List (Entry n α β × γ), A.map (fun p => (p.1.rank, p.1.wire, p.1.req)) = T ∧
      got.map (·.res) = A.map (fun p => p.1.res) ∧
      ∀ s b, A.filter (fun p => decide ((p.1.rank, p.1.wire) = (s, b))) =
        P.filter (fun p => decide (p.1.src = c ∧ p.1.rank = s ∧ p.1.wire = b)) := by
  subst hP
  have hlog : ∀ s b, logOf c s b (P.map Prod.fst) =
      (P.filter (fun p => decide (p.1.src = c ∧ p.1.rank = s ∧ p.1.wire = b))).map (fun p => (p.1.req, p.1.res)) := by
    intro s b
    unfold logOf
    rw [List.filter_map, List.map_map]
    rfl
  obtain ⟨A, h1, h2⟩ := Keys.merge (fun p : Entry n α β × γ => (p.1.rank, p.1.wire)) (T.map (fun x => (x.1, x.2.1)))
    (fun k => P.filter (fun p => decide (p.1.src = c ∧ p.1.rank = k.1 ∧ p.1.wire = k.2)))
    (by
      intro k e he
      have := of_decide_eq_true (List.mem_filter.mp he).2
      rw [this.2.1, this.2.2])
    (by
      intro k
      have := congrArg List.length (hreq k.1 k.2)
      rw [hlog, List.length_map, List.length_map] at this
      rw [this]
      unfold sentTo
      unfold List.count
      rw [List.length_map, List.countP_map, List.countP_eq_length_filter]
      congr 1
      apply List.filter_congr
      intro x _
      obtain ⟨k1, k2⟩ := k
      simp only [Function.comp]
      rw [Bool.eq_iff_iff]
      simp)
  have h2' : ∀ s b, A.filter (fun p => decide ((p.1.rank, p.1.wire) = (s, b))) =
        P.filter (fun p => decide (p.1.src = c ∧ p.1.rank = s ∧ p.1.wire = b)) := fun s b => h2 (s, b)
  refine ⟨A, ?_, ?_, h2'⟩
  · refine Keys.ext (key := fun x : Fin n × Bool × α => (x.1, x.2.1)) ?_ ?_
    · rw [List.map_map, ← h1]
      rfl
    · intro k
      obtain ⟨s, b⟩ := k
      rw [List.filter_map]
      have e1 : A.filter ((fun e : Fin n × Bool × α => decide ((e.1, e.2.1) = (s, b))) ∘ fun p => (p.1.rank, p.1.wire, p.1.req)) =
          P.filter (fun p => decide (p.1.src = c ∧ p.1.rank = s ∧ p.1.wire = b)) := h2' s b
      rw [e1]
      have e2 := hreq s b
      rw [hlog, List.map_map] at e2
      have e3 := congrArg (List.map (fun p => (s, b, p))) e2
      rw [List.map_map] at e3
      have e4 : (P.filter (fun p => decide (p.1.src = c ∧ p.1.rank = s ∧ p.1.wire = b))).map (fun p => (p.1.rank, p.1.wire, p.1.req)) =
          (P.filter (fun p => decide (p.1.src = c ∧ p.1.rank = s ∧ p.1.wire = b))).map ((fun p => (s, b, p)) ∘ Prod.fst ∘ fun p => (p.1.req, p.1.res)) := by
        apply List.map_congr_left
        intro p hp
        have := of_decide_eq_true (List.mem_filter.mp hp).2
        simp only [Function.comp, this.2.1, this.2.2]
      rw [e4, e3]
      unfold sentTo
      rw [List.map_map]
      have e5 : T.filter (fun x => decide (x.1 = s ∧ x.2.1 = b)) = T.filter (fun e => decide ((e.1, e.2.1) = (s, b))) := by
        apply List.filter_congr
        intro x _
        rw [Bool.eq_iff_iff]
        simp
      rw [e5]
      conv_rhs => rw [← List.map_id (T.filter (fun e => decide ((e.1, e.2.1) = (s, b))))]
      apply List.map_congr_left
      intro p hp
      have := of_decide_eq_true (List.mem_filter.mp hp).2
      simp only [Prod.mk.injEq] at this
      simp only [Function.comp, ← this.1, ← this.2, id]
  · have key : got = A.map (fun p => (⟨p.1.rank, p.1.wire, p.1.res⟩ : Got n β)) := by
      refine Keys.ext (key := fun x : Got n β => (x.rank, x.wire)) ?_ ?_
      · rw [List.map_map, hord, ← h1]
        rfl
      · intro k
        obtain ⟨s, b⟩ := k
        rw [List.filter_map]
        have e1 : A.filter ((fun e : Got n β => decide ((e.rank, e.wire) = (s, b))) ∘ fun p => (⟨p.1.rank, p.1.wire, p.1.res⟩ : Got n β)) =
            P.filter (fun p => decide (p.1.src = c ∧ p.1.rank = s ∧ p.1.wire = b)) := h2' s b
        rw [e1]
        have e2 := hres s b
        rw [hlog, List.map_map] at e2
        have e3 := congrArg (List.map (fun p => (⟨s, b, p⟩ : Got n β))) e2
        rw [List.map_map] at e3
        have e4 : (P.filter (fun p => decide (p.1.src = c ∧ p.1.rank = s ∧ p.1.wire = b))).map (fun p => (⟨p.1.rank, p.1.wire, p.1.res⟩ : Got n β)) =
            (P.filter (fun p => decide (p.1.src = c ∧ p.1.rank = s ∧ p.1.wire = b))).map ((fun p => (⟨s, b, p⟩ : Got n β)) ∘ Prod.snd ∘ fun p => (p.1.req, p.1.res)) := by
          apply List.map_congr_left
          intro p hp
          have := of_decide_eq_true (List.mem_filter.mp hp).2
          simp only [Function.comp, this.2.1, this.2.2]
        rw [e4, ← e3]
        unfold gotFrom
        rw [List.map_map]
        have e5 : got.filter (fun x => decide (x.rank = s ∧ x.wire = b)) = got.filter (fun e => decide ((e.rank, e.wire) = (s, b))) := by
          apply List.filter_congr
          intro x _
          rw [Bool.eq_iff_iff]
          simp
        rw [e5]
        conv_lhs => rw [← List.map_id (got.filter (fun e => decide ((e.rank, e.wire) = (s, b))))]
        apply List.map_congr_left
        intro p hp
        have := of_decide_eq_true (List.mem_filter.mp hp).2
        simp only [Prod.mk.injEq] at this
        simp only [Function.comp, ← this.1, ← this.2, id]
    rw [key, List.map_map]
    rfl

end Hx.Mpi

namespace Hx.Keys

/-- A list that is mapped to a concatenation is one. -/
theorem split_flatMap {E B : Type} (g : E → B) (T : Nat → List B) (is : List Nat) (hn : is.Nodup) : ∀ A : List E,
    A.map g = is.flatMap T → ∃ F : Nat → List E, A = is.flatMap F ∧ ∀ i ∈ is, (F i).map g = T i := by
  induction is with
  | nil =>
    intro A hA
    exact ⟨fun _ => [], by simpa using hA, by simp⟩
  | cons i is ih =>
    intro A hA
    rw [List.flatMap_cons] at hA
    obtain ⟨A1, A2, rfl, h1, h2⟩ := List.map_eq_append_iff.mp hA
    rw [List.nodup_cons] at hn
    obtain ⟨F, e1, e2⟩ := ih hn.2 A2 h2
    refine ⟨fun j => if j = i then A1 else F j, ?_, ?_⟩
    · rw [List.flatMap_cons, if_pos rfl, e1]
      congr 1
      unfold List.flatMap
      congr 1
      apply List.map_congr_left
      intro j hj
      rw [if_neg (by rintro rfl; exact hn.1 hj)]
    · intro j hj
      by_cases hji : j = i
      · subst hji
        simp only [if_true]
        exact h1
      · simp only [if_neg hji]
        exact e2 j ((List.mem_cons.mp hj).resolve_left hji)

/-- The part of a concatenation with a tag. -/
theorem filter_flatMap {E : Type} (tag : E → Nat) (F : Nat → List E) (is : List Nat) (hn : is.Nodup)
    (hF : ∀ i ∈ is, ∀ e ∈ F i, tag e = i) {i : Nat} (hi : i ∈ is) :
    (is.flatMap F).filter (fun e => decide (tag e = i)) = F i := by
  induction is with
  | nil => cases hi
  | cons j is ih =>
    rw [List.nodup_cons] at hn
    rw [List.flatMap_cons, List.filter_append]
    by_cases hij : i = j
    · subst hij
      rw [List.filter_eq_self.mpr (fun e he => by simp [hF i (by simp) e he]),
        List.filter_eq_nil_iff.mpr, List.append_nil]
      intro e he hd
      obtain ⟨k, hk, he⟩ := List.mem_flatMap.mp he
      have := hF k (by simp [hk]) e he
      rw [of_decide_eq_true hd] at this
      subst this
      exact hn.1 hk
    · rw [List.filter_eq_nil_iff.mpr, List.nil_append]
      · exact ih hn.2 (fun k hk => hF k (by simp [hk])) ((List.mem_cons.mp hi).resolve_left hij)
      · intro e he hd
        have := hF j (by simp) e he
        rw [of_decide_eq_true hd] at this
        exact hij this

end Hx.Keys

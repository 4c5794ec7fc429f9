import Verif.Proofs.Overlap

/-!
# Helper lemmas: which change of a pair can be the latest one a GET sees
-/

namespace Hx.Job
open Hx Msg Spec Process Store Results Props

variable {accepts : Val → Bool} {hash : Bytes → Bytes → Out Int}

theorem mem_writesBy {k : Nat} {e : Ev} {v : List (Nat × Ev)} : e ∈ writesBy k v ↔ (k, e) ∈ v := by
  unfold writesBy
  simp only [List.mem_map, List.mem_filter, decide_eq_true_eq, Prod.exists]
  constructor
  · rintro ⟨a, b, ⟨h, rfl⟩, rfl⟩; exact h
  · intro h; exact ⟨k, e, ⟨h, rfl⟩, rfl⟩

private theorem writes_pair {s p : Val} {l : List Served} : ∀ z ∈ writes accepts s p l, ofPair s p z.2 = true := by
  intro z hz
  obtain ⟨y, -, hz⟩ := List.mem_flatMap.mp hz
  obtain ⟨e, he, rfl⟩ := List.mem_map.mp hz
  exact (List.mem_filter.mp he).2

/-- The order of the log is the order of the writes. -/
private theorem writes_order {s p : Val} {log before rest : List Served} (hlog : log = before ++ rest) {k a : Nat} (hka : k ≠ a)
    (h : Finished log k a) : (writes accepts s p before).Pairwise (fun y z => ¬ (y.1 = a ∧ z.1 = k)) := by
  unfold Finished at h
  rw [hlog] at h
  have h := (List.pairwise_append.mp h).1
  unfold writes
  rw [List.pairwise_flatMap]
  refine ⟨?_, ?_⟩
  · intro y _
    rw [List.pairwise_map]
    refine List.pairwise_of_forall ?_
    rintro e e' ⟨h1, h2⟩
    exact hka (h2.symm.trans h1)
  · refine h.imp ?_
    intro y z hyz u hu v hv
    obtain ⟨e, -, rfl⟩ := List.mem_map.mp hu
    obtain ⟨e', -, rfl⟩ := List.mem_map.mp hv
    exact hyz

/-- The latest change that was executed explains the result of the GET. -/
theorem explained {t : Transform} {turns : List Turn} {log before after : List Served} {y : Served} {i : Nat} {g : Blob × Blob}
    {r : Result} (ha : Answered t.accepts hash turns log i before y after) (hy : (g.1.val, g.2.val) ∈ askedIn y.req.body)
    (hr : Returned t ((writes t.accepts g.1.val g.2.val before).map Prod.snd) g r) :
    Explained t hash turns log i g r := by
  have hseen := ha.seen _ hy
  simp only at hseen
  have hpair := writes_pair (accepts := t.accepts) (s := g.1.val) (p := g.2.val) (l := before)
  have horder : ∀ k a, k ≠ a → Finished log k a →
      (writes t.accepts g.1.val g.2.val before).Pairwise (fun y z => ¬ (y.1 = a ∧ z.1 = k)) :=
    fun k a hka h => writes_order ha.split hka h
  generalize hv : writes t.accepts g.1.val g.2.val before = v at hseen hpair horder hr
  have latest : ∀ V k e, v = V ++ [(k, e)] → ∃ x, Latest t.accepts hash turns log i g.1.val g.2.val k x e := by
    intro V k e hV
    have hmem : (k, e) ∈ v := by rw [hV]; simp
    have hk := hseen.all _ hmem
    have hx : turns[k]? = some turns[k] := List.getElem?_eq_getElem hk
    have hlast : (writesBy k v).getLast? = some e := by
      rw [hV]
      simp [writesBy, List.filter_append]
    refine ⟨turns[k], hx, ?_, ?_, ?_, ?_, ?_, ?_⟩
    · exact (hseen.order k _ hx).subset (mem_writesBy.mpr hmem)
    · intro hne hf
      have := mem_writesBy.mpr hmem
      rw [hseen.later k hf hne] at this
      cases this
    · intro hki
      rw [putsOf, ← hseen.own _ (by rw [← hki]; exact hx), ← hki]
      exact hlast
    · intro hki hf
      rw [changes, ← hseen.finished k _ hx hf hki]
      exact hlast
    · intro k' x' hx' hkk hki hf hf'
      rw [changes, ← hseen.finished k' _ hx' hf' hki, List.eq_nil_iff_forall_not_mem]
      intro e' he'
      have hm := mem_writesBy.mp he'
      rw [hV] at hm
      rcases List.mem_append.mp hm with hm | hm
      · have := horder k k' (Ne.symm hkk) hf
        rw [hV, List.pairwise_append] at this
        exact this.2.2 _ hm (k, e) (by simp) ⟨rfl, rfl⟩
      · simp only [List.mem_singleton, Prod.mk.injEq] at hm
        exact hkk hm.1
    · intro x' hx' hki hf
      rw [putsOf, ← hseen.own _ hx', List.eq_nil_iff_forall_not_mem]
      intro e' he'
      have hm := mem_writesBy.mp he'
      rw [hV] at hm
      rcases List.mem_append.mp hm with hm | hm
      · have := horder k i hki hf
        rw [hV, List.pairwise_append] at this
        exact this.2.2 _ hm (k, e) (by simp) ⟨rfl, rfl⟩
      · simp only [List.mem_singleton, Prod.mk.injEq] at hm
        exact hki hm.1.symm
  rcases List.eq_nil_or_concat v with hnil | ⟨V, ⟨k, e⟩, hV⟩
  · have hst := hr.absent (by rw [hnil]; rfl)
    refine ⟨hr.kind, hr.subject, hr.predicate, Or.inr hst, ?_, ?_⟩
    · intro h
      rw [hst] at h
      cases h
    · intro _
      refine Or.inr fun k x hx => ⟨?_, ?_⟩
      · rintro rfl
        rw [putsOf, ← hseen.own _ hx, hnil]
        rfl
      · intro hki hf
        rw [changes, ← hseen.finished k _ hx hf hki, hnil]
        rfl
  · rw [List.concat_eq_append] at hV
    have hp := hpair (k, e) (by rw [hV]; simp)
    obtain ⟨x, hx⟩ := latest V k e hV
    cases e with
    | put s p o =>
      simp only [ofPair, decide_eq_true_eq] at hp
      obtain ⟨rfl, rfl⟩ := hp
      obtain ⟨h1, h2⟩ := hr.found o (by
        rw [hV, List.map_append, List.map_singleton, Store.lastObj_put, if_pos ⟨rfl, rfl⟩])
      refine ⟨hr.kind, hr.subject, hr.predicate, Or.inl h1, fun _ => ⟨k, x, o, hx, h2⟩, ?_⟩
      intro h
      rw [h1] at h
      cases h
    | del s p =>
      simp only [ofPair, decide_eq_true_eq] at hp
      obtain ⟨rfl, rfl⟩ := hp
      have hst := hr.absent (by rw [hV, List.map_append, List.map_singleton, Store.lastObj_del, if_pos ⟨rfl, rfl⟩])
      refine ⟨hr.kind, hr.subject, hr.predicate, Or.inr hst, ?_, fun _ => Or.inl ⟨k, x, hx⟩⟩
      intro h
      rw [hst] at h
      cases h

/-- Without a flush that changes the pair at the same time, the result is the object of the latest PUT. -/
theorem explained_put {t : Transform} {turns : List Turn} {log : List Served} {a i : Nat} {xa xi : Turn} {g : Blob × Blob}
    {r : Result} {o : Val} (h : Explained t hash turns log i g r) (hxa : turns[a]? = some xa) (hxi : turns[i]? = some xi)
    (hai : a ≠ i) (hf : Finished log a i)
    (hlast : (changes t.accepts hash g.1.val g.2.val xa).getLast? = some (.put g.1.val g.2.val o))
    (hown : putsOf t.accepts hash g.1.val g.2.val xi = [])
    (hothers : ∀ k x, turns[k]? = some x → k ≠ a → k ≠ i → changes t.accepts hash g.1.val g.2.val x = [] ∨
      Finished log k a ∨ Finished log i k) :
    r.status = hxSuccess ∧ ∃ b : Blob, r.object = .own b ∧ b.bytes = t.R o ∧ b.typ = o.typ := by
  have only : ∀ k x e, Latest t.accepts hash turns log i g.1.val g.2.val k x e → e = .put g.1.val g.2.val o := by
    intro k x e hl
    by_cases hka : k = a
    · subst hka
      have := hl.finished hai hf
      rw [show x = xa from Option.some.inj (hl.turn.symm.trans hxa), hlast] at this
      exact (Option.some.inj this).symm
    · exfalso
      by_cases hki : k = i
      · subst hki
        have := hl.own rfl
        rw [show x = xi from Option.some.inj (hl.turn.symm.trans hxi), hown] at this
        cases this
      · rcases hothers k x hl.turn hka hki with h1 | h1 | h1
        · have := hl.mem
          rw [h1] at this
          cases this
        · have := hl.between a xa hxa (Ne.symm hka) hai h1 hf
          rw [this] at hlast
          cases hlast
        · exact hl.began hki h1
  rcases h.status with hs | hs
  · obtain ⟨k, x, o', hl, hb⟩ := h.found hs
    have := only k x _ hl
    cases this
    exact ⟨hs, hb⟩
  · exfalso
    rcases h.absent hs with ⟨k, x, hl⟩ | hu
    · cases only k x _ hl
    · have := (hu a xa hxa).2 hai hf
      rw [this] at hlast
      cases hlast

end Hx.Job

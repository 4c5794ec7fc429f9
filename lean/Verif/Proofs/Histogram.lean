import Verif.Spec.Histogram

/-!
# Helper lemmas: histograms
-/

namespace Hx
open Hx Spec

namespace Dbl

theorem lt_iff (a b : Dbl) : lt a b = true ↔ isNaN a = false ∧ isNaN b = false ∧ rank a < rank b := by
  simp [lt, and_assoc]

theorem lt_of_lt_of_rank_le {v a b : Dbl} (hb : isNaN b = false) (h : lt v a = true) (hab : rank a ≤ rank b) :
    lt v b = true := by
  rw [lt_iff] at h ⊢
  exact ⟨h.1, hb, by omega⟩

end Dbl

namespace Hist

theorem getD_lt {α : Type} {l : List α} {d : α} {i : Nat} (h : i < l.length) : l.getD i d = l[i] := by
  simp [List.getD, h]

/-- Binary search over a monotone range. -/
theorem upperBound_spec (a : List Dbl) (v : Dbl) (first len : Nat)
    (mono : ∀ i j, first ≤ i → i ≤ j → j < first + len →
      Dbl.lt v (a.getD i 0) = true → Dbl.lt v (a.getD j 0) = true) :
    first ≤ upperBound a v first len ∧ upperBound a v first len ≤ first + len ∧
    (∀ i, first ≤ i → i < upperBound a v first len → Dbl.lt v (a.getD i 0) = false) ∧
    (∀ i, upperBound a v first len ≤ i → i < first + len → Dbl.lt v (a.getD i 0) = true) := by
  induction len using Nat.strongRecOn generalizing first with
  | _ len ih =>
    unfold upperBound
    split
    · rename_i h; subst h
      exact ⟨by omega, by omega, by intro i; omega, by intro i; omega⟩
    · rename_i h
      simp only
      have hh : len / 2 < len := Nat.div_lt_self (by omega) (by omega)
      split
      · rename_i hlt
        obtain ⟨h1, h2, h3, h4⟩ := ih (len / 2) hh first (fun i j hi hij hj => mono i j hi hij (by omega))
        refine ⟨h1, by omega, h3, ?_⟩
        intro i hi1 hi2
        by_cases hi : i < first + len / 2
        · exact h4 i hi1 hi
        · exact mono (first + len / 2) i (by omega) (by omega) hi2 hlt
      · rename_i hlt
        obtain ⟨h1, h2, h3, h4⟩ := ih (len - len / 2 - 1) (by omega) (first + len / 2 + 1)
          (fun i j hi hij hj => mono i j (by omega) hij (by omega))
        refine ⟨by omega, by omega, ?_, ?_⟩
        · intro i hi1 hi2
          by_cases hi : i < first + len / 2 + 1
          · cases hc : Dbl.lt v (a.getD i 0) with
            | false => rfl
            | true => exact absurd (mono i (first + len / 2) hi1 (by omega) (by omega) hc) hlt
          · exact h3 i (by omega) hi2
        · intro i hi1 hi2
          exact h4 i hi1 (by omega)

/-- A histogram with buckets `left`, right end `last` and counts `c`. -/
structure Ready (h : Hist) (left : List Dbl) (last : Dbl) (c : List Nat) : Prop where
  buckets : h.buckets = some (left ++ [last])
  counts : h.counts = some c
  size : h.size = left.length

theorem asc_mono {left : List Dbl} (ha : Ascending left) {v : Dbl} {i j : Nat} (hij : i ≤ j) (hj : j < left.length)
    (h : Dbl.lt v (left.getD i 0) = true) : Dbl.lt v (left.getD j 0) = true := by
  rcases Nat.lt_or_eq_of_le hij with hlt | rfl
  · have hi : i < left.length := by omega
    rw [getD_lt hi] at h
    rw [getD_lt hj]
    exact Dbl.lt_of_lt_of_rank_le (ha.num _ (List.getElem_mem hj)) h (List.pairwise_iff_getElem.mp ha.asc i j hi hj hlt)
  · exact h

/-- Number of buckets that do not start right of `v`. -/
theorem upperBound_left {left : List Dbl} (ha : Ascending left) (last v : Dbl) :
    ∃ r, upperBound (left ++ [last]) v 0 left.length = r ∧ r ≤ left.length ∧
      (∀ i, i < r → Dbl.lt v (left.getD i 0) = false) ∧
      (∀ i, r ≤ i → i < left.length → Dbl.lt v (left.getD i 0) = true) := by
  have hget : ∀ i, i < left.length → (left ++ [last]).getD i 0 = left.getD i 0 := by
    intro i hi
    rw [getD_lt hi, getD_lt (by simp; omega), List.getElem_append_left hi]
  obtain ⟨h1, h2, h3, h4⟩ := upperBound_spec (left ++ [last]) v 0 left.length (by
    intro i j _ hij hj h
    rw [hget j (by omega)]
    rw [hget i (by omega)] at h
    exact asc_mono ha hij (by omega) h)
  refine ⟨_, rfl, by omega, ?_, ?_⟩
  · intro i hi; rw [← hget i (by omega)]; exact h3 i (by omega) hi
  · intro i hi hi2; rw [← hget i hi2]; exact h4 i hi (by omega)

theorem inBucket_iff {left : List Dbl} {v : Dbl} {r : Nat} (hr : r ≤ left.length)
    (h1 : ∀ i, i < r → Dbl.lt v (left.getD i 0) = false)
    (h2 : ∀ i, r ≤ i → i < left.length → Dbl.lt v (left.getD i 0) = true) (i : Nat) (hi : i < left.length) :
    inBucket left i v = decide (i + 1 = r) := by
  unfold inBucket
  rcases Nat.lt_trichotomy (i + 1) r with h | h | h
  · rw [h1 i (by omega), h1 (i + 1) h]
    have : ¬ left.length ≤ i + 1 := by omega
    simp [this, Nat.ne_of_lt h]
  · rw [h1 i (by omega)]
    by_cases hl : left.length ≤ i + 1
    · rw [decide_eq_true hl, decide_eq_true h]; rfl
    · rw [h2 (i + 1) (by omega) (by omega), decide_eq_true h]; simp
  · rw [h2 i (by omega) hi]
    have : i + 1 ≠ r := by omega
    simp [this]

theorem covered_iff {left : List Dbl} (ha : Ascending left) {v : Dbl} {r : Nat}
    (h1 : ∀ i, i < r → Dbl.lt v (left.getD i 0) = false)
    (h2 : ∀ i, r ≤ i → i < left.length → Dbl.lt v (left.getD i 0) = true) :
    covered left v = decide (r ≠ 0) := by
  have hpos : 0 < left.length := List.length_pos_iff.mpr ha.ne
  unfold covered
  by_cases hr : r = 0
  · rw [h2 0 (by omega) hpos]; simp [hr]
  · rw [h1 0 (by omega)]; simp [hr]

theorem countP_append_one {α : Type} (p : α → Bool) (l : List α) (x : α) :
    (l ++ [x]).countP p = l.countP p + (if p x then 1 else 0) := by
  rw [List.countP_append, List.countP_singleton]

theorem getElem_tally {left vs : List Dbl} {i : Nat} (h : i < (tally left vs).length) :
    (tally left vs)[i] = vs.countP (inBucket left i) := by
  simp [tally]

theorem insert_ready {h : Hist} {left vs : List Dbl} (ha : Ascending left)
    (hr : Ready h left (rightEnd left vs) (tally left vs)) (v : Dbl) :
    Ready (insert h v).1 left (rightEnd left (vs ++ [v])) (tally left (vs ++ [v])) ∧
    (insert h v).1.count = h.count ∧ (insert h v).1.firstN = h.firstN ∧ (insert h v).1.cache = h.cache ∧
    (insert h v).1.gen = h.gen ∧ (insert h v).1.name = h.name := by
  obtain ⟨r, hub, hrl, h1, h2⟩ := upperBound_left ha (rightEnd left vs) v
  have hpos : 0 < left.length := List.length_pos_iff.mpr ha.ne
  have hcov := covered_iff ha h1 h2
  have hend : rightEnd left (vs ++ [v]) =
      if covered left v && Dbl.lt (rightEnd left vs) v then v else rightEnd left vs := by
    unfold rightEnd; rw [List.foldl_append]; rfl
  unfold insert
  rw [hr.buckets, hr.counts]
  simp only [hr.size, hub]
  rw [if_neg (by omega)]
  by_cases hr0 : r = 0
  · rw [if_pos hr0]
    have htally : tally left (vs ++ [v]) = tally left vs := by
      apply List.map_congr_left
      intro i hi
      rw [countP_append_one, inBucket_iff hrl h1 h2 i (List.mem_range.mp hi), hr0]
      simp
    rw [hend, hcov, htally]
    simp only [hr0, ne_eq, not_true_eq_false, decide_false, Bool.false_and]
    exact ⟨hr, by simp⟩
  · rw [if_neg hr0]
    refine ⟨⟨?_, ?_, ?_⟩, by simp⟩
    rotate_left 2
    · simp
    · simp only [hend, hcov]
      have hlast : (left ++ [rightEnd left vs]).getD left.length 0 = rightEnd left vs := by simp
      rw [hlast]
      simp only [ne_eq, hr0, not_false_eq_true, decide_true, Bool.true_and]
      split
      · simp
      · rfl
    · simp only [Option.some.injEq]
      apply List.ext_getElem
      · simp [tally]
      · intro i hi1 hi2
        have hi : i < left.length := by simpa [tally] using hi2
        have hl : (tally left vs).length = left.length := by simp [tally]
        rw [List.getElem_set]
        have hnew : (tally left (vs ++ [v]))[i] = vs.countP (inBucket left i) + (if i + 1 = r then 1 else 0) := by
          rw [getElem_tally, countP_append_one, inBucket_iff hrl h1 h2 i hi]
          simp
        have hold : ∀ k (hk : k < (tally left vs).length), (tally left vs)[k] = vs.countP (inBucket left k) := by
          intro k hk; rw [getElem_tally]
        rw [hnew]
        split
        · rename_i hri
          subst hri
          rw [getD_lt (by omega), hold, if_pos (by omega)]
        · rename_i hri
          rw [hold, if_neg (by omega)]; omega

theorem insertAll_ready {left : List Dbl} (ha : Ascending left) (ws : List Dbl) :
    ∀ {h : Hist} {vs : List Dbl}, Ready h left (rightEnd left vs) (tally left vs) →
    Ready (insertAll h ws) left (rightEnd left (vs ++ ws)) (tally left (vs ++ ws)) ∧
    (insertAll h ws).count = h.count ∧ (insertAll h ws).firstN = h.firstN ∧ (insertAll h ws).cache = h.cache ∧
    (insertAll h ws).gen = h.gen ∧ (insertAll h ws).name = h.name := by
  induction ws with
  | nil => intro h vs hr; rw [List.append_nil]; exact ⟨hr, rfl, rfl, rfl, rfl, rfl⟩
  | cons w ws ih =>
    intro h vs hr
    obtain ⟨h1, h2, h3, h4, h5, h6⟩ := insert_ready ha hr w
    obtain ⟨g1, g2, g3, g4, g5, g6⟩ := ih h1
    rw [List.append_assoc] at g1
    refine ⟨g1, g2.trans h2, g3.trans h3, g4.trans h4, g5.trans h5, g6.trans h6⟩

theorem addAll_append (h : Hist) (a b : List Dbl) : addAll h (a ++ b) = addAll h a >>= fun h => addAll h b := by
  induction a generalizing h with
  | nil => rfl
  | cons v a ih =>
    simp only [List.cons_append, addAll]
    cases add h v with
    | err => rfl
    | ub => rfl
    | ok x => simp only [Out.ok_bind]; exact ih _

theorem addAll_caching' (n : Nat) (g : Option Gen) (name : Bytes) (vs : List Dbl) :
    ∀ c : List Dbl, (c ++ vs).length < n →
    addAll ⟨name, n, g, some c, c.length, none, none, 0⟩ vs =
      .ok ⟨name, n, g, some (c ++ vs), (c ++ vs).length, none, none, 0⟩ := by
  induction vs with
  | nil => intro c _; rw [List.append_nil]; rfl
  | cons v vs ih =>
    intro c h
    rw [List.length_append, List.length_cons] at h
    simp only [addAll, add]
    rw [if_pos (by omega)]
    simp only [Out.ok_bind, List.take_length]
    rw [if_neg (by omega), Out.ok_bind]
    have := ih (c ++ [v]) (by simp; omega)
    rw [List.append_assoc, List.length_append, List.length_singleton] at this
    exact this

/-- While the cache fills up. -/
theorem addAll_caching (n : Nat) (g : Option Gen) (name : Bytes) (vs : List Dbl) (h : vs.length < n) :
    addAll (create n g name) vs = .ok ⟨name, n, g, some vs, vs.length, none, none, 0⟩ := by
  have := addAll_caching' n g name vs [] h
  simp only [create]
  rw [if_neg (by omega)]
  exact this

/-- After the buckets exist. -/
theorem addAll_ready {left : List Dbl} (ha : Ascending left) (ws : List Dbl) :
    ∀ {h : Hist} {vs : List Dbl}, Ready h left (rightEnd left vs) (tally left vs) → h.firstN ≤ h.count →
    ∃ h', addAll h ws = .ok h' ∧ Ready h' left (rightEnd left (vs ++ ws)) (tally left (vs ++ ws)) ∧
      h'.count = h.count + ws.length ∧ h'.firstN = h.firstN ∧ h'.cache = h.cache ∧ h'.gen = h.gen ∧ h'.name = h.name := by
  induction ws with
  | nil => intro h vs hr _; rw [List.append_nil]; exact ⟨h, rfl, hr, rfl, rfl, rfl, rfl, rfl⟩
  | cons w ws ih =>
    intro h vs hr hc
    have hr' : Ready { h with count := h.count + 1 } left (rightEnd left vs) (tally left vs) :=
      ⟨hr.buckets, hr.counts, hr.size⟩
    obtain ⟨h1, h2, h3, h4, h5, h6⟩ := insert_ready ha hr' w
    have hadd : add h w = .ok ((insert { h with count := h.count + 1 } w).1, true) := by
      unfold add
      rw [if_neg (by omega)]
      simp only [Out.ok_bind, hr.buckets, Option.isNone_some, Bool.false_eq_true, if_false]
      rw [if_pos (by omega)]
      simp only [Bool.not_true, Bool.false_eq_true, if_false]
      rw [if_pos (by omega)]
    obtain ⟨h', g1, g2, g3, g4, g5, g6, g7⟩ := ih h1 (by rw [h2, h3]; simp only; omega)
    rw [List.append_assoc] at g2
    refine ⟨h', ?_, g2, ?_, g4.trans h3, g5.trans h4, g6.trans h5, g7.trans h6⟩
    · simp only [addAll, hadd, Out.ok_bind]; exact g1
    · rw [g3, h2]; simp only [List.length_cons]; omega

/-- The value that fills the cache makes the buckets. -/
theorem addAll_full {left : List Dbl} (ha : Ascending left) (g : Gen) (name : Bytes) (vs : List Dbl) (hn : 0 < vs.length)
    (hg : g (some vs) = some left) :
    ∃ h, addAll (create vs.length (some g) name) vs = .ok h ∧ Ready h left (rightEnd left vs) (tally left vs) ∧
      h.count = vs.length ∧ h.firstN = vs.length ∧ h.cache = some vs ∧ h.gen = some g ∧ h.name = name := by
  rcases List.eq_nil_or_concat vs with rfl | ⟨ws, v, rfl⟩
  · cases hn
  · have hl : 0 < left.length := List.length_pos_iff.mpr ha.ne
    rw [List.concat_eq_append] at *
    rw [List.length_append, List.length_singleton] at *
    have hr0 : Ready ⟨name, ws.length + 1, some g, some (ws ++ [v]), ws.length + 1, some (left ++ [Dbl.minPos]),
        some (List.replicate left.length 0), left.length⟩ left (rightEnd left []) (tally left []) := by
      refine ⟨rfl, ?_, rfl⟩
      simp only [Option.some.injEq]
      apply List.ext_getElem
      · simp [tally]
      · intro i h1 h2; simp [tally]
    obtain ⟨h1, h2, h3, h4, h5, h6⟩ := insertAll_ready ha (ws ++ [v]) hr0
    refine ⟨_, ?_, h1, h2, h3, h4, h5, h6⟩
    rw [addAll_append, addAll_caching _ _ _ _ (by omega), Out.ok_bind]
    simp only [addAll, add]
    rw [if_pos (by omega)]
    simp only [Out.ok_bind, List.take_length]
    rw [if_pos (by omega)]
    simp only [Option.isNone_none, if_true, generate, hg]
    rw [if_neg (by simp)]
    rw [if_neg (by omega)]
    simp only [Out.ok_bind, Option.getD_some, Bool.not_true, Bool.false_eq_true, if_false]
    rw [if_neg]
    · rfl
    · rw [h2, h3]; simp

end Hist
end Hx

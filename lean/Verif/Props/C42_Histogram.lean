import Verif.Proofs.Histogram

/-!
# C42: histogram counts
-/

namespace Hx.Props
open Hx Spec Hist

/-- C42. Once `n` values have arrived and the generator has made ascending buckets from them, each
bucket's count is the number of values that lie in it; the boundaries are the generated ones
followed by the right end. -/
theorem C42_counts (g : Gen) (n : Nat) (name : Bytes) (vs left : List Dbl) (hn : 0 < n) (hl : n ≤ vs.length)
    (hg : g (some (vs.take n)) = some left) (ha : Ascending left) :
    ∃ h, addAll (create n (some g) name) vs = .ok h ∧ h.count = vs.length ∧ h.size = left.length ∧
      h.buckets = some (left ++ [rightEnd left vs]) ∧ h.counts = some (tally left vs) := by
  have hlen : (vs.take n).length = n := by rw [List.length_take]; omega
  obtain ⟨h1, e1, r1, c1, f1, -⟩ := addAll_full ha g name (vs.take n) (by omega) hg
  rw [hlen] at e1 c1 f1
  obtain ⟨h2, e2, r2, c2, -⟩ := addAll_ready ha (vs.drop n) r1 (by omega)
  rw [List.take_append_drop] at r2
  refine ⟨h2, ?_, ?_, r2.size, r2.buckets, r2.counts⟩
  · have := addAll_append (create n (some g) name) (vs.take n) (vs.drop n)
    rw [List.take_append_drop, e1, Out.ok_bind, e2] at this
    exact this
  · rw [c2, c1, List.length_drop]; omega

/-- Until then there are no buckets and no counts; the values are kept in order. -/
theorem C42_before (g : Option Gen) (n : Nat) (name : Bytes) (vs : List Dbl) (hl : vs.length < n) :
    ∃ h, addAll (create n g name) vs = .ok h ∧ h.count = vs.length ∧ h.buckets = none ∧ h.counts = none ∧
      h.cache = some vs :=
  ⟨_, addAll_caching n g name vs hl, rfl, rfl, rfl, rfl⟩

/-- A value that is not left of the first bucket lies in exactly one bucket, any other in none. -/
theorem C42_one_bucket (left : List Dbl) (ha : Ascending left) (v : Dbl) :
    (covered left v = true → ∃ i, i < left.length ∧ inBucket left i v = true ∧
      ∀ j, j < left.length → inBucket left j v = true → j = i) ∧
    (covered left v = false → ∀ j, j < left.length → inBucket left j v = false) := by
  obtain ⟨r, -, hr, h1, h2⟩ := upperBound_left ha 0 v
  have hc := covered_iff ha h1 h2
  constructor
  · intro h
    rw [hc, decide_eq_true_eq] at h
    refine ⟨r - 1, by omega, ?_, ?_⟩
    · rw [inBucket_iff hr h1 h2 _ (by omega)]; simp; omega
    · intro j hj hb
      rw [inBucket_iff hr h1 h2 j hj] at hb
      simp at hb; omega
  · intro h j hj
    rw [hc] at h
    rw [inBucket_iff hr h1 h2 j hj]
    simp at h ⊢; omega

/-- The counts sum to the number of values not left of the first bucket. -/
theorem C42_sum (left : List Dbl) (ha : Ascending left) (vs : List Dbl) :
    (tally left vs).sum = vs.countP (covered left) := by
  have hone : ∀ v, ((List.range left.length).map (fun i => if inBucket left i v then 1 else 0)).sum =
      if covered left v then 1 else 0 := by
    intro v
    obtain ⟨r, -, hr, h1, h2⟩ := upperBound_left ha 0 v
    rw [covered_iff ha h1 h2]
    have : ∀ k, k ≤ left.length → ((List.range k).map (fun i => if inBucket left i v then 1 else 0)).sum =
        if r ≠ 0 ∧ r ≤ k then 1 else 0 := by
      intro k hk
      induction k with
      | zero => simp
      | succ k ih =>
        rw [List.range_succ, List.map_append, List.sum_append, ih (by omega)]
        simp only [List.map_cons, List.map_nil, List.sum_cons, List.sum_nil,
          inBucket_iff hr h1 h2 k (by omega), decide_eq_true_eq]
        split <;> split <;> split <;> omega
    rw [this _ (Nat.le_refl _)]
    by_cases h0 : r = 0
    · simp [h0]
    · simp [h0, hr]
  induction vs with
  | nil =>
    simp only [tally, List.countP_nil]
    induction left.length with
    | zero => rfl
    | succ k ih => rw [List.range_succ, List.map_append, List.sum_append, ih]; rfl
  | cons v vs ih =>
    have : tally left (v :: vs) = (List.range left.length).map (fun i => vs.countP (inBucket left i) +
        (if inBucket left i v then 1 else 0)) := by
      unfold tally; apply List.map_congr_left; intro i _; rw [List.countP_cons]
    have hadd : ∀ (l : List Nat) (f g : Nat → Nat), (l.map (fun i => f i + g i)).sum = (l.map f).sum + (l.map g).sum := by
      intro l f g
      induction l with
      | nil => rfl
      | cons a l ih => simp only [List.map_cons, List.sum_cons, ih]; omega
    rw [this, hadd, hone, List.countP_cons, ← ih]; rfl

/-- C42, the sum, part: when no value lies left of the first bucket the counts sum to the number of
values added.
Missing for the full statement: later values below the first boundary, see
`C42_below_first_false`, and generators that fail, see `C42_generator_failure_ub`. -/
theorem C42_total_partial (g : Gen) (n : Nat) (name : Bytes) (vs left : List Dbl) (hn : 0 < n) (hl : n ≤ vs.length)
    (hg : g (some (vs.take n)) = some left) (ha : Ascending left) (hc : ∀ v ∈ vs, covered left v = true) :
    ∃ h c, addAll (create n (some g) name) vs = .ok h ∧ h.counts = some c ∧ c.sum = vs.length := by
  obtain ⟨h, h1, -, -, -, h2⟩ := C42_counts g n name vs left hn hl hg ha
  refine ⟨h, _, h1, h2, ?_⟩
  rw [C42_sum left ha, List.countP_eq_length]
  exact hc

/-- The right end is never left of a covered value, and is a value that was added or the smallest
positive number. -/
theorem C42_right_end (left vs : List Dbl) :
    (∀ v ∈ vs, covered left v = true → Dbl.lt (rightEnd left vs) v = false) ∧
    (rightEnd left vs = Dbl.minPos ∨ rightEnd left vs ∈ vs) := by
  have hmono : ∀ (ws : List Dbl) (r : Dbl), Dbl.isNaN r = false →
      Dbl.isNaN (ws.foldl (fun r v => if covered left v && Dbl.lt r v then v else r) r) = false ∧
      Dbl.rank r ≤ Dbl.rank (ws.foldl (fun r v => if covered left v && Dbl.lt r v then v else r) r) ∧
      (∀ v ∈ ws, covered left v = true →
        Dbl.lt (ws.foldl (fun r v => if covered left v && Dbl.lt r v then v else r) r) v = false) ∧
      (ws.foldl (fun r v => if covered left v && Dbl.lt r v then v else r) r = r ∨
        ws.foldl (fun r v => if covered left v && Dbl.lt r v then v else r) r ∈ ws) := by
    intro ws
    induction ws with
    | nil => intro r hr; exact ⟨hr, Int.le_refl _, by simp, Or.inl rfl⟩
    | cons w ws ih =>
      intro r hr
      simp only [List.foldl_cons]
      by_cases hw : (covered left w && Dbl.lt r w) = true
      · rw [if_pos hw]
        rw [Bool.and_eq_true, Dbl.lt_iff] at hw
        obtain ⟨i1, i2, i3, i4⟩ := ih w hw.2.2.1
        refine ⟨i1, by omega, ?_, ?_⟩
        · intro v hv hcv
          rcases List.mem_cons.mp hv with rfl | hv
          · cases hlt : Dbl.lt _ v with
            | false => rfl
            | true => rw [Dbl.lt_iff] at hlt; omega
          · exact i3 v hv hcv
        · rcases i4 with i4 | i4
          · exact Or.inr (by rw [i4]; exact List.mem_cons_self)
          · exact Or.inr (List.mem_cons_of_mem _ i4)
      · rw [if_neg hw]
        obtain ⟨i1, i2, i3, i4⟩ := ih r hr
        refine ⟨i1, i2, ?_, ?_⟩
        · intro v hv hcv
          rcases List.mem_cons.mp hv with rfl | hv
          · cases hlt : Dbl.lt _ v with
            | false => rfl
            | true =>
              exfalso; apply hw
              rw [Dbl.lt_iff] at hlt
              rw [hcv, Bool.true_and, Dbl.lt_iff]
              exact ⟨hr, hlt.2.1, by omega⟩
          · exact i3 v hv hcv
        · rcases i4 with i4 | i4
          · exact Or.inl i4
          · exact Or.inr (List.mem_cons_of_mem _ i4)
  obtain ⟨-, -, h3, h4⟩ := hmono vs Dbl.minPos (by decide)
  exact ⟨h3, h4⟩

/-! ## Instances and witnesses -/

/-- 1.0, 2.0, 3.0, 4.0 and 0.5. -/
def d1 : Dbl := 0x3ff0000000000000
def d2 : Dbl := 0x4000000000000000
def d3 : Dbl := 0x4008000000000000
def d4 : Dbl := 0x4010000000000000
def dHalf : Dbl := 0x3fe0000000000000

theorem exBuckets : Ascending [d1, d3] := ⟨by decide, by decide, by decide⟩

example : ∃ h c, addAll (create 2 (some (fun _ => some [d1, d3])) [104]) [d1, d2, d4, d3] = .ok h ∧
    h.counts = some c ∧ c.sum = 4 :=
  C42_total_partial _ 2 _ _ _ (by decide) (by decide) rfl exBuckets (by decide)

example : tally [d1, d3] [d1, d2, d4, d3] = [2, 2] := by decide

/-- C42 is false for values left of the first boundary: they are counted nowhere. The boundary is
the minimum of the first values, as the built-in generators make it. -/
theorem C42_below_first_false :
    ∃ h, addAll (create 1 (some (fun c => c)) [104]) [d1, dHalf] = .ok h ∧ h.count = 2 ∧ h.counts = some [1] := by
  obtain ⟨h, h1, h2, -, -, h3⟩ := C42_counts (fun c => c) 1 [104] [d1, dHalf] [d1] (by decide) (by decide) rfl
    ⟨by decide, by decide, by decide⟩
  exact ⟨h, h1, h2, by rw [h3]; decide⟩

/-- When the generator refuses the first values, the next value makes it read behind the cache. -/
theorem C42_generator_failure_ub (g : Gen) (n : Nat) (name : Bytes) (vs : List Dbl) (v : Dbl) (hn : 0 < n)
    (hl : vs.length = n) (hg : g (some vs) = none) : addAll (create n (some g) name) (vs ++ [v]) = .ub := by
  rcases List.eq_nil_or_concat vs with rfl | ⟨ws, w, rfl⟩
  · simp at hl; omega
  · rw [List.concat_eq_append] at *
    rw [List.length_append, List.length_singleton] at hl
    rw [List.append_assoc, addAll_append, addAll_caching _ _ _ _ (by omega), Out.ok_bind]
    simp only [List.cons_append, List.nil_append, addAll, add]
    rw [if_pos (by omega)]
    simp only [Out.ok_bind, List.take_length]
    rw [if_pos (by omega)]
    simp only [Option.isNone_none, if_true, generate, hg]
    rw [if_neg (by simp)]
    simp only [Out.ok_bind, Bool.not_false, if_true]
    rw [if_neg (by omega)]
    simp only [Out.ok_bind]
    rw [if_pos (by omega)]
    have hany : (some (ws ++ [w])).any (fun c => decide (c.length < ws.length + 1 + 1)) = true := by simp
    rw [if_pos hany]
    rfl

example : addAll (create 1 (some (fun _ => none)) [104]) ([d1] ++ [d2]) = .ub :=
  C42_generator_failure_ub _ _ _ _ _ (by decide) rfl rfl

/-- A histogram configured for zero first values never has buckets when the generator refuses a
null cache, as all built-in ones do: every value is lost and `add` reports an error. -/
theorem C42_zero_first_false (g : Gen) (hg : g none = none) (name : Bytes) (vs : List Dbl) :
    ∃ h, addAll (create 0 (some g) name) vs = .ok h ∧ h.count = vs.length ∧ h.buckets = none ∧ h.counts = none := by
  have : ∀ (vs : List Dbl) (k : Nat), addAll ⟨name, 0, some g, none, k, none, none, 0⟩ vs =
      .ok ⟨name, 0, some g, none, k + vs.length, none, none, 0⟩ := by
    intro vs
    induction vs with
    | nil => intro k; rfl
    | cons v vs ih =>
      intro k
      simp only [addAll, add]
      rw [if_neg (by omega)]
      simp only [Out.ok_bind]
      rw [if_pos (by omega)]
      simp only [Option.isNone_none, if_true, generate, hg, Option.any_none, Bool.false_eq_true, if_false, Out.ok_bind,
        Bool.not_false]
      rw [ih, List.length_cons]
      congr 2; omega
  have h := this vs 0
  rw [Nat.zero_add] at h
  exact ⟨_, h, rfl, rfl, rfl⟩

end Hx.Props

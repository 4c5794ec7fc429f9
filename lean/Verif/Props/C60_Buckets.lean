import Verif.Proofs.Buckets
import Verif.Props.C42_Histogram
import Mathlib.Analysis.Complex.ExponentialBounds

/-!
# C60: the library's bucket generators
-/

namespace Hx.Props
open Hx Spec Hist Buckets Config

/-- The comparison of finite `double`s in the histogram is the comparison of their numbers. -/
theorem C60_compare (a b : Dbl) (x y : ℚ) (ha : numberOf a = some x) (hb : numberOf b = some y) : Dbl.lt a b = true ↔ x < y := by
  have := lt_false_iff ha hb
  rw [← not_iff_not, Bool.not_eq_true, this, not_lt]

/-- The generators that work. -/
def Sound (g : GenFn) (extra : Nat) : Prop :=
  (g = .nBuckets ∧ 0 < extra ∧ extra < 2 ^ 64) ∨ g = .squareRoot ∨ g = .sturges ∨ g = .rice

private theorem binned {m : Math} {g : GenFn} {c : Ieee} {v : Dbl} {vs : List Dbl} {k : Nat}
    (h : toSize c = .ok k) :
    (toSize c >>= fun k => (Out.ok (some (usingBinCount (minElement v vs) (maxElement v vs) k)) : Out (Option (List Dbl)))) =
      .ok (some (usingBinCount (minElement v vs) (maxElement v vs) k)) := by
  rw [h, Out.ok_bind]

private theorem cube_root (n : Nat) : ∃ k, k ^ 3 ≤ n + 1 ∧ n + 1 < (k + 1) ^ 3 := by
  have hex : ∃ k, n + 1 < (k + 1) ^ 3 := ⟨n + 1, by nlinarith [Nat.zero_le (n ^ 3), Nat.zero_le (n ^ 2)]⟩
  refine ⟨Nat.find hex, ?_, Nat.find_spec hex⟩
  rcases Nat.eq_zero_or_pos (Nat.find hex) with h | h
  · rw [h]; omega
  · have := Nat.find_min hex (m := Nat.find hex - 1) (by omega)
    rw [Nat.sub_add_cancel h] at this
    omega

/-- C60, number of buckets: the extra argument; the square root of the number of values, rounded down; the binary logarithm, rounded
down, plus 2; the cube root, rounded down, plus 2, or one less when the cube root is a whole number and the library's cube root is
too small. -/
theorem C60_bucket_count (m : Math) (hm : MathOk m) (g : GenFn) (extra : Nat) (v : Dbl) (vs : List Dbl) (hl : vs.length + 1 < 2 ^ 32)
    (hg : Sound g extra) : ∃ left, run m g extra (some (v :: vs)) = .ok (some left) ∧
      (g = .nBuckets → left.length = extra) ∧
      (g = .squareRoot → left.length = Nat.sqrt (vs.length + 1)) ∧
      (g = .sturges → left.length = Nat.log 2 (vs.length + 1) + 2) ∧
      (g = .rice → ∀ k, k ^ 3 ≤ vs.length + 1 → vs.length + 1 < (k + 1) ^ 3 →
        left.length ≤ k + 2 ∧ k + 1 ≤ left.length ∧ (k ^ 3 < vs.length + 1 → left.length = k + 2)) := by
  rcases hg with ⟨rfl, h1, h2⟩ | rfl | rfl | rfl
  · obtain ⟨left, e, hlen⟩ : ∃ left, nBuckets extra v vs = some left ∧ left.length = extra := by
      unfold nBuckets
      rw [if_neg (by omega)]
      exact ⟨_, rfl, length_leftEnds _ _ _⟩
    exact ⟨left, congrArg Out.ok e, fun _ => hlen, by simp, by simp, by simp⟩
  · refine ⟨_, binned (m := m) (g := .squareRoot) (squareRoot_count hm (by omega) hl), by simp, fun _ => length_leftEnds _ _ _,
      by simp, by simp⟩
  · refine ⟨_, binned (m := m) (g := .sturges) (sturges_count hm (by omega) hl), by simp, by simp, fun _ => length_leftEnds _ _ _,
      by simp⟩
  · obtain ⟨k, hk1, hk2⟩ : ∃ k, k ^ 3 ≤ vs.length + 1 ∧ vs.length + 1 < (k + 1) ^ 3 := cube_root _
    obtain ⟨r, hr, r1, r2, r3⟩ := rice_count hm (by omega) hl hk1 hk2
    refine ⟨_, binned (m := m) (g := .rice) hr, by simp, by simp, by simp, ?_⟩
    intro _ k' h1 h2
    have e : k' = k := by
      have a1 : k < k' + 1 := lt_of_pow_lt_pow_left₀ 3 (by omega) (by omega)
      have a2 : k' < k + 1 := lt_of_pow_lt_pow_left₀ 3 (by omega) (by omega)
      omega
    subst e
    have : (usingBinCount (minElement v vs) (maxElement v vs) r).length = r := length_leftEnds _ _ _
    rw [this]
    exact ⟨r1, r2, r3⟩

/-- C60, part: these generators make ascending buckets out of any finite values, and the first bucket begins with the smallest.
Missing for the full statement: the generators for which this is false, see `C60_scott_false` and `C60_uniform_false`, and values
that are not finite, see `C60_infinite_false`. -/
theorem C60_good_partial (m : Math) (hm : MathOk m) (g : GenFn) (extra : Nat) (v : Dbl) (vs : List Dbl) (hf : AllFinite (v :: vs))
    (hl : vs.length + 1 < 2 ^ 32) (hg : Sound g extra) :
    ∃ left, run m g extra (some (v :: vs)) = .ok (some left) ∧ GoodBuckets (v :: vs) left := by
  have good : ∀ {c : Ieee} {k : Nat}, toSize c = .ok k → 1 ≤ k → k < 2 ^ 64 → ∃ left,
      (toSize c >>= fun k => (Out.ok (some (usingBinCount (minElement v vs) (maxElement v vs) k)) : Out (Option (List Dbl)))) =
        .ok (some left) ∧ GoodBuckets (v :: vs) left :=
    fun hc h1 h2 => ⟨_, binned (m := m) (g := g) hc, (usingBinCount_good hf h1 h2).1⟩
  rcases hg with ⟨rfl, h1, h2⟩ | rfl | rfl | rfl
  · obtain ⟨left, e, h, -⟩ := nBuckets_good hf h1 h2
    exact ⟨left, congrArg Out.ok e, h⟩
  · refine good (squareRoot_count hm (by omega) hl) (Nat.sqrt_pos.mpr (by omega)) ?_
    exact (Nat.sqrt_le_self _).trans_lt (by omega)
  · refine good (sturges_count hm (by omega) hl) (by omega) ?_
    have : Nat.log 2 (vs.length + 1) < 32 := Nat.log_lt_of_lt_pow (by omega) hl
    omega
  · obtain ⟨k, hk1, hk2⟩ : ∃ k, k ^ 3 ≤ vs.length + 1 ∧ vs.length + 1 < (k + 1) ^ 3 := cube_root _
    obtain ⟨r, hr, r1, r2, -⟩ := rice_count hm (by omega) hl hk1 hk2
    refine good hr (by omega) ?_
    have : k ≤ k ^ 3 := Nat.le_self_pow (by omega) k
    omega

/-- C60, where the buckets begin: the square root, Sturges' and Rice's generators divide the range of the values evenly, up to rounding
errors, for values of magnitude at most `A`. -/
theorem C60_even (m : Math) (hm : MathOk m) (g : GenFn) (extra : Nat) (v : Dbl) (vs : List Dbl) (hf : AllFinite (v :: vs))
    (hl : vs.length + 1 < 2 ^ 32) (hg : g = .squareRoot ∨ g = .sturges ∨ g = .rice) (A : ℚ) (hA : A ≤ 2 ^ 999)
    (hb : ∀ w ∈ v :: vs, ∀ x, numberOf w = some x → |x| ≤ A) :
    ∃ left x d, run m g extra (some (v :: vs)) = .ok (some left) ∧ (∃ a ∈ v :: vs, numberOf a = some x) ∧
      (∀ w ∈ v :: vs, ∀ z, numberOf w = some z → x ≤ z) ∧ Spread (v :: vs) d ∧
      ∀ i, i < left.length → ∃ u, numberOf (left.getD i 0) = some u ∧
        |u - (x + i * (d / left.length))| ≤ i * (A / 2 ^ 47 + 1 / 2 ^ 1050) := by
  obtain ⟨left, hr, -, c1, c2, c3⟩ := C60_bucket_count m hm g extra v vs hl (.inr hg)
  obtain ⟨x, y, z, hx, hy, hxy, -⟩ := spread_spec hf
  obtain ⟨m1, m2⟩ := minElement_spec vs v hf
  obtain ⟨M1, M2⟩ := maxElement_spec vs v hf
  have hform : ∃ k, left = usingBinCount (minElement v vs) (maxElement v vs) k := by
    rcases hg with rfl | rfl | rfl
    all_goals
      unfold run at hr
      simp only at hr
      generalize Buckets.toSize _ = c at hr
      cases c with
      | ok k => cases hr; exact ⟨k, rfl⟩
      | err => cases hr
      | ub => cases hr
  obtain ⟨k, rfl⟩ := hform
  have hlen : (usingBinCount (minElement v vs) (maxElement v vs) k).length = k := length_leftEnds _ _ _
  have hk : 1 ≤ k ∧ k ≤ 2 ^ 32 := by
    rw [hlen] at c1 c2 c3
    rcases hg with rfl | rfl | rfl
    · rw [c1 rfl]
      exact ⟨Nat.sqrt_pos.mpr (by omega), (Nat.sqrt_le_self _).trans hl.le⟩
    · rw [c2 rfl]
      have : Nat.log 2 (vs.length + 1) < 32 := Nat.log_lt_of_lt_pow (by omega) hl
      omega
    · obtain ⟨j, hk1, hk2⟩ : ∃ k, k ^ 3 ≤ vs.length + 1 ∧ vs.length + 1 < (k + 1) ^ 3 := cube_root _
      obtain ⟨a, b, -⟩ := c3 rfl j hk1 hk2
      have : j < 2 ^ 11 := by
        by_contra hh
        have := Nat.pow_le_pow_left (not_lt.mp hh) 3
        omega
      omega
  refine ⟨_, x, y - x, hr, ⟨_, m1, hx⟩, fun w hw z' hz => m2 w hw x z' hx hz,
    ⟨_, m1, _, M1, x, y, hx, hy, rfl, fun w hw z' hz => ⟨m2 w hw x z' hx hz, M2 w hw y z' hy hz⟩⟩, ?_⟩
  rw [hlen]
  intro i hi
  exact even_at hf hk.1 hk.2 hx hy (hb _ m1 x hx) (hb _ M1 y hy) hA i hi

/-- C60, where the buckets begin: the generator with a given number of buckets uses a whole number as width, the range divided by the
number of buckets and rounded up. -/
theorem C60_whole_widths (m : Math) (extra : Nat) (v : Dbl) (vs : List Dbl) (hf : AllFinite (v :: vs)) (h1 : 1 ≤ extra)
    (h2 : extra ≤ 2 ^ 32) (A : ℚ) (hA : A ≤ 2 ^ 999) (hb : ∀ w ∈ v :: vs, ∀ x, numberOf w = some x → |x| ≤ A) :
    ∃ left x d, run m .nBuckets extra (some (v :: vs)) = .ok (some left) ∧ (∃ a ∈ v :: vs, numberOf a = some x) ∧
      (∀ w ∈ v :: vs, ∀ z, numberOf w = some z → x ≤ z) ∧ Spread (v :: vs) d ∧
      ∃ w : Nat, d / extra - (d / extra / 2 ^ 51 + 1 / 2 ^ 1068) ≤ w ∧ (w : ℚ) < d / extra + (d / extra / 2 ^ 51 + 1 / 2 ^ 1068) + 1 ∧
        ∀ i, i < extra → ∃ u, numberOf (left.getD i 0) = some u ∧
          |u - (x + i * w)| ≤ i * ((A + extra) / 2 ^ 47 + 1 / 2 ^ 1050) := by
  obtain ⟨x, y, z, hx, hy, hxy, -⟩ := spread_spec hf
  obtain ⟨m1, m2⟩ := minElement_spec vs v hf
  obtain ⟨M1, M2⟩ := maxElement_spec vs v hf
  obtain ⟨left, hr, w, w1, w2, hi⟩ := nBuckets_at hf h1 h2 hx hy (hb _ m1 x hx) (hb _ M1 y hy) hA
  exact ⟨left, x, y - x, congrArg Out.ok hr, ⟨_, m1, hx⟩, fun w hw z' hz => m2 w hw x z' hx hz,
    ⟨_, m1, _, M1, x, y, hx, hy, rfl, fun w hw z' hz => ⟨m2 w hw x z' hx hz, M2 w hw y z' hy hz⟩⟩, w, w1, w2, hi⟩

/-- C60, what it means for a histogram, part: with one of these generators every one of the first `n` values is counted; later values
are counted unless they are smaller than the smallest of the first. -/
theorem C60_counted_partial (m : Math) (hm : MathOk m) (g : GenFn) (extra n : Nat) (name : Bytes) (vs : List Dbl) (hn : 0 < n)
    (hn2 : n < 2 ^ 32) (hl : n ≤ vs.length) (hf : AllFinite (vs.take n)) (hg : Sound g extra) (f : Gen)
    (he : run m g extra (some (vs.take n)) = .ok (f (some (vs.take n)))) :
    ∃ h c least, addAll (create n (some f) name) vs = .ok h ∧ h.counts = some c ∧ least ∈ vs.take n ∧
      (∀ w ∈ vs.take n, ∀ x y, numberOf least = some x → numberOf w = some y → x ≤ y) ∧
      c.sum = n + (vs.drop n).countP (fun w => !Dbl.lt w least) := by
  have hlen : (vs.take n).length = n := by rw [List.length_take]; omega
  obtain ⟨v, ws, hv⟩ : ∃ v ws, vs.take n = v :: ws := by
    cases h : vs.take n with
    | nil => rw [h] at hlen; simp at hlen; omega
    | cons a l => exact ⟨a, l, rfl⟩
  have hwl : ws.length + 1 = n := by rw [← hlen, hv]; rfl
  obtain ⟨left, hr, hgood⟩ := C60_good_partial m hm g extra v ws (hv ▸ hf) (by omega) hg
  rw [← hv] at hr hgood
  rw [he] at hr
  have hfl : f (some (vs.take n)) = some left := by injection hr
  obtain ⟨h, e, -, -, -, hc⟩ := C42_counts f n name vs left hn hl hfl hgood.asc
  obtain ⟨u, hu, hh, hmin⟩ := hgood.first
  refine ⟨h, _, u, e, hc, hu, hmin, ?_⟩
  rw [C42_sum left hgood.asc]
  have e0 : left.getD 0 0 = u := by
    cases left with
    | nil => cases hh
    | cons a l => simp only [List.head?_cons, Option.some.injEq] at hh; simpa using hh
  have h1 : (vs.take n).countP (covered left) = n := by
    rw [List.countP_eq_length.mpr (GoodBuckets.covers hgood hf), hlen]
  have h2 : covered left = fun w => !Dbl.lt w u := by
    funext w
    unfold covered
    rw [e0]
  conv_lhs => rw [← List.take_append_drop n vs]
  rw [List.countP_append, h1, h2]

/-- C60, false for Scott's rule: it divides the smallest value minus the largest by the width of a bucket. For all finite values it
makes no bucket, or converts a negative number or a NaN to an unsigned integer. -/
theorem C60_scott_false (m : Math) (hm : MathOk m) (extra : Nat) (v : Dbl) (vs : List Dbl) (hf : AllFinite (v :: vs))
    (hl : vs.length + 1 < 2 ^ 32) :
    run m .scott extra (some (v :: vs)) = .ub ∨ run m .scott extra (some (v :: vs)) = .ok (some []) := by
  rcases toSize_notPos (scott_notPos hm hf hl) with h | h
  · right
    show (toSize (scott m v vs) >>= _) = _
    rw [h]; rfl
  · left
    show (toSize (scott m v vs) >>= _) = _
    rw [h]; rfl

private theorem spread_unique {vs : List Dbl} {d e : ℚ} (h1 : Spread vs d) (h2 : Spread vs e) : d = e := by
  obtain ⟨a, ha, b, hb, x, y, hx, hy, rfl, h⟩ := h1
  obtain ⟨a', ha', b', hb', x', y', hx', hy', rfl, h'⟩ := h2
  have i1 := (h a' ha' x' hx').1
  have i2 := (h b' hb' y' hy').2
  have i3 := (h' a ha x hx).1
  have i4 := (h' b hb y hy).2
  have e1 : x = x' := le_antisymm i1 i3
  have e2 : y = y' := le_antisymm i4 i2
  rw [e1, e2]

private theorem spread_of {v : Dbl} {vs : List Dbl} (hf : AllFinite (v :: vs)) {d : ℚ} (hd : Spread (v :: vs) d) :
    ∃ x y z, x ≤ y ∧ sub (num (maxElement v vs)) (num (minElement v vs)) = rnd z (y - x) ∧ d = y - x := by
  obtain ⟨x, y, z, hx, hy, hxy, e, -⟩ := spread_spec hf
  obtain ⟨m1, m2⟩ := minElement_spec vs v hf
  obtain ⟨M1, M2⟩ := maxElement_spec vs v hf
  exact ⟨x, y, z, hxy, e, spread_unique hd
    ⟨_, m1, _, M1, x, y, hx, hy, rfl, fun w hw z' hz => ⟨m2 w hw x z' hx hz, M2 w hw y z' hy hz⟩⟩⟩

/-- C60, false for logarithmic buckets: for values that are not more than 1 apart the logarithm of the range is not positive, and there
are no buckets or undefined behaviour. -/
theorem C60_uniform_false (m : Math) (hm : MathOk m) (extra : Nat) (h1 : 1 ≤ extra) (h2 : extra < 2 ^ 64) (v : Dbl) (vs : List Dbl)
    (hf : AllFinite (v :: vs)) (d : ℚ) (hd : Spread (v :: vs) d) (hd1 : d ≤ 1) :
    run m .uniformLog extra (some (v :: vs)) = .ub ∨ run m .uniformLog extra (some (v :: vs)) = .ok (some []) := by
  obtain ⟨x, y, z, hxy, e, rfl⟩ := spread_of hf hd
  have hr : run m .uniformLog extra (some (v :: vs)) = (toSize (uniformLog m extra v vs) >>= fun k =>
      .ok (some (usingBinCount (minElement v vs) (maxElement v vs) k))) := by
    show (if extra = 0 then _ else _) = _
    rw [if_neg (by omega)]
  rw [hr]
  rcases toSize_notPos (uniform_small hm h1 h2 e hxy hd1) with h | h
  · right; rw [h]; rfl
  · left; rw [h]; rfl

/-- C60, logarithmic buckets, part: for values further apart, and an extra argument of at least 2, the buckets are good. -/
theorem C60_uniform_partial (m : Math) (hm : MathOk m) (extra : Nat) (h1 : 2 ≤ extra) (h2 : extra < 2 ^ 64) (v : Dbl) (vs : List Dbl)
    (hf : AllFinite (v :: vs)) (d : ℚ) (hd : Spread (v :: vs) d) (hd1 : 1 + 1 / 2 ^ 52 ≤ d) (hd2 : d ≤ 2 ^ 53) :
    ∃ left, run m .uniformLog extra (some (v :: vs)) = .ok (some left) ∧ GoodBuckets (v :: vs) left := by
  obtain ⟨x, y, z, hxy, e, rfl⟩ := spread_of hf hd
  obtain ⟨k, hk, k1, k2⟩ := uniform_large hm h1 h2 e hd1 hd2
  refine ⟨_, ?_, (usingBinCount_good hf k1 k2).1⟩
  show (if extra = 0 then _ else _) = _
  rw [if_neg (by omega)]
  show (toSize (uniformLog m extra v vs) >>= _) = _
  rw [hk]; rfl

/-- A generator that makes no buckets: the histogram stays without counts, whatever is added. -/
theorem C60_no_buckets_false (f : Gen) (n : Nat) (name : Bytes) (vs : List Dbl) (hn : 0 < n) (hl : n ≤ vs.length)
    (hg : f (some (vs.take n)) = some []) :
    ∃ h, addAll (create n (some f) name) vs = .ok h ∧ h.count = vs.length ∧ h.size = 0 ∧ h.counts = none := by
  have hlen : (vs.take n).length = n := by rw [List.length_take]; omega
  have later : ∀ (ws : List Dbl) (h : Hist), n ≤ h.count → h.firstN = n → h.buckets = some [0] → h.counts = none → h.size = 0 →
      ∃ h', addAll h ws = .ok h' ∧ h'.count = h.count + ws.length ∧ h'.size = 0 ∧ h'.counts = none := by
    intro ws
    induction ws with
    | nil => intro h _ _ _ h4 h5; exact ⟨h, rfl, rfl, h5, h4⟩
    | cons w ws ih =>
      intro h h1 h2 h3 h4 h5
      have e : Hist.add h w = .ok ({ h with count := h.count + 1 }, true) := by
        unfold Hist.add
        rw [if_neg (by omega), Out.ok_bind]
        simp only
        rw [if_pos (by omega), h3]
        simp only [Option.isNone_some, Bool.false_eq_true, if_false, Out.ok_bind, Bool.not_true]
        rw [if_pos (by omega)]
        unfold Hist.insert
        simp only [h3, h4]
      obtain ⟨h', e', c', s', n'⟩ := ih { h with count := h.count + 1 } (by simp only; omega) h2 h3 h4 h5
      refine ⟨h', ?_, ?_, s', n'⟩
      · unfold addAll
        rw [e, Out.ok_bind]; exact e'
      · rw [c', List.length_cons]; simp only; omega
  obtain ⟨ws, w, hw⟩ : ∃ ws w, vs.take n = ws ++ [w] := by
    rcases List.eq_nil_or_concat (vs.take n) with h | ⟨l, a, h⟩
    · rw [h] at hlen; simp at hlen; omega
    · exact ⟨l, a, by simpa using h⟩
  have hwl : ws.length + 1 = n := by rw [← hlen, hw]; simp
  have e1 := addAll_caching n (some f) name ws (by omega)
  have key : ∃ h1, addAll (create n (some f) name) (vs.take n) = .ok h1 ∧ h1.count = n ∧ h1.firstN = n ∧ h1.buckets = some [0] ∧
      h1.counts = none ∧ h1.size = 0 := by
    rw [hw, addAll_append, e1, Out.ok_bind]
    unfold addAll
    simp only [Hist.add]
    rw [if_pos (by omega), Out.ok_bind]
    simp only
    rw [if_pos (by omega)]
    simp only [Option.isNone_none, if_true]
    unfold generate
    simp only
    have htake : ws.take ws.length ++ [w] = vs.take n := by rw [List.take_length, hw]
    rw [htake]
    have hany : (Option.any (fun c : List Dbl => decide (c.length < ws.length + 1)) (some (vs.take n))) = false := by
      simp only [Option.any_some, hlen]
      simp; omega
    rw [hany, hg]
    exact ⟨_, rfl, hwl, rfl, rfl, rfl, rfl⟩
  obtain ⟨h1, e2, c1, c2, c3, c4, c5⟩ := key
  obtain ⟨h2, e3, d1, d2, d3⟩ := later (vs.drop n) h1 (by omega) c2 c3 c4 c5
  refine ⟨h2, ?_, ?_, d2, d3⟩
  · have := addAll_append (create n (some f) name) (vs.take n) (vs.drop n)
    rw [List.take_append_drop, e2, Out.ok_bind, e3] at this
    exact this
  · rw [d1, c1, List.length_drop]; omega

/-- C60, the name of Rice's rule is false: the rule is twice the cube root, the code adds 2. From 27 values on there are fewer buckets
than twice the cube root. -/
theorem C60_rice_false (m : Math) (hm : MathOk m) (extra : Nat) (v : Dbl) (vs : List Dbl) (hl : vs.length + 1 < 2 ^ 32)
    (h27 : 27 ≤ vs.length + 1) :
    ∃ left, run m .rice extra (some (v :: vs)) = .ok (some left) ∧ left.length ^ 3 < 8 * (vs.length + 1) := by
  obtain ⟨left, hr, -, -, -, h⟩ := C60_bucket_count m hm .rice extra v vs hl (.inr (.inr (.inr rfl)))
  obtain ⟨k, hk1, hk2⟩ : ∃ k, k ^ 3 ≤ vs.length + 1 ∧ vs.length + 1 < (k + 1) ^ 3 := cube_root _
  have k3 : 3 ≤ k := by
    have : 3 < k + 1 := lt_of_pow_lt_pow_left₀ 3 (by omega) (by omega)
    omega
  obtain ⟨h1, -, -⟩ := h rfl k hk1 hk2
  refine ⟨left, hr, ?_⟩
  calc left.length ^ 3 ≤ (k + 2) ^ 3 := Nat.pow_le_pow_left h1 3
    _ < (2 * k) ^ 3 := Nat.pow_lt_pow_left (by omega) (by omega)
    _ = 8 * k ^ 3 := by ring
    _ ≤ 8 * (vs.length + 1) := by omega

/-- C60, Sturges' formula, false: for a power of two there is one bucket more than the formula says (the binary logarithm, rounded up,
plus 1). -/
theorem C60_sturges_false (m : Math) (hm : MathOk m) (extra : Nat) (v : Dbl) (vs : List Dbl) (k : Nat) (hk : k < 32)
    (hl : vs.length + 1 = 2 ^ k) :
    ∃ left, run m .sturges extra (some (v :: vs)) = .ok (some left) ∧ left.length = Nat.clog 2 (vs.length + 1) + 2 := by
  have hl2 : vs.length + 1 < 2 ^ 32 := by rw [hl]; exact Nat.pow_lt_pow_right (by omega) hk
  obtain ⟨left, hr, -, -, h, -⟩ := C60_bucket_count m hm .sturges extra v vs hl2 (.inr (.inr (.inl rfl)))
  refine ⟨left, hr, ?_⟩
  rw [h rfl, hl, Nat.log_pow (by omega), Nat.clog_pow 2 k (by omega)]

/-- C60, Sturges' formula, part: right for all other numbers of values. -/
theorem C60_sturges_partial (m : Math) (hm : MathOk m) (extra : Nat) (v : Dbl) (vs : List Dbl) (hl : vs.length + 1 < 2 ^ 32)
    (hp : ∀ k, vs.length + 1 ≠ 2 ^ k) :
    ∃ left, run m .sturges extra (some (v :: vs)) = .ok (some left) ∧ left.length = Nat.clog 2 (vs.length + 1) + 1 := by
  obtain ⟨left, hr, -, -, h, -⟩ := C60_bucket_count m hm .sturges extra v vs hl (.inr (.inr (.inl rfl)))
  refine ⟨left, hr, ?_⟩
  rw [h rfl]
  have h1 : 2 ^ Nat.log 2 (vs.length + 1) ≤ vs.length + 1 := Nat.pow_log_le_self 2 (by omega)
  have h2 : vs.length + 1 < 2 ^ (Nat.log 2 (vs.length + 1) + 1) := Nat.lt_pow_succ_log_self (by omega) _
  have h3 : Nat.log 2 (vs.length + 1) < Nat.clog 2 (vs.length + 1) :=
    (Nat.lt_clog_iff_pow_lt (by omega)).mpr (lt_of_le_of_ne h1 (fun h => hp _ h.symm))
  have h4 : Nat.clog 2 (vs.length + 1) ≤ Nat.log 2 (vs.length + 1) + 1 := Nat.clog_le_of_le_pow h2.le
  omega

/-- Widths are rounded up to whole numbers by the generator with a given number of buckets: two values that differ by less than 1 get
into the same bucket out of ten. -/
theorem C60_fractions_false (m : Math) : ∃ left, run m .nBuckets 10 (some [0, 0x3FE0000000000000]) = .ok (some left) ∧
    left.length = 10 ∧ tally left [0, 0x3FE0000000000000] = [2, 0, 0, 0, 0, 0, 0, 0, 0, 0] := by
  have h : (nBuckets 10 0 [0x3FE0000000000000]).isSome = true ∧
      ((nBuckets 10 0 [0x3FE0000000000000]).getD []).length = 10 ∧
      tally ((nBuckets 10 0 [0x3FE0000000000000]).getD []) [0, 0x3FE0000000000000] = [2, 0, 0, 0, 0, 0, 0, 0, 0, 0] := by
    decide +kernel
  obtain ⟨left, hl⟩ := Option.isSome_iff_exists.mp h.1
  rw [hl] at h
  exact ⟨left, congrArg Out.ok hl, h.2⟩

/-- C60, false for infinite values: with minus infinity and 0 the second of two buckets begins with a NaN. -/
theorem C60_infinite_false (m : Math) : ∃ a b, run m .nBuckets 2 (some [0xFFF0000000000000, 0]) = .ok (some [a, b]) ∧
    Dbl.isNaN b = true := by
  have h : (nBuckets 2 0xFFF0000000000000 [0]).isSome = true ∧
      ((nBuckets 2 0xFFF0000000000000 [0]).getD []).length = 2 ∧
      Dbl.isNaN (((nBuckets 2 0xFFF0000000000000 [0]).getD []).getD 1 0) = true := by
    decide +kernel
  obtain ⟨left, hl⟩ := Option.isSome_iff_exists.mp h.1
  rw [hl] at h
  obtain ⟨-, h1, h2⟩ := h
  match left, h1, h2, hl with
  | [a, b], _, h2, hl => exact ⟨a, b, congrArg Out.ok hl, h2⟩

/-- Without values, or without the extra argument where there has to be one, there is an error. -/
theorem C60_errors (m : Math) (g : GenFn) (extra : Nat) : run m g extra none = .ok none ∧ run m g extra (some []) = .ok none ∧
    ∀ v vs, run m .nBuckets 0 (some (v :: vs)) = .ok none ∧ run m .uniformLog 0 (some (v :: vs)) = .ok none := by
  refine ⟨rfl, rfl, fun v vs => ⟨?_, ?_⟩⟩
  · rfl
  · rfl

/-! ## Examples -/

/-- The next multiple of 1/2^36. -/
private noncomputable def up (r : ℝ) : ℚ := (⌈r * 2 ^ 36⌉ : ℚ) / 2 ^ 36

private theorem up_spec (r : ℝ) : r ≤ (up r : ℝ) ∧ (up r : ℝ) ≤ r + 1 / 2 ^ 36 := by
  have e : ((up r : ℚ) : ℝ) = (⌈r * 2 ^ 36⌉ : ℝ) / 2 ^ 36 := by unfold up; push_cast; rfl
  rw [e]
  have h1 := Int.le_ceil (r * 2 ^ 36)
  have h2 := (Int.ceil_lt_add_one (r * 2 ^ 36)).le
  constructor
  · rw [le_div_iff₀ (by positivity)]; exact h1
  · rw [div_le_iff₀ (by positivity)]
    refine h2.trans (le_of_eq ?_)
    field_simp

private theorem up_nonneg {r : ℝ} (h : 0 ≤ r) : 0 ≤ up r := by
  have := h.trans (up_spec r).1
  exact_mod_cast this

private theorem up_near {r : ℝ} (h : 0 ≤ r) : Near (.fin false (up r)) r := by
  obtain ⟨h1, h2⟩ := up_spec r
  exact ⟨_, up_nonneg h, rfl, abs_le.mpr ⟨by linarith [show (0 : ℝ) < 1 / 2 ^ 36 by norm_num], by linarith⟩⟩

/-- A library that rounds up to multiples of 1/2^36. -/
noncomputable def exMath : Math where
  sqrt
    | .fin false q => .fin false (up (Real.sqrt q))
    | .fin true q => if q = 0 then .fin true 0 else .nan
    | .inf false => .inf false
    | _ => .nan
  cbrt
    | .fin s q => .fin s (up ((q : ℝ) ^ ((1 : ℝ) / 3)))
    | x => x
  log
    | .fin false q => if q = 0 then .inf true else if q < 1 then .fin true (up (-Real.log q)) else .fin false (up (Real.log q))
    | .fin true q => if q = 0 then .inf true else .nan
    | .inf false => .inf false
    | _ => .nan
  log2
    | .fin false q => if q = 0 then .inf true else if q < 1 then .fin true (up (-Real.logb 2 q)) else .fin false (up (Real.logb 2 q))
    | .fin true q => if q = 0 then .inf true else .nan
    | .inf false => .inf false
    | _ => .nan

theorem exMath_ok : MathOk exMath := by
  have hlogn : ∀ n : Nat, 1 ≤ n → 0 ≤ Real.logb 2 n := fun n h => Real.logb_nonneg (by norm_num) (by exact_mod_cast h)
  have e2 : ∀ n : Nat, 1 ≤ n → exMath.log2 (.fin false n) = .fin false (up (Real.logb 2 n)) := by
    intro n h
    have h1 : (1 : ℚ) ≤ n := by exact_mod_cast h
    show (if (n : ℚ) = 0 then _ else if (n : ℚ) < 1 then _ else _) = _
    rw [if_neg (by linarith), if_neg (by linarith)]
    simp
  have el : ∀ q : ℚ, 1 ≤ q → exMath.log (.fin false q) = .fin false (up (Real.log q)) := by
    intro q h
    show (if q = 0 then _ else if q < 1 then _ else _) = _
    rw [if_neg (by linarith), if_neg (by linarith)]
  have l2a := Real.log_two_gt_d9
  have l2b := Real.log_two_lt_d9
  have eps : (1 : ℝ) / 2 ^ 36 ≤ 1 / 10 := by norm_num
  constructor
  · intro n _ _
    have : exMath.sqrt (.fin false n) = .fin false (up (Real.sqrt n)) := by
      show Ieee.fin false (up (Real.sqrt ((n : ℚ) : ℝ))) = _
      simp
    rw [this]
    exact up_near (Real.sqrt_nonneg _)
  · intro n k _ _ hk y hy
    have : exMath.sqrt (.fin false n) = .fin false (up (Real.sqrt n)) := by
      show Ieee.fin false (up (Real.sqrt ((n : ℚ) : ℝ))) = _
      simp
    rw [this] at hy
    cases hy
    have h1 : (k : ℝ) ≤ Real.sqrt n := by
      apply Real.le_sqrt_of_sq_le
      have : ((k * k : Nat) : ℝ) ≤ n := by exact_mod_cast hk
      push_cast at this
      rw [pow_two]; exact this
    have := h1.trans (up_spec _).1
    exact_mod_cast this
  · intro n _ _
    have : exMath.cbrt (.fin false n) = .fin false (up ((n : ℝ) ^ ((1 : ℝ) / 3))) := by
      show Ieee.fin false (up ((((n : ℚ)) : ℝ) ^ ((1 : ℝ) / 3))) = _
      simp
    rw [this]
    exact up_near (Real.rpow_nonneg (Nat.cast_nonneg n) _)
  · intro n h _
    rw [e2 n h]
    exact up_near (hlogn n h)
  · intro n k h _ hk y hy
    rw [e2 n h] at hy
    cases hy
    have h1 : (k : ℝ) ≤ Real.logb 2 n := by
      rw [Real.le_logb_iff_rpow_le (by norm_num) (by exact_mod_cast h), Real.rpow_natCast]
      exact_mod_cast hk
    have := h1.trans (up_spec _).1
    exact_mod_cast this
  · intro x
    match x with
    | .nan => exact .inl rfl
    | .inf true => exact .inl rfl
    | .inf false => exact .inr (.inl rfl)
    | .fin false q => exact .inr (.inr ⟨_, _, rfl, up_nonneg (Real.sqrt_nonneg _), by simp⟩)
    | .fin true q =>
      show (if q = 0 then _ else _) = _ ∨ (if q = 0 then _ else _) = _ ∨ _
      by_cases hq : q = 0
      · right; right
        refine ⟨true, 0, ?_, le_rfl, fun _ => rfl⟩
        show (if q = 0 then _ else _) = _
        rw [if_pos hq]
      · left; rw [if_neg hq]
  · intro s
    cases s
    · simp [exMath]
    · simp [exMath]
  · rw [el 1 le_rfl]
    simp [up]
  · intro q h0 h1
    refine ⟨up (-Real.log q), ?_, ?_⟩
    · have h2 : Real.log q < 0 := Real.log_neg (by exact_mod_cast h0) (by exact_mod_cast h1)
      have := lt_of_lt_of_le (by linarith : 0 < -Real.log q) (up_spec _).1
      exact_mod_cast this
    · show (if q = 0 then _ else if q < 1 then _ else _) = _
      rw [if_neg (by linarith), if_pos h1]
  · intro q h0 h1
    have hq1 : (1 : ℚ) ≤ q := le_trans (by norm_num) h0
    refine ⟨up (Real.log q), ?_, ?_, el q hq1⟩
    · have h2 : (1 : ℝ) + 1 / 2 ^ 52 ≤ q := by
        have : (((1 + 1 / 2 ^ 52 : ℚ)) : ℝ) ≤ q := by exact_mod_cast h0
        push_cast at this; exact this
      have h3 := Real.one_sub_inv_le_log_of_pos (show (0 : ℝ) < q by linarith [show (0 : ℝ) < 1 / 2 ^ 52 by norm_num])
      have h4 : ((q : ℝ))⁻¹ ≤ (1 + 1 / 2 ^ 52)⁻¹ := inv_anti₀ (by norm_num) h2
      have h5 : (1 : ℝ) / 2 ^ 53 ≤ 1 - (1 + 1 / 2 ^ 52)⁻¹ := by norm_num
      have := (h5.trans (by linarith : (1 : ℝ) - (1 + 1 / 2 ^ 52)⁻¹ ≤ Real.log q)).trans (up_spec _).1
      have : (((1 / 2 ^ 53 : ℚ)) : ℝ) ≤ up (Real.log q) := by push_cast; exact this
      exact_mod_cast this
    · have h2 : (q : ℝ) ≤ 2 ^ 1024 := by exact_mod_cast h1.le
      have h3 : Real.log q ≤ 1024 * Real.log 2 := by
        have : Real.log ((2 : ℝ) ^ 1024) = 1024 * Real.log 2 := by rw [Real.log_pow]; norm_num
        rw [← this]
        exact Real.log_le_log (by exact_mod_cast lt_of_lt_of_le (by norm_num) hq1) h2
      have := (up_spec (Real.log q)).2
      have : (up (Real.log q) : ℝ) ≤ ((710 : ℚ) : ℝ) := by
        push_cast
        linarith
      exact_mod_cast this
  · intro q h0 h1 y hy
    rw [el q (by linarith)] at hy
    cases hy
    have h2 : Real.log 2 ≤ Real.log q := Real.log_le_log (by norm_num) (by exact_mod_cast h0)
    have := (up_spec (Real.log q)).1
    have : (((1 / 2 : ℚ)) : ℝ) ≤ up (Real.log q) := by push_cast; linarith
    exact_mod_cast this
  · intro q h0 h1 y hy
    rw [el q h0] at hy
    cases hy
    have h2 : (q : ℝ) ≤ 2 ^ 64 := by exact_mod_cast h1
    have h3 : Real.log q ≤ 64 * Real.log 2 := by
      have : Real.log ((2 : ℝ) ^ 64) = 64 * Real.log 2 := by rw [Real.log_pow]; norm_num
      rw [← this]
      exact Real.log_le_log (by exact_mod_cast lt_of_lt_of_le (by norm_num) h0) h2
    have := (up_spec (Real.log q)).2
    have : (up (Real.log q) : ℝ) ≤ ((45 : ℚ) : ℝ) := by
      push_cast
      linarith
    exact_mod_cast this

/-- 1, 2, 4, 8.5. -/
def exValues : List Dbl := [0x3FF0000000000000, 0x4000000000000000, 0x4010000000000000, 0x4021000000000000]

theorem exValues_finite : AllFinite exValues := by
  intro v hv
  simp only [exValues, List.mem_cons, List.not_mem_nil, or_false] at hv
  rcases hv with rfl | rfl | rfl | rfl <;> decide +kernel

example : numberOf 0x3FF0000000000000 = some 1 ∧ numberOf 0x4021000000000000 = some (17 / 2) := by decide +kernel

example : ∃ left, run exMath .squareRoot 0 (some exValues) = .ok (some left) ∧ GoodBuckets exValues left :=
  C60_good_partial _ exMath_ok _ _ _ _ exValues_finite (by decide) (.inr (.inl rfl))

example : ∃ left, run exMath .sturges 0 (some exValues) = .ok (some left) ∧ left.length = 4 := by
  obtain ⟨left, h, -, -, h2, -⟩ := C60_bucket_count exMath exMath_ok .sturges 0 0x3FF0000000000000
    [0x4000000000000000, 0x4010000000000000, 0x4021000000000000] (by decide) (.inr (.inr (.inl rfl)))
  exact ⟨left, h, by rw [h2 rfl]; decide +kernel⟩

example : ∃ left, nBuckets 3 0x3FF0000000000000 [0x4000000000000000, 0x4010000000000000, 0x4021000000000000] = some left ∧
    left.map numberOf = [some 1, some 4, some 7] := by
  have h : (nBuckets 3 0x3FF0000000000000 [0x4000000000000000, 0x4010000000000000, 0x4021000000000000]).map (·.map numberOf) =
      some [some 1, some 4, some 7] := by decide +kernel
  simpa [Option.map_eq_some_iff] using h

example : Spread exValues (15 / 2) := by
  refine ⟨_, List.mem_cons_self, 0x4021000000000000, by decide, 1, 17 / 2, by decide +kernel, by decide +kernel, by norm_num, ?_⟩
  intro v hv z hz
  simp only [exValues, List.mem_cons, List.not_mem_nil, or_false] at hv
  have n1 : numberOf 0x3FF0000000000000 = some 1 := by decide +kernel
  have n2 : numberOf 0x4000000000000000 = some 2 := by decide +kernel
  have n3 : numberOf 0x4010000000000000 = some 4 := by decide +kernel
  have n4 : numberOf 0x4021000000000000 = some (17 / 2) := by decide +kernel
  rcases hv with rfl | rfl | rfl | rfl
  · rw [n1] at hz; cases hz; norm_num
  · rw [n2] at hz; cases hz; norm_num
  · rw [n3] at hz; cases hz; norm_num
  · rw [n4] at hz; cases hz; norm_num

/-- The first four values, then 0.5 and 100: all but 0.5 are counted. -/
example : ∃ h c, addAll (create 4 (some fun x => match x with | some (v :: vs) => nBuckets 3 v vs | _ => none) [])
    (exValues ++ [0x3FE0000000000000, 0x4059000000000000]) = .ok h ∧ h.counts = some c ∧ 4 ≤ c.sum := by
  obtain ⟨h, c, least, h1, h2, -, -, h3⟩ := C60_counted_partial exMath exMath_ok .nBuckets 3 4 []
    (exValues ++ [0x3FE0000000000000, 0x4059000000000000]) (by decide) (by decide) (by decide)
    (by
      rw [List.take_left' (show exValues.length = 4 from rfl)]
      exact exValues_finite)
    (.inl ⟨rfl, by decide, by decide⟩) (fun x => match x with | some (v :: vs) => nBuckets 3 v vs | _ => none) rfl
  exact ⟨h, c, h1, h2, by omega⟩

/-- Scott's rule on these values. -/
example : run exMath .scott 0 (some exValues) = .ub ∨ run exMath .scott 0 (some exValues) = .ok (some []) :=
  C60_scott_false _ exMath_ok _ _ _ exValues_finite (by decide)

end Hx.Props

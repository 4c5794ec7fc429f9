import Verif.Spec.Buckets
import Verif.Proofs.FpMem
import Verif.Proofs.Histogram

/-!
# Bucket generators: helper lemmas
-/

namespace Hx.Buckets
open Hx Spec Fp Config

theorem top_eq : dbl.top = 2047 * 2 ^ 52 := rfl

/-- A number with the sign and the rest of its bit pattern. -/
def Is (x : Ieee) (s : Bool) (k : Nat) : Prop := (k < dbl.top ∧ x = .fin s (dbl.val k)) ∨ (k = dbl.top ∧ x = .inf s)

def sg (s : Bool) (k : Nat) : Int := if s then -(k : Int) else k

theorem num_eq (x : Dbl) : num x =
    if Dbl.mag x < dbl.top then .fin (decide (2 ^ 63 ≤ x.toNat)) (dbl.val (Dbl.mag x))
    else if Dbl.mag x = dbl.top then .inf (decide (2 ^ 63 ≤ x.toNat)) else .nan := by
  have h := ieee_eq dbl x.toNat
  have e1 : 2 ^ dbl.p * 2 ^ dbl.w = 2 ^ 63 := rfl
  have e2 : 2 ^ (dbl.w + dbl.p) = 2 ^ 63 := rfl
  have hx := x.toNat_lt
  have e3 : decide (x.toNat / 2 ^ 63 % 2 = 1) = decide (2 ^ 63 ≤ x.toNat) := by
    apply decide_eq_decide.mpr; omega
  rw [e1, e2, e3] at h
  exact h

theorem rank_eq (x : Dbl) : Dbl.rank x = sg (decide (2 ^ 63 ≤ x.toNat)) (Dbl.mag x) := by
  unfold Dbl.rank sg
  by_cases h : 2 ^ 63 ≤ x.toNat
  · rw [if_neg (by omega), if_pos (decide_eq_true h)]
  · rw [if_pos (by omega), decide_eq_false h]; rfl

theorem isNaN_iff (x : Dbl) : Dbl.isNaN x = false ↔ Dbl.mag x ≤ dbl.top := by
  unfold Dbl.isNaN
  rw [top_eq]
  simp only [decide_eq_false_iff_not]
  constructor <;> intro h <;> omega

theorem num_is {x : Dbl} (h : Dbl.isNaN x = false) : ∃ s k, Is (num x) s k ∧ Dbl.rank x = sg s k := by
  refine ⟨_, _, ?_, rank_eq x⟩
  rw [num_eq]
  have := (isNaN_iff x).mp h
  rcases Nat.lt_or_ge (Dbl.mag x) dbl.top with h1 | h1
  · rw [if_pos h1]; exact .inl ⟨h1, rfl⟩
  · rw [if_neg (by omega), if_pos (by omega)]; exact .inr ⟨by omega, rfl⟩

theorem Is.le {x : Ieee} {s : Bool} {k : Nat} (h : Is x s k) : k ≤ dbl.top := by
  rcases h with ⟨h, -⟩ | ⟨h, -⟩ <;> omega

theorem Is.bits {x : Ieee} {s : Bool} {k : Nat} (h : Is x s k) : dbl.bits x = (if s then 2 ^ 63 else 0) + k := by
  rcases h with ⟨h, rfl⟩ | ⟨rfl, rfl⟩
  · show (if s then 2 ^ 63 else 0) + dbl.near (dbl.val k) = _
    rw [Fmt.near_val dbl h.le]
  · rfl

theorem pat_is {x : Ieee} {s : Bool} {k : Nat} (h : Is x s k) :
    Dbl.isNaN (pat x) = false ∧ Dbl.rank (pat x) = sg s k ∧ num (pat x) = x := by
  have hk := h.le
  rw [top_eq] at hk
  have hn : (pat x).toNat = (if s then 2 ^ 63 else 0) + k := by
    unfold pat
    rw [h.bits, UInt64.toNat_ofNat']
    apply Nat.mod_eq_of_lt
    split <;> omega
  have hm : Dbl.mag (pat x) = k := by
    unfold Dbl.mag
    rw [hn]
    split <;> omega
  have hs : decide (2 ^ 63 ≤ (pat x).toNat) = s := by
    rw [hn]
    cases s
    · simp only [Bool.false_eq_true, if_false, Nat.zero_add, decide_eq_false_iff_not]; omega
    · simp
  refine ⟨?_, ?_, ?_⟩
  · rw [isNaN_iff, hm, top_eq]; omega
  · rw [rank_eq, hm, hs]
  · rw [num_eq, hm, hs]
    rcases h with ⟨h, rfl⟩ | ⟨h, rfl⟩
    · rw [if_pos h]
    · rw [if_neg (by omega), if_pos h]

/-- The place of a rational number among the bit patterns. -/
def R (v : ℚ) : Int := sg (decide (v < 0)) (dbl.near |v|)

theorem R_mono {v w : ℚ} (h : v ≤ w) : R v ≤ R w := by
  unfold R sg
  rcases lt_or_ge v 0 with hv | hv
  · rw [if_pos (by simp [hv])]
    rcases lt_or_ge w 0 with hw | hw
    · rw [if_pos (by simp [hw])]
      have := dbl.near_mono (abs_nonneg w) (show |w| ≤ |v| by rw [abs_of_neg hv, abs_of_neg hw]; linarith)
      omega
    · rw [if_neg (by simp [hw])]; omega
  · have hw : 0 ≤ w := hv.trans h
    rw [if_neg (by simp [hv]), if_neg (by simp [hw])]
    have := dbl.near_mono (abs_nonneg v) (show |v| ≤ |w| by rw [abs_of_nonneg hv, abs_of_nonneg hw]; exact h)
    omega

theorem R_val (s : Bool) {k : Nat} (hk : k ≤ dbl.top) : R (signed s (dbl.val k)) = sg s k := by
  have h0 := dbl.val_nonneg k
  have ha : |signed s (dbl.val k)| = dbl.val k := by unfold signed; exact abs_signed s h0
  unfold R
  rw [ha, dbl.near_val hk]
  cases s
  · simp only [signed, Bool.false_eq_true, if_false, sg]
    rw [if_neg (by simp [h0])]
  · simp only [signed, if_true, sg]
    rcases Nat.eq_zero_or_pos k with rfl | hk0
    · simp
    · rw [if_pos (by simp [dbl.val_pos hk0])]

theorem round_is (s : Bool) (q : ℚ) : Is (dbl.round s q) s (dbl.near q) := by
  unfold Fmt.round
  by_cases h : dbl.near q = dbl.top
  · rw [if_pos h]; exact .inr ⟨h, rfl⟩
  · rw [if_neg h]; exact .inl ⟨lt_of_le_of_ne (dbl.near_le_top q) h, rfl⟩

theorem rnd_is (z : Bool) (v : ℚ) : ∃ s k, Is (rnd z v) s k ∧ sg s k = R v := by
  unfold rnd
  by_cases h : v = 0
  · rw [if_pos h]
    subst h
    refine ⟨z, 0, .inl ⟨by rw [top_eq]; omega, by rw [dbl.val_zero]⟩, ?_⟩
    unfold R sg
    simp [dbl.near_zero]
  · rw [if_neg h]
    exact ⟨_, _, round_is _ _, rfl⟩

/-- Not negative, and a number. -/
def NonNeg (x : Ieee) : Prop := x = .inf false ∨ ∃ s q, x = .fin s q ∧ 0 ≤ q ∧ (s = true → q = 0)

theorem NonNeg.round {q : ℚ} : NonNeg (dbl.round false q) := by
  unfold Fmt.round
  split
  · exact .inl rfl
  · exact .inr ⟨_, _, rfl, dbl.val_nonneg _, by simp⟩

theorem rnd_nonneg {z : Bool} {v : ℚ} (h : 0 ≤ v) : NonNeg (rnd z v) := by
  unfold rnd
  split
  · exact .inr ⟨_, _, rfl, le_rfl, fun _ => rfl⟩
  · rw [show decide (v < 0) = false by simp [h]]
    exact NonNeg.round

theorem NonNeg.div {x : Ieee} (h : NonNeg x) {c : ℚ} (hc : 0 < c) : NonNeg (div x (.fin false c)) := by
  rcases h with rfl | ⟨s, q, rfl, h0, hs⟩
  · exact .inl rfl
  · unfold Buckets.div
    simp only
    rw [if_neg hc.ne']
    cases s
    · exact NonNeg.round
    · rw [hs rfl, zero_div]
      unfold Fmt.round
      rw [dbl.near_zero, if_neg (by decide), dbl.val_zero]
      exact .inr ⟨_, _, rfl, le_rfl, fun _ => rfl⟩

theorem NonNeg.ceil {x : Ieee} (h : NonNeg x) : NonNeg (ceil x) := by
  rcases h with rfl | ⟨s, q, rfl, h0, hs⟩
  · exact .inl rfl
  · refine .inr ⟨_, _, rfl, ?_, ?_⟩
    · split
      · exact_mod_cast Int.floor_nonneg.mpr h0
      · exact_mod_cast Int.ceil_nonneg h0
    · intro h; rw [hs h, if_pos h]; simp

/-- A number that is not minus infinity. -/
def Left (x : Dbl) : Prop := Dbl.isNaN x = false ∧ num x ≠ .inf true

theorem add_step {left : Dbl} {step : Ieee} (hl : Left left) (hs : NonNeg step) :
    Left (pat (add (num left) step)) ∧ Dbl.rank left ≤ Dbl.rank (pat (add (num left) step)) := by
  obtain ⟨hn, hi⟩ := hl
  obtain ⟨s, k, his, hr⟩ := num_is hn
  have inf : Is (.inf false) false dbl.top := .inr ⟨rfl, rfl⟩
  obtain ⟨i1, i2, i3⟩ := pat_is inf
  have big : ∀ t j, j ≤ dbl.top → sg t j ≤ sg false dbl.top := by
    intro t j hj; unfold sg; cases t <;> simp <;> omega
  rcases his with ⟨hk, hx⟩ | ⟨hk, hx⟩
  · rcases hs with rfl | ⟨t, q, rfl, h0, ht⟩
    · rw [hx]
      simp only [add]
      exact ⟨⟨i1, by rw [i3]; simp⟩, by rw [i2, hr]; exact big _ _ hk.le⟩
    · rw [hx]
      simp only [add]
      have hq : 0 ≤ signed t q := by
        unfold signed; cases t
        · simpa using h0
        · simp [ht rfl]
      obtain ⟨s', k', h1, h2⟩ := rnd_is (s && t) (signed s (dbl.val k) + signed t q)
      obtain ⟨p1, p2, p3⟩ := pat_is h1
      have hle : sg s k ≤ sg s' k' := by
        rw [h2, ← R_val s hk.le]; exact R_mono (by linarith)
      refine ⟨⟨p1, ?_⟩, by rw [p2, hr]; exact hle⟩
      rw [p3]
      intro he
      rw [he] at h1
      rcases h1 with ⟨-, h1⟩ | ⟨h1, h3⟩
      · cases h1
      · cases h3
        unfold sg at hle
        simp only [if_true] at hle
        split at hle <;> omega
  · have : s = false := by
      cases s
      · rfl
      · exact absurd hx hi
    subst this
    have e : add (num left) step = .inf false := by
      rw [hx]
      rcases hs with rfl | ⟨t, q, rfl, -⟩ <;> rfl
    rw [e]
    exact ⟨⟨i1, by rw [i3]; simp⟩, by rw [i2, hr, hk]⟩

theorem length_leftEnds (step : Ieee) (k : Nat) (left : Dbl) : (leftEnds step k left).length = k := by
  induction k generalizing left with
  | zero => rfl
  | succ k ih => simp only [leftEnds, List.length_cons, ih]

theorem leftEnds_asc {step : Ieee} (hs : NonNeg step) (k : Nat) {left : Dbl} (hl : Left left) :
    (∀ x ∈ leftEnds step k left, Dbl.isNaN x = false ∧ Dbl.rank left ≤ Dbl.rank x) ∧
      (leftEnds step k left).Pairwise (fun a b => Dbl.rank a ≤ Dbl.rank b) := by
  induction k generalizing left with
  | zero => simp [leftEnds]
  | succ k ih =>
    obtain ⟨h1, h2⟩ := add_step hl hs
    obtain ⟨h3, h4⟩ := ih h1
    simp only [leftEnds, List.mem_cons, List.pairwise_cons]
    refine ⟨?_, ⟨fun x hx => h2.trans (h3 x hx).2, h4⟩⟩
    rintro x (rfl | hx)
    · exact ⟨hl.1, le_rfl⟩
    · exact ⟨(h3 x hx).1, h2.trans (h3 x hx).2⟩

theorem head_leftEnds (step : Ieee) {k : Nat} (hk : 0 < k) (left : Dbl) : (leftEnds step k left).head? = some left := by
  cases k with
  | zero => omega
  | succ k => rfl

theorem ascending_leftEnds {step : Ieee} (hs : NonNeg step) {k : Nat} (hk : 0 < k) {left : Dbl} (hl : Left left) :
    Ascending (leftEnds step k left) := by
  obtain ⟨h1, h2⟩ := leftEnds_asc hs k hl
  refine ⟨?_, fun x hx => (h1 x hx).1, h2⟩
  intro h
  have := length_leftEnds step k left
  rw [h] at this
  simp at this; omega

/-! ## Finite values -/

theorem finite_is {x : Dbl} (h : numberOf x ≠ none) : ∃ s k, k < dbl.top ∧ num x = .fin s (dbl.val k) ∧ Dbl.rank x = sg s k ∧
    Dbl.isNaN x = false ∧ numberOf x = some (signed s (dbl.val k)) := by
  have h' : (num x).value ≠ none := h
  have hn : Dbl.isNaN x = false := by
    rw [isNaN_iff]
    by_contra hc
    apply h'
    rw [num_eq, if_neg (by omega), if_neg (by omega)]
    rfl
  obtain ⟨s, k, hi, hr⟩ := num_is hn
  rcases hi with ⟨hk, hx⟩ | ⟨-, hx⟩
  · refine ⟨s, k, hk, hx, hr, hn, ?_⟩
    show (num x).value = _
    rw [hx]
    rfl
  · rw [hx] at h'; exact absurd rfl h'

theorem sg_le_iff {s t : Bool} {k j : Nat} : sg s k ≤ sg t j ↔ signed s (dbl.val k) ≤ signed t (dbl.val j) := by
  have hm := dbl.val_strictMono
  have p := fun i => dbl.val_nonneg i
  have z : ∀ i, dbl.val i = 0 ↔ i = 0 := by
    intro i
    constructor
    · intro h; by_contra hc; have := dbl.val_pos (Nat.pos_of_ne_zero hc); rw [h] at this; exact absurd this (lt_irrefl _)
    · rintro rfl; exact dbl.val_zero
  cases s <;> cases t <;> simp only [sg, signed, Bool.false_eq_true, if_false, if_true]
  · rw [hm.le_iff_le]; omega
  · constructor
    · intro h
      have h1 : k = 0 := by omega
      have h2 : j = 0 := by omega
      rw [h1, h2, dbl.val_zero]; simp
    · intro h
      have h1 : dbl.val k = 0 := by linarith [p k, p j]
      have h2 : dbl.val j = 0 := by linarith [p k, p j]
      rw [z] at h1 h2; omega
  · constructor
    · intro _; linarith [p k, p j]
    · intro _; omega
  · rw [neg_le_neg_iff, neg_le_neg_iff, hm.le_iff_le]; omega

theorem rank_le_iff {a b : Dbl} {x y : ℚ} (ha : numberOf a = some x) (hb : numberOf b = some y) :
    Dbl.rank a ≤ Dbl.rank b ↔ x ≤ y := by
  obtain ⟨s, k, -, -, h1, -, h2⟩ := finite_is (x := a) (by rw [ha]; simp)
  obtain ⟨t, j, -, -, h3, -, h4⟩ := finite_is (x := b) (by rw [hb]; simp)
  rw [ha] at h2; rw [hb] at h4
  cases h2; cases h4
  rw [h1, h3, sg_le_iff]

theorem lt_false_iff {a b : Dbl} {x y : ℚ} (ha : numberOf a = some x) (hb : numberOf b = some y) :
    Dbl.lt a b = false ↔ y ≤ x := by
  obtain ⟨-, -, -, -, -, h1, -⟩ := finite_is (x := a) (by rw [ha]; simp)
  obtain ⟨-, -, -, -, -, h2, -⟩ := finite_is (x := b) (by rw [hb]; simp)
  rw [← rank_le_iff hb ha]
  unfold Dbl.lt
  rw [h1, h2]
  simp

theorem minElement_spec (vs : List Dbl) (v : Dbl) (h : AllFinite (v :: vs)) :
    minElement v vs ∈ v :: vs ∧ ∀ w ∈ v :: vs, ∀ x y, numberOf (minElement v vs) = some x → numberOf w = some y → x ≤ y := by
  induction vs generalizing v with
  | nil =>
    refine ⟨by simp [minElement], ?_⟩
    intro w hw x y hx hy
    simp only [List.mem_singleton] at hw
    subst hw
    simp only [minElement, List.foldl_nil] at hx
    rw [hx] at hy; cases hy; exact le_rfl
  | cons u vs ih =>
    simp only [minElement, List.foldl_cons]
    obtain ⟨a, ha⟩ := Option.ne_none_iff_exists'.mp (h v (by simp))
    obtain ⟨b, hb⟩ := Option.ne_none_iff_exists'.mp (h u (by simp))
    by_cases hlt : Dbl.lt u v = true
    · rw [if_pos hlt]
      obtain ⟨h1, h2⟩ := ih u (fun w hw => h w (by simp only [List.mem_cons] at hw ⊢; tauto))
      refine ⟨List.mem_cons_of_mem _ h1, ?_⟩
      intro w hw x y hx hy
      rcases List.mem_cons.mp hw with rfl | hw
      · rw [ha] at hy; cases hy
        have hle := h2 u (by simp) x b hx hb
        have hf := (lt_false_iff hb ha).not.mp (by rw [hlt]; simp)
        linarith [not_le.mp hf]
      · exact h2 w hw x y hx hy
    · rw [if_neg hlt]
      obtain ⟨h1, h2⟩ := ih v (fun w hw => h w (by simp only [List.mem_cons] at hw ⊢; tauto))
      refine ⟨?_, ?_⟩
      · rcases List.mem_cons.mp h1 with h1 | h1
        · rw [show List.foldl (fun m x => if Dbl.lt x m = true then x else m) v vs = v from h1]; simp
        · exact List.mem_cons_of_mem _ (List.mem_cons_of_mem _ h1)
      · intro w hw x y hx hy
        have hv : ∀ z, numberOf v = some z → x ≤ z := fun z hz => h2 v (by simp) x z hx hz
        rcases List.mem_cons.mp hw with rfl | hw
        · exact hv _ hy
        · rcases List.mem_cons.mp hw with rfl | hw
          · have := (lt_false_iff hb ha).mp (by simpa using hlt)
            rw [hb] at hy; cases hy
            exact (hv a ha).trans this
          · exact h2 w (by simp [hw]) x y hx hy

theorem maxElement_spec (vs : List Dbl) (v : Dbl) (h : AllFinite (v :: vs)) :
    maxElement v vs ∈ v :: vs ∧ ∀ w ∈ v :: vs, ∀ x y, numberOf (maxElement v vs) = some x → numberOf w = some y → y ≤ x := by
  induction vs generalizing v with
  | nil =>
    refine ⟨by simp [maxElement], ?_⟩
    intro w hw x y hx hy
    simp only [List.mem_singleton] at hw
    subst hw
    simp only [maxElement, List.foldl_nil] at hx
    rw [hx] at hy; cases hy; exact le_rfl
  | cons u vs ih =>
    simp only [maxElement, List.foldl_cons]
    obtain ⟨a, ha⟩ := Option.ne_none_iff_exists'.mp (h v (by simp))
    obtain ⟨b, hb⟩ := Option.ne_none_iff_exists'.mp (h u (by simp))
    by_cases hlt : Dbl.lt v u = true
    · rw [if_pos hlt]
      obtain ⟨h1, h2⟩ := ih u (fun w hw => h w (by simp only [List.mem_cons] at hw ⊢; tauto))
      refine ⟨List.mem_cons_of_mem _ h1, ?_⟩
      intro w hw x y hx hy
      rcases List.mem_cons.mp hw with rfl | hw
      · rw [ha] at hy; cases hy
        have hle := h2 u (by simp) x b hx hb
        have hf := (lt_false_iff ha hb).not.mp (by rw [hlt]; simp)
        linarith [not_le.mp hf]
      · exact h2 w hw x y hx hy
    · rw [if_neg hlt]
      obtain ⟨h1, h2⟩ := ih v (fun w hw => h w (by simp only [List.mem_cons] at hw ⊢; tauto))
      refine ⟨?_, ?_⟩
      · rcases List.mem_cons.mp h1 with h1 | h1
        · rw [show List.foldl (fun m x => if Dbl.lt m x = true then x else m) v vs = v from h1]; simp
        · exact List.mem_cons_of_mem _ (List.mem_cons_of_mem _ h1)
      · intro w hw x y hx hy
        have hv : ∀ z, numberOf v = some z → z ≤ x := fun z hz => h2 v (by simp) x z hx hz
        rcases List.mem_cons.mp hw with rfl | hw
        · exact hv _ hy
        · rcases List.mem_cons.mp hw with rfl | hw
          · have := (lt_false_iff ha hb).mp (by simpa using hlt)
            rw [hb] at hy; cases hy
            exact this.trans (hv a ha)
          · exact h2 w (by simp [hw]) x y hx hy

/-- The largest value minus the smallest, as numbers and as doubles. -/
theorem spread_spec {v : Dbl} {vs : List Dbl} (h : AllFinite (v :: vs)) : ∃ x y z, numberOf (minElement v vs) = some x ∧
    numberOf (maxElement v vs) = some y ∧ x ≤ y ∧ sub (num (maxElement v vs)) (num (minElement v vs)) = rnd z (y - x) ∧
    (∃ z', sub (num (minElement v vs)) (num (maxElement v vs)) = rnd z' (x - y)) ∧ Left (minElement v vs) := by
  obtain ⟨m1, m2⟩ := minElement_spec vs v h
  obtain ⟨M1, -⟩ := maxElement_spec vs v h
  obtain ⟨s, k, hk, e1, -, e2, e3⟩ := finite_is (h _ m1)
  obtain ⟨t, j, hj, f1, -, -, f3⟩ := finite_is (h _ M1)
  have neg : ∀ (b : Bool) (q : ℚ), signed (!b) q = -signed b q := by intro b q; cases b <;> simp [signed]
  refine ⟨_, _, t && !s, e3, f3, m2 _ M1 _ _ e3 f3, ?_, ⟨s && !t, ?_⟩, e2, by rw [e1]; simp⟩
  · rw [e1, f1]; simp only [sub, opp, add, neg, sub_eq_add_neg]
  · rw [e1, f1]; simp only [sub, opp, add, neg, sub_eq_add_neg]

/-! ## Numbers of buckets -/

theorem near_nat {n : Nat} (h1 : 1 ≤ n) (h2 : n < 2 ^ 53) : dbl.near n < dbl.top ∧ dbl.val (dbl.near n) = n := by
  have hn0 : n ≠ 0 := by omega
  have hl : 2 ^ Nat.log 2 n ≤ n := Nat.pow_log_le_self 2 hn0
  have hu : n < 2 ^ (Nat.log 2 n + 1) := Nat.lt_pow_succ_log_self (by norm_num) n
  have he : Nat.log 2 n ≤ 52 := by
    by_contra hc
    have : 2 ^ 53 ≤ 2 ^ Nat.log 2 n := Nat.pow_le_pow_right (by norm_num) (by omega)
    omega
  generalize Nat.log 2 n = e at *
  have hb : 2 ^ 52 ≤ n * 2 ^ (52 - e) ∧ n * 2 ^ (52 - e) < 2 ^ 53 := by
    have e1 : 2 ^ 52 = 2 ^ e * 2 ^ (52 - e) := by rw [← Nat.pow_add]; congr 1; omega
    have e2 : 2 ^ 53 = 2 ^ (e + 1) * 2 ^ (52 - e) := by rw [← Nat.pow_add]; congr 1; omega
    constructor
    · rw [e1]; exact Nat.mul_le_mul_right _ hl
    · rw [e2]; exact Nat.mul_lt_mul_of_pos_right hu (Nat.pow_pos (by norm_num))
  have hv := dbl.val_parts (e + 1022) (n * 2 ^ (52 - e)) (by show _ ≤ 2 ^ 53; omega) (.inr hb.1)
  have hval : dbl.val ((e + 1022) * 2 ^ dbl.p + n * 2 ^ (52 - e)) = n := by
    rw [hv]
    have : ((e + 1022 : Nat) : Int) + dbl.emin - (dbl.p : Nat) = -((52 - e : Nat) : Int) := by
      show ((e + 1022 : Nat) : Int) + (1 - (2 ^ 10 - 1)) - (52 : Nat) = _
      omega
    rw [this, zpow_neg, zpow_natCast]
    push_cast
    field_simp
  have hk : (e + 1022) * 2 ^ dbl.p + n * 2 ^ (52 - e) < dbl.top := by
    show (e + 1022) * 2 ^ 52 + n * 2 ^ (52 - e) < 2047 * 2 ^ 52
    have : (e + 1022) * 2 ^ 52 ≤ 1074 * 2 ^ 52 := Nat.mul_le_mul_right _ (by omega)
    omega
  rw [← hval, dbl.near_val hk.le]
  exact ⟨hk, rfl⟩

theorem ofSize_exact {n : Nat} (h1 : 1 ≤ n) (h2 : n < 2 ^ 53) : ofSize n = .fin false n := by
  obtain ⟨a, b⟩ := near_nat h1 h2
  unfold ofSize Fmt.round
  rw [if_neg (by omega), b]

theorem near_lt_top {q : ℚ} (h0 : 0 ≤ q) (h : q ≤ 2 ^ 64) : dbl.near q < dbl.top := by
  have h1 := dbl.near_mono h0 h
  have : dbl.near (2 ^ 64) < dbl.top := by decide +kernel
  omega

theorem ofSize_pos {n : Nat} (h1 : 1 ≤ n) (h2 : n < 2 ^ 64) : ∃ c, 0 < c ∧ ofSize n = .fin false c := by
  have hn : (n : ℚ) ≤ 2 ^ 64 := by exact_mod_cast h2.le
  have ht := near_lt_top (Nat.cast_nonneg n) hn
  refine ⟨dbl.val (dbl.near n), dbl.val_pos ?_, ?_⟩
  · have h3 := dbl.near_mono (q := 1) (r := n) (by norm_num) (by exact_mod_cast h1)
    have : 0 < dbl.near 1 := by decide +kernel
    omega
  · unfold ofSize Fmt.round
    rw [if_neg (by omega)]

theorem toSize_fin {y : ℚ} (h : ⌊y⌋.toNat < 2 ^ 64) : toSize (.fin false y) = .ok ⌊y⌋.toNat := by
  unfold toSize
  simp only [Bool.false_eq_true, if_false]
  rw [if_pos h]

theorem floor_bounds {y : ℚ} (h : 0 ≤ y) : ((⌊y⌋.toNat : Nat) : ℚ) ≤ y ∧ y < ((⌊y⌋.toNat : Nat) : ℚ) + 1 := by
  have hc : ((⌊y⌋.toNat : Nat) : ℚ) = ⌊y⌋ := by
    have : ((⌊y⌋.toNat : Nat) : Int) = ⌊y⌋ := Int.toNat_of_nonneg (Int.floor_nonneg.mpr h)
    exact_mod_cast this
  rw [hc]
  exact ⟨Int.floor_le y, Int.lt_floor_add_one y⟩

theorem floor_eq {y : ℚ} {k : Nat} (h1 : (k : ℚ) ≤ y) (h2 : y < k + 1) : ⌊y⌋.toNat = k := by
  obtain ⟨a, b⟩ := floor_bounds ((Nat.cast_nonneg k).trans h1)
  have c1 : ((⌊y⌋.toNat : Nat) : ℚ) < k + 1 := a.trans_lt h2
  have c2 : (k : ℚ) < ((⌊y⌋.toNat : Nat) : ℚ) + 1 := h1.trans_lt b
  have d1 : ⌊y⌋.toNat < k + 1 := by exact_mod_cast c1
  have d2 : k < ⌊y⌋.toNat + 1 := by exact_mod_cast c2
  omega

/-- Adding 2 and cutting off. -/
theorem add_two {y : ℚ} (h0 : 0 ≤ y) (h1 : y ≤ 2 ^ 12) : ∃ m, toSize (add (.fin false y) (ofSize 2)) = .ok m ∧
    (m : ℚ) ≤ y + 2 + 1 / 2 ^ 40 ∧ y + 2 - 1 / 2 ^ 40 < m + 1 ∧ ∀ k : Nat, (k : ℚ) ≤ y → k + 2 ≤ m := by
  have h2 : ofSize 2 = .fin false 2 := by simpa using ofSize_exact (n := 2) (by omega) (by omega)
  have ht := near_lt_top (q := y + 2) (by linarith) (by linarith [show (2 : ℚ) ^ 12 + 2 ≤ 2 ^ 64 by norm_num])
  have he := dbl.near_error (q := y + 2) (by linarith) ht
  have hx : add (.fin false y) (ofSize 2) = .fin false (dbl.val (dbl.near (y + 2))) := by
    rw [h2]
    simp only [add, signed, Bool.false_eq_true, if_false, rnd]
    rw [if_neg (by linarith), abs_of_nonneg (by linarith), show decide (y + 2 < 0) = false by simp; linarith]
    unfold Fmt.round
    rw [if_neg (by omega)]
  have hz0 := dbl.val_nonneg (dbl.near (y + 2))
  have hint : ∀ k : Nat, (k : ℚ) ≤ y → ((k + 2 : Nat) : ℚ) ≤ dbl.val (dbl.near (y + 2)) := by
    intro k hk
    have hk2 : k < 2 ^ 53 - 2 := by
      have : (k : ℚ) ≤ ((2 ^ 12 : Nat) : ℚ) := by push_cast; linarith
      have : k ≤ 2 ^ 12 := by exact_mod_cast this
      omega
    obtain ⟨-, b⟩ := near_nat (n := k + 2) (by omega) (by omega)
    rw [← b]
    apply dbl.val_strictMono.monotone
    apply dbl.near_mono (by positivity)
    push_cast; linarith
  have hm : max ((y + 2) / 2 ^ (dbl.p + 1)) ((2 : ℚ) ^ (dbl.emin - dbl.p - 1)) ≤ 1 / 2 ^ 40 := by
    apply max_le
    · rw [div_le_div_iff₀ (by positivity) (by positivity)]
      show (y + 2) * 2 ^ 40 ≤ 1 * 2 ^ 53
      nlinarith [show ((2 : ℚ) ^ 12 + 2) * 2 ^ 40 ≤ 2 ^ 53 by norm_num]
    · decide +kernel
  rw [hx]
  generalize dbl.val (dbl.near (y + 2)) = z at *
  have hb := abs_le.mp (he.trans hm)
  obtain ⟨c1, c2⟩ := floor_bounds hz0
  have hlt : ⌊z⌋.toNat < 2 ^ 64 := by
    have : ((⌊z⌋.toNat : Nat) : ℚ) < ((2 ^ 64 : Nat) : ℚ) := by
      push_cast
      linarith [show (2 : ℚ) ^ 12 + 2 + 1 / 2 ^ 40 < 2 ^ 64 by norm_num]
    exact_mod_cast this
  refine ⟨_, toSize_fin hlt, by linarith, by linarith, ?_⟩
  intro k hk
  have h5 : ((k + 2 : Nat) : ℚ) < ((⌊z⌋.toNat + 1 : Nat) : ℚ) := by
    have := (hint k hk).trans_lt c2
    push_cast at this ⊢; exact this
  have : k + 2 < ⌊z⌋.toNat + 1 := by exact_mod_cast h5
  omega

/-- Square roots of whole numbers stay away from the next whole number. -/
theorem sqrt_gap {n : Nat} (h2 : n < 2 ^ 32) : Real.sqrt n ≤ (Nat.sqrt n : ℝ) + 1 - 1 / 2 ^ 17 := by
  have hlt : n < (Nat.sqrt n + 1) * (Nat.sqrt n + 1) := Nat.lt_succ_sqrt n
  have hk : Nat.sqrt n < 2 ^ 16 := Nat.sqrt_lt.mpr (by omega)
  generalize Nat.sqrt n = k at *
  have hn : (n : ℝ) ≤ ((k : ℝ) + 1) * (k + 1) - 1 := by
    have : n + 1 ≤ (k + 1) * (k + 1) := hlt
    have : ((n + 1 : Nat) : ℝ) ≤ (((k + 1) * (k + 1) : Nat) : ℝ) := by exact_mod_cast this
    push_cast at this; linarith
  have hk' : (k : ℝ) + 1 ≤ 2 ^ 16 := by
    have : ((k + 1 : Nat) : ℝ) ≤ ((2 ^ 16 : Nat) : ℝ) := by exact_mod_cast hk
    push_cast at this; linarith
  have hk0 : (0 : ℝ) ≤ k := Nat.cast_nonneg k
  apply Real.sqrt_le_iff.mpr
  constructor
  · have : (1 : ℝ) / 2 ^ 17 ≤ 1 := by norm_num
    linarith
  · generalize (k : ℝ) + 1 = a at *
    have : a * (1 / 2 ^ 17) ≤ 1 / 2 := by
      have : a * (1 / 2 ^ 17) ≤ 2 ^ 16 * (1 / 2 ^ 17) := mul_le_mul_of_nonneg_right hk' (by positivity)
      norm_num at this ⊢; linarith
    have h3 : (a - 1 / 2 ^ 17) ^ 2 = a * a - 2 * (a * (1 / 2 ^ 17)) + (1 / 2 ^ 17) ^ 2 := by ring
    rw [h3]
    have : (0 : ℝ) ≤ (1 / 2 ^ 17) ^ 2 := by positivity
    linarith

theorem log2_gap {n : Nat} (h1 : 1 ≤ n) (h2 : n < 2 ^ 32) : Real.logb 2 n ≤ (Nat.log 2 n : ℝ) + 1 - 1 / 2 ^ 32 := by
  have hlt : n < 2 ^ (Nat.log 2 n + 1) := Nat.lt_pow_succ_log_self (by norm_num) n
  have hk : Nat.log 2 n < 32 := Nat.log_lt_of_lt_pow (by omega) h2
  generalize Nat.log 2 n = k at *
  have hn0 : (0 : ℝ) < n := by exact_mod_cast h1
  have hp : (0 : ℝ) < 2 ^ (k + 1) := by positivity
  have hl2 : 0 < Real.log 2 := Real.log_pos (by norm_num)
  have hl1 : Real.log 2 ≤ 1 := by linarith [Real.log_le_sub_one_of_pos (show (0 : ℝ) < 2 by norm_num)]
  have e : Real.logb 2 n = ((k + 1 : Nat) : ℝ) + Real.log (n / 2 ^ (k + 1)) / Real.log 2 := by
    rw [Real.log_div hn0.ne' hp.ne', Real.log_pow, Real.logb]
    field_simp
    ring
  have hr : (n : ℝ) / 2 ^ (k + 1) - 1 ≤ -(1 / 2 ^ 32) := by
    have h5 : (n : ℝ) + 1 ≤ 2 ^ (k + 1) := by exact_mod_cast hlt
    have h6 : (2 : ℝ) ^ (k + 1) ≤ 2 ^ 32 := pow_le_pow_right₀ (by norm_num) (by omega)
    have h7 : (n : ℝ) / 2 ^ (k + 1) ≤ 1 - 1 / 2 ^ (k + 1) := by
      rw [div_le_iff₀ hp, sub_mul, one_mul, one_div_mul_cancel hp.ne']
      linarith
    have h8 : (1 : ℝ) / 2 ^ 32 ≤ 1 / 2 ^ (k + 1) := one_div_le_one_div_of_le hp h6
    linarith
  have hlog : Real.log (n / 2 ^ (k + 1)) ≤ -(1 / 2 ^ 32) := (Real.log_le_sub_one_of_pos (by positivity)).trans hr
  have : Real.log (n / 2 ^ (k + 1)) / Real.log 2 ≤ -(1 / 2 ^ 32) := by
    rw [div_le_iff₀ hl2]
    have : (1 : ℝ) / 2 ^ 32 * Real.log 2 ≤ 1 / 2 ^ 32 * 1 := mul_le_mul_of_nonneg_left hl1 (by positivity)
    linarith
  rw [e]
  push_cast
  linarith

theorem cbrt_cube (n : Nat) : ((n : ℝ) ^ ((1 : ℝ) / 3)) ^ 3 = n ∧ 0 ≤ (n : ℝ) ^ ((1 : ℝ) / 3) := by
  refine ⟨?_, Real.rpow_nonneg (Nat.cast_nonneg n) _⟩
  rw [← Real.rpow_natCast, ← Real.rpow_mul (Nat.cast_nonneg n)]
  norm_num

/-- Cube roots of other numbers than cubes stay away from whole numbers. -/
theorem cube_gap {a b : ℝ} (ha : 0 ≤ a) (hb : 0 ≤ b) (h : a ^ 3 + 1 ≤ b ^ 3) (hu : b ≤ 2 ^ 12) : a + 1 / 2 ^ 26 ≤ b := by
  have hab : a < b := by
    by_contra hc
    have := pow_le_pow_left₀ hb (not_lt.mp hc) 3
    linarith
  have h1 : b ^ 3 - a ^ 3 = (b - a) * (b ^ 2 + b * a + a ^ 2) := by ring
  have h2 : b ^ 2 + b * a + a ^ 2 ≤ 3 * b ^ 2 := by nlinarith
  have h3 : b ^ 2 ≤ (2 ^ 12) ^ 2 := pow_le_pow_left₀ hb hu 2
  have h4 : 1 ≤ (b - a) * (3 * (2 ^ 12) ^ 2) := by
    have : (b - a) * (b ^ 2 + b * a + a ^ 2) ≤ (b - a) * (3 * (2 ^ 12) ^ 2) :=
      mul_le_mul_of_nonneg_left (by linarith) (by linarith)
    linarith
  have h5 : (1 : ℝ) / 2 ^ 26 * (3 * (2 ^ 12) ^ 2) ≤ 1 := by norm_num
  by_contra hc
  have h6 : b - a < 1 / 2 ^ 26 := by linarith [not_le.mp hc]
  have : (b - a) * (3 * (2 ^ 12) ^ 2) < 1 / 2 ^ 26 * (3 * (2 ^ 12) ^ 2) := mul_lt_mul_of_pos_right h6 (by positivity)
  linarith

theorem squareRoot_count {m : Math} (hm : MathOk m) {n : Nat} (h1 : 1 ≤ n) (h2 : n < 2 ^ 32) :
    toSize (squareRoot m n) = .ok (Nat.sqrt n) := by
  obtain ⟨y, hy0, hy, he⟩ := hm.sqrt n h1 h2
  have hlow := hm.sqrt_int n (Nat.sqrt n) h1 h2 (Nat.sqrt_le n) y hy
  have hup : y < (Nat.sqrt n : ℚ) + 1 := by
    have h3 := sqrt_gap h2
    have h4 := (abs_le.mp he).2
    have : (y : ℝ) < (((Nat.sqrt n : ℚ) + 1 : ℚ) : ℝ) := by
      push_cast
      have : (1 : ℝ) / 2 ^ 36 < 1 / 2 ^ 17 := by norm_num
      linarith
    exact_mod_cast this
  unfold squareRoot
  rw [ofSize_exact h1 (by omega), hy, toSize_fin, floor_eq hlow hup]
  rw [floor_eq hlow hup]
  have := Nat.sqrt_le_self n
  omega

theorem sturges_count {m : Math} (hm : MathOk m) {n : Nat} (h1 : 1 ≤ n) (h2 : n < 2 ^ 32) :
    toSize (sturges m n) = .ok (Nat.log 2 n + 2) := by
  obtain ⟨y, hy0, hy, he⟩ := hm.log2 n h1 h2
  have hlow := hm.log2_int n (Nat.log 2 n) h1 h2 (Nat.pow_log_le_self 2 (by omega)) y hy
  have hk : Nat.log 2 n < 32 := Nat.log_lt_of_lt_pow (by omega) h2
  have hk' : (Nat.log 2 n : ℚ) ≤ 31 := by exact_mod_cast (by omega : Nat.log 2 n ≤ 31)
  have hup : y ≤ (Nat.log 2 n : ℚ) + 1 - 1 / 2 ^ 32 + 1 / 2 ^ 36 := by
    have h3 := log2_gap h1 h2
    have h4 := (abs_le.mp he).2
    have : (y : ℝ) ≤ (((Nat.log 2 n : ℚ) + 1 - 1 / 2 ^ 32 + 1 / 2 ^ 36 : ℚ) : ℝ) := by
      push_cast
      linarith
    exact_mod_cast this
  have hy1 : y ≤ 2 ^ 12 := by
    have : (32 : ℚ) - 1 / 2 ^ 32 + 1 / 2 ^ 36 ≤ 2 ^ 12 := by norm_num
    linarith
  unfold sturges
  rw [ofSize_exact h1 (by omega), hy]
  obtain ⟨r, e, r1, r2, r3⟩ := add_two hy0 hy1
  rw [e]
  have h5 := r3 _ hlow
  have h6 : (r : ℚ) < ((Nat.log 2 n + 3 : Nat) : ℚ) := by
    push_cast
    have : (1 : ℚ) / 2 ^ 36 + 1 / 2 ^ 40 < 1 / 2 ^ 32 := by norm_num
    linarith
  have : r < Nat.log 2 n + 3 := by exact_mod_cast h6
  congr 1
  omega

/-- `k^3 ≤ n < (k+1)^3`. -/
theorem rice_count {m : Math} (hm : MathOk m) {n k : Nat} (h1 : 1 ≤ n) (h2 : n < 2 ^ 32) (hk1 : k ^ 3 ≤ n) (hk2 : n < (k + 1) ^ 3) :
    ∃ r, toSize (rice m n) = .ok r ∧ r ≤ k + 2 ∧ k + 1 ≤ r ∧ (k ^ 3 < n → r = k + 2) := by
  obtain ⟨y, hy0, hy, he⟩ := hm.cbrt n h1 h2
  obtain ⟨hc, hc0⟩ := cbrt_cube n
  generalize (n : ℝ) ^ ((1 : ℝ) / 3) = c at *
  have hkb : k < 2 ^ 11 := by
    by_contra hh
    have := Nat.pow_le_pow_left (not_lt.mp hh) 3
    omega
  have hkr : (k : ℝ) + 1 ≤ 2 ^ 11 := by
    have : ((k + 1 : Nat) : ℝ) ≤ ((2 ^ 11 : Nat) : ℝ) := by exact_mod_cast hkb
    push_cast at this; linarith
  have hk0 : (0 : ℝ) ≤ k := Nat.cast_nonneg k
  have hup : c + 1 / 2 ^ 26 ≤ k + 1 := by
    apply cube_gap hc0 (by linarith) _ (by linarith [show (2 : ℝ) ^ 11 ≤ 2 ^ 12 by norm_num])
    rw [hc]
    have : ((n + 1 : Nat) : ℝ) ≤ (((k + 1) ^ 3 : Nat) : ℝ) := by exact_mod_cast hk2
    push_cast at this; exact this
  have hlow : (k : ℝ) ≤ c := by
    by_contra hh
    have := pow_lt_pow_left₀ (not_le.mp hh) hc0 (by norm_num : 3 ≠ 0)
    rw [hc] at this
    have h5 : ((k ^ 3 : Nat) : ℝ) ≤ n := by exact_mod_cast hk1
    push_cast at h5
    linarith
  obtain ⟨e1, e2⟩ := abs_le.mp he
  have g1 : y ≤ (k : ℚ) + 1 - 1 / 2 ^ 26 + 1 / 2 ^ 36 := by
    have : (y : ℝ) ≤ (((k : ℚ) + 1 - 1 / 2 ^ 26 + 1 / 2 ^ 36 : ℚ) : ℝ) := by push_cast; linarith
    exact_mod_cast this
  have g2 : (k : ℚ) - 1 / 2 ^ 36 ≤ y := by
    have : (((k : ℚ) - 1 / 2 ^ 36 : ℚ) : ℝ) ≤ y := by push_cast; linarith
    exact_mod_cast this
  have hkq : (k : ℚ) + 1 ≤ 2 ^ 11 := by
    have : ((k + 1 : Nat) : ℚ) ≤ ((2 ^ 11 : Nat) : ℚ) := by exact_mod_cast hkb
    push_cast at this; linarith
  have n1 : (1 : ℚ) / 2 ^ 36 + 1 / 2 ^ 40 < 1 / 2 ^ 26 := by norm_num
  have n2 : (1 : ℚ) / 2 ^ 36 + 1 / 2 ^ 40 < 1 := by norm_num
  have n3 : (0 : ℚ) < 1 / 2 ^ 40 := by norm_num
  have n4 : (0 : ℚ) < 1 / 2 ^ 36 := by norm_num
  have n5 : (2 : ℚ) ^ 11 + 1 ≤ 2 ^ 12 := by norm_num
  obtain ⟨r, e, r1, r2, r3⟩ := add_two hy0 (by linarith : y ≤ 2 ^ 12)
  unfold rice
  rw [ofSize_exact h1 (by omega), hy]
  have u : (r : ℚ) < ((k + 3 : Nat) : ℚ) := by push_cast; linarith
  have l : ((k + 1 : Nat) : ℚ) < ((r + 1 : Nat) : ℚ) := by push_cast; linarith
  have u' : r < k + 3 := by exact_mod_cast u
  have l' : k + 1 < r + 1 := by exact_mod_cast l
  refine ⟨r, e, by omega, by omega, ?_⟩
  intro hlt
  have hg : (k : ℝ) + 1 / 2 ^ 26 ≤ c := by
    apply cube_gap hk0 hc0 _ (by linarith [show (2 : ℝ) ^ 11 ≤ 2 ^ 12 by norm_num, show (0 : ℝ) < 1 / 2 ^ 26 by norm_num])
    rw [hc]
    have : ((k ^ 3 + 1 : Nat) : ℝ) ≤ (n : ℝ) := by exact_mod_cast hlt
    push_cast at this; exact this
  have hky : (k : ℚ) ≤ y := by
    have : (((k : ℚ) : ℚ) : ℝ) ≤ y := by
      push_cast
      linarith [show (1 : ℝ) / 2 ^ 36 < 1 / 2 ^ 26 by norm_num]
    exact_mod_cast this
  have := r3 k hky
  omega

theorem usingBinCount_good {v : Dbl} {vs : List Dbl} (h : AllFinite (v :: vs)) {k : Nat} (h1 : 1 ≤ k) (h2 : k < 2 ^ 64) :
    GoodBuckets (v :: vs) (usingBinCount (minElement v vs) (maxElement v vs) k) ∧
      (usingBinCount (minElement v vs) (maxElement v vs) k).length = k := by
  obtain ⟨x, y, z, -, -, hxy, e, -, hl⟩ := spread_spec h
  obtain ⟨c, hc, e2⟩ := ofSize_pos h1 h2
  obtain ⟨m1, m2⟩ := minElement_spec vs v h
  unfold usingBinCount
  have hs : NonNeg (div (sub (num (maxElement v vs)) (num (minElement v vs))) (ofSize k)) := by
    rw [e, e2]; exact (rnd_nonneg (by linarith)).div hc
  exact ⟨⟨ascending_leftEnds hs h1 hl, _, m1, head_leftEnds _ h1 _, m2⟩, length_leftEnds _ _ _⟩

theorem nBuckets_good {v : Dbl} {vs : List Dbl} (h : AllFinite (v :: vs)) {k : Nat} (h1 : 1 ≤ k) (h2 : k < 2 ^ 64) :
    ∃ left, nBuckets k v vs = some left ∧ GoodBuckets (v :: vs) left ∧ left.length = k := by
  obtain ⟨x, y, z, -, -, hxy, e, -, hl⟩ := spread_spec h
  obtain ⟨c, hc, e2⟩ := ofSize_pos h1 h2
  obtain ⟨m1, m2⟩ := minElement_spec vs v h
  unfold nBuckets
  rw [if_neg (by omega)]
  have hs : NonNeg (ceil (div (sub (num (maxElement v vs)) (num (minElement v vs))) (ofSize k))) := by
    rw [e, e2]; exact ((rnd_nonneg (by linarith)).div hc).ceil
  exact ⟨_, rfl, ⟨ascending_leftEnds hs h1 hl, _, m1, head_leftEnds _ h1 _, m2⟩, length_leftEnds _ _ _⟩

/-- With the smallest value first no value is left of the buckets. -/
theorem GoodBuckets.covers {vs left : List Dbl} (h : GoodBuckets vs left) (hf : AllFinite vs) : ∀ v ∈ vs, covered left v = true := by
  intro v hv
  obtain ⟨u, hu, h1, h2⟩ := h.first
  obtain ⟨x, hx⟩ := Option.ne_none_iff_exists'.mp (hf u hu)
  obtain ⟨y, hy⟩ := Option.ne_none_iff_exists'.mp (hf v hv)
  have e : left.getD 0 0 = u := by
    cases left with
    | nil => cases h1
    | cons a l => simp only [List.head?_cons, Option.some.injEq] at h1; simpa using h1
  unfold covered
  rw [e, (lt_false_iff hy hx).mpr (h2 v hv x y hx hy)]
  rfl

/-! ## Scott's rule -/

/-- Not a number, infinite, or not above zero. -/
def NotPos (x : Ieee) : Prop := x = .nan ∨ (∃ s, x = .inf s) ∨ ∃ s q, x = .fin s q ∧ 0 ≤ q ∧ (s = false → q = 0)

theorem toSize_notPos {x : Ieee} (h : NotPos x) : toSize x = .ok 0 ∨ toSize x = .ub := by
  rcases h with rfl | ⟨s, rfl⟩ | ⟨s, q, rfl, h0, hs⟩
  · exact .inr rfl
  · exact .inr rfl
  · unfold toSize
    cases s
    · rw [hs rfl]; left; simp
    · simp only [if_true]
      split
      · exact .inl rfl
      · exact .inr rfl

theorem rnd_notPos {z : Bool} {v : ℚ} (h : v ≤ 0) : ∃ s k, Is (rnd z v) s k ∧ (s = false → k = 0) := by
  unfold rnd
  by_cases hv : v = 0
  · rw [if_pos hv]
    exact ⟨z, 0, .inl ⟨by rw [top_eq]; omega, by rw [dbl.val_zero]⟩, fun _ => rfl⟩
  · rw [if_neg hv, show decide (v < 0) = true by simp [lt_of_le_of_ne h hv]]
    exact ⟨_, _, round_is _ _, by simp⟩

theorem round_notPos {s : Bool} {q : ℚ} (hs : s = false → q = 0) : NotPos (dbl.round s q) := by
  unfold Fmt.round
  split
  · exact .inr (.inl ⟨_, rfl⟩)
  · refine .inr (.inr ⟨_, _, rfl, dbl.val_nonneg _, ?_⟩)
    intro h
    rw [hs h, dbl.near_zero, dbl.val_zero]

theorem div_notPos {a h : Ieee} {s : Bool} {k : Nat} (ha : Is a s k) (hs : s = false → k = 0) (hh : NonNeg h ∨ h = .nan) :
    NotPos (div a h) := by
  have h0 : ∀ k, k = 0 → dbl.val k = 0 := by rintro _ rfl; exact dbl.val_zero
  rcases ha with ⟨hk, rfl⟩ | ⟨hk, rfl⟩
  · rcases hh with (rfl | ⟨t, q, rfl, hq, ht⟩) | rfl
    · exact .inr (.inr ⟨_, _, rfl, le_rfl, fun _ => rfl⟩)
    · unfold div
      simp only
      split
      · split
        · exact .inl rfl
        · exact .inr (.inl ⟨_, rfl⟩)
      · next hq0 =>
        have : t = false := by
          cases t
          · rfl
          · exact absurd (ht rfl) hq0
        subst this
        apply round_notPos
        intro h
        have : s = false := by simpa using h
        rw [h0 k (hs this), zero_div]
    · exact .inl rfl
  · rcases hh with (rfl | ⟨t, q, rfl, hq, ht⟩) | rfl
    · exact .inl rfl
    · exact .inr (.inl ⟨_, rfl⟩)
    · exact .inl rfl

theorem scott_notPos {m : Math} (hm : MathOk m) {v : Dbl} {vs : List Dbl} (h : AllFinite (v :: vs)) (hl : vs.length + 1 < 2 ^ 32) :
    NotPos (scott m v vs) := by
  obtain ⟨x, y, -, -, -, hxy, -, ⟨z, e⟩, -⟩ := spread_spec h
  obtain ⟨s, k, hi, hs⟩ := rnd_notPos (z := z) (show x - y ≤ 0 by linarith)
  unfold scott
  simp only
  rw [e]
  refine div_notPos hi hs ?_
  obtain ⟨c, hc0, hc, he⟩ := hm.cbrt (vs.length + 1) (by omega) hl
  have hcp : 0 < c := by
    obtain ⟨hc3, hcn⟩ := cbrt_cube (vs.length + 1)
    have h1 : (1 : ℝ) ≤ ((vs.length + 1 : Nat) : ℝ) ^ ((1 : ℝ) / 3) := by
      by_contra hh
      have := pow_lt_pow_left₀ (not_le.mp hh) hcn (by norm_num : 3 ≠ 0)
      rw [hc3] at this
      push_cast at this
      have : (0 : ℝ) ≤ vs.length := Nat.cast_nonneg _
      linarith
    have h2 := (abs_le.mp he).1
    have h3 : (0 : ℝ) < c := by linarith [show (1 : ℝ) / 2 ^ 36 < 1 by norm_num]
    exact_mod_cast h3
  rw [List.length_cons, ofSize_exact (by omega) (by omega), hc]
  rcases hm.sqrt_sign (div (List.foldl (fun acc x => add acc (mul (sub (num x) (div (List.foldl (fun acc x => add acc (num x)) (.fin false 0) (v :: vs)) (.fin false (vs.length + 1 : Nat)))) (sub (num x) (div (List.foldl (fun acc x => add acc (num x)) (.fin false 0) (v :: vs)) (.fin false (vs.length + 1 : Nat)))))) (.fin false 0) (v :: vs)) (ofSize (vs.length + 1 - 1))) with h1 | h1 | ⟨s', q, h1, h2, h3⟩
  · right; rw [h1]; rfl
  · left; rw [h1]
    exact .inl (by simp [mul, div])
  · left; rw [h1]
    apply NonNeg.div _ hcp
    unfold mul
    simp only
    cases s'
    · exact NonNeg.round
    · rw [h3 rfl, mul_zero]
      unfold Fmt.round
      rw [dbl.near_zero, if_neg (by decide), dbl.val_zero]
      exact .inr ⟨_, _, rfl, le_rfl, fun _ => rfl⟩

/-! ## Logarithmic buckets -/

theorem round_between {s : Bool} {q lo hi : ℚ} (h0 : 0 ≤ lo) (h1 : lo ≤ q) (h2 : q ≤ hi) (hl : dbl.val (dbl.near lo) = lo)
    (hh : dbl.val (dbl.near hi) = hi) (ht : dbl.near hi < dbl.top) : ∃ a, dbl.round s q = .fin s a ∧ lo ≤ a ∧ a ≤ hi := by
  have m1 := dbl.near_mono h0 h1
  have m2 := dbl.near_mono (h0.trans h1) h2
  refine ⟨dbl.val (dbl.near q), ?_, ?_, ?_⟩
  · unfold Fmt.round
    rw [if_neg (by omega)]
  · rw [← hl]; exact dbl.val_strictMono.monotone m1
  · rw [← hh]; exact dbl.val_strictMono.monotone m2

/-- The logarithm of the extra argument. -/
theorem log_extra {m : Math} (hm : MathOk m) {e : Nat} (h1 : 1 ≤ e) (h2 : e < 2 ^ 64) :
    ∃ l, m.log (ofSize e) = .fin false l ∧ 0 ≤ l ∧ l ≤ 45 ∧ (2 ≤ e → 1 / 2 ≤ l) := by
  rcases Nat.lt_or_ge e 2 with he | he
  · have : e = 1 := by omega
    subst this
    rw [ofSize_exact (by omega) (by omega)]
    exact ⟨0, by simpa using hm.log_one, le_rfl, by norm_num, by omega⟩
  · have hq2 : (2 : ℚ) ≤ e := by exact_mod_cast he
    have hq64 : (e : ℚ) ≤ 2 ^ 64 := by exact_mod_cast h2.le
    obtain ⟨c, hc, c1, c2⟩ := round_between (s := false) (by norm_num : (0 : ℚ) ≤ 2) hq2 hq64 (by decide +kernel) (by decide +kernel)
      (by decide +kernel)
    have e1 : ofSize e = .fin false c := hc
    rw [e1]
    have hb : c < 2 ^ 1024 := c2.trans_lt (pow_lt_pow_right₀ (by norm_num) (by norm_num))
    obtain ⟨y, y1, -, hy⟩ := hm.log_large c (le_trans (by norm_num) c1) hb
    have y2 := hm.log_two c c1 hb y hy
    have y3 := hm.log_size c (by linarith) c2 y hy
    exact ⟨y, hy, by linarith, y3, fun _ => y2⟩

theorem NotPos.ceil {x : Ieee} (h : NotPos x) : NotPos (ceil x) := by
  rcases h with rfl | ⟨s, rfl⟩ | ⟨s, q, rfl, h0, hs⟩
  · exact .inl rfl
  · exact .inr (.inl ⟨_, rfl⟩)
  · refine .inr (.inr ⟨_, _, rfl, ?_, ?_⟩)
    · split
      · exact_mod_cast Int.floor_nonneg.mpr h0
      · exact_mod_cast Int.ceil_nonneg h0
    · intro h
      subst h
      rw [hs rfl]
      simp

theorem uniform_small {m : Math} (hm : MathOk m) {v : Dbl} {vs : List Dbl} {x y : ℚ} {z : Bool} {e : Nat} (h1 : 1 ≤ e) (h2 : e < 2 ^ 64)
    (hs : sub (num (maxElement v vs)) (num (minElement v vs)) = rnd z (y - x)) (h0 : x ≤ y) (hd : y - x ≤ 1) :
    NotPos (uniformLog m e v vs) := by
  obtain ⟨l, hl, l0, -, -⟩ := log_extra hm h1 h2
  unfold uniformLog
  simp only
  rw [hs, hl]
  apply NotPos.ceil
  have hD : ∃ s q, rnd z (y - x) = .fin s q ∧ 0 ≤ q ∧ q ≤ 1 ∧ (s = true → q = 0) := by
    unfold rnd
    split
    · exact ⟨_, _, rfl, le_rfl, by norm_num, fun _ => rfl⟩
    · rw [abs_of_nonneg (by linarith), show decide (y - x < 0) = false by simp; exact h0]
      obtain ⟨a, e1, e2, e3⟩ := round_between (s := false) le_rfl (by linarith : (0 : ℚ) ≤ y - x) hd (by decide +kernel) (by decide +kernel)
        (by decide +kernel)
      exact ⟨_, _, e1, e2, e3, by simp⟩
  obtain ⟨s, q, e1, q0, q1, qs⟩ := hD
  rw [e1]
  have hmul : mul (.fin s q) (.fin false l) = dbl.round s (q * l) := by simp [mul]
  rw [hmul]
  rcases q0.eq_or_lt with rfl | q0
  · rw [hm.log_zero, zero_mul]
    have : dbl.round s 0 = .fin s 0 := by
      unfold Fmt.round
      rw [dbl.near_zero, if_neg (by decide), dbl.val_zero]
    rw [this]
    exact .inr (.inr ⟨_, _, rfl, le_rfl, fun _ => rfl⟩)
  · have : s = false := by
      cases s
      · rfl
      · linarith [qs rfl]
    subst this
    obtain ⟨a, ea, a1, a2⟩ : ∃ a, dbl.round false (q * l) = .fin false a ∧ 0 ≤ a ∧ True := by
      obtain ⟨w, k1, k2, k3⟩ := log_extra hm h1 h2
      rw [hl] at k1
      cases k1
      obtain ⟨a, i1, i2, -⟩ := round_between (s := false) le_rfl (mul_nonneg q0.le l0)
        (show q * l ≤ 64 by nlinarith) (by decide +kernel) (by decide +kernel) (by decide +kernel)
      exact ⟨a, i1, i2, trivial⟩
    rw [ea]
    rcases q1.eq_or_lt with rfl | q1
    · rw [hm.log_one]
      unfold div
      simp only [if_true]
      split
      · exact .inl rfl
      · exact .inr (.inl ⟨_, rfl⟩)
    · obtain ⟨w, w0, hw⟩ := hm.log_small q q0 q1
      rw [hw]
      unfold div
      simp only
      rw [if_neg (by linarith)]
      apply round_notPos
      simp

theorem uniform_large {m : Math} (hm : MathOk m) {v : Dbl} {vs : List Dbl} {x y : ℚ} {z : Bool} {e : Nat} (h1 : 2 ≤ e) (h2 : e < 2 ^ 64)
    (hs : sub (num (maxElement v vs)) (num (minElement v vs)) = rnd z (y - x)) (h0 : 1 + 1 / 2 ^ 52 ≤ y - x) (hd : y - x ≤ 2 ^ 53) :
    ∃ k, toSize (uniformLog m e v vs) = .ok k ∧ 1 ≤ k ∧ k < 2 ^ 64 := by
  obtain ⟨l, hl, l0, l1, l2⟩ := log_extra hm (by omega : 1 ≤ e) h2
  have l2 := l2 h1
  unfold uniformLog
  simp only
  rw [hs, hl]
  have hpos : 0 < y - x := lt_of_lt_of_le (by norm_num) h0
  obtain ⟨q, eq, q0, q1⟩ : ∃ q, rnd z (y - x) = .fin false q ∧ 1 + 1 / 2 ^ 52 ≤ q ∧ q ≤ 2 ^ 53 := by
    unfold rnd
    rw [if_neg hpos.ne', abs_of_nonneg hpos.le, show decide (y - x < 0) = false by simp; linarith]
    exact round_between (by norm_num) h0 hd (by decide +kernel) (by decide +kernel) (by decide +kernel)
  rw [eq]
  have q0' : 1 < q := lt_of_lt_of_le (by norm_num) q0
  have hmul : mul (.fin false q) (.fin false l) = dbl.round false (q * l) := by simp [mul]
  rw [hmul]
  have hb : q < 2 ^ 1024 := q1.trans_lt (pow_lt_pow_right₀ (by norm_num) (by norm_num))
  obtain ⟨w, w0, w1, hw⟩ := hm.log_large q q0 hb
  rw [hw]
  have key : ∃ a, dbl.round false (q * l) = .fin false a ∧ 1 / 2 ≤ a ∧ a ≤ 2 ^ 60 * w := by
    have hlow : 1 / 2 ≤ q * l := by nlinarith
    rcases lt_or_ge q 2 with hq | hq
    · obtain ⟨a, ea, a0, a1⟩ := round_between (s := false) (by norm_num) hlow (show q * l ≤ 2 ^ 7 by nlinarith) (by decide +kernel)
        (by decide +kernel) (by decide +kernel)
      refine ⟨a, ea, a0, a1.trans ?_⟩
      have : (2 : ℚ) ^ 60 * (1 / 2 ^ 53) ≤ 2 ^ 60 * w := mul_le_mul_of_nonneg_left w0 (by norm_num)
      exact le_trans (by norm_num) this
    · obtain ⟨a, ea, a0, a1⟩ := round_between (s := false) (by norm_num) hlow (show q * l ≤ 2 ^ 59 by nlinarith) (by decide +kernel)
        (by decide +kernel) (by decide +kernel)
      refine ⟨a, ea, a0, a1.trans ?_⟩
      have := hm.log_two q hq hb w hw
      have : (2 : ℚ) ^ 60 * (1 / 2) ≤ 2 ^ 60 * w := mul_le_mul_of_nonneg_left this (by norm_num)
      exact le_trans (by norm_num) this
  obtain ⟨a, ea, a0, a1⟩ := key
  rw [ea]
  have wp : 0 < w := lt_of_lt_of_le (by norm_num) w0
  have hdiv : div (.fin false a) (.fin false w) = dbl.round false (a / w) := by
    unfold div
    simp only
    rw [if_neg wp.ne']
    rfl
  rw [hdiv]
  have d0 : 1 / 2 ^ 11 ≤ a / w := by
    rw [le_div_iff₀ wp]
    nlinarith
  have d1 : a / w ≤ 2 ^ 60 := by
    rw [div_le_iff₀ wp]; exact a1
  obtain ⟨b, eb, b0, b1⟩ := round_between (s := false) (by norm_num) d0 d1 (by decide +kernel) (by decide +kernel) (by decide +kernel)
  rw [eb]
  have b0' : 0 < b := lt_of_lt_of_le (by norm_num) b0
  show ∃ k, toSize (.fin false ((⌈b⌉ : Int) : ℚ)) = .ok k ∧ _
  have c0 : 1 ≤ ⌈b⌉ := Int.one_le_ceil_iff.mpr b0'
  have c1 : ⌈b⌉ ≤ 2 ^ 60 := Int.ceil_le.mpr (by push_cast; exact b1)
  have hlt : ⌊((⌈b⌉ : Int) : ℚ)⌋.toNat < 2 ^ 64 := by rw [Int.floor_intCast]; omega
  refine ⟨_, toSize_fin hlt, ?_, hlt⟩
  rw [Int.floor_intCast]; omega

/-! ## Where the buckets begin -/

set_option exponentiation.threshold 1100

theorem near_err {q : ℚ} (h0 : 0 ≤ q) (h : q ≤ 2 ^ 1010) : dbl.near q < dbl.top ∧
    |dbl.val (dbl.near q) - q| ≤ q / 2 ^ 53 + 1 / 2 ^ 1070 := by
  have ht : dbl.near q < dbl.top := by
    have h1 := dbl.near_mono h0 h
    have : dbl.near (2 ^ 1010) < dbl.top := by decide +kernel
    omega
  refine ⟨ht, (dbl.near_error h0 ht).trans ?_⟩
  apply max_le
  · show q / 2 ^ 53 ≤ _
    have : (0 : ℚ) < 1 / 2 ^ 1070 := by positivity
    linarith
  · have h1 : (2 : ℚ) ^ (dbl.emin - dbl.p - 1) ≤ 1 / 2 ^ 1070 := by decide +kernel
    have : 0 ≤ q / 2 ^ 53 := by positivity
    linarith

theorem rnd_err (z : Bool) {v : ℚ} (h : |v| ≤ 2 ^ 1010) : ∃ u s q, rnd z v = .fin s q ∧ signed s q = u ∧ 0 ≤ q ∧
    numberOf (pat (rnd z v)) = some u ∧ |u - v| ≤ |v| / 2 ^ 53 + 1 / 2 ^ 1070 ∧ (0 ≤ v → 0 ≤ u) := by
  have hz : (0 : ℚ) ≤ 1 / 2 ^ 1070 := by positivity
  have fin : ∀ s k, k < dbl.top → numberOf (pat (.fin s (dbl.val k))) = some (signed s (dbl.val k)) := by
    intro s k hk
    obtain ⟨-, -, h3⟩ := pat_is (x := .fin s (dbl.val k)) (s := s) (k := k) (.inl ⟨hk, rfl⟩)
    show (num _).value = _
    rw [h3]
    rfl
  unfold rnd
  by_cases hv : v = 0
  · rw [if_pos hv]
    subst hv
    have := fin z 0 (by decide)
    rw [dbl.val_zero] at this
    refine ⟨_, _, _, rfl, rfl, le_rfl, this, ?_, ?_⟩
    · simp [signed]
    · simp [signed]
  · rw [if_neg hv]
    obtain ⟨ht, he⟩ := near_err (abs_nonneg v) h
    have e : dbl.round (decide (v < 0)) |v| = .fin (decide (v < 0)) (dbl.val (dbl.near |v|)) := by
      unfold Fmt.round
      rw [if_neg (by omega)]
    rw [e]
    refine ⟨_, _, _, rfl, rfl, dbl.val_nonneg _, fin _ _ ht, ?_, ?_⟩
    · refine le_trans (le_of_eq ?_) he
      rcases lt_or_ge v 0 with h0 | h0
      · rw [show decide (v < 0) = true by simp [h0], abs_of_neg h0]
        unfold signed
        rw [if_pos rfl, ← abs_neg]
        congr 1; ring
      · rw [show decide (v < 0) = false by simp [h0], abs_of_nonneg h0]
        rfl
    · intro h0
      rw [show decide (v < 0) = false by simp [h0]]
      exact dbl.val_nonneg _

theorem getD_leftEnds (step : Ieee) (k i : Nat) (h : i < k) (left : Dbl) :
    (leftEnds step k left).getD i 0 = (fun l => pat (add (num l) step))^[i] left := by
  induction k generalizing i left with
  | zero => omega
  | succ k ih =>
    cases i with
    | zero => rfl
    | succ i =>
      rw [Function.iterate_succ_apply]
      simp only [leftEnds, List.getD_cons_succ]
      exact ih i (by omega) _

/-- Adding the step again and again. -/
theorem leftEnds_at {t x A : ℚ} {s : Bool} {k : Nat} {left : Dbl} (ht : 0 ≤ t) (hs : s = true → t = 0) (hx : numberOf left = some x)
    (hA : |x| + k * t ≤ A) (hA2 : A ≤ 2 ^ 1008) (hk : k ≤ 2 ^ 32) (i : Nat) (hi : i < k) :
    ∃ u, numberOf ((leftEnds (.fin s t) k left).getD i 0) = some u ∧ |u - (x + i * t)| ≤ i * (A / 2 ^ 50 + 1 / 2 ^ 1060) := by
  rw [getD_leftEnds _ _ _ hi]
  have hA0 : 0 ≤ A := le_trans (by positivity) hA
  have hkq : (k : ℚ) ≤ 2 ^ 32 := by exact_mod_cast hk
  induction i with
  | zero => exact ⟨x, hx, by simp⟩
  | succ i ih =>
    obtain ⟨u, hu, he⟩ := ih (by omega)
    rw [Function.iterate_succ_apply']
    generalize (fun l => pat (add (num l) (.fin s t)))^[i] left = l at *
    obtain ⟨s', j, -, h1, -, -, h2⟩ := finite_is (x := l) (by rw [hu]; simp)
    rw [hu] at h2
    cases h2
    have hi1 : (i : ℚ) + 1 ≤ k := by exact_mod_cast hi.le
    have hi0 : (0 : ℚ) ≤ i := Nat.cast_nonneg i
    have hit : ((i : ℚ) + 1) * t ≤ k * t := mul_le_mul_of_nonneg_right hi1 ht
    have hE : (0 : ℚ) ≤ A / 2 ^ 50 + 1 / 2 ^ 1060 := by positivity
    have hiE : (i : ℚ) * (A / 2 ^ 50 + 1 / 2 ^ 1060) ≤ 2 ^ 32 * (A / 2 ^ 50 + 1 / 2 ^ 1060) :=
      mul_le_mul_of_nonneg_right (by linarith) hE
    have e1 : (2 : ℚ) ^ 32 * (A / 2 ^ 50 + 1 / 2 ^ 1060) = A / 2 ^ 18 + 1 / 2 ^ 1028 := by
      rw [show (2 : ℚ) ^ 1060 = 2 ^ 1028 * 2 ^ 32 by rw [← pow_add]]
      rw [show (2 : ℚ) ^ 50 = 2 ^ 18 * 2 ^ 32 by norm_num]
      field_simp
    generalize hw : signed s' (dbl.val j) = w at *
    have hxv := abs_le.mp (show |x| ≤ A - k * t by linarith)
    have hev := abs_le.mp (he.trans (hiE.trans e1.le))
    have hA18 : A / 2 ^ 18 ≤ A / 2 := by
      apply div_le_div_of_nonneg_left hA0 (by norm_num) (by norm_num)
    have tiny : (0 : ℚ) < 1 / 2 ^ 1028 := by positivity
    have hit0 : 0 ≤ (i : ℚ) * t := mul_nonneg hi0 ht
    have hsum : |w + t| ≤ 2 * A + 1 / 2 ^ 1028 := by
      apply abs_le.mpr
      constructor <;> nlinarith [hev.1, hev.2, hxv.1, hxv.2]
    have hst : signed s t = t := by
      unfold signed
      split
      · rw [hs (by assumption)]; simp
      · rfl
    have hadd : add (num l) (.fin s t) = rnd (s' && s) (w + t) := by
      rw [h1]
      simp only [add]
      rw [hst, hw]
    rw [hadd]
    have tiny1 : (1 : ℚ) / 2 ^ 1028 ≤ 1 := by
      rw [div_le_one (by positivity)]
      exact one_le_pow₀ (by norm_num)
    have hbig : |w + t| ≤ 2 ^ 1010 := by
      refine hsum.trans ?_
      have : (2 : ℚ) ^ 1010 = 4 * 2 ^ 1008 := by rw [show (4 : ℚ) = 2 ^ 2 by norm_num, ← pow_add]
      rw [this]
      have : (1 : ℚ) ≤ 2 ^ 1008 := one_le_pow₀ (by norm_num)
      linarith
    obtain ⟨u', -, -, -, -, -, hn, her, -⟩ := rnd_err (s' && s) hbig
    refine ⟨u', hn, ?_⟩
    have h3 : u' - (x + ((i + 1 : Nat) : ℚ) * t) = (u' - (w + t)) + (w - (x + i * t)) := by push_cast; ring
    rw [h3]
    refine (abs_add_le _ _).trans ?_
    have h4 : |w + t| / 2 ^ 53 + 1 / 2 ^ 1070 ≤ A / 2 ^ 50 + 1 / 2 ^ 1060 := by
      have a1 : |w + t| / 2 ^ 53 ≤ (2 * A + 1 / 2 ^ 1028) / 2 ^ 53 := div_le_div_of_nonneg_right hsum (by positivity)
      have a2 : (2 * A + 1 / 2 ^ 1028) / 2 ^ 53 = A / 2 ^ 52 + 1 / 2 ^ 1081 := by
        rw [show (2 : ℚ) ^ 1081 = 2 ^ 1028 * 2 ^ 53 by rw [← pow_add]]
        field_simp
      have a3 : A / 2 ^ 52 ≤ A / 2 ^ 50 := div_le_div_of_nonneg_left hA0 (by norm_num) (by norm_num)
      have a4 : (1 : ℚ) / 2 ^ 1081 + 1 / 2 ^ 1070 ≤ 1 / 2 ^ 1060 := by decide +kernel
      linarith
    push_cast
    linarith

/-- The step of evenly divided buckets. -/
theorem step_err {v : Dbl} {vs : List Dbl} (h : AllFinite (v :: vs)) {k : Nat} (h1 : 1 ≤ k) (h2 : k ≤ 2 ^ 32) {x y A : ℚ}
    (hx : numberOf (minElement v vs) = some x) (hy : numberOf (maxElement v vs) = some y) (hA : y - x ≤ A) (hA2 : A ≤ 2 ^ 1000) :
    x ≤ y ∧ ∃ s t, div (sub (num (maxElement v vs)) (num (minElement v vs))) (ofSize k) = .fin s t ∧ 0 ≤ t ∧ (s = true → t = 0) ∧
      |t - (y - x) / k| ≤ (y - x) / k / 2 ^ 51 + 1 / 2 ^ 1068 := by
  obtain ⟨x', y', z, ex, ey, hxy, e, -, -⟩ := spread_spec h
  rw [hx] at ex; rw [hy] at ey
  cases ex; cases ey
  have hd : 0 ≤ y - x := by linarith
  refine ⟨hxy, ?_⟩
  rw [e, ofSize_exact h1 (by omega)]
  have big : (2 : ℚ) ^ 1000 ≤ 2 ^ 1010 := pow_le_pow_right₀ (by norm_num) (by norm_num)
  obtain ⟨u, s, q, hr, hu, hq, -, he, hp⟩ := rnd_err z (show |y - x| ≤ 2 ^ 1010 by rw [abs_of_nonneg hd]; linarith)
  have hu0 := hp hd
  rw [abs_of_nonneg hd] at he
  have hsq : s = true → q = 0 := by
    intro h
    subst h
    unfold signed at hu
    rw [if_pos rfl] at hu
    linarith
  have huq : u = q := by
    rw [← hu]; unfold signed
    split
    · rw [hsq (by assumption)]; simp
    · rfl
  rw [hr]
  have hk1 : (1 : ℚ) ≤ k := by exact_mod_cast h1
  have hk0 : (0 : ℚ) < k := by linarith
  have hz : (0 : ℚ) < 1 / 2 ^ 1070 := by positivity
  have hz1 : (1 : ℚ) / 2 ^ 1070 ≤ 1 := by
    rw [div_le_one (by positivity)]
    exact one_le_pow₀ (by norm_num)
  have hev := abs_le.mp he
  have hd53 : (y - x) / 2 ^ 53 ≤ y - x := div_le_self hd (by norm_num)
  have hqb : q ≤ 2 * (y - x) + 1 := by rw [← huq]; linarith
  have hqk : q / k ≤ q := div_le_self hq hk1
  have hqk0 : 0 ≤ q / k := by positivity
  have hbig : q / k ≤ 2 ^ 1010 := by
    have : (2 : ℚ) ^ 1010 = 2 ^ 10 * 2 ^ 1000 := by rw [← pow_add]
    have : (1 : ℚ) ≤ 2 ^ 1000 := one_le_pow₀ (by norm_num)
    linarith
  obtain ⟨ht, he2⟩ := near_err hqk0 hbig
  have hdiv : div (.fin s q) (.fin false k) = .fin s (dbl.val (dbl.near (q / k))) := by
    unfold div
    simp only
    rw [if_neg hk0.ne']
    unfold Fmt.round
    rw [if_neg (by omega)]
    simp
  refine ⟨_, _, hdiv, dbl.val_nonneg _, ?_, ?_⟩
  · intro h
    rw [hsq h, zero_div, dbl.near_zero, dbl.val_zero]
  · generalize dbl.val (dbl.near (q / k)) = t at *
    rw [huq] at he
    have h3 : t - (y - x) / k = (t - q / k) + (q - (y - x)) / k := by field_simp; ring
    rw [h3]
    refine (abs_add_le _ _).trans ?_
    have h4 : |(q - (y - x)) / k| ≤ (y - x) / k / 2 ^ 53 + 1 / 2 ^ 1070 := by
      rw [abs_div, abs_of_pos hk0, div_le_iff₀ hk0]
      have : ((y - x) / k / 2 ^ 53 + 1 / 2 ^ 1070) * k = (y - x) / 2 ^ 53 + 1 / 2 ^ 1070 * k := by field_simp
      rw [this]
      have := mul_le_mul_of_nonneg_left hk1 hz.le
      linarith
    have h5 : q / k ≤ 2 * ((y - x) / k) + 1 / 2 ^ 1070 := by
      have a := (abs_le.mp h4).2
      have b : (q - (y - x)) / k = q / k - (y - x) / k := by ring
      have c : (y - x) / k / 2 ^ 53 ≤ (y - x) / k := div_le_self (by positivity) (by norm_num)
      linarith
    have h6 : q / k / 2 ^ 53 ≤ (2 * ((y - x) / k) + 1 / 2 ^ 1070) / 2 ^ 53 := div_le_div_of_nonneg_right h5 (by positivity)
    have h7 : (2 * ((y - x) / k) + 1 / 2 ^ 1070) / 2 ^ 53 ≤ (y - x) / k / 2 ^ 52 + 1 / 2 ^ 1070 := by
      have : (1 : ℚ) / 2 ^ 1070 / 2 ^ 53 ≤ 1 / 2 ^ 1070 := div_le_self hz.le (by norm_num)
      have e : (2 * ((y - x) / k) + 1 / 2 ^ 1070) / 2 ^ 53 = (y - x) / k / 2 ^ 52 + 1 / 2 ^ 1070 / 2 ^ 53 := by ring
      rw [e]; linarith
    have h8 : (y - x) / k / 2 ^ 53 + (y - x) / k / 2 ^ 52 ≤ (y - x) / k / 2 ^ 51 := by
      have : 0 ≤ (y - x) / k := by positivity
      generalize (y - x) / (k : ℚ) = w at *
      linarith
    have h9 : (1 : ℚ) / 2 ^ 1070 + 1 / 2 ^ 1070 + 1 / 2 ^ 1070 ≤ 1 / 2 ^ 1068 := by decide +kernel
    linarith

/-- Evenly divided buckets begin where they should, up to rounding. -/
theorem even_at {v : Dbl} {vs : List Dbl} (h : AllFinite (v :: vs)) {k : Nat} (h1 : 1 ≤ k) (h2 : k ≤ 2 ^ 32) {x y A : ℚ}
    (hx : numberOf (minElement v vs) = some x) (hy : numberOf (maxElement v vs) = some y) (hxA : |x| ≤ A) (hyA : |y| ≤ A)
    (hA2 : A ≤ 2 ^ 999) (i : Nat) (hi : i < k) :
    ∃ u, numberOf ((usingBinCount (minElement v vs) (maxElement v vs) k).getD i 0) = some u ∧
      |u - (x + i * ((y - x) / k))| ≤ i * (A / 2 ^ 47 + 1 / 2 ^ 1050) := by
  have hA0 : 0 ≤ A := (abs_nonneg _).trans hxA
  have b1 := abs_le.mp hxA
  have b2 := abs_le.mp hyA
  have p999 : (2 : ℚ) ^ 1000 = 2 * 2 ^ 999 := by rw [pow_succ]; ring
  obtain ⟨hxy, s, t, he, ht, hst, herr⟩ := step_err h h1 h2 hx hy (show y - x ≤ 2 * A by linarith) (by linarith)
  unfold usingBinCount
  rw [he]
  have hk1 : (1 : ℚ) ≤ k := by exact_mod_cast h1
  have hk0 : (0 : ℚ) < k := by linarith
  have hk2 : (k : ℚ) ≤ 2 ^ 32 := by exact_mod_cast h2
  set w := (y - x) / (k : ℚ) with hwdef
  have hw : (k : ℚ) * w = y - x := by rw [hwdef]; field_simp
  have hw0 : 0 ≤ w := div_nonneg (by linarith) hk0.le
  have hwA : w ≤ 2 * A := (div_le_self (by linarith) hk1).trans (by linarith)
  have hz : (0 : ℚ) < 1 / 2 ^ 1068 := by positivity
  have hev := abs_le.mp herr
  have hw51 : w / 2 ^ 51 ≤ w := div_le_self hw0 (by norm_num)
  have hkt : (k : ℚ) * t ≤ 2 * (y - x) + 1 / 2 ^ 1036 := by
    have : (k : ℚ) * t ≤ k * (2 * w + 1 / 2 ^ 1068) := mul_le_mul_of_nonneg_left (by linarith) hk0.le
    have e : (k : ℚ) * (2 * w + 1 / 2 ^ 1068) = 2 * (k * w) + k * (1 / 2 ^ 1068) := by ring
    rw [e, hw] at this
    have : (k : ℚ) * (1 / 2 ^ 1068) ≤ 2 ^ 32 * (1 / 2 ^ 1068) := mul_le_mul_of_nonneg_right hk2 hz.le
    have e2 : (2 : ℚ) ^ 32 * (1 / 2 ^ 1068) = 1 / 2 ^ 1036 := by decide +kernel
    linarith
  have hz1 : (1 : ℚ) / 2 ^ 1036 ≤ 1 := by
    rw [div_le_one (by positivity)]
    exact one_le_pow₀ (by norm_num)
  have hz2 : (0 : ℚ) < 1 / 2 ^ 1036 := by positivity
  obtain ⟨u, hu, hb⟩ := leftEnds_at (A := 5 * A + 1 / 2 ^ 1036) ht hst hx (by linarith) (by
    have : (2 : ℚ) ^ 1008 = 2 ^ 9 * 2 ^ 999 := by rw [← pow_add]
    have : (1 : ℚ) ≤ 2 ^ 999 := one_le_pow₀ (by norm_num)
    linarith) h2 i hi
  refine ⟨u, hu, ?_⟩
  have h3 : u - (x + i * w) = (u - (x + i * t)) + i * (t - w) := by ring
  rw [h3]
  refine (abs_add_le _ _).trans ?_
  have hi0 : (0 : ℚ) ≤ i := Nat.cast_nonneg i
  rw [abs_mul, abs_of_nonneg hi0]
  have h4 : (i : ℚ) * |t - w| ≤ i * (w / 2 ^ 51 + 1 / 2 ^ 1068) := mul_le_mul_of_nonneg_left herr hi0
  have h5 : (5 * A + 1 / 2 ^ 1036) / 2 ^ 50 + 1 / 2 ^ 1060 + (w / 2 ^ 51 + 1 / 2 ^ 1068) ≤ A / 2 ^ 47 + 1 / 2 ^ 1050 := by
    have a1 : w / 2 ^ 51 ≤ 2 * A / 2 ^ 51 := div_le_div_of_nonneg_right hwA (by norm_num)
    have a2 : (1 : ℚ) / 2 ^ 1036 / 2 ^ 50 + 1 / 2 ^ 1060 + 1 / 2 ^ 1068 ≤ 1 / 2 ^ 1050 := by decide +kernel
    have a3 : (5 * A + 1 / 2 ^ 1036) / 2 ^ 50 = 5 * A / 2 ^ 50 + 1 / 2 ^ 1036 / 2 ^ 50 := by ring
    rw [a3]
    generalize (1 : ℚ) / 2 ^ 1036 / 2 ^ 50 = c1 at *
    generalize (1 : ℚ) / 2 ^ 1060 = c2 at *
    generalize (1 : ℚ) / 2 ^ 1068 = c3 at *
    generalize (1 : ℚ) / 2 ^ 1050 = c4 at *
    linarith
  have h6 := mul_le_mul_of_nonneg_left h5 hi0
  rw [mul_add] at h6
  linarith

/-- Buckets of rounded up width. -/
theorem nBuckets_at {v : Dbl} {vs : List Dbl} (h : AllFinite (v :: vs)) {k : Nat} (h1 : 1 ≤ k) (h2 : k ≤ 2 ^ 32) {x y A : ℚ}
    (hx : numberOf (minElement v vs) = some x) (hy : numberOf (maxElement v vs) = some y) (hxA : |x| ≤ A) (hyA : |y| ≤ A)
    (hA2 : A ≤ 2 ^ 999) :
    ∃ left, nBuckets k v vs = some left ∧ ∃ w : Nat, (y - x) / k - ((y - x) / k / 2 ^ 51 + 1 / 2 ^ 1068) ≤ w ∧
      (w : ℚ) < (y - x) / k + ((y - x) / k / 2 ^ 51 + 1 / 2 ^ 1068) + 1 ∧
      ∀ i, i < k → ∃ u, numberOf (left.getD i 0) = some u ∧ |u - (x + i * w)| ≤ i * ((A + k) / 2 ^ 47 + 1 / 2 ^ 1050) := by
  have hA0 : 0 ≤ A := (abs_nonneg _).trans hxA
  have b1 := abs_le.mp hxA
  have b2 := abs_le.mp hyA
  have p999 : (2 : ℚ) ^ 1000 = 2 * 2 ^ 999 := by rw [pow_succ]; ring
  obtain ⟨hxy, s, t, he, ht, hst, herr⟩ := step_err h h1 h2 hx hy (show y - x ≤ 2 * A by linarith) (by linarith)
  unfold nBuckets
  rw [if_neg (by omega), he]
  have hc : ceil (.fin s t) = .fin s ((⌈t⌉.toNat : Nat) : ℚ) := by
    unfold ceil
    simp only
    split
    · rw [hst (by assumption)]; simp
    · have : ((⌈t⌉.toNat : Nat) : Int) = ⌈t⌉ := Int.toNat_of_nonneg (Int.ceil_nonneg ht)
      have : ((⌈t⌉.toNat : Nat) : ℚ) = ⌈t⌉ := by exact_mod_cast this
      rw [this]
  have hcq : ((⌈t⌉.toNat : Nat) : ℚ) = ⌈t⌉ := by
    have : ((⌈t⌉.toNat : Nat) : Int) = ⌈t⌉ := Int.toNat_of_nonneg (Int.ceil_nonneg ht)
    exact_mod_cast this
  have c1 := Int.le_ceil t
  have c2 := Int.ceil_lt_add_one t
  rw [← hcq] at c1 c2
  refine ⟨_, rfl, ⌈t⌉.toNat, ?_, ?_, ?_⟩
  · have := (abs_le.mp herr).1
    linarith
  · have := (abs_le.mp herr).2
    linarith
  intro i hi
  rw [hc]
  have hk1 : (1 : ℚ) ≤ k := by exact_mod_cast h1
  have hk0 : (0 : ℚ) < k := by linarith
  have hk2 : (k : ℚ) ≤ 2 ^ 32 := by exact_mod_cast h2
  set w := (y - x) / (k : ℚ) with hwdef
  have hw : (k : ℚ) * w = y - x := by rw [hwdef]; field_simp
  have hw0 : 0 ≤ w := div_nonneg (by linarith) hk0.le
  have hz : (0 : ℚ) < 1 / 2 ^ 1068 := by positivity
  have hz1 : (1 : ℚ) / 2 ^ 1068 ≤ 1 := by
    rw [div_le_one (by positivity)]
    exact one_le_pow₀ (by norm_num)
  have hev := abs_le.mp herr
  have hw51 : w / 2 ^ 51 ≤ w := div_le_self hw0 (by norm_num)
  generalize ((⌈t⌉.toNat : Nat)) = c at *
  have hkt : (k : ℚ) * c ≤ 2 * (y - x) + 2 * k := by
    have : (k : ℚ) * c ≤ k * (2 * w + 2) := mul_le_mul_of_nonneg_left (by linarith) hk0.le
    have e : (k : ℚ) * (2 * w + 2) = 2 * (k * w) + 2 * k := by ring
    rw [e, hw] at this
    exact this
  obtain ⟨u, hu, hb⟩ := leftEnds_at (A := 5 * A + 2 * k) (t := c) (s := s) (k := k) (left := minElement v vs) (x := x)
    (Nat.cast_nonneg c) (by
      intro h
      have ht0 := hst h
      have : (c : ℚ) < 1 := by linarith
      have : c < 1 := by exact_mod_cast this
      have : c = 0 := by omega
      rw [this]; rfl) hx (by linarith) (by
    have : (2 : ℚ) ^ 1008 = 2 ^ 9 * 2 ^ 999 := by rw [← pow_add]
    have : (2 : ℚ) ^ 32 ≤ 2 ^ 999 := pow_le_pow_right₀ (by norm_num) (by norm_num)
    linarith) h2 i hi
  refine ⟨u, hu, hb.trans (mul_le_mul_of_nonneg_left ?_ (Nat.cast_nonneg i))⟩
  have a2 : (1 : ℚ) / 2 ^ 1060 ≤ 1 / 2 ^ 1050 := by decide +kernel
  generalize (1 : ℚ) / 2 ^ 1060 = c2 at *
  generalize (1 : ℚ) / 2 ^ 1050 = c4 at *
  linarith

end Hx.Buckets

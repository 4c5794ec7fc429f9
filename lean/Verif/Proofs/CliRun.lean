import Verif.Spec.CliRun
import Verif.Proofs.Cli
import Verif.Proofs.FpMem
import Verif.Proofs.Job

/-!
# Lemmas about running commands and printing results
-/

namespace Hx.Cli
open Hx Spec Store Elen Results
open Hx.Config (str)
open Hx.Spec.Config (Blank Word Decimal Lines)
open Hx.Spec.Cli
open Hx.Process (ok_iff)

/-! ## Numbers that are read as they were printed -/

theorem toDec_decimal (n : Nat) : Decimal (toDec n) n := by
  refine ⟨?_, ?_, (foldl_dec n).symm⟩
  · intro h; have := length_toDec_pos n; rw [h] at this; simp at this
  · intro c hc
    have := toDec_digits n c hc
    simpa [Elen.isDigit] using this

theorem decText_int (v : Int) : IntText (decText v) v := by
  unfold decText
  split
  · exact ⟨[45], true, _, v.natAbs, .minus, toDec_decimal _, rfl, by rw [if_pos rfl]; omega⟩
  · exact ⟨[], false, _, v.natAbs, .none, toDec_decimal _, rfl, by rw [if_neg (by decide)]; omega⟩

theorem decimal_word {ds : Bytes} {n : Nat} (h : Decimal ds n) : Word ds :=
  ⟨h.1, fun c hc => (digit_of (h.2.1 c hc)).2.1⟩

theorem intText_word {w : Bytes} {v : Int} (h : IntText w v) : Word w := by
  obtain ⟨sg, neg, ds, n, hs, hd, rfl, -⟩ := h
  have hw := decimal_word hd
  refine ⟨by simp [hw.1], ?_⟩
  intro c hc
  rcases List.mem_append.mp hc with hc | hc
  · cases hs with
    | none => cases hc
    | plus => rw [List.mem_singleton.mp hc]; unfold Blank; decide
    | minus => rw [List.mem_singleton.mp hc]; unfold Blank; decide
  · exact hw.2 c hc

theorem word_ok {a : Nat} {v : Val} (ha : a ≠ 0) {n : Nat} (h : v.bytes.length = n) : word (at_ a v) n = .ok v.bytes := by
  subst h
  simp [word, at_, ha]

theorem readsAs_signed {t : Nat} {it : IntType} {m : Bytes} (ht : intType t = some it)
    (hw : 0 < it.width) (hm : m.length = it.width) : ReadsAs (decText (ofMem it m)) ⟨m, t⟩ := by
  refine ⟨intText_word (decText_int _), ?_⟩
  intro s more h
  have := reads_blob (v := ⟨m, t⟩) ⟨_, rfl, by
    have := ValText.int ht (decText_int (ofMem it m)) (ofMem_range it hw m hm)
    rwa [toMem_ofMem it m hm] at this⟩
  exact this s more h

theorem readsAs_unsigned {t : Nat} {it is : IntType} {m : Bytes} (ht : intType t = some it) (hn : IsType t) (hu : it.signed = false)
    (hs : is = ⟨it.width, true⟩) (hm : m.length = it.width) : ReadsAs (decText (ofMem is m)) ⟨m, t⟩ := by
  subst hs
  have hlt := leVal_lt m
  have hp : (256 : Nat) ^ it.width = 2 ^ (8 * it.width) := by rw [Nat.pow_mul]
  rw [hm, hp] at hlt
  have hback : toMem it (leVal m) = m := by
    have := toMem_ofMem it m hm
    unfold ofMem at this
    simpa [hu] using this
  refine ⟨intText_word (decText_int _), ?_⟩
  intro s more h
  by_cases hb : 2 ^ (8 * it.width - 1) ≤ leVal m
  · have hof : ofMem ⟨it.width, true⟩ m = (leVal m : Int) - (2 ^ (8 * it.width) : Nat) := by
      unfold ofMem; simp only; rw [if_pos ⟨trivial, hb⟩]
    have htext : decText (ofMem ⟨it.width, true⟩ m) = 45 :: toDec (2 ^ (8 * it.width) - leVal m) := by
      unfold decText
      rw [hof, if_pos (by omega)]
      congr 2
      omega
    rw [htext] at h
    obtain ⟨s1, e1, hs1⟩ := reads_key (find_type hn) s _ h
    cases hs1 with
    | @cons a w' rest ws ha hw' hr hs2 =>
      have e2 := takeInt_wrap hu ha (toDec_decimal (2 ^ (8 * it.width) - leVal m)) (by omega)
        (by have : 0 < leVal m := by have := Nat.pow_pos (n := 8 * it.width - 1) (show 0 < 2 by decide); omega
            omega) fun b hb => (blank_not (hr b hb)).1
      refine ⟨rest, ?_, hs2⟩
      unfold takeBlob
      rw [e1]
      simp only [ht, e2, Option.map_some]
      rw [show 2 ^ (8 * it.width) - (2 ^ (8 * it.width) - leVal m) = leVal m by omega, hback]
  · have hof : ofMem ⟨it.width, true⟩ m = (leVal m : Int) := by
      unfold ofMem; simp only; rw [if_neg (fun h => hb h.2)]
    rw [hof] at h
    have := reads_blob (v := ⟨m, t⟩) ⟨_, rfl, by
      have := ValText.int ht (decText_int (leVal m)) (by
        simp only [IntType.min, IntType.max, hu, Bool.false_eq_true, if_false]; omega)
      rwa [hback] at this⟩
    exact this s more h

theorem value_append (a b : Bytes) : value (a ++ b) = value a * 10 ^ b.length + value b := by
  unfold value
  rw [List.foldl_append]
  exact (digitsVal_foldl _ b)

theorem fixed_text {prec : Nat} (hp : prec ≠ 0) (neg : Bool) (q : ℚ) :
    FloatText ((if neg then [45] else []) ++ Fp.fixed prec q) neg ((Fp.halfEven (q * 10 ^ prec) : ℚ) / 10 ^ prec) := by
  obtain ⟨h1, h2, h3⟩ := Fp.lastDigits_spec (Fp.halfEven (q * 10 ^ prec)) prec
  have hd := toDec_decimal (Fp.halfEven (q * 10 ^ prec) / 10 ^ prec)
  refine ⟨if neg then [45] else [], toDec (Fp.halfEven (q * 10 ^ prec) / 10 ^ prec), Fp.lastDigits (Fp.halfEven (q * 10 ^ prec)) prec,
    46 :: Fp.lastDigits (Fp.halfEven (q * 10 ^ prec)) prec, [], 0, ?_, hd.2.1, ?_, ?_, .inl rfl, .inl ⟨rfl, rfl⟩, ?_, ?_⟩
  · cases neg
    · exact .none
    · exact .minus
  · intro c hc
    simpa [Elen.isDigit] using h1 c hc
  · intro h; exact hd.1 (List.append_eq_nil_iff.mp h).1
  · unfold Fp.fixed
    simp [hp]
  · have hv : value (toDec (Fp.halfEven (q * 10 ^ prec) / 10 ^ prec) ++ Fp.lastDigits (Fp.halfEven (q * 10 ^ prec)) prec) =
        Fp.halfEven (q * 10 ^ prec) := by
      rw [value_append, h2, show value (toDec (Fp.halfEven (q * 10 ^ prec) / 10 ^ prec)) = _ from hd.2.2.symm,
        show value (Fp.lastDigits (Fp.halfEven (q * 10 ^ prec)) prec) = _ from h3]
      exact Nat.div_add_mod' _ _
    rw [hv, h2, zero_sub, zpow_neg, zpow_natCast, div_eq_mul_inv]

/-- The distance to the next number of a type. -/
theorem gap (f : Fp.Fmt) (k : Nat) : f.val k < (f.val (k + 1) - f.val k) * 2 ^ (f.p + 1) := by
  obtain ⟨E, n, rfl, hn, hE⟩ := f.parts k
  rw [f.val_parts E n hn.le hE, Nat.add_assoc, f.val_parts E (n + 1) hn (hE.imp id (by omega))]
  have hz := Fp.two_zpow_pos ((E : Int) + f.emin - f.p)
  have hq : (n : ℚ) < 2 ^ (f.p + 1) := by exact_mod_cast hn
  push_cast
  nlinarith

theorem near_close {f : Fp.Fmt} {k : Nat} (hk : k + 1 < f.top) {r e : ℚ} (hr : 0 ≤ r) (h : |r - f.val k| ≤ e)
    (h1 : 2 * e * (2 ^ (f.p + 1) + 1) < f.val k) : f.near r = k := by
  have hg := gap f k
  have hp : (0 : ℚ) < 2 ^ (f.p + 1) := by positivity
  have he : 0 ≤ e := (abs_nonneg _).trans h
  have hup : 2 * e < f.val (k + 1) - f.val k := by
    by_contra hc
    push Not at hc
    nlinarith
  have habs := abs_le.mp h
  have hle : r ≤ f.val (k + 1) := by linarith [habs.2]
  have hn : f.near r ≤ k + 1 := by
    have := f.near_mono hr hle
    rwa [f.near_val (by omega)] at this
  have hbest := f.near_nearest hr (by omega) k
  have hd : |f.val k - r| ≤ e := by rw [abs_sub_comm]; exact h
  have hj := abs_le.mp (hbest.trans hd)
  rcases Nat.lt_trichotomy (f.near r) k with hlt | heq | hgt
  · exfalso
    have hk1 : f.val (f.near r) ≤ f.val (k - 1) := f.val_strictMono.monotone (by omega)
    have hg2 := gap f (k - 1)
    rw [show k - 1 + 1 = k by omega] at hg2
    have hdown : 2 * e < f.val k - f.val (k - 1) := by
      by_contra hc
      push Not at hc
      nlinarith
    linarith [hj.1, hj.2, habs.1, habs.2]
  · exact heq
  · exfalso
    have hk1 : f.val (k + 1) ≤ f.val (f.near r) := f.val_strictMono.monotone (by omega)
    linarith [hj.1, hj.2, habs.1, habs.2]

theorem readsAs_float {t prec : Nat} {m : Bytes} {neg : Bool} {q : ℚ} (ht : t = tFloat ∨ t = tDouble) (hp : prec ≠ 0)
    (hm : m.length = (Fp.fmtOf t).size) (hx : ieee (Fp.fmtOf t).w (Fp.fmtOf t).p (leVal m) = .fin neg q)
    (hq : q = 0 ∨ 1 / 10 ^ prec * (2 ^ ((Fp.fmtOf t).p + 1) + 1) < q) :
    ReadsAs (fltText (Fp.fmtOf t) prec (leVal m)) ⟨m, t⟩ := by
  have hsize : 256 ^ (Fp.fmtOf t).size = 2 * (2 ^ (Fp.fmtOf t).p * 2 ^ (Fp.fmtOf t).w) := by
    rcases ht with rfl | rfl <;> decide +kernel
  have hpw : 2 ^ ((Fp.fmtOf t).w + (Fp.fmtOf t).p) = 2 ^ (Fp.fmtOf t).p * 2 ^ (Fp.fmtOf t).w := by rw [Nat.pow_add, Nat.mul_comm]
  have hlast : ∃ N : Nat, (Fp.fmtOf t).val ((Fp.fmtOf t).top - 1) = N := by
    rcases ht with rfl | rfl
    · exact ⟨(2 ^ 24 - 1) * 2 ^ 104, by decide +kernel⟩
    · exact ⟨(2 ^ 53 - 1) * 2 ^ 971, by decide +kernel⟩
  have hlt := leVal_lt m
  rw [hm, hsize] at hlt
  generalize hf : Fp.fmtOf t = f at *
  rw [Fp.ieee_eq] at hx
  generalize hN : 2 ^ f.p * 2 ^ f.w = N at *
  have hNpos : 0 < N := by rw [← hN]; positivity
  split at hx
  · next hk =>
    simp only [Ieee.fin.injEq] at hx
    obtain ⟨hneg, hval⟩ := hx
    generalize hkk : leVal m % N = k at *
    have hnear : f.near ((Fp.halfEven (q * 10 ^ prec) : ℚ) / 10 ^ prec) = k := by
      have h10 : (0 : ℚ) < 10 ^ prec := by positivity
      rcases hq with h0 | hq
      · have hk0 : k = 0 := by
          by_contra hc
          have := f.val_pos (Nat.pos_of_ne_zero hc)
          linarith
        have : Fp.halfEven (q * 10 ^ prec) = 0 := by
          have := Fp.halfEven_natCast 0
          rw [h0, zero_mul]; simpa using this
        rw [this, hk0]
        simp [f.near_zero]
      · by_cases hlastk : k + 1 < f.top
        · have hq0 : 0 ≤ q := by rw [← hval]; exact f.val_nonneg k
          have hs := Fp.halfEven_spec (s := q * 10 ^ prec) (by positivity)
          refine near_close (e := 1 / (2 * 10 ^ prec)) hlastk (by positivity) ?_ ?_
          · rw [hval]
            have : (Fp.halfEven (q * 10 ^ prec) : ℚ) / 10 ^ prec - q = ((Fp.halfEven (q * 10 ^ prec) : ℚ) - q * 10 ^ prec) / 10 ^ prec := by
              field_simp
            rw [this, abs_div, abs_of_pos h10, div_le_div_iff₀ h10 (by positivity)]
            nlinarith
          · rw [hval]
            have : 2 * (1 / (2 * 10 ^ prec)) = 1 / (10 : ℚ) ^ prec := by field_simp
            rw [this]
            exact hq
        · obtain ⟨n, hn⟩ := hlast
          have hkt : k = f.top - 1 := by omega
          have hqn : q = n := by rw [← hval, hkt, hn]
          have : Fp.halfEven (q * 10 ^ prec) = n * 10 ^ prec := by
            rw [hqn]
            have := Fp.halfEven_natCast (n * 10 ^ prec)
            push_cast at this
            exact this
          rw [this]
          push_cast
          rw [mul_div_assoc, div_self h10.ne', mul_one, ← hqn, ← hval]
          exact f.near_val (by omega)
    have htext : fltText f prec (leVal m) = (if neg then [45] else []) ++ Fp.fixed prec q := by
      unfold fltText
      rw [Fp.ieee_eq, hN, hkk, if_pos hk, hval, hneg]
    have hft := fixed_text hp neg q
    rw [← htext] at hft
    have hbits : (if neg then 2 ^ (f.w + f.p) else 0) + k = leVal m := by
      rw [hpw]
      have h2 : leVal m / N < 2 := Nat.div_lt_of_lt_mul (by omega)
      have h3 := Nat.div_add_mod (leVal m) N
      rw [hkk] at h3
      cases neg with
      | false =>
        have : leVal m / N = 0 := by
          have h5 := of_decide_eq_false hneg
          rw [hpw] at h5
          generalize leVal m / N = z at *
          omega
        rw [this] at h3
        simpa using h3
      | true =>
        have : leVal m / N = 1 := by
          have h5 := of_decide_eq_true hneg
          rw [hpw] at h5
          generalize leVal m / N = z at *
          omega
        rw [this] at h3
        simpa using h3
    have hv : ValText (fltText f prec (leVal m)) ⟨m, t⟩ := by
      have := ValText.float (t := t) ht hft (by rw [hf, hnear]; exact hk)
      rw [hf, hnear, hbits, ← hm, leBytes_leVal] at this
      exact this
    refine ⟨?_, fun s more h => reads_blob ⟨_, rfl, hv⟩ s more h⟩
    rw [htext]
    have hw1 := toDec_decimal (Fp.halfEven (q * 10 ^ prec) / 10 ^ prec)
    obtain ⟨h1, -, -⟩ := Fp.lastDigits_spec (Fp.halfEven (q * 10 ^ prec)) prec
    unfold Fp.fixed
    simp only [if_neg hp]
    refine ⟨?_, ?_⟩
    · simp
    · intro c hc
      rcases List.mem_append.mp hc with hc | hc
      · cases neg
        · cases hc
        · rw [List.mem_singleton.mp hc]; unfold Blank; decide
      · rcases List.mem_append.mp hc with hc | hc
        · exact (decimal_word hw1).2 c hc
        · rcases List.mem_cons.mp hc with rfl | hc
          · unfold Blank; decide
          · have := h1 c hc
            exact (digit_of (by simpa [Elen.isDigit] using this)).2.1
  · split at hx <;> cases hx

/-! ## Results -/

theorem printList_ok {read : Nat → Nat → Bytes} {l : List Result} {t : Bytes} :
    printList read l = .ok t ↔ ∃ lines, List.Forall₂ (fun x line => printResult read x = .ok line) l lines ∧ t = lines.flatten := by
  induction l generalizing t with
  | nil =>
    constructor
    · intro h; cases h; exact ⟨[], .nil, rfl⟩
    · rintro ⟨lines, h, rfl⟩; cases h; rfl
  | cons x l ih =>
    constructor
    · intro h
      obtain ⟨a, ha, h⟩ := ok_iff.mp h
      obtain ⟨b, hb, h⟩ := ok_iff.mp h
      cases h
      obtain ⟨lines, h1, rfl⟩ := ih.mp hb
      exact ⟨a :: lines, .cons ha h1, rfl⟩
    · rintro ⟨lines, h, rfl⟩
      cases h with
      | @cons _ line _ lines h1 h2 =>
        have := ih.mpr ⟨lines, h2, rfl⟩
        simp only [printList, h1, Out.ok_bind, this]
        rfl

/-! ## Queues -/

theorem processLoop_empty {σ α : Type} {net : Process.Net} {serve : Process.Server σ} {mk : List α → Msg.ReqBody} (fuel : Nat) {s s' : σ}
    {r r' : Results} {qs qs' : List (List (List α))} (h : Process.processLoop net serve mk fuel s r qs = .ok (s', r', qs')) :
    qs' = List.replicate qs.length [] := by
  induction fuel generalizing s r qs with
  | zero => cases h
  | succ n ih =>
    simp only [Process.processLoop] at h
    split at h
    · next hz =>
      simp only [Out.ok.injEq, Prod.mk.injEq] at h
      rw [← h.2.2]
      have : ∀ q ∈ qs, q = [] := by
        intro q hq
        have := List.sum_eq_zero_iff.mp hz q.length (List.mem_map_of_mem hq)
        exact List.length_eq_zero_iff.mp this
      exact List.eq_replicate_of_mem this
    · obtain ⟨x, hx, h⟩ := ok_iff.mp h
      have hlen : x.2.2.length = qs.length := by
        unfold Process.round at hx
        obtain ⟨_, _, hx⟩ := ok_iff.mp hx
        obtain ⟨_, _, hx⟩ := ok_iff.mp hx
        obtain ⟨_, _, hx⟩ := ok_iff.mp hx
        cases hx
        simp [Process.popped]
      rw [ih h, hlen]

/-- One queue per datastore. -/
def Sized (n : Nat) (q : Queue.Queues) : Prop :=
  q.puts.length = n ∧ q.gets.length = n ∧ q.getops.length = n ∧ q.dels.length = n ∧ q.hists.length = n

theorem sized_init (n : Nat) : Sized n (Queue.Queues.init n) := by simp [Sized, Queue.Queues.init]

theorem sized_call {n : Nat} {c : Queue.Cfg} {q : Queue.Queues} {addr : Nat → Nat} {x : Item} {y : Queue.Call} {r : Queue.Queues × Bool}
    (hq : Sized n q) (hc : call addr x = some y) (h : Queue.call c true q y = .ok r) : Sized n r.1 := by
  obtain ⟨h1, h2, h3, h4, h5⟩ := hq
  have hputs : ∀ {s p o : Blob} {mask : Nat} (l : List Nat) {q : Queue.Queues}, Sized n q →
      Queue.putLoop c s p o mask l q = .ok r → Sized n r.1 := by
    intro s p o mask l
    induction l with
    | nil => intro q hq h; cases h; exact hq
    | cons perm l ih =>
      intro q hq h
      simp only [Queue.putLoop] at h
      split at h
      · exact ih hq h
      · split at h
        · cases h; exact hq
        · obtain ⟨id, -, h⟩ := ok_iff.mp h
          split at h
          · cases h; exact hq
          · obtain ⟨puts, hp, h⟩ := ok_iff.mp h
            refine ih ?_ h
            exact ⟨(Queue.enqueue_ok hp).1.trans hq.1, hq.2⟩
  simp only [Queue.call, if_true] at h
  cases x with
  | put s p o =>
    cases hc
    simp only [Queue.exec] at h
    split at h
    · exact hputs _ ⟨h1, h2, h3, h4, h5⟩ h
    · cases h; exact ⟨h1, h2, h3, h4, h5⟩
  | get s p t =>
    cases hc
    simp only [Queue.exec] at h
    split at h
    · obtain ⟨id, -, h⟩ := ok_iff.mp h
      split at h
      · cases h; exact ⟨h1, h2, h3, h4, h5⟩
      · obtain ⟨l, hl, h⟩ := ok_iff.mp h
        cases h
        exact ⟨h1, (Queue.enqueue_ok hl).1.trans h2, h3, h4, h5⟩
    · cases h; exact ⟨h1, h2, h3, h4, h5⟩
  | getop s p t n op =>
    cases hc
    simp only [Queue.exec] at h
    split at h
    · obtain ⟨id, -, h⟩ := ok_iff.mp h
      split at h
      · cases h; exact ⟨h1, h2, h3, h4, h5⟩
      · obtain ⟨l, hl, h⟩ := ok_iff.mp h
        cases h
        exact ⟨h1, h2, (Queue.enqueue_ok hl).1.trans h3, h4, h5⟩
    · cases h; exact ⟨h1, h2, h3, h4, h5⟩
  | del s p =>
    cases hc
    simp only [Queue.exec] at h
    split at h
    · obtain ⟨id, -, h⟩ := ok_iff.mp h
      split at h
      · cases h; exact ⟨h1, h2, h3, h4, h5⟩
      · obtain ⟨l, hl, h⟩ := ok_iff.mp h
        cases h
        exact ⟨h1, h2, h3, (Queue.enqueue_ok hl).1.trans h4, h5⟩
    · cases h; exact ⟨h1, h2, h3, h4, h5⟩
  | flushPuts => cases hc
  | flushGets => cases hc
  | flushDels => cases hc
  | flush => cases hc

theorem flush_empty {σ : Type} {n : Nat} {net : Process.Net} {serve : Process.Server σ} {s : σ} {q : Queue.Queues}
    {r : σ × Results × Queue.Queues} (hq : Sized n q) (h : Process.flush net serve s q = .ok r) : r.2.2 = Queue.Queues.init n := by
  obtain ⟨h1, h2, h3, h4, h5⟩ := hq
  unfold Process.flush at h
  obtain ⟨a, ha, h⟩ := ok_iff.mp h
  obtain ⟨b, hb, h⟩ := ok_iff.mp h
  obtain ⟨c, hc, h⟩ := ok_iff.mp h
  obtain ⟨d, hd, h⟩ := ok_iff.mp h
  obtain ⟨e, he, h⟩ := ok_iff.mp h
  cases h
  obtain ⟨⟨a1, a2, a3⟩, ha', ha⟩ := ok_iff.mp ha
  cases ha
  obtain ⟨⟨b1, b2, b3⟩, hb', hb⟩ := ok_iff.mp hb
  cases hb
  obtain ⟨⟨c1, c2, c3⟩, hc', hc⟩ := ok_iff.mp hc
  cases hc
  obtain ⟨⟨d1, d2, d3⟩, hd', hd⟩ := ok_iff.mp hd
  cases hd
  obtain ⟨⟨e1, e2, e3⟩, he', he⟩ := ok_iff.mp he
  cases he
  simp only [Queue.Queues.init, Queue.Queues.mk.injEq]
  have k1 := processLoop_empty _ ha'
  have k2 := processLoop_empty _ hb'
  have k3 := processLoop_empty _ hc'
  have k4 := processLoop_empty _ hd'
  have k5 := processLoop_empty _ he'
  simp only at k1 k2 k3 k4 k5
  rw [h1] at k1; rw [h2] at k2; rw [h3] at k3; rw [h4] at k4; rw [h5] at k5
  exact ⟨k1, trivial, k2, k3, k4, k5⟩

/-! ## Running -/

theorem call_waits {addr : Nat → Nat} {x : Item} (h : Waits x) : ∃ y, call addr x = some y := by
  cases x <;> first | exact ⟨_, rfl⟩ | exact h.elim

theorem run_append {σ : Type} {h : Host σ} {a b : List Item} {i : Nat} {s : σ} {q : Queue.Queues}
    {r : σ × Queue.Queues × Bytes × Nat} (hr : run h i (a ++ b) s q = .ok r) :
    ∃ x y, run h i a s q = .ok x ∧ run h (i + a.length) b x.1 x.2.1 = .ok y ∧
      r = (y.1, y.2.1, x.2.2.1 ++ y.2.2.1, y.2.2.2 + x.2.2.2) := by
  induction a generalizing i s q r with
  | nil => exact ⟨_, r, rfl, hr, rfl⟩
  | cons x a ih =>
    simp only [List.cons_append, run] at hr ⊢
    obtain ⟨e, he, hr⟩ := ok_iff.mp hr
    obtain ⟨t, ht, hr⟩ := ok_iff.mp hr
    cases hr
    obtain ⟨u, v, hu, hv, rfl⟩ := ih ht
    refine ⟨_, v, by rw [he, Out.ok_bind, hu]; rfl, ?_, ?_⟩
    · rw [show i + (x :: a).length = i + 1 + a.length by simp; omega]; exact hv
    · simp [List.append_assoc, Nat.add_assoc]

theorem call_eq (addr : Nat → Nat) (x : Item) : call addr x = callOf addr x := by cases x <;> rfl

/-- Commands that wait are calls. -/
theorem run_waits {σ : Type} {h : Host σ} {n : Nat} {l : List Item} (hl : ∀ x ∈ l, Waits x) {i : Nat} {s : σ} {q : Queue.Queues}
    (hq : Sized n q) {r : σ × Queue.Queues × Bytes × Nat} (hr : run h i l s q = .ok r) :
    r.1 = s ∧ r.2.2.1 = [] ∧ Sized n r.2.1 ∧ Queue.calls h.cfg true q (callsOf h.addr i l) = .ok r.2.1 := by
  induction l generalizing i q r with
  | nil => cases hr; exact ⟨rfl, rfl, hq, rfl⟩
  | cons x l ih =>
    obtain ⟨y, hy⟩ := call_waits (addr := h.addr i) (hl x (by simp))
    simp only [run, exec, hy] at hr
    obtain ⟨e, he, hr⟩ := ok_iff.mp hr
    obtain ⟨c, hc, he⟩ := ok_iff.mp he
    cases he
    obtain ⟨t, ht, hr⟩ := ok_iff.mp hr
    cases hr
    obtain ⟨h1, h2, h3, h4⟩ := ih (fun z hz => hl z (by simp [hz])) (sized_call hq hy hc) ht
    refine ⟨h1, by simp [h2], h3, ?_⟩
    rw [call_eq] at hy
    simp only [callsOf, hy, Option.toList_some, List.singleton_append, Queue.calls, hc, Out.ok_bind]
    exact h4

end Hx.Cli

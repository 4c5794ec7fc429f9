import Verif.Spec.DsStats
import Mathlib.Tactic.FieldSimp
import Mathlib.Tactic.Ring
import Mathlib.Tactic.Linarith
import Mathlib.Tactic.NormNum
import Mathlib.Tactic.Positivity
import Mathlib.Algebra.BigOperators.Group.List.Basic

/-!
# Lemmas about statistics of a datastore
-/

namespace Hx.DsStats
open Hx Msg Store Spec

theorem bind_ok {α β : Type} {x : Out α} {f : α → Out β} {b : β} (h : (x >>= f) = .ok b) :
    ∃ a, x = .ok a ∧ f a = .ok b := by
  cases x with
  | ok a => exact ⟨a, rfl, h⟩
  | err => cases h
  | ub => cases h

theorem encodeKey_len {cb : Callbacks} {s p : Blob} {k : Option Bytes} (h : encodeKey cb s p = .ok k) :
    k.map List.length = keyBytes cb s p := by
  unfold encodeKey at h
  obtain ⟨es, h1, h⟩ := bind_ok h
  cases es with
  | none => cases h; simp [keyBytes, encLen, h1]
  | some es =>
    obtain ⟨ep, h2, h⟩ := bind_ok h
    cases ep with
    | none => cases h; simp [keyBytes, encLen, h1, h2]
    | some ep =>
      cases h
      simp only [keyBytes, encLen, h1, h2, Option.map_some, Key.spToKey, List.length_append, List.length_cons,
        length_leBytes, List.length_nil]

theorem encodeTriple_len {cb : Callbacks} {x : PutItem} {kv : Option (Bytes × Bytes)}
    (h : encodeTriple cb x.subject x.predicate x.object = .ok kv) :
    storedBytes cb x = (kv.map fun kv => kv.1.length + kv.2.length).getD 0 := by
  unfold encodeTriple at h
  obtain ⟨k, h1, h⟩ := bind_ok h
  have hk := encodeKey_len h1
  unfold storedBytes
  rw [← hk]
  cases k with
  | none => cases h; rfl
  | some k =>
    obtain ⟨eo, h2, h⟩ := bind_ok h
    cases eo with
    | none => cases h; simp [encLen, h2]
    | some eo => cases h; simp [encLen, h2, appendType, length_leBytes]

theorem putSize_eq {cb : Callbacks} {l : List PutItem} {n : Nat} (h : putSize cb l = .ok n) :
    n = (l.map (storedBytes cb)).sum := by
  induction l generalizing n with
  | nil => cases h; rfl
  | cons x l ih =>
    unfold putSize at h
    obtain ⟨kv, h1, h⟩ := bind_ok h
    obtain ⟨m, h2, h⟩ := bind_ok h
    have := encodeTriple_len h1
    rw [List.map_cons, List.sum_cons, this, ← ih h2]
    cases kv <;> cases h <;> simp

theorem getSize_eq {b : Backend} {cb : Callbacks} {heap : Nat} {db : Db} {objs : List Nat} {l : List GetItem} {n : Nat}
    (h : getSize b cb heap db objs l = .ok n) :
    n = if b = .mem then (l.map fun x => (keyBytes cb x.subject x.predicate).getD 0).sum else 0 := by
  induction l generalizing n objs with
  | nil => cases h; cases b <;> rfl
  | cons x l ih =>
    unfold getSize at h
    obtain ⟨k, h1, h⟩ := bind_ok h
    obtain ⟨r, h2, h⟩ := bind_ok h
    obtain ⟨m, h3, h⟩ := bind_ok h
    have hk := encodeKey_len h1
    have h0 : objs.getD objs.length 0 = 0 := by simp
    rw [h0] at h
    have hm := ih h3
    simp only [ite_self, Nat.zero_add] at h
    cases b with
    | level => cases k <;> cases h <;> exact hm
    | mem =>
      simp only [List.map_cons, List.sum_cons, ← hk, if_true]
      simp only [if_true] at hm
      cases k <;> cases h <;> simp [hm]

theorem opEvents_length (ops : Nat → Nat × Nat) (i : Nat) (rs : List GetOpRes) : (opEvents ops i rs).length = rs.length := by
  induction rs generalizing i with
  | nil => rfl
  | cons r l ih => simp [opEvents, ih]

theorem opEvents_count (ops : Nat → Nat × Nat) (i : Nat) (rs : List GetOpRes) :
    total Event.count (opEvents ops i rs) = (rs.flatMap GetOpRes.recs).length := by
  induction rs generalizing i with
  | nil => rfl
  | cons r l ih =>
    have := ih (i + 1)
    simp only [total] at this
    simp only [total, opEvents, List.map_cons, List.sum_cons, List.flatMap_cons, List.length_append, this]

theorem opEvents_time (ops : Nat → Nat × Nat) (i : Nat) (rs : List GetOpRes) :
    total Event.time (opEvents ops i rs) = ((List.range rs.length).map fun j => (ops (i + j)).1).sum := by
  induction rs generalizing i with
  | nil => rfl
  | cons r l ih =>
    have := ih (i + 1)
    simp only [total] at this
    simp only [total, opEvents, List.map_cons, List.sum_cons, this, List.length_cons, List.range_succ_eq_map,
      List.map_map, Nat.add_zero]
    congr 3
    funext j
    simp only [Function.comp, Nat.succ_eq_add_one]
    rw [Nat.add_right_comm, Nat.add_assoc]

theorem total_append (f : Event → Nat) (a b : List Event) : total f (a ++ b) = total f a + total f b := by
  simp [total]

theorem getOpAll_length {b : Backend} {cb : Callbacks} {heap : Nat} {db : Db} {l : List GetOpItem} {rs : List GetOpRes}
    (h : getOpAll b cb heap db l = .ok rs) : rs.length = l.length := by
  induction l generalizing rs with
  | nil => cases h; rfl
  | cons x l ih =>
    unfold getOpAll at h
    obtain ⟨r, _, h⟩ := bind_ok h
    obtain ⟨t, h2, h⟩ := bind_ok h
    cases h
    simp [ih h2]

/-- What one packet does to the numbers of events of the model of the datastore. -/
theorem operate_events {cb : Callbacks} {heap : Nat} {wr : Bool} {d : DS} {req : ReqBody} {r : DS × Option ResBody}
    (h : d.operate cb heap wr req = .ok r) :
    r.1.usable = d.usable ∧ r.1.backend = d.backend ∧
    (d.usable = true → ∀ l, req = .getop l → ∃ rs, r.2 = some (.getop rs) ∧ rs.length = l.length) ∧
    (d.usable = false → ∀ l, req = .getop l → r.2 = none) ∧
    ((∀ l, req ≠ .getop l) → ∀ rs, r.2 ≠ some (.getop rs)) ∧
    r.1.puts = d.puts + (match req with | .put _ => if d.usable then 1 else 0 | _ => 0) ∧
    r.1.gets = d.gets + (match req with
      | .get _ => if d.usable then 1 else 0 | .getop l => if d.usable then l.length else 0 | .hist _ => 1 | _ => 0) := by
  unfold DS.operate at h
  cases req with
  | put l =>
    cases hu : d.usable <;> simp only [hu, Bool.false_eq_true, if_false, if_true] at h
    · cases h; simp [hu]
    · obtain ⟨a, _, h⟩ := bind_ok h
      obtain ⟨hs, _, h⟩ := bind_ok h
      cases h; simp
  | get l =>
    cases hu : d.usable <;> simp only [hu, Bool.false_eq_true, if_false, if_true] at h
    · cases h; simp [hu]
    · obtain ⟨a, _, h⟩ := bind_ok h
      cases h; simp
  | getop l =>
    cases hu : d.usable <;> simp only [hu, Bool.false_eq_true, if_false, if_true] at h
    · cases h; simp [hu]
    · obtain ⟨a, ha, h⟩ := bind_ok h
      cases h; simp [getOpAll_length ha]
  | del l =>
    cases hu : d.usable <;> simp only [hu, Bool.false_eq_true, if_false, if_true] at h
    · cases h; simp [hu]
    · obtain ⟨a, _, h⟩ := bind_ok h
      cases h; simp
  | hist l => cases h; simp

theorem run_cons {cb : Callbacks} {heap : Nat} {d : DS} {st : Stats} {x : Machine × ReqBody} {l : List (Machine × ReqBody)}
    {t : DS × Stats × List (Option ResBody)} (h : run cb heap d st (x :: l) = .ok t) :
    ∃ r st1 t', d.operate cb heap x.1.wr x.2 = .ok r ∧ record cb heap x.1 d st x.2 r.2 = .ok st1 ∧
      run cb heap r.1 st1 l = .ok t' ∧ t = (t'.1, t'.2.1, r.2 :: t'.2.2) := by
  unfold run at h
  obtain ⟨r, h1, h⟩ := bind_ok h
  obtain ⟨st1, h2, h⟩ := bind_ok h
  obtain ⟨t', h3, h⟩ := bind_ok h
  cases h
  exact ⟨r, st1, t', h1, h2, h3, rfl⟩

/-- The PUT events of a history. -/
theorem run_puts {cb : Callbacks} {heap : Nat} {d : DS} {st : Stats} {hist : List (Machine × ReqBody)}
    {t : DS × Stats × List (Option ResBody)} (hu : d.usable = true) (h : run cb heap d st hist = .ok t) :
    total Event.count t.2.1.puts = total Event.count st.puts + (putsIn (hist.map Prod.snd)).length ∧
    total Event.size t.2.1.puts = total Event.size st.puts + ((putsIn (hist.map Prod.snd)).map (storedBytes cb)).sum := by
  induction hist generalizing d st t with
  | nil => cases h; simp [putsIn]
  | cons x l ih =>
    obtain ⟨r, st1, t', h1, h2, h3, rfl⟩ := run_cons h
    have ho := operate_events h1
    obtain ⟨e1, e2⟩ := ih (ho.1.trans hu) h3
    obtain ⟨m, req⟩ := x
    rw [e1, e2]
    have hp : ∀ req, putsIn (req :: l.map Prod.snd) = putsIn [req] ++ putsIn (l.map Prod.snd) := by
      intro req; simp [putsIn]
    simp only [List.map_cons, hp req, List.length_append, List.map_append, List.sum_append]
    cases req with
    | put p =>
      simp only [record, hu, if_true] at h2
      obtain ⟨n, h4, h2⟩ := bind_ok h2
      cases h2
      have := putSize_eq h4
      simp only [total_append, this]
      simp [total, putsIn]
      omega
    | get p =>
      simp only [record, hu, if_true] at h2
      obtain ⟨n, h4, h2⟩ := bind_ok h2
      cases h2
      simp [putsIn]
    | getop p =>
      obtain ⟨rs, hr, _⟩ := ho.2.2.1 hu p rfl
      simp only [record, hr] at h2
      cases h2
      simp [putsIn]
    | del p => cases h2; simp [putsIn]
    | hist p => cases h2; simp [putsIn]

/-- The times of a history. -/
theorem run_event_times {cb : Callbacks} {heap : Nat} {d : DS} {st : Stats} {hist : List (Machine × ReqBody)}
    {t : DS × Stats × List (Option ResBody)} (hu : d.usable = true) (h : run cb heap d st hist = .ok t) :
    total Event.time t.2.1.puts = total Event.time st.puts + (hist.map putTime).sum ∧
    total Event.time t.2.1.gets = total Event.time st.gets + (hist.map getTime).sum := by
  induction hist generalizing d st t with
  | nil => cases h; simp
  | cons x l ih =>
    obtain ⟨r, st1, t', h1, h2, h3, rfl⟩ := run_cons h
    have ho := operate_events h1
    obtain ⟨e1, e2⟩ := ih (ho.1.trans hu) h3
    obtain ⟨m, req⟩ := x
    rw [e1, e2]
    simp only [List.map_cons, List.sum_cons]
    cases req with
    | put p =>
      simp only [record, hu, if_true] at h2
      obtain ⟨n, h4, h2⟩ := bind_ok h2
      cases h2
      simp only [total_append]
      simp [total, putTime, getTime]
      omega
    | get p =>
      simp only [record, hu, if_true] at h2
      obtain ⟨n, h4, h2⟩ := bind_ok h2
      cases h2
      simp only [total_append]
      simp [total, putTime, getTime]
      omega
    | getop p =>
      obtain ⟨rs, hr, hl⟩ := ho.2.2.1 hu p rfl
      simp only [record, hr] at h2
      cases h2
      simp only [total_append, opEvents_time, hl, putTime, getTime, Nat.zero_add, Nat.add_assoc, and_self]
    | del p => cases h2; simp [putTime, getTime]
    | hist p =>
      cases h2
      simp only [total_append]
      simp [total, putTime, getTime]
      omega

/-- The GET events of a history. -/
theorem run_gets {cb : Callbacks} {heap : Nat} {d : DS} {st : Stats} {hist : List (Machine × ReqBody)}
    {t : DS × Stats × List (Option ResBody)} (hu : d.usable = true) (h : run cb heap d st hist = .ok t) :
    total Event.count t.2.1.gets = total Event.count st.gets + (getsIn (hist.map Prod.snd)).length +
      (namesIn (hist.map Prod.snd)).length + (recsIn t.2.2).length := by
  induction hist generalizing d st t with
  | nil => cases h; simp [getsIn, namesIn, recsIn]
  | cons x l ih =>
    obtain ⟨r, st1, t', h1, h2, h3, rfl⟩ := run_cons h
    have ho := operate_events h1
    have e1 := ih (ho.1.trans hu) h3
    obtain ⟨m, req⟩ := x
    rw [e1]
    have hg : getsIn (req :: l.map Prod.snd) = getsIn [req] ++ getsIn (l.map Prod.snd) := by simp [getsIn]
    have hn : namesIn (req :: l.map Prod.snd) = namesIn [req] ++ namesIn (l.map Prod.snd) := by simp [namesIn]
    have hr : recsIn (r.2 :: t'.2.2) = recsIn [r.2] ++ recsIn t'.2.2 := by simp [recsIn]
    simp only [List.map_cons, hg, hn, hr, List.length_append]
    have hrec : (∀ l, req ≠ .getop l) → recsIn [r.2] = [] := by
      intro hne
      have := ho.2.2.2.2.1 hne
      unfold recsIn
      simp only [List.flatMap_cons, List.flatMap_nil, List.append_nil]
    cases req with
    | put p =>
      rw [hrec (by intro l; simp)]
      simp only [record, hu, if_true] at h2
      obtain ⟨n, h4, h2⟩ := bind_ok h2
      cases h2
      simp [getsIn, namesIn]
    | get p =>
      rw [hrec (by intro l; simp)]
      simp only [record, hu, if_true] at h2
      obtain ⟨n, h4, h2⟩ := bind_ok h2
      cases h2
      simp only [total_append]
      simp [total, getsIn, namesIn]
      omega
    | getop p =>
      obtain ⟨rs, hr, _⟩ := ho.2.2.1 hu p rfl
      simp only [record, hr] at h2
      cases h2
      simp only [total_append, opEvents_count, hr]
      simp [getsIn, namesIn, recsIn]
      omega
    | del p => cases h2; rw [hrec (by intro l; simp)]; simp [getsIn, namesIn]
    | hist p =>
      rw [hrec (by intro l; simp)]
      cases h2
      simp only [total_append]
      simp [total, getsIn, namesIn]
      omega

/-- The bytes of GET events, when nothing but GETs counts there. -/
theorem run_get_bytes {cb : Callbacks} {heap : Nat} {d : DS} {st : Stats} {hist : List (Machine × ReqBody)}
    {t : DS × Stats × List (Option ResBody)} (hu : d.usable = true) (h : run cb heap d st hist = .ok t)
    (hg : ∀ x ∈ hist, (∀ l, x.2 ≠ .getop l) ∧ ∀ l, x.2 ≠ .hist l) :
    total Event.size t.2.1.gets = total Event.size st.gets + if d.backend = .mem then
      ((getsIn (hist.map Prod.snd)).map fun x => (keyBytes cb x.subject x.predicate).getD 0).sum else 0 := by
  induction hist generalizing d st t with
  | nil => cases h; cases d.backend <;> simp [getsIn]
  | cons x l ih =>
    obtain ⟨r, st1, t', h1, h2, h3, rfl⟩ := run_cons h
    have ho := operate_events h1
    have e1 := ih (ho.1.trans hu) h3 (fun y hy => hg y (List.mem_cons_of_mem _ hy))
    have h0 := hg x List.mem_cons_self
    obtain ⟨m, req⟩ := x
    rw [e1, ho.2.1]
    have hgs : getsIn (req :: l.map Prod.snd) = getsIn [req] ++ getsIn (l.map Prod.snd) := by simp [getsIn]
    simp only [List.map_cons, hgs, List.map_append, List.sum_append]
    cases req with
    | put p =>
      simp only [record, hu, if_true] at h2
      obtain ⟨n, h4, h2⟩ := bind_ok h2
      cases h2
      simp [getsIn]
    | get p =>
      simp only [record, hu, if_true] at h2
      obtain ⟨n, h4, h2⟩ := bind_ok h2
      cases h2
      have := getSize_eq h4
      simp only [total_append, this]
      cases d.backend <;> simp [total, getsIn]
      omega
    | getop p => exact absurd rfl (h0.1 p)
    | del p => cases h2; simp [getsIn]
    | hist p => exact absurd rfl (h0.2 p)

/-- The numbers of events are those of the model of the datastore. -/
theorem run_lengths {cb : Callbacks} {heap : Nat} {d : DS} {st : Stats} {hist : List (Machine × ReqBody)}
    {t : DS × Stats × List (Option ResBody)} (h : run cb heap d st hist = .ok t) :
    t.2.1.puts.length + d.puts = st.puts.length + t.1.puts ∧ t.2.1.gets.length + d.gets = st.gets.length + t.1.gets := by
  induction hist generalizing d st t with
  | nil => cases h; simp
  | cons x l ih =>
    obtain ⟨r, st1, t', h1, h2, h3, rfl⟩ := run_cons h
    obtain ⟨_, _, hr, hr', _, hp, hg⟩ := operate_events h1
    obtain ⟨e1, e2⟩ := ih h3
    obtain ⟨m, req⟩ := x
    simp only at e1 e2 hp hg hr hr' h2 ⊢
    cases req with
    | put p =>
      cases hu : d.usable <;> simp only [record, hu, if_true, Bool.false_eq_true, if_false] at h2 hp hg
      · cases h2; omega
      · obtain ⟨n, h4, h2⟩ := bind_ok h2
        cases h2
        simp at e1 e2
        omega
    | get p =>
      cases hu : d.usable <;> simp only [record, hu, if_true, Bool.false_eq_true, if_false] at h2 hp hg
      · cases h2; omega
      · obtain ⟨n, h4, h2⟩ := bind_ok h2
        cases h2
        simp at e1 e2
        omega
    | getop p =>
      cases hu : d.usable <;> simp only [hu, if_true, Bool.false_eq_true, if_false] at hp hg
      · simp only [record, hr' hu p rfl] at h2
        cases h2; omega
      · obtain ⟨rs, hrs, hlen⟩ := hr hu p rfl
        simp only [record, hrs] at h2
        cases h2
        simp [opEvents_length] at e1 e2
        omega
    | del p => cases h2; simp only at hp hg; omega
    | hist p => cases h2; simp at e1 e2 hp hg; omega

/-! ## Sums and rates -/

theorem totals_eq (l : List Event) : totals l = (seconds l, total Event.count l, total Event.size l) := by
  have key : ∀ (l : List Event) (a : ℚ) (b c : Nat),
      l.foldl (fun t e => (t.1 + sec e.time, t.2.1 + e.count, t.2.2 + e.size)) (a, b, c) =
        (a + seconds l, b + total Event.count l, c + total Event.size l) := by
    intro l
    induction l with
    | nil => intro a b c; simp [seconds, total]
    | cons e l ih =>
      intro a b c
      rw [List.foldl_cons, ih]
      simp only [seconds, total, sec, List.map_cons, List.sum_cons, Prod.mk.injEq]
      refine ⟨?_, by omega, by omega⟩
      push_cast
      ring
  have := key l 0 0 0
  simpa [totals] using this

theorem unitLoop_inf (left i : Nat) : unitLoop left .inf i = (.inf, i + left) := by
  induction left generalizing i with
  | zero => rfl
  | succ n ih => simp [unitLoop, Ld.large, Ld.down, ih]; omega

theorem unitLoop_num (left i : Nat) (q : ℚ) :
    ∃ j, j ≤ left ∧ unitLoop left (.num q) i = (.num (q / 1024 ^ j), i + j) ∧
      (j < left → q ≤ 1024 ^ (j + 1)) ∧ (0 < j → 1024 ^ j < q) := by
  induction left generalizing i q with
  | zero => exact ⟨0, le_refl _, by simp [unitLoop], by simp, by simp⟩
  | succ n ih =>
    by_cases h : 1 < q / 1024
    · obtain ⟨j, h1, h2, h3, h4⟩ := ih (i + 1) (q / 1024)
      refine ⟨j + 1, by omega, ?_, ?_, ?_⟩
      · simp only [unitLoop, Ld.large, h, decide_true, if_true, Ld.down, h2]
        rw [div_div, ← pow_succ']
        congr 1; omega
      · intro hj
        have := h3 (by omega)
        rw [div_le_iff₀ (by norm_num)] at this
        rw [pow_succ]; exact this
      · intro _
        rcases Nat.eq_zero_or_pos j with rfl | hj
        · rw [lt_div_iff₀ (by norm_num)] at h; simpa using h
        · have := h4 hj
          rw [lt_div_iff₀ (by norm_num)] at this
          rw [pow_succ]; exact this
    · refine ⟨0, by omega, ?_, ?_, by simp⟩
      · simp [unitLoop, Ld.large, h]
      · intro _
        push Not at h
        rw [div_le_iff₀ (by norm_num)] at h
        simpa using h

/-! ## Counting does not disturb -/

theorem putSize_mem {cb : Callbacks} {db : Db} {l : List PutItem} {r : Db × List StatusItem}
    (h : memPut cb db l = .ok r) : ∃ n, putSize cb l = .ok n := by
  induction l generalizing db r with
  | nil => exact ⟨0, rfl⟩
  | cons x l ih =>
    unfold memPut at h
    obtain ⟨kv, h1, h⟩ := bind_ok h
    unfold putSize
    cases kv with
    | none =>
      obtain ⟨a, h2, _⟩ := bind_ok h
      obtain ⟨n, hn⟩ := ih h2
      exact ⟨n, by rw [h1, Out.ok_bind, hn]; rfl⟩
    | some kv =>
      obtain ⟨a, h2, _⟩ := bind_ok h
      obtain ⟨n, hn⟩ := ih h2
      exact ⟨_, by rw [h1, Out.ok_bind, hn]; rfl⟩

theorem putSize_level {cb : Callbacks} {l : List PutItem} {b : List (Bytes × Bytes)}
    (h : levelBatch cb l = .ok b) : ∃ n, putSize cb l = .ok n := by
  induction l generalizing b with
  | nil => exact ⟨0, rfl⟩
  | cons x l ih =>
    unfold levelBatch at h
    obtain ⟨kv, h1, h⟩ := bind_ok h
    obtain ⟨a, h2, _⟩ := bind_ok h
    obtain ⟨n, hn⟩ := ih h2
    unfold putSize
    cases kv with
    | none => exact ⟨n, by rw [h1, Out.ok_bind, hn]; rfl⟩
    | some kv => exact ⟨_, by rw [h1, Out.ok_bind, hn]; rfl⟩

theorem getSize_ok {b : Backend} {cb : Callbacks} {heap : Nat} {db : Db} {l : List GetItem} {rs : List GetRes}
    (objs : List Nat) (h : getAll cb heap db l = .ok rs) : ∃ n, getSize b cb heap db objs l = .ok n := by
  induction l generalizing rs objs with
  | nil => exact ⟨0, rfl⟩
  | cons x l ih =>
    unfold getAll at h
    obtain ⟨r, h1, h⟩ := bind_ok h
    obtain ⟨a, h2, _⟩ := bind_ok h
    obtain ⟨n, hn⟩ := ih (objs ++ [r.object.bytes.length]) h2
    have hk : ∃ k, encodeKey cb x.subject x.predicate = .ok k := by
      unfold getItem at h1
      obtain ⟨k, hk, _⟩ := bind_ok h1
      exact ⟨k, hk⟩
    obtain ⟨k, hk⟩ := hk
    unfold getSize
    rw [hk, Out.ok_bind, h1, Out.ok_bind, hn, Out.ok_bind]
    cases b <;> cases k <;> exact ⟨_, rfl⟩

theorem record_ok {cb : Callbacks} {heap : Nat} {m : Machine} {d : DS} {req : ReqBody} {r : DS × Option ResBody} (st : Stats)
    (h : d.operate cb heap m.wr req = .ok r) : ∃ st', record cb heap m d st req r.2 = .ok st' := by
  cases req with
  | put l =>
    cases hu : d.usable <;> simp only [DS.operate, record, hu, Bool.false_eq_true, if_false, if_true] at h ⊢
    · exact ⟨st, rfl⟩
    · obtain ⟨a, h1, _⟩ := bind_ok h
      have : ∃ n, putSize cb l = .ok n := by
        cases hb : d.backend <;> simp only [hb] at h1
        · exact putSize_mem h1
        · unfold levelPut at h1
          obtain ⟨b, h2, _⟩ := bind_ok h1
          exact putSize_level h2
      obtain ⟨n, hn⟩ := this
      rw [hn]; exact ⟨_, rfl⟩
  | get l =>
    cases hu : d.usable <;> simp only [DS.operate, record, hu, Bool.false_eq_true, if_false, if_true] at h ⊢
    · exact ⟨st, rfl⟩
    · obtain ⟨a, h1, _⟩ := bind_ok h
      obtain ⟨n, hn⟩ := getSize_ok (b := d.backend) [] h1
      rw [hn]; exact ⟨_, rfl⟩
  | getop l => unfold record; simp only; split <;> exact ⟨_, rfl⟩
  | del l => exact ⟨_, rfl⟩
  | hist l => exact ⟨_, rfl⟩

theorem run_iff {cb : Callbacks} {heap : Nat} {d d' : DS} {st : Stats} {hist : List (Machine × ReqBody)} :
    (∃ st' rs, run cb heap d st hist = .ok (d', st', rs)) ↔
      DS.run cb heap d (hist.map fun x => (x.1.wr, x.2)) = .ok d' := by
  induction hist generalizing d st with
  | nil =>
    constructor
    · rintro ⟨_, _, h⟩; cases h; rfl
    · intro h; cases h; exact ⟨_, _, rfl⟩
  | cons x l ih =>
    rw [List.map_cons]
    constructor
    · rintro ⟨st', rs, h⟩
      obtain ⟨r, st1, t', h1, _, h3, ht⟩ := run_cons h
      unfold DS.run
      simp only [h1, Out.ok_bind]
      refine (ih (st := st1)).1 ⟨t'.2.1, t'.2.2, ?_⟩
      cases ht; exact h3
    · intro h
      unfold DS.run at h
      obtain ⟨r, h1, h⟩ := bind_ok h
      obtain ⟨st1, h2⟩ := record_ok st h1
      obtain ⟨st', rs, h3⟩ := (ih (st := st1)).2 h
      refine ⟨st', r.2 :: rs, ?_⟩
      unfold run
      simp only at h1
      rw [h1, Out.ok_bind, h2, Out.ok_bind, h3]; rfl

end Hx.DsStats

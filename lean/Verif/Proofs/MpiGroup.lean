import Verif.Spec.MpiGroup

/-!
# Helper lemmas: one call of `return_msgs` at a time
-/

namespace Hx.MpiGroup
open Hx Spec.MpiGroup
open Function (update)

variable {g : Group}

theorem run_append (x : Net × Call) (a b : List Instr) : run g x (a ++ b) = run g x a >>= fun y => run g y b := by
  induction a generalizing x with
  | nil => rfl
  | cons i a ih =>
    simp only [List.cons_append, run]
    cases exec g x.1 x.2 i with
    | ok y => simp only [Out.ok_bind]; exact ih y
    | err => rfl
    | ub => rfl

theorem run_one (x : Net × Call) (i : Instr) : run g x [i] = exec g x.1 x.2 i := by
  simp only [run]
  cases exec g x.1 x.2 i <;> rfl

theorem range_map (f : Nat → Instr) (k : Nat) : (List.range (k + 1)).map f = (List.range k).map f ++ [f k] := by
  rw [List.range_succ, List.map_append]; rfl

/-! ## Packing and sending -/

theorem run_pack (msgs : List (Int × Bytes)) (s : Net) (c : Call) (hc : c.msgs = msgs) (hsize : msgs.length ≤ g.size) (k : Nat)
    (hk : k ≤ msgs.length) : ∃ s', run g (s, c) ((List.range k).map .pack) = .ok (s', c) ∧ s'.sizes = s.sizes ∧ s'.datas = s.datas ∧
      s'.sizeRecvs = s.sizeRecvs ∧ s'.dataRecvs = s.dataRecvs ∧
      ∀ i m, i < k → msgs[i]? = some m → s'.lens i = m.2.length ∧ s'.dsts i = m.1 := by
  induction k with
  | zero => exact ⟨s, rfl, rfl, rfl, rfl, rfl, fun i m h => absurd h (Nat.not_lt_zero i)⟩
  | succ k ih =>
    obtain ⟨s', h1, h2, h3, h4, h5, h6⟩ := ih (by omega)
    obtain ⟨m, hm⟩ : ∃ m, msgs[k]? = some m := ⟨msgs[k], List.getElem?_eq_getElem (by omega)⟩
    refine ⟨{ s' with lens := update s'.lens k m.2.length, dsts := update s'.dsts k m.1 }, ?_, h2, h3, h4, h5, ?_⟩
    · rw [range_map, run_append, h1, Out.ok_bind, run_one]
      simp only [exec, hc, hm]
      rw [if_pos (by omega)]
    · intro i m' hi hm'
      by_cases h : i = k
      · subst h
        rw [hm] at hm'
        cases hm'
        simp
      · obtain ⟨e1, e2⟩ := h6 i m' (by omega) hm'
        simp only [Function.update_of_ne h]
        exact ⟨e1, e2⟩

theorem run_send (msgs : List (Int × Bytes)) (s : Net) (hs : ∀ i m, msgs[i]? = some m → s.lens i = m.2.length ∧ s.dsts i = m.1)
    (k : Nat) (hk : k ≤ msgs.length) :
    ∃ s' d, run g (s, Call.new msgs) ((List.range k).flatMap (fun i => [.sizeTo i, .dataTo i])) =
        .ok (s', { Call.new msgs with dst := d, sent := (reached g (msgs.take k)).length }) ∧
      s'.lens = s.lens ∧ s'.dsts = s.dsts ∧
      s'.sizes = s.sizes ++ (reached g (msgs.take k)).map (fun x => (x.1, x.2.length)) ∧
      s'.datas = s.datas ++ reached g (msgs.take k) ∧ s'.sizeRecvs = s.sizeRecvs ∧ s'.dataRecvs = s.dataRecvs ∧
      ∀ j x, (reached g (msgs.take k))[j]? = some x → s'.srvs j = x.1 := by
  induction k with
  | zero => exact ⟨s, none, by simp [run, Call.new, reached], rfl, rfl, by simp [reached], by simp [reached], rfl, rfl, by simp [reached]⟩
  | succ k ih =>
    obtain ⟨s', d, h1, h2, h3, h4, h5, h6, h7, h8⟩ := ih (by omega)
    obtain ⟨m, hm⟩ : ∃ m, msgs[k]? = some m := ⟨msgs[k], List.getElem?_eq_getElem (by omega)⟩
    obtain ⟨e1, e2⟩ := hs k m hm
    have htake : msgs.take (k + 1) = msgs.take k ++ [m] := by rw [List.take_add_one, hm]; rfl
    have hreach : reached g (msgs.take (k + 1)) = reached g (msgs.take k) ++ reached g [m] := by
      rw [htake]; unfold reached; rw [List.filterMap_append]
    have hrun : run g (s, Call.new msgs) ((List.range (k + 1)).flatMap (fun i => [.sizeTo i, .dataTo i])) =
        run g (s', { Call.new msgs with dst := d, sent := (reached g (msgs.take k)).length }) [.sizeTo k, .dataTo k] := by
      rw [List.range_succ, List.flatMap_append, run_append, h1, Out.ok_bind]
      rfl
    rw [hrun, hreach]
    cases hr : g.ranks m.1 with
    | none =>
      have hnil : reached g [m] = [] := by simp [reached, hr]
      rw [hnil, List.append_nil]
      refine ⟨s', none, ?_, h2, h3, h4, h5, h6, h7, h8⟩
      simp only [run, exec, Call.new, h3, e2, hr]
      rw [if_pos (by omega)]
      rfl
    | some r =>
      have hone : reached g [m] = [(r, m.2)] := by simp [reached, hr]
      rw [hone]
      refine ⟨{ s' with
          sizes := s'.sizes ++ [(r, m.2.length)], datas := s'.datas ++ [(r, m.2)]
          srvs := update s'.srvs (reached g (msgs.take k)).length r }, some r, ?_, h2, h3, ?_, ?_, h6, h7, ?_⟩
      · simp only [run, exec, Call.new, h3, h2, e1, e2, hr]
        rw [if_pos (by omega)]
        simp only [Out.ok_bind, Nat.le_refl, if_true, List.take_length, List.length_append, List.length_singleton, hm, e1]
      · simp [h4]
      · simp [h5]
      · intro j x hx
        rw [List.getElem?_append] at hx
        split at hx
        · rename_i hj
          simp only [Function.update_of_ne (Nat.ne_of_lt hj)]
          exact h8 j x hx
        · rename_i hj
          obtain ⟨h0, hx⟩ := List.getElem?_eq_some_iff.mp hx
          simp only [List.length_singleton] at h0
          have : j = (reached g (msgs.take k)).length := by omega
          subst this
          simp only [Nat.sub_self, List.getElem_cons_zero] at hx
          subst hx
          simp

/-! ## Receiving -/

/-- The receives posted for the requests `R`, in order, when `before` were posted. -/
def tickets (before : List Int) (R : List (Int × Bytes)) (j : Nat) : Option (Int × Nat) :=
  (R[j]?).map (fun x => (x.1, (before ++ (R.take j).map (·.1)).count x.1))

theorem run_recvSize (s : Net) (c : Call) (R : List (Int × Bytes)) (hsent : c.sent = R.length) (hnone : c.sizeReqs = [])
    (hsrv : ∀ j x, R[j]? = some x → g.ranks (s.srvs j) = some x.1) (k : Nat) :
    ∃ reqs, run g (s, c) ((List.range k).map .recvSize) =
      .ok ({ s with sizeRecvs := s.sizeRecvs ++ (R.take k).map (·.1) }, { c with sizeReqs := reqs }) ∧
      reqs.length = min k R.length ∧ ∀ j, j < k → reqs[j]? = (tickets s.sizeRecvs R j).map (fun x => (j, x.1, x.2)) := by
  induction k with
  | zero => exact ⟨[], by simp [run, ← hnone], by simp, by simp⟩
  | succ k ih =>
    obtain ⟨reqs, h1, h2, h3⟩ := ih
    rw [range_map, run_append, h1, Out.ok_bind, run_one]
    by_cases hk : k < R.length
    · obtain ⟨x, hx⟩ : ∃ x, R[k]? = some x := ⟨R[k], List.getElem?_eq_getElem hk⟩
      have htake : R.take (k + 1) = R.take k ++ [x] := by rw [List.take_add_one, hx]; rfl
      refine ⟨reqs ++ [(k, x.1, (s.sizeRecvs ++ (R.take k).map (·.1)).count x.1)], ?_, ?_, ?_⟩
      · simp only [exec, hsent]
        rw [if_pos hk, hsrv k x hx]
        simp [htake]
      · simp [h2]; omega
      · intro j hj
        by_cases e : j = k
        · subst e
          have hl : reqs.length = j := by omega
          rw [List.getElem?_append_right (by omega), hl]
          simp [tickets, hx]
        · rw [List.getElem?_append_left (by omega)]
          exact h3 j (by omega)
    · refine ⟨reqs, ?_, by omega, ?_⟩
      · simp only [exec, hsent]
        rw [if_neg hk, List.take_of_length_le (by omega), List.take_of_length_le (by omega)]
      · intro j hj
        by_cases e : j = k
        · subst e
          rw [List.getElem?_eq_none (by omega)]
          simp [tickets, List.getElem?_eq_none (show R.length ≤ j by omega)]
        · exact h3 j (by omega)

theorem run_sizeIn (s : Net) (c : Call) (R : List (Int × Bytes)) (A : List Bytes) (before : List Int)
    (hreqs : ∀ j, c.sizeReqs[j]? = (tickets before R j).map (fun x => (j, x.1, x.2)))
    (hA : ∀ j x, tickets before R j = some x → ∃ p, A[j]? = some p ∧ response g s x.1 x.2 = some p) (k : Nat) :
    ∃ lens, run g (s, c) ((List.range k).map .sizeIn) = .ok ({ s with lens := lens }, c) ∧
      ∀ j p, j < k → j < R.length → A[j]? = some p → lens j = p.length := by
  induction k with
  | zero => exact ⟨s.lens, rfl, by simp⟩
  | succ k ih =>
    obtain ⟨lens, h1, h2⟩ := ih
    rw [range_map, run_append, h1, Out.ok_bind, run_one]
    simp only [exec, hreqs k]
    cases ht : tickets before R k with
    | none =>
      refine ⟨lens, rfl, ?_⟩
      intro j p hj hR hp
      by_cases e : j = k
      · subst e
        simp [tickets, List.getElem?_eq_getElem hR] at ht
      · exact h2 j p (by omega) hR hp
    | some x =>
      obtain ⟨p, e1, e2⟩ := hA k x ht
      have e2' : response g { s with lens := lens } x.1 x.2 = some p := e2
      simp only [Option.map_some, e2']
      refine ⟨update lens k p.length, rfl, ?_⟩
      intro j p' hj hR hp'
      by_cases e : j = k
      · subst e
        rw [e1] at hp'
        cases hp'
        simp
      · rw [Function.update_of_ne e]
        exact h2 j p' (by omega) hR hp'

theorem run_recvData (s : Net) (c : Call) (R : List (Int × Bytes)) (hsent : c.sizeReqs.length = R.length) (hnone : c.dataReqs = [])
    (hsrv : ∀ j x, R[j]? = some x → g.ranks (s.srvs j) = some x.1) (k : Nat) :
    ∃ reqs, run g (s, c) ((List.range k).map .recvData) =
      .ok ({ s with dataRecvs := s.dataRecvs ++ (R.take k).map (·.1) }, { c with dataReqs := reqs }) ∧
      reqs.length = min k R.length ∧ ∀ j, j < k → reqs[j]? = (tickets s.dataRecvs R j).map (fun x => (s.lens j, x.1, x.2)) := by
  induction k with
  | zero => exact ⟨[], by simp [run, ← hnone], by simp, by simp⟩
  | succ k ih =>
    obtain ⟨reqs, h1, h2, h3⟩ := ih
    rw [range_map, run_append, h1, Out.ok_bind, run_one]
    by_cases hk : k < R.length
    · obtain ⟨x, hx⟩ : ∃ x, R[k]? = some x := ⟨R[k], List.getElem?_eq_getElem hk⟩
      have htake : R.take (k + 1) = R.take k ++ [x] := by rw [List.take_add_one, hx]; rfl
      refine ⟨reqs ++ [(s.lens k, x.1, (s.dataRecvs ++ (R.take k).map (·.1)).count x.1)], ?_, ?_, ?_⟩
      · simp only [exec, hsent]
        rw [if_pos hk, hsrv k x hx]
        simp [htake]
      · simp [h2]; omega
      · intro j hj
        by_cases e : j = k
        · subst e
          have hl : reqs.length = j := by omega
          rw [List.getElem?_append_right (by omega), hl]
          simp [tickets, hx]
        · rw [List.getElem?_append_left (by omega)]
          exact h3 j (by omega)
    · refine ⟨reqs, ?_, by omega, ?_⟩
      · simp only [exec, hsent]
        rw [if_neg hk, List.take_of_length_le (by omega), List.take_of_length_le (by omega)]
      · intro j hj
        by_cases e : j = k
        · subst e
          rw [List.getElem?_eq_none (by omega)]
          simp [tickets, List.getElem?_eq_none (show R.length ≤ j by omega)]
        · exact h3 j (by omega)

theorem run_dataIn (s : Net) (c : Call) (R : List (Int × Bytes)) (A : List Bytes) (before : List Int) (hnone : c.bufs = [])
    (hreqs : ∀ j, c.dataReqs[j]? = (tickets before R j).map (fun x => (s.lens j, x.1, x.2))) (hlen : A.length = R.length)
    (hA : ∀ j x, tickets before R j = some x → ∃ p, A[j]? = some p ∧ response g s x.1 x.2 = some p)
    (hlens : ∀ j p, A[j]? = some p → s.lens j = p.length) (k : Nat) :
    run g (s, c) ((List.range k).map .dataIn) = .ok (s, { c with bufs := A.take k }) := by
  induction k with
  | zero => simp [run, ← hnone]
  | succ k ih =>
    rw [range_map, run_append, ih, Out.ok_bind, run_one]
    simp only [exec, hreqs k]
    cases ht : tickets before R k with
    | none =>
      have hR : R.length ≤ k := by
        by_contra h
        simp [tickets, List.getElem?_eq_getElem (show k < R.length by omega)] at ht
      simp only [Option.map_none]
      rw [List.take_of_length_le (by omega), List.take_of_length_le (by omega)]
    | some x =>
      obtain ⟨p, e1, e2⟩ := hA k x ht
      simp only [Option.map_some, e2, hlens k p e1, Nat.le_refl, if_true, Nat.sub_self, List.replicate_zero, List.append_nil]
      rw [List.take_add_one, e1]
      rfl

theorem run_unpack (s : Net) (c : Call) (A : List Bytes) (hnone : c.got = []) (hbufs : c.bufs = A)
    (hlens : ∀ j p, A[j]? = some p → s.lens j = p.length) (k : Nat) :
    run g (s, c) ((List.range k).map .unpack) = .ok (s, { c with got := A.take k }) := by
  induction k with
  | zero => simp [run, ← hnone]
  | succ k ih =>
    rw [range_map, run_append, ih, Out.ok_bind, run_one]
    simp only [exec, hbufs]
    cases hp : A[k]? with
    | none =>
      have : A.length ≤ k := List.getElem?_eq_none_iff.mp hp
      simp only
      rw [List.take_of_length_le (by omega), List.take_of_length_le (by omega)]
    | some p =>
      simp only [hlens k p hp, Nat.le_refl, if_true, List.take_length]
      rw [List.take_add_one, hp]
      rfl

/-! ## The responses -/

theorem answers_length (before R : List (Int × Bytes)) : (answers g before R).length = R.length := by
  induction R generalizing before with
  | nil => rfl
  | cons x R ih => simp [answers, ih]

theorem answers_get (before R : List (Int × Bytes)) (j : Nat) (x : Int × Bytes) (hx : R[j]? = some x) :
    (answers g before R)[j]? = some (g.answer x.1 ((toRank (before ++ R.take (j + 1)) x.1).map List.length)
      (toRank (before ++ R.take (j + 1)) x.1)) := by
  induction R generalizing before j with
  | nil => simp at hx
  | cons y R ih =>
    cases j with
    | zero =>
      simp only [List.getElem?_cons_zero, Option.some.injEq] at hx
      subst hx
      simp [answers, toRank]
    | succ j =>
      simp only [List.getElem?_cons_succ] at hx
      rw [answers, List.getElem?_cons_succ, ih _ j hx]
      simp

theorem toRank_append {γ : Type} (a b : List (Int × γ)) (r : Int) : toRank (a ++ b) r = toRank a r ++ toRank b r := by
  simp [toRank]

theorem toRank_sizes (l : List (Int × Bytes)) (r : Int) :
    toRank (l.map (fun x => (x.1, x.2.length))) r = (toRank l r).map List.length := by
  induction l with
  | nil => rfl
  | cons x l ih =>
    simp only [toRank, List.map_cons, List.filter_cons] at ih ⊢
    by_cases h : x.1 = r
    · simp [h, ih]
    · simp [h, ih]

theorem toRank_count {γ : Type} (l : List (Int × γ)) (r : Int) : (toRank l r).length = (l.map (·.1)).count r := by
  induction l with
  | nil => rfl
  | cons x l ih =>
    simp only [toRank, List.filter_cons, List.map_cons, List.count_cons] at ih ⊢
    by_cases h : x.1 = r
    · simp [h, ih]
    · simp [h, ih]

/-- Response `t` of a rank is the answer to its request `t`. -/
theorem response_answers (s s' : Net) (R : List (Int × Bytes)) (before : List Int) (hbefore : ∀ r, before.count r = (s.datas.map (·.1)).count r)
    (hsizes : s'.sizes = (s.datas ++ R).map (fun x => (x.1, x.2.length))) (hdatas : s'.datas = s.datas ++ R) (j : Nat) (x : Int × Nat)
    (hx : tickets before R j = some x) : ∃ p, (answers g s.datas R)[j]? = some p ∧ response g s' x.1 x.2 = some p := by
  unfold tickets at hx
  rw [Option.map_eq_some_iff] at hx
  obtain ⟨y, hy, rfl⟩ := hx
  refine ⟨_, answers_get _ _ j y hy, ?_⟩
  have htake : R.take (j + 1) = R.take j ++ [y] := by rw [List.take_add_one, hy]; rfl
  have hsplit : s.datas ++ R = s.datas ++ R.take (j + 1) ++ R.drop (j + 1) := by rw [List.append_assoc, List.take_append_drop]
  have hcount : (toRank (s.datas ++ R.take (j + 1)) y.1).length = (before ++ (R.take j).map (·.1)).count y.1 + 1 := by
    rw [toRank_count, htake]
    simp [List.count_append, hbefore]
    omega
  have hd : (toRank s'.datas y.1).take ((before ++ (R.take j).map (·.1)).count y.1 + 1) = toRank (s.datas ++ R.take (j + 1)) y.1 := by
    rw [hdatas, hsplit, toRank_append _ (R.drop (j + 1)), ← hcount, List.take_left']
    rfl
  have hs : (toRank s'.sizes y.1).take ((before ++ (R.take j).map (·.1)).count y.1 + 1) =
      (toRank (s.datas ++ R.take (j + 1)) y.1).map List.length := by
    rw [hsizes, toRank_sizes, ← List.map_take, ← hdatas, hd]
  unfold response
  rw [if_pos, hd, hs]
  constructor
  · have := congrArg List.length hs
    rw [List.length_take, List.length_map, hcount] at this
    simp only
    omega
  · have := congrArg List.length hd
    rw [List.length_take, hcount] at this
    simp only
    omega

/-- One call. -/
theorem alone (hids : ∀ d r, g.ranks d = some r → g.ranks r = some r) (msgs : List (Int × Bytes)) (hsize : msgs.length ≤ g.size)
    (s : Net) (hq : Quiet s) :
    ∃ s' c', run g (s, Call.new msgs) (returnMsgs msgs.length) = .ok (s', c') ∧ Quiet s' ∧
      s'.datas = s.datas ++ reached g msgs ∧ c'.got = answers g s.datas (reached g msgs) := by
  obtain ⟨s1, a1, a2, a3, a4, a5, a6⟩ := run_pack msgs s (Call.new msgs) rfl hsize msgs.length (Nat.le_refl _)
  obtain ⟨s2, d, b1, b2, b3, b4, b5, b6, b7, b8⟩ := run_send (g := g) msgs s1
    (fun i m h => a6 i m (List.getElem?_eq_some_iff.mp h).1 h) msgs.length (Nat.le_refl _)
  rw [List.take_length] at b1 b4 b5 b8
  obtain ⟨R, hR⟩ : ∃ R, R = reached g msgs := ⟨_, rfl⟩
  rw [← hR] at b1 b4 b5 b8 ⊢
  have hRlen : R.length ≤ msgs.length := by rw [hR]; exact List.length_filterMap_le _ _
  have hsrv : ∀ j x, R[j]? = some x → g.ranks (s2.srvs j) = some x.1 := by
    intro j x hx
    rw [b8 j x hx]
    have hm := List.mem_of_getElem? hx
    rw [hR, reached, List.mem_filterMap] at hm
    obtain ⟨m, -, hm⟩ := hm
    rw [Option.map_eq_some_iff] at hm
    obtain ⟨r, hr, rfl⟩ := hm
    exact hids _ _ hr
  obtain ⟨reqs, c1, c2, c3⟩ := run_recvSize s2 { Call.new msgs with dst := d, sent := R.length } R rfl rfl hsrv msgs.length
  have hreqlen : reqs.length = R.length := by omega
  have hreqs : ∀ j, reqs[j]? = (tickets s2.sizeRecvs R j).map (fun x => (j, x.1, x.2)) := by
    intro j
    by_cases hj : j < msgs.length
    · exact c3 j hj
    · rw [List.getElem?_eq_none (by omega), tickets, List.getElem?_eq_none (by omega)]
      rfl
  have hdat : s2.datas = s.datas ++ R := by rw [b5, a3]
  have hsz : s2.sizes = (s.datas ++ R).map (fun x => (x.1, x.2.length)) := by rw [b4, a2, hq.sizes, List.map_append]
  have hA1 := fun (s' : Net) (h1 : s'.sizes = s2.sizes) (h2 : s'.datas = s2.datas) =>
    response_answers (g := g) s s' R s2.sizeRecvs (by rw [b6, a4]; exact hq.sizeRecvs) (by rw [h1, hsz]) (by rw [h2, hdat])
  have hA2 := fun (s' : Net) (h1 : s'.sizes = s2.sizes) (h2 : s'.datas = s2.datas) =>
    response_answers (g := g) s s' R s2.dataRecvs (by rw [b7, a5]; exact hq.dataRecvs) (by rw [h1, hsz]) (by rw [h2, hdat])
  obtain ⟨lens, d1, d2⟩ := run_sizeIn (g := g) { s2 with sizeRecvs := s2.sizeRecvs ++ (R.take msgs.length).map (·.1) }
    { Call.new msgs with dst := d, sent := R.length, sizeReqs := reqs } R (answers g s.datas R) s2.sizeRecvs hreqs (hA1 _ rfl rfl) msgs.length
  have hlens : ∀ j p, (answers g s.datas R)[j]? = some p → lens j = p.length := by
    intro j p hp
    have := (List.getElem?_eq_some_iff.mp hp).1
    rw [answers_length] at this
    exact d2 j p (by omega) this hp
  obtain ⟨reqs', e1, e2, e3⟩ := run_recvData (g := g) { s2 with sizeRecvs := s2.sizeRecvs ++ (R.take msgs.length).map (·.1), lens := lens }
    { Call.new msgs with dst := d, sent := R.length, sizeReqs := reqs } R hreqlen rfl hsrv msgs.length
  have hreqs' : ∀ j, reqs'[j]? = (tickets s2.dataRecvs R j).map (fun x => (lens j, x.1, x.2)) := by
    intro j
    by_cases hj : j < msgs.length
    · exact e3 j hj
    · rw [List.getElem?_eq_none (by omega), tickets, List.getElem?_eq_none (by omega)]
      rfl
  have f1 := run_dataIn (g := g) { s2 with
      sizeRecvs := s2.sizeRecvs ++ (R.take msgs.length).map (·.1), lens := lens
      dataRecvs := s2.dataRecvs ++ (R.take msgs.length).map (·.1) }
    { Call.new msgs with dst := d, sent := R.length, sizeReqs := reqs, dataReqs := reqs' } R (answers g s.datas R) s2.dataRecvs rfl hreqs'
    (answers_length _ _) (hA2 _ rfl rfl) hlens msgs.length
  have g1 := run_unpack (g := g) { s2 with
      sizeRecvs := s2.sizeRecvs ++ (R.take msgs.length).map (·.1), lens := lens
      dataRecvs := s2.dataRecvs ++ (R.take msgs.length).map (·.1) }
    { Call.new msgs with
      dst := d, sent := R.length, sizeReqs := reqs, dataReqs := reqs', bufs := (answers g s.datas R).take msgs.length } (answers g s.datas R) rfl
    (List.take_of_length_le (by rw [answers_length]; exact hRlen)) hlens msgs.length
  have hrun := g1
  rw [← Out.ok_bind (f := fun y => run g y ((List.range msgs.length).map .unpack)), ← f1,
    ← Out.ok_bind (f := fun y => run g y ((List.range msgs.length).map .dataIn)), ← e1,
    ← Out.ok_bind (f := fun y => run g y ((List.range msgs.length).map .recvData)), ← d1,
    ← Out.ok_bind (f := fun y => run g y ((List.range msgs.length).map .sizeIn)), ← c1,
    ← Out.ok_bind (f := fun y => run g y ((List.range msgs.length).map .recvSize)), ← b1,
    ← Out.ok_bind (f := fun y => run g y ((List.range msgs.length).flatMap (fun i => [.sizeTo i, .dataTo i]))), ← a1,
    ← run_append, ← run_append, ← run_append, ← run_append, ← run_append, ← run_append] at hrun
  have htake : (R.take msgs.length) = R := List.take_of_length_le hRlen
  refine ⟨_, _, hrun, ⟨by rw [hsz, hdat], ?_, ?_⟩, hdat, List.take_of_length_le (by rw [answers_length]; exact hRlen)⟩
  · intro r
    show (s2.sizeRecvs ++ (R.take msgs.length).map (·.1)).count r = (s2.datas.map (·.1)).count r
    rw [htake, hdat, b6, a4, List.map_append, List.count_append, List.count_append, hq.sizeRecvs]
  · intro r
    show (s2.dataRecvs ++ (R.take msgs.length).map (·.1)).count r = (s2.datas.map (·.1)).count r
    rw [htake, hdat, b7, a5, List.map_append, List.count_append, List.count_append, hq.dataRecvs]

end Hx.MpiGroup

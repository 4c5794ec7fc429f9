import Verif.Model.HxProgram
import Verif.Spec.HxProgram
import Verif.Proofs.LowestNum
import Verif.Props.C78_Jobs

/-!
# Helper lemmas: the example program `hx.c`
-/

namespace Hx.HxProgram
open Hx Msg Spec Process Store Results Job SpoGen Elen

/-! ## Names -/

theorem fixed_read {max : Nat} {text : Bytes} (h : text.length < max) : (fixed max text).read = .ok text := by
  unfold fixed Made.read
  have e : text.take (max - 1) = text := List.take_of_length_le (by omega)
  rw [e]
  simp only [List.length_append, List.length_replicate]
  rw [if_pos (by omega), List.take_left]

theorem toDec_short (k : Nat) : ∀ n, n < 10 ^ (k + 1) → (toDec n).length ≤ k + 1 := by
  induction k with
  | zero =>
    intro n h
    unfold toDec
    rw [if_pos (by omega)]
    simp
  | succ k ih =>
    intro n h
    unfold toDec
    split
    · simp
    · rw [List.length_append]
      have := ih (n / 10) (by rw [Nat.div_lt_iff_lt_mul (by decide), ← Nat.pow_succ]; exact h)
      simp only [List.length_cons, List.length_nil]
      omega

theorem showInt_short {r : Int} (h : -2 ^ 31 ≤ r ∧ r < 2 ^ 31) : (Lowest.showInt r).length ≤ 11 := by
  have := toDec_short 9 r.natAbs (by omega)
  unfold Lowest.showInt
  split
  · rw [List.length_cons]; omega
  · omega

theorem name_length {word : Bytes} {r : Int} {i : Nat} (h : -2 ^ 31 ≤ r ∧ r < 2 ^ 31) (hi : i < 2 ^ 64) :
    (name word r i).length ≤ word.length + 33 := by
  have h1 := showInt_short h
  have h2 := toDec_short 19 i (by omega)
  unfold name
  simp only [List.length_append, List.length_cons, List.length_nil]
  omega

theorem toDec_injective {a b : Nat} (h : toDec a = toDec b) : a = b := by
  have := foldl_dec a
  rw [h, foldl_dec] at this
  exact this.symm

theorem digits_split {a b x y : Bytes} (ha : ∀ c ∈ a, isDigit c = true) (hb : ∀ c ∈ b, isDigit c = true) (h : a ++ 45 :: x = b ++ 45 :: y) :
    a = b ∧ x = y := by
  induction a generalizing b with
  | nil =>
    cases b with
    | nil => simpa using h
    | cons c b =>
      simp only [List.nil_append, List.cons_append, List.cons.injEq] at h
      have := hb c (by simp)
      rw [← h.1] at this
      exact absurd this (by decide)
  | cons c a ih =>
    cases b with
    | nil =>
      simp only [List.nil_append, List.cons_append, List.cons.injEq] at h
      have := ha c (by simp)
      rw [h.1] at this
      exact absurd this (by decide)
    | cons d b =>
      simp only [List.cons_append, List.cons.injEq] at h
      obtain ⟨h1, h2⟩ := ih (fun c hc => ha c (by simp [hc])) (fun c hc => hb c (by simp [hc])) h.2
      exact ⟨by rw [h.1, h1], h2⟩

theorem toDec_cons (n : Nat) : ∃ c l, toDec n = c :: l ∧ isDigit c = true := by
  have hd := toDec_digits n
  have hne : toDec n ≠ [] := by unfold toDec; split <;> simp
  cases h : toDec n with
  | nil => exact absurd h hne
  | cons c l => exact ⟨c, l, rfl, by rw [h] at hd; exact hd c (by simp)⟩

theorem showInt_split {r r' : Int} {x y : Bytes} (h : Lowest.showInt r ++ 45 :: x = Lowest.showInt r' ++ 45 :: y) : r = r' ∧ x = y := by
  unfold Lowest.showInt at h
  have digit : ∀ (n m : Nat) (u v : Bytes), 45 :: (toDec n ++ 45 :: u) ≠ toDec m ++ 45 :: v := by
    intro n m u v e
    obtain ⟨c, l, hc, hd⟩ := toDec_cons m
    rw [hc, List.cons_append, List.cons.injEq] at e
    rw [← e.1] at hd
    exact absurd hd (by decide)
  split at h <;> split at h
  · rw [List.cons_append, List.cons_append, List.cons.injEq] at h
    obtain ⟨h1, h2⟩ := digits_split (toDec_digits _) (toDec_digits _) h.2
    have := toDec_injective h1
    exact ⟨by omega, h2⟩
  · exact absurd h (digit _ _ _ _)
  · exact absurd h.symm (digit _ _ _ _)
  · obtain ⟨h1, h2⟩ := digits_split (toDec_digits _) (toDec_digits _) h
    have := toDec_injective h1
    exact ⟨by omega, h2⟩

theorem name_inj {word : Bytes} {r r' : Int} {i i' : Nat} (h : name word r i = name word r' i') : r = r' ∧ i = i' := by
  unfold name at h
  simp only [List.append_assoc, List.append_cancel_left_eq, List.cons_append, List.nil_append] at h
  obtain ⟨h1, h2⟩ := showInt_split (List.cons.inj h).2
  exact ⟨h1, toDec_injective h2⟩

/-! ## Calls -/

theorem each_ok (f : Nat → Bytes → Bytes → Queue.Call) {rank : Int} (hr : -2 ^ 31 ≤ rank ∧ rank < 2 ^ 31) (n : Nat) :
    ∀ i, i + n ≤ 2 ^ 64 → each f rank i n = .ok ((List.range' i n).map (fun k => f k (name subject rank k) (name predicate rank k))) := by
  induction n with
  | zero => intro i _; rfl
  | succ n ih =>
    intro i h
    have h1 : (name subject rank i).length < bufsize := by
      have := name_length (word := subject) (i := i) hr (by omega)
      have hw : subject.length = 7 := by decide
      unfold bufsize; omega
    have h2 : (name predicate rank i).length < bufsize := by
      have := name_length (word := predicate) (i := i) hr (by omega)
      have hw : predicate.length = 9 := by decide
      unfold bufsize; omega
    unfold each
    rw [fixed_read h1, Out.ok_bind, fixed_read h2, Out.ok_bind, ih (i + 1) (by omega), Out.ok_bind, List.range'_succ]
    rfl

/-- Subject, predicate and object of a triple. -/
def sOf (m : Memory) (rank : Int) (i : Nat) : Blob := ⟨m.subjectAt i, name subject rank i, tByte⟩
def pOf (m : Memory) (rank : Int) (i : Nat) : Blob := ⟨m.predicateAt i, name predicate rank i, tByte⟩
def oOf (m : Memory) (i : Nat) : Blob := ⟨m.doubleAt i, m.doubles i, tDouble⟩

def putCall (m : Memory) (rank : Int) (i : Nat) : Queue.Call := .put ⟨sOf m rank i, pOf m rank i, oOf m i, Queue.putSPO⟩
def getCall (m : Memory) (rank : Int) (i : Nat) : Queue.Call := .get ⟨sOf m rank i, pOf m rank i, tDouble⟩

theorem puts_ok (m : Memory) {rank : Int} (hr : -2 ^ 31 ≤ rank ∧ rank < 2 ^ 31) {count : Nat} (hc : count ≤ 2 ^ 64) :
    puts m rank count = .ok ((List.range count).map (putCall m rank)) := by
  unfold puts
  rw [each_ok _ hr count 0 (by omega), ← List.range_eq_range']
  rfl

theorem gets_ok (m : Memory) {rank : Int} (hr : -2 ^ 31 ≤ rank ∧ rank < 2 ^ 31) {count : Nat} (hc : count ≤ 2 ^ 64) :
    gets m rank count = .ok ((List.range count).map (getCall m rank)) := by
  unfold gets
  rw [each_ok _ hr count 0 (by omega), ← List.range_eq_range']
  rfl

/-! ## The flushes -/

def earlyTurn (session : Nat → Queue.Cfg × Net) (m : Nat → Memory) (count r : Nat) : Turn :=
  ⟨(session r).1, (session r).2, (List.range count).map (getCall (m r) r)⟩
def middleTurn (session : Nat → Queue.Cfg × Net) (m : Nat → Memory) (count r : Nat) : Turn :=
  ⟨(session r).1, (session r).2, (List.range count).map (putCall (m r) r)⟩

theorem ranksTurns_ok (session : Nat → Queue.Cfg × Net) (m : Nat → Memory) {count : Nat} (hc : count ≤ 2 ^ 64) (n : Nat) :
    ∀ r, r + n ≤ 2 ^ 31 → ranksTurns session m count r n = .ok ((List.range' r n).map (fun k =>
      ⟨earlyTurn session m count k, middleTurn session m count k, earlyTurn session m count k⟩)) := by
  induction n with
  | zero => intro r _; rfl
  | succ n ih =>
    intro r h
    unfold ranksTurns rankTurns
    rw [puts_ok (m r) (by omega) hc, Out.ok_bind, gets_ok (m r) (by omega) hc, Out.ok_bind, Out.ok_bind, ih (r + 1) (by omega),
      Out.ok_bind, List.range'_succ]
    rfl

/-- The flushes of the program. -/
def turnsOfAll (session : Nat → Queue.Cfg × Net) (m : Nat → Memory) (count n : Nat) : List Turn :=
  (List.range n).map (earlyTurn session m count) ++ (List.range n).map (middleTurn session m count) ++
    (List.range n).map (earlyTurn session m count)

theorem program_ok (session : Nat → Queue.Cfg × Net) (m : Nat → Memory) {count n : Nat} (hc : count ≤ 2 ^ 64) (hn : n ≤ 2 ^ 31) :
    program session m count n = .ok (turnsOfAll session m count n) := by
  unfold program
  rw [ranksTurns_ok session m hc n 0 (by omega), Out.ok_bind, ← List.range_eq_range']
  simp only [List.map_map]
  rfl

theorem turns_early (session : Nat → Queue.Cfg × Net) (m : Nat → Memory) (count : Nat) {n r : Nat} (h : r < n) :
    (turnsOfAll session m count n)[r]? = some (earlyTurn session m count r) := by
  unfold turnsOfAll
  rw [List.append_assoc, List.getElem?_append_left (by simpa using h), List.getElem?_map, List.getElem?_range h]
  rfl

theorem turns_middle (session : Nat → Queue.Cfg × Net) (m : Nat → Memory) (count : Nat) {n r : Nat} (h : r < n) :
    (turnsOfAll session m count n)[n + r]? = some (middleTurn session m count r) := by
  unfold turnsOfAll
  rw [List.getElem?_append_left (by simp; omega), List.getElem?_append_right (by simp), List.getElem?_map]
  simp [h]

theorem turns_late (session : Nat → Queue.Cfg × Net) (m : Nat → Memory) (count : Nat) {n r : Nat} (h : r < n) :
    (turnsOfAll session m count n)[n + n + r]? = some (earlyTurn session m count r) := by
  unfold turnsOfAll
  rw [List.getElem?_append_right (by simp), List.getElem?_map]
  simp [h]

theorem turns_cases (session : Nat → Queue.Cfg × Net) (m : Nat → Memory) (count : Nat) {n k : Nat}
    (h : k < (turnsOfAll session m count n).length) :
    ∃ r < n, k = r ∨ k = n + r ∨ k = n + n + r := by
  unfold turnsOfAll at h
  simp only [List.length_append, List.length_map, List.length_range] at h
  by_cases h1 : k < n
  · exact ⟨k, h1, .inl rfl⟩
  · by_cases h2 : k < n + n
    · exact ⟨k - n, by omega, .inr (.inl (by omega))⟩
    · exact ⟨k - (n + n), by omega, .inr (.inr (by omega))⟩

theorem name_ne (word : Bytes) (r : Int) (i : Nat) : name word r i ≠ [] := by
  unfold name
  simp

section ops

variable {hash : Bytes → Bytes → Out Int} (hh : ∀ s p, ∃ d : Int, hash s p = .ok d ∧ 0 ≤ d) {m : Memory} (hm : Placed m)
include hh

theorem home_some (s p : Blob) : (home hash s p).isSome = true := by
  obtain ⟨d, h1, h2⟩ := hh s.bytes p.bytes
  unfold home
  rw [h1]
  simp only
  rw [if_neg (by omega)]
  rfl

include hm

theorem ops_get (rank : Int) (i servers : Nat) : ops hash servers (getCall m rank i) = [.get (sOf m rank i) (pOf m rank i) tDouble] := by
  unfold getCall ops
  simp only
  rw [if_pos ⟨⟨(hm.subject i).1, name_ne _ _ _⟩, ⟨(hm.predicate i).1, name_ne _ _ _⟩⟩]
  unfold placed dest
  simp only
  rw [home_some hh, if_pos rfl]

theorem ops_put (rank : Int) (i servers : Nat) (hd : m.doubles i ≠ []) :
    ops hash servers (putCall m rank i) = [.put (sOf m rank i) (pOf m rank i) (oOf m i)] := by
  unfold putCall ops
  simp only
  rw [if_pos ⟨⟨(hm.subject i).1, name_ne _ _ _⟩, ⟨(hm.predicate i).1, name_ne _ _ _⟩, ⟨(hm.double i).1, hd⟩⟩]
  unfold putOps
  have e : wanted ⟨sOf m rank i, pOf m rank i, oOf m i, Queue.putSPO⟩ = [(sOf m rank i, pOf m rank i, oOf m i)] := by
    have e : orderings.zipIdx.filter (fun x => Queue.putSPO.testBit x.2) = [((.S, .P, .O), 0)] := by decide +kernel
    unfold wanted; rw [e]; rfl
  rw [e, List.takeWhile_cons]
  rw [if_pos (home_some hh _ _)]
  rfl

theorem turnOps_gets (cfg : Queue.Cfg) (net : Net) (rank : Int) (count : Nat) :
    turnOps hash ⟨cfg, net, (List.range count).map (getCall m rank)⟩ =
      (List.range count).map (fun i => Op.get (sOf m rank i) (pOf m rank i) tDouble) := by
  unfold turnOps
  rw [List.flatMap_map, List.flatMap_congr (g := fun i => [Op.get (sOf m rank i) (pOf m rank i) tDouble])
    (fun i _ => ops_get hh hm rank i cfg.servers)]
  exact List.flatMap_pure_eq_map _ _

theorem turnOps_puts (cfg : Queue.Cfg) (net : Net) (rank : Int) (count : Nat) (hd : ∀ i < count, m.doubles i ≠ []) :
    turnOps hash ⟨cfg, net, (List.range count).map (putCall m rank)⟩ =
      (List.range count).map (fun i => Op.put (sOf m rank i) (pOf m rank i) (oOf m i)) := by
  unfold turnOps
  rw [List.flatMap_map, List.flatMap_congr (g := fun i => [Op.put (sOf m rank i) (pOf m rank i) (oOf m i)])
    (fun i hi => ops_put hh hm rank i cfg.servers (hd i (List.mem_range.mp hi)))]
  exact List.flatMap_pure_eq_map _ _

end ops

/-! ## Doubles as objects -/

/-- The default callbacks when objects may be floats and doubles, which come back as what is stored. -/
def numTransform (neg pos : UInt8) (f : FloatCodec) : Transform where
  E := (plainTransform neg pos f).E
  R v :=
    if v.typ = tFloat ∨ v.typ = tDouble then
      match (plainTransform neg pos f).E v with
      | none => []
      | some e =>
        match (defaultCallbacks neg pos f).decode ⟨e, v.typ⟩ with
        | .ok (some m) => m
        | _ => []
    else v.bytes

theorem text_ok {neg pos : UInt8} (hs : Symbols neg pos) (f : FloatCodec) {heap : Nat} (hh : heap ≠ 0) {b : Blob} (ht : b.typ = tByte)
    (ha : b.addr ≠ 0 ∧ b.addr < 2 ^ 64) (hl : b.bytes.length < 2 ^ 64) :
    KeyOk (defaultCallbacks neg pos f) (numTransform neg pos f) b ∧ Sent (defaultCallbacks neg pos f) heap b ∧
      (numTransform neg pos f).accepts b.val = true := by
  have hp : Plain b := ⟨by rw [ht]; decide, hl, fun t h => (by rw [ht] at h; cases h), by rw [ht]; decide⟩
  obtain ⟨h1, h2, h3, h4⟩ := plain_keyOk hs f hp
  refine ⟨⟨h1, h2, h3, h4⟩, ⟨⟨⟨hl, by rw [ht]; decide, ha.2⟩, ha.1⟩, ?_⟩, ?_⟩
  · exact Props.C31_default_callbacks neg pos f heap hh b ha.1 (Or.inr (by rw [ht]; rfl))
  · unfold Transform.accepts numTransform plainTransform defaultCallbacks
    have hi : intType b.val.typ = none := by show intType b.typ = none; rw [ht]; rfl
    simp only [hi]
    rw [if_neg (by show ¬ (b.typ = tFloat ∨ b.typ = tDouble); rw [ht]; decide), if_pos (by show b.typ = tByte ∨ _; exact .inl ht)]
    rfl

open Fp in
theorem double_ok {lib : Libm} (hl : LibmOk lib) {neg pos : UInt8} (hs : Symbols neg pos) {fprec dprec : Nat} (hp : 2 ≤ dprec)
    (hp' : dprec < 2 ^ 63) {heap : Nat} (hh : heap ≠ 0) {b : Blob} (ht : b.typ = tDouble) (ha : b.addr ≠ 0 ∧ b.addr < 2 ^ 64)
    (hg : GoodDouble b.bytes) :
    ObjOk (defaultCallbacks neg pos (codec lib neg pos fprec dprec)) (numTransform neg pos (codec lib neg pos fprec dprec)) b ∧
    Sent (defaultCallbacks neg pos (codec lib neg pos fprec dprec)) heap b ∧
    (numTransform neg pos (codec lib neg pos fprec dprec)).accepts b.val = true ∧
    CloseDouble dprec b.bytes ((numTransform neg pos (codec lib neg pos fprec dprec)).R b.val) := by
  obtain ⟨h1, x, h2, h3⟩ := hg
  have hprec : precOf b.val.typ fprec dprec = dprec := by show precOf b.typ _ _ = _; rw [ht]; rfl
  have hsize : numSize b.val.typ = 8 := by show numSize b.typ = 8; rw [ht]; rfl
  obtain ⟨a, m, z, c1, c2, c3, c4, c5, c6, c7⟩ := num_stored hl hs fprec dprec b.val (by rw [hprec]; exact hp) (by rw [hprec]; exact hp')
    (by rw [hsize]; show 8 ≤ b.bytes.length; omega) (x := x) (by show (numberIn b.typ b.bytes).value = _; rw [ht]; exact h2)
    (by show x = 0 ∨ Moderate b.typ x; rw [ht]; exact h3)
  have hf : b.typ = tFloat ∨ b.typ = tDouble := .inr ht
  have e1 : (defaultCallbacks neg pos (codec lib neg pos fprec dprec)).encode b = .ok (some a) := by rw [enc_float hf ha.1]; exact c1
  have e2 : (defaultCallbacks neg pos (codec lib neg pos fprec dprec)).encode ⟨1, b.bytes, b.typ⟩ = .ok (some a) := by
    rw [enc_float (b := ⟨1, b.bytes, b.typ⟩) hf Nat.one_ne_zero]; exact c1
  have e3 : (numTransform neg pos (codec lib neg pos fprec dprec)).E b.val = some a := by
    unfold numTransform plainTransform
    simp only
    rw [show (⟨1, b.val.bytes, b.val.typ⟩ : Blob) = ⟨1, b.bytes, b.typ⟩ from rfl, e2]
  have e4 : (defaultCallbacks neg pos (codec lib neg pos fprec dprec)).decode ⟨a, b.typ⟩ = .ok (some m) := by
    rw [dec_float (v := ⟨a, b.typ⟩) hf]; exact c4
  have e5 : (numTransform neg pos (codec lib neg pos fprec dprec)).R b.val = m := by
    have e3' : (plainTransform neg pos (codec lib neg pos fprec dprec)).E b.val = some a := e3
    unfold numTransform
    simp only
    rw [if_pos (show b.val.typ = tFloat ∨ b.val.typ = tDouble from hf), e3']
    simp only
    rw [show (⟨a, b.val.typ⟩ : Val) = ⟨a, b.typ⟩ from rfl, e4]
  refine ⟨⟨by rw [e1, e3], by rw [ht]; decide, ?_⟩, ⟨⟨⟨by omega, by rw [ht]; decide, ha.2⟩, ha.1⟩, ?_⟩, ?_, ?_⟩
  · intro e he
    rw [e3] at he
    cases he
    rw [e4, e5]
  · have hne : b.bytes ≠ [] := by intro h; rw [h] at h1; cases h1
    exact Props.C31_default_callbacks neg pos _ heap hh b ha.1 (Or.inl hne)
  · unfold Transform.accepts; rw [e3]; rfl
  · rw [e5]
    refine ⟨by rw [c5]; exact hsize, x, z, h2, ?_, fun h => ?_⟩
    · have : (numberIn b.typ m).value = some z := c6
      rwa [ht] at this
    · have := c7 h
      rw [hprec, show b.val.typ = tDouble from ht] at this
      exact this

/-! ## What a rank sees -/

theorem filterMap_range {α : Type} (g : Nat → Option α) (i n : Nat) (h : i < n) :
    (List.range n).filterMap (fun j => if j = i then g j else none) = (g i).toList := by
  induction n with
  | zero => omega
  | succ n ih =>
    rw [List.range_succ, List.filterMap_append]
    by_cases hi : i = n
    · subst hi
      have : (List.range i).filterMap (fun j => if j = i then g j else none) = [] := by
        rw [List.filterMap_eq_nil_iff]
        intro j hj
        rw [if_neg (by have := List.mem_range.mp hj; omega)]
      rw [this, List.nil_append, List.filterMap_cons, List.filterMap_nil]
      simp only [if_true]
      cases g i <;> rfl
    · rw [ih (by omega), List.filterMap_cons, List.filterMap_nil, if_neg (by omega)]
      simp

theorem perm_map {α β : Type} {f : α → β} {l : List α} {gs : List β} (h : gs.Perm (l.map f)) :
    ∃ l' : List α, l'.Perm l ∧ gs = l'.map f := by
  have h0 : List.Forall₂ (fun a b => b = f a) l (l.map f) := List.forall₂_map_right_iff.mpr (List.forall₂_same.mpr fun _ _ => rfl)
  have := congrFun (congrFun (List.forall₂_comp_perm_eq_perm_comp_forall₂ (r := fun (a : α) (b : β) => b = f a)) l) gs
  have h1 : Relation.Comp (List.Forall₂ (fun a b => b = f a)) List.Perm l gs := ⟨_, h0, h.symm⟩
  rw [this] at h1
  obtain ⟨l', h2, h3⟩ := h1
  refine ⟨l', h2.symm, ?_⟩
  have h4 : List.Forall₂ (fun b c => b = c) gs (l'.map f) := List.forall₂_map_right_iff.mpr h3.flip
  exact List.forall₂_eq_eq_eq ▸ h4

theorem told_exists {α : Type} {β : Type} (d : β) (g : Nat → α) (n : Nat) (ps : List (α × β)) (h : ps.map Prod.fst = (List.range n).map g) :
    ∃ told : Nat → β, ps = (List.range n).map (fun i => (g i, told i)) := by
  have hl : ps.length = n := by have := congrArg List.length h; simpa using this
  refine ⟨fun i => match ps[i]? with | some x => x.2 | none => d, ?_⟩
  apply List.ext_getElem?
  intro i
  rw [List.getElem?_map]
  by_cases hi : i < n
  · have h1 : ps[i]? = some ps[i] := List.getElem?_eq_getElem (by omega)
    have h2 := congrArg (fun l => l[i]?) h
    simp only [List.getElem?_map, h1, List.getElem?_range hi, Option.map_some, Option.some.injEq] at h2
    rw [List.getElem?_range hi, h1, Option.map_some]
    simp only [h1]
    rw [← h2]
  · rw [List.getElem?_eq_none (by omega), List.getElem?_eq_none (by simp; omega)]
    rfl

theorem forall₂_map {α β γ : Type} {R : β → γ → Prop} {f : α → β} {l : List α} {m : List γ} (h : List.Forall₂ R (l.map f) m) :
    List.Forall₂ (fun a c => R (f a) c) l m := List.forall₂_map_left_iff.mp h

section main

variable {cb : Callbacks} {t : Transform} {hash : Bytes → Bytes → Out Int} {session : Nat → Queue.Cfg × Net} {m : Nat → Memory}
  {count n : Nat} (hh : ∀ s p, ∃ d : Int, hash s p = .ok d ∧ 0 ≤ d) (hm : ∀ r, Placed (m r)) (hd : ∀ r i, (m r).doubles i ≠ [])

private theorem sval {m m' : Memory} {r r' : Int} {i i' : Nat} (h : (sOf m r i).val = (sOf m' r' i').val) : r = r' ∧ i = i' := by
  have := congrArg Val.bytes h
  exact name_inj this

include hh hm hd in
/-- What the flushes did to a pair of rank `c`. -/
theorem changes_at {rs : List Results} {f : Nat → Outcomes} (hlen : rs.length = (turnsOfAll session m count n).length)
    (hf : ToldBy hash (turnsOfAll session m count n) rs f)
    (haccept : ∀ r < n, ∀ i < count, t.accepts (sOf (m r) r i).val = true ∧ t.accepts (pOf (m r) r i).val = true ∧ t.accepts (oOf (m r) i).val = true)
    {c : Nat} (hc : c < n) {told : Nat → Result}
    (htold : (f (n + c)).puts = (List.range count).map (fun i => ((sOf (m c) c i, pOf (m c) c i, oOf (m c) i), told i)))
    {i : Nat} (hi : i < count) {k : Nat} (hk : k < (turnsOfAll session m count n).length) :
    changesTold t.accepts (sOf (m c) c i).val (pOf (m c) c i).val (f k) =
      if k = n + c ∧ (told i).status = hxSuccess then [.put (sOf (m c) c i).val (pOf (m c) c i).val (oOf (m c) i).val] else [] := by
  have res : ∀ k < (turnsOfAll session m count n).length, ∃ r, rs[k]? = some r :=
    fun k hk => ⟨_, List.getElem?_eq_getElem (by omega)⟩
  have gets : ∀ r < n, ∀ k, (turnsOfAll session m count n)[k]? = some (earlyTurn session m count r) → k < (turnsOfAll session m count n).length →
      changesTold t.accepts (sOf (m c) c i).val (pOf (m c) c i).val (f k) = [] := by
    intro r _ k hk hlt
    obtain ⟨r', hr'⟩ := res k hlt
    obtain ⟨h1, h2⟩ := hf k _ r' hk hr'
    refine Props.changesTold_unchanged h1 h2 (Or.inl ?_)
    intro z hz
    unfold earlyTurn at hz
    rw [turnOps_gets hh (hm r)] at hz
    obtain ⟨j, -, rfl⟩ := List.mem_map.mp hz
    exact fun h => h
  obtain ⟨r, hr, h | h | h⟩ := turns_cases session m count hk <;> subst h
  · rw [gets _ hr _ (turns_early session m count hr) hk, if_neg (by omega)]
  · obtain ⟨r', hr'⟩ := res _ hk
    obtain ⟨h1, h2⟩ := hf _ _ r' (turns_middle session m count hr) hr'
    by_cases hrc : r = c
    · subst hrc
      have hdel : (f (n + r)).dels = [] := by
        have := h2.all
        unfold middleTurn at this
        rw [turnOps_puts hh (hm r) _ _ _ _ (fun i _ => hd r i)] at this
        have e : delPairs ((List.range count).map (fun i => Op.put (sOf (m r) r i) (pOf (m r) r i) (oOf (m r) i))) = [] := by
          unfold delPairs
          rw [List.filterMap_eq_nil_iff]
          intro z hz
          obtain ⟨j, -, rfl⟩ := List.mem_map.mp hz
          rfl
        rw [e] at this
        exact List.map_eq_nil_iff.mp this
      unfold changesTold
      rw [hdel, htold]
      unfold succeededPuts succeededDels
      rw [List.filterMap_nil, List.append_nil, List.filterMap_map, ← List.filterMap_eq_filter, List.filterMap_filterMap]
      rw [List.filterMap_congr (g := fun j => if j = i then
        (if (told i).status = hxSuccess then some (Ev.put (sOf (m r) r i).val (pOf (m r) r i).val (oOf (m r) i).val) else none) else none) ?_]
      · rw [filterMap_range _ i count hi]
        by_cases hst : (told i).status = hxSuccess
        · rw [if_pos hst, if_pos ⟨rfl, hst⟩]; rfl
        · rw [if_neg hst, if_neg (fun h => hst h.2)]; rfl
      · intro j hj
        obtain ⟨a1, a2, a3⟩ := haccept r hr j (List.mem_range.mp hj)
        simp only [Function.comp_apply, a1, a2, a3, Bool.and_true, decide_eq_true_eq]
        by_cases hji : j = i
        · subst hji
          rw [if_pos rfl]
          by_cases hst : (told j).status = hxSuccess
          · rw [if_pos hst]
            simp [ofPair, Option.guard]
          · rw [if_neg hst]; rfl
        · rw [if_neg hji]
          by_cases hst : (told j).status = hxSuccess
          · rw [if_pos hst]
            have : ¬ ((sOf (m r) r j).val = (sOf (m r) r i).val ∧ (pOf (m r) r j).val = (pOf (m r) r i).val) :=
              fun h => hji (sval h.1).2
            simp [ofPair, Option.guard, this]
          · rw [if_neg hst]; rfl
    · rw [if_neg (by omega)]
      refine Props.changesTold_unchanged h1 h2 (Or.inl ?_)
      intro z hz
      unfold middleTurn at hz
      rw [turnOps_puts hh (hm r) _ _ _ _ (fun i _ => hd r i)] at hz
      obtain ⟨j, -, rfl⟩ := List.mem_map.mp hz
      intro h
      have := (sval h.1).1
      omega
  · rw [gets r hr _ (turns_late session m count hr) hk, if_neg (by omega)]

include hh hm hd in
/-- What rank `c` sees. -/
theorem rank_sees {rs : List Results} {f : Nat → Outcomes} {log : List Served} (hlen : rs.length = (turnsOfAll session m count n).length)
    (hf : ToldBy hash (turnsOfAll session m count n) rs f)
    (hget : ∀ i x r, (turnsOfAll session m count n)[i]? = some x → rs[i]? = some r →
      ∃ gs, gs.Perm (getPairs (turnOps hash x)) ∧
        List.Forall₂ (ExplainedTold t (turnsOfAll session m count n).length f log i) gs (r.items.filter (fun y => decide (y.kind = .get))))
    (haccept : ∀ r < n, ∀ i < count, t.accepts (sOf (m r) r i).val = true ∧ t.accepts (pOf (m r) r i).val = true ∧ t.accepts (oOf (m r) i).val = true)
    (prec : Nat) (hclose : ∀ r < n, ∀ i < count, CloseDouble prec (oOf (m r) i).bytes (t.R (oOf (m r) i).val))
    {c : Nat} (hc : c < n) (hbar : Finished log c (n + c)) (hbar' : Finished log (n + c) (n + n + c))
    {r0 r1 r2 : Results} (e0 : rs[c]? = some r0) (e1 : rs[n + c]? = some r1) (e2 : rs[n + n + c]? = some r2) :
    ∃ told, GetsBack count prec (sOf (m c) c) (pOf (m c) c) (oOf (m c)) r0 r1 r2 told := by
  have hlen3 : (turnsOfAll session m count n).length = n + n + n := by unfold turnsOfAll; simp; omega
  obtain ⟨p1, p2⟩ := hf _ _ r1 (turns_middle session m count hc) e1
  have hall := p1.all
  unfold middleTurn at hall
  rw [turnOps_puts hh (hm c) _ _ _ _ (fun i _ => hd c i)] at hall
  have etr : putTriples ((List.range count).map (fun i => Op.put (sOf (m c) c i) (pOf (m c) c i) (oOf (m c) i))) =
      (List.range count).map (fun i => (sOf (m c) c i, pOf (m c) c i, oOf (m c) i)) := by
    unfold putTriples
    rw [List.filterMap_map, ← List.filterMap_eq_map]
    rfl
  rw [etr] at hall
  obtain ⟨told, htold⟩ := told_exists (Result.create .put 0 0) _ count _ hall
  have hch := fun i (hi : i < count) k (hk : k < (turnsOfAll session m count n).length) =>
    changes_at (t := t) hh hm hd hlen hf haccept hc htold hi hk
  have hrep : ∀ i < count, Reports .put (sOf (m c) c i) (pOf (m c) c i) (told i) := by
    intro i hi
    exact p1.reports ((sOf (m c) c i, pOf (m c) c i, oOf (m c) i), told i) (by rw [htold]; exact List.mem_map.mpr ⟨i, List.mem_range.mpr hi, rfl⟩)
  have epairs : getPairs ((List.range count).map (fun i => Op.get (sOf (m c) c i) (pOf (m c) c i) tDouble)) =
      (List.range count).map (fun i => (sOf (m c) c i, pOf (m c) c i)) := by
    unfold getPairs
    rw [List.filterMap_map, ← List.filterMap_eq_map]
    rfl
  -- the change that explains a GET is the PUT of the rank
  have source : ∀ i < count, ∀ j k o, LatestTold t.accepts (turnsOfAll session m count n).length f log j (sOf (m c) c i).val (pOf (m c) c i).val k
      (.put (sOf (m c) c i).val (pOf (m c) c i).val o) → k = n + c ∧ (told i).status = hxSuccess ∧ o = (oOf (m c) i).val := by
    intro i hi j k o hk
    have hmem := hk.mem
    rw [hch i hi k hk.turn] at hmem
    split at hmem
    · rename_i h
      rw [List.mem_singleton] at hmem
      injection hmem with _ _ h3
      exact ⟨h.1, h.2, h3⟩
    · cases hmem
  have nodel : ∀ i < count, ∀ j k, ¬ LatestTold t.accepts (turnsOfAll session m count n).length f log j (sOf (m c) c i).val (pOf (m c) c i).val k
      (.del (sOf (m c) c i).val (pOf (m c) c i).val) := by
    intro i hi j k hk
    have hmem := hk.mem
    rw [hch i hi k hk.turn] at hmem
    split at hmem
    · rw [List.mem_singleton] at hmem; cases hmem
    · cases hmem
  refine ⟨told, ?_, ?_, hrep, ?_⟩
  · obtain ⟨gs, g1, g2⟩ := hget c _ r0 (turns_early session m count hc) e0
    unfold earlyTurn at g1
    rw [turnOps_gets hh (hm c), epairs] at g1
    obtain ⟨l, l1, rfl⟩ := perm_map g1
    refine ⟨l, l1, ?_⟩
    have := forall₂_map g2
    refine ((List.forall₂_and_left (p := fun i => i < count) _ _).mpr ⟨fun i hi => List.mem_range.mp (l1.mem_iff.mp hi), this⟩).imp ?_
    rintro i y ⟨hi, hy⟩
    refine ⟨⟨hy.kind, hy.subject, hy.predicate, hy.status⟩, ?_⟩
    rcases hy.status with hs | hs
    · obtain ⟨k, o, hk, -⟩ := hy.found hs
      obtain ⟨rfl, -, -⟩ := source i hi _ _ _ hk
      exact absurd hbar (hk.began (by omega))
    · exact hs
  · have := p1.results
    rw [htold, List.map_map] at this
    exact this
  · obtain ⟨gs, g1, g2⟩ := hget (n + n + c) _ r2 (turns_late session m count hc) e2
    unfold earlyTurn at g1
    rw [turnOps_gets hh (hm c), epairs] at g1
    obtain ⟨l, l1, rfl⟩ := perm_map g1
    refine ⟨l, l1, ?_⟩
    have := forall₂_map g2
    refine ((List.forall₂_and_left (p := fun i => i < count) _ _).mpr ⟨fun i hi => List.mem_range.mp (l1.mem_iff.mp hi), this⟩).imp ?_
    rintro i y ⟨hi, hy⟩
    refine ⟨⟨hy.kind, hy.subject, hy.predicate, hy.status⟩, ?_, ?_⟩
    · rcases hy.status with hs | hs
      · obtain ⟨k, o, hk, -⟩ := hy.found hs
        obtain ⟨-, h2, -⟩ := source i hi _ _ _ hk
        rw [hs, h2]
      · rw [hs]
        rcases (hrep i hi).status with hs' | hs'
        · exfalso
          rcases hy.absent hs with ⟨k, hk⟩ | ⟨-, h⟩
          · exact nodel i hi _ _ hk
          · have := h (n + c) (by omega) (by omega) hbar'
            rw [hch i hi (n + c) (by omega), if_pos ⟨rfl, hs'⟩] at this
            cases this
        · exact hs'.symm
    · intro hs
      obtain ⟨k, o, hk, b, b1, b2, b3⟩ := hy.found hs
      obtain ⟨-, -, rfl⟩ := source i hi _ _ _ hk
      exact ⟨b, b1, b3, by rw [b2]; exact hclose c hc i hi⟩

end main

/-! ## Jobs -/

theorem mem_turns {session : Nat → Queue.Cfg × Net} {m : Nat → Memory} {count n : Nat} {x : Turn} (h : x ∈ turnsOfAll session m count n) :
    ∃ r < n, x = earlyTurn session m count r ∨ x = middleTurn session m count r := by
  unfold turnsOfAll at h
  simp only [List.mem_append, List.mem_map, List.mem_range] at h
  rcases h with (⟨r, h1, h2⟩ | ⟨r, h1, h2⟩) | ⟨r, h1, h2⟩
  · exact ⟨r, h1, .inl h2.symm⟩
  · exact ⟨r, h1, .inr h2.symm⟩
  · exact ⟨r, h1, .inl h2.symm⟩

theorem turns_of_rank (session : Nat → Queue.Cfg × Net) (m : Nat → Memory) (count : Nat) {n : Nat}
    (hrank : ∀ r < n, (session r).2.rank = r) (c : Fin n) :
    turnsOf (turnsOfAll session m count n) c = [c.val, n + c, n + n + c] := by
  have hc := c.isLt
  have hlen : (turnsOfAll session m count n).length = n + (n + n) := by unfold turnsOfAll; simp
  have part : ∀ (a : Nat) (f : Nat → Turn), (∀ r < n, (turnsOfAll session m count n)[a + r]? = some (f r)) → (∀ r, (f r).net = (session r).2) →
      ((List.range n).map (a + ·)).filter (fun i => ((turnsOfAll session m count n)[i]?.map (fun x => x.net.rank)) == some (c.val : Int)) = [a + c.val] := by
    intro a f h1 h2
    rw [List.filter_map, List.filter_congr (q := fun r => decide (r = c.val))]
    · have : (List.range n).filter (fun r => decide (r = c.val)) = [c.val] := by
        have h := filterMap_range some c.val n hc
        rw [← List.filterMap_eq_filter]
        rw [Option.toList_some] at h
        rw [← h]
        apply List.filterMap_congr
        intro r _
        by_cases hr : r = c.val <;> simp [Option.guard, hr]
      rw [this]; rfl
    · intro r hr
      have hr := List.mem_range.mp hr
      simp only [Function.comp_apply, h1 r hr, Option.map_some, h2, hrank r hr]
      rw [Bool.eq_iff_iff]
      simp
  unfold turnsOf
  rw [hlen, List.range_add, List.range_add, List.map_append, List.filter_append, List.filter_append, List.map_map]
  have p1 := part 0 (earlyTurn session m count) (fun r hr => by rw [Nat.zero_add]; exact turns_early session m count hr) (fun _ => rfl)
  have p2 := part n (middleTurn session m count) (fun r hr => turns_middle session m count hr) (fun _ => rfl)
  have p3 := part (n + n) (earlyTurn session m count) (fun r hr => turns_late session m count hr) (fun _ => rfl)
  rw [show ((List.range n).map (0 + ·)) = List.range n by simp] at p1
  rw [show (List.range n).map ((fun x => n + x) ∘ fun x => n + x) = (List.range n).map (n + n + ·) from
    List.map_congr_left (fun r _ => by show n + (n + r) = _; omega), p1, p2, p3]
  simp

section jobs
open Fp

variable {lib : Libm} (hl : LibmOk lib) {neg pos : UInt8} (hs : Symbols neg pos) {fprec dprec : Nat} (hp : 2 ≤ dprec)
  (hp' : dprec < 2 ^ 63) {hash : Bytes → Bytes → Out Int} {place : List Int} {session : Nat → Queue.Cfg × Net} {m : Nat → Memory}
  {count n : Nat} (hh : ∀ s p, ∃ d : Int, hash s p = .ok d ∧ 0 ≤ d) (hm : ∀ r, Placed (m r)) (hd : ∀ r i, GoodDouble ((m r).doubles i))
  (hcount : count ≤ 2 ^ 64) (hn : n ≤ 2 ^ 31)

theorem good_ne {o : Bytes} (h : GoodDouble o) : o ≠ [] := by
  rintro rfl
  cases h.1

theorem sOf_ok {r i heap : Nat} (hs : Symbols neg pos) (f : FloatCodec) (hr : r < 2 ^ 31) (hi : i < 2 ^ 64) (hh : heap ≠ 0) {m : Memory} (hm : Placed m) :
    KeyOk (defaultCallbacks neg pos f) (numTransform neg pos f) (sOf m r i) ∧ Sent (defaultCallbacks neg pos f) heap (sOf m r i) ∧
      (numTransform neg pos f).accepts (sOf m r i).val = true :=
  text_ok hs f hh (b := sOf m r i) rfl (hm.subject i)
    (by have := name_length (word := subject) (r := (r : Int)) (i := i) ⟨by omega, by omega⟩ hi
        have e : subject.length = 7 := by decide
        show (name subject r i).length < _; omega)

theorem pOf_ok {r i heap : Nat} (hs : Symbols neg pos) (f : FloatCodec) (hr : r < 2 ^ 31) (hi : i < 2 ^ 64) (hh : heap ≠ 0) {m : Memory} (hm : Placed m) :
    KeyOk (defaultCallbacks neg pos f) (numTransform neg pos f) (pOf m r i) ∧ Sent (defaultCallbacks neg pos f) heap (pOf m r i) ∧
      (numTransform neg pos f).accepts (pOf m r i).val = true :=
  text_ok hs f hh (b := pOf m r i) rfl (hm.predicate i)
    (by have := name_length (word := predicate) (r := (r : Int)) (i := i) ⟨by omega, by omega⟩ hi
        have e : predicate.length = 9 := by decide
        show (name predicate r i).length < _; omega)

include hl hs hp hp' hh hm hd hcount hn in
/-- Flushes of the program can be flushes of ranks that may flush something. -/
theorem turns_ok {t' : Transform}
    (hidle : ∀ x ∈ idleTurns session n, TurnOk (defaultCallbacks neg pos (codec lib neg pos fprec dprec)) t' hash place x ∧
      TurnRuns (defaultCallbacks neg pos (codec lib neg pos fprec dprec)) t' hash place.length x) :
    ∀ x ∈ turnsOfAll session m count n,
      TurnOk (defaultCallbacks neg pos (codec lib neg pos fprec dprec)) (numTransform neg pos (codec lib neg pos fprec dprec)) hash place x ∧
      TurnRuns (defaultCallbacks neg pos (codec lib neg pos fprec dprec)) (numTransform neg pos (codec lib neg pos fprec dprec)) hash place.length x := by
  intro x hx
  obtain ⟨r, hr, hx⟩ := mem_turns hx
  obtain ⟨h1, h2⟩ := hidle ⟨(session r).1, (session r).2, []⟩ (List.mem_map.mpr ⟨r, List.mem_range.mpr hr, rfl⟩)
  have haddr := h1.address
  have ks := fun i (hi : i < count) => sOf_ok (heap := (session r).2.heap) hs (codec lib neg pos fprec dprec) (show r < 2 ^ 31 by omega)
    (show i < 2 ^ 64 by omega) haddr.1 (hm r)
  have kp := fun i (hi : i < count) => pOf_ok (heap := (session r).2.heap) hs (codec lib neg pos fprec dprec) (show r < 2 ^ 31 by omega)
    (show i < 2 ^ 64 by omega) haddr.1 (hm r)
  have ko := fun i => double_ok (fprec := fprec) (heap := (session r).2.heap) (b := oOf (m r) i) hl hs hp hp' haddr.1 rfl ((hm r).double i) (hd r i)
  have read : ∀ (b : Blob), b.addr ≠ 0 → Queue.readable b = true := by
    intro b hb
    unfold Queue.readable
    simp [hb]
  have all : ∀ calls : List Queue.Call,
      (∀ o ∈ turnOps hash ⟨(session r).1, (session r).2, calls⟩,
        OpOk (defaultCallbacks neg pos (codec lib neg pos fprec dprec)) (numTransform neg pos (codec lib neg pos fprec dprec)) (session r).2.heap o ∧
        SimpleOp (defaultCallbacks neg pos (codec lib neg pos fprec dprec)) (numTransform neg pos (codec lib neg pos fprec dprec)) o) →
      (∀ c ∈ calls, ReadableCall c) →
      TurnOk (defaultCallbacks neg pos (codec lib neg pos fprec dprec)) (numTransform neg pos (codec lib neg pos fprec dprec)) hash place
          ⟨(session r).1, (session r).2, calls⟩ ∧
        TurnRuns (defaultCallbacks neg pos (codec lib neg pos fprec dprec)) (numTransform neg pos (codec lib neg pos fprec dprec)) hash place.length
          ⟨(session r).1, (session r).2, calls⟩ := by
    intro calls ho hc
    exact ⟨⟨h1.sameHash, h1.samePlace, h1.routed, h1.maxOps, h1.rank, h1.address, fun o h => (ho o h).1⟩,
      ⟨h2.hashed, h2.room, h2.servers, hc, fun o h => (ho o h).2⟩⟩
  rcases hx with rfl | rfl
  · refine all _ ?_ ?_
    · rw [turnOps_gets hh (hm r)]
      intro o ho
      obtain ⟨i, hi, rfl⟩ := List.mem_map.mp ho
      have hi := List.mem_range.mp hi
      exact ⟨⟨⟨(ks i hi).1, (kp i hi).1⟩, ⟨(ks i hi).2.1, (kp i hi).2.1⟩, by decide⟩, True.intro⟩
    · intro c hc
      obtain ⟨i, -, rfl⟩ := List.mem_map.mp hc
      exact ⟨read _ ((hm r).subject i).1, read _ ((hm r).predicate i).1⟩
  · refine all _ ?_ ?_
    · rw [turnOps_puts hh (hm r) _ _ _ _ (fun i _ => good_ne (hd r i))]
      intro o ho
      obtain ⟨i, hi, rfl⟩ := List.mem_map.mp ho
      have hi := List.mem_range.mp hi
      have hlen : ((numTransform neg pos (codec lib neg pos fprec dprec)).R (oOf (m r) i).val).length = 8 := (ko i).2.2.2.1
      exact ⟨⟨⟨(ks i hi).1, (kp i hi).1, (ko i).1⟩, ⟨(ks i hi).2.1, (kp i hi).2.1, (ko i).2.1⟩,
        (fun h => by rw [h] at hlen; cases hlen), by rw [hlen]; decide⟩, True.intro⟩
    · intro c hc
      obtain ⟨i, -, rfl⟩ := List.mem_map.mp hc
      exact ⟨read _ ((hm r).subject i).1, read _ ((hm r).predicate i).1, read _ ((hm r).double i).1⟩

include hh hm hd in
theorem no_getops : KeysGiven hash (turnsOfAll session m count n) := by
  rintro ⟨x, hx, hne⟩
  exfalso
  obtain ⟨r, -, rfl | rfl⟩ := mem_turns hx
  · apply hne
    unfold earlyTurn
    rw [turnOps_gets hh (hm r)]
    unfold getOps
    rw [List.filterMap_eq_nil_iff]
    intro o ho
    obtain ⟨i, -, rfl⟩ := List.mem_map.mp ho
    rfl
  · apply hne
    unfold middleTurn
    rw [turnOps_puts hh (hm r) _ _ _ _ (fun i _ => good_ne (hd r i))]
    unfold getOps
    rw [List.filterMap_eq_nil_iff]
    intro o ho
    obtain ⟨i, -, rfl⟩ := List.mem_map.mp ho
    rfl

include hh hm hd in
theorem whole_numbers : ∀ x ∈ turnsOfAll session m count n, PutsWhole (turnOps hash x) := by
  intro x hx s p o ho
  obtain ⟨r, -, rfl | rfl⟩ := mem_turns hx
  · unfold earlyTurn at ho
    rw [turnOps_gets hh (hm r)] at ho
    obtain ⟨i, -, h⟩ := List.mem_map.mp ho
    cases h
  · unfold middleTurn at ho
    rw [turnOps_puts hh (hm r) _ _ _ _ (fun i _ => good_ne (hd r i))] at ho
    obtain ⟨i, -, h⟩ := List.mem_map.mp ho
    cases h
    refine ⟨fun h => ?_, fun _ => ?_⟩
    · cases (show tDouble = tFloat from h)
    · show 8 ≤ ((m r).doubles i).length
      rw [(hd r i).1]

include hh hm hd in
theorem few_operations (h : 3 * n * count < 2 ^ 64) :
    ((turnsOfAll session m count n).map (fun x => (turnOps hash x).length)).sum < 2 ^ 64 := by
  have early : ∀ r, (turnOps hash (earlyTurn session m count r)).length = count := by
    intro r
    unfold earlyTurn
    rw [turnOps_gets hh (hm r)]
    simp
  have middle : ∀ r, (turnOps hash (middleTurn session m count r)).length = count := by
    intro r
    unfold middleTurn
    rw [turnOps_puts hh (hm r) _ _ _ _ (fun i _ => good_ne (hd r i))]
    simp
  unfold turnsOfAll
  simp only [List.map_append, List.map_map, List.sum_append, Function.comp_def, early, middle, List.map_const', List.length_range,
    List.sum_replicate, smul_eq_mul]
  have : 3 * n * count = n * count + n * count + n * count := by rw [Nat.mul_assoc]; omega
  omega

include hl hs hp hp' hm hd hcount hn in
theorem accepted (r : Nat) (hr : r < n) (i : Nat) (hi : i < count) :
    ((numTransform neg pos (codec lib neg pos fprec dprec)).accepts (sOf (m r) r i).val = true ∧
      (numTransform neg pos (codec lib neg pos fprec dprec)).accepts (pOf (m r) r i).val = true ∧
      (numTransform neg pos (codec lib neg pos fprec dprec)).accepts (oOf (m r) i).val = true) ∧
    CloseDouble dprec (oOf (m r) i).bytes ((numTransform neg pos (codec lib neg pos fprec dprec)).R (oOf (m r) i).val) := by
  have k1 := sOf_ok (heap := 1) hs (codec lib neg pos fprec dprec) (show r < 2 ^ 31 by omega) (show i < 2 ^ 64 by omega) (by decide) (hm r)
  have k2 := pOf_ok (heap := 1) hs (codec lib neg pos fprec dprec) (show r < 2 ^ 31 by omega) (show i < 2 ^ 64 by omega) (by decide) (hm r)
  have k3 := double_ok (fprec := fprec) (heap := 1) (b := oOf (m r) i) hl hs hp hp' (by decide) rfl ((hm r).double i) (hd r i)
  exact ⟨⟨k1.2.2, k2.2.2, k3.2.2.1⟩, k3.2.2.2⟩

end jobs

end Hx.HxProgram

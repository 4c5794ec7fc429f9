import Verif.Model.Typed
import Verif.Props.C59_Doubles
import Verif.Props.C83_Hists
import Verif.Props.C53_Accessors

/-!
# C84: floats and doubles, from the functions for them to the results of any rank
-/

namespace Hx.Props
open Hx Msg Spec Process Store Results Job Place Elen Fp Typed Sessions

/-! ## The calls -/

/-- C84: the functions for single floats and doubles are the general ones with the number's 4 or 8 bytes, type 5 or 6. -/
theorem C84_single (t : NumTy) (a : NumArg) (s p : Blob) (n op : Nat) (ht : a.bits < 2 ^ (match t with | .float => 32 | .double => 64)) :
    (∃ o : Blob, t.call (.put a) = .queue (.put ⟨a.s, a.p, o, a.mask⟩) ∧ o.addr = a.addr ∧
      o.typ = (match t with | .float => 5 | .double => 6) ∧ o.bytes.length = (match t with | .float => 4 | .double => 8) ∧
      leVal o.bytes = a.bits) ∧
    t.call (.get s p) = .queue (.get ⟨s, p, match t with | .float => 5 | .double => 6⟩) ∧
    t.call (.getop s p n op) = .queue (.getop ⟨s, p, match t with | .float => 5 | .double => 6, n, op⟩) := by
  cases t
  · exact ⟨⟨_, rfl, rfl, rfl, length_leBytes _ _, leVal_leBytes 4 _ (by simpa using ht)⟩, rfl, rfl⟩
  · exact ⟨⟨_, rfl, rfl, rfl, length_leBytes _ _, leVal_leBytes 8 _ (by simpa using ht)⟩, rfl, rfl⟩

private theorem run_queue {σ : Type} (build : Config.Build) (keys : List Bytes) (b : Session.Backend σ) (e : Session.Env) (s : σ) :
    ∀ (cs : List Queue.Call) (p : Session.Priv), p.opts.running = true →
    (Session.run build keys b (cs.map (fun c => (e, Session.Call.queue c))) s (.some p) >>= fun r => .ok (r.1, r.2.1)) =
      (Queue.calls (p.cfg e) true p.queues cs >>= fun q => .ok (s, .some { p with queues := q }))
  | [], p, _ => rfl
  | c :: cs, p, hp => by
    simp only [List.map_cons, Session.run, Session.step, Session.queueing, hp, if_true, Session.queued, Queue.calls, Queue.call]
    cases h : Queue.exec (p.cfg e) p.queues c with
    | err => rfl
    | ub => rfl
    | ok r =>
      simp only [Out.ok_bind]
      have := run_queue build keys b e s cs { p with queues := r.1 } hp
      rw [show ({ p with queues := r.1 } : Session.Priv).cfg e = p.cfg e from rfl] at this
      rw [← this]
      cases Session.run build keys b (cs.map (fun c => (e, Session.Call.queue c))) s (.some { p with queues := r.1 }) <;> rfl

/-- C84: the bulk GET of floats or doubles leaves the session as the same single GETs one after the other do. -/
theorem C84_bulk_get {σ : Type} (build : Config.Build) (keys : List Bytes) (b : Session.Backend σ) (e : Session.Env) (s : σ) (t : NumTy)
    (p : Session.Priv) (hp : p.opts.running = true) (l : List (Blob × Blob)) (hl : ∀ a ∈ l, Given a.1 ∧ Given a.2) :
    (Session.step build keys b e s (.some p) (t.call (.bget true true l)) >>= fun r => .ok (r.1, r.2.1)) =
      (Session.run build keys b (l.map (fun a => (e, t.call (.get a.1 a.2)))) s (.some p) >>= fun r => .ok (r.1, r.2.1)) := by
  have h1 := (C47_single_type_partial (p.cfg e) p.queues t.typ).2 (l.map (fun a => ⟨a.1, a.2, t.typ⟩)) (by
    intro a ha
    obtain ⟨x, hx, rfl⟩ := List.mem_map.mp ha
    exact hl x hx)
  have h2 := run_queue build keys b e s (l.map (fun a => .get ⟨a.1, a.2, t.typ⟩)) p hp
  rw [List.map_map] at h1 h2
  rw [show (fun c => (e, Session.Call.queue c)) ∘ (fun a : Blob × Blob => Queue.Call.get ⟨a.1, a.2, t.typ⟩) =
    (fun a => (e, t.call (.get a.1 a.2))) from rfl] at h2
  rw [h2]
  rw [show (fun a : Queue.GetArg => Queue.Call.get ⟨a.s, a.p, t.typ⟩) ∘ (fun a : Blob × Blob => (⟨a.1, a.2, t.typ⟩ : Queue.GetArg)) =
    (fun a => Queue.Call.get ⟨a.1, a.2, t.typ⟩) from rfl] at h1
  rw [← h1]
  simp only [NumTy.call, Session.step, Session.queueing, hp, if_true, Session.queued]
  cases Queue.bgetSingle (p.cfg e) p.queues true true (l.map (fun a => ⟨a.1, a.2, t.typ⟩)) t.typ <;> rfl

/-- C84: with asynchronous PUTs, the bulk PUT of floats or doubles leaves the session as the same single PUTs one after the other do.
Without asynchronous PUTs it sends them at once, and nobody gets the results (`C47_put_single_false`). -/
theorem C84_bulk_put_partial {σ : Type} (build : Config.Build) (keys : List Bytes) (b : Session.Backend σ) (e : Session.Env) (s : σ)
    (t : NumTy) (p : Session.Priv) (hp : p.opts.running = true) (ha : p.opts.asyncEnabled = true) (l : List NumArg) (hne : l ≠ [])
    (hl : ∀ a ∈ l, Given a.s ∧ Given a.p ∧ a.addr ≠ 0) :
    (Session.step build keys b e s (.some p) (t.call (.bput true true l)) >>= fun r => .ok (r.1, r.2.1)) =
      (Session.run build keys b (l.map (fun a => (e, t.call (.put a)))) s (.some p) >>= fun r => .ok (r.1, r.2.1)) := by
  have hgiven : ∀ a ∈ l.map t.arg, Given a.s ∧ Given a.p ∧ Given a.o := by
    intro a ha
    obtain ⟨x, hx, rfl⟩ := List.mem_map.mp ha
    obtain ⟨g1, g2, g3⟩ := hl x hx
    refine ⟨g1, g2, g3, ?_⟩
    intro h
    have := congrArg List.length h
    rw [show (t.arg x).o.bytes = leBytes t.size x.bits from rfl, length_leBytes] at this
    cases t <;> cases this
  have h1 := (C47_single_type_partial (p.cfg e) p.queues t.typ).1 (l.map t.arg) hgiven
  have h2 := run_queue build keys b e s (l.map (fun a => .put (t.arg a))) p hp
  rw [List.map_map] at h1 h2
  rw [show (fun c => (e, Session.Call.queue c)) ∘ (fun a => Queue.Call.put (t.arg a)) = (fun a => (e, t.call (.put a))) from rfl] at h2
  rw [h2]
  rw [show (fun a : Queue.PutArg => Queue.Call.put ⟨a.s, a.p, ⟨a.o.addr, a.o.bytes, t.typ⟩, a.mask⟩) ∘ t.arg =
    (fun a => Queue.Call.put (t.arg a)) from rfl] at h1
  rw [← h1]
  have hemp : (true && !l.isEmpty) = true := by
    cases l with
    | nil => exact absurd rfl hne
    | cons => rfl
  simp only [NumTy.call, hemp, Session.step, Session.queueing, hp, if_true, Session.putSinglePriv]
  cases Queue.bputSingle (p.cfg e) p.queues true true (l.map t.arg) t.typ with
  | err => rfl
  | ub => rfl
  | ok r =>
    simp only [Out.ok_bind]
    rw [if_pos (Or.inr ha)]
    rfl

/-- C84 is false for bulk PUTs of no numbers: the call fails, in any session, while `BPut` of no operations succeeds. -/
theorem C84_no_numbers_false {σ : Type} (build : Config.Build) (keys : List Bytes) (b : Session.Backend σ) (e : Session.Env) (s : σ)
    (t : NumTy) (p : Session.Priv) (hp : p.opts.running = true) :
    Session.step build keys b e s (.some p) (t.call (.bput true true [])) = .ok (s, .some p, .code false) ∧
    Session.step build keys b e s (.some p) (.queue (.bput true [])) = .ok (s, .some p, .code true) := by
  constructor
  · simp only [NumTy.call, Session.step, Session.queueing, hp, if_true, Session.putSinglePriv, Queue.bputSingle]
    rfl
  · simp only [Session.step, Session.queueing, hp, if_true, Session.queued]
    rfl

/-- C84 is false for bulk GETOPs: with all arrays given, the call fails and queues nothing. -/
theorem C84_bulk_getop_false {σ : Type} (build : Config.Build) (keys : List Bytes) (b : Session.Backend σ) (e : Session.Env) (s : σ)
    (t : NumTy) (p : Session.Priv) (hp : p.opts.running = true) (l : List (Blob × Blob × Nat × Nat)) :
    Session.step build keys b e s (.some p) (t.call (.bgetop true true l)) = .ok (s, .some p, .code false) := by
  simp only [NumTy.call, Session.step, Session.queueing, hp, if_true, Session.queued, C47_single_type_getop_refused, Out.ok_bind]

/-! ## End to end -/

/-- As `PlainOp`, with numbers that come back close among the objects. -/
def NumOp : Op → Prop
  | .put s p o => PlainSent s ∧ PlainSent p ∧
      ((PlainSent o ∧ o.bytes ≠ []) ∨ (NumObj o ∧ o.addr < 2 ^ 64 ∧ o.bytes.length < 2 ^ 64))
  | x => PlainOp x

/-- What the default callbacks make of plain values and numbers, with the C library `lib` and the precisions of the datastore. -/
abbrev numbers (lib : Libm) (neg pos : UInt8) (fprec dprec : Nat) : Transform := numberTransform neg pos (codec lib neg pos fprec dprec)

abbrev numberCallbacks (lib : Libm) (neg pos : UInt8) (fprec dprec : Nat) : Callbacks :=
  defaultCallbacks neg pos (codec lib neg pos fprec dprec)

/-- C84: operations with such numbers can be used in jobs. -/
theorem C84_operations {lib : Libm} (hl : LibmOk lib) {neg pos : UInt8} (hs : Elen.Symbols neg pos) {fprec dprec : Nat} (hf : 2 ≤ fprec)
    (hd : 2 ≤ dprec) (heap : Nat) (hh : heap ≠ 0) (x : Op) (hx : NumOp x) :
    OpOk (numberCallbacks lib neg pos fprec dprec) (numbers lib neg pos fprec dprec) heap x := by
  have sent : ∀ b, PlainSent b → Sent (numberCallbacks lib neg pos fprec dprec) heap b := by
    rintro b ⟨h1, h2, h3, h4⟩
    have := h1.typ
    exact ⟨⟨⟨h1.len, by omega, h3⟩, h2⟩, C31_default_callbacks neg pos _ heap hh b h2 h4⟩
  have key : ∀ b, PlainSent b → KeyOk (numberCallbacks lib neg pos fprec dprec) (numbers lib neg pos fprec dprec) b :=
    fun b h => num_keyOk hs _ h.1
  cases x with
  | put s p o =>
    obtain ⟨h1, h2, h3⟩ := hx
    rcases h3 with ⟨h3, h4⟩ | ⟨h3, h4, h5⟩
    · obtain ⟨g1, -, g2⟩ := num_objOk hl hs hf hd (Or.inl h3.1)
      have hn : ¬ (o.val.typ = tFloat ∨ o.val.typ = tDouble) := by
        rintro (h | h)
        · exact h3.1.notFloat.1 h
        · exact h3.1.notFloat.2 h
      rw [if_neg hn] at g2
      have g2 : (numbers lib neg pos fprec dprec).R o.val = o.bytes := g2
      exact ⟨⟨key s h1, key p h2, g1⟩, ⟨sent s h1, sent p h2, sent o h3⟩, by rw [g2]; exact h4, by rw [g2]; exact h3.1.len⟩
    · obtain ⟨g1, -, g2⟩ := num_objOk hl hs hf hd (Or.inr h3)
      have hn : o.val.typ = tFloat ∨ o.val.typ = tDouble := h3.typ
      rw [if_pos hn] at g2
      have g2 : ((numbers lib neg pos fprec dprec).R o.val).length = numSize o.typ := g2.1
      have hsize : 0 < numSize o.typ ∧ numSize o.typ < 2 ^ 64 := by unfold numSize; split <;> decide
      have hne : o.bytes ≠ [] := by
        intro h
        have := h3.size
        rw [h, List.length_nil] at this
        omega
      refine ⟨⟨key s h1, key p h2, g1⟩, ⟨sent s h1, sent p h2, ⟨⟨h5, g1.typ, h4⟩, h3.addr⟩,
        C31_default_callbacks neg pos _ heap hh o h3.addr (Or.inl hne)⟩, ?_, by rw [g2]; exact hsize.2⟩
      intro h
      rw [h, List.length_nil] at g2
      omega
  | get s p ty =>
    obtain ⟨h1, h2, h3⟩ := hx
    exact ⟨⟨key s h1, key p h2⟩, ⟨sent s h1, sent p h2⟩, h3⟩
  | getop op s p ty n =>
    obtain ⟨h1, h2, h3, h4, h5⟩ := hx
    exact ⟨fun _ => ⟨sent s h1, sent p h2⟩, h3, h4, h5⟩
  | del s p => exact ⟨⟨key s hx.1, key p hx.2⟩, sent s hx.1, sent p hx.2⟩
  | hist rs name => exact hx

/-- The number `x` of type `t` that was PUT came back in `v`: the type is the same, and the number is close. -/
def CameBack (fprec dprec : Nat) (t : NumTy) (x : ℚ) (v : Blob) : Prop :=
  v.typ = t.typ ∧ v.bytes.length = t.size ∧ ∃ z, (numberIn t.typ v.bytes).value = some z ∧
    |z - x| ≤ |x| * relErr t.typ (match t with | .float => fprec | .double => dprec) 8

/-- The bits of a number that comes back: zero, or neither too large nor too small, and its exponent is not lost (C59). -/
def Kept (t : NumTy) (bits : Nat) (x : ℚ) : Prop :=
  (match t with
    | .float => bits < 2 ^ 32 ∧ (ieee 8 23 bits).value = some x
    | .double => bits < 2 ^ 64 ∧ (ieee 11 52 bits).value = some x) ∧ (x = 0 ∨ Moderate t.typ x ∧ ¬ LosesExponent x)

theorem kept_numberIn {t : NumTy} {bits : Nat} {x : ℚ} (h : Kept t bits x) (addr : Nat) :
    (numberIn t.typ (t.object addr bits).bytes).value = some x := by
  cases t with
  | float =>
    obtain ⟨⟨h1, h2⟩, -⟩ := h
    show (ieee 8 23 (leVal ((leBytes 4 bits).take 4))).value = _
    rw [List.take_of_length_le (by simp), leVal_leBytes 4 _ (by simpa using h1), h2]
  | double =>
    obtain ⟨⟨h1, h2⟩, -⟩ := h
    show (ieee 11 52 (leVal ((leBytes 8 bits).take 8))).value = _
    rw [List.take_of_length_le (by simp), leVal_leBytes 8 _ (by simpa using h1), h2]

theorem kept_obj {t : NumTy} {bits : Nat} {x : ℚ} (h : Kept t bits x) {addr : Nat} (ha : addr ≠ 0) : NumObj (t.object addr bits) := by
  refine ⟨?_, ha, ?_, x, kept_numberIn h addr, h.2⟩
  · cases t
    · exact Or.inl rfl
    · exact Or.inr rfl
  · show numSize t.typ ≤ (leBytes t.size bits).length
    rw [length_leBytes]
    cases t <;> decide

/-- C84: a call of `PutFloat` or `PutDouble` asks for the PUT of a number that can be used in jobs, and `GetFloat` or `GetDouble` for a
GET. -/
theorem C84_calls (hash : Bytes → Bytes → Out Int) (servers : Nat) (t : NumTy) (a : NumArg) (x : ℚ) (hk : Kept t a.bits x)
    (hs : PlainSent a.s ∧ a.s.bytes ≠ []) (hp : PlainSent a.p ∧ a.p.bytes ≠ []) (ha : a.addr ≠ 0 ∧ a.addr < 2 ^ 64) (hm : a.mask = 1)
    (hh : (home hash a.s a.p).isSome = true) :
    ops hash servers (.put (t.arg a)) = [.put a.s a.p (t.object a.addr a.bits)] ∧ NumOp (.put a.s a.p (t.object a.addr a.bits)) ∧
    ops hash servers (.get ⟨a.s, a.p, t.typ⟩) = [.get a.s a.p t.typ] ∧ NumOp (.get a.s a.p t.typ) := by
  have hlen : (leBytes t.size a.bits).length = t.size := length_leBytes _ _
  have hne : leBytes t.size a.bits ≠ [] := by
    intro h
    rw [h] at hlen
    cases t <;> cases hlen
  refine ⟨?_, ⟨hs.1, hp.1, Or.inr ⟨kept_obj hk ha.1, ha.2, ?_⟩⟩, ?_, hs.1, hp.1, ?_⟩
  · have hg : Given (t.arg a).s ∧ Given (t.arg a).p ∧ Given (t.arg a).o := ⟨⟨hs.1.2.1, hs.2⟩, ⟨hp.1.2.1, hp.2⟩, ha.1, hne⟩
    unfold ops
    simp only
    rw [if_pos hg]
    have hw : wanted (t.arg a) = [(a.s, a.p, t.object a.addr a.bits)] := by
      unfold wanted
      rw [show (t.arg a).mask = 1 from hm]
      rfl
    unfold putOps
    rw [hw]
    simp only [List.takeWhile_cons, hh, if_true, List.takeWhile_nil, List.map_cons, List.map_nil]
  · show (leBytes t.size a.bits).length < 2 ^ 64
    rw [hlen]
    cases t <;> decide
  · unfold ops
    simp only
    rw [if_pos ⟨⟨hs.1.2.1, hs.2⟩, hp.1.2.1, hp.2⟩]
    unfold placed dest
    rw [if_pos hh]
  · cases t <;> decide

private theorem cameBack {lib : Libm} (hl : LibmOk lib) {neg pos : UInt8} (hs : Elen.Symbols neg pos) {fprec dprec : Nat} (hf : 2 ≤ fprec)
    (hd : 2 ≤ dprec) {t : NumTy} {addr bits : Nat} (ha : addr ≠ 0) {x : ℚ} (hk : Kept t bits x) {v : Blob}
    (h1 : v.bytes = (numbers lib neg pos fprec dprec).R (t.object addr bits).val) (h2 : v.typ = (t.object addr bits).typ) :
    CameBack fprec dprec t x v := by
  obtain ⟨-, -, g⟩ := num_objOk hl hs hf hd (Or.inr (kept_obj hk ha))
  have hn : (t.object addr bits).val.typ = tFloat ∨ (t.object addr bits).val.typ = tDouble := by
    cases t
    · exact Or.inl rfl
    · exact Or.inr rfl
  rw [if_pos hn] at g
  obtain ⟨g1, x', z, g2, g3, g4⟩ := g
  obtain rfl : x' = x := Option.some.inj (g2.symm.trans (kept_numberIn hk addr))
  have g1 : v.bytes.length = numSize t.typ := by rw [h1]; exact g1
  refine ⟨h2, ?_, z, by rw [h1]; exact g3, ?_⟩
  · rw [g1]; cases t <;> rfl
  · cases t <;> exact g4

/-- The default callbacks store all numbers that are kept. -/
private theorem kept_accepts {lib : Libm} (hl : LibmOk lib) {neg pos : UInt8} (hs : Elen.Symbols neg pos) {fprec dprec : Nat}
    (hf : 2 ≤ fprec) (hd : 2 ≤ dprec) {t : NumTy} {addr bits : Nat} (ha : addr ≠ 0) {x : ℚ} (hk : Kept t bits x) :
    (numbers lib neg pos fprec dprec).accepts (t.object addr bits).val = true := by
  have h := kept_obj hk ha
  obtain ⟨a, m, c1, -, -⟩ := num_obj hl hs hf hd h
  have : (numbers lib neg pos fprec dprec).E (t.object addr bits).val = some a := numE h.typ c1
  unfold Transform.accepts
  rw [this]
  rfl

/-- C84, partial: flush `a` PUTs a float or double with `PutFloat` or `PutDouble`, and is told that it succeeded; it is over before flush
`b` of any rank begins, and no other flush in between changes the pair. Then the GET of the pair in `b` returns a float or double that
is close to it. Writes may fail, flushes may overlap, as in `C78_partial`. Missing: as `C78_partial`, and the numbers missing in C59. -/
theorem C84_back_partial {lib : Libm} (hl : LibmOk lib) {neg pos : UInt8} (hs : Elen.Symbols neg pos) {fprec dprec : Nat} (hf : 2 ≤ fprec)
    (hd : 2 ≤ dprec) (hash : Bytes → Bytes → Out Int) (place : List Int) (heap : Nat)
    (hheap : heap ≠ 0 ∧ heap < 2 ^ 64) (hplace : place.length ≤ 2 ^ 31) (turns : List Turn) (w w' : World) (log : List Served)
    (rs : List Results) (hw : EmptyWorld w)
    (hturns : ∀ y ∈ turns, TurnOk (numberCallbacks lib neg pos fprec dprec) (numbers lib neg pos fprec dprec) hash place y)
    (h : Overlap (numberCallbacks lib neg pos fprec dprec) heap place.length w turns log w' rs)
    (a b : Nat) (xa xb : Turn) (ra rb : Results) (ha : turns[a]? = some xa) (hb : turns[b]? = some xb)
    (hra : rs[a]? = some ra) (hrb : rs[b]? = some rb) (hab : a ≠ b) (hfin : Finished log a b)
    (t : NumTy) (s p s' p' : Blob) (addr bits : Nat) (haddr : addr ≠ 0) (x : ℚ) (hk : Kept t bits x) (ty : Nat) (first last : List Op)
    (hput : turnOps hash xa = first ++ Op.put s p (t.object addr bits) :: last) (hlast : ∀ y ∈ last, ¬ Writes s.val p.val y)
    (hdel : ∀ s₁ p₁, Op.del s₁ p₁ ∈ first → ¬ (s₁.val = s.val ∧ p₁.val = p.val))
    (haccept : (numbers lib neg pos fprec dprec).accepts s.val = true ∧ (numbers lib neg pos fprec dprec).accepts p.val = true)
    (hstatus : ∀ y ∈ ra.items, y.kind = .put → y.subject = .ref ⟨s.addr, s.bytes.length, s.typ⟩ →
      y.predicate = .ref ⟨p.addr, p.bytes.length, p.typ⟩ → y.status = hxSuccess)
    (hothers : ∀ k x r, turns[k]? = some x → rs[k]? = some r → k ≠ a → k ≠ b →
      Unchanged hash s.val p.val x r ∨ Finished log k a ∨ Finished log b k)
    (hown : (∀ s₁ p₁ o₁, Op.put s₁ p₁ o₁ ∈ turnOps hash xb → ¬ (s₁.val = s.val ∧ p₁.val = p.val)) ∨ NoneWritten rb)
    (hget : Op.get s' p' ty ∈ turnOps hash xb) (hsame : s'.val = s.val ∧ p'.val = p.val) :
    ∃ y ∈ rb.items, y.kind = .get ∧ y.subject = .ref ⟨s'.addr, s'.bytes.length, s'.typ⟩ ∧
      y.predicate = .ref ⟨p'.addr, p'.bytes.length, p'.typ⟩ ∧ y.status = hxSuccess ∧
      ∃ v : Blob, y.object = .own v ∧ CameBack fprec dprec t x v := by
  obtain ⟨y, hy, h1, h2, h3, h4, v, h5, h6, h7⟩ := C78_partial _ _ hash place heap hheap hplace turns w w' log rs hw hturns h a b xa xb ra
    rb ha hb hra hrb hab hfin s p (t.object addr bits) s' p' ty first last hput hlast hdel
    ⟨haccept.1, haccept.2, kept_accepts hl hs hf hd haddr hk⟩ hstatus hothers hown hget hsame
  exact ⟨y, hy, h1, h2, h3, h4, v, h5, cameBack hl hs hf hd haddr hk h6 h7⟩

/-- C84 for ranks that take turns, partial: as `C84_back_partial`; since all writes succeed, nothing has to be assumed of the results.
Missing: as `C48_partial`, and the numbers missing in C59. -/
theorem C84_turns_partial {lib : Libm} (hl : LibmOk lib) {neg pos : UInt8} (hs : Elen.Symbols neg pos) {fprec dprec : Nat} (hf : 2 ≤ fprec)
    (hd : 2 ≤ dprec) (hash : Bytes → Bytes → Out Int) (place : List Int) (heap : Nat)
    (hheap : heap ≠ 0 ∧ heap < 2 ^ 64) (hplace : place.length ≤ 2 ^ 31) (before between : List Turn) (a b : Turn)
    (w w' : World) (rs : List Results) (r : Results) (hw : FreshWorld w)
    (hturns : ∀ y ∈ before ++ a :: between ++ [b],
      TurnOk (numberCallbacks lib neg pos fprec dprec) (numbers lib neg pos fprec dprec) hash place y)
    (h : run (numberCallbacks lib neg pos fprec dprec) heap place.length w (before ++ a :: between ++ [b]) = .ok (w', rs ++ [r]))
    (t : NumTy) (s p s' p' : Blob) (addr bits : Nat) (haddr : addr ≠ 0) (x : ℚ) (hk : Kept t bits x) (ty : Nat) (first last : List Op)
    (hput : turnOps hash a = first ++ Op.put s p (t.object addr bits) :: last) (hlast : ∀ y ∈ last, ¬ Writes s.val p.val y)
    (hdel : ∀ s₁ p₁, Op.del s₁ p₁ ∈ first → ¬ (s₁.val = s.val ∧ p₁.val = p.val))
    (haccept : (numbers lib neg pos fprec dprec).accepts s.val = true ∧ (numbers lib neg pos fprec dprec).accepts p.val = true)
    (hbetween : ∀ y ∈ between, ∀ z ∈ turnOps hash y, ¬ Writes s.val p.val z)
    (hb : ∀ s₁ p₁ o₁, Op.put s₁ p₁ o₁ ∈ turnOps hash b → ¬ (s₁.val = s.val ∧ p₁.val = p.val))
    (hget : Op.get s' p' ty ∈ turnOps hash b) (hsame : s'.val = s.val ∧ p'.val = p.val) :
    ∃ y ∈ r.items, y.kind = .get ∧ y.subject = .ref ⟨s'.addr, s'.bytes.length, s'.typ⟩ ∧
      y.predicate = .ref ⟨p'.addr, p'.bytes.length, p'.typ⟩ ∧ y.status = hxSuccess ∧
      ∃ v : Blob, y.object = .own v ∧ CameBack fprec dprec t x v := by
  obtain ⟨y, hy, h1, h2, h3, h4, v, h5, h6, h7⟩ := C48_partial _ _ hash place heap hheap hplace before between a b w w' rs r hw hturns h
    s p (t.object addr bits) s' p' ty first last hput hlast hdel ⟨haccept.1, haccept.2, kept_accepts hl hs hf hd haddr hk⟩
    hbetween hb hget hsame
  exact ⟨y, hy, h1, h2, h3, h4, v, h5, cameBack hl hs hf hd haddr hk h6 h7⟩

/-- C84 for sessions one after the other, partial: the flush with the PUT is of one of the sessions `l`, that with the GET of one of the
later sessions `l'`, which may have other layouts, on the same LevelDB directories. Missing: as `C83_partial`, and the numbers missing in
C59. -/
theorem C84_later_partial {lib : Libm} (hl : LibmOk lib) {neg pos : UInt8} (hs : Elen.Symbols neg pos) {fprec dprec : Nat} (hf : 2 ≤ fprec)
    (hd : 2 ≤ dprec) (hash : Bytes → Bytes → Out Int) (pre base post : Bytes) (total : Nat)
    (htotal : total ≤ 2 ^ 31) (l l' : List Session) (disk disk' : Disk) (he : EmptyDisk pre base post total disk)
    (hok : ∀ s ∈ l ++ l', SessionOk (numberCallbacks lib neg pos fprec dprec) (numbers lib neg pos fprec dprec) hash pre base post total s)
    (hh : HistsApart (numbers lib neg pos fprec dprec) hash (l ++ l')) (h : runs (numberCallbacks lib neg pos fprec dprec) disk (l ++ l') disk')
    (a b : Nat) (xa xb : Turn) (ra rb : Results) (ha : (allTurns l)[a]? = some xa) (hb : (allTurns l')[b]? = some xb)
    (hra : (allResults l)[a]? = some ra) (hrb : (allResults l')[b]? = some rb)
    (t : NumTy) (s p s' p' : Blob) (addr bits : Nat) (haddr : addr ≠ 0) (x : ℚ) (hk : Kept t bits x) (ty : Nat) (first last : List Op)
    (hput : turnOps hash xa = first ++ Op.put s p (t.object addr bits) :: last) (hlast : ∀ y ∈ last, ¬ Writes s.val p.val y)
    (hdel : ∀ s₁ p₁, Op.del s₁ p₁ ∈ first → ¬ (s₁.val = s.val ∧ p₁.val = p.val))
    (haccept : (numbers lib neg pos fprec dprec).accepts s.val = true ∧ (numbers lib neg pos fprec dprec).accepts p.val = true)
    (hstatus : ∀ y ∈ ra.items, y.kind = .put → y.subject = .ref ⟨s.addr, s.bytes.length, s.typ⟩ →
      y.predicate = .ref ⟨p.addr, p.bytes.length, p.typ⟩ → y.status = hxSuccess)
    (hothers : ∀ k x r, (allTurns (l ++ l'))[k]? = some x → (allResults (l ++ l'))[k]? = some r → k ≠ a →
      k ≠ (allTurns l).length + b → Unchanged hash s.val p.val x r ∨ Finished (allLog 0 (l ++ l')) k a ∨
        Finished (allLog 0 (l ++ l')) ((allTurns l).length + b) k)
    (hown : (∀ s₁ p₁ o₁, Op.put s₁ p₁ o₁ ∈ turnOps hash xb → ¬ (s₁.val = s.val ∧ p₁.val = p.val)) ∨ NoneWritten rb)
    (hget : Op.get s' p' ty ∈ turnOps hash xb) (hsame : s'.val = s.val ∧ p'.val = p.val) :
    ∃ y ∈ rb.items, y.kind = .get ∧ y.subject = .ref ⟨s'.addr, s'.bytes.length, s'.typ⟩ ∧
      y.predicate = .ref ⟨p'.addr, p'.bytes.length, p'.typ⟩ ∧ y.status = hxSuccess ∧
      ∃ v : Blob, y.object = .own v ∧ CameBack fprec dprec t x v := by
  obtain ⟨y, hy, h1, h2, h3, h4, v, h5, h6, h7⟩ := C83_partial _ _ hash pre base post total htotal l l' disk disk' he hok hh h a b xa xb ra
    rb ha hb hra hrb s p (t.object addr bits) s' p' ty first last hput hlast hdel
    ⟨haccept.1, haccept.2, kept_accepts hl hs hf hd haddr hk⟩ hstatus hothers hown hget hsame
  exact ⟨y, hy, h1, h2, h3, h4, v, h5, cameBack hl hs hf hd haddr hk h6 h7⟩

/-! ## Sessions the theorems apply to -/

private theorem swap_calls {cb cb' : Callbacks} {t t' : Transform} {hash : Bytes → Bytes → Out Int} {place : List Int} {c : Queue.Cfg}
    {n : Net} {calls : List Queue.Call} (h : TurnOk cb t hash place ⟨c, n, []⟩)
    (hops : ∀ o ∈ turnOps hash ⟨c, n, calls⟩, OpOk cb' t' n.heap o) : TurnOk cb' t' hash place ⟨c, n, calls⟩ :=
  ⟨h.sameHash, h.samePlace, h.routed, h.maxOps, h.rank, h.address, hops⟩

/-- C84: as `C48_thallium_sessions`, with numbers. -/
theorem C84_thallium_sessions {lib : Libm} (hl : LibmOk lib) {neg pos : UInt8} (hs : Elen.Symbols neg pos) {fprec dprec : Nat}
    (hf : 2 ≤ fprec) (hd : 2 ≤ dprec) (l : Layout) (hv : l.Valid) (ha : Aligned l) (k : Hash.Kind) (hk : k ≠ .rankMod) (rank : Nat)
    (hrank : rank < 2 ^ 31) (group : List Nat) (hg : group = [] ∨ ∀ i < l.total, group.contains i = true) (order : ReqList → ReqList)
    (hp : ∀ l, (order l).Perm l) (heap : Nat) (hh : heap ≠ 0 ∧ heap < 2 ^ 64) (junk : Nat → Bytes) (maxOps maxSize servers : Nat)
    (hm : maxOps < 2 ^ 64) (calls : List Queue.Call) (hops : ∀ c ∈ calls, ∀ o ∈ ops (Hash.hxhimHash k 0 l.total) servers c, NumOp o) :
    TurnOk (numberCallbacks lib neg pos fprec dprec) (numbers lib neg pos fprec dprec) (Hash.hxhimHash k 0 l.total) (placeOf l)
      ⟨⟨Hash.hxhimHash k rank l.total, maxOps, maxSize, servers⟩,
        Layout.net l rank (.thallium (thalliumEndpoints l rank group)) order hp heap junk, calls⟩ := by
  refine swap_calls (C48_thallium_sessions hs (codec lib neg pos fprec dprec) l hv ha k hk rank hrank group hg order hp heap hh junk
    maxOps maxSize servers hm [] (by simp)) ?_
  intro o ho
  obtain ⟨c, hc, ho⟩ := List.mem_flatMap.mp ho
  exact C84_operations hl hs hf hd heap hh.1 o (hops c hc o ho)

/-- C84: as `C83_one_rank`, with numbers. -/
theorem C84_one_rank {lib : Libm} (hl : LibmOk lib) {neg pos : UInt8} (hs : Elen.Symbols neg pos) {fprec dprec : Nat}
    (hf : 2 ≤ fprec) (hd : 2 ≤ dprec) (l : Layout) (hv : l.Valid)
    (h1 : l.size = 1) (k : Hash.Kind) (tr : Transport) (order : ReqList → ReqList) (hp : ∀ l, (order l).Perm l)
    (heap : Nat) (hh : heap ≠ 0 ∧ heap < 2 ^ 64) (junk : Nat → Bytes) (maxOps maxSize servers : Nat) (hm : maxOps < 2 ^ 64)
    (calls : List Queue.Call) (hops : ∀ c ∈ calls, ∀ o ∈ ops (Hash.hxhimHash k 0 l.total) servers c, NumOp o) :
    TurnOk (numberCallbacks lib neg pos fprec dprec) (numbers lib neg pos fprec dprec) (Hash.hxhimHash k 0 l.total) (placeOf l)
      ⟨⟨Hash.hxhimHash k 0 l.total, maxOps, maxSize, servers⟩, Layout.net l 0 tr order hp heap junk, calls⟩ := by
  refine swap_calls (C83_one_rank hs (codec lib neg pos fprec dprec) l hv h1 k tr order hp heap hh junk maxOps maxSize servers hm [] (by simp)) ?_
  intro o ho
  obtain ⟨c, hc, ho⟩ := List.mem_flatMap.mp ho
  exact C84_operations hl hs hf hd heap hh.1 o (hops c hc o ho)

/-! ## Examples -/

namespace C84Ex
open C82Ex (key)

/-- A flush of `rank`; there are two ranks with a datastore each. -/
def turn (rank : Nat) (calls : List Queue.Call) : Turn := ⟨⟨Hash.hxhimHash .ber rank 2, 10, 0, 2⟩, C82Ex.net rank, calls⟩

/-- The double with these bits, with subject 1 and predicate 4. -/
def arg (bits : Nat) : NumArg := ⟨key 16 1, key 32 4, 48, bits, 1⟩

def put (bits : Nat) : Turn := turn 0 [.put (NumTy.double.arg (arg bits))]
def get : Turn := turn 1 [.get ⟨key 64 1, key 80 4, NumTy.double.typ⟩]

def world : World := ⟨fun _ => [⟨.mem, [], true, [], 0, 0, 0⟩], fun _ => true, 0⟩

theorem kept : Kept .double 0x3ff8000000000000 (3 / 2) :=
  ⟨⟨by decide, by decide +kernel⟩, Or.inr ⟨by unfold Moderate; decide +kernel, by unfold LosesExponent; decide +kernel⟩⟩

theorem zero : Kept .double 0 0 := ⟨⟨by decide, by decide +kernel⟩, Or.inl rfl⟩

theorem turn_ok (rank : Nat) (hr : rank < 2) (calls : List Queue.Call)
    (hops : ∀ c ∈ calls, ∀ o ∈ ops (Hash.hxhimHash .ber 0 2) 2 c, NumOp o) :
    TurnOk (numberCallbacks exLibm 0x2f 0x3a 8 16) (numbers exLibm 0x2f 0x3a 8 16) (Hash.hxhimHash .ber 0 2) (placeOf ⟨2, 1, 1, 1⟩)
      (turn rank calls) :=
  C84_thallium_sessions exLibm_ok ⟨by decide, by decide⟩ (by decide) (by decide) ⟨2, 1, 1, 1⟩ (by decide) ⟨rfl, Or.inl (Nat.le_refl _)⟩
    .ber (by decide) rank (by omega) [] (Or.inl rfl) id (fun _ => List.Perm.refl _) 4096 (by decide) (fun n => List.replicate n 0) 10 0 2
    (by decide) calls hops

theorem keyOk (a : Nat) (b : UInt8) (ha : a ≠ 0) (ha' : a < 2 ^ 64) : PlainSent (key a b) ∧ (key a b).bytes ≠ [] :=
  ⟨C82Ex.keyPlain a b ha ha', by simp [key]⟩

theorem put_ops {bits : Nat} {x : ℚ} (h : Kept .double bits x) (servers : Nat) :
    ops (Hash.hxhimHash .ber 0 2) servers (.put (NumTy.double.arg (arg bits))) =
      [.put (key 16 1) (key 32 4) (NumTy.double.object 48 bits)] ∧
    NumOp (.put (key 16 1) (key 32 4) (NumTy.double.object 48 bits)) := by
  obtain ⟨h1, h2, -⟩ := C84_calls (Hash.hxhimHash .ber 0 2) servers .double (arg bits) x h (keyOk 16 1 (by decide) (by decide))
    (keyOk 32 4 (by decide) (by decide)) ⟨by show 48 ≠ 0; decide, by show 48 < 2 ^ 64; decide⟩ rfl
    (by show (home _ (key 16 1) (key 32 4)).isSome = true; decide +kernel)
  exact ⟨h1, h2⟩

theorem get_ops (servers : Nat) : ops (Hash.hxhimHash .ber 0 2) servers (.get ⟨key 64 1, key 80 4, NumTy.double.typ⟩) =
      [.get (key 64 1) (key 80 4) tDouble] ∧ NumOp (.get (key 64 1) (key 80 4) tDouble) := by
  obtain ⟨-, -, h1, h2⟩ := C84_calls (Hash.hxhimHash .ber 0 2) servers .double ⟨key 64 1, key 80 4, 48, 0, 1⟩ 0 zero
    (keyOk 64 1 (by decide) (by decide)) (keyOk 80 4 (by decide) (by decide)) ⟨by show 48 ≠ 0; decide, by show 48 < 2 ^ 64; decide⟩ rfl
    (by show (home _ (key 64 1) (key 80 4)).isSome = true; decide +kernel)
  exact ⟨h1, h2⟩

theorem turns_ok {bits : Nat} {x : ℚ} (h : Kept .double bits x) : ∀ y ∈ [put bits, get],
    TurnOk (numberCallbacks exLibm 0x2f 0x3a 8 16) (numbers exLibm 0x2f 0x3a 8 16) (Hash.hxhimHash .ber 0 2) (placeOf ⟨2, 1, 1, 1⟩) y := by
  intro y hy
  simp only [List.mem_cons, List.not_mem_nil, or_false] at hy
  rcases hy with rfl | rfl
  · refine turn_ok 0 (by decide) _ ?_
    intro c hc o ho
    rw [List.mem_singleton.mp hc, (put_ops h 2).1, List.mem_singleton] at ho
    rw [ho]
    exact (put_ops h 2).2
  · refine turn_ok 1 (by decide) _ ?_
    intro c hc o ho
    rw [List.mem_singleton.mp hc, (get_ops 2).1, List.mem_singleton] at ho
    rw [ho]
    exact (get_ops 2).2

theorem put_turn {bits : Nat} {x : ℚ} (h : Kept .double bits x) :
    turnOps (Hash.hxhimHash .ber 0 2) (put bits) = [.put (key 16 1) (key 32 4) (NumTy.double.object 48 bits)] := by
  show List.flatMap _ [_] = _
  rw [List.flatMap_cons, List.flatMap_nil, List.append_nil]
  exact (put_ops h 2).1

theorem get_turn : turnOps (Hash.hxhimHash .ber 0 2) get = [.get (key 64 1) (key 80 4) tDouble] := by
  show List.flatMap _ [_] = _
  rw [List.flatMap_cons, List.flatMap_nil, List.append_nil]
  exact (get_ops 2).1

theorem accepts : (numbers exLibm 0x2f 0x3a 8 16).accepts (key 16 1).val = true ∧ (numbers exLibm 0x2f 0x3a 8 16).accepts (key 32 4).val = true :=
  ⟨rfl, rfl⟩

end C84Ex
open C84Ex

/-- Rank 0 PUTs the double 3/2, then rank 1 gets it: the job runs, the hypotheses of `C84_turns_partial` hold, and the number that comes
back is close to 3/2. -/
example : ∃ w' r q, run (numberCallbacks exLibm 0x2f 0x3a 8 16) 100 2 C84Ex.world [C84Ex.put 0x3ff8000000000000, C84Ex.get] = .ok (w', [r] ++ [q]) ∧
    ∃ y ∈ q.items, y.kind = .get ∧ y.status = hxSuccess ∧ ∃ v : Blob, y.object = .own v ∧ v.typ = tDouble ∧ v.bytes.length = 8 ∧
      ∃ z, (numberIn tDouble v.bytes).value = some z ∧ |z - 3 / 2| ≤ 1 / 10 ^ 12 := by
  have hfresh : FreshWorld C84Ex.world := by
    refine ⟨?_, fun _ => rfl⟩
    intro rank d hd
    rw [List.mem_singleton.mp hd]
    exact ⟨rfl, rfl⟩
  have hkey : ∀ {bits : Nat} {x : ℚ}, Kept .double bits x → ∀ y ∈ [C84Ex.put bits, C84Ex.get], ∀ o ∈ turnOps (Hash.hxhimHash .ber 0 2) y,
      ∀ op s p ty n, o ≠ Op.getop op s p ty n := by
    intro bits x h y hy o ho op s p ty n hc
    simp only [List.mem_cons, List.not_mem_nil, or_false] at hy
    subst hc
    rcases hy with rfl | rfl
    · rw [put_turn h, List.mem_singleton] at ho; cases ho
    · rw [get_turn, List.mem_singleton] at ho; cases ho
  obtain ⟨w', rs, h1, h2⟩ := C48_runs_partial (numberCallbacks exLibm 0x2f 0x3a 8 16) (numbers exLibm 0x2f 0x3a 8 16)
    (Hash.hxhimHash .ber 0 2) (placeOf ⟨2, 1, 1, 1⟩) 100 (by decide) (by decide) [C84Ex.put 0x3ff8000000000000, C84Ex.get] C84Ex.world hfresh
    ⟨fun _ _ => by simp [C84Ex.world], by intro rank d hd; rw [List.mem_singleton.mp hd]⟩ (turns_ok kept) (by
      intro y hy
      have hs : ∀ o ∈ turnOps (Hash.hxhimHash .ber 0 2) y, SimpleOp (numberCallbacks exLibm 0x2f 0x3a 8 16)
          (numbers exLibm 0x2f 0x3a 8 16) o := by
        intro o ho
        have := hkey kept y hy o ho
        cases o with
        | getop op s p ty n => exact absurd rfl (this _ _ _ _ _)
        | _ => trivial
      have hh : ∀ rank, HashOk ⟨Hash.hxhimHash .ber rank 2, 10, 0, 2⟩ 2 := by
        intro rank s p
        obtain ⟨d, hd⟩ : ∃ d, Hash.hxhimHash .ber rank 2 s p = .ok d := ⟨_, rfl⟩
        exact ⟨d, hd, (C25_in_range .ber rank 2 (by decide) (by decide) s p d hd).2⟩
      simp only [List.mem_cons, List.not_mem_nil, or_false] at hy
      rcases hy with rfl | rfl
      · exact ⟨hh 0, by decide, by decide, by intro c hc; rw [List.mem_singleton.mp hc]; exact ⟨rfl, rfl, rfl⟩, hs⟩
      · exact ⟨hh 1, by decide, by decide, by intro c hc; rw [List.mem_singleton.mp hc]; exact ⟨rfl, rfl⟩, hs⟩) (by
      rintro ⟨y, hy, h⟩
      exfalso
      apply h
      simp only [List.mem_cons, List.not_mem_nil, or_false] at hy
      rcases hy with rfl | rfl
      · rw [put_turn kept]; rfl
      · rw [get_turn]; rfl)
  match rs, h2 with
  | [r, q], _ =>
    have h1 : run (numberCallbacks exLibm 0x2f 0x3a 8 16) 100 (placeOf ⟨2, 1, 1, 1⟩).length C84Ex.world
        ([] ++ C84Ex.put 0x3ff8000000000000 :: [] ++ [C84Ex.get]) = .ok (w', [r] ++ [q]) := h1
    refine ⟨w', r, q, h1, ?_⟩
    obtain ⟨y, g1, g2, -, -, g3, v, g4, g5, g6, z, g7, g8⟩ := C84_turns_partial exLibm_ok (neg := 0x2f) (pos := 0x3a) ⟨by decide, by decide⟩
      (fprec := 8) (dprec := 16) (by decide) (by decide) (Hash.hxhimHash .ber 0 2) (placeOf ⟨2, 1, 1, 1⟩) 100 (by decide) (by decide) [] []
      (C84Ex.put 0x3ff8000000000000) C84Ex.get C84Ex.world w' [r] q hfresh (turns_ok kept) h1 .double (C82Ex.key 16 1) (C82Ex.key 32 4)
      (C82Ex.key 64 1) (C82Ex.key 80 4) 48 0x3ff8000000000000 (by decide) (3 / 2) kept tDouble [] [] (put_turn kept) (by simp) (by simp) accepts
      (by simp) (by rw [get_turn]; simp) (by rw [get_turn]; simp) ⟨rfl, rfl⟩
    refine ⟨y, g1, g2, g3, v, g4, g5, g6, z, g7, g8.trans ?_⟩
    unfold relErr
    decide +kernel

namespace C84Ex
open C82Ex (key)
open C83Ex (resultsOf resultsOf_turnOn opts noDisk opens opens_world lib shown)

noncomputable abbrev cb : Callbacks := numberCallbacks exLibm 0x2f 0x3a 8 16

/-- Execute requests one after the other. -/
noncomputable def play : World → List (Nat × Int × Req) → Out (List Served × World)
  | w, [] => .ok ([], w)
  | w, (i, rank, req) :: l =>
    World.serve cb 100 w rank req >>= fun x =>
    play x.1 l >>= fun y => .ok (⟨i, rank, req, x.2⟩ :: y.1, y.2)

theorem play_executes (l : List (Nat × Int × Req)) : ∀ {w w' : World} {log : List Served}, play w l = .ok (log, w') →
    executes cb 100 w log w' ∧ log.map (·.turn) = l.map (·.1) := by
  induction l with
  | nil => intro w w' log h; cases h; exact ⟨rfl, rfl⟩
  | cons a l ih =>
    intro w w' log h
    obtain ⟨i, rank, req⟩ := a
    simp only [play] at h
    obtain ⟨x, hx, h⟩ := ok_iff.mp h
    obtain ⟨y, hy, h⟩ := ok_iff.mp h
    cases h
    obtain ⟨h1, h2⟩ := ih (show play x.1 l = .ok (y.1, y.2) from hy)
    exact ⟨⟨x.1, hx, h1⟩, by simp [h2]⟩

def putReq : Req := ⟨0, 1, .put [⟨key 4096 1, 16, key 4096 4, 32, NumTy.double.object 4096 0⟩]⟩
def getReq (src : Int) : Req := ⟨src, 1, .get [⟨key 64 1, 64, key 80 4, 80, tDouble⟩]⟩

/-- Rank 0 PUTs the double 0 and rank 1 GETs it. -/
noncomputable def both : Out (List (List (Kind × Int × Bytes))) :=
  play C84Ex.world [(0, 1, putReq), (1, 1, getReq 1)] >>= fun x =>
  resultsOf 2 x.1 0 (C84Ex.put 0) >>= fun r =>
  resultsOf 2 x.1 1 C84Ex.get >>= fun q => .ok [shown r, shown q]

theorem both_eq : both = .ok [[(.put, hxSuccess, [])], [(.get, hxSuccess, [0, 0, 0, 0, 0, 0, 0, 0])]] := by decide +kernel

/-- The only rank of the second session GETs. -/
def later : Turn := ⟨⟨Hash.hxhimHash .ber 0 2, 10, 0, 1⟩, Layout.net ⟨1, 1, 1, 2⟩ 0 .null id (fun _ => List.Perm.refl _) 4096
  (fun n => List.replicate n 0), [.get ⟨key 64 1, key 80 4, NumTy.double.typ⟩]⟩

/-- Two ranks with a datastore each, the first of which PUTs the double 0, then one rank with both datastores GETs it. -/
noncomputable def sessions : Out (List (List (Kind × Int × Bytes))) :=
  let o1 := opts ⟨2, 1, 1, 1⟩ true
  let o2 := opts ⟨1, 1, 1, 2⟩ true
  play (C83Ex.world o1 lib noDisk (fun _ => true)) [(0, 1, putReq)] >>= fun x =>
  resultsOf 2 x.1 0 (C84Ex.put 0) >>= fun r =>
  play (C83Ex.world o2 lib (o1.close lib x.2 noDisk) (fun _ => true)) [(0, 0, getReq 0)] >>= fun y =>
  resultsOf 2 y.1 0 later >>= fun q =>
  if opens o1 lib noDisk && opens o2 lib (o1.close lib x.2 noDisk) then .ok [shown r, shown q] else .err

theorem sessions_eq : sessions = .ok [[(.put, hxSuccess, [])], [(.get, hxSuccess, [0, 0, 0, 0, 0, 0, 0, 0])]] := by decide +kernel

/-- All results of the PUT succeeded. -/
theorem shown_success {r : Results} (h : shown r = [(.put, hxSuccess, [])]) : ∀ y ∈ r.items, y.status = hxSuccess := by
  intro y hy
  have : (y.kind, y.status, match y.object with | .own b => b.bytes | _ => []) ∈ shown r := List.mem_map.mpr ⟨y, hy, rfl⟩
  rw [h, List.mem_singleton] at this
  exact (Prod.mk.inj (Prod.mk.inj this).2).1

end C84Ex

/-- The hypotheses of `C84_back_partial`, all of them: rank 0 PUTs the double 0, rank 1 GETs it, and has 0. -/
example : ∃ w' log r q, Overlap (numberCallbacks exLibm 0x2f 0x3a 8 16) 100 (placeOf ⟨2, 1, 1, 1⟩).length C84Ex.world
      [C84Ex.put 0, C84Ex.get] log w' [r, q] ∧
    ∃ y ∈ q.items, y.kind = .get ∧ y.status = hxSuccess ∧ ∃ v : Blob, y.object = .own v ∧ CameBack 8 16 .double 0 v := by
  have h := both_eq
  unfold both at h
  obtain ⟨x, hx, h⟩ := ok_iff.mp h
  obtain ⟨r, hr, h⟩ := ok_iff.mp h
  obtain ⟨q, hq, h⟩ := ok_iff.mp h
  have h := Out.ok.inj h
  simp only [List.cons.injEq, and_true] at h
  obtain ⟨h1, h2⟩ := C84Ex.play_executes _ (show C84Ex.play _ _ = .ok (x.1, x.2) from hx)
  have h2 : x.1.map (·.turn) = [0, 1] := h2
  have ho : Overlap (numberCallbacks exLibm 0x2f 0x3a 8 16) 100 (placeOf ⟨2, 1, 1, 1⟩).length C84Ex.world
      [C84Ex.put 0, C84Ex.get] x.1 x.2 [r, q] := by
    refine ⟨h1, ?_, rfl, ?_⟩
    · intro y hy
      have : y.turn ∈ x.1.map (·.turn) := List.mem_map.mpr ⟨y, hy, rfl⟩
      rw [h2] at this
      show y.turn < 2
      simp only [List.mem_cons, List.not_mem_nil, or_false] at this
      omega
    · intro i y s hi hs
      match i with
      | 0 => cases hi; cases hs; exact C83Ex.resultsOf_turnOn hr
      | 1 => cases hi; cases hs; exact C83Ex.resultsOf_turnOn hq
      | i + 2 => cases hi
  have hfin : Finished x.1 0 1 := by
    have : (x.1.map (·.turn)).Pairwise (fun y z => ¬ (y = 1 ∧ z = 0)) := by rw [h2]; decide
    exact List.pairwise_map.mp this
  refine ⟨x.2, x.1, r, q, ho, ?_⟩
  obtain ⟨y, g1, g2, -, -, g3, g4⟩ := C84_back_partial exLibm_ok (neg := 0x2f) (pos := 0x3a) ⟨by decide, by decide⟩
      (fprec := 8) (dprec := 16) (by decide) (by decide) (Hash.hxhimHash .ber 0 2) (placeOf ⟨2, 1, 1, 1⟩) 100 (by decide) (by decide)
      [C84Ex.put 0, C84Ex.get] C84Ex.world x.2 x.1 [r, q] (by intro rank d hd; rw [List.mem_singleton.mp hd]; exact ⟨rfl, rfl⟩)
      (turns_ok zero) ho 0 1 (C84Ex.put 0) C84Ex.get r q rfl rfl rfl rfl (by decide) hfin .double (C82Ex.key 16 1) (C82Ex.key 32 4)
      (C82Ex.key 64 1) (C82Ex.key 80 4) 48 0 (by decide) 0 zero tDouble [] [] (put_turn zero) (by simp) (by simp) accepts
      (fun y hy _ _ _ => shown_success h.1 y hy)
      (by intro k x r hk _ h0 h1; match k with | 0 => exact absurd rfl h0 | 1 => exact absurd rfl h1 | k + 2 => cases hk)
      (Or.inl (by rw [get_turn]; simp)) (by rw [get_turn]; simp) ⟨rfl, rfl⟩
  exact ⟨y, g1, g2, g3, g4⟩

/-- The hypotheses of `C84_later_partial`, all of them: a session of two ranks PUTs the double 0, then a session of one rank with both
datastores GETs it, and has 0. -/
example : ∃ log log' r q disk', runs (numberCallbacks exLibm 0x2f 0x3a 8 16) C83Ex.noDisk
      ([⟨C83Ex.opts ⟨2, 1, 1, 1⟩ true, 100, C83Ex.lib, C83Ex.lib, [C84Ex.put 0], log, [r]⟩] ++
        [⟨C83Ex.opts ⟨1, 1, 1, 2⟩ true, 100, C83Ex.lib, C83Ex.lib, [C84Ex.later], log', [q]⟩]) disk' ∧
    ∃ y ∈ q.items, y.kind = .get ∧ y.status = hxSuccess ∧ ∃ v : Blob, y.object = .own v ∧ CameBack 8 16 .double 0 v := by
  have h := C84Ex.sessions_eq
  unfold C84Ex.sessions at h
  obtain ⟨x, hx, h⟩ := ok_iff.mp h
  obtain ⟨r, hr, h⟩ := ok_iff.mp h
  obtain ⟨y, hy, h⟩ := ok_iff.mp h
  obtain ⟨q, hq, h⟩ := ok_iff.mp h
  split at h
  case isFalse => cases h
  rename_i ho
  obtain ⟨ho1, ho2⟩ := Bool.and_eq_true_iff.mp ho
  have h := Out.ok.inj h
  simp only [List.cons.injEq, and_true] at h
  obtain ⟨h1, h2⟩ := C84Ex.play_executes _ (show C84Ex.play _ _ = .ok (x.1, x.2) from hx)
  obtain ⟨h3, h4⟩ := C84Ex.play_executes _ (show C84Ex.play _ _ = .ok (y.1, y.2) from hy)
  have only : ∀ {log : List Served}, log.map (·.turn) = [0] → ∀ z ∈ log, z.turn < 1 := by
    intro log hl z hz
    have : z.turn ∈ log.map (·.turn) := List.mem_map.mpr ⟨z, hz, rfl⟩
    rw [hl, List.mem_singleton] at this
    omega
  have hlater : turnOps (Hash.hxhimHash .ber 0 2) C84Ex.later = [.get (C82Ex.key 64 1) (C82Ex.key 80 4) tDouble] := by
    show List.flatMap _ [_] = _
    rw [List.flatMap_cons, List.flatMap_nil, List.append_nil]
    exact (get_ops 1).1
  have hruns : ∃ disk', runs (numberCallbacks exLibm 0x2f 0x3a 8 16) C83Ex.noDisk
      ([⟨C83Ex.opts ⟨2, 1, 1, 1⟩ true, 100, C83Ex.lib, C83Ex.lib, [C84Ex.put 0], x.1, [r]⟩] ++
        [⟨C83Ex.opts ⟨1, 1, 1, 2⟩ true, 100, C83Ex.lib, C83Ex.lib, [C84Ex.later], y.1, [q]⟩]) disk' := by
    refine ⟨_, _, x.2, C83Ex.opens_world (fun _ => true) ho1, ⟨h1, only h2, rfl, ?_⟩, _, y.2,
      C83Ex.opens_world (fun _ => true) ho2, ⟨h3, only h4, rfl, ?_⟩, rfl⟩
    · intro i z s hi hs
      match i with
      | 0 => cases hi; cases hs; exact C83Ex.resultsOf_turnOn hr
      | i + 1 => cases hi
    · intro i z s hi hs
      match i with
      | 0 => cases hi; cases hs; exact C83Ex.resultsOf_turnOn hq
      | i + 1 => cases hi
  obtain ⟨disk', hruns⟩ := hruns
  refine ⟨x.1, y.1, r, q, disk', hruns, ?_⟩
  obtain ⟨z, g1, g2, -, -, g3, g4⟩ := C84_later_partial exLibm_ok (neg := 0x2f) (pos := 0x3a) ⟨by decide, by decide⟩
      (fprec := 8) (dprec := 16) (by decide) (by decide) (Hash.hxhimHash .ber 0 2) [100] [97] [] 2 (by decide) _ _ _ disk'
      (by intro id _ db hdb; cases hdb) (by
        intro s hs
        simp only [List.cons_append, List.nil_append, List.mem_cons, List.not_mem_nil, or_false] at hs
        rcases hs with rfl | rfl
        · refine ⟨⟨rfl, rfl, rfl, rfl, rfl⟩, ⟨(by decide : 100 ≠ 0), (by decide : 100 < 2 ^ 64)⟩, ?_⟩
          intro z hz
          rw [List.mem_singleton.mp hz]
          exact turns_ok zero _ (by simp)
        · refine ⟨⟨rfl, rfl, rfl, rfl, rfl⟩, ⟨(by decide : 100 ≠ 0), (by decide : 100 < 2 ^ 64)⟩, ?_⟩
          intro z hz
          rw [List.mem_singleton.mp hz]
          refine C84_one_rank exLibm_ok (neg := 0x2f) (pos := 0x3a) ⟨by decide, by decide⟩ (fprec := 8) (dprec := 16) (by decide) (by decide)
            ⟨1, 1, 1, 2⟩ (by decide) rfl .ber .null id _ 4096 (by decide) _ 10 0 1 (by decide) _ ?_
          intro c hc o ho
          rw [List.mem_singleton.mp hc] at ho
          have ho : o ∈ ops (Hash.hxhimHash .ber 0 2) 1 (.get ⟨C82Ex.key 64 1, C82Ex.key 80 4, NumTy.double.typ⟩) := ho
          rw [(get_ops 1).1, List.mem_singleton] at ho
          rw [ho]
          exact (get_ops 1).2)
      ⟨_, [], (List.append_nil _).symm, by
        intro s hs
        simp only [List.cons_append, List.nil_append, List.mem_cons, List.not_mem_nil, or_false] at hs
        rcases hs with rfl | rfl <;> exact Or.inl rfl, by simp⟩ hruns 0 0 (C84Ex.put 0) C84Ex.later r q rfl rfl rfl rfl .double
      (C82Ex.key 16 1) (C82Ex.key 32 4)
      (C82Ex.key 64 1) (C82Ex.key 80 4) 48 0 (by decide) 0 zero tDouble [] [] (put_turn zero) (by simp) (by simp) accepts
      (fun y hy _ _ _ => shown_success h.1 y hy)
      (by intro k x r hk _ h0 h1; match k with | 0 => exact absurd rfl h0 | 1 => exact absurd rfl h1 | k + 2 => cases hk)
      (Or.inl (by rw [hlater]; simp)) (by rw [hlater]; simp) ⟨rfl, rfl⟩
  exact ⟨z, g1, g2, g3, g4⟩

section
open C39Ex

/-- An open session: `BPutDouble` of no numbers fails and `BPut` of nothing does not; `BGetDouble` and `GetDouble` queue, `BGetOpDouble`
does not. -/
example : C39Ex.after [.open, NumTy.double.call (.bput true true []), .queue (.bput true []), NumTy.double.call (.bget true true [(blob 1, blob 2)]),
    NumTy.double.call (.get (blob 1) (blob 2)), NumTy.double.call (.bgetop true true [(blob 1, blob 2, 1, 0)])] =
      .ok ([], [true, false, true, true, true, false]) ∧ Given (blob 1) := by
  refine ⟨by decide +kernel, ?_⟩
  exact ⟨by decide, by decide⟩

/-- A session that is open, with asynchronous PUTs, as in `C84_bulk_put_partial`. -/
example : (match made with
    | .some p => match Session.openSession log env [] (.some { p with opts := { p.opts with asyncEnabled := true } }) with
      | .ok (_, .some p, true) => p.opts.running && p.opts.asyncEnabled
      | _ => false
    | _ => false) = true := by decide +kernel

/-- 0 and 3/2 are among the numbers of `C84_calls` and `C84_single`. -/
example : Kept .double 0 0 ∧ Kept .double 0x3ff8000000000000 (3 / 2) ∧ 0x3ff8000000000000 < 2 ^ 64 := ⟨zero, kept, by decide⟩

end

end Hx.Props

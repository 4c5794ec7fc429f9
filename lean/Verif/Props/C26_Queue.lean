import Verif.Proofs.Queue
import Verif.Model.Hash

/-!
# C26, C27, C28, C47: queueing
-/

namespace Hx.Props
open Hx Msg Queue Spec

private def blob (a : Nat) (s : List UInt8) : Blob := ⟨a, s, 1⟩

/-- Two datastores, chosen by the first byte of the subject; 255 has no datastore. -/
private def cfg2 (maxOps maxSize : Nat) : Cfg :=
  ⟨fun s _ => match s with | 255 :: _ => .ok (-1) | x :: _ => .ok ((x.toNat % 2 : Nat) : Int) | [] => .ok 0,
    maxOps, maxSize, 2⟩

/-! ## C26 -/

/-- C26, the meaning of the mask: bit by bit the orderings SPO, SOP, PSO, POS, OSP, OPS. -/
theorem C26_orderings (s p o : Blob) (mask : Nat) :
    wanted ⟨s, p, o, mask⟩ =
      (if mask.testBit 0 then [(s, p, o)] else []) ++ (if mask.testBit 1 then [(s, o, p)] else []) ++
      (if mask.testBit 2 then [(p, s, o)] else []) ++ (if mask.testBit 3 then [(p, o, s)] else []) ++
      (if mask.testBit 4 then [(o, s, p)] else []) ++ (if mask.testBit 5 then [(o, p, s)] else []) := by
  simp only [wanted, orderings, List.zipIdx_cons, List.zipIdx_nil, List.filter_cons, List.filter_nil, Nat.zero_add]
  cases mask.testBit 0 <;> cases mask.testBit 1 <;> cases mask.testBit 2 <;> cases mask.testBit 3 <;>
    cases mask.testBit 4 <;> cases mask.testBit 5 <;> rfl

private theorem putLoop_other {c : Cfg} {s p o : Blob} {mask : Nat} : ∀ (L : List Nat) (q q' : Queues) (b : Bool),
    putLoop c s p o mask L q = .ok (q', b) →
    q'.gets = q.gets ∧ q'.getops = q.getops ∧ q'.dels = q.dels ∧ q'.hists = q.hists := by
  intro L
  induction L with
  | nil => intro q q' b h; cases h; exact ⟨rfl, rfl, rfl, rfl⟩
  | cons x L ih =>
    intro q q' b h
    simp only [putLoop] at h
    split_ifs at h with h1
    · exact ih q q' b h
    · cases hx : permute x s p o with
      | none => rw [hx] at h; cases h; exact ⟨rfl, rfl, rfl, rfl⟩
      | some t =>
        rw [hx] at h
        obtain ⟨id, _, h⟩ := bind_ok h
        split_ifs at h
        · cases h; exact ⟨rfl, rfl, rfl, rfl⟩
        · obtain ⟨puts, _, h⟩ := bind_ok h
          have := ih _ q' b h
          exact this

private theorem takeWhile_all {α : Type} (f : α → Bool) : ∀ l : List α, (∀ x ∈ l, f x = true) → l.takeWhile f = l := by
  intro l
  induction l with
  | nil => intro _; rfl
  | cons x l ih =>
    intro h
    rw [List.takeWhile_cons_of_pos (h x (by simp)), ih (fun y hy => h y (by simp [hy]))]

/-- C26: a PUT that does not run into undefined behaviour, and for whose orderings the hash function
has datastores, succeeds and adds to the queue of each datastore exactly the requested triples that
belong there; no other queue changes. -/
theorem C26_put_queues (c : Cfg) (q q' : Queues) (a : PutArg) (b : Bool)
    (hg : Given a.s ∧ Given a.p ∧ Given a.o)
    (hh : ∀ x ∈ wanted a, (home c.hash x.1 x.2.1).isSome)
    (h : call c true q (.put a) = .ok (q', b)) :
    b = true ∧
    (∀ ds, queued q'.puts ds = queued q.puts ds ++
      ((wanted a).filter (fun x => home c.hash x.1 x.2.1 = some ds)).map
        (fun x => ⟨x.1, x.1.addr, x.2.1, x.2.1.addr, x.2.2⟩)) ∧
    q'.putCount = q.putCount + (wanted a).length ∧
    q'.gets = q.gets ∧ q'.getops = q.getops ∧ q'.dels = q.dels ∧ q'.hists = q.hists := by
  simp only [call, if_true, exec, Bool.and_eq_true, given_iff, and_assoc] at h
  rw [if_pos hg] at h
  obtain ⟨hs, hb⟩ := putImpl_ok h
  have ht : putOps c.hash a = (wanted a).map (fun x => .put x.1 x.2.1 x.2.2) := by
    unfold putOps
    rw [takeWhile_all _ _ hh]
  rw [ht] at hs
  refine ⟨hb.mpr hh, fun ds => ?_, ?_, putLoop_other _ _ _ _ h⟩
  · rw [hs.ext.puts]
    congr 1
    simp only [putsFor, List.filter_map, List.filterMap_map]
    rw [← List.filterMap_eq_map]
    rfl
  · rw [hs.ext.count]
    congr 1
    simp only [putNumber, List.filter_map, List.length_map]
    congr 1
    exact List.filter_eq_self.mpr (by simp)

/-- C26: the hypothesis "no undefined behaviour" holds for every mask whenever the hash function
stays within the datastores and a packet may hold an operation. -/
theorem C26_put_defined (c : Cfg) (total : Nat) (q : Queues) (a : PutArg)
    (hh : HashOk c total) (h0 : 0 < c.maxOps) (hs : c.servers ≤ total) (hq : Sized total q)
    (hg : Given a.s ∧ Given a.p ∧ Given a.o) :
    ∃ q' b, call c true q (.put a) = .ok (q', b) := by
  obtain ⟨r, hr⟩ := exec_defined h0 hh hs (x := .put a)
    ⟨by simp [readable, hg.1.1], by simp [readable, hg.2.1.1], by simp [readable, hg.2.2.1]⟩ hq
  exact ⟨r.1, r.2, by simpa [call] using hr⟩

/-- C26 when the hash function fails for one of the orderings: the call reports an error, but the
orderings before the failing one stay queued. -/
theorem C26_put_failure (c : Cfg) (q q' : Queues) (a : PutArg) (b : Bool)
    (hg : Given a.s ∧ Given a.p ∧ Given a.o)
    (hh : ¬ ∀ x ∈ wanted a, (home c.hash x.1 x.2.1).isSome)
    (h : call c true q (.put a) = .ok (q', b)) :
    b = false ∧
    (∀ ds, queued q'.puts ds = queued q.puts ds ++
      putsFor c.hash ds (((wanted a).takeWhile (fun x => (home c.hash x.1 x.2.1).isSome)).map
        (fun x => .put x.1 x.2.1 x.2.2))) := by
  simp only [call, if_true, exec, Bool.and_eq_true, given_iff, and_assoc] at h
  rw [if_pos hg] at h
  obtain ⟨hs, hb⟩ := putImpl_ok h
  refine ⟨?_, hs.ext.puts⟩
  cases b
  · rfl
  · exact absurd (hb.mp rfl) hh

example : ∃ q' b, call (cfg2 8 0) true (Queues.init 2) (.put ⟨blob 1 [0], blob 2 [1], blob 3 [3], 0x29⟩) = .ok (q', b) ∧
    (queued q'.puts 0).length = 1 ∧ (queued q'.puts 1).length = 2 := ⟨_, _, rfl, by decide, by decide⟩

example : HashOk (cfg2 8 0) 2 := by
  intro s p
  match s with
  | [] => exact ⟨0, rfl, by omega⟩
  | x :: l =>
    by_cases h : x = 255
    · subst h; exact ⟨-1, rfl, by omega⟩
    · refine ⟨((x.toNat % 2 : Nat) : Int), ?_, by omega⟩
      simp only [cfg2]

/-- The failing ordering comes last: two triples stay queued and an error is returned. -/
example : ∃ q', call (cfg2 8 0) true (Queues.init 2) (.put ⟨blob 1 [0], blob 2 [1], blob 3 [255], 0x13⟩) = .ok (q', false) ∧
    q'.putCount = 2 := ⟨_, rfl, rfl⟩

/-! ## C27 -/

/-- C27: after any sequence of calls the packets of each datastore, one after the other, hold exactly
the operations the calls asked for, in order, in addition to what was queued before. -/
theorem C27_order (c : Cfg) (l : List Call) (q q' : Queues) (h : calls c true q l = .ok q') :
    Extends c.hash (l.flatMap (ops c.hash c.servers)) q q' := (calls_ok l q q' h).ext

/-- C27: starting with empty queues no packet is empty or holds more operations than configured. -/
theorem C27_packet_length (c : Cfg) (total : Nat) (l : List Call) (q' : Queues)
    (h : calls c true (Queues.init total) l = .ok q') :
    AllPackets (fun b => 0 < b.count ∧ b.count ≤ c.maxOps) q' := by
  have := (calls_ok l _ q' h).lim (allPackets_init _ _)
  exact ⟨fun t ht pk hp => ⟨(this.puts t ht pk hp).pos, (this.puts t ht pk hp).ops⟩,
    fun t ht pk hp => ⟨(this.gets t ht pk hp).pos, (this.gets t ht pk hp).ops⟩,
    fun t ht pk hp => ⟨(this.getops t ht pk hp).pos, (this.getops t ht pk hp).ops⟩,
    fun t ht pk hp => ⟨(this.dels t ht pk hp).pos, (this.dels t ht pk hp).ops⟩,
    fun t ht pk hp => ⟨(this.hists t ht pk hp).pos, (this.hists t ht pk hp).ops⟩⟩

/-- C27: every sequence of calls with readable arguments is executed. -/
theorem C27_defined (c : Cfg) (total : Nat) (l : List Call) (hh : HashOk c total) (h0 : 0 < c.maxOps)
    (hs : c.servers ≤ total) (hl : ∀ x ∈ l, ReadableCall x) :
    ∃ q', calls c true (Queues.init total) l = .ok q' ∧ Sized total q' := by
  obtain ⟨q', h⟩ := calls_defined h0 hh hs l hl _ (sized_init total)
  exact ⟨q', h, (calls_ok l _ q' h).sized _ (sized_init total)⟩

/-- C27 fails without `0 < maxOps`, which the setter accepts: the first operation is written behind
an empty array. -/
theorem C27_zero_ops_ub :
    ∃ c total x, HashOk c total ∧ c.servers ≤ total ∧ ReadableCall x ∧ c.maxOps = 0 ∧
      calls c true (Queues.init total) [x] = .ub :=
  ⟨⟨fun _ _ => .ok 0, 0, 0, 1⟩, 1, .get ⟨blob 1 [0], blob 2 [1], 1⟩, fun _ _ => ⟨0, rfl, by decide⟩, by decide,
    ⟨rfl, rfl⟩, rfl, rfl⟩

private def mixed : List Call :=
  [.put ⟨blob 1 [0], blob 2 [1], blob 3 [2], 0x3f⟩, .get ⟨blob 1 [0], blob 2 [1], 1⟩,
    .bget true [⟨blob 1 [0], blob 2 [1], 1⟩, ⟨blob 4 [1], blob 2 [1], 1⟩, ⟨blob 5 [2], blob 2 [1], 1⟩],
    .getop ⟨blob 1 [0], blob 2 [1], 1, 3, 1⟩, .del ⟨blob 1 [0], blob 2 [1]⟩, .hist ⟨1, blob 7 [9]⟩]

example : ∃ q', calls (cfg2 2 0) true (Queues.init 2) mixed = .ok q' ∧
    (q'.puts.map (List.map List.length)) = [[2, 2], [2]] ∧ (q'.gets.map (List.map List.length)) = [[2, 1], [1]] :=
  ⟨_, rfl, by decide, by decide⟩

/-! ## C28 -/

/-- C28 fails for a single operation: nothing limits the first operation of a packet. -/
theorem C28_single_false :
    ∃ c total x q' pk r, 0 < c.maxSize ∧ calls c true (Queues.init total) [x] = .ok q' ∧ pk ∈ q'.gets.flatten ∧
      r = (⟨0, 0, .get pk⟩ : Req) ∧ c.maxSize < r.size ∧ r.pack.length = r.size :=
  ⟨⟨fun _ _ => .ok 0, 4, 10, 1⟩, 1, .get ⟨blob 1 [0], blob 2 [1], 1⟩, _, _, _, by decide, rfl, List.mem_cons_self, rfl,
    by decide, by decide⟩

/-- C28 fails for packets of operations that would fit by themselves: the size check forgets the
client's addresses and the type of the object. -/
theorem C28_together_false :
    ∃ c total x q' pk r, calls c true (Queues.init total) [x, x] = .ok q' ∧ pk ∈ q'.gets.flatten ∧
      r = (⟨0, 0, .get pk⟩ : Req) ∧ (∀ g ∈ pk, (⟨0, 0, .get [g]⟩ : Req).size ≤ c.maxSize) ∧ c.maxSize < r.size :=
  ⟨⟨fun _ _ => .ok 0, 4, 100, 1⟩, 1, .get ⟨blob 1 [0], blob 2 [1], 1⟩, _, _, _, rfl, List.mem_cons_self, rfl,
    by decide, by decide⟩

/-- What the size check forgets about the last operation of a request. -/
def forgotten : ReqBody → Nat
  | .put _ => 16 | .get _ => 20 | .getop _ => 16 | .del _ => 16 | .hist _ => 0

/-- C28, partial: every queued packet with more than one operation exceeds the configured size by at
most the 16 or 20 bytes of its last operation that the check forgets (histogram requests not at all).
Missing: packets with one operation are not limited, and the limit itself is not kept
(`C28_single_false`, `C28_together_false`). -/
theorem C28_size_partial (c : Cfg) (total : Nat) (l : List Call) (q' : Queues) (hm : c.maxSize ≠ 0)
    (h : calls c true (Queues.init total) l = .ok q') :
    AllPackets (fun b => 2 ≤ b.count → ∀ src dst, (⟨src, dst, b⟩ : Req).size ≤ c.maxSize + forgotten b) q' := by
  have := (calls_ok l _ q' h).lim (allPackets_init _ _)
  exact ⟨fun t ht pk hp h2 _ _ => (this.puts t ht pk hp).size hm h2,
    fun t ht pk hp h2 _ _ => (this.gets t ht pk hp).size hm h2,
    fun t ht pk hp h2 _ _ => (this.getops t ht pk hp).size hm h2,
    fun t ht pk hp h2 _ _ => (this.dels t ht pk hp).size hm h2,
    fun t ht pk hp h2 _ _ => (this.hists t ht pk hp).size hm h2⟩

example : ∃ q', calls (cfg2 9 120) true (Queues.init 2) mixed = .ok q' ∧
    (q'.gets.map (List.map List.length)) = [[2, 1], [1]] := ⟨_, rfl, by decide⟩

/-! ## C47 -/

private theorem calls_cons (c : Cfg) (q : Queues) (x : Call) (l : List Call) :
    calls c true q (x :: l) = exec c q x >>= fun r => calls c true r.1 l := rfl

private theorem calls_one (c : Cfg) (q : Queues) (x : Call) :
    calls c true q [x] = exec c q x >>= fun r => .ok r.1 := rfl

private theorem bulk_eq {α : Type} {c : Cfg} (f : Queues → α → Out (Queues × Bool)) (mk : α → Call) :
    ∀ (l : List α) (q : Queues), (∀ a ∈ l, ∀ q, exec c q (mk a) = f q a) →
      bulk f l q = calls c true q (l.map mk) := by
  intro l
  induction l with
  | nil => intro q _; rfl
  | cons a l ih =>
    intro q h
    rw [List.map_cons, calls_cons, h a (by simp)]
    simp only [bulk]
    congr 1
    funext r
    exact ih r.1 (fun b hb => h b (by simp [hb]))

private theorem bulk_ret {α : Type} (f : Queues → α → Out (Queues × Bool)) (l : List α) (q : Queues) :
    ((bulk f l q >>= fun q => Out.ok (q, true)) >>= fun r => .ok r.1) = bulk f l q := by
  cases bulk f l q <;> rfl

/-- C47, partial: bulk calls with given items leave the queues exactly as the single calls would.
Missing: items the single calls refuse (`C47_put_false`) and what PUTs do after queueing. -/
theorem C47_bulk_partial (c : Cfg) (q : Queues) :
    (∀ l : List PutArg, (∀ a ∈ l, Given a.s ∧ Given a.p ∧ Given a.o) →
      calls c true q [.bput true l] = calls c true q (l.map .put)) ∧
    (∀ l : List GetArg, (∀ a ∈ l, Given a.s ∧ Given a.p) →
      calls c true q [.bget true l] = calls c true q (l.map .get)) ∧
    (∀ l : List GetOpArg, (∀ a ∈ l, Given a.s) →
      calls c true q [.bgetop true l] = calls c true q (l.map .getop)) ∧
    (∀ l : List DelArg, (∀ a ∈ l, Given a.s ∧ Given a.p) →
      calls c true q [.bdel true l] = calls c true q (l.map .del)) := by
  refine ⟨fun l hl => ?_, fun l hl => ?_, fun l hl => ?_, fun l hl => ?_⟩
  · rw [calls_one, ← bulk_eq (putImpl c) .put l q (fun a ha q => by simp [exec, given_iff, hl a ha])]
    exact bulk_ret _ _ _
  · rw [calls_one, ← bulk_eq (getImpl c) .get l q (fun a ha q => by simp [exec, given_iff, hl a ha])]
    exact bulk_ret _ _ _
  · rw [calls_one, ← bulk_eq (getOpImpl c) .getop l q (fun a ha q => by simp [exec, given_iff, hl a ha])]
    exact bulk_ret _ _ _
  · rw [calls_one, ← bulk_eq (delImpl c) .del l q (fun a ha q => by simp [exec, given_iff, hl a ha])]
    exact bulk_ret _ _ _

/-- C47: a bulk histogram call whose range servers all exist is the sequence of single calls. -/
theorem C47_histograms (c : Cfg) (q : Queues) (l : List HistArg) (hl : ∀ a ∈ l, 0 ≤ a.rs ∧ a.rs < c.servers) :
    calls c true q [.bhist true l] = calls c true q (l.map .hist) := by
  have h : l.all (fun a => rsOk c a.rs) = true := List.all_eq_true.mpr (fun a ha => (rsOk_iff c a.rs).mpr (hl a ha))
  rw [calls_one, ← bulk_eq (histImpl c) .hist l q (fun a ha q => by simp [exec, (rsOk_iff c a.rs).mpr (hl a ha)])]
  simp only [exec, h, Bool.and_self, if_true]
  exact bulk_ret _ _ _

/-- C47: bulk calls without one of their arrays fail and queue nothing. -/
theorem C47_no_arrays (c : Cfg) (q : Queues) (lp : List PutArg) (lg : List GetArg) (lo : List GetOpArg) (ld : List DelArg)
    (lh : List HistArg) : ∀ x ∈ [Call.bput false lp, .bget false lg, .bgetop false lo, .bdel false ld, .bhist false lh],
      call c true q x = .ok (q, false) := by
  intro x hx
  simp only [List.mem_cons, List.not_mem_nil, or_false] at hx
  rcases hx with rfl | rfl | rfl | rfl | rfl <;> rfl

/-- C47: bulk calls with their arrays succeed whenever they are defined, whatever becomes of the items. -/
theorem C47_succeeds (c : Cfg) (q : Queues) (lp : List PutArg) (lg : List GetArg) (lo : List GetOpArg) (ld : List DelArg) :
    ∀ x ∈ [Call.bput true lp, .bget true lg, .bgetop true lo, .bdel true ld], ∀ r, call c true q x = .ok r → r.2 = true := by
  intro x hx r h
  have key : ∀ {o : Out Queues}, (o >>= fun q => Out.ok (q, true)) = .ok r → r.2 = true := by
    intro o h
    cases o with
    | ok q => cases h; rfl
    | err => cases h
    | ub => cases h
  simp only [List.mem_cons, List.not_mem_nil, or_false] at hx
  rcases hx with rfl | rfl | rfl | rfl <;> exact key h

/-- C47, partial: the single-type variants of PUT and GET are the single calls with that type. -/
theorem C47_single_type_partial (c : Cfg) (q : Queues) (t : Nat) :
    (∀ l : List PutArg, (∀ a ∈ l, Given a.s ∧ Given a.p ∧ Given a.o) →
      (bputSingle c q true true l t >>= fun r => .ok r.1) =
        calls c true q (l.map (fun a => .put ⟨a.s, a.p, ⟨a.o.addr, a.o.bytes, t⟩, a.mask⟩))) ∧
    (∀ l : List GetArg, (∀ a ∈ l, Given a.s ∧ Given a.p) →
      (bgetSingle c q true true l t >>= fun r => .ok r.1) =
        calls c true q (l.map (fun a => .get ⟨a.s, a.p, t⟩))) := by
  refine ⟨fun l hl => ?_, fun l hl => ?_⟩
  · simp only [bputSingle, if_true, Bool.true_eq_false, false_and, if_false]
    rw [bulk_ret, bulk_eq (putImpl c) .put, List.map_map]
    · rfl
    · intro a ha q
      obtain ⟨b, hb, rfl⟩ := List.mem_map.mp ha
      obtain ⟨h1, h2, h3⟩ := hl b hb
      have h3' : Given { b.o with typ := t } := h3
      simp [exec, given_iff, h1, h2, h3']
  · simp only [bgetSingle, if_true, Bool.true_eq_false, false_and, if_false]
    rw [bulk_ret, bulk_eq (getImpl c) .get, List.map_map]
    · rfl
    · intro a ha q
      obtain ⟨b, hb, rfl⟩ := List.mem_map.mp ha
      obtain ⟨h1, h2⟩ := hl b hb
      simp [exec, given_iff, h1, h2]

/-- C47 fails for the single-type variants without arrays of types: they are not checked, and read as soon
as there is an item. -/
theorem C47_no_types_ub (c : Cfg) (q : Queues) (t : Nat) :
    (∀ l, l ≠ [] → bputSingle c q true false l t = .ub ∧ bputSingle c q true false [] t = .ok (q, true)) ∧
    ∀ l, l ≠ [] → bgetSingle c q true false l t = .ub ∧ bgetSingle c q true false [] t = .ok (q, true) := by
  refine ⟨fun l hl => ⟨?_, rfl⟩, fun l hl => ⟨?_, rfl⟩⟩
  · simp [bputSingle, hl]
  · simp [bgetSingle, hl]

/-- C47 fails for items with an empty object: the bulk call queues them, the single call refuses
them. -/
theorem C47_put_false :
    ∃ c q a, calls c true q [.bput true [a]] ≠ calls c true q [.put a] ∧ Given a.s ∧ Given a.p :=
  ⟨⟨fun _ _ => .ok 0, 4, 0, 1⟩, Queues.init 1, ⟨blob 1 [0], blob 2 [1], blob 3 [], 1⟩, by decide, by decide, by decide⟩

/-- C47 fails for `BGetOpSingleType`: given the operations it queues nothing. -/
theorem C47_single_type_getop_false :
    ∃ c q a, (bgetopSingle c q true true [a] a.t >>= fun r => .ok r.1) ≠ calls c true q [.getop a] ∧ Given a.s ∧ Given a.p :=
  ⟨⟨fun _ _ => .ok 0, 4, 0, 1⟩, Queues.init 1, ⟨blob 1 [0], blob 2 [1], 1, 2, 1⟩, by decide, by decide, by decide⟩

/-- C47: for every item list, `BGetOpSingleType` with the array of operations fails and queues
nothing. -/
theorem C47_single_type_getop_refused (c : Cfg) (q : Queues) (l : List GetOpArg) (t : Nat) :
    bgetopSingle c q true true l t = .ok (q, false) := by simp [bgetopSingle]

/-- C47: without one of its arrays `BGetOpSingleType` fails; with all but the operations it reads
through a null pointer. -/
theorem C47_single_type_getop_ub (c : Cfg) (q : Queues) (l : List GetOpArg) (t : Nat) (ops : Bool) :
    bgetopSingle c q false ops l t = .ok (q, false) ∧ (l ≠ [] → bgetopSingle c q true false l t = .ub) ∧
    bgetopSingle c q true false [] t = .ok (q, true) := by
  refine ⟨by simp [bgetopSingle], fun h => by simp [bgetopSingle, h], by simp [bgetopSingle]⟩

example : ∀ a ∈ [(⟨blob 1 [0], blob 2 [1], blob 3 [2], 5⟩ : PutArg), ⟨blob 1 [1], blob 2 [7], blob 3 [2], 1⟩],
    Given a.s ∧ Given a.p ∧ Given a.o := by decide

/-- C26: while the session is not open, calls queue nothing and say so. -/
theorem C26_not_started (c : Cfg) (q : Queues) (x : Call) (l : List Call) :
    call c false q x = .ok (q, false) ∧ calls c false q l = .ok q := by
  refine ⟨rfl, ?_⟩
  induction l with
  | nil => rfl
  | cons y l ih => exact ih

end Hx.Props

import Verif.Proofs.Stamps
import Verif.Props.C85_Elapsed

/-!
# C86: time stamps of operations
-/

namespace Hx.Props
open Hx Fp Stamps

variable {α β : Type}

/-- The operations and stamps in a packet. -/
def held (m : Msg α) : List (Option α × Send) := m.items.zip (m.reqs.getD [])

/-- C86: operations are queued in order, each with its own stamps, in packets of no more than `max`, and nothing is written outside of a
packet's arrays. This is both ways to queue. -/
theorem C86_queued (max : Nat) (h : 0 < max) (asks : List (Ask α)) (f : Ask α → List (Msg α) → Out (List (Msg α)))
    (hf : f = queuePut max ∨ f = queueGet max) :
    ∃ q, queue f [] asks = .ok q ∧ (q.reverse.flatMap held = asks.map fun a => (some a.item, ⟨a.hash, a.insert⟩)) ∧
      ∀ m ∈ q, m.items.length ≤ max := by
  have hq : Queues max f := by
    rcases hf with rfl | rfl
    · exact queues_put h
    · exact queues_get h
  obtain ⟨q, e, g1, g2⟩ := queue_ok hq asks [] (by simp)
  exact ⟨q, e, g2.trans (by simp), fun m hm => (g1 m hm).2.1⟩

/-- C86 is false for packets without space, which the options allow (C38): the first operation is written outside of them. -/
theorem C86_zero_ub (a : Ask α) : queuePut 0 a [] = .ub ∧ queueGet 0 a [] = .ub := ⟨rfl, rfl⟩

/-- C86: through Thallium every result gets the stamps of its operation, and the first of a packet also when the packet was made, if there is
one answer for every operation. -/
theorem C86_thallium (req : Msg β) (answers : List α) (l : List Send) (hl : req.reqs = some l) (hc : req.items.length ≤ l.length)
    (ha : answers.length = req.items.length) :
    ∃ rs, viaThallium req answers = .ok rs ∧ rs.map (·.item) = answers ∧ rs.map (·.send) = (held req).map Prod.snd ∧
      ∀ j r, rs[j]? = some r → r.alloc = if j = 0 then some req.allocate else none := by
  obtain ⟨rs, e, g1, g2, g3⟩ := results_ok (m := (stealStamps (unpacked answers) req true).1) (l := answers) (s := l) rfl (fun _ => hl) (by omega)
  refine ⟨rs, e, g1, ?_, g3⟩
  rw [g2, ha, held, hl, Option.getD_some, zip_snd _ _ hc]

/-- C86: all packets of a queue through Thallium, in any state of the clocks: the stamps of the results are those of the operations. -/
theorem C86_thallium_all (max : Nat) (h : 0 < max) (asks : List (Ask β)) (f : Ask β → List (Msg β) → Out (List (Msg β)))
    (hf : f = queuePut max ∨ f = queueGet max) (serve : Msg β → List α) (hs : ∀ m, (serve m).length = m.items.length) :
    ∃ q, queue f [] asks = .ok q ∧ ∃ rss : List (List (Result α)),
      List.Forall₂ (fun m rs => viaThallium m (serve m) = .ok rs) q.reverse rss ∧
      rss.flatten.map (·.item) = q.reverse.flatMap serve ∧ rss.flatten.map (·.send) = asks.map fun a => ⟨a.hash, a.insert⟩ := by
  have hq : Queues max f := by
    rcases hf with rfl | rfl
    · exact queues_put h
    · exact queues_get h
  obtain ⟨q, e, g1, g2⟩ := queue_ok hq asks [] (by simp)
  refine ⟨q, e, ?_⟩
  have hall : ∀ p : List (Msg β), (∀ m ∈ p, Sound max m) → ∃ rss : List (List (Result α)),
      List.Forall₂ (fun m rs => viaThallium m (serve m) = .ok rs) p rss ∧
      rss.flatten.map (·.item) = p.flatMap serve ∧ rss.flatten.map (·.send) = (p.flatMap held).map Prod.snd := by
    intro p
    induction p with
    | nil => intro _; exact ⟨[], .nil, rfl, rfl⟩
    | cons m p ih =>
      intro hp
      obtain ⟨rss, a1, a2, a3⟩ := ih fun x hx => hp x (List.mem_cons_of_mem _ hx)
      obtain ⟨-, b1, l, b2, b3⟩ := hp m (List.mem_cons_self ..)
      obtain ⟨rs, c1, c2, c3, -⟩ := C86_thallium m (serve m) l b2 (by omega) (hs m)
      exact ⟨rs :: rss, .cons c1 a1, by simp [a2, c2], by
        rw [List.flatten_cons, List.map_append, c3, a3, List.flatMap_cons, List.map_append]⟩
  obtain ⟨rss, a1, a2, a3⟩ := hall q.reverse fun m hm => g1 m (List.mem_reverse.mp hm)
  refine ⟨rss, a1, a2, ?_⟩
  rw [a3]
  have : q.reverse.flatMap held = asks.map fun a => (some a.item, (⟨a.hash, a.insert⟩ : Send)) := g2.trans (by simp)
  rw [this]
  simp

/-- C86: the local range server hands on every answer of the datastore, in order, and leaves none in the response it destroys; nothing is
written outside of the arrays, if there are no more answers than operations. -/
theorem C86_local (req : Msg β) (l : List Send) (hl : req.reqs = some l) (hc : req.items.length ≤ l.length) (response : Msg α)
    (answers : List α) (hr : response.items = answers.map some) (ha : answers.length ≤ req.items.length)
    (hu : ∃ u, response.reqs = some u ∧ answers.length ≤ u.length) :
    ∃ res left, localServer req response = .ok (res, left) ∧ res.items = answers.map some ∧ (∀ x ∈ left.items, x = none) ∧
      ∃ rs, viaLocal req response = .ok rs ∧ rs.map (·.item) = answers ∧
        ∀ j r, rs[j]? = some r → r.alloc = if j = 0 then some req.allocate else none := by
  obtain ⟨res, left, e, g1, g2, g3, g4⟩ := localLoop_ok (l := answers) (t := (Msg.make (α := α) req.count ⟨0, 0⟩).reqs) hl (by omega) answers.length 0
    (stealStamps (Msg.make req.count ⟨0, 0⟩) req false).1 response (by omega) ha rfl (by simpa using hr) hu rfl
  have e : localServer req response = .ok (res, left) := by
    unfold localServer Msg.count
    rw [hr, List.length_map]
    exact e
  refine ⟨res, left, e, g1, by rw [g4]; intro x hx; exact List.eq_of_mem_replicate hx, ?_⟩
  obtain ⟨rs, r1, r2, -, r4⟩ := results_ok (m := res) (l := answers) (s := List.replicate req.items.length .unset) g1 (fun hne => by
      have hp : req.items.length ≠ 0 := by
        have := List.length_pos_iff.mpr hne
        omega
      rw [g2]
      simp [Msg.make, Msg.count, hp]) (by simpa using ha)
  refine ⟨rs, by unfold viaLocal; rw [e, Out.ok_bind, r1], r2, ?_⟩
  rw [g3] at r4
  exact r4

/-- C86 is false for operations on the rank itself: whatever the stamps of the request are, those of every result are not set, because the
`steal` of the responses does not call that of `Message`. -/
theorem C86_local_false (req : Msg β) (l : List Send) (hl : req.reqs = some l) (hc : req.items.length ≤ l.length) (response : Msg α)
    (answers : List α) (hr : response.items = answers.map some) (ha : answers.length ≤ req.items.length)
    (hu : ∃ u, response.reqs = some u ∧ answers.length ≤ u.length) :
    ∃ rs, viaLocal req response = .ok rs ∧ rs.length = answers.length ∧ ∀ r ∈ rs, r.send = .unset := by
  obtain ⟨res, left, e, g1, g2, -, -⟩ := localLoop_ok (l := answers) (t := (Msg.make (α := α) req.count ⟨0, 0⟩).reqs) hl (by omega) answers.length 0
    (stealStamps (Msg.make req.count ⟨0, 0⟩) req false).1 response (by omega) ha rfl (by simpa using hr) hu rfl
  have e : localServer req response = .ok (res, left) := by
    unfold localServer Msg.count
    rw [hr, List.length_map]
    exact e
  obtain ⟨rs, r1, r2, r3, -⟩ := results_ok (m := res) (l := answers) (s := List.replicate req.items.length .unset) g1 (fun hne => by
      have hp : req.items.length ≠ 0 := by
        have := List.length_pos_iff.mpr hne
        omega
      rw [g2]
      simp [Msg.make, Msg.count, hp]) (by simpa using ha)
  refine ⟨rs, by unfold viaLocal; rw [e, Out.ok_bind, r1], by rw [← r2, List.length_map], ?_⟩
  intro r hr
  have : r.send ∈ rs.map (·.send) := List.mem_map_of_mem hr
  rw [r3] at this
  exact List.eq_of_mem_replicate (List.mem_of_mem_take this)

/-- C86 is false through MPI: no stamps are moved from the request. -/
theorem C86_mpi_false (req : Msg β) (answers : List α) :
    ∃ rs, viaMpi req answers = .ok rs ∧ rs.map (·.item) = answers ∧ (∀ r ∈ rs, r.send = .unset) ∧
      ∀ j r, rs[j]? = some r → r.alloc = if j = 0 then some ⟨0, 0⟩ else none := by
  obtain ⟨rs, r1, r2, r3, r4⟩ := results_ok (m := unpacked answers) (l := answers) (s := List.replicate answers.length .unset) rfl (fun hne => by
      have hp : answers.length ≠ 0 := (List.length_pos_iff.mpr hne).ne'
      simp [unpacked, Msg.make, hp]) (by simp)
  refine ⟨rs, r1, r2, ?_, r4⟩
  intro r hr
  have : r.send ∈ rs.map (·.send) := List.mem_map_of_mem hr
  rw [r3] at this
  exact List.eq_of_mem_replicate (List.mem_of_mem_take this)

/-- C86: a response with more answers than operations is written outside of the arrays; the check of `Message::steal` is not called. -/
theorem C86_more_ub (req : Msg β) (response : Msg α) (x : α) (h0 : req.items = []) (h1 : response.items = [some x]) :
    localServer req response = .ub := by
  unfold localServer Msg.count
  rw [h1]
  show localLoop req 1 0 _ _ = _
  unfold localLoop
  cases hq : req.req 0 with
  | ub => rfl
  | err => 
    unfold Msg.req at hq
    split at hq
    · cases hq
    · split at hq <;> cases hq
  | ok s =>
    rw [Out.ok_bind]
    unfold Msg.stamp
    cases response.reqs with
    | none => rfl
    | some u =>
      simp only
      split
      · rw [Out.ok_bind]
        unfold steal Msg.add
        simp only [h1, h0, stealStamps, Msg.make, List.getElem?_cons_zero, Bool.false_eq_true, if_false, List.length_nil, Nat.lt_irrefl]
        rfl
      · rfl

/-- C86: the line of an event has the nanoseconds since the epoch and the seconds between, for stamps after the epoch. -/
theorem C86_event (epoch : Int) (s : Span) (h0 : epoch ≤ s.start) (h1 : s.start ≤ s.stop) (h2 : s.stop - epoch < 2 ^ 63) :
    ∃ a b : Nat, ∃ x : ℚ, event epoch s = .ok (a, b, .fin false x) ∧ (a : Int) = s.start - epoch ∧ (b : Int) = s.stop - epoch ∧
      |x - ((s.stop - s.start : Int) : ℚ) / 10 ^ 9| ≤ ((s.stop - s.start : Int) : ℚ) / 10 ^ 9 / 2 ^ 64 := by
  obtain ⟨a, a1, a2, -⟩ := C85_chrono epoch s.start h0 (by omega)
  obtain ⟨b, b1, b2, -⟩ := C85_chrono epoch s.stop (by omega) h2
  obtain ⟨c, -, -, x, c1, c2⟩ := C85_chrono s.start s.stop h1 (by omega)
  refine ⟨a, b, x, by unfold event; rw [a1, Out.ok_bind, b1, Out.ok_bind, c1, Out.ok_bind], a2, b2, ?_⟩
  push_cast
  exact c2

/-- C86 is false for stamps that are not set: the line says that the operation was hashed about 584 years after the epoch, and the time from
there to the result is that since the clock started, whatever the operation took. -/
theorem C86_event_false (epoch stop : Int) (h0 : 0 < epoch) (h1 : epoch ≤ stop) (h2 : stop < 2 ^ 63) :
    ∃ b : Nat, ∃ x : ℚ, event epoch ⟨Send.unset.hash.start, stop⟩ = .ok ((2 ^ 64 - epoch).toNat, b, .fin false x) ∧ (b : Int) = stop - epoch ∧
      |x - (stop : ℚ) / 10 ^ 9| ≤ (stop : ℚ) / 10 ^ 9 / 2 ^ 64 := by
  obtain ⟨b, b1, b2, -⟩ := C85_chrono epoch stop h1 (by omega)
  obtain ⟨c, -, -, x, c1, c2⟩ := C85_chrono 0 stop (by omega) (by omega)
  have a1 : Elapsed.chronoNano epoch 0 = .ok (2 ^ 64 - epoch).toNat := by
    unfold Elapsed.chronoNano
    rw [if_pos (by omega)]
    unfold Elapsed.u64
    congr 1
    omega
  refine ⟨b, x, ?_, b2, by simpa using c2⟩
  show event epoch ⟨0, stop⟩ = _
  unfold event
  simp only
  rw [a1, Out.ok_bind, b1, Out.ok_bind, c1, Out.ok_bind]

namespace C86Ex

/-- Three operations; when the third is queued, the packet is full. -/
def asks : List (Ask Nat) := [⟨7, ⟨10, 11⟩, ⟨11, 14⟩, ⟨12, 13⟩, false⟩, ⟨8, ⟨20, 21⟩, ⟨21, 22⟩, ⟨0, 0⟩, false⟩,
  ⟨9, ⟨30, 31⟩, ⟨31, 34⟩, ⟨32, 33⟩, false⟩]

/-- The first packet, of two operations. -/
def packet : Msg Nat := ⟨2, [some 7, some 8], some [⟨⟨10, 11⟩, ⟨11, 14⟩⟩, ⟨⟨20, 21⟩, ⟨21, 22⟩⟩], ⟨12, 13⟩⟩

/-- A response of the datastore to it. -/
def response : Msg String := ⟨2, [some "a", some "b"], some [.unset, .unset], ⟨0, 0⟩⟩

/-- Both ways to queue make two packets of the three operations, as in `C86_queued` and `C86_thallium_all`. -/
example : (match queue (queuePut 2) [] asks with | .ok q => q.reverse.map held | _ => []) =
      [[(some 7, ⟨⟨10, 11⟩, ⟨11, 14⟩⟩), (some 8, ⟨⟨20, 21⟩, ⟨21, 22⟩⟩)], [(some 9, ⟨⟨30, 31⟩, ⟨31, 34⟩⟩)]] ∧
    (match queue (queueGet 2) [] asks with | .ok q => q.reverse.map held | _ => []) =
      [[(some 7, ⟨⟨10, 11⟩, ⟨11, 14⟩⟩), (some 8, ⟨⟨20, 21⟩, ⟨21, 22⟩⟩)], [(some 9, ⟨⟨30, 31⟩, ⟨31, 34⟩⟩)]] := by decide

/-- Thallium, with the stamps of the request. -/
example : viaThallium packet ["a", "b"] = .ok [⟨"a", ⟨⟨10, 11⟩, ⟨11, 14⟩⟩, some ⟨12, 13⟩⟩, ⟨"b", ⟨⟨20, 21⟩, ⟨21, 22⟩⟩, none⟩] := by decide

/-- The rank itself: the packet and response meet what `C86_local` asks for, and the stamps are lost. -/
example : (∃ u, response.reqs = some u ∧ 2 ≤ u.length) ∧ response.items = ["a", "b"].map some ∧
    viaLocal packet response = .ok [⟨"a", .unset, some ⟨12, 13⟩⟩, ⟨"b", .unset, none⟩] := by
  exact ⟨⟨_, rfl, by decide⟩, rfl, by decide⟩

/-- MPI: everything is lost. -/
example : viaMpi packet ["a", "b"] = .ok [⟨"a", .unset, some ⟨0, 0⟩⟩, ⟨"b", .unset, none⟩] := by decide

/-- More answers than operations. -/
example : localServer (⟨2, [], some [.unset, .unset], ⟨0, 0⟩⟩ : Msg Nat) ⟨1, [some "a"], some [.unset], ⟨0, 0⟩⟩ = .ub :=
  C86_more_ub _ _ "a" rfl rfl

/-- An event, and one without stamps. -/
example : event 5 ⟨10, 10⟩ = .ok (5, 5, .fin false 0) ∧ event 5 ⟨0, 0⟩ = .ok (2 ^ 64 - 5, 2 ^ 64 - 5, .fin false 0) := by decide +kernel

end C86Ex

end Hx.Props

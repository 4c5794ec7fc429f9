import Verif.Model.Stamps
import Mathlib.Tactic

/-!
# Time stamps of operations: lemmas
-/

namespace Hx.Stamps
open Hx Fp

variable {α β : Type}

/-- What a packet holds: operations and their stamps. -/
def content (m : Msg α) : List (Option α × Send) := m.items.zip (m.reqs.getD [])

/-- A packet of the queue. -/
def Sound (max : Nat) (m : Msg α) : Prop := m.max = max ∧ m.items.length ≤ max ∧ ∃ l, m.reqs = some l ∧ l.length = max

theorem sound_make {max : Nat} (h : 0 < max) (s : Span) : Sound max (Msg.make (α := α) max s) :=
  ⟨rfl, Nat.zero_le _, List.replicate max .unset, by simp [Msg.make, h.ne'], by simp⟩

/-- The packet `setup` chooses has space, and no other is changed. -/
theorem setup_ok {max : Nat} (h : 0 < max) (a : Ask α) (q : List (Msg α)) (hq : ∀ m ∈ q, Sound max m) :
    ∃ m q', setup max a q = m :: q' ∧ Sound max m ∧ m.items.length < max ∧ (∀ m ∈ q', Sound max m) ∧
      (q.reverse.flatMap content = q'.reverse.flatMap content ++ content m) := by
  cases q with
  | nil => exact ⟨_, [], rfl, sound_make h _, h, by simp, by simp [content, Msg.make]⟩
  | cons m q =>
    simp only [setup]
    split
    · exact ⟨_, _, rfl, sound_make h _, h, hq, by simp [content, Msg.make]⟩
    · rename_i hn
      rw [not_or] at hn
      exact ⟨m, q, rfl, hq m (List.mem_cons_self ..), by have := hn.1; unfold Msg.count at this; omega,
        fun x hx => hq x (List.mem_cons_of_mem _ hx), by simp⟩

theorem zip_set {x : α} {l : List α} {s : List β} {y : β} (h : l.length < s.length) :
    (l ++ [x]).zip (s.set l.length y) = l.zip s ++ [(x, y)] := by
  induction l generalizing s with
  | nil => cases s with
    | nil => cases h
    | cons a s => simp
  | cons b l ih => cases s with
    | nil => cases h
    | cons a s =>
      simp only [List.length_cons, Nat.add_lt_add_iff_right] at h
      simp [ih h]

theorem zip_snd (l : List α) (s : List β) (h : l.length ≤ s.length) : (l.zip s).map Prod.snd = s.take l.length := by
  induction l generalizing s with
  | nil => rfl
  | cons b l ih => cases s with
    | nil => cases h
    | cons a s =>
      simp only [List.length_cons, Nat.add_le_add_iff_right] at h
      simp [ih s h]

/-- One operation more in a packet. -/
theorem stamped {max : Nat} {m : Msg α} {l : List Send} (x : α) (s : Send) (h0 : m.max = max) (h1 : m.items.length < max) (h2 : m.reqs = some l)
    (h3 : l.length = max) :
    Sound max { m with items := m.items ++ [some x], reqs := some (l.set m.items.length s) } ∧
      content { m with items := m.items ++ [some x], reqs := some (l.set m.items.length s) } = content m ++ [(some x, s)] := by
  refine ⟨⟨h0, by simp; omega, _, rfl, by simp [h3]⟩, ?_⟩
  unfold content
  simp only [Option.getD_some, h2]
  exact zip_set (by omega)

/-- What both ways to queue an operation do. -/
def Queues (max : Nat) (f : Ask α → List (Msg α) → Out (List (Msg α))) : Prop :=
  ∀ a q, (∀ m ∈ q, Sound max m) → ∃ q', f a q = .ok q' ∧ (∀ m ∈ q', Sound max m) ∧
    q'.reverse.flatMap content = q.reverse.flatMap content ++ [(some a.item, ⟨a.hash, a.insert⟩)]

theorem queues_put {max : Nat} (h : 0 < max) : Queues (α := α) max (queuePut max) := by
  intro a q hq
  obtain ⟨m, q', e, ⟨hm, -, l, hl, hll⟩, hlt, hq', hc⟩ := setup_ok h a q hq
  obtain ⟨g1, g2⟩ := stamped a.item ⟨a.hash, a.insert⟩ hm hlt hl hll
  refine ⟨{ m with items := m.items ++ [some a.item], reqs := some (l.set m.items.length ⟨a.hash, a.insert⟩) } :: q', ?_, ?_, ?_⟩
  · unfold queuePut Msg.add Msg.stamp Msg.count
    rw [e]
    simp only
    rw [if_pos (by omega), Out.ok_bind]
    simp only [hl, List.length_append, List.length_singleton, Nat.add_sub_cancel]
    rw [if_pos (by omega), Out.ok_bind]
  · intro x hx
    rcases List.mem_cons.mp hx with rfl | hx
    · exact g1
    · exact hq' x hx
  · rw [hc, List.reverse_cons, List.flatMap_append]
    simp [g2]

theorem queues_get {max : Nat} (h : 0 < max) : Queues (α := α) max (queueGet max) := by
  intro a q hq
  obtain ⟨m, q', e, ⟨hm, -, l, hl, hll⟩, hlt, hq', hc⟩ := setup_ok h a q hq
  obtain ⟨g1, g2⟩ := stamped a.item ⟨a.hash, a.insert⟩ hm hlt hl hll
  refine ⟨{ m with items := m.items ++ [some a.item], reqs := some (l.set m.items.length ⟨a.hash, a.insert⟩) } :: q', ?_, ?_, ?_⟩
  · unfold queueGet Msg.req Msg.add Msg.stamp Msg.count
    rw [e]
    have hlt' : m.items.length < l.length := by omega
    simp only [hl, List.getElem?_eq_getElem hlt', Out.ok_bind, hlt', if_true]
    rw [if_pos (by omega), Out.ok_bind]
    simp [hlt', Out.ok_bind]
  · intro x hx
    rcases List.mem_cons.mp hx with rfl | hx
    · exact g1
    · exact hq' x hx
  · rw [hc, List.reverse_cons, List.flatMap_append]
    simp [g2]

theorem queue_ok {max : Nat} {f : Ask α → List (Msg α) → Out (List (Msg α))} (hf : Queues max f) (l : List (Ask α)) :
    ∀ q, (∀ m ∈ q, Sound max m) → ∃ q', queue f q l = .ok q' ∧ (∀ m ∈ q', Sound max m) ∧
      q'.reverse.flatMap content = q.reverse.flatMap content ++ l.map (fun a => (some a.item, ⟨a.hash, a.insert⟩)) := by
  induction l with
  | nil => intro q hq; exact ⟨q, rfl, hq, by simp⟩
  | cons a l ih =>
    intro q hq
    obtain ⟨q1, e1, h1, c1⟩ := hf a q hq
    obtain ⟨q2, e2, h2, c2⟩ := ih q1 h1
    refine ⟨q2, by unfold queue; rw [e1, Out.ok_bind, e2], h2, ?_⟩
    rw [c2, c1]
    simp

/-- The results of a response. -/
theorem resultsFrom_ok {m : Msg α} {l : List α} {s : List Send} (hi : m.items = l.map some) (hs : m.reqs = some s)
    (hl : l.length ≤ s.length) : ∀ k i, i + k = l.length → ∃ rs, resultsFrom m k i = .ok rs ∧ rs.map (·.item) = l.drop i ∧
      rs.map (·.send) = (s.take l.length).drop i ∧
      rs.map (·.alloc) = (if i = 0 then List.replicate (Nat.min 1 k) (some m.allocate) else []) ++ List.replicate (k - if i = 0 then 1 else 0) none := by
  intro k
  induction k with
  | zero =>
    intro i h
    refine ⟨[], rfl, by simp; omega, by simp; omega, by simp⟩
  | succ k ih =>
    intro i h
    obtain ⟨rs, e, a1, a2, a3⟩ := ih (i + 1) (by omega)
    have h1 : i < l.length := by omega
    have h2 : i < s.length := by omega
    refine ⟨⟨l[i], s[i], if i = 0 then some m.allocate else none⟩ :: rs, ?_, ?_, ?_, ?_⟩
    · unfold resultsFrom Msg.req
      simp only [hi, List.getElem?_map, List.getElem?_eq_getElem h1, Option.map_some, hs, List.getElem?_eq_getElem h2, Out.ok_bind]
      rw [e, Out.ok_bind]
    · rw [List.map_cons, a1, List.drop_eq_getElem_cons h1]
    · rw [List.map_cons, a2, List.drop_eq_getElem_cons (i := i) (by simp; omega)]
      simp
    · rw [List.map_cons, a3]
      rcases Nat.eq_zero_or_pos i with rfl | hp
      · simp
      · simp [hp.ne', List.replicate_succ]

theorem results_ok {m : Msg α} {l : List α} {s : List Send} (hi : m.items = l.map some) (hs : l ≠ [] → m.reqs = some s)
    (hl : l.length ≤ s.length) : ∃ rs, results m = .ok rs ∧ rs.map (·.item) = l ∧ rs.map (·.send) = s.take l.length ∧
      ∀ j r, rs[j]? = some r → r.alloc = if j = 0 then some m.allocate else none := by
  rcases eq_or_ne l [] with rfl | hne
  · exact ⟨[], by simp [results, Msg.count, hi, resultsFrom], rfl, by simp, by simp⟩
  obtain ⟨rs, e, a1, a2, a3⟩ := resultsFrom_ok hi (hs hne) hl l.length 0 (by omega)
  refine ⟨rs, by simp only [results, Msg.count, hi, List.length_map]; exact e, by simpa using a1, by simpa using a2, ?_⟩
  intro j r hj
  have h1 : (rs.map (·.alloc))[j]? = some r.alloc := by rw [List.getElem?_map, hj]; rfl
  rw [a3] at h1
  have hp : 0 < l.length := List.length_pos_iff.mpr hne
  have hmin : Nat.min 1 l.length = 1 := Nat.min_eq_left hp
  simp only [if_true, hmin, List.replicate_one] at h1
  cases j with
  | zero => simpa [eq_comm] using h1
  | succ j =>
    simp only [List.singleton_append, List.getElem?_cons_succ, List.getElem?_replicate] at h1
    split at h1
    · simpa [eq_comm] using h1
    · cases h1

/-- The loop of the local range server, after `i` answers. -/
theorem localLoop_ok {req : Msg β} {s : List Send} {t : Option (List Send)} {l : List α} (hs : req.reqs = some s) (hl : l.length ≤ s.length) :
    ∀ k i (res response : Msg α), i + k = l.length → l.length ≤ res.max → res.items = (l.take i).map some →
      response.items = List.replicate i none ++ (l.drop i).map some → (∃ u, response.reqs = some u ∧ l.length ≤ u.length) → res.reqs = t →
      ∃ res' response', localLoop req k i res response = .ok (res', response') ∧ res'.items = l.map some ∧ res'.reqs = t ∧
        res'.allocate = res.allocate ∧ response'.items = List.replicate l.length none := by
  intro k
  induction k with
  | zero =>
    intro i res response h _ h2 h3 _ h5
    have : i = l.length := by omega
    subst this
    exact ⟨res, response, rfl, by simpa using h2, h5, rfl, by simpa using h3⟩
  | succ k ih =>
    intro i res response h h1 h2 h3 h4 h5
    obtain ⟨u, hu, hul⟩ := h4
    have hi : i < l.length := by omega
    have his : i < s.length := by omega
    have hiu : i < u.length := by omega
    have hlen : res.items.length = i := by rw [h2]; simp; omega
    obtain ⟨res', response', e, g⟩ := ih (i + 1) { res with items := res.items ++ [some l[i]] }
      { response with reqs := some (u.set i s[i]), items := response.items.set i none } (by omega) h1 (by
        simp only [h2, List.take_add_one, List.getElem?_eq_getElem hi, Option.toList_some, List.map_append, List.map_cons, List.map_nil]) (by
        simp only [h3]
        rw [List.drop_eq_getElem_cons hi, List.map_cons, List.set_append_right _ _ (by simp)]
        simp [List.replicate_succ', List.append_assoc]) ⟨_, rfl, by simpa using hul⟩ h5
    refine ⟨res', response', ?_, g⟩
    refine Eq.trans ?_ e
    have hget : response.items[i]? = some (some l[i]) := by
      rw [h3, List.getElem?_append_right (by simp)]
      simp [List.getElem?_eq_getElem hi]
    conv_lhs => rw [localLoop]
    unfold Msg.req Msg.stamp steal Msg.add
    simp only [hs, hu, List.getElem?_eq_getElem his, Out.ok_bind, hiu, if_true, hget]
    rw [if_pos (by omega)]
    simp only [Out.ok_bind]

end Hx.Stamps

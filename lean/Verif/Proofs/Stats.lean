import Mathlib.Data.List.TakeWhile
import Verif.Spec.Stats
import Verif.Proofs.Queue
import Verif.Proofs.Process

/-!
# Lemmas about statistics of a session
-/

namespace Hx.Stats
open Hx Msg Queue Process Results Spec

/-! ## Maps of numbers -/

/-- The keys of a map are in order. -/
def Ordered (l : List (Nat × Nat)) : Prop := l.Pairwise fun a b => a.1 < b.1

theorem bump_keys (d : Nat) (l : List (Nat × Nat)) : ∀ x ∈ bump d l, x.1 = d ∨ x.1 ∈ l.map Prod.fst := by
  induction l with
  | nil => simp [bump]
  | cons e l ih =>
    obtain ⟨e, n⟩ := e
    intro x hx
    unfold bump at hx
    split_ifs at hx with h1 h2
    · simp only [List.mem_cons] at hx
      rcases hx with rfl | rfl | hx
      · simp
      · simp
      · right; simp only [List.map_cons, List.mem_cons]; right; exact List.mem_map_of_mem hx
    · rcases List.mem_cons.1 hx with rfl | hx
      · simp
      · right; simp only [List.map_cons, List.mem_cons]; right; exact List.mem_map_of_mem hx
    · rcases List.mem_cons.1 hx with rfl | hx
      · simp
      · rcases ih x hx with h | h
        · exact Or.inl h
        · right; simp only [List.map_cons, List.mem_cons]; exact Or.inr h

theorem bump_ordered (d : Nat) {l : List (Nat × Nat)} (h : Ordered l) : Ordered (bump d l) := by
  induction l with
  | nil => simp [bump, Ordered]
  | cons e l ih =>
    obtain ⟨e, n⟩ := e
    unfold Ordered at h ih ⊢
    rw [List.pairwise_cons] at h
    unfold bump
    split_ifs with h1 h2
    · rw [List.pairwise_cons, List.pairwise_cons]
      refine ⟨?_, h.1, h.2⟩
      intro x hx
      rcases List.mem_cons.1 hx with rfl | hx
      · exact h1
      · exact lt_trans h1 (h.1 x hx)
    · subst h2
      rw [List.pairwise_cons]
      exact ⟨h.1, h.2⟩
    · rw [List.pairwise_cons]
      refine ⟨?_, ih h.2⟩
      intro x hx
      rcases bump_keys d l x hx with h3 | h3
      · show e < x.1; omega
      · obtain ⟨y, hy, hyx⟩ := List.mem_map.1 h3
        have := h.1 y hy
        simp only at this ⊢; omega

theorem count_cons (e n : Nat) (l : List (Nat × Nat)) (x : Nat) :
    count ((e, n) :: l) x = if x = e then n else count l x := by
  unfold count
  by_cases h : x = e
  · subst h; simp
  · rw [List.lookup_cons]
    have : (x == e) = false := by simpa using h
    rw [this]; simp [h]

theorem count_absent {l : List (Nat × Nat)} {x : Nat} (h : x ∉ l.map Prod.fst) : count l x = 0 := by
  induction l with
  | nil => rfl
  | cons e l ih =>
    obtain ⟨e, n⟩ := e
    simp only [List.map_cons, List.mem_cons, not_or] at h
    rw [count_cons, if_neg h.1]
    exact ih h.2

theorem bump_count (d : Nat) {l : List (Nat × Nat)} (h : Ordered l) (x : Nat) :
    count (bump d l) x = count l x + if x = d then 1 else 0 := by
  induction l with
  | nil => unfold bump; rw [count_cons]; split_ifs <;> rfl
  | cons e l ih =>
    obtain ⟨e, n⟩ := e
    unfold Ordered at h ih
    rw [List.pairwise_cons] at h
    unfold bump
    split_ifs with h1 h2 h3 h4 h5
    · subst h2
      have hx : x ∉ ((e, n) :: l).map Prod.fst := by
        simp only [List.map_cons, List.mem_cons, not_or]
        refine ⟨by omega, ?_⟩
        intro hm
        obtain ⟨y, hy, hyx⟩ := List.mem_map.1 hm
        have := h.1 y hy
        simp only at this; omega
      rw [count_cons, if_pos rfl, count_absent hx]
    · rw [count_cons, if_neg h2]; rfl
    · subst h3; subst h4
      rw [count_cons, count_cons, if_pos rfl, if_pos rfl]
    · rw [count_cons, count_cons]
      split_ifs with h6
      · exact absurd (by omega) h4
      · rfl
    · rw [count_cons, count_cons, ih h.2]
      split_ifs with h6
      · exact absurd (by omega) h3
      · rfl
    · rw [count_cons, count_cons, ih h.2]
      split_ifs <;> rfl

theorem bump_sum (d : Nat) (l : List (Nat × Nat)) : ((bump d l).map Prod.snd).sum = (l.map Prod.snd).sum + 1 := by
  induction l with
  | nil => rfl
  | cons e l ih =>
    obtain ⟨e, n⟩ := e
    unfold bump
    split_ifs <;> simp only [List.map_cons, List.sum_cons, ih] <;> omega

theorem bump_pos (d : Nat) {l : List (Nat × Nat)} (h : ∀ x ∈ l, 0 < x.2) : ∀ x ∈ bump d l, 0 < x.2 := by
  induction l with
  | nil => simp [bump]
  | cons e l ih =>
    obtain ⟨e, n⟩ := e
    intro x hx
    unfold bump at hx
    split_ifs at hx
    · rcases List.mem_cons.1 hx with rfl | hx
      · simp
      · exact h x hx
    · rcases List.mem_cons.1 hx with rfl | hx
      · simp
      · exact h x (List.mem_cons_of_mem _ hx)
    · rcases List.mem_cons.1 hx with rfl | hx
      · exact h _ List.mem_cons_self
      · exact ih (fun y hy => h y (List.mem_cons_of_mem _ hy)) x hx

/-! ## Packets -/

variable {α : Type}

/-- What is always true of statistics. -/
structure Inv (g : Global) : Prop where
  ordered : ∀ k, Ordered (g.outgoing k)
  pos : ∀ k, ∀ x ∈ g.outgoing k, 0 < x.2
  sum : ∀ k, ((g.outgoing k).map Prod.snd).sum = (g.used k).length

theorem inv_init : Inv Global.init := ⟨fun _ => List.Pairwise.nil, fun _ _ h => (nomatch h), fun _ => rfl⟩

/-- What noting packets of one kind changes: their sizes, and how many there are for a datastore. -/
structure Noted (k : Kind) (l : List Nat) (t : Nat → Nat) (g g' : Global) : Prop where
  single : g'.single = g.single
  bulk : g'.bulk = g.bulk
  used : (g'.used k).Perm (g.used k ++ l)
  others : ∀ k', k' ≠ k → g'.used k' = g.used k' ∧ g'.outgoing k' = g.outgoing k'
  inv : Inv g → Inv g'
  outgoing : Inv g → ∀ d, count (g'.outgoing k) d = count (g.outgoing k) d + t d

theorem noted_refl (k : Kind) (g : Global) : Noted k [] (fun _ => 0) g g :=
  ⟨rfl, rfl, by simp, fun _ _ => ⟨rfl, rfl⟩, id, fun _ _ => rfl⟩

theorem noted_trans {k : Kind} {l l' : List Nat} {t t' : Nat → Nat} {g g' g'' : Global} (h : Noted k l t g g')
    (h' : Noted k l' t' g' g'') : Noted k (l ++ l') (fun d => t d + t' d) g g'' := by
  refine ⟨h'.single.trans h.single, h'.bulk.trans h.bulk, ?_, ?_, fun x => h'.inv (h.inv x), ?_⟩
  · rw [← List.append_assoc]; exact h'.used.trans (h.used.append_right _)
  · intro k' hk
    exact ⟨(h'.others k' hk).1.trans (h.others k' hk).1, (h'.others k' hk).2.trans (h.others k' hk).2⟩
  · intro hi d
    rw [h'.outgoing (h.inv hi), h.outgoing hi, Nat.add_assoc]

theorem noted_congr {k : Kind} {l l' : List Nat} {t t' : Nat → Nat} {g g' : Global} (h : Noted k l t g g')
    (hl : l.Perm l') (ht : ∀ d, t d = t' d) : Noted k l' t' g g' :=
  ⟨h.single, h.bulk, h.used.trans (List.Perm.append_left _ hl), h.others, h.inv, fun hi d => by rw [h.outgoing hi, ht]⟩

theorem noted_note (k : Kind) (g : Global) (x : Nat × List α) :
    Noted k [x.2.length] (fun d => if d = x.1 then 1 else 0) g (note k g x) := by
  refine ⟨rfl, rfl, by simp [note, push], ?_, ?_, ?_⟩
  · intro k' hk; simp [note, push, hk]
  · intro hi
    refine ⟨fun k' => ?_, fun k' => ?_, fun k' => ?_⟩
    · by_cases hk : k' = k
      · subst hk; simpa [note] using bump_ordered x.1 (hi.ordered k')
      · simpa [note, hk] using hi.ordered k'
    · by_cases hk : k' = k
      · subst hk; simpa [note] using bump_pos x.1 (hi.pos k')
      · simpa [note, hk] using hi.pos k'
    · by_cases hk : k' = k
      · subst hk; simp [note, push, bump_sum, hi.sum]
      · simpa [note, push, hk] using hi.sum k'
  · intro hi d
    simp only [note, if_true]
    exact bump_count x.1 (hi.ordered k) d

theorem noted_foldl (k : Kind) (l : List (Nat × List α)) (g : Global) :
    Noted k (l.map fun x => x.2.length) (fun d => (l.filter fun x => x.1 = d).length) g (l.foldl (note k) g) := by
  induction l generalizing g with
  | nil => exact noted_refl k g
  | cons x l ih =>
    refine noted_congr (noted_trans (noted_note k g x) (ih (note k g x))) (by simp) ?_
    intro d
    by_cases h : x.1 = d
    · subst h; simp; omega
    · have : ¬ d = x.1 := fun e => h e.symm
      simp [h, this]

theorem fronts_sizes (i : Nat) (qs : List (List (List α))) :
    ((fronts i qs).map (fun x => x.2.length) ++ packetSizes (popped qs)).Perm (packetSizes qs) := by
  induction qs generalizing i with
  | nil => simp [fronts, popped, packetSizes]
  | cons q qs ih =>
    have := ih (i + 1)
    unfold packetSizes popped at this ⊢
    cases q with
    | nil => simpa [fronts] using this
    | cons p q =>
      simp only [fronts, List.map_cons, List.tail_cons, List.flatten_cons, List.map_append, List.cons_append]
      refine List.Perm.cons _ ?_
      refine (List.perm_append_comm_assoc _ _ _).trans ?_
      exact List.Perm.append_left _ this

theorem fronts_to (i : Nat) (qs : List (List (List α))) (d : Nat) :
    ((fronts i qs).filter fun x => x.1 = d).length +
      (if i ≤ d then ((popped qs).getD (d - i) []).length else 0) =
      if i ≤ d then (qs.getD (d - i) []).length else 0 := by
  induction qs generalizing i with
  | nil => simp [fronts, popped]
  | cons q qs ih =>
    have := ih (i + 1)
    by_cases hd : i = d
    · subst hd
      simp only [show ¬ i + 1 ≤ i by omega, if_false] at this
      cases q with
      | nil => simp [fronts, popped]; simpa using this
      | cons p q =>
        have h0 : ((fronts (i + 1) qs).filter fun x => x.1 = i).length = 0 := by simpa using this
        simp only [fronts, popped, List.map_cons, List.tail_cons, Nat.sub_self, le_refl, if_true, List.getD_cons_zero,
          List.length_cons]
        rw [List.filter_cons_of_pos (by simp)]
        simp only [List.length_cons]
        omega
    · by_cases hlt : i ≤ d
      · have hs : d - i = (d - (i + 1)) + 1 := by omega
        simp only [show i + 1 ≤ d by omega, if_true] at this
        rw [if_pos hlt, if_pos hlt, hs]
        simp only [popped, List.map_cons, List.getD_cons_succ] at this ⊢
        rw [← this]
        cases q with
        | nil => rfl
        | cons p q => simp [fronts, hd]
      · simp only [show ¬ i + 1 ≤ d by omega, if_false] at this
        rw [if_neg hlt, if_neg hlt]
        cases q with
        | nil => exact this
        | cons p q => simpa [fronts, hd] using this

theorem noted_collect (k : Kind) (fuel : Nat) (qs : List (List (List α))) (g : Global) (hf : remaining qs < fuel) :
    Noted k (packetSizes qs) (fun d => (qs.getD d []).length) g (collect k fuel qs g) := by
  induction fuel generalizing qs g with
  | zero => omega
  | succ fuel ih =>
    unfold collect
    split_ifs with h0
    · obtain ⟨_, h2⟩ := remaining_zero h0
      refine noted_congr (noted_refl k g) ?_ ?_
      · rw [h2]
        have : (qs.map fun _ => ([] : List (List α))).flatten = [] := by simp
        simp [packetSizes]
      · intro d
        rw [h2]
        simp only [List.getD, List.getElem?_map]
        cases qs[d]? <;> rfl
    · have := remaining_popped qs h0
      refine noted_congr (noted_trans (noted_foldl k (fronts 0 qs) g) (ih (popped qs) _ (by omega))) (fronts_sizes 0 qs) ?_
      intro d
      simpa using fronts_to 0 qs d

theorem noted_collected (k : Kind) (qs : List (List (List α))) (g : Global) :
    Noted k (packetSizes qs) (fun d => (qs.getD d []).length) g (collected k qs g) :=
  noted_collect k _ qs g (by omega)

/-! ## Queues -/

theorem packetSizes_sum (qs : List (List (List α))) :
    (packetSizes qs).sum = ((List.range qs.length).map fun ds => (queued qs ds).length).sum := by
  have h1 : (packetSizes qs).sum = (qs.map fun t => t.flatten.length).sum := by
    induction qs with
    | nil => rfl
    | cons t qs ih =>
      unfold packetSizes at ih ⊢
      simp only [List.flatten_cons, List.map_append, List.sum_append, List.map_cons, List.sum_cons, ih, List.length_flatten]
  rw [h1]
  congr 1
  apply List.ext_getElem
  · simp
  · intro i h2 h3
    have h4 : i < qs.length := by simpa using h2
    simp [queued, List.getD, List.getElem?_eq_getElem h4]

theorem sum_add (l : List Nat) (f g : Nat → Nat) : (l.map fun x => f x + g x).sum = (l.map f).sum + (l.map g).sum := by
  induction l with
  | nil => rfl
  | cons x l ih => simp only [List.map_cons, List.sum_cons, ih]; omega

theorem sum_indicator (n j : Nat) : ((List.range n).map fun ds => if j = ds then 1 else 0).sum = if j < n then 1 else 0 := by
  induction n with
  | zero => rfl
  | succ n ih =>
    rw [List.range_succ, List.map_append, List.sum_append, ih]
    simp only [List.map_cons, List.map_nil, List.sum_cons, List.sum_nil, Nat.add_zero]
    split_ifs <;> omega

/-- Operations are counted by their datastores, if they have one. -/
theorem filter_sum {β γ : Type} (dst : β → Option Nat) (f : β → Option γ) (n : Nat) (l : List β)
    (h : ∀ x ∈ l, (f x).isSome → ∃ ds, ds < n ∧ dst x = some ds) :
    ((List.range n).map fun ds => ((l.filter fun x => dst x = some ds).filterMap f).length).sum = (l.filterMap f).length := by
  induction l with
  | nil => simp
  | cons x l ih =>
    have ih := ih (fun y hy => h y (List.mem_cons_of_mem _ hy))
    cases hf : f x with
    | none =>
      rw [List.filterMap_cons_none hf, ← ih]
      congr 1
      apply List.map_congr_left
      intro ds _
      by_cases hd : dst x = some ds
      · rw [List.filter_cons_of_pos (by simpa using hd), List.filterMap_cons_none hf]
      · rw [List.filter_cons_of_neg (by simpa using hd)]
    | some y =>
      obtain ⟨j, hj, hjd⟩ := h x List.mem_cons_self (by rw [hf]; rfl)
      rw [List.filterMap_cons_some hf, List.length_cons, ← ih]
      have : ∀ ds, (((x :: l).filter fun x => dst x = some ds).filterMap f).length =
          ((l.filter fun x => dst x = some ds).filterMap f).length + if j = ds then 1 else 0 := by
        intro ds
        by_cases hd : j = ds
        · subst hd
          rw [List.filter_cons_of_pos (by simpa using hjd), List.filterMap_cons_some hf, List.length_cons, if_pos rfl]
        · rw [List.filter_cons_of_neg (by simpa [hjd] using hd), if_neg hd]; rfl
      simp only [this]
      rw [sum_add, sum_indicator, if_pos hj]

/-- The general step: queues that grow by the operations of one kind. -/
theorem grow {γ : Type} {hash : Bytes → Bytes → Out Int} {l : List Op} {qs qs' : List (List (List γ))} {n : Nat}
    (f : Op → Option γ) (hl : ∀ x ∈ l, (dest hash x).isSome) (h1 : qs.length = n) (h2 : qs'.length = n)
    (h : ∀ ds, queued qs' ds = queued qs ds ++ (l.filter fun x => dest hash x = some ds).filterMap f) :
    (packetSizes qs').sum = (packetSizes qs).sum + (l.filterMap f).length := by
  rw [packetSizes_sum, packetSizes_sum, h1, h2, ← filter_sum (dest hash) f n l, ← sum_add]
  · congr 1
    apply List.map_congr_left
    intro ds _
    rw [h ds, List.length_append]
  · intro x hx hf
    obtain ⟨ds, hds⟩ := Option.isSome_iff_exists.1 (hl x hx)
    refine ⟨ds, ?_, hds⟩
    by_contra hn
    have h3 := h ds
    have h4 : queued qs' ds = [] := by simp [queued, List.getD, List.getElem?_eq_none (show qs'.length ≤ ds by omega)]
    have h5 : queued qs ds = [] := by simp [queued, List.getD, List.getElem?_eq_none (show qs.length ≤ ds by omega)]
    rw [h4, h5, List.nil_append] at h3
    obtain ⟨y, hy⟩ := Option.isSome_iff_exists.1 hf
    have : y ∈ (l.filter fun x => dest hash x = some ds).filterMap f :=
      List.mem_filterMap.2 ⟨x, List.mem_filter.2 ⟨hx, by simpa using hds⟩, hy⟩
    rw [← h3] at this
    cases this

theorem filterMap_kind {γ : Type} (f : Op → Option γ) (k : Kind) (h : ∀ x : Op, (f x).isSome ↔ x.kind = k) (l : List Op) :
    (l.filterMap f).length = (l.filter fun x => x.kind = k).length := by
  induction l with
  | nil => rfl
  | cons x l ih =>
    cases hf : f x with
    | none =>
      have : ¬ x.kind = k := fun e => by simpa [hf] using (h x).2 e
      rw [List.filterMap_cons_none hf, ih, List.filter_cons_of_neg (by simpa using this)]
    | some y =>
      have : x.kind = k := (h x).1 (by rw [hf]; rfl)
      rw [List.filterMap_cons_some hf, List.filter_cons_of_pos (by simpa using this), List.length_cons, List.length_cons, ih]

theorem ops_placed (hash : Bytes → Bytes → Out Int) (servers : Nat) (x : Call) :
    ∀ y ∈ ops hash servers x, (dest hash y).isSome := by
  have hput : ∀ a, ∀ y ∈ putOps hash a, (dest hash y).isSome := by
    intro a y hy
    obtain ⟨t, ht, rfl⟩ := List.mem_map.1 hy
    have hh := List.mem_takeWhile_imp ht
    exact hh
  have hpl : ∀ z, ∀ y ∈ placed hash z, (dest hash y).isSome := by
    intro z y hy
    unfold placed at hy
    split_ifs at hy with h
    · rw [List.mem_singleton.1 hy]; exact h
    · cases hy
  intro y hy
  cases x with
  | put a => simp only [ops] at hy; split_ifs at hy; exacts [hput a y hy, nomatch hy]
  | get a => simp only [ops] at hy; split_ifs at hy; exacts [hpl _ y hy, nomatch hy]
  | getop a => simp only [ops] at hy; split_ifs at hy; exacts [hpl _ y hy, nomatch hy]
  | del a => simp only [ops] at hy; split_ifs at hy; exacts [hpl _ y hy, nomatch hy]
  | hist a => simp only [ops] at hy; split_ifs at hy; exacts [by rw [List.mem_singleton.1 hy]; rfl, nomatch hy]
  | bput b l =>
    simp only [ops] at hy; split_ifs at hy
    · obtain ⟨a, _, hy⟩ := List.mem_flatMap.1 hy; exact hput a y hy
    · cases hy
  | bget b l =>
    simp only [ops] at hy; split_ifs at hy
    · obtain ⟨a, _, hy⟩ := List.mem_flatMap.1 hy; exact hpl _ y hy
    · cases hy
  | bgetop b l =>
    simp only [ops] at hy; split_ifs at hy
    · obtain ⟨a, _, hy⟩ := List.mem_flatMap.1 hy; exact hpl _ y hy
    · cases hy
  | bdel b l =>
    simp only [ops] at hy; split_ifs at hy
    · obtain ⟨a, _, hy⟩ := List.mem_flatMap.1 hy; exact hpl _ y hy
    · cases hy
  | bhist b l =>
    simp only [ops] at hy; split_ifs at hy
    · obtain ⟨a, _, rfl⟩ := List.mem_map.1 hy; rfl
    · cases hy

/-- A call queues the operations it asks for. -/
theorem call_packets {c : Cfg} {x : Call} {q q' : Queues} {b : Bool} {n : Nat} (hn : Sized n q)
    (h : Queue.exec c q x = .ok (q', b)) (k : Kind) :
    (packets k q').sum = (packets k q).sum + ((ops c.hash c.servers x).filter fun y => y.kind = k).length := by
  have hs := exec_ok h
  have hl := ops_placed c.hash c.servers x
  have hn' := hs.sized n hn
  cases k with
  | put =>
    rw [← filterMap_kind (γ := PutItem) (fun | .put s p o => some ⟨s, s.addr, p, p.addr, o⟩ | _ => none) .put
      (by intro x; cases x <;> simp [Op.kind])]
    exact grow _ hl hn.1 hn'.1 hs.ext.puts
  | get =>
    rw [← filterMap_kind (γ := GetItem) (fun | .get s p t => some ⟨s, s.addr, p, p.addr, t⟩ | _ => none) .get
      (by intro x; cases x <;> simp [Op.kind])]
    exact grow _ hl hn.2.1 hn'.2.1 hs.ext.gets
  | getop =>
    rw [← filterMap_kind (γ := GetOpItem) (fun | .getop op s p t n => some ⟨op, s, p, t, n⟩ | _ => none) .getop
      (by intro x; cases x <;> simp [Op.kind])]
    exact grow _ hl hn.2.2.1 hn'.2.2.1 hs.ext.getops
  | del =>
    rw [← filterMap_kind (γ := DelItem) (fun | .del s p => some ⟨s, s.addr, p, p.addr⟩ | _ => none) .del
      (by intro x; cases x <;> simp [Op.kind])]
    exact grow _ hl hn.2.2.2.1 hn'.2.2.2.1 hs.ext.dels
  | sync =>
    have : (ops c.hash c.servers x).filter (fun y => y.kind = .sync) = [] := by
      rw [List.filter_eq_nil_iff]; intro y _; cases y <;> simp [Op.kind]
    rw [this]; rfl
  | hist =>
    rw [← filterMap_kind (γ := Blob) (fun | .hist _ name => some name | _ => none) .hist
      (by intro x; cases x <;> simp [Op.kind])]
    exact grow _ hl hn.2.2.2.2 hn'.2.2.2.2 hs.ext.hists

/-! ## Flushes -/

variable {σ : Type}

theorem process_queues {net : Net} {serve : Server σ} {mk : List α → ReqBody} {s : σ} {qs : List (List (List α))}
    {x : σ × Results × List (List (List α))} (h : process net serve mk s qs = .ok x) : x.2.2 = qs.map fun _ => [] :=
  (processLoop_ok (show processLoop _ _ _ _ _ _ _ = .ok (x.1, x.2.1, x.2.2) from h)).1

theorem packetSizes_nil (qs : List (List (List α))) : packetSizes (qs.map fun _ => ([] : List (List α))) = [] := by
  have : (qs.map fun _ => ([] : List (List α))).flatten = [] := by simp
  simp [packetSizes]

/-- A flush notes the packets of its kind and empties their queues. -/
theorem flush_ok {net : Net} {serve : Server σ} {k : Kind} {s s' : σ} {q q' : Queues} {g g' : Global}
    (h : flush net serve k s q g = .ok (s', q', g')) :
    Noted k (packets k q) (packetsTo k q) g g' ∧ packets k q' = [] ∧ (∀ k', k' ≠ k → packets k' q' = packets k' q) ∧
    (∀ n, Sized n q → Sized n q') ∧ ∀ P, AllPackets P q → AllPackets P q' := by
  have hall : ∀ {α : Type} (qs : List (List (List α))) (P : List α → Prop),
      ∀ t ∈ qs.map (fun _ => ([] : List (List α))), ∀ pk ∈ t, P pk := by
    intro α qs P t ht pk hpk
    obtain ⟨_, _, rfl⟩ := List.mem_map.1 ht
    cases hpk
  cases k with
  | put =>
    obtain ⟨x, hx, h⟩ := Queue.bind_ok h
    obtain ⟨y, hy, hx⟩ := Queue.bind_ok hx
    have := process_queues hy
    cases hx; cases h
    refine ⟨noted_collected _ _ _, ?_, ?_, ?_, ?_⟩
    · simp only [packets, this, packetSizes_nil]
    · intro k' hk; cases k' <;> first | rfl | exact absurd rfl hk
    · intro n hn; simpa [Sized, this] using hn
    · intro P hP; exact ⟨by rw [this]; exact hall _ _, hP.gets, hP.getops, hP.dels, hP.hists⟩
  | get =>
    obtain ⟨x, hx, h⟩ := Queue.bind_ok h
    obtain ⟨y, hy, hx⟩ := Queue.bind_ok hx
    have := process_queues hy
    cases hx; cases h
    refine ⟨noted_collected _ _ _, ?_, ?_, ?_, ?_⟩
    · simp only [packets, this, packetSizes_nil]
    · intro k' hk; cases k' <;> first | rfl | exact absurd rfl hk
    · intro n hn; simpa [Sized, this] using hn
    · intro P hP; exact ⟨hP.puts, by rw [this]; exact hall _ _, hP.getops, hP.dels, hP.hists⟩
  | getop =>
    obtain ⟨x, hx, h⟩ := Queue.bind_ok h
    obtain ⟨y, hy, hx⟩ := Queue.bind_ok hx
    have := process_queues hy
    cases hx; cases h
    refine ⟨noted_collected _ _ _, ?_, ?_, ?_, ?_⟩
    · simp only [packets, this, packetSizes_nil]
    · intro k' hk; cases k' <;> first | rfl | exact absurd rfl hk
    · intro n hn; simpa [Sized, this] using hn
    · intro P hP; exact ⟨hP.puts, hP.gets, by rw [this]; exact hall _ _, hP.dels, hP.hists⟩
  | del =>
    obtain ⟨x, hx, h⟩ := Queue.bind_ok h
    obtain ⟨y, hy, hx⟩ := Queue.bind_ok hx
    have := process_queues hy
    cases hx; cases h
    refine ⟨noted_collected _ _ _, ?_, ?_, ?_, ?_⟩
    · simp only [packets, this, packetSizes_nil]
    · intro k' hk; cases k' <;> first | rfl | exact absurd rfl hk
    · intro n hn; simpa [Sized, this] using hn
    · intro P hP; exact ⟨hP.puts, hP.gets, hP.getops, by rw [this]; exact hall _ _, hP.hists⟩
  | sync =>
    cases h
    exact ⟨noted_refl _ _, rfl, fun _ _ => rfl, fun _ h => h, fun _ h => h⟩
  | hist =>
    obtain ⟨x, hx, h⟩ := Queue.bind_ok h
    obtain ⟨y, hy, hx⟩ := Queue.bind_ok hx
    have := process_queues hy
    cases hx; cases h
    refine ⟨noted_collected _ _ _, ?_, ?_, ?_, ?_⟩
    · simp only [packets, this, packetSizes_nil]
    · intro k' hk; cases k' <;> first | rfl | exact absurd rfl hk
    · intro n hn; simpa [Sized, this] using hn
    · intro P hP; exact ⟨hP.puts, hP.gets, hP.getops, hP.dels, by rw [this]; exact hall _ _⟩

theorem timed_used (c : Cfg) (ns : Nat) (g : Global) (x : Call) :
    (timed c ns g x).used = g.used ∧ (timed c ns g x).outgoing = g.outgoing := by
  cases x <;> simp only [timed] <;> split_ifs <;> exact ⟨rfl, rfl⟩

/-- All packets of a kind have sizes with a property. -/
theorem packets_all {P : Nat → Prop} {q : Queues} (h : AllPackets (fun b => P b.count) q) (k : Kind) :
    ∀ n ∈ packets k q, P n := by
  intro n hn
  cases k <;> simp only [packets, packetSizes, List.mem_map, List.mem_flatten] at hn
  case put => obtain ⟨pk, ⟨t, ht, hp⟩, rfl⟩ := hn; exact h.puts t ht pk hp
  case get => obtain ⟨pk, ⟨t, ht, hp⟩, rfl⟩ := hn; exact h.gets t ht pk hp
  case getop => obtain ⟨pk, ⟨t, ht, hp⟩, rfl⟩ := hn; exact h.getops t ht pk hp
  case del => obtain ⟨pk, ⟨t, ht, hp⟩, rfl⟩ := hn; exact h.dels t ht pk hp
  case sync => cases hn
  case hist => obtain ⟨pk, ⟨t, ht, hp⟩, rfl⟩ := hn; exact h.hists t ht pk hp

/-- Everything about actions and packets. -/
theorem run_ok {c : Cfg} {net : Net} {serve : Server σ} {acts : List Act} {s s' : σ} {q q' : Queues} {g g' : Global} {n : Nat}
    (hn : Sized n q) (h : run c net serve acts s q g = .ok (s', q', g')) :
    (∀ k, (g'.used k).sum + (packets k q').sum =
      (g.used k).sum + (packets k q).sum + (opsAsked c.hash c.servers k acts).length) ∧
    (Inv g → Inv g') ∧ Sized n q' ∧
    (AllPackets (Limited c) q → AllPackets (Limited c) q' ∧
      ((∀ k, ∀ m ∈ g.used k, 0 < m ∧ m ≤ c.maxOps) → ∀ k, ∀ m ∈ g'.used k, 0 < m ∧ m ≤ c.maxOps)) ∧
    ((∀ k, ∀ x ∈ g.outgoing k, x.1 < n) → Inv g → ∀ k, ∀ x ∈ g'.outgoing k, x.1 < n) := by
  induction acts generalizing s q g with
  | nil => cases h; exact ⟨fun k => by simp [opsAsked], id, hn, fun x => ⟨x, id⟩, fun x _ => x⟩
  | cons a acts ih =>
    cases a with
    | call x ns =>
      obtain ⟨r, hr, h⟩ := Queue.bind_ok h
      have hs := exec_ok (show Queue.exec c q x = .ok (r.1, r.2) from hr)
      obtain ⟨h1, h2, h3, h4, h5⟩ := ih (hs.sized n hn) h
      obtain ⟨hu, ho⟩ := timed_used c ns g x
      refine ⟨fun k => ?_, fun hi => h2 ?_, h3, fun hl => ?_, fun hb hi => h5 ?_ ?_⟩
      · rw [h1 k, hu, call_packets hn hr k]
        simp only [opsAsked, List.flatMap_cons, List.filter_append, List.length_append]
        omega
      · exact ⟨by rw [ho]; exact hi.ordered, by rw [ho]; exact hi.pos, by rw [ho, hu]; exact hi.sum⟩
      · obtain ⟨h6, h7⟩ := h4 (hs.lim hl)
        exact ⟨h6, fun hg => h7 (by rw [hu]; exact hg)⟩
      · rw [ho]; exact hb
      · exact ⟨by rw [ho]; exact hi.ordered, by rw [ho]; exact hi.pos, by rw [ho, hu]; exact hi.sum⟩
    | flush k0 =>
      obtain ⟨r, hr, h⟩ := Queue.bind_ok h
      obtain ⟨f1, f2, f3, f4, f5⟩ := flush_ok (show flush net serve k0 s q g = .ok (r.1, r.2.1, r.2.2) from hr)
      obtain ⟨h1, h2, h3, h4, h5⟩ := ih (f4 n hn) h
      refine ⟨fun k => ?_, fun hi => h2 (f1.inv hi), h3, fun hl => ?_, fun hb hi => h5 ?_ (f1.inv hi)⟩
      · have hask : opsAsked c.hash c.servers k (.flush k0 :: acts) = opsAsked c.hash c.servers k acts := by
          simp [opsAsked]
        rw [h1 k, hask]
        by_cases hk : k = k0
        · subst hk
          rw [f1.used.sum_eq, f2, List.sum_append]; simp
        · rw [(f1.others k hk).1, f3 k hk]
      · obtain ⟨h6, h7⟩ := h4 (f5 _ hl)
        refine ⟨h6, fun hg => h7 fun k m hm => ?_⟩
        by_cases hk : k = k0
        · subst hk
          rcases List.mem_append.1 (f1.used.mem_iff.1 hm) with hm | hm
          · exact hg k m hm
          · exact packets_all (P := fun m => 0 < m ∧ m ≤ c.maxOps)
              ⟨fun t ht pk hp => ⟨(hl.puts t ht pk hp).pos, (hl.puts t ht pk hp).ops⟩,
                fun t ht pk hp => ⟨(hl.gets t ht pk hp).pos, (hl.gets t ht pk hp).ops⟩,
                fun t ht pk hp => ⟨(hl.getops t ht pk hp).pos, (hl.getops t ht pk hp).ops⟩,
                fun t ht pk hp => ⟨(hl.dels t ht pk hp).pos, (hl.dels t ht pk hp).ops⟩,
                fun t ht pk hp => ⟨(hl.hists t ht pk hp).pos, (hl.hists t ht pk hp).ops⟩⟩ k m hm
        · rw [(f1.others k hk).1] at hm; exact hg k m hm
      · intro k x hx
        by_cases hk : k = k0
        · subst hk
          have hc := f1.outgoing hi x.1
          by_contra hge
          have hto : packetsTo k q x.1 = 0 := by
            have : ∀ {α : Type} (qs : List (List (List α))), qs.length = n → (qs.getD x.1 []).length = 0 := by
              intro α qs hq
              simp [List.getD, List.getElem?_eq_none (show qs.length ≤ x.1 by omega)]
            cases k <;> simp only [packetsTo]
            · exact this _ hn.1
            · exact this _ hn.2.1
            · exact this _ hn.2.2.1
            · exact this _ hn.2.2.2.1
            · exact this _ hn.2.2.2.2
          have hg : count (g.outgoing k) x.1 = 0 := count_absent (by
            intro hm
            obtain ⟨y, hy, hyx⟩ := List.mem_map.1 hm
            have := hb k y hy
            omega)
          rw [hto, hg] at hc
          have hpos := (f1.inv hi).pos k x hx
          have : ∀ {l : List (Nat × Nat)}, Ordered l → x ∈ l → count l x.1 = x.2 := by
            intro l hl hx
            induction l with
            | nil => cases hx
            | cons e l ih =>
              obtain ⟨e, m⟩ := e
              unfold Ordered at hl
              rw [List.pairwise_cons] at hl
              rw [count_cons]
              rcases List.mem_cons.1 hx with rfl | hx
              · simp
              · have := hl.1 x hx
                rw [if_neg (by simp only at this; omega)]
                exact ih hl.2 hx
          rw [this ((f1.inv hi).ordered k) hx] at hc
          omega
        · rw [(f1.others k hk).2] at hx; exact hb k x hx

/-! ## Times -/

theorem flush_times {net : Net} {serve : Server σ} {k : Kind} {s s' : σ} {q q' : Queues} {g g' : Global}
    (h : flush net serve k s q g = .ok (s', q', g')) : g'.single = g.single ∧ g'.bulk = g.bulk :=
  ⟨(flush_ok h).1.single, (flush_ok h).1.bulk⟩

/-- The map a call leaves its time in. -/
def intoBulk : Call → Bool
  | .getop _ => true
  | x => isBulk x

theorem timed_eq (c : Cfg) (ns : Nat) (g : Global) (x : Call) (k : Kind) :
    (timed c ns g x).single k =
      g.single k ++ (if Acceptable c.servers x ∧ intoBulk x = false ∧ callKind x = k then [ns] else []) ∧
    (timed c ns g x).bulk k =
      g.bulk k ++ (if Acceptable c.servers x ∧ intoBulk x = true ∧ callKind x = k then [ns] else []) := by
  have key : ∀ (f : Kind → List Nat) (b : Kind), push f b ns k = f k ++ if b = k then [ns] else [] := by
    intro f b
    unfold push
    by_cases h : k = b
    · subst h; simp
    · simp [h, Ne.symm h]
  cases x <;> simp only [timed, Acceptable, intoBulk, isBulk, callKind, Bool.and_eq_true, given_iff, rsOk_iff,
    List.all_eq_true, and_assoc] <;> split_ifs <;> simp_all

theorem run_times {c : Cfg} {net : Net} {serve : Server σ} {acts : List Act} {s s' : σ} {q q' : Queues} {g g' : Global}
    (h : run c net serve acts s q g = .ok (s', q', g')) (k : Kind) :
    g'.single k = g.single k ++ acts.filterMap (fun
      | .call x ns => if Acceptable c.servers x ∧ intoBulk x = false ∧ callKind x = k then some ns else none
      | .flush _ => none) ∧
    g'.bulk k = g.bulk k ++ acts.filterMap (fun
      | .call x ns => if Acceptable c.servers x ∧ intoBulk x = true ∧ callKind x = k then some ns else none
      | .flush _ => none) := by
  induction acts generalizing s q g with
  | nil => cases h; simp
  | cons a acts ih =>
    cases a with
    | call x ns =>
      obtain ⟨r, hr, h⟩ := Queue.bind_ok h
      obtain ⟨h1, h2⟩ := ih h
      obtain ⟨h3, h4⟩ := timed_eq c ns g x k
      rw [h1, h2, h3, h4]
      constructor
      · split_ifs with hc <;> simp [hc]
      · split_ifs with hc <;> simp [hc]
    | flush k0 =>
      obtain ⟨r, hr, h⟩ := Queue.bind_ok h
      obtain ⟨h1, h2⟩ := ih h
      obtain ⟨h3, h4⟩ := flush_times (show flush net serve k0 s q g = .ok (r.1, r.2.1, r.2.2) from hr)
      rw [h1, h2, h3, h4]
      simp

theorem intoBulk_eq {x : Call} (h : callKind x ≠ .getop) : intoBulk x = isBulk x := by
  cases x <;> simp_all [intoBulk, callKind]

theorem intoBulk_getop {x : Call} (h : callKind x = .getop) : intoBulk x = true := by
  cases x <;> simp_all [intoBulk, isBulk, callKind]

end Hx.Stats

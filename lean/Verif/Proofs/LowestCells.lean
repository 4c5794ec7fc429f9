import Verif.Model.Lowest
import Verif.Spec.Lowest
import Verif.Proofs.Lowest
import Verif.Props.C26_Queue

/-!
# Helper lemmas: the first of a sorted list, and the cells of `lowest.c`
-/

namespace Hx.Spec

/-- A sorted selection that leaves out only what is larger than all of it, when it is full, is a beginning. -/
theorem eq_take_of_lowest {α : Type} {value : α → ℚ} {srt sel : List α} {n : Nat} (ho : srt.Pairwise (fun r s => value r < value s))
    (hs : sel.Pairwise (fun r s => value r < value s)) (hsub : ∀ r ∈ sel, r ∈ srt) (hlen : sel.length ≤ n)
    (hall : ∀ r ∈ srt, r ∈ sel ∨ (sel.length = n ∧ ∀ s ∈ sel, value s < value r)) : sel = srt.take n := by
  induction srt generalizing sel n with
  | nil =>
    cases sel with
    | nil => simp
    | cons a l => exact absurd (hsub a List.mem_cons_self) List.not_mem_nil
  | cons a srt ih =>
    have ho' := List.pairwise_cons.mp ho
    cases sel with
    | nil =>
      rcases hall a List.mem_cons_self with h | ⟨h, -⟩
      · cases h
      · simp only [List.length_nil] at h; subst h; rfl
    | cons b sel =>
      have hs' := List.pairwise_cons.mp hs
      have hba : b = a := by
        rcases List.mem_cons.mp (hsub b List.mem_cons_self) with h | h
        · exact h
        · exfalso
          have hab := ho'.1 b h
          rcases hall a List.mem_cons_self with h1 | ⟨-, h1⟩
          · rcases List.mem_cons.mp h1 with h1 | h1
            · subst h1; exact lt_irrefl _ hab
            · exact lt_asymm hab (hs'.1 a h1)
          · exact lt_asymm hab (h1 b List.mem_cons_self)
      subst hba
      cases n with
      | zero => simp at hlen
      | succ n =>
        rw [List.take_succ_cons]
        congr 1
        refine ih ho'.2 hs'.2 ?_ (by simpa using hlen) ?_
        · intro r hr
          rcases List.mem_cons.mp (hsub r (List.mem_cons_of_mem _ hr)) with h | h
          · subst h; exact absurd (hs'.1 r hr) (lt_irrefl _)
          · exact h
        · intro r hr
          rcases hall r (List.mem_cons_of_mem _ hr) with h | ⟨h1, h2⟩
          · rcases List.mem_cons.mp h with h | h
            · subst h; exact absurd (ho'.1 r hr) (lt_irrefl _)
            · exact .inl h
          · exact .inr ⟨by simpa using h1, fun s hs => h2 s (List.mem_cons_of_mem _ hs)⟩

end Hx.Spec

namespace Hx.Lowest
open Hx Msg Spec Queue

/-! ## The array of cells -/

theorem mem_grid {numX numY : Nat} {c : Nat × Nat} : c ∈ grid numX numY ↔ c.1 < numX ∧ c.2 < numY := by
  unfold grid
  simp only [List.mem_flatMap, List.mem_range, List.mem_map]
  constructor
  · rintro ⟨x, hx, y, hy, rfl⟩; exact ⟨hx, hy⟩
  · rintro ⟨hx, hy⟩; exact ⟨c.1, hx, c.2, hy, rfl⟩

theorem fill_ub {numX : Nat} {rank : Int} {temp : Nat → Nat → Bytes} {l : List (Nat × Nat)} {m : List Cell}
    (h : ∃ c ∈ l, m.length ≤ index numX c.1 c.2) : fill numX rank temp l m = .ub := by
  induction l generalizing m with
  | nil => obtain ⟨c, hc, -⟩ := h; cases hc
  | cons a l ih =>
    unfold fill
    split
    · rename_i ha
      apply ih
      obtain ⟨c, hc, h⟩ := h
      rcases List.mem_cons.mp hc with rfl | hc
      · omega
      · exact ⟨c, hc, by rw [List.length_set]; exact h⟩
    · rfl

/-- What the array holds at `i` afterwards: the last cell with this index. -/
theorem fill_get {numX : Nat} {rank : Int} {temp : Nat → Nat → Bytes} {l : List (Nat × Nat)} {m : List Cell}
    (h : ∀ c ∈ l, index numX c.1 c.2 < m.length) :
    ∃ m', fill numX rank temp l m = .ok m' ∧ (∀ i, (∀ c ∈ l, index numX c.1 c.2 ≠ i) → m'[i]? = m[i]?) ∧
      ∀ l1 c l2, l = l1 ++ c :: l2 → (∀ c' ∈ l2, index numX c'.1 c'.2 ≠ index numX c.1 c.2) →
        m'[index numX c.1 c.2]? = some ⟨cellName rank c.1 c.2, temp c.1 c.2⟩ := by
  induction l generalizing m with
  | nil => exact ⟨m, rfl, fun _ _ => rfl, fun l1 c l2 h => by cases l1 <;> cases h⟩
  | cons a l ih =>
    have ha := h a List.mem_cons_self
    unfold fill
    rw [if_pos ha]
    obtain ⟨m', h1, h2, h3⟩ := ih (m := m.set (index numX a.1 a.2) ⟨cellName rank a.1 a.2, temp a.1 a.2⟩)
      (fun c hc => by rw [List.length_set]; exact h c (List.mem_cons_of_mem _ hc))
    refine ⟨m', h1, ?_, ?_⟩
    · intro i hi
      rw [h2 i (fun c hc => hi c (List.mem_cons_of_mem _ hc)), List.getElem?_set_ne (hi a List.mem_cons_self)]
    · intro l1 c l2 e hl
      cases l1 with
      | nil =>
        injection e with e1 e2
        subst e1 e2
        rw [h2 _ hl, List.getElem?_set_self ha]
      | cons b l1 =>
        injection e with e1 e2
        exact h3 l1 c l2 e2 hl

theorem sent_of_injective {numX numY : Nat} {rank : Int} {temp : Nat → Nat → Bytes}
    (hr : ∀ c ∈ grid numX numY, index numX c.1 c.2 < numX * numY)
    (hi : ∀ c ∈ grid numX numY, ∀ c' ∈ grid numX numY, index numX c.1 c.2 = index numX c'.1 c'.2 → c = c') (hn : (grid numX numY).Nodup) :
    sent numX numY rank temp = .ok ((grid numX numY).map (fun c => ⟨cellName rank c.1 c.2, temp c.1 c.2⟩)) := by
  obtain ⟨m, h1, -, h3⟩ := fill_get (rank := rank) (temp := temp) (m := List.replicate (numX * numY) ⟨[], []⟩)
    (fun c hc => by rw [List.length_replicate]; exact hr c hc)
  unfold sent
  rw [h1, Out.ok_bind]
  congr 1
  apply List.map_congr_left
  intro c hc
  obtain ⟨l1, l2, e⟩ := List.append_of_mem hc
  rw [List.getD_eq_getElem?_getD, h3 l1 c l2 e]
  · rfl
  · intro c' hc' e'
    have hm : c' ∈ grid numX numY := by rw [e]; simp [hc']
    have := hi c' hm c hc e'
    subst this
    rw [e] at hn
    exact (List.nodup_cons.mp (List.nodup_append.mp hn).2.1).1 hc'

theorem nodup_grid (numX numY : Nat) : (grid numX numY).Nodup := by
  unfold grid
  rw [List.nodup_flatMap]
  refine ⟨fun x _ => List.Nodup.map (fun a b h => congrArg Prod.snd h) List.nodup_range, ?_⟩
  refine List.Pairwise.imp ?_ (List.nodup_range (n := numX))
  intro x x' hne
  rw [Function.onFun, List.disjoint_left]
  intro c hc hc'
  simp only [List.mem_map, List.mem_range] at hc hc'
  obtain ⟨y, -, rfl⟩ := hc
  obtain ⟨y', -, e⟩ := hc'
  exact hne (congrArg Prod.fst e).symm

/-! ## The queued PUTs -/

/-- The six triples of a cell. -/
theorem wanted_all (s p o : Blob) : wanted ⟨s, p, o, 0x3f⟩ = [(s, p, o), (s, o, p), (p, s, o), (p, o, s), (o, s, p), (o, p, s)] := by
  have e : orderings.zipIdx.filter (fun x => (0x3f : Nat).testBit x.2) = orderings.zipIdx := by decide
  unfold wanted
  simp only
  rw [e]
  rfl

def cellItems (a : Nat) (c : Cell) : List PutItem :=
  (wanted ⟨⟨a, c.name, Store.tByte⟩, ⟨a, attr, Store.tByte⟩, ⟨a, c.temp, Store.tDouble⟩, 0x3f⟩).map
    (fun x => ⟨x.1, x.1.addr, x.2.1, x.2.1.addr, x.2.2⟩)

theorem putsFor_cells {a servers : Nat} (ha : a ≠ 0) {l : List Cell} (hl : ∀ c ∈ l, c.name ≠ [] ∧ c.temp ≠ []) :
    putsFor (fun _ _ => .ok 0) 0 ((l.map (putCall a)).flatMap (ops (fun _ _ => .ok 0) servers)) = l.flatMap (cellItems a) := by
  induction l with
  | nil => rfl
  | cons c l ih =>
    obtain ⟨h1, h2⟩ := hl c List.mem_cons_self
    have hg : Given ⟨a, c.name, Store.tByte⟩ ∧ Given ⟨a, attr, Store.tByte⟩ ∧ Given ⟨a, c.temp, Store.tDouble⟩ :=
      ⟨⟨ha, h1⟩, ⟨ha, (by decide : attr ≠ [])⟩, ⟨ha, h2⟩⟩
    have e : ops (fun _ _ => .ok 0) servers (putCall a c) =
        (wanted ⟨⟨a, c.name, Store.tByte⟩, ⟨a, attr, Store.tByte⟩, ⟨a, c.temp, Store.tDouble⟩, 0x3f⟩).map (fun x => .put x.1 x.2.1 x.2.2) := by
      unfold putCall
      simp only [ops]
      rw [if_pos hg]
      unfold putOps
      rw [wanted_all]
      rfl
    rw [List.map_cons, List.flatMap_cons, List.flatMap_cons, ← ih (fun c hc => hl c (List.mem_cons_of_mem _ hc)), e]
    unfold putsFor
    rw [List.filter_append, List.filterMap_append]
    congr 1
    unfold cellItems
    rw [wanted_all]
    rfl

/-- What the PUTs of a rank put into the queue of the first datastore. -/
theorem queued_cells {c : Cfg} (hc : c.hash = fun _ _ => .ok 0) {total a : Nat} (ha : a ≠ 0) {l : List Cell}
    (hl : ∀ x ∈ l, x.name ≠ [] ∧ x.temp ≠ []) {q : Queues} (hq : calls c true (Queues.init total) (l.map (putCall a)) = .ok q) :
    (q.puts.getD 0 []).flatten = l.flatMap (cellItems a) := by
  have := (Props.C27_order c _ _ q hq).puts 0
  rw [hc, putsFor_cells ha hl] at this
  have e : queued (Queues.init total).puts 0 = [] := by
    unfold queued Queues.init
    cases total <;> rfl
  rw [e, List.nil_append] at this
  exact this

theorem records_of_delivered {b : Store.Backend} {a : Nat} {rs : List Reading} {cells : List Cell} {packets : List (List PutItem)}
    (hcells : cells.map (fun c => (⟨c.name, ⟨c.temp, Store.tDouble⟩⟩ : Reading)) = rs) (hp : packets.flatten = cells.flatMap (cellItems a))
    {hist : List (Bool × ReqBody)} (hd : Delivered packets hist) :
    Records b attr rs hist ∧ ∀ r ∈ rs, ∃ x ∈ hist, ∃ l, x.2 = .put l ∧ ∃ y ∈ l, y.subject.val = r.num := by
  have item : ∀ p ∈ packets, ∀ x ∈ p, ∃ r ∈ rs, (x.subject.val, x.predicate.val, x.object.val) ∈ orders (text r.name) (text attr) r.num := by
    intro p hp' x hx
    have : x ∈ packets.flatten := List.mem_flatten.mpr ⟨p, hp', hx⟩
    rw [hp, List.mem_flatMap] at this
    obtain ⟨c, hc, hx⟩ := this
    refine ⟨⟨c.name, ⟨c.temp, Store.tDouble⟩⟩, ?_, ?_⟩
    · rw [← hcells]; exact List.mem_map_of_mem hc
    · unfold cellItems at hx
      rw [wanted_all] at hx
      simp only [List.map_cons, List.map_nil, List.mem_cons, List.not_mem_nil, or_false] at hx
      rcases hx with rfl | rfl | rfl | rfl | rfl | rfl <;> simp [orders, text, Blob.val]
  have find : ∀ r ∈ rs, ∀ v, v ∈ orders (text r.name) (text attr) r.num →
      ∃ x ∈ hist, ∃ l, x.2 = .put l ∧ ∃ y ∈ l, (y.subject.val, y.predicate.val, y.object.val) = v := by
    intro r hr v hv
    rw [← hcells, List.mem_map] at hr
    obtain ⟨c, hc, rfl⟩ := hr
    have : ∃ x ∈ cellItems a c, (x.subject.val, x.predicate.val, x.object.val) = v := by
      unfold cellItems
      rw [wanted_all]
      simp only [orders, List.mem_cons, List.not_mem_nil, or_false] at hv
      simp only [List.map_cons, List.map_nil, List.mem_cons, List.not_mem_nil, or_false, exists_eq_or_imp, exists_eq_left]
      rcases hv with rfl | rfl | rfl | rfl | rfl | rfl <;> simp [text, Blob.val]
    obtain ⟨x, hx, hxv⟩ := this
    have hm : x ∈ packets.flatten := by rw [hp]; exact List.mem_flatMap.mpr ⟨c, hc, hx⟩
    obtain ⟨p, hp', hxp⟩ := List.mem_flatten.mp hm
    obtain ⟨z, hz, l, hl, har⟩ := hd.all p hp'
    obtain ⟨y, hy, e1, e2, e3, -⟩ := Store.forall₂_exists_left har hxp
    exact ⟨z, hz, l, hl, y, hy, by rw [e1, e2, e3]; exact hxv⟩
  refine ⟨⟨?_, ?_, ?_⟩, ?_⟩
  · intro x hx l hl
    obtain ⟨h1, p, hp', l', hl', har⟩ := hd.only x hx
    rw [hl] at hl'; cases hl'
    refine ⟨.inr h1, fun y hy => ?_⟩
    obtain ⟨z, hz, e1, e2, e3, a1, a2, a3⟩ := Store.forall₂_exists_right har hy
    obtain ⟨r, hr, ho⟩ := item p hp' z hz
    exact ⟨a1, a2, a3, r, hr, by rw [e1, e2, e3]; exact ho⟩
  · intro r hr
    exact find r hr _ (by simp [orders])
  · intro x hx l hl
    obtain ⟨-, p, -, l', hl', -⟩ := hd.only x hx
    rw [hl] at hl'; cases hl'
  · intro r hr
    obtain ⟨x, hx, l, hl, y, hy, e⟩ := find r hr (r.num, text attr, text r.name) (by simp [orders])
    exact ⟨x, hx, l, hl, y, hy, congrArg Prod.fst e⟩

/-! ## Names -/

theorem told_cell {pos : UInt8} (hp : pos < 0x43) {rank : Int} {x y : Nat} (hl : (cellName rank x y).length < 2 ^ 64) :
    Told pos attr (cellName rank x y) := by
  have e : cellName rank x y = 0x43 :: (Config.str "ell-(" ++ showInt rank ++ Config.str ", " ++ Elen.toDec x ++ Config.str ", " ++
      Elen.toDec y ++ Config.str ")") := rfl
  have e' : attr = 0x54 :: Config.str "emp" := rfl
  refine ⟨⟨?_, ?_⟩, ⟨_, _, e', UInt8.lt_trans hp (by decide)⟩, ⟨_, _, e, hp⟩, by rw [e']; decide, hl⟩
  · rw [e, e', List.cons_prefix_cons]; exact fun h => absurd h.1 (by decide)
  · rw [e, e', List.cons_prefix_cons]; exact fun h => absurd h.1 (by decide)

end Hx.Lowest

import Verif.Spec.Config

/-!
# Reading of configurations: lemmas
-/

namespace Hx.Config
open Hx Spec.Config

theorem isSpace_iff (b : UInt8) : isSpace b = true ↔ Blank b := by
  simp only [isSpace, Blank, Bool.or_eq_true, Bool.and_eq_true, beq_iff_eq, decide_eq_true_eq, UInt8.le_iff_toNat_le,
    ← UInt8.toNat_inj, UInt8.reduceToNat]
  omega

theorem not_isSpace_iff (b : UInt8) : (!isSpace b) = true ↔ ¬ Blank b := by
  rw [← isSpace_iff]; cases isSpace b <;> simp

/-! ## Splitting at the first element with a property -/

theorem dropWhile_append_all {p : UInt8 → Bool} {a rest : Bytes} (ha : ∀ x ∈ a, p x = true) :
    (a ++ rest).dropWhile p = rest.dropWhile p := by
  induction a with
  | nil => rfl
  | cons x xs ih =>
    rw [List.cons_append, List.dropWhile_cons_of_pos (ha x (by simp))]
    exact ih fun y hy => ha y (by simp [hy])

theorem takeWhile_append_all {p : UInt8 → Bool} {a rest : Bytes} (ha : ∀ x ∈ a, p x = true) :
    (a ++ rest).takeWhile p = a ++ rest.takeWhile p := by
  induction a with
  | nil => rfl
  | cons x xs ih =>
    rw [List.cons_append, List.takeWhile_cons_of_pos (ha x (by simp))]
    rw [ih fun y hy => ha y (by simp [hy])]; rfl

theorem dropWhile_head {p : UInt8 → Bool} {a : Bytes} (h : ∀ b, a.head? = some b → p b = false) :
    a.dropWhile p = a := by
  cases a with
  | nil => rfl
  | cons x xs => exact List.dropWhile_cons_of_neg (by rw [h x rfl]; simp)

theorem takeWhile_head {p : UInt8 → Bool} {a : Bytes} (h : ∀ b, a.head? = some b → p b = false) :
    a.takeWhile p = [] := by
  cases a with
  | nil => rfl
  | cons x xs => exact List.takeWhile_cons_of_neg (by rw [h x rfl]; simp)

theorem mem_takeWhile {p : UInt8 → Bool} {a : Bytes} {x : UInt8} (h : x ∈ a.takeWhile p) : p x = true := by
  induction a with
  | nil => cases h
  | cons y ys ih =>
    by_cases hy : p y = true
    · rw [List.takeWhile_cons_of_pos hy] at h
      rcases List.mem_cons.mp h with rfl | h
      · exact hy
      · exact ih h
    · rw [List.takeWhile_cons_of_neg hy] at h; cases h

theorem head_dropWhile {p : UInt8 → Bool} {a : Bytes} {b : UInt8} (h : (a.dropWhile p).head? = some b) :
    p b = false := by
  induction a with
  | nil => cases h
  | cons y ys ih =>
    by_cases hy : p y = true
    · rw [List.dropWhile_cons_of_pos hy] at h; exact ih h
    · rw [List.dropWhile_cons_of_neg hy] at h
      simp only [List.head?_cons, Option.some.injEq] at h
      subst h; simpa using hy

/-! ## `trim` -/

theorem trim_eq {b v c : Bytes} (hb : ∀ x ∈ b, Blank x) (hc : ∀ x ∈ c, Blank x) (hv : Value v) :
    trim (b ++ v ++ c) = v := by
  have hb' : ∀ x ∈ b, isSpace x = true := fun x hx => (isSpace_iff x).mpr (hb x hx)
  have hc' : ∀ x ∈ c, isSpace x = true := fun x hx => (isSpace_iff x).mpr (hc x hx)
  have nb : ∀ {y}, ¬ Blank y → isSpace y = false := fun {y} h => by
    cases hs : isSpace y with
    | false => rfl
    | true => exact absurd ((isSpace_iff y).mp hs) h
  by_cases hne : v = []
  · subst hne
    have hall : ∀ x ∈ b ++ [] ++ c, isSpace x = true := by
      intro x hx; simp only [List.append_nil, List.mem_append] at hx
      rcases hx with hx | hx
      · exact hb' x hx
      · exact hc' x hx
    have h1 : (b ++ [] ++ c).takeWhile isSpace = b ++ [] ++ c := by
      have := takeWhile_append_all (rest := []) hall
      simpa using this
    unfold trim
    simp only [h1]
    have h0 : (b ++ [] ++ c).drop (b ++ [] ++ c).length = [] := List.drop_length
    split
    · exact h0
    · rw [h0]; simp
  · have hh : ∀ y, (v ++ c).head? = some y → isSpace y = false := by
      intro y hy
      apply nb; apply hv.1
      cases v with
      | nil => exact absurd rfl hne
      | cons z zs => simpa using hy
    have hl : ∀ y, (v.reverse ++ b.reverse).head? = some y → isSpace y = false := by
      intro y hy
      apply nb; apply hv.2
      rw [← List.head?_reverse]
      cases hr : v.reverse with
      | nil => simp at hr; exact absurd hr hne
      | cons z zs => rw [hr] at hy; simpa using hy
    have h1 : (b ++ v ++ c).takeWhile isSpace = b := by
      rw [List.append_assoc, takeWhile_append_all hb', takeWhile_head hh, List.append_nil]
    have h2 : (b ++ v ++ c).reverse.takeWhile isSpace = c.reverse := by
      rw [List.reverse_append, List.reverse_append,
        takeWhile_append_all (fun x hx => hc' x (List.mem_reverse.mp hx)), takeWhile_head hl, List.append_nil]
    unfold trim
    simp only [h1, h2, List.length_reverse, List.length_append]
    rw [if_neg (by omega), List.append_assoc, List.drop_left' rfl]
    have : b.length + v.length + c.length - c.length - b.length = v.length := by omega
    rw [this, List.take_left' rfl]

/-- A list of bytes is white space, a value and white space. -/
theorem exists_trim (s : Bytes) : ∃ b v c, s = b ++ v ++ c ∧ (∀ x ∈ b, Blank x) ∧ (∀ x ∈ c, Blank x) ∧ Value v := by
  let t := s.dropWhile isSpace
  let v := (t.reverse.dropWhile isSpace).reverse
  let c := (t.reverse.takeWhile isSpace).reverse
  refine ⟨s.takeWhile isSpace, v, c, ?_, ?_, ?_, ?_, ?_⟩
  · rw [List.append_assoc]
    have : v ++ c = t := by
      show (t.reverse.dropWhile isSpace).reverse ++ (t.reverse.takeWhile isSpace).reverse = t
      rw [← List.reverse_append, List.takeWhile_append_dropWhile, List.reverse_reverse]
    rw [this]; exact (List.takeWhile_append_dropWhile).symm
  · exact fun x hx => (isSpace_iff x).mp (mem_takeWhile hx)
  · exact fun x hx => (isSpace_iff x).mp (mem_takeWhile (List.mem_reverse.mp hx))
  · intro y hy hbl
    have hs := (isSpace_iff y).mpr hbl
    have ht : t.head? = some y := by
      have hvc : v ++ c = t := by
        show (t.reverse.dropWhile isSpace).reverse ++ (t.reverse.takeWhile isSpace).reverse = t
        rw [← List.reverse_append, List.takeWhile_append_dropWhile, List.reverse_reverse]
      rw [← hvc]
      cases hv : v with
      | nil => rw [hv] at hy; cases hy
      | cons z zs => rw [hv] at hy; simpa using hy
    rw [head_dropWhile ht] at hs; cases hs
  · intro y hy hbl
    have hs := (isSpace_iff y).mpr hbl
    have : (t.reverse.dropWhile isSpace).head? = some y := by
      rw [← List.head?_reverse] at hy
      simpa [v] using hy
    rw [head_dropWhile this] at hs; cases hs

/-! ## Lines -/

theorem takeWord_eq {a k rest : Bytes} (ha : ∀ x ∈ a, Blank x) (hk : Word k)
    (hr : ∀ b, rest.head? = some b → Blank b) : takeWord (a ++ (k ++ rest)) = some (k, rest) := by
  have ha' : ∀ x ∈ a, isSpace x = true := fun x hx => (isSpace_iff x).mpr (ha x hx)
  have hk' : ∀ x ∈ k, (!isSpace x) = true := fun x hx => (not_isSpace_iff x).mpr (hk.2 x hx)
  have hr' : ∀ b, rest.head? = some b → (!isSpace b) = false := fun b hb => by
    rw [(isSpace_iff b).mpr (hr b hb)]; rfl
  have hd : (a ++ (k ++ rest)).dropWhile isSpace = k ++ rest := by
    rw [dropWhile_append_all ha']
    apply dropWhile_head
    intro b hb
    have : ¬ Blank b := by
      apply hk.2
      cases k with
      | nil => exact absurd rfl hk.1
      | cons z zs => simp at hb; subst hb; simp
    cases hs : isSpace b with
    | false => rfl
    | true => exact absurd ((isSpace_iff b).mp hs) this
  have hne : (k ++ rest).isEmpty = false := by
    cases k with
    | nil => exact absurd rfl hk.1
    | cons z zs => rfl
  unfold takeWord
  simp only [hd, hne]
  rw [takeWhile_append_all hk', takeWhile_head hr', dropWhile_append_all hk', dropWhile_head hr', List.append_nil]
  rfl

theorem takeWord_none {s : Bytes} : takeWord s = none ↔ ∀ x ∈ s, Blank x := by
  constructor
  · intro h
    unfold takeWord at h
    simp only at h
    split at h
    · next he =>
      intro x hx
      have h2 := (List.takeWhile_append_dropWhile (p := isSpace) (l := s)).symm
      rw [List.isEmpty_iff.mp he, List.append_nil] at h2
      rw [h2] at hx
      exact (isSpace_iff x).mp (mem_takeWhile hx)
    · cases h
  · intro h
    have := dropWhile_append_all (p := isSpace) (a := s) (rest := []) fun x hx => (isSpace_iff x).mpr (h x hx)
    rw [List.append_nil] at this
    unfold takeWord
    simp only [this]
    rfl

theorem takeWord_some {s k rest : Bytes} (h : takeWord s = some (k, rest)) :
    ∃ a, s = a ++ (k ++ rest) ∧ (∀ x ∈ a, Blank x) ∧ Word k ∧ (∀ b, rest.head? = some b → Blank b) := by
  unfold takeWord at h
  simp only at h
  split at h
  · cases h
  · next he =>
    simp only [Option.some.injEq, Prod.mk.injEq] at h
    obtain ⟨rfl, rfl⟩ := h
    refine ⟨s.takeWhile isSpace, ?_, fun x hx => (isSpace_iff x).mp (mem_takeWhile hx), ⟨?_, ?_⟩, ?_⟩
    · rw [List.takeWhile_append_dropWhile, List.takeWhile_append_dropWhile]
    · intro hk
      cases ht : s.dropWhile isSpace with
      | nil => rw [ht] at he; exact he rfl
      | cons y ys =>
        rw [ht] at hk
        have hy : isSpace y = false := head_dropWhile (a := s) (by rw [ht]; rfl)
        rw [List.takeWhile_cons_of_pos (by rw [hy]; rfl)] at hk
        cases hk
    · exact fun b hb => (not_isSpace_iff b).mp (mem_takeWhile hb)
    · intro b hb
      have := head_dropWhile hb
      exact (isSpace_iff b).mp (by simpa using this)

/-- The definition made by a line. -/
def lineDef (line : Bytes) : Option (Bytes × Bytes) :=
  match takeWord line with
  | none => none
  | some (key, rest) => if key.head? = some 35 then none else some (key, trim rest)

theorem parseLine_eq (m : Map) (line : Bytes) :
    parseLine m line = match lineDef line with | none => m | some (k, v) => m.set k v := by
  unfold parseLine lineDef
  cases takeWord line with
  | none => rfl
  | some kr =>
    obtain ⟨key, rest⟩ := kr
    simp only
    split <;> rfl

theorem lineDef_iff (line k v : Bytes) : lineDef line = some (k, v) ↔ LineDefines line k v := by
  constructor
  · intro h
    unfold lineDef at h
    cases ht : takeWord line with
    | none => rw [ht] at h; cases h
    | some kr =>
      obtain ⟨key, rest⟩ := kr
      rw [ht] at h
      simp only at h
      split at h
      · cases h
      · next h35 =>
        simp only [Option.some.injEq, Prod.mk.injEq] at h
        obtain ⟨rfl, rfl⟩ := h
        obtain ⟨a, hl, ha, hw, hr⟩ := takeWord_some ht
        obtain ⟨b, v, c, hs, hb, hc, hv⟩ := exists_trim rest
        subst hs
        rw [trim_eq hb hc hv]
        refine ⟨hw, h35, hv, a, b, c, ?_, ha, hb, hc, ?_⟩
        · rw [hl]; simp only [List.append_assoc]
        · intro hvne hbn
          subst hbn
          cases v with
          | nil => exact hvne rfl
          | cons z zs => exact hv.1 z rfl (hr z (by simp))
  · rintro ⟨hw, h35, hv, a, b, c, rfl, ha, hb, hc, hbn⟩
    have hr : ∀ y, (b ++ v ++ c).head? = some y → Blank y := by
      intro y hy
      cases hb0 : b with
      | cons z zs => rw [hb0] at hy; simp at hy; subst hy; exact hb z (by rw [hb0]; simp)
      | nil =>
        have hv0 : v = [] := by
          by_cases h : v = []
          · exact h
          · exact absurd hb0 (hbn h)
        rw [hb0, hv0] at hy
        cases c with
        | nil => cases hy
        | cons z zs => simp at hy; subst hy; exact hc z (by simp)
    have := takeWord_eq (a := a) (k := k) (rest := b ++ v ++ c) ha hw hr
    unfold lineDef
    rw [show a ++ k ++ b ++ v ++ c = a ++ (k ++ (b ++ v ++ c)) by simp only [List.append_assoc], this]
    simp only
    rw [if_neg h35, trim_eq hb hc hv]

theorem lineDef_comment {line : Bytes} (h : Comment line) : lineDef line = none := by
  rcases h with h | ⟨a, rest, rfl, ha⟩
  · unfold lineDef; rw [takeWord_none.mpr h]
  · cases hd : lineDef (a ++ 35 :: rest) with
    | none => rfl
    | some kv =>
      obtain ⟨k, v⟩ := kv
      exfalso
      unfold lineDef at hd
      cases ht : takeWord (a ++ 35 :: rest) with
      | none => rw [ht] at hd; cases hd
      | some kr =>
        obtain ⟨key, r⟩ := kr
        rw [ht] at hd
        simp only at hd
        have : key.head? = some 35 := by
          unfold takeWord at ht
          rw [dropWhile_append_all (fun x hx => (isSpace_iff x).mpr (ha x hx)),
            List.dropWhile_cons_of_neg (by decide)] at ht
          simp only [List.isEmpty_cons, Bool.false_eq_true, if_false, Option.some.injEq, Prod.mk.injEq] at ht
          rw [← ht.1, List.takeWhile_cons_of_pos (by decide)]; rfl
        rw [if_pos this] at hd; cases hd

/-! ## Texts -/

theorem getLines_append {acc l rest : Bytes} (h : (10 : UInt8) ∉ l) :
    getLines acc (l ++ rest) = getLines (acc ++ l) rest := by
  induction l generalizing acc with
  | nil => simp
  | cons b bs ih =>
    simp only [List.mem_cons, not_or] at h
    show getLines acc (b :: (bs ++ rest)) = _
    rw [getLines, if_neg (Ne.symm h.1), ih h.2, List.append_assoc, List.singleton_append]

theorem exists_lines (text : Bytes) : ∃ ls, Lines text ls := by
  induction text with
  | nil => exact ⟨[[]], by simp, by simp, rfl⟩
  | cons b bs ih =>
    obtain ⟨ls, hne, hn, rfl⟩ := ih
    cases ls with
    | nil => exact absurd rfl hne
    | cons l r =>
      by_cases hb : b = 10
      · subst hb
        refine ⟨[] :: l :: r, by simp, ?_, ?_⟩
        · intro x hx
          rcases List.mem_cons.mp hx with rfl | hx
          · simp
          · exact hn x hx
        · simp [List.intercalate, List.intersperse]
      · refine ⟨(b :: l) :: r, by simp, ?_, ?_⟩
        · intro x hx
          rcases List.mem_cons.mp hx with rfl | hx
          · simp only [List.mem_cons, not_or]; exact ⟨Ne.symm hb, hn l (by simp)⟩
          · exact hn x (by simp [hx])
        · cases r <;> simp [List.intercalate, List.intersperse]

theorem parseLine_nil (m : Map) : parseLine m [] = m := rfl

theorem fold_getLines {text : Bytes} {ls : List Bytes} (h : Lines text ls) (m : Map) :
    parseKV m text = ls.foldl parseLine m := by
  obtain ⟨hne, hn, rfl⟩ := h
  unfold parseKV
  induction ls generalizing m with
  | nil => exact absurd rfl hne
  | cons l r ih =>
    have hl : (10 : UInt8) ∉ l := hn l (by simp)
    cases r with
    | nil =>
      have : getLines [] (List.intercalate [10] [l]) = if l.isEmpty then [] else [l] := by
        rw [show List.intercalate [10] [l] = l ++ [] by simp [List.intercalate], getLines_append hl]
        rfl
      rw [this]
      cases l with
      | nil => rfl
      | cons b bs => rfl
    | cons l2 r2 =>
      have : getLines [] (List.intercalate [10] (l :: l2 :: r2)) =
          l :: getLines [] (List.intercalate [10] (l2 :: r2)) := by
        rw [show List.intercalate [10] (l :: l2 :: r2) = l ++ (10 :: List.intercalate [10] (l2 :: r2)) by
          simp [List.intercalate, List.intersperse], getLines_append hl]
        rw [List.nil_append]
        show getLines l (10 :: _) = _
        rw [getLines, if_pos rfl]
      rw [this]
      exact ih (parseLine m l) (by simp) (fun x hx => hn x (by simp [hx]))

/-! ## The last definition -/

theorem fold_last {ι : Type} {step : Map → ι → Map} {defs : ι → Bytes → Prop} {k : Bytes}
    (h : ∀ m x v, step m x k = some v ↔ defs x v ∨ ((∀ w, ¬ defs x w) ∧ m k = some v)) (l : List ι) (m : Map)
    (v : Bytes) :
    (l.foldl step m) k = some v ↔ LastDef defs l v ∨ ((∀ x ∈ l, ∀ w, ¬ defs x w) ∧ m k = some v) := by
  induction l generalizing m with
  | nil =>
    constructor
    · intro hm; exact .inr ⟨fun _ h => (by cases h), hm⟩
    · rintro (⟨pre, x, post, h, _⟩ | ⟨_, hm⟩)
      · cases pre <;> cases h
      · exact hm
  | cons x l ih =>
    rw [List.foldl_cons, ih (step m x), h]
    constructor
    · rintro (⟨pre, y, post, rfl, hd, hp⟩ | ⟨hn, hd | ⟨hx, hm⟩⟩)
      · exact .inl ⟨x :: pre, y, post, rfl, hd, hp⟩
      · exact .inl ⟨[], x, l, rfl, hd, hn⟩
      · refine .inr ⟨?_, hm⟩
        intro y hy
        rcases List.mem_cons.mp hy with rfl | hy
        · exact hx
        · exact hn y hy
    · rintro (⟨pre, y, post, he, hd, hp⟩ | ⟨hn, hm⟩)
      · cases pre with
        | nil =>
          simp only [List.nil_append, List.cons.injEq] at he
          obtain ⟨rfl, rfl⟩ := he
          exact .inr ⟨hp, .inl hd⟩
        | cons z zs =>
          simp only [List.cons_append, List.cons.injEq] at he
          obtain ⟨rfl, rfl⟩ := he
          exact .inl ⟨zs, y, post, rfl, hd, hp⟩
      · exact .inr ⟨fun y hy => hn y (by simp [hy]), .inr ⟨hn x (by simp), hm⟩⟩

theorem parseLine_key (k : Bytes) (m : Map) (line v : Bytes) :
    parseLine m line k = some v ↔ LineDefines line k v ∨ ((∀ w, ¬ LineDefines line k w) ∧ m k = some v) := by
  rw [parseLine_eq]
  cases hd : lineDef line with
  | none =>
    have hn : ∀ w, ¬ LineDefines line k w := fun w hw => by
      rw [← lineDef_iff, hd] at hw; cases hw
    simp only
    constructor
    · exact fun h => .inr ⟨hn, h⟩
    · rintro (h | ⟨_, h⟩)
      · exact absurd h (hn v)
      · exact h
  | some kv =>
    obtain ⟨k', v'⟩ := kv
    simp only [Map.set]
    by_cases hk : k = k'
    · subst hk
      have hl : LineDefines line k v' := (lineDef_iff _ _ _).mp hd
      rw [if_pos rfl]
      constructor
      · intro h; cases h; exact .inl hl
      · rintro (h | ⟨h, _⟩)
        · rw [← lineDef_iff, hd] at h; cases h; rfl
        · exact absurd hl (h v')
    · have hn : ∀ w, ¬ LineDefines line k w := fun w hw => by
        rw [← lineDef_iff, hd] at hw; cases hw; exact hk rfl
      rw [if_neg hk]
      constructor
      · exact fun h => .inr ⟨hn, h⟩
      · rintro (h | ⟨_, h⟩)
        · exact absurd h (hn v)
        · exact h

theorem parseKV_key (k : Bytes) (m : Map) (text v : Bytes) :
    parseKV m text k = some v ↔ TextDefines text k v ∨ ((∀ w, ¬ TextDefines text k w) ∧ m k = some v) := by
  have key : ∀ ls, Lines text ls → ∀ v, (parseKV m text k = some v ↔
      LastDef (fun l v => LineDefines l k v) ls v ∨ ((∀ x ∈ ls, ∀ w, ¬ LineDefines x k w) ∧ m k = some v)) := by
    intro ls hls v
    rw [fold_getLines hls]
    exact fold_last (fun m x v => parseLine_key k m x v) ls m v
  constructor
  · intro h
    obtain ⟨ls, hls⟩ := exists_lines text
    rcases (key ls hls v).mp h with hl | ⟨hn, hm⟩
    · exact .inl ⟨ls, hls, hl⟩
    · refine .inr ⟨?_, hm⟩
      rintro w ⟨ls', hls', hw⟩
      have h1 := (fold_last (fun m x v => parseLine_key k m x v) ls' Map.empty w).mpr (.inl hw)
      rw [← fold_getLines hls', fold_getLines hls] at h1
      rcases (fold_last (fun m x v => parseLine_key k m x v) ls Map.empty w).mp h1 with ⟨pre, x, post, rfl, hd, _⟩ | ⟨_, h2⟩
      · exact hn x (by simp) w hd
      · cases h2
  · rintro (⟨ls, hls, hl⟩ | ⟨hn, hm⟩)
    · exact (key ls hls v).mpr (.inl hl)
    · obtain ⟨ls, hls⟩ := exists_lines text
      rw [fold_getLines hls]
      cases hf : (ls.foldl parseLine Map.empty) k with
      | some w =>
        rcases (fold_last (fun m x v => parseLine_key k m x v) ls Map.empty w).mp hf with hw | ⟨_, h2⟩
        · exact absurd ⟨ls, hls, hw⟩ (hn w)
        · cases h2
      | none =>
        refine (fold_last (fun m x v => parseLine_key k m x v) ls m v).mpr (.inr ⟨?_, hm⟩)
        intro x hx w hw
        -- take the last line that defines the key
        have : ∀ l : List Bytes, (∃ x ∈ l, ∃ w, LineDefines x k w) →
            ∃ w, LastDef (fun l v => LineDefines l k v) l w := by
          intro l
          induction l with
          | nil => rintro ⟨x, hx, _⟩; cases hx
          | cons y ys ih =>
            rintro ⟨x, hx, w, hw⟩
            by_cases hys : ∃ x ∈ ys, ∃ w, LineDefines x k w
            · obtain ⟨w, pre, z, post, rfl, hz, hp⟩ := ih hys
              exact ⟨w, y :: pre, z, post, rfl, hz, hp⟩
            · rcases List.mem_cons.mp hx with rfl | hx
              · exact ⟨w, [], x, ys, rfl, hw, fun z hz u hu => hys ⟨z, hz, u, hu⟩⟩
              · exact absurd ⟨x, hx, w, hw⟩ hys
        obtain ⟨w, hw⟩ := this ls ⟨x, hx, w, hw⟩
        exact hn w ⟨ls, hls, hw⟩

theorem process_key (sys : Sys) (k : Bytes) (m : Map) (r : Reader) (v : Bytes) :
    r.process sys m k = some v ↔ SourceDefines sys k r v ∨ ((∀ w, ¬ SourceDefines sys k r w) ∧ m k = some v) := by
  have file : ∀ name, readFile sys m name k = some v ↔
      (∃ text, sys.files name = some text ∧ TextDefines text k v) ∨
        ((∀ w, ¬ ∃ text, sys.files name = some text ∧ TextDefines text k w) ∧ m k = some v) := by
    intro name
    unfold readFile
    cases hf : sys.files name with
    | none =>
      simp only
      constructor
      · exact fun h => .inr ⟨fun w ⟨_, h, _⟩ => (by cases h), h⟩
      · rintro (⟨_, h, _⟩ | ⟨_, h⟩)
        · cases h
        · exact h
    | some text =>
      simp only
      rw [parseKV_key]
      constructor
      · rintro (h | ⟨hn, h⟩)
        · exact .inl ⟨text, rfl, h⟩
        · exact .inr ⟨fun w ⟨t, ht, hw⟩ => (by cases ht; exact hn w hw), h⟩
      · rintro (⟨t, ht, hw⟩ | ⟨hn, h⟩)
        · cases ht; exact .inl hw
        · exact .inr ⟨fun w hw => hn w ⟨text, rfl, hw⟩, h⟩
  cases r with
  | file name => exact file name
  | envFile var =>
    simp only [Reader.process, SourceDefines]
    cases he : sys.env var with
    | none =>
      simp only
      constructor
      · exact fun h => .inr ⟨fun w ⟨_, _, h, _⟩ => (by cases h), h⟩
      · rintro (⟨_, _, h, _⟩ | ⟨_, h⟩)
        · cases h
        · exact h
    | some name =>
      simp only
      rw [file name]
      constructor
      · rintro (⟨t, ht, hw⟩ | ⟨hn, h⟩)
        · exact .inl ⟨name, t, rfl, ht, hw⟩
        · exact .inr ⟨fun w ⟨_, t, hn', ht, hw⟩ => (by cases hn'; exact hn w ⟨t, ht, hw⟩), h⟩
      · rintro (⟨_, t, hn', ht, hw⟩ | ⟨hn, h⟩)
        · cases hn'; exact .inl ⟨t, ht, hw⟩
        · exact .inr ⟨fun w ⟨t, ht, hw⟩ => hn w ⟨name, t, rfl, ht, hw⟩, h⟩
  | envVar var key =>
    simp only [Reader.process, SourceDefines]
    cases he : sys.env var with
    | none =>
      simp only
      constructor
      · exact fun h => .inr ⟨fun w ⟨_, h⟩ => (by cases h), h⟩
      · rintro (⟨_, h⟩ | ⟨_, h⟩)
        · cases h
        · exact h
    | some u =>
      simp only [Map.set]
      by_cases hk : k = key
      · subst hk
        rw [if_pos rfl]
        constructor
        · intro h; exact .inl ⟨rfl, h⟩
        · rintro (⟨_, h⟩ | ⟨h, _⟩)
          · exact h
          · exact absurd ⟨rfl, rfl⟩ (h u)
      · rw [if_neg hk]
        constructor
        · exact fun h => .inr ⟨fun w ⟨h, _⟩ => hk h.symm, h⟩
        · rintro (⟨h, _⟩ | ⟨_, h⟩)
          · exact absurd h.symm hk
          · exact h

end Hx.Config

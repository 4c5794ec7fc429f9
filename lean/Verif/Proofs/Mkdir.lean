import Verif.Spec.Mkdir

/-!
# Helper lemmas: `mkdir_p`
-/

namespace Hx.Mkdir
open Spec.Mkdir

/-! ## Names and places -/

theorem names_append (a b : Bytes) : names (a ++ slash :: b) = names a ++ names b := by
  simp [names, List.splitOn_append_cons_self]

theorem names_single {s : Bytes} (h : slash ∉ s) : names s = if s = [] then [] else [s] := by
  rw [names, List.splitOn_eq_singleton h]
  split
  · subst_vars; rfl
  · rename_i h
    simp [h]

theorem takeWhile_no (s : Bytes) : slash ∉ s.takeWhile (· != slash) := by
  induction s with
  | nil => simp
  | cons c s ih =>
    rw [List.takeWhile_cons]
    split
    · rename_i h
      simp only [List.mem_cons, not_or]
      exact ⟨fun e => by simp [← e] at h, ih⟩
    · simp

def target (p : Path) (l : List Bytes) : Path := l.foldl into p

theorem visited_cons (p : Path) (x : Bytes) (l : List Bytes) : visited p (x :: l) = p :: visited (into p x) l := rfl

theorem visited_ne (p : Path) (l : List Bytes) : visited p l ≠ [] := by
  cases l <;> simp [visited]

theorem visited_append (p : Path) (l : List Bytes) (x : Bytes) : visited p (l ++ [x]) = visited p l ++ [into (target p l) x] := by
  induction l generalizing p with
  | nil => rfl
  | cons y l ih =>
    rw [List.cons_append, visited_cons, visited_cons, ih]
    rfl

theorem visited_last (p : Path) (l : List Bytes) : visited p l = (visited p l).dropLast ++ [target p l] := by
  rcases List.eq_nil_or_concat l with h | ⟨l', x, h⟩
  · subst h; rfl
  · subst h
    rw [List.concat_eq_append, visited_append, List.dropLast_concat]
    simp [target]

theorem walk_ok {fs : Fs} {p q : Path} {l : List Bytes} :
    walk fs p l = .ok q ↔ q = target p l ∧ ∀ r ∈ (visited p l).dropLast, fs r = some .dir := by
  induction l generalizing p with
  | nil =>
    constructor
    · intro h
      cases h
      exact ⟨rfl, fun r hr => by cases hr⟩
    · rintro ⟨rfl, -⟩; rfl
  | cons x l ih =>
    rw [visited_cons, List.dropLast_cons_of_ne_nil (visited_ne _ _)]
    simp only [walk]
    constructor
    · intro h
      split at h
      · rename_i hd
        obtain ⟨h1, h2⟩ := ih.mp h
        refine ⟨h1, fun r hr => ?_⟩
        rcases List.mem_cons.mp hr with e | e
        · rw [e, hd]
        · exact h2 r e
      · cases h
      · cases h
    · rintro ⟨h1, h2⟩
      rw [h2 p List.mem_cons_self]
      exact ih.mpr ⟨h1, fun r hr => h2 r (List.mem_cons_of_mem _ hr)⟩

/-! ## `mkdir` -/

/-- What the names lead to exists. -/
def Leads (fs : Fs) (b : Path) (l : List Bytes) : Prop :=
  (∀ r ∈ (visited b l).dropLast, fs r = some .dir) ∧ fs (target b l) ≠ none

theorem grows_refl (fs : Fs) : Grows fs fs := ⟨fun _ _ h => h, fun _ h => .inl h⟩

theorem grows_trans {a b c : Fs} (h : Grows a b) (h' : Grows b c) : Grows a c := by
  refine ⟨fun p x hp => h'.1 _ _ (h.1 _ _ hp), fun p hp => ?_⟩
  rcases h.2 p hp with e | e
  · exact h'.2 p e
  · exact .inr (h'.1 _ _ e)

theorem leads_grows {fs fs' : Fs} {b : Path} {l : List Bytes} (h : Leads fs b l) (hg : Grows fs fs') : Leads fs' b l := by
  refine ⟨fun r hr => hg.1 _ _ (h.1 r hr), ?_⟩
  obtain ⟨x, hx⟩ := Option.ne_none_iff_exists'.mp h.2
  rw [hg.1 _ _ hx]
  exact Option.some_ne_none x

theorem grows_update {fs : Fs} {p : Path} (h : fs p = none) : Grows fs (Function.update fs p (some .dir)) := by
  refine ⟨fun q x hq => ?_, fun q hq => ?_⟩
  · rw [Function.update_of_ne, hq]
    rintro rfl
    rw [h] at hq; cases hq
  · by_cases e : q = p
    · subst e; exact .inr (Function.update_self ..)
    · exact .inl (by rw [Function.update_of_ne e, hq])

theorem wf_update {fs : Fs} (hw : WellFormed fs) {p : Path} {x : Bytes} (hp : fs p = some .dir) (hn : fs (p ++ [x]) = none) :
    WellFormed (Function.update fs (p ++ [x]) (some .dir)) := by
  have hg := grows_update hn
  refine ⟨hg.1 _ _ hw.1, fun q hq hs => ?_⟩
  by_cases e : q = p ++ [x]
  · subst e
    rw [List.dropLast_concat]
    exact hg.1 _ _ hp
  · rw [Function.update_of_ne e] at hs
    exact hg.1 _ _ (hw.2 q hq hs)

/-- The directory of `mkdir` was made or exists. -/
inductive Fine (e : Env) (fs : Fs) (s : Bytes) (fs' : Fs) : Prop where
  | made : mkdir e fs s = .made fs' → Fine e fs s fs'
  | exist : mkdir e fs s = .failed .exist → fs' = fs → Fine e fs s fs'

theorem parent_dir {fs : Fs} (hw : WellFormed fs) {p : Path} (h : fs p = some .dir) : fs p.dropLast = some .dir := by
  by_cases e : p = []
  · subst e; exact hw.1
  · exact hw.2 p e (by rw [h]; exact Option.some_ne_none _)

theorem walk_error {fs : Fs} {p : Path} {l : List Bytes} {err : Err} (h : walk fs p l = .error err) : err = .noent ∨ err = .notdir := by
  induction l generalizing p with
  | nil => cases h
  | cons x l ih =>
    simp only [walk] at h
    split at h
    · exact ih h
    · cases h; exact .inr rfl
    · cases h; exact .inl rfl

theorem fine_leads {e : Env} {fs fs' : Fs} {s : Bytes} (hw : WellFormed fs) (hs : s ≠ []) (h : Fine e fs s fs') :
    Leads fs' (base e s) (names s) ∧ Grows fs fs' ∧ WellFormed fs' := by
  rcases List.eq_nil_or_concat (names s) with hn | ⟨C, x, hn⟩
  · have hm : mkdir e fs s = .failed .exist := by simp [mkdir, hs, hn]
    have hfs : fs' = fs := by
      rcases h with h | ⟨_, h⟩
      · rw [hm] at h; cases h
      · exact h
    subst hfs
    refine ⟨⟨fun r hr => (by rw [hn] at hr; cases hr), ?_⟩, grows_refl _, hw⟩
    rw [hn]
    have hb : base e s = [] := by
      cases s with
      | nil => exact absurd rfl hs
      | cons c s =>
        by_cases hc : c = slash
        · subst hc; rfl
        · exfalso
          have : c :: s.takeWhile (· != slash) ∈ names (c :: s) := by
            have e1 : c :: s = (c :: s.takeWhile (· != slash)) ++ s.dropWhile (· != slash) := by
              rw [List.cons_append, List.takeWhile_append_dropWhile]
            have hno : slash ∉ c :: s.takeWhile (· != slash) := by
              intro hm
              rcases List.mem_cons.mp hm with h1 | h1
              · exact hc h1.symm
              · exact takeWhile_no _ h1
            cases hd : s.dropWhile (· != slash) with
            | nil =>
              rw [hd, List.append_nil] at e1
              rw [e1, names_single (by simpa using hno)]
              simp
            | cons d r =>
              have hd' : d = slash := by
                have := List.head?_dropWhile_not (p := (· != slash)) s
                rw [hd] at this
                simpa using this
              subst hd'
              rw [hd] at e1
              rw [e1, names_append, names_single hno]
              simp
          rw [hn] at this
          cases this
    rw [hb]
    show fs' [] ≠ none
    rw [hw.1]; exact Option.some_ne_none _
  · rw [List.concat_eq_append] at hn
    have hm : mkdir e fs s = (match walk fs (base e s) C with
        | .error err => .failed err
        | .ok p => match fs p with
          | none => .failed .noent
          | some .file => .failed .notdir
          | some .dir => if x = dot ∨ x = dotdot ∨ (fs (p ++ [x])).isSome then .failed .exist
            else match e.deny (p ++ [x]) with
              | some n => .failed (.other n)
              | none => .made (Function.update fs (p ++ [x]) (some .dir))) := by
      simp only [mkdir, hs, hn, if_false, List.getLast?_concat, List.dropLast_concat]
      rfl
    cases hk : walk fs (base e s) C with
    | error err =>
      rw [hk] at hm
      have := walk_error hk
      rcases h with h | ⟨h, -⟩
      · rw [hm] at h; cases h
      · rw [hm] at h; cases h
        rcases this with e | e <;> cases e
    | ok p =>
      rw [hk] at hm
      obtain ⟨rfl, h2⟩ := walk_ok.mp hk
      simp only at hm
      cases hp : fs (target (base e s) C) with
      | none =>
        rw [hp] at hm
        rcases h with h | ⟨h, -⟩ <;> rw [hm] at h <;> cases h
      | some nd =>
        rw [hp] at hm
        cases nd with
        | file => rcases h with h | ⟨h, -⟩ <;> rw [hm] at h <;> cases h
        | dir =>
          have hall : ∀ r ∈ visited (base e s) C, fs r = some .dir := by
            intro r hr
            rw [visited_last] at hr
            rcases List.mem_append.mp hr with hr | hr
            · exact h2 r hr
            · rw [List.mem_singleton.mp hr, hp]
          have ht : target (base e s) (C ++ [x]) = into (target (base e s) C) x := by simp [target]
          have hd : (visited (base e s) (C ++ [x])).dropLast = visited (base e s) C := by rw [visited_append, List.dropLast_concat]
          rw [hn]
          simp only at hm
          by_cases hc : x = dot ∨ x = dotdot ∨ (fs (target (base e s) C ++ [x])).isSome
          · rw [if_pos hc] at hm
            have hfs : fs' = fs := by
              rcases h with h | ⟨-, h⟩
              · rw [hm] at h; cases h
              · exact h
            subst hfs
            refine ⟨⟨by rw [hd]; exact hall, ?_⟩, grows_refl _, hw⟩
            rw [ht]
            unfold into
            split
            · rw [hp]; exact Option.some_ne_none _
            · split
              · rw [parent_dir hw hp]; exact Option.some_ne_none _
              · rename_i h3 h4
                rcases hc with hc | hc | hc
                · exact absurd hc h3
                · exact absurd hc h4
                · exact Option.ne_none_iff_isSome.mpr hc
          · rw [if_neg hc] at hm
            have hnone : fs (target (base e s) C ++ [x]) = none := by
              exact Option.not_isSome_iff_eq_none.mp fun h' => hc (.inr (.inr h'))
            cases hdn : e.deny (target (base e s) C ++ [x]) with
            | some k =>
              rw [hdn] at hm
              rcases h with h | ⟨h, -⟩ <;> rw [hm] at h <;> cases h
            | none =>
              rw [hdn] at hm
              have hfs : fs' = Function.update fs (target (base e s) C ++ [x]) (some .dir) := by
                rcases h with h | ⟨h, -⟩
                · rw [hm] at h; cases h; rfl
                · rw [hm] at h; cases h
              have hg := grows_update hnone
              subst hfs
              refine ⟨⟨by rw [hd]; exact fun r hr => hg.1 _ _ (hall r hr), ?_⟩, hg, wf_update hw hp hnone⟩
              rw [ht, into, if_neg (fun e => hc (.inl e)), if_neg (fun e => hc (.inr (.inl e))), Function.update_self]
              exact Option.some_ne_none _

/-- If all that the path goes through are directories, `mkdir` does not fail. -/
theorem fine_of_dirs {e : Env} {fs : Fs} {s : Bytes} (hs : s ≠ [])
    (hd : ∀ r ∈ visited (base e s) (names s).dropLast, fs r = some .dir) (hn : ∀ r ∈ visited (base e s) (names s), e.deny r = none) :
    ∃ fs', Fine e fs s fs' := by
  rcases List.eq_nil_or_concat (names s) with h | ⟨C, x, h⟩
  · exact ⟨fs, .exist (by simp [mkdir, hs, h]) rfl⟩
  · rw [List.concat_eq_append] at h
    rw [h, List.dropLast_concat] at hd
    have hk : walk fs (base e s) C = .ok (target (base e s) C) :=
      walk_ok.mpr ⟨rfl, fun r hr => hd r (List.dropLast_sublist _ |>.subset hr)⟩
    have hp : fs (target (base e s) C) = some .dir := hd _ (by rw [visited_last]; simp)
    by_cases hc : x = dot ∨ x = dotdot ∨ (fs (target (base e s) C ++ [x])).isSome
    · refine ⟨fs, .exist ?_ rfl⟩
      simp only [mkdir, hs, h, if_false, List.getLast?_concat, List.dropLast_concat, hk, hp, if_pos hc]
    · have : e.deny (target (base e s) C ++ [x]) = none := by
        refine hn _ ?_
        rw [h, visited_append, into, if_neg (fun e => hc (.inl e)), if_neg (fun e => hc (.inr (.inl e)))]
        simp
      refine ⟨Function.update fs (target (base e s) C ++ [x]) (some .dir), .made ?_⟩
      simp only [mkdir, hs, h, if_false, List.getLast?_concat, List.dropLast_concat, hk, hp, if_neg hc, this]

theorem mkdir_at {e : Env} {fs fs' : Fs} {s : Bytes} (h : mkdir e fs s = .made fs') (q : Path) (hq : fs' q ≠ fs q) :
    q ∈ visited (base e s) (names s) ∧ fs q = none ∧ fs' q = some .dir := by
  rcases List.eq_nil_or_concat (names s) with hn | ⟨C, x, hn⟩
  · simp only [mkdir, hn, List.getLast?_nil] at h
    split at h <;> cases h
  · rw [List.concat_eq_append] at hn
    simp only [mkdir, hn, List.getLast?_concat, List.dropLast_concat] at h
    split at h
    · cases h
    split at h
    · cases h
    rename_i p hk
    obtain ⟨rfl, -⟩ := walk_ok.mp hk
    split at h
    · cases h
    · cases h
    split at h
    · cases h
    rename_i hc
    split at h
    · cases h
    cases h
    have e1 : q = target (base e s) C ++ [x] := by
      by_contra hne
      exact hq (Function.update_of_ne hne ..)
    subst e1
    refine ⟨?_, Option.not_isSome_iff_eq_none.mp fun h' => hc (.inr (.inr h')), Function.update_self ..⟩
    rw [hn, visited_append, into, if_neg (fun e => hc (.inl e)), if_neg (fun e => hc (.inr (.inl e)))]
    simp

/-! ## The loop -/

/-- At the head of the loop. -/
structure Head (path : Bytes) (p : Proc) : Prop where
  size : p.size = path.length
  len : p.buf.length = path.length + 1
  buf : p.buf.take path.length = path
  pos : 1 ≤ p.pos
  sep : p.pos = 1 ∨ p.pos = path.length + 1 ∨ path[p.pos - 1]? = some slash

theorem head_start (path : Bytes) : Head path (start path) where
  size := rfl
  len := by simp [start]
  buf := by simp [start]
  pos := Nat.le_refl 1
  sep := .inl rfl

theorem scan_spec {path : Bytes} {p : Proc} (h : Head path p) (hp : p.pos < path.length) :
    p.pos ≤ scan p ∧ scan p ≤ path.length ∧ (scan p = path.length ∨ path[scan p]? = some slash) ∧
      path.take (scan p) = path.take p.pos ++ (path.drop p.pos).takeWhile (· != slash) := by
  have e : scan p = p.pos + ((path.drop p.pos).takeWhile (· != slash)).length := by
    rw [scan, h.size, h.buf]
  have hs : path = path.take p.pos ++ ((path.drop p.pos).takeWhile (· != slash) ++ (path.drop p.pos).dropWhile (· != slash)) := by
    rw [List.takeWhile_append_dropWhile, List.take_append_drop]
  have hl : (path.take p.pos).length = p.pos := by rw [List.length_take]; omega
  generalize (path.drop p.pos).takeWhile (· != slash) = mid at *
  have hd : (path.drop p.pos).dropWhile (· != slash) = [] ∨ ((path.drop p.pos).dropWhile (· != slash)).head? = some slash := by
    cases hd : (path.drop p.pos).dropWhile (· != slash) with
    | nil => exact .inl rfl
    | cons d r =>
      right
      have := List.head?_dropWhile_not (p := (· != slash)) (path.drop p.pos)
      rw [hd] at this
      simpa using this
  generalize (path.drop p.pos).dropWhile (· != slash) = rest at *
  generalize path.take p.pos = pre at *
  rw [e]
  subst hs
  refine ⟨Nat.le_add_right _ _, by simp [hl], ?_, ?_⟩
  · rcases hd with hd | hd
    · left; simp [hd, hl]
    · right
      rw [List.getElem?_append_right (by omega), hl, Nat.add_sub_cancel_left, List.getElem?_append_right (Nat.le_refl _), Nat.sub_self,
        ← List.head?_eq_getElem?, hd]
  · rw [← List.append_assoc, List.take_left']
    simp [hl]

theorem cstr_cut {path buf : Bytes} {i : Nat} (h0 : (0 : UInt8) ∉ path) (hb : buf.take path.length = path) (hl : i < buf.length) (hi : i ≤ path.length) :
    Addrs.cstr (buf.set i 0) = path.take i := by
  have e : buf.set i 0 = path.take i ++ 0 :: buf.drop (i + 1) := by
    rw [List.set_eq_take_append_cons_drop, if_pos hl]
    congr 1
    rw [← hb, List.take_take, Nat.min_eq_left hi]
  rw [e, Addrs.cstr]
  have : ∀ c ∈ path.take i, (c != 0) = true := by
    intro c hc
    have := List.mem_of_mem_take hc
    simp only [bne_iff_ne, ne_eq]
    rintro rfl
    exact h0 this
  rw [List.takeWhile_append_of_pos this]
  simp

theorem names_take {path : Bytes} {p : Proc} (h : Head path p) (hp : p.pos < path.length) :
    ∃ l : List Bytes, l.length ≤ 1 ∧ names (path.take (scan p)) = names (path.take (p.pos - 1)) ++ l := by
  obtain ⟨-, -, -, h4⟩ := scan_spec h hp
  have hno := takeWhile_no (path.drop p.pos)
  generalize (path.drop p.pos).takeWhile (· != slash) = mid at *
  have hpos := h.pos
  have hm : ∀ s : Bytes, slash ∉ s → (names s).length ≤ 1 := by
    intro s hs
    rw [names_single hs]
    split <;> simp
  obtain ⟨c, hk, hc'⟩ : ∃ c, path.take p.pos = path.take (p.pos - 1) ++ [c] ∧ path[p.pos - 1]? = some c := by
    have := List.take_succ_eq_append_getElem (l := path) (i := p.pos - 1) (by omega)
    rw [Nat.sub_add_cancel hpos] at this
    exact ⟨_, this, List.getElem?_eq_getElem (by omega)⟩
  rcases h.sep with e | e | e
  · rw [h4, hk, e]
    simp only [Nat.sub_self, List.take_zero, List.nil_append, List.singleton_append]
    have hn0 : names ([] : Bytes) = [] := by rw [names_single (by simp)]; rfl
    rw [hn0]
    refine ⟨_, ?_, (List.nil_append _).symm⟩
    by_cases hc : c = slash
    · have : names (c :: mid) = names [] ++ names mid := by
        rw [← names_append, hc]; rfl
      rw [this, hn0, List.nil_append]
      exact hm _ hno
    · exact hm _ (by simp only [List.mem_cons, not_or]; exact ⟨fun e => hc e.symm, hno⟩)
  · omega
  · have hc : c = slash := by
      rw [hc'] at e
      exact Option.some.inj e
    rw [h4, hk, hc, List.append_assoc, List.singleton_append, names_append]
    exact ⟨_, hm _ hno, rfl⟩

theorem base_take (e : Env) {path : Bytes} {i : Nat} (hi : 1 ≤ i) : base e (path.take i) = base e path := by
  cases path with
  | nil => simp
  | cons c s =>
    obtain ⟨k, rfl⟩ := Nat.exists_eq_add_of_le' hi
    rfl

/-- An iteration goes on, or returns an error. -/
theorem step_cases {e : Env} {fs fs' : Fs} {path : Bytes} {p p' : Proc} (h0 : (0 : UInt8) ∉ path) (h : Head path p) (hr : p.ret = none)
    (hp : p.pos < path.length) (hs : step e fs p = some (fs', p')) :
    (Fine e fs (path.take (scan p)) fs' ∧ Head path p' ∧ p'.ret = none ∧ p'.pos = scan p + 1) ∨
      ((∀ fs'', ¬ Fine e fs (path.take (scan p)) fs'') ∧ fs' = fs ∧ ∃ err, p'.ret = some (some err)) := by
  obtain ⟨h1, h2, h3, -⟩ := scan_spec h hp
  have hc := cstr_cut (i := scan p) h0 h.buf (by rw [h.len]; omega) h2
  have hhead : Head path { p with buf := (p.buf.set (scan p) 0).set (scan p) slash, pos := scan p + 1 } := by
    refine ⟨h.size, by simp [h.len], ?_, Nat.le_add_left _ _, ?_⟩
    · show ((p.buf.set (scan p) 0).set (scan p) slash).take path.length = path
      rw [List.set_set]
      rcases h3 with e | e
      · rw [e, List.take_set_of_le (Nat.le_refl _), h.buf]
      · rw [List.take_set, h.buf]
        obtain ⟨hlt, he⟩ := List.getElem?_eq_some_iff.mp e
        rw [← he, List.set_getElem_self]
    · rcases h3 with e | e
      · exact .inr (.inl (by show scan p + 1 = _; rw [e]))
      · exact .inr (.inr e)
  rw [step, hr, h.size] at hs
  simp only [Option.isSome_none, Bool.false_eq_true, if_false, if_pos hp, hc] at hs
  cases hm : mkdir e fs (path.take (scan p)) with
  | made fs1 =>
    rw [hm] at hs
    simp only [Option.some.injEq, Prod.mk.injEq] at hs
    obtain ⟨rfl, rfl⟩ := hs
    exact .inl ⟨.made hm, by simpa [hr, h.size] using hhead, rfl, rfl⟩
  | failed err =>
    rw [hm] at hs
    by_cases hx : err = .exist
    · subst hx
      simp only [Option.some.injEq, Prod.mk.injEq] at hs
      obtain ⟨rfl, rfl⟩ := hs
      exact .inl ⟨.exist hm rfl, by simpa [hr, h.size] using hhead, rfl, rfl⟩
    · right
      have hno : ∀ fs'', ¬ Fine e fs (path.take (scan p)) fs'' := by
        intro fs'' hf
        rcases hf with hf | ⟨hf, -⟩
        · rw [hm] at hf; cases hf
        · rw [hm] at hf; cases hf; exact hx rfl
      cases err <;> first
        | exact absurd rfl hx
        | (simp only [Option.some.injEq, Prod.mk.injEq] at hs
           obtain ⟨rfl, rfl⟩ := hs
           exact ⟨hno, rfl, _, rfl⟩)

/-- What holds of a call at any time. -/
inductive Inv (e : Env) (path : Bytes) (fs : Fs) (p : Proc) : Prop where
  | run : Head path p → p.ret = none → (p.pos = 1 ∨ Leads fs (base e path) (names (path.take (p.pos - 1)))) → Inv e path fs p
  | done : p.ret = some none → (path.length ≤ 1 ∨ Leads fs (base e path) (names path)) → Inv e path fs p
  | error (err : Err) : p.ret = some (some err) → Inv e path fs p

theorem inv_start (e : Env) (path : Bytes) (fs : Fs) : Inv e path fs (start path) :=
  .run (head_start path) rfl (.inl rfl)

theorem inv_step {e : Env} {fs fs' : Fs} {path : Bytes} {p p' : Proc} (h0 : (0 : UInt8) ∉ path) (hw : WellFormed fs) (h : Inv e path fs p)
    (hs : step e fs p = some (fs', p')) : Inv e path fs' p' ∧ Grows fs fs' ∧ WellFormed fs' := by
  rcases h with ⟨hh, hr, hl⟩ | ⟨hr, -⟩ | ⟨_, hr⟩
  · by_cases hp : p.pos < path.length
    · rcases step_cases h0 hh hr hp hs with ⟨hf, hh', hr', hpos⟩ | ⟨-, rfl, err, he⟩
      · have hi := (scan_spec hh hp).1
        have hne : path.take (scan p) ≠ [] := by
          intro hc
          have := congrArg List.length hc
          rw [List.length_take, List.length_nil] at this
          have := hh.pos
          omega
        obtain ⟨h1, h2, h3⟩ := fine_leads hw hne hf
        rw [base_take e (Nat.le_trans hh.pos hi)] at h1
        exact ⟨.run hh' hr' (.inr (by rw [hpos, Nat.add_sub_cancel]; exact h1)), h2, h3⟩
      · exact ⟨.error err he, grows_refl _, hw⟩
    · rw [step, hr, hh.size] at hs
      simp only [Option.isSome_none, Bool.false_eq_true, if_false, if_neg hp, Option.some.injEq, Prod.mk.injEq] at hs
      obtain ⟨rfl, rfl⟩ := hs
      refine ⟨.done rfl ?_, grows_refl _, hw⟩
      by_cases h1 : path.length ≤ 1
      · exact .inl h1
      right
      have hl : Leads fs (base e path) (names (path.take (p.pos - 1))) := by
        rcases hl with e | e
        · omega
        · exact e
      rcases hh.sep with e | e | e
      · omega
      · rwa [e, Nat.add_sub_cancel, List.take_length] at hl
      · obtain ⟨hlt, he⟩ := List.getElem?_eq_some_iff.mp e
        have hpath : path = path.take (p.pos - 1) ++ slash :: [] := by
          have := List.take_succ_eq_append_getElem (l := path) (i := p.pos - 1) hlt
          rw [he, List.take_of_length_le (by omega)] at this
          exact this
        have hn : names path = names (path.take (p.pos - 1)) := by
          conv => lhs; rw [hpath, names_append]
          have hn0 : names ([] : Bytes) = [] := by rw [names_single (by simp)]; rfl
          rw [hn0, List.append_nil]
        rw [hn]
        exact hl
  · rw [step, hr] at hs; cases hs
  · rw [step, hr] at hs; cases hs

theorem inv_grows {e : Env} {fs fs' : Fs} {path : Bytes} {p : Proc} (h : Inv e path fs p) (hg : Grows fs fs') : Inv e path fs' p := by
  rcases h with ⟨hh, hr, hl⟩ | ⟨hr, hl⟩ | ⟨err, hr⟩
  · exact .run hh hr (hl.imp_right (leads_grows · hg))
  · exact .done hr (hl.imp_right (leads_grows · hg))
  · exact .error err hr

theorem inv_run {e : Env} {fs fs' : Fs} {path : Bytes} {p p' : Proc} {n : Nat} (h0 : (0 : UInt8) ∉ path) (hr : Run e n fs p fs' p') (hw : WellFormed fs)
    (h : Inv e path fs p) : Inv e path fs' p' ∧ Grows fs fs' ∧ WellFormed fs' := by
  induction hr with
  | refl fs p => exact ⟨h, grows_refl _, hw⟩
  | own hs _ ih =>
    obtain ⟨h1, h2, h3⟩ := inv_step h0 hw h hs
    obtain ⟨h4, h5, h6⟩ := ih h3 h1
    exact ⟨h4, grows_trans h2 h5, h6⟩
  | others hg hw' _ ih =>
    obtain ⟨h4, h5, h6⟩ := ih hw' (inv_grows h hg)
    exact ⟨h4, grows_trans hg h5, h6⟩

/-! ## Nothing in the way -/

/-- No file is in the way, nothing is refused. -/
def Free (e : Env) (fs : Fs) (path : Bytes) : Prop :=
  (∀ q ∈ visited (base e path) (names path), fs q ≠ some .file) ∧ ∀ q ∈ visited (base e path) (names path), e.deny q = none

theorem free_grows {e : Env} {fs fs' : Fs} {path : Bytes} (h : Free e fs path) (hg : Grows fs fs') : Free e fs' path := by
  refine ⟨fun q hq hc => ?_, h.2⟩
  cases hx : fs q with
  | none => rcases hg.2 q hx with e | e <;> rw [hc] at e <;> cases e
  | some nd =>
    have := hg.1 _ _ hx
    rw [hc] at this
    cases this
    exact h.1 q hq hx

theorem visited_prefix (p : Path) (l l' : List Bytes) : ∀ q ∈ visited p l, q ∈ visited p (l ++ l') := by
  induction l generalizing p with
  | nil =>
    intro q hq
    cases l' with
    | nil => exact hq
    | cons x l' =>
      rw [List.nil_append, visited_cons]
      rw [List.mem_singleton.mp hq]
      exact List.mem_cons_self
  | cons x l ih =>
    intro q hq
    rw [List.cons_append, visited_cons]
    rw [visited_cons] at hq
    rcases List.mem_cons.mp hq with e | e
    · rw [e]; exact List.mem_cons_self
    · exact List.mem_cons_of_mem _ (ih _ q e)

theorem leads_dirs {fs : Fs} {b : Path} {l : List Bytes} (h : Leads fs b l) (hf : ∀ q ∈ visited b l, fs q ≠ some .file) :
    ∀ q ∈ visited b l, fs q = some .dir := by
  intro q hq
  have hq' := hq
  rw [visited_last] at hq
  rcases List.mem_append.mp hq with e | e
  · exact h.1 q e
  · have e' := List.mem_singleton.mp e
    subst e'
    cases hx : fs (target b l) with
    | none => exact absurd hx h.2
    | some nd =>
      cases nd with
      | dir => rfl
      | file => exact absurd hx (hf _ hq')

/-- The names up to any position are the first names of the path. -/
theorem names_prefix {path : Bytes} {i : Nat} (hi : i ≤ path.length) (hs : i = path.length ∨ path[i]? = some slash) :
    ∃ l, names path = names (path.take i) ++ l := by
  rcases hs with rfl | hs
  · exact ⟨[], by rw [List.take_length, List.append_nil]⟩
  · obtain ⟨hlt, he⟩ := List.getElem?_eq_some_iff.mp hs
    refine ⟨names (path.drop (i + 1)), ?_⟩
    rw [← names_append, ← he, ← List.drop_eq_getElem_cons hlt, List.take_append_drop]

theorem no_error {e : Env} {fs fs' : Fs} {path : Bytes} {p p' : Proc} (h0 : (0 : UInt8) ∉ path) (hb : fs (base e path) = some .dir)
    (hf : Free e fs path) (h : Inv e path fs p) (hs : step e fs p = some (fs', p')) (err : Err) : p'.ret ≠ some (some err) := by
  rcases h with ⟨hh, hr, hl⟩ | ⟨hr, -⟩ | ⟨_, hr⟩
  · by_cases hp : p.pos < path.length
    · rcases step_cases h0 hh hr hp hs with ⟨-, -, hr', -⟩ | ⟨hno, -, -⟩
      · rw [hr']; exact fun h => by cases h
      · exfalso
        obtain ⟨h1, h2, h3, -⟩ := scan_spec hh hp
        obtain ⟨l, hl1, hl2⟩ := names_take hh hp
        obtain ⟨l', hl'⟩ := names_prefix h2 h3
        have hpos := hh.pos
        have hne : path.take (scan p) ≠ [] := by
          intro hc
          have := congrArg List.length hc
          rw [List.length_take, List.length_nil] at this
          omega
        have hbase := base_take e (path := path) (Nat.le_trans hpos h1)
        have hd : ∀ r ∈ visited (base e path) (names (path.take (p.pos - 1))), fs r = some .dir := by
          rcases hl with e1 | e1
          · rw [e1]
            have hn0 : names ([] : Bytes) = [] := by rw [names_single (by simp)]; rfl
            simp only [Nat.sub_self, List.take_zero, hn0]
            intro r hr
            rw [List.mem_singleton.mp hr, hb]
          · exact leads_dirs e1 fun q hq => hf.1 q (by
              rw [hl', hl2, List.append_assoc]; exact visited_prefix _ _ _ q hq)
        obtain ⟨fs'', hfine⟩ := fine_of_dirs (e := e) (fs := fs) hne
          (by
            rw [hbase, hl2]
            intro r hr
            apply hd
            rcases l with _ | ⟨x, l⟩
            · rw [List.append_nil] at hr
              rcases List.eq_nil_or_concat (names (path.take (p.pos - 1))) with h | ⟨C, y, h⟩
              · rw [h] at hr ⊢; exact hr
              · rw [h, List.concat_eq_append] at hr ⊢
                rw [List.dropLast_concat] at hr
                exact visited_prefix _ _ _ r hr
            · have : l = [] := List.eq_nil_of_length_eq_zero (by simpa using hl1)
              subst this
              rwa [List.dropLast_concat] at hr)
          (by
            rw [hbase]
            intro r hr
            exact hf.2 r (by rw [hl']; exact visited_prefix _ _ _ r hr))
        exact hno _ hfine
    · rw [step, hr, hh.size] at hs
      simp only [Option.isSome_none, Bool.false_eq_true, if_false, if_neg hp, Option.some.injEq, Prod.mk.injEq] at hs
      obtain ⟨-, rfl⟩ := hs
      exact fun h => by cases h
  · rw [step, hr] at hs; cases hs
  · rw [step, hr] at hs; cases hs

theorem no_error_run {e : Env} {fs fs' : Fs} {path : Bytes} {p p' : Proc} {n : Nat} (h0 : (0 : UInt8) ∉ path) (hr : Run e n fs p fs' p') (hw : WellFormed fs)
    (hb : fs (base e path) = some .dir) (hf : Free e fs path) (h : Inv e path fs p) (hn : ∀ err, p.ret ≠ some (some err)) (err : Err) :
    p'.ret ≠ some (some err) := by
  induction hr with
  | refl fs p => exact hn err
  | own hs _ ih =>
    obtain ⟨h1, h2, h3⟩ := inv_step h0 hw h hs
    exact ih h3 (h2.1 _ _ hb) (free_grows hf h2) h1 (no_error h0 hb hf h hs)
  | others hg hw' _ ih => exact ih hw' (hg.1 _ _ hb) (free_grows hf hg) (inv_grows h hg) hn

theorem step_at {e : Env} {fs fs' : Fs} {path : Bytes} {p p' : Proc} (h0 : (0 : UInt8) ∉ path) (h : Inv e path fs p)
    (hs : step e fs p = some (fs', p')) (q : Path) (hq : fs' q ≠ fs q) :
    q ∈ visited (base e path) (names path) ∧ fs q = none ∧ fs' q = some .dir := by
  rcases h with ⟨hh, hr, hl⟩ | ⟨hr, -⟩ | ⟨_, hr⟩
  · by_cases hp : p.pos < path.length
    · rcases step_cases h0 hh hr hp hs with ⟨hf, -⟩ | ⟨-, rfl, -⟩
      · rcases hf with hf | ⟨-, rfl⟩
        · obtain ⟨h1, h2, h3, -⟩ := scan_spec hh hp
          obtain ⟨h4, h5⟩ := mkdir_at hf q hq
          obtain ⟨l', hl'⟩ := names_prefix h2 h3
          rw [base_take e (Nat.le_trans hh.pos h1)] at h4
          exact ⟨by rw [hl']; exact visited_prefix _ _ _ q h4, h5⟩
        · exact absurd rfl hq
      · exact absurd rfl hq
    · rw [step, hr, hh.size] at hs
      simp only [Option.isSome_none, Bool.false_eq_true, if_false, if_neg hp, Option.some.injEq, Prod.mk.injEq] at hs
      obtain ⟨rfl, -⟩ := hs
      exact absurd rfl hq
  · rw [step, hr] at hs; cases hs
  · rw [step, hr] at hs; cases hs

/-! ## It ends -/

/-- How many iterations are left, at most. -/
def left (p : Proc) : Nat := if p.ret.isSome then 0 else p.size - p.pos + 1

theorem step_left {e : Env} {fs fs' : Fs} {p p' : Proc} (hs : step e fs p = some (fs', p')) : left p' < left p := by
  have hsc : p.pos ≤ scan p := Nat.le_add_right _ _
  unfold step at hs
  split at hs
  · cases hs
  rename_i hr
  split at hs
  · rename_i hp
    simp only at hs
    have hl : left p = p.size - p.pos + 1 := by rw [left, if_neg hr]
    split at hs <;> simp only [Option.some.injEq, Prod.mk.injEq] at hs <;> obtain ⟨-, rfl⟩ := hs
    · simp only [left, hr, if_false, Bool.false_eq_true]; omega
    · simp only [left, hr, if_false, Bool.false_eq_true]; omega
    · simp only [left, Option.isSome_some, if_true, hr, if_false, Bool.false_eq_true]; omega
  · simp only [Option.some.injEq, Prod.mk.injEq] at hs
    obtain ⟨-, rfl⟩ := hs
    simp only [left, Option.isSome_some, if_true, hr, if_false, Bool.false_eq_true]; omega

theorem run_left {e : Env} {n : Nat} {fs fs' : Fs} {p p' : Proc} (hr : Run e n fs p fs' p') : n + left p' ≤ left p := by
  induction hr with
  | refl fs p => exact Nat.le_of_eq (Nat.zero_add _)
  | own hs _ ih => have := step_left hs; omega
  | others _ _ _ ih => exact ih

theorem step_some (e : Env) (fs : Fs) {p : Proc} (h : p.ret = none) : ∃ r, step e fs p = some r := by
  unfold step
  rw [h]
  simp only [Option.isSome_none, Bool.false_eq_true, if_false]
  split
  · split <;> exact ⟨_, rfl⟩
  · exact ⟨_, rfl⟩

end Hx.Mkdir

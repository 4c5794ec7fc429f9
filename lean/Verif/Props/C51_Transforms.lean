import Verif.Model.Transform

/-!
# C51: user transforms
-/

namespace Hx.Props
open Hx Hx.Config

theorem lookup_append {α : Type} (l : List (Nat × α)) (k : Nat) (a : α) (t : Nat) :
    (l ++ [(k, a)]).lookup t = match l.lookup t with | some x => some x | none => if t = k then some a else none := by
  induction l with
  | nil =>
    by_cases h : t = k
    · subst h; simp [List.lookup]
    · have : (t == k) = false := by simpa using h
      simp [List.lookup, this, h]
  | cons x l ih =>
    obtain ⟨y, b⟩ := x
    by_cases h : t = y
    · subst h; simp [List.lookup]
    · have : (t == y) = false := by simpa using h
      simp only [List.cons_append, List.lookup, this, ih]

theorem table_fold (l : List (Nat × Nat × Nat)) (tab : List (Nat × Callback)) (t : Nat) :
    (l.foldl (fun t e => if (t.lookup e.1).isSome then t else t ++ [(e.1, .user e.2.1 e.2.2)]) tab).lookup t =
      match tab.lookup t with
      | some c => some c
      | none => (l.lookup t).map fun e => .user e.1 e.2 := by
  induction l generalizing tab with
  | nil => cases h : tab.lookup t <;> simp [h]
  | cons e l ih =>
    obtain ⟨k, f, x⟩ := e
    rw [List.foldl_cons, ih]
    simp only
    by_cases hk : (tab.lookup k).isSome = true
    · rw [if_pos hk]
      by_cases h : t = k
      · subst h
        obtain ⟨c, hc⟩ := Option.isSome_iff_exists.mp hk
        rw [hc]
      · have : (t == k) = false := by simpa using h
        simp only [List.lookup, this]
    · rw [if_neg hk, lookup_append]
      cases hc : tab.lookup t with
      | some c => rfl
      | none =>
        by_cases h : t = k
        · subst h; simp [List.lookup]
        · have : (t == k) = false := by simpa using h
          simp [List.lookup, this, h]

/-- No function a user sets is ever used for any of the eight data types: every open session encodes and
decodes them as the library does, whatever setters were called. -/
theorem C51_known_types_false (o : Opts) (t : Nat) (h1 : 1 ≤ t) (h8 : t ≤ 8) :
    encoder o t = some (if t ≤ 6 then .library else .copy) ∧ decoder o t = some (if t ≤ 6 then .library else .copy) := by
  have hd : defaultTable.lookup t = some (if t ≤ 6 then .library else .copy) := by
    have : ∀ t : Fin 9, 1 ≤ t.val → defaultTable.lookup t.val = some (if t.val ≤ 6 then .library else .copy) := by decide
    exact this ⟨t, by omega⟩ h1
  unfold encoder decoder sessionTable
  rw [table_fold, table_fold, hd]
  exact ⟨rfl, rfl⟩

/-- For other type numbers the functions of the first call are used. -/
theorem C51_other_types_partial (o : Opts) (t e ee d de : Nat) (hr : o.running = false) (ht : t = 0 ∨ 8 < t)
    (hn : o.encode.lookup t = none) (hn' : o.decode.lookup t = none) :
    ∃ o', (Setter.transform t e ee d de).run (some (some o)) = .ok (some (some o'), true) ∧
      encoder o' t = some (.user e ee) ∧ decoder o' t = some (.user d de) ∧
      ∀ t', t' ≠ t → encoder o' t' = encoder o t' ∧ decoder o' t' = decoder o t' := by
  have hd : defaultTable.lookup t = none := by
    rcases ht with rfl | ht
    · rfl
    · have h : ∀ k, k ≤ 8 → (t == k) = false := fun k hk => by simpa using (by omega : t ≠ k)
      simp [defaultTable, List.lookup, h]
  refine ⟨{ o with encode := o.encode ++ [(t, e, ee)], decode := o.decode ++ [(t, d, de)] }, ?_, ?_, ?_, ?_⟩
  · simp [Setter.run, Setter.onOpts, setTransform, checked, hr, emplace, hn, hn']
  · simp only [encoder, sessionTable, table_fold, hd, lookup_append, hn, if_true]; rfl
  · simp only [decoder, sessionTable, table_fold, hd, lookup_append, hn', if_true]; rfl
  · intro t' h
    constructor
    · simp only [encoder, sessionTable, table_fold, lookup_append, if_neg h]
      cases o.encode.lookup t' <;> rfl
    · simp only [decoder, sessionTable, table_fold, lookup_append, if_neg h]
      cases o.decode.lookup t' <;> rfl

/-- A second call for a type succeeds without effect. -/
theorem C51_second_call_false (o : Opts) (t e ee d de : Nat) (hr : o.running = false)
    (h : (o.encode.lookup t).isSome) (h' : (o.decode.lookup t).isSome) :
    (Setter.transform t e ee d de).run (some (some o)) = .ok (some (some o), true) := by
  simp [Setter.run, Setter.onOpts, setTransform, checked, hr, emplace, h, h']
  rw [← hr]

example : encoder { Opts.new with encode := [(1, 5, 6), (77, 8, 9)] } 1 = some .library ∧
    encoder { Opts.new with encode := [(1, 5, 6), (77, 8, 9)] } 77 = some (.user 8 9) := by decide

end Hx.Props

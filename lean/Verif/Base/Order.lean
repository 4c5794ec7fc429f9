import Verif.Base.Bytes

/-!
# Byte order

`std::string`, `std::map<std::string, _>` and LevelDB/RocksDB's `BytewiseComparator` compare byte
strings lexicographically by unsigned byte value. The model uses Lean's `<` on `List UInt8`,
which is that order. `DiffR` is the proof tool: two strings that differ at a first position.
-/

namespace Hx

/-- `a` and `b` have a common prefix after which both continue, with bytes related by `R`. -/
def DiffR (R : UInt8 → UInt8 → Prop) (a b : Bytes) : Prop :=
  ∃ p x y s t, a = p ++ x :: s ∧ b = p ++ y :: t ∧ R x y

theorem DiffR.append {R a b} (h : DiffR R a b) (u v : Bytes) : DiffR R (a ++ u) (b ++ v) := by
  obtain ⟨p, x, y, s, t, rfl, rfl, hR⟩ := h
  exact ⟨p, x, y, s ++ u, t ++ v, by simp, by simp, hR⟩

theorem DiffR.prefix {R a b} (h : DiffR R a b) (u : Bytes) : DiffR R (u ++ a) (u ++ b) := by
  obtain ⟨p, x, y, s, t, rfl, rfl, hR⟩ := h
  exact ⟨u ++ p, x, y, s, t, by simp, by simp, hR⟩

theorem DiffR.cons {R a b} (h : DiffR R a b) (u : UInt8) : DiffR R (u :: a) (u :: b) :=
  h.prefix [u]

theorem DiffR.head {R : UInt8 → UInt8 → Prop} {x y : UInt8} (h : R x y) (s t : Bytes) :
    DiffR R (x :: s) (y :: t) := ⟨[], x, y, s, t, rfl, rfl, h⟩

theorem DiffR.mono {R S : UInt8 → UInt8 → Prop} (hRS : ∀ x y, R x y → S x y) {a b}
    (h : DiffR R a b) : DiffR S a b := by
  obtain ⟨p, x, y, s, t, rfl, rfl, hR⟩ := h
  exact ⟨p, x, y, s, t, rfl, rfl, hRS _ _ hR⟩

theorem DiffR.swap {R : UInt8 → UInt8 → Prop} {a b}
    (h : DiffR R a b) : DiffR (fun x y => R y x) b a := by
  obtain ⟨p, x, y, s, t, rfl, rfl, hR⟩ := h
  exact ⟨p, y, x, t, s, rfl, rfl, hR⟩

theorem DiffR.lt {a b : Bytes} (h : DiffR (· < ·) a b) : a < b := by
  obtain ⟨p, x, y, s, t, rfl, rfl, hR⟩ := h
  induction p with
  | nil => exact List.Lex.rel hR
  | cons c p ih => exact List.Lex.cons ih

theorem DiffR.not_prefix {R : UInt8 → UInt8 → Prop} (hR : ∀ x, ¬ R x x) {a b : Bytes}
    (h : DiffR R a b) : ¬ a <+: b := by
  obtain ⟨p, x, y, s, t, rfl, rfl, hxy⟩ := h
  intro hp
  rw [List.prefix_append_right_inj] at hp
  have := (List.cons_prefix_cons.mp hp).1
  exact hR _ (this ▸ hxy)

theorem DiffR.not_prefix' {R : UInt8 → UInt8 → Prop} (hR : ∀ x, ¬ R x x) {a b : Bytes}
    (h : DiffR R a b) : ¬ b <+: a := by
  exact DiffR.not_prefix (R := fun x y => R y x) hR h.swap

theorem u8_lt_irrefl (x : UInt8) : ¬ x < x := by
  simp

theorem bytes_lt_irrefl (a : Bytes) : ¬ a < a := List.lt_irrefl a

theorem bytes_lt_asymm {a b : Bytes} (h : a < b) : ¬ b < a := List.lt_asymm h

theorem bytes_lt_trans {a b c : Bytes} (h : a < b) (h2 : b < c) : a < c := List.lt_trans h h2

theorem bytes_trichotomy (a b : Bytes) : a < b ∨ a = b ∨ b < a := by
  by_cases h : a < b
  · exact .inl h
  · by_cases h2 : b < a
    · exact .inr (.inr h2)
    · exact .inr (.inl (List.le_antisymm (List.not_lt.mp h2) (List.not_lt.mp h)))

/-- A proper prefix is smaller. -/
theorem lt_append_of_ne_nil (a : Bytes) {s : Bytes} (h : s ≠ []) : a < a ++ s := by
  induction a with
  | nil => cases s with
    | nil => exact absurd rfl h
    | cons x s => exact List.Lex.nil
  | cons x a ih => exact List.Lex.cons ih

end Hx

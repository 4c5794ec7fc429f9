import Verif.Base.Bytes

/-!
# Reading from a buffer

A pointer into a received buffer is modelled by the bytes from the pointer to the end of the
buffer. Reading past the end is `ub`. `Reads f w a`: reader `f`, pointed at bytes that start with
`w`, returns `a` and leaves the pointer just behind `w`, whatever follows.
-/

namespace Hx

/-- `memcpy(dst, src, k); src += k`. -/
def rd (k : Nat) (src : Bytes) : Out (Bytes × Bytes) :=
  if src.length < k then .ub else .ok (src.take k, src.drop k)

/-- `little_endian::decode` of a `k`-byte unsigned integer followed by `src += k`
(include/utils/little_endian.hpp:48-56). -/
def rdNat (k : Nat) (src : Bytes) : Out (Nat × Bytes) :=
  rd k src >>= fun x => .ok (leVal x.1, x.2)

/-- Four byte two's complement image of an `int`. -/
def intBytes (v : Int) : Bytes := leBytes 4 (v % 2 ^ 32).toNat

/-- `int` with a given four byte image. -/
def intOfNat (n : Nat) : Int := if n < 2 ^ 31 then (n : Int) else (n : Int) - 2 ^ 32

/-- `little_endian::decode` of an `int`. -/
def rdInt (src : Bytes) : Out (Int × Bytes) := rdNat 4 src >>= fun x => .ok (intOfNat x.1, x.2)

/-- Values an `int` can hold. -/
def IntRange (v : Int) : Prop := -(2 ^ 31) ≤ v ∧ v < 2 ^ 31

instance (v : Int) : Decidable (IntRange v) := by unfold IntRange; infer_instance

/-- Run a reader `n` times. -/
def rdMany {α : Type} (f : Bytes → Out (α × Bytes)) : Nat → Bytes → Out (List α × Bytes)
  | 0, src => .ok ([], src)
  | n + 1, src => f src >>= fun x => rdMany f n x.2 >>= fun y => .ok (x.1 :: y.1, y.2)

/-- Reader `f` reads exactly the bytes `w` and returns `a`. -/
def Reads {α : Type} (f : Bytes → Out (α × Bytes)) (w : Bytes) (a : α) : Prop :=
  ∀ rest, f (w ++ rest) = .ok (a, rest)

theorem reads_rd (w : Bytes) : Reads (rd w.length) w w := by
  intro rest
  unfold rd
  rw [if_neg (by simp), List.take_left', List.drop_left'] <;> rfl

theorem reads_rd' {k : Nat} {w : Bytes} (h : w.length = k) : Reads (rd k) w w := h ▸ reads_rd w

theorem reads_rdNat {k n : Nat} (h : n < 256 ^ k) : Reads (rdNat k) (leBytes k n) n := by
  intro rest
  unfold rdNat
  rw [reads_rd' (length_leBytes k n) rest, Out.ok_bind, leVal_leBytes k n h]

theorem reads_rdInt {v : Int} (h : IntRange v) : Reads rdInt (intBytes v) v := by
  intro rest
  unfold IntRange at h
  unfold rdInt intBytes
  have hlt : (v % 2 ^ 32).toNat < 256 ^ 4 := by
    have h1 := Int.emod_lt_of_pos v (show (0 : Int) < 2 ^ 32 by omega)
    have h2 := Int.emod_nonneg v (show (2 ^ 32 : Int) ≠ 0 by omega)
    omega
  rw [reads_rdNat hlt rest, Out.ok_bind]
  unfold intOfNat
  congr 2
  split <;> omega

@[simp] theorem length_intBytes (v : Int) : (intBytes v).length = 4 := by
  unfold intBytes; simp

theorem Reads.bind {α β : Type} {f : Bytes → Out (α × Bytes)} {w : Bytes} {a : α} (h : Reads f w a)
    (g : α × Bytes → Out β) (rest : Bytes) : (f (w ++ rest) >>= g) = g (a, rest) := by
  rw [h rest, Out.ok_bind]

theorem reads_rdMany {α ι : Type} {f : Bytes → Out (α × Bytes)} {enc : ι → Bytes} {dec : ι → α}
    (l : List ι) (h : ∀ x ∈ l, Reads f (enc x) (dec x)) :
    Reads (rdMany f l.length) (l.flatMap enc) (l.map dec) := by
  intro rest
  induction l with
  | nil => simp [rdMany]
  | cons x l ih =>
    simp only [List.length_cons, List.flatMap_cons, List.map_cons, rdMany, List.append_assoc]
    rw [(h x (by simp)).bind]
    simp only
    rw [ih (fun y hy => h y (by simp [hy])), Out.ok_bind]

end Hx

/-!
# Bytes, outcomes, little-endian numbers

Shared vocabulary of the model.
-/

namespace Hx

/-- A byte string (`std::string`, `leveldb::Slice`, a `void *` + length). -/
abbrev Bytes := List UInt8

/-- Outcome of a piece of C++ code.
`err` is a reported error (error return code or thrown exception),
`ub` is undefined behaviour (null dereference, access outside an object, signed overflow,
use after free, ...). -/
inductive Out (α : Type) where
  | ok (a : α)
  | err
  | ub
  deriving Repr, DecidableEq

namespace Out

/-- Sequencing: the first error or undefined behaviour ends the computation. -/
def bind {α β : Type} (x : Out α) (f : α → Out β) : Out β :=
  match x with
  | ok a => f a
  | err => err
  | ub => ub

instance : Monad Out where
  pure := ok
  bind := bind

/-- The outcome is not undefined behaviour. -/
def defined {α : Type} : Out α → Prop
  | ub => False
  | _ => True

@[simp] theorem pure_eq {α : Type} (a : α) : (pure a : Out α) = ok a := rfl
@[simp] theorem ok_bind {α β : Type} (a : α) (f : α → Out β) : (ok a >>= f) = f a := rfl
@[simp] theorem err_bind {α β : Type} (f : α → Out β) : ((err : Out α) >>= f) = err := rfl
@[simp] theorem ub_bind {α β : Type} (f : α → Out β) : ((ub : Out α) >>= f) = ub := rfl

end Out

/-- The `k` low bytes of `n`, least significant first: what `little_endian::encode` of a
`k`-byte integer leaves in memory (include/utils/little_endian.hpp:12-46; on a little-endian
host it is a `memcpy`). -/
def leBytes : Nat → Nat → Bytes
  | 0, _ => []
  | k + 1, n => UInt8.ofNat (n % 256) :: leBytes k (n / 256)

/-- Value of a little-endian byte string (`little_endian::decode`,
include/utils/little_endian.hpp:48-56). -/
def leVal : Bytes → Nat
  | [] => 0
  | b :: bs => b.toNat + 256 * leVal bs

@[simp] theorem length_leBytes (k n : Nat) : (leBytes k n).length = k := by
  induction k generalizing n with
  | zero => rfl
  | succ k ih => simp [leBytes, ih]

theorem leVal_leBytes (k n : Nat) (h : n < 256 ^ k) : leVal (leBytes k n) = n := by
  induction k generalizing n with
  | zero => simp at h; subst h; rfl
  | succ k ih =>
    have h2 : n / 256 < 256 ^ k := by
      apply Nat.div_lt_of_lt_mul
      rw [Nat.pow_succ, Nat.mul_comm] at h
      exact h
    simp only [leBytes, leVal, ih _ h2]
    have : (UInt8.ofNat (n % 256)).toNat = n % 256 := by
      simp
    omega

theorem leVal_lt (bs : Bytes) : leVal bs < 256 ^ bs.length := by
  induction bs with
  | nil => simp [leVal]
  | cons b bs ih =>
    simp only [leVal, List.length_cons, Nat.pow_succ]
    have := b.toNat_lt
    omega

theorem leBytes_leVal (bs : Bytes) : leBytes bs.length (leVal bs) = bs := by
  induction bs with
  | nil => rfl
  | cons b bs ih =>
    have hb := b.toNat_lt
    simp only [List.length_cons, leBytes, leVal]
    have h1 : (b.toNat + 256 * leVal bs) % 256 = b.toNat := by omega
    have h2 : (b.toNat + 256 * leVal bs) / 256 = leVal bs := by omega
    rw [h1, h2, ih]
    simp

theorem leBytes_inj {k a b : Nat} (ha : a < 256 ^ k) (hb : b < 256 ^ k)
    (h : leBytes k a = leBytes k b) : a = b := by
  rw [← leVal_leBytes k a ha, ← leVal_leBytes k b hb, h]

end Hx

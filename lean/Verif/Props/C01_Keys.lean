import Verif.Model.Key

/-!
# C01, C02: composite keys

The statements mention only `spToKey` (what is stored) and `keyToSp` (what is read back).
-/

namespace Hx.Props
open Hx Key

/-- C01. The key of a pair splits into exactly that pair, without reading outside the key. -/
theorem C01_key_roundtrip (s p : Val)
    (hs : s.bytes.length < 2 ^ 64) (hp : p.bytes.length < 2 ^ 64)
    (hst : s.typ < 256) (hpt : p.typ < 256) :
    keyToSp (spToKey s p) = .ok (s, p) := by
  obtain ⟨s, st⟩ := s
  obtain ⟨p, pt⟩ := p
  simp only at hs hp hst hpt
  have key : spToKey ⟨s, st⟩ ⟨p, pt⟩ = s ++ (p ++ (0xff :: (leBytes 8 s.length ++ (leBytes 8 p.length
      ++ [UInt8.ofNat st, UInt8.ofNat pt])))) := by
    simp [spToKey]
  have hlen : (spToKey ⟨s, st⟩ ⟨p, pt⟩).length = s.length + p.length + 19 := by
    simp [spToKey]; omega
  have d18 : (spToKey ⟨s, st⟩ ⟨p, pt⟩).drop (s.length + p.length + 1) =
      leBytes 8 s.length ++ (leBytes 8 p.length ++ [UInt8.ofNat st, UInt8.ofNat pt]) := by
    have : spToKey ⟨s, st⟩ ⟨p, pt⟩ = (s ++ p ++ [0xff]) ++ (leBytes 8 s.length ++ (leBytes 8 p.length
      ++ [UInt8.ofNat st, UInt8.ofNat pt])) := by simp [spToKey]
    rw [this]
    exact List.drop_left' (by simp; omega)
  have d10 : (spToKey ⟨s, st⟩ ⟨p, pt⟩).drop (s.length + p.length + 9) =
      (leBytes 8 p.length ++ [UInt8.ofNat st, UInt8.ofNat pt]) := by
    have : spToKey ⟨s, st⟩ ⟨p, pt⟩ = (s ++ p ++ 0xff :: leBytes 8 s.length) ++ (leBytes 8 p.length
      ++ [UInt8.ofNat st, UInt8.ofNat pt]) := by simp [spToKey]
    rw [this]
    exact List.drop_left' (by simp; omega)
  have d2 : (spToKey ⟨s, st⟩ ⟨p, pt⟩).drop (s.length + p.length + 17) =
      [UInt8.ofNat st, UInt8.ofNat pt] := by
    have : spToKey ⟨s, st⟩ ⟨p, pt⟩ = (s ++ p ++ 0xff :: (leBytes 8 s.length ++ leBytes 8 p.length))
      ++ [UInt8.ofNat st, UInt8.ofNat pt] := by simp [spToKey]
    rw [this]
    exact List.drop_left' (by simp; omega)
  have dp : (spToKey ⟨s, st⟩ ⟨p, pt⟩).drop s.length = p ++ (0xff :: (leBytes 8 s.length ++
      (leBytes 8 p.length ++ [UInt8.ofNat st, UInt8.ofNat pt]))) := by
    rw [key]; exact List.drop_left' rfl
  have tp : (spToKey ⟨s, st⟩ ⟨p, pt⟩).take s.length = s := by
    rw [key]; exact List.take_left' rfl
  generalize hk : spToKey ⟨s, st⟩ ⟨p, pt⟩ = k at *
  have g1 : k.getD (s.length + p.length + 18) 0 = UInt8.ofNat pt := by
    have : (k.drop (s.length + p.length + 17)).getD 1 0 = UInt8.ofNat pt := by rw [d2]; rfl
    rw [← this]; simp [List.getD_eq_getElem?_getD, List.getElem?_drop]
  have g2 : k.getD (s.length + p.length + 17) 0 = UInt8.ofNat st := by
    have : (k.drop (s.length + p.length + 17)).getD 0 0 = UInt8.ofNat st := by rw [d2]; rfl
    rw [← this]; simp [List.getD_eq_getElem?_getD, List.getElem?_drop]
  have l1 : leVal ((k.drop (s.length + p.length + 1)).take 8) = s.length := by
    rw [d18, List.take_left' (by simp), leVal_leBytes _ _ (by omega)]
  have l2 : leVal ((k.drop (s.length + p.length + 9)).take 8) = p.length := by
    rw [d10, List.take_left' (by simp), leVal_leBytes _ _ (by omega)]
  have tpp : (k.drop s.length).take p.length = p := by
    rw [dp]; exact List.take_left' rfl
  unfold keyToSp
  simp only [hlen, trailer]
  rw [show s.length + p.length + 19 - 10 = s.length + p.length + 9 by omega,
    show s.length + p.length + 19 - 18 = s.length + p.length + 1 by omega,
    show s.length + p.length + 19 - 1 = s.length + p.length + 18 by omega,
    show s.length + p.length + 19 - 2 = s.length + p.length + 17 by omega,
    l1, l2, g1, g2, tp,
    show s.length + p.length + 19 - (1 + 8 + 8 + 1 + 1) - p.length = s.length by omega, tpp]
  rw [if_neg (by omega), if_neg (by omega)]
  simp only [Out.ok.injEq, Prod.mk.injEq, Val.mk.injEq, true_and, UInt8.toNat_ofNat']
  omega

/-- Terminator bytes, zeros and the digits of the trailer inside the values do no harm. -/
example : keyToSp (spToKey ⟨[0xff, 0, 1, 0xff], 7⟩ ⟨[], 255⟩) =
    .ok (⟨[0xff, 0, 1, 0xff], 7⟩, ⟨[], 255⟩) := by
  exact C01_key_roundtrip _ _ (by decide) (by decide) (by decide) (by decide)

/-- C02. Two pairs with the same key are the same pair. -/
theorem C02_key_injective (s p s' p' : Val)
    (hs : s.bytes.length < 2 ^ 64) (hp : p.bytes.length < 2 ^ 64)
    (hst : s.typ < 256) (hpt : p.typ < 256)
    (hs' : s'.bytes.length < 2 ^ 64) (hp' : p'.bytes.length < 2 ^ 64)
    (hst' : s'.typ < 256) (hpt' : p'.typ < 256)
    (h : spToKey s p = spToKey s' p') : s = s' ∧ p = p' := by
  have h1 := C01_key_roundtrip s p hs hp hst hpt
  have h2 := C01_key_roundtrip s' p' hs' hp' hst' hpt'
  rw [h, h2] at h1
  simp only [Out.ok.injEq, Prod.mk.injEq] at h1
  exact ⟨h1.1.symm, h1.2.symm⟩

/-- C02, instance: moving a byte from the subject to the predicate changes the key. -/
example : spToKey ⟨[1, 2], 7⟩ ⟨[3], 7⟩ ≠ spToKey ⟨[1], 7⟩ ⟨[2, 3], 7⟩ := by decide

/-- Outside the property's range: types are cut to 8 bits, so user-defined types that agree modulo
256 share a key. The public enum stops below 256 (include/hxhim/constants.h), but nothing in the
code refuses larger values. -/
theorem C02_large_types_alias :
    ∃ s s' p : Val, s ≠ s' ∧ spToKey s p = spToKey s' p :=
  ⟨⟨[1], 7⟩, ⟨[1], 263⟩, ⟨[2], 7⟩, by decide, by decide⟩

end Hx.Props

import Verif.Proofs.Lowest
import Verif.Props.C59_Doubles

/-!
# Helper lemmas: integers, floats and doubles as readings
-/

namespace Hx.Store
open Hx Msg Spec Elen Fp

theorem symbols_lt {neg pos : UInt8} (hs : Symbols neg pos) : neg < pos := by
  have := hs.neg_lt
  have := hs.pos_gt
  exact UInt8.lt_iff_toNat_lt.mpr (by omega)

theorem zero_form {neg pos : UInt8} (hs : Symbols neg pos) : NumForm neg pos [48] := by
  refine ⟨48, [], rfl, ?_, .inl ?_⟩
  · rw [UInt8.le_iff_toNat_le]; have := hs.pos_gt; show 48 ≤ _; omega
  · rw [UInt8.lt_iff_toNat_lt]; exact hs.neg_lt

theorem encInt_form {neg pos : UInt8} (hs : Symbols neg pos) (v : Int) : NumForm neg pos (encInt neg pos v) := by
  unfold encInt
  have two : ∀ (pre : UInt8) (n : Nat), n ≠ 0 → ∃ l, unique pre neg n = pre :: l ∧ l ≠ [] := by
    intro pre n hn
    rw [unique_pos pre neg hn]
    have := written_ne_nil pre neg n
    split
    · exact ⟨_, rfl, by simp [this]⟩
    · exact ⟨_, rfl, by simp [this]⟩
  split
  · obtain ⟨l, h1, h2⟩ := two neg v.natAbs (by omega)
    exact ⟨neg, l, h1, UInt8.le_of_lt (symbols_lt hs), .inr ⟨rfl, h2⟩⟩
  · split
    · obtain ⟨l, h1, h2⟩ := two pos v.natAbs (by omega)
      exact ⟨pos, l, h1, UInt8.le_refl _, .inl (symbols_lt hs)⟩
    · exact zero_form hs

theorem encFlt_form {neg pos : UInt8} (hs : Symbols neg pos) (s : Bool) (e : Int) (d : Bytes) :
    NumForm neg pos (encFlt neg pos (.num s e d)) := by
  cases s
  · exact ⟨pos, _, rfl, UInt8.le_refl _, .inl (symbols_lt hs)⟩
  · exact ⟨neg, _, rfl, UInt8.le_of_lt (symbols_lt hs), .inr ⟨rfl, by simp⟩⟩

theorem length_encInt_le (neg pos : UInt8) (v : Int) : (encInt neg pos v).length ≤ 3 * v.natAbs + 1 := by
  unfold encInt
  split
  · exact length_unique_le _ _ _
  · split
    · exact length_unique_le _ _ _
    · simp

theorem byte_enc (neg pos : UInt8) (f : FloatCodec) (b : Blob) (h : b.typ = tByte) :
    (defaultCallbacks neg pos f).encode b = .ok (some b.bytes) := by
  unfold defaultCallbacks
  simp only [h]
  rfl

theorem byte_dec (neg pos : UInt8) (f : FloatCodec) (l : Bytes) : (defaultCallbacks neg pos f).decode ⟨l, tByte⟩ = .ok (some l) := rfl

/-! ## Integers -/

theorem int_nums {neg pos : UInt8} (hs : Symbols neg pos) (f : FloatCodec) {t : Nat} {i : IntType} (ht : intType t = some i) {attr : Bytes}
    {rs : List Reading} (hn : ∀ r ∈ rs, r.num.typ = t ∧ Plain ⟨1, r.num.bytes, t⟩) (hold : ∀ r ∈ rs, Told pos attr r.name) :
    Nums neg pos (defaultCallbacks neg pos f) t attr rs (fun r => encInt neg pos (ofMem i r.num.bytes)) (fun r => r.num.bytes) := by
  obtain ⟨hw, hw8⟩ := intType_width ht
  have good : ∀ r ∈ rs, encodeMem neg pos i r.num.bytes = .ok (encInt neg pos (ofMem i r.num.bytes)) ∧
      (encInt neg pos (ofMem i r.num.bytes)).length < 2 ^ 64 ∧
      decodeMem neg pos i (encInt neg pos (ofMem i r.num.bytes)) = .ok r.num.bytes := by
    intro r hr
    obtain ⟨-, hl, hmin⟩ := (hn r hr).2.int i ht
    have hl : r.num.bytes.length = i.width := hl
    obtain ⟨e, he, hlen, hd⟩ := int_good hs hw hw8 hl hmin
    have : e = encInt neg pos (ofMem i r.num.bytes) := by
      unfold encodeMem encodeInteger at he
      rw [if_neg (by omega), List.take_of_length_le (by omega)] at he
      split at he
      · cases he
      · cases he; rfl
    rw [← this]; exact ⟨he, hlen, hd⟩
  refine ⟨fun r hr => (hn r hr).1, ?_, ?_, fun r hr => encInt_form hs _, fun r hr => (good r hr).2.1, hold, ?_, byte_enc _ _ _, byte_dec _ _ _,
    symbols_lt hs⟩
  · intro r hr b ha hb
    have hbt : b.typ = t := (congrArg Val.typ hb).trans (hn r hr).1
    have hbb : b.bytes = r.num.bytes := congrArg Val.bytes hb
    simp only [defaultCallbacks, hbt, ht, ha, if_false, hbb, (good r hr).1, Out.ok_bind]
  · intro r hr
    simp only [defaultCallbacks, ht, (good r hr).2.2, Out.ok_bind]
  · unfold intType at ht
    split at ht
    · rename_i h; rw [h]; decide
    · split at ht
      · rename_i h; rw [h]; decide
      · split at ht
        · rename_i h; rw [h]; decide
        · split at ht
          · rename_i h; rw [h]; decide
          · cases ht

/-! ## Floats and doubles -/

theorem num_stored {lib : Libm} (hl : LibmOk lib) {neg pos : UInt8} (hs : Symbols neg pos) (fprec dprec : Nat) (v : Val)
    (hp : 2 ≤ precOf v.typ fprec dprec) (hp' : precOf v.typ fprec dprec < 2 ^ 63) (hv : numSize v.typ ≤ v.bytes.length)
    {x : ℚ} (hx : (numberIn v.typ v.bytes).value = some x) (hm : x = 0 ∨ Moderate v.typ x) :
    ∃ a m z, (codec lib neg pos fprec dprec).encode v = .ok (some a) ∧ NumForm neg pos a ∧ a.length < 2 ^ 64 ∧
      (codec lib neg pos fprec dprec).decode ⟨a, v.typ⟩ = .ok (some m) ∧ m.length = numSize v.typ ∧
      (numberIn v.typ m).value = some z ∧ (¬ LosesExponent x → |z - x| ≤ |x| * relErr v.typ (precOf v.typ fprec dprec) 8) := by
  rcases hm with rfl | hm
  · obtain ⟨m, c1, c2, c3, c4⟩ := Props.C59_zero lib neg pos fprec dprec v hv hx
    exact ⟨[48], m, 0, c1, zero_form hs, by decide, c2, c3, by rw [c4]; rfl, fun _ => by simp⟩
  · -- the stored form
    have form : ∃ a, (codec lib neg pos fprec dprec).encode v = .ok (some a) ∧ NumForm neg pos a ∧ a.length < 2 ^ 64 := by
      obtain ⟨s, k, hk, e1, rfl⟩ := number_value hx
      rw [codec_encode _ _ _ _ _ _ hv, e1]
      rcases Nat.eq_zero_or_pos k with rfl | k0
      · refine ⟨[48], ?_, zero_form hs, by decide⟩
        rw [Fmt.val_zero]; rfl
      · obtain ⟨e, d, c1, -, -, -, h5, h6, h7⟩ := encode_num (isFmt_fmtOf v.typ) hl (precOf v.typ fprec dprec) neg pos k0 hk
        rw [c1 s]
        refine ⟨_, rfl, encFlt_form hs s e d, ?_⟩
        have hd : d.length ≤ 2 ^ 63 := by
          rcases h7 with ⟨-, w, -, -, hd, -⟩ | ⟨-, hd⟩
          · rw [hd, (lastDigits_spec _ _).2.1]; omega
          · rw [hd]; decide
        have hi := length_encInt_le neg pos e
        have hi' := length_encInt_le neg pos (-e)
        cases s
        · simp only [encFlt, List.length_cons, List.length_append, List.length_nil]; omega
        · simp only [encFlt, List.length_cons, List.length_append, List.length_nil, length_flip]; omega
    obtain ⟨a, ha, hform, hlen⟩ := form
    have read : ∃ m z, (codec lib neg pos fprec dprec).decode ⟨a, v.typ⟩ = .ok (some m) ∧ m.length = numSize v.typ ∧
        (numberIn v.typ m).value = some z := by
      obtain ⟨h0, h1⟩ := moderate_bounds hm
      obtain ⟨s, k, hk, e1, rfl⟩ := number_value hx
      rw [abs_signed s (Fmt.val_nonneg _ _)] at h0 h1
      obtain ⟨e, c, c1, b1, b2, j, hj, c2, herr⟩ := decode_close (isFmt_fmtOf v.typ) hl hp hs s h0 h1
      obtain ⟨m, c3, hlen, hval⟩ := codec_decode (fprec := fprec) (dprec := dprec) hj c2
      have : a = c := by
        rw [codec_encode _ _ _ _ _ _ hv, e1, c1, Out.ok_bind] at ha
        injection ha with ha; injection ha with ha; exact ha.symm
      subst this
      exact ⟨m, _, c3, hlen, by rw [hval]; rfl⟩
    obtain ⟨m, z, c1, c2, c3⟩ := read
    refine ⟨a, m, z, ha, hform, hlen, c1, c2, c3, ?_⟩
    intro he
    obtain ⟨a', m', y, d1, d2, -, d4, d5⟩ := Props.C59_back_partial hl hs fprec dprec v hp hv hx hm he
    rw [ha] at d1; injection d1 with d1; injection d1 with d1
    subst d1
    rw [c1] at d2; injection d2 with d2; injection d2 with d2
    subst d2
    rw [c3] at d4; injection d4 with d4
    subst d4
    exact d5

end Hx.Store

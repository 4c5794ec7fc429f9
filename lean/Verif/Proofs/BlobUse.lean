import Verif.Spec.BlobUse
import Verif.Proofs.Blob

/-!
# The library follows the rules of ownership

A check on lists of operations that looks at roles only, and its soundness.
-/

namespace Hx.Own

open Hx.Spec.Blob

/-- What is known of a blob: its pointer is not from `alloc`; it does not own
what it points to, but role `y` does; or it owns its pointer. -/
inductive Kind where
  | hollow
  | ref (y : Nat)
  | full
deriving DecidableEq

/-- What is known of the roles of a place; those not mentioned hold no blob. -/
abbrev Known := List (Nat × Kind)

def get : Known → Nat → Option Kind
  | [], _ => none
  | (y, k) :: K, x => bif Nat.beq x y then some k else get K x

def rem : Known → Nat → Known
  | [], _ => []
  | (y, k) :: K, x => bif Nat.beq x y then rem K x else (y, k) :: rem K x

def put (K : Known) (x : Nat) (k : Kind) : Known := (x, k) :: rem K x

/-- No blob refers to what `x` owns. -/
def noRef : Known → Nat → Bool
  | [], _ => true
  | (_, .ref z) :: K, x => bif Nat.beq z x then false else noRef K x
  | _ :: K, x => noRef K x

def Ptr.isHeap : Ptr → Bool
  | .heap _ => true
  | _ => false

/-- What is known of a copy of `y`. -/
def copied (K : Known) (y : Nat) : Option Kind :=
  match get K y with
  | some .full => some (.ref y)
  | k => k

/-- What is known after an operation, if it follows the rules for sure.  With
`lax`, blobs that own something may be forgotten. -/
def check1 (lax : Bool) (K : Known) : Op → Option Known
  | .make x p _ _ false =>
    match get K x, p.isHeap with
    | none, false => some (put K x .hollow)
    | _, _ => none
  | .make x .null _ _ true =>
    match get K x with
    | none => some (put K x .full)
    | _ => none
  | .makeCopy x _ _ =>
    match get K x with
    | none => some (put K x .full)
    | _ => none
  | .setClean x true =>
    match get K x with
    | some .full => some K
    | _ => none
  | .copy x y =>
    match get K x, copied K y with
    | none, some k => some (put K x k)
    | _, _ => none
  | .move x y =>
    match get K x, get K y, noRef K y with
    | none, some k, true => some (put (put K x k) y .hollow)
    | _, _, _ => none
  | .destroy x =>
    match get K x, noRef K x with
    | some _, true => some (rem K x)
    | _, _ => none
  | .assign x y =>
    match Nat.beq x y, get K x, copied K y, noRef K x with
    | false, some _, some k, true => some (put K x k)
    | _, _, _, _ => none
  | .moveAssign x y =>
    match Nat.beq x y, get K x, get K y, noRef K x && noRef K y with
    | false, some _, some k, true => some (put (put K x k) y .hollow)
    | _, _, _, _ => none
  | .dealloc x =>
    match get K x, noRef K x with
    | some _, true => some (put K x .hollow)
    | _, _ => none
  | .unpack x src _ _ c =>
    match get K x, c || !src.isHeap with
    | some .hollow, true => some (put K x (bif c then .full else .hollow))
    | _, _ => none
  | .unpackRef x p _ _ =>
    match get K x, p.isHeap with
    | some .hollow, false => some (put K x .hollow)
    | _, _ => none
  | .read x =>
    match get K x with
    | some _ => some K
    | none => none
  | .forget x =>
    match get K x with
    | some .hollow => some (rem K x)
    | some (.ref _) => some (rem K x)
    | some .full => bif lax && noRef K x then some (rem K x) else none
    | none => none
  | _ => none

def check (lax : Bool) (K : Known) : List Op → Option Known
  | [] => some K
  | op :: ops =>
    match check1 lax K op with
    | some K => check lax K ops
    | none => none

theorem beq_iff {x y : Nat} : Nat.beq x y = true ↔ x = y := by
  constructor
  · exact Nat.eq_of_beq_eq_true
  · rintro rfl
    exact Nat.beq_refl x

theorem get_rem (K : Known) (x z : Nat) : get (rem K x) z = if z = x then none else get K z := by
  induction K with
  | nil => simp [rem, get]
  | cons a K ih =>
    obtain ⟨y, k⟩ := a
    rw [rem]
    cases hxy : Nat.beq x y with
    | true =>
      have := beq_iff.mp hxy
      subst this
      rw [cond_true, ih, get]
      by_cases hz : z = x
      · simp [hz]
      · have : Nat.beq z x = false := by
          cases h : Nat.beq z x with
          | true => exact absurd (beq_iff.mp h) hz
          | false => rfl
        simp [hz, this]
    | false =>
      rw [cond_false, get, get, ih]
      cases hzy : Nat.beq z y with
      | true =>
        have := beq_iff.mp hzy
        subst this
        have : z ≠ x := by
          rintro rfl
          rw [beq_iff.mpr rfl] at hxy
          cases hxy
        simp [this]
      | false => rfl

theorem get_put (K : Known) (x : Nat) (k : Kind) (z : Nat) :
    get (put K x k) z = if z = x then some k else get K z := by
  rw [put, get, get_rem]
  by_cases hz : z = x
  · simp [hz]
  · have : Nat.beq z x = false := by
      cases h : Nat.beq z x with
      | true => exact absurd (beq_iff.mp h) hz
      | false => rfl
    simp [hz, this]

theorem noRef_get {K : Known} {x : Nat} (h : noRef K x = true) (z : Nat) :
    get K z ≠ some (.ref x) := by
  induction K with
  | nil => simp [get]
  | cons a K ih =>
    obtain ⟨y, k⟩ := a
    have hK : noRef K x = true := by
      cases k with
      | ref w =>
        rw [noRef] at h
        cases hw : Nat.beq w x with
        | true => rw [hw] at h; cases h
        | false => rw [hw] at h; exact h
      | _ => exact h
    rw [get]
    cases hz : Nat.beq z y with
    | false => exact ih hK
    | true =>
      rw [cond_true]
      intro he
      cases he
      rw [noRef, beq_iff.mpr rfl] at h
      cases h

/-- Role `r` is as known. -/
def Is (f : Nat → Nat) (m : Mem) (K : Known) (r : Nat) : Prop :=
  match get K r with
  | none => m.objs (f r) = none
  | some .hollow => ∃ o, m.objs (f r) = some o ∧ o.ptr.isHeap = false
  | some (.ref y) => ∃ o p, m.objs (f r) = some o ∧ m.objs (f y) = some p ∧ get K y = some .full ∧
      o.clean = false ∧ o.ptr = p.ptr
  | some .full => ∃ o, m.objs (f r) = some o ∧ o.clean = true

/-- The blobs of one place are as known. -/
def Fits (f : Nat → Nat) (m : Mem) (K : Known) : Prop := ∀ r, Is f m K r

theorem fits_nil {f : Nat → Nat} {m : Mem} : Fits f m [] ↔ ∀ r, m.objs (f r) = none := Iff.rfl

/-- Object `o` is as kind `k` says, whatever variable it is put in. -/
def Suits (f : Nat → Nat) (m : Mem) (K : Known) (k : Kind) (o : Obj) : Prop :=
  match k with
  | .hollow => o.ptr.isHeap = false
  | .ref y => ∃ p, m.objs (f y) = some p ∧ get K y = some .full ∧ o.clean = false ∧ o.ptr = p.ptr
  | .full => o.clean = true

theorem fits_some {f : Nat → Nat} {m : Mem} {K : Known} (hf : Fits f m K) {x : Nat} {k : Kind}
    (h : get K x = some k) : ∃ o, m.objs (f x) = some o ∧ Suits f m K k o := by
  have := hf x
  rw [Is, h] at this
  cases k with
  | hollow => exact this
  | ref y =>
    obtain ⟨o, p, ho, hp, hy, hc, he⟩ := this
    exact ⟨o, ho, p, hp, hy, hc, he⟩
  | full => exact this

theorem fits_none {f : Nat → Nat} {m : Mem} {K : Known} (hf : Fits f m K) {x : Nat}
    (h : get K x = none) : m.objs (f x) = none := by
  have := hf x
  rwa [Is, h] at this

/-- Only blobs that may own something are referred to. -/
theorem unref {f : Nat → Nat} {m : Mem} {K : Known} (hf : Fits f m K) {x : Nat}
    (h : get K x ≠ some .full) (z : Nat) : get K z ≠ some (.ref x) := by
  intro hz
  obtain ⟨o, -, p, -, hp, -⟩ := fits_some hf hz
  exact h hp

theorem fits_objs {f : Nat → Nat} {m m' : Mem} {K : Known} (h : ∀ r, m'.objs (f r) = m.objs (f r))
    (hf : Fits f m K) : Fits f m' K := by
  intro r
  have := hf r
  rw [Is] at this ⊢
  cases hg : get K r with
  | none => rw [hg] at this; dsimp only at this ⊢; rw [h]; exact this
  | some k =>
    rw [hg] at this
    cases k <;> dsimp only at this ⊢ <;> simp only [h] <;> exact this

theorem suits_objs {f : Nat → Nat} {m m' : Mem} {K : Known} (h : ∀ r, m'.objs (f r) = m.objs (f r))
    {k : Kind} {o : Obj} (hs : Suits f m K k o) : Suits f m' K k o := by
  cases k with
  | ref y =>
    obtain ⟨p, hp, hr⟩ := hs
    exact ⟨p, by rw [h]; exact hp, hr⟩
  | _ => exact hs

theorem fits_put {f : Nat → Nat} (hinj : ∀ r s, f r = f s → r = s) {m : Mem} {K : Known}
    (hf : Fits f m K) {x : Nat} (hx : ∀ z, get K z ≠ some (.ref x)) {k : Kind} (hk : k ≠ .ref x)
    {o : Obj} (hs : Suits f m K k o) : Fits f (m.set (f x) (some o)) (put K x k) := by
  have hother : ∀ y, y ≠ x → (m.set (f x) (some o)).objs (f y) = m.objs (f y) := by
    intro y hy
    rw [objs_set, if_neg (fun h => hy (hinj _ _ h))]
  have hself : (m.set (f x) (some o)).objs (f x) = some o := by rw [objs_set, if_pos rfl]
  intro r
  rw [Is, get_put]
  by_cases hr : r = x
  · subst hr
    rw [if_pos rfl]
    cases k with
    | hollow => exact ⟨o, hself, hs⟩
    | full => exact ⟨o, hself, hs⟩
    | ref y =>
      have hy : y ≠ r := fun h => hk (by rw [h])
      obtain ⟨p, hp, hfull, hc, he⟩ := hs
      exact ⟨o, p, hself, by rw [hother y hy]; exact hp, by rw [get_put, if_neg hy]; exact hfull,
        hc, he⟩
  · rw [if_neg hr]
    have h := hf r
    rw [Is] at h
    cases hg : get K r with
    | none =>
      rw [hg] at h
      dsimp only at h ⊢
      rw [hother r hr]
      exact h
    | some k' =>
      rw [hg] at h
      cases k' with
      | hollow => dsimp only at h ⊢; rw [hother r hr]; exact h
      | full => dsimp only at h ⊢; rw [hother r hr]; exact h
      | ref y =>
        have hy : y ≠ x := fun h => hx r (by rw [hg, h])
        dsimp only at h ⊢
        rw [hother r hr, hother y hy, get_put, if_neg hy]
        exact h

theorem fits_rem {f : Nat → Nat} (hinj : ∀ r s, f r = f s → r = s) {m : Mem} {K : Known}
    (hf : Fits f m K) {x : Nat} (hx : ∀ z, get K z ≠ some (.ref x)) :
    Fits f (m.set (f x) none) (rem K x) := by
  have hother : ∀ y, y ≠ x → (m.set (f x) none).objs (f y) = m.objs (f y) := by
    intro y hy
    rw [objs_set, if_neg (fun h => hy (hinj _ _ h))]
  intro r
  rw [Is, get_rem]
  by_cases hr : r = x
  · subst hr
    rw [if_pos rfl]
    show _ = _
    rw [objs_set, if_pos rfl]
  · rw [if_neg hr]
    have h := hf r
    rw [Is] at h
    cases hg : get K r with
    | none =>
      rw [hg] at h
      dsimp only at h ⊢
      rw [hother r hr]
      exact h
    | some k' =>
      rw [hg] at h
      cases k' with
      | hollow => dsimp only at h ⊢; rw [hother r hr]; exact h
      | full => dsimp only at h ⊢; rw [hother r hr]; exact h
      | ref y =>
        have hy : y ≠ x := fun h => hx r (by rw [hg, h])
        dsimp only at h ⊢
        rw [hother r hr, hother y hy, get_rem, if_neg hy]
        exact h

/-- A copy of `y` is as known. -/
theorem suits_copied {f : Nat → Nat} {m : Mem} {K : Known} (hf : Fits f m K) {y : Nat} {k : Kind}
    (h : copied K y = some k) :
    ∃ r, m.objs (f y) = some r ∧ Suits f m K k ⟨r.ptr, r.len, r.typ, false⟩ := by
  rw [copied] at h
  cases hg : get K y with
  | none => rw [hg] at h; cases h
  | some k' =>
    obtain ⟨r, hr, hs⟩ := fits_some hf hg
    refine ⟨r, hr, ?_⟩
    rw [hg] at h
    cases k' with
    | hollow =>
      cases h
      exact hs
    | ref z =>
      cases h
      obtain ⟨p, hp, hz, hc, he⟩ := hs
      exact ⟨p, hp, hz, rfl, he⟩
    | full =>
      cases h
      exact ⟨r, hr, hg, rfl, rfl⟩

/-- What a blob moved from leaves behind is as known. -/
theorem fits_moved {f : Nat → Nat} (hinj : ∀ r s, f r = f s → r = s) {m : Mem} {K : Known}
    (hf : Fits f m K) {x y : Nat} (hx : ∀ z, get K z ≠ some (.ref x)) {k : Kind}
    (hy : get K y = some k) (hry : ∀ z, get K z ≠ some (.ref y)) {r : Obj}
    (hs : Suits f m K k r) :
    Fits f ((m.set (f x) (some ⟨r.ptr, r.len, r.typ, r.clean⟩)).set (f y) (some r.clear))
      (put (put K x k) y .hollow) := by
  refine fits_put hinj (fits_put hinj hf hx ?_ hs) ?_ (by simp) rfl
  · rintro rfl
    exact hx y hy
  · intro z
    rw [get_put]
    split
    · intro h
      cases h
      exact hry y hy
    · exact hry z

/-- Nothing but the blobs of the entry is touched. -/
def Frame (f : Nat → Nat) (m m' : Mem) : Prop :=
  ∀ y, (∀ r, y ≠ f r) → m'.objs y = m.objs y

theorem frame_set {f : Nat → Nat} {m m' : Mem} (h : Frame f m m') (x : Nat) (o : Option Obj) :
    Frame f m (m'.set (f x) o) := by
  intro y hy
  rw [objs_set, if_neg (hy x)]
  exact h y hy

theorem frame_objs {f : Nat → Nat} {m m' : Mem} (h : m'.objs = m.objs) : Frame f m m' :=
  fun y _ => by rw [h]

/-- Operations that neither give a buffer back nor allocate one for no blob. -/
def Quiet : Op → Prop
  | .setClean _ false => False
  | .alloc _ => False
  | _ => True

/-- What the check promises. -/
def Sound (lax : Bool) (f : Nat → Nat) (m : Mem) (op : Op) (K' : Known) : Prop :=
  (lax = false → Proper m (op.rename f) ∧ Quiet (op.rename f)) ∧
    ∃ m', exec m (op.rename f) = .ok m' ∧ Inv m' ∧ Fits f m' K' ∧ Frame f m m'

/-- The same for operations that follow the rules. -/
def Strict (f : Nat → Nat) (m : Mem) (op : Op) (K' : Known) : Prop :=
  Proper m (op.rename f) ∧ Quiet (op.rename f) ∧
    ∃ m', exec m (op.rename f) = .ok m' ∧ Fits f m' K' ∧ Frame f m m'

theorem Strict.sound {f : Nat → Nat} {m : Mem} {op : Op} {K' : Known} (h : Strict f m op K')
    (hm : Inv m) (lax : Bool) : Sound lax f m op K' := by
  obtain ⟨hp, hq, m', he, hf, hfr⟩ := h
  exact ⟨fun _ => ⟨hp, hq⟩, m', he, (effect_of hm hp he).inv, hf, hfr⟩

theorem not_heap {p : Ptr} (h : p.isHeap = false) (n : Nat) : p ≠ .heap n := by
  rintro rfl
  cases h

theorem check1_sound {f : Nat → Nat} (hinj : ∀ r s, f r = f s → r = s) {m : Mem} (hm : Inv m)
    {lax : Bool} {K K' : Known} (hf : Fits f m K) {op : Op} (h : check1 lax K op = some K') :
    Sound lax f m op K' := by
  have hvac : ∀ {x}, get K x = none → m.vacant (f x) = .ok () := by
    intro x hx
    rw [Mem.vacant, fits_none hf hx]
  have hat : ∀ {x o}, m.objs (f x) = some o → m.at (f x) = .ok o := by
    intro x o hx
    rw [Mem.at, hx]
  have hnone : ∀ {x}, get K x = none → ∀ z, get K z ≠ some (.ref x) :=
    fun hx => unref hf (by rw [hx]; simp)
  have hhollow : ∀ {x}, get K x = some .hollow → ∃ o, m.objs (f x) = some o ∧ OwnsNothing m (f x) := by
    intro x hx
    obtain ⟨o, ho, hs⟩ := fits_some hf hx
    refine ⟨o, ho, fun n hn => ?_⟩
    obtain ⟨o', ho', -, hp⟩ := hn
    rw [ho] at ho'
    cases ho'
    exact not_heap hs n hp
  cases op with
  | make x p len typ clean =>
    cases clean with
    | true =>
      cases p with
      | outside a => simp [check1] at h
      | heap n => simp [check1] at h
      | null =>
        simp only [check1] at h
        split at h
        · rename_i hx
          cases h
          refine Strict.sound ?_ hm lax
          refine ⟨Or.inl rfl, trivial, m.set (f x) (some ⟨.null, len, typ, true⟩), ?_, ?_, ?_⟩
          · simp [exec, Op.rename, hvac hx]
          · exact fits_put hinj hf (hnone hx) (by simp) rfl
          · exact frame_set (frame_objs rfl) x _
        · cases h
    | false =>
      simp only [check1] at h
      split at h
      · rename_i hx hp
        cases h
        refine Strict.sound ?_ hm lax
        refine ⟨trivial, trivial, m.set (f x) (some ⟨p, len, typ, false⟩), ?_, ?_, ?_⟩
        · simp [exec, Op.rename, hvac hx]
        · exact fits_put hinj hf (hnone hx) (by simp) hp
        · exact frame_set (frame_objs rfl) x _
      · cases h
  | makeCopy x len typ =>
    simp only [check1] at h
    split at h
    · rename_i hx
      cases h
      refine Strict.sound ?_ hm lax
      refine ⟨trivial, trivial, (Own.alloc len m).2.set (f x) (some ⟨(Own.alloc len m).1, len, typ, true⟩), ?_, ?_, ?_⟩
      · simp [exec, Op.rename, hvac hx]
      · exact fits_put hinj (fits_objs (fun r => by rw [objs_alloc]) hf) (hnone hx) (by simp) rfl
      · exact frame_set (frame_objs objs_alloc) x _
    · cases h
  | copy x y =>
    simp only [check1] at h
    split at h
    · rename_i k hx hy
      cases h
      obtain ⟨r, hr, hs⟩ := suits_copied hf hy
      refine Strict.sound ?_ hm lax
      refine ⟨trivial, trivial, m.set (f x) (some ⟨r.ptr, r.len, r.typ, false⟩), ?_, ?_, ?_⟩
      · simp [exec, Op.rename, hvac hx, hat hr]
      · refine fits_put hinj hf (hnone hx) ?_ hs
        rintro rfl
        obtain ⟨p, -, hp, -⟩ := hs
        rw [hx] at hp
        cases hp
      · exact frame_set (frame_objs rfl) x _
    · cases h
  | move x y =>
    simp only [check1] at h
    split at h
    · rename_i k hx hy hn
      cases h
      obtain ⟨r, hr, hs⟩ := fits_some hf hy
      refine Strict.sound ?_ hm lax
      refine ⟨trivial, trivial,
        (m.set (f x) (some ⟨r.ptr, r.len, r.typ, r.clean⟩)).set (f y) (some r.clear), ?_, ?_, ?_⟩
      · simp [exec, Op.rename, hvac hx, hat hr]
      · exact fits_moved hinj hf (hnone hx) hy (noRef_get hn) hs
      · exact frame_set (frame_set (frame_objs rfl) x _) y _
    · cases h
  | destroy x =>
    simp only [check1] at h
    split at h
    · rename_i k hx hn
      cases h
      obtain ⟨o, ho, -⟩ := fits_some hf hx
      obtain ⟨m₁, hd, hobj, -⟩ := dealloc_step hm ho
      refine Strict.sound ?_ hm lax
      refine ⟨trivial, trivial, m₁.set (f x) none, ?_, ?_, ?_⟩
      · simp [exec, Op.rename, hat ho, hd]
      · exact fits_rem hinj (fits_objs (fun r => by rw [hobj]) hf) (noRef_get hn)
      · exact frame_set (frame_objs hobj) x _
    · cases h
  | assign x y =>
    simp only [check1] at h
    split at h
    · rename_i k₀ k hxy hx hy hn
      cases h
      obtain ⟨o, ho, -⟩ := fits_some hf hx
      obtain ⟨r, hr, hs⟩ := suits_copied hf hy
      obtain ⟨m₁, hd, hobj, -⟩ := dealloc_step hm ho
      have hne : x ≠ y := fun e => by rw [beq_iff.mpr e] at hxy; cases hxy
      have hfxy : f x ≠ f y := fun e => hne (hinj _ _ e)
      refine Strict.sound ?_ hm lax
      refine ⟨trivial, trivial, m₁.set (f x) (some ⟨r.ptr, r.len, r.typ, false⟩), ?_, ?_, ?_⟩
      · simp [exec, Op.rename, hat ho, hat hr, hd, hfxy]
      · refine fits_put hinj (fits_objs (fun r => by rw [hobj]) hf) (noRef_get hn) ?_
          (suits_objs (fun r => by rw [hobj]) hs)
        rintro rfl
        rw [copied] at hy
        cases hg : get K y with
        | none => rw [hg] at hy; cases hy
        | some k' =>
          rw [hg] at hy
          cases k' with
          | hollow => cases hy
          | ref z =>
            cases hy
            exact noRef_get hn y hg
          | full =>
            cases hy
            exact hne rfl
      · exact frame_set (frame_objs hobj) x _
    · cases h
  | moveAssign x y =>
    simp only [check1] at h
    split at h
    · rename_i k₀ k hxy hx hy hn
      cases h
      rw [Bool.and_eq_true] at hn
      obtain ⟨o, ho, -⟩ := fits_some hf hx
      obtain ⟨r, hr, hs⟩ := fits_some hf hy
      obtain ⟨m₁, hd, hobj, -⟩ := dealloc_step hm ho
      have hne : x ≠ y := fun e => by rw [beq_iff.mpr e] at hxy; cases hxy
      have hfxy : f x ≠ f y := fun e => hne (hinj _ _ e)
      refine Strict.sound ?_ hm lax
      refine ⟨trivial, trivial,
        (m₁.set (f x) (some ⟨r.ptr, r.len, r.typ, r.clean⟩)).set (f y) (some r.clear), ?_, ?_, ?_⟩
      · simp [exec, Op.rename, hat ho, hat hr, hd, hfxy]
      · exact fits_moved hinj (fits_objs (fun r => by rw [hobj]) hf) (noRef_get hn.1) hy
          (noRef_get hn.2) (suits_objs (fun r => by rw [hobj]) hs)
      · exact frame_set (frame_set (frame_objs hobj) x _) y _
    · cases h
  | setType x typ => simp [check1] at h
  | setClean x b =>
    cases b with
    | false => simp [check1] at h
    | true =>
      simp only [check1] at h
      split at h
      · rename_i hx
        cases h
        obtain ⟨o, ho, hs⟩ := fits_some hf hx
        have hc : o.clean = true := hs
        have hset : m.set (f x) (some { o with clean := true }) = m := by
          rw [← hc, Mem.set]
          congr 1
          funext y
          split
          · rename_i h; rw [h, ho]
          · rfl
        refine Strict.sound ?_ hm lax
        refine ⟨?_, trivial, m, ?_, hf, frame_objs rfl⟩
        · intro o' ho'
          rw [ho] at ho'
          cases ho'
          exact Or.inl hc
        · simp [exec, Op.rename, hat ho, hset]
      · cases h
  | clear x => simp [check1] at h
  | dealloc x =>
    simp only [check1] at h
    split at h
    · rename_i k hx hn
      cases h
      obtain ⟨o, ho, -⟩ := fits_some hf hx
      obtain ⟨m₁, hd, hobj, -⟩ := dealloc_step hm ho
      refine Strict.sound ?_ hm lax
      refine ⟨trivial, trivial, m₁.set (f x) (some o.clear), ?_, ?_, ?_⟩
      · simp [exec, Op.rename, hat ho, hd]
      · exact fits_put hinj (fits_objs (fun r => by rw [hobj]) hf) (noRef_get hn) (by simp) rfl
      · exact frame_set (frame_objs hobj) x _
    · cases h
  | unpack x src len typ copied =>
    simp only [check1] at h
    split at h
    · rename_i hx hp
      cases h
      obtain ⟨o, ho, hn⟩ := hhollow hx
      cases copied with
      | true =>
        refine Strict.sound ?_ hm lax
        refine ⟨hn, trivial,
          (Own.alloc len m).2.set (f x) (some ⟨(Own.alloc len m).1, len, typ.getD o.typ, true⟩),
          ?_, ?_, ?_⟩
        · simp [exec, Op.rename, hat ho]
        · exact fits_put hinj (fits_objs (fun r => by rw [objs_alloc]) hf)
            (unref hf (by rw [hx]; simp)) (by simp) rfl
        · exact frame_set (frame_objs objs_alloc) x _
      | false =>
        refine Strict.sound ?_ hm lax
        refine ⟨hn, trivial, m.set (f x) (some ⟨src, len, typ.getD o.typ, false⟩), ?_, ?_, ?_⟩
        · simp [exec, Op.rename, hat ho]
        · refine fits_put hinj hf (unref hf (by rw [hx]; simp)) (by simp) ?_
          show src.isHeap = false
          simpa using hp
        · exact frame_set (frame_objs rfl) x _
    · cases h
  | unpackRef x p len typ =>
    simp only [check1] at h
    split at h
    · rename_i hx hp
      cases h
      obtain ⟨o, ho, hn⟩ := hhollow hx
      refine Strict.sound ?_ hm lax
      refine ⟨hn, trivial, m.set (f x) (some ⟨p, len, typ.getD o.typ, false⟩), ?_, ?_, ?_⟩
      · simp [exec, Op.rename, hat ho]
      · exact fits_put hinj hf (unref hf (by rw [hx]; simp)) (by simp) hp
      · exact frame_set (frame_objs rfl) x _
    · cases h
  | alloc size => simp [check1] at h
  | free p => simp [check1] at h
  | read x =>
    simp only [check1] at h
    split at h
    · rename_i k hx
      cases h
      obtain ⟨o, ho, hs⟩ := fits_some hf hx
      -- what it points to is allocated
      have hlive : ∀ n, o.ptr = .heap n → n ∈ m.live := by
        intro n hn
        cases k with
        | hollow => exact (not_heap hs n hn).elim
        | full =>
          have hc : o.clean = true := hs
          exact hm.alive (f x) n (owns_iff.mp ⟨o, ho, hc, hn⟩)
        | ref y =>
          obtain ⟨p, hp, hy, -, he⟩ := hs
          obtain ⟨p', hp', hs'⟩ := fits_some hf hy
          rw [hp] at hp'
          cases hp'
          have hpn : p.ptr = .heap n := by rw [← he]; exact hn
          have hc : p.clean = true := hs'
          exact hm.alive (f y) n (owns_iff.mp ⟨p, hp, hc, hpn⟩)
      refine Strict.sound ?_ hm lax
      refine ⟨?_, trivial, m, ?_, hf, frame_objs rfl⟩
      · rintro ⟨o', n, ho', hn, hl⟩
        rw [ho] at ho'
        cases ho'
        exact hl (hlive n hn)
      · simp only [exec, Op.rename, hat ho, Out.ok_bind]
        cases hp : o.ptr with
        | heap n => simp [hlive n hp]
        | null => rfl
        | outside a => rfl
    · cases h
  | forget x =>
    have key : ∀ k, get K x = some k → k ≠ .full → K' = rem K x → Sound lax f m (.forget x) K' := by
      intro k hx hk hK
      subst hK
      obtain ⟨o, ho, hs⟩ := fits_some hf hx
      refine Strict.sound ?_ hm lax
      refine ⟨?_, trivial, m.set (f x) none, ?_, ?_, frame_set (frame_objs rfl) x _⟩
      · intro n hn
        obtain ⟨o', ho', hc, hp⟩ := hn
        rw [ho] at ho'
        cases ho'
        cases k with
        | hollow => exact not_heap hs n hp
        | full => exact hk rfl
        | ref y =>
          obtain ⟨p, -, -, hc', -⟩ := hs
          rw [hc] at hc'
          cases hc'
      · simp [exec, Op.rename, hat ho]
      · exact fits_rem hinj hf (unref hf (by rw [hx]; simpa using hk))
    simp only [check1] at h
    split at h
    · rename_i hx
      exact key _ hx (by simp) (Option.some.inj h).symm
    · rename_i hx
      exact key _ hx (by simp) (Option.some.inj h).symm
    · rename_i hx
      cases lax with
      | false => cases h
      | true =>
        cases hn : noRef K x with
        | false => rw [hn] at h; cases h
        | true =>
          rw [hn] at h
          cases h
          obtain ⟨o, ho, -⟩ := fits_some hf hx
          refine ⟨fun h => (by cases h), m.set (f x) none, ?_, inv_set_none hm _ _ trivial rfl,
            fits_rem hinj hf (noRef_get hn), frame_set (frame_objs rfl) x _⟩
          simp [exec, Op.rename, hat ho]
    · cases h

/-! ## Runs -/

/-- A run that touches nothing but the variables `P`, and leaks nothing unless
`lax`. -/
structure Tidy (lax : Bool) (P : Nat → Prop) (m : Mem) (ops : List Op) (m' : Mem) : Prop where
  done : Own.run m ops = .ok m'
  inv : Inv m'
  run : lax = false → Run m ops m'
  quiet : lax = false → ∀ op ∈ ops, Quiet op
  frame : ∀ y, ¬ P y → m'.objs y = m.objs y

theorem Tidy.nil (lax : Bool) (P : Nat → Prop) {m : Mem} (hm : Inv m) : Tidy lax P m [] m :=
  ⟨rfl, hm, fun _ => .nil m, by simp, fun _ _ => rfl⟩

theorem exec_append {m m₁ : Mem} {as bs : List Op} (h : Own.run m as = .ok m₁) :
    Own.run m (as ++ bs) = Own.run m₁ bs := by
  induction as generalizing m with
  | nil => cases h; rfl
  | cons a as ih =>
    rw [List.cons_append, Own.run]
    rw [Own.run] at h
    cases he : exec m a with
    | ok m' => rw [he] at h; exact ih h
    | err => rw [he] at h; cases h
    | ub => rw [he] at h; cases h

theorem exec_of_run {m m' : Mem} {ops : List Op} (h : Run m ops m') : Own.run m ops = .ok m' := by
  induction h with
  | nil => rfl
  | cons _ he _ ih => rw [Own.run, he]; exact ih

theorem Tidy.append {lax : Bool} {P : Nat → Prop} {m m₁ m₂ : Mem} {as bs : List Op}
    (h : Tidy lax P m as m₁) (h' : Tidy lax P m₁ bs m₂) : Tidy lax P m (as ++ bs) m₂ where
  done := by rw [exec_append h.done]; exact h'.done
  inv := h'.inv
  run hl := run_append (h.run hl) (h'.run hl)
  quiet hl op hop := by
    rcases List.mem_append.mp hop with hop | hop
    · exact h.quiet hl op hop
    · exact h'.quiet hl op hop
  frame y hy := by rw [h'.frame y hy, h.frame y hy]

theorem Tidy.mono {lax : Bool} {P Q : Nat → Prop} {m m' : Mem} {ops : List Op}
    (h : Tidy lax P m ops m') (hPQ : ∀ y, P y → Q y) : Tidy lax Q m ops m' :=
  ⟨h.done, h.inv, h.run, h.quiet, fun y hy => h.frame y (fun hp => hy (hPQ y hp))⟩

theorem check_sound {lax : Bool} {f : Nat → Nat} (hinj : ∀ r s, f r = f s → r = s) (ops : List Op) :
    ∀ {m : Mem} {K K' : Known}, Inv m → Fits f m K → check lax K ops = some K' →
      ∃ m', Tidy lax (fun y => ∃ r, y = f r) m (ops.map (Op.rename f)) m' ∧ Fits f m' K' := by
  induction ops with
  | nil =>
    intro m K K' hm hf h
    cases h
    exact ⟨m, .nil _ _ hm, hf⟩
  | cons op ops ih =>
    intro m K K' hm hf h
    rw [check] at h
    cases hc : check1 lax K op with
    | none => rw [hc] at h; cases h
    | some K₁ =>
      rw [hc] at h
      obtain ⟨hpq, m₁, he, hm₁, hf₁, hfr⟩ := check1_sound hinj hm hf hc
      obtain ⟨m', ht, hf'⟩ := ih hm₁ hf₁ h
      refine ⟨m', ?_, hf'⟩
      have h1 : Tidy lax (fun y => ∃ r, y = f r) m [op.rename f] m₁ :=
        ⟨by simp [Own.run, he], hm₁, fun hl => .cons (hpq hl).1 he (.nil _),
          fun hl => by simpa using (hpq hl).2, fun y hy => hfr y (fun r e => hy ⟨r, e⟩)⟩
      exact h1.append ht

theorem check_append (lax : Bool) (K : Known) (as bs : List Op) :
    check lax K (as ++ bs) = (check lax K as).bind fun K => check lax K bs := by
  induction as generalizing K with
  | nil => rfl
  | cons a as ih =>
    rw [List.cons_append, check, check]
    cases check1 lax K a with
    | none => rfl
    | some K => exact ih K

/-! ## Programs -/

/-- What a program does at place `q`. -/
def part (p : Program) (q : Place) : List Op := p.flatMap fun x => if x.1 = q then x.2 else []

theorem part_nil (q : Place) : part [] q = [] := rfl

theorem part_cons (x : Place × List Op) (p : Program) (q : Place) :
    part (x :: p) q = (if x.1 = q then x.2 else []) ++ part p q := rfl

theorem part_append (p p' : Program) (q : Place) : part (p ++ p') q = part p q ++ part p' q :=
  List.flatMap_append

/-- The variables of a program. -/
def Mine (p : Program) (v : Place → Nat → Nat) (y : Nat) : Prop := ∃ q r, At p q ∧ y = v q r

/-- A program that passes the check at every place, however its steps are
interleaved. -/
theorem compile_sound {lax : Bool} {v : Place → Nat → Nat} (hv : Names v) (p : Program) :
    ∀ {m : Mem} {K K' : Place → Known}, Inv m → (∀ q, At p q → Fits (v q) m (K q)) →
      (∀ q, At p q → check lax (K q) (part p q) = some (K' q)) →
      ∃ m', Tidy lax (Mine p v) m (compile v p) m' ∧ ∀ q, At p q → Fits (v q) m' (K' q) := by
  induction p with
  | nil =>
    intro m K K' hm _ _
    exact ⟨m, .nil _ _ hm, fun q hq => by obtain ⟨_, h⟩ := hq; cases h⟩
  | cons x p ih =>
    intro m K K' hm hf hc
    obtain ⟨q₀, ops⟩ := x
    have hat : At ((q₀, ops) :: p) q₀ := ⟨ops, List.mem_cons_self ..⟩
    have htail : ∀ q, At p q → At ((q₀, ops) :: p) q := by
      rintro q ⟨o, ho⟩
      exact ⟨o, List.mem_cons_of_mem _ ho⟩
    have hinj : ∀ r s, v q₀ r = v q₀ s → r = s := fun r s h => (hv _ _ _ _ h).2
    -- the first step
    have hc₀ := hc q₀ hat
    rw [part_cons, if_pos rfl, check_append] at hc₀
    cases hK₁ : check lax (K q₀) ops with
    | none => rw [hK₁] at hc₀; cases hc₀
    | some K₁ =>
      rw [hK₁] at hc₀
      obtain ⟨m₁, ht, hf₁⟩ := check_sound hinj ops hm (hf q₀ hat) hK₁
      have hm₁ := ht.inv
      have hothers : ∀ q, At ((q₀, ops) :: p) q → q ≠ q₀ → Fits (v q) m₁ (K q) := by
        intro q hq hne
        refine fits_objs (fun r => ht.frame (v q r) ?_) (hf q hq)
        rintro ⟨s, he⟩
        exact hne (hv _ _ _ _ he).1
      -- the rest
      obtain ⟨m', ht', hf'⟩ := ih (K := fun q => if q = q₀ then K₁ else K q) (K' := K') hm₁
        (by
          intro q hq
          by_cases h : q = q₀
          · subst h
            rw [if_pos rfl]
            exact hf₁
          · rw [if_neg h]
            exact hothers q (htail q hq) h)
        (by
          intro q hq
          by_cases h : q = q₀
          · subst h
            rw [if_pos rfl]
            exact hc₀
          · rw [if_neg h]
            have := hc q (htail q hq)
            rw [part_cons, if_neg (fun e => h e.symm)] at this
            exact this)
      refine ⟨m', ?_, ?_⟩
      · have : compile v ((q₀, ops) :: p) = ops.map (Op.rename (v q₀)) ++ compile v p := rfl
        rw [this]
        refine (ht.mono ?_).append (ht'.mono ?_)
        · rintro y ⟨r, rfl⟩
          exact ⟨q₀, r, hat, rfl⟩
        · rintro y ⟨q, r, hq, rfl⟩
          exact ⟨q, r, htail q hq, rfl⟩
      · intro q hq
        by_cases hp : At p q
        · exact hf' q hp
        · -- a place that is done
          have hkeep : ∀ r, m'.objs (v q r) = m₁.objs (v q r) := by
            intro r
            refine ht'.frame _ ?_
            rintro ⟨q', r', hq', he⟩
            have := (hv _ _ _ _ he).1
            exact hp (this ▸ hq')
          have hnil : part p q = [] := by
            rw [part]
            refine List.flatMap_eq_nil_iff.mpr ?_
            intro x hx
            rw [if_neg]
            intro h
            exact hp ⟨x.2, by rw [← h]; exact hx⟩
          by_cases h : q = q₀
          · subst h
            rw [hnil] at hc₀
            rw [← Option.some.inj hc₀]
            exact fits_objs hkeep hf₁
          · have := hc q hq
            rw [part_cons, if_neg (fun e => h e.symm), hnil] at this
            rw [← Option.some.inj this]
            exact fits_objs hkeep (hothers q hq h)

theorem part_none {p : Program} {q : Place} (h : ∀ x ∈ p, x.1 ≠ q) : part p q = [] :=
  List.flatMap_eq_nil_iff.mpr fun x hx => if_neg (h x hx)

/-- A loop that visits each of its places once. -/
theorem part_range (n : Nat) (w : Nat → Place) (hw : ∀ i i', w i = w i' → i = i')
    (f : Nat → List Op) (i : Nat) :
    part ((List.range n).map fun i => (w i, f i)) (w i) = if i < n then f i else [] := by
  induction n with
  | zero => rfl
  | succ n ih =>
    rw [List.range_succ, List.map_append, part_append, ih, List.map_singleton, part_cons, part_nil,
      List.append_nil]
    by_cases h1 : i < n
    · have h2 : ¬ w n = w i := fun h => by have := hw _ _ h; omega
      rw [if_pos h1, if_neg h2, if_pos (by omega), List.append_nil]
    · by_cases h2 : i = n
      · subst h2
        rw [if_neg h1, if_pos rfl, if_pos (by omega), List.nil_append]
      · have h3 : ¬ w n = w i := fun h => h2 (hw _ _ h).symm
        rw [if_neg h1, if_neg h3, if_neg (by omega)]
        rfl

/-- A loop each turn of which keeps to its own operation. -/
theorem part_flatMap (n : Nat) (P : Nat → Program)
    (hP : ∀ i x, x ∈ P i → ∃ j, x.1 = .record i j) (i j : Nat) :
    part ((List.range n).flatMap P) (.record i j) =
      if i < n then part (P i) (.record i j) else [] := by
  have hne : ∀ i', i' ≠ i → part (P i') (.record i j) = [] := by
    intro i' h
    refine part_none fun x hx he => ?_
    obtain ⟨k, hk⟩ := hP i' x hx
    rw [hk] at he
    cases he
    exact h rfl
  induction n with
  | zero => rfl
  | succ n ih =>
    rw [List.range_succ, List.flatMap_append, part_append, ih]
    have : ([n].flatMap P) = P n := by simp
    rw [this]
    by_cases h1 : i < n
    · rw [if_pos h1, hne n (by omega), if_pos (by omega), List.append_nil]
    · by_cases h2 : i = n
      · subst h2
        rw [if_neg h1, if_pos (by omega), List.nil_append]
      · rw [if_neg h1, hne n (fun h => h2 h.symm), if_neg (by omega)]
        rfl

theorem part_once (ops : List Op) : part (once ops) .message = ops := by
  rw [once, part_cons, if_pos rfl, part_nil, List.append_nil]

theorem part_once_record (ops : List Op) (i j : Nat) : part (once ops) (.record i j) = [] :=
  part_none (by simp [once])

theorem part_each_message (n : Nat) (f : Nat → List Op) : part (each n f) .message = [] :=
  part_none (by simp [each])

theorem part_each (n : Nat) (f : Nat → List Op) (i j : Nat) :
    part (each n f) (.record i j) = if i < n ∧ j = 0 then f i else [] := by
  by_cases hj : j = 0
  · subst hj
    simp only [and_true]
    exact part_range n (fun i => .record i 0) (fun i i' h => by cases h; rfl) f i
  · rw [if_neg (fun h => hj h.2)]
    refine part_none ?_
    simp only [each, List.mem_map]
    rintro x ⟨i', -, rfl⟩ he
    cases he
    exact hj rfl

theorem part_eachOp_message (n : Nat) (g : Nat → OpEntry) (f : OpEntry → List Op) :
    part (eachOp n g f) .message = [] :=
  part_none (by simp [eachOp])

theorem part_eachOp (n : Nat) (g : Nat → OpEntry) (f : OpEntry → List Op) (i j : Nat) :
    part (eachOp n g f) (.record i j) = if i < n ∧ j = (g i).main then f (g i) else [] := by
  by_cases hj : j = (g i).main
  · subst hj
    simp only [and_true]
    exact part_range n (fun i => .record i (g i).main) (fun i i' h => by cases h; rfl)
      (fun i => f (g i)) i
  · rw [if_neg (fun h => hj h.2)]
    refine part_none ?_
    simp only [eachOp, List.mem_map]
    rintro x ⟨i', -, rfl⟩ he
    cases he
    exact hj rfl

theorem part_records (k : Nat) (i : Nat) (f : Nat → List Op) (j : Nat) :
    part ((List.range k).map fun j => (.record i j, f j)) (.record i j) = if j < k then f j else [] :=
  part_range k (fun j => .record i j) (fun j j' h => by cases h; rfl) f j

theorem part_eachRec_message (n : Nat) (g : Nat → OpEntry) (k : OpEntry → Nat)
    (f : OpEntry → Nat → List Op) : part (eachRec n g k f) .message = [] := by
  refine part_none ?_
  simp only [eachRec, List.mem_flatMap, List.mem_map]
  rintro x ⟨i, -, j, -, rfl⟩ he
  cases he

theorem part_eachRec (n : Nat) (g : Nat → OpEntry) (k : OpEntry → Nat)
    (f : OpEntry → Nat → List Op) (i j : Nat) :
    part (eachRec n g k f) (.record i j) = if i < n then if j < k (g i) then f (g i) j else [] else [] := by
  rw [eachRec, part_flatMap, part_records]
  simp only [List.mem_map]
  rintro i x ⟨j, -, rfl⟩
  exact ⟨j, rfl⟩

theorem part_serveOps_message (s p n : Nat) (g : Nat → OpEntry) :
    part (serveOps s p n g) .message = [] := by
  refine part_none ?_
  simp only [serveOps, serveOp, List.mem_flatMap, List.mem_append, List.mem_map, List.mem_singleton]
  rintro x ⟨i, -, h⟩ he
  rcases h with (((h | ⟨j, -, h⟩) | h) | ⟨j, -, h⟩) | h <;> (subst h; cases he)

theorem part_single (q q' : Place) (ops : List Op) :
    part [(q, ops)] q' = if q = q' then ops else [] := by
  rw [part_cons, part_nil, List.append_nil]

theorem part_serveOps (s p n : Nat) (g : Nat → OpEntry) (i j : Nat) :
    part (serveOps s p n g) (.record i j) =
      if i < n then part (serveOp s p g i) (.record i j) else [] := by
  rw [serveOps, part_flatMap]
  simp only [serveOp, List.mem_append, List.mem_map, List.mem_singleton]
  rintro i x h
  rcases h with (((h | ⟨j, -, h⟩) | h) | ⟨j, -, h⟩) | h <;> (subst h; exact ⟨_, rfl⟩)

/-- A program that passes the check: at no place is anything left. -/
def Passes (lax : Bool) (p : Program) : Prop := ∀ q, check lax [] (part p q) = some []

theorem quiet_notGivesBack {op : Op} (h : Quiet op) : ¬ GivesBack op := by
  intro hg
  cases op with
  | setClean x b =>
    cases b
    · exact h
    · exact hg
  | _ => exact hg

/-- What a quiet run has allocated is owned or freed. -/
theorem born_run {m m' : Mem} {ops : List Op} (hr : Run m ops m') (h : Inv m)
    (hq : ∀ op ∈ ops, Quiet op) {n : Nat} (h1 : m.next ≤ n) (h2 : n < m'.next) :
    Owned m' n ∨ Ptr.heap n ∈ m'.freed := by
  induction hr with
  | nil => exact not_born h1 h2
  | @cons m m₁ m₂ op ops hp he hr ih =>
    have e := effect_of h hp he
    have hq' : ∀ op ∈ ops, Quiet op := fun op hop => hq op (List.mem_cons_of_mem _ hop)
    have hq0 := hq op (List.mem_cons_self ..)
    by_cases hn : n < m₁.next
    · have hown : Owned m₁ n := by
        refine e.born ?_ n h1 hn
        rintro size rfl
        exact hq0
      exact kept_run hr e.inv (fun op hop => quiet_notGivesBack (hq' op hop)) (.inl hown)
    · exact ih e.inv hq' (by omega) h2

end Hx.Own

import Mathlib.Logic.Denumerable
import Verif.Proofs.BlobPrograms
import Verif.Spec.BlobMany

/-!
# Many messages at once: lemmas for C88

A history is turned into a program of one message whose places are pairs of a
message and a place.
-/

namespace Hx.Own

open Hx.Spec.Blob Hx.Spec.BlobMany

theorem passes_histLocal (n : Nat) (e : Nat → Entry) : Passes false (histLocal n e) := by
  rintro (_ | ⟨i, j⟩)
  · simp only [histLocal, part_append, part_each_message]; cbv
  · by_cases h : i < n ∧ j = 0
    · simp only [histLocal, part_append, part_each, if_pos h]; cbv
    · simp only [histLocal, part_append, part_each, if_neg h]; cbv

/-- Places are records, or the message. -/
def placeEquiv : Place ≃ Option (Nat × Nat) where
  toFun
    | .message => none
    | .record i j => some (i, j)
  invFun
    | none => .message
    | some (i, j) => .record i j
  left_inv q := by cases q <;> rfl
  right_inv x := by rcases x with _ | ⟨i, j⟩ <;> rfl

instance : Denumerable Place := Denumerable.ofEquiv _ placeEquiv

/-- There are as many places as pairs of a message and a place. -/
noncomputable def join : Nat × Place ≃ Place := Denumerable.equiv₂ _ _

/-- A history as a program. -/
noncomputable def joined (h : History) : Program := h.map fun x => (join (x.1, x.2.1), [x.2.2])

/-- The variables of the program. -/
noncomputable def joinedVar (v : Nat → Place → Nat → Nat) (q : Place) (r : Nat) : Nat :=
  v (join.symm q).1 (join.symm q).2 r

theorem names_joined {v : Nat → Place → Nat → Nat} (hv : Apart v) : Names (joinedVar v) := by
  intro q r q' r' h
  obtain ⟨h1, h2, h3⟩ := hv _ _ _ _ _ _ h
  exact ⟨join.symm.injective (Prod.ext h1 h2), h3⟩

theorem compile_joined (v : Nat → Place → Nat → Nat) (h : History) :
    compile (joinedVar v) (joined h) = h.ops v := by
  induction h with
  | nil => rfl
  | cons x h ih =>
    have : compile (joinedVar v) (joined (x :: h)) =
        x.2.2.rename (joinedVar v (join (x.1, x.2.1))) :: compile (joinedVar v) (joined h) := rfl
    rw [this, ih]
    have hv : joinedVar v (join (x.1, x.2.1)) = v x.1 x.2.1 := by
      funext r
      simp [joinedVar]
    rw [hv]
    rfl

theorem part_flat (p : Program) (q : Place) :
    part p q = ((flat p).filter fun x => x.1 = q).map fun x => x.2 := by
  induction p with
  | nil => rfl
  | cons x p ih =>
    have : flat (x :: p) = (x.2.map fun o => (x.1, o)) ++ flat p := rfl
    rw [part_cons, ih, this, List.filter_append, List.map_append]
    congr 1
    by_cases hx : x.1 = q <;> simp [hx, List.filter_map, Function.comp_def]

theorem part_joined (h : History) (k : Nat) (q : Place) :
    part (joined h) (join (k, q)) = ((h.of k).filter fun x => x.1 = q).map fun x => x.2 := by
  induction h with
  | nil => rfl
  | cons x h ih =>
    have : joined (x :: h) = (join (x.1, x.2.1), [x.2.2]) :: joined h := rfl
    rw [this, part_cons, ih]
    obtain ⟨k', q', o⟩ := x
    simp only [EmbeddingLike.apply_eq_iff_eq, Prod.mk.injEq, History.of, List.filter_cons]
    by_cases hk : k' = k <;> by_cases hq : q' = q <;> simp [hk, hq]

theorem passes_joined {lax : Bool} {p : Nat → Program} {h : History} (hm : Mixed p h)
    (hp : ∀ k, Passes lax (p k)) : Passes lax (joined h) := by
  intro q
  obtain ⟨⟨k, q⟩, rfl⟩ := join.surjective q
  rw [part_joined, hm k, ← part_flat]
  exact hp k q

theorem at_joined {h : History} {q : Place} (hq : At (joined h) q) :
    ∃ o, ((join.symm q).1, (join.symm q).2, o) ∈ h := by
  obtain ⟨ops, hq⟩ := hq
  obtain ⟨⟨k, q', o⟩, hx, he⟩ := List.mem_map.mp hq
  cases he
  exact ⟨o, by simpa using hx⟩

/-- A message that takes part in a history follows its program. -/
theorem passes_flush {p : Program} (h : Flush .thallium p) : Passes false p := by
  cases h with
  | none => intro q; rfl
  | putRemote b z n e => exact passes_putRemote b _ z n e _ (.inr rfl)
  | putLocal b n e => exact passes_putLocal b n e
  | deleteRemote b z n e => exact passes_deleteRemote b _ z n e _ (.inr rfl)
  | deleteLocal b n e => exact passes_deleteLocal b n e
  | getRemote z n e => exact passes_getRemote _ z n e _ (.inr rfl)
  | getLocal n e => exact passes_getLocal n e
  | histRemote z n e => exact passes_histRemote _ z n e _ (.inr rfl)
  | histLocal n e => exact passes_histLocal n e
  | writeHistograms n e => exact passes_writeHistograms n e
  | readHistograms n e => exact passes_readHistograms n e

theorem check1_lax {K K' : Known} {op : Op} (h : check1 false K op = some K') :
    check1 true K op = some K' := by
  cases op with
  | forget x =>
    simp only [check1] at h ⊢
    cases hx : get K x with
    | none => rw [hx] at h; cases h
    | some k =>
      rw [hx] at h
      cases k
      case full => cases h
      all_goals exact h
  | make x p len typ clean => cases p <;> cases clean <;> exact h
  | setClean x b => cases b <;> exact h
  | _ => exact h

theorem check_lax {K K' : Known} {ops : List Op} (h : check false K ops = some K') :
    check true K ops = some K' := by
  induction ops generalizing K with
  | nil => exact h
  | cons op ops ih =>
    simp only [check] at h ⊢
    cases hx : check1 false K op with
    | none => rw [hx] at h; cases h
    | some K₁ =>
      rw [hx] at h
      rw [check1_lax hx]
      exact ih h

theorem Passes.lax {p : Program} (h : Passes false p) : Passes true p := fun q => check_lax (h q)

theorem passes_flush_any {t : Transport} {p : Program} (h : Flush t p) : Passes true p := by
  cases h with
  | none => intro q; rfl
  | putRemote b z n e => exact passes_putRemote b _ z n e _ (.inl rfl)
  | putLocal b n e => exact (passes_putLocal b n e).lax
  | deleteRemote b z n e => exact passes_deleteRemote b _ z n e _ (.inl rfl)
  | deleteLocal b n e => exact (passes_deleteLocal b n e).lax
  | getRemote z n e => exact passes_getRemote _ z n e _ (.inl rfl)
  | getLocal n e => exact (passes_getLocal n e).lax
  | histRemote z n e => exact passes_histRemote _ z n e _ (.inl rfl)
  | histLocal n e => exact (passes_histLocal n e).lax
  | writeHistograms n e => exact (passes_writeHistograms n e).lax
  | readHistograms n e => exact (passes_readHistograms n e).lax

theorem passes_ops {p : Program} (h : OpFlush .thallium Decodes p) : Passes false p := by
  cases h with
  | getOpRemote z n g hg hd => exact passes_getOpRemote _ z n g hg _ (.inr ⟨rfl, hd⟩)
  | getOpLocal n g hg hd => exact passes_getOpLocal n g hg _ (.inr hd)

theorem passes_ops_any {t : Transport} {D : OpEntry → Prop} {p : Program} (h : OpFlush t D p) :
    Passes true p := by
  cases h with
  | getOpRemote z n g hg hd => exact passes_getOpRemote _ z n g hg _ (.inl rfl)
  | getOpLocal n g hg hd => exact passes_getOpLocal n g hg _ (.inl rfl)

end Hx.Own

import Verif.Proofs.BlobUse

/-!
# The programs of the library pass the check of `Proofs/BlobUse.lean`
-/

namespace Hx.Own

/-- At a place, a program is the sequence of what its loops do there. -/
local macro "parts" : tactic => `(tactic|
  simp only [request, response, sendRequest, part_append, part_nil, part_once, part_once_record,
    part_each_message, part_each, part_eachOp_message, part_eachOp, part_eachRec_message,
    part_eachRec, part_serveOps_message, part_serveOps])

/-- The check, in three steps. -/
theorem check_three {lax : Bool} {q : Place} {a s b : Program} (K₁ K₂ : Known)
    (ha : check lax [] (part a q) = some K₁) (hs : check lax K₁ (part s q) = some K₂)
    (hb : check lax K₂ (part b q) = some []) : check lax [] (part (a ++ s ++ b) q) = some [] := by
  rw [part_append, part_append, check_append, check_append, ha, Option.bind_some, hs,
    Option.bind_some, hb]

/-- Roles that hold blobs which own nothing, and roles that may own something. -/
def hollow (roles : List Nat) : Known := roles.map fun r => (r, .hollow)

def full (roles : List Nat) : Known := roles.map fun r => (r, .full)

theorem passes_putRemote (b : Backend) (t : Transport) (z : Sizes) (n : Nat) (e : Nat → Entry)
    (lax : Bool) (ht : lax = true ∨ t = .thallium) :
    Passes lax (putRemote b t z n e) := by
  rintro (_ | ⟨i, j⟩)
  · refine check_three [] [] ?_ ?_ ?_
    · simp only [putSend] <;> parts <;> cbv
    · cases b <;> simp only [servePuts, served] <;> parts <;> cbv
    · simp only [pairBack] <;> parts <;> cbv
  · by_cases h : i < n ∧ j = 0
    · refine check_three (hollow [21, 20] ++ full [13, 12, 11] ++ hollow [9, 8, 10])
        (hollow [21, 20] ++ full [13, 12, 11] ++ hollow [9, 8, 10]) ?_ ?_ ?_
      · simp only [putSend] <;> parts <;> simp only [if_pos h] <;> cbv
      · cases b <;> simp only [servePuts, served] <;> parts <;> simp only [if_pos h] <;>
          generalize e i = x <;>
          obtain ⟨_, _, _, _, _, _, _, _, _, es, ep, eo, _, _, tr, fo, de, _, _⟩ := x <;>
          cases es <;> cases ep <;> cases eo <;> cases tr <;> cbv
      · simp only [pairBack] <;> parts <;> simp only [if_pos h] <;>
          rcases ht with rfl | rfl <;> (try cases t) <;> cbv
    · refine check_three [] [] ?_ ?_ ?_
      · simp only [putSend] <;> parts <;> simp only [if_neg h] <;> cbv
      · cases b <;> simp only [servePuts, served] <;> parts <;> simp only [if_neg h] <;> cbv
      · simp only [pairBack] <;> parts <;> simp only [if_neg h] <;> cbv

theorem passes_putLocal (b : Backend) (n : Nat) (e : Nat → Entry) :
    Passes false (putLocal b n e) := by
  rintro (_ | ⟨i, j⟩)
  · refine check_three [] [] ?_ ?_ ?_
    · simp only [putHere] <;> parts <;> cbv
    · cases b <;> simp only [servePuts, served] <;> parts <;> cbv
    · simp only [pairHere] <;> parts <;> cbv
  · by_cases h : i < n ∧ j = 0
    · refine check_three (hollow [21, 20, 9, 8, 10])
        (hollow [21, 20, 9, 8, 10]) ?_ ?_ ?_
      · simp only [putHere] <;> parts <;> simp only [if_pos h] <;> cbv
      · cases b <;> simp only [servePuts, served] <;> parts <;> simp only [if_pos h] <;>
          generalize e i = x <;>
          obtain ⟨_, _, _, _, _, _, _, _, _, es, ep, eo, _, _, tr, fo, de, _, _⟩ := x <;>
          cases es <;> cases ep <;> cases eo <;> cases tr <;> cbv
      · simp only [pairHere] <;> parts <;> simp only [if_pos h] <;> cbv
    · refine check_three [] [] ?_ ?_ ?_
      · simp only [putHere] <;> parts <;> simp only [if_neg h] <;> cbv
      · cases b <;> simp only [servePuts, served] <;> parts <;> simp only [if_neg h] <;> cbv
      · simp only [pairHere] <;> parts <;> simp only [if_neg h] <;> cbv

theorem passes_deleteRemote (b : Backend) (t : Transport) (z : Sizes) (n : Nat) (e : Nat → Entry)
    (lax : Bool) (ht : lax = true ∨ t = .thallium) :
    Passes lax (deleteRemote b t z n e) := by
  rintro (_ | ⟨i, j⟩)
  · refine check_three [] [] ?_ ?_ ?_
    · simp only [pairSend] <;> parts <;> cbv
    · cases b <;> simp only [serveDeletes, served] <;> parts <;> cbv
    · simp only [pairBack] <;> parts <;> cbv
  · by_cases h : i < n ∧ j = 0
    · refine check_three (hollow [21, 20] ++ full [12, 11] ++ hollow [9, 8])
        (hollow [21, 20] ++ full [12, 11] ++ hollow [9, 8]) ?_ ?_ ?_
      · simp only [pairSend] <;> parts <;> simp only [if_pos h] <;> cbv
      · cases b <;> simp only [serveDeletes, served] <;> parts <;> simp only [if_pos h] <;>
          generalize e i = x <;>
          obtain ⟨_, _, _, _, _, _, _, _, _, es, ep, eo, _, _, tr, fo, de, _, _⟩ := x <;>
          cases es <;> cases ep <;> cbv
      · simp only [pairBack] <;> parts <;> simp only [if_pos h] <;>
          rcases ht with rfl | rfl <;> (try cases t) <;> cbv
    · refine check_three [] [] ?_ ?_ ?_
      · simp only [pairSend] <;> parts <;> simp only [if_neg h] <;> cbv
      · cases b <;> simp only [serveDeletes, served] <;> parts <;> simp only [if_neg h] <;> cbv
      · simp only [pairBack] <;> parts <;> simp only [if_neg h] <;> cbv

theorem passes_deleteLocal (b : Backend) (n : Nat) (e : Nat → Entry) :
    Passes false (deleteLocal b n e) := by
  rintro (_ | ⟨i, j⟩)
  · refine check_three [] [] ?_ ?_ ?_
    · simp only [pairQueued] <;> parts <;> cbv
    · cases b <;> simp only [serveDeletes, served] <;> parts <;> cbv
    · simp only [pairHere] <;> parts <;> cbv
  · by_cases h : i < n ∧ j = 0
    · refine check_three (hollow [21, 20, 9, 8])
        (hollow [21, 20, 9, 8]) ?_ ?_ ?_
      · simp only [pairQueued] <;> parts <;> simp only [if_pos h] <;> cbv
      · cases b <;> simp only [serveDeletes, served] <;> parts <;> simp only [if_pos h] <;>
          generalize e i = x <;>
          obtain ⟨_, _, _, _, _, _, _, _, _, es, ep, eo, _, _, tr, fo, de, _, _⟩ := x <;>
          cases es <;> cases ep <;> cbv
      · simp only [pairHere] <;> parts <;> simp only [if_pos h] <;> cbv
    · refine check_three [] [] ?_ ?_ ?_
      · simp only [pairQueued] <;> parts <;> simp only [if_neg h] <;> cbv
      · cases b <;> simp only [serveDeletes, served] <;> parts <;> simp only [if_neg h] <;> cbv
      · simp only [pairHere] <;> parts <;> simp only [if_neg h] <;> cbv

theorem passes_getRemote (t : Transport) (z : Sizes) (n : Nat) (e : Nat → Entry)
    (lax : Bool) (ht : lax = true ∨ t = .thallium) :
    Passes lax (getRemote t z n e) := by
  rintro (_ | ⟨i, j⟩)
  · refine check_three [] [] ?_ ?_ ?_
    · simp only [pairSend] <;> parts <;> cbv
    · simp only [serveGets, served] <;> parts <;> cbv
    · simp only [getBack] <;> parts <;> cbv
  · by_cases h : i < n ∧ j = 0
    · refine check_three (hollow [22, 21, 20] ++ full [12, 11] ++ hollow [9, 8])
        (hollow [21, 20] ++ [(22, if (e i).got then .full else .hollow)] ++ full [12, 11] ++ hollow [9, 8]) ?_ ?_ ?_
      · simp only [pairSend] <;> parts <;> simp only [if_pos h] <;> cbv
      · simp only [serveGets, served] <;> parts <;> simp only [if_pos h] <;>
          generalize e i = x <;>
          obtain ⟨_, _, _, _, _, _, _, _, _, es, ep, eo, _, _, tr, fo, de, _, _⟩ := x <;>
          cases es <;> cases ep <;> cases fo <;> cases de <;> cbv
      · simp only [getBack] <;> parts <;> simp only [if_pos h] <;>
          rcases ht with rfl | rfl <;> (try cases t) <;>
          generalize (e i).got = x <;> cases x <;> cbv
    · refine check_three [] [] ?_ ?_ ?_
      · simp only [pairSend] <;> parts <;> simp only [if_neg h] <;> cbv
      · simp only [serveGets, served] <;> parts <;> simp only [if_neg h] <;> cbv
      · simp only [getBack] <;> parts <;> simp only [if_neg h] <;> cbv

theorem passes_getLocal (n : Nat) (e : Nat → Entry) :
    Passes false (getLocal n e) := by
  rintro (_ | ⟨i, j⟩)
  · refine check_three [] [] ?_ ?_ ?_
    · simp only [pairQueued] <;> parts <;> cbv
    · simp only [serveGets, served] <;> parts <;> cbv
    · simp only [getHere] <;> parts <;> cbv
  · by_cases h : i < n ∧ j = 0
    · refine check_three (hollow [22, 21, 20, 9, 8])
        (hollow [21, 20] ++ [(22, if (e i).got then .full else .hollow)] ++ hollow [9, 8]) ?_ ?_ ?_
      · simp only [pairQueued] <;> parts <;> simp only [if_pos h] <;> cbv
      · simp only [serveGets, served] <;> parts <;> simp only [if_pos h] <;>
          generalize e i = x <;>
          obtain ⟨_, _, _, _, _, _, _, _, _, es, ep, eo, _, _, tr, fo, de, _, _⟩ := x <;>
          cases es <;> cases ep <;> cases fo <;> cases de <;> cbv
      · simp only [getHere] <;> parts <;> simp only [if_pos h] <;>
          generalize (e i).got = x <;> cases x <;> cbv
    · refine check_three [] [] ?_ ?_ ?_
      · simp only [pairQueued] <;> parts <;> simp only [if_neg h] <;> cbv
      · simp only [serveGets, served] <;> parts <;> simp only [if_neg h] <;> cbv
      · simp only [getHere] <;> parts <;> simp only [if_neg h] <;> cbv

theorem passes_histRemote (t : Transport) (z : Sizes) (n : Nat) (e : Nat → Entry)
    (lax : Bool) (ht : lax = true ∨ t = .thallium) :
    Passes lax (histRemote t z n e) := by
  rintro (_ | ⟨i, j⟩)
  · simp only [histRemote] <;> parts <;> cbv
  · by_cases h : i < n ∧ j = 0
    · simp only [histRemote] <;> parts <;> simp only [if_pos h] <;>
          rcases ht with rfl | rfl <;> (try cases t) <;> cbv
    · simp only [histRemote] <;> parts <;> simp only [if_neg h] <;> cbv

theorem passes_writeHistograms (n : Nat) (e : Nat → Entry) :
    Passes false (writeHistograms n e) := by
  rintro (_ | ⟨i, j⟩)
  · simp only [writeHistograms] <;> parts <;> cbv
  · by_cases h : i < n ∧ j = 0
    · simp only [writeHistograms] <;> parts <;> simp only [if_pos h] <;> cbv
    · simp only [writeHistograms] <;> parts <;> simp only [if_neg h] <;> cbv

theorem passes_readHistograms (n : Nat) (e : Nat → Entry) :
    Passes false (readHistograms n e) := by
  rintro (_ | ⟨i, j⟩)
  · simp only [readHistograms] <;> parts <;> cbv
  · by_cases h : i < n ∧ j = 0
    · simp only [readHistograms] <;> parts <;> simp only [if_pos h] <;> cbv
    · simp only [readHistograms] <;> parts <;> simp only [if_neg h] <;> cbv

/-- What is known of subject and predicate of a GETOP in a request. -/
def askedFor (remote pair : Bool) : Known :=
  (if remote then (if pair then full [12, 11] else hollow [12, 11]) else []) ++ hollow [9, 8]

/-- What is known after a GETOP was served, at the record with the operation. -/
def answered (remote : Bool) (x : OpEntry) : Known :=
  if x.failure.isNone then full [22, 21, 20] ++ askedFor remote x.pair
  else if remote then
    if x.pair then [(12, .hollow), (21, .full), (11, .hollow), (20, .full), (22, .hollow)]
      ++ hollow [9, 8]
    else hollow [12, 21, 11, 20, 22, 9, 8]
  else hollow [9, 21, 8, 20, 22]

theorem OpEntry.main_lt {x : OpEntry} (h : 1 ≤ x.count) : x.main < x.count := by
  rw [OpEntry.count] at h
  rw [OpEntry.main, OpEntry.count]
  cases hf : x.failure <;> rw [hf] at h <;> simp_all [Nat.pos_iff_ne_zero, Nat.one_le_iff_ne_zero]

theorem OpEntry.lt_count {x : OpEntry} {j : Nat} (h : ¬ x.main = j) : j < x.count ↔ j < x.got := by
  rw [OpEntry.main] at h
  rw [OpEntry.count]
  cases hf : x.failure <;> rw [hf] at h <;> simp at h ⊢
  omega

theorem passes_getOpRemote (t : Transport) (z : Sizes) (n : Nat) (g : Nat → OpEntry)
    (hg : ∀ i, i < n → (g i).Valid) (lax : Bool)
    (ht : lax = true ∨ t = .thallium ∧
      ∀ i, i < n → (g i).failure ≠ some .predicate ∧ (g i).failure ≠ some .object) :
    Passes lax (getOpRemote t z n g) := by
  rintro (_ | ⟨i, j⟩)
  · refine check_three [] [] ?_ ?_ ?_
    · simp only [opSend] <;> parts <;> cbv
    · parts <;> cbv
    · cases t <;> simp only [opBack, cleanOps, opResults] <;> parts <;> cbv
  · by_cases hi : i < n
    · have hv := hg i hi
      have ht' : lax = true ∨ t = .thallium ∧
          (g i).failure ≠ some .predicate ∧ (g i).failure ≠ some .object := by
        rcases ht with h | ⟨h, h'⟩
        · exact .inl h
        · exact .inr ⟨h, h' i hi⟩
      have hone := hv.least
      have hroom := hv.room
      have hnodes : (g i).nodes = (g i).count := by rw [OpEntry.nodes]; omega
      have hzero : ¬ (g i).count = 0 := by omega
      by_cases hM : (g i).main = j
      · have hM' : j = (g i).main := hM.symm
        have hC : j < (g i).count := hM ▸ OpEntry.main_lt hone
        have hA : j < (g i).asked := by omega
        refine check_three (askedFor true (g i).pair) (answered true (g i)) ?_ ?_ ?_
        · simp only [opSend] <;> parts <;> simp only [hi, ← hM', and_self, if_true] <;>
            generalize (g i).pair = p <;> cases p <;> cbv
        · parts
          simp only [hi, if_true, serveOp, part_append, part_single, part_records, hM, hA]
          cases hf : (g i).failure with
          | none =>
            have hG : j < (g i).got := by
              rw [OpEntry.count, hf] at hC; exact hC
            simp only [hG, if_true, failResponse, answered, hf, loopInit, copyResponse]
            generalize (g i).recs j = r
            generalize (g i).pair = p
            generalize (g i).arg = x
            obtain ⟨_, _, _, _, _, _, _, _, _, es, ep, eo, _, _, tr, fo, de, _, _⟩ := x
            cases p <;> cases es <;> cases ep <;> cbv
          | some f =>
            have hG : ¬ j < (g i).got := by
              rw [OpEntry.main, hf] at hM; simp at hM; omega
            simp only [hG, if_false, failResponse, answered, hf, loopInit]
            generalize (g i).recs (g i).got = r
            generalize (g i).pair = p
            generalize (g i).arg = x
            obtain ⟨_, _, _, _, _, _, _, _, _, es, ep, eo, _, _, tr, fo, de, _, _⟩ := x
            rcases ht' with rfl | ⟨-, h1, h2⟩
            · cases f <;> cases p <;> cases es <;> cases ep <;> cbv
            · cases f with
              | early => cases p <;> cases es <;> cases ep <;> cbv
              | subject => cases p <;> cases es <;> cases ep <;> cbv
              | predicate => exact absurd hf h1
              | object => exact absurd hf h2
        · have hb : ∀ u : Transport, (lax = true ∨ u = .thallium) →
              check lax (answered true (g i)) (part (opBack u z n g) (.record i j)) = some [] := by
            intro u hu
            cases u <;> simp only [opBack, cleanOps, opResults] <;> parts <;>
              simp only [hi, ← hM', hnodes, hzero, hC, hA, and_self, if_true, if_false,
                OpEntry.success, answered] <;>
              generalize (g i).recs j = r <;>
              rcases Option.eq_none_or_eq_some (g i).failure with hf | ⟨f, hf⟩ <;>
              cases (g i).pair <;> simp only [hf]
            all_goals first | (cbv; done) | (rcases hu with rfl | h <;> first | (cbv; done) | cases h)
          exact hb t (by rcases ht' with h | h; exact .inl h; exact .inr h.1)
      · have hM' : ¬ j = (g i).main := fun h => hM h.symm
        have hCG := OpEntry.lt_count hM
        by_cases hG : j < (g i).got
        · have hC := hCG.mpr hG
          have hA : j < (g i).asked := by omega
          refine check_three [] (full [22, 21, 20]) ?_ ?_ ?_
          · simp only [opSend] <;> parts <;> simp only [hM', and_false, if_false] <;> cbv
          · parts
            simp only [hi, if_true, serveOp, part_append, part_single, part_records,
              Place.record.injEq, hM, and_false, if_false, hA, hG, copyResponse]
            generalize (g i).recs j = r
            cbv
          · have hb : ∀ u : Transport, (lax = true ∨ u = .thallium) →
                check lax (full [22, 21, 20]) (part (opBack u z n g) (.record i j)) = some [] := by
              intro u hu
              cases u <;> simp only [opBack, cleanOps, opResults] <;> parts <;>
                simp only [hi, hM', hnodes, hC, hA, and_false, if_true, if_false,
                  OpEntry.success] <;>
                generalize (g i).recs j = r <;>
                rcases Option.eq_none_or_eq_some (g i).failure with hf | ⟨f, hf⟩ <;>
                simp only [hf]
              all_goals first | (cbv; done) | (rcases hu with rfl | h <;> first | (cbv; done) | cases h)
            exact hb t (by rcases ht' with h | h; exact .inl h; exact .inr h.1)
        · have hC : ¬ j < (g i).count := fun h => hG (hCG.mp h)
          refine check_three [] (if j < (g i).asked then hollow [22, 21, 20] else []) ?_ ?_ ?_
          · simp only [opSend] <;> parts <;> simp only [hM', and_false, if_false] <;> cbv
          · parts
            simp only [hi, if_true, serveOp, part_append, part_single, part_records,
              Place.record.injEq, hM, and_false, if_false, hG]
            by_cases hA : j < (g i).asked <;> simp only [hA, if_true, if_false] <;> cbv
          · cases t <;> simp only [opBack, cleanOps, opResults] <;> parts <;>
              simp only [hi, hM', hnodes, hC, and_false, if_true, if_false] <;>
              by_cases hA : j < (g i).asked <;> simp only [hA, if_true, if_false] <;> cbv
    · refine check_three [] [] ?_ ?_ ?_
      · simp only [opSend] <;> parts <;> simp only [hi, false_and, if_false] <;> cbv
      · parts <;> simp only [hi, if_false] <;> cbv
      · cases t <;> simp only [opBack, cleanOps, opResults] <;> parts <;>
          simp only [hi, false_and, if_false] <;> cbv

theorem passes_getOpLocal (n : Nat) (g : Nat → OpEntry)
    (hg : ∀ i, i < n → (g i).Valid) (lax : Bool)
    (ht : lax = true ∨
      ∀ i, i < n → (g i).failure ≠ some .predicate ∧ (g i).failure ≠ some .object) :
    Passes lax (getOpLocal n g) := by
  rintro (_ | ⟨i, j⟩)
  · refine check_three [] [] ?_ ?_ ?_
    · simp only [opQueued] <;> parts <;> cbv
    · parts <;> cbv
    · simp only [opHere, cleanOps, opResults] <;> parts <;> cbv
  · by_cases hi : i < n
    · have hv := hg i hi
      have ht' : lax = true ∨
          (g i).failure ≠ some .predicate ∧ (g i).failure ≠ some .object := by
        rcases ht with h | h
        · exact .inl h
        · exact .inr (h i hi)
      have hone := hv.least
      have hroom := hv.room
      have hnodes : (g i).nodes = (g i).count := by rw [OpEntry.nodes]; omega
      have hzero : ¬ (g i).count = 0 := by omega
      by_cases hM : (g i).main = j
      · have hM' : j = (g i).main := hM.symm
        have hC : j < (g i).count := hM ▸ OpEntry.main_lt hone
        have hA : j < (g i).asked := by omega
        refine check_three (askedFor false (g i).pair) (answered false (g i)) ?_ ?_ ?_
        · simp only [opQueued] <;> parts <;> simp only [hi, ← hM', and_self, if_true] <;>
            generalize (g i).pair = p <;> cases p <;> cbv
        · parts
          simp only [hi, if_true, serveOp, part_append, part_single, part_records, hM, hA]
          cases hf : (g i).failure with
          | none =>
            have hG : j < (g i).got := by
              rw [OpEntry.count, hf] at hC; exact hC
            simp only [hG, if_true, failResponse, answered, hf, loopInit, copyResponse]
            generalize (g i).recs j = r
            generalize (g i).pair = p
            generalize (g i).arg = x
            obtain ⟨_, _, _, _, _, _, _, _, _, es, ep, eo, _, _, tr, fo, de, _, _⟩ := x
            cases p <;> cases es <;> cases ep <;> cbv
          | some f =>
            have hG : ¬ j < (g i).got := by
              rw [OpEntry.main, hf] at hM; simp at hM; omega
            simp only [hG, if_false, failResponse, answered, hf, loopInit]
            generalize (g i).recs (g i).got = r
            generalize (g i).pair = p
            generalize (g i).arg = x
            obtain ⟨_, _, _, _, _, _, _, _, _, es, ep, eo, _, _, tr, fo, de, _, _⟩ := x
            rcases ht' with rfl | ⟨h1, h2⟩
            · cases f <;> cases p <;> cases es <;> cases ep <;> cbv
            · cases f with
              | early => cases p <;> cases es <;> cases ep <;> cbv
              | subject => cases p <;> cases es <;> cases ep <;> cbv
              | predicate => exact absurd hf h1
              | object => exact absurd hf h2
        · simp only [opHere, cleanOps, opResults] <;> parts <;>
            simp only [hi, ← hM', hnodes, hzero, hC, hA, and_self, if_true, if_false,
              OpEntry.success, answered] <;>
            rcases Option.eq_none_or_eq_some (g i).failure with hf | ⟨f, hf⟩ <;>
            simp only [hf] <;> cbv
      · have hM' : ¬ j = (g i).main := fun h => hM h.symm
        have hCG := OpEntry.lt_count hM
        by_cases hG : j < (g i).got
        · have hC := hCG.mpr hG
          have hA : j < (g i).asked := by omega
          refine check_three [] (full [22, 21, 20]) ?_ ?_ ?_
          · simp only [opQueued] <;> parts <;> simp only [hM', and_false, if_false] <;> cbv
          · parts
            simp only [hi, if_true, serveOp, part_append, part_single, part_records,
              Place.record.injEq, hM, and_false, if_false, hA, hG, copyResponse]
            generalize (g i).recs j = r
            cbv
          · simp only [opHere, cleanOps, opResults] <;> parts <;>
              simp only [hi, hM', hnodes, hC, hA, and_false, if_true, if_false,
                OpEntry.success] <;>
              rcases Option.eq_none_or_eq_some (g i).failure with hf | ⟨f, hf⟩ <;>
              simp only [hf] <;> cbv
        · have hC : ¬ j < (g i).count := fun h => hG (hCG.mp h)
          refine check_three [] (if j < (g i).asked then hollow [22, 21, 20] else []) ?_ ?_ ?_
          · simp only [opQueued] <;> parts <;> simp only [hM', and_false, if_false] <;> cbv
          · parts
            simp only [hi, if_true, serveOp, part_append, part_single, part_records,
              Place.record.injEq, hM, and_false, if_false, hG]
            by_cases hA : j < (g i).asked <;> simp only [hA, if_true, if_false] <;> cbv
          · simp only [opHere, cleanOps, opResults] <;> parts <;>
              simp only [hi, hM', hnodes, hC, and_false, if_true, if_false] <;>
              by_cases hA : j < (g i).asked <;> simp only [hA, if_true, if_false] <;> cbv
    · refine check_three [] [] ?_ ?_ ?_
      · simp only [opQueued] <;> parts <;> simp only [hi, false_and, if_false] <;> cbv
      · parts <;> simp only [hi, if_false] <;> cbv
      · simp only [opHere, cleanOps, opResults] <;> parts <;>
          simp only [hi, false_and, if_false] <;> cbv

end Hx.Own

import Verif.Proofs.BlobPrograms
import Mathlib.Data.Nat.Pairing

/-!
# C46: buffers of blobs are freed exactly once, those of users never
-/

namespace Hx.Props

open Hx.Own Hx.Spec.Blob

namespace C46Ex

/-- A blob with a copy of three bytes, a reference to it, and a blob the bytes
are moved to. -/
def prog : List Op := [.makeCopy 0 3 7, .copy 1 0, .move 2 0, .destroy 1, .destroy 0]

/-- What it leaves: blob 2 owns the copy. -/
def after : Mem :=
  ((((((Own.alloc 3 .empty).2.set 0 (some ⟨.heap 0, 3, 7, true⟩)).set 1
    (some ⟨.heap 0, 3, 7, false⟩)).set 2 (some ⟨.heap 0, 3, 7, true⟩)).set 0
    (some ⟨.null, 0, 0, false⟩)).set 1 none).set 0 none

theorem runs : Run .empty prog after :=
  .cons trivial rfl (.cons trivial rfl (.cons trivial rfl (.cons trivial rfl (.cons trivial rfl
    (.nil _)))))

theorem reachable : Reachable after := ⟨prog, runs⟩

theorem owned : Owned after 0 := ⟨2, _, rfl, rfl, rfl⟩

/-- A pair that is there, and one that is not. -/
def entry (i : Nat) : Entry :=
  ⟨100, 101, 102, 4, 5, 6, 7, 7, 7, .fresh 4, .fresh 5, .fresh 6, 30, 9, false, i == 0, true, 6, 200⟩

/-- A GETOP for three records that gets two. -/
def op (_ : Nat) : OpEntry :=
  ⟨entry 0, true, 3, 2, none, fun _ => (4, 5, 6)⟩

theorem op_valid (i : Nat) : (op i).Valid := ⟨by simp [op, OpEntry.count], by simp [op, OpEntry.count], by simp [op]⟩

def sizes : Sizes := ⟨40, 50⟩

/-- Names of variables. -/
def var (q : Place) (r : Nat) : Nat :=
  match q with
  | .message => Nat.pair 0 r
  | .record i j => Nat.pair (Nat.pair i j + 1) r

theorem names : Names var := by
  intro q r q' r' h
  cases q <;> cases q' <;> simp_all [var, Nat.pair_eq_pair]

/-- How many buffers a program has allocated, which are still allocated, how
many calls of `operator delete` there were. -/
def tally (o : Out Mem) : Option (Nat × List Nat × Nat) :=
  match o with
  | .ok m => some (m.next, m.live, m.freed.length)
  | _ => none

end C46Ex

/-- **C46** (nothing undefined).  Whatever blobs a program following the rules
of `Proper` has made, copied, moved, assigned and destroyed, its next
operation frees nothing that is not allocated. -/
theorem C46_defined {m : Mem} (hm : Reachable m) {op : Op} (hp : Proper m op) :
    exec m op ≠ .ub := by
  rcases Own.step (inv_reachable hm) hp with h | ⟨m', h, -⟩ <;> rw [h] <;> simp

example : exec C46Ex.after (.moveAssign 2 2) ≠ .ub := C46_defined C46Ex.reachable trivial

/-- **C46** (not twice).  No buffer is freed twice. -/
theorem C46_at_most_once {m : Mem} (hm : Reachable m) (p : Ptr) : timesFreed m p ≤ 1 :=
  List.nodup_iff_count.mp (inv_reachable hm).once p

/-- **C46** (users' buffers).  Memory that did not come from `alloc` is never
freed, whoever referred to it. -/
theorem C46_users {m : Mem} (hm : Reachable m) (a : Nat) : timesFreed m (.outside a) = 0 := by
  refine List.count_eq_zero.mpr ?_
  intro h
  obtain ⟨n, hn⟩ := (inv_reachable hm).heap _ h
  cases hn

/-- **C46** (one owner).  A buffer has at most one owner, … -/
theorem C46_one_owner {m : Mem} (hm : Reachable m) {n x y : Nat} (hx : Owns m x n)
    (hy : Owns m y n) : x = y :=
  (inv_reachable hm).inj x y n (owns_iff.mp hx) (owns_iff.mp hy)

/-- **C46** (not early).  … and as long as it has one it has not been freed. -/
theorem C46_not_early {m : Mem} (hm : Reachable m) {n : Nat} (hn : Owned m n) :
    timesFreed m (.heap n) = 0 := by
  obtain ⟨x, hx⟩ := hn
  exact List.count_eq_zero.mpr
    ((inv_reachable hm).apart n ((inv_reachable hm).alive x n (owns_iff.mp hx)))

/-- **C46** (exactly once).  A buffer that some blob owned, and that no blob
owns any more, has been freed exactly once: `m` is any state on the way at
which it was owned, `m'` any later one.  `set_clean(false)` excepted, which
gives the buffer back to the caller. -/
theorem C46_exactly_once {m m' : Mem} (hm : Reachable m) {ops : List Op} (hr : Run m ops m')
    (hg : ∀ op ∈ ops, ¬ GivesBack op) {n : Nat} (hn : Owned m n) (hn' : ¬ Owned m' n) :
    timesFreed m' (.heap n) = 1 := by
  have hm' := inv_run hr (inv_reachable hm)
  have hmem : Ptr.heap n ∈ m'.freed := (kept_run hr (inv_reachable hm) hg (.inl hn)).resolve_left hn'
  exact Nat.le_antisymm (List.nodup_iff_count.mp hm'.once _) (List.count_pos_iff.mpr hmem)

example : ∃ m', Run C46Ex.after [.destroy 2] m' ∧ ¬ Owned m' 0 ∧ timesFreed m' (.heap 0) = 1 := by
  have hr : Run C46Ex.after [.destroy 2] _ := .cons trivial rfl (.nil _)
  refine ⟨_, hr, ?_⟩
  refine and_iff_left_of_imp (C46_exactly_once C46Ex.reachable hr (by simp [GivesBack]) C46Ex.owned)
    |>.mpr ?_
  rintro ⟨x, o, ho, -⟩
  simp only [C46Ex.after, Mem.set, Own.alloc, Mem.empty] at ho
  by_cases h0 : x = 0 <;> by_cases h1 : x = 1 <;> by_cases h2 : x = 2 <;> simp_all

/-- **C46** (the last owner).  The buffer is freed by the very operation that
takes its owner away. -/
theorem C46_at_once {m m' : Mem} (hm : Reachable m) {op : Op} (hp : Proper m op)
    (hg : ¬ GivesBack op) (he : exec m op = .ok m') {n : Nat} (hn : Owned m n) (hn' : ¬ Owned m' n) :
    m'.freed = m.freed ++ [.heap n] := by
  have e := effect_of (inv_reachable hm) hp he
  have hin : Ptr.heap n ∈ m'.freed := (e.kept hg n hn).resolve_left hn'
  obtain ⟨fs, hfs, hl, -⟩ := e.freed
  have h0 : Ptr.heap n ∉ m.freed := List.count_eq_zero.mp (C46_not_early hm hn)
  rw [hfs] at hin ⊢
  rcases List.mem_append.mp hin with h | h
  · exact (h0 h).elim
  · match fs, h, hl with
    | [p], h, _ => rw [List.mem_singleton.mp h]

/-- The rules are needed: `unpack` into a blob that owns a buffer loses it.
No caller in the library does so. -/
theorem C46_unpack_leaks_false :
    ¬ ∀ (ops : List Op) (m : Mem), run .empty ops = .ok m → (∀ x, m.objs x = none) →
      ∀ n, n < m.next → timesFreed m (.heap n) = 1 := by
  intro h
  have := h [.makeCopy 0 3 0, .unpack 0 (.outside 0) 2 none true, .destroy 0]
    ⟨fun y => if y = 0 then none else if y = 0 then _ else if y = 0 then _ else none, 2, [0], [.heap 1]⟩
    rfl (fun x => by by_cases hx : x = 0 <;> simp [hx]) 0 (by decide)
  revert this
  decide

/-- `clear` of a blob that owns a buffer loses it too. -/
theorem C46_clear_leaks_false :
    ∃ m, run .empty [.makeCopy 0 3 0, .clear 0, .destroy 0] = .ok m ∧ (∀ x, m.objs x = none) ∧
      timesFreed m (.heap 0) = 0 :=
  ⟨_, rfl, fun x => by by_cases hx : x = 0 <;> simp [hx, Mem.set, Mem.empty], by decide⟩

/-- `set_clean(true)` on a reference to what another blob owns frees twice. -/
theorem C46_set_clean_ub :
    run .empty [.makeCopy 0 3 0, .copy 1 0, .setClean 1 true, .destroy 0, .destroy 1] = .ub := rfl

/-- A blob told to own a buffer of the user frees it. -/
theorem C46_own_users_ub (a : Nat) :
    run .empty [.make 0 (.outside a) 3 0 true, .destroy 0] = .ub := rfl

/-! ## The library -/

/-- `decode` and `RealBlob`, `sp_to_key`, `append_type`: allocating a buffer
and making a blob that owns it is what the copying constructor does. -/
theorem real_eq_makeCopy (m : Mem) (x len typ : Nat) :
    run m [.alloc len, .make x (Own.alloc len m).1 len typ true] = exec m (.makeCopy x len typ) := by
  have : (Own.alloc len m).2.vacant x = m.vacant x := by
    rw [Mem.vacant, Mem.vacant, objs_alloc]
  simp only [run, exec, Out.pure_eq, Out.ok_bind, this]
  cases m.vacant x <;> rfl

theorem clean_of_passes {p : Program} (h : Passes false p) : Clean p := by
  intro v hv m hm hnone
  have hi := inv_reachable hm
  obtain ⟨m', ht, hf⟩ := compile_sound hv p (K := fun _ => []) (K' := fun _ => []) hi
    (fun q hq => fits_nil.mpr fun r => hnone q r hq) (fun q _ => h q)
  have hobjs : m'.objs = m.objs := by
    funext y
    by_cases hy : Mine p v y
    · obtain ⟨q, r, hq, rfl⟩ := hy
      rw [hnone q r hq]
      exact fits_nil.mp (hf q hq) r
    · exact ht.frame y hy
  obtain ⟨ops₀, hr₀⟩ := hm
  have hm' : Reachable m' := ⟨_, run_append hr₀ (ht.run rfl)⟩
  have howned : ∀ k, Owned m' k ↔ Owned m k := by
    intro k
    rw [owned_iff, owned_iff, hobjs]
  refine ⟨m', ht.run rfl, hobjs, ?_, ?_, C46_users hm'⟩
  · intro k hk
    exact C46_not_early hm' ((howned k).mpr hk)
  · intro k h1 h2
    have hno : ¬ Owned m' k := by
      intro hk
      obtain ⟨x, hx⟩ := owned_iff.mp ((howned k).mp hk)
      exact Nat.lt_irrefl k (Nat.lt_of_lt_of_le ((hi.known k).mpr (.inl (hi.alive x k hx))) h1)
    have hmem := (born_run (ht.run rfl) hi (ht.quiet rfl) h1 h2).resolve_left hno
    exact Nat.le_antisymm (C46_at_most_once hm' _) (List.count_pos_iff.mpr hmem)

theorem safe_of_passes {p : Program} {lax : Bool} (h : Passes lax p) : Safe p := by
  intro v hv m hm hnone
  have hi := inv_reachable hm
  obtain ⟨m', ht, hf⟩ := compile_sound hv p (K := fun _ => []) (K' := fun _ => []) hi
    (fun q hq => fits_nil.mpr fun r => hnone q r hq) (fun q _ => h q)
  have hobjs : m'.objs = m.objs := by
    funext y
    by_cases hy : Mine p v y
    · obtain ⟨q, r, hq, rfl⟩ := hy
      rw [hnone q r hq]
      exact fits_nil.mp (hf q hq) r
    · exact ht.frame y hy
  refine ⟨m', ht.done, hobjs, ?_, fun x => List.nodup_iff_count.mp ht.inv.once x, ?_⟩
  · intro k hk
    obtain ⟨x, hx⟩ := owned_iff.mp hk
    rw [← hobjs] at hx
    exact List.count_eq_zero.mpr (ht.inv.apart k (ht.inv.alive x k hx))
  · intro a
    refine List.count_eq_zero.mpr fun h => ?_
    obtain ⟨n, hn⟩ := ht.inv.heap _ h
    cases hn

/-- **C46** (PUTs to another rank).  From the first PUT to the destruction of
the results, with the copies, keys, values, encoded values and packets at both
ends, whatever the backend of the range server and whatever `encode` does. -/
theorem C46_put_remote (b : Backend) (z : Sizes) (n : Nat) (e : Nat → Entry) :
    Clean (putRemote b .thallium z n e) :=
  clean_of_passes (passes_putRemote b .thallium z n e false (.inr rfl))

/-- The hypotheses of `Clean` are met by names of variables, and at the start. -/
example : ∃ m', Run .empty (compile C46Ex.var (putRemote .onDisk .thallium C46Ex.sizes 2 C46Ex.entry)) m' ∧
    m'.objs = Mem.empty.objs :=
  let ⟨m', h, h', _⟩ := C46_put_remote .onDisk C46Ex.sizes 2 C46Ex.entry _ C46Ex.names .empty
    ⟨[], .nil _⟩ (fun _ _ _ => rfl)
  ⟨m', h, h'⟩

/-- Two PUTs to another rank: four packets, and three copies, three encoded
values, a key and a value for each. -/
example : C46Ex.tally (run .empty (compile C46Ex.var
    (putRemote .onDisk .thallium C46Ex.sizes 2 C46Ex.entry))) = some (20, [], 20) := by
  decide +kernel

/-- **C46** (PUTs the rank serves itself). -/
theorem C46_put_local (b : Backend) (n : Nat) (e : Nat → Entry) : Clean (putLocal b n e) :=
  clean_of_passes (passes_putLocal b n e)

example : C46Ex.tally (run .empty (compile C46Ex.var (putLocal .inMemory 2 C46Ex.entry))) =
    some (10, [], 10) := by
  decide +kernel

/-- **C46** (DELETEs to another rank). -/
theorem C46_delete_remote (b : Backend) (z : Sizes) (n : Nat) (e : Nat → Entry) :
    Clean (deleteRemote b .thallium z n e) :=
  clean_of_passes (passes_deleteRemote b .thallium z n e false (.inr rfl))

/-- **C46** (DELETEs the rank serves itself). -/
theorem C46_delete_local (b : Backend) (n : Nat) (e : Nat → Entry) : Clean (deleteLocal b n e) :=
  clean_of_passes (passes_deleteLocal b n e)

/-- **C46** (GETs from another rank). -/
theorem C46_get_remote (z : Sizes) (n : Nat) (e : Nat → Entry) :
    Clean (getRemote .thallium z n e) :=
  clean_of_passes (passes_getRemote .thallium z n e false (.inr rfl))

/-- Two GETs, of which one finds something. -/
example : C46Ex.tally (run .empty (compile C46Ex.var
    (getRemote .thallium C46Ex.sizes 2 C46Ex.entry))) = some (16, [], 16) := by
  decide +kernel

/-- **C46** (GETs the rank serves itself). -/
theorem C46_get_local (n : Nat) (e : Nat → Entry) : Clean (getLocal n e) :=
  clean_of_passes (passes_getLocal n e)

/-- **C46** (requests for histograms to another rank). -/
theorem C46_histogram_remote (z : Sizes) (n : Nat) (e : Nat → Entry) :
    Clean (histRemote .thallium z n e) :=
  clean_of_passes (passes_histRemote .thallium z n e false (.inr rfl))

/-- **C46** (writing the histograms of a datastore). -/
theorem C46_write_histograms (n : Nat) (e : Nat → Entry) : Clean (writeHistograms n e) :=
  clean_of_passes (passes_writeHistograms n e)

/-- **C46** (reading them). -/
theorem C46_read_histograms (n : Nat) (e : Nat → Entry) : Clean (readHistograms n e) :=
  clean_of_passes (passes_readHistograms n e)

/-- **C46** (GETOPs sent to another rank).  Any number of operations and
records.  Missing: operations that return no record (`C54_getop_empty_false`),
and those where the predicate or object of a record is not decoded
(`C46_getop_decode_false`). -/
theorem C46_getop_remote_partial (z : Sizes) (n : Nat) (g : Nat → OpEntry)
    (hg : ∀ i, i < n → (g i).Valid)
    (hd : ∀ i, i < n → (g i).failure ≠ some .predicate ∧ (g i).failure ≠ some .object) :
    Clean (getOpRemote .thallium z n g) :=
  clean_of_passes (passes_getOpRemote .thallium z n g hg false (.inr ⟨rfl, hd⟩))

example : Clean (getOpRemote .thallium C46Ex.sizes 2 C46Ex.op) :=
  C46_getop_remote_partial _ 2 _ (fun i _ => C46Ex.op_valid i) (fun _ _ => by simp [C46Ex.op])

/-- Two GETOPs with two records each. -/
example : C46Ex.tally (run .empty (compile C46Ex.var
    (getOpRemote .thallium C46Ex.sizes 2 C46Ex.op))) = some (38, [], 38) := by
  decide +kernel

/-- **C46** (GETOPs the rank serves itself). -/
theorem C46_getop_local_partial (n : Nat) (g : Nat → OpEntry)
    (hg : ∀ i, i < n → (g i).Valid)
    (hd : ∀ i, i < n → (g i).failure ≠ some .predicate ∧ (g i).failure ≠ some .object) :
    Clean (getOpLocal n g) :=
  clean_of_passes (passes_getOpLocal n g hg false (.inr hd))

/-- A buffer that is still allocated at the end is the end of `Clean`. -/
theorem not_clean {p : Program} {k l : Nat} {ks : List Nat}
    (h : C46Ex.tally (run .empty (compile C46Ex.var p)) = some (l, k :: ks, l - (k :: ks).length))
    (hk : k < l) : ¬ Clean p := by
  intro hc
  obtain ⟨m', hr, -, -, hf, -⟩ := hc _ C46Ex.names .empty ⟨[], .nil _⟩ (fun _ _ _ => rfl)
  have hi := inv_run hr inv_empty
  rw [exec_of_run hr] at h
  simp only [C46Ex.tally, Option.some.injEq, Prod.mk.injEq] at h
  obtain ⟨hn, hl, -⟩ := h
  have h1 := hf k (Nat.zero_le _) (by rw [hn]; exact hk)
  have h2 := hi.apart k (by rw [hl]; exact List.mem_cons_self ..)
  rw [timesFreed, List.count_eq_zero.mpr h2] at h1
  cases h1

/-- **C46** is false for PUTs served by a range server of the MPI transport:
it never frees the copies of subject, predicate and object that it made when it
unpacked the request. -/
theorem C46_mpi_put_false : ¬ ∀ b t z n e, Clean (putRemote b t z n e) := by
  intro h
  exact not_clean (p := putRemote .onDisk .mpi C46Ex.sizes 1 C46Ex.entry)
    (l := 12) (k := 4) (ks := [3, 2]) (by decide +kernel) (by decide) (h _ _ _ _ _)

/-- The same for GETs; the object in the response is lost as well. -/
theorem C46_mpi_get_false : ¬ ∀ t z n e, Clean (getRemote t z n e) := by
  intro h
  exact not_clean (p := getRemote .mpi C46Ex.sizes 1 C46Ex.entry)
    (l := 11) (k := 7) (ks := [3, 2]) (by decide +kernel) (by decide) (h _ _ _ _)

/-- **C46** is false for GETOPs that fail to decode the object of a record:
the subject and the predicate, decoded already, are never freed. -/
theorem C46_getop_decode_false :
    ¬ ∀ n g, (∀ i, i < n → (g i).Valid) → Clean (getOpLocal n g) := by
  intro h
  refine not_clean (p := getOpLocal 1 fun _ =>
      ⟨C46Ex.entry 0, true, 3, 1, some .object, fun _ => (4, 5, 6)⟩)
    (l := 8) (k := 7) (ks := [6]) (by decide +kernel) (by decide) (h _ _ ?_)
  intro i _
  exact ⟨by simp [OpEntry.count], by simp [OpEntry.count], by simp⟩

end Hx.Props

import Verif.Spec.Constants
import Verif.Proofs.Message

/-!
# C08 to C11: messages on the wire

The buffer that is sent has `size` bytes; the packer may write fewer, so the theorems allow
arbitrary bytes behind what was written.
-/

namespace Hx.Props
open Hx Msg Spec

/-! ## C08 -/

/-- C08. A request packed by the client and unpacked by the server has the same operations, in the
same order, with the same data, types, record counts and client addresses. Holds when no pointer in
the request is null. -/
theorem C08_request_wire_partial (heap : Nat) (r : Req) (h : SendableReq r) (junk : Bytes) :
    ∃ r', rdReq heap (r.pack ++ junk) = .ok (r', junk) ∧ SameReq r r' :=
  ⟨_, reads_req heap r h junk, same_arrivedReq heap r⟩

/-- The pointers of copied data are null only for empty data: what has been received can be sent
on and keeps the data. -/
theorem C08_received_addresses (heap : Nat) (hh : heap ≠ 0) (w : Bool) (src : Bytes) (b' : Blob)
    (rest : Bytes) (hb : rdBlob heap w src = .ok (b', rest)) : b'.addr = 0 ↔ b'.bytes = [] := by
  unfold rdBlob at hb
  cases h1 : rdNat 8 src with
  | err => simp [h1] at hb
  | ub => simp [h1] at hb
  | ok x =>
    rw [h1, Out.ok_bind] at hb
    unfold rd at hb
    by_cases hl : x.2.length < x.1
    · rw [if_pos hl] at hb; simp at hb
    · rw [if_neg hl, Out.ok_bind] at hb
      have key : copyAddr heap x.1 = 0 ↔ x.2.take x.1 = [] := by
        unfold copyAddr
        by_cases h0 : x.1 = 0
        · simp [h0]
        · simp only [List.take_eq_nil_iff, h0, false_or]
          constructor
          · intro h; exact absurd h hh
          · intro h; rw [h] at hl; simp at hl; omega
      cases w
      · simp at hb; obtain ⟨rfl, -⟩ := hb; exact key
      · simp only [if_true] at hb
        cases h2 : rdNat 4 (x.2.drop x.1) with
        | err => simp [h2] at hb
        | ub => simp [h2] at hb
        | ok t => simp [h2] at hb; obtain ⟨rfl, -⟩ := hb; exact key

/-- A GETOP LOWEST with a subject and the documented null predicate. -/
def nullPredicate : Req :=
  ⟨0, 1, .getop [⟨goLowest, ⟨4096, [1], 7⟩, Blob.null, 7, 1⟩]⟩

/-- C08 is false in general: a null blob packs to no bytes at all, so the server misreads a GETOP
whose predicate is null, whatever the unused end of the packet contains. -/
theorem C08_null_predicate_ub (heap : Nat) (junk : Bytes)
    (hj : nullPredicate.pack.length + junk.length = nullPredicate.size) :
    rdReq heap (nullPredicate.pack ++ junk) = .ub := by
  have hlen : junk.length = 12 := by
    have h1 : nullPredicate.pack.length = 53 := by decide
    have h2 : nullPredicate.size = 65 := by decide
    omega
  unfold Req.pack rdReq
  simp only [List.append_assoc]
  rw [(reads_header (by decide) (by decide) (by decide) (by decide) (by decide)).bind]
  have hb : nullPredicate.body.pack
      = leBytes 4 goLowest ++ (packBlob ⟨4096, [1], 7⟩ true ++ (leBytes 8 (7 + 2 ^ 32) ++ leBytes 4 0)) := by
    decide
  have hc : nullPredicate.body.count = 1 := rfl
  simp only [hb, hc, List.append_assoc, rdMany]
  have hop : rdGetOp heap (leBytes 4 goLowest ++ (packBlob ⟨4096, [1], 7⟩ true
      ++ (leBytes 8 (7 + 2 ^ 32) ++ (leBytes 4 0 ++ junk)))) = .ub := by
    unfold rdGetOp
    rw [(reads_rdNat (by decide)).bind]
    simp only [show hasKey goLowest = true from rfl, if_true]
    rw [(reads_blob heap true (by decide)).bind]
    simp only
    rw [show rdBlob heap true (leBytes 8 (7 + 2 ^ 32) ++ (leBytes 4 0 ++ junk)) = .ub by
      unfold rdBlob
      rw [(reads_rdNat (by decide)).bind]
      unfold rd
      rw [if_pos (by simp [hlen])]
      rfl]
    rfl
  rw [hop]
  rfl

/-- A packet with two PUTs, one of them with an empty object, meets the hypotheses. -/
example : SendableReq ⟨0, 3, .put [PutItem.make ⟨16, [1, 0xff], 7⟩ ⟨32, [], 7⟩ ⟨48, [2, 3], 7⟩,
    PutItem.make ⟨64, [9], 1⟩ ⟨80, [8], 7⟩ ⟨96, [], 7⟩]⟩ := by
  refine ⟨by decide, by decide, by decide, ?_⟩
  unfold SendableReqBody
  decide

/-- The same packet read back: the server sees the client's addresses. -/
example : rdReq 1 (Req.pack ⟨0, 3, .put [PutItem.make ⟨16, [1, 0xff], 7⟩ ⟨32, [], 7⟩ ⟨48, [2, 3], 7⟩]⟩ ++ [5, 5])
    = .ok (⟨0, 3, .put [⟨⟨1, [1, 0xff], 7⟩, 16, ⟨0, [], 7⟩, 32, ⟨1, [2, 3], 7⟩⟩]⟩, [5, 5]) := by
  decide +kernel

example : SendableReq ⟨2, 0, .getop [⟨goFirst, Blob.null, Blob.null, 7, 5⟩,
    ⟨goNext, ⟨16, [1], 7⟩, ⟨32, [2], 7⟩, 7, 5⟩]⟩ := by
  refine ⟨by decide, by decide, by decide, ?_⟩
  unfold SendableReqBody
  decide

/-! ## C09 -/

/-- C09. A response packed by the server and unpacked by the client carries the same statuses,
client addresses, records, objects and histograms in the same order. Holds when the blobs that are
sent are not null. -/
theorem C09_response_wire_partial (heap : Nat) (r : Res) (h : SendableRes r) (junk : Bytes) :
    ∃ w r', r.pack = .ok w ∧ rdRes heap (w ++ junk) = .ok (r', junk) ∧ SameRes r r' := by
  obtain ⟨w, hw, hr⟩ := reads_res heap r h
  exact ⟨w, _, hw, hr junk, same_arrivedRes heap r h⟩

/-- The response to a GET of a pair that was stored with a zero length object. -/
def emptyObject : Res := ⟨1, 0, .get [⟨1, ⟨16, 1, 7⟩, ⟨32, 1, 7⟩, ⟨0, [], 7⟩⟩]⟩

/-- C09 is false in general: an empty object is a null blob and packs to nothing; the client reads
whatever happens to be behind the packed bytes as its length. -/
theorem C09_empty_object_ub (heap : Nat) :
    ∃ w junk, emptyObject.pack = .ok w ∧ w.length + junk.length = emptyObject.size ∧
      rdRes heap (w ++ junk) = .ub := by
  refine ⟨_, List.replicate 12 0xff, rfl, by decide, ?_⟩
  rfl

/-- The response of an empty datastore to GETOP FIRST that came over the wire: its one record has
the null subject and predicate of the request. -/
def firstOnEmpty : Res := ⟨1, 0, .getop [⟨2, [⟨Blob.null, Blob.null, Blob.null⟩]⟩]⟩

theorem C09_first_on_empty_ub (heap : Nat) :
    ∃ w junk, firstOnEmpty.pack = .ok w ∧ w.length + junk.length = firstOnEmpty.size ∧
      rdRes heap (w ++ junk) = .ub := by
  refine ⟨_, List.replicate (firstOnEmpty.size - 36) 0xff, rfl, by decide, ?_⟩
  rfl

example : SendableRes ⟨1, 0, .getop [⟨1, [⟨⟨16, [1], 7⟩, ⟨32, [2], 7⟩, ⟨48, [3], 7⟩⟩,
      ⟨⟨64, [1], 7⟩, ⟨80, [4], 7⟩, ⟨96, [5], 7⟩⟩]⟩, ⟨2, [⟨⟨16, [1], 7⟩, ⟨32, [2], 7⟩, Blob.null⟩]⟩]⟩ := by
  refine ⟨by decide, by decide, by decide, ?_⟩
  unfold SendableResBody
  decide

/-- A found and a missing histogram. -/
example : SendableRes ⟨1, 0, .hist [⟨1, some ⟨[104], 1, none, none, 3, some [0, 1, 2], some [2, 1], 2⟩⟩,
    ⟨2, none⟩]⟩ := by
  refine ⟨by decide, by decide, by decide, ?_⟩
  intro x hx
  rcases List.mem_pair.mp hx with rfl | rfl
  · refine ⟨by decide, fun _ => ⟨_, rfl, ?_⟩⟩
    refine ⟨by decide, by decide, by decide, by decide, by simp, by simp, fun _ => ?_⟩
    exact ⟨[0, 1, 2], [2, 1], rfl, rfl, rfl, rfl, by decide⟩
  · exact ⟨by decide, fun h => absurd h (by decide)⟩

/-! ## C10 -/

private theorem length_blob (b : Blob) (w : Bool) : (packBlob b w).length ≤ blobSize b w := by
  unfold packBlob blobSize
  split
  · simp
  · cases w <;> simp <;> omega

private theorem length_blob_eq (b : Blob) (w : Bool) (h : b.addr ≠ 0) :
    (packBlob b w).length = blobSize b w := by
  unfold packBlob blobSize
  rw [if_neg h]
  cases w <;> simp <;> omega

private theorem flatMap_le {α : Type} (f : α → Bytes) (g : α → Nat) (l : List α)
    (h : ∀ x ∈ l, (f x).length ≤ g x) : (l.flatMap f).length ≤ (l.map g).sum := by
  induction l with
  | nil => simp
  | cons x l ih =>
    simp only [List.flatMap_cons, List.length_append, List.map_cons, List.sum_cons]
    have := h x (by simp)
    have := ih fun y hy => h y (by simp [hy])
    omega

private theorem flatMap_eq {α : Type} (f : α → Bytes) (g : α → Nat) (l : List α)
    (h : ∀ x ∈ l, (f x).length = g x) : (l.flatMap f).length = (l.map g).sum := by
  induction l with
  | nil => simp
  | cons x l ih =>
    simp only [List.flatMap_cons, List.length_append, List.map_cons, List.sum_cons]
    rw [h x (by simp), ih fun y hy => h y (by simp [hy])]

private theorem length_ref (r : Ref) : (packRef r).length = refSize := by
  unfold packRef refSize; simp

/-- C10, requests. The packer writes at most `size` bytes, the size of its buffer: no hypotheses. -/
theorem C10_request_fits (r : Req) : r.pack.length ≤ r.size := by
  unfold Req.pack Req.size
  rw [List.length_append, length_header]
  have : r.body.pack.length ≤ r.body.size := by
    cases r.body with
    | put l =>
      refine flatMap_le _ _ l fun x _ => ?_
      unfold PutItem.pack PutItem.size
      have h1 := length_blob x.subject true
      have h2 := length_blob x.predicate true
      have h3 := length_blob x.object true
      simp only [List.length_append, length_leBytes]; omega
    | get l =>
      refine flatMap_le _ _ l fun x _ => ?_
      unfold GetItem.pack GetItem.size
      have h1 := length_blob x.subject true
      have h2 := length_blob x.predicate true
      simp only [List.length_append, length_leBytes]; omega
    | getop l =>
      refine flatMap_le _ _ l fun x _ => ?_
      unfold GetOpItem.pack GetOpItem.size
      have h1 := length_blob x.subject true
      have h2 := length_blob x.predicate true
      split <;> simp only [List.length_append, length_leBytes, List.length_nil] <;> omega
    | del l =>
      refine flatMap_le _ _ l fun x _ => ?_
      unfold DelItem.pack DelItem.size
      have h1 := length_blob x.subject true
      have h2 := length_blob x.predicate true
      simp only [List.length_append, length_leBytes]; omega
    | hist l => exact flatMap_le _ _ l fun x _ => length_blob x false
  unfold headerSize
  omega

/-- C10, responses. -/
theorem C10_response_fits (r : Res) (w : Bytes) (hw : r.pack = .ok w) : w.length ≤ r.size := by
  by_cases hh : ∀ l, r.body = .hist l → ∀ x ∈ l, x.status = dsSuccess → x.hist ≠ none
  · rw [resPack_eq r hh] at hw
    cases hw
    unfold Res.size
    rw [List.length_append, length_header]
    have : (resBodyBytes r.body).length ≤ r.body.size := by
      cases r.body with
      | put l =>
        refine flatMap_le _ _ l fun x _ => ?_
        unfold StatusItem.pack statusSize
        simp only [List.length_append, length_intBytes, length_ref]; omega
      | get l =>
        refine flatMap_le _ _ l fun x _ => ?_
        unfold GetRes.pack GetRes.size statusSize
        have h1 := length_blob x.object true
        split <;> simp only [List.length_append, length_intBytes, length_ref, List.length_nil] <;> omega
      | getop l =>
        refine flatMap_le _ _ l fun x _ => ?_
        unfold GetOpRes.pack GetOpRes.size
        have : (x.recs.flatMap (Rec.pack x.status)).length ≤ (x.recs.map Rec.size).sum := by
          refine flatMap_le _ _ _ fun y _ => ?_
          unfold Rec.pack Rec.size
          have h1 := length_blob y.subject true
          have h2 := length_blob y.predicate true
          have h3 := length_blob y.object true
          split <;> simp only [List.length_append, List.length_nil] <;> omega
        simp only [List.length_append, length_intBytes, length_leBytes]; omega
      | del l =>
        refine flatMap_le _ _ l fun x _ => ?_
        unfold StatusItem.pack statusSize
        simp only [List.length_append, length_intBytes, length_ref]; omega
      | hist l =>
        refine flatMap_le _ _ l fun x _ => ?_
        unfold histResBytes HistRes.size
        simp only [List.length_append, length_intBytes]
        split
        · cases x.hist with
          | none => simp
          | some h => have := length_packBytes_le h; simpa using this
        · simp
    unfold headerSize
    omega
  · exfalso
    simp only [not_forall] at hh
    obtain ⟨l, hl, x, hx, hs, hn⟩ := hh
    have : ∀ (l : List HistRes) (avail : Nat), x ∈ l → ∀ b, packHists l avail ≠ .ok b := by
      intro l
      induction l with
      | nil => intro _ h; simp at h
      | cons y l ih =>
        intro avail hm b
        unfold packHists
        rcases List.mem_cons.mp hm with rfl | hm
        · rw [if_pos hs]
          have hn' : x.hist = none := by simpa using hn
          rw [hn']; simp
        · split
          · cases hy : y.hist with
            | none => simp
            | some h =>
              simp only
              cases h.packIn avail with
              | none =>
                simp only
                cases hp : packHists l avail with
                | ok b' => exact absurd hp (ih _ hm _)
                | err => simp
                | ub => simp
              | some q =>
                simp only
                cases hp : packHists l q.2 with
                | ok b' => exact absurd hp (ih _ hm _)
                | err => simp
                | ub => simp
          · cases hp : packHists l avail with
            | ok b' => exact absurd hp (ih _ hm _)
            | err => simp
            | ub => simp
    unfold Res.pack at hw
    rw [hl] at hw
    simp only [ResBody.pack] at hw
    cases hp : packHists l (ResBody.hist l).size with
    | ok b => exact this l _ hx b hp
    | err => rw [hp] at hw; simp at hw
    | ub => rw [hp] at hw; simp at hw

/-- Requests without null pointers fill the buffer exactly. -/
theorem C10_request_exact (r : Req) (h : SendableReq r) : r.pack.length = r.size := by
  unfold Req.pack Req.size
  rw [List.length_append, length_header]
  obtain ⟨-, -, -, h4⟩ := h
  have : r.body.pack.length = r.body.size := by
    cases hb : r.body with
    | put l =>
      rw [hb] at h4
      refine flatMap_eq _ _ l fun x hx => ?_
      unfold PutItem.pack PutItem.size
      have h1 := length_blob_eq x.subject true (h4 x hx).1.2
      have h2 := length_blob_eq x.predicate true (h4 x hx).2.1.2
      have h3 := length_blob_eq x.object true (h4 x hx).2.2.2
      simp only [List.length_append, length_leBytes]; omega
    | get l =>
      rw [hb] at h4
      refine flatMap_eq _ _ l fun x hx => ?_
      unfold GetItem.pack GetItem.size
      have h1 := length_blob_eq x.subject true (h4 x hx).1.2
      have h2 := length_blob_eq x.predicate true (h4 x hx).2.1.2
      simp only [List.length_append, length_leBytes]; omega
    | getop l =>
      rw [hb] at h4
      refine flatMap_eq _ _ l fun x hx => ?_
      unfold GetOpItem.pack GetOpItem.size
      by_cases hk : hasKey x.op = true
      · obtain ⟨hs, hp⟩ := (h4 x hx).2.2.2 ((hasKey_iff _).mp hk)
        have h1 := length_blob_eq x.subject true hs.2
        have h2 := length_blob_eq x.predicate true hp.2
        simp only [if_pos hk, List.length_append, length_leBytes]; omega
      · simp only [if_neg hk, List.length_append, length_leBytes, List.length_nil]
    | del l =>
      rw [hb] at h4
      refine flatMap_eq _ _ l fun x hx => ?_
      unfold DelItem.pack DelItem.size
      have h1 := length_blob_eq x.subject true (h4 x hx).1.2
      have h2 := length_blob_eq x.predicate true (h4 x hx).2.2
      simp only [List.length_append, length_leBytes]; omega
    | hist l =>
      rw [hb] at h4
      exact flatMap_eq _ _ l fun x hx => length_blob_eq x false (h4 x hx).2
  unfold headerSize
  omega

/-- Responses without null pointers fill the buffer exactly, except that a GETOP's number of records is counted twice, and its objects
also when they are not sent. -/
theorem C10_response_exact (r : Res) (h : SendableRes r) (hg : ∀ l, r.body = .getop l → ∀ x ∈ l, x.status = dsSuccess) (w : Bytes)
    (hw : r.pack = .ok w) : w.length + (match r.body with | .getop l => 8 * l.length | _ => 0) = r.size := by
  obtain ⟨-, -, -, h4⟩ := h
  have hh : ∀ l, r.body = .hist l → ∀ x ∈ l, x.status = dsSuccess → x.hist ≠ none := by
    intro l hl x hx hs
    rw [hl] at h4
    obtain ⟨a, ha, -⟩ := (h4 x hx).2 hs
    rw [ha]; simp
  rw [resPack_eq r hh] at hw
  cases hw
  unfold Res.size
  rw [List.length_append, length_header]
  have : (resBodyBytes r.body).length + (match r.body with | .getop l => 8 * l.length | _ => 0) = r.body.size := by
    cases hb : r.body with
    | put l =>
      refine flatMap_eq _ _ l fun x _ => ?_
      unfold StatusItem.pack statusSize
      simp only [List.length_append, length_intBytes, length_ref]; omega
    | get l =>
      rw [hb] at h4
      refine flatMap_eq _ _ l fun x hx => ?_
      unfold GetRes.pack GetRes.size statusSize
      by_cases hs : x.status = dsSuccess
      · have h1 := length_blob_eq x.object true ((h4 x hx).2.2.2 hs).2
        simp only [if_pos hs, List.length_append, length_intBytes, length_ref]; omega
      · simp only [if_neg hs, List.length_append, length_intBytes, length_ref, List.length_nil]; omega
    | getop l =>
      rw [hb] at h4
      have hg := hg l hb
      show (l.flatMap GetOpRes.pack).length + 8 * l.length = (l.map GetOpRes.size).sum
      clear hb hh
      induction l with
      | nil => rfl
      | cons x l ih =>
        have ih := ih (fun y hy => h4 y (List.mem_cons_of_mem _ hy)) (fun y hy => hg y (List.mem_cons_of_mem _ hy))
        have hs := hg x List.mem_cons_self
        have hx := (h4 x List.mem_cons_self).2.2
        have e : (x.recs.flatMap (Rec.pack x.status)).length = (x.recs.map Rec.size).sum := by
          refine flatMap_eq _ _ _ fun y hy => ?_
          unfold Rec.pack Rec.size
          have h1 := length_blob_eq y.subject true (hx y hy).1.2
          have h2 := length_blob_eq y.predicate true (hx y hy).2.1.2
          have h3 := length_blob_eq y.object true ((hx y hy).2.2 hs).2
          simp only [if_pos hs, List.length_append]; omega
        rw [List.flatMap_cons, List.map_cons, List.sum_cons, List.length_append, List.length_cons, ← ih]
        unfold GetOpRes.pack GetOpRes.size
        simp only [List.length_append, length_intBytes, length_leBytes]
        omega
    | del l =>
      refine flatMap_eq _ _ l fun x _ => ?_
      unfold StatusItem.pack statusSize
      simp only [List.length_append, length_intBytes, length_ref]; omega
    | hist l =>
      rw [hb] at h4
      refine flatMap_eq _ _ l fun x hx => ?_
      unfold histResBytes HistRes.size
      simp only [List.length_append, length_intBytes]
      by_cases hs : x.status = dsSuccess
      · obtain ⟨a, ha, hf⟩ := (h4 x hx).2 hs
        rw [if_pos hs, if_pos hs, ha]
        simpa using length_packBytes hf
      · rw [if_neg hs, if_neg hs]; rfl
  unfold headerSize
  omega

example : (Req.pack ⟨0, 1, .get [GetItem.make ⟨16, [1, 2], 7⟩ ⟨32, [3], 7⟩ 7]⟩).length = 71
    ∧ Req.size ⟨0, 1, .get [GetItem.make ⟨16, [1, 2], 7⟩ ⟨32, [3], 7⟩ 7]⟩ = 71 := by decide

/-! ## C11 -/

/-- C11, requests. Unpacking what was packed never reads outside the packet, and stops exactly
behind what was written. -/
theorem C11_request_in_bounds_partial (heap : Nat) (r : Req) (h : SendableReq r) (junk : Bytes) :
    rdReq heap (r.pack ++ junk) ≠ .ub ∧ ∃ r', rdReq heap (r.pack ++ junk) = .ok (r', junk) := by
  obtain ⟨r', hr, -⟩ := C08_request_wire_partial heap r h junk
  exact ⟨by rw [hr]; simp, r', hr⟩

/-- C11, responses. -/
theorem C11_response_in_bounds_partial (heap : Nat) (r : Res) (h : SendableRes r) (junk : Bytes) :
    ∃ w, r.pack = .ok w ∧ rdRes heap (w ++ junk) ≠ .ub ∧ ∃ r', rdRes heap (w ++ junk) = .ok (r', junk) := by
  obtain ⟨w, r', hw, hr, -⟩ := C09_response_wire_partial heap r h junk
  exact ⟨w, hw, by rw [hr]; simp, r', hr⟩

/-- The field of `k` bytes at offset `i` of a packet. -/
def field (i k : Nat) (buf : Bytes) : Nat := leVal ((buf.drop i).take k)

private theorem rdHeader_fields (buf : Bytes) (h : 24 ≤ buf.length) :
    ∃ hd rest, rdHeader buf = .ok (hd, rest) ∧ hd.dir = field 0 4 buf ∧ hd.op = field 4 4 buf := by
  unfold rdHeader rdInt rdNat rd
  rw [if_neg (by omega)]
  simp only [Out.ok_bind, List.length_drop, List.drop_drop]
  rw [if_neg (by omega)]; simp only [Out.ok_bind, List.length_drop, List.drop_drop]
  rw [if_neg (by omega)]; simp only [Out.ok_bind, List.length_drop, List.drop_drop]
  rw [if_neg (by omega)]; simp only [Out.ok_bind, List.length_drop, List.drop_drop]
  rw [if_neg (by omega)]; simp only [Out.ok_bind]
  exact ⟨_, _, rfl, rfl, rfl⟩

/-- C11. Packets that are not requests are rejected by the request unpacker, whatever follows. -/
theorem C11_wrong_direction_request (heap : Nat) (buf : Bytes) (h : 24 ≤ buf.length)
    (hd : field 0 4 buf ≠ 1) : rdReq heap buf = .err := by
  obtain ⟨x, rest, hx, h1, -⟩ := rdHeader_fields buf h
  unfold rdReq
  rw [hx, Out.ok_bind]
  simp only
  rw [if_pos (by rw [h1]; exact hd)]

/-- C11. Packets that are not responses are rejected by the response unpacker. -/
theorem C11_wrong_direction_response (heap : Nat) (buf : Bytes) (h : 24 ≤ buf.length)
    (hd : field 0 4 buf ≠ 2) : rdRes heap buf = .err := by
  obtain ⟨x, rest, hx, h1, -⟩ := rdHeader_fields buf h
  unfold rdRes
  rw [hx, Out.ok_bind]
  simp only
  rw [if_pos (by rw [h1]; exact hd)]

/-- C11. Unknown operations are rejected by both. -/
theorem C11_unknown_op (heap : Nat) (buf : Bytes) (h : 24 ≤ buf.length)
    (hop : field 4 4 buf ∉ [0, 1, 2, 3, 5]) : rdReq heap buf = .err ∧ rdRes heap buf = .err := by
  obtain ⟨x, rest, hx, -, h2⟩ := rdHeader_fields buf h
  have hop : x.op ≠ 0 ∧ x.op ≠ 1 ∧ x.op ≠ 2 ∧ x.op ≠ 3 ∧ x.op ≠ 5 := by
    rw [h2]; simpa using hop
  obtain ⟨a, b, c, d, e⟩ := hop
  unfold rdReq rdRes
  rw [hx]
  simp only [Out.ok_bind, opPut, opGet, opGetOp, opDelete, opHistogram, a, b, c, d, e, if_false, ite_self,
    and_self]

/-- C11. A request is never taken for a response and a response never for a request. -/
theorem C11_directions_disjoint (heap : Nat) (r : Req) (s : Res) (w junk : Bytes) (hw : s.pack = .ok w) :
    rdRes heap (r.pack ++ junk) = .err ∧ rdReq heap (w ++ junk) = .err := by
  have key : ∀ (dir op : Nat) (src dst : Int) (count : Nat) (rest : Bytes), dir < 256 ^ 4 →
      24 ≤ (packHeader dir op src dst count ++ rest).length ∧
      field 0 4 (packHeader dir op src dst count ++ rest) = dir := by
    intro dir op src dst count rest hdir
    refine ⟨by rw [List.length_append, length_header]; omega, ?_⟩
    unfold field packHeader
    simp only [List.drop_zero, List.append_assoc]
    rw [List.take_left' (length_leBytes 4 dir), leVal_leBytes 4 dir hdir]
  constructor
  · obtain ⟨h1, h2⟩ := key dirRequest r.body.op r.src r.dst r.body.count (r.body.pack ++ junk) (by decide)
    unfold Req.pack
    rw [List.append_assoc]
    exact C11_wrong_direction_response heap _ h1 (by rw [h2]; decide)
  · unfold Res.pack at hw
    cases hb : s.body.pack with
    | err => rw [hb] at hw; simp at hw
    | ub => rw [hb] at hw; simp at hw
    | ok b =>
      rw [hb, Out.ok_bind] at hw
      cases hw
      obtain ⟨h1, h2⟩ := key dirResponse s.body.op s.src s.dst s.body.count (b ++ junk) (by decide)
      rw [List.append_assoc]
      exact C11_wrong_direction_request heap _ h1 (by rw [h2]; decide)

/-- The unpacker does not check that the header itself is inside the packet. -/
theorem C11_short_packet_ub (heap : Nat) (buf : Bytes) (h : buf.length < 24) :
    rdReq heap buf = .ub ∧ rdRes heap buf = .ub := by
  have : rdHeader buf = .ub := by
    unfold rdHeader rdInt rdNat rd
    by_cases h1 : buf.length < 4
    · rw [if_pos h1]; rfl
    rw [if_neg h1]; simp only [Out.ok_bind, List.length_drop, List.drop_drop]
    by_cases h2 : buf.length - 4 < 4
    · rw [if_pos h2]; rfl
    rw [if_neg h2]; simp only [Out.ok_bind, List.length_drop, List.drop_drop]
    by_cases h3 : buf.length - (4 + 4) < 4
    · rw [if_pos h3]; rfl
    rw [if_neg h3]; simp only [Out.ok_bind, List.length_drop, List.drop_drop]
    by_cases h4 : buf.length - (4 + 4 + 4) < 4
    · rw [if_pos h4]; rfl
    rw [if_neg h4]; simp only [Out.ok_bind, List.length_drop, List.drop_drop]
    rw [if_pos (by omega)]; rfl
  unfold rdReq rdRes
  rw [this]
  exact ⟨rfl, rfl⟩

example : field 0 4 (Req.pack ⟨0, 1, .del []⟩) = 1 ∧ field 4 4 (Req.pack ⟨0, 1, .del []⟩) = 3 := by decide

/-- The numbers on the wire are those of the headers. -/
theorem C08_codes : [opPut, opGet, opGetOp, opDelete, opHistogram] = ["PUT", "GET", "GETOP", "DELETE", "HISTOGRAM"].map opNames.idxOf ∧
    [goEq, goNext, goPrev, goFirst, goLast, goLowest, goHighest] =
      ["EQ", "NEXT", "PREV", "FIRST", "LAST", "LOWEST", "HIGHEST"].map getOpNames.idxOf ∧
    [dirRequest, dirResponse] = ["REQUEST", "RESPONSE"].map directionNames.idxOf ∧
    (dsSuccess, dsError, dsUnset) = (1, 2, 3) := by decide

end Hx.Props

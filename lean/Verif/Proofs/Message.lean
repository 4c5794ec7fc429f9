import Verif.Spec.Wire

/-!
# Helper lemmas: every reader inverts its packer
-/

namespace Hx.Msg
open Hx Spec

/-- What `rdBlob` makes of a packed blob. -/
def arrived (heap : Nat) (withType : Bool) (b : Blob) : Blob :=
  ⟨copyAddr heap b.bytes.length, b.bytes, if withType then b.typ else 0⟩

theorem reads_blob (heap : Nat) (withType : Bool) {b : Blob} (h : Solid b) :
    Reads (rdBlob heap withType) (packBlob b withType) (arrived heap withType b) := by
  intro rest
  obtain ⟨⟨hl, ht, -⟩, ha⟩ := h
  unfold packBlob rdBlob
  rw [if_neg ha]
  simp only [List.append_assoc]
  rw [(reads_rdNat (show b.bytes.length < 256 ^ 8 by omega)).bind]
  simp only
  rw [(reads_rd b.bytes).bind]
  cases withType
  · simp [arrived]
  · simp only [if_true]
    rw [(reads_rdNat (show b.typ < 256 ^ 4 by omega)).bind]
    simp [arrived]

theorem reads_ref {r : Ref} (h : RefFits r) : Reads rdRef (packRef r) r := by
  intro rest
  obtain ⟨h1, h2, h3⟩ := h
  unfold packRef rdRef
  simp only [List.append_assoc]
  rw [(reads_rdNat (show r.addr < 256 ^ 8 by omega)).bind]
  simp only
  rw [(reads_rdNat (show r.len < 256 ^ 8 by omega)).bind]
  simp only
  rw [(reads_rdNat (show r.typ < 256 ^ 4 by omega)).bind]

theorem same_arrived (heap : Nat) (b : Blob) : SameData b (arrived heap true b) := ⟨rfl, rfl⟩

/-! ### Requests -/

def arrivedPut (heap : Nat) (x : PutItem) : PutItem :=
  ⟨arrived heap true x.subject, x.subject.addr, arrived heap true x.predicate, x.predicate.addr,
    arrived heap true x.object⟩

def arrivedGet (heap : Nat) (x : GetItem) : GetItem :=
  ⟨arrived heap true x.subject, x.subject.addr, arrived heap true x.predicate, x.predicate.addr,
    x.objType⟩

def arrivedDel (heap : Nat) (x : DelItem) : DelItem :=
  ⟨arrived heap true x.subject, x.subject.addr, arrived heap true x.predicate, x.predicate.addr⟩

def arrivedGetOp (heap : Nat) (x : GetOpItem) : GetOpItem :=
  if hasKey x.op then
    ⟨x.op, arrived heap true x.subject, arrived heap true x.predicate, x.objType, x.numRecs⟩
  else ⟨x.op, Blob.null, Blob.null, x.objType, x.numRecs⟩

theorem Solid.addr_lt {b : Blob} (h : Solid b) : b.addr < 256 ^ 8 := by
  have := h.1.2.2; omega

theorem reads_put (heap : Nat) (x : PutItem) (h1 : Solid x.subject) (h2 : Solid x.predicate)
    (h3 : Solid x.object) : Reads (rdPut heap) x.pack (arrivedPut heap x) := by
  intro rest
  unfold PutItem.pack rdPut
  simp only [List.append_assoc]
  rw [(reads_blob heap true h1).bind]; simp only
  rw [(reads_rdNat (Solid.addr_lt h1)).bind]; simp only
  rw [(reads_blob heap true h2).bind]; simp only
  rw [(reads_rdNat (Solid.addr_lt h2)).bind]; simp only
  rw [(reads_blob heap true h3).bind]; rfl

theorem reads_get (heap : Nat) (x : GetItem) (h1 : Solid x.subject) (h2 : Solid x.predicate)
    (h3 : x.objType < 2 ^ 32) : Reads (rdGet heap) x.pack (arrivedGet heap x) := by
  intro rest
  unfold GetItem.pack rdGet
  simp only [List.append_assoc]
  rw [(reads_blob heap true h1).bind]; simp only
  rw [(reads_rdNat (Solid.addr_lt h1)).bind]; simp only
  rw [(reads_blob heap true h2).bind]; simp only
  rw [(reads_rdNat (Solid.addr_lt h2)).bind]; simp only
  rw [(reads_rdNat (show x.objType < 256 ^ 4 by omega)).bind]; rfl

theorem reads_del (heap : Nat) (x : DelItem) (h1 : Solid x.subject) (h2 : Solid x.predicate) :
    Reads (rdDel heap) x.pack (arrivedDel heap x) := by
  intro rest
  unfold DelItem.pack rdDel
  simp only [List.append_assoc]
  rw [(reads_blob heap true h1).bind]; simp only
  rw [(reads_rdNat (Solid.addr_lt h1)).bind]; simp only
  rw [(reads_blob heap true h2).bind]; simp only
  rw [(reads_rdNat (Solid.addr_lt h2)).bind]; rfl

theorem hasKey_iff (op : Nat) : hasKey op = true ↔ op ≠ 3 ∧ op ≠ 4 := by
  unfold hasKey goFirst goLast; simp

theorem reads_getop (heap : Nat) (x : GetOpItem) (h0 : x.op < 2 ^ 32) (h1 : x.objType < 2 ^ 32)
    (h2 : x.numRecs < 2 ^ 64) (h3 : hasKey x.op = true → Solid x.subject ∧ Solid x.predicate) :
    Reads (rdGetOp heap) x.pack (arrivedGetOp heap x) := by
  intro rest
  unfold GetOpItem.pack rdGetOp arrivedGetOp
  simp only [List.append_assoc]
  rw [(reads_rdNat (show x.op < 256 ^ 4 by omega)).bind]; simp only
  by_cases hk : hasKey x.op = true
  · obtain ⟨hs, hp⟩ := h3 hk
    simp only [if_pos hk, List.append_assoc]
    rw [(reads_blob heap true hs).bind]; simp only
    rw [(reads_blob heap true hp).bind]; simp only [Out.ok_bind]
    rw [(reads_rdNat (show x.objType < 256 ^ 4 by omega)).bind]; simp only
    rw [(reads_rdNat (show x.numRecs < 256 ^ 8 by omega)).bind]
  · simp only [if_neg hk, List.nil_append, Out.ok_bind]
    rw [(reads_rdNat (show x.objType < 256 ^ 4 by omega)).bind]; simp only
    rw [(reads_rdNat (show x.numRecs < 256 ^ 8 by omega)).bind]

theorem reads_header {dir op : Nat} {src dst : Int} {count : Nat} (h1 : dir < 256 ^ 4)
    (h2 : op < 256 ^ 4) (h3 : IntRange src) (h4 : IntRange dst) (h5 : count < 2 ^ 64) :
    Reads rdHeader (packHeader dir op src dst count) ⟨dir, op, src, dst, count⟩ := by
  intro rest
  unfold packHeader rdHeader
  simp only [List.append_assoc]
  rw [(reads_rdNat h1).bind]; simp only
  rw [(reads_rdNat h2).bind]; simp only
  rw [(reads_rdInt h3).bind]; simp only
  rw [(reads_rdInt h4).bind]; simp only
  rw [(reads_rdNat (show count < 256 ^ 8 by omega)).bind]

def arrivedReqBody (heap : Nat) : ReqBody → ReqBody
  | .put l => .put (l.map (arrivedPut heap))
  | .get l => .get (l.map (arrivedGet heap))
  | .getop l => .getop (l.map (arrivedGetOp heap))
  | .del l => .del (l.map (arrivedDel heap))
  | .hist l => .hist (l.map (arrived heap false))

/-- The request the server sees. -/
def arrivedReq (heap : Nat) (r : Req) : Req := ⟨r.src, r.dst, arrivedReqBody heap r.body⟩

theorem reads_req (heap : Nat) (r : Req) (h : SendableReq r) :
    Reads (rdReq heap) r.pack (arrivedReq heap r) := by
  intro rest
  obtain ⟨h1, h2, h3, h4⟩ := h
  have hop : r.body.op < 256 ^ 4 := by
    cases r.body <;> simp [ReqBody.op, opPut, opGet, opGetOp, opDelete, opHistogram]
  unfold Req.pack rdReq
  simp only [List.append_assoc]
  rw [(reads_header (by unfold dirRequest; omega) hop h1 h2 h3).bind]
  obtain ⟨src, dst, body⟩ := r
  simp only [ne_eq, not_true_eq_false, if_false]
  cases body with
  | put l =>
    simp only [ReqBody.op]
    rw [if_pos trivial]
    simp only [ReqBody.count, ReqBody.pack]
    rw [(reads_rdMany l (fun x hx => reads_put heap x (h4 x hx).1 (h4 x hx).2.1 (h4 x hx).2.2)).bind]
    rfl
  | get l =>
    simp only [ReqBody.op]
    rw [if_neg (show ¬ (opGet = opPut) by decide), if_pos trivial]
    simp only [ReqBody.count, ReqBody.pack]
    rw [(reads_rdMany l (fun x hx => reads_get heap x (h4 x hx).1 (h4 x hx).2.1 (h4 x hx).2.2)).bind]
    rfl
  | getop l =>
    simp only [ReqBody.op]
    rw [if_neg (show ¬ (opGetOp = opPut) by decide), if_neg (show ¬ (opGetOp = opGet) by decide), if_pos trivial]
    simp only [ReqBody.count, ReqBody.pack]
    rw [(reads_rdMany l (fun x hx => reads_getop heap x (h4 x hx).1 (h4 x hx).2.1 (h4 x hx).2.2.1
      (fun hk => (h4 x hx).2.2.2 ((hasKey_iff _).mp hk)))).bind]
    rfl
  | del l =>
    simp only [ReqBody.op]
    rw [if_neg (show ¬ (opDelete = opPut) by decide), if_neg (show ¬ (opDelete = opGet) by decide), if_neg (show ¬ (opDelete = opGetOp) by decide), if_pos trivial]
    simp only [ReqBody.count, ReqBody.pack]
    rw [(reads_rdMany l (fun x hx => reads_del heap x (h4 x hx).1 (h4 x hx).2)).bind]
    rfl
  | hist l =>
    simp only [ReqBody.op]
    rw [if_neg (show ¬ (opHistogram = opPut) by decide), if_neg (show ¬ (opHistogram = opGet) by decide), if_neg (show ¬ (opHistogram = opGetOp) by decide), if_neg (show ¬ (opHistogram = opDelete) by decide), if_pos trivial]
    simp only [ReqBody.count, ReqBody.pack]
    rw [(reads_rdMany (enc := (packBlob · false)) l (fun x hx => reads_blob heap false (h4 x hx))).bind]
    rfl

theorem forall2_map {α β : Type} {R : α → β → Prop} (f : α → β) (l : List α)
    (h : ∀ x ∈ l, R x (f x)) : List.Forall₂ R l (l.map f) := by
  induction l with
  | nil => exact .nil
  | cons x l ih =>
    exact .cons (h x (by simp)) (ih fun y hy => h y (by simp [hy]))

theorem same_arrivedReq (heap : Nat) (r : Req) : SameReq r (arrivedReq heap r) := by
  refine ⟨rfl, rfl, ?_⟩
  obtain ⟨src, dst, body⟩ := r
  cases body with
  | put l => exact forall2_map _ l fun x _ => ⟨⟨rfl, rfl⟩, ⟨rfl, rfl⟩, ⟨rfl, rfl⟩, rfl, rfl⟩
  | get l => exact forall2_map _ l fun x _ => ⟨⟨rfl, rfl⟩, ⟨rfl, rfl⟩, rfl, rfl, rfl⟩
  | getop l =>
    refine forall2_map _ l fun x _ => ?_
    unfold arrivedGetOp
    by_cases hk : hasKey x.op = true
    · rw [if_pos hk]; exact ⟨rfl, rfl, rfl, fun _ => ⟨⟨rfl, rfl⟩, ⟨rfl, rfl⟩⟩⟩
    · rw [if_neg hk]; exact ⟨rfl, rfl, rfl, fun h => absurd ((hasKey_iff _).mpr h) hk⟩
  | del l => exact forall2_map _ l fun x _ => ⟨⟨rfl, rfl⟩, ⟨rfl, rfl⟩, rfl, rfl⟩
  | hist l => exact forall2_map _ l fun x _ => rfl

/-! ### Responses -/

theorem reads_status (x : StatusItem) (h1 : IntRange x.status) (h2 : RefFits x.subject)
    (h3 : RefFits x.predicate) : Reads rdStatus x.pack x := by
  intro rest
  unfold StatusItem.pack rdStatus
  simp only [List.append_assoc]
  rw [(reads_rdInt h1).bind]; simp only
  rw [(reads_ref h2).bind]; simp only
  rw [(reads_ref h3).bind]

def arrivedGetRes (heap : Nat) (x : GetRes) : GetRes :=
  ⟨x.status, x.subject, x.predicate, if x.status = dsSuccess then arrived heap true x.object else Blob.null⟩

theorem reads_getres (heap : Nat) (x : GetRes) (h1 : IntRange x.status) (h2 : RefFits x.subject)
    (h3 : RefFits x.predicate) (h4 : x.status = 1 → Solid x.object) :
    Reads (rdGetRes heap) x.pack (arrivedGetRes heap x) := by
  intro rest
  unfold GetRes.pack rdGetRes arrivedGetRes
  simp only [List.append_assoc]
  rw [(reads_rdInt h1).bind]; simp only
  rw [(reads_ref h2).bind]; simp only
  rw [(reads_ref h3).bind]; simp only
  by_cases hs : x.status = dsSuccess
  · simp only [if_pos hs]
    rw [(reads_blob heap true (h4 hs)).bind]
  · simp only [if_neg hs, List.nil_append]

def arrivedRec (heap : Nat) (status : Int) (x : Rec) : Rec :=
  ⟨arrived heap true x.subject, arrived heap true x.predicate,
    if status = dsSuccess then arrived heap true x.object else Blob.null⟩

theorem reads_rec (heap : Nat) (status : Int) (x : Rec) (h1 : Solid x.subject) (h2 : Solid x.predicate)
    (h3 : status = 1 → Solid x.object) :
    Reads (rdRec heap status) (x.pack status) (arrivedRec heap status x) := by
  intro rest
  unfold Rec.pack rdRec arrivedRec
  simp only [List.append_assoc]
  rw [(reads_blob heap true h1).bind]; simp only
  rw [(reads_blob heap true h2).bind]; simp only
  by_cases hs : status = dsSuccess
  · simp only [if_pos hs]
    rw [(reads_blob heap true (h3 hs)).bind]
  · simp only [if_neg hs, List.nil_append]

def arrivedGetOpRes (heap : Nat) (x : GetOpRes) : GetOpRes :=
  ⟨x.status, x.recs.map (arrivedRec heap x.status)⟩

theorem reads_getopres (heap : Nat) (x : GetOpRes) (h1 : IntRange x.status) (h2 : x.recs.length < 2 ^ 64)
    (h3 : ∀ r ∈ x.recs, Solid r.subject ∧ Solid r.predicate ∧ (x.status = 1 → Solid r.object)) :
    Reads (rdGetOpRes heap) x.pack (arrivedGetOpRes heap x) := by
  intro rest
  unfold GetOpRes.pack rdGetOpRes arrivedGetOpRes
  simp only [List.append_assoc]
  rw [(reads_rdInt h1).bind]; simp only
  rw [(reads_rdNat (show x.recs.length < 256 ^ 8 by omega)).bind]; simp only
  rw [(reads_rdMany x.recs (fun r hr => reads_rec heap x.status r (h3 r hr).1 (h3 r hr).2.1
    (h3 r hr).2.2)).bind]

/-! ### Histograms -/

theorem reads_dbl (x : Dbl) : Reads Hist.rdDbl (Hist.dblBytes x) x := by
  intro rest
  unfold Hist.rdDbl Hist.dblBytes
  rw [(reads_rdNat (show x.toNat < 256 ^ 8 by have := x.toNat_lt; omega)).bind]
  simp

/-- The histogram the receiver sees; `c0` is the cache of the object unpacked into. -/
def arrivedHist (g0 : Option Hist.Gen) (c0 : Option (List Dbl)) (h : Hist) : Hist :=
  ⟨h.name, h.firstN, g0, if h.count < h.firstN then h.cache else c0, h.count, h.buckets, h.counts, h.size⟩

theorem rdMany_map {α ι : Type} {f : Bytes → Out (α × Bytes)} {enc : ι → Bytes} {dec : ι → α}
    {n : Nat} (l : List ι) (hn : l.length = n) (h : ∀ x ∈ l, Reads f (enc x) (dec x)) :
    Reads (rdMany f n) (l.flatMap enc) (l.map dec) := hn ▸ reads_rdMany l h

theorem unpack_pack (h0 : Hist) {size : Nat} (hs : 32 ≤ size) (h : Hist) (hf : HistFits h)
    (rest : Bytes) :
    Hist.unpackIn h0 size (h.packBytes ++ rest) = .ok (some (arrivedHist h0.gen h0.cache h), rest) := by
  obtain ⟨f1, f2, f3, f4, f5, f6, f7⟩ := hf
  unfold Hist.unpackIn Hist.packBytes
  rw [if_neg (by omega)]
  simp only [List.append_assoc]
  rw [(reads_rdNat (show h.name.length < 256 ^ 8 by omega)).bind]; simp only
  rw [(reads_rd h.name).bind]; simp only
  rw [(reads_rdNat (show h.count < 256 ^ 8 by omega)).bind]; simp only
  rw [(reads_rdNat (show h.firstN < 256 ^ 8 by omega)).bind]; simp only
  by_cases hc : h.count < h.firstN
  · obtain ⟨hz, c, hcc, hcl⟩ := f5 hc
    obtain ⟨hb, hn⟩ := f6 hz
    have hpc : h.packedCache = c := by
      unfold Hist.packedCache; rw [if_pos hc, hcc]; simp [← hcl]
    rw [if_pos hc, hpc]
    rw [(rdMany_map (dec := id) c hcl (fun x _ => reads_dbl x)).bind]
    simp only [Out.ok_bind]
    rw [(reads_rdNat (show h.size < 256 ^ 8 by omega)).bind]
    simp [hz, arrivedHist, hc, hcc, hb, hn]
  · have hpc : h.packedCache = [] := by unfold Hist.packedCache; rw [if_neg hc]
    rw [if_neg hc, hpc]
    simp only [Out.ok_bind, List.flatMap_nil, List.nil_append]
    rw [(reads_rdNat (show h.size < 256 ^ 8 by omega)).bind]
    simp only
    by_cases hz : h.size = 0
    · obtain ⟨hb, hn⟩ := f6 hz
      simp [hz, arrivedHist, hc, hb, hn]
    · obtain ⟨b, c, hb, hn, hbl, hcl, hcn⟩ := f7 hz
      rw [if_neg hz, if_neg hc, if_neg hz, hb, hn]
      simp only [Option.getD_some, List.append_assoc]
      have hzl : ((b.take h.size).zip c).length = h.size := by simp [hbl, hcl]
      rw [(rdMany_map (dec := id) _ hzl (fun x hx => by
        intro rest
        simp only [List.append_assoc]
        rw [(reads_dbl x.1).bind]; simp only
        have := hcn x.2 (List.of_mem_zip hx).2
        rw [(reads_rdNat (show x.2 < 256 ^ 8 by omega)).bind]; rfl)).bind]
      simp only
      rw [(reads_dbl _).bind]
      simp only [arrivedHist, List.map_id, hb, hn, if_neg hc]
      have e1 : ((b.take h.size).zip c).map (·.1) = b.take h.size := by
        rw [List.map_fst_zip]; simp [hbl, hcl]
      have e2 : ((b.take h.size).zip c).map (·.2) = c := by
        rw [List.map_snd_zip]; simp [hbl, hcl]
      have e3 : b.take h.size ++ [b.getD h.size 0] = b := by
        have hlt : h.size < b.length := by omega
        rw [List.getD_eq_getElem?_getD, List.getElem?_eq_getElem hlt, Option.getD_some, List.take_append_getElem]
        exact List.take_of_length_le (by omega)
      rw [e1, e2, e3]

theorem length_flatMap_const {α : Type} (f : α → Bytes) (k : Nat) (l : List α)
    (h : ∀ x ∈ l, (f x).length = k) : (l.flatMap f).length = k * l.length := by
  induction l with
  | nil => simp
  | cons x l ih =>
    simp only [List.flatMap_cons, List.length_append, List.length_cons]
    rw [h x (by simp), ih fun y hy => h y (by simp [hy]), Nat.mul_succ]; omega

theorem length_packBytes_le (h : Hist) : h.packBytes.length ≤ h.packSize := by
  unfold Hist.packBytes Hist.packSize
  simp only [List.length_append, length_leBytes]
  have h1 : (h.packedCache.flatMap Hist.dblBytes).length ≤ if h.count < h.firstN then 8 * h.count else 0 := by
    rw [length_flatMap_const _ 8 _ (fun x _ => by simp [Hist.dblBytes])]
    unfold Hist.packedCache
    split
    · have := List.length_take_le h.count (h.cache.getD []); omega
    · simp
  have h2 : (if h.size = 0 then ([] : Bytes) else
      (((h.buckets.getD []).take h.size).zip (h.counts.getD [])).flatMap
        (fun x => Hist.dblBytes x.1 ++ leBytes 8 x.2)
      ++ Hist.dblBytes ((h.buckets.getD []).getD h.size 0)).length
      ≤ if h.size = 0 then 0 else h.size * 16 + 8 := by
    split
    · simp
    · rw [List.length_append, length_flatMap_const _ 16 _ (fun x _ => by simp [Hist.dblBytes])]
      have h3 := List.length_take_le h.size (h.buckets.getD [])
      have h4 : (((h.buckets.getD []).take h.size).zip (h.counts.getD [])).length
          ≤ ((h.buckets.getD []).take h.size).length := by
        rw [List.length_zip]; exact Nat.min_le_left _ _
      simp only [Hist.dblBytes, length_leBytes]
      omega
  omega

theorem length_packBytes {h : Hist} (hf : HistFits h) : h.packBytes.length = h.packSize := by
  obtain ⟨-, -, -, -, hc, -, hs⟩ := hf
  unfold Hist.packBytes Hist.packSize
  simp only [List.length_append, length_leBytes]
  have h1 : (h.packedCache.flatMap Hist.dblBytes).length = if h.count < h.firstN then 8 * h.count else 0 := by
    rw [length_flatMap_const _ 8 _ (fun x _ => by simp [Hist.dblBytes])]
    unfold Hist.packedCache
    split
    · next hlt =>
      obtain ⟨-, c, e, hl⟩ := hc hlt
      rw [e, Option.getD_some, List.length_take, hl, Nat.min_self, Nat.mul_comm]
    · rfl
  have h2 : (if h.size = 0 then ([] : Bytes) else
      (((h.buckets.getD []).take h.size).zip (h.counts.getD [])).flatMap
        (fun x => Hist.dblBytes x.1 ++ leBytes 8 x.2)
      ++ Hist.dblBytes ((h.buckets.getD []).getD h.size 0)).length
      = if h.size = 0 then 0 else h.size * 16 + 8 := by
    split
    · rfl
    · next hne =>
      obtain ⟨b, c, e1, e2, l1, l2, -⟩ := hs hne
      rw [List.length_append, length_flatMap_const _ 16 _ (fun x _ => by simp [Hist.dblBytes]), e1, e2]
      simp only [Option.getD_some, List.length_zip, List.length_take, l1, l2, Hist.dblBytes, length_leBytes]
      omega
  omega

theorem length_packBytes_ge (h : Hist) : 32 ≤ h.packBytes.length := by
  unfold Hist.packBytes
  simp only [List.length_append, length_leBytes]
  omega

/-- What the packer writes for a histogram response: given enough room every histogram is packed. -/
def histResBytes (x : HistRes) : Bytes :=
  intBytes x.status ++ (if x.status = dsSuccess then (x.hist.map Hist.packBytes).getD [] else [])

theorem packHists_eq (l : List HistRes) (avail : Nat)
    (hl : ∀ x ∈ l, x.status = dsSuccess → x.hist ≠ none) (ha : (l.map HistRes.size).sum ≤ avail) :
    packHists l avail = .ok (l.flatMap histResBytes) := by
  induction l generalizing avail with
  | nil => simp [packHists]
  | cons x l ih =>
    have hl' : ∀ y ∈ l, y.status = dsSuccess → y.hist ≠ none := fun y hy => hl y (by simp [hy])
    simp only [List.map_cons, List.sum_cons] at ha
    unfold packHists
    by_cases hs : x.status = dsSuccess
    · rw [if_pos hs]
      obtain ⟨h, hh⟩ := Option.ne_none_iff_exists'.mp (hl x (by simp) hs)
      have hsz : x.size = 4 + h.packSize := by unfold HistRes.size; rw [if_pos hs, hh]; rfl
      rw [hh]
      simp only
      have := length_packBytes_le h
      unfold Hist.packIn
      rw [if_neg (by omega)]
      simp only
      rw [ih _ hl' (by omega), Out.ok_bind]
      simp [histResBytes, hs, hh]
    · rw [if_neg hs, ih avail hl' (by omega), Out.ok_bind]
      simp [histResBytes, hs]

def arrivedHistRes (x : HistRes) : HistRes :=
  ⟨x.status, if x.status = dsSuccess then x.hist.map (arrivedHist none none) else none⟩

theorem reads_histres {remaining : Nat} (hr : 32 ≤ remaining) (x : HistRes) (h1 : IntRange x.status)
    (h2 : x.status = 1 → ∃ h, x.hist = some h ∧ HistFits h) :
    Reads (rdHistRes remaining) (histResBytes x) (arrivedHistRes x) := by
  intro rest
  unfold rdHistRes histResBytes arrivedHistRes
  simp only [List.append_assoc]
  rw [(reads_rdInt h1).bind]; simp only
  by_cases hs : x.status = dsSuccess
  · obtain ⟨h, hh, hf⟩ := h2 hs
    simp only [if_pos hs, hh, Option.map_some, Option.getD_some]
    rw [unpack_pack _ hr h hf]
    rfl
  · simp only [if_neg hs, List.nil_append]

/-! ### Whole responses -/

/-- The bytes a response packs to, when every successful histogram entry has its histogram. -/
def resBodyBytes : ResBody → Bytes
  | .put l => l.flatMap StatusItem.pack
  | .get l => l.flatMap GetRes.pack
  | .getop l => l.flatMap GetOpRes.pack
  | .del l => l.flatMap StatusItem.pack
  | .hist l => l.flatMap histResBytes

theorem resPack_eq (r : Res) (h : ∀ l, r.body = .hist l → ∀ x ∈ l, x.status = dsSuccess → x.hist ≠ none) :
    r.pack = .ok (packHeader dirResponse r.body.op r.src r.dst r.body.count ++ resBodyBytes r.body) := by
  obtain ⟨src, dst, body⟩ := r
  unfold Res.pack
  cases body with
  | hist l =>
    simp only [ResBody.pack]
    rw [packHists_eq l _ (h l rfl) (by simp [ResBody.size])]
    rfl
  | _ => rfl

def arrivedResBody (heap : Nat) : ResBody → ResBody
  | .put l => .put l
  | .get l => .get (l.map (arrivedGetRes heap))
  | .getop l => .getop (l.map (arrivedGetOpRes heap))
  | .del l => .del l
  | .hist l => .hist (l.map arrivedHistRes)

def arrivedRes (heap : Nat) (r : Res) : Res := ⟨r.src, r.dst, arrivedResBody heap r.body⟩

theorem length_header (dir op : Nat) (src dst : Int) (count : Nat) :
    (packHeader dir op src dst count).length = 24 := by
  unfold packHeader; simp

theorem reads_hists (l : List HistRes)
    (h : ∀ x ∈ l, IntRange x.status ∧ (x.status = 1 → ∃ h, x.hist = some h ∧ HistFits h))
    (remaining : Nat) (hr : (l.flatMap histResBytes).length ≤ remaining) (rest : Bytes) :
    rdMany (rdHistRes remaining) l.length (l.flatMap histResBytes ++ rest)
      = .ok (l.map arrivedHistRes, rest) := by
  by_cases h32 : 32 ≤ remaining
  · exact reads_rdMany l (fun x hx => reads_histres h32 x (h x hx).1 (h x hx).2) rest
  · refine reads_rdMany l (fun x hx => ?_) rest
    by_cases hs : x.status = dsSuccess
    · exfalso
      obtain ⟨hh, hx', -⟩ := (h x hx).2 hs
      have h1 := length_packBytes_ge hh
      have h2 : (histResBytes x).length ≤ (l.flatMap histResBytes).length := by
        obtain ⟨l1, l2, rfl⟩ := List.append_of_mem hx
        simp only [List.flatMap_append, List.flatMap_cons, List.length_append]; omega
      have h3 : (histResBytes x).length = 4 + hh.packBytes.length := by
        unfold histResBytes; simp [hs, hx']
      omega
    · intro rest
      unfold rdHistRes histResBytes arrivedHistRes
      simp only [List.append_assoc]
      rw [(reads_rdInt (h x hx).1).bind]
      simp only [if_neg hs, List.nil_append]

theorem reads_res (heap : Nat) (r : Res) (h : SendableRes r) :
    ∃ w, r.pack = .ok w ∧ Reads (rdRes heap) w (arrivedRes heap r) := by
  obtain ⟨h1, h2, h3, h4⟩ := h
  have hop : r.body.op < 256 ^ 4 := by
    cases r.body <;> simp [ResBody.op, opPut, opGet, opGetOp, opDelete, opHistogram]
  refine ⟨_, resPack_eq r ?_, ?_⟩
  · intro l hl x hx hs
    rw [hl] at h4
    obtain ⟨h, hh, -⟩ := (h4 x hx).2 hs
    simp [hh]
  intro rest
  unfold rdRes
  simp only [List.append_assoc]
  rw [(reads_header (by unfold dirResponse; omega) hop h1 h2 h3).bind]
  obtain ⟨src, dst, body⟩ := r
  simp only [ne_eq, not_true_eq_false, if_false]
  cases body with
  | put l =>
    simp only [ResBody.op]
    rw [if_pos trivial]
    simp only [ResBody.count, resBodyBytes]
    rw [(reads_rdMany (dec := id) l (fun x hx => reads_status x (h4 x hx).1 (h4 x hx).2.1 (h4 x hx).2.2)).bind]
    simp [arrivedRes, arrivedResBody]
  | get l =>
    simp only [ResBody.op]
    rw [if_neg (show ¬ (opGet = opPut) by decide), if_pos trivial]
    simp only [ResBody.count, resBodyBytes]
    rw [(reads_rdMany l (fun x hx => reads_getres heap x (h4 x hx).1 (h4 x hx).2.1 (h4 x hx).2.2.1
      (h4 x hx).2.2.2)).bind]
    rfl
  | getop l =>
    simp only [ResBody.op]
    rw [if_neg (show ¬ (opGetOp = opPut) by decide), if_neg (show ¬ (opGetOp = opGet) by decide),
      if_pos trivial]
    simp only [ResBody.count, resBodyBytes]
    rw [(reads_rdMany l (fun x hx => reads_getopres heap x (h4 x hx).1 (h4 x hx).2.1 (h4 x hx).2.2)).bind]
    rfl
  | del l =>
    simp only [ResBody.op]
    rw [if_neg (show ¬ (opDelete = opPut) by decide), if_neg (show ¬ (opDelete = opGet) by decide),
      if_neg (show ¬ (opDelete = opGetOp) by decide), if_pos trivial]
    simp only [ResBody.count, resBodyBytes]
    rw [(reads_rdMany (dec := id) l (fun x hx => reads_status x (h4 x hx).1 (h4 x hx).2.1 (h4 x hx).2.2)).bind]
    simp [arrivedRes, arrivedResBody]
  | hist l =>
    simp only [ResBody.op]
    rw [if_neg (show ¬ (opHistogram = opPut) by decide), if_neg (show ¬ (opHistogram = opGet) by decide),
      if_neg (show ¬ (opHistogram = opGetOp) by decide), if_neg (show ¬ (opHistogram = opDelete) by decide),
      if_pos trivial]
    simp only [ResBody.count, resBodyBytes]
    rw [reads_hists l h4 _ (by simp only [List.length_append, length_header, headerSize]; omega)]
    rfl

theorem same_arrivedRes (heap : Nat) (r : Res) (h : SendableRes r) : SameRes r (arrivedRes heap r) := by
  refine ⟨rfl, rfl, ?_⟩
  obtain ⟨-, -, -, h4⟩ := h
  obtain ⟨src, dst, body⟩ := r
  cases body with
  | put l => exact rfl
  | get l =>
    refine forall2_map _ l fun x _ => ⟨rfl, rfl, rfl, fun hs => ?_⟩
    simp only [arrivedGetRes, if_pos (show x.status = dsSuccess from hs)]; exact ⟨rfl, rfl⟩
  | getop l =>
    refine forall2_map _ l fun x _ => ⟨rfl, ?_⟩
    refine forall2_map _ x.recs fun y _ => ⟨⟨rfl, rfl⟩, ⟨rfl, rfl⟩, fun hs => ?_⟩
    simp only [arrivedRec, if_pos (show x.status = dsSuccess from hs)]; exact ⟨rfl, rfl⟩
  | del l => exact rfl
  | hist l =>
    refine forall2_map _ l fun x hx => ⟨rfl, fun hs => ?_⟩
    obtain ⟨hh, hx', -⟩ := (h4 x hx).2 hs
    refine ⟨hh, arrivedHist none none hh, hx', ?_, rfl, rfl, rfl, rfl, ?_, rfl, rfl⟩
    · simp only [arrivedHistRes, if_pos (show x.status = dsSuccess from hs), hx', Option.map_some]
    · intro hc; simp [arrivedHist, hc]

end Hx.Msg

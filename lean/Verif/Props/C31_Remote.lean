import Verif.Proofs.Remote
import Verif.Props.C29_Flush
import Verif.Props.C12_Store

/-!
# C31: the same results from the calling rank and from another rank
-/

namespace Hx.Props
open Hx Msg Spec Process Store Results

/-- Executing the copy of a request on a range server. -/
theorem serve_arrived (cb : Callbacks) (heap h : Nat) (w : World) (rank : Int) (req : Req)
    (hc : ClientReq cb h req.body) :
    OutRel (fun a b => a.1 = b.1 ∧ a.2.src = b.2.src ∧ a.2.dst = b.2.dst ∧ BodyEcho h req.body a.2.body b.2.body)
      (World.serve cb heap w rank req) (World.serve cb heap w rank (arrivedReq h req)) := by
  unfold World.serve rangeServer
  by_cases h0 : (w.ds rank).length = 0
  · simp [h0, OutRel]
  · rw [if_neg h0, if_neg h0]
    have hd : (arrivedReq h req).dst = req.dst := rfl
    have hs : (arrivedReq h req).src = req.src := rfl
    have hb : (arrivedReq h req).body = arrivedReqBody h req.body := rfl
    simp only [hd, hs, hb]
    cases hi : (w.ds rank)[(req.dst % ((w.ds rank).length : Int)).toNat]? with
    | none => exact True.intro
    | some d =>
      have hop := operate_arrived (heap := heap) (w.wr w.served) d req.body hc
      have hel : emptyLike (arrivedReqBody h req.body) = emptyLike req.body := by cases req.body <;> rfl
      simp only [hel]
      revert hop
      cases d.operate cb heap (w.wr w.served) req.body <;>
        cases d.operate cb heap (w.wr w.served) (arrivedReqBody h req.body) <;> intro hop <;>
        first | exact hop.elim | exact True.intro | skip
      obtain ⟨h1, h2⟩ := hop
      refine ⟨?_, rfl, rfl, h2⟩
      simp only [h1]

private theorem echo_sendable {h : Nat} (hh : h ≠ 0) (hh' : h < 2 ^ 64) {x : GetOpItem} {a b : GetOpRes}
    (he : Echo x (arrivedGetOp h x) a b)
    (hx : x.op ≠ 3 ∧ x.op ≠ 4 → Solid x.subject ∧ Solid x.predicate)
    (hk : a.status = 1 ∨ (x.op ≠ 3 ∧ x.op ≠ 4 ∧ x.subject.bytes ≠ [] ∧ x.predicate.bytes ≠ []))
    (ha : IntRange a.status ∧ a.recs.length < 2 ^ 64 ∧
      ∀ r ∈ a.recs, Solid r.subject ∧ Solid r.predicate ∧ (a.status = 1 → Solid r.object)) :
    SameGetOpRes a b ∧ IntRange b.status ∧ b.recs.length < 2 ^ 64 ∧
      ∀ r ∈ b.recs, Solid r.subject ∧ Solid r.predicate ∧ (b.status = 1 → Solid r.object) := by
  rcases he with ⟨rfl, hs⟩ | ⟨hs, hs', pre, h1, h2⟩
  · refine ⟨⟨rfl, ?_⟩, ha⟩
    exact List.forall₂_same.mpr (fun r _ => ⟨⟨rfl, rfl⟩, ⟨rfl, rfl⟩, fun _ => ⟨rfl, rfl⟩⟩)
  · obtain ⟨ho3, ho4, hsb, hpb⟩ : x.op ≠ 3 ∧ x.op ≠ 4 ∧ x.subject.bytes ≠ [] ∧ x.predicate.bytes ≠ [] := by
      rcases hk with hk | hk
      · rw [hs] at hk; cases hk
      · exact hk
    have hkey : hasKey x.op = true := by simp [hasKey, goFirst, goLast, ho3, ho4]
    have es : (arrivedGetOp h x).subject = arrived h true x.subject := by unfold arrivedGetOp; rw [if_pos hkey]
    have ep : (arrivedGetOp h x).predicate = arrived h true x.predicate := by unfold arrivedGetOp; rw [if_pos hkey]
    obtain ⟨hxs, hxp⟩ := hx ⟨ho3, ho4⟩
    have arr : ∀ y : Blob, Solid y → y.bytes ≠ [] → Solid (arrived h true y) := by
      intro y hy hne
      have : copyAddr h y.bytes.length = h := by rw [copyAddr_eq, if_neg hne]
      refine ⟨⟨hy.1.1, by simpa [arrived] using hy.1.2.1, ?_⟩, ?_⟩
      · simp only [arrived, this]; exact hh'
      · simp only [arrived, this]; exact hh
    rw [es, ep] at h2
    have refl : List.Forall₂ (SameRec a.status) pre pre :=
      List.forall₂_same.mpr (fun r _ => ⟨⟨rfl, rfl⟩, ⟨rfl, rfl⟩, fun _ => ⟨rfl, rfl⟩⟩)
    refine ⟨⟨by rw [hs, hs'], ?_⟩, by rw [hs']; rw [hs] at ha; exact ha.1, ?_, ?_⟩
    · rw [h1, h2]
      exact List.rel_append refl
        (List.Forall₂.cons ⟨⟨rfl, rfl⟩, ⟨rfl, rfl⟩, fun _ => ⟨rfl, rfl⟩⟩ List.Forall₂.nil)
    · have := ha.2.1
      rw [h1] at this
      rw [h2]
      simpa using this
    · intro r hr
      rw [h2] at hr
      rcases List.mem_append.mp hr with hr | hr
      · have := ha.2.2 r (by rw [h1]; exact List.mem_append_left _ hr)
        refine ⟨this.1, this.2.1, fun h' => ?_⟩
        rw [hs'] at h'; cases h'
      · rw [List.mem_singleton] at hr
        subst hr
        exact ⟨arr _ hxs hsb, arr _ hxp hpb, fun h' => by rw [hs'] at h'; cases h'⟩

private theorem echoed_sendable {h : Nat} (hh : h ≠ 0) (hh' : h < 2 ^ 64) {l : List GetOpItem} {as bs : List GetOpRes}
    (he : Echoed h l as bs)
    (hx : ∀ x ∈ l, x.op ≠ 3 ∧ x.op ≠ 4 → Solid x.subject ∧ Solid x.predicate)
    (hk : List.Forall₂ (fun (x : GetOpItem) (y : GetOpRes) => y.status = 1 ∨
      (x.op ≠ 3 ∧ x.op ≠ 4 ∧ x.subject.bytes ≠ [] ∧ x.predicate.bytes ≠ [])) l as)
    (ha : SendableResBody (.getop as)) :
    List.Forall₂ SameGetOpRes as bs ∧ as.length = bs.length ∧ SendableResBody (.getop bs) := by
  induction he with
  | nil => exact ⟨List.Forall₂.nil, rfl, fun x hx => by cases hx⟩
  | @cons x l a b as bs e _ ih =>
    obtain ⟨k1, k2⟩ := List.forall₂_cons.mp hk
    obtain ⟨i1, i2, i3⟩ := ih (fun y hy => hx y (by simp [hy])) k2 (fun y hy => ha y (by simp [hy]))
    obtain ⟨j1, j2⟩ := echo_sendable hh hh' e (hx x (by simp)) k1 (ha a (by simp))
    refine ⟨List.Forall₂.cons j1 i1, by simp [i2], ?_⟩
    intro y hy
    rcases List.mem_cons.mp hy with rfl | hy
    · exact j2
    · exact i3 y hy

private theorem same_refl_getop (l : List GetOpRes) : List.Forall₂ SameGetOpRes l l :=
  List.forall₂_same.mpr fun _ _ => ⟨rfl, List.forall₂_same.mpr fun _ _ =>
    ⟨⟨rfl, rfl⟩, ⟨rfl, rfl⟩, fun _ => ⟨rfl, rfl⟩⟩⟩

private theorem same_trans {a b c : List GetOpRes} (h1 : List.Forall₂ SameGetOpRes a b)
    (h2 : List.Forall₂ SameGetOpRes b c) : List.Forall₂ SameGetOpRes a c := by
  induction h1 generalizing c with
  | nil => exact h2
  | @cons x y l m hxy _ ih =>
    obtain ⟨z, n, hyz, hmn, rfl⟩ := List.forall₂_cons_left_iff.mp h2
    refine List.Forall₂.cons ⟨hxy.1.trans hyz.1, ?_⟩ (ih hmn)
    obtain ⟨xs, xr⟩ := x
    obtain ⟨ys, yr⟩ := y
    obtain ⟨zs, zr⟩ := z
    obtain ⟨e1, f1⟩ := hxy
    obtain ⟨e2, f2⟩ := hyz
    simp only at e1 e2 f1 f2
    subst e1 e2
    clear ih h2 hmn
    induction f1 generalizing zr with
    | nil => exact f2
    | @cons r s rs ss hrs _ ih' =>
      obtain ⟨t, ts, hst, hts, rfl⟩ := List.forall₂_cons_left_iff.mp f2
      exact List.Forall₂.cons ⟨⟨hrs.1.1.trans hst.1.1, hrs.1.2.trans hst.1.2⟩,
        ⟨hrs.2.1.1.trans hst.2.1.1, hrs.2.1.2.trans hst.2.1.2⟩,
        fun h => ⟨(hrs.2.2 h).1.trans (hst.2.2 h).1, (hrs.2.2 h).2.trans (hst.2.2 h).2⟩⟩ (ih' ts hts)

/-- C31, partial: a request that would be answered with `res` by a function call leaves the range
servers in the same state and is answered with the same results when it is packed, sent, unpacked and
executed on another rank, and the response comes back the same way. Missing: requests and responses
the packer can not send (null pointers and data of length zero), as in the theorems below; encodings
that depend on addresses; failing FIRST and LAST. -/
theorem C31_same_results_partial (cb : Callbacks) (heap : Nat) (net : Net) (w w' : World) (rank : Int) (req : Req)
    (res : Res) (hh : net.heap ≠ 0) (hh' : net.heap < 2 ^ 64)
    (hreq : SendableReq req) (hc : ClientReq cb net.heap req.body)
    (hl : World.serve cb heap w rank req = .ok (w', res)) (hres : SendableRes res)
    (hk : FailsWithKey req.body res.body) :
    ∃ res', remoteServe net (World.serve cb heap) w rank req = .ok (w', some res') ∧ SameRes res res' := by
  have h := serve_arrived cb heap net.heap w rank req hc
  rw [hl] at h
  cases hr : World.serve cb heap w rank (arrivedReq net.heap req) with
  | err => rw [hr] at h; exact h.elim
  | ub => rw [hr] at h; exact h.elim
  | ok y =>
    rw [hr] at h
    obtain ⟨h1, h2, h3, h4⟩ := h
    obtain ⟨w2, res2⟩ := y
    simp only at h1 h2 h3 h4
    subst h1
    have key : SendableRes res2 ∧ SameResBody res.body res2.body ∧
        (∀ c, SameResBody res2.body c → SameResBody res.body c) := by
      obtain ⟨r1, r2, r3, r4⟩ := hres
      obtain ⟨q1, q2, q3, q4⟩ := hreq
      obtain ⟨rs, rd, rb⟩ := res
      obtain ⟨ss, sd, sb⟩ := res2
      obtain ⟨qs, qd, qb⟩ := req
      simp only at h2 h3 h4 r1 r2 r3 r4 q4 hk
      subst h2 h3
      have easy : rb = sb → SendableRes ⟨rs, rd, sb⟩ ∧ SameResBody rb sb ∧
          (∀ c, SameResBody sb c → SameResBody rb c) := by
        rintro rfl
        refine ⟨⟨r1, r2, r3, r4⟩, ?_, fun c hc => hc⟩
        cases rb with
        | put l => rfl
        | del l => rfl
        | get l => exact List.forall₂_same.mpr fun _ _ => ⟨rfl, rfl, rfl, fun _ => ⟨rfl, rfl⟩⟩
        | getop l => exact same_refl_getop l
        | hist l =>
          refine List.forall₂_same.mpr fun x hx => ⟨rfl, fun hs => ?_⟩
          obtain ⟨g, hg, -⟩ := (r4 x hx).2 hs
          exact ⟨g, g, hg, hg, rfl, rfl, rfl, rfl, fun _ => rfl, rfl, rfl⟩
      cases qb with
      | getop l =>
        cases rb with
        | getop a =>
          cases sb with
          | getop b =>
            rcases h4 with h4 | ⟨rfl, rfl⟩
            · obtain ⟨f1, f2, f3⟩ := echoed_sendable hh hh' h4 (fun x hx => (q4 x hx).2.2.2) hk r4
              refine ⟨⟨r1, r2, ?_, f3⟩, f1, ?_⟩
              · simp only [ResBody.count] at r3 ⊢; omega
              · intro c hc
                cases c with
                | getop c => exact same_trans f1 hc
                | _ => exact hc.elim
            · exact easy rfl
          | _ => exact easy h4
        | _ => exact easy h4
      | put l => exact easy h4
      | get l => exact easy h4
      | del l => exact easy h4
      | hist l => exact easy h4
    obtain ⟨hs2, -, htr⟩ := key
    obtain ⟨wb, hp, hrd⟩ := reads_res net.heap res2 hs2
    have hsame := same_arrivedRes net.heap res2 hs2
    refine ⟨arrivedRes net.heap res2, ?_, ?_⟩
    · unfold remoteServe
      rw [reads_req net.heap req hreq]
      simp only [hr, Out.ok_bind, hp]
      rw [hrd]
    · exact ⟨h2.trans hsame.1, h3.trans hsame.2.1, htr _ hsame.2.2⟩

/-- C31: what is not executed successfully by a function call is not executed successfully on another
rank either. -/
theorem C31_same_failures (cb : Callbacks) (heap : Nat) (net : Net) (w : World) (rank : Int) (req : Req)
    (hreq : SendableReq req) (hc : ClientReq cb net.heap req.body)
    (y : World × Option Res) (hr : remoteServe net (World.serve cb heap) w rank req = .ok y) :
    ∃ res, World.serve cb heap w rank req = .ok (y.1, res) := by
  have h := serve_arrived cb heap net.heap w rank req hc
  unfold remoteServe at hr
  rw [reads_req net.heap req hreq] at hr
  simp only at hr
  obtain ⟨x, hx, hr⟩ := ok_iff.mp hr
  obtain ⟨b, hb, hr⟩ := ok_iff.mp hr
  have hy : y.1 = x.1 := by
    split at hr
    · cases hr; rfl
    · cases hr; rfl
    · cases hr
  rw [hx] at h
  cases hl : World.serve cb heap w rank req with
  | err => rw [hl] at h; exact h.elim
  | ub => rw [hl] at h; exact h.elim
  | ok z =>
    rw [hl] at h
    exact ⟨z.2, by rw [hy, ← h.1]⟩

/-- The default callbacks can not tell a copy from the original, but for numbers of length zero. -/
theorem C31_default_callbacks (neg pos : UInt8) (f : FloatCodec) (heap : Nat) (hh : heap ≠ 0) (b : Blob)
    (hb : b.addr ≠ 0) (hd : b.bytes ≠ [] ∨ isNumeric b.typ = false) :
    Portable (defaultCallbacks neg pos f) heap b := by
  unfold Portable defaultCallbacks
  simp only
  by_cases hbytes : b.bytes = []
  · have hn : isNumeric b.typ = false := by
      rcases hd with hd | hd
      · exact absurd hbytes hd
      · exact hd
    have h1 : intType b.typ = none ∧ ¬ (b.typ = tFloat ∨ b.typ = tDouble) := by
      simp [isNumeric] at hn
      obtain ⟨⟨⟨⟨⟨n1, n2⟩, n3⟩, n4⟩, n5⟩, n6⟩ := hn
      simp [intType, n1, n2, n3, n4, n5, n6]
    simp only [h1.1, if_neg h1.2]
  · simp only [if_neg hbytes, hh, hb, if_false, Blob.val]

/-! ## What the user sees -/

/-- The same data as seen through the accessors: references to the client's memory are equal, copies
have the same bytes and type. -/
def SameDatum : Datum → Datum → Prop
  | .ref a, .ref b => a = b
  | .own a, .own b => SameData a b
  | _, _ => False

def SameView (a b : View) : Prop :=
  a.kind = b.kind ∧ a.rs = b.rs ∧ a.success = b.success ∧ SameDatum a.subject b.subject ∧
  SameDatum a.predicate b.predicate ∧ (∀ x, a.object = some x → ∃ y, b.object = some y ∧ SameDatum x y) ∧
  (a.object = none → b.object = none)

private theorem own_null : SameDatum (.own Blob.null) (.own Blob.null) := ⟨rfl, rfl⟩

/-- C31: the same responses are the same results. -/
theorem C31_same_views (a b : Res) (h : SameRes a b) : List.Forall₂ SameView (expected a) (expected b) := by
  obtain ⟨as, ad, ab⟩ := a
  obtain ⟨bs, bd, bb⟩ := b
  obtain ⟨h1, h2, h3⟩ := h
  simp only at h1 h2
  subst h1 h2
  cases ab with
  | put l =>
    cases bb with
    | put m =>
      cases (show l = m from h3)
      exact List.forall₂_same.mpr (fun v hv => by
        obtain ⟨x, -, rfl⟩ := List.mem_map.mp hv
        exact ⟨rfl, rfl, rfl, rfl, rfl, fun _ h => (by cases h), fun _ => rfl⟩)
    | _ => exact h3.elim
  | del l =>
    cases bb with
    | del m =>
      cases (show l = m from h3)
      exact List.forall₂_same.mpr (fun v hv => by
        obtain ⟨x, -, rfl⟩ := List.mem_map.mp hv
        exact ⟨rfl, rfl, rfl, rfl, rfl, fun _ h => (by cases h), fun _ => rfl⟩)
    | _ => exact h3.elim
  | get l =>
    cases bb with
    | get m =>
      have h4 : List.Forall₂ SameGetRes l m := h3
      clear h3
      simp only [expected]
      induction h4 with
      | nil => exact List.Forall₂.nil
      | @cons x y l m hxy _ ih =>
        obtain ⟨e1, e2, e3, e4⟩ := hxy
        refine List.Forall₂.cons ⟨rfl, rfl, by simp only [e1], e2, e3, ?_, ?_⟩ ih
        · intro d hd
          simp only at hd ⊢
          split at hd
          · rename_i hs
            cases hd
            exact ⟨.own y.object, by rw [if_pos (by rw [← e1]; exact hs)], e4 hs⟩
          · cases hd
        · intro hd
          simp only at hd ⊢
          split at hd
          · cases hd
          · rename_i hs
            rw [if_neg (by rw [← e1]; exact hs)]
    | _ => exact h3.elim
  | getop l =>
    cases bb with
    | getop m =>
      have h4 : List.Forall₂ SameGetOpRes l m := h3
      clear h3
      simp only [expected]
      induction h4 with
      | nil => exact List.Forall₂.nil
      | @cons x y l m hxy _ ih =>
        rw [List.flatMap_cons, List.flatMap_cons]
        refine List.rel_append ?_ ih
        obtain ⟨xs, xr⟩ := x
        obtain ⟨ys, yr⟩ := y
        obtain ⟨e1, e2⟩ := hxy
        simp only at e1 e2 ⊢
        rw [← e1]
        clear ih
        induction e2 with
        | nil => exact List.Forall₂.nil
        | @cons r s rs ss hrs _ ih' =>
          refine List.Forall₂.cons ⟨rfl, rfl, rfl, hrs.1, hrs.2.1, ?_, ?_⟩ ih'
          · intro d hd
            simp only at hd ⊢
            split at hd
            · rename_i hs
              cases hd
              exact ⟨.own s.object, by rw [if_pos hs], hrs.2.2 hs⟩
            · cases hd
          · intro hd
            simp only at hd ⊢
            split at hd
            · cases hd
            · rename_i hs
              rw [if_neg hs]
    | _ => exact h3.elim
  | hist l =>
    cases bb with
    | hist m =>
      have h4 : List.Forall₂ SameHistRes l m := h3
      clear h3
      simp only [expected]
      induction h4 with
      | nil => exact List.Forall₂.nil
      | @cons x y l m hxy _ ih =>
        exact List.Forall₂.cons ⟨rfl, rfl, by simp only [hxy.1], own_null, own_null, fun _ h => (by cases h),
          fun _ => rfl⟩ ih
    | _ => exact h3.elim

/-! ## Where C31 fails -/

private def oneDs (db : Db) : World := ⟨fun _ => [exDs .mem db], fun _ => true, 0⟩

private def twoRanks (fill : UInt8) : Net :=
  Layout.net ⟨2, 1, 1, 1⟩ 0 (.thallium (thalliumEndpoints ⟨2, 1, 1, 1⟩ 0 [])) id (fun _ => List.Perm.refl _) 4096
    (fun n => List.replicate n fill)

/-- What is seen of a response: status, bytes and type of the objects. -/
private def objects : Res → List (Int × Bytes × Nat)
  | ⟨_, _, .get l⟩ => l.map (fun x => (x.status, x.object.bytes, x.object.typ))
  | ⟨_, _, .getop l⟩ => l.flatMap (fun x => x.recs.map (fun y => (x.status, y.object.bytes, y.object.typ)))
  | _ => []

private def locally (w : World) (req : Req) : Out (List (Int × Bytes × Nat)) :=
  World.serve exCb 100 w 1 req >>= fun x => .ok (objects x.2)

private def remotely (fill : UInt8) (w : World) (req : Req) : Out (List (Int × Bytes × Nat)) :=
  remoteServe (twoRanks fill) (World.serve exCb 100) w 1 req >>= fun x => .ok (x.2.toList.flatMap objects)

private def exGetReq : Req := ⟨0, 1, .get [GetItem.make ⟨16, [1], 7⟩ ⟨32, [2], 7⟩ 7]⟩

/-- The contents of a datastore after a PUT of an object. -/
private def afterPut (o : Bytes) : Db := [(Key.spToKey ⟨[1], 7⟩ ⟨[2], 7⟩, appendType o 7)]

/-- C31 is false for objects of length zero: a local GET returns the object; from another rank the GET
is undefined or returns another type, depending on the contents of the response buffer. -/
theorem C31_empty_object_false :
    memPut exCb [] [exPut [1] [2] []] = .ok (afterPut [], [putReply (exPut [1] [2] []) dsSuccess]) ∧
    locally (oneDs (afterPut [])) exGetReq = .ok [(1, [], 7)] ∧
    remotely 0 (oneDs (afterPut [])) exGetReq = .ok [(1, [], 0)] ∧
    remotely 0xff (oneDs (afterPut [])) exGetReq = .ub := by
  refine ⟨by with_unfolding_all rfl, by decide +kernel, by decide +kernel, by decide +kernel⟩

/-- C31 is false for a FIRST that fails, here on an empty datastore. -/
theorem C31_first_false :
    locally (oneDs []) ⟨0, 1, .getop [⟨goFirst, ⟨16, [1], 7⟩, ⟨32, [2], 7⟩, 7, 1⟩]⟩ = .ok [(2, [], 0)] ∧
    remotely 0xff (oneDs []) ⟨0, 1, .getop [⟨goFirst, ⟨16, [1], 7⟩, ⟨32, [2], 7⟩, 7, 1⟩]⟩ = .ub := by
  refine ⟨by decide +kernel, by decide +kernel⟩

/-- The hypotheses of `C31_same_results_partial` are met by a GET of a stored object and of an absent
pair. -/
example : SendableReq ⟨0, 1, .get [GetItem.make ⟨16, [1], 7⟩ ⟨32, [2], 7⟩ 7, GetItem.make ⟨16, [1], 7⟩ ⟨48, [9], 7⟩ 7]⟩ ∧
    ClientReq exCb 4096 (.get [GetItem.make ⟨16, [1], 7⟩ ⟨32, [2], 7⟩ 7, GetItem.make ⟨16, [1], 7⟩ ⟨48, [9], 7⟩ 7]) ∧
    locally (oneDs (afterPut [3])) ⟨0, 1, .get [GetItem.make ⟨16, [1], 7⟩ ⟨32, [2], 7⟩ 7,
      GetItem.make ⟨16, [1], 7⟩ ⟨48, [9], 7⟩ 7]⟩ = .ok [(1, [3], 7), (2, [], 7)] ∧
    remotely 0 (oneDs (afterPut [3])) ⟨0, 1, .get [GetItem.make ⟨16, [1], 7⟩ ⟨32, [2], 7⟩ 7,
      GetItem.make ⟨16, [1], 7⟩ ⟨48, [9], 7⟩ 7]⟩ = .ok [(1, [3], 7), (2, [], 0)] := by
  refine ⟨⟨by decide, by decide, by decide, ?_⟩, ?_, by decide +kernel, by decide +kernel⟩
  · intro x hx
    simp only [List.mem_cons, List.not_mem_nil, or_false] at hx
    rcases hx with rfl | rfl <;> exact ⟨by decide, by decide, by decide⟩
  · intro x hx
    simp only [List.mem_cons, List.not_mem_nil, or_false] at hx
    rcases hx with rfl | rfl <;> exact ⟨rfl, rfl, rfl, rfl⟩

end Hx.Props

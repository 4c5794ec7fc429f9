import Verif.Props.C31_Remote

/-!
# C29: one result per queued operation
-/

namespace Hx.Props
open Hx Msg Spec Process Store Results

/-- Kind, datastore, subject and predicate of an operation or of a result. -/
abbrev Label := Kind × Int × Datum × Datum

/-- The labels of the operations of a request: PUTs, GETs and DELETEs with the client's data. -/
def asked (x : Req) : List Label :=
  match x.body with
  | .put l => l.map (fun y => (.put, x.dst, .ref ⟨y.subject.addr, y.subject.bytes.length, y.subject.typ⟩,
      .ref ⟨y.predicate.addr, y.predicate.bytes.length, y.predicate.typ⟩))
  | .get l => l.map (fun y => (.get, x.dst, .ref ⟨y.subject.addr, y.subject.bytes.length, y.subject.typ⟩,
      .ref ⟨y.predicate.addr, y.predicate.bytes.length, y.predicate.typ⟩))
  | .del l => l.map (fun y => (.del, x.dst, .ref ⟨y.subject.addr, y.subject.bytes.length, y.subject.typ⟩,
      .ref ⟨y.predicate.addr, y.predicate.bytes.length, y.predicate.typ⟩))
  | _ => []

/-- The label of a result. -/
def label (x : Result) : Label := (x.kind, x.rs, x.subject, x.predicate)

private def vlabel (v : View) : Label := (v.kind, v.rs, v.subject, v.predicate)

private theorem label_view (x : Result) : vlabel (view x) = label x := rfl

/-- PUTs, GETs and DELETEs. -/
def Plain3 : ReqBody → Prop
  | .put _ => True | .get _ => True | .del _ => True | _ => False

private theorem expected_labels {cb : Callbacks} {h : Nat} {req : Req} {res : Res} (hc : ClientReq cb h req.body)
    (hs : res.src = req.dst) (hm : Matches req.body res.body) (hp : Plain3 req.body) :
    (expected res).map vlabel = asked req ∧ ∀ g, res.body ≠ .getop g := by
  obtain ⟨qs, qd, qb⟩ := req
  obtain ⟨rs, rd, rb⟩ := res
  simp only at hs hm hp hc
  subst hs
  cases qb with
  | put l =>
    cases rb with
    | put r =>
      refine ⟨?_, by simp⟩
      simp only [expected, asked]
      have hm' : List.Forall₂ _ l r := hm
      clear hm hp
      induction hm' with
      | nil => rfl
      | @cons x y l r hxy _ ih =>
        obtain ⟨o1, o2, -⟩ := hc x (by simp)
        have ih := ih (fun z hz => hc z (by simp [hz]))
        simp only [List.map_cons, vlabel, hxy.1, hxy.2, o1, o2] at ih ⊢
        rw [← ih]
    | _ => exact hm.elim
  | get l =>
    cases rb with
    | get r =>
      refine ⟨?_, by simp⟩
      simp only [expected, asked]
      have hm' : List.Forall₂ _ l r := hm
      clear hm hp
      induction hm' with
      | nil => rfl
      | @cons x y l r hxy _ ih =>
        obtain ⟨o1, o2, -⟩ := hc x (by simp)
        have ih := ih (fun z hz => hc z (by simp [hz]))
        simp only [List.map_cons, vlabel, hxy.1, hxy.2, o1, o2] at ih ⊢
        rw [← ih]
    | _ => exact hm.elim
  | del l =>
    cases rb with
    | del r =>
      refine ⟨?_, by simp⟩
      simp only [expected, asked]
      have hm' : List.Forall₂ _ l r := hm
      clear hm hp
      induction hm' with
      | nil => rfl
      | @cons x y l r hxy _ ih =>
        obtain ⟨o1, o2, -⟩ := hc x (by simp)
        have ih := ih (fun z hz => hc z (by simp [hz]))
        simp only [List.map_cons, vlabel, hxy.1, hxy.2, o1, o2] at ih ⊢
        rw [← ih]
    | _ => exact hm.elim
  | _ => exact hp.elim

private theorem same_labels {res res' : Res} (h : SameRes res res') (hg : ∀ g, res.body ≠ .getop g) :
    (expected res').map vlabel = (expected res).map vlabel ∧ ∀ g, res'.body ≠ .getop g := by
  obtain ⟨as, ad, ab⟩ := res
  obtain ⟨bs, bd, bb⟩ := res'
  obtain ⟨h1, h2, h3⟩ := h
  simp only at h1 h2
  subst h1 h2
  cases ab with
  | getop l => exact absurd rfl (hg l)
  | put l =>
    cases bb with
    | put m => cases (show l = m from h3); exact ⟨rfl, by simp⟩
    | _ => exact h3.elim
  | del l =>
    cases bb with
    | del m => cases (show l = m from h3); exact ⟨rfl, by simp⟩
    | _ => exact h3.elim
  | get l =>
    cases bb with
    | get m =>
      refine ⟨?_, by simp⟩
      have h4 : List.Forall₂ SameGetRes l m := h3
      clear h3 hg
      simp only [expected]
      induction h4 with
      | nil => rfl
      | @cons x y l m hxy _ ih =>
        simp only [List.map_cons, vlabel, hxy.2.1, hxy.2.2.1] at ih ⊢
        rw [ih]
    | _ => exact h3.elim
  | hist l =>
    cases bb with
    | hist m =>
      refine ⟨?_, by simp⟩
      have h4 : List.Forall₂ SameHistRes l m := h3
      clear h3 hg
      simp only [expected]
      induction h4 with
      | nil => rfl
      | @cons x y l m hxy _ ih =>
        simp only [List.map_cons, vlabel] at ih ⊢
        rw [ih]
    | _ => exact h3.elim

/-- All datastores are usable. -/
def Usable (w : World) : Prop := ∀ rank, ∀ d ∈ w.ds rank, d.usable = true

/-- `P` is kept by the queued requests and makes their responses sendable. -/
def Safe (cb : Callbacks) (heap : Nat) (P : World → Prop) (ok : ReqBody → Prop) : Prop :=
  ∀ (w w' : World) (rank : Int) (req : Req) (res : Res), P w → ok req.body → IntRange req.src → IntRange req.dst →
    World.serve cb heap w rank req = .ok (w', res) → P w' ∧ SendableRes res

theorem serve_matches {cb : Callbacks} {heap : Nat} {w w' : World} {rank : Int} {req : Req} {res : Res}
    (hu : Usable w) (h : World.serve cb heap w rank req = .ok (w', res)) :
    res.src = req.dst ∧ Matches req.body res.body := by
  unfold World.serve at h
  obtain ⟨x, hx, h⟩ := ok_iff.mp h
  cases h
  obtain ⟨h1, -, h2, -⟩ := C21_range_server_partial cb heap _ _ _ req _ (hu rank)
    (show rangeServer cb heap _ _ req = .ok (x.1, x.2) from hx)
  exact ⟨h1, h2⟩

/-- One delivery: it is answered, with the labels of the request. -/
private theorem deliver_labels {cb : Callbacks} {heap : Nat} {net : Net} {P : World → Prop} {ok : ReqBody → Prop}
    (hh : net.heap ≠ 0) (hh' : net.heap < 2 ^ 64) (hsafe : Safe cb heap P ok) (hPu : ∀ w, P w → Usable w)
    {w w' : World} {x : Send} {o : Option Res} (hw : P w) (hok : ok x.req.body) (hp : Plain3 x.req.body)
    (hreq : SendableReq x.req) (hc : ClientReq cb net.heap x.req.body)
    (h : deliver net (World.serve cb heap) w x = .ok (w', o)) :
    P w' ∧ ∃ res, o = some res ∧ (expected res).map vlabel = asked x.req ∧ ∀ g, res.body ≠ .getop g := by
  have viaLocal : ∀ res, World.serve cb heap w x.rank x.req = .ok (w', res) →
      P w' ∧ SendableRes res ∧ (expected res).map vlabel = asked x.req ∧ ∀ g, res.body ≠ .getop g := by
    intro res hl
    obtain ⟨h1, h2⟩ := hsafe w w' x.rank x.req res hw hok hreq.1 hreq.2.1 hl
    obtain ⟨h3, h4⟩ := serve_matches (hPu w hw) hl
    exact ⟨h1, h2, expected_labels hc h3 h4 hp⟩
  unfold deliver at h
  split at h
  · obtain ⟨res, hl⟩ := C31_same_failures cb heap net w x.rank x.req hreq hc _ h
    obtain ⟨h1, h2, h3, h4⟩ := viaLocal res hl
    have hk : FailsWithKey x.req.body res.body := by
      generalize x.req.body = b at hp
      cases b with
      | getop l => exact hp.elim
      | _ => exact True.intro
    obtain ⟨res', hr, hs⟩ := C31_same_results_partial cb heap net w w' x.rank x.req res hh hh' hreq hc hl h2 hk
    rw [h] at hr
    cases hr
    obtain ⟨h5, h6⟩ := same_labels hs h4
    exact ⟨h1, res', rfl, h5.trans h3, h6⟩
  · obtain ⟨y, hy, h⟩ := ok_iff.mp h
    cases h
    obtain ⟨h1, -, h3, h4⟩ := viaLocal y.2 hy
    exact ⟨h1, y.2, rfl, h3, h4⟩

private theorem deliverAll_labels {cb : Callbacks} {heap : Nat} {net : Net} {P : World → Prop} {ok : ReqBody → Prop}
    (hh : net.heap ≠ 0) (hh' : net.heap < 2 ^ 64) (hsafe : Safe cb heap P ok) (hPu : ∀ w, P w → Usable w)
    (l : List Send) (w w' : World) (rs : List Res) (hw : P w)
    (hl : ∀ x ∈ l, ok x.req.body ∧ Plain3 x.req.body ∧ SendableReq x.req ∧ ClientReq cb net.heap x.req.body)
    (h : deliverAll (deliver net (World.serve cb heap)) l w = .ok (w', rs)) :
    P w' ∧ (rs.flatMap expected).map vlabel = l.flatMap (fun x => asked x.req) ∧
      ∀ res ∈ rs, ∀ g, res.body ≠ .getop g := by
  induction l generalizing w rs with
  | nil => cases h; exact ⟨hw, rfl, fun r hr => by cases hr⟩
  | cons x l ih =>
    simp only [deliverAll] at h
    obtain ⟨y, hy, h⟩ := ok_iff.mp h
    obtain ⟨z, hz, h⟩ := ok_iff.mp h
    cases h
    obtain ⟨a1, a2, a3, a4⟩ := hl x (by simp)
    obtain ⟨h1, res, h2, h3, h4⟩ := deliver_labels hh hh' hsafe hPu hw a1 a2 a3 a4
      (show deliver net (World.serve cb heap) w x = .ok (y.1, y.2) from hy)
    obtain ⟨i1, i2, i3⟩ := ih y.1 z.2 h1 (fun x hx => hl x (by simp [hx])) hz
    refine ⟨i1, ?_, ?_⟩
    · rw [h2]
      simp only [Option.toList_some, List.singleton_append, List.flatMap_cons, List.map_append, h3, i2]
    · intro r hr
      rw [h2] at hr
      simp only [Option.toList_some, List.singleton_append, List.mem_cons] at hr
      rcases hr with rfl | hr
      · exact h4
      · exact i3 r hr

/-- C29, partial: one result per operation. Flushing PUTs, GETs or DELETEs gives one result for every
queued operation, with its kind, datastore, subject and predicate, and nothing else, in the order of
the deliveries. `P` is a property of the range servers that makes their responses sendable; see
`C29_put_results_partial` and `C29_get_results_partial`. Missing: layouts that are not `Routed`, and
GETOPs. -/
theorem C29_results_partial {α : Type} (cb : Callbacks) (heap : Nat) (net : Net) (mk : List α → ReqBody)
    (P : World → Prop) (hmk : ∀ p, Plain3 (mk p)) (hh : net.heap ≠ 0) (hh' : net.heap < 2 ^ 64)
    (hrank : IntRange net.rank) (qs qs' : List (List (List α))) (hn : qs.length ≤ 2 ^ 31) (hR : Routed net qs.length)
    (hq : ∀ q ∈ qs, ∀ p ∈ q, (mk p).count < 2 ^ 64 ∧ SendableReqBody (mk p) ∧ ClientReq cb net.heap (mk p))
    (hsafe : Safe cb heap P (fun b => ∃ q ∈ qs, ∃ p ∈ q, b = mk p)) (hPu : ∀ w, P w → Usable w)
    (w w' : World) (hw : P w) (r : Results) (h : process net (World.serve cb heap) mk w qs = .ok (w', r, qs')) :
    P w' ∧ ∃ l, Delivers net mk qs l ∧ r.items.map label = l.flatMap (fun x => asked x.req) := by
  obtain ⟨l, hl, hall⟩ := C29_flush_partial net mk qs hR
  obtain ⟨-, rs, h1, h2⟩ := (hall (World.serve cb heap) w w' r qs').mp h
  have hx : ∀ x ∈ l, (∃ q ∈ qs, ∃ p ∈ q, x.req.body = mk p) ∧ Plain3 x.req.body ∧ SendableReq x.req ∧
      ClientReq cb net.heap x.req.body := by
    intro x hx
    obtain ⟨p1, ds, p2, p3, -⟩ := hl.place x hx
    have hmem : x.req.body ∈ sentTo l ds := by
      unfold sentTo
      exact List.mem_map.mpr ⟨x, List.mem_filter.mpr ⟨hx, by simp [p3]⟩, rfl⟩
    rw [hl.packets ds] at hmem
    unfold packetsFor at hmem
    obtain ⟨p, hp, hb⟩ := List.mem_map.mp hmem
    have hds : qs.getD ds [] ∈ qs := by
      rw [List.getD_eq_getElem?_getD, List.getElem?_eq_getElem p2, Option.getD_some]
      exact List.getElem_mem _
    obtain ⟨c1, c2, c3⟩ := hq _ hds p hp
    rw [← hb]
    refine ⟨⟨_, hds, p, hp, rfl⟩, hmk p, ⟨by rw [p1]; exact hrank, ?_, by rw [← hb]; exact c1, by rw [← hb]; exact c2⟩, c3⟩
    rw [p3]
    constructor <;> omega
  obtain ⟨h3, h4, h5⟩ := deliverAll_labels hh hh' hsafe hPu l w w' rs hw hx h1
  refine ⟨h3, l, hl, ?_⟩
  obtain ⟨r0, g1, g2⟩ := C35_chain_partial rs Results.create (fun res hr g hg => absurd hg (h5 res hr g))
  rw [h2] at g1
  cases g1
  rw [← h4, ← show r.items.map view = rs.flatMap expected by rw [g2]; simp [Results.create], List.map_map]
  rfl

/-! ## PUTs and DELETEs -/

private theorem operate_usable {cb : Callbacks} {heap : Nat} {wr : Bool} {d : DS} {req : ReqBody}
    {x : DS × Option ResBody} (h : d.operate cb heap wr req = .ok x) : x.1.usable = d.usable := by
  cases req with
  | put l =>
    simp only [DS.operate] at h
    split at h
    · cases hb : d.backend <;> simp only [hb] at h <;>
      · obtain ⟨a, -, h⟩ := ok_iff.mp h
        obtain ⟨b, -, h⟩ := ok_iff.mp h
        cases h; rfl
    · cases h; rfl
  | get l =>
    simp only [DS.operate] at h
    split at h
    · obtain ⟨a, -, h⟩ := ok_iff.mp h
      cases h; rfl
    · cases h; rfl
  | getop l =>
    simp only [DS.operate] at h
    split at h
    · obtain ⟨a, -, h⟩ := ok_iff.mp h
      cases h; rfl
    · cases h; rfl
  | del l =>
    simp only [DS.operate] at h
    split at h
    · cases hb : d.backend <;> simp only [hb] at h <;>
      · obtain ⟨a, -, h⟩ := ok_iff.mp h
        cases h; rfl
    · cases h; rfl
  | hist l => cases h; rfl

/-- A property of datastores that every operation keeps is kept by the range servers. -/
theorem serve_keeps {cb : Callbacks} {heap : Nat} {Q : DS → Prop} {w w' : World} {rank : Int} {req : Req} {res : Res}
    (hQ : ∀ d d' o, Q d → d.operate cb heap (w.wr w.served) req.body = .ok (d', o) → Q d')
    (hw : ∀ rank, ∀ d ∈ w.ds rank, Q d) (h : World.serve cb heap w rank req = .ok (w', res)) :
    (∀ rank, ∀ d ∈ w'.ds rank, Q d) ∧ ∃ d ∈ w.ds rank, ∃ d' o, d.operate cb heap (w.wr w.served) req.body = .ok (d', o) ∧
      res.body = o.getD (emptyLike req.body) ∧ res.src = req.dst ∧ res.dst = req.src := by
  unfold World.serve at h
  obtain ⟨x, hx, h⟩ := ok_iff.mp h
  cases h
  unfold rangeServer at hx
  split at hx
  · cases hx
  · simp only at hx
    split at hx
    · cases hx
    · rename_i d hd
      obtain ⟨y, hy, hx⟩ := ok_iff.mp hx
      cases hx
      have hmem := List.mem_of_getElem? hd
      refine ⟨?_, d, hmem, y.1, y.2, hy, rfl, rfl, rfl⟩
      intro rk e he
      simp only at he
      split at he
      · rcases List.mem_or_eq_of_mem_set he with he | rfl
        · exact hw rank e he
        · exact hQ d _ y.2 (hw rank d hmem) hy
      · exact hw rk e he

theorem usable_serve {cb : Callbacks} {heap : Nat} {w w' : World} {rank : Int} {req : Req} {res : Res} (hu : Usable w)
    (h : World.serve cb heap w rank req = .ok (w', res)) : Usable w' :=
  (serve_keeps (Q := fun d => d.usable = true) (fun _ _ _ hd ho => (operate_usable ho).trans hd) hu h).1

private theorem status_range {s : Int} (h : s = dsSuccess ∨ s = dsError) : IntRange s := by
  rcases h with rfl | rfl <;> decide

private theorem memPut_status {cb : Callbacks} {db : Db} {l : List PutItem} {x : Db × List StatusItem}
    (h : memPut cb db l = .ok x) : ∀ y ∈ x.2, y.status = dsSuccess ∨ y.status = dsError := by
  induction l generalizing db x with
  | nil => cases h; intro y hy; cases hy
  | cons a l ih =>
    simp only [memPut] at h
    obtain ⟨kv, -, h⟩ := ok_iff.mp h
    cases kv with
    | some kv =>
      obtain ⟨z, hz, h⟩ := ok_iff.mp h
      cases h
      intro y hy
      rcases List.mem_cons.mp hy with rfl | hy
      · exact Or.inl rfl
      · exact ih hz y hy
    | none =>
      obtain ⟨z, hz, h⟩ := ok_iff.mp h
      cases h
      intro y hy
      rcases List.mem_cons.mp hy with rfl | hy
      · exact Or.inr rfl
      · exact ih hz y hy

private theorem memDel_status {cb : Callbacks} {db : Db} {l : List DelItem} {x : Db × List StatusItem}
    (h : memDel cb db l = .ok x) : ∀ y ∈ x.2, y.status = dsSuccess ∨ y.status = dsError := by
  induction l generalizing db x with
  | nil => cases h; intro y hy; cases hy
  | cons a l ih =>
    simp only [memDel] at h
    obtain ⟨k, -, h⟩ := ok_iff.mp h
    cases k with
    | some k =>
      simp only at h
      split at h
      · obtain ⟨z, hz, h⟩ := ok_iff.mp h
        cases h
        intro y hy
        rcases List.mem_cons.mp hy with rfl | hy
        · exact Or.inl rfl
        · exact ih hz y hy
      · obtain ⟨z, hz, h⟩ := ok_iff.mp h
        cases h
        intro y hy
        rcases List.mem_cons.mp hy with rfl | hy
        · exact Or.inr rfl
        · exact ih hz y hy
    | none =>
      obtain ⟨z, hz, h⟩ := ok_iff.mp h
      cases h
      intro y hy
      rcases List.mem_cons.mp hy with rfl | hy
      · exact Or.inr rfl
      · exact ih hz y hy

/-- The statuses of PUTs and DELETEs are SUCCESS or ERROR. -/
private theorem put_status {cb : Callbacks} {heap : Nat} {wr : Bool} {d d' : DS} {l : List PutItem} {r : List StatusItem}
    (h : d.operate cb heap wr (.put l) = .ok (d', some (.put r))) : ∀ y ∈ r, y.status = dsSuccess ∨ y.status = dsError := by
  simp only [DS.operate] at h
  split at h
  · cases hb : d.backend with
    | mem =>
      simp only [hb] at h
      obtain ⟨a, ha, h⟩ := ok_iff.mp h
      obtain ⟨b, -, h⟩ := ok_iff.mp h
      cases h
      exact memPut_status ha
    | level =>
      simp only [hb] at h
      obtain ⟨a, ha, h⟩ := ok_iff.mp h
      obtain ⟨b, -, h⟩ := ok_iff.mp h
      cases h
      unfold levelPut at ha
      obtain ⟨c, -, ha⟩ := ok_iff.mp ha
      cases ha
      intro y hy
      obtain ⟨z, -, rfl⟩ := List.mem_map.mp hy
      cases wr
      · exact Or.inr rfl
      · exact Or.inl rfl
  · cases h

private theorem del_status {cb : Callbacks} {heap : Nat} {wr : Bool} {d d' : DS} {l : List DelItem} {r : List StatusItem}
    (h : d.operate cb heap wr (.del l) = .ok (d', some (.del r))) : ∀ y ∈ r, y.status = dsSuccess ∨ y.status = dsError := by
  simp only [DS.operate] at h
  split at h
  · cases hb : d.backend with
    | mem =>
      simp only [hb] at h
      obtain ⟨a, ha, h⟩ := ok_iff.mp h
      cases h
      exact memDel_status ha
    | level =>
      simp only [hb] at h
      obtain ⟨a, ha, h⟩ := ok_iff.mp h
      cases h
      unfold levelDel at ha
      obtain ⟨c, -, ha⟩ := ok_iff.mp ha
      cases ha
      intro y hy
      obtain ⟨z, -, rfl⟩ := List.mem_map.mp hy
      cases wr
      · exact Or.inr rfl
      · exact Or.inl rfl
  · cases h

private theorem ref_fits {b : Blob} {o : Nat} (h : Solid b) (ho : o = b.addr) : RefFits ⟨o, b.bytes.length, b.typ⟩ :=
  ⟨by rw [ho]; exact h.1.2.2, h.1.1, h.1.2.1⟩

/-- The requests whose responses can always be sent: PUTs and DELETEs that can be sent. -/
def SendableWrite (cb : Callbacks) (h : Nat) (b : ReqBody) : Prop :=
  b.count < 2 ^ 64 ∧ SendableReqBody b ∧ ClientReq cb h b ∧ ((∃ p, b = .put p) ∨ ∃ p, b = .del p)

theorem safe_writes (cb : Callbacks) (heap h : Nat) : Safe cb heap Usable (SendableWrite cb h) := by
  intro w w' rank req res hu hok hsrc hdst hs
  refine ⟨usable_serve hu hs, ?_⟩
  obtain ⟨c1, c2, c3, c4⟩ := hok
  obtain ⟨-, hm⟩ := serve_matches hu hs
  obtain ⟨-, d, hd, d', o, ho, hbody, hrs, hrd⟩ :=
    serve_keeps (Q := fun d => d.usable = true) (fun _ _ _ hd ho => (operate_usable ho).trans hd) hu hs
  obtain ⟨body, hob, -⟩ := C21_one_response_each_partial cb heap _ d d' req.body o (hu rank d hd) ho
  rw [hob, Option.getD_some] at hbody
  rw [← hbody] at hob
  rw [hob] at ho
  obtain ⟨rs, rd, rb⟩ := res
  obtain ⟨qs, qd, qb⟩ := req
  simp only at hm hbody hrs hrd ho c1 c2 c3 c4
  subst hrs hrd
  rcases c4 with ⟨p, rfl⟩ | ⟨p, rfl⟩
  · cases rb with
    | put r =>
      have hm' : List.Forall₂ _ p r := hm
      clear hm
      refine ⟨hdst, hsrc, ?_, ?_⟩
      · simp only [ReqBody.count, ResBody.count] at c1 ⊢
        rw [← hm'.length_eq]; exact c1
      · intro y hy
        have hst := put_status ho y hy
        clear ho hbody hob c1 hs hsrc hdst
        refine ⟨status_range hst, ?_⟩
        clear hst
        induction hm' with
        | nil => cases hy
        | @cons a b p r hab _ ih =>
          rcases List.mem_cons.mp hy with rfl | hy
          · obtain ⟨e1, e2, -⟩ := c3 a (by simp)
            obtain ⟨f1, f2, -⟩ := c2 a (by simp)
            rw [hab.1, hab.2]
            exact ⟨ref_fits f1 e1, ref_fits f2 e2⟩
          · exact ih (fun z hz => c2 z (by simp [hz])) (fun z hz => c3 z (by simp [hz])) hy
    | _ => exact hm.elim
  · cases rb with
    | del r =>
      have hm' : List.Forall₂ _ p r := hm
      clear hm
      refine ⟨hdst, hsrc, ?_, ?_⟩
      · simp only [ReqBody.count, ResBody.count] at c1 ⊢
        rw [← hm'.length_eq]; exact c1
      · intro y hy
        have hst := del_status ho y hy
        clear ho hbody hob c1 hs hsrc hdst
        refine ⟨status_range hst, ?_⟩
        clear hst
        induction hm' with
        | nil => cases hy
        | @cons a b p r hab _ ih =>
          rcases List.mem_cons.mp hy with rfl | hy
          · obtain ⟨e1, e2, -⟩ := c3 a (by simp)
            obtain ⟨f1, f2⟩ := c2 a (by simp)
            rw [hab.1, hab.2]
            exact ⟨ref_fits f1 e1, ref_fits f2 e2⟩
          · exact ih (fun z hz => c2 z (by simp [hz])) (fun z hz => c3 z (by simp [hz])) hy
    | _ => exact hm.elim

private theorem Safe.mono {cb : Callbacks} {heap : Nat} {P : World → Prop} {ok ok' : ReqBody → Prop} (h : Safe cb heap P ok)
    (hi : ∀ b, ok' b → ok b) : Safe cb heap P ok' :=
  fun w w' rank req res hw hok => h w w' rank req res hw (hi _ hok)

/-- C29, partial: one result per queued PUT. -/
theorem C29_put_results_partial (cb : Callbacks) (heap : Nat) (net : Net) (hh : net.heap ≠ 0) (hh' : net.heap < 2 ^ 64)
    (hrank : IntRange net.rank) (qs qs' : List (List (List PutItem))) (hn : qs.length ≤ 2 ^ 31) (hR : Routed net qs.length)
    (hq : ∀ q ∈ qs, ∀ p ∈ q, p.length < 2 ^ 64 ∧ SendableReqBody (.put p) ∧ ClientReq cb net.heap (.put p))
    (w w' : World) (hu : Usable w) (r : Results) (h : process net (World.serve cb heap) .put w qs = .ok (w', r, qs')) :
    ∃ l, Delivers net .put qs l ∧ r.items.map label = l.flatMap (fun x => asked x.req) :=
  (C29_results_partial cb heap net .put Usable (fun _ => True.intro) hh hh' hrank qs qs' hn hR hq
    ((safe_writes cb heap net.heap).mono (by
      rintro b ⟨q, hqm, p, hp, rfl⟩
      obtain ⟨h1, h2, h3⟩ := hq q hqm p hp
      exact ⟨h1, h2, h3, Or.inl ⟨p, rfl⟩⟩)) (fun _ h => h) w w' hu r h).2

/-- C29, partial: one result per queued DELETE. -/
theorem C29_del_results_partial (cb : Callbacks) (heap : Nat) (net : Net) (hh : net.heap ≠ 0) (hh' : net.heap < 2 ^ 64)
    (hrank : IntRange net.rank) (qs qs' : List (List (List DelItem))) (hn : qs.length ≤ 2 ^ 31) (hR : Routed net qs.length)
    (hq : ∀ q ∈ qs, ∀ p ∈ q, p.length < 2 ^ 64 ∧ SendableReqBody (.del p) ∧ ClientReq cb net.heap (.del p))
    (w w' : World) (hu : Usable w) (r : Results) (h : process net (World.serve cb heap) .del w qs = .ok (w', r, qs')) :
    ∃ l, Delivers net .del qs l ∧ r.items.map label = l.flatMap (fun x => asked x.req) :=
  (C29_results_partial cb heap net .del Usable (fun _ => True.intro) hh hh' hrank qs qs' hn hR hq
    ((safe_writes cb heap net.heap).mono (by
      rintro b ⟨q, hqm, p, hp, rfl⟩
      obtain ⟨h1, h2, h3⟩ := hq q hqm p hp
      exact ⟨h1, h2, h3, Or.inr ⟨p, rfl⟩⟩)) (fun _ h => h) w w' hu r h).2

/-! ## GETs -/

/-- The datastore is usable and what it stores decodes to data that can be sent. -/
def Readable (cb : Callbacks) (d : DS) : Prop :=
  d.usable = true ∧ ∀ kv ∈ d.db, ∀ ot, removeType kv.2 = .ok ot → ∀ o, cb.decode ⟨ot.1, ot.2⟩ = .ok (some o) →
    o ≠ [] ∧ o.length < 2 ^ 64 ∧ ot.2 < 2 ^ 32

private theorem get_reply {cb : Callbacks} {heap : Nat} {db : Db} {x : GetItem} {r : GetRes}
    (h : getItem cb heap db x = .ok r) : (r.status = dsSuccess ∨ r.status = dsError) ∧
      (r.status = dsSuccess → ∃ kv ∈ db, ∃ ot o, removeType kv.2 = .ok ot ∧ cb.decode ⟨ot.1, ot.2⟩ = .ok (some o) ∧
        r.object = ⟨copyAddr heap o.length, o, ot.2⟩) := by
  unfold getItem at h
  simp only at h
  obtain ⟨k, -, h⟩ := ok_iff.mp h
  cases k with
  | none => cases h; exact ⟨Or.inr rfl, fun h => by cases h⟩
  | some k =>
    simp only at h
    split at h
    · cases h; exact ⟨Or.inr rfl, fun h => by cases h⟩
    · rename_i v hv
      obtain ⟨ot, h1, h⟩ := ok_iff.mp h
      obtain ⟨o, h2, h⟩ := ok_iff.mp h
      cases o with
      | none => cases h; exact ⟨Or.inr rfl, fun h => by cases h⟩
      | some o =>
        cases h
        exact ⟨Or.inl rfl, fun _ => ⟨_, find_mem hv, ot, o, h1, h2, rfl⟩⟩

/-- GETs that can be sent. -/
def SendableGet (cb : Callbacks) (h : Nat) (b : ReqBody) : Prop :=
  b.count < 2 ^ 64 ∧ SendableReqBody b ∧ ClientReq cb h b ∧ ∃ p, b = .get p

theorem safe_gets (cb : Callbacks) (heap h : Nat) (hheap : heap ≠ 0) (hheap' : heap < 2 ^ 64) :
    Safe cb heap (fun w => ∀ rank, ∀ d ∈ w.ds rank, Readable cb d) (SendableGet cb h) := by
  intro w w' rank req res hw hok hsrc hdst hs
  obtain ⟨c1, c2, c3, p, hb⟩ := hok
  rw [hb] at c1 c2 c3
  have keep : ∀ d d' o, Readable cb d → d.operate cb heap (w.wr w.served) req.body = .ok (d', o) →
      Readable cb d' ∧ ∃ l, getAll cb heap d.db p = .ok l ∧ o = some (.get l) := by
    intro d d' o hd ho
    rw [hb] at ho
    simp only [DS.operate, hd.1, if_true] at ho
    obtain ⟨l, hl, ho⟩ := ok_iff.mp ho
    cases ho
    exact ⟨⟨rfl, hd.2⟩, l, hl, rfl⟩
  obtain ⟨k1, d, hd, d', o, ho, hbody, hrs, hrd⟩ := serve_keeps (Q := Readable cb) (fun d d' o hd ho => (keep d d' o hd ho).1) hw hs
  refine ⟨k1, ?_⟩
  obtain ⟨-, hm⟩ := serve_matches (fun rank d hd => (hw rank d hd).1) hs
  obtain ⟨-, l, hl, rfl⟩ := keep d d' o (hw rank d hd) ho
  rw [Option.getD_some] at hbody
  obtain ⟨rs, rd, rb⟩ := res
  simp only at hbody hrs hrd hm
  subst hbody
  rw [hb] at hm
  have hm' : List.Forall₂ _ p l := hm
  clear hm
  refine ⟨by rw [hrs]; exact hdst, by rw [hrd]; exact hsrc, ?_, ?_⟩
  · simp only [ResBody.count]
    rw [← hm'.length_eq]; exact c1
  · rw [getAll_eq] at hl
    have hf := mapO_ok hl
    obtain ⟨-, hstored⟩ := hw rank d hd
    clear hs hl ho hb keep hsrc hdst c1
    intro y hy
    induction hm' with
    | nil => cases hy
    | @cons a b p l hab _ ih =>
      obtain ⟨g1, g2⟩ := List.forall₂_cons.mp hf
      rcases List.mem_cons.mp hy with rfl | hy
      · obtain ⟨e1, e2, -⟩ := c3 a (by simp)
        obtain ⟨f1, f2, -⟩ := c2 a (by simp)
        obtain ⟨st, succ⟩ := get_reply g1
        refine ⟨status_range st, by rw [hab.1]; exact ref_fits f1 e1, by rw [hab.2]; exact ref_fits f2 e2, ?_⟩
        intro h1
        obtain ⟨kv, hkv, ot, o, r1, r2, r3⟩ := succ h1
        obtain ⟨s1, s2, s3⟩ := hstored kv hkv ot r1 o r2
        rw [r3]
        have : copyAddr heap o.length = heap := by
          unfold copyAddr
          rw [if_neg (by simpa using s1)]
        exact ⟨⟨s2, s3, by rw [this]; exact hheap'⟩, by rw [this]; exact hheap⟩
      · exact ih (fun z hz => c3 z (by simp [hz]))
          (fun z hz => c2 z (by simp [hz])) g2 hy

/-- C29, partial: one result per queued GET, when no object of length zero is stored. -/
theorem C29_get_results_partial (cb : Callbacks) (heap : Nat) (hheap : heap ≠ 0) (hheap' : heap < 2 ^ 64) (net : Net)
    (hh : net.heap ≠ 0) (hh' : net.heap < 2 ^ 64)
    (hrank : IntRange net.rank) (qs qs' : List (List (List GetItem))) (hn : qs.length ≤ 2 ^ 31) (hR : Routed net qs.length)
    (hq : ∀ q ∈ qs, ∀ p ∈ q, p.length < 2 ^ 64 ∧ SendableReqBody (.get p) ∧ ClientReq cb net.heap (.get p))
    (w w' : World) (hu : ∀ rank, ∀ d ∈ w.ds rank, Readable cb d) (r : Results)
    (h : process net (World.serve cb heap) .get w qs = .ok (w', r, qs')) :
    ∃ l, Delivers net .get qs l ∧ r.items.map label = l.flatMap (fun x => asked x.req) :=
  (C29_results_partial cb heap net .get (fun w => ∀ rank, ∀ d ∈ w.ds rank, Readable cb d) (fun _ => True.intro)
    hh hh' hrank qs qs' hn hR hq ((safe_gets cb heap net.heap hheap hheap').mono (by
      rintro b ⟨q, hqm, p, hp, rfl⟩
      obtain ⟨h1, h2, h3⟩ := hq q hqm p hp
      exact ⟨h1, h2, h3, p, rfl⟩)) (fun w hw rank d hd => (hw rank d hd).1) w w' hu r h).2

/-- Two ranks, two PUTs queued for the datastore on the other rank and one for the own one: the
hypotheses of `C29_put_results_partial` are met. -/
private def exQueue : List (List (List PutItem)) :=
  [[[PutItem.make ⟨16, [1], 7⟩ ⟨32, [2], 7⟩ ⟨48, [3], 7⟩]],
    [[PutItem.make ⟨16, [1], 7⟩ ⟨64, [4], 7⟩ ⟨48, [3], 7⟩], [PutItem.make ⟨16, [1], 7⟩ ⟨80, [5], 7⟩ ⟨48, [3], 7⟩]]]

private def exWorld : World := ⟨fun _ => [exDs .level []], fun _ => true, 0⟩

example : (∀ q ∈ exQueue, ∀ p ∈ q, p.length < 2 ^ 64 ∧ SendableReqBody (.put p) ∧ ClientReq exCb 4096 (.put p)) ∧
    Usable exWorld ∧
    (process (Layout.net ⟨2, 1, 1, 1⟩ 0 (.thallium (thalliumEndpoints ⟨2, 1, 1, 1⟩ 0 [])) id (fun _ => List.Perm.refl _)
      4096 (fun n => List.replicate n 0)) (World.serve exCb 100) .put exWorld exQueue >>=
        fun x => .ok (x.2.1.items.map (fun r => (r.rs, r.predicate.addr, r.status)))) =
      .ok [(1, 64, 3), (0, 32, 3), (1, 80, 3)] := by
  refine ⟨?_, ?_, by decide +kernel⟩
  · intro q hq p hp
    simp only [exQueue, List.mem_cons, List.not_mem_nil, or_false] at hq
    rcases hq with rfl | rfl <;> simp only [List.mem_cons, List.not_mem_nil, or_false] at hp
    · subst hp
      refine ⟨by decide, ?_, ?_⟩ <;> intro x hx <;> simp only [List.mem_cons, List.not_mem_nil, or_false] at hx <;> subst hx
      · exact ⟨by decide, by decide, by decide⟩
      · exact ⟨rfl, rfl, rfl, rfl, rfl⟩
    · rcases hp with rfl | rfl <;> refine ⟨by decide, ?_, ?_⟩ <;> intro x hx <;>
        simp only [List.mem_cons, List.not_mem_nil, or_false] at hx <;> subst hx
      · exact ⟨by decide, by decide, by decide⟩
      · exact ⟨rfl, rfl, rfl, rfl, rfl⟩
      · exact ⟨by decide, by decide, by decide⟩
      · exact ⟨rfl, rfl, rfl, rfl, rfl⟩
  · intro rank d hd
    simp only [exWorld, List.mem_cons, List.not_mem_nil, or_false] at hd
    subst hd; rfl

/-- Objects that are not empty are readable. -/
example : Readable exCb (exDs .mem [(Key.spToKey ⟨[1], 7⟩ ⟨[2], 7⟩, appendType [3] 7)]) := by
  refine ⟨rfl, fun kv hkv ot hot o ho => ?_⟩
  simp only [exDs, List.mem_cons, List.not_mem_nil, or_false] at hkv
  subst hkv
  have : removeType (appendType [3] 7) = .ok ([3], 7) := by decide
  rw [show removeType (Key.spToKey ⟨[1], 7⟩ ⟨[2], 7⟩, appendType [3] 7).2 = .ok ([3], 7) from this] at hot
  cases hot
  have h2 : exCb.decode ⟨[3], 7⟩ = .ok (some [3]) := rfl
  rw [show exCb.decode ⟨([3], 7).1, ([3], 7).2⟩ = .ok (some [3]) from h2] at ho
  cases ho
  exact ⟨by simp, by decide, by decide⟩

/-! ## Where there is not one result per operation -/

private def exOne : Net := Layout.net ⟨1, 1, 1, 1⟩ 0 .null id (fun _ => List.Perm.refl _) 4096 (fun n => List.replicate n 0)

/-- C29 is false when a datastore is not usable: no result at all. -/
theorem C29_unusable_false :
    (process exOne (World.serve exCb 100) .put ⟨fun _ => [{ exDs .mem [] with usable := false }], fun _ => true, 0⟩
      [[[PutItem.make ⟨16, [1], 7⟩ ⟨32, [2], 7⟩ ⟨48, [3], 7⟩]]] >>= fun x => .ok x.2.1.size) = .ok 0 := by
  decide +kernel

/-- C29 fails for a GETOP that asks for no records: flushing it is undefined. -/
theorem C29_zero_records_ub :
    (process exOne (World.serve exCb 100) .getop
      ⟨fun _ => [exDs .mem [(Key.spToKey ⟨[1], 7⟩ ⟨[2], 7⟩, appendType [3] 7)]], fun _ => true, 0⟩
      [[[⟨goNext, ⟨16, [1], 7⟩, ⟨32, [2], 7⟩, 7, 0⟩]]] >>= fun x => .ok x.2.1.size) = .ub := by
  decide +kernel

end Hx.Props

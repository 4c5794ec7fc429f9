import Verif.Proofs.Job
import Verif.Spec.JobFail

/-!
# Helper lemmas: a job whose writes may fail
-/

namespace Hx.Job
open Hx Msg Spec Process Store Results Props

variable {cb : Callbacks} {t : Transform} {hash : Bytes → Bytes → Out Int} {place : List Int} {heap : Nat}

/-! ## One datastore -/

private theorem puts_level_true (a : Val → Bool) (l : List PutItem) :
    (l.zip (l.map (fun x => putReply x dsSuccess))).filterMap (putEv a) = events a (.put l) := by
  induction l with
  | nil => rfl
  | cons x l ih =>
    rw [List.map_cons, List.zip_cons_cons, List.filterMap_cons, ih]
    by_cases h : (a x.subject.val && a x.predicate.val && a x.object.val) = true <;> simp [putEv, putReply, events, h]

private theorem puts_level_false (a : Val → Bool) (l : List PutItem) :
    (l.zip (l.map (fun x => putReply x dsError))).filterMap (putEv a) = [] := by
  induction l with
  | nil => rfl
  | cons x l ih =>
    rw [List.map_cons, List.zip_cons_cons, List.filterMap_cons, ih]
    simp [putEv, putReply, dsError, dsSuccess]

private theorem dels_level_true (a : Val → Bool) (l : List DelItem) :
    (l.zip (l.map (fun x => delReply x dsSuccess))).filterMap (delEv a) = events a (.del l) := by
  induction l with
  | nil => rfl
  | cons x l ih =>
    rw [List.map_cons, List.zip_cons_cons, List.filterMap_cons, ih]
    by_cases h : (a x.subject.val && a x.predicate.val) = true <;> simp [delEv, delReply, events, h]

private theorem dels_level_false (a : Val → Bool) (l : List DelItem) :
    (l.zip (l.map (fun x => delReply x dsError))).filterMap (delEv a) = [] := by
  induction l with
  | nil => rfl
  | cons x l ih =>
    rw [List.map_cons, List.zip_cons_cons, List.filterMap_cons, ih]
    simp [delEv, delReply, dsError, dsSuccess]

private theorem puts_mem (l : List PutItem) : ∀ {es : List (Option (Bytes × Bytes))}, BodyOk cb t (.put l) →
    mapO (PutItem.enc cb) l = .ok es →
    (l.zip (List.zipWith (fun x e => putReply x (if e.isSome then dsSuccess else dsError)) l es)).filterMap (putEv t.accepts) =
      events t.accepts (.put l) := by
  induction l with
  | nil => intro es _ h; cases h; rfl
  | cons x l ih =>
    intro es hl h
    obtain ⟨hs, hp, ho⟩ := hl x List.mem_cons_self
    unfold mapO at h
    rw [show PutItem.enc cb x = _ from encodeTriple_ok hs hp ho, Out.ok_bind] at h
    obtain ⟨es', he, h⟩ := ok_iff.mp h
    cases h
    have := ih (fun y hy => hl y (List.mem_cons_of_mem _ hy)) he
    rw [List.zipWith_cons_cons, List.zip_cons_cons, List.filterMap_cons, this]
    by_cases hc : (t.accepts x.subject.val && t.accepts x.predicate.val && t.accepts x.object.val) = true
    · simp [putEv, putReply, events, hc]
    · simp [putEv, putReply, events, hc]

private theorem dels_mem (l : List DelItem) : ∀ {db : Db} {h : List Ev} {ks : List (Option Bytes)}, Inv cb t db h → BodyOk cb t (.del l) →
    mapO (DelItem.enc cb) l = .ok ks →
    Inv cb t (applyDels db ks) (h ++ (l.zip (delStatuses db l ks)).filterMap (delEv t.accepts)) := by
  induction l with
  | nil => intro db h ks i _ hk; cases hk; simpa [applyDels, delStatuses] using i
  | cons x l ih =>
    intro db h ks i hl hk
    obtain ⟨hs, hp⟩ := hl x List.mem_cons_self
    have hl' : BodyOk cb t (.del l) := fun y hy => hl y (List.mem_cons_of_mem _ hy)
    unfold mapO at hk
    rw [show DelItem.enc cb x = _ from encodeKey_ok hs hp, Out.ok_bind] at hk
    obtain ⟨ks', he, hk⟩ := ok_iff.mp hk
    cases hk
    cases hc : (t.accepts x.subject.val && t.accepts x.predicate.val) with
    | false =>
      have := ih i hl' he
      simpa [applyDels, delStatuses, delEv, delReply, hc] using this
    | true =>
      have hc' := hc
      simp only [Bool.and_eq_true, Transform.accepts, Option.isSome_iff_exists] at hc'
      obtain ⟨⟨es, h1⟩, ep, h2⟩ := hc'
      cases hf : find db (t.key (x.subject.val, x.predicate.val, x.subject.val)) with
      | some v =>
        have := ih (i.del (hs.val h1) (hp.val h2) x.subject.val) hl' he
        simpa [applyDels, delStatuses, delEv, delReply, hc, hf] using this
      | none =>
        have := ih i hl' he
        simpa [applyDels, delStatuses, delEv, delReply, hc, hf, erase_absent _ db hf, dsError, dsSuccess] using this

/-- Whether or not the write succeeds, the datastore did what it reports. -/
theorem operate_done {d d' : DS} {h : List Ev} {wr : Bool} {req : ReqBody} {res : ResBody} (i : Store.Inv cb t d.db h)
    (hu : d.usable = true) (hreq : BodyOk cb t req) (ho : d.operate cb heap wr req = .ok (d', some res)) :
    Store.Inv cb t d'.db (h ++ done t.accepts req res) ∧ d'.usable = true := by
  cases req with
  | put l =>
    obtain ⟨es, he, hi⟩ := inv_puts i l hreq
    simp only [DS.operate, hu, if_true] at ho
    cases hb : d.backend with
    | mem =>
      rw [hb] at ho
      simp only [memPut_eq, he, Out.ok_bind] at ho
      obtain ⟨hs, hh, ho⟩ := ok_iff.mp ho
      cases ho
      refine ⟨?_, rfl⟩
      simp only [done]
      rw [puts_mem l hreq he]
      exact hi
    | level =>
      rw [hb] at ho
      simp only [levelPut_eq, he, Out.ok_bind] at ho
      obtain ⟨hs, hh, ho⟩ := ok_iff.mp ho
      cases ho
      refine ⟨?_, rfl⟩
      cases wr
      · simp only [done, Bool.false_eq_true, if_false, puts_level_false, List.append_nil]
        exact i
      · simp only [done, if_true, puts_level_true]
        exact hi
  | del l =>
    obtain ⟨ks, he, hi⟩ := inv_dels i l hreq
    simp only [DS.operate, hu, if_true] at ho
    cases hb : d.backend with
    | mem =>
      rw [hb] at ho
      simp only [memDel_eq, he, Out.ok_bind] at ho
      cases ho
      exact ⟨dels_mem l i hreq he, rfl⟩
    | level =>
      rw [hb] at ho
      simp only [levelDel_eq, he, Out.ok_bind] at ho
      cases ho
      refine ⟨?_, rfl⟩
      cases wr
      · simp only [done, Bool.false_eq_true, if_false, dels_level_false, List.append_nil]
        exact i
      · simp only [done, if_true, dels_level_true]
        exact hi
  | get l =>
    obtain ⟨b1, b2, -⟩ := operate_inv i hu hreq ho
    exact ⟨by simpa [events, done] using b1, b2⟩
  | getop l =>
    obtain ⟨b1, b2, -⟩ := operate_inv i hu hreq ho
    exact ⟨by simpa [events, done] using b1, b2⟩
  | hist l =>
    obtain ⟨b1, b2, -⟩ := operate_inv i hu hreq ho
    exact ⟨by simpa [events, done] using b1, b2⟩

theorem done_events (a : Val → Bool) (req : ReqBody) (res : ResBody) : ∀ e ∈ done a req res, e ∈ events a req := by
  intro e he
  cases req <;> cases res <;> simp only [done, List.not_mem_nil] at he
  · obtain ⟨x, hx, he⟩ := List.mem_filterMap.mp he
    unfold putEv at he
    split at he
    · rename_i hc
      cases he
      rw [Bool.and_eq_true] at hc
      exact List.mem_map.mpr ⟨x.1, List.mem_filter.mpr ⟨(List.of_mem_zip hx).1, hc.2⟩, rfl⟩
    · cases he
  · obtain ⟨x, hx, he⟩ := List.mem_filterMap.mp he
    unfold delEv at he
    split at he
    · rename_i hc
      cases he
      rw [Bool.and_eq_true] at hc
      exact List.mem_map.mpr ⟨x.1, List.mem_filter.mpr ⟨(List.of_mem_zip hx).1, hc.2⟩, rfl⟩
    · cases he

theorem serve_done {w w' : World} {H : List Ev} {rank : Int} {req : Req} {res : Res} (ds : Nat)
    (hw : Stores cb t hash place w H) (hd : req.dst = ds) (hp : place[ds]? = some rank) (hb : BodyOk cb t req.body)
    (hev : ∀ e ∈ events t.accepts req.body, hv hash (evPair e) = some ds ∧ EvOk t e)
    (h : World.serve cb heap w rank req = .ok (w', res)) :
    Stores cb t hash place w' (H ++ done t.accepts req.body res.body) :=
  serve_stores ds hw hd hp _ (fun _ _ _ i u ho => operate_done i u hb ho) (fun e he => hev e (done_events _ _ _ e he)) h

/-! ## Deliveries -/

/-- A PUT or DELETE is answered, and did what the answer says. -/
theorem deliver_done {net : Net} (hh : net.heap ≠ 0) (hh' : net.heap < 2 ^ 64) {x : Send} {w u : World} {H : List Ev}
    {o : Option Res} (hw : Stores cb t hash place w H) (hx : Fine cb t hash place net.heap x)
    (hkind : (∃ p, x.req.body = .put p) ∨ ∃ p, x.req.body = .del p)
    (h : deliver net (World.serve cb heap) w x = .ok (u, o)) :
    ∃ res res', World.serve cb heap w x.rank x.req = .ok (u, res) ∧ o = some res' ∧ res'.body = res.body ∧
      Matches x.req.body res.body ∧ Stores cb t hash place u (H ++ done t.accepts x.req.body res.body) := by
  obtain ⟨res, hs⟩ := deliver_serve hx.req hx.client h
  obtain ⟨ds, h1, h2, h3⟩ := hx.dst
  have hnew := serve_done ds hw h1 h2 hx.body h3 hs
  obtain ⟨-, hm⟩ := serve_matches hw.usable hs
  have hsend : SendableRes res := (safe_writes cb heap net.heap w u x.rank x.req res hw.usable
    ⟨hx.req.2.2.1, hx.req.2.2.2, hx.client, hkind⟩ hx.req.1 hx.req.2.1 hs).2
  have harr : ∃ res', o = some res' ∧ res'.body = res.body := by
    unfold deliver at h
    split at h
    · have hk : FailsWithKey x.req.body res.body := by
        rcases hkind with ⟨p, hp⟩ | ⟨p, hp⟩ <;> rw [hp] <;> exact True.intro
      obtain ⟨res', hr, hsame⟩ := C31_same_results_partial cb heap net w u x.rank x.req res hh hh' hx.req hx.client hs hsend hk
      rw [h] at hr
      refine ⟨res', congrArg Prod.snd (Out.ok.inj hr), ?_⟩
      obtain ⟨-, -, hb⟩ := hsame
      rcases hkind with ⟨p, hp⟩ | ⟨p, hp⟩ <;> rw [hp] at hm <;>
        cases e1 : res.body <;> rw [e1] at hm hb <;> first | exact hm.elim | skip
      all_goals
        cases e2 : res'.body <;> rw [e2] at hb <;> first | exact hb.elim | (rw [show _ = _ from hb])
    · obtain ⟨v, hu, h⟩ := ok_iff.mp h
      rw [hs] at hu
      cases hu
      exact ⟨res, (congrArg Prod.snd (Out.ok.inj h)).symm, rfl⟩
  obtain ⟨res', hr, he⟩ := harr
  exact ⟨res, res', hs, hr, he, hm, hnew⟩

/-- PUTs and DELETEs are answered, and did what the answers say. -/
theorem deliverAll_done {net : Net} (hh : net.heap ≠ 0) (hh' : net.heap < 2 ^ 64) (l : List Send) {w w' : World} {H : List Ev}
    {rs : List Res} (hw : Stores cb t hash place w H)
    (hl : ∀ x ∈ l, Fine cb t hash place net.heap x ∧ ((∃ p, x.req.body = .put p) ∨ ∃ p, x.req.body = .del p))
    (h : deliverAll (deliver net (World.serve cb heap)) l w = .ok (w', rs)) :
    Stores cb t hash place w' (H ++ (l.zip rs).flatMap (fun x => done t.accepts x.1.req.body x.2.body)) ∧
    List.Forall₂ (fun x res => Matches x.req.body res.body) l rs := by
  induction l generalizing w H rs with
  | nil => cases h; exact ⟨by simpa using hw, .nil⟩
  | cons x l ih =>
    simp only [deliverAll] at h
    obtain ⟨y, hy, h⟩ := ok_iff.mp h
    obtain ⟨z, hz, h⟩ := ok_iff.mp h
    cases h
    obtain ⟨hx, hkind⟩ := hl x (by simp)
    obtain ⟨res, res', -, hr, he, hm, hnew⟩ := deliver_done hh hh' hw hx hkind (show deliver net (World.serve cb heap) w x = .ok (y.1, y.2) from hy)
    obtain ⟨i1, i2⟩ := ih hnew (fun u hu => hl u (by simp [hu])) hz
    rw [hr]
    simp only [Option.toList_some, List.singleton_append, List.zip_cons_cons, List.flatMap_cons]
    refine ⟨?_, .cons (by rw [he]; exact hm) i2⟩
    rw [he, ← List.append_assoc]
    exact i1

/-- The other operations change nothing. -/
theorem deliverAll_nothing {net : Net} (l : List Send) {w w' : World} {H : List Ev}
    {rs : List Res} (hw : Stores cb t hash place w H)
    (hl : ∀ x ∈ l, Fine cb t hash place net.heap x ∧ ∃ K, kindOf x.req.body = K ∧ K ≠ .put ∧ K ≠ .del)
    (h : deliverAll (deliver net (World.serve cb heap)) l w = .ok (w', rs)) : Stores cb t hash place w' H := by
  induction l generalizing w rs with
  | nil => cases h; exact hw
  | cons x l ih =>
    simp only [deliverAll] at h
    obtain ⟨y, hy, h⟩ := ok_iff.mp h
    obtain ⟨z, hz, h⟩ := ok_iff.mp h
    cases h
    obtain ⟨hx, K, k1, k2, k3⟩ := hl x (by simp)
    obtain ⟨res, hs⟩ := deliver_serve hx.req hx.client (show deliver net (World.serve cb heap) w x = .ok (y.1, y.2) from hy)
    obtain ⟨ds, h1, h2, h3⟩ := hx.dst
    have hnew := serve_done ds hw h1 h2 hx.body h3 hs
    have : done t.accepts x.req.body res.body = [] := by
      cases hb : x.req.body <;> rw [hb] at k1 <;> first | rfl | exact absurd k1.symm k2 | exact absurd k1.symm k3
    rw [this, List.append_nil] at hnew
    exact ih hnew (fun u hu => hl u (by simp [hu])) hz

/-! ## The order of the calls -/

/-- A list that agrees with `A` on everything of one key can be brought into its order. -/
theorem reorder {α β : Type} (key : α → Option Nat) (A : List α) : ∀ (D : List (α × β)),
    (∀ a ∈ A, (key a).isSome) → (∀ x ∈ D, (key x.1).isSome) →
    (∀ ds, (D.map Prod.fst).filter (fun a => decide (key a = some ds)) = A.filter (fun a => decide (key a = some ds))) →
    ∃ D' : List (α × β), D'.map Prod.fst = A ∧ D'.Perm D ∧
      ∀ ds, D'.filter (fun x => decide (key x.1 = some ds)) = D.filter (fun x => decide (key x.1 = some ds)) := by
  induction A with
  | nil =>
    intro D _ hD h
    have : D = [] := by
      cases D with
      | nil => rfl
      | cons x D =>
        obtain ⟨ds, hds⟩ := Option.isSome_iff_exists.mp (hD x (by simp))
        have := h ds
        simp [hds] at this
    subst this
    exact ⟨[], rfl, .refl _, fun _ => rfl⟩
  | cons a A ih =>
    intro D hA hD h
    obtain ⟨ds, hds⟩ := Option.isSome_iff_exists.mp (hA a (by simp))
    have h0 := h ds
    rw [List.filter_cons_of_pos (by simp [hds]), List.filter_map] at h0
    obtain ⟨x, m, hm, rfl, hrest⟩ : ∃ x m, D.filter ((fun a => decide (key a = some ds)) ∘ Prod.fst) = x :: m ∧ x.1 = a ∧
        m.map Prod.fst = A.filter (fun a => decide (key a = some ds)) := by
      cases hf : D.filter ((fun a => decide (key a = some ds)) ∘ Prod.fst) with
      | nil => rw [hf] at h0; cases h0
      | cons x m =>
        rw [hf, List.map_cons] at h0
        obtain ⟨e1, e2⟩ := List.cons.inj h0
        exact ⟨x, m, rfl, e1, e2⟩
    obtain ⟨l1, l2, rfl, n1, n2, n3⟩ := List.filter_eq_cons_iff.mp hm
    have n1' : l1.filter (fun x => decide (key x.1 = some ds)) = [] := by
      rw [List.filter_eq_nil_iff]; exact n1
    have hkey : ∀ ds', (l1 ++ x :: l2).filter (fun y => decide (key y.1 = some ds')) =
        if ds' = ds then x :: (l1 ++ l2).filter (fun y => decide (key y.1 = some ds'))
        else (l1 ++ l2).filter (fun y => decide (key y.1 = some ds')) := by
      intro ds'
      rw [List.filter_append, List.filter_append]
      by_cases hd : ds' = ds
      · subst hd
        rw [if_pos rfl, n1', List.filter_cons_of_pos (by simp [hds])]; rfl
      · rw [if_neg hd, List.filter_cons_of_neg (by simp [hds]; exact fun h => hd h.symm)]
    obtain ⟨D', d1, d2, d3⟩ := ih (l1 ++ l2) (fun b hb => hA b (by simp [hb])) (fun y hy => hD y (by
      rcases List.mem_append.mp hy with hy | hy <;> simp [hy])) (by
      intro ds'
      have e := h ds'
      rw [List.filter_map] at e ⊢
      have hk := hkey ds'
      by_cases hd : ds' = ds
      · subst hd
        rw [if_pos rfl] at hk
        rw [show (fun a => decide (key a = some ds')) ∘ Prod.fst = fun y : α × β => decide (key y.1 = some ds') from rfl] at e ⊢
        rw [hk, List.filter_cons_of_pos (by simp [hds]), List.map_cons] at e
        exact (List.cons.inj e).2
      · rw [if_neg hd] at hk
        rw [show (fun a => decide (key a = some ds')) ∘ Prod.fst = fun y : α × β => decide (key y.1 = some ds') from rfl] at e ⊢
        rw [hk, List.filter_cons_of_neg (by simp [hds]; exact fun h => hd h.symm)] at e
        exact e)
    refine ⟨x :: D', by rw [List.map_cons, d1], ?_, ?_⟩
    · exact (List.Perm.cons x d2).trans List.perm_middle.symm
    · intro ds'
      rw [hkey ds']
      by_cases hd : ds' = ds
      · subst hd
        rw [if_pos rfl, List.filter_cons_of_pos (by simp [hds]), d3]
      · rw [if_neg hd, List.filter_cons_of_neg (by simp [hds]; exact fun h => hd h.symm), d3]

/-! ## Pairs of items and results -/

theorem zip_fst {α β γ δ : Type} (f : α → List γ) (g : β → List δ) {l : List α} {m : List β} (hl : l.length = m.length)
    (h : ∀ z ∈ l.zip m, (f z.1).length = (g z.2).length) :
    ((l.zip m).flatMap (fun z => (f z.1).zip (g z.2))).map Prod.fst = l.flatMap f := by
  induction l generalizing m with
  | nil => rfl
  | cons a l ih =>
    cases m with
    | nil => cases hl
    | cons b m =>
      rw [List.zip_cons_cons, List.flatMap_cons, List.flatMap_cons, List.map_append,
        ih (by simpa using hl) (fun z hz => h z (by rw [List.zip_cons_cons]; exact List.mem_cons_of_mem _ hz)),
        List.map_fst_zip (show (f a).length ≤ (g b).length from Nat.le_of_eq (h (a, b) (by simp)))]

theorem zip_snd {α β γ δ : Type} (f : α → List γ) (g : β → List δ) {l : List α} {m : List β} (hl : l.length = m.length)
    (h : ∀ z ∈ l.zip m, (f z.1).length = (g z.2).length) :
    ((l.zip m).flatMap (fun z => (f z.1).zip (g z.2))).map Prod.snd = m.flatMap g := by
  induction l generalizing m with
  | nil => cases m with
    | nil => rfl
    | cons b m => cases hl
  | cons a l ih =>
    cases m with
    | nil => cases hl
    | cons b m =>
      rw [List.zip_cons_cons, List.flatMap_cons, List.flatMap_cons, List.map_append,
        ih (by simpa using hl) (fun z hz => h z (by rw [List.zip_cons_cons]; exact List.mem_cons_of_mem _ hz)),
        List.map_snd_zip (show (g b).length ≤ (f a).length from Nat.le_of_eq (h (a, b) (by simp)).symm)]

theorem flatMap_congr' {α β : Type} {f g : α → List β} {l : List α} (h : ∀ x ∈ l, f x = g x) : l.flatMap f = l.flatMap g := by
  induction l with
  | nil => rfl
  | cons a l ih => rw [List.flatMap_cons, List.flatMap_cons, h a (by simp), ih (fun x hx => h x (by simp [hx]))]

/-! ## PUTs -/

/-- The PUTs as they are queued. -/
def putItems (l : List Op) : List PutItem :=
  l.filterMap (fun | .put s p o => some ⟨s, s.addr, p, p.addr, o⟩ | _ => none)

theorem puts_items (ds : Nat) (l : List Op) :
    putsFor hash ds l = (putItems l).filter (fun y => decide (home hash y.subject y.predicate = some ds)) := by
  induction l with
  | nil => rfl
  | cons x l ih =>
    unfold putsFor putItems at ih ⊢
    cases x with
    | put s p o =>
      by_cases hh : home hash s p = some ds <;> simp_all [dest, List.filterMap_cons]
    | hist rs name =>
      by_cases hd : dest hash (Op.hist rs name) = some ds <;> simp_all [List.filterMap_cons]
    | get s p n =>
      by_cases hd : dest hash (Op.get s p n) = some ds <;> simp_all [List.filterMap_cons]
    | getop op s p n m =>
      by_cases hd : dest hash (Op.getop op s p n m) = some ds <;> simp_all [List.filterMap_cons]
    | del s p =>
      by_cases hd : dest hash (Op.del s p) = some ds <;> simp_all [List.filterMap_cons]

def putsIn : ReqBody → List PutItem
  | .put l => l
  | _ => []

def putsOut : ResBody → List StatusItem
  | .put l => l
  | _ => []

theorem addAll_puts {rs : List Res} {r r' : Results} (h : addAll rs r = .ok r') (hk : ∀ res ∈ rs, res.body = .put (putsOut res.body)) :
    r'.items = r.items ++ rs.flatMap (fun res => (putsOut res.body).map (initPut res.src)) := by
  induction rs generalizing r with
  | nil => cases h; simp
  | cons res rs ih =>
    simp only [addAll] at h
    obtain ⟨c, hc, h⟩ := ok_iff.mp h
    rw [ih h (fun x hx => hk x (by simp [hx]))]
    unfold addResponse at hc
    rw [hk res (by simp)] at hc
    cases hc
    rw [foldl_items]
    simp

/-- The event of a PUT with its result. -/
def putSaid (a : Val → Bool) (x : PutItem × Result) : Option Ev :=
  if decide (x.2.status = hxSuccess) && (a x.1.subject.val && a x.1.predicate.val && a x.1.object.val) then
    some (.put x.1.subject.val x.1.predicate.val x.1.object.val) else none

theorem putSaid_init (a : Val → Bool) (src : Int) (x : PutItem × StatusItem) : putSaid a (x.1, initPut src x.2) = putEv a x := by
  unfold putSaid putEv
  have : (initPut src x.2).status = hxSuccess ↔ x.2.status = dsSuccess := by
    unfold initPut Result.create
    simp only
    by_cases h : x.2.status = dsSuccess <;> simp [h, hxSuccess, hxError]
  simp only [this]

private theorem putSaid_filter (a : Val → Bool) (ds : Nat) (D : List (PutItem × Result)) :
    (D.filterMap (putSaid a)).filter (fun e => decide (hv hash (evPair e) = some ds)) =
      (D.filter (fun x => decide (home hash x.1.subject x.1.predicate = some ds))).filterMap (putSaid a) := by
  induction D with
  | nil => rfl
  | cons x D ih =>
    by_cases hh : home hash x.1.subject x.1.predicate = some ds
    · rw [List.filter_cons_of_pos (by simp [hh]), List.filterMap_cons, List.filterMap_cons]
      cases hx : putSaid a x with
      | none => exact ih
      | some e =>
        have he : hv hash (evPair e) = some ds := by
          unfold putSaid at hx
          split at hx
          · cases hx; exact hh
          · cases hx
        simp only
        rw [List.filter_cons_of_pos (by simp [he]), ih]
    · rw [List.filter_cons_of_neg (by simp [hh]), List.filterMap_cons]
      cases hx : putSaid a x with
      | none => exact ih
      | some e =>
        have he : hv hash (evPair e) ≠ some ds := by
          unfold putSaid at hx
          split at hx
          · cases hx; exact hh
          · cases hx
        simp only
        rw [List.filter_cons_of_neg (by simp [he]), ih]

/-- The triples of the PUTs a response reports as successful. -/
def putsOk : ReqBody → ResBody → List (Blob × Blob × Blob)
  | .put l, .put r => (l.zip r).filterMap (fun x => if x.2.status = dsSuccess then some (x.1.subject, x.1.predicate, x.1.object) else none)
  | _, _ => []

theorem filter_zip {α β γ : Type} (key : β → Option Nat) (dst : α → Int) (f : α → List (β × γ)) (ds : Nat) (l : List α)
    (hk : ∀ x ∈ l, ∀ y ∈ f x, ∃ d : Nat, dst x = d ∧ key y.1 = some d) :
    (l.flatMap f).filter (fun y => decide (key y.1 = some ds)) = (l.filter (fun x => decide (dst x = (ds : Int)))).flatMap f := by
  induction l with
  | nil => rfl
  | cons x l ih =>
    rw [List.flatMap_cons, List.filter_append, ih (fun z hz => hk z (by simp [hz]))]
    by_cases hx : dst x = ds
    · rw [List.filter_cons_of_pos (by simp [hx]), List.flatMap_cons]
      congr 1
      rw [List.filter_eq_self]
      intro y hy
      obtain ⟨d, h1, h2⟩ := hk x (by simp) y hy
      have : d = ds := by omega
      simp [h2, this]
    · rw [List.filter_cons_of_neg (by simp [hx]), List.filter_eq_nil_iff.mpr, List.nil_append]
      intro y hy
      obtain ⟨d, h1, h2⟩ := hk x (by simp) y hy
      have : d ≠ ds := by omega
      simp [h2, this]

theorem puts_said (hp31 : place.length ≤ 2 ^ 31) {x : Turn} {q : Queue.Queues} {l : List Send} {rs : List Res}
    {r : Results} (hx : TurnOk cb t hash place x)
    (hq : Queue.calls x.cfg true (Queue.Queues.init place.length) x.calls = .ok q) (hd : Delivers x.net .put q.puts l)
    (hall : List.Forall₂ (fun s res => Matches s.req.body res.body) l rs) (ha : addAll rs Results.create = .ok r) :
    ∃ ps : List ((Blob × Blob × Blob) × Result), ps.map Prod.fst = putTriples (turnOps hash x) ∧ (ps.map Prod.snd).Perm r.items ∧
      (∀ y ∈ ps, Reports .put y.1.1 y.1.2.1 y.2) ∧
      (∀ s p : Val, ((ps.filter (fun y => decide ((y.1.1.val, y.1.2.1.val) = (s, p)))).map Prod.snd).Sublist r.items) ∧
      (∀ ds : Nat, ((l.zip rs).flatMap (fun x => done t.accepts x.1.req.body x.2.body)).filter (fun e => decide (hv hash (evPair e) = some ds)) =
        (succeededPuts t.accepts ps).filter (fun e => decide (hv hash (evPair e) = some ds))) ∧
      ∀ ds : Nat, ((l.zip rs).filter (fun z => decide (z.1.req.dst = (ds : Int)))).flatMap (fun z => putsOk z.1.req.body z.2.body) =
        (ps.filter (fun y => decide (y.2.status = hxSuccess ∧ home hash y.1.1 y.1.2.1 = some ds))).map Prod.fst := by
  obtain ⟨⟨qp, -, -, -, -⟩, -⟩ := queue_facts hx hq
  have fp := fine_puts hp31 hx hq hd
  have hkind : ∀ s ∈ l, ∃ p, s.req.body = .put p := by
    intro s hs
    have := (fp s hs).2
    cases hb : s.req.body <;> rw [hb] at this <;> first | exact ⟨_, rfl⟩ | cases this
  have hbody : ∀ z ∈ l.zip rs, z.1.req.body = .put (putsIn z.1.req.body) ∧ z.2.body = .put (putsOut z.2.body) ∧
      List.Forall₂ (fun (a : PutItem) (b : StatusItem) => Echoes a.subject a.origS a.predicate a.origP b.subject b.predicate)
        (putsIn z.1.req.body) (putsOut z.2.body) := by
    intro z hz
    have hm : Matches z.1.req.body z.2.body := (List.forall₂_iff_zip.mp hall).2 hz
    obtain ⟨p, hp⟩ := hkind z.1 (List.of_mem_zip hz).1
    rw [hp] at hm ⊢
    cases hb : z.2.body <;> rw [hb] at hm <;> first | exact hm.elim | exact ⟨rfl, rfl, hm⟩
  have hlen := hall.length_eq
  -- the PUTs with their results, in the order of the deliveries
  let f : Send → List PutItem := fun s => putsIn s.req.body
  let g : Res → List Result := fun res => (putsOut res.body).map (initPut res.src)
  let D := (l.zip rs).flatMap (fun z => (f z.1).zip (g z.2))
  have hfg : ∀ z ∈ l.zip rs, (f z.1).length = (g z.2).length := by
    intro z hz
    have := (hbody z hz).2.2.length_eq
    simp only [f, g, List.length_map]; exact this
  have hfst : D.map Prod.fst = l.flatMap f := zip_fst f g hlen hfg
  have hsnd : D.map Prod.snd = rs.flatMap g := zip_snd f g hlen hfg
  have hitems : r.items = rs.flatMap g := by
    rw [addAll_puts ha]
    · rfl
    · intro res hres
      obtain ⟨i, hi, rfl⟩ := List.mem_iff_getElem.mp hres
      exact (hbody (l[i]'(by omega), rs[i]) (List.mem_iff_getElem.mpr ⟨i, by simp; omega, by simp⟩)).2.1
  have hinD : ∀ y ∈ D, y.1 ∈ putItems (turnOps hash x) ∧ Reports .put y.1.subject y.1.predicate y.2 := by
    intro y hy
    obtain ⟨z, hz, hy⟩ := List.mem_flatMap.mp hy
    obtain ⟨b1, b2, b3⟩ := hbody z hz
    have hs := (List.of_mem_zip hz).1
    obtain ⟨ds, -, -, -, pk, e4, -, e6⟩ := sent_packet hd hs
    have hpk : pk = putsIn z.1.req.body := by rw [e4]; rfl
    have hy' : (y.1, y.2) ∈ (putsIn z.1.req.body).zip ((putsOut z.2.body).map (initPut z.2.src)) := hy
    rw [List.zip_map_right] at hy'
    obtain ⟨u, hu, hyu⟩ := List.mem_map.mp hy'
    have e1 : u.1 = y.1 := congrArg Prod.fst hyu
    have e2 : initPut z.2.src u.2 = y.2 := congrArg Prod.snd hyu
    have hu1 := (List.of_mem_zip hu).1
    have hecho := (List.forall₂_iff_zip.mp b3).2 hu
    have hc := (fp z.1 hs).1.client
    rw [b1] at hc
    obtain ⟨c1, c2, -⟩ := hc u.1 hu1
    refine ⟨?_, ?_⟩
    · have := e6 u.1 (by rw [hpk]; exact hu1)
      rw [qp, puts_items] at this
      rw [← e1]
      exact List.mem_of_mem_filter this
    · rw [← e1, ← e2]
      refine ⟨rfl, ?_, ?_, ?_⟩
      · simp only [initPut, hecho.1, c1]
      · simp only [initPut, hecho.2, c2]
      · simp only [initPut, Result.create]
        split
        · exact Or.inl rfl
        · exact Or.inr rfl
  have hsome : ∀ y ∈ putItems (turnOps hash x), (home hash y.subject y.predicate).isSome := by
    intro y hy
    obtain ⟨o, ho, he⟩ := List.mem_filterMap.mp hy
    obtain ⟨c, -, hc⟩ := List.mem_flatMap.mp ho
    have := ops_dest _ _ o hc
    cases o <;> simp only [Option.some.injEq] at he <;> try cases he
    exact this
  obtain ⟨D', p1, p2, p3⟩ := reorder (fun y : PutItem => home hash y.subject y.predicate) (putItems (turnOps hash x)) D hsome
    (fun y hy => hsome y.1 (hinD y hy).1) (by
      intro ds
      rw [hfst, ← puts_items, ← qp, filter_sent putsIn (fun y => home hash y.subject y.predicate) ds l,
        packets_flat hd putsIn (fun l => l) (fun _ => rfl) rfl (fun _ _ => rfl)]
      intro s hs e he
      obtain ⟨ds, -, e2, -, pk, e4, -, e6⟩ := sent_packet hd hs
      rw [e4] at he
      have := e6 e he
      rw [qp, puts_items] at this
      exact ⟨ds, e2, of_decide_eq_true (List.mem_filter.mp this).2⟩)
  refine ⟨D'.map (fun z => ((z.1.subject, z.1.predicate, z.1.object), z.2)), ?_, ?_, ?_, ?_, ?_, ?_⟩
  · rw [List.map_map, show (Prod.fst ∘ fun z : PutItem × Result => ((z.1.subject, z.1.predicate, z.1.object), z.2)) =
      (fun y : PutItem => (y.subject, y.predicate, y.object)) ∘ Prod.fst from rfl, ← List.map_map, p1]
    unfold putItems putTriples
    rw [List.map_filterMap]
    congr 1
    funext o
    cases o <;> rfl
  · rw [List.map_map, hitems, ← hsnd]
    exact p2.map _
  · intro y hy
    obtain ⟨z, hz, rfl⟩ := List.mem_map.mp hy
    exact (hinD z (p2.mem_iff.mp hz)).2
  · intro s p
    rw [List.filter_map, List.map_map, hitems, ← hsnd]
    have e : D'.filter (fun z => decide ((z.1.subject.val, z.1.predicate.val) = (s, p))) =
        D.filter (fun z => decide ((z.1.subject.val, z.1.predicate.val) = (s, p))) := by
      cases hh : hv hash (s, p) with
      | none =>
        have none_of : ∀ (E : List (PutItem × Result)), (∀ z ∈ E, z ∈ D) →
            E.filter (fun z => decide ((z.1.subject.val, z.1.predicate.val) = (s, p))) = [] := by
          intro E hE
          rw [List.filter_eq_nil_iff]
          intro z hz hc
          have := hsome z.1 (hinD z (hE z hz)).1
          rw [← hv_val, of_decide_eq_true hc, hh] at this
          cases this
        rw [none_of D' (fun z hz => p2.mem_iff.mp hz), none_of D (fun z hz => hz)]
      | some ds =>
        have sub : ∀ E : List (PutItem × Result), E.filter (fun z => decide ((z.1.subject.val, z.1.predicate.val) = (s, p))) =
            (E.filter (fun z => decide (home hash z.1.subject z.1.predicate = some ds))).filter
              (fun z => decide ((z.1.subject.val, z.1.predicate.val) = (s, p))) := by
          intro E
          rw [List.filter_filter]
          congr 1
          funext z
          by_cases hz : (z.1.subject.val, z.1.predicate.val) = (s, p)
          · have : home hash z.1.subject z.1.predicate = some ds := by rw [← hv_val, hz, hh]
            simp [hz, this]
          · simp [hz]
        rw [sub D', sub D, p3]
    rw [show ((fun y : (Blob × Blob × Blob) × Result => decide ((y.1.1.val, y.1.2.1.val) = (s, p))) ∘
      fun z : PutItem × Result => ((z.1.subject, z.1.predicate, z.1.object), z.2)) =
      fun z => decide ((z.1.subject.val, z.1.predicate.val) = (s, p)) from rfl, e]
    exact List.filter_sublist.map _
  · have hev : (l.zip rs).flatMap (fun z => done t.accepts z.1.req.body z.2.body) = D.filterMap (putSaid t.accepts) := by
      show _ = ((l.zip rs).flatMap _).filterMap _
      rw [List.filterMap_flatMap]
      refine flatMap_congr' (fun z hz => ?_)
      obtain ⟨b1, b2, -⟩ := hbody z hz
      rw [b1, b2]
      show (List.zip _ _).filterMap _ = ((putsIn z.1.req.body).zip ((putsOut z.2.body).map (initPut z.2.src))).filterMap _
      rw [List.zip_map_right, List.filterMap_map]
      congr 1
      funext u
      exact (putSaid_init t.accepts z.2.src u).symm
    have hsaid : succeededPuts t.accepts (D'.map (fun z => ((z.1.subject, z.1.predicate, z.1.object), z.2))) =
        D'.filterMap (putSaid t.accepts) := by
      unfold succeededPuts
      rw [List.filterMap_map]
      rfl
    intro ds
    rw [hev, hsaid, putSaid_filter, putSaid_filter, p3]
  · intro ds
    have hD := filter_zip (fun y : PutItem => home hash y.subject y.predicate) (fun z : Send × Res => z.1.req.dst)
      (fun z => (f z.1).zip (g z.2)) ds (l.zip rs) (by
        intro z hz y hy
        obtain ⟨d, -, e2, -, pk, e4, -, e6⟩ := sent_packet hd (List.of_mem_zip hz).1
        have hy1 : y.1 ∈ putsIn z.1.req.body := (List.of_mem_zip hy).1
        rw [e4] at hy1
        have := e6 y.1 hy1
        rw [qp, puts_items] at this
        exact ⟨d, e2, of_decide_eq_true (List.mem_filter.mp this).2⟩)
    have hD' : (D'.map (fun z => ((z.1.subject, z.1.predicate, z.1.object), z.2))).filter
        (fun y => decide (y.2.status = hxSuccess ∧ home hash y.1.1 y.1.2.1 = some ds)) =
        ((D'.filter (fun z => decide (home hash z.1.subject z.1.predicate = some ds))).filter (fun z => decide (z.2.status = hxSuccess))).map
          (fun z => ((z.1.subject, z.1.predicate, z.1.object), z.2)) := by
      rw [List.filter_map, List.filter_filter]
      congr 2
      funext z
      simp [Function.comp]
    rw [hD', p3, hD, List.filter_flatMap, List.map_flatMap, List.map_flatMap]
    refine flatMap_congr' (fun z hz => ?_)
    obtain ⟨b1, b2, -⟩ := hbody z (List.mem_of_mem_filter hz)
    rw [b1, b2]
    show (List.zip _ _).filterMap _ = ((((putsIn z.1.req.body).zip ((putsOut z.2.body).map (initPut z.2.src))).filter _).map _).map _
    rw [List.zip_map_right, List.filter_map, List.map_map, List.map_map]
    generalize (putsIn z.1.req.body).zip (putsOut z.2.body) = L
    induction L with
    | nil => rfl
    | cons u L ih =>
      rw [List.filterMap_cons, List.filter_cons, ih]
      by_cases hu : u.2.status = dsSuccess
      · rw [if_pos hu, if_pos (by simp [initPut, Result.create, hu])]
        rfl
      · rw [if_neg hu, if_neg (by simp [initPut, Result.create, hu, hxSuccess, hxError])]

theorem puts_reported (hp31 : place.length ≤ 2 ^ 31) {w w' : World} {H : List Ev} {x : Turn} {q : Queue.Queues} {l : List Send} {rs : List Res}
    {r : Results} (hw : Stores cb t hash place w H) (hx : TurnOk cb t hash place x)
    (hq : Queue.calls x.cfg true (Queue.Queues.init place.length) x.calls = .ok q) (hd : Delivers x.net .put q.puts l)
    (h : deliverAll (deliver x.net (World.serve cb heap)) l w = .ok (w', rs)) (ha : addAll rs Results.create = .ok r) :
    ∃ ps : List ((Blob × Blob × Blob) × Result), ps.map Prod.fst = putTriples (turnOps hash x) ∧ (ps.map Prod.snd).Perm r.items ∧
      (∀ y ∈ ps, Reports .put y.1.1 y.1.2.1 y.2) ∧
      (∀ s p : Val, ((ps.filter (fun y => decide ((y.1.1.val, y.1.2.1.val) = (s, p)))).map Prod.snd).Sublist r.items) ∧
      Stores cb t hash place w' (H ++ succeededPuts t.accepts ps) := by
  have fp := fine_puts hp31 hx hq hd
  have hkind : ∀ s ∈ l, ∃ p, s.req.body = .put p := by
    intro s hs
    have := (fp s hs).2
    cases hb : s.req.body <;> rw [hb] at this <;> first | exact ⟨_, rfl⟩ | cases this
  obtain ⟨hst, hall⟩ := deliverAll_done hx.address.1 hx.address.2 l hw (fun s hs => ⟨(fp s hs).1, Or.inl (hkind s hs)⟩) h
  obtain ⟨ps, h1, h2, h3, h4, h5, -⟩ := puts_said hp31 hx hq hd hall ha
  refine ⟨ps, h1, h2, h3, h4, ?_⟩
  refine hst.congr (fun s p ds hh => lastObj_same s p (fun e => decide (hv hash (evPair e) = some ds)) ?_ (h5 ds))
  intro e he
  simp [he, hh]

/-! ## DELETEs -/

/-- The DELETEs as they are queued. -/
def delItems (l : List Op) : List DelItem :=
  l.filterMap (fun | .del s p => some ⟨s, s.addr, p, p.addr⟩ | _ => none)

theorem dels_items (ds : Nat) (l : List Op) :
    delsFor hash ds l = (delItems l).filter (fun y => decide (home hash y.subject y.predicate = some ds)) := by
  induction l with
  | nil => rfl
  | cons x l ih =>
    unfold delsFor delItems at ih ⊢
    cases x with
    | put s p o =>
      by_cases hd : dest hash (Op.put s p o) = some ds <;> simp_all [List.filterMap_cons]
    | hist rs name =>
      by_cases hd : dest hash (Op.hist rs name) = some ds <;> simp_all [List.filterMap_cons]
    | get s p n =>
      by_cases hd : dest hash (Op.get s p n) = some ds <;> simp_all [List.filterMap_cons]
    | getop op s p n m =>
      by_cases hd : dest hash (Op.getop op s p n m) = some ds <;> simp_all [List.filterMap_cons]
    | del s p =>
      by_cases hh : home hash s p = some ds <;> simp_all [dest, List.filterMap_cons]

def delsIn : ReqBody → List DelItem
  | .del l => l
  | _ => []

def delsOut : ResBody → List StatusItem
  | .del l => l
  | _ => []

theorem addAll_dels {rs : List Res} {r r' : Results} (h : addAll rs r = .ok r') (hk : ∀ res ∈ rs, res.body = .del (delsOut res.body)) :
    r'.items = r.items ++ rs.flatMap (fun res => (delsOut res.body).map (initDel res.src)) := by
  induction rs generalizing r with
  | nil => cases h; simp
  | cons res rs ih =>
    simp only [addAll] at h
    obtain ⟨c, hc, h⟩ := ok_iff.mp h
    rw [ih h (fun x hx => hk x (by simp [hx]))]
    unfold addResponse at hc
    rw [hk res (by simp)] at hc
    cases hc
    rw [foldl_items]
    simp

/-- The event of a DELETE with its result. -/
def delSaid (a : Val → Bool) (x : DelItem × Result) : Option Ev :=
  if decide (x.2.status = hxSuccess) && (a x.1.subject.val && a x.1.predicate.val) then
    some (.del x.1.subject.val x.1.predicate.val) else none

theorem delSaid_init (a : Val → Bool) (src : Int) (x : DelItem × StatusItem) : delSaid a (x.1, initDel src x.2) = delEv a x := by
  unfold delSaid delEv
  have : (initDel src x.2).status = hxSuccess ↔ x.2.status = dsSuccess := by
    unfold initDel Result.create
    simp only
    by_cases h : x.2.status = dsSuccess <;> simp [h, hxSuccess, hxError]
  simp only [this]

private theorem delSaid_filter (a : Val → Bool) (ds : Nat) (D : List (DelItem × Result)) :
    (D.filterMap (delSaid a)).filter (fun e => decide (hv hash (evPair e) = some ds)) =
      (D.filter (fun x => decide (home hash x.1.subject x.1.predicate = some ds))).filterMap (delSaid a) := by
  induction D with
  | nil => rfl
  | cons x D ih =>
    by_cases hh : home hash x.1.subject x.1.predicate = some ds
    · rw [List.filter_cons_of_pos (by simp [hh]), List.filterMap_cons, List.filterMap_cons]
      cases hx : delSaid a x with
      | none => exact ih
      | some e =>
        have he : hv hash (evPair e) = some ds := by
          unfold delSaid at hx
          split at hx
          · cases hx; exact hh
          · cases hx
        simp only
        rw [List.filter_cons_of_pos (by simp [he]), ih]
    · rw [List.filter_cons_of_neg (by simp [hh]), List.filterMap_cons]
      cases hx : delSaid a x with
      | none => exact ih
      | some e =>
        have he : hv hash (evPair e) ≠ some ds := by
          unfold delSaid at hx
          split at hx
          · cases hx; exact hh
          · cases hx
        simp only
        rw [List.filter_cons_of_neg (by simp [he]), ih]

theorem dels_said (hp31 : place.length ≤ 2 ^ 31) {x : Turn} {q : Queue.Queues} {l : List Send} {rs : List Res}
    {r : Results} (hx : TurnOk cb t hash place x)
    (hq : Queue.calls x.cfg true (Queue.Queues.init place.length) x.calls = .ok q) (hd : Delivers x.net .del q.dels l)
    (hall : List.Forall₂ (fun s res => Matches s.req.body res.body) l rs) (ha : addAll rs Results.create = .ok r) :
    ∃ ps : List ((Blob × Blob) × Result), ps.map Prod.fst = delPairs (turnOps hash x) ∧ (ps.map Prod.snd).Perm r.items ∧
      (∀ y ∈ ps, Reports .del y.1.1 y.1.2 y.2) ∧
      (∀ s p : Val, ((ps.filter (fun y => decide ((y.1.1.val, y.1.2.val) = (s, p)))).map Prod.snd).Sublist r.items) ∧
      ∀ ds : Nat, ((l.zip rs).flatMap (fun x => done t.accepts x.1.req.body x.2.body)).filter (fun e => decide (hv hash (evPair e) = some ds)) =
        (succeededDels t.accepts ps).filter (fun e => decide (hv hash (evPair e) = some ds)) := by
  obtain ⟨⟨-, -, -, qp, -⟩, -⟩ := queue_facts hx hq
  have fp := fine_dels hp31 hx hq hd
  have hkind : ∀ s ∈ l, ∃ p, s.req.body = .del p := by
    intro s hs
    have := (fp s hs).2
    cases hb : s.req.body <;> rw [hb] at this <;> first | exact ⟨_, rfl⟩ | cases this
  have hbody : ∀ z ∈ l.zip rs, z.1.req.body = .del (delsIn z.1.req.body) ∧ z.2.body = .del (delsOut z.2.body) ∧
      List.Forall₂ (fun (a : DelItem) (b : StatusItem) => Echoes a.subject a.origS a.predicate a.origP b.subject b.predicate)
        (delsIn z.1.req.body) (delsOut z.2.body) := by
    intro z hz
    have hm : Matches z.1.req.body z.2.body := (List.forall₂_iff_zip.mp hall).2 hz
    obtain ⟨p, hp⟩ := hkind z.1 (List.of_mem_zip hz).1
    rw [hp] at hm ⊢
    cases hb : z.2.body <;> rw [hb] at hm <;> first | exact hm.elim | exact ⟨rfl, rfl, hm⟩
  have hlen := hall.length_eq
  -- the DELETEs with their results, in the order of the deliveries
  let f : Send → List DelItem := fun s => delsIn s.req.body
  let g : Res → List Result := fun res => (delsOut res.body).map (initDel res.src)
  let D := (l.zip rs).flatMap (fun z => (f z.1).zip (g z.2))
  have hfg : ∀ z ∈ l.zip rs, (f z.1).length = (g z.2).length := by
    intro z hz
    have := (hbody z hz).2.2.length_eq
    simp only [f, g, List.length_map]; exact this
  have hfst : D.map Prod.fst = l.flatMap f := zip_fst f g hlen hfg
  have hsnd : D.map Prod.snd = rs.flatMap g := zip_snd f g hlen hfg
  have hitems : r.items = rs.flatMap g := by
    rw [addAll_dels ha]
    · rfl
    · intro res hres
      obtain ⟨i, hi, rfl⟩ := List.mem_iff_getElem.mp hres
      exact (hbody (l[i]'(by omega), rs[i]) (List.mem_iff_getElem.mpr ⟨i, by simp; omega, by simp⟩)).2.1
  have hinD : ∀ y ∈ D, y.1 ∈ delItems (turnOps hash x) ∧ Reports .del y.1.subject y.1.predicate y.2 := by
    intro y hy
    obtain ⟨z, hz, hy⟩ := List.mem_flatMap.mp hy
    obtain ⟨b1, b2, b3⟩ := hbody z hz
    have hs := (List.of_mem_zip hz).1
    obtain ⟨ds, -, -, -, pk, e4, -, e6⟩ := sent_packet hd hs
    have hpk : pk = delsIn z.1.req.body := by rw [e4]; rfl
    have hy' : (y.1, y.2) ∈ (delsIn z.1.req.body).zip ((delsOut z.2.body).map (initDel z.2.src)) := hy
    rw [List.zip_map_right] at hy'
    obtain ⟨u, hu, hyu⟩ := List.mem_map.mp hy'
    have e1 : u.1 = y.1 := congrArg Prod.fst hyu
    have e2 : initDel z.2.src u.2 = y.2 := congrArg Prod.snd hyu
    have hu1 := (List.of_mem_zip hu).1
    have hecho := (List.forall₂_iff_zip.mp b3).2 hu
    have hc := (fp z.1 hs).1.client
    rw [b1] at hc
    obtain ⟨c1, c2⟩ := hc u.1 hu1
    refine ⟨?_, ?_⟩
    · have := e6 u.1 (by rw [hpk]; exact hu1)
      rw [qp, dels_items] at this
      rw [← e1]
      exact List.mem_of_mem_filter this
    · rw [← e1, ← e2]
      refine ⟨rfl, ?_, ?_, ?_⟩
      · simp only [initDel, hecho.1, c1]
      · simp only [initDel, hecho.2, c2]
      · simp only [initDel, Result.create]
        split
        · exact Or.inl rfl
        · exact Or.inr rfl
  have hsome : ∀ y ∈ delItems (turnOps hash x), (home hash y.subject y.predicate).isSome := by
    intro y hy
    obtain ⟨o, ho, he⟩ := List.mem_filterMap.mp hy
    obtain ⟨c, -, hc⟩ := List.mem_flatMap.mp ho
    have := ops_dest _ _ o hc
    cases o <;> simp only [Option.some.injEq] at he <;> try cases he
    exact this
  obtain ⟨D', p1, p2, p3⟩ := reorder (fun y : DelItem => home hash y.subject y.predicate) (delItems (turnOps hash x)) D hsome
    (fun y hy => hsome y.1 (hinD y hy).1) (by
      intro ds
      rw [hfst, ← dels_items, ← qp, filter_sent delsIn (fun y => home hash y.subject y.predicate) ds l,
        packets_flat hd delsIn (fun l => l) (fun _ => rfl) rfl (fun _ _ => rfl)]
      intro s hs e he
      obtain ⟨ds, -, e2, -, pk, e4, -, e6⟩ := sent_packet hd hs
      rw [e4] at he
      have := e6 e he
      rw [qp, dels_items] at this
      exact ⟨ds, e2, of_decide_eq_true (List.mem_filter.mp this).2⟩)
  refine ⟨D'.map (fun z => ((z.1.subject, z.1.predicate), z.2)), ?_, ?_, ?_, ?_, ?_⟩
  · rw [List.map_map, show (Prod.fst ∘ fun z : DelItem × Result => ((z.1.subject, z.1.predicate), z.2)) =
      (fun y : DelItem => (y.subject, y.predicate)) ∘ Prod.fst from rfl, ← List.map_map, p1]
    unfold delItems delPairs
    rw [List.map_filterMap]
    congr 1
    funext o
    cases o <;> rfl
  · rw [List.map_map, hitems, ← hsnd]
    exact p2.map _
  · intro y hy
    obtain ⟨z, hz, rfl⟩ := List.mem_map.mp hy
    exact (hinD z (p2.mem_iff.mp hz)).2
  · intro s p
    rw [List.filter_map, List.map_map, hitems, ← hsnd]
    have e : D'.filter (fun z => decide ((z.1.subject.val, z.1.predicate.val) = (s, p))) =
        D.filter (fun z => decide ((z.1.subject.val, z.1.predicate.val) = (s, p))) := by
      cases hh : hv hash (s, p) with
      | none =>
        have none_of : ∀ (E : List (DelItem × Result)), (∀ z ∈ E, z ∈ D) →
            E.filter (fun z => decide ((z.1.subject.val, z.1.predicate.val) = (s, p))) = [] := by
          intro E hE
          rw [List.filter_eq_nil_iff]
          intro z hz hc
          have := hsome z.1 (hinD z (hE z hz)).1
          rw [← hv_val, of_decide_eq_true hc, hh] at this
          cases this
        rw [none_of D' (fun z hz => p2.mem_iff.mp hz), none_of D (fun z hz => hz)]
      | some ds =>
        have sub : ∀ E : List (DelItem × Result), E.filter (fun z => decide ((z.1.subject.val, z.1.predicate.val) = (s, p))) =
            (E.filter (fun z => decide (home hash z.1.subject z.1.predicate = some ds))).filter
              (fun z => decide ((z.1.subject.val, z.1.predicate.val) = (s, p))) := by
          intro E
          rw [List.filter_filter]
          congr 1
          funext z
          by_cases hz : (z.1.subject.val, z.1.predicate.val) = (s, p)
          · have : home hash z.1.subject z.1.predicate = some ds := by rw [← hv_val, hz, hh]
            simp [hz, this]
          · simp [hz]
        rw [sub D', sub D, p3]
    rw [show ((fun y : (Blob × Blob) × Result => decide ((y.1.1.val, y.1.2.val) = (s, p))) ∘
      fun z : DelItem × Result => ((z.1.subject, z.1.predicate), z.2)) =
      fun z => decide ((z.1.subject.val, z.1.predicate.val) = (s, p)) from rfl, e]
    exact List.filter_sublist.map _
  · have hev : (l.zip rs).flatMap (fun z => done t.accepts z.1.req.body z.2.body) = D.filterMap (delSaid t.accepts) := by
      show _ = ((l.zip rs).flatMap _).filterMap _
      rw [List.filterMap_flatMap]
      refine flatMap_congr' (fun z hz => ?_)
      obtain ⟨b1, b2, -⟩ := hbody z hz
      rw [b1, b2]
      show (List.zip _ _).filterMap _ = ((delsIn z.1.req.body).zip ((delsOut z.2.body).map (initDel z.2.src))).filterMap _
      rw [List.zip_map_right, List.filterMap_map]
      congr 1
      funext u
      exact (delSaid_init t.accepts z.2.src u).symm
    have hsaid : succeededDels t.accepts (D'.map (fun z => ((z.1.subject, z.1.predicate), z.2))) =
        D'.filterMap (delSaid t.accepts) := by
      unfold succeededDels
      rw [List.filterMap_map]
      rfl
    intro ds
    rw [hev, hsaid, delSaid_filter, delSaid_filter, p3]

theorem dels_reported (hp31 : place.length ≤ 2 ^ 31) {w w' : World} {H : List Ev} {x : Turn} {q : Queue.Queues} {l : List Send} {rs : List Res}
    {r : Results} (hw : Stores cb t hash place w H) (hx : TurnOk cb t hash place x)
    (hq : Queue.calls x.cfg true (Queue.Queues.init place.length) x.calls = .ok q) (hd : Delivers x.net .del q.dels l)
    (h : deliverAll (deliver x.net (World.serve cb heap)) l w = .ok (w', rs)) (ha : addAll rs Results.create = .ok r) :
    ∃ ps : List ((Blob × Blob) × Result), ps.map Prod.fst = delPairs (turnOps hash x) ∧ (ps.map Prod.snd).Perm r.items ∧
      (∀ y ∈ ps, Reports .del y.1.1 y.1.2 y.2) ∧
      (∀ s p : Val, ((ps.filter (fun y => decide ((y.1.1.val, y.1.2.val) = (s, p)))).map Prod.snd).Sublist r.items) ∧
      Stores cb t hash place w' (H ++ succeededDels t.accepts ps) := by
  have fp := fine_dels hp31 hx hq hd
  have hkind : ∀ s ∈ l, ∃ p, s.req.body = .del p := by
    intro s hs
    have := (fp s hs).2
    cases hb : s.req.body <;> rw [hb] at this <;> first | exact ⟨_, rfl⟩ | cases this
  obtain ⟨hst, hall⟩ := deliverAll_done hx.address.1 hx.address.2 l hw (fun s hs => ⟨(fp s hs).1, Or.inr (hkind s hs)⟩) h
  obtain ⟨ps, h1, h2, h3, h4, h5⟩ := dels_said hp31 hx hq hd hall ha
  refine ⟨ps, h1, h2, h3, h4, ?_⟩
  refine hst.congr (fun s p ds hh => lastObj_same s p (fun e => decide (hv hash (evPair e) = some ds)) ?_ (h5 ds))
  intro e he
  simp [he, hh]

/-! ## GETs -/

theorem gets_returned (hheap : heap ≠ 0) (hheap' : heap < 2 ^ 64) (hp31 : place.length ≤ 2 ^ 31) {w w' : World} {H : List Ev}
    {x : Turn} {q : Queue.Queues} {l : List Send} {rs : List Res} {r : Results} (hw : Stores cb t hash place w H)
    (hx : TurnOk cb t hash place x) (hq : Queue.calls x.cfg true (Queue.Queues.init place.length) x.calls = .ok q)
    (hd : Delivers x.net .get q.gets l) (h : deliverAll (deliver x.net (World.serve cb heap)) l w = .ok (w', rs))
    (ha : addAll rs Results.create = .ok r) :
    ∃ gs, gs.Perm (getPairs (turnOps hash x)) ∧ List.Forall₂ (Returned t H) gs r.items := by
  obtain ⟨⟨-, qg, -, -, -⟩, -⟩ := queue_facts hx hq
  have fg := fine_gets hp31 hx hq hd
  have hdest : ∀ o ∈ turnOps hash x, (dest hash o).isSome := by
    intro o ho
    obtain ⟨c, -, hc⟩ := List.mem_flatMap.mp ho
    exact ops_dest _ _ o hc
  obtain ⟨b1, b2⟩ := deliverAll_gets hheap hheap' hx.address.1 hx.address.2 l hw (fun s hs => by
    obtain ⟨⟨v1, -⟩, g, v2, v3⟩ := fg s hs
    exact ⟨v1, g, v2, fun y hy => (v3 y hy).2⟩) h
  have hitems := addAll_gets ha getsOut b1
  refine ⟨(l.flatMap (fun s => getsIn s.req.body)).map (fun g => (g.subject, g.predicate)), ?_, ?_⟩
  · rw [← getItems_pairs]
    refine List.Perm.map _ ?_
    rw [List.perm_iff_count]
    intro a
    have hg : ∀ ds, (l.flatMap (fun s => getsIn s.req.body)).filter (fun y => decide (home hash y.subject y.predicate = some ds)) =
        (getItems (turnOps hash x)).filter (fun y => decide (home hash y.subject y.predicate = some ds)) := by
      intro ds
      rw [← gets_filter, ← qg, filter_sent getsIn (fun y => home hash y.subject y.predicate) ds l,
        packets_flat hd getsIn (fun l => l) (fun _ => rfl) rfl (fun _ _ => rfl)]
      intro s hs e he
      obtain ⟨-, g, v2, v3⟩ := fg s hs
      rw [v2] at he
      exact (v3 e he).2.2.2
    cases hh : home hash a.subject a.predicate with
    | some ds =>
      rw [← List.count_filter (p := fun y => decide (home hash y.subject y.predicate = some ds)) (by simp [hh]), hg ds,
        List.count_filter (by simp [hh])]
    | none =>
      rw [List.count_eq_zero_of_not_mem, List.count_eq_zero_of_not_mem]
      · intro ha
        obtain ⟨o, ho, he⟩ := List.mem_filterMap.mp ha
        have hd := hdest o ho
        cases o <;> simp only [Option.some.injEq] at he <;> try cases he
        simp only [dest] at hd
        simp only at hh
        rw [hh] at hd
        cases hd
      · intro ha
        obtain ⟨s, hs, he⟩ := List.mem_flatMap.mp ha
        obtain ⟨-, g, v2, v3⟩ := fg s hs
        rw [v2] at he
        obtain ⟨-, -, -, ds, -, v4⟩ := v3 a he
        rw [hh] at v4
        cases v4
  · rw [hitems]
    simp only [Results.create, List.nil_append]
    exact forall₂_results _ _ b2

/-! ## Turns -/

theorem kind_none {l : List Result} {K K' : Kind} (hK : K ≠ K') (h : ∀ x ∈ l, x.kind = K) :
    l.filter (fun r => decide (r.kind = K')) = [] := by
  rw [List.filter_eq_nil_iff]
  intro x hx
  simp [h x hx, hK]

theorem kind_all {l : List Result} {K : Kind} (h : ∀ x ∈ l, x.kind = K) : l.filter (fun r => decide (r.kind = K)) = l := by
  rw [List.filter_eq_self]
  intro x hx
  simp [h x hx]

/-- What a turn did according to its results, and what its GETs returned. -/
structure Saw (t : Transform) (hash : Bytes → Bytes → Out Int) (H : List Ev) (x : Turn) (r : Results)
    (ps : List ((Blob × Blob × Blob) × Result)) (ds : List ((Blob × Blob) × Result)) : Prop where
  puts : PutsReported (turnOps hash x) r ps
  dels : DelsReported (turnOps hash x) r ds
  gets : ∃ gs, gs.Perm (getPairs (turnOps hash x)) ∧
    List.Forall₂ (Returned t (H ++ succeededPuts t.accepts ps)) gs (r.items.filter (fun y => decide (y.kind = .get)))

theorem turn_stores (hheap : heap ≠ 0) (hheap' : heap < 2 ^ 64) (hp31 : place.length ≤ 2 ^ 31) {w w' : World} {H : List Ev}
    {x : Turn} {r : Results} (hw : Stores cb t hash place w H) (hx : TurnOk cb t hash place x)
    (h : turn cb heap place.length w x = .ok (w', r)) :
    ∃ ps ds, Stores cb t hash place w' (H ++ (succeededPuts t.accepts ps ++ succeededDels t.accepts ds)) ∧ Saw t hash H x r ps ds := by
  unfold turn at h
  obtain ⟨q, hq, h⟩ := ok_iff.mp h
  obtain ⟨y, hy, h⟩ := ok_iff.mp h
  cases h
  obtain ⟨-, z1, z2, z3, z4, z5⟩ := queue_facts hx hq
  have hR := hx.routed
  unfold flush flushPuts flushGets flushGetOps flushDels flushHists at hy
  obtain ⟨x1, h1, hy⟩ := ok_iff.mp hy
  obtain ⟨y1, g1, h1⟩ := ok_iff.mp h1; cases h1
  obtain ⟨x2, h2, hy⟩ := ok_iff.mp hy
  obtain ⟨y2, g2, h2⟩ := ok_iff.mp h2; cases h2
  obtain ⟨x3, h3, hy⟩ := ok_iff.mp hy
  obtain ⟨y3, g3, h3⟩ := ok_iff.mp h3; cases h3
  obtain ⟨x4, h4, hy⟩ := ok_iff.mp hy
  obtain ⟨y4, g4, h4⟩ := ok_iff.mp h4; cases h4
  obtain ⟨x5, h5, hy⟩ := ok_iff.mp hy
  obtain ⟨y5, g5, h5⟩ := ok_iff.mp h5; cases h5
  cases hy
  obtain ⟨lp, r1, p1, d1, a1⟩ := phase _ _ (by rw [z1]; exact hR) g1
  obtain ⟨lg, r2, p2, d2, a2⟩ := phase _ _ (by rw [show _ = q.gets from rfl, z2]; exact hR) g2
  obtain ⟨lo, r3, p3, d3, a3⟩ := phase _ _ (by rw [show _ = q.getops from rfl, z3]; exact hR) g3
  obtain ⟨ld, r4, p4, d4, a4⟩ := phase _ _ (by rw [show _ = q.dels from rfl, z4]; exact hR) g4
  obtain ⟨lh, r5, p5, d5, a5⟩ := phase _ _ (by rw [show _ = q.hists from rfl, z5]; exact hR) g5
  simp only at p2 p3 p4 p5 d2 d3 d4 d5
  have fp := fine_puts hp31 hx hq p1
  have fg := fine_gets hp31 hx hq p2
  have fo := fine_getops hp31 hx hq p3
  have fd := fine_dels hp31 hx hq p4
  have fh := fine_hists hp31 hx hq p5
  have k1 := addAll_kind a1 (deliverAll_kinds lp (fun s hs => ⟨(fp s hs).1.req, (fp s hs).2⟩) d1) (by simp [Results.create])
  have k2 := addAll_kind a2 (deliverAll_kinds lg (fun s hs => ⟨(fg s hs).1.1.req, (fg s hs).1.2⟩) d2) (by simp [Results.create])
  have k3 := addAll_kind a3 (deliverAll_kinds lo (fun s hs => ⟨(fo s hs).1.req, (fo s hs).2⟩) d3) (by simp [Results.create])
  have k4 := addAll_kind a4 (deliverAll_kinds ld (fun s hs => ⟨(fd s hs).1.req, (fd s hs).2⟩) d4) (by simp [Results.create])
  have k5 := addAll_kind a5 (deliverAll_kinds lh (fun s hs => ⟨(fh s hs).1.req, (fh s hs).2⟩) d5) (by simp [Results.create])
  obtain ⟨ps, e1, e2, e3, e4, w1⟩ := puts_reported hp31 hw hx hq p1 d1 a1
  obtain ⟨gs, f1, f2⟩ := gets_returned hheap hheap' hp31 w1 hx hq p2 d2 a2
  have w2 := deliverAll_nothing lg w1 (fun s hs => ⟨(fg s hs).1.1, _, (fg s hs).1.2, by decide, by decide⟩) d2
  have w3 := deliverAll_nothing lo w2 (fun s hs => ⟨(fo s hs).1, _, (fo s hs).2, by decide, by decide⟩) d3
  obtain ⟨ds, i1, i2, i3, i4, w4⟩ := dels_reported hp31 w3 hx hq p4 d4 a4
  have w5 := deliverAll_nothing lh w4 (fun s hs => ⟨(fh s hs).1, _, (fh s hs).2, by decide, by decide⟩) d5
  refine ⟨ps, ds, by rw [← List.append_assoc]; exact w5, ⟨e1, ?_, e3, ?_⟩, ⟨i1, ?_, i3, ?_⟩, gs, f1, ?_⟩
  · simp only [append_items, List.filter_append]
    rw [kind_all k1, kind_none (by decide) k2, kind_none (by decide) k3, kind_none (by decide) k4, kind_none (by decide) k5]
    simpa [Results.create] using e2
  · intro s p
    refine (e4 s p).trans ?_
    simp only [append_items, Results.create, List.nil_append, List.append_assoc]
    exact List.sublist_append_left _ _
  · simp only [append_items, List.filter_append]
    rw [kind_none (by decide) k1, kind_none (by decide) k2, kind_none (by decide) k3, kind_all k4, kind_none (by decide) k5]
    simpa [Results.create] using i2
  · intro s p
    refine (i4 s p).trans ?_
    simp only [append_items]
    exact (List.sublist_append_right _ _).trans (List.sublist_append_left _ _)
  · simp only [append_items, List.filter_append]
    rw [kind_none (by decide) k1, kind_all k2, kind_none (by decide) k3, kind_none (by decide) k4, kind_none (by decide) k5]
    simpa [Results.create] using f2

theorem run_stores (hheap : heap ≠ 0) (hheap' : heap < 2 ^ 64) (hp31 : place.length ≤ 2 ^ 31) (l : List Turn) {w w' : World}
    {H : List Ev} {rs : List Results} (hw : Stores cb t hash place w H) (hl : ∀ x ∈ l, TurnOk cb t hash place x)
    (h : run cb heap place.length w l = .ok (w', rs)) :
    ∃ H', Reported t.accepts hash l rs H' ∧ Stores cb t hash place w' (H ++ H') := by
  induction l generalizing w H rs with
  | nil => cases h; exact ⟨[], .nil, by simpa using hw⟩
  | cons x l ih =>
    simp only [run] at h
    obtain ⟨y, hy, h⟩ := ok_iff.mp h
    obtain ⟨z, hz, h⟩ := ok_iff.mp h
    cases h
    obtain ⟨ps, ds, e1, e2⟩ := turn_stores hheap hheap' hp31 hw (hl x (by simp)) hy
    obtain ⟨H', f1, f2⟩ := ih e1 (fun u hu => hl u (by simp [hu])) hz
    refine ⟨_, .cons e2.puts e2.dels f1, ?_⟩
    rw [← List.append_assoc]
    exact f2

end Hx.Job

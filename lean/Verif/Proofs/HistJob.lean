import Verif.Proofs.OverlapFail
import Verif.Props.C43_HistStore

/-!
# Helper lemmas: histograms of a job
-/

namespace Hx.Job
open Hx Msg Spec Process Store Results Props

variable {cb : Callbacks} {t : Transform} {hash : Bytes → Bytes → Out Int} {place : List Int} {heap : Nat}

/-! ## Histograms of the range servers -/

/-- The range server on a rank lets one of its datastores answer. -/
theorem serve_at {w w' : World} {rank : Int} {req : Req} {res : Res} {ds : Nat} (hd : req.dst = ds)
    (h : World.serve cb heap w rank req = .ok (w', res)) :
    ∃ d d' o, (w.ds rank)[ds % (w.ds rank).length]? = some d ∧ d.operate cb heap (w.wr w.served) req.body = .ok (d', o) ∧
      w'.ds = (fun r => if r = rank then (w.ds rank).set (ds % (w.ds rank).length) d' else w.ds r) ∧
      res = ⟨req.dst, req.src, o.getD (emptyLike req.body)⟩ := by
  unfold World.serve at h
  obtain ⟨x, hx, h⟩ := ok_iff.mp h
  cases h
  unfold rangeServer at hx
  split at hx
  · cases hx
  · simp only at hx
    have hi : (req.dst % ((w.ds rank).length : Int)).toNat = ds % (w.ds rank).length := by
      rw [hd, ← Int.natCast_emod, Int.toNat_natCast]
    rw [hi] at hx
    split at hx
    · cases hx
    · rename_i d hdi
      obtain ⟨y, hy, hx⟩ := ok_iff.mp hx
      cases hx
      exact ⟨d, y.1, y.2, hdi, hy, rfl, rfl⟩

theorem contributed_getD (name : Bytes) (req : ReqBody) (o : Option ResBody) :
    contributed name req (some (o.getD (emptyLike req))) = contributed name req o := by
  cases o with
  | some r => rfl
  | none => cases req <;> simp [contributed, emptyLike]

theorem histAt_some {w : World} {ds : Nat} {r : Int} (hr : place[ds]? = some r) (name : Bytes) :
    histAt place w ds name = (w.ds r)[ds % (w.ds r).length]?.bind (fun d => find d.hists name) := by
  unfold histAt
  rw [hr]
  rfl

/-- One request and the histograms. -/
theorem serve_hists {w w' : World} {rank : Int} {req : Req} {res : Res} {ds' : Nat} (ha : Apart place w) (hd : req.dst = ds')
    (hp : place[ds']? = some rank) (h : World.serve cb heap w rank req = .ok (w', res)) :
    (∀ r, (w'.ds r).length = (w.ds r).length) ∧ ∀ ds r, place[ds]? = some r → ∀ name,
      (histAt place w ds name = none → histAt place w' ds name = none) ∧
      ∀ h0, histAt place w ds name = some h0 → ∃ h1, h0.addAll (if req.dst = (ds : Int) then contributed name req.body (some res.body) else []) = .ok h1 ∧
        histAt place w' ds name = some h1 := by
  obtain ⟨d, d', o, hdi, ho, hw', hres⟩ := serve_at hd h
  have hlen : ∀ r, (w'.ds r).length = (w.ds r).length := by
    intro r
    rw [hw']
    simp only
    split
    · rename_i hr; subst hr; simp
    · rfl
  refine ⟨hlen, fun ds r hr name => ?_⟩
  rw [histAt_some hr, histAt_some hr, hlen]
  by_cases hds : ds = ds'
  · subst hds
    have hrr : r = rank := Option.some.inj (hr.symm.trans hp)
    subst hrr
    have hget : (w'.ds r)[ds % (w.ds r).length]? = some d' := by
      rw [hw']
      simp only [if_true]
      rw [List.getElem?_set_self]
      exact (List.getElem?_eq_some_iff.mp hdi).1
    rw [hget, hdi]
    simp only [Option.bind_some]
    rw [if_pos hd, hres]
    simp only
    rw [contributed_getD]
    exact operate_hists ho name
  · have hget : (w'.ds r)[ds % (w.ds r).length]? = (w.ds r)[ds % (w.ds r).length]? := by
      rw [hw']
      simp only
      split
      · rename_i hrr
        subst hrr
        rw [List.getElem?_set_ne]
        intro he
        exact hds (ha r ds ds' hr hp he.symm)
      · rfl
    rw [hget, if_neg (by omega)]
    exact ⟨id, fun h0 e => ⟨h0, rfl, e⟩⟩

/-- A known request goes to the rank of its datastore. -/
theorem Known.at {y : Served} (h : Known cb t hash place heap y) : ∃ ds : Nat, y.req.dst = ds ∧ place[ds]? = some y.rank := by
  obtain ⟨net, m, rfl, hok, hf⟩ := h
  obtain ⟨ds, h1, h2, -⟩ := hf.dst
  exact ⟨ds, by rw [hok.dst]; exact h1, by rw [hok.rank]; exact h2⟩

theorem loggedNumbers_append (ds : Nat) (name : Bytes) (a b : List Served) :
    loggedNumbers ds name (a ++ b) = loggedNumbers ds name a ++ loggedNumbers ds name b := by
  unfold loggedNumbers
  rw [List.filter_append, List.flatMap_append]

theorem loggedNumbers_cons (ds : Nat) (name : Bytes) (y : Served) (b : List Served) :
    loggedNumbers ds name (y :: b) =
      (if y.req.dst = (ds : Int) then contributed name y.req.body (some y.res.body) else []) ++ loggedNumbers ds name b := by
  unfold loggedNumbers
  by_cases h : y.req.dst = (ds : Int)
  · rw [List.filter_cons_of_pos (by simp [h]), if_pos h, List.flatMap_cons]
  · rw [List.filter_cons_of_neg (by simp [h]), if_neg h, List.nil_append]

/-- The histograms after a part of the log have the numbers of that part. -/
theorem executes_hists {w w' : World} {log : List Served} (ha : Apart place w) (hl : ∀ y ∈ log, Known cb t hash place heap y)
    (h : executes cb heap w log w') : ∀ ds r, place[ds]? = some r → ∀ name,
      (histAt place w ds name = none → histAt place w' ds name = none) ∧
      ∀ h0, histAt place w ds name = some h0 → ∃ h1, h0.addAll (loggedNumbers ds name log) = .ok h1 ∧
        histAt place w' ds name = some h1 := by
  induction log generalizing w with
  | nil => cases h; exact fun ds r _ name => ⟨id, fun h0 e => ⟨h0, rfl, e⟩⟩
  | cons y log ih =>
    obtain ⟨u, hu, h⟩ := h
    obtain ⟨ds', k1, k2⟩ := (hl y (by simp)).at
    obtain ⟨hlen, hstep⟩ := serve_hists ha k1 k2 hu
    have ha' : Apart place u := by
      intro rank a b h1 h2 h3
      rw [hlen] at h3
      exact ha rank a b h1 h2 h3
    intro ds r hr name
    obtain ⟨a1, a2⟩ := hstep ds r hr name
    obtain ⟨b1, b2⟩ := ih ha' (fun z hz => hl z (by simp [hz])) h ds r hr name
    refine ⟨fun e => b1 (a1 e), fun h0 e => ?_⟩
    obtain ⟨h1, e1, f1⟩ := a2 h0 e
    obtain ⟨h2, e2, f2⟩ := b2 h1 f1
    refine ⟨h2, ?_, f2⟩
    rw [loggedNumbers_cons, Hist.addAll_append, e1, Out.ok_bind, e2]

/-! ## Answers -/

private theorem sameHist_refl (h : Hist) : SameHist h h := ⟨rfl, rfl, rfl, rfl, fun _ => rfl, rfl, rfl⟩

/-- What a histogram request gets when the range server has these histograms. -/
theorem hist_back {net : Net} (hh : net.heap ≠ 0) (hh' : net.heap < 2 ^ 64) {x : Send} {w u : World} {o : Option Res} {names : List Blob}
    (hx : Fine cb t hash place net.heap x) (hb : x.req.body = .hist names) {ds : Nat} (hds : x.req.dst = ds)
    (hpl : place[ds]? = some x.rank)
    (hfit : ∀ b ∈ names, ∀ h, histAt place w ds b.bytes = some h → HistFits h)
    (h : deliver net (World.serve cb heap) w x = .ok (u, o)) :
    List.Forall₂ (fun (b : Blob) z => z.kind = Results.Kind.hist ∧
        (∀ h, histAt place w ds b.bytes = some h → z.status = hxSuccess ∧ ∃ h2, z.hist = some h2 ∧ SameHist h h2) ∧
        (histAt place w ds b.bytes = none → z.status = hxError ∧ z.hist = none)) names
      (o.toList.flatMap (fun res => (histsOut res).map (initHist res.src))) := by
  obtain ⟨res, hs⟩ := deliver_serve hx.req hx.client h
  obtain ⟨d, d', o', hdi, ho, -, hres⟩ := serve_at hds hs
  rw [hb] at ho
  simp only [DS.operate] at ho
  cases ho
  rw [hb] at hres
  simp only [Option.getD_some] at hres
  have hat : ∀ name, histAt place w ds name = find d.hists name := by
    intro name
    rw [histAt_some hpl, hdi]
    rfl
  have hsend : SendableRes res := by
    rw [hres]
    refine ⟨hx.req.2.1, hx.req.1, ?_, ?_⟩
    · have := hx.req.2.2.1
      rw [hb] at this
      simpa [ResBody.count, ReqBody.count] using this
    · intro y hy
      obtain ⟨b, hbm, rfl⟩ := List.mem_map.mp hy
      unfold histItem
      cases hf : find d.hists b.bytes with
      | none => exact ⟨by decide, fun hc => by cases hc⟩
      | some g => exact ⟨(by decide : IntRange dsSuccess), fun _ => ⟨g, rfl, hfit b hbm g (by rw [hat]; exact hf)⟩⟩
  have harr : ∃ res' l, o = some res' ∧ res'.body = .hist l ∧ List.Forall₂ SameHistRes (names.map (histItem d.hists)) l := by
    unfold deliver at h
    split at h
    · have hk : FailsWithKey x.req.body res.body := by rw [hb]; exact True.intro
      obtain ⟨res', hr, hsame⟩ := C31_same_results_partial cb heap net w u x.rank x.req res hh hh' hx.req hx.client hs hsend hk
      rw [h] at hr
      obtain ⟨-, -, hbody⟩ := hsame
      rw [hres] at hbody
      simp only at hbody
      cases hr' : res'.body <;> rw [hr'] at hbody <;> first | exact hbody.elim | skip
      exact ⟨res', _, congrArg Prod.snd (Out.ok.inj hr), hr', hbody⟩
    · obtain ⟨v, hu, h⟩ := ok_iff.mp h
      rw [hs] at hu
      cases hu
      refine ⟨res, _, (congrArg Prod.snd (Out.ok.inj h)).symm, by rw [hres], ?_⟩
      rw [List.forall₂_map_left_iff, List.forall₂_map_right_iff, List.forall₂_same]
      intro b _
      refine ⟨rfl, fun hc => ?_⟩
      unfold histItem at hc ⊢
      cases hf : find d.hists b.bytes with
      | none => rw [hf] at hc; cases hc
      | some g => exact ⟨g, g, rfl, rfl, sameHist_refl g⟩
  obtain ⟨res', l, rfl, hl, hall⟩ := harr
  simp only [Option.toList_some, List.flatMap_cons, List.flatMap_nil, List.append_nil]
  have : histsOut res' = l := by unfold histsOut; rw [hl]
  rw [this, List.forall₂_map_right_iff]
  rw [List.forall₂_map_left_iff] at hall
  refine hall.imp ?_
  intro b z hz
  rw [hat]
  unfold histItem at hz
  cases hf : find d.hists b.bytes with
  | none =>
    rw [hf] at hz
    obtain ⟨e1, -⟩ := hz
    simp only at e1
    have hne : z.status ≠ dsSuccess := by rw [← e1]; decide
    unfold initHist
    rw [if_neg hne]
    refine ⟨rfl, (fun h e => by cases e), fun _ => ⟨?_, rfl⟩⟩
    simp only [Result.create]
    rw [if_neg hne]
  | some g =>
    rw [hf] at hz
    obtain ⟨e1, e2⟩ := hz
    simp only at e1 e2
    have he : z.status = dsSuccess := e1.symm
    obtain ⟨g1, g2, e3, e4, e5⟩ := e2 rfl
    cases e3
    unfold initHist
    rw [if_pos he]
    refine ⟨rfl, ?_, fun e => by cases e⟩
    intro h hh
    cases hh
    refine ⟨?_, g2, e4, e5⟩
    simp only [Result.create]
    rw [if_pos he]

/-! ## Numbers of one flush -/

private theorem contributed_arrived (name : Bytes) (h : Nat) (b : ReqBody) (r : ResBody) :
    contributed name (arrivedReqBody h b) (some r) = contributed name b (some r) := by
  cases b with
  | put l =>
    cases r with
    | put rs =>
      show ((l.map _).zip rs).filterMap _ = (l.zip rs).filterMap _
      rw [List.zip_map_left, List.filterMap_map]
      rfl
    | _ => rfl
  | _ => rfl

private theorem contributed_ok (name : Bytes) (b : ReqBody) (r : ResBody) :
    contributed name b (some r) = (putsOk b r).filterMap (tripleNumber name) := by
  cases b with
  | put l =>
    cases r with
    | put rs =>
      show (l.zip rs).filterMap _ = ((l.zip rs).filterMap _).filterMap _
      rw [List.filterMap_filterMap]
      congr 1
      funext x
      split <;> rfl
    | _ => rfl
  | _ => rfl

/-- The numbers of a PUT request in the log are those its client hears of. -/
theorem entry_numbers {net : Net} (hh : net.heap ≠ 0) (hh' : net.heap < 2 ^ 64) {w u : World} {H : List Ev}
    (hw : Stores cb t hash place w H) {m : Entry} (hok : m.Ok cb heap net) (hf : Fine cb t hash place net.heap m.send)
    (hkind : ∃ p, m.send.req.body = .put p)
    (hs : World.serve cb heap w m.srv.rank m.srv.req = .ok (u, m.srv.res)) :
    ∃ res, m.back = some res ∧ Matches m.send.req.body res.body ∧ ∀ name,
      contributed name m.srv.req.body (some m.srv.res.body) = (putsOk m.send.req.body res.body).filterMap (tripleNumber name) := by
  obtain ⟨res₁, res', g1, g2, g3, g4, -⟩ := deliver_done hh hh' hw hf (Or.inl hkind) (hok.step w u hs)
  refine ⟨res', g2, by rw [g3]; exact g4, fun name => ?_⟩
  rw [g3, ← contributed_ok]
  rw [hok.rank] at hs
  rcases hok.req with he | he
  · rw [he] at hs
    rw [hs] at g1
    cases g1
    rw [he]
  · rw [he] at hs
    have h := serve_arrived cb heap net.heap w m.send.rank m.send.req hf.client
    rw [hs, g1] at h
    obtain ⟨-, -, -, h4⟩ := h
    obtain ⟨p, hp⟩ := hkind
    rw [hp] at h4
    rw [he]
    show contributed name (arrivedReqBody net.heap m.send.req.body) _ = _
    rw [contributed_arrived, ← show res₁.body = m.srv.res.body from h4]

private theorem numbers_all {M : List Entry} (hok : ∀ m ∈ M, m.srv.req.dst = m.send.req.dst)
    (h : ∀ m ∈ M, ∃ res, m.back = some res ∧ Matches m.send.req.body res.body ∧ ∀ name,
      contributed name m.srv.req.body (some m.srv.res.body) = (putsOk m.send.req.body res.body).filterMap (tripleNumber name)) :
    List.Forall₂ (fun s res => Matches s.req.body res.body) (M.map (·.send)) (M.flatMap (·.back.toList)) ∧
    ∀ ds name, loggedNumbers ds name (M.map (·.srv)) =
      ((((M.map (·.send)).zip (M.flatMap (·.back.toList))).filter (fun z => decide (z.1.req.dst = (ds : Int)))).flatMap
        (fun z => putsOk z.1.req.body z.2.body)).filterMap (tripleNumber name) := by
  induction M with
  | nil => exact ⟨.nil, fun _ _ => rfl⟩
  | cons m M ih =>
    obtain ⟨res, h1, h2, h3⟩ := h m (by simp)
    obtain ⟨i1, i2⟩ := ih (fun n hn => hok n (by simp [hn])) (fun n hn => h n (by simp [hn]))
    refine ⟨?_, fun ds name => ?_⟩
    · rw [List.map_cons, List.flatMap_cons, h1]
      exact .cons h2 i1
    · have hz : ((m :: M).map (·.send)).zip ((m :: M).flatMap (·.back.toList)) =
          (m.send, res) :: (M.map (·.send)).zip (M.flatMap (·.back.toList)) := by
        rw [List.map_cons, List.flatMap_cons, h1]
        rfl
      rw [hz, List.map_cons, loggedNumbers_cons, i2, hok m (by simp)]
      by_cases hd : m.send.req.dst = (ds : Int)
      · rw [if_pos hd, List.filter_cons_of_pos (by simp [hd]), List.flatMap_cons, List.filterMap_append, h3]
      · rw [if_neg hd, List.filter_cons_of_neg (by simp [hd]), List.nil_append]

private theorem toldNumbers_filter (ds : Nat) (name : Bytes) (ps : List ((Blob × Blob × Blob) × Result)) :
    ((ps.filter (fun y => decide (y.2.status = hxSuccess ∧ home hash y.1.1 y.1.2.1 = some ds))).map Prod.fst).filterMap (tripleNumber name) =
      toldNumbers hash ds name ps := by
  unfold toldNumbers
  rw [List.filterMap_map, List.filterMap_filter]
  congr 1
  funext y
  by_cases h : y.2.status = hxSuccess ∧ home hash y.1.1 y.1.2.1 = some ds
  · simp [h]
  · rw [if_neg h, if_neg (by simpa using h)]

/-- What the PUTs of a flush reported, and the numbers in its part of the log. -/
theorem parts_numbers (hp31 : place.length ≤ 2 ^ 31) {w w' : World} {turns : List Turn} {log : List Served} {rs : List Results}
    (hw : Stores cb t hash place w []) (hturns : ∀ x ∈ turns, TurnOk cb t hash place x)
    (h : Overlap cb heap place.length w turns log w' rs) {k : Nat} {x : Turn} (hk : turns[k]? = some x) {r : Results}
    {mp mg mo rest : List Entry} (hp : Parts cb t hash place heap x (partOf k log) r mp mg mo rest) :
    ∃ z : Outcomes, PutsReported (turnOps hash x) r z.puts ∧ DelsReported (turnOps hash x) r z.dels ∧
      ∀ ds name, loggedNumbers ds name (mp.map (·.srv)) = toldNumbers hash ds name z.puts := by
  obtain ⟨z, -, z2, -⟩ := parts_told hp31 hw hturns h hk hp
  have hknown := overlap_known hp31 hturns h
  have haddr := (hturns x (List.mem_of_getElem? hk)).address
  obtain ⟨a1, a2⟩ := numbers_all (M := mp) (fun m hm => (hp.ok m (by simp [hm])).1.dst) (by
    intro m hm
    obtain ⟨hok, hf⟩ := hp.ok m (by simp [hm])
    have hin : m.srv ∈ log := List.mem_of_mem_filter ((sameOrder_mem hp.part).mp (List.mem_map.mpr ⟨m, by simp [hm], rfl⟩))
    obtain ⟨u, v, H, hu, hs⟩ := stores_at hw hknown h.executes hin
    exact entry_numbers haddr.1 haddr.2 hu hok hf (hp.putKind m hm) hs)
  obtain ⟨ps, p1, -, p3⟩ := hp.putsSaid a1
  exact ⟨⟨ps, z.dels⟩, p1, z2, fun ds name => by rw [a2, p3, toldNumbers_filter]⟩

/-- What the flushes told, and the numbers in their parts of the log. -/
theorem overlap_numbers (hp31 : place.length ≤ 2 ^ 31) {w w' : World} {turns : List Turn} {log : List Served} {rs : List Results}
    (hw : Stores cb t hash place w []) (hturns : ∀ x ∈ turns, TurnOk cb t hash place x)
    (h : Overlap cb heap place.length w turns log w' rs) :
    ∃ f : Nat → Outcomes, ToldBy hash turns rs f ∧ ∀ k x, turns[k]? = some x → ∃ r mp mg mo rest, rs[k]? = some r ∧
      Parts cb t hash place heap x (partOf k log) r mp mg mo rest ∧
      ∀ ds name, loggedNumbers ds name (mp.map (·.srv)) = toldNumbers hash ds name (f k).puts := by
  have hex : ∀ k : Nat, ∃ z : Outcomes, ∀ x, turns[k]? = some x → ∃ r mp mg mo rest, rs[k]? = some r ∧
      Parts cb t hash place heap x (partOf k log) r mp mg mo rest ∧ PutsReported (turnOps hash x) r z.puts ∧
      DelsReported (turnOps hash x) r z.dels ∧
      ∀ ds name, loggedNumbers ds name (mp.map (·.srv)) = toldNumbers hash ds name z.puts := by
    intro k
    cases hk : turns[k]? with
    | none => exact ⟨⟨[], []⟩, by simp⟩
    | some x =>
      obtain ⟨r, mp, mg, mo, rest, hr, hp⟩ := overlap_parts hp31 hturns h hk
      obtain ⟨z, z1, z2, z3⟩ := parts_numbers hp31 hw hturns h hk hp
      exact ⟨z, fun y hy => by cases hy; exact ⟨r, mp, mg, mo, rest, hr, hp, z1, z2, z3⟩⟩
  obtain ⟨f, hf⟩ := Classical.axiomOfChoice hex
  refine ⟨f, ?_, ?_⟩
  · intro k x r hk hr
    obtain ⟨r', _, _, _, _, hr', _, h1, h2, _⟩ := hf k x hk
    rw [hr] at hr'
    cases hr'
    exact ⟨h1, h2⟩
  · intro k x hk
    obtain ⟨r, mp, mg, mo, rest, hr, hp, -, -, hd⟩ := hf k x hk
    exact ⟨r, mp, mg, mo, rest, hr, hp, hd⟩

/-! ## Numbers before a request -/

/-- All requests to a datastore are on one rank. -/
theorem numbers_onRank {ds : Nat} {r : Int} (hpl : place[ds]? = some r) (name : Bytes) (l : List Served)
    (hl : ∀ y ∈ l, Known cb t hash place heap y) : loggedNumbers ds name l = loggedNumbers ds name (onRank r l) := by
  induction l with
  | nil => rfl
  | cons y l ih =>
    have := ih (fun z hz => hl z (by simp [hz]))
    rw [loggedNumbers_cons, this]
    by_cases hr : y.rank = r
    · rw [show onRank r (y :: l) = y :: onRank r l from List.filter_cons_of_pos (by simp [hr]), loggedNumbers_cons]
    · rw [show onRank r (y :: l) = onRank r l from List.filter_cons_of_neg (by simp [hr]), if_neg, List.nil_append]
      · intro hd
        obtain ⟨d, h1, h2⟩ := (hl y (by simp)).at
        have : d = ds := by omega
        subst this
        rw [hpl] at h2
        cases h2
        exact hr rfl

/-- Requests without PUTs have no numbers. -/
theorem numbers_quiet {net : Net} (ds : Nat) (name : Bytes) (M : List Entry) (hok : ∀ m ∈ M, m.Ok cb heap net)
    (hq : ∀ m ∈ M, ∀ l, m.send.req.body ≠ .put l) : loggedNumbers ds name (M.map (·.srv)) = [] := by
  induction M with
  | nil => rfl
  | cons m M ih =>
    rw [List.map_cons, loggedNumbers_cons, ih (fun n hn => hok n (by simp [hn])) (fun n hn => hq n (by simp [hn]))]
    have : contributed name m.srv.req.body (some m.srv.res.body) = [] := by
      have hne := hq m (by simp)
      rcases (hok m (by simp)).req with he | he
      · rw [he]
        cases hb : m.send.req.body <;> first | rfl | exact absurd hb (hne _)
      · rw [he]
        show contributed name (arrivedReqBody net.heap m.send.req.body) _ = _
        rw [contributed_arrived]
        cases hb : m.send.req.body <;> first | rfl | exact absurd hb (hne _)
    rw [this]
    split <;> rfl

theorem partition_perm (n : Nat) (l : List Served) (h : ∀ y ∈ l, y.turn < n) :
    l.Perm ((List.range n).flatMap (fun k => partOf k l)) := by
  have key : ∀ m, (l.filter (fun y => decide (y.turn < m))).Perm ((List.range m).flatMap (fun k => partOf k l)) := by
    intro m
    induction m with
    | zero => simp
    | succ m ih =>
      rw [List.range_succ, List.flatMap_append, List.flatMap_singleton]
      refine ((List.filter_append_perm (fun y : Served => decide (y.turn < m)) (l.filter (fun y => decide (y.turn < m + 1)))).symm).trans ?_
      refine List.Perm.append ?_ ?_
      · rw [List.filter_filter]
        refine List.Perm.trans (List.Perm.of_eq ?_) ih
        congr 1
        funext y
        by_cases hy : y.turn < m
        · simp [hy, Nat.lt_succ_of_lt hy]
        · simp [hy]
      · rw [List.filter_filter]
        refine List.Perm.of_eq ?_
        unfold partOf
        congr 1
        funext y
        by_cases hy : y.turn = m
        · simp [hy]
        · simp only [hy, decide_false, Bool.and_eq_false_iff, Bool.not_eq_false', decide_eq_true_eq, decide_eq_false_iff_not]
          omega
  have := key n
  rwa [List.filter_eq_self.mpr (by simpa using h)] at this

theorem numbers_perm (ds : Nat) (name : Bytes) (n : Nat) (l : List Served) (h : ∀ y ∈ l, y.turn < n) :
    (loggedNumbers ds name l).Perm ((List.range n).flatMap (fun k => loggedNumbers ds name (partOf k l))) := by
  have := ((partition_perm n l h).filter (fun y => decide (y.req.dst = (ds : Int)))).flatMap_right
    (fun y => contributed name y.req.body (some y.res.body))
  refine this.trans (List.Perm.of_eq ?_)
  rw [List.filter_flatMap, List.flatMap_assoc]
  rfl

/-- The numbers before a histogram request. -/
theorem numbers_before (hp31 : place.length ≤ 2 ^ 31) {w w' : World} {turns : List Turn} {log : List Served} {rs : List Results}
    (hturns : ∀ x ∈ turns, TurnOk cb t hash place x) (h : Overlap cb heap place.length w turns log w' rs) {i : Nat} {x : Turn}
    {r : Results} {mp mg mo rest : List Entry}
    (hp : Parts cb t hash place heap x (partOf i log) r mp mg mo rest) {M M' : List Entry} {m : Entry} (hm : rest = M ++ m :: M')
    (hM : ∀ m ∈ M, ∀ l, m.send.req.body ≠ .put l) (hrest : ∀ (x : Turn) (part : List Served) (r : Results) (mp mg mo rest : List Entry),
      Parts cb t hash place heap x part r mp mg mo rest → ∀ m ∈ mg ++ mo ++ rest, ∀ l, m.send.req.body ≠ .put l)
    {f : Nat → Outcomes}
    (hdoes : ∀ k x, turns[k]? = some x → ∃ r mp mg mo rest, Parts cb t hash place heap x (partOf k log) r mp mg mo rest ∧
      ∀ ds name, loggedNumbers ds name (mp.map (·.srv)) = toldNumbers hash ds name (f k).puts)
    (hi' : ∀ ds name, loggedNumbers ds name (mp.map (·.srv)) = toldNumbers hash ds name (f i).puts) :
    ∃ before after, log = before ++ m.srv :: after ∧ m.srv.turn = i ∧ ∀ (ds : Nat) (name : Bytes),
      place[ds]? = some m.srv.rank → NumbersSeen hash turns.length f log i ds name before ∧
      (loggedNumbers ds name before).Perm ((List.range turns.length).flatMap (fun k => loggedNumbers ds name (partOf k before))) := by
  have hpart := hp.part m.srv.rank
  rw [hm] at hpart
  obtain ⟨before, after, h1, h2, h3⟩ := split_part (r := m.srv.rank) (log := log) (i := i)
    (A := onRank m.srv.rank ((mp ++ mg ++ mo ++ M).map (·.srv))) (y := m.srv) (B := onRank m.srv.rank (M'.map (·.srv)))
    (by rw [onRank, ← hpart]; simp [onRank])
  refine ⟨before, after, h1, h3, fun ds name hpl => ⟨?_, numbers_perm ds name _ _ (fun y hy => h.only y (by rw [h1]; simp [hy]))⟩⟩
  have hknown := overlap_known hp31 hturns h
  have hone : ∀ l : List Served, (∀ y ∈ l, y ∈ log) → loggedNumbers ds name l = loggedNumbers ds name (onRank m.srv.rank l) :=
    fun l hl => numbers_onRank hpl name l (fun y hy => hknown y (hl y hy))
  have hfull : ∀ k z, turns[k]? = some z → loggedNumbers ds name (partOf k log) = toldNumbers hash ds name (f k).puts := by
    intro k z hk
    obtain ⟨r', mp', mg', mo', rest', hp', hd'⟩ := hdoes k z hk
    rw [hone (partOf k log) (fun y hy => List.mem_of_mem_filter hy), onRank, ← hp'.part, ← onRank, ← hone _ (fun y hy =>
      List.mem_of_mem_filter ((sameOrder_mem hp'.part).mp hy))]
    rw [List.append_assoc mp', List.append_assoc mp', List.map_append, loggedNumbers_append, hd',
      numbers_quiet ds name (mg' ++ mo' ++ rest') (net := z.net) (fun n hn => (hp'.ok n (by
        simp only [List.mem_append] at hn ⊢; tauto)).1)
        (fun n hn => hrest _ _ _ _ _ _ _ hp' n hn), List.append_nil]
  have hprefix : ∀ k, partOf k before ++ partOf k (m.srv :: after) = partOf k log := by
    intro k
    rw [h1, partOf_append]
  refine ⟨?_, ?_, ?_, ?_⟩
  · rw [hone (partOf i before) (fun y hy => by rw [h1]; simp [List.mem_of_mem_filter hy]), h2, ← hone _ (fun y hy =>
      (List.mem_of_mem_filter ((sameOrder_mem hp.part).mp (by
        rw [hm]
        simp only [List.map_append, List.mem_append] at hy ⊢
        tauto))))]
    rw [List.append_assoc mp, List.append_assoc mp, List.map_append, loggedNumbers_append, hi',
      numbers_quiet ds name (mg ++ mo ++ M) (net := x.net) (fun n hn => (hp.ok n (by
        rw [hm]; simp only [List.mem_append] at hn ⊢; tauto)).1) (fun n hn => by
          rcases List.mem_append.mp hn with hn | hn
          · exact hrest _ _ _ _ _ _ _ hp n (List.mem_append_left _ hn)
          · exact hM n hn), List.append_nil]
  · intro k hk
    rw [← hfull k _ (List.getElem?_eq_getElem hk), ← hprefix k, loggedNumbers_append]
    exact List.prefix_append _ _
  · intro k hk hf hne
    have : partOf k (m.srv :: after) = [] := by
      unfold partOf
      rw [List.filter_eq_nil_iff]
      unfold Finished at hf
      rw [h1, List.pairwise_append] at hf
      intro u hu
      rcases List.mem_cons.mp hu with rfl | hu
      · simp [h3, Ne.symm hne]
      · have := (List.pairwise_cons.mp hf.2.1).1 u hu
        simp only [h3, true_and] at this
        simp [this]
    rw [← hfull k _ (List.getElem?_eq_getElem hk), ← hprefix k, this, List.append_nil]
  · intro k hf hne
    have : partOf k before = [] := by
      unfold partOf
      rw [List.filter_eq_nil_iff]
      unfold Finished at hf
      rw [h1, List.pairwise_append] at hf
      intro u hu
      have := hf.2.2 u hu m.srv (by simp)
      simp only [h3, and_true] at this
      simp [this]
    rw [this]
    rfl

theorem Parts.noPuts {x : Turn} {part : List Served} {r : Results} {mp mg mo rest : List Entry}
    (hp : Parts cb t hash place heap x part r mp mg mo rest) : ∀ m ∈ mg ++ mo ++ rest, ∀ l, m.send.req.body ≠ .put l := by
  intro m hm l hl
  obtain ⟨md, mh, hrest, kd, kh, -⟩ := hp.hists
  rw [hrest] at hm
  simp only [List.mem_append] at hm
  rcases hm with (hm | hm) | hm | hm
  · obtain ⟨g, hg, -⟩ := hp.gets m hm
    rw [hg] at hl; cases hl
  · obtain ⟨g, hg, -⟩ := hp.getops m hm
    rw [hg] at hl; cases hl
  · obtain ⟨g, hg⟩ := kd m hm
    rw [hg] at hl; cases hl
  · obtain ⟨g, hg⟩ := kh m hm
    rw [hg] at hl; cases hl

/-! ## Histogram requests -/

theorem overlap_hists (hp31 : place.length ≤ 2 ^ 31) {w w' : World} {turns : List Turn} {log : List Served} {rs : List Results}
    (hw : Stores cb t hash place w []) (ha : Apart place w) (hnew : NewHists w) (hturns : ∀ x ∈ turns, TurnOk cb t hash place x)
    (h : Overlap cb heap place.length w turns log w' rs)
    (hcount : ∀ ds name, histAt place w ds name ≠ none → (loggedNumbers ds name log).length < 2 ^ 64) :
    ∃ f : Nat → Outcomes, ToldBy hash turns rs f ∧ ∀ i x r, turns[i]? = some x → rs[i]? = some r →
      ∃ qs, qs.Perm (histOps (turnOps hash x)) ∧ List.Forall₂ (fun q z => ∃ before y after,
        HistAnswered hash turns.length f log i q before y after ∧
        HistReturned (histAt place w q.1 q.2.bytes) (loggedNumbers q.1 q.2.bytes before) z) qs
          (r.items.filter (fun y => decide (y.kind = .hist))) := by
  obtain ⟨f, hf, hdoes⟩ := overlap_numbers hp31 hw hturns h
  refine ⟨f, hf, fun i x r hi hr => ?_⟩
  obtain ⟨r', mp, mg, mo, rest, hr', hp, hown⟩ := hdoes i x hi
  rw [hr] at hr'
  cases hr'
  have haddr := (hturns x (List.mem_of_getElem? hi)).address
  obtain ⟨md, mh, hrest, kd, kh, hperm, hitems⟩ := hp.hists
  refine ⟨_, hperm, ?_⟩
  rw [hitems]
  refine forall₂_flatMap _ _ _ ?_
  intro M m M' hm
  obtain ⟨before, after, h1, h3, hF⟩ := numbers_before hp31 hturns h hp (M := md ++ M) (m := m) (M' := M') (by rw [hrest, hm]; simp)
    (fun n hn => by
      intro l hl
      exact hp.noPuts n (by rw [hrest, hm]; simp only [List.mem_append] at hn ⊢; tauto) l hl)
    (fun _ _ _ _ _ _ _ hp => hp.noPuts) (f := f)
    (fun k z hk => by
      obtain ⟨r, mp, mg, mo, rest, -, a, b⟩ := hdoes k z hk
      exact ⟨r, mp, mg, mo, rest, a, b⟩) hown
  obtain ⟨hok, hfine⟩ := hp.ok m (by rw [hrest, hm]; simp)
  obtain ⟨names, hnames⟩ := kh m (by rw [hm]; simp)
  obtain ⟨ds, d1, d2, -⟩ := hfine.dst
  obtain ⟨u, e1, v, e2, -⟩ : ∃ u, executes cb heap w before u ∧ ∃ v, World.serve cb heap u m.srv.rank m.srv.req = .ok (v, m.srv.res) ∧
      executes cb heap v after w' := executes_append (by rw [← h1]; exact h.executes)
  have hknown : ∀ y ∈ before, Known cb t hash place heap y :=
    fun y hy => overlap_known hp31 hturns h y (by rw [h1]; simp [hy])
  have hgrow := executes_hists ha hknown e1 ds _ d2
  have hlt : ∀ name, histAt place w ds name ≠ none → (loggedNumbers ds name before).length < 2 ^ 64 := by
    intro name hne
    have := hcount ds name hne
    rw [h1, loggedNumbers_append, List.length_append] at this
    omega
  have hfit : ∀ b ∈ names, ∀ g, histAt place u ds b.bytes = some g → HistFits g := by
    intro b _ g hg
    cases h0 : histAt place w ds b.bytes with
    | none => rw [(hgrow b.bytes).1 h0] at hg; cases hg
    | some g0 =>
      obtain ⟨g1, e, e'⟩ := (hgrow b.bytes).2 g0 h0
      rw [e'] at hg
      cases hg
      have hlt := hlt b.bytes (by rw [h0]; simp)
      rw [histAt_some d2] at h0
      cases hd : (w.ds m.send.rank)[ds % (w.ds m.send.rank).length]? with
      | none => rw [hd] at h0; cases h0
      | some d =>
        rw [hd] at h0
        obtain ⟨n, gen, rfl, k1, k2, k3, k4⟩ := hnew _ d (List.mem_of_getElem? hd) b.bytes g0 h0
        exact (grown_kept ⟨k1, e, k2, k3, hlt, k4 _ _ e⟩).2.1
  have hback := hist_back haddr.1 haddr.2 hfine hnames d1 d2 hfit (hok.step u v e2)
  rw [hnames]
  show List.Forall₂ _ (names.map _) _
  rw [List.forall₂_map_left_iff]
  refine hback.imp ?_
  intro b z hz
  have hdst : m.send.req.dst.toNat = ds := by rw [d1]; simp
  obtain ⟨s1, s2⟩ := hF ds b.bytes (by rw [hok.rank]; exact d2)
  refine ⟨before, m.srv, after, ⟨h1, h3, ?_, ?_, ?_⟩, ⟨hz.1, ?_, ?_⟩⟩
  · simp only [hdst]; rw [hok.dst]; exact d1
  · simp only [hdst]; exact s1
  · simp only [hdst]; exact s2
  · simp only [hdst]
    intro h0 hh0
    obtain ⟨g1, g2, g3⟩ := (hgrow b.bytes).2 h0 hh0
    obtain ⟨z1, h2, z2, z3⟩ := hz.2.1 g1 g3
    exact ⟨z1, g1, h2, g2, z2, z3⟩
  · simp only [hdst]
    intro hh0
    exact hz.2.2 ((hgrow b.bytes).1 hh0)

/-- The numbers in the log are few if the histograms have few numbers in the end. -/
theorem few_logged (hp31 : place.length ≤ 2 ^ 31) {w w' : World} {turns : List Turn} {log : List Served} {rs : List Results}
    (ha : Apart place w) (hnew : NewHists w) (hturns : ∀ x ∈ turns, TurnOk cb t hash place x)
    (h : Overlap cb heap place.length w turns log w' rs) (hfew : HasHists w → FewNumbers w') :
    ∀ ds name, histAt place w ds name ≠ none → (loggedNumbers ds name log).length < 2 ^ 64 := by
  intro ds name hne
  cases h0 : histAt place w ds name with
  | none => exact absurd h0 hne
  | some g0 =>
    cases hr : place[ds]? with
    | none => rw [histAt, hr] at h0; cases h0
    | some r =>
      obtain ⟨g1, e1, e2⟩ := (executes_hists ha (overlap_known hp31 hturns h) h.executes ds r hr name).2 g0 h0
      rw [histAt_some hr] at h0 e2
      cases hd : (w.ds r)[ds % (w.ds r).length]? with
      | none => rw [hd] at h0; cases h0
      | some d =>
        cases hd' : (w'.ds r)[ds % (w'.ds r).length]? with
        | none => rw [hd'] at e2; cases e2
        | some d' =>
          rw [hd] at h0
          rw [hd'] at e2
          obtain ⟨n, gen, rfl, k1, -⟩ := hnew _ d (List.mem_of_getElem? hd) name g0 h0
          have hk := (addAll_kept k1 _ (h := Hist.create n (some gen) name) rfl (create_kept n (some gen) name) e1).2.1
          have := hfew ⟨r, d, List.mem_of_getElem? hd, name, _, h0⟩ r d' (List.mem_of_getElem? hd') name g1 e2
          rw [hk] at this
          omega

end Hx.Job

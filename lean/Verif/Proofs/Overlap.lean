import Verif.Proofs.JobGetOp
import Verif.Proofs.JobFail
import Verif.Spec.Overlap
import Verif.Spec.OverlapGetOp
import Verif.Spec.HistJob

/-!
# Helper lemmas: flushes that overlap in time
-/

namespace Hx.Job
open Hx Msg Spec Process Store Results Props

variable {cb : Callbacks} {t : Transform} {hash : Bytes → Bytes → Out Int} {place : List Int} {heap : Nat}

/-! ## One flush and its part of the log -/

/-- A delivery, the entry of the log it became, and what came back. -/
structure Entry where
  send : Send
  srv : Served
  back : Option Res

theorem askedIn_getsIn (b : ReqBody) : askedIn b = (getsIn b).map (fun g => (g.subject.val, g.predicate.val)) := by
  cases b <;> rfl

/-- Whenever a range server serves the entry of the log, the delivery succeeds. -/
structure Entry.Ok (cb : Callbacks) (heap : Nat) (net : Net) (m : Entry) : Prop where
  step : ∀ w u, World.serve cb heap w m.srv.rank m.srv.req = .ok (u, m.srv.res) →
    deliver net (World.serve cb heap) w m.send = .ok (u, m.back)
  rank : m.srv.rank = m.send.rank
  events : ∀ a, events a m.srv.req.body = events a m.send.req.body
  asked : askedIn m.srv.req.body = askedIn m.send.req.body
  ops : opsIn m.srv.req.body = opsIn m.send.req.body
  dst : m.srv.req.dst = m.send.req.dst
  req : m.srv.req = m.send.req ∨ m.srv.req = arrivedReq net.heap m.send.req

private theorem replay_ok {A B : List Served} {rank : Int} {req : Req} {res : Res} (h : replay A rank req = .ok (B, res)) :
    ∃ y, A = y :: B ∧ y.rank = rank ∧ y.req = req ∧ y.res = res := by
  unfold replay at h
  split at h
  · cases h
  · rename_i y l
    split at h
    · rename_i hc
      cases h
      exact ⟨y, rfl, hc.1, hc.2, rfl⟩
    · cases h

private theorem events_arrived (a : Val → Bool) (h : Nat) (b : ReqBody) : events a (arrivedReqBody h b) = events a b := by
  cases b with
  | put l =>
    simp only [arrivedReqBody, events, List.filter_map, List.map_map]
    rfl
  | del l =>
    simp only [arrivedReqBody, events, List.filter_map, List.map_map]
    rfl
  | _ => rfl

private theorem asked_arrived (h : Nat) (b : ReqBody) : askedIn (arrivedReqBody h b) = askedIn b := by
  cases b with
  | get l =>
    simp only [arrivedReqBody, askedIn, List.map_map]
    rfl
  | _ => rfl

private theorem ops_arrived (h : Nat) (b : ReqBody) : opsIn (arrivedReqBody h b) = opsIn b := by
  cases b with
  | getop l =>
    simp only [arrivedReqBody, opsIn, List.map_map]
    refine List.map_congr_left ?_
    intro x _
    have hk : hasKey x.op = decide ¬ (x.op = 3 ∨ x.op = 4) := by
      simp [hasKey, goFirst, goLast, bne]
      rfl
    simp only [Function.comp, arrivedGetOp, hk, opAsk]
    by_cases h : x.op = 3 ∨ x.op = 4
    · simp [h]
    · simp [h, arrived, Blob.val]
  | _ => rfl

theorem deliver_replay {net : Net} {A B : List Served} {x : Send} {o : Option Res} (hreq : SendableReq x.req)
    (h : deliver net replay A x = .ok (B, o)) : ∃ y, A = y :: B ∧ Entry.Ok cb heap net ⟨x, y, o⟩ := by
  unfold deliver at h
  split at h
  · rename_i hwire
    unfold remoteServe at h
    rw [reads_req net.heap x.req hreq] at h
    simp only at h
    obtain ⟨z, hz, h⟩ := ok_iff.mp h
    obtain ⟨y, hA, h1, h2, h3⟩ := replay_ok (show replay A x.rank _ = .ok (z.1, z.2) from hz)
    obtain ⟨b, hb, h⟩ := ok_iff.mp h
    have hB : B = z.1 := by
      split at h <;> cases h <;> rfl
    subst hB
    refine ⟨y, hA, ⟨?_, h1, ?_, ?_, ?_, ?_, Or.inr h2⟩⟩
    · intro w u hs
      simp only at hs ⊢
      unfold deliver
      rw [if_pos hwire]
      unfold remoteServe
      rw [reads_req net.heap x.req hreq]
      simp only
      rw [← h1, ← h2, hs]
      simp only [Out.ok_bind]
      rw [h3, hb]
      simp only [Out.ok_bind]
      split at h
      · cases h; rfl
      · cases h; rfl
      · cases h
    · intro a
      show events a y.req.body = _
      rw [h2]
      exact events_arrived a _ _
    · show askedIn y.req.body = _
      rw [h2]
      exact asked_arrived _ _
    · show opsIn y.req.body = _
      rw [h2]
      exact ops_arrived _ _
    · show y.req.dst = _
      rw [h2]
      rfl
  · rename_i hwire
    obtain ⟨z, hz, h⟩ := ok_iff.mp h
    obtain ⟨y, hA, h1, h2, h3⟩ := replay_ok (show replay A x.rank _ = .ok (z.1, z.2) from hz)
    cases h
    refine ⟨y, hA, ⟨?_, h1, ?_, ?_, ?_, ?_, Or.inl h2⟩⟩
    · intro w u hs
      simp only at hs ⊢
      unfold deliver
      rw [if_neg hwire, ← h1, ← h2, hs]
      simp only [Out.ok_bind, h3]
    · intro a
      show events a y.req.body = _
      rw [h2]
    · show askedIn y.req.body = _
      rw [h2]
    · show opsIn y.req.body = _
      rw [h2]
    · show y.req.dst = _
      rw [h2]

theorem deliverAll_replay {net : Net} (l : List Send) {A B : List Served} {rs : List Res}
    (hl : ∀ x ∈ l, SendableReq x.req) (h : deliverAll (deliver net replay) l A = .ok (B, rs)) :
    ∃ M : List Entry, l = M.map (·.send) ∧ A = M.map (·.srv) ++ B ∧ rs = M.flatMap (·.back.toList) ∧
      ∀ m ∈ M, m.Ok cb heap net := by
  induction l generalizing A rs with
  | nil => cases h; exact ⟨[], rfl, rfl, rfl, by simp⟩
  | cons x l ih =>
    simp only [deliverAll] at h
    obtain ⟨y, hy, h⟩ := ok_iff.mp h
    obtain ⟨z, hz, h⟩ := ok_iff.mp h
    cases h
    obtain ⟨s, rfl, hok⟩ := deliver_replay (cb := cb) (heap := heap) (hl x (by simp))
      (show deliver net replay A x = .ok (y.1, y.2) from hy)
    obtain ⟨M, h1, h2, h3, h4⟩ := ih (fun u hu => hl u (by simp [hu])) hz
    refine ⟨⟨x, s, y.2⟩ :: M, by rw [h1]; rfl, by rw [h2]; rfl, by rw [h3]; rfl, ?_⟩
    intro m hm
    rcases List.mem_cons.mp hm with rfl | hm
    · exact hok
    · exact h4 m hm

private theorem phase_replay {net : Net} {A : List Served} {α : Type} (mk : List α → ReqBody) (qs : List (List (List α)))
    (hR : Routed net qs.length) {x : List Served × Results × List (List (List α))}
    (h : process net replay mk A qs = .ok x) :
    ∃ l rs, Delivers net mk qs l ∧ deliverAll (deliver net replay) l A = .ok (x.1, rs) ∧
      addAll rs Results.create = .ok x.2.1 := by
  obtain ⟨l, hl, hall⟩ := C29_flush_partial net mk qs hR
  obtain ⟨-, rs, h1, h2⟩ := (hall replay A x.1 x.2.1 x.2.2).mp h
  exact ⟨l, rs, hl, h1, h2⟩

/-- The entries of the log have been served. -/
def WasServed (cb : Callbacks) (heap : Nat) (y : Served) : Prop :=
  ∃ w u, World.serve cb heap w y.rank y.req = .ok (u, y.res)

private theorem entry_kinds {net : Net} {M : List Entry} {K : Results.Kind} (hok : ∀ m ∈ M, m.Ok cb heap net)
    (hreq : ∀ m ∈ M, SendableReq m.send.req ∧ kindOf m.send.req.body = K) (hs : ∀ m ∈ M, WasServed cb heap m.srv) :
    ∀ res ∈ M.flatMap (·.back.toList), kindRes res.body = K := by
  intro res hr
  obtain ⟨m, hm, hr⟩ := List.mem_flatMap.mp hr
  rw [Option.mem_toList] at hr
  obtain ⟨w, u, hw⟩ := hs m hm
  have hd := (hok m hm).step w u hw
  rw [show m.back = some res from hr] at hd
  rw [← (hreq m hm).2]
  exact deliver_kind (hreq m hm).1 hd

theorem evPair_ofPair {s p : Val} {e : Ev} : ofPair s p e = true ↔ evPair e = (s, p) := by
  cases e <;> simp [ofPair, evPair]

/-- The names asked for in a request. -/
def histsIn : ReqBody → List Blob
  | .hist l => l
  | _ => []

/-- The histograms in a response. -/
def histsOut (r : Res) : List HistRes :=
  match r.body with
  | .hist l => l
  | _ => []

private theorem addAll_hists {rs : List Res} {r r' : Results} (h : addAll rs r = .ok r') (hk : ∀ res ∈ rs, res.body = .hist (histsOut res)) :
    r'.items = r.items ++ rs.flatMap (fun res => (histsOut res).map (initHist res.src)) := by
  induction rs generalizing r with
  | nil => cases h; simp
  | cons res rs ih =>
    simp only [addAll] at h
    obtain ⟨c, hc, h⟩ := ok_iff.mp h
    rw [ih h (fun x hx => hk x (by simp [hx]))]
    unfold addResponse at hc
    rw [hk res (by simp)] at hc
    cases hc
    rw [foldl_items]
    simp

private theorem histsFor_ops (ds : Nat) (l : List Op) :
    (histsFor hash ds l).map (fun b => (ds, b)) = (histOps l).filter (fun y => decide (y.1 = ds)) := by
  induction l with
  | nil => rfl
  | cons o l ih =>
    unfold histsFor histOps at ih ⊢
    cases o with
    | hist rs name =>
      by_cases hd : rs.toNat = ds
      · rw [List.filter_cons_of_pos (by simp [dest, hd]), List.filterMap_cons, List.filterMap_cons]
        simp only [List.map_cons]
        rw [ih, List.filter_cons_of_pos (by simp [hd]), hd]
      · rw [List.filter_cons_of_neg (by simp [dest, hd]), List.filterMap_cons]
        simp only
        rw [ih, List.filter_cons_of_neg (by simp [hd])]
    | _ =>
      rw [List.filter_cons, List.filterMap_cons]
      split
      · rw [List.filterMap_cons]
        exact ih
      · exact ih

/-- The histogram requests of a flush are those that were asked for. -/
private theorem hists_asked {net : Net} {qs : List (List (List Blob))} {l : List Send} {o : List Op} (hd : Delivers net .hist qs l)
    (hq : ∀ ds, Spec.queued qs ds = histsFor hash ds o) :
    (l.flatMap (fun s => (histsIn s.req.body).map (fun b => (s.req.dst.toNat, b)))).Perm (histOps o) := by
  rw [List.perm_iff_count]
  intro a
  have key : (l.flatMap (fun s => (histsIn s.req.body).map (fun b => (s.req.dst.toNat, b)))).filter (fun y => decide (y.1 = a.1)) =
      (histOps o).filter (fun y => decide (y.1 = a.1)) := by
    have h1 := filter_zip (fun d : Nat => some d) (fun s : Send => s.req.dst)
      (fun s => (histsIn s.req.body).map (fun b => (s.req.dst.toNat, b))) a.1 l (by
        intro s hs y hy
        obtain ⟨ds, -, e2, -⟩ := sent_packet hd hs
        obtain ⟨b, -, rfl⟩ := List.mem_map.mp hy
        exact ⟨ds, e2, by simp [e2]⟩)
    simp only [Option.some.injEq] at h1
    rw [h1, ← histsFor_ops (hash := hash), ← hq, ← packets_flat hd histsIn (fun l => l) (fun _ => rfl) rfl (fun _ _ => rfl)]
    unfold sentTo
    rw [List.flatMap_map, List.map_flatMap]
    have : (fun s : Send => decide (s.req.dst = (a.1 : Int))) = fun s => s.req.dst == (a.1 : Int) := by
      funext s
      exact (beq_eq_decide ..).symm
    rw [this]
    refine List.flatMap_congr ?_
    intro s hs
    have := eq_of_beq (List.mem_filter.mp hs).2
    simp [this]
  rw [← List.count_filter (p := fun y => decide (y.1 = a.1)) (by simp), key, List.count_filter (by simp)]

/-- What is known of the requests of one flush. -/
structure Parts (cb : Callbacks) (t : Transform) (hash : Bytes → Bytes → Out Int) (place : List Int) (heap : Nat) (x : Turn)
    (part : List Served) (r : Results) (mp mg mo rest : List Entry) : Prop where
  part : sameOrder ((mp ++ mg ++ mo ++ rest).map (·.srv)) part
  ok : ∀ m ∈ mp ++ mg ++ mo ++ rest, m.Ok cb heap x.net ∧ Fine cb t hash place x.net.heap m.send
  puts : ∀ ds : Nat, (mp.flatMap (fun m => events t.accepts m.srv.req.body)).filter (fun e => decide (hv hash (evPair e) = some ds)) =
    (storedPuts t.accepts (turnOps hash x)).filter (fun e => decide (hv hash (evPair e) = some ds))
  gets : ∀ m ∈ mg, ∃ g, m.send.req.body = .get g ∧
    ∀ y ∈ g, KeyOk cb t y.subject ∧ KeyOk cb t y.predicate ∧ ∃ ds : Nat, m.send.req.dst = ds ∧ home hash y.subject y.predicate = some ds
  getops : ∀ m ∈ mo, ∃ g, m.send.req.body = .getop g ∧
    ∀ y ∈ g, y ∈ getOps (turnOps hash x) ∧ ∃ ds : Nat, m.send.req.dst = ds ∧ home hash y.subject y.predicate = some ds
  dels : ∀ ds : Nat, (rest.flatMap (fun m => events t.accepts m.srv.req.body)).filter (fun e => decide (hv hash (evPair e) = some ds)) =
    (storedDels t.accepts (turnOps hash x)).filter (fun e => decide (hv hash (evPair e) = some ds))
  pairs : ((mg.flatMap (fun m => getsIn m.send.req.body)).map (fun g => (g.subject, g.predicate))).Perm
    (getPairs (turnOps hash x))
  items : r.items.filter (fun y => decide (y.kind = .get)) =
    mg.flatMap (fun m => m.back.toList.flatMap (fun res => (getsOut res).map (initGet res.src)))
  ops : (mo.flatMap (fun m => getopsIn m.send.req.body)).Perm (getOps (turnOps hash x))
  opItems : r.items.filter (fun y => decide (y.kind = .getop)) =
    (mo.flatMap (fun m => m.back.toList.flatMap (fun res => (getopsOut res).map (recResults res.src)))).flatten
  putKind : ∀ m ∈ mp, ∃ l, m.send.req.body = .put l
  putsSaid : List.Forall₂ (fun s res => Matches s.req.body res.body) (mp.map (·.send)) (mp.flatMap (·.back.toList)) →
    ∃ ps, PutsReported (turnOps hash x) r ps ∧ (∀ ds : Nat,
      (((mp.map (·.send)).zip (mp.flatMap (·.back.toList))).flatMap (fun z => done t.accepts z.1.req.body z.2.body)).filter
        (fun e => decide (hv hash (evPair e) = some ds)) =
      (succeededPuts t.accepts ps).filter (fun e => decide (hv hash (evPair e) = some ds))) ∧ ∀ ds : Nat,
      (((mp.map (·.send)).zip (mp.flatMap (·.back.toList))).filter (fun z => decide (z.1.req.dst = (ds : Int)))).flatMap
        (fun z => putsOk z.1.req.body z.2.body) =
      (ps.filter (fun y => decide (y.2.status = hxSuccess ∧ home hash y.1.1 y.1.2.1 = some ds))).map Prod.fst
  delsSaid : ∃ md mh, rest = md ++ mh ∧ (∀ m ∈ md, ∃ l, m.send.req.body = .del l) ∧ (∀ m ∈ mh, ∃ l, m.send.req.body = .hist l) ∧
    (List.Forall₂ (fun s res => Matches s.req.body res.body) (md.map (·.send)) (md.flatMap (·.back.toList)) →
    ∃ dl, DelsReported (turnOps hash x) r dl ∧ ∀ ds : Nat,
      (((md.map (·.send)).zip (md.flatMap (·.back.toList))).flatMap (fun z => done t.accepts z.1.req.body z.2.body)).filter
        (fun e => decide (hv hash (evPair e) = some ds)) =
      (succeededDels t.accepts dl).filter (fun e => decide (hv hash (evPair e) = some ds)))
  hists : ∃ md mh, rest = md ++ mh ∧ (∀ m ∈ md, ∃ l, m.send.req.body = .del l) ∧ (∀ m ∈ mh, ∃ l, m.send.req.body = .hist l) ∧
    (mh.flatMap (fun m => (histsIn m.send.req.body).map (fun b => (m.send.req.dst.toNat, b)))).Perm (histOps (turnOps hash x)) ∧
    r.items.filter (fun y => decide (y.kind = .hist)) =
      mh.flatMap (fun m => m.back.toList.flatMap (fun res => (histsOut res).map (initHist res.src)))

theorem sameOrder_mem {a b : List Served} (h : sameOrder a b) {y : Served} : y ∈ a ↔ y ∈ b := by
  have := congrArg (y ∈ ·) (h y.rank)
  simpa [List.mem_filter] using this

theorem sameOrder_refl (a : List Served) : sameOrder a a := fun _ => rfl

theorem turn_parts (hp31 : place.length ≤ 2 ^ 31) {x : Turn} {part : List Served} {r : Results}
    (hx : TurnOk cb t hash place x) (hs : ∀ y ∈ part, WasServed cb heap y) (h : turnOn place.length part x r) :
    ∃ mp mg mo rest, Parts cb t hash place heap x part r mp mg mo rest := by
  obtain ⟨part', q, q', hsame, hq, hy⟩ := h
  obtain ⟨⟨qp, qg, qo, qd, qh⟩, z1, z2, z3, z4, z5⟩ := queue_facts hx hq
  have hdest : ∀ o ∈ turnOps hash x, (dest hash o).isSome := by
    intro o ho
    obtain ⟨c, -, hc⟩ := List.mem_flatMap.mp ho
    exact ops_dest _ _ o hc
  have hR := hx.routed
  -- the deliveries of the five phases
  unfold flush flushPuts flushGets flushGetOps flushDels flushHists at hy
  obtain ⟨x1, h1, hy⟩ := ok_iff.mp hy
  obtain ⟨y1, g1, h1⟩ := ok_iff.mp h1; cases h1
  obtain ⟨x2, h2, hy⟩ := ok_iff.mp hy
  obtain ⟨y2, g2, h2⟩ := ok_iff.mp h2; cases h2
  obtain ⟨x3, h3, hy⟩ := ok_iff.mp hy
  obtain ⟨y3, g3, h3⟩ := ok_iff.mp h3; cases h3
  obtain ⟨x4, h4, hy⟩ := ok_iff.mp hy
  obtain ⟨y4, g4, h4⟩ := ok_iff.mp h4; cases h4
  obtain ⟨x5, h5, hy⟩ := ok_iff.mp hy
  obtain ⟨y5, g5, h5⟩ := ok_iff.mp h5; cases h5
  obtain ⟨e1, e2⟩ : y5.1 = [] ∧ _ = r := by
    have := Out.ok.inj hy
    exact ⟨congrArg Prod.fst this, congrArg (fun z => z.2.1) this⟩
  obtain ⟨lp, r1, p1, d1, a1⟩ := phase_replay _ _ (by rw [z1]; exact hR) g1
  obtain ⟨lg, r2, p2, d2, a2⟩ := phase_replay _ _ (by rw [show _ = q.gets from rfl, z2]; exact hR) g2
  obtain ⟨lo, r3, p3, d3, a3⟩ := phase_replay _ _ (by rw [show _ = q.getops from rfl, z3]; exact hR) g3
  obtain ⟨ld, r4, p4, d4, a4⟩ := phase_replay _ _ (by rw [show _ = q.dels from rfl, z4]; exact hR) g4
  obtain ⟨lh, r5, p5, d5, a5⟩ := phase_replay _ _ (by rw [show _ = q.hists from rfl, z5]; exact hR) g5
  simp only at p2 p3 p4 p5 d2 d3 d4 d5
  have fp := fine_puts hp31 hx hq p1
  have fg := fine_gets hp31 hx hq p2
  have fo := fine_getops hp31 hx hq p3
  have fd := fine_dels hp31 hx hq p4
  have fh := fine_hists hp31 hx hq p5
  obtain ⟨mp, rfl, b1, rfl, o1⟩ := deliverAll_replay (cb := cb) (heap := heap) lp (fun s hs => (fp s hs).1.req) d1
  obtain ⟨mg, rfl, b2, rfl, o2⟩ := deliverAll_replay (cb := cb) (heap := heap) lg (fun s hs => (fg s hs).1.1.req) d2
  obtain ⟨mo, rfl, b3, rfl, o3⟩ := deliverAll_replay (cb := cb) (heap := heap) lo (fun s hs => (fo s hs).1.req) d3
  obtain ⟨md, rfl, b4, rfl, o4⟩ := deliverAll_replay (cb := cb) (heap := heap) ld (fun s hs => (fd s hs).1.req) d4
  obtain ⟨mh, rfl, b5, rfl, o5⟩ := deliverAll_replay (cb := cb) (heap := heap) lh (fun s hs => (fh s hs).1.req) d5
  have hpart : part' = (mp ++ mg ++ mo ++ (md ++ mh)).map (·.srv) := by
    rw [b1, b2, b3, b4, b5, e1]
    simp
  have hserved : ∀ m ∈ mp ++ mg ++ mo ++ (md ++ mh), WasServed cb heap m.srv := by
    intro m hm
    exact hs _ ((sameOrder_mem hsame).mp (by rw [hpart]; exact List.mem_map.mpr ⟨m, hm, rfl⟩))
  have k1 := addAll_kind a1 (entry_kinds o1 (fun m hm => ⟨(fp _ (List.mem_map_of_mem hm)).1.req, (fp _ (List.mem_map_of_mem hm)).2⟩)
    (fun m hm => hserved m (by simp [hm]))) (by simp [Results.create])
  have k2' := entry_kinds o2 (fun m hm => ⟨(fg _ (List.mem_map_of_mem hm)).1.1.req, (fg _ (List.mem_map_of_mem hm)).1.2⟩)
    (fun m hm => hserved m (by simp [hm]))
  have k2 := addAll_kind a2 k2' (by simp [Results.create])
  have k3' := entry_kinds o3 (fun m hm => ⟨(fo _ (List.mem_map_of_mem hm)).1.req, (fo _ (List.mem_map_of_mem hm)).2⟩)
    (fun m hm => hserved m (by simp [hm]))
  have k3 := addAll_kind a3 k3' (by simp [Results.create])
  have k4 := addAll_kind a4 (entry_kinds o4 (fun m hm => ⟨(fd _ (List.mem_map_of_mem hm)).1.req, (fd _ (List.mem_map_of_mem hm)).2⟩)
    (fun m hm => hserved m (by simp [hm]))) (by simp [Results.create])
  have k5' := entry_kinds o5 (fun m hm => ⟨(fh _ (List.mem_map_of_mem hm)).1.req, (fh _ (List.mem_map_of_mem hm)).2⟩)
    (fun m hm => hserved m (by simp [hm]))
  have k5 := addAll_kind a5 k5' (by simp [Results.create])
  have hhist : ∀ res ∈ mh.flatMap (·.back.toList), res.body = .hist (histsOut res) := by
    intro res hr
    have := k5' res hr
    unfold histsOut
    cases hb : res.body <;> rw [hb] at this <;> first | rfl | cases this
  have hget : ∀ res ∈ mg.flatMap (·.back.toList), res.body = .get (getsOut res) := by
    intro res hr
    have := k2' res hr
    unfold getsOut
    cases hb : res.body <;> rw [hb] at this <;> first | rfl | cases this
  have hgetop : ∀ res ∈ mo.flatMap (·.back.toList), res.body = .getop (getopsOut res) := by
    intro res hr
    have := k3' res hr
    unfold getopsOut
    cases hb : res.body <;> rw [hb] at this <;> first | rfl | cases this
  have fo2 : ∀ s : Send, s ∈ mo.map (·.send) → ∃ g, s.req.body = .getop g ∧ ∀ y ∈ g, y ∈ getOps (turnOps hash x) ∧
      ∃ ds : Nat, s.req.dst = ds ∧ home hash y.subject y.predicate = some ds := by
    intro s hs
    obtain ⟨ds, e1, e2, e3, pk, e4, e5, e6⟩ := sent_packet p3 hs
    refine ⟨pk, e4, fun u hu => ?_⟩
    obtain ⟨m1, m2⟩ := mem_getopsFor_home (show u ∈ getopsFor hash ds (turnOps hash x) by rw [← qo]; exact e6 u hu)
    exact ⟨m1, ds, e2, m2⟩
  have evs : ∀ (net : Net) (M : List Entry), (∀ m ∈ M, m.Ok cb heap net) →
      M.flatMap (fun m => events t.accepts m.srv.req.body) = (M.map (·.send)).flatMap (fun s => events t.accepts s.req.body) := by
    intro net M hM
    rw [List.flatMap_map]
    refine List.flatMap_congr ?_
    intro m hm
    exact (hM m hm).events _
  have noev : ∀ (l : List Send), (∀ s ∈ l, ∃ K, kindOf s.req.body = K ∧ K ≠ .put ∧ K ≠ .del) →
      l.flatMap (fun s => events t.accepts s.req.body) = [] := by
    intro l hl
    rw [List.flatMap_eq_nil_iff]
    intro s hs
    obtain ⟨K, e1, e2, e3⟩ := hl s hs
    cases hb : s.req.body <;> rw [hb] at e1 <;> first | rfl | (subst e1; first | exact absurd rfl e2 | exact absurd rfl e3)
  refine ⟨mp, mg, mo, md ++ mh, by rw [← hpart]; exact hsame, ?_, ?_, ?_, ?_, ?_, ?_, ?_, ?_, ?_, ?_, ?_, ?_, ?_⟩
  · intro m hm
    simp only [List.mem_append] at hm
    rcases hm with ((hm | hm) | hm) | hm | hm
    · exact ⟨o1 m hm, (fp _ (List.mem_map_of_mem hm)).1⟩
    · exact ⟨o2 m hm, (fg _ (List.mem_map_of_mem hm)).1.1⟩
    · exact ⟨o3 m hm, (fo _ (List.mem_map_of_mem hm)).1⟩
    · exact ⟨o4 m hm, (fd _ (List.mem_map_of_mem hm)).1⟩
    · exact ⟨o5 m hm, (fh _ (List.mem_map_of_mem hm)).1⟩
  · intro ds
    rw [evs _ mp o1, ← puts_filter, ← qp, filter_sent (events t.accepts) (fun e => hv hash (evPair e)) ds _,
      packets_flat p1 (events t.accepts) (fun l => events t.accepts (.put l)) (fun _ => rfl) rfl (fun a b => by simp [events])]
    intro s hs e he
    obtain ⟨d, u1, -, u3⟩ := (fp s hs).1.dst
    exact ⟨d, u1, (u3 e he).1⟩
  · intro m hm
    obtain ⟨-, g, v2, v3⟩ := fg _ (List.mem_map_of_mem hm)
    exact ⟨g, v2, fun y hy => (v3 y hy).2⟩
  · intro m hm
    exact fo2 _ (List.mem_map_of_mem hm)
  · intro ds
    have : (md ++ mh).flatMap (fun m => events t.accepts m.srv.req.body) =
        (md.map (·.send)).flatMap (fun s => events t.accepts s.req.body) := by
      rw [List.flatMap_append, evs _ md o4, evs _ mh o5,
        noev (mh.map (·.send)) (fun s hs => ⟨_, (fh s hs).2, by decide, by decide⟩), List.append_nil]
    rw [this, ← dels_filter, ← qd, filter_sent (events t.accepts) (fun e => hv hash (evPair e)) ds _,
      packets_flat p4 (events t.accepts) (fun l => events t.accepts (.del l)) (fun _ => rfl) rfl (fun a b => by simp [events])]
    intro s hs e he
    obtain ⟨d, u1, -, u3⟩ := (fd s hs).1.dst
    exact ⟨d, u1, (u3 e he).1⟩
  · rw [← getItems_pairs]
    refine List.Perm.map _ ?_
    rw [show mg.flatMap (fun m => getsIn m.send.req.body) = (mg.map (·.send)).flatMap (fun s => getsIn s.req.body) by rw [List.flatMap_map]]
    rw [List.perm_iff_count]
    intro a
    have hg : ∀ ds, ((mg.map (·.send)).flatMap (fun s => getsIn s.req.body)).filter (fun y => decide (home hash y.subject y.predicate = some ds)) =
        (getItems (turnOps hash x)).filter (fun y => decide (home hash y.subject y.predicate = some ds)) := by
      intro ds
      rw [← gets_filter, ← qg, filter_sent getsIn (fun y => home hash y.subject y.predicate) ds _,
        packets_flat p2 getsIn (fun l => l) (fun _ => rfl) rfl (fun _ _ => rfl)]
      intro s hs e he
      obtain ⟨-, g, v2, v3⟩ := fg s hs
      rw [v2] at he
      exact (v3 e he).2.2.2
    cases hh : home hash a.subject a.predicate with
    | some ds =>
      rw [← List.count_filter (p := fun y => decide (home hash y.subject y.predicate = some ds)) (by simp [hh]), hg ds,
        List.count_filter (by simp [hh])]
    | none =>
      rw [List.count_eq_zero_of_not_mem, List.count_eq_zero_of_not_mem]
      · intro ha
        obtain ⟨o, ho, he⟩ := List.mem_filterMap.mp ha
        have hd := hdest o ho
        cases o <;> simp only [Option.some.injEq] at he <;> try cases he
        simp only [dest] at hd
        simp only at hh
        rw [hh] at hd
        cases hd
      · intro ha
        obtain ⟨s, hs, he⟩ := List.mem_flatMap.mp ha
        obtain ⟨-, g, v2, v3⟩ := fg s hs
        rw [v2] at he
        obtain ⟨-, -, -, ds, -, v4⟩ := v3 a he
        rw [hh] at v4
        cases v4
  · rw [← e2]
    simp only [append_items, List.filter_append]
    rw [filter_kind_none (by decide) k1, filter_kind_all k2, filter_kind_none (by decide) k3, filter_kind_none (by decide) k4,
      filter_kind_none (by decide) k5, addAll_gets a2 getsOut hget]
    simp only [Results.create, List.filter_nil, List.nil_append, List.append_nil]
    rw [List.flatMap_assoc]
  · rw [show mo.flatMap (fun m => getopsIn m.send.req.body) = (mo.map (·.send)).flatMap (fun s => getopsIn s.req.body) by rw [List.flatMap_map]]
    rw [List.perm_iff_count]
    intro a
    have hg : ∀ ds, ((mo.map (·.send)).flatMap (fun s => getopsIn s.req.body)).filter (fun y => decide (home hash y.subject y.predicate = some ds)) =
        (getOps (turnOps hash x)).filter (fun y => decide (home hash y.subject y.predicate = some ds)) := by
      intro ds
      rw [← getops_filter, ← qo, filter_sent getopsIn (fun y => home hash y.subject y.predicate) ds _,
        packets_flat p3 getopsIn (fun l => l) (fun _ => rfl) rfl (fun _ _ => rfl)]
      intro s hs e he
      obtain ⟨g, v2, v3⟩ := fo2 s hs
      rw [v2] at he
      exact (v3 e he).2
    cases hh : home hash a.subject a.predicate with
    | some ds =>
      rw [← List.count_filter (p := fun y => decide (home hash y.subject y.predicate = some ds)) (by simp [hh]), hg ds,
        List.count_filter (by simp [hh])]
    | none =>
      rw [List.count_eq_zero_of_not_mem, List.count_eq_zero_of_not_mem]
      · intro ha
        obtain ⟨o, ho, he⟩ := List.mem_filterMap.mp ha
        have hd := hdest o ho
        cases o <;> simp only [Option.some.injEq] at he <;> try cases he
        simp only [dest] at hd
        simp only at hh
        rw [hh] at hd
        cases hd
      · intro ha
        obtain ⟨s, hs, he⟩ := List.mem_flatMap.mp ha
        obtain ⟨g, v2, v3⟩ := fo2 s hs
        rw [v2] at he
        obtain ⟨-, ds, -, v4⟩ := v3 a he
        rw [hh] at v4
        cases v4
  · rw [← e2]
    simp only [append_items, List.filter_append]
    rw [filter_getop_none (by decide) k1, filter_getop_none (by decide) k2, filter_getop_all k3, filter_getop_none (by decide) k4,
      filter_getop_none (by decide) k5, addAll_getops a3 hgetop]
    simp [Results.create, List.flatMap_assoc]
  · intro m hm
    have := (fp _ (List.mem_map_of_mem hm)).2
    cases hb : m.send.req.body <;> rw [hb] at this <;> first | exact ⟨_, rfl⟩ | cases this
  · intro hall
    obtain ⟨ps, s1, s2, s3, s4, s5, s6⟩ := puts_said hp31 hx hq p1 hall a1
    have hsub : y1.2.1.items.Sublist r.items := by
      rw [← e2]
      simp only [append_items, Results.create, List.nil_append, List.append_assoc]
      exact List.sublist_append_left _ _
    refine ⟨ps, ⟨s1, ?_, s3, fun s p => (s4 s p).trans hsub⟩, s5, s6⟩
    rw [← e2]
    simp only [append_items, List.filter_append]
    rw [kind_all k1, kind_none (by decide) k2, kind_none (by decide) k3, kind_none (by decide) k4, kind_none (by decide) k5]
    simpa [Results.create] using s2
  · refine ⟨md, mh, rfl, ?_, ?_, ?_⟩
    · intro m hm
      have := (fd _ (List.mem_map_of_mem hm)).2
      cases hb : m.send.req.body <;> rw [hb] at this <;> first | exact ⟨_, rfl⟩ | cases this
    · intro m hm
      have := (fh _ (List.mem_map_of_mem hm)).2
      cases hb : m.send.req.body <;> rw [hb] at this <;> first | exact ⟨_, rfl⟩ | cases this
    · intro hall
      obtain ⟨ps, s1, s2, s3, s4, s5⟩ := dels_said hp31 hx hq p4 hall a4
      have hsub : y4.2.1.items.Sublist r.items := by
        rw [← e2]
        simp only [append_items, Results.create, List.nil_append]
        exact (List.sublist_append_right _ _).trans (List.sublist_append_left _ _)
      refine ⟨ps, ⟨s1, ?_, s3, fun s p => (s4 s p).trans hsub⟩, s5⟩
      rw [← e2]
      simp only [append_items, List.filter_append]
      rw [kind_none (by decide) k1, kind_none (by decide) k2, kind_none (by decide) k3, kind_all k4, kind_none (by decide) k5]
      simpa [Results.create] using s2
  · refine ⟨md, mh, rfl, ?_, ?_, ?_, ?_⟩
    · intro m hm
      have := (fd _ (List.mem_map_of_mem hm)).2
      cases hb : m.send.req.body <;> rw [hb] at this <;> first | exact ⟨_, rfl⟩ | cases this
    · intro m hm
      have := (fh _ (List.mem_map_of_mem hm)).2
      cases hb : m.send.req.body <;> rw [hb] at this <;> first | exact ⟨_, rfl⟩ | cases this
    · have := hists_asked p5 qh
      rwa [List.flatMap_map] at this
    · rw [← e2]
      simp only [append_items, List.filter_append]
      rw [kind_none (by decide) k1, kind_none (by decide) k2, kind_none (by decide) k3, kind_none (by decide) k4, kind_all k5,
        addAll_hists a5 hhist]
      simp [Results.create, List.flatMap_assoc]

/-! ## The log -/

theorem executes_append {w w' : World} {a b : List Served} (h : executes cb heap w (a ++ b) w') :
    ∃ u, executes cb heap w a u ∧ executes cb heap u b w' := by
  induction a generalizing w with
  | nil => exact ⟨w, rfl, h⟩
  | cons y a ih =>
    obtain ⟨u, hu, h⟩ := h
    obtain ⟨v, h1, h2⟩ := ih h
    exact ⟨v, ⟨u, hu, h1⟩, h2⟩

theorem executes_served {w w' : World} {log : List Served} (h : executes cb heap w log w') :
    ∀ y ∈ log, WasServed cb heap y := by
  induction log generalizing w with
  | nil => simp
  | cons y log ih =>
    obtain ⟨u, hu, h⟩ := h
    intro z hz
    rcases List.mem_cons.mp hz with rfl | hz
    · exact ⟨w, u, hu⟩
    · exact ih h z hz

/-- The entry belongs to a delivery that job queues can cause. -/
def Known (cb : Callbacks) (t : Transform) (hash : Bytes → Bytes → Out Int) (place : List Int) (heap : Nat) (y : Served) : Prop :=
  ∃ (net : Net) (m : Entry), m.srv = y ∧ m.Ok cb heap net ∧ Fine cb t hash place net.heap m.send

theorem executes_holds {w w' : World} {H : List Ev} {log : List Served} (hw : Holds cb t hash place w H)
    (hl : ∀ y ∈ log, Known cb t hash place heap y) (h : executes cb heap w log w') :
    Holds cb t hash place w' (H ++ log.flatMap (fun y => events t.accepts y.req.body)) := by
  induction log generalizing w H with
  | nil => cases h; simpa using hw
  | cons y log ih =>
    obtain ⟨u, hu, h⟩ := h
    obtain ⟨net, m, rfl, hok, hfine⟩ := hl y (by simp)
    have hd : deliverAll (deliver net (World.serve cb heap)) [m.send] w = .ok (u, m.back.toList ++ []) := by
      simp only [deliverAll, hok.step w u hu, Out.ok_bind]
    have := deliverAll_holds [m.send] hw (by simpa using hfine) hd
    simp only [List.flatMap_cons, List.flatMap_nil, List.append_nil] at this
    rw [← hok.events] at this
    have := ih this (fun z hz => hl z (by simp [hz])) h
    rw [List.flatMap_cons, ← List.append_assoc]
    exact this

/-- The flush of an entry of a log. -/
theorem overlap_parts (hp31 : place.length ≤ 2 ^ 31) {w w' : World} {turns : List Turn} {log : List Served} {rs : List Results}
    (hturns : ∀ x ∈ turns, TurnOk cb t hash place x) (h : Overlap cb heap place.length w turns log w' rs) {i : Nat} {x : Turn}
    (hi : turns[i]? = some x) :
    ∃ r mp mg mo rest, rs[i]? = some r ∧ Parts cb t hash place heap x (partOf i log) r mp mg mo rest := by
  have hlt : i < turns.length := (List.getElem?_eq_some_iff.mp hi).1
  obtain ⟨r, hr⟩ : ∃ r, rs[i]? = some r := ⟨rs[i]'(by rw [h.results]; exact hlt), List.getElem?_eq_getElem _⟩
  obtain ⟨mp, mg, mo, rest, hp⟩ := turn_parts hp31 (hturns x (List.mem_of_getElem? hi))
    (fun y hy => executes_served h.executes y (List.mem_of_mem_filter hy)) (h.turns i x r hi hr)
  exact ⟨r, mp, mg, mo, rest, hr, hp⟩

theorem overlap_known (hp31 : place.length ≤ 2 ^ 31) {w w' : World} {turns : List Turn} {log : List Served} {rs : List Results}
    (hturns : ∀ x ∈ turns, TurnOk cb t hash place x) (h : Overlap cb heap place.length w turns log w' rs) :
    ∀ y ∈ log, Known cb t hash place heap y := by
  intro y hy
  obtain ⟨r, mp, mg, mo, rest, -, hp⟩ := overlap_parts hp31 hturns h (List.getElem?_eq_getElem (h.only y hy))
  have hm : y ∈ partOf y.turn log := List.mem_filter.mpr ⟨hy, by simp⟩
  rw [← sameOrder_mem hp.part] at hm
  obtain ⟨m, hm, he⟩ := List.mem_map.mp hm
  exact ⟨_, m, he, hp.ok m hm⟩

/-! ## Writes of a pair -/

theorem writes_append (a : Val → Bool) (s p : Val) (l l' : List Served) :
    writes a s p (l ++ l') = writes a s p l ++ writes a s p l' := List.flatMap_append

theorem writes_events (a : Val → Bool) (s p : Val) (l : List Served) :
    (writes a s p l).map Prod.snd = (l.flatMap (fun y => events a y.req.body)).filter (ofPair s p) := by
  induction l with
  | nil => rfl
  | cons y l ih =>
    rw [show y :: l = [y] ++ l from rfl, writes_append, List.map_append, ih, List.flatMap_append, List.filter_append]
    congr 1
    simp [writes, List.map_map, Function.comp_def]

theorem writesBy_writes (a : Val → Bool) (s p : Val) (k : Nat) (l : List Served) :
    writesBy k (writes a s p l) = ((partOf k l).flatMap (fun y => events a y.req.body)).filter (ofPair s p) := by
  induction l with
  | nil => rfl
  | cons y l ih =>
    rw [show y :: l = [y] ++ l from rfl, writes_append]
    unfold writesBy partOf at ih ⊢
    rw [List.filter_append, List.map_append, ih, List.filter_append, List.flatMap_append, List.filter_append]
    congr 1
    by_cases hk : y.turn = k
    · rw [List.filter_cons_of_pos (by simp [hk])]
      rw [List.filter_eq_self.mpr]
      · simp [writes, List.map_map, Function.comp_def]
      · intro z hz
        simp only [writes, List.flatMap_cons, List.flatMap_nil, List.append_nil, List.mem_map] at hz
        obtain ⟨e, -, rfl⟩ := hz
        simp [hk]
    · rw [List.filter_cons_of_neg (by simp [hk])]
      rw [List.filter_eq_nil_iff.mpr]
      · rfl
      · intro z hz
        simp only [writes, List.flatMap_cons, List.flatMap_nil, List.append_nil, List.mem_map] at hz
        obtain ⟨e, -, rfl⟩ := hz
        simp [hk]

theorem writes_lastObj (a : Val → Bool) (s p : Val) (l : List Served) :
    lastObj s p ((writes a s p l).map Prod.snd) = lastObj s p (l.flatMap (fun y => events a y.req.body)) := by
  rw [writes_events]
  exact lastObj_filter s p _ _ (fun e _ he => evPair_ofPair.mpr he)

/-! ## GETs -/

theorem partOf_append (i : Nat) (a b : List Served) : partOf i (a ++ b) = partOf i a ++ partOf i b := List.filter_append ..

/-- The requests to one rank. -/
def onRank (rank : Int) (l : List Served) : List Served := l.filter (fun y => decide (y.rank = rank))

theorem onRank_append (r : Int) (a b : List Served) : onRank r (a ++ b) = onRank r a ++ onRank r b := List.filter_append ..

/-- An entry of the part of a flush is somewhere in the log. -/
theorem split_part {i : Nat} {r : Int} {log A B : List Served} {y : Served} (h : onRank r (partOf i log) = A ++ y :: B) :
    ∃ before after, log = before ++ y :: after ∧ onRank r (partOf i before) = A ∧ y.turn = i := by
  unfold onRank partOf at h ⊢
  rw [List.filter_filter] at h
  obtain ⟨l1, l2, h1, h2, h3⟩ := List.filter_eq_append_iff.mp h
  obtain ⟨l3, l4, h4, h5, h6, h7⟩ := List.filter_eq_cons_iff.mp h3
  refine ⟨l1 ++ l3, l4, by rw [h1, h4]; simp, ?_, by simp at h6; exact h6.2⟩
  rw [List.filter_filter, List.filter_append, h2, List.filter_eq_nil_iff.mpr h5, List.append_nil]

/-- Everything done to a datastore is done on one rank. -/
theorem done_onRank {ev : Served → List Ev} {F : Ev → Bool} {ds : Nat} {r : Int} (hF : ∀ e, F e = true → hv hash (evPair e) = some ds)
    (hpl : place[ds]? = some r) (l : List Served) (hl : ∀ y ∈ l, Known cb t hash place heap y)
    (hev : ∀ y ∈ l, ∀ e ∈ ev y, e ∈ events t.accepts y.req.body) :
    (l.flatMap ev).filter F = ((onRank r l).flatMap ev).filter F := by
  induction l with
  | nil => rfl
  | cons y l ih =>
    have := ih (fun z hz => hl z (by simp [hz])) (fun z hz => hev z (by simp [hz]))
    by_cases hr : y.rank = r
    · rw [onRank, List.filter_cons_of_pos (by simp [hr]), List.flatMap_cons, List.flatMap_cons, List.filter_append,
        List.filter_append, this]
      rfl
    · rw [onRank, List.filter_cons_of_neg (by simp [hr]), List.flatMap_cons, List.filter_append, this]
      rw [List.filter_eq_nil_iff.mpr]
      · rfl
      · intro e he hp
        have he := hev y (by simp) e he
        obtain ⟨net, m, rfl, hok, hf⟩ := hl y (by simp)
        obtain ⟨d, -, u2, u3⟩ := hf.dst
        rw [hok.events] at he
        have := (u3 e he).1
        rw [hF e hp] at this
        cases this
        rw [hpl] at u2
        cases u2
        exact hr hok.rank

/-- The events of flush `k` that `F` selects. -/
def pickBy (ev : Served → List Ev) (F : Ev → Bool) (k : Nat) (l : List Served) : List Ev :=
  ((partOf k l).flatMap ev).filter F

/-- What is before a request of flush `i`, of the events that `F` selects; flush `k` has the PUTs `P k` and the DELETEs `D k`. -/
structure SeenF (ev : Served → List Ev) (P D : Nat → List Ev) (n : Nat) (log : List Served) (i : Nat) (F : Ev → Bool)
    (before : List Served) : Prop where
  own : pickBy ev F i before = (P i).filter F
  order : ∀ k < n, pickBy ev F k before <+: (P k ++ D k).filter F
  finished : ∀ k < n, Finished log k i → k ≠ i → pickBy ev F k before = (P k ++ D k).filter F
  later : ∀ k, Finished log i k → k ≠ i → pickBy ev F k before = []

/-- The requests of flush `k` do what `P k` and `D k` say. -/
def Does (hash : Bytes → Bytes → Out Int) (ev : Served → List Ev) (P D : List Ev) (mp rest : List Entry) : Prop := ∀ ds : Nat,
  (mp.flatMap (fun m => ev m.srv)).filter (fun e => decide (hv hash (evPair e) = some ds)) =
    P.filter (fun e => decide (hv hash (evPair e) = some ds)) ∧
  (rest.flatMap (fun m => ev m.srv)).filter (fun e => decide (hv hash (evPair e) = some ds)) =
    D.filter (fun e => decide (hv hash (evPair e) = some ds))

theorem filter_sub {F : Ev → Bool} {ds : Nat} (hF : ∀ e, F e = true → hv hash (evPair e) = some ds) (l : List Ev) :
    l.filter F = (l.filter (fun e => decide (hv hash (evPair e) = some ds))).filter F := by
  rw [List.filter_filter]
  congr 1
  funext e
  cases hp : F e with
  | false => simp
  | true => simp [hF e hp]

/-- GETs and GETOPs change nothing. -/
theorem Parts.quiet {x : Turn} {part : List Served} {r : Results} {mp mg mo rest : List Entry}
    (hp : Parts cb t hash place heap x part r mp mg mo rest) : ∀ m ∈ mg ++ mo, events t.accepts m.srv.req.body = [] := by
  intro n hn
  rcases List.mem_append.mp hn with hn | hn
  · obtain ⟨g, hg, -⟩ := hp.gets n hn
    rw [(hp.ok n (by simp [hn])).1.events, hg]
    rfl
  · obtain ⟨g, hg, -⟩ := hp.getops n hn
    rw [(hp.ok n (by simp [hn])).1.events, hg]
    rfl

/-- All that a flush does. -/
theorem pick_all (hp31 : place.length ≤ 2 ^ 31) {w w' : World} {turns : List Turn} {log : List Served} {rs : List Results}
    (hturns : ∀ x ∈ turns, TurnOk cb t hash place x) (h : Overlap cb heap place.length w turns log w' rs)
    {ev : Served → List Ev} (hev : ∀ y ∈ log, ∀ e ∈ ev y, e ∈ events t.accepts y.req.body) {P D : Nat → List Ev}
    (hdoes : ∀ k x, turns[k]? = some x → ∃ r mp mg mo rest, Parts cb t hash place heap x (partOf k log) r mp mg mo rest ∧
      Does hash ev (P k) (D k) mp rest) {F : Ev → Bool} {ds : Nat} (hF : ∀ e, F e = true → hv hash (evPair e) = some ds) {rank : Int}
    (hpl : place[ds]? = some rank) {k : Nat} {z : Turn} (hk : turns[k]? = some z) : pickBy ev F k log = (P k ++ D k).filter F := by
  have hknown := overlap_known hp31 hturns h
  have hone : ∀ l : List Served, (∀ y ∈ l, y ∈ log) → (l.flatMap ev).filter F = ((onRank rank l).flatMap ev).filter F :=
    fun l hl => done_onRank hF hpl l (fun y hy => hknown y (hl y hy)) (fun y hy => hev y (hl y hy))
  obtain ⟨r', mp', mg', mo', rest', hp', hd'⟩ := hdoes k z hk
  have hg : (mg' ++ mo').flatMap (fun m => ev m.srv) = [] := by
    rw [List.flatMap_eq_nil_iff]
    intro m hm
    have hin : m.srv ∈ log := List.mem_of_mem_filter ((sameOrder_mem hp'.part).mp (List.mem_map.mpr ⟨m, by
      rw [List.append_assoc mp']
      simp only [List.mem_append] at hm ⊢
      exact Or.inl (Or.inr hm), rfl⟩))
    exact List.eq_nil_iff_forall_not_mem.mpr (fun e he => by
      have := hev _ hin e he
      rw [hp'.quiet m hm] at this
      cases this)
  unfold pickBy
  rw [hone (partOf k log) (fun y hy => List.mem_of_mem_filter hy), onRank, ← hp'.part, ← onRank, ← hone _ (fun y hy =>
    List.mem_of_mem_filter ((sameOrder_mem hp'.part).mp hy))]
  rw [List.flatMap_map, List.append_assoc mp', List.flatMap_append, List.flatMap_append, hg, List.append_nil, filter_sub hF,
    List.filter_append, (hd' ds).1, (hd' ds).2, ← List.filter_append, ← filter_sub hF]

theorem seen_before (hp31 : place.length ≤ 2 ^ 31) {w w' : World} {turns : List Turn} {log : List Served} {rs : List Results}
    (hturns : ∀ x ∈ turns, TurnOk cb t hash place x) (h : Overlap cb heap place.length w turns log w' rs) {i : Nat} {x : Turn}
    (hi : turns[i]? = some x) {r : Results} {mp mg mo rest : List Entry}
    (hp : Parts cb t hash place heap x (partOf i log) r mp mg mo rest) {M M' : List Entry} {m : Entry} (hm : mg ++ mo = M ++ m :: M')
    {ev : Served → List Ev} (hev : ∀ y ∈ log, ∀ e ∈ ev y, e ∈ events t.accepts y.req.body) {P D : Nat → List Ev}
    (hdoes : ∀ k x, turns[k]? = some x → ∃ r mp mg mo rest, Parts cb t hash place heap x (partOf k log) r mp mg mo rest ∧
      Does hash ev (P k) (D k) mp rest) (hi' : Does hash ev (P i) (D i) mp rest) :
    ∃ before after, log = before ++ m.srv :: after ∧ m.srv.turn = i ∧ ∀ (F : Ev → Bool) (ds : Nat),
      (∀ e, F e = true → hv hash (evPair e) = some ds) → place[ds]? = some m.srv.rank →
      SeenF ev P D turns.length log i F before := by
  have hpart := hp.part m.srv.rank
  rw [List.append_assoc mp, hm] at hpart
  obtain ⟨before, after, h1, h2, h3⟩ := split_part (r := m.srv.rank) (log := log) (i := i) (A := onRank m.srv.rank ((mp ++ M).map (·.srv)))
    (y := m.srv) (B := onRank m.srv.rank ((M' ++ rest).map (·.srv)))
    (by rw [onRank, ← hpart]; simp [onRank])
  refine ⟨before, after, h1, h3, fun F ds hF hpl => ?_⟩
  have hknown := overlap_known hp31 hturns h
  have hone : ∀ l : List Served, (∀ y ∈ l, y ∈ log) →
      (l.flatMap ev).filter F = ((onRank m.srv.rank l).flatMap ev).filter F :=
    fun l hl => done_onRank hF hpl l (fun y hy => hknown y (hl y hy)) (fun y hy => hev y (hl y hy))
  have quiet : ∀ {x part r mp mg mo rest}, Parts cb t hash place heap x part r mp mg mo rest → (∀ y ∈ part, y ∈ log) →
      ∀ m ∈ mg ++ mo, ev m.srv = [] := by
    intro x part r mp mg mo rest hp hsub m hm
    have hin : m.srv ∈ log := hsub _ ((sameOrder_mem hp.part).mp (List.mem_map.mpr ⟨m, by
      rw [List.append_assoc mp]
      simp only [List.mem_append] at hm ⊢
      exact Or.inl (Or.inr hm), rfl⟩))
    have := hp.quiet m hm
    exact List.eq_nil_iff_forall_not_mem.mpr (fun e he => by
      have := hev _ hin e he
      rw [hp.quiet m hm] at this
      cases this)
  have hfull : ∀ k z, turns[k]? = some z → pickBy ev F k log = (P k ++ D k).filter F :=
    fun _ _ hk => pick_all hp31 hturns h hev hdoes hF hpl hk
  have hprefix : ∀ k, partOf k before ++ partOf k (m.srv :: after) = partOf k log := by
    intro k
    rw [h1, partOf_append]
  refine ⟨?_, ?_, ?_, ?_⟩
  · have hg : M.flatMap (fun m => ev m.srv) = [] := by
      rw [List.flatMap_eq_nil_iff]
      intro n hn
      exact quiet hp (fun y hy => List.mem_of_mem_filter hy) n (by rw [hm]; simp [hn])
    unfold pickBy
    rw [hone (partOf i before) (fun y hy => by rw [h1]; simp [List.mem_of_mem_filter hy]), h2, ← hone _ (fun y hy =>
      (List.mem_of_mem_filter ((sameOrder_mem hp.part).mp (by
        rw [List.append_assoc mp, hm]
        rw [List.map_append, List.mem_append] at hy ⊢
        rw [List.map_append, List.mem_append, List.map_append, List.mem_append]
        exact .inl (hy.imp_right .inl)))))]
    rw [List.flatMap_map, List.flatMap_append, hg, List.append_nil, filter_sub hF, (hi' ds).1, ← filter_sub hF]
  · intro k hk
    rw [← hfull k _ (List.getElem?_eq_getElem hk)]
    unfold pickBy
    rw [← hprefix k, List.flatMap_append, List.filter_append]
    exact List.prefix_append _ _
  · intro k hk hf hne
    have : partOf k (m.srv :: after) = [] := by
      unfold partOf
      rw [List.filter_eq_nil_iff]
      unfold Finished at hf
      rw [h1, List.pairwise_append] at hf
      intro u hu
      rcases List.mem_cons.mp hu with rfl | hu
      · simp [h3, Ne.symm hne]
      · have := (List.pairwise_cons.mp hf.2.1).1 u hu
        simp only [h3, true_and] at this
        simp [this]
    rw [← hfull k _ (List.getElem?_eq_getElem hk)]
    unfold pickBy
    rw [← hprefix k, this, List.append_nil]
  · intro k hf hne
    have : partOf k before = [] := by
      unfold partOf
      rw [List.filter_eq_nil_iff]
      unfold Finished at hf
      rw [h1, List.pairwise_append] at hf
      intro u hu
      have := hf.2.2 u hu m.srv (by simp)
      simp only [h3, and_true] at this
      simp [this]
    unfold pickBy
    rw [this]
    rfl

/-- What a request was asked to do. -/
def asked (a : Val → Bool) (y : Served) : List Ev := events a y.req.body

/-- `seen_before` for what the flushes were asked to do. -/
theorem seen_asked (hp31 : place.length ≤ 2 ^ 31) {w w' : World} {turns : List Turn} {log : List Served} {rs : List Results}
    (hturns : ∀ x ∈ turns, TurnOk cb t hash place x) (h : Overlap cb heap place.length w turns log w' rs) {i : Nat} {x : Turn}
    (hi : turns[i]? = some x) {r : Results} {mp mg mo rest : List Entry}
    (hp : Parts cb t hash place heap x (partOf i log) r mp mg mo rest) {M M' : List Entry} {m : Entry} (hm : mg ++ mo = M ++ m :: M') :
    ∃ before after, log = before ++ m.srv :: after ∧ m.srv.turn = i ∧
      ∀ (F : Ev → Bool) (ds : Nat), (∀ e, F e = true → hv hash (evPair e) = some ds) → place[ds]? = some m.srv.rank →
      (∀ x, turns[i]? = some x → pickBy (asked t.accepts) F i before = (storedPuts t.accepts (turnOps hash x)).filter F) ∧
      (∀ k x, turns[k]? = some x → pickBy (asked t.accepts) F k before <+: (flushEvents t.accepts (turnOps hash x)).filter F) ∧
      (∀ k x, turns[k]? = some x → Finished log k i → k ≠ i →
        pickBy (asked t.accepts) F k before = (flushEvents t.accepts (turnOps hash x)).filter F) ∧
      (∀ k, Finished log i k → k ≠ i → pickBy (asked t.accepts) F k before = []) := by
  obtain ⟨before, after, h1, h2, h3⟩ := seen_before hp31 hturns h hi hp hm (ev := asked t.accepts) (fun y _ e he => he)
    (P := fun k => (turns[k]?.map (fun x => storedPuts t.accepts (turnOps hash x))).getD [])
    (D := fun k => (turns[k]?.map (fun x => storedDels t.accepts (turnOps hash x))).getD [])
    (fun k z hk => by
      obtain ⟨r', mp', mg', mo', rest', -, hp'⟩ := overlap_parts hp31 hturns h hk
      refine ⟨r', mp', mg', mo', rest', hp', fun ds => ?_⟩
      rw [hk]
      exact ⟨hp'.puts ds, hp'.dels ds⟩)
    (fun ds => by
      rw [hi]
      exact ⟨hp.puts ds, hp.dels ds⟩)
  refine ⟨before, after, h1, h2, fun F ds hF hpl => ?_⟩
  obtain ⟨a1, a2, a3, a4⟩ := h3 F ds hF hpl
  refine ⟨?_, ?_, ?_, a4⟩
  · intro x hx
    rw [a1, hx]
    rfl
  · intro k x hx
    have := a2 k (List.getElem?_eq_some_iff.mp hx).1
    rw [hx] at this
    exact this
  · intro k x hx hf hne
    have := a3 k (List.getElem?_eq_some_iff.mp hx).1 hf hne
    rw [hx] at this
    exact this

/-- A request with GETs at its place in the log. -/
theorem get_seen (hp31 : place.length ≤ 2 ^ 31) {w w' : World} {turns : List Turn} {log : List Served} {rs : List Results}
    (hturns : ∀ x ∈ turns, TurnOk cb t hash place x) (h : Overlap cb heap place.length w turns log w' rs) {i : Nat} {x : Turn}
    (hi : turns[i]? = some x) {r : Results} {mp mg mo rest : List Entry}
    (hp : Parts cb t hash place heap x (partOf i log) r mp mg mo rest) {M M' : List Entry} {m : Entry} (hm : mg = M ++ m :: M') :
    ∃ before after, Answered t.accepts hash turns log i before m.srv after := by
  obtain ⟨before, after, h1, h3, hF⟩ := seen_asked hp31 hturns h hi hp (M := M) (m := m) (M' := M' ++ mo) (by rw [hm]; simp)
  refine ⟨before, after, h1, h3, fun g hg => ?_⟩
  obtain ⟨s, p⟩ := g
  obtain ⟨hmok, hmf⟩ := hp.ok m (by rw [hm]; simp)
  obtain ⟨ds, hh, hpl⟩ : ∃ ds : Nat, hv hash (s, p) = some ds ∧ place[ds]? = some m.srv.rank := by
    obtain ⟨l, hl, hk⟩ := hp.gets m (by rw [hm]; simp)
    rw [hmok.asked, hl] at hg
    obtain ⟨y, hy, he⟩ := List.mem_map.mp hg
    cases he
    obtain ⟨-, -, d, hd, hh⟩ := hk y hy
    obtain ⟨d', hd', hpl, -⟩ := hmf.dst
    rw [hd] at hd'
    have : d = d' := by exact_mod_cast hd'
    subst this
    exact ⟨d, by rw [hv_val]; exact hh, by rw [hmok.rank]; exact hpl⟩
  obtain ⟨a1, a2, a3, a4⟩ := hF (ofPair s p) ds (fun e he => by rw [evPair_ofPair.mp he]; exact hh) hpl
  refine ⟨?_, ?_, ?_, ?_, ?_⟩
  · intro z hz
    rw [writesBy_writes]
    exact a1 z hz
  · intro k z hk
    rw [writesBy_writes]
    exact a2 k z hk
  · intro k z hk hf hne
    rw [writesBy_writes]
    exact a3 k z hk hf hne
  · intro k hf hne
    rw [writesBy_writes]
    exact a4 k hf hne
  · intro z hz
    unfold writes at hz
    obtain ⟨u, hu, hz⟩ := List.mem_flatMap.mp hz
    obtain ⟨e, -, rfl⟩ := List.mem_map.mp hz
    exact h.only u (by rw [h1]; simp [hu])

/-- A GET at its place in the log. -/
theorem get_answer (hheap : heap ≠ 0) (hheap' : heap < 2 ^ 64) {net : Net} (hh : net.heap ≠ 0) (hh' : net.heap < 2 ^ 64)
    {w u : World} {H : List Ev} (hw : Stores cb t hash place w H) {m : Entry} (hok : m.Ok cb heap net)
    (hf : Fine cb t hash place net.heap m.send) (hg : ∃ g, m.send.req.body = .get g ∧
      ∀ y ∈ g, KeyOk cb t y.subject ∧ KeyOk cb t y.predicate ∧ ∃ ds : Nat, m.send.req.dst = ds ∧ home hash y.subject y.predicate = some ds)
    (hs : World.serve cb heap w m.srv.rank m.srv.req = .ok (u, m.srv.res)) :
    List.Forall₂ (Returned t H) ((getsIn m.send.req.body).map (fun g => (g.subject, g.predicate)))
      (m.back.toList.flatMap (fun res => (getsOut res).map (initGet res.src))) := by
  have hd : deliverAll (deliver net (World.serve cb heap)) [m.send] w = .ok (u, m.back.toList) := by
    simp only [deliverAll, hok.step w u hs, Out.ok_bind, List.append_nil]
  obtain ⟨-, h2⟩ := deliverAll_gets hheap hheap' hh hh' [m.send] hw (by
    intro x hx
    rw [List.mem_singleton] at hx
    subst hx
    exact ⟨hf, hg⟩) hd
  simp only [List.flatMap_cons, List.flatMap_nil, List.append_nil] at h2
  exact forall₂_results _ _ h2

theorem forall₂_flatMap {α β γ : Type} {R : α → β → Prop} (f : γ → List α) (g : γ → List β) (l : List γ)
    (h : ∀ a m b, l = a ++ m :: b → List.Forall₂ R (f m) (g m)) : List.Forall₂ R (l.flatMap f) (l.flatMap g) := by
  induction l with
  | nil => exact .nil
  | cons x l ih =>
    rw [List.flatMap_cons, List.flatMap_cons]
    exact List.rel_append (h [] x l rfl) (ih (fun a m b he => h (x :: a) m b (by rw [he]; rfl)))

theorem overlap_gets (hheap : heap ≠ 0) (hheap' : heap < 2 ^ 64) (hp31 : place.length ≤ 2 ^ 31) {w w' : World} {turns : List Turn}
    {log : List Served} {rs : List Results} (hw : Holds cb t hash place w []) (hturns : ∀ x ∈ turns, TurnOk cb t hash place x)
    (h : Overlap cb heap place.length w turns log w' rs) {i : Nat} {x : Turn} {r : Results} (hi : turns[i]? = some x)
    (hr : rs[i]? = some r) :
    ∃ gs, gs.Perm (getPairs (turnOps hash x)) ∧ List.Forall₂ (fun g z => ∃ before y after,
      Answered t.accepts hash turns log i before y after ∧ (g.1.val, g.2.val) ∈ askedIn y.req.body ∧
      Returned t ((writes t.accepts g.1.val g.2.val before).map Prod.snd) g z) gs
        (r.items.filter (fun y => decide (y.kind = .get))) := by
  obtain ⟨r', mp, mg, mo, rest, hr', hp⟩ := overlap_parts hp31 hturns h hi
  rw [hr] at hr'
  cases hr'
  have haddr := (hturns x (List.mem_of_getElem? hi)).address
  refine ⟨_, hp.pairs, ?_⟩
  rw [hp.items, List.map_flatMap]
  refine forall₂_flatMap _ _ _ ?_
  intro M m M' hm
  obtain ⟨before, after, ha⟩ := get_seen hp31 hturns h hi hp hm
  obtain ⟨u, h1, v, h2, -⟩ : ∃ u, executes cb heap w before u ∧ ∃ v, World.serve cb heap u m.srv.rank m.srv.req = .ok (v, m.srv.res) ∧
      executes cb heap v after w' := executes_append (by rw [← ha.split]; exact h.executes)
  have hknown := overlap_known hp31 hturns h
  have hold := executes_holds hw (fun y hy => hknown y (by rw [ha.split]; simp [hy])) h1
  obtain ⟨hok, hf⟩ := hp.ok m (by rw [hm]; simp)
  have hans := get_answer hheap hheap' haddr.1 haddr.2 hold.toStores hok hf (hp.gets m (by rw [hm]; simp)) h2
  have hmem : ∀ g ∈ (getsIn m.send.req.body).map (fun g => (g.subject, g.predicate)), (g.1.val, g.2.val) ∈ askedIn m.srv.req.body := by
    intro g hg
    obtain ⟨y, hy, rfl⟩ := List.mem_map.mp hg
    rw [hok.asked, askedIn_getsIn]
    exact List.mem_map.mpr ⟨y, hy, rfl⟩
  have : ∀ (gs : List (Blob × Blob)) (zs : List Result), List.Forall₂ (Returned t ([] ++ before.flatMap (fun y => events t.accepts y.req.body))) gs zs →
      (∀ g ∈ gs, (g.1.val, g.2.val) ∈ askedIn m.srv.req.body) →
      List.Forall₂ (fun g z => ∃ before y after,
        Answered t.accepts hash turns log i before y after ∧ (g.1.val, g.2.val) ∈ askedIn y.req.body ∧
        Returned t ((writes t.accepts g.1.val g.2.val before).map Prod.snd) g z) gs zs := by
    intro gs zs hgz
    induction hgz with
    | nil => exact fun _ => .nil
    | @cons g z gs zs hgz _ ih =>
      intro hmem
      refine .cons ⟨before, m.srv, after, ha, hmem g (by simp), ?_⟩ (ih (fun g hg => hmem g (by simp [hg])))
      rw [List.nil_append] at hgz
      refine ⟨hgz.kind, hgz.subject, hgz.predicate, ?_, ?_⟩
      · intro o ho
        rw [writes_lastObj] at ho
        exact hgz.found o ho
      · intro ho
        rw [writes_lastObj] at ho
        exact hgz.absent ho
  exact this _ _ hans hmem

/-! ## GETOPs -/

theorem executes_kept {w w' : World} {H : List Ev} {log : List Served} (hw : Holds cb t hash place w H)
    (hl : ∀ y ∈ log, Known cb t hash place heap y) (h : executes cb heap w log w') : Kept w w' := by
  induction log generalizing w H with
  | nil => cases h; exact fun _ => rfl
  | cons y log ih =>
    obtain ⟨u, hu, h⟩ := h
    have hy := hl y (by simp)
    have h1 := executes_holds (log := [y]) hw (by simpa using hy) ⟨u, hu, rfl⟩
    obtain ⟨net, m, rfl, hok, hfine⟩ := hy
    have hd : deliverAll (deliver net (World.serve cb heap)) [m.send] w = .ok (u, m.back.toList ++ []) := by
      simp only [deliverAll, hok.step w u hu, Out.ok_bind]
    exact (deliverAll_kept [m.send] hw.toStores (by simpa using hfine) hd).trans (ih h1 (fun z hz => hl z (by simp [hz])) h)

/-- What the log does was asked for by the flushes. -/
theorem overlap_events (hp31 : place.length ≤ 2 ^ 31) {w w' : World} {turns : List Turn} {log : List Served} {rs : List Results}
    (hturns : ∀ x ∈ turns, TurnOk cb t hash place x) (h : Overlap cb heap place.length w turns log w' rs) {y : Served} (hy : y ∈ log)
    {e : Ev} (he : e ∈ events t.accepts y.req.body) : ∃ x ∈ turns, e ∈ flushEvents t.accepts (turnOps hash x) := by
  obtain ⟨r, mp, mg, mo, rest, -, hp⟩ := overlap_parts hp31 hturns h (List.getElem?_eq_getElem (h.only y hy))
  refine ⟨_, List.getElem_mem (h.only y hy), ?_⟩
  have hm : y ∈ partOf y.turn log := List.mem_filter.mpr ⟨hy, by simp⟩
  rw [← sameOrder_mem hp.part] at hm
  obtain ⟨m, hm', rfl⟩ := List.mem_map.mp hm
  obtain ⟨hok, hf⟩ := hp.ok m hm'
  obtain ⟨ds, -, -, u3⟩ := hf.dst
  have hds : hv hash (evPair e) = some ds := (u3 e (by rw [← hok.events]; exact he)).1
  have pick : ∀ {M : List Entry} {l : List Ev}, (∀ ds : Nat, (M.flatMap (fun m => events t.accepts m.srv.req.body)).filter
      (fun e => decide (hv hash (evPair e) = some ds)) = l.filter (fun e => decide (hv hash (evPair e) = some ds))) → m ∈ M → e ∈ l := by
    intro M l hM hmM
    have : e ∈ (M.flatMap (fun m => events t.accepts m.srv.req.body)).filter (fun e => decide (hv hash (evPair e) = some ds)) :=
      List.mem_filter.mpr ⟨List.mem_flatMap.mpr ⟨m, hmM, he⟩, by simp [hds]⟩
    rw [hM ds] at this
    exact List.mem_of_mem_filter this
  unfold flushEvents
  rw [List.append_assoc mp, List.mem_append, List.mem_append] at hm'
  rcases hm' with (hm | hm) | hm
  · exact List.mem_append_left _ (pick hp.puts hm)
  · rw [hp.quiet m hm] at he
    cases he
  · exact List.mem_append_right _ (pick hp.dels hm)

theorem overlap_keysFit (hp31 : place.length ≤ 2 ^ 31) {w w' : World} {turns : List Turn} {log : List Served} {rs : List Results}
    (hturns : ∀ x ∈ turns, TurnOk cb t hash place x) (hg : ∀ x ∈ turns, PutsGiven (turnOps hash x))
    (h : Overlap cb heap place.length w turns log w' rs) {l : List Served} (hl : ∀ y ∈ l, y ∈ log) :
    KeysFit (l.flatMap (fun y => events t.accepts y.req.body)) := by
  intro s p o hm
  obtain ⟨y, hy, hm⟩ := List.mem_flatMap.mp hm
  obtain ⟨x, hx, he⟩ := overlap_events hp31 hturns h (hl y hy) hm
  exact keysFit_turns hturns hg s p o (List.mem_flatMap.mpr ⟨x, hx, he⟩)

theorem opsIn_getopsIn (b : ReqBody) : opsIn b = (getopsIn b).map opAsk := by cases b <;> rfl

theorem overlap_getops {b : Backend} (hheap : heap ≠ 0) (hheap' : heap < 2 ^ 64) (hp31 : place.length ≤ 2 ^ 31) {w w' : World}
    {turns : List Turn} {log : List Served} {rs : List Results} (hw : Holds cb t hash place w []) (ha : Apart place w) (hb : Backed b w)
    (hturns : ∀ x ∈ turns, TurnOk cb t hash place x) (hgiven : ∀ x ∈ turns, PutsGiven (turnOps hash x))
    (h : Overlap cb heap place.length w turns log w' rs) {i : Nat} {x : Turn} {r : Results} (hi : turns[i]? = some x)
    (hr : rs[i]? = some r) (hops : GetOpsOk cb t (turnOps hash x))
    (harr : ∀ g ∈ getOps (turnOps hash x), ∀ before y after, log = before ++ y :: after → y.turn = i →
      Arrives t cb.neg b hash (before.flatMap (fun y => events t.accepts y.req.body)) g) :
    ∃ gs groups, gs.Perm (getOps (turnOps hash x)) ∧ r.items.filter (fun y => decide (y.kind = .getop)) = groups.flatten ∧
      List.Forall₂ (fun g z => ∃ before y after, OpAnswered t.accepts hash turns log i g before y after ∧
        ReturnedOp t cb.neg b hash (before.flatMap (fun y => events t.accepts y.req.body)) g z) gs groups := by
  obtain ⟨r', mp, mg, mo, rest, hr', hp⟩ := overlap_parts hp31 hturns h hi
  rw [hr] at hr'
  cases hr'
  have haddr := (hturns x (List.mem_of_getElem? hi)).address
  refine ⟨_, _, hp.ops, hp.opItems, ?_⟩
  refine forall₂_flatMap _ _ _ ?_
  intro M m M' hm
  obtain ⟨before, after, h1, h3, hF⟩ := seen_asked hp31 hturns h hi hp (M := mg ++ M) (m := m) (M' := M') (by rw [hm]; simp)
  obtain ⟨u, e1, v, e2, -⟩ : ∃ u, executes cb heap w before u ∧ ∃ v, World.serve cb heap u m.srv.rank m.srv.req = .ok (v, m.srv.res) ∧
      executes cb heap v after w' := executes_append (by rw [← h1]; exact h.executes)
  have hknown : ∀ y ∈ before, Known cb t hash place heap y :=
    fun y hy => overlap_known hp31 hturns h y (by rw [h1]; simp [hy])
  have hold := executes_holds hw hknown e1
  rw [List.nil_append] at hold
  have hkept := executes_kept hw hknown e1
  have hkeys := overlap_keysFit hp31 hturns hgiven h (l := before) (fun y hy => by rw [h1]; simp [hy])
  obtain ⟨hok, hf⟩ := hp.ok m (by rw [hm]; simp)
  obtain ⟨g, hg, hgk⟩ := hp.getops m (by rw [hm]; simp)
  have hd : deliverAll (deliver x.net (World.serve cb heap)) [m.send] u = .ok (v, m.back.toList) := by
    simp only [deliverAll, hok.step u v e2, Out.ok_bind, List.append_nil]
  obtain ⟨-, hR⟩ := deliverAll_getops hheap hheap' haddr.1 haddr.2 [m.send] hkeys hold.toStores (hkept.apart ha) (hkept.backed hb) (by
    intro z hz
    rw [List.mem_singleton] at hz
    subst hz
    exact ⟨hf, g, hg, fun y hy => ⟨hops y (hgk y hy).1, harr y (hgk y hy).1 before m.srv after h1 h3, (hgk y hy).2⟩⟩) hd
  have hret := forall₂_resultOps _ _ hR
  simp only [List.flatMap_cons, List.flatMap_nil, List.append_nil] at hret
  have hans : ∀ y ∈ getopsIn m.send.req.body, OpAnswered t.accepts hash turns log i y before m.srv after := by
    intro y hy
    refine ⟨h1, h3, ?_, ?_⟩
    · rw [hok.ops, opsIn_getopsIn]
      exact List.mem_map_of_mem hy
    · intro ds hds
      rw [hg] at hy
      obtain ⟨-, d, hd, hd'⟩ := hgk y hy
      rw [hds] at hd'
      cases hd'
      obtain ⟨d', hd', hpl, -⟩ := hf.dst
      rw [hd] at hd'
      have : ds = d' := by exact_mod_cast hd'
      subst this
      obtain ⟨a1, a2, a3, a4⟩ := hF (fun e => decide (evHome hash e = some ds)) ds
        (fun e he => by rw [← evHome_hv]; exact of_decide_eq_true he) (by rw [hok.rank]; exact hpl)
      exact ⟨by rw [hok.dst]; exact hd, a1, a2, a3, a4⟩
  generalize getopsIn m.send.req.body = ys at hret hans
  generalize m.back.toList.flatMap (fun res => (getopsOut res).map (recResults res.src)) = zs at hret
  induction hret with
  | nil => exact .nil
  | @cons y z ys zs hyz _ ih =>
    exact .cons ⟨before, m.srv, after, hans y (by simp), hyz⟩ (ih (fun y hy => hans y (by simp [hy])))

end Hx.Job

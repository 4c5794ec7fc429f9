import Verif.Proofs.Overlap
import Verif.Proofs.JobRuns

/-!
# Helper lemmas: flushes of operations that are always answered can overlap in every order
-/

namespace Hx.Job
open Hx Msg Spec Process Store Results Props

variable {cb : Callbacks} {t : Transform} {hash : Bytes → Bytes → Out Int} {place : List Int} {heap : Nat}

/-- With the entry next in the log the delivery succeeds, and the response can be turned into results. -/
def Replays (net : Net) (m : Entry) : Prop :=
  (∀ l, deliver net replay (m.srv :: l) m.send = .ok (l, m.back)) ∧
  ∀ res ∈ m.back.toList, Full res

private theorem replay_next (y : Served) (l : List Served) : replay (y :: l) y.rank y.req = .ok (l, y.res) := by
  simp [replay]

/-- A delivery to the range servers is an entry of the log. -/
theorem deliver_entry {net : Net} {w u : World} {x : Send} {o : Option Res} (k : Nat) (hreq : SendableReq x.req)
    (h : deliver net (World.serve cb heap) w x = .ok (u, o)) :
    ∃ y : Served, y.turn = k ∧ World.serve cb heap w y.rank y.req = .ok (u, y.res) ∧
      ∀ l, deliver net replay (y :: l) x = .ok (l, o) := by
  unfold deliver at h
  split at h
  · rename_i hwire
    unfold remoteServe at h
    rw [reads_req net.heap x.req hreq] at h
    simp only at h
    obtain ⟨z, hz, h⟩ := ok_iff.mp h
    obtain ⟨b, hb, h⟩ := ok_iff.mp h
    have hu : u = z.1 := by
      split at h <;> cases h <;> rfl
    subst hu
    refine ⟨⟨k, x.rank, arrivedReq net.heap x.req, z.2⟩, rfl, hz, ?_⟩
    intro l
    unfold deliver
    rw [if_pos hwire]
    unfold remoteServe
    rw [reads_req net.heap x.req hreq]
    simp only
    rw [replay_next ⟨k, x.rank, arrivedReq net.heap x.req, z.2⟩ l]
    simp only [Out.ok_bind, hb]
    split at h
    · cases h; rfl
    · cases h; rfl
    · cases h
  · rename_i hwire
    obtain ⟨z, hz, h⟩ := ok_iff.mp h
    cases h
    refine ⟨⟨k, x.rank, x.req, z.2⟩, rfl, hz, ?_⟩
    intro l
    unfold deliver
    rw [if_neg hwire, replay_next ⟨k, x.rank, x.req, z.2⟩ l]
    rfl

private theorem deliverAll_replays {net : Net} (M : List Entry) (hM : ∀ m ∈ M, Replays net m) (rest : List Served) :
    deliverAll (deliver net replay) (M.map (·.send)) (M.map (·.srv) ++ rest) = .ok (rest, M.flatMap (·.back.toList)) := by
  induction M with
  | nil => rfl
  | cons m M ih =>
    simp only [List.map_cons, List.cons_append, deliverAll, (hM m (by simp)).1, Out.ok_bind,
      ih (fun n hn => hM n (by simp [hn])), List.flatMap_cons]

private theorem process_replays {α : Type} {net : Net} {mk : List α → ReqBody} {qs : List (List (List α))} {l : List Send}
    (hall : ∀ (s s' : List Served) (r : Results) (qs' : List (List (List α))), process net replay mk s qs = .ok (s', r, qs') ↔
      qs' = qs.map (fun _ => []) ∧ ∃ rs, deliverAll (deliver net replay) l s = .ok (s', rs) ∧ addAll rs Results.create = .ok r)
    {M : List Entry} (hl : l = M.map (·.send)) (hM : ∀ m ∈ M, Replays net m) (rest : List Served) :
    ∃ r, process net replay mk (M.map (·.srv) ++ rest) qs = .ok (rest, r, qs.map (fun _ => [])) := by
  obtain ⟨r, h4, -⟩ := C35_chain_partial (M.flatMap (·.back.toList)) Results.create (by
    intro res hr
    obtain ⟨m, hm, hr⟩ := List.mem_flatMap.mp hr
    exact (hM m hm).2 res hr)
  refine ⟨r, (hall _ _ _ _).mpr ⟨rfl, _, ?_, h4⟩⟩
  rw [hl]
  exact deliverAll_replays M hM rest

/-- The deliveries of a flush do not depend on the responses. -/
structure Plan (cb : Callbacks) (t : Transform) (hash : Bytes → Bytes → Out Int) (place : List Int) (G : Uses) (x : Turn)
    (l : List Send) : Prop where
  sends : ∀ s ∈ l, Fine cb t hash place x.net.heap s ∧ Simple cb t G s.req.body
  works : ∀ M : List Entry, M.map (·.send) = l → (∀ m ∈ M, Replays x.net m) → ∃ r, turnOn place.length (M.map (·.srv)) x r

theorem turn_plan (hp31 : place.length ≤ 2 ^ 31) {G : Uses} {x : Turn} (hx : TurnOk cb t hash place x)
    (hr : TurnRuns cb t hash place.length x) (hG : getOps (turnOps hash x) ≠ [] → G.getops) (hgiven : Gives G (turnOps hash x)) :
    ∃ l, Plan cb t hash place G x l := by
  obtain ⟨hHash, h0, hserv, hcalls, hop⟩ := hr
  obtain ⟨q, hq, z1, z2, z3, z4, z5⟩ := C27_defined x.cfg place.length x.calls hHash h0 hserv hcalls
  obtain ⟨c1, c2, c3, c4, c5⟩ := simple_sends hp31 hx hq hop hG hgiven
  have hR := hx.routed
  obtain ⟨lp, p1, a1⟩ := C29_flush_partial x.net ReqBody.put q.puts (by rw [z1]; exact hR)
  obtain ⟨lg, p2, a2⟩ := C29_flush_partial x.net ReqBody.get q.gets (by rw [z2]; exact hR)
  obtain ⟨lo, p3, a3⟩ := C29_flush_partial x.net ReqBody.getop q.getops (by rw [z3]; exact hR)
  obtain ⟨ld, p4, a4⟩ := C29_flush_partial x.net ReqBody.del q.dels (by rw [z4]; exact hR)
  obtain ⟨lh, p5, a5⟩ := C29_flush_partial x.net ReqBody.hist q.hists (by rw [z5]; exact hR)
  refine ⟨lp ++ lg ++ lo ++ ld ++ lh, ?_, ?_⟩
  · intro s hs
    simp only [List.mem_append] at hs
    rcases hs with (((hs | hs) | hs) | hs) | hs
    · exact c1 lp p1 s hs
    · exact c2 lg p2 s hs
    · exact c3 lo p3 s hs
    · exact c4 ld p4 s hs
    · exact c5 lh p5 s hs
  · intro M hM hrep
    obtain ⟨M4, Mh, rfl, hM, m5⟩ := List.map_eq_append_iff.mp hM
    obtain ⟨M3, Md, rfl, hM, m4⟩ := List.map_eq_append_iff.mp hM
    obtain ⟨M2, Mo, rfl, hM, m3⟩ := List.map_eq_append_iff.mp hM
    obtain ⟨Mp, Mg, rfl, m1, m2⟩ := List.map_eq_append_iff.mp hM
    obtain ⟨r1, g1⟩ := process_replays (fun s s' r qs' => a1 replay s s' r qs') m1.symm (fun m hm => hrep m (by simp [hm]))
      ((Mg ++ Mo ++ Md ++ Mh).map (·.srv))
    obtain ⟨r2, g2⟩ := process_replays (fun s s' r qs' => a2 replay s s' r qs') m2.symm (fun m hm => hrep m (by simp [hm]))
      ((Mo ++ Md ++ Mh).map (·.srv))
    obtain ⟨r3, g3⟩ := process_replays (fun s s' r qs' => a3 replay s s' r qs') m3.symm (fun m hm => hrep m (by simp [hm]))
      ((Md ++ Mh).map (·.srv))
    obtain ⟨r4, g4⟩ := process_replays (fun s s' r qs' => a4 replay s s' r qs') m4.symm (fun m hm => hrep m (by simp [hm]))
      (Mh.map (·.srv))
    obtain ⟨r5, g5⟩ := process_replays (fun s s' r qs' => a5 replay s s' r qs') m5.symm (fun m hm => hrep m (by simp [hm])) []
    simp only [List.map_append, List.append_assoc, List.append_nil] at g1 g2 g3 g4 g5
    suffices h : ∃ r q', flush x.net replay ((Mp ++ Mg ++ Mo ++ Md ++ Mh).map (·.srv)) q = .ok ([], r, q') by
      obtain ⟨r, q', h⟩ := h
      exact ⟨r, _, q, q', sameOrder_refl _, hq, h⟩
    unfold flush flushPuts flushGets flushGetOps flushDels flushHists
    simp only [List.map_append, List.append_assoc, g1, g2, g3, g4, g5, Out.ok_bind]
    exact ⟨_, _, rfl⟩

/-! ## Every order -/

/-- `plans k` is what turn `k` still has to send. -/
theorem interleave (hheap : heap ≠ 0) (hheap' : heap < 2 ^ 64) {G : Uses} {turns : List Turn}
    (hturns : ∀ x ∈ turns, x.net.heap ≠ 0 ∧ x.net.heap < 2 ^ 64) (order : List Nat) :
    ∀ {w : World} {H : List Ev} (plans : Nat → List Send), Stores cb t hash place w H → (G.getops → KeysFit H) → Bare G place w →
    (∀ k, order.count k = (plans k).length) → (∀ k, plans k ≠ [] → ∃ x, turns[k]? = some x ∧
      ∀ s ∈ plans k, Fine cb t hash place x.net.heap s ∧ Simple cb t G s.req.body) →
    ∃ (log : List Served) (w' : World), log.map (·.turn) = order ∧ executes cb heap w log w' ∧
      ∀ k x, turns[k]? = some x → ∃ M : List Entry, M.map (·.send) = plans k ∧ M.map (·.srv) = partOf k log ∧
        ∀ m ∈ M, Replays x.net m := by
  induction order with
  | nil =>
    intro w H plans hw hkey hs hc hp
    refine ⟨[], w, rfl, rfl, fun k x _ => ⟨[], ?_, rfl, by simp⟩⟩
    have := hc k
    rw [List.count_nil] at this
    rw [List.eq_nil_of_length_eq_zero this.symm]
    rfl
  | cons i order ih =>
    intro w H plans hw hkey hs hc hp
    have hi := hc i
    rw [List.count_cons_self] at hi
    obtain ⟨s, more, hsm⟩ : ∃ s more, plans i = s :: more := by
      cases h : plans i with
      | nil => rw [h] at hi; cases hi
      | cons s more => exact ⟨s, more, rfl⟩
    obtain ⟨x, hx, hfine⟩ := hp i (by rw [hsm]; simp)
    obtain ⟨hf, hb⟩ := hfine s (by rw [hsm]; simp)
    obtain ⟨hh, hh'⟩ := hturns x (List.mem_of_getElem? hx)
    obtain ⟨u, res, hd, hs', hfull⟩ := deliver_defined hheap hheap' hh hh' hw hkey hs.1 (hs.1.few hs.2) hf hb
    obtain ⟨y, hy, hserve, hrep⟩ := deliver_entry i hf.req hd
    obtain ⟨res', hserved⟩ := deliver_serve hf.req hf.client hd
    obtain ⟨d, hd1, hd2, hd3⟩ := hf.dst
    have hw' := serve_done d hw hd1 hd2 hf.body hd3 hserved
    have hgo : ∀ r ∈ (some res).toList, Full r := by
      intro r hr
      simp only [Option.toList_some, List.mem_singleton] at hr
      rw [hr]
      exact hfull
    have hkey' : G.getops → KeysFit (H ++ done t.accepts s.req.body res'.body) := by
      intro hG
      exact (hkey hG).append (fun s' p' o he => events_fit hf hb hG s' p' o (done_events _ _ _ _ he))
    obtain ⟨log, w', h1, h2, h3⟩ := ih (fun k => if k = i then more else plans k) hw' hkey' ⟨hs', hs.2⟩ (by
      intro k
      by_cases hk : k = i
      · subst hk
        rw [if_pos rfl]
        rw [hsm, List.length_cons] at hi
        omega
      · rw [if_neg hk, ← hc k, List.count_cons_of_ne (Ne.symm hk)]) (by
      intro k hne
      by_cases hk : k = i
      · subst hk
        rw [if_pos rfl]
        exact ⟨x, hx, fun z hz => hfine z (by rw [hsm]; simp [hz])⟩
      · rw [if_neg hk] at hne ⊢
        exact hp k hne)
    refine ⟨y :: log, w', by rw [List.map_cons, h1, hy], ⟨u, hserve, h2⟩, ?_⟩
    intro k z hz
    obtain ⟨M, e1, e2, e3⟩ := h3 k z hz
    by_cases hk : k = i
    · subst hk
      rw [hx] at hz
      cases hz
      rw [if_pos rfl] at e1
      refine ⟨⟨s, y, some res⟩ :: M, by rw [List.map_cons, e1, hsm], ?_, ?_⟩
      · rw [List.map_cons, e2]
        unfold partOf
        rw [List.filter_cons_of_pos (by simp [hy])]
      · intro m hm
        rcases List.mem_cons.mp hm with rfl | hm
        · exact ⟨hrep, hgo⟩
        · exact e3 m hm
    · rw [if_neg hk] at e1
      refine ⟨M, e1, ?_, e3⟩
      rw [e2]
      unfold partOf
      rw [List.filter_cons_of_neg (by simp [hy, Ne.symm hk])]

theorem overlap_defined (hheap : heap ≠ 0) (hheap' : heap < 2 ^ 64) (hp31 : place.length ≤ 2 ^ 31) {G : Uses} {turns : List Turn}
    {w : World} {H : List Ev} (hw : Stores cb t hash place w H) (hkey : G.getops → KeysFit H) (hs : Bare G place w)
    (hx : ∀ x ∈ turns, TurnOk cb t hash place x) (hr : ∀ x ∈ turns, TurnRuns cb t hash place.length x)
    (hG : ∀ x ∈ turns, getOps (turnOps hash x) ≠ [] → G.getops) (hgiven : ∀ x ∈ turns, Gives G (turnOps hash x)) :
    ∃ n : Nat → Nat, ∀ order : List Nat, (∀ k, order.count k = n k) →
      ∃ log w' rs, log.map (·.turn) = order ∧ Overlap cb heap place.length w turns log w' rs := by
  have hplan : ∀ k : Nat, ∃ l, (∀ x, turns[k]? = some x → Plan cb t hash place G x l) ∧ (turns[k]? = none → l = []) := by
    intro k
    cases hk : turns[k]? with
    | none => exact ⟨[], by simp, fun _ => rfl⟩
    | some x =>
      obtain ⟨l, hl⟩ := turn_plan hp31 (hx x (List.mem_of_getElem? hk)) (hr x (List.mem_of_getElem? hk))
        (hG x (List.mem_of_getElem? hk)) (hgiven x (List.mem_of_getElem? hk))
      exact ⟨l, fun y hy => by cases hy; exact hl, by simp⟩
  obtain ⟨plans, hplans⟩ := Classical.axiomOfChoice hplan
  refine ⟨fun k => (plans k).length, ?_⟩
  intro order hc
  have hsome : ∀ k, plans k ≠ [] → ∃ x, turns[k]? = some x := by
    intro k hk
    cases h : turns[k]? with
    | none => exact absurd ((hplans k).2 h) hk
    | some x => exact ⟨x, rfl⟩
  obtain ⟨log, w', h1, h2, h3⟩ := interleave hheap hheap' (turns := turns) (fun x h => (hx x h).address) order plans hw hkey hs hc (by
    intro k hk
    obtain ⟨x, h⟩ := hsome k hk
    exact ⟨x, h, ((hplans k).1 x h).sends⟩)
  have hres : ∀ k : Fin turns.length, ∃ r, turnOn place.length (partOf k log) turns[k] r := by
    intro k
    have hk : turns[k.val]? = some turns[k] := List.getElem?_eq_getElem k.isLt
    obtain ⟨M, e1, e2, e3⟩ := h3 k _ hk
    obtain ⟨r, hr⟩ := ((hplans k).1 _ hk).works M e1 e3
    rw [e2] at hr
    exact ⟨r, hr⟩
  obtain ⟨f, hf⟩ := Classical.axiomOfChoice hres
  refine ⟨log, w', List.ofFn f, h1, ⟨h2, ?_, List.length_ofFn, ?_⟩⟩
  · intro y hy
    have hm : y.turn ∈ order := by rw [← h1]; exact List.mem_map.mpr ⟨y, hy, rfl⟩
    have hpos := List.count_pos_iff.mpr hm
    rw [hc] at hpos
    change 0 < (plans y.turn).length at hpos
    obtain ⟨x, hx⟩ := hsome y.turn (by intro h; rw [h] at hpos; cases hpos)
    exact (List.getElem?_eq_some_iff.mp hx).1
  · intro i x r hi hir
    obtain ⟨hlt, rfl⟩ := List.getElem?_eq_some_iff.mp hi
    rw [List.getElem?_ofFn, dif_pos hlt] at hir
    cases hir
    exact hf ⟨i, hlt⟩

/-! ## Turns are a special case -/

theorem executes_trans {w u v : World} {a b : List Served} (h1 : executes cb heap w a u) (h2 : executes cb heap u b v) :
    executes cb heap w (a ++ b) v := by
  induction a generalizing w with
  | nil => cases h1; exact h2
  | cons y a ih =>
    obtain ⟨z, hz, h1⟩ := h1
    exact ⟨z, hz, ih h1⟩

private theorem deliverAll_entries {net : Net} (k : Nat) (l : List Send) {w u : World} {rs : List Res}
    (hl : ∀ x ∈ l, SendableReq x.req) (h : deliverAll (deliver net (World.serve cb heap)) l w = .ok (u, rs)) :
    ∃ part : List Served, (∀ y ∈ part, y.turn = k) ∧ executes cb heap w part u ∧
      ∀ rest, deliverAll (deliver net replay) l (part ++ rest) = .ok (rest, rs) := by
  induction l generalizing w rs with
  | nil => cases h; exact ⟨[], by simp, rfl, fun _ => rfl⟩
  | cons x l ih =>
    simp only [deliverAll] at h
    obtain ⟨y, hy, h⟩ := ok_iff.mp h
    obtain ⟨z, hz, h⟩ := ok_iff.mp h
    cases h
    obtain ⟨e, e1, e2, e3⟩ := deliver_entry k (hl x (by simp)) (show deliver net (World.serve cb heap) w x = .ok (y.1, y.2) from hy)
    obtain ⟨part, p1, p2, p3⟩ := ih (fun u hu => hl u (by simp [hu])) (show _ = Out.ok (z.1, z.2) from hz)
    refine ⟨e :: part, ?_, ⟨y.1, e2, p2⟩, ?_⟩
    · intro a ha
      rcases List.mem_cons.mp ha with rfl | ha
      · exact e1
      · exact p1 a ha
    · intro rest
      simp only [List.cons_append, deliverAll, e3, Out.ok_bind, p3]

private theorem phase_entries {α : Type} {net : Net} (k : Nat) {mk : List α → ReqBody} {qs : List (List (List α))}
    (hR : Routed net qs.length) (hl : ∀ l, Delivers net mk qs l → ∀ x ∈ l, SendableReq x.req) {w : World}
    {y : World × Results × List (List (List α))} (h : process net (World.serve cb heap) mk w qs = .ok y) :
    ∃ part : List Served, (∀ z ∈ part, z.turn = k) ∧ executes cb heap w part y.1 ∧
      ∀ rest, process net replay mk (part ++ rest) qs = .ok (rest, y.2.1, y.2.2) := by
  obtain ⟨l, hd, hall⟩ := C29_flush_partial net mk qs hR
  obtain ⟨h1, rs, h2, h3⟩ := (hall (World.serve cb heap) w y.1 y.2.1 y.2.2).mp h
  obtain ⟨part, p1, p2, p3⟩ := deliverAll_entries k l (hl l hd) h2
  exact ⟨part, p1, p2, fun rest => (hall replay _ _ _ _).mpr ⟨h1, rs, p3 rest, h3⟩⟩

theorem turn_entries (k : Nat) (hp31 : place.length ≤ 2 ^ 31) {x : Turn} (hx : TurnOk cb t hash place x) {w u : World}
    {r : Results} (h : turn cb heap place.length w x = .ok (u, r)) :
    ∃ part : List Served, (∀ z ∈ part, z.turn = k) ∧ executes cb heap w part u ∧ turnOn place.length part x r := by
  unfold turn at h
  obtain ⟨q, hq, h⟩ := ok_iff.mp h
  obtain ⟨y, hy, h⟩ := ok_iff.mp h
  cases h
  obtain ⟨-, z1, z2, z3, z4, z5⟩ := queue_facts hx hq
  have hR := hx.routed
  unfold flush flushPuts flushGets flushGetOps flushDels flushHists at hy
  obtain ⟨x1, h1, hy⟩ := ok_iff.mp hy
  obtain ⟨y1, g1, h1⟩ := ok_iff.mp h1; cases h1
  obtain ⟨x2, h2, hy⟩ := ok_iff.mp hy
  obtain ⟨y2, g2, h2⟩ := ok_iff.mp h2; cases h2
  obtain ⟨x3, h3, hy⟩ := ok_iff.mp hy
  obtain ⟨y3, g3, h3⟩ := ok_iff.mp h3; cases h3
  obtain ⟨x4, h4, hy⟩ := ok_iff.mp hy
  obtain ⟨y4, g4, h4⟩ := ok_iff.mp h4; cases h4
  obtain ⟨x5, h5, hy⟩ := ok_iff.mp hy
  obtain ⟨y5, g5, h5⟩ := ok_iff.mp h5; cases h5
  cases hy
  obtain ⟨P1, t1, e1, f1⟩ := phase_entries k (by rw [z1]; exact hR) (fun l hd s hs => (fine_puts hp31 hx hq hd s hs).1.req) g1
  obtain ⟨P2, t2, e2, f2⟩ := phase_entries k (by rw [show _ = q.gets from rfl, z2]; exact hR) (fun l hd s hs => (fine_gets hp31 hx hq hd s hs).1.1.req) g2
  obtain ⟨P3, t3, e3, f3⟩ := phase_entries k (by rw [show _ = q.getops from rfl, z3]; exact hR) (fun l hd s hs => (fine_getops hp31 hx hq hd s hs).1.req) g3
  obtain ⟨P4, t4, e4, f4⟩ := phase_entries k (by rw [show _ = q.dels from rfl, z4]; exact hR) (fun l hd s hs => (fine_dels hp31 hx hq hd s hs).1.req) g4
  obtain ⟨P5, t5, e5, f5⟩ := phase_entries k (by rw [show _ = q.hists from rfl, z5]; exact hR) (fun l hd s hs => (fine_hists hp31 hx hq hd s hs).1.req) g5
  refine ⟨P1 ++ (P2 ++ (P3 ++ (P4 ++ (P5 ++ [])))), ?_,
    executes_trans e1 (executes_trans e2 (executes_trans e3 (executes_trans e4 (executes_trans e5 (b := []) rfl)))), ?_⟩
  · intro z hz
    simp only [List.mem_append, List.not_mem_nil, or_false] at hz
    rcases hz with hz | hz | hz | hz | hz
    · exact t1 z hz
    · exact t2 z hz
    · exact t3 z hz
    · exact t4 z hz
    · exact t5 z hz
  · suffices h : ∃ q', flush x.net replay (P1 ++ (P2 ++ (P3 ++ (P4 ++ (P5 ++ []))))) q = .ok ([], _, q') by
      obtain ⟨q', h⟩ := h
      exact ⟨_, q, q', sameOrder_refl _, hq, h⟩
    unfold flush flushPuts flushGets flushGetOps flushDels flushHists
    simp only [f1, f2, f3, f4, f5, Out.ok_bind]
    exact ⟨_, rfl⟩

theorem run_overlap (hp31 : place.length ≤ 2 ^ 31) (turns : List Turn) (hx : ∀ x ∈ turns, TurnOk cb t hash place x) (k : Nat)
    {w u : World} {rs : List Results} (h : run cb heap place.length w turns = .ok (u, rs)) :
    ∃ log : List Served, executes cb heap w log u ∧ rs.length = turns.length ∧ (∀ y ∈ log, k ≤ y.turn ∧ y.turn < k + turns.length) ∧
      log.Pairwise (fun y z => y.turn ≤ z.turn) ∧
      ∀ i x r, turns[i]? = some x → rs[i]? = some r → turnOn place.length (partOf (k + i) log) x r := by
  induction turns generalizing w rs k with
  | nil => cases h; exact ⟨[], rfl, rfl, by simp, .nil, by simp⟩
  | cons x turns ih =>
    simp only [run] at h
    obtain ⟨y, hy, h⟩ := ok_iff.mp h
    obtain ⟨z, hz, h⟩ := ok_iff.mp h
    cases h
    obtain ⟨part, p1, p2, p3⟩ := turn_entries k hp31 (hx x (by simp)) hy
    obtain ⟨log, l1, l2, l3, l4, l5⟩ := ih (fun y hy => hx y (by simp [hy])) (k + 1) (show _ = Out.ok (z.1, z.2) from hz)
    refine ⟨part ++ log, executes_trans p2 l1, by simp [l2], ?_, ?_, ?_⟩
    · intro a ha
      rw [List.length_cons]
      rcases List.mem_append.mp ha with ha | ha
      · rw [p1 a ha]; omega
      · have := l3 a ha; omega
    · rw [List.pairwise_append]
      refine ⟨List.pairwise_of_forall_mem_list ?_, l4, ?_⟩
      · intro a ha b hb
        have h1 := p1 a ha
        have h2 := p1 b hb
        omega
      · intro a ha b hb
        have := l3 b hb
        rw [p1 a ha]; omega
    · intro i a r hi hr
      cases i with
      | zero =>
        simp only [List.getElem?_cons_zero, Option.some.injEq] at hi hr
        subst hi hr
        have : partOf (k + 0) (part ++ log) = part := by
          unfold partOf
          rw [List.filter_append, List.filter_eq_self.mpr (by intro a ha; simp [p1 a ha]),
            List.filter_eq_nil_iff.mpr (by intro a ha; have := l3 a ha; simp; omega), List.append_nil]
        rw [this]
        exact p3
      | succ i =>
        simp only [List.getElem?_cons_succ] at hi hr
        have := l5 i a r hi hr
        have hpart : partOf (k + (i + 1)) (part ++ log) = partOf (k + 1 + i) log := by
          unfold partOf
          rw [List.filter_append, List.filter_eq_nil_iff.mpr (by intro a ha; simp [p1 a ha]), List.nil_append,
            show k + (i + 1) = k + 1 + i by omega]
        rw [hpart]
        exact this

end Hx.Job

import Verif.Spec.OverlapFail
import Verif.Proofs.OverlapSeen

/-!
# Helper lemmas: flushes that overlap in time, when writes fail
-/

namespace Hx.Job
open Hx Msg Spec Process Store Results Props

variable {cb : Callbacks} {t : Transform} {hash : Bytes → Bytes → Out Int} {place : List Int} {heap : Nat}

/-- What a request did according to the response of the range server. -/
def doneOf (a : Val → Bool) (y : Served) : List Ev := done a y.req.body y.res.body

theorem doneOf_asked (a : Val → Bool) (y : Served) : ∀ e ∈ doneOf a y, e ∈ events a y.req.body := done_events a _ _

/-! ## The changes of a pair -/

theorem wrote_append (a : Val → Bool) (s p : Val) (l l' : List Served) :
    wrote a s p (l ++ l') = wrote a s p l ++ wrote a s p l' := List.flatMap_append

theorem wrote_done (a : Val → Bool) (s p : Val) (l : List Served) :
    (wrote a s p l).map Prod.snd = (l.flatMap (doneOf a)).filter (ofPair s p) := by
  induction l with
  | nil => rfl
  | cons y l ih =>
    rw [show y :: l = [y] ++ l from rfl, wrote_append, List.map_append, ih, List.flatMap_append, List.filter_append]
    congr 1
    simp [wrote, doneOf, List.map_map, Function.comp_def]

theorem writesBy_wrote (a : Val → Bool) (s p : Val) (k : Nat) (l : List Served) :
    writesBy k (wrote a s p l) = pickBy (doneOf a) (ofPair s p) k l := by
  unfold pickBy
  induction l with
  | nil => rfl
  | cons y l ih =>
    rw [show y :: l = [y] ++ l from rfl, wrote_append]
    unfold writesBy partOf at ih ⊢
    rw [List.filter_append, List.map_append, ih, List.filter_append, List.flatMap_append, List.filter_append]
    congr 1
    by_cases hk : y.turn = k
    · rw [List.filter_cons_of_pos (by simp [hk])]
      rw [List.filter_eq_self.mpr]
      · simp [wrote, doneOf, List.map_map, Function.comp_def]
      · intro z hz
        simp only [wrote, List.flatMap_cons, List.flatMap_nil, List.append_nil, List.mem_map] at hz
        obtain ⟨e, -, rfl⟩ := hz
        simp [hk]
    · rw [List.filter_cons_of_neg (by simp [hk])]
      rw [List.filter_eq_nil_iff.mpr]
      · rfl
      · intro z hz
        simp only [wrote, List.flatMap_cons, List.flatMap_nil, List.append_nil, List.mem_map] at hz
        obtain ⟨e, -, rfl⟩ := hz
        simp [hk]

theorem wrote_lastObj (a : Val → Bool) (s p : Val) (l : List Served) :
    lastObj s p ((wrote a s p l).map Prod.snd) = lastObj s p (l.flatMap (doneOf a)) := by
  rw [wrote_done]
  exact lastObj_filter s p _ _ (fun e _ he => evPair_ofPair.mpr he)

private theorem wrote_pair {a : Val → Bool} {s p : Val} {l : List Served} : ∀ z ∈ wrote a s p l, ofPair s p z.2 = true := by
  intro z hz
  obtain ⟨y, -, hz⟩ := List.mem_flatMap.mp hz
  obtain ⟨e, he, rfl⟩ := List.mem_map.mp hz
  exact (List.mem_filter.mp he).2

/-- The order of the log is the order of the changes. -/
private theorem wrote_order {a : Val → Bool} {s p : Val} {log before rest : List Served} (hlog : log = before ++ rest) {k b : Nat}
    (hkb : k ≠ b) (h : Finished log k b) : (wrote a s p before).Pairwise (fun y z => ¬ (y.1 = b ∧ z.1 = k)) := by
  unfold Finished at h
  rw [hlog] at h
  have h := (List.pairwise_append.mp h).1
  unfold wrote
  rw [List.pairwise_flatMap]
  refine ⟨?_, ?_⟩
  · intro y _
    rw [List.pairwise_map]
    refine List.pairwise_of_forall ?_
    rintro e e' ⟨h1, h2⟩
    exact hkb (h2.symm.trans h1)
  · refine h.imp ?_
    intro y z hyz u hu v hv
    obtain ⟨e, -, rfl⟩ := List.mem_map.mp hu
    obtain ⟨e', -, rfl⟩ := List.mem_map.mp hv
    exact hyz

/-! ## Entries of the log -/

private theorem done_arrived (a : Val → Bool) (h : Nat) (b : ReqBody) (r : ResBody) :
    done a (arrivedReqBody h b) r = done a b r := by
  cases b with
  | put l =>
    cases r with
    | put rs =>
      show ((l.map _).zip rs).filterMap (putEv a) = (l.zip rs).filterMap (putEv a)
      rw [List.zip_map_left, List.filterMap_map]
      rfl
    | _ => rfl
  | del l =>
    cases r with
    | del rs =>
      show ((l.map _).zip rs).filterMap (delEv a) = (l.zip rs).filterMap (delEv a)
      rw [List.zip_map_left, List.filterMap_map]
      rfl
    | _ => rfl
  | _ => cases r <;> rfl

/-- What a request in the log did. -/
theorem entry_done {net : Net} {w u : World} {H : List Ev} (hw : Stores cb t hash place w H) {m : Entry} (hok : m.Ok cb heap net)
    (hf : Fine cb t hash place net.heap m.send) (hs : World.serve cb heap w m.srv.rank m.srv.req = .ok (u, m.srv.res)) :
    ∃ res, World.serve cb heap w m.send.rank m.send.req = .ok (u, res) ∧
      doneOf t.accepts m.srv = done t.accepts m.send.req.body res.body ∧ Stores cb t hash place u (H ++ doneOf t.accepts m.srv) := by
  have key : ∃ res, World.serve cb heap w m.send.rank m.send.req = .ok (u, res) ∧
      doneOf t.accepts m.srv = done t.accepts m.send.req.body res.body := by
    rw [hok.rank] at hs
    rcases hok.req with he | he
    · rw [he] at hs
      exact ⟨_, hs, by unfold doneOf; rw [he]⟩
    · rw [he] at hs
      have h := serve_arrived cb heap net.heap w m.send.rank m.send.req hf.client
      rw [hs] at h
      cases hl : World.serve cb heap w m.send.rank m.send.req with
      | err => rw [hl] at h; exact h.elim
      | ub => rw [hl] at h; exact h.elim
      | ok y =>
        rw [hl] at h
        obtain ⟨h1, -, -, h4⟩ := h
        obtain ⟨v, res⟩ := y
        simp only at h1 h4
        subst h1
        refine ⟨res, rfl, ?_⟩
        unfold doneOf
        rw [he]
        show done t.accepts (arrivedReqBody net.heap m.send.req.body) m.srv.res.body = _
        rw [done_arrived]
        cases hb : m.send.req.body <;> rw [hb] at h4 <;>
          first | rw [show res.body = m.srv.res.body from h4] | (cases res.body <;> cases m.srv.res.body <;> rfl)
  obtain ⟨res, h1, h2⟩ := key
  obtain ⟨d, d1, d2, d3⟩ := hf.dst
  exact ⟨res, h1, h2, by rw [h2]; exact serve_done d hw d1 d2 hf.body d3 h1⟩

/-- A PUT or DELETE in the log was answered, and did what the answer says. -/
theorem entry_said {net : Net} (hh : net.heap ≠ 0) (hh' : net.heap < 2 ^ 64) {w u : World} {H : List Ev}
    (hw : Stores cb t hash place w H) {m : Entry} (hok : m.Ok cb heap net) (hf : Fine cb t hash place net.heap m.send)
    (hkind : (∃ p, m.send.req.body = .put p) ∨ ∃ p, m.send.req.body = .del p)
    (hs : World.serve cb heap w m.srv.rank m.srv.req = .ok (u, m.srv.res)) :
    ∃ res, m.back = some res ∧ Matches m.send.req.body res.body ∧
      doneOf t.accepts m.srv = done t.accepts m.send.req.body res.body := by
  obtain ⟨res, h1, h2, -⟩ := entry_done hw hok hf hs
  obtain ⟨res₁, res', g1, g2, g3, g4, -⟩ := deliver_done hh hh' hw hf hkind (hok.step w u hs)
  rw [h1] at g1
  cases g1
  exact ⟨res', g2, by rw [g3]; exact g4, by rw [g3]; exact h2⟩

theorem executes_done {w w' : World} {H : List Ev} {log : List Served} (hw : Stores cb t hash place w H)
    (hl : ∀ y ∈ log, Known cb t hash place heap y) (h : executes cb heap w log w') :
    Stores cb t hash place w' (H ++ log.flatMap (doneOf t.accepts)) := by
  induction log generalizing w H with
  | nil => cases h; simpa using hw
  | cons y log ih =>
    obtain ⟨u, hu, h⟩ := h
    obtain ⟨net, m, rfl, hok, hfine⟩ := hl y (by simp)
    obtain ⟨-, -, -, hu'⟩ := entry_done hw hok hfine hu
    have := ih hu' (fun z hz => hl z (by simp [hz])) h
    rw [List.flatMap_cons, ← List.append_assoc]
    exact this

/-- The range server at the time of an entry of the log. -/
theorem stores_at {w w' : World} {log : List Served} {H0 : List Ev} (hw : Stores cb t hash place w H0)
    (hl : ∀ y ∈ log, Known cb t hash place heap y) (h : executes cb heap w log w') {y : Served} (hy : y ∈ log) :
    ∃ u v H, Stores cb t hash place u H ∧ World.serve cb heap u y.rank y.req = .ok (v, y.res) := by
  obtain ⟨a, b, rfl⟩ := List.append_of_mem hy
  obtain ⟨u, h1, v, h2, -⟩ : ∃ u, executes cb heap w a u ∧ ∃ v, World.serve cb heap u y.rank y.req = .ok (v, y.res) ∧
      executes cb heap v b w' := executes_append h
  exact ⟨u, v, _, executes_done hw (fun z hz => hl z (by simp [hz])) h1, h2⟩

private theorem said_all {M : List Entry} {a : Val → Bool} (h : ∀ m ∈ M, ∃ res, m.back = some res ∧ Matches m.send.req.body res.body ∧
      doneOf a m.srv = done a m.send.req.body res.body) :
    List.Forall₂ (fun s res => Matches s.req.body res.body) (M.map (·.send)) (M.flatMap (·.back.toList)) ∧
    M.flatMap (fun m => doneOf a m.srv) =
      ((M.map (·.send)).zip (M.flatMap (·.back.toList))).flatMap (fun z => done a z.1.req.body z.2.body) := by
  induction M with
  | nil => exact ⟨.nil, rfl⟩
  | cons m M ih =>
    obtain ⟨res, h1, h2, h3⟩ := h m (by simp)
    obtain ⟨i1, i2⟩ := ih (fun n hn => h n (by simp [hn]))
    rw [List.map_cons, List.flatMap_cons, List.flatMap_cons, h1, h3]
    exact ⟨.cons h2 i1, by rw [i2]; rfl⟩

/-- The results of the writes of a flush say what its requests did. -/
theorem parts_told (hp31 : place.length ≤ 2 ^ 31) {w w' : World} {turns : List Turn} {log : List Served} {rs : List Results}
    {H0 : List Ev} (hw : Stores cb t hash place w H0) (hturns : ∀ x ∈ turns, TurnOk cb t hash place x)
    (h : Overlap cb heap place.length w turns log w' rs) {k : Nat} {x : Turn} (hk : turns[k]? = some x) {r : Results}
    {mp mg mo rest : List Entry} (hp : Parts cb t hash place heap x (partOf k log) r mp mg mo rest) :
    ∃ z : Outcomes, PutsReported (turnOps hash x) r z.puts ∧ DelsReported (turnOps hash x) r z.dels ∧
      Does hash (doneOf t.accepts) (succeededPuts t.accepts z.puts) (succeededDels t.accepts z.dels) mp rest := by
  have hknown := overlap_known hp31 hturns h
  have haddr := (hturns x (List.mem_of_getElem? hk)).address
  have hsaid : ∀ m ∈ mp ++ mg ++ mo ++ rest, (∃ p, m.send.req.body = .put p) ∨ (∃ p, m.send.req.body = .del p) →
      ∃ res, m.back = some res ∧ Matches m.send.req.body res.body ∧ doneOf t.accepts m.srv = done t.accepts m.send.req.body res.body := by
    intro m hm hkind
    obtain ⟨hok, hf⟩ := hp.ok m hm
    have hin : m.srv ∈ log := List.mem_of_mem_filter ((sameOrder_mem hp.part).mp (List.mem_map.mpr ⟨m, hm, rfl⟩))
    obtain ⟨u, v, H, hu, hs⟩ := stores_at hw hknown h.executes hin
    exact entry_said haddr.1 haddr.2 hu hok hf hkind hs
  obtain ⟨md, mh, hrest, kd, kh, hd⟩ := hp.delsSaid
  obtain ⟨a1, a2⟩ := said_all (M := mp) (a := t.accepts) (fun m hm => hsaid m (by simp [hm]) (Or.inl (hp.putKind m hm)))
  obtain ⟨b1, b2⟩ := said_all (M := md) (a := t.accepts) (fun m hm => hsaid m (by rw [hrest]; simp [hm]) (Or.inr (kd m hm)))
  obtain ⟨ps, p1, p2, -⟩ := hp.putsSaid a1
  obtain ⟨dl, d1, d2⟩ := hd b1
  refine ⟨⟨ps, dl⟩, p1, d1, fun ds => ⟨by rw [a2]; exact p2 ds, ?_⟩⟩
  have hh : mh.flatMap (fun m => doneOf t.accepts m.srv) = [] := by
    rw [List.flatMap_eq_nil_iff]
    intro m hm
    obtain ⟨l, hl⟩ := kh m hm
    obtain ⟨hok, -⟩ := hp.ok m (by rw [hrest]; simp [hm])
    refine List.eq_nil_iff_forall_not_mem.mpr (fun e he => ?_)
    have := doneOf_asked _ _ e he
    rw [hok.events, hl] at this
    cases this
  rw [hrest, List.flatMap_append, hh, List.append_nil, b2]
  exact d2 ds

/-- What the flushes told. -/
theorem overlap_told (hp31 : place.length ≤ 2 ^ 31) {w w' : World} {turns : List Turn} {log : List Served} {rs : List Results}
    {H0 : List Ev} (hw : Stores cb t hash place w H0) (hturns : ∀ x ∈ turns, TurnOk cb t hash place x)
    (h : Overlap cb heap place.length w turns log w' rs) :
    ∃ f : Nat → Outcomes, ToldBy hash turns rs f ∧ ∀ k x, turns[k]? = some x → ∃ r mp mg mo rest, rs[k]? = some r ∧
      Parts cb t hash place heap x (partOf k log) r mp mg mo rest ∧
      Does hash (doneOf t.accepts) (succeededPuts t.accepts (f k).puts) (succeededDels t.accepts (f k).dels) mp rest := by
  have hex : ∀ k : Nat, ∃ z : Outcomes, ∀ x, turns[k]? = some x → ∃ r mp mg mo rest, rs[k]? = some r ∧
      Parts cb t hash place heap x (partOf k log) r mp mg mo rest ∧ PutsReported (turnOps hash x) r z.puts ∧
      DelsReported (turnOps hash x) r z.dels ∧
      Does hash (doneOf t.accepts) (succeededPuts t.accepts z.puts) (succeededDels t.accepts z.dels) mp rest := by
    intro k
    cases hk : turns[k]? with
    | none => exact ⟨⟨[], []⟩, by simp⟩
    | some x =>
      obtain ⟨r, mp, mg, mo, rest, hr, hp⟩ := overlap_parts hp31 hturns h hk
      obtain ⟨z, z1, z2, z3⟩ := parts_told hp31 hw hturns h hk hp
      exact ⟨z, fun y hy => by cases hy; exact ⟨r, mp, mg, mo, rest, hr, hp, z1, z2, z3⟩⟩
  obtain ⟨f, hf⟩ := Classical.axiomOfChoice hex
  refine ⟨f, ?_, ?_⟩
  · intro k x r hk hr
    obtain ⟨r', _, _, _, _, hr', _, h1, h2, _⟩ := hf k x hk
    rw [hr] at hr'
    cases hr'
    exact ⟨h1, h2⟩
  · intro k x hk
    obtain ⟨r, mp, mg, mo, rest, hr, hp, -, -, hd⟩ := hf k x hk
    exact ⟨r, mp, mg, mo, rest, hr, hp, hd⟩

/-! ## GETs -/

/-- What is stored at the start, `H0`, comes before what the log did. -/
theorem overlap_gets_from (hheap : heap ≠ 0) (hheap' : heap < 2 ^ 64) (hp31 : place.length ≤ 2 ^ 31) {w w' : World} {turns : List Turn}
    {log : List Served} {rs : List Results} {H0 : List Ev} (hw : Stores cb t hash place w H0)
    (hturns : ∀ x ∈ turns, TurnOk cb t hash place x) (h : Overlap cb heap place.length w turns log w' rs) :
    ∃ f : Nat → Outcomes, ToldBy hash turns rs f ∧
      (∀ k < turns.length, ∀ s p ds, hv hash (s, p) = some ds → ds < place.length →
        writesBy k (wrote t.accepts s p log) = changesTold t.accepts s p (f k)) ∧
      ∀ i x r, turns[i]? = some x → rs[i]? = some r →
      ∃ gs, gs.Perm (getPairs (turnOps hash x)) ∧ List.Forall₂ (fun g z => ∃ before y after,
        AnsweredTold t.accepts turns.length f log i before y after ∧
        (∀ g ∈ askedIn y.req.body, ∃ ds, hv hash g = some ds ∧ ds < place.length) ∧ (g.1.val, g.2.val) ∈ askedIn y.req.body ∧
        Returned t (H0 ++ before.flatMap (doneOf t.accepts)) g z) gs
          (r.items.filter (fun y => decide (y.kind = .get))) := by
  obtain ⟨f, hf, hdoes⟩ := overlap_told hp31 hw hturns h
  have hdoes' : ∀ k z, turns[k]? = some z → ∃ r mp mg mo rest, Parts cb t hash place heap z (partOf k log) r mp mg mo rest ∧
      Does hash (doneOf t.accepts) (succeededPuts t.accepts (f k).puts) (succeededDels t.accepts (f k).dels) mp rest := by
    intro k z hk
    obtain ⟨r, mp, mg, mo, rest, -, a, b⟩ := hdoes k z hk
    exact ⟨r, mp, mg, mo, rest, a, b⟩
  refine ⟨f, hf, ?_, fun i x r hi hr => ?_⟩
  · intro k hk s p ds hh hds
    rw [writesBy_wrote]
    exact pick_all hp31 hturns h (fun y _ e he => doneOf_asked _ y e he) (P := fun k => succeededPuts t.accepts (f k).puts)
      (D := fun k => succeededDels t.accepts (f k).dels) hdoes' (fun e he => by rw [evPair_ofPair.mp he]; exact hh)
      (List.getElem?_eq_getElem hds) (List.getElem?_eq_getElem hk)
  obtain ⟨r', mp, mg, mo, rest, hr', hp, hown⟩ := hdoes i x hi
  rw [hr] at hr'
  cases hr'
  have haddr := (hturns x (List.mem_of_getElem? hi)).address
  refine ⟨_, hp.pairs, ?_⟩
  rw [hp.items, List.map_flatMap]
  refine forall₂_flatMap _ _ _ ?_
  intro M m M' hm
  obtain ⟨before, after, h1, h3, hF⟩ := seen_before hp31 hturns h hi hp (M := M) (m := m) (M' := M' ++ mo) (by rw [hm]; simp)
    (ev := doneOf t.accepts) (fun y _ e he => doneOf_asked _ y e he) (P := fun k => succeededPuts t.accepts (f k).puts)
    (D := fun k => succeededDels t.accepts (f k).dels) hdoes' hown
  obtain ⟨hok, hfine⟩ := hp.ok m (by rw [hm]; simp)
  have hhome : ∀ g ∈ askedIn m.srv.req.body, ∃ ds : Nat, hv hash g = some ds ∧ place[ds]? = some m.srv.rank := by
      rintro ⟨s, p⟩ hg
      obtain ⟨l, hl, hk⟩ := hp.gets m (by rw [hm]; simp)
      rw [hok.asked, hl] at hg
      obtain ⟨y, hy, he⟩ := List.mem_map.mp hg
      cases he
      obtain ⟨-, -, d, hd, hh⟩ := hk y hy
      obtain ⟨d', hd', hpl, -⟩ := hfine.dst
      rw [hd] at hd'
      have : d = d' := by exact_mod_cast hd'
      subst this
      exact ⟨d, by rw [hv_val]; exact hh, by rw [hok.rank]; exact hpl⟩
  have ha : AnsweredTold t.accepts turns.length f log i before m.srv after := by
    refine ⟨h1, h3, fun g hg => ?_⟩
    obtain ⟨ds, hh, hpl⟩ := hhome g hg
    obtain ⟨s, p⟩ := g
    obtain ⟨a1, a2, a3, a4⟩ := hF (ofPair s p) ds (fun e he => by rw [evPair_ofPair.mp he]; exact hh) hpl
    refine ⟨?_, ?_, ?_, ?_, ?_⟩
    · rw [writesBy_wrote]
      exact a1
    · intro k hk
      rw [writesBy_wrote]
      exact a2 k hk
    · intro k hk hf hne
      rw [writesBy_wrote]
      exact a3 k hk hf hne
    · intro k hf hne
      rw [writesBy_wrote]
      exact a4 k hf hne
    · intro z hz
      unfold wrote at hz
      obtain ⟨u, hu, hz⟩ := List.mem_flatMap.mp hz
      obtain ⟨e, -, rfl⟩ := List.mem_map.mp hz
      exact h.only u (by rw [h1]; simp [hu])
  obtain ⟨u, e1, v, e2, -⟩ : ∃ u, executes cb heap w before u ∧ ∃ v, World.serve cb heap u m.srv.rank m.srv.req = .ok (v, m.srv.res) ∧
      executes cb heap v after w' := executes_append (by rw [← h1]; exact h.executes)
  have hknown := overlap_known hp31 hturns h
  have hold := executes_done hw (fun y hy => hknown y (by rw [h1]; simp [hy])) e1
  have hans := get_answer hheap hheap' haddr.1 haddr.2 hold hok hfine (hp.gets m (by rw [hm]; simp)) e2
  have hmem : ∀ g ∈ (getsIn m.send.req.body).map (fun g => (g.subject, g.predicate)), (g.1.val, g.2.val) ∈ askedIn m.srv.req.body := by
    intro g hg
    obtain ⟨y, hy, rfl⟩ := List.mem_map.mp hg
    rw [hok.asked, askedIn_getsIn]
    exact List.mem_map.mpr ⟨y, hy, rfl⟩
  have : ∀ (gs : List (Blob × Blob)) (zs : List Result), List.Forall₂ (Returned t (H0 ++ before.flatMap (doneOf t.accepts))) gs zs →
      (∀ g ∈ gs, (g.1.val, g.2.val) ∈ askedIn m.srv.req.body) →
      List.Forall₂ (fun g z => ∃ before y after,
        AnsweredTold t.accepts turns.length f log i before y after ∧
        (∀ g ∈ askedIn y.req.body, ∃ ds, hv hash g = some ds ∧ ds < place.length) ∧ (g.1.val, g.2.val) ∈ askedIn y.req.body ∧
        Returned t (H0 ++ before.flatMap (doneOf t.accepts)) g z) gs zs := by
    intro gs zs hgz
    induction hgz with
    | nil => exact fun _ => .nil
    | @cons g z gs zs hgz _ ih =>
      intro hmem
      refine .cons ⟨before, m.srv, after, ha, fun g hg => ?_, hmem g (by simp), hgz⟩ (ih (fun g hg => hmem g (by simp [hg])))
      obtain ⟨ds, h5, h6⟩ := hhome g hg
      exact ⟨ds, h5, (List.getElem?_eq_some_iff.mp h6).1⟩
  exact this _ _ hans hmem

/-- Only the latest change of the pair matters. -/
theorem returned_congr {H H' : List Ev} {g : Blob × Blob} {z : Result} (h : Returned t H g z)
    (he : lastObj g.1.val g.2.val H' = lastObj g.1.val g.2.val H) : Returned t H' g z :=
  ⟨h.kind, h.subject, h.predicate, fun o ho => h.found o (by rw [← he]; exact ho), fun ho => h.absent (by rw [← he]; exact ho)⟩

theorem overlap_gets_told (hheap : heap ≠ 0) (hheap' : heap < 2 ^ 64) (hp31 : place.length ≤ 2 ^ 31) {w w' : World} {turns : List Turn}
    {log : List Served} {rs : List Results} (hw : Stores cb t hash place w []) (hturns : ∀ x ∈ turns, TurnOk cb t hash place x)
    (h : Overlap cb heap place.length w turns log w' rs) :
    ∃ f : Nat → Outcomes, ToldBy hash turns rs f ∧ ∀ i x r, turns[i]? = some x → rs[i]? = some r →
      ∃ gs, gs.Perm (getPairs (turnOps hash x)) ∧ List.Forall₂ (fun g z => ∃ before y after,
        AnsweredTold t.accepts turns.length f log i before y after ∧ (g.1.val, g.2.val) ∈ askedIn y.req.body ∧
        Returned t ((wrote t.accepts g.1.val g.2.val before).map Prod.snd) g z) gs
          (r.items.filter (fun y => decide (y.kind = .get))) := by
  obtain ⟨f, h1, -, h2⟩ := overlap_gets_from hheap hheap' hp31 hw hturns h
  refine ⟨f, h1, fun i x r hi hr => ?_⟩
  obtain ⟨gs, hp, hg⟩ := h2 i x r hi hr
  refine ⟨gs, hp, hg.imp ?_⟩
  rintro g z ⟨before, y, after, ha, -, hm, hr⟩
  exact ⟨before, y, after, ha, hm, returned_congr hr (by rw [wrote_lastObj, List.nil_append])⟩

/-! ## The latest change -/

theorem explained_told {n : Nat} {f : Nat → Outcomes} {log before after : List Served} {y : Served} {i : Nat} {g : Blob × Blob}
    {r : Result} (ha : AnsweredTold t.accepts n f log i before y after) (hy : (g.1.val, g.2.val) ∈ askedIn y.req.body)
    (hr : Returned t ((wrote t.accepts g.1.val g.2.val before).map Prod.snd) g r) :
    ExplainedTold t n f log i g r := by
  have hseen := ha.seen _ hy
  simp only at hseen
  have hpair := wrote_pair (a := t.accepts) (s := g.1.val) (p := g.2.val) (l := before)
  have horder : ∀ k a, k ≠ a → Finished log k a →
      (wrote t.accepts g.1.val g.2.val before).Pairwise (fun y z => ¬ (y.1 = a ∧ z.1 = k)) :=
    fun k a hka h => wrote_order ha.split hka h
  generalize hv : wrote t.accepts g.1.val g.2.val before = v at hseen hpair horder hr
  have latest : ∀ V k e, v = V ++ [(k, e)] → LatestTold t.accepts n f log i g.1.val g.2.val k e := by
    intro V k e hV
    have hmem : (k, e) ∈ v := by rw [hV]; simp
    have hk := hseen.all _ hmem
    have hlast : (writesBy k v).getLast? = some e := by
      rw [hV]
      simp [writesBy, List.filter_append]
    refine ⟨hk, ?_, ?_, ?_, ?_, ?_, ?_⟩
    · exact (hseen.order k hk).subset (mem_writesBy.mpr hmem)
    · intro hne hf
      have := mem_writesBy.mpr hmem
      rw [hseen.later k hf hne] at this
      cases this
    · intro hki
      rw [hki, ← hseen.own, ← hki]
      exact hlast
    · intro hki hf
      rw [← hseen.finished k hk hf hki]
      exact hlast
    · intro k' hk' hkk hki hf hf'
      rw [← hseen.finished k' hk' hf' hki, List.eq_nil_iff_forall_not_mem]
      intro e' he'
      have hm := mem_writesBy.mp he'
      rw [hV] at hm
      rcases List.mem_append.mp hm with hm | hm
      · have := horder k k' (Ne.symm hkk) hf
        rw [hV, List.pairwise_append] at this
        exact this.2.2 _ hm (k, e) (by simp) ⟨rfl, rfl⟩
      · simp only [List.mem_singleton, Prod.mk.injEq] at hm
        exact hkk hm.1
    · intro hki hf
      rw [← hseen.own, List.eq_nil_iff_forall_not_mem]
      intro e' he'
      have hm := mem_writesBy.mp he'
      rw [hV] at hm
      rcases List.mem_append.mp hm with hm | hm
      · have := horder k i hki hf
        rw [hV, List.pairwise_append] at this
        exact this.2.2 _ hm (k, e) (by simp) ⟨rfl, rfl⟩
      · simp only [List.mem_singleton, Prod.mk.injEq] at hm
        exact hki hm.1.symm
  rcases List.eq_nil_or_concat v with hnil | ⟨V, ⟨k, e⟩, hV⟩
  · have hst := hr.absent (by rw [hnil]; rfl)
    refine ⟨hr.kind, hr.subject, hr.predicate, Or.inr hst, ?_, ?_⟩
    · intro h
      rw [hst] at h
      cases h
    · intro _
      refine Or.inr ⟨by rw [← hseen.own, hnil]; rfl, fun k hk hki hf => ?_⟩
      rw [← hseen.finished k hk hf hki, hnil]
      rfl
  · rw [List.concat_eq_append] at hV
    have hp := hpair (k, e) (by rw [hV]; simp)
    have hx := latest V k e hV
    cases e with
    | put s p o =>
      simp only [ofPair, decide_eq_true_eq] at hp
      obtain ⟨rfl, rfl⟩ := hp
      obtain ⟨h1, h2⟩ := hr.found o (by
        rw [hV, List.map_append, List.map_singleton, Store.lastObj_put, if_pos ⟨rfl, rfl⟩])
      refine ⟨hr.kind, hr.subject, hr.predicate, Or.inl h1, fun _ => ⟨k, o, hx, h2⟩, ?_⟩
      intro h
      rw [h1] at h
      cases h
    | del s p =>
      simp only [ofPair, decide_eq_true_eq] at hp
      obtain ⟨rfl, rfl⟩ := hp
      have hst := hr.absent (by rw [hV, List.map_append, List.map_singleton, Store.lastObj_del, if_pos ⟨rfl, rfl⟩])
      refine ⟨hr.kind, hr.subject, hr.predicate, Or.inr hst, ?_, fun _ => Or.inl ⟨k, hx⟩⟩
      intro h
      rw [hst] at h
      cases h

/-- Without a flush that changes the pair at the same time, the result is the object of the latest PUT. -/
theorem explained_put_told {n : Nat} {f : Nat → Outcomes} {log : List Served} {a i : Nat} {g : Blob × Blob} {r : Result} {o : Val}
    (h : ExplainedTold t n f log i g r) (ha : a < n) (hai : a ≠ i) (hf : Finished log a i)
    (hlast : (changesTold t.accepts g.1.val g.2.val (f a)).getLast? = some (.put g.1.val g.2.val o))
    (hown : putsTold t.accepts g.1.val g.2.val (f i) = [])
    (hothers : ∀ k < n, k ≠ a → k ≠ i → changesTold t.accepts g.1.val g.2.val (f k) = [] ∨ Finished log k a ∨ Finished log i k) :
    r.status = hxSuccess ∧ ∃ b : Blob, r.object = .own b ∧ b.bytes = t.R o ∧ b.typ = o.typ := by
  have only : ∀ k e, LatestTold t.accepts n f log i g.1.val g.2.val k e → e = .put g.1.val g.2.val o := by
    intro k e hl
    by_cases hka : k = a
    · subst hka
      have := hl.finished hai hf
      rw [hlast] at this
      exact (Option.some.inj this).symm
    · exfalso
      by_cases hki : k = i
      · subst hki
        have := hl.own rfl
        rw [hown] at this
        cases this
      · rcases hothers k hl.turn hka hki with h1 | h1 | h1
        · have := hl.mem
          rw [h1] at this
          cases this
        · have := hl.between a ha (Ne.symm hka) hai h1 hf
          rw [this] at hlast
          cases hlast
        · exact hl.began hki h1
  rcases h.status with hs | hs
  · obtain ⟨k, o', hl, hb⟩ := h.found hs
    have := only k _ hl
    cases this
    exact ⟨hs, hb⟩
  · exfalso
    rcases h.absent hs with ⟨k, hl⟩ | hu
    · cases only k _ hl
    · have := hu.2 a ha hai hf
      rw [this] at hlast
      cases hlast

end Hx.Job

import Verif.Proofs.MpiJobPlan

/-!
# Helper lemmas: range servers that are asked with messages
-/

namespace Hx.Job
open Hx Msg Spec Process Store Results Props

variable {cb : Callbacks} {t : Transform} {hash : Bytes → Bytes → Out Int} {place : List Int} {heap addr : Nat} {junk : Nat → Bytes}
  {n : Nat} {G : Uses}

/-- What the range servers have stored, whatever it is. -/
def Fit (cb : Callbacks) (t : Transform) (hash : Bytes → Bytes → Out Int) (place : List Int) (G : Uses) (w : World) : Prop :=
  Ready G place w ∧ ∃ H, Stores cb t hash place w H ∧ (G.getops → KeysFit H)

/-- An entry of the log of messages as a request that was served. -/
structure Tells (cb : Callbacks) (heap addr : Nat) (junk : Nat → Bytes) (w u : World) (e : Mpi.Entry n Parcel Reply) (y : Served) : Prop where
  turn : y.turn = e.req.turn
  rank : y.rank = ((e.rank : Nat) : Int)
  serve : World.serve cb heap w y.rank y.req = .ok (u, y.res)
  packet : (∃ b rest pb, e.req.packet = .wire b ∧ rdReq addr b = .ok (y.req, rest) ∧ y.res.pack = .ok pb ∧
      e.res = .wire (pb ++ junk (y.res.size - pb.length))) ∨
    (e.req.packet = .direct y.req ∧ e.res = .direct y.res)

theorem tells_of_serve {w u : World} {d : Fin n} {e : Mpi.Entry n Parcel Reply}
    (h : mpiServe cb heap addr junk w e.rank e.req = .ok (u, d, e.res)) : ∃ y, Tells cb heap addr junk w u e y := by
  unfold mpiServe at h
  split at h
  · rename_i b hb
    split at h
    · rename_i req rest hreq
      obtain ⟨x, hx, h⟩ := ok_iff.mp h
      obtain ⟨pb, hpb, h⟩ := ok_iff.mp h
      obtain ⟨d', hd, h⟩ := ok_iff.mp h
      have h := Out.ok.inj h
      simp only [Prod.mk.injEq] at h
      obtain ⟨h1, h2, h3⟩ := h
      refine ⟨⟨e.req.turn, ((e.rank : Nat) : Int), req, x.2⟩, rfl, rfl, ?_, Or.inl ⟨b, rest, pb, hb, hreq, hpb, h3.symm⟩⟩
      simp only
      rw [hx, ← h1]
    · cases h
  · rename_i req hreq
    obtain ⟨x, hx, h⟩ := ok_iff.mp h
    have h := Out.ok.inj h
    simp only [Prod.mk.injEq] at h
    obtain ⟨h1, h2, h3⟩ := h
    refine ⟨⟨e.req.turn, ((e.rank : Nat) : Int), req, x.2⟩, rfl, rfl, ?_, Or.inr ⟨hreq, h3.symm⟩⟩
    simp only
    rw [hx, ← h1]

private theorem replay_next (y : Served) (l : List Served) : replay (y :: l) y.rank y.req = .ok (l, y.res) := by
  simp [replay]

theorem heard_of_tells (hheap : heap ≠ 0) (hheap' : heap < 2 ^ 64) {net : Net} (hh : net.heap ≠ 0) (hh' : net.heap < 2 ^ 64)
    (ha : net.heap = addr) (hj : net.junk = junk) {w u : World} {e : Mpi.Entry n Parcel Reply} {y : Served} {i : Nat} {s : Send}
    (hw : Fit cb t hash place G w) (hfew : FewNumbers w) (hy : Tells cb heap addr junk w u e y) (hs : IsTarget net i s (e.rank, e.wire, e.req))
    (hf : Fine cb t hash place net.heap s) (hb : Simple cb t G s.req.body) :
    ∃ back, Heard.Ok net addr ⟨⟨s, y, back⟩, e.res⟩ := by
  obtain ⟨hst, H, hH, hkey⟩ := hw
  obtain ⟨w', res, hd, -, hfull⟩ := deliver_defined hheap hheap' hh hh' hH hkey hst hfew hf hb
  have hgo : ∀ r ∈ (some res).toList, Full r := by
    intro r hr
    simp only [Option.toList_some, List.mem_singleton] at hr
    rw [hr]
    exact hfull
  have hrank : y.rank = s.rank := by rw [hy.rank, hs.rank]
  have hpar := hs.parcel
  simp only at hpar
  unfold deliver at hd
  split at hd
  · rename_i hwire
    rw [if_pos hwire] at hpar
    rcases hy.packet with ⟨b, rest, pb, e1, e2, e3, e4⟩ | ⟨e1, -⟩
    · rw [hpar] at e1
      simp only [packet, Packet.wire.injEq] at e1
      rw [← e1, ← ha, reads_req net.heap s.req hf.req] at e2
      have e2 := Out.ok.inj e2
      simp only [Prod.mk.injEq] at e2
      unfold remoteServe at hd
      rw [reads_req net.heap s.req hf.req] at hd
      simp only at hd
      have hserve := hy.serve
      rw [← e2.1, hrank] at hserve
      rw [hserve, Out.ok_bind] at hd
      simp only at hd
      rw [e3, Out.ok_bind] at hd
      have hrd : ∃ more, rdRes net.heap (pb ++ net.junk (y.res.size - pb.length)) = .ok (res, more) := by
        split at hd
        · rename_i res' more hrd
          have hd := Out.ok.inj hd
          simp only [Prod.mk.injEq, Option.some.injEq] at hd
          exact ⟨more, by rw [← hd.2]; exact hrd⟩
        · cases hd
        · cases hd
      obtain ⟨more, hrd⟩ := hrd
      refine ⟨some res, ⟨?_, hgo⟩, ?_⟩
      · intro l
        simp only
        unfold deliver
        rw [if_pos hwire]
        unfold remoteServe
        rw [reads_req net.heap s.req hf.req]
        simp only
        rw [e2.1, ← hrank, replay_next y l]
        simp only [Out.ok_bind, e3, hrd]
      · simp only [e4, ← hj, unpackAll, ← ha, hrd, Out.ok_bind]
        rfl
    · rw [hpar] at e1
      cases e1
  · rename_i hwire
    rw [if_neg hwire] at hpar
    rcases hy.packet with ⟨b, rest, pb, e1, -⟩ | ⟨e1, e2⟩
    · rw [hpar] at e1
      cases e1
    · rw [hpar] at e1
      simp only [Packet.direct.injEq] at e1
      have hserve := hy.serve
      rw [← e1, hrank] at hserve
      rw [hserve, Out.ok_bind] at hd
      have hd := Out.ok.inj hd
      simp only [Prod.mk.injEq, Option.some.injEq] at hd
      refine ⟨some res, ⟨?_, hgo⟩, ?_⟩
      · intro l
        simp only
        unfold deliver
        rw [if_neg hwire, e1, ← hrank, replay_next y l, Out.ok_bind, hd.2]
      · simp only [e2, unpackAll, Out.ok_bind, hd.2]
        rfl

theorem serve_dst {w u : World} {rank : Int} {req : Req} {res : Res} (h : World.serve cb heap w rank req = .ok (u, res)) :
    res.dst = req.src := by
  unfold World.serve at h
  obtain ⟨x, hx, h⟩ := ok_iff.mp h
  have h := Out.ok.inj h
  simp only [Prod.mk.injEq] at h
  unfold rangeServer at hx
  split at hx
  · cases hx
  · simp only at hx
    split at hx
    · cases hx
    · obtain ⟨r, hr, hx⟩ := ok_iff.mp hx
      rw [← h.2, ← Out.ok.inj hx]

/-- Numbers are never taken out of histograms. -/
theorem serve_few {w u : World} {rank : Int} {req : Req} {res : Res} (hr : Ready G place w)
    (h : World.serve cb heap w rank req = .ok (u, res)) (hu : FewNumbers u) : FewNumbers w := by
  intro rank' d hd name g hg
  unfold World.serve at h
  obtain ⟨x, hx, h⟩ := ok_iff.mp h
  have h := Out.ok.inj h
  simp only [Prod.mk.injEq] at h
  unfold rangeServer at hx
  split at hx
  · cases hx
  · simp only at hx
    split at hx
    · cases hx
    · rename_i d0 hd0
      obtain ⟨r, ho, hx⟩ := ok_iff.mp hx
      have hx := Out.ok.inj hx
      have hds : u.ds = fun k => if k = rank then x.1 else w.ds k := by rw [← h.1]
      by_cases hrank : rank' = rank
      · subst hrank
        have hu' := hu rank'
        rw [hds] at hu'
        simp only [if_true, ← hx] at hu'
        obtain ⟨i, hi, rfl⟩ := List.mem_iff_getElem.mp hd
        by_cases hpos : i = (req.dst % ((w.ds rank').length : Int)).toNat
        · rw [← hpos, List.getElem?_eq_getElem hi] at hd0
          cases hd0
          obtain ⟨-, a2⟩ := Store.operate_hists ho name
          obtain ⟨g1, e1, f1⟩ := a2 g hg
          have hlt := hu' r.1 (by rw [← hpos]; exact List.mem_set hi r.1) name g1 f1
          obtain ⟨n, gen, us, e0, k1, -⟩ := (hr.2 rank' _ hd name g hg).2
          obtain ⟨c1, -, -, c4, -⟩ := addAll_kept k1 us (h := Hist.create n (some gen) name) rfl (create_kept _ _ _) e0
          obtain ⟨-, c2, -⟩ := addAll_kept k1 _ c4 c1 e1
          omega
        · refine hu' _ ?_ name g hg
          refine List.mem_iff_getElem.mpr ⟨i, by simpa using hi, ?_⟩
          rw [List.getElem_set, if_neg (fun e => hpos e.symm)]
      · refine hu rank' d ?_ name g hg
        rw [hds]
        simp only [if_neg hrank]
        exact hd

/-- Responses can be packed. -/
theorem serve_packs {w u : World} {rank : Int} {req : Req} {res : Res} (h : World.serve cb heap w rank req = .ok (u, res)) :
    ∃ b, res.pack = .ok b := by
  obtain ⟨-, d, -, d', o, ho, hbody, -⟩ := serve_keeps (Q := fun _ => True) (fun _ _ _ _ _ => True.intro) (fun _ _ _ => True.intro) h
  refine ⟨_, resPack_eq res ?_⟩
  intro l hl x hx hs
  have hkind := serve_kind h
  rw [hl] at hkind
  cases hq : req.body with
  | hist names =>
    rw [hq] at ho hbody
    cases ho
    rw [hl] at hbody
    simp only [Option.getD_some, ResBody.hist.injEq] at hbody
    rw [hbody] at hx
    obtain ⟨name, -, rfl⟩ := List.mem_map.mp hx
    unfold histItem at hs ⊢
    cases hf : find d.hists name.bytes with
    | none => rw [hf] at hs; cases hs
    | some g => simp
  | put l => rw [hq] at hkind; cases hkind
  | get l => rw [hq] at hkind; cases hkind
  | getop l => rw [hq] at hkind; cases hkind
  | del l => rw [hq] at hkind; cases hkind

/-- Requests are answered, to the rank that asked. -/
theorem serve_answers (hheap : heap ≠ 0) (hheap' : heap < 2 ^ 64) {net : Net}
    (ha : net.heap = addr) {w : World} {i : Nat} {s : Send} {c : Fin n} {x : Fin n × Bool × Parcel} (hc : net.rank = (c : Nat))
    (hw : Fit cb t hash place G w) (hs : IsTarget net i s x) (hsrc : s.req.src = net.rank ∧ s.wire = decide (s.rank ≠ net.rank))
    (hf : Fine cb t hash place net.heap s) (hb : Simple cb t G s.req.body) :
    ∃ u r, mpiServe cb heap addr junk w x.1 x.2.2 = .ok (u, c, r) ∧ Fit cb t hash place G u := by
  obtain ⟨hst, H, hH, hkey⟩ := hw
  obtain ⟨d, hd1, hd2, hd3⟩ := hf.dst
  obtain ⟨u, res, hserved, hst', -⟩ := serve_defined hheap hheap' hH hkey hst (List.mem_of_getElem? hd2) hf.req.2.2.2 hb
  have hfit : Fit cb t hash place G u := ⟨hst', _, serve_done d hH hd1 hd2 hf.body hd3 hserved, fun hG =>
    (hkey hG).append (fun s' p' o he => events_fit hf hb hG s' p' o (done_events _ _ _ _ he))⟩
  have hpar := hs.parcel
  by_cases hwire : s.wire = true
  · rw [if_pos hwire] at hpar
    have hrel := serve_arrived cb heap net.heap w s.rank s.req hf.client
    rw [hserved] at hrel
    cases hz : World.serve cb heap w s.rank (arrivedReq net.heap s.req) with
    | err => rw [hz] at hrel; exact hrel.elim
    | ub => rw [hz] at hrel; exact hrel.elim
    | ok z =>
      rw [hz] at hrel
      have hu : u = z.1 := hrel.1
      obtain ⟨pb, hpb⟩ := serve_packs (show World.serve cb heap w s.rank (arrivedReq net.heap s.req) = .ok (z.1, z.2) from hz)
      refine ⟨u, .wire (pb ++ junk (z.2.size - pb.length)), ?_, hfit⟩
      have hdst : z.2.dst = ((c : Nat) : Int) := by
        rw [serve_dst (show World.serve cb heap w s.rank (arrivedReq net.heap s.req) = .ok (z.1, z.2) from hz), ← hc, ← hsrc.1]
        rfl
      unfold mpiServe
      rw [hpar]
      simp only [packet]
      rw [← ha, reads_req net.heap s.req hf.req]
      simp only
      rw [← hs.rank, hz, Out.ok_bind, hpb, Out.ok_bind, hdst, toRank_self, Out.ok_bind, hu]
  · rw [if_neg hwire] at hpar
    refine ⟨u, .direct res, ?_, hfit⟩
    have hxc : x.1 = c := by
      have h1 := hsrc.2
      rw [Bool.not_eq_true] at hwire
      rw [hwire] at h1
      have h2 := of_decide_eq_false h1.symm
      have h3 : s.rank = net.rank := Classical.byContradiction h2
      rw [hs.rank, hc] at h3
      exact Fin.ext (by omega)
    unfold mpiServe
    rw [hpar]
    simp only
    rw [← hs.rank, hserved, Out.ok_bind, hxc]

end Hx.Job

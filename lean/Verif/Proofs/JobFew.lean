import Verif.Proofs.MpiJob

/-!
# Helper lemmas: histograms have no more numbers than the job has operations
-/

namespace Hx.Job
open Hx Msg Spec Process Store Results Props

variable {cb : Callbacks} {t : Transform} {hash : Bytes → Bytes → Out Int} {place : List Int} {heap addr : Nat} {junk : Nat → Bytes}
  {n L : Nat} {G : Uses} {eager : Nat → Bool} {turns : List Turn} {acts : Nat → FlushActs n}

private theorem insert_count (h : Hist) (v : Dbl) : (h.insert v).1.count = h.count := by
  unfold Hist.insert
  split
  · split
    · rfl
    · simp only
      split <;> rfl
  · rfl

private theorem insertAll_count (vs : List Dbl) : ∀ h : Hist, (h.insertAll vs).count = h.count := by
  induction vs with
  | nil => exact fun _ => rfl
  | cons v vs ih => exact fun h => (ih (h.insert v).1).trans (insert_count h v)

private theorem generate_count {h : Hist} {r : Hist × Bool} (e : h.generate = .ok r) : r.1.count = h.count := by
  unfold Hist.generate at e
  split at e
  · cases e
  · split at e
    · cases e
    · split at e
      · cases e; rfl
      · simp only at e
        split at e
        · cases e; rfl
        · cases e; exact insertAll_count _ _

theorem add_count {h : Hist} {v : Dbl} {r : Hist × Bool} (e : h.add v = .ok r) : r.1.count = h.count + 1 := by
  unfold Hist.add at e
  obtain ⟨h1, e1, e⟩ := ok_iff.mp e
  have hc : h1.count = h.count := by
    split at e1
    · split at e1
      · cases e1
      · cases e1; rfl
    · cases e1; rfl
  simp only at e
  split at e
  · obtain ⟨x, hx, e⟩ := ok_iff.mp e
    have hx' : x.1.count = h1.count + 1 := by
      split at hx
      · exact generate_count hx
      · cases hx; rfl
    split at e
    · cases e; rw [hx', hc]
    · split at e
      · cases e; show (x.1.insert v).1.count = _; rw [insert_count, hx', hc]
      · cases e; show x.1.count = _; rw [hx', hc]
  · cases e; show h1.count + 1 = _; rw [hc]

theorem addAll_count (vs : List Dbl) : ∀ {h h' : Hist}, h.addAll vs = .ok h' → h'.count = h.count + vs.length := by
  induction vs with
  | nil => intro h h' e; cases e; rfl
  | cons v vs ih =>
    intro h h' e
    simp only [Hist.addAll] at e
    obtain ⟨r, hr, e⟩ := ok_iff.mp e
    rw [ih e, add_count hr, List.length_cons]
    omega

theorem contributed_le (name : Bytes) (q : ReqBody) (r : Option ResBody) : (contributed name q r).length ≤ putCount q := by
  unfold contributed
  split
  · refine (List.length_filterMap_le _ _).trans ?_
    rw [List.length_zip]
    exact Nat.min_le_left _ _
  · exact Nat.zero_le _

/-- The histograms have at most `k` numbers. -/
def AtMost (k : Nat) (w : World) : Prop := ∀ rank, ∀ d ∈ w.ds rank, ∀ name h, find d.hists name = some h → h.count ≤ k

theorem serve_most {k : Nat} {w u : World} {rank : Int} {req : Req} {res : Res} (hw : AtMost k w)
    (h : World.serve cb heap w rank req = .ok (u, res)) : AtMost (k + putCount req.body) u := by
  unfold World.serve at h
  obtain ⟨x, hx, h⟩ := ok_iff.mp h
  have h := Out.ok.inj h
  simp only [Prod.mk.injEq] at h
  unfold rangeServer at hx
  split at hx
  · cases hx
  · simp only at hx
    split at hx
    · cases hx
    · rename_i d0 hd0
      obtain ⟨r, ho, hx⟩ := ok_iff.mp hx
      have hx := Out.ok.inj hx
      have hds : u.ds = fun k => if k = rank then x.1 else w.ds k := by rw [← h.1]
      intro rank' d hd name g hg
      rw [hds] at hd
      simp only at hd
      split at hd
      · rename_i hrank
        rw [← hx] at hd
        rcases List.mem_or_eq_of_mem_set hd with hd | rfl
        · have := hw rank d hd name g hg
          omega
        · obtain ⟨a1, a2⟩ := Store.operate_hists (show _ = Out.ok (r.1, r.2) from ho) name
          cases h0 : find d0.hists name with
          | none => rw [a1 h0] at hg; cases hg
          | some g0 =>
            obtain ⟨g1, e1, f1⟩ := a2 g0 h0
            rw [f1] at hg
            cases hg
            have := hw rank d0 (List.mem_of_getElem? hd0) name g0 h0
            have := addAll_count _ e1
            have := contributed_le name req.body r.2
            omega
      · have := hw rank' d hd name g hg
        omega

/-- The PUTs in a message. -/
def parcelPuts (addr : Nat) (p : Parcel) : Nat :=
  match p.packet with
  | .wire b => match rdReq addr b with
    | .ok (req, _) => putCount req.body
    | _ => 0
  | .direct req => putCount req.body

theorem executes_most (log : List (Mpi.Entry n Parcel Reply)) {k : Nat} {w w' : World} (hw : AtMost k w)
    (h : Spec.Mpi.Executes (mpiServe cb heap addr junk) w log w') : AtMost (k + (log.map (fun e => parcelPuts addr e.req)).sum) w' := by
  induction log generalizing w k with
  | nil => cases h; exact hw
  | cons e log ih =>
    obtain ⟨u, d, hs, h⟩ := h
    obtain ⟨y, hy⟩ := tells_of_serve hs
    have := serve_most hw hy.serve
    have hput : parcelPuts addr e.req = putCount y.req.body := by
      unfold parcelPuts
      rcases hy.packet with ⟨b, rest, pb, h1, h2, -⟩ | ⟨h1, -⟩
      · simp only [h1, h2]
      · simp only [h1]
    rw [← hput] at this
    rw [List.map_cons, List.sum_cons, ← Nat.add_assoc]
    exact ih this h

theorem target_puts {net : Net} {i : Nat} {s : Send} {x : Fin n × Bool × Parcel} (ha : net.heap = addr) (hs : IsTarget net i s x)
    (hf : Fine cb t hash place net.heap s) : parcelPuts addr x.2.2 = putCount s.req.body := by
  rw [hs.parcel]
  split
  · unfold parcelPuts
    simp only [packet]
    rw [← ha, reads_req net.heap s.req hf.req]
    simp only [arrivedReq]
    cases s.req.body <;> simp [arrivedReqBody, putCount]
  · rfl

private theorem flatMap_sum {α β : Type} (is : List α) (F : α → List β) (f : β → Nat) (g : α → Nat) (h : ∀ i ∈ is, ((F i).map f).sum ≤ g i) :
    ((is.flatMap F).map f).sum ≤ (is.map g).sum := by
  induction is with
  | nil => exact Nat.le_refl _
  | cons i is ih =>
    rw [List.flatMap_cons, List.map_append, List.sum_append, List.map_cons, List.sum_cons]
    exact Nat.add_le_add (h i (by simp)) (ih (fun j hj => h j (by simp [hj])))

variable {l : Nat → List Send} (hp : Planned cb t hash place G addr junk turns acts l)
include hp

theorem job_most {w : World} (hw : AtMost 0 w) {st : Mpi.St n L Parcel Reply World}
    (h : Spec.Mpi.Complete (mpiSys cb heap addr junk eager) w (jobProg turns acts) st) :
    AtMost (turns.map (fun x => (turnOps hash x).length)).sum st.world := by
  have hmost := executes_most st.log hw h.world
  intro rank d hd name g hg
  refine (hmost rank d hd name g hg).trans ?_
  rw [Nat.zero_add]
  -- the log, by client and rank
  refine (sum_cover (Finset.univ : Finset (Fin n × Fin n × Bool))
    (fun k e => decide (e.src = k.1 ∧ e.rank = k.2.1 ∧ e.wire = k.2.2)) _ st.log
    (fun e _ => ⟨(e.src, e.rank, e.wire), Finset.mem_univ _, by simp⟩)).trans ?_
  have e1 : ∀ k : Fin n × Fin n × Bool,
      ((st.log.filter (fun e => decide (e.src = k.1 ∧ e.rank = k.2.1 ∧ e.wire = k.2.2))).map (fun e => parcelPuts addr e.req)).sum =
      (((Spec.Mpi.targets k.1 (jobProg turns acts k.1)).filter (fun x => decide (x.1 = k.2.1 ∧ x.2.1 = k.2.2))).map
        (fun x => parcelPuts addr x.2.2)).sum := by
    intro k
    have := congrArg (fun l => (l.map (parcelPuts addr)).sum) (h.requests k.1 k.2.1 k.2.2)
    simp only [Spec.Mpi.logOf, Spec.Mpi.sentTo, List.map_map] at this
    exact this
  rw [Finset.sum_congr rfl (fun k _ => e1 k), ← Finset.univ_product_univ, Finset.sum_product]
  have e2 : ∀ c : Fin n, ∑ y : Fin n × Bool,
      (((Spec.Mpi.targets c (jobProg turns acts c)).filter (fun x => decide (x.1 = y.1 ∧ x.2.1 = y.2))).map
        (fun x => parcelPuts addr x.2.2)).sum ≤
      (((List.range turns.length).filter (fun i => decide (i ∈ turnsOf turns c))).map
        (fun i => (turns[i]?.map (fun x => (turnOps hash x).length)).getD 0)).sum := by
    intro c
    refine (sum_apart Finset.univ (fun (y : Fin n × Bool) (x : Fin n × Bool × Parcel) => decide (x.1 = y.1 ∧ x.2.1 = y.2)) _ _ ?_).trans ?_
    · intro x _ y y' h1 h2
      obtain ⟨a1, a2⟩ := of_decide_eq_true h1
      obtain ⟨b1, b2⟩ := of_decide_eq_true h2
      exact Prod.ext (a1.symm.trans b1) (a2.symm.trans b2)
    · have hf : (List.range turns.length).filter (fun i => decide (i ∈ turnsOf turns c)) = turnsOf turns c := by
        conv_rhs => unfold turnsOf
        refine List.filter_congr (fun i hi => ?_)
        rw [Bool.eq_iff_iff, decide_eq_true_iff]
        unfold turnsOf
        rw [List.mem_filter]
        exact ⟨fun h => h.2, fun h => ⟨hi, h⟩⟩
      rw [hf]
      unfold jobProg
      rw [targets_flatMap]
      refine flatMap_sum _ _ _ _ (fun i hi => ?_)
      obtain ⟨x, h1, h2, h3, h4, h5, h6⟩ := hp c i hi
      rw [h1]
      refine le_trans (le_of_eq ?_) h6.puts
      have hs := h6.sends
      have ht := h6.targets
      generalize Spec.Mpi.targets c (acts i).all = T at ht
      generalize l i = S at hs ht
      induction ht with
      | nil => rfl
      | cons a _ ih =>
        rw [List.map_cons, List.map_cons, List.sum_cons, List.sum_cons, ih (fun s hs' => hs s (by simp [hs'])),
          target_puts h3 a (hs _ (by simp)).1]
  refine (Finset.sum_le_sum (fun c _ => e2 c)).trans ?_
  refine (sum_apart Finset.univ (fun (c : Fin n) i => decide (i ∈ turnsOf turns c)) _ _ ?_).trans ?_
  · intro i _ c c' h1 h2
    exact turnsOf_unique (of_decide_eq_true h1) (of_decide_eq_true h2)
  · refine le_of_eq (congrArg List.sum ?_)
    refine List.ext_getElem (by simp) (fun i h1 h2 => ?_)
    simp only [List.getElem_map, List.getElem_range]
    rw [List.getElem?_eq_getElem (by simpa using h2)]
    rfl

/-- The histograms have few numbers if the job has few operations. -/
theorem job_few {w : World} (hnew : NewHists w) (hops : (turns.map (fun x => (turnOps hash x).length)).sum < 2 ^ 64)
    {st : Mpi.St n L Parcel Reply World} (h : Spec.Mpi.Complete (mpiSys cb heap addr junk eager) w (jobProg turns acts) st) :
    FewNumbers st.world := by
  have := job_most hp (fun rank d hd name g hg => by
    obtain ⟨n, gen, rfl, -⟩ := hnew rank d hd name g hg
    exact Nat.le_refl 0) h
  exact fun rank d hd name g hg => lt_of_le_of_lt (this rank d hd name g hg) hops

end Hx.Job

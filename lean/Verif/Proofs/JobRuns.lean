import Verif.Proofs.JobGetOp
import Verif.Proofs.JobFail
import Verif.Spec.Prepared
import Verif.Props.C43_HistStore

/-!
# Helper lemmas: turns of operations that are always answered do not fail
-/

namespace Hx.Job
open Hx Msg Spec Process Store Results Props

variable {cb : Callbacks} {t : Transform} {hash : Bytes → Bytes → Out Int} {place : List Int} {heap : Nat}

private theorem encodeKey_defined {s p : Blob} (hs : KeyOk cb t s) (hp : KeyOk cb t p) : ∃ k, encodeKey cb s p = .ok k := by
  unfold encodeKey
  rw [hs.enc, Out.ok_bind]
  cases t.E s.val with
  | none => exact ⟨_, rfl⟩
  | some es =>
    simp only
    rw [hp.enc, Out.ok_bind]
    cases t.E p.val <;> exact ⟨_, rfl⟩

private theorem encodeTriple_defined {s p o : Blob} (hs : KeyOk cb t s) (hp : KeyOk cb t p) (ho : ObjOk cb t o) :
    ∃ k, encodeTriple cb s p o = .ok k := by
  unfold encodeTriple
  obtain ⟨k, hk⟩ := encodeKey_defined hs hp
  rw [hk, Out.ok_bind]
  cases k with
  | none => exact ⟨_, rfl⟩
  | some k =>
    simp only
    rw [ho.enc, Out.ok_bind]
    cases t.E o.val <;> exact ⟨_, rfl⟩

private theorem memPut_defined (l : List PutItem) : ∀ db, BodyOk cb t (.put l) → ∃ x, memPut cb db l = .ok x := by
  induction l with
  | nil => exact fun db _ => ⟨_, rfl⟩
  | cons y l ih =>
    intro db h
    obtain ⟨h1, h2, h3⟩ := h y (by simp)
    obtain ⟨k, hk⟩ := encodeTriple_defined h1 h2 h3
    have h' : BodyOk cb t (.put l) := fun z hz => h z (by simp [hz])
    simp only [memPut, hk, Out.ok_bind]
    cases k with
    | none => obtain ⟨x, hx⟩ := ih db h'; simp only [hx, Out.ok_bind]; exact ⟨_, rfl⟩
    | some k => obtain ⟨x, hx⟩ := ih (put k.1 k.2 db) h'; simp only [hx, Out.ok_bind]; exact ⟨_, rfl⟩

private theorem levelBatch_defined (l : List PutItem) : BodyOk cb t (.put l) → ∃ x, levelBatch cb l = .ok x := by
  induction l with
  | nil => exact fun _ => ⟨_, rfl⟩
  | cons y l ih =>
    intro h
    obtain ⟨h1, h2, h3⟩ := h y (by simp)
    obtain ⟨k, hk⟩ := encodeTriple_defined h1 h2 h3
    obtain ⟨x, hx⟩ := ih (fun z hz => h z (by simp [hz]))
    simp only [levelBatch, hk, Out.ok_bind, hx]
    cases k <;> exact ⟨_, rfl⟩

private theorem memDel_defined (l : List DelItem) : ∀ db, BodyOk cb t (.del l) → ∃ x, memDel cb db l = .ok x := by
  induction l with
  | nil => exact fun db _ => ⟨_, rfl⟩
  | cons y l ih =>
    intro db h
    obtain ⟨h1, h2⟩ := h y (by simp)
    obtain ⟨k, hk⟩ := encodeKey_defined h1 h2
    have h' : BodyOk cb t (.del l) := fun z hz => h z (by simp [hz])
    simp only [memDel, hk, Out.ok_bind]
    cases k with
    | none => obtain ⟨x, hx⟩ := ih db h'; simp only [hx, Out.ok_bind]; exact ⟨_, rfl⟩
    | some k =>
      simp only
      split
      · obtain ⟨x, hx⟩ := ih (erase k db) h'; simp only [hx, Out.ok_bind]; exact ⟨_, rfl⟩
      · obtain ⟨x, hx⟩ := ih db h'; simp only [hx, Out.ok_bind]; exact ⟨_, rfl⟩

private theorem levelDelBatch_defined (l : List DelItem) : BodyOk cb t (.del l) → ∃ x, levelDelBatch cb l = .ok x := by
  induction l with
  | nil => exact fun _ => ⟨_, rfl⟩
  | cons y l ih =>
    intro h
    obtain ⟨h1, h2⟩ := h y (by simp)
    obtain ⟨k, hk⟩ := encodeKey_defined h1 h2
    obtain ⟨x, hx⟩ := ih (fun z hz => h z (by simp [hz]))
    simp only [levelDelBatch, hk, Out.ok_bind, hx]
    cases k <;> exact ⟨_, rfl⟩

private theorem getAll_defined {db : Db} {h : List Ev} (hi : Store.Inv cb t db h) (l : List GetItem)
    (hl : ∀ x ∈ l, KeyOk cb t x.subject ∧ KeyOk cb t x.predicate) : ∃ x, getAll cb heap db l = .ok x := by
  induction l with
  | nil => exact ⟨_, rfl⟩
  | cons y l ih =>
    obtain ⟨h1, h2⟩ := hl y (by simp)
    obtain ⟨r, hr, -⟩ := getItem_inv (heap := heap) hi h1 h2
    obtain ⟨x, hx⟩ := ih (fun z hz => hl z (by simp [hz]))
    simp only [getAll, hr, hx, Out.ok_bind]
    exact ⟨_, rfl⟩

/-! ## Histograms -/

/-- What a job uses. -/
structure Uses where
  getops : Prop
  hists : Prop

/-- A histogram that began without numbers, to which numbers can always be added. -/
def Counts (name : Bytes) (h : Hist) : Prop :=
  ∃ n g vs, Hist.addAll (Hist.create n (some g) name) vs = .ok h ∧ (∀ c, g c ≠ some []) ∧ n < 2 ^ 64 ∧ name.length < 2 ^ 64 ∧
    (∀ vs h', Hist.addAll (Hist.create n (some g) name) vs = .ok h' → h'.size < 2 ^ 64) ∧
    ∀ vs, ∃ h', Hist.addAll (Hist.create n (some g) name) vs = .ok h'

theorem Counts.addAll {name : Bytes} {h h' : Hist} {vs : List Dbl} (hc : Counts name h) (e : h.addAll vs = .ok h') : Counts name h' := by
  obtain ⟨n, g, us, e0, k⟩ := hc
  refine ⟨n, g, us ++ vs, ?_, k⟩
  rw [Hist.addAll_append, e0, Out.ok_bind, e]

theorem Counts.add {name : Bytes} {h : Hist} (hc : Counts name h) (v : Dbl) : ∃ r, h.add v = .ok r ∧ Counts name r.1 := by
  have hc' := hc
  obtain ⟨n, g, us, e0, -, -, -, -, k⟩ := hc
  obtain ⟨h', e⟩ := k (us ++ [v])
  rw [Hist.addAll_append, e0, Out.ok_bind] at e
  cases ha : h.add v with
  | err => simp only [Hist.addAll, ha] at e; cases e
  | ub => simp only [Hist.addAll, ha] at e; cases e
  | ok r => exact ⟨r, rfl, hc'.addAll (vs := [v]) (by simp only [Hist.addAll, ha, Out.ok_bind])⟩

theorem Counts.fits {name : Bytes} {h : Hist} (hc : Counts name h) (hl : h.count < 2 ^ 64) : HistFits h := by
  obtain ⟨n, g, us, e0, k1, k2, k3, k4, -⟩ := hc
  obtain ⟨-, a2, -⟩ := addAll_kept k1 us (h := Hist.create n (some g) name) rfl (create_kept _ _ _) e0
  have : (Hist.create n (some g) name).count = 0 := rfl
  exact (grown_kept ⟨k1, e0, k2, k3, by omega, k4 _ _ e0⟩).2.1

/-- The histograms of a datastore; `H`: there are some in the job. -/
def Counting (H : Prop) (d : DS) : Prop := ∀ name h, find d.hists name = some h → H ∧ Counts name h

/-- Every rank of a datastore has datastores, with histograms that can count. -/
def Ready (G : Uses) (place : List Int) (w : World) : Prop :=
  (∀ rank ∈ place, w.ds rank ≠ []) ∧ ∀ rank, ∀ d ∈ w.ds rank, Counting G.hists d

theorem _root_.Hx.Spec.Prepared.ready {w : World} (h : Prepared place w) (G : Prop) : Ready ⟨G, HasHists w⟩ place w := by
  refine ⟨h.1, fun rank d hd name x hx => ⟨⟨rank, d, hd, name, x, hx⟩, ?_⟩⟩
  obtain ⟨n, g, rfl, k1, k2, k3, k4⟩ := h.2.1 rank d hd name x hx
  exact ⟨n, g, [], rfl, k1, k2, k3, k4, h.2.2 rank d hd name _ hx⟩

theorem _root_.Hx.Spec.Staffed.ready {w : World} (h : Staffed place w) (G : Prop) : Ready ⟨G, False⟩ place w := by
  refine ⟨h.1, fun rank d hd name x hx => ?_⟩
  rw [h.2 rank d hd] at hx
  cases hx

theorem Ready.few {G : Uses} {w : World} (h : Ready G place w) (hG : ¬ G.hists) : FewNumbers w :=
  fun rank d hd name x hx => absurd (h.2 rank d hd name x hx).1 hG

/-- The datastores of a job without histograms. -/
def Bare (G : Uses) (place : List Int) (w : World) : Prop := Ready G place w ∧ ¬ G.hists

theorem _root_.Hx.Spec.Staffed.bare {w : World} (h : Staffed place w) (G : Prop) : Bare ⟨G, False⟩ place w := ⟨h.ready G, id⟩

/-- PUTs have the keys and numbers that the job needs. -/
def Gives (G : Uses) (l : List Op) : Prop := (G.getops → PutsGiven l) ∧ (G.hists → PutsWhole l)

private theorem histHooks_defined {H : Prop} (l : List (PutItem × StatusItem)) : ∀ {hs : Map Hist},
    (∀ name h, find hs name = some h → H ∧ Counts name h) → (H → ∀ x ∈ l, WholeObject x.1.object) → ∃ hs', histHooks hs l = .ok hs' := by
  induction l with
  | nil => exact fun _ _ => ⟨_, rfl⟩
  | cons x l ih =>
    intro hs hc hl
    have next : ∀ hs1, histHook hs x.1 x.2.status = .ok hs1 → (∀ name h, find hs1 name = some h → H ∧ Counts name h) →
        ∃ hs', histHooks hs (x :: l) = .ok hs' := by
      intro hs1 e h1
      obtain ⟨hs', e'⟩ := ih h1 (fun hH y hy => hl hH y (by simp [hy]))
      exact ⟨hs', by simp only [histHooks, e, Out.ok_bind, e']⟩
    suffices h : ∃ hs1, histHook hs x.1 x.2.status = .ok hs1 by
      obtain ⟨hs1, e⟩ := h
      refine next hs1 e ?_
      intro name h hf
      obtain ⟨a1, a2⟩ := histHook_find e name
      cases h0 : find hs name with
      | none => rw [a1 h0] at hf; cases hf
      | some g =>
        obtain ⟨g1, e1, f1⟩ := a2 g h0
        rw [f1] at hf
        cases hf
        exact ⟨(hc name g h0).1, (hc name g h0).2.addAll e1⟩
    unfold histHook
    split
    · split
      · exact ⟨_, rfl⟩
      · rename_i h hf
        obtain ⟨hH, hcount⟩ := hc _ _ hf
        obtain ⟨w1, w2⟩ := hl hH x (by simp)
        split
        · rename_i ht
          rw [if_neg (by have := w1 ht; omega)]
          obtain ⟨r, e, -⟩ := hcount.add (floatToDouble (leVal (x.1.object.bytes.take 4)))
          rw [e, Out.ok_bind]
          exact ⟨_, rfl⟩
        · split
          · rename_i ht
            rw [if_neg (by have := w2 ht; omega)]
            obtain ⟨r, e, -⟩ := hcount.add (UInt64.ofNat (leVal (x.1.object.bytes.take 8)))
            rw [e, Out.ok_bind]
            exact ⟨_, rfl⟩
          · exact ⟨_, rfl⟩
    · exact ⟨_, rfl⟩

private theorem operate_counting {H : Prop} {wr : Bool} {d : DS} {req : ReqBody} {d' : DS} {o : Option ResBody} (hh : Counting H d)
    (h : d.operate cb heap wr req = .ok (d', o)) : Counting H d' := by
  intro name g hg
  obtain ⟨a1, a2⟩ := Store.operate_hists h name
  cases h0 : find d.hists name with
  | none => rw [a1 h0] at hg; cases hg
  | some g0 =>
    obtain ⟨g1, e1, f1⟩ := a2 g0 h0
    rw [f1] at hg
    cases hg
    exact ⟨(hh name g0 h0).1, (hh name g0 h0).2.addAll e1⟩

/-- Requests that are always answered, by what the job uses. -/
def Simple (cb : Callbacks) (t : Transform) (G : Uses) : ReqBody → Prop
  | .put l => BodyOk cb t (.put l) ∧ (G.getops → ∀ x ∈ l, x.subject.bytes ≠ [] ∧ x.predicate.bytes ≠ []) ∧
      (G.hists → ∀ x ∈ l, WholeObject x.object)
  | .del l => BodyOk cb t (.del l)
  | .get l => ∀ x ∈ l, KeyOk cb t x.subject ∧ KeyOk cb t x.predicate
  | .getop l => G.getops ∧ ∀ x ∈ l, SimpleOp cb t (.getop x.op x.subject x.predicate x.objType x.numRecs)
  | .hist _ => True

/-- A GETOP is answered with at least one record. -/
private theorem getOpItem_defined {all : List Triple} (hg : ∀ a ∈ all, Good cb t a) (b : Backend) {x : GetOpItem}
    (h : SimpleOp cb t (.getop x.op x.subject x.predicate x.objType x.numRecs)) :
    ∃ r, getOpItem b cb heap (all.map (entry t)) x = .ok r ∧ r.recs ≠ [] := by
  obtain ⟨hop, hn, ⟨-, hs⟩, -, hp⟩ := h
  have hkey : hasKey x.op = true := by
    simp only [hasKey, goFirst, goLast, Bool.and_eq_true, bne_iff_ne, ne_eq]
    omega
  have herr : ∃ r, finish x ⟨dsError, []⟩ = .ok r ∧ r.recs ≠ [] := ⟨_, finish_error hn, by simp⟩
  cases hes : t.E x.subject.val with
  | none =>
    rw [hes] at hs
    unfold getOpItem loopInit
    rw [hkey]
    simp only [if_true, hs, hp, Out.ok_bind]
    rw [if_neg (by decide), Out.ok_bind]
    exact herr
  | some es =>
    rw [hes] at hs
    rw [getOpItem_key b heap _ hkey hs hp]
    have hcut : ∀ l : List Triple, l ≠ [] → (l.take x.numRecs).map (mkRec t heap) ≠ [] := by
      intro l hl hm
      rw [List.map_eq_nil_iff, List.take_eq_nil_iff] at hm
      rcases hm with hm | hm
      · omega
      · exact hl hm
    by_cases e0 : x.op = 0
    · rw [op_eq hg b e0 _ _ hn]
      split
      · exact herr
      · rw [Out.ok_bind, finish_ok]
        exact ⟨_, rfl, by simp⟩
    by_cases e1 : x.op = 1
    · rw [op_next hg b e1]
      split
      · exact herr
      · rw [Out.ok_bind, finish_ok]
        exact ⟨_, rfl, hcut _ (by assumption)⟩
    by_cases e2 : x.op = 2
    · rw [op_prev hg b e2]
      split
      · exact herr
      · rename_i hne
        rw [Out.ok_bind, finish_ok]
        refine ⟨_, rfl, hcut _ ?_⟩
        rw [ne_eq, List.reverse_eq_nil_iff, List.take_eq_nil_iff, not_or]
        refine ⟨by omega, ?_⟩
        rintro rfl
        exact hne rfl
    have h3 : x.op ≠ 3 := by omega
    have h4 : x.op ≠ 4 := by omega
    have h5 : x.op ≠ 5 := by omega
    have h6 : x.op ≠ 6 := by omega
    cases b <;>
    · simp only [opOf, memOp, levelOp, goEq, goNext, goPrev, goFirst, goLast, goLowest, goHighest, e0, e1, e2, h3, h4, h5, h6,
        if_false]
      exact herr

/-- What a range server answers to one GETOP: something that can be sent, with at least one record. -/
def Answered (r : GetOpRes) : Prop :=
  r.recs ≠ [] ∧ IntRange r.status ∧ r.recs.length < 2 ^ 64 ∧
    ∀ c ∈ r.recs, Solid c.subject ∧ Solid c.predicate ∧ (r.status = 1 → Solid c.object)

private theorem getOpItem_answered (hheap : heap ≠ 0) (hheap' : heap < 2 ^ 64) {all : List Triple}
    (hg : ∀ a ∈ all, Good cb t a ∧ (t.R a.2.2 ≠ [] ∧ (t.R a.2.2).length < 2 ^ 64) ∧
      (a.1.bytes ≠ [] ∧ a.1.bytes.length < 2 ^ 64) ∧ a.2.1.bytes ≠ [] ∧ a.2.1.bytes.length < 2 ^ 64)
    (hs : all.Pairwise (fun a b => t.key a < t.key b)) (b : Backend) {x : GetOpItem}
    (h : SimpleOp cb t (.getop x.op x.subject x.predicate x.objType x.numRecs))
    (hx : x.numRecs < 2 ^ 64 ∧ (x.op ≠ 3 ∧ x.op ≠ 4 → Solid x.subject ∧ Solid x.predicate)) :
    ∃ r, getOpItem b cb heap (all.map (entry t)) x = .ok r ∧ Answered r := by
  obtain ⟨r, hr, hne⟩ := getOpItem_defined (heap := heap) (fun a ha => (hg a ha).1) b h
  refine ⟨r, hr, hne, ?_⟩
  have hlen := C20_at_most_n _ _ _ _ _ _ hr
  obtain ⟨hop, hn, ⟨-, he⟩, -, hp⟩ := h
  have hex := getOpItem_exact (fun a ha => (hg a ha).1) hs b (fun _ _ => ⟨he, hp⟩) hr
  unfold ExactOp at hex
  split at hex
  · rename_i l hl
    subst hex
    refine ⟨by show IntRange dsSuccess; decide, by omega, ?_⟩
    intro c hcm
    obtain ⟨a, ham, rfl⟩ := List.mem_map.mp hcm
    obtain ⟨⟨⟨e1, g1⟩, ⟨e2, g2⟩, e3, g3⟩, ⟨g4, g5⟩, ⟨k1, k2⟩, k3, k4⟩ := hg a (answer_mem hl a ham)
    have t1 := g1.typ
    have t2 := g2.typ
    exact ⟨solid_copy hheap hheap' k1 k2 (by omega), solid_copy hheap hheap' k3 k4 (by omega),
      fun _ => solid_copy hheap hheap' g4 g5 g3.typ⟩
  · obtain ⟨h1, h2⟩ := hex
    refine ⟨by rw [h1]; decide, by omega, ?_⟩
    rw [h2]
    intro c hcm
    rw [List.mem_singleton] at hcm
    subst hcm
    obtain ⟨s1, s2⟩ := hx.2 ⟨by omega, by omega⟩
    exact ⟨s1, s2, fun hs => by rw [h1] at hs; cases hs⟩

private theorem getOpAll_answered (hheap : heap ≠ 0) (hheap' : heap < 2 ^ 64) {all : List Triple}
    (hg : ∀ a ∈ all, Good cb t a ∧ (t.R a.2.2 ≠ [] ∧ (t.R a.2.2).length < 2 ^ 64) ∧
      (a.1.bytes ≠ [] ∧ a.1.bytes.length < 2 ^ 64) ∧ a.2.1.bytes ≠ [] ∧ a.2.1.bytes.length < 2 ^ 64)
    (hs : all.Pairwise (fun a b => t.key a < t.key b)) (b : Backend) (l : List GetOpItem)
    (h : ∀ x ∈ l, SimpleOp cb t (.getop x.op x.subject x.predicate x.objType x.numRecs))
    (hx : ∀ x ∈ l, x.numRecs < 2 ^ 64 ∧ (x.op ≠ 3 ∧ x.op ≠ 4 → Solid x.subject ∧ Solid x.predicate)) :
    ∃ rs, getOpAll b cb heap (all.map (entry t)) l = .ok rs ∧ List.Forall₂ (fun _ r => Answered r) l rs := by
  induction l with
  | nil => exact ⟨[], rfl, .nil⟩
  | cons y l ih =>
    obtain ⟨r, h1, h2⟩ := getOpItem_answered hheap hheap' hg hs b (h y (by simp)) (hx y (by simp))
    obtain ⟨rs, h3, h4⟩ := ih (fun z hz => h z (by simp [hz])) (fun z hz => hx z (by simp [hz]))
    refine ⟨r :: rs, ?_, .cons h2 h4⟩
    rw [getOpAll_eq] at h3 ⊢
    simp only [mapO, h1, Out.ok_bind, h3]

/-- What is known of the response: nothing, or that it has answers to GETOPs that can be sent, or that its
histograms are as `Q` says. -/
def Answer (Q : Hist → Prop) (b : ReqBody) (o : ResBody) : Prop :=
  match b with
  | .getop l => ∃ rs, o = .getop rs ∧ List.Forall₂ (fun _ r => Answered r) l rs
  | .hist l => ∃ rs, o = .hist rs ∧ rs.length = l.length ∧ ∀ r ∈ rs, r = (⟨dsError, none⟩ : HistRes) ∨ ∃ h, r = ⟨dsSuccess, some h⟩ ∧ Q h
  | _ => True

private theorem operate_defined (hheap : heap ≠ 0) (hheap' : heap < 2 ^ 64) {G : Uses} {d : DS} {h : List Ev} {wr : Bool} {b : ReqBody}
    (hi : Store.Inv cb t d.db h) (hu : d.usable = true) (hh : Counting G.hists d)
    {Q : Hist → Prop} (hQ : ∀ name h, find d.hists name = some h → Q h)
    (hfit : G.getops → ∀ s p o, lastObj s p h = some o → (t.R o ≠ [] ∧ (t.R o).length < 2 ^ 64) ∧
      (s.bytes ≠ [] ∧ s.bytes.length < 2 ^ 64) ∧ p.bytes ≠ [] ∧ p.bytes.length < 2 ^ 64)
    (hreq : SendableReqBody b) (hb : Simple cb t G b) :
    ∃ d' o, d.operate cb heap wr b = .ok (d', some o) ∧ Answer Q b o := by
  cases b with
  | put l =>
    simp only [DS.operate, hu, if_true]
    cases d.backend with
    | mem =>
      obtain ⟨x, hx⟩ := memPut_defined l d.db hb.1
      obtain ⟨hs, hhs⟩ := histHooks_defined (l.zip x.2) hh (fun hH y hy => hb.2.2 hH y.1 (List.of_mem_zip hy).1)
      simp only [hx, Out.ok_bind, hhs]
      exact ⟨_, _, rfl, True.intro⟩
    | level =>
      obtain ⟨x, hx⟩ := levelBatch_defined l hb.1
      obtain ⟨hs, hhs⟩ := histHooks_defined (l.zip (l.map (fun x => putReply x (if wr then dsSuccess else dsError)))) hh
        (fun hH y hy => hb.2.2 hH y.1 (List.of_mem_zip hy).1)
      simp only [levelPut, hx, Out.ok_bind, hhs]
      exact ⟨_, _, rfl, True.intro⟩
  | del l =>
    simp only [DS.operate, hu, if_true]
    cases d.backend with
    | mem =>
      obtain ⟨x, hx⟩ := memDel_defined l d.db hb
      simp only [hx, Out.ok_bind]
      exact ⟨_, _, rfl, True.intro⟩
    | level =>
      obtain ⟨x, hx⟩ := levelDelBatch_defined l hb
      simp only [levelDel, hx, Out.ok_bind]
      exact ⟨_, _, rfl, True.intro⟩
  | get l =>
    obtain ⟨x, hx⟩ := getAll_defined (heap := heap) hi l hb
    simp only [DS.operate, hu, if_true, hx, Out.ok_bind]
    exact ⟨_, _, rfl, True.intro⟩
  | getop l =>
    obtain ⟨all, hc, hdb, hg⟩ := hi.contents
    obtain ⟨rs, h1, h2⟩ := getOpAll_answered hheap hheap' (all := all)
      (fun a ha => ⟨hg a ha, hfit hb.1 _ _ _ ((hc.mem a.1 a.2.1 a.2.2).mp ha)⟩) hc.sorted d.backend l hb.2
      (fun x hx => (hreq x hx).2.2)
    rw [← hdb] at h1
    simp only [DS.operate, hu, if_true, h1, Out.ok_bind]
    exact ⟨_, _, rfl, rs, rfl, h2⟩
  | hist l =>
    refine ⟨_, _, rfl, _, rfl, by simp, ?_⟩
    intro r hr
    obtain ⟨name, -, rfl⟩ := List.mem_map.mp hr
    unfold histItem
    cases hf : find d.hists name.bytes with
    | none => exact Or.inl rfl
    | some g => exact Or.inr ⟨g, rfl, hQ _ _ hf⟩

theorem serve_defined (hheap : heap ≠ 0) (hheap' : heap < 2 ^ 64) {G : Uses} {w : World} {H : List Ev} {rank : Int} {req : Req}
    (hw : Stores cb t hash place w H) (hk : G.getops → KeysFit H) (hs : Ready G place w) (hr : rank ∈ place)
    (hreq : SendableReqBody req.body) (hb : Simple cb t G req.body) :
    ∃ w' res, World.serve cb heap w rank req = .ok (w', res) ∧ Ready G place w' ∧
      Answer (fun h => (∃ name, Counts name h) ∧ (FewNumbers w → h.count < 2 ^ 64)) req.body res.body := by
  have hne := hs.1 rank hr
  have hlen : (w.ds rank).length ≠ 0 := by simpa using hne
  have hi : (req.dst % ((w.ds rank).length : Int)).toNat < (w.ds rank).length := by
    have h1 := Int.emod_lt_of_pos req.dst (show (0 : Int) < (w.ds rank).length by omega)
    omega
  obtain ⟨h, a1, a2, a3, a4⟩ := hw.store rank _ _ (List.getElem?_eq_getElem hi)
  obtain ⟨d', o, ho, hans⟩ := operate_defined hheap hheap' (G := G) (wr := w.wr w.served) a1 a2 (hs.2 rank _ (List.getElem_mem hi))
    (Q := fun h => (∃ name, Counts name h) ∧ (FewNumbers w → h.count < 2 ^ 64))
    (fun name g hg => ⟨⟨name, (hs.2 rank _ (List.getElem_mem hi) name g hg).2⟩, fun hf => hf rank _ (List.getElem_mem hi) name g hg⟩) (by
    intro hG s p o hl
    obtain ⟨k0, ds, k1, k2, k3⟩ := a3 _ (lastObj_mem hl)
    rw [a4 ds s p k1 k2 k3] at hl
    exact ⟨k0, hk hG s p o (lastObj_mem hl)⟩) hreq hb
  have hx : rangeServer cb heap (w.wr w.served) (w.ds rank) req = .ok ((w.ds rank).set (req.dst % ((w.ds rank).length : Int)).toNat d', ⟨req.dst, req.src, o⟩) := by
    unfold rangeServer
    rw [if_neg hlen]
    simp only [List.getElem?_eq_getElem hi, ho, Out.ok_bind, Option.getD_some]
  have hserve : ∃ w' res, World.serve cb heap w rank req = .ok (w', res) ∧ res.body = o := by
    unfold World.serve
    simp only [hx, Out.ok_bind]
    exact ⟨_, _, rfl, rfl⟩
  obtain ⟨w', res, he, hbody⟩ := hserve
  refine ⟨w', res, he, ⟨?_, (serve_keeps (Q := Counting G.hists) (fun d d' o hd ho => operate_counting hd ho) hs.2 he).1⟩,
    by rw [hbody]; exact hans⟩
  unfold World.serve at he
  rw [hx, Out.ok_bind] at he
  cases he
  intro r hr'
  simp only
  split
  · simpa using hne
  · exact hs.1 r hr'

/-- Entries of GETOPs have records. -/
def Full (res : Res) : Prop := ∀ g, res.body = .getop g → ∀ y ∈ g, y.recs ≠ []

theorem deliver_defined {net : Net} (hheap : heap ≠ 0) (hheap' : heap < 2 ^ 64) (hh : net.heap ≠ 0) (hh' : net.heap < 2 ^ 64)
    {G : Uses} {w : World} {H : List Ev} {x : Send} (hw : Stores cb t hash place w H) (hkey : G.getops → KeysFit H) (hs : Ready G place w) (hfew : FewNumbers w)
    (hx : Fine cb t hash place net.heap x) (hb : Simple cb t G x.req.body) :
    ∃ w' res, deliver net (World.serve cb heap) w x = .ok (w', some res) ∧ Ready G place w' ∧ Full res := by
  obtain ⟨ds, -, h2, -⟩ := hx.dst
  obtain ⟨w', res, he, hs', hans⟩ := serve_defined hheap hheap' hw hkey hs (List.mem_of_getElem? h2) hx.req.2.2.2 hb
  have hfull : Full res := by
    intro g hg y hy
    have hkind := serve_kind he
    rw [hg] at hkind
    cases hq : x.req.body with
    | getop l =>
      rw [hq] at hans
      obtain ⟨rs, e1, e2⟩ := hans
      rw [hg] at e1
      cases e1
      obtain ⟨u, -, hu⟩ := forall₂_mem_right e2 hy
      exact hu.1
    | put l => rw [hq] at hkind; cases hkind
    | get l => rw [hq] at hkind; cases hkind
    | del l => rw [hq] at hkind; cases hkind
    | hist l => rw [hq] at hkind; cases hkind
  have hsend : SendableRes res := by
    cases hq : x.req.body with
    | put l =>
      exact (safe_writes cb heap net.heap w w' x.rank x.req res hw.usable
        ⟨hx.req.2.2.1, hx.req.2.2.2, hx.client, Or.inl ⟨l, hq⟩⟩ hx.req.1 hx.req.2.1 he).2
    | del l =>
      exact (safe_writes cb heap net.heap w w' x.rank x.req res hw.usable
        ⟨hx.req.2.2.1, hx.req.2.2.2, hx.client, Or.inr ⟨l, hq⟩⟩ hx.req.1 hx.req.2.1 he).2
    | get l =>
      exact (safe_gets cb heap net.heap hheap hheap' w w' x.rank x.req res hw.readable
        ⟨hx.req.2.2.1, hx.req.2.2.2, hx.client, l, hq⟩ hx.req.1 hx.req.2.1 he).2
    | getop l =>
      rw [hq] at hans
      obtain ⟨rs, e1, e2⟩ := hans
      obtain ⟨m1, m2⟩ := serve_ends hw.usable he
      refine ⟨by rw [m1]; exact hx.req.2.1, by rw [m2]; exact hx.req.1, ?_, ?_⟩
      · have := hx.req.2.2.1
        rw [hq] at this
        rw [e1]
        simp only [ResBody.count, ReqBody.count] at this ⊢
        rw [← e2.length_eq]; exact this
      · rw [e1]
        intro r hr
        obtain ⟨u, -, hu⟩ := forall₂_mem_right e2 hr
        exact hu.2
    | hist l =>
      rw [hq] at hans
      obtain ⟨rs, e1, e2, e3⟩ := hans
      obtain ⟨m1, m2⟩ := serve_ends hw.usable he
      refine ⟨by rw [m1]; exact hx.req.2.1, by rw [m2]; exact hx.req.1, ?_, ?_⟩
      · have := hx.req.2.2.1
        rw [hq] at this
        rw [e1]
        simp only [ResBody.count, ReqBody.count] at this ⊢
        rw [e2]; exact this
      · rw [e1]
        intro r hr
        rcases e3 r hr with rfl | ⟨g, rfl, ⟨name, hg⟩, hl⟩
        · exact ⟨by decide, fun h => by cases h⟩
        · exact ⟨by show IntRange dsSuccess; decide, fun _ => ⟨g, rfl, hg.fits (hl hfew)⟩⟩
  have hk : FailsWithKey x.req.body res.body := by
    cases hq : x.req.body with
    | getop l =>
      rw [hq] at hans hb
      obtain ⟨rs, e1, e2⟩ := hans
      rw [e1]
      have hl := hb.2
      clear hq e1 hb
      show List.Forall₂ _ l rs
      induction e2 with
      | nil => exact .nil
      | cons _ _ ih =>
        obtain ⟨o1, -, ⟨o2, -⟩, o3, -⟩ := hl _ List.mem_cons_self
        exact .cons (Or.inr ⟨by omega, by omega, o2, o3⟩) (ih (fun z hz => hl z (by simp [hz])))
    | _ => exact True.intro
  unfold deliver
  split
  · obtain ⟨res', hr, hsame⟩ := C31_same_results_partial cb heap net w w' x.rank x.req res hh hh' hx.req hx.client he hsend hk
    refine ⟨w', res', hr, hs', ?_⟩
    intro g hg y hy
    obtain ⟨-, -, hbd⟩ := hsame
    rw [hg] at hbd
    cases hq : res.body with
    | getop rs =>
      rw [hq] at hbd
      obtain ⟨z, hz, -, hrec⟩ := forall₂_mem_right (show List.Forall₂ SameGetOpRes rs g from hbd) hy
      have := hfull rs hq z hz
      intro h0
      rw [h0] at hrec
      exact this (List.forall₂_nil_right_iff.mp hrec)
    | put _ => rw [hq] at hbd; exact hbd.elim
    | get _ => rw [hq] at hbd; exact hbd.elim
    | del _ => rw [hq] at hbd; exact hbd.elim
    | hist _ => rw [hq] at hbd; exact hbd.elim
  · rw [he, Out.ok_bind]
    exact ⟨w', res, rfl, hs', hfull⟩

/-- Nothing that cannot be sent is added. -/
theorem events_fit {G : Uses} {h : Nat} {x : Send} (hx : Fine cb t hash place h x) (hb : Simple cb t G x.req.body) (hG : G.getops) :
    KeysFit (events t.accepts x.req.body) := by
  intro s p o hm
  have hreq := hx.req.2.2.2
  cases hq : x.req.body with
  | put l =>
    rw [hq] at hm hreq hb
    obtain ⟨y, hy, he⟩ := List.mem_map.mp hm
    have hy := (List.mem_filter.mp hy).1
    cases he
    obtain ⟨k1, k2, -⟩ := hreq y hy
    obtain ⟨g1, g2⟩ := hb.2.1 hG y hy
    exact ⟨⟨g1, k1.1.1⟩, g2, k2.1.1⟩
  | del l =>
    rw [hq] at hm
    obtain ⟨y, -, he⟩ := List.mem_map.mp hm
    cases he
  | get l => rw [hq] at hm; cases hm
  | getop l => rw [hq] at hm; cases hm
  | hist l => rw [hq] at hm; cases hm

theorem KeysFit.append {H H' : List Ev} (h : KeysFit H) (h' : KeysFit H') : KeysFit (H ++ H') := by
  intro s p o hm
  rcases List.mem_append.mp hm with hm | hm
  · exact h s p o hm
  · exact h' s p o hm

theorem deliverAll_defined {net : Net} (hheap : heap ≠ 0) (hheap' : heap < 2 ^ 64) (hh : net.heap ≠ 0) (hh' : net.heap < 2 ^ 64)
    {G : Uses} (l : List Send) {w : World} {H : List Ev} (hw : Stores cb t hash place w H) (hkey : G.getops → KeysFit H) (hs : Bare G place w)
    (hl : ∀ x ∈ l, Fine cb t hash place net.heap x ∧ Simple cb t G x.req.body) :
    ∃ w' rs H', deliverAll (deliver net (World.serve cb heap)) l w = .ok (w', rs) ∧ Bare G place w' ∧
      Stores cb t hash place w' H' ∧ (G.getops → KeysFit H') ∧ ∀ res ∈ rs, Full res := by
  induction l generalizing w H with
  | nil => exact ⟨w, [], H, rfl, hs, hw, hkey, by simp⟩
  | cons x l ih =>
    obtain ⟨hx, hb⟩ := hl x (by simp)
    obtain ⟨u, res, he, hs', hfull⟩ := deliver_defined hheap hheap' hh hh' hw hkey hs.1 (hs.1.few hs.2) hx hb
    obtain ⟨r, hserve⟩ := deliver_serve hx.req hx.client he
    obtain ⟨ds, h1, h2, h3⟩ := hx.dst
    obtain ⟨w', rs, H', i1, i2, i3, i4, i5⟩ := ih (serve_done ds hw h1 h2 hx.body h3 hserve)
      (fun hG => (hkey hG).append (fun s p o hm => events_fit hx hb hG s p o (done_events _ _ _ _ hm))) ⟨hs', hs.2⟩ (fun y hy => hl y (by simp [hy]))
    refine ⟨w', res :: rs, H', ?_, i2, i3, i4, ?_⟩
    · simp only [deliverAll, he, Out.ok_bind, i1]
      rfl
    · intro y hy
      rcases List.mem_cons.mp hy with rfl | hy
      · exact hfull
      · exact i5 y hy

theorem process_defined {α : Type} {net : Net} (hheap : heap ≠ 0) (hheap' : heap < 2 ^ 64) (hh : net.heap ≠ 0)
    (hh' : net.heap < 2 ^ 64) {G : Uses} {mk : List α → ReqBody} {qs : List (List (List α))} (hR : Routed net qs.length)
    {w : World} {H : List Ev} (hw : Stores cb t hash place w H) (hkey : G.getops → KeysFit H) (hs : Bare G place w)
    (hl : ∀ l, Delivers net mk qs l → ∀ x ∈ l, Fine cb t hash place net.heap x ∧ Simple cb t G x.req.body) :
    ∃ x H', process net (World.serve cb heap) mk w qs = .ok x ∧ Stores cb t hash place x.1 H' ∧ (G.getops → KeysFit H') ∧
      Bare G place x.1 := by
  obtain ⟨l, hd, hall⟩ := C29_flush_partial net mk qs hR
  obtain ⟨w', rs, H', h1, h2, h3, h4, h5⟩ := deliverAll_defined hheap hheap' hh hh' l hw hkey hs (hl l hd)
  obtain ⟨r, h6, -⟩ := C35_chain_partial rs Results.create (fun res hr => h5 res hr)
  exact ⟨(w', r, qs.map (fun _ => [])), H', (hall _ w w' r _).mpr ⟨rfl, rs, h1, h6⟩, h3, h4, h2⟩

/-- What a flush sends is always answered. -/
structure SimpleSends (cb : Callbacks) (t : Transform) (hash : Bytes → Bytes → Out Int) (place : List Int) (G : Uses) (net : Net)
    (q : Queue.Queues) : Prop where
  puts : ∀ l, Delivers net ReqBody.put q.puts l → ∀ s ∈ l, Fine cb t hash place net.heap s ∧ Simple cb t G s.req.body
  gets : ∀ l, Delivers net ReqBody.get q.gets l → ∀ s ∈ l, Fine cb t hash place net.heap s ∧ Simple cb t G s.req.body
  getops : ∀ l, Delivers net ReqBody.getop q.getops l → ∀ s ∈ l, Fine cb t hash place net.heap s ∧ Simple cb t G s.req.body
  dels : ∀ l, Delivers net ReqBody.del q.dels l → ∀ s ∈ l, Fine cb t hash place net.heap s ∧ Simple cb t G s.req.body
  hists : ∀ l, Delivers net ReqBody.hist q.hists l → ∀ s ∈ l, Fine cb t hash place net.heap s ∧ Simple cb t G s.req.body

theorem simple_sends (hp31 : place.length ≤ 2 ^ 31) {G : Uses} {x : Turn} {q : Queue.Queues} (hx : TurnOk cb t hash place x)
    (hq : Queue.calls x.cfg true (Queue.Queues.init place.length) x.calls = .ok q)
    (hop : ∀ o ∈ turnOps hash x, SimpleOp cb t o) (hG : getOps (turnOps hash x) ≠ [] → G.getops) (hgiven : Gives G (turnOps hash x)) :
    SimpleSends cb t hash place G x.net q := by
  obtain ⟨⟨qp, qg, qo, qd, qh⟩, -⟩ := queue_facts hx hq
  have hpl := C27_packet_length _ _ _ _ hq
  refine ⟨?_, ?_, ?_, ?_, ?_⟩
  · intro l hd s hs
    obtain ⟨f1, -⟩ := fine_puts hp31 hx hq hd s hs
    refine ⟨f1, ?_⟩
    obtain ⟨ds, -, -, -, pk, e4, -, e6⟩ := sent_packet hd hs
    have := f1.body
    rw [e4] at this ⊢
    refine ⟨this, ?_, ?_⟩ <;>
    · intro hG y hy
      obtain ⟨s, p, o, m1, -, rfl⟩ := mem_putsFor (show y ∈ putsFor hash ds (turnOps hash x) by rw [← qp]; exact e6 y hy)
      first | exact hgiven.1 hG _ _ _ m1 | exact hgiven.2 hG _ _ _ m1
  · intro l hd s hs
    obtain ⟨⟨f1, -⟩, g, f3, f4⟩ := fine_gets hp31 hx hq hd s hs
    refine ⟨f1, ?_⟩
    rw [f3]
    exact fun u hu => ⟨(f4 u hu).2.1, (f4 u hu).2.2.1⟩
  · intro l hd s hs
    obtain ⟨f1, -⟩ := fine_getops hp31 hx hq hd s hs
    refine ⟨f1, ?_⟩
    obtain ⟨ds, e1, -, -, pk, e4, e5, e6⟩ := sent_packet hd hs
    rw [e4]
    have hin : ∀ u ∈ pk, u ∈ getopsFor hash ds (turnOps hash x) := by
      intro u hu
      rw [← qo]
      exact e6 u hu
    refine ⟨?_, fun u hu => hop _ (mem_getopsFor (hin u hu))⟩
    have hm : q.getops.getD ds [] ∈ q.getops := by
      rw [List.getD_eq_getElem?_getD, List.getElem?_eq_getElem e1]
      exact List.getElem_mem _
    have := (hpl.getops _ hm _ e5).1
    cases pk with
    | nil => cases this
    | cons u pk => exact hG (List.ne_nil_of_mem (mem_getopsFor_home (hin u (by simp))).1)
  · intro l hd s hs
    obtain ⟨f1, f2⟩ := fine_dels hp31 hx hq hd s hs
    refine ⟨f1, ?_⟩
    have := f1.body
    cases hb : s.req.body <;> rw [hb] at f2 this <;> first | exact this | cases f2
  · intro l hd s hs
    obtain ⟨f1, f2⟩ := fine_hists hp31 hx hq hd s hs
    refine ⟨f1, ?_⟩
    cases hb : s.req.body <;> rw [hb] at f2 <;> first | exact True.intro | cases f2

theorem turn_defined (hheap : heap ≠ 0) (hheap' : heap < 2 ^ 64) (hp31 : place.length ≤ 2 ^ 31) {G : Uses} {w : World} {H : List Ev}
    {x : Turn} (hw : Stores cb t hash place w H) (hkey : G.getops → KeysFit H) (hs : Bare G place w) (hx : TurnOk cb t hash place x)
    (hr : TurnRuns cb t hash place.length x) (hG : getOps (turnOps hash x) ≠ [] → G.getops) (hgiven : Gives G (turnOps hash x)) :
    ∃ w' r H', turn cb heap place.length w x = .ok (w', r) ∧ Stores cb t hash place w' H' ∧ (G.getops → KeysFit H') ∧ Bare G place w' := by
  obtain ⟨hHash, h0, hserv, hcalls, hop⟩ := hr
  obtain ⟨q, hq, z1, z2, z3, z4, z5⟩ := C27_defined x.cfg place.length x.calls hHash h0 hserv hcalls
  obtain ⟨c1, c2, c3, c4, c5⟩ := simple_sends hp31 hx hq hop hG hgiven
  obtain ⟨hh, hh'⟩ := hx.address
  have hR := hx.routed
  obtain ⟨y1, H1, g1, w1, k1, s1⟩ := process_defined hheap hheap' hh hh' (by rw [z1]; exact hR) hw hkey hs c1
  obtain ⟨y2, H2, g2, w2, k2, s2⟩ := process_defined hheap hheap' hh hh' (by rw [z2]; exact hR) w1 k1 s1 c2
  obtain ⟨y3, H3, g3, w3, k3, s3⟩ := process_defined hheap hheap' hh hh' (by rw [z3]; exact hR) w2 k2 s2 c3
  obtain ⟨y4, H4, g4, w4, k4, s4⟩ := process_defined hheap hheap' hh hh' (by rw [z4]; exact hR) w3 k3 s3 c4
  obtain ⟨y5, H5, g5, w5, k5, s5⟩ := process_defined hheap hheap' hh hh' (by rw [z5]; exact hR) w4 k4 s4 c5
  suffices h : ∃ r, turn cb heap place.length w x = .ok (y5.1, r) by
    obtain ⟨r, hr⟩ := h
    exact ⟨y5.1, r, H5, hr, w5, k5, s5⟩
  unfold turn flush flushPuts flushGets flushGetOps flushDels flushHists
  simp only [hq, Out.ok_bind, g1, g2, g3, g4, g5]
  exact ⟨_, rfl⟩

theorem run_defined (hheap : heap ≠ 0) (hheap' : heap < 2 ^ 64) (hp31 : place.length ≤ 2 ^ 31) {G : Uses} (l : List Turn) {w : World}
    {H : List Ev} (hw : Stores cb t hash place w H) (hkey : G.getops → KeysFit H) (hs : Bare G place w) (hx : ∀ x ∈ l, TurnOk cb t hash place x)
    (hr : ∀ x ∈ l, TurnRuns cb t hash place.length x) (hG : ∀ x ∈ l, getOps (turnOps hash x) ≠ [] → G.getops)
    (hgiven : ∀ x ∈ l, Gives G (turnOps hash x)) :
    ∃ w' rs, run cb heap place.length w l = .ok (w', rs) ∧ rs.length = l.length := by
  induction l generalizing w H with
  | nil => exact ⟨w, [], rfl, rfl⟩
  | cons x l ih =>
    obtain ⟨u, r, H', h1, h2, h3, h4⟩ := turn_defined hheap hheap' hp31 hw hkey hs (hx x (by simp)) (hr x (by simp))
      (hG x (by simp)) (hgiven x (by simp))
    obtain ⟨w', rs, h5, h6⟩ := ih h2 h3 h4 (fun y hy => hx y (by simp [hy])) (fun y hy => hr y (by simp [hy]))
      (fun y hy => hG y (by simp [hy])) (fun y hy => hgiven y (by simp [hy]))
    exact ⟨w', r :: rs, by simp only [run, h1, h5, Out.ok_bind], by simp [h6]⟩

end Hx.Job

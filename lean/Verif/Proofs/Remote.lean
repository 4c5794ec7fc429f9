import Verif.Spec.Remote
import Verif.Proofs.Message
import Verif.Proofs.GetOp

/-!
# Lemmas: executing a request and executing its copy
-/

namespace Hx.Store
open Hx Msg Spec

variable {cb : Callbacks} {heap h : Nat}

theorem copyAddr_eq (b : Blob) : copyAddr h b.bytes.length = if b.bytes = [] then 0 else h := by
  unfold copyAddr
  by_cases hb : b.bytes = [] <;> simp [hb]

theorem _root_.Hx.Spec.Portable.encode {b : Blob} (hp : Portable cb h b) : cb.encode (arrived h true b) = cb.encode b := by
  unfold arrived
  rw [copyAddr_eq]
  exact hp

theorem encodeKey_arrived {s p : Blob} (hs : Portable cb h s) (hp : Portable cb h p) :
    encodeKey cb (arrived h true s) (arrived h true p) = encodeKey cb s p := by
  unfold encodeKey
  rw [hs.encode, hp.encode]
  rfl

theorem encodeTriple_arrived {s p o : Blob} (hs : Portable cb h s) (hp : Portable cb h p) (ho : Portable cb h o) :
    encodeTriple cb (arrived h true s) (arrived h true p) (arrived h true o) = encodeTriple cb s p o := by
  unfold encodeTriple
  rw [encodeKey_arrived hs hp, ho.encode]
  rfl

theorem putReply_arrived {x : PutItem} (h1 : x.origS = x.subject.addr) (h2 : x.origP = x.predicate.addr) (st : Int) :
    putReply (arrivedPut h x) st = putReply x st := by
  simp [putReply, echo, arrivedPut, arrived, h1, h2]

theorem delReply_arrived {x : DelItem} (h1 : x.origS = x.subject.addr) (h2 : x.origP = x.predicate.addr) (st : Int) :
    delReply (arrivedDel h x) st = delReply x st := by
  simp [delReply, echo, arrivedDel, arrived, h1, h2]

theorem memPut_arrived (db : Db) (l : List PutItem) (hl : ClientReq cb h (.put l)) :
    memPut cb db (l.map (arrivedPut h)) = memPut cb db l := by
  induction l generalizing db with
  | nil => rfl
  | cons x l ih =>
    obtain ⟨h1, h2, h3, h4, h5⟩ := hl x (by simp)
    have ih' := fun db => ih db (fun y hy => hl y (by simp [hy]))
    have he : encodeTriple cb (arrivedPut h x).subject (arrivedPut h x).predicate (arrivedPut h x).object =
        encodeTriple cb x.subject x.predicate x.object := encodeTriple_arrived h3 h4 h5
    simp only [List.map_cons, memPut, he, ih', putReply_arrived h1 h2]

theorem levelBatch_arrived (l : List PutItem) (hl : ClientReq cb h (.put l)) :
    levelBatch cb (l.map (arrivedPut h)) = levelBatch cb l := by
  induction l with
  | nil => rfl
  | cons x l ih =>
    obtain ⟨h1, h2, h3, h4, h5⟩ := hl x (by simp)
    have he : encodeTriple cb (arrivedPut h x).subject (arrivedPut h x).predicate (arrivedPut h x).object =
        encodeTriple cb x.subject x.predicate x.object := encodeTriple_arrived h3 h4 h5
    simp only [List.map_cons, levelBatch, he, ih (fun y hy => hl y (by simp [hy]))]

theorem levelPut_arrived (wr : Bool) (db : Db) (l : List PutItem) (hl : ClientReq cb h (.put l)) :
    levelPut cb wr db (l.map (arrivedPut h)) = levelPut cb wr db l := by
  unfold levelPut
  rw [levelBatch_arrived l hl, List.map_map]
  have : l.map ((fun x => putReply x (if wr then dsSuccess else dsError)) ∘ arrivedPut h) =
      l.map (fun x => putReply x (if wr then dsSuccess else dsError)) := by
    apply List.map_congr_left
    intro x hx
    obtain ⟨h1, h2, -⟩ := hl x hx
    exact putReply_arrived h1 h2 _
  rw [this]

theorem histHooks_arrived (hs : Map Hist) (l : List PutItem) (rs : List StatusItem) :
    histHooks hs ((l.map (arrivedPut h)).zip rs) = histHooks hs (l.zip rs) := by
  induction l generalizing hs rs with
  | nil => rfl
  | cons x l ih =>
    cases rs with
    | nil => rfl
    | cons r rs =>
      have : ∀ hs st, histHook hs (arrivedPut h x) st = histHook hs x st := fun _ _ => rfl
      simp only [List.map_cons, List.zip_cons_cons, histHooks, this, ih]

theorem getAll_arrived (db : Db) (l : List GetItem) (hl : ClientReq cb h (.get l)) :
    getAll cb heap db (l.map (arrivedGet h)) = getAll cb heap db l := by
  induction l with
  | nil => rfl
  | cons x l ih =>
    obtain ⟨h1, h2, h3, h4⟩ := hl x (by simp)
    have he : encodeKey cb (arrivedGet h x).subject (arrivedGet h x).predicate = encodeKey cb x.subject x.predicate :=
      encodeKey_arrived h3 h4
    have hi : getItem cb heap db (arrivedGet h x) = getItem cb heap db x := by
      unfold getItem
      rw [he]
      simp only [arrivedGet, arrived, echo, h1, h2, if_true]
    simp only [List.map_cons, getAll, hi, ih (fun y hy => hl y (by simp [hy]))]

theorem memDel_arrived (db : Db) (l : List DelItem) (hl : ClientReq cb h (.del l)) :
    memDel cb db (l.map (arrivedDel h)) = memDel cb db l := by
  induction l generalizing db with
  | nil => rfl
  | cons x l ih =>
    obtain ⟨h1, h2, h3, h4⟩ := hl x (by simp)
    have ih' := fun db => ih db (fun y hy => hl y (by simp [hy]))
    have he : encodeKey cb (arrivedDel h x).subject (arrivedDel h x).predicate = encodeKey cb x.subject x.predicate :=
      encodeKey_arrived h3 h4
    simp only [List.map_cons, memDel, he, ih', delReply_arrived h1 h2]

theorem levelDelBatch_arrived (l : List DelItem) (hl : ClientReq cb h (.del l)) :
    levelDelBatch cb (l.map (arrivedDel h)) = levelDelBatch cb l := by
  induction l with
  | nil => rfl
  | cons x l ih =>
    obtain ⟨h1, h2, h3, h4⟩ := hl x (by simp)
    have he : encodeKey cb (arrivedDel h x).subject (arrivedDel h x).predicate = encodeKey cb x.subject x.predicate :=
      encodeKey_arrived h3 h4
    simp only [List.map_cons, levelDelBatch, he, ih (fun y hy => hl y (by simp [hy]))]

theorem levelDel_arrived (wr : Bool) (db : Db) (l : List DelItem) (hl : ClientReq cb h (.del l)) :
    levelDel cb wr db (l.map (arrivedDel h)) = levelDel cb wr db l := by
  unfold levelDel
  rw [levelDelBatch_arrived l hl, List.map_map]
  have : l.map ((fun x => delReply x (if wr then dsSuccess else dsError)) ∘ arrivedDel h) =
      l.map (fun x => delReply x (if wr then dsSuccess else dsError)) := by
    apply List.map_congr_left
    intro x hx
    obtain ⟨h1, h2, -⟩ := hl x hx
    exact delReply_arrived h1 h2 _
  rw [this]

/-! ## GETOP -/

/-- Unset or failed. -/
def Going (g : G) : Prop := g.status = dsUnset ∨ g.status = dsError

def KeepsGoing (visit : G → Nat → Bytes × Bytes → Out G) : Prop :=
  ∀ g j kv g', Going g → visit g j kv = .ok g' → Going g'

theorem going_copyResponse (n : Nat) : KeepsGoing (copyResponse cb heap n) := by
  intro g j kv g' hg h
  unfold copyResponse at h
  split at h
  · cases h; exact hg
  · cases h1 : Key.keyToSp kv.1 with
    | err => rw [h1] at h; cases h
    | ub => rw [h1] at h; cases h
    | ok sp =>
      cases h2 : removeType kv.2 with
      | err => rw [h1, h2] at h; cases h
      | ub => rw [h1, h2] at h; cases h
      | ok ot =>
        simp only [h1, h2, Out.ok_bind] at h
        cases h3 : cb.decode sp.1 with
        | err => rw [h3] at h; cases h
        | ub => rw [h3] at h; cases h
        | ok s =>
          simp only [h3, Out.ok_bind] at h
          cases s with
          | none => cases h; exact Or.inr rfl
          | some s =>
            simp only at h
            cases h4 : cb.decode sp.2 with
            | err => rw [h4] at h; cases h
            | ub => rw [h4] at h; cases h
            | ok p =>
              simp only [h4, Out.ok_bind] at h
              cases p with
              | none => cases h; exact Or.inr rfl
              | some p =>
                simp only at h
                cases h5 : cb.decode ⟨ot.1, ot.2⟩ with
                | err => rw [h5] at h; cases h
                | ub => rw [h5] at h; cases h
                | ok o =>
                  simp only [h5, Out.ok_bind] at h
                  cases o with
                  | none => cases h; exact Or.inr rfl
                  | some o =>
                    simp only at h
                    split at h
                    · cases h
                    · cases h; exact hg

theorem going_forward {visit : G → Nat → Bytes × Bytes → Out G} (hv : KeepsGoing visit)
    {cond : Bytes → Out Bool} {db : Db} (r j it : Nat) (g g' : G) (hg : Going g)
    (h : forward visit cond db r j it g = .ok g') : Going g' := by
  induction r generalizing j it g with
  | zero => cases h; exact hg
  | succ r ih =>
    unfold forward at h
    cases h1 : db[it]? with
    | none => rw [h1] at h; cases h; exact hg
    | some kv =>
      simp only [h1] at h
      cases h2 : cond kv.1 with
      | err => rw [h2] at h; cases h
      | ub => rw [h2] at h; cases h
      | ok c =>
        simp only [h2, Out.ok_bind] at h
        cases c with
        | false => cases h; exact hg
        | true =>
          simp only [if_true] at h
          cases h3 : visit g j kv with
          | err => rw [h3] at h; cases h
          | ub => rw [h3] at h; cases h
          | ok g1 => rw [h3, Out.ok_bind] at h; exact ih _ _ _ (hv _ _ _ _ hg h3) h

theorem going_memBackward {visit : G → Nat → Bytes × Bytes → Out G} (hv : KeepsGoing visit)
    {db : Db} (r j it : Nat) (g g' : G) (hg : Going g)
    (h : memBackward visit db r j it g = .ok g') : Going g' := by
  induction r generalizing j it g with
  | zero => cases h; exact hg
  | succ r ih =>
    unfold memBackward at h
    cases h1 : db[it]? with
    | none => rw [h1] at h; cases h
    | some kv =>
      simp only [h1] at h
      cases h3 : visit g j kv with
      | err => rw [h3] at h; cases h
      | ub => rw [h3] at h; cases h
      | ok g1 =>
        rw [h3, Out.ok_bind] at h
        split at h
        · cases h; exact hv _ _ _ _ hg h3
        · exact ih _ _ _ (hv _ _ _ _ hg h3) h

theorem going_memHighest {visit : G → Nat → Bytes × Bytes → Out G} (hv : KeepsGoing visit)
    {cond : Bytes → Out Bool} {db : Db} (r j it : Nat) (g g' : G) (hg : Going g)
    (h : memHighest visit cond db r j it g = .ok g') : Going g' := by
  induction r generalizing j it g with
  | zero => cases h; exact hg
  | succ r ih =>
    unfold memHighest at h
    split at h
    · cases h; exact hg
    · cases h1 : db[it]? with
      | none => rw [h1] at h; cases h
      | some kv =>
        simp only [h1] at h
        cases h2 : cond kv.1 with
        | err => rw [h2] at h; cases h
        | ub => rw [h2] at h; cases h
        | ok c =>
          simp only [h2, Out.ok_bind] at h
          cases c with
          | false => cases h; exact hg
          | true =>
            simp only [if_true] at h
            cases h3 : visit g j kv with
            | err => rw [h3] at h; cases h
            | ub => rw [h3] at h; cases h
            | ok g1 => rw [h3, Out.ok_bind] at h; exact ih _ _ _ (hv _ _ _ _ hg h3) h

theorem going_levelBackward {visit : G → Nat → Bytes × Bytes → Out G} (hv : KeepsGoing visit)
    {cond : Bytes → Out Bool} {db : Db} (r j : Nat) (it : Option Nat) (g g' : G) (hg : Going g)
    (h : levelBackward visit cond db r j it g = .ok g') : Going g' := by
  induction r generalizing j it g with
  | zero => cases h; exact hg
  | succ r ih =>
    unfold levelBackward at h
    cases h1 : it.bind (fun i => db[i]?.map (fun kv => (i, kv))) with
    | none => rw [h1] at h; cases h; exact hg
    | some ikv =>
      obtain ⟨i, kv⟩ := ikv
      simp only [h1] at h
      cases h2 : cond kv.1 with
      | err => rw [h2] at h; cases h
      | ub => rw [h2] at h; cases h
      | ok c =>
        simp only [h2, Out.ok_bind] at h
        cases c with
        | false => cases h; exact hg
        | true =>
          simp only [if_true] at h
          cases h3 : visit g j kv with
          | err => rw [h3] at h; cases h
          | ub => rw [h3] at h; cases h
          | ok g1 => rw [h3, Out.ok_bind] at h; exact ih _ _ _ (hv _ _ _ _ hg h3) h

theorem going_opOf {b : Backend} {db : Db} {x : GetOpItem} {pre : Bytes} {pl : Nat}
    {g : G} (h : opOf b cb heap db x pre pl = .ok g) : Going g := by
  have hv : KeepsGoing (copyResponse cb heap x.numRecs) := going_copyResponse _
  have h0 : Going ⟨dsUnset, []⟩ := Or.inl rfl
  cases b with
  | mem =>
    simp only [opOf, memOp] at h
    repeat' split at h
    all_goals first
      | (cases h; exact Or.inr rfl)
      | cases h
      | exact hv _ _ _ _ h0 h
      | exact going_forward hv _ _ _ _ _ h0 h
      | exact going_memBackward hv _ _ _ _ _ h0 h
      | exact going_memHighest hv _ _ _ _ _ h0 h
  | level =>
    simp only [opOf, levelOp] at h
    repeat' split at h
    all_goals first
      | (cases h; exact Or.inr rfl)
      | cases h
      | exact hv _ _ _ _ h0 h
      | exact going_forward hv _ _ _ _ _ h0 h
      | exact going_levelBackward hv _ _ _ _ _ h0 h

/-- Same answer, but for the echo of the request in the last record of a failure. -/
def Echo (x y : GetOpItem) (a b : GetOpRes) : Prop :=
  (a = b ∧ a.status = dsSuccess) ∨
  (a.status = dsError ∧ b.status = dsError ∧ ∃ pre, a.recs = pre ++ [⟨x.subject, x.predicate, Blob.null⟩] ∧
    b.recs = pre ++ [⟨y.subject, y.predicate, Blob.null⟩])

theorem finish_echo (x y : GetOpItem) (hn : x.numRecs = y.numRecs) (g : G) (hg : Going g) :
    OutRel (Echo x y) (finish x g) (finish y g) := by
  unfold finish
  rw [hn]
  rcases hg with hg | hg
  · simp only [hg, if_true]
    exact Or.inl ⟨rfl, rfl⟩
  · rw [hg, if_neg (by decide)]
    by_cases h : y.numRecs ≤ g.recs.length
    · rw [if_pos h, if_neg (by decide), if_pos h]
      exact True.intro
    · rw [if_neg h, if_neg (by decide), if_neg h]
      exact Or.inr ⟨rfl, rfl, _, rfl, rfl⟩

theorem opOf_congr (b : Backend) (db : Db) (x y : GetOpItem) (pre : Bytes) (pl : Nat) (h1 : x.op = y.op)
    (h2 : x.numRecs = y.numRecs) (h3 : x.predicate.typ = y.predicate.typ ∨ hasKey x.op = false) :
    opOf b cb heap db x pre pl = opOf b cb heap db y pre pl := by
  rcases h3 with h3 | h3
  · cases b <;> simp only [opOf, memOp, levelOp, h1, h2, h3]
  · have : x.op = goFirst ∨ x.op = goLast := by
      unfold hasKey at h3
      by_cases hf : x.op = goFirst
      · exact Or.inl hf
      · right
        simpa [hf] using h3
    rcases this with h | h <;> rw [h1] at h
    · cases b <;> simp [opOf, memOp, levelOp, h1, h2, h, goFirst, goEq, goNext, goPrev]
    · cases b <;> simp [opOf, memOp, levelOp, h1, h2, h, goFirst, goEq, goNext, goPrev, goLast]

theorem outRel_bind {α β γ : Type} {R : β → γ → Prop} (a : Out α) (f : α → Out β) (g : α → Out γ)
    (h : ∀ x, a = .ok x → OutRel R (f x) (g x)) : OutRel R (a >>= f) (a >>= g) := by
  cases a with
  | ok x => exact h x rfl
  | err => exact True.intro
  | ub => exact True.intro

theorem getOpItem_arrived (b : Backend) (db : Db) (x : GetOpItem)
    (hx : x.op ≠ 3 ∧ x.op ≠ 4 → Portable cb h x.subject ∧ Portable cb h x.predicate) :
    OutRel (Echo x (arrivedGetOp h x)) (getOpItem b cb heap db x) (getOpItem b cb heap db (arrivedGetOp h x)) := by
  have hop : (arrivedGetOp h x).op = x.op := by unfold arrivedGetOp; split <;> rfl
  have hnr : (arrivedGetOp h x).numRecs = x.numRecs := by unfold arrivedGetOp; split <;> rfl
  have key : ∀ pre pl, x.predicate.typ = (arrivedGetOp h x).predicate.typ ∨ hasKey x.op = false →
      OutRel (Echo x (arrivedGetOp h x)) (opOf b cb heap db x pre pl >>= finish x)
        (opOf b cb heap db (arrivedGetOp h x) pre pl >>= finish (arrivedGetOp h x)) := by
    intro pre pl ht
    rw [← opOf_congr b db x (arrivedGetOp h x) pre pl hop.symm hnr.symm ht]
    exact outRel_bind _ _ _ (fun g hg => finish_echo _ _ hnr.symm g (going_opOf hg))
  by_cases hk : hasKey x.op = true
  · have hne : x.op ≠ 3 ∧ x.op ≠ 4 := by simpa [hasKey, goFirst, goLast] using hk
    obtain ⟨hs, hp⟩ := hx hne
    have hsub : (arrivedGetOp h x).subject = arrived h true x.subject := by unfold arrivedGetOp; rw [if_pos hk]
    have hpre : (arrivedGetOp h x).predicate = arrived h true x.predicate := by unfold arrivedGetOp; rw [if_pos hk]
    unfold getOpItem loopInit
    rw [hop, if_pos hk, hsub, hpre, hs.encode, hp.encode]
    simp only [if_pos hk]
    cases he : cb.encode x.subject with
    | err => exact True.intro
    | ub => exact True.intro
    | ok es =>
      cases hq : cb.encode x.predicate with
      | err => exact True.intro
      | ub => exact True.intro
      | ok ep =>
        simp only [Out.ok_bind]
        cases es with
        | none =>
          simp only [Out.ok_bind]
          exact finish_echo x (arrivedGetOp h x) hnr.symm ⟨dsError, []⟩ (Or.inr rfl)
        | some es =>
          have := key (es ++ ep.getD []) (ep.getD []).length (Or.inl (by rw [hpre]; rfl))
          simp only [Out.ok_bind, if_true]
          cases b <;> exact this
  · have hk' : hasKey x.op = false := by simpa using hk
    rw [getOpItem_nokey b cb heap db hk', getOpItem_nokey b cb heap db (x := arrivedGetOp h x) (by rw [hop]; exact hk')]
    exact key [] 0 (Or.inr hk')

/-- The answers to a list of GETOPs and to its copy. -/
inductive Echoed (h : Nat) : List GetOpItem → List GetOpRes → List GetOpRes → Prop
  | nil : Echoed h [] [] []
  | cons {x : GetOpItem} {l : List GetOpItem} {a b : GetOpRes} {as bs : List GetOpRes} :
      Echo x (arrivedGetOp h x) a b → Echoed h l as bs → Echoed h (x :: l) (a :: as) (b :: bs)

theorem getOpAll_arrived (b : Backend) (db : Db) (l : List GetOpItem) (hl : ClientReq cb h (.getop l)) :
    OutRel (Echoed h l) (getOpAll b cb heap db l) (getOpAll b cb heap db (l.map (arrivedGetOp h))) := by
  induction l with
  | nil => exact Echoed.nil
  | cons x l ih =>
    have h1 := getOpItem_arrived (heap := heap) b db x (hl x (by simp))
    have h2 := ih (fun y hy => hl y (by simp [hy]))
    simp only [List.map_cons, getOpAll]
    revert h1 h2
    cases getOpItem b cb heap db x <;> cases getOpItem b cb heap db (arrivedGetOp h x) <;> intro h1 h2 <;>
      first | exact h1.elim | exact True.intro | skip
    simp only [Out.ok_bind]
    revert h2
    cases getOpAll b cb heap db l <;> cases getOpAll b cb heap db (l.map (arrivedGetOp h)) <;> intro h2 <;>
      first | exact h2.elim | exact True.intro | skip
    exact Echoed.cons h1 h2

/-! ## All operations -/

/-- What the server's answers have to do with those of a local call. -/
def BodyEcho (h : Nat) : ReqBody → ResBody → ResBody → Prop
  | .getop l, .getop a, .getop b => Echoed h l a b ∨ (a = [] ∧ b = [])
  | _, a, b => a = b

theorem operate_arrived (wr : Bool) (d : DS) (req : ReqBody) (hc : ClientReq cb h req) :
    OutRel (fun a b => a.1 = b.1 ∧ BodyEcho h req (a.2.getD (emptyLike req)) (b.2.getD (emptyLike req)))
      (d.operate cb heap wr req) (d.operate cb heap wr (arrivedReqBody h req)) := by
  have self : ∀ (a : Out (DS × Option ResBody)), (∀ l, req ≠ .getop l) →
      OutRel (fun a b : DS × Option ResBody => a.1 = b.1 ∧ BodyEcho h req (a.2.getD (emptyLike req)) (b.2.getD (emptyLike req))) a a := by
    intro a hne
    cases a with
    | err => exact True.intro
    | ub => exact True.intro
    | ok a =>
      refine ⟨rfl, ?_⟩
      cases req with
      | getop l => exact absurd rfl (hne l)
      | _ => rfl
  cases req with
  | put l =>
    have : d.operate cb heap wr (arrivedReqBody h (.put l)) = d.operate cb heap wr (.put l) := by
      simp only [DS.operate, arrivedReqBody]
      cases d.backend <;> simp only [memPut_arrived _ l hc, levelPut_arrived wr _ l hc, histHooks_arrived]
    rw [this]
    exact self _ (by simp)
  | get l =>
    have : d.operate cb heap wr (arrivedReqBody h (.get l)) = d.operate cb heap wr (.get l) := by
      simp only [DS.operate, arrivedReqBody, getAll_arrived _ l hc]
    rw [this]
    exact self _ (by simp)
  | del l =>
    have : d.operate cb heap wr (arrivedReqBody h (.del l)) = d.operate cb heap wr (.del l) := by
      simp only [DS.operate, arrivedReqBody]
      cases d.backend <;> simp only [memDel_arrived _ l hc, levelDel_arrived wr _ l hc]
    rw [this]
    exact self _ (by simp)
  | hist l =>
    have : d.operate cb heap wr (arrivedReqBody h (.hist l)) = d.operate cb heap wr (.hist l) := by
      simp only [DS.operate, arrivedReqBody, List.map_map]
      rfl
    rw [this]
    exact self _ (by simp)
  | getop l =>
    have hg := getOpAll_arrived (heap := heap) d.backend d.db l hc
    simp only [DS.operate, arrivedReqBody]
    by_cases hu : d.usable = true
    · rw [if_pos hu, if_pos hu]
      revert hg
      cases getOpAll d.backend cb heap d.db l <;>
        cases getOpAll d.backend cb heap d.db (l.map (arrivedGetOp h)) <;> intro hg <;>
        first | exact hg.elim | exact True.intro | skip
      simp only [Out.ok_bind, List.length_map]
      exact ⟨rfl, Or.inl hg⟩
    · rw [if_neg hu, if_neg hu]
      exact ⟨rfl, Or.inr ⟨rfl, rfl⟩⟩

end Hx.Store

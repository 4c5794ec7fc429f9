import Verif.Props.C26_Queue
import Verif.Props.C29_Results
import Verif.Spec.Job

/-!
# Helper lemmas: the range servers during a job
-/

namespace Hx.Job
open Hx Msg Spec Process Store Results Props

/-! ## Histories of one pair -/

def evPair : Ev → Val × Val
  | .put s p _ => (s, p)
  | .del s p => (s, p)

private theorem fold_filter (s p : Val) (f : Ev → Bool) (h : List Ev) (hf : ∀ e ∈ h, evPair e = (s, p) → f e = true)
    (acc : Option Val) :
    (h.filter f).foldl (fun acc e =>
      match e with
      | .put s' p' o => if s' = s ∧ p' = p then some o else acc
      | .del s' p' => if s' = s ∧ p' = p then none else acc) acc =
    h.foldl (fun acc e =>
      match e with
      | .put s' p' o => if s' = s ∧ p' = p then some o else acc
      | .del s' p' => if s' = s ∧ p' = p then none else acc) acc := by
  induction h generalizing acc with
  | nil => rfl
  | cons e h ih =>
    have ih := ih (fun x hx => hf x (by simp [hx]))
    by_cases he : f e = true
    · rw [List.filter_cons_of_pos he]
      exact ih _
    · rw [List.filter_cons_of_neg he, List.foldl_cons, ih]
      have hne : evPair e ≠ (s, p) := fun hp => he (hf e (by simp) hp)
      cases e with
      | put s' p' o =>
        simp only [evPair, ne_eq, Prod.mk.injEq] at hne
        simp only [if_neg hne]
      | del s' p' =>
        simp only [evPair, ne_eq, Prod.mk.injEq] at hne
        simp only [if_neg hne]

/-- Only the events of the pair matter. -/
theorem lastObj_filter (s p : Val) (f : Ev → Bool) (h : List Ev) (hf : ∀ e ∈ h, evPair e = (s, p) → f e = true) :
    lastObj s p (h.filter f) = lastObj s p h := fold_filter s p f h hf none

theorem lastObj_append (s p : Val) {h h' : List Ev} (he : lastObj s p h = lastObj s p h') (e : List Ev) :
    lastObj s p (h ++ e) = lastObj s p (h' ++ e) := by
  unfold lastObj at he ⊢
  rw [List.foldl_append, List.foldl_append, he]

theorem lastObj_skip (s p : Val) (h e : List Ev) (he : ∀ x ∈ e, evPair x ≠ (s, p)) :
    lastObj s p (h ++ e) = lastObj s p h := by
  have h1 := lastObj_filter s p (fun x => decide (evPair x = (s, p))) (h ++ e) (fun x _ hx => by simpa using hx)
  have h2 := lastObj_filter s p (fun x => decide (evPair x = (s, p))) h (fun x _ hx => by simpa using hx)
  rw [← h1, ← h2, List.filter_append]
  have : e.filter (fun x => decide (evPair x = (s, p))) = [] := by
    rw [List.filter_eq_nil_iff]
    intro x hx
    simpa using he x hx
  rw [this, List.append_nil]

/-- Histories that agree on the pair. -/
theorem lastObj_same (s p : Val) (f : Ev → Bool) {h e e' : List Ev} (hf : ∀ x, evPair x = (s, p) → f x = true)
    (he : e.filter f = e'.filter f) : lastObj s p (h ++ e) = lastObj s p (h ++ e') := by
  rw [← lastObj_filter s p f (h ++ e) (fun x _ hx => hf x hx), ← lastObj_filter s p f (h ++ e') (fun x _ hx => hf x hx),
    List.filter_append, List.filter_append, he]

/-! ## The invariant -/

variable {cb : Callbacks} {t : Transform} {hash : Bytes → Bytes → Out Int} {place : List Int} {heap : Nat}

/-- The datastore of a pair of values. -/
def hv (hash : Bytes → Bytes → Out Int) (x : Val × Val) : Option Nat :=
  home hash ⟨0, x.1.bytes, x.1.typ⟩ ⟨0, x.2.bytes, x.2.typ⟩

theorem hv_val (hash : Bytes → Bytes → Out Int) (s p : Blob) : hv hash (s.val, p.val) = home hash s p := rfl

/-- Objects come back as data that can be sent. -/
def EvOk (t : Transform) : Ev → Prop
  | .put _ _ o => t.R o ≠ [] ∧ (t.R o).length < 2 ^ 64
  | .del _ _ => True

/-- The event is for datastore `i` of the `n` datastores of a rank. -/
def At (hash : Bytes → Bytes → Out Int) (place : List Int) (rank : Int) (n i : Nat) (e : Ev) : Prop :=
  ∃ ds : Nat, hv hash (evPair e) = some ds ∧ place[ds]? = some rank ∧ (ds : Int) % (n : Int) = i

/-- The range servers hold what `H` says, whether or not writes succeed. -/
structure Stores (cb : Callbacks) (t : Transform) (hash : Bytes → Bytes → Out Int) (place : List Int) (w : World)
    (H : List Ev) : Prop where
  store : ∀ (rank : Int) (i : Nat) (d : DS), (w.ds rank)[i]? = some d → ∃ h, Store.Inv cb t d.db h ∧ d.usable = true ∧
    (∀ e ∈ h, EvOk t e ∧ At hash place rank (w.ds rank).length i e) ∧
    ∀ (ds : Nat) (s p : Val), hv hash (s, p) = some ds → place[ds]? = some rank →
      (ds : Int) % ((w.ds rank).length : Int) = i → lastObj s p h = lastObj s p H

/-- The range servers hold what `H` says, and writes succeed. -/
structure Holds (cb : Callbacks) (t : Transform) (hash : Bytes → Bytes → Out Int) (place : List Int) (w : World)
    (H : List Ev) : Prop extends Stores cb t hash place w H where
  wr : ∀ n, w.wr n = true

theorem Stores.congr {w : World} {H H' : List Ev} (h : Stores cb t hash place w H)
    (he : ∀ (s p : Val) (ds : Nat), hv hash (s, p) = some ds → lastObj s p H = lastObj s p H') :
    Stores cb t hash place w H' := by
  refine ⟨fun rank i d hd => ?_⟩
  obtain ⟨g, h1, h2, h3, h4⟩ := h.store rank i d hd
  exact ⟨g, h1, h2, h3, fun ds s p a b c => (h4 ds s p a b c).trans (he s p ds a)⟩

theorem Holds.congr {w : World} {H H' : List Ev} (h : Holds cb t hash place w H)
    (he : ∀ (s p : Val) (ds : Nat), hv hash (s, p) = some ds → lastObj s p H = lastObj s p H') :
    Holds cb t hash place w H' := ⟨h.toStores.congr he, h.wr⟩

theorem stores_empty {w : World} (h : ∀ rank, ∀ d ∈ w.ds rank, d.usable = true ∧ d.db = []) : Stores cb t hash place w [] := by
  refine ⟨fun rank i d hd => ?_⟩
  obtain ⟨h1, h2⟩ := h rank d (List.mem_of_getElem? hd)
  exact ⟨[], by rw [h2]; exact Inv.nil cb t, h1, by simp, fun _ _ _ _ _ _ => rfl⟩

theorem holds_fresh {w : World} (h : FreshWorld w) : Holds cb t hash place w [] := ⟨stores_empty h.empty, h.writes⟩

theorem Stores.usable {w : World} {H : List Ev} (h : Stores cb t hash place w H) : Usable w := by
  intro rank d hd
  obtain ⟨i, hi⟩ := List.mem_iff_getElem?.mp hd
  obtain ⟨g, -, h2, -⟩ := h.store rank i d hi
  exact h2

/-- What the events of a history store can be read. -/
private theorem evOk_last {s p o : Val} {h : List Ev} (hok : ∀ e ∈ h, EvOk t e) (hl : lastObj s p h = some o) :
    t.R o ≠ [] ∧ (t.R o).length < 2 ^ 64 := by
  have key : ∀ (h : List Ev) (acc : Option Val), (∀ e ∈ h, EvOk t e) →
      (∀ o, acc = some o → t.R o ≠ [] ∧ (t.R o).length < 2 ^ 64) → ∀ o, h.foldl (fun acc e =>
      match e with
      | .put s' p' o => if s' = s ∧ p' = p then some o else acc
      | .del s' p' => if s' = s ∧ p' = p then none else acc) acc = some o → t.R o ≠ [] ∧ (t.R o).length < 2 ^ 64 := by
    intro h
    induction h with
    | nil => intro acc _ ha o ho; exact ha o ho
    | cons e h ih =>
      intro acc hh ha o ho
      refine ih _ (fun x hx => hh x (by simp [hx])) ?_ o ho
      intro o' ho'
      have he := hh e (by simp)
      cases e with
      | put s' p' o'' =>
        simp only at ho'
        split at ho'
        · cases ho'; exact he
        · exact ha o' ho'
      | del s' p' =>
        simp only at ho'
        split at ho'
        · cases ho'
        · exact ha o' ho'
  exact key h none hok (fun _ h => by cases h) o hl

theorem Stores.readable {w : World} {H : List Ev} (h : Stores cb t hash place w H) :
    ∀ rank, ∀ d ∈ w.ds rank, Readable cb d := by
  intro rank d hd
  obtain ⟨i, hi⟩ := List.mem_iff_getElem?.mp hd
  obtain ⟨g, h1, h2, h3, -⟩ := h.store rank i d hi
  refine ⟨h2, fun kv hkv ot hot o ho => ?_⟩
  obtain ⟨s, p, o', he, ⟨-, -, eo, hgo⟩, hl⟩ := h1.sound kv.1 kv.2 (mem_find h1.sorted hkv)
  have hv2 : kv.2 = appendType eo o'.typ := by
    have := congrArg Prod.snd he
    simpa [entry, hgo.enc] using this
  rw [hv2, removeType_appendType _ _ hgo.typ] at hot
  cases hot
  simp only at ho ⊢
  rw [hgo.dec] at ho
  cases ho
  obtain ⟨r1, r2⟩ := evOk_last (fun e he => (h3 e he).1) hl
  exact ⟨r1, r2, hgo.typ⟩

private theorem emod_toNat {ds n : Nat} (hn : n ≠ 0) : ((ds : Int) % (n : Int)).toNat = ds % n ∧ (((ds % n : Nat)) : Int) = (ds : Int) % n := by
  constructor
  · omega
  · simp

/-- One request, of which the datastore executes `ev`. -/
theorem serve_stores {w w' : World} {H : List Ev} {rank : Int} {req : Req} {res : Res} (ds : Nat)
    (hw : Stores cb t hash place w H) (hd : req.dst = ds) (hp : place[ds]? = some rank) (ev : List Ev)
    (hstep : ∀ (d d' : DS) (h : List Ev), Store.Inv cb t d.db h → d.usable = true → d.operate cb heap (w.wr w.served) req.body = .ok (d', some res.body) →
      Store.Inv cb t d'.db (h ++ ev) ∧ d'.usable = true)
    (hev : ∀ e ∈ ev, hv hash (evPair e) = some ds ∧ EvOk t e)
    (h : World.serve cb heap w rank req = .ok (w', res)) :
    Stores cb t hash place w' (H ++ ev) := by
  unfold World.serve at h
  obtain ⟨x, hx, h⟩ := ok_iff.mp h
  cases h
  obtain ⟨-, -, -, i, d, d', hi, hdi, ho, hset⟩ := C21_range_server_partial cb heap _ _ _ req _ (hw.usable rank)
    (show rangeServer cb heap _ _ req = .ok (x.1, x.2) from hx)
  obtain ⟨h0, a1, a2, a3, a4⟩ := hw.store rank i d hdi
  obtain ⟨b1, b2⟩ := hstep d d' h0 a1 a2 ho
  have hlen : x.1.length = (w.ds rank).length := by rw [hset]; simp
  refine ⟨fun rank' j c hc => ?_⟩
  by_cases hr : rank' = rank
  · subst hr
    simp only [if_true] at hc ⊢
    rw [hlen]
    by_cases hj : j = i
    · subst hj
      have : c = d' := by
        rw [hset, List.getElem?_set] at hc
        simp only [if_true] at hc
        split at hc
        · exact (Option.some.inj hc).symm
        · cases hc
      subst this
      refine ⟨_, b1, b2, ?_, ?_⟩
      · intro e he
        rcases List.mem_append.mp he with he | he
        · exact a3 e he
        · exact ⟨(hev e he).2, ds, (hev e he).1, hp, by rw [← hd]; exact hi.symm⟩
      · intro ds' s p h1 h2 h3
        exact lastObj_append s p (a4 ds' s p h1 h2 h3) _
    · have hc' : (w.ds rank')[j]? = some c := by
        rw [hset, List.getElem?_set_ne (fun he => hj he.symm)] at hc
        exact hc
      obtain ⟨g, c1, c2, c3, c4⟩ := hw.store rank' j c hc'
      refine ⟨g, c1, c2, c3, ?_⟩
      intro ds' s p h1 h2 h3
      rw [c4 ds' s p h1 h2 h3, lastObj_skip]
      intro e he heq
      have := (hev e he).1
      rw [heq, h1] at this
      cases this
      rw [hd] at hi
      omega
  · simp only [if_neg hr] at hc ⊢
    obtain ⟨g, c1, c2, c3, c4⟩ := hw.store rank' j c hc
    refine ⟨g, c1, c2, c3, ?_⟩
    intro ds' s p h1 h2 h3
    rw [c4 ds' s p h1 h2 h3, lastObj_skip]
    intro e he heq
    have := (hev e he).1
    rw [heq, h1] at this
    cases this
    rw [hp] at h2
    cases h2
    exact hr rfl

/-- One request, when writes succeed. -/
theorem serve_holds {w w' : World} {H : List Ev} {rank : Int} {req : Req} {res : Res} (ds : Nat)
    (hw : Holds cb t hash place w H) (hd : req.dst = ds) (hp : place[ds]? = some rank) (hb : BodyOk cb t req.body)
    (hev : ∀ e ∈ events t.accepts req.body, hv hash (evPair e) = some ds ∧ EvOk t e)
    (h : World.serve cb heap w rank req = .ok (w', res)) :
    Holds cb t hash place w' (H ++ events t.accepts req.body) := by
  refine ⟨serve_stores ds hw.toStores hd hp _ (fun d d' h i u ho => ?_) hev h, ?_⟩
  · obtain ⟨b1, b2, -⟩ := operate_inv i u hb ho
    rw [if_pos (Or.inr (hw.wr _))] at b1
    exact ⟨b1, b2⟩
  · unfold World.serve at h
    obtain ⟨x, -, h⟩ := ok_iff.mp h
    cases h
    exact hw.wr

/-- A GET request: every answer is right. -/
theorem serve_get {w w' : World} {H : List Ev} {rank : Int} {req : Req} {res : Res} {l : List GetItem} (ds : Nat)
    (hw : Stores cb t hash place w H) (hd : req.dst = ds) (hp : place[ds]? = some rank) (hl : req.body = .get l)
    (hk : ∀ x ∈ l, KeyOk cb t x.subject ∧ KeyOk cb t x.predicate ∧ home hash x.subject x.predicate = some ds)
    (h : World.serve cb heap w rank req = .ok (w', res)) :
    ∃ rs, res.body = .get rs ∧ List.Forall₂ (fun x r => Answers t H x r) l rs := by
  unfold World.serve at h
  obtain ⟨x, hx, h⟩ := ok_iff.mp h
  cases h
  obtain ⟨-, -, -, i, d, d', hi, hdi, ho, hset⟩ := C21_range_server_partial cb heap _ _ _ req _ (hw.usable rank)
    (show rangeServer cb heap _ _ req = .ok (x.1, x.2) from hx)
  obtain ⟨h0, a1, a2, a3, a4⟩ := hw.store rank i d hdi
  rw [hl] at ho
  simp only [DS.operate, a2, if_true] at ho
  obtain ⟨rs, hrs, ho2⟩ := ok_iff.mp ho
  have hres : x.2.body = .get rs := by
    have := congrArg (fun y => match y with | Out.ok z => z.2 | _ => none) ho2
    simpa using this.symm
  refine ⟨rs, hres, ?_⟩
  rw [getAll_eq] at hrs
  have hf := mapO_ok hrs
  clear hrs ho ho2 hl hres
  induction hf with
  | nil => exact .nil
  | @cons y r l rs hyr _ ih =>
    obtain ⟨k1, k2, k3⟩ := hk y (by simp)
    refine .cons ?_ (ih (fun z hz => hk z (by simp [hz])))
    obtain ⟨r', hr', ha⟩ := getItem_inv (heap := heap) a1 k1 k2
    rw [hyr] at hr'
    cases hr'
    unfold Answers at ha ⊢
    rw [← a4 ds y.subject.val y.predicate.val k3 hp (by rw [hi, hd])]
    exact ha

/-! ## Kinds of responses -/

def kindOf : ReqBody → Kind
  | .put _ => .put | .get _ => .get | .getop _ => .getop | .del _ => .del | .hist _ => .hist

def kindRes : ResBody → Kind
  | .put _ => .put | .get _ => .get | .getop _ => .getop | .del _ => .del | .hist _ => .hist

private theorem operate_kind {wr : Bool} {d d' : DS} {req : ReqBody} {o : Option ResBody}
    (h : d.operate cb heap wr req = .ok (d', o)) : kindRes (o.getD (emptyLike req)) = kindOf req := by
  cases req with
  | put l =>
    simp only [DS.operate] at h
    split at h
    · cases hb : d.backend <;> simp only [hb] at h <;>
      · obtain ⟨a, -, h⟩ := ok_iff.mp h
        obtain ⟨b, -, h⟩ := ok_iff.mp h
        cases h; rfl
    · cases h; rfl
  | get l =>
    simp only [DS.operate] at h
    split at h
    · obtain ⟨a, -, h⟩ := ok_iff.mp h
      cases h; rfl
    · cases h; rfl
  | getop l =>
    simp only [DS.operate] at h
    split at h
    · obtain ⟨a, -, h⟩ := ok_iff.mp h
      cases h; rfl
    · cases h; rfl
  | del l =>
    simp only [DS.operate] at h
    split at h
    · cases hb : d.backend <;> simp only [hb] at h <;>
      · obtain ⟨a, -, h⟩ := ok_iff.mp h
        cases h; rfl
    · cases h; rfl
  | hist l => cases h; rfl

theorem serve_kind {w w' : World} {rank : Int} {req : Req} {res : Res}
    (h : World.serve cb heap w rank req = .ok (w', res)) : kindRes res.body = kindOf req.body := by
  unfold World.serve at h
  obtain ⟨x, hx, h⟩ := ok_iff.mp h
  cases h
  unfold rangeServer at hx
  split at hx
  · cases hx
  · simp only at hx
    split at hx
    · cases hx
    · obtain ⟨y, hy, hx⟩ := ok_iff.mp hx
      cases hx
      exact operate_kind hy

private theorem rdHeader_op {dir op : Nat} {src dst : Int} {n : Nat} {rest : Bytes} {h : Header × Bytes} (hop : op < 256 ^ 4)
    (he : rdHeader (packHeader dir op src dst n ++ rest) = .ok h) : h.1.op = op := by
  unfold rdHeader packHeader at he
  simp only [List.append_assoc] at he
  obtain ⟨a, ha, he⟩ := ok_iff.mp he
  obtain ⟨b, hb, he⟩ := ok_iff.mp he
  obtain ⟨c, -, he⟩ := ok_iff.mp he
  obtain ⟨d, -, he⟩ := ok_iff.mp he
  obtain ⟨e, -, he⟩ := ok_iff.mp he
  cases he
  unfold rdNat at ha
  rw [reads_rd' (length_leBytes 4 dir)] at ha
  cases ha
  simp only at hb
  rw [reads_rdNat hop] at hb
  cases hb
  rfl

private theorem rdRes_kind {b : ResBody} {src dst : Int} {rest : Bytes} {res : Res × Bytes} {h : Nat} {n : Nat}
    (he : rdRes h (packHeader dirResponse b.op src dst n ++ rest) = .ok res) : kindRes res.1.body = kindRes b := by
  unfold rdRes at he
  obtain ⟨x, hx, he⟩ := ok_iff.mp he
  have hop : x.1.op = b.op := rdHeader_op (by cases b <;> simp [ResBody.op, opPut, opGet, opGetOp, opDelete, opHistogram]) hx
  simp only [hop] at he
  split at he
  · cases he
  · cases b with
    | put l =>
      rw [if_pos (show (ResBody.put l).op = opPut from rfl)] at he
      obtain ⟨y, -, he⟩ := ok_iff.mp he
      cases he; rfl
    | get l =>
      rw [if_neg (show (ResBody.get l).op ≠ opPut by simp [ResBody.op, opGet, opPut]),
        if_pos (show (ResBody.get l).op = opGet from rfl)] at he
      obtain ⟨y, -, he⟩ := ok_iff.mp he
      cases he; rfl
    | getop l =>
      rw [if_neg (show (ResBody.getop l).op ≠ opPut by simp [ResBody.op, opGetOp, opPut]),
        if_neg (show (ResBody.getop l).op ≠ opGet by simp [ResBody.op, opGetOp, opGet]),
        if_pos (show (ResBody.getop l).op = opGetOp from rfl)] at he
      obtain ⟨y, -, he⟩ := ok_iff.mp he
      cases he; rfl
    | del l =>
      rw [if_neg (show (ResBody.del l).op ≠ opPut by simp [ResBody.op, opDelete, opPut]),
        if_neg (show (ResBody.del l).op ≠ opGet by simp [ResBody.op, opDelete, opGet]),
        if_neg (show (ResBody.del l).op ≠ opGetOp by simp [ResBody.op, opDelete, opGetOp]),
        if_pos (show (ResBody.del l).op = opDelete from rfl)] at he
      obtain ⟨y, -, he⟩ := ok_iff.mp he
      cases he; rfl
    | hist l =>
      rw [if_neg (show (ResBody.hist l).op ≠ opPut by simp [ResBody.op, opHistogram, opPut]),
        if_neg (show (ResBody.hist l).op ≠ opGet by simp [ResBody.op, opHistogram, opGet]),
        if_neg (show (ResBody.hist l).op ≠ opGetOp by simp [ResBody.op, opHistogram, opGetOp]),
        if_neg (show (ResBody.hist l).op ≠ opDelete by simp [ResBody.op, opHistogram, opDelete]),
        if_pos (show (ResBody.hist l).op = opHistogram from rfl)] at he
      obtain ⟨y, -, he⟩ := ok_iff.mp he
      cases he; rfl

theorem deliver_kind {net : Net} {w w' : World} {x : Send} {res : Res} (hreq : SendableReq x.req)
    (h : deliver net (World.serve cb heap) w x = .ok (w', some res)) : kindRes res.body = kindOf x.req.body := by
  unfold deliver at h
  split at h
  · unfold remoteServe at h
    rw [reads_req net.heap x.req hreq] at h
    simp only at h
    obtain ⟨y, hy, h⟩ := ok_iff.mp h
    obtain ⟨b, hb, h⟩ := ok_iff.mp h
    have h1 : kindRes y.2.body = kindOf (arrivedReqBody net.heap x.req.body) :=
      serve_kind (show World.serve cb heap w x.rank (arrivedReq net.heap x.req) = .ok (y.1, y.2) from hy)
    have h2 : kindOf (arrivedReqBody net.heap x.req.body) = kindOf x.req.body := by cases x.req.body <;> rfl
    rw [← h2, ← h1]
    unfold Res.pack at hb
    obtain ⟨c, -, hb⟩ := ok_iff.mp hb
    cases hb
    split at h
    · rename_i r rest hr
      cases h
      rw [List.append_assoc] at hr
      exact rdRes_kind hr
    · cases h
    · cases h
  · obtain ⟨y, hy, h⟩ := ok_iff.mp h
    cases h
    exact serve_kind hy

theorem push_items (r : Results) (l : List Result) : (r.push l).items = r.items ++ l := by
  unfold Results.push
  split
  · rename_i h; rw [List.isEmpty_iff] at h; rw [h, List.append_nil]
  · rfl

theorem append_items (r r' : Results) : (r.append r').1.items = r.items ++ r'.items := push_items r r'.items

theorem foldl_items {β : Type} (f : β → Result) (l : List β) (r : Results) :
    (l.foldl (fun r x => r.add [f x]) r).items = r.items ++ l.map f := by
  induction l generalizing r with
  | nil => simp
  | cons x l ih => rw [List.foldl_cons, ih, Results.add, push_items]; simp

private theorem addGetOps_kind {src : Int} {l : List GetOpRes} {r r' : Results} (h : addGetOps src l r = .ok r')
    (hr : ∀ x ∈ r.items, x.kind = .getop) : ∀ x ∈ r'.items, x.kind = .getop := by
  induction l generalizing r with
  | nil => cases h; exact hr
  | cons y l ih =>
    simp only [addGetOps] at h
    obtain ⟨c, hc, h⟩ := ok_iff.mp h
    refine ih h ?_
    intro x hx
    rw [Results.add, push_items] at hx
    rcases List.mem_append.mp hx with hx | hx
    · exact hr x hx
    · unfold initGetOp at hc
      split at hc
      · cases hc
      · cases hc
        obtain ⟨z, -, rfl⟩ := List.mem_map.mp hx
        unfold initRec
        simp only
        split <;> rfl

theorem addAll_kind {rs : List Res} {r r' : Results} {K : Kind} (h : addAll rs r = .ok r')
    (hk : ∀ res ∈ rs, kindRes res.body = K) (hr : ∀ x ∈ r.items, x.kind = K) : ∀ x ∈ r'.items, x.kind = K := by
  induction rs generalizing r with
  | nil => cases h; exact hr
  | cons res rs ih =>
    simp only [addAll] at h
    obtain ⟨c, hc, h⟩ := ok_iff.mp h
    refine ih h (fun x hx => hk x (by simp [hx])) ?_
    have hres := hk res (by simp)
    obtain ⟨src, dst, body⟩ := res
    cases body with
    | getop m => cases hres; exact addGetOps_kind hc hr
    | put m =>
      cases hres
      cases hc
      intro x hx
      rw [foldl_items] at hx
      rcases List.mem_append.mp hx with hx | hx
      · exact hr x hx
      · obtain ⟨z, -, rfl⟩ := List.mem_map.mp hx; rfl
    | get m =>
      cases hres
      cases hc
      intro x hx
      rw [foldl_items] at hx
      rcases List.mem_append.mp hx with hx | hx
      · exact hr x hx
      · obtain ⟨z, -, rfl⟩ := List.mem_map.mp hx
        unfold initGet
        simp only
        split <;> rfl
    | del m =>
      cases hres
      cases hc
      intro x hx
      rw [foldl_items] at hx
      rcases List.mem_append.mp hx with hx | hx
      · exact hr x hx
      · obtain ⟨z, -, rfl⟩ := List.mem_map.mp hx; rfl
    | hist m =>
      cases hres
      cases hc
      intro x hx
      rw [foldl_items] at hx
      rcases List.mem_append.mp hx with hx | hx
      · exact hr x hx
      · obtain ⟨z, -, rfl⟩ := List.mem_map.mp hx
        unfold initHist
        simp only
        split <;> rfl

theorem addAll_gets {rs : List Res} {r r' : Results} (h : addAll rs r = .ok r')
    (f : Res → List GetRes) (hk : ∀ res ∈ rs, res.body = .get (f res)) :
    r'.items = r.items ++ rs.flatMap (fun res => (f res).map (initGet res.src)) := by
  induction rs generalizing r with
  | nil => cases h; simp
  | cons res rs ih =>
    simp only [addAll] at h
    obtain ⟨c, hc, h⟩ := ok_iff.mp h
    rw [ih h (fun x hx => hk x (by simp [hx]))]
    unfold addResponse at hc
    rw [hk res (by simp)] at hc
    cases hc
    rw [foldl_items]
    simp

/-! ## Deliveries -/

/-- A delivery of a packet the queues of a job can hold. -/
structure Fine (cb : Callbacks) (t : Transform) (hash : Bytes → Bytes → Out Int) (place : List Int) (h : Nat)
    (x : Send) : Prop where
  req : SendableReq x.req
  client : ClientReq cb h x.req.body
  body : BodyOk cb t x.req.body
  dst : ∃ ds : Nat, x.req.dst = ds ∧ place[ds]? = some x.rank ∧
    ∀ e ∈ events t.accepts x.req.body, hv hash (evPair e) = some ds ∧ EvOk t e

theorem deliver_serve {net : Net} {w w' : World} {x : Send} {o : Option Res} (hreq : SendableReq x.req)
    (hc : ClientReq cb net.heap x.req.body) (h : deliver net (World.serve cb heap) w x = .ok (w', o)) :
    ∃ res, World.serve cb heap w x.rank x.req = .ok (w', res) := by
  unfold deliver at h
  split at h
  · exact C31_same_failures cb heap net w x.rank x.req hreq hc _ h
  · obtain ⟨y, hy, h⟩ := ok_iff.mp h
    cases h
    exact ⟨y.2, hy⟩

theorem deliverAll_holds {net : Net} (l : List Send) {w w' : World} {H : List Ev} {rs : List Res}
    (hw : Holds cb t hash place w H) (hl : ∀ x ∈ l, Fine cb t hash place net.heap x)
    (h : deliverAll (deliver net (World.serve cb heap)) l w = .ok (w', rs)) :
    Holds cb t hash place w' (H ++ l.flatMap (fun x => events t.accepts x.req.body)) := by
  induction l generalizing w H rs with
  | nil => cases h; simpa using hw
  | cons x l ih =>
    simp only [deliverAll] at h
    obtain ⟨y, hy, h⟩ := ok_iff.mp h
    obtain ⟨z, hz, h⟩ := ok_iff.mp h
    cases h
    have hx := hl x (by simp)
    obtain ⟨res, hs⟩ := deliver_serve hx.req hx.client (show deliver net (World.serve cb heap) w x = .ok (y.1, y.2) from hy)
    obtain ⟨ds, h1, h2, h3⟩ := hx.dst
    have := ih (serve_holds ds hw h1 h2 hx.body h3 hs) (fun u hu => hl u (by simp [hu])) hz
    rw [List.flatMap_cons, ← List.append_assoc]
    exact this

theorem deliverAll_kinds {net : Net} (l : List Send) {w w' : World} {rs : List Res} {K : Kind}
    (hl : ∀ x ∈ l, SendableReq x.req ∧ kindOf x.req.body = K)
    (h : deliverAll (deliver net (World.serve cb heap)) l w = .ok (w', rs)) : ∀ res ∈ rs, kindRes res.body = K := by
  induction l generalizing w rs with
  | nil => cases h; simp
  | cons x l ih =>
    simp only [deliverAll] at h
    obtain ⟨y, hy, h⟩ := ok_iff.mp h
    obtain ⟨z, hz, h⟩ := ok_iff.mp h
    cases h
    intro res hr
    rcases List.mem_append.mp hr with hr | hr
    · rw [Option.mem_toList] at hr
      obtain ⟨h1, h2⟩ := hl x (by simp)
      rw [← h2]
      exact deliver_kind h1 (show deliver net (World.serve cb heap) w x = .ok (y.1, some res) by
        rw [hy]; congr 1; rw [← (show y.2 = some res from hr)])
    · exact ih (fun u hu => hl u (by simp [hu])) hz res hr

/-- The GETs of a request. -/
def getsIn : ReqBody → List GetItem
  | .get l => l
  | _ => []

/-- The entries of a response to GETs. -/
def getsOut (res : Res) : List GetRes :=
  match res.body with
  | .get l => l
  | _ => []

/-- The right entry for a GET. -/
def Right (t : Transform) (H : List Ev) (x : GetItem) (r : GetRes) : Prop :=
  r.subject = ⟨x.subject.addr, x.subject.bytes.length, x.subject.typ⟩ ∧
  r.predicate = ⟨x.predicate.addr, x.predicate.bytes.length, x.predicate.typ⟩ ∧ Answers t H x r

private theorem right_same {H : List Ev} {l : List GetItem} {rs rs' : List GetRes}
    (h : List.Forall₂ (Right t H) l rs) (hs : List.Forall₂ SameGetRes rs rs') : List.Forall₂ (Right t H) l rs' := by
  induction h generalizing rs' with
  | nil => cases hs; exact .nil
  | @cons x r l rs hxr _ ih =>
    obtain ⟨r', m, h1, h2, rfl⟩ := List.forall₂_cons_left_iff.mp hs
    refine .cons ?_ (ih h2)
    obtain ⟨a1, a2, a3⟩ := hxr
    obtain ⟨b1, b2, b3, b4⟩ := h1
    refine ⟨b2.symm.trans a1, b3.symm.trans a2, ?_⟩
    unfold Answers at a3 ⊢
    split
    · rename_i o ho
      rw [ho] at a3
      obtain ⟨c1, c2⟩ := a3
      obtain ⟨d1, d2⟩ := b4 c1
      refine ⟨b1.symm.trans c1, ?_⟩
      rw [← c2]
      simp only [Blob.val, d1, d2]
    · rename_i ho
      rw [ho] at a3
      exact b1.symm.trans a3

private theorem right_of {h : Nat} {H : List Ev} {l : List GetItem} {rs : List GetRes}
    (hc : ClientReq cb h (.get l)) (hm : Matches (.get l) (.get rs)) (ha : List.Forall₂ (fun x r => Answers t H x r) l rs) :
    List.Forall₂ (Right t H) l rs := by
  have hm' : List.Forall₂ _ l rs := hm
  clear hm
  induction hm' with
  | nil => exact .nil
  | @cons x r l rs hxr _ ih =>
    obtain ⟨a1, a2⟩ := List.forall₂_cons.mp ha
    obtain ⟨c1, c2, -⟩ := hc x (by simp)
    refine .cons ⟨?_, ?_, a1⟩ (ih (fun z hz => hc z (by simp [hz])) a2)
    · rw [hxr.1, c1]
    · rw [hxr.2, c2]

theorem deliverAll_gets {net : Net} (hheap : heap ≠ 0) (hheap' : heap < 2 ^ 64) (hh : net.heap ≠ 0) (hh' : net.heap < 2 ^ 64)
    (l : List Send) {w w' : World} {H : List Ev} {rs : List Res}
    (hw : Stores cb t hash place w H) (hl : ∀ x ∈ l, Fine cb t hash place net.heap x ∧ ∃ g, x.req.body = .get g ∧
      ∀ y ∈ g, KeyOk cb t y.subject ∧ KeyOk cb t y.predicate ∧ ∃ ds : Nat, x.req.dst = ds ∧ home hash y.subject y.predicate = some ds)
    (h : deliverAll (deliver net (World.serve cb heap)) l w = .ok (w', rs)) :
    (∀ res ∈ rs, res.body = .get (getsOut res)) ∧
    List.Forall₂ (Right t H) (l.flatMap (fun x => getsIn x.req.body)) (rs.flatMap getsOut) := by
  induction l generalizing w rs with
  | nil => cases h; exact ⟨by simp, .nil⟩
  | cons x l ih =>
    simp only [deliverAll] at h
    obtain ⟨y, hy, h⟩ := ok_iff.mp h
    obtain ⟨z, hz, h⟩ := ok_iff.mp h
    cases h
    obtain ⟨hx, g, hg, hgk⟩ := hl x (by simp)
    have hy' : deliver net (World.serve cb heap) w x = .ok (y.1, y.2) := hy
    obtain ⟨res, hs⟩ := deliver_serve hx.req hx.client hy'
    obtain ⟨ds, h1, h2, h3⟩ := hx.dst
    have hnew := serve_stores ds hw h1 h2 [] (fun d d' h i u ho => by
      obtain ⟨b1, b2, -⟩ := operate_inv i u hx.body ho
      rw [hg] at b1
      exact ⟨by simpa [events] using b1, b2⟩) (by simp) hs
    rw [List.append_nil] at hnew
    obtain ⟨i1, i2⟩ := ih hnew (fun u hu => hl u (by simp [hu])) hz
    obtain ⟨es, e1, e2⟩ := serve_get ds hw h1 h2 hg (fun u hu => by
      obtain ⟨k1, k2, ds', k3, k4⟩ := hgk u hu
      rw [h1] at k3
      have : ds = ds' := by omega
      subst this
      exact ⟨k1, k2, k4⟩) hs
    obtain ⟨hsrc, hm⟩ := serve_matches hw.usable hs
    rw [hg, e1] at hm
    have hc := hx.client
    rw [hg] at hc
    have hright := right_of hc hm e2
    have hsend : SendableRes res := (safe_gets cb heap net.heap hheap hheap' w y.1 x.rank x.req res hw.readable
      ⟨hx.req.2.2.1, hx.req.2.2.2, hx.client, g, hg⟩ hx.req.1 hx.req.2.1 hs).2
    have harr : ∃ res', y.2 = some res' ∧ ∃ es', res'.body = .get es' ∧ List.Forall₂ (Right t H) g es' := by
      unfold deliver at hy'
      split at hy'
      · have hk : FailsWithKey x.req.body res.body := by rw [hg]; exact True.intro
        obtain ⟨res', hr, hsame⟩ := C31_same_results_partial cb heap net w y.1 x.rank x.req res hh hh' hx.req hx.client hs hsend hk
        rw [hy'] at hr
        have hr2 : y.2 = some res' := congrArg Prod.snd (Out.ok.inj hr)
        refine ⟨res', hr2, ?_⟩
        obtain ⟨-, -, hb⟩ := hsame
        rw [e1] at hb
        cases hb' : res'.body with
        | get es' => rw [hb'] at hb; exact ⟨es', rfl, right_same hright hb⟩
        | put _ => rw [hb'] at hb; exact hb.elim
        | getop _ => rw [hb'] at hb; exact hb.elim
        | del _ => rw [hb'] at hb; exact hb.elim
        | hist _ => rw [hb'] at hb; exact hb.elim
      · obtain ⟨u, hu, hy'⟩ := ok_iff.mp hy'
        rw [hs] at hu
        cases hu
        have hr2 : y.2 = some res := (congrArg Prod.snd (Out.ok.inj hy')).symm
        exact ⟨res, hr2, es, e1, hright⟩
    obtain ⟨res', hr, es', he, hR⟩ := harr
    have hout : getsOut res' = es' := by unfold getsOut; rw [he]
    have hin : getsIn x.req.body = g := by rw [hg]; rfl
    rw [hr]
    refine ⟨?_, ?_⟩
    · intro r hrm
      rcases List.mem_append.mp hrm with hrm | hrm
      · simp only [Option.toList_some, List.mem_singleton] at hrm
        subst hrm
        rw [hout]; exact he
      · exact i1 r hrm
    · simp only [Option.toList_some, List.singleton_append, List.flatMap_cons, hout, hin]
      exact List.rel_append hR i2

/-! ## Packets -/

theorem sent_packet {α : Type} {net : Net} {mk : List α → ReqBody} {qs : List (List (List α))} {l : List Send}
    (h : Delivers net mk qs l) {x : Send} (hx : x ∈ l) :
    ∃ ds : Nat, ds < qs.length ∧ x.req.dst = ds ∧ net.dsToRank[ds]? = some x.rank ∧
      ∃ pk, x.req.body = mk pk ∧ pk ∈ qs.getD ds [] ∧ ∀ y ∈ pk, y ∈ Spec.queued qs ds := by
  obtain ⟨-, ds, h1, h2, h3, -⟩ := h.place x hx
  refine ⟨ds, h1, h2, h3, ?_⟩
  have : x.req.body ∈ sentTo l ds := by
    unfold sentTo
    rw [List.mem_map]
    exact ⟨x, List.mem_filter.mpr ⟨hx, by simp [h2]⟩, rfl⟩
  rw [h.packets ds] at this
  obtain ⟨pk, hpk, he⟩ := List.mem_map.mp this
  exact ⟨pk, he.symm, hpk, fun y hy => List.mem_flatten.mpr ⟨pk, hpk, hy⟩⟩

theorem filter_sent {β : Type} (f : ReqBody → List β) (key : β → Option Nat) (ds : Nat) (l : List Send)
    (hk : ∀ x ∈ l, ∀ y ∈ f x.req.body, ∃ d : Nat, x.req.dst = d ∧ key y = some d) :
    (l.flatMap (fun x => f x.req.body)).filter (fun y => decide (key y = some ds)) = (sentTo l ds).flatMap f := by
  induction l with
  | nil => rfl
  | cons x l ih =>
    rw [List.flatMap_cons, List.filter_append, ih (fun z hz => hk z (by simp [hz]))]
    unfold sentTo
    by_cases hx : x.req.dst = ds
    · rw [List.filter_cons_of_pos (by simp [hx]), List.map_cons, List.flatMap_cons]
      congr 1
      rw [List.filter_eq_self]
      intro y hy
      obtain ⟨d, h1, h2⟩ := hk x (by simp) y hy
      have : d = ds := by omega
      simp [h2, this]
    · rw [List.filter_cons_of_neg (by simp [hx])]
      have : (f x.req.body).filter (fun y => decide (key y = some ds)) = [] := by
        rw [List.filter_eq_nil_iff]
        intro y hy
        obtain ⟨d, h1, h2⟩ := hk x (by simp) y hy
        rw [h2]
        intro hc
        simp only [decide_eq_true_eq, Option.some.injEq] at hc
        subst hc
        exact hx h1
      rw [this, List.nil_append]

theorem packets_flat {α β : Type} {net : Net} {mk : List α → ReqBody} {qs : List (List (List α))} {l : List Send}
    (h : Delivers net mk qs l) (f : ReqBody → List β) (g : List α → List β) (hf : ∀ pk, f (mk pk) = g pk) (h0 : g [] = [])
    (ha : ∀ a b, g (a ++ b) = g a ++ g b) (ds : Nat) : (sentTo l ds).flatMap f = g (Spec.queued qs ds) := by
  rw [h.packets ds]
  unfold packetsFor Spec.queued
  induction qs.getD ds [] with
  | nil => simp [h0]
  | cons pk L ih => rw [List.map_cons, List.flatMap_cons, List.flatten_cons, ha, ih, hf]

/-! ### Operations of one kind -/

theorem mem_putsFor {ds : Nat} {l : List Op} {y : PutItem} (h : y ∈ putsFor hash ds l) :
    ∃ s p o, Op.put s p o ∈ l ∧ home hash s p = some ds ∧ y = ⟨s, s.addr, p, p.addr, o⟩ := by
  obtain ⟨x, hx, he⟩ := List.mem_filterMap.mp h
  obtain ⟨h1, h2⟩ := List.mem_filter.mp hx
  cases x <;> simp only [Option.some.injEq] at he <;> try cases he
  exact ⟨_, _, _, h1, of_decide_eq_true h2, rfl⟩

private theorem mem_getsFor {ds : Nat} {l : List Op} {y : GetItem} (h : y ∈ getsFor hash ds l) :
    ∃ s p n, Op.get s p n ∈ l ∧ home hash s p = some ds ∧ y = ⟨s, s.addr, p, p.addr, n⟩ := by
  obtain ⟨x, hx, he⟩ := List.mem_filterMap.mp h
  obtain ⟨h1, h2⟩ := List.mem_filter.mp hx
  cases x <;> simp only [Option.some.injEq] at he <;> try cases he
  exact ⟨_, _, _, h1, of_decide_eq_true h2, rfl⟩

theorem mem_getopsFor {ds : Nat} {l : List Op} {y : GetOpItem} (h : y ∈ getopsFor hash ds l) :
    Op.getop y.op y.subject y.predicate y.objType y.numRecs ∈ l := by
  obtain ⟨x, hx, he⟩ := List.mem_filterMap.mp h
  obtain ⟨h1, h2⟩ := List.mem_filter.mp hx
  cases x <;> simp only [Option.some.injEq] at he <;> try cases he
  exact h1

private theorem mem_delsFor {ds : Nat} {l : List Op} {y : DelItem} (h : y ∈ delsFor hash ds l) :
    ∃ s p, Op.del s p ∈ l ∧ home hash s p = some ds ∧ y = ⟨s, s.addr, p, p.addr⟩ := by
  obtain ⟨x, hx, he⟩ := List.mem_filterMap.mp h
  obtain ⟨h1, h2⟩ := List.mem_filter.mp hx
  cases x <;> simp only [Option.some.injEq] at he <;> try cases he
  exact ⟨_, _, h1, of_decide_eq_true h2, rfl⟩

theorem mem_histsFor {ds : Nat} {l : List Op} {y : Blob} (h : y ∈ histsFor hash ds l) :
    ∃ rs, Op.hist rs y ∈ l := by
  obtain ⟨x, hx, he⟩ := List.mem_filterMap.mp h
  obtain ⟨h1, h2⟩ := List.mem_filter.mp hx
  cases x <;> simp only [Option.some.injEq] at he <;> try cases he
  exact ⟨_, h1⟩

theorem puts_filter (a : Val → Bool) (ds : Nat) (l : List Op) :
    events a (.put (putsFor hash ds l)) = (storedPuts a l).filter (fun e => decide (hv hash (evPair e) = some ds)) := by
  induction l with
  | nil => rfl
  | cons x l ih =>
    unfold putsFor storedPuts at ih ⊢
    cases x with
    | put s p o =>
      by_cases hh : home hash s p = some ds <;>
        by_cases ha : (a s.val && a p.val && a o.val) = true <;>
        simp_all [events, dest, evPair, hv_val]
    | hist rs name =>
      by_cases hd : dest hash (Op.hist rs name) = some ds <;> simp_all [List.filterMap_cons]
    | get s p n =>
      by_cases hd : dest hash (Op.get s p n) = some ds <;> simp_all [List.filterMap_cons]
    | getop op s p n m =>
      by_cases hd : dest hash (Op.getop op s p n m) = some ds <;> simp_all [List.filterMap_cons]
    | del s p =>
      by_cases hd : dest hash (Op.del s p) = some ds <;> simp_all [List.filterMap_cons]

theorem dels_filter (a : Val → Bool) (ds : Nat) (l : List Op) :
    events a (.del (delsFor hash ds l)) = (storedDels a l).filter (fun e => decide (hv hash (evPair e) = some ds)) := by
  induction l with
  | nil => rfl
  | cons x l ih =>
    unfold delsFor storedDels at ih ⊢
    cases x with
    | del s p =>
      by_cases hh : home hash s p = some ds <;>
        by_cases ha : (a s.val && a p.val) = true <;>
        simp_all [events, dest, evPair, hv_val]
    | hist rs name =>
      by_cases hd : dest hash (Op.hist rs name) = some ds <;> simp_all [List.filterMap_cons]
    | get s p n =>
      by_cases hd : dest hash (Op.get s p n) = some ds <;> simp_all [List.filterMap_cons]
    | getop op s p n m =>
      by_cases hd : dest hash (Op.getop op s p n m) = some ds <;> simp_all [List.filterMap_cons]
    | put s p o =>
      by_cases hd : dest hash (Op.put s p o) = some ds <;> simp_all [List.filterMap_cons]

/-- The GETs as they are queued. -/
def getItems (l : List Op) : List GetItem :=
  l.filterMap (fun | .get s p n => some ⟨s, s.addr, p, p.addr, n⟩ | _ => none)

theorem gets_filter (ds : Nat) (l : List Op) :
    getsFor hash ds l = (getItems l).filter (fun y => decide (home hash y.subject y.predicate = some ds)) := by
  induction l with
  | nil => rfl
  | cons x l ih =>
    unfold getsFor getItems at ih ⊢
    cases x with
    | get s p n =>
      by_cases hh : home hash s p = some ds <;> simp_all [dest, List.filterMap_cons]
    | hist rs name =>
      by_cases hd : dest hash (Op.hist rs name) = some ds <;> simp_all [List.filterMap_cons]
    | put s p o =>
      by_cases hd : dest hash (Op.put s p o) = some ds <;> simp_all [List.filterMap_cons]
    | getop op s p n m =>
      by_cases hd : dest hash (Op.getop op s p n m) = some ds <;> simp_all [List.filterMap_cons]
    | del s p =>
      by_cases hd : dest hash (Op.del s p) = some ds <;> simp_all [List.filterMap_cons]

/-- Operations without datastore are never queued. -/
theorem ops_dest (servers : Nat) (c : Queue.Call) : ∀ o ∈ ops hash servers c, (dest hash o).isSome := by
  have hput : ∀ a, ∀ o ∈ putOps hash a, (dest hash o).isSome := by
    intro a o ho
    obtain ⟨x, hx, rfl⟩ := List.mem_map.mp ho
    exact List.all_eq_true.mp List.all_takeWhile x hx
  have hplaced : ∀ y, ∀ o ∈ placed hash y, (dest hash o).isSome := by
    intro y o ho
    unfold placed at ho
    split at ho
    · rename_i h; rw [List.mem_singleton] at ho; subst ho; exact h
    · cases ho
  intro o ho
  cases c with
  | put a => simp only [ops] at ho; split at ho; exacts [hput _ _ ho, by cases ho]
  | get a => simp only [ops] at ho; split at ho; exacts [hplaced _ _ ho, by cases ho]
  | getop a => simp only [ops] at ho; split at ho; exacts [hplaced _ _ ho, by cases ho]
  | del a => simp only [ops] at ho; split at ho; exacts [hplaced _ _ ho, by cases ho]
  | hist a =>
    simp only [ops] at ho
    split at ho
    · rw [List.mem_singleton] at ho; subst ho; rfl
    · cases ho
  | bput arr l =>
    simp only [ops] at ho
    split at ho
    · obtain ⟨a, -, ha⟩ := List.mem_flatMap.mp ho; exact hput _ _ ha
    · cases ho
  | bget arr l =>
    simp only [ops] at ho
    split at ho
    · obtain ⟨a, -, ha⟩ := List.mem_flatMap.mp ho; exact hplaced _ _ ha
    · cases ho
  | bgetop arr l =>
    simp only [ops] at ho
    split at ho
    · obtain ⟨a, -, ha⟩ := List.mem_flatMap.mp ho; exact hplaced _ _ ha
    · cases ho
  | bdel arr l =>
    simp only [ops] at ho
    split at ho
    · obtain ⟨a, -, ha⟩ := List.mem_flatMap.mp ho; exact hplaced _ _ ha
    · cases ho
  | bhist arr l =>
    simp only [ops] at ho
    split at ho
    · obtain ⟨a, -, rfl⟩ := List.mem_map.mp ho; rfl
    · cases ho

/-! ## One turn -/

theorem phase {net : Net} {w : World} {α : Type} (mk : List α → ReqBody) (qs : List (List (List α)))
    (hR : Routed net qs.length) {x : World × Results × List (List (List α))}
    (h : process net (World.serve cb heap) mk w qs = .ok x) :
    ∃ l rs, Delivers net mk qs l ∧ deliverAll (deliver net (World.serve cb heap)) l w = .ok (x.1, rs) ∧
      addAll rs Results.create = .ok x.2.1 := by
  obtain ⟨l, hl, hall⟩ := C29_flush_partial net mk qs hR
  obtain ⟨-, rs, h1, h2⟩ := (hall (World.serve cb heap) w x.1 x.2.1 x.2.2).mp h
  exact ⟨l, rs, hl, h1, h2⟩

theorem returned {H : List Ev} {g : GetItem} {r : GetRes} (src : Int) (h : Right t H g r) :
    Returned t H (g.subject, g.predicate) (initGet src r) := by
  obtain ⟨h1, h2, h3⟩ := h
  unfold Answers at h3
  constructor
  · unfold initGet; simp only; split <;> rfl
  · rw [← h1]; unfold initGet; simp only; split <;> rfl
  · rw [← h2]; unfold initGet; simp only; split <;> rfl
  · intro o ho
    rw [ho] at h3
    obtain ⟨a1, a2⟩ := h3
    have hs : (Result.create .get src r.status).status = hxSuccess := by simp [Result.create, a1]
    have hb : r.object.bytes = t.R o ∧ r.object.typ = o.typ := by
      simp only [Blob.val, Val.mk.injEq] at a2; exact a2
    have he : initGet src r = { Result.create .get src r.status with
        subject := .ref r.subject, predicate := .ref r.predicate, object := .own r.object } := by
      unfold initGet; exact if_pos hs
    rw [he]
    exact ⟨hs, _, rfl, hb.1, hb.2⟩
  · intro ho
    rw [ho] at h3
    have hs : (Result.create .get src r.status).status = hxError := by
      rw [show r.status = dsError from h3]; rfl
    unfold initGet
    simp only
    split <;> exact hs

/-- What the queues hold before the flush. -/
theorem queue_facts {x : Turn} {q : Queue.Queues} (hx : TurnOk cb t hash place x)
    (hq : Queue.calls x.cfg true (Queue.Queues.init place.length) x.calls = .ok q) :
    ((∀ ds, Spec.queued q.puts ds = putsFor hash ds (turnOps hash x)) ∧
      (∀ ds, Spec.queued q.gets ds = getsFor hash ds (turnOps hash x)) ∧
      (∀ ds, Spec.queued q.getops ds = getopsFor hash ds (turnOps hash x)) ∧
      (∀ ds, Spec.queued q.dels ds = delsFor hash ds (turnOps hash x)) ∧
      ∀ ds, Spec.queued q.hists ds = histsFor hash ds (turnOps hash x)) ∧ Sized place.length q := by
  have hstep := Queue.calls_ok _ _ _ hq
  have hext := hstep.ext
  rw [hx.sameHash] at hext
  change Extends hash (turnOps hash x) _ _ at hext
  refine ⟨⟨fun ds => ?_, fun ds => ?_, fun ds => ?_, fun ds => ?_, fun ds => ?_⟩, hstep.sized _ (Queue.sized_init _)⟩
  · rw [hext.puts ds]; simp only [Queue.Queues.init, Queue.queued_init, List.nil_append]
  · rw [hext.gets ds]; simp only [Queue.Queues.init, Queue.queued_init, List.nil_append]
  · rw [hext.getops ds]; simp only [Queue.Queues.init, Queue.queued_init, List.nil_append]
  · rw [hext.dels ds]; simp only [Queue.Queues.init, Queue.queued_init, List.nil_append]
  · rw [hext.hists ds]; simp only [Queue.Queues.init, Queue.queued_init, List.nil_append]

theorem fine_puts (hp31 : place.length ≤ 2 ^ 31) {x : Turn} {q : Queue.Queues} (hx : TurnOk cb t hash place x)
    (hq : Queue.calls x.cfg true (Queue.Queues.init place.length) x.calls = .ok q) {l : List Send}
    (hd : Delivers x.net .put q.puts l) : ∀ s ∈ l, Fine cb t hash place x.net.heap s ∧ kindOf s.req.body = .put := by
  obtain ⟨⟨qp, qg, qo, qd, qh⟩, z1, z2, z3, z4, z5⟩ := queue_facts hx hq
  have hpl := C27_packet_length _ _ _ _ hq
  have hop := hx.operations
  have hmax := hx.maxOps
  have hint : ∀ ds : Nat, ds < place.length → IntRange (ds : Int) := by
    intro ds h; unfold IntRange; omega
  intro s hs
  obtain ⟨ds, e1, e2, e3, pk, e4, e5, e6⟩ := sent_packet hd hs
  rw [z1] at e1
  rw [hx.samePlace] at e3
  have items : ∀ u ∈ pk, ∃ s p o, Op.put s p o ∈ (turnOps hash x) ∧ home hash s p = some ds ∧ u = ⟨s, s.addr, p, p.addr, o⟩ :=
    fun u hu => mem_putsFor (by rw [← qp]; exact e6 u hu)
  have hcount : (ReqBody.put pk).count < 2 ^ 64 := by
    have hm : q.puts.getD ds [] ∈ q.puts := by
      rw [List.getD_eq_getElem?_getD, List.getElem?_eq_getElem (by omega)]
      exact List.getElem_mem _
    have := (hpl.puts _ hm _ e5).2
    omega
  refine ⟨⟨⟨by rw [(hd.place s hs).1]; exact hx.rank, by rw [e2]; exact hint ds e1, by rw [e4]; exact hcount, ?_⟩, ?_, ?_, ds, e2, e3, ?_⟩, by rw [e4]; rfl⟩
  · rw [e4]
    intro u hu
    obtain ⟨s, p, o, m1, m2, rfl⟩ := items u hu
    obtain ⟨-, ⟨k1, k2, k3⟩, -⟩ := hop _ m1
    exact ⟨k1.1, k2.1, k3.1⟩
  · rw [e4]
    intro u hu
    obtain ⟨s, p, o, m1, m2, rfl⟩ := items u hu
    obtain ⟨-, ⟨k1, k2, k3⟩, -⟩ := hop _ m1
    exact ⟨rfl, rfl, k1.2, k2.2, k3.2⟩
  · rw [e4]
    intro u hu
    obtain ⟨s, p, o, m1, m2, rfl⟩ := items u hu
    exact (hop _ m1).1
  · rw [e4]
    intro e he
    obtain ⟨u, hu, rfl⟩ := List.mem_map.mp he
    obtain ⟨s, p, o, m1, m2, rfl⟩ := items u (List.mem_of_mem_filter hu)
    obtain ⟨-, -, k⟩ := hop _ m1
    exact ⟨m2, k⟩

theorem fine_gets (hp31 : place.length ≤ 2 ^ 31) {x : Turn} {q : Queue.Queues} (hx : TurnOk cb t hash place x)
    (hq : Queue.calls x.cfg true (Queue.Queues.init place.length) x.calls = .ok q) {l : List Send}
    (hd : Delivers x.net .get q.gets l) : ∀ s ∈ l, (Fine cb t hash place x.net.heap s ∧ kindOf s.req.body = .get) ∧ ∃ g, s.req.body = .get g ∧
      ∀ y ∈ g, y ∈ getItems (turnOps hash x) ∧ KeyOk cb t y.subject ∧ KeyOk cb t y.predicate ∧
        ∃ ds : Nat, s.req.dst = ds ∧ home hash y.subject y.predicate = some ds := by
  obtain ⟨⟨qp, qg, qo, qd, qh⟩, z1, z2, z3, z4, z5⟩ := queue_facts hx hq
  have hpl := C27_packet_length _ _ _ _ hq
  have hop := hx.operations
  have hmax := hx.maxOps
  have hint : ∀ ds : Nat, ds < place.length → IntRange (ds : Int) := by
    intro ds h; unfold IntRange; omega
  intro s hs
  obtain ⟨ds, e1, e2, e3, pk, e4, e5, e6⟩ := sent_packet hd hs
  rw [z2] at e1
  rw [hx.samePlace] at e3
  have items : ∀ u ∈ pk, ∃ s p n, Op.get s p n ∈ (turnOps hash x) ∧ home hash s p = some ds ∧ u = ⟨s, s.addr, p, p.addr, n⟩ :=
    fun u hu => mem_getsFor (by rw [← qg]; exact e6 u hu)
  have hcount : (ReqBody.get pk).count < 2 ^ 64 := by
    have hm : q.gets.getD ds [] ∈ q.gets := by
      rw [List.getD_eq_getElem?_getD, List.getElem?_eq_getElem (by omega)]
      exact List.getElem_mem _
    have := (hpl.gets _ hm _ e5).2
    omega
  refine ⟨⟨⟨⟨by rw [(hd.place s hs).1]; exact hx.rank, by rw [e2]; exact hint ds e1, by rw [e4]; exact hcount, ?_⟩, ?_, ?_, ds, e2, e3, ?_⟩, by rw [e4]; rfl⟩, pk, e4, ?_⟩
  · rw [e4]
    intro u hu
    obtain ⟨s, p, n, m1, m2, rfl⟩ := items u hu
    obtain ⟨-, ⟨k1, k2⟩, k3⟩ := hop _ m1
    exact ⟨k1.1, k2.1, k3⟩
  · rw [e4]
    intro u hu
    obtain ⟨s, p, n, m1, m2, rfl⟩ := items u hu
    obtain ⟨-, ⟨k1, k2⟩, -⟩ := hop _ m1
    exact ⟨rfl, rfl, k1.2, k2.2⟩
  · rw [e4]; trivial
  · rw [e4]; intro e he; cases he
  · intro u hu
    obtain ⟨s, p, n, m1, m2, rfl⟩ := items u hu
    obtain ⟨⟨k1, k2⟩, -, -⟩ := hop _ m1
    exact ⟨List.mem_filterMap.mpr ⟨_, m1, rfl⟩, k1, k2, ds, e2, m2⟩

theorem fine_getops (hp31 : place.length ≤ 2 ^ 31) {x : Turn} {q : Queue.Queues} (hx : TurnOk cb t hash place x)
    (hq : Queue.calls x.cfg true (Queue.Queues.init place.length) x.calls = .ok q) {l : List Send}
    (hd : Delivers x.net .getop q.getops l) : ∀ s ∈ l, Fine cb t hash place x.net.heap s ∧ kindOf s.req.body = .getop := by
  obtain ⟨⟨qp, qg, qo, qd, qh⟩, z1, z2, z3, z4, z5⟩ := queue_facts hx hq
  have hpl := C27_packet_length _ _ _ _ hq
  have hop := hx.operations
  have hmax := hx.maxOps
  have hint : ∀ ds : Nat, ds < place.length → IntRange (ds : Int) := by
    intro ds h; unfold IntRange; omega
  intro s hs
  obtain ⟨ds, e1, e2, e3, pk, e4, e5, e6⟩ := sent_packet hd hs
  rw [z3] at e1
  rw [hx.samePlace] at e3
  have items : ∀ u ∈ pk, Op.getop u.op u.subject u.predicate u.objType u.numRecs ∈ (turnOps hash x) :=
    fun u hu => mem_getopsFor (by rw [← qo]; exact e6 u hu)
  have hcount : (ReqBody.getop pk).count < 2 ^ 64 := by
    have hm : q.getops.getD ds [] ∈ q.getops := by
      rw [List.getD_eq_getElem?_getD, List.getElem?_eq_getElem (by omega)]
      exact List.getElem_mem _
    have := (hpl.getops _ hm _ e5).2
    omega
  refine ⟨⟨⟨by rw [(hd.place s hs).1]; exact hx.rank, by rw [e2]; exact hint ds e1, by rw [e4]; exact hcount, ?_⟩, ?_, ?_, ds, e2, e3, ?_⟩, by rw [e4]; rfl⟩
  · rw [e4]
    intro u hu
    obtain ⟨k1, k2, k3, k4⟩ := hop _ (items u hu)
    exact ⟨k2, k3, k4, fun hn => ⟨(k1 hn).1.1, (k1 hn).2.1⟩⟩
  · rw [e4]
    intro u hu hn
    obtain ⟨k1, -⟩ := hop _ (items u hu)
    exact ⟨(k1 hn).1.2, (k1 hn).2.2⟩
  · rw [e4]; trivial
  · rw [e4]; intro e he; cases he

theorem fine_dels (hp31 : place.length ≤ 2 ^ 31) {x : Turn} {q : Queue.Queues} (hx : TurnOk cb t hash place x)
    (hq : Queue.calls x.cfg true (Queue.Queues.init place.length) x.calls = .ok q) {l : List Send}
    (hd : Delivers x.net .del q.dels l) : ∀ s ∈ l, Fine cb t hash place x.net.heap s ∧ kindOf s.req.body = .del := by
  obtain ⟨⟨qp, qg, qo, qd, qh⟩, z1, z2, z3, z4, z5⟩ := queue_facts hx hq
  have hpl := C27_packet_length _ _ _ _ hq
  have hop := hx.operations
  have hmax := hx.maxOps
  have hint : ∀ ds : Nat, ds < place.length → IntRange (ds : Int) := by
    intro ds h; unfold IntRange; omega
  intro s hs
  obtain ⟨ds, e1, e2, e3, pk, e4, e5, e6⟩ := sent_packet hd hs
  rw [z4] at e1
  rw [hx.samePlace] at e3
  have items : ∀ u ∈ pk, ∃ s p, Op.del s p ∈ (turnOps hash x) ∧ home hash s p = some ds ∧ u = ⟨s, s.addr, p, p.addr⟩ :=
    fun u hu => mem_delsFor (by rw [← qd]; exact e6 u hu)
  have hcount : (ReqBody.del pk).count < 2 ^ 64 := by
    have hm : q.dels.getD ds [] ∈ q.dels := by
      rw [List.getD_eq_getElem?_getD, List.getElem?_eq_getElem (by omega)]
      exact List.getElem_mem _
    have := (hpl.dels _ hm _ e5).2
    omega
  refine ⟨⟨⟨by rw [(hd.place s hs).1]; exact hx.rank, by rw [e2]; exact hint ds e1, by rw [e4]; exact hcount, ?_⟩, ?_, ?_, ds, e2, e3, ?_⟩, by rw [e4]; rfl⟩
  · rw [e4]
    intro u hu
    obtain ⟨s, p, m1, m2, rfl⟩ := items u hu
    obtain ⟨-, k1, k2⟩ := hop _ m1
    exact ⟨k1.1, k2.1⟩
  · rw [e4]
    intro u hu
    obtain ⟨s, p, m1, m2, rfl⟩ := items u hu
    obtain ⟨-, k1, k2⟩ := hop _ m1
    exact ⟨rfl, rfl, k1.2, k2.2⟩
  · rw [e4]
    intro u hu
    obtain ⟨s, p, m1, m2, rfl⟩ := items u hu
    exact (hop _ m1).1
  · rw [e4]
    intro e he
    obtain ⟨u, hu, rfl⟩ := List.mem_map.mp he
    obtain ⟨s, p, m1, m2, rfl⟩ := items u (List.mem_of_mem_filter hu)
    exact ⟨m2, trivial⟩

theorem fine_hists (hp31 : place.length ≤ 2 ^ 31) {x : Turn} {q : Queue.Queues} (hx : TurnOk cb t hash place x)
    (hq : Queue.calls x.cfg true (Queue.Queues.init place.length) x.calls = .ok q) {l : List Send}
    (hd : Delivers x.net .hist q.hists l) : ∀ s ∈ l, Fine cb t hash place x.net.heap s ∧ kindOf s.req.body = .hist := by
  obtain ⟨⟨qp, qg, qo, qd, qh⟩, z1, z2, z3, z4, z5⟩ := queue_facts hx hq
  have hpl := C27_packet_length _ _ _ _ hq
  have hop := hx.operations
  have hmax := hx.maxOps
  have hint : ∀ ds : Nat, ds < place.length → IntRange (ds : Int) := by
    intro ds h; unfold IntRange; omega
  intro s hs
  obtain ⟨ds, e1, e2, e3, pk, e4, e5, e6⟩ := sent_packet hd hs
  rw [z5] at e1
  rw [hx.samePlace] at e3
  have hcount : (ReqBody.hist pk).count < 2 ^ 64 := by
    have hm : q.hists.getD ds [] ∈ q.hists := by
      rw [List.getD_eq_getElem?_getD, List.getElem?_eq_getElem (by omega)]
      exact List.getElem_mem _
    have := (hpl.hists _ hm _ e5).2
    omega
  refine ⟨⟨⟨by rw [(hd.place s hs).1]; exact hx.rank, by rw [e2]; exact hint ds e1, by rw [e4]; exact hcount, ?_⟩, ?_, ?_, ds, e2, e3, ?_⟩, by rw [e4]; rfl⟩
  · rw [e4]
    intro u hu
    obtain ⟨rs, m⟩ := mem_histsFor (by rw [← qh]; exact e6 u hu)
    exact hop _ m
  · rw [e4]; trivial
  · rw [e4]; trivial
  · rw [e4]; intro e he; cases he

theorem filter_kind_none {l : List Result} {K : Kind} (hK : K ≠ .get) (h : ∀ x ∈ l, x.kind = K) :
    l.filter (fun r => decide (r.kind = .get)) = [] := by
  rw [List.filter_eq_nil_iff]
  intro x hx
  simp [h x hx, hK]

theorem filter_kind_all {l : List Result} (h : ∀ x ∈ l, x.kind = .get) :
    l.filter (fun r => decide (r.kind = .get)) = l := by
  rw [List.filter_eq_self]
  intro x hx
  simp [h x hx]

theorem forall₂_results {H : List Ev} : ∀ (gs : List GetItem) (rs : List Res),
    List.Forall₂ (Right t H) gs (rs.flatMap getsOut) →
    List.Forall₂ (Returned t H) (gs.map (fun g => (g.subject, g.predicate)))
      (rs.flatMap (fun res => (getsOut res).map (initGet res.src))) := by
  intro gs rs
  induction rs generalizing gs with
  | nil => intro h; cases h; exact .nil
  | cons res rs ih =>
    intro h
    rw [List.flatMap_cons] at h
    obtain ⟨a, b, h1, h2, rfl⟩ : ∃ a b, List.Forall₂ (Right t H) a (getsOut res) ∧ List.Forall₂ (Right t H) b (rs.flatMap getsOut) ∧ gs = a ++ b := by
      refine ⟨gs.take (getsOut res).length, gs.drop (getsOut res).length, ?_, ?_, (List.take_append_drop _ _).symm⟩
      · exact List.forall₂_take_append _ _ _ h
      · exact List.forall₂_drop_append _ _ _ h
    rw [List.map_append, List.flatMap_cons]
    refine List.rel_append ?_ (ih b h2)
    rw [List.forall₂_map_left_iff, List.forall₂_map_right_iff]
    exact h1.imp (fun g r hgr => returned res.src hgr)

theorem getItems_pairs (l : List Op) : (getItems l).map (fun g => (g.subject, g.predicate)) = getPairs l := by
  unfold getItems getPairs
  rw [List.map_filterMap]
  congr 1
  funext x
  cases x <;> rfl

theorem turn_holds (hheap : heap ≠ 0) (hheap' : heap < 2 ^ 64) (hp31 : place.length ≤ 2 ^ 31) {w w' : World} {H : List Ev}
    {x : Turn} {r : Results} (hw : Holds cb t hash place w H) (hx : TurnOk cb t hash place x)
    (h : turn cb heap place.length w x = .ok (w', r)) :
    Holds cb t hash place w' (H ++ flushEvents t.accepts (turnOps hash x)) ∧
    ∃ gs, gs.Perm (getPairs (turnOps hash x)) ∧
      List.Forall₂ (Returned t (H ++ storedPuts t.accepts (turnOps hash x))) gs
        (r.items.filter (fun y => decide (y.kind = .get))) := by
  unfold turn at h
  obtain ⟨q, hq, h⟩ := ok_iff.mp h
  obtain ⟨y, hy, h⟩ := ok_iff.mp h
  cases h
  obtain ⟨⟨qp, qg, qo, qd, qh⟩, z1, z2, z3, z4, z5⟩ := queue_facts hx hq
  have hdest : ∀ o ∈ turnOps hash x, (dest hash o).isSome := by
    intro o ho
    obtain ⟨c, -, hc⟩ := List.mem_flatMap.mp ho
    exact ops_dest _ _ o hc
  have hR := hx.routed
  -- the deliveries of the five phases
  unfold flush flushPuts flushGets flushGetOps flushDels flushHists at hy
  obtain ⟨x1, h1, hy⟩ := ok_iff.mp hy
  obtain ⟨y1, g1, h1⟩ := ok_iff.mp h1; cases h1
  obtain ⟨x2, h2, hy⟩ := ok_iff.mp hy
  obtain ⟨y2, g2, h2⟩ := ok_iff.mp h2; cases h2
  obtain ⟨x3, h3, hy⟩ := ok_iff.mp hy
  obtain ⟨y3, g3, h3⟩ := ok_iff.mp h3; cases h3
  obtain ⟨x4, h4, hy⟩ := ok_iff.mp hy
  obtain ⟨y4, g4, h4⟩ := ok_iff.mp h4; cases h4
  obtain ⟨x5, h5, hy⟩ := ok_iff.mp hy
  obtain ⟨y5, g5, h5⟩ := ok_iff.mp h5; cases h5
  cases hy
  obtain ⟨lp, r1, p1, d1, a1⟩ := phase _ _ (by rw [z1]; exact hR) g1
  obtain ⟨lg, r2, p2, d2, a2⟩ := phase _ _ (by rw [show _ = q.gets from rfl, z2]; exact hR) g2
  obtain ⟨lo, r3, p3, d3, a3⟩ := phase _ _ (by rw [show _ = q.getops from rfl, z3]; exact hR) g3
  obtain ⟨ld, r4, p4, d4, a4⟩ := phase _ _ (by rw [show _ = q.dels from rfl, z4]; exact hR) g4
  obtain ⟨lh, r5, p5, d5, a5⟩ := phase _ _ (by rw [show _ = q.hists from rfl, z5]; exact hR) g5
  simp only at p2 p3 p4 p5 d2 d3 d4 d5
  have fp := fine_puts hp31 hx hq p1
  have fg := fine_gets hp31 hx hq p2
  have fo := fine_getops hp31 hx hq p3
  have fd := fine_dels hp31 hx hq p4
  have fh := fine_hists hp31 hx hq p5
  -- what the range servers hold after each phase
  have hpe : ∀ ds, (lp.flatMap (fun s => events t.accepts s.req.body)).filter (fun e => decide (hv hash (evPair e) = some ds)) =
      (storedPuts t.accepts (turnOps hash x)).filter (fun e => decide (hv hash (evPair e) = some ds)) := by
    intro ds
    rw [← puts_filter, ← qp, filter_sent (events t.accepts) (fun e => hv hash (evPair e)) ds lp,
      packets_flat p1 (events t.accepts) (fun l => events t.accepts (.put l)) (fun _ => rfl) rfl (fun a b => by simp [events])]
    intro s hs e he
    obtain ⟨d, u1, -, u3⟩ := (fp s hs).1.dst
    exact ⟨d, u1, (u3 e he).1⟩
  have hde : ∀ ds, (ld.flatMap (fun s => events t.accepts s.req.body)).filter (fun e => decide (hv hash (evPair e) = some ds)) =
      (storedDels t.accepts (turnOps hash x)).filter (fun e => decide (hv hash (evPair e) = some ds)) := by
    intro ds
    rw [← dels_filter, ← qd, filter_sent (events t.accepts) (fun e => hv hash (evPair e)) ds ld,
      packets_flat p4 (events t.accepts) (fun l => events t.accepts (.del l)) (fun _ => rfl) rfl (fun a b => by simp [events])]
    intro s hs e he
    obtain ⟨d, u1, -, u3⟩ := (fd s hs).1.dst
    exact ⟨d, u1, (u3 e he).1⟩
  have noev : ∀ (l : List Send), (∀ s ∈ l, ∃ K, kindOf s.req.body = K ∧ K ≠ .put ∧ K ≠ .del) →
      l.flatMap (fun s => events t.accepts s.req.body) = [] := by
    intro l hl
    rw [List.flatMap_eq_nil_iff]
    intro s hs
    obtain ⟨K, e1, e2, e3⟩ := hl s hs
    cases hb : s.req.body <;> rw [hb] at e1 <;> first | rfl | (subst e1; first | exact absurd rfl e2 | exact absurd rfl e3)
  have w1 := (deliverAll_holds lp hw (fun s hs => (fp s hs).1) d1).congr (H' := H ++ storedPuts t.accepts (turnOps hash x)) (by
    intro s p ds hd
    refine lastObj_same s p (fun e => decide (hv hash (evPair e) = some ds)) ?_ (hpe ds)
    intro e he; simp [he, hd])
  have w2 := deliverAll_holds lg w1 (fun s hs => (fg s hs).1.1) d2
  rw [noev lg (fun s hs => ⟨_, (fg s hs).1.2, by decide, by decide⟩), List.append_nil] at w2
  have w3 := deliverAll_holds lo w2 (fun s hs => (fo s hs).1) d3
  rw [noev lo (fun s hs => ⟨_, (fo s hs).2, by decide, by decide⟩), List.append_nil] at w3
  have w4 := (deliverAll_holds ld w3 (fun s hs => (fd s hs).1) d4).congr
      (H' := H ++ storedPuts t.accepts (turnOps hash x) ++ storedDels t.accepts (turnOps hash x)) (by
    intro s p ds hd
    refine lastObj_same s p (fun e => decide (hv hash (evPair e) = some ds)) ?_ (hde ds)
    intro e he; simp [he, hd])
  have w5 := deliverAll_holds lh w4 (fun s hs => (fh s hs).1) d5
  rw [noev lh (fun s hs => ⟨_, (fh s hs).2, by decide, by decide⟩), List.append_nil] at w5
  refine ⟨by unfold flushEvents; rw [← List.append_assoc]; exact w5, ?_⟩
  -- the results of the GETs
  have k1 := addAll_kind a1 (deliverAll_kinds lp (fun s hs => ⟨(fp s hs).1.req, (fp s hs).2⟩) d1) (by simp [Results.create])
  have k2 := addAll_kind a2 (deliverAll_kinds lg (fun s hs => ⟨(fg s hs).1.1.req, (fg s hs).1.2⟩) d2) (by simp [Results.create])
  have k3 := addAll_kind a3 (deliverAll_kinds lo (fun s hs => ⟨(fo s hs).1.req, (fo s hs).2⟩) d3) (by simp [Results.create])
  have k4 := addAll_kind a4 (deliverAll_kinds ld (fun s hs => ⟨(fd s hs).1.req, (fd s hs).2⟩) d4) (by simp [Results.create])
  have k5 := addAll_kind a5 (deliverAll_kinds lh (fun s hs => ⟨(fh s hs).1.req, (fh s hs).2⟩) d5) (by simp [Results.create])
  obtain ⟨b1, b2⟩ := deliverAll_gets hheap hheap' hx.address.1 hx.address.2 lg w1.toStores (fun s hs => by
    obtain ⟨⟨v1, -⟩, g, v2, v3⟩ := fg s hs
    exact ⟨v1, g, v2, fun y hy => (v3 y hy).2⟩) d2
  have hitems := addAll_gets a2 getsOut b1
  refine ⟨(lg.flatMap (fun s => getsIn s.req.body)).map (fun g => (g.subject, g.predicate)), ?_, ?_⟩
  · rw [← getItems_pairs]
    refine List.Perm.map _ ?_
    rw [List.perm_iff_count]
    intro a
    have hg : ∀ ds, (lg.flatMap (fun s => getsIn s.req.body)).filter (fun y => decide (home hash y.subject y.predicate = some ds)) =
        (getItems (turnOps hash x)).filter (fun y => decide (home hash y.subject y.predicate = some ds)) := by
      intro ds
      rw [← gets_filter, ← qg, filter_sent getsIn (fun y => home hash y.subject y.predicate) ds lg,
        packets_flat p2 getsIn (fun l => l) (fun _ => rfl) rfl (fun _ _ => rfl)]
      intro s hs e he
      obtain ⟨-, g, v2, v3⟩ := fg s hs
      rw [v2] at he
      exact (v3 e he).2.2.2
    cases hh : home hash a.subject a.predicate with
    | some ds =>
      rw [← List.count_filter (p := fun y => decide (home hash y.subject y.predicate = some ds)) (by simp [hh]), hg ds,
        List.count_filter (by simp [hh])]
    | none =>
      rw [List.count_eq_zero_of_not_mem, List.count_eq_zero_of_not_mem]
      · intro ha
        obtain ⟨o, ho, he⟩ := List.mem_filterMap.mp ha
        have hd := hdest o ho
        cases o <;> simp only [Option.some.injEq] at he <;> try cases he
        simp only [dest] at hd
        simp only at hh
        rw [hh] at hd
        cases hd
      · intro ha
        obtain ⟨s, hs, he⟩ := List.mem_flatMap.mp ha
        obtain ⟨-, g, v2, v3⟩ := fg s hs
        rw [v2] at he
        obtain ⟨-, -, -, ds, -, v4⟩ := v3 a he
        rw [hh] at v4
        cases v4
  · simp only [append_items, List.filter_append]
    rw [filter_kind_none (by decide) k1, filter_kind_all k2, filter_kind_none (by decide) k3, filter_kind_none (by decide) k4,
      filter_kind_none (by decide) k5, hitems]
    simp only [Results.create, List.filter_nil, List.nil_append, List.append_nil]
    exact forall₂_results _ _ b2

theorem run_holds (hheap : heap ≠ 0) (hheap' : heap < 2 ^ 64) (hp31 : place.length ≤ 2 ^ 31) (l : List Turn) {w w' : World}
    {H : List Ev} {rs : List Results} (hw : Holds cb t hash place w H) (hl : ∀ x ∈ l, TurnOk cb t hash place x)
    (h : run cb heap place.length w l = .ok (w', rs)) :
    Holds cb t hash place w' (H ++ turnsEvents t.accepts hash l) := by
  induction l generalizing w H rs with
  | nil => cases h; simpa [turnsEvents] using hw
  | cons x l ih =>
    simp only [run] at h
    obtain ⟨y, hy, h⟩ := ok_iff.mp h
    obtain ⟨z, hz, h⟩ := ok_iff.mp h
    cases h
    have := ih (turn_holds hheap hheap' hp31 hw (hl x (by simp)) hy).1 (fun u hu => hl u (by simp [hu])) hz
    rw [List.append_assoc] at this
    simpa [turnsEvents] using this

theorem run_append (l l' : List Turn) {w w' : World} {rs : List Results}
    (h : run cb heap n w (l ++ l') = .ok (w', rs)) :
    ∃ u r1 r2, run cb heap n w l = .ok (u, r1) ∧ run cb heap n u l' = .ok (w', r2) ∧ rs = r1 ++ r2 := by
  induction l generalizing w rs with
  | nil => exact ⟨w, [], rs, rfl, h, rfl⟩
  | cons x l ih =>
    simp only [List.cons_append, run] at h
    obtain ⟨y, hy, h⟩ := ok_iff.mp h
    obtain ⟨z, hz, h⟩ := ok_iff.mp h
    cases h
    obtain ⟨u, r1, r2, e1, e2, e3⟩ := ih hz
    refine ⟨u, y.2 :: r1, r2, ?_, e2, by rw [e3]; rfl⟩
    simp only [run, hy, Out.ok_bind, e1]

end Hx.Job

import Verif.Model.HistStore
import Verif.Spec.HistStore
import Verif.Spec.Wire
import Verif.Proofs.Histogram
import Verif.Proofs.Message
import Verif.Proofs.StoreHistory
import Verif.Proofs.GetOp
import Verif.Props.C01_Keys

/-!
# Helper lemmas: histograms in a datastore
-/

namespace Hx.Store
open Hx Msg Spec

/-! ## Tracking -/

theorem histHook_find {hs hs' : Map Hist} {x : PutItem} {status : Int} (h : histHook hs x status = .ok hs') (name : Bytes) :
    (find hs name = none → find hs' name = none) ∧
    (∀ h0, find hs name = some h0 → ∃ h1,
      h0.addAll (if status = dsSuccess then contributes name x else none).toList = .ok h1 ∧ find hs' name = some h1) := by
  have same : hs' = hs → (if status = dsSuccess then contributes name x else none) = none →
      (find hs name = none → find hs' name = none) ∧
      (∀ h0, find hs name = some h0 → ∃ h1,
        h0.addAll (if status = dsSuccess then contributes name x else none).toList = .ok h1 ∧ find hs' name = some h1) := by
    intro e1 e2
    subst e1
    rw [e2]
    exact ⟨id, fun h0 h0' => ⟨h0, rfl, h0'⟩⟩
  unfold histHook at h
  split at h
  · rename_i hc
    obtain ⟨hst, hty⟩ := hc
    split at h
    · rename_i hf
      cases h
      by_cases hn : x.predicate.bytes = name
      · subst hn
        exact ⟨id, fun h0 h0' => by rw [hf] at h0'; cases h0'⟩
      · exact same rfl (by simp [contributes, hn])
    · rename_i h0 hf
      have step : ∀ v, (∀ n, x.predicate.bytes = n → contributes n x = some v) →
          (h0.add v >>= fun h => .ok (put x.predicate.bytes h.1 hs)) = .ok hs' →
          (find hs name = none → find hs' name = none) ∧
          (∀ h0, find hs name = some h0 → ∃ h1,
            h0.addAll (if status = dsSuccess then contributes name x else none).toList = .ok h1 ∧ find hs' name = some h1) := by
        intro v hv h
        cases ha : h0.add v with
        | err => rw [ha] at h; cases h
        | ub => rw [ha] at h; cases h
        | ok r =>
          rw [ha, Out.ok_bind] at h
          cases h
          by_cases hn : x.predicate.bytes = name
          · subst hn
            rw [hf]
            refine ⟨(fun h => by cases h), ?_⟩
            intro h0' e; cases e
            rw [if_pos hst, hv _ rfl]
            refine ⟨r.1, ?_, by rw [find_put, if_pos rfl]⟩
            simp only [Option.toList, Hist.addAll, ha, Out.ok_bind]
          · have hcn : contributes name x = none := by simp [contributes, hn]
            rw [find_put, if_neg hn, hcn]
            refine ⟨id, fun h0 h0' => ⟨h0, ?_, h0'⟩⟩
            split <;> rfl
      split at h
      · rename_i hfl
        split at h
        · cases h
        · exact step _ (fun n hn => by simp [contributes, hty, hn, hfl]) h
      · rename_i hfl
        split at h
        · rename_i hdl
          split at h
          · cases h
          · exact step _ (fun n hn => by
              have : tDouble ≠ tFloat := by decide
              simp [contributes, hty, hn, hdl, this]) h
        · rename_i hdl
          cases h
          refine same rfl ?_
          rw [if_pos hst]
          unfold contributes; simp [hfl, hdl]
  · rename_i hc
    cases h
    refine same rfl ?_
    split
    · rename_i hst
      have : ¬ x.predicate.typ = tByte := fun h => hc ⟨hst, h⟩
      simp [contributes, this]
    · rfl

theorem histHooks_find {l : List (PutItem × StatusItem)} : ∀ {hs hs' : Map Hist}, histHooks hs l = .ok hs' → ∀ (name : Bytes),
    (find hs name = none → find hs' name = none) ∧
    (∀ h0, find hs name = some h0 → ∃ h1,
      h0.addAll (l.filterMap (fun x => if x.2.status = dsSuccess then contributes name x.1 else none)) = .ok h1 ∧
      find hs' name = some h1) := by
  induction l with
  | nil => intro hs hs' h name; cases h; exact ⟨id, fun h0 h0' => ⟨h0, rfl, h0'⟩⟩
  | cons x l ih =>
    intro hs hs' h name
    simp only [histHooks] at h
    cases h1 : histHook hs x.1 x.2.status with
    | err => rw [h1] at h; cases h
    | ub => rw [h1] at h; cases h
    | ok hs1 =>
      rw [h1, Out.ok_bind] at h
      obtain ⟨a1, a2⟩ := histHook_find h1 name
      obtain ⟨b1, b2⟩ := ih h name
      refine ⟨fun h => b1 (a1 h), ?_⟩
      intro h0 hf
      obtain ⟨h1, e1, f1⟩ := a2 h0 hf
      obtain ⟨h2, e2, f2⟩ := b2 h1 f1
      refine ⟨h2, ?_, f2⟩
      cases hcv : (if x.2.status = dsSuccess then contributes name x.1 else none) with
      | none =>
        simp only [List.filterMap_cons, hcv]
        rw [hcv] at e1
        cases e1; exact e2
      | some v =>
        simp only [List.filterMap_cons, hcv]
        rw [hcv] at e1
        have : v :: l.filterMap (fun x => if x.2.status = dsSuccess then contributes name x.1 else none) =
          [v] ++ l.filterMap (fun x => if x.2.status = dsSuccess then contributes name x.1 else none) := rfl
        rw [this, Hist.addAll_append]
        have e1' : h0.addAll [v] = .ok h1 := e1
        rw [e1', Out.ok_bind, e2]

theorem operate_hists {cb : Callbacks} {heap : Nat} {wr : Bool} {d d' : DS} {req : ReqBody} {res : Option ResBody}
    (h : d.operate cb heap wr req = .ok (d', res)) (name : Bytes) :
    (find d.hists name = none → find d'.hists name = none) ∧
    (∀ h0, find d.hists name = some h0 → ∃ h1, h0.addAll (contributed name req res) = .ok h1 ∧
      find d'.hists name = some h1) := by
  have same : d'.hists = d.hists → contributed name req res = [] →
      (find d.hists name = none → find d'.hists name = none) ∧
      (∀ h0, find d.hists name = some h0 → ∃ h1, h0.addAll (contributed name req res) = .ok h1 ∧
        find d'.hists name = some h1) := by
    intro e1 e2
    rw [e1, e2]
    exact ⟨id, fun h0 h0' => ⟨h0, rfl, h0'⟩⟩
  cases req with
  | put l =>
    simp only [DS.operate] at h
    split at h
    · have key : ∀ (o : Out (Db × List StatusItem)), (o >>= fun r =>
          histHooks d.hists (l.zip r.2) >>= fun hs =>
          .ok ({ d with db := r.1, hists := hs, puts := d.puts + 1 }, some (ResBody.put r.2))) = .ok (d', res) →
          (find d.hists name = none → find d'.hists name = none) ∧
          (∀ h0, find d.hists name = some h0 → ∃ h1, h0.addAll (contributed name (.put l) res) = .ok h1 ∧
            find d'.hists name = some h1) := by
        intro o h
        cases o with
        | err => cases h
        | ub => cases h
        | ok r =>
          rw [Out.ok_bind] at h
          cases hh : histHooks d.hists (l.zip r.2) with
          | err => rw [hh] at h; cases h
          | ub => rw [hh] at h; cases h
          | ok hs =>
            rw [hh, Out.ok_bind] at h
            cases h
            exact histHooks_find hh name
      exact key _ h
    · cases h; exact same rfl rfl
  | get l =>
    simp only [DS.operate] at h
    split at h
    · cases ho : getAll cb heap d.db l with
      | err => rw [ho] at h; cases h
      | ub => rw [ho] at h; cases h
      | ok r => rw [ho] at h; cases h; exact same rfl rfl
    · cases h; exact same rfl rfl
  | getop l =>
    simp only [DS.operate] at h
    split at h
    · cases ho : getOpAll d.backend cb heap d.db l with
      | err => rw [ho] at h; cases h
      | ub => rw [ho] at h; cases h
      | ok r => rw [ho] at h; cases h; exact same rfl rfl
    · cases h; exact same rfl rfl
  | del l =>
    simp only [DS.operate] at h
    split at h
    · have key : ∀ (o : Out (Db × List StatusItem)), (o >>= fun r =>
          .ok ({ d with db := r.1, deletes := d.deletes + 1 }, some (ResBody.del r.2))) = .ok (d', res) →
          (find d.hists name = none → find d'.hists name = none) ∧
          (∀ h0, find d.hists name = some h0 → ∃ h1, h0.addAll (contributed name (.del l) res) = .ok h1 ∧
            find d'.hists name = some h1) := by
        intro o h
        cases o with
        | err => cases h
        | ub => cases h
        | ok r => rw [Out.ok_bind] at h; cases h; exact same rfl rfl
      exact key _ h
    · cases h; exact same rfl rfl
  | hist l => cases h; exact same rfl rfl

/-! ## Packed histograms -/

/-- A boundary that is at least the smallest positive normal number. -/
def HighEnd (x : Dbl) : Prop := 2 ^ 52 ≤ x.toNat ∧ x.toNat < 2 ^ 63

theorem HighEnd.of_lt {a b : Dbl} (h : HighEnd a) (hl : Dbl.lt a b = true) : HighEnd b := by
  obtain ⟨h1, h2⟩ := h
  have h3 := ((Dbl.lt_iff a b).mp hl).2.2
  have ha : a.rank = (a.toNat : Int) := by
    unfold Dbl.rank Dbl.mag; rw [if_pos h2, Nat.mod_eq_of_lt h2]
  rw [ha] at h3
  unfold Dbl.rank at h3
  split at h3
  · rename_i hb
    unfold Dbl.mag at h3
    rw [Nat.mod_eq_of_lt hb] at h3
    exact ⟨by omega, hb⟩
  · omega

/-- What adding values keeps, for any generator: matching arrays. -/
structure Kept (h : Hist) : Prop where
  len : ∀ c, h.cache = Option.some c → c.length ≤ h.count
  caching : h.count < h.firstN → h.size = 0 ∧ ∃ c, h.cache = some c ∧ c.length = h.count
  none : h.buckets = Option.none → h.counts = Option.none ∧ h.size = 0
  some : h.buckets ≠ Option.none → h.firstN ≤ h.count
  shape : h.size ≠ 0 → ∃ b c, h.buckets = Option.some b ∧ h.counts = Option.some c ∧ b.length = h.size + 1 ∧
    c.length = h.size ∧ c.sum ≤ h.count ∧ HighEnd (b.getD h.size 0)
  empty : h.size = 0 → h.buckets = Option.none ∧ h.counts = Option.none

theorem sum_set_succ (c : List Nat) (i : Nat) : (c.set i (c.getD i 0 + 1)).sum ≤ c.sum + 1 := by
  induction c generalizing i with
  | nil => simp
  | cons a c ih =>
    cases i with
    | zero => simp; omega
    | succ i => simp only [List.set_cons_succ, List.sum_cons, List.getD_cons_succ]; have := ih i; omega

/-- A histogram with buckets whose counts sum to at most `k`. -/
structure Shaped (h : Hist) (k : Nat) : Prop where
  pos : h.size ≠ 0
  arr : ∃ b c, h.buckets = Option.some b ∧ h.counts = Option.some c ∧ b.length = h.size + 1 ∧
    c.length = h.size ∧ c.sum ≤ k ∧ HighEnd (b.getD h.size 0)

theorem insert_shaped {h : Hist} {k : Nat} (hs : Shaped h k) (v : Dbl) :
    Shaped (h.insert v).1 (k + 1) ∧ (h.insert v).1.count = h.count ∧ (h.insert v).1.firstN = h.firstN ∧
    (h.insert v).1.cache = h.cache ∧ (h.insert v).1.name = h.name ∧ (h.insert v).1.gen = h.gen := by
  obtain ⟨hp, b, c, hb, hc, hbl, hcl, hsum, hend⟩ := hs
  unfold Hist.insert
  rw [hb, hc]
  simp only
  rw [if_neg hp]
  split
  · exact ⟨⟨hp, b, c, hb, hc, hbl, hcl, by omega, hend⟩, rfl, rfl, rfl, rfl, rfl⟩
  · refine ⟨⟨hp, _, _, rfl, rfl, ?_, ?_, ?_, ?_⟩, rfl, rfl, rfl, rfl, rfl⟩
    · simp only; split
      · rw [List.length_set]; exact hbl
      · exact hbl
    · rw [List.length_set]; exact hcl
    · have := sum_set_succ c (Hist.upperBound b v 0 h.size - 1); omega
    · simp only
      split
      · rename_i hl
        have : (b.set h.size v).getD h.size 0 = v := by
          rw [List.getD_eq_getElem?_getD, List.getElem?_set_self (by omega)]; rfl
        rw [this]
        exact hend.of_lt hl
      · exact hend

theorem insertAll_shaped (ws : List Dbl) : ∀ {h : Hist} {k : Nat}, Shaped h k →
    Shaped (h.insertAll ws) (k + ws.length) ∧ (h.insertAll ws).count = h.count ∧ (h.insertAll ws).firstN = h.firstN ∧
    (h.insertAll ws).cache = h.cache ∧ (h.insertAll ws).name = h.name ∧ (h.insertAll ws).gen = h.gen := by
  induction ws with
  | nil => intro h k hs; exact ⟨hs, rfl, rfl, rfl, rfl, rfl⟩
  | cons w ws ih =>
    intro h k hs
    obtain ⟨a1, a2, a3, a4, a5, a6⟩ := insert_shaped hs w
    obtain ⟨b1, b2, b3, b4, b5, b6⟩ := ih a1
    refine ⟨?_, b2.trans a2, b3.trans a3, b4.trans a4, b5.trans a5, b6.trans a6⟩
    have : k + (w :: ws).length = k + 1 + ws.length := by simp; omega
    rw [this]; exact b1

theorem Shaped.kept {h : Hist} (hs : Shaped h h.count) (hc : h.firstN ≤ h.count)
    (hl : ∀ c, h.cache = Option.some c → c.length ≤ h.count) : Kept h := by
  obtain ⟨hp, b, c, hb, hcc, hbl, hcl, hsum, hend⟩ := hs
  refine ⟨hl, by omega, ?_, fun _ => hc, fun _ => ⟨b, c, hb, hcc, hbl, hcl, hsum, hend⟩, fun h => absurd h hp⟩
  intro h; rw [hb] at h; cases h

theorem highEnd_init (left : List Dbl) : HighEnd ((left ++ [Dbl.minPos]).getD left.length 0) := by
  have : (left ++ [Dbl.minPos]).getD left.length 0 = Dbl.minPos := by
    rw [List.getD_eq_getElem?_getD]; simp
  rw [this]
  unfold HighEnd Dbl.minPos
  decide

theorem kept_none {h : Hist} (hb : h.buckets = none) (hn : h.counts = none) (hz : h.size = 0)
    (hl : ∀ c, h.cache = some c → c.length ≤ h.count)
    (hc : h.count < h.firstN → ∃ c, h.cache = some c ∧ c.length = h.count) : Kept h :=
  ⟨hl, fun h => ⟨hz, hc h⟩, fun _ => ⟨hn, hz⟩, fun h => absurd hb h, fun h => absurd hz h, fun _ => ⟨hb, hn⟩⟩

theorem add_kept {g : Hist.Gen} (hg : ∀ c, g c ≠ some []) {h : Hist} {r : Hist × Bool} {v : Dbl} (hgen : h.gen = some g)
    (hk : Kept h) (h1 : h.add v = .ok r) :
    Kept r.1 ∧ r.1.count = h.count + 1 ∧ r.1.firstN = h.firstN ∧ r.1.gen = some g ∧ r.1.name = h.name := by
  obtain ⟨name, firstN, gen, cache, count, buckets, counts, size⟩ := h
  simp only at hgen
  subst hgen
  unfold Hist.add at h1
  by_cases hc : count < firstN
  · obtain ⟨hz, c, hcc, hcl⟩ := hk.caching hc
    obtain ⟨hb, hn⟩ := hk.empty hz
    simp only at hz hcc hcl hb hn
    subst hz hcc hb hn
    have htake : c.take count = c := List.take_of_length_le (by omega)
    simp only [if_pos hc, Out.ok_bind, htake] at h1
    by_cases hfull : firstN ≤ count + 1
    · rw [if_pos hfull] at h1
      simp only [Option.isNone_none, if_true, Hist.generate] at h1
      rw [if_neg (by simp [hcl])] at h1
      cases hgc : g (some (c ++ [v])) with
      | none =>
        rw [hgc] at h1
        simp only [Out.ok_bind, Bool.not_false, if_true] at h1
        cases h1
        refine ⟨kept_none rfl rfl rfl ?_ ?_, rfl, rfl, rfl, rfl⟩
        · intro c' e; cases e; simp [hcl]
        · simp only; omega
      | some left =>
        rw [hgc] at h1
        have hl0 : left.length ≠ 0 := fun h => hg _ (by rw [hgc, List.length_eq_zero_iff.mp h])
        simp only [if_neg hl0, Out.ok_bind, Bool.not_true, Bool.false_eq_true, if_false, Option.getD_some] at h1
        have hs0 : Shaped ⟨name, firstN, some g, some (c ++ [v]), count + 1, some (left ++ [Dbl.minPos]),
            some (List.replicate left.length 0), left.length⟩ 0 :=
          ⟨hl0, _, _, rfl, rfl, by simp, by simp, by simp, highEnd_init left⟩
        obtain ⟨a1, a2, a3, a4, a5, a6⟩ := insertAll_shaped (c ++ [v]) hs0
        simp only at a2 a3 a4 a5 a6
        rw [if_neg (by rw [a2, a3]; omega)] at h1
        cases h1
        refine ⟨?_, a2, a3, a6, a5⟩
        refine Shaped.kept ?_ (by simp only [a2, a3]; exact hfull) ?_
        · simp only [a2]
          simp only [Nat.zero_add, List.length_append, List.length_singleton] at a1
          rw [hcl] at a1; exact a1
        · simp only [a2, a4]; intro c' e; cases e; simp [hcl]
    · rw [if_neg hfull] at h1
      cases h1
      refine ⟨kept_none rfl rfl rfl ?_ ?_, rfl, rfl, rfl, rfl⟩
      · intro c' e; cases e; simp [hcl]
      · intro _; exact ⟨_, rfl, by simp [hcl]⟩
  · simp only [if_neg hc, Out.ok_bind] at h1
    rw [if_pos (by omega)] at h1
    cases buckets with
    | none =>
      obtain ⟨hn, hz⟩ := hk.none rfl
      simp only at hn hz
      subst hn hz
      simp only [Option.isNone_none, if_true, Hist.generate] at h1
      cases cache with
      | some c =>
        have := hk.len c rfl
        simp only at this
        rw [if_pos (by simp; omega)] at h1
        cases h1
      | none =>
        rw [if_neg (by simp)] at h1
        cases hgc : g none with
        | none =>
          rw [hgc] at h1
          simp only [Out.ok_bind, Bool.not_false, if_true] at h1
          cases h1
          refine ⟨kept_none rfl rfl rfl ?_ ?_, rfl, rfl, rfl, rfl⟩
          · intro c' e; cases e
          · simp only; omega
        | some left =>
          rw [hgc] at h1
          have hl0 : left.length ≠ 0 := fun h => hg _ (by rw [hgc, List.length_eq_zero_iff.mp h])
          simp only [if_neg hl0, Out.ok_bind, Bool.not_true, Bool.false_eq_true, if_false, Option.getD_none,
            Hist.insertAll, List.foldl_nil] at h1
          rw [if_pos (by omega)] at h1
          have hs0 : Shaped ⟨name, firstN, some g, none, count + 1, some (left ++ [Dbl.minPos]),
              some (List.replicate left.length 0), left.length⟩ count :=
            ⟨hl0, _, _, rfl, rfl, by simp, by simp, by simp, highEnd_init left⟩
          obtain ⟨a1, a2, a3, a4, a5, a6⟩ := insert_shaped hs0 v
          cases h1
          refine ⟨Shaped.kept ?_ ?_ ?_, a2, a3, a6, a5⟩
          · simp only [a2]; exact a1
          · simp only [a2, a3]; omega
          · simp only [a4]; intro c e; cases e
    | some b =>
      simp only [Option.isNone_some, Bool.false_eq_true, if_false, Out.ok_bind, Bool.not_true] at h1
      rw [if_pos (by omega)] at h1
      have hsz : size ≠ 0 := by
        intro h
        have := (hk.empty h).1
        cases this
      have hs0 : Shaped ⟨name, firstN, some g, cache, count + 1, some b, counts, size⟩ count :=
        ⟨hsz, hk.shape hsz⟩
      obtain ⟨a1, a2, a3, a4, a5, a6⟩ := insert_shaped hs0 v
      cases h1
      refine ⟨Shaped.kept ?_ ?_ ?_, a2, a3, a6, a5⟩
      · simp only [a2]; exact a1
      · simp only [a2, a3]; omega
      · simp only [a4, a2]; intro c e; have := hk.len c e; simp only at this; omega

theorem create_kept (n : Nat) (gen : Option Hist.Gen) (name : Bytes) : Kept (Hist.create n gen name) := by
  refine kept_none rfl rfl rfl ?_ ?_
  · intro c e
    simp only [Hist.create] at e
    split at e <;> cases e
    simp
  · intro h
    simp only [Hist.create] at h ⊢
    rw [if_neg (by omega)]
    exact ⟨[], rfl, rfl⟩

theorem addAll_kept {g : Hist.Gen} (hg : ∀ c, g c ≠ some []) (vs : List Dbl) : ∀ {h h' : Hist}, h.gen = some g →
    Kept h → h.addAll vs = .ok h' →
    Kept h' ∧ h'.count = h.count + vs.length ∧ h'.firstN = h.firstN ∧ h'.gen = some g ∧ h'.name = h.name := by
  induction vs with
  | nil => intro h h' hgen hk e; cases e; exact ⟨hk, rfl, rfl, hgen, rfl⟩
  | cons v vs ih =>
    intro h h' hgen hk e
    simp only [Hist.addAll] at e
    cases ha : h.add v with
    | err => rw [ha] at e; cases e
    | ub => rw [ha] at e; cases e
    | ok r =>
      rw [ha, Out.ok_bind] at e
      obtain ⟨a1, a2, a3, a4, a5⟩ := add_kept hg hgen hk ha
      obtain ⟨b1, b2, b3, b4, b5⟩ := ih a4 a1 e
      exact ⟨b1, by simp only [List.length_cons]; omega, b3.trans a3, b4, b5.trans a5⟩

theorem le_sum_of_mem {l : List Nat} {n : Nat} (h : n ∈ l) : n ≤ l.sum := by
  induction l with
  | nil => cases h
  | cons a l ih =>
    rw [List.sum_cons]
    cases h with
    | head => omega
    | tail _ h => have := ih h; omega

theorem Kept.fits {h : Hist} (hk : Kept h) (h1 : h.name.length < 2 ^ 64) (h2 : h.count < 2 ^ 64) (h3 : h.firstN < 2 ^ 64)
    (h4 : h.size < 2 ^ 64) : HistFits h := by
  refine ⟨h1, h2, h3, h4, hk.caching, hk.empty, ?_⟩
  intro hz
  obtain ⟨b, c, hb, hc, hbl, hcl, hsum, -⟩ := hk.shape hz
  refine ⟨b, c, hb, hc, hbl, hcl, ?_⟩
  intro n hn
  have := le_sum_of_mem hn
  omega

/-! ## Histogram records in the database -/

theorem histKey_inj {n m : Bytes} (hn : n.length < 2 ^ 64) (hm : m.length < 2 ^ 64) (h : histKey n = histKey m) : n = m := by
  have hs : histSubject.length < 2 ^ 64 := by decide
  have ht : tByte < 256 := by decide
  have := (Props.C02_key_injective ⟨histSubject, tByte⟩ ⟨n, tByte⟩ ⟨histSubject, tByte⟩ ⟨m, tByte⟩ hs hn ht ht hs hm ht ht h).2
  simpa using this

/-- The writes of `WriteHistogramsImpl`. -/
def histWrites (db : Db) (hs : Map Hist) : Db := hs.foldl (fun db x => put (histKey x.1) x.2.packBytes db) db

theorem find_histWrites_other (hs : Map Hist) (k : Bytes) (hk : ∀ x ∈ hs, histKey x.1 ≠ k) (db : Db) :
    find (histWrites db hs) k = find db k := by
  induction hs generalizing db with
  | nil => rfl
  | cons x hs ih =>
    have := ih (fun y hy => hk y (List.mem_cons_of_mem _ hy)) (put (histKey x.1) x.2.packBytes db)
    simp only [histWrites, List.foldl_cons] at this ⊢
    rw [this, find_put, if_neg (hk x List.mem_cons_self)]

theorem find_histWrites (hs : Map Hist) (hsort : Sorted hs) (hlen : ∀ x ∈ hs, x.1.length < 2 ^ 64) (n : Bytes)
    (hn : n.length < 2 ^ 64) (db : Db) :
    find (histWrites db hs) (histKey n) =
      match find hs n with
      | some h => some h.packBytes
      | none => find db (histKey n) := by
  induction hs generalizing db with
  | nil => rfl
  | cons x hs ih =>
    obtain ⟨hx, hsort'⟩ := List.pairwise_cons.mp hsort
    have hi := ih hsort' (fun y hy => hlen y (List.mem_cons_of_mem _ hy)) (put (histKey x.1) x.2.packBytes db)
    simp only [histWrites, List.foldl_cons] at hi ⊢
    rw [hi]
    simp only [find]
    by_cases hxn : x.1 = n
    · rw [if_pos hxn]
      have hnone : find hs n = none := by
        cases hf : find hs n with
        | none => rfl
        | some h =>
          have := hx _ (find_mem hf)
          rw [hxn] at this
          exact absurd this (bytes_lt_irrefl n)
      rw [hnone]
      simp only
      rw [find_put, if_pos (by rw [hxn])]
    · rw [if_neg hxn]
      have : find (put (histKey x.1) x.2.packBytes db) (histKey n) = find db (histKey n) := by
        rw [find_put, if_neg (fun h => hxn (histKey_inj (hlen x List.mem_cons_self) hn h))]
      rw [this]

theorem readHists_spec (db : Db) (S : Bytes → Option Hist) (names : List Bytes) :
    ∀ (hs : Map Hist), (∀ n ∈ names, find db (histKey n) = (S n).map Hist.packBytes) →
    (∀ n ∈ names, ∀ h, S n = some h → HistFits h) →
    ∃ hs' k, readHists db hs names = .ok (hs', k) ∧
      ∀ n, find hs' n = if n ∈ names ∧ (S n).isSome then (S n).map (arrivedHist none none) else find hs n := by
  induction names with
  | nil => intro hs _ _; exact ⟨hs, 0, rfl, by simp⟩
  | cons m names ih =>
    intro hs h1 h2
    have h1' : ∀ n ∈ names, find db (histKey n) = (S n).map Hist.packBytes := fun n hn => h1 n (List.mem_cons_of_mem _ hn)
    have h2' : ∀ n ∈ names, ∀ h, S n = some h → HistFits h := fun n hn => h2 n (List.mem_cons_of_mem _ hn)
    simp only [readHists, h1 m List.mem_cons_self]
    cases hS : S m with
    | none =>
      simp only [Option.map_none]
      obtain ⟨hs', k, e, f⟩ := ih hs h1' h2'
      refine ⟨hs', k, e, ?_⟩
      intro n
      rw [f n]
      by_cases hnm : n = m
      · subst hnm; simp [hS]
      · simp [hnm]
    | some h =>
      have hu := unpack_pack Hist.empty (length_packBytes_ge h) h (h2 m List.mem_cons_self h hS) []
      rw [List.append_nil] at hu
      simp only [Option.map_some, hu, Out.ok_bind]
      obtain ⟨hs', k, e, f⟩ := ih (put m (arrivedHist none none h) hs) h1' h2'
      refine ⟨hs', k + 1, ?_, ?_⟩
      · show (readHists db (put m (arrivedHist none none h) hs) names >>= _) = _
        rw [e, Out.ok_bind]
      · intro n
        rw [f n, find_put]
        by_cases hnm : n = m
        · subst hnm
          simp [hS]
        · simp [hnm, Ne.symm hnm]

/-! ## Histogram records as user data -/

theorem packBytes_tail {h : Hist} (hk : Kept h) (hz : h.size < 2 ^ 64) : ∃ pre y, h.packBytes = pre ++ leBytes 8 y ∧ y < 2 ^ 64 ∧
    (y = 0 ∨ 2 ^ 52 ≤ y) := by
  unfold Hist.packBytes
  by_cases hs : h.size = 0
  · rw [if_pos hs, List.append_nil]
    exact ⟨_, h.size, rfl, hz, .inl hs⟩
  · obtain ⟨b, c, hb, hc, hbl, hcl, -, h1, h2⟩ := hk.shape hs
    rw [if_neg hs, ← List.append_assoc]
    rw [hb]
    exact ⟨_, (b.getD h.size 0).toNat, rfl, by omega, .inr h1⟩

theorem removeType_tail (pre : Bytes) (y : Nat) (hy : y < 2 ^ 64) :
    ∃ o, removeType (pre ++ leBytes 8 y) = .ok (o, y / 2 ^ 32) := by
  have e : pre ++ leBytes 8 y = (pre ++ leBytes 4 y) ++ leBytes 4 (y / 256 / 256 / 256 / 256) := by
    rw [List.append_assoc]; rfl
  have hd : y / 256 / 256 / 256 / 256 = y / 2 ^ 32 := by omega
  rw [e, hd]
  unfold removeType
  rw [if_neg (by simp)]
  refine ⟨(pre ++ leBytes 4 y), ?_⟩
  have hl : ((pre ++ leBytes 4 y) ++ leBytes 4 (y / 2 ^ 32)).length - 4 = (pre ++ leBytes 4 y).length := by simp
  rw [hl, List.drop_left, List.take_left, leVal_leBytes _ _ (by omega)]

theorem decode_unknown (neg pos : UInt8) (f : FloatCodec) (v : Val) (h : v.typ = 0 ∨ 9 ≤ v.typ) :
    (defaultCallbacks neg pos f).decode v = .ok none := by
  have h1 : v.typ ≠ 1 := by omega
  have h2 : v.typ ≠ 2 := by omega
  have h3 : v.typ ≠ 3 := by omega
  have h4 : v.typ ≠ 4 := by omega
  have h5 : v.typ ≠ 5 := by omega
  have h6 : v.typ ≠ 6 := by omega
  have h7 : v.typ ≠ 7 := by omega
  have h8 : v.typ ≠ 8 := by omega
  simp [defaultCallbacks, intType, tInt32, tInt64, tUint32, tUint64, tFloat, tDouble, tByte, tPointer, h1, h2, h3, h4, h5, h6, h7, h8]

/-- A packed histogram ends in bytes that are not a registered type. -/
theorem hist_not_decoded (neg pos : UInt8) (f : FloatCodec) {h : Hist} (hk : Kept h) (hz : h.size < 2 ^ 64) :
    ∃ ot, removeType h.packBytes = .ok ot ∧ (defaultCallbacks neg pos f).decode ⟨ot.1, ot.2⟩ = .ok none := by
  obtain ⟨pre, y, e, hy, hor⟩ := packBytes_tail hk hz
  obtain ⟨o, ho⟩ := removeType_tail pre y hy
  refine ⟨_, by rw [e]; exact ho, ?_⟩
  refine decode_unknown neg pos f _ ?_
  simp only
  rcases hor with h | h
  · left; omega
  · right; omega

/-! ## Where GETOP records come from -/

section
variable {cb : Callbacks} {heap : Nat} {db : Db}

/-- All records so far come from the database. -/
def AllFrom (cb : Callbacks) (db : Db) (g : G) : Prop := ∀ r ∈ g.recs, ∃ kv ∈ db, FromRecord cb kv r

theorem from_copyResponse {n j : Nat} {g g' : G} {kv : Bytes × Bytes} (hkv : kv ∈ db) (hg : AllFrom cb db g)
    (h : copyResponse cb heap n g j kv = .ok g') : AllFrom cb db g' := by
  unfold copyResponse at h
  split at h
  · cases h; exact hg
  · cases h1 : Key.keyToSp kv.1 with
    | err => rw [h1] at h; cases h
    | ub => rw [h1] at h; cases h
    | ok sp =>
    cases h2 : removeType kv.2 with
    | err => rw [h1, h2] at h; cases h
    | ub => rw [h1, h2] at h; cases h
    | ok ot =>
    simp only [h1, h2, Out.ok_bind] at h
    cases h3 : cb.decode sp.1 with
    | err => rw [h3] at h; cases h
    | ub => rw [h3] at h; cases h
    | ok s =>
    rw [h3, Out.ok_bind] at h
    cases s with
    | none => cases h; exact hg
    | some s =>
    simp only at h
    cases h4 : cb.decode sp.2 with
    | err => rw [h4] at h; cases h
    | ub => rw [h4] at h; cases h
    | ok p =>
    rw [h4, Out.ok_bind] at h
    cases p with
    | none => cases h; exact hg
    | some p =>
    simp only at h
    cases h5 : cb.decode ⟨ot.1, ot.2⟩ with
    | err => rw [h5] at h; cases h
    | ub => rw [h5] at h; cases h
    | ok o =>
    rw [h5, Out.ok_bind] at h
    cases o with
    | none => cases h; exact hg
    | some o =>
    simp only at h
    split at h
    · cases h
    · cases h
      intro r hr
      simp only [List.mem_append, List.mem_singleton] at hr
      rcases hr with hr | hr
      · exact hg r (List.mem_of_mem_take hr)
      · subst hr
        exact ⟨kv, hkv, sp, ot, s, p, o, h1, h2, h3, h4, h5, rfl, rfl, rfl⟩

/-- `visit` keeps `AllFrom`. -/
def KeepsFrom (cb : Callbacks) (db : Db) (visit : G → Nat → Bytes × Bytes → Out G) : Prop :=
  ∀ g j kv g', kv ∈ db → AllFrom cb db g → visit g j kv = .ok g' → AllFrom cb db g'

variable {visit : G → Nat → Bytes × Bytes → Out G} {cond : Bytes → Out Bool}

theorem from_forward (hv : KeepsFrom cb db visit) (r j it : Nat) (g g' : G) (hg : AllFrom cb db g)
    (h : forward visit cond db r j it g = .ok g') : AllFrom cb db g' := by
  induction r generalizing j it g with
  | zero => cases h; exact hg
  | succ r ih =>
    unfold forward at h
    cases h1 : db[it]? with
    | none => rw [h1] at h; cases h; exact hg
    | some kv =>
      simp only [h1] at h
      cases h2 : cond kv.1 with
      | err => rw [h2] at h; cases h
      | ub => rw [h2] at h; cases h
      | ok c =>
        rw [h2, Out.ok_bind] at h
        split at h
        · cases h3 : visit g j kv with
          | err => rw [h3] at h; cases h
          | ub => rw [h3] at h; cases h
          | ok g1 =>
            rw [h3, Out.ok_bind] at h
            exact ih _ _ _ (hv _ _ _ _ (List.mem_of_getElem? h1) hg h3) h
        · cases h; exact hg

theorem from_memBackward (hv : KeepsFrom cb db visit) (r j it : Nat) (g g' : G) (hg : AllFrom cb db g)
    (h : memBackward visit db r j it g = .ok g') : AllFrom cb db g' := by
  induction r generalizing j it g with
  | zero => cases h; exact hg
  | succ r ih =>
    unfold memBackward at h
    cases h1 : db[it]? with
    | none => rw [h1] at h; cases h
    | some kv =>
      simp only [h1] at h
      cases h3 : visit g j kv with
      | err => rw [h3] at h; cases h
      | ub => rw [h3] at h; cases h
      | ok g1 =>
        rw [h3, Out.ok_bind] at h
        have hg1 := hv _ _ _ _ (List.mem_of_getElem? h1) hg h3
        split at h
        · cases h; exact hg1
        · exact ih _ _ _ hg1 h

theorem from_memHighest (hv : KeepsFrom cb db visit) (r j it : Nat) (g g' : G) (hg : AllFrom cb db g)
    (h : memHighest visit cond db r j it g = .ok g') : AllFrom cb db g' := by
  induction r generalizing j it g with
  | zero => cases h; exact hg
  | succ r ih =>
    unfold memHighest at h
    split at h
    · cases h; exact hg
    · cases h1 : db[it]? with
      | none => rw [h1] at h; cases h
      | some kv =>
        simp only [h1] at h
        cases h2 : cond kv.1 with
        | err => rw [h2] at h; cases h
        | ub => rw [h2] at h; cases h
        | ok c =>
          rw [h2, Out.ok_bind] at h
          split at h
          · cases h3 : visit g j kv with
            | err => rw [h3] at h; cases h
            | ub => rw [h3] at h; cases h
            | ok g1 =>
              rw [h3, Out.ok_bind] at h
              exact ih _ _ _ (hv _ _ _ _ (List.mem_of_getElem? h1) hg h3) h
          · cases h; exact hg

theorem from_levelBackward (hv : KeepsFrom cb db visit) (r j : Nat) (it : Option Nat) (g g' : G) (hg : AllFrom cb db g)
    (h : levelBackward visit cond db r j it g = .ok g') : AllFrom cb db g' := by
  induction r generalizing j it g with
  | zero => cases h; exact hg
  | succ r ih =>
    unfold levelBackward at h
    cases h1 : it.bind (fun i => db[i]?.map (fun kv => (i, kv))) with
    | none => rw [h1] at h; cases h; exact hg
    | some ikv =>
      obtain ⟨i, kv⟩ := ikv
      have hkv : kv ∈ db := by
        cases it with
        | none => cases h1
        | some k =>
          simp only [Option.bind_some, Option.map_eq_some_iff] at h1
          obtain ⟨a, ha, e⟩ := h1
          cases e
          exact List.mem_of_getElem? ha
      simp only [h1] at h
      cases h2 : cond kv.1 with
      | err => rw [h2] at h; cases h
      | ub => rw [h2] at h; cases h
      | ok c =>
        rw [h2, Out.ok_bind] at h
        split at h
        · cases h3 : visit g j kv with
          | err => rw [h3] at h; cases h
          | ub => rw [h3] at h; cases h
          | ok g1 =>
            rw [h3, Out.ok_bind] at h
            exact ih _ _ _ (hv _ _ _ _ hkv hg h3) h
        · cases h; exact hg

theorem from_op {b : Backend} {x : GetOpItem} {pre : Bytes} {pl : Nat} {g : G} (h : opOf b cb heap db x pre pl = .ok g) :
    AllFrom cb db g := by
  have hv : KeepsFrom cb db (copyResponse cb heap x.numRecs) := fun g j kv g' hkv hg h => from_copyResponse hkv hg h
  have h0 : ∀ s, AllFrom cb db ⟨s, []⟩ := fun s r hr => by cases hr
  unfold opOf at h
  cases b with
  | mem =>
    simp only [memOp] at h
    repeat' split at h
    all_goals first
      | (cases h; exact h0 _)
      | cases h
      | (rename_i h1; exact from_copyResponse (List.mem_of_getElem? h1) (h0 _) h)
      | exact from_forward hv _ _ _ _ _ (h0 _) h
      | exact from_memBackward hv _ _ _ _ _ (h0 _) h
      | exact from_memHighest hv _ _ _ _ _ (h0 _) h
  | level =>
    simp only [levelOp] at h
    repeat' split at h
    all_goals first
      | (cases h; exact h0 _)
      | cases h
      | (rename_i h1; exact from_copyResponse (List.mem_of_getElem? h1) (h0 _) h)
      | exact from_forward hv _ _ _ _ _ (h0 _) h
      | exact from_levelBackward hv _ _ _ _ _ (h0 _) h

theorem from_getOpItem {b : Backend} {x : GetOpItem} {r : GetOpRes} (h : getOpItem b cb heap db x = .ok r) :
    ∀ rec ∈ r.recs, rec = ⟨x.subject, x.predicate, Blob.null⟩ ∨ ∃ kv ∈ db, FromRecord cb kv rec := by
  unfold getOpItem at h
  cases hi : loopInit cb x with
  | err => rw [hi] at h; cases h
  | ub => rw [hi] at h; cases h
  | ok i =>
    rw [hi, Out.ok_bind] at h
    have key : ∀ g, AllFrom cb db g → finish x g = .ok r →
        ∀ rec ∈ r.recs, rec = ⟨x.subject, x.predicate, Blob.null⟩ ∨ ∃ kv ∈ db, FromRecord cb kv rec := by
      intro g hg hf rec hrec
      unfold finish at hf
      split at hf
      · cases hf; exact .inr (hg rec hrec)
      · split at hf
        · cases hf
        · cases hf
          simp only [List.mem_append, List.mem_singleton] at hrec
          rcases hrec with hrec | hrec
          · exact .inr (hg rec hrec)
          · exact .inl hrec
    split at h
    · have h' : (opOf b cb heap db x i.2.1 i.2.2 >>= finish x) = .ok r := by cases b <;> exact h
      cases ho : opOf b cb heap db x i.2.1 i.2.2 with
      | err => rw [ho] at h'; cases h'
      | ub => rw [ho] at h'; cases h'
      | ok g => rw [ho, Out.ok_bind] at h'; exact key g (from_op ho) h'
    · rw [Out.ok_bind] at h
      exact key _ (fun r hr => by cases hr) h

end

end Hx.Store

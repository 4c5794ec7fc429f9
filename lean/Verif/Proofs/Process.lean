import Verif.Spec.Process
import Verif.Proofs.Queue
import Mathlib.Data.List.Nodup

/-!
# Lemmas about processing queues
-/

namespace Hx.Process
open Hx Msg Spec Results

variable {σ : Type} {α : Type}

theorem ok_iff {β γ : Type} {x : Out β} {f : β → Out γ} {b : γ} : (x >>= f) = .ok b ↔ ∃ a, x = .ok a ∧ f a = .ok b :=
  ⟨Queue.bind_ok, fun ⟨a, h1, h2⟩ => by rw [h1]; exact h2⟩

theorem addAll_append (l l' : List Res) (r : Results) : addAll (l ++ l') r = addAll l r >>= fun r => addAll l' r := by
  induction l generalizing r with
  | nil => rfl
  | cons x l ih =>
    simp only [List.cons_append, addAll]
    cases addResponse r x <;> simp [ih]

theorem deliverAll_append (exec : σ → Send → Out (σ × Option Res)) (a b : List Send) (s : σ) :
    deliverAll exec (a ++ b) s =
      deliverAll exec a s >>= fun x => deliverAll exec b x.1 >>= fun y => .ok (y.1, x.2 ++ y.2) := by
  induction a generalizing s with
  | nil =>
    simp only [List.nil_append, deliverAll, Out.ok_bind]
    cases deliverAll exec b s <;> rfl
  | cons x a ih =>
    simp only [List.cons_append, deliverAll, ih]
    cases exec s x with
    | err => rfl
    | ub => rfl
    | ok y =>
      simp only [Out.ok_bind]
      cases deliverAll exec a y.1 with
      | err => rfl
      | ub => rfl
      | ok z =>
        simp only [Out.ok_bind]
        cases deliverAll exec b z.1 <;> simp [List.append_assoc]

/-- The deliveries `sendAll` makes. -/
def sends (route : Int × Req → Option Int) (l : ReqList) : List Send :=
  l.filterMap (fun x => (route x).map (fun r => ⟨r, true, x.2⟩))

theorem sends_none {route : Int × Req → Option Int} {x : Int × Req} (h : route x = none) (l : ReqList) :
    sends route (x :: l) = sends route l := by
  simp [sends, h]

theorem sends_some {route : Int × Req → Option Int} {x : Int × Req} {r : Int} (h : route x = some r) (l : ReqList) :
    sends route (x :: l) = ⟨r, true, x.2⟩ :: sends route l := by
  simp [sends, h]

theorem sendAll_ok {net : Net} {serve : Server σ} {route : Int × Req → Option Int} {l : ReqList} {s s' : σ}
    {out : List (Int × Option Res)} (h : sendAll net serve route l s = .ok (s', out)) :
    deliverAll (deliver net serve) (sends route l) s = .ok (s', out.filterMap (fun x => x.2)) ∧
      out.map (fun x => x.1) = (sends route l).map (fun x => x.rank) := by
  induction l generalizing s out with
  | nil => cases h; exact ⟨rfl, rfl⟩
  | cons x l ih =>
    simp only [sendAll] at h
    cases hr : route x with
    | none =>
      rw [hr] at h
      rw [sends_none hr]
      exact ih h
    | some rank =>
      rw [hr] at h
      rw [sends_some hr]
      obtain ⟨y, hy, h⟩ := Queue.bind_ok h
      obtain ⟨z, hz, h⟩ := Queue.bind_ok h
      cases h
      obtain ⟨h1, h2⟩ := ih (show sendAll _ _ _ _ _ = .ok (z.1, z.2) from hz)
      refine ⟨?_, by simp [h2]⟩
      simp only [deliverAll, deliver, if_true, hy, Out.ok_bind, h1]
      cases y.2 <;> simp

theorem sendAll_of {net : Net} {serve : Server σ} {route : Int × Req → Option Int} {l : ReqList} {s s' : σ}
    {rs : List Res} (h : deliverAll (deliver net serve) (sends route l) s = .ok (s', rs)) :
    ∃ out, sendAll net serve route l s = .ok (s', out) ∧ out.filterMap (fun x => x.2) = rs := by
  induction l generalizing s rs with
  | nil => cases h; exact ⟨[], rfl, rfl⟩
  | cons x l ih =>
    simp only [sendAll]
    cases hr : route x with
    | none =>
      rw [sends_none hr] at h
      exact ih h
    | some rank =>
      rw [sends_some hr] at h
      obtain ⟨y, hy, h⟩ := Queue.bind_ok h
      obtain ⟨z, hz, h⟩ := Queue.bind_ok h
      cases h
      obtain ⟨out, h1, h2⟩ := ih (show deliverAll _ _ _ = .ok (z.1, z.2) from hz)
      simp only [deliver, if_true] at hy
      refine ⟨(rank, y.2) :: out, ?_, ?_⟩
      · simp only [hy, Out.ok_bind, h1]
      · rw [← h2]
        cases y.2 <;> simp

/-! ## Dividing into local and remote requests -/

theorem mem_fronts {i : Nat} {qs : List (List (List α))} {j : Nat} {p : List α} :
    (j, p) ∈ fronts i qs ↔ i ≤ j ∧ ∃ q, qs[j - i]? = some (p :: q) := by
  induction qs generalizing i with
  | nil => simp [fronts]
  | cons q qs ih =>
    have shift : ∀ k, i ≤ j → j ≠ i → ((q :: qs)[j - i]? = some k ↔ qs[j - (i + 1)]? = some k) := by
      intro k h1 h2
      have : j - i = (j - (i + 1)) + 1 := by omega
      rw [this, List.getElem?_cons_succ]
    cases q with
    | nil =>
      simp only [fronts, ih]
      by_cases h : j = i
      · subst h; simp; omega
      · constructor
        · rintro ⟨h1, q, h2⟩; exact ⟨by omega, q, (shift _ (by omega) h).mpr h2⟩
        · rintro ⟨h1, q, h2⟩; exact ⟨by omega, q, (shift _ (by omega) h).mp h2⟩
    | cons p' q' =>
      simp only [fronts, List.mem_cons, ih, Prod.mk.injEq]
      by_cases h : j = i
      · subst h
        simp only [Nat.sub_self, List.getElem?_cons_zero, Option.some.injEq, List.cons.injEq, true_and, Nat.le_refl]
        constructor
        · rintro (rfl | ⟨h1, -⟩)
          · exact ⟨q', rfl, rfl⟩
          · omega
        · rintro ⟨q, rfl, -⟩; exact Or.inl rfl
      · constructor
        · rintro (⟨rfl, -⟩ | ⟨h1, q, h2⟩)
          · exact absurd rfl h
          · exact ⟨by omega, q, (shift _ (by omega) h).mpr h2⟩
        · rintro ⟨h1, q, h2⟩
          exact Or.inr ⟨by omega, q, (shift _ (by omega) h).mp h2⟩

theorem fronts_nodup (i : Nat) (qs : List (List (List α))) : ((fronts i qs).map (fun x => x.1)).Nodup := by
  induction qs generalizing i with
  | nil => simp [fronts]
  | cons q qs ih =>
    cases q with
    | nil => exact ih (i + 1)
    | cons p q =>
      simp only [fronts, List.map_cons, List.nodup_cons]
      refine ⟨?_, ih (i + 1)⟩
      simp only [List.mem_map, not_exists, not_and]
      rintro ⟨j, p'⟩ h rfl
      exact absurd (mem_fronts.mp h).1 (by omega)

/-- A request made of a packet. -/
def reqOf (net : Net) (mk : List α → ReqBody) (x : Nat × List α) : Req := ⟨net.rank, (x.1 : Int), mk x.2⟩

/-- What holds of a list of requests that was built from some of the packets. -/
structure Built (net : Net) (mk : List α → ReqBody) (hs : List (Nat × List α)) (loc : List Req) (remote : ReqList) :
    Prop where
  locals : ∀ r ∈ loc, ∃ x ∈ hs, r = reqOf net mk x ∧ net.dsToRank[x.1]? = some net.rank
  remotes : ∀ r ∈ remote, ∃ x ∈ hs, r.2 = reqOf net mk x ∧ net.dsToRank[x.1]? = some r.1 ∧ r.1 ≠ net.rank
  keys : (remote.map (fun r => r.1)).Nodup
  locs : (loc.map (fun r => r.dst)).Nodup

theorem assign_keys (m : ReqList) (k : Int) (v : Req) (h : (m.map (fun r => r.1)).Nodup) :
    ((ReqList.assign m k v).map (fun r => r.1)).Nodup := by
  unfold ReqList.assign
  split
  · have : (m.map (fun x => if x.1 == k then (k, v) else x)).map (fun r => r.1) = m.map (fun r => r.1) := by
      rw [List.map_map]
      apply List.map_congr_left
      intro x _
      by_cases hx : x.1 = k <;> simp [hx]
    rw [this]; exact h
  · rename_i hn
    rw [List.map_append, List.nodup_append]
    refine ⟨h, by simp, ?_⟩
    simp only [List.any_eq_true, beq_iff_eq, not_exists, not_and] at hn
    intro a ha b hb
    simp only [List.map_cons, List.map_nil, List.mem_singleton] at hb
    subst hb
    obtain ⟨x, hx, rfl⟩ := List.mem_map.mp ha
    exact hn x hx

theorem mem_assign {m : ReqList} {k : Int} {v : Req} {x : Int × Req} (h : x ∈ ReqList.assign m k v) :
    x = (k, v) ∨ x ∈ m := by
  unfold ReqList.assign at h
  split at h
  · obtain ⟨y, hy, rfl⟩ := List.mem_map.mp h
    split
    · exact Or.inl rfl
    · exact Or.inr hy
  · simp only [List.mem_append, List.mem_singleton] at h
    exact h.symm

theorem divide_built (net : Net) (mk : List α → ReqBody) (l pre : List (Nat × List α)) (loc : List Req)
    (remote : ReqList) (d : List Req × ReqList) (hd : ((pre ++ l).map (fun x => x.1)).Nodup)
    (hb : Built net mk pre loc remote) (h : divide net mk l loc remote = .ok d) :
    Built net mk (pre ++ l) d.1 d.2 := by
  induction l generalizing pre loc remote with
  | nil => cases h; simpa using hb
  | cons x l ih =>
    obtain ⟨i, p⟩ := x
    simp only [divide] at h
    cases hr : net.dsToRank[i]? with
    | none => rw [hr] at h; cases h
    | some rank =>
      rw [hr] at h
      simp only at h
      have e : pre ++ (i, p) :: l = (pre ++ [(i, p)]) ++ l := by simp
      rw [e] at hd ⊢
      have hfresh : ∀ x ∈ pre, x.1 ≠ i := by
        intro x hx he
        rw [List.map_append, List.nodup_append] at hd
        have := hd.1
        rw [List.map_append, List.nodup_append] at this
        exact this.2.2 x.1 (List.mem_map_of_mem hx) i (by simp) he
      split_ifs at h with hl
      · refine ih _ _ _ hd ⟨?_, ?_, hb.keys, ?_⟩ h
        · intro r hr'
          simp only [List.mem_append, List.mem_singleton] at hr'
          rcases hr' with hr' | rfl
          · obtain ⟨x, hx, h1⟩ := hb.locals r hr'
            exact ⟨x, by simp [hx], h1⟩
          · exact ⟨(i, p), by simp, rfl, by rw [hl]; exact hr⟩
        · intro r hr'
          obtain ⟨x, hx, h1⟩ := hb.remotes r hr'
          exact ⟨x, by simp [hx], h1⟩
        · rw [List.map_append, List.nodup_append]
          refine ⟨hb.locs, by simp, ?_⟩
          intro a ha b hb'
          simp only [List.map_cons, List.map_nil, List.mem_singleton] at hb'
          subst hb'
          obtain ⟨r, hr', rfl⟩ := List.mem_map.mp ha
          obtain ⟨x, hx, h1, -⟩ := hb.locals r hr'
          rw [h1]
          simp only [reqOf, ne_eq]
          intro he
          exact hfresh x hx (by exact_mod_cast he)
      · refine ih _ _ _ hd ⟨?_, ?_, assign_keys _ _ _ hb.keys, hb.locs⟩ h
        · intro r hr'
          obtain ⟨x, hx, h1⟩ := hb.locals r hr'
          exact ⟨x, by simp [hx], h1⟩
        · intro r hr'
          rcases mem_assign hr' with rfl | hr'
          · exact ⟨(i, p), by simp, rfl, hr, fun h => hl h.symm⟩
          · obtain ⟨x, hx, h1⟩ := hb.remotes r hr'
            exact ⟨x, by simp [hx], h1⟩

theorem divide_all (net : Net) (mk : List α → ReqBody) (n : Nat) (hR : Routed net n) (l pre : List (Nat × List α))
    (loc : List Req) (remote : ReqList) (hn : ∀ x ∈ pre ++ l, x.1 < n)
    (hd : ((pre ++ l).map (fun x => x.1)).Nodup) (hb : Built net mk pre loc remote)
    (hl : ∀ x ∈ pre, net.dsToRank[x.1]? = some net.rank → reqOf net mk x ∈ loc)
    (hr : ∀ x ∈ pre, ∀ rank, net.dsToRank[x.1]? = some rank → rank ≠ net.rank → (rank, reqOf net mk x) ∈ remote) :
    ∃ d, divide net mk l loc remote = .ok d ∧
      (∀ x ∈ pre ++ l, net.dsToRank[x.1]? = some net.rank → reqOf net mk x ∈ d.1) ∧
      (∀ x ∈ pre ++ l, ∀ rank, net.dsToRank[x.1]? = some rank → rank ≠ net.rank → (rank, reqOf net mk x) ∈ d.2) := by
  induction l generalizing pre loc remote with
  | nil => exact ⟨_, rfl, by simpa using hl, by simpa using hr⟩
  | cons x l ih =>
    obtain ⟨i, p⟩ := x
    have hi : i < n := hn (i, p) (by simp)
    have hlt : i < net.dsToRank.length := Nat.lt_of_lt_of_le hi hR.placed
    have hk : net.dsToRank[i]? = some net.dsToRank[i] := List.getElem?_eq_getElem hlt
    generalize net.dsToRank[i] = rank at hk
    have e : pre ++ (i, p) :: l = (pre ++ [(i, p)]) ++ l := by simp
    have step : ∃ loc' remote', divide net mk ((i, p) :: l) loc remote = divide net mk l loc' remote' ∧
        divide net mk [(i, p)] loc remote = .ok (loc', remote') := by
      simp only [divide, hk]
      split_ifs <;> exact ⟨_, _, rfl, rfl⟩
    obtain ⟨loc', remote', h1, h2⟩ := step
    have hd' := hd
    rw [e, List.map_append, List.nodup_append] at hd'
    have hb' := divide_built net mk [(i, p)] pre loc remote _ hd'.1 hb h2
    rw [h1, e]
    have hl' : ∀ x ∈ pre ++ [(i, p)], net.dsToRank[x.1]? = some net.rank → reqOf net mk x ∈ loc' := by
      intro x hx hxr
      simp only [divide, hk] at h2
      simp only [List.mem_append, List.mem_singleton] at hx
      rcases hx with hx | rfl
      · split_ifs at h2 <;> cases h2
        · simp [hl x hx hxr]
        · exact hl x hx hxr
      · rw [hk] at hxr
        cases hxr
        rw [if_pos rfl] at h2
        cases h2
        simp [reqOf]
    have hr' : ∀ x ∈ pre ++ [(i, p)], ∀ rank, net.dsToRank[x.1]? = some rank → rank ≠ net.rank →
        (rank, reqOf net mk x) ∈ remote' := by
      intro x hx rk hxr hne
      simp only [divide, hk] at h2
      simp only [List.mem_append, List.mem_singleton] at hx
      rcases hx with hx | rfl
      · split_ifs at h2 with hloc
        · cases h2; exact hr x hx rk hxr hne
        · cases h2
          have hold := hr x hx rk hxr hne
          have hkne : rk ≠ rank := by
            rintro rfl
            have := hR.single x.1 i rk (hn x (by simp [hx])) hi hxr hk hne
            rw [List.map_append, List.nodup_append] at hd'
            exact hd'.1.2.2 x.1 (List.mem_map_of_mem hx) i (by simp) this
          unfold ReqList.assign
          split
          · refine List.mem_map.mpr ⟨_, hold, ?_⟩
            simp [hkne]
          · simp [hold]
      · rw [hk] at hxr
        cases hxr
        rw [if_neg (fun h => hne h.symm)] at h2
        cases h2
        unfold ReqList.assign
        split
        · rename_i hany
          obtain ⟨y, hy, hyk⟩ := List.any_eq_true.mp hany
          refine List.mem_map.mpr ⟨y, hy, ?_⟩
          rw [if_pos hyk]; rfl
        · simp [reqOf]
    exact ih (pre ++ [(i, p)]) loc' remote' (by rw [← e]; exact hn) (by rw [← e]; exact hd) hb' hl' hr'

/-! ## One round -/

theorem sentTo_of_mem {S : List Send} (hn : (S.map (fun x => x.req.dst)).Nodup) {x : Send} (hx : x ∈ S) {ds : Nat}
    (hd : x.req.dst = ds) : sentTo S ds = [x.req.body] := by
  induction S with
  | nil => cases hx
  | cons y S ih =>
    simp only [List.map_cons, List.nodup_cons] at hn
    rcases List.mem_cons.mp hx with rfl | hx
    · have : S.filter (fun x => x.req.dst == (ds : Int)) = [] := by
        rw [List.filter_eq_nil_iff]
        intro z hz
        simp only [beq_iff_eq]
        intro he
        exact hn.1 (List.mem_map.mpr ⟨z, hz, by rw [he, hd]⟩)
      simp [sentTo, hd, this]
    · have hne : y.req.dst ≠ (ds : Int) := by
        intro he
        exact hn.1 (List.mem_map.mpr ⟨x, hx, by rw [he, hd]⟩)
      have := ih hn.2 hx
      simpa [sentTo, List.filter_cons, hne] using this

theorem sentTo_of_not {S : List Send} {ds : Nat} (h : ∀ x ∈ S, x.req.dst ≠ ds) : sentTo S ds = [] := by
  have : S.filter (fun x => x.req.dst == (ds : Int)) = [] := by
    rw [List.filter_eq_nil_iff]
    intro z hz
    simpa using h z hz
  simp [sentTo, this]

theorem sentTo_append (S T : List Send) (ds : Nat) : sentTo (S ++ T) ds = sentTo S ds ++ sentTo T ds := by
  simp [sentTo]

theorem mem_sends {route : Int × Req → Option Int} {l : ReqList} {x : Send} (h : x ∈ sends route l) :
    ∃ y ∈ l, route y = some x.rank ∧ x.wire = true ∧ x.req = y.2 := by
  obtain ⟨y, hy, h2⟩ := List.mem_filterMap.mp h
  cases hr : route y with
  | none => simp [hr] at h2
  | some r =>
    simp only [hr, Option.map_some, Option.some.injEq] at h2
    subst h2
    exact ⟨y, hy, hr, rfl, rfl⟩

theorem sends_dsts (route : Int × Req → Option Int) (l : ReqList) :
    ((sends route l).map (fun x => x.req.dst)).Sublist (l.map (fun x => x.2.dst)) := by
  induction l with
  | nil => exact .slnil
  | cons x l ih =>
    cases hr : route x with
    | none =>
      have : sends route (x :: l) = sends route l := by simp [sends, hr]
      rw [this]; exact .cons _ ih
    | some r =>
      have : sends route (x :: l) = ⟨r, true, x.2⟩ :: sends route l := by simp [sends, hr]
      rw [this]; exact .cons_cons _ ih

/-- The deliveries of one round. -/
def roundSends (net : Net) (route : Int × Req → Option Int) (d : List Req × ReqList) : List Send :=
  sends route (net.order d.2) ++ d.1.map (fun r => ⟨net.rank, false, r⟩)

theorem built_dsts {net : Net} {mk : List α → ReqBody} {hs : List (Nat × List α)} {d : List Req × ReqList}
    (hb : Built net mk hs d.1 d.2) : (d.2.map (fun x => x.2.dst)).Nodup := by
  have hk := hb.keys
  have hr := hb.remotes
  generalize d.2 = m at hk hr
  induction m with
  | nil => simp
  | cons x m ih =>
    simp only [List.map_cons, List.nodup_cons] at hk ⊢
    refine ⟨?_, ih hk.2 (fun r h => hr r (List.mem_cons_of_mem _ h))⟩
    intro hmem
    obtain ⟨y, hy, he⟩ := List.mem_map.mp hmem
    obtain ⟨a, -, ha, har, -⟩ := hr x (by simp)
    obtain ⟨b, -, hb, hbr, -⟩ := hr y (List.mem_cons_of_mem _ hy)
    rw [ha, hb] at he
    simp only [reqOf] at he
    have : b.1 = a.1 := by exact_mod_cast he
    rw [this, har] at hbr
    exact hk.1 (List.mem_map.mpr ⟨y, hy, (Option.some.inj hbr).symm⟩)

theorem roundSends_nodup {net : Net} {mk : List α → ReqBody} {hs : List (Nat × List α)} {d : List Req × ReqList}
    (hb : Built net mk hs d.1 d.2) (route : Int × Req → Option Int) :
    ((roundSends net route d).map (fun x => x.req.dst)).Nodup := by
  unfold roundSends
  rw [List.map_append, List.nodup_append]
  refine ⟨?_, ?_, ?_⟩
  · refine (sends_dsts route _).nodup ?_
    exact (((net.order_perm d.2).map (fun x => x.2.dst)).nodup_iff).mpr (built_dsts hb)
  · rw [List.map_map]; exact hb.locs
  · intro a ha b hb' he
    subst he
    obtain ⟨x, hx, rfl⟩ := List.mem_map.mp ha
    obtain ⟨y, hy, -, -, hxy⟩ := mem_sends hx
    obtain ⟨u, -, hu, hur, hne⟩ := hb.remotes y ((net.order_perm d.2).mem_iff.mp hy)
    rw [List.map_map] at hb'
    obtain ⟨z, hz, he⟩ := List.mem_map.mp hb'
    obtain ⟨v, -, hv, hvr⟩ := hb.locals z hz
    simp only [Function.comp, hxy, hu, hv, reqOf] at he
    have : v.1 = u.1 := by exact_mod_cast he
    rw [this, hur] at hvr
    exact hne (Option.some.inj hvr)

theorem roundSends_from {net : Net} {mk : List α → ReqBody} {hs : List (Nat × List α)} {d : List Req × ReqList}
    (hb : Built net mk hs d.1 d.2) (route : Int × Req → Option Int) {x : Send} (hx : x ∈ roundSends net route d) :
    ∃ h ∈ hs, x.req = reqOf net mk h := by
  rcases List.mem_append.mp hx with hx | hx
  · obtain ⟨y, hy, -, -, hxy⟩ := mem_sends hx
    obtain ⟨u, hu, hu2, -⟩ := hb.remotes y ((net.order_perm d.2).mem_iff.mp hy)
    exact ⟨u, hu, hxy.trans hu2⟩
  · obtain ⟨y, hy, rfl⟩ := List.mem_map.mp hx
    obtain ⟨u, hu, hu2, -⟩ := hb.locals y hy
    exact ⟨u, hu, hu2⟩

/-- The first packet of the queue of a datastore. -/
def frontFor (mk : List α → ReqBody) (qs : List (List (List α))) (ds : Nat) : List ReqBody :=
  ((qs.getD ds []).head?.toList).map mk

theorem mem_fronts_zero {qs : List (List (List α))} {j : Nat} {p : List α} :
    (j, p) ∈ fronts 0 qs ↔ ∃ q, qs[j]? = some (p :: q) := by
  simp [mem_fronts]

theorem frontFor_of_mem (mk : List α → ReqBody) {qs : List (List (List α))} {h : Nat × List α} (hm : h ∈ fronts 0 qs) :
    frontFor mk qs h.1 = [mk h.2] := by
  obtain ⟨q, hq⟩ := mem_fronts_zero.mp hm
  simp [frontFor, List.getD, hq]

theorem frontFor_of_not (mk : List α → ReqBody) {qs : List (List (List α))} {ds : Nat}
    (hm : ∀ p, (ds, p) ∉ fronts 0 qs) : frontFor mk qs ds = [] := by
  unfold frontFor
  cases hq : qs[ds]? with
  | none => simp [List.getD, hq]
  | some q =>
    cases q with
    | nil => simp [List.getD, hq]
    | cons p q => exact absurd (mem_fronts_zero.mpr ⟨q, hq⟩) (hm p)

theorem roundSends_sublist {net : Net} {mk : List α → ReqBody} {qs : List (List (List α))} {d : List Req × ReqList}
    (hb : Built net mk (fronts 0 qs) d.1 d.2) (route : Int × Req → Option Int) (ds : Nat) :
    (sentTo (roundSends net route d) ds).Sublist (frontFor mk qs ds) := by
  by_cases h : ∃ x ∈ roundSends net route d, x.req.dst = ds
  · obtain ⟨x, hx, hd⟩ := h
    rw [sentTo_of_mem (roundSends_nodup hb route) hx hd]
    obtain ⟨u, hu, hxu⟩ := roundSends_from hb route hx
    have : u.1 = ds := by rw [hxu] at hd; simp only [reqOf] at hd; exact_mod_cast hd
    rw [← this, frontFor_of_mem mk hu, hxu]
    exact List.Sublist.refl _
  · rw [sentTo_of_not (fun x hx hd => h ⟨x, hx, hd⟩)]
    exact List.nil_sublist _

theorem serveLocal_iff (net : Net) (serve : Server σ) (l : List Req) (s s' : σ) (r r' : Results) :
    serveLocal net serve l s r = .ok (s', r') ↔
      ∃ rs, deliverAll (deliver net serve) (l.map (fun q => ⟨net.rank, false, q⟩)) s = .ok (s', rs) ∧
        addAll rs r = .ok r' := by
  induction l generalizing s r with
  | nil =>
    constructor
    · intro h; cases h; exact ⟨[], rfl, rfl⟩
    · rintro ⟨rs, h, h2⟩; cases h; cases h2; rfl
  | cons q l ih =>
    simp only [serveLocal, List.map_cons, deliverAll, ok_iff, deliver, Bool.false_eq_true, if_false]
    constructor
    · rintro ⟨x, hx, r1, h1, h2⟩
      obtain ⟨rs, h3, h4⟩ := (ih _ _).mp h2
      refine ⟨[x.2] ++ rs, ⟨_, ⟨x, hx, rfl⟩, _, h3, rfl⟩, ?_⟩
      rw [addAll_append, h1]; exact h4
    · rintro ⟨rs, ⟨y, ⟨x, hx, hy⟩, z, hz, hr⟩, ha⟩
      cases hy
      cases hr
      simp only [Option.toList_some] at ha
      rw [addAll_append] at ha
      obtain ⟨r1, h1, h2⟩ := Queue.bind_ok ha
      exact ⟨x, hx, r1, h1, (ih _ _).mpr ⟨_, hz, h2⟩⟩

/-- The rank a remote request is sent to. -/
def route (net : Net) (x : Int × Req) : Option Int :=
  match net.transport with
  | .null => none
  | .mpi ranks => ranks.lookup x.2.dst
  | .thallium endpoints => endpoints.lookup x.1

theorem communicate_ok {net : Net} {serve : Server σ} {s s' : σ} {remote : ReqList} {rs : List Res}
    (h : communicate net serve s remote = .ok (s', rs)) :
    deliverAll (deliver net serve) (sends (route net) (net.order remote)) s = .ok (s', rs) := by
  unfold communicate at h
  cases ht : net.transport with
  | null => rw [ht] at h; cases h
  | mpi ranks =>
    have hroute : route net = fun x => ranks.lookup x.2.dst := by funext y; simp [route, ht]
    rw [ht] at h
    obtain ⟨x, hx, h2⟩ := Queue.bind_ok h
    split_ifs at h2
    cases h2
    rw [hroute]
    exact (sendAll_ok (show sendAll _ _ _ _ _ = .ok (x.1, x.2) from hx)).1
  | thallium endpoints =>
    have hroute : route net = fun x => endpoints.lookup x.1 := by funext y; simp [route, ht]
    rw [ht] at h
    obtain ⟨x, hx, h2⟩ := Queue.bind_ok h
    cases h2
    rw [hroute]
    exact (sendAll_ok (show sendAll _ _ _ _ _ = .ok (x.1, x.2) from hx)).1

theorem communicate_of {net : Net} {serve : Server σ} {s s' : σ} {remote : ReqList} {rs : List Res} (hne : remote ≠ [])
    (hr : ∀ x ∈ remote, ∃ ds : Nat, x.2.dst = ds ∧ Reaches net ds x.1)
    (h : deliverAll (deliver net serve) (sends (route net) (net.order remote)) s = .ok (s', rs)) :
    communicate net serve s remote = .ok (s', rs) := by
  unfold communicate
  cases ht : net.transport with
  | null =>
    cases remote with
    | nil => exact absurd rfl hne
    | cons x l =>
      obtain ⟨ds, -, h2⟩ := hr x (by simp)
      simp [Reaches, ht] at h2
  | mpi ranks =>
    have hroute : route net = fun x => ranks.lookup x.2.dst := by funext y; simp [route, ht]
    obtain ⟨out, h1, h2⟩ := sendAll_of h
    have h3 := (sendAll_ok h1).2
    rw [hroute] at h1 h3
    simp only [h1, Out.ok_bind]
    rw [if_pos]
    · rw [h2]
    · rw [List.all_eq_true]
      intro y hy
      have hm : y.1 ∈ (sends (fun x => ranks.lookup x.2.dst) (net.order remote)).map (fun x => x.rank) := by
        rw [← h3]; exact List.mem_map_of_mem hy
      obtain ⟨z, hz, he⟩ := List.mem_map.mp hm
      obtain ⟨u, hu, hu1, -, -⟩ := mem_sends hz
      obtain ⟨ds, h4, h5⟩ := hr u ((net.order_perm remote).mem_iff.mp hu)
      simp only [Reaches, ht] at h5
      rw [h4, h5.1] at hu1
      have : y.1 = u.1 := by rw [← he]; exact (Option.some.inj hu1).symm
      rw [this, h5.2]
      simp
  | thallium endpoints =>
    have hroute : route net = fun x => endpoints.lookup x.1 := by funext y; simp [route, ht]
    obtain ⟨out, h1, h2⟩ := sendAll_of h
    rw [hroute] at h1
    simp only [h1, Out.ok_bind, h2]

theorem round_ok {net : Net} {serve : Server σ} {mk : List α → ReqBody} {s s' : σ} {r r' : Results}
    {qs qs' : List (List (List α))} (h : round net serve mk s r qs = .ok (s', r', qs')) :
    qs' = popped qs ∧ ∃ d rs, divide net mk (fronts 0 qs) [] [] = .ok d ∧
      deliverAll (deliver net serve) (roundSends net (route net) d) s = .ok (s', rs) ∧ addAll rs r = .ok r' := by
  unfold round at h
  obtain ⟨d, hd, h⟩ := Queue.bind_ok h
  obtain ⟨x, hx, h⟩ := Queue.bind_ok h
  obtain ⟨y, hy, h⟩ := Queue.bind_ok h
  cases h
  refine ⟨rfl, d, ?_⟩
  obtain ⟨rs2, h3, h4⟩ := (serveLocal_iff net serve _ _ _ _ _).mp (show serveLocal _ _ _ _ _ = .ok (y.1, y.2) from hy)
  split at hx
  · rename_i hemp
    cases hx
    have he : d.2 = [] := by simpa using hemp
    refine ⟨rs2, hd, ?_, h4⟩
    have ho : net.order d.2 = [] := by
      have := net.order_perm d.2
      rw [he] at this ⊢
      exact this.eq_nil
    simp only [roundSends, ho, sends, List.filterMap_nil, List.nil_append]
    exact h3
  · obtain ⟨c, hc, hx⟩ := Queue.bind_ok hx
    obtain ⟨r1, hr1, hx⟩ := Queue.bind_ok hx
    cases hx
    refine ⟨c.2 ++ rs2, hd, ?_, ?_⟩
    · unfold roundSends
      rw [deliverAll_append, communicate_ok (show communicate _ _ _ _ = .ok (c.1, c.2) from hc), Out.ok_bind, h3, Out.ok_bind]
    · rw [addAll_append, hr1, Out.ok_bind, h4]

theorem round_of {net : Net} {serve : Server σ} {mk : List α → ReqBody} {s s' : σ} {r r' : Results}
    {qs : List (List (List α))} {d : List Req × ReqList} {rs : List Res}
    (hr : ∀ x ∈ d.2, ∃ ds : Nat, x.2.dst = ds ∧ Reaches net ds x.1)
    (hd : divide net mk (fronts 0 qs) [] [] = .ok d)
    (h1 : deliverAll (deliver net serve) (roundSends net (route net) d) s = .ok (s', rs)) (h2 : addAll rs r = .ok r') :
    round net serve mk s r qs = .ok (s', r', popped qs) := by
  unfold round
  rw [hd, Out.ok_bind]
  unfold roundSends at h1
  rw [deliverAll_append] at h1
  obtain ⟨a, ha, h1⟩ := Queue.bind_ok h1
  obtain ⟨b, hb, h1⟩ := Queue.bind_ok h1
  cases h1
  rw [addAll_append] at h2
  obtain ⟨r1, hr1, h2⟩ := Queue.bind_ok h2
  have hl : serveLocal net serve d.1 a.1 r1 = .ok (b.1, r') :=
    (serveLocal_iff net serve _ _ _ _ _).mpr ⟨b.2, hb, h2⟩
  by_cases he : d.2 = []
  · have ho : net.order d.2 = [] := by
      have := net.order_perm d.2
      rw [he] at this ⊢
      exact this.eq_nil
    rw [ho] at ha
    cases ha
    cases hr1
    simp only [he, List.isEmpty_nil, if_true, Out.ok_bind, hl]
  · have hc := communicate_of he hr (show deliverAll _ _ _ = .ok (a.1, a.2) from ha)
    have hemp : d.2.isEmpty = false := by simpa using he
    simp only [hemp, Bool.false_eq_true, if_false, hc, Out.ok_bind, hr1, hl]

/-! ## The loop -/

theorem popped_front (mk : List α → ReqBody) (qs : List (List (List α))) (ds : Nat) :
    frontFor mk qs ds ++ packetsFor mk (popped qs) ds = packetsFor mk qs ds := by
  unfold frontFor packetsFor popped
  cases hq : qs[ds]? with
  | none => simp [List.getD, hq]
  | some q => cases q <;> simp [List.getD, hq]

theorem remaining_popped (qs : List (List (List α))) (h : remaining qs ≠ 0) : remaining (popped qs) < remaining qs := by
  unfold remaining popped at *
  induction qs with
  | nil => simp at h
  | cons q qs ih =>
    simp only [List.map_cons, List.sum_cons] at h ⊢
    cases q with
    | nil =>
      simp only [List.length_nil, Nat.zero_add, List.tail_nil] at h ⊢
      exact ih h
    | cons p q =>
      simp only [List.tail_cons, List.length_cons]
      by_cases h0 : (qs.map List.length).sum = 0
      · have : ((qs.map List.tail).map List.length).sum ≤ 0 := by
          clear ih h
          induction qs with
          | nil => simp
          | cons a qs ih =>
            simp only [List.map_cons, List.sum_cons] at h0 ⊢
            have := ih (by omega)
            have := List.length_tail (l := a)
            omega
        omega
      · have := ih h0
        omega

theorem remaining_zero {qs : List (List (List α))} (h : remaining qs = 0) :
    (∀ (mk : List α → ReqBody) (ds : Nat), packetsFor mk qs ds = []) ∧ qs = qs.map (fun _ => []) := by
  have hall : ∀ q ∈ qs, q = [] := by
    unfold remaining at h
    induction qs with
    | nil => simp
    | cons q qs ih =>
      simp only [List.map_cons, List.sum_cons] at h
      intro q' hq'
      rcases List.mem_cons.mp hq' with rfl | hq'
      · exact List.length_eq_zero_iff.mp (by omega)
      · exact ih (by omega) q' hq'
  refine ⟨?_, ?_⟩
  · intro mk ds
    unfold packetsFor
    cases hq : qs[ds]? with
    | none => simp [List.getD, hq]
    | some q => simp [List.getD, hq, hall q (List.mem_of_getElem? hq)]
  · conv_lhs => rw [← List.map_id qs]
    exact List.map_congr_left (fun q hq => hall q hq)

theorem map_popped (qs : List (List (List α))) :
    (popped qs).map (fun _ => ([] : List (List α))) = qs.map (fun _ => []) := by
  unfold popped; rw [List.map_map]; rfl

theorem built_nil (net : Net) (mk : List α → ReqBody) : Built net mk [] [] [] :=
  ⟨by simp, by simp, by simp, by simp⟩

theorem divide_fronts {net : Net} {mk : List α → ReqBody} {qs : List (List (List α))} {d : List Req × ReqList}
    (h : divide net mk (fronts 0 qs) [] [] = .ok d) : Built net mk (fronts 0 qs) d.1 d.2 := by
  have := divide_built net mk (fronts 0 qs) [] [] [] d (by simpa using fronts_nodup 0 qs) (built_nil net mk) h
  simpa using this

theorem fronts_lt {qs : List (List (List α))} {x : Nat × List α} (h : x ∈ fronts 0 qs) : x.1 < qs.length := by
  obtain ⟨q, hq⟩ := mem_fronts_zero.mp h
  exact (List.getElem?_eq_some_iff.mp hq).1

/-- Without any assumption: what was delivered is part of what was queued. -/
theorem processLoop_ok {net : Net} {serve : Server σ} {mk : List α → ReqBody} {fuel : Nat} {s s' : σ} {r r' : Results}
    {qs qs' : List (List (List α))} (h : processLoop net serve mk fuel s r qs = .ok (s', r', qs')) :
    qs' = qs.map (fun _ => []) ∧ ∃ S rs, deliverAll (deliver net serve) S s = .ok (s', rs) ∧ addAll rs r = .ok r' ∧
      (∀ ds, (sentTo S ds).Sublist (packetsFor mk qs ds)) ∧
      ∀ x ∈ S, x.req.src = net.rank ∧ ∃ ds : Nat, ds < qs.length ∧ x.req.dst = ds := by
  induction fuel generalizing s r qs with
  | zero => cases h
  | succ fuel ih =>
    unfold processLoop at h
    split at h
    · rename_i h0
      cases h
      obtain ⟨h1, h2⟩ := remaining_zero h0
      exact ⟨h2, [], [], rfl, rfl, fun ds => by rw [h1]; exact .slnil, by simp⟩
    · obtain ⟨x, hx, h⟩ := Queue.bind_ok h
      obtain ⟨hq, d, rs1, hd, h1, h2⟩ := round_ok (show round _ _ _ _ _ _ = .ok (x.1, x.2.1, x.2.2) from hx)
      obtain ⟨h3, S, rs2, h4, h5, h6, h7⟩ := ih h
      rw [hq] at h3 h6 h7
      have hb := divide_fronts hd
      refine ⟨by rw [h3, map_popped], roundSends net (route net) d ++ S, rs1 ++ rs2, ?_, ?_, ?_, ?_⟩
      · rw [deliverAll_append, h1, Out.ok_bind, h4, Out.ok_bind]
      · rw [addAll_append, h2, Out.ok_bind, h5]
      · intro ds
        rw [sentTo_append, ← popped_front]
        exact (roundSends_sublist hb _ ds).append (h6 ds)
      · intro y hy
        rcases List.mem_append.mp hy with hy | hy
        · obtain ⟨u, hu, he⟩ := roundSends_from hb _ hy
          rw [he]
          exact ⟨rfl, u.1, fronts_lt hu, rfl⟩
        · obtain ⟨h8, ds, h9, h10⟩ := h7 y hy
          exact ⟨h8, ds, by simpa [popped] using h9, h10⟩

theorem routed_popped {net : Net} {qs : List (List (List α))} (h : Routed net qs.length) :
    Routed net (popped qs).length := by
  simpa [popped] using h

theorem route_of_reaches {net : Net} {ds : Nat} {rank : Int} {x : Int × Req} (h : Reaches net ds rank)
    (h1 : x.1 = rank) (h2 : x.2.dst = ds) : route net x = some rank := by
  unfold Reaches at h
  unfold route
  cases ht : net.transport with
  | null => rw [ht] at h; exact h.elim
  | mpi ranks => rw [ht] at h; simp only; rw [h2]; exact h.1
  | thallium endpoints => rw [ht] at h; simp only; rw [h1]; exact h

/-- The requests of a round that are for other ranks can reach them. -/
structure Reachable (net : Net) (d : List Req × ReqList) : Prop where
  keys : (d.2.map (fun r => r.1)).Nodup
  reach : ∀ x ∈ d.2, ∃ ds : Nat, x.2.dst = ds ∧ Reaches net ds x.1
  other : ∀ x ∈ d.2, x.1 ≠ net.rank
  placed : ∀ x ∈ d.2, x.1 ∈ net.dsToRank

/-- When every packet can reach its datastore: the deliveries, and that the flush is their execution. -/
theorem processLoop_rounds (net : Net) (mk : List α → ReqBody) (qs : List (List (List α)))
    (hR : Routed net qs.length) : ∃ ds, (∀ d ∈ ds, Reachable net d) ∧ (∀ fuel, remaining qs < fuel → rounds net mk fuel qs = .ok ds) ∧
      Delivers net mk qs (ds.flatMap (roundSends net (route net))) ∧
      ∀ {σ : Type} (serve : Server σ) (fuel : Nat) (_ : remaining qs < fuel) (s s' : σ) (r r' : Results)
        (qs' : List (List (List α))),
        processLoop net serve mk fuel s r qs = .ok (s', r', qs') ↔
          qs' = qs.map (fun _ => []) ∧
            ∃ rs, deliverAll (deliver net serve) (ds.flatMap (roundSends net (route net))) s = .ok (s', rs) ∧ addAll rs r = .ok r' := by
  generalize hn : remaining qs = n
  induction n using Nat.strongRecOn generalizing qs with
  | _ n ih =>
    by_cases h0 : n = 0
    · obtain ⟨h1, h2⟩ := remaining_zero (hn.trans h0)
      refine ⟨[], by simp, ?_, ⟨fun ds => by rw [h1]; rfl, by simp⟩, ?_⟩
      · intro fuel hf
        obtain ⟨fuel, rfl⟩ : ∃ k, fuel = k + 1 := ⟨fuel - 1, by omega⟩
        unfold rounds
        rw [if_pos (hn.trans h0)]
      intro σ serve fuel hf s s' r r' qs'
      obtain ⟨fuel, rfl⟩ : ∃ k, fuel = k + 1 := ⟨fuel - 1, by omega⟩
      unfold processLoop
      rw [if_pos (hn.trans h0)]
      constructor
      · intro h; cases h; exact ⟨h2, [], rfl, rfl⟩
      · rintro ⟨h3, rs, h4, h5⟩
        cases h4
        cases h5
        rw [h3, ← h2]
    · have hlt := remaining_popped qs (by omega)
      obtain ⟨S, hreachS, hrounds, hS, hrun⟩ := ih _ (by omega) (popped qs) (routed_popped hR) rfl
      obtain ⟨d, hd, hloc, hrem⟩ := divide_all net mk qs.length hR (fronts 0 qs) [] [] []
        (by simpa using fun x (hx : x ∈ fronts 0 qs) => fronts_lt hx)
        (by simpa using fronts_nodup 0 qs) (built_nil net mk) (by simp) (by simp)
      simp only [List.nil_append] at hloc hrem
      have hb := divide_fronts hd
      have hreach : ∀ x ∈ d.2, ∃ ds : Nat, x.2.dst = ds ∧ Reaches net ds x.1 := by
        intro x hx
        obtain ⟨u, hu, he, hur, hne⟩ := hb.remotes x hx
        exact ⟨u.1, by rw [he]; rfl, hR.reach u.1 x.1 (fronts_lt hu) hur hne⟩
      refine ⟨d :: S, ?_, ?_, ⟨?_, ?_⟩, ?_⟩
      · intro y hy
        rcases List.mem_cons.mp hy with rfl | hy
        · refine ⟨hb.keys, hreach, ?_, ?_⟩
          · intro x hx
            obtain ⟨u, -, -, -, hne⟩ := hb.remotes x hx
            exact hne
          · intro x hx
            obtain ⟨u, -, -, hur, -⟩ := hb.remotes x hx
            exact List.mem_of_getElem? hur
        · exact hreachS y hy
      · intro fuel hf
        obtain ⟨fuel, rfl⟩ : ∃ k, fuel = k + 1 := ⟨fuel - 1, by omega⟩
        unfold rounds
        rw [if_neg (by omega), hd, Out.ok_bind, hrounds fuel (by omega), Out.ok_bind]
      · intro ds
        rw [List.flatMap_cons, sentTo_append, hS.packets, ← popped_front mk qs]
        congr 1
        by_cases hx : ∃ p, (ds, p) ∈ fronts 0 qs
        · obtain ⟨p, hp⟩ := hx
          rw [frontFor_of_mem mk hp]
          have hlt' := Nat.lt_of_lt_of_le (fronts_lt hp) hR.placed
          have hk := List.getElem?_eq_getElem hlt'
          by_cases hk2 : net.dsToRank[ds] = net.rank
          · have hm : (⟨net.rank, false, reqOf net mk (ds, p)⟩ : Send) ∈ roundSends net (route net) d := by
              refine List.mem_append_right _ (List.mem_map.mpr ⟨_, hloc _ hp (by rw [hk, hk2]), rfl⟩)
            exact sentTo_of_mem (roundSends_nodup hb _) hm rfl
          · have hmem := hrem _ hp _ hk hk2
            have hro : route net (net.dsToRank[ds], reqOf net mk (ds, p)) = some net.dsToRank[ds] :=
              route_of_reaches (hR.reach ds _ (fronts_lt hp) hk hk2) rfl rfl
            have hm : (⟨net.dsToRank[ds], true, reqOf net mk (ds, p)⟩ : Send) ∈ roundSends net (route net) d := by
              refine List.mem_append_left _ (List.mem_filterMap.mpr
                ⟨_, (net.order_perm d.2).mem_iff.mpr hmem, ?_⟩)
              rw [hro]; rfl
            exact sentTo_of_mem (roundSends_nodup hb _) hm rfl
        · rw [frontFor_of_not mk (fun p hp => hx ⟨p, hp⟩)]
          apply sentTo_of_not
          intro x hx2 he
          obtain ⟨u, hu, hxu⟩ := roundSends_from hb _ hx2
          have : u.1 = ds := by rw [hxu] at he; simp only [reqOf] at he; exact_mod_cast he
          subst this
          exact hx ⟨u.2, hu⟩
      · intro x hx
        rw [List.flatMap_cons] at hx
        rcases List.mem_append.mp hx with hx | hx
        · rcases List.mem_append.mp hx with hx | hx
          · obtain ⟨y, hy, hyr, hyw, hxy⟩ := mem_sends hx
            have hy := (net.order_perm d.2).mem_iff.mp hy
            obtain ⟨u, hu, he, hur, hne⟩ := hb.remotes y hy
            have hro := route_of_reaches (net := net) (x := y) (hR.reach u.1 y.1 (fronts_lt hu) hur hne) rfl (by rw [he]; rfl)
            rw [hro] at hyr
            have hrk := Option.some.inj hyr
            rw [hxy, he]
            exact ⟨rfl, u.1, fronts_lt hu, rfl, by rw [← hrk]; exact hur, by rw [hyw, ← hrk]; simp [hne]⟩
          · obtain ⟨y, hy, rfl⟩ := List.mem_map.mp hx
            obtain ⟨u, hu, he, hur⟩ := hb.locals y hy
            rw [he]
            exact ⟨rfl, u.1, fronts_lt hu, rfl, hur, by simp⟩
        · obtain ⟨h1, ds, h2, h3⟩ := hS.place x hx
          exact ⟨h1, ds, by simpa [popped] using h2, h3⟩
      · intro σ serve fuel hf s s' r r' qs'
        obtain ⟨fuel, rfl⟩ : ∃ k, fuel = k + 1 := ⟨fuel - 1, by omega⟩
        unfold processLoop
        rw [if_neg (by omega)]
        constructor
        · intro h
          obtain ⟨x, hx, h⟩ := Queue.bind_ok h
          obtain ⟨hq, d', rs1, hd', h1, h2⟩ := round_ok (show round _ _ _ _ _ _ = .ok (x.1, x.2.1, x.2.2) from hx)
          rw [hd] at hd'
          cases hd'
          rw [hq, hrun serve fuel (by omega)] at h
          obtain ⟨h3, rs2, h4, h5⟩ := h
          refine ⟨by rw [h3, map_popped], rs1 ++ rs2, ?_, ?_⟩
          · rw [List.flatMap_cons, deliverAll_append, h1, Out.ok_bind, h4, Out.ok_bind]
          · rw [addAll_append, h2, Out.ok_bind, h5]
        · rintro ⟨h3, rs, h4, h5⟩
          rw [List.flatMap_cons, deliverAll_append] at h4
          obtain ⟨a, ha, h4⟩ := Queue.bind_ok h4
          obtain ⟨b, hb4, h4⟩ := Queue.bind_ok h4
          cases h4
          rw [addAll_append] at h5
          obtain ⟨r1, hr1, h5⟩ := Queue.bind_ok h5
          rw [round_of hreach hd (show deliverAll _ _ _ = .ok (a.1, a.2) from ha) hr1, Out.ok_bind,
            hrun serve fuel (by omega)]
          exact ⟨by rw [h3, map_popped], b.2, hb4, h5⟩

theorem processLoop_delivers (net : Net) (mk : List α → ReqBody) (qs : List (List (List α)))
    (hR : Routed net qs.length) : ∃ S, Delivers net mk qs S ∧
      ∀ {σ : Type} (serve : Server σ) (fuel : Nat) (_ : remaining qs < fuel) (s s' : σ) (r r' : Results)
        (qs' : List (List (List α))),
        processLoop net serve mk fuel s r qs = .ok (s', r', qs') ↔
          qs' = qs.map (fun _ => []) ∧ ∃ rs, deliverAll (deliver net serve) S s = .ok (s', rs) ∧ addAll rs r = .ok r' := by
  obtain ⟨ds, -, -, h1, h2⟩ := processLoop_rounds net mk qs hR
  exact ⟨_, h1, h2⟩

end Hx.Process

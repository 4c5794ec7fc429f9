import Verif.Proofs.Stats
import Verif.Props.C29_Flush

/-!
# C72: the statistics of a session

What `hxhimPrintStats` says about the calls of a session and the packets it has sent (src/hxhim/
Stats.cpp, include/hxhim/private/process.hpp:74-75). The maps are not protected by a lock: two threads
of a session that call at the same time race.
-/

namespace Hx.Props
open Hx Msg Queue Process Spec Stats Place
open Hx.Results hiding Kind
open Hx.Config (str)

variable {σ : Type}

/-! ## Packets -/

/-- For each kind of operation, the operations of the packets counted and of the packets that are
still queued are those the calls asked for. -/
theorem C72_packets (c : Cfg) (net : Net) (serve : Server σ) (acts : List Act) (total : Nat) (s s' : σ) (q' : Queues)
    (g' : Global) (h : run c net serve acts s (Queues.init total) Global.init = .ok (s', q', g')) (k : Kind) :
    (g'.used k).sum + (packets k q').sum = (opsAsked c.hash c.servers k acts).length := by
  have := (run_ok (sized_init total) h).1 k
  have h0 : (packets k (Queues.init total)).sum = 0 := by
    have hz : ∀ (α : Type), (packetSizes (List.replicate total ([] : List (List α)))).sum = 0 := by
      intro α; simp [packetSizes]
    cases k <;> first | exact hz _ | rfl
  rw [this, h0]
  simp [Global.init]

/-- In any state of a session: what a flush adds is the packets of its kind, with their numbers of
operations, and it leaves none in the queues. -/
theorem C72_flush (net : Net) (serve : Server σ) (k : Kind) (s s' : σ) (q q' : Queues) (g g' : Global)
    (h : Stats.flush net serve k s q g = .ok (s', q', g')) :
    (g'.used k).Perm (g.used k ++ packets k q) ∧ packets k q' = [] ∧
    (∀ k', k' ≠ k → g'.used k' = g.used k' ∧ g'.outgoing k' = g.outgoing k' ∧ packets k' q' = packets k' q) ∧
    g'.single = g.single ∧ g'.bulk = g.bulk := by
  obtain ⟨h1, h2, h3, -⟩ := flush_ok h
  exact ⟨h1.used, h2, fun k' hk => ⟨(h1.others k' hk).1, (h1.others k' hk).2, h3 k' hk⟩, h1.single, h1.bulk⟩

/-- The packets counted have at least one operation and at most as many as a packet may have, so the
average is between 1 and that number and the percentage is not larger than 100. -/
theorem C72_fill (c : Cfg) (net : Net) (serve : Server σ) (acts : List Act) (total : Nat) (s s' : σ) (q' : Queues)
    (g' : Global) (h : run c net serve acts s (Queues.init total) Global.init = .ok (s', q', g')) (k : Kind) :
    (∀ n ∈ g'.used k, 1 ≤ n ∧ n ≤ c.maxOps) ∧
    (g'.used k ≠ [] → 1 ≤ ((g'.used k).sum / (g'.used k).length : ℚ) ∧
      ((g'.used k).sum / (g'.used k).length : ℚ) ≤ c.maxOps ∧
      (100 * ((g'.used k).sum / (g'.used k).length : ℚ) / c.maxOps) ≤ 100) := by
  have hl : AllPackets (Limited c) (Queues.init total) := by
    have : ∀ {α : Type} (P : List α → Prop), ∀ t ∈ List.replicate total ([] : List (List α)), ∀ pk ∈ t, P pk := by
      intro α P t ht pk hp; rw [List.eq_of_mem_replicate ht] at hp; cases hp
    exact ⟨this _, this _, this _, this _, this _⟩
  have h1 := ((run_ok (sized_init total) h).2.2.2.1 hl).2 (fun k m hm => nomatch hm) k
  refine ⟨h1, fun hne => ?_⟩
  have h2 : ∀ l : List Nat, (∀ n ∈ l, 0 < n ∧ n ≤ c.maxOps) → l.length ≤ l.sum ∧ l.sum ≤ c.maxOps * l.length := by
    intro l hl
    induction l with
    | nil => simp
    | cons x l ih =>
      obtain ⟨h3, h4⟩ := ih fun n hn => hl n (List.mem_cons_of_mem _ hn)
      obtain ⟨h5, h6⟩ := hl x List.mem_cons_self
      rw [List.length_cons, List.sum_cons, Nat.mul_add]
      omega
  obtain ⟨h3, h4⟩ := h2 _ h1
  have hlen : (0 : ℚ) < (g'.used k).length := by exact_mod_cast List.length_pos_iff.2 hne
  have hmax : (0 : ℚ) < c.maxOps := by
    obtain ⟨n, hn⟩ := List.exists_mem_of_ne_nil _ hne
    have := h1 n hn
    exact_mod_cast (show 0 < c.maxOps by omega)
  have ha : ((g'.used k).sum / (g'.used k).length : ℚ) ≤ c.maxOps := by
    rw [div_le_iff₀ hlen]; exact_mod_cast h4
  refine ⟨?_, ha, ?_⟩
  · rw [le_div_iff₀ hlen, one_mul]; exact_mod_cast h3
  · rw [div_le_iff₀ hmax]
    exact mul_le_mul_of_nonneg_left ha (by norm_num)

/-- The numbers under "Outgoing" are positive, are in the order of existing datastores, and add up to
the number of packets. -/
theorem C72_outgoing (c : Cfg) (net : Net) (serve : Server σ) (acts : List Act) (total : Nat) (s s' : σ) (q' : Queues)
    (g' : Global) (h : run c net serve acts s (Queues.init total) Global.init = .ok (s', q', g')) (k : Kind) :
    (g'.outgoing k).Pairwise (fun a b => a.1 < b.1) ∧ (∀ x ∈ g'.outgoing k, x.1 < total ∧ 0 < x.2) ∧
    ((g'.outgoing k).map Prod.snd).sum = (g'.used k).length := by
  obtain ⟨-, h1, -, -, h2⟩ := run_ok (sized_init total) h
  have h1 := h1 inv_init
  exact ⟨h1.ordered k, fun x hx => ⟨h2 (fun _ _ hx => nomatch hx) inv_init k x hx, h1.pos k x hx⟩, h1.sum k⟩

/-- After any actions, a flush adds to the number of a datastore its packets in the queues. -/
theorem C72_destinations (c : Cfg) (net : Net) (serve : Server σ) (acts : List Act) (total : Nat) (k : Kind)
    (s s₁ s₂ : σ) (q₁ q₂ : Queues) (g₁ g₂ : Global)
    (h : run c net serve acts s (Queues.init total) Global.init = .ok (s₁, q₁, g₁))
    (h' : Stats.flush net serve k s₁ q₁ g₁ = .ok (s₂, q₂, g₂)) (ds : Nat) :
    count (g₂.outgoing k) ds = count (g₁.outgoing k) ds + packetsTo k q₁ ds :=
  (flush_ok h').1.outgoing ((run_ok (sized_init total) h).2.1 inv_init) ds

/-- Packets counted and packets sent (full claim: the numbers agree): in layouts where datastores can
be reached, the packets of one flush that are counted for a datastore are those that are delivered.
Other layouts: `C72_dropped_false`. -/
theorem C72_delivered_partial {α : Type} (net : Net) (k : Kind) (mk : List α → ReqBody) (qs : List (List (List α)))
    (hR : Routed net qs.length) : ∃ l, Delivers net mk qs l ∧
      (∀ (serve : Server σ) (s s' : σ) (r : Results) (qs' : List (List (List α))),
        process net serve mk s qs = .ok (s', r, qs') → ∃ rs, deliverAll (deliver net serve) l s = .ok (s', rs)) ∧
      ∀ ds, count ((collected k qs Global.init).outgoing k) ds = (sentTo l ds).length := by
  obtain ⟨l, h1, h2⟩ := C29_flush_partial net mk qs hR
  refine ⟨l, h1, fun serve s s' r qs' h => ?_, fun ds => ?_⟩
  · obtain ⟨-, rs, h3, -⟩ := (h2 serve s s' r qs').1 h
    exact ⟨rs, h3⟩
  · rw [h1.packets ds, (noted_collected k qs Global.init).outgoing inv_init ds]
    simp [packetsFor, Global.init, count]

namespace C72Ex

def net (l : Layout) (rank : Nat) (t : Transport) : Net :=
  Layout.net l rank t id (fun _ => List.Perm.refl _) 4096 (fun n => List.replicate n 0)

def two : Net := net ⟨2, 1, 1, 1⟩ 0 (.thallium (thalliumEndpoints ⟨2, 1, 1, 1⟩ 0 []))

/-- Two ranks with two datastores each. -/
def four : Net := net ⟨2, 1, 1, 2⟩ 0 (.thallium (thalliumEndpoints ⟨2, 1, 1, 2⟩ 0 []))

/-- The first byte of the subject is the datastore. -/
def cfg : Cfg := ⟨fun s _ => .ok (s.headD 0).toNat, 2, 1000, 2⟩

def b (addr : Nat) (l : Bytes) : Blob := ⟨addr, l, 7⟩

def put (d x : UInt8) : PutArg := ⟨b 16 [d], b 32 [x], b 48 [x], 1⟩

/-- Four PUTs, three of them for the second rank, a PUT without a subject, and two flushes with a
PUT between them. -/
def acts : List Act :=
  [.call (.bput true [put 1 1, put 1 2, put 1 3]) 1500000000, .call (.put (put 0 4)) 20000000,
   .call (.put ⟨Blob.null, b 1 [1], b 2 [1], 1⟩) 5, .flush .put, .call (.put (put 1 5)) 1000000, .flush .put,
   .call (.getop ⟨b 16 [0], b 32 [1], 7, 1, 1⟩) 3000000]

theorem checked {α : Type} (o : Out α) (P : α → Prop) [DecidablePred P]
    (h : (match o with | .ok a => decide (P a) | _ => false) = true) : ∃ a, o = .ok a ∧ P a := by
  cases o with
  | ok a => exact ⟨a, rfl, by simpa using h⟩
  | err => cases h
  | ub => cases h

end C72Ex
open C72Ex

/-- What is printed after them. -/
example : ∃ x, run cfg two logServe acts [] (Queues.init 2) Global.init = .ok x ∧
    x.2.2.used .put = [1, 2, 1, 1] ∧ x.2.2.outgoing .put = [(0, 1), (1, 3)] ∧ x.2.2.single .put = [20000000, 1000000] ∧
    packets .put x.2.1 = [] ∧ packets .getop x.2.1 = [1] ∧ (opsAsked cfg.hash cfg.servers .put acts).length = 5 ∧
    print (str "  ") cfg.maxOps x.2.2 ⟨false, 6, []⟩ = ⟨false, 3, str ("  Single Ops:\n" ++
      "    HXHIM_PUT count: 2 duration: 0.021 seconds\n  Bulk Ops:\n" ++
      "    HXHIM_PUT count: 1 duration: 1.500 seconds\n    HXHIM_GETOP count: 1 duration: 0.003 seconds\n" ++
      "  Average Message Packet Fill Rate:\n    HXHIM_PUT count: 4 average filled: 1.250/2 (62.500%)\n" ++
      "  Outgoing:\n    HXHIM_PUT -> 0: 1\n    HXHIM_PUT -> 1: 3\n")⟩ :=
  checked _ _ (by decide +kernel)

example : Routed two 2 := C29_thallium_layouts ⟨2, 1, 1, 1⟩ ⟨by decide, by decide, by decide⟩ ⟨rfl, Or.inl (by decide)⟩ 0 []
  (Or.inl rfl) id (fun _ => List.Perm.refl _) 4096 (fun n => List.replicate n 0)

/-- With two datastores on another rank two packets are counted, one for each, and one request is
executed: the other one is dropped. -/
theorem C72_dropped_false : ∃ (acts : List Act) (x : List (Int × Int) × Queues × Global),
    run { cfg with servers := 4 } four logServe acts [] (Queues.init 4) Global.init = .ok x ∧
    x.2.2.outgoing .put = [(2, 1), (3, 1)] ∧ packets .put x.2.1 = [] ∧ x.1 = [(1, 3)] :=
  ⟨[.call (.put (put 2 1)) 1, .call (.put (put 3 1)) 1, .flush .put], checked _ _ (by decide +kernel)⟩

/-! ## Calls -/

/-- The times of calls of other kinds than GETOP are those of the calls with acceptable arguments, in
their order, whether or not their operations could be queued; calls for one operation and for many
are apart. -/
theorem C72_calls (c : Cfg) (net : Net) (serve : Server σ) (acts : List Act) (s s' : σ) (q q' : Queues) (g g' : Global)
    (h : run c net serve acts s q g = .ok (s', q', g')) (k : Kind) (hk : k ≠ .getop) :
    g'.single k = g.single k ++ times c.servers false k acts ∧ g'.bulk k = g.bulk k ++ times c.servers true k acts := by
  obtain ⟨h1, h2⟩ := run_times h k
  rw [h1, h2]
  refine ⟨?_, ?_⟩ <;>
  · congr 1
    unfold times
    congr 1
    funext a
    cases a with
    | flush _ => rfl
    | call x ns =>
      by_cases hx : callKind x = k
      · simp only [intoBulk_eq (x := x) (by rw [hx]; exact hk)]
      · simp [hx]

/-- The times of GETOPs of both sorts are among those of the bulk operations, and none are among the
others. -/
theorem C72_getops (c : Cfg) (net : Net) (serve : Server σ) (acts : List Act) (s s' : σ) (q q' : Queues) (g g' : Global)
    (h : run c net serve acts s q g = .ok (s', q', g')) :
    g'.single .getop = g.single .getop ∧
    (g'.bulk .getop).Perm (g.bulk .getop ++ times c.servers true .getop acts ++ times c.servers false .getop acts) := by
  obtain ⟨h1, h2⟩ := run_times h .getop
  constructor
  · rw [h1]
    simp only [List.append_right_eq_self, List.filterMap_eq_nil_iff]
    intro a _
    cases a with
    | flush _ => rfl
    | call x ns =>
      by_cases hx : callKind x = .getop
      · simp [intoBulk_getop hx]
      · simp [hx]
  · rw [h2, List.append_assoc]
    refine List.Perm.append_left _ ?_
    clear h h1 h2
    induction acts with
    | nil => exact List.Perm.refl _
    | cons a acts ih =>
      cases a with
      | flush _ => simpa [times] using ih
      | call x ns =>
        by_cases hx : Acceptable c.servers x ∧ callKind x = .getop
        · cases hb : isBulk x with
          | true =>
            have e1 : times c.servers true .getop (.call x ns :: acts) = ns :: times c.servers true .getop acts := by
              simp [times, hx, hb]
            have e2 : times c.servers false .getop (.call x ns :: acts) = times c.servers false .getop acts := by
              simp [times, hx, hb]
            rw [e1, e2, List.filterMap_cons_some (b := ns) (by simp [hx, intoBulk_getop hx.2])]
            exact ih.cons _
          | false =>
            have e1 : times c.servers true .getop (.call x ns :: acts) = times c.servers true .getop acts := by
              simp [times, hx, hb]
            have e2 : times c.servers false .getop (.call x ns :: acts) = ns :: times c.servers false .getop acts := by
              simp [times, hx, hb]
            rw [e1, e2, List.filterMap_cons_some (b := ns) (by simp [hx, intoBulk_getop hx.2])]
            exact (ih.cons _).trans List.perm_middle.symm
        · have e : ∀ bl, times c.servers bl .getop (.call x ns :: acts) = times c.servers bl .getop acts := by
            intro bl
            unfold times
            rw [List.filterMap_cons_none]
            simp only
            rw [if_neg (fun hh => hx ⟨hh.1, hh.2.2⟩)]
          rw [e, e, List.filterMap_cons_none (by
            simp only
            rw [if_neg (fun hh => hx ⟨hh.1, hh.2.2⟩)])]
          exact ih

/-- A single GETOP is reported as a bulk operation. -/
theorem C72_getop_false : ∃ (x : Call) (q' : Queues) (g' : Global), isBulk x = false ∧ callKind x = .getop ∧
    run cfg two logServe [.call x 7] [] (Queues.init 2) Global.init = .ok ([], q', g') ∧
    packets .getop q' = [1] ∧ g'.single .getop = [] ∧ g'.bulk .getop = [7] :=
  ⟨.getop ⟨b 16 [0], b 32 [1], 7, 1, 1⟩, _, _, rfl, rfl, rfl, by decide +kernel, rfl, rfl⟩

/-! ## Printing -/

/-- Lines are printed for exactly the kinds with something to report, each once. -/
theorem C72_kinds {α : Type} (f : Kind → List α) : (present f).Nodup ∧ ∀ k, k ∈ present f ↔ f k ≠ [] := by
  refine ⟨List.Nodup.filter _ (by decide), fun k => ?_⟩
  unfold present
  rw [List.mem_filter]
  have : k ∈ kinds := by cases k <;> decide
  simp [this]

/-- Printing appends to what was written to a stream, in the same way whatever the formatting of the
stream was, and leaves the flags of the stream as they were. -/
theorem C72_stream (ind : Bytes) (maxOps : Nat) (g : Global) : ∃ t, ∀ s : Stream,
    (print ind maxOps g s).text = s.text ++ t ∧ (print ind maxOps g s).isFixed = s.isFixed := by
  refine ⟨(print ind maxOps g ⟨false, 0, []⟩).text, fun s => ⟨?_, rfl⟩⟩
  simp [print, List.append_assoc]

/-- The precision of the stream is not restored: it is 3 afterwards. -/
theorem C72_precision_false (ind : Bytes) (maxOps : Nat) (g : Global) (s : Stream) :
    (print ind maxOps g s).precision = 3 := rfl

end Hx.Props

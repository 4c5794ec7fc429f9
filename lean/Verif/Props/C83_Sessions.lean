import Verif.Proofs.SessionsHist
import Verif.Props.C78_OverlapFail

/-!
# C83: what a session stored is found by later sessions, also with another layout

Sessions one after the other on the same LevelDB directories. As C78 for the flushes of all sessions together.
-/

namespace Hx.Props
open Hx Msg Spec Process Store Results Job Place Sessions

/-- C83 for all GETs, partial: sessions one after the other on the same LevelDB directories, which are empty at first, with the
same number of datastores and any layouts, and any of the writes failing. Then the GETs of all sessions are explained by the
flushes of all sessions as the GETs of a single session are (`C78_gets_partial`), with the flushes numbered through and the logs
put together. Sessions may write and read histograms; then GETs are not of pairs stored like a histogram, and there are no GETOPs
(`HistsApart`). Missing: as `C78_gets_partial`. -/
theorem C83_gets_partial (cb : Callbacks) (t : Transform) (hash : Bytes → Bytes → Out Int) (pre base post : Bytes) (total : Nat)
    (htotal : total ≤ 2 ^ 31) (l : List Session) (disk disk' : Disk) (he : EmptyDisk pre base post total disk)
    (hok : ∀ s ∈ l, SessionOk cb t hash pre base post total s) (hh : HistsApart t hash l) (h : runs cb disk l disk') :
    (allResults l).length = (allTurns l).length ∧
    ∃ f : Nat → Outcomes, ToldBy hash (allTurns l) (allResults l) f ∧ ∀ i x r, (allTurns l)[i]? = some x → (allResults l)[i]? = some r →
      ∃ gs, gs.Perm (getPairs (turnOps hash x)) ∧ List.Forall₂ (fun g z => ∃ before y after,
        AnsweredTold t.accepts (allTurns l).length f (allLog 0 l) i before y after ∧ (g.1.val, g.2.val) ∈ askedIn y.req.body ∧
        Returned t ((wrote t.accepts g.1.val g.2.val before).map Prod.snd) g z) gs
          (r.items.filter (fun y => decide (y.kind = .get))) := by
  obtain ⟨f, hf⟩ := sessions_gets htotal he hok hh h
  refine ⟨hf.len, f, hf.told, fun i x r hi hr => ?_⟩
  obtain ⟨gs, hp, hg⟩ := hf.gets i x r hi hr
  refine ⟨gs, hp, hg.imp ?_⟩
  rintro g z ⟨before, y, after, ha, -, hm, hret⟩
  exact ⟨before, y, after, ha, hm, returned_congr hret (by rw [wrote_lastObj, List.nil_append])⟩

/-- C83 in terms of flushes and their results only, partial: as `C78_explained_partial`, for the flushes of all sessions. Missing:
as `C83_gets_partial`. -/
theorem C83_explained_partial (cb : Callbacks) (t : Transform) (hash : Bytes → Bytes → Out Int) (pre base post : Bytes) (total : Nat)
    (htotal : total ≤ 2 ^ 31) (l : List Session) (disk disk' : Disk) (he : EmptyDisk pre base post total disk)
    (hok : ∀ s ∈ l, SessionOk cb t hash pre base post total s) (hh : HistsApart t hash l) (h : runs cb disk l disk') :
    ∃ f : Nat → Outcomes, ToldBy hash (allTurns l) (allResults l) f ∧ ∀ i x r, (allTurns l)[i]? = some x → (allResults l)[i]? = some r →
      ∃ gs, gs.Perm (getPairs (turnOps hash x)) ∧
        List.Forall₂ (ExplainedTold t (allTurns l).length f (allLog 0 l) i) gs (r.items.filter (fun y => decide (y.kind = .get))) := by
  obtain ⟨-, f, hf, hg⟩ := C83_gets_partial cb t hash pre base post total htotal l disk disk' he hok hh h
  refine ⟨f, hf, fun i x r hi hr => ?_⟩
  obtain ⟨gs, h1, h2⟩ := hg i x r hi hr
  refine ⟨gs, h1, h2.imp ?_⟩
  rintro g z ⟨before, y, after, ha, hy, hz⟩
  exact explained_told ha hy hz

private theorem log_below {cb : Callbacks} {l : List Session} : ∀ {disk disk' : Disk} {off : Nat}, runs cb disk l disk' →
    ∀ y ∈ allLog off l, off ≤ y.turn ∧ y.turn < off + (allTurns l).length := by
  induction l with
  | nil => intro _ _ _ _ y hy; cases hy
  | cons s l ih =>
    rintro disk disk' off ⟨w, w', -, h2, h3⟩ y hy
    rw [allLog] at hy
    rw [show allTurns (s :: l) = s.turns ++ allTurns l from rfl, List.length_append]
    rcases List.mem_append.mp hy with hy | hy
    · obtain ⟨z, hz, rfl⟩ := List.mem_map.mp hy
      have := h2.only z hz
      simp only [later]
      omega
    · have := ih h3 y hy
      omega

/-- C83: the flushes of a session are over before those of a later session begin. -/
theorem C83_in_order (cb : Callbacks) (l l' : List Session) (disk disk' : Disk) (h : runs cb disk (l ++ l') disk') (a b : Nat)
    (ha : a < (allTurns l).length) (hb : (allTurns l).length ≤ b) : Finished (allLog 0 (l ++ l')) a b := by
  obtain ⟨m, h1, h2⟩ := runs_append h
  rw [allLog_append, Nat.zero_add]
  refine List.pairwise_append.mpr ⟨?_, ?_, ?_⟩
  · refine List.Pairwise.imp_of_mem (R := fun _ _ => True) ?_ (List.pairwise_of_forall (fun _ _ => trivial))
    intro y z hy _ _ hc
    have := log_below h1 y hy
    omega
  · refine List.Pairwise.imp_of_mem (R := fun _ _ => True) ?_ (List.pairwise_of_forall (fun _ _ => trivial))
    intro y z _ hz _ hc
    have := log_below h2 z hz
    omega
  · intro y hy z hz hc
    have := log_below h1 y hy
    omega

/-- C83, partial: flush `a` of one of the sessions `l` PUTs `(s, p, o)` (its last PUT of that pair, without a DELETE of it), and
the results with those references report success. Flush `b` is of one of the sessions `l'`, which come later and may have other
layouts. Every other flush has no PUT or DELETE of the pair, or all its PUTs and DELETEs failed, or it is over before `a` begins,
or begins when `b` is over. Then the GET of the pair in `b` has `o`. Missing: as `C83_gets_partial`. -/
theorem C83_partial (cb : Callbacks) (t : Transform) (hash : Bytes → Bytes → Out Int) (pre base post : Bytes) (total : Nat)
    (htotal : total ≤ 2 ^ 31) (l l' : List Session) (disk disk' : Disk) (he : EmptyDisk pre base post total disk)
    (hok : ∀ s ∈ l ++ l', SessionOk cb t hash pre base post total s) (hh : HistsApart t hash (l ++ l')) (h : runs cb disk (l ++ l') disk')
    (a b : Nat) (xa xb : Turn) (ra rb : Results) (ha : (allTurns l)[a]? = some xa) (hb : (allTurns l')[b]? = some xb)
    (hra : (allResults l)[a]? = some ra) (hrb : (allResults l')[b]? = some rb)
    (s p o s' p' : Blob) (ty : Nat) (first last : List Op)
    (hput : turnOps hash xa = first ++ Op.put s p o :: last) (hlast : ∀ y ∈ last, ¬ Writes s.val p.val y)
    (hdel : ∀ s₁ p₁, Op.del s₁ p₁ ∈ first → ¬ (s₁.val = s.val ∧ p₁.val = p.val))
    (haccept : t.accepts s.val = true ∧ t.accepts p.val = true ∧ t.accepts o.val = true)
    (hstatus : ∀ y ∈ ra.items, y.kind = .put → y.subject = .ref ⟨s.addr, s.bytes.length, s.typ⟩ →
      y.predicate = .ref ⟨p.addr, p.bytes.length, p.typ⟩ → y.status = hxSuccess)
    (hothers : ∀ k x r, (allTurns (l ++ l'))[k]? = some x → (allResults (l ++ l'))[k]? = some r → k ≠ a →
      k ≠ (allTurns l).length + b → Unchanged hash s.val p.val x r ∨ Finished (allLog 0 (l ++ l')) k a ∨
        Finished (allLog 0 (l ++ l')) ((allTurns l).length + b) k)
    (hown : (∀ s₁ p₁ o₁, Op.put s₁ p₁ o₁ ∈ turnOps hash xb → ¬ (s₁.val = s.val ∧ p₁.val = p.val)) ∨ NoneWritten rb)
    (hget : Op.get s' p' ty ∈ turnOps hash xb) (hsame : s'.val = s.val ∧ p'.val = p.val) :
    ∃ y ∈ rb.items, y.kind = .get ∧ y.subject = .ref ⟨s'.addr, s'.bytes.length, s'.typ⟩ ∧
      y.predicate = .ref ⟨p'.addr, p'.bytes.length, p'.typ⟩ ∧ y.status = hxSuccess ∧
      ∃ v : Blob, y.object = .own v ∧ v.bytes = t.R o.val ∧ v.typ = o.typ := by
  obtain ⟨f, htell, hg⟩ := C83_explained_partial cb t hash pre base post total htotal _ disk disk' he hok hh h
  obtain ⟨hlen, -⟩ := C83_gets_partial cb t hash pre base post total htotal _ disk disk' he hok hh h
  have hlen' : (allResults l).length = (allTurns l).length := by
    obtain ⟨m, h1, -⟩ := runs_append h
    exact (C83_gets_partial cb t hash pre base post total htotal l disk m he (fun s hs => hok s (by simp [hs])) (histsApart_left hh) h1).1
  have hT : allTurns (l ++ l') = allTurns l ++ allTurns l' := List.flatMap_append
  have hR : allResults (l ++ l') = allResults l ++ allResults l' := List.flatMap_append
  have hal := (List.getElem?_eq_some_iff.mp ha).1
  refine found_told hlen htell hg a ((allTurns l).length + b) xa xb ra rb ?_ ?_ ?_ ?_ (by omega)
    (C83_in_order cb l l' disk disk' h a _ hal (by omega)) s p o s' p' ty first last hput hlast hdel haccept hstatus hothers hown hget hsame
  · rw [hT, List.getElem?_append_left hal, ha]
  · rw [hT, List.getElem?_append_right (by omega), Nat.add_sub_cancel_left, hb]
  · rw [hR, List.getElem?_append_left (by omega), hra]
  · rw [hR, List.getElem?_append_right (by omega), hlen', Nat.add_sub_cancel_left, hrb]

/-! ### Opening and closing -/

namespace C83Ex

/-- The datastores of all ranks when they could be opened. -/
def world (o : Opts) (lib : Bytes → Bool) (disk : Disk) (wr : Nat → Bool) : World :=
  ⟨fun rank => if 0 ≤ rank ∧ rank < o.layout.size then
    match o.initAll lib disk (o.ids rank.toNat) with
    | .ok (some ds) => ds
    | _ => [] else [], wr, 0⟩

/-- All ranks could open their datastores. -/
def opens (o : Opts) (lib : Bytes → Bool) (disk : Disk) : Bool :=
  decide o.layout.Valid && (List.range o.layout.size).all (fun rank =>
    match o.initAll lib disk (o.ids rank) with
    | .ok (some _) => true
    | _ => false)

theorem opens_world {o : Opts} {lib : Bytes → Bool} {disk : Disk} (wr : Nat → Bool) (h : opens o lib disk = true) :
    Opened o lib disk (world o lib disk wr) := by
  unfold opens at h
  rw [Bool.and_eq_true, decide_eq_true_eq, List.all_eq_true] at h
  refine ⟨h.1, fun rank hr => ?_, fun rank hr => ?_⟩
  · have := h.2 rank (List.mem_range.mpr hr)
    unfold world
    simp only
    rw [if_pos ⟨by omega, by omega⟩, Int.toNat_natCast]
    split at this
    · rename_i ds hds
      rw [hds]
    · cases this
  · unfold world
    simp only
    rw [if_neg hr]

end C83Ex
open C83Ex

private theorem initAll_some {o : Opts} {lib : Bytes → Bool} {disk : Disk} : ∀ (ids : List Nat),
    (∀ id ∈ ids, ∃ d, o.init lib disk id = .ok (some d)) → ∃ ds, o.initAll lib disk ids = .ok (some ds)
  | [], _ => ⟨[], rfl⟩
  | id :: ids, h => by
    obtain ⟨d, hd⟩ := h id (by simp)
    obtain ⟨ds, hds⟩ := initAll_some ids (fun x hx => h x (by simp [hx]))
    refine ⟨d :: ds, ?_⟩
    unfold Opts.initAll
    rw [hd, Out.ok_bind]
    simp only
    rw [hds, Out.ok_bind]
    rfl

/-- C83, opening: if the library can open all directories, and they exist or may be created, then a session opens, whichever of its
writes fail; each of its datastores has what the directory with its number has. If a directory is missing and must not be created, or
the library fails, it does not open. Histograms are not read back (C45). -/
theorem C83_opens (o : Opts) (lib : Bytes → Bool) (disk : Disk) (hb : o.backend = .level) (hv : o.layout.Valid)
    (hr : o.read = false ∨ o.names = []) :
    ((∀ id < o.layout.total, lib (o.dir id) = true ∧ (o.create = true ∨ disk (o.dir id) ≠ none)) →
      ∀ wr, ∃ w, Opened o lib disk w ∧ w.wr = wr) ∧
    (∀ w, Opened o lib disk w → ∀ id < o.layout.total, lib (o.dir id) = true ∧ (o.create = true ∨ disk (o.dir id) ≠ none) ∧
      ∃ rank : Nat, o.layout.dsToRank id = rank ∧ rank < o.layout.size ∧ ∃ d, (w.ds rank)[o.layout.offset id]? = some d ∧
        d.usable = true ∧ d.db = (disk (o.dir id)).getD []) := by
  have hinit : ∀ d : DS, d.hists = [] → ∃ e, d.initHists o.read o.names o.firstN o.gen = .ok e := by
    intro d hd
    unfold DS.initHists
    rcases hr with hr | hr
    · rw [hr]; exact ⟨_, rfl⟩
    · rw [hr]
      cases o.read <;> exact ⟨_, rfl⟩
  constructor
  · intro h wr
    refine ⟨world o lib disk wr, opens_world wr ?_, rfl⟩
    unfold opens
    rw [Bool.and_eq_true, decide_eq_true_eq, List.all_eq_true]
    refine ⟨hv, fun rank hrank => ?_⟩
    obtain ⟨ds, hds⟩ := initAll_some (o := o) (lib := lib) (disk := disk) (o.ids rank) (by
      intro id hid
      obtain ⟨i, hi⟩ := List.mem_iff_getElem?.mp hid
      obtain ⟨h1, -⟩ := ids_get hv (List.mem_range.mp hrank) hi
      obtain ⟨h2, h3⟩ := h id h1
      obtain ⟨db, hdb⟩ : ∃ db, openDir o.create (lib (o.dir id)) (disk (o.dir id)) = some db := by
        unfold openDir
        rw [h2, if_pos rfl]
        cases hd : disk (o.dir id) with
        | some db => exact ⟨db, rfl⟩
        | none =>
          rcases h3 with h3 | h3
          · rw [h3]; exact ⟨[], rfl⟩
          · exact absurd hd h3
      obtain ⟨e, he⟩ := hinit ⟨.level, db, true, [], 0, 0, 0⟩ rfl
      refine ⟨e, ?_⟩
      unfold Opts.init DS.openDs
      rw [hdb, hb]
      simp only
      rw [Out.ok_bind, if_pos rfl, he, Out.ok_bind])
    rw [hds]
  · intro w hw id hid
    obtain ⟨rank, h1, h2, h3, h4, h5⟩ := opened_has hw hid
    obtain ⟨d, hd⟩ : ∃ d, (w.ds rank)[o.layout.offset id]? = some d := ⟨_, List.getElem?_eq_getElem (by rw [h3]; exact h4)⟩
    obtain ⟨-, id', h6, h7, h8, h9⟩ := opened_get hw hd
    obtain rfl : id' = id := place_inj hv h6 hid (h7.trans h2.symm) h8
    obtain ⟨g1, g2, -⟩ := init_some hb h9
    have hopen : openDir o.create (lib (o.dir id')) (disk (o.dir id')) ≠ none := by
      intro hn
      unfold Opts.init DS.openDs at h9
      rw [hn, hb] at h9
      cases h9
    refine ⟨?_, ?_, rank, h2, h1, d, hd, g1, ?_⟩
    · cases hl : lib (o.dir id') with
      | true => rfl
      | false => rw [hl] at hopen; exact absurd rfl hopen
    · cases hc : o.create with
      | true => exact Or.inl rfl
      | false =>
        right
        intro hn
        rw [hc, hn] at hopen
        unfold openDir at hopen
        cases hl : lib (o.dir id') <;> rw [hl] at hopen <;> exact hopen rfl
    · rcases g2 with g2 | ⟨g2, g3⟩
      · rw [g2]; rfl
      · rw [g2, g3]; rfl

/-- C83, closing: after a session the directories of all its datastores exist, so a later session does not have to create them. -/
theorem C83_kept_partial (cb : Callbacks) (t : Transform) (hash : Bytes → Bytes → Out Int) (pre base post : Bytes) (total : Nat)
    (htotal : total ≤ 2 ^ 31) (l : List Session) (s : Session) (disk disk' : Disk)
    (hs : SessionOk cb t hash pre base post total s) (h : runs cb disk (l ++ [s]) disk') :
    ∀ id < total, disk' (generateName pre base id post 47) ≠ none := by
  obtain ⟨m, -, w, w', ho, hov, hm⟩ := runs_append h
  cases (show disk' = _ from hm)
  obtain ⟨⟨hb, rfl, rfl, rfl, rfl⟩, -, hturns⟩ := hs
  rw [← placeOf_length s.opts.layout] at hov htotal
  exact closed_exists hb ho (executes_lengths (overlap_known htotal hturns hov) hov.executes)

/-- C83: in-memory datastores do not outlive the session: they are empty when a session begins, and closing them leaves the
directories as they are. -/
theorem C83_memory (o : Opts) (lib wr : Bytes → Bool) (disk : Disk) (w w' : World) (hb : o.backend = .mem) (h : Opened o lib disk w) :
    EmptyWorld w ∧ o.close wr w' disk = disk := by
  constructor
  · intro rank d hd
    obtain ⟨i, hi⟩ := List.mem_iff_getElem?.mp hd
    obtain ⟨-, id, -, -, -, h1⟩ := opened_get h hi
    unfold Opts.init DS.openDs at h1
    rw [hb] at h1
    simp only at h1
    rw [Out.ok_bind] at h1
    simp only [if_true] at h1
    obtain ⟨e, he, h1⟩ := ok_iff.mp h1
    cases h1
    unfold DS.initHists at he
    obtain ⟨r, -, he⟩ := ok_iff.mp he
    cases he
    exact ⟨rfl, rfl⟩
  · unfold Opts.close
    generalize o.owned w' = l
    induction l with
    | nil => rfl
    | cons x l ih =>
      rw [List.foldl_cons]
      have : o.closeOne wr disk x = disk := by unfold Opts.closeOne; rw [hb]
      rw [this, ih]

/-- C83: sessions of one rank the theorems above apply to, with any number of datastores, any transport, any built-in hash
function, and plain operations. Sessions of several ranks: `C48_thallium_sessions`, `C48_mpi_sessions`. -/
theorem C83_one_rank {neg pos : UInt8} (hs : Elen.Symbols neg pos) (f : FloatCodec) (l : Layout) (hv : l.Valid)
    (hl : l.size = 1) (k : Hash.Kind) (tr : Transport) (order : ReqList → ReqList) (hp : ∀ l, (order l).Perm l)
    (heap : Nat) (hh : heap ≠ 0 ∧ heap < 2 ^ 64) (junk : Nat → Bytes) (maxOps maxSize servers : Nat) (hm : maxOps < 2 ^ 64)
    (calls : List Queue.Call)
    (hops : ∀ c ∈ calls, ∀ o ∈ ops (Hash.hxhimHash k 0 l.total) servers c, PlainOp o) :
    TurnOk (defaultCallbacks neg pos f) (plainTransform neg pos f) (Hash.hxhimHash k 0 l.total) (placeOf l)
      ⟨⟨Hash.hxhimHash k 0 l.total, maxOps, maxSize, servers⟩, Layout.net l 0 tr order hp heap junk, calls⟩ := by
  have hzero : ∀ (ds : Nat) (rank : Int), (placeOf l)[ds]? = some rank → rank = 0 := by
    intro ds rank h
    obtain ⟨h1, h2⟩ := placeOf_get.mp h
    obtain ⟨r, h3, h4, -⟩ := C22_id_to_location l hv ds h1
    have := h3.1
    rw [hl] at this
    rw [← h2, h4]
    omega
  refine ⟨rfl, rfl, ⟨Nat.le_refl _, ?_, ?_⟩, hm, ?_, hh, ?_⟩
  · intro ds rank _ h hne
    exact absurd (hzero ds rank h) hne
  · intro ds ds' rank _ _ h _ hne
    exact absurd (hzero ds rank h) hne
  · show IntRange ((0 : Nat) : Int)
    unfold IntRange; omega
  · intro o ho
    obtain ⟨c, hc, ho⟩ := List.mem_flatMap.mp ho
    exact (C48_default_callbacks hs f heap hh.1 o (hops c hc o ho)).1

/-! ### Examples -/

namespace C83Ex
open C55Ex C76Ex

/-- LevelDB directories "d/a-0", "d/a-1", … -/
def opts (l : Layout) (create : Bool) : Opts := ⟨l, .level, [100], [97], [], create, [], 10, none, false, true⟩

def noDisk : Disk := fun _ => none

/-- The only rank GETs. -/
def tGet (per : Nat) : Turn :=
  ⟨⟨Hash.hxhimHash .ber 0 per, 10, 0, 1⟩, exNet ⟨1, 1, 1, per⟩ 0, [exGetArg 1 2]⟩

/-- As `results`, with any number of datastores. -/
def resultsOf (total : Nat) (log : List Served) (i : Nat) (x : Turn) : Out Results :=
  Queue.calls x.cfg true (Queue.Queues.init total) x.calls >>= fun q =>
  flush x.net replay (partOf i log) q >>= fun y => if y.1.isEmpty then .ok y.2.1 else .err

theorem resultsOf_turnOn {total : Nat} {log : List Served} {i : Nat} {x : Turn} {r : Results} (h : resultsOf total log i x = .ok r) :
    turnOn total (partOf i log) x r := by
  unfold resultsOf at h
  obtain ⟨q, hq, h⟩ := ok_iff.mp h
  obtain ⟨y, hy, h⟩ := ok_iff.mp h
  split at h
  · rename_i he
    cases h
    refine ⟨_, q, y.2.2, sameOrder_refl _, hq, ?_⟩
    rw [hy]
    have : y.1 = [] := by simpa using he
    rw [← this]
  · cases h

def lib : Bytes → Bool := fun _ => true

def shown (r : Results) : List (Kind × Int × Bytes) :=
  r.items.map (fun r => (r.kind, r.status, match r.object with | .own b => b.bytes | _ => []))

/-- Three ranks with a datastore each PUT, then one rank with `per` datastores GETs; the request of the GET goes to `ds`. -/
def two (per : Nat) (ds : Nat) : Out (List (List (Kind × Int × Bytes))) :=
  let b (a : Nat) (x : UInt8) : Blob := ⟨a, [x], 7⟩
  let o1 := opts ⟨3, 1, 1, 1⟩ true
  let o2 := opts ⟨1, 1, 1, per⟩ true
  play (world o1 lib noDisk (fun _ => true)) [(0, 2, ⟨0, 2, .put [⟨b 4096 1, 16, b 4096 2, 32, b 4096 3⟩]⟩)] >>= fun x =>
  resultsOf 3 x.1 0 tA >>= fun r =>
  play (world o2 lib (o1.close lib x.2 noDisk) (fun _ => true)) [(0, 0, ⟨0, (ds : Int), .get [⟨b 64 1, 64, b 80 2, 80, 7⟩]⟩)] >>= fun y =>
  resultsOf per y.1 0 (tGet per) >>= fun q =>
  if opens o1 lib noDisk && opens o2 lib (o1.close lib x.2 noDisk) then .ok [shown r, shown q] else .err

/-- The sessions of `two`. -/
theorem two_runs {per ds : Nat} {a b : List (Kind × Int × Bytes)} (h : two per ds = .ok [a, b]) :
    ∃ log log' r q disk', runs exCb noDisk [⟨opts ⟨3, 1, 1, 1⟩ true, 100, lib, lib, [tA], log, [r]⟩,
      ⟨opts ⟨1, 1, 1, per⟩ true, 100, lib, lib, [tGet per], log', [q]⟩] disk' ∧ shown r = a ∧ shown q = b := by
  unfold two at h
  obtain ⟨x, hx, h⟩ := ok_iff.mp h
  obtain ⟨r, hr, h⟩ := ok_iff.mp h
  obtain ⟨y, hy, h⟩ := ok_iff.mp h
  obtain ⟨q, hq, h⟩ := ok_iff.mp h
  split at h
  case isFalse => cases h
  rename_i ho
  obtain ⟨ho1, ho2⟩ := Bool.and_eq_true_iff.mp ho
  have h := Out.ok.inj h
  simp only [List.cons.injEq, and_true] at h
  obtain ⟨ha, hb⟩ := h
  obtain ⟨h1, h2⟩ := play_executes _ (show play _ _ = .ok (x.1, x.2) from hx)
  obtain ⟨h3, h4⟩ := play_executes _ (show play _ _ = .ok (y.1, y.2) from hy)
  have only : ∀ {log : List Served}, log.map (·.turn) = [0] → ∀ z ∈ log, z.turn < 1 := by
    intro log hl z hz
    have : z.turn ∈ log.map (·.turn) := List.mem_map.mpr ⟨z, hz, rfl⟩
    rw [hl, List.mem_singleton] at this
    omega
  have htot : (⟨1, 1, 1, per⟩ : Layout).total = per := by simp [Layout.total, Layout.totalRangeServers]
  refine ⟨x.1, y.1, r, q, _, ⟨_, x.2, opens_world _ ho1, ⟨h1, only h2, rfl, ?_⟩, _, y.2, opens_world _ ho2, ⟨h3, only h4, rfl, ?_⟩, rfl⟩,
    ha, hb⟩
  · intro i z s hi hs
    match i with
    | 0 => cases hi; cases hs; exact resultsOf_turnOn hr
    | i + 1 => cases hi
  · intro i z s hi hs
    match i with
    | 0 =>
      cases hi; cases hs
      show turnOn (⟨1, 1, 1, per⟩ : Layout).total _ _ _
      rw [htot]
      exact resultsOf_turnOn hq
    | i + 1 => cases hi

private theorem two_three : two 3 2 = .ok [[(.put, hxSuccess, [])], [(.get, hxSuccess, [3])]] := by decide +kernel

private theorem two_one : two 1 0 = .ok [[(.put, hxSuccess, [])], [(.get, hxError, [])]] := by decide +kernel

end C83Ex

open C76Ex

/-- C83 is false for another number of datastores: three ranks with one datastore each PUT and are told that it succeeded, then a
session of one rank with one datastore on the same directories GETs the pair, and does not find it. -/
theorem C83_other_number_false : ∃ log log' r q disk',
    runs exCb noDisk [⟨opts ⟨3, 1, 1, 1⟩ true, 100, lib, lib, [tA], log, [r]⟩,
      ⟨opts ⟨1, 1, 1, 1⟩ true, 100, lib, lib, [tGet 1], log', [q]⟩] disk' ∧
    shown r = [(.put, hxSuccess, [])] ∧ shown q = [(.get, hxError, [])] := two_runs two_one

/-- Three ranks with one datastore each PUT, one rank with three datastores finds the object; the hypotheses of the theorems on
directories, sessions and flushes hold. -/
example : ∃ log log' r q disk', ∃ s1 s2 : Session,
    s1 = ⟨opts ⟨3, 1, 1, 1⟩ true, 100, lib, lib, [tA], log, [r]⟩ ∧ s2 = ⟨opts ⟨1, 1, 1, 3⟩ true, 100, lib, lib, [tGet 3], log', [q]⟩ ∧
    EmptyDisk [100] [97] [] 3 noDisk ∧ runs exCb noDisk ([s1] ++ [s2]) disk' ∧
    (∀ s ∈ [s1] ++ [s2], SessionOk exCb (plainTransform 0x2f 0x3a exFloat) (Hash.hxhimHash .ber 0 3) [100] [97] [] 3 s) ∧
    HistsApart (plainTransform 0x2f 0x3a exFloat) (Hash.hxhimHash .ber 0 3) ([s1] ++ [s2]) ∧
    shown r = [(.put, hxSuccess, [])] ∧ shown q = [(.get, hxSuccess, [3])] := by
  obtain ⟨log, log', r, q, disk', h, h1, h2⟩ := two_runs two_three
  refine ⟨log, log', r, q, disk', _, _, rfl, rfl, ?_, h, ?_, ⟨_, [], (List.append_nil _).symm, ?_, by simp⟩, h1, h2⟩
  · intro id _ db hdb
    cases hdb
  · have q : ∀ a b, a ∈ [16, 32, 48, 64, 80] → PlainSent ⟨a, [b], 7⟩ := by
      intro a b ha
      simp only [List.mem_cons, List.not_mem_nil, or_false] at ha
      refine exSent a b ?_ ?_ <;> omega
    intro s hs
    simp only [List.cons_append, List.nil_append, List.mem_cons, List.not_mem_nil, or_false] at hs
    rcases hs with rfl | rfl
    · refine ⟨⟨rfl, rfl, rfl, rfl, rfl⟩, ⟨(by decide : 100 ≠ 0), (by decide : 100 < 2 ^ 64)⟩, ?_⟩
      intro x hx
      rw [List.mem_singleton.mp hx]
      refine C48_thallium_sessions (neg := 0x2f) (pos := 0x3a) ⟨by decide, by decide⟩ exFloat ⟨3, 1, 1, 1⟩ (by decide)
        ⟨rfl, Or.inl (Nat.le_refl _)⟩ .ber (by decide) 0 (by decide) [] (Or.inl rfl) id _ 4096 (by decide) _ 10 0 3 (by decide) [exPutArg 1 2 3] ?_
      intro c hc o ho
      exact exOps_plain tA (by simp) o (List.mem_flatMap.mpr ⟨c, hc, ho⟩)
    · refine ⟨⟨rfl, rfl, rfl, rfl, rfl⟩, ⟨(by decide : 100 ≠ 0), (by decide : 100 < 2 ^ 64)⟩, ?_⟩
      intro x hx
      rw [List.mem_singleton.mp hx]
      refine C83_one_rank (neg := 0x2f) (pos := 0x3a) ⟨by decide, by decide⟩ exFloat ⟨1, 1, 1, 3⟩ (by decide) rfl .ber _ id _ 4096
        (by decide) _ 10 0 1 (by decide) [exGetArg 1 2] ?_
      intro c hc o ho
      rw [List.mem_singleton.mp hc] at ho
      have e : ops (Hash.hxhimHash .ber 0 3) 1 (exGetArg 1 2) = [Op.get ⟨64, [1], 7⟩ ⟨80, [2], 7⟩ 7] := by decide +kernel
      rw [show (⟨1, 1, 1, 3⟩ : Layout).total = 3 from rfl, e, List.mem_singleton] at ho
      subst ho
      exact ⟨q _ _ (by simp), q _ _ (by simp), by decide⟩
  · intro s hs
    simp only [List.cons_append, List.nil_append, List.mem_cons, List.not_mem_nil, or_false] at hs
    rcases hs with rfl | rfl <;> exact Or.inl rfl

/-- Opening: directories that do not exist and must not be created, and in-memory datastores. -/
example : opens (opts ⟨3, 1, 1, 1⟩ false) lib noDisk = false ∧ opens (opts ⟨3, 1, 1, 1⟩ true) lib noDisk = true ∧
    opens { opts ⟨3, 1, 1, 1⟩ false with backend := .mem } lib noDisk = true ∧
    opens (opts ⟨2, 1, 1, 2⟩ false) lib (fun n => if n = (opts ⟨2, 1, 1, 2⟩ false).dir 3 then none else some []) = false := by
  decide +kernel

end Hx.Props

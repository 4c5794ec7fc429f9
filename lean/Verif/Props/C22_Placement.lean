import Verif.Model.Placement
import Verif.Proofs.Elen

/-!
# C22, C23, C24, C41: placement of datastores
-/

namespace Hx.Props
open Hx Place

/-- Specification: rank `r` of the job acts as a range server. Out of every `client` consecutive
ranks the first `server` ones do. -/
def ServerRank (l : Layout) (r : Nat) : Prop := r < l.size ∧ r % l.client < l.server

/-- Number of server ranks below `n`. -/
private def countBelow (c s n : Nat) : Nat := ((List.range n).filter (fun r => r % c < s)).length

private theorem countBelow_eq (c s : Nat) (hc : 0 < c) (hs : s < c) (n : Nat) :
    countBelow c s n = s * (n / c) + min (n % c) s := by
  induction n with
  | zero => simp [countBelow]
  | succ n ih =>
    unfold countBelow at ih ⊢
    rw [List.range_succ, List.filter_append, List.length_append, ih]
    have hn := Nat.div_add_mod n c
    have hm := Nat.mod_lt n hc
    by_cases hlast : n % c + 1 = c
    · have hdiv : (n + 1) / c = n / c + 1 := by
        have : n + 1 = c * (n / c + 1) := by
          rw [Nat.mul_add]; omega
        rw [this, Nat.mul_div_cancel_left _ hc]
      have hmod : (n + 1) % c = 0 := by
        have : n + 1 = c * (n / c + 1) := by
          rw [Nat.mul_add]; omega
        rw [this, Nat.mul_mod_right]
      rw [hdiv, hmod, Nat.mul_add, Nat.mul_one]
      by_cases hsn : n % c < s
      · simp [hsn]; omega
      · simp [hsn]; omega
    · have hmod : (n + 1) % c = n % c + 1 := by
        rw [Nat.add_mod]
        have : (1 : Nat) % c = 1 := Nat.mod_eq_of_lt (by omega)
        rw [this, Nat.mod_eq_of_lt (by omega)]
      have hdiv : (n + 1) / c = n / c := by
        have h2 := Nat.div_add_mod (n + 1) c
        rw [hmod] at h2
        have : c * ((n + 1) / c) = c * (n / c) := by omega
        exact Nat.eq_of_mul_eq_mul_left hc this
      rw [hdiv, hmod]
      by_cases hsn : n % c < s
      · simp [hsn]; omega
      · simp [hsn]; omega

/-- C23. The number of range servers a session reports is the number of ranks that act as range
servers, and the number of datastores is that times the number per server. -/
theorem C23_counts (l : Layout) (h : l.Valid) :
    l.totalRangeServers = ((List.range l.size).filter (fun r => decide (r % l.client < l.server))).length
    ∧ l.total = ((List.range l.size).filter (fun r => decide (r % l.client < l.server))).length * l.per := by
  obtain ⟨hc, hs, hp⟩ := h
  have key : l.totalRangeServers =
      ((List.range l.size).filter (fun r => decide (r % l.client < l.server))).length := by
    unfold Layout.totalRangeServers
    split
    · rename_i hle
      rw [List.filter_eq_self.mpr]
      · simp
      · intro r _
        have := Nat.mod_lt r hc
        simp; omega
    · have := countBelow_eq l.client l.server hc (by omega) l.size
      unfold countBelow at this
      rw [this]
  exact ⟨key, by unfold Layout.total; rw [key]⟩

example : (⟨7, 3, 2, 4⟩ : Layout).Valid ∧ (⟨7, 3, 2, 4⟩ : Layout).total = 20 := by decide

private theorem total_bound {l : Layout} {id : Nat} (hid : id < l.total) :
    id / l.per < l.totalRangeServers := by
  unfold Layout.total at hid
  exact Nat.div_lt_of_lt_mul (by rw [Nat.mul_comm]; exact hid)

private theorem dsToRank_eq (l : Layout) (h : l.Valid) (id : Nat) :
    l.dsToRank id = if l.size ≤ (if l.client ≤ l.server then id / l.per else
      id / l.per / l.server * l.client + id / l.per % l.server) then -1 else
      (((if l.client ≤ l.server then id / l.per else
      id / l.per / l.server * l.client + id / l.per % l.server) : Nat) : Int) := by
  obtain ⟨hc, hs, hp⟩ := h
  have h0 : ∀ r : Nat, ((l.size : Int) ≤ (r : Int)) ↔ l.size ≤ r := fun r => by omega
  have h1 : ¬((id : Int) < 0 ∨ l.client = 0 ∨ l.server = 0 ∨ l.per = 0) := by omega
  unfold Layout.dsToRank dsGetRankIn dsGetRank
  simp only [Int.toNat_natCast, if_neg h1]
  by_cases hle : l.client ≤ l.server
  · simp only [if_pos hle, h0]
  · simp only [if_neg hle, h0]

private theorem dsGetIdIn_eq (l : Layout) (h : l.Valid) (rank : Nat) (hr : ServerRank l rank)
    (offset : Nat) (ho : offset < l.per) :
    dsGetIdIn rank offset l.size l.client l.server l.per =
      (((if l.client ≤ l.server then rank else rank / l.client * l.server + rank % l.client) *
        l.per + offset : Nat) : Int) := by
  obtain ⟨hc, hs, hp⟩ := h
  obtain ⟨hlt, hsv⟩ := hr
  have h1 : ¬((rank : Int) < 0 ∨ l.client = 0 ∨ l.server = 0 ∨ l.per = 0 ∨ l.per ≤ offset) := by
    omega
  have h2 : ¬((l.size : Int) ≤ (rank : Int)) := by omega
  have h3 : ¬ (l.server ≤ rank % l.client) := by omega
  unfold dsGetIdIn dsGetId
  simp only [Int.toNat_natCast, if_neg h1, if_neg h2, if_neg h3]
  by_cases hle : l.client ≤ l.server
  · simp only [if_pos hle]
  · simp only [if_neg hle]

/-- C22, id to location: every datastore id of the session is on a rank of the job that is a range
server, and that rank and the offset give the id back. -/
theorem C22_id_to_location (l : Layout) (h : l.Valid) (id : Nat) (hid : id < l.total) :
    ∃ rank, ServerRank l rank ∧ l.dsToRank id = rank ∧ l.offset id < l.per ∧
      dsGetIdIn rank (l.offset id) l.size l.client l.server l.per = id ∧
      isRangeServerIn rank l.size l.client l.server = 1 := by
  have hb := total_bound hid
  obtain ⟨hc, hs, hp⟩ := _root_.id h
  have hmod := Nat.mod_lt id hp
  have hdm := Nat.div_add_mod id l.per
  rw [dsToRank_eq l h]
  unfold Layout.offset dsGetIdIn dsGetId isRangeServerIn isRangeServer ServerRank ofBool
  unfold Layout.totalRangeServers at hb
  generalize id / l.per = rs at *
  generalize id % l.per = o at *
  by_cases hle : l.client ≤ l.server
  · rw [if_pos hle] at hb
    have hrc := Nat.mod_lt rs hc
    simp only [if_pos hle]
    refine ⟨rs, ⟨hb, by omega⟩, by rw [if_neg (by omega)], hmod, ?_, ?_⟩
    · rw [if_neg (by omega), if_neg (by omega), Int.toNat_natCast, Nat.mul_comm, hdm]
    · rw [if_neg (by omega), if_neg (by omega), Int.toNat_natCast]
      simp; omega
  · rw [if_neg hle] at hb
    simp only [if_neg hle]
    have hrm := Nat.mod_lt rs hs
    have hrdm := Nat.div_add_mod rs l.server
    have hrank : (rs / l.server * l.client + rs % l.server) % l.client = rs % l.server := by
      rw [Nat.mul_comm, Nat.mul_add_mod, Nat.mod_eq_of_lt (by omega)]
    have hrankd : (rs / l.server * l.client + rs % l.server) / l.client = rs / l.server := by
      rw [Nat.mul_comm, Nat.mul_add_div hc, Nat.div_eq_of_lt (show rs % l.server < l.client by omega),
        Nat.add_zero]
    have hlt : rs / l.server * l.client + rs % l.server < l.size := by
      have hsd := Nat.div_add_mod l.size l.client
      have hsm := Nat.mod_lt l.size hc
      rcases Nat.lt_or_ge (rs / l.server) (l.size / l.client) with h1 | h1
      · have : (rs / l.server + 1) * l.client ≤ l.size / l.client * l.client :=
          Nat.mul_le_mul_right _ h1
        rw [Nat.add_mul] at this
        rw [Nat.mul_comm (l.size / l.client)] at this
        omega
      · have h2 : rs / l.server = l.size / l.client := by
          apply Nat.le_antisymm _ h1
          have h3 : rs < l.server * (l.size / l.client) + l.server := by omega
          have h4 : rs < l.server * (l.size / l.client + 1) := by rw [Nat.mul_add]; omega
          have := Nat.div_lt_of_lt_mul h4
          omega
        rw [h2] at hrdm ⊢
        rw [Nat.mul_comm (l.size / l.client)]
        omega
    rw [Nat.mul_comm] at hdm
    rw [← hrdm] at hdm
    rw [Nat.mul_comm l.server] at hdm
    generalize rs / l.server * l.client + rs % l.server = rank at *
    refine ⟨rank, ⟨hlt, by omega⟩, by rw [if_neg (by omega)], hmod, ?_, ?_⟩
    · rw [if_neg (by omega), if_neg (by omega), Int.toNat_natCast, hrank, if_neg (by omega),
        hrankd, hdm]
    · rw [if_neg (by omega), if_neg (by omega), Int.toNat_natCast, hrank]
      simp; omega

/-- C22, location to id: every offset on every range-server rank has an id of the session, and the
id leads back to that rank and offset. -/
theorem C22_location_to_id (l : Layout) (h : l.Valid) (rank : Nat) (hr : ServerRank l rank)
    (offset : Nat) (ho : offset < l.per) :
    ∃ id, id < l.total ∧ dsGetIdIn rank offset l.size l.client l.server l.per = id ∧
      l.dsToRank id = rank ∧ l.offset id = offset := by
  rw [dsGetIdIn_eq l h rank hr offset ho]
  simp only [dsToRank_eq l h]
  obtain ⟨hc, hs, hp⟩ := h
  obtain ⟨hlt, hsv⟩ := hr
  unfold Layout.offset Layout.total Layout.totalRangeServers
  have hmul : ∀ a b, a < b → a * l.per + offset < b * l.per := by
    intro a b hab
    have : (a + 1) * l.per ≤ b * l.per := Nat.mul_le_mul_right _ hab
    rw [Nat.add_mul] at this; omega
  have hdiv : ∀ a, (a * l.per + offset) / l.per = a := by
    intro a
    rw [Nat.mul_comm, Nat.mul_add_div hp, Nat.div_eq_of_lt ho, Nat.add_zero]
  have hmod : ∀ a, (a * l.per + offset) % l.per = offset := by
    intro a
    rw [Nat.mul_comm, Nat.mul_add_mod, Nat.mod_eq_of_lt ho]
  by_cases hle : l.client ≤ l.server
  · simp only [if_pos hle]
    refine ⟨rank * l.per + offset, hmul _ _ hlt, rfl, ?_, hmod _⟩
    rw [hdiv, if_neg (by omega)]
  · simp only [if_neg hle]
    refine ⟨(rank / l.client * l.server + rank % l.client) * l.per + offset, hmul _ _ ?_, rfl, ?_,
      hmod _⟩
    · have hsd := Nat.div_add_mod l.size l.client
      have hrd := Nat.div_add_mod rank l.client
      have hd : rank / l.client ≤ l.size / l.client := Nat.div_le_div_right (by omega)
      rw [Nat.mul_comm (rank / l.client)]
      rcases Nat.lt_or_ge (rank / l.client) (l.size / l.client) with h1 | h1
      · have : l.server * (rank / l.client + 1) ≤ l.server * (l.size / l.client) :=
          Nat.mul_le_mul_left _ h1
        rw [Nat.mul_add] at this
        omega
      · have h2 : rank / l.client = l.size / l.client := by omega
        rw [h2] at hrd ⊢
        omega
    · rw [hdiv]
      have h1 : (rank / l.client * l.server + rank % l.client) / l.server = rank / l.client := by
        rw [Nat.mul_comm, Nat.mul_add_div hs, Nat.div_eq_of_lt hsv, Nat.add_zero]
      have h2 : (rank / l.client * l.server + rank % l.client) % l.server = rank % l.client := by
        rw [Nat.mul_comm, Nat.mul_add_mod, Nat.mod_eq_of_lt hsv]
      have hrd := Nat.div_add_mod rank l.client
      rw [h1, h2, Nat.mul_comm, hrd, if_neg (by omega)]

/-- C22, what each rank creates: a range-server rank creates exactly the `per` datastores whose
requests are sent to it, in offset order; any other rank creates none. -/
theorem C22_created (l : Layout) (h : l.Valid) (rank : Nat) (hr : rank < l.size) :
    (ServerRank l rank → (l.created rank).length = l.per ∧
      ∀ offset, offset < l.per → ∃ id : Nat, (l.created rank)[offset]? = some (id : Int) ∧
        id < l.total ∧ l.dsToRank id = rank ∧ l.offset id = offset) ∧
    (¬ ServerRank l rank → l.created rank = []) := by
  constructor
  · intro hs
    have hid : ¬ rsGetIdIn rank l.size l.client l.server < 0 := by
      obtain ⟨_, hsv⟩ := hs
      obtain ⟨hc, hs, hp⟩ := h
      unfold rsGetIdIn rsGetId
      rw [if_neg (by omega), if_neg (by omega)]
      split
      · omega
      · rw [Int.toNat_natCast, if_neg (by omega)]; omega
    unfold Layout.created
    rw [if_neg hid]
    refine ⟨by simp, ?_⟩
    intro offset ho
    obtain ⟨id, h1, h2, h3, h4⟩ := C22_location_to_id l h rank hs offset ho
    refine ⟨id, ?_, h1, h3, h4⟩
    rw [List.getElem?_map, List.getElem?_range ho]
    simp only [Option.map_some, Option.some.injEq]
    rw [← h2, dsGetIdIn_eq l h rank hs offset ho, dsGetIdIn_eq l h rank hs 0 h.2.2]
    omega
  · intro hns
    obtain ⟨hc, hs, hp⟩ := h
    have hge : l.server ≤ rank % l.client := by
      unfold ServerRank at hns
      have : ¬ rank % l.client < l.server := fun h => hns ⟨hr, h⟩
      omega
    have hm := Nat.mod_lt rank hc
    unfold Layout.created rsGetIdIn rsGetId
    rw [if_pos]
    rw [if_neg (by omega), if_neg (by omega), if_neg (by omega), Int.toNat_natCast, if_pos hge]
    omega

example : (⟨7, 3, 2, 4⟩ : Layout).created 4 = [12, 13, 14, 15] ∧
    (⟨7, 3, 2, 4⟩ : Layout).created 5 = [] ∧ ServerRank ⟨7, 3, 2, 4⟩ 4 := by
  unfold ServerRank; decide

/-- The id given to a rank by the range server numbering is its position among the server ranks. -/
theorem C23_range_server_id (l : Layout) (h : l.Valid) (rank : Nat) (hr : ServerRank l rank) :
    rsGetIdIn rank l.size l.client l.server =
      (((List.range rank).filter (fun r => decide (r % l.client < l.server))).length : Nat) := by
  obtain ⟨hlt, hsv⟩ := hr
  have hv := h
  obtain ⟨hc, hs, hp⟩ := h
  unfold rsGetIdIn rsGetId
  rw [if_neg (by omega), if_neg (by omega)]
  have := (C23_counts ⟨rank, l.client, l.server, l.per⟩ ⟨hc, hs, hp⟩).1
  unfold Layout.totalRangeServers at this
  simp only at this
  rw [← this]
  split
  · rfl
  · rw [Int.toNat_natCast, if_neg (by omega), Nat.mul_comm]
    congr 1; omega

/-- Ranks without a range server, and ranks outside the job, have no id. -/
theorem C23_no_range_server_id (l : Layout) (h : l.Valid) (rank : Nat) (hr : ¬ ServerRank l rank) :
    rsGetIdIn rank l.size l.client l.server = -1 := by
  obtain ⟨hc, hs, hp⟩ := h
  unfold rsGetIdIn rsGetId
  by_cases hlt : rank < l.size
  · have hge : ¬ rank % l.client < l.server := fun hsv => hr ⟨hlt, hsv⟩
    have := Nat.mod_lt rank hc
    rw [if_neg (by omega), if_neg (by omega), if_neg (by omega), Int.toNat_natCast, if_pos (by omega)]
  · rw [if_pos (by omega)]

example : ¬ ServerRank ⟨7, 3, 2, 4⟩ 5 ∧ ¬ ServerRank ⟨7, 3, 2, 4⟩ 7 := by unfold ServerRank; decide

/-- C22, C23: negative ranks, ratios of zero and ranks outside the job have no id, for all arguments. -/
theorem C23_no_id (rank size : Int) (client server : Nat) (h : rank < 0 ∨ client = 0 ∨ server = 0) :
    rsGetId rank client server = -1 ∧ rsGetIdIn rank size client server = -1 := by
  unfold rsGetIdIn rsGetId
  rw [if_pos h]
  exact ⟨rfl, by split <;> rfl⟩

example : rsGetIdIn 3 7 3 2 = 2 ∧ rsGetIdIn (-3) 7 3 2 = -1 := by decide

/-- C22, C23: which ranks are range servers, for all arguments. Negative ranks, ranks outside the job and ratios of zero are errors. -/
theorem C23_is_range_server (rank size : Int) (client server : Nat) :
    (isRangeServer rank client server = -1 ↔ rank < 0 ∨ client = 0 ∨ server = 0) ∧
    (isRangeServer rank client server = 1 ↔ 0 ≤ rank ∧ client ≠ 0 ∧ server ≠ 0 ∧ rank.toNat % client < server) ∧
    (isRangeServerIn rank size client server = -1 ↔ rank < 0 ∨ size ≤ rank ∨ client = 0 ∨ server = 0) ∧
    (isRangeServerIn rank size client server = 1 ↔
      0 ≤ rank ∧ rank < size ∧ client ≠ 0 ∧ server ≠ 0 ∧ rank.toNat % client < server) := by
  unfold isRangeServerIn isRangeServer ofBool
  by_cases h : rank < 0 ∨ client = 0 ∨ server = 0
  · simp only [if_pos h]
    refine ⟨by simp [h], by simp; omega, ?_, ?_⟩
    · split
      · simp; omega
      · simp; omega
    · simp; omega
  · simp only [if_neg h]
    by_cases hm : rank.toNat % client < server
    · simp only [hm, decide_true, if_true]
      by_cases hs : size ≤ rank
      · simp only [if_pos hs]
        refine ⟨by simp; omega, by simp; omega, by simp; omega, by simp; omega⟩
      · simp only [if_neg hs]
        refine ⟨by simp; omega, by simp; omega, by simp; omega, by simp; omega⟩
    · simp only [hm, decide_false, Bool.false_eq_true, if_false]
      by_cases hs : size ≤ rank
      · simp only [if_pos hs]
        refine ⟨by simp; omega, by simp, by simp; omega, by simp⟩
      · simp only [if_neg hs]
        refine ⟨by simp; omega, by simp, by simp; omega, by simp⟩

example : isRangeServerIn 4 7 3 2 = 1 ∧ isRangeServerIn 5 7 3 2 = 0 ∧ isRangeServerIn (-1) 7 3 2 = -1 := by decide

/-! ## C24 -/

/-- C24 fails. With two clients per server, four ranks and one datastore per server, datastore 1 is
on rank 2 (that is where requests for it go and where it was created), but `GetDatastoreLocation`
says rank 1. With one client per server and two ranks the call for datastore 1 is refused. -/
theorem C24_location_false :
    (∃ l : Layout, l.Valid ∧ 1 < l.total ∧ l.dsToRank 1 = 2 ∧
      l.getDatastoreLocation 1 = .ok (1, 0)) ∧
    (∃ l : Layout, l.Valid ∧ 1 < l.total ∧ l.dsToRank 1 = 1 ∧
      l.getDatastoreLocation 1 = .err) :=
  ⟨⟨⟨4, 2, 1, 1⟩, by decide⟩, ⟨⟨2, 1, 1, 1⟩, by decide⟩⟩

/-- C24 is wrong for every datastore but the first as soon as there is one datastore per server:
the reported rank is never the rank of the datastore. -/
theorem C24_location_never_right (l : Layout) (h : l.Valid) (h1 : l.per = 1) (id : Nat)
    (hid : 0 < id) (rank offset : Int) (hr : l.getDatastoreLocation id = .ok (rank, offset)) :
    rank ≠ dsGetRank id l.client l.server l.per := by
  obtain ⟨hc, hs, hp⟩ := h
  unfold Layout.getDatastoreLocation at hr
  have h2 : ¬((id : Int) < 0 ∨ l.client = 0 ∨ l.server = 0 ∨ (1 : Nat) = 0) := by omega
  have h3 : ¬((id : Int) < 0 ∨ l.server = 0 ∨ (1 : Nat) = 0) := by omega
  have hreal : dsGetRank id l.client l.server l.per =
      ((if l.client ≤ l.server then id else id / l.server * l.client + id % l.server : Nat) : Int) := by
    unfold dsGetRank
    rw [h1]
    simp only [Int.toNat_natCast, Nat.div_one, if_neg h2]
    split <;> rfl
  have hrep : rsGetRank id l.server 1 = ((id * l.server : Nat) : Int) := by
    unfold rsGetRank
    simp only [Int.toNat_natCast, Nat.div_one, Nat.mod_one, Nat.add_zero, if_neg h3]
    by_cases hs1 : l.server ≤ 1
    · have : l.server = 1 := by omega
      simp [this]
    · rw [if_neg hs1]
  rw [h1] at hr
  simp only [rsGetRankIn, hrep] at hr
  rw [hreal]
  split at hr
  · cases hr
  · split at hr
    · rw [if_pos (by omega)] at hr; cases hr
    · rename_i hlt
      split at hr
      · cases hr
      · simp only [Out.ok.injEq, Prod.mk.injEq] at hr
        obtain ⟨hr, _⟩ := hr
        rw [← hr]
        have hlt' : id * l.server < l.client := by
          have : ((id * l.server : Nat) : Int) < l.client := by omega
          exact_mod_cast this
        intro heq
        have heq' : id * l.server = (if l.client ≤ l.server then id else
          id / l.server * l.client + id % l.server) := by exact_mod_cast heq
        have hge : l.server ≤ id * l.server := Nat.le_mul_of_pos_left _ hid
        rw [if_neg (by omega)] at heq'
        have hdm := Nat.div_add_mod id l.server
        rcases Nat.eq_zero_or_pos (id / l.server) with h0 | h0
        · rw [h0] at heq' hdm
          have : id * l.server = id * 1 := by omega
          have hs1 := Nat.eq_of_mul_eq_mul_left hid this
          rw [hs1, Nat.div_one] at h0
          omega
        · have := Nat.le_mul_of_pos_left l.client h0
          omega

/-- C24, part: the call refuses ids outside the session, the offset it reports is the position of
the datastore on its rank, and the location of datastore 0 is right.
Missing: the rank of the other datastores (`C24_location_never_right`). -/
theorem C24_location_partial (l : Layout) (h : l.Valid) (id : Int) :
    (id < 0 ∨ (l.total : Int) ≤ id → l.getDatastoreLocation id = .err) ∧
    (∀ rank offset, l.getDatastoreLocation id = .ok (rank, offset) → offset = l.offset id.toNat) ∧
    (∀ offset, l.getDatastoreOffset id = .ok offset → offset = l.offset id.toNat) ∧
    (0 < l.total → l.getDatastoreLocation 0 = .ok (0, 0) ∧ l.dsToRank 0 = 0 ∧ l.offset 0 = 0) := by
  refine ⟨?_, ?_, ?_, ?_⟩
  · intro hx
    unfold Layout.getDatastoreLocation
    rw [if_pos (by omega)]
  · intro rank offset hr
    unfold Layout.getDatastoreLocation at hr
    simp only at hr
    split at hr
    · cases hr
    · split at hr <;> simp_all [Layout.offset]
  · intro offset hr
    unfold Layout.getDatastoreOffset at hr
    split at hr <;> simp_all [Layout.offset]
  · intro ht
    have hsize : 0 < l.size := by
      unfold Layout.total Layout.totalRangeServers at ht
      rcases Nat.eq_zero_or_pos l.size with h0 | h0
      · rw [h0] at ht; simp at ht
      · exact h0
    obtain ⟨hc, hs, hp⟩ := h
    have hc0 : ¬ l.client = 0 := by omega
    have hs0 : ¬ l.server = 0 := by omega
    have hp0 : ¬ l.per = 0 := by omega
    refine ⟨?_, ?_, ?_⟩
    · unfold Layout.getDatastoreLocation rsGetRankIn rsGetRank
      rw [if_neg (by simp; omega)]
      simp [hs0, hp0, hc0]
    · unfold Layout.dsToRank dsGetRankIn dsGetRank
      simp [hc0, hs0, hp0]; omega
    · simp [Layout.offset]

example : (⟨6, 2, 1, 2⟩ : Layout).getDatastoreLocation 1 = .ok (1, 1) ∧
    (⟨6, 2, 1, 2⟩ : Layout).dsToRank 1 = 0 := by decide

/-! ## C41 -/

private theorem toDec_inj {a b : Nat} (h : Elen.toDec a = Elen.toDec b) : a = b := by
  have := Elen.foldl_dec a
  rw [h, Elen.foldl_dec] at this
  exact this.symm

/-- C41 for `ChangeDatastoreName` (and the initial names): distinct datastore ids have distinct
names, so the name identifies the datastore. -/
theorem C41_change_name_distinct (pre basename post : Bytes) (sep : UInt8) (id id' : Nat)
    (h : changeDatastoreName pre basename id post sep
      = changeDatastoreName pre basename id' post sep) : id = id' := by
  unfold changeDatastoreName generateName at h
  have h1 := List.append_cancel_right h
  have h2 := List.append_cancel_left h1
  exact toDec_inj h2

/-- C41 for `ChangeDatastoreName` over the whole job: two datastores with the same name are the
same datastore on the same rank. -/
theorem C41_change_name_job (l : Layout) (h : l.Valid) (pre basename post : Bytes) (sep : UInt8)
    (r r' o o' : Nat) (hr : ServerRank l r) (hr' : ServerRank l r') (ho : o < l.per) (ho' : o' < l.per)
    (id id' : Nat) (hid : (l.created r)[o]? = some (id : Int))
    (hid' : (l.created r')[o']? = some (id' : Int))
    (hn : changeDatastoreName pre basename id post sep
      = changeDatastoreName pre basename id' post sep) : r = r' ∧ o = o' := by
  have heq := C41_change_name_distinct _ _ _ _ _ _ hn
  subst heq
  obtain ⟨x, hx, -, hx1, hx2⟩ := ((C22_created l h r hr.1).1 hr).2 o ho
  obtain ⟨y, hy, -, hy1, hy2⟩ := ((C22_created l h r' hr'.1).1 hr').2 o' ho'
  rw [hid] at hx
  rw [hid'] at hy
  have e1 : id = x := by have := Option.some.inj hx; omega
  have e2 : id = y := by have := Option.some.inj hy; omega
  subst e1
  subst e2
  rw [hx1] at hy1
  exact ⟨by exact_mod_cast hy1, by omega⟩

/-- C41 fails for `ChangeHash`: with two ranks and a 1:1 ratio both ranks open `name--1`. -/
theorem C41_change_hash_false :
    ∃ l : Layout, l.Valid ∧ ServerRank l 0 ∧ ServerRank l 1 ∧
      ∀ name, l.changeHashName name 0 0 = l.changeHashName name 1 0 := by
  refine ⟨⟨2, 1, 1, 1⟩, by decide, by unfold ServerRank; decide, by unfold ServerRank; decide, ?_⟩
  intro name
  rfl

/-- C41, `ChangeHash` in general: as long as a rank has no more datastores than the job has ranks,
every datastore of the job is renamed to the same name, `name--1`. -/
theorem C41_change_hash_all_same (l : Layout) (name : Bytes) (rank i : Nat) (hi : i ≤ l.size) :
    l.changeHashName name rank i = name ++ [45, 45, 49] := by
  unfold Layout.changeHashName dsGetId intDec
  rw [if_pos (by omega), if_pos (by omega)]
  have : Elen.toDec (Int.natAbs (-1)) = [49] := by
    rw [Elen.toDec]; rfl
  rw [this]
  simp

end Hx.Props

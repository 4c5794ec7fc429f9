import Verif.Proofs.MpiGroup
import Verif.Proofs.RpcJob
import Verif.Props.C32_Async
import Verif.Props.C62_Thallium

/-!
# C70: two threads of a rank that send requests

The thread of the background PUTs and the thread of the user both call `process`, and nothing keeps one
of them from doing so while the other does. The MPI endpoint group is made for one call at a time.
-/

namespace Hx.Props
open Hx Msg Process Results Session Async Spec Spec.MpiGroup

variable {σ : Type}

/-! ## When both send -/

private theorem calm_reached {b : Backend σ} {e : Env} {s : σ} {p : Priv} (hp : Starting p) {jobs : List Job}
    (h0 : 0 < p.opts.asyncMax) (hb : Below (p.hash e) p.servers p.opts.asyncMax 0 jobs) {l : List Act} {st : St σ}
    (hr : Run b e (start s p jobs) l st) : Calm e st :=
  hr.induct (P := fun st => Calm e st) (fun _ _ _ h hs => calm_step h hs) (calm_start s p jobs hp.running hp.count h0 hb)

/-- C70, partial: as long as the number of queued PUTs stays below the limit, the background thread never
sends requests while the user is about to do so, whatever the interleaving. Missing: the other programs
(`C70_both_send_false`). -/
theorem C70_apart_partial (b : Backend σ) (e : Env) (s : σ) (p : Priv) (hp : Starting p) (jobs : List Job)
    (h0 : 0 < p.opts.asyncMax) (hb : Below (p.hash e) p.servers p.opts.asyncMax 0 jobs) (l : List Act) (st : St σ)
    (hr : Run b e (start s p jobs) l st) : ¬ BothSend st := by
  have hi := calm_reached hp h0 hb hr
  rintro ⟨⟨batch, racy, hbg⟩, hu⟩
  have : st.bg.rests = true := by
    rcases hu with ⟨r, hu⟩ | ⟨hu, -⟩
    · exact (hi.rests (by rw [hu]; rfl) (by rw [hu]; rfl)).1
    · exact (hi.rests (by rw [hu]; rfl) (by rw [hu]; rfl)).1
  rw [hbg] at this
  cases this

namespace C70Ex

/-- The first of two ranks, each with a range server. -/
def two (max : Nat) : Priv := { C32Ex.priv max with
  opts := { (C32Ex.priv max).opts with comm := .world (some 2), hashFunc := some (.user 5) }
  size := 2, servers := 2, total := 2, ids := [0, 1], dsToRank := [0, 1], queues := Queue.Queues.init 2 }

/-- Everything is in the datastore of the second rank. -/
def env : Env := { C39Ex.env with userHash := fun _ _ _ _ => .ok 1 }

def get : Job := .queue (.get ⟨C39Ex.blob 1, C39Ex.blob 2, 0⟩)

end C70Ex
open C70Ex

/-- C70 is false: with a limit of one PUT, a PUT and a GET for the other rank can be sent by the two
threads at the same time. -/
theorem C70_both_send_false : ∃ (p : Priv) (jobs : List Job) (l : List Act) (st : St (List (Int × Nat))) (batch : Batch) (racy : Bool),
    Starting p ∧ p.rank = 0 ∧ p.dsToRank = [0, 1] ∧ Run C39Ex.log C70Ex.env (start [] p jobs) l st ∧ BothSend st ∧
    st.bg = .work batch racy ∧ st.jobs = [.flushGets] ∧ remaining (batch.drop 1) = 1 ∧ remaining (st.p.queues.gets.drop 1) = 1 := by
  have h : (match C32Ex.play C39Ex.log C70Ex.env (C32Ex.opening ++ [.user, .bg, .bg, .user]) (start [] (two 1) [C32Ex.put 3, C70Ex.get, .flushGets]) with
      | some (.ok st) => (match st.bg, st.user, st.jobs with
        | .work batch _, .idle, [.flushGets] => decide (remaining (batch.drop 1) = 1) && decide (remaining (st.p.queues.gets.drop 1) = 1)
        | _, _, _ => false)
      | _ => false) = true := by decide +kernel
  split at h
  · rename_i st hst
    split at h
    · rename_i batch racy hb hu hj
      simp only [Bool.and_eq_true, decide_eq_true_eq] at h
      exact ⟨two 1, _, _, st, batch, racy, ⟨rfl, rfl, rfl, rfl, by simp [two, Queue.Queues.init], rfl⟩, rfl, rfl,
        C32Ex.run_of_play _ _ _ _ _ hst, ⟨⟨batch, racy, hb⟩, .inr ⟨hu, _, _, hj, .inl rfl⟩⟩, hb, hj, h.1, h.2⟩
    · cases h
  · cases h

/-! ## One call at a time -/

open Hx.MpiGroup (Group Call Instr returnMsgs)

/-- C70, one thread, MPI: a call sends each request with its size to the rank of its destination, and
returns the responses to its own requests, in order. Requests with unknown destinations are left out. It
does not matter what earlier calls left in the arrays. -/
theorem C70_alone (g : Group) (hids : ∀ d r, g.ranks d = some r → g.ranks r = some r) (msgs : List (Int × Bytes))
    (hsize : msgs.length ≤ g.size) (s : MpiGroup.Net) (hq : Quiet s) :
    ∃ s' c', MpiGroup.run g (s, Call.new msgs) (returnMsgs msgs.length) = .ok (s', c') ∧ Quiet s' ∧
      s'.datas = s.datas ++ reached g msgs ∧ c'.got = answers g s.datas (reached g msgs) :=
  MpiGroup.alone hids msgs hsize s hq

/-- The responses to requests sent in two parts. -/
theorem C70_answers_append (g : Group) (before a b : List (Int × Bytes)) :
    answers g before (a ++ b) = answers g before a ++ answers g (before ++ a) b := by
  induction a generalizing before with
  | nil => simp [answers]
  | cons x a ih => simp [answers, ih]

/-- C70, any number of calls one after the other: together they return the responses to all requests. -/
theorem C70_calls (g : Group) (hids : ∀ d r, g.ranks d = some r → g.ranks r = some r) (l : List (List (Int × Bytes)))
    (hsize : ∀ msgs ∈ l, msgs.length ≤ g.size) (s : MpiGroup.Net) (hq : Quiet s) :
    ∃ s' rs, MpiGroup.calls g s l = .ok (s', rs) ∧ Quiet s' ∧ s'.datas = s.datas ++ l.flatMap (reached g) ∧
      rs.map List.length = l.map (fun msgs => (reached g msgs).length) ∧
      rs.flatten = answers g s.datas (l.flatMap (reached g)) := by
  induction l generalizing s with
  | nil => exact ⟨s, [], rfl, hq, by simp, rfl, rfl⟩
  | cons msgs l ih =>
    obtain ⟨s1, c1, h1, h2, h3, h4⟩ := C70_alone g hids msgs (hsize msgs (by simp)) s hq
    obtain ⟨s2, rs, e1, e2, e3, e4, e5⟩ := ih (fun x hx => hsize x (by simp [hx])) s1 h2
    refine ⟨s2, c1.got :: rs, ?_, e2, ?_, ?_, ?_⟩
    · simp only [MpiGroup.calls, h1, Out.ok_bind, e1]
    · rw [e3, h3, List.flatMap_cons, List.append_assoc]
    · rw [List.map_cons, List.map_cons, e4, h4, MpiGroup.answers_length]
    · rw [List.flatten_cons, e5, h4, List.flatMap_cons, C70_answers_append, h3]

/-- C70: with more requests than ranks a call writes behind its arrays. -/
theorem C70_too_many_ub (g : Group) (msgs : List (Int × Bytes)) (h : g.size < msgs.length) (s : MpiGroup.Net) :
    MpiGroup.run g (s, Call.new msgs) (returnMsgs msgs.length) = .ub := by
  obtain ⟨m, hm⟩ : ∃ m, msgs[g.size]? = some m := ⟨msgs[g.size], List.getElem?_eq_getElem h⟩
  have key : ∀ k, k ≤ g.size → ∃ s', MpiGroup.run g (s, Call.new msgs) ((List.range k).map .pack) = .ok (s', Call.new msgs) := by
    intro k
    induction k with
    | zero => exact fun _ => ⟨s, rfl⟩
    | succ k ih =>
      intro hk
      obtain ⟨s', h1⟩ := ih (by omega)
      obtain ⟨m', hm'⟩ : ∃ m, msgs[k]? = some m := ⟨msgs[k], List.getElem?_eq_getElem (by omega)⟩
      rw [MpiGroup.range_map, MpiGroup.run_append, h1, Out.ok_bind, MpiGroup.run_one]
      simp only [MpiGroup.exec, Call.new, hm']
      rw [if_pos (by omega)]
      exact ⟨_, rfl⟩
  obtain ⟨s', h1⟩ := key g.size (Nat.le_refl _)
  have h2 : MpiGroup.run g (s, Call.new msgs) ((List.range (g.size + 1)).map .pack) = .ub := by
    rw [MpiGroup.range_map, MpiGroup.run_append, h1, Out.ok_bind, MpiGroup.run_one]
    simp only [MpiGroup.exec, Call.new, hm]
    rw [if_neg (by omega)]
  have h3 : (List.range msgs.length).map Instr.pack = (List.range (g.size + 1)).map Instr.pack ++
      (List.range' (g.size + 1) (msgs.length - (g.size + 1))).map Instr.pack := by
    rw [← List.map_append]
    congr 1
    have := List.range'_append_1 (s := 0) (m := g.size + 1) (n := msgs.length - (g.size + 1))
    rw [Nat.zero_add, Nat.add_sub_cancel' h] at this
    rw [List.range_eq_range', List.range_eq_range', this]
  unfold returnMsgs
  simp only [MpiGroup.run_append]
  rw [h3, MpiGroup.run_append, h2]
  rfl

/-! ## Two calls at a time -/

/-- C70 is false for any two requests that are sent at the same time: the first thread can send a part of
its request only, or all of it, to the rank the second wants to send to. The part has the length of the
other request. -/
theorem C70_sent_false (g : Group) (hsize : 0 < g.size) (d d' r : Int) (hr : g.ranks d' = some r) (a b : Bytes)
    (hlen : b.length ≤ a.length) (s : MpiGroup.Net) :
    ∃ first rest s' x y, Interleaves (first ++ rest) (returnMsgs 1) (returnMsgs 1) ∧
      MpiGroup.run2 g (s, Call.new [(d, a)], Call.new [(d', b)]) first = .ok (s', x, y) ∧
      s'.sizes = s.sizes ++ [(r, b.length)] ∧ s'.datas = s.datas ++ [(r, a.take b.length)] := by
  refine ⟨[(false, .pack 0), (true, .pack 0), (false, .sizeTo 0), (false, .dataTo 0)],
    [(false, .recvSize 0), (false, .sizeIn 0), (false, .recvData 0), (false, .dataIn 0), (false, .unpack 0),
      (true, .sizeTo 0), (true, .dataTo 0), (true, .recvSize 0), (true, .sizeIn 0), (true, .recvData 0), (true, .dataIn 0), (true, .unpack 0)],
    ⟨Function.update (Function.update s.lens 0 a.length) 0 b.length, Function.update (Function.update s.dsts 0 d) 0 d', Function.update s.srvs 0 r,
      s.sizes ++ [(r, b.length)], s.datas ++ [(r, a.take b.length)], s.sizeRecvs, s.dataRecvs⟩,
    { Call.new [(d, a)] with dst := some r, sent := 1 }, Call.new [(d', b)], ⟨rfl, rfl⟩, ?_, rfl, rfl⟩
  simp [MpiGroup.run2, MpiGroup.exec, Call.new, hsize, hr, hlen]

/-- C70 is undefined for a request and a longer one that is sent at the same time: more is sent than there
is in the buffer. -/
theorem C70_sent_ub (g : Group) (hsize : 0 < g.size) (d d' r : Int) (hr : g.ranks d' = some r) (a b : Bytes)
    (hlen : a.length < b.length) (s : MpiGroup.Net) :
    ∃ first rest, Interleaves (first ++ rest) (returnMsgs 1) (returnMsgs 1) ∧
      MpiGroup.run2 g (s, Call.new [(d, a)], Call.new [(d', b)]) first = .ub := by
  refine ⟨[(false, .pack 0), (true, .pack 0), (false, .sizeTo 0), (false, .dataTo 0)],
    [(false, .recvSize 0), (false, .sizeIn 0), (false, .recvData 0), (false, .dataIn 0), (false, .unpack 0),
      (true, .sizeTo 0), (true, .dataTo 0), (true, .recvSize 0), (true, .sizeIn 0), (true, .recvData 0), (true, .dataIn 0), (true, .unpack 0)],
    ⟨rfl, rfl⟩, ?_⟩
  simp [MpiGroup.run2, MpiGroup.exec, Call.new, hsize, hr, Nat.not_le.mpr hlen]

/-- C70 is false for any two requests for one rank: although both are sent as they should, each thread
can receive the response to the request of the other. -/
theorem C70_received_false (g : Group) (hsize : 0 < g.size) (d d' r : Int) (hd : g.ranks d = some r) (hd' : g.ranks d' = some r)
    (hr : g.ranks r = some r) (a b : Bytes) (s : MpiGroup.Net) (hq : Quiet s) :
    ∃ l s' x y pa pb, Interleaves l (returnMsgs 1) (returnMsgs 1) ∧ answers g s.datas [(r, a), (r, b)] = [pa, pb] ∧
      MpiGroup.run2 g (s, Call.new [(d, a)], Call.new [(d', b)]) l = .ok (s', x, y) ∧ Quiet s' ∧
      s'.datas = s.datas ++ [(r, a), (r, b)] ∧ x.got = [pb] ∧ y.got = [pa] := by
  have hA : ∃ pa pb, answers g s.datas [(r, a), (r, b)] = [pa, pb] := ⟨_, _, rfl⟩
  obtain ⟨pa, pb, hA⟩ := hA
  have hsizes : (s.datas ++ [(r, a), (r, b)]).map (fun x => (x.1, x.2.length)) = s.sizes ++ [(r, a.length), (r, b.length)] := by
    rw [List.map_append, hq.sizes]; rfl
  have h1 : ∀ lens dsts srvs sr dr, MpiGroup.response g ⟨lens, dsts, srvs, s.sizes ++ [(r, a.length), (r, b.length)],
      s.datas ++ [(r, a), (r, b)], sr, dr⟩ r ((s.datas.map (·.1)).count r) = some pa := by
    intro lens dsts srvs sr dr
    obtain ⟨p, e1, e2⟩ := MpiGroup.response_answers (g := g) s ⟨lens, dsts, srvs, s.sizes ++ [(r, a.length), (r, b.length)],
      s.datas ++ [(r, a), (r, b)], sr, dr⟩ [(r, a), (r, b)] (s.datas.map (·.1)) (fun _ => rfl) hsizes.symm rfl 0
      (r, (s.datas.map (·.1)).count r) (by simp [MpiGroup.tickets])
    rw [hA] at e1
    cases e1
    exact e2
  have h2 : ∀ lens dsts srvs sr dr, MpiGroup.response g ⟨lens, dsts, srvs, s.sizes ++ [(r, a.length), (r, b.length)],
      s.datas ++ [(r, a), (r, b)], sr, dr⟩ r ((s.datas.map (·.1)).count r + 1) = some pb := by
    intro lens dsts srvs sr dr
    obtain ⟨p, e1, e2⟩ := MpiGroup.response_answers (g := g) s ⟨lens, dsts, srvs, s.sizes ++ [(r, a.length), (r, b.length)],
      s.datas ++ [(r, a), (r, b)], sr, dr⟩ [(r, a), (r, b)] (s.datas.map (·.1)) (fun _ => rfl) hsizes.symm rfl 1
      (r, (s.datas.map (·.1)).count r + 1) (by simp [MpiGroup.tickets])
    rw [hA] at e1
    cases e1
    exact e2
  have c1 := hq.sizeRecvs r
  have c2 := hq.dataRecvs r
  refine ⟨[(false, .pack 0), (false, .sizeTo 0), (false, .dataTo 0), (true, .pack 0), (true, .sizeTo 0), (true, .dataTo 0),
      (true, .recvSize 0), (true, .sizeIn 0), (true, .recvData 0), (true, .dataIn 0), (true, .unpack 0),
      (false, .recvSize 0), (false, .sizeIn 0), (false, .recvData 0), (false, .dataIn 0), (false, .unpack 0)],
    ⟨Function.update (Function.update (Function.update (Function.update s.lens 0 a.length) 0 b.length) 0 pa.length) 0 pb.length,
      Function.update (Function.update s.dsts 0 d) 0 d', Function.update (Function.update s.srvs 0 r) 0 r,
      s.sizes ++ [(r, a.length), (r, b.length)], s.datas ++ [(r, a), (r, b)], s.sizeRecvs ++ [r, r], s.dataRecvs ++ [r, r]⟩,
    ⟨[(d, a)], some r, 1, [(0, r, (s.datas.map (·.1)).count r + 1)], [(pb.length, r, (s.datas.map (·.1)).count r + 1)], [pb], [pb]⟩,
    ⟨[(d', b)], some r, 1, [(0, r, (s.datas.map (·.1)).count r)], [(pa.length, r, (s.datas.map (·.1)).count r)], [pa], [pa]⟩,
    pa, pb, ⟨rfl, rfl⟩, hA, ?_, ?_, rfl, rfl, rfl⟩
  · simp only [MpiGroup.run2, MpiGroup.exec, Call.new, List.getElem?_cons_zero, hsize, if_true, Out.ok_bind, List.length_singleton,
      Nat.zero_lt_one, Function.update_self, hd, hd', hr, Nat.le_refl, List.take_length, List.append_assoc, List.singleton_append,
      Nat.zero_add, List.nil_append, h1, c1, c2, List.count_append, List.count_singleton_self, h2, Nat.sub_self, List.replicate_zero,
      List.append_nil]
  · refine ⟨hsizes.symm, ?_, ?_⟩
    · intro x
      simp [List.count_append, hq.sizeRecvs]
    · intro x
      simp [List.count_append, hq.dataRecvs]

/-! ## Thallium -/

open Hx.Mpi (Act) in
/-- C70, Thallium: a call of `process_request` has no variables in common with others. Any number of
threads of any ranks send requests, thread `c` belonging to rank `rankOf c`; whatever the interleaving,
every thread gets the responses to its own requests, in order, and all buffers are freed. -/
theorem C70_thallium {n m : Nat} {α β W : Type} (rankOf : Fin n → Fin m) (serve : W → Fin m → α → Out (W × β)) (reqSize : α → Nat)
    (resSize : β → Nat) (threads : Nat) (async : Bool) (Good : W → Prop) (w : W) (prog : Fin n → List (Act n α)) (hw : Good w)
    (hans : Spec.Rpc.Answers ⟨fun w c p => serve w (rankOf c) p, reqSize, resSize, threads, async⟩ prog Good) (hd : Spec.Mpi.Distinct prog)
    (ht : 0 < threads) (ls : List (Rpc.Label n)) (st : Rpc.St n α β W)
    (h : Rpc.run ⟨fun w c p => serve w (rankOf c) p, reqSize, resSize, threads, async⟩ (Rpc.init w prog) ls = some st) :
    Spec.Rpc.Faithful ⟨fun w c p => serve w (rankOf c) p, reqSize, resSize, threads, async⟩ w prog st ∧
    ∃ more st', Rpc.run ⟨fun w c p => serve w (rankOf c) p, reqSize, resSize, threads, async⟩ st more = some st' ∧
      Spec.Rpc.Finished st' ∧ Spec.Rpc.Complete ⟨fun w c p => serve w (rankOf c) p, reqSize, resSize, threads, async⟩ w prog st' ∧
      ∀ r a, st'.mem r a = none := by
  obtain ⟨more, st', h1, h2, h3⟩ := C62_finishes _ Good w prog hw hans hd ht ls st h
  refine ⟨C62_faithful _ Good w prog hw hans hd ls st h, more, st', h1, h2, ?_, h3⟩
  exact C62_complete _ Good w prog hw hans hd (ls ++ more) st' (by rw [Rpc.run_append, h]; exact h1) h2

/-! ## Examples -/

namespace C70Ex

/-- Two ranks, with the id of a rank being the rank; range servers answer with what they got last. -/
def echo : Group := ⟨2, fun d => if d = 0 ∨ d = 1 then some d else none, fun _ _ l => l.getLastD []⟩

def quiet : MpiGroup.Net := ⟨fun _ => 7, fun _ => 9, fun _ => 9, [], [], [], []⟩

theorem quiet_quiet : Quiet quiet := ⟨rfl, fun _ => rfl, fun _ => rfl⟩

theorem echo_ids : ∀ d r, echo.ranks d = some r → echo.ranks r = some r := by
  intro d r h
  simp only [echo] at h ⊢
  split at h
  · cases h; rw [if_pos (by assumption)]
  · cases h

example : ∃ s' c', MpiGroup.run echo (quiet, Call.new [(0, [1, 2]), (1, [3])]) (returnMsgs 2) = .ok (s', c') ∧ Quiet s' ∧
    s'.datas = [(0, [1, 2]), (1, [3])] ∧ c'.got = [[1, 2], [3]] :=
  C70_alone echo echo_ids [(0, [1, 2]), (1, [3])] (by decide) quiet quiet_quiet

example : ∃ s' rs, MpiGroup.calls echo quiet [[(0, [1, 2]), (5, [4])], [(1, [3])]] = .ok (s', rs) ∧ Quiet s' ∧
    s'.datas = [(0, [1, 2]), (1, [3])] ∧ rs.map List.length = [1, 1] ∧ rs.flatten = [[1, 2], [3]] :=
  C70_calls echo echo_ids [[(0, [1, 2]), (5, [4])], [(1, [3])]] (by decide) quiet quiet_quiet

example : MpiGroup.run echo (quiet, Call.new [(0, []), (1, []), (0, [])]) (returnMsgs 3) = .ub :=
  C70_too_many_ub echo [(0, []), (1, []), (0, [])] (by decide) quiet

/-- A request for rank 0 arrives at rank 1, without its end. -/
example : ∃ first rest s' x y, Interleaves (first ++ rest) (returnMsgs 1) (returnMsgs 1) ∧
    MpiGroup.run2 echo (quiet, Call.new [(0, [1, 2])], Call.new [(1, [3])]) first = .ok (s', x, y) ∧
    s'.sizes = [(1, 1)] ∧ s'.datas = [(1, [1])] :=
  C70_sent_false echo (by decide) 0 1 1 rfl [1, 2] [3] (by decide) quiet

example : ∃ first rest, Interleaves (first ++ rest) (returnMsgs 1) (returnMsgs 1) ∧
    MpiGroup.run2 echo (quiet, Call.new [(0, [3])], Call.new [(1, [1, 2])]) first = .ub :=
  C70_sent_ub echo (by decide) 0 1 1 rfl [3] [1, 2] (by decide) quiet

/-- The thread that sent 1 gets the response to 2. -/
example : ∃ l s' x y pa pb, Interleaves l (returnMsgs 1) (returnMsgs 1) ∧ answers echo [] [(1, [1]), (1, [2])] = [pa, pb] ∧
    MpiGroup.run2 echo (quiet, Call.new [(1, [1])], Call.new [(1, [2])]) l = .ok (s', x, y) ∧ Quiet s' ∧
    s'.datas = [(1, [1]), (1, [2])] ∧ x.got = [pb] ∧ y.got = [pa] :=
  C70_received_false echo (by decide) 1 1 1 rfl rfl rfl [1] [2] quiet quiet_quiet

example : answers echo [] [(1, [1]), (1, [2])] = [[1], [2]] := rfl

/-- Two threads of each of two ranks. Threads 0 and 1 belong to rank 0. Both of them send to rank 1, for
which thread 2 stands; the second processes a request of its own rank as well. -/
def threads : Fin 4 → Fin 2 := fun c => if c.val < 2 then 0 else 1

def serve : Nat → Fin 2 → Nat → Out (Nat × (Fin 2 × Nat)) := fun w r p => .ok (w + 1, r, p)

def progs : Fin 4 → List (Hx.Mpi.Act 4 Nat) := fun c =>
  if c = 0 then [.remote [(2, 10)]] else if c = 1 then [.remote [(2, 20)], .local 21] else []

theorem distinct : Spec.Mpi.Distinct progs := by
  intro c l h
  unfold progs at h
  split at h
  · simp at h; subst h; simp
  · split at h
    · simp at h; subst h; simp
    · cases h

example (ls : List (Rpc.Label 4)) (st : Rpc.St 4 Nat (Fin 2 × Nat) Nat)
    (h : Rpc.run ⟨fun w c p => serve w (threads c) p, fun _ => 1, fun _ => 1, 1, false⟩ (Rpc.init 0 progs) ls = some st) :=
  C70_thallium threads serve (fun _ => 1) (fun _ => 1) 1 false (fun _ => True) 0 progs trivial
    (fun _ _ _ _ _ => ⟨_, _, rfl, trivial⟩) distinct (by decide) ls st h

end C70Ex

end Hx.Props

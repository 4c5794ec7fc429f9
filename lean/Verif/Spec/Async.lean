import Verif.Model.Async
import Verif.Spec.Queue

/-!
# Specification: PUTs with a background thread
-/

namespace Hx.Spec
open Hx Msg Process Results Session Async

variable {σ : Type}

/-- The queueing calls among some calls. -/
def callOf : Job → Option Queue.Call
  | .queue c => some c
  | _ => none

/-- The number of queued PUTs, `n` at first, never reaches `max` before the next flush. -/
def Below (hash : Bytes → Bytes → Out Int) (servers max : Nat) : Nat → List Job → Prop
  | _, [] => True
  | n, .queue c :: l =>
    n + putNumber (ops hash servers c) < max ∧ Below hash servers max (n + putNumber (ops hash servers c)) l
  | _, .flushPuts :: l => Below hash servers max 0 l
  | _, .close :: _ => True
  | n, .flushGets :: l | n, .flushGetOps :: l | n, .flushDels :: l | n, .flushHists :: l => Below hash servers max n l

/-- `Close` has begun. -/
def Closing (u : User) : Prop := ∃ i, u = .enter i .close ∨ u = .wait i .close ∨ u = .asleep i .close ∨ u = .join ∨ u = .closed

/-- The wakeups nobody asked for. -/
def Spurious (a : Act) : Prop := a = .spuriousUser ∨ a = .spuriousBg

instance : DecidablePred Spurious := fun a => by unfold Spurious; infer_instance

/-- Both threads access `async_puts.results`, and nothing orders the accesses. -/
def Races (st : St σ) : Prop := (st.user = .collect ∧ st.bg = .setDone) ∨ ∃ r, st.bg = .store r true

/-- The user is about to send requests, in one of the flush functions. -/
def Sends (st : St σ) : Prop :=
  (∃ r, st.user = .drain r) ∨
  st.user = .idle ∧ ∃ j l, st.jobs = j :: l ∧ (j = .flushGets ∨ j = .flushGetOps ∨ j = .flushDels ∨ j = .flushHists)

/-- Both threads are about to send requests. -/
def BothSend (st : St σ) : Prop := (∃ batch racy, st.bg = .work batch racy) ∧ Sends st

/-- The flush functions for other operations, on some queues. -/
def OtherFlush (net : Net) (serve : Server σ) (s s' : σ) : Prop :=
  ∃ q q' r, flushGets net serve s q = .ok (s', r, q') ∨ flushGetOps net serve s q = .ok (s', r, q') ∨
    flushDels net serve s q = .ok (s', r, q') ∨ flushHists net serve s q = .ok (s', r, q')

/-- The servers go from `s` to `s'` by flushing batches of PUTs one after the other, with the given
results; between them other operations may be flushed. -/
inductive Served (net : Net) (serve : Server σ) (s : σ) : List (σ × Batch × Results) → σ → Prop where
  | nil : Served net serve s [] s
  | put {l s' s'' batch r q} : Served net serve s l s' → process net serve .put s' batch = .ok (s'', r, q) →
      Served net serve s (l ++ [(s', batch, r)]) s''
  | other {l s' s''} : Served net serve s l s' → OtherFlush net serve s' s'' → Served net serve s l s''

/-- The calls one after the other, with a background thread that only runs when it is waited for: the
servers, the session, and what the flush functions returned. -/
def inTurn (b : Backend σ) (e : Env) : List Job → σ × Priv × List Results → Out (σ × Priv × List Results)
  | [], x => .ok x
  | .queue c :: l, (s, p, rs) =>
    Queue.exec (p.cfg e) p.queues c >>= fun r => inTurn b e l (s, { p with queues := r.1 }, rs)
  | .flushPuts :: l, (s, p, rs) => flushPriv b e s p .puts >>= fun x => inTurn b e l (x.1, x.2.1, rs ++ [x.2.2])
  | .flushGets :: l, (s, p, rs) => flushPriv b e s p .gets >>= fun x => inTurn b e l (x.1, x.2.1, rs ++ [x.2.2])
  | .flushGetOps :: l, (s, p, rs) => flushPriv b e s p .getops >>= fun x => inTurn b e l (x.1, x.2.1, rs ++ [x.2.2])
  | .flushDels :: l, (s, p, rs) => flushPriv b e s p .dels >>= fun x => inTurn b e l (x.1, x.2.1, rs ++ [x.2.2])
  | .flushHists :: l, (s, p, rs) => flushPriv b e s p .hists >>= fun x => inTurn b e l (x.1, x.2.1, rs ++ [x.2.2])
  | .close :: _, x => .ok x

end Hx.Spec

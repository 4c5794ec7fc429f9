import Mathlib.Data.Fintype.BigOperators
import Verif.Model.Mpi

/-!
# Specification: requests and responses of ranks that use MPI
-/

namespace Hx.Spec.Mpi
open Hx Hx.Mpi

variable {n L : Nat} {α β W : Type}

/-- The requests of a client in order: the rank they are for, with messages or not. -/
def targets (c : Fin n) : List (Act n α) → List (Fin n × Bool × α)
  | [] => []
  | .remote l :: acts => l.map (fun x => (x.1, true, x.2)) ++ targets c acts
  | .local p :: acts => (c, false, p) :: targets c acts

/-- The requests for one rank. -/
def sentTo (s : Fin n) (wire : Bool) (l : List (Fin n × Bool × α)) : List α :=
  (l.filter (fun x => decide (x.1 = s ∧ x.2.1 = wire))).map (·.2.2)

/-- The responses from one rank. -/
def gotFrom (s : Fin n) (wire : Bool) (l : List (Got n β)) : List β :=
  (l.filter (fun x => decide (x.rank = s ∧ x.wire = wire))).map (·.res)

/-- The requests of `c` that were processed on `s`, with the responses. -/
def logOf (c s : Fin n) (wire : Bool) (log : List (Entry n α β)) : List (α × β) :=
  (log.filter (fun x => decide (x.src = c ∧ x.rank = s ∧ x.wire = wire))).map (fun x => (x.req, x.res))

/-- The range servers process the requests of the log one after the other. -/
def Executes (serve : W → Fin n → α → Out (W × Fin n × β)) : W → List (Entry n α β) → W → Prop
  | w, [], w' => w' = w
  | w, x :: l, w' => ∃ u d, serve w x.rank x.req = .ok (u, d, x.res) ∧ Executes serve u l w'

/-- No step is possible. -/
def Stuck (sys : Sys n α β W) (st : St n L α β W) : Prop := ∀ l, step sys st l = none

/-- Every client has done everything. -/
def Finished (st : St n L α β W) : Prop := ∀ c, (st.client c).acts = [] ∧ (st.client c).phase = .ready

/-- At any time: nothing went wrong, every request that was processed was sent by the client it is
attributed to, in its order and once, and what a client has received from a rank are the responses to
its requests, in order. -/
structure Faithful (sys : Sys n α β W) (w : W) (prog : Fin n → List (Act n α)) (st : St n L α β W) : Prop where
  good : st.bad = false
  world : Executes sys.serve w st.log st.world
  requests : ∀ c s b, (logOf c s b st.log).map Prod.fst <+: sentTo s b (targets c (prog c))
  responses : ∀ c s b, gotFrom s b (st.client c).results <+: (logOf c s b st.log).map Prod.snd
  order : ∀ c, (st.client c).results.map (fun x => (x.rank, x.wire)) <+: (targets c (prog c)).map (fun x => (x.1, x.2.1))

/-- At the end: all requests were processed once, and every client has all its responses, in the order
of its requests. -/
structure Complete (sys : Sys n α β W) (w : W) (prog : Fin n → List (Act n α)) (st : St n L α β W) : Prop where
  world : Executes sys.serve w st.log st.world
  requests : ∀ c s b, (logOf c s b st.log).map Prod.fst = sentTo s b (targets c (prog c))
  responses : ∀ c s b, gotFrom s b (st.client c).results = (logOf c s b st.log).map Prod.snd
  order : ∀ c, (st.client c).results.map (fun x => (x.rank, x.wire)) = (targets c (prog c)).map (fun x => (x.1, x.2.1))

/-- At any time: what was processed are requests of rounds that were started; between two rounds, all of
them. -/
def InRounds (prog : Fin n → List (Act n α)) (st : St n L α β W) : Prop :=
  ∀ c, ∃ pre, prog c = pre ++ (st.client c).acts ∧
    ∀ s b, (logOf c s b st.log).map Prod.fst <+: sentTo s b (targets c pre) ∧
      ((st.client c).phase = .ready → (logOf c s b st.log).map Prod.fst = sentTo s b (targets c pre))

/-- Range servers answer the requests of the clients, and the responses are for the rank that asked. -/
def Answers (sys : Sys n α β W) (prog : Fin n → List (Act n α)) (Good : W → Prop) : Prop :=
  ∀ w, Good w → ∀ c, ∀ x ∈ targets c (prog c), ∃ w' r, sys.serve w x.1 x.2.2 = .ok (w', c, r) ∧ Good w'

/-- The requests of a round are for different ranks. -/
def Distinct (prog : Fin n → List (Act n α)) : Prop :=
  ∀ c l, Act.remote l ∈ prog c → (l.map Prod.fst).Nodup

/-- Requests with messages are for other ranks (include/hxhim/private/process.hpp:120-161). -/
def Foreign (prog : Fin n → List (Act n α)) : Prop := ∀ c l, Act.remote l ∈ prog c → ∀ x ∈ l, x.1 ≠ c

/-- The library copies all messages, or every round is one request, or a rank has a listener for every
client but one. -/
def Relaxed (sys : Sys n α β W) (L : Nat) (prog : Fin n → List (Act n α)) : Prop :=
  (0 < L ∧ ∀ len, sys.eager len = true) ∨ (0 < L ∧ ∀ c l, Act.remote l ∈ prog c → l.length ≤ 1) ∨ (n ≤ L + 1 ∧ Foreign prog)

/-- How many steps there can be. -/
def stepBound (prog : Fin n → List (Act n α)) : Nat :=
  ∑ c, ((prog c).map (fun a => match a with | .remote l => 4 + 10 * l.length | .local _ => 1)).sum

end Hx.Spec.Mpi

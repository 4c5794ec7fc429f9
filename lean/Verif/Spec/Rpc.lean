import Verif.Model.Rpc
import Verif.Spec.Mpi

/-!
# Specification: requests and responses of ranks that use Thallium
-/

namespace Hx.Spec.Rpc
open Hx Hx.Rpc Spec.Mpi
open Mpi (Act Entry)

variable {n : Nat} {α β W : Type}

/-- The range servers process the requests of the log one after the other. -/
def Executes (serve : W → Fin n → α → Out (W × β)) : W → List (Entry n α β) → W → Prop
  | w, [], w' => w' = w
  | w, x :: l, w' => ∃ u, serve w x.rank x.req = .ok (u, x.res) ∧ Executes serve u l w'

/-- No step is possible. -/
def Stuck (sys : Sys n α β W) (st : St n α β W) : Prop := ∀ l, step sys st l = none

/-- Every client has done everything. -/
def Finished (st : St n α β W) : Prop := ∀ c, (st.client c).acts = [] ∧ (st.client c).phase = .ready

/-- At any time: nothing went wrong, every request that was processed was sent by the client it is
attributed to, in its order and once, and what a client has received from a rank are the responses to
its requests, in order. -/
structure Faithful (sys : Sys n α β W) (w : W) (prog : Fin n → List (Act n α)) (st : St n α β W) : Prop where
  good : st.bad = false
  world : Executes sys.serve w st.log st.world
  requests : ∀ c s b, (logOf c s b st.log).map Prod.fst <+: sentTo s b (targets c (prog c))
  responses : ∀ c s b, gotFrom s b (st.client c).results <+: (logOf c s b st.log).map Prod.snd
  order : ∀ c, (st.client c).results.map (fun x => (x.rank, x.wire)) <+: (targets c (prog c)).map (fun x => (x.1, x.2.1))

/-- At the end: all requests were processed once, and every client has all its responses, in the order
of its requests. -/
structure Complete (sys : Sys n α β W) (w : W) (prog : Fin n → List (Act n α)) (st : St n α β W) : Prop where
  world : Executes sys.serve w st.log st.world
  requests : ∀ c s b, (logOf c s b st.log).map Prod.fst = sentTo s b (targets c (prog c))
  responses : ∀ c s b, gotFrom s b (st.client c).results = (logOf c s b st.log).map Prod.snd
  order : ∀ c, (st.client c).results.map (fun x => (x.rank, x.wire)) = (targets c (prog c)).map (fun x => (x.1, x.2.1))

/-- At any time: what was processed are requests of rounds that were started; between two rounds, all of
them. -/
def InRounds (prog : Fin n → List (Act n α)) (st : St n α β W) : Prop :=
  ∀ c, ∃ pre, prog c = pre ++ (st.client c).acts ∧
    ∀ s b, (logOf c s b st.log).map Prod.fst <+: sentTo s b (targets c pre) ∧
      ((st.client c).phase = .ready → (logOf c s b st.log).map Prod.fst = sentTo s b (targets c pre))

/-- Range servers answer the requests of the clients. -/
def Answers (sys : Sys n α β W) (prog : Fin n → List (Act n α)) (Good : W → Prop) : Prop :=
  ∀ w, Good w → ∀ c, ∀ x ∈ targets c (prog c), ∃ w' r, sys.serve w x.1 x.2.2 = .ok (w', r) ∧ Good w'

/-- How many steps there can be. -/
def stepBound (prog : Fin n → List (Act n α)) : Nat :=
  ∑ c, ((prog c).map (fun a => match a with | .remote l => 2 + 7 * l.length | .local _ => 1)).sum

/-- The buffer a client has for a call, until it is answered. -/
def reqBuf (x : Call n α) : List (Fin n × Nat) :=
  match x.stage with
  | .sent | .taken | .pulled _ | .replied _ _ => [(x.src, x.addr)]
  | _ => []

/-- The buffer a range server has for a call, from the answer until it is asked to free it. -/
def resBuf (x : Call n α) : List (Fin n × Nat) :=
  match x.stage with
  | .replied _ a | .answered _ a | .cleaning a => [(x.dst, a)]
  | _ => []

/-- Each buffer belongs to one call, and there are no others. -/
structure Owned (st : St n α β W) : Prop where
  once : (st.calls.flatMap (fun x => reqBuf x ++ resBuf x)).Nodup
  all : ∀ r a, (st.mem r a).isSome ↔ (r, a) ∈ st.calls.flatMap (fun x => reqBuf x ++ resBuf x)

end Hx.Spec.Rpc

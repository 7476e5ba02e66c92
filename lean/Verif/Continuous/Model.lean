import Verif.Delivery.Model

/-
Model of the queue of a continuous service, src/service/continuous.rs: how systems see the
orders, respond to them, and how the responses are delivered. Arrivals, pre-emption and
cleanups are those of Verif/Delivery; the list `tasks` of a `Svc` of kind `continuous` is
`ContinuousQueueStorage::inner`, in its order.

One provider only: the responses of one `ContinuousQuery` to several providers are retired
provider by provider and do not touch each other's queues. Streams are not modelled here.
-/
namespace Verif.Continuous

open Verif.Delivery

/-- `DeliverResponse`, src/service/continuous.rs:596-603. `order` stands for the `source`,
`session` and `task_id` that `OrderMut::respond` copied out of the order. -/
structure Resp where
  index : Nat
  order : Order
  data : Nat
  deriving DecidableEq, Repr

/-- A continuous service with the responses that are on their way. `pending`: the
`DeliverResponses` commands that were queued when a `ContinuousQuery` was dropped and that
have not been applied yet. `given`: the responses that were put into the target of the
node of their order, oldest first. -/
structure Cont where
  svc : Svc
  pending : List (List Resp) := []
  given : List (Order × Nat) := []

/-- A new continuous service. -/
def Cont.fresh (parallel : Bool) : Cont := { svc := .fresh .continuous parallel }

/-- What one run of a system adds to `ContinuousQuery::delivered`: for each attempt,
`ContinuousQueueMut::get_mut` (src/service/continuous.rs:278-302) yields the order unless the
index is out of range or was answered before in this run; `OrderMut::respond` (412-424)
appends the response. `for_each` and `for_each_out` (308-360) are the attempts for
0, 1, 2, …. -/
def respondAll (orders : List Order) : List Resp → List (Nat × Nat) → List Resp
  | delivered, [] => delivered
  | delivered, (i, data) :: rest =>
    match orders[i]? with
    | none => respondAll orders delivered rest
    | some o =>
      if delivered.any (fun d => d.index == i) then respondAll orders delivered rest
      else respondAll orders (delivered ++ [{ index := i, order := o, data }]) rest

/-- `remove.sort_by(…)`, src/service/continuous.rs:660-663: descending by index. -/
def insertDesc (i : Nat) : List Nat → List Nat
  | [] => [i]
  | j :: l => if i < j then j :: insertDesc i l else i :: j :: l

def sortDesc : List Nat → List Nat
  | [] => []
  | i :: l => insertDesc i (sortDesc l)

/-- `try_retire_request`, src/service/continuous.rs:693-709. `none`: `SmallVec::remove`
panics because the index is out of range. -/
def retire (v : Svc) (i : Nat) : Option Svc :=
  match v.tasks[i]? with
  | none => none
  | some t =>
    let v' : Svc := { v with tasks := v.tasks.eraseIdx i, log := v.log ++ [.responded t.order] }
    match t.blocker with
    | none => some v'
    | some label => v'.serveNext label (v'.fuel label)

def retireAll (v : Svc) : List Nat → Option Svc
  | [] => some v
  | i :: l =>
    match retire v i with
    | none => none
    | some v' => retireAll v' l

/-- `DeliverResponses::apply`, src/service/continuous.rs:607-677: first all responses are
given (`try_give_response`, 679-691: nothing happens if the node has no target any more),
then the orders are removed from the queue. -/
def deliver (s : Cont) (rs : List Resp) : Option Cont :=
  match retireAll s.svc (sortDesc (rs.map (·.index))) with
  | none => none
  | some v => some { s with
      svc := v
      given := s.given ++ (rs.filter fun r => decide (r.order.source ∉ s.svc.severed)).map
        fun r => (r.order, r.data) }

inductive Ev where
  /-- anything that Verif/Delivery describes; the ending of a request is described here
  instead -/
  | base (e : Delivery.Ev)
  /-- a system runs, makes these attempts to respond, and its `ContinuousQuery` is dropped
  (src/service/continuous.rs:465-488) -/
  | system (attempts : List (Nat × Nat))
  /-- the next `DeliverResponses` command is applied -/
  | apply
  /-- a system runs, and its command is applied before anything else happens -/
  | frame (attempts : List (Nat × Nat))
  deriving DecidableEq, Repr

/-- One event. `none` is a panic. -/
def step (s : Cont) : Ev → Option Cont
  | .base (.finish _) => some s
  | .base e => (Delivery.step s.svc e).map fun v => { s with svc := v }
  | .system attempts =>
    let rs := respondAll (s.svc.tasks.map (·.order)) [] attempts
    some (if rs = [] then s else { s with pending := s.pending ++ [rs] })
  | .apply =>
    match s.pending with
    | [] => some s
    | rs :: rest => deliver { s with pending := rest } rs
  | .frame attempts =>
    let rs := respondAll (s.svc.tasks.map (·.order)) [] attempts
    if rs = [] then some s else deliver s rs

def run (s : Cont) : List Ev → Option Cont
  | [] => some s
  | e :: es =>
    match step s e with
    | none => none
    | some s' => run s' es

end Verif.Continuous

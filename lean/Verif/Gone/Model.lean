import Verif.Delivery.Model

/-
Model of what happens to the requests of a service that is removed (its entity is
despawned).

Sources: /repo/src/service/internal.rs (`ServiceLifecycle`, `dispatch_service`),
/repo/src/flush.rs:214-239 (the flush learns of removed services),
/repo/src/operation/operate_service.rs:76-89 and 147-215 (the node of a service and the
disposal of what waits in front of it), /repo/src/disposal.rs:483-533 (who is told),
/repo/src/workflow.rs:264-276 (the scope of a workflow is a child of its service).

The service itself, while it is there, is the model of Verif/Delivery, resp. answers at
once if it is a blocking service (/repo/src/service/blocking.rs:76-172). Requests are
known by node, session and instructions; their data is not modelled.
-/
namespace Verif.Gone

open Verif.Delivery (Svc Task Order Instr Kind Delivery)

/-- A request that lies in the input storage of a node (src/input.rs:44-56) together with
the `DeliveryInstructions` of that node (src/operation/operate_service.rs:71-73). -/
structure Req where
  node : Nat
  session : Nat
  instr : Option Instr
  deriving DecidableEq, Repr

/-- The request that an order of the service came from. -/
def reqOf (o : Order) : Req := ⟨o.source, o.session, o.instr⟩

/-- Where the node of a service is: in a workflow (it has a `ScopeStorage`) or in a series
(it has a `SeriesMarker`), src/disposal.rs:484-518. -/
inductive Place where
  | workflow | series
  deriving DecidableEq, Repr

/-- What happens to the requests besides what the service itself records. `disposed`: a
disposal is stored on the node and the scope is told to check its session
(src/disposal.rs:520-532). `ignored`: the disposal is emitted in a series and has no effect
(src/disposal.rs:485-502). `cleared`: removed from the inputs by the cleanup of the
session. `dropped` is not recorded by the code: it notes the requests that were held in
components of the service, or in its child entities, at the time that it was despawned. -/
inductive Rec where
  | arrived (r : Req)
  | answered (r : Req)
  | disposed (r : Req)
  | ignored (r : Req)
  | cleared (r : Req)
  | dropped (r : Req)
  deriving DecidableEq, Repr

/-- A service, the nodes that use it and what lies in front of them.

`blocking`: it is a blocking service, `svc` is not used. `present`: its entity exists.
`tracked`: its `ServiceHook::lifecycle` is set (src/service/internal.rs:73-83). `signals`:
its messages in the `ServiceLifecycleChannel`. `inputs`: the input storages of all its
nodes, oldest first. -/
structure W where
  place : Nat → Place
  blocking : Bool
  svc : Svc
  present : Bool := true
  tracked : Bool := false
  signals : Nat := 0
  inputs : List Req := []
  log : List Rec := []

/-- A new service. -/
def W.fresh (place : Nat → Place) (blocking : Bool) (kind : Kind) (parallel : Bool) : W :=
  { place, blocking, svc := .fresh kind parallel }

/-- `emit_disposal` for a `ServiceUnavailable`, src/disposal.rs:483-533. -/
def W.emit (w : W) (r : Req) : Rec :=
  match w.place r.node with
  | .workflow => .disposed r
  | .series => .ignored r

/-- `dispose_for_despawned_service`, src/operation/operate_service.rs:147-181, and
`dispose_for_unavailable_service`, 194-215: all inputs of all nodes of the service are
taken out and disposed of. The order of the nodes is that of an ECS query; here the
requests are taken in the order of their arrival. -/
def W.disposeAll (w : W) : W :=
  { w with
    inputs := []
    log := w.log ++ w.inputs.map w.emit }

/-- The requests that are lost with the entity of the service: those that wait in its
`Delivery` component; for a continuous service also the ones in its
`ContinuousQueueStorage` component (src/service/continuous.rs:498-530); for a workflow also
the ones that are being carried out by its scope, which is a child of the service and
despawned with it (src/workflow.rs:273-275). The tasks of an asynchronous service are
children of the node (src/operation/operate_task.rs:112-124) and continue. -/
def held (v : Svc) : List Order :=
  (v.delivery.keys.flatMap fun k => (v.delivery.lane k).queue) ++
    match v.kind with
    | .async => []
    | .workflow | .continuous => v.tasks.map (·.order)

/-- The entity of the service is despawned. Dropping its `ServiceHook` drops the
`ServiceLifecycle`, if there is one, which sends a message (`Drop`,
src/service/internal.rs:107-111). -/
def W.remove (w : W) : W :=
  if w.present then
    { w with
      present := false
      tracked := false
      signals := if w.tracked then w.signals + 1 else w.signals
      svc :=
        if w.blocking then w.svc
        else { w.svc with
          delivery := .fresh w.svc.delivery.parallel
          tasks := match w.svc.kind with
            | .async => w.svc.tasks
            | .workflow | .continuous => [] }
      log := w.log ++ if w.blocking then [] else (held w.svc).map fun o => .dropped (reqOf o) }
  else w

/-- The part of `collect_from_channels` about services, src/flush.rs:214-239: messages
about removed services are received, trackers are put on services that have none, the
removed services are disposed for. -/
def W.collect (w : W) : W :=
  let w' : W := { w with
    tracked := w.tracked || w.present
    signals := 0 }
  if w.signals = 0 then w' else w'.disposeAll

/-- `OperateService::execute`, src/operation/operate_service.rs:76-89, with
`dispatch_service`, src/service/internal.rs:201-243, for one request that is not made
while another one is being dispatched (see `Verif.Gone.Dispatch` for that). If the service
has no `ServiceHook` everything that waits in front of it is disposed of; otherwise the
oldest input of the node is taken and served. A missing input is `NotReady`
(src/input.rs:262-264). `none` is a panic. -/
def W.execute (w : W) (node : Nat) : Option W :=
  if w.present then
    match w.inputs.find? (fun r => r.node == node) with
    | none => some w
    | some r =>
      let w' : W := { w with inputs := w.inputs.erase r }
      if w.blocking then some { w' with log := w.log ++ [.answered r] }
      else (w.svc.serve r.node r.session r.instr).map fun v => { w' with svc := v }
  else some w.disposeAll

/-- What can still happen to a service of Verif/Delivery when its entity is gone: its
asynchronous tasks go on and end (src/operation/operate_task.rs:246-282 and 361-424), their
nodes are cleaned up, and unblocking it has no effect, since `pop_next_delivery` finds no
`Delivery` (src/service/delivery.rs:38) and `serve_next_workflow_request` no
`WorkflowStorage` (src/service/workflow.rs:291-293). -/
def goneStep (v : Svc) : Verif.Delivery.Ev → Svc
  | .arrive .. => v
  | .finish id =>
    match v.tasks.find? (fun t => t.order.id == id && t.status == .running) with
    | none => v
    | some t => { v with
        tasks := v.tasks.filter (fun u => u.order.id != t.order.id)
        unblocks := v.unblocks ++ t.blocker.toList
        log := v.log ++ [.responded t.order] }
  | .cancelDone id =>
    match v.tasks.find? (fun t => t.order.id == id && t.status != .running) with
    | none => v
    | some t => { v with
        tasks := v.tasks.filter (fun u => u.order.id != t.order.id)
        unblocks := v.unblocks ++ t.blocker.toList
        log := v.log ++
          [if t.status = .stopping then .stopped t.order else .cleaned t.order] }
  | .unblock => { v with unblocks := v.unblocks.tail }
  | .cancelNow => { v with cancels := v.cancels.tail }
  | .cleanup source session => v.cleanTasks source session
  | .sever source => { v with severed := source :: v.severed }

/-- The cleanup of a node for a session removes its inputs
(`cleanup_inputs`, src/operation/operate_service.rs:92). -/
def W.clearInputs (w : W) (node session : Nat) : W :=
  { w with
    inputs := w.inputs.filter fun r => !(r.node == node && r.session == session)
    log := w.log ++
      (w.inputs.filter fun r => r.node == node && r.session == session).map .cleared }

/-- Everything that can happen. -/
inductive Ev where
  /-- a request is put into the input storage of a node -/
  | arrive (r : Req)
  /-- the flush executes a node -/
  | execute (node : Nat)
  /-- something happens to the requests that the service has accepted; `.arrive` is not
  possible here, requests are accepted by `execute` only -/
  | inner (e : Verif.Delivery.Ev)
  /-- the service is despawned -/
  | remove
  /-- the flush looks for removed services -/
  | collect
  deriving DecidableEq, Repr

/-- What happens inside of the service, present or not. -/
def W.inner (w : W) (e : Verif.Delivery.Ev) : Option W :=
  if w.blocking then some w
  else if w.present then (Verif.Delivery.step w.svc e).map fun v => { w with svc := v }
  else some { w with svc := goneStep w.svc e }

/-- One event; `none` is a panic. -/
def step (w : W) : Ev → Option W
  | .arrive r => some { w with
      inputs := w.inputs ++ [r]
      log := w.log ++ [.arrived r] }
  | .execute node => w.execute node
  | .inner (.arrive ..) => some w
  | .inner (.cleanup node session) => (w.clearInputs node session).inner (.cleanup node session)
  | .inner e => w.inner e
  | .remove => some w.remove
  | .collect => some w.collect

/-- A sequence of events. -/
def run (w : W) : List Ev → Option W
  | [] => some w
  | e :: es =>
    match step w e with
    | none => none
    | some w' => run w' es

end Verif.Gone

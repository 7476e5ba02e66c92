/-
Model of how a service schedules its requests.

Sources: /repo/src/service/delivery.rs (the serial and labelled queues),
/repo/src/service/async_srv.rs and /repo/src/service/workflow.rs (how asynchronous
services and workflows use them), /repo/src/operation/operate_task.rs (how the task
of a request ends) and the end of a workflow session in
/repo/src/operation/scope.rs:1871-1909.

Not modelled here: continuous services (Verif/Continuous), the contents of requests
and responses, the removal of the provider itself (Verif/Gone) and what a task computes.
When a task finishes and when an asynchronous cancellation completes is decided by the
environment: it is an arbitrary sequence of events.
-/
namespace Verif.Delivery

/-- `DeliveryInstructions`, src/service.rs:263-267: a label, and whether the request pre-empts
earlier ones and is protected against later ones. -/
structure Instr where
  label : Nat
  preempt : Bool := false
  ensure : Bool := false
  deriving DecidableEq, Repr

/-- `DeliveryOrder` and `ActiveDelivery`, src/service/delivery.rs:105-122. `id` is the
`task_id` entity. The request itself is not modelled. -/
structure Order where
  id : Nat
  source : Nat
  session : Nat
  instr : Option Instr
  deriving DecidableEq, Repr

/-- `SerialDelivery`, src/service/delivery.rs:183-204. -/
structure Serial where
  delivering : Option Order := none
  queue : List Order := []
  deriving DecidableEq, Repr

/-- `Delivery`, src/service/delivery.rs:127-139 and 206-216. `Delivery::Serial(s)` is
`parallel = false` with the single lane `none`; `Delivery::Parallel` has the lanes
`some label` for the keys of its hash map. `lane k` matters for `k ∈ keys` only. -/
structure Delivery where
  parallel : Bool
  keys : List (Option Nat)
  lane : Option Nat → Serial

/-- `Delivery::serial` and `Delivery::parallel`, src/service/delivery.rs:133-139. -/
def Delivery.fresh (parallel : Bool) : Delivery :=
  { parallel, keys := if parallel then [] else [none], lane := fun _ => {} }

/-- Write back a lane, creating it if it is new (`entry(label).or_default()`,
src/service/delivery.rs:266). -/
def Delivery.set (d : Delivery) (k : Option Nat) (s : Serial) : Delivery :=
  { d with
    keys := if k ∈ d.keys then d.keys else d.keys ++ [k]
    lane := fun k' => if k' = k then s else d.lane k' }

/-- `DeliveryUpdate`, src/service/delivery.rs:232-247. -/
inductive Update where
  | immediate (blocking : Option (Option Nat))
  | queued (cancelled : List Order) (stop : Option Order) (label : Option Nat)
  deriving DecidableEq, Repr

/-- The closure `should_discard`, src/service/delivery.rs:310-312. -/
def shouldDiscard (incoming prior : Instr) : Bool :=
  prior.label == incoming.label && !prior.ensure

/-- `insert_serial_order`, src/service/delivery.rs:276-345. `none` is the failed
assertion of line 284. -/
def insertSerialOrder (s : Serial) (o : Order) : Option (Serial × Update) :=
  match s.delivering with
  | none =>
    if s.queue = [] then
      some ({ s with delivering := some o }, .immediate (some (o.instr.map (·.label))))
    else none
  | some d =>
    match o.instr with
    | none => some ({ s with queue := s.queue ++ [o] }, .queued [] none none)
    | some inc =>
      if inc.preempt then
        some ({ s with
            queue := s.queue.filter (fun e => !(e.instr.any (shouldDiscard inc))) ++ [o] },
          .queued (s.queue.filter (fun e => e.instr.any (shouldDiscard inc)))
            (if d.instr.any (shouldDiscard inc) then some d else none) (some inc.label))
      else
        some ({ s with queue := s.queue ++ [o] }, .queued [] none (some inc.label))

/-- `insert_new_order`, src/service/delivery.rs:257-274. -/
def insertNewOrder (d : Delivery) (o : Order) : Option (Delivery × Update) :=
  if d.parallel then
    match o.instr with
    | some i =>
      (insertSerialOrder (d.lane (some i.label)) o).map fun r => (d.set (some i.label) r.1, r.2)
    | none => some (d, .immediate none)
  else
    (insertSerialOrder (d.lane none) o).map fun r => (d.set none r.1, r.2)

/-- `pop_next_delivery_impl`, src/service/delivery.rs:56-95. -/
def popNextImpl (s : Serial) : Serial × Option Order :=
  match s.queue with
  | [] => ({ delivering := none, queue := [] }, none)
  | o :: q => ({ delivering := some o, queue := q }, some o)

/-- `pop_next_delivery`, src/service/delivery.rs:29-54. The outer `none` is a failed
`expect` (lines 42 and 46). -/
def popNext (d : Delivery) (label : Option Nat) : Option (Delivery × Option Order) :=
  if d.parallel then
    match label with
    | none => none
    | some l =>
      if some l ∈ d.keys then
        some (d.set (some l) (popNextImpl (d.lane (some l))).1,
          (popNextImpl (d.lane (some l))).2)
      else none
  else
    some (d.set none (popNextImpl (d.lane none)).1, (popNextImpl (d.lane none)).2)

/-- `SerialDelivery::cleanup` and `ParallelDelivery::cleanup`,
src/service/delivery.rs:192-194 and 224-228. -/
def Delivery.cleanup (d : Delivery) (session : Nat) : Delivery :=
  { d with lane := fun k => { d.lane k with
      queue := (d.lane k).queue.filter (fun o => o.session != session) } }

/-- `Delivery::contains_session`, src/service/delivery.rs:141-158, 189-191 and
219-223. -/
def Delivery.containsSession (d : Delivery) (session : Nat) : Bool :=
  d.keys.any fun k => (d.lane k).queue.any fun o => o.session == session

/-- The waiting orders of a session: what `Delivery.cleanup` removes. -/
def Delivery.waitingOf (d : Delivery) (session : Nat) : List Order :=
  d.keys.flatMap fun k => (d.lane k).queue.filter (fun o => o.session == session)

/-- The provider: an asynchronous service (src/service/async_srv.rs), a workflow
(src/service/workflow.rs) or a continuous service (src/service/continuous.rs). -/
inductive Kind where
  | async | workflow | continuous
  deriving DecidableEq, Repr

/-- What is left of the task of a request. `running`: the task has its `OperateTask`
(src/operation/operate_task.rs:73-110), resp. the scoped session is ongoing.
`stopping`: `OperateTask` was taken out and dropped, its cancellation is under way.
`cleaning`: `being_cleaned` is set, its cancellation is under way. `gone`: the task
entity is despawned although a cancellation that will report later is under way (a
second cleanup of the same task, src/operation/operate_task.rs:347-356). -/
inductive Status where
  | running | stopping | cleaning | gone
  deriving DecidableEq, Repr

/-- A task entity; `blocker` is the label of its `Blocker`, if it has one
(`Blocker`, src/operation.rs:326-337). -/
structure Task where
  order : Order
  blocker : Option (Option Nat)
  status : Status
  deriving DecidableEq, Repr

/-- What happened to the requests, oldest first. `skipped`: taken out of the queue
although its node has no target any more (src/service/async_srv.rs:361-365). -/
inductive Rec where
  | accepted (o : Order)
  | started (o : Order)
  | responded (o : Order)
  | stopped (o : Order)
  | cleaned (o : Order)
  | discarded (o : Order)
  | removed (o : Order)
  | skipped (o : Order)
  deriving DecidableEq, Repr

/-- A service provider with everything that belongs to its deliveries.
`unblocks`: its entries in `OperationRoster::unblock` (labels). `cancels`: the sessions
of the `Cancel`s queued for the scope of a workflow. `severed`: nodes that lost their
`SingleTargetStorage`. `next`: the entity that the next `world.spawn` yields. -/
structure Svc where
  kind : Kind
  delivery : Delivery
  tasks : List Task := []
  unblocks : List (Option Nat) := []
  cancels : List Nat := []
  severed : List Nat := []
  next : Nat := 0
  log : List Rec := []

/-- A new service without requests. -/
def Svc.fresh (kind : Kind) (parallel : Bool) : Svc :=
  { kind, delivery := .fresh parallel }

/-- `serve_async_request`, src/service/async_srv.rs:222-327, resp. `begin_workflow`,
src/service/workflow.rs:242-278: the task starts. Continuous services
(`serve_continuous_request`, src/service/continuous.rs:844-871): the request is pushed
onto the queue that the system sees, `ContinuousQueueStorage::inner`; for them `tasks` is
that queue, in its order. -/
def Svc.start (v : Svc) (o : Order) (blocker : Option (Option Nat)) : Svc :=
  { v with
    tasks := v.tasks ++ [{ order := o, blocker, status := .running }]
    log := v.log ++ [.started o] }

/-- `serve_next_async_request`, src/service/async_srv.rs:329-395, resp.
`serve_next_workflow_request`, src/service/workflow.rs:280-351, resp.
`serve_next_continuous_request`, src/service/continuous.rs:873-938: take orders out of the
queue until one can be started. `fuel` bounds the loop; running out of it counts as a
failure, which `Lemmas` shows not to happen. -/
def Svc.serveNext (v : Svc) (label : Option Nat) : Nat → Option Svc
  | 0 => none
  | fuel + 1 =>
    match popNext v.delivery label with
    | none => none
    | some (d, none) => some { v with delivery := d }
    | some (d, some o) =>
      if o.source ∈ v.severed then
        { v with delivery := d, log := v.log ++ [Rec.skipped o] }.serveNext label fuel
      else
        some (Svc.start { v with delivery := d } o (some (o.instr.map Instr.label)))

/-- The fuel for `serveNext`: more than the length of the queue. -/
def Svc.fuel (v : Svc) (label : Option Nat) : Nat :=
  (v.delivery.lane (if v.delivery.parallel then label else none)).queue.length + 1

/-- `stop_task`, src/operation/operate_task.rs:436-453: the `OperateTask` of a running
task is dropped, which begins its cancellation (126-166); a task that is already
stopping is left alone. For a task being cleaned nothing happens either, since dropping
its `OperateTask` has no effect (132-135). -/
def stopStatus : Status → Status
  | .running => .stopping
  | s => s

/-- The end of a task: its entity is despawned and its blocker, if it has one, is
released. Asynchronous services put it into the roster (`cleanup_task`,
src/operation/operate_task.rs:381-383); a workflow serves the next request at once
(src/operation/scope.rs:1906-1909), and so does a continuous service
(`try_retire_request`, src/service/continuous.rs:693-709, and 778-783). -/
def Svc.release (v : Svc) (t : Task) (r : Rec) : Option Svc :=
  let v' : Svc := { v with
    tasks := v.tasks.filter (fun u => u.order.id != t.order.id)
    log := v.log ++ [r] }
  match t.blocker with
  | none => some v'
  | some label =>
    match v.kind with
    | .async => some { v' with unblocks := v'.unblocks ++ [label] }
    | .workflow | .continuous => v'.serveNext label (v'.fuel label)

/-- The stop of the active request by a pre-empting one. Asynchronous services
(src/service/async_srv.rs:157-196): if the task entity does not exist any more, the
lane is unblocked at once. Workflows (src/service/workflow.rs:210-219): a cancellation
for the parent session of the active request is queued. Continuous services
(src/service/continuous.rs:762-804): the active request is taken out of the queue and the
next one is served at once; if it is not in the queue any more, the lane is unblocked
later. -/
def Svc.stop (v : Svc) (d : Order) (label : Option Nat) : Option Svc :=
  match v.kind with
  | .async =>
    if v.tasks.any (fun t => t.order.id == d.id && t.status != .gone) then
      some { v with tasks := v.tasks.map fun t =>
          if t.order.id = d.id then { t with status := stopStatus t.status } else t }
    else
      some { v with unblocks := v.unblocks ++ [label] }
  | .workflow => some { v with cancels := v.cancels ++ [d.session] }
  | .continuous =>
    match v.tasks.find? (fun t => t.order.id == d.id) with
    | some t => v.release t (.stopped t.order)
    | none => some { v with unblocks := v.unblocks ++ [label] }

/-- `AsyncService::serve`, src/service/async_srv.rs:96-219, resp.
`serve_workflow_impl`, src/service/workflow.rs:102-240, resp.
`ContinuousServiceImpl::serve`, src/service/continuous.rs:723-842. -/
def Svc.serve (v : Svc) (source session : Nat) (instr : Option Instr) : Option Svc :=
  let o : Order := { id := v.next, source, session, instr }
  match insertNewOrder v.delivery o with
  | none => none
  | some (d, .immediate blocking) =>
    some ({ v with delivery := d, next := v.next + 1, log := v.log ++ [Rec.accepted o] }.start
      o blocking)
  | some (d, .queued cancelled stop label) =>
    let v' : Svc := { v with
      delivery := d
      next := v.next + 1
      log := v.log ++ [.accepted o] ++ cancelled.map .discarded }
    match stop with
    | none => some v'
    | some s => v'.stop s label

/-- What the cleanup of the node `source` for `session` does to a task of that node:
`ActiveTasksStorage::cleanup` and `OperateTask::cleanup`,
src/operation/operate_task.rs:323-359 and 468-499. For a task whose `OperateTask` was
taken out by `stop_task` the cleanup fails (327-329). -/
def cleanStatus : Status → Status
  | .running => .cleaning
  | .stopping => .stopping
  | .cleaning => .gone
  | .gone => .gone

/-- The active part of `OperateService::cleanup`, src/operation/operate_service.rs:91-115.
Continuous services (`ContinuousQueueStorage::cleanup`, src/service/continuous.rs:519-530):
all requests of the session are taken out of the queue, whichever node they came from, and
their blockers are dropped without being released. -/
def Svc.cleanTasks (v : Svc) (source session : Nat) : Svc :=
  match v.kind with
  | .async | .workflow => { v with
      tasks := v.tasks.map fun t =>
        if t.order.source = source ∧ t.order.session = session then
          { t with status := cleanStatus t.status } else t }
  | .continuous => { v with
      tasks := v.tasks.filter fun t => t.order.session != session
      log := v.log ++ (v.tasks.filter fun t => t.order.session == session).map
        fun t => Rec.cleaned t.order }

/-- Everything that can happen to a service. -/
inductive Ev where
  /-- a request arrives (`OperateService::execute`, src/operation/operate_service.rs:76-89) -/
  | arrive (source session : Nat) (instr : Option Instr)
  /-- the task of a request finishes by itself (src/operation/operate_task.rs:246-282);
  for workflows: its scoped session ends in whatever way; for continuous services: the
  system responds to the request (see Verif/Continuous for how requests are found) -/
  | finish (id : Nat)
  /-- the asynchronous cancellation of a task is done (src/operation/operate_task.rs:146-165,
  337-346) -/
  | cancelDone (id : Nat)
  /-- the flush takes the next entry out of `OperationRoster::unblock`
  (src/flush.rs:132-136) -/
  | unblock
  /-- the flush takes the next `Cancel` out of the roster -/
  | cancelNow
  /-- the cleanup of a node for a session (src/operation/operate_service.rs:91-115) -/
  | cleanup (source session : Nat)
  /-- a node loses its target -/
  | sever (source : Nat)
  deriving DecidableEq, Repr

/-- One event. `none` is a panic. An event that cannot happen in this state changes
nothing. -/
def step (v : Svc) : Ev → Option Svc
  | .arrive source session instr => v.serve source session instr
  | .finish id =>
    match v.tasks.find? (fun t => t.order.id == id &&
        (t.status == .running || v.kind == .workflow)) with
    | none => some v
    | some t => v.release t (.responded t.order)
  | .cancelDone id =>
    match v.tasks.find? (fun t => t.order.id == id &&
        (t.status != .running && v.kind == .async)) with
    | none => some v
    | some t =>
      v.release t (if t.status = .stopping then .stopped t.order else .cleaned t.order)
  | .unblock =>
    match v.unblocks with
    | [] => some v
    | label :: rest => { v with unblocks := rest }.serveNext label (v.fuel label)
  | .cancelNow =>
    match v.cancels with
    | [] => some v
    | session :: rest =>
      some { v with
        cancels := rest
        tasks := v.tasks.map fun t =>
          if t.order.session = session then { t with status := stopStatus t.status } else t }
  | .cleanup source session =>
    some (({ v with
      delivery := v.delivery.cleanup session
      log := v.log ++ (v.delivery.waitingOf session).map .removed } : Svc).cleanTasks source session)
  | .sever source => some { v with severed := source :: v.severed }

/-- A sequence of events. -/
def run (v : Svc) : List Ev → Option Svc
  | [] => some v
  | e :: es =>
    match step v e with
    | none => none
    | some v' => run v' es

end Verif.Delivery

/-
Model of the tasks of one node: asynchronous work that a node has started and not
finished.

Sources: /repo/src/operation/operate_task.rs (all of it except what is listed below),
/repo/src/operation/operate_service.rs:91-115 (how a node is cleaned up) and
/repo/src/operation/cleanup.rs:61-78, 137-157 and 194-206 (how the end of a cleanup is
reported).

Not modelled: the values, the wakers (src/operation/operate_task.rs:175-179 and
235-243; that a pending task is polled again after its waker was used is the contract of
the asynchronous runtime), streams, the queue of requests that wait for a task (see
Verif/Delivery), and a target that is despawned before its task
(src/operation/operate_task.rs:250-252 panics then; a target is despawned only together
with the nodes in front of it).

When a future becomes ready and when the cancellation of a future completes is decided by
the environment.
-/
namespace Verif.Task

/-- `OperateTask`, src/operation/operate_task.rs:69-82. `task`: whether the future is
still in the component; `cleaned`: the `cleanup_id` of `being_cleaned`. -/
structure Op where
  blocker : Bool
  task : Bool := true
  cleaned : Option Nat := none
  finished : Bool := false
  deriving DecidableEq, Repr

/-- A task entity. `op = none`: its `OperateTask` was taken out by `stop_task`. -/
structure Ent where
  id : Nat
  session : Nat
  op : Option Op
  deriving DecidableEq, Repr

/-- `ActiveTask`, src/operation/operate_task.rs:460-465. -/
structure Active where
  id : Nat
  session : Nat
  cleaned : Option Nat := none
  deriving DecidableEq, Repr

/-- A cancellation under way: the future is being cancelled (if `task`), after which
the closure sent to the channel calls `cleanup_task` with these arguments
(src/operation/operate_task.rs:146-165 and 337-346). `dispose`: whether it emits a
disposal as well. -/
structure Closure where
  id : Nat
  session : Nat
  blocker : Bool
  cleaned : Option Nat
  dispose : Bool
  deriving DecidableEq, Repr

/-- What can be observed, oldest first. -/
inductive Rec where
  /-- a task begins -/
  | started (id session : Nat) (blocker : Bool)
  /-- its response was sent to the target -/
  | responded (id : Nat)
  /-- its disposal was emitted -/
  | disposed (id : Nat)
  /-- its future is over: it has returned or was cancelled -/
  | ended (id : Nat)
  /-- its blocker was released -/
  | unblocked (id : Nat)
  /-- it was stopped or despawned -/
  | stopping (id : Nat)
  /-- the node is asked to clean up a session -/
  | begun (cleanup session : Nat)
  /-- the node reports to its cleaner that the cleanup has finished -/
  | notified (cleanup : Nat)
  deriving DecidableEq, Repr

/-- A node with its tasks. `next`: the entity of the next task. -/
structure Node where
  ents : List Ent := []
  active : List Active := []
  closures : List Closure := []
  next : Nat := 0
  log : List Rec := []

/-- `OperateTask::add` and `setup`, src/operation/operate_task.rs:112-123 and 174-200. -/
def Node.start (v : Node) (session : Nat) (blocker : Bool) : Node :=
  { v with
    ents := v.ents ++ [{ id := v.next, session, op := some { blocker } }]
    active := v.active ++ [{ id := v.next, session }]
    next := v.next + 1
    log := v.log ++ [.started v.next session blocker] }

/-- `Drop for OperateTask`, src/operation/operate_task.rs:126-167. -/
def Node.dropOp (v : Node) (id session : Nat) (op : Op) : Node :=
  if op.finished then v
  else { v with closures := v.closures ++
      [{ id, session, blocker := op.blocker, cleaned := op.cleaned, dispose := op.task }] }

/-- Despawn a task entity; its component, if it is there, is dropped
(src/operation/operate_task.rs:423-425). -/
def Node.despawn (v : Node) (id : Nat) : Node :=
  match v.ents.find? (fun e => e.id == id) with
  | none => v
  | some e =>
    let v' := { v with ents := v.ents.filter (fun e => e.id != id) }
    match e.op with
    | none => v'
    | some op => v'.dropOp id e.session op

/-- `Cleanup::notify_cleaned`, src/operation/cleanup.rs:194-206, as far as this node is
concerned. -/
def Node.notify (v : Node) (c : Nat) : Node := { v with log := v.log ++ [.notified c] }

/-- The flag `cleanup_ready` of `cleanup_task`,
src/operation/operate_task.rs:387-407: no other task of the node is being cleaned up
under the same `cleanup_id`. -/
def cleanupReady (active : List Active) (id : Nat) (c : Nat) : Bool :=
  active.all fun a => a.id == id || a.cleaned != some c

/-- `cleanup_task`, src/operation/operate_task.rs:373-428. -/
def Node.cleanupTask (v : Node) (id : Nat) (blocker : Bool) (cleaned : Option Nat) : Node :=
  let v1 : Node := if blocker then { v with log := v.log ++ [.unblocked id] } else v
  let v2 : Node := { v1 with active := v1.active.filter (fun a => a.id != id) }
  let v3 : Node :=
    match cleaned with
    | none => v2
    | some c => if cleanupReady v1.active id c then v2.notify c else v2
  v3.despawn id

/-- `OperateTask::execute` when the future is ready,
src/operation/operate_task.rs:202-282. A pending future (283-317) is put back: nothing
changes. -/
def Node.ready (v : Node) (id : Nat) : Node :=
  match v.ents.find? (fun e => e.id == id) with
  | none => v
  | some e =>
    match e.op with
    | none => v
    | some op =>
      if op.cleaned.isSome then v
      else if op.task then
        let v1 : Node := { v with
          ents := v.ents.map fun e =>
            if e.id = id then { e with op := some ⟨false, false, op.cleaned, true⟩ } else e
          log := v.log ++ [.ended id, .responded id] }
        v1.cleanupTask id op.blocker op.cleaned
      else v

/-- `stop_task`, src/operation/operate_task.rs:436-453. -/
def Node.stop (v : Node) (id : Nat) : Node :=
  match v.ents.find? (fun e => e.id == id) with
  | none => v
  | some e =>
    match e.op with
    | none => v
    | some op =>
      let v1 : Node := { v with
        ents := v.ents.map fun e => if e.id = id then { e with op := none } else e
        log := v.log ++ [.stopping id] }
      v1.dropOp id e.session op

/-- `OperateTask::cleanup`, src/operation/operate_task.rs:323-359. Without the component
it fails with an error that is only logged (326-329, src/operation/cleanup.rs:61-78). -/
def Node.cleanTask (v : Node) (c : Nat) (id : Nat) : Node :=
  match v.ents.find? (fun e => e.id == id) with
  | none => v
  | some e =>
    match e.op with
    | none => v
    | some op =>
      let v1 : Node := { v with
        ents := v.ents.map fun e =>
          if e.id = id then { e with op := some ⟨false, false, some c, true⟩ } else e }
      if op.task then
        { v1 with closures := v1.closures ++
          [{ id, session := e.session, blocker := op.blocker, cleaned := some c,
             dispose := false }] }
      else v1.cleanupTask id op.blocker (some c)

/-- `OperateService::cleanup`, src/operation/operate_service.rs:91-115, with
`ActiveTasksStorage::cleanup`, src/operation/operate_task.rs:468-499. -/
def Node.clean (v : Node) (c session : Nat) : Node :=
  let todo := (v.active.filter (fun a => a.session == session)).map (·.id)
  let v1 : Node := { v with
    active := v.active.map fun a => if a.session = session then { a with cleaned := some c } else a
    log := v.log ++ [.begun c session] }
  let v2 := todo.foldl (fun v id => v.cleanTask c id) v1
  if todo = [] then v2.notify c else v2

/-- The cancellation number `k` completes and its closure runs,
src/operation/operate_task.rs:146-165 and 337-346. -/
def Node.done (v : Node) (k : Nat) : Node :=
  match v.closures[k]? with
  | none => v
  | some cl =>
    let v1 : Node := { v with
      closures := v.closures.eraseIdx k
      log := v.log ++ [.ended cl.id] }
    let v2 := v1.cleanupTask cl.id cl.blocker cl.cleaned
    if cl.dispose then { v2 with log := v2.log ++ [.disposed cl.id] } else v2

/-- Everything that can happen to the tasks of a node. -/
inductive Ev where
  | start (session : Nat) (blocker : Bool)
  | ready (id : Nat)
  | stop (id : Nat)
  /-- the task entity is despawned by somebody else -/
  | despawn (id : Nat)
  | clean (cleanup session : Nat)
  | done (k : Nat)
  deriving DecidableEq, Repr

/-- One event. -/
def step (v : Node) : Ev → Node
  | .start s b => v.start s b
  | .ready id => v.ready id
  | .stop id => v.stop id
  | .despawn id =>
    if v.ents.any (fun e => e.id == id) then
      ({ v with log := v.log ++ [Rec.stopping id] }).despawn id
    else v
  | .clean c s => v.clean c s
  | .done k => v.done k

/-- A sequence of events. -/
def run (v : Node) (es : List Ev) : Node := es.foldl step v

end Verif.Task

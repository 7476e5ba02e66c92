/-
Model of the injection operation: a node that receives a request together with the service
that shall serve it.

Sources: src/operation/injection.rs, src/operation/cleanup.rs:132-242, src/input.rs:173-262.
The service itself is the environment: it answers, disposes of the request or is cleaned up
whenever it likes, see `Op`.
-/
namespace Verif.Inject

/-- `Injected`, src/operation/injection.rs:255-260. -/
structure Injected where
  session : Nat
  task : Nat
  finish : Nat
  deriving DecidableEq, Repr

/-- A request that a service is working on: the input of a task entity,
src/operation/injection.rs:84-107. -/
structure Work where
  task : Nat
  finish : Nat
  session : Nat
  request : Nat
  deriving DecidableEq, Repr

/-- One injection node and what belongs to it. `inputs` is its input queue (oldest first),
`list` its `InjectionStorage`, `working` the requests with the services, `waiting` the inputs
(finish node, session, response) of the finish nodes that are in the roster, `next` the next
entity, `inactive` the sessions that are no longer active, `out` what was given to the target,
`contents` the `CleanupContents`, `awaiting` the keys of `AwaitingCleanup`, `asked` the
cleanups (id, task) handed to tasks, `finished` the finished cleanups in the roster,
`notified` the cleanups that the cleaner was told about, `broken` the errors. -/
structure State where
  inputs : List (Nat × Nat) := []
  list : List Injected := []
  working : List Work := []
  waiting : List (Nat × Nat × Nat) := []
  next : Nat := 0
  inactive : List Nat := []
  out : List (Nat × Nat) := []
  contents : List (Nat × List Nat) := []
  awaiting : List Nat := []
  asked : List (Nat × Nat) := []
  finished : List Nat := []
  notified : List Nat := []
  broken : Nat := 0
  deriving DecidableEq, Repr

/-- `Injection::execute`, src/operation/injection.rs:64-125. -/
def State.execute (st : State) : State :=
  match st.inputs with
  | [] => st
  | (session, request) :: rest =>
    { st with
      inputs := rest
      next := st.next + 2
      working := st.working ++ [⟨st.next + 1, st.next, session, request⟩]
      list := st.list ++ [⟨session, st.next + 1, st.next⟩] }

/-- The service answers the request of a task: `give_input` on the finish node, which takes
no inputs of sessions that are not active, src/input.rs:173-183, 197-217. -/
def State.respond (st : State) (task data : Nat) : State :=
  match st.working.find? fun w => w.task = task with
  | none => st
  | some w =>
    let st := { st with working := st.working.filter fun w => w.task ≠ task }
    if w.session ∈ st.inactive then st
    else { st with waiting := st.waiting ++ [(w.finish, w.session, data)] }

/-- The service disposes of the request of a task, for instance because it is gone,
src/operation/operate_service.rs:182-204, or because the request was supplanted. Nothing tells
the injection node. -/
def State.dispose (st : State) (task : Nat) : State :=
  { st with working := st.working.filter fun w => w.task ≠ task }

/-- `InjectionFinish::execute`, src/operation/injection.rs:287-318. The despawning of the task
and the transfer of its disposals are left out. -/
def State.finish (st : State) (f : Nat) : State :=
  match st.waiting.find? fun w => w.1 = f with
  | none => st
  | some (_, session, data) =>
    let st := { st with waiting := st.waiting.filter fun w => w.1 ≠ f }
    match st.list.find? fun i => i.finish = f with
    | none => { st with broken := st.broken + 1 }
    | some _ =>
      let st := { st with list := st.list.filter fun i => i.finish ≠ f }
      if session ∈ st.inactive then st else { st with out := st.out ++ [(session, data)] }

/-- `Cleanup::notify_cleaned` with the injection node as the cleaner,
src/operation/cleanup.rs:145-151, 195-207. -/
def State.notifyCleaned (st : State) (id task : Nat) : State :=
  match st.contents.find? fun c => c.1 = id with
  | none => st
  | some (_, nodes) =>
    let nodes := nodes.filter fun n => n ≠ task
    if nodes.isEmpty then
      { st with
        finished := st.finished ++ [id]
        contents := st.contents.filter fun c => c.1 ≠ id }
    else { st with contents := st.contents.map fun c => if c.1 = id then (id, nodes) else c }

/-- The task has been cleaned: the service does not answer any more. -/
def State.cleaned (st : State) (id task : Nat) : State :=
  if (id, task) ∈ st.asked then
    { st with working := st.working.filter fun w => w.task ≠ task }.notifyCleaned id task
  else st

/-- `Injection::cleanup`, src/operation/injection.rs:127-181, `now` being the tasks whose
cleanup is done on the spot; the others report later. -/
def State.cleanup (st : State) (session id : Nat) (now : List Nat) : State :=
  let st := { st with inputs := st.inputs.filter fun i => i.1 ≠ session }
  let nodes := (st.list.filter fun i => i.session = session).map (·.task)
  let st := { st with list := st.list.filter fun i => i.session ≠ session }
  if nodes.isEmpty then { st with notified := st.notified ++ [id] }
  else
    let st :=
      { st with
        contents := (st.contents.filter fun c => c.1 ≠ id) ++ [(id, nodes)]
        awaiting := (st.awaiting.filter fun i => i ≠ id) ++ [id]
        asked := st.asked ++ nodes.map fun n => (id, n) }
    (nodes.filter fun n => n ∈ now).foldl (fun st n => st.cleaned id n) st

/-- `Cleanup::trigger` and `Injection::finalize_cleanup` for the next finished cleanup in the
roster, src/operation/cleanup.rs:209-242, src/operation/injection.rs:197-214. -/
def State.finalize (st : State) : State :=
  match st.finished with
  | [] => st
  | id :: rest =>
    let st := { st with finished := rest, contents := st.contents.filter fun c => c.1 ≠ id }
    if id ∈ st.awaiting then
      { st with awaiting := st.awaiting.filter fun i => i ≠ id, notified := st.notified ++ [id] }
    else { st with broken := st.broken + 1 }

/-- `is_reachable`, src/operation/injection.rs:183-193; `upstream` is what the search finds at
the inputs of the node. -/
def State.isReachable (st : State) (session : Nat) (upstream : Bool) : Bool :=
  (st.inputs.any fun i => i.1 = session) || (st.list.any fun i => i.session = session) || upstream

/-- What can happen: an input arrives; the node is executed; a service answers a request or
disposes of it; a finish node is executed; a cleanup of a session; a task reports that it is
cleaned; a finished cleanup is taken from the roster; a session stops being active. -/
inductive Op where
  | input (session request : Nat)
  | execute
  | respond (task data : Nat)
  | dispose (task : Nat)
  | finish (f : Nat)
  | cleanup (session id : Nat) (now : List Nat)
  | cleaned (id task : Nat)
  | finalize
  | stop (session : Nat)
  deriving DecidableEq, Repr

def State.step (st : State) : Op → State
  | .input s r =>
    if s ∈ st.inactive then st else { st with inputs := st.inputs ++ [(s, r)] }
  | .execute => st.execute
  | .respond t d => st.respond t d
  | .dispose t => st.dispose t
  | .finish f => st.finish f
  | .cleanup s id now => st.cleanup s id now
  | .cleaned id t => st.cleaned id t
  | .finalize => st.finalize
  | .stop s => { st with inactive := st.inactive ++ [s] }

def run (ops : List Op) : State := ops.foldl State.step {}

end Verif.Inject

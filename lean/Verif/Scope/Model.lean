/-
Model of a scope: src/operation/scope.rs together with src/operation/cleanup.rs and the part
of src/service/workflow.rs and src/flush.rs that drives it.

One scope entity is modelled with everything that it and its three helper nodes (entry,
terminal, finish-cleanup) store. The operations inside of the scope are not modelled here:
they appear as clean requests that are sent to them (`pending`) and that they answer, at
once or later and in any order, and as the events that reach the scope from inside. The
parent appears as the events that it sends. The results of reachability searches (Verif/Graph)
are part of the events.

Entities are numbers; `next` is the next entity that the world will allocate, so a new
session is a number that was never used before.
-/
namespace Verif.Scope

abbrev Ent := Nat

/-- `ScopedSessionStatus`, src/operation/scope.rs:168-180. -/
inductive Status where
  | ongoing | terminated | deferredCleanup | cleanup | cancelled
  deriving DecidableEq, Repr

/-- `ScopedSessionStatus::to_cleanup`, src/operation/scope.rs:184-196: the new status and the
returned value. -/
def Status.toCleanup (uninterruptible : Bool) : Status → Status × Bool
  | .cleanup => (.cleanup, false)
  | _ => if uninterruptible then (.deferredCleanup, false) else (.cleanup, true)

/-- `ScopedSessionStatus::to_finished`, src/operation/scope.rs:199-215. -/
def Status.toFinished : Status → Status × Bool
  | .ongoing => (.terminated, true)
  | .deferredCleanup => (.cleanup, true)
  | s => (s, false)

/-- `ScopedSessionStatus::to_cancelled`, src/operation/scope.rs:218-224. -/
def Status.toCancelled : Status → Status × Bool
  | .ongoing => (.cancelled, true)
  | .deferredCleanup => (.cancelled, true)
  | s => (s, false)

/-- `ScopedSession`, src/operation/scope.rs:146-163. -/
structure Scoped where
  parent : Ent
  sid : Ent
  status : Status
  deriving DecidableEq, Repr

/-- `Cleanup`, src/operation/cleanup.rs:178-192. -/
structure Cleanup where
  cleaner : Ent
  node : Ent
  session : Ent
  id : Ent
  deriving DecidableEq, Repr

/-- `FinishStatus`, src/operation/scope.rs:1440-1455. A cancellation carries the
cancellations that happened while it was carried out (`while_cancelling`). -/
inductive Finish (κ : Type) where
  | terminated
  | earlyCleanup
  | cancelled (cause : κ) (whileCancelling : List κ)
  deriving DecidableEq, Repr

def Finish.isTerminated {κ : Type} : Finish κ → Bool
  | .terminated => true
  | _ => false

def Finish.isEarlyCleanup {κ : Type} : Finish κ → Bool
  | .earlyCleanup => true
  | _ => false

/-- `AwaitingCleanup` with its `CleanupInfo`, src/operation/scope.rs:1433-1438, 1957-1981. -/
structure Awaiting (κ : Type) where
  sid : Ent
  parent : Ent
  cleanup : Cleanup
  status : Finish κ
  /-- `cleanup_workflow_sessions` -/
  flows : Option (List Ent) := none
  deriving DecidableEq, Repr

/-- `CleanupWorkflow`, src/operation/scope.rs:1424-1429. The entity of the begin node is not
needed. -/
structure Flow where
  onTerminate : Bool
  onCancelled : Bool
  deriving DecidableEq, Repr

/-- What is fixed when the scope has been built. -/
structure Cfg where
  /-- the scope entity -/
  self : Ent
  /-- `ScopeContents`: the operations inside of the scope -/
  nodes : List Ent
  uninterruptible : Bool
  /-- `BeginCleanupWorkflowStorage` -/
  flows : List Flow
  /-- whether the scope is a workflow, with an `ExitTargetStorage`, or an inner scope of a
  workflow, with a `SingleTargetStorage`: src/operation/scope.rs:276-287 -/
  workflow : Bool

/-- What comes out of a scope. -/
inductive Out (α κ : Type) where
  /-- the response was given to the target in the parent session -/
  | respond (sid parent : Ent) (value : α)
  /-- a cancel signal for the parent session was put into the roster -/
  | cancel (sid parent : Ent) (cause : κ) (whileCancelling : List κ)
  /-- the cleaner of a cleanup was notified -/
  | notify (c : Cleanup)
  /-- the next delivery of the workflow was released -/
  | unblock (sid : Ent)
  /-- `OperationError::Broken` was returned -/
  | broken (sid : Ent)
  deriving DecidableEq, Repr

/-- `InitialReachability`, src/operation/scope.rs:1174-1185. -/
inductive Initial (κ : Type) where
  | confirmed
  | invalidated
  | error (cause : κ)
  deriving DecidableEq, Repr

structure State (α κ : Type) where
  /-- the next entity -/
  next : Ent
  /-- `ScopedSessionStorage` -/
  sessions : List Scoped := []
  /-- `CleanupContents` of the scope -/
  contents : Ent → Option (List Ent) := fun _ => none
  /-- `AwaitingCleanupStorage` of the finish-cleanup node -/
  awaiting : List (Awaiting κ) := []
  /-- `Staging` of the terminal node -/
  staging : Ent → Option α := fun _ => none
  /-- `ParentSession` of the session entities that this scope spawned and that still exist -/
  alive : Ent → Option Ent := fun _ => none
  /-- `ExitTargetStorage`: whether there is an entry and whether it has a blocker -/
  exits : Ent → Option Bool := fun _ => none
  initial : Option (Initial κ) := none
  /-- `cleanup_finished` of the roster, the last element first -/
  finished : List Cleanup := []
  /-- clean requests that were sent to operations and not answered yet -/
  pending : List Cleanup := []
  /-- all values that the terminal node ever took, with their sessions -/
  values : List (Ent × α) := []
  /-- all clean requests that were ever sent -/
  asked : List Cleanup := []
  /-- sessions of cleanup workflows that were started, with the session that they clean, and
  have not come to their end -/
  running : List (Ent × Ent) := []
  /-- all cleanup workflows that were ever started, with the session that they clean -/
  started : List (Ent × Flow) := []
  /-- all scoped sessions that were ever begun, with the parent session of the request -/
  begun : List (Ent × Ent) := []
  out : List (Out α κ) := []

variable {α κ : Type}

def State.emit (st : State α κ) (o : Out α κ) : State α κ := { st with out := st.out ++ [o] }

/-- `Cleanup::notify_cleaned` for the scope as the cleaner, src/operation/cleanup.rs:194-206,
with `CleanupContents::register_cleanup_of_node`, lines 150-156. -/
def State.register (st : State α κ) (c : Cleanup) : State α κ :=
  match st.contents c.id with
  | none => st
  | some nodes =>
    let rest := nodes.filter (· ≠ c.node)
    if rest.isEmpty then
      { st with
        contents := fun i => if i = c.id then none else st.contents i
        finished := c :: st.finished }
    else { st with contents := fun i => if i = c.id then some rest else st.contents i }

/-- `OperationCleanup::clean` for one operation, src/operation/cleanup.rs:61-78. `now`: the
operation answers during the call; otherwise the request stays pending. -/
def State.clean (st : State α κ) (c : Cleanup) (now : Bool) : State α κ :=
  let st := { st with asked := st.asked ++ [c] }
  if now then st.register c else { st with pending := st.pending ++ [c] }

/-- The clean requests for all operations, src/operation/scope.rs:1288-1298. -/
def cleanNodes (self session id : Ent) (now : List (Ent × Ent)) :
    List Ent → State α κ → State α κ
  | [], st => st
  | n :: ns, st =>
    cleanNodes self session id now ns
      (st.clean { cleaner := self, node := n, session, id } (now.contains (n, session)))

/-- The body of the loop of `cleanup_entire_scope` for one session,
src/operation/scope.rs:1254-1303; `none` is the early return at line 1258, when the session
entity does not exist. `SessionStatus` (line 1302) is not modelled: it makes `give_input`
drop inputs for the session, so it only removes events. -/
def cleanOne (cfg : Cfg) (cleanup : Cleanup) (status : Finish κ) (now : List (Ent × Ent))
    (sid : Ent) (st : State α κ) : Option (State α κ) :=
  match st.alive sid with
  | none => none
  | some parent =>
    let st : State α κ :=
      { st with awaiting := st.awaiting ++ [{ sid := sid, parent, cleanup, status }] }
    if cfg.nodes.isEmpty then
      some { st with finished :=
        { cleaner := cfg.self, node := cfg.self, session := sid, id := cleanup.id } ::
          st.finished }
    else
      some (cleanNodes cfg.self sid cleanup.id now cfg.nodes
        { st with contents := fun i => if i = cleanup.id then some cfg.nodes else st.contents i })

/-- `cleanup_entire_scope`, src/operation/scope.rs:1235-1306. -/
def cleanupEntire (cfg : Cfg) (cleanup : Cleanup) (status : Finish κ) (now : List (Ent × Ent)) :
    List Ent → State α κ → State α κ
  | [], st => st
  | s :: ss, st =>
    match cleanOne cfg cleanup status now s st with
    | none => st.emit (.broken s)
    | some st => cleanupEntire cfg cleanup status now ss st

/-- Apply a transition of the status to the sessions that `p` selects; also the sessions for
which the transition returned true. src/operation/scope.rs:419-431 and 984-997. -/
def transition (p : Scoped → Bool) (f : Status → Status × Bool) (l : List Scoped) :
    List Scoped × List Ent :=
  (l.map (fun x => if p x then { x with status := (f x.status).1 } else x),
   (l.filter (fun x => p x && (f x.status).2)).map (·.sid))

/-- `cancel_one`, src/operation/scope.rs:974-1015. -/
def cancelOne (cfg : Cfg) (session : Ent) (cause : κ) (now : List (Ent × Ent))
    (st : State α κ) : State α κ :=
  let r := transition (fun p => p.sid == session || p.parent == session) Status.toCancelled
    st.sessions
  cleanupEntire cfg { cleaner := cfg.self, node := cfg.self, session, id := session }
    (.cancelled cause []) now r.2 { st with sessions := r.1 }

/-- `receive_cancel` without a session, src/operation/scope.rs:950-971: all sessions. -/
def cancelAll (cfg : Cfg) (cause : κ) (now : List (Ent × Ent)) :
    List Ent → State α κ → State α κ
  | [], st => st
  | s :: ss, st => cancelAll cfg cause now ss (cancelOne cfg s cause now st)

/-- Transition of the first session with this scoped session, if there is one:
src/operation/scope.rs:1066-1080 and 1347-1363. -/
def transitionOne (session : Ent) (f : Status → Status × Bool) (l : List Scoped) :
    Option (List Scoped × Bool) :=
  match l with
  | [] => none
  | x :: xs =>
    if x.sid = session then some ({ x with status := (f x.status).1 } :: xs, (f x.status).2)
    else (transitionOne session f xs).map (fun r => (x :: r.1, r.2))

/-- `validate_scope_reachability`, src/operation/scope.rs:1018-1097. `unreachable`: the
cancellation that is made when the terminal node cannot be reached, or none when it can. The
disposal listeners that are called first (lines 1034-1046) belong to the collect operations,
Verif/Collect. -/
def validate (cfg : Cfg) (session : Ent) (unreachable : Option κ) (now : List (Ent × Ent))
    (st : State α κ) : State α κ :=
  match unreachable with
  | none => st
  | some cause =>
    match transitionOne session Status.toCancelled st.sessions with
    | none => st
    | some (sessions, changed) =>
      let st := { st with sessions }
      if changed then
        cleanupEntire cfg { cleaner := cfg.self, node := cfg.self, session, id := session }
          (.cancelled cause []) now [session] st
      else st

/-- `begin_scope`, src/operation/scope.rs:485-559, with `begin_scope_impl`, lines 592-627,
`dyn_begin_scope`, lines 364-390, and `begin_workflow`, src/service/workflow.rs:237-278.
`circular`: the cancellation for circular collects, if there are any. `blocker`: whether the
request blocks its delivery label. The value of the request is not needed: it goes to the
entry node. -/
def beginScope (cfg : Cfg) (parent : Ent) (blocker : Bool) (circular unreachable : Option κ)
    (now : List (Ent × Ent)) (st : State α κ) : State α κ :=
  let s := st.next
  let st : State α κ := { st with
    next := s + 1
    begun := st.begun ++ [(s, parent)]
    alive := fun i => if i = s then some parent else st.alive i
    exits := fun i => if i = s ∧ cfg.workflow then some blocker else st.exits i
    sessions := st.sessions ++ [{ parent, sid := s, status := .ongoing }] }
  match st.initial with
  | some (.error cause) => cancelOne cfg s cause now st
  | some .invalidated => validate cfg s unreachable now st
  | some .confirmed => st
  | none =>
    match circular with
    | some cause => cancelOne cfg s cause now { st with initial := some (.error cause) }
    | none =>
      let st := validate cfg s unreachable now st
      { st with initial := some (if unreachable.isNone then .confirmed else .invalidated) }

/-- `Terminate::execute`, src/operation/scope.rs:1325-1379. -/
def terminate (cfg : Cfg) (session : Ent) (value : α) (now : List (Ent × Ent))
    (st : State α κ) : State α κ :=
  let st := { st with values := st.values ++ [(session, value)] }
  match st.staging session with
  | some _ => st
  | none =>
    let st := { st with staging := fun i => if i = session then some value else st.staging i }
    match transitionOne session Status.toFinished st.sessions with
    | none => st.emit (.broken session)
    | some (sessions, changed) =>
      let st := { st with sessions }
      if changed then
        cleanupEntire cfg { cleaner := cfg.self, node := cfg.self, session, id := session }
          .terminated now [session] st
      else st

/-- `dyn_cleanup`, src/operation/scope.rs:392-447: the parent asks for the cleanup of its
session. (The inputs of the scope node itself are not modelled.) -/
def dynCleanup (cfg : Cfg) (c : Cleanup) (now : List (Ent × Ent)) (st : State α κ) :
    State α κ :=
  let r := transition (fun p => p.parent == c.session) (Status.toCleanup cfg.uninterruptible)
    st.sessions
  let st := { st with sessions := r.1 }
  if r.2.isEmpty then st.emit (.notify c)
  else cleanupEntire cfg c .earlyCleanup now r.2 st

/-- The first entry for a session: `AwaitingCleanupStorage::get`, lines 1946-1953, and line
1717-1722. -/
def setFlows (session : Ent) (flows : List Ent) : List (Awaiting κ) → List (Awaiting κ)
  | [] => []
  | a :: l =>
    if a.sid = session then { a with flows := some flows } :: l
    else a :: setFlows session flows l

/-- Lines 1801-1811 of src/operation/scope.rs: an entry that is not an early cleanup is
removed, and its cancellation is emitted. -/
def endEntry (index : Nat) (a : Awaiting κ) (st : State α κ) : State α κ :=
  match a.status with
  | .earlyCleanup => st
  | .terminated => { st with awaiting := st.awaiting.eraseIdx index }
  | .cancelled cause inner =>
    State.emit { st with awaiting := st.awaiting.eraseIdx index }
      (.cancel a.sid a.parent cause inner)

/-- Lines 1823-1857 of src/operation/scope.rs: whether the parent that asked for the cleanup
is to be notified. -/
def parentClean (a : Awaiting κ) (st : State α κ) : Bool :=
  let same : List (Awaiting κ) := st.awaiting.filter (fun b => b.cleanup.id = a.cleanup.id)
  same.any (fun b => b.status.isEarlyCleanup) && same.all (fun b => decide (b.flows = some [])) &&
    !st.sessions.any (fun p => p.parent = a.parent)

/-- Lines 1859-1870 of src/operation/scope.rs. -/
def notifyParent (a : Awaiting κ) (st : State α κ) : State α κ :=
  if parentClean a st then
    State.emit { st with awaiting := st.awaiting.filter (fun b => b.parent ≠ a.parent) }
      (.notify a.cleanup)
  else st

/-- Lines 1894-1917 of src/operation/scope.rs, after the response was taken, when there is
one. `clear_scope_buffers` (line 1911) is part of Verif/Buffer. -/
def leave (sid : Ent) (blocked : Bool) (st : State α κ) : State α κ :=
  let st : State α κ := { st with staging := fun i => if i = sid then none else st.staging i }
  let st := if blocked then st.emit (.unblock sid) else st
  { st with alive := fun i => if i = sid then none else st.alive i }

/-- Lines 1872-1917 of src/operation/scope.rs. -/
def deliver (cfg : Cfg) (a : Awaiting κ) (st : State α κ) : State α κ :=
  let exit := st.exits a.sid
  let st : State α κ := { st with exits := fun i => if i = a.sid then none else st.exits i }
  if cfg.workflow && exit.isNone then st.emit (.broken a.sid)
  else if a.status.isTerminated then
    match st.staging a.sid with
    | none => st.emit (.broken a.sid)
    | some v => leave a.sid (exit == some true) (st.emit (.respond a.sid a.parent v))
  else leave a.sid (exit == some true) st

/-- `finalize_scoped_session`, src/operation/scope.rs:1785-1920, for the entry at `index`. -/
def finalize (cfg : Cfg) (index : Nat) (st : State α κ) : State α κ :=
  match st.awaiting[index]? with
  | none => st
  | some a => deliver cfg a (notifyParent a (endEntry index a st))

/-- `check_awaiting_session`, src/operation/scope.rs:1707-1737: the position of the first
entry for the session, if its cleanup workflows are done. -/
def checkAwaiting (cfg : Cfg) (session : Ent) (st : State α κ) : State α κ :=
  match st.awaiting.findIdx? (fun a => a.sid = session) with
  | none => st
  | some i =>
    match st.awaiting[i]? with
    | some a => if a.flows = some [] then finalize cfg i st else st
    | none => st

/-- The sessions of the cleanup workflows that are begun, src/operation/scope.rs:1137-1165,
and `BeginCleanupWorkflow::execute`, lines 1529-1570. -/
def flowsToRun (cfg : Cfg) (terminated : Bool) : List Flow :=
  cfg.flows.filter (fun f => (terminated && f.onTerminate) || (!terminated && f.onCancelled))

/-- `begin_cleanup_workflows`, src/operation/scope.rs:1100-1171. -/
def beginFlows (cfg : Cfg) (session : Ent) (st : State α κ) : State α κ :=
  let st : State α κ := { st with sessions := st.sessions.filter (fun p => p.sid ≠ session) }
  match st.awaiting.find? (fun a => a.sid = session) with
  | none => st.emit (.broken session)
  | some a =>
    let flows := flowsToRun cfg a.status.isTerminated
    let n := flows.length
    let new := (List.range n).map (fun k => st.next + k)
    checkAwaiting cfg session
      { st with
        next := st.next + n
        awaiting := setFlows session new st.awaiting
        running := st.running ++ new.map (fun w => (w, session))
        started := st.started ++ flows.map (fun f => (session, f)) }

/-- `Cleanup::trigger`, src/operation/cleanup.rs:208-241, for the last element of
`cleanup_finished`, src/flush.rs:172-174. -/
def trigger (cfg : Cfg) (st : State α κ) : State α κ :=
  match st.finished with
  | [] => st
  | c :: rest =>
    beginFlows cfg c.session
      { st with
        finished := rest
        contents := fun i => if i = c.id then none else st.contents i }

/-- Lines 1749-1765 of src/operation/scope.rs: a cancelled cleanup workflow is recorded. -/
def Finish.during : Finish κ → Option κ → Finish κ
  | .cancelled cause inner, some k => .cancelled cause (inner ++ [k])
  | s, _ => s

/-- `deduct_finished_cleanup`, src/operation/scope.rs:1739-1783. -/
def deduct (cfg : Cfg) (w : Ent) (cause : Option κ) (st : State α κ) : State α κ :=
  match st.awaiting.findIdx? (fun a => a.flows.any (fun l => l.contains w)) with
  | none => st
  | some i =>
    match st.awaiting[i]? with
    | none => st
    | some a =>
      let rest := (a.flows.getD []).filter (· ≠ w)
      let a' : Awaiting κ := { a with status := a.status.during cause, flows := some rest }
      let st : State α κ := { st with awaiting := st.awaiting.set i a' }
      if rest.isEmpty then finalize cfg i st else st

/-- The events of a scope. `now` lists which operations answer a clean request for which
session during the call. -/
inductive Ev (α κ : Type) where
  /-- the world spawns an entity that has nothing to do with the scope -/
  | spawn
  | begin (parent : Ent) (blocker : Bool) (circular unreachable : Option κ)
      (now : List (Ent × Ent))
  /-- a value arrives at the terminal node; only for a session that was spawned:
  src/input.rs:205-219 -/
  | terminate (session : Ent) (value : α) (now : List (Ent × Ent))
  /-- `receive_cancel`, src/operation/scope.rs:933-972 -/
  | cancel (session : Option Ent) (cause : κ) (now : List (Ent × Ent))
  /-- a disposal made the scope look whether its terminal node can be reached -/
  | validate (session : Ent) (unreachable : Option κ) (now : List (Ent × Ent))
  /-- the parent asks for a cleanup -/
  | cleanup (c : Cleanup) (now : List (Ent × Ent))
  /-- an operation answers a clean request -/
  | cleaned (c : Cleanup)
  /-- the flush loop takes a finished cleanup -/
  | trigger
  /-- a cleanup workflow finished, or was cancelled: `FinishCleanup::execute`, lines
  1610-1628, and `FinishCleanup::receive_cancel`, lines 1645-1672. (A cancel signal without a
  session, lines 1674-1704, is this event for each of the sessions.) -/
  | flowDone (flow : Ent) (cause : Option κ)
  /-- a parent session is despawned; the scoped sessions are its children
  (`ChildOf`, src/operation/scope.rs:378) and are despawned with it -/
  | despawn (parent : Ent)

def step (cfg : Cfg) (st : State α κ) : Ev α κ → State α κ
  | .spawn => { st with next := st.next + 1 }
  | .begin parent blocker circular unreachable now =>
    beginScope cfg parent blocker circular unreachable now st
  | .terminate session value now =>
    if session < st.next then terminate cfg session value now st else st
  | .cancel (some session) cause now => cancelOne cfg session cause now st
  | .cancel none cause now => cancelAll cfg cause now (st.sessions.map (·.sid)) st
  | .validate session unreachable now => validate cfg session unreachable now st
  | .cleanup c now => dynCleanup cfg c now st
  | .cleaned c =>
    if c ∈ st.pending then State.register { st with pending := st.pending.erase c } c else st
  | .trigger => trigger cfg st
  | .flowDone flow cause =>
    deduct cfg flow cause { st with running := st.running.filter (fun r => r.1 ≠ flow) }
  | .despawn parent =>
    { st with alive := fun i => if st.alive i = some parent then none else st.alive i }

def run (cfg : Cfg) (st : State α κ) : List (Ev α κ) → State α κ
  | [] => st
  | e :: es => run cfg (step cfg st e) es

end Verif.Scope

import Verif.Flow.Model

/-
Model of a workflow that runs any number of sessions at once. The operations are those of
`Verif.Flow`; what is kept in common for all sessions is modelled here: an operation has one queue
of inputs, one list of tasks, one map of buffered values, of keys and of gates, and there is one
list of disposals. Not covered, because they tie sessions together on purpose: services that
take their requests one at a time (C21 to C24, C58) and continuous services.
-/
namespace Verif.Many

open Flow (Net Kind Status State Choice)

/-- A workflow with its sessions.

* `queue`: `InputStorage::reverse_queue` of each operation, oldest first; of an input only its
  session is kept (src/input.rs:40-55).
* `tasks`: the tasks in `ActiveTasksStorage` of a node, the `ScopedSessionStorage` of an inner
  scope: for each the session that it belongs to (src/operation/operate_task.rs:456-465,
  src/operation/scope.rs:146-163, 226).
* `held`: `BufferStorage::reverse_queues`, a queue for each session
  (src/buffer/buffer_storage.rs:28-44); its length is kept.
* `disposed`: `roster.disposed`, newest first (src/operation.rs:260-266, src/flush.rs:282-287).
* `status`: the `ScopedSession` of a session, `none` before it begins. The entry of a session that
  has ended is kept here, so that theorems can speak of how it ended.
* `confirmed`: the `InitialReachability` of the scope (scope.rs:513-552).
* `failures`: entries in `UnhandledErrors`, with the session that they arose from.
* `keys`, `dropping`, `made`, `gates`: as in `Flow.State`, for each session
  (`BufferAccessStorage::keys`, src/operation/operate_buffer_access.rs:135-175; `GateState::map`,
  src/operation/operate_buffer.rs:128-131). -/
structure Multi where
  queue : Nat → List Nat
  tasks : Nat → List Nat
  held : Nat → Nat → Nat
  disposed : List Nat
  failures : Nat → Nat
  status : Nat → Option Status
  confirmed : Option Bool
  keys : Nat → Nat → Nat
  dropping : Nat → Nat → Nat
  made : Nat → Nat → Bool
  gates : Nat → Nat → Option Bool

/-- A workflow that has not been used yet. -/
def empty : Multi where
  queue := fun _ => []
  tasks := fun _ => []
  held := fun _ _ => 0
  disposed := []
  failures := fun _ => 0
  status := fun _ => none
  confirmed := none
  keys := fun _ _ => 0
  dropping := fun _ _ => 0
  made := fun _ _ => false
  gates := fun _ _ => none

/-- The entries of session `x` in the maps of all operations are replaced. -/
def part {α : Type} (f : Nat → Nat → α) (x : Nat) (g : Nat → α) : Nat → Nat → α :=
  fun m y => if y = x then g m else f m y

/-- One list is replaced. -/
def setAt (f : Nat → List Nat) (n : Nat) (l : List Nat) : Nat → List Nat :=
  fun m => if m = n then l else f m

def Multi.active (W : Multi) (x : Nat) : Bool := W.status x = some .active

/-- `SessionStatus`, `ScopedSessionStatus::to_finished` and `to_cancelled`
(src/operation/scope.rs:182-223): only an active session changes its status. -/
def Multi.finish (W : Multi) (x : Nat) (st : Status) : Multi :=
  if W.active x then
    { W with status := fun y => if y = x then some st else W.status y }
  else W

/-- A broken operation cancels every session of its scope: src/operation.rs:703-740,
`receive_cancel` without a session, src/operation/scope.rs:933-1014. -/
def Multi.breakAll (W : Multi) (x : Nat) : Multi :=
  { W with
    failures := fun y => if y = x then W.failures y + 1 else W.failures y
    status := fun y => if W.active y then some .cancelled else W.status y }

/-- `give_input` with `sneak_input`, src/input.rs:173-262: the input of a session that is not
active is ignored (204-217). -/
def give (net : Net) (x : Nat) (W : Multi) (m : Nat) : Multi :=
  match net.ops.lookup m with
  | none => W.breakAll x
  | some .unused => W
  | some _ =>
    if W.active x then { W with queue := setAt W.queue m (W.queue m ++ [x]) } else W

def giveAll (net : Net) (x : Nat) (W : Multi) (ms : List Nat) : Multi :=
  ms.foldl (give net x) W

/-- `emit_disposal`, src/disposal.rs:493-544: the notice names the session. -/
def dispose (W : Multi) (x : Nat) : Multi := { W with disposed := x :: W.disposed }

/-- `GateState::is_closed`, src/operation/operate_buffer.rs:170-174. -/
def isOpen (W : Multi) (x b : Nat) : Bool := (W.gates b x).getD true

/-- `BufferKeyUsage` of an access for a session, operate_buffer_access.rs:177-201. -/
def used (W : Multi) (n : Nat) (bs : List Nat) (x : Nat) : Bool :=
  0 < W.keys n x || 0 < W.dropping n x || (W.made n x && decide (2 ≤ bs.length))

/-- The `BufferAccessors` of a buffer. -/
def accessors (net : Net) (W : Multi) (b : Nat) : List (Nat × (Nat → Bool)) :=
  net.ops.filterMap fun e =>
    match e.2 with
    | .access _ bs _ => if bs.contains b then some (e.1, used W e.1 bs) else none
    | _ => none

/-- The gate of buffer `b` gets this entry for session `x`. -/
def setGate (W : Multi) (x b : Nat) (opens : Bool) : Multi :=
  { W with gates := part W.gates x fun m => if m = b then some opens else W.gates m x }

/-- `GateState::apply`, src/operation/operate_buffer.rs:134-168. -/
def actGate (net : Net) (x : Nat) (opens : Bool) (W : Multi) (b : Nat) : Multi :=
  let W' := setGate W x b opens
  if opens && !isOpen W x b then giveAll net x W' (Flow.listeners net b) else W'

/-- `execute` of an operation on an input of session `x` that it has taken from its queue; the
citations are at `Flow.execute`. -/
def execute (net : Net) (W : Multi) (x n : Nat) (c : Choice) : Kind → Multi
  | .node async t ss =>
    if async then { W with tasks := setAt W.tasks n (W.tasks n ++ [x]) }
    else
      let W := giveAll net x W (Flow.copies ss c)
      let W := if Flow.misses ss c then dispose W x else W
      give net x W t
  | .fork ts => giveAll net x W ts
  | .branch a b =>
    if c.headD 0 = 0 then dispose (give net x W a) x else give net x (dispose W x) b
  | .filter t => if c.headD 0 = 0 then dispose W x else give net x W t
  | .spread t =>
    let W' := giveAll net x W (List.replicate (c.headD 0) t)
    if c.headD 0 = 0 then dispose W' x else W'
  | .split ts =>
    let W' := giveAll net x W (Flow.copies ts c)
    if Flow.misses ts c then dispose W' x else W'
  | .buffer cap =>
    let W' := { W with held := part W.held x fun m =>
      if m = n then Flow.push cap (W.held m x) else W.held m x }
    if isOpen W x n then giveAll net x W' (Flow.listeners net n) else W'
  | .join bs t =>
    if Flow.ready (fun m => W.held m x) bs then
      give net x { W with held := part W.held x (Flow.fetch (fun m => W.held m x) bs) } t
    else W
  | .scope _ _ => { W with tasks := setAt W.tasks n (W.tasks n ++ [x]) }
  | .access _ bs t =>
    give net x { W with
      keys := part W.keys x fun m => if m = n then W.keys m x + bs.length else W.keys m x
      made := part W.made x fun m => m = n || W.made m x } t
  | .gate opens bs t =>
    let W' := give net x (bs.foldl (actGate net x opens) W) t
    if opens then W' else dispose W' x
  | .cancel => W.finish x .cancelled
  | .terminate => W.finish x .terminated
  | .unused => W

/-- What `is_reachable` of an operation sees of each session, see `Verif.Graph.Op` and
`Flow.look`: `has_input` looks for an input of the session (src/input.rs:384-389). -/
def look (net : Net) (W : Multi) (n : Nat) : Kind → Graph.Op
  | .node _ _ _ => .plain (fun x => (W.queue n).contains x || (W.tasks n).contains x)
      (Flow.inputs net n)
  | .scope _ _ => .plain (fun x => (W.queue n).contains x || (W.tasks n).contains x)
      (Flow.inputs net n)
  | .buffer _ => .buffer (fun x => isOpen W x n) (Flow.gateNodes net n) (accessors net W n)
      (fun x => (W.queue n).contains x) (Flow.inputs net n)
  | .join bs _ => .join (bs.map fun b => (b.1, fun x => W.held b.1 x))
  | .unused => .plain (fun _ => false) []
  | _ => .plain (fun x => (W.queue n).contains x) (Flow.inputs net n)

def world (net : Net) (W : Multi) : Graph.World :=
  net.ops.map fun e => (e.1, look net W e.1 e.2)

/-- `validate_scope_reachability`, src/operation/scope.rs:1018-1099, with its answer; `none` when
the search fails. -/
def validate (net : Net) (W : Multi) (x : Nat) : Multi × Option Bool :=
  match Graph.checkReachability (world net W) x net.terminal with
  | .ok true => (W, some true)
  | .ok false => (W.finish x .cancelled, some false)
  | _ => ({ W with failures := fun y => if y = x then W.failures y + 1 else W.failures y }, none)

/-- `NotifyBufferUpdate`, src/operation/operate_buffer.rs:303-350. -/
def wake (net : Net) (x : Nat) (W : Multi) (n b : Nat) (loops : Bool) : Multi :=
  if isOpen W x b then
    giveAll net x W ((Flow.listeners net b).filter fun m => loops || m ≠ n)
  else W

/-- Somebody has a key of buffer `b` for session `x` that `n` handed out. -/
def hasKey (net : Net) (W : Multi) (x n b : Nat) : Bool :=
  match net.ops.lookup n with
  | some (.access _ bs _) => 0 < W.keys n x && bs.contains b
  | _ => false

/-- What can happen next, see `Flow.Ev`.

* `start x`: a request arrives and makes the new session `x`.
* `exec n c`: operation `n` takes its oldest input, whatever session that is of.
* `check`: the newest disposal is taken from the list.
* `clean x`: the operations forget a session that has ended, see C08 and C104.
* The other events are about the tasks and keys of one session. -/
inductive Ev where
  | start (x : Nat)
  | exec (n : Nat) (c : Choice)
  | item (x n i : Nat)
  | finish (x n : Nat)
  | lose (x n : Nat)
  | innerCancel (x n : Nat)
  | touch (x n b sub add : Nat) (loops : Bool)
  | turn (x n b : Nat) (opens loops : Bool)
  | release (x n : Nat)
  | letGo (x n : Nat)
  | gone (x n : Nat)
  | check
  | clean (x : Nat)
  deriving DecidableEq, Repr

/-- `begin_scope`, src/operation/scope.rs:485-566: the entry gets the request; unless an earlier
session has found that the terminal can be reached, it is looked for, and the answer is kept. The
search for circular collects is left out, see C64. -/
def begin (net : Net) (W : Multi) (x : Nat) : Multi :=
  let W1 := give net x { W with status := fun y => if y = x then some .active else W.status y }
    net.entry
  match W1.confirmed with
  | some true => W1
  | some false => (validate net W1 x).1
  | none =>
    match validate net W1 x with
    | (W2, some b) => { W2 with confirmed := some b }
    | (W2, none) => W2

/-- The task of session `x` is taken from the list of operation `n`. -/
def endTask (W : Multi) (x n : Nat) : Multi :=
  { W with tasks := setAt W.tasks n ((W.tasks n).erase x) }

/-- One of the keys for session `x` is gone. -/
def dropKey (W : Multi) (x n : Nat) : Multi :=
  { W with keys := part W.keys x fun m => if m = n then W.keys m x - 1 else W.keys m x }

def step (net : Net) (W : Multi) : Ev → Multi
  | .start x => if W.status x = none then begin net W x else W
  | .exec n c =>
    match net.ops.lookup n, W.queue n with
    | some k, x :: rest => execute net { W with queue := setAt W.queue n rest } x n c k
    | _, _ => W
  | .item x n i =>
    match net.ops.lookup n with
    | some (.node true _ ss) | some (.scope _ ss) =>
      if (W.tasks n).contains x then
        match ss[i]? with
        | none => W
        | some m => give net x W m
      else W
    | _ => W
  | .finish x n =>
    match net.ops.lookup n with
    | some (.node true t ss) =>
      if (W.tasks n).contains x then
        let W := give net x (endTask W x n) t
        if ss.isEmpty then W else dispose W x
      else W
    | some (.scope t _) =>
      if (W.tasks n).contains x then give net x (endTask W x n) t else W
    | _ => W
  | .lose x n =>
    match net.ops.lookup n with
    | some (.node true _ _) =>
      if (W.tasks n).contains x then dispose (endTask W x n) x else W
    | _ => W
  | .innerCancel x n =>
    match net.ops.lookup n with
    | some (.scope _ _) =>
      if (W.tasks n).contains x then
        if Flow.tellsParent Flow.innerSession then dispose (endTask W x n) x
        else { endTask W x n with
          failures := fun y => if y = x then W.failures y + 1 else W.failures y }
      else W
    | _ => W
  | .touch x n b sub add loops =>
    match net.ops.lookup b with
    | some (.buffer cap) =>
      if hasKey net W x n b then
        wake net x { W with held := part W.held x fun m =>
          if m = b then Flow.pushes cap add (W.held m x - sub) else W.held m x } n b loops
      else W
    | _ => W
  | .turn x n b opens loops =>
    if hasKey net W x n b then
      match W.gates b x with
      | none => W
      | some now =>
        let W' := setGate W x b opens
        if opens && !now then wake net x W' n b loops else W'
    else W
  | .release x n =>
    if W.keys n x = 0 then W else dispose (dropKey W x n) x
  | .letGo x n =>
    if W.keys n x = 0 then W
    else dispose { dropKey W x n with
      dropping := part W.dropping x fun m =>
        if m = n then W.dropping m x + 1 else W.dropping m x } x
  | .gone x n =>
    if W.dropping n x = 0 then W
    else { W with dropping := part W.dropping x fun m =>
      if m = n then W.dropping m x - 1 else W.dropping m x }
  | .check =>
    match W.disposed with
    | [] => W
    | x :: rest => (validate net { W with disposed := rest } x).1
  | .clean x =>
    if W.status x = none || W.active x then W
    else { W with
      queue := fun m => (W.queue m).filter (· ≠ x)
      tasks := fun m => (W.tasks m).filter (· ≠ x)
      held := part W.held x fun _ => 0
      made := part W.made x fun _ => false
      gates := part W.gates x fun _ => none }

def run (net : Net) (W : Multi) (es : List Ev) : Multi := es.foldl (step net) W

/-! ### What a session sees -/

/-- The part of the workflow that belongs to session `x`, as a state of `Flow`. -/
def Multi.of (W : Multi) (x : Nat) : State where
  pending := fun n => (W.queue n).count x
  tasks := fun n => (W.tasks n).count x
  held := fun n => W.held n x
  checks := W.disposed.count x
  failures := W.failures x
  status := (W.status x).getD .cancelled
  keys := fun n => W.keys n x
  dropping := fun n => W.dropping n x
  made := fun n => W.made n x
  gates := fun n => W.gates n x

/-- What an event is for session `x` alone, if it concerns it. -/
def concerns (x : Nat) (W : Multi) : Ev → Option Flow.Ev
  | .start _ => none
  | .exec n c => if (W.queue n).head? = some x then some (.exec n c) else none
  | .item y n i => if y = x then some (.item n i) else none
  | .finish y n => if y = x then some (.finish n) else none
  | .lose y n => if y = x then some (.lose n) else none
  | .innerCancel y n => if y = x then some (.innerCancel n) else none
  | .touch y n b sub add loops => if y = x then some (.touch n b sub add loops) else none
  | .turn y n b opens loops => if y = x then some (.turn n b opens loops) else none
  | .release y n => if y = x then some (.release n) else none
  | .letGo y n => if y = x then some (.letGo n) else none
  | .gone y n => if y = x then some (.gone n) else none
  | .check => if W.disposed.head? = some x then some .check else none
  | .clean _ => none

/-- The events of a run that concern session `x` since it began, as it would see them alone. -/
def mine (net : Net) (x : Nat) : Multi → List Ev → List Flow.Ev
  | _, [] => []
  | W, e :: es =>
    (if W.status x = none then [] else (concerns x W e).toList) ++ mine net x (step net W e) es

end Verif.Many

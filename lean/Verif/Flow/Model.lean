import Verif.Graph.Model

/-
Model of one session of a workflow as a whole: messages travel from operation to operation,
what is not passed on is announced as a disposal, a disposal makes the scope check whether its
terminal can still be reached, and the scope is cancelled if it cannot.

The other areas model the parts (inputs, buffers, joins, scopes, the search for activity); this
one puts them together and leaves out what does not matter for whether the session ends: the
contents of messages, the order in which an operation takes its messages, other sessions
(operations keep the messages of sessions apart), and the cleanup after the end. Not covered:
gates whose action comes with the message (the search fails on them, see C14), collect, trim,
injection, continuous services.
-/
namespace Verif.Flow

/-- The operations of a workflow with their connections.

* `node`: a map, service or callback with its target and the targets of its streams; `async`
  when the response comes from a task.
* `fork`: `ForkClone` and `ForkUnzip`.
* `branch`: `Branching` for results and options.
* `filter`, `spread`, `split`: the operations of these names.
* `buffer`: its capacity, if it is limited.
* `join`: its buffers, each with whether the value is cloned instead of pulled
  (`JoinBehavior`, src/buffer/any_buffer.rs:188-194), and its target.
* `scope`: a scope, or a node whose service is a workflow, with its target and the targets of its
  streams. (The streams of a scope pass through a `RedirectScopeStream`, which looks for the
  wrong type of input, see C63; here they are those of a workflow service.)
* `access`: `OperateBufferAccess`, or a `Listen`, which its buffers notify; both hand out keys of
  their buffers.
* `gate`: `OperateStaticGate`, which opens or closes its buffers.
* `cancel`, `terminate`: the operations that end the session.
* `unused`: an output that nobody connected (`UnusedTarget`, src/operation.rs:209). -/
inductive Kind where
  | node (async : Bool) (target : Nat) (streams : List Nat)
  | fork (targets : List Nat)
  | branch (first second : Nat)
  | filter (target : Nat)
  | spread (target : Nat)
  | split (targets : List Nat)
  | buffer (cap : Option Nat)
  | join (buffers : List (Nat × Bool)) (target : Nat)
  | scope (target : Nat) (streams : List Nat)
  | access (listens : Bool) (buffers : List Nat) (target : Nat)
  | gate (opens : Bool) (buffers : List Nat) (target : Nat)
  | cancel
  | terminate
  | unused
  deriving DecidableEq, Repr

/-- A workflow: its operations, the operation that its scope gives the request to
(`ScopeEntryStorage`) and its terminal (`TerminalStorage`), src/operation/scope.rs:255-285. -/
structure Net where
  ops : List (Nat × Kind)
  entry : Nat
  terminal : Nat
  deriving Repr

/-- What an operation sends to: `SingleTargetStorage`, `ForkTargetStorage` or the
`StreamTargetMap`. The listeners of a buffer are listed by `listeners`. -/
def Kind.targets : Kind → List Nat
  | .node _ t ss => t :: ss
  | .fork ts => ts
  | .branch a b => [a, b]
  | .filter t => [t]
  | .spread t => [t]
  | .split ts => ts
  | .join _ t => [t]
  | .scope t ss => t :: ss
  | .access _ _ t => [t]
  | .gate _ _ t => [t]
  | .buffer _ => []
  | .cancel => []
  | .terminate => []
  | .unused => []

/-- An operation that is told when something happens to buffer `b`. -/
def Kind.hears (b : Nat) : Kind → Bool
  | .join bs _ => bs.any (·.1 = b)
  | .access true bs _ => bs.contains b
  | _ => false

/-- The joins and `Listen`s of a buffer, which is what `add_listener_to_source` puts into the
`ForkTargetStorage` of the buffer, src/operation/join.rs:44-58, src/operation/listen.rs:50-51,
src/buffer/buffering.rs:904-912. -/
def listeners (net : Net) (b : Nat) : List Nat :=
  (net.ops.filter fun e => e.2.hears b).map (·.1)

/-- The operations in the `SingleInputStorage` of an operation, src/operation.rs:98-143: those
that send to it, and the buffers of a `Listen` (src/buffer/buffering.rs:914-921; the same entry
of a join is not used). -/
def inputs (net : Net) (n : Nat) : List Nat :=
  (net.ops.filter fun e => e.2.targets.contains n).map (·.1) ++
    match net.ops.lookup n with
    | some (.access true bs _) => bs
    | _ => []

/-- Whether the session still runs. -/
inductive Status where
  | active
  | terminated
  | cancelled
  deriving DecidableEq, Repr

/-- One session. `pending`: inputs waiting at an operation. `tasks`: tasks of a node, inner
sessions of a scope. `held`: values in a buffer. `checks`: `roster.disposed`, disposals that the
scope was not told of yet. `failures`: entries in `UnhandledErrors`. `keys`: keys that an
operation has handed out and that are in use; which of its buffers a key is for is not kept, and
keys are not tied to the messages they are in, so more can happen than in the code. `dropping`:
keys that are being dropped by another thread, see `Ev.letGo`. `made`: the operation has made its
own key for the session. `gates`: the entry of the session in the `GateState` of a buffer, `true`
for open. -/
structure State where
  pending : Nat → Nat
  tasks : Nat → Nat
  held : Nat → Nat
  checks : Nat
  failures : Nat
  status : Status
  keys : Nat → Nat
  dropping : Nat → Nat
  made : Nat → Bool
  gates : Nat → Option Bool

/-- A session in which nothing has happened. -/
def blank : State where
  pending := fun _ => 0
  tasks := fun _ => 0
  held := fun _ => 0
  checks := 0
  failures := 0
  status := .active
  keys := fun _ => 0
  dropping := fun _ => 0
  made := fun _ => false
  gates := fun _ => none

def bump (f : Nat → Nat) (n : Nat) : Nat → Nat := fun m => if m = n then f m + 1 else f m

def drop (f : Nat → Nat) (n : Nat) : Nat → Nat := fun m => if m = n then f m - 1 else f m

/-- `give_input`, src/input.rs:140-150 with 188-260: an unused target takes the message without
a trace. An operation that sends to an entity that does not exist is broken, which cancels every
session of its scope (src/operation.rs:703-740, src/cancel.rs:420-437). -/
def give (net : Net) (s : State) (m : Nat) : State :=
  match net.ops.lookup m with
  | none => { s with failures := s.failures + 1, status := .cancelled }
  | some .unused => s
  | some _ => { s with pending := bump s.pending m }

def giveAll (net : Net) (s : State) (ms : List Nat) : State :=
  ms.foldl (give net) s

/-- `emit_disposal`, src/disposal.rs:493-544: the scope will be told. -/
def dispose (s : State) : State := { s with checks := s.checks + 1 }

/-- What the contents of a message decide: how many messages go to each output. -/
abbrev Choice := List Nat

/-- The messages for the outputs, numbers that are missing count as zero. -/
def copies : List Nat → Choice → List Nat
  | [], _ => []
  | t :: ts, c => List.replicate (c.headD 0) t ++ copies ts c.tail

/-- An output gets nothing. -/
def misses : List Nat → Choice → Bool
  | [], _ => false
  | _ :: ts, c => c.headD 0 = 0 || misses ts c.tail

/-- `force_push` into a buffer of limited capacity, src/buffer/buffer_storage.rs:58-96; only the
number of values is kept, which does not depend on which value is discarded. -/
def push (cap : Option Nat) (k : Nat) : Nat :=
  match cap with
  | none => k + 1
  | some c => min c (k + 1)

/-- `buffered_count` of the buffers of a join, src/buffer/buffering.rs:405-418: the smallest
number of values, zero without buffers. The join is ready if it is not zero. -/
def ready (held : Nat → Nat) (bs : List (Nat × Bool)) : Bool :=
  !bs.isEmpty && bs.all (fun b => 0 < held b.1)

/-- `GateState::is_closed`, src/operation/operate_buffer.rs:170-174: open without an entry. -/
def isOpen (s : State) (b : Nat) : Bool := (s.gates b).getD true

/-- `BufferKeyUsage`, src/operation/operate_buffer_access.rs:177-201: the key that the operation
keeps for the session counts its copies with `Arc::strong_count > 1`
(src/buffer/buffer_access_lifecycle.rs:63-65). The keys of several buffers share one counter, so
with several buffers the operation's own keys count (src/buffer/buffer_key_builder.rs:33-49). -/
def used (s : State) (n : Nat) (bs : List Nat) : Bool :=
  0 < s.keys n || 0 < s.dropping n || (s.made n && decide (2 ≤ bs.length))

/-- The nodes in the `RelatedGateNodes` of a buffer with their `GateActionStorage`. -/
def gateNodes (net : Net) (b : Nat) : List (Nat × Bool) :=
  net.ops.filterMap fun e =>
    match e.2 with
    | .gate opens bs _ => if bs.contains b then some (e.1, opens) else none
    | _ => none

/-- The `BufferAccessors` of a buffer with whether a key of theirs is in use. -/
def accessors (net : Net) (s : State) (b : Nat) : List (Nat × (Nat → Bool)) :=
  net.ops.filterMap fun e =>
    match e.2 with
    | .access _ bs _ => if bs.contains b then some (e.1, fun _ => used s e.1 bs) else none
    | _ => none

/-- `GateState::apply`, src/operation/operate_buffer.rs:134-168: an entry is made in any case;
when the gate opens the listeners are woken up. -/
def actGate (net : Net) (opens : Bool) (s : State) (b : Nat) : State :=
  let s' := { s with gates := fun m => if m = b then some opens else s.gates m }
  if opens && !isOpen s b then giveAll net s' (listeners net b) else s'

/-- `fetch_for_join`: pulls a value from each buffer that is not cloned,
src/buffer/fetch_from_buffer.rs:128-160. -/
def fetch (held : Nat → Nat) (bs : List (Nat × Bool)) : Nat → Nat :=
  bs.foldl (fun h b => if b.2 then h else drop h b.1) held

/-- `execute` of an operation on one message that it has taken from its inputs.

* `node`: a blocking map or service sends the items of its streams, announces the streams that
  it did not use and sends its response (src/operation/operate_map.rs:83-131,
  src/service/blocking.rs:120-195, src/stream/anonymous_stream.rs:156-190). An asynchronous one
  spawns a task (operate_map.rs:205-260).
* `fork`: src/operation/fork_clone.rs:60-94, src/operation/fork_unzip.rs, one message for each
  target.
* `branch`: src/operation/branching.rs:131-170 with 184-202: one target gets the message, a
  disposal is announced for the other.
* `filter`: src/operation/filter.rs:302-331. `spread`: src/operation/spread.rs:59-85.
  `split`: src/operation/operate_split.rs:63-121.
* `buffer`: src/operation/operate_buffer.rs:66-95; while the gate is closed nobody is told.
* `join`: src/operation/join.rs:60-83; if it is not ready the error `NotReady` is ignored.
* `scope`: src/operation/scope.rs:364-388, an inner session begins; so does a workflow service,
  src/service/workflow.rs:110-140.
* `access`: src/operation/listen.rs:64-82, src/operation/operate_buffer_access.rs:100-118 with
  `get_access_keys` 135-175: a copy of the key is made for each buffer.
* `gate`: src/operation/operate_gate.rs:166-201; a disposal is announced when it closes.
* `cancel`: src/operation/operate_cancel.rs:60-68; `receive_cancel` and `cancel_one`,
  scope.rs:933-1014, at once instead of through the roster.
* `terminate`: scope.rs:1324-1371. -/
def execute (net : Net) (s : State) (n : Nat) (c : Choice) : Kind → State
  | .node async t ss =>
    if async then { s with tasks := bump s.tasks n }
    else
      let s := giveAll net s (copies ss c)
      let s := if misses ss c then dispose s else s
      give net s t
  | .fork ts => giveAll net s ts
  | .branch a b =>
    if c.headD 0 = 0 then dispose (give net s a) else give net (dispose s) b
  | .filter t => if c.headD 0 = 0 then dispose s else give net s t
  | .spread t =>
    let s' := giveAll net s (List.replicate (c.headD 0) t)
    if c.headD 0 = 0 then dispose s' else s'
  | .split ts =>
    let s' := giveAll net s (copies ts c)
    if misses ts c then dispose s' else s'
  | .buffer cap =>
    let s' := { s with held := fun m => if m = n then push cap (s.held m) else s.held m }
    if isOpen s n then giveAll net s' (listeners net n) else s'
  | .join bs t =>
    if ready s.held bs then give net { s with held := fetch s.held bs } t else s
  | .scope _ _ => { s with tasks := bump s.tasks n }
  | .access _ bs t =>
    give net { s with
      keys := fun m => if m = n then s.keys m + bs.length else s.keys m
      made := fun m => m = n || s.made m } t
  | .gate opens bs t =>
    let s' := give net (bs.foldl (actGate net opens) s) t
    if opens then s' else dispose s'
  | .cancel => { s with status := .cancelled }
  | .terminate => { s with status := .terminated }
  | .unused => s

/-- What the `is_reachable` function of an operation sees, see `Verif.Graph.Op`. A scope with an
inner session counts as active; the code asks the inner terminal (scope.rs:448-483), which is
the same as long as the inner session can still end. -/
def look (net : Net) (s : State) (n : Nat) : Kind → Graph.Op
  | .node _ _ _ => .plain (fun _ => 0 < s.pending n || 0 < s.tasks n) (inputs net n)
  | .scope _ _ => .plain (fun _ => 0 < s.pending n || 0 < s.tasks n) (inputs net n)
  | .buffer _ => .buffer (fun _ => isOpen s n) (gateNodes net n) (accessors net s n)
      (fun _ => 0 < s.pending n) (inputs net n)
  | .join bs _ => .join (bs.map fun b => (b.1, fun _ => s.held b.1))
  | .unused => .plain (fun _ => false) []
  | _ => .plain (fun _ => 0 < s.pending n) (inputs net n)

/-- The workflow as the search for activity sees it. -/
def world (net : Net) (s : State) : Graph.World :=
  net.ops.map fun e => (e.1, look net s e.1 e.2)

/-- `validate_scope_reachability`, src/operation/scope.rs:1018-1099, called for one entry of
`roster.disposed` (src/flush.rs:282-320). The cleanup of the cancelled session is left out. -/
def validate (net : Net) (s : State) : State :=
  match Graph.checkReachability (world net s) 0 net.terminal with
  | .ok true => s
  | .ok false => { s with status := .cancelled }
  | _ => { s with failures := s.failures + 1 }

/-- What can happen next.

* `exec`: an operation takes a message; the choice is made by the user's code.
* `item`: a task sends an item into the stream with this index (src/stream.rs, through the
  channel), or an inner session does (scope.rs:2115-2200).
* `finish`: a task ends with a response, src/operation/operate_task.rs:246-281, and a disposal is
  announced if it has streams; or an inner session ends with one, scope.rs:1884-1893, where
  nothing is announced.
* `lose`: a task is dropped before it ends, operate_task.rs:131-168.
* `innerCancel`: an inner session is cancelled.
* `touch`: somebody with a key that `n` handed out takes `sub` values from buffer `b` and pushes
  `add`; the listeners are told once, without `n` unless closed loops are allowed
  (src/buffer.rs:807-820, src/operation/operate_buffer.rs:303-350).
* `turn`: somebody with a key opens or closes the gate of buffer `b`, which has an effect only
  if the session has an entry (src/buffer/buffer_gate.rs:137-191, C18).
* `release`: a key is dropped, which announces a disposal
  (src/buffer/buffer_access_lifecycle.rs:68-90).
* `letGo`, `gone`: a key is dropped by another thread: the disposal is announced before the
  counter goes down (C47).
* `check`: the scope is told of a disposal. -/
inductive Ev where
  | exec (n : Nat) (c : Choice)
  | item (n i : Nat)
  | finish (n : Nat)
  | lose (n : Nat)
  | innerCancel (n : Nat)
  | touch (n b sub add : Nat) (loops : Bool)
  | turn (n b : Nat) (opens loops : Bool)
  | release (n : Nat)
  | letGo (n : Nat)
  | gone (n : Nat)
  | check
  deriving DecidableEq, Repr

/-- What matters of an entity for a cancellation: `ScopeStorage` and `OperationCancelStorage`. -/
structure Ent where
  scope : Option Nat
  receiver : Bool
  deriving DecidableEq, Repr

/-- The session of a request from outside of any workflow: it has a `Cancellable`,
src/request.rs:102-108. -/
def requestSession : Ent := ⟨none, true⟩

/-- The session that a scope or a workflow service makes for its own operations: a
`ParentSession` and a `SessionStatus`, src/operation/scope.rs:376-379,
src/service/workflow.rs:120-123. -/
def innerSession : Ent := ⟨none, false⟩

/-- The `FinishCleanup` node of a scope: added without a scope (scope.rs:674-680), with a
`Cancellable` (scope.rs:1600-1607). -/
def finishCleanup : Ent := ⟨none, true⟩

/-- `emit_cancel`, src/cancel.rs:398-414 with `try_emit_cancel` 464-502 and `Cancel::try_trigger`
287-309, reached through `roster.cancel`: the scope of the source is told, or else the session.
`none`: there is nobody to tell and a `CancelFailure` is recorded (275-285). -/
def emitCancel (ents : List (Nat × Ent)) (source session : Nat) : Option Nat :=
  let target := ((ents.lookup source).bind (·.scope)).getD session
  match ents.lookup target with
  | some e => if e.receiver then some target else none
  | none => none

/-- The part of `finalize_scoped_session` that concerns a cancelled session,
scope.rs:1801-1806: whether the session that asked for the scope is told. Entity 0 is the
`FinishCleanup` node, 1 the session. -/
def tellsParent (parent : Ent) : Bool :=
  (emitCancel [(0, finishCleanup), (1, parent)] 0 1).isSome

/-- Several values are pushed. -/
def pushes (cap : Option Nat) : Nat → Nat → Nat
  | 0, k => k
  | add + 1, k => push cap (pushes cap add k)

/-- `NotifyBufferUpdate`, src/operation/operate_buffer.rs:303-350. -/
def wake (net : Net) (s : State) (n b : Nat) (loops : Bool) : State :=
  if isOpen s b then giveAll net s ((listeners net b).filter fun m => loops || m ≠ n) else s

/-- Whether somebody has a key of buffer `b` that `n` handed out. -/
def hasKey (net : Net) (s : State) (n b : Nat) : Bool :=
  match net.ops.lookup n with
  | some (.access _ bs _) => 0 < s.keys n && bs.contains b
  | _ => false

def step (net : Net) (s : State) (e : Ev) : State :=
  if s.status ≠ .active then s else
  match e with
  | .exec n c =>
    match net.ops.lookup n with
    | none => s
    | some k =>
      if s.pending n = 0 then s
      else execute net { s with pending := drop s.pending n } n c k
  | .item n i =>
    match net.ops.lookup n with
    | some (.node true _ ss) =>
      if s.tasks n = 0 then s
      else
        match ss[i]? with
        | none => s
        | some m => give net s m
    | some (.scope _ ss) =>
      if s.tasks n = 0 then s
      else
        match ss[i]? with
        | none => s
        | some m => give net s m
    | _ => s
  | .finish n =>
    match net.ops.lookup n with
    | some (.node true t ss) =>
      if s.tasks n = 0 then s
      else
        let s := give net { s with tasks := drop s.tasks n } t
        if ss.isEmpty then s else dispose s
    | some (.scope t _) =>
      if s.tasks n = 0 then s else give net { s with tasks := drop s.tasks n } t
    | _ => s
  | .lose n =>
    match net.ops.lookup n with
    | some (.node true _ _) =>
      if s.tasks n = 0 then s else dispose { s with tasks := drop s.tasks n }
    | _ => s
  | .innerCancel n =>
    match net.ops.lookup n with
    | some (.scope _ _) =>
      if s.tasks n = 0 then s
      else if tellsParent innerSession then dispose { s with tasks := drop s.tasks n }
      else { s with tasks := drop s.tasks n, failures := s.failures + 1 }
    | _ => s
  | .touch n b sub add loops =>
    match net.ops.lookup b with
    | some (.buffer cap) =>
      if hasKey net s n b then
        wake net { s with
          held := fun m => if m = b then pushes cap add (s.held m - sub) else s.held m } n b loops
      else s
    | _ => s
  | .turn n b opens loops =>
    if hasKey net s n b then
      match s.gates b with
      | none => s
      | some now =>
        let s' := { s with gates := fun m => if m = b then some opens else s.gates m }
        if opens && !now then wake net s' n b loops else s'
    else s
  | .release n =>
    if s.keys n = 0 then s else dispose { s with keys := drop s.keys n }
  | .letGo n =>
    if s.keys n = 0 then s
    else dispose { s with keys := drop s.keys n, dropping := bump s.dropping n }
  | .gone n => if s.dropping n = 0 then s else { s with dropping := drop s.dropping n }
  | .check =>
    if s.checks = 0 then s else validate net { s with checks := s.checks - 1 }

/-- The state in which a session begins: the entry has got the request,
`begin_scope_impl`, src/operation/scope.rs:598-628. -/
def received (net : Net) : State :=
  give net blank net.entry

/-- `begin_scope`, src/operation/scope.rs:485-566: then the terminal is looked for. The code
remembers a positive answer for later sessions, which begin in the same state. -/
def start (net : Net) : State := validate net (received net)

def run (net : Net) (s : State) (es : List Ev) : State := es.foldl (step net) s

end Verif.Flow

/-!
# How the builder wires operations together

A model of the calls that build a workflow: creating an operation
(`builder.rs:73-93`), chaining one onto an output (`chain.rs:100-140`), adding a
branch to a fork (`node.rs:168-182`), listening to buffers
(`buffer/buffering.rs:902-924`), creating a scope (`builder.rs:703-755`), and
connecting an output to an input slot (`builder.rs:158-164`,
`builder/connect.rs:55-149`).

The builder only queues commands; Bevy applies them in the order in which they
were queued.  Here each call is applied at once.  That changes nothing that
this model speaks of: entity identifiers are reserved at once in both, and no
call of the builder reads the world.
-/

namespace Verif.Wire

/-- The components of one entity that wiring touches.
`operation.rs:98-143` (`SingleInputStorage`), `operation.rs:161-234`
(`SingleTargetStorage`, `ForkTargetStorage`, `UnusedTarget`),
`stream/stream_target_map.rs:34-37` (`StreamTargetMap`; the anonymous map and
the named map are one list here, with one key per type or name),
`operation/scope.rs` (`EntryForScope`, `ScopeEntryStorage`, `ScopeContents`,
`ScopeStorage`).  `op` says that `AddOperation` put an operation on the entity
(`operation.rs:636-643`). -/
structure Ent where
  inputs : Option (List Nat) := none
  single : Option Nat := none
  fork : Option (List Nat) := none
  streams : List (Nat × Nat) := []
  unused : Bool := false
  entryFor : Option Nat := none
  entry : Option Nat := none
  contents : Option (List Nat) := none
  scope : Option Nat := none
  op : Bool := false

/-- The world: the entities that exist, the next identifier, and the number of
entries in `UnhandledErrors`. -/
structure World where
  ents : Nat → Option Ent
  next : Nat
  errors : Nat

/-- `Commands::spawn`. The identifier of the new entity is `w.next`. -/
def World.spawn (w : World) (e : Ent) : World :=
  { w with ents := fun m => if m = w.next then some e else w.ents m, next := w.next + 1 }

/-- `n` spawns in a row. Their identifiers are `w.next .. w.next + n - 1`. -/
def World.spawnMany (w : World) (e : Ent) : Nat → World
  | 0 => w
  | n + 1 => (w.spawn e).spawnMany e n

/-- `get_entity_mut(id).or_broken()?` followed by a change of components.
Simplified: when the entity is missing the code returns the error, skips the
rest of the command, and the command pushes it to `UnhandledErrors`; here the
error is counted and the rest goes on. -/
def World.update (w : World) (id : Nat) (f : Ent → Ent) : World :=
  match w.ents id with
  | some e => { w with ents := fun m => if m = id then some (f e) else w.ents m }
  | none => { w with errors := w.errors + 1 }

/-- `EntityWorldMut::despawn` after `or_broken`. -/
def World.despawn (w : World) (id : Nat) : World :=
  match w.ents id with
  | some _ => { w with ents := fun m => if m = id then none else w.ents m }
  | none => { w with errors := w.errors + 1 }

/-- The loop over the targets of a fork in its `setup`
(`operation/fork_unzip.rs:40-45`, `operation/branching.rs:66-71`,
`operation/fork_clone.rs:48-53`), and the same line of the operations that have
one target: each target is given `SingleInputStorage::new(source)`, replacing
what it had. -/
def World.feed (w : World) (source : Nat) : List Nat → World
  | [] => w
  | t :: ts => (w.update t fun e => { e with inputs := some [source] }).feed source ts

/-- What `AddOperation::apply` does after `setup` (`operation.rs:636-662`). -/
def World.addOperation (w : World) (scope : Option Nat) (source : Nat) : World :=
  let w := w.update source fun e => { e with op := true }
  match scope with
  | none => w
  | some sc =>
    let w := w.update source fun e => { e with scope := some sc }
    match (w.ents sc).bind (·.contents) with
    | some c => w.update sc fun e => { e with contents := some (c ++ [source]) }
    | none => { w with errors := w.errors + 1 }

/-- Put an operation with one target on `source`: `setup` gives the target its
input (`operation/noop.rs:45`, `operation/operate_map.rs:77`,
`operation/operate_service.rs:61` and so on) and the source its
`SingleTargetStorage`, then `AddOperation` completes it. -/
def World.addNode (w : World) (scope source target : Nat) : World :=
  let w := w.feed source [target]
  let w := w.update source fun e => { e with single := some target }
  w.addOperation (some scope) source

/-- Put a fork with the given targets on `source`. -/
def World.addFork (w : World) (scope source : Nat) (targets : List Nat) : World :=
  let w := w.feed source targets
  let w := w.update source fun e => { e with fork := some targets }
  w.addOperation (some scope) source

/-- `StreamTargetMap::add_anonymous` and `add_named`
(`stream/stream_target_map.rs:40-87`): the first target of a key is kept, and
any other is reported as a duplicate. -/
def addStream (map : List (Nat × Nat)) (errors key target : Nat) : List (Nat × Nat) × Nat :=
  if map.any (·.1 == key) then (map, errors + 1) else (map ++ [(key, target)], errors)

/-- `spawn_node_streams` (`stream/anonymous_stream.rs:92-104`,
`stream/named_stream.rs:71-90`, and the tuple implementation): for each stream
a target with `SingleInputStorage::new(source)` is spawned and added to the
map. -/
def World.nodeStreams (w : World) (source : Nat) (map : List (Nat × Nat)) :
    List Nat → World × List (Nat × Nat)
  | [] => (w, map)
  | key :: keys =>
    let target := w.next
    let w := w.spawn { inputs := some [source], unused := true }
    let (map, errors) := addStream map w.errors key target
    ({ w with errors := errors }).nodeStreams source map keys

/-- An `Output` (`node.rs:88-92`): not `Clone`, so it is used at most once. -/
structure Output where
  target : Nat
  scope : Nat
deriving DecidableEq

/-- An `InputSlot` (`node.rs:52-58`): `Copy`, so it can be used any number of times. -/
structure Slot where
  source : Nat
  scope : Nat
deriving DecidableEq

/-- The world and the handles that the user holds. `forks` are the
`ForkCloneOutput`s and split builders, `buffers` the `Buffer`s, `scopes` the
scopes that have a `Builder`. -/
structure Build where
  world : World
  outs : List Output
  slots : List Slot
  forks : List Slot
  buffers : List Slot
  scopes : List Nat

/-- Where the source of a new operation comes from: a fresh entity
(`builder.rs:83`), or the target of an output that is chained onto
(`chain.rs:107`, `chain.rs:128`). -/
inductive From
  | fresh (scope : Nat)
  | chained (o : Output)

/-- The calls. Operations differ, for wiring, in their outputs only:

* `node`: one output, and a stream for each key (services, maps, callbacks,
  noop, filters, gates, trim, injection, collect, split's chain, …);
* `fork`: `n` outputs to begin with (`fork_unzip`, `branching`); with `n = 0`
  it is `fork_clone` or `split`, to which `branch` adds outputs;
* `newScope`: a scope with `n` streams;
* `sink`: an operation with an input and no output
  (`spawn_workflow_streams`, `stream/anonymous_stream.rs:82-90`);
* `buffer`, `listener` (`listen`, `join`, buffer access). -/
inductive Call
  | node (src : From) (keys : List Nat)
  | fork (src : From) (n : Nat)
  | newScope (src : From) (n : Nat)
  | sink (scope : Nat)
  | buffer (scope : Nat)
  | listener (scope : Nat) (buffers : List Slot)
  | branch (f : Slot)
  | connect (o : Output) (i : Slot)

/-- The source of a new operation. `none`: the handle is not there to be used. -/
def Build.source (b : Build) : From → Option (Build × Nat × Nat)
  | .fresh sc =>
    if sc ∈ b.scopes then some ({ b with world := b.world.spawn {} }, b.world.next, sc) else none
  | .chained o =>
    if o ∈ b.outs ∧ o.scope ∈ b.scopes then some ({ b with outs := b.outs.erase o }, o.target, o.scope)
    else none

/-- `create_node` (`builder.rs:73-93`) and `then_node` (`chain.rs:120-140`). -/
def Build.node (b : Build) (source scope : Nat) (keys : List Nat) : Build :=
  let target := b.world.next
  let w := b.world.spawn { unused := true }
  let w := w.addNode scope source target
  let first := w.next
  let (w, map) := w.nodeStreams source [] keys
  let w := w.update source fun e => { e with streams := map }
  { b with
    world := w
    outs := b.outs ++ [⟨target, scope⟩] ++ (List.range' first keys.length).map (⟨·, scope⟩)
    slots := b.slots ++ [⟨source, scope⟩] }

/-- `fork_unzip` (`chain/unzip.rs`), `branching` and `fork_clone` (`node.rs:125-140`). -/
def Build.fork (b : Build) (source scope n : Nat) : Build :=
  let targets := List.range' b.world.next n
  let w := b.world.spawnMany { unused := true } n
  let w := w.addFork scope source targets
  { b with
    world := w
    outs := b.outs ++ targets.map (⟨·, scope⟩)
    slots := b.slots ++ [⟨source, scope⟩]
    forks := b.forks ++ [⟨source, scope⟩] }

/-- `clone_output` (`node.rs:168-182`) with `try_add_branch_to_fork_clone`
(`operation/fork_clone.rs:132-141`); `ConnectToSplit::connect`
(`operation/operate_split.rs:159-168`) does the same. -/
def Build.branch (b : Build) (f : Slot) : Build :=
  let target := b.world.next
  let w := b.world.spawn { inputs := some [f.source], unused := true }
  let w :=
    match (w.ents f.source).bind (·.fork) with
    | some ts => w.update f.source fun e => { e with fork := some (ts ++ [target]) }
    | none => { w with errors := w.errors + 1 }
  { b with world := w, outs := b.outs ++ [⟨target, f.scope⟩] }

/-- `create_buffer` with the `setup` of `operation/operate_buffer.rs:52-66`. -/
def Build.buffer (b : Build) (scope : Nat) : Build :=
  let source := b.world.next
  let w := b.world.spawn {}
  let w := w.update source fun e => { e with fork := some [], inputs := some [] }
  let w := w.addOperation (some scope) source
  { b with
    world := w
    slots := b.slots ++ [⟨source, scope⟩]
    buffers := b.buffers ++ [⟨source, scope⟩] }

/-- `SingleInputStorage::add`, or a new storage when there is none
(`operation.rs:122-126`, `builder/connect.rs:130-138`,
`buffer/buffering.rs:912-920`). -/
def addInput (x : Nat) (e : Ent) : Ent :=
  match e.inputs with
  | some l => { e with inputs := some (if x ∈ l then l else l ++ [x]) }
  | none => { e with inputs := some [x] }

/-- `add_listener_to_source` (`buffer/buffering.rs:902-924`). -/
def World.listen (w : World) (source listener : Nat) : World :=
  match (w.ents source).bind (·.fork) with
  | none => { w with errors := w.errors + 1 }
  | some ts =>
    let w := w.update source fun e =>
      { e with fork := some (if listener ∈ ts then ts else ts ++ [listener]) }
    w.update listener (addInput source)

/-- `add_listener` of a collection of buffers (`buffer/buffering.rs`): one after
the other. -/
def World.listenAll (w : World) (listener : Nat) : List Slot → World
  | [] => w
  | s :: bs => (w.listen s.source listener).listenAll listener bs

/-- `listen` and `join` (`buffer/bufferable.rs`, `operation/join.rs:44-60`,
`operation/listen.rs:44-58`). -/
def Build.listener (b : Build) (scope : Nat) (buffers : List Slot) : Build :=
  let source := b.world.next
  let w := b.world.spawn {}
  let target := w.next
  let w := w.spawn { unused := true }
  let w := w.feed source [target]
  let w := w.listenAll source buffers
  let w := w.update source fun e => { e with single := some target }
  let w := w.addOperation (some scope) source
  { b with world := w, outs := b.outs ++ [⟨target, scope⟩] }

/-- `spawn_workflow_streams` (`stream/anonymous_stream.rs:82-90`). -/
def Build.sink (b : Build) (scope : Nat) : Build :=
  let source := b.world.next
  let w := b.world.spawn {}
  let w := w.addOperation (some scope) source
  { b with world := w, slots := b.slots ++ [⟨source, scope⟩] }

/-- `spawn_scope_streams` (`stream/anonymous_stream.rs:63-80`): an operation
inside the scope whose target is outside of it. -/
def Build.scopeStreams (b : Build) (scope outer : Nat) : Nat → Build
  | 0 => b
  | n + 1 =>
    let source := b.world.next
    let w := b.world.spawn {}
    let target := w.next
    let w := w.spawn { unused := true }
    let w := w.addNode scope source target
    Build.scopeStreams { b with
      world := w
      outs := b.outs ++ [⟨target, outer⟩]
      slots := b.slots ++ [⟨source, scope⟩] } scope outer n

/-- `OperateScope::setup` (`operation/scope.rs:259-288`) for a scope with an
exit, and the rest of `AddOperation`. -/
def World.setupScope (w : World) (outer scope entry exit : Nat) : World :=
  let w := w.update scope fun e => { e with entry := some entry, contents := some [] }
  let w := w.update scope fun e => { e with single := some exit }
  let w := w.feed scope [exit]
  w.addOperation (some outer) scope

/-- `Terminate::setup` (`operation/scope.rs:1310-1320`); the terminal is not one
of the contents of the scope. -/
def World.setupTerminal (w : World) (terminal scope : Nat) : World :=
  let w := w.update terminal fun e => { e with inputs := some [], scope := some scope }
  w.addOperation none terminal

/-- `create_scope_impl` (`builder.rs:703-755`) with `OperateScope::add`
(`operation/scope.rs:630-690`). Simplified: the entity that finishes cleanup is
left out, no message can be wired to it. -/
def Build.newScope (b : Build) (scope outer n : Nat) : Build :=
  let exit := b.world.next
  let w := b.world.spawn { unused := true }
  let entry := w.next
  let w := w.spawn { entryFor := some scope, unused := true }
  let terminal := w.next
  let w := w.spawn {}
  let w := w.setupScope outer scope entry exit
  let w := w.setupTerminal terminal scope
  Build.scopeStreams { b with
    world := w
    outs := b.outs ++ [⟨exit, outer⟩, ⟨entry, scope⟩]
    slots := b.slots ++ [⟨scope, outer⟩, ⟨terminal, scope⟩]
    scopes := b.scopes ++ [scope] } scope outer n

/-- Replace a target. -/
def swap (o i t : Nat) : Nat := if t = o then i else t

/-- The targets of one sender in `try_connect` (`builder/connect.rs:86-117`):
each entry that is the original target becomes the new one. -/
def redirect (o i : Nat) (e : Ent) : Ent :=
  { e with
    single := e.single.map (swap o i)
    fork := e.fork.map (·.map (swap o i))
    streams := e.streams.map fun p => (p.1, swap o i p.2) }

/-- `connection_happened` (`builder/connect.rs:86-117`). -/
def happened (o : Nat) (e : Ent) : Bool :=
  e.single == some o || ((e.fork.getD []).contains o) || e.streams.any (·.2 == o)

/-- One turn of the loop of `try_connect` (`builder/connect.rs:83-139`). -/
def World.reconnect (w : World) (o i x : Nat) : World :=
  match w.ents x with
  | none => { w with errors := w.errors + 1 }
  | some e =>
    let w := w.update x (redirect o i)
    let w := if happened o e then w else { w with errors := w.errors + 1 }
    w.update i (addInput x)

/-- The loop of `try_connect`. -/
def World.reconnectAll (w : World) (o i : Nat) : List Nat → World
  | [] => w
  | x :: xs => (w.reconnect o i x).reconnectAll o i xs

/-- `try_connect` (`builder/connect.rs:55-149`). -/
def World.connect (w : World) (o i : Nat) : World :=
  match (w.ents o).bind (·.entryFor) with
  | some sc =>
    let w := w.update i fun e => { e with entryFor := some sc }
    let w := w.update sc fun e => { e with entry := some i }
    w.despawn o
  | none =>
    match (w.ents o).bind (·.inputs) with
    | none => { w with errors := w.errors + 1 }
    | some old =>
      let w := w.update o fun e => { e with inputs := none }
      let w := w.reconnectAll o i old
      w.despawn o

/-- One call. `none`: the call cannot be made, either because the user does not
hold the handle or because the call panics (`builder.rs:159` asserts that the
scopes agree). -/
def Build.call (b : Build) : Call → Option Build
  | .node src keys => (b.source src).map fun (b, s, sc) => b.node s sc keys
  | .fork src n => (b.source src).map fun (b, s, sc) => b.fork s sc n
  | .newScope src n => (b.source src).map fun (b, s, sc) => b.newScope s sc n
  | .sink sc => if sc ∈ b.scopes then some (b.sink sc) else none
  | .buffer sc => if sc ∈ b.scopes then some (b.buffer sc) else none
  | .listener sc bs =>
    if sc ∈ b.scopes ∧ ∀ s ∈ bs, s ∈ b.buffers ∧ s.scope = sc then some (b.listener sc bs) else none
  | .branch f => if f ∈ b.forks then some (b.branch f) else none
  | .connect o i =>
    if o ∈ b.outs ∧ i ∈ b.slots ∧ o.scope = i.scope then
      some { b with world := b.world.connect o.target i.source, outs := b.outs.erase o }
    else none

/-- A workflow at the moment its builder function is called
(`workflow.rs`, `spawn_workflow`): entity 0 is the scope, 1 its entry and 2 its
terminal. -/
def Build.start : Build :=
  { world :=
      { ents := fun m =>
          if m = 0 then some { entry := some 1, contents := some [], op := true }
          else if m = 1 then some { entryFor := some 0, unused := true }
          else if m = 2 then some { inputs := some [], scope := some 0, op := true }
          else none
        next := 3
        errors := 0 }
    outs := [⟨1, 0⟩]
    slots := [⟨2, 0⟩]
    forks := []
    buffers := []
    scopes := [0] }

/-- A run of calls. -/
def Build.run (b : Build) : List Call → Option Build
  | [] => some b
  | c :: cs => (b.call c).bind (·.run cs)

/-- Where an operation sends to: its target, the branches of its fork, its streams. -/
def Ent.targets (e : Ent) : List Nat :=
  e.single.toList ++ e.fork.getD [] ++ e.streams.map (·.2)

end Verif.Wire

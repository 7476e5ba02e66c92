/-
What the operations of a workflow keep for a session, and what their cleanup removes.

Sources: /repo/src/disposal.rs:477-630 (storage of disposals), /repo/src/operation/cleanup.rs:79-120,
the `cleanup` of each operation (cited at `Node.clean`), /repo/src/operation/scope.rs:1023-1098
(the cancellation of a scope whose end cannot be reached) and 1923-1936 (the end of a session).

Left out: what is kept for asynchronous tasks, in the queue of a service and by scopes (the areas
Task, Delivery, Continuous, Scope), and what the messages are. The outcome of an execution is part
of the event, so that every behaviour of the user's code is covered.
-/
namespace Verif.Residue

variable {V D : Type}

/-- The operations, by what they keep and clean. -/
inductive Kind where
  /-- src/operation/operate_service.rs -/
  | service
  /-- src/operation/operate_callback.rs -/
  | callback
  /-- `OperateBlockingMap`, src/operation/operate_map.rs:66-150 -/
  | blockingMap
  /-- `OperateAsyncMap`, src/operation/operate_map.rs:180-281 -/
  | asyncMap
  /-- src/operation/operate_split.rs -/
  | split
  /-- src/operation/fork_clone.rs, src/operation/fork_unzip.rs -/
  | fork
  /-- `CancelFilter`, src/operation/filter.rs:132-200 -/
  | cancelFilter
  /-- `DisposalFilter`, src/operation/filter.rs:281-345 -/
  | disposalFilter
  /-- src/operation/branching.rs -/
  | branching
  /-- src/operation/spread.rs -/
  | spread
  /-- both gates of src/operation/operate_gate.rs -/
  | gate
  /-- src/operation/operate_cancel.rs -/
  | cancel
  /-- src/operation/noop.rs -/
  | noop
  /-- src/operation/join.rs -/
  | join
  /-- src/operation/listen.rs -/
  | listen
  /-- src/operation/operate_buffer_access.rs -/
  | access
  /-- src/operation/operate_buffer.rs -/
  | buffer
  /-- src/operation/collect.rs -/
  | collect
  /-- src/operation/operate_trim.rs -/
  | trim
  /-- src/operation/injection.rs -/
  | injection
  deriving DecidableEq, Repr

/-- The operations for which a disposal is emitted somewhere: operate_map.rs:120 (unused streams),
operate_task.rs:160 (a task of a service, a callback or an async map was despawned),
service/blocking.rs:173, async_srv.rs:152, continuous.rs:778 and 815, workflow.rs:208,
operate_service.rs:203 (services), callback.rs:187, operate_split.rs:105, filter.rs:321,
branching.rs:154 and 166, spread.rs:81, operate_gate.rs:106 and 196, operate_trim.rs:233,
collect.rs:263, buffer/buffer_access_lifecycle.rs:78 (a key of a listener or an access was
dropped). An injection only gets those of its tasks. -/
def Kind.emits : Kind → Bool
  | .service | .callback | .blockingMap | .asyncMap | .split | .disposalFilter | .branching
  | .spread | .gate | .trim | .collect | .listen | .access => true
  | .fork | .cancelFilter | .cancel | .noop | .join | .buffer | .injection => false

/-- `Injected`, src/operation/injection.rs:261-265, with the disposals stored at its
task; they are all of the session of the task (operate_task.rs:160, continuous.rs:778). -/
structure Injected (D : Type) where
  session : Nat
  task : Nat
  disposals : List D

/-- An operation with what it keeps. Maps from sessions have an entry if the value is not `[]`,
`false` or `none`. -/
structure Node (V D : Type) where
  kind : Kind
  /-- `InputStorage`, src/input.rs -/
  inputs : List (Nat × V)
  /-- `DisposalStorage`, src/disposal.rs:626-630 -/
  disposals : Nat → List D
  /-- `BufferAccessStorage::keys`, src/operation/operate_buffer_access.rs -/
  keys : Nat → Bool
  /-- `CollectionStorage::map`, src/operation/collect.rs -/
  batch : Nat → List V
  /-- `HoldingStorage::map`, src/operation/operate_trim.rs: cleanup id, session, message -/
  held : List (Nat × Nat × V)
  /-- `InjectionStorage::list`, src/operation/injection.rs:235-238 -/
  injected : List (Injected D)
  /-- `BufferStorage`, src/buffer/buffer_storage.rs -/
  stored : Nat → List V
  /-- `GateState::map`, src/operation/operate_buffer.rs:128-131 -/
  gate : Nat → Option Bool

/-- An operation that was just set up. -/
def Node.new (k : Kind) : Node V D :=
  ⟨k, [], fun _ => [], fun _ => false, fun _ => [], [], [], fun _ => [], fun _ => none⟩

/-- The operations of one scope: `contents` is `ScopeContents` (src/operation/scope.rs:239-256),
`next` the next entity that is spawned and `helpers` the entities `world.spawn(()).id()` that
trims have spawned as ids of their cleanups (operate_trim.rs:162) and that exist. -/
structure World (V D : Type) where
  contents : List Nat
  node : Nat → Node V D
  next : Nat
  helpers : List Nat

def World.set (w : World V D) (n : Nat) (x : Node V D) : World V D :=
  { w with node := fun m => if m = n then x else w.node m }

/-- A workflow before its first session. -/
def World.init (contents : List Nat) (kind : Nat → Kind) : World V D :=
  ⟨contents, fun n => .new (kind n), 0, []⟩

def upd {A : Type} (f : Nat → A) (s : Nat) (a : A) : Nat → A := fun x => if x = s then a else f x

/-! ### Cleanup -/

/-- `cleanup_inputs`, src/operation/cleanup.rs:79-86, src/input.rs:330-337. -/
def Node.cleanInputs (x : Node V D) (s : Nat) : Node V D :=
  { x with inputs := x.inputs.filter fun i => i.1 ≠ s }

/-- `cleanup_disposals`, src/operation/cleanup.rs:88-97. -/
def Node.cleanDisposals (x : Node V D) (byScope : Bool) (s : Nat) : Node V D :=
  if byScope then { x with disposals := upd x.disposals s [] } else x

/-- `cleanup_buffer_access`, src/operation/cleanup.rs:99-120. -/
def Node.cleanKeys (x : Node V D) (byScope : Bool) (s : Nat) : Node V D :=
  if byScope then { x with keys := upd x.keys s false } else x

/-- The `cleanup` of an operation, without waiting for tasks and without the notification.
`byScope`: the cleaner is the scope of the operation. -/
def Node.clean (x : Node V D) (byScope : Bool) (s : Nat) : Node V D :=
  match x.kind with
  -- operate_service.rs:91-115, operate_callback.rs:119-127, filter.rs:332-336,
  -- branching.rs:98-102, spread.rs:87-91, operate_gate.rs:112-116 and 202-206
  | .service | .callback | .disposalFilter | .branching | .spread | .gate =>
    (x.cleanInputs s).cleanDisposals byScope s
  -- collect.rs:120-130
  | .collect =>
    let y := (x.cleanInputs s).cleanDisposals byScope s
    { y with batch := upd y.batch s [] }
  -- operate_trim.rs:182-193
  | .trim =>
    let y := (x.cleanInputs s).cleanDisposals byScope s
    { y with held := y.held.filter fun h => h.2.1 ≠ s }
  -- injection.rs:137-161
  | .injection =>
    let y := (x.cleanInputs s).cleanDisposals byScope s
    { y with injected := y.injected.filter fun i => i.session ≠ s }
  -- listen.rs:84-88, operate_buffer_access.rs:120-124
  | .listen | .access => (x.cleanInputs s).cleanKeys byScope s
  -- operate_map.rs:134-137 and 263-270, operate_split.rs:122-125, fork_clone.rs:96-99,
  -- fork_unzip.rs:56-59, filter.rs:188-191, operate_cancel.rs:69-72 and 109-112,
  -- noop.rs:71-74, join.rs:87-90, operate_buffer.rs:97-100
  | .blockingMap | .asyncMap | .split | .fork | .cancelFilter | .cancel | .noop | .join | .buffer =>
    x.cleanInputs s

/-- One operation of the scope is cleaned. -/
def World.clean (w : World V D) (byScope : Bool) (n s : Nat) : World V D :=
  w.set n ((w.node n).clean byScope s)

/-- The loop over the nodes in `cleanup_entire_scope`, src/operation/scope.rs:1280-1290. -/
def World.cleanAll (w : World V D) (s : Nat) : World V D :=
  w.contents.foldl (fun w n => w.clean true n s) w

/-- `clear_scope_buffers`, src/operation/scope.rs:1923-1936: `ClearBufferFn` is a component of
buffers only (operate_buffer.rs:204-214). -/
def World.clear (w : World V D) (s : Nat) : World V D :=
  w.contents.foldl (fun w n =>
    if (w.node n).kind = .buffer then
      w.set n { w.node n with stored := upd (w.node n).stored s [] }
    else w) w

/-! ### What happens in a workflow -/

/-- `EntityWorldMut::emit_disposal` for an operation in a scope, src/disposal.rs:521-531. -/
def Node.emit (x : Node V D) (s : Nat) (d : D) : Node V D :=
  { x with disposals := upd x.disposals s (x.disposals s ++ [d]) }

/-- `transfer_disposals`, src/disposal.rs:540-563: from a task to its injector. -/
def Node.transfer (x : Node V D) (s : Nat) (ds : List D) : Node V D :=
  { x with disposals := upd x.disposals s (x.disposals s ++ ds) }

/-- What an operation keeps when it has taken the input `(s, v)`. `full`: a collection is
complete (C19 says when), a buffer does not retain the value (C01), or the branches of a trim are
not valid. -/
def Node.keep (x : Node V D) (fresh : Nat) (full : Bool) (s : Nat) (v : V) : Node V D :=
  match x.kind with
  -- operate_buffer_access.rs:146-165: `get_access_keys`
  | .listen | .access => { x with keys := upd x.keys s true }
  -- collect.rs:92-103
  | .collect => { x with batch := upd x.batch s (if full then [] else x.batch s ++ [v]) }
  -- operate_trim.rs:125-168
  | .trim => if full then x else { x with held := x.held ++ [(fresh, s, v)] }
  -- injection.rs:74-121
  | .injection => { x with injected := x.injected ++ [⟨s, fresh, []⟩] }
  -- operate_buffer.rs:74-76
  | .buffer => if full then x else { x with stored := upd x.stored s (x.stored s ++ [v]) }
  | _ => x

inductive Ev (V D : Type) where
  /-- an input arrives, src/input.rs:172-263 -/
  | give (n s : Nat) (v : V)
  /-- the operation is executed -/
  | exec (n : Nat) (full : Bool)
  /-- a disposal is emitted for the operation -/
  | emit (n s : Nat) (d : D)
  /-- a disposal is emitted for a task of an injection, see src/operation/injection.rs:89-99 -/
  | emitTask (n task : Nat) (d : D)
  /-- `InjectionFinish`, src/operation/injection.rs:295-312 -/
  | finish (n task : Nat)
  /-- `finalize_trim`, src/operation/operate_trim.rs:205-240 -/
  | finalize (n id : Nat) (d : D)
  /-- a gate, or a key, acts on a buffer: `GateState::apply`, operate_buffer.rs:133-168 -/
  | setGate (n s : Nat) (g : Bool)
  /-- somebody else than the scope (a trim, an injection) cleans an operation -/
  | trimmed (n s : Nat)
  /-- the scope begins to clean a session -/
  | cleanAll (s : Nat)
  /-- the scope has cleaned a session -/
  | clear (s : Nat)

def step (w : World V D) : Ev V D → World V D
  | .give n s v => w.set n { w.node n with inputs := (w.node n).inputs ++ [(s, v)] }
  | .exec n full =>
    match (w.node n).inputs with
    | [] => w
    | (s, v) :: rest =>
      let x : Node V D := { w.node n with inputs := rest }
      let w1 : World V D := { w with
        next := w.next + 1
        helpers := if x.kind = Kind.trim ∧ full = false then w.helpers ++ [w.next] else w.helpers }
      w1.set n (x.keep w.next full s v)
  | .emit n s d => if (w.node n).kind.emits then w.set n ((w.node n).emit s d) else w
  | .emitTask n task d =>
    w.set n { w.node n with injected := (w.node n).injected.map fun i =>
      if i.task = task then { i with disposals := i.disposals ++ [d] } else i }
  | .finish n task =>
    match (w.node n).injected.find? (fun i => i.task = task) with
    | none => w
    | some i =>
      w.set n
        ({ w.node n with
          injected := (w.node n).injected.filter fun j => j.task ≠ task }.transfer i.session i.disposals)
  | .finalize n id d =>
    match (w.node n).held.find? (fun h => h.1 = id) with
    | none => w
    | some h =>
      w.set n ({ w.node n with held := (w.node n).held.filter fun j => j.1 ≠ id }.emit h.2.1 d)
  | .setGate n s g =>
    if (w.node n).kind = .buffer then
      w.set n { w.node n with gate := upd (w.node n).gate s (some g) }
    else w
  | .trimmed n s => w.clean false n s
  | .cleanAll s => w.cleanAll s
  | .clear s => w.clear s

def run (w : World V D) (evs : List (Ev V D)) : World V D := evs.foldl step w

/-- The disposals that `validate_scope_reachability` puts into the cancellation,
src/operation/scope.rs:1055-1064. -/
def World.listing (w : World V D) (s : Nat) : List D :=
  w.contents.flatMap fun n => (w.node n).disposals s

end Verif.Residue

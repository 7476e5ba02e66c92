import Verif.Flow.Model
import Verif.Buffer.Model

/-
Model of one session of a workflow with the contents of its messages. `Verif.Flow` counts messages
and lets their contents decide anything; here the operations are functions of the messages they
get, so the model says which value a workflow responds with. The order in which operations and
tasks get their turn is left open, which includes every order of the roster, of the executor and
of the channel.

The type of messages `α` is left open too; what the code does by types (taking a `Result`, a
tuple or an iterable apart, putting together what is joined) is a function of the operation. User
code is taken to be a function of the message: it neither keeps a state nor reads the world. Left
out, besides what `Verif.Flow` leaves out: inner scopes (a node whose task responds stands for
them), keys of buffers, and gates.
-/
namespace Verif.Values

open Flow (Net Status)
open Buffer (Retention)

variable {α : Type}

/-- The operations of a workflow with their connections and their functions.

* `node`: a map, service or callback `f`, `async` when the response comes from a task, with its
  target, the targets of its streams and the items it sends into each of them
  (src/operation/operate_map.rs:83-131, 205-260, src/operation/operate_service.rs).
* `fork`: `ForkClone` (src/operation/fork_clone.rs:60-94), where each part is a copy, and
  `ForkUnzip` (src/operation/fork_unzip.rs), where it is a component.
* `branch`: `Branching`, src/operation/branching.rs:131-202; `f` is its function.
* `filter`: src/operation/filter.rs:302-331. `spread`: src/operation/spread.rs:59-85.
* `split`: src/operation/operate_split.rs:63-121, `f` says what goes to each output (C36).
* `buffer`: src/operation/operate_buffer.rs:66-95.
* `join`: src/operation/join.rs:60-83, each buffer with whether its value is cloned instead of
  pulled; `pack` puts the values together.
* `cancel`, `terminate`, `unused`: as in `Flow.Kind`. -/
inductive Kind (α : Type) where
  | node (async : Bool) (f : α → α) (target : Nat) (streams : List Nat) (items : α → List (List α))
  | fork (targets : List Nat) (part : Nat → α → α)
  | branch (first second : Nat) (f : α → α ⊕ α)
  | filter (target : Nat) (f : α → Option α)
  | spread (target : Nat) (f : α → List α)
  | split (targets : List Nat) (f : α → List (List α))
  | buffer (retention : Retention)
  | join (buffers : List (Nat × Bool)) (target : Nat) (pack : List α → α)
  | cancel
  | terminate
  | unused

/-- The number of values that a buffer can hold. -/
def capacity : Retention → Option Nat
  | .keepLast n => some n
  | .keepFirst n => some n
  | .keepAll => none

/-- The operation without its functions. -/
def Kind.shape : Kind α → Flow.Kind
  | .node async _ t ss _ => .node async t ss
  | .fork ts _ => .fork ts
  | .branch a b _ => .branch a b
  | .filter t _ => .filter t
  | .spread t _ => .spread t
  | .split ts _ => .split ts
  | .buffer r => .buffer (capacity r)
  | .join bs t _ => .join bs t
  | .cancel => .cancel
  | .terminate => .terminate
  | .unused => .unused

/-- A workflow, as `Flow.Net`. -/
structure Work (α : Type) where
  ops : List (Nat × Kind α)
  entry : Nat
  terminal : Nat

/-- The workflow as `Verif.Flow` sees it. -/
def Work.net (w : Work α) : Net where
  ops := w.ops.map fun e => (e.1, e.2.shape)
  entry := w.entry
  terminal := w.terminal

/-- A running task: the items that it has yet to send into each stream, and its response. -/
structure Job (α : Type) where
  left : List (List α)
  response : α

/-- One session.

* `pending`: the messages that wait at an operation, oldest first (`InputStorage`,
  src/input.rs:40-55, C07).
* `wakes`: how many times a join has been told of its buffers; these are messages `()`.
* `tasks`: the tasks of a node.
* `held`: the values in a buffer, newest first as in src/buffer/buffer_storage.rs:28-44.
* `checks`, `failures`, `status`: as in `Flow.State`.
* `outcome`: the entry of the session in `Staging`, src/operation/scope.rs:1292-1310.
* `log`: not in the code: every message that an operation was given. -/
structure State (α : Type) where
  pending : Nat → List α
  wakes : Nat → Nat
  tasks : Nat → List (Job α)
  held : Nat → List α
  checks : Nat
  failures : Nat
  status : Status
  outcome : Option α
  log : List (Nat × α)

/-- A session in which nothing has happened. -/
def blank : State α where
  pending := fun _ => []
  wakes := fun _ => 0
  tasks := fun _ => []
  held := fun _ => []
  checks := 0
  failures := 0
  status := .active
  outcome := none
  log := []

/-- One entry of a map is replaced. -/
def put {β : Type} (f : Nat → β) (n : Nat) (x : β) : Nat → β := fun m => if m = n then x else f m

/-- `give_input`, src/input.rs:140-150 with 188-260, see `Flow.give`. A new message is put at the
end of the queue. -/
def give (w : Work α) (s : State α) (p : Nat × α) : State α :=
  match w.ops.lookup p.1 with
  | none => { s with failures := s.failures + 1, status := .cancelled }
  | some .unused => { s with log := p :: s.log }
  | some _ => { s with
      pending := put s.pending p.1 (s.pending p.1 ++ [p.2])
      log := p :: s.log }

def giveAll (w : Work α) (s : State α) (ps : List (Nat × α)) : State α := ps.foldl (give w) s

/-- `emit_disposal`, src/disposal.rs:493-544. -/
def dispose (s : State α) : State α := { s with checks := s.checks + 1 }

/-- The messages for the outputs; lists that are missing count as empty. -/
def deal : List Nat → List (List α) → List (Nat × α)
  | [], _ => []
  | t :: ts, vs => ((vs.headD []).map fun v => (t, v)) ++ deal ts vs.tail

/-- An output gets nothing. -/
def lacks : List Nat → List (List α) → Bool
  | [], _ => false
  | _ :: ts, vs => (vs.headD []).isEmpty || lacks ts vs.tail

/-- The parts of a message for the targets of a fork, numbered from `i`. -/
def parts (part : Nat → α → α) (v : α) : Nat → List Nat → List (Nat × α)
  | _, [] => []
  | i, t :: ts => (t, part i v) :: parts part v (i + 1) ts

/-- `NotifyBufferUpdate` and the listeners of a buffer: src/operation/operate_buffer.rs:66-95,
each of them is told once. -/
def notify (w : Work α) (s : State α) (b : Nat) : State α :=
  { s with wakes := (Flow.listeners w.net b).foldl Flow.bump s.wakes }

/-- `buffered_count`, src/buffer/buffering.rs:405-418: none of the buffers is empty. -/
def ready (s : State α) (bs : List (Nat × Bool)) : Bool :=
  !bs.isEmpty && bs.all fun b => !(s.held b.1).isEmpty

/-- `fetch_for_join`, src/buffer/fetch_from_buffer.rs:128-175: the oldest value of each buffer, in
the order of the buffers; it is taken out of those that are not cloned. `none` when a buffer is
empty, which can happen when the join names it twice. -/
def fetch (held : Nat → List α) : List (Nat × Bool) → Option (List α × (Nat → List α))
  | [] => some ([], held)
  | b :: bs =>
    match (held b.1).getLast? with
    | none => none
    | some v =>
      match fetch (if b.2 then held else put held b.1 (held b.1).dropLast) bs with
      | none => none
      | some (vs, h) => some (v :: vs, h)

/-- `execute` of an operation on one message that it has taken from its inputs, see
`Flow.execute`. The terminal keeps the first message (src/operation/scope.rs:1324-1371; the
session has not ended before, as `step` says). -/
def execute (w : Work α) (s : State α) (n : Nat) (v : α) : Kind α → State α
  | .node true f _ _ items =>
    { s with tasks := put s.tasks n (s.tasks n ++ [⟨items v, f v⟩]) }
  | .node false f t ss items =>
    let s := giveAll w s (deal ss (items v))
    let s := if lacks ss (items v) then dispose s else s
    give w s (t, f v)
  | .fork ts part => giveAll w s (parts part v 0 ts)
  | .branch a b f =>
    match f v with
    | .inl u => dispose (give w s (a, u))
    | .inr u => give w (dispose s) (b, u)
  | .filter t f =>
    match f v with
    | none => dispose s
    | some u => give w s (t, u)
  | .spread t f =>
    let s' := giveAll w s ((f v).map fun u => (t, u))
    if (f v).isEmpty then dispose s' else s'
  | .split ts f =>
    let s' := giveAll w s (deal ts (f v))
    if lacks ts (f v) then dispose s' else s'
  | .buffer r => notify w { s with held := put s.held n (Buffer.implPush (s.held n) r v).1 } n
  | .join _ _ _ => s
  | .cancel => { s with status := .cancelled }
  | .terminate => { s with status := .terminated, outcome := some v }
  | .unused => s

/-- `execute` of a join that was told of its buffers, src/operation/join.rs:60-83. A value that
is missing breaks the operation, which cancels the session. -/
def fire (w : Work α) (s : State α) (bs : List (Nat × Bool)) (t : Nat) (pack : List α → α) :
    State α :=
  if ready s bs then
    match fetch s.held bs with
    | none => { s with failures := s.failures + 1, status := .cancelled }
    | some (vs, h) => give w { s with held := h } (t, pack vs)
  else s

/-- The session as `Verif.Flow` sees it. -/
def State.flat (s : State α) : Flow.State where
  pending := fun n => (s.pending n).length + s.wakes n
  tasks := fun n => (s.tasks n).length
  held := fun n => (s.held n).length
  checks := s.checks
  failures := s.failures
  status := s.status
  keys := fun _ => 0
  dropping := fun _ => 0
  made := fun _ => false
  gates := fun _ => none

/-- `validate_scope_reachability`, src/operation/scope.rs:1018-1099, see `Flow.validate`. -/
def validate (w : Work α) (s : State α) : State α :=
  match Graph.checkReachability (Flow.world w.net s.flat) 0 w.terminal with
  | .ok true => s
  | .ok false => { s with status := .cancelled }
  | _ => { s with failures := s.failures + 1 }

/-- What can happen next: an operation takes its oldest message; task `j` of node `n` sends the
next item of its stream `i`; it ends with its response; it is dropped before it ends; the scope is
told of a disposal. See `Flow.Ev`. -/
inductive Ev where
  | exec (n : Nat)
  | item (n j i : Nat)
  | finish (n j : Nat)
  | lose (n j : Nat)
  | check
  deriving DecidableEq, Repr

/-- A task may send its response when all of its items have been sent,
src/operation/operate_task.rs:246-256. -/
def Job.sent (job : Job α) (ss : List Nat) : Bool := (job.left.take ss.length).all (·.isEmpty)

def step (w : Work α) (s : State α) (e : Ev) : State α :=
  if s.status ≠ .active then s else
  match e with
  | .exec n =>
    match w.ops.lookup n with
    | none => s
    | some (.join bs t pack) =>
      if s.wakes n = 0 then s else fire w { s with wakes := Flow.drop s.wakes n } bs t pack
    | some k =>
      match s.pending n with
      | [] => s
      | v :: vs => execute w { s with pending := put s.pending n vs } n v k
  | .item n j i =>
    match w.ops.lookup n with
    | some (.node true _ _ ss _) =>
      match (s.tasks n)[j]?, ss[i]? with
      | some job, some m =>
        match job.left[i]? with
        | some (u :: us) =>
          give w { s with
            tasks := put s.tasks n ((s.tasks n).set j ⟨job.left.set i us, job.response⟩) } (m, u)
        | _ => s
      | _, _ => s
    | _ => s
  | .finish n j =>
    match w.ops.lookup n with
    | some (.node true _ t ss _) =>
      match (s.tasks n)[j]? with
      | some job =>
        if job.sent ss then
          let s := give w { s with tasks := put s.tasks n ((s.tasks n).eraseIdx j) }
            (t, job.response)
          if ss.isEmpty then s else dispose s
        else s
      | none => s
    | _ => s
  | .lose n j =>
    match w.ops.lookup n with
    | some (.node true _ _ _ _) =>
      if j < (s.tasks n).length then
        dispose { s with tasks := put s.tasks n ((s.tasks n).eraseIdx j) }
      else s
    | _ => s
  | .check =>
    if s.checks = 0 then s else validate w { s with checks := s.checks - 1 }

/-- The entry gets the request, `begin_scope_impl`, src/operation/scope.rs:598-628. -/
def received (w : Work α) (x : α) : State α := give w blank (w.entry, x)

/-- `begin_scope`, src/operation/scope.rs:485-566, see `Flow.start`. -/
def start (w : Work α) (x : α) : State α := validate w (received w x)

def run (w : Work α) (s : State α) (es : List Ev) : State α := es.foldl (step w) s

end Verif.Values

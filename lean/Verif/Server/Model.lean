/-
Model of the diagram execution server: HTTP handlers of run requests, which talk to the systems of
a bevy app through two channels. Source: /repo/diagram-editor/server/api/executor.rs.

Not covered: the debug endpoint (by reading, it cannot be compiled: line 219 awaits a pair), the
parsing of the request body, and what happens inside a workflow; how it ends is an event.
-/
namespace Verif.Server

/-- How the promise of a workflow ends, `PromiseState`, /repo/src/promise.rs:203-215. -/
inductive Outcome (V : Type) where
  | available (v : V)
  | cancelled (cause : V)
  | disposed
  deriving DecidableEq, Repr

/-- The response to a client: 200 with the value, 422 with the cause of the cancellation or the
error of the diagram (api/error_responses.rs), or 500. -/
inductive Resp (V : Type) where
  | ok (v : V)
  | cancelled (cause : V)
  | refused (err : V)
  | internal
  deriving DecidableEq, Repr

/-- `spawn_io_workflow` for a diagram, /repo/src/diagram.rs:494-534: a workflow, an error, or a
panic in a node builder of the user. -/
inductive Build (V : Type) where
  | ok
  | err (e : V)
  | panic
  deriving DecidableEq, Repr

/-- Where the handler `post_run` (executor.rs:68-126) of a request is.

* `sending`: it waits for room in the channel of requests (73-86).
* `queued`: the request is in the channel, the handler waits for the oneshot (88-94).
* `awaiting w`: it waits for the promise of workflow `w` (98).
* `releasing w r`: the promise is settled, it waits for room in the despawn channel (99-101).
* `answered r`: it has returned.
* `gone`: the client has closed the connection, so that axum has dropped the handler. -/
inductive Phase (V : Type) where
  | sending
  | queued
  | awaiting (w : Nat)
  | releasing (w : Nat) (r : Resp V)
  | answered (r : Resp V)
  | gone
  deriving DecidableEq, Repr

/-- A request with its handler. -/
structure Client (D V : Type) where
  diagram : D
  input : V
  phase : Phase V

/-- The handler was dropped. -/
def Client.gone {D V : Type} (k : Client D V) : Bool :=
  match k.phase with
  | .gone => true
  | _ => false

/-- A workflow that was spawned for a request; `owner`, `diagram` and `input` are kept so that
theorems can speak of them. `complete`: the diagram was built without an error. -/
structure Workflow (D V : Type) where
  owner : Nat
  diagram : D
  input : V
  complete : Bool
  alive : Bool
  outcome : Option (Outcome V)

/-- The server. `clients`: the requests by the order of their arrival, `arrived` of them.
`workflows`: the workflows in the order in which they were spawned, `made` of them. `inbox`: the
channel of requests, oldest first. `outbox`: the channel of workflows to be despawned. `accepted`
and `started` list the requests that were put into the channel and that were taken from it, for
theorems only. `up`: the thread of the app has not panicked. -/
structure Server (D V : Type) where
  clients : Nat → Option (Client D V)
  arrived : Nat
  workflows : Nat → Option (Workflow D V)
  made : Nat
  inbox : List Nat
  outbox : List Nat
  accepted : List Nat
  started : List Nat
  up : Bool

variable {D V : Type}

def initial : Server D V := ⟨fun _ => none, 0, fun _ => none, 0, [], [], [], [], true⟩

/-- The capacity of both channels, executor.rs:392-393. -/
def capacity : Nat := 10

def upd {α : Type} (f : Nat → α) (n : Nat) (a : α) : Nat → α := fun m => if m = n then a else f m

/-- The handler of request `c`, which is `k`, goes on to `p`. -/
def Server.setPhase (s : Server D V) (c : Nat) (k : Client D V) (p : Phase V) : Server D V :=
  { s with clients := upd s.clients c (some { k with phase := p }) }

/-- The response for a settled promise, executor.rs:103-117. -/
def respond : Outcome V → Resp V
  | .available v => .ok v
  | .cancelled c => .cancelled c
  | .disposed => .internal

/-- What can happen.

* `arrive d i`: a request with diagram `d` and input `i` comes in.
* `accept c`: the handler gets room in the channel, or an error if the app is gone (73-86).
* `execute`: one run of `execute_requests` (298-331).
* `settle w o`: workflow `w` ends.
* `deliver c`: the handler is polled and finds the promise settled.
* `release c`: the handler gets room in the despawn channel (or an error, which is logged) and
  returns.
* `sweep`: one run of `despawn_workflows` (359-370).
* `leave c`: the client closes the connection.
* `tick`: time passes. The `response_timeout` of the options (373-383) is stored in the state
  (404) and never read. -/
inductive Ev (D V : Type) where
  | arrive (d : D) (i : V)
  | accept (c : Nat)
  | execute
  | settle (w : Nat) (o : Outcome V)
  | deliver (c : Nat)
  | release (c : Nat)
  | sweep
  | leave (c : Nat)
  | tick

/-- A panic in a system ends the thread of the app (basic_executor.rs:98-106): its channels and
its world are dropped. Handlers that wait for the oneshot get an error, promises that are pending
are disposed. -/
def crash (s : Server D V) : Server D V :=
  { s with
    up := false
    inbox := []
    outbox := []
    clients := fun c => (s.clients c).map fun k =>
      match k.phase with
      | .queued => { k with phase := .answered .internal }
      | _ => k
    workflows := fun w => (s.workflows w).map fun f =>
      { f with alive := false, outcome := f.outcome.or (some .disposed) } }

/-- The workflow that `spawn_workflow` makes for the diagram of a request. If the diagram has an
error the entities that were spawned stay, and nobody knows them: /repo/src/diagram.rs:518-532,
/repo/src/workflow.rs:226-277. -/
def Server.spawn (s : Server D V) (c : Nat) (k : Client D V) (complete : Bool) : Server D V :=
  { s with
    workflows := upd s.workflows s.made (some ⟨c, k.diagram, k.input, complete, true, none⟩)
    made := s.made + 1 }

/-- `execute_requests`, executor.rs:298-331: one request is taken from the channel; the result is
put into the oneshot, which fails if the handler is gone. -/
def execute (build : D → Build V) (s : Server D V) : Server D V :=
  match s.inbox with
  | [] => s
  | c :: rest =>
    match s.clients c with
    | none => s
    | some k =>
      let s' := { s with inbox := rest, started := s.started ++ [c] }
      match build k.diagram with
      | .panic => crash s'
      | .err e =>
        if k.gone then s'.spawn c k false
        else (s'.spawn c k false).setPhase c k (.answered (.refused e))
      | .ok =>
        if k.gone then s'.spawn c k true
        else (s'.spawn c k true).setPhase c k (.awaiting s.made)

def step (build : D → Build V) (s : Server D V) : Ev D V → Server D V
  | .arrive d i =>
    { s with clients := upd s.clients s.arrived (some ⟨d, i, .sending⟩), arrived := s.arrived + 1 }
  | .accept c =>
    match s.clients c with
    | none => s
    | some k =>
      match k.phase with
      | .sending =>
        if s.up then
          if s.inbox.length < capacity then
            { s.setPhase c k .queued with inbox := s.inbox ++ [c], accepted := s.accepted ++ [c] }
          else s
        else s.setPhase c k (.answered .internal)
      | _ => s
  | .execute => if s.up then execute build s else s
  | .settle w o =>
    match s.workflows w with
    | none => s
    | some f =>
      if f.complete && f.alive && f.outcome.isNone then
        { s with workflows := upd s.workflows w (some { f with outcome := some o }) }
      else s
  | .deliver c =>
    match s.clients c with
    | none => s
    | some k =>
      match k.phase with
      | .awaiting w =>
        match (s.workflows w).bind (·.outcome) with
        | none => s
        | some o => s.setPhase c k (.releasing w (respond o))
      | _ => s
  | .release c =>
    match s.clients c with
    | none => s
    | some k =>
      match k.phase with
      | .releasing w r =>
        if s.up then
          if s.outbox.length < capacity then
            { s.setPhase c k (.answered r) with outbox := s.outbox ++ [w] }
          else s
        else s.setPhase c k (.answered r)
      | _ => s
  | .sweep =>
    if s.up then
      { s with
        outbox := []
        workflows := fun w => (s.workflows w).map fun f =>
          if s.outbox.contains w then { f with alive := false } else f }
    else s
  | .leave c =>
    match s.clients c with
    | none => s
    | some k =>
      match k.phase with
      | .answered _ => s
      | _ => s.setPhase c k .gone
  | .tick => s

def run (build : D → Build V) (s : Server D V) (es : List (Ev D V)) : Server D V :=
  es.foldl (step build) s

end Verif.Server

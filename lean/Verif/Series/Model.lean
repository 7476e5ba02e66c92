/-
Model of the impulse series: `commands.request(..).then(..).take()` and the like.

Sources: src/request.rs:88-126, src/series.rs:112-300, src/series/internal.rs:46-176,
src/series/taken.rs:28-104, src/series/push.rs:57-103, src/series/store.rs:43-59,
src/series/insert.rs, src/series/send_event.rs, src/stream/anonymous_stream.rs:104-138,
src/cancel.rs:285-310, 397-503, src/input.rs:173-262, src/operation.rs:677-735.

What the steps of a series compute is the environment: a step that was started emits stream
items, answers or breaks whenever it likes, see `Op`.

Left out: detached series and the dropping of series whose handle or promise is gone
(Verif/Drop), the entities that store, push and insert write to (taken to be alive), and the
types of messages, so that the collections of an entity are one list.
-/
namespace Verif.Series

/-- What the operation of an entity does when it is executed.
`idle`: an `UnusedTarget`, no operation yet. `step`: a provider that waits for its request.
`busy s`: a provider that works on a request of session `s`. `done`: a provider whose answer
was given. The rest are the executables of src/series. `Insert` does the same as `Store`, so
it is not listed. -/
inductive Kind where
  | idle
  | step
  | busy (session : Nat)
  | done
  | taken
  | takenStream
  | store (entity : Nat)
  | push (entity : Nat) (isStream : Bool)
  | event
  deriving DecidableEq, Repr

/-- An entity of a series: its `ChildOf`, its `SingleTargetStorage`, its operation, its
`InputStorage` (oldest first, with the session), its `StreamTargetMap` (stream type, target)
and whether it has an `OperationCancelStorage`. -/
structure Node where
  parent : Option Nat := none
  target : Option Nat := none
  kind : Kind := .idle
  inputs : List (Nat × Nat) := []
  streams : List (Nat × Nat) := []
  cancellable : Bool := false
  deriving DecidableEq, Repr

/-- How a promise is resolved. -/
inductive Outcome where
  | sent (value : Nat)
  | cancelled
  deriving DecidableEq, Repr

/-- The world. `next` is the next entity, `queue` the roster, `outcomes` what the promises were
told (a promise goes by the entity of its `TakenResponse`), `received` what the receivers of
streams were sent (a receiver goes by the entity of its `TakenStream`), `stored` the `Storage`s
and `collected` the items of the `Collection`s (entity, session, value) in the order of
writing, `events` the events, `errors` the number of unhandled errors. -/
structure World where
  nodes : Nat → Option Node := fun _ => none
  next : Nat := 0
  queue : List Nat := []
  outcomes : List (Nat × Outcome) := []
  received : List (Nat × Nat) := []
  stored : List (Nat × Nat × Nat) := []
  collected : List (Nat × Nat × Nat) := []
  events : List Nat := []
  errors : Nat := 0

/-- Overwrite an entity. -/
def World.set (w : World) (x : Nat) (n : Node) : World :=
  { w with nodes := fun y => if y = x then some n else w.nodes y }

/-- Whether walking `fuel` times from a child to its parent leads from `y` to `x`. -/
def World.under (w : World) (x : Nat) : Nat → Nat → Bool
  | 0, y => y = x
  | fuel + 1, y => y = x ||
    match w.nodes y with
    | none => false
    | some n =>
      match n.parent with
      | none => false
      | some p => w.under x fuel p

/-- `EntityWorldMut::despawn`, which despawns the children too (bevy_ecs). There are at most
`next` entities, so that many walks from child to parent are enough. -/
def World.despawn (w : World) (x : Nat) : World :=
  { w with nodes := fun y => if w.under x w.next y then none else w.nodes y }

/-- `give_input`, src/input.rs:173-262. An unused target accepts and forgets its input and is
put in the roster all the same. `SessionStatus` of a series is never anything but `Active`, so
a session is active as long as its entity lives. -/
def World.give (w : World) (t session v : Nat) : World :=
  match w.nodes t with
  | none => { w with errors := w.errors + 1 }
  | some n =>
    if (w.nodes session).isNone then w
    else if n.kind = .idle then { w with queue := w.queue ++ [t] }
    else
      let w := w.set t { n with inputs := n.inputs ++ [(session, v)] }
      { w with queue := w.queue ++ [t] }

/-- `Commands::request`, src/request.rs:88-126: the target is spawned first, the source is its
child and its input is the request, the session of which is the source itself. -/
def World.request (w : World) (v : Nat) : World :=
  let t := w.next
  let s := w.next + 1
  let w := w.set t {}
  let w := w.set s
    { parent := some t, target := some t, kind := .step, inputs := [(s, v)],
      cancellable := true }
  { w with next := w.next + 2, queue := w.queue ++ [s] }

/-- `Series::then`, src/series.rs:145-172. -/
def World.next' (w : World) (t : Nat) : World :=
  match w.nodes t with
  | none => w
  | some n =>
    if n.kind = .idle then
      let u := w.next
      let w := w.set u {}
      let w := w.set t
        { n with parent := some u, target := some u, kind := .step, cancellable := true }
      { w with next := w.next + 1 }
    else w

/-- `AddExecution::apply` on the terminal of a series, src/series/internal.rs:62-88. The
parent of the source is the target already. -/
def World.finishWith (w : World) (t : Nat) (k : Kind) : World :=
  match w.nodes t with
  | none => w
  | some n => if n.kind = .idle then w.set t { n with kind := k, cancellable := true } else w

/-- One stream of `StreamPack::take_streams` or `StreamPack::collect_streams`: a child that
executes `k`, src/stream/anonymous_stream.rs:104-138 and `AddExecution::apply`. -/
def World.child (w : World) (parent : Nat) (k : Kind) : World :=
  let w := w.set w.next { parent := some parent, kind := k, cancellable := true }
  { w with next := w.next + 1 }

/-- All streams of the pack, filling the fresh `StreamTargetMap`,
src/stream/stream_target_map.rs:40-62 (the streams of a pack have different types). -/
def World.children (w : World) (parent : Nat) (k : Kind) :
    List Nat → List (Nat × Nat) → World × List (Nat × Nat)
  | [], map => (w, map)
  | ty :: tys, map => (w.child parent k).children parent k tys (map ++ [(ty, w.next)])

/-- `commands.entity(source).insert(map)`: whatever map the source had is replaced,
src/series.rs:123, 247, 264, 290. -/
def World.putMap (w : World) (s : Nat) (map : List (Nat × Nat)) : World :=
  match w.nodes s with
  | none => w
  | some n => w.set s { n with streams := map }

/-- Whether there is a `Series` with this source and this target that was not used up. -/
def World.handle (w : World) (s t : Nat) : Bool :=
  match w.nodes s, w.nodes t with
  | some a, some b => a.target = some t && b.kind = .idle
  | _, _ => false

/-- Set up the streams of a series and then its map. -/
def World.streams (w : World) (s parent : Nat) (k : Kind) (tys : List Nat) : World :=
  let r := w.children parent k tys []
  r.1.putMap s r.2

/-- `Series::take`, src/series.rs:112-131. -/
def World.take (w : World) (s t : Nat) (tys : List Nat) : World :=
  if w.handle s t then (w.finishWith t .taken).streams s t .takenStream tys else w

/-- `Series::take_response`, src/series.rs:134-142. -/
def World.takeResponse (w : World) (s t : Nat) : World :=
  if w.handle s t then w.finishWith t .taken else w

/-- `Series::store`, src/series.rs:236-249. -/
def World.store (w : World) (s t e : Nat) (tys : List Nat) : World :=
  if w.handle s t then (w.finishWith t (.store e)).streams s s (.push e true) tys else w

/-- `Series::collect_streams`, src/series.rs:255-273. The handle can be used further, as one
without streams. -/
def World.collect (w : World) (s t e : Nat) (tys : List Nat) : World :=
  if w.handle s t then w.streams s s (.push e true) tys else w

/-- `Series::push`, src/series.rs:282-293. -/
def World.push (w : World) (s t e : Nat) (tys : List Nat) : World :=
  if w.handle s t then (w.finishWith t (.push e false)).streams s s (.push e true) tys else w

/-- `Series::send_event`, src/series.rs, which leaves the stream map alone. -/
def World.sendEvent (w : World) (s t : Nat) : World :=
  if w.handle s t then w.finishWith t .event else w

/-- Execute the operation at the front of the roster, src/operation.rs:677-701. Entities that
are gone or have no operation are passed over. -/
def World.exec (w : World) : World :=
  match w.queue with
  | [] => w
  | x :: rest =>
    let w := { w with queue := rest }
    match w.nodes x with
    | none => w
    | some n =>
      match n.inputs with
      | [] => w
      | (s, v) :: more =>
        match n.kind with
        | .idle => w
        | .busy _ => w
        | .done => w
        -- the provider takes its request
        | .step => w.set x { n with inputs := more, kind := .busy s }
        -- `TakenResponse::execute`, src/series/taken.rs:55-63
        | .taken =>
          let w : World := { w with outcomes := w.outcomes ++ [(x, .sent v)] }
          w.despawn x
        -- `TakenStream::execute`, src/series/taken.rs:82-88
        | .takenStream =>
          { w.set x { n with inputs := more } with received := w.received ++ [(x, v)] }
        -- `Store::execute`, src/series/store.rs:49-58
        | .store e =>
          let w : World := { w with stored := w.stored ++ [(e, s, v)] }
          w.despawn x
        -- `Push::execute`, src/series/push.rs:67-102
        | .push e isStream =>
          let w := { w.set x { n with inputs := more } with
            collected := w.collected ++ [(e, s, v)] }
          if isStream then w.despawn x else w
        -- `SendEvent::execute`, src/series/send_event.rs:42-48
        | .event =>
          let w : World := { w with events := w.events ++ [v] }
          w.despawn x

/-- The provider of a step emits a stream item, src/stream/stream_channel.rs:33-55: an item
for which the map has no target is dropped. -/
def World.emit (w : World) (x ty v : Nat) : World :=
  match w.nodes x with
  | none => w
  | some n =>
    match n.kind with
    | .busy s =>
      match n.streams.find? fun e => e.1 = ty with
      | none => w
      | some e => w.give e.2 s v
    | _ => w

/-- The provider of a step answers: the answer is given to the target. -/
def World.respond (w : World) (x v : Nat) : World :=
  match w.nodes x with
  | none => w
  | some n =>
    match n.kind, n.target with
    | .busy s, some t => (w.set x { n with kind := .done }).give t s v
    | _, _ => w

/-- The walk of `cancel_execution` along `SingleTargetStorage`,
src/series/internal.rs:136-143. -/
def World.walk (w : World) : Nat → Nat → Nat
  | 0, x => x
  | fuel + 1, x =>
    match w.nodes x with
    | none => x
    | some n =>
      match n.target with
      | none => x
      | some t => w.walk fuel t

/-- `cancel_execution`, src/series/internal.rs:129-176, with `cancel_taken_target`,
src/series/taken.rs:91-104, which is the only `OnTerminalCancelled`. -/
def World.cancelExecution (w : World) (x : Nat) : World :=
  let t := w.walk w.next x
  match w.nodes t with
  | none => w
  | some n =>
    let w : World := if n.kind = .taken then { w with outcomes := w.outcomes ++ [(t, .cancelled)] } else w
    w.despawn t

/-- `Cancel::trigger`, src/cancel.rs:272-308. -/
def World.cancel (w : World) (x : Nat) : World :=
  match w.nodes x with
  | none => { w with errors := w.errors + 1 }
  | some n =>
    if n.cancellable then w.cancelExecution x else { w with errors := w.errors + 1 }

/-- The operation of a step returns `OperationError::Broken`, src/operation.rs:730-732. Then
`emit_broken` is called, which knows of no session; as steps of a series have no scope either,
nothing but an unhandled error comes of it, src/cancel.rs:417-433, 464-503. -/
def World.breaks (w : World) (x : Nat) : World :=
  match w.nodes x with
  | none => w
  | some n =>
    match n.kind with
    | .busy _ => { w.set x { n with kind := .done } with errors := w.errors + 1 }
    | _ => w

/-- What can happen. -/
inductive Op where
  | request (v : Nat)
  | next' (t : Nat)
  | take (s t : Nat) (tys : List Nat)
  | takeResponse (s t : Nat)
  | store (s t e : Nat) (tys : List Nat)
  | collect (s t e : Nat) (tys : List Nat)
  | push (s t e : Nat) (tys : List Nat)
  | sendEvent (s t : Nat)
  | exec
  | emit (x ty v : Nat)
  | respond (x v : Nat)
  | cancel (x : Nat)
  | breaks (x : Nat)
  deriving DecidableEq, Repr

/-- One step. -/
def World.step (w : World) : Op → World
  | .request v => w.request v
  | .next' t => w.next' t
  | .take s t tys => w.take s t tys
  | .takeResponse s t => w.takeResponse s t
  | .store s t e tys => w.store s t e tys
  | .collect s t e tys => w.collect s t e tys
  | .push s t e tys => w.push s t e tys
  | .sendEvent s t => w.sendEvent s t
  | .exec => w.exec
  | .emit x ty v => w.emit x ty v
  | .respond x v => w.respond x v
  | .cancel x => w.cancel x
  | .breaks x => w.breaks x

/-- A run from the empty world. -/
def run (ops : List Op) : World := ops.foldl World.step {}

end Verif.Series

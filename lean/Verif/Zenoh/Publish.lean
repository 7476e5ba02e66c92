/-
Model of the node `zenoh_publisher` (`/repo/src/diagram/zenoh/register_zenoh_publisher.rs`).

One node has one job (lines 201-261 and 277-280): a detached request that creates the publisher, and then takes
items from a channel, encodes and publishes them one at a time, and answers each through a
one-shot channel. Every message that arrives at the node makes a task that waits for that answer.

A message is known by its *ticket*: its position in the order of arrival. The future of the job
and of the tasks are modelled by the places at which they can be waiting; each event is what
happens from one such place to the next. What the network does, and when, is up to the events.
-/

namespace Verif.Zenoh.Publish

/-- `OrderingConfig` (lines 81-93). -/
inductive Ordering
  | strict
  | loose
  deriving DecidableEq

/-- `ZenohPublisherError` (lines 152-161). `sessionRemoved` is one of the errors with which the
publisher cannot be created, so it is an `E` here. -/
inductive Error (E : Type)
  | encoding (e : String)
  | dropped
  | zenoh (e : E)
  deriving DecidableEq

/-- `Payload` (lines 171-174). -/
inductive Payload (M B : Type)
  | encoded (b : B)
  | unencoded (m : M)
  deriving DecidableEq

/-- What the job does with the network: `publisher.put(..)` (lines 247-251) is begun, and ends. -/
inductive Log (B E : Type)
  | start (t : Nat) (b : B)
  | finish (t : Nat) (r : Except E Unit)

/-- A node and its job. `arrived` and `log` are histories. `answers` has what was sent to the
task of a ticket (or, if the task found the channel closed, what it makes of that). `lost` has the
tickets whose tasks were dropped before they had encoded their message. -/
structure St (M B E : Type) where
  ordering : Ordering
  arrived : List M := []
  encoding : List (M × Nat) := []
  queue : List (Payload M B × Nat) := []
  publisher : Option (Except (Error E) Unit) := none
  busy : Option Nat := none
  alive : Bool := true
  lost : List Nat := []
  log : List (Log B E) := []
  answers : List (Nat × Except (Error E) Unit) := []

/-- What can happen to a node. -/
inductive Ev (M E : Type)
  /-- a message arrives at the node -/
  | arrive (m : M)
  /-- the task of ticket `t` is polled, and encodes its message (loose ordering) -/
  | encode (t : Nat)
  /-- the task of ticket `t` is dropped: its session is cleaned up -/
  | abandon (t : Nat)
  /-- the creation of the publisher is over (lines 209-231) -/
  | created (r : Except E Unit)
  /-- the job takes an item from the channel -/
  | take
  /-- the put that the job waits for is over -/
  | finished (r : Except E Unit)
  /-- the job is dropped -/
  | drop

variable {M B E : Type}

/-- `Payload::encode` (lines 176-185). -/
def Payload.encode (enc : M → Except String B) : Payload M B → Except (Error E) B
  | .encoded b => .ok b
  | .unencoded m =>
    match enc m with
    | .ok b => .ok b
    | .error e => .error (.encoding e)

/-- `.map_err(ArcError::new)` and the conversion by `?` (lines 228, 251). -/
def mapErr : Except E Unit → Except (Error E) Unit
  | .ok () => .ok ()
  | .error e => .error (.zenoh e)

def St.answer (s : St M B E) (t : Nat) (r : Except (Error E) Unit) : St M B E :=
  { s with answers := s.answers ++ [(t, r)] }

/-- `publishing_sender.send(..)` and, should it fail, what the task makes of it (lines 289-292
and 308-310). -/
def St.send (s : St M B E) (p : Payload M B) (t : Nat) : St M B E :=
  if s.alive then { s with queue := s.queue ++ [(p, t)] } else s.answer t (.error .dropped)

/-- The callback of the node (lines 282-320): with strict ordering the message is sent at once,
when the callback is called; with loose ordering the task is to encode it first. -/
def St.arrive (s : St M B E) (m : M) : St M B E :=
  let t := s.arrived.length
  let s : St M B E := { s with arrived := s.arrived ++ [m] }
  match s.ordering with
  | .strict => s.send (.unencoded m) t
  | .loose => { s with encoding := s.encoding ++ [(m, t)] }

/-- Lines 302-312. -/
def St.encode (enc : M → Except String B) (s : St M B E) (t : Nat) : St M B E :=
  match s.encoding.find? (·.2 = t) with
  | none => s
  | some (m, _) =>
    let s : St M B E := { s with encoding := s.encoding.filter (·.2 ≠ t) }
    match enc m with
    | .ok b => s.send (.encoded b) t
    | .error e => s.answer t (.error (.encoding e))

/-- One turn of the loop of the job (lines 233-258), up to the put. -/
def St.take (enc : M → Except String B) (s : St M B E) : St M B E :=
  if s.alive && s.busy.isNone then
    match s.publisher, s.queue with
    | none, _ | _, [] => s
    | some (.error e), (_, t) :: rest => 
      let s : St M B E := { s with queue := rest }
      s.answer t (.error e)
    | some (.ok ()), (p, t) :: rest =>
      let s : St M B E := { s with queue := rest }
      match p.encode enc with
      | .error e => s.answer t (.error e)
      | .ok b => { s with busy := some t, log := s.log ++ [.start t b] }
  else s

/-- The rest of the turn (lines 250-257). -/
def St.finished (s : St M B E) (r : Except E Unit) : St M B E :=
  match s.busy with
  | none => s
  | some t =>
    let s : St M B E := { s with busy := none, log := s.log ++ [.finish t r] }
    s.answer t (mapErr r)

/-- The future of the job is dropped, and with it the receiver of the channel, what is in it, and
the responder of the item in hand: the tasks see that their one-shot channel is closed
(lines 316-319). -/
def St.drop (s : St M B E) : St M B E :=
  let tickets := s.busy.toList ++ s.queue.map (·.2)
  { s with
    alive := false
    busy := none
    queue := []
    answers := s.answers ++ tickets.map fun t => (t, .error .dropped) }

def step (enc : M → Except String B) (s : St M B E) : Ev M E → St M B E
  | .arrive m => s.arrive m
  | .encode t => s.encode enc t
  | .abandon t =>
    match s.encoding.find? (·.2 = t) with
    | none => s
    | some _ => { s with encoding := s.encoding.filter (·.2 ≠ t), lost := s.lost ++ [t] }
  | .created r =>
    if s.alive && s.publisher.isNone then
      { s with publisher := some (mapErr r) } else s
  | .take => s.take enc
  | .finished r => s.finished r
  | .drop => s.drop

def run (enc : M → Except String B) (s : St M B E) (vs : List (Ev M E)) : St M B E :=
  vs.foldl (step enc) s

/-- A node that was just built. -/
def St.init (o : Ordering) : St M B E := { ordering := o }

end Verif.Zenoh.Publish

/-
Model of `dispatch_service`, /repo/src/service/internal.rs:175-243: requests that are
dispatched while another request is being dispatched go into a queue which the outer call
works off.

A request is dispatched inside of another one when the service that is being run flushes
the execution itself, e.g. a blocking service with access to the whole `World` that runs a
schedule which contains `flush_execution` (/repo/src/flush.rs:86-90). What such a service
does is arbitrary here: a list of actions for every request that is served. What the
flush does with removed services on its own is not part of this model (see
Verif/Gone/Model).
-/
namespace Verif.Gone.Dispatch

/-- What happens to the requests: one was made, the service was run for it, or it was disposed of as
`ServiceUnavailable`. -/
inductive Rec where
  | arrived (node session : Nat)
  | served (node session : Nat)
  | unavailable (node session : Nat)
  deriving DecidableEq, Repr

/-- `PendingServiceRequest`, src/service/internal.rs:145-151 (target and instructions do not
matter here). -/
structure Pending where
  provider : Nat
  node : Nat
  deriving DecidableEq, Repr

/-- The services that exist, the inputs that wait in front of their nodes (node and session,
oldest first) and the resource `ServiceQueue` (src/service/internal.rs:186-199). -/
structure D where
  present : Nat → Bool
  inputs : List (Nat × Nat) := []
  queue : List Pending := []
  delivering : Bool := false
  log : List Rec := []

/-- What a service may do while it runs. -/
inductive Act where
  | arrive (node session : Nat)
  | remove (service : Nat)
  | execute (node : Nat)
  deriving DecidableEq, Repr

section
-- `svc` is the service of a node (`ProviderStorage`).
variable (svc : Nat → Nat)

/-- `dispose_for_despawned_service`, src/operation/operate_service.rs:147-181: the inputs of
all nodes that use `service` are taken out and disposed of. -/
def disposeFor (service : Nat) (d : D) : D :=
  { d with
    inputs := d.inputs.filter fun i => svc i.1 != service
    log := d.log ++ (d.inputs.filter fun i => svc i.1 == service).map
      fun i => .unavailable i.1 i.2 }

/-- An action of a service that is being run. A node that is executed then only puts its
request into the queue, since `is_delivering` is set (src/service/internal.rs:220-228). -/
def act (d : D) : Act → D
  | .arrive node session => { d with
      inputs := d.inputs ++ [(node, session)]
      log := d.log ++ [.arrived node session] }
  | .remove s => { d with present := fun x => if x = s then false else d.present x }
  | .execute node => { d with queue := d.queue ++ [⟨svc node, node⟩] }

/-- The loop of `dispatch_service`, src/service/internal.rs:232-241. `outer` is the provider of
the request that the loop was entered with; line 236 disposes for that one, whatever request
was taken from the queue. `scripts` says what the services do that are run. `fuel` bounds
the loop. -/
def loop (outer : Nat) : Nat → List (List Act) → D → D
  | 0, _, d => d
  | fuel + 1, scripts, d =>
    match d.queue.getLast? with
    | none => { d with delivering := false }
    | some p =>
      let d' : D := { d with queue := d.queue.dropLast }
      if d.present p.provider then
        match d.inputs.find? (fun i => i.1 == p.node) with
        | none => loop outer fuel scripts d'
        | some i =>
          let d'' : D := { d' with
            inputs := d.inputs.erase i
            log := d.log ++ [.served i.1 i.2] }
          loop outer fuel scripts.tail ((scripts.head?.getD []).foldl (act svc) d'')
      else loop outer fuel scripts (disposeFor svc outer d')

/-- More than the number of times that the loop can go round. -/
def fuelFor (scripts : List (List Act)) (d : D) : Nat :=
  d.queue.length + (scripts.map List.length).sum + 2

/-- `dispatch_service`, src/service/internal.rs:201-243, called by the flush. -/
def dispatch (node : Nat) (scripts : List (List Act)) (d : D) : D :=
  let d' : D := { d with queue := d.queue ++ [⟨svc node, node⟩] }
  if d.delivering then d'
  else loop svc (svc node) (fuelFor scripts d) scripts { d' with delivering := true }

/-- What the flush does, or what happens between flushes. -/
inductive Ev where
  | arrive (node session : Nat)
  | remove (service : Nat)
  | execute (node : Nat) (scripts : List (List Act))
  deriving DecidableEq, Repr

/-- One event. -/
def step (d : D) : Ev → D
  | .arrive node session => act svc d (.arrive node session)
  | .remove s => act svc d (.remove s)
  | .execute node scripts => dispatch svc node scripts d

/-- A sequence of events, from the state in which all services exist. -/
def run (es : List Ev) : D := es.foldl (step svc) { present := fun _ => true }

end

end Verif.Gone.Dispatch

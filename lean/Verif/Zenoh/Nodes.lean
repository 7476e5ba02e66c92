/-
Model of the nodes `zenoh_subscription` and `zenoh_querier`
(`/repo/src/diagram/zenoh/register_zenoh_subscription.rs` and `register_zenoh_querier.rs`).

Each input of such a node makes a task, here called a *run*. A run waits for the session and for
zenoh to set up the subscription (or to send the query), and then passes on what comes through a
channel of zenoh, in a race with a cancellation that may come through the `canceller` that the run
gives out. A poll of the task is one event; between polls the channels fill up.

The race (`futures_lite::future::race`) polls its two futures in an arbitrary order: the events
say which.
-/

namespace Verif.Zenoh.Nodes

/-- How runs end. `C` is the type of messages (and of cancellations), `E` of errors. -/
inductive Result (C E : Type)
  | ok (c : C)
  | error (e : E)
  | alreadyActive
  deriving DecidableEq

/-- Where a run is. -/
inductive Phase (C E : Type)
  /-- another run is active: the task ends at its first poll
  (register_zenoh_subscription.rs:156-157) -/
  | rejected
  /-- setting up; `some` when that is over -/
  | opening (r : Option (Except E Unit))
  /-- in the loop -/
  | receiving
  /-- the loop is over, the command to clear the buffer was sent; `true` when it was executed
  (register_zenoh_subscription.rs:231-241) -/
  | clearing (r : Result C E) (cleared : Bool)
  /-- the task is in a poll that does not return -/
  | stuck
  | done (r : Result C E)
  /-- dropped with its session -/
  | dropped

/-- A run. `arrived` is the history of what zenoh has put into the channel, `inbox` what is still
there. `outs` is what went to the streams `out` and `out_error`, in order. -/
structure Run (I O C E : Type) where
  session : Nat
  phase : Phase C E
  arrived : List I := []
  inbox : List I := []
  closed : Bool := false
  signals : List C := []
  outs : List O := []

variable {I O C E : Type}

/-- What distinguishes the two nodes: what comes out for an item (register_zenoh_subscription.rs:
201-218, register_zenoh_querier.rs:237-254), and how the loop ends when the channel is closed:
the one of a querier ends with `JsonMessage::default()` (register_zenoh_querier.rs:256), the one of
a subscription sends `closedItem` to `out_error` and goes on
(register_zenoh_subscription.rs:202-208). -/
structure Kind (I O C E : Type) where
  item : I → O
  onClosed : Option C
  closedItem : O

/-- What a turn of the loop can lead to. -/
inductive Turn (R C E : Type)
  | again (r : R)
  | wait (r : R)
  | over (r : R) (res : Result C E)

/-- One turn of the loop: the next item, or what happens if there is none. -/
def Run.turn (k : Kind I O C E) (r : Run I O C E) : Turn (Run I O C E) C E :=
  match r.inbox with
  | x :: rest => .again { r with inbox := rest, outs := r.outs ++ [k.item x] }
  | [] =>
    if r.closed then
      match k.onClosed with
      | some c => .over r (.ok c)
      | none => .again { r with outs := r.outs ++ [k.closedItem] }
    else .wait r

/-- The loop for `n` turns. `none`: it has not come to a place where it waits or ends. -/
def Run.loop (k : Kind I O C E) : Nat → Run I O C E → Option (Run I O C E × Option (Result C E))
  | 0, _ => none
  | n + 1, r =>
    match r.turn k with
    | .again r => r.loop k n
    | .wait r => some (r, none)
    | .over r res => some (r, some res)

/-- A poll of the working half of the race: set-up errors end it, and the loop begins when the
set-up is over. The loop gets as many turns as it can need: see `loop_enough` in `NodesLemmas`. -/
def Run.work (k : Kind I O C E) (r : Run I O C E) :
    Option (Run I O C E × Option (Result C E)) :=
  match r.phase with
  | .opening none => some (r, none)
  | .opening (some (.error e)) => some (r, some (.error e))
  | .opening (some (.ok ())) =>
    Run.loop k (r.inbox.length + 1) { r with phase := .receiving }
  | .receiving => r.loop k (r.inbox.length + 1)
  | _ => some (r, none)

/-- A poll of the race between the work and the cancellation
(register_zenoh_subscription.rs:221-225, register_zenoh_querier.rs:258-259). `receive_cancel`
(zenoh.rs:261-273) ends with the first signal, and never if there will be none. -/
def Run.race (k : Kind I O C E) (r : Run I O C E) (cancelFirst : Bool) :
    Option (Run I O C E × Option (Result C E)) :=
  match cancelFirst, r.signals with
  | true, c :: _ => some (r, some (.ok c))
  | _, signals =>
    match r.work k with
    | none => none
    | some (r, some res) => some (r, some res)
    | some (r, none) => some (r, signals.head?.map .ok)

/-- What happens to a run (of a querier, and, but for the poll, of a subscription). -/
inductive QEv (I C E : Type)
  | opened (r : Except E Unit)
  | item (x : I)
  | close
  | cancel (c : C)
  | poll (cancelFirst : Bool)

/-- A run of a querier on its own (register_zenoh_querier.rs:203-261). That the querier is shared,
the encoding of the request, the wait for a matching queryable and the sending of the query are all
part of the set-up here. -/
def Run.qstep (k : Kind I O C E) (r : Run I O C E) : QEv I C E → Run I O C E
  | .opened res =>
    match r.phase with
    | .opening none => { r with phase := .opening (some res) }
    | _ => r
  | .item x =>
    if r.closed then r else { r with arrived := r.arrived ++ [x], inbox := r.inbox ++ [x] }
  | .close => { r with closed := true }
  | .cancel c => { r with signals := r.signals ++ [c] }
  | .poll b =>
    match r.phase with
    | .opening _ | .receiving =>
      match r.race k b with
      | none => { r with phase := .stuck }
      | some (r, none) => r
      | some (r, some res) => { r with phase := .done res }
    | _ => r

def Run.qrun (k : Kind I O C E) (r : Run I O C E) (vs : List (QEv I C E)) : Run I O C E :=
  vs.foldl (Run.qstep k) r

/-- A subscription node: its runs, the buffer that marks whether it is active in a session
(`KeepLast(1)`, so it has at most one value), the commands that its runs have sent (the number of the run and its
session, which is in the key of the buffer), and the sessions that have ended. -/
structure Node (I O C E : Type) where
  runs : List (Run I O C E) := []
  active : Nat → Nat := fun _ => 0
  commands : List (Nat × Nat) := []
  ended : Nat → Bool := fun _ => false

/-- What happens to a node. `i` is the number of a run, `s` a session. -/
inductive Ev (I C E : Type)
  | trigger (s : Nat)
  | opened (i : Nat) (r : Except E Unit)
  | item (i : Nat) (x : I)
  | close (i : Nat)
  | cancel (i : Nat) (c : C)
  | poll (i : Nat) (cancelFirst : Bool)
  | command
  | cleanup (s : Nat)

def Node.setRun (w : Node I O C E) (i : Nat) (r : Run I O C E) : Node I O C E :=
  { w with runs := w.runs.set i r }

/-- A new input. A subscription looks whether it is active (register_zenoh_subscription.rs:135-147);
no input comes for a session that has ended (see `Residue`). -/
def Node.trigger (w : Node I O C E) (s : Nat) : Node I O C E :=
  if w.ended s then w
  else if w.active s = 0 then
    { w with
      runs := w.runs ++ [{ session := s, phase := .opening none }]
      active := fun x => if x = s then 1 else w.active x }
  else { w with runs := w.runs ++ [{ session := s, phase := .rejected }] }

/-- The race is over: the task sends its command and waits for it
(register_zenoh_subscription.rs:231-241). -/
def Node.over (w : Node I O C E) (i : Nat) (r : Run I O C E) (res : Result C E) : Node I O C E :=
  { w.setRun i { r with phase := .clearing res false } with
    commands := w.commands ++ [(i, r.session)] }

/-- A poll of the task of a subscription. -/
def Node.poll (k : Kind I O C E) (w : Node I O C E) (i : Nat) (cancelFirst : Bool) :
    Node I O C E :=
  match w.runs[i]? with
  | none => w
  | some r =>
    match r.phase with
    | .rejected => w.setRun i { r with phase := .done .alreadyActive }
    | .clearing res true => w.setRun i { r with phase := .done res }
    | .opening _ | .receiving =>
      match r.race k cancelFirst with
      | none => w.setRun i { r with phase := .stuck }
      | some (r, none) => w.setRun i r
      | some (r, some res) => w.over i r res
    | _ => w

/-- The promise of the command is resolved. -/
def Run.cleared (r : Run I O C E) : Run I O C E :=
  match r.phase with
  | .clearing res _ => { r with phase := .clearing res true }
  | _ => r

/-- In order: an input, the end of the set-up, an item of zenoh, the end of its channel, a
cancellation, a poll, the execution of the first command in the channel, the end of a session: its
tasks are dropped and its buffers cleared. -/
def Node.step (k : Kind I O C E) (w : Node I O C E) : Ev I C E → Node I O C E
  | .trigger s => w.trigger s
  | .opened i res => { w with runs := w.runs.modify i (Run.qstep k · (.opened res)) }
  | .item i x => { w with runs := w.runs.modify i (Run.qstep k · (.item x)) }
  | .close i => { w with runs := w.runs.modify i (Run.qstep k · .close) }
  | .cancel i c => { w with runs := w.runs.modify i (Run.qstep k · (.cancel c)) }
  | .poll i b => w.poll k i b
  | .command =>
    match w.commands with
    | [] => w
    | (i, s) :: rest =>
      { w with
        runs := w.runs.modify i Run.cleared
        commands := rest
        active := fun x => if x = s then 0 else w.active x }
  | .cleanup s =>
    { w with
      runs := w.runs.map fun r => if r.session = s then { r with phase := .dropped } else r
      active := fun x => if x = s then 0 else w.active x
      ended := fun x => if x = s then true else w.ended x }

def Node.run (k : Kind I O C E) (w : Node I O C E)
    (vs : List (Ev I C E)) : Node I O C E := vs.foldl (Node.step k) w

end Verif.Zenoh.Nodes

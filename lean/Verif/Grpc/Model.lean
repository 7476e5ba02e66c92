/-
Model of a call of the nodes `grpc_request` and `grpc_client_stream_out`
(`/repo/src/diagram/grpc.rs`): `execute` (lines 308-376) and what comes before it in the task
(lines 139-157, 197-213).

What the server and the network do are events: the connection is made or fails, the client becomes
ready, the response to the call comes, a message comes (or a status that ends the stream), the
stream ends, a timer runs out. A poll of the task is one event; it goes on until the task waits for
something or ends.

Not modelled: what is sent to the server; the conversion between messages and JSON (`M` is the type
of converted messages, a failure of the conversion is an error that comes in the place of the
message); that the task runs on another runtime and is aborted when the node's task is dropped.
-/

namespace Verif.Grpc

/-- The parts of the configuration that matter here: whether there is a timeout, and whether the
method is server streaming. -/
structure Config where
  timeout : Bool
  streaming : Bool

/-- Why a call fails. -/
inductive Why (C E : Type)
  | failed (e : E)
  | timedOut
  | cancelled (c : C)
  deriving DecidableEq

inductive Phase (C E : Type)
  /-- `client.await?` (grpc.rs:141, 199) -/
  | connecting
  /-- the first `client.ready().await` (grpc.rs:321) -/
  | first
  /-- the second one, which is under the timeout (grpc.rs:322-332) -/
  | second
  /-- waiting for the response (grpc.rs:340-350) -/
  | calling
  /-- in the loop (grpc.rs:353-375) -/
  | receiving
  | done (r : Except (Why C E) Unit)

/-- A call. `connected`, `ready1`, `ready2` and `response` are what the waits before the loop end
with, if they are over. `inbox` is what the server has sent and `arrived` the history of it.
`late` tells that the timer of the present wait has run out; each wait has its own timer. -/
structure Call (M C E : Type) where
  phase : Phase C E := .connecting
  connected : Option (Except E Unit) := none
  ready1 : Option (Except E Unit) := none
  ready2 : Option (Except E Unit) := none
  response : Option (Except E Unit) := none
  arrived : List (Except E M) := []
  inbox : List (Except E M) := []
  ended : Bool := false
  late : Bool := false
  /-- the sender for cancellations was sent to the stream `canceller` (grpc.rs:335-336) -/
  canceller : Bool := false
  signals : List C := []
  outs : List M := []

variable {M C E : Type}

inductive Turn (R C E : Type)
  | again (r : R)
  | wait (r : R)
  | over (r : R) (res : Except (Why C E) Unit)

/-- What is left when the awaited thing is not there: `receive_cancel` (grpc.rs:230-250), which
fails the call with the first signal, and the timer (`async_std::future::timeout`, which looks at
its future before it looks at the timer). The receiver is shared between the waits (grpc.rs:338), so
that a signal stays. -/
def Call.idle (cfg : Config) (s : Call M C E) : Turn (Call M C E) C E :=
  match s.signals with
  | c :: _ => .over s (.error (.cancelled c))
  | [] => if cfg.timeout && s.late then .over s (.error .timedOut) else .wait s

/-- One turn: `cancelFirst` tells which half of the race is polled first. -/
def Call.turn (cfg : Config) (s : Call M C E) (cancelFirst : Bool) : Turn (Call M C E) C E :=
  match s.phase with
  | .connecting =>
    match s.connected with
    | none => .wait s
    | some (.error e) => .over s (.error (.failed e))
    | some (.ok ()) => .again { s with phase := .first }
  | .first =>
    match s.ready1 with
    | none => .wait s
    | some (.error e) => .over s (.error (.failed e))
    | some (.ok ()) => .again { s with phase := .second, late := false }
  | .second =>
    match s.ready2 with
    | none => if cfg.timeout && s.late then .over s (.error .timedOut) else .wait s
    | some (.error e) => .over s (.error (.failed e))
    | some (.ok ()) => .again { s with phase := .calling, late := false, canceller := true }
  | .calling =>
    match cancelFirst, s.signals with
    | true, c :: _ => .over s (.error (.cancelled c))
    | _, _ =>
      match s.response with
      | none => s.idle cfg
      | some (.error e) => .over s (.error (.failed e))
      | some (.ok ()) => .again { s with phase := .receiving, late := false }
  | .receiving =>
    match cancelFirst, s.signals with
    | true, c :: _ => .over s (.error (.cancelled c))
    | _, _ =>
      match s.inbox with
      | .error e :: rest => .over { s with inbox := rest } (.error (.failed e))
      | .ok m :: rest =>
        if cfg.streaming then
          .again { s with
            inbox := rest
            outs := s.outs ++ [m]
            late := false }
        else .over { s with inbox := rest, outs := s.outs ++ [m] } (.ok ())
      | [] => if s.ended then .over s (.ok ()) else s.idle cfg
  | .done r => .over s r

/-- At most `n` turns. `orders` are the orders of the races. -/
def Call.loop (cfg : Config) : Nat → List Bool → Call M C E → Call M C E
  | 0, _, s => s
  | n + 1, orders, s =>
    match s.turn cfg (orders.headD false) with
    | .again s => s.loop cfg n orders.tail
    | .wait s => s
    | .over s r => { s with phase := .done r }

/-- A poll of the task. The number of turns is as large as can be needed: see `C113_poll`. -/
def Call.poll (cfg : Config) (s : Call M C E) (orders : List Bool) : Call M C E :=
  s.loop cfg (s.inbox.length + 5) orders

/-- What can happen to a call. -/
inductive Ev (M C E : Type)
  | connect (r : Except E Unit)
  | ready1 (r : Except E Unit)
  | ready2 (r : Except E Unit)
  | respond (r : Except E Unit)
  | message (m : Except E M)
  | close
  | deadline
  | cancel (c : C)
  | poll (orders : List Bool)

/-- The first answer of the outside counts. A signal can only be sent by someone who has the sender;
nothing comes after the end of a stream. A timer exists only while it is waited for under the
timeout. -/
def Call.step (cfg : Config) (s : Call M C E) : Ev M C E → Call M C E
  | .connect r => { s with connected := s.connected <|> some r }
  | .ready1 r => { s with ready1 := s.ready1 <|> some r }
  | .ready2 r => { s with ready2 := s.ready2 <|> some r }
  | .respond r => { s with response := s.response <|> some r }
  | .message m =>
    if s.ended then s else { s with arrived := s.arrived ++ [m], inbox := s.inbox ++ [m] }
  | .close => { s with ended := true }
  | .deadline =>
    match s.phase with
    | .second | .calling | .receiving => { s with late := true }
    | _ => s
  | .cancel c => if s.canceller then { s with signals := s.signals ++ [c] } else s
  | .poll orders => s.poll cfg orders

def Call.run (cfg : Config) (s : Call M C E) (vs : List (Ev M C E)) : Call M C E :=
  vs.foldl (Call.step cfg) s

end Verif.Grpc

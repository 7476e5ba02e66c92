import Verif.Grpc.Model

/- What C113 is about. -/

namespace Verif.Grpc

variable {M C E : Type}

/-- The call waits for something that has not happened: it is not cancelled, and, from the moment
that it waits under the timeout, not late. -/
def Waiting (cfg : Config) (s : Call M C E) : Prop :=
  let onTime := cfg.timeout = true → s.late = false
  match s.phase with
  | .connecting => s.connected = none
  | .first => s.ready1 = none
  | .second => s.ready2 = none ∧ onTime
  | .calling => s.response = none ∧ s.signals = [] ∧ onTime
  | .receiving => s.inbox = [] ∧ s.ended = false ∧ s.signals = [] ∧ onTime
  | .done _ => False

/-- The call has ended. -/
def Over (s : Call M C E) : Prop := ∃ r, s.phase = .done r

/-- The call has the sender for cancellations out, and waits for the server. -/
def Cancellable (s : Call M C E) : Prop := s.phase = .calling ∨ s.phase = .receiving

/-- Why a call may end as it does, given what has happened. -/
def Justified (cfg : Config) (s : Call M C E) (vs : List (Ev M C E)) :
    Except (Why C E) Unit → Prop
  | .ok () =>
    (s.arrived = s.outs.map .ok ∧ Ev.close ∈ vs) ∨ (cfg.streaming = false ∧ s.outs.length = 1)
  | .error (.failed e) =>
    Ev.connect (.error e) ∈ vs ∨ Ev.ready1 (.error e) ∈ vs ∨ Ev.ready2 (.error e) ∈ vs ∨
      Ev.respond (.error e) ∈ vs ∨ Ev.message (.error e) ∈ vs
  | .error .timedOut => cfg.timeout = true ∧ Ev.deadline ∈ vs
  | .error (.cancelled c) => Ev.cancel c ∈ vs

end Verif.Grpc

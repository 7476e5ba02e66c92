import Verif.Zenoh.Nodes

/- What C111 and C112 are about. -/

namespace Verif.Zenoh.Nodes

variable {I O C E : Type}

/-- The run has, or is setting up, a subscription of zenoh. -/
def Phase.live : Phase C E → Bool
  | .opening _ | .receiving | .stuck => true
  | _ => false

/-- The run has ended but not yet cleared the mark that it is active. -/
def Phase.leaving : Phase C E → Bool
  | .clearing _ false => true
  | _ => false

/-- The runs of a session that have a subscription. -/
def liveRuns (w : Node I O C E) (s : Nat) : List (Run I O C E) :=
  w.runs.filter fun r => decide (r.session = s) && r.phase.live

/-- What has come out is what has been taken from the channel, item by item. -/
def PassedOn (k : Kind I O C E) (r : Run I O C E) : Prop :=
  ∃ taken, r.arrived = taken ++ r.inbox ∧ r.outs = taken.map k.item

/-- A run of a querier at its beginning. -/
def begin : Run I O C E := { session := 0, phase := .opening none }

/-- Why a run of a querier ended as it did, given what had happened: the set-up failed; or it was
cancelled, and the answer is the message of a cancellation; or the replies were over, every one of
them had come out, and the answer is the one for that case. -/
def Justified (k : Kind I O C E) (r : Run I O C E) (vs : List (QEv I C E)) (res : Result C E) :
    Prop :=
  (∃ e, res = .error e ∧ QEv.opened (.error e) ∈ vs) ∨
  (∃ c, res = .ok c ∧ QEv.cancel c ∈ vs) ∨
  (∃ c, res = .ok c ∧ k.onClosed = some c ∧ QEv.close ∈ vs ∧ r.outs = r.arrived.map k.item)

end Verif.Zenoh.Nodes

import Verif.Keys.Model

/- What the life cycle of keys is about: who holds which key. -/
namespace Verif.Keys

/-- The keys in the hands of users, each with the session for which it was handed out. An
access hands out one key per buffer; a clone of a key that somebody holds is one more key;
dropping a key removes one. -/
def handsStep (buffers : List Nat) (st : State) (h : List (Nat × Nat)) : Op → List (Nat × Nat)
  | .access s => h ++ (st.access buffers s).2.map fun l => (l, s)
  | .clone l => h ++ (h.find? fun p => p.1 = l).toList
  | .drop l => h.eraseP fun p => p.1 = l
  | _ => h

def handsFrom (buffers : List Nat) : State → List (Nat × Nat) → List Op → List (Nat × Nat)
  | _, h, [] => h
  | st, h, op :: ops => handsFrom buffers (st.step buffers op) (handsStep buffers st h op) ops

/-- The keys held after the operations `ops`. -/
def hands (buffers : List Nat) (ops : List Op) : List (Nat × Nat) := handsFrom buffers {} [] ops

/-- Somebody holds a key of the session. -/
def Held (buffers : List Nat) (ops : List Op) (s : Nat) : Prop :=
  ∃ p, p ∈ hands buffers ops ∧ p.2 = s

/-- Some thread is between the two steps of dropping a key of the session. -/
def BeingDropped (st : State) (s : Nat) : Prop :=
  ∃ L, L ∈ st.lives ∧ L.session = s ∧ L.dying = true

/-- The scope never ends the session in this run. -/
def NoEnd (s : Nat) (ops : List Op) : Prop := Op.cleanup s true ∉ ops

/-- Operations in which every drop is one step. -/
inductive Act where
  | access (session : Nat)
  | clone (l : Nat)
  | drop (l : Nat)
  | cleanup (session : Nat) (byScope : Bool)
  | receive
  deriving DecidableEq, Repr

def Act.ops : Act → List Op
  | .access s => [.access s]
  | .clone l => [.clone l]
  | .drop l => [.drop l, .finish l]
  | .cleanup s b => [.cleanup s b]
  | .receive => [.receive]

/-- What the usage check found when the last notice of the session was received. -/
def lastSeen (st : State) (s : Nat) : Option Bool :=
  ((st.seen.filter fun p => p.1 = s).getLast?).map (·.2)

end Verif.Keys

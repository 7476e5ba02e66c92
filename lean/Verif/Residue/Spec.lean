import Verif.Residue.Model

/-
What is claimed about the end of a session and about the disposals of a cancellation.
-/
namespace Verif.Residue

variable {V D : Type}

/-- The operation has nothing of session `s`. -/
structure Bare (x : Node V D) (s : Nat) : Prop where
  inputs : ∀ i ∈ x.inputs, i.1 ≠ s
  disposals : x.disposals s = []
  keys : x.keys s = false
  batch : x.batch s = []
  held : ∀ h ∈ x.held, h.2.1 ≠ s
  injected : ∀ i ∈ x.injected, i.session ≠ s
  stored : x.stored s = []
  gate : x.gate s = none

/-- What an operation has of session `s`, apart from the disposals and the gate. -/
structure Emptied (x : Node V D) (s : Nat) : Prop where
  inputs : ∀ i ∈ x.inputs, i.1 ≠ s
  keys : x.keys s = false
  batch : x.batch s = []
  held : ∀ h ∈ x.held, h.2.1 ≠ s
  injected : ∀ i ∈ x.injected, i.session ≠ s
  stored : x.stored s = []

/-- Both operations have the same of session `s`. -/
structure Same (x y : Node V D) (s : Nat) : Prop where
  inputs : x.inputs.filter (fun i => i.1 = s) = y.inputs.filter fun i => i.1 = s
  disposals : x.disposals s = y.disposals s
  keys : x.keys s = y.keys s
  batch : x.batch s = y.batch s
  held : x.held.filter (fun h => h.2.1 = s) = y.held.filter fun h => h.2.1 = s
  injected : x.injected.filter (fun i => i.session = s) = y.injected.filter fun i => i.session = s
  stored : x.stored s = y.stored s
  gate : x.gate s = y.gate s

/-- The disposals that the events emit in session `s` for the operations of the scope and for the
tasks of its injections. An emission for an operation that emits none, or for a task or a trim
that is over, does not happen. -/
def emitted (w : World V D) (s : Nat) : List (Ev V D) → List D
  | [] => []
  | v :: vs =>
    (match v with
      | .emit n s' d => if (w.node n).kind.emits = true ∧ s' = s then [d] else []
      | .emitTask n task d =>
        if (w.node n).injected.any (fun i => i.task = task ∧ i.session = s) then [d] else []
      | .finalize n id d =>
        match (w.node n).held.find? (fun h => h.1 = id) with
        | some h => if h.2.1 = s then [d] else []
        | none => []
      | _ => []) ++
    emitted (step w v) s vs

/-- The disposals of the tasks that are running for the injections of the scope. -/
def World.open (w : World V D) (s : Nat) : List D :=
  w.contents.flatMap fun n => (w.node n).injected.flatMap fun i =>
    if i.session = s then i.disposals else []

/-- The events concern operations of the scope. -/
def Within (contents : List Nat) (evs : List (Ev V D)) : Prop :=
  ∀ v ∈ evs, match v with
    | .give n _ _ | .exec n _ | .emit n _ _ | .emitTask n _ _ | .finish n _ | .finalize n _ _
    | .setGate n _ _ | .trimmed n _ => n ∈ contents
    | .cleanAll _ | .clear _ => True

/-- The operations whose cleanup leaves the disposals of the session where they are. -/
def Kind.forgetful (k : Kind) : Bool :=
  k = .blockingMap ∨ k = .asyncMap ∨ k = .split ∨ k = .listen ∨ k = .access

/-- The event is about another session than `s`, or does nothing for a session that has ended. -/
def Quiet (s : Nat) : Ev V D → Prop
  | .give _ t _ | .emit _ t _ | .setGate _ t _ | .cleanAll t | .clear t => t ≠ s
  | .exec _ _ | .emitTask _ _ _ | .finish _ _ | .finalize _ _ _ | .trimmed _ _ => True

end Verif.Residue

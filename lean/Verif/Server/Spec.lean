import Verif.Server.Model
/-
What the theorems about the execution server speak of.
-/
namespace Verif.Server

variable {D V : Type}

/-- States that a server can get into. -/
def Reachable (build : D → Build V) (s : Server D V) : Prop := ∃ es, s = run build initial es

/-- The request `c`, which came with diagram `d` and input `i`, has been answered with `r`. -/
def Answered (s : Server D V) (c : Nat) (d : D) (i : V) (r : Resp V) : Prop :=
  s.clients c = some ⟨d, i, .answered r⟩

/-- Workflow `w` was spawned for the request `c` with its diagram `d` and its input `i`. -/
def MadeFor (s : Server D V) (w c : Nat) (d : D) (i : V) : Prop :=
  ∃ f, s.workflows w = some f ∧ f.owner = c ∧ f.diagram = d ∧ f.input = i

/-- Workflow `w` has ended with `o`. -/
def Ended (s : Server D V) (w : Nat) (o : Outcome V) : Prop :=
  ∃ f, s.workflows w = some f ∧ f.complete = true ∧ f.outcome = some o

/-- The entities of workflow `w` are in the world. -/
def Alive (s : Server D V) (w : Nat) : Prop := ∃ f, s.workflows w = some f ∧ f.alive = true

/-- The responses that `r` may be for a request that came with `d` and `i`: the error of the
diagram, how the only workflow that was made for it ended, or 500 once the app is gone. -/
def RightAnswer (build : D → Build V) (s : Server D V) (c : Nat) (d : D) (i : V) (r : Resp V) :
    Prop :=
  (∃ e, build d = .err e ∧ r = .refused e)
  ∨ (∃ w o, MadeFor s w c d i ∧ Ended s w o ∧ (∀ w' d' i', MadeFor s w' c d' i' → w' = w) ∧
      r = match o with
        | .available v => .ok v
        | .cancelled x => .cancelled x
        | .disposed => .internal)
  ∨ (s.up = false ∧ r = .internal)

/-- The handler of request `c` waits for workflow `w`. -/
def Awaits (s : Server D V) (c w : Nat) : Prop :=
  ∃ k, s.clients c = some k ∧ k.phase = .awaiting w

/-- The number of runs of `execute_requests`. -/
def executes : List (Ev D V) → Nat
  | [] => 0
  | .execute :: es => executes es + 1
  | _ :: es => executes es

end Verif.Server

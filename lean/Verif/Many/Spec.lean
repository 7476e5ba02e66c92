import Verif.Many.Model
import Verif.Flow.Spec

/-
The notions in which C117 is stated.
-/
namespace Verif.Many

open Flow (Net)

/-- `Flow.Calm` for the events of many sessions: inner sessions are not cancelled, keys are dropped
where the scope is told about it, and whoever uses a key of a buffer that a join reads from adds at
most one value at a time. -/
def Calm (net : Net) : Ev → Prop
  | .innerCancel _ _ => False
  | .letGo _ _ => False
  | .touch _ _ b _ add _ => Flow.Joined net b → add ≤ 1
  | _ => True

/-- Nothing is left to do for session `x`, whatever the other sessions do: no message of it waits
for an operation, it has no task and no inner session, no key of its buffers is in use, and the
scope knows of every disposal. -/
def Resting (W : Multi) (x : Nat) : Prop :=
  (∀ n, x ∉ W.queue n) ∧ (∀ n, x ∉ W.tasks n) ∧ (∀ n, W.keys n x = 0) ∧
    (∀ n, W.dropping n x = 0) ∧ x ∉ W.disposed

end Verif.Many

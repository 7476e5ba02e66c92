import Verif.Continuous.Model
import Verif.Delivery.Spec

/-
Vocabulary for C26.
-/
namespace Verif.Continuous

open Verif.Delivery

/-- The orders that the systems see, in order. -/
def visible (s : Cont) : List Order := s.svc.tasks.map (·.order)

/-- The attempts that count as answers: those at an index that exists and was not used by an
earlier attempt of the same run. -/
def answers (n : Nat) : List Nat → List (Nat × Nat) → List (Nat × Nat)
  | _, [] => []
  | used, (i, data) :: rest =>
    if i < n ∧ i ∉ used then (i, data) :: answers n (i :: used) rest else answers n used rest

/-- What is left of a list when the positions with `p` are taken out. -/
def without {α : Type} : List α → (Nat → Bool) → List α
  | [], _ => []
  | a :: l, p => if p 0 then without l (fun i => p (i + 1)) else a :: without l (fun i => p (i + 1))

/-- The orders that left the queue because they were answered. -/
def responded (log : List Rec) : List Order :=
  log.filterMap fun | .responded o => some o | _ => none

/-- The orders `queue` of which an event that is no response leaves `kept` in the queue: a
request that pre-empts may take orders out, a cleanup takes out the orders of its session,
and nothing else takes any out. -/
def KeptBy : Delivery.Ev → List Order → List Order → Prop
  | .arrive _ _ instr, queue, kept => kept.Sublist queue ∧ (¬ Preempts instr → kept = queue)
  | .cleanup _ session, queue, kept => kept = queue.filter fun o => decide (o.session ≠ session)
  | _, queue, kept => kept = queue

/-- The commands of every system are applied before anything else happens. -/
def Calm (es : List Ev) : Prop := ∀ e ∈ es, e ≠ .apply ∧ ∀ l, e ≠ .system l

end Verif.Continuous

import Verif.Task.Model
/-
Vocabulary for the properties of tasks: everything is a statement about what was
observed (`Rec`).
-/
namespace Verif.Task

/-- The cleanups that were begun: identifier and session. -/
def begunOf (log : List Rec) : List (Nat × Nat) :=
  log.filterMap fun | .begun c s => some (c, s) | _ => none

/-- The task was started before the cleanup was begun. -/
def StartedBefore (log : List Rec) (id s c : Nat) : Prop :=
  ∃ l1 l2, log = l1 ++ .begun c s :: l2 ∧ ∃ b, .started id s b ∈ l1

/-- No two cleanups of the same session. -/
def NoOverlap (log : List Rec) : Prop :=
  ((begunOf log).map (·.1)).Nodup ∧ ((begunOf log).map (·.2)).Nodup

/-- When the cleanup `c` of session `s` is begun, every task of that session that was
stopped or despawned is over. -/
def NoneStopping (log : List Rec) (c s : Nat) : Prop :=
  ∀ l1 l2, log = l1 ++ .begun c s :: l2 →
    ∀ id b, .started id s b ∈ l1 → .stopping id ∈ l1 → .ended id ∈ l1

/-- A task is over: its future has returned or was cancelled. -/
def Ended (log : List Rec) (id : Nat) : Prop := .ended id ∈ log

end Verif.Task

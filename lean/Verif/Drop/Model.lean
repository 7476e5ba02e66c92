/-
Model of how the flush drops series (chains of one-time executions).

Sources: /repo/src/flush.rs (collect_from_channels 251-281, drop_target 328-391),
/repo/src/series.rs, /repo/src/series/{internal,taken,detach}.rs.
-/
namespace Verif.Drop

variable {E : Type} [DecidableEq E]

/-- One step of a series: its entity and its `Detached` component
(src/series/detach.rs:28-35). -/
structure Step (E : Type) where
  id : E
  detached : Bool
  deriving DecidableEq, Repr

/-- A series: the terminal first, each step followed by the step that feeds it (its
child, src/series.rs:153-160, src/series/internal.rs:85-87). Simplification: children
without a `Detached` component (stream targets), which `drop_target` skips, are left
out, and a step has one feeding step, as `Series::then` builds them. -/
structure Chain (E : Type) where
  /-- the terminal carries `UnusedTarget` -/
  unused : Bool
  steps : List (Step E)
  deriving DecidableEq, Repr

/-- The part of the world that matters: the series alive, the pending notifications
of the `SeriesLifecycleChannel`, the roster queue. -/
structure World (E : Type) where
  chains : List (Chain E)
  lifecycle : List E
  queue : List E
  deriving DecidableEq, Repr

/-- The loop of `drop_target`, src/flush.rs:338-370: starting from the steps below
the current execution, what is purged from the roster on the way and the
detached series found (with everything that feeds it). -/
def walk (execution : E) : List (Step E) → List E × List (Step E)
  | [] => ([], [])
  | child :: rest =>
    if child.detached then ([], child :: rest)
    else
      let r := walk child.id rest
      (execution :: r.1, r.2)

/-- `drop_target`, src/flush.rs:328-391, on the series whose terminal is `target`:
purge, walk, de-parent the detached part, despawn the terminal with all its
descendants. The error report for unused targets is not modelled. A target that is
no longer alive changes nothing. -/
def dropTarget (w : World E) (target : E) : World E :=
  match w.chains.find? (fun c => decide (c.steps.head?.map (·.id) = some target)) with
  | none => { w with queue := w.queue.filter fun x => decide (x ≠ target) }
  | some c =>
    let r := walk target c.steps.tail
    { w with
      chains := w.chains.flatMap fun c' =>
        if c'.steps.head?.map (·.id) = some target then
          (if r.2 = [] then [] else [⟨false, r.2⟩])
        else [c']
      queue := w.queue.filter fun x => decide (x ≠ target) && decide (x ∉ r.1) }

/-- src/flush.rs:251-262: unused terminals that are not detached. -/
def dropTargets (w : World E) : List E :=
  w.chains.filterMap fun c =>
    match c.unused, c.steps with
    | true, t :: _ => if t.detached then none else some t.id
    | _, _ => none

/-- The series part of `collect_from_channels`, src/flush.rs:251-281. The first loop
drains `drop_targets`; the second loop is over `drop_targets` again, which is empty
by then; `dropped_targets`, filled from the channel, is not used. (Adding a
`Finished` execution to detached unused targets, 264-267, does not touch the
chains.) -/
def collect (w : World E) : World E :=
  let w1 := (dropTargets w).foldl dropTarget w
  let droppedTargets := w1.lifecycle
  let dropTargetsAfterDrain : List E := []
  let _ := droppedTargets
  dropTargetsAfterDrain.foldl dropTarget { w1 with lifecycle := [] }

/-- Dropping the promise of a taken response before it was received:
`on_promise_drop`, src/series/taken.rs:45-47, src/promise.rs:168-183. -/
def dropPromise (w : World E) (terminal : E) : World E :=
  { w with lifecycle := w.lifecycle ++ [terminal] }

/-- The entities of all series alive. -/
def alive (w : World E) : List E := w.chains.flatMap fun c => c.steps.map (·.id)

end Verif.Drop

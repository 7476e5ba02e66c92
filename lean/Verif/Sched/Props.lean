import Verif.Sched.Lemmas

/-
Property theorem C09: operations with input queues (src/input.rs) driven by the
flush loop (src/flush.rs).
-/
namespace Verif.Sched

open Verif.Input Verif.Flush

set_option linter.unusedSectionVars false

variable {E S T U : Type} [DecidableEq E] [DecidableEq S]

/-- **C09**, invariant. For every application (whatever its operations do: send to
any operation in any session, defer, clean up, cancel, drop series), every limit and
every schedule, at every moment each operation has at least as many executions
scheduled (in the running flush or for the next one) as it has inputs waiting. -/
theorem C09_inputs_scheduled (A : App E S T U) (s : St (World E S T U) E) (hw : WF s)
    (hi : ∀ n, waitingAt s.world n ≤ Flush.pending .queue n s)
    (vs : List (Flush.Ev (World E S T U) E)) (hv : ∀ v ∈ vs, CarefulEv waitingAt v) (n : E) :
    waitingAt (Flush.run A.prog s vs).1.world n ≤
      Flush.pending .queue n (Flush.run A.prog s vs).1 :=
  run_covered A.prog waitingAt (app_careful A) vs s hw hv n (hi n)

/-- **C09**, exhaustion. When no flush is running and nothing is stored for the next
one, no operation has any input waiting. -/
theorem C09_nothing_forgotten (A : App E S T U) (s : St (World E S T U) E) (hw : WF s)
    (hi : ∀ n, waitingAt s.world n ≤ Flush.pending .queue n s)
    (vs : List (Flush.Ev (World E S T U) E)) (hv : ∀ v ∈ vs, CarefulEv waitingAt v)
    (hidle : (Flush.run A.prog s vs).1.phase = .idle)
    (hq : (Flush.run A.prog s vs).1.later.queue = [])
    (hd : (Flush.run A.prog s vs).1.later.deferred = []) (n : E) :
    Input.pending ((Flush.run A.prog s vs).1.world.nodes n) = [] := by
  have h := C09_inputs_scheduled A s hw hi vs hv n
  have hr := (run_WF A.prog vs s hw).1 hidle
  simp only [Flush.pending, waiting, hr, hq, hd] at h
  simp only [List.count_nil, Nat.add_zero, Nat.le_zero_eq, waitingAt] at h
  exact List.length_eq_zero_iff.mp h

/-! A chain 0 → 1 → 2 in which operation 0 sends every input twice; two inputs are
waiting at the start. -/

def chainApp : App Nat Nat Nat Unit where
  params := fun _ => ⟨none, none⟩
  op := fun e i u =>
    match e with
    | 0 => (u, [.give 1 i.session i.data, .defer 1 i.session (i.data + 100)])
    | 1 => (u, [.give 2 i.session i.data])
    | _ => (u, [])
  other := fun _ u => (u, [])

def chainStart : St (World Nat Nat Nat Unit) Nat :=
  { init ⟨fun e => ⟨some (if e = 0 then [⟨5, 2⟩, ⟨5, 1⟩] else []), false, none, none⟩,
      fun _ => true, ()⟩ with
    later := { queue := [0, 0] } }

example : WF chainStart ∧ (∀ n, waitingAt chainStart.world n ≤ Flush.pending .queue n chainStart) := by
  refine ⟨by simp [WF, chainStart, init], fun n => ?_⟩
  by_cases h : n = 0
  · subst h; decide
  · simp [waitingAt, Input.pending, chainStart, h, init]

set_option maxRecDepth 8000 in
/-- In the middle of the flush inputs wait and are scheduled. -/
example :
    waitingAt (Flush.run chainApp.prog chainStart (List.replicate 20 .tick)).1.world 1 = 4 ∧
    Flush.pending .queue 1 (Flush.run chainApp.prog chainStart (List.replicate 20 .tick)).1 = 4 := by
  decide

set_option maxRecDepth 20000 in
/-- At the end of the flush nothing is left. -/
example :
    (Flush.run chainApp.prog chainStart (List.replicate 73 .tick)).1.phase = .idle ∧
    (Flush.run chainApp.prog chainStart (List.replicate 73 .tick)).1.later.queue = [] := by
  decide

end Verif.Sched

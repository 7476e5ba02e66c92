import Verif.Sched.AheadLemmas

/-
Property theorem C100: what an async task has sent through the channel takes effect before its
response (src/operation/operate_task.rs:226-235, src/flush.rs:183-212).
-/
namespace Verif.Sched

open Verif.Input Verif.Flush

set_option linter.unusedSectionVars false

variable {E S T U : Type} [DecidableEq E] [DecidableEq S]

/-- **C100**, the flush. Whatever the running code does and whatever happens meanwhile, with no
limit on the items received: a deferred request only becomes an execution in the queue after
everything that is in the channel now was received, in the order in which it was sent.
(Partial: it does not say which request executes which input; see the next theorems.) -/
theorem C100_deferred_partial {W : Type} (P : Prog W E)
    (hP : ∀ w, (P.params w).channelLimit = none) (s : St W E) (hw : WF s)
    (hs : s.params.channelLimit = none) (hph : s.phase ≠ .services)
    (vs : List (Flush.Ev W E)) (m : E) (h1 h2 : List (Hist E))
    (h : (Flush.run P s vs).2 = h1 ++ .undeferred m :: h2) : s.chan <+: receivedOf h1 :=
  run_ahead P hP vs s hw hs hph m h1 h2 h

/-- **C100**, tasks that were woken. With no limit on the items received: while the flush polls
woken tasks, everything that is in the channel now is received before any operation is executed
from the queue, whoever it is and whatever input it takes.
(Partial: tasks that are polled from the queue are the subject of the next theorem.) -/
theorem C100_woken_partial {W : Type} (P : Prog W E)
    (hP : ∀ w, (P.params w).channelLimit = none) (s : St W E) (hw : WF s)
    (hs : s.params.channelLimit = none)
    (hph : s.phase = .awake ∨ s.phase = .cleanups .awake ∨ s.phase = .cancels .awake)
    (vs : List (Flush.Ev W E)) (m : E) (h1 h2 : List (Hist E))
    (h : (Flush.run P s vs).2 = h1 ++ .ran .queue m :: h2) : s.chan <+: receivedOf h1 :=
  run_polling P hP vs s hw hs
    (by rcases hph with h | h | h <;> rw [h] <;> trivial) m h1 h2 h

/-- What a task does that is polled and found ready (src/operation/operate_task.rs:226-262):
it defers its response `d` to `m`, then makes requests other than executions. -/
def ready (m : E) (se : S) (d : T) (more : List (Kind × E)) : List (Act E S T) :=
  .defer m se d :: more.map fun p => .other p.1 p.2

/-- **C100**, tasks that are polled from the queue. In `s` the task `t` is executed next and is
ready with a response for `m`, where the inputs `pre` wait, with at most as many executions of `m`
queued. Whatever happens from there: if nobody else sends to `m`, each of `pre` is taken by an
execution of `m`, and `m` is then executed and takes the response, then everything that was in
the channel in `s` has been received. (Partial: without the assumption that nobody sends to `m`,
that no input is withdrawn, or that the channel has no limit it is false, see the witnesses
below.) -/
theorem C100_response_last_partial (A : App E S T U)
    (hA : ∀ w, (A.params w).channelLimit = none) (s : St (World E S T U) E) (hw : WF s)
    (hs : s.params.channelLimit = none) (hph : s.phase = .queue) (t m : E) (htm : t ≠ m)
    (rest : List E) (ht : s.roster.queue = t :: rest) (n : Node S T) (i : Inp S T)
    (hin : takeInput (s.world.nodes t) = .ok (n, i)) (u : U) (se : S) (d : T)
    (more : List (Kind × E)) (hmore : ∀ p ∈ more, p.1 ≠ .queue ∧ p.1 ≠ .deferred)
    (hop : A.op t i s.world.user = (u, ready m se d more)) (hact : s.world.active se = true)
    (pre : List (Inp S T)) (hst : (s.world.nodes m).storage = some pre.reverse)
    (hq : s.roster.queue.count m + s.later.queue.count m ≤ pre.length)
    (vs : List (Flush.Ev (World E S T U) E)) :
    let r := Flush.run A.prog s (.tick :: vs)
    newCount .queue m r.2 = 1 → pre.length + 1 ≤
      (Input.pending (r.1.world.nodes m)).length + ranCount .queue m r.2 →
    r.1.roster.queue.head? = some m → Input.pending (r.1.world.nodes m) = [⟨se, d⟩] →
    s.chan <+: receivedOf r.2 := by
  intro r hnew htaken hnow htake
  obtain ⟨h1, h2, h3, h4, h5, h6⟩ := tick_ready A s hph t m htm rest ht n i hin u se d
    more hmore hop hact pre hst
  have hr : r = ((Flush.run A.prog (tick A.prog s).1 vs).1,
      (tick A.prog s).2 ++ (Flush.run A.prog (tick A.prog s).1 vs).2) := rfl
  have hr1 : r.1 = (Flush.run A.prog (tick A.prog s).1 vs).1 := rfl
  have hr2 : r.2 = (tick A.prog s).2 ++ (Flush.run A.prog (tick A.prog s).1 vs).2 := rfl
  rw [hr2, newCount_append] at hnew
  rw [hr1, hr2, ranCount_append] at htaken
  rw [hr1] at hnow htake
  rw [hr2, receivedOf_append, ← h3]
  refine (response_last A hA (tick A.prog s).1 (tick_WF A.prog s hw)
    ((step_ahead A.prog hA s hw hs .tick).1) (by rw [h1]; simp) m pre ⟨se, d⟩ h2
    (by rw [h4]; exact hq) vs (by omega) (by rw [h2]; simp; omega) hnow htake).trans ?_
  have hrec : receivedOf (tick A.prog s).2 = [] := h6.2
  rw [hrec]
  exact List.prefix_refl _

/-! ### Examples

Operation 0 polls a task whose result is for operation 1; items of the channel go to
operation 2; operation 3 sends to operation 1 as well, in another session, which operation 4
cleans up. -/

def aheadApp (limit : Option Nat) : App Nat Nat Nat (List Nat) where
  params := fun _ => ⟨none, limit⟩
  op := fun e i u =>
    match e with
    | 0 => (u, [.defer 1 i.session 50])
    | 3 => (u, [.give 1 6 60])
    | 4 => (u, [.cleanup 1 6])
    | _ => (u ++ [i.data], [])
  other := fun c u =>
    match c with
    | .item x => (u, [.give 2 5 x])
    | .entry .awake _ => (u, [.defer 1 5 50])
    | _ => (u, [])

/-- Inputs wait at the operations of `l`, which are queued. -/
def aheadStart (l : List Nat) : St (World Nat Nat Nat (List Nat)) Nat :=
  { init ⟨fun e => ⟨some (if e ∈ l then [⟨5, e⟩] else []), false, none, none⟩,
      fun _ => true, []⟩ with
    later := { queue := l } }

/-- The flush comes to its queue, then the task sends 7 and 8. -/
def aheadSend : List (Flush.Ev (World Nat Nat Nat (List Nat)) Nat) :=
  List.replicate 12 .tick ++ [.env id [] [7, 8] []]

/-- Hypotheses of `C100_response_last_partial`: the items are in the channel and the task is
executed next; 27 steps later operation 1 takes the response. -/
example :
    let s := (Flush.run (aheadApp none).prog (aheadStart [0]) aheadSend).1
    let r := Flush.run (aheadApp none).prog s (.tick :: List.replicate 26 .tick)
    s.phase = .queue ∧ s.chan = [7, 8] ∧ s.params.channelLimit = none ∧ s.roster.queue = [0] ∧
    (takeInput (s.world.nodes 0)).toOption.map (·.2) = some ⟨5, 0⟩ ∧
    s.world.active 5 = true ∧ (s.world.nodes 1).storage = some [] ∧
    s.roster.queue.count 1 + s.later.queue.count 1 ≤ 0 ∧
    newCount .queue 1 r.2 = 1 ∧
    0 + 1 ≤ (Input.pending (r.1.world.nodes 1)).length + ranCount .queue 1 r.2 ∧
    r.1.roster.queue.head? = some 1 ∧ Input.pending (r.1.world.nodes 1) = [⟨5, 50⟩] ∧
    receivedOf r.2 = [7, 8] ∧ r.1.world.user = [7, 8] := by
  decide +kernel

example (u : List Nat) : (aheadApp none).op 0 ⟨5, 0⟩ u = (u, ready 1 5 50 []) := rfl

/-- **C100**, false in general: if another operation sends to the target after the poll, the
target is executed for that and takes the deferred response, before any item. -/
theorem C100_other_sender_false :
    (Flush.run (aheadApp none).prog (aheadStart [0, 3])
      (aheadSend ++ List.replicate 100 .tick)).1.world.user = [50, 7, 8, 60] := by
  decide +kernel

/-- **C100**, false in general: if an input was withdrawn from the target before the poll, its
execution is still queued and takes the deferred response, before any item. -/
theorem C100_withdrawn_false :
    (Flush.run (aheadApp none).prog (aheadStart [3, 4, 0])
      (aheadSend ++ List.replicate 100 .tick)).1.world.user = [50, 7, 8] := by
  decide +kernel

/-- **C100**, false with a limit on the items received: the response is taken while items are
still in the channel. (With the limit 0 one item is received at a time.) -/
theorem C100_limit_false :
    (Flush.run (aheadApp (some 0)).prog (aheadStart [0])
      (aheadSend ++ List.replicate 100 .tick)).1.world.user = [7, 50, 8] := by
  decide +kernel

/-- The items of the witnesses are sent before the poll. -/
example :
    let s l b := (Flush.run (aheadApp b).prog (aheadStart l) aheadSend).1
    ((s [0, 3] none).roster.queue = [0, 3] ∧ (s [0, 3] none).chan = [7, 8]) ∧
    ((s [3, 4, 0] none).roster.queue = [3, 4, 0] ∧ (s [3, 4, 0] none).chan = [7, 8]) ∧
    ((s [0] (some 0)).roster.queue = [0] ∧ (s [0] (some 0)).chan = [7, 8]) := by
  decide +kernel

/-- Without either, the same application is in order. -/
example :
    (Flush.run (aheadApp none).prog (aheadStart [0])
      (aheadSend ++ List.replicate 100 .tick)).1.world.user = [7, 8, 50] := by
  decide +kernel

/-- Hypotheses of `C100_woken_partial`, with another sender. -/
example :
    let s := (Flush.run (aheadApp none).prog (aheadStart [3])
      (.env id [] [] [9] :: List.replicate 21 .tick ++ [.env id [] [7, 8] []])).1
    (s.phase = .awake) ∧ s.chan = [7, 8] ∧ s.roster.awake = [9] := by
  decide +kernel

end Verif.Sched

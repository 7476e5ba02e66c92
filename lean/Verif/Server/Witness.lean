import Verif.Server.Props
/-
Runs that meet the hypotheses of the theorems about the execution server.
-/
namespace Verif.Server

/-- Diagram 0 is fine, diagram 1 has error 7, diagram 2 panics. -/
def sample : Nat → Build Nat
  | 0 => .ok
  | 1 => .err 7
  | _ => .panic

/-- Three clients; the second has an erroneous diagram, the third goes away while its workflow
runs. -/
def busy : List (Ev Nat Nat) :=
  [.arrive 0 50, .arrive 1 60, .arrive 0 70, .accept 1, .accept 0, .accept 2, .execute, .execute,
    .execute, .leave 2, .tick]

def phaseOf (s : Server Nat Nat) (c : Nat) : Option (Phase Nat) := (s.clients c).map (·.phase)
def aliveOf (s : Server Nat Nat) (w : Nat) : Option Bool := (s.workflows w).map (·.alive)

/-- Client 0 is answered with the value of workflow 1, which is its own; client 1 with the error
of its diagram. -/
example :
    Answered (run sample initial (busy ++ [.settle 1 (.available 51), .deliver 0, .release 0]))
      0 0 50 (.ok 51) ∧
    Answered (run sample initial (busy ++ [.settle 1 (.available 51), .deliver 0, .release 0]))
      1 1 60 (.refused 7) ∧
    MadeFor (run sample initial busy) 1 0 0 50 :=
  ⟨rfl, rfl, ⟨_, rfl, rfl, rfl, rfl⟩⟩

/-- `C118_order`: the order of acceptance, which is not the order of arrival. -/
example : (run sample initial (busy.take 7)).accepted = [1, 0, 2] ∧
    (run sample initial (busy.take 7)).started = [1] ∧
    (run sample initial (busy.take 7)).inbox = [0, 2] := by decide +kernel

/-- `C118_turn`: client 2 is at place 1 of the channel, after two runs its workflow is there. -/
example : (run sample initial (busy.take 7)).inbox[1]? = some 2 ∧
    executes ((busy.drop 7) : List (Ev Nat Nat)) = 2 ∧ (run sample initial busy).up = true ∧
    2 ∈ (run sample initial busy).started := by decide +kernel

/-- `C118_ready`. -/
example : (run sample initial (busy ++ [.settle 1 (.cancelled 9)])).clients 0 =
      some ⟨0, 50, .awaiting 1⟩ ∧
    Ended (run sample initial (busy ++ [.settle 1 (.cancelled 9)])) 1 (.cancelled 9) :=
  ⟨rfl, ⟨_, rfl, rfl, rfl⟩⟩

/-- `C118_timeout_violated`: after any number of ticks client 0 waits. -/
theorem C118_waits_on (n : Nat) :
    Awaits (run sample initial (busy ++ List.replicate n .tick)) 0 1 := by
  have hr : run sample initial (busy ++ List.replicate n (.tick : Ev Nat Nat)) =
      run sample (run sample initial busy) (List.replicate n .tick) := by
    simp [run, List.foldl_append]
  have hup : ∀ n s, (run sample s (List.replicate n (.tick : Ev Nat Nat))).up = s.up := by
    intro n
    induction n with
    | zero => intro s; rfl
    | succ n ih => intro s; exact ih s
  rw [hr]
  refine C118_timeout_violated sample ⟨busy, rfl⟩ ⟨_, rfl, rfl⟩ ?_ _ ?_ ?_ ?_
  · rintro o ⟨f, h1, _, h3⟩
    cases h1; cases h3
  · intro h; have := List.eq_of_mem_replicate h; cases this
  · intro o h; have := List.eq_of_mem_replicate h; cases this
  · rw [hup]; decide +kernel

/-- `C118_panic_violated` and `C118_down_violated`: the diagram of client 1 is fine, as is that of
client 2, which comes after the panic. -/
example :
    let s := run sample initial [.arrive 2 0, .arrive 0 50, .accept 0, .accept 1, .execute]
    s.up = false ∧ phaseOf s 0 = some (.answered .internal) ∧
    phaseOf s 1 = some (.answered .internal) ∧
    phaseOf (run sample s [.arrive 0 60, .accept 2]) 2 = some (.answered .internal) := by
  decide +kernel

/-- A client that waits for its promise when the app goes down gets 500. -/
example : phaseOf (run sample initial [.arrive 0 50, .accept 0, .execute, .arrive 2 0, .accept 1,
    .execute, .deliver 0, .release 0]) 0 = some (.answered .internal) := by decide +kernel

/-- `C118_down_answers`: client 0 waits for its promise while the app goes down. -/
example :
    let s := run sample initial [.arrive 0 50, .accept 0, .execute, .arrive 2 0, .accept 1,
      .execute]
    s.up = false ∧ phaseOf s 0 = some (.awaiting 0) := by decide +kernel

/-- `C119_removed_partial` and `C119_not_early`: two requests, both answered and swept. -/
example :
    let es := [.arrive 0 50, .arrive 0 60, .accept 0, .accept 1, .execute, .execute,
      .settle 1 (.available 61), .settle 0 .disposed, .deliver 0, .deliver 1, .release 1,
      .release 0]
    let s := run sample initial es
    s.up = true ∧ phaseOf s 0 = some (.answered .internal) ∧
    phaseOf s 1 = some (.answered (.ok 61)) ∧
    aliveOf s 0 = some true ∧ s.outbox = [1, 0] ∧
    aliveOf (step sample s .sweep) 0 = some false ∧
    aliveOf (step sample s .sweep) 1 = some false := by decide +kernel

/-- `C119_disconnect_violated` and `C119_refused_violated`: workflow 2 of client 2, which has gone,
and workflow 0 of client 1, whose diagram has an error. -/
example : MadeFor (run sample initial busy) 2 2 0 70 ∧ Alive (run sample initial busy) 2 ∧
    (run sample initial busy).clients 2 = some ⟨0, 70, .gone⟩ ∧
    (run sample initial (busy ++ [.settle 2 (.available 1), .deliver 2, .release 2, .sweep])).up =
      true ∧
    MadeFor (run sample initial busy) 0 1 1 60 ∧ Alive (run sample initial busy) 0 :=
  ⟨⟨_, rfl, rfl, rfl, rfl⟩, ⟨_, rfl, rfl⟩, rfl, by decide +kernel, ⟨_, rfl, rfl, rfl, rfl⟩,
    ⟨_, rfl, rfl⟩⟩

/-- A workflow is even made for a client that went away before its turn. -/
example : aliveOf (run sample initial [.arrive 0 50, .accept 0, .leave 0, .execute]) 0 =
    some true := by decide +kernel

end Verif.Server

/-
Model of the executor of the feature `single_threaded_async`:
src/async_execution/single_threaded_execution.rs. It has two channels, one for tasks that cancel
something and are yet to be started, and one for futures that were woken. A flush polls it at the
end of `collect_from_channels`, src/flush.rs:324-325.

What a future does when it is polled is left open: any function of the world that sends and wakes
anything. Left out: `spawn` (98-103), which hands a future to the task pool of Bevy and not to
these channels; tasks and wakers of the library `async_task`, except that waking a future puts its
`Runnable` at the end of the channel.
-/
namespace Verif.Poll

/-- What polling a future does: it changes the world, sends new cancelling tasks, and wakes
futures (itself or others). -/
abbrev Behaviour (σ : Type) := σ → Nat → σ × List Nat × List Nat

/-- `SingleThreadedExecution`, single_threaded_execution.rs:31-36, with the world that the futures
act on. The last four lists are not in the code: what was ever sent and woken, and what was ever
started and resumed, in order. -/
structure State (σ : Type) where
  world : σ
  cancelling : List Nat
  runnable : List Nat
  sent : List Nat
  woken : List Nat
  started : List Nat
  resumed : List Nat

variable {σ : Type}

/-- `SingleThreadedExecutionSender::send`, single_threaded_execution.rs:117-123. -/
def send (s : State σ) (i : Nat) : State σ :=
  { s with cancelling := s.cancelling ++ [i], sent := s.sent ++ [i] }

/-- The scheduling function of a task, single_threaded_execution.rs:71-73. -/
def wake (s : State σ) (i : Nat) : State σ :=
  { s with runnable := s.runnable ++ [i], woken := s.woken ++ [i] }

/-- `runnable.run()`. -/
def visit (b : Behaviour σ) (s : State σ) (i : Nat) : State σ :=
  let r := b s.world i
  r.2.2.foldl wake (r.2.1.foldl send { s with world := r.1 })

/-- Is the optional limit reached? `count >= limit`. -/
def reached (limit : Option Nat) (count : Nat) : Bool :=
  match limit with
  | none => false
  | some l => l ≤ count

/-- The first loop of `poll`, single_threaded_execution.rs:68-83. `none` when it takes more rounds
than `fuel`; the code has no such bound. -/
def startLoop (b : Behaviour σ) (limit : Option Nat) : Nat → Nat → State σ → Option (State σ)
  | 0, _, _ => none
  | fuel + 1, count, s =>
    match s.cancelling with
    | [] => some s
    | i :: is =>
      let s := visit b { s with cancelling := is, started := s.started ++ [i] } i
      if reached limit (count + 1) then some s else startLoop b limit fuel (count + 1) s

/-- The second loop of `poll`, single_threaded_execution.rs:86-95. -/
def runLoop (b : Behaviour σ) (limit : Option Nat) : Nat → Nat → State σ → Option (State σ)
  | 0, _, _ => none
  | fuel + 1, count, s =>
    match s.runnable with
    | [] => some s
    | i :: is =>
      let s := visit b { s with runnable := is, resumed := s.resumed ++ [i] } i
      if reached limit (count + 1) then some s else runLoop b limit fuel (count + 1) s

/-- `poll`, single_threaded_execution.rs:66-96. -/
def poll (b : Behaviour σ) (limit : Option Nat) (fuel : Nat) (s : State σ) : Option (State σ) :=
  (startLoop b limit fuel 0 s).bind (runLoop b limit fuel 0)

/-- What can happen: a cancelling task is sent, a future is woken, the executor is polled in a
flush. -/
inductive Ev where
  | send (i : Nat)
  | wake (i : Nat)
  | poll

def step (b : Behaviour σ) (limit : Option Nat) (fuel : Nat) (s : State σ) : Ev → Option (State σ)
  | .send i => some (send s i)
  | .wake i => some (wake s i)
  | .poll => poll b limit fuel s

def run (b : Behaviour σ) (limit : Option Nat) (fuel : Nat) :
    State σ → List Ev → Option (State σ)
  | s, [] => some s
  | s, e :: es => (step b limit fuel s e).bind fun s => run b limit fuel s es

/-- `new`, single_threaded_execution.rs:39-48. -/
def fresh (world : σ) : State σ := ⟨world, [], [], [], [], [], []⟩

end Verif.Poll

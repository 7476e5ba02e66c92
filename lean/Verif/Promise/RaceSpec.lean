/- Who may take part in the races of a promise, and when a thread has returned. -/
import Verif.Promise.Race

namespace Verif.Promise.Race

variable {V : Type}

/-- The calls that a thread can begin with. -/
inductive Begins : PC V → Prop where
  | idle : Begins .idle
  | set (v : V) : Begins (.sStart v)
  | wait (m : Bool) : Begins (.wStart m false)
  | interruptibleWait (m : Bool) : Begins (.wPush m)
  | future : Begins (.pIdle none)
  | interrupt : Begins .nStart
  | reset : Begins .rStart

/-- The thread is going to use the promise, mutably or not. -/
inductive Receives : PC V → Prop where
  | wait (m : Bool) : Receives (.wStart m false)
  | interruptibleWait (m : Bool) : Receives (.wPush m)
  | future : Receives (.pIdle none)

/-- The thread needs `&mut` access to the promise. -/
inductive Exclusive : PC V → Prop where
  | wait : Exclusive (.wStart true false)
  | interruptibleWait : Exclusive (.wPush true)
  | future : Exclusive (.pIdle none)

/-- What the types of the API permit: one sender, used once, and `&mut` access excludes
other users of the promise. -/
structure Legal (pc : Nat → PC V) : Prop where
  begins : ∀ t, Begins (pc t)
  oneSender : ∀ t u v w, pc t = .sStart v → pc u = .sStart w → t = u
  exclusive : ∀ t u, Exclusive (pc t) → Receives (pc u) → t = u

/-- Nothing can happen, spurious wake-ups and new polls apart. -/
def Stuck (st : St V) : Prop := ∀ t, step st t = none

/-- The call of the thread has returned. -/
inductive Returned : PC V → Prop where
  | idle : Returned .idle
  | set : Returned .sDone
  | wait (m i early : Bool) : Returned (.wDone m i early)
  | pending (w : Option Nat) : Returned (.pIdle w)
  | ready : Returned .pReady
  | interrupt : Returned .nDone
  | reset : Returned .rDone

/-- How many steps thread `t` takes in a run. -/
def turns (t : Nat) : St V → List Ev → Nat
  | _, [] => 0
  | st, e :: es =>
    (if e = .run t ∧ (step st t).isSome = true then 1 else 0) + turns t (act st e) es

/-- No sender takes the mutex while a poll is between its two critical sections. -/
def PollCalm (st : St V) : List Ev → Prop
  | [] => True
  | e :: es =>
    (∀ t v p w, e = .run t → st.pc t = .sStart v → st.pc p ≠ .pGap w) ∧ PollCalm (act st e) es

/-- No interrupter notifies while a waiter is between its decision to wait and blocking. -/
def InterruptCalm (st : St V) : List Ev → Prop
  | [] => True
  | e :: es =>
    (∀ t u rest p m i, e = .run t → st.pc t = .nStored u rest → st.pc p ≠ .wWill m i) ∧
      InterruptCalm (act st e) es

end Verif.Promise.Race

/-
Threads that send, wait for, poll and interrupt one promise, step by step.

Sources: /repo/src/promise/private.rs:49-69 (`Sender::set`), 106-135 (`impl_wait`),
/repo/src/promise.rs:81-138 (`wait` and its variants), 185-199 (`poll`), 342-396
(`Interrupter`). A step is an action that other threads can observe: acquiring a mutex, a
write, a notification, releasing a mutex. A critical section that no unlocked action can
interfere with is one step. Memory is sequentially consistent (the code loads the interrupt
flag with `Relaxed`). Poisoned mutexes are not modelled. The mutex of the promise's target
and the condition variable are shared by all threads; the interrupter has its own mutex.
-/
namespace Verif.Promise.Race

/-- Where a thread is. `m`: the `_mut` variant of waiting, `i`: the interruptible one. -/
inductive PC (V : Type) where
  /-- nothing to do -/
  | idle
  /-- `Sender::set(v)` is called -/
  | sStart (v : V)
  /-- holds the mutex, private.rs:53 -/
  | sLocked (v : V)
  /-- result written, private.rs:61 -/
  | sWritten
  /-- waker taken and woken, private.rs:62-64 -/
  | sWoken
  /-- waiters notified, private.rs:65; still holds the mutex -/
  | sNotified
  | sDone
  /-- `interruptible_wait(_mut)` is called, about to push, promise.rs:102, 131 -/
  | wPush (m : Bool)
  /-- `impl_wait` is called -/
  | wStart (m i : Bool)
  /-- holds the mutex, private.rs:110 -/
  | wLocked (m i : Bool)
  /-- holds the mutex, about to evaluate the condition, private.rs:126-132 -/
  | wLoop (m i : Bool)
  /-- the condition said to wait; still holds the mutex -/
  | wWill (m i : Bool)
  /-- blocked on the condition variable -/
  | wBlocked (m i : Bool)
  /-- woken, needs the mutex again -/
  | wRelock (m i : Bool)
  /-- waiting is over, holds the mutex -/
  | wGot (m i : Bool)
  /-- returned; `early`: the result was there on entry (private.rs:117-121) or the
  interrupter had been triggered -/
  | wDone (m i early : Bool)
  /-- between polls; the waker of the last poll, which returned `Pending` -/
  | pIdle (last : Option Nat)
  /-- `poll` is called with a waker -/
  | pTake (w : Nat)
  /-- `take` found nothing and released the mutex, promise.rs:189-190 -/
  | pGap (w : Nat)
  /-- `poll` returned `Ready` -/
  | pReady
  /-- `interrupt` is called -/
  | nStart
  /-- holds the mutex of the interrupter, the waiters still to be interrupted,
  promise.rs:352 -/
  | nLoop (rest : List Nat)
  /-- the flag of `u` is stored, promise.rs:353 -/
  | nStored (u : Nat) (rest : List Nat)
  | nDone
  /-- `reset` is called -/
  | rStart
  | rDone
  deriving DecidableEq, Repr

structure St (V : Type) where
  /-- holder of the mutex of the target -/
  lock : Option Nat
  /-- `PromiseTargetInner::result` -/
  result : Option V
  /-- `PromiseTargetInner::waker` -/
  waker : Option Nat
  /-- wakers that were woken -/
  woken : List Nat
  /-- what the promise itself has received (`Promise::state`) -/
  seen : Option V
  /-- the interrupt flags, by waiting thread -/
  flags : Nat → Bool
  /-- holder of the mutex of the interrupter -/
  ilock : Option Nat
  triggered : Bool
  waiters : List Nat
  pc : Nat → PC V

variable {V : Type}

def setPC (st : St V) (t : Nat) (p : PC V) : St V :=
  { st with pc := fun u => if u = t then p else st.pc u }

/-- What a notification does to a thread. -/
def awaken : PC V → PC V
  | .wBlocked m i => .wRelock m i
  | p => p

/-- `Condvar::notify_all`. -/
def notifyAll (st : St V) : St V := { st with pc := fun u => awaken (st.pc u) }

/-- One step of thread `t`, `none` if it cannot take one. -/
def step (st : St V) (t : Nat) : Option (St V) :=
  match st.pc t with
  | .idle => none
  | .sStart v =>
    if st.lock = none then some (setPC { st with lock := some t } t (.sLocked v)) else none
  | .sLocked v => some (setPC { st with result := some v } t .sWritten)
  | .sWritten =>
    some (setPC { st with waker := none, woken := st.woken ++ st.waker.toList } t .sWoken)
  | .sWoken => some (setPC (notifyAll st) t .sNotified)
  | .sNotified => some (setPC { st with lock := none } t .sDone)
  | .sDone => none
  | .wPush m =>
    if st.ilock = none then
      if st.triggered then some (setPC st t (.wDone m true true))
      else some (setPC { st with waiters := st.waiters ++ [t],
                                 flags := fun u => if u = t then false else st.flags u }
        t (.wStart m true))
    else none
  | .wStart m i =>
    if st.lock = none then some (setPC { st with lock := some t } t (.wLocked m i)) else none
  | .wLocked m i =>
    if st.result.isSome then some (setPC { st with lock := none } t (.wDone m i true))
    else some (setPC st t (.wLoop m i))
  | .wLoop m i =>
    if (i && st.flags t) || st.result.isSome then some (setPC st t (.wGot m i))
    else some (setPC st t (.wWill m i))
  | .wWill m i => some (setPC { st with lock := none } t (.wBlocked m i))
  | .wBlocked _ _ => none
  | .wRelock m i =>
    if st.lock = none then some (setPC { st with lock := some t } t (.wLoop m i)) else none
  | .wGot m i =>
    -- `impl_try_take_result` in the `_mut` variants, promise.rs:116-118, 132-134
    if m then
      some (setPC { st with lock := none, seen := st.result.or st.seen, result := none }
        t (.wDone m i false))
    else some (setPC { st with lock := none } t (.wDone m i false))
  | .wDone _ _ _ => none
  | .pIdle _ => none
  | .pTake w =>
    if st.lock = none then
      match st.result with
      | some v => some (setPC { st with result := none, seen := some v } t .pReady)
      | none => some (setPC st t (.pGap w))
    else none
  | .pGap w =>
    if st.lock = none then some (setPC { st with waker := some w } t (.pIdle (some w))) else none
  | .pReady => none
  | .nStart =>
    if st.ilock = none then
      some (setPC { st with ilock := some t, triggered := true } t (.nLoop st.waiters))
    else none
  | .nLoop (u :: rest) =>
    some (setPC { st with flags := fun x => if x = u then true else st.flags x } t (.nStored u rest))
  | .nLoop [] => some (setPC { st with waiters := [], ilock := none } t .nDone)
  | .nStored _ rest => some (setPC (notifyAll st) t (.nLoop rest))
  | .nDone => none
  | .rStart => if st.ilock = none then some (setPC { st with triggered := false } t .rDone) else none
  | .rDone => none

/-- The schedule: which thread runs, spurious wake-ups of blocked threads, and new polls
between polls. -/
inductive Ev where
  | run (t : Nat)
  | spurious (t : Nat)
  | poll (t w : Nat)
  deriving DecidableEq, Repr

/-- What cannot happen does not happen. -/
def act (st : St V) : Ev → St V
  | .run t => (step st t).getD st
  | .spurious t =>
    match st.pc t with
    | .wBlocked m i => setPC st t (.wRelock m i)
    | _ => st
  | .poll t w =>
    match st.pc t with
    | .pIdle _ => setPC st t (.pTake w)
    | _ => st

def run (st : St V) (evs : List Ev) : St V := evs.foldl act st

/-- A new promise and the calls that threads are about to make. -/
def init (pc : Nat → PC V) : St V :=
  ⟨none, none, none, [], none, fun _ => false, none, false, [], pc⟩

end Verif.Promise.Race

/-
Promises at the granularity of their critical sections, and flattening.

Sources: /repo/src/promise.rs, /repo/src/promise/private.rs. Each function below is one
critical section of the target's mutex (or touches only data owned by the caller), so a
sequence of calls is an interleaving of the threads involved. Blocking and waking are in
Verif.Promise.Race. Not modelled: poisoned mutexes (a panic while the lock is held).
-/
namespace Verif.Promise

/-- `PromiseResult`, private.rs:276-280. -/
inductive Result (T E : Type) where
  | available (v : T)
  | cancelled (c : E)
  | disposed
  deriving DecidableEq, Repr

/-- `PromiseState`, promise.rs:203-215. -/
inductive State (T E : Type) where
  | available (v : T)
  | pending
  | cancelled (c : E)
  | disposed
  | taken
  deriving DecidableEq, Repr

variable {T E : Type}

/-- `PromiseState::is_pending`, promise.rs:239-241. -/
def State.isPending : State T E → Bool
  | .pending => true
  | _ => false

/-- `PromiseState::take`, promise.rs:262-272: the state left behind. The state returned is
the one before. -/
def State.take : State T E → State T E
  | .available _ => .taken
  | s => s

/-- `PromiseState::update`, promise.rs:288-303. -/
def State.update (s : State T E) : Option (Result T E) → State T E
  | some (.available v) => .available v
  | some (.cancelled c) => .cancelled c
  | some .disposed => .disposed
  | none => s

/-- A promise, its target and its sender: `Promise` (promise.rs:36-44), `PromiseTarget`
(private.rs:282-303), `Sender` (private.rs:28-31). -/
structure Cell (T E : Type) where
  /-- `Promise::state`, the state last seen -/
  state : State T E
  /-- `PromiseTargetInner::result` -/
  result : Option (Result T E)
  /-- the promise exists, so that the `Weak` of the sender can be upgraded -/
  promise : Bool
  /-- the sender exists -/
  sender : Bool
  /-- `on_promise_drop` is set -/
  onDrop : Bool
  /-- how often a function given to `on_promise_drop` was called -/
  fired : Nat
  deriving DecidableEq, Repr

/-- `Promise::new`, private.rs:95-104. -/
def Cell.new : Cell T E := ⟨.pending, none, true, true, false, 0⟩

/-- `Sender::set`, private.rs:49-69, without `on_result_arrival`; the flag is `sent`. -/
def Cell.set (c : Cell T E) (r : Result T E) : Cell T E × Bool :=
  if c.promise then ({ c with result := some r }, true) else (c, false)

/-- The end of a sender: `send`, `cancel` (private.rs:41-47), both followed by the drop of
the sender (private.rs:86-92), or only the drop. -/
def Cell.finish (c : Cell T E) (r : Option (Result T E)) : Cell T E :=
  if c.sender then
    let c1 := match r with
      | some r => c.set r
      | none => (c, false)
    let c2 := if c1.2 then c1.1 else (c1.1.set .disposed).1
    { c2 with sender := false }
  else c

/-- `Promise::update`, promise.rs:144-158. -/
def Cell.update (c : Cell T E) : Cell T E :=
  if c.state.isPending then { c with state := c.state.update c.result, result := none } else c

/-- `Promise::take`, promise.rs:70-73. -/
def Cell.take (c : Cell T E) : Cell T E × State T E :=
  ({ c.update with state := c.update.state.take }, c.update.state)

/-- `Drop for Promise`, promise.rs:168-183. -/
def Cell.dropPromise (c : Cell T E) : Cell T E :=
  let c1 := if c.state.isPending && c.onDrop then { c with onDrop := false, fired := c.fired + 1 }
    else c
  { c1 with promise := false }

/-- `Sender::on_promise_drop`, private.rs:71-83. -/
def Cell.onPromiseDrop (c : Cell T E) : Cell T E :=
  if c.promise then { c with onDrop := true } else { c with fired := c.fired + 1 }

/-- Calls of the two owners. Rust's ownership makes calls on a promise or a sender that no
longer exists impossible: they do nothing. -/
inductive Op (T E : Type) where
  /-- the sender sends, cancels, or is dropped -/
  | finish (r : Option (Result T E))
  /-- the sender registers a function for the drop of the promise -/
  | onPromiseDrop
  | update
  | peek
  | sneakPeek
  | take
  | dropPromise
  deriving DecidableEq, Repr

inductive Out (T E : Type) where
  | unit
  | saw (s : State T E)
  | took (s : State T E)
  deriving DecidableEq, Repr

def Cell.step (c : Cell T E) : Op T E → Cell T E × Out T E
  | .finish r => (c.finish r, .unit)
  | .onPromiseDrop => (if c.sender then c.onPromiseDrop else c, .unit)
  | .update => (if c.promise then c.update else c, .unit)
  -- promise.rs:62-65
  | .peek => if c.promise then (c.update, .saw c.update.state) else (c, .unit)
  -- promise.rs:52-54
  | .sneakPeek => if c.promise then (c, .saw c.state) else (c, .unit)
  | .take => if c.promise then (c.take.1, .took c.take.2) else (c, .unit)
  | .dropPromise => (if c.promise then c.dropPromise else c, .unit)

def Cell.run (c : Cell T E) : List (Op T E) → Cell T E × List (Out T E)
  | [] => (c, [])
  | o :: ops =>
    let r := c.step o
    let r' := Cell.run r.1 ops
    (r'.1, r.2 :: r'.2)

/-! ### Flattening -/

/-- Where the inner promise is. -/
inductive Place where
  /-- with the user, not sent yet -/
  | user
  /-- inside the outer promise: in its target's result or its state -/
  | outer
  /-- kept alive by the flat promise: `dependencies` (private.rs:193), or the
  `future_dependency` of the outer promise (private.rs:242) -/
  | flat
  /-- dropped -/
  | gone
  deriving DecidableEq, Repr

/-- A nested promise and the flat one. The value of the outer promise is the inner
promise, so `Unit`. -/
structure World (T E : Type) where
  outer : Cell Unit E
  inner : Cell T E
  flat : Cell T E
  place : Place
  /-- `flatten` was called: the user has the flat promise instead of the outer one -/
  flattened : Bool
  /-- `on_result_arrival` of the outer target is set (private.rs:203) -/
  outerHook : Bool
  /-- `on_result_arrival` of the inner target is set (private.rs:182, 221) -/
  innerHook : Bool
  deriving DecidableEq, Repr

def World.new : World T E := ⟨.new, .new, .new, .user, false, false, false⟩

/-- What a `PromiseState` becomes when sent on: private.rs:215-232. `Taken` counts as
disposed. `none`: pending. -/
def State.forward : State T E → Option (Option (Result T E))
  | .available v => some (some (.available v))
  | .cancelled c => some (some (.cancelled c))
  | .disposed | .taken => some none
  | .pending => none

/-- The closure in `on_result_arrival` of the outer target, private.rs:204-251. -/
def outerArrival (w : World T E) : Result Unit E → World T E
  | .available () =>
    let inner := w.inner.update
    match inner.state.forward with
    | some r =>
      { w with inner := { inner with state := inner.state.take, promise := false }
               flat := w.flat.finish r
               place := .gone }
    | none => { w with inner := inner, innerHook := true, place := .flat }
  | .cancelled c => { w with flat := w.flat.finish (some (.cancelled c)) }
  | .disposed => { w with flat := w.flat.finish none }

/-- The result carries the inner promise. -/
def carries : Option (Result Unit E) → Bool
  | some (.available ()) => true
  | _ => false

/-- `Sender::set` of the outer promise and the drop of the sender, private.rs:41-69, 86-92.
Sending the inner promise takes it from the user; if the outer promise does not exist any
more the inner promise is dropped by the caller. -/
def World.outerFinish (w : World T E) (r : Option (Result Unit E)) : World T E :=
  if w.outer.sender then
    -- a promise that the user does not have cannot be sent
    let r := if carries r && !decide (w.place = .user) then none else r
    if w.outer.promise then
      if w.outerHook then
        let w1 := outerArrival { w with outerHook := false } (r.getD .disposed)
        { w1 with outer := { w1.outer with sender := false } }
      else
        { w with outer := w.outer.finish r
                 place := if carries r then .outer else w.place }
    else if carries r then
      { w with outer := w.outer.finish r, inner := w.inner.dropPromise, place := .gone }
    else { w with outer := w.outer.finish r }
  else w

/-- `Sender::set` of the inner promise and the drop of the sender. With the hook the
result goes to the flat sender (private.rs:183-185, 222-224). -/
def World.innerFinish (w : World T E) (r : Option (Result T E)) : World T E :=
  if w.inner.sender then
    if w.innerHook && w.inner.promise then
      { w with inner := { w.inner with sender := false }, innerHook := false,
               flat := w.flat.finish (some (r.getD .disposed)) }
    else { w with inner := w.inner.finish r }
  else w

/-- `impl_flatten`, private.rs:160-272. The new flat sender is dropped at the end unless a
hook holds it; the state of the flat promise is then already final. -/
def World.flatten (w : World T E) : World T E :=
  if w.flattened || !w.outer.promise then w else
  let outer := w.outer.update
  let w := { w with outer := { outer with state := outer.state.take }, flattened := true }
  match outer.state with
  | .available () =>
    let inner := w.inner.update
    let flatState := inner.state
    if flatState.isPending then
      -- private.rs:180-194; the outer promise is dropped
      { w with inner := inner, innerHook := true, place := .flat,
               outer := w.outer.dropPromise, flat := { w.flat with state := .pending } }
    else
      { w with inner := ({ inner with state := inner.state.take } : Cell T E).dropPromise,
               place := .gone,
               outer := w.outer.dropPromise,
               flat := { w.flat with state := flatState }.finish none }
  | .pending =>
    -- private.rs:198-254, 267-269; the outer promise is kept
    { w with outerHook := true }
  | .cancelled c =>
    { w with outer := w.outer.dropPromise, flat := { w.flat with state := .cancelled c }.finish none }
  | .disposed =>
    { w with outer := w.outer.dropPromise, flat := { w.flat with state := .disposed }.finish none }
  | .taken =>
    { w with outer := w.outer.dropPromise, flat := { w.flat with state := .taken }.finish none }

/-- Dropping the flat promise: its own drop, then its dependencies (promise.rs:43): the
outer promise if it was pending at `flatten`, and the inner promise. -/
def World.dropFlat (w : World T E) : World T E :=
  if w.flattened && w.flat.promise then
    let w := { w with flat := w.flat.dropPromise }
    let w := if w.outer.promise then { w with outer := w.outer.dropPromise } else w
    if w.place = .flat then { w with inner := w.inner.dropPromise, place := .gone } else w
  else w

/-- The calls of all parties. -/
inductive WOp (T E : Type) where
  | outerFinish (r : Option (Result Unit E))
  | innerFinish (r : Option (Result T E))
  | outerOnDrop
  | innerOnDrop
  /-- looking at the outer promise before `flatten` -/
  | outerPeek
  /-- looking at the inner promise while the user has it -/
  | innerPeek
  /-- taking the result of the inner promise while the user has it -/
  | innerTake
  | flatten
  | flatPeek
  | flatTake
  | flatDrop
  deriving DecidableEq, Repr

def World.step (w : World T E) : WOp T E → World T E × Out T E
  | .outerFinish r => (w.outerFinish r, .unit)
  | .innerFinish r => (w.innerFinish r, .unit)
  | .outerOnDrop => (if w.outer.sender then { w with outer := w.outer.onPromiseDrop } else w, .unit)
  | .innerOnDrop => (if w.inner.sender then { w with inner := w.inner.onPromiseDrop } else w, .unit)
  | .outerPeek =>
    (if !w.flattened && w.outer.promise then { w with outer := w.outer.update } else w, .unit)
  | .innerPeek => (if w.place = .user then { w with inner := w.inner.update } else w, .unit)
  | .innerTake =>
    if w.place = .user then ({ w with inner := w.inner.take.1 }, .took w.inner.take.2) else (w, .unit)
  | .flatten => (w.flatten, .unit)
  | .flatPeek =>
    if w.flattened && w.flat.promise then
      ({ w with flat := w.flat.update }, .saw w.flat.update.state)
    else (w, .unit)
  | .flatTake =>
    if w.flattened && w.flat.promise then
      ({ w with flat := w.flat.take.1 }, .took w.flat.take.2)
    else (w, .unit)
  | .flatDrop => (w.dropFlat, .unit)

def World.run (w : World T E) : List (WOp T E) → World T E × List (Out T E)
  | [] => (w, [])
  | o :: ops =>
    let r := w.step o
    let r' := World.run r.1 ops
    (r'.1, r.2 :: r'.2)

end Verif.Promise

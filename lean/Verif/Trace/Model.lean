import Verif.Sched.Model

/-
Model of tracing: the event that an operation sends when it takes an input, with the stack of
sessions, on top of operations driven by the flush loop (Verif.Sched).

Source: /repo/src/trace.rs, /repo/src/input.rs:268-328 with the feature `trace`.

Left out: inputs that are taken elsewhere than in the execution of an operation
(`dispose_for_despawned_service` empties the queue of a node whose service was removed, which
sends events too), and the type of the message in the `OperationInfo`.
-/
namespace Verif.Trace

open Verif.Input Verif.Flush

/-! ### Sessions -/

/-- The session entities: `next` is the next entity to be spawned, `parent` their `ChildOf`. -/
structure Forest where
  next : Nat
  parent : Nat → Option Nat

/-- The loop of src/input.rs:304-309, with the sessions it has pushed. `none` if it did not end
within the given number of rounds (the loop has no such limit). -/
def climb (parent : Nat → Option Nat) : Nat → Nat → List Nat → Option (List Nat)
  | 0, _, _ => none
  | fuel + 1, s, pushed =>
    match parent s with
    | none => some pushed
    | some p => climb parent fuel p (pushed ++ [p])

/-- `session_stack`, src/input.rs:302-310. -/
def Forest.stack (f : Forest) (s : Nat) : Option (List Nat) :=
  (climb f.parent (f.next + 1) s [s]).map List.reverse

/-- What is done to sessions. -/
inductive FOp where
  /-- a new target, with no parent -/
  | root
  /-- a session is made inside of another one: src/operation/scope.rs:376-379 (a scope begins),
  1546-1549 (a cleanup workflow begins), src/service/workflow.rs:120-124 (a workflow is called),
  src/request.rs:97-111 (the source of a series, a child of its target) -/
  | child (p : Nat)
  /-- a series goes on: what was its end becomes a child of the new end, src/series.rs:148-161
  (`AddExecution`, src/series/internal.rs:85-87, then inserts the same parent once more) -/
  | extend (c : Nat)
  /-- `ChildOf` is removed from a detached series, src/flush.rs:374 -/
  | detach (c : Nat)
  /-- an entity is despawned together with its descendants -/
  | despawn (c : Nat)
  deriving DecidableEq, Repr

/-- Entities that do not exist are left alone (commands on them fail). Simplification: entities
that were despawned count as existing without a parent. -/
def Forest.apply (f : Forest) : FOp → Forest
  | .root => { f with next := f.next + 1 }
  | .child p =>
    if p < f.next then
      ⟨f.next + 1, fun x => if x = f.next then some p else f.parent x⟩
    else f
  | .extend c =>
    if c < f.next then
      ⟨f.next + 1, fun x => if x = c then some f.next else f.parent x⟩
    else f
  | .detach c => { f with parent := fun x => if x = c then none else f.parent x }
  | .despawn c =>
    { f with parent := fun x =>
        if c ∈ (f.stack x).getD [] then none else f.parent x }

def Forest.applyAll (f : Forest) (ops : List FOp) : Forest := ops.foldl Forest.apply f

/-- No session yet. -/
def Forest.empty : Forest := ⟨0, fun _ => none⟩

/-! ### The trace of an operation -/

/-- `TraceToggle`, src/diagram.rs:404-421. -/
inductive Toggle where
  | off
  | on
  | messages
  deriving DecidableEq, Repr

/-- `is_on`, src/diagram.rs:424-426. -/
def Toggle.isOn (t : Toggle) : Bool := t ≠ .off

/-- `with_messages`, src/diagram.rs:428-430. -/
def Toggle.withMessages (t : Toggle) : Bool := t = .messages

/-- `Trace`, src/trace.rs:30-34. A message of type `T` is serialised into `J` or fails with `X`;
the downcast of `get_serialize_value` (73-82) cannot fail, since `Trace` is inserted for the type
of the input. -/
structure Trace (I T J X : Type) where
  toggle : Toggle
  info : I
  ser : Option (T → Except X J)

/-- `OperationStarted`, src/trace.rs:99-120. -/
structure Event (E I J : Type) where
  operation : E
  stack : List Nat
  info : I
  message : Option J
  deriving DecidableEq, Repr

variable {E T U I J X : Type} [DecidableEq E]

/-- The world with the components and events of tracing, and the errors that were reported. -/
structure World (E T U I J X : Type) where
  base : Sched.World E Nat T U
  trace : E → Option (Trace I T J X)
  forest : Forest
  events : List (Event E I J)
  errors : List X

/-- The message of the event, src/input.rs:279-285: `then`, `flatten`, `transpose`. -/
def Trace.message (tr : Trace I T J X) (d : T) : Except X (Option J) :=
  if tr.toggle.withMessages then
    match tr.ser with
    | none => .ok none
    | some f =>
      match f d with
      | .ok j => .ok (some j)
      | .error x => .error x
  else .ok none

/-- The part of `try_take_input` under the feature `trace`, src/input.rs:274-325, after the input
`i` was popped. `false`: it returns `Broken`. A stack that has no end counts as an empty one
(excluded by C101). -/
def started (w : World E T U I J X) (e : E) (i : Inp Nat T) : World E T U I J X × Bool :=
  match w.trace e with
  | none => (w, true)
  | some tr =>
    if tr.toggle.isOn then
      match tr.message i.data with
      | .error x => ({ w with errors := w.errors ++ [x] }, false)
      | .ok message =>
        ({ w with events := w.events ++
            [⟨e, (w.forest.stack i.session).getD [], tr.info, message⟩] }, true)
    else (w, true)

/-- An application with tracing: what it does (`Sched.App`), and what each call-out of the flush
does to sessions and to the settings of traces. -/
structure App (E T U I J X : Type) where
  app : Sched.App E Nat T U
  sessions : Call E → U → List FOp
  settings : Call E → U → (E → Option (Trace I T J X)) → (E → Option (Trace I T J X))

/-- The call-out is over: sessions and settings have changed. -/
def App.after (A : App E T U I J X) (c : Call E) (u : U) (w : World E T U I J X) :
    World E T U I J X :=
  { w with
    forest := w.forest.applyAll (A.sessions c u)
    trace := A.settings c u w.trace }

/-- The flush program of an application with tracing: as `Sched.App.prog`, except that taking an
input sends an event or is broken. The input is gone in both cases. -/
def App.prog (A : App E T U I J X) : Prog (World E T U I J X) E where
  params := fun w => A.app.params w.base
  call := fun c w =>
    match c with
    | .entry .queue e =>
      match takeInput (w.base.nodes e) with
      | .error .notReady => (w, [])
      | .error .broken => (w, [.put .cancel e])
      | .ok (n, i) =>
        let w1 := { w with base := Sched.setNode w.base e n }
        let st := started w1 e i
        if st.2 then
          let u := A.app.op e i st.1.base.user
          let r := Sched.acts { st.1.base with user := u.1 } u.2
          (A.after c w.base.user { st.1 with base := r.1 },
            if r.2.2 then r.2.1 ++ [.put .cancel e] else r.2.1)
        else (st.1, [.put .cancel e])
    | c =>
      let r := A.app.prog.call c w.base
      (A.after c w.base.user { w with base := r.1 }, r.2)

/-- What can happen: a step of the flush, or somebody else does something. -/
inductive Ev (E T U I J X : Type) where
  | tick
  | env (f : Sched.World E Nat T U → Sched.World E Nat T U) (sessions : List FOp)
      (settings : (E → Option (Trace I T J X)) → (E → Option (Trace I T J X)))
      (later : List (Kind × E)) (chan wake : List E)

/-- The event for the flush with tracing. -/
def Ev.up : Ev E T U I J X → Flush.Ev (World E T U I J X) E
  | .tick => .tick
  | .env f ss g l c w =>
    .env (fun x => { x with base := f x.base, forest := x.forest.applyAll ss, trace := g x.trace })
      l c w

/-- The same event without tracing. -/
def Ev.down : Ev E T U I J X → Flush.Ev (Sched.World E Nat T U) E
  | .tick => .tick
  | .env f _ _ l c w => .env f l c w

/-- The state without tracing. -/
def plain (s : St (World E T U I J X) E) : St (Sched.World E Nat T U) E :=
  ⟨s.world.base, s.roster, s.later, s.chan, s.wake, s.loopCount, s.received, s.params, s.phase⟩

end Verif.Trace

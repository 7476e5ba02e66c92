import Verif.Buffer.Model

/-
Model of the input queue of an operation.

Source: /repo/src/input.rs.
-/
namespace Verif.Input

open Verif.Buffer (Storage)

/-- `Input<T>`, src/input.rs:42-45: a message together with its session. -/
structure Inp (S T : Type) where
  session : S
  data : T
  deriving DecidableEq, Repr

/-- `OperationError`, restricted to the two cases of the code. -/
inductive Err where
  | notReady
  | broken
  deriving DecidableEq, Repr

/-- The components of the entity of an operation that matter to input handling:
`InputStorage<T>` (src/input.rs:56-59; a reverse queue, index 0 is the newest,
`none` when the entity has no such component), the `UnusedTarget` marker, the
`Detached` component (`none` when absent) and, for buffer operations,
`BufferStorage<T>`. -/
structure Node (S T : Type) where
  storage : Option (List (Inp S T))
  unused : Bool
  detached : Option Bool
  buffer : Option (Storage S T)

variable {S T : Type} [DecidableEq S]

/-- What `sneak_input` does besides changing the node. -/
inductive Sneak where
  /-- `Ok(true)`: the caller must schedule the operation. -/
  | schedule
  /-- `Ok(false)` because the session is not active. -/
  | ignored
  /-- `Ok(false)` after `roster.defer_despawn`. -/
  | despawn
  deriving DecidableEq, Repr

/-- `sneak_input`, src/input.rs:197-262. `active` tells whether the session entity
exists and carries `SessionStatus::Active`. The miscellaneous error report of the
broken case is not modelled. -/
def sneakInput (n : Node S T) (active onlyIfActive : Bool) (s : S) (d : T) :
    Except Err (Node S T × Sneak) :=
  if onlyIfActive && !active then .ok (n, .ignored)
  else
    match n.storage with
    | some q => .ok ({ n with storage := some (⟨s, d⟩ :: q) }, .schedule)
    | none =>
      if !n.unused then
        if n.detached = some true then .ok (n, .despawn)
        else .error .broken
      else .ok (n, .schedule)

/-- `give_input`, src/input.rs:173-183: the result says whether the operation was
put in `roster.queue`. -/
def giveInput (n : Node S T) (active : Bool) (s : S) (d : T) : Except Err (Node S T × Sneak) :=
  sneakInput n active true s d

/-- `try_take_input`, src/input.rs:268-328 without tracing. -/
def tryTakeInput (n : Node S T) : Except Err (Node S T × Option (Inp S T)) :=
  match n.storage with
  | none => .error .broken
  | some q => .ok ({ n with storage := some q.dropLast }, q.getLast?)

/-- `take_input`, src/input.rs:264-266. -/
def takeInput (n : Node S T) : Except Err (Node S T × Inp S T) :=
  match tryTakeInput n with
  | .error e => .error e
  | .ok (_, none) => .error .notReady
  | .ok (n', some i) => .ok (n', i)

/-- `InputStorage::contains_session` / `has_input`, src/input.rs:68-72, 377-389. -/
def hasInput (n : Node S T) (s : S) : Except Err Bool :=
  match n.storage with
  | none => .error .broken
  | some q => .ok (q.any fun i => decide (i.session = s))

/-- The indices collected in `cleanup_inputs`, src/input.rs:339-350. -/
def indicesOf (q : List (Inp S T)) (s : S) : List Nat :=
  (q.zipIdx).filterMap fun p => if p.1.session = s then some p.2 else none

/-- The removal loop of `cleanup_inputs`, src/input.rs:352-355: remove the given
indices one after the other, collecting the data. -/
def removeLoop (q : List (Inp S T)) : List Nat → List (Inp S T) × List T
  | [] => (q, [])
  | i :: is =>
    let r := removeLoop (q.eraseIdx i) is
    (r.1, (match q[i]? with | some x => [x.data] | none => []) ++ r.2)

/-- `cleanup_inputs`, src/input.rs:330-374. -/
def cleanupInputs (n : Node S T) (s : S) : Node S T :=
  match n.buffer with
  | some b =>
    match n.storage with
    | some q =>
      let r := removeLoop q (indicesOf q s).reverse
      { n with
        storage := some r.1
        buffer := some (r.2.reverse.foldl (fun b d => (b.forcePush s d).1) b) }
    | none => n
  | none =>
    match n.storage with
    | some q => { n with storage := some (q.filter fun i => decide (i.session ≠ s)) }
    | none => n

/-- External events of one operation. -/
inductive Ev (S T : Type) where
  /-- someone sends `d` in session `s`; `active` is the state of the session then -/
  | send (s : S) (d : T) (active : Bool)
  /-- the operation takes an input -/
  | take
  /-- the operation is cleaned for session `s` -/
  | cleanup (s : S)

/-- Observable result of an event. -/
inductive Obs (S T : Type) where
  | sent (r : Except Err Sneak)
  | took (r : Except Err (Inp S T))
  | cleaned

def step (n : Node S T) : Ev S T → Node S T × Obs S T
  | .send s d a =>
    match giveInput n a s d with
    | .ok (n', r) => (n', .sent (.ok r))
    | .error e => (n, .sent (.error e))
  | .take =>
    match takeInput n with
    | .ok (n', i) => (n', .took (.ok i))
    | .error e => (n, .took (.error e))
  | .cleanup s => (cleanupInputs n s, .cleaned)

def run (n : Node S T) : List (Ev S T) → Node S T × List (Obs S T)
  | [] => (n, [])
  | e :: es =>
    let r := step n e
    let r' := run r.1 es
    (r'.1, r.2 :: r'.2)

/-- The inputs waiting at the operation, in the order they will be taken. -/
def pending (n : Node S T) : List (Inp S T) := (n.storage.getD []).reverse

end Verif.Input

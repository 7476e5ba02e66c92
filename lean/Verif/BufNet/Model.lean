import Verif.Buffer.Model

/-
Buffers with gates and listeners (joins and listens), driven by a first-in-first-out
schedule of executions.

Sources: /repo/src/operation/operate_buffer.rs, join.rs, listen.rs, operate_gate.rs,
/repo/src/buffer/buffering.rs, buffer_gate.rs, manage_buffer.rs, /repo/src/buffer.rs.
The storage of a buffer is the model of src/buffer/buffer_storage.rs (Verif.Buffer).
Input queues are first-in-first-out lists, as proved in Verif.Input (C07). The
schedule is the `queue` of the roster; entries that go to the `DeferredRoster` are
appended to it, as the next flush does.
-/
namespace Verif.BufNet

open Verif.Buffer (Storage Retention)

/-- `Gate`, src/gate.rs:20-34. -/
inductive Gate where
  | open
  | closed
  deriving DecidableEq, Repr

/-- `JoinBehavior`, src/buffer/any_buffer.rs:188-194: pull the value or clone it. -/
inductive Mode where
  | pull
  | clone
  deriving DecidableEq, Repr

/-- What a listener of buffers does: `Join` (src/operation/join.rs) with its buffers, or
`Listen` (src/operation/listen.rs). -/
inductive Kind (B : Type) where
  | join (bufs : List (B × Mode))
  | listen
  deriving DecidableEq, Repr

/-- The components of a buffer operation: pending inputs, `BufferStorage<T>`,
`GateState` (operate_buffer.rs:128-131, a map that may lack the session) and
`ForkTargetStorage`. -/
structure BufNode (L S T : Type) where
  input : List (S × T)
  store : Storage S T
  gate : S → Option Gate
  listeners : List L

/-- A listener: the sessions of its pending `()` inputs. -/
structure LisNode (B S : Type) where
  pending : List S
  kind : Kind B

/-- An entry of the schedule. -/
inductive Target (B L : Type) where
  | buf (b : B)
  | lis (l : L)
  deriving DecidableEq, Repr

structure St (B L S T : Type) where
  active : S → Bool
  buf : B → BufNode L S T
  lis : L → LisNode B S
  roster : List (Target B L)

/-- What happened (nothing in the model reads it). -/
inductive Hist (B L S T : Type) where
  /-- a value was accepted by a buffer operation -/
  | sent (b : B) (s : S) (v : T)
  /-- buffer `b` woke listener `l` -/
  | woke (b : B) (l : L) (s : S)
  /-- a join sent a message: what it took from each buffer -/
  | joined (l : L) (s : S) (items : List (B × Mode × T))
  /-- a listen sent its keys -/
  | listened (l : L) (s : S)
  /-- the operation returned `Broken` -/
  | broken (l : L)
  deriving DecidableEq, Repr

variable {B L S T : Type} [DecidableEq B] [DecidableEq L] [DecidableEq S]

def setBuf (st : St B L S T) (b : B) (n : BufNode L S T) : St B L S T :=
  { st with buf := fun x => if x = b then n else st.buf x }

def setLis (st : St B L S T) (l : L) (n : LisNode B S) : St B L S T :=
  { st with lis := fun x => if x = l then n else st.lis x }

/-- `give_input(session, (), roster)` on a listener, src/input.rs:173-183, 197-228:
ignored when the session is not active. -/
def wake (b : B) (s : S) (st : St B L S T) (l : L) : St B L S T × List (Hist B L S T) :=
  if st.active s then
    (setLis { st with roster := st.roster ++ [.lis l] } l
      { st.lis l with pending := (st.lis l).pending ++ [s] }, [.woke b l s])
  else (st, [])

/-- Waking several listeners one after the other. -/
def wakeAll (b : B) (s : S) (st : St B L S T) : List L → St B L S T × List (Hist B L S T)
  | [] => (st, [])
  | l :: ls =>
    let r := wake b s st l
    let r' := wakeAll b s r.1 ls
    (r'.1, r.2 ++ r'.2)

/-- `GateState::is_closed`, operate_buffer.rs:171-173. -/
def isClosed (n : BufNode L S T) (s : S) : Bool := (n.gate s).getD .open == .closed

/-- `OperateBuffer::execute`, operate_buffer.rs:66-95. An absent input is `NotReady`,
which changes nothing. -/
def execBuf (st : St B L S T) (b : B) : St B L S T × List (Hist B L S T) :=
  match (st.buf b).input with
  | [] => (st, [])
  | (s, v) :: rest =>
    let n := { st.buf b with input := rest, store := ((st.buf b).store.forcePush s v).1 }
    let st1 := setBuf st b n
    if isClosed n s then (st1, []) else wakeAll b s st1 n.listeners

/-- `Buffering::buffered_count` of a collection of buffers, buffering.rs:410-421,
555-565: the smallest count, 0 if there is no buffer. -/
def bufferedCount (st : St B L S T) (s : S) (bufs : List (B × Mode)) : Nat :=
  ((bufs.map fun p => (st.buf p.1).store.count s).min?).getD 0

/-- `fetch_for_join` of a collection, buffering.rs:489-498: one buffer after the other;
`pull_from_buffer` / `clone_from_buffer` (manage_buffer.rs:33-39, 60-66, 81-87). `none`:
`Broken`, what was pulled before is lost. -/
def fetch (s : S) (st : St B L S T) :
    List (B × Mode) → St B L S T × Option (List (B × Mode × T))
  | [] => (st, some [])
  | (b, .pull) :: rest =>
    let r := (st.buf b).store.pull s
    let st1 := setBuf st b { st.buf b with store := r.1 }
    match r.2 with
    | none => (st1, none)
    | some v =>
      let r' := fetch s st1 rest
      (r'.1, r'.2.map ((b, .pull, v) :: ·))
  | (b, .clone) :: rest =>
    match (st.buf b).store.oldest s with
    | none => (st, none)
    | some v =>
      let r' := fetch s st rest
      (r'.1, r'.2.map ((b, .clone, v) :: ·))

/-- `Join::execute` (join.rs:61-85) and `Listen::execute` (listen.rs:63-82). The message
to the target is recorded in the history. -/
def execLis (st : St B L S T) (l : L) : St B L S T × List (Hist B L S T) :=
  match (st.lis l).pending with
  | [] => (st, [])
  | s :: rest =>
    let st1 := setLis st l { st.lis l with pending := rest }
    match (st.lis l).kind with
    | .listen => (st1, [.listened l s])
    | .join bufs =>
      if bufferedCount st1 s bufs < 1 then (st1, [])
      else
        match fetch s st1 bufs with
        | (st2, some items) => (st2, [.joined l s items])
        | (st2, none) => (st2, [.broken l])

/-- Execute the next entry of the schedule. -/
def exec (st : St B L S T) : St B L S T × List (Hist B L S T) :=
  match st.roster with
  | [] => (st, [])
  | .buf b :: rest => execBuf { st with roster := rest } b
  | .lis l :: rest => execLis { st with roster := rest } l

/-- An input for a buffer operation: `give_input(session, data, roster)`. -/
def send (st : St B L S T) (b : B) (s : S) (v : T) : St B L S T × List (Hist B L S T) :=
  if st.active s then
    (setBuf { st with roster := st.roster ++ [.buf b] } b
      { st.buf b with input := (st.buf b).input ++ [(s, v)] }, [.sent b s v])
  else (st, [])

/-- `GateState::apply`, operate_buffer.rs:134-167, on one buffer; called by the gate
operations (operate_gate.rs:94, 184) for each of their buffers. -/
def gateAction (st : St B L S T) (b : B) (s : S) (g : Gate) : St B L S T × List (Hist B L S T) :=
  let n := st.buf b
  let cur := (n.gate s).getD .open
  -- `entry(session).or_insert(Gate::Open)`
  let st0 := setBuf st b { n with gate := fun x => if x = s then some cur else n.gate x }
  if cur = g then (st0, [])
  else
    let st1 := setBuf st b { n with gate := fun x => if x = s then some g else n.gate x }
    if g = .open then wakeAll b s st1 n.listeners else (st1, [])

/-- `NotifyBufferUpdate::apply`, operate_buffer.rs:304-337. -/
def notifyUpdate (st : St B L S T) (b : B) (s : S) (accessor : Option L) :
    St B L S T × List (Hist B L S T) :=
  if isClosed (st.buf b) s then (st, [])
  else
    wakeAll b s st ((st.buf b).listeners.filter fun l => !(decide (accessor = some l)))

/-- The methods of `BufferMut` that set `modified`, src/buffer.rs:698-787. The reading
methods (`iter`, `oldest`, `newest`, `get`, `len`) do not. -/
def marks : Buffer.Op T → Bool
  | .readAll | .count | .oldest | .newest | .get _ => false
  | _ => true

/-- Using a `BufferMut` of key `(b, s)` and dropping it, src/buffer.rs:632-820: the calls
made, whether `pulse` was called, and the accessor (`none` after
`allow_closed_loops`). -/
def keyAccess (st : St B L S T) (b : B) (s : S) (accessor : Option L)
    (ops : List (Buffer.Op T)) (pulse : Bool) : St B L S T × List (Hist B L S T) :=
  let st1 := setBuf st b
    { st.buf b with store := (Buffer.run (st.buf b).store (ops.map fun o => (s, o))).1 }
  if pulse || ops.any marks then notifyUpdate st1 b s accessor else (st1, [])

/-- `BufferGateMut::{open_gate, close_gate}` followed by its drop,
src/buffer/buffer_gate.rs:136-191. Without an entry for the session nothing happens. -/
def keyGate (st : St B L S T) (b : B) (s : S) (accessor : Option L) (g : Gate) :
    St B L S T × List (Hist B L S T) :=
  let n := st.buf b
  match n.gate s with
  | none => (st, [])
  | some cur =>
    let st1 := setBuf st b { n with gate := fun x => if x = s then some g else n.gate x }
    if g = .open ∧ cur ≠ .open then notifyUpdate st1 b s accessor else (st1, [])

/-- `BufferGateView::gate`, buffer_gate.rs:58-68. -/
def gateView (st : St B L S T) (b : B) (s : S) : Gate := ((st.buf b).gate s).getD .open

/-- Everything that can happen to the buffers of a workflow. `ending`: the session stops
being active. -/
inductive Ev (B L S T : Type) where
  | send (b : B) (s : S) (v : T)
  | exec
  | gate (b : B) (s : S) (g : Gate)
  | keyAccess (b : B) (s : S) (accessor : Option L) (ops : List (Buffer.Op T)) (pulse : Bool)
  | keyGate (b : B) (s : S) (accessor : Option L) (g : Gate)
  | ending (s : S)

def step (st : St B L S T) : Ev B L S T → St B L S T × List (Hist B L S T)
  | .send b s v => send st b s v
  | .exec => exec st
  | .gate b s g => gateAction st b s g
  | .keyAccess b s a ops p => keyAccess st b s a ops p
  | .keyGate b s a g => keyGate st b s a g
  | .ending s => ({ st with active := fun x => if x = s then false else st.active x }, [])

def run (st : St B L S T) : List (Ev B L S T) → St B L S T × List (Hist B L S T)
  | [] => (st, [])
  | e :: es =>
    let r := step st e
    let r' := run r.1 es
    (r'.1, r.2 ++ r'.2)

/-- A workflow before anything happened. -/
def init (retention : B → Retention) (listeners : B → List L) (kind : L → Kind B) :
    St B L S T :=
  { active := fun _ => true
    buf := fun b => ⟨[], Storage.new (retention b), fun _ => none, listeners b⟩
    lis := fun l => ⟨[], kind l⟩
    roster := [] }

/-- The values held by a buffer for a session, oldest first. -/
def content (st : St B L S T) (b : B) (s : S) : List T := (st.buf b).store.iter s

/-- The values of a session waiting to be taken in by a buffer. -/
def arriving (st : St B L S T) (b : B) (s : S) : List T :=
  ((st.buf b).input.filter fun p => decide (p.1 = s)).map (·.2)

end Verif.BufNet

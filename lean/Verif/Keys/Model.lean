/-
Model of the life cycle of buffer keys: one operation that hands out keys (buffer access or
listen), the keys in the hands of users, and the notices that tell the operation that a key
went away.

Sources: src/operation/operate_buffer_access.rs:135-201, src/buffer/buffer_key_builder.rs,
src/buffer/buffer_access_lifecycle.rs, src/buffer.rs:381-404, src/operation/cleanup.rs:99-120.
-/
namespace Verif.Keys

/-- A `BufferAccessLifecycle` (src/buffer/buffer_access_lifecycle.rs:31-43) behind an `Arc`.
`handles` is the strong count of that `Arc`, that is, the number of keys that are shallow
clones of each other. `dying` says that `Drop::drop` has run but the fields have not been
dropped yet, which happens right after on the same thread. `kept` says that it belongs to the
key in the storage of the operation and not to a user. The scope and the sender are left
out. -/
structure Life where
  session : Nat
  buffer : Nat
  tracker : Nat
  handles : Nat
  dying : Bool
  kept : Bool
  deriving DecidableEq, Repr

/-- The state around one operation that hands out keys. `lives` are all life cycles ever made,
`trackers` the strong counts of all the `Arc<()>` ever made, `stored` the map
`BufferAccessStorage::keys` (a key is the list of its life cycles, one per buffer), `channel`
the notices not yet received, `seen` records for each notice received what the usage check
found. -/
structure State where
  lives : List Life := []
  trackers : List Nat := []
  stored : List (Nat × List Nat) := []
  channel : List (Nat × Nat) := []
  seen : List (Nat × Bool) := []
  deriving DecidableEq, Repr

def State.count (st : State) (t : Nat) : Nat := st.trackers.getD t 0

def State.setCount (st : State) (t n : Nat) : State :=
  { st with trackers := st.trackers.set t n }

/-- `BufferKeyBuilder::make_tag`, src/buffer/buffer_key_builder.rs:31-47, for each buffer of
the operation in turn: `create_key` of a tuple, array, vector or map of buffers calls it once
per buffer, src/buffer/buffering.rs:517-525, 641-647, 759-765, 877-883,
src/buffer/buffer_map.rs:697-707. Gives the life cycles of the key. -/
def State.makeTags (st : State) (session tracker : Nat) (kept : Bool) :
    List Nat → State × List Nat
  | [] => (st, [])
  | b :: bs =>
    let id := st.lives.length
    let st := { st with lives := st.lives ++ [(⟨session, b, tracker, 1, false, kept⟩ : Life)] }
    let st := st.setCount tracker (st.count tracker + 1)
    let (st, ids) := st.makeTags session tracker kept bs
    (st, id :: ids)

/-- `deep_clone_key`: `BufferKeyTag::deep_clone`, src/buffer.rs:396-403, for each part of the
key. The clone of a `BufferAccessLifecycle` clones its tracker. -/
def State.deepClone (st : State) : List Nat → State × List Nat
  | [] => (st, [])
  | l :: ls =>
    match st.lives[l]? with
    | none => st.deepClone ls
    | some life =>
      let id := st.lives.length
      let st := { st with lives := st.lives ++ [{ life with handles := 1, dying := false, kept := false }] }
      let st := st.setCount life.tracker (st.count life.tracker + 1)
      let (st, ids) := st.deepClone ls
      (st, id :: ids)

/-- `get_access_keys`, src/operation/operate_buffer_access.rs:135-178: gives the state and the
life cycles of the key that is sent out. In the vacant case the builder holds a reference to
the tracker until the arm is left. `ensure_active_session` is left out: it concerns the
buffers only. -/
def State.access (buffers : List Nat) (st : State) (session : Nat) : State × List Nat :=
  match st.stored.find? fun p => p.1 = session with
  | some (_, ids) => st.deepClone ids
  | none =>
    let t := st.trackers.length
    let st := { st with trackers := st.trackers ++ [1] }
    let (st, ids) := st.makeTags session t true buffers
    let st := { st with stored := st.stored ++ [(session, ids)] }
    let (st, out) := st.deepClone ids
    (st.setCount t (st.count t - 1), out)

/-- Cloning a key: the `Arc` of its life cycle gets another handle. -/
def State.clone (st : State) (l : Nat) : State :=
  match st.lives[l]? with
  | some life =>
    if life.handles > 0 ∧ !life.kept then
      { st with lives := st.lives.set l { life with handles := life.handles + 1 } }
    else st
  | none => st

/-- `is_in_use`, src/buffer/buffer_access_lifecycle.rs:63-65. -/
def State.isInUse (st : State) (life : Life) : Bool := st.count life.tracker > 1

/-- `Drop::drop`, src/buffer/buffer_access_lifecycle.rs:68-90. -/
def State.notify (st : State) (life : Life) : State :=
  if st.isInUse life then { st with channel := st.channel ++ [(life.session, life.buffer)] }
  else st

/-- Dropping a key: one handle less; with the last handle the life cycle is dropped, which
begins with `Drop::drop`. -/
def State.drop (st : State) (l : Nat) : State :=
  match st.lives[l]? with
  | some life =>
    if life.handles > 0 ∧ !life.kept then
      if life.handles = 1 then
        { st with lives := st.lives.set l { life with handles := 0, dying := true } }.notify life
      else { st with lives := st.lives.set l { life with handles := life.handles - 1 } }
    else st
  | none => st

/-- The drop of the fields of a life cycle after `Drop::drop`: the tracker loses a
reference. -/
def State.finish (st : State) (l : Nat) : State :=
  match st.lives[l]? with
  | some life =>
    if life.dying then
      { st with lives := st.lives.set l { life with dying := false } }.setCount life.tracker
        (st.count life.tracker - 1)
    else st
  | none => st

/-- Dropping the parts of the stored key one after the other. -/
def State.release (st : State) : List Nat → State
  | [] => st
  | l :: ls =>
    match st.lives[l]? with
    | some life =>
      let st := st.notify life
      let st := { st with lives := st.lives.set l { life with handles := 0 } }
      (st.setCount life.tracker (st.count life.tracker - 1)).release ls
    | none => st.release ls

/-- `cleanup_buffer_access`, src/operation/cleanup.rs:99-120; `byScope` says that the cleaner
is the scope of the operation. -/
def State.cleanup (st : State) (session : Nat) (byScope : Bool) : State :=
  if byScope then
    match st.stored.find? fun p => p.1 = session with
    | some (_, ids) =>
      { st with stored := st.stored.filter fun p => p.1 ≠ session }.release ids
    | none => st
  else st

/-- `buffer_key_usage`, src/operation/operate_buffer_access.rs:180-201, with `is_key_in_use`
of src/buffer/buffering.rs:534-539, 657-665, 775-783, 893-901 and
src/buffer/buffer_map.rs:724-732. -/
def State.usage (st : State) (session : Nat) : Bool :=
  match st.stored.find? fun p => p.1 = session with
  | some (_, ids) => ids.any fun l => (st.lives[l]?).any st.isInUse
  | none => false

/-- The notice sent by `Drop::drop` is received: a disposal is emitted at the operation, which
makes the scope ask again what can be reached in the session; the search asks for the usage
(src/operation/operate_buffer_access.rs:219-239). -/
def State.receive (st : State) : State :=
  match st.channel with
  | [] => st
  | (s, _) :: rest => { st with channel := rest, seen := st.seen ++ [(s, st.usage s)] }

/-- What can happen: an input of a session arrives and a key is sent out; somebody clones a
key; somebody drops one, in two steps; a cleanup; a notice is received. -/
inductive Op where
  | access (session : Nat)
  | clone (l : Nat)
  | drop (l : Nat)
  | finish (l : Nat)
  | cleanup (session : Nat) (byScope : Bool)
  | receive
  deriving DecidableEq, Repr

def State.step (buffers : List Nat) (st : State) : Op → State
  | .access s => (st.access buffers s).1
  | .clone l => st.clone l
  | .drop l => st.drop l
  | .finish l => st.finish l
  | .cleanup s b => st.cleanup s b
  | .receive => st.receive

def run (buffers : List Nat) (ops : List Op) : State := ops.foldl (State.step buffers) {}

end Verif.Keys

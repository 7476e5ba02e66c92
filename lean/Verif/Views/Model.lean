import Verif.Buffer.Model

/-
Model of the three kinds of mutable access to a buffer: the typed `BufferMut`, the
type-erased `AnyBufferMut` and the `JsonBufferMut`.

Source: /repo/src/buffer.rs, /repo/src/buffer/any_buffer.rs,
/repo/src/buffer/json_buffer.rs. The storage behind all of them is the one of
Verif/Buffer/Model.lean.
-/
namespace Verif.Views

open Verif.Buffer (Storage Out)

/-- `AnyMessageBox`, any_buffer.rs:760: a value together with its type. `Ty` stands
for `TypeId` and `V t` for the Rust type with the id `t`. -/
abbrev Box {Ty : Type} (V : Ty → Type) := Σ t, V t

section
variable {Ty : Type} [DecidableEq Ty] {V : Ty → Type}

/-- `Box<dyn Any>::downcast`: gives the value back if it has the type asked for. -/
def Box.downcast (t : Ty) (b : Box V) : Option (V t) :=
  if h : b.1 = t then some (h ▸ b.2) else none

/-- Writing through `&mut dyn Any`: the holder names a type `u` and a write for it,
which takes effect if `downcast_mut::<u>()` succeeds. -/
def anyWrite (t : Ty) (w : Σ u, V u → V u) (x : V t) : V t :=
  if h : w.1 = t then (h ▸ w.2 : V t → V t) x else x

end

/-- The serde implementation of the message types: `serde_json::to_value` and
`serde_json::from_value`. `none` is a `serde_json::Error`; which error it is is not
modelled. `J` stands for `serde_json::Value`. -/
structure Serde {Ty : Type} (V : Ty → Type) (J : Type) where
  enc : {t : Ty} → V t → Option J
  dec : (t : Ty) → J → Option (V t)

/-- `BufferMut` (buffer.rs:633-643), `AnyBufferMut` (any_buffer.rs:399-406) and
`JsonBufferMut` (json_buffer.rs:346-353) have the same fields. The `buffer` entity
and the command queue are in `World`. -/
structure Handle (S A T : Type) where
  storage : Storage S T
  session : S
  accessor : Option A
  modified : Bool

variable {S A T : Type} [DecidableEq S]

/-- `allow_closed_loops`, buffer.rs:662-665, any_buffer.rs:412-415,
json_buffer.rs:359-362. -/
def Handle.allowClosedLoops (h : Handle S A T) : Handle S A T := { h with accessor := none }

/-- `self.modified = true`. -/
def Handle.touch (h : Handle S A T) : Handle S A T := { h with modified := true }

/-- Replace the storage after a call on it. -/
def Handle.put (h : Handle S A T) (b : Storage S T) : Handle S A T := { h with storage := b }

/-- The methods of `BufferMut`, buffer.rs:662-787. `is_empty` is `len() == 0` and
`newest_mut_or_default` is `newest_mut_or_else` with the default value. The writes
that the caller makes through a mutable borrow are part of the call. -/
inductive TCall (T : Type) where
  | allowClosedLoops
  | iter
  | oldest
  | newest
  | get (i : Nat)
  | len
  | iterMut (g : Nat → T → T)
  | oldestMut (g : T → T)
  | newestMut (g : T → T)
  | newestMutOrElse (v : T) (g : T → T)
  | getMut (i : Nat) (g : T → T)
  | drainAll
  | drain (lo hi : Nat)
  | pull
  | pullNewest
  | push (v : T)
  | pushAsOldest (v : T)
  | pulse

/-- The methods of `BufferMut`, buffer.rs:662-787. -/
def typedCall (h : Handle S A T) : TCall T → Handle S A T × Out T
  | .allowClosedLoops => (h.allowClosedLoops, .unit)
  | .iter => (h, .items (h.storage.iter h.session))
  | .oldest => (h, .item (h.storage.oldest h.session))
  | .newest => (h, .item (h.storage.newest h.session))
  | .get i => (h, .item (h.storage.get h.session i))
  | .len => (h, .num (h.storage.count h.session))
  | .iterMut g => (h.touch.put (h.storage.iterMut h.session g), .unit)
  | .oldestMut g =>
    let r := h.storage.oldestMut h.session g
    (h.touch.put r.1, .item r.2)
  | .newestMut g =>
    let r := h.storage.newestMut h.session g
    (h.touch.put r.1, .item r.2)
  | .newestMutOrElse v g =>
    let r := h.storage.newestMutOrElse h.session v g
    (h.touch.put r.1, .item r.2)
  | .getMut i g =>
    let r := h.storage.getMut h.session i g
    (h.touch.put r.1, .item r.2)
  | .drainAll =>
    let r := h.storage.drainAll h.session
    (h.touch.put r.1, .items r.2)
  | .drain lo hi =>
    match h.storage.drain h.session lo hi with
    | some r => (h.touch.put r.1, .items r.2)
    | none => (h.touch, .panic)
  | .pull =>
    let r := h.storage.pull h.session
    (h.touch.put r.1, .item r.2)
  | .pullNewest =>
    let r := h.storage.pullNewest h.session
    (h.touch.put r.1, .item r.2)
  | .push v =>
    let r := h.storage.push h.session v
    (h.touch.put r.1, .item r.2)
  | .pushAsOldest v =>
    let r := h.storage.pushAsOldest h.session v
    (h.touch.put r.1, .item r.2)
  | .pulse => (h.touch, .unit)

section
variable {Ty : Type} [DecidableEq Ty] {V : Ty → Type} {J : Type}

/-- The methods of `AnyBufferMut`, any_buffer.rs:412-566. -/
inductive ACall (V : Ty → Type) where
  | allowClosedLoops
  | oldest
  | newest
  | get (i : Nat)
  | len
  | oldestMut (w : Σ u, V u → V u)
  | newestMut (w : Σ u, V u → V u)
  | getMut (i : Nat) (w : Σ u, V u → V u)
  | drainAll
  | drain (lo hi : Nat)
  | pull
  | pullNewest
  | push (b : Box V)
  | pushAny (b : Box V)
  | pushAsOldest (b : Box V)
  | pushAnyAsOldest (b : Box V)
  | pulse

/-- What the caller of `AnyBufferMut` observes; `refused` is the `Err` of a push. -/
inductive AOut (V : Ty → Type) where
  | unit
  | item (v : Option (Box V))
  | items (vs : List (Box V))
  | num (n : Nat)
  | refused (b : Box V)
  | panic

/-- `to_any_message`, `to_any_ref`, `to_any_mut`, any_buffer.rs:818-828. -/
def toAny {t : Ty} (x : V t) : Box V := ⟨t, x⟩

/-- `any_push`, any_buffer.rs:776-779; `none` is the `AnyMessageError`. -/
def anyPush {t : Ty} (b : Storage S (V t)) (s : S) (x : Box V) :
    Option (Storage S (V t) × Option (Box V)) :=
  match x.downcast t with
  | none => none
  | some v =>
    let r := b.push s v
    some (r.1, r.2.map toAny)

/-- `any_push_as_oldest`, any_buffer.rs:781-788. -/
def anyPushAsOldest {t : Ty} (b : Storage S (V t)) (s : S) (x : Box V) :
    Option (Storage S (V t) × Option (Box V)) :=
  match x.downcast t with
  | none => none
  | some v =>
    let r := b.pushAsOldest s v
    some (r.1, r.2.map toAny)

/-- The methods of `AnyBufferMut`, any_buffer.rs:412-566, with the methods of
`AnyBufferViewing`/`AnyBufferManagement` for `Mut<BufferStorage<T>>`
(any_buffer.rs:736-816) that they call. `push_any` and `push_any_as_oldest` do not
set `modified`. -/
def anyCall {t : Ty} (h : Handle S A (V t)) : ACall V → Handle S A (V t) × AOut V
  | .allowClosedLoops => (h.allowClosedLoops, .unit)
  | .oldest => (h, .item ((h.storage.oldest h.session).map toAny))
  | .newest => (h, .item ((h.storage.newest h.session).map toAny))
  | .get i => (h, .item ((h.storage.get h.session i).map toAny))
  | .len => (h, .num (h.storage.count h.session))
  | .oldestMut w =>
    let r := h.storage.oldestMut h.session (anyWrite t w)
    (h.touch.put r.1, .item (r.2.map toAny))
  | .newestMut w =>
    let r := h.storage.newestMut h.session (anyWrite t w)
    (h.touch.put r.1, .item (r.2.map toAny))
  | .getMut i w =>
    let r := h.storage.getMut h.session i (anyWrite t w)
    (h.touch.put r.1, .item (r.2.map toAny))
  | .drainAll =>
    let r := h.storage.drainAll h.session
    (h.touch.put r.1, .items (r.2.map toAny))
  | .drain lo hi =>
    match h.storage.drain h.session lo hi with
    | some r => (h.touch.put r.1, .items (r.2.map toAny))
    | none => (h.touch, .panic)
  | .pull =>
    let r := h.storage.pull h.session
    (h.touch.put r.1, .item (r.2.map toAny))
  | .pullNewest =>
    let r := h.storage.pullNewest h.session
    (h.touch.put r.1, .item (r.2.map toAny))
  | .push x =>
    if x.1 ≠ t then (h, .refused x)
    else
      match anyPush h.storage h.session x with
      | none => (h.touch, .panic)
      | some r => (h.touch.put r.1, .item r.2)
  | .pushAny x =>
    match anyPush h.storage h.session x with
    | none => (h, .refused x)
    | some r => (h.put r.1, .item r.2)
  | .pushAsOldest x =>
    if x.1 ≠ t then (h, .refused x)
    else
      match anyPushAsOldest h.storage h.session x with
      | none => (h.touch, .panic)
      | some r => (h.touch.put r.1, .item r.2)
  | .pushAnyAsOldest x =>
    match anyPushAsOldest h.storage h.session x with
    | none => (h, .refused x)
    | some r => (h.put r.1, .item r.2)
  | .pulse => (h.touch, .unit)

/-- What the holder of a `JsonMut` does with it, json_buffer.rs:559-607. -/
inductive JsonMutUse (V : Ty → Type) (J : Type) where
  | leave
  | serialize
  | deserializeInto (u : Ty)
  | replace (j : J)
  | insert (j : J)
  | modify (f : J → J)

/-- The methods of `JsonBufferMut`, json_buffer.rs:359-500, and `iter` of
`JsonBufferView` (json_buffer.rs:307-312). -/
inductive JCall (V : Ty → Type) (J : Type) where
  | allowClosedLoops
  | iter
  | oldest
  | newest
  | get (i : Nat)
  | len
  | oldestMut (u : JsonMutUse V J)
  | newestMut (u : JsonMutUse V J)
  | getMut (i : Nat) (u : JsonMutUse V J)
  | drainAll
  | drain (lo hi : Nat)
  | pull
  | pullAs (u : Ty)
  | pullNewest
  | pullNewestAs (u : Ty)
  | push (x : Box V)
  | pushJson (j : J)
  | pushAsOldest (x : Box V)
  | pushJsonAsOldest (j : J)
  | pulse

/-- What the caller of `JsonBufferMut` observes; `error` is a `serde_json::Error`. An
item of `items` is a `Result`. -/
inductive JOut (V : Ty → Type) (J : Type) where
  | unit
  | item (v : Option J)
  | typed (v : Option (Box V))
  | items (vs : List (Option J))
  | num (n : Nat)
  | error
  | panic

/-- `option.map(serde_json::to_value).transpose()`. -/
def encItem (sd : Serde V J) {t : Ty} : Option (V t) → JOut V J
  | none => .item none
  | some x =>
    match sd.enc x with
    | none => .error
    | some j => .item (some j)

/-- `self.pull()?.map(|m| serde_json::from_value(m)).transpose()`,
json_buffer.rs:425, 438-440. -/
def decItem (sd : Serde V J) (u : Ty) : JOut V J → JOut V J
  | .item none => .typed none
  | .item (some j) =>
    match sd.dec u j with
    | none => .error
    | some x => .typed (some ⟨u, x⟩)
  | o => o

/-- `JsonMut`, json_buffer.rs:559-607, with `JsonMutInterface for T`
(json_buffer.rs:803-820): the message afterwards, whether `modified` was set, and
what the holder observes. -/
def jsonMutUse (sd : Serde V J) {t : Ty} (x : V t) : JsonMutUse V J → V t × Bool × JOut V J
  | .leave => (x, false, .unit)
  | .serialize => (x, false, encItem sd (some x))
  | .deserializeInto u => (x, false, decItem sd u (encItem sd (some x)))
  | .replace j =>
    match sd.dec t j with
    | none => (x, true, .error)
    | some y =>
      match sd.enc x with
      | none => (x, true, .error)
      | some old => (y, true, .item (some old))
  | .insert j =>
    match sd.dec t j with
    | none => (x, true, .error)
    | some y => (y, true, .unit)
  | .modify f =>
    match sd.enc x with
    | none => (x, false, .error)
    | some j =>
      match sd.dec t (f j) with
      | none => (x, true, .error)
      | some y => (y, true, .unit)

/-- Using the `Option<JsonMut>` that `oldest_mut`, `newest_mut` and `get_mut` return,
json_buffer.rs:390-405, 748-780. `borrow` is the storage call that gives the mutable
borrow (it applies a write), `seen` the message it borrows. Nothing happens, and
`modified` is not set, if there is no such message. -/
def useJsonMut (sd : Serde V J) {t : Ty} (h : Handle S A (V t)) (seen : Option (V t))
    (borrow : (V t → V t) → Storage S (V t)) (u : JsonMutUse V J) :
    Handle S A (V t) × JOut V J :=
  match seen with
  | none => (h, .item none)
  | some x =>
    let r := jsonMutUse sd x u
    let h' := h.put (borrow fun _ => r.1)
    (if r.2.1 then h'.touch else h', r.2.2)

/-- `json_push`, json_buffer.rs:720-725. The storage is unchanged when the message
cannot be deserialised. When the removed message cannot be serialised the push has
taken place nevertheless. -/
def jsonPush (sd : Serde V J) {t : Ty} (b : Storage S (V t)) (s : S) (j : J) :
    Storage S (V t) × JOut V J :=
  match sd.dec t j with
  | none => (b, .error)
  | some v =>
    let r := b.push s v
    (r.1, encItem sd r.2)

/-- `json_push_as_oldest`, json_buffer.rs:727-736. The code calls `push`. -/
def jsonPushAsOldest (sd : Serde V J) {t : Ty} (b : Storage S (V t)) (s : S) (j : J) :
    Storage S (V t) × JOut V J :=
  match sd.dec t j with
  | none => (b, .error)
  | some v =>
    let r := b.push s v
    (r.1, encItem sd r.2)

/-- `IterJsonBufferView`, json_buffer.rs:324-336: `get` at 0, 1, 2, ... until there is
no message. `fuel` bounds the number of steps. -/
def jsonIterFrom (sd : Serde V J) {t : Ty} (b : Storage S (V t)) (s : S) :
    Nat → Nat → List (Option J)
  | 0, _ => []
  | fuel + 1, i =>
    match b.get s i with
    | none => []
    | some x => sd.enc x :: jsonIterFrom sd b s fuel (i + 1)

/-- The methods of `JsonBufferMut`, json_buffer.rs:359-500, with the methods of
`JsonBufferViewing`/`JsonBufferManagement` for `Mut<BufferStorage<T>>`
(json_buffer.rs:693-789) that they call. -/
def jsonCall (sd : Serde V J) {t : Ty} (h : Handle S A (V t)) :
    JCall V J → Handle S A (V t) × JOut V J
  | .allowClosedLoops => (h.allowClosedLoops, .unit)
  | .iter =>
    (h, .items (jsonIterFrom sd h.storage h.session (h.storage.count h.session + 1) 0))
  | .oldest => (h, encItem sd (h.storage.oldest h.session))
  | .newest => (h, encItem sd (h.storage.newest h.session))
  | .get i => (h, encItem sd (h.storage.get h.session i))
  | .len => (h, .num (h.storage.count h.session))
  | .oldestMut u =>
    useJsonMut sd h (h.storage.oldestMut h.session id).2
      (fun g => (h.storage.oldestMut h.session g).1) u
  | .newestMut u =>
    useJsonMut sd h (h.storage.newestMut h.session id).2
      (fun g => (h.storage.newestMut h.session g).1) u
  | .getMut i u =>
    useJsonMut sd h (h.storage.getMut h.session i id).2
      (fun g => (h.storage.getMut h.session i g).1) u
  | .drainAll =>
    let r := h.storage.drainAll h.session
    (h.touch.put r.1, .items (r.2.map sd.enc))
  | .drain lo hi =>
    match h.storage.drain h.session lo hi with
    | some r => (h.touch.put r.1, .items (r.2.map sd.enc))
    | none => (h.touch, .panic)
  | .pull =>
    let r := h.storage.pull h.session
    (h.touch.put r.1, encItem sd r.2)
  | .pullAs u =>
    let r := h.storage.pull h.session
    (h.touch.put r.1, decItem sd u (encItem sd r.2))
  | .pullNewest =>
    let r := h.storage.pullNewest h.session
    (h.touch.put r.1, encItem sd r.2)
  | .pullNewestAs u =>
    let r := h.storage.pullNewest h.session
    (h.touch.put r.1, decItem sd u (encItem sd r.2))
  | .push x =>
    match sd.enc x.2 with
    | none => (h, .error)
    | some j =>
      let r := jsonPush sd h.storage h.session j
      (h.touch.put r.1, r.2)
  | .pushJson j =>
    let r := jsonPush sd h.storage h.session j
    (h.touch.put r.1, r.2)
  | .pushAsOldest x =>
    match sd.enc x.2 with
    | none => (h, .error)
    | some j =>
      let r := jsonPushAsOldest sd h.storage h.session j
      (h.touch.put r.1, r.2)
  | .pushJsonAsOldest j =>
    let r := jsonPushAsOldest sd h.storage h.session j
    (h.touch.put r.1, r.2)
  | .pulse => (h.touch, .unit)

/-- `NotifyBufferUpdate`, operate_buffer.rs: the command queued when a handle is
dropped; the buffer it is about is the one of the world. -/
structure Note (S A : Type) where
  session : S
  accessor : Option A
  deriving DecidableEq, Repr

/-- One buffer entity with messages of type `t`, its gates, and the notifications about
it that have been handed over to the world. -/
structure World (S A : Type) (V : Ty → Type) (t : Ty) where
  storage : Storage S (V t)
  gate : S → Option Bool
  notes : List (Note S A)

/-- A call through one of the three kinds of handle. -/
inductive Call (V : Ty → Type) (J : Type) (t : Ty) where
  | typed (c : TCall (V t))
  | any (c : ACall V)
  | json (c : JCall V J)

/-- What the caller observes. -/
inductive Seen (V : Ty → Type) (J : Type) (t : Ty) where
  | typed (o : Out (V t))
  | any (o : AOut V)
  | json (o : JOut V J)

def call (sd : Serde V J) {t : Ty} (h : Handle S A (V t)) :
    Call V J t → Handle S A (V t) × Seen V J t
  | .typed c => ((typedCall h c).1, .typed (typedCall h c).2)
  | .any c => ((anyCall h c).1, .any (anyCall h c).2)
  | .json c => ((jsonCall sd h c).1, .json (jsonCall sd h c).2)

/-- The calls a callback makes on its handle. -/
def calls (sd : Serde V J) {t : Ty} :
    Handle S A (V t) → List (Call V J t) → Handle S A (V t) × List (Seen V J t)
  | h, [] => (h, [])
  | h, c :: rest =>
    let r := call sd h c
    let r' := calls sd r.1 rest
    (r'.1, r.2 :: r'.2)

/-- The two ways to reach a buffer with a key. `param`: the system parameters
`BufferAccessMut` and `BufferGateAccessMut` (buffer.rs:446-485, buffer_gate.rs:78-107),
whose `Commands` are applied when the system has run. `world`: the methods of `World`,
`buffer_mut` and `buffer_gate_mut` (buffer.rs:556-584), `any_buffer_mut`
(any_buffer.rs:607-617) and `json_buffer_mut` (json_buffer.rs:540-550). -/
inductive Route where
  | param
  | world
  deriving DecidableEq, Repr

/-- What becomes of the commands a handle queues. The methods of `World` take the system
parameter from a `SystemState` they have just made, and drop the `SystemState` without
calling `SystemState::apply`. Bevy drops the commands with it. -/
def Route.applied {C : Type} (queued : List C) : Route → List C
  | .param => queued
  | .world => []

/-- A key, `BufferKeyTag` (buffer.rs:383-389): its session and accessor, and the calls
its holder makes during one borrow of the buffer. A borrow uses one kind of handle;
mixing them here only adds behaviours. -/
structure Access (S A : Type) (V : Ty → Type) (J : Type) (t : Ty) where
  session : S
  accessor : A
  route : Route
  calls : List (Call V J t)

/-- `BufferAccessMut::get_mut`, `as_any_buffer_mut` (any_buffer.rs:870-888) and
`as_json_buffer_mut` (json_buffer.rs:1042-1058) create the handle; `Drop`
(buffer.rs:807-821, any_buffer.rs:569-579, json_buffer.rs:502-512) queues the
notification if the handle was marked as modified. The buffer exists; that a missing
one gives `BufferMissing` is not modelled. -/
def access (sd : Serde V J) {t : Ty} (w : World S A V t) (a : Access S A V J t) :
    World S A V t × List (Seen V J t) :=
  let h : Handle S A (V t) :=
    { storage := w.storage, session := a.session, accessor := some a.accessor,
      modified := false }
  let r := calls sd h a.calls
  let queued := if r.1.modified then [⟨r.1.session, r.1.accessor⟩] else []
  ({ w with
     storage := r.1.storage,
     notes := w.notes ++ a.route.applied queued },
   r.2)

/-- The calls on `BufferGateMut`, buffer_gate.rs:120-161. `gate_action` is one of the
last two. -/
inductive GCall where
  | allowClosedLoops
  | get
  | openGate
  | closeGate
  deriving DecidableEq, Repr

/-- `BufferGateMut`, buffer_gate.rs:110-118. `gate` is the map of the `GateState`,
operate_buffer.rs:128-131; `true` stands for `Gate::Open`. -/
structure GateHandle (S A : Type) where
  gate : S → Option Bool
  session : S
  accessor : Option A
  modified : Bool

/-- The calls of `GCall`, in order. The result is that of `get`, and `none` for the
others. -/
def gateCall (h : GateHandle S A) : GCall → GateHandle S A × Option Bool
  | .allowClosedLoops => ({ h with accessor := none }, none)
  | .get => (h, some ((h.gate h.session).getD true))
  | .openGate =>
    match h.gate h.session with
    | none => (h, none)
    | some g =>
      if g ≠ true then
        ({ h with
           gate := fun s => if s = h.session then some true else h.gate s,
           modified := true }, none)
      else (h, none)
  | .closeGate =>
    match h.gate h.session with
    | none => (h, none)
    | some _ =>
      ({ h with gate := fun s => if s = h.session then some false else h.gate s }, none)

def gateCalls : GateHandle S A → List GCall → GateHandle S A × List (Option Bool)
  | h, [] => (h, [])
  | h, c :: rest =>
    let r := gateCall h c
    let r' := gateCalls r.1 rest
    (r'.1, r.2 :: r'.2)

/-- The calls a holder of a key makes on the gate of the buffer during one borrow. -/
structure GateAccess (S A : Type) where
  session : S
  accessor : A
  route : Route
  calls : List GCall

/-- `BufferGateAccessMut::get_mut` (buffer_gate.rs:96-107) and the `Drop` of
`BufferGateMut` (buffer_gate.rs:181-191). -/
def gateAccess {V : Ty → Type} {t : Ty} (w : World S A V t) (a : GateAccess S A) :
    World S A V t × List (Option Bool) :=
  let h : GateHandle S A :=
    { gate := w.gate, session := a.session, accessor := some a.accessor, modified := false }
  let r := gateCalls h a.calls
  let queued := if r.1.modified then [⟨r.1.session, r.1.accessor⟩] else []
  ({ w with
     gate := r.1.gate,
     notes := w.notes ++ a.route.applied queued },
   r.2)

end
end Verif.Views

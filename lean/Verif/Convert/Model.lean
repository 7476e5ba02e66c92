/-
Model of the implicit conversions of a diagram: what is put between an output and the
target that it is connected to, and what that does to the messages of the output.

Sources: /repo/src/diagram/serialization.rs:56-148 (the converters) and 207-420
(`ImplicitSerialization`, `ImplicitDeserialization`, `ImplicitStringify`),
/repo/src/diagram/workflow_builder.rs:1040-1222 (`ConnectToDispose`,
`standard_input_connection`, `BasicConnect`, `ConnectToCancel`),
/repo/src/diagram/registration.rs:741-771, 924-988, 1180-1189 and 1324-1332 (the registry),
/repo/src/node/dyn_node.rs:147-165 (`DynOutput::connect_to`),
/repo/src/operation/operate_cancel.rs (`OperateCancel`, `OperateQuietCancel`).

Not modelled: scopes (every entity here is in one scope), the entities behind the slots,
and the connection of the error outputs to the target `on_implicit_error` refers to: the
model stops at `ctx.add_output_into_target(error_target, ..)`. That connection is made by
the loop of Verif/Diagram/Build.lean and is again one of the connections described here.
-/
namespace Verif.Convert

/-- A message type, as `TypeInfo`. -/
abbrev Ty := Nat

/-- `JsonMessage`. -/
def json : Ty := 0
/-- `String`. -/
def string : Ty := 1
/-- `()`. -/
def unit : Ty := 2

/-- The operations that are registered for a message type,
src/diagram/registration.rs:733-771: `serialize_impl`, `deserialize_impl` and
`to_string_impl` are optional, `create_trigger_impl` is always there. -/
structure Ops where
  ser : Bool
  de : Bool
  str : Bool
  deriving DecidableEq, Repr

/-- `MessageRegistry::messages`, src/diagram/registration.rs:895-898. -/
abbrev Registry := Ty → Option Ops

/-- What the user's types do: `serde_json::to_value`, `serde_json::from_value` and
`ToString::to_string` of each type, the value `()`, and `to_string` of a JSON value. Errors
are the strings that `map_err(|err| err.to_string())` makes of them. -/
structure Sem (V : Type) where
  ser : Ty → V → Except V V
  de : Ty → V → Except V V
  str : Ty → V → V
  unit : V
  text : V → V

/-- The nodes that convert messages: `serialize_impl` and `deserialize_impl` are a map
followed by a fork-result (src/diagram/serialization.rs:75-90 and 125-140),
`to_string_impl` (src/diagram/registration.rs:1330) and `create_trigger_impl`
(src/diagram/registration.rs:771) are a map. -/
inductive Kind where
  | ser | de | str | trig
  deriving DecidableEq, Repr

/-- The type of message that a converter takes, resp. gives. -/
def Kind.input : Kind → Ty → Ty
  | .de, _ => json
  | _, t => t

def Kind.output : Kind → Ty → Ty
  | .ser, _ => json
  | .de, t => t
  | .str, _ => string
  | .trig, _ => unit

/-- Whether a converter is followed by a fork-result, see `Kind`. -/
def Kind.fallible : Kind → Bool
  | .ser => true
  | .de => true
  | _ => false

/-- Input slots: the input of the operation that target `k` stands for, the three cancel
operations of a cancel target (src/diagram/workflow_builder.rs:1157-1168), and the input of
a converter. -/
inductive Slot where
  | input (k : Nat) (ty : Ty)
  | cancelStr (k : Nat)
  | cancelJson (k : Nat)
  | cancelQuiet (k : Nat)
  | conv (i : Nat)
  deriving DecidableEq, Repr

/-- Outputs: those of the operations of the diagram, and the `ok` and `err` outputs of
converters (`DynForkResult`; the output of a map is its `ok`). -/
inductive Out where
  | op (n : Nat)
  | ok (i : Nat)
  | err (i : Nat)
  deriving DecidableEq, Repr

/-- What has been built: the converters, the connections that have been made
(`Connect` commands) and the outputs that have been given to the error target. -/
structure Net where
  convs : List (Kind × Ty)
  wires : List (Out × Slot)
  errs : List Out
  deriving Repr

/-- `DiagramErrorCode`, of which only the errors that occur here. -/
inductive Err where
  | typeMismatch (source target : Ty)
  | notSerializable (t : Ty)
  | notDeserializable (t : Ty)
  | unregistered (t : Ty)
  deriving DecidableEq, Repr

/-- `DynInputSlot::message_info`. -/
def Net.slotTy (n : Net) : Slot → Option Ty
  | .input _ t => some t
  | .cancelStr _ => some string
  | .cancelJson _ => some json
  | .cancelQuiet _ => some unit
  | .conv i => (n.convs[i]?).map fun c => c.1.input c.2

/-- `DynOutput::connect_to`, src/node/dyn_node.rs:147-165. -/
def connectTo (n : Net) (o : Out) (ty : Ty) (s : Slot) : Except Err Net :=
  if n.slotTy s = some ty then .ok { n with wires := n.wires ++ [(o, s)] }
  else .error (.typeMismatch ty ((n.slotTy s).getD 0))

/-- Calling `serialize_impl`, `deserialize_impl`, `to_string_impl` or
`create_trigger_impl`: a new converter, whose number is returned. -/
def spawn (n : Net) (k : Kind) (t : Ty) : Net × Nat :=
  ({ n with convs := n.convs ++ [(k, t)] }, n.convs.length)

/-- `ctx.add_output_into_target(ctx.get_implicit_error_target(), o)`,
src/diagram/workflow_builder.rs:201-210. -/
def giveErr (n : Net) (o : Out) : Net := { n with errs := n.errs ++ [o] }

/-- `MessageRegistry::try_serialize`, src/diagram/registration.rs:964-974: whether it
gives a converter. -/
def trySerialize (reg : Registry) (t : Ty) : Bool := ((reg t).map (·.ser)).getD false

/-- `MessageRegistry::try_deserialize`, src/diagram/registration.rs:933-943. -/
def tryDeserialize (reg : Registry) (t : Ty) : Bool := ((reg t).map (·.de)).getD false

/-- `MessageRegistry::try_to_string`, src/diagram/registration.rs:976-988. -/
def tryToString (reg : Registry) (t : Ty) : Except Err Bool :=
  match reg t with
  | none => .error (.unregistered t)
  | some r => .ok r.str

/-- `ImplicitSerialization`, src/diagram/serialization.rs:207-210, `ImplicitStringify`,
src/diagram/serialization.rs:366-369, and the `quiet_cancel` with its `triggers`,
src/diagram/workflow_builder.rs:1149-1154: a slot and the converters that lead to it. -/
structure Per where
  slot : Slot
  incoming : List (Ty × Nat)
  deriving DecidableEq, Repr

/-- `ImplicitSerialization::try_implicit_serialize`, src/diagram/serialization.rs:233-269.
`none`: the output is handed back unchanged. -/
def trySer (reg : Registry) (n : Net) (c : Per) (o : Out) (ty : Ty) :
    Except Err (Option (Net × Per)) :=
  if ty = json then
    match connectTo n o ty c.slot with
    | .error e => .error e
    | .ok n => .ok (some (n, c))
  else
    match c.incoming.lookup ty with
    | some i =>
      match connectTo n o ty (.conv i) with
      | .error e => .error e
      | .ok n => .ok (some (n, c))
    | none =>
      if trySerialize reg ty then
        let (n, i) := spawn n .ser ty
        match connectTo n (.ok i) (Kind.ser.output ty) c.slot with
        | .error e => .error e
        | .ok n =>
          let n := giveErr n (.err i)
          match connectTo n o ty (.conv i) with
          | .error e => .error e
          | .ok n => .ok (some (n, { c with incoming := (ty, i) :: c.incoming }))
      else .ok none

/-- `ImplicitSerialization::implicit_serialize`, src/diagram/serialization.rs:273-280. -/
def implicitSer (reg : Registry) (n : Net) (c : Per) (o : Out) (ty : Ty) :
    Except Err (Net × Per) :=
  match trySer reg n c o ty with
  | .error e => .error e
  | .ok (some r) => .ok r
  | .ok none => .error (.notSerializable ty)

/-- `ImplicitStringify::try_implicit_stringify`, src/diagram/serialization.rs:387-419. -/
def tryStr (reg : Registry) (n : Net) (c : Per) (o : Out) (ty : Ty) :
    Except Err (Option (Net × Per)) :=
  if ty = string then
    match connectTo n o ty c.slot with
    | .error e => .error e
    | .ok n => .ok (some (n, c))
  else
    match c.incoming.lookup ty with
    | some i =>
      match connectTo n o ty (.conv i) with
      | .error e => .error e
      | .ok n => .ok (some (n, c))
    | none =>
      match tryToString reg ty with
      | .error e => .error e
      | .ok false => .ok none
      | .ok true =>
        let (n, i) := spawn n .str ty
        match connectTo n (.ok i) (Kind.str.output ty) c.slot with
        | .error e => .error e
        | .ok n =>
          match connectTo n o ty (.conv i) with
          | .error e => .error e
          | .ok n => .ok (some (n, { c with incoming := (ty, i) :: c.incoming }))

/-- The last part of `ConnectToCancel::connect_into_target`,
src/diagram/workflow_builder.rs:1196-1212. -/
def connectTrigger (reg : Registry) (n : Net) (c : Per) (o : Out) (ty : Ty) :
    Except Err (Net × Per) :=
  match c.incoming.lookup ty with
  | some i =>
    match connectTo n o ty (.conv i) with
    | .error e => .error e
    | .ok n => .ok (n, c)
  | none =>
    match reg ty with
    | none => .error (.unregistered ty)
    | some _ =>
      let (n, i) := spawn n .trig ty
      match connectTo n (.ok i) (Kind.trig.output ty) c.slot with
      | .error e => .error e
      | .ok n =>
        match connectTo n o ty (.conv i) with
        | .error e => .error e
        | .ok n => .ok (n, { c with incoming := (ty, i) :: c.incoming })

/-- `ImplicitDeserialization`, src/diagram/serialization.rs:287-293. -/
structure De where
  slot : Slot
  ty : Ty
  input : Option Nat
  deriving DecidableEq, Repr

/-- `ImplicitDeserialization::implicit_deserialize`, src/diagram/serialization.rs:315-359. -/
def implicitDe (reg : Registry) (n : Net) (c : De) (o : Out) (ty : Ty) :
    Except Err (Net × De) :=
  if ty = c.ty then
    match connectTo n o ty c.slot with
    | .error e => .error e
    | .ok n => .ok (n, c)
  else if ty = json then
    match c.input with
    | some i =>
      match connectTo n o ty (.conv i) with
      | .error e => .error e
      | .ok n => .ok (n, c)
    | none =>
      if tryDeserialize reg c.ty then
        let (n, i) := spawn n .de c.ty
        match connectTo n (.ok i) (Kind.de.output c.ty) c.slot with
        | .error e => .error e
        | .ok n =>
          let n := giveErr n (.err i)
          match connectTo n o ty (.conv i) with
          | .error e => .error e
          | .ok n => .ok (n, { c with input := some i })
      else .error (.notDeserializable c.ty)
  else .error (.typeMismatch ty c.ty)

/-- The implementations of `ConnectIntoTarget` that are modelled. -/
inductive Target where
  | ser (c : Per)
  | de (c : De)
  | basic (s : Slot)
  | cancel (str ser quiet : Per)
  | dispose
  deriving DecidableEq, Repr

/-- `ConnectIntoTarget::connect_into_target`, src/diagram/workflow_builder.rs:1039-1046,
1086-1093, 1105-1112, 1128-1137, 1169-1213. -/
def connectInto (reg : Registry) (n : Net) (t : Target) (o : Out) (ty : Ty) :
    Except Err (Net × Target) :=
  match t with
  | .ser c =>
    match implicitSer reg n c o ty with
    | .error e => .error e
    | .ok (n, c) => .ok (n, .ser c)
  | .de c =>
    match implicitDe reg n c o ty with
    | .error e => .error e
    | .ok (n, c) => .ok (n, .de c)
  | .basic s =>
    match connectTo n o ty s with
    | .error e => .error e
    | .ok n => .ok (n, .basic s)
  | .cancel str ser quiet =>
    match tryStr reg n str o ty with
    | .error e => .error e
    | .ok (some (n, str)) => .ok (n, .cancel str ser quiet)
    | .ok none =>
      match trySer reg n ser o ty with
      | .error e => .error e
      | .ok (some (n, ser)) => .ok (n, .cancel str ser quiet)
      | .ok none =>
        match connectTrigger reg n quiet o ty with
        | .error e => .error e
        | .ok (n, quiet) => .ok (n, .cancel str ser quiet)
  | .dispose => .ok (n, .dispose)

/-- What a target of a diagram is: the input of an operation, `cancel`, or `dispose`. -/
inductive Decl where
  | input (ty : Ty)
  | cancel
  | dispose
  deriving DecidableEq, Repr

/-- The connector that is made for a target: `standard_input_connection`,
src/diagram/workflow_builder.rs:1066-1084, `ConnectToCancel::new`,
src/diagram/workflow_builder.rs:1157-1168. -/
def newTarget (reg : Registry) (k : Nat) : Decl → Target
  | .input ty =>
    if ty = json then .ser ⟨.input k ty, []⟩
    else if tryDeserialize reg ty then .de ⟨.input k ty, ty, none⟩
    else .basic (.input k ty)
  | .cancel => .cancel ⟨.cancelStr k, []⟩ ⟨.cancelJson k, []⟩ ⟨.cancelQuiet k, []⟩
  | .dispose => .dispose

/-- The connectors of a diagram and what they have built. -/
structure W where
  net : Net
  targets : Nat → Target

/-- A connection that the diagram asks for: the output `out` of type `ty` goes to target
`target`. -/
structure Ask where
  out : Nat
  ty : Ty
  target : Nat
  deriving DecidableEq, Repr

def start (reg : Registry) (decls : Nat → Decl) : W :=
  ⟨⟨[], [], []⟩, fun k => newTarget reg k (decls k)⟩

/-- One turn of the loop over the outputs, src/diagram/workflow_builder.rs:871-877. -/
def step (reg : Registry) (w : W) (a : Ask) : Except Err W :=
  match connectInto reg w.net (w.targets a.target) (.op a.out) a.ty with
  | .error e => .error e
  | .ok (n, t) => .ok ⟨n, fun k => if k = a.target then t else w.targets k⟩

def run (reg : Registry) : W → List Ask → Except Err W
  | w, [] => .ok w
  | w, a :: as =>
    match step reg w a with
    | .error e => .error e
    | .ok w => run reg w as

/-! ### What the network does -/

/-- What a message ends up as: it reaches the input of target `k`, it cancels the scope of
target `k` with or without a text (src/operation/operate_cancel.rs:61-66 and 101-106), or
an error message is given to the target of `on_implicit_error`. `stuck` is given only if
the network is cut off. -/
inductive Effect (V : Type) where
  | input (k : Nat) (v : V)
  | cancel (k : Nat) (text : Option V)
  | error (e : V)
  | stuck
  deriving DecidableEq, Repr

/-- What a converter gives and at which output. -/
def convert {V : Type} (S : Sem V) (i : Nat) : Kind × Ty → V → Out × V
  | (.ser, t), v =>
    match S.ser t v with
    | .ok j => (.ok i, j)
    | .error e => (.err i, e)
  | (.de, t), v =>
    match S.de t v with
    | .ok x => (.ok i, x)
    | .error e => (.err i, e)
  | (.str, t), v => (.ok i, S.str t v)
  | (.trig, _), _ => (.ok i, S.unit)

/-- A message arrives at a slot; `next` is what happens to the messages of an output. -/
def arrive {V : Type} (S : Sem V) (n : Net) (next : Out → V → List (Effect V)) (v : V) :
    Slot → List (Effect V)
  | .input k _ => [.input k v]
  | .cancelStr k => [.cancel k (some v)]
  | .cancelJson k => [.cancel k (some (S.text v))]
  | .cancelQuiet k => [.cancel k none]
  | .conv i =>
    match n.convs[i]? with
    | none => [.stuck]
    | some c => next (convert S i c v).1 (convert S i c v).2

/-- A message leaves an output: it goes along every connection of that output, and to the
error target as many times as the output was given to it. The number limits how many
converters are passed through. -/
def emit {V : Type} (S : Sem V) (n : Net) : Nat → Out → V → List (Effect V)
  | 0, _, _ => [.stuck]
  | d + 1, o, v =>
    (n.wires.filter fun w => decide (w.1 = o)).flatMap (fun w => arrive S n (emit S n d) v w.2)
      ++ (n.errs.filter fun e => decide (e = o)).map fun _ => .error v

end Verif.Convert

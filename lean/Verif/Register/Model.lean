/-
Model of the registry of diagram elements: what registering messages, nodes and sections does to
the operations that are supported for each type of message. src/diagram/registration.rs, with
the `on_register` of src/diagram/unzip_schema.rs, src/diagram/fork_result_schema.rs,
src/diagram/split_schema.rs, and `register_serialize`, `register_deserialize` of
src/diagram/serialization.rs.
-/
namespace Verif.Register

/-- `TypeInfo`: only equality of types matters. -/
abbrev Ty := Nat

/-- The types that are made from a type: `Vec<T>`, the variants of `Result<T, E>`, the elements
of a tuple, and `Splittable::Item`. -/
structure Types where
  vec : Ty → Ty
  ok : Ty → Ty
  err : Ty → Ty
  elems : Ty → List Ty
  item : Ty → Ty
  json : Ty

/-- The optional fields of `MessageOperation`, src/diagram/registration.rs:729-748. The hints of
accesses and listens are set together with their functions. -/
inductive Op where
  | deserialize
  | serialize
  | clone
  | unzip
  | result
  | split
  | join
  | access
  | listen
  | toString
  deriving DecidableEq, Repr

/-- `MessageRegistration` with `MessageOperation`, src/diagram/registration.rs:729-781 and
875-893. A function pointer is given by the type that its generic function was instantiated
with; `tag` is the type for `create_buffer_impl`, `create_trigger_impl` and `build_scope`.
`schema` says whether a schema was generated. The name of the type and the tracing that comes
with serialization are left out. -/
structure Reg where
  tag : Ty
  impl : Op → Option Ty
  schema : Bool

/-- `MessageRegistration::new::<T>()`, src/diagram/registration.rs:881-893. -/
def Reg.new (t : Ty) : Reg := ⟨t, fun _ => none, false⟩

/-- `NodeRegistration`: the types, src/diagram/registration.rs:57-71. Streams, texts, the schema of
the configuration and the builder function are left out. -/
structure NodeReg where
  request : Ty
  response : Ty
  deriving DecidableEq, Repr

/-- `DiagramElementRegistry`, src/diagram/registration.rs:720-727, with `MessageRegistry` (lines
895-901), and two registers of the process: the types for which buffers can be used as JSON
buffers (`JsonBuffer::register_for`, src/buffer/json_buffer.rs:114-121) and for which buffers can
be cloned from (`register_clone_for_join`, src/buffer.rs:185-205). The builders of sections are
left out. -/
structure St where
  messages : Ty → Option Reg
  nodes : Nat → Option NodeReg
  jsonBuffer : Ty → Bool
  cloneBuffer : Ty → Bool

/-- `DiagramElementRegistry::blank`, src/diagram/registration.rs:1406-1414 with lines 904-915.
That `()` can be used as a JSON buffer is left out. -/
def blank (T : Types) : St where
  messages t := if t = T.json then some (.new t) else none
  nodes _ := none
  jsonBuffer _ := false
  cloneBuffer _ := false

/-- `messages.entry(t).or_insert(MessageRegistration::new::<tag>())`. -/
def entry (s : St) (t tag : Ty) : Reg := (s.messages t).getD (.new tag)

/-- The entry for `t` becomes `r`. -/
def St.put (s : St) (t : Ty) (r : Reg) : St :=
  { s with messages := fun k => if k = t then some r else s.messages k }

/-- A field of the entry becomes `Some`. -/
def Reg.set (r : Reg) (op : Op) (t : Ty) : Reg :=
  { r with impl := fun o => if o = op then some t else r.impl o }

/-! ### The functions of `MessageRegistry` -/

/-- `register_deserialize`, src/diagram/serialization.rs:113-148 and 156-163. -/
def registerDe (sup : Bool) (t : Ty) (s : St) : St :=
  if sup then s.put t { (entry s t t).set .deserialize t with schema := true } else s

/-- `register_serialize`, src/diagram/serialization.rs:63-104 and 150-154. -/
def registerSer (sup : Bool) (t : Ty) (s : St) : St :=
  if sup then s.put t { (entry s t t).set .serialize t with schema := true } else s

/-- `register_clone`, src/diagram/registration.rs:1014-1031 with
src/diagram/fork_clone_schema.rs:116-145. -/
def registerClone (sup : Bool) (t : Ty) (s : St) : St :=
  let e := entry s t t
  if !sup || (e.impl .clone).isSome then s.put t e
  else
    { s.put t (e.set .clone t) with
      cloneBuffer := fun k => k = t || s.cloneBuffer k }

/-- The registrations for one element of a message that is taken apart. -/
def registerPart (sup : Bool) (s : St) (p : Ty) : St :=
  registerClone sup p (registerSer sup p s)

/-- `register_unzip`, src/diagram/registration.rs:1046-1067 with `on_register`
(src/diagram/unzip_schema.rs:172-180). -/
def registerUnzip (T : Types) (sup : Bool) (t : Ty) (s : St) : St :=
  let s1 := (T.elems t).foldl (registerPart sup) s
  let e := entry s1 t t
  if (e.impl .unzip).isSome then s1.put t e else s1.put t (e.set .unzip t)

/-- `RegisterForkResult::on_register`, src/diagram/fork_result_schema.rs:108-132. A new entry
would be that of the type of the `Ok` variant (line 112). -/
def registerResult (T : Types) (sup : Bool) (t : Ty) (s : St) : St :=
  let e := entry s t (T.ok t)
  if (e.impl .result).isSome then s.put t e
  else registerPart sup (registerPart sup (s.put t (e.set .result t)) (T.ok t)) (T.err t)

/-- `RegisterSplit::on_register`, src/diagram/split_schema.rs:315-328. -/
def registerSplit (T : Types) (sup : Bool) (t : Ty) (s : St) : St :=
  registerPart sup (registerPart sup (s.put t ((entry s t t).set .split t)) (T.item t))
    (T.vec (T.item t))

/-- `register_join`, `register_buffer_access`, `register_listen`,
src/diagram/registration.rs:1206-1223, 1250-1272, 1299-1318: nothing changes if the field is
set. -/
def registerOnce (op : Op) (t : Ty) (s : St) : St :=
  let e := entry s t t
  if (e.impl op).isSome then s.put t e else s.put t (e.set op t)

/-- `register_to_string`, src/diagram/registration.rs:1320-1332. -/
def registerToString (t : Ty) (s : St) : St := s.put t ((entry s t t).set .toString t)

/-! ### The calls of the user -/

/-- The options of `opt_out`: which of the common operations are enabled. -/
structure Common where
  de : Bool
  ser : Bool
  clone : Bool
  deriving DecidableEq, Repr

/-- The methods of `MessageRegistrationBuilder`, src/diagram/registration.rs:341-451. `full` is
false for the variants `_minimal`. -/
inductive With where
  | unzip (full : Bool)
  | result (full : Bool)
  | split (full : Bool)
  | join
  | access
  | listen
  | toString
  deriving DecidableEq, Repr

/-- The methods of `NodeRegistrationBuilder`, src/diagram/registration.rs:459-642. -/
inductive NodeWith where
  | commonRequest
  | cloneRequest
  | deserializeRequest
  | commonResponse
  | cloneResponse
  | serializeResponse
  | unzip (full : Bool)
  | result (full : Bool)
  | split (full : Bool)
  | join
  | access
  | listen
  | requestToString
  | responseToString
  deriving DecidableEq, Repr

/-- A registration by the user, with the methods that are called on the builder that it
returns. -/
inductive Call where
  /-- `register_message`, after `opt_out` or not. -/
  | message (c : Common) (t : Ty) (withs : List With)
  /-- `register_node_builder`, `register_node_builder_fallible`. -/
  | node (c : Common) (id : Nat) (request response : Ty) (withs : List NodeWith)
  /-- `register_section_builder` for a derived section: its fields. -/
  | section_ (fields : List (Common × Ty × List With))
  deriving Repr

/-- `impl_register_message`, src/diagram/registration.rs:272-293, with
`register_json` (src/diagram/serialization.rs:165-205). -/
def registerCommon (c : Common) (t : Ty) (s : St) : St :=
  let s1 := registerClone c.clone t (registerSer c.ser t (registerDe c.de t s))
  if c.ser && c.de then { s1 with jsonBuffer := fun k => k = t || s1.jsonBuffer k } else s1

/-- `MessageRegistrationBuilder::new`, src/diagram/registration.rs:345-353. -/
def newBuilder (T : Types) (t : Ty) (s : St) : St := registerOnce .join (T.vec t) s

/-- One method of a `MessageRegistrationBuilder`. -/
def doWith (T : Types) (t : Ty) (s : St) : With → St
  | .unzip full => registerUnzip T full t s
  | .result full => registerResult T full t s
  | .split full => registerSplit T full t s
  | .join => registerOnce .join t s
  | .access => registerOnce .access t s
  | .listen => registerOnce .listen t s
  | .toString => registerToString t s

/-- `CommonOperations::register_message`, src/diagram/registration.rs:260-270, and the methods
called on its result. -/
def doMessage (T : Types) (c : Common) (t : Ty) (withs : List With) (s : St) : St :=
  withs.foldl (doWith T t) (newBuilder T t (registerCommon c t s))

/-- One method of a `NodeRegistrationBuilder`. -/
def doNodeWith (T : Types) (req resp : Ty) (s : St) : NodeWith → St
  | .commonRequest => doMessage T ⟨true, true, true⟩ req [] s
  | .cloneRequest => registerClone true req s
  | .deserializeRequest => registerDe true req s
  | .commonResponse => doMessage T ⟨true, true, true⟩ resp [] s
  | .cloneResponse => registerClone true resp s
  | .serializeResponse => registerSer true resp s
  | .unzip full => registerUnzip T full resp (newBuilder T resp s)
  | .result full => registerResult T full resp (newBuilder T resp s)
  | .split full => registerSplit T full resp (newBuilder T resp s)
  | .join => registerOnce .join req s
  | .access => registerOnce .access req s
  | .listen => registerOnce .listen req s
  | .requestToString => registerToString req s
  | .responseToString => registerToString resp s

/-- One registration. `register_node_builder_fallible`: src/diagram/registration.rs:201-257;
sections: lines 1503-1515 with macros/src/derive_section.rs:55-94. -/
def call (T : Types) (s : St) : Call → St
  | .message c t withs => doMessage T c t withs s
  | .node c id req resp withs =>
    let s1 := registerCommon c resp (registerCommon c req s)
    withs.foldl (doNodeWith T req resp)
      { s1 with nodes := fun k => if k = id then some ⟨req, resp⟩ else s1.nodes k }
  | .section_ fields => fields.foldl (fun s f => doMessage T f.1 f.2.1 f.2.2 s) s

/-- Registrations one after the other. -/
def run (T : Types) (cs : List Call) (s : St) : St := cs.foldl (call T) s

/-- `register_builtin_messages`, src/diagram/registration.rs:1602-1631: `JsonMessage`,
`TransformError`, and the basic types. `DiagramElementRegistry::new` makes these registrations
before those of the user (lines 1380-1402). -/
def builtin (T : Types) (transformError : Ty) (basics : List Ty) : List Call :=
  .message ⟨true, true, true⟩ T.json [.join, .split true] ::
  .message ⟨false, false, false⟩ transformError [.toString] ::
  basics.map fun t => .message ⟨true, true, true⟩ t []

/-! ### What is asked of the registry when a diagram is built -/

/-- `deserialize`, `serialize`, `fork_clone`, `unzip`, `fork_result`, `split`, `join`,
`with_buffer_access`, `listen`, `try_to_string`: the operation that is made for messages of type
`t`, src/diagram/registration.rs:924-1318. -/
def get (s : St) (t : Ty) (op : Op) : Option Ty := (s.messages t).bind fun r => r.impl op

/-- `create_buffer`, `trigger`, `set_scope_request`, `set_scope_response`,
`spawn_basic_scope_stream`, src/diagram/registration.rs:1112-1189: the type for which they are
made, for messages of type `t`. -/
def basic (s : St) (t : Ty) : Option Ty := (s.messages t).map (·.tag)

/-- `get_node_registration`, src/diagram/registration.rs:1570-1578. -/
def getNode (s : St) (id : Nat) : Option NodeReg := s.nodes id

end Verif.Register

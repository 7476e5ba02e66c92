import Verif.Diagram.Refs

/-
Model of the operations that a diagram can contain, of the validation of section templates
(src/diagram.rs:603-745), and of the inference of buffer types (the functions of
src/diagram/workflow_builder.rs that read the construction).
-/
namespace Verif.Diagram

/-- `TypeInfo`: only equality of types matters. -/
abbrev Ty := Nat

/-- `JsonMessage`. -/
def json : Ty := 0

/-- `DiagramOperation`, src/diagram.rs, with the fields of the schemas that matter for the
construction. Configurations, trace settings and display information are left out. A node is
given by the types of the node that its builder creates. Fork-result and unzip (and split, up
to the choice of the keys) are `parts`: they infer their input type and the registry gives the
types of their outputs. -/
inductive Schema where
  /-- `NodeSchema`, src/diagram/node_schema.rs:70-80. -/
  | node (inTy outTy : Ty) (next : Next) (streams : List (Ty × Next))
  /-- `ForkCloneSchema`, src/diagram/fork_clone_schema.rs:72-76. -/
  | forkClone (next : List Next)
  /-- `ForkResultSchema`, `UnzipSchema`, src/diagram/fork_result_schema.rs:60-65,
  src/diagram/unzip_schema.rs:87-91. -/
  | parts (next : List Next)
  /-- `BufferSchema`, src/diagram/buffer_schema.rs:98-107. -/
  | buffer (serialize : Bool)
  /-- `BufferAccessSchema`, src/diagram/buffer_schema.rs:197-206. -/
  | access (next : Next) (buffers : List Next)
  /-- `ListenSchema`, src/diagram/buffer_schema.rs:286-290. -/
  | listen (next : Next) (buffers : List Next)
  /-- `JoinSchema`, src/diagram/join_schema.rs:77-101. The keys of the buffers are their
  positions; `clone` lists the keys of those that are not pulled. -/
  | join (next : Next) (buffers : List Next) (clone : List Nat) (serialize : Bool)
  /-- `TransformSchema`, src/diagram/transform_schema.rs. -/
  | transform (next : Next) (onError : Option Next)
  /-- `StreamOutSchema`, src/diagram/stream_out_schema.rs:69-72. -/
  | streamOut (name : Name)
  /-- `SectionSchema` with `SectionProvider::Template`, src/diagram/section_schema.rs:96-105. -/
  | template (template : Name) (connect : List (Name × Next))
  /-- `ScopeSchema`, src/diagram/scope_schema.rs:100-128. Its `on_implicit_error` is never
  read by the builder. -/
  | scope (start next : Next) (streams : List (Name × Next)) (ops : List (Name × Schema))
  deriving Repr

/-- `SectionTemplate`, src/diagram/section_schema.rs. -/
structure Template where
  ops : List (Name × Schema)
  inputs : List (Name × Next)
  buffers : List (Name × Next)
  outputs : List Name
  deriving Repr

/-- What goes wrong when a diagram is built. `fuel` is not an error of the code: it stands for
a loop that has not finished within the given number of rounds. -/
inductive Err where
  | unknownTemplate (n : Name)
  | circularTemplate
  | unknownOperation (r : Ref)
  | duplicateInputs (r : Ref)
  | duplicateBuffers (r : Ref)
  | circularRedirect
  | typeMismatch
  | notSerializable
  | inconsistentHints
  | unregistered
  | wrongArity
  | incompatibleLayout
  | emptyJoin
  | unknownJoinField
  | notCloneable
  | unknownOutput
  | unfinishedScope
  | halted
  | excessive
  | fuel
  deriving DecidableEq, Repr

/-! ### Validation of templates -/

/-- The templates that the loop over the operations of a template finds,
src/diagram.rs:705-714: only sections, not the operations inside of a scope. -/
def directUses : List (Name × Schema) → List Name
  | [] => []
  | (_, .template t _) :: rest => t :: directUses rest
  | _ :: rest => directUses rest

/-- `TemplateStack::child` for every template in `uses`, pushed in this order,
src/diagram.rs:705-714 and 734-746. The head of the list is the top of the queue. -/
def pushChildren (used : List Name) :
    List Name → List (List Name × Name) → Except Err (List (List Name × Name))
  | [], queue => .ok queue
  | t :: rest, queue =>
    if t ∈ used then .error .circularTemplate
    else pushChildren used rest ((t :: used, t) :: queue)

/-- The loop of `check_circular_template_dependency`, src/diagram.rs:700-716. -/
def checkLoop (ts : List (Name × Template)) :
    Nat → List (List Name × Name) → Except Err Unit
  | 0, _ => .error .fuel
  | _ + 1, [] => .ok ()
  | n + 1, (used, next) :: queue =>
    match ts.lookup next with
    | none => .error (.unknownTemplate next)
    | some t =>
      match pushChildren used (directUses t.ops) queue with
      | .error e => .error e
      | .ok queue' => checkLoop ts n queue'

/-- An upper bound for the number of rounds of the loop, when `k` of the templates have not
been used and no template uses more than `b` others. -/
def rounds (b : Nat) : Nat → Nat
  | 0 => 1 + b
  | k + 1 => 1 + b * rounds b k

/-- The largest number of templates that one template uses. -/
def maxUses : List (Name × Template) → Nat
  | [] => 0
  | (_, t) :: rest => max (directUses t.ops).length (maxUses rest)

/-- `check_circular_template_dependency`, src/diagram.rs:693-719, with enough rounds. -/
def checkTemplate (ts : List (Name × Template)) (start : Name) : Except Err Unit :=
  checkLoop ts (rounds (maxUses ts) ts.length + 1) [([start], start)]

/-- `Diagram::validate_template_usage`, src/diagram.rs:606-621. -/
def validateUsage (ts : List (Name × Template)) : List Name → Except Err Unit
  | [] => .ok ()
  | t :: rest =>
    match checkTemplate ts t with
    | .error e => .error e
    | .ok () => validateUsage ts rest

/-! ### The construction, as the operations see it -/

/-- `DynOutput`: its entity, its message type, and the scope it lives in. -/
structure Out where
  id : Nat
  ty : Ty
  scope : Nat
  deriving DecidableEq, Repr

/-- The implementations of `ConnectIntoTarget`.
* `slot`: `standard_input_connection` (src/diagram/workflow_builder.rs:1066-1084), i.e.
  `ImplicitSerialization`, `ImplicitDeserialization` or `BasicConnect`, depending on the type.
  `conv` has the types that a converter was made for.
* `dispose`: `ConnectToDispose` (lines 1037-1057).
* `cancel`: `ConnectToCancel` (lines 1147-1225).
* `redirect`: `RedirectConnection` (lines 1227-1274).
* `hop`: `ConnectScopeRequest`, `ConnectScopeResponse`, `ConnectScopeStream`
  (src/diagram/scope_schema.rs:182-337). The first output that is connected fixes the type of
  an input in the scope `inScope`, and makes an output in the scope `outScope`, aimed at `to`.
  `mate` is set for `ConnectScopeRequest`: the target of the response of the same scope, which
  shares the `IncrementalScopeBuilder`. -/
inductive Conn where
  | slot (ty : Ty) (scope : Nat) (conv : List Ty)
  | dispose
  | cancel (scope : Nat) (conv : List Ty)
  | redirect (to : Ref) (seen : List Nat)
  | hop (inScope outScope : Nat) (to : Ref) (conn : Option (Ty × List Ty)) (mate : Option Ref)
  deriving DecidableEq, Repr

/-- `Target`, src/diagram/workflow_builder.rs:955-958. -/
structure Target where
  conn : Conn
  scope : Nat
  deriving DecidableEq, Repr

/-- `MessageTypeHint`, src/buffer/buffer_map.rs:358-365. -/
inductive Hint where
  | exact (t : Ty)
  | fallback (t : Ty)
  deriving DecidableEq, Repr

/-- `MessageTypeHint::as_exact`, src/buffer/buffer_map.rs:385-390. -/
def Hint.asExact : Hint → Option Ty
  | .exact t => some t
  | .fallback _ => none

/-- `BufferRef`, src/diagram/workflow_builder.rs:71-74. Of a buffer only its message type
matters. -/
inductive BufRef where
  | ref (r : Ref)
  | value (t : Ty)
  deriving DecidableEq, Repr

/-- `DiagramConstruction`, src/diagram/workflow_builder.rs:43-55, without the generated
operations. Maps are association lists without repeated keys, the set of hints of each buffer
is the list of hints that are filed under its name. `fresh` is the next entity. -/
structure Cons where
  targets : List (Ref × Target)
  outs : List (Ref × List Out)
  bufs : List (Ref × BufRef)
  hints : List (Ref × Hint)
  fresh : Nat
  deriving Repr

/-- The hints of one buffer, `buffer_hints.get(&id)`. -/
def hintsOf (hints : List (Ref × Hint)) (r : Ref) : List Hint :=
  (hints.filter fun e => e.1 = r).map (·.2)

/-- `infer_buffer_message_type_from_hints`, src/diagram/workflow_builder.rs:143-170. The hints
come in the iteration order of a hash set. -/
def inferFromHints (hints : List Hint) : Except Err (Option Ty) :=
  match hints.filterMap Hint.asExact with
  | [] => .ok none
  | first :: rest =>
    if (first :: rest).any (fun other => other ≠ first) then .error .inconsistentHints
    else .ok (some first)

/-- Why a buffer cannot be found. -/
inductive BufErr where
  | circular
  | missing
  | fuel
  deriving DecidableEq, Repr

/-- The loop of `attempt_get_buffer` in `create_buffer_map`,
src/diagram/workflow_builder.rs:344-360. -/
def getBufferLoop (bufs : List (Ref × BufRef)) : Nat → List Ref → Ref → Except BufErr Ty
  | 0, _, _ => .error .fuel
  | n + 1, visited, r =>
    if r ∈ visited then .error .circular
    else
      match bufs.lookup r with
      | none => .error .missing
      | some (.value t) => .ok t
      | some (.ref r') => getBufferLoop bufs n (r :: visited) r'

/-- `attempt_get_buffer`, src/diagram/workflow_builder.rs:341-361, with enough rounds. -/
def getBuffer (bufs : List (Ref × BufRef)) (r : Ref) : Except BufErr Ty :=
  getBufferLoop bufs (bufs.length + 2) [] r

/-- `infer_input_type` of the connectors, followed by `preferred_input_type`, with
`redirect_infer_input_type` (src/diagram/workflow_builder.rs:174-192): lines 1050-1057,
1093-1101, 1112-1120, 1137-1145, 1218-1224, 1266-1274, and
src/diagram/scope_schema.rs:218-228, 271-281, 320-330. -/
def inferConn (targets : List (Ref × Target)) : Nat → List Ref → Conn → Except Err (Option Ty)
  | 0, _, _ => .error .fuel
  | n + 1, visited, c =>
    match c with
    | .slot ty _ _ => .ok (some ty)
    | .dispose => .ok none
    | .cancel _ _ => .ok (some json)
    | .hop _ _ _ (some (ty, _)) _ => .ok (some ty)
    | .redirect to _ | .hop _ _ to none _ =>
      if to ∈ visited then .error .circularRedirect
      else
        match targets.lookup to with
        | none => .ok none
        | some t => inferConn targets n (to :: visited) t.conn

/-- The type of the first output that waits for a target,
src/diagram/workflow_builder.rs:134-139. -/
def firstType (outs : List (Ref × List Out)) (id : Ref) : Option Ty :=
  ((outs.lookup id).bind List.head?).map Out.ty

/-- `infer_input_type_into_target`, src/diagram/workflow_builder.rs:116-141. -/
def inferInput (c : Cons) (id : Ref) : Except Err (Option Ty) :=
  match c.targets.lookup id with
  | none => .ok (firstType c.outs id)
  | some t =>
    match inferConn c.targets (c.targets.length + 2) [id] t.conn with
    | .error e => .error e
    | .ok (some ty) => .ok (some ty)
    | .ok none => .ok (firstType c.outs id)

end Verif.Diagram

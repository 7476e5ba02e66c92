import Verif.File.Json

/-
Model of the file format of diagrams: src/diagram.rs and the schemas in src/diagram, with the
derived and handwritten implementations of `Serialize` and `Deserialize`. Documentation
strings, `JsonSchema` and errors are left out: reading gives `none` for every error. A struct
can also be read from an array of its fields; this is left out, the model reads structs from
objects only.
-/
namespace Verif.File

/-- `BuiltinTarget`, src/diagram.rs:235-262. -/
inductive Builtin where
  | terminate | dispose | cancel
  deriving DecidableEq, Repr

def Builtin.names : List (String × Builtin) :=
  [("terminate", .terminate), ("dispose", .dispose), ("cancel", .cancel)]

def Builtin.name : Builtin → String
  | .terminate => "terminate"
  | .dispose => "dispose"
  | .cancel => "cancel"

/-- `NextOperation`, src/diagram.rs:95-107, with `NamespacedOperation` (lines 135-143). -/
inductive Next where
  | name (s : String)
  | builtin (b : Builtin)
  | inside (namesp op : String)
  deriving DecidableEq, Repr

/-- Lines 98-107 and 145-154: untagged, a namespaced operation is an object with one entry. -/
def Next.write : Next → Json
  | .name s => .str s
  | .builtin b => .obj [("builtin", .str b.name)]
  | .inside n o => .obj [(n, .str o)]

/-- `NamespacedOperationVisitor::visit_map`, src/diagram.rs:168-188. -/
def readNamespaced : Json → Option Next
  | .obj [(k, .str v)] => some (.inside k v)
  | _ => none

/-- The variant `Builtin`, src/diagram.rs:101-103. -/
def readBuiltinNext : Json → Option Next
  | .obj m => (req m "builtin" (readUnit Builtin.names)).map .builtin
  | _ => none

/-- The derived `Deserialize` of an untagged enum tries the variants in their order,
src/diagram.rs:98-107. -/
def readNext (j : Json) : Option Next :=
  ((readStr j).map Next.name).orElse fun _ =>
    (readBuiltinNext j).orElse fun _ => readNamespaced j

/-- `BufferSelection`, src/diagram.rs:219-224. -/
inductive Selection where
  | dict (m : List (String × Next))
  | array (l : List Next)
  deriving Repr

def writeMap {α : Type} (write : α → Json) (m : List (String × α)) : Json :=
  .obj (m.map (fun p => (p.1, write p.2)))

def writeList {α : Type} (write : α → Json) (l : List α) : Json := .arr (l.map write)

def writeOption {α : Type} (write : α → Json) : Option α → Json
  | none => .null
  | some a => write a

def Selection.write : Selection → Json
  | .dict m => writeMap Next.write m
  | .array l => writeList Next.write l

def readSelection (j : Json) : Option Selection :=
  ((readMap readNext j).map Selection.dict).orElse fun _ =>
    (readList readNext j).map Selection.array

/-- `TraceToggle`, src/diagram.rs:404-421. -/
inductive Toggle where
  | off | on | messages
  deriving DecidableEq, Repr

def Toggle.names : List (String × Toggle) := [("off", .off), ("on", .on), ("messages", .messages)]

def Toggle.write : Toggle → Json
  | .off => .str "off"
  | .on => .str "on"
  | .messages => .str "messages"

/-- `TraceSettings`, src/diagram.rs:433-446. -/
structure Tracing where
  display : Option String
  trace : Option Toggle
  deriving DecidableEq, Repr

/-- The entries that `#[serde(flatten)] trace_settings` adds to the object of an operation. -/
def Tracing.fields (t : Tracing) : List (String × Json) :=
  (match t.display with
    | none => []
    | some s => [("display_text", Json.str s)]) ++
  (match t.trace with
    | none => []
    | some v => [("trace", v.write)])

def readTracing (m : List (String × Json)) : Option Tracing := do
  let display ← opt m "display_text" (readNullable readStr) none
  let trace ← opt m "trace" (readNullable (readUnit Toggle.names)) none
  return { display, trace }

/-- `RetentionPolicy`, src/buffer.rs:290-306. -/
inductive Retention where
  | keepLast (n : UInt64)
  | keepFirst (n : UInt64)
  | keepAll
  deriving DecidableEq, Repr

def Retention.write : Retention → Json
  | .keepLast n => .obj [("keep_last", .nat n)]
  | .keepFirst n => .obj [("keep_first", .nat n)]
  | .keepAll => .str "keep_all"

def readRetention : Json → Option Retention
  | .obj [("keep_last", .nat n)] => some (.keepLast n)
  | .obj [("keep_first", .nat n)] => some (.keepFirst n)
  | .obj [("keep_all", .null)] => some .keepAll
  | .str "keep_all" => some .keepAll
  | _ => none

/-- `BufferSettings`, src/buffer.rs:242-250: a struct with the field `retention`. -/
def writeSettings (r : Retention) : Json := .obj [("retention", r.write)]

def readSettings : Json → Option Retention
  | .obj m => req m "retention" readRetention
  | _ => none

/-- `BufferIdentifier`, src/buffer/buffer_map.rs:48-60. -/
inductive Ident where
  | name (s : String)
  | index (n : UInt64)
  deriving DecidableEq, Repr

def Ident.write : Ident → Json
  | .name s => .str s
  | .index n => .nat n

def readIdent : Json → Option Ident
  | .str s => some (.name s)
  | .nat n => some (.index n)
  | _ => none

/-- `SectionProvider`, src/diagram/section_schema.rs:33-38. -/
inductive Provider where
  | builder (s : String)
  | template (s : String)
  deriving DecidableEq, Repr

def Provider.field : Provider → String × Json
  | .builder s => ("builder", .str s)
  | .template s => ("template", .str s)

/-- A flattened enum is read from the first entry whose key is one of its variants. -/
def readProvider (m : List (String × Json)) : Option Provider :=
  match m.find? (fun p => p.1 == "builder" || p.1 == "template") with
  | none => none
  | some (k, j) =>
    (readStr j).map (fun s => if k == "builder" then .builder s else .template s)

/-- `ScopeSettings`, src/workflow.rs:183-194. -/
def writeScopeSettings (uninterruptible : Bool) : Json :=
  .obj [("uninterruptible", .bool uninterruptible)]

def readScopeSettings : Json → Option Bool
  | .obj m => req m "uninterruptible" readBool
  | _ => none

/-- `DiagramOperation`, src/diagram.rs:287-305. -/
inductive Op where
  /-- `NodeSchema`, src/diagram/node_schema.rs:69-80. -/
  | node (builder : String) (config : Json) (next : Next) (streams : List (String × Next))
    (tracing : Tracing)
  /-- `SectionSchema`, src/diagram/section_schema.rs:94-105. -/
  | sect (provider : Provider) (config : Json) (connect : List (String × Next))
    (tracing : Tracing)
  /-- `ScopeSchema`, src/diagram/scope_schema.rs:98-128. -/
  | scope (start : Next) (onError : Option Next) (ops : List (String × Op))
    (streams : List (String × Next)) (next : Next) (uninterruptible : Bool)
  /-- `StreamOutSchema`, src/diagram/stream_out_schema.rs:67-72. -/
  | streamOut (name : String)
  /-- `ForkCloneSchema`, src/diagram/fork_clone_schema.rs:70-76. -/
  | forkClone (next : List Next) (tracing : Tracing)
  /-- `UnzipSchema`, src/diagram/unzip_schema.rs:85-91. -/
  | unzip (next : List Next) (tracing : Tracing)
  /-- `ForkResultSchema`, src/diagram/fork_result_schema.rs:58-65. -/
  | forkResult (ok err : Next) (tracing : Tracing)
  /-- `SplitSchema`, src/diagram/split_schema.rs:100-116. -/
  | split (sequential : List Next) (keyed : List (String × Next)) (remaining : Option Next)
    (tracing : Tracing)
  /-- `JoinSchema`, src/diagram/join_schema.rs:78-99. -/
  | join (next : Next) (buffers : Selection) (clone : List Ident) (serialize : Bool)
  /-- `TransformSchema`, src/diagram/transform_schema.rs:86-102. -/
  | transform (cel : String) (next : Next) (onError : Option Next) (tracing : Tracing)
  /-- `BufferSchema`, src/diagram/buffer_schema.rs:97-107. -/
  | buffer (settings : Retention) (serialize : Option Bool) (tracing : Tracing)
  /-- `BufferAccessSchema`, src/diagram/buffer_schema.rs:196-206. -/
  | bufferAccess (next : Next) (buffers : Selection) (tracing : Tracing)
  /-- `ListenSchema`, src/diagram/buffer_schema.rs:284-290. -/
  | listen (next : Next) (buffers : Selection)

/-- A field with `skip_serializing_if = "is_default"`, src/utils.rs:28-31. -/
def skipIf (isDefault : Bool) (k : String) (j : Json) : List (String × Json) :=
  if isDefault then [] else [(k, j)]

def Json.isNull : Json → Bool
  | .null => true
  | _ => false

mutual
/-- `Serialize` of `DiagramOperation`, internally tagged: src/diagram.rs:288. -/
def Op.write : Op → Json
  | .node builder config next streams t => .obj ([("type", .str "node"), ("builder", .str builder)] ++
      skipIf config.isNull "config" config ++ [("next", next.write)] ++
      skipIf streams.isEmpty "stream_out" (writeMap Next.write streams) ++ t.fields)
  | .sect provider config connect t => .obj ([("type", .str "section"), provider.field,
      ("config", config), ("connect", writeMap Next.write connect)] ++ t.fields)
  | .scope start onError ops streams next uninterruptible => .obj [("type", .str "scope"),
      ("start", start.write), ("on_implicit_error", writeOption Next.write onError),
      ("ops", .obj (writeOps ops)), ("stream_out", writeMap Next.write streams),
      ("next", next.write), ("settings", writeScopeSettings uninterruptible)]
  | .streamOut name => .obj [("type", .str "stream_out"), ("name", .str name)]
  | .forkClone next t => .obj ([("type", .str "fork_clone"), ("next", writeList Next.write next)] ++
      t.fields)
  | .unzip next t => .obj ([("type", .str "unzip"), ("next", writeList Next.write next)] ++ t.fields)
  | .forkResult ok err t => .obj ([("type", .str "fork_result"), ("ok", ok.write),
      ("err", err.write)] ++ t.fields)
  | .split sequential keyed remaining t => .obj ([("type", .str "split")] ++
      skipIf sequential.isEmpty "sequential" (writeList Next.write sequential) ++
      skipIf keyed.isEmpty "keyed" (writeMap Next.write keyed) ++
      skipIf remaining.isNone "remaining" (writeOption Next.write remaining) ++ t.fields)
  | .join next buffers clone serialize => .obj ([("type", .str "join"), ("next", next.write),
      ("buffers", buffers.write)] ++ skipIf clone.isEmpty "clone" (writeList Ident.write clone) ++
      skipIf (!serialize) "serialize" (.bool serialize))
  | .transform cel next onError t => .obj ([("type", .str "transform"), ("cel", .str cel),
      ("next", next.write), ("on_error", writeOption Next.write onError)] ++ t.fields)
  | .buffer settings serialize t => .obj ([("type", .str "buffer"),
      ("settings", writeSettings settings), ("serialize", writeOption Json.bool serialize)] ++ t.fields)
  | .bufferAccess next buffers t => .obj ([("type", .str "buffer_access"), ("next", next.write),
      ("buffers", buffers.write)] ++ t.fields)
  | .listen next buffers => .obj [("type", .str "listen"), ("next", next.write),
      ("buffers", buffers.write)]
/-- `Serialize` of `Operations`, src/diagram.rs:623-625: transparent, a map. -/
def writeOps : List (String × Op) → List (String × Json)
  | [] => []
  | p :: l => writeEntry p :: writeOps l
def writeEntry : String × Op → String × Json
  | (k, o) => (k, o.write)
end

/-- The fields of an operation, without `type`. `inner` reads the operations of a scope. -/
def readFields (inner : Json → Option Op) (m : List (String × Json)) (type : String) : Option Op :=
  if type == "node" then do
    let builder ← req m "builder" readStr
    let config ← opt m "config" readJson .null
    let next ← req m "next" readNext
    let streams ← opt m "stream_out" (readMap readNext) []
    let t ← readTracing m
    return .node builder config next streams t
  else if type == "section" then do
    let provider ← readProvider m
    let config ← opt m "config" readJson .null
    let connect ← opt m "connect" (readMap readNext) []
    let t ← readTracing m
    return .sect provider config connect t
  else if type == "scope" then do
    let start ← req m "start" readNext
    let onError ← opt m "on_implicit_error" (readNullable readNext) none
    let ops ← req m "ops" (readMap inner)
    let streams ← opt m "stream_out" (readMap readNext) []
    let next ← req m "next" readNext
    let uninterruptible ← opt m "settings" readScopeSettings false
    return .scope start onError ops streams next uninterruptible
  else if type == "stream_out" then do
    let name ← req m "name" readStr
    return .streamOut name
  else if type == "fork_clone" then do
    let next ← req m "next" (readList readNext)
    let t ← readTracing m
    return .forkClone next t
  else if type == "unzip" then do
    let next ← req m "next" (readList readNext)
    let t ← readTracing m
    return .unzip next t
  else if type == "fork_result" then do
    let ok ← req m "ok" readNext
    let err ← req m "err" readNext
    let t ← readTracing m
    return .forkResult ok err t
  else if type == "split" then do
    let sequential ← opt m "sequential" (readList readNext) []
    let keyed ← opt m "keyed" (readMap readNext) []
    let remaining ← opt m "remaining" (readNullable readNext) none
    let t ← readTracing m
    return .split sequential keyed remaining t
  else if type == "join" then do
    let next ← req m "next" readNext
    let buffers ← req m "buffers" readSelection
    let clone ← opt m "clone" (readList readIdent) []
    let serialize ← opt m "serialize" readBool false
    return .join next buffers clone serialize
  else if type == "transform" then do
    let cel ← req m "cel" readStr
    let next ← req m "next" readNext
    let onError ← opt m "on_error" (readNullable readNext) none
    let t ← readTracing m
    return .transform cel next onError t
  else if type == "buffer" then do
    let settings ← opt m "settings" readSettings (.keepLast 1)
    let serialize ← opt m "serialize" (readNullable readBool) none
    let t ← readTracing m
    return .buffer settings serialize t
  else if type == "buffer_access" then do
    let next ← req m "next" readNext
    let buffers ← req m "buffers" readSelection
    let t ← readTracing m
    return .bufferAccess next buffers t
  else if type == "listen" then do
    let next ← req m "next" readNext
    let buffers ← req m "buffers" readSelection
    return .listen next buffers
  else none

/-- `Deserialize` of `DiagramOperation`, src/diagram.rs:288. The number bounds how deep scopes
are nested, for the recursion; with the depth of the value it is no bound
(`readOp_depth` in Lemmas). -/
def readOp : Nat → Json → Option Op
  | 0, _ => none
  | n + 1, .obj m => (req m "type" readStr).bind (readFields (readOp n) m)
  | _ + 1, _ => none

/-- `InputRemapping`, src/diagram/section_schema.rs:379-393. -/
inductive Remapping where
  | forward (l : List String)
  | remap (m : List (String × Next))
  deriving Repr

def Remapping.write : Remapping → Json
  | .forward l => writeList Json.str l
  | .remap m => writeMap Next.write m

def readRemapping (j : Json) : Option Remapping :=
  ((readList readStr j).map Remapping.forward).orElse fun _ =>
    (readMap readNext j).map Remapping.remap

/-- `SectionTemplate`, src/diagram/section_schema.rs:359-374. -/
structure Template where
  inputs : Remapping
  outputs : List String
  buffers : Remapping
  ops : List (String × Op)

def Template.write (t : Template) : Json := .obj [("inputs", t.inputs.write),
  ("outputs", writeList Json.str t.outputs), ("buffers", t.buffers.write),
  ("ops", .obj (writeOps t.ops))]

def readTemplate (n : Nat) : Json → Option Template
  | .obj m => do
    let inputs ← opt m "inputs" readRemapping (.forward [])
    let outputs ← opt m "outputs" (readList readStr) []
    let buffers ← opt m "buffers" readRemapping (.forward [])
    let ops ← req m "ops" (readMap (readOp n))
    return { inputs, outputs, buffers, ops }
  | _ => none

/-- The crate `semver`, with the requirement `SUPPORTED_DIAGRAM_VERSION`, src/diagram.rs:85: a
version that is printed can be parsed again. -/
structure Semver where
  Version : Type
  parse : String → Option Version
  print : Version → String
  supported : Version → Bool
  parse_print : ∀ v, parse (print v) = some v

/-- `Diagram`, src/diagram.rs:363-402. -/
structure Diagram (S : Semver) where
  version : S.Version
  templates : List (String × Template)
  start : Next
  onError : Option Next
  ops : List (String × Op)
  trace : Toggle

/-- `deserialize_semver`, src/diagram.rs:332-349. -/
def readVersion (S : Semver) (j : Json) : Option S.Version :=
  (readStr j).bind fun s => (S.parse s).bind fun v => if S.supported v then some v else none

/-- `Serialize` of `Diagram`, src/diagram.rs:363-402. -/
def Diagram.toJson {S : Semver} (d : Diagram S) : Json :=
  .obj ([("version", .str (S.print d.version)), ("templates", writeMap Template.write d.templates),
    ("start", d.start.write), ("on_implicit_error", writeOption Next.write d.onError),
    ("ops", .obj (writeOps d.ops))] ++
    skipIf (d.trace == .off) "default_trace" d.trace.write)

/-- `Deserialize` of `Diagram`. -/
def readDiagram (S : Semver) (n : Nat) : Json → Option (Diagram S)
  | .obj m => do
    let version ← req m "version" (readVersion S)
    let templates ← opt m "templates" (readMap (readTemplate n)) []
    let start ← req m "start" readNext
    let onError ← opt m "on_implicit_error" (readNullable readNext) none
    let ops ← req m "ops" (readMap (readOp n))
    let trace ← opt m "default_trace" (readUnit Toggle.names) .off
    return { version, templates, start, onError, ops, trace }
  | _ => none

/-- `Diagram::from_json`, src/diagram.rs:580-582. -/
def fromJson (S : Semver) (j : Json) : Option (Diagram S) := readDiagram S j.depth j

/-- `Diagram::from_json_str` and `from_reader`, src/diagram.rs:584-593, of the text of a value:
serde_json gives up when 128 arrays and objects are nested. (It applies this only to values that
are not skipped; the value of an unknown key of the outermost object is. The text itself is not
modelled.) -/
def fromText (S : Semver) (j : Json) : Option (Diagram S) :=
  if j.depth < 128 then fromJson S j else none

end Verif.File

/-
Model of how the diagram editor loads a diagram into a graph of nodes and edges and exports a graph
as a diagram. Sources under /repo/diagram-editor/frontend: utils/load-diagram.ts,
utils/operation.ts, utils/export-diagram.ts, node-manager.ts, nodes/create-node.ts,
utils/namespace.ts.

Simplified throughout:
* A namespace is the list of the names of the scopes around an operation, outermost first, where
  the editor joins them with `:`; names with a `:` in them are therefore not covered.
* The id of a node is its place, where the editor draws a uuid.
* The nodes for the start and the end of the diagram and of each scope have ids of their own and are
  not listed; the editor makes exactly one of each (load-diagram.ts:50-58, create-node.ts:120-147),
  and gives them names (`START_ID`, `TERMINATE_ID`) that no operation should have.
* A map (`stream_out`, `connect`, `keyed`, `sequential`) that is missing is the same as an empty one.
* The fields of an operation that loading and exporting do not look at are one opaque text.
* `none` as the result of a function is a thrown error, and nothing is exported or loaded.
* Positions, the selection and the validation against the schema (load-diagram.ts:36-48) are left out,
  and so are the nodes of section templates (`sectionInput`, `sectionOutput`, `sectionBuffer`).
-/
namespace Verif.Editor

/-- Names of operations, streams, builders, outputs and keys. -/
abbrev Name := String

/-- `NextOperation`, types/api.d.ts: the name of an operation, `{builtin: …}`, or
`{section: input}`. -/
inductive Next where
  | op (n : Name)
  | terminate
  | dispose
  | cancel
  | inner (section_ input : Name)
  deriving DecidableEq, Repr

/-- `BufferSelection`, types/api.d.ts:12-16. Assigning past the end of an array leaves holes, which
JSON writes as `null`: they are `none`. -/
inductive Sel where
  | arr (l : List (Option Next))
  | dict (l : List (Name × Next))
  deriving DecidableEq, Repr

/-- A number or a name in `clone` of a join. -/
inductive BufId where
  | idx (i : Nat)
  | key (k : Name)
  deriving DecidableEq, Repr

/-- What the connections of an operation are, by `type`; `DiagramOperation`, types/api.d.ts. A scope
is without its operations, they are in the `Forest`. -/
inductive Body where
  | node (builder : Name) (next : Next) (streams : List (Name × Next))
  | transform (next : Next)
  | forkClone (next : List Next)
  | unzip (next : List (Option Next))
  | forkResult (ok err : Next)
  | split (keyed : List (Name × Next)) (sequential : List Next) (remaining : Option Next)
  | join (buffers : Sel) (clone : Option (List BufId)) (next : Next)
  | listen (buffers : Sel) (next : Next)
  | access (buffers : Sel) (next : Next)
  | buffer
  | streamOut
  | sect (connect : List (Name × Next))
  | scope (next : Next) (streams : List (Name × Next)) (start : Next)
  deriving DecidableEq, Repr

/-- The `type` of an operation. -/
inductive Kind where
  | node | transform | forkClone | unzip | forkResult | split | join | listen | access | buffer
  | streamOut | sect | scope
  deriving DecidableEq, Repr

/-- The `type` of an operation. -/
def Body.kind : Body → Kind
  | .node .. => .node
  | .transform .. => .transform
  | .forkClone .. => .forkClone
  | .unzip .. => .unzip
  | .forkResult .. => .forkResult
  | .split .. => .split
  | .join .. => .join
  | .listen .. => .listen
  | .access .. => .access
  | .buffer => .buffer
  | .streamOut => .streamOut
  | .sect .. => .sect
  | .scope .. => .scope

/-- An operation without the operations inside it: its connections and its other fields
(`display_text`, `config`, `settings`, `trace`, …) as one text. -/
structure Op where
  extra : String
  body : Body
  deriving DecidableEq, Repr

/-- `ops` of a diagram or a scope, in the order of the keys; `kids` are the `ops` of a scope. -/
inductive Forest where
  | nil
  | cons (name : Name) (op : Op) (kids rest : Forest)
  deriving DecidableEq, Repr

/-- `Diagram`, types/api.d.ts:377-395. The templates are one text, which the editor keeps apart. -/
structure Diagram where
  start : Next
  ops : Forest
  templates : String
  defaultTrace : Option String
  onImplicitError : Option Next
  deriving DecidableEq, Repr

/-- Where an operation is: `data.namespace` and `data.opId` of its node. -/
structure Key where
  ns : List Name
  name : Name
  deriving DecidableEq, Repr

/-- `joinNamespaces(namespace, opId)`, the namespace of the operations in a scope. -/
def Key.inside (k : Key) : List Name := k.ns ++ [k.name]

/-- The id of a node. `start` has the scope it is in, which is its `parentId`. -/
inductive Id where
  | op (k : Key)
  | start (parent : Option Key)
  | terminate (ns : List Name)
  deriving DecidableEq, Repr

/-- `fetchType` of a buffer edge, edges/input-slots.ts. -/
inductive Fetch where
  | unset | pull | clone
  deriving DecidableEq, Repr

/-- `type` of an edge with its `data.output`, and `data.input` of a buffer edge; edges/index.ts. -/
inductive EdgeKind where
  | default
  | stream (id : Name)
  | unzip (seq : Nat)
  | ok
  | err
  | splitKey (key : Name)
  | splitSeq (seq : Nat)
  | splitRemaining
  | sect (output : Name)
  | bufferSeq (seq : Nat) (fetch : Fetch)
  | bufferKey (key : Name) (fetch : Fetch)
  deriving DecidableEq, Repr

/-- An edge. `slot` is `data.input` when it is of type `sectionInput` or `sectionBuffer`. -/
structure Edge where
  source : Id
  target : Id
  kind : EdgeKind
  slot : Option Name
  deriving DecidableEq, Repr

/-- The nodes of operations. -/
abbrev Nodes := List (Key × Op)

/-- `Graph`, load-diagram.ts:26-29. -/
structure Graph where
  nodes : Nodes
  edges : List Edge
  deriving DecidableEq, Repr

/-! ### NodeManager -/

/-- The operation of a node, `getNode` (node-manager.ts:42-52) and
`namespacedOpIdMap.get` (14-37). -/
def Nodes.get (ns : Nodes) (k : Key) : Option Op :=
  match ns with
  | [] => none
  | (k', o) :: rest => if k' = k then some o else Nodes.get rest k

/-- The type of a node, which never changes. -/
def Nodes.kind (ns : Nodes) (k : Key) : Option Kind := (ns.get k).map (·.body.kind)

/-- Whether there is a node for the end of a namespace: of the diagram, or of a scope. -/
def Nodes.hasEnd (ns : Nodes) (at_ : List Name) : Bool :=
  at_ == [] || ns.any fun (k, o) => k.inside == at_ && o.body.kind == .scope

/-- `getNodeFromNextOp`, node-manager.ts:88-121: the node to which a target in a namespace leads.
The outer `none` is an error; the inner `none` is that the target is not drawn. -/
def Nodes.fromNext (ns : Nodes) (at_ : List Name) : Next → Option (Option Id)
  | .dispose => some none
  | .cancel => some none
  | .terminate => if ns.hasEnd at_ then some (some (.terminate at_)) else none
  | .op n => if (ns.get ⟨at_, n⟩).isSome then some (some (.op ⟨at_, n⟩)) else none
  | .inner n _ => if (ns.get ⟨at_, n⟩).isSome then some (some (.op ⟨at_, n⟩)) else none

/-- `getTargetNextOp`, node-manager.ts:123-158; `kinds` are the nodes. An edge to the start of a
namespace cannot be drawn (utils/connection.ts:65) and is an error here. -/
def targetNext (kinds : Key → Option Kind) (e : Edge) : Option Next :=
  match e.slot with
  | none =>
    match e.target with
    | .op k => if (kinds k).isSome then some (.op k.name) else none
    | .terminate _ => some .terminate
    | .start _ => none
  | some input =>
    match e.target with
    | .op k => if kinds k = some .sect then some (.inner k.name input) else none
    | _ => none

/-! ### Loading -/

/-- The nodes in the order in which the loop over the stack makes them, load-diagram.ts:70-103: the
last operation first, and those in a scope right after it. -/
def flatten (ns : List Name) : Forest → Nodes
  | .nil => []
  | .cons n o kids rest => flatten ns rest ++ (⟨ns, n⟩, o) :: flatten (ns ++ [n]) kids

/-- One edge of `kind` to where a target leads, or none if the target is not drawn. The edges that
are made while loading have no slot (edges/create-edge.ts). -/
def edgeTo (ns : Nodes) (at_ : List Name) (source : Id) (kind : EdgeKind) (t : Next) :
    Option (List Edge) :=
  match ns.fromNext at_ t with
  | none => none
  | some none => some []
  | some (some i) => some [⟨source, i, kind, none⟩]

/-- Edges of a list of things. -/
def gather {α : Type} (f : α → Option (List Edge)) : List α → Option (List Edge)
  | [] => some []
  | a :: l =>
    match f a with
    | none => none
    | some es =>
      match gather f l with
      | none => none
      | some es' => some (es ++ es')

/-- A list with its indices, `entries()`. -/
def entries {α : Type} (i : Nat) : List α → List (Nat × α)
  | [] => []
  | a :: l => (i, a) :: entries (i + 1) l

/-- Names that every array has: `length` and what `Array.prototype` and `Object.prototype` give
(ECMAScript 2024, sections 20.1.3 and 23.1.3). -/
def arrayProps : List Name :=
  ["length", "at", "concat", "constructor", "copyWithin", "entries", "every", "fill", "filter",
   "find", "findIndex", "findLast", "findLastIndex", "flat", "flatMap", "forEach", "includes",
   "indexOf", "join", "keys", "lastIndexOf", "map", "pop", "push", "reduce", "reduceRight",
   "reverse", "shift", "slice", "some", "sort", "splice", "toLocaleString", "toReversed",
   "toSorted", "toSpliced", "toString", "unshift", "values", "with", "hasOwnProperty",
   "isPrototypeOf", "propertyIsEnumerable", "valueOf", "__proto__", "__defineGetter__",
   "__defineSetter__", "__lookupGetter__", "__lookupSetter__"]

/-- `key in array`: whether the array has a property of that name, which are its indices and the
names that every array has. It does not depend on what is in the array. -/
def inArray (len : Nat) : BufId → Bool
  | .idx i => i < len
  | .key k => arrayProps.contains k || (List.range len).any fun i => toString i == k

/-- `getBufferFetchType`, operation.ts:67-79. -/
def fetchType (b : Body) (id : BufId) : Fetch :=
  match b with
  | .join _ (some clone) _ => if inArray clone.length id then .clone else .pull
  | .join _ none _ => .pull
  | _ => .unset

/-- One edge from a buffer to the operation that uses it, operation.ts:88-104 and 107-123. -/
def bufferEdge (ns : Nodes) (k : Key) (kind : EdgeKind) (t : Next) : Option (List Edge) :=
  match ns.fromNext k.ns t with
  | none => none
  | some none => some []
  | some (some i) => some [⟨i, .op k, kind, none⟩]

/-- `createBufferEdges`, operation.ts:81-124. A `null` in the array cannot be looked up and throws. -/
def bufferEdges (ns : Nodes) (k : Key) (b : Body) : Sel → Option (List Edge)
  | .arr l => gather (fun (i, t) => t.bind fun t =>
      bufferEdge ns k (.bufferSeq i (fetchType b (.idx i))) t) (entries 0 l)
  | .dict l => gather (fun (x, t) =>
      bufferEdge ns k (.bufferKey x (fetchType b (.key x))) t) l

/-- Two lists of edges, one after the other. -/
def andThen (a b : Option (List Edge)) : Option (List Edge) :=
  match a with
  | none => none
  | some es => b.map (es ++ ·)

/-- `buildEdges`, operation.ts:126-367, for one operation. -/
def opEdges (ns : Nodes) (k : Key) (b : Body) : Option (List Edge) :=
  match b with
  | .buffer => some []
  | .streamOut => some []
  | .access s next => andThen (bufferEdges ns k b s) (edgeTo ns k.ns (.op k) .default next)
  | .join s _ next => andThen (bufferEdges ns k b s) (edgeTo ns k.ns (.op k) .default next)
  | .listen s next => andThen (bufferEdges ns k b s) (edgeTo ns k.ns (.op k) .default next)
  | .node _ next streams =>
    andThen (edgeTo ns k.ns (.op k) .default next)
      (gather (fun (s, t) => edgeTo ns k.ns (.op k) (.stream s) t) streams)
  | .transform next => edgeTo ns k.ns (.op k) .default next
  | .forkClone l => gather (fun t => edgeTo ns k.ns (.op k) .default t) l
  | .unzip l => gather (fun (i, t) => t.bind fun t => edgeTo ns k.ns (.op k) (.unzip i) t)
      (entries 0 l)
  | .forkResult ok err =>
    andThen (edgeTo ns k.ns (.op k) .ok ok) (edgeTo ns k.ns (.op k) .err err)
  | .split keyed seq rem =>
    andThen (gather (fun (x, t) => edgeTo ns k.ns (.op k) (.splitKey x) t) keyed)
      (andThen (gather (fun (i, t) => edgeTo ns k.ns (.op k) (.splitSeq i) t) (entries 0 seq))
        (match rem with
        | none => some []
        | some t => edgeTo ns k.ns (.op k) .splitRemaining t))
  | .sect connect => gather (fun (x, t) => edgeTo ns k.ns (.op k) (.sect x) t) connect
  | .scope next streams start =>
    andThen (edgeTo ns k.ns (.op k) .default next)
      (andThen (gather (fun (s, t) => edgeTo ns k.ns (.op k) (.stream s) t) streams)
        (edgeTo ns k.inside (.start (some k)) .default start))

/-- The edge from the start of the diagram, load-diagram.ts:105-125. A target that is not there is
not an error here; `{section: input}` is never equal to a name, so it is not found. `n.type` is
never `dispose` or `cancel`. -/
def rootEdge (ns : Nodes) : Next → List Edge
  | .op n => if (ns.get ⟨[], n⟩).isSome then [⟨.start none, .op ⟨[], n⟩, .default, none⟩] else []
  | .terminate => [⟨.start none, .terminate [], .default, none⟩]
  | .dispose => []
  | .cancel => []
  | .inner _ _ => []

/-- `loadDiagram`, load-diagram.ts:31-34 and 60-128. -/
def load (d : Diagram) : Option Graph :=
  let nodes := flatten [] d.ops
  (gather (fun (k, o) => opEdges nodes k o.body) nodes).map fun es =>
    ⟨nodes, rootEdge nodes d.start ++ es⟩

/-! ### Exporting -/

/-- `clearConnections`, export-diagram.ts:330-401, for one operation. -/
def Body.clear : Body → Body
  | .node b _ _ => .node b .dispose []
  | .scope _ _ _ => .scope .dispose [] .dispose
  | .forkClone _ => .forkClone []
  | .unzip _ => .unzip []
  | .transform _ => .transform .dispose
  | .join _ _ _ => .join (.arr []) none .dispose
  | .listen _ _ => .listen (.arr []) .dispose
  | .access _ _ => .access (.arr []) .dispose
  | .sect _ => .sect []
  | .forkResult _ _ => .forkResult .dispose .dispose
  | .split _ _ _ => .split [] [] none
  | .buffer => .buffer
  | .streamOut => .streamOut

/-- `object[key] = value`. Keys that are numbers come first in JavaScript; both when reading and when
writing, so it is left out. -/
def setKey {α : Type} (l : List (Name × α)) (k : Name) (v : α) : List (Name × α) :=
  match l with
  | [] => [(k, v)]
  | (k', v') :: l => if k' = k then (k, v) :: l else (k', v') :: setKey l k v

/-- `array[i] = value`, which leaves holes when it is past the end. -/
def setHole {α : Type} (l : List (Option α)) (i : Nat) (v : α) : List (Option α) :=
  (l ++ List.replicate (i + 1 - l.length) none).set i (some v)

/-- `setSequentialKey`, export-diagram.ts:159-168. -/
def setSeq (l : List Next) (i : Nat) (v : Next) : List Next :=
  (l ++ List.replicate (i + 1 - l.length) Next.dispose).set i v

/-- `targetOp.clone.push(…)` when the edge says so, export-diagram.ts:143-155. -/
def pushClone (clone : Option (List BufId)) (f : Fetch) (id : BufId) : Option (List BufId) :=
  match f with
  | .clone => some ((clone.getD []) ++ [id])
  | _ => clone

/-- The new selection of buffers, export-diagram.ts:102-141: an empty one becomes of the kind that
the edge asks for. -/
def setBuffer (s : Sel) (kind : EdgeKind) (n : Name) : Option Sel :=
  match kind with
  | .bufferSeq i _ =>
    match s with
    | .arr l => some (.arr (setHole l i (.op n)))
    | .dict [] => some (.arr (setHole [] i (.op n)))
    | .dict _ => none
  | .bufferKey k _ =>
    match s with
    | .dict l => some (.dict (setKey l k (.op n)))
    | .arr [] => some (.dict (setKey [] k (.op n)))
    | .arr _ => none
  | _ => none

/-- `fetchType` and the slot of a buffer edge, if it is one. -/
def EdgeKind.buffer? : EdgeKind → Option (BufId × Fetch)
  | .bufferSeq i f => some (.idx i, f)
  | .bufferKey k f => some (.key k, f)
  | _ => none

/-- `syncBufferSelection`, export-diagram.ts:87-157, on the operation that the edge leads to. -/
def syncBuffer (kinds : Key → Option Kind) (e : Edge) (id : BufId) (f : Fetch) (b : Body) :
    Option Body :=
  match e.source with
  | .op src =>
    if kinds src = some .buffer then
      match b with
      | .access s next => (setBuffer s e.kind src.name).map (.access · next)
      | .listen s next => (setBuffer s e.kind src.name).map (.listen · next)
      | .join s clone next =>
        (setBuffer s e.kind src.name).map (.join · (pushClone clone f id) next)
      | _ => none
    else none
  | _ => none

/-- `syncEdge`, export-diagram.ts:184-308, on the operation that the edge comes from; `t` is
`getTargetNextOp(edge)`. An edge that a `stream_out` has is ignored. -/
def syncOut (kind : EdgeKind) (t : Option Next) (b : Body) : Option Body :=
  match b with
  | .node builder next streams =>
    match kind with
    | .stream s => t.map fun t => .node builder next (setKey streams s t)
    | .default => t.map fun t => .node builder t streams
    | _ => some b
  | .join s c _ => if kind = .default then t.map fun t => .join s c t else none
  | .transform _ => if kind = .default then t.map fun t => .transform t else none
  | .access s _ => if kind = .default then t.map fun t => .access s t else none
  | .listen s _ => if kind = .default then t.map fun t => .listen s t else none
  | .sect connect =>
    match kind with
    | .sect o => t.map fun t => .sect (setKey connect o t)
    | _ => none
  | .forkClone l =>
    if kind = .default then
      t.map fun t => .forkClone (if l.contains t then l else l ++ [t])
    else none
  | .unzip l =>
    match kind with
    | .unzip i => t.map fun t => .unzip (setHole l i t)
    | _ => none
  | .forkResult ok err =>
    match kind with
    | .ok => t.map fun t => .forkResult t err
    | .err => t.map fun t => .forkResult ok t
    | _ => none
  | .split keyed seq rem =>
    match kind with
    | .splitKey k => t.map fun t => .split (setKey keyed k t) seq rem
    | .splitSeq i => t.map fun t => .split keyed (setSeq seq i t) rem
    | .splitRemaining => t.map fun t => .split keyed seq (some t)
    | _ => none
  | .buffer => none
  | .scope _ streams start =>
    match kind with
    | .stream s => t.map fun t => .scope t (setKey streams s t) start
    | .default => t.map fun t => .scope t streams start
    | _ => none
  | .streamOut => some b

/-- What is exported so far: `diagram.start` and the operations of the nodes, which are changed in
place. -/
structure Draft where
  start : Next
  nodes : Nodes
  deriving DecidableEq, Repr

/-- The nodes with another body for one of them. -/
def Nodes.put (ns : Nodes) (k : Key) (b : Body) : Nodes :=
  ns.map fun (k', o) => if k' = k then (k', { o with body := b }) else (k', o)

/-- The change of the body of one node. -/
def Draft.change (d : Draft) (k : Key) (f : Body → Option Body) : Option Draft :=
  match d.nodes.get k with
  | none => none
  | some o => (f o.body).map fun b => { d with nodes := d.nodes.put k b }

/-- `syncEdge`, export-diagram.ts:174-328. -/
def syncEdge (kinds : Key → Option Kind) (d : Draft) (e : Edge) : Option Draft :=
  match e.kind.buffer? with
  | some (id, f) =>
    match e.target with
    | .op k => d.change k (syncBuffer kinds e id f)
    | _ => none
  | none =>
    match e.source with
    | .op k => d.change k (syncOut e.kind (targetNext kinds e))
    | .start none => (targetNext kinds e).map fun t => { d with start := t }
    | .start (some k) => d.change k fun b =>
        match b with
        | .scope next streams _ => (targetNext kinds e).map fun t => .scope next streams t
        | _ => none
    | .terminate _ => some d

/-- The loop over the edges, export-diagram.ts:436-438. -/
def syncAll (kinds : Key → Option Kind) (d : Draft) : List Edge → Option Draft
  | [] => some d
  | e :: es => (syncEdge kinds d e).bind fun d => syncAll kinds d es

/-- What the editor knows about the builders of nodes: the streams of those that are registered. -/
abbrev Registry := Name → Option (List Name)

/-- The filter of the edges, export-diagram.ts:417-434: an edge of a stream stays only if it is of a
`node` whose builder has streams. -/
def validEdge (reg : Registry) (ns : Nodes) (e : Edge) : Bool :=
  match e.kind with
  | .stream _ =>
    match e.source with
    | .op k =>
      match ns.get k with
      | some ⟨_, .node builder _ _⟩ =>
        match reg builder with
        | some (_ :: _) => true
        | _ => false
      | _ => false
    | _ => false
  | _ => true

/-- The operation of a name in a map of operations, with those inside it. -/
def Forest.find (f : Forest) (n : Name) : Option (Op × Forest) :=
  match f with
  | .nil => none
  | .cons n' o kids rest => if n' = n then some (o, kids) else rest.find n

/-- `ops[n] = …`. -/
def Forest.set (f : Forest) (n : Name) (o : Op) (k : Forest) : Forest :=
  match f with
  | .nil => .cons n o k .nil
  | .cons n' o' kids rest =>
    if n' = n then .cons n o k rest else .cons n' o' kids (rest.set n o k)

/-- `getSubOperations` and the assignment after it, export-diagram.ts:31-45 and 478-483. -/
def Forest.insert (f : Forest) (ns : List Name) (n : Name) (o : Op) : Option Forest :=
  match ns with
  | [] => some (f.set n o .nil)
  | s :: ns =>
    match f.find s with
    | none => none
    | some (so, kids) =>
      if so.body.kind = .scope then (kids.insert ns n o).map fun k => f.set s so k else none

/-- Put a node before the first one that is deeper. -/
def insertByDepth (x : Key × Op) : Nodes → Nodes
  | [] => [x]
  | y :: l =>
    if x.1.ns.length ≤ y.1.ns.length then x :: y :: l else y :: insertByDepth x l

/-- The nodes by the length of their namespaces, export-diagram.ts:470-472; `sort` is stable, so the
order does not depend on how it is done. -/
def sortByDepth : Nodes → Nodes
  | [] => []
  | x :: l => insertByDepth x (sortByDepth l)

/-- The loop over the sorted nodes, export-diagram.ts:473-484. -/
def build (f : Forest) : Nodes → Option Forest
  | [] => some f
  | (k, o) :: l => (f.insert k.ns k.name o).bind fun f => build f l

/-- `exportDiagram`, export-diagram.ts:451-487. -/
def export_ (reg : Registry) (g : Graph) (templates : String) : Option Diagram :=
  let cleared := g.nodes.map fun (k, o) => (k, { o with body := o.body.clear })
  (syncAll g.nodes.kind ⟨.dispose, cleared⟩ (g.edges.filter (validEdge reg g.nodes))).bind fun d =>
    (build .nil (sortByDepth d.nodes)).map fun f =>
      ⟨d.start, f, templates, none, none⟩

/-- Load a diagram and export it without touching anything. -/
def roundTrip (reg : Registry) (d : Diagram) : Option Diagram :=
  (load d).bind fun g => export_ reg g d.templates

end Verif.Editor

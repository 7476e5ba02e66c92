import Verif.Editor.Model
/-
Editing a diagram in the editor: adding operations, drawing, changing and removing edges, removing
nodes and renaming operations. Section templates are edited in a mode of their own, which is left out.
-/
namespace Verif.Editor

/-- The id of a node, which is a uuid or, for `start` and `terminate`, made from their place
(nodes/create-node.ts:25, 38, 95, 124). What it is made of is left out; that new ones are new is
assumed where nodes are added. -/
abbrev Uid := Nat

/-- What a node is, nodes/index.ts: an operation with `data.namespace`, `data.opId` and `data.op`, or the
start or the end of the diagram or of a scope. -/
inductive Item where
  | op (ns : List Name) (name : Name) (op : Op)
  | start
  | terminate
  deriving DecidableEq, Repr

/-- `DiagramEditorNode`, without its position. -/
structure Node where
  id : Uid
  parent : Option Uid
  item : Item
  deriving DecidableEq, Repr

/-- `HandleId` of the handle that an edge starts at, handles.tsx:7-11. -/
inductive Handle where
  | plain | dataStream | ok | err
  deriving DecidableEq, Repr

/-- `DiagramEditorEdge`. -/
structure Wire where
  id : Uid
  source : Uid
  handle : Handle
  target : Uid
  kind : EdgeKind
  slot : Option Name
  deriving DecidableEq, Repr

/-- What is being edited: `nodes` and `edges` in diagram-editor.tsx:143-149. -/
structure Board where
  nodes : List Node
  edges : List Wire
  deriving DecidableEq, Repr

/-- `EdgeTypes`, edges/index.ts:29-42. -/
inductive EType where
  | default | unzip | ok | err | splitKey | splitSeq | splitRemaining | buffer | stream | sect
  deriving DecidableEq, Repr

/-- The type of an edge without its data. -/
def EdgeKind.type : EdgeKind → EType
  | .default => .default
  | .stream _ => .stream
  | .unzip _ => .unzip
  | .ok => .ok
  | .err => .err
  | .splitKey _ => .splitKey
  | .splitSeq _ => .splitSeq
  | .splitRemaining => .splitRemaining
  | .sect _ => .sect
  | .bufferSeq _ _ => .buffer
  | .bufferKey _ _ => .buffer

/-- `defaultEdgeData`, forms/edit-edge-form.tsx:48-70. -/
def EType.fresh : EType → EdgeKind
  | .default => .default
  | .stream => .stream ""
  | .unzip => .unzip 0
  | .ok => .ok
  | .err => .err
  | .splitKey => .splitKey ""
  | .splitSeq => .splitSeq 0
  | .splitRemaining => .splitRemaining
  | .sect => .sect ""
  | .buffer => .bufferSeq 0 .unset

/-- `ALLOWED_OUTPUT_EDGES`, utils/connection.ts:25-44. -/
def Item.outputs : Item → List EType
  | .start => [.default]
  | .terminate => []
  | .op _ _ o =>
    match o.body.kind with
    | .buffer => [.buffer]
    | .access => [.default]
    | .forkClone => [.default]
    | .forkResult => [.ok, .err]
    | .join => [.default]
    | .listen => [.default]
    | .node => [.default, .stream]
    | .scope => [.default, .stream]
    | .sect => [.sect]
    | .split => [.splitKey, .splitSeq, .splitRemaining]
    | .streamOut => []
    | .transform => [.default]
    | .unzip => [.unzip]

/-- `ALLOWED_INPUT_EDGE_CATEGORIES`, utils/connection.ts:46-65, with `EDGE_CATEGORIES`: whether a node
takes buffers, or else data. The handle that an edge ends at is left out: it is plain, except at a
`stream_out`, where it does not matter. -/
def Item.takes : Item → EType → Bool
  | .start, _ => false
  | .terminate, t => t != .buffer
  | .op _ _ o, t =>
    match o.body.kind with
    | .access => true
    | .sect => true
    | .join => t == .buffer
    | .listen => t == .buffer
    | _ => t != .buffer

/-- The handles that a node has where edges can start: nodes/fork-result-node.tsx:31-44,
node-node.tsx:47-63, scope-node.tsx:33-44; all others have a plain one or, if they have no outputs,
none. -/
def Item.hasHandle : Item → Handle → Bool
  | .op _ _ o, .dataStream => o.body.kind == .node || o.body.kind == .scope
  | .op _ _ o, .ok => o.body.kind == .forkResult
  | .op _ _ o, .err => o.body.kind == .forkResult
  | .op _ _ o, .plain => o.body.kind != .forkResult && o.body.kind != .streamOut
  | .start, .plain => true
  | _, _ => false

/-- The types that a handle allows, utils/connection.ts:67-74 and 109-125. -/
def Handle.allows : Handle → EType → Bool
  | .plain, t => t != .stream
  | .dataStream, t => t == .stream
  | .ok, t => t == .ok
  | .err, t => t == .err

/-- `getValidEdgeTypes`, utils/connection.ts:102-146. -/
def validTypes (s : Item) (h : Handle) (t : Item) : List EType :=
  (s.outputs.filter h.allows).filter t.takes

/-- `getOutputCardinality` is `Single`, utils/connection.ts:154-190. -/
def Item.single (i : Item) (h : Handle) : Bool :=
  if h = .dataStream then true
  else match i with
    | .op _ _ o =>
      match o.body.kind with
      | .forkClone => false
      | .unzip => false
      | .buffer => false
      | .sect => false
      | .split => false
      | _ => true
    | _ => true

/-- `tryGetNode`, node-manager.ts:39-41. -/
def Board.node (b : Board) (id : Uid) : Option Node := b.nodes.find? fun n => n.id = id

/-- Whether a node is a section. -/
def Item.isSect : Item → Bool
  | .op _ _ o => o.body.kind == .sect
  | _ => false

/-- The input slot of a new edge, diagram-editor.tsx:558-570. -/
def Item.freshSlot (i : Item) : Option Name := if i.isSect then some "" else none

/-- `tryCreateEdge`, diagram-editor.tsx:524-580, with `validateEdgeSimple`,
utils/connection.ts:238-318. `others` are the edges that it may not clash with; `none` is a message
and no edge. -/
def Board.tryCreate (b : Board) (others : List Wire) (id source : Uid) (h : Handle) (target : Uid) :
    Option Wire :=
  match b.node source, b.node target with
  | some s, some t =>
    if s.item.hasHandle h then
      match validTypes s.item h t.item with
      | [] => none
      | ty :: _ =>
        if s.item.single h && others.any (fun e => e.source == source && e.handle == h) then none
        else some ⟨id, source, h, target, ty.fresh, t.item.freshSlot⟩
    else none
  | _, _ => none

/-- `onConnect`, diagram-editor.tsx:627-632. `addEdge` of the library does not add an edge if there is
one with the same ends. -/
def Board.connect (b : Board) (id source : Uid) (h : Handle) (target : Uid) : Board :=
  match b.tryCreate b.edges id source h target with
  | none => b
  | some w =>
    if b.edges.any (fun e => e.source == source && e.handle == h && e.target == target) then b
    else { b with edges := b.edges ++ [w] }

/-- `onReconnect`, diagram-editor.tsx:650-657: the edge gets new ends. That the library gives it
another id is left out. -/
def Board.reconnect (b : Board) (id source : Uid) (h : Handle) (target : Uid) : Board :=
  match b.tryCreate (b.edges.filter fun e => e.id != id) id source h target with
  | none => b
  | some w => { b with edges := b.edges.map fun e => if e.id = id then w else e }

/-- Give an edge any data that its ends allow. The editor itself only does what `Board.field` does. -/
def Board.setEdge (b : Board) (id : Uid) (kind : EdgeKind) (slot : Option Name) : Board :=
  { b with edges := b.edges.map fun e =>
      if e.id = id then
        match b.node e.source, b.node e.target with
        | some s, some t =>
          if (validTypes s.item e.handle t.item).contains kind.type then
            { e with kind := kind, slot := if t.item.isSect then slot else none }
          else e
        | _, _ => e
      else e }

/-- The fields of the form of an edge, with what is entered: forms/edit-edge-form.tsx:143-168 (`type`),
data-input-form.tsx:55-79 (`input`), stream-out-edge-form.tsx (`stream`), split-edge-form.tsx (`splitKey`,
`splitSeq`), unzip-edge-form.tsx (`unzip`), section-form.tsx:247-269 (`output`), buffer-edge-form.tsx:
135-161 (`byKey`), 162-179 (`bufferSeq`, `bufferKey`), 180-203 (`sectionBuffer`) and 204-232 (`fetch`).
A number that is entered can also be negative, which is left out. -/
inductive Field where
  | type (t : EType)
  | input (x : Name)
  | stream (x : Name)
  | splitKey (x : Name)
  | splitSeq (i : Nat)
  | unzip (i : Nat)
  | output (x : Name)
  | byKey (yes : Bool)
  | bufferKey (x : Name)
  | bufferSeq (i : Nat)
  | sectionBuffer (x : Name)
  | fetch (clone : Bool)
  deriving DecidableEq, Repr

/-- Whether a node is a join. -/
def Item.isJoin : Item → Bool
  | .op _ _ o => o.body.kind == .join
  | _ => false

/-- What a field of the form does to an edge from `s` to `t`, if the form has the field. A choice that is
made already is not made again, which is a matter of the library of the forms. A new type comes with
new data (edit-edge-form.tsx:149-160), also for the input of a section. The field of an `unzip` writes to
`edge.data.seq` (unzip-edge-form.tsx:20), which nothing reads but the form itself: the output of the edge is
in `edge.data.output.seq`. A new key or index of a buffer comes without the `fetchType`
(buffer-edge-form.tsx:81-128), and so does the choice between key and index (29-46, 141-152). -/
def Wire.field (s t : Item) (f : Field) (w : Wire) : Wire :=
  match f with
  | .type ty =>
    if (validTypes s w.handle t).contains ty && ty != w.kind.type then
      { w with kind := ty.fresh, slot := none }
    else w
  | .input x => if t.isSect && w.kind.type != .buffer then { w with slot := some x } else w
  | .stream x =>
    match w.kind with
    | .stream _ => { w with kind := .stream x }
    | _ => w
  | .splitKey x =>
    match w.kind with
    | .splitKey _ => { w with kind := .splitKey x }
    | _ => w
  | .splitSeq i =>
    match w.kind with
    | .splitSeq _ => { w with kind := .splitSeq i }
    | _ => w
  | .unzip _ => w
  | .output x =>
    match w.kind with
    | .sect _ => { w with kind := .sect x }
    | _ => w
  | .byKey yes =>
    match w.kind with
    | .bufferSeq _ _ => if yes && !t.isSect then { w with kind := .bufferKey "" .unset } else w
    | .bufferKey _ _ => if !yes && !t.isSect then { w with kind := .bufferSeq 0 .unset } else w
    | _ => w
  | .bufferKey x =>
    match w.kind with
    | .bufferKey _ _ => if w.slot = none then { w with kind := .bufferKey x .unset } else w
    | _ => w
  | .bufferSeq i =>
    match w.kind with
    | .bufferSeq _ _ => if w.slot = none then { w with kind := .bufferSeq i .unset } else w
    | _ => w
  | .sectionBuffer x => if t.isSect && w.kind.type == .buffer then { w with slot := some x } else w
  | .fetch clone =>
    if t.isJoin then
      match w.kind with
      | .bufferSeq i f =>
        if (f = .clone) = (clone = true) then w
        else { w with kind := .bufferSeq i (if clone then .clone else .pull) }
      | .bufferKey x f =>
        if (f = .clone) = (clone = true) then w
        else { w with kind := .bufferKey x (if clone then .clone else .pull) }
      | _ => w
    else w

/-- Enter something in a field of the form of an edge, diagram-editor.tsx:194-206. -/
def Board.field (b : Board) (id : Uid) (f : Field) : Board :=
  { b with edges := b.edges.map fun e =>
      if e.id = id then
        match b.node e.source, b.node e.target with
        | some s, some t => e.field s.item t.item f
        | _, _ => e
      else e }

/-- Remove an edge, diagram-editor.tsx:792-795. -/
def Board.removeEdge (b : Board) (id : Uid) : Board :=
  { b with edges := b.edges.filter fun e => e.id != id }

/-- One pass over the nodes to find those in removed ones, diagram-editor.tsx:330-343. -/
def sweep (nodes : List Node) (r : List Uid) : List Uid :=
  match nodes with
  | [] => r
  | n :: nodes =>
    match n.parent with
    | some p => if r.contains p && !r.contains n.id then sweep nodes (r ++ [n.id]) else sweep nodes r
    | none => sweep nodes r

/-- The passes until nothing is added, diagram-editor.tsx:328-348. `fuel` is the number of passes; that
it is enough is proved (`sweepAll_closed`). -/
def sweepAll (fuel : Nat) (nodes : List Node) (r : List Uid) : List Uid :=
  match fuel with
  | 0 => r
  | fuel + 1 =>
    let r' := sweep nodes r
    if r'.length = r.length then r else sweepAll fuel nodes r'

/-- Remove nodes with what is in them and their edges, `handleNodeChanges`,
diagram-editor.tsx:322-366. -/
def Board.remove (b : Board) (ids : List Uid) : Board :=
  let r := sweepAll (b.nodes.length + 1) b.nodes ids
  ⟨b.nodes.filter fun n => !r.contains n.id,
   b.edges.filter fun e => !(r.contains e.source || r.contains e.target)⟩

/-- The namespace for new operations, add-operation.tsx:117-123. -/
def Board.space (b : Board) (parent : Option Uid) : List Name :=
  match parent with
  | none => []
  | some p =>
    match b.node p with
    | some ⟨_, _, .op ns name _⟩ => ns ++ [name]
    | _ => []

/-- Whether operations can be added there: on the pane, or from the form of a scope
(diagram-editor.tsx:462-478, 706-710). -/
def Board.canHold (b : Board) : Option Uid → Bool
  | none => true
  | some p =>
    match b.node p with
    | some ⟨_, _, .op _ _ o⟩ => o.body.kind == .scope
    | _ => false

/-- Add an operation, add-operation.tsx:83-111. A scope comes with its start and end,
nodes/create-node.ts:116-183. -/
def Board.add (b : Board) (parent : Option Uid) (id i1 i2 : Uid) (name : Name) (o : Op) : Board :=
  if b.canHold parent then
    let n : Node := ⟨id, parent, .op (b.space parent) name o⟩
    { b with nodes := b.nodes ++
        if o.body.kind = .scope then [n, ⟨i1, some id, .start⟩, ⟨i2, some id, .terminate⟩] else [n] }
  else b

/-- Change an operation in place. -/
def Board.modify (b : Board) (id : Uid) (f : List Name → Name → Op → Item) : Board :=
  { b with nodes := b.nodes.map fun n =>
      if n.id = id then
        match n.item with
        | .op ns name o => { n with item := f ns name o }
        | _ => n
      else n }

/-- Change the settings of an operation in its form (forms/node-form.tsx and others), but not its type
or its name. -/
def Board.setOp (b : Board) (id : Uid) (o : Op) : Board :=
  b.modify id fun ns name o' => .op ns name (if o.body.kind = o'.body.kind then o else o')

/-- Rename an operation, forms/base-edit-operation-form.tsx:44-57. Nothing else is changed. -/
def Board.rename (b : Board) (id : Uid) (name : Name) : Board :=
  b.modify id fun ns _ o => .op ns name o

/-- An empty diagram, diagram-editor.tsx:143-149: its start and its end. -/
def Board.empty : Board := ⟨[⟨0, none, .start⟩, ⟨1, none, .terminate⟩], []⟩

/-- Where an operation is. -/
def Node.key? (n : Node) : Option Key :=
  match n.item with
  | .op ns name _ => some ⟨ns, name⟩
  | _ => none

/-- A node as the export sees it: operations by their places, starts by the scope that they are in. -/
def Board.place (b : Board) (n : Node) : Id :=
  match n.item with
  | .op ns name _ => .op ⟨ns, name⟩
  | .start =>
    match n.parent with
    | none => .start none
    | some p => .start ((b.node p).bind Node.key?)
  | .terminate => .terminate (b.space n.parent)

/-- The edges and operations that are exported. An edge whose ends do not exist makes the export throw;
see `Sound`. -/
def Board.graph (b : Board) : Graph where
  nodes := b.nodes.filterMap fun n =>
    match n.item with
    | .op ns name o => some (⟨ns, name⟩, o)
    | _ => none
  edges := b.edges.filterMap fun e =>
    match b.node e.source, b.node e.target with
    | some s, some t => some ⟨b.place s, b.place t, e.kind, e.slot⟩
    | _, _ => none

end Verif.Editor

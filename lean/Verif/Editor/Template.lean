import Verif.Editor.Model
/-
Model of how the diagram editor opens a section template for editing and saves it:
`loadTemplate` (utils/load-diagram.ts:134-181) and `exportTemplate` (utils/export-diagram.ts:489-530),
with the nodes of the template for its inputs, outputs and buffers, and of adding such nodes
(add-operation.tsx:133-196, utils/unique-value.ts). Sources under /repo/diagram-editor/frontend.

Simplified, besides what Editor/Model.lean says:
* A node of an output is found by its name, is led to by edges and has none of its own, just as an
  operation of type `stream_out`; so it is looked up and synchronized as if it were one. An output
  with the name of an operation is not covered, node-manager.ts:29-31 also assumes there is none.
* The edges of inputs and buffers change nothing but the node that they come from, so they are apart
  from the others. The id of such a node is its place among those of its side.
* An input or buffer list that is missing is the same as an empty one.
-/
namespace Verif.Editor

/-- `InputRemapping`, types/api.d.ts; src/diagram/section_schema.rs:377-392. -/
inductive Remap where
  | forward (l : List Name)
  | remap (l : List (Name × Next))
  deriving DecidableEq, Repr

/-- `SectionTemplate`, types/api.d.ts:1038-1053. -/
structure Template where
  inputs : Remap
  buffers : Remap
  outputs : List Name
  ops : Forest
  deriving DecidableEq, Repr

/-- The two sides where a template has named entries. -/
inductive Side where
  | input | buffer
  deriving DecidableEq, Repr

/-- `data` of a node of type `sectionInput` or `sectionBuffer`, nodes/section-node.tsx:16-19. -/
structure Pin where
  name : Name
  target : Next
  deriving DecidableEq, Repr

/-- An edge from the node of an input or a buffer. `buffer` is that its type is `buffer`; otherwise it
is `default`. -/
structure PinEdge where
  side : Side
  at_ : Nat
  target : Id
  slot : Option Name
  buffer : Bool
  deriving DecidableEq, Repr

/-- The graph of a template. -/
structure TGraph where
  nodes : Nodes
  outputs : List Name
  pins : Side → List Pin
  edges : List Edge
  pinEdges : List PinEdge

/-- The stand-ins for the nodes of type `sectionOutput`. -/
def stand (outputs : List Name) : Nodes := outputs.map fun n => (⟨[], n⟩, ⟨"", .streamOut⟩)

/-- The nodes that the `NodeManager` of a template finds by name, node-manager.ts:18-37. -/
def known (outputs : List Name) (nodes : Nodes) : Nodes := stand outputs ++ nodes

/-- The nodes of the inputs or buffers, load-diagram.ts:146-172. -/
def Remap.pins : Remap → List Pin
  | .forward l => l.map fun n => ⟨n, .op n⟩
  | .remap l => l.map fun (n, t) => ⟨n, t⟩

/-- The targets in the namespace of an operation that `buildEdges` looks up, operation.ts:148-340. -/
def Body.targets : Body → List Next
  | .node _ next streams => next :: streams.map (·.2)
  | .transform next => [next]
  | .forkClone l => l
  | .unzip l => l.filterMap id
  | .forkResult ok err => [ok, err]
  | .split keyed seq rem => keyed.map (·.2) ++ seq ++ rem.toList
  | .join s _ next => selTargets s ++ [next]
  | .listen s next => selTargets s ++ [next]
  | .access s next => selTargets s ++ [next]
  | .buffer => []
  | .streamOut => []
  | .sect connect => connect.map (·.2)
  | .scope next streams _ => next :: streams.map (·.2)
where
  selTargets : Sel → List Next
    | .arr l => l.filterMap id
    | .dict l => l.map (·.2)

/-- The edge of an input or a buffer, operation.ts:355-363. There is no node for the end of the
template, so `getNode` throws for `terminate`, node-manager.ts:98-99. -/
def loadPin (N : Nodes) (s : Side) (i : Nat) (p : Pin) : Option (List PinEdge) :=
  match p.target with
  | .terminate => none
  | t =>
    match N.fromNext [] t with
    | none => none
    | some none => some []
    | some (some id) => some [⟨s, i, id, none, false⟩]

/-- The edges of the inputs or buffers from the `i`th on. -/
def loadPins (N : Nodes) (s : Side) : Nat → List Pin → Option (List PinEdge)
  | _, [] => some []
  | i, p :: ps =>
    match loadPin N s i p with
    | none => none
    | some es => (loadPins N s (i + 1) ps).map (es ++ ·)

/-- `loadTemplate`, load-diagram.ts:134-181. An operation that leads to the end of the template throws
for the same reason as above; there is no start, load-diagram.ts:61, 105-125. -/
def loadTemplate (t : Template) : Option TGraph :=
  let nodes := flatten [] t.ops
  let N := known t.outputs nodes
  if nodes.any fun (k, o) => k.ns == [] && o.body.targets.contains .terminate then none
  else
    match gather (fun (k, o) => opEdges N k o.body) N, loadPins N .input 0 t.inputs.pins,
        loadPins N .buffer 0 t.buffers.pins with
    | some es, some is, some bs =>
      some ⟨nodes, t.outputs, fun s => if s = .input then t.inputs.pins else t.buffers.pins, es,
        is ++ bs⟩
    | _, _, _ => none

/-- `syncEdge` for an edge of an input or a buffer, export-diagram.ts:179-182 and 321-326. If it is a
buffer edge then `syncBufferSelection` throws, as the node it comes from is not a buffer (116-119). -/
def syncPin (kinds : Key → Option Kind) (pins : Side → List Pin) (e : PinEdge) :
    Option (Side → List Pin) :=
  if e.buffer then none
  else
    (targetNext kinds ⟨.start none, e.target, .default, e.slot⟩).map fun t =>
      fun s => if s = e.side then (pins s).modify e.at_ fun p => { p with target := t } else pins s

/-- The loop over the edges of inputs and buffers. -/
def syncPins (kinds : Key → Option Kind) (pins : Side → List Pin) :
    List PinEdge → Option (Side → List Pin)
  | [] => some pins
  | e :: es => (syncPin kinds pins e).bind fun pins => syncPins kinds pins es

/-- `clearConnections` for the nodes of inputs and buffers, export-diagram.ts:387-391. -/
def clearPins (ps : List Pin) : List Pin := ps.map fun p => { p with target := .dispose }

/-- `template.inputs[remappedId] = targetId` for all nodes, export-diagram.ts:520-526. -/
def toMap (ps : List Pin) : List (Name × Next) := ps.foldl (fun l p => setKey l p.name p.target) []

/-- `exportTemplate`, export-diagram.ts:489-530. -/
def exportTemplate (reg : Registry) (g : TGraph) : Option Template :=
  let N := known g.outputs g.nodes
  let cleared := N.map fun (k, o) => (k, { o with body := o.body.clear })
  match syncAll N.kind ⟨.dispose, cleared⟩ (g.edges.filter (validEdge reg N)),
      syncPins N.kind (fun s => clearPins (g.pins s)) g.pinEdges with
  | some d, some pins =>
    (build .nil (sortByDepth (d.nodes.drop g.outputs.length))).map fun f =>
      ⟨.remap (toMap (pins .input)), .remap (toMap (pins .buffer)), g.outputs, f⟩
  | _, _ => none

/-- Open a template and save it without touching anything, diagram-editor.tsx:164-178 and 737-747. -/
def templateTrip (reg : Registry) (t : Template) : Option Template :=
  (loadTemplate t).bind (exportTemplate reg)

/-! ### Adding inputs, outputs and buffers -/

/-- The loop of `addUniqueSuffix`, utils/unique-value.ts:13-18: `n` more numbers from `i` on. -/
def tryNumbers (pre sep : String) (existing : List String) : Nat → Nat → Option String
  | 0, _ => none
  | n + 1, i =>
    let candidate := pre ++ sep ++ Nat.repr i
    if existing.contains candidate then tryNumbers pre sep existing n (i + 1) else some candidate

/-- `addUniqueSuffix`, utils/unique-value.ts:4-20. -/
def addUniqueSuffix (pre : String) (existing : List String) (sep : String) : String :=
  if existing.contains pre then
    match tryNumbers pre sep existing (existing.length - 1) 1 with
    | some c => c
    | none => pre ++ sep ++ Nat.repr (existing.length + 1)
  else pre

/-- The default names, add-operation.tsx:138 and 178. -/
def Side.prefix_ : Side → String
  | .input => "new_input"
  | .buffer => "new_buffer"

/-- Add an input or a buffer, add-operation.tsx:133-154 and 173-194. -/
def TGraph.addPin (g : TGraph) (s : Side) : TGraph :=
  { g with pins := fun s' => if s' = s then
      g.pins s ++ [⟨addUniqueSuffix s.prefix_ ((g.pins s).map (·.name)) "_", .dispose⟩]
    else g.pins s' }

/-- Add an output, add-operation.tsx:156-171. -/
def TGraph.addOutput (g : TGraph) : TGraph :=
  { g with outputs := g.outputs ++ [addUniqueSuffix "new_output" g.outputs "_"] }

/-- Whether an operation that is not a section takes the edges that start at an input or a buffer:
`ALLOWED_OUTPUT_EDGES`, utils/connection.ts:35-37, and `ALLOWED_INPUT_EDGE_CATEGORIES`, 46-65. -/
def Side.reaches : Side → Kind → Bool
  | _, .sect => false
  | .input, .join => false
  | .input, .listen => false
  | .input, _ => true
  | .buffer, .join => true
  | .buffer, .listen => true
  | .buffer, .access => true
  | .buffer, _ => false

/-- Draw an edge from an input or a buffer to an operation that is not a section; from a buffer it is of
the type `buffer`, utils/connection.ts:35-37. There is at most one, 180-184. -/
def TGraph.connectPin (g : TGraph) (s : Side) (i : Nat) (k : Key) : TGraph :=
  match g.nodes.get k with
  | none => g
  | some o =>
    if s.reaches o.body.kind && decide (i < (g.pins s).length) &&
        !g.pinEdges.any (fun e => e.side == s && e.at_ == i) then
      { g with pinEdges := g.pinEdges ++ [⟨s, i, .op k, none, s == .buffer⟩] }
    else g

end Verif.Editor

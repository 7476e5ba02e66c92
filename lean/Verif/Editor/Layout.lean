import Verif.Editor.Edit
/-
Model of the automatic layout of the diagram editor: `autoLayout` (utils/auto-layout.ts) and
`calculateScopeBounds` (utils/layout.ts), with how React Flow applies the changes. Sources under
/repo/diagram-editor/frontend.

Simplified:
* The library dagre is any function from its nodes and edges to positions. It knows only nodes that it was
  given a size for: for others `dagreGraph.node` is undefined, and reading its position throws an error.
* Coordinates are whole numbers. The sizes are any, so they stand for fractions of any fixed unit.
* The start and the end of a scope are found by the scope that they are in. The code finds them by their
  names, node-manager.ts:75-82; that is the same while scopes keep the names that they were added with,
  and scopes that were renamed are not covered.
* The nodes of the inputs, outputs and buffers of templates are left out.
-/
namespace Verif.Editor

/-- `XYPosition`. -/
structure Pos where
  x : Int
  y : Int
  deriving DecidableEq, Repr

/-- `Rect`. -/
structure Rect where
  x : Int
  y : Int
  width : Int
  height : Int
  deriving DecidableEq, Repr

/-- `LayoutOptions`, utils/layout.ts:3-10. -/
structure Opts where
  nodeWidth : Int
  nodeHeight : Int
  leftRight : Int
  topBottom : Int
  deriving DecidableEq, Repr

/-- `LAYOUT_OPTIONS`, utils/layout.ts:12-19. -/
def layoutOptions : Opts := ⟨200, 50, 75, 50⟩

/-- `Math.min` and `Math.max` of one number and more. -/
def least (a : Int) (l : List Int) : Int := l.foldl min a
def most (a : Int) (l : List Int) : Int := l.foldl max a

/-- `calculateScopeBounds`, utils/layout.ts:21-48. -/
def bounds (o : Opts) : List Pos → Rect
  | [] => ⟨0, 0, o.leftRight * 2, o.topBottom * 2⟩
  | p :: l =>
    let minX := least p.x (l.map (·.x))
    let maxX := most (p.x + o.nodeWidth) (l.map fun n => n.x + o.nodeWidth)
    let minY := least p.y (l.map (·.y))
    let maxY := most (p.y + o.nodeHeight) (l.map fun n => n.y + o.nodeHeight)
    ⟨minX - o.leftRight, minY - o.topBottom, maxX - minX + o.leftRight * 2,
      maxY - minY + o.topBottom * 2⟩

/-- `isScopeNode`, utils/auto-layout.ts:14-16. -/
def Node.isScope (n : Node) : Bool :=
  match n.item with
  | .op _ _ o => o.body.kind == .scope
  | _ => false

/-- An edge for dagre, with `minlen`, which is 1 if it is not given. -/
structure DEdge where
  source : Uid
  target : Uid
  minlen : Nat
  deriving DecidableEq, Repr

/-- dagre: the ids of the nodes with a size, the edges, and where it puts a node. -/
abbrev Dagre := List Uid → List DEdge → Uid → Pos

/-- Every element, or an error. -/
def allSome {α β : Type} (f : α → Option β) : List α → Option (List β)
  | [] => some []
  | a :: l =>
    match f a with
    | none => none
    | some b => (allSome f l).map (b :: ·)

/-- The edges in the order of their priority, utils/auto-layout.ts:62-80. -/
def prioritized (es : List Wire) : List Wire :=
  es.filter (fun e => !(e.kind.type == .stream || e.kind.type == .err)) ++
    es.filter fun e => e.kind.type == .stream || e.kind.type == .err

/-- The node in a scope that is its start or its end. -/
def Board.inScope (b : Board) (scope : Uid) (i : Item) : Option Node :=
  b.nodes.find? fun n => n.parent == some scope && n.item == i

/-- The edge that dagre is given for an edge, utils/auto-layout.ts:82-107. -/
def Board.dagreEdge (b : Board) (e : Wire) : Option DEdge :=
  match b.node e.source, b.node e.target with
  | some s, some t =>
    if t.isScope then (b.inScope t.id .start).map fun n => ⟨e.source, n.id, 2⟩
    else if s.isScope then (b.inScope s.id .terminate).map fun n => ⟨n.id, e.target, 2⟩
    else some ⟨e.source, e.target, 1⟩
  | _, _ => none

/-- The nodes that dagre is given, utils/auto-layout.ts:43-58. -/
def Board.plain (b : Board) : List Node := b.nodes.filter fun n => !n.isScope

/-- `Object.keys(scopeChildrens)`, utils/auto-layout.ts:31-41: what is the parent of something. -/
def Board.parents (b : Board) : List Uid :=
  (b.nodes.filterMap fun n => n.parent.filter fun p => (b.node p).isSome).eraseDups

/-- `scopeChildrens[p]`. -/
def Board.children (b : Board) (p : Uid) : List Node := b.nodes.filter fun n => n.parent == some p

/-- `NodeChange` of React Flow, the two kinds that are used. -/
inductive Change where
  | position (id : Uid) (p : Pos)
  | dimensions (id : Uid) (width height : Int)
  deriving DecidableEq, Repr

/-- The change for a node that is not a scope, utils/auto-layout.ts:120-152. -/
def nodeChange (pos : Uid → Option Pos) (boxes : List (Uid × Rect)) (n : Node) : Option Change :=
  match pos n.id with
  | none => none
  | some p =>
    match n.parent with
    | none => some (.position n.id p)
    | some q =>
      match boxes.find? fun x => x.1 == q with
      | none => none
      | some x => some (.position n.id ⟨p.x - x.2.x, p.y - x.2.y⟩)

/-- `dagreGraph.node` after the layout. -/
def Board.placed (b : Board) (dagre : Dagre) (es : List DEdge) (id : Uid) : Option Pos :=
  if b.plain.any fun n => n.id == id then some (dagre (b.plain.map (·.id)) es id) else none

/-- `autoLayout`, utils/auto-layout.ts:18-173. `none` is that it throws an error. -/
def Board.layout (o : Opts) (dagre : Dagre) (b : Board) : Option (List Change) :=
  match allSome b.dagreEdge (prioritized b.edges) with
  | none => none
  | some es =>
    -- 111-116
    match allSome (fun p => (allSome (fun n => b.placed dagre es n.id) (b.children p)).map
        fun l => (p, bounds o l)) b.parents with
    | none => none
    | some boxes =>
      match allSome (nodeChange (b.placed dagre es) boxes) b.plain with
      | none => none
      | some cs =>
        -- 153-170
        some (cs ++ boxes.flatMap fun x =>
          [.position x.1 ⟨x.2.x, x.2.y⟩, .dimensions x.1 x.2.width x.2.height])

/-- Where nodes are, as seen from what they are in, and the sizes of those that have one. -/
structure View where
  pos : Uid → Pos
  size : Uid → Option (Int × Int)

/-- `applyNodeChanges` of React Flow, for the two kinds of changes. -/
def View.apply (v : View) : Change → View
  | .position id p => { v with pos := fun x => if x = id then p else v.pos x }
  | .dimensions id w h => { v with size := fun x => if x = id then some (w, h) else v.size x }

def View.applyAll (v : View) (l : List Change) : View := l.foldl View.apply v

end Verif.Editor

import Verif.Editor.Layout
/-
Model of what the diagram editor does when nodes are moved: `handleNodeChanges` and
`getChangeParentIdAndPosition` (diagram-editor.tsx:80-110 and 224-366), which resize a scope and keep what
is in it in place. The rest of `handleNodeChanges` is in Editor/Edit.lean. Sources under
/repo/diagram-editor/frontend.

Simplified:
* Coordinates are whole numbers, so that rounding a position does nothing.
* A scope has a width and a height, or neither.
* Only changes of positions and dimensions; one that adds a node does the same for its scope.
-/
namespace Verif.Editor

/-- Whether the box of a scope is so far from what it should be that it is changed,
diagram-editor.tsx:266-277. A width or height of zero counts as missing. -/
def tooFar (o : Opts) (c : Rect) (size : Option (Int × Int)) : Bool :=
  decide (o.leftRight < c.x.natAbs) || decide (o.topBottom < c.y.natAbs) ||
    match size with
    | none => false
    | some (w, h) =>
      (w != 0 && decide (o.leftRight < (c.width - w).natAbs)) ||
        (h != 0 && decide (o.topBottom < (c.height - h).natAbs))

/-- The box that a scope gets, diagram-editor.tsx:257-282. -/
def newBox (o : Opts) (c : Rect) (p : Pos) (size : Option (Int × Int)) : Rect :=
  if tooFar o c size then ⟨p.x + c.x, p.y + c.y, c.width, c.height⟩
  else
    match size with
    | none => ⟨p.x, p.y, c.width, c.height⟩
    | some (w, h) => ⟨p.x, p.y, w, h⟩

/-- The box around what is in a scope, with one node at another place, diagram-editor.tsx:243-255. -/
def Board.around (o : Opts) (b : Board) (v : View) (scope id : Uid) (q : Pos) : Rect :=
  bounds o (((b.children scope).filter fun n => n.id != id).map (fun n => v.pos n.id) ++ [q])

/-- The changes that follow from a change, diagram-editor.tsx:229-320. -/
def Board.follow (o : Opts) (b : Board) (v : View) : Change → List Change
  | .dimensions _ _ _ => []
  | .position id q =>
    match b.node id with
    | none => []
    | some n =>
      match n.parent with
      | none => []
      | some p =>
        if (b.node p).isNone then [] else
        let c := b.around o v p id q
        let r := newBox o c (v.pos p) (v.size p)
        if r.x != (v.pos p).x || r.y != (v.pos p).y || some (r.width, r.height) != v.size p then
          [.position p ⟨r.x, r.y⟩, .dimensions p r.width r.height] ++
            ((b.children p).filter fun n => n.id != id).map fun n =>
              .position n.id ⟨(v.pos n.id).x - c.x, (v.pos n.id).y - c.y⟩
        else []

/-- `handleNodeChanges`, diagram-editor.tsx:224-366: first the changes, then those that follow, all of them
computed from what was there before. -/
def Board.handle (o : Opts) (b : Board) (v : View) (cs : List Change) : View :=
  v.applyAll (cs ++ cs.flatMap (b.follow o v))

end Verif.Editor

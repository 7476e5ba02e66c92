import Verif.Editor.Layout
import Verif.Editor.EditSpec
/-
What a layout is to do. For C131.
-/
namespace Verif.Editor

/-- Where a node is on the screen: it is moved with what it is in. -/
inductive OnScreen (b : Board) (v : View) : Uid → Pos → Prop where
  | top {n : Node} (hn : n ∈ b.nodes) (hp : n.parent = none) : OnScreen b v n.id (v.pos n.id)
  | inside {n : Node} {p : Uid} {q : Pos} (hn : n ∈ b.nodes) (hp : n.parent = some p)
      (h : OnScreen b v p q) : OnScreen b v n.id ⟨q.x + (v.pos n.id).x, q.y + (v.pos n.id).y⟩

/-- The box of a scope goes around what is in it, with the margins and no more. -/
structure Boxed (o : Opts) (v : View) (scope : Uid) (inner : List Uid) : Prop where
  box : ∃ w h, v.size scope = some (w, h) ∧
    (∀ n ∈ inner, o.leftRight ≤ (v.pos n).x ∧ (v.pos n).x + o.nodeWidth + o.leftRight ≤ w ∧
      o.topBottom ≤ (v.pos n).y ∧ (v.pos n).y + o.nodeHeight + o.topBottom ≤ h) ∧
    (∃ n ∈ inner, (v.pos n).x = o.leftRight) ∧
    (∃ n ∈ inner, (v.pos n).x + o.nodeWidth + o.leftRight = w) ∧
    (∃ n ∈ inner, (v.pos n).y = o.topBottom) ∧
    (∃ n ∈ inner, (v.pos n).y + o.nodeHeight + o.topBottom = h)

/-- A node is a scope. -/
def Node.Scope (n : Node) : Prop := ∃ ns name o, n.item = .op ns name o ∧ o.body.kind = .scope

/-- No scope is in another. -/
def Board.Flat (b : Board) : Prop := ∀ n ∈ b.nodes, n.Scope → n.parent = none

/-- Every scope has its start and its end. -/
def Board.Whole (b : Board) : Prop := ∀ m ∈ b.nodes, m.Scope →
  (∃ n ∈ b.nodes, n.parent = some m.id ∧ n.item = .start) ∧
  (∃ n ∈ b.nodes, n.parent = some m.id ∧ n.item = .terminate)

/-- What stands for a node where an edge leaves or enters it: the end or the start of a scope, and other
nodes themselves. -/
def Stands (b : Board) (n : Node) (i : Item) (x : Uid) : Prop :=
  (n.Scope → ∃ m ∈ b.nodes, m.parent = some n.id ∧ m.item = i ∧ m.id = x) ∧ (¬ n.Scope → x = n.id)

/-- dagre is told about an edge, with twice the distance where a box has to have room in between. -/
def Told (b : Board) (e : Wire) (d : DEdge) : Prop :=
  ∃ s ∈ b.nodes, ∃ t ∈ b.nodes, s.id = e.source ∧ t.id = e.target ∧
    Stands b s .terminate d.source ∧ Stands b t .start d.target ∧
    (s.Scope ∨ t.Scope → d.minlen = 2) ∧ (¬ s.Scope ∧ ¬ t.Scope → d.minlen = 1)

/-- An edge of errors or streams, which is to be laid out after the others. -/
def Wire.Late (e : Wire) : Prop := e.kind = .err ∨ ∃ x, e.kind = .stream x

/-- Both ends of an edge are scopes. -/
def Wire.Scopes (b : Board) (e : Wire) : Prop :=
  ∃ s ∈ b.nodes, ∃ t ∈ b.nodes, s.id = e.source ∧ t.id = e.target ∧ s.Scope ∧ t.Scope

/-- What dagre is told: of every edge but those between two scopes, and of those of errors and streams
after the others. -/
def AllTold (b : Board) (es : List DEdge) : Prop :=
  ∃ es1 es2, es = es1 ++ es2 ∧
    (∀ e ∈ b.edges, ¬ e.Scopes b → ¬ e.Late → ∃ d ∈ es1, Told b e d) ∧
    (∀ e ∈ b.edges, ¬ e.Scopes b → e.Late → ∃ d ∈ es2, Told b e d) ∧
    (∀ d ∈ es1, ∃ e ∈ b.edges, ¬ e.Late ∧ (¬ e.Scopes b → Told b e d)) ∧
    ∀ d ∈ es2, ∃ e ∈ b.edges, e.Late ∧ (¬ e.Scopes b → Told b e d)

/-- The start and the end of a scope stay as long as the scope does. A user who removes one of them on its
own does not keep to this; unlike those of the diagram (nodes/create-node.ts:26 and 40) they can be selected
(125-150). -/
def KeepsEnds (b c : Board) : Prop := ∀ n ∈ b.nodes, n.item = .start ∨ n.item = .terminate →
  ∀ m ∈ c.nodes, n.parent = some m.id → n ∈ c.nodes

/-- The diagrams that can be drawn from an empty one without removing the start or the end of a scope that
stays. -/
inductive Draws : Board → Prop where
  | empty : Draws Board.empty
  | step {b c : Board} (h : Draws b) (he : Edit b c) (hk : KeepsEnds b c) : Draws c

end Verif.Editor

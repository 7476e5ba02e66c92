import Verif.Editor.Edit
import Verif.Editor.DrawSpec
/-
What it means that a diagram that is being edited is sound, and the edits.
-/
namespace Verif.Editor

/-- A node is one of those to be removed, or in one of them at any depth. -/
inductive Within (b : Board) (ids : List Uid) : Uid → Prop where
  | self {x : Uid} (h : x ∈ ids) : Within b ids x
  | inside {n : Node} {p : Uid} (hn : n ∈ b.nodes) (hp : n.parent = some p) (h : Within b ids p) :
      Within b ids n.id

/-- A diagram that is being edited is sound. -/
structure Sound (b : Board) : Prop where
  /-- No two nodes have the same id. -/
  ids : (b.nodes.map (·.id)).Nodup
  /-- No two operations have the same place. -/
  keys : (b.nodes.filterMap Node.key?).Nodup
  /-- What is in something is in a scope, and has the namespace of that scope. -/
  inside : ∀ n ∈ b.nodes, ∀ p, n.parent = some p → ∃ m ∈ b.nodes, m.id = p ∧
    ∃ ns name o, m.item = .op ns name o ∧ o.body.kind = .scope ∧
      ∀ ns' name' o', n.item = .op ns' name' o' → ns' = ns ++ [name]
  /-- What is in nothing has the namespace of the diagram. -/
  top : ∀ n ∈ b.nodes, n.parent = none → ∀ ns name o, n.item = .op ns name o → ns = []
  /-- The diagram and every scope have at most one start. -/
  starts : b.nodes.Pairwise fun n n' => n.item = .start → n'.item = .start → n.parent ≠ n'.parent
  /-- Both ends of every edge exist and allow it; only those to sections have an input. -/
  ends : ∀ e ∈ b.edges, ∃ s ∈ b.nodes, ∃ t ∈ b.nodes, s.id = e.source ∧ t.id = e.target ∧
    s.item.hasHandle e.handle = true ∧ e.kind.type ∈ validTypes s.item e.handle t.item ∧
    (e.slot = none ∨ t.item.isSect = true)
  /-- No two edges have the same id. -/
  wires : (b.edges.map (·.id)).Nodup
  /-- Where a handle is for one edge, no two edges start at it. -/
  single : b.edges.Pairwise fun e e' => e.source = e'.source → e.handle = e'.handle →
    ∀ s ∈ b.nodes, s.id = e.source → s.item.single e.handle = false

/-- Whether an operation has the place. -/
def Board.Taken (b : Board) (k : Key) : Prop := ∃ n ∈ b.nodes, n.key? = some k

/-- One edit. New nodes and edges have new ids and new operations have new names, which are uuids
(add-operation.tsx:90-108). Renaming is here only for operations with nothing inside, to a name that
is not taken; see `C122_rename_scope_violated` and `C122_rename_taken_violated`. -/
inductive Edit (b : Board) : Board → Prop where
  | add (parent : Option Uid) (id i1 i2 : Uid) (name : Name) (o : Op)
      (hid : (b.nodes.map (·.id) ++ [id, i1, i2]).Nodup)
      (hname : ¬ b.Taken ⟨b.space parent, name⟩) : Edit b (b.add parent id i1 i2 name o)
  | setOp (id : Uid) (o : Op) : Edit b (b.setOp id o)
  | rename (id : Uid) (name : Name) (hleaf : ∀ n ∈ b.nodes, n.parent ≠ some id)
      (hname : ∀ n ∈ b.nodes, n.id = id → ∀ ns name' o, n.item = .op ns name' o →
        ¬ b.Taken ⟨ns, name⟩) : Edit b (b.rename id name)
  | remove (ids : List Uid) : Edit b (b.remove ids)
  | connect (id source : Uid) (h : Handle) (target : Uid) (hid : id ∉ b.edges.map (·.id)) :
      Edit b (b.connect id source h target)
  | reconnect (id source : Uid) (h : Handle) (target : Uid) : Edit b (b.reconnect id source h target)
  | field (id : Uid) (f : Field) : Edit b (b.field id f)
  | removeEdge (id : Uid) : Edit b (b.removeEdge id)

/-- Any number of edits. -/
inductive Edits : Board → Board → Prop where
  | none (b : Board) : Edits b b
  | more {a b c : Board} (h : Edits a b) (he : Edit b c) : Edits a c

theorem Edits.trans {a b c : Board} (h : Edits a b) (h' : Edits b c) : Edits a c := by
  induction h' with
  | none => exact h
  | more _ he ih => exact ih.more he

end Verif.Editor

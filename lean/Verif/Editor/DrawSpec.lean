import Verif.Editor.Spec
/-
What it means that an exported diagram is what is drawn, for graphs that have been edited.
-/
namespace Verif.Editor

/-- The nodes of a graph: no place is taken twice, and every operation in a namespace is in a node
that is a scope. -/
structure NodesOk (N : Nodes) : Prop where
  uniq : (N.map (·.1)).Nodup
  parent : ∀ k o, (k, o) ∈ N → ∀ r s, k.ns = r ++ [s] →
    ∃ so, (⟨r, s⟩, so) ∈ N ∧ so.body.kind = .scope

/-- Two operations that may differ only in their connections. -/
def SameSettings (a b : Op) : Prop :=
  a.extra = b.extra ∧ a.body.kind = b.body.kind ∧
    ∀ x y s t s' t', a.body = .node x s t → b.body = .node y s' t' → x = y

/-- The same nodes, with any connections. -/
def SameNodes : Nodes → Nodes → Prop
  | [], [] => True
  | (k, a) :: l, (k', b) :: l' => k = k' ∧ SameSettings a b ∧ SameNodes l l'
  | _, _ => False

/-- The field of an operation that belongs to an edge of some type has the target. -/
def Leads (b : Body) (kind : EdgeKind) (t : Next) : Prop :=
  match b, kind with
  | .node _ next _, .default => next = t
  | .node _ _ streams, .stream s => (s, t) ∈ streams
  | .transform next, .default => next = t
  | .forkClone l, .default => t ∈ l
  | .unzip l, .unzip i => l[i]? = some (some t)
  | .forkResult ok _, .ok => ok = t
  | .forkResult _ err, .err => err = t
  | .split keyed _ _, .splitKey x => (x, t) ∈ keyed
  | .split _ seq _, .splitSeq i => seq[i]? = some t
  | .split _ _ rem, .splitRemaining => rem = some t
  | .join _ _ next, .default => next = t
  | .listen _ next, .default => next = t
  | .access _ next, .default => next = t
  | .sect connect, .sect x => (x, t) ∈ connect
  | .scope next _ _, .default => next = t
  | _, _ => False

/-- The selection of buffers of an operation. -/
def Body.buffers? : Body → Option Sel
  | .join s _ _ => some s
  | .listen s _ => some s
  | .access s _ => some s
  | _ => none

/-- A selection has a buffer in the slot of an edge. -/
def Sel.Has : Sel → EdgeKind → Name → Prop
  | .arr l, .bufferSeq i _, n => l[i]? = some (some (.op n))
  | .dict l, .bufferKey x _, n => (x, .op n) ∈ l
  | _, _, _ => False

/-- The name under which the end of an edge is exported. -/
def Id.next? : Id → Option Name → Option Next
  | .op k, none => some (.op k.name)
  | .op k, some input => some (.inner k.name input)
  | .terminate _, none => some .terminate
  | _, _ => none

/-- An edge is in a diagram. `ops` are its operations by place and `start` is where it starts. -/
def Exported (start : Next) (ops : List Name → Name → Option Op) (e : Edge) : Prop :=
  match e.kind.buffer? with
  | some _ => ∃ k src o s, e.target = .op k ∧ e.source = .op src ∧ ops k.ns k.name = some o ∧
      o.body.buffers? = some s ∧ s.Has e.kind src.name
  | none =>
    ∃ t, e.target.next? e.slot = some t ∧
      match e.source with
      | .op k => ∃ o, ops k.ns k.name = some o ∧ Leads o.body e.kind t
      | .start none => start = t
      | .start (some k) => ∃ o next streams, ops k.ns k.name = some o ∧ o.body = .scope next streams t
      | .terminate _ => False

/-- All connections of the operation at a place are drawn. -/
structure OnlyDrawn (es : List Edge) (k : Key) (b : Body) : Prop where
  /-- Every target is `dispose` or that of an edge. -/
  targets : ∀ kind t, Leads b kind t → t = .dispose ∨
    ∃ e ∈ es, e.source = .op k ∧ e.kind = kind ∧ e.target.next? e.slot = some t
  /-- A scope has no streams and starts nowhere or where an edge leads. -/
  scope : ∀ next streams start, b = .scope next streams start → streams = [] ∧
    (start = .dispose ∨ ∃ e ∈ es, e.source = .start (some k) ∧ e.target.next? e.slot = some start)
  /-- Every buffer is that of an edge. -/
  buffers : ∀ s kind n, b.buffers? = some s → s.Has kind n →
    ∃ e ∈ es, ∃ src, e.target = .op k ∧ e.source = .op src ∧ src.name = n ∧
      e.kind.buffer?.map (·.1) = kind.buffer?.map (·.1)
  /-- The buffers that are cloned are those of which an edge says so. -/
  clone : ∀ s c next, b = .join s c next → ∀ id,
    id ∈ c.getD [] ↔ ∃ e ∈ es, e.target = .op k ∧ e.kind.buffer? = some (id, .clone)

/-- Two edges that want the same field. A `fork_clone` has room for any number. -/
def Conflict (N : Nodes) (a b : Edge) : Prop :=
  match a.kind.buffer?, b.kind.buffer? with
  | some (i, _), some (j, _) => a.target = b.target ∧ i = j
  | none, none => a.source = b.source ∧ a.kind = b.kind ∧
      ∀ k, a.source = .op k → N.kind k ≠ some .forkClone
  | _, _ => False

/-- `ALLOWED_OUTPUT_EDGES`, utils/connection.ts:26-45: the types of edges that can be drawn from a
node. -/
def allowedFrom : Kind → EdgeKind → Bool
  | .buffer, .bufferSeq _ _ => true
  | .buffer, .bufferKey _ _ => true
  | .access, .default => true
  | .forkClone, .default => true
  | .forkResult, .ok => true
  | .forkResult, .err => true
  | .join, .default => true
  | .listen, .default => true
  | .node, .default => true
  | .node, .stream _ => true
  | .scope, .default => true
  | .scope, .stream _ => true
  | .sect, .sect _ => true
  | .split, .splitKey _ => true
  | .split, .splitSeq _ => true
  | .split, .splitRemaining => true
  | .transform, .default => true
  | .unzip, .unzip _ => true
  | _, _ => false

/-- An edge that can be drawn. Those of a section go to the buffers of operations by name and are left
out. -/
def Allowed (N : Nodes) (e : Edge) : Prop :=
  match e.source with
  | .op k => ∃ x, N.kind k = some x ∧ allowedFrom x e.kind = true
  | .start _ => e.kind = .default
  | .terminate _ => False

/-- A stream that the registry knows: of a node whose builder has streams. -/
def KnownStream (reg : Registry) (N : Nodes) (e : Edge) : Prop :=
  ∀ s, e.kind = .stream s → ∃ k o b next l x xs, e.source = .op k ∧ N.get k = some o ∧
    o.body = .node b next l ∧ reg b = some (x :: xs)

/-- The namespace that a node is in. -/
def Id.ns : Id → List Name
  | .op k => k.ns
  | .start none => []
  | .start (some k) => k.inside
  | .terminate ns => ns

/-- An edge that stays in its namespace and does not go to a named slot of a section. -/
def EdgeOk (e : Edge) : Prop := e.slot = none ∧ e.source.ns = e.target.ns

/-- What an export can leave in an operation that loading does not keep: holes, and `clone` other than
of the first buffers of an array. -/
def Filled : Body → Prop
  | .unzip l => none ∉ l
  | .join s c _ => (∀ l, s = .arr l → none ∉ l) ∧ CloneOk s c
  | .listen s _ => ∀ l, s = .arr l → none ∉ l
  | .access s _ => ∀ l, s = .arr l → none ∉ l
  | _ => True

end Verif.Editor

import Verif.Editor.Model
/-
What it means that two diagrams are the same, and which diagrams the editor can keep.
-/
namespace Verif.Editor

/-- The operation `n` in the scope that the path `ns` leads to, without what is inside it. -/
def opAt : Forest → List Name → Name → Option Op
  | .nil, _, _ => none
  | .cons m o _ rest, [], n => if m = n then some o else opAt rest [] n
  | .cons m _ kids rest, s :: ns, n => if m = s then opAt kids ns n else opAt rest (s :: ns) n

/-- Two diagrams are the same: they start alike, have the same operations with the same fields in
the same scopes, and the same settings. The order of the keys does not matter. -/
structure SameDiagram (d d' : Diagram) : Prop where
  start : d'.start = d.start
  ops : ∀ ns n, opAt d'.ops ns n = opAt d.ops ns n
  templates : d'.templates = d.templates
  defaultTrace : d'.defaultTrace = d.defaultTrace
  onImplicitError : d'.onImplicitError = d.onImplicitError

/-- The names in one map of operations. -/
def Forest.names : Forest → List Name
  | .nil => []
  | .cons n _ _ rest => n :: rest.names

/-- No map of operations has a name twice, as in every JSON object. -/
def Forest.Uniq : Forest → Prop
  | .nil => True
  | .cons n _ kids rest => n ∉ rest.names ∧ kids.Uniq ∧ rest.Uniq

/-- A target that the editor draws an edge to and gets back from the edge: an operation next to it,
or the end of its scope. `near` are the operations next to it. -/
def Drawn (near : Name → Option Op) : Next → Prop
  | .op n => (near n).isSome
  | .terminate => True
  | _ => False

/-- A target where there is exactly one: it may also be `dispose`. -/
def DrawnOrDispose (near : Name → Option Op) (t : Next) : Prop := Drawn near t ∨ t = .dispose

/-- A map of targets, all of which are drawn. -/
def DrawnMap (near : Name → Option Op) (l : List (Name × Next)) : Prop :=
  (l.map (·.1)).Nodup ∧ ∀ p ∈ l, Drawn near p.2

/-- A target that is a buffer next to the operation. -/
def IsBuffer (near : Name → Option Op) (t : Next) : Prop :=
  ∃ n o, t = .op n ∧ near n = some o ∧ o.body = .buffer

/-- A selection of buffers next to the operation; one by keys is not empty. -/
def BuffersOk (near : Name → Option Op) : Sel → Prop
  | .arr l => ∀ t ∈ l, ∃ b, t = some b ∧ IsBuffer near b
  | .dict l => l ≠ [] ∧ (l.map (·.1)).Nodup ∧ ∀ p ∈ l, IsBuffer near p.2

/-- `clone` of a join: missing, or the first buffers of an array, in order. -/
def CloneOk : Sel → Option (List BufId) → Prop
  | _, none => True
  | .arr l, some c => ∃ m, 0 < m ∧ m ≤ l.length ∧ c = (List.range m).map .idx
  | .dict _, some _ => False

/-- What the editor keeps of an operation. `near` are the operations next to it and `inside` those in
it if it is a scope. -/
def BodyOk (reg : Registry) (near inside : Name → Option Op) : Body → Prop
  | .node b next streams => DrawnOrDispose near next ∧ DrawnMap near streams ∧
      (streams = [] ∨ ∃ s l, reg b = some (s :: l))
  | .transform next => DrawnOrDispose near next
  | .forkClone l => l.Nodup ∧ ∀ t ∈ l, Drawn near t
  | .unzip l => ∀ t ∈ l, ∃ b, t = some b ∧ Drawn near b
  | .forkResult ok err => DrawnOrDispose near ok ∧ DrawnOrDispose near err
  | .split keyed seq rem => DrawnMap near keyed ∧ (∀ t ∈ seq, DrawnOrDispose near t) ∧
      seq.getLast? ≠ some .dispose ∧ ∀ t, rem = some t → Drawn near t
  | .join s c next => BuffersOk near s ∧ CloneOk s c ∧ DrawnOrDispose near next
  | .listen s next => BuffersOk near s ∧ DrawnOrDispose near next
  | .access s next => BuffersOk near s ∧ DrawnOrDispose near next
  | .buffer => True
  | .streamOut => True
  | .sect connect => DrawnMap near connect
  | .scope next streams start => DrawnOrDispose near next ∧ streams = [] ∧
      DrawnOrDispose inside start

/-- The diagrams that the editor keeps. -/
structure Editable (reg : Registry) (d : Diagram) : Prop where
  uniq : d.ops.Uniq
  scopes : ∀ ns n m, (opAt d.ops (ns ++ [n]) m).isSome →
    ∃ o, opAt d.ops ns n = some o ∧ o.body.kind = .scope
  bodies : ∀ ns n o, opAt d.ops ns n = some o →
    BodyOk reg (opAt d.ops ns) (opAt d.ops (ns ++ [n])) o.body
  start : DrawnOrDispose (opAt d.ops []) d.start
  defaultTrace : d.defaultTrace = none
  onImplicitError : d.onImplicitError = none

end Verif.Editor

import Verif.Editor.EditSpec
/-
What the fields of the form of an edge are for. For C129.
-/
namespace Verif.Editor

/-- The labels of the fields. -/
inductive Label where
  | type | input | stream | splitKey | splitSeq | unzip | output | byKey | bufferKey | bufferSeq
  | sectionBuffer | fetch
  deriving DecidableEq, Repr

def Field.label : Field → Label
  | .type _ => .type
  | .input _ => .input
  | .stream _ => .stream
  | .splitKey _ => .splitKey
  | .splitSeq _ => .splitSeq
  | .unzip _ => .unzip
  | .output _ => .output
  | .byKey _ => .byKey
  | .bufferKey _ => .bufferKey
  | .bufferSeq _ => .bufferSeq
  | .sectionBuffer _ => .sectionBuffer
  | .fetch _ => .fetch

/-- The form of an edge to `t` has the field. -/
def Offered (t : Item) (w : Wire) : Label → Prop
  | .type => True
  | .input => t.isSect = true ∧ w.kind.type ≠ .buffer
  | .stream => w.kind.type = .stream
  | .splitKey => w.kind.type = .splitKey
  | .splitSeq => w.kind.type = .splitSeq
  | .unzip => w.kind.type = .unzip
  | .output => w.kind.type = .sect
  | .byKey => w.kind.type = .buffer ∧ t.isSect = false
  | .bufferKey => t.isSect = false ∧ ∃ x f, w.kind = .bufferKey x f
  | .bufferSeq => t.isSect = false ∧ ∃ i f, w.kind = .bufferSeq i f
  | .sectionBuffer => t.isSect = true ∧ w.kind.type = .buffer
  | .fetch => w.kind.type = .buffer ∧ t.isJoin = true

/-- The edge is as it says in the field. -/
def Holds (w : Wire) : Field → Prop
  | .type ty => w.kind.type = ty
  | .input x => w.slot = some x
  | .stream x => w.kind = .stream x
  | .splitKey x => w.kind = .splitKey x
  | .splitSeq i => w.kind = .splitSeq i
  | .unzip i => w.kind = .unzip i
  | .output x => w.kind = .sect x
  | .byKey yes => yes = true ↔ ∃ x f, w.kind = .bufferKey x f
  | .bufferKey x => ∃ f, w.kind = .bufferKey x f
  | .bufferSeq i => ∃ f, w.kind = .bufferSeq i f
  | .sectionBuffer x => w.slot = some x
  | .fetch clone => ∃ id f, w.kind.buffer? = some (id, f) ∧ (clone = true ↔ f = .clone)

/-- The fields that are there for the choice in another field: the type, and then whether it is a key or an
index. -/
def Under : Label → Label → Prop
  | .type, l => l ≠ .input
  | .byKey, l => l = .bufferKey ∨ l = .bufferSeq
  | _, _ => False

end Verif.Editor

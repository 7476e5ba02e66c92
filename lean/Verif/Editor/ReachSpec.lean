import Verif.Editor.EditSpec
import Verif.Editor.Spec
/-
Which diagrams can be drawn in the editor. For C128.
-/
namespace Verif.Editor

/-- A target that takes messages, and not only buffers or at its inputs. -/
def Fair (near : Name → Option Op) : Next → Prop
  | .op n => ∀ o, near n = some o → o.body.kind ∉ [Kind.join, .listen, .sect]
  | _ => True

/-- A selection in which no buffer is twice. -/
def Sel.Apart : Sel → Prop
  | .arr l => l.Nodup
  | .dict l => (l.map (·.2)).Nodup

/-- The connections of an operation can be drawn one after the other: none is the second of a node that
starts at its streams or of an `unzip`, no two lead from the same output to the same target, and none leads
to an operation that takes buffers only, or to a section. -/
def Simple (near inside : Name → Option Op) : Body → Prop
  | .node _ next streams => Fair near next ∧ (∀ p ∈ streams, Fair near p.2) ∧ streams.length ≤ 1
  | .transform next => Fair near next
  | .forkClone l => ∀ t ∈ l, Fair near t
  | .unzip l => l.length ≤ 1 ∧ ∀ t, some t ∈ l → Fair near t
  | .forkResult ok err => Fair near ok ∧ Fair near err
  | .split keyed seq rem =>
    (keyed.map (·.2) ++ seq.filter (· ≠ .dispose) ++ rem.toList).Nodup ∧
      ∀ t ∈ keyed.map (·.2) ++ seq ++ rem.toList, Fair near t
  | .join s _ next => s.Apart ∧ Fair near next
  | .listen s next => s.Apart ∧ Fair near next
  | .access s next => s.Apart ∧ Fair near next
  | .buffer => True
  | .streamOut => True
  | .sect connect => (connect.map (·.2)).Nodup ∧ ∀ p ∈ connect, Fair near p.2
  | .scope next _ start => Fair near next ∧ Fair inside start

/-- The diagrams that can be drawn, of those that the editor keeps. -/
structure ByHand (d : Diagram) : Prop where
  bodies : ∀ ns n o, opAt d.ops ns n = some o →
    Simple (opAt d.ops ns) (opAt d.ops (ns ++ [n])) o.body
  start : Fair (opAt d.ops []) d.start

end Verif.Editor

import Verif.Diagram.BuildSpec

/-
What it takes for a diagram to be built, for diagrams whose operations all declare the types of
their inputs and outputs. Nothing here refers to the construction.
-/
namespace Verif.Diagram

/-- The type that the operation takes, for the operations that know it without looking at the
rest of the diagram. -/
def Schema.takes? : Schema → Option Ty
  | .node inTy _ _ _ => some inTy
  | .transform _ _ => some json
  | .buffer true => some json
  | _ => none

/-- Every operation of the diagram is a node, a transform, or a buffer of JSON values. -/
def Diagram.Declared (d : Diagram) : Prop :=
  ∀ id s, (id, s) ∈ d.ops → s.takes?.isSome

/-- Where the errors of implicit conversions go. -/
def Diagram.errNext (d : Diagram) : Next := d.onErr.getD .cancel

/-- The operation sends messages of type `ty` to `n`. -/
def Schema.Sends (reg : Registry) (err : Next) : Schema → Next → Ty → Prop
  | .node _ outTy next streams, n, ty => (n = next ∧ ty = outTy) ∨ (ty, n) ∈ streams
  | .transform next onError, n, ty =>
    (n = next ∧ ty = json) ∨ (n = onError.getD err ∧ ty = reg.errTy)
  | _, _, _ => False

/-- The diagram has something that sends messages of type `ty` to `n`: its start, or one of its
operations. -/
def Diagram.Sends (reg : Registry) (io : Io) (d : Diagram) (n : Next) (ty : Ty) : Prop :=
  (n = d.start ∧ ty = io.request) ∨ ∃ id s, (id, s) ∈ d.ops ∧ s.Sends reg d.errNext n ty

/-- `n` is the name of something that takes messages of type `ty`. -/
def Diagram.Input (io : Io) (d : Diagram) (n : Next) (ty : Ty) : Prop :=
  (n = .terminate ∧ ty = io.response) ∨
    ∃ id s, n = .name id ∧ (id, s) ∈ d.ops ∧ s.takes? = some ty

/-- Messages of type `ty` can be sent to `n`: everything can be disposed of and can be a reason
to cancel; otherwise `n` names something whose input type fits. -/
def Diagram.Suits (reg : Registry) (io : Io) (d : Diagram) (n : Next) (ty : Ty) : Prop :=
  n = .dispose ∨ n = .cancel ∨ ∃ t, d.Input io n t ∧ Fits reg ty t

/-- Messages of type `ty` have to be converted on the way to `n`, and the conversion can
fail. -/
def Diagram.Converts (reg : Registry) (io : Io) (d : Diagram) (n : Next) (ty : Ty) : Prop :=
  (n = .cancel ∧ reg.str ty = false ∧ ty ≠ json ∧ reg.ser ty = true) ∨
    ∃ t, d.Input io n t ∧ ty ≠ t

/-- Everything that is sent suits the place that it is sent to, and so do the errors of
conversions, if there are conversions. -/
def Diagram.WellTyped (reg : Registry) (io : Io) (d : Diagram) : Prop :=
  (∀ n ty, d.Sends reg io n ty → d.Suits reg io n ty) ∧
    ((∃ n ty, d.Sends reg io n ty ∧ d.Converts reg io n ty) →
      d.Suits reg io d.errNext reg.errTy)

/-- The same operation with other targets. -/
def Schema.retarget (g : Next → Next) : Schema → Schema
  | .node i o n ss => .node i o (g n) (ss.map fun e => (e.1, g e.2))
  | .transform n oe => .transform (g n) (oe.map g)
  | s => s

/-- The same diagram with other targets. -/
def Diagram.retarget (g : Name → Next → Next) (d : Diagram) : Diagram :=
  { d with ops := d.ops.map fun e => (e.1, e.2.retarget (g e.1)) }

end Verif.Diagram

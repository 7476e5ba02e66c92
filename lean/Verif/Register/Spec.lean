import Verif.Register.Model

/-
What a registration asks for, in terms of the documentation of its methods. Nothing here refers
to the state of the registry.
-/
namespace Verif.Register

/-- The common operations that are enabled. -/
def Common.Asks (c : Common) : Op → Prop
  | .deserialize => c.de = true
  | .serialize => c.ser = true
  | .clone => c.clone = true
  | _ => False

/-- Elements of a message are registered with serialization and cloning. -/
def PartOp (op : Op) : Prop := op = .serialize ∨ op = .clone

/-- The types of the elements that messages of type `t` are taken apart into. -/
def Types.partsOf (T : Types) (t : Ty) : With → List Ty
  | .unzip _ => T.elems t
  | .result _ => [T.ok t, T.err t]
  | .split _ => [T.item t, T.vec (T.item t)]
  | _ => []

/-- The operation that the method is for. -/
def With.op : With → Op
  | .unzip _ => .unzip
  | .result _ => .result
  | .split _ => .split
  | .join => .join
  | .access => .access
  | .listen => .listen
  | .toString => .toString

/-- The method is not one of the minimal variants. -/
def With.full : With → Bool
  | .unzip f => f
  | .result f => f
  | .split f => f
  | _ => true

/-- What the method of a builder for messages of type `t` asks for: its operation for messages of
type `t`, and unless it is a minimal variant, serialization and cloning for the elements. -/
def With.Asks (T : Types) (t : Ty) (w : With) (k : Ty) (op : Op) : Prop :=
  (k = t ∧ op = w.op) ∨ (w.full = true ∧ k ∈ T.partsOf t w ∧ PartOp op)

/-- What `register_message` asks for. All messages can be joined into a vector. -/
def MessageAsks (T : Types) (c : Common) (t : Ty) (withs : List With) (k : Ty) (op : Op) : Prop :=
  (k = t ∧ c.Asks op) ∨ (k = T.vec t ∧ op = .join) ∨ ∃ w, w ∈ withs ∧ w.Asks T t k op

/-- The methods of the builder of a node, in terms of those of the builder of a message. -/
def NodeWith.asWith : NodeWith → Option With
  | .unzip f => some (.unzip f)
  | .result f => some (.result f)
  | .split f => some (.split f)
  | _ => none

/-- What a method of the builder of a node asks for. -/
def NodeWith.Asks (T : Types) (req resp : Ty) (w : NodeWith) (k : Ty) (op : Op) : Prop :=
  match w with
  | .commonRequest => MessageAsks T ⟨true, true, true⟩ req [] k op
  | .cloneRequest => k = req ∧ op = .clone
  | .deserializeRequest => k = req ∧ op = .deserialize
  | .commonResponse => MessageAsks T ⟨true, true, true⟩ resp [] k op
  | .cloneResponse => k = resp ∧ op = .clone
  | .serializeResponse => k = resp ∧ op = .serialize
  | .unzip f => MessageAsks T ⟨false, false, false⟩ resp [.unzip f] k op
  | .result f => MessageAsks T ⟨false, false, false⟩ resp [.result f] k op
  | .split f => MessageAsks T ⟨false, false, false⟩ resp [.split f] k op
  | .join => k = req ∧ op = .join
  | .access => k = req ∧ op = .access
  | .listen => k = req ∧ op = .listen
  | .requestToString => k = req ∧ op = .toString
  | .responseToString => k = resp ∧ op = .toString

/-- What a registration asks for. -/
def Call.Asks (T : Types) (c : Call) (k : Ty) (op : Op) : Prop :=
  match c with
  | .message o t withs => MessageAsks T o t withs k op
  | .node o _ req resp withs =>
    ((k = req ∨ k = resp) ∧ o.Asks op) ∨ ∃ w, w ∈ withs ∧ w.Asks T req resp k op
  | .section_ fields => ∃ f, f ∈ fields ∧ MessageAsks T f.1 f.2.1 f.2.2 k op

/-- The registration says that messages of type `t` are results, in full or minimally. -/
def Call.Result (c : Call) (t : Ty) (full : Bool) : Prop :=
  match c with
  | .message _ t' withs => t' = t ∧ .result full ∈ withs
  | .node _ _ _ resp withs => resp = t ∧ .result full ∈ withs
  | .section_ fields => ∃ f, f ∈ fields ∧ f.2.1 = t ∧ .result full ∈ f.2.2

/-- No type is registered as a result both in full and minimally. -/
def OneResult (cs : List Call) : Prop :=
  ∀ t, (∃ c, c ∈ cs ∧ c.Result t true) → ¬ ∃ c, c ∈ cs ∧ c.Result t false

/-- The registrations name the type, directly or as a part of another type. -/
def Call.Mentions (T : Types) (c : Call) (k : Ty) : Prop :=
  match c with
  | .message _ t withs => k = t ∨ k = T.vec t ∨ ∃ w, w ∈ withs ∧ k ∈ T.partsOf t w
  | .node _ _ req resp withs => k = req ∨ k = resp ∨ ∃ w, w ∈ withs ∧
    ((w = .commonRequest ∧ k = T.vec req) ∨ (w = .commonResponse ∧ k = T.vec resp) ∨
      ∃ v, w.asWith = some v ∧ (k = T.vec resp ∨ k ∈ T.partsOf resp v))
  | .section_ fields => ∃ f, f ∈ fields ∧
    (k = f.2.1 ∨ k = T.vec f.2.1 ∨ ∃ w, w ∈ f.2.2 ∧ k ∈ T.partsOf f.2.1 w)

/-- The registration enables both serialization and deserialization of the type, at once. -/
def Call.Both (c : Call) (k : Ty) : Prop :=
  match c with
  | .message o t _ => k = t ∧ o.ser = true ∧ o.de = true
  | .node o _ req resp withs =>
    ((k = req ∨ k = resp) ∧ o.ser = true ∧ o.de = true) ∨
      (k = req ∧ .commonRequest ∈ withs) ∨ (k = resp ∧ .commonResponse ∈ withs)
  | .section_ fields => ∃ f, f ∈ fields ∧ k = f.2.1 ∧ f.1.ser = true ∧ f.1.de = true

/-- The node that is registered under this name by this registration. -/
def Call.node? (id : Nat) : Call → Option NodeReg
  | .node _ id' req resp _ => if id = id' then some ⟨req, resp⟩ else none
  | _ => none

/-- The last node that was registered under this name. -/
def lastNode (id : Nat) (cs : List Call) : Option NodeReg := (cs.filterMap (Call.node? id)).getLast?

end Verif.Register

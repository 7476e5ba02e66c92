/-
Model of the internal names that the diagram builder gives to operations,
src/diagram/operation_ref.rs, and of the functions of src/diagram/workflow_builder.rs that
resolve the names used in a diagram.
-/
namespace Verif.Diagram

/-- `OperationName`, an `Arc<str>`. Only equality of names matters, so names are numbers. -/
abbrev Name := Nat

/-- `NextOperation`, src/diagram.rs:99-107, with `BuiltinTarget` (src/diagram.rs:250-262). -/
inductive Next where
  | name (n : Name)
  | exposed (sec n : Name)
  | terminate
  | dispose
  | cancel
  deriving DecidableEq, Repr

/-- `OperationRef`, src/diagram/operation_ref.rs:36-42, with `NamedOperationRef` (lines
109-148) and `StreamOutRef` (lines 212-217). -/
inductive Ref where
  | named (ns : List Name) (exposed : Option Name) (n : Name)
  | terminate (ns : List Name)
  | dispose
  | cancel (ns : List Name)
  | streamOut (ns : List Name) (n : Name)
  deriving DecidableEq, Repr

/-- `OperationRef::in_namespaces`, src/diagram/operation_ref.rs:45-59, with
`apply_parent_namespaces` (lines 259-271). -/
def Ref.inNs (parents : List Name) : Ref → Ref
  | .named ns e n => .named (parents ++ ns) e n
  | .terminate ns => .terminate (parents ++ ns)
  | .dispose => .dispose
  | .cancel ns => .cancel (parents ++ ns)
  | .streamOut ns n => .streamOut (parents ++ ns) n

/-- `From<&NextOperation> for OperationRef`, src/diagram/operation_ref.rs:66-78 with lines
157-187. -/
def Ref.ofNext : Next → Ref
  | .name n => .named [] none n
  | .exposed sec n => .named [] (some sec) n
  | .terminate => .terminate []
  | .dispose => .dispose
  | .cancel => .cancel []

/-- `DiagramContext::into_operation_ref`, src/diagram/workflow_builder.rs:451-454, for an
operation whose context has the namespaces `ns`. -/
def intoRef (ns : List Name) (r : Ref) : Ref := r.inNs ns

/-- `DiagramContext::into_child_operation_ref`, src/diagram/workflow_builder.rs:456-465. -/
def intoChildRef (ns : List Name) (id : Name) (child : Ref) : Ref := (child.inNs [id]).inNs ns

/-- The namespaces that `DiagramContext::add_child_operation` gives to a child of the
operation `id`, src/diagram/workflow_builder.rs:486-487. -/
def childNs (ns : List Name) (id : Name) : List Name := ns ++ [id]

/-- `UnfinishedOperation::as_operation_ref`, src/diagram/workflow_builder.rs:982-989. -/
def opRef (ns : List Name) (id : Name) : Ref := .named ns none id

/-- `DiagramContext::get_exposed_and_inner_ids`, src/diagram/workflow_builder.rs:587-605. -/
def exposedAndInner (ns : List Name) (sec exposed : Name) (child : Next) : Ref × Ref :=
  (.named ns (some sec) exposed, (Ref.ofNext child).inNs (ns ++ [sec]))

/-- The slot that `DiagramContext::redirect_exposed_output_to_sibling` puts inside of a
section, src/diagram/workflow_builder.rs:575-581. -/
def outputSlot (ns : List Name) (sec out : Name) : Ref := (Ref.named [sec] none out).inNs ns

end Verif.Diagram

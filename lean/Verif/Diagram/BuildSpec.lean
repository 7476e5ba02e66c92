import Verif.Diagram.Spec
import Verif.Diagram.Build

/-
The notions in which the properties of whole diagrams are stated.
-/
namespace Verif.Diagram

/-- The maps of operations of the diagram and of its templates have no repeated keys, as is the
case for the hash maps of the code. -/
def Diagram.Keyed (d : Diagram) : Prop :=
  Distinct d.ops ∧ ∀ n t, (n, t) ∈ d.templates → Distinct t.ops

/-- The diagram has this operation, inside of these sections and scopes. -/
def Diagram.Has (d : Diagram) (ns : List Name) (id : Name) (s : Schema) : Prop :=
  At d.templates d.ops ns id s

/-- An order of draining a hash map: it yields the same entries. -/
def Drains (ord : Order) : Prop := ∀ n l, (ord n l).Perm l

/-- The targets that an operation names for its outputs, in order. The error output of a
transform is not included. -/
def Schema.nexts : Schema → List Next
  | .node _ _ next streams => next :: streams.map (·.2)
  | .forkClone next => next
  | .parts next => next
  | .access next _ => [next]
  | .listen next _ => [next]
  | .join next _ _ _ => [next]
  | .transform next _ => [next]
  | _ => []

/-- The operations that have an input of their own. -/
def Schema.takesInput : Schema → Bool
  | .listen _ _ | .join _ _ _ _ | .streamOut _ | .template _ _ => false
  | _ => true

/-- The output `o`, whose operation names `r`, is connected to an input: the one that `r` leads
to through redirections. -/
def Connected (s : St) (o : Out) (r : Ref) : Prop :=
  ∃ l t, l ∈ s.links ∧ l.out = o ∧ Star (PassesTo s.c.targets) r l.into ∧
    s.c.targets.lookup l.into = some t ∧ t.conn ≠ .dispose ∧
    ∀ to seen, t.conn ≠ .redirect to seen

/-- The output `o`, whose operation names `r`, is disposed of, and `r` leads to `dispose`. -/
def Disposed (s : St) (o : Out) (r : Ref) : Prop :=
  ∃ r' scope, (o, r') ∈ s.disposed ∧ Star (PassesTo s.c.targets) r r' ∧
    s.c.targets.lookup r' = some ⟨.dispose, scope⟩

/-- The output `o`, whose operation names `r`, is lost, though `r` leads to a target. -/
def Lost (s : St) (o : Out) (r : Ref) : Prop :=
  ∃ r' t, (o, r') ∈ s.lost ∧ Star (PassesTo s.c.targets) r r' ∧
    s.c.targets.lookup r' = some t

/-- The scope of the input of a connector. -/
def Conn.inScope : Conn → Option Nat
  | .slot _ scope _ => some scope
  | .cancel scope _ => some scope
  | .hop i _ _ _ _ => some i
  | .dispose => none
  | .redirect _ _ => none

/-- All connections made for this output are between an output and an input of the scope `k`.
The edges of a link are the pairs of scopes of the outputs and inputs that were connected. -/
def Link.Within (l : Link) (k : Nat) : Prop := l.edges ≠ [] ∧ ∀ p, p ∈ l.edges → p = (k, k)

/-- The response or a stream of a scope of the diagram. -/
def Diagram.ScopeEnd (d : Diagram) (r : Ref) : Prop :=
  ∃ ns id start next streams ops, d.Has ns id (.scope start next streams ops) ∧
    (r = .terminate (ns ++ [id]) ∨ ∃ n, r = .streamOut (ns ++ [id]) n)

/-- A message of the type `a` can be given to an input of the type `b`: the types are the same,
or it can be converted to or from JSON. -/
def Fits (reg : Registry) (a b : Ty) : Prop :=
  a = b ∨ (b = json ∧ reg.ser a = true) ∨ (a = json ∧ reg.de b = true)

/-- The types of the input and of the outputs that an operation may have, in the order of
`Schema.nexts`. -/
inductive Typed (reg : Registry) : Schema → Ty → List Ty → Prop where
  | node {i o next streams} : Typed reg (.node i o next streams) i (o :: streams.map (·.1))
  | forkClone {ty next} : reg.clone ty = true →
    Typed reg (.forkClone next) ty (next.map fun _ => ty)
  | parts {ty tys next} : reg.parts ty = some tys → tys.length = next.length →
    Typed reg (.parts next) ty tys
  | serialized : Typed reg (.buffer true) json []
  | buffer {ty} : Typed reg (.buffer false) ty []
  | access {ty msg hints next buffers} : reg.access ty = some (msg, hints) →
    Typed reg (.access next buffers) msg [ty]
  | transform {next onError} : Typed reg (.transform next onError) json [json]

/-- A buffer of the type `t` can be used where the hint is given. -/
def Hint.Allows : Hint → Ty → Prop
  | .exact t, t' => t = t'
  | .fallback _, _ => True

/-- The buffers that an operation inside of `ns` names exist, and are what the hints ask for. -/
def Holds (s : St) (ns : List Name) (buffers : List Next) (hints : List Hint) : Prop :=
  buffers.length = hints.length ∧ ∀ p, p ∈ buffers.zip hints →
    ∃ r t, Star (RefersTo s.c.bufs) ((Ref.ofNext p.1).inNs ns) r ∧
      s.c.bufs.lookup r = some (.value t) ∧ p.2.Allows t

/-- The buffers that an operation inside of `ns` names exist, and have these types. -/
def Are (s : St) (ns : List Name) (buffers : List Next) (tys : List Ty) : Prop :=
  buffers.length = tys.length ∧ ∀ p, p ∈ buffers.zip tys →
    ∃ r, Star (RefersTo s.c.bufs) ((Ref.ofNext p.1).inNs ns) r ∧
      s.c.bufs.lookup r = some (.value p.2)

/-- There is something that the operations inside of `ns` can name like this. -/
def Diagram.Resolves (d : Diagram) (ns : List Name) : Next → Prop
  | .name n =>
    (∃ sch, d.Has ns n sch ∧ (sch.takesInput = true ∨ ∃ s, sch = .streamOut s)) ∨
    ∃ path sec t con tmpl, ns = path ++ [sec] ∧ d.Has path sec (.template t con) ∧
      d.templates.lookup t = some tmpl ∧ n ∈ tmpl.outputs
  | .exposed sec slot =>
    ∃ t con tmpl n, d.Has ns sec (.template t con) ∧ d.templates.lookup t = some tmpl ∧
      (slot, n) ∈ tmpl.inputs ++ tmpl.buffers
  | .terminate => True
  | .dispose => True
  | .cancel => ns = []

/-- There is a buffer that the operations inside of `ns` can name like this. -/
def Diagram.ResolvesBuffer (d : Diagram) (ns : List Name) : Next → Prop
  | .name n => ∃ ser, d.Has ns n (.buffer ser)
  | .exposed sec slot =>
    ∃ t con tmpl n, d.Has ns sec (.template t con) ∧ d.templates.lookup t = some tmpl ∧
      (slot, n) ∈ tmpl.buffers
  | _ => False

end Verif.Diagram

import Verif.Diagram.Schema

/-
The notions in which the properties of the diagram builder are stated.
-/
namespace Verif.Diagram

/-- Reachability along a relation, in any number of steps. -/
inductive Star {α : Type} (R : α → α → Prop) (a : α) : α → Prop where
  | refl : Star R a a
  | tail {b c : α} : Star R a b → R b c → Star R a c

/-- Template `a` is defined and one of its operations is a section made from template `b`. -/
def UsesTemplate (ts : List (Name × Template)) (a b : Name) : Prop :=
  ∃ t : Template, ts.lookup a = some t ∧ ∃ id c, (id, Schema.template b c) ∈ t.ops

/-- Following section templates from `a` meets an unknown template. -/
def MeetsUnknown (ts : List (Name × Template)) (a : Name) : Prop :=
  ∃ b, Star (UsesTemplate ts) a b ∧ ts.lookup b = none

/-- Following section templates from `a` meets a cycle. -/
def MeetsCycle (ts : List (Name × Template)) (a : Name) : Prop :=
  ∃ b c, Star (UsesTemplate ts) a b ∧ UsesTemplate ts b c ∧ Star (UsesTemplate ts) c b

/-- An operation among `ops` is a section made from template `t`, or a scope that contains
one. -/
inductive UsedIn (t : Name) : List (Name × Schema) → Prop where
  | here {id c ops} : (id, Schema.template t c) ∈ ops → UsedIn t ops
  | inScope {id start next streams inner ops} :
    (id, Schema.scope start next streams inner) ∈ ops → UsedIn t inner → UsedIn t ops

/-- The buffer `r` stands for the buffer `r'`. -/
def RefersTo (bufs : List (Ref × BufRef)) (r r' : Ref) : Prop :=
  bufs.lookup r = some (.ref r')

/-- The operation with name `id` and content `s` is in the diagram with these root operations
and templates, inside of the sections and scopes `ns`, the outermost first. -/
inductive At (ts : List (Name × Template)) (ops : List (Name × Schema)) :
    List Name → Name → Schema → Prop where
  | root {id s} : (id, s) ∈ ops → At ts ops [] id s
  | inTemplate {ns sec name c t id s} : At ts ops ns sec (.template name c) →
    ts.lookup name = some t → (id, s) ∈ t.ops → At ts ops (ns ++ [sec]) id s
  | inScope {ns sec start next streams inner id s} :
    At ts ops ns sec (.scope start next streams inner) → (id, s) ∈ inner →
    At ts ops (ns ++ [sec]) id s

/-- The maps of operations of a diagram have no repeated keys, inside of scopes too. -/
inductive Distinct : List (Name × Schema) → Prop where
  | mk {ops} : (ops.map (·.1)).Nodup →
    (∀ id start next streams inner, (id, Schema.scope start next streams inner) ∈ ops →
      Distinct inner) → Distinct ops

/-- What the target `r` passes its outputs on to. -/
def PassesTo (targets : List (Ref × Target)) (r r' : Ref) : Prop :=
  ∃ seen scope, targets.lookup r = some ⟨.redirect r' seen, scope⟩

end Verif.Diagram

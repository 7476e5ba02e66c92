import Verif.File.Model

/-
Vocabulary for the properties of the file format.
-/
namespace Verif.File

/-- The target is not an operation that has the name of a builtin target inside of a namespace
that is called `builtin`. (`builtin` is a reserved name, src/diagram.rs:86: there is no such
namespace in a diagram that can be built.) -/
def Next.Clear : Next → Prop
  | .inside n o => n = "builtin" → ∀ b : Builtin, o ≠ b.name
  | _ => True

/-- A map, as opposed to a list of entries: no key occurs twice, and the values are `P`. -/
def MapOf {α : Type} (P : α → Prop) (m : List (String × α)) : Prop :=
  (m.map (·.1)).Nodup ∧ ∀ p ∈ m, P p.2

def Selection.Clear : Selection → Prop
  | .dict m => MapOf Next.Clear m
  | .array l => ∀ n ∈ l, n.Clear

def Remapping.Clear : Remapping → Prop
  | .forward _ => True
  | .remap m => MapOf Next.Clear m

/-- All targets in an operation are clear, and its maps are maps. -/
inductive Op.Clear : Op → Prop
  | node {b c n s t} : n.Clear → MapOf Next.Clear s → Op.Clear (.node b c n s t)
  | sect {p c m t} : MapOf Next.Clear m → Op.Clear (.sect p c m t)
  | scope {s e ops m n u} : s.Clear → (∀ x, e = some x → x.Clear) →
      (ops.map (·.1)).Nodup → (∀ p ∈ ops, Op.Clear p.2) → MapOf Next.Clear m → n.Clear →
      Op.Clear (.scope s e ops m n u)
  | streamOut {s} : Op.Clear (.streamOut s)
  | forkClone {l t} : (∀ n ∈ l, Next.Clear n) → Op.Clear (.forkClone l t)
  | unzip {l t} : (∀ n ∈ l, Next.Clear n) → Op.Clear (.unzip l t)
  | forkResult {a b t} : a.Clear → b.Clear → Op.Clear (.forkResult a b t)
  | split {l m r t} : (∀ n ∈ l, Next.Clear n) → MapOf Next.Clear m →
      (∀ x, r = some x → x.Clear) → Op.Clear (.split l m r t)
  | join {n b c s} : n.Clear → b.Clear → Op.Clear (.join n b c s)
  | transform {c n e t} : n.Clear → (∀ x, e = some x → x.Clear) → Op.Clear (.transform c n e t)
  | buffer {r s t} : Op.Clear (.buffer r s t)
  | bufferAccess {n b t} : n.Clear → b.Clear → Op.Clear (.bufferAccess n b t)
  | listen {n b} : n.Clear → b.Clear → Op.Clear (.listen n b)

structure Template.Clear (t : Template) : Prop where
  inputs : t.inputs.Clear
  buffers : t.buffers.Clear
  ops : MapOf Op.Clear t.ops

/-- All targets in a diagram are clear, its maps are maps, and its version is supported (every
diagram has version 0.1.0, or was read, src/diagram.rs:449-459). -/
structure Diagram.Clear {S : Semver} (d : Diagram S) : Prop where
  version : S.supported d.version = true
  templates : MapOf Template.Clear d.templates
  start : d.start.Clear
  onError : ∀ x, d.onError = some x → x.Clear
  ops : MapOf Op.Clear d.ops

/-- An operation read from a value of its own. -/
def readOperation (j : Json) : Option Op := readOp j.depth j

/-- The keys of a diagram, src/diagram.rs:363-402. -/
def diagramKeys : List String :=
  ["version", "templates", "start", "on_implicit_error", "ops", "default_trace"]

/-- The keys of an operation without default, by the value of `type`. A section also needs one
of `builder` and `template`. -/
def requiredKeys : List (String × List String) :=
  [("node", ["builder", "next"]), ("section", []), ("scope", ["start", "ops", "next"]),
   ("stream_out", ["name"]), ("fork_clone", ["next"]), ("unzip", ["next"]),
   ("fork_result", ["ok", "err"]), ("split", []), ("join", ["next", "buffers"]),
   ("transform", ["cel", "next"]), ("buffer", []), ("buffer_access", ["next", "buffers"]),
   ("listen", ["next", "buffers"])]

/-- The keys of an operation with default. -/
def optionalKeys : List (String × List String) :=
  [("node", ["config", "stream_out", "display_text", "trace"]),
   ("section", ["builder", "template", "config", "connect", "display_text", "trace"]),
   ("scope", ["on_implicit_error", "stream_out", "settings"]),
   ("stream_out", []), ("fork_clone", ["display_text", "trace"]),
   ("unzip", ["display_text", "trace"]), ("fork_result", ["display_text", "trace"]),
   ("split", ["sequential", "keyed", "remaining", "display_text", "trace"]),
   ("join", ["clone", "serialize"]), ("transform", ["on_error", "display_text", "trace"]),
   ("buffer", ["settings", "serialize", "display_text", "trace"]),
   ("buffer_access", ["display_text", "trace"]), ("listen", [])]

/-- The key means something for an operation of this type. -/
def Meant (type k : String) : Prop :=
  k = "type" ∨ (∃ l, requiredKeys.lookup type = some l ∧ k ∈ l) ∨
    ∃ l, optionalKeys.lookup type = some l ∧ k ∈ l

/-- An operation with one entry more, whose key has no meaning: of the operation itself, or of an
operation inside of it, at any depth. -/
inductive Padded : Json → Json → Prop
  | here {a b : List (String × Json)} {type k : String} (v : Json) :
      req (a ++ b) "type" readStr = some type → ¬ Meant type k →
      Padded (.obj (a ++ b)) (.obj (a ++ (k, v) :: b))
  | inside {j j' : Json} (a b x y : List (String × Json)) (name : String) : Padded j j' →
      Padded (.obj (a ++ ("ops", .obj (x ++ (name, j) :: y)) :: b))
        (.obj (a ++ ("ops", .obj (x ++ (name, j') :: y)) :: b))

/-- A scope around an operation. -/
def around (o : Op) : Op :=
  .scope (.name "a") none [("a", o)] [] (.builtin .terminate) false

/-- Scopes around an operation. -/
def nested (o : Op) : Nat → Op
  | 0 => o
  | n + 1 => around (nested o n)

/-- The text of a scope around an operation. -/
def aroundText (j : Json) : Json :=
  .obj [("type", .str "scope"), ("start", .str "a"), ("ops", .obj [("a", j)]),
    ("next", .obj [("builtin", .str "terminate")])]

def nestedText (j : Json) : Nat → Json
  | 0 => j
  | n + 1 => aroundText (nestedText j n)

/-- A diagram with one operation. -/
def only (S : Semver) (v : S.Version) (o : Op) : Diagram S :=
  { version := v, templates := [], start := .name "a", onError := none, ops := [("a", o)],
    trace := .off }

def onlyText (version : String) (j : Json) : Json :=
  .obj [("version", .str version), ("start", .str "a"), ("ops", .obj [("a", j)])]

/-- A diagram without operations. -/
def bare (S : Semver) (v : S.Version) (start : Next) : Diagram S :=
  { version := v, templates := [], start := start, onError := none, ops := [], trace := .off }

end Verif.File

import Verif.Graph.Model

/-
Specification for C13 and C14: paths and activity.
-/
namespace Verif.Graph

/-- A path of at least one connection from `a` to `b`, where `E a` lists the direct
successors of `a`. -/
inductive Path (E : Nat → List Nat) : Nat → Nat → Prop where
  | one {a b : Nat} : b ∈ E a → Path E a b
  | cons {a b c : Nat} : b ∈ E a → Path E b c → Path E a c

/-- All connections going out of an operation, named streams included. -/
def allTargets (w : Net) (e : Nat) : List Nat :=
  match w.lookup e with
  | none => []
  | some l => l.single.toList ++ l.fork.getD [] ++ l.anonymous ++ l.named

/-- Operations have at most one kind of output (src/operation.rs: an operation inserts
`SingleTargetStorage` or `ForkTargetStorage`, not both). -/
def OneOutput (w : Net) : Prop := ∀ e l, w.lookup e = some l → l.single = none ∨ l.fork = none

/-- No operation has named stream targets. -/
def NoNamed (w : Net) : Prop := ∀ e l, w.lookup e = some l → l.named = []

/-- The operations that directly feed an operation. -/
def Op.sources : Op → List Nat
  | .plain _ inputs => inputs
  | .join inputs => inputs.map (·.1)
  | .buffer _ gates accessors _ inputs =>
    gates.map (·.1) ++ accessors.map (·.1) ++ inputs
  | .broken => []

/-- The operations that directly feed `n`. -/
def sources (w : World) (n : Nat) : List Nat :=
  match w.lookup n with
  | some op => op.sources
  | none => []

/-- An operation that holds activity of session `s` by itself: a pending input or a
running task, or for a buffer a key that is in use. -/
def holds (w : World) (s n : Nat) : Prop :=
  match w.lookup n with
  | some (.plain active _) => active s = true
  | some (.buffer _ _ accessors active _) =>
    active s = true ∨ ∃ a ∈ accessors, a.2 s = true
  | _ => False

/-- `Live w s n`: operation `n` may still be triggered in session `s`. A plain
operation is live when it is active or one of its inputs is live. A join is live when
each of its buffers holds a value or is live. A buffer is live when a key of it is in
use or may be produced, or when its gate is open or may be opened and it has pending
input or a live input. -/
inductive Live (w : World) (s : Nat) : Nat → Prop where
  | active {n : Nat} {a : Nat → Bool} {is : List Nat} :
      w.lookup n = some (.plain a is) → a s = true → Live w s n
  | input {n : Nat} {a : Nat → Bool} {is : List Nat} {i : Nat} :
      w.lookup n = some (.plain a is) → i ∈ is → Live w s i → Live w s n
  | join {n : Nat} {is : List (Nat × (Nat → Nat))} :
      w.lookup n = some (.join is) → (∀ p ∈ is, p.2 s = 0 → Live w s p.1) → Live w s n
  | keyUsed {n : Nat} {o gs as a is} {k : Nat × (Nat → Bool)} :
      w.lookup n = some (.buffer o gs as a is) → k ∈ as → k.2 s = true → Live w s n
  | keyLive {n : Nat} {o gs as a is} {k : Nat × (Nat → Bool)} :
      w.lookup n = some (.buffer o gs as a is) → k ∈ as → Live w s k.1 → Live w s n
  | openActive {n : Nat} {o gs as a is} :
      w.lookup n = some (.buffer o gs as a is) → o s = true → a s = true → Live w s n
  | openInput {n : Nat} {o gs as a is} {i : Nat} :
      w.lookup n = some (.buffer o gs as a is) → o s = true → i ∈ is → Live w s i →
      Live w s n
  | gateActive {n : Nat} {o gs as a is} {g : Nat} :
      w.lookup n = some (.buffer o gs as a is) → (g, true) ∈ gs → Live w s g →
      a s = true → Live w s n
  | gateInput {n : Nat} {o gs as a is} {g i : Nat} :
      w.lookup n = some (.buffer o gs as a is) → (g, true) ∈ gs → Live w s g →
      i ∈ is → Live w s i → Live w s n

/-- Operations that any single live source makes live: all but joins of several
buffers and buffers whose closed gate some gate node may open. -/
def Single (s : Nat) : Op → Prop
  | .plain _ _ => True
  | .join inputs => inputs.length ≤ 1
  | .buffer isOpen gates _ _ _ => isOpen s = true ∨ ∀ g ∈ gates, g.2 = false
  | .broken => True

/-- No cycle lies upstream of `n`. -/
def NoCycleUp (w : World) (n : Nat) : Prop := Acc (fun a b => a ∈ sources w b) n

/-- Every operation that is referred to exists and its `is_reachable` works. -/
def Sane (w : World) : Prop :=
  ∀ n op, w.lookup n = some op →
    op ≠ .broken ∧ ∀ m ∈ op.sources, w.lookup m ≠ none

end Verif.Graph

import Verif.Flow.Model

/-
The notions in which C78, C79 and C80 are stated.
-/
namespace Verif.Flow

/-- Nothing is left to do: no message waits for an operation, no task and no inner session runs,
no key of a buffer is in use, and the scope knows of every disposal. -/
def Quiescent (s : State) : Prop :=
  (∀ n, s.pending n = 0) ∧ (∀ n, s.tasks n = 0) ∧ (∀ n, s.keys n = 0) ∧
    (∀ n, s.dropping n = 0) ∧ s.checks = 0

/-- The connections of the workflow exist: names are not repeated, whatever an operation sends
to exists, joins, accesses and gates have buffers, joins each once, and the terminal is the only
operation that ends the session with a response. -/
structure Wired (net : Net) : Prop where
  keys : (net.ops.map (·.1)).Nodup
  targets : ∀ n k, (n, k) ∈ net.ops → ∀ m, m ∈ k.targets → m ∈ net.ops.map (·.1)
  joins : ∀ n bs t, (n, Kind.join bs t) ∈ net.ops → bs ≠ [] ∧ (bs.map (·.1)).Nodup ∧
    ∀ b, b ∈ bs → ∃ cap, (b.1, Kind.buffer cap) ∈ net.ops
  accesses : ∀ n l bs t, (n, Kind.access l bs t) ∈ net.ops → bs ≠ [] ∧
    ∀ b, b ∈ bs → ∃ cap, (b, Kind.buffer cap) ∈ net.ops
  gates : ∀ n o bs t, (n, Kind.gate o bs t) ∈ net.ops →
    ∀ b, b ∈ bs → ∃ cap, (b, Kind.buffer cap) ∈ net.ops
  entry : net.entry ∈ net.ops.map (·.1)
  terminal : ∀ n, (n, Kind.terminate) ∈ net.ops ↔ n = net.terminal

/-- A join reads from this buffer. -/
def Joined (net : Net) (b : Nat) : Prop :=
  ∃ j bs t, (j, Kind.join bs t) ∈ net.ops ∧ b ∈ bs.map (·.1)

/-- No gate operation acts on a buffer that a join reads from. -/
def JoinsUngated (net : Net) : Prop :=
  ∀ n o bs t, (n, Kind.gate o bs t) ∈ net.ops → ∀ b, b ∈ bs → ¬ Joined net b

/-- Buffers can hold a value, joins pull their values from buffers that no other join reads and
that have no gates, inner scopes have no streams, and an access is for a single buffer. -/
structure Private (net : Net) : Prop where
  quiet : ∀ n t ss, (n, Kind.scope t ss) ∈ net.ops → ss = []
  room : ∀ n, (n, Kind.buffer (some 0)) ∉ net.ops
  pulls : ∀ n bs t, (n, Kind.join bs t) ∈ net.ops → ∀ b, b ∈ bs → b.2 = false
  own : ∀ n bs t n' bs' t', (n, Kind.join bs t) ∈ net.ops → (n', Kind.join bs' t') ∈ net.ops →
    n ≠ n' → ∀ b, b ∈ bs.map (·.1) → b ∉ bs'.map (·.1)
  ungated : JoinsUngated net
  alone : ∀ n l bs t, (n, Kind.access l bs t) ∈ net.ops → bs.length ≤ 1

/-- Inner sessions are not cancelled, keys are dropped where the scope is told about it, and
whoever uses a key of a buffer that a join reads from adds at most one value at a time. -/
def Calm (net : Net) : Ev → Prop
  | .innerCancel _ => False
  | .letGo _ => False
  | .touch _ b _ add _ => Joined net b → add ≤ 1
  | _ => True

/-- The operations that feed an operation: those that send to it, the buffers of a join or of a
`Listen`, and for a buffer also the operations that hand out its keys or work its gate. -/
def feeders (net : Net) (n : Nat) : List Nat :=
  match net.ops.lookup n with
  | some (.join bs _) => bs.map (·.1)
  | some (.access true bs _) => senders ++ bs
  | some (.buffer _) => senders ++ (net.ops.filter fun e =>
      match e.2 with
      | .access _ bs _ => bs.contains n
      | .gate _ bs _ => bs.contains n
      | _ => false).map (·.1)
  | some _ => senders
  | none => []
where senders := (net.ops.filter fun e => e.2.targets.contains n).map (·.1)

/-- No cycle of connections leads to a join of several buffers. -/
def NoLoopIntoJoin (net : Net) : Prop :=
  ∀ n bs t, (n, Kind.join bs t) ∈ net.ops → 2 ≤ bs.length →
    Acc (fun a b => a ∈ feeders net b) n

/-- Gate operations only close. -/
def GatesOnlyClose (net : Net) : Prop := ∀ n bs t, (n, Kind.gate true bs t) ∉ net.ops

/-- The gates of buffers that a join reads from were never worked. -/
def JoinsOpen (net : Net) (s : State) : Prop := ∀ b, Joined net b → s.gates b = none

end Verif.Flow

import Verif.Values.Model
import Verif.Flow.Spec

/-
The notions in which C123 is stated: what the graph of a workflow computes from a request, without
any order of execution.
-/
namespace Verif.Values

variable {α : Type}

/-- `Sends k v m u`: an operation `k` that gets `v` sends `u` to `m`. -/
inductive Sends : Kind α → α → Nat → α → Prop
  | response (a : Bool) (f : α → α) (t : Nat) (ss : List Nat) (items : α → List (List α)) (v : α) :
      Sends (.node a f t ss items) v t (f v)
  | item (a : Bool) (f : α → α) (t : Nat) (ss : List Nat) (items : α → List (List α)) (v : α)
      (i m : Nat) (us : List α) (u : α) : ss[i]? = some m → (items v)[i]? = some us → u ∈ us →
      Sends (.node a f t ss items) v m u
  | fork (ts : List Nat) (part : Nat → α → α) (v : α) (i m : Nat) : ts[i]? = some m →
      Sends (.fork ts part) v m (part i v)
  | first (a b : Nat) (f : α → α ⊕ α) (v u : α) : f v = .inl u → Sends (.branch a b f) v a u
  | second (a b : Nat) (f : α → α ⊕ α) (v u : α) : f v = .inr u → Sends (.branch a b f) v b u
  | filter (t : Nat) (f : α → Option α) (v u : α) : f v = some u → Sends (.filter t f) v t u
  | spread (t : Nat) (f : α → List α) (v u : α) : u ∈ f v → Sends (.spread t f) v t u
  | split (ts : List Nat) (f : α → List (List α)) (v : α) (i m : Nat) (us : List α) (u : α) :
      ts[i]? = some m → (f v)[i]? = some us → u ∈ us → Sends (.split ts f) v m u

/-- `Comes w x n v`: from the request `x` the graph computes the message `v` for operation `n`.
A join may combine any values that come to its buffers. -/
inductive Comes (w : Work α) (x : α) : Nat → α → Prop
  | entry : Comes w x w.entry x
  | send (n : Nat) (v : α) (k : Kind α) (m : Nat) (u : α) : Comes w x n v →
      w.ops.lookup n = some k → Sends k v m u → Comes w x m u
  | join (j : Nat) (bs : List (Nat × Bool)) (t : Nat) (pack : List α → α) (vs : List α) :
      w.ops.lookup j = some (.join bs t pack) → bs ≠ [] → vs.length = bs.length →
      (∀ (i : Nat) (b : Nat × Bool) (v : α), bs[i]? = some b → vs[i]? = some v →
        Comes w x b.1 v) → Comes w x t (pack vs)

/-- A join reads from this buffer. -/
def Joined (w : Work α) (b : Nat) : Prop :=
  ∃ j bs t pack, w.ops.lookup j = some (.join bs t pack) ∧ b ∈ bs.map (·.1)

/-- The workflow has no races at its joins: a buffer from which a join pulls is read by no other
join, and the graph computes one value for each buffer that a join reads, which has room for it. -/
structure Orderly (w : Work α) (x : α) : Prop where
  own : ∀ j bs t pack j' bs' t' pack' b, w.ops.lookup j = some (.join bs t pack) →
    w.ops.lookup j' = some (.join bs' t' pack') → (b, false) ∈ bs → b ∈ bs'.map (·.1) → j = j'
  one : ∀ b v v', Joined w b → Comes w x b v → Comes w x b v' → v = v'
  room : ∀ b r, w.ops.lookup b = some (.buffer r) → capacity r ≠ some 0

/-- The graph sends nothing to an operation that cancels the workflow. -/
def Uncancelled (w : Work α) (x : α) : Prop :=
  ∀ n v, w.ops.lookup n = some .cancel → ¬ Comes w x n v

/-- Nothing is left to do. -/
def Rests (s : State α) : Prop :=
  (∀ n, s.pending n = []) ∧ (∀ n, s.wakes n = 0) ∧ (∀ n, s.tasks n = []) ∧ s.checks = 0

/-- Tasks are not dropped before they end. -/
def Kept : Ev → Prop
  | .lose _ _ => False
  | _ => True

/-- The session has ended, or nothing is left to do in it. -/
def Over (s : State α) : Prop := s.status ≠ .active ∨ Rests s

/-- The workflow has no loops: its operations can be numbered so that every connection leads to a
greater number. Nothing is sent to a join, which only reads its buffers (its entity is no input
slot, src/operation/join.rs:35-58). -/
structure Layered (w : Work α) : Prop where
  order : ∃ depth : Nat → Nat,
    (∀ n k m, w.ops.lookup n = some k → m ∈ k.shape.targets → depth n < depth m) ∧
    ∀ j bs t pack b, w.ops.lookup j = some (.join bs t pack) → b ∈ bs → depth b.1 < depth j
  plain : ∀ n k m, w.ops.lookup n = some k → m ∈ k.shape.targets →
    ∀ bs t pack, w.ops.lookup m ≠ some (.join bs t pack)
  begins : ∀ bs t pack, w.ops.lookup w.entry ≠ some (.join bs t pack)

/-- The session after the first `n` events of an endless schedule. -/
def after (w : Work α) (x : α) (f : Nat → Ev) (n : Nat) : State α :=
  run w (start w x) ((List.range n).map f)

/-- Tasks are not dropped, and as long as something can happen something happens sooner or later.
Nothing is said about what happens first, or that everything gets its turn. -/
structure Progress (w : Work α) (x : α) (f : Nat → Ev) : Prop where
  kept : ∀ n, Kept (f n)
  goes : ∀ n e, Kept e → step w (after w x f n) e ≠ after w x f n →
    ∃ m, n ≤ m ∧ after w x f m ≠ after w x f n

end Verif.Values
